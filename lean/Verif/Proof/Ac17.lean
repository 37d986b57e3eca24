import Verif.Model.Ac17
import Verif.Proof.Common
import Verif.Proof.Msp
import Mathlib.Algebra.BigOperators.Group.List.Lemmas
import Mathlib.Algebra.BigOperators.Ring.List
import Mathlib.Tactic.Module
import Mathlib.Tactic.FieldSimp

/-!
# AC17: shape of keys and ciphertexts, correctness
-/

set_option linter.unusedSectionVars false
set_option linter.unnecessarySeqFocus false

namespace Rabe
namespace Ac17

variable {F G1 G2 Gt : Type} [Field F] [DecidableEq F] [AddCommGroup G1] [Module F G1]
  [AddCommGroup G2] [Module F G2] [AddCommGroup Gt] [Module F Gt]

/-- The exponents of the master key. -/
structure Params (F : Type) where
  a0 : F
  a1 : F
  b0 : F
  b1 : F
  k0 : F
  k1 : F
  k2 : F

/-- Public and master key belong to the given exponents. -/
structure IsSetup (env : Env F G1 G2 Gt) (pk : PublicKey G1 G2 Gt) (msk : MasterKey F G1 G2) (P : Params F) : Prop where
  g : pk.g = msk.g
  hA : pk.hA = [P.a0 • msk.h, P.a1 • msk.h, msk.h]
  e : pk.eGhKa = [(P.k0 * P.a0 + P.k2) • env.pair msk.g msk.h, (P.k1 * P.a1 + P.k2) • env.pair msk.g msk.h]
  gK : msk.gK = [P.k0 • msk.g, P.k1 • msk.g, P.k2 • msk.g]
  a : msk.a = [P.a0, P.a1]
  b : msk.b = [P.b0, P.b1]

theorem setup_ok {env : Env F G1 G2 Gt} {t pk msk t'} (h : setup env t = .ok ((pk, msk), t')) :
    ∃ P, IsSetup env pk msk P := by
  simp only [setup, RM.bind_ok, RM.genG1, RM.genG2, RM.genFr, RM.pure_ok, Res.ok.injEq, Prod.mk.injEq] at h
  obtain ⟨g1, t1, ⟨rfl, rfl⟩, g2, t2, ⟨rfl, rfl⟩, a0, t3, ⟨rfl, rfl⟩, b0, t4, ⟨rfl, rfl⟩, a1, t5, ⟨rfl, rfl⟩,
    b1, t6, ⟨rfl, rfl⟩, k0, t7, ⟨rfl, rfl⟩, k1, t8, ⟨rfl, rfl⟩, k2, t9, ⟨rfl, rfl⟩, ⟨rfl, rfl⟩, _⟩ := h
  exact ⟨⟨_, _, _, _, _, _, _⟩, ⟨rfl, rfl, rfl, rfl, rfl, rfl⟩⟩

/-- The exponent of the hash of `s`, `l`, `t`. -/
def hx (env : Env F G1 G2 Gt) (s : Str) (l t : ℕ) : F := env.hash (hashIn s l t)

/-- The combination `Σ_l br_l · hash(s, l, t)`. -/
def hs (env : Env F G1 G2 Gt) (s : Str) (P : Params F) (r0 r1 : F) (t : ℕ) : F :=
  P.b0 * r0 * hx env s 0 t + P.b1 * r1 * hx env s 1 t + (r0 + r1) * hx env s 2 t

theorem hashSum_eq (env : Env F G1 G2 Gt) (g : G1) (s : Str) (P : Params F) (r0 r1 ai : F) (t : ℕ) (acc : G1) :
    hashSum env g s [P.b0 * r0, P.b1 * r1, 0 + r0 + r1] ai t acc = acc + (hs env s P r0 r1 t * ai) • g := by
  simp only [hashSum, List.foldl_cons, List.foldl_nil, List.getD_cons_zero, List.getD_cons_succ, Env.sha3Hash, hs, hx]
  module

/-- Key component of one attribute. -/
def keyVec (env : Env F G1 G2 Gt) (g : G1) (P : Params F) (r0 r1 : F) (s : Str) (σ : F) : List G1 :=
  [((hs env s P r0 r1 0 + σ) * P.a0⁻¹) • g, ((hs env s P r0 r1 1 + σ) * P.a1⁻¹) • g, (-σ) • g]

/-- The key is an output of `cp_keygen` for the attributes `attrs` and exponents `r0`, `r1`. -/
structure IsCpKey (env : Env F G1 G2 Gt) (msk : MasterKey F G1 G2) (P : Params F) (attrs : List Str)
    (sk : CpSecretKey G1 G2) (r0 r1 σ : F) : Prop where
  a0 : P.a0 ≠ 0
  a1 : P.a1 ≠ 0
  attr : sk.attr = attrs
  k0 : sk.sk.k0 = [(P.b0 * r0) • msk.h, (P.b1 * r1) • msk.h, (r0 + r1) • msk.h]
  k : List.Forall₂ (fun a (x : Str × List G1) => ∃ τ : F, x = (a, keyVec env msk.g P r0 r1 a τ)) attrs sk.sk.k
  kP : sk.sk.kP = [P.k0 • msk.g + ((hs env (chars% "01") P r0 r1 0 + σ) * P.a0⁻¹) • msk.g,
    P.k1 • msk.g + ((hs env (chars% "01") P r0 r1 1 + σ) * P.a1⁻¹) • msk.g, P.k2 • msk.g + (-σ) • msk.g]

theorem inv_ok_iff {x y : F} : inv x = .ok y ↔ x ≠ 0 ∧ y = x⁻¹ := by
  unfold inv
  by_cases h : x = 0
  · simp [h]
  · simp [h, eq_comm]

theorem cpKeygen_exact {env : Env F G1 G2 Gt} {pk msk} {P : Params F} (hs' : IsSetup env pk msk P) {attrs t sk t'}
    (h : cpKeygen env msk attrs t = .ok (sk, t')) :
    attrs ≠ [] ∧ ∃ σ, IsCpKey env msk P attrs sk (t.fr 0) (t.fr 1) σ := by
  unfold cpKeygen at h
  split at h
  · simp at h
  · rename_i hne
    have hne' : attrs ≠ [] := by rintro rfl; simp at hne
    simp only [RM.bind_ok, RM.genFr, RM.lift_ok_iff, RM.pure_ok, Res.ok.injEq, Prod.mk.injEq] at h
    obtain ⟨r0, t1, ⟨rfl, rfl⟩, r1, t2, ⟨rfl, rfl⟩, br, t3, ⟨hbr, rfl⟩, k, t4, hk, σ, t5, ⟨rfl, rfl⟩, kp, t6,
      ⟨hkp, rfl⟩, gk2, t7, ⟨hgk, rfl⟩, rfl, _⟩ := h
    simp only [brVec, hs'.b, Res.index, List.getElem?_cons_zero, List.getElem?_cons_succ, Res.unwrapOption_some,
      Res.ok_bind, Res.ok.injEq] at hbr
    subst hbr
    simp only [Res.index, hs'.gK, List.getElem?_cons_succ, List.getElem?_cons_zero, Res.unwrapOption_some,
      Res.ok.injEq] at hgk
    subst hgk
    simp only [Res.mapR, Res.rbind_eq, aInverse, Res.index, hs'.gK, hs'.a, List.getElem?_cons_succ,
      List.getElem?_cons_zero, Res.unwrapOption_some, Res.ok_bind, Res.bind_eq_ok, Res.ok.injEq, inv_ok_iff,
      hashSum_eq] at hkp
    obtain ⟨_, ⟨_, ⟨h0, rfl⟩, rfl⟩, _, ⟨_, ⟨_, ⟨h1, rfl⟩, rfl⟩, _, rfl, rfl⟩, rfl⟩ := hkp
    rw [show t.fr 1 = dropS 1 t.fr 0 from rfl]
    refine ⟨hne', t4.fr 0, ⟨h0, h1, rfl, by simp, ?_, ?_⟩⟩
    · refine (RM.mapL_ok hk).imp ?_
      rintro a x ⟨s, s', hx⟩
      simp only [cpKeygenAttr, RM.bind_ok, RM.genFr, RM.lift_ok_iff, RM.pure_ok, Res.ok.injEq, Prod.mk.injEq,
        Res.mapR, Res.rbind_eq, aInverse, Res.index, hs'.a, List.getElem?_cons_succ,
        List.getElem?_cons_zero, Res.unwrapOption_some, Res.ok_bind, Res.bind_eq_ok, inv_ok_iff,
        hashSum_eq] at hx
      obtain ⟨τ, s1, ⟨rfl, rfl⟩, ks, s2, ⟨⟨_, ⟨_, ⟨_, rfl⟩, rfl⟩, _, ⟨_, ⟨_, ⟨_, rfl⟩, rfl⟩, _, rfl, rfl⟩, rfl⟩, rfl⟩,
        rfl, _⟩ := hx
      refine ⟨s.fr 0, ?_⟩
      simp only [keyVec, List.cons_append, List.nil_append, Prod.mk.injEq, List.cons.injEq, true_and, and_true]
      constructor <;> module
    · simp only [List.cons_append, List.nil_append, List.cons.injEq, and_true]
      constructor <;> module

theorem cpKeygen_ok {env : Env F G1 G2 Gt} {pk msk} {P : Params F} (hs' : IsSetup env pk msk P) {attrs t sk t'}
    (h : cpKeygen env msk attrs t = .ok (sk, t')) :
    attrs ≠ [] ∧ ∃ r0 r1 σ, IsCpKey env msk P attrs sk r0 r1 σ :=
  ⟨(cpKeygen_exact hs' h).1, _, _, (cpKeygen_exact hs' h).2⟩

/-! ## Ciphertexts -/

theorem addEntry_eq {e : ℤ} (h : e = -1 ∨ e = 0 ∨ e = 1) (acc x : G1) : addEntry e acc x = acc + (e : F) • x := by
  rcases h with rfl | rfl | rfl <;> simp [addEntry, sub_eq_add_neg]

/-- The combination `Σ_j row_j · hash("0"(j+1), l, t)`. -/
def colSum (env : Env F G1 G2 Gt) (row : List ℤ) (cols l t : ℕ) : F :=
  ((List.range cols).map fun j => ((row.getD j 0 : ℤ) : F) * hx env (colName (j + 1)) l t).sum

theorem small_getD {row : List ℤ} (h : Small row) (j : ℕ) :
    row.getD j 0 = -1 ∨ row.getD j 0 = 0 ∨ row.getD j 0 = 1 := by
  rw [List.getD_eq_getElem?_getD]
  by_cases hj : j < row.length
  · rw [List.getElem?_eq_getElem hj]
    exact h _ (List.getElem_mem hj)
  · rw [List.getElem?_eq_none (by omega)]
    simp

theorem foldl_addEntry {α : Type} (e : α → ℤ) (x : α → F) (g : G1) (he : ∀ j, e j = -1 ∨ e j = 0 ∨ e j = 1) (L : List α) :
    ∀ acc : G1, L.foldl (fun acc j => addEntry (e j) acc (x j • g)) acc =
      acc + (L.map fun j => (e j : F) * x j).sum • g := by
  induction L with
  | nil => intro acc; simp
  | cons j L ih =>
    intro acc
    simp only [List.foldl_cons, ih, List.map_cons, List.sum_cons]
    rw [addEntry_eq (F := F) (he j)]
    module

theorem rowHash_eq (env : Env F G1 G2 Gt) (g : G1) (name : Str) {row : List ℤ} (hr : Small row) (cols l t : ℕ) :
    rowHash env g name row cols l t = (hx env name l t + colSum env row cols l t) • g := by
  simp only [rowHash, Env.sha3Hash]
  rw [foldl_addEntry (fun j => row.getD j 0) (fun j => env.hash (hashIn (colName (j + 1)) l t)) g (small_getD hr),
    ← add_smul]
  rfl

/-- Ciphertext component of one row. -/
def ctVec (g : G1) (s0 s1 : F) (x : ℕ → ℕ → F) : List G1 :=
  [(s0 * x 0 0 + s1 * x 0 1) • g, (s0 * x 1 0 + s1 * x 1 1) • g, (s0 * x 2 0 + s1 * x 2 1) • g]

/-- Exponents of the component of the row of a leaf. -/
def rowX (env : Env F G1 G2 Gt) (row : List ℤ) (cols : ℕ) (name : Str) (l t : ℕ) : F :=
  hx env name l t + colSum env row cols l t

/-- The part common to both kinds of ciphertexts. -/
structure IsBody (env : Env F G1 G2 Gt) (msk : MasterKey F G1 G2) (P : Params F) (ct : Ciphertext G1 G2 Gt)
    (msg : Gt) (s0 s1 : F) : Prop where
  c0 : ct.c0 = [(s0 * P.a0) • msk.h, (s1 * P.a1) • msk.h, (s0 + s1) • msk.h]
  cP : ct.cP = (s0 * (P.k0 * P.a0 + P.k2) + s1 * (P.k1 * P.a1 + P.k2)) • env.pair msk.g msk.h + msg

theorem c0Vec_eq {env : Env F G1 G2 Gt} {pk msk} {P : Params F} (hs' : IsSetup env pk msk P) (s0 s1 : F) :
    c0Vec pk s0 s1 = .ok [(s0 * P.a0) • msk.h, (s1 * P.a1) • msk.h, (s0 + s1) • msk.h] := by
  simp [c0Vec, hs'.hA, Res.index, smul_smul]

theorem cPrime_eq {env : Env F G1 G2 Gt} {pk msk} {P : Params F} (hs' : IsSetup env pk msk P) (s0 s1 : F) :
    cPrime pk s0 s1 = .ok ((s0 * (P.k0 * P.a0 + P.k2) + s1 * (P.k1 * P.a1 + P.k2)) • env.pair msk.g msk.h) := by
  simp only [cPrime, hs'.e, Res.index, List.getElem?_cons_succ, List.getElem?_cons_zero, Res.unwrapOption_some,
    Res.ok_bind, Res.ok.injEq]
  module

/-- The matrix of a policy, as a function of the leaves. -/
structure IsMsp (p : Pol) (msp : AbePolicy) (row : Str × ℕ → List ℤ) : Prop where
  c : msp.c = 1 + p.andCount
  rows : (p.leaves.map fun l => rowFun (row l)) = mrows p (evec 0 1) 1
  small : ∀ l ∈ p.leaves, (row l).length = msp.c ∧ Small (row l)
  perm : (msp.pi.zip msp.m).Perm (p.leaves.map fun l => (l.1, row l))
  row0 : ∃ r, msp.m[0]? = some r ∧ r.length = msp.c

theorem leaves_ne_nil : ∀ {p : Pol}, p.Wide → p.leaves ≠ [] := by
  intro p
  induction p using Pol.ind with
  | hl n c => intro _; simp
  | hg op cs ih =>
    intro hw h
    simp only [Pol.Wide, Pol.arity_gate] at hw ih
    cases cs with
    | nil => simp at hw
    | cons d ds =>
      simp only [Pol.leaves_gate, List.flatMap_cons, List.append_eq_nil_iff] at h
      exact ih d (by simp) (hw.2 d (by simp)) h.1

theorem msp_exists {p : Pol} (hb : p.Binary) (hn : p.leaves.Nodup) :
    ∃ msp row, calculateMsp p.toValue = .ok msp ∧ IsMsp p msp row := by
  obtain ⟨msp, R, hm, hc, hR, hRl, hperm, _, hmR, _⟩ := calculateMsp_eq p hb
  have hlen : R.length = p.leaves.length := by
    have := congrArg List.length hR
    rwa [List.length_map, mrows_length p hb] at this
  obtain ⟨row, hrow⟩ := exists_map_eq (β := List ℤ) hn hlen
  refine ⟨msp, row, hm, ⟨hc, ?_, ?_, ?_, ?_⟩⟩
  · rw [← hR, ← hrow, List.map_map]; rfl
  · intro l hl
    exact hRl _ (hrow ▸ List.mem_map.2 ⟨l, hl, rfl⟩)
  · refine hperm.trans ?_
    rw [Pol.names, ← hrow, zip_map_self]
  · have : msp.m ≠ [] := by
      intro h
      have := hmR.length_eq
      rw [h, hlen] at this
      exact leaves_ne_nil hb.wide (List.length_eq_zero_iff.1 (by simpa using this.symm))
    cases hmm : msp.m with
    | nil => exact absurd hmm this
    | cons r rs =>
      refine ⟨r, by simp, (hRl r ?_).1⟩
      exact hmR.mem_iff.1 (by rw [hmm]; simp)

theorem cpEncrypt_ok {env : Env F G1 G2 Gt} {pk msk} {P : Params F} (hs' : IsSetup env pk msk P)
    {policy lang pt t ct t'} {p : Pol} {v : PolicyValue} (hp : parse policy lang = .ok v) {msp row}
    (hm : calculateMsp v = .ok msp) (hM : IsMsp p msp row)
    (h : cpEncrypt env pk policy pt lang t = .ok (ct, t')) :
    ct.policy = (policy, lang) ∧ ∃ msg s0 s1, IsBody env msk P ct.ct msg s0 s1 ∧
      ct.ct.c.Perm (p.leaves.map fun l => (l.1, ctVec msk.g s0 s1 (rowX env (row l) msp.c l.1))) ∧
      decryptSymmetric env msg ct.ct.ct = .ok pt := by
  obtain ⟨r, hr, hrl⟩ := hM.row0
  simp only [cpEncrypt, RM.bind_ok, RM.genFr, RM.genGt, RM.lift_ok_iff, RM.pure_ok, hp,
    Res.ok.injEq, Prod.mk.injEq, c0Vec_eq hs', cPrime_eq hs', Res.index, Res.unwrapOption] at h
  obtain ⟨_, _, ⟨rfl, rfl⟩, msp', _, ⟨hm', rfl⟩, r', _, ⟨hr', rfl⟩, s0, t1, ⟨rfl, rfl⟩, s1, t2, ⟨rfl, rfl⟩, _, _,
    ⟨rfl, rfl⟩, _, _, ⟨rfl, rfl⟩, msg, t3, ⟨rfl, rfl⟩, data, t4, hd, rfl, _⟩ := h
  rw [hm] at hm'
  obtain rfl := Res.ok.inj hm'
  rw [hr] at hr'
  obtain rfl := Res.ok.inj hr'
  refine ⟨rfl, _, _, _, ⟨rfl, rfl⟩, ?_, encryptSymmetric_ok hd⟩
  simp only [hrl]
  refine (hM.perm.map _).trans ?_
  rw [List.map_map]
  refine List.Perm.of_eq (List.map_congr_left fun l hl => ?_)
  simp only [Function.comp, cpEncRow, ctVec, rowX, Prod.mk.injEq, true_and, List.map_cons, List.map_nil,
    rowHash_eq env msk.g _ (hM.small l hl).2, hs'.g, zero_add]
  simp only [smul_smul, ← add_smul]

/-! ## Selected components -/

/-- The components named like the leaves `L` are `f`. -/
def Sel (entries : List (Str × List G1)) (L : List (Str × ℕ)) (f : Str × ℕ → List G1) : Prop :=
  ∀ l ∈ L, entries.filter (fun e => e.1 == l.1) = [(l.1, f l)]

theorem matchSum_eq (entries : List (Str × List G1)) (i : ℕ) (name : Str) (v : List G1) (y : G1)
    (h : entries.filter (fun e => e.1 == name) = [(name, v)]) (hv : v[i]? = some y) (acc : G1) :
    matchSum entries i acc name = .ok (acc + y) := by
  have none : ∀ (es : List (Str × List G1)) (acc : G1), es.filter (fun e => e.1 == name) = [] →
      matchSum es i acc name = .ok acc := by
    intro es
    induction es with
    | nil => intro acc _; rfl
    | cons e es ih =>
      intro acc h
      rw [List.filter_cons] at h
      split at h
      · simp at h
      · rename_i he
        have := ih acc h
        simp only [matchSum, Res.foldR, Res.rbind_eq] at this ⊢
        rw [if_neg he, Res.ok_bind]
        exact this
  induction entries generalizing acc with
  | nil => simp at h
  | cons e es ih =>
    rw [List.filter_cons] at h
    split at h
    · rename_i he
      rw [List.cons.injEq] at h
      have := none es (acc + y) h.2
      simp only [matchSum, Res.foldR, Res.rbind_eq] at this ⊢
      rw [if_pos he, h.1]
      simp only [Res.index, hv, Res.unwrapOption_some, Res.ok_bind]
      exact this
    · rename_i he
      have := ih h acc
      simp only [matchSum, Res.foldR, Res.rbind_eq] at this ⊢
      rw [if_neg he, Res.ok_bind]
      exact this

theorem listSum_eq (entries : List (Str × List G1)) (i : ℕ) (L : List (Str × ℕ)) (f : Str × ℕ → List G1)
    (y : Str × ℕ → G1) (h : Sel entries L f) (hy : ∀ l ∈ L, (f l)[i]? = some (y l)) :
    listSum entries i (L.map leafKey) = .ok (L.map y).sum := by
  have gen : ∀ acc, Res.foldR (fun acc (cur : Str × Str) => matchSum entries i acc cur.1) acc (L.map leafKey) =
      .ok (acc + (L.map y).sum) := by
    induction L with
    | nil => intro acc; simp [Res.foldR]
    | cons l L ih =>
      intro acc
      simp only [List.map_cons, Res.foldR, Res.rbind_eq, leafKey]
      rw [matchSum_eq entries i l.1 (f l) (y l) (h l (by simp)) (hy l (by simp))]
      simp only [Res.ok_bind, List.sum_cons]
      rw [ih (fun l hl => h l (by simp [hl])) (fun l hl => hy l (by simp [hl])), add_assoc]
  rw [listSum, gen, zero_add]

theorem filter_of_count {β : Type} {xs : List (Str × β)} {n : Str} (h : (xs.map Prod.fst).count n = 1) :
    ∃ v, xs.filter (fun e => e.1 == n) = [(n, v)] ∧ (n, v) ∈ xs := by
  have hl : (xs.filter (fun e => e.1 == n)).length = 1 := by
    rw [← h, List.count, List.countP_map, List.countP_eq_length_filter]
    rfl
  obtain ⟨⟨m, v⟩, hv⟩ := List.length_eq_one_iff.1 hl
  have hm : (m, v) ∈ xs.filter (fun e => e.1 == n) := by rw [hv]; simp
  rw [List.mem_filter] at hm
  have : m = n := by simpa using hm.2
  subst this
  exact ⟨v, hv, hm.1⟩

theorem sel_of_leaves {entries : List (Str × List G1)} {p : Pol} {f : Str × ℕ → List G1}
    (hperm : entries.Perm (p.leaves.map fun l => (l.1, f l))) {L : List (Str × ℕ)} (hL : L.Sublist p.leaves)
    (hc : ∀ l ∈ L, p.names.count l.1 = 1) : Sel entries L f := by
  intro l hl
  have hlp := hL.subset hl
  have h1 : ((p.leaves.map fun l => (l.1, f l)).map Prod.fst).count l.1 = 1 := by
    rw [List.map_map]
    exact hc l hl
  obtain ⟨v, hv, hvm⟩ := filter_of_count h1
  have h2 := hperm.filter (fun e => e.1 == l.1)
  rw [hv] at h2
  have hmem : (l.1, f l) ∈ (p.leaves.map fun l => (l.1, f l)).filter (fun e => e.1 == l.1) := by
    rw [List.mem_filter]
    exact ⟨List.mem_map.2 ⟨l, hlp, rfl⟩, by simp⟩
  rw [hv, List.mem_singleton] at hmem
  rw [← hmem] at h2
  exact List.perm_singleton.1 h2

theorem sel_of_attrs {entries : List (Str × List G1)} {attrs : List Str} {T : Type} {vec : Str → T → List G1}
    (h : List.Forall₂ (fun a (x : Str × List G1) => ∃ τ, x = (a, vec a τ)) attrs entries) {L : List (Str × ℕ)}
    (hL : ∀ l ∈ L, attrs.count l.1 = 1) (t0 : T) : ∃ τ : Str × ℕ → T, Sel entries L fun l => vec l.1 (τ l) := by
  have key : ∀ l : Str × ℕ, ∃ τ, l ∈ L → entries.filter (fun e => e.1 == l.1) = [(l.1, vec l.1 τ)] := by
    intro l
    by_cases hl : l ∈ L
    · have h1 : (entries.map Prod.fst).count l.1 = 1 := by
        have : entries.map Prod.fst = attrs := by
          have := Forall₂.map_eq (f := id) (g := fun x : Str × List G1 => x.1) h (by
            rintro a x ⟨τ, rfl⟩; rfl)
          simpa using this
        rw [this]
        exact hL l hl
      obtain ⟨v, hv, hvm⟩ := filter_of_count h1
      obtain ⟨a, _, τ, ha⟩ := Forall₂.mem_right h _ hvm
      obtain ⟨rfl, rfl⟩ := Prod.mk.inj ha
      exact ⟨τ, fun _ => hv⟩
    · exact ⟨t0, fun h => absurd h hl⟩
  exact ⟨fun l => (key l).choose, fun l hl => (key l).choose_spec hl⟩

theorem sum_smul_map {α : Type} (L : List α) (f : α → F) (g : G1) :
    (L.map fun l => f l • g).sum = (L.map f).sum • g := by
  induction L with
  | nil => simp
  | cons x xs ih => simp only [List.map_cons, List.sum_cons, ih, add_smul]

theorem hs_sum (env : Env F G1 G2 Gt) (P : Params F) (r0 r1 : F) (t : ℕ) (L : List (Str × ℕ)) (τ : Str × ℕ → F) :
    (L.map fun l => hs env l.1 P r0 r1 t + τ l).sum =
      P.b0 * r0 * (L.map fun l => hx env l.1 0 t).sum + P.b1 * r1 * (L.map fun l => hx env l.1 1 t).sum +
      (r0 + r1) * (L.map fun l => hx env l.1 2 t).sum + (L.map τ).sum := by
  induction L with
  | nil => simp
  | cons x xs ih =>
    simp only [List.map_cons, List.sum_cons]
    rw [ih]
    simp only [hs]
    ring

/-- Exchange of the sums over leaves and columns. -/
theorem col_exchange (L : List (Str × ℕ)) (row : Str × ℕ → ℕ → ℤ) (C : ℕ → F) (cols : ℕ) :
    (L.map fun l => ((List.range cols).map fun j => ((row l j : ℤ) : F) * C j).sum).sum =
      ((List.range cols).map fun j => (((L.map fun l => row l j).sum : ℤ) : F) * C j).sum := by
  induction L with
  | nil => simp
  | cons x xs ih =>
    simp only [List.map_cons, List.sum_cons, ih, Int.cast_add, add_mul]
    rw [List.sum_map_add]

theorem range_first (C : ℕ → F) (n : ℕ) :
    ((List.range (1 + n)).map fun j => (((if j = 0 then 1 else 0 : ℤ)) : F) * C j).sum = C 0 := by
  rw [Nat.add_comm, List.range_succ_eq_map]
  simp only [List.map_cons, List.sum_cons, List.map_map, if_true, Int.cast_one, one_mul]
  have : ((List.range n).map ((fun j => (((if j = 0 then 1 else 0 : ℤ)) : F) * C j) ∘ Nat.succ)).sum = 0 := by
    apply List.sum_eq_zero
    intro x hx
    obtain ⟨j, _, rfl⟩ := List.mem_map.1 hx
    simp
  rw [this, add_zero]

/-- The selected rows of the matrix add up to the target vector. -/
theorem pick_rows {p : Pol} {msp row} (hM : IsMsp p msp row) (hb : p.Binary) {A : List Str} (hA : p.sat A = true) (j : ℕ) :
    ((pick A p).map fun l => (row l).getD j 0).sum = if j = 0 then 1 else 0 := by
  have hs := pick_sum A (fun l => rowFun (row l)) p hb hA (evec 0 1) 1 hM.rows
  have := congrFun hs j
  rw [show (if j = 0 then (1 : ℤ) else 0) = evec 0 1 j from rfl, ← this]
  generalize pick A p = L
  induction L with
  | nil => rfl
  | cons x xs ih => simp only [List.map_cons, List.sum_cons, Pi.add_apply, ih]; rfl

theorem rowX_sum (env : Env F G1 G2 Gt) {p : Pol} {msp row} (hM : IsMsp p msp row) (hb : p.Binary) {A : List Str}
    (hA : p.sat A = true) (l t : ℕ) :
    ((pick A p).map fun x => rowX env (row x) msp.c x.1 l t).sum =
      ((pick A p).map fun x => hx env x.1 l t).sum + hx env (colName 1) l t := by
  simp only [rowX]
  rw [List.sum_map_add]
  congr 1
  simp only [colSum]
  rw [col_exchange (pick A p) (fun l j => (row l).getD j 0) (fun j => hx env (colName (j + 1)) l t)]
  simp only [pick_rows hM hb hA, hM.c]
  exact range_first (fun j => hx env (colName (j + 1)) l t) _

theorem colName_one : colName 1 = chars% "01" := rfl

/-! ## Decryption -/

/-- `cpRecover` after the policy has been read. -/
def cpFrom (env : Env F G1 G2 Gt) (sk : CpSecretKey G1 G2) (ct : CpCiphertext G1 G2 Gt) (pol : PolicyValue) : Res Gt :=
  if traversePolicy sk.attr pol .leaf = false then .err
  else do
    let pruned ← calcPruned sk.attr pol none
    if pruned.1 then do
      let prods ← Res.foldR (cpDecStep env sk.sk ct.ct pruned.2) (0, 0) [0, 1, 2]
      .ok (ct.ct.cP + (prods.2 + -prods.1))
    else .err

theorem cpRecover_from {env : Env F G1 G2 Gt} {sk : CpSecretKey G1 G2} {ct : CpCiphertext G1 G2 Gt} {v : PolicyValue}
    (h : parse ct.policy.1 ct.policy.2 = .ok v) : cpRecover env sk ct = cpFrom env sk ct v := by
  simp only [cpRecover, h, Res.ok_bind, cpFrom]

theorem cpFrom_ok {env : Env F G1 G2 Gt} {msk : MasterKey F G1 G2} {P : Params F} {attrs sk r0 r1 σ}
    (hk : IsCpKey env msk P attrs sk r0 r1 σ) {p : Pol} (hb : p.Binary) {msp row} (hM : IsMsp p msp row)
    {ct : CpCiphertext G1 G2 Gt} {msg s0 s1}
    (hc : IsBody env msk P ct.ct msg s0 s1)
    (hcc : ct.ct.c.Perm (p.leaves.map fun l => (l.1, ctVec msk.g s0 s1 (rowX env (row l) msp.c l.1))))
    (hne : attrs ≠ []) (hsat : p.sat attrs = true)
    (hcnt : ∀ l ∈ pick attrs p, p.names.count l.1 = 1 ∧ attrs.count l.1 = 1) :
    cpFrom env sk ct p.toValue = .ok msg := by
  have hL := pick_sublist attrs p
  have hSc := sel_of_leaves hcc hL fun l hl => (hcnt l hl).1
  obtain ⟨τ, hSk⟩ := sel_of_attrs (vec := fun a τ => keyVec env msk.g P r0 r1 a τ) hk.k
    (fun l hl => (hcnt l hl).2) (0 : F)
  have hX := rowX_sum env hM hb hsat
  simp only [cpFrom, Res.ok_bind, hk.attr, traverse_eq_sat attrs hne, hsat, calcPruned_eq attrs p hb.wide,
    Bool.true_eq_false, if_false, if_true]
  generalize hLL : pick attrs p = L at *
  have pg : ∀ i : ℕ, i < 3 → listSum ct.ct.c i (L.map leafKey) =
      .ok ((s0 * ((L.map fun x => hx env x.1 i 0).sum + hx env (colName 1) i 0) +
        s1 * ((L.map fun x => hx env x.1 i 1).sum + hx env (colName 1) i 1)) • msk.g) := by
    intro i hi
    rw [listSum_eq ct.ct.c i L _ (fun l => (s0 * rowX env (row l) msp.c l.1 i 0 +
      s1 * rowX env (row l) msp.c l.1 i 1) • msk.g) hSc (by
        intro l _
        have : i = 0 ∨ i = 1 ∨ i = 2 := by omega
        rcases this with rfl | rfl | rfl <;> rfl)]
    rw [sum_smul_map, List.sum_map_add, List.sum_map_mul_left, List.sum_map_mul_left, hX, hX]
  have ph : ∀ (y : Str × ℕ → F) (i : ℕ), (∀ l, (keyVec env msk.g P r0 r1 l.1 (τ l))[i]? = some (y l • msk.g)) →
      listSum sk.sk.k i (L.map leafKey) = .ok ((L.map y).sum • msk.g) := by
    intro y i hy
    rw [listSum_eq sk.sk.k i L _ (fun l => y l • msk.g) hSk (fun l _ => hy l), sum_smul_map]
  have ph0 := ph (fun l => (hs env l.1 P r0 r1 0 + τ l) * P.a0⁻¹) 0 (fun _ => rfl)
  have ph1 := ph (fun l => (hs env l.1 P r0 r1 1 + τ l) * P.a1⁻¹) 1 (fun _ => rfl)
  have ph2 := ph (fun l => -τ l) 2 (fun _ => rfl)
  rw [List.sum_map_mul_right, hs_sum] at ph0 ph1
  have hneg : (L.map fun l => -τ l).sum = -(L.map τ).sum := by
    clear * -
    induction L with
    | nil => simp
    | cons x xs ih => simp only [List.map_cons, List.sum_cons, ih]; ring
  rw [hneg] at ph2
  change (Res.foldR (cpDecStep env sk.sk ct.ct (L.map leafKey)) (0, 0) [0, 1, 2] >>= _) = _
  simp only [Res.foldR, Res.rbind_eq, cpDecStep, pg 0 (by omega), pg 1 (by omega), pg 2 (by omega), ph0, ph1, ph2,
    hk.kP, hk.k0, hc.c0, Res.index, List.getElem?_cons_zero, List.getElem?_cons_succ, Res.unwrapOption_some,
    Res.ok_bind, Res.ok.injEq, hc.cP, colName_one, hs]
  generalize (L.map τ).sum = T
  generalize (L.map fun x => hx env x.1 0 0).sum = x00
  generalize (L.map fun x => hx env x.1 0 1).sum = x01
  generalize (L.map fun x => hx env x.1 1 0).sum = x10
  generalize (L.map fun x => hx env x.1 1 1).sum = x11
  generalize (L.map fun x => hx env x.1 2 0).sum = x20
  generalize (L.map fun x => hx env x.1 2 1).sum = x21
  generalize hx env (chars% "01") 0 0 = c00
  generalize hx env (chars% "01") 0 1 = c01
  generalize hx env (chars% "01") 1 0 = c10
  generalize hx env (chars% "01") 1 1 = c11
  generalize hx env (chars% "01") 2 0 = c20
  generalize hx env (chars% "01") 2 1 = c21
  simp only [map_add, map_smul, LinearMap.add_apply, LinearMap.smul_apply]
  have h0 := hk.a0
  have h1 := hk.a1
  match_scalars <;> field_simp <;> ring

/-! ## KP-ABE -/

/-- The accumulated column terms at column `j`: `_temp` after the iterations `1, …, j`. -/
def tempX (env : Env F G1 G2 Gt) (P : Params F) (r0 r1 ai : F) (sigmaP : List F) (t : ℕ) : ℕ → F
  | 0 => 0
  | j + 1 => tempX env P r0 r1 ai sigmaP t j + hs env (colName (j + 1)) P r0 r1 t * ai - sigmaP.getD j 0

/-- Exponent of the first two key components of a row. -/
def kpX (env : Env F G1 G2 Gt) (P : Params F) (r0 r1 ai k : F) (sigmaP : List F) (n : ℕ) (σ : F) (name : Str)
    (row : List ℤ) (t : ℕ) : F :=
  (hs env name P r0 r1 t + σ) * ai + ((row.getD 0 0 : ℤ) : F) * k +
    ((List.range n).map fun j => ((row.getD (j + 1) 0 : ℤ) : F) * tempX env P r0 r1 ai sigmaP t (j + 1)).sum

/-- Exponent of the last key component of a row. -/
def kpL (P : Params F) (sigmaP : List F) (n : ℕ) (σ : F) (row : List ℤ) : F :=
  -σ + ((row.getD 0 0 : ℤ) : F) * P.k2 +
    ((List.range n).map fun j => ((row.getD (j + 1) 0 : ℤ) : F) * -(sigmaP.getD j 0)).sum

/-- Key component of a row. -/
def kpVec (env : Env F G1 G2 Gt) (g : G1) (P : Params F) (r0 r1 : F) (sigmaP : List F) (n : ℕ) (row : List ℤ)
    (name : Str) (σ : F) : List G1 :=
  [kpX env P r0 r1 P.a0⁻¹ P.k0 sigmaP n σ name row 0 • g, kpX env P r0 r1 P.a1⁻¹ P.k1 sigmaP n σ name row 1 • g,
    kpL P sigmaP n σ row • g]

theorem kpCols_eq (env : Env F G1 G2 Gt) (g : G1) (P : Params F) (r0 r1 ai : F) (sigmaP : List F) {row : List ℤ}
    (hr : Small row) (t n : ℕ) (acc : G1) :
    (List.range' 1 n).foldl (kpColStep env g [P.b0 * r0, P.b1 * r1, 0 + r0 + r1] ai sigmaP row t) (acc, 0) =
      (acc + ((List.range n).map fun j => ((row.getD (j + 1) 0 : ℤ) : F) *
        tempX env P r0 r1 ai sigmaP t (j + 1)).sum • g, tempX env P r0 r1 ai sigmaP t n • g) := by
  induction n with
  | zero => simp [tempX]
  | succ n ih =>
    rw [List.range'_concat, List.foldl_append, ih]
    simp only [List.foldl_cons, List.foldl_nil, kpColStep, hashSum_eq, Nat.one_mul, Nat.add_sub_cancel_left]
    rw [addEntry_eq (F := F) (small_getD hr _), List.range_succ, List.map_append, List.sum_append, Nat.add_comm 1 n]
    simp only [List.map_cons, List.map_nil, List.sum_cons, List.sum_nil, add_zero, tempX, Prod.mk.injEq]
    constructor <;> module

theorem kpLast_eq (g : G1) (sigmaP : List F) {row : List ℤ} (hr : Small row) (n : ℕ) (acc : G1) :
    (List.range' 1 n).foldl (fun acc j => addEntry (row.getD j 0) acc ((-(sigmaP.getD (j - 1) 0)) • g)) acc =
      acc + ((List.range n).map fun j => ((row.getD (j + 1) 0 : ℤ) : F) * -(sigmaP.getD j 0)).sum • g := by
  rw [foldl_addEntry (fun j => row.getD j 0) (fun j => -(sigmaP.getD (j - 1) 0)) g (small_getD hr)]
  congr 3
  rw [List.range'_eq_map_range, List.map_map]
  apply List.map_congr_left
  intro j _
  simp [Nat.add_comm 1 j]

/-- The key is an output of `kp_keygen` for a policy with tree `p` and matrix rows `row`. -/
structure IsKpKey (env : Env F G1 G2 Gt) (msk : MasterKey F G1 G2) (P : Params F) (p : Pol) (row : Str × ℕ → List ℤ)
    (n : ℕ) (sk : KpSecretKey G1 G2) (r0 r1 : F) (sigmaP : List F) : Prop where
  a0 : P.a0 ≠ 0
  a1 : P.a1 ≠ 0
  k0 : sk.sk.k0 = [(P.b0 * r0) • msk.h, (P.b1 * r1) • msk.h, (r0 + r1) • msk.h]
  k : ∃ σ : Str × ℕ → F, sk.sk.k.Perm
    (p.leaves.map fun l => (l.1, kpVec env msk.g P r0 r1 sigmaP n (row l) l.1 (σ l)))

theorem Forall₂.perm_left {α β : Type} {R : α → β → Prop} {xs xs' : List α} (hp : xs.Perm xs') :
    ∀ {ys : List β}, List.Forall₂ R xs ys → ∃ ys', ys.Perm ys' ∧ List.Forall₂ R xs' ys' := by
  induction hp with
  | nil => intro ys h; exact ⟨ys, List.Perm.refl _, h⟩
  | cons x _ ih =>
    intro ys h
    cases h with
    | cons hr ht =>
      obtain ⟨ys', h1, h2⟩ := ih ht
      exact ⟨_ :: ys', h1.cons _, .cons hr h2⟩
  | swap x y l =>
    intro ys h
    cases h with
    | cons hr ht =>
      cases ht with
      | cons hr' ht' => exact ⟨_, List.Perm.swap _ _ _, .cons hr' (.cons hr ht')⟩
  | trans _ _ ih1 ih2 =>
    intro ys h
    obtain ⟨ys1, h1, h2⟩ := ih1 h
    obtain ⟨ys2, h3, h4⟩ := ih2 h2
    exact ⟨ys2, h1.trans h3, h4⟩

omit [DecidableEq F] in
theorem addGk_eq {e : ℤ} {acc : G1} {gK : List G1} {t : ℕ} {x : G1} (h : gK[t]? = some x) :
    addGk e acc gK t = .ok (addEntry e acc x) := by
  unfold addGk addEntry Res.index
  rw [h]
  split
  · rfl
  · split <;> rfl

theorem kpKeygenRow_ok {env : Env F G1 G2 Gt} {pk msk} {P : Params F} (hs' : IsSetup env pk msk P) {r0 r1 : F}
    {sigmaP : List F} {cols : ℕ} {row : Str × List ℤ} (hr : Small row.2) {t x t'}
    (h : kpKeygenRow env msk [P.b0 * r0, P.b1 * r1, 0 + r0 + r1] sigmaP cols row t = .ok (x, t')) :
    P.a0 ≠ 0 ∧ P.a1 ≠ 0 ∧ x = (row.1, kpVec env msk.g P r0 r1 sigmaP (cols - 1) row.2 row.1 (t.fr 0)) := by
  simp only [kpKeygenRow, RM.bind_ok, RM.genFr, RM.lift_ok_iff, RM.pure_ok, Res.ok.injEq, Prod.mk.injEq,
    Res.mapR, Res.rbind_eq, kpKeyEntry, kpKeyLast, aInverse, Res.index, hs'.a, hs'.gK, List.getElem?_cons_succ,
    List.getElem?_cons_zero, addGk_eq (gK := [P.k0 • msk.g, P.k1 • msk.g, P.k2 • msk.g]) (t := 0) rfl,
    addGk_eq (gK := [P.k0 • msk.g, P.k1 • msk.g, P.k2 • msk.g]) (t := 1) rfl,
    addGk_eq (gK := [P.k0 • msk.g, P.k1 • msk.g, P.k2 • msk.g]) (t := 2) rfl, Res.unwrapOption_some, Res.ok_bind, Res.bind_eq_ok, inv_ok_iff, kpCols_eq _ _ _ _ _ _ _ hr,
    kpLast_eq _ _ hr, hashSum_eq] at h
  obtain ⟨τ, s1, ⟨rfl, rfl⟩, ks, s2, ⟨⟨_, ⟨_, ⟨h0, rfl⟩, rfl⟩, _, ⟨_, ⟨_, ⟨h1, rfl⟩, rfl⟩, _, rfl, rfl⟩, rfl⟩, rfl⟩,
    _, _, ⟨rfl, rfl⟩, rfl, _⟩ := h
  refine ⟨h0, h1, ?_⟩
  simp only [kpVec, kpX, kpL, List.cons_append, List.nil_append, Prod.mk.injEq, List.cons.injEq, true_and, and_true]
  simp only [addEntry_eq (F := F) (small_getD hr 0)]
  refine ⟨?_, ?_, ?_⟩ <;> module

theorem kpKeygen_ok {env : Env F G1 G2 Gt} {pk msk} {P : Params F} (hs' : IsSetup env pk msk P)
    {policy lang t sk t'} {p : Pol} {v : PolicyValue} (hp : parse policy lang = .ok v) {msp row}
    (hm : calculateMsp v = .ok msp) (hM : IsMsp p msp row) (hn : p.leaves.Nodup) (hb : p.Binary)
    (h : kpKeygen env msk policy lang t = .ok (sk, t')) :
    sk.policy = (policy, lang) ∧ ∃ r0 r1 sigmaP, IsKpKey env msk P p row p.andCount sk r0 r1 sigmaP := by
  obtain ⟨r, hr, hrl⟩ := hM.row0
  simp only [kpKeygen, RM.bind_ok, RM.genFr, RM.lift_ok_iff, RM.pure_ok, hp,
    Res.ok.injEq, Prod.mk.injEq, Res.index, Res.unwrapOption] at h
  obtain ⟨_, _, ⟨rfl, rfl⟩, msp', _, ⟨hm', rfl⟩, r', _, ⟨hr', rfl⟩, r0, t1, ⟨_, rfl⟩, r1, t2, ⟨_, rfl⟩, br, _,
    ⟨hbr, rfl⟩, sp, t3, _, k, t4, hk, rfl, _⟩ := h
  rw [hm] at hm'
  obtain rfl := Res.ok.inj hm'
  rw [hr] at hr'
  obtain rfl := Res.ok.inj hr'
  simp only [brVec, hs'.b, Res.index, List.getElem?_cons_zero, List.getElem?_cons_succ, Res.unwrapOption_some,
    Res.ok_bind, Res.ok.injEq] at hbr
  subst hbr
  have hcols : r.length - 1 = p.andCount := by rw [hrl, hM.c]; omega
  obtain ⟨k', hkp, hkf⟩ := Forall₂.perm_left hM.perm (RM.mapL_ok hk)
  rw [List.forall₂_map_left_iff] at hkf
  have hkf' : List.Forall₂ (fun (l : Str × ℕ) (x : Str × List G1) => P.a0 ≠ 0 ∧ P.a1 ≠ 0 ∧ ∃ σ,
      x = (l.1, kpVec env msk.g P r0 r1 sp p.andCount (row l) l.1 σ)) p.leaves k' := by
    refine (Forall₂.with_mem hkf).imp ?_
    rintro l x ⟨hl, s, s', hx⟩
    have := kpKeygenRow_ok hs' (hM.small l hl).2 hx
    rw [hcols] at this
    exact ⟨this.1, this.2.1, _, this.2.2⟩
  obtain ⟨l0, hl0⟩ := List.exists_mem_of_ne_nil _ (leaves_ne_nil hb.wide)
  obtain ⟨x0, _, ha0, ha1, _⟩ := Forall₂.mem_left hkf' l0 hl0
  refine ⟨rfl, r0, r1, sp, ⟨ha0, ha1, by simp, ?_⟩⟩
  have hlen := hkf'.length_eq
  obtain ⟨f, hf⟩ := exists_map_eq (β := Str × List G1) hn hlen.symm
  have key : ∀ l : Str × ℕ, ∃ σ : F, l ∈ p.leaves →
      f l = (l.1, kpVec env msk.g P r0 r1 sp p.andCount (row l) l.1 σ) := by
    intro l
    by_cases hl : l ∈ p.leaves
    · rw [← hf, List.forall₂_map_right_iff, List.forall₂_same] at hkf'
      obtain ⟨_, _, σ, h⟩ := hkf' l hl
      exact ⟨σ, fun _ => h⟩
    · exact ⟨0, fun h => absurd h hl⟩
  refine ⟨fun l => (key l).choose, hkp.trans (List.Perm.of_eq ?_)⟩
  rw [← hf]
  exact List.map_congr_left fun l hl => (key l).choose_spec hl

/-- Ciphertext component of one attribute. -/
def kpCtVec (env : Env F G1 G2 Gt) (g : G1) (s0 s1 : F) (a : Str) : List G1 := ctVec g s0 s1 (hx env a)

theorem kpEncrypt_ok {env : Env F G1 G2 Gt} {pk msk} {P : Params F} (hs' : IsSetup env pk msk P)
    {attrs pt t ct t'} (h : kpEncrypt env pk attrs pt t = .ok (ct, t')) :
    ct.attr = attrs ∧ ∃ msg s0 s1, IsBody env msk P ct.ct msg s0 s1 ∧
      ct.ct.c = attrs.map (fun a => (a, kpCtVec env msk.g s0 s1 a)) ∧ decryptSymmetric env msg ct.ct.ct = .ok pt := by
  simp only [kpEncrypt, RM.bind_ok, RM.genFr, RM.genGt, RM.lift_ok_iff, RM.pure_ok,
    Res.ok.injEq, Prod.mk.injEq, c0Vec_eq hs', cPrime_eq hs'] at h
  obtain ⟨s0, t1, ⟨rfl, rfl⟩, s1, t2, ⟨rfl, rfl⟩, _, _, ⟨rfl, rfl⟩, _, _, ⟨rfl, rfl⟩, msg, t3, ⟨rfl, rfl⟩, data, t4,
    hd, rfl, _⟩ := h
  refine ⟨rfl, _, _, _, ⟨rfl, rfl⟩, ?_, encryptSymmetric_ok hd⟩
  refine List.map_congr_left fun a _ => ?_
  simp only [kpEncAttr, kpCtVec, ctVec, hx, Prod.mk.injEq, true_and, List.map_cons, List.map_nil, Env.sha3Hash, hs'.g,
    zero_add, smul_smul, ← add_smul]

theorem sum_entries (L : List (Str × ℕ)) (row : Str × ℕ → List ℤ) (n : ℕ) (C : ℕ → F)
    (h : ∀ j, (L.map fun l => (row l).getD (j + 1) 0).sum = 0) :
    (L.map fun l => ((List.range n).map fun j => (((row l).getD (j + 1) 0 : ℤ) : F) * C j).sum).sum = 0 := by
  rw [col_exchange L (fun l j => (row l).getD (j + 1) 0) C n]
  apply List.sum_eq_zero
  intro x hx
  obtain ⟨j, _, rfl⟩ := List.mem_map.1 hx
  rw [h]
  simp

theorem kpX_sum (env : Env F G1 G2 Gt) (P : Params F) (r0 r1 ai k : F) (sigmaP : List F) (n t : ℕ)
    (L : List (Str × ℕ)) (row : Str × ℕ → List ℤ) (σ : Str × ℕ → F)
    (h0 : (L.map fun l => (row l).getD 0 0).sum = 1) (h : ∀ j, (L.map fun l => (row l).getD (j + 1) 0).sum = 0) :
    (L.map fun l => kpX env P r0 r1 ai k sigmaP n (σ l) l.1 (row l) t).sum =
      (P.b0 * r0 * (L.map fun l => hx env l.1 0 t).sum + P.b1 * r1 * (L.map fun l => hx env l.1 1 t).sum +
      (r0 + r1) * (L.map fun l => hx env l.1 2 t).sum + (L.map σ).sum) * ai + k := by
  simp only [kpX]
  rw [List.sum_map_add, List.sum_map_add, List.sum_map_mul_right, List.sum_map_mul_right, hs_sum,
    sum_entries L row n _ h]
  have : (L.map fun l => (((row l).getD 0 0 : ℤ) : F)).sum = 1 := by
    have := congrArg (Int.cast (R := F)) h0
    rw [Int.cast_one] at this
    rw [← this]
    clear * -
    induction L with
    | nil => simp
    | cons x xs ih => simp only [List.map_cons, List.sum_cons, ih, Int.cast_add]
  rw [this]
  ring

theorem kpL_sum (P : Params F) (sigmaP : List F) (n : ℕ)
    (L : List (Str × ℕ)) (row : Str × ℕ → List ℤ) (σ : Str × ℕ → F)
    (h0 : (L.map fun l => (row l).getD 0 0).sum = 1) (h : ∀ j, (L.map fun l => (row l).getD (j + 1) 0).sum = 0) :
    (L.map fun l => kpL P sigmaP n (σ l) (row l)).sum = -(L.map σ).sum + P.k2 := by
  simp only [kpL]
  rw [List.sum_map_add, List.sum_map_add, List.sum_map_mul_right, sum_entries L row n _ h]
  have : (L.map fun l => (((row l).getD 0 0 : ℤ) : F)).sum = 1 := by
    have := congrArg (Int.cast (R := F)) h0
    rw [Int.cast_one] at this
    rw [← this]
    clear * -
    induction L with
    | nil => simp
    | cons x xs ih => simp only [List.map_cons, List.sum_cons, ih, Int.cast_add]
  rw [this]
  have hneg : (L.map fun l => -σ l).sum = -(L.map σ).sum := by
    clear * -
    induction L with
    | nil => simp
    | cons x xs ih => simp only [List.map_cons, List.sum_cons, ih]; ring
  rw [hneg]
  ring

/-- `kpRecover` after the policy has been read. -/
def kpFrom (env : Env F G1 G2 Gt) (sk : KpSecretKey G1 G2) (ct : KpCiphertext G1 G2 Gt) (pol : PolicyValue) : Res Gt :=
  if traversePolicy ct.attr pol .leaf = false then .err
  else do
    let pruned ← calcPruned ct.attr pol none
    if pruned.1 then do
      let prods ← Res.foldR (kpDecStep env sk.sk ct.ct pruned.2) (0, 0) [0, 1, 2]
      .ok (ct.ct.cP + (prods.2 + -prods.1))
    else .err

theorem kpRecover_from {env : Env F G1 G2 Gt} {sk : KpSecretKey G1 G2} {ct : KpCiphertext G1 G2 Gt} {v : PolicyValue}
    (h : parse sk.policy.1 sk.policy.2 = .ok v) : kpRecover env sk ct = kpFrom env sk ct v := by
  simp only [kpRecover, h, Res.ok_bind, kpFrom]

theorem kpFrom_ok {env : Env F G1 G2 Gt} {msk : MasterKey F G1 G2} {P : Params F} {p : Pol} (hb : p.Binary)
    {msp row} (hM : IsMsp p msp row) {n sk r0 r1 sigmaP} (hk : IsKpKey env msk P p row n sk r0 r1 sigmaP)
    {ct : KpCiphertext G1 G2 Gt} {msg s0 s1} (hc : IsBody env msk P ct.ct msg s0 s1)
    (hcc : ct.ct.c = ct.attr.map fun a => (a, kpCtVec env msk.g s0 s1 a))
    (hsat : p.sat ct.attr = true)
    (hcnt : ∀ l ∈ pick ct.attr p, p.names.count l.1 = 1 ∧ ct.attr.count l.1 = 1) :
    kpFrom env sk ct p.toValue = .ok msg := by
  have hL := pick_sublist ct.attr p
  obtain ⟨σ, hperm⟩ := hk.k
  have hSk := sel_of_leaves hperm hL fun l hl => (hcnt l hl).1
  obtain ⟨_, hSc⟩ := sel_of_attrs (entries := ct.ct.c) (attrs := ct.attr) (T := Unit)
    (vec := fun a _ => kpCtVec env msk.g s0 s1 a) (by
      rw [hcc, List.forall₂_map_right_iff, List.forall₂_same]
      exact fun a _ => ⟨(), rfl⟩) (fun l hl => (hcnt l hl).2) ()
  have hr := pick_rows hM hb hsat
  have hne : ct.attr ≠ [] := by
    intro h
    rw [h] at hsat
    have h1 : ∀ l ∈ pick [] p, False := fun l hl => by simpa using pick_owned [] p l hl
    have h0 : pick [] p = [] := List.eq_nil_iff_forall_not_mem.2 fun l hl => h1 l hl
    have h2 := pick_rows hM hb hsat 0
    rw [h0] at h2
    simp at h2
  simp only [kpFrom, Res.ok_bind, traverse_eq_sat ct.attr hne, hsat,
    calcPruned_eq ct.attr p hb.wide, Bool.true_eq_false, if_false, if_true]
  generalize hLL : pick ct.attr p = L at *
  have hr0 : (L.map fun l => (row l).getD 0 0).sum = 1 := hr 0
  have hr1 : ∀ j, (L.map fun l => (row l).getD (j + 1) 0).sum = 0 := fun j => by simpa using hr (j + 1)
  have pg : ∀ i : ℕ, i < 3 → listSum ct.ct.c i (L.map leafKey) =
      .ok ((s0 * (L.map fun x => hx env x.1 i 0).sum + s1 * (L.map fun x => hx env x.1 i 1).sum) • msk.g) := by
    intro i hi
    rw [listSum_eq ct.ct.c i L _ (fun l => (s0 * hx env l.1 i 0 + s1 * hx env l.1 i 1) • msk.g) hSc (by
        intro l _
        have : i = 0 ∨ i = 1 ∨ i = 2 := by omega
        rcases this with rfl | rfl | rfl <;> rfl)]
    rw [sum_smul_map, List.sum_map_add, List.sum_map_mul_left, List.sum_map_mul_left]
  have ph : ∀ (y : Str × ℕ → F) (i : ℕ), (∀ l, (kpVec env msk.g P r0 r1 sigmaP n (row l) l.1 (σ l))[i]? =
      some (y l • msk.g)) → listSum sk.sk.k i (L.map leafKey) = .ok ((L.map y).sum • msk.g) := by
    intro y i hy
    rw [listSum_eq sk.sk.k i L _ (fun l => y l • msk.g) hSk (fun l _ => hy l), sum_smul_map]
  have ph0 := ph (fun l => kpX env P r0 r1 P.a0⁻¹ P.k0 sigmaP n (σ l) l.1 (row l) 0) 0 (fun _ => rfl)
  have ph1 := ph (fun l => kpX env P r0 r1 P.a1⁻¹ P.k1 sigmaP n (σ l) l.1 (row l) 1) 1 (fun _ => rfl)
  have ph2 := ph (fun l => kpL P sigmaP n (σ l) (row l)) 2 (fun _ => rfl)
  rw [kpX_sum env P r0 r1 _ _ sigmaP n _ L row σ hr0 hr1] at ph0 ph1
  rw [kpL_sum P sigmaP n L row σ hr0 hr1] at ph2
  change (Res.foldR (kpDecStep env sk.sk ct.ct (L.map leafKey)) (0, 0) [0, 1, 2] >>= _) = _
  simp only [Res.foldR, Res.rbind_eq, kpDecStep, pg 0 (by omega), pg 1 (by omega), pg 2 (by omega), ph0, ph1, ph2,
    hk.k0, hc.c0, Res.index, List.getElem?_cons_zero, List.getElem?_cons_succ, Res.unwrapOption_some,
    Res.ok_bind, Res.ok.injEq, hc.cP]
  generalize (L.map σ).sum = T
  generalize (L.map fun x => hx env x.1 0 0).sum = x00
  generalize (L.map fun x => hx env x.1 0 1).sum = x01
  generalize (L.map fun x => hx env x.1 1 0).sum = x10
  generalize (L.map fun x => hx env x.1 1 1).sum = x11
  generalize (L.map fun x => hx env x.1 2 0).sum = x20
  generalize (L.map fun x => hx env x.1 2 1).sum = x21
  simp only [map_add, map_smul, LinearMap.add_apply, LinearMap.smul_apply]
  have h0 := hk.a0
  have h1 := hk.a1
  match_scalars <;> field_simp <;> ring

end Ac17
end Rabe
