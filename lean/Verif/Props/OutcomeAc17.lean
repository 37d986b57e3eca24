import Verif.Props.Ac17
import Verif.Proof.Relabel

/-!
# C75: the result of an honest decryption for every accepted policy, AC17

Decryption adds, for every selected leaf, all components with the name of the leaf. A component is therefore counted as often
as its name is selected.
-/

namespace Rabe
namespace Ac17

variable {F G1 G2 Gt : Type} [Field F] [DecidableEq F] [AddCommGroup G1] [Module F G1]
  [AddCommGroup G2] [Module F G2] [AddCommGroup Gt] [Module F Gt]

/-! ## Sums of components -/

theorem matchSum_named {α : Type} (xs : List α) (name : α → Str) (vec : α → List G1) (i : ℕ) (y : α → F) (g : G1)
    (hy : ∀ x ∈ xs, (vec x)[i]? = some (y x • g)) (n : Str) : ∀ acc : G1,
    matchSum (xs.map fun x => (name x, vec x)) i acc n =
      .ok (acc + (xs.map fun x => (if name x = n then 1 else 0) * y x).sum • g) := by
  induction xs with
  | nil => intro acc; simp [matchSum, Res.foldR]
  | cons x xs ih =>
    intro acc
    have hx : Res.index (vec x) i = .ok (y x • g) := by rw [Res.index, hy x (by simp)]; rfl
    have ih := ih fun z hz => hy z (by simp [hz])
    simp only [matchSum] at ih
    simp only [matchSum, List.map_cons, Res.foldR, Res.rbind_eq, List.sum_cons]
    by_cases h : name x = n
    · simp only [h, beq_self_eq_true, if_true, hx, Res.ok_bind]
      rw [ih]
      congr 1
      module
    · simp only [h, beq_eq_false_iff_ne.2 h, Bool.false_eq_true, if_false, Res.ok_bind, zero_mul, zero_add]
      exact ih acc

/-- The sum over the selected leaves: every component counts as often as its name is selected. -/
theorem listSum_named {α : Type} (xs : List α) (name : α → Str) (vec : α → List G1) (i : ℕ) (y : α → F) (g : G1)
    (hy : ∀ x ∈ xs, (vec x)[i]? = some (y x • g)) (L : List (Str × ℕ)) :
    listSum (xs.map fun x => (name x, vec x)) i (L.map leafKey) =
      .ok ((xs.map fun x => ((L.map Prod.fst).count (name x) : F) * y x).sum • g) := by
  have gen : ∀ (L : List (Str × ℕ)) (acc : G1), Res.foldR (fun acc (cur : Str × Str) =>
      matchSum (xs.map fun x => (name x, vec x)) i acc cur.1) acc (L.map leafKey) =
      .ok (acc + (xs.map fun x => ((L.map Prod.fst).count (name x) : F) * y x).sum • g) := by
    intro L
    induction L with
    | nil => intro acc; simp [Res.foldR]
    | cons l L ih =>
      intro acc
      rw [List.map_cons, Res.foldR, Res.rbind_eq, matchSum_named xs name vec i y g hy, Res.ok_bind, ih, add_assoc, ← add_smul, ← List.sum_map_add]
      congr 4
      refine List.map_congr_left fun x _ => ?_
      rw [List.map_cons, List.count_cons]
      simp only [leafKey]
      by_cases h : name x = l.1
      · simp [h]; ring
      · simp [h, Ne.symm h]
  simp only [listSum, gen, zero_add]

/-! ## Exact contents -/

/-- The exponents drawn by `setup`. -/
def drawn (t : Tape F G1 G2 Gt) : Params F :=
  { a0 := t.fr 0, b0 := t.fr 1, a1 := t.fr 2, b1 := t.fr 3, k0 := t.fr 4, k1 := t.fr 5, k2 := t.fr 6 }

theorem setup_exact {env : Env F G1 G2 Gt} {t pk msk t'} (h : setup env t = .ok ((pk, msk), t')) :
    IsSetup env pk msk (drawn t) ∧ msk.g = t.g1 0 ∧ msk.h = t.g2 0 := by
  simp only [setup, RM.bind_ok, RM.genG1, RM.genG2, RM.genFr, RM.pure_ok, Res.ok.injEq, Prod.mk.injEq] at h
  obtain ⟨g1, t1, ⟨rfl, rfl⟩, g2, t2, ⟨rfl, rfl⟩, a0, t3, ⟨rfl, rfl⟩, b0, t4, ⟨rfl, rfl⟩, a1, t5, ⟨rfl, rfl⟩,
    b1, t6, ⟨rfl, rfl⟩, k0, t7, ⟨rfl, rfl⟩, k1, t8, ⟨rfl, rfl⟩, k2, t9, ⟨rfl, rfl⟩, ⟨rfl, rfl⟩, _⟩ := h
  exact ⟨⟨rfl, rfl, rfl, rfl, rfl, rfl⟩, rfl, rfl⟩

theorem forall₂_pairs {T : Type} {vec : Str → T → List G1} {attrs : List Str} {entries : List (Str × List G1)}
    (h : List.Forall₂ (fun a (x : Str × List G1) => ∃ τ, x = (a, vec a τ)) attrs entries) :
    ∃ ps : List (Str × T), ps.map Prod.fst = attrs ∧ entries = ps.map fun q => (q.1, vec q.1 q.2) := by
  induction h with
  | nil => exact ⟨[], rfl, rfl⟩
  | cons hx _ ih =>
    obtain ⟨τ, rfl⟩ := hx
    obtain ⟨ps, rfl, rfl⟩ := ih
    exact ⟨(_, τ) :: ps, rfl, rfl⟩

theorem cpEncrypt_exact {env : Env F G1 G2 Gt} {pk msk} {P : Params F} (hs' : IsSetup env pk msk P)
    {policy lang pt t ct t'} {p : Pol} (hp : parse policy lang = .ok p.toValue)
    (h : cpEncrypt env pk policy pt lang t = .ok (ct, t')) :
    p.Binary ∧ ct.policy = (policy, lang) ∧ ∃ msp, calculateMsp p.toValue = .ok msp ∧
      IsBody env msk P ct.ct (t.gt 0) (t.fr 0) (t.fr 1) ∧
      ct.ct.c = (msp.pi.zip msp.m).map (fun x => (x.1, ctVec msk.g (t.fr 0) (t.fr 1) (rowX env x.2 msp.c x.1))) ∧
      decryptSymmetric env (t.gt 0) ct.ct.ct = .ok pt := by
  have hb : p.Binary := by
    by_contra hb
    have h1 := lw_panic p hb ⟨[], [], 1⟩ [1] none (Nat.le_refl 1)
    have h2 : calculateMsp p.toValue = .panic := by simp [calculateMsp, h1]
    simp [cpEncrypt, hp, h2] at h
  obtain ⟨msp, R, hm, hc, hR, hRl, hperm, _, hmR, _⟩ := calculateMsp_eq p hb
  have hrow : ∀ r ∈ msp.m, r.length = msp.c ∧ Small r := fun r hr => hRl r (hmR.mem_iff.1 hr)
  simp only [cpEncrypt, RM.bind_ok, RM.genFr, RM.genGt, RM.lift_ok_iff, RM.pure_ok, hp,
    Res.ok.injEq, Prod.mk.injEq, c0Vec_eq hs', cPrime_eq hs', Res.index] at h
  obtain ⟨_, _, ⟨rfl, rfl⟩, msp', _, ⟨hm', rfl⟩, r', _, ⟨hr', rfl⟩, s0, t1, ⟨rfl, rfl⟩, s1, t2, ⟨rfl, rfl⟩, _, _,
    ⟨rfl, rfl⟩, _, _, ⟨rfl, rfl⟩, msg, t3, ⟨rfl, rfl⟩, data, t4, hd, rfl, _⟩ := h
  rw [hm] at hm'
  obtain rfl := Res.ok.inj hm'
  have hrl : r'.length = msp.c := by
    cases e : msp.m[0]? with
    | none => rw [e] at hr'; simp [Res.unwrapOption] at hr'
    | some r =>
      rw [e] at hr'
      obtain rfl := Res.ok.inj hr'
      exact (hrow _ (List.mem_of_getElem? e)).1
  refine ⟨hb, rfl, msp, hm, ⟨rfl, rfl⟩, ?_, encryptSymmetric_ok hd⟩
  simp only [hrl]
  refine List.map_congr_left fun x hx => ?_
  have hs := (hrow x.2 (List.of_mem_zip hx).2).2
  simp only [cpEncRow, ctVec, rowX, Prod.mk.injEq, true_and, List.map_cons, List.map_nil,
    rowHash_eq env msk.g _ hs, hs'.g, zero_add]
  simp only [smul_smul, ← add_smul]
  trivial

/-! ## CP-ABE -/

/-- What the hash of `x` contributes to the exponent of the pairings. -/
def mix (env : Env F G1 G2 Gt) (P : Params F) (r0 r1 s0 s1 : F) (x : Str) : F :=
  s0 * hs env x P r0 r1 0 + s1 * hs env x P r0 r1 1

/-- The multiple of the pairing of the generators by which decryption misses the session element. `used`: the names of the
selected leaves; `rows`: names and rows of the matrix. -/
def cpExcess (env : Env F G1 G2 Gt) (P : Params F) (r0 r1 s0 s1 : F) (rows : List (Str × List ℤ)) (cols : ℕ)
    (attrs used : List Str) : F :=
  (rows.map fun x => (used.count x.1 : F) * (mix env P r0 r1 s0 s1 x.1 +
    ((List.range cols).map fun j => ((x.2.getD j 0 : ℤ) : F) * mix env P r0 r1 s0 s1 (colName (j + 1))).sum)).sum -
  mix env P r0 r1 s0 s1 (chars% "01") - (attrs.map fun a => (used.count a : F) * mix env P r0 r1 s0 s1 a).sum

omit [DecidableEq F] in
theorem sum_six {α : Type} (L : List α) (a x0 x1 x2 y0 y1 y2 : α → F) (s0 s1 p q r : F) :
    (L.map fun j => a j * (s0 * (p * x0 j + q * x1 j + r * x2 j) + s1 * (p * y0 j + q * y1 j + r * y2 j))).sum =
      s0 * (p * (L.map fun j => a j * x0 j).sum + q * (L.map fun j => a j * x1 j).sum +
        r * (L.map fun j => a j * x2 j).sum) +
      s1 * (p * (L.map fun j => a j * y0 j).sum + q * (L.map fun j => a j * y1 j).sum +
        r * (L.map fun j => a j * y2 j).sum) := by
  induction L with
  | nil => simp
  | cons x xs ih => simp only [List.map_cons, List.sum_cons, ih]; ring

omit [DecidableEq F] in
theorem sum_two {α : Type} (L : List α) (w x y : α → F) (s0 s1 : F) :
    (L.map fun j => w j * (s0 * x j + s1 * y j)).sum =
      s0 * (L.map fun j => w j * x j).sum + s1 * (L.map fun j => w j * y j).sum := by
  induction L with
  | nil => simp
  | cons x xs ih => simp only [List.map_cons, List.sum_cons, ih]; ring

omit [DecidableEq F] in
theorem sum_key {α : Type} (L : List α) (w x y : α → F) (c : F) :
    (L.map fun j => w j * ((x j + y j) * c)).sum =
      ((L.map fun j => w j * x j).sum + (L.map fun j => w j * y j).sum) * c := by
  induction L with
  | nil => simp
  | cons x xs ih => simp only [List.map_cons, List.sum_cons, ih]; ring

omit [DecidableEq F] in
theorem sum_neg' {α : Type} (L : List α) (w x : α → F) :
    (L.map fun j => w j * -x j).sum = -(L.map fun j => w j * x j).sum := by
  induction L with
  | nil => simp
  | cons x xs ih => simp only [List.map_cons, List.sum_cons, ih]; ring

omit [DecidableEq F] in
theorem row_mix (env : Env F G1 G2 Gt) (P : Params F) (r0 r1 s0 s1 : F) (row : List ℤ) (cols : ℕ) (name : Str) :
    mix env P r0 r1 s0 s1 name +
      ((List.range cols).map fun j => ((row.getD j 0 : ℤ) : F) * mix env P r0 r1 s0 s1 (colName (j + 1))).sum =
    s0 * (P.b0 * r0 * rowX env row cols name 0 0 + P.b1 * r1 * rowX env row cols name 1 0 +
      (r0 + r1) * rowX env row cols name 2 0) +
    s1 * (P.b0 * r0 * rowX env row cols name 0 1 + P.b1 * r1 * rowX env row cols name 1 1 +
      (r0 + r1) * rowX env row cols name 2 1) := by
  simp only [mix, hs, rowX, colSum]
  rw [sum_six]
  ring

/-- What `cp_decrypt` recovers from an issued key and a ciphertext with any stored policy: `L` are the selected leaves. -/
theorem cpRecover_selected {env : Env F G1 G2 Gt} {msk : MasterKey F G1 G2} {P : Params F} {attrs sk r0 r1 σ}
    (hk : IsCpKey env msk P attrs sk r0 r1 σ) {v : PolicyValue}
    {ct : CpCiphertext G1 G2 Gt} {msg s0 s1} (hpol : parse ct.policy.1 ct.policy.2 = .ok v)
    (hc : IsBody env msk P ct.ct msg s0 s1) {rows : List (Str × List ℤ)} {cols : ℕ}
    (hcc : ct.ct.c = rows.map fun x => (x.1, ctVec msk.g s0 s1 (rowX env x.2 cols x.1)))
    (htr : traversePolicy attrs v .leaf = true) {L : List (Str × ℕ)}
    (hL : calcPruned attrs v none = .ok (true, L.map leafKey)) :
    cpRecover env sk ct = .ok (msg + cpExcess env P r0 r1 s0 s1 rows cols attrs (L.map Prod.fst) •
      env.pair msk.g msk.h) := by
  obtain ⟨ps, hps, hkk⟩ := forall₂_pairs (vec := fun a τ => keyVec env msk.g P r0 r1 a τ) hk.k
  simp only [cpRecover, hpol, Res.ok_bind, hk.attr, htr, hL, Bool.true_eq_false, if_false, if_true]
  have pg : ∀ i : ℕ, i < 3 → listSum ct.ct.c i (L.map leafKey) =
      .ok ((s0 * (rows.map fun x => ((L.map Prod.fst).count x.1 : F) * rowX env x.2 cols x.1 i 0).sum +
        s1 * (rows.map fun x => ((L.map Prod.fst).count x.1 : F) * rowX env x.2 cols x.1 i 1).sum) • msk.g) := by
    intro i hi
    rw [hcc, listSum_named rows (fun x => x.1) _ i (fun x => s0 * rowX env x.2 cols x.1 i 0 +
      s1 * rowX env x.2 cols x.1 i 1) msk.g (by
        intro l _
        have : i = 0 ∨ i = 1 ∨ i = 2 := by omega
        rcases this with rfl | rfl | rfl <;> rfl), sum_two]
  have ph : ∀ (y : Str × F → F) (i : ℕ), (∀ q : Str × F, (keyVec env msk.g P r0 r1 q.1 q.2)[i]? = some (y q • msk.g)) →
      listSum sk.sk.k i (L.map leafKey) =
        .ok ((ps.map fun q => ((L.map Prod.fst).count q.1 : F) * y q).sum • msk.g) := by
    intro y i hy
    rw [hkk, listSum_named ps (fun x => x.1) _ i y msk.g (fun q _ => hy q)]
  have ph0 := ph (fun q => (hs env q.1 P r0 r1 0 + q.2) * P.a0⁻¹) 0 (fun _ => rfl)
  have ph1 := ph (fun q => (hs env q.1 P r0 r1 1 + q.2) * P.a1⁻¹) 1 (fun _ => rfl)
  have ph2 := ph (fun q => -q.2) 2 (fun _ => rfl)
  rw [sum_key] at ph0 ph1
  rw [sum_neg'] at ph2
  have hE : cpExcess env P r0 r1 s0 s1 rows cols attrs (L.map Prod.fst) =
      s0 * (P.b0 * r0 * (rows.map fun x => ((L.map Prod.fst).count x.1 : F) * rowX env x.2 cols x.1 0 0).sum +
        P.b1 * r1 * (rows.map fun x => ((L.map Prod.fst).count x.1 : F) * rowX env x.2 cols x.1 1 0).sum +
        (r0 + r1) * (rows.map fun x => ((L.map Prod.fst).count x.1 : F) * rowX env x.2 cols x.1 2 0).sum) +
      s1 * (P.b0 * r0 * (rows.map fun x => ((L.map Prod.fst).count x.1 : F) * rowX env x.2 cols x.1 0 1).sum +
        P.b1 * r1 * (rows.map fun x => ((L.map Prod.fst).count x.1 : F) * rowX env x.2 cols x.1 1 1).sum +
        (r0 + r1) * (rows.map fun x => ((L.map Prod.fst).count x.1 : F) * rowX env x.2 cols x.1 2 1).sum) -
      (s0 * hs env (chars% "01") P r0 r1 0 + s1 * hs env (chars% "01") P r0 r1 1) -
      (s0 * (ps.map fun q => ((L.map Prod.fst).count q.1 : F) * hs env q.1 P r0 r1 0).sum +
        s1 * (ps.map fun q => ((L.map Prod.fst).count q.1 : F) * hs env q.1 P r0 r1 1).sum) := by
    unfold cpExcess
    simp only [row_mix]
    have := sum_two ps (fun q => ((L.map Prod.fst).count q.1 : F)) (fun q => hs env q.1 P r0 r1 0)
      (fun q => hs env q.1 P r0 r1 1) s0 s1
    rw [sum_six, ← hps, List.map_map, ← this]
    rfl
  rw [hE]
  change (Res.foldR (cpDecStep env sk.sk ct.ct (L.map leafKey)) (0, 0) [0, 1, 2] >>= _) = _
  simp only [Res.foldR, Res.rbind_eq, cpDecStep, pg 0 (by omega), pg 1 (by omega), pg 2 (by omega), ph0, ph1, ph2,
    hk.kP, hk.k0, hc.c0, Res.index, List.getElem?_cons_zero, List.getElem?_cons_succ, Res.unwrapOption_some,
    Res.ok_bind, Res.ok.injEq, hc.cP]
  generalize (ps.map fun q => ((L.map Prod.fst).count q.1 : F) * q.2).sum = T
  generalize (ps.map fun q => ((L.map Prod.fst).count q.1 : F) * hs env q.1 P r0 r1 0).sum = K0
  generalize (ps.map fun q => ((L.map Prod.fst).count q.1 : F) * hs env q.1 P r0 r1 1).sum = K1
  generalize (rows.map fun x => ((L.map Prod.fst).count x.1 : F) * rowX env x.2 cols x.1 0 0).sum = x00
  generalize (rows.map fun x => ((L.map Prod.fst).count x.1 : F) * rowX env x.2 cols x.1 0 1).sum = x01
  generalize (rows.map fun x => ((L.map Prod.fst).count x.1 : F) * rowX env x.2 cols x.1 1 0).sum = x10
  generalize (rows.map fun x => ((L.map Prod.fst).count x.1 : F) * rowX env x.2 cols x.1 1 1).sum = x11
  generalize (rows.map fun x => ((L.map Prod.fst).count x.1 : F) * rowX env x.2 cols x.1 2 0).sum = x20
  generalize (rows.map fun x => ((L.map Prod.fst).count x.1 : F) * rowX env x.2 cols x.1 2 1).sum = x21
  generalize hs env (chars% "01") P r0 r1 0 = h00
  generalize hs env (chars% "01") P r0 r1 1 = h01
  simp only [map_add, map_smul, LinearMap.add_apply, LinearMap.smul_apply]
  have h0 := hk.a0
  have h1 := hk.a1
  match_scalars <;> field_simp <;> ring

theorem cpRecover_outcome {env : Env F G1 G2 Gt} {msk : MasterKey F G1 G2} {P : Params F} {attrs sk r0 r1 σ}
    (hk : IsCpKey env msk P attrs sk r0 r1 σ) {p : Pol} (hb : p.Binary)
    {ct : CpCiphertext G1 G2 Gt} {msg s0 s1} (hpol : parse ct.policy.1 ct.policy.2 = .ok p.toValue)
    (hc : IsBody env msk P ct.ct msg s0 s1) {rows : List (Str × List ℤ)} {cols : ℕ}
    (hcc : ct.ct.c = rows.map fun x => (x.1, ctVec msk.g s0 s1 (rowX env x.2 cols x.1)))
    (hne : attrs ≠ []) (hsat : p.sat attrs = true) :
    cpRecover env sk ct = .ok (msg + cpExcess env P r0 r1 s0 s1 rows cols attrs ((pick attrs p).map Prod.fst) •
      env.pair msk.g msk.h) := by
  refine cpRecover_selected hk hpol hc hcc (by rw [traverse_eq_sat attrs hne, hsat]) ?_
  rw [calcPruned_eq attrs p hb.wide, hsat]

/-- **C75, AC17 CP-ABE.** Any set-up, issued key and ciphertext, any accepted policy text that can be encrypted under:
decryption returns an error if the attributes do not satisfy the policy; otherwise it opens the payload with the session
element plus an explicit multiple of the pairing of the generators. It never aborts. -/
theorem C75_ac17_cp_outcome (env : Env F G1 G2 Gt)
    (t₁ t₁' : Tape F G1 G2 Gt) (pk : PublicKey G1 G2 Gt) (msk : MasterKey F G1 G2)
    (hsetup : setup env t₁ = .ok ((pk, msk), t₁'))
    (attrs : List Str) (t₂ t₂' : Tape F G1 G2 Gt) (sk : CpSecretKey G1 G2)
    (hkey : cpKeygen env msk attrs t₂ = .ok (sk, t₂'))
    (text : Str) (lang : PolicyLanguage) (p : Pol) (hp : Denotes text lang p)
    (plaintext : Bytes) (t₃ t₃' : Tape F G1 G2 Gt) (ct : CpCiphertext G1 G2 Gt)
    (henc : cpEncrypt env pk text plaintext lang t₃ = .ok (ct, t₃')) :
    decryptSymmetric env (t₃.gt 0) ct.ct.ct = .ok plaintext ∧
    (p.sat attrs = false → cpDecrypt env sk ct = .err) ∧
    (p.sat attrs = true → ∃ msp, calculateMsp p.toValue = .ok msp ∧
      cpDecrypt env sk ct = decryptSymmetric env (t₃.gt 0 +
        cpExcess env (drawn t₁) (t₂.fr 0) (t₂.fr 1) (t₃.fr 0) (t₃.fr 1) (msp.pi.zip msp.m) msp.c attrs
          ((pick attrs p).map Prod.fst) • env.pair (t₁.g1 0) (t₁.g2 0)) ct.ct.ct) := by
  obtain ⟨hs, hg, hh⟩ := setup_exact hsetup
  obtain ⟨hne, σ, hk⟩ := cpKeygen_exact hs hkey
  obtain ⟨hb, hpol, msp, hm, hc, hcc, hd⟩ := cpEncrypt_exact hs hp henc
  have hp' : parse ct.policy.1 ct.policy.2 = .ok p.toValue := by rw [hpol]; exact hp
  refine ⟨hd, fun hs => ?_, fun hs => ⟨msp, hm, ?_⟩⟩
  · simp [cpDecrypt, cpRecover, hp', hk.attr, traverse_eq_sat attrs hne, hs]
  · rw [cpDecrypt, cpRecover_outcome hk hb hp' hc hcc hne hs, Res.ok_bind, hg, hh]

theorem pick_names {p q : Pol} (h : p.Same q) (A : List Str) : (pick A p).map Prod.fst = (pick A q).map Prod.fst := by
  have hz := zip_names (show p.leaves.map Prod.fst = q.leaves.map Prod.fst from same_names h)
  have := pick_same A p q h
  generalize pick A p = L at this
  generalize pick A q = M at this
  induction this with
  | nil => rfl
  | cons hx _ ih => rw [List.map_cons, List.map_cons, ih, hz _ hx]

theorem pick_once {p q : Pol} (h : p.Same q) {A : List Str}
    (honce : ∀ l ∈ pick A p, p.names.count l.1 = 1 ∧ A.count l.1 = 1) :
    ∀ l ∈ pick A q, q.names.count l.1 = 1 ∧ A.count l.1 = 1 := by
  intro l hl
  have : l.1 ∈ (pick A p).map Prod.fst := by rw [pick_names h A]; exact List.mem_map.2 ⟨l, hl, rfl⟩
  obtain ⟨m, hm, e⟩ := List.mem_map.1 this
  rw [← same_names h, ← e]
  exact honce m hm

theorem msp_same {p q : Pol} (h : p.Same q) : calculateMsp p.toValue = calculateMsp q.toValue := by
  rw [← msp_nocol p.toValue, same_value h, msp_nocol]

theorem binary_same {p q : Pol} (h : p.Same q) (hb : p.Binary) : q.Binary := by
  rcases calculateMsp_cases q with ⟨hq, _⟩ | ⟨_, hq⟩
  · exact hq
  · rcases calculateMsp_cases p with ⟨_, m, hm⟩ | ⟨hn, _⟩
    · rw [msp_same h, hq] at hm
      cases hm
    · exact absurd hb hn

theorem cpFrom_same (env : Env F G1 G2 Gt) (sk : CpSecretKey G1 G2) (ct : CpCiphertext G1 G2 Gt) {p q : Pol} (h : p.Same q) :
    cpFrom env sk ct p.toValue = cpFrom env sk ct q.toValue := by
  have ht : ∀ A, traversePolicy A p.toValue .leaf = traversePolicy A q.toValue .leaf := fun A => by
    rw [← traverse_nocol, same_value h, traverse_nocol]
  simp only [cpFrom, ht]
  rcases pruned_cases sk.attr (same_value h) with ⟨b, l, l', h1, h2, h3⟩ | h1
  · simp only [h1, h2, Res.ok_bind, (decStep_names env sk.sk ct.ct h3).1]
  · rw [h1]

theorem kpFrom_same (env : Env F G1 G2 Gt) (sk : KpSecretKey G1 G2) (ct : KpCiphertext G1 G2 Gt) {p q : Pol} (h : p.Same q) :
    kpFrom env sk ct p.toValue = kpFrom env sk ct q.toValue := by
  have ht : ∀ A, traversePolicy A p.toValue .leaf = traversePolicy A q.toValue .leaf := fun A => by
    rw [← traverse_nocol, same_value h, traverse_nocol]
  simp only [kpFrom, ht]
  rcases pruned_cases ct.attr (same_value h) with ⟨b, l, l', h1, h2, h3⟩ | h1
  · simp only [h1, h2, Res.ok_bind, (decStep_names env sk.sk ct.ct h3).2]
  · rw [h1]

/-- **C75, AC17 CP-ABE, correctness.** Stronger than C30: only the names of the selected leaves must occur once, and the
text may have several lines. -/
theorem C75_ac17_cp_correct (env : Env F G1 G2 Gt)
    (t₁ t₁' : Tape F G1 G2 Gt) (pk : PublicKey G1 G2 Gt) (msk : MasterKey F G1 G2)
    (hsetup : setup env t₁ = .ok ((pk, msk), t₁'))
    (attrs : List Str) (t₂ t₂' : Tape F G1 G2 Gt) (sk : CpSecretKey G1 G2)
    (hkey : cpKeygen env msk attrs t₂ = .ok (sk, t₂'))
    (text : Str) (lang : PolicyLanguage) (p : Pol) (hp : Denotes text lang p)
    (plaintext : Bytes) (t₃ t₃' : Tape F G1 G2 Gt) (ct : CpCiphertext G1 G2 Gt)
    (henc : cpEncrypt env pk text plaintext lang t₃ = .ok (ct, t₃'))
    (hsat : p.sat attrs = true)
    (honce : ∀ l ∈ pick attrs p, p.names.count l.1 = 1 ∧ attrs.count l.1 = 1) :
    cpDecrypt env sk ct = .ok plaintext := by
  obtain ⟨P, hs⟩ := setup_ok hsetup
  obtain ⟨hne, r0, r1, σ, hk⟩ := cpKeygen_ok hs hkey
  obtain ⟨hb, _⟩ := cpEncrypt_exact hs hp henc
  obtain ⟨q, h, hl⟩ := exists_relabel p
  obtain ⟨msp, row, hm, hM⟩ := msp_exists (binary_same h hb) hl
  rw [← msp_same h] at hm
  obtain ⟨hpol, msg, s0, s1, hc, hcc, hd⟩ := cpEncrypt_ok hs hp hm hM henc
  have hp' : parse ct.policy.1 ct.policy.2 = .ok p.toValue := by rw [hpol]; exact hp
  rw [cpDecrypt, cpRecover_from hp', cpFrom_same env sk ct h,
    cpFrom_ok hk (binary_same h hb) hM hc hcc hne (same_sat h attrs ▸ hsat) (pick_once h honce)]
  exact hd

/-- Where the deviation comes from: under the policy `"n"` every repetition of `n` in the key adds one more term. -/
theorem C75_ac17_cp_leaf (env : Env F G1 G2 Gt) (P : Params F) (r0 r1 s0 s1 : F) (n : Str) (k : ℕ) (attrs : List Str) :
    ∃ msp, calculateMsp (Pol.leaf n k).toValue = .ok msp ∧
      cpExcess env P r0 r1 s0 s1 (msp.pi.zip msp.m) msp.c attrs [n] =
        (1 - (attrs.count n : F)) * mix env P r0 r1 s0 s1 n := by
  refine ⟨⟨[[1]], [n], 1⟩, rfl, ?_⟩
  have h : (attrs.map fun a => (([n] : List Str).count a : F) * mix env P r0 r1 s0 s1 a).sum =
      (attrs.count n : F) * mix env P r0 r1 s0 s1 n := by
    induction attrs with
    | nil => simp
    | cons a as ih =>
      rw [List.map_cons, List.sum_cons, ih, List.count_cons]
      by_cases hn : a = n
      · subst hn; simp; ring
      · simp [hn, Ne.symm hn]
  have hc : mix env P r0 r1 s0 s1 (colName 1) = mix env P r0 r1 s0 s1 (chars% "01") := rfl
  simp only [cpExcess, h, List.zip_cons_cons, List.zip_nil_right, List.map_cons, List.map_nil, List.sum_cons, List.sum_nil,
    List.range_succ, List.range_zero, List.nil_append, List.getD_cons_zero, zero_add, hc, List.count_cons_self,
    List.count_nil, Int.cast_one]
  push_cast
  ring

/-- A run meeting all hypotheses: the repeated name `C` is in the key, but not selected. -/
example : ∃ (p : Pol) (pk : PublicKey Fr Fr Fr) (msk : MasterKey Fr Fr Fr) (sk : CpSecretKey Fr Fr)
    (ct : CpCiphertext Fr Fr Fr) (t₁ t₂ t₃ : Tape Fr Fr Fr Fr),
    setup toyEnv toyTape = .ok ((pk, msk), t₁) ∧
    cpKeygen toyEnv msk [['C'], ['A'], ['C'], ['B']] toyTape = .ok (sk, t₂) ∧
    Denotes (chars% "(\"A\" and \"B\") or \"C\" or \"C\"") .human p ∧
    cpEncrypt toyEnv pk (chars% "(\"A\" and \"B\") or \"C\" or \"C\"") [1, 2] .human toyTape = .ok (ct, t₃) ∧
    ¬ Once p [['C'], ['A'], ['C'], ['B']] ∧ cpDecrypt toyEnv sk ct = .ok [1, 2] := by
  obtain ⟨d1, d2, d3⟩ := C30_ac17_cp_defined toyEnv
  obtain ⟨pk, msk, t₁, h1⟩ := d1 toyTape
  obtain ⟨sk, t₂, h2⟩ := d2 _ _ _ _ h1 (by simp [toyTape]) (by simp [toyTape]) [['C'], ['A'], ['C'], ['B']] (by simp)
    toyTape
  have hp : Denotes (chars% "(\"A\" and \"B\") or \"C\" or \"C\"") .human
    (.gate .or [.gate .and [.leaf ['A'] 3, .leaf ['B'] 11], .leaf ['C'] 19, .leaf ['C'] 26]) := rfl
  obtain ⟨ct, t₃, h3⟩ := d3 _ _ _ _ h1 _ _ _ hp (by simp [Pol.Binary]) [1, 2] (by simp [toyEnv]) toyTape
  exact ⟨_, pk, msk, sk, ct, t₁, t₂, t₃, h1, h2, hp, h3, by simp [Once, Pol.names],
    C75_ac17_cp_correct toyEnv _ _ pk msk h1 _ _ _ sk h2 _ _ _ hp _ _ _ ct h3 (by decide) (by decide)⟩

/-- Two leaves `"C"` in the same column of two lines: the leaves are not told apart by their labels. -/
example : ∃ (p : Pol) (pk : PublicKey Fr Fr Fr) (msk : MasterKey Fr Fr Fr) (sk : CpSecretKey Fr Fr)
    (ct : CpCiphertext Fr Fr Fr) (t₁ t₂ t₃ : Tape Fr Fr Fr Fr),
    setup toyEnv toyTape = .ok ((pk, msk), t₁) ∧ cpKeygen toyEnv msk [['A']] toyTape = .ok (sk, t₂) ∧
    Denotes (chars% "\"C\" or \"A\" or\n\"C\"") .human p ∧
    cpEncrypt toyEnv pk (chars% "\"C\" or \"A\" or\n\"C\"") [1, 2] .human toyTape = .ok (ct, t₃) ∧
    ¬ p.leaves.Nodup ∧ cpDecrypt toyEnv sk ct = .ok [1, 2] := by
  obtain ⟨d1, d2, d3⟩ := C30_ac17_cp_defined toyEnv
  obtain ⟨pk, msk, t₁, h1⟩ := d1 toyTape
  obtain ⟨sk, t₂, h2⟩ := d2 _ _ _ _ h1 (by simp [toyTape]) (by simp [toyTape]) [['A']] (by simp) toyTape
  have hp : Denotes (chars% "\"C\" or \"A\" or\n\"C\"") .human
    (.gate .or [.leaf ['C'] 2, .leaf ['A'] 9, .leaf ['C'] 2]) := rfl
  obtain ⟨ct, t₃, h3⟩ := d3 _ _ _ _ h1 _ _ _ hp (by simp [Pol.Binary]) [1, 2] (by simp [toyEnv]) toyTape
  exact ⟨_, pk, msk, sk, ct, t₁, t₂, t₃, h1, h2, hp, h3, by simp,
    C75_ac17_cp_correct toyEnv _ _ pk msk h1 _ _ _ sk h2 _ _ _ hp _ _ _ ct h3 (by decide) (by decide)⟩

/-! ## KP-ABE -/

omit [DecidableEq F] [AddCommGroup G1] [Module F G1] [AddCommGroup G2] [Module F G2] [AddCommGroup Gt] [Module F Gt]
  [Field F] in
theorem mapL_genFr {α : Type} (xs : List α) : ∀ t : Tape F G1 G2 Gt,
    RM.mapL (fun _ => RM.genFr) xs t = .ok ((List.range xs.length).map t.fr, { t with fr := dropS xs.length t.fr }) := by
  induction xs with
  | nil => intro t; simp [RM.mapL, RM.rpure_eq, dropS]
  | cons x xs ih =>
    intro t
    simp only [RM.mapL, RM.rbind_eq, RM.rpure_eq, RM.bind_apply, RM.genFr, ih, RM.pure_apply, List.length_cons,
      List.range_succ_eq_map, List.map_cons, List.map_map, Res.ok.injEq, Prod.mk.injEq, List.cons.injEq, true_and]
    refine ⟨List.map_congr_left fun i _ => ?_, ?_⟩
    · simp [dropS, Nat.add_comm]
    · congr 1
      funext i
      simp only [dropS]
      congr 1
      omega

/-- The rows of an issued key, with the scalar drawn for each row. -/
theorem kpKeygen_exact {env : Env F G1 G2 Gt} {pk msk} {P : Params F} (hs' : IsSetup env pk msk P)
    {policy lang t sk t'} {p : Pol} (hp : parse policy lang = .ok p.toValue)
    (h : kpKeygen env msk policy lang t = .ok (sk, t')) :
    p.Binary ∧ sk.policy = (policy, lang) ∧ P.a0 ≠ 0 ∧ P.a1 ≠ 0 ∧
      sk.sk.k0 = [(P.b0 * t.fr 0) • msk.h, (P.b1 * t.fr 1) • msk.h, (t.fr 0 + t.fr 1) • msk.h] ∧
      ∃ msp, calculateMsp p.toValue = .ok msp ∧ ∃ ps : List ((Str × List ℤ) × F), ps.map Prod.fst = msp.pi.zip msp.m ∧
        sk.sk.k = ps.map fun q => (q.1.1, kpVec env msk.g P (t.fr 0) (t.fr 1)
          ((List.range (msp.c - 1)).map fun j => t.fr (2 + j)) (msp.c - 1) q.1.2 q.1.1 q.2) := by
  have hb : p.Binary := by
    by_contra hb
    have h1 := lw_panic p hb ⟨[], [], 1⟩ [1] none (Nat.le_refl 1)
    have h2 : calculateMsp p.toValue = .panic := by simp [calculateMsp, h1]
    simp [kpKeygen, hp, h2] at h
  obtain ⟨msp, R, hm, hc, hR, hRl, hperm, _, hmR, _⟩ := calculateMsp_eq p hb
  have hrow : ∀ r ∈ msp.m, r.length = msp.c ∧ Small r := fun r hr => hRl r (hmR.mem_iff.1 hr)
  have hne : msp.pi.zip msp.m ≠ [] := by
    intro he
    have h1 := hperm.length_eq
    have h2 := mrows_length p hb (evec 0 1) 1
    rw [← hR, List.length_map] at h2
    rw [he, List.length_zip, h2, Pol.names, List.length_map, Nat.min_self] at h1
    exact leaves_ne_nil hb.wide (List.length_eq_zero_iff.1 h1.symm)
  simp only [kpKeygen, RM.bind_ok, RM.genFr, RM.lift_ok_iff, RM.pure_ok, hp,
    Res.ok.injEq, Prod.mk.injEq, Res.index] at h
  obtain ⟨_, u1, ⟨rfl, rfl⟩, msp', u2, ⟨hm', rfl⟩, r', u3, ⟨hr', rfl⟩, r0, t1, ⟨rfl, rfl⟩, r1, t2, ⟨rfl, rfl⟩, br, t3,
    ⟨hbr, rfl⟩, sp, t4, hsp, k, t5, hk, rfl, _⟩ := h
  rw [hm] at hm'
  obtain rfl := Res.ok.inj hm'
  have hrl : r'.length = msp.c := by
    cases e : msp.m[0]? with
    | none => rw [e] at hr'; simp [Res.unwrapOption] at hr'
    | some r =>
      rw [e] at hr'
      obtain rfl := Res.ok.inj hr'
      exact (hrow _ (List.mem_of_getElem? e)).1
  simp only [brVec, hs'.b, Res.index, List.getElem?_cons_zero, List.getElem?_cons_succ, Res.unwrapOption_some,
    Res.ok_bind, Res.ok.injEq] at hbr
  subst hbr
  rw [mapL_genFr] at hsp
  simp only [Res.ok.injEq, Prod.mk.injEq] at hsp
  obtain ⟨rfl, rfl⟩ := hsp
  have hd1 : dropS 1 u3.fr 0 = u3.fr 1 := rfl
  have hfr : (List.range (List.range (r'.length - 1)).length).map (dropS 1 (dropS 1 u3.fr)) =
      (List.range (msp.c - 1)).map fun j => u3.fr (2 + j) := by
    rw [List.length_range, hrl]
    refine List.map_congr_left fun j _ => ?_
    simp only [dropS]
    congr 1
    omega
  rw [hd1, hfr, hrl] at hk
  have hall : List.Forall₂ (fun (x : Str × List ℤ) (e : Str × List G1) => P.a0 ≠ 0 ∧ P.a1 ≠ 0 ∧ ∃ σ : F,
      e = (x.1, kpVec env msk.g P (u3.fr 0) (u3.fr 1) ((List.range (msp.c - 1)).map fun j => u3.fr (2 + j)) (msp.c - 1)
        x.2 x.1 σ)) (msp.pi.zip msp.m) k := by
    refine (Forall₂.with_mem (RM.mapL_ok hk)).imp ?_
    rintro x e ⟨hx, s, s', he⟩
    have := kpKeygenRow_ok hs' (hrow x.2 (List.of_mem_zip hx).2).2 he
    exact ⟨this.1, this.2.1, _, this.2.2⟩
  obtain ⟨x0, hx0⟩ := List.exists_mem_of_ne_nil _ hne
  obtain ⟨w0, hw0, ha0, ha1, _⟩ := Forall₂.mem_left hall x0 hx0
  refine ⟨hb, rfl, ha0, ha1, by simp [hd1], msp, hm, ?_⟩
  clear hk hfr hne hx0 hw0 hperm
  generalize msp.pi.zip msp.m = rows at *
  induction hall with
  | nil => exact ⟨[], rfl, rfl⟩
  | cons hx _ ih =>
    obtain ⟨_, _, σ, rfl⟩ := hx
    obtain ⟨ps, rfl, rfl⟩ := ih
    exact ⟨(_, σ) :: ps, rfl, rfl⟩

theorem kpEncrypt_exact {env : Env F G1 G2 Gt} {pk msk} {P : Params F} (hs' : IsSetup env pk msk P)
    {attrs pt t ct t'} (h : kpEncrypt env pk attrs pt t = .ok (ct, t')) :
    ct.attr = attrs ∧ IsBody env msk P ct.ct (t.gt 0) (t.fr 0) (t.fr 1) ∧
      ct.ct.c = attrs.map (fun a => (a, kpCtVec env msk.g (t.fr 0) (t.fr 1) a)) ∧
      decryptSymmetric env (t.gt 0) ct.ct.ct = .ok pt := by
  simp only [kpEncrypt, RM.bind_ok, RM.genFr, RM.genGt, RM.lift_ok_iff, RM.pure_ok,
    Res.ok.injEq, Prod.mk.injEq, c0Vec_eq hs', cPrime_eq hs'] at h
  obtain ⟨s0, t1, ⟨rfl, rfl⟩, s1, t2, ⟨rfl, rfl⟩, _, _, ⟨rfl, rfl⟩, _, _, ⟨rfl, rfl⟩, msg, t3, ⟨rfl, rfl⟩, data, t4,
    hd, rfl, _⟩ := h
  refine ⟨rfl, ⟨rfl, rfl⟩, ?_, encryptSymmetric_ok hd⟩
  refine List.map_congr_left fun a _ => ?_
  simp only [kpEncAttr, kpCtVec, ctVec, hx, Prod.mk.injEq, true_and, List.map_cons, List.map_nil, Env.sha3Hash, hs'.g,
    zero_add, smul_smul, ← add_smul]
  trivial

/-- The exponent of the pairing of the generators that hides the session element. -/
def blind (P : Params F) (s0 s1 : F) : F := s0 * (P.k0 * P.a0 + P.k2) + s1 * (P.k1 * P.a1 + P.k2)

/-- What column `j + 1` of the matrix contributes to the exponent. `σ i`: the scalar drawn for column `i + 1`. -/
def colX (env : Env F G1 G2 Gt) (P : Params F) (r0 r1 s0 s1 : F) (σ : List F) (j : ℕ) : F :=
  ((List.range (j + 1)).map fun i =>
    mix env P r0 r1 s0 s1 (colName (i + 1)) - (s0 * P.a0 + s1 * P.a1) * σ.getD i 0).sum - (s0 + s1) * σ.getD j 0

/-- The multiple of the pairing of the generators by which decryption misses the session element. `used`: the names of the
selected leaves; `rows`: names and rows of the matrix; `n`: number of columns after the first. -/
def kpExcess (env : Env F G1 G2 Gt) (P : Params F) (r0 r1 s0 s1 : F) (σ : List F) (rows : List (Str × List ℤ)) (n : ℕ)
    (attrs used : List Str) : F :=
  blind P s0 s1 + (attrs.map fun a => (used.count a : F) * mix env P r0 r1 s0 s1 a).sum -
  (rows.map fun x => (used.count x.1 : F) * (mix env P r0 r1 s0 s1 x.1 + ((x.2.getD 0 0 : ℤ) : F) * blind P s0 s1 +
    ((List.range n).map fun j => ((x.2.getD (j + 1) 0 : ℤ) : F) * colX env P r0 r1 s0 s1 σ j).sum)).sum

omit [DecidableEq F] in
theorem tempX_mix (env : Env F G1 G2 Gt) (P : Params F) (h0 : P.a0 ≠ 0) (h1 : P.a1 ≠ 0) (r0 r1 s0 s1 : F) (σ : List F)
    (j : ℕ) : s0 * P.a0 * tempX env P r0 r1 P.a0⁻¹ σ 0 j + s1 * P.a1 * tempX env P r0 r1 P.a1⁻¹ σ 1 j =
      ((List.range j).map fun i =>
        mix env P r0 r1 s0 s1 (colName (i + 1)) - (s0 * P.a0 + s1 * P.a1) * σ.getD i 0).sum := by
  induction j with
  | zero => simp [tempX]
  | succ j ih =>
    rw [List.range_succ, List.map_append, List.sum_append, ← ih]
    simp only [tempX, List.map_cons, List.map_nil, List.sum_cons, List.sum_nil, mix]
    field_simp
    ring

omit [DecidableEq F] in
theorem kp_row_mix (env : Env F G1 G2 Gt) (P : Params F) (h0 : P.a0 ≠ 0) (h1 : P.a1 ≠ 0) (r0 r1 s0 s1 : F) (σ : List F)
    (n : ℕ) (τ : F) (name : Str) (row : List ℤ) :
    s0 * P.a0 * kpX env P r0 r1 P.a0⁻¹ P.k0 σ n τ name row 0 + s1 * P.a1 * kpX env P r0 r1 P.a1⁻¹ P.k1 σ n τ name row 1 +
      (s0 + s1) * kpL P σ n τ row =
    mix env P r0 r1 s0 s1 name + ((row.getD 0 0 : ℤ) : F) * blind P s0 s1 +
      ((List.range n).map fun j => ((row.getD (j + 1) 0 : ℤ) : F) * colX env P r0 r1 s0 s1 σ j).sum := by
  have hcol : ((List.range n).map fun j => ((row.getD (j + 1) 0 : ℤ) : F) * colX env P r0 r1 s0 s1 σ j).sum =
      s0 * P.a0 * ((List.range n).map fun j => ((row.getD (j + 1) 0 : ℤ) : F) * tempX env P r0 r1 P.a0⁻¹ σ 0 (j + 1)).sum +
      s1 * P.a1 * ((List.range n).map fun j => ((row.getD (j + 1) 0 : ℤ) : F) * tempX env P r0 r1 P.a1⁻¹ σ 1 (j + 1)).sum +
      (s0 + s1) * ((List.range n).map fun j => ((row.getD (j + 1) 0 : ℤ) : F) * -(σ.getD j 0)).sum := by
    simp only [colX, ← tempX_mix env P h0 h1]
    generalize List.range n = L
    induction L with
    | nil => simp
    | cons j L ih => simp only [List.map_cons, List.sum_cons, ih]; ring
  rw [hcol]
  simp only [kpX, kpL, mix, blind]
  generalize ((List.range n).map fun j => ((row.getD (j + 1) 0 : ℤ) : F) * tempX env P r0 r1 P.a0⁻¹ σ 0 (j + 1)).sum = x
  generalize ((List.range n).map fun j => ((row.getD (j + 1) 0 : ℤ) : F) * tempX env P r0 r1 P.a1⁻¹ σ 1 (j + 1)).sum = y
  generalize ((List.range n).map fun j => ((row.getD (j + 1) 0 : ℤ) : F) * -(σ.getD j 0)).sum = z
  generalize ((row.getD 0 0 : ℤ) : F) = w
  generalize hs env name P r0 r1 0 = u
  generalize hs env name P r0 r1 1 = v
  field_simp
  ring

/-- What `kp_decrypt` recovers from an issued key with any stored policy and an honest ciphertext: `L` are the selected
leaves. -/
theorem kpRecover_selected {env : Env F G1 G2 Gt} {msk : MasterKey F G1 G2} {P : Params F} {v : PolicyValue}
    (h0 : P.a0 ≠ 0) (h1 : P.a1 ≠ 0) {sk : KpSecretKey G1 G2} {r0 r1 : F} {σ : List F} {n : ℕ}
    (hpol : parse sk.policy.1 sk.policy.2 = .ok v)
    (hk0 : sk.sk.k0 = [(P.b0 * r0) • msk.h, (P.b1 * r1) • msk.h, (r0 + r1) • msk.h])
    {ps : List ((Str × List ℤ) × F)}
    (hkk : sk.sk.k = ps.map fun q => (q.1.1, kpVec env msk.g P r0 r1 σ n q.1.2 q.1.1 q.2))
    {ct : KpCiphertext G1 G2 Gt} {msg s0 s1} (hc : IsBody env msk P ct.ct msg s0 s1)
    (hcc : ct.ct.c = ct.attr.map fun a => (a, kpCtVec env msk.g s0 s1 a))
    (htr : traversePolicy ct.attr v .leaf = true) {L : List (Str × ℕ)}
    (hL : calcPruned ct.attr v none = .ok (true, L.map leafKey)) :
    kpRecover env sk ct = .ok (msg + kpExcess env P r0 r1 s0 s1 σ (ps.map Prod.fst) n ct.attr
      (L.map Prod.fst) • env.pair msk.g msk.h) := by
  simp only [kpRecover, hpol, Res.ok_bind, htr, hL, Bool.true_eq_false, if_false, if_true]
  have pg : ∀ i : ℕ, i < 3 → listSum ct.ct.c i (L.map leafKey) =
      .ok ((s0 * (ct.attr.map fun a => ((L.map Prod.fst).count a : F) * hx env a i 0).sum +
        s1 * (ct.attr.map fun a => ((L.map Prod.fst).count a : F) * hx env a i 1).sum) • msk.g) := by
    intro i hi
    rw [hcc, listSum_named ct.attr (fun a => a) _ i (fun a => s0 * hx env a i 0 + s1 * hx env a i 1) msk.g (by
        intro l _
        have : i = 0 ∨ i = 1 ∨ i = 2 := by omega
        rcases this with rfl | rfl | rfl <;> rfl), sum_two]
  have ph : ∀ (y : (Str × List ℤ) × F → F) (i : ℕ),
      (∀ q : (Str × List ℤ) × F, (kpVec env msk.g P r0 r1 σ n q.1.2 q.1.1 q.2)[i]? = some (y q • msk.g)) →
      listSum sk.sk.k i (L.map leafKey) =
        .ok ((ps.map fun q => ((L.map Prod.fst).count q.1.1 : F) * y q).sum • msk.g) := by
    intro y i hy
    rw [hkk, listSum_named ps (fun x => x.1.1) _ i y msk.g (fun q _ => hy q)]
  have ph0 := ph (fun q => kpX env P r0 r1 P.a0⁻¹ P.k0 σ n q.2 q.1.1 q.1.2 0) 0 (fun _ => rfl)
  have ph1 := ph (fun q => kpX env P r0 r1 P.a1⁻¹ P.k1 σ n q.2 q.1.1 q.1.2 1) 1 (fun _ => rfl)
  have ph2 := ph (fun q => kpL P σ n q.2 q.1.2) 2 (fun _ => rfl)
  have hE : kpExcess env P r0 r1 s0 s1 σ (ps.map Prod.fst) n ct.attr (L.map Prod.fst) =
      s0 * (P.k0 * P.a0 + P.k2) + s1 * (P.k1 * P.a1 + P.k2) +
      (s0 * (P.b0 * r0 * (ct.attr.map fun a => ((L.map Prod.fst).count a : F) * hx env a 0 0).sum +
        P.b1 * r1 * (ct.attr.map fun a => ((L.map Prod.fst).count a : F) * hx env a 1 0).sum +
        (r0 + r1) * (ct.attr.map fun a => ((L.map Prod.fst).count a : F) * hx env a 2 0).sum) +
      s1 * (P.b0 * r0 * (ct.attr.map fun a => ((L.map Prod.fst).count a : F) * hx env a 0 1).sum +
        P.b1 * r1 * (ct.attr.map fun a => ((L.map Prod.fst).count a : F) * hx env a 1 1).sum +
        (r0 + r1) * (ct.attr.map fun a => ((L.map Prod.fst).count a : F) * hx env a 2 1).sum)) -
      (s0 * P.a0 * (ps.map fun q => ((L.map Prod.fst).count q.1.1 : F) *
          kpX env P r0 r1 P.a0⁻¹ P.k0 σ n q.2 q.1.1 q.1.2 0).sum +
        s1 * P.a1 * (ps.map fun q => ((L.map Prod.fst).count q.1.1 : F) *
          kpX env P r0 r1 P.a1⁻¹ P.k1 σ n q.2 q.1.1 q.1.2 1).sum +
        (s0 + s1) * (ps.map fun q => ((L.map Prod.fst).count q.1.1 : F) * kpL P σ n q.2 q.1.2).sum) := by
    have hr : ((ps.map Prod.fst).map fun x => ((L.map Prod.fst).count x.1 : F) * (mix env P r0 r1 s0 s1 x.1 +
        ((x.2.getD 0 0 : ℤ) : F) * blind P s0 s1 +
        ((List.range n).map fun j => ((x.2.getD (j + 1) 0 : ℤ) : F) * colX env P r0 r1 s0 s1 σ j).sum)).sum =
        s0 * P.a0 * (ps.map fun q => ((L.map Prod.fst).count q.1.1 : F) *
          kpX env P r0 r1 P.a0⁻¹ P.k0 σ n q.2 q.1.1 q.1.2 0).sum +
        s1 * P.a1 * (ps.map fun q => ((L.map Prod.fst).count q.1.1 : F) *
          kpX env P r0 r1 P.a1⁻¹ P.k1 σ n q.2 q.1.1 q.1.2 1).sum +
        (s0 + s1) * (ps.map fun q => ((L.map Prod.fst).count q.1.1 : F) * kpL P σ n q.2 q.1.2).sum := by
      clear * - h0 h1
      induction ps with
      | nil => simp
      | cons q qs ih =>
        simp only [List.map_cons, List.sum_cons] at ih ⊢
        rw [ih, ← kp_row_mix env P h0 h1 r0 r1 s0 s1 σ n q.2 q.1.1 q.1.2]
        ring
    unfold kpExcess
    rw [hr, ← sum_six]
    rfl
  rw [hE]
  change (Res.foldR (kpDecStep env sk.sk ct.ct (L.map leafKey)) (0, 0) [0, 1, 2] >>= _) = _
  simp only [Res.foldR, Res.rbind_eq, kpDecStep, pg 0 (by omega), pg 1 (by omega), pg 2 (by omega), ph0, ph1, ph2,
    hk0, hc.c0, Res.index, List.getElem?_cons_zero, List.getElem?_cons_succ, Res.unwrapOption_some,
    Res.ok_bind, Res.ok.injEq, hc.cP]
  simp only [map_add, map_smul, LinearMap.add_apply, LinearMap.smul_apply]
  module

theorem kpRecover_outcome {env : Env F G1 G2 Gt} {msk : MasterKey F G1 G2} {P : Params F} {p : Pol} (hb : p.Binary)
    (h0 : P.a0 ≠ 0) (h1 : P.a1 ≠ 0) {sk : KpSecretKey G1 G2} {r0 r1 : F} {σ : List F} {n : ℕ}
    (hpol : parse sk.policy.1 sk.policy.2 = .ok p.toValue)
    (hk0 : sk.sk.k0 = [(P.b0 * r0) • msk.h, (P.b1 * r1) • msk.h, (r0 + r1) • msk.h])
    {ps : List ((Str × List ℤ) × F)}
    (hkk : sk.sk.k = ps.map fun q => (q.1.1, kpVec env msk.g P r0 r1 σ n q.1.2 q.1.1 q.2))
    {ct : KpCiphertext G1 G2 Gt} {msg s0 s1} (hc : IsBody env msk P ct.ct msg s0 s1)
    (hcc : ct.ct.c = ct.attr.map fun a => (a, kpCtVec env msk.g s0 s1 a))
    (hne : ct.attr ≠ []) (hsat : p.sat ct.attr = true) :
    kpRecover env sk ct = .ok (msg + kpExcess env P r0 r1 s0 s1 σ (ps.map Prod.fst) n ct.attr
      ((pick ct.attr p).map Prod.fst) • env.pair msk.g msk.h) := by
  refine kpRecover_selected h0 h1 hpol hk0 hkk hc hcc (by rw [traverse_eq_sat ct.attr hne, hsat]) ?_
  rw [calcPruned_eq ct.attr p hb.wide, hsat]

/-- **C75, AC17 KP-ABE.** As `C75_ac17_cp_outcome`; the scalars of the columns are drawn by key generation. An empty
attribute list is refused. -/
theorem C75_ac17_kp_outcome (env : Env F G1 G2 Gt)
    (t₁ t₁' : Tape F G1 G2 Gt) (pk : PublicKey G1 G2 Gt) (msk : MasterKey F G1 G2)
    (hsetup : setup env t₁ = .ok ((pk, msk), t₁'))
    (text : Str) (lang : PolicyLanguage) (p : Pol) (hp : Denotes text lang p)
    (t₂ t₂' : Tape F G1 G2 Gt) (sk : KpSecretKey G1 G2)
    (hkey : kpKeygen env msk text lang t₂ = .ok (sk, t₂'))
    (attrs : List Str) (plaintext : Bytes) (t₃ t₃' : Tape F G1 G2 Gt) (ct : KpCiphertext G1 G2 Gt)
    (henc : kpEncrypt env pk attrs plaintext t₃ = .ok (ct, t₃')) :
    decryptSymmetric env (t₃.gt 0) ct.ct.ct = .ok plaintext ∧
    (p.sat attrs = false ∨ attrs = [] → kpDecrypt env sk ct = .err) ∧
    (p.sat attrs = true → attrs ≠ [] → ∃ msp, calculateMsp p.toValue = .ok msp ∧
      kpDecrypt env sk ct = decryptSymmetric env (t₃.gt 0 +
        kpExcess env (drawn t₁) (t₂.fr 0) (t₂.fr 1) (t₃.fr 0) (t₃.fr 1)
          ((List.range (msp.c - 1)).map fun j => t₂.fr (2 + j)) (msp.pi.zip msp.m) (msp.c - 1) attrs
          ((pick attrs p).map Prod.fst) • env.pair (t₁.g1 0) (t₁.g2 0)) ct.ct.ct) := by
  obtain ⟨hs, hg, hh⟩ := setup_exact hsetup
  obtain ⟨hb, hpol, h0, h1, hk0, msp, hm, ps, hps, hkk⟩ := kpKeygen_exact hs hp hkey
  obtain ⟨ha, hc, hcc, hd⟩ := kpEncrypt_exact hs henc
  subst ha
  have hp' : parse sk.policy.1 sk.policy.2 = .ok p.toValue := by rw [hpol]; exact hp
  refine ⟨hd, fun hs => ?_, fun hs hne => ⟨msp, hm, ?_⟩⟩
  · have ht : traversePolicy ct.attr p.toValue .leaf = false := by
      by_cases he : ct.attr = []
      · rw [he, traverse_nil]
      · rw [traverse_eq_sat _ he]
        exact hs.resolve_right he
    simp [kpDecrypt, kpRecover, hp', ht]
  · rw [kpDecrypt, kpRecover_outcome hb h0 h1 hp' hk0 hkk hc hcc hne hs, Res.ok_bind, hg, hh, hps]

/-- **C75, AC17 KP-ABE, correctness.** Stronger than C32: only the names of the selected leaves must occur once, and the
text may have several lines. -/
theorem C75_ac17_kp_correct (env : Env F G1 G2 Gt)
    (t₁ t₁' : Tape F G1 G2 Gt) (pk : PublicKey G1 G2 Gt) (msk : MasterKey F G1 G2)
    (hsetup : setup env t₁ = .ok ((pk, msk), t₁'))
    (text : Str) (lang : PolicyLanguage) (p : Pol) (hp : Denotes text lang p)
    (t₂ t₂' : Tape F G1 G2 Gt) (sk : KpSecretKey G1 G2)
    (hkey : kpKeygen env msk text lang t₂ = .ok (sk, t₂'))
    (attrs : List Str) (plaintext : Bytes) (t₃ t₃' : Tape F G1 G2 Gt) (ct : KpCiphertext G1 G2 Gt)
    (henc : kpEncrypt env pk attrs plaintext t₃ = .ok (ct, t₃'))
    (hsat : p.sat attrs = true)
    (honce : ∀ l ∈ pick attrs p, p.names.count l.1 = 1 ∧ attrs.count l.1 = 1) :
    kpDecrypt env sk ct = .ok plaintext := by
  obtain ⟨P, hs⟩ := setup_ok hsetup
  obtain ⟨hb, _⟩ := kpKeygen_exact hs hp hkey
  obtain ⟨q, h, hl⟩ := exists_relabel p
  obtain ⟨msp, row, hm, hM⟩ := msp_exists (binary_same h hb) hl
  rw [← msp_same h] at hm
  obtain ⟨hpol, r0, r1, sigmaP, hk⟩ := kpKeygen_ok hs hp hm hM hl (binary_same h hb) hkey
  have hp' : parse sk.policy.1 sk.policy.2 = .ok p.toValue := by rw [hpol]; exact hp
  obtain ⟨ha, msg, s0, s1, hc, hcc, hd⟩ := kpEncrypt_ok hs henc
  subst ha
  rw [kpDecrypt, kpRecover_from hp', kpFrom_same env sk ct h,
    kpFrom_ok (binary_same h hb) hM hk hc hcc (same_sat h _ ▸ hsat) (pick_once h honce)]
  exact hd

/-- A run meeting all hypotheses: the repeated name `C` is among the attributes, but not selected. -/
example : ∃ (p : Pol) (pk : PublicKey Fr Fr Fr) (msk : MasterKey Fr Fr Fr) (sk : KpSecretKey Fr Fr)
    (ct : KpCiphertext Fr Fr Fr) (t₁ t₂ t₃ : Tape Fr Fr Fr Fr),
    setup toyEnv toyTape = .ok ((pk, msk), t₁) ∧
    Denotes (chars% "(\"A\" and \"B\") or \"C\" or \"C\"") .human p ∧
    kpKeygen toyEnv msk (chars% "(\"A\" and \"B\") or \"C\" or \"C\"") .human toyTape = .ok (sk, t₂) ∧
    kpEncrypt toyEnv pk [['C'], ['A'], ['C'], ['B']] [1, 2] toyTape = .ok (ct, t₃) ∧
    ¬ Once p [['C'], ['A'], ['C'], ['B']] ∧ kpDecrypt toyEnv sk ct = .ok [1, 2] := by
  obtain ⟨d2, d3⟩ := C32_ac17_kp_defined toyEnv
  obtain ⟨pk, msk, t₁, h1⟩ := (C30_ac17_cp_defined toyEnv).1 toyTape
  have hp : Denotes (chars% "(\"A\" and \"B\") or \"C\" or \"C\"") .human
    (.gate .or [.gate .and [.leaf ['A'] 3, .leaf ['B'] 11], .leaf ['C'] 19, .leaf ['C'] 26]) := rfl
  obtain ⟨sk, t₂, h2⟩ := d2 _ _ _ _ h1 (by simp [toyTape]) (by simp [toyTape]) _ _ _ hp
    (by simp [Pol.Binary]) toyTape
  obtain ⟨ct, t₃, h3⟩ := d3 _ _ _ _ h1 [['C'], ['A'], ['C'], ['B']] [1, 2] (by simp [toyEnv]) toyTape
  exact ⟨_, pk, msk, sk, ct, t₁, t₂, t₃, h1, hp, h2, h3, by simp [Once, Pol.names],
    C75_ac17_kp_correct toyEnv _ _ pk msk h1 _ _ _ hp _ _ sk h2 _ _ _ _ ct h3 (by decide) (by decide)⟩

end Ac17
end Rabe
