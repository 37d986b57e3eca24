import Verif.Props.OutcomeKp
import Verif.Props.Aw11

/-!
# C75 for AW11

Encryption converts the labels of the leaves to upper case, decryption looks them up as they are; the component of a leaf
is made with the public key of the name up to the first underscore. As in `Verif.Props.Outcome` nothing is assumed about
the policy.
-/

namespace Rabe
namespace Aw11

variable {F G1 G2 Gt : Type} [Field F] [DecidableEq F] [AddCommGroup G1] [Module F G1]
  [AddCommGroup G2] [Module F G2] [AddCommGroup Gt] [Module F Gt]

/-- The position of the first leaf whose label in upper case is the label of the given leaf. -/
def upperPos (cm : CaseMap) (p : Pol) (l : Str × ℕ) : ℕ :=
  (p.leaves.map fun x => cm.upper (leafIdx x)).idxOf (leafIdx l)

/-- The share at a position. -/
def shareAt (p : Pol) (σ : F) (ω : ℕ → F) (i : ℕ) : F := (((shares p σ ω)[i]?).map (·.2)).getD 0

/-- The multiple of `e(g1, g2)` that an honest decryption subtracts from the session element. The exponents of an attribute
are `α` and `y`, `h` is the hash of the identity, `ρ i` the exponent of the component at position `i`. -/
def excess (cm : CaseMap) (attrs : List Str) (p : Pol) (α y : Str → F) (h s : F) (ω ω' ρ : ℕ → F) : F :=
  ((pick attrs p).map fun l => firstCoeff p (1 : F) l *
    (shareAt p s ω (upperPos cm p l) + h * shareAt p 0 ω' (upperPos cm p l) +
      ρ (upperPos cm p l) * (α (cut l.1) - α l.1 + h * (y (cut l.1) - y l.1)))).sum - s

omit [DecidableEq F] in
/-- Lookup in the list of ciphertext components. -/
theorem mapL_encShare_find (cm : CaseMap) (env : Env F G1 G2 Gt) (gk : GlobalKey G1 G2) (pks : List (PublicKey G2 Gt))
    (wS : List (Str × F)) (j : Str) : ∀ (xs : List (Str × F)) (k : ℕ) (u : Tape F G1 G2 Gt) {C u'},
      RM.mapL (encShare cm env gk pks wS) (xs.zipIdx k) u = .ok (C, u') →
      (findPkAttr (removeIndex j) pks = none → (C.filterMap id).find? (fun y => y.name == j) = none) ∧
      (∀ a x, findPkAttr (removeIndex j) pks = some a → xs[(xs.map fun x => cm.upper x.1).idxOf j]? = some x →
        ∃ w, wS[k + (xs.map fun x => cm.upper x.1).idxOf j]? = some w ∧
          (C.filterMap id).find? (fun y => y.name == j) = some
            ⟨j, x.2 • env.pair gk.g1 gk.g2 + u.fr ((xs.map fun x => cm.upper x.1).idxOf j) • a.e,
              u.fr ((xs.map fun x => cm.upper x.1).idxOf j) • gk.g2,
              u.fr ((xs.map fun x => cm.upper x.1).idxOf j) • a.y + w.2 • gk.g2⟩) := by
  intro xs
  induction xs with
  | nil =>
    intro k u C u' h
    simp only [List.zipIdx_nil, RM.mapL, RM.rpure_eq, RM.pure_ok] at h
    obtain ⟨rfl, _⟩ := h
    simp
  | cons x xs ih =>
    intro k u C u' h
    simp only [List.zipIdx_cons, RM.mapL, RM.rbind_eq, RM.rpure_eq, RM.bind_ok, RM.pure_ok, encShare, RM.genFr,
      Res.ok.injEq, Prod.mk.injEq] at h
    obtain ⟨o, u1, ⟨r, u2, ⟨rfl, rfl⟩, ho⟩, os, u3, h3, rfl, rfl⟩ := h
    have hfr : ∀ {i}, u1.fr i = u.fr (i + 1) := by
      intro i
      cases hf : findPkAttr (removeIndex (cm.upper x.1)) pks with
      | none =>
        rw [hf] at ho
        simp only [RM.pure_ok] at ho
        rw [ho.2]
        simp [dropS, Nat.add_comm]
      | some a =>
        rw [hf] at ho
        simp only [RM.bind_ok, RM.lift_ok_iff, RM.pure_ok] at ho
        obtain ⟨w, u2, ⟨_, rfl⟩, _, rfl⟩ := ho
        simp [dropS, Nat.add_comm]
    obtain ⟨ih1, ih2⟩ := ih (k + 1) u1 h3
    by_cases hj : cm.upper x.1 = j
    · constructor
      · intro hf
        rw [hj, hf] at ho
        simp only [RM.pure_ok] at ho
        rw [ho.1]
        exact ih1 hf
      · intro a x' hf hx'
        rw [hj, hf] at ho
        simp only [RM.bind_ok, RM.lift_ok_iff, RM.pure_ok, Res.index] at ho
        obtain ⟨w, u2, ⟨hw, _⟩, rfl, _⟩ := ho
        simp only [List.map_cons, hj, List.idxOf_cons_self, List.getElem?_cons_zero, Option.some.injEq] at hx' ⊢
        subst hx'
        refine ⟨w, ?_, by simp⟩
        rw [Nat.add_zero]
        cases hk : wS[k]? with
        | none => simp [hk] at hw
        | some w' => rw [hk] at hw; rw [Res.ok.inj hw]
    · have hskip : ((o :: os).filterMap id).find? (fun y => y.name == j) =
          (os.filterMap id).find? (fun y => y.name == j) := by
        cases hf : findPkAttr (removeIndex (cm.upper x.1)) pks with
        | none =>
          rw [hf] at ho
          simp only [RM.pure_ok] at ho
          rw [ho.1]
          rfl
        | some a =>
          rw [hf] at ho
          simp only [RM.bind_ok, RM.lift_ok_iff, RM.pure_ok] at ho
          obtain ⟨w, u2, _, rfl, _⟩ := ho
          simp only [List.filterMap_cons, id]
          rw [List.find?_cons_of_neg (by simpa using hj)]
      rw [hskip]
      refine ⟨ih1, fun a x' hf hx' => ?_⟩
      simp only [List.map_cons, List.idxOf_cons_ne _ hj, List.getElem?_cons_succ] at hx' ⊢
      obtain ⟨w, hw, hfind⟩ := ih2 a x' hf hx'
      simp only [hfr] at hfind
      exact ⟨w, by rw [← hw]; congr 1; omega, hfind⟩

/-- Outcome of decryption, for keys given by the exponents of the attributes. -/
theorem decrypt_outcome (cm : CaseMap) (env : Env F G1 G2 Gt) (gk : GlobalKey G1 G2) (α y : Str → F)
    (sk : SecretKey G1) (hne : sk.attr ≠ [])
    (hsk : ∀ c ∈ sk.attr, cm.upper c.1 = c.1 ∧ c.2 = α c.1 • gk.g1 + y c.1 • env.hash sk.gid • gk.g1)
    (pks : List (PublicKey G2 Gt))
    (hpk : ∀ n a, findPkAttr n pks = some a → a.e = α n • env.pair gk.g1 gk.g2 ∧ a.y = y n • gk.g2)
    (text : Str) (lang : PolicyLanguage) (p : Pol) (hp : Denotes text lang p)
    (plaintext : Bytes) (t t' : Tape F G1 G2 Gt) (ct : Ciphertext G2 Gt)
    (henc : encrypt cm env gk pks text lang plaintext t = .ok (ct, t')) :
    p.Binary ∧ decryptSymmetric env (t.gt 0) ct.ct = .ok plaintext ∧
    (p.sat (sk.attr.map (·.1)) = false → decrypt env gk sk ct = .err) ∧
    (p.sat (sk.attr.map (·.1)) = true →
      (∃ l ∈ pick (sk.attr.map (·.1)) p, findPkAttr (cut l.1) pks = none) → decrypt env gk sk ct = .panic) ∧
    (p.sat (sk.attr.map (·.1)) = true → (∀ l ∈ pick (sk.attr.map (·.1)) p, findPkAttr (cut l.1) pks ≠ none) →
      decrypt env gk sk ct = decryptSymmetric env (t.gt 0 -
        excess cm (sk.attr.map (·.1)) p α y (env.hash sk.gid) (t.fr 0) (dropS 1 t.fr) (dropS (1 + draws p) t.fr)
          (dropS (1 + 2 * draws p) t.fr) • env.pair gk.g1 gk.g2) ct.ct) := by
  obtain ⟨hbin, _⟩ := encrypt_ok hp henc
  have hp' : parse text lang = .ok p.toValue := hp
  simp only [encrypt, RM.bind_ok, RM.genFr, RM.genGt, RM.lift_ok_iff, RM.pure_ok, hp', Res.ok.injEq,
    Prod.mk.injEq, RM.liftFr] at henc
  obtain ⟨v, t0, ⟨rfl, rfl⟩, msp, t1, ⟨hm, rfl⟩, r0, t2, ⟨hr0, rfl⟩, s, t3, ⟨rfl, rfl⟩, sh, t4, hsh, shs, t5, ⟨hu, rfl⟩,
    wh, t6, hwh, whs, t7, ⟨hw, rfl⟩, msg, t8, ⟨rfl, rfl⟩, C, t9, hC, data, t10, hd, rfl, _⟩ := henc
  rw [genSharesPolicy_eq] at hsh
  simp only [Res.ok.injEq, Prod.mk.injEq] at hsh
  obtain ⟨rfl, rfl⟩ := hsh
  rw [genSharesPolicy_eq] at hwh
  simp only [Res.ok.injEq, Prod.mk.injEq] at hwh
  obtain ⟨rfl, rfl⟩ := hwh
  simp only [Res.unwrapOption_some, Res.ok.injEq] at hu hw
  subst hu hw
  have hne' : sk.attr.map (·.1) ≠ [] := by simpa using hne
  have ht := traverse_eq_sat (sk.attr.map (·.1)) hne' p .leaf
  have hw := hbin.wide
  refine ⟨hbin, encryptSymmetric_ok hd, ?_, ?_⟩
  · intro hsat
    simp [decrypt, hp', ht, hsat]
  have hlk := fun j => mapL_encShare_find cm env gk pks _ j _ 0 _ hC
  have hlab : ∀ (σ : F) (ω : ℕ → F), (shares p σ ω).map (fun x => cm.upper x.1) =
      p.leaves.map fun x => cm.upper (leafIdx x) := by
    intro σ ω
    have := congrArg (List.map cm.upper) (shares_labels p σ ω)
    simpa [List.map_map, Function.comp_def] using this
  have hup : ∀ l ∈ pick (sk.attr.map (·.1)) p, cm.upper (leafIdx l) = leafIdx l := by
    intro l hl
    obtain ⟨c, hc, hcl⟩ := List.mem_map.1 (pick_owned _ p l hl)
    rw [leafIdx, CaseMap.upper_nodeIndex, ← hcl, (hsk c hc).1]
  set Q : Str × ℕ → F := fun l => shareAt p (t2.fr 0) (dropS 1 t2.fr) (upperPos cm p l) +
      env.hash sk.gid * shareAt p 0 (dropS (1 + draws p) t2.fr) (upperPos cm p l) +
      dropS (1 + 2 * draws p) t2.fr (upperPos cm p l) *
        (α (cut l.1) - α l.1 + env.hash sk.gid * (y (cut l.1) - y l.1)) with hQ
  have hfold := foldR_outcome (decryptStep env (env.sha3Hash gk.g1 sk.gid) sk
      ⟨(text, lang), t2.gt 0 + t2.fr 0 • env.pair gk.g1 gk.g2, C.filterMap id, data⟩ (coeffs p 1))
    (fun (acc : Gt) l => acc + (firstCoeff p (1 : F) l * Q l) • env.pair gk.g1 gk.g2)
    (fun l => findPkAttr (cut l.1) pks = none) (pick (sk.attr.map (·.1)) p)
    (by
      intro l hl hb acc
      obtain ⟨c, hcm, hcf, hcn⟩ := exists_find? (fun c : Str × G1 => c.1) sk.attr l.1 (pick_owned _ p l hl)
      have := (hlk (leafIdx l)).1 (by rw [removeIndex_leafIdx]; exact hb)
      simp [decryptStep, show leafKey l = (l.1, leafIdx l) from rfl, hcf, this])
    (by
      intro l hl hb acc
      have hlp : l ∈ p.leaves := (pick_sublist _ p).subset hl
      obtain ⟨c, hcm, hcf, hcn⟩ := exists_find? (fun c : Str × G1 => c.1) sk.attr l.1 (pick_owned _ p l hl)
      obtain ⟨a, ha⟩ := Option.ne_none_iff_exists'.1 hb
      have hmem : leafIdx l ∈ p.leaves.map fun x => cm.upper (leafIdx x) :=
        List.mem_map.2 ⟨l, hlp, hup l hl⟩
      have hlt : upperPos cm p l < p.leaves.length := by
        have := List.idxOf_lt_length_iff.2 hmem
        simpa [upperPos] using this
      have hlen : ∀ (σ : F) (ω : ℕ → F), (shares p σ ω).length = p.leaves.length := by
        intro σ ω
        have := congrArg List.length (shares_labels p σ ω)
        simpa using this
      obtain ⟨x, hx⟩ : ∃ x, (shares p (t2.fr 0) (dropS 1 t2.fr))[upperPos cm p l]? = some x :=
        ⟨_, List.getElem?_eq_getElem (by rw [hlen]; exact hlt)⟩
      obtain ⟨w, hw1, hw2⟩ := (hlk (leafIdx l)).2 a x (by rw [removeIndex_leafIdx]; exact ha) (by rw [hlab]; exact hx)
      rw [hlab] at hw1 hw2
      change (shares p 0 _)[0 + upperPos cm p l]? = _ at hw1
      change _ = some (CtAttr.mk _ (_ + (dropS (draws p) (dropS (draws p) (dropS 1 t2.fr))) (upperPos cm p l) • _)
        ((dropS (draws p) (dropS (draws p) (dropS 1 t2.fr))) (upperPos cm p l) • _)
        ((dropS (draws p) (dropS (draws p) (dropS 1 t2.fr))) (upperPos cm p l) • _ + _)) at hw2
      rw [Nat.zero_add] at hw1
      have hd1 : dropS (draws p) (dropS 1 t2.fr) = dropS (1 + draws p) t2.fr := by
        funext i; simp [dropS, Nat.add_assoc]
      have hd2 : dropS (draws p) (dropS (1 + draws p) t2.fr) = dropS (1 + 2 * draws p) t2.fr := by
        funext i; simp only [dropS]; congr 1; omega
      rw [hd1] at hw1 hw2
      rw [hd2] at hw2
      have hx2 : shareAt p (t2.fr 0) (dropS 1 t2.fr) (upperPos cm p l) = x.2 := by simp [shareAt, hx]
      have hw3 : shareAt p 0 (dropS (1 + draws p) t2.fr) (upperPos cm p l) = w.2 := by simp [shareAt, hw1]
      have hc2 := (hsk c hcm).2
      rw [hcn] at hc2
      obtain ⟨ha1, ha2⟩ := hpk _ _ ha
      simp only [decryptStep, show leafKey l = (l.1, leafIdx l) from rfl, hcf, hw2, firstCoeff_find p (1 : F) hlp,
        Res.unwrapOption_some, Res.ok_bind, Res.ok.injEq, hQ, hx2, hw3, hc2, ha1, ha2, Env.sha3Hash, map_smul, map_add,
        LinearMap.smul_apply, LinearMap.add_apply]
      module) 0
  have hpr := calcPruned_eq (sk.attr.map (·.1)) p hw
  refine ⟨fun hsat hb => ?_, fun hsat hb => ?_⟩
  · simp only [decrypt, hp', ht, hsat, hpr, calcCoefficients_eq, Res.ok_bind, if_true, if_false, Bool.true_eq_false,
      Res.unwrapOption_some, List.nil_append, hfold.1 hb, Res.panic_bind]
  · have hsum : ∀ (M : List (Str × ℕ)) (a : F), M.foldl (fun (acc : Gt) l =>
        acc + (firstCoeff p (1 : F) l * Q l) • env.pair gk.g1 gk.g2) (a • env.pair gk.g1 gk.g2) =
        (a + (M.map fun l => firstCoeff p (1 : F) l * Q l).sum) • env.pair gk.g1 gk.g2 := by
      intro M
      induction M with
      | nil => intro a; simp
      | cons l M ih =>
        intro a
        rw [List.foldl_cons, ← add_smul, ih]
        simp only [List.map_cons, List.sum_cons]
        congr 1
        ring
    have h0 := hsum (pick (sk.attr.map (·.1)) p) 0
    rw [zero_smul, zero_add] at h0
    simp only [decrypt, hp', ht, hsat, hpr, calcCoefficients_eq, Res.ok_bind, if_true, if_false, Bool.true_eq_false,
      Res.unwrapOption_some, List.nil_append, hfold.2 hb]
    rw [h0, excess]
    congr 1
    module

/-- The names in a key are in upper case. -/
theorem issued_upper {cm : CaseMap} {env : Env F G1 G2 Gt} {gk : GlobalKey G1 G2} {auths : List (Authority F G2 Gt)}
    (hauths : ∀ a ∈ auths, a.Genuine cm env gk) {sk : SecretKey G1} (hkey : Issued cm env gk auths sk) :
    ∀ n ∈ sk.attr.map (·.1), cm.upper n = n := by
  obtain ⟨L, hL, hLn, hA⟩ := authorities_ok hauths
  have hup : ∀ x ∈ L, cm.upper x.1.name = x.1.name := by
    intro x hx
    have : x.1.name ∈ L.map (·.1.name) := List.mem_map.2 ⟨x, hx, rfl⟩
    rw [hLn] at this
    obtain ⟨a, _, ha⟩ := List.mem_flatMap.1 this
    obtain ⟨n, _, hn⟩ := List.mem_map.1 ha
    rw [← hn, cm.upper_idem]
  obtain ⟨_, _, hk⟩ := issued_ok hL hup (fun a ha => (hA a ha).2.1) hkey
  intro n hn
  obtain ⟨c, hc, rfl⟩ := List.mem_map.1 hn
  obtain ⟨x, hx, g, rfl, rfl⟩ := hk c hc
  exact hup x hx

theorem shareAt_upperPos (cm : CaseMap) {p : Pol} (hn : (p.leaves.map fun l => (cm.upper l.1, l.2)).Nodup) (σ : F)
    (ω : ℕ → F) {l : Str × ℕ} (hl : l ∈ p.leaves) (hup : cm.upper l.1 = l.1) :
    shareAt p σ ω (upperPos cm p l) = firstShare p σ ω l := by
  have hn' : p.leaves.Nodup := List.Nodup.of_map _ hn
  obtain ⟨sh, hsh, _⟩ := shares_fun hn' σ ω
  have hmem : leafIdx l ∈ p.leaves.map fun x => cm.upper (leafIdx x) :=
    List.mem_map.2 ⟨l, hl, by rw [leafIdx, CaseMap.upper_nodeIndex, hup]⟩
  have hlt := List.idxOf_lt_length_iff.2 hmem
  have hget := List.getElem_idxOf hlt
  rw [List.getElem_map] at hget
  replace hlt : upperPos cm p l < p.leaves.length := by simpa [upperPos] using hlt
  have hll : p.leaves[upperPos cm p l] = l := by
    refine List.inj_on_of_nodup_map hn (List.getElem_mem hlt) hl ?_
    have : leafIdx (cm.upper (p.leaves[upperPos cm p l]).1, (p.leaves[upperPos cm p l]).2) = leafIdx (cm.upper l.1, l.2) := by
      rw [hup]
      refine Eq.trans ?_ hget
      change _ = cm.upper (nodeIndex _ _)
      rw [CaseMap.upper_nodeIndex]
      rfl
    exact leafIdx_inj this
  have h1 : shareAt p σ ω (upperPos cm p l) = sh l := by
    rw [shareAt, hsh, List.getElem?_map, List.getElem?_eq_getElem hlt, hll]
    rfl
  have hm := List.mem_of_find?_eq_some (shares_find p σ ω hl)
  rw [hsh] at hm
  obtain ⟨x, hx, hx'⟩ := List.mem_map.1 hm
  simp only [Prod.mk.injEq] at hx'
  rw [h1, ← hx'.2, leafIdx_inj hx'.1]

/-- **C75, AW11.** Any number of honest authorities with distinct attributes, any key a user can hold, any encryption under
public keys of authorities, any accepted policy text. The authorities have exponents `α`, `y` such that: not satisfied:
error. No given public key has the part before the underscore of a used name: abort. Otherwise the payload is opened with
the encrypted session element minus `excess` times the pairing of the generators. -/
theorem C75_aw11_outcome (cm : CaseMap) (env : Env F G1 G2 Gt) (gk : GlobalKey G1 G2)
    (auths : List (Authority F G2 Gt)) (hauths : ∀ a ∈ auths, a.Genuine cm env gk)
    (hdistinct : (auths.flatMap fun a => a.names.map cm.upper).Nodup)
    (sk : SecretKey G1) (hkey : Issued cm env gk auths sk)
    (text : Str) (lang : PolicyLanguage) (p : Pol) (hp : Denotes text lang p)
    (pks : List (PublicKey G2 Gt)) (hpks : ∀ pk ∈ pks, ∃ a ∈ auths, a.pk = pk)
    (plaintext : Bytes) (t t' : Tape F G1 G2 Gt) (ct : Ciphertext G2 Gt)
    (henc : encrypt cm env gk pks text lang plaintext t = .ok (ct, t')) :
    ∃ α y : Str → F, (∀ a ∈ auths, ∀ m ∈ a.msk.attr, α m.name = m.alpha ∧ y m.name = m.y) ∧
      (p.sat (sk.attr.map (·.1)) = false → decrypt env gk sk ct = .err) ∧
      (p.sat (sk.attr.map (·.1)) = true →
        (∃ l ∈ pick (sk.attr.map (·.1)) p, ∀ pk ∈ pks, cut l.1 ∉ pk.attr.map (·.name)) → decrypt env gk sk ct = .panic) ∧
      (p.sat (sk.attr.map (·.1)) = true →
        (∀ l ∈ pick (sk.attr.map (·.1)) p, ∃ pk ∈ pks, cut l.1 ∈ pk.attr.map (·.name)) →
        decrypt env gk sk ct = decryptSymmetric env (t.gt 0 -
          excess cm (sk.attr.map (·.1)) p α y (env.hash sk.gid) (t.fr 0) (dropS 1 t.fr) (dropS (1 + draws p) t.fr)
            (dropS (1 + 2 * draws p) t.fr) • env.pair gk.g1 gk.g2) ct.ct) ∧
      decryptSymmetric env (t.gt 0) ct.ct = .ok plaintext := by
  obtain ⟨L, hL, hLn, hA⟩ := authorities_ok hauths
  have hup : ∀ x ∈ L, cm.upper x.1.name = x.1.name := by
    intro x hx
    have : x.1.name ∈ L.map (·.1.name) := List.mem_map.2 ⟨x, hx, rfl⟩
    rw [hLn] at this
    obtain ⟨a, _, ha⟩ := List.mem_flatMap.1 this
    obtain ⟨n, _, hn⟩ := List.mem_map.1 ha
    rw [← hn, cm.upper_idem]
  obtain ⟨_, hne, hk⟩ := issued_ok hL hup (fun a ha => (hA a ha).2.1) hkey
  have hnd : (L.map (·.1.name)).Nodup := hLn ▸ hdistinct
  let look : Str → Option (PubAttr G2 Gt × MskAttr F) := fun n => L.find? fun x => x.1.name == n
  have hlook : ∀ x ∈ L, look x.1.name = some x := by
    intro x hx
    obtain ⟨z, hz, hf, hzn⟩ := exists_find? (fun x : PubAttr G2 Gt × MskAttr F => x.1.name) L x.1.name
      (List.mem_map.2 ⟨x, hx, rfl⟩)
    have : z = x := List.inj_on_of_nodup_map hnd hz hx hzn
    rw [← this]
    rw [← this] at hf
    exact hf
  let α : Str → F := fun n => ((look n).map (·.2.alpha)).getD 0
  let y : Str → F := fun n => ((look n).map (·.2.y)).getD 0
  have hαy : ∀ x ∈ L, α x.1.name = x.2.alpha ∧ y x.1.name = x.2.y := by
    intro x hx
    simp [α, y, hlook x hx]
  have hnone : ∀ n, findPkAttr n pks = none ↔ ∀ pk ∈ pks, n ∉ pk.attr.map (·.name) := by
    intro n
    constructor
    · intro h pk hpk hn
      obtain ⟨a, ha⟩ := findPkAttr_exists ⟨pk, hpk, hn⟩
      simp [h] at ha
    · intro h
      cases hf : findPkAttr n pks with
      | none => rfl
      | some a =>
        obtain ⟨h1, pk, hpk, h2⟩ := findPkAttr_some hf
        exact absurd (List.mem_map.2 ⟨a, h2, h1⟩) (h pk hpk)
  obtain ⟨_, h1, h2, h3, h4⟩ := decrypt_outcome cm env gk α y sk hne
    (by
      intro c hc
      obtain ⟨x, hx, g, rfl, rfl⟩ := hk c hc
      exact ⟨hup x hx, by rw [(hαy x hx).1, (hαy x hx).2]⟩) pks
    (by
      intro n a ha
      obtain ⟨hn, pk, hpk, hm⟩ := findPkAttr_some ha
      obtain ⟨b, hb, rfl⟩ := hpks pk hpk
      obtain ⟨x, hx, rfl⟩ := (hA b hb).1 a hm
      rw [← hn, (hαy x hx).1, (hαy x hx).2]
      exact ⟨(hL x hx).e, (hL x hx).y⟩) text lang p hp plaintext t t' ct henc
  refine ⟨α, y, ?_, h2, fun hs ⟨l, hl, hb⟩ => h3 hs ⟨l, hl, (hnone _).2 hb⟩, fun hs hb => h4 hs fun l hl hcon => ?_, h1⟩
  · intro a ha m hm
    obtain ⟨x, hx, rfl⟩ := (hA a ha).2.1 m hm
    rw [(hL x hx).name]
    exact hαy x hx
  · obtain ⟨pk, hpk, hc⟩ := hb l hl
    exact (hnone _).1 hcon pk hpk hc

/-- **C75, AW11, correctness** (stronger than C38): names that are not used may be written in any case and may have
underscores. If the leaves differ in the name in upper case or in the column, the used names have no underscore and a public
key, decryption returns the plaintext. -/
theorem C75_aw11_correct [BigChar F] (cm : CaseMap) (env : Env F G1 G2 Gt) (gk : GlobalKey G1 G2)
    (auths : List (Authority F G2 Gt)) (hauths : ∀ a ∈ auths, a.Genuine cm env gk)
    (hdistinct : (auths.flatMap fun a => a.names.map cm.upper).Nodup)
    (sk : SecretKey G1) (hkey : Issued cm env gk auths sk)
    (text : Str) (lang : PolicyLanguage) (p : Pol) (hp : Denotes text lang p)
    (pks : List (PublicKey G2 Gt)) (hpks : ∀ pk ∈ pks, ∃ a ∈ auths, a.pk = pk)
    (plaintext : Bytes) (t t' : Tape F G1 G2 Gt) (ct : Ciphertext G2 Gt)
    (henc : encrypt cm env gk pks text lang plaintext t = .ok (ct, t'))
    (hf : p.Fits) (hn : (p.leaves.map fun l => (cm.upper l.1, l.2)).Nodup)
    (hsat : p.sat (sk.attr.map (·.1)) = true)
    (hu : ∀ l ∈ pick (sk.attr.map (·.1)) p, '_' ∉ l.1 ∧ ∃ pk ∈ pks, l.1 ∈ pk.attr.map (·.name)) :
    decrypt env gk sk ct = .ok plaintext := by
  obtain ⟨α, y, _, _, _, h3, h4⟩ := C75_aw11_outcome cm env gk auths hauths hdistinct sk hkey text lang p hp pks hpks
    plaintext t t' ct henc
  rw [h3 hsat fun l hl => by rw [cut_eq (hu l hl).1]; exact (hu l hl).2, ← h4]
  have hn' : p.leaves.Nodup := List.Nodup.of_map _ hn
  have hskup := issued_upper hauths hkey
  have hr : Reach (sk.attr.map (·.1)) p := Wide.reach _ _ (encrypt_ok hp henc).1.wide
  have hz : ∀ (h s : F) (ω ω' ρ : ℕ → F), excess cm (sk.attr.map (·.1)) p α y h s ω ω' ρ = 0 := by
    intro h s ω ω' ρ
    have e1 := labels_weight _ p hf hn' hsat hr s ω
    have e2 := labels_weight _ p hf hn' hsat hr 0 ω'
    have key : ∀ M : List (Str × ℕ), (∀ l ∈ M, l ∈ pick (sk.attr.map (·.1)) p) →
        (M.map fun l => firstCoeff p (1 : F) l * (shareAt p s ω (upperPos cm p l) + h * shareAt p 0 ω' (upperPos cm p l) +
          ρ (upperPos cm p l) * (α (cut l.1) - α l.1 + h * (y (cut l.1) - y l.1)))).sum =
        (M.map fun l => coeffSum p (1 : F) l * firstShare p s ω l).sum +
          h * (M.map fun l => coeffSum p (1 : F) l * firstShare p 0 ω' l).sum := by
      intro M
      induction M with
      | nil => simp
      | cons l M ih =>
        intro hM
        have hl := hM l (by simp)
        have hlp : l ∈ p.leaves := (pick_sublist _ p).subset hl
        have hlu := hskup _ (pick_owned _ p l hl)
        simp only [List.map_cons, List.sum_cons, ih fun l hl => hM l (by simp [hl]), cut_eq (hu l hl).1,
          shareAt_upperPos cm hn _ _ hlp hlu, firstCoeff_eq hn' (1 : F) hlp]
        ring
    rw [excess, key _ fun l hl => hl, e1, e2]
    ring
  rw [hz, zero_smul, sub_zero]

/-- A policy with names in lower case and with an underscore: the hypotheses of C38 fail, those of `C75_aw11_correct` hold
(`A` from one authority, `B` from another, the policy `("A" and "B") or "c" or "d_1"`). -/
example : ∃ (p : Pol) (gk : GlobalKey Fr Fr) (a₁ a₂ : Authority Fr Fr Fr) (sk : SecretKey Fr)
    (ct : Ciphertext Fr Fr) (t t' : Tape Fr Fr Fr Fr),
    (∀ a ∈ [a₁, a₂], a.Genuine asciiCase toyEnv gk) ∧
    ([a₁, a₂].flatMap fun a => a.names.map asciiCase.upper).Nodup ∧ Issued asciiCase toyEnv gk [a₁, a₂] sk ∧
    Denotes (chars% "(\"A\" and \"B\") or \"c\" or \"d_1\"") .human p ∧ p.Fits ∧
    (p.leaves.map fun l => (asciiCase.upper l.1, l.2)).Nodup ∧ ¬ (∀ n ∈ p.names, asciiCase.upper n = n) ∧
    (∀ l ∈ pick (sk.attr.map (·.1)) p, '_' ∉ l.1 ∧ ∃ pk ∈ [a₁.pk, a₂.pk], l.1 ∈ pk.attr.map (·.name)) ∧
    encrypt asciiCase toyEnv gk [a₁.pk, a₂.pk] (chars% "(\"A\" and \"B\") or \"c\" or \"d_1\"") .human [1, 2, 3] t =
      .ok (ct, t') ∧
    p.sat (sk.attr.map (·.1)) = true ∧ decrypt toyEnv gk sk ct = .ok [1, 2, 3] := by
  have h : (toyRun [['b'], ['c']] [['A']] [['A']] [['B']] (chars% "(\"A\" and \"B\") or \"c\" or \"d_1\"") .human
      [1, 2, 3] >>=
      fun r => if r.1.attr.map (·.1) = [['A'], ['B']] then Res.ok () else .panic) = .ok () := by decide +kernel
  obtain ⟨⟨sk, r⟩, h1, h2⟩ := Res.bind_eq_ok.1 h
  obtain ⟨gk, a₁, a₂, ct, t, t', e1, e2, g1, g2, hi, henc, hdec⟩ := toyRun_ok h1
  split at h2
  · rename_i hs
    simp only at hs
    let p : Pol := .gate .or [.gate .and [.leaf ['A'] 3, .leaf ['B'] 11], .leaf ['c'] 19, .leaf ['d', '_', '1'] 26]
    have hG : ∀ a ∈ [a₁, a₂], a.Genuine asciiCase toyEnv gk := by simp [g1, g2]
    have hD : ([a₁, a₂].flatMap fun a => a.names.map asciiCase.upper).Nodup := by
      simp only [List.flatMap_cons, List.flatMap_nil, e1, e2]
      decide
    have hp : Denotes (chars% "(\"A\" and \"B\") or \"c\" or \"d_1\"") .human p := rfl
    have hn : (p.leaves.map fun l => (asciiCase.upper l.1, l.2)).Nodup := by decide +kernel
    have hf : p.Fits := by simp [p, Pol.Fits]
    have hsat : p.sat (sk.attr.map (·.1)) = true := by rw [hs]; simp [p]
    have hu : ∀ l ∈ pick (sk.attr.map (·.1)) p, '_' ∉ l.1 ∧ ∃ pk ∈ [a₁.pk, a₂.pk], l.1 ∈ pk.attr.map (·.name) := by
      intro l hl
      have ho := pick_owned _ _ l hl
      rw [hs] at ho
      obtain ⟨L, hL, hLn, hA⟩ := authorities_ok hG
      have n1 := (hA a₁ (by simp)).2.2.1
      have n2 := (hA a₂ (by simp)).2.2.1
      rw [e1] at n1
      rw [e2] at n2
      simp only [List.mem_cons, List.not_mem_nil, or_false] at ho
      rcases ho with ho | ho
      · rw [ho]
        exact ⟨by simp, a₂.pk, by simp, by rw [n2]; decide⟩
      · rw [ho]
        exact ⟨by simp, a₁.pk, by simp, by rw [n1]; decide⟩
    have hno : ¬ (∀ n ∈ p.names, asciiCase.upper n = n) := by
      intro h
      exact absurd (h ['c'] (by simp [p, Pol.names])) (by decide)
    exact ⟨p, gk, a₁, a₂, sk, ct, t, t', hG, hD, hi, hp, hf, hn, hno, hu, henc, hsat,
      C75_aw11_correct asciiCase toyEnv gk [a₁, a₂] hG hD sk hi _ _ p hp _ (by simp) _ _ _ ct henc hf hn hsat hu⟩
  · simp at h2

end Aw11
end Rabe
