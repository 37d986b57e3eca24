import Verif.Proof.DnfScheme

/-!
# MKE08: correctness of decryption
-/

set_option linter.unusedSectionVars false
set_option linter.unnecessarySeqFocus false

namespace Rabe
namespace Mke08

variable {F G1 G2 Gt : Type} [Field F] [DecidableEq F] [AddCommGroup G1] [Module F G1]
  [AddCommGroup G2] [Module F G2] [AddCommGroup Gt] [Module F Gt]

/-- The authority comes from `authgen`. -/
def Genuine (G1 G2 Gt : Type) (a : SecretAuthorityKey F) : Prop :=
  ∃ t t' : Tape F G1 G2 Gt, authgen a.name t = .ok (a, t')

/-- A history of key requests: the user is registered with the master key and then asks, in any order and any number of
times, authorities for attribute keys, which are appended to the key. -/
inductive Issued (env : Env F G1 G2 Gt) (pk : PublicKey G1 G2 Gt) (msk : MasterKey G1 G2)
    (auths : List (SecretAuthorityKey F)) : UserKey G1 G2 → Prop
  | keygen (name : Str) (t t' : Tape F G1 G2 Gt) (sk : UserKey G1 G2) :
      keygen pk msk name t = .ok (sk, t') → Issued env pk msk auths sk
  | request (sk : UserKey G1 G2) (a : SecretAuthorityKey F) (attr : Str) (k : SecretAttributeKey G1 G2) :
      Issued env pk msk auths sk → a ∈ auths → requestAuthoritySk env sk.pk attr a = .ok k →
      Issued env pk msk auths { sk with skA := sk.skA ++ [k] }

/-- The public attribute keys come from the authorities. -/
def Requested (env : Env F G1 G2 Gt) (pk : PublicKey G1 G2 Gt) (auths : List (SecretAuthorityKey F))
    (pks : List (PublicAttributeKey G1 G2 Gt)) : Prop :=
  ∀ k ∈ pks, ∃ a ∈ auths, ∃ attr, requestAuthorityPk env pk attr a = .ok k

/-- Secret exponent of an attribute. -/
abbrev expo (env : Env F G1 G2 Gt) (auths : List (SecretAuthorityKey F)) : Str → F :=
  expOf env.hash (auths.map fun a => (a.name, a.r))

theorem expo_eq {env : Env F G1 G2 Gt} {auths : List (SecretAuthorityKey F)}
    (hinj : ∀ a ∈ auths, ∀ b ∈ auths, a.name = b.name → a = b) {a} (ha : a ∈ auths) {attr : Str}
    (h : fromAuthority attr a.name = true) : expo env auths attr = env.hash attr * env.hash a.name * a.r := by
  refine expOf_eq (a := (a.name, a.r)) ?_ (List.mem_map.2 ⟨a, ha, rfl⟩) h
  simp only [List.mem_map]
  rintro _ ⟨b, hb, rfl⟩ _ ⟨c, hc, rfl⟩ h
  rw [hinj b hb c hc h]

/-- What `setup` returns, with secret exponents `y1`, `y2`. -/
structure SetupOk (env : Env F G1 G2 Gt) (pk : PublicKey G1 G2 Gt) (msk : MasterKey G1 G2) (y1 y2 : F) : Prop where
  e1 : pk.eGgY1 = y1 • env.pair pk.g1 pk.g2
  e2 : pk.eGgY2 = y2 • env.pair pk.g1 pk.g2
  m1 : msk.g1 = y1 • pk.g1
  m2 : msk.g2 = y2 • pk.g2

theorem setup_ok {env : Env F G1 G2 Gt} {t pk msk t'} (h : setup env t = .ok ((pk, msk), t')) :
    ∃ y1 y2, SetupOk env pk msk y1 y2 := by
  simp only [setup, RM.bind_apply, RM.genG1, RM.genG2, RM.genFr, RM.pure_apply, Res.ok.injEq, Prod.mk.injEq] at h
  obtain ⟨⟨rfl, rfl⟩, _⟩ := h
  exact ⟨_, _, rfl, rfl, rfl, rfl⟩

/-- What the holder of a user key has. -/
def UserOk (pk : PublicKey G1 G2 Gt) (y1 y2 : F) (e : Str → F) (sk : UserKey G1 G2) : Prop :=
  ∃ ρ : F, sk.sk.g1 = y1 • pk.g1 + ρ • pk.p1 ∧ sk.sk.g2 = y2 • pk.g2 + ρ • pk.p2 ∧
    sk.pk.g1 = ρ • pk.g1 ∧ sk.pk.g2 = ρ • pk.g2 ∧
    ∀ k ∈ sk.skA, k.g1 = (e k.attr * ρ) • pk.g1 ∧ k.g2 = (e k.attr * ρ) • pk.g2

theorem requestSk_ok {env : Env F G1 G2 Gt} {pkU a attr k} (h : requestAuthoritySk env pkU attr a = .ok k) :
    fromAuthority attr a.name = true ∧ k.attr = attr ∧
      k.g1 = (env.hash attr * env.hash a.name * a.r) • pkU.g1 ∧
      k.g2 = (env.hash attr * env.hash a.name * a.r) • pkU.g2 := by
  unfold requestAuthoritySk at h
  split at h
  · rename_i hf
    obtain rfl := Res.ok.inj h
    simp only [Bool.and_eq_true] at hf
    exact ⟨hf.1, rfl, rfl, rfl⟩
  · simp at h

theorem requestPk_ok {env : Env F G1 G2 Gt} {pk : PublicKey G1 G2 Gt} {a attr k} (h : requestAuthorityPk env pk attr a = .ok k) :
    fromAuthority attr a.name = true ∧ k.attr = attr ∧
      k.g1 = (env.hash attr * env.hash a.name * a.r) • pk.g1 ∧
      k.g2 = (env.hash attr * env.hash a.name * a.r) • pk.g2 ∧
      k.gt1 = (env.hash attr * env.hash a.name * a.r) • pk.eGgY1 ∧
      k.gt2 = (env.hash attr * env.hash a.name * a.r) • pk.eGgY2 := by
  unfold requestAuthorityPk at h
  split at h
  · rename_i hf
    obtain rfl := Res.ok.inj h
    exact ⟨hf, rfl, rfl, rfl, rfl, rfl⟩
  · simp at h

theorem issued_ok {env : Env F G1 G2 Gt} {pk : PublicKey G1 G2 Gt} {msk : MasterKey G1 G2} {y1 y2 : F}
    (hs : SetupOk env pk msk y1 y2) {auths : List (SecretAuthorityKey F)}
    (hinj : ∀ a ∈ auths, ∀ b ∈ auths, a.name = b.name → a = b) {sk} (h : Issued env pk msk auths sk) :
    UserOk pk y1 y2 (expo env auths) sk := by
  induction h with
  | keygen name t t' sk hk =>
    simp only [keygen, RM.bind_apply, RM.genFr, RM.pure_apply, Res.ok.injEq, Prod.mk.injEq] at hk
    obtain ⟨rfl, _⟩ := hk
    refine ⟨t.fr 0, ?_, ?_, rfl, rfl, by simp⟩
    · rw [← hs.m1]
    · rw [← hs.m2]
  | request sk a attr k _ ha hk ih =>
    obtain ⟨ρ, h2, h3, h4, h5, h6⟩ := ih
    obtain ⟨f1, rfl, f3, f4⟩ := requestSk_ok hk
    refine ⟨ρ, h2, h3, h4, h5, fun x hx => ?_⟩
    rcases List.mem_append.1 hx with hx | hx
    · exact h6 x hx
    · rw [List.mem_singleton.1 hx, expo_eq hinj ha f1, f3, f4, h4, h5, smul_smul, smul_smul]
      exact ⟨rfl, rfl⟩

/-- The tuples of a ciphertext. -/
def CtOk (env : Env F G1 G2 Gt) (pk : PublicKey G1 G2 Gt) (y1 y2 : F) (e : Str → F) (msg1 msg2 : Gt)
    (j : List (CTConjunction G1 G2 Gt)) : Prop :=
  ∀ c ∈ j, c.str ≠ [] ∧ ∃ r : F, c.j1 = (r * (c.str.map e).sum * y1) • env.pair pk.g1 pk.g2 + msg1 ∧
    c.j2 = (r * (c.str.map e).sum * y2) • env.pair pk.g1 pk.g2 + msg2 ∧
    c.j3 = r • pk.p1 ∧ c.j4 = r • pk.p2 ∧ c.j5 = (r * (c.str.map e).sum) • pk.g1 ∧
    c.j6 = (r * (c.str.map e).sum) • pk.g2

/-- The conjunction of a ciphertext made from a term. -/
def FromTerm (pk : PublicKey G1 G2 Gt) (msg1 msg2 : Gt) (x : DnfTerm G1 G2 Gt) (c : CTConjunction G1 G2 Gt) (r : F) : Prop :=
  c = { str := x.attrs, j1 := r • x.gt1 + msg1, j2 := r • x.gt2 + msg2, j3 := r • pk.p1, j4 := r • pk.p2,
        j5 := r • x.g1, j6 := r • x.g2 }

theorem encrypt_ok {env : Env F G1 G2 Gt} {pk : PublicKey G1 G2 Gt} {pks : List (PublicAttributeKey G1 G2 Gt)}
    {policy lang pt t ct t'} {p : Pol} (hp : parse policy lang = .ok p.toValue)
    (h : encrypt env pk pks policy lang pt t = .ok (ct, t')) :
    ∃ (terms : List (DnfTerm G1 G2 Gt)) (msg1 msg2 : Gt),
      jsonToDnf p.toValue (pks.map PublicAttributeKey.view) = .ok terms ∧
      ct.policy = (policy, lang) ∧ decryptSymmetric env (msg1 + msg2) ct.ct = .ok pt ∧
      List.Forall₂ (fun x c => ∃ r : F, FromTerm pk msg1 msg2 x c r) terms ct.e := by
  simp only [encrypt, RM.bind_ok, RM.lift_ok_iff, hp, Res.ok.injEq] at h
  obtain ⟨v, _, ⟨rfl, _⟩, h⟩ := h
  split at h
  · simp only [RM.bind_ok, RM.lift_ok_iff, RM.genG1, RM.genG2, RM.genFr, RM.pure_ok, Res.ok.injEq, Prod.mk.injEq] at h
    obtain ⟨terms, _, ⟨hd, rfl⟩, x, _, ⟨rfl, rfl⟩, y, _, ⟨rfl, rfl⟩, k, _, ⟨rfl, rfl⟩, j, _, hj, c, _, hc, rfl, _⟩ := h
    have hd' : jsonToDnf p.toValue (pks.map PublicAttributeKey.view) = .ok terms := by
      rw [DnfPolicy.fromString, hp, Res.ok_bind] at hd
      cases hj : jsonToDnf p.toValue (pks.map PublicAttributeKey.view) with
      | ok x => rw [hj] at hd; simpa [Res.unwrap] using hd
      | err => rw [hj] at hd; simp [Res.unwrap] at hd
      | panic => rw [hj] at hd; simp [Res.unwrap] at hd
    refine ⟨terms, _, _, hd', rfl, encryptSymmetric_ok hc, ?_⟩
    refine (RM.mapL_ok hj).imp ?_
    rintro a b ⟨s, s', hx⟩
    simp only [encTerm, RM.bind_apply, RM.genFr, RM.pure_apply, Res.ok.injEq, Prod.mk.injEq] at hx
    exact ⟨s.fr 0, hx.1.symm⟩
  · simp [RM.lift] at h

/-- The conjunctions of a ciphertext made with requested public keys. -/
theorem encrypt_ctOk {env : Env F G1 G2 Gt} {pk : PublicKey G1 G2 Gt} {msk : MasterKey G1 G2} {y1 y2 : F}
    (hs : SetupOk env pk msk y1 y2) {auths : List (SecretAuthorityKey F)}
    (hinj : ∀ a ∈ auths, ∀ b ∈ auths, a.name = b.name → a = b)
    {pks : List (PublicAttributeKey G1 G2 Gt)} (hpk : Requested env pk auths pks) {p : Pol}
    {terms : List (DnfTerm G1 G2 Gt)} (h : jsonToDnf p.toValue (pks.map PublicAttributeKey.view) = .ok terms) {text lang}
    (hp : Denotes text lang p) {msg1 msg2 : Gt} {j : List (CTConjunction G1 G2 Gt)}
    (hj : List.Forall₂ (fun x c => ∃ r : F, FromTerm pk msg1 msg2 x c r) terms j) :
    CtOk env pk y1 y2 (expo env auths) msg1 msg2 j := by
  have ht := term_exponents (expo env auths) pk.g1 pk.g2 pk.eGgY1 pk.eGgY2 (by
    intro k hk
    obtain ⟨k, hk', rfl⟩ := List.mem_map.1 hk
    obtain ⟨a, ha, attr, hr⟩ := hpk k hk'
    obtain ⟨f1, rfl, f3, f4, f5, f6⟩ := requestPk_ok hr
    simp only [PublicAttributeKey.view, expo_eq hinj ha f1]
    exact ⟨f3, f4, f5, f6⟩) h hp
  intro c hc
  obtain ⟨x, hx, r, rfl⟩ := Forall₂.mem_right hj c hc
  obtain ⟨h1, h2, h3, h4, h5⟩ := ht x hx
  refine ⟨h1, r, ?_, ?_, rfl, rfl, ?_, ?_⟩
  · rw [h4, hs.e1, smul_smul, smul_smul, mul_assoc]
  · rw [h5, hs.e2, smul_smul, smul_smul, mul_assoc]
  · rw [h2, smul_smul]
  · rw [h3, smul_smul]

theorem isSatisfiable_iff (conj : List Str) (sk : List (SecretAttributeKey G1 G2)) :
    isSatisfiable conj sk = true ↔ ∀ a ∈ conj, a ∈ sk.map (·.attr) := by
  simp only [isSatisfiable, List.all_eq_true, List.find?_isSome, beq_iff_eq, List.mem_map]

/-- The message element computed from a satisfied conjunction. -/
theorem open_tuple {env : Env F G1 G2 Gt} {pk : PublicKey G1 G2 Gt} {y1 y2 : F} {e : Str → F} {msg1 msg2 : Gt}
    {j : List (CTConjunction G1 G2 Gt)} (hj : CtOk env pk y1 y2 e msg1 msg2 j) {c} (hc : c ∈ j) {sk : UserKey G1 G2}
    (hsk : UserOk pk y1 y2 e sk) (hs : isSatisfiable c.str sk.skA = true) (one : G1 × G2) :
    c.j1 + c.j2 + env.pair c.j3 (calcSatisfiable one c.str sk.skA).2 +
      env.pair (calcSatisfiable one c.str sk.skA).1 c.j4 +
      -(env.pair c.j5 sk.sk.g2 + env.pair sk.sk.g1 c.j6) = msg1 + msg2 := by
  obtain ⟨hne, r, h1, h1', h2, h3, h4, h5⟩ := hj c hc
  obtain ⟨ρ, g1, g2, _, _, g5⟩ := hsk
  have hsum : calcSatisfiable one c.str sk.skA =
      (((c.str.map fun a => e a * ρ).sum • pk.g1), ((c.str.map fun a => e a * ρ).sum • pk.g2)) := by
    unfold calcSatisfiable
    rw [conj_sum _ (fun a => (e a * ρ) • pk.g1) (fun a => (e a * ρ) • pk.g2) c.str hne ?_ one, map_smul_sum,
      map_smul_sum]
    intro a ha ret i
    simp only [isSatisfiable, List.all_eq_true] at hs
    obtain ⟨x, hx⟩ := Option.isSome_iff_exists.1 (hs a ha)
    have hxa : x.attr = a := by simpa using List.find?_some hx
    obtain ⟨k1, k2⟩ := g5 x (List.mem_of_find?_eq_some hx)
    simp only [hx, k1, k2, hxa]
  rw [hsum, h1, h1', h2, h3, h4, h5, g1, g2, List.sum_map_mul_right]
  simp only [map_add, map_smul, LinearMap.add_apply, LinearMap.smul_apply]
  module

/-- What `decrypt` returns, for any stored policy text. -/
theorem decrypt_eq {env : Env F G1 G2 Gt} {pk : PublicKey G1 G2 Gt} {y1 y2 : F} {e : Str → F} {msg1 msg2 : Gt}
    {ct : Ciphertext G1 G2 Gt} (hj : CtOk env pk y1 y2 e msg1 msg2 ct.e) {sk : UserKey G1 G2}
    (hsk : UserOk pk y1 y2 e sk)
    (one : G1 × G2) {p : Pol} (hp : parse ct.policy.1 ct.policy.2 = .ok p.toValue) (hne : sk.skA ≠ [])
    (hs : p.sat (sk.skA.map (·.attr)) = true) :
    ((∃ c ∈ ct.e, ∀ a ∈ c.str, a ∈ sk.skA.map (·.attr)) →
      decrypt env one sk ct = decryptSymmetric env (msg1 + msg2) ct.ct) ∧
    (¬ (∃ c ∈ ct.e, ∀ a ∈ c.str, a ∈ sk.skA.map (·.attr)) → decrypt env one sk ct = decryptSymmetric env 0 ct.ct) := by
  have ht : traversePolicy (sk.skA.map (·.attr)) p.toValue .leaf = true := by
    rw [traverse_eq_sat _ (by simpa using hne)]; exact hs
  constructor
  · rintro ⟨c, hc, hcs⟩
    cases hf : ct.e.find? fun j => isSatisfiable j.str sk.skA with
    | none =>
      rw [List.find?_eq_none] at hf
      exact absurd ((isSatisfiable_iff _ _).2 hcs) (hf c hc)
    | some d =>
      have hd : isSatisfiable d.str sk.skA = true := by simpa using List.find?_some hf
      have := open_tuple hj (List.mem_of_find?_eq_some hf) hsk hd one
      simp only [decrypt, hp, Res.ok_bind, ht, hf, Bool.true_eq_false, if_false, this]
  · intro hn
    have hf : ct.e.find? (fun j => isSatisfiable j.str sk.skA) = none := by
      rw [List.find?_eq_none]
      intro c hc hcs
      exact hn ⟨c, hc, (isSatisfiable_iff _ _).1 hcs⟩
    simp only [decrypt, hp, Res.ok_bind, ht, hf, Bool.true_eq_false, if_false]

theorem covers_e {msg1 msg2 : Gt} {pk : PublicKey G1 G2 Gt} {terms : List (DnfTerm G1 G2 Gt)}
    {j : List (CTConjunction G1 G2 Gt)}
    (hj : List.Forall₂ (fun x c => ∃ r : F, FromTerm pk msg1 msg2 x c r) terms j) (A : List Str) :
    (∃ c ∈ j, ∀ a ∈ c.str, a ∈ A) ↔ Covers A terms := by
  constructor
  · rintro ⟨c, hc, h⟩
    obtain ⟨x, hx, r, rfl⟩ := Forall₂.mem_right hj c hc
    exact ⟨x, hx, h⟩
  · rintro ⟨x, hx, h⟩
    obtain ⟨c, hc, r, rfl⟩ := Forall₂.mem_left hj x hx
    exact ⟨_, hc, h⟩

end Mke08
end Rabe
