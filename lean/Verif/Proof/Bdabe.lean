import Verif.Proof.DnfScheme

/-!
# BDABE: correctness of decryption
-/

set_option linter.unusedSectionVars false
set_option linter.unnecessarySeqFocus false

namespace Rabe
namespace Bdabe

variable {F G1 G2 Gt : Type} [Field F] [DecidableEq F] [AddCommGroup G1] [Module F G1]
  [AddCommGroup G2] [Module F G2] [AddCommGroup Gt] [Module F Gt]

/-- The authority comes from `authgen`. -/
def Genuine (pk : PublicKey G1 G2 Gt) (msk : MasterKey F) (a : SecretAuthorityKey F G1 G2) : Prop :=
  ∃ t t', authgen pk msk a.name t = .ok (a, t')

/-- A history of key requests: the user is registered with one of the authorities and then asks, in any order and any
number of times, authorities for attribute keys, which are appended to the key. -/
inductive Issued (env : Env F G1 G2 Gt) (pk : PublicKey G1 G2 Gt) (auths : List (SecretAuthorityKey F G1 G2)) :
    UserKey G1 G2 → Prop
  | keygen (a : SecretAuthorityKey F G1 G2) (name : Str) (t t' : Tape F G1 G2 Gt) (sk : UserKey G1 G2) :
      a ∈ auths → keygen pk a name t = .ok (sk, t') → Issued env pk auths sk
  | request (sk : UserKey G1 G2) (a : SecretAuthorityKey F G1 G2) (attr : Str) (k : SecretAttributeKey G1 G2) :
      Issued env pk auths sk → a ∈ auths → requestAttributeSk env sk.pk a attr = .ok k →
      Issued env pk auths { sk with skA := sk.skA ++ [k] }

/-- The public attribute keys come from the authorities. -/
def Requested (env : Env F G1 G2 Gt) (pk : PublicKey G1 G2 Gt) (auths : List (SecretAuthorityKey F G1 G2))
    (pks : List (PublicAttributeKey G1 G2 Gt)) : Prop :=
  ∀ k ∈ pks, ∃ a ∈ auths, ∃ attr, requestAttributePk env pk a attr = .ok k

/-- Secret exponent of an attribute. -/
abbrev expo (env : Env F G1 G2 Gt) (auths : List (SecretAuthorityKey F G1 G2)) : Str → F :=
  expOf env.hash (auths.map fun a => (a.name, a.a3))

theorem expo_eq {env : Env F G1 G2 Gt} {auths : List (SecretAuthorityKey F G1 G2)}
    (hinj : ∀ a ∈ auths, ∀ b ∈ auths, a.name = b.name → a = b) {a} (ha : a ∈ auths) {attr : Str}
    (h : fromAuthority attr a.name = true) : expo env auths attr = env.hash attr * env.hash a.name * a.a3 := by
  refine expOf_eq (a := (a.name, a.a3)) ?_ (List.mem_map.2 ⟨a, ha, rfl⟩) h
  simp only [List.mem_map]
  rintro _ ⟨b, hb, rfl⟩ _ ⟨c, hc, rfl⟩ h
  rw [hinj b hb c hc h]

theorem setup_ok {env : Env F G1 G2 Gt} {t pk msk t'} (h : setup env t = .ok ((pk, msk), t')) :
    pk.eGgY = msk.y • env.pair pk.g1 pk.g2 := by
  simp only [setup, RM.bind_apply, RM.genG1, RM.genG2, RM.genFr, RM.pure_apply, Res.ok.injEq, Prod.mk.injEq] at h
  obtain ⟨⟨rfl, rfl⟩, _⟩ := h
  rfl

/-- What the holder of a user key has. -/
def UserOk (pk : PublicKey G1 G2 Gt) (y : F) (e : Str → F) (sk : UserKey G1 G2) : Prop :=
  ∃ α β ρ : F, α + β = y ∧ sk.sk.u1 = α • pk.g1 + ρ • pk.p1 ∧ sk.sk.u2 = β • pk.g2 + ρ • pk.p2 ∧
    sk.pk.u1 = ρ • pk.g1 ∧ sk.pk.u2 = ρ • pk.g2 ∧
    ∀ k ∈ sk.skA, k.au1 = (e k.attr * ρ) • pk.g1 ∧ k.au2 = (e k.attr * ρ) • pk.g2

theorem requestSk_ok {env : Env F G1 G2 Gt} {pkU a attr k} (h : requestAttributeSk env pkU a attr = .ok k) :
    fromAuthority attr a.name = true ∧ k.attr = attr ∧
      k.au1 = (env.hash attr * env.hash a.name * a.a3) • pkU.u1 ∧
      k.au2 = (env.hash attr * env.hash a.name * a.a3) • pkU.u2 := by
  unfold requestAttributeSk at h
  split at h
  · rename_i hf
    obtain rfl := Res.ok.inj h
    simp only [Bool.and_eq_true] at hf
    exact ⟨hf.1, rfl, rfl, rfl⟩
  · simp at h

theorem requestPk_ok {env : Env F G1 G2 Gt} {pk : PublicKey G1 G2 Gt} {a attr k} (h : requestAttributePk env pk a attr = .ok k) :
    fromAuthority attr a.name = true ∧ k.attr = attr ∧
      k.a1 = (env.hash attr * env.hash a.name * a.a3) • pk.g1 ∧
      k.a2 = (env.hash attr * env.hash a.name * a.a3) • pk.g2 ∧
      k.a3 = (env.hash attr * env.hash a.name * a.a3) • pk.eGgY := by
  unfold requestAttributePk at h
  split at h
  · rename_i hf
    obtain rfl := Res.ok.inj h
    exact ⟨hf, rfl, rfl, rfl, rfl⟩
  · simp at h

theorem issued_ok {env : Env F G1 G2 Gt} {pk : PublicKey G1 G2 Gt} {msk : MasterKey F}
    {auths : List (SecretAuthorityKey F G1 G2)} (hgen : ∀ a ∈ auths, Genuine pk msk a)
    (hinj : ∀ a ∈ auths, ∀ b ∈ auths, a.name = b.name → a = b) {sk} (h : Issued env pk auths sk) :
    UserOk pk msk.y (expo env auths) sk := by
  induction h with
  | keygen a name t t' sk ha hk =>
    obtain ⟨s, s', hg⟩ := hgen a ha
    simp only [authgen, RM.bind_apply, RM.genFr, RM.pure_apply, Res.ok.injEq, Prod.mk.injEq] at hg
    simp only [keygen, RM.bind_apply, RM.genFr, RM.pure_apply, Res.ok.injEq, Prod.mk.injEq] at hk
    obtain ⟨rfl, _⟩ := hk
    refine ⟨s.fr 0, msk.y - s.fr 0, t.fr 0, by ring, ?_, ?_, rfl, rfl, by simp⟩
    · rw [← hg.1]
    · rw [← hg.1]
  | request sk a attr k _ ha hk ih =>
    obtain ⟨α, β, ρ, h1, h2, h3, h4, h5, h6⟩ := ih
    obtain ⟨f1, rfl, f3, f4⟩ := requestSk_ok hk
    refine ⟨α, β, ρ, h1, h2, h3, h4, h5, fun x hx => ?_⟩
    rcases List.mem_append.1 hx with hx | hx
    · exact h6 x hx
    · rw [List.mem_singleton.1 hx, expo_eq hinj ha f1, f3, f4, h4, h5, smul_smul, smul_smul]
      exact ⟨rfl, rfl⟩

/-- The tuples of a ciphertext. -/
def CtOk (env : Env F G1 G2 Gt) (pk : PublicKey G1 G2 Gt) (y : F) (e : Str → F) (msg : Gt)
    (j : List (CiphertextTuple G1 G2 Gt)) : Prop :=
  ∀ c ∈ j, c.attr ≠ [] ∧ ∃ r : F, c.e1 = (r * (c.attr.map e).sum * y) • env.pair pk.g1 pk.g2 + msg ∧
    c.e2 = r • pk.p1 ∧ c.e3 = r • pk.p2 ∧ c.e4 = (r * (c.attr.map e).sum) • pk.g1 ∧
    c.e5 = (r * (c.attr.map e).sum) • pk.g2

theorem encrypt_ok {env : Env F G1 G2 Gt} {pk : PublicKey G1 G2 Gt} {pks : List (PublicAttributeKey G1 G2 Gt)}
    {policy lang pt t ct t'} {p : Pol} (hp : parse policy lang = .ok p.toValue)
    (h : encrypt env pk pks policy lang pt t = .ok (ct, t')) :
    ∃ (terms : List (DnfTerm G1 G2 Gt)) (msg : Gt), jsonToDnf p.toValue (pks.map PublicAttributeKey.view) = .ok terms ∧
      ct.policy = (policy, lang) ∧ decryptSymmetric env msg ct.ct = .ok pt ∧
      (∃ x y, msg = env.pair x y) ∧
      List.Forall₂ (fun (x : DnfTerm G1 G2 Gt) (c : CiphertextTuple G1 G2 Gt) => ∃ r : F, c =
        { attr := x.attrs, e1 := r • x.gt1 + msg, e2 := r • pk.p1, e3 := r • pk.p2, e4 := r • x.g1, e5 := r • x.g2 })
        terms ct.j := by
  simp only [encrypt, RM.bind_ok, RM.lift_ok_iff, hp, Res.ok.injEq] at h
  obtain ⟨v, _, ⟨rfl, _⟩, h⟩ := h
  split at h
  · simp only [RM.bind_ok, RM.lift_ok_iff, RM.genG1, RM.genG2, RM.pure_ok, Res.ok.injEq, Prod.mk.injEq] at h
    obtain ⟨terms, _, ⟨hd, rfl⟩, x, _, ⟨rfl, rfl⟩, y, _, ⟨rfl, rfl⟩, j, _, hj, c, _, hc, rfl, _⟩ := h
    have hd' : jsonToDnf p.toValue (pks.map PublicAttributeKey.view) = .ok terms := by
      rw [DnfPolicy.fromString, hp, Res.ok_bind] at hd
      cases hj : jsonToDnf p.toValue (pks.map PublicAttributeKey.view) with
      | ok x => rw [hj] at hd; simpa [Res.unwrap] using hd
      | err => rw [hj] at hd; simp [Res.unwrap] at hd
      | panic => rw [hj] at hd; simp [Res.unwrap] at hd
    refine ⟨terms, _, hd', rfl, encryptSymmetric_ok hc, ⟨_, _, rfl⟩, ?_⟩
    refine (RM.mapL_ok hj).imp ?_
    rintro a b ⟨s, s', hx⟩
    simp only [encTerm, RM.bind_apply, RM.genFr, RM.pure_apply, Res.ok.injEq, Prod.mk.injEq] at hx
    exact ⟨s.fr 0, hx.1.symm⟩
  · simp [RM.lift] at h

/-- The tuples of a ciphertext made with requested public keys. -/
theorem encrypt_ctOk {env : Env F G1 G2 Gt} {pk : PublicKey G1 G2 Gt} {msk : MasterKey F}
    (hy : pk.eGgY = msk.y • env.pair pk.g1 pk.g2)
    {auths : List (SecretAuthorityKey F G1 G2)} (hinj : ∀ a ∈ auths, ∀ b ∈ auths, a.name = b.name → a = b)
    {pks : List (PublicAttributeKey G1 G2 Gt)} (hpk : Requested env pk auths pks) {p : Pol}
    {terms : List (DnfTerm G1 G2 Gt)} (h : jsonToDnf p.toValue (pks.map PublicAttributeKey.view) = .ok terms) {text lang}
    (hp : Denotes text lang p) {msg : Gt} {j : List (CiphertextTuple G1 G2 Gt)}
    (hj : List.Forall₂ (fun (x : DnfTerm G1 G2 Gt) (c : CiphertextTuple G1 G2 Gt) => ∃ r : F, c =
        { attr := x.attrs, e1 := r • x.gt1 + msg, e2 := r • pk.p1, e3 := r • pk.p2, e4 := r • x.g1, e5 := r • x.g2 })
        terms j) : CtOk env pk msk.y (expo env auths) msg j := by
  have ht := term_exponents (expo env auths) pk.g1 pk.g2 pk.eGgY (0 : Gt) (by
    intro k hk
    obtain ⟨k, hk', rfl⟩ := List.mem_map.1 hk
    obtain ⟨a, ha, attr, hr⟩ := hpk k hk'
    obtain ⟨f1, rfl, f3, f4, f5⟩ := requestPk_ok hr
    simp only [PublicAttributeKey.view, expo_eq hinj ha f1, smul_zero]
    exact ⟨f3, f4, f5, trivial⟩) h hp
  intro c hc
  obtain ⟨x, hx, r, rfl⟩ := Forall₂.mem_right hj c hc
  obtain ⟨h1, h2, h3, h4, _⟩ := ht x hx
  refine ⟨h1, r, ?_, rfl, rfl, ?_, ?_⟩
  · rw [h4, hy, smul_smul, smul_smul, mul_assoc]
  · rw [h2, smul_smul]
  · rw [h3, smul_smul]

theorem isSatisfiable_iff (conj : List Str) (sk : List (SecretAttributeKey G1 G2)) :
    isSatisfiable conj sk = true ↔ ∀ a ∈ conj, a ∈ sk.map (·.attr) := by
  simp only [isSatisfiable, List.all_eq_true, List.find?_isSome, beq_iff_eq, List.mem_map]

/-- The message element computed from a satisfied tuple. -/
theorem open_tuple {env : Env F G1 G2 Gt} {pk : PublicKey G1 G2 Gt} {y : F} {e : Str → F} {msg : Gt}
    {j : List (CiphertextTuple G1 G2 Gt)} (hj : CtOk env pk y e msg j) {c} (hc : c ∈ j) {sk : UserKey G1 G2}
    (hsk : UserOk pk y e sk) (hs : isSatisfiable c.attr sk.skA = true) (one : G1 × G2) :
    c.e1 + env.pair c.e2 (calcSatisfiable one c.attr sk.skA).2 + env.pair (calcSatisfiable one c.attr sk.skA).1 c.e3 +
      -(env.pair c.e4 sk.sk.u2 + env.pair sk.sk.u1 c.e5) = msg := by
  obtain ⟨hne, r, h1, h2, h3, h4, h5⟩ := hj c hc
  obtain ⟨α, β, ρ, rfl, g1, g2, _, _, g5⟩ := hsk
  have hsum : calcSatisfiable one c.attr sk.skA =
      (((c.attr.map fun a => e a * ρ).sum • pk.g1), ((c.attr.map fun a => e a * ρ).sum • pk.g2)) := by
    unfold calcSatisfiable
    rw [conj_sum _ (fun a => (e a * ρ) • pk.g1) (fun a => (e a * ρ) • pk.g2) c.attr hne ?_ one, map_smul_sum,
      map_smul_sum]
    intro a ha ret i
    simp only [isSatisfiable, List.all_eq_true] at hs
    obtain ⟨x, hx⟩ := Option.isSome_iff_exists.1 (hs a ha)
    have hxa : x.attr = a := by simpa using List.find?_some hx
    obtain ⟨k1, k2⟩ := g5 x (List.mem_of_find?_eq_some hx)
    simp only [hx, k1, k2, hxa]
  rw [hsum, h1, h2, h3, h4, h5, g1, g2, List.sum_map_mul_right]
  simp only [map_add, map_smul, LinearMap.add_apply, LinearMap.smul_apply]
  module

/-- What `decrypt` returns, for any stored policy text. -/
theorem decrypt_eq {env : Env F G1 G2 Gt} {pk : PublicKey G1 G2 Gt} {y : F} {e : Str → F} {msg : Gt}
    {ct : Ciphertext G1 G2 Gt} (hj : CtOk env pk y e msg ct.j) {sk : UserKey G1 G2} (hsk : UserOk pk y e sk)
    (one : G1 × G2) {p : Pol} (hp : parse ct.policy.1 ct.policy.2 = .ok p.toValue) (hne : sk.skA ≠ [])
    (hs : p.sat (sk.skA.map (·.attr)) = true) :
    ((∃ c ∈ ct.j, ∀ a ∈ c.attr, a ∈ sk.skA.map (·.attr)) → decrypt env one sk ct = decryptSymmetric env msg ct.ct) ∧
    (¬ (∃ c ∈ ct.j, ∀ a ∈ c.attr, a ∈ sk.skA.map (·.attr)) → decrypt env one sk ct = decryptSymmetric env 0 ct.ct) := by
  have ht : traversePolicy (sk.skA.map (·.attr)) p.toValue .leaf = true := by
    rw [traverse_eq_sat _ (by simpa using hne)]; exact hs
  constructor
  · rintro ⟨c, hc, hcs⟩
    cases hf : ct.j.find? fun j => isSatisfiable j.attr sk.skA with
    | none =>
      rw [List.find?_eq_none] at hf
      exact absurd ((isSatisfiable_iff _ _).2 hcs) (hf c hc)
    | some d =>
      have hd : isSatisfiable d.attr sk.skA = true := by simpa using List.find?_some hf
      have := open_tuple hj (List.mem_of_find?_eq_some hf) hsk hd one
      simp only [decrypt, hp, Res.ok_bind, ht, hf, Bool.true_eq_false, if_false, this]
  · intro hn
    have hf : ct.j.find? (fun j => isSatisfiable j.attr sk.skA) = none := by
      rw [List.find?_eq_none]
      intro c hc hcs
      exact hn ⟨c, hc, (isSatisfiable_iff _ _).1 hcs⟩
    simp only [decrypt, hp, Res.ok_bind, ht, hf, Bool.true_eq_false, if_false]

theorem covers_j {msg : Gt} {pk : PublicKey G1 G2 Gt} {terms : List (DnfTerm G1 G2 Gt)}
    {j : List (CiphertextTuple G1 G2 Gt)}
    (hj : List.Forall₂ (fun (x : DnfTerm G1 G2 Gt) (c : CiphertextTuple G1 G2 Gt) => ∃ r : F, c =
        { attr := x.attrs, e1 := r • x.gt1 + msg, e2 := r • pk.p1, e3 := r • pk.p2, e4 := r • x.g1, e5 := r • x.g2 })
        terms j) (A : List Str) : (∃ c ∈ j, ∀ a ∈ c.attr, a ∈ A) ↔ Covers A terms := by
  constructor
  · rintro ⟨c, hc, h⟩
    obtain ⟨x, hx, r, rfl⟩ := Forall₂.mem_right hj c hc
    exact ⟨x, hx, h⟩
  · rintro ⟨x, hx, h⟩
    obtain ⟨c, hc, r, rfl⟩ := Forall₂.mem_left hj x hx
    exact ⟨_, hc, h⟩

end Bdabe
end Rabe
