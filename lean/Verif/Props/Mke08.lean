import Verif.Proof.Mke08
import Verif.Props.Parser
import Verif.Instance.Bn

/-!
# C46, C47, C48, C49, C52, C53: MKE08
-/

set_option linter.unusedSectionVars false
set_option linter.unnecessarySeqFocus false

namespace Rabe
namespace Mke08

variable {F G1 G2 Gt : Type} [Field F] [DecidableEq F] [AddCommGroup G1] [Module F G1]
  [AddCommGroup G2] [Module F G2] [AddCommGroup Gt] [Module F Gt]

/-! ## Correctness -/

/-- **C46, partial.** Any set-up, any authorities with different names, any history of key requests, any randomness, any
policy for whose attributes the encryptor has public keys issued by the authorities (and which the empty
attribute set does not satisfy): if the attributes of the user satisfy the policy, decryption returns the plaintext. (Full
claim: every policy in disjunctive normal form and any list of public keys; false, see `C46_violated_nested`,
`C46_violated_missing_key`, `C46_violated_empty_and`, `C46_violated_same_name`.) -/
theorem C46_mke08_correct_partial (env : Env F G1 G2 Gt) (one : G1 × G2)
    (t₁ t₁' : Tape F G1 G2 Gt) (pk : PublicKey G1 G2 Gt) (msk : MasterKey G1 G2)
    (hsetup : setup env t₁ = .ok ((pk, msk), t₁'))
    (auths : List (SecretAuthorityKey F))
    (hinj : ∀ a ∈ auths, ∀ b ∈ auths, a.name = b.name → a = b)
    (sk : UserKey G1 G2) (hsk : Issued env pk msk auths sk)
    (pks : List (PublicAttributeKey G1 G2 Gt)) (hpks : Requested env pk auths pks)
    (text : Str) (lang : PolicyLanguage) (p : Pol) (hp : Denotes text lang p)
    (hk : ∀ n ∈ p.names, ∃ k ∈ pks, k.attr = n) (he : p.sat [] = false)
    (plaintext : Bytes) (t₂ t₂' : Tape F G1 G2 Gt) (ct : Ciphertext G1 G2 Gt)
    (henc : encrypt env pk pks text lang plaintext t₂ = .ok (ct, t₂'))
    (hsat : p.sat (sk.skA.map (·.attr)) = true) :
    decrypt env one sk ct = .ok plaintext := by
  obtain ⟨y1, y2, hs⟩ := setup_ok hsetup
  obtain ⟨terms, msg1, msg2, hterms, hpol, hd, hj⟩ := encrypt_ok hp henc
  have hc := encrypt_ctOk hs hinj hpks hterms hp hj
  have hne : sk.skA ≠ [] := by
    intro h
    rw [h] at hsat
    rw [List.map_nil, he] at hsat
    simp at hsat
  have hcov : Covers (sk.skA.map (·.attr)) terms := by
    refine C22_dnf_complete_partial text lang p hp _ terms hterms ?_ he _ hsat
    intro n hn
    obtain ⟨k, hk', rfl⟩ := hk n hn
    exact ⟨k.view, List.mem_map.2 ⟨k, hk', rfl⟩, rfl⟩
  have hpol' : parse ct.policy.1 ct.policy.2 = .ok p.toValue := by rw [hpol]; exact hp
  rw [(decrypt_eq hc (issued_ok hs hinj hsk) one hpol' hne hsat).1 ((covers_e hj _).2 hcov), hd]

/-- Set-up, authority creation and registration always succeed. Encryption under an accepted policy text succeeds for a leaf, an AND of leaves or an OR of such; returns an error iff an OR gate is below an AND
gate; otherwise aborts. -/
theorem C46_mke08_defined (env : Env F G1 G2 Gt) :
    (∀ t : Tape F G1 G2 Gt, ∃ pk msk t', setup env t = .ok ((pk, msk), t')) ∧
    (∀ name (t : Tape F G1 G2 Gt),
      ∃ a t', authgen name t = .ok (a, t') ∧ Genuine G1 G2 Gt a ∧ a.name = name) ∧
    (∀ (pk : PublicKey G1 G2 Gt) msk name (t : Tape F G1 G2 Gt), ∃ sk t', keygen pk msk name t = .ok (sk, t')) ∧
    (∀ (pk : PublicKey G1 G2 Gt) pks text lang p, Denotes text lang p → ∀ (plaintext : Bytes),
      (∀ k n, (env.aeadEnc k n plaintext).isSome = true) → ∀ s,
      (p.IsDnf → ∃ ct s', encrypt env pk pks text lang plaintext s = .ok (ct, s')) ∧
      (¬ p.NoOrBelowAnd → encrypt env pk pks text lang plaintext s = .err) ∧
      (p.NoOrBelowAnd → ¬ p.IsDnf → encrypt env pk pks text lang plaintext s = .panic)) := by
  refine ⟨?_, ?_, ?_, ?_⟩
  · intro t
    simp only [setup, RM.bind_apply, RM.genG1, RM.genG2, RM.genFr, RM.pure_apply, Res.ok.injEq, Prod.mk.injEq]
    exact ⟨_, _, _, ⟨rfl, rfl⟩, rfl⟩
  · intro name t
    have : ∃ (a : SecretAuthorityKey F) (t' : Tape F G1 G2 Gt), authgen name t = .ok (a, t') ∧ a.name = name := by
      simp only [authgen, RM.bind_apply, RM.genFr, RM.pure_apply, Res.ok.injEq, Prod.mk.injEq]
      exact ⟨_, _, ⟨rfl, rfl⟩, rfl⟩
    obtain ⟨a, t', h, rfl⟩ := this
    exact ⟨a, t', h, ⟨t, t', h⟩, rfl⟩
  · intro pk msk name t
    simp only [keygen, RM.bind_apply, RM.genFr, RM.pure_apply, Res.ok.injEq, Prod.mk.injEq]
    exact ⟨_, _, rfl, rfl⟩
  · intro pk pks text lang p hp plaintext ha s
    have hp' : parse text lang = .ok p.toValue := hp
    obtain ⟨c1, c2, c3⟩ := C20_dnf_convertible_partial text lang p hp (pks.map PublicAttributeKey.view)
    refine ⟨?_, ?_, ?_⟩
    · intro hd
      obtain ⟨terms, ht⟩ := c1.2 hd
      have hck := c3 hd
      obtain ⟨j, s1, hj⟩ := RM.mapL_total (f := encTerm (F := F) pk (env.pair (s.g1 0) (s.g2 0))
        (s.fr 0 • env.pair (s.g1 0) (s.g2 0))) (xs := terms)
        (by intro x _ u; simp [encTerm, RM.genFr])
        { fr := dropS 1 s.fr, g1 := dropS 1 s.g1, g2 := dropS 1 s.g2, gt := s.gt, byte := s.byte }
      obtain ⟨c, hc⟩ := Option.isSome_iff_exists.1 (ha (env.kdf (env.pair (s.g1 0) (s.g2 0) +
        s.fr 0 • env.pair (s.g1 0) (s.g2 0)))
        ((List.range 12).map s1.byte))
      simp [encrypt, RM.bind_apply, hp', hck, DnfPolicy.fromString, ht, RM.genG1, RM.genG2, RM.genFr, encryptSymmetric,
        RM.genBytes, hj, hc]
    · intro hn
      have : policyInDnf p.toValue false none = false := by
        cases h : policyInDnf p.toValue false none
        · rfl
        · exact absurd ((policyInDnf_iff p none).1 h) hn
      simp [encrypt, RM.bind_apply, hp', this, RM.lift]
    · intro hn hd
      have hck := (policyInDnf_iff p none).2 hn
      simp [encrypt, RM.bind_apply, hp', hck, DnfPolicy.fromString, c2 hd, RM.lift]

/-- Attribute keys of one user that are requested one after the other. -/
theorem issued_many {env : Env F G1 G2 Gt} {pk : PublicKey G1 G2 Gt} {msk : MasterKey G1 G2} {auths : List (SecretAuthorityKey F)} {a}
    (ha : a ∈ auths) {attrs : List Str} {ks : List (SecretAttributeKey G1 G2)} : ∀ {sk : UserKey G1 G2},
    Issued env pk msk auths sk → Res.mapR (requestAuthoritySk env sk.pk · a) attrs = .ok ks →
    Issued env pk msk auths { sk with skA := sk.skA ++ ks } := by
  intro sk hsk h
  replace h := mapR_ok h
  suffices hh : ∀ pre : List (SecretAttributeKey G1 G2), Issued env pk msk auths { sk with skA := pre } →
      Issued env pk msk auths { sk with skA := pre ++ ks } from hh sk.skA hsk
  clear hsk
  induction h with
  | nil => simp
  | cons hx _ ih =>
    intro pre hpre
    have := ih _ (Issued.request { sk with skA := pre } a _ _ hpre ha hx)
    simpa using this

theorem mapR_attr {env : Env F G1 G2 Gt} {pkU : PublicUserKey G1 G2} {a : SecretAuthorityKey F}
    {attrs : List Str} {ks} (h : Res.mapR (requestAuthoritySk env pkU · a) attrs = .ok ks) : ks.map (·.attr) = attrs :=
  (Forall₂.map_eq (f := id) ((mapR_ok h).imp fun _ _ hx => (requestSk_ok hx).2.1) fun _ _ h => h).trans (List.map_id _)

theorem mapR_requested {env : Env F G1 G2 Gt} {pk : PublicKey G1 G2 Gt} {a : SecretAuthorityKey F}
    {auths : List (SecretAuthorityKey F)} (ha : a ∈ auths) {attrs : List Str} {ks}
    (h : Res.mapR (requestAuthorityPk env pk · a) attrs = .ok ks) :
    Requested env pk auths ks ∧ ks.map (·.attr) = attrs := by
  constructor
  · intro k hk
    obtain ⟨x, _, hx⟩ := Forall₂.mem_right (mapR_ok h) k hk
    exact ⟨a, ha, x, hx⟩
  · exact (Forall₂.map_eq (f := id) ((mapR_ok h).imp fun _ _ hx => (requestPk_ok hx).2.1) fun _ _ h => h).trans
      (List.map_id _)

/-- The whole workflow with two authorities in the concrete environment.
`decrypt` is called on the ciphertext with the stored policy replaced by `stored`. -/
def toyRun (name₁ name₂ : Str) (pkA₁ pkA₂ skA₁ skA₂ : List Str) (text : Str) (lang : PolicyLanguage)
    (stored : Str × PolicyLanguage) (plaintext : Bytes) : Res (Res Bytes) := do
  let x ← setup toyEnv toyTape
  let a ← (authgen name₁ : RM Fr Fr Fr Fr _) toyTape
  let b ← (authgen name₂ : RM Fr Fr Fr Fr _) { toyTape with fr := fun _ => 5 }
  let u ← keygen x.1.1 x.1.2 ['u'] toyTape
  let pks₁ ← Res.mapR (requestAuthorityPk toyEnv x.1.1 · a.1) pkA₁
  let pks₂ ← Res.mapR (requestAuthorityPk toyEnv x.1.1 · b.1) pkA₂
  let sks₁ ← Res.mapR (requestAuthoritySk toyEnv u.1.pk · a.1) skA₁
  let sks₂ ← Res.mapR (requestAuthoritySk toyEnv u.1.pk · b.1) skA₂
  let z ← encrypt toyEnv x.1.1 (pks₁ ++ pks₂) text lang plaintext toyTape
  .ok (decrypt toyEnv (1, 1) { u.1 with skA := u.1.skA ++ sks₁ ++ sks₂ } { z.1 with policy := stored })

theorem toyRun_ok {name₁ name₂ pkA₁ pkA₂ skA₁ skA₂ text lang stored plaintext r}
    (h : toyRun name₁ name₂ pkA₁ pkA₂ skA₁ skA₂ text lang stored plaintext = .ok r) :
    ∃ (pk : PublicKey Fr Fr Fr) (msk : MasterKey Fr Fr) (a b : SecretAuthorityKey Fr) (sk : UserKey Fr Fr)
      (pks : List (PublicAttributeKey Fr Fr Fr)) (ct : Ciphertext Fr Fr Fr) (t₁ t₂ : Tape Fr Fr Fr Fr),
      setup toyEnv toyTape = .ok ((pk, msk), t₁) ∧ (Genuine Fr Fr Fr a ∧ a.name = name₁) ∧
      (Genuine Fr Fr Fr b ∧ b.name = name₂) ∧
      (Requested toyEnv pk [a, b] pks ∧ pks.map (·.attr) = pkA₁ ++ pkA₂) ∧
      (Issued toyEnv pk msk [a, b] sk ∧ sk.skA.map (·.attr) = skA₁ ++ skA₂) ∧
      encrypt toyEnv pk pks text lang plaintext toyTape = .ok (ct, t₂) ∧
      decrypt toyEnv (1, 1) sk { ct with policy := stored } = r := by
  simp only [toyRun, Res.bind_eq_ok, Res.ok.injEq] at h
  obtain ⟨⟨⟨pk, msk⟩, t1⟩, h1, ⟨a, t2⟩, h2, ⟨b, t3⟩, h3, ⟨u, t4⟩, h4, pks₁, h5, pks₂, h6, sks₁, h7, sks₂, h8,
    ⟨ct, t5⟩, h9, h10⟩ := h
  have na : a.name = name₁ := by
    simp only [authgen, RM.bind_apply, RM.genFr, RM.pure_apply, Res.ok.injEq, Prod.mk.injEq] at h2
    rw [← h2.1]
  have nb : b.name = name₂ := by
    simp only [authgen, RM.bind_apply, RM.genFr, RM.pure_apply, Res.ok.injEq, Prod.mk.injEq] at h3
    rw [← h3.1]
  have hu : u.skA = [] := by
    simp only [keygen, RM.bind_apply, RM.genFr, RM.pure_apply, Res.ok.injEq, Prod.mk.injEq] at h4
    rw [← h4.1]
  have i1 : Issued toyEnv pk msk [a, b] u := Issued.keygen _ _ _ u h4
  have i2 := issued_many (a := a) (by simp) i1 h7
  have i3 := issued_many (a := b) (by simp) i2 h8
  have r1 := mapR_requested (auths := [a, b]) (by simp) h5
  have r2 := mapR_requested (auths := [a, b]) (by simp) h6
  refine ⟨pk, msk, a, b, _, pks₁ ++ pks₂, ct, t1, t5, h1, ⟨⟨_, _, na ▸ h2⟩, na⟩, ⟨⟨_, _, nb ▸ h3⟩, nb⟩, ⟨?_, ?_⟩,
    ⟨i3, ?_⟩, h9, h10⟩
  · intro k hk
    rcases List.mem_append.1 hk with hk | hk
    · exact r1.1 k hk
    · exact r2.1 k hk
  · rw [List.map_append, r1.2, r2.2]
  · simp only [hu, List.nil_append, List.map_append, mapR_attr h7, mapR_attr h8]

/-- **C46 is violated, nested gates.** `("A::a" and "A::b") and "A::c"` is a conjunction and passes the check, but
`encrypt` aborts, with any keys and randomness. -/
theorem C46_violated_nested (env : Env F G1 G2 Gt) (pk : PublicKey G1 G2 Gt)
    (pks : List (PublicAttributeKey G1 G2 Gt)) (plaintext : Bytes) (t : Tape F G1 G2 Gt) :
    encrypt env pk pks (chars% "(\"A::a\" and \"A::b\") and \"A::c\"") .human plaintext t = .panic := by
  have hp : parse (chars% "(\"A::a\" and \"A::b\") and \"A::c\"") .human =
      .ok (Pol.gate .and [.gate .and [.leaf (chars% "A::a") 3, .leaf (chars% "A::b") 14], .leaf (chars% "A::c") 26]).toValue := by
    with_unfolding_all rfl
  have hc := (C20_dnf_convertible_partial _ _ _ hp (pks.map PublicAttributeKey.view)).2.1 (by simp [Pol.IsDnf])
  have hck := (policyInDnf_iff (Pol.gate .and [.gate .and [.leaf (chars% "A::a") 3, .leaf (chars% "A::b") 14],
    .leaf (chars% "A::c") 26]) none).2 (by simp [Pol.NoOrBelowAnd, Pol.NoOr, Pol.NoOrL])
  generalize Pol.toValue _ = v at hp hc hck
  simp [encrypt, RM.bind_apply, hp, hck, DnfPolicy.fromString, hc, RM.lift]

/-- **C46 is violated, missing public key.** The encryptor has the public key of `A::a` but not that of `A::b`: encryption
under `"A::a" or "A::b"` succeeds, but a key for `A::b` does not decrypt. -/
theorem C46_violated_missing_key : ∃ (p : Pol) (pk : PublicKey Fr Fr Fr) (msk : MasterKey Fr Fr)
    (a b : SecretAuthorityKey Fr) (sk : UserKey Fr Fr)
    (pks : List (PublicAttributeKey Fr Fr Fr)) (ct : Ciphertext Fr Fr Fr) (t₁ t₂ : Tape Fr Fr Fr Fr),
    Denotes (chars% "\"A::a\" or \"A::b\"") .human p ∧ p.IsDnf ∧ p.sat (sk.skA.map (·.attr)) = true ∧
    setup toyEnv toyTape = .ok ((pk, msk), t₁) ∧ (Genuine Fr Fr Fr a ∧ a.name = ['A']) ∧
    (Genuine Fr Fr Fr b ∧ b.name = ['B']) ∧
    (Requested toyEnv pk [a, b] pks ∧ pks.map (·.attr) = [chars% "A::a"]) ∧
    (Issued toyEnv pk msk [a, b] sk ∧ sk.skA.map (·.attr) = [chars% "A::b"]) ∧
    encrypt toyEnv pk pks (chars% "\"A::a\" or \"A::b\"") .human [7] toyTape = .ok (ct, t₂) ∧
    decrypt toyEnv (1, 1) sk ct = .err := by
  have h : toyRun ['A'] ['B'] [chars% "A::a"] [] [chars% "A::b"] [] (chars% "\"A::a\" or \"A::b\"") .human
      ((chars% "\"A::a\" or \"A::b\""), .human) [7] = .ok .err := by decide +kernel
  obtain ⟨pk, msk, a, b, sk, pks, ct, t1, t2, h1, h2, h3, h4, h5, h6, h7⟩ := toyRun_ok h
  have hp : Denotes (chars% "\"A::a\" or \"A::b\"") .human (.gate .or [.leaf (chars% "A::a") 2, .leaf (chars% "A::b") 12]) :=
    rfl
  obtain ⟨_, _, _, _, hpol, _⟩ := encrypt_ok hp h6
  rw [← hpol] at h7
  exact ⟨_, pk, msk, a, b, sk, pks, ct, t1, t2, hp, by simp [Pol.IsDnf, Pol.IsTerm], by rw [h5.2]; decide, h1, h2, h3,
    h4, h5, h6, h7⟩

/-- **C46 is violated, empty conjunction.** The JSON policy that is an AND without children is satisfied by everybody,
but a key does not decrypt. -/
theorem C46_violated_empty_and : ∃ (p : Pol) (pk : PublicKey Fr Fr Fr) (msk : MasterKey Fr Fr)
    (a b : SecretAuthorityKey Fr) (sk : UserKey Fr Fr)
    (pks : List (PublicAttributeKey Fr Fr Fr)) (ct : Ciphertext Fr Fr Fr) (t₁ t₂ : Tape Fr Fr Fr Fr),
    Denotes (chars% "{\"name\": \"and\", \"children\": []}") .json p ∧ p.IsDnf ∧ p.sat (sk.skA.map (·.attr)) = true ∧
    setup toyEnv toyTape = .ok ((pk, msk), t₁) ∧ (Genuine Fr Fr Fr a ∧ a.name = ['A']) ∧
    (Genuine Fr Fr Fr b ∧ b.name = ['B']) ∧
    (Requested toyEnv pk [a, b] pks ∧ pks.map (·.attr) = [chars% "A::a"]) ∧
    (Issued toyEnv pk msk [a, b] sk ∧ sk.skA.map (·.attr) = [chars% "A::a"]) ∧
    encrypt toyEnv pk pks (chars% "{\"name\": \"and\", \"children\": []}") .json [7] toyTape = .ok (ct, t₂) ∧
    decrypt toyEnv (1, 1) sk ct = .err := by
  have h : toyRun ['A'] ['B'] [chars% "A::a"] [] [chars% "A::a"] [] (chars% "{\"name\": \"and\", \"children\": []}") .json
      ((chars% "{\"name\": \"and\", \"children\": []}"), .json) [7] = .ok .err := by decide +kernel
  obtain ⟨pk, msk, a, b, sk, pks, ct, t1, t2, h1, h2, h3, h4, h5, h6, h7⟩ := toyRun_ok h
  have hp : Denotes (chars% "{\"name\": \"and\", \"children\": []}") .json (.gate .and []) := rfl
  obtain ⟨_, _, _, _, hpol, _⟩ := encrypt_ok hp h6
  rw [← hpol] at h7
  exact ⟨_, pk, msk, a, b, sk, pks, ct, t1, t2, hp, by simp [Pol.IsDnf], by rw [h5.2]; decide, h1, h2, h3,
    h4, h5, h6, h7⟩

/-- **C46 is violated, authorities with the same name.** Nothing prevents two authorities from choosing the same name; a
key issued by one of them does not open what was encrypted with the public key of the other. -/
theorem C46_violated_same_name : ∃ (p : Pol) (pk : PublicKey Fr Fr Fr) (msk : MasterKey Fr Fr)
    (a b : SecretAuthorityKey Fr) (sk : UserKey Fr Fr)
    (pks : List (PublicAttributeKey Fr Fr Fr)) (ct : Ciphertext Fr Fr Fr) (t₁ t₂ : Tape Fr Fr Fr Fr),
    Denotes (chars% "\"A::a\"") .human p ∧ p.IsDnf ∧ p.sat (sk.skA.map (·.attr)) = true ∧
    setup toyEnv toyTape = .ok ((pk, msk), t₁) ∧ (Genuine Fr Fr Fr a ∧ a.name = ['A']) ∧
    (Genuine Fr Fr Fr b ∧ b.name = ['A']) ∧
    (Requested toyEnv pk [a, b] pks ∧ pks.map (·.attr) = [chars% "A::a"]) ∧
    (Issued toyEnv pk msk [a, b] sk ∧ sk.skA.map (·.attr) = [chars% "A::a"]) ∧
    encrypt toyEnv pk pks (chars% "\"A::a\"") .human [7] toyTape = .ok (ct, t₂) ∧
    decrypt toyEnv (1, 1) sk ct = .err := by
  have h : toyRun ['A'] ['A'] [chars% "A::a"] [] [] [chars% "A::a"] (chars% "\"A::a\"") .human
      ((chars% "\"A::a\""), .human) [7] = .ok .err := by decide +kernel
  obtain ⟨pk, msk, a, b, sk, pks, ct, t1, t2, h1, h2, h3, h4, h5, h6, h7⟩ := toyRun_ok h
  have hp : Denotes (chars% "\"A::a\"") .human (.leaf (chars% "A::a") 2) := rfl
  obtain ⟨_, _, _, _, hpol, _⟩ := encrypt_ok hp h6
  rw [← hpol] at h7
  exact ⟨_, pk, msk, a, b, sk, pks, ct, t1, t2, hp, by simp [Pol.IsDnf], by rw [h5.2]; decide, h1, h2, h3,
    h4, h5, h6, h7⟩

/-- A run of the concrete environment meeting all hypotheses of `C46_mke08_correct_partial`: two authorities, a user with
one attribute of each. -/
example : ∃ (p : Pol) (pk : PublicKey Fr Fr Fr) (msk : MasterKey Fr Fr)
    (a b : SecretAuthorityKey Fr) (sk : UserKey Fr Fr)
    (pks : List (PublicAttributeKey Fr Fr Fr)) (ct : Ciphertext Fr Fr Fr) (t₁ t₂ : Tape Fr Fr Fr Fr),
    setup toyEnv toyTape = .ok ((pk, msk), t₁) ∧ (∀ x ∈ [a, b], Genuine Fr Fr Fr x) ∧
    (∀ x ∈ [a, b], ∀ y ∈ [a, b], x.name = y.name → x = y) ∧ Issued toyEnv pk msk [a, b] sk ∧
    Requested toyEnv pk [a, b] pks ∧
    Denotes (chars% "(\"A::a\" and \"A::b\") or (\"A::a\" and \"B::c\")") .human p ∧
    (∀ n ∈ p.names, ∃ k ∈ pks, k.attr = n) ∧ p.sat [] = false ∧
    encrypt toyEnv pk pks (chars% "(\"A::a\" and \"A::b\") or (\"A::a\" and \"B::c\")") .human [1, 2, 3] toyTape =
      .ok (ct, t₂) ∧
    p.sat (sk.skA.map (·.attr)) = true ∧ decrypt toyEnv (1, 1) sk ct = .ok [1, 2, 3] := by
  have h : toyRun ['A'] ['B'] [chars% "A::a", chars% "A::b"] [chars% "B::c"] [chars% "A::a"] [chars% "B::c"]
      (chars% "(\"A::a\" and \"A::b\") or (\"A::a\" and \"B::c\")") .human
      ((chars% "(\"A::a\" and \"A::b\") or (\"A::a\" and \"B::c\")"), .human) [1, 2, 3] = .ok (.ok [1, 2, 3]) := by
    decide +kernel
  obtain ⟨pk, msk, a, b, sk, pks, ct, t1, t2, h1, h2, h3, h4, h5, h6, _⟩ := toyRun_ok h
  have hp : Denotes (chars% "(\"A::a\" and \"A::b\") or (\"A::a\" and \"B::c\")") .human
      (.gate .or [.gate .and [.leaf (chars% "A::a") 3, .leaf (chars% "A::b") 14],
        .gate .and [.leaf (chars% "A::a") 26, .leaf (chars% "B::c") 37]]) := by with_unfolding_all rfl
  have hne : a.name ≠ b.name := by rw [h2.2, h3.2]; decide
  have g : ∀ x ∈ [a, b], Genuine Fr Fr Fr x := by simp [h2.1, h3.1]
  have i : ∀ x ∈ [a, b], ∀ y ∈ [a, b], x.name = y.name → x = y := by
    simp [hne, hne.symm]
  have hk : ∀ n ∈ (Pol.gate .or [.gate .and [.leaf (chars% "A::a") 3, .leaf (chars% "A::b") 14],
        .gate .and [.leaf (chars% "A::a") 26, .leaf (chars% "B::c") 37]]).names, ∃ k ∈ pks, k.attr = n := by
    intro n hn
    have : n ∈ pks.map (·.attr) := by
      rw [h4.2]
      revert n
      decide
    simpa using this
  have hs : (Pol.gate .or [.gate .and [.leaf (chars% "A::a") 3, .leaf (chars% "A::b") 14],
        .gate .and [.leaf (chars% "A::a") 26, .leaf (chars% "B::c") 37]]).sat (sk.skA.map (·.attr)) = true := by
    rw [h5.2]; decide
  exact ⟨_, pk, msk, a, b, sk, pks, ct, t1, t2, h1, g, i, h5.1, h4.1, hp, hk, by decide, h6, hs,
    C46_mke08_correct_partial toyEnv (1, 1) _ _ pk msk h1 [a, b] i sk h5.1 pks h4.1 _ _ _ hp hk (by decide) _ _ _ ct h6
      hs⟩

/-! ## Refusal -/

/-- **C47.** Whatever the group elements are: if the attribute names of the key do not satisfy the policy stored in the
ciphertext, `decrypt` returns an error. -/
theorem C47_mke08_refuses (env : Env F G1 G2 Gt) (one : G1 × G2) (sk : UserKey G1 G2) (ct : Ciphertext G1 G2 Gt) (p : Pol)
    (hp : Denotes ct.policy.1 ct.policy.2 p)
    (h : p.sat (sk.skA.map (·.attr)) = false ∨ sk.skA = []) : decrypt env one sk ct = .err := by
  have hp' : parse ct.policy.1 ct.policy.2 = .ok p.toValue := hp
  have ht : traversePolicy (sk.skA.map (·.attr)) p.toValue .leaf = false := by
    by_cases he : sk.skA = []
    · rw [he, List.map_nil, traverse_nil]
    · rw [traverse_eq_sat _ (by simpa using he)]
      exact h.resolve_right he
  simp only [decrypt, hp', Res.ok_bind, ht, if_true]

/-- Contrapositive of **C47**, for every stored policy text. -/
theorem C47_mke08_decrypts_only_if_satisfied (env : Env F G1 G2 Gt) (one : G1 × G2) (sk : UserKey G1 G2)
    (ct : Ciphertext G1 G2 Gt) (data : Bytes) (h : decrypt env one sk ct = .ok data) :
    ∃ p, Denotes ct.policy.1 ct.policy.2 p ∧ p.sat (sk.skA.map (·.attr)) = true ∧ sk.skA ≠ [] := by
  have h' := h
  simp only [decrypt, Res.bind_eq_ok] at h'
  obtain ⟨v, hv, _⟩ := h'
  obtain ⟨p, rfl, _⟩ := parse_ok hv
  refine ⟨p, hv, ?_, ?_⟩
  · by_contra hc
    rw [C47_mke08_refuses env one sk ct p hv (Or.inl (by simpa using hc))] at h
    simp at h
  · intro hc
    rw [C47_mke08_refuses env one sk ct p hv (Or.inr hc)] at h
    simp at h

/-- A key owning one of two needed attributes. -/
example (x y z w u v : Fr) : let sk : UserKey Fr Fr := ⟨⟨x, y⟩, ⟨['u'], z, w⟩, [⟨(chars% "A::a"), u, v⟩]⟩
    ∃ p, Denotes (chars% "\"A::a\" and \"A::b\"") .human p ∧ p.sat (sk.skA.map (·.attr)) = false :=
  ⟨.gate .and [.leaf (chars% "A::a") 2, .leaf (chars% "A::b") 13], rfl, by simp⟩

/-! ## Requests -/

/-- **C48, MKE08.** Requests for public and secret attribute keys succeed iff the attribute is the authority's name, two
colons and something, the two colons occur only once without overlap, and their first occurrence is used; otherwise the
request returns an error. -/
theorem C48_mke08_request (env : Env F G1 G2 Gt) (pk : PublicKey G1 G2 Gt) (pkU : PublicUserKey G1 G2)
    (a : SecretAuthorityKey F) (attr : Str) :
    let good := (∃ rest, attr = a.name ++ ':' :: ':' :: rest) ∧
      (∀ x y z, attr ≠ x ++ ':' :: ':' :: y ++ ':' :: ':' :: z) ∧
      ∀ u v, attr = u ++ ':' :: ':' :: v → a.name.length ≤ u.length
    ((∃ k, requestAuthorityPk env pk attr a = .ok k) ↔ good) ∧ (¬ good → requestAuthorityPk env pk attr a = .err) ∧
    ((∃ k, requestAuthoritySk env pkU attr a = .ok k) ↔ good) ∧ (¬ good → requestAuthoritySk env pkU attr a = .err) := by
  intro good
  have hg : fromAuthority attr a.name = true ↔ good := by
    have := authority_iff attr a.name
    simp only [SplitsAs] at this
    simp only [good, List.append_assoc, List.cons_append] at this ⊢
    exact this
  simp only [requestAuthorityPk, requestAuthoritySk, isEligible, Bool.and_true]
  by_cases h : good
  · rw [if_pos (hg.2 h), if_pos (hg.2 h)]
    exact ⟨⟨fun _ => h, fun _ => ⟨_, rfl⟩⟩, fun hn => absurd h hn, ⟨fun _ => h, fun _ => ⟨_, rfl⟩⟩, fun hn => absurd h hn⟩
  · rw [if_neg (fun hc => h (hg.1 hc)), if_neg (fun hc => h (hg.1 hc))]
    simp [h]

/-- **C48, MKE08.** No attribute is issued by two authorities with different names. -/
theorem C48_mke08_unique (env : Env F G1 G2 Gt) (pkU pkU' : PublicUserKey G1 G2)
    (a b : SecretAuthorityKey F) (attr : Str) (k k' : SecretAttributeKey G1 G2)
    (h : requestAuthoritySk env pkU attr a = .ok k) (h' : requestAuthoritySk env pkU' attr b = .ok k') :
    a.name = b.name :=
  authority_unique (requestSk_ok h).1 (requestSk_ok h').1

/-- The corner cases of `C48_mke08_request`: three colons are accepted (the name after the separator then starts with a
colon); four are not; an empty name is accepted on either side. -/
example : fromAuthority (chars% "A:::x") (chars% "A") = true ∧ fromAuthority (chars% "A:::x") (chars% "A:") = false ∧
    fromAuthority (chars% "A::::x") (chars% "A") = false ∧ fromAuthority (chars% "A::x::y") (chars% "A") = false ∧
    fromAuthority (chars% "::") [] = true ∧ fromAuthority (chars% "A:x") (chars% "A") = false := by decide

/-- An authority whose name contains two colons, or ends with a colon, can never issue a key. -/
theorem C48_mke08_bad_names (env : Env F G1 G2 Gt) (pkU : PublicUserKey G1 G2) (a : SecretAuthorityKey F)
    (attr : Str) (h : (∃ x y, a.name = x ++ ':' :: ':' :: y) ∨ ∃ x, a.name = x ++ [':']) :
    requestAuthoritySk env pkU attr a = .err := by
  have h4 := (C48_mke08_request env (⟨0, 0, 0, 0, 0, 0⟩ : PublicKey G1 G2 Gt) pkU a attr).2.2.2
  refine h4 ?_
  rintro ⟨⟨rest, hr⟩, h2, h3⟩
  rcases h with ⟨x, y, hn⟩ | ⟨x, hn⟩
  · exact h2 x y rest (by rw [hr, hn])
  · have := h3 x (':' :: rest) (by rw [hr, hn]; simp)
    rw [hn] at this
    simp at this

example : ∃ x y, (chars% "A::B") = x ++ ':' :: ':' :: y := ⟨['A'], ['B'], rfl⟩

/-! ## Replacing the stored policy -/

/-- **C49 is violated in MKE08.** For every policy in disjunctive normal form with a conjunction other than as its first
disjunct, a user having (at least) the first attribute of that conjunction decrypts after replacing the stored policy
text by any text that is satisfied by the user's attributes. -/
theorem C49_violated_mke08_general (env : Env F G1 G2 Gt) (one : G1 × G2)
    (t₁ t₁' : Tape F G1 G2 Gt) (pk : PublicKey G1 G2 Gt) (msk : MasterKey G1 G2)
    (hsetup : setup env t₁ = .ok ((pk, msk), t₁'))
    (auths : List (SecretAuthorityKey F))
    (hinj : ∀ a ∈ auths, ∀ b ∈ auths, a.name = b.name → a = b)
    (sk : UserKey G1 G2) (hsk : Issued env pk msk auths sk)
    (pks : List (PublicAttributeKey G1 G2 Gt)) (hpks : Requested env pk auths pks) (hnd : (pks.map (·.attr)).Nodup)
    (text : Str) (lang : PolicyLanguage) (pre post ds : List Pol) (n : Str) (j : ℕ) (hpre : pre ≠ [])
    (hp : Denotes text lang (.gate .or (pre ++ .gate .and (.leaf n j :: ds) :: post)))
    (hk : ∃ k ∈ pks, k.attr = n)
    (plaintext : Bytes) (t₂ t₂' : Tape F G1 G2 Gt) (ct : Ciphertext G1 G2 Gt)
    (henc : encrypt env pk pks text lang plaintext t₂ = .ok (ct, t₂'))
    (hn : n ∈ sk.skA.map (·.attr)) (stored : Str × PolicyLanguage) (p' : Pol) (hp' : Denotes stored.1 stored.2 p')
    (hsat : p'.sat (sk.skA.map (·.attr)) = true) :
    decrypt env one sk { ct with policy := stored } = .ok plaintext := by
  obtain ⟨y1, y2, hs⟩ := setup_ok hsetup
  obtain ⟨terms, msg1, msg2, hterms, hpol, hd, hj⟩ := encrypt_ok hp henc
  have hc := encrypt_ctOk hs hinj hpks hterms hp hj
  have hne : sk.skA ≠ [] := by
    intro h
    rw [h] at hn
    simp at hn
  have hcov : Covers (sk.skA.map (·.attr)) terms := by
    have hkv : ∃ x ∈ pks.map PublicAttributeKey.view, x.attr = n := by
      obtain ⟨k, hk', rfl⟩ := hk
      exact ⟨k.view, List.mem_map.2 ⟨k, hk', rfl⟩, rfl⟩
    have hnv : ((pks.map PublicAttributeKey.view).map (·.attr)).Nodup := by
      rw [List.map_map]; exact hnd
    obtain ⟨terms', h1, t, ht, h2⟩ := C19_violated_general (pks.map PublicAttributeKey.view) hnv pre post ds n j hpre
      (jsonToDnf_ok hterms).1 hkv
    rw [hterms] at h1
    obtain rfl := Res.ok.inj h1
    exact ⟨t, ht, fun a ha => List.mem_singleton.1 (h2 a ha) ▸ hn⟩
  have hpol' : parse ({ ct with policy := stored } : Ciphertext G1 G2 Gt).policy.1
    ({ ct with policy := stored } : Ciphertext G1 G2 Gt).policy.2 = .ok p'.toValue := hp'
  rw [(decrypt_eq (ct := { ct with policy := stored }) hc (issued_ok hs hinj hsk) one hpol' hne hsat).1
    ((covers_e hj _).2 hcov)]
  exact hd

/-- **C49 is violated in MKE08**, concretely: a key for `A::a` is refused for
`("A::a" and "A::b") or ("A::a" and "B::c")`, and decrypts after the stored text is replaced by `"A::a"`. -/
theorem C49_violated_mke08 : ∃ (p : Pol) (pk : PublicKey Fr Fr Fr) (msk : MasterKey Fr Fr)
    (a b : SecretAuthorityKey Fr) (sk : UserKey Fr Fr)
    (pks : List (PublicAttributeKey Fr Fr Fr)) (ct : Ciphertext Fr Fr Fr) (t₁ t₂ : Tape Fr Fr Fr Fr),
    Denotes (chars% "(\"A::a\" and \"A::b\") or (\"A::a\" and \"B::c\")") .human p ∧
    p.sat (sk.skA.map (·.attr)) = false ∧
    setup toyEnv toyTape = .ok ((pk, msk), t₁) ∧ (Genuine Fr Fr Fr a ∧ a.name = ['A']) ∧
    (Genuine Fr Fr Fr b ∧ b.name = ['B']) ∧
    (Requested toyEnv pk [a, b] pks ∧ pks.map (·.attr) = [chars% "A::a", chars% "A::b", chars% "B::c"]) ∧
    (Issued toyEnv pk msk [a, b] sk ∧ sk.skA.map (·.attr) = [chars% "A::a"]) ∧
    encrypt toyEnv pk pks (chars% "(\"A::a\" and \"A::b\") or (\"A::a\" and \"B::c\")") .human [7] toyTape = .ok (ct, t₂) ∧
    decrypt toyEnv (1, 1) sk ct = .err ∧
    decrypt toyEnv (1, 1) sk { ct with policy := ((chars% "\"A::a\""), .human) } = .ok [7] := by
  have h : toyRun ['A'] ['B'] [chars% "A::a", chars% "A::b"] [chars% "B::c"] [chars% "A::a"] []
      (chars% "(\"A::a\" and \"A::b\") or (\"A::a\" and \"B::c\")") .human ((chars% "\"A::a\""), .human) [7] =
      .ok (.ok [7]) := by decide +kernel
  obtain ⟨pk, msk, a, b, sk, pks, ct, t1, t2, h1, h2, h3, h4, h5, h6, h7⟩ := toyRun_ok h
  have hp : Denotes (chars% "(\"A::a\" and \"A::b\") or (\"A::a\" and \"B::c\")") .human
      (.gate .or [.gate .and [.leaf (chars% "A::a") 3, .leaf (chars% "A::b") 14],
        .gate .and [.leaf (chars% "A::a") 26, .leaf (chars% "B::c") 37]]) := by with_unfolding_all rfl
  have hs : (Pol.gate .or [.gate .and [.leaf (chars% "A::a") 3, .leaf (chars% "A::b") 14],
        .gate .and [.leaf (chars% "A::a") 26, .leaf (chars% "B::c") 37]]).sat (sk.skA.map (·.attr)) = false := by
    rw [h5.2]; decide
  obtain ⟨_, _, _, _, hpol, _⟩ := encrypt_ok hp h6
  exact ⟨_, pk, msk, a, b, sk, pks, ct, t1, t2, hp, hs, h1, h2, h3, h4, h5, h6,
    C47_mke08_refuses _ _ _ _ _ (by rw [hpol]; exact hp) (Or.inl hs), h7⟩

/-- **C49, MKE08, partial.** If at most the first disjunct is a conjunction, and all public keys are there once, then a
user whose attributes do not satisfy the policy gets nothing by replacing the stored text: whatever `decrypt` then
returns is what anybody gets from the symmetric ciphertext with the constant key derived from `Gt::one()`. Missing: the
other policies in disjunctive normal form (`C49_violated_mke08_general`). -/
theorem C49_mke08_stored_policy_partial (env : Env F G1 G2 Gt) (one : G1 × G2)
    (t₁ t₁' : Tape F G1 G2 Gt) (pk : PublicKey G1 G2 Gt) (msk : MasterKey G1 G2)
    (hsetup : setup env t₁ = .ok ((pk, msk), t₁'))
    (auths : List (SecretAuthorityKey F))
    (hinj : ∀ a ∈ auths, ∀ b ∈ auths, a.name = b.name → a = b)
    (sk : UserKey G1 G2) (hsk : Issued env pk msk auths sk)
    (pks : List (PublicAttributeKey G1 G2 Gt)) (hpks : Requested env pk auths pks) (hnd : (pks.map (·.attr)).Nodup)
    (text : Str) (lang : PolicyLanguage) (p : Pol) (hp : Denotes text lang p) (hfc : p.OnlyFirstConj)
    (hk : ∀ n ∈ p.names, ∃ k ∈ pks, k.attr = n) (he : p.sat [] = false)
    (plaintext : Bytes) (t₂ t₂' : Tape F G1 G2 Gt) (ct : Ciphertext G1 G2 Gt)
    (henc : encrypt env pk pks text lang plaintext t₂ = .ok (ct, t₂'))
    (hsat : p.sat (sk.skA.map (·.attr)) = false) (stored : Str × PolicyLanguage) (data : Bytes)
    (h : decrypt env one sk { ct with policy := stored } = .ok data) :
    decryptSymmetric env 0 ct.ct = .ok data := by
  obtain ⟨y1, y2, hs⟩ := setup_ok hsetup
  obtain ⟨terms, msg1, msg2, hterms, hpol, hd, hj⟩ := encrypt_ok hp henc
  have hc := encrypt_ctOk hs hinj hpks hterms hp hj
  obtain ⟨p', hp', hs', hne⟩ := C47_mke08_decrypts_only_if_satisfied env one sk _ data h
  have hnc : ¬ Covers (sk.skA.map (·.attr)) terms := by
    intro hcov
    have hkv : HasKeys (pks.map PublicAttributeKey.view) p := by
      intro n hn
      obtain ⟨k, hk', rfl⟩ := hk n hn
      exact ⟨k.view, List.mem_map.2 ⟨k, hk', rfl⟩, rfl⟩
    have hnv : ((pks.map PublicAttributeKey.view).map (·.attr)).Nodup := by
      rw [List.map_map]; exact hnd
    obtain ⟨terms', h1, h2⟩ := C19_dnf_meaning_partial text lang p hp hfc he _ hnv hkv
    rw [hterms] at h1
    obtain rfl := Res.ok.inj h1
    rw [(h2 _).1 hcov] at hsat
    simp at hsat
  rw [(decrypt_eq (ct := { ct with policy := stored }) hc (issued_ok hs hinj hsk) one hp' hne hs').2
    (fun hcv => hnc ((covers_e hj _).1 hcv))] at h
  exact h

/-- A policy, keys and a replaced text meeting the hypotheses of `C49_mke08_stored_policy_partial` (up to the last). -/
example : ∃ (p : Pol) (pk : PublicKey Fr Fr Fr) (msk : MasterKey Fr Fr)
    (a b : SecretAuthorityKey Fr) (sk : UserKey Fr Fr)
    (pks : List (PublicAttributeKey Fr Fr Fr)) (ct : Ciphertext Fr Fr Fr) (t₁ t₂ : Tape Fr Fr Fr Fr),
    setup toyEnv toyTape = .ok ((pk, msk), t₁) ∧ (∀ x ∈ [a, b], Genuine Fr Fr Fr x) ∧
    (∀ x ∈ [a, b], ∀ y ∈ [a, b], x.name = y.name → x = y) ∧ Issued toyEnv pk msk [a, b] sk ∧
    Requested toyEnv pk [a, b] pks ∧ (pks.map (·.attr)).Nodup ∧
    Denotes (chars% "(\"A::a\" and \"A::b\") or \"B::c\"") .human p ∧ p.OnlyFirstConj ∧
    (∀ n ∈ p.names, ∃ k ∈ pks, k.attr = n) ∧ p.sat [] = false ∧
    encrypt toyEnv pk pks (chars% "(\"A::a\" and \"A::b\") or \"B::c\"") .human [1, 2, 3] toyTape = .ok (ct, t₂) ∧
    p.sat (sk.skA.map (·.attr)) = false ∧
    decrypt toyEnv (1, 1) sk { ct with policy := ((chars% "\"A::a\""), .human) } = .err := by
  have h : toyRun ['A'] ['B'] [chars% "A::a", chars% "A::b"] [chars% "B::c"] [chars% "A::a"] []
      (chars% "(\"A::a\" and \"A::b\") or \"B::c\"") .human ((chars% "\"A::a\""), .human) [1, 2, 3] = .ok .err := by
    decide +kernel
  obtain ⟨pk, msk, a, b, sk, pks, ct, t1, t2, h1, h2, h3, h4, h5, h6, h7⟩ := toyRun_ok h
  have hne : a.name ≠ b.name := by rw [h2.2, h3.2]; decide
  refine ⟨.gate .or [.gate .and [.leaf (chars% "A::a") 3, .leaf (chars% "A::b") 14], .leaf (chars% "B::c") 25],
    pk, msk, a, b, sk, pks, ct, t1, t2, h1, by simp [h2.1, h3.1], by simp [hne, hne.symm], h5.1, h4.1,
    by rw [h4.2]; decide, by with_unfolding_all rfl, by simp [Pol.OnlyFirstConj, Pol.IsTerm], ?_, by decide, h6,
    by rw [h5.2]; decide, h7⟩
  intro n hn
  have : n ∈ pks.map (·.attr) := by
    rw [h4.2]
    revert n
    decide
  simpa using this

/-! ## Transferring components -/

/-- A key component for the attribute `wanted`, made from one for another attribute with public values only. -/
def forgeAttr (env : Env F G1 G2 Gt) (k : SecretAttributeKey G1 G2) (wanted : Str) : SecretAttributeKey G1 G2 :=
  { attr := wanted, g1 := (env.hash wanted / env.hash k.attr) • k.g1, g2 := (env.hash wanted / env.hash k.attr) • k.g2 }

/-- **C52 is violated in MKE08.** From an attribute key issued by an authority (for an attribute whose hash is not zero)
anybody computes the key the authority would issue to the same user for any other of its attributes. -/
theorem C52_violated_mke08 (env : Env F G1 G2 Gt) (pkU : PublicUserKey G1 G2) (a : SecretAuthorityKey F)
    (attr : Str) (k : SecretAttributeKey G1 G2) (h : requestAuthoritySk env pkU attr a = .ok k) (hz : env.hash attr ≠ 0)
    (wanted : Str) (hw : fromAuthority wanted a.name = true) :
    requestAuthoritySk env pkU wanted a = .ok (forgeAttr env k wanted) := by
  obtain ⟨_, rfl, h1, h2⟩ := requestSk_ok h
  have : (fromAuthority wanted a.name && isEligible wanted pkU.name) = true := by simp [hw, isEligible]
  rw [requestAuthoritySk, if_pos this]
  simp only [forgeAttr, h1, h2, smul_smul, Res.ok.injEq, SecretAttributeKey.mk.injEq, true_and]
  constructor <;> (congr 1; field_simp)

/-- The forged key is accepted by `decrypt` like a requested one: it is a key of a request history. -/
theorem C52_violated_mke08_history (env : Env F G1 G2 Gt) (pk : PublicKey G1 G2 Gt) {msk : MasterKey G1 G2}
    (auths : List (SecretAuthorityKey F)) (sk : UserKey G1 G2) (hsk : Issued env pk msk auths sk)
    (a : SecretAuthorityKey F) (ha : a ∈ auths)
    (attr : Str) (k : SecretAttributeKey G1 G2) (h : requestAuthoritySk env sk.pk attr a = .ok k) (hz : env.hash attr ≠ 0)
    (wanted : Str) (hw : fromAuthority wanted a.name = true) :
    Issued env pk msk auths { sk with skA := sk.skA ++ [forgeAttr env k wanted] } :=
  Issued.request sk a wanted _ hsk ha (C52_violated_mke08 env sk.pk a attr k h hz wanted hw)

/-- A key for `A::a` forged into one for `A::b`. -/
example : ∃ (a : SecretAuthorityKey Fr) (k : SecretAttributeKey Fr Fr),
    requestAuthoritySk toyEnv ⟨['u'], 2, 3⟩ (chars% "A::a") a = .ok k ∧ toyEnv.hash (chars% "A::a") ≠ 0 ∧
    fromAuthority (chars% "A::b") a.name = true :=
  ⟨⟨['A'], 1⟩, _, by rw [requestAuthoritySk, if_pos (by decide)], by decide +kernel, by decide⟩

/-! ## Order of the attributes -/

/-- **C53, MKE08.** For every ciphertext (of any origin) and every key with distinct attribute names, the outcome of
`decrypt` does not depend on the order of the key's components. -/
theorem C53_mke08_order (env : Env F G1 G2 Gt) (one : G1 × G2) (ct : Ciphertext G1 G2 Gt) (sk sk' : UserKey G1 G2)
    (hs : sk'.sk = sk.sk) (hperm : sk'.skA.Perm sk.skA) (hn : (sk.skA.map (·.attr)).Nodup) :
    decrypt env one sk' ct = decrypt env one sk ct := by
  have hmem : ∀ x, x ∈ sk'.skA.map (·.attr) ↔ x ∈ sk.skA.map (·.attr) := fun x => (hperm.map _).mem_iff
  have hf : ∀ a, (sk'.skA.find? fun x => x.attr == a) = sk.skA.find? fun x => x.attr == a := fun a =>
    find?_perm (fun x : SecretAttributeKey G1 G2 => x.attr) hperm ((hperm.map _).nodup_iff.2 hn) a
  cases hp : parse ct.policy.1 ct.policy.2 with
  | err => simp only [decrypt, hp, Res.err_bind]
  | panic => simp only [decrypt, hp, Res.panic_bind]
  | ok v =>
    obtain ⟨p, rfl, _⟩ := parse_ok hp
    simp only [decrypt, hp, Res.ok_bind, traverse_congr hmem p, hs, isSatisfiable, calcSatisfiable, hf]

/-- **C53, MKE08, larger keys, partial.** Under the hypotheses of `C46_mke08_correct_partial`: if the attributes of `sk`
satisfy the policy, every issued key with at least these attributes decrypts. -/
theorem C53_mke08_larger_partial (env : Env F G1 G2 Gt) (one : G1 × G2)
    (t₁ t₁' : Tape F G1 G2 Gt) (pk : PublicKey G1 G2 Gt) (msk : MasterKey G1 G2)
    (hsetup : setup env t₁ = .ok ((pk, msk), t₁'))
    (auths : List (SecretAuthorityKey F))
    (hinj : ∀ a ∈ auths, ∀ b ∈ auths, a.name = b.name → a = b)
    (sk sk' : UserKey G1 G2) (hsk' : Issued env pk msk auths sk')
    (hsub : ∀ x ∈ sk.skA.map (·.attr), x ∈ sk'.skA.map (·.attr))
    (pks : List (PublicAttributeKey G1 G2 Gt)) (hpks : Requested env pk auths pks)
    (text : Str) (lang : PolicyLanguage) (p : Pol) (hp : Denotes text lang p)
    (hk : ∀ n ∈ p.names, ∃ k ∈ pks, k.attr = n) (he : p.sat [] = false)
    (plaintext : Bytes) (t₂ t₂' : Tape F G1 G2 Gt) (ct : Ciphertext G1 G2 Gt)
    (henc : encrypt env pk pks text lang plaintext t₂ = .ok (ct, t₂'))
    (data : Bytes) (hdec : decrypt env one sk ct = .ok data) :
    decrypt env one sk' ct = .ok plaintext := by
  obtain ⟨p', hp', hs', _⟩ := C47_mke08_decrypts_only_if_satisfied env one sk ct data hdec
  obtain ⟨_, _, _, _, hpol, _⟩ := encrypt_ok hp henc
  have hpp : p'.toValue = p.toValue := by
    have h3 : parse ct.policy.1 ct.policy.2 = .ok p'.toValue := hp'
    rw [hpol, show parse (text, lang).1 (text, lang).2 = .ok p.toValue from hp] at h3
    exact (Res.ok.inj h3).symm
  obtain rfl := toValue_inj _ _ hpp
  exact C46_mke08_correct_partial env one t₁ t₁' pk msk hsetup auths hinj sk' hsk' pks hpks text lang _ hp hk he
    plaintext t₂ t₂' ct henc (sat_mono hsub _ hs')

end Mke08
end Rabe
