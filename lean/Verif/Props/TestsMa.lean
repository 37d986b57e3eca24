import Verif.Model.TestsMa
import Verif.Props.Tests

/-!
# Property C107: the unit tests of the modules `mke08` and `bdabe`

For every plaintext that the symmetric encryption accepts, every environment and all random numbers.
-/

namespace Rabe

set_option linter.unusedSectionVars false

variable {F G1 G2 Gt : Type} [Field F] [DecidableEq F] [AddCommGroup G1] [Module F G1]
  [AddCommGroup G2] [Module F G2] [AddCommGroup Gt] [Module F Gt]

/-- If the user has all attributes whose public keys were given to `encrypt`, every term is covered; so one term suffices. -/
theorem covers_of_owned {pks : List (PubAttr G1 G2 Gt)} {p : Pol} {terms} (h : jsonToDnf p.toValue pks = .ok terms)
    {A : List Str} (ho : ∀ x ∈ pks, x.attr ∈ A) (hne : (dnf pks p.toValue [] 0 none).1 ≠ []) : Covers A terms := by
  obtain ⟨hdnf, rfl⟩ := jsonToDnf_ok h
  obtain ⟨t, ht⟩ := List.exists_mem_of_ne_nil _ hne
  obtain ⟨c, -, ks, -, hks, hm⟩ := (dnf_terms pks p hdnf).1 t ht
  refine covers_sort.2 ⟨t, ht, fun n hn => ?_⟩
  rw [hm.1] at hn
  obtain ⟨y, hy, rfl⟩ := List.mem_map.1 hn
  exact ho y (hks y hy).1

namespace Mke08

theorem decrypts (env : Env F G1 G2 Gt) (one : G1 × G2) {t₁ t₁' : Tape F G1 G2 Gt} {pk : PublicKey G1 G2 Gt}
    {msk : MasterKey G1 G2} (hsetup : setup env t₁ = .ok ((pk, msk), t₁')) {auths : List (SecretAuthorityKey F)}
    (hinj : ∀ a ∈ auths, ∀ b ∈ auths, a.name = b.name → a = b) {sk : UserKey G1 G2} (hsk : Issued env pk msk auths sk)
    {pks : List (PublicAttributeKey G1 G2 Gt)} (hpks : Requested env pk auths pks) {text lang} {p : Pol} (hp : Denotes text lang p)
    (ho : ∀ x ∈ pks, x.attr ∈ sk.skA.map (·.attr)) (hne : (dnf (pks.map PublicAttributeKey.view) p.toValue [] 0 none).1 ≠ [])
    {pt : Bytes} {t t' : Tape F G1 G2 Gt} {ct} (h : encrypt env pk pks text lang pt t = .ok (ct, t')) (hs0 : sk.skA ≠ [])
    (hs : p.sat (sk.skA.map (·.attr)) = true) : decrypt env one sk ct = .ok pt := by
  obtain ⟨y1, y2, hs'⟩ := setup_ok hsetup
  obtain ⟨terms, msg1, msg2, hterms, hpol, hd, hj⟩ := encrypt_ok hp h
  have hc := encrypt_ctOk hs' hinj hpks hterms hp hj
  have hpol' : parse ct.policy.1 ct.policy.2 = .ok p.toValue := by rw [hpol]; exact hp
  rw [(decrypt_eq hc (issued_ok hs' hinj hsk) one hpol' hs0 hs).1 ((covers_e hj _).2
    (covers_of_owned hterms (by
      intro x hx
      obtain ⟨k, hk, rfl⟩ := List.mem_map.1 hx
      exact ho k hk) hne)), hd]

theorem request (env : Env F G1 G2 Gt) (pk : PublicKey G1 G2 Gt) (u : PublicUserKey G1 G2) (a : SecretAuthorityKey F) (x : Str)
    (h : fromAuthority x a.name = true) :
    (∃ p, requestAuthorityPk env pk x a = .ok p ∧ p.attr = x) ∧ ∃ k, requestAuthoritySk env u x a = .ok k ∧ k.attr = x := by
  simp [requestAuthorityPk, requestAuthoritySk, h, isEligible]

/-- **C107, the common part of two tests of `mke08`.** It ends normally, whatever the random numbers, for every policy that the two
attributes satisfy and that mentions one of them in a term that is kept. -/
theorem C107_mke08_two (env : Env F G1 G2 Gt) (one : G1 × G2) (x1 x2 policy : Str)
    (f1 : fromAuthority x1 (chars% "auth1") = true) (f2 : fromAuthority x2 (chars% "auth2") = true) (p : Pol)
    (hp : Denotes policy .json p) (hd : p.IsDnf) (hs : p.sat [x1, x2] = true)
    (hne : ∀ v1 v2 : PubAttr G1 G2 Gt, v1.attr = x1 → v2.attr = x2 → (dnf [v1, v2] p.toValue [] 0 none).1 ≠ [])
    (pt : Bytes) (ha : Accepts env pt) (s : Tape F G1 G2 Gt) : ∃ s', testTwo env one x1 x2 policy pt s = .ok ((), s') := by
  obtain ⟨d1, d2, d3, d4⟩ := C46_mke08_defined env
  obtain ⟨pk, msk, t₁, h1⟩ := d1 s
  obtain ⟨sk, t₂, h2⟩ := d3 pk msk (chars% "user1") t₁
  obtain ⟨a₁, t₃, h3, -, n1⟩ := d2 (chars% "auth1") t₂
  obtain ⟨a₂, t₄, h4, -, n2⟩ := d2 (chars% "auth2") t₃
  obtain ⟨⟨p1, e1, v1⟩, k1, e3, v3⟩ := request env pk sk.pk a₁ x1 (by rw [n1]; exact f1)
  obtain ⟨⟨p2, e2, v2⟩, k2, e4, v4⟩ := request env pk sk.pk a₂ x2 (by rw [n2]; exact f2)
  have hsk : sk.skA = [] := by
    simp only [keygen, RM.bind_apply, RM.genFr, RM.pure_apply, Res.ok.injEq, Prod.mk.injEq] at h2
    rw [← h2.1]
  obtain ⟨ct, t₅, h5⟩ := (d4 pk [p1, p2] _ _ p hp pt ha t₄).1 hd
  have hI : Issued env pk msk [a₁, a₂] { sk with skA := sk.skA ++ [k1] ++ [k2] } :=
    .request { sk with skA := sk.skA ++ [k1] } a₂ _ k2
      (.request sk a₁ _ k1 (.keygen _ _ _ _ h2) (by simp) e3) (by simp) e4
  have hd := decrypts env one h1 (auths := [a₁, a₂]) (by
      have : a₁.name ≠ a₂.name := by rw [n1, n2]; decide
      simp [this, this.symm]) hI (pks := [p1, p2]) (by
      intro k hk
      simp only [List.mem_cons, List.not_mem_nil, or_false] at hk
      rcases hk with rfl | rfl
      · exact ⟨a₁, by simp, _, e1⟩
      · exact ⟨a₂, by simp, _, e2⟩) hp (by simp [hsk, v1, v2, v3, v4]) (hne _ _ v1 v2) h5 (by simp)
    (by simpa [hsk, v3, v4] using hs)
  refine ⟨t₅, ?_⟩
  simp only [testTwo, RM.bind_apply, h1, h2, h3, h4, e1, e2, e3, e4, orPanic_ok h5, RM.lift, Res.unwrap, Res.ok_bind, hd,
    assertPlain_ok]

/-- **C107, the converse.** The common part of two tests of `mke08` aborts if the two attributes do not satisfy the policy, whatever the
random numbers. -/
theorem C107_mke08_two_aborts (env : Env F G1 G2 Gt) (one : G1 × G2) (x1 x2 policy : Str)
    (f1 : fromAuthority x1 (chars% "auth1") = true) (f2 : fromAuthority x2 (chars% "auth2") = true) (p : Pol)
    (hp : Denotes policy .json p) (hd : p.IsDnf) (hs : p.sat [x1, x2] = false)
    (pt : Bytes) (ha : Accepts env pt) (s : Tape F G1 G2 Gt) : testTwo env one x1 x2 policy pt s = .panic := by
  obtain ⟨d1, d2, d3, d4⟩ := C46_mke08_defined env
  obtain ⟨pk, msk, t₁, h1⟩ := d1 s
  obtain ⟨sk, t₂, h2⟩ := d3 pk msk (chars% "user1") t₁
  obtain ⟨a₁, t₃, h3, -, n1⟩ := d2 (chars% "auth1") t₂
  obtain ⟨a₂, t₄, h4, -, n2⟩ := d2 (chars% "auth2") t₃
  obtain ⟨⟨p1, e1, v1⟩, k1, e3, v3⟩ := request env pk sk.pk a₁ x1 (by rw [n1]; exact f1)
  obtain ⟨⟨p2, e2, v2⟩, k2, e4, v4⟩ := request env pk sk.pk a₂ x2 (by rw [n2]; exact f2)
  have hsk : sk.skA = [] := by
    simp only [keygen, RM.bind_apply, RM.genFr, RM.pure_apply, Res.ok.injEq, Prod.mk.injEq] at h2
    rw [← h2.1]
  obtain ⟨ct, t₅, h5⟩ := (d4 pk [p1, p2] _ _ p hp pt ha t₄).1 hd
  obtain ⟨_, _, _, _, hpol, _⟩ := encrypt_ok hp h5
  have hr : decrypt env one { sk with skA := sk.skA ++ [k1] ++ [k2] } ct = .err :=
    C47_mke08_refuses env one _ ct p (by rw [hpol]; exact hp) (.inl (by simpa [hsk, v3, v4] using hs))
  simp only [testTwo, RM.bind_apply, h1, h2, h3, h4, e1, e2, e3, e4, orPanic_ok h5, RM.lift, Res.unwrap, Res.ok_bind, hr, assertPlain,
    Res.panic_bind]

/-- With attributes that are not in the policy of the test `or` it aborts. -/
example : testTwo toyEnv (1, 1) (chars% "auth1::C") (chars% "auth2::D")
    (chars% "{\"name\": \"or\", \"children\": [{\"name\": \"auth1::A\"}, {\"name\": \"auth2::B\"}]}") [7, 8] zeroTape = .panic :=
  C107_mke08_two_aborts toyEnv (1, 1) _ _ _ (by decide) (by decide)
    (.gate .or [.leaf (chars% "auth1::A") 39, .leaf (chars% "auth2::B") 61]) (denotes_of_same (by decide +kernel))
    (by simp [Pol.IsDnf, Pol.IsTerm]) (by simp) [7, 8] (toy_accepts _) zeroTape

/-- **C107, `mke08`.** The three tests end normally, whatever the random numbers; in the second the public key of `auth1::A` is
missing. -/
theorem C107_mke08_all (env : Env F G1 G2 Gt) (one : G1 × G2) (pt : Bytes) (ha : Accepts env pt) (s : Tape F G1 G2 Gt) :
    (∃ s', testAnd env one pt s = .ok ((), s')) ∧ (∃ s', testOr env one pt s = .ok ((), s')) ∧
      ∃ s', testOrAnd env one pt s = .ok ((), s') := by
  refine ⟨?_, ?_, ?_⟩
  · exact C107_mke08_two env one _ _ _ (by decide) (by decide)
      (.gate .and [.leaf (chars% "auth1::A") 40, .leaf (chars% "auth2::B") 62]) (denotes_of_same (by decide +kernel))
      (by simp [Pol.IsDnf]) (by simp) (by
        intro v1 v2 e1 e2
        simp [Pol.toValue, Pol.toValueL, Op.toType, dnf, dnfAnd, dnfLeafStep, e1, e2]) pt ha s
  · exact C107_mke08_two env one _ _ _ (by decide) (by decide)
      (.gate .or [.leaf (chars% "auth1::A") 39, .leaf (chars% "auth2::B") 61]) (denotes_of_same (by decide +kernel))
      (by simp [Pol.IsDnf, Pol.IsTerm]) (by simp) (by
        intro v1 v2 e1 e2
        simp [Pol.toValue, Pol.toValueL, Op.toType, dnf, dnfOr, dnfLeafStep, e1, e2]) pt ha s
  · obtain ⟨d1, d2, d3, d4⟩ := C46_mke08_defined env
    obtain ⟨pk, msk, t₁, h1⟩ := d1 s
    obtain ⟨sk, t₂, h2⟩ := d3 pk msk (chars% "user1") t₁
    obtain ⟨a₁, t₃, h3, -, n1⟩ := d2 (chars% "auth1") t₂
    obtain ⟨a₂, t₄, h4, -, n2⟩ := d2 (chars% "auth2") t₃
    obtain ⟨⟨p1, e1, v1⟩, k1, f1, w1⟩ := request env pk sk.pk a₁ (chars% "auth1::A") (by rw [n1]; decide)
    obtain ⟨⟨p2, e2, v2⟩, k2, f2, w2⟩ := request env pk sk.pk a₂ (chars% "auth2::B") (by rw [n2]; decide)
    obtain ⟨⟨p3, e3, v3⟩, k3, f3, w3⟩ := request env pk sk.pk a₂ (chars% "auth2::X") (by rw [n2]; decide)
    have hsk : sk.skA = [] := by
      simp only [keygen, RM.bind_apply, RM.genFr, RM.pure_apply, Res.ok.injEq, Prod.mk.injEq] at h2
      rw [← h2.1]
    let p : Pol := .gate .or [.gate .and [.leaf (chars% "auth1::A") 68, .leaf (chars% "auth2::B") 90], .leaf (chars% "auth2::X") 114]
    have hp : Denotes (chars% "{\"name\": \"or\", \"children\": [{\"name\": \"and\", \"children\": [{\"name\": \"auth1::A\"}, {\"name\": \"auth2::B\"}]}, {\"name\": \"auth2::X\"}]}")
        .json p := denotes_of_same (by decide +kernel)
    obtain ⟨ct, t₅, h5⟩ := (d4 pk [p1, p2, p3] _ _ p hp pt ha t₄).1 (by simp [Pol.IsDnf, Pol.IsTerm, p])
    have hI : Issued env pk msk [a₁, a₂] { sk with skA := sk.skA ++ [k1] ++ [k2] ++ [k3] } :=
      .request { sk with skA := sk.skA ++ [k1] ++ [k2] } a₂ _ k3
        (.request { sk with skA := sk.skA ++ [k1] } a₂ _ k2
          (.request sk a₁ _ k1 (.keygen _ _ _ _ h2) (by simp) f1) (by simp) f2) (by simp) f3
    have hd := C46_mke08_correct_partial env one _ _ pk msk h1 [a₁, a₂] (by
        have : a₁.name ≠ a₂.name := by rw [n1, n2]; decide
        simp [this, this.symm]) _ hI [p1, p2, p3] (by
        intro k hk
        simp only [List.mem_cons, List.not_mem_nil, or_false] at hk
        rcases hk with rfl | rfl | rfl
        · exact ⟨a₁, by simp, _, e1⟩
        · exact ⟨a₂, by simp, _, e2⟩
        · exact ⟨a₂, by simp, _, e3⟩) _ _ p hp (by simp [Pol.names, p, v1, v2, v3]) (by simp [p]) pt _ _ ct h5
      (by simp [hsk, w1, w2, w3, p])
    refine ⟨t₅, ?_⟩
    simp only [testOrAnd, RM.bind_apply, h1, h2, h3, h4, e1, e2, e3, f1, f2, f3, orPanic_ok h5, RM.lift, Res.unwrap, Res.ok_bind, hd,
      assertPlain_ok]

/-- The hypothesis holds, also if all random numbers are zero. -/
example : ∃ s', testOr toyEnv (1, 1) [7, 8] zeroTape = .ok ((), s') :=
  (C107_mke08_all toyEnv (1, 1) [7, 8] (toy_accepts _) zeroTape).2.1

end Mke08

namespace Bdabe

theorem decrypts (env : Env F G1 G2 Gt) (one : G1 × G2) {t₁ t₁' : Tape F G1 G2 Gt} {pk : PublicKey G1 G2 Gt}
    {msk : MasterKey F} (hsetup : setup env t₁ = .ok ((pk, msk), t₁')) {auths : List (SecretAuthorityKey F G1 G2)}
    (hgen : ∀ a ∈ auths, Genuine pk msk a)
    (hinj : ∀ a ∈ auths, ∀ b ∈ auths, a.name = b.name → a = b) {sk : UserKey G1 G2} (hsk : Issued env pk auths sk)
    {pks : List (PublicAttributeKey G1 G2 Gt)} (hpks : Requested env pk auths pks) {text lang} {p : Pol} (hp : Denotes text lang p)
    (ho : ∀ x ∈ pks, x.attr ∈ sk.skA.map (·.attr)) (hne : (dnf (pks.map PublicAttributeKey.view) p.toValue [] 0 none).1 ≠ [])
    {pt : Bytes} {t t' : Tape F G1 G2 Gt} {ct} (h : encrypt env pk pks text lang pt t = .ok (ct, t')) (hs0 : sk.skA ≠ [])
    (hs : p.sat (sk.skA.map (·.attr)) = true) : decrypt env one sk ct = .ok pt := by
  obtain ⟨terms, msg, hterms, hpol, hd, _, hj⟩ := encrypt_ok hp h
  have hc := encrypt_ctOk (setup_ok hsetup) hinj hpks hterms hp hj
  have hpol' : parse ct.policy.1 ct.policy.2 = .ok p.toValue := by rw [hpol]; exact hp
  rw [(decrypt_eq hc (issued_ok hgen hinj hsk) one hpol' hs0 hs).1 ((covers_j hj _).2
    (covers_of_owned hterms (by
      intro x hx
      obtain ⟨k, hk, rfl⟩ := List.mem_map.1 hx
      exact ho k hk) hne)), hd]

theorem request (env : Env F G1 G2 Gt) (pk : PublicKey G1 G2 Gt) (u : PublicUserKey G1 G2) (a : SecretAuthorityKey F G1 G2) (x : Str)
    (h : fromAuthority x a.name = true) :
    (∃ p, requestAttributePk env pk a x = .ok p ∧ p.attr = x) ∧ ∃ k, requestAttributeSk env u a x = .ok k ∧ k.attr = x := by
  simp [requestAttributePk, requestAttributeSk, h, isEligible]

/-- **C107, the common part of three tests of `bdabe`.** It reaches the call of `decrypt`, whatever the random numbers. That call is
refused if the two attributes do not satisfy the policy; else, if a term of the policy is kept, it returns the plaintext. -/
theorem C107_bdabe_two (env : Env F G1 G2 Gt) (one : G1 × G2) (b : Bool) (x1 x2 policy : Str)
    (f1 : fromAuthority x1 (chars% "aa1") = true) (f2 : fromAuthority x2 (chars% "aa2") = true) (p : Pol)
    (hp : Denotes policy .json p) (hdn : p.IsDnf) (pt : Bytes) (ha : Accepts env pt) (s : Tape F G1 G2 Gt) :
    ∃ r s', testTwo env one b x1 x2 policy pt s = .ok (r, s') ∧ (p.sat [x1, x2] = false → r = .err) ∧
      (p.sat [x1, x2] = true →
        (∀ v1 v2 : PubAttr G1 G2 Gt, v1.attr = x1 → v2.attr = x2 → (dnf [v1, v2] p.toValue [] 0 none).1 ≠ []) → r = .ok pt) := by
  obtain ⟨d1, d2, d3, d4⟩ := C44_bdabe_defined env
  obtain ⟨pk, msk, t₁, h1⟩ := d1 s
  obtain ⟨a₁, t₂, h2, g1, n1⟩ := d2 pk msk (chars% "aa1") t₁
  obtain ⟨a₂, t₃, h3, g2, n2⟩ := d2 pk msk (chars% "aa2") t₂
  obtain ⟨sk, t₄, h4⟩ := d3 pk (if b then a₁ else a₂) (chars% "u1") t₃
  obtain ⟨⟨p1, e1, v1⟩, k1, e3, v3⟩ := request env pk sk.pk a₁ x1 (by rw [n1]; exact f1)
  obtain ⟨⟨p2, e2, v2⟩, k2, e4, v4⟩ := request env pk sk.pk a₂ x2 (by rw [n2]; exact f2)
  have hsk : sk.skA = [] := by
    simp only [keygen, RM.bind_apply, RM.genFr, RM.pure_apply, Res.ok.injEq, Prod.mk.injEq] at h4
    rw [← h4.1]
  obtain ⟨ct, t₅, h5⟩ := (d4 pk [p1, p2] _ _ p hp pt ha t₄).1 hdn
  have hI : Issued env pk [a₁, a₂] { sk with skA := sk.skA ++ [k1] ++ [k2] } :=
    .request { sk with skA := sk.skA ++ [k1] } a₂ _ k2
      (.request sk a₁ _ k1 (.keygen _ _ _ _ _ (by cases b <;> simp) h4) (by simp) e3) (by simp) e4
  refine ⟨decrypt env one { sk with skA := sk.skA ++ [k1] ++ [k2] } ct, t₅, ?_, ?_, ?_⟩
  · simp only [testTwo, RM.bind_apply, h1, h2, h3, h4, e1, e2, e3, e4, orPanic_ok h5, RM.lift, Res.unwrap, Res.ok_bind, RM.pure_apply]
  · intro hs
    obtain ⟨_, _, _, hpol, _⟩ := encrypt_ok hp h5
    exact C45_bdabe_refuses env one _ ct p (by rw [hpol]; exact hp) (.inl (by simpa [hsk, v3, v4] using hs))
  · intro hs hne
    exact decrypts env one h1 (auths := [a₁, a₂]) (by simp [g1, g2]) (by
      have : a₁.name ≠ a₂.name := by rw [n1, n2]; decide
      simp [this, this.symm]) hI (pks := [p1, p2]) (by
      intro k hk
      simp only [List.mem_cons, List.not_mem_nil, or_false] at hk
      rcases hk with rfl | rfl
      · exact ⟨a₁, by simp, _, e1⟩
      · exact ⟨a₂, by simp, _, e2⟩) hp (by simp [hsk, v1, v2, v3, v4]) (hne _ _ v1 v2) h5 (by simp)
      (by simpa [hsk, v3, v4] using hs)

/-- **C107, the test `or_and` of `bdabe`.** It ends normally, whatever the random numbers, although the public key of `aa2::B` is
missing. -/
theorem C107_bdabe_or_and (env : Env F G1 G2 Gt) (one : G1 × G2) (pt : Bytes) (ha : Accepts env pt) (s : Tape F G1 G2 Gt) :
    ∃ s', testOrAnd env one pt s = .ok ((), s') := by
  obtain ⟨d1, d2, d3, d4⟩ := C44_bdabe_defined env
  obtain ⟨pk, msk, t₁, h1⟩ := d1 s
  obtain ⟨a₁, t₂, h2, g1, n1⟩ := d2 pk msk (chars% "aa1") t₁
  obtain ⟨a₂, t₃, h3, g2, n2⟩ := d2 pk msk (chars% "aa2") t₂
  obtain ⟨a₃, t₄, h4, g3, n3⟩ := d2 pk msk (chars% "aa3") t₃
  obtain ⟨sk, t₅, h5⟩ := d3 pk a₂ (chars% "u1") t₄
  obtain ⟨⟨p1, e1, v1⟩, k1, f1, w1⟩ := request env pk sk.pk a₁ (chars% "aa1::A") (by rw [n1]; decide)
  obtain ⟨⟨p2, e2, v2⟩, k2, f2, w2⟩ := request env pk sk.pk a₂ (chars% "aa2::B") (by rw [n2]; decide)
  obtain ⟨⟨p3, e3, v3⟩, k3, f3, w3⟩ := request env pk sk.pk a₃ (chars% "aa3::C") (by rw [n3]; decide)
  have hsk : sk.skA = [] := by
    simp only [keygen, RM.bind_apply, RM.genFr, RM.pure_apply, Res.ok.injEq, Prod.mk.injEq] at h5
    rw [← h5.1]
  let p : Pol := .gate .or [.gate .and [.leaf (chars% "aa3::C") 68, .leaf (chars% "aa2::B") 88], .leaf (chars% "aa1::X") 110]
  have hp : Denotes (chars% "{\"name\": \"or\", \"children\": [{\"name\": \"and\", \"children\": [{\"name\": \"aa3::C\"}, {\"name\": \"aa2::B\"}]}, {\"name\": \"aa1::X\"}]}")
      .json p := denotes_of_same (by decide +kernel)
  obtain ⟨ct, t₆, h6⟩ := (d4 pk [p1, p3] _ _ p hp pt ha t₅).1 (by simp [Pol.IsDnf, Pol.IsTerm, p])
  have hI : Issued env pk [a₁, a₂, a₃] { sk with skA := sk.skA ++ [k1] ++ [k2] ++ [k3] } :=
    .request { sk with skA := sk.skA ++ [k1] ++ [k2] } a₃ _ k3
      (.request { sk with skA := sk.skA ++ [k1] } a₂ _ k2
        (.request sk a₁ _ k1 (.keygen _ _ _ _ _ (by simp) h5) (by simp) f1) (by simp) f2) (by simp) f3
  have hd := decrypts env one h1 (auths := [a₁, a₂, a₃]) (by simp [g1, g2, g3]) (by
      have m1 : a₁.name ≠ a₂.name := by rw [n1, n2]; decide
      have m2 : a₁.name ≠ a₃.name := by rw [n1, n3]; decide
      have m3 : a₂.name ≠ a₃.name := by rw [n2, n3]; decide
      simp [m1, m1.symm, m2, m2.symm, m3, m3.symm]) hI (pks := [p1, p3]) (by
      intro k hk
      simp only [List.mem_cons, List.not_mem_nil, or_false] at hk
      rcases hk with rfl | rfl
      · exact ⟨a₁, by simp, _, e1⟩
      · exact ⟨a₃, by simp, _, e3⟩) hp (by simp [hsk, v1, v3, w1, w2, w3])
    (by simp [p, Pol.toValue, Pol.toValueL, Op.toType, dnf, dnfOr, dnfAnd, dnfLeafStep, PublicAttributeKey.view, v1, v3]) h6 (by simp)
    (by simp [hsk, w1, w2, w3, p])
  refine ⟨t₆, ?_⟩
  simp only [testOrAnd, RM.bind_apply, h1, h2, h3, h4, h5, e1, e2, e3, f1, f2, f3, orPanic_ok h6, RM.lift, Res.unwrap, Res.ok_bind, hd,
    assertPlain_ok]

/-- **C107, `bdabe`.** The four tests end normally, whatever the random numbers. -/
theorem C107_bdabe_all (env : Env F G1 G2 Gt) (one : G1 × G2) (pt : Bytes) (ha : Accepts env pt) (s : Tape F G1 G2 Gt) :
    (∃ s', testAnd env one pt s = .ok ((), s')) ∧ (∃ s', testOr env one pt s = .ok ((), s')) ∧
      (∃ s', testOrAnd env one pt s = .ok ((), s')) ∧ ∃ s', testNot env one pt s = .ok ((), s') := by
  refine ⟨?_, ?_, C107_bdabe_or_and env one pt ha s, ?_⟩
  · obtain ⟨r, s', h, -, hr⟩ := C107_bdabe_two env one true (chars% "aa1::A") (chars% "aa2::B") _ (by decide) (by decide)
      (.gate .and [.leaf (chars% "aa1::A") 40, .leaf (chars% "aa2::B") 60])
      (denotes_of_same (text := chars% "{\"name\": \"and\", \"children\": [{\"name\": \"aa1::A\"}, {\"name\": \"aa2::B\"}]}")
        (by decide +kernel)) (by simp [Pol.IsDnf]) pt ha s
    obtain rfl := hr (by simp) (by
      intro v1 v2 e1 e2
      simp [Pol.toValue, Pol.toValueL, Op.toType, dnf, dnfAnd, dnfLeafStep, e1, e2])
    exact ⟨s', by simp [testAnd, RM.bind_apply, h, assertPlain_ok]⟩
  · obtain ⟨r, s', h, -, hr⟩ := C107_bdabe_two env one false (chars% "aa1::C") (chars% "aa2::B") _ (by decide) (by decide)
      (.gate .or [.leaf (chars% "aa1::A") 39, .leaf (chars% "aa2::B") 59])
      (denotes_of_same (text := chars% "{\"name\": \"or\", \"children\": [{\"name\": \"aa1::A\"}, {\"name\": \"aa2::B\"}]}")
        (by decide +kernel)) (by simp [Pol.IsDnf, Pol.IsTerm]) pt ha s
    obtain rfl := hr (by simp) (by
      intro v1 v2 e1 e2
      simp [Pol.toValue, Pol.toValueL, Op.toType, dnf, dnfOr, dnfLeafStep, e1, e2])
    exact ⟨s', by simp [testOr, RM.bind_apply, h, assertPlain_ok]⟩
  · obtain ⟨r, s', h, hr, -⟩ := C107_bdabe_two env one false (chars% "aa1::A") (chars% "aa2::B") _ (by decide) (by decide)
      (.gate .or [.leaf (chars% "aa1::B") 39, .leaf (chars% "aa2::A") 59])
      (denotes_of_same (text := chars% "{\"name\": \"or\", \"children\": [{\"name\": \"aa1::B\"}, {\"name\": \"aa2::A\"}]}")
        (by decide +kernel)) (by simp [Pol.IsDnf, Pol.IsTerm]) pt ha s
    obtain rfl := hr (by simp)
    exact ⟨s', by simp [testNot, RM.bind_apply, h, assertErr_err]⟩

/-- The hypothesis holds, also if all random numbers are zero. -/
example : ∃ s', testOrAnd toyEnv (1, 1) [7, 8] zeroTape = .ok ((), s') :=
  (C107_bdabe_all toyEnv (1, 1) [7, 8] (toy_accepts _) zeroTape).2.2.1

end Bdabe

end Rabe
