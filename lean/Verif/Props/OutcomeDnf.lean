import Verif.Props.DnfExact
import Verif.Props.Bdabe
import Verif.Props.Mke08

/-!
# C75: the result of an honest decryption for every accepted policy, BDABE and MKE08
-/

namespace Rabe

variable {F G1 G2 Gt : Type} [Field F] [DecidableEq F] [AddCommGroup G1] [Module F G1]
  [AddCommGroup G2] [Module F G2] [AddCommGroup Gt] [Module F Gt]

/-- A satisfied disjunct with a public key gives a covered piece. -/
theorem spread_satisfied {p : Pol} (hd : p.IsDnf) {A ps : List Str}
    (h : ∃ c ∈ p.disjuncts, c.sat A = true ∧ ∃ n ∈ c.names, n ∈ ps) :
    ∃ q ∈ spread (p.disjuncts.map (keyed ps)) 0 0, ∀ n ∈ q, n ∈ A := by
  obtain ⟨c, hc, hs, n, hn, hk⟩ := h
  obtain ⟨q, hq, hx⟩ := spread_covers _ 0 0 (keyed ps c) (List.mem_map.2 ⟨c, hc, rfl⟩)
    (List.ne_nil_of_mem (mem_keyed.2 ⟨hn, hk⟩))
  exact ⟨q, hq, fun m hm => ((hd.terms c hc).sat_iff A).1 hs m (mem_keyed.1 (hx m hm)).1⟩

namespace Bdabe

/-- **C75, BDABE.** Any set-up, authorities with different names, any history of key requests, any public keys (missing or
repeated), any accepted policy text that can be encrypted under: decryption returns an error if the attributes do not satisfy
the policy or the key has none; the plaintext if the attributes contain a piece of the policy; and otherwise opens the
payload with the neutral element. -/
theorem C75_bdabe_outcome (env : Env F G1 G2 Gt) (one : G1 × G2)
    (t₁ t₁' : Tape F G1 G2 Gt) (pk : PublicKey G1 G2 Gt) (msk : MasterKey F)
    (hsetup : setup env t₁ = .ok ((pk, msk), t₁'))
    (auths : List (SecretAuthorityKey F G1 G2)) (hgen : ∀ a ∈ auths, Genuine pk msk a)
    (hinj : ∀ a ∈ auths, ∀ b ∈ auths, a.name = b.name → a = b)
    (sk : UserKey G1 G2) (hsk : Issued env pk auths sk)
    (pks : List (PublicAttributeKey G1 G2 Gt)) (hpks : Requested env pk auths pks)
    (text : Str) (lang : PolicyLanguage) (p : Pol) (hp : Denotes text lang p)
    (plaintext : Bytes) (t₂ t₂' : Tape F G1 G2 Gt) (ct : Ciphertext G1 G2 Gt)
    (henc : encrypt env pk pks text lang plaintext t₂ = .ok (ct, t₂')) :
    (p.sat (sk.skA.map (·.attr)) = false ∨ sk.skA = [] → decrypt env one sk ct = .err) ∧
    (p.sat (sk.skA.map (·.attr)) = true → sk.skA ≠ [] →
      ((∃ q ∈ spread (p.disjuncts.map (keyed (pks.map (·.attr)))) 0 0, ∀ n ∈ q, n ∈ sk.skA.map (·.attr)) →
        decrypt env one sk ct = .ok plaintext) ∧
      ((¬ ∃ q ∈ spread (p.disjuncts.map (keyed (pks.map (·.attr)))) 0 0, ∀ n ∈ q, n ∈ sk.skA.map (·.attr)) →
        decrypt env one sk ct = decryptSymmetric env 0 ct.ct)) := by
  obtain ⟨terms, msg, hterms, hpol, hd, _, hj⟩ := encrypt_ok hp henc
  have hc := encrypt_ctOk (setup_ok hsetup) hinj hpks hterms hp hj
  have hpol' : parse ct.policy.1 ct.policy.2 = .ok p.toValue := by rw [hpol]; exact hp
  refine ⟨C45_bdabe_refuses env one sk ct p hpol', fun hs hne => ?_⟩
  have h := decrypt_eq hc (issued_ok hgen hinj hsk) one hpol' hne hs
  rw [covers_j hj, C19_dnf_covers text lang p hp _ terms hterms, hd, List.map_map] at h
  exact h

/-- **C75, BDABE, correctness.** Stronger than C44: it is enough that one satisfied disjunct has one public key. -/
theorem C75_bdabe_correct (env : Env F G1 G2 Gt) (one : G1 × G2)
    (t₁ t₁' : Tape F G1 G2 Gt) (pk : PublicKey G1 G2 Gt) (msk : MasterKey F)
    (hsetup : setup env t₁ = .ok ((pk, msk), t₁'))
    (auths : List (SecretAuthorityKey F G1 G2)) (hgen : ∀ a ∈ auths, Genuine pk msk a)
    (hinj : ∀ a ∈ auths, ∀ b ∈ auths, a.name = b.name → a = b)
    (sk : UserKey G1 G2) (hsk : Issued env pk auths sk)
    (pks : List (PublicAttributeKey G1 G2 Gt)) (hpks : Requested env pk auths pks)
    (text : Str) (lang : PolicyLanguage) (p : Pol) (hp : Denotes text lang p)
    (plaintext : Bytes) (t₂ t₂' : Tape F G1 G2 Gt) (ct : Ciphertext G1 G2 Gt)
    (henc : encrypt env pk pks text lang plaintext t₂ = .ok (ct, t₂'))
    (hsat : ∃ c ∈ p.disjuncts, c.sat (sk.skA.map (·.attr)) = true ∧ ∃ n ∈ c.names, n ∈ pks.map (·.attr)) :
    decrypt env one sk ct = .ok plaintext := by
  obtain ⟨terms, _, hterms, _⟩ := encrypt_ok hp henc
  have hd := (jsonToDnf_ok hterms).1
  obtain ⟨c, hc, hs, n, hn, hk⟩ := hsat
  have hne : sk.skA ≠ [] := by
    intro h
    have := ((hd.terms c hc).sat_iff _).1 hs n hn
    rw [h] at this
    simp at this
  have hps : p.sat (sk.skA.map (·.attr)) = true := by
    rw [Pol.sat_disjuncts]
    exact List.any_eq_true.2 ⟨c, hc, hs⟩
  exact ((C75_bdabe_outcome env one t₁ t₁' pk msk hsetup auths hgen hinj sk hsk pks hpks text lang p hp plaintext t₂ t₂' ct
    henc).2 hps hne).1 (spread_satisfied hd ⟨c, hc, hs, n, hn, hk⟩)

/-- A policy with three names and a public key for only one of them: a user with the last two names decrypts. -/
example : ∃ (p : Pol) (pk : PublicKey Fr Fr Fr) (msk : MasterKey Fr)
    (a b : SecretAuthorityKey Fr Fr Fr) (sk : UserKey Fr Fr)
    (pks : List (PublicAttributeKey Fr Fr Fr)) (ct : Ciphertext Fr Fr Fr) (t₁ t₂ : Tape Fr Fr Fr Fr),
    setup toyEnv toyTape = .ok ((pk, msk), t₁) ∧ Issued toyEnv pk [a, b] sk ∧
    Requested toyEnv pk [a, b] pks ∧ pks.map (·.attr) = [chars% "A::b"] ∧
    Denotes (chars% "\"A::a\" or (\"A::b\" and \"B::c\")") .human p ∧
    encrypt toyEnv pk pks (chars% "\"A::a\" or (\"A::b\" and \"B::c\")") .human [1, 2, 3] toyTape = .ok (ct, t₂) ∧
    sk.skA.map (·.attr) = [chars% "A::b", chars% "B::c"] ∧ decrypt toyEnv (1, 1) sk ct = .ok [1, 2, 3] := by
  have h : toyRun ['A'] ['B'] [chars% "A::b"] [] [chars% "A::b"] [chars% "B::c"]
      (chars% "\"A::a\" or (\"A::b\" and \"B::c\")") .human
      ((chars% "\"A::a\" or (\"A::b\" and \"B::c\")"), .human) [1, 2, 3] = .ok (.ok [1, 2, 3]) := by
    decide +kernel
  obtain ⟨pk, msk, a, b, sk, pks, ct, t1, t2, h1, h2, h3, h4, h5, h6, _⟩ := toyRun_ok h
  have hp : Denotes (chars% "\"A::a\" or (\"A::b\" and \"B::c\")") .human
      (.gate .or [.leaf (chars% "A::a") 2, .gate .and [.leaf (chars% "A::b") 13, .leaf (chars% "B::c") 24]]) := by
    with_unfolding_all rfl
  have hne : a.name ≠ b.name := by rw [h2.2, h3.2]; decide
  have i : ∀ x ∈ [a, b], ∀ y ∈ [a, b], x.name = y.name → x = y := by
    simp [hne, hne.symm]
  have g : ∀ x ∈ [a, b], Genuine pk msk x := by simp [h2.1, h3.1]
  refine ⟨_, pk, msk, a, b, sk, pks, ct, t1, t2, h1, h5.1, h4.1, h4.2, hp, h6, h5.2,
    C75_bdabe_correct toyEnv (1, 1) _ _ pk msk h1 [a, b] g i sk h5.1 pks h4.1 _ _ _ hp _ _ _ ct h6
      ⟨.gate .and [.leaf (chars% "A::b") 13, .leaf (chars% "B::c") 24], by simp [Pol.disjuncts], ?_, chars% "A::b", ?_⟩⟩
  · rw [h5.2]; decide
  · rw [h4.2]; decide

end Bdabe

namespace Mke08

/-- **C75, MKE08.** As `Bdabe.C75_bdabe_outcome`. -/
theorem C75_mke08_outcome (env : Env F G1 G2 Gt) (one : G1 × G2)
    (t₁ t₁' : Tape F G1 G2 Gt) (pk : PublicKey G1 G2 Gt) (msk : MasterKey G1 G2)
    (hsetup : setup env t₁ = .ok ((pk, msk), t₁'))
    (auths : List (SecretAuthorityKey F))
    (hinj : ∀ a ∈ auths, ∀ b ∈ auths, a.name = b.name → a = b)
    (sk : UserKey G1 G2) (hsk : Issued env pk msk auths sk)
    (pks : List (PublicAttributeKey G1 G2 Gt)) (hpks : Requested env pk auths pks)
    (text : Str) (lang : PolicyLanguage) (p : Pol) (hp : Denotes text lang p)
    (plaintext : Bytes) (t₂ t₂' : Tape F G1 G2 Gt) (ct : Ciphertext G1 G2 Gt)
    (henc : encrypt env pk pks text lang plaintext t₂ = .ok (ct, t₂')) :
    (p.sat (sk.skA.map (·.attr)) = false ∨ sk.skA = [] → decrypt env one sk ct = .err) ∧
    (p.sat (sk.skA.map (·.attr)) = true → sk.skA ≠ [] →
      ((∃ q ∈ spread (p.disjuncts.map (keyed (pks.map (·.attr)))) 0 0, ∀ n ∈ q, n ∈ sk.skA.map (·.attr)) →
        decrypt env one sk ct = .ok plaintext) ∧
      ((¬ ∃ q ∈ spread (p.disjuncts.map (keyed (pks.map (·.attr)))) 0 0, ∀ n ∈ q, n ∈ sk.skA.map (·.attr)) →
        decrypt env one sk ct = decryptSymmetric env 0 ct.ct)) := by
  obtain ⟨y1, y2, hs⟩ := setup_ok hsetup
  obtain ⟨terms, msg1, msg2, hterms, hpol, hd, hj⟩ := encrypt_ok hp henc
  have hc := encrypt_ctOk hs hinj hpks hterms hp hj
  have hpol' : parse ct.policy.1 ct.policy.2 = .ok p.toValue := by rw [hpol]; exact hp
  refine ⟨C47_mke08_refuses env one sk ct p hpol', fun hs' hne => ?_⟩
  have h := decrypt_eq hc (issued_ok hs hinj hsk) one hpol' hne hs'
  rw [covers_e hj, C19_dnf_covers text lang p hp _ terms hterms, hd, List.map_map] at h
  exact h

/-- **C75, MKE08, correctness.** Stronger than C46: it is enough that one satisfied disjunct has one public key. -/
theorem C75_mke08_correct (env : Env F G1 G2 Gt) (one : G1 × G2)
    (t₁ t₁' : Tape F G1 G2 Gt) (pk : PublicKey G1 G2 Gt) (msk : MasterKey G1 G2)
    (hsetup : setup env t₁ = .ok ((pk, msk), t₁'))
    (auths : List (SecretAuthorityKey F))
    (hinj : ∀ a ∈ auths, ∀ b ∈ auths, a.name = b.name → a = b)
    (sk : UserKey G1 G2) (hsk : Issued env pk msk auths sk)
    (pks : List (PublicAttributeKey G1 G2 Gt)) (hpks : Requested env pk auths pks)
    (text : Str) (lang : PolicyLanguage) (p : Pol) (hp : Denotes text lang p)
    (plaintext : Bytes) (t₂ t₂' : Tape F G1 G2 Gt) (ct : Ciphertext G1 G2 Gt)
    (henc : encrypt env pk pks text lang plaintext t₂ = .ok (ct, t₂'))
    (hsat : ∃ c ∈ p.disjuncts, c.sat (sk.skA.map (·.attr)) = true ∧ ∃ n ∈ c.names, n ∈ pks.map (·.attr)) :
    decrypt env one sk ct = .ok plaintext := by
  obtain ⟨terms, _, _, hterms, _⟩ := encrypt_ok hp henc
  have hd := (jsonToDnf_ok hterms).1
  obtain ⟨c, hc, hs, n, hn, hk⟩ := hsat
  have hne : sk.skA ≠ [] := by
    intro h
    have := ((hd.terms c hc).sat_iff _).1 hs n hn
    rw [h] at this
    simp at this
  have hps : p.sat (sk.skA.map (·.attr)) = true := by
    rw [Pol.sat_disjuncts]
    exact List.any_eq_true.2 ⟨c, hc, hs⟩
  exact ((C75_mke08_outcome env one t₁ t₁' pk msk hsetup auths hinj sk hsk pks hpks text lang p hp plaintext t₂ t₂' ct
    henc).2 hps hne).1 (spread_satisfied hd ⟨c, hc, hs, n, hn, hk⟩)

/-- A policy with three names and a public key for only one of them: a user with the last two names decrypts. -/
example : ∃ (p : Pol) (pk : PublicKey Fr Fr Fr) (msk : MasterKey Fr Fr)
    (a b : SecretAuthorityKey Fr) (sk : UserKey Fr Fr)
    (pks : List (PublicAttributeKey Fr Fr Fr)) (ct : Ciphertext Fr Fr Fr) (t₁ t₂ : Tape Fr Fr Fr Fr),
    setup toyEnv toyTape = .ok ((pk, msk), t₁) ∧ Issued toyEnv pk msk [a, b] sk ∧
    Requested toyEnv pk [a, b] pks ∧ pks.map (·.attr) = [chars% "A::b"] ∧
    Denotes (chars% "\"A::a\" or (\"A::b\" and \"B::c\")") .human p ∧
    encrypt toyEnv pk pks (chars% "\"A::a\" or (\"A::b\" and \"B::c\")") .human [1, 2, 3] toyTape = .ok (ct, t₂) ∧
    sk.skA.map (·.attr) = [chars% "A::b", chars% "B::c"] ∧ decrypt toyEnv (1, 1) sk ct = .ok [1, 2, 3] := by
  have h : toyRun ['A'] ['B'] [chars% "A::b"] [] [chars% "A::b"] [chars% "B::c"]
      (chars% "\"A::a\" or (\"A::b\" and \"B::c\")") .human
      ((chars% "\"A::a\" or (\"A::b\" and \"B::c\")"), .human) [1, 2, 3] = .ok (.ok [1, 2, 3]) := by
    decide +kernel
  obtain ⟨pk, msk, a, b, sk, pks, ct, t1, t2, h1, h2, h3, h4, h5, h6, _⟩ := toyRun_ok h
  have hp : Denotes (chars% "\"A::a\" or (\"A::b\" and \"B::c\")") .human
      (.gate .or [.leaf (chars% "A::a") 2, .gate .and [.leaf (chars% "A::b") 13, .leaf (chars% "B::c") 24]]) := by
    with_unfolding_all rfl
  have hne : a.name ≠ b.name := by rw [h2.2, h3.2]; decide
  have i : ∀ x ∈ [a, b], ∀ y ∈ [a, b], x.name = y.name → x = y := by
    simp [hne, hne.symm]
  refine ⟨_, pk, msk, a, b, sk, pks, ct, t1, t2, h1, h5.1, h4.1, h4.2, hp, h6, h5.2,
    C75_mke08_correct toyEnv (1, 1) _ _ pk msk h1 [a, b] i sk h5.1 pks h4.1 _ _ _ hp _ _ _ ct h6
      ⟨.gate .and [.leaf (chars% "A::b") 13, .leaf (chars% "B::c") 24], by simp [Pol.disjuncts], ?_, chars% "A::b", ?_⟩⟩
  · rw [h5.2]; decide
  · rw [h4.2]; decide

end Mke08
end Rabe
