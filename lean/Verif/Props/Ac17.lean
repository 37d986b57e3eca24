import Verif.Proof.Ac17
import Verif.Props.Parser
import Verif.Instance.Bn

/-!
# C30–C33, C50: AC17
-/

set_option linter.unusedSectionVars false
set_option linter.unnecessarySeqFocus false

namespace Rabe
namespace Ac17

variable {F G1 G2 Gt : Type} [Field F] [DecidableEq F] [AddCommGroup G1] [Module F G1]
  [AddCommGroup G2] [Module F G2] [AddCommGroup Gt] [Module F Gt]

/-- Every attribute that is both in the policy and in the list occurs exactly once in each. -/
def Once (p : Pol) (attrs : List Str) : Prop :=
  ∀ n ∈ p.names, n ∈ attrs → p.names.count n = 1 ∧ attrs.count n = 1

theorem Once.pick {p : Pol} {attrs : List Str} (h : Once p attrs) :
    ∀ l ∈ pick attrs p, p.names.count l.1 = 1 ∧ attrs.count l.1 = 1 := fun l hl =>
  h l.1 (List.mem_map.2 ⟨l, (pick_sublist attrs p).subset hl, rfl⟩) (pick_owned attrs p l hl)

/-! ## CP-ABE -/

/-- **C30, partial.** Any set-up, any issued key, any encryption under a regular policy whose AND gates have two
children: if the key's attributes satisfy the policy and no common attribute is repeated, decryption returns the
plaintext. (Full claim: without `Once`; false, see `C30_violated_policy`, `C30_violated_key`. Other arities cannot be
encrypted for, see C18.) -/
theorem C30_ac17_cp_correct_partial (env : Env F G1 G2 Gt)
    (t₁ t₁' : Tape F G1 G2 Gt) (pk : PublicKey G1 G2 Gt) (msk : MasterKey F G1 G2)
    (hsetup : setup env t₁ = .ok ((pk, msk), t₁'))
    (attrs : List Str) (t₂ t₂' : Tape F G1 G2 Gt) (sk : CpSecretKey G1 G2)
    (hkey : cpKeygen env msk attrs t₂ = .ok (sk, t₂'))
    (text : Str) (lang : PolicyLanguage) (p : Pol) (hreg : Regular text lang p)
    (plaintext : Bytes) (t₃ t₃' : Tape F G1 G2 Gt) (ct : CpCiphertext G1 G2 Gt)
    (henc : cpEncrypt env pk text plaintext lang t₃ = .ok (ct, t₃'))
    (hsat : p.sat attrs = true) (honce : Once p attrs) :
    cpDecrypt env sk ct = .ok plaintext := by
  obtain ⟨P, hs⟩ := setup_ok hsetup
  obtain ⟨hne, r0, r1, σ, hk⟩ := cpKeygen_ok hs hkey
  have hb : p.Binary := by
    by_contra hb
    have h1 := lw_panic p hb ⟨[], [], 1⟩ [1] none (Nat.le_refl 1)
    have h2 : calculateMsp p.toValue = .panic := by simp [calculateMsp, h1]
    have h3 : parse text lang = .ok p.toValue := hreg.denotes
    simp [cpEncrypt, h3, h2] at henc
  obtain ⟨msp, row, hm, hM⟩ := msp_exists hb hreg.labels
  obtain ⟨hpol, msg, s0, s1, hc, hcc, hd⟩ := cpEncrypt_ok hs hreg.denotes hm hM henc
  have hp : parse ct.policy.1 ct.policy.2 = .ok p.toValue := by rw [hpol]; exact hreg.denotes
  rw [cpDecrypt, cpRecover_from hp, cpFrom_ok hk hb hM hc hcc hne hsat honce.pick]
  exact hd

/-- Set-up always succeeds; key generation succeeds for every non-empty attribute list unless one of two random scalars
of the set-up is zero; encryption succeeds for every policy whose AND gates have two children. -/
theorem C30_ac17_cp_defined (env : Env F G1 G2 Gt) :
    (∀ t : Tape F G1 G2 Gt, ∃ pk msk t', setup env t = .ok ((pk, msk), t')) ∧
    (∀ (t t' : Tape F G1 G2 Gt) pk msk, setup env t = .ok ((pk, msk), t') → t.fr 0 ≠ 0 → t.fr 2 ≠ 0 →
      ∀ (attrs : List Str), attrs ≠ [] → ∀ s, ∃ sk s', cpKeygen env msk attrs s = .ok (sk, s')) ∧
    (∀ (t t' : Tape F G1 G2 Gt) pk msk, setup env t = .ok ((pk, msk), t') →
      ∀ text lang p, Denotes text lang p → p.Binary → ∀ (plaintext : Bytes),
      (∀ k n, (env.aeadEnc k n plaintext).isSome = true) →
      ∀ s, ∃ ct s', cpEncrypt env pk text plaintext lang s = .ok (ct, s')) := by
  refine ⟨?_, ?_, ?_⟩
  · intro t
    simp only [setup, RM.bind_apply, RM.genG1, RM.genG2, RM.genFr, RM.pure_apply, Res.ok.injEq, Prod.mk.injEq]
    exact ⟨_, _, _, ⟨rfl, rfl⟩, rfl⟩
  · intro t t' pk msk h h0 h2 attrs hne s
    have ha : msk.a = [t.fr 0, t.fr 2] ∧ ∃ b0 b1, msk.b = [b0, b1] ∧ ∃ k0 k1 k2, msk.gK = [k0, k1, k2] := by
      simp only [setup, RM.bind_ok, RM.genG1, RM.genG2, RM.genFr, RM.pure_ok, Res.ok.injEq, Prod.mk.injEq] at h
      obtain ⟨g1, t1, ⟨rfl, rfl⟩, g2, t2, ⟨rfl, rfl⟩, a0, t3, ⟨rfl, rfl⟩, b0, t4, ⟨rfl, rfl⟩, a1, t5, ⟨rfl, rfl⟩,
        b1, t6, ⟨rfl, rfl⟩, k0, t7, ⟨rfl, rfl⟩, k1, t8, ⟨rfl, rfl⟩, k2, t9, ⟨rfl, rfl⟩, ⟨rfl, rfl⟩, _⟩ := h
      exact ⟨rfl, _, _, rfl, _, _, _, rfl⟩
    obtain ⟨ha, b0, b1, hb, k0, k1, k2, hK⟩ := ha
    have hne' : attrs.isEmpty = false := by cases attrs <;> simp_all
    obtain ⟨k, s', hk⟩ := RM.mapL_total
      (f := cpKeygenAttr env msk [b0 * s.fr 0, b1 * dropS 1 s.fr 0, s.fr 0 + dropS 1 s.fr 0]) (xs := attrs) (by
        intro x _ u
        simp [cpKeygenAttr, RM.genFr, Res.mapR, Res.rbind_eq, aInverse, Res.index, ha, inv, h0, h2])
      { s with fr := dropS 1 (dropS 1 s.fr) }
    simp [cpKeygen, hne', RM.genFr, brVec, Res.index, hb, hk, Res.mapR, Res.rbind_eq, aInverse, ha, inv, h0, h2, hK]
  · intro t t' pk msk h text lang p hp hbin plaintext haead s
    obtain ⟨P, hs⟩ := setup_ok h
    have hp' : parse text lang = .ok p.toValue := hp
    obtain ⟨msp, R, hm, hc, hR, hRl, hperm, _, hmR, _⟩ := calculateMsp_eq p hbin
    have hlen : R.length = p.leaves.length := by
      have := congrArg List.length hR
      rwa [List.length_map, mrows_length p hbin] at this
    obtain ⟨r, rs, hmm⟩ : ∃ r rs, msp.m = r :: rs := by
      cases hmm : msp.m with
      | nil =>
        have := hmR.length_eq
        rw [hmm, hlen] at this
        exact absurd (List.length_eq_zero_iff.1 this.symm) (leaves_ne_nil hbin.wide)
      | cons r rs => exact ⟨r, rs, rfl⟩
    obtain ⟨c, hc⟩ := Option.isSome_iff_exists.1 (haead (env.kdf (s.gt 0)) ((List.range 12).map s.byte))
    simp [cpEncrypt, hp', hm, hmm, Res.index, RM.genFr, c0Vec_eq hs, cPrime_eq hs, RM.genGt, encryptSymmetric,
      RM.genBytes, hc]

/-- **C30 is violated, repeated attribute in the policy.** For `"A" or "A"` an issued key for `A` does not decrypt
(concrete environment, all random numbers equal to one). -/
theorem C30_violated_policy : ∃ (p : Pol) (pk : PublicKey Fr Fr Fr) (msk : MasterKey Fr Fr Fr)
    (sk : CpSecretKey Fr Fr) (ct : CpCiphertext Fr Fr Fr) (t₁ t₂ t₃ : Tape Fr Fr Fr Fr),
    Regular (chars% "\"A\" or \"A\"") .human p ∧ p.sat [['A']] = true ∧
    setup toyEnv toyTape = .ok ((pk, msk), t₁) ∧
    cpKeygen toyEnv msk [['A']] toyTape = .ok (sk, t₂) ∧
    cpEncrypt toyEnv pk (chars% "\"A\" or \"A\"") [7] .human toyTape = .ok (ct, t₃) ∧
    cpDecrypt toyEnv sk ct = .err := by
  have h : (do
    let x ← setup toyEnv toyTape
    let y ← cpKeygen toyEnv x.1.2 [['A']] toyTape
    let z ← cpEncrypt toyEnv x.1.1 (chars% "\"A\" or \"A\"") [7] .human toyTape
    .ok (cpDecrypt toyEnv y.1 z.1) : Res (Res Bytes)) = .ok .err := by decide +kernel
  simp only [Res.bind_eq_ok, Res.ok.injEq] at h
  obtain ⟨⟨⟨pk, msk⟩, t1⟩, h1, ⟨sk, t2⟩, h2, ⟨ct, t3⟩, h3, h4⟩ := h
  exact ⟨.gate .or [.leaf ['A'] 2, .leaf ['A'] 9], pk, msk, sk, ct, t1, t2, t3,
    ⟨rfl, by simp, by simp [Pol.Wide], by simp⟩, by simp, h1, h2, h3, h4⟩

/-- **C30 is violated, repeated attribute in the key.** For the policy `"A"` an issued key for `A`, `A` does not
decrypt. -/
theorem C30_violated_key : ∃ (p : Pol) (pk : PublicKey Fr Fr Fr) (msk : MasterKey Fr Fr Fr)
    (sk : CpSecretKey Fr Fr) (ct : CpCiphertext Fr Fr Fr) (t₁ t₂ t₃ : Tape Fr Fr Fr Fr),
    Regular (chars% "\"A\"") .human p ∧ p.sat [['A'], ['A']] = true ∧
    setup toyEnv toyTape = .ok ((pk, msk), t₁) ∧
    cpKeygen toyEnv msk [['A'], ['A']] toyTape = .ok (sk, t₂) ∧
    cpEncrypt toyEnv pk (chars% "\"A\"") [7] .human toyTape = .ok (ct, t₃) ∧
    cpDecrypt toyEnv sk ct = .err := by
  have h : (do
    let x ← setup toyEnv toyTape
    let y ← cpKeygen toyEnv x.1.2 [['A'], ['A']] toyTape
    let z ← cpEncrypt toyEnv x.1.1 (chars% "\"A\"") [7] .human toyTape
    .ok (cpDecrypt toyEnv y.1 z.1) : Res (Res Bytes)) = .ok .err := by decide +kernel
  simp only [Res.bind_eq_ok, Res.ok.injEq] at h
  obtain ⟨⟨⟨pk, msk⟩, t1⟩, h1, ⟨sk, t2⟩, h2, ⟨ct, t3⟩, h3, h4⟩ := h
  exact ⟨.leaf ['A'] 2, pk, msk, sk, ct, t1, t2, t3,
    ⟨rfl, by simp, by simp [Pol.Wide], by simp⟩, by simp, h1, h2, h3, h4⟩

/-- A run of the concrete environment meeting all hypotheses of `C30_ac17_cp_correct_partial`, for a nested policy. -/
example : ∃ (p : Pol) (pk : PublicKey Fr Fr Fr) (msk : MasterKey Fr Fr Fr) (sk : CpSecretKey Fr Fr)
    (ct : CpCiphertext Fr Fr Fr) (t₁ t₂ t₃ : Tape Fr Fr Fr Fr),
    setup toyEnv toyTape = .ok ((pk, msk), t₁) ∧
    cpKeygen toyEnv msk [['D'], ['A'], ['B']] toyTape = .ok (sk, t₂) ∧
    Regular (chars% "(\"A\" and (\"B\" and \"D\")) or (\"E\" and \"C\")") .human p ∧
    cpEncrypt toyEnv pk (chars% "(\"A\" and (\"B\" and \"D\")) or (\"E\" and \"C\")") [1, 2] .human toyTape =
      .ok (ct, t₃) ∧
    p.sat [['D'], ['A'], ['B']] = true ∧ Once p [['D'], ['A'], ['B']] ∧ cpDecrypt toyEnv sk ct = .ok [1, 2] := by
  obtain ⟨d1, d2, d3⟩ := C30_ac17_cp_defined toyEnv
  obtain ⟨pk, msk, t₁, h1⟩ := d1 toyTape
  obtain ⟨sk, t₂, h2⟩ := d2 _ _ _ _ h1 (by simp [toyTape]) (by simp [toyTape]) [['D'], ['A'], ['B']] (by simp) toyTape
  let p : Pol := .gate .or [.gate .and [.leaf ['A'] 3, .gate .and [.leaf ['B'] 12, .leaf ['D'] 20]],
    .gate .and [.leaf ['E'] 30, .leaf ['C'] 38]]
  have hr : Regular (chars% "(\"A\" and (\"B\" and \"D\")) or (\"E\" and \"C\")") .human p :=
    ⟨rfl, by simp, by simp [Pol.Wide, p], by simp [p]⟩
  have hs : p.sat [['D'], ['A'], ['B']] = true := by simp [p]
  have ho : Once p [['D'], ['A'], ['B']] := by simp [Once, Pol.names, p]
  obtain ⟨ct, t₃, h3⟩ := d3 _ _ _ _ h1 _ _ p hr.denotes (by simp [Pol.Binary, p]) [1, 2] (by simp [toyEnv]) toyTape
  exact ⟨p, pk, msk, sk, ct, t₁, t₂, t₃, h1, h2, hr, h3, hs, ho,
    C30_ac17_cp_correct_partial toyEnv _ _ pk msk h1 _ _ _ sk h2 _ _ p hr _ _ _ ct h3 hs ho⟩

/-- **C31.** Whatever the group elements of key and ciphertext are: if the attributes of the key do not satisfy the
policy stored in the ciphertext, `cp_decrypt` returns an error. -/
theorem C31_ac17_cp_refuses (env : Env F G1 G2 Gt) (sk : CpSecretKey G1 G2) (ct : CpCiphertext G1 G2 Gt) (p : Pol)
    (hp : Denotes ct.policy.1 ct.policy.2 p) (h : p.sat sk.attr = false ∨ sk.attr = []) :
    cpDecrypt env sk ct = .err := by
  have hp' : parse ct.policy.1 ct.policy.2 = .ok p.toValue := hp
  have ht : traversePolicy sk.attr p.toValue .leaf = false := by
    by_cases he : sk.attr = []
    · rw [he, traverse_nil]
    · rw [traverse_eq_sat _ he]
      exact h.resolve_right he
  simp only [cpDecrypt, cpRecover, hp', Res.ok_bind, ht, if_true, Res.err_bind]

/-- Contrapositive of **C31**, for every stored policy text. -/
theorem C31_ac17_cp_decrypts_only_if_satisfied (env : Env F G1 G2 Gt) (sk : CpSecretKey G1 G2)
    (ct : CpCiphertext G1 G2 Gt) (data : Bytes) (h : cpDecrypt env sk ct = .ok data) :
    ∃ p, Denotes ct.policy.1 ct.policy.2 p ∧ p.sat sk.attr = true ∧ sk.attr ≠ [] := by
  have h' := h
  simp only [cpDecrypt, cpRecover, Res.bind_eq_ok] at h'
  obtain ⟨_, ⟨v, hv, _⟩, _⟩ := h'
  obtain ⟨p, rfl, _⟩ := parse_ok hv
  refine ⟨p, hv, ?_, ?_⟩
  · by_contra hc
    rw [C31_ac17_cp_refuses env sk ct p hv (Or.inl (by simpa using hc))] at h
    simp at h
  · intro hc
    rw [C31_ac17_cp_refuses env sk ct p hv (Or.inr hc)] at h
    simp at h

/-- A key owning one of two needed attributes. -/
example (k : SecretKey Fr Fr) : let sk : CpSecretKey Fr Fr := ⟨[['A'], ['C']], k⟩
    ∃ p, Denotes (chars% "\"A\" and \"B\"") .human p ∧ p.sat sk.attr = false :=
  ⟨.gate .and [.leaf ['A'] 2, .leaf ['B'] 10], rfl, by simp⟩

/-! ## KP-ABE -/

/-- **C32, partial.** Any set-up, any key issued for a regular policy, any encryption for attributes satisfying the
policy, no common attribute repeated: decryption returns the plaintext. (Full claim: without `Once`; false, see
`C32_violated_policy`, `C32_violated_ciphertext`.) -/
theorem C32_ac17_kp_correct_partial (env : Env F G1 G2 Gt)
    (t₁ t₁' : Tape F G1 G2 Gt) (pk : PublicKey G1 G2 Gt) (msk : MasterKey F G1 G2)
    (hsetup : setup env t₁ = .ok ((pk, msk), t₁'))
    (text : Str) (lang : PolicyLanguage) (p : Pol) (hreg : Regular text lang p)
    (t₂ t₂' : Tape F G1 G2 Gt) (sk : KpSecretKey G1 G2)
    (hkey : kpKeygen env msk text lang t₂ = .ok (sk, t₂'))
    (attrs : List Str) (plaintext : Bytes) (t₃ t₃' : Tape F G1 G2 Gt) (ct : KpCiphertext G1 G2 Gt)
    (henc : kpEncrypt env pk attrs plaintext t₃ = .ok (ct, t₃'))
    (hsat : p.sat attrs = true) (honce : Once p attrs) :
    kpDecrypt env sk ct = .ok plaintext := by
  obtain ⟨P, hs⟩ := setup_ok hsetup
  have hb : p.Binary := by
    by_contra hb
    have h1 := lw_panic p hb ⟨[], [], 1⟩ [1] none (Nat.le_refl 1)
    have h2 : calculateMsp p.toValue = .panic := by simp [calculateMsp, h1]
    have h3 : parse text lang = .ok p.toValue := hreg.denotes
    simp [kpKeygen, h3, h2] at hkey
  obtain ⟨msp, row, hm, hM⟩ := msp_exists hb hreg.labels
  obtain ⟨hpol, r0, r1, sigmaP, hk⟩ := kpKeygen_ok hs hreg.denotes hm hM hreg.labels hb hkey
  have hp : parse sk.policy.1 sk.policy.2 = .ok p.toValue := by rw [hpol]; exact hreg.denotes
  obtain ⟨ha, msg, s0, s1, hc, hcc, hd⟩ := kpEncrypt_ok hs henc
  subst ha
  rw [kpDecrypt, kpRecover_from hp, kpFrom_ok hb hM hk hc hcc hsat honce.pick]
  exact hd

/-- Key generation succeeds for every policy whose AND gates have two children, unless one of two random scalars of the
set-up is zero; encryption succeeds for every attribute list. -/
theorem C32_ac17_kp_defined (env : Env F G1 G2 Gt) :
    (∀ (t t' : Tape F G1 G2 Gt) pk msk, setup env t = .ok ((pk, msk), t') → t.fr 0 ≠ 0 → t.fr 2 ≠ 0 →
      ∀ text lang p, Denotes text lang p → p.Binary → ∀ s, ∃ sk s', kpKeygen env msk text lang s = .ok (sk, s')) ∧
    (∀ (t t' : Tape F G1 G2 Gt) pk msk, setup env t = .ok ((pk, msk), t') →
      ∀ (attrs : List Str) (plaintext : Bytes), (∀ k n, (env.aeadEnc k n plaintext).isSome = true) →
      ∀ s, ∃ ct s', kpEncrypt env pk attrs plaintext s = .ok (ct, s')) := by
  refine ⟨?_, ?_⟩
  · intro t t' pk msk h h0 h2 text lang p hp hbin s
    have ha : msk.a = [t.fr 0, t.fr 2] ∧ ∃ b0 b1, msk.b = [b0, b1] ∧ ∃ k0 k1 k2, msk.gK = [k0, k1, k2] := by
      simp only [setup, RM.bind_ok, RM.genG1, RM.genG2, RM.genFr, RM.pure_ok, Res.ok.injEq, Prod.mk.injEq] at h
      obtain ⟨g1, t1, ⟨rfl, rfl⟩, g2, t2, ⟨rfl, rfl⟩, a0, t3, ⟨rfl, rfl⟩, b0, t4, ⟨rfl, rfl⟩, a1, t5, ⟨rfl, rfl⟩,
        b1, t6, ⟨rfl, rfl⟩, k0, t7, ⟨rfl, rfl⟩, k1, t8, ⟨rfl, rfl⟩, k2, t9, ⟨rfl, rfl⟩, ⟨rfl, rfl⟩, _⟩ := h
      exact ⟨rfl, _, _, rfl, _, _, _, rfl⟩
    obtain ⟨ha, b0, b1, hb, k0, k1, k2, hK⟩ := ha
    have hp' : parse text lang = .ok p.toValue := hp
    obtain ⟨msp, R, hm, hc, hR, hRl, hperm, _, hmR, _⟩ := calculateMsp_eq p hbin
    have hlen : R.length = p.leaves.length := by
      have := congrArg List.length hR
      rwa [List.length_map, mrows_length p hbin] at this
    obtain ⟨r, rs, hmm⟩ : ∃ r rs, msp.m = r :: rs := by
      cases hmm : msp.m with
      | nil =>
        have := hmR.length_eq
        rw [hmm, hlen] at this
        exact absurd (List.length_eq_zero_iff.1 this.symm) (leaves_ne_nil hbin.wide)
      | cons r rs => exact ⟨r, rs, rfl⟩
    obtain ⟨sp, s', hsp⟩ := RM.mapL_total (f := fun _ : ℕ => (RM.genFr : RM F G1 G2 Gt F))
      (xs := List.range (r.length - 1)) (by intro x _ u; simp [RM.genFr]) { s with fr := dropS 1 (dropS 1 s.fr) }
    obtain ⟨k, s'', hk⟩ := RM.mapL_total
      (f := kpKeygenRow env msk [b0 * s.fr 0, b1 * dropS 1 s.fr 0, s.fr 0 + dropS 1 s.fr 0] sp r.length)
      (xs := msp.pi.zip (r :: rs)) (by
        intro x _ u
        simp [kpKeygenRow, kpKeyEntry, kpKeyLast, addGk_eq (gK := [k0, k1, k2]) (t := 0) rfl,
          addGk_eq (gK := [k0, k1, k2]) (t := 1) rfl, addGk_eq (gK := [k0, k1, k2]) (t := 2) rfl, RM.genFr, Res.mapR, Res.rbind_eq, aInverse, Res.index, ha, hK, inv,
          h0, h2]) s'
    simp [kpKeygen, hp', hm, hmm, Res.index, RM.genFr, brVec, hb, hsp, hk]
  · intro t t' pk msk h attrs plaintext haead s
    obtain ⟨P, hs⟩ := setup_ok h
    obtain ⟨c, hc⟩ := Option.isSome_iff_exists.1 (haead (env.kdf (s.gt 0)) ((List.range 12).map s.byte))
    simp [kpEncrypt, RM.genFr, c0Vec_eq hs, cPrime_eq hs, RM.genGt, encryptSymmetric, RM.genBytes, hc]

/-- **C32 is violated, repeated attribute in the policy.** A key for `"A" or "A"` does not decrypt a ciphertext for
`A`. -/
theorem C32_violated_policy : ∃ (p : Pol) (pk : PublicKey Fr Fr Fr) (msk : MasterKey Fr Fr Fr)
    (sk : KpSecretKey Fr Fr) (ct : KpCiphertext Fr Fr Fr) (t₁ t₂ t₃ : Tape Fr Fr Fr Fr),
    Regular (chars% "\"A\" or \"A\"") .human p ∧ p.sat [['A']] = true ∧
    setup toyEnv toyTape = .ok ((pk, msk), t₁) ∧
    kpKeygen toyEnv msk (chars% "\"A\" or \"A\"") .human toyTape = .ok (sk, t₂) ∧
    kpEncrypt toyEnv pk [['A']] [7] toyTape = .ok (ct, t₃) ∧
    kpDecrypt toyEnv sk ct = .err := by
  have h : (do
    let x ← setup toyEnv toyTape
    let y ← kpKeygen toyEnv x.1.2 (chars% "\"A\" or \"A\"") .human toyTape
    let z ← kpEncrypt toyEnv x.1.1 [['A']] [7] toyTape
    .ok (kpDecrypt toyEnv y.1 z.1) : Res (Res Bytes)) = .ok .err := by decide +kernel
  simp only [Res.bind_eq_ok, Res.ok.injEq] at h
  obtain ⟨⟨⟨pk, msk⟩, t1⟩, h1, ⟨sk, t2⟩, h2, ⟨ct, t3⟩, h3, h4⟩ := h
  exact ⟨.gate .or [.leaf ['A'] 2, .leaf ['A'] 9], pk, msk, sk, ct, t1, t2, t3,
    ⟨rfl, by simp, by simp [Pol.Wide], by simp⟩, by simp, h1, h2, h3, h4⟩

/-- **C32 is violated, repeated attribute in the ciphertext.** A key for `"A"` does not decrypt a ciphertext for `A`,
`A`. -/
theorem C32_violated_ciphertext : ∃ (p : Pol) (pk : PublicKey Fr Fr Fr) (msk : MasterKey Fr Fr Fr)
    (sk : KpSecretKey Fr Fr) (ct : KpCiphertext Fr Fr Fr) (t₁ t₂ t₃ : Tape Fr Fr Fr Fr),
    Regular (chars% "\"A\"") .human p ∧ p.sat [['A'], ['A']] = true ∧
    setup toyEnv toyTape = .ok ((pk, msk), t₁) ∧
    kpKeygen toyEnv msk (chars% "\"A\"") .human toyTape = .ok (sk, t₂) ∧
    kpEncrypt toyEnv pk [['A'], ['A']] [7] toyTape = .ok (ct, t₃) ∧
    kpDecrypt toyEnv sk ct = .err := by
  have h : (do
    let x ← setup toyEnv toyTape
    let y ← kpKeygen toyEnv x.1.2 (chars% "\"A\"") .human toyTape
    let z ← kpEncrypt toyEnv x.1.1 [['A'], ['A']] [7] toyTape
    .ok (kpDecrypt toyEnv y.1 z.1) : Res (Res Bytes)) = .ok .err := by decide +kernel
  simp only [Res.bind_eq_ok, Res.ok.injEq] at h
  obtain ⟨⟨⟨pk, msk⟩, t1⟩, h1, ⟨sk, t2⟩, h2, ⟨ct, t3⟩, h3, h4⟩ := h
  exact ⟨.leaf ['A'] 2, pk, msk, sk, ct, t1, t2, t3,
    ⟨rfl, by simp, by simp [Pol.Wide], by simp⟩, by simp, h1, h2, h3, h4⟩

/-- A run of the concrete environment meeting all hypotheses of `C32_ac17_kp_correct_partial`, for a matrix with three
columns. -/
example : ∃ (p : Pol) (pk : PublicKey Fr Fr Fr) (msk : MasterKey Fr Fr Fr) (sk : KpSecretKey Fr Fr)
    (ct : KpCiphertext Fr Fr Fr) (t₁ t₂ t₃ : Tape Fr Fr Fr Fr),
    setup toyEnv toyTape = .ok ((pk, msk), t₁) ∧
    Regular (chars% "(\"A\" and (\"B\" and \"D\")) or (\"E\" and \"C\")") .human p ∧
    kpKeygen toyEnv msk (chars% "(\"A\" and (\"B\" and \"D\")) or (\"E\" and \"C\")") .human toyTape = .ok (sk, t₂) ∧
    kpEncrypt toyEnv pk [['D'], ['A'], ['B']] [1, 2] toyTape = .ok (ct, t₃) ∧
    p.sat [['D'], ['A'], ['B']] = true ∧ Once p [['D'], ['A'], ['B']] ∧ kpDecrypt toyEnv sk ct = .ok [1, 2] := by
  obtain ⟨d2, d3⟩ := C32_ac17_kp_defined toyEnv
  obtain ⟨pk, msk, t₁, h1⟩ := (C30_ac17_cp_defined toyEnv).1 toyTape
  let p : Pol := .gate .or [.gate .and [.leaf ['A'] 3, .gate .and [.leaf ['B'] 12, .leaf ['D'] 20]],
    .gate .and [.leaf ['E'] 30, .leaf ['C'] 38]]
  have hr : Regular (chars% "(\"A\" and (\"B\" and \"D\")) or (\"E\" and \"C\")") .human p :=
    ⟨rfl, by simp, by simp [Pol.Wide, p], by simp [p]⟩
  obtain ⟨sk, t₂, h2⟩ := d2 _ _ _ _ h1 (by simp [toyTape]) (by simp [toyTape]) _ _ p hr.denotes
    (by simp [Pol.Binary, p]) toyTape
  have hs : p.sat [['D'], ['A'], ['B']] = true := by simp [p]
  have ho : Once p [['D'], ['A'], ['B']] := by simp [Once, Pol.names, p]
  obtain ⟨ct, t₃, h3⟩ := d3 _ _ _ _ h1 [['D'], ['A'], ['B']] [1, 2] (by simp [toyEnv]) toyTape
  exact ⟨p, pk, msk, sk, ct, t₁, t₂, t₃, h1, hr, h2, h3, hs, ho,
    C32_ac17_kp_correct_partial toyEnv _ _ pk msk h1 _ _ p hr _ _ sk h2 _ _ _ _ ct h3 hs ho⟩

/-- **C33.** Whatever the group elements of key and ciphertext are: if the attributes of the ciphertext do not satisfy
the policy stored in the key, `kp_decrypt` returns an error. -/
theorem C33_ac17_kp_refuses (env : Env F G1 G2 Gt) (sk : KpSecretKey G1 G2) (ct : KpCiphertext G1 G2 Gt) (p : Pol)
    (hp : Denotes sk.policy.1 sk.policy.2 p) (h : p.sat ct.attr = false ∨ ct.attr = []) :
    kpDecrypt env sk ct = .err := by
  have hp' : parse sk.policy.1 sk.policy.2 = .ok p.toValue := hp
  have ht : traversePolicy ct.attr p.toValue .leaf = false := by
    by_cases he : ct.attr = []
    · rw [he, traverse_nil]
    · rw [traverse_eq_sat _ he]
      exact h.resolve_right he
  simp only [kpDecrypt, kpRecover, hp', Res.ok_bind, ht, if_true, Res.err_bind]

/-- Contrapositive of **C33**, for every stored policy text. -/
theorem C33_ac17_kp_decrypts_only_if_satisfied (env : Env F G1 G2 Gt) (sk : KpSecretKey G1 G2)
    (ct : KpCiphertext G1 G2 Gt) (data : Bytes) (h : kpDecrypt env sk ct = .ok data) :
    ∃ p, Denotes sk.policy.1 sk.policy.2 p ∧ p.sat ct.attr = true ∧ ct.attr ≠ [] := by
  have h' := h
  simp only [kpDecrypt, kpRecover, Res.bind_eq_ok] at h'
  obtain ⟨_, ⟨v, hv, _⟩, _⟩ := h'
  obtain ⟨p, rfl, _⟩ := parse_ok hv
  refine ⟨p, hv, ?_, ?_⟩
  · by_contra hc
    rw [C33_ac17_kp_refuses env sk ct p hv (Or.inl (by simpa using hc))] at h
    simp at h
  · intro hc
    rw [C33_ac17_kp_refuses env sk ct p hv (Or.inr hc)] at h
    simp at h

/-- A ciphertext for one of two needed attributes. -/
example (c : Ciphertext Fr Fr Fr) : let ct : KpCiphertext Fr Fr Fr := ⟨[['A'], ['C']], c⟩
    ∃ p, Denotes (chars% "\"A\" and \"B\"") .human p ∧ p.sat ct.attr = false :=
  ⟨.gate .and [.leaf ['A'] 2, .leaf ['B'] 10], rfl, by simp⟩

/-! ## Hash inputs -/

theorem natStr_digit : ∀ n < 10, natStr n = [Nat.digitChar n] := by decide

theorem natStr_digit_inj : ∀ n < 10, ∀ m < 10, natStr n = natStr m → n = m := by decide

/-- **C50, partial.** The hashed strings `s ++ l ++ t` (`l ≤ 2`, `t ≤ 1`) determine the name and both numbers; an
attribute shares hash inputs with a matrix column only if its name is literally `0` followed by the column number.
(Full claim: no such attribute; false, see `C50_violated`.) -/
theorem C50_ac17_hash_inputs_partial :
    (∀ (s s' : Str) (l t l' t' : ℕ), l < 3 → t < 2 → l' < 3 → t' < 2 →
      (hashIn s l t = hashIn s' l' t' ↔ s = s' ∧ l = l' ∧ t = t')) ∧
    (∀ (s : Str) (j l t l' t' : ℕ), l < 3 → t < 2 → l' < 3 → t' < 2 → s.head? ≠ some '0' →
      hashIn s l t ≠ hashIn (colName j) l' t') ∧
    (∀ j j', colName j = colName j' → j = j') := by
  have key : ∀ (s s' : Str) (l t l' t' : ℕ), l < 3 → t < 2 → l' < 3 → t' < 2 →
      (hashIn s l t = hashIn s' l' t' ↔ s = s' ∧ l = l' ∧ t = t') := by
    intro s s' l t l' t' hl ht hl' ht'
    constructor
    · intro h
      unfold hashIn at h
      have h1 := List.append_inj' h (by rw [natStr_digit t (by omega), natStr_digit t' (by omega)]; rfl)
      have h2 := List.append_inj' h1.1 (by rw [natStr_digit l (by omega), natStr_digit l' (by omega)]; rfl)
      exact ⟨h2.1, natStr_digit_inj l (by omega) l' (by omega) h2.2, natStr_digit_inj t (by omega) t' (by omega) h1.2⟩
    · rintro ⟨rfl, rfl, rfl⟩; rfl
  refine ⟨key, ?_, ?_⟩
  · intro s j l t l' t' hl ht hl' ht' hh h
    obtain ⟨rfl, _⟩ := (key _ _ _ _ _ _ hl ht hl' ht').1 h
    simp [colName] at hh
  · intro j j' h
    simp only [colName, List.cons.injEq, true_and] at h
    exact natStr_inj h

/-- The instances `"A"`, column 12. -/
example : hashIn ['A'] 2 1 ≠ hashIn (colName 12) 2 1 :=
  C50_ac17_hash_inputs_partial.2.1 ['A'] 12 2 1 2 1 (by omega) (by omega) (by omega) (by omega) (by simp)

/-- **C50 is violated.** The attribute `01` and the first matrix column have the same hash inputs; so have `0j` and
column `j`. -/
theorem C50_violated : hashIn (chars% "01") = hashIn (colName 1) ∧ ∀ j l t, hashIn ('0' :: natStr j) l t =
    hashIn (colName j) l t := ⟨rfl, fun _ _ _ => rfl⟩

/-- The key made from an issued key containing the attribute `01`: the component of that attribute is subtracted from
the policy-independent part, everything else is dropped, any attribute list is claimed. -/
def forged (sk : CpSecretKey G1 G2) (attrs : List Str) : CpSecretKey G1 G2 :=
  { attr := attrs
    sk := { k0 := [0, 0, 0], k := []
            kP := List.zipWith (· - ·) sk.sk.kP ((sk.sk.k.lookup (chars% "01")).getD []) } }

theorem lookup_forall₂ {A : List Str} {E : List (Str × List G1)} {vec : Str → F → List G1}
    (h : List.Forall₂ (fun a (x : Str × List G1) => ∃ τ : F, x = (a, vec a τ)) A E) {a : Str} (ha : a ∈ A) :
    ∃ τ, E.lookup a = some (vec a τ) := by
  induction h with
  | nil => simp at ha
  | @cons b x bs xs hb _ ih =>
    obtain ⟨τ, rfl⟩ := hb
    by_cases hab : a = b
    · subst hab; exact ⟨τ, by simp⟩
    · have : a ∈ bs := (List.mem_cons.1 ha).resolve_left hab
      obtain ⟨τ', h'⟩ := ih this
      exact ⟨τ', by rw [List.lookup_cons, beq_eq_false_iff_ne.2 hab]; exact h'⟩

theorem listSum_nil (i : ℕ) (L : List (Str × Str)) : listSum ([] : List (Str × List G1)) i L = .ok 0 := by
  unfold listSum
  induction L with
  | nil => rfl
  | cons x xs ih => simpa [Res.foldR, matchSum, Res.bind] using ih

/-- **C50 is violated, consequence.** Whoever is issued any key containing the attribute `01` can make from it a key that
decrypts every ciphertext of the system, whatever its policy. -/
theorem C50_violated_universal_key (env : Env F G1 G2 Gt)
    (t₁ t₁' : Tape F G1 G2 Gt) (pk : PublicKey G1 G2 Gt) (msk : MasterKey F G1 G2)
    (hsetup : setup env t₁ = .ok ((pk, msk), t₁'))
    (attrs : List Str) (t₂ t₂' : Tape F G1 G2 Gt) (sk : CpSecretKey G1 G2)
    (hkey : cpKeygen env msk attrs t₂ = .ok (sk, t₂')) (h01 : (chars% "01") ∈ attrs)
    (text : Str) (lang : PolicyLanguage) (p : Pol) (hreg : Regular text lang p)
    (plaintext : Bytes) (t₃ t₃' : Tape F G1 G2 Gt) (ct : CpCiphertext G1 G2 Gt)
    (henc : cpEncrypt env pk text plaintext lang t₃ = .ok (ct, t₃')) :
    cpDecrypt env (forged sk p.names) ct = .ok plaintext := by
  obtain ⟨P, hs⟩ := setup_ok hsetup
  obtain ⟨hne, r0, r1, σ, hk⟩ := cpKeygen_ok hs hkey
  have hb : p.Binary := by
    by_contra hb
    have h1 := lw_panic p hb ⟨[], [], 1⟩ [1] none (Nat.le_refl 1)
    have h2 : calculateMsp p.toValue = .panic := by simp [calculateMsp, h1]
    have h3 : parse text lang = .ok p.toValue := hreg.denotes
    simp [cpEncrypt, h3, h2] at henc
  obtain ⟨msp, row, hm, hM⟩ := msp_exists hb hreg.labels
  obtain ⟨hpol, msg, s0, s1, hc, hcc, hd⟩ := cpEncrypt_ok hs hreg.denotes hm hM henc
  have hp : parse ct.policy.1 ct.policy.2 = .ok p.toValue := by rw [hpol]; exact hreg.denotes
  have hsat := sat_names p hreg.wide
  have hne' : p.names ≠ [] := by simpa [Pol.names] using leaves_ne_nil hreg.wide
  obtain ⟨τ, hτ⟩ := lookup_forall₂ hk.k h01
  have hnames : ∀ l ∈ ct.ct.c, ∃ x y z, l.2 = [x, y, z] := by
    intro l hl
    obtain ⟨l', _, rfl⟩ := List.mem_map.1 (hcc.mem_iff.1 hl)
    exact ⟨_, _, _, rfl⟩
  have hms : ∀ i < 3, ∀ name (E : List (Str × List G1)), (∀ l ∈ E, ∃ x y z, l.2 = [x, y, z]) → ∀ acc,
      ∃ y, matchSum E i acc name = .ok y := by
    intro i hi name E
    induction E with
    | nil => intro _ acc; exact ⟨acc, rfl⟩
    | cons e es ih =>
      intro hE acc
      obtain ⟨x, y, z, he⟩ := hE e (by simp)
      have hi' : i = 0 ∨ i = 1 ∨ i = 2 := by omega
      have hes := ih fun l hl => hE l (by simp [hl])
      by_cases hn : e.1 = name
      · rcases hi' with rfl | rfl | rfl <;>
          simpa [matchSum, Res.foldR, Res.rbind_eq, hn, he, Res.index] using hes _
      · simpa [matchSum, Res.foldR, Res.rbind_eq, hn] using hes acc
  have hls : ∀ i < 3, ∀ L : List (Str × Str), ∃ y, listSum ct.ct.c i L = .ok y := by
    intro i hi L
    have : ∀ (L : List (Str × Str)) (acc : G1),
        ∃ y, Res.foldR (fun acc (cur : Str × Str) => matchSum ct.ct.c i acc cur.1) acc L = .ok y := by
      intro L
      induction L with
      | nil => intro acc; exact ⟨acc, rfl⟩
      | cons x xs ih =>
        intro acc
        obtain ⟨y, hy⟩ := hms i hi x.1 ct.ct.c hnames acc
        simpa [Res.foldR, Res.rbind_eq, hy] using ih y
    exact this L 0
  have hrec : cpRecover env (forged sk p.names) ct = .ok msg := by
    have hattr : (forged sk p.names).attr = p.names := rfl
    simp only [cpRecover, hp, Res.ok_bind, hattr, traverse_eq_sat _ hne', hsat, calcPruned_eq _ p hb.wide,
      Bool.true_eq_false, if_false, if_true]
    generalize (pick p.names p).map leafKey = L
    obtain ⟨y0, hy0⟩ := hls 0 (by omega) L
    obtain ⟨y1, hy1⟩ := hls 1 (by omega) L
    obtain ⟨y2, hy2⟩ := hls 2 (by omega) L
    simp only [Res.foldR, Res.rbind_eq, cpDecStep, forged, listSum_nil, hy0, hy1, hy2, hτ, hk.kP, keyVec, hc.c0,
      Option.getD_some, List.zipWith_cons_cons, List.zipWith_nil_right, Res.index, List.getElem?_cons_zero,
      List.getElem?_cons_succ, Res.unwrapOption_some, Res.ok_bind, Res.ok.injEq, hc.cP, map_zero, add_zero, zero_add]
    simp only [map_add, map_sub, map_smul, LinearMap.add_apply, LinearMap.sub_apply, LinearMap.smul_apply]
    have h0 := hk.a0
    have h1 := hk.a1
    match_scalars <;> field_simp <;> ring
  rw [cpDecrypt, hrec]
  exact hd

/-- A key for `01` alone reads a message for `"A" and "B"`. -/
example : (do
    let x ← setup toyEnv toyTape
    let y ← cpKeygen toyEnv x.1.2 [(chars% "01")] toyTape
    let z ← cpEncrypt toyEnv x.1.1 (chars% "\"A\" and \"B\"") [7] .human toyTape
    .ok (cpDecrypt toyEnv y.1 z.1, cpDecrypt toyEnv (forged y.1 [['A'], ['B']]) z.1) : Res (Res Bytes × Res Bytes)) =
    .ok (.err, .ok [7]) := by decide +kernel

end Ac17
end Rabe
