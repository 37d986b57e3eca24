import Verif.Props.Parser
import Verif.Proof.Bsw
import Verif.Instance.Bn

/-!
# C25–C29: BSW
-/

set_option linter.unusedSectionVars false
set_option linter.unnecessarySeqFocus false

namespace Rabe
namespace Bsw

variable {F G1 G2 Gt : Type} [Field F] [DecidableEq F] [AddCommGroup G1] [Module F G1]
  [AddCommGroup G2] [Module F G2] [AddCommGroup Gt] [Module F Gt]

/-! ## Correctness -/

/-- **C25, partial.** Any set-up, any issued key, any encryption under a regular policy: if no attribute that is both
in the policy and in the key has an underscore and the key's attributes satisfy the policy then decryption returns the plaintext. (Full claim: for every
policy text accepted by `encrypt`; false, see `C25_violated_underscore`, `C25_violated_narrow`,
`C25_violated_multiline`.) -/
theorem C25_bsw_correct_partial [BigChar F] (env : Env F G1 G2 Gt)
    (t₁ t₁' : Tape F G1 G2 Gt) (pk : PublicKey G1 G2 Gt) (msk : MasterKey F G2)
    (hsetup : setup env t₁ = .ok ((pk, msk), t₁'))
    (attrs : List Str) (t₂ t₂' : Tape F G1 G2 Gt) (sk : SecretKey G1 G2)
    (hkey : keygen env pk msk attrs t₂ = .ok (some sk, t₂'))
    (text : Str) (lang : PolicyLanguage) (p : Pol) (hreg : Regular text lang p)
    (hname : ∀ n ∈ p.names, n ∈ attrs → '_' ∉ n)
    (plaintext : Bytes) (t₃ t₃' : Tape F G1 G2 Gt) (ct : Ciphertext G1 G2 Gt)
    (henc : encrypt env pk text lang plaintext t₃ = .ok (ct, t₃'))
    (hsat : p.sat attrs = true) :
    decrypt env sk ct = .ok plaintext := by
  obtain ⟨α, β, hs⟩ := setup_ok hsetup
  obtain ⟨hne, _, r, hk⟩ := keygen_ok hkey
  obtain ⟨msg, s, ω, hc, hd⟩ := encrypt_ok hreg.denotes henc
  have hu : ∀ l ∈ pick attrs p, '_' ∉ l.1 := fun l hl =>
    hname _ (List.mem_map.2 ⟨l, (pick_sublist attrs p).subset hl, rfl⟩) (pick_owned attrs p l hl)
  rw [decrypt, recoverMsg_ok hs hk hc hsat hreg.wide hreg.fits hreg.labels hu hne]
  exact hd

/-- Set-up succeeds unless the first random scalar is zero, key generation succeeds for every non-empty attribute list,
encryption succeeds for every accepted policy when the AEAD accepts the plaintext: the hypotheses of
`C25_bsw_correct_partial` can be met for every policy, key and plaintext. -/
theorem C25_bsw_defined (env : Env F G1 G2 Gt) :
    (∀ t : Tape F G1 G2 Gt, t.fr 0 ≠ 0 → ∃ pk msk t', setup env t = .ok ((pk, msk), t')) ∧
    (∀ (t t' : Tape F G1 G2 Gt) pk msk, setup env t = .ok ((pk, msk), t') →
      ∀ (attrs : List Str), attrs ≠ [] → ∀ s, ∃ sk s', keygen env pk msk attrs s = .ok (some sk, s')) ∧
    (∀ (pk : PublicKey G1 G2 Gt) text lang p, Denotes text lang p → ∀ (plaintext : Bytes),
      (∀ k n, (env.aeadEnc k n plaintext).isSome = true) →
      ∀ s, ∃ ct s', encrypt env pk text lang plaintext s = .ok (ct, s')) := by
  refine ⟨fun t h => setup_succeeds env t h, ?_, ?_⟩
  · intro t t' pk msk h attrs hne s
    obtain ⟨α, β, hs⟩ := setup_ok h
    have hβ : msk.beta ≠ 0 := hs.beta ▸ hs.beta_ne
    have hne' : (attrs.isEmpty || attrs.length == 0) = false := by cases attrs <;> simp_all
    obtain ⟨dJ, s', hd⟩ := RM.mapL_total (f := keygenAttr env pk (s.fr 0 • pk.g2)) (xs := attrs)
      (by intro x _ u; simp [keygenAttr, RM.genFr]) { s with fr := dropS 1 s.fr }
    refine ⟨{ d := msk.beta⁻¹ • (msk.g2Alpha + s.fr 0 • pk.g2), dJ }, s', ?_⟩
    simp [keygen, hne', RM.bind_apply, RM.genFr, inv, hβ, hd]
  · intro pk text lang p hp plaintext ha s
    have hp' : parse text lang = .ok p.toValue := hp
    obtain ⟨c, hc⟩ := Option.isSome_iff_exists.1 (ha (env.kdf (s.gt 0)) ((List.range 12).map s.byte))
    simp [encrypt, RM.bind_apply, RM.genFr, RM.genGt, hp', RM.liftFr, genSharesPolicy_eq, encryptSymmetric,
      RM.genBytes, hc]

/-- **C25 is violated, narrow gates.** The JSON policy "or" with the single child `A` can be encrypted for, but the
key for `A` aborts the decrypting process. -/
theorem C25_violated_narrow : ∃ text p, Denotes text .json p ∧ p.sat [['A']] = true ∧
    ∀ (env : Env F G1 G2 Gt) (sk : SecretKey G1 G2) (ct : Ciphertext G1 G2 Gt),
      sk.dJ.map (·.string) = [['A']] → ct.policy = (text, .json) → decrypt env sk ct = .panic := by
  refine ⟨(chars% "{\"name\": \"or\", \"children\": [{\"name\": \"A\"}]}"), .gate .or [.leaf ['A'] 39], rfl,
    by simp, ?_⟩
  intro env sk ct hk hp
  have h1 : parse ct.policy.1 ct.policy.2 = .ok (Pol.gate .or [.leaf ['A'] 39]).toValue := by rw [hp]; rfl
  have h2 : traversePolicy [['A']] (Pol.gate .or [.leaf ['A'] 39]).toValue .leaf = true := rfl
  have h3 : calcPruned [['A']] (Pol.gate .or [.leaf ['A'] 39]).toValue none = .panic := rfl
  simp only [decrypt, recoverMsg, hk, h1, h2, h3, Res.ok_bind, Bool.true_eq_false, if_false, Res.panic_bind]

/-- What decryption computes for the policy consisting of the single attribute `n`: the session element is off by the
difference of the hashes of `n` and of its part before the first underscore. -/
theorem recoverMsg_leaf {env : Env F G1 G2 Gt} {pk : PublicKey G1 G2 Gt} {msk : MasterKey F G2} {α β : F}
    (hs : IsSetup env pk msk α β) {r rj : F} {n : Str} {c : ℕ} {sk : SecretKey G1 G2}
    (hd : sk.d = msk.beta⁻¹ • (msk.g2Alpha + r • pk.g2))
    (hj : sk.dJ = [⟨n, rj • pk.g1, r • pk.g2 + rj • env.hash n • pk.g2⟩]) {ct msg s ω}
    (hc : IsCt env pk (.leaf n c) ct msg s ω) :
    recoverMsg env sk ct = .ok (msg + (s * rj * (env.hash n - env.hash (removeIndex (nodeIndex n c)))) •
      env.pair pk.g1 pk.g2) := by
  have h1 : traversePolicy [n] (Pol.leaf n c).toValue .leaf = true := by simp [traversePolicy]
  have h2 : calcPruned [n] (Pol.leaf n c).toValue none = .ok (true, [(n, nodeIndex n c)]) := by
    simp [calcPruned, contains_iff]
  have h3 : calcCoefficients (Pol.leaf n c).toValue (some (1 : F)) [] none = .ok (some [(nodeIndex n c, 1)]) := by
    simp [calcCoefficients]
  have h4 : ct.cY = [encAttr env pk (nodeIndex n c, s)] := by
    rw [hc.cY]; simp [shares, shareVals, leafIdx]
  simp only [recoverMsg, hj, List.map_cons, List.map_nil, hc.policy, Res.ok_bind, h1, h2, h3,
    Res.unwrapOption_some, Bool.true_eq_false, if_false, Bool.not_true, Bool.false_eq_true, Res.ok.injEq,
    prunedLoop, h4]
  simp only [encAttr, List.find?_cons, beq_self_eq_true, coeffLoop, if_true, hc.c, hc.cP, hd, hs.h, hs.beta,
    hs.g2Alpha, hs.e, Env.sha3Hash, map_smul, map_add, LinearMap.smul_apply]
  have hβ := hs.beta_ne
  match_scalars <;> field_simp <;> ring

/-- **C25 is violated, underscores.** For the policy consisting of the attribute `A_1`, an issued key for `A_1` does not
decrypt (concrete environment, all random numbers equal to one): `encrypt` hashes the attribute `A` instead. -/
theorem C25_violated_underscore : ∃ (p : Pol) (pk : PublicKey Fr Fr Fr) (msk : MasterKey Fr Fr) (sk : SecretKey Fr Fr)
    (ct : Ciphertext Fr Fr Fr) (t₁ t₂ t₃ : Tape Fr Fr Fr Fr),
    Regular (chars% "\"A_1\"") .human p ∧ p.sat [(chars% "A_1")] = true ∧
    setup toyEnv toyTape = .ok ((pk, msk), t₁) ∧
    keygen toyEnv pk msk [(chars% "A_1")] toyTape = .ok (some sk, t₂) ∧
    encrypt toyEnv pk (chars% "\"A_1\"") .human [7] toyTape = .ok (ct, t₃) ∧
    decrypt toyEnv sk ct = .err := by
  refine ⟨.leaf (chars% "A_1") 2, ⟨1, 1, 1, 1, 1⟩, ⟨1, 1⟩, ⟨2, [⟨(chars% "A_1"), 1, 1 + toyHash (chars% "A_1")⟩]⟩,
    ⟨((chars% "\"A_1\""), .human), 1, 2, [⟨(chars% "A_1_2"), 1, toyHash (chars% "A")⟩],
      List.replicate 12 0 ++ (toyKdf 1 ++ [7])⟩, toyTape, toyTape, toyTape,
    ⟨rfl, by simp, by simp [Pol.Wide], by simp⟩, by simp, ?_, ?_, ?_, ?_⟩
  · simp [setup, toyEnv]
  · simp [keygen, RM.mapL, RM.rbind_eq, RM.rpure_eq, keygenAttr, toyEnv, Env.sha3Hash, one_add_one_eq_two]
  · have h1 : parse (chars% "\"A_1\"") .human = .ok (Pol.leaf (chars% "A_1") 2).toValue := rfl
    have h2 : nodeIndex (chars% "A_1") 2 = (chars% "A_1_2") := rfl
    have h3 : removeIndex (chars% "A_1_2") = ['A'] := rfl
    have h4 : ({ toyTape with fr := fun _ => 1 } : Tape Fr Fr Fr Fr) = toyTape := rfl
    simp [encrypt, h1, toy_liftFr, genSharesPolicy, encryptSymmetric, toyEnv, encAttr, Env.sha3Hash, h2, h3, h4,
      one_add_one_eq_two]
  · have h1 : parse (chars% "\"A_1\"") .human = .ok (Pol.leaf (chars% "A_1") 2).toValue := rfl
    have h2 : traversePolicy [(chars% "A_1")] (Pol.leaf (chars% "A_1") 2).toValue .leaf = true := rfl
    have h3 : calcPruned [(chars% "A_1")] (Pol.leaf (chars% "A_1") 2).toValue none =
      .ok (true, [((chars% "A_1"), (chars% "A_1_2"))]) := rfl
    have h4 : calcCoefficients (Pol.leaf (chars% "A_1") 2).toValue (some (1 : Fr)) [] none =
      .ok (some [((chars% "A_1_2"), 1)]) := rfl
    simp only [decrypt, recoverMsg, List.map_cons, List.map_nil, h1, h2, h3, h4, Res.ok_bind, Bool.true_eq_false,
      if_false, Bool.not_true, Bool.false_eq_true, Res.unwrapOption_some, prunedLoop, List.find?_cons,
      beq_self_eq_true, coeffLoop, if_true]
    simp only [toyEnv, LinearMap.mul_apply']
    decide +kernel

theorem recover_two (h : (1 : F) ≠ 2) : (recoverCoefficients (andPoints 2) : List F) = [2, -1] := by
  have h21 : (2 : F) - 1 = 1 := by ring
  have h22 : (1 : F) - 2 = -1 := by ring
  have hr : List.range 2 = [0, 1] := rfl
  simp [recoverCoefficients, andPoints, recoverCoefficient, hr, one_add_one_eq_two, h, h.symm, h21, h22, inv_neg]

/-- The three-line policy of `C05_violated`. -/
def multiPol : Pol := .gate .or [.gate .and [.leaf ['A'] 3, .leaf ['B'] 11], .gate .and [.leaf ['A'] 3, .leaf ['C'] 11]]

theorem dropS_one {α : Type} (n : ℕ) (a : α) : (dropS n fun _ => a) = fun _ => a := rfl

theorem multi_shares : genSharesPolicy multiPol.toValue (1 : F) none (fun _ => 1) = .ok (some
    [((chars% "A_3"), 2), ((chars% "B_11"), 3), ((chars% "A_3"), 2), ((chars% "C_11"), 3)], fun _ => 1) := by
  rw [genSharesPolicy_eq]
  have e3 : (1 : F) + 2 = 3 := by ring
  have n1 : nodeIndex ['A'] 3 = (chars% "A_3") := rfl
  have n2 : nodeIndex ['B'] 11 = (chars% "B_11") := rfl
  have n3 : nodeIndex ['C'] 11 = (chars% "C_11") := rfl
  simp [shares, multiPol, shareVals, shareValsL, gateShare, thr, polynomial, polynomialFrom, leafIdx, e3, n1, n2, n3,
    one_add_one_eq_two, List.range_succ, dropS_one]

theorem multi_coeffs (h : (1 : F) ≠ 2) : calcCoefficients multiPol.toValue (some (1 : F)) [] none =
    .ok (some [((chars% "A_3"), 2), ((chars% "B_11"), -1), ((chars% "A_3"), 2), ((chars% "C_11"), -1)]) := by
  have n1 : nodeIndex ['A'] 3 = (chars% "A_3") := rfl
  have n2 : nodeIndex ['B'] 11 = (chars% "B_11") := rfl
  have n3 : nodeIndex ['C'] 11 = (chars% "C_11") := rfl
  simp [multiPol, Op.toType, calcCoefficients, calcCoeffOr, recover_one, recover_two h, calcCoeffAnd, n1, n2, n3]

/-- **C25 is violated, several lines.** For `("A" and "B")⏎or⏎("A" and "C")` an issued key for `A`, `C` does not decrypt
(concrete environment, all random numbers equal to one): both leaves `A` have the same label. -/
theorem C25_violated_multiline : ∃ (pk : PublicKey Fr Fr Fr) (msk : MasterKey Fr Fr) (sk : SecretKey Fr Fr)
    (ct : Ciphertext Fr Fr Fr) (t₁ t₂ t₃ : Tape Fr Fr Fr Fr),
    Denotes (chars% "(\"A\" and \"B\")\nor\n(\"A\" and \"C\")") .human multiPol ∧
    multiPol.sat [['A'], ['C']] = true ∧
    setup toyEnv toyTape = .ok ((pk, msk), t₁) ∧
    keygen toyEnv pk msk [['A'], ['C']] toyTape = .ok (some sk, t₂) ∧
    encrypt toyEnv pk (chars% "(\"A\" and \"B\")\nor\n(\"A\" and \"C\")") .human [7] toyTape = .ok (ct, t₃) ∧
    decrypt toyEnv sk ct = .err := by
  have h1 : parse (chars% "(\"A\" and \"B\")\nor\n(\"A\" and \"C\")") .human = .ok multiPol.toValue := rfl
  refine ⟨⟨1, 1, 1, 1, 1⟩, ⟨1, 1⟩, ⟨2, [⟨['A'], 1, 1 + toyHash ['A']⟩, ⟨['C'], 1, 1 + toyHash ['C']⟩]⟩,
    ⟨((chars% "(\"A\" and \"B\")\nor\n(\"A\" and \"C\")"), .human), 1, 2,
      [⟨(chars% "A_3"), 2, 2 * toyHash ['A']⟩, ⟨(chars% "B_11"), 3, 3 * toyHash ['B']⟩,
       ⟨(chars% "A_3"), 2, 2 * toyHash ['A']⟩, ⟨(chars% "C_11"), 3, 3 * toyHash ['C']⟩],
      List.replicate 12 0 ++ (toyKdf 1 ++ [7])⟩, toyTape, toyTape, toyTape, h1, by simp [multiPol], ?_, ?_, ?_, ?_⟩
  · simp [setup, toyEnv]
  · simp [keygen, RM.mapL, RM.rbind_eq, RM.rpure_eq, keygenAttr, toyEnv, Env.sha3Hash, one_add_one_eq_two]
  · have h2 : genSharesPolicy multiPol.toValue (1 : Fr) none (fun _ => 1) = .ok (some
        [((chars% "A_3"), 2), ((chars% "B_11"), 3), ((chars% "A_3"), 2), ((chars% "C_11"), 3)], fun _ => 1) := by
      exact multi_shares
    have h4 : ({ toyTape with fr := fun _ => 1 } : Tape Fr Fr Fr Fr) = toyTape := rfl
    simp [encrypt, h1, toy_liftFr, h2, encryptSymmetric, toyEnv, encAttr, Env.sha3Hash, h4, removeIndex,
      one_add_one_eq_two]
  · have h2 : traversePolicy [['A'], ['C']] multiPol.toValue .leaf = true := rfl
    have h3 : calcPruned [['A'], ['C']] multiPol.toValue none =
      .ok (true, [(['A'], (chars% "A_3")), (['C'], (chars% "C_11"))]) := rfl
    have h4 : calcCoefficients multiPol.toValue (some (1 : Fr)) [] none =
      .ok (some [((chars% "A_3"), 2), ((chars% "B_11"), -1), ((chars% "A_3"), 2), ((chars% "C_11"), -1)]) := by
      have h12 : (1 : Fr) ≠ 2 := by
        intro h
        have := sub_eq_zero.2 h
        norm_num at this
      exact multi_coeffs h12
    simp only [decrypt, recoverMsg, List.map_cons, List.map_nil, h1, h2, h3, h4, Res.ok_bind, Bool.true_eq_false,
      if_false, Bool.not_true, Bool.false_eq_true, Res.unwrapOption_some]
    decide +kernel

/-- A run of the concrete environment meeting all hypotheses of `C25_bsw_correct_partial`, for a nested policy with a
repeated attribute. -/
example : ∃ (p : Pol) (pk : PublicKey Fr Fr Fr) (msk : MasterKey Fr Fr) (sk : SecretKey Fr Fr)
    (ct : Ciphertext Fr Fr Fr) (t₁ t₂ t₃ : Tape Fr Fr Fr Fr),
    setup toyEnv toyTape = .ok ((pk, msk), t₁) ∧
    keygen toyEnv pk msk [['D'], ['A']] toyTape = .ok (some sk, t₂) ∧
    Regular (chars% "(\"A\" and \"B\" and \"C\") or (\"A\" and \"D\")") .human p ∧ (∀ n ∈ p.names, '_' ∉ n) ∧
    encrypt toyEnv pk (chars% "(\"A\" and \"B\" and \"C\") or (\"A\" and \"D\")") .human [1, 2, 3] toyTape = .ok (ct, t₃) ∧
    p.sat [['D'], ['A']] = true ∧ decrypt toyEnv sk ct = .ok [1, 2, 3] := by
  obtain ⟨d1, d2, d3⟩ := C25_bsw_defined toyEnv
  obtain ⟨pk, msk, t₁, h1⟩ := d1 toyTape (by simp [toyTape])
  obtain ⟨sk, t₂, h2⟩ := d2 _ _ _ _ h1 [['D'], ['A']] (by simp) toyTape
  let p : Pol := .gate .or [.gate .and [.leaf ['A'] 3, .leaf ['B'] 11, .leaf ['C'] 19],
    .gate .and [.leaf ['A'] 28, .leaf ['D'] 36]]
  have hr : Regular (chars% "(\"A\" and \"B\" and \"C\") or (\"A\" and \"D\")") .human p :=
    ⟨rfl, by simp, by simp [Pol.Wide, p], by simp [p]⟩
  have hn : ∀ n ∈ p.names, '_' ∉ n := by simp [Pol.names, p]
  have hs : p.sat [['D'], ['A']] = true := by simp [p]
  obtain ⟨ct, t₃, h3⟩ := d3 pk _ _ p hr.denotes [1, 2, 3] (by simp [toyEnv]) toyTape
  exact ⟨p, pk, msk, sk, ct, t₁, t₂, t₃, h1, h2, hr, hn, h3, hs,
    C25_bsw_correct_partial toyEnv _ _ pk msk h1 _ _ _ sk h2 _ _ p hr (fun n h _ => hn n h) _ _ _ ct h3 hs⟩

/-! ## Refusal -/

/-- **C26.** Whatever the group elements of key and ciphertext are: if the attribute names of the key do not satisfy the
policy stored in the ciphertext, `decrypt` returns an error. A key without attributes is refused by every policy. -/
theorem C26_bsw_refuses (env : Env F G1 G2 Gt) (sk : SecretKey G1 G2) (ct : Ciphertext G1 G2 Gt) (p : Pol)
    (hp : Denotes ct.policy.1 ct.policy.2 p)
    (h : p.sat (sk.dJ.map (·.string)) = false ∨ sk.dJ = []) : decrypt env sk ct = .err := by
  have hp' : parse ct.policy.1 ct.policy.2 = .ok p.toValue := hp
  have ht : traversePolicy (sk.dJ.map (·.string)) p.toValue .leaf = false := by
    by_cases he : sk.dJ = []
    · rw [he, List.map_nil, traverse_nil]
    · rw [traverse_eq_sat _ (by simpa using he)]
      exact h.resolve_right he
  simp only [decrypt, recoverMsg, hp', Res.ok_bind, ht, if_true, Res.err_bind]

/-- Contrapositive of **C26**, for every stored policy text: a successful decryption means that the text denotes a policy
which the key's attributes satisfy. -/
theorem C26_bsw_decrypts_only_if_satisfied (env : Env F G1 G2 Gt) (sk : SecretKey G1 G2) (ct : Ciphertext G1 G2 Gt)
    (data : Bytes) (h : decrypt env sk ct = .ok data) :
    ∃ p, Denotes ct.policy.1 ct.policy.2 p ∧ p.sat (sk.dJ.map (·.string)) = true ∧ sk.dJ ≠ [] := by
  have h' := h
  simp only [decrypt, recoverMsg, Res.bind_eq_ok] at h'
  obtain ⟨_, ⟨v, hv, _⟩, _⟩ := h'
  obtain ⟨p, rfl, _⟩ := parse_ok hv
  refine ⟨p, hv, ?_, ?_⟩
  · by_contra hc
    rw [C26_bsw_refuses env sk ct p hv (Or.inl (by simpa using hc))] at h
    simp at h
  · intro hc
    rw [C26_bsw_refuses env sk ct p hv (Or.inr hc)] at h
    simp at h

/-- A key owning one of two needed attributes. -/
example (x y z : Fr) : let sk : SecretKey Fr Fr := ⟨x, [⟨['A'], y, z⟩]⟩
    ∃ p, Denotes (chars% "\"A\" and \"B\"") .human p ∧ p.sat (sk.dJ.map (·.string)) = false :=
  ⟨.gate .and [.leaf ['A'] 2, .leaf ['B'] 10], rfl, by simp⟩

/-! ## Delegation -/

/-- `sk'` is obtained from `sk` by successful calls of `delegate`, the last one for the attributes `sub`. -/
inductive DelegationChain (env : Env F G1 G2 Gt) (pk : PublicKey G1 G2 Gt) :
    SecretKey G1 G2 → SecretKey G1 G2 → List Str → Prop
  | single {sk sk' sub t t'} : delegate env pk sk sub t = .ok (some sk', t') → DelegationChain env pk sk sk' sub
  | step {sk sk₁ sk₂ sub₁ sub₂ t t'} : DelegationChain env pk sk sk₁ sub₁ →
      delegate env pk sk₁ sub₂ t = .ok (some sk₂, t') → DelegationChain env pk sk sk₂ sub₂

/-- **C27.** A key obtained from an issued key by any number of delegations, the last one for the attributes `sub`, is
equal to a key that `keygen` issues for `sub` with suitable random numbers. -/
theorem C27_delegated_key_is_issued_key (env : Env F G1 G2 Gt)
    (t₁ t₁' : Tape F G1 G2 Gt) (pk : PublicKey G1 G2 Gt) (msk : MasterKey F G2)
    (hsetup : setup env t₁ = .ok ((pk, msk), t₁'))
    (attrs : List Str) (t₂ t₂' : Tape F G1 G2 Gt) (sk : SecretKey G1 G2)
    (hkey : keygen env pk msk attrs t₂ = .ok (some sk, t₂'))
    (sk' : SecretKey G1 G2) (sub : List Str) (hchain : DelegationChain env pk sk sk' sub) :
    (∃ t t', keygen env pk msk sub t = .ok (some sk', t')) ∧ sub ≠ [] ∧ (∀ x ∈ sub, x ∈ attrs) := by
  obtain ⟨α, β, hs⟩ := setup_ok hsetup
  obtain ⟨_, hβ, r, hk⟩ := keygen_ok hkey
  have : sub ≠ [] ∧ (∀ x ∈ sub, x ∈ attrs) ∧ ∃ r', IsKey env pk msk sub sk' r' := by
    induction hchain with
    | single h => exact delegate_ok hs hk h
    | step _ h ih =>
      obtain ⟨_, hsub, r', hk'⟩ := ih
      obtain ⟨hne, hsub', hk''⟩ := delegate_ok hs hk' h
      exact ⟨hne, fun x hx => hsub x (hsub' x hx), hk''⟩
  obtain ⟨hne, hsub, r', hk'⟩ := this
  exact ⟨keygen_surj hne hβ hk' t₁, hne, hsub⟩

/-- **C27**, decryption: the delegated key decrypts what an issued key for `sub` decrypts. -/
theorem C27_delegated_key_decrypts [BigChar F] (env : Env F G1 G2 Gt)
    (t₁ t₁' : Tape F G1 G2 Gt) (pk : PublicKey G1 G2 Gt) (msk : MasterKey F G2)
    (hsetup : setup env t₁ = .ok ((pk, msk), t₁'))
    (attrs : List Str) (t₂ t₂' : Tape F G1 G2 Gt) (sk : SecretKey G1 G2)
    (hkey : keygen env pk msk attrs t₂ = .ok (some sk, t₂'))
    (sk' : SecretKey G1 G2) (sub : List Str) (hchain : DelegationChain env pk sk sk' sub)
    (text : Str) (lang : PolicyLanguage) (p : Pol) (hreg : Regular text lang p)
    (hname : ∀ n ∈ p.names, n ∈ sub → '_' ∉ n)
    (plaintext : Bytes) (t₃ t₃' : Tape F G1 G2 Gt) (ct : Ciphertext G1 G2 Gt)
    (henc : encrypt env pk text lang plaintext t₃ = .ok (ct, t₃')) (hsat : p.sat sub = true) :
    decrypt env sk' ct = .ok plaintext := by
  obtain ⟨⟨t, t', h⟩, _⟩ := C27_delegated_key_is_issued_key env t₁ t₁' pk msk hsetup attrs t₂ t₂' sk hkey sk' sub hchain
  exact C25_bsw_correct_partial env t₁ t₁' pk msk hsetup sub t t' sk' h text lang p hreg hname plaintext t₃ t₃' ct henc hsat

/-- **C28.** For every key, delegation to a list of attributes yields a key iff the list is non-empty and contained in
the key's attributes; otherwise it yields none; it never aborts; the new key carries exactly the requested attributes. -/
theorem C28_delegation_never_widens (env : Env F G1 G2 Gt) (pk : PublicKey G1 G2 Gt) (sk : SecretKey G1 G2)
    (sub : List Str) (t : Tape F G1 G2 Gt) :
    (sub ≠ [] ∧ (∀ x ∈ sub, x ∈ sk.dJ.map (·.string)) →
      ∃ sk' t', delegate env pk sk sub t = .ok (some sk', t') ∧ sk'.dJ.map (·.string) = sub) ∧
    (¬ (sub ≠ [] ∧ ∀ x ∈ sub, x ∈ sk.dJ.map (·.string)) → delegate env pk sk sub t = .ok (none, t)) := by
  constructor
  · rintro ⟨hne, hsub⟩
    have h1 : isSubset sub (sk.dJ.map (·.string)) = true := by rw [isSubset_iff]; exact hsub
    have h2 : (sub.isEmpty || sub.length == 0) = false := by cases sub <;> simp_all
    have hfind : ∀ x ∈ sub, ∃ v, sk.dJ.find? (fun y => y.string == x) = some v := by
      intro x hx
      obtain ⟨v, hv, hvx⟩ := List.mem_map.1 (hsub x hx)
      exact Option.isSome_iff_exists.1 (List.find?_isSome.2 ⟨v, hv, by simpa using hvx⟩)
    obtain ⟨dJ, t', h⟩ := RM.mapL_total (f := delegateAttr env pk sk (t.fr 0)) (xs := sub) (by
      intro x hx s
      obtain ⟨v, hv⟩ := hfind x hx
      simp [delegateAttr, RM.genFr, hv]) { t with fr := dropS 1 t.fr }
    refine ⟨⟨sk.d + t.fr 0 • pk.f, dJ⟩, t', ?_, ?_⟩
    · simp [delegate, h1, h2, RM.bind_apply, RM.genFr, h]
    · have := Forall₂.map_eq (f := id) (g := fun x : Attribute G1 G2 => x.string) (RM.mapL_ok h) (by
        rintro a x ⟨s, s', hx⟩
        simp only [delegateAttr, RM.bind_ok, RM.pure_ok] at hx
        obtain ⟨_, _, _, _, _, _, rfl, _⟩ := hx
        rfl)
      simpa using this
  · intro h
    unfold delegate
    by_cases h1 : isSubset sub (sk.dJ.map (·.string)) = true
    · have h2 : sub = [] := by
        by_contra hne
        exact h ⟨hne, (isSubset_iff _ _).1 h1⟩
      subst h2
      simp [isSubset]
    · simp [h1]

/-- Delegating the key for `A, B, C` to `C, A` and then to `A`, in the concrete environment. -/
example : ∃ (pk : PublicKey Fr Fr Fr) (msk : MasterKey Fr Fr) (sk sk' : SecretKey Fr Fr) (t₁ t₂ : Tape Fr Fr Fr Fr),
    setup toyEnv toyTape = .ok ((pk, msk), t₁) ∧
    keygen toyEnv pk msk [['A'], ['B'], ['C']] toyTape = .ok (some sk, t₂) ∧
    DelegationChain toyEnv pk sk sk' [['A']] := by
  obtain ⟨d1, d2, _⟩ := C25_bsw_defined toyEnv
  obtain ⟨pk, msk, t₁, h1⟩ := d1 toyTape (by simp [toyTape])
  obtain ⟨sk, t₂, h2⟩ := d2 _ _ _ _ h1 [['A'], ['B'], ['C']] (by simp) toyTape
  obtain ⟨_, _, r, hk⟩ := keygen_ok h2
  obtain ⟨sk₁, t₃, h3, hs3⟩ := (C28_delegation_never_widens toyEnv pk sk [['C'], ['A']] toyTape).1
    ⟨by simp, by rw [key_strings hk]; simp⟩
  obtain ⟨sk₂, t₄, h4, _⟩ := (C28_delegation_never_widens toyEnv pk sk₁ [['A']] toyTape).1
    ⟨by simp, by rw [hs3]; simp⟩
  exact ⟨pk, msk, sk, sk₂, t₁, t₂, h1, h2, .step (.single h3) h4⟩

/-! ## Transferring components -/

/-- An attack with public values only: turn a key component for attribute `x.string` into one for attribute `a`
by rescaling with the (publicly computable) hashes. -/
def forgeAttr (env : Env F G1 G2 Gt) (x : Attribute G1 G2) (a : Str) : Attribute G1 G2 :=
  { string := a, g1 := (env.hash x.string * (env.hash a)⁻¹) • x.g1, g2 := x.g2 }

/-- Turn a key with at least one component into a key for the attributes `attrs`. -/
def forgeKey (env : Env F G1 G2 Gt) (sk : SecretKey G1 G2) (attrs : List Str) : SecretKey G1 G2 :=
  match sk.dJ with
  | [] => sk
  | x :: _ => { d := sk.d, dJ := attrs.map (forgeAttr env x) }

/-- **C29 is violated.** For any public and master key, from any issued key the function `forgeKey`, which uses only the key and the public hash, makes a
key for any attributes (with non-zero hashes); it is equal to a key `keygen` would issue for them. -/
theorem C29_violated (env : Env F G1 G2 Gt)
    (pk : PublicKey G1 G2 Gt) (msk : MasterKey F G2)
    (attrs : List Str) (t₂ t₂' : Tape F G1 G2 Gt) (sk : SecretKey G1 G2)
    (hkey : keygen env pk msk attrs t₂ = .ok (some sk, t₂'))
    (wanted : List Str) (hne : wanted ≠ []) (hhash : ∀ a ∈ wanted, env.hash a ≠ 0) :
    ∃ t t', keygen env pk msk wanted t = .ok (some (forgeKey env sk wanted), t') := by
  obtain ⟨hane, hβ, r, hk⟩ := keygen_ok hkey
  have hx : ∃ x xs, sk.dJ = x :: xs := by
    cases hd : sk.dJ with
    | nil =>
      have := key_strings hk
      rw [hd] at this
      exact absurd this.symm hane
    | cons x xs => exact ⟨x, xs, rfl⟩
  obtain ⟨x, xs, hx⟩ := hx
  obtain ⟨b, _, hb, rj, e1, e2⟩ := Forall₂.mem_right hk.dJ x (by rw [hx]; simp)
  refine keygen_surj hne hβ (r := r) ⟨?_, ?_⟩ t₂
  · simp only [forgeKey, hx]; exact hk.d
  · simp only [forgeKey, hx]
    have : ∀ L : List Str, (∀ a ∈ L, env.hash a ≠ 0) → List.Forall₂ (fun a (x : Attribute G1 G2) => x.string = a ∧
        ∃ rj : F, x.g1 = rj • pk.g1 ∧ x.g2 = r • pk.g2 + rj • env.hash a • pk.g2) L (L.map (forgeAttr env x)) := by
      intro L hL
      induction L with
      | nil => exact .nil
      | cons a L ih =>
        refine .cons ⟨rfl, env.hash x.string * (env.hash a)⁻¹ * rj, ?_, ?_⟩ (ih fun a ha => hL a (by simp [ha]))
        · simp only [forgeAttr, e1, smul_smul]
        · have ha := hL a (by simp)
          simp only [forgeAttr, e2, hb, smul_smul]
          congr 2
          field_simp
    exact this wanted hhash

/-- The forged key reads a ciphertext whose policy the original key does not satisfy. -/
theorem C29_violated_decrypts [BigChar F] (env : Env F G1 G2 Gt)
    (t₁ t₁' : Tape F G1 G2 Gt) (pk : PublicKey G1 G2 Gt) (msk : MasterKey F G2)
    (hsetup : setup env t₁ = .ok ((pk, msk), t₁'))
    (attrs : List Str) (t₂ t₂' : Tape F G1 G2 Gt) (sk : SecretKey G1 G2)
    (hkey : keygen env pk msk attrs t₂ = .ok (some sk, t₂'))
    (text : Str) (lang : PolicyLanguage) (p : Pol) (hreg : Regular text lang p)
    (hname : ∀ n ∈ p.names, '_' ∉ n) (hne : p.names ≠ []) (hhash : ∀ n ∈ p.names, env.hash n ≠ 0)
    (plaintext : Bytes) (t₃ t₃' : Tape F G1 G2 Gt) (ct : Ciphertext G1 G2 Gt)
    (henc : encrypt env pk text lang plaintext t₃ = .ok (ct, t₃')) (_hsat : p.sat attrs = false) :
    decrypt env (forgeKey env sk p.names) ct = .ok plaintext := by
  obtain ⟨t, t', h⟩ := C29_violated env pk msk attrs t₂ t₂' sk hkey p.names hne hhash
  refine C25_bsw_correct_partial env t₁ t₁' pk msk hsetup p.names t t' _ h text lang p hreg
    (fun n hn _ => hname n hn) plaintext t₃ t₃' ct
    henc ?_
  exact sat_names p hreg.wide

/-- A key for `A` forged into one for `B` and `C`, in the concrete environment. -/
example : ∃ (pk : PublicKey Fr Fr Fr) (msk : MasterKey Fr Fr) (sk : SecretKey Fr Fr) (t₁ t₂ : Tape Fr Fr Fr Fr),
    setup toyEnv toyTape = .ok ((pk, msk), t₁) ∧ keygen toyEnv pk msk [['A']] toyTape = .ok (some sk, t₂) ∧
    (∀ a ∈ [['B'], ['C']], toyEnv.hash a ≠ 0) ∧
    ∃ p, Regular (chars% "\"B\" and \"C\"") .human p ∧ p.names = [['B'], ['C']] ∧ p.sat [['A']] = false := by
  obtain ⟨d1, d2, _⟩ := C25_bsw_defined toyEnv
  obtain ⟨pk, msk, t₁, h1⟩ := d1 toyTape (by simp [toyTape])
  obtain ⟨sk, t₂, h2⟩ := d2 _ _ _ _ h1 [['A']] (by simp) toyTape
  refine ⟨pk, msk, sk, t₁, t₂, h1, h2, ?_, .gate .and [.leaf ['B'] 2, .leaf ['C'] 10],
    ⟨rfl, by simp, by simp [Pol.Wide], by simp⟩, by simp [Pol.names], by simp⟩
  show ∀ a ∈ [['B'], ['C']], toyHash a ≠ 0
  decide +kernel

/-- Decryption with another first key component. -/
theorem recoverMsg_d (env : Env F G1 G2 Gt) (sk : SecretKey G1 G2) (d : G2) (ct : Ciphertext G1 G2 Gt) (msg : Gt)
    (h : recoverMsg env sk ct = .ok msg) :
    recoverMsg env ⟨d, sk.dJ⟩ ct = .ok (msg + env.pair ct.c (sk.d - d)) := by
  simp only [recoverMsg, Res.bind_eq_ok] at h ⊢
  obtain ⟨v, hv, h⟩ := h
  refine ⟨v, hv, ?_⟩
  split at h
  · simp at h
  · rename_i ht
    rw [if_neg ht]
    simp only [Res.bind_eq_ok] at h ⊢
    obtain ⟨pr, hpr, h⟩ := h
    refine ⟨pr, hpr, ?_⟩
    split at h
    · simp at h
    · rename_i hpr'
      rw [if_neg hpr']
      simp only [Res.bind_eq_ok] at h ⊢
      obtain ⟨z?, hz?, z, hz, h⟩ := h
      refine ⟨z?, hz?, z, hz, ?_⟩
      have : prunedLoop env ⟨d, sk.dJ⟩ ct z pr.2 0 = prunedLoop env sk ct z pr.2 0 := by
        generalize (0 : Gt) = a
        induction pr.2 generalizing a with
        | nil => rfl
        | cons x xs ih => simp only [prunedLoop, ih]
      rw [this]
      simp only [Res.ok.injEq] at h ⊢
      rw [← h, map_sub]
      abel

/-- **C29, partial: no splicing of two users' keys.** Combine the first component of one issued key with the attribute
components of another one. On a ciphertext for a policy satisfied by the second user, `decrypt` computes the right session
element shifted by `s (r₂ - r₁) e(g₁, g₂)`, where `r₁`, `r₂` are the users' exponents; so it is right only if that is
zero. (Full claim: no public computation on a key extends its attributes; false, see `C29_violated`.) -/
theorem C29_no_splicing_partial [BigChar F] (env : Env F G1 G2 Gt)
    (t₁ t₁' : Tape F G1 G2 Gt) (pk : PublicKey G1 G2 Gt) (msk : MasterKey F G2)
    (hsetup : setup env t₁ = .ok ((pk, msk), t₁'))
    (attrs₁ attrs₂ : List Str) (t₂ t₂' t₃ t₃' : Tape F G1 G2 Gt) (sk₁ sk₂ : SecretKey G1 G2)
    (hkey₁ : keygen env pk msk attrs₁ t₂ = .ok (some sk₁, t₂'))
    (hkey₂ : keygen env pk msk attrs₂ t₃ = .ok (some sk₂, t₃'))
    (text : Str) (lang : PolicyLanguage) (p : Pol) (hreg : Regular text lang p)
    (hname : ∀ n ∈ p.names, n ∈ attrs₂ → '_' ∉ n)
    (plaintext : Bytes) (t₄ t₄' : Tape F G1 G2 Gt) (ct : Ciphertext G1 G2 Gt)
    (henc : encrypt env pk text lang plaintext t₄ = .ok (ct, t₄'))
    (hsat : p.sat attrs₂ = true) :
    ∃ msg, recoverMsg env sk₂ ct = .ok msg ∧
      recoverMsg env ⟨sk₁.d, sk₂.dJ⟩ ct = .ok (msg + (t₄.fr 0 * (t₃.fr 0 - t₂.fr 0)) • env.pair pk.g1 pk.g2) := by
  obtain ⟨α, β, hs⟩ := setup_ok hsetup
  obtain ⟨hne, _, r, hk⟩ := keygen_ok hkey₂
  obtain ⟨msg, s, ω, hc, hd⟩ := encrypt_ok hreg.denotes henc
  have hu : ∀ l ∈ pick attrs₂ p, '_' ∉ l.1 := fun l hl =>
    hname _ (List.mem_map.2 ⟨l, (pick_sublist attrs₂ p).subset hl, rfl⟩) (pick_owned attrs₂ p l hl)
  have h := recoverMsg_ok hs hk hc hsat hreg.wide hreg.fits hreg.labels hu hne
  refine ⟨msg, h, ?_⟩
  rw [recoverMsg_d env sk₂ sk₁.d ct msg h]
  have hd : ∀ {attrs t sk t'}, keygen env pk msk attrs t = .ok (some sk, t') →
      sk.d = msk.beta⁻¹ • (msk.g2Alpha + t.fr 0 • pk.g2) := by
    intro attrs t sk t' hk
    unfold keygen at hk
    split at hk
    · simp at hk
    · simp only [RM.bind_ok, RM.genFr, RM.lift_ok_iff, RM.pure_ok, inv, Res.ok.injEq, Prod.mk.injEq,
        Option.some.injEq] at hk
      obtain ⟨r, t1, ⟨rfl, rfl⟩, bi, t2, ⟨hb, rfl⟩, dJ, t3, hd, rfl, _⟩ := hk
      split at hb
      · simp at hb
      · simp only [Res.ok.injEq] at hb
        rw [← hb]
  have hcc : ct.c = t₄.fr 0 • pk.h := by
    simp only [encrypt, RM.bind_ok, RM.genFr, RM.pure_ok, Res.ok.injEq, Prod.mk.injEq] at henc
    obtain ⟨s, t1, ⟨rfl, rfl⟩, msg, t2, _, pv, t3, _, sh, t4, _, shs, t5, _, data, t6, _, rfl, _⟩ := henc
    rfl
  rw [hd hkey₁, hd hkey₂, hcc, hs.h, hs.beta]
  congr 2
  simp only [map_smul, map_add, map_sub, LinearMap.smul_apply]
  have hβ := hs.beta_ne
  match_scalars <;> field_simp <;> ring

/-! ## Order of the attributes -/

/-- **C53, BSW.** For every ciphertext (of any origin) and every key with distinct attribute names, the outcome of
`decrypt` does not depend on the order of the key's components. -/
theorem C53_bsw_order (env : Env F G1 G2 Gt) (ct : Ciphertext G1 G2 Gt) (sk sk' : SecretKey G1 G2)
    (hd : sk'.d = sk.d) (hperm : sk'.dJ.Perm sk.dJ) (hn : (sk.dJ.map (·.string)).Nodup) :
    decrypt env sk' ct = decrypt env sk ct := by
  have hmem : ∀ x, x ∈ sk'.dJ.map (·.string) ↔ x ∈ sk.dJ.map (·.string) := fun x => (hperm.map _).mem_iff
  have hloop : ∀ (z : List (Str × F)) l a, prunedLoop env sk' ct z l a = prunedLoop env sk ct z l a := by
    intro z l
    induction l with
    | nil => intro a; rfl
    | cons x l ih =>
      intro a
      simp only [prunedLoop]
      rw [find?_perm (fun a : Attribute G1 G2 => a.string) hperm ((hperm.map _).nodup_iff.2 hn) x.1, ih]
  cases hp : parse ct.policy.1 ct.policy.2 with
  | err => simp only [decrypt, recoverMsg, hp, Res.err_bind]
  | panic => simp only [decrypt, recoverMsg, hp, Res.panic_bind]
  | ok v =>
    obtain ⟨p, rfl, _⟩ := parse_ok hp
    simp only [decrypt, recoverMsg, hp, Res.ok_bind, traverse_congr hmem p, calcPruned_congr hmem p, hloop, hd]

/-- **C53, BSW, larger keys, partial.** For issued keys and regular policies without underscores: if a key for `attrs`
decrypts, so does every issued key for a list containing `attrs` (in any order), with the same result. (Full claim: for
every accepted policy; false, see `C53_violated_bsw`.) -/
theorem C53_bsw_larger_partial [BigChar F] (env : Env F G1 G2 Gt)
    (t₁ t₁' : Tape F G1 G2 Gt) (pk : PublicKey G1 G2 Gt) (msk : MasterKey F G2)
    (hsetup : setup env t₁ = .ok ((pk, msk), t₁'))
    (attrs attrs' : List Str) (hsub : ∀ x ∈ attrs, x ∈ attrs')
    (s₁ s₁' s₂ s₂' : Tape F G1 G2 Gt) (sk sk' : SecretKey G1 G2)
    (hkey : keygen env pk msk attrs s₁ = .ok (some sk, s₁'))
    (hkey' : keygen env pk msk attrs' s₂ = .ok (some sk', s₂'))
    (text : Str) (lang : PolicyLanguage) (p : Pol) (hreg : Regular text lang p) (hname : ∀ n ∈ p.names, n ∈ attrs' → '_' ∉ n)
    (plaintext : Bytes) (t₄ t₄' : Tape F G1 G2 Gt) (ct : Ciphertext G1 G2 Gt)
    (henc : encrypt env pk text lang plaintext t₄ = .ok (ct, t₄'))
    (data : Bytes) (hdec : decrypt env sk ct = .ok data) : decrypt env sk' ct = .ok data := by
  obtain ⟨p', hp', hsat, _⟩ := C26_bsw_decrypts_only_if_satisfied env sk ct data hdec
  have hpol : ct.policy = (text, lang) := by
    simp only [encrypt, RM.bind_ok, RM.pure_ok] at henc
    obtain ⟨s, t1, _, msg, t2, _, pv, t3, _, sh, t4, _, shs, t5, _, data, t6, _, rfl, _⟩ := henc
    rfl
  have hpp : p'.toValue = p.toValue := by
    have h3 : parse ct.policy.1 ct.policy.2 = .ok p'.toValue := hp'
    rw [hpol, show parse (text, lang).1 (text, lang).2 = .ok p.toValue from hreg.denotes] at h3
    exact (Res.ok.inj h3).symm
  obtain ⟨hne, _, r, hk⟩ := keygen_ok hkey
  rw [key_strings hk] at hsat
  have hs : p.sat attrs = true := by
    have := traverse_eq_sat attrs hne p' .leaf
    rw [hpp, traverse_eq_sat attrs hne p] at this
    rw [this, hsat]
  have e := C25_bsw_correct_partial env t₁ t₁' pk msk hsetup attrs s₁ s₁' sk hkey text lang p hreg
    (fun n hn ha => hname n hn (hsub n ha)) plaintext
    t₄ t₄' ct henc hs
  rw [hdec] at e
  obtain rfl := Res.ok.inj e
  exact C25_bsw_correct_partial env t₁ t₁' pk msk hsetup attrs' s₂ s₂' sk' hkey' text lang p hreg hname data
    t₄ t₄' ct henc (sat_mono hsub p hs)

/-- The whole workflow in the concrete environment with two keys. -/
def toyRun₂ (attrs attrs' : List Str) (text : Str) (lang : PolicyLanguage) (plaintext : Bytes) :
    Res (Res Bytes × Res Bytes) := do
  let x ← setup toyEnv toyTape
  let y ← keygen toyEnv x.1.1 x.1.2 attrs toyTape
  let sk ← Res.unwrapOption y.1
  let y' ← keygen toyEnv x.1.1 x.1.2 attrs' toyTape
  let sk' ← Res.unwrapOption y'.1
  let z ← encrypt toyEnv x.1.1 text lang plaintext toyTape
  .ok (decrypt toyEnv sk z.1, decrypt toyEnv sk' z.1)

theorem toyRun₂_ok {attrs attrs' text lang plaintext r r'}
    (h : toyRun₂ attrs attrs' text lang plaintext = .ok (r, r')) :
    ∃ pk msk sk sk' ct t₁ t₂ t₃ t₄, setup toyEnv toyTape = .ok ((pk, msk), t₁) ∧
      keygen toyEnv pk msk attrs toyTape = .ok (some sk, t₂) ∧
      keygen toyEnv pk msk attrs' toyTape = .ok (some sk', t₃) ∧
      encrypt toyEnv pk text lang plaintext toyTape = .ok (ct, t₄) ∧
      decrypt toyEnv sk ct = r ∧ decrypt toyEnv sk' ct = r' := by
  simp only [toyRun₂, Res.bind_eq_ok, Res.ok.injEq] at h
  obtain ⟨⟨⟨pk, msk⟩, t1⟩, h1, ⟨o, t2⟩, h2, sk, h3, ⟨o', t3⟩, h4, sk', h5, ⟨ct, t4⟩, h6, h7⟩ := h
  cases o with
  | none => simp at h3
  | some k =>
    cases o' with
    | none => simp at h5
    | some k' =>
      obtain rfl := Res.ok.inj h3
      obtain rfl := Res.ok.inj h5
      obtain ⟨h8, h9⟩ := Prod.mk.inj h7
      exact ⟨pk, msk, k, k', ct, t1, t2, t3, t4, h1, h2, h4, h6, h8, h9⟩

/-- **C53 is violated.** For `"B_1" or "A"` a key for `A` decrypts, and a key for `A`, `B_1` does not. -/
theorem C53_violated_bsw : ∃ (p : Pol) (pk : PublicKey Fr Fr Fr) (msk : MasterKey Fr Fr) (sk sk' : SecretKey Fr Fr)
    (ct : Ciphertext Fr Fr Fr) (t₁ t₂ t₃ t₄ : Tape Fr Fr Fr Fr),
    Regular (chars% "\"B_1\" or \"A\"") .human p ∧
    setup toyEnv toyTape = .ok ((pk, msk), t₁) ∧
    keygen toyEnv pk msk [['A']] toyTape = .ok (some sk, t₂) ∧
    keygen toyEnv pk msk [['A'], (chars% "B_1")] toyTape = .ok (some sk', t₃) ∧
    encrypt toyEnv pk (chars% "\"B_1\" or \"A\"") .human [7] toyTape = .ok (ct, t₄) ∧
    decrypt toyEnv sk ct = .ok [7] ∧ decrypt toyEnv sk' ct = .err := by
  have h : toyRun₂ [['A']] [['A'], (chars% "B_1")] (chars% "\"B_1\" or \"A\"") .human [7] = .ok (.ok [7], .err) := by
    decide +kernel
  obtain ⟨pk, msk, sk, sk', ct, t1, t2, t3, t4, h⟩ := toyRun₂_ok h
  exact ⟨.gate .or [.leaf (chars% "B_1") 2, .leaf ['A'] 11], pk, msk, sk, sk', ct, t1, t2, t3, t4,
    ⟨rfl, by simp, by simp [Pol.Wide], by simp⟩, h⟩

/-- Two keys and a policy meeting all hypotheses of `C53_bsw_larger_partial`. -/
example : ∃ (p : Pol) (pk : PublicKey Fr Fr Fr) (msk : MasterKey Fr Fr) (sk sk' : SecretKey Fr Fr)
    (ct : Ciphertext Fr Fr Fr) (t₁ t₂ t₃ t₄ : Tape Fr Fr Fr Fr),
    Regular (chars% "\"B\" or \"A\"") .human p ∧ (∀ n ∈ p.names, '_' ∉ n) ∧
    setup toyEnv toyTape = .ok ((pk, msk), t₁) ∧
    keygen toyEnv pk msk [['A']] toyTape = .ok (some sk, t₂) ∧
    keygen toyEnv pk msk [['B'], ['A']] toyTape = .ok (some sk', t₃) ∧
    encrypt toyEnv pk (chars% "\"B\" or \"A\"") .human [7] toyTape = .ok (ct, t₄) ∧
    decrypt toyEnv sk ct = .ok [7] ∧ decrypt toyEnv sk' ct = .ok [7] := by
  have h : toyRun₂ [['A']] [['B'], ['A']] (chars% "\"B\" or \"A\"") .human [7] = .ok (.ok [7], .ok [7]) := by
    decide +kernel
  obtain ⟨pk, msk, sk, sk', ct, t1, t2, t3, t4, h⟩ := toyRun₂_ok h
  exact ⟨.gate .or [.leaf ['B'] 2, .leaf ['A'] 9], pk, msk, sk, sk', ct, t1, t2, t3, t4,
    ⟨rfl, by simp, by simp [Pol.Wide], by simp⟩, by simp [Pol.names], h⟩

end Bsw
end Rabe
