import Verif.Model.TestsKp
import Verif.Props.Tests
import Verif.Props.AttributeLists

/-!
# Property C105: the unit tests of the modules `ac17`, `lsw` and `yct14`

For every plaintext that the symmetric encryption accepts, every environment and all random numbers.
-/

namespace Rabe

set_option linter.unusedSectionVars false

variable {F G1 G2 Gt : Type} [Field F] [DecidableEq F] [AddCommGroup G1] [Module F G1]
  [AddCommGroup G2] [Module F G2] [AddCommGroup Gt] [Module F Gt]

namespace Lsw

/-- **C105, LSW.** A test of this form ends normally, whatever the random numbers: for every policy on one line with at least two
operands at every gate and names that are not bad, and every list of attributes that satisfies it, shares no repeated name or name
with an underscore with it, and no name that begins with `!`. -/
theorem C105_test [BigChar F] (env : Env F G1 G2 Gt) (attrs : List Str) (text : Str) (p : Pol) (hr : Regular text .json p)
    (hn : ∀ n ∈ p.names, ¬ BadName n) (hsat : p.sat attrs = true) (hsep : Separate p attrs) (hpos : Positive p attrs)
    (hne : attrs ≠ []) (pt : Bytes) (ha : Accepts env pt) (hpt : pt ≠ []) (s : Tape F G1 G2 Gt) :
    ∃ s', test env attrs text pt s = .ok ((), s') := by
  obtain ⟨d1, d2, d3⟩ := C34_lsw_defined env
  obtain ⟨pk, msk, t₁, h1⟩ := d1 s
  obtain ⟨ct, t₂, h2⟩ := d3 pk attrs pt hne hpt ha t₁
  obtain ⟨sk, t₃, h3⟩ := d2 pk msk _ _ _ hr.denotes hn t₂
  have hd := C34_lsw_correct_partial env _ _ pk msk h1 _ _ _ hr _ _ sk h3 _ pt _ _ ct h2 hsat hsep hpos
  exact ⟨t₃, by simp [test, RM.bind_apply, h1, orPanic_ok h2, orPanic_ok h3, hd, assertPlain_ok]⟩

/-- **C105, LSW, refusal.** The other form ends normally for every such policy and every list that does not satisfy it. -/
theorem C105_refused (env : Env F G1 G2 Gt) (attrs : List Str) (text : Str) (p : Pol) (hr : Regular text .json p)
    (hn : ∀ n ∈ p.names, ¬ BadName n) (hsat : p.sat attrs = false) (hne : attrs ≠ []) (pt : Bytes) (ha : Accepts env pt)
    (hpt : pt ≠ []) (s : Tape F G1 G2 Gt) : ∃ s', testRefused env attrs text pt s = .ok ((), s') := by
  obtain ⟨d1, d2, d3⟩ := C34_lsw_defined env
  obtain ⟨pk, msk, t₁, h1⟩ := d1 s
  obtain ⟨ct, t₂, h2⟩ := d3 pk attrs pt hne hpt ha t₁
  obtain ⟨sk, t₃, h3⟩ := d2 pk msk _ _ _ hr.denotes hn t₂
  obtain ⟨-, hk⟩ := keygen_ok hr.denotes h3
  obtain ⟨_, _, hc, -⟩ := encrypt_ok h2
  have hd : decrypt env sk ct = .err :=
    C35_lsw_refuses env sk ct p (by rw [hk]; exact hr.denotes) hr.wide (by rw [hc.names]; exact hsat)
  exact ⟨t₃, by simp [testRefused, RM.bind_apply, h1, orPanic_ok h2, orPanic_ok h3, hd, assertErr_err]⟩

/-- **C105, LSW, all tests.** `and`, `or`, `or_and` and `not` end normally, whatever the random numbers. -/
theorem C105_all [BigChar F] (env : Env F G1 G2 Gt) (pt : Bytes) (ha : Accepts env pt) (hpt : pt ≠ []) (s : Tape F G1 G2 Gt) :
    (∃ s', testAnd env pt s = .ok ((), s')) ∧ (∃ s', testOr env pt s = .ok ((), s')) ∧
      (∃ s', testOrAnd env pt s = .ok ((), s')) ∧ ∃ s', testNot env pt s = .ok ((), s') := by
  refine ⟨?_, ?_, ?_, ?_⟩
  · exact C105_test env _ _ (.gate .and [.leaf ['C'] 40, .leaf ['B'] 55])
      ⟨denotes_of_same (by decide +kernel), by decide +kernel, by simp [Pol.Wide], by simp⟩ (by simp [Pol.names, BadName]) (by simp)
      (by simp [Separate, Pol.names]) (by simp [Positive, Pol.names]) (by simp) pt ha hpt s
  · exact C105_test env _ _ (.gate .or [.leaf ['X'] 39, .leaf ['B'] 54])
      ⟨denotes_of_same (by decide +kernel), by decide +kernel, by simp [Pol.Wide], by simp⟩ (by simp [Pol.names, BadName]) (by simp)
      (by simp [Separate, Pol.names]) (by simp [Positive, Pol.names]) (by simp) pt ha hpt s
  · exact C105_test env _ _ (.gate .or [.leaf ['A'] 39, .gate .and [.leaf ['Y'] 83, .leaf ['Z'] 98]])
      ⟨denotes_of_same (by decide +kernel), by decide +kernel, by simp [Pol.Wide], by simp⟩ (by simp [Pol.names, BadName]) (by simp)
      (by simp [Separate, Pol.names]) (by simp [Positive, Pol.names]) (by simp) pt ha hpt s
  · exact C105_refused env _ _ (.gate .or [.leaf ['X'] 39, .leaf ['Y'] 54])
      ⟨denotes_of_same (by decide +kernel), by decide +kernel, by simp [Pol.Wide], by simp⟩ (by simp [Pol.names, BadName]) (by simp)
      (by simp) pt ha hpt s

/-- The hypotheses hold, also if all random numbers are zero. -/
example : ∃ s', testOrAnd toyEnv [7, 8] zeroTape = .ok ((), s') := (C105_all toyEnv [7, 8] (toy_accepts _) (by simp) zeroTape).2.2.1

end Lsw

namespace Yct14

theorem posA : ∀ i, ([['A'], ['B'], ['C']] : List Str)[i]? = some ['A'] → i = 0
  | 0, _ => rfl
  | 1, h | 2, h | _ + 3, h => by simp at h

theorem posC : ∀ i, ([['A'], ['B'], ['C']] : List Str)[i]? = some ['C'] → i = 2
  | 2, _ => rfl
  | 0, h | 1, h | _ + 3, h => by simp at h

/-- **C105, YCT14, partial.** The test ends normally if the second and the fourth random number (the secrets of `A` and `C`) are not
zero, and aborts if one is. -/
theorem C105_test_partial [BigChar F] (env : Env F G1 G2 Gt) (pt : Bytes) (ha : Accepts env pt) (hpt : pt ≠ [])
    (s : Tape F G1 G2 Gt) : (s.fr 1 ≠ 0 ∧ s.fr 3 ≠ 0 → ∃ s', testOr env pt s = .ok ((), s')) ∧
      (¬ (s.fr 1 ≠ 0 ∧ s.fr 3 ≠ 0) → testOr env pt s = .panic) := by
  have hr : Regular (chars% "{\"name\": \"or\", \"children\": [{\"name\": \"A\"}, {\"name\": \"C\"}]}") .json
      (.gate .or [.leaf ['A'] 39, .leaf ['C'] 54]) :=
    ⟨denotes_of_same (by decide +kernel), by decide +kernel, by simp [Pol.Wide], by simp⟩
  obtain ⟨d1, d2⟩ := C36_yct14_defined env [['A'], ['B'], ['C']]
  obtain ⟨pk, msk, t₁, h1⟩ := d1 s
  obtain ⟨ct, t₂, h2⟩ := (d2 _ _ _ _ h1).2 [['A'], ['B'], ['C']] pt (by simp) (by simp) hpt ha t₁
  obtain ⟨k1, k2⟩ := C102_keygen_numbers_partial _ _ _ pk msk h1 _ _ _ hr.denotes t₂
  have hA : (['A'] : Str).takeWhile (· != '_') = ['A'] := by decide
  have hC : (['C'] : Str).takeWhile (· != '_') = ['C'] := by decide
  constructor
  · rintro ⟨n1, n3⟩
    obtain ⟨sk, t₃, h3⟩ := k2 (by
      rintro ⟨n, hn, i, hi, -, hz⟩
      have hn' : n = ['A'] ∨ n = ['C'] := by simpa [Pol.names] using hn
      rcases hn' with rfl | rfl
      · rw [hA] at hi
        rw [posA i hi] at hz
        exact n1 hz
      · rw [hC] at hi
        rw [posC i hi] at hz
        exact n3 hz)
    have hd := C36_yct14_correct_partial env _ _ _ pk msk h1 _ _ _ hr _ _ sk h3 _ pt _ _ ct h2 (by simp)
      (by simp [Separate, Pol.names])
    exact ⟨t₃, by simp [testOr, RM.bind_apply, h1, orPanic_ok h2, orPanic_ok h3, hd, assertPlain_ok]⟩
  · intro n
    have h3 := k1 (by
      by_cases n1 : s.fr 1 = 0
      · exact ⟨['A'], by simp [Pol.names], 0, by simp, by simp, n1⟩
      · refine ⟨['C'], by simp [Pol.names], 2, by simp, ?_, by tauto⟩
        intro j hj
        interval_cases j <;> simp)
    simp [testOr, RM.bind_apply, h1, orPanic_ok h2, orPanic_panic h3]

/-- **C105 is violated, YCT14.** With zero for every random number the test aborts. -/
theorem C105_violated : Accepts toyEnv [7, 8] ∧ testOr toyEnv [7, 8] zeroTape = .panic :=
  ⟨toy_accepts _, (C105_test_partial toyEnv [7, 8] (toy_accepts _) (by simp) zeroTape).2 (by simp [zeroTape])⟩

/-- Random numbers that are not zero. -/
example : ∃ s', testOr toyEnv [7, 8] toyTape = .ok ((), s') :=
  (C105_test_partial toyEnv [7, 8] (toy_accepts _) (by simp) toyTape).1 (by simp [toyTape])

end Yct14

namespace Ac17

/-- **C105, AC17 KP-ABE, partial.** A test of this form ends normally if the first and the third random number are not zero, and
aborts if one is: for every policy on one line with two operands at every `and`, and every list of attributes that satisfies it and
shares no repeated name with it. -/
theorem C105_kp_partial (env : Env F G1 G2 Gt) (attrs : List Str) (text : Str) (p : Pol) (hr : Regular text .json p)
    (hb : p.Binary) (hsat : p.sat attrs = true) (ho : Once p attrs) (pt : Bytes) (ha : Accepts env pt) (s : Tape F G1 G2 Gt) :
    (s.fr 0 ≠ 0 ∧ s.fr 2 ≠ 0 → ∃ s', testKp env attrs text pt s = .ok ((), s')) ∧
      (¬ (s.fr 0 ≠ 0 ∧ s.fr 2 ≠ 0) → testKp env attrs text pt s = .panic) := by
  obtain ⟨pk, msk, t₁, h1⟩ := (C30_ac17_cp_defined env).1 s
  obtain ⟨ct, t₂, h2⟩ := (C32_ac17_kp_defined env).2 _ _ _ _ h1 attrs pt ha t₁
  obtain ⟨k1, k2⟩ := C102_kpKeygen_partial env _ _ pk msk h1 _ _ _ hr.denotes hb t₂
  constructor
  · intro h0
    obtain ⟨sk, t₃, h3⟩ := k1 h0
    have hd := C32_ac17_kp_correct_partial env _ _ pk msk h1 _ _ _ hr _ _ sk h3 _ pt _ _ ct h2 hsat ho
    exact ⟨t₃, by simp [testKp, RM.bind_apply, h1, orPanic_ok h2, orPanic_ok h3, hd, assertPlain_ok]⟩
  · intro h0
    simp [testKp, RM.bind_apply, h1, orPanic_ok h2, orPanic_panic (k2 h0)]

/-- **C105, AC17 CP-ABE, partial.** The same for the tests with the policy in the ciphertext. -/
theorem C105_cp_partial (env : Env F G1 G2 Gt) (attrs : List Str) (text : Str) (p : Pol) (hr : Regular text .json p)
    (hb : p.Binary) (hsat : p.sat attrs = true) (ho : Once p attrs) (hne : attrs ≠ []) (pt : Bytes) (ha : Accepts env pt)
    (s : Tape F G1 G2 Gt) :
    (s.fr 0 ≠ 0 ∧ s.fr 2 ≠ 0 → ∃ s', testCp env attrs text pt s = .ok ((), s')) ∧
      (¬ (s.fr 0 ≠ 0 ∧ s.fr 2 ≠ 0) → testCp env attrs text pt s = .panic) := by
  obtain ⟨d1, d2, d3⟩ := C30_ac17_cp_defined env
  obtain ⟨pk, msk, t₁, h1⟩ := d1 s
  obtain ⟨ct, t₂, h2⟩ := d3 _ _ _ _ h1 _ _ _ hr.denotes hb pt ha t₁
  obtain ⟨k1, k2⟩ := (C101_keygen env _ _ pk msk h1 attrs t₂).2 hne
  constructor
  · intro h0
    obtain ⟨sk, t₃, h3⟩ := k1 h0
    have hd := C30_ac17_cp_correct_partial env _ _ pk msk h1 _ _ _ sk h3 _ _ _ hr pt _ _ ct h2 hsat ho
    exact ⟨t₃, by simp [testCp, RM.bind_apply, h1, orPanic_ok h2, orPanic_ok h3, hd, assertPlain_ok]⟩
  · intro h0
    simp [testCp, RM.bind_apply, h1, orPanic_ok h2, orPanic_panic (k2 h0)]

theorem kpKeygen_policy {env : Env F G1 G2 Gt} {msk : MasterKey F G1 G2} {text lang sk} {s s' : Tape F G1 G2 Gt}
    (h : kpKeygen env msk text lang s = .ok (sk, s')) : sk.policy = (text, lang) := by
  simp only [kpKeygen, RM.bind_ok, RM.pure_ok] at h
  obtain ⟨_, _, -, _, _, -, _, _, -, _, _, -, _, _, -, _, _, -, _, _, -, _, _, -, h⟩ := h
  obtain ⟨rfl, -⟩ := h
  rfl

theorem kpEncrypt_attr {env : Env F G1 G2 Gt} {pk : PublicKey G1 G2 Gt} {attrs pt ct} {s s' : Tape F G1 G2 Gt}
    (h : kpEncrypt env pk attrs pt s = .ok (ct, s')) : ct.attr = attrs := by
  simp only [kpEncrypt, RM.bind_ok, RM.pure_ok] at h
  obtain ⟨_, _, -, _, _, -, _, _, -, _, _, -, _, _, -, _, _, -, h⟩ := h
  obtain ⟨rfl, -⟩ := h
  rfl

/-- The tree of the policy of `kp_and` and `cp_and`. -/
def polAnd : Pol := .gate .and [.leaf ['A'] 40, .leaf ['B'] 55]
/-- The tree of the policy of `kp_or_and`. -/
def polOrAnd : Pol := .gate .or [.gate .and [.leaf ['A'] 67, .leaf ['B'] 82], .gate .and [.leaf ['C'] 128, .leaf ['D'] 143]]
/-- The tree of the policy of `cp_or`. -/
def polOr3 : Pol := .gate .or [.leaf ['A'] 39, .leaf ['B'] 54, .leaf ['C'] 69]
/-- The tree of the policy of `cp_or_and_and`. -/
def polOrAndAnd : Pol := .gate .or [.gate .and [.leaf ['A'] 68, .leaf ['B'] 83], .gate .and [.leaf ['C'] 129, .leaf ['D'] 144]]

theorem polOrAnd_regular : Regular textOrAnd .json polOrAnd :=
  ⟨denotes_of_same (by decide +kernel), by decide +kernel, by simp [Pol.Wide, polOrAnd], by simp [polOrAnd]⟩

/-- **C105, AC17, the test `kp_or_and`, partial.** -/
theorem C105_kpOrAnd_partial (env : Env F G1 G2 Gt) (pt : Bytes) (ha : Accepts env pt) (s : Tape F G1 G2 Gt) :
    (s.fr 0 ≠ 0 ∧ s.fr 2 ≠ 0 → ∃ s', testKpOrAnd env pt s = .ok ((), s')) ∧
      (¬ (s.fr 0 ≠ 0 ∧ s.fr 2 ≠ 0) → testKpOrAnd env pt s = .panic) := by
  have hb : polOrAnd.Binary := by simp [Pol.Binary, polOrAnd]
  have hr := polOrAnd_regular
  obtain ⟨pk, msk, t₁, h1⟩ := (C30_ac17_cp_defined env).1 s
  obtain ⟨ct, t₂, h2⟩ := (C32_ac17_kp_defined env).2 _ _ _ _ h1 [['A'], ['B']] pt ha t₁
  obtain ⟨k1, k2⟩ := C102_kpKeygen_partial env _ _ pk msk h1 _ _ _ hr.denotes hb t₂
  constructor
  · intro h0
    obtain ⟨sk, t₃, h3⟩ := k1 h0
    obtain ⟨ct', t₄, h4⟩ := (C32_ac17_kp_defined env).2 _ _ _ _ h1 [['C'], ['D']] pt ha t₃
    obtain ⟨sk', t₅, h5⟩ := (C102_kpKeygen_partial env _ _ pk msk h1 _ _ _ hr.denotes hb t₄).1 h0
    have hd := C32_ac17_kp_correct_partial env _ _ pk msk h1 _ _ _ hr _ _ sk h3 _ pt _ _ ct h2 (by simp [polOrAnd])
      (by simp [Once, Pol.names, polOrAnd])
    have hd' := C32_ac17_kp_correct_partial env _ _ pk msk h1 _ _ _ hr _ _ sk' h5 _ pt _ _ ct' h4 (by simp [polOrAnd])
      (by simp [Once, Pol.names, polOrAnd])
    exact ⟨t₅, by simp [testKpOrAnd, RM.bind_apply, h1, orPanic_ok h2, orPanic_ok h3, hd, assertPlain_ok, orPanic_ok h4,
      orPanic_ok h5, hd']⟩
  · intro h0
    simp [testKpOrAnd, RM.bind_apply, h1, orPanic_ok h2, orPanic_panic (k2 h0)]

/-- **C105, AC17, the test `kp_not`, partial.** -/
theorem C105_kpNot_partial (env : Env F G1 G2 Gt) (pt : Bytes) (ha : Accepts env pt) (s : Tape F G1 G2 Gt) :
    (s.fr 0 ≠ 0 ∧ s.fr 2 ≠ 0 → ∃ s', testKpNot env pt s = .ok ((), s')) ∧
      (¬ (s.fr 0 ≠ 0 ∧ s.fr 2 ≠ 0) → testKpNot env pt s = .panic) := by
  have hr := testOr_data.regular
  have hb : polOr.Binary := by simp [Pol.Binary, polOr]
  obtain ⟨pk, msk, t₁, h1⟩ := (C30_ac17_cp_defined env).1 s
  obtain ⟨ct, t₂, h2⟩ := (C32_ac17_kp_defined env).2 _ _ _ _ h1 [['C']] pt ha t₁
  obtain ⟨k1, k2⟩ := C102_kpKeygen_partial env _ _ pk msk h1 _ _ _ hr.denotes hb t₂
  rw [show testOr.1 = (chars% "{\"name\": \"or\", \"children\": [{\"name\": \"A\"}, {\"name\": \"B\"}]}") from rfl] at k1 k2
  constructor
  · intro h0
    obtain ⟨sk, t₃, h3⟩ := k1 h0
    have hd : kpDecrypt env sk ct = .err := C33_ac17_kp_refuses env sk ct polOr (by rw [kpKeygen_policy h3]; exact hr.denotes)
      (.inl (by rw [kpEncrypt_attr h2]; simp [polOr]))
    exact ⟨t₃, by simp [testKpNot, RM.bind_apply, h1, orPanic_ok h2, orPanic_ok h3, hd, assertErr_err]⟩
  · intro h0
    simp [testKpNot, RM.bind_apply, h1, orPanic_ok h2, orPanic_panic (k2 h0)]

/-- **C105, AC17, all tests, partial.** Each ends normally if the first and the third random number are not zero, and aborts if one
is. -/
theorem C105_all_partial (env : Env F G1 G2 Gt) (pt : Bytes) (ha : Accepts env pt) (s : Tape F G1 G2 Gt) :
    ∀ m ∈ [testKpAnd env pt, testKpOrAnd env pt, testKpOr env pt, testKpNot env pt, testCpAnd env pt, testCpOr env pt,
        testCpOrAndAnd env pt],
      (s.fr 0 ≠ 0 ∧ s.fr 2 ≠ 0 → ∃ s', m s = .ok ((), s')) ∧ (¬ (s.fr 0 ≠ 0 ∧ s.fr 2 ≠ 0) → m s = .panic) := by
  intro m hm
  simp only [List.mem_cons, List.not_mem_nil, or_false] at hm
  rcases hm with rfl | rfl | rfl | rfl | rfl | rfl | rfl
  · exact C105_kp_partial env _ _ polAnd
      ⟨denotes_of_same (by decide +kernel), by decide +kernel, by simp [Pol.Wide, polAnd], by simp [polAnd]⟩
      (by simp [Pol.Binary, polAnd]) (by simp [polAnd]) (by simp [Once, Pol.names, polAnd]) pt ha s
  · exact C105_kpOrAnd_partial env pt ha s
  · exact C105_kp_partial env _ _ polOr testOr_data.regular (by simp [Pol.Binary, polOr]) (by simp [polOr])
      (by simp [Once, Pol.names, polOr]) pt ha s
  · exact C105_kpNot_partial env pt ha s
  · exact C105_cp_partial env _ _ polAnd
      ⟨denotes_of_same (by decide +kernel), by decide +kernel, by simp [Pol.Wide, polAnd], by simp [polAnd]⟩
      (by simp [Pol.Binary, polAnd]) (by simp [polAnd]) (by simp [Once, Pol.names, polAnd]) (by simp) pt ha s
  · exact C105_cp_partial env _ _ polOr3
      ⟨denotes_of_same (by decide +kernel), by decide +kernel, by simp [Pol.Wide, polOr3], by simp [polOr3]⟩
      (by simp [Pol.Binary, polOr3]) (by simp [polOr3]) (by simp [Once, Pol.names, polOr3]) (by simp) pt ha s
  · exact C105_cp_partial env _ _ polOrAndAnd
      ⟨denotes_of_same (by decide +kernel), by decide +kernel, by simp [Pol.Wide, polOrAndAnd], by simp [polOrAndAnd]⟩
      (by simp [Pol.Binary, polOrAndAnd]) (by simp [polOrAndAnd]) (by simp [Once, Pol.names, polOrAndAnd]) (by simp) pt ha s

/-- **C105 is violated, AC17.** With zero for every random number the test `kp_not` aborts. -/
theorem C105_violated : Accepts toyEnv [7, 8] ∧ testKpNot toyEnv [7, 8] zeroTape = .panic :=
  ⟨toy_accepts _, (C105_kpNot_partial toyEnv [7, 8] (toy_accepts _) zeroTape).2 (by simp [zeroTape])⟩

/-- Random numbers that are not zero. -/
example : ∃ s', testKpOrAnd toyEnv [7, 8] toyTape = .ok ((), s') :=
  (C105_kpOrAnd_partial toyEnv [7, 8] (toy_accepts _) toyTape).1 (by simp [toyTape])

end Ac17
end Rabe
