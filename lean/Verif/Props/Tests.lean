import Verif.Model.Tests
import Verif.Props.Chance
import Verif.Props.Docs
import Verif.Props.Fresh

/-!
# Property C104: the unit tests of the modules `bsw` and `ghw11`

For every plaintext that the symmetric encryption accepts, every environment and all random numbers.
-/

namespace Rabe

set_option linter.unusedSectionVars false

variable {F G1 G2 Gt : Type} [Field F] [DecidableEq F] [AddCommGroup G1] [Module F G1]
  [AddCommGroup G2] [Module F G2] [AddCommGroup Gt] [Module F Gt]

theorem assertErr_err {α : Type} (s : Tape F G1 G2 Gt) : assertErr (Res.err : Res α) s = .ok ((), s) := rfl

/-- What a test takes for granted about policy and attributes: the text is a regular policy, the first list satisfies it, the second
does not, neither is empty, and there are no underscores. -/
structure TestData (x : Str × List Str × List Str) (p : Pol) : Prop where
  regular : Regular x.1 .json p
  sat : p.sat x.2.1 = true
  unsat : p.sat x.2.2 = false
  matching : x.2.1 ≠ []
  notMatching : x.2.2 ≠ []
  plain : ∀ n ∈ p.names, '_' ∉ n

mutual
/-- Comparison of policy values, to let the kernel evaluate `parse` on the longer texts. -/
def sameValue : PolicyValue → PolicyValue → Bool
  | .object t v, .object t' v' => decide (t = t') && sameValue v v'
  | .array cs, .array cs' => sameValues cs cs'
  | .str n c, .str n' c' => decide (n = n') && decide (c = c')
  | _, _ => false
/-- Comparison of lists of policy values. -/
def sameValues : List PolicyValue → List PolicyValue → Bool
  | [], [] => true
  | v :: vs, v' :: vs' => sameValue v v' && sameValues vs vs'
  | _, _ => false
end

mutual
theorem sameValue_eq : (v v' : PolicyValue) → sameValue v v' = true → v = v'
  | .object t v, .object t' v', h => by
    simp only [sameValue, Bool.and_eq_true, decide_eq_true_eq] at h
    rw [h.1, sameValue_eq v v' h.2]
  | .array cs, .array cs', h => by rw [sameValues_eq cs cs' (by simpa [sameValue] using h)]
  | .str n c, .str n' c', h => by
    simp only [sameValue, Bool.and_eq_true, decide_eq_true_eq] at h
    rw [h.1, h.2]
  | .object .., .array _, h | .object .., .str .., h | .array _, .object .., h | .array _, .str .., h | .str .., .object .., h
  | .str .., .array _, h => by simp [sameValue] at h
theorem sameValues_eq : (vs vs' : List PolicyValue) → sameValues vs vs' = true → vs = vs'
  | [], [], _ => rfl
  | v :: vs, v' :: vs', h => by
    simp only [sameValues, Bool.and_eq_true] at h
    rw [sameValue_eq v v' h.1, sameValues_eq vs vs' h.2]
  | [], _ :: _, h | _ :: _, [], h => by simp [sameValues] at h
end

theorem denotes_of_same {text : Str} {lang : PolicyLanguage} {p : Pol}
    (h : (match parse text lang with
      | .ok v => sameValue v p.toValue
      | _ => false) = true) : Denotes text lang p := by
  unfold Denotes
  split at h
  · rename_i v hv
    rw [hv, sameValue_eq _ _ h]
  · simp at h

/-- The tree of the policy of `or`. -/
def polOr : Pol := .gate .or [.leaf ['A'] 39, .leaf ['B'] 54]
/-- The tree of the policy of `and10`. -/
def polAnd10 : Pol := .gate .and [.leaf (chars% "attr1") 40, .leaf (chars% "attr2") 59, .leaf (chars% "attr3") 78,
  .leaf (chars% "attr4") 97, .leaf (chars% "attr5") 116, .leaf (chars% "attr6") 135, .leaf (chars% "attr7") 154,
  .leaf (chars% "attr8") 173, .leaf (chars% "attr9") 192, .leaf (chars% "attr10") 211]
/-- The tree of the policy of `nested`. -/
def polNested : Pol :=
  .gate .and [.leaf (chars% "a29") 37, .gate .and [.leaf (chars% "a28") 79, .gate .and [.leaf (chars% "a27") 121, .gate
  .and [.leaf (chars% "a26") 163, .gate .and [.leaf (chars% "a25") 205, .gate .and [.leaf (chars% "a24") 247, .gate .and
  [.leaf (chars% "a23") 289, .gate .and [.leaf (chars% "a22") 331, .gate .and [.leaf (chars% "a21") 373, .gate .and [.leaf
  (chars% "a20") 415, .gate .and [.leaf (chars% "a19") 457, .gate .and [.leaf (chars% "a18") 499, .gate .and [.leaf
  (chars% "a17") 541, .gate .and [.leaf (chars% "a16") 583, .gate .and [.leaf (chars% "a15") 625, .gate .and [.leaf
  (chars% "a14") 667, .gate .and [.leaf (chars% "a13") 709, .gate .and [.leaf (chars% "a12") 751, .gate .and [.leaf
  (chars% "a11") 793, .gate .and [.leaf (chars% "a10") 835, .gate .and [.leaf (chars% "a9") 877, .gate .and [.leaf (chars%
  "a8") 918, .gate .and [.leaf (chars% "a7") 959, .gate .and [.leaf (chars% "a6") 1000, .gate .and [.leaf (chars% "a5")
  1041, .gate .and [.leaf (chars% "a4") 1082, .gate .and [.leaf (chars% "a3") 1123, .gate .and [.leaf (chars% "a2") 1166,
  .leaf (chars% "a1") 1182]]]]]]]]]]]]]]]]]]]]]]]]]]]]
/-- The tree of the policy of `or3`. -/
def polOr3 : Pol := .gate .or [.leaf ['X'] 39, .leaf ['Y'] 54, .leaf ['A'] 69]
/-- The tree of the policy of `and` and `delegate_ab`. -/
def polAnd : Pol := .gate .and [.leaf ['A'] 41, .leaf ['B'] 56]
/-- The tree of the policy of `dual_attributes`. -/
def polDual : Pol := .gate .or [.gate .and [.leaf ['A'] 69, .leaf ['B'] 84], .gate .and [.leaf ['B'] 131, .leaf ['C'] 146]]
/-- The tree of the policy of `and3`. -/
def polAnd3 : Pol := .gate .and [.leaf ['A'] 41, .leaf ['B'] 56, .leaf ['C'] 71]
/-- The tree of the policy of `or_and`. -/
def polOrAnd : Pol := .gate .or [.gate .and [.leaf ['A'] 69, .leaf ['B'] 84], .gate .and [.leaf ['C'] 131, .leaf ['D'] 146]]
/-- The tree of the policy of `and2`. -/
def polAnd2 : Pol := .gate .and [.leaf (chars% "attr0") 40, .leaf (chars% "attr1") 59]

theorem testOr_data : TestData testOr polOr :=
  ⟨⟨rfl, by decide +kernel, by simp [Pol.Wide, polOr], by simp [polOr]⟩, by simp [testOr, polOr], by simp [testOr, polOr],
    by simp [testOr], by simp [testOr], by simp [Pol.names, polOr]⟩
theorem testAnd10_data : TestData testAnd10 polAnd10 :=
  ⟨⟨denotes_of_same (by decide +kernel), by decide +kernel, by simp [Pol.Wide, polAnd10], by simp [polAnd10]⟩, by decide +kernel,
    by decide +kernel, by decide +kernel, by decide +kernel, by simp [Pol.names, polAnd10]⟩
theorem testNested_data : TestData testNested polNested :=
  ⟨⟨denotes_of_same (by decide +kernel), by decide +kernel, by simp [Pol.Wide, polNested], by simp [polNested]⟩, by decide +kernel,
    by decide +kernel, by decide +kernel, by decide +kernel, by simp [Pol.names, polNested]⟩
theorem testOr3_data : TestData testOr3 polOr3 :=
  ⟨⟨rfl, by decide +kernel, by simp [Pol.Wide, polOr3], by simp [polOr3]⟩, by simp [testOr3, polOr3], by simp [testOr3, polOr3],
    by simp [testOr3], by simp [testOr3], by simp [Pol.names, polOr3]⟩
theorem testAnd_data : TestData testAnd polAnd :=
  ⟨⟨rfl, by decide +kernel, by simp [Pol.Wide, polAnd], by simp [polAnd]⟩, by simp [testAnd, polAnd], by simp [testAnd, polAnd],
    by simp [testAnd], by simp [testAnd], by simp [Pol.names, polAnd]⟩
theorem testDual_data : TestData testDual polDual :=
  ⟨⟨denotes_of_same (by decide +kernel), by decide +kernel, by simp [Pol.Wide, polDual], by simp [polDual]⟩, by simp [testDual, polDual],
    by simp [testDual, polDual], by simp [testDual], by simp [testDual], by simp [Pol.names, polDual]⟩
theorem testAnd3_data : TestData testAnd3 polAnd3 :=
  ⟨⟨rfl, by decide +kernel, by simp [Pol.Wide, polAnd3], by simp [polAnd3]⟩, by simp [testAnd3, polAnd3],
    by simp [testAnd3, polAnd3], by simp [testAnd3], by simp [testAnd3], by simp [Pol.names, polAnd3]⟩
theorem testOrAnd_data : TestData testOrAnd polOrAnd :=
  ⟨⟨denotes_of_same (by decide +kernel), by decide +kernel, by simp [Pol.Wide, polOrAnd], by simp [polOrAnd]⟩, by simp [testOrAnd, polOrAnd],
    by simp [testOrAnd, polOrAnd], by simp [testOrAnd], by simp [testOrAnd], by simp [Pol.names, polOrAnd]⟩
theorem and2_regular : Regular (chars% "{\"name\": \"and\", \"children\": [{\"name\": \"attr0\"}, {\"name\": \"attr1\"}]}") .json
    polAnd2 :=
  ⟨rfl, by decide +kernel, by simp [Pol.Wide, polAnd2], by simp [polAnd2]⟩

namespace Bsw

/-- **C104, BSW, partial.** A test of this form, with any regular policy, ends normally if the first random number is not zero and
aborts if it is. -/
theorem C104_test_partial [BigChar F] (env : Env F G1 G2 Gt) (x : Str × List Str × List Str) (p : Pol) (hx : TestData x p)
    (pt : Bytes) (ha : Accepts env pt) (s : Tape F G1 G2 Gt) :
    (s.fr 0 ≠ 0 → ∃ s', test env x.1 x.2.1 x.2.2 pt s = .ok ((), s')) ∧
      (s.fr 0 = 0 → test env x.1 x.2.1 x.2.2 pt s = .panic) := by
  obtain ⟨d1, d2, d3⟩ := C25_bsw_defined env
  constructor
  · intro h0
    obtain ⟨pk, msk, t₁, h1⟩ := d1 s h0
    obtain ⟨ct, t₂, h2⟩ := d3 pk _ _ _ hx.regular.denotes pt ha t₁
    obtain ⟨sk, t₃, h3⟩ := d2 _ _ _ _ h1 x.2.1 hx.matching t₂
    obtain ⟨sk', t₄, h4⟩ := d2 _ _ _ _ h1 x.2.2 hx.notMatching t₃
    have hd := C25_bsw_correct_partial env _ _ pk msk h1 _ _ _ sk h3 _ _ _ hx.regular (fun n hn _ => hx.plain n hn) pt _ _ ct h2
      hx.sat
    obtain ⟨-, -, r, hk⟩ := keygen_ok h4
    obtain ⟨_, _, _, hc, -⟩ := encrypt_ok hx.regular.denotes h2
    have hn : sk'.dJ.map (·.string) = x.2.2 := by
      have := hk.dJ
      clear hk h4
      generalize sk'.dJ = L at this
      generalize x.2.2 = M at this
      induction this with
      | nil => rfl
      | cons h _ ih => simp [h.1, ih]
    have hr := C26_bsw_refuses env sk' ct p hc.policy (.inl (by rw [hn]; exact hx.unsat))
    exact ⟨t₄, by simp [test, RM.bind_apply, h1, orPanic_ok h2, h3, hd, assertPlain_ok, RM.lift, h4, hr, assertErr_err]⟩
  · intro h0
    simp [test, RM.bind_apply, (C102_setup_partial env s).2 h0]

/-- **C104, BSW, partial.** The test of delegation ends normally if the first random number is not zero and aborts if it is. -/
theorem C104_delegate_partial [BigChar F] (env : Env F G1 G2 Gt) (pt : Bytes) (ha : Accepts env pt) (s : Tape F G1 G2 Gt) :
    (s.fr 0 ≠ 0 → ∃ s', testDelegate env pt s = .ok ((), s')) ∧ (s.fr 0 = 0 → testDelegate env pt s = .panic) := by
  obtain ⟨d1, d2, d3⟩ := C25_bsw_defined env
  constructor
  · intro h0
    obtain ⟨pk, msk, t₁, h1⟩ := d1 s h0
    obtain ⟨ct, t₂, h2⟩ := d3 pk _ _ _ testAnd_data.regular.denotes pt ha t₁
    obtain ⟨sk, t₃, h3⟩ := d2 _ _ _ _ h1 [['A'], ['B'], ['C']] (by simp) t₂
    obtain ⟨-, -, r, hk⟩ := keygen_ok h3
    have hn : sk.dJ.map (·.string) = [['A'], ['B'], ['C']] := by
      have := hk.dJ
      clear hk h3
      generalize sk.dJ = L at this
      generalize [['A'], ['B'], ['C']] = M at this
      induction this with
      | nil => rfl
      | cons h _ ih => simp [h.1, ih]
    obtain ⟨del, t₄, h4, -⟩ := (C28_delegation_never_widens env pk sk [['A'], ['B']] t₃).1 ⟨by simp, by rw [hn]; simp⟩
    have hd := C27_delegated_key_decrypts env _ _ pk msk h1 _ _ _ sk h3 del _ (.single h4) _ _ _ testAnd_data.regular
      (fun n hn _ => testAnd_data.plain n hn) pt _ _ ct h2 (by simp [polAnd])
    have h2' : encrypt env pk (chars% "{\"name\": \"and\", \"children\":  [{\"name\": \"A\"}, {\"name\": \"B\"}]}") .json pt t₁ =
      .ok (ct, t₂) := h2
    exact ⟨t₄, by simp [testDelegate, RM.bind_apply, h1, orPanic_ok h2', h3, hd, assertPlain_ok, RM.lift, h4]⟩
  · intro h0
    simp [testDelegate, RM.bind_apply, (C102_setup_partial env s).2 h0]

/-- **C104, BSW, all tests.** If the first random number is not zero, the tests `or`, `and10`, `nested`, `or3`, `and`,
`dual_attributes`, `and3`, `or_and` and `delegate_ab` end normally. -/
theorem C104_all_partial [BigChar F] (env : Env F G1 G2 Gt) (pt : Bytes) (ha : Accepts env pt) (s : Tape F G1 G2 Gt)
    (h0 : s.fr 0 ≠ 0) :
    (∀ x ∈ [testOr, testAnd10, testNested, testOr3, testAnd, testDual, testAnd3, testOrAnd],
      ∃ s', test env x.1 x.2.1 x.2.2 pt s = .ok ((), s')) ∧ ∃ s', testDelegate env pt s = .ok ((), s') := by
  refine ⟨?_, (C104_delegate_partial env pt ha s).1 h0⟩
  have h : ∀ x p, TestData x p → ∃ s', test env x.1 x.2.1 x.2.2 pt s = .ok ((), s') :=
    fun x p hx => (C104_test_partial env x p hx pt ha s).1 h0
  intro x hx
  simp only [List.mem_cons, List.not_mem_nil, or_false] at hx
  rcases hx with rfl | rfl | rfl | rfl | rfl | rfl | rfl | rfl
  · exact h _ _ testOr_data
  · exact h _ _ testAnd10_data
  · exact h _ _ testNested_data
  · exact h _ _ testOr3_data
  · exact h _ _ testAnd_data
  · exact h _ _ testDual_data
  · exact h _ _ testAnd3_data
  · exact h _ _ testOrAnd_data

/-- **C104 is violated, BSW.** With zero for every random number the test `or` aborts. -/
theorem C104_violated : Accepts toyEnv [7, 8] ∧ test toyEnv testOr.1 testOr.2.1 testOr.2.2 [7, 8] zeroTape = .panic :=
  ⟨toy_accepts _, (C104_test_partial toyEnv _ _ testOr_data [7, 8] (toy_accepts _) zeroTape).2 rfl⟩

/-- Random numbers that are not zero. -/
example : ∃ s', testDelegate toyEnv [7, 8] toyTape = .ok ((), s') :=
  (C104_all_partial toyEnv [7, 8] (toy_accepts _) toyTape (by simp [toyTape])).2

end Bsw

namespace Ghw11

/-- **C104, GHW11, partial.** A test of this form, with any regular policy, ends normally if the two blinding numbers are not zero,
and aborts if one is. They come after those of set-up, two keys and the encryption. -/
theorem C104_test_partial [BigChar F] (env : Env F G1 G2 Gt) (x : Str × List Str × List Str) (p : Pol) (hx : TestData x p)
    (pt : Bytes) (ha : Accepts env pt) (s : Tape F G1 G2 Gt) (k : ℕ) (hk : k = 5 + draws p + p.leaves.length) :
    (s.fr k ≠ 0 ∧ s.fr (k + 1) ≠ 0 → ∃ s', test env x.1 x.2.1 x.2.2 pt s = .ok ((), s')) ∧
      (¬ (s.fr k ≠ 0 ∧ s.fr (k + 1) ≠ 0) → test env x.1 x.2.1 x.2.2 pt s = .panic) := by
  obtain ⟨d1, d2, d3, d4⟩ := C42_ghw11_defined env
  obtain ⟨pk, msk, t₁, h1⟩ := d1 s
  obtain ⟨sk, t₂, h2⟩ := d2 pk msk x.2.1 hx.matching t₁
  obtain ⟨sk', t₃, h3⟩ := d2 pk msk x.2.2 hx.notMatching t₂
  obtain ⟨ct, t₄, h4⟩ := d4 pk _ _ _ hx.regular.denotes pt ha t₃
  have e1 := (C70_setup env _ _ _ h1).1
  have e2 := (C70_keygen env pk msk _ hx.matching _ _ _ h2).1
  have e3 := (C70_keygen env pk msk _ hx.notMatching _ _ _ h3).1
  have e4 := (C70_encrypt env pk _ _ _ hx.regular.denotes pt _ _ _ h4).1
  have hfr : ∀ i, t₄.fr i = s.fr (k + i) := by
    intro i
    rw [e4, e3, e2, e1, hk]
    simp only [Tape.adv, dropS]
    congr 1
    omega
  by_cases hz : s.fr k = 0
  · have : tkgen sk t₄ = .panic := (C102_tkgen_partial sk t₄).2 (by rw [hfr]; exact hz)
    refine ⟨fun h => absurd hz h.1, fun _ => ?_⟩
    simp [test, RM.bind_apply, h1, h2, h3, orPanic_ok h4, RM.lift, this]
  obtain ⟨tk, rk, t₅, h5⟩ := d3 sk t₄ (by rw [hfr]; exact hz)
  have e5 := (C70_tkgen sk _ _ _ h5).1
  have hfr' : t₅.fr 0 = s.fr (k + 1) := by
    rw [e5]
    exact hfr 1
  by_cases hz' : s.fr (k + 1) = 0
  · have : tkgen sk' t₅ = .panic := (C102_tkgen_partial sk' t₅).2 (by rw [hfr']; exact hz')
    refine ⟨fun h => absurd hz' h.2, fun _ => ?_⟩
    simp [test, RM.bind_apply, h1, h2, h3, orPanic_ok h4, RM.lift, h5, this]
  obtain ⟨tk', rk', t₆, h6⟩ := d3 sk' t₅ (by rw [hfr']; exact hz')
  refine ⟨fun _ => ?_, fun h => absurd ⟨hz, hz'⟩ h⟩
  obtain ⟨pct, h7, h8⟩ := C42_ghw11_correct_partial env _ _ pk msk h1 _ _ _ sk h2 _ _ tk rk h5 _ _ _ hx.regular
    (fun n hn _ => hx.plain n hn) pt _ _ ct h4 hx.sat
  obtain ⟨_, _, _, hc, -⟩ := encrypt_ok hx.regular.denotes h4
  have hr : transform env ct tk' = .err := by
    obtain ⟨-, rfl⟩ := keygen_ok h3
    obtain ⟨-, rfl⟩ := tkgen_ok h6
    refine C43_ghw11_refuses env _ ct p hc.policy (.inl ?_)
    have : (blind (keyFor env pk msk x.2.2 (t₂.fr 0)) rk'.z).attrKeyZ.map (·.string) = x.2.2 := by
      simp [blind, keyFor, Function.comp_def]
    rw [this]
    exact hx.unsat
  exact ⟨t₆, by simp [test, RM.bind_apply, h1, h2, h3, orPanic_ok h4, RM.lift, h5, h6, h7, h8, hr, assertErr_err, assertPlain_ok,
    Res.unwrap]⟩

/-- **C104, GHW11, partial.** The test `and2` ends normally if the blinding number, the eighth, is not zero, and aborts if it is. -/
theorem C104_and2_partial [BigChar F] (env : Env F G1 G2 Gt) (pt : Bytes) (ha : Accepts env pt) (s : Tape F G1 G2 Gt) :
    (s.fr 7 ≠ 0 → ∃ s', testAnd2 env pt s = .ok ((), s')) ∧ (s.fr 7 = 0 → testAnd2 env pt s = .panic) := by
  obtain ⟨d1, d2, d3, d4⟩ := C42_ghw11_defined env
  obtain ⟨pk, msk, t₁, h1⟩ := d1 s
  have hne : [(chars% "attr0"), (chars% "attr1")] ≠ [] := by simp
  obtain ⟨sk, t₂, h2⟩ := d2 pk msk _ hne t₁
  obtain ⟨ct, t₃, h3⟩ := d4 pk _ _ _ and2_regular.denotes pt ha t₂
  have e1 := (C70_setup env _ _ _ h1).1
  have e2 := (C70_keygen env pk msk _ hne _ _ _ h2).1
  have e3 := (C70_encrypt env pk _ _ _ and2_regular.denotes pt _ _ _ h3).1
  have hfr : t₃.fr 0 = s.fr 7 := by
    rw [e3, e2, e1]
    rfl
  constructor
  · intro h0
    obtain ⟨tk, rk, t₄, h4⟩ := d3 sk t₃ (by rw [hfr]; exact h0)
    obtain ⟨pct, h5, h6⟩ := C42_ghw11_correct_partial env _ _ pk msk h1 _ _ _ sk h2 _ _ tk rk h4 _ _ _ and2_regular
      (by simp [Pol.names, polAnd2]) pt _ _ ct h3 (by simp [polAnd2])
    exact ⟨t₄, by simp [testAnd2, RM.bind_apply, h1, h2, orPanic_ok h3, RM.lift, h4, h5, h6, assertPlain_ok, Res.unwrap]⟩
  · intro h0
    have : tkgen sk t₃ = .panic := (C102_tkgen_partial sk t₃).2 (by rw [hfr]; exact h0)
    simp [testAnd2, RM.bind_apply, h1, h2, orPanic_ok h3, RM.lift, this]

/-- **C104, GHW11, all tests.** `or` needs the random numbers 7 and 8 not to be zero (from zero), `and10` 24 and 25. -/
theorem C104_all_partial [BigChar F] (env : Env F G1 G2 Gt) (pt : Bytes) (ha : Accepts env pt) (s : Tape F G1 G2 Gt) :
    (s.fr 7 ≠ 0 ∧ s.fr 8 ≠ 0 → ∃ s', test env testOr.1 testOr.2.1 testOr.2.2 pt s = .ok ((), s')) ∧
    (s.fr 24 ≠ 0 ∧ s.fr 25 ≠ 0 → ∃ s', test env testAnd10.1 testAnd10.2.1 testAnd10.2.2 pt s = .ok ((), s')) :=
  ⟨(C104_test_partial env _ _ testOr_data pt ha s 7 rfl).1, (C104_test_partial env _ _ testAnd10_data pt ha s 24 rfl).1⟩

/-- **C104 is violated, GHW11.** With zero for every random number the test `or` aborts. -/
theorem C104_violated : Accepts toyEnv [7, 8] ∧ test toyEnv testOr.1 testOr.2.1 testOr.2.2 [7, 8] zeroTape = .panic :=
  ⟨toy_accepts _, (C104_test_partial toyEnv _ _ testOr_data [7, 8] (toy_accepts _) zeroTape 7 rfl).2 (by simp [zeroTape])⟩

/-- Random numbers that are not zero. -/
example : (∃ s', test toyEnv testOr.1 testOr.2.1 testOr.2.2 [7, 8] toyTape = .ok ((), s')) ∧
    ∃ s', testAnd2 toyEnv [7, 8] toyTape = .ok ((), s') :=
  ⟨(C104_all_partial toyEnv [7, 8] (toy_accepts _) toyTape).1 (by simp [toyTape]),
    (C104_and2_partial toyEnv [7, 8] (toy_accepts _) toyTape).1 (by simp [toyTape])⟩

end Ghw11
end Rabe
