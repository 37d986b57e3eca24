import Verif.Model.Recover
import Verif.Props.Sharing

/-!
# C64: recovery of a secret from shares
-/

set_option linter.unusedSectionVars false

namespace Rabe

section
variable {F : Type} [Field F] [DecidableEq F]

theorem recoverLoop_eq (coeffs : List (Str × F)) : ∀ (shares : List F) (i : ℕ) (acc : F), i ≤ coeffs.length →
    recoverLoop coeffs shares i acc = if i + shares.length ≤ coeffs.length then
      .ok (acc + (((coeffs.drop i).zip shares).map fun x => x.1.2 * x.2).sum) else .panic
  | [], i, acc, h => by simp [recoverLoop, h]
  | s :: ss, i, acc, h => by
    unfold recoverLoop
    by_cases hi : i < coeffs.length
    · have e := recoverLoop_eq coeffs ss (i + 1) (acc + coeffs[i].2 * s) hi
      rw [List.getElem?_eq_getElem hi]
      simp only [Res.unwrapOption_some, Res.ok_bind]
      rw [e]
      have hd : coeffs.drop i = coeffs[i] :: coeffs.drop (i + 1) := List.drop_eq_getElem_cons hi
      simp only [List.length_cons]
      by_cases hl : i + 1 + ss.length ≤ coeffs.length
      · rw [if_pos hl, if_pos (by omega), hd]
        rw [List.zip_cons_cons, List.map_cons, List.sum_cons, add_assoc]
      · rw [if_neg hl, if_neg (by omega)]
    · rw [List.getElem?_eq_none (by omega), if_neg (by simp; omega)]
      rfl

theorem recoverSecret_eq {text : Str} {p : Pol} (h : Denotes text .json p) (xs : List F) :
    recoverSecret xs text = if xs.length ≤ p.leaves.length then
      .ok (((coeffVals p 1).zip xs).map fun x => x.1 * x.2).sum else .panic := by
  unfold recoverSecret
  rw [show parse text .json = _ from h]
  show (calcCoefficients p.toValue (some 1) [] none >>= _) = _
  rw [calcCoefficients_eq, List.nil_append]
  show recoverLoop (coeffs p 1) xs 0 0 = _
  have hlen : (coeffs p (1 : F)).length = p.leaves.length := by simp [coeffs, coeffVals_length]
  rw [recoverLoop_eq _ _ _ _ (Nat.zero_le _), hlen, Nat.zero_add, zero_add, List.drop_zero]
  have e : ∀ (ls : List Str) (cs ss : List F), cs.length = ls.length →
      ((ls.zip cs).zip ss).map (fun x => x.1.2 * x.2) = (cs.zip ss).map fun x => x.1 * x.2 := by
    intro ls
    induction ls with
    | nil => intro cs ss h1; simp at h1; simp [h1]
    | cons l ls ih =>
      intro cs ss h1
      match cs, ss with
      | [], _ => simp at h1
      | c :: cs, [] => simp
      | c :: cs, s :: ss => simp [ih cs ss (by simpa using h1)]
  rw [coeffs, e _ _ _ (by simp [coeffVals_length])]

/-- **C64, when it answers.** `recover_secret` never returns an error value. It aborts if the text is not accepted or if
there are more shares than leaves, and answers otherwise. -/
theorem C64_answers (text : Str) (xs : List F) :
    (∃ x, recoverSecret xs text = .ok x) ↔ ∃ p, Denotes text .json p ∧ xs.length ≤ p.leaves.length := by
  constructor
  · rintro ⟨x, hx⟩
    cases hp : parse text .json with
    | err => unfold recoverSecret at hx; rw [hp] at hx; cases hx
    | panic => unfold recoverSecret at hx; rw [hp] at hx; cases hx
    | ok v =>
      obtain ⟨p, rfl, -⟩ := parse_ok hp
      refine ⟨p, hp, ?_⟩
      rw [recoverSecret_eq hp] at hx
      by_contra hc
      rw [if_neg hc] at hx
      cases hx
  · rintro ⟨p, hp, hl⟩
    exact ⟨_, by rw [recoverSecret_eq hp, if_pos hl]⟩

theorem C64_never_err (text : Str) (xs : List F) : recoverSecret xs text ≠ .err := by
  cases hp : parse text .json with
  | err => unfold recoverSecret; rw [hp]; simp [Res.unwrap]
  | panic => unfold recoverSecret; rw [hp]; simp [Res.unwrap]
  | ok v =>
    obtain ⟨p, rfl, -⟩ := parse_ok hp
    rw [recoverSecret_eq hp]
    split <;> simp

theorem dot_prefix : ∀ (k n : ℕ) (cs ss : List F), k ≤ ss.length → cs.length = ss.length →
    selDot (List.replicate k true ++ List.replicate n false) cs ss = ((cs.zip (ss.take k)).map fun x => x.1 * x.2).sum
  | 0, n, cs, ss, _, _ => by simp [selDot_false]
  | k + 1, n, [], [], h, _ => by simp at h
  | k + 1, n, c :: cs, s :: ss, h, h' => by
    have := dot_prefix k n cs ss (by simpa using h) (by simpa using h')
    simp only [selDot, marked, List.replicate_succ, List.cons_append, List.zip_cons_cons, List.take_succ_cons, List.map_cons,
      List.sum_cons, List.filter_cons_of_pos] at this ⊢
    rw [this]
  | k + 1, n, [], _ :: _, _, h' => by simp at h'
  | k + 1, n, _ :: _, [], _, h' => by simp at h'

/-- **C64, partial: the first shares.** Split any secret along any accepted JSON policy. If the first `k` leaves form a
minimal authorised selection, `recover_secret` returns the secret from the first `k` shares. (Full claim: from the shares of
every minimal authorised selection; false, see `C64_violated_selection`.) -/
theorem C64_first_shares_partial [BigChar F] (text : Str) (p : Pol) (h : Denotes text .json p) (hl : text.length < 2 ^ 64)
    (k : ℕ) (hk : k ≤ p.leaves.length)
    (hs : p.Sel (List.replicate k true ++ List.replicate (p.leaves.length - k) false)) (secret : F) (ω : ℕ → F) :
    ∃ shares ω', genSharesPolicy p.toValue secret none ω = .ok (some shares, ω') ∧
      recoverSecret ((shares.take k).map Prod.snd) text = .ok secret := by
  have hf : p.Fits := by
    obtain ⟨q, hq, hf, _⟩ := parse_ok h
    rw [toValue_inj _ _ hq]; exact hf hl
  refine ⟨_, _, genSharesPolicy_eq p secret ω, ?_⟩
  have hv : (shares p secret ω).map Prod.snd = shareVals p secret ω := by
    rw [shares, List.map_snd_zip (by simp [shareVals_length])]
  rw [List.map_take, hv, recoverSecret_eq h, if_pos (by simp [shareVals_length]),
    ← dot_prefix k (p.leaves.length - k) _ _ (by rw [shareVals_length]; exact hk) (by rw [shareVals_length, coeffVals_length]),
    sel_reconstruct p hf _ hs, one_mul]

/-- Every gate is an AND gate with at least one child. -/
def Pol.AndOnly (p : Pol) : Prop := p.Arity fun op n => op = .and ∧ 1 ≤ n

theorem andOnly_sel : ∀ p : Pol, p.AndOnly → p.Sel (List.replicate p.leaves.length true) := by
  intro p
  induction p using Pol.ind with
  | hl n c => intro _; simp [Pol.Sel]
  | hg op cs ih =>
    intro h
    simp only [Pol.AndOnly, Pol.arity_gate] at h
    obtain ⟨⟨rfl, h1⟩, h2⟩ := h
    simp only [Pol.Sel]
    refine ⟨List.length_pos_iff.1 h1, ?_⟩
    rw [Pol.leaves_gate]
    clear h1
    induction cs with
    | nil => simp [Pol.SelAll]
    | cons c cs ihc =>
      simp only [Pol.SelAll, List.flatMap_cons, List.length_append]
      exact ⟨_, _, (List.replicate_add ..), ih c (by simp) (h2 c (by simp)),
        ihc (fun d hd => ih d (by simp [hd])) (fun d hd => h2 d (by simp [hd]))⟩

/-- **C64, partial: conjunctions.** From all shares along a policy without OR gates `recover_secret` returns the secret. (Full
claim: for every policy; false, see `C64_violated_or`.) -/
theorem C64_conjunction_partial [BigChar F] (text : Str) (p : Pol) (h : Denotes text .json p) (hl : text.length < 2 ^ 64)
    (ha : p.AndOnly) (secret : F) (ω : ℕ → F) :
    ∃ shares ω', genSharesPolicy p.toValue secret none ω = .ok (some shares, ω') ∧
      recoverSecret (shares.map Prod.snd) text = .ok secret := by
  obtain ⟨sh, ω', h1, h2⟩ := C64_first_shares_partial text p h hl p.leaves.length le_rfl
    (by simpa using andOnly_sel p ha) secret ω
  refine ⟨sh, ω', h1, ?_⟩
  rw [genSharesPolicy_eq] at h1
  cases h1
  rwa [List.take_of_length_le (by simp [shares, shareVals_length])] at h2

end

/-- **C64 is violated: all shares.** From both shares of a disjunction of two attributes twice the secret is returned, for
every secret and all random choices. -/
theorem C64_violated_or (secret : Fr) (ω : ℕ → Fr) : ∃ text p shares ω', Denotes text .json p ∧
    genSharesPolicy p.toValue secret none ω = .ok (some shares, ω') ∧
    recoverSecret (shares.map Prod.snd) text = .ok (2 * secret) := by
  have hd : Denotes (chars% "{\"name\": \"or\", \"children\": [{\"name\": \"A\"}, {\"name\": \"B\"}]}") .json
    (.gate .or [.leaf ['A'] 39, .leaf ['B'] 54]) := rfl
  refine ⟨_, _, _, _, hd, genSharesPolicy_eq _ _ _, ?_⟩
  rw [recoverSecret_eq hd, if_pos (by simp [shares, shareVals_length])]
  have hv : (shares (.gate .or [.leaf ['A'] 39, .leaf ['B'] 54]) secret ω).map Prod.snd = [secret, secret] := by
    rw [shares, List.map_snd_zip (by simp [shareVals_length])]
    simp [shareVals, shareValsL, gateShare_or]
  rw [hv]
  simp [coeffVals, coeffValsL, gateCoeff, two_mul]

set_option maxRecDepth 4000 in
/-- **C64 is violated: shares of a selection.** In `(A or B) and C` the leaves `B` and `C` are a minimal authorised selection,
but from their shares something else than the secret is returned: the coefficients of the leaves `A` and `B` are used. -/
theorem C64_violated_selection : ∃ text p shares ω ω' x, Denotes text .json p ∧ p.Sel [false, true, true] ∧
    genSharesPolicy p.toValue (1 : Fr) none ω = .ok (some shares, ω') ∧
    recoverSecret ((marked [false, true, true] shares).map Prod.snd) text = .ok x ∧ x ≠ 1 := by
  have hd : Denotes (chars% "{\"name\": \"and\", \"children\": [{\"name\": \"or\", \"children\": [{\"name\": \"A\"}, {\"name\": \"B\"}]}, {\"name\": \"C\"}]}")
    .json (.gate .and [.gate .or [.leaf ['A'] 68, .leaf ['B'] 83], .leaf ['C'] 100]) := rfl
  refine ⟨_, _, _, fun i => (i : Fr) + 1, _, 10, hd, ?_, genSharesPolicy_eq _ _ _, ?_, by decide +kernel⟩
  · exact ⟨by simp, [false, true], [true], rfl, ⟨[false], [true], rfl, Or.inr ⟨rfl, [true], [], rfl, Or.inl ⟨rfl, rfl⟩⟩⟩,
      [true], [], rfl, rfl, rfl⟩
  · rw [recoverSecret_eq hd, if_pos (by decide +kernel)]
    exact congrArg Res.ok (by decide +kernel)

/-- A nested conjunction, and an authorised prefix of a policy with an OR gate. -/
example : (∃ p : Pol, p.AndOnly ∧ Denotes
      (chars% "{\"name\": \"and\", \"children\": [{\"name\": \"A\"}, {\"name\": \"B\"}]}") .json p) ∧
    ∃ p : Pol, Denotes (chars% "{\"name\": \"or\", \"children\": [{\"name\": \"A\"}, {\"name\": \"B\"}]}") .json p ∧
      p.Sel (List.replicate 1 true ++ List.replicate (p.leaves.length - 1) false) :=
  ⟨⟨.gate .and [.leaf ['A'] 40, .leaf ['B'] 55], by simp [Pol.AndOnly], rfl⟩,
    .gate .or [.leaf ['A'] 39, .leaf ['B'] 54], rfl, [true], [false], rfl, Or.inl ⟨rfl, rfl⟩⟩

end Rabe
