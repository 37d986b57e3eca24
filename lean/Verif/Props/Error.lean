import Verif.Model.Error
import Verif.Proof.Labels

/-!
# C79: what an error message tells
-/

namespace Rabe

/-- The lines a location mentions (specification). -/
def LineColLocation.Mentions : LineColLocation → ℕ → Prop
  | .pos l _, n => n = l
  | .span s _ e _, n => n = s ∨ n = e

theorem display_ofParse (lang : PolicyLanguage) (loc : LineColLocation) :
    (RabeError.ofParse lang loc).display =
      (chars% "Error: Json Policy Error in line ") ++ natStr loc.line ++ ['\n'] := by
  cases lang <;> rfl

/-- **C79 is violated**: the message for a refused policy in the human language is the one of the JSON language, and
begins by naming that one. -/
theorem C79_violated (loc : LineColLocation) :
    (RabeError.ofParse .human loc).display = (RabeError.ofParse .json loc).display ∧
    (chars% "Error: Json Policy") <+: (RabeError.ofParse .human loc).display := by
  refine ⟨by rw [display_ofParse, display_ofParse], ?_⟩
  rw [display_ofParse]
  exact ⟨(chars% " Error in line ") ++ natStr loc.line ++ ['\n'], rfl⟩

/-- **C79** for the line: the text shown for a refused policy determines the last line that the location of the
error mentions. Missing: the language (`C79_violated`). -/
theorem C79_line_partial (lang lang' : PolicyLanguage) (loc loc' : LineColLocation) (last last' : ℕ)
    (h : loc.Mentions last ∧ ∀ n, loc.Mentions n → n ≤ last)
    (h' : loc'.Mentions last' ∧ ∀ n, loc'.Mentions n → n ≤ last') :
    (RabeError.ofParse lang loc).display = (RabeError.ofParse lang' loc').display ↔ last = last' := by
  have key : ∀ (loc : LineColLocation) (last : ℕ), loc.Mentions last → (∀ n, loc.Mentions n → n ≤ last) →
      loc.line = last := by
    intro loc last h1 h2
    cases loc with
    | pos l c => exact h1.symm
    | span s c e d =>
      have hs := h2 s (Or.inl rfl)
      have he := h2 e (Or.inr rfl)
      simp only [LineColLocation.Mentions] at h1
      simp only [LineColLocation.line]
      omega
  rw [display_ofParse, display_ofParse, key loc last h.1 h.2, key loc' last' h'.1 h'.2]
  constructor
  · intro he
    exact natStr_inj (List.append_cancel_left (List.append_cancel_right he))
  · rintro rfl
    rfl

example : (RabeError.ofParse .json (.pos 3 7)).display ≠ (RabeError.ofParse .human (.span 1 2 4 1)).display := by
  rw [Ne, C79_line_partial (last := 3) (last' := 4)]
  · decide
  · exact ⟨rfl, fun n h => h.le⟩
  · refine ⟨Or.inr rfl, ?_⟩
    rintro n (rfl | rfl) <;> decide

/-- **C79** for the errors of field elements: the text determines the error. -/
theorem C79_field (e e' : FieldError) (h : (RabeError.ofField e).display = (RabeError.ofField e').display) : e = e' := by
  cases e <;> cases e' <;> first | rfl | exact absurd h (by decide)

example : (RabeError.ofField .notMember).display = chars% "Error: FieldError::NotMember" := rfl

end Rabe
