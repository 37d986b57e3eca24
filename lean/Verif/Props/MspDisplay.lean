import Verif.Proof.MspDisplay
import Verif.Props.Msp
import Verif.Proof.Ac17

/-!
# C67: printing span programs
-/

namespace Rabe

/-- Texts separated by commas. -/
def commas (l : List Str) : Str := [','].intercalate l

theorem commas_cons (f : α → Str) (a : α) (l : List α) :
    commas ((a :: l).map f) = f a ++ l.flatMap fun a => ',' :: f a := by
  induction l generalizing a with
  | nil => simp [commas]
  | cons b l ih =>
    have h := ih b
    simp only [commas, List.map_cons] at h ⊢
    rw [List.intercalate_cons_cons, h]
    simp

theorem bracket_commas (o close : Char) (f : α → Str) {l : List α} (h : l ≠ []) :
    bracket o ',' close f l = o :: (commas (l.map f) ++ [close]) := by
  cases l with
  | nil => simp at h
  | cons a l => rw [bracket_cons, commas_cons]

theorem fromLanguage_names {text lang msp} (h : AbePolicy.fromLanguage text lang = .ok msp) : ∀ n ∈ msp.pi, Name n := by
  obtain ⟨p, hp, -, -, -, -, hpi, -⟩ := C17_span_program_shape text lang msp h
  exact fun n hn => parse_legal hp n (hpi.mem_iff.1 hn)

/-- **C67.** The printed form of the span program of a policy text consists of the rows in parentheses, the labels in
quotes and the width. -/
theorem C67_display_text (text : Str) (lang : PolicyLanguage) (msp : AbePolicy)
    (h : AbePolicy.fromLanguage text lang = .ok msp) :
    msp.display = chars% "{_m: [" ++ commas (msp.m.map fun r => ['('] ++ commas (r.map intStr) ++ [')']) ++
      chars% "], _pi: [" ++ commas (msp.pi.map fun a => ['"'] ++ a ++ ['"']) ++ chars% "], _c: " ++ natStr msp.c ++
      chars% "}" := by
  obtain ⟨p, hp, hb, hm⟩ := fromLanguage_ok h
  obtain ⟨q, hq, hc, hml, hpl, hr, -⟩ := C17_span_program_shape text lang msp h
  obtain rfl : p = q := toValue_inj p q (Res.ok.inj (hp.symm.trans hq))
  have hl : p.leaves.length ≠ 0 := by simpa using Ac17.leaves_ne_nil hb.wide
  rw [display_eq, bracket_commas _ _ _ (by intro e; rw [e] at hml; exact hl hml.symm),
    bracket_commas _ _ _ (by intro e; rw [e] at hpl; exact hl hpl.symm)]
  have : msp.m.map rowStr = msp.m.map fun r => ['('] ++ commas (r.map intStr) ++ [')'] := by
    refine List.map_congr_left fun r h => ?_
    rw [rowStr, bracket_commas _ _ _ (by
      intro e
      have := (hr r h).1
      rw [e, hc] at this
      simp at this
      omega)]
    simp
  rw [this]
  simp
  rfl

/-- **C67.** Two policy texts whose span programs print alike have the same span program: the same matrix, labels and
width. -/
theorem C67_display_injective (text text' : Str) (lang lang' : PolicyLanguage) (msp msp' : AbePolicy)
    (h : AbePolicy.fromLanguage text lang = .ok msp) (h' : AbePolicy.fromLanguage text' lang' = .ok msp')
    (hd : msp.display = msp'.display) : msp = msp' :=
  display_inj (fromLanguage_names h) (fromLanguage_names h') hd

/-- **C67.** The same for programs built by hand, with any matrix, if the labels are legal attribute names. -/
theorem C67_display_legal (p q : AbePolicy) (hp : ∀ n ∈ p.pi, Name n) (hq : ∀ n ∈ q.pi, Name n)
    (h : p.display = q.display) : p = q := display_inj hp hq h

/-- **C67.** Legality of the labels is needed: labels are not escaped. -/
theorem C67_display_ambiguous : ∃ p q : AbePolicy, p ≠ q ∧ p.display = q.display :=
  ⟨⟨[[1]], [chars% "A\",\"B"], 1⟩, ⟨[[1]], [['A'], ['B']], 1⟩, by decide, by decide⟩

/-- **C67.** The program of a policy that has been read is the program of its text: the two constructors agree, on refusals
as well. -/
theorem C67_from_policy (text : Str) (lang : PolicyLanguage) (v : PolicyValue) (h : parse text lang = .ok v) :
    AbePolicy.fromPolicy v = AbePolicy.fromLanguage text lang := by
  unfold AbePolicy.fromLanguage AbePolicy.fromPolicy
  rw [h]
  rfl

/-- Example for `C67_from_policy`. -/
example : ∃ v, parse (chars% "\"B\" and \"A\"") .human = .ok v ∧
    AbePolicy.fromPolicy v = .ok ⟨[[0, -1], [1, 1]], [['A'], ['B']], 2⟩ := ⟨_, by rfl, by rfl⟩

/-- Example for C67: the printed form of the program of `"A" and "B"`. -/
example : ∃ msp, AbePolicy.fromLanguage (chars% "\"B\" and \"A\"") .human = .ok msp ∧
    msp.display = chars% "{_m: [(0,-1),(1,1)], _pi: [\"A\",\"B\"], _c: 2}" := by
  refine ⟨⟨[[0, -1], [1, 1]], [['A'], ['B']], 2⟩, by rfl, by decide⟩

/-- Example for C67: programs built by hand, with empty lists and rows, still print differently. -/
example : (AbePolicy.mk [] [] 0).display = chars% "{_m: ], _pi: ], _c: 0}" ∧
    (AbePolicy.mk [[]] [[]] 1).display = chars% "{_m: [)], _pi: [\"\"], _c: 1}" := ⟨by decide, by decide⟩

end Rabe
