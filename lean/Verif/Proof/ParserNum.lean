import Verif.Proof.Parser

/-!
# Number tokens need a digit in the text
-/

namespace Rabe

open Pest

theorem number_digit {s p s'} (h : number s = some (p, s')) : ∃ c ∈ s.rest, isDigit c = true := by
  simp only [number, Option.bind_eq_bind, Option.bind_eq_some_iff] at h
  obtain ⟨s1, h1, -⟩ := h
  have key : ∀ u s1, intPart u = some s1 → ∃ c ∈ u.rest, isDigit c = true := by
    rintro ⟨col, rest⟩ s1 h
    simp only [intPart] at h
    split at h
    · rename_i s2 h2
      obtain ⟨e, _⟩ := lit_reads _ _ _ h2
      simp only at e
      exact ⟨'0', by simp [e], by decide⟩
    · cases rest with
      | nil => simp at h
      | cons c r =>
        simp only at h
        split at h
        · rename_i hd
          refine ⟨c, by simp, ?_⟩
          simp only [Bool.and_eq_true, decide_eq_true_eq, isDigit] at *
          exact ⟨Char.le_trans (by decide : '0' ≤ '1') hd.1, hd.2⟩
        · simp at h
  obtain ⟨c, hc, hd⟩ := key _ _ h1
  obtain ⟨pre, hpre, _⟩ := reads_optLit ['-'] s
  exact ⟨c, by rw [hpre]; simp [hc], hd⟩

/-- Results of `x` contain no number when the text has no digit. -/
def NoNum (x : P Pair) : Prop := ∀ s p s', x s = some (p, s') → Reads s s' ∧
  ((∀ c ∈ s.rest, isDigit c = false) → p.hasNumber = false)

theorem Pest.Reads.mem {s s' : PS} (h : Reads s s') {c : Char} (hc : c ∈ s'.rest) : c ∈ s.rest := by
  obtain ⟨a, ha, _⟩ := h
  rw [ha]; simp [hc]

theorem noNum_string : NoNum string := by
  intro s p s' h
  refine ⟨(good_string _ _ _ h).reads, fun _ => ?_⟩
  simp only [string, Option.bind_eq_bind, Option.bind_eq_some_iff, Option.pure_def, Option.some.injEq,
    Prod.mk.injEq] at h
  obtain ⟨s1, h1, s2, h2, rfl, rfl⟩ := h
  rfl

theorem noNum_number : NoNum number := by
  intro s p s' h
  refine ⟨(good_number _ _ _ h).reads, fun hd => ?_⟩
  obtain ⟨c, hc, hdc⟩ := number_digit h
  simp [hd c hc] at hdc

theorem noNum_alt {x y : P Pair} (hx : NoNum x) (hy : NoNum y) : NoNum (alt x y) := by
  intro s p s' h
  simp only [alt] at h
  split at h
  · rename_i r hr
    simp only [Option.some.injEq] at h
    subst h
    exact hx _ _ _ hr
  · exact hy _ _ _ h

theorem noNum_bracketed {n m o c x} (ho : Rec n o) (hc : Rec m c) (hx : NoNum x) : NoNum (bracketed o c x) := by
  intro s p s' h
  simp only [bracketed, Option.bind_eq_bind, Option.bind_eq_some_iff, Option.pure_def, Option.some.injEq,
    Prod.mk.injEq, Prod.exists] at h
  obtain ⟨s1, h1, q, s2, h2, s3, h3, rfl, rfl⟩ := h
  have r1 := (ho _ _ h1).1.trans (reads_skip _)
  refine ⟨r1.trans ((hx _ _ _ h2).1.trans ((reads_skip _).trans (hc _ _ h3).1)), fun hd => ?_⟩
  exact (hx _ _ _ h2).2 fun c hc => hd c (r1.mem hc)

theorem noNum_starTail {x : P Pair} (hx : NoNum x) : ∀ n s, Reads s (starTail x n s).2 ∧
    ((∀ c ∈ s.rest, isDigit c = false) → Pair.hasNumberL (starTail x n s).1 = false) := by
  intro n
  induction n with
  | zero => intro s; exact ⟨.refl _, fun _ => rfl⟩
  | succ n ih =>
    intro s
    simp only [starTail]
    split
    · exact ⟨.refl _, fun _ => rfl⟩
    · rename_i p s' h
      have r1 := (reads_skip s).trans (hx _ _ _ h).1
      refine ⟨r1.trans (ih s').1, fun hd => ?_⟩
      simp only [Pair.hasNumberL, Bool.or_eq_false_iff]
      exact ⟨(hx _ _ _ h).2 fun c hc => hd c ((reads_skip s).mem hc), (ih s').2 fun c hc => hd c (r1.mem hc)⟩

theorem noNum_star {x : P Pair} (hx : NoNum x) (s : PS) : Reads s (Pest.star x s).2 ∧
    ((∀ c ∈ s.rest, isDigit c = false) → Pair.hasNumberL (Pest.star x s).1 = false) := by
  simp only [Pest.star]
  split
  · exact ⟨.refl _, fun _ => rfl⟩
  · rename_i p s' h
    have r1 := (hx _ _ _ h).1
    refine ⟨r1.trans (noNum_starTail hx _ s').1, fun hd => ?_⟩
    simp only [Pair.hasNumberL, Bool.or_eq_false_iff]
    exact ⟨(hx _ _ _ h).2 hd, (noNum_starTail hx _ s').2 fun c hc => hd c (r1.mem hc)⟩

theorem noNum_hTerm {node} (h : NoNum node) : NoNum (hTerm node) :=
  noNum_alt (noNum_alt noNum_string (noNum_alt noNum_number (noNum_bracketed rec_braceOpen rec_braceClose h)))
    (noNum_bracketed (rec_lit _ 1 (by simp)) (rec_lit _ 1 (by simp)) h)

theorem noNum_hOpTerm {op node} (h : NoNum node) : NoNum (hOpTerm op node) := by
  intro s p s' hh
  simp only [hOpTerm, Option.bind_eq_bind, Option.bind_eq_some_iff] at hh
  obtain ⟨s1, h1, h2⟩ := hh
  have r1 := (rec_opInner op _ _ h1).1.trans (reads_skip _)
  exact ⟨r1.trans (noNum_hTerm h _ _ _ h2).1, fun hd => (noNum_hTerm h _ _ _ h2).2 fun c hc => hd c (r1.mem hc)⟩

theorem noNum_hGate {op node} (h : NoNum node) : NoNum (hGate op node) := by
  intro s p s' hh
  simp only [hGate, Option.bind_eq_bind, Option.bind_eq_some_iff, Option.pure_def, Option.some.injEq,
    Prod.mk.injEq, Prod.exists] at hh
  obtain ⟨t, s1, h1, t2, s2, h2, rfl, rfl⟩ := hh
  have e1 := noNum_hTerm h _ _ _ h1
  have e2 := noNum_hOpTerm h _ _ _ h2
  have e3 := noNum_star (noNum_hOpTerm (op := op) h) (skip s2)
  have r1 := e1.1.trans (reads_skip s1)
  have r2 := r1.trans (e2.1.trans (reads_skip s2))
  refine ⟨r2.trans e3.1, fun hd => ?_⟩
  simp only [Pair.hasNumber, Pair.hasNumberL, Bool.or_eq_false_iff]
  exact ⟨e1.2 hd, e2.2 fun c hc => hd c (r1.mem hc), e3.2 fun c hc => hd c (r2.mem hc)⟩

theorem noNum_hNode : ∀ n, NoNum (hNode n) := by
  intro n
  induction n with
  | zero => intro s p s' h; simp [hNode] at h
  | succ n ih => exact noNum_alt (noNum_hGate ih) (noNum_alt (noNum_hGate ih) (noNum_hTerm ih))

theorem noNum_jCommaNode {node} (h : NoNum node) : NoNum (jCommaNode node) := by
  intro s p s' hh
  simp only [jCommaNode, Option.bind_eq_bind, Option.bind_eq_some_iff] at hh
  obtain ⟨s1, h1, h2⟩ := hh
  have r1 := (Reads.of_lit h1).trans (reads_skip _)
  exact ⟨r1.trans (h _ _ _ h2).1, fun hd => (h _ _ _ h2).2 fun c hc => hd c (r1.mem hc)⟩

theorem noNum_jGate {op node} (h : NoNum node) : NoNum (jGate op node) := by
  refine noNum_alt ?_ ?_
  · intro s p s' hh
    simp only [Option.bind_eq_bind, Option.bind_eq_some_iff, Option.pure_def, Option.some.injEq,
      Prod.mk.injEq] at hh
    obtain ⟨s1, h1, s2, h2, rfl, rfl⟩ := hh
    exact ⟨(rec_jGateHead op _ _ h1).1.trans ((reads_skip _).trans (Reads.of_lit h2)), fun _ => rfl⟩
  · intro s p s' hh
    simp only [Option.bind_eq_bind, Option.bind_eq_some_iff, Option.pure_def, Option.some.injEq,
      Prod.mk.injEq, Prod.exists] at hh
    obtain ⟨s1, h1, q, s2, h2, s3, h3, rfl, rfl⟩ := hh
    have r1 := (rec_jGateHead op _ _ h1).1.trans (reads_skip s1)
    have e2 := h _ _ _ h2
    have e3 := noNum_star (noNum_jCommaNode h) (skip s2)
    have r2 := r1.trans (e2.1.trans (reads_skip s2))
    refine ⟨r2.trans (e3.1.trans ((reads_skip _).trans (Reads.of_lit h3))), fun hd => ?_⟩
    simp only [Pair.hasNumber, Pair.hasNumberL, Bool.or_eq_false_iff]
    exact ⟨e2.2 fun c hc => hd c (r1.mem hc), e3.2 fun c hc => hd c (r2.mem hc)⟩

theorem noNum_jObject {x} (h : NoNum x) : NoNum (jObject x) := by
  intro s p s' hh
  simp only [jObject, Option.bind_eq_bind, Option.bind_eq_some_iff, Option.pure_def, Option.some.injEq,
      Prod.mk.injEq, Prod.exists] at hh
  obtain ⟨s1, h1, s2, h2, s3, h3, q, s4, h4, s5, h5, rfl, rfl⟩ := hh
  have r1 := (Reads.of_lit h1).trans ((reads_skip _).trans ((rec_jName _ _ h2).1.trans
    ((reads_skip _).trans ((Reads.of_lit h3).trans (reads_skip _)))))
  exact ⟨r1.trans ((h _ _ _ h4).1.trans ((reads_skip _).trans (Reads.of_lit h5))),
    fun hd => (h _ _ _ h4).2 fun c hc => hd c (r1.mem hc)⟩

theorem noNum_jNode : ∀ n, NoNum (jNode n) := by
  intro n
  induction n with
  | zero => intro s p s' h; simp [jNode] at h
  | succ n ih =>
    exact noNum_alt (noNum_jObject (noNum_alt noNum_string noNum_number))
      (noNum_alt (noNum_jObject (noNum_jGate ih)) (noNum_jObject (noNum_jGate ih)))

theorem noNum_nodeOf (l : PolicyLanguage) (n : ℕ) : NoNum (nodeOf l n) := by
  cases l
  · exact noNum_jNode _
  · exact noNum_hNode _

end Rabe
