import Verif.Model.Pest

/-!
# General facts about the parsers: consumption, columns, shape of the result
-/

namespace Rabe
namespace Pest

/-! ## Consumption -/

/-- `s'` is reached from `s` by reading a prefix of the text. -/
def Reads (s s' : PS) : Prop := ∃ pre, s.rest = pre ++ s'.rest ∧ s'.col = colAfter s.col pre

theorem Reads.refl (s : PS) : Reads s s := ⟨[], by simp, by simp [colAfter]⟩

theorem colAfter_append (a b : Str) : ∀ col, colAfter col (a ++ b) = colAfter (colAfter col a) b := by
  induction a with
  | nil => intro col; rfl
  | cons x xs ih => intro col; simp [colAfter, ih]

theorem Reads.trans {s s' s'' : PS} (h : Reads s s') (h' : Reads s' s'') : Reads s s'' := by
  obtain ⟨a, ha, hc⟩ := h
  obtain ⟨b, hb, hd⟩ := h'
  exact ⟨a ++ b, by rw [ha, hb, List.append_assoc], by rw [hd, hc, colAfter_append]⟩

theorem Reads.le {s s' : PS} (h : Reads s s') : s'.rest.length ≤ s.rest.length := by
  obtain ⟨a, ha, _⟩ := h
  rw [ha]; simp

theorem Reads.noNl {s s' : PS} (h : Reads s s') (hn : '\n' ∉ s.rest) : '\n' ∉ s'.rest := by
  obtain ⟨a, ha, _⟩ := h
  rw [ha] at hn
  exact fun h => hn (by simp [h])

theorem colAfter_noNl (a : Str) : ∀ col, '\n' ∉ a → colAfter col a = col + a.length := by
  induction a with
  | nil => intro col _; simp [colAfter]
  | cons x xs ih =>
    intro col h
    simp only [List.mem_cons, not_or] at h
    simp only [colAfter, nextCol, if_neg (Ne.symm h.1), ih _ h.2, List.length_cons]
    omega

theorem Reads.col_noNl {s s' : PS} (h : Reads s s') (hn : '\n' ∉ s.rest) :
    s'.col + s'.rest.length = s.col + s.rest.length := by
  obtain ⟨a, ha, hc⟩ := h
  have : '\n' ∉ a := fun h => hn (by rw [ha]; simp [h])
  rw [hc, colAfter_noNl a _ this, ha, List.length_append]
  omega

theorem lit_reads : ∀ (cs : Str) (s s' : PS), lit cs s = some s' →
    s.rest = cs ++ s'.rest ∧ s'.col = colAfter s.col cs := by
  intro cs
  induction cs with
  | nil => intro s s' h; simp only [lit, Option.some.injEq] at h; subst h; simp [colAfter]
  | cons c cs ih =>
    rintro ⟨col, rest⟩ s' h
    cases rest with
    | nil => simp [lit] at h
    | cons d ds =>
      simp only [lit] at h
      split at h
      · rename_i hcd
        obtain ⟨h1, h2⟩ := ih _ _ h
        subst hcd
        simp only at h1
        exact ⟨by simp [h1], by simp [colAfter, h2]⟩
      · simp at h

theorem Reads.of_lit {cs : Str} {s s' : PS} (h : lit cs s = some s') : Reads s s' := by
  obtain ⟨h1, h2⟩ := lit_reads cs s s' h
  exact ⟨cs, h1, h2⟩

theorem lit_len {cs : Str} {s s' : PS} (h : lit cs s = some s') :
    s'.rest.length + cs.length = s.rest.length := by
  obtain ⟨h1, _⟩ := lit_reads cs s s' h
  rw [h1]; simp; omega

/-- A recogniser that reads at least `n` characters. -/
def Rec (n : ℕ) (f : PS → Option PS) : Prop :=
  ∀ s s', f s = some s' → Reads s s' ∧ s'.rest.length + n ≤ s.rest.length

theorem rec_lit (cs : Str) (n : ℕ) (hn : n ≤ cs.length) : Rec n (lit cs) := fun _ _ h =>
  ⟨.of_lit h, by have := lit_len h; omega⟩

theorem rec_orElse {n f g} (hf : Rec n f) (hg : Rec n g) : Rec n (orElse f g) := by
  intro s s' h
  simp only [orElse] at h
  split at h
  · rename_i s1 h1
    simp only [Option.some.injEq] at h
    subst h
    exact hf _ _ h1
  · exact hg _ _ h

theorem reads_wsStar : ∀ (rest : Str) (col : ℕ), Reads ⟨col, rest⟩ (wsStar col rest) := by
  intro rest
  induction rest with
  | nil => intro col; exact .refl _
  | cons c cs ih =>
    intro col
    simp only [wsStar]
    split
    · exact Reads.trans ⟨[c], rfl, rfl⟩ (ih _)
    · exact .refl _

theorem reads_commentTail : ∀ (n : ℕ) (rest : Str) (col : ℕ) (s' : PS), rest.length = n →
    commentTail col rest = some s' → Reads ⟨col, rest⟩ s' := by
  intro n
  induction n using Nat.strong_induction_on with
  | _ n ih =>
    intro rest col s' hlen h
    unfold commentTail at h
    split at h
    · simp only [Option.some.injEq] at h
      subst h
      exact ⟨['*', '/'], rfl, rfl⟩
    · rename_i c r _
      exact Reads.trans ⟨[c], rfl, rfl⟩ (ih r.length (by rw [← hlen]; simp) r _ s' rfl h)
    · simp at h

theorem rec_comment : Rec 2 comment := by
  intro s s' h
  simp only [comment] at h
  split at h
  · rename_i s1 h1
    have hr := reads_commentTail _ _ _ _ rfl h
    refine ⟨(Reads.of_lit h1).trans hr, ?_⟩
    have h2 := lit_len h1
    have h3 := hr.le
    simp at h2 h3
    omega
  · simp at h

theorem reads_commentsStar : ∀ (n : ℕ) (s : PS), Reads s (commentsStar n s) := by
  intro n
  induction n with
  | zero => intro s; exact .refl _
  | succ n ih =>
    intro s
    simp only [commentsStar]
    split
    · rename_i s' h
      exact ((rec_comment _ _ h).1.trans (reads_wsStar _ _)).trans (ih _)
    · exact .refl _

theorem reads_skip (s : PS) : Reads s (skip s) := (reads_wsStar _ _).trans (reads_commentsStar _ _)

theorem rec_quoted {n f} (hf : Rec n f) : Rec 2 (quoted f) := by
  intro s s' h
  simp only [quoted, Option.bind_eq_bind, Option.bind_eq_some_iff] at h
  obtain ⟨s1, h1, s2, h2, h3⟩ := h
  have e1 := rec_lit ['"'] 1 (by simp) _ _ h1
  have e2 := hf _ _ h2
  have e3 := rec_lit ['"'] 1 (by simp) _ _ h3
  have k1 := (reads_skip s1).le
  have k2 := (reads_skip s2).le
  refine ⟨e1.1.trans ((reads_skip s1).trans (e2.1.trans ((reads_skip s2).trans e3.1))), by omega⟩

theorem rec_opValue (op : Op) : Rec 2 (opValue op) := by
  cases op <;> exact rec_orElse (rec_lit _ _ (by simp)) (rec_orElse (rec_lit _ _ (by simp)) (rec_lit _ _ (by simp)))

theorem rec_opInner (op : Op) : Rec 2 (opInner op) := rec_orElse (rec_opValue op) (rec_quoted (rec_opValue op))

theorem charP_spec (r : Str) : ∀ c r', charP r = some (c, r') → r = c ++ r' ∧ 0 < c.length := by
  intro c r' h
  unfold charP at h
  split at h
  · simp at h
  · simp at h
  · split at h
    · simp only [Option.some.injEq, Prod.mk.injEq] at h
      obtain ⟨rfl, rfl⟩ := h
      simp
    · split at h
      · split at h
        · split at h
          · simp only [Option.some.injEq, Prod.mk.injEq] at h
            obtain ⟨rfl, rfl⟩ := h
            rename_i hu _ _ _ _ _ _
            simp_all
          · simp at h
        · simp at h
      · simp at h
  · simp at h
  · simp only [Option.some.injEq, Prod.mk.injEq] at h
    obtain ⟨rfl, rfl⟩ := h
    simp

theorem innerF_spec : ∀ (n : ℕ) (r : Str), r = (innerF n r).1 ++ (innerF n r).2 := by
  intro n
  induction n with
  | zero => intro r; simp [innerF]
  | succ n ih =>
    intro r
    simp only [innerF]
    split
    · simp
    · rename_i c r' h
      have := (charP_spec r c r' h).1
      simp only [List.append_assoc]
      rw [← ih r', ← this]

theorem reads_inner (s : PS) : Reads s (inner s).2 := ⟨(inner s).1, innerF_spec _ _, rfl⟩

theorem reads_digitsStar : ∀ (rest : Str) (col : ℕ), Reads ⟨col, rest⟩ (digitsStar col rest) := by
  intro rest
  induction rest with
  | nil => intro col; exact .refl _
  | cons c cs ih =>
    intro col
    simp only [digitsStar]
    split
    · rename_i hd
      have hc : c ≠ '\n' := by rintro rfl; simp [isDigit] at hd
      exact Reads.trans (s' := ⟨col + 1, cs⟩) ⟨[c], rfl, by simp [colAfter, nextCol, hc]⟩ (ih _)
    · exact .refl _

theorem reads_optLit (cs : Str) (s : PS) : Reads s (optLit cs s) := by
  simp only [optLit]
  cases h : lit cs s with
  | none => simpa using Reads.refl s
  | some s' => simpa using Reads.of_lit h

theorem rec_digitsPlus : Rec 1 digitsPlus := by
  rintro ⟨col, rest⟩ s' h
  cases rest with
  | nil => simp [digitsPlus] at h
  | cons c r =>
    simp only [digitsPlus] at h
    split at h
    · rename_i hd
      have hc : c ≠ '\n' := by rintro rfl; simp [isDigit] at hd
      simp only [Option.some.injEq] at h
      subst h
      have hr := reads_digitsStar r (col + 1)
      refine ⟨Reads.trans ⟨[c], rfl, by simp [colAfter, nextCol, hc]⟩ hr, ?_⟩
      have := hr.le
      simp at this ⊢
      omega
    · simp at h

theorem rec_intPart : Rec 1 intPart := by
  rintro ⟨col, rest⟩ s' h
  simp only [intPart] at h
  split at h
  · rename_i s1 h1
    simp only [Option.some.injEq] at h
    subst h
    exact rec_lit ['0'] 1 (by simp) _ _ h1
  · cases rest with
    | nil => simp at h
    | cons c r =>
      simp only at h
      split at h
      · rename_i hd
        have hc : c ≠ '\n' := by rintro rfl; simp at hd
        simp only [Option.some.injEq] at h
        subst h
        have hr := reads_digitsStar r (col + 1)
        refine ⟨Reads.trans ⟨[c], rfl, by simp [colAfter, nextCol, hc]⟩ hr, ?_⟩
        have := hr.le
        simp at this ⊢
        omega
      · simp at h

theorem reads_fracPart (s : PS) : Reads s (fracPart s) := by
  simp only [fracPart]
  split
  · rename_i s' h
    exact (Reads.of_lit h).trans (reads_digitsStar _ _)
  · exact .refl _

theorem reads_getD {f : PS → Option PS} {n} (hf : Rec n f) (s : PS) : Reads s ((f s).getD s) := by
  cases h : f s with
  | none => simpa using Reads.refl s
  | some s' => simpa using (hf _ _ h).1

theorem reads_expPart (s : PS) : Reads s (expPart s) := by
  simp only [expPart]
  split
  · rename_i s1 h
    have h1 := (rec_orElse (n := 1) (rec_lit ['e'] 1 (by simp)) (rec_lit ['E'] 1 (by simp)) _ _ h).1
    have h2 := reads_getD (rec_orElse (n := 1) (rec_lit ['+'] 1 (by simp)) (rec_lit ['-'] 1 (by simp))) s1
    cases h3 : digitsPlus ((orElse (lit ['+']) (lit ['-']) s1).getD s1) with
    | none => simpa using Reads.refl s
    | some s3 => simpa using h1.trans (h2.trans (rec_digitsPlus _ _ h3).1)
  · exact .refl _

/-! ## Tokens -/

/-- Induction over tokens. -/
theorem Pair.ind {Q : Pair → Prop} (hs : ∀ s c, Q (.string s c)) (hn : Q .number)
    (hg : ∀ op cs, (∀ c ∈ cs, Q c) → Q (.gate op cs)) : ∀ p, Q p := by
  intro p
  refine Pair.rec (motive_1 := Q) (motive_2 := fun cs => ∀ c ∈ cs, Q c) hs hn ?_ ?_ ?_ p
  · intro op cs h; exact hg op cs h
  · simp
  · intro h t hh ht c hc
    rcases List.mem_cons.1 hc with rfl | hc
    · exact hh
    · exact ht c hc

mutual
/-- A token tree contains a number. -/
def Pair.hasNumber : Pair → Bool
  | .string _ _ => false
  | .number => true
  | .gate _ cs => Pair.hasNumberL cs
/-- Some token tree of a list contains a number. -/
def Pair.hasNumberL : List Pair → Bool
  | [] => false
  | c :: cs => Pair.hasNumber c || Pair.hasNumberL cs
end

mutual
/-- The access tree of a token tree. -/
def Pair.toPol : Pair → Pol
  | .string s c => .leaf s c
  | .number => .leaf [] 0
  | .gate op cs => .gate op (Pair.toPolL cs)
/-- The access trees of a list of token trees. -/
def Pair.toPolL : List Pair → List Pol
  | [] => []
  | c :: cs => Pair.toPol c :: Pair.toPolL cs
end

mutual
/-- Columns of the strings of a token tree, left to right. -/
def Pair.cols : Pair → List ℕ
  | .string _ c => [c]
  | .number => []
  | .gate _ cs => Pair.colsL cs
/-- Columns of the strings of a list of token trees, left to right. -/
def Pair.colsL : List Pair → List ℕ
  | [] => []
  | c :: cs => Pair.cols c ++ Pair.colsL cs
end

mutual
/-- Number of nodes of a token tree. -/
def Pair.size : Pair → ℕ
  | .string _ _ => 1
  | .number => 1
  | .gate _ cs => 1 + Pair.sizeL cs
/-- Number of nodes of a list of token trees. -/
def Pair.sizeL : List Pair → ℕ
  | [] => 0
  | c :: cs => Pair.size c + Pair.sizeL cs
end

theorem Pair.hasNumberL_eq (cs : List Pair) : Pair.hasNumberL cs = cs.any Pair.hasNumber := by
  induction cs with
  | nil => rfl
  | cons c cs ih => simp [Pair.hasNumberL, ih]

theorem Pair.toPolL_eq (cs : List Pair) : Pair.toPolL cs = cs.map Pair.toPol := by
  induction cs with
  | nil => rfl
  | cons c cs ih => simp [Pair.toPolL, ih]

theorem Pair.colsL_eq (cs : List Pair) : Pair.colsL cs = cs.flatMap Pair.cols := by
  induction cs with
  | nil => rfl
  | cons c cs ih => simp [Pair.colsL, ih]

theorem Pair.length_le_sizeL (cs : List Pair) : cs.length ≤ Pair.sizeL cs := by
  induction cs with
  | nil => simp
  | cons c cs ih =>
    have : 1 ≤ c.size := by cases c <;> simp [Pair.size]
    simp only [List.length_cons, Pair.sizeL]
    omega

theorem Pair.size_le_sizeL {c : Pair} {cs : List Pair} (h : c ∈ cs) : c.size ≤ Pair.sizeL cs := by
  induction cs with
  | nil => simp at h
  | cons d cs ih =>
    simp only [Pair.sizeL]
    rcases List.mem_cons.1 h with rfl | h
    · omega
    · have := ih h; omega

/-- The conversion into a policy value fails only on numbers, by a panic. -/
theorem toPolicy_eq : ∀ p : Pair, toPolicy p = if p.hasNumber then .panic else .ok p.toPol.toValue := by
  intro p
  induction p using Pair.ind with
  | hs s c => simp [toPolicy, Pair.hasNumber, Pair.toPol]
  | hn => simp [toPolicy, Pair.hasNumber]
  | hg op cs ih =>
    have key : toPolicyL cs = if Pair.hasNumberL cs then .panic else .ok ((Pair.toPolL cs).map Pol.toValue) := by
      induction cs with
      | nil => simp [toPolicyL, Pair.hasNumberL, Pair.toPolL]
      | cons c cs ihc =>
        simp only [toPolicyL, ih c (by simp), ihc fun c hc => ih c (by simp [hc]), Pair.hasNumberL, Pair.toPolL]
        by_cases h1 : c.hasNumber = true <;> by_cases h2 : Pair.hasNumberL cs = true <;> simp [h1, h2]
    simp only [toPolicy, key, Pair.hasNumber, Pair.toPol]
    by_cases h2 : Pair.hasNumberL cs = true <;> simp [h2]

theorem Pair.leaves_toPol : ∀ p : Pair, p.hasNumber = false → p.toPol.leaves.map Prod.snd = p.cols := by
  intro p
  induction p using Pair.ind with
  | hs s c => intro _; simp [Pair.toPol, Pair.cols]
  | hn => intro h; simp [Pair.hasNumber] at h
  | hg op cs ih =>
    intro h
    simp only [Pair.hasNumber, Pair.hasNumberL_eq, List.any_eq_false] at h
    simp only [Pair.toPol, Pair.cols, Pol.leaves_gate, Pair.toPolL_eq, Pair.colsL_eq, List.map_flatMap,
      List.flatMap_map]
    simp only [List.flatMap]
    congr 1
    exact List.map_congr_left fun c hc => ih c hc (by simpa using h c hc)

theorem Pair.fits : ∀ p : Pair, p.size < 2 ^ 64 → p.toPol.Fits := by
  intro p
  induction p using Pair.ind with
  | hs s c => intro _; simp [Pair.toPol, Pol.Fits]
  | hn => intro _; simp [Pair.toPol, Pol.Fits]
  | hg op cs ih =>
    intro h
    simp only [Pair.size] at h
    have hl := Pair.length_le_sizeL cs
    simp only [Pair.toPol, Pol.Fits, Pol.arity_gate, Pair.toPolL_eq, List.length_map, List.mem_map]
    refine ⟨by omega, ?_⟩
    rintro _ ⟨c, hc, rfl⟩
    have := Pair.size_le_sizeL hc
    exact ih c hc (by omega)

/-! ## Results of parsers -/

/-- The columns `cs` are increasing and lie in `[lo, hi)`. -/
def ColsIn (lo hi : ℕ) (cs : List ℕ) : Prop := cs.Pairwise (· < ·) ∧ ∀ c ∈ cs, lo ≤ c ∧ c < hi

theorem ColsIn.append {a b c d : ℕ} {xs ys : List ℕ} (hx : ColsIn a b xs) (hy : ColsIn c d ys) (hab : a ≤ c)
    (hbc : b ≤ c) (hbd : b ≤ d) : ColsIn a d (xs ++ ys) := by
  refine ⟨List.pairwise_append.2 ⟨hx.1, hy.1, ?_⟩, ?_⟩
  · intro x h1 y h2
    have := hx.2 x h1
    have := hy.2 y h2
    omega
  · intro x h
    rcases List.mem_append.1 h with h | h
    · have := hx.2 x h; omega
    · have := hy.2 x h; omega

theorem ColsIn.mono {a b c d : ℕ} {xs : List ℕ} (hx : ColsIn a b xs) (h1 : c ≤ a) (h2 : b ≤ d) : ColsIn c d xs :=
  ⟨hx.1, fun x h => by have := hx.2 x h; omega⟩

/-- What is known about the tokens `ps` read between `s` and `s'`. -/
structure OutL (s : PS) (ps : List Pair) (s' : PS) : Prop where
  reads : Reads s s'
  size : Pair.sizeL ps + s'.rest.length ≤ s.rest.length
  cols : '\n' ∉ s.rest → ColsIn s.col s'.col (Pair.colsL ps)

theorem OutL.nil {s s' : PS} (h : Reads s s') : OutL s [] s' :=
  ⟨h, by have := h.le; simpa [Pair.sizeL] using this, fun _ => ⟨by simp [Pair.colsL], by simp [Pair.colsL]⟩⟩

theorem Pair.sizeL_append (a b : List Pair) : Pair.sizeL (a ++ b) = Pair.sizeL a + Pair.sizeL b := by
  induction a with
  | nil => simp [Pair.sizeL]
  | cons x xs ih => simp [Pair.sizeL, ih]; omega

theorem OutL.append {s s' s'' : PS} {ps qs} (h : OutL s ps s') (h' : OutL s' qs s'') : OutL s (ps ++ qs) s'' := by
  refine ⟨h.reads.trans h'.reads, ?_, fun hn => ?_⟩
  · have := h.size
    have := h'.size
    rw [Pair.sizeL_append]
    omega
  · have e1 := h.reads.col_noNl hn
    have hn' := h.reads.noNl hn
    have e2 := h'.reads.col_noNl hn'
    have l1 := h.reads.le
    have l2 := h'.reads.le
    rw [Pair.colsL_eq, List.flatMap_append, ← Pair.colsL_eq, ← Pair.colsL_eq]
    exact (h.cols hn).append (h'.cols hn') (by omega) le_rfl (by omega)

/-- Result of a parser of one token. -/
abbrev Out (s : PS) (p : Pair) (s' : PS) : Prop := OutL s [p] s'

theorem OutL.reads_right {s s' s'' : PS} {ps} (h : OutL s ps s') (h' : Reads s' s'') : OutL s ps s'' := by
  simpa using h.append (OutL.nil h')

theorem OutL.reads_left {s s' s'' : PS} {ps} (h' : Reads s s') (h : OutL s' ps s'') : OutL s ps s'' := by
  simpa using (OutL.nil h').append h

theorem OutL.gate {s s' s'' : PS} {op ps} (h : OutL s ps s') (h' : Reads s' s'')
    (hlt : s''.rest.length < s'.rest.length ∨ Pair.sizeL ps + s'.rest.length < s.rest.length) :
    Out s (.gate op ps) s'' := by
  have h2 := h.reads_right h'
  refine ⟨h2.reads, ?_, fun hn => ?_⟩
  · have := h.size
    have := h'.le
    simp only [Pair.sizeL, Pair.size]
    omega
  · simpa [Pair.colsL, Pair.cols] using h2.cols hn

/-- A sound parser of tokens. -/
def Good (x : P Pair) : Prop := ∀ s p s', x s = some (p, s') → Out s p s'

theorem good_string : Good string := by
  intro s p s' h
  simp only [string, Option.bind_eq_bind, Option.bind_eq_some_iff, Option.pure_def, Option.some.injEq,
    Prod.mk.injEq] at h
  obtain ⟨s1, h1, s2, h2, rfl, rfl⟩ := h
  have e1 := rec_lit ['"'] 1 (by simp) _ _ h1
  have e2 := rec_lit ['"'] 1 (by simp) _ _ h2
  have ei := reads_inner s1
  have hr := e1.1.trans (ei.trans e2.1)
  refine ⟨hr, ?_, fun hn => ?_⟩
  · have := ei.le
    simp only [Pair.sizeL, Pair.size]
    omega
  · have hn1 := e1.1.noNl hn
    have c1 := e1.1.col_noNl hn
    have c2 := ei.col_noNl hn1
    have c3 := e2.1.col_noNl (ei.noNl hn1)
    have l := ei.le
    refine ⟨by simp [Pair.colsL, Pair.cols], ?_⟩
    simp only [Pair.colsL, Pair.cols, List.append_nil, List.mem_cons, List.not_mem_nil, or_false, forall_eq]
    omega

theorem good_number : Good number := by
  intro s p s' h
  simp only [number, Option.bind_eq_bind, Option.bind_eq_some_iff, Option.pure_def, Option.some.injEq,
    Prod.mk.injEq] at h
  obtain ⟨s1, h1, rfl, rfl⟩ := h
  have e1 := rec_intPart _ _ h1
  have e0 := reads_optLit ['-'] s
  have e2 := (reads_fracPart s1).trans (reads_expPart (fracPart s1))
  refine ⟨e0.trans (e1.1.trans e2), ?_, fun _ => by simp [Pair.colsL, Pair.cols, ColsIn]⟩
  have := e0.le
  have := e2.le
  simp only [Pair.sizeL, Pair.size]
  omega

theorem good_alt {x y : P Pair} (hx : Good x) (hy : Good y) : Good (alt x y) := by
  intro s p s' h
  simp only [alt] at h
  split at h
  · rename_i r hr
    simp only [Option.some.injEq] at h
    subst h
    exact hx _ _ _ hr
  · exact hy _ _ _ h

theorem good_bracketed {n m o c x} (ho : Rec n o) (hc : Rec m c) (hx : Good x) : Good (bracketed o c x) := by
  intro s p s' h
  simp only [bracketed, Option.bind_eq_bind, Option.bind_eq_some_iff, Option.pure_def, Option.some.injEq,
    Prod.mk.injEq, Prod.exists] at h
  obtain ⟨s1, h1, q, s2, h2, s3, h3, rfl, rfl⟩ := h
  exact ((hx _ _ _ h2).reads_left ((ho _ _ h1).1.trans (reads_skip _))).reads_right
    ((reads_skip _).trans (hc _ _ h3).1)

theorem outL_starTail {x : P Pair} (hx : Good x) : ∀ n s, OutL s (starTail x n s).1 (starTail x n s).2 := by
  intro n
  induction n with
  | zero => intro s; exact .nil (.refl _)
  | succ n ih =>
    intro s
    simp only [starTail]
    split
    · exact .nil (.refl _)
    · rename_i p s' h
      exact OutL.append (ps := [p]) ((hx _ _ _ h).reads_left (reads_skip s)) (ih s')

theorem outL_star {x : P Pair} (hx : Good x) (s : PS) : OutL s (star x s).1 (star x s).2 := by
  simp only [star]
  split
  · exact .nil (.refl _)
  · rename_i p s' h
    exact OutL.append (ps := [p]) (hx _ _ _ h) (outL_starTail hx _ s')

theorem rec_braceOpen : Rec 1 braceOpen :=
  rec_orElse (rec_lit _ _ (by simp)) (rec_orElse (rec_lit _ _ (by simp)) (rec_lit _ _ (by simp)))

theorem rec_braceClose : Rec 1 braceClose :=
  rec_orElse (rec_lit _ _ (by simp)) (rec_orElse (rec_lit _ _ (by simp)) (rec_lit _ _ (by simp)))

theorem good_hValue {node} (h : Good node) : Good (hValue node) :=
  good_alt good_string (good_alt good_number (good_bracketed rec_braceOpen rec_braceClose h))

theorem good_hTerm {node} (h : Good node) : Good (hTerm node) :=
  good_alt (good_hValue h) (good_bracketed (rec_lit _ 1 (by simp)) (rec_lit _ 1 (by simp)) h)

theorem good_hOpTerm {op node} (h : Good node) : Good (hOpTerm op node) := by
  intro s p s' hh
  simp only [hOpTerm, Option.bind_eq_bind, Option.bind_eq_some_iff] at hh
  obtain ⟨s1, h1, h2⟩ := hh
  exact (good_hTerm h _ _ _ h2).reads_left ((rec_opInner op _ _ h1).1.trans (reads_skip _))

theorem hOpTerm_lt {op node} (h : Good node) {s p s'} (hh : hOpTerm op node s = some (p, s')) :
    Pair.sizeL [p] + s'.rest.length < s.rest.length := by
  simp only [hOpTerm, Option.bind_eq_bind, Option.bind_eq_some_iff] at hh
  obtain ⟨s1, h1, h2⟩ := hh
  have e1 := (rec_opInner op _ _ h1).2
  have e2 := (reads_skip s1).le
  have e3 := (good_hTerm h _ _ _ h2).size
  omega

theorem good_hGate {op node} (h : Good node) : Good (hGate op node) := by
  intro s p s' hh
  simp only [hGate, Option.bind_eq_bind, Option.bind_eq_some_iff, Option.pure_def, Option.some.injEq,
    Prod.mk.injEq, Prod.exists] at hh
  obtain ⟨t, s1, h1, t2, s2, h2, rfl, rfl⟩ := hh
  have e1 := good_hTerm h _ _ _ h1
  have e2 := (good_hOpTerm h _ _ _ h2).reads_left (reads_skip s1)
  have e3 := (outL_star (good_hOpTerm (op := op) h) (skip s2)).reads_left (reads_skip s2)
  have e12 : OutL s [t, t2] s2 := OutL.append (ps := [t]) e1 e2
  have e : OutL s (t :: t2 :: (star (hOpTerm op node) (skip s2)).1) _ := OutL.append (ps := [t, t2]) e12 e3
  refine e.gate (.refl _) (Or.inr ?_)
  have k1 := e1.size
  have k2 := hOpTerm_lt h h2
  have k3 := e3.size
  have k4 := (reads_skip s1).le
  simp only [Pair.sizeL] at *
  omega

theorem good_hNode : ∀ n, Good (hNode n) := by
  intro n
  induction n with
  | zero => intro s p s' h; simp [hNode] at h
  | succ n ih => exact good_alt (good_hGate ih) (good_alt (good_hGate ih) (good_hTerm ih))

theorem rec_jName : Rec 2 jName :=
  rec_orElse (rec_lit _ _ (by simp)) (rec_orElse (rec_lit _ _ (by simp))
    (rec_orElse (rec_quoted (rec_lit _ 1 (by simp))) (rec_quoted (rec_lit _ 1 (by simp)))))

theorem rec_jChildren : Rec 2 jChildren :=
  rec_orElse (rec_lit _ _ (by simp)) (rec_orElse (rec_lit _ _ (by simp))
    (rec_orElse (rec_quoted (rec_lit _ 1 (by simp))) (rec_quoted (rec_lit _ 1 (by simp)))))

theorem rec_jGateHead (op : Op) : Rec 2 (jGateHead op) := by
  intro s s' h
  simp only [jGateHead, Option.bind_eq_bind, Option.bind_eq_some_iff] at h
  obtain ⟨s1, h1, s2, h2, s3, h3, s4, h4, h5⟩ := h
  have e1 := rec_opInner op _ _ h1
  have e2 := rec_lit [','] 1 (by simp) _ _ h2
  have e3 := rec_jChildren _ _ h3
  have e4 := rec_lit [':'] 1 (by simp) _ _ h4
  have e5 := rec_lit ['['] 1 (by simp) _ _ h5
  have hr : Reads s1 s' := (reads_skip s1).trans (e2.1.trans ((reads_skip s2).trans (e3.1.trans
    ((reads_skip s3).trans (e4.1.trans ((reads_skip s4).trans e5.1))))))
  have := hr.le
  exact ⟨e1.1.trans hr, by omega⟩

theorem good_jCommaNode {node} (h : Good node) : Good (jCommaNode node) := by
  intro s p s' hh
  simp only [jCommaNode, Option.bind_eq_bind, Option.bind_eq_some_iff] at hh
  obtain ⟨s1, h1, h2⟩ := hh
  exact (h _ _ _ h2).reads_left ((Reads.of_lit h1).trans (reads_skip _))

theorem good_jGate {op node} (h : Good node) : Good (jGate op node) := by
  refine good_alt ?_ ?_
  · intro s p s' hh
    simp only [Option.bind_eq_bind, Option.bind_eq_some_iff, Option.pure_def, Option.some.injEq,
      Prod.mk.injEq] at hh
    obtain ⟨s1, h1, s2, h2, rfl, rfl⟩ := hh
    have e1 := rec_jGateHead op _ _ h1
    have e2 := rec_lit [']'] 1 (by simp) _ _ h2
    refine (OutL.nil e1.1).gate ((reads_skip s1).trans e2.1) (Or.inr ?_)
    simp only [Pair.sizeL]
    omega
  · intro s p s' hh
    simp only [Option.bind_eq_bind, Option.bind_eq_some_iff, Option.pure_def, Option.some.injEq,
      Prod.mk.injEq, Prod.exists] at hh
    obtain ⟨s1, h1, q, s2, h2, s3, h3, rfl, rfl⟩ := hh
    have e1 := rec_jGateHead op _ _ h1
    have e2 := (h _ _ _ h2).reads_left (e1.1.trans (reads_skip s1))
    have e3 := (outL_star (good_jCommaNode h) (skip s2)).reads_left (reads_skip s2)
    have e4 := rec_lit [']'] 1 (by simp) _ _ h3
    have k := (reads_skip (star (jCommaNode node) (skip s2)).2).le
    have e : OutL s (q :: (star (jCommaNode node) (skip s2)).1) _ := OutL.append (ps := [q]) e2 e3
    exact e.gate ((reads_skip _).trans e4.1) (Or.inl (by omega))

theorem good_jObject {x} (h : Good x) : Good (jObject x) := by
  intro s p s' hh
  simp only [jObject, Option.bind_eq_bind, Option.bind_eq_some_iff, Option.pure_def, Option.some.injEq,
      Prod.mk.injEq, Prod.exists] at hh
  obtain ⟨s1, h1, s2, h2, s3, h3, q, s4, h4, s5, h5, rfl, rfl⟩ := hh
  exact ((h _ _ _ h4).reads_left ((Reads.of_lit h1).trans ((reads_skip _).trans ((rec_jName _ _ h2).1.trans
    ((reads_skip _).trans ((Reads.of_lit h3).trans (reads_skip _))))))).reads_right
    ((reads_skip _).trans (Reads.of_lit h5))

theorem good_jNode : ∀ n, Good (jNode n) := by
  intro n
  induction n with
  | zero => intro s p s' h; simp [jNode] at h
  | succ n ih =>
    exact good_alt (good_jObject (good_alt good_string good_number))
      (good_alt (good_jObject (good_jGate ih)) (good_jObject (good_jGate ih)))

theorem good_nodeOf (l : PolicyLanguage) (n : ℕ) : Good (nodeOf l n) := by
  cases l
  · exact good_jNode _
  · exact good_hNode _

/-- What acceptance of a text tells about its tokens. -/
theorem content_some {l : PolicyLanguage} {n : ℕ} {text : Str} {p : Pair}
    (h : content (nodeOf l n) text = some p) :
    p.size ≤ text.length ∧ ('\n' ∉ text → p.cols.Pairwise (· < ·)) := by
  simp only [content, Option.bind_eq_bind, Option.bind_eq_some_iff, Prod.exists] at h
  obtain ⟨q, s, h1, h2⟩ := h
  split at h2
  · simp only [Option.some.injEq] at h2
    subst h2
    have e := (good_nodeOf l n _ _ _ h1).reads_left (reads_skip ⟨1, text⟩)
    refine ⟨?_, fun hn => ?_⟩
    · have := e.size
      simp only [Pair.sizeL] at this
      omega
    · simpa [Pair.colsL] using (e.cols hn).1
  · simp at h2

/-! ## Width of the gates in the human language -/

/-- All results of `x` are wide trees. -/
def WideP (x : P Pair) : Prop := ∀ s p s', x s = some (p, s') → p.toPol.Wide

theorem wide_alt {x y : P Pair} (hx : WideP x) (hy : WideP y) : WideP (alt x y) := by
  intro s p s' h
  simp only [alt] at h
  split at h
  · rename_i r hr
    simp only [Option.some.injEq] at h
    subst h
    exact hx _ _ _ hr
  · exact hy _ _ _ h

theorem wide_bracketed {o c x} (hx : WideP x) : WideP (bracketed o c x) := by
  intro s p s' h
  simp only [bracketed, Option.bind_eq_bind, Option.bind_eq_some_iff, Option.pure_def, Option.some.injEq,
    Prod.mk.injEq, Prod.exists] at h
  obtain ⟨s1, h1, q, s2, h2, s3, h3, rfl, rfl⟩ := h
  exact hx _ _ _ h2

theorem wide_string : WideP string := by
  intro s p s' h
  simp only [string, Option.bind_eq_bind, Option.bind_eq_some_iff, Option.pure_def, Option.some.injEq,
    Prod.mk.injEq] at h
  obtain ⟨s1, h1, s2, h2, rfl, rfl⟩ := h
  simp [Pair.toPol, Pol.Wide]

theorem wide_number : WideP number := by
  intro s p s' h
  simp only [number, Option.bind_eq_bind, Option.bind_eq_some_iff, Option.pure_def, Option.some.injEq,
    Prod.mk.injEq] at h
  obtain ⟨s1, h1, rfl, rfl⟩ := h
  simp [Pair.toPol, Pol.Wide]

theorem wide_hTerm {node} (h : WideP node) : WideP (hTerm node) :=
  wide_alt (wide_alt wide_string (wide_alt wide_number (wide_bracketed h))) (wide_bracketed h)

theorem wide_hOpTerm {op node} (h : WideP node) : WideP (hOpTerm op node) := by
  intro s p s' hh
  simp only [hOpTerm, Option.bind_eq_bind, Option.bind_eq_some_iff] at hh
  obtain ⟨s1, h1, h2⟩ := hh
  exact wide_hTerm h _ _ _ h2

theorem wide_starTail {x : P Pair} (hx : WideP x) : ∀ n s, ∀ p ∈ (starTail x n s).1, p.toPol.Wide := by
  intro n
  induction n with
  | zero => intro s; simp [starTail]
  | succ n ih =>
    intro s
    simp only [starTail]
    split
    · simp
    · rename_i p s' h
      simp only [List.mem_cons, forall_eq_or_imp]
      exact ⟨hx _ _ _ h, ih s'⟩

theorem wide_star {x : P Pair} (hx : WideP x) (s : PS) : ∀ p ∈ (star x s).1, p.toPol.Wide := by
  simp only [star]
  split
  · simp
  · rename_i p s' h
    simp only [List.mem_cons, forall_eq_or_imp]
    exact ⟨hx _ _ _ h, wide_starTail hx _ s'⟩

theorem wide_hGate {op node} (h : WideP node) : WideP (hGate op node) := by
  intro s p s' hh
  simp only [hGate, Option.bind_eq_bind, Option.bind_eq_some_iff, Option.pure_def, Option.some.injEq,
    Prod.mk.injEq, Prod.exists] at hh
  obtain ⟨t, s1, h1, t2, s2, h2, rfl, rfl⟩ := hh
  simp only [Pair.toPol, Pair.toPolL, Pol.Wide, Pol.arity_gate, List.length_cons, List.mem_cons,
    forall_eq_or_imp]
  refine ⟨by omega, wide_hTerm h _ _ _ h1, wide_hOpTerm h _ _ _ h2, ?_⟩
  intro c hc
  rw [Pair.toPolL_eq] at hc
  obtain ⟨q, hq, rfl⟩ := List.mem_map.1 hc
  exact wide_star (wide_hOpTerm h) _ q hq

theorem wide_hNode : ∀ n, WideP (hNode n) := by
  intro n
  induction n with
  | zero => intro s p s' h; simp [hNode] at h
  | succ n ih => exact wide_alt (wide_hGate ih) (wide_alt (wide_hGate ih) (wide_hTerm ih))

theorem content_wide {n : ℕ} {text : Str} {p : Pair}
    (h : content (nodeOf .human n) text = some p) : p.toPol.Wide := by
  simp only [content, Option.bind_eq_bind, Option.bind_eq_some_iff, Prod.exists] at h
  obtain ⟨q, s, h1, h2⟩ := h
  split at h2
  · simp only [Option.some.injEq] at h2
    subst h2
    exact wide_hNode _ _ _ _ h1
  · simp at h2

end Pest

/-! ## `parse` -/

open Pest

/-- What `parse` returns, in terms of the tokens. -/
theorem parse_eq (text : Str) (l : PolicyLanguage) :
    parse text l = match content (nodeOf l text.length) text with
      | none => .err
      | some p => if p.hasNumber then .panic else .ok p.toPol.toValue := by
  unfold parse
  split
  · rename_i p h; simp [h, toPolicy_eq]
  · rename_i h; simp [h]

/-- An accepted text denotes an access tree with few children per gate, increasing columns (without newlines) and,
in the human language, gates with at least two children. -/
theorem parse_ok {text : Str} {l : PolicyLanguage} {v : PolicyValue} (h : parse text l = .ok v) :
    ∃ p : Pol, v = p.toValue ∧ (text.length < 2 ^ 64 → p.Fits) ∧
      ('\n' ∉ text → (p.leaves.map Prod.snd).Pairwise (· < ·)) ∧ (l = .human → p.Wide) := by
  rw [parse_eq] at h
  split at h
  · simp at h
  · rename_i q hq
    split at h
    · simp at h
    · rename_i hnum
      simp only [Bool.not_eq_true] at hnum
      simp only [Res.ok.injEq] at h
      obtain ⟨h1, h2⟩ := content_some hq
      refine ⟨q.toPol, h.symm, fun hl => q.fits (by omega), fun hn => ?_, ?_⟩
      · rw [q.leaves_toPol hnum]
        exact h2 hn
      · rintro rfl
        exact content_wide hq

end Rabe
