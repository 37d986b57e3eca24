import Verif.Proof.GrammarJson

/-!
# Texts mixing AND and OR without brackets are rejected; unquoted names are rejected
-/

namespace Rabe

open Pest

/-- What the parser does with a text that mixes operators: an operand is not accepted; an expression is not accepted or
read only up to a place where neither a closing bracket nor the end follows. -/
def MDead : HKind → Str → Str → Prop
  | .term, b, x => ∀ fuel, x.length ≤ fuel → hTerm (hNode fuel) ⟨column b, x⟩ = none
  | .node, b, x => ∀ fuel, x.length < fuel → ∀ p s', hNode fuel ⟨column b, x⟩ = some (p, s') →
      ∃ c cs, (skip s').rest = c :: cs ∧ c ∉ [')', ']', '}']
  | .tail _, _, _ => True

theorem mixed_tok {k b x} (h : Mixed k b x) : Tok x := by
  induction h with
  | here b t u bl w r op op' i j is _ ht => exact term_tok ht _
  | bracket b o bl r ho _ _ _ =>
    simp only [List.mem_cons, List.not_mem_nil, or_false] at ho
    rcases ho with rfl | rfl | rfl <;> exact tok_cons (by decide) (by decide)
  | first b r _ ih => exact ih
  | later b t u bl w bl' r op i is ht => exact term_tok ht _

theorem word_not_close {op : Op} {w : Str} (hw : Word op.spellings w) (r : Str) :
    ∃ c cs, w ++ r = c :: cs ∧ c ∉ [')', ']', '}'] := by
  obtain ⟨c, cs, rfl, -, -, hc⟩ := hw.head (keywords_op op)
  refine ⟨c, _, rfl, ?_⟩
  rcases hc with rfl | ⟨v, hv, h2⟩
  · decide
  · cases op <;> simp only [Op.spellings, List.mem_cons, List.not_mem_nil, or_false] at hv <;>
      rcases hv with rfl | rfl | rfl <;> simp only [List.head?_cons, Option.some.injEq] at h2 <;> subst h2 <;> decide

theorem skip_word {op : Op} {bl w : Str} (hbl : Blank bl) (hw : Word op.spellings w) (r : Str) (col : ℕ) :
    (skip ⟨col, bl ++ (w ++ r)⟩).rest = w ++ r ∧ (skip (skip ⟨col, bl ++ (w ++ r)⟩)).rest = w ++ r := by
  rw [skip_blank hbl (word_tok hw r), skip_tok (word_tok hw r)]
  simp

/-- The other gate is not read when the operands are joined by `op`. -/
theorem and_none {fuel : ℕ} {b t u x : Str} {j is p s} (hu : Human (.tail .or) (b ++ t) u (j :: is))
    (h1 : hTerm (hNode fuel) s = some (p, ⟨column (b ++ t), u ++ x⟩)) : hGate .and (hNode fuel) s = none := by
  refine hGate_none h1 ?_
  cases hu with
  | next =>
    rename_i hbl hbl' hw _ _
    simp only [List.append_assoc]
    exact (follow_other (by decide : Op.and ≠ .or) hbl hw _).opTerm_none _ _

/-- An expression of one operator, followed by something that does not continue it, is read up to there. -/
theorem node_reads {op fuel b t u i is bl w op'} {r : Str} (ht : Human .term b t [i]) (hu : Human (.tail op) (b ++ t) u is)
    (hbl : Blank bl) (hw : Word (Op.spellings op') w) (hop' : op = op' ∨ is ≠ [])
    (hl : (t ++ u).length ≤ fuel)
    (hno : hOpTerm op (hNode fuel) (skip ⟨column (b ++ t ++ u), bl ++ (w ++ r)⟩) = none)
    {p s'} (h : hNode (fuel + 1) ⟨column b, t ++ (u ++ (bl ++ (w ++ r)))⟩ = some (p, s')) :
    ∃ c cs, (skip s').rest = c :: cs ∧ c ∉ [')', ']', '}'] := by
  have hst : Stop (bl ++ (w ++ r)) := blank_stop hbl (word_stop hw _)
  simp only [List.length_append] at hl
  obtain ⟨q, h1, -⟩ := human_accepts ht fuel (u ++ (bl ++ (w ++ r))) (tail_stop hu hst) (by omega)
  obtain ⟨ps, h3, h4⟩ := human_accepts hu fuel (bl ++ (w ++ r)) hst hno (by omega)
  have fin : ∀ s'', (s'' = (⟨column (b ++ t ++ u), bl ++ (w ++ r)⟩ : PS) ∨
      s'' = skip ⟨column (b ++ t ++ u), bl ++ (w ++ r)⟩) → s'' = s' →
      ∃ c cs, (skip s').rest = c :: cs ∧ c ∉ [')', ']', '}'] := by
    rintro s'' hs rfl
    obtain ⟨c, cs, e, hc⟩ := word_not_close hw r
    obtain ⟨e1, e2⟩ := skip_word hbl hw r (column (b ++ t ++ u))
    refine ⟨c, cs, ?_, hc⟩
    rcases hs with rfl | rfl
    · rw [e1, e]
    · rw [e2, e]
  cases ps with
  | nil =>
    have his : is = [] := by simpa using h4
    subst his
    have hopp : op = op' := by simpa using hop'
    subst hopp
    cases hu
    simp only [List.append_nil, List.nil_append] at *
    have hg : ∀ o, hGate o (hNode fuel) ⟨column b, t ++ (bl ++ (w ++ r))⟩ = none := by
      intro o
      by_cases ho : o = op
      · subst ho; exact hGate_none h1 hno
      · exact hGate_none h1 ((follow_other ho hbl hw r).opTerm_none _ _)
    simp only [hNode, alt, hg, h1, Option.some.injEq, Prod.mk.injEq] at h
    exact fin _ (.inl rfl) h.2
  | cons p2 ps =>
    obtain ⟨s'', h5, h6⟩ := hGate_accepts h1 h3
    have : s'' = s' := by
      cases op with
      | and =>
        simp only [hNode, alt, h5, Option.some.injEq, Prod.mk.injEq] at h
        exact h.2
      | or =>
        cases is with
        | nil => simp at h4
        | cons j is =>
          simp only [hNode, alt, and_none hu h1, h5, Option.some.injEq, Prod.mk.injEq] at h
          exact h.2
    exact fin s'' h6 this

theorem mixed_dead {k b x} (h : Mixed k b x) : MDead k b x := by
  induction h with
  | here b t u bl w r op op' i j is hne ht hu hbl hw =>
    intro fuel hl p s' h
    obtain ⟨f, rfl⟩ : ∃ f, fuel = f + 1 := ⟨fuel - 1, by omega⟩
    simp only [List.length_append] at hl
    exact node_reads ht hu hbl hw (.inr (by simp)) (by simp only [List.length_append]; omega)
      ((follow_other hne hbl hw r).opTerm_none _ _) h
  | bracket b o bl r ho hbl hm ih =>
    intro fuel hl
    simp only [List.length_cons, List.length_append] at hl
    have hos : o ≠ '"' ∧ isDigit o = false ∧ o ≠ '-' := by
      simp only [List.mem_cons, List.not_mem_nil, or_false] at ho
      rcases ho with rfl | rfl | rfl <;> decide
    have hsk : skip ⟨nextCol (column b) o, bl ++ r⟩ = ⟨column (b ++ o :: bl), r⟩ := by
      rw [skip_blank hbl (mixed_tok hm), column_append, colAfter]
    have key : ∀ opn cls : PS → Option PS,
        (∀ s', opn ⟨column b, o :: (bl ++ r)⟩ = some s' → s' = ⟨nextCol (column b) o, bl ++ r⟩) →
        (∀ s c cs, s.rest = c :: cs → c ∉ [')', ']', '}'] → cls s = none) →
        bracketed opn cls (hNode fuel) ⟨column b, o :: (bl ++ r)⟩ = none := by
      intro opn cls h1 h2
      simp only [bracketed, Option.bind_eq_bind, Option.pure_def]
      cases hop : opn ⟨column b, o :: (bl ++ r)⟩ with
      | none => rfl
      | some s1 =>
        rw [h1 _ hop, Option.bind_some, hsk]
        cases hno : hNode fuel ⟨column (b ++ o :: bl), r⟩ with
        | none => rfl
        | some q =>
          obtain ⟨p, s'⟩ := q
          obtain ⟨c, cs, e, hc⟩ := ih fuel (by omega) p s' hno
          simp [h2 _ c cs e hc]
    have hcl : ∀ d ∈ [')', ']', '}'], ∀ (s : PS) c cs, s.rest = c :: cs → c ∉ [')', ']', '}'] → lit [d] s = none := by
      rintro d hd ⟨col, rest⟩ c cs rfl hc
      exact lit_ne (by rintro rfl; exact hc hd) _ _ _
    have hopn : ∀ d s', lit [d] ⟨column b, o :: (bl ++ r)⟩ = some s' → s' = ⟨nextCol (column b) o, bl ++ r⟩ := by
      intro d s' h
      by_cases hd : d = o
      · subst hd
        rw [lit_one] at h
        simpa using h.symm
      · rw [lit_ne hd] at h; simp at h
    have k1 := key braceOpen braceClose (by
      intro s' h
      simp only [braceOpen, orElse] at h
      split at h
      · rename_i h'; simp only [Option.some.injEq] at h; exact hopn _ _ (h ▸ h')
      · split at h
        · rename_i h'; simp only [Option.some.injEq] at h; exact hopn _ _ (h ▸ h')
        · exact hopn _ _ h) (by
      intro s c cs e hc
      simp [braceClose, orElse, hcl ')' (by simp) s c cs e hc, hcl ']' (by simp) s c cs e hc,
        hcl '}' (by simp) s c cs e hc])
    have k2 := key (lit ['(']) (lit [')']) (hopn '(') (hcl ')' (by simp))
    simp only [hTerm, hValue, alt, string_ne hos.1, number_ne hos.2.1 hos.2.2, k1, k2]
  | first b r hm ih =>
    intro fuel hl p s' h
    obtain ⟨f, rfl⟩ : ∃ f, fuel = f + 1 := ⟨fuel - 1, by omega⟩
    have := ih f (by omega)
    simp [hNode, alt, hGate, this] at h
  | later b t u bl w bl' r op i is ht hu hbl hw hbl' hm ih =>
    intro fuel hl p s' h
    obtain ⟨f, rfl⟩ : ∃ f, fuel = f + 1 := ⟨fuel - 1, by omega⟩
    simp only [List.length_append] at hl
    refine node_reads ht hu hbl hw (.inl rfl) (by simp only [List.length_append]; omega) ?_ h
    rw [skip_blank hbl (word_tok hw _)]
    simp only [hOpTerm, opInner_eq, word_Word (keywords_op op) hw, Option.bind_eq_bind, Option.bind_some]
    rw [skip_blank hbl' (mixed_tok hm)]
    have := ih f (by omega)
    rw [← this]
    simp only [column_append, colAfter_append]

theorem mixed_content {bl m : Str} (hbl : Blank bl) (h : Mixed .node bl m) {n : ℕ} (hn : (bl ++ m).length < n) :
    content (hNode n) (bl ++ m) = none := by
  have h0 : skip ⟨1, bl ++ m⟩ = ⟨column bl, m⟩ := by
    rw [skip_blank hbl (mixed_tok h)]
    have := column_append [] bl
    simp only [List.nil_append] at this
    rw [this]; rfl
  simp only [List.length_append] at hn
  simp only [content, h0, Option.bind_eq_bind]
  cases hno : hNode n ⟨column bl, m⟩ with
  | none => rfl
  | some q =>
    obtain ⟨p, s'⟩ := q
    obtain ⟨c, cs, e, -⟩ := mixed_dead h n (by omega) p s' hno
    simp [e]

/-! ## Quotes -/

/-- The text does not end with a backslash. -/
def Clean (s : Str) : Prop := ∀ x c, s = x ++ [c] → c ≠ '\\'

/-- Some quote in the text is not preceded by a backslash. -/
def Open (s : Str) : Prop := ∃ x y, s = x ++ '"' :: y ∧ Clean x

/-- Every quote in the text is preceded by a backslash. -/
def Esc (s : Str) : Prop := ∀ x y, s = x ++ '"' :: y → ∃ x', x = x' ++ ['\\']

theorem Open.not_esc {s : Str} (h : Open s) (h' : Esc s) : False := by
  obtain ⟨x, y, e, hc⟩ := h
  obtain ⟨x', rfl⟩ := h' x y e
  exact hc x' '\\' rfl rfl

theorem Open.append_right {s : Str} (h : Open s) (t : Str) : Open (s ++ t) := by
  obtain ⟨x, y, rfl, hc⟩ := h
  exact ⟨x, y ++ t, by simp, hc⟩

theorem Open.append_left {s : Str} (h : Open s) {t : Str} (ht : Clean t) : Open (t ++ s) := by
  obtain ⟨x, y, rfl, hc⟩ := h
  refine ⟨t ++ x, y, by simp, fun z c e => ?_⟩
  rcases List.eq_nil_or_concat x with rfl | ⟨x', d, rfl⟩
  · exact ht z c (by simpa using e)
  · simp only [List.concat_eq_append] at e hc
    rw [← List.append_assoc] at e
    obtain ⟨-, e2⟩ := List.append_inj' e rfl
    simp only [List.cons.injEq, and_true] at e2
    exact e2 ▸ hc x' d rfl

theorem clean_cons {o : Char} (ho : o ≠ '\\') {bl : Str} (h : Clean bl) : Clean (o :: bl) := by
  intro x c e
  cases x with
  | nil =>
    simp only [List.nil_append, List.cons.injEq] at e
    exact e.1 ▸ ho
  | cons d x =>
    simp only [List.cons_append, List.cons.injEq] at e
    exact h x c e.2

theorem Esc.append {s t : Str} (hs : Esc s) (ht : Esc t) : Esc (s ++ t) := by
  intro x y e
  rcases List.append_eq_append_iff.1 e with ⟨z, rfl, hz⟩ | ⟨z, hz, hy⟩
  · obtain ⟨z', rfl⟩ := ht z y hz
    exact ⟨s ++ z', by simp⟩
  · cases z with
    | nil =>
      simp only [List.nil_append] at hy
      simp only [List.append_nil] at hz
      obtain ⟨z', h⟩ := ht [] y (by simp [hy])
      simp at h
    | cons d z =>
      simp only [List.cons_append, List.cons.injEq] at hy
      obtain ⟨rfl, -⟩ := hy
      exact hs x z hz

theorem esc_plain {s : Str} (h : '"' ∉ s) : Esc s := by
  rintro x y rfl
  simp at h

theorem human_open {k b t is} (h : Human k b t is) : (match k with
    | .tail _ => True
    | _ => ¬ Item.HasNumL is → Open t) := by
  induction h with
  | attr b n hn => intro _; exact ⟨[], _, rfl, by simp [Clean]⟩
  | num b t ht => intro h; simp [Item.HasNumL, Item.HasNum] at h
  | bracket b o bl t bl' c i ho hc hbl hbl' hn ih =>
    intro h
    have h1 : Open (t ++ (bl' ++ [c])) := (ih h).append_right _
    have : o ≠ '\\' := by
      simp only [List.mem_cons, List.not_mem_nil, or_false] at ho
      rcases ho with rfl | rfl | rfl <;> decide
    simpa using h1.append_left (clean_cons this (fun x c e => blank_last hbl x c e))
  | single b t i _ ih => exact ih
  | gate b t u op i j is _ _ ih _ =>
    intro h
    refine (ih ?_).append_right _
    simp only [Item.HasNumL, Item.HasNum, not_or] at h ⊢
    tauto
  | last => trivial
  | next => trivial

end Rabe
