import Verif.Model.MspDisplay
import Verif.Proof.Print
import Verif.Proof.Labels


namespace Rabe

/-- A list in brackets as the printing loops build it: opening character, items, each followed by a separator, the last
separator replaced by the closing character. -/
def bracket (o sep close : Char) (f : α → Str) (l : List α) : Str :=
  (o :: l.flatMap fun a => f a ++ [sep]).dropLast ++ [close]

theorem bracket_nil (o sep close : Char) (f : α → Str) : bracket o sep close f [] = [close] := rfl

theorem bracket_cons (o sep close : Char) (f : α → Str) (a : α) (l : List α) :
    bracket o sep close f (a :: l) = o :: (f a ++ (l.flatMap fun a => sep :: f a) ++ [close]) := by
  have h : ∀ (l : List α) (a : α), ((a :: l).flatMap fun a => f a ++ [sep]) =
      (f a ++ (l.flatMap fun a => sep :: f a)) ++ [sep] := by
    intro l
    induction l with
    | nil => intro a; simp
    | cons b l ih =>
      intro a
      rw [List.flatMap_cons, ih b]
      simp
  rw [bracket, h l a, ← List.cons_append, List.dropLast_concat]
  simp

/-- The items of such a list can be read back if every item can be told apart from what follows it. -/
theorem bracket_inj {o sep close : Char} (hs : sep ≠ close) (ho : o ≠ close) {f : α → Str} {P : α → Prop}
    (hf : ∀ a b x y u v, P a → P b → (x = sep ∨ x = close) → (y = sep ∨ y = close) →
      f a ++ x :: u = f b ++ y :: v → a = b ∧ x :: u = y :: v)
    {l l' : List α} {r r' : Str} (hl : ∀ a ∈ l, P a) (hl' : ∀ a ∈ l', P a)
    (h : bracket o sep close f l ++ r = bracket o sep close f l' ++ r') : l = l' ∧ r = r' := by
  have tail' : ∀ l : List α, ∃ x u, (l.flatMap fun a => sep :: f a) ++ close :: r' = x :: u ∧ (x = sep ∨ x = close) := by
    intro l
    cases l with
    | nil => exact ⟨close, r', by simp, .inr rfl⟩
    | cons a l => exact ⟨sep, _, by simp only [List.flatMap_cons, List.cons_append]; rfl, .inl rfl⟩
  have step : ∀ (l l' : List α) (a b : α), (∀ c ∈ a :: l, P c) → (∀ c ∈ b :: l', P c) →
      f a ++ ((l.flatMap fun a => sep :: f a) ++ close :: r) = f b ++ ((l'.flatMap fun a => sep :: f a) ++ close :: r') →
      a :: l = b :: l' ∧ r = r' := by
    intro l
    induction l with
    | nil =>
      intro l' a b ha hb h
      obtain ⟨x, u, e, hx⟩ := tail' l'
      rw [e] at h
      obtain ⟨hab, h2⟩ := hf a b _ _ _ _ (ha a (by simp)) (hb b (by simp)) (.inr rfl) hx h
      rw [← e] at h2
      cases l' with
      | nil => simp at h2; exact ⟨by rw [hab], h2⟩
      | cons c l' => simp at h2; exact absurd h2.1.symm hs
    | cons c l ih =>
      intro l' a b ha hb h
      obtain ⟨x, u, e, hx⟩ := tail' l'
      rw [e, List.flatMap_cons, List.cons_append, List.cons_append] at h
      obtain ⟨hab, h2⟩ := hf a b _ _ _ _ (ha a (by simp)) (hb b (by simp)) (.inl rfl) hx h
      rw [← e] at h2
      cases l' with
      | nil => simp at h2; exact absurd h2.1 hs
      | cons d l' =>
        simp only [List.flatMap_cons, List.cons_append, List.cons.injEq, true_and, List.append_assoc] at h2
        obtain ⟨h3, h4⟩ := ih l' c d (fun z hz => ha z (by simp at hz ⊢; tauto)) (fun z hz => hb z (by simp at hz ⊢; tauto)) h2
        exact ⟨by rw [hab, h3], h4⟩
  cases l with
  | nil =>
    cases l' with
    | nil => simpa [bracket_nil] using h
    | cons b l' =>
      simp only [bracket_nil, bracket_cons, List.cons_append, List.cons.injEq] at h
      exact absurd h.1.symm ho
  | cons a l =>
    cases l' with
    | nil =>
      simp only [bracket_nil, bracket_cons, List.cons_append, List.cons.injEq] at h
      exact absurd h.1 ho
    | cons b l' =>
      simp only [bracket_cons, List.cons_append, List.cons.injEq, true_and, List.append_assoc, List.nil_append] at h
      exact step l l' a b hl hl' h

theorem displayCols_eq (s : Str) (row : List ℤ) : displayCols s row = s ++ row.flatMap fun z => intStr z ++ [','] := by
  induction row generalizing s with
  | nil => simp [displayCols]
  | cons z row ih =>
    have := ih (s ++ intStr z ++ [','])
    simp only [displayCols, List.foldl_cons] at this ⊢
    rw [this]
    simp

/-- The printed row. -/
def rowStr (row : List ℤ) : Str := bracket '(' ',' ')' intStr row

theorem displayRows_eq (s : Str) (m : List (List ℤ)) : displayRows s m = s ++ m.flatMap fun r => rowStr r ++ [','] := by
  induction m generalizing s with
  | nil => simp [displayRows]
  | cons r m ih =>
    have e : (displayCols (s ++ ['(']) r).dropLast ++ [')'] = s ++ rowStr r := by
      rw [displayCols_eq, List.append_assoc, List.dropLast_append_of_ne_nil (by simp), rowStr, bracket]
      simp
    have := ih (s ++ rowStr r ++ [','])
    simp only [displayRows, List.foldl_cons] at this ⊢
    rw [e, this]
    simp

theorem displayLabels_eq (s : Str) (l : List Str) : displayLabels s l = s ++ l.flatMap fun a => Pol.quote a ++ [','] := by
  induction l generalizing s with
  | nil => simp [displayLabels]
  | cons a l ih =>
    have := ih (s ++ ['"'] ++ a ++ ['"'] ++ [','])
    simp only [displayLabels, List.foldl_cons] at this ⊢
    rw [this]
    simp [Pol.quote]

theorem display_eq (p : AbePolicy) : p.display = chars% "{_m: " ++ (bracket '[' ',' ']' rowStr p.m ++
    (chars% ", _pi: " ++ (bracket '[' ',' ']' Pol.quote p.pi ++ (chars% ", _c: " ++ (natStr p.c ++ ['}']))))) := by
  simp only [AbePolicy.display, displayLabels_eq, displayRows_eq, bracket, List.append_assoc, List.singleton_append]
  rfl

theorem span_inj {S : Char → Prop} : ∀ {a b : Str} {x y : Char} {u v : Str}, (∀ c ∈ a, ¬ S c) → (∀ c ∈ b, ¬ S c) → S x → S y →
    a ++ x :: u = b ++ y :: v → a = b ∧ x :: u = y :: v
  | [], [], _, _, _, _, _, _, _, _, h => ⟨rfl, h⟩
  | [], b :: bs, x, y, u, v, _, hb, hx, _, h => by
    simp only [List.nil_append, List.cons_append, List.cons.injEq] at h
    exact absurd (h.1 ▸ hx) (hb b (by simp))
  | a :: as, [], x, y, u, v, ha, _, _, hy, h => by
    simp only [List.nil_append, List.cons_append, List.cons.injEq] at h
    exact absurd (h.1 ▸ hy) (ha a (by simp))
  | a :: as, b :: bs, x, y, u, v, ha, hb, hx, hy, h => by
    simp only [List.cons_append, List.cons.injEq] at h
    obtain ⟨e, h2⟩ := span_inj (fun c hc => ha c (by simp [hc])) (fun c hc => hb c (by simp [hc])) hx hy h.2
    exact ⟨by rw [h.1, e], h2⟩

theorem natStr_ne_of_not_digit {n : ℕ} {c d : Char} (hc : c ∈ natStr n) (hd : d.isDigit = false) : c ≠ d := by
  rintro rfl
  have h : c.isDigit = true := Nat.isDigit_of_mem_toDigits (by decide) (by decide) hc
  rw [h] at hd
  cases hd

theorem intStr_chars {z : ℤ} {c d : Char} (hc : c ∈ intStr z) (hd : d.isDigit = false) (hm : d ≠ '-') : c ≠ d := by
  rw [intStr] at hc
  split at hc
  · rcases List.mem_cons.1 hc with rfl | hc
    · exact hm.symm
    · exact natStr_ne_of_not_digit hc hd
  · exact natStr_ne_of_not_digit hc hd

theorem intStr_injective {a b : ℤ} (h : intStr a = intStr b) : a = b := by
  have key : ∀ (n m : ℕ), '-' :: natStr n ≠ natStr m := by
    intro n m h
    exact natStr_ne_of_not_digit (n := m) (c := '-') (by rw [← h]; simp) (by decide) rfl
  rw [intStr, intStr] at h
  split at h <;> split at h
  · have := natStr_inj (List.cons.inj h).2
    omega
  · exact absurd h (key _ _)
  · exact absurd h.symm (key _ _)
  · have := natStr_inj h
    omega

theorem rowStr_inj {r r' : List ℤ} {u v : Str} (h : rowStr r ++ u = rowStr r' ++ v) : r = r' ∧ u = v := by
  refine bracket_inj (P := fun _ => True) (by decide) (by decide) ?_ (fun _ _ => trivial) (fun _ _ => trivial) h
  intro a b x y u v _ _ hx hy h
  obtain ⟨e, h2⟩ := span_inj (S := fun c => c = ',' ∨ c = ')')
    (fun c hc hS => by
      rcases hS with hS | hS
      · exact intStr_chars hc (d := ',') (by decide) (by decide) hS
      · exact intStr_chars hc (d := ')') (by decide) (by decide) hS)
    (fun c hc hS => by
      rcases hS with hS | hS
      · exact intStr_chars hc (d := ',') (by decide) (by decide) hS
      · exact intStr_chars hc (d := ')') (by decide) (by decide) hS) hx hy h
  exact ⟨intStr_injective e, h2⟩

theorem name_inj {n : Str} (hn : Name n) : ∀ {n' : Str} {u v : Str}, Name n' → n ++ '"' :: u = n' ++ '"' :: v → n = n' ∧ u = v := by
  induction hn with
  | nil =>
    intro n' u v hn' h
    cases hn' with
    | nil => simpa using h
    | plain c t h1 h2 _ => simp at h; exact absurd h.1.symm h1
    | escape => simp at h
    | unicode => simp at h
  | plain c t h1 h2 _ ih =>
    intro n' u v hn' h
    cases hn' with
    | nil => simp at h; exact absurd h.1 h1
    | plain c' t' _ _ ht =>
      simp only [List.cons_append, List.cons.injEq] at h
      obtain ⟨e, e2⟩ := ih ht h.2
      exact ⟨by rw [h.1, e], e2⟩
    | escape => simp at h; exact absurd h.1 h2
    | unicode => simp at h; exact absurd h.1 h2
  | escape c t h1 _ ih =>
    intro n' u v hn' h
    cases hn' with
    | nil => simp at h
    | plain c' t' _ h2 _ => simp at h; exact absurd h.1.symm h2
    | escape c' t' _ ht =>
      simp only [List.cons_append, List.cons.injEq, true_and] at h
      obtain ⟨e, e2⟩ := ih ht h.2
      exact ⟨by rw [h.1, e], e2⟩
    | unicode a b c' d t' _ _ _ _ ht =>
      simp only [List.cons_append, List.cons.injEq, true_and] at h
      rw [h.1] at h1
      simp at h1
  | unicode a b c d t _ _ _ _ _ ih =>
    intro n' u v hn' h
    cases hn' with
    | nil => simp at h
    | plain c' t' _ h2 _ => simp at h; exact absurd h.1.symm h2
    | escape c' t' h1 ht =>
      simp only [List.cons_append, List.cons.injEq, true_and] at h
      rw [← h.1] at h1
      simp at h1
    | unicode a' b' c' d' t' _ _ _ _ ht =>
      simp only [List.cons_append, List.cons.injEq, true_and] at h
      obtain ⟨ha, hb, hc, hd, h⟩ := h
      obtain ⟨e, e2⟩ := ih ht h
      exact ⟨by rw [ha, hb, hc, hd, e], e2⟩

theorem display_inj {p q : AbePolicy} (hp : ∀ n ∈ p.pi, Name n) (hq : ∀ n ∈ q.pi, Name n) (h : p.display = q.display) :
    p = q := by
  rw [display_eq, display_eq] at h
  obtain ⟨hm, h⟩ := bracket_inj (P := fun _ => True) (by decide) (by decide)
    (fun a b x y u v _ _ _ _ h => rowStr_inj h) (fun _ _ => trivial) (fun _ _ => trivial) (List.append_cancel_left h)
  obtain ⟨hpi, h⟩ := bracket_inj (P := Name) (by decide) (by decide)
    (fun a b x y u v ha hb _ _ h => by
      simp only [Pol.quote, List.cons_append, List.append_assoc, List.nil_append, List.cons.injEq, true_and] at h
      exact name_inj ha hb h) hp hq (List.append_cancel_left h)
  have hc := natStr_inj (List.append_cancel_right (List.append_cancel_left h))
  cases p
  cases q
  simp_all

end Rabe
