import Verif.Spec.Grammar
import Verif.Proof.ParserNum
import Mathlib.Data.List.Infix
import Mathlib.Tactic.ByContra
import Mathlib.Tactic.Push

/-!
# The lexical level of the parsers against the grammars
-/

namespace Rabe

open Pest

/-- From `s` to `s'` exactly the text `t` is read. -/
def Took (s : PS) (t : Str) (s' : PS) : Prop := s.rest = t ++ s'.rest ∧ s'.col = colAfter s.col t

theorem Took.trans {s s' s'' : PS} {t u} (h : Took s t s') (h' : Took s' u s'') : Took s (t ++ u) s'' :=
  ⟨by rw [h.1, h'.1, List.append_assoc], by rw [h'.2, h.2, colAfter_append]⟩

theorem Took.nil (s : PS) : Took s [] s := ⟨by simp, by simp [colAfter]⟩

theorem Took.of_lit {cs s s'} (h : lit cs s = some s') : Took s cs s' := lit_reads cs s s' h

theorem column_append (b x : Str) : column (b ++ x) = colAfter (column b) x := by
  induction x generalizing b with
  | nil => simp [colAfter]
  | cons c cs ih =>
    have h := ih (b ++ [c])
    simp only [List.append_assoc, List.cons_append, List.nil_append] at h
    rw [h, colAfter]
    congr 1
    simp only [column, nextCol, List.reverse_append, List.reverse_cons, List.reverse_nil, List.nil_append,
      List.cons_append, List.takeWhile_cons]
    by_cases hc : c = '\n'
    · simp [hc]
    · simp [hc]

/-! ## Literals -/

theorem lit_append (cs r : Str) : ∀ col, lit cs ⟨col, cs ++ r⟩ = some ⟨colAfter col cs, r⟩ := by
  induction cs with
  | nil => intro col; rfl
  | cons c cs ih => intro col; simp [lit, colAfter, ih]

theorem lit_one (c : Char) (r : Str) (col : ℕ) : lit [c] ⟨col, c :: r⟩ = some ⟨nextCol col c, r⟩ := by
  simp [lit]

theorem lit_ne {c d : Char} (h : c ≠ d) (cs r : Str) (col : ℕ) : lit (c :: cs) ⟨col, d :: r⟩ = none := by
  simp [lit, h]

theorem lit_nil (c : Char) (cs : Str) (col : ℕ) : lit (c :: cs) ⟨col, []⟩ = none := by simp [lit]

/-! ## Blanks -/

/-- The text starts with neither white space nor a comment. -/
def Tok (r : Str) : Prop := ∀ c, r.head? = some c → isWs c = false ∧ c ≠ '/'

theorem tok_nil : Tok [] := by simp [Tok]
theorem tok_cons {c r} (h : isWs c = false) (h' : c ≠ '/') : Tok (c :: r) := by simp [Tok, h, h']

theorem isWs_iff (c : Char) : isWs c = true ↔ c ∈ [' ', '\t', '\r', '\n'] := by
  simp [isWs, or_assoc]

theorem wsStar_tok {r : Str} (h : Tok r) (col : ℕ) : wsStar col r = ⟨col, r⟩ := by
  cases r with
  | nil => rfl
  | cons c r => simp [wsStar, (h c rfl).1]

theorem comment_tok {r : Str} (h : Tok r) (col : ℕ) : comment ⟨col, r⟩ = none := by
  cases r with
  | nil => simp [comment, lit]
  | cons c r => simp [comment, lit, (h c rfl).2.symm]

theorem commentTail_body (body r : Str) (h : ¬ ['*', '/'] <:+: body) : ∀ col,
    commentTail col (body ++ '*' :: '/' :: r) = some ⟨colAfter col (body ++ ['*', '/']), r⟩ := by
  induction body with
  | nil => intro col; simp [commentTail, colAfter]
  | cons c cs ih =>
    intro col
    have hcs : ¬ ['*', '/'] <:+: cs := fun h' => h (h'.trans (List.suffix_cons c cs).isInfix)
    by_cases hc : c = '*' ∧ ∃ d ds, cs = '/' :: d ∧ ds = d
    · obtain ⟨rfl, d, _, rfl, _⟩ := hc
      exact absurd (⟨[], d, rfl⟩ : ['*', '/'] <:+: '*' :: '/' :: d) h
    · have : commentTail col (c :: (cs ++ '*' :: '/' :: r)) =
          commentTail (nextCol col c) (cs ++ '*' :: '/' :: r) := by
        rw [commentTail.eq_def]
        split
        · rename_i heq
          simp only [List.cons.injEq] at heq
          obtain ⟨rfl, heq⟩ := heq
          cases cs with
          | nil => simp at heq
          | cons d ds =>
            simp only [List.cons_append, List.cons.injEq] at heq
            exact absurd ⟨rfl, ds, ds, by rw [heq.1], rfl⟩ hc
        · rename_i heq
          simp only [List.cons.injEq] at heq
          obtain ⟨rfl, rfl⟩ := heq
          rfl
        · rename_i heq; simp at heq
      rw [List.cons_append, this, ih hcs]
      rfl

theorem blank_wsStar_commentsStar {bl r : Str} (h : Blank bl) (hr : Tok r) : ∀ n col,
    (wsStar col (bl ++ r)).rest.length ≤ n → commentsStar n (wsStar col (bl ++ r)) = ⟨colAfter col bl, r⟩ := by
  induction h with
  | nil =>
    intro n col _
    simp only [List.nil_append, wsStar_tok hr, colAfter]
    cases n with
    | zero => rfl
    | succ n => simp [commentsStar, comment_tok hr]
  | space c t hc _ ih =>
    intro n col hn
    have : isWs c = true := (isWs_iff c).2 hc
    simp only [List.cons_append, wsStar, this, if_true, colAfter] at hn ⊢
    exact ih n _ hn
  | comment body t hb _ ih =>
    intro n col hn
    have hw : wsStar col ('/' :: '*' :: (body ++ '*' :: '/' :: t) ++ r) =
        ⟨col, '/' :: '*' :: (body ++ '*' :: '/' :: (t ++ r))⟩ := by simp [wsStar, isWs]
    rw [hw] at hn ⊢
    cases n with
    | zero => simp at hn
    | succ n =>
      have hc : comment ⟨col, '/' :: '*' :: (body ++ '*' :: '/' :: (t ++ r))⟩ =
          some ⟨colAfter col ('/' :: '*' :: (body ++ ['*', '/'])), t ++ r⟩ := by
        simp only [comment, lit, if_true, commentTail_body body (t ++ r) hb, colAfter]
      rw [commentsStar, hc]
      simp only
      rw [ih n]
      · congr 1
        have : '/' :: '*' :: (body ++ '*' :: '/' :: t) = ('/' :: '*' :: (body ++ ['*', '/'])) ++ t := by simp
        rw [this, colAfter_append]
      · have h1 := (reads_wsStar (t ++ r) (colAfter col ('/' :: '*' :: (body ++ ['*', '/'])))).le
        simp only [List.length_cons, List.length_append] at hn h1 ⊢
        omega

theorem skip_blank {bl r : Str} (h : Blank bl) (hr : Tok r) (col : ℕ) :
    skip ⟨col, bl ++ r⟩ = ⟨colAfter col bl, r⟩ :=
  blank_wsStar_commentsStar h hr _ col le_rfl

theorem skip_tok {r : Str} (hr : Tok r) (col : ℕ) : skip ⟨col, r⟩ = ⟨col, r⟩ := by
  simpa [colAfter] using skip_blank Blank.nil hr col

theorem blank_append {a b : Str} (ha : Blank a) (hb : Blank b) : Blank (a ++ b) := by
  induction ha with
  | nil => simpa
  | space c t hc _ ih => exact .space c _ hc ih
  | comment body t h _ ih =>
    have := Blank.comment body _ h ih
    simpa using this

theorem wsStar_took : ∀ (r : Str) (col : ℕ), ∃ bl, Blank bl ∧ Took ⟨col, r⟩ bl (wsStar col r) := by
  intro r
  induction r with
  | nil => intro col; exact ⟨[], .nil, .nil _⟩
  | cons c r ih =>
    intro col
    simp only [wsStar]
    split
    · rename_i hc
      obtain ⟨bl, hb, ht⟩ := ih (nextCol col c)
      exact ⟨c :: bl, .space c bl ((isWs_iff c).1 hc) hb, by simpa using ht.1, by simpa [colAfter] using ht.2⟩
    · exact ⟨[], .nil, .nil _⟩

theorem commentTail_took : ∀ (n : ℕ) (r : Str) (col : ℕ) (s' : PS), r.length = n →
    commentTail col r = some s' → ∃ body, ¬ ['*', '/'] <:+: body ∧ Took ⟨col, r⟩ (body ++ ['*', '/']) s' := by
  intro n
  induction n with
  | zero =>
    intro r col s' hl h
    obtain rfl : r = [] := List.length_eq_zero_iff.1 hl
    simp [commentTail] at h
  | succ n ih =>
    intro r col s' hl h
    unfold commentTail at h
    split at h
    · rename_i r'
      simp only [Option.some.injEq] at h
      subst h
      exact ⟨[], by simp, by simp, by simp [colAfter]⟩
    · rename_i c r' hne
      obtain ⟨body, hb, ht⟩ := ih r' (nextCol col c) s' (by simpa using hl) h
      refine ⟨c :: body, ?_, by simpa using ht.1, by simpa [colAfter] using ht.2⟩
      intro hin
      rcases List.infix_cons_iff.1 hin with hp | hp
      · obtain ⟨z, hz⟩ := hp
        simp only [List.cons_append, List.nil_append, List.cons.injEq] at hz
        obtain ⟨rfl, hz⟩ := hz
        have h1 := ht.1
        simp only [← hz, List.cons_append] at h1
        exact hne _ rfl h1
      · exact hb hp
    · simp at h

theorem comment_took {s s' : PS} (h : comment s = some s') :
    ∃ body, ¬ ['*', '/'] <:+: body ∧ Took s ('/' :: '*' :: (body ++ ['*', '/'])) s' := by
  simp only [comment] at h
  split at h
  · rename_i s1 h1
    obtain ⟨body, hb, ht⟩ := commentTail_took _ _ _ _ rfl h
    exact ⟨body, hb, (Took.of_lit h1).trans ht⟩
  · simp at h

theorem commentsStar_took : ∀ (n : ℕ) (s : PS), ∃ bl, Blank bl ∧ Took s bl (commentsStar n s) := by
  intro n
  induction n with
  | zero => intro s; exact ⟨[], .nil, .nil _⟩
  | succ n ih =>
    intro s
    simp only [commentsStar]
    split
    · rename_i s1 h1
      obtain ⟨body, hb, ht⟩ := comment_took h1
      obtain ⟨w, hw, ht'⟩ := wsStar_took s1.rest s1.col
      obtain ⟨bl, hbl, ht''⟩ := ih (wsStar s1.col s1.rest)
      refine ⟨'/' :: '*' :: (body ++ '*' :: '/' :: (w ++ bl)), .comment body _ hb (blank_append hw hbl), ?_⟩
      have := ht.trans (ht'.trans ht'')
      simpa using this
    · exact ⟨[], .nil, .nil _⟩

theorem skip_took (s : PS) : ∃ bl, Blank bl ∧ Took s bl (skip s) := by
  obtain ⟨w, hw, ht⟩ := wsStar_took s.rest s.col
  obtain ⟨bl, hbl, ht'⟩ := commentsStar_took (wsStar s.col s.rest).rest.length (wsStar s.col s.rest)
  exact ⟨w ++ bl, blank_append hw hbl, ht.trans ht'⟩

/-! ## Attribute names -/

theorem isEscape_iff (c : Char) : isEscape c = true ↔ c ∈ ['"', '\\', '/', 'b', 'f', 'n', 'r', 't'] := by
  simp [isEscape, or_assoc]

theorem isHex_iff (c : Char) : isHex c = true ↔ HexDigit c := by
  simp [isHex, HexDigit, or_assoc]

theorem charP_plain {c : Char} (h : c ≠ '"') (h' : c ≠ '\\') (r : Str) : charP (c :: r) = some ([c], r) := by
  rw [charP.eq_def]
  split <;> simp_all

theorem charP_escape {c : Char} (h : isEscape c = true) (r : Str) : charP ('\\' :: c :: r) = some (['\\', c], r) := by
  simp [charP, h]

theorem charP_unicode {a b c d : Char} (ha : isHex a = true) (hb : isHex b = true) (hc : isHex c = true)
    (hd : isHex d = true) (r : Str) :
    charP ('\\' :: 'u' :: a :: b :: c :: d :: r) = some (['\\', 'u', a, b, c, d], r) := by
  simp [charP, isEscape, ha, hb, hc, hd]

theorem innerF_name {n : Str} (h : Name n) (r : Str) : ∀ k, n.length ≤ k →
    innerF k (n ++ '"' :: r) = (n, '"' :: r) := by
  induction h with
  | nil => intro k _; cases k <;> simp [innerF, charP]
  | plain c t h1 h2 _ ih =>
    intro k hk
    cases k with
    | zero => simp at hk
    | succ k => simp [innerF, charP_plain h1 h2, ih k (by simpa using hk)]
  | escape c t h1 _ ih =>
    intro k hk
    cases k with
    | zero => simp at hk
    | succ k =>
      simp [innerF, charP_escape ((isEscape_iff c).2 h1), ih k (by simp at hk; omega)]
  | unicode a b c d t ha hb hc hd _ ih =>
    intro k hk
    cases k with
    | zero => simp at hk
    | succ k =>
      simp only [← isHex_iff] at ha hb hc hd
      simp [innerF, charP_unicode ha hb hc hd, ih k (by simp at hk; omega)]

theorem innerF_isName : ∀ (k : ℕ) (r : Str), Name (innerF k r).1 := by
  intro k
  induction k with
  | zero => intro r; exact .nil
  | succ k ih =>
    intro r
    simp only [innerF]
    split
    · exact .nil
    · rename_i c r' h
      simp only
      unfold charP at h
      split at h
      · simp at h
      · simp at h
      · rename_i e r1
        split at h
        · rename_i he
          simp only [Option.some.injEq, Prod.mk.injEq] at h
          obtain ⟨rfl, rfl⟩ := h
          exact .escape e _ ((isEscape_iff e).1 he) (ih _)
        · split at h
          · rename_i he
            subst he
            split at h
            · rename_i a b c' d r2
              split at h
              · rename_i hx
                simp only [Option.some.injEq, Prod.mk.injEq] at h
                obtain ⟨rfl, rfl⟩ := h
                simp only [Bool.and_eq_true, isHex_iff] at hx
                exact .unicode a b c' d _ hx.1.1.1 hx.1.1.2 hx.1.2 hx.2 (ih _)
              · simp at h
            · simp at h
          · simp at h
      · simp at h
      · rename_i c' r1 h1 h2 h3
        simp only [Option.some.injEq, Prod.mk.injEq] at h
        obtain ⟨rfl, rfl⟩ := h
        refine .plain c' _ (fun e => h1 e) (fun e => ?_) (ih _)
        cases r1 with
        | nil => exact h3 e rfl
        | cons x xs => exact h2 _ _ e rfl

theorem string_name {n : Str} (h : Name n) (r : Str) (col : ℕ) :
    string ⟨col, '"' :: (n ++ '"' :: r)⟩ =
      some (.string n (nextCol col '"'), ⟨colAfter col ('"' :: (n ++ ['"'])), r⟩) := by
  have hi : inner ⟨nextCol col '"', n ++ '"' :: r⟩ = (n, ⟨colAfter (nextCol col '"') n, '"' :: r⟩) := by
    simp only [inner]
    rw [innerF_name h r _ (by simp)]
  simp [string, lit, hi, colAfter, colAfter_append]

theorem string_took {s s' : PS} {p : Pair} (h : string s = some (p, s')) :
    ∃ n, Name n ∧ p = .string n (colAfter s.col ['"']) ∧ Took s ('"' :: (n ++ ['"'])) s' := by
  simp only [string, Option.bind_eq_bind, Option.bind_eq_some_iff, Option.pure_def, Option.some.injEq,
    Prod.mk.injEq] at h
  obtain ⟨s1, h1, s2, h2, rfl, rfl⟩ := h
  have t1 := Took.of_lit h1
  have t2 := Took.of_lit h2
  refine ⟨(inner s1).1, innerF_isName _ _, by rw [t1.2], ?_⟩
  have t3 : Took s1 (inner s1).1 (inner s1).2 := ⟨innerF_spec _ _, rfl⟩
  exact t1.trans (t3.trans t2)

theorem string_ne {c : Char} (h : c ≠ '"') (r : Str) (col : ℕ) : string ⟨col, c :: r⟩ = none := by
  simp [string, lit, Ne.symm h]

/-! ## Numbers -/

/-- The text does not start with a character that could continue a number. -/
def Stop (r : Str) : Prop := ∀ c, r.head? = some c → isDigit c = false ∧ c ≠ '.' ∧ c ≠ 'e' ∧ c ≠ 'E'

theorem stop_nil : Stop [] := by simp [Stop]

theorem isDigit_iff (c : Char) : isDigit c = true ↔ '0' ≤ c ∧ c ≤ '9' := by simp [isDigit]

theorem digit_ne_nl {c : Char} (h : isDigit c = true) : c ≠ '\n' := by
  rintro rfl; exact absurd h (by decide)

theorem digitsStar_digits {ds r : Str} (h : Digits ds) (hr : ∀ c, r.head? = some c → isDigit c = false) :
    ∀ col, digitsStar col (ds ++ r) = ⟨colAfter col ds, r⟩ := by
  induction ds with
  | nil =>
    intro col
    cases r with
    | nil => rfl
    | cons c r => simp [digitsStar, hr c rfl, colAfter]
  | cons d ds ih =>
    intro col
    have hd : isDigit d = true := (isDigit_iff d).2 (h d (by simp))
    have := ih (fun c hc => h c (by simp [hc])) (col + 1)
    simp [digitsStar, hd, this, colAfter, nextCol, digit_ne_nl hd]

theorem digitsStar_took : ∀ (r : Str) (col : ℕ), ∃ ds, Digits ds ∧ Took ⟨col, r⟩ ds (digitsStar col r) := by
  intro r
  induction r with
  | nil => intro col; exact ⟨[], by simp [Digits], .nil _⟩
  | cons c r ih =>
    intro col
    simp only [digitsStar]
    split
    · rename_i hc
      obtain ⟨ds, hd, ht⟩ := ih (col + 1)
      refine ⟨c :: ds, ?_, by simpa using ht.1, by simpa [colAfter, nextCol, digit_ne_nl hc] using ht.2⟩
      intro x hx
      rcases List.mem_cons.1 hx with rfl | hx
      · exact (isDigit_iff _).1 hc
      · exact hd x hx
    · exact ⟨[], by simp [Digits], .nil _⟩

/-- Specification of the exponent of a number. -/
def ExpPart (exp : Str) : Prop := exp = [] ∨ ∃ e s ds, exp = e :: (s ++ ds) ∧ (e = 'e' ∨ e = 'E') ∧
  (s = [] ∨ s = ['+'] ∨ s = ['-']) ∧ Digits ds ∧ ds ≠ []

theorem digitsPlus_digits {ds r : Str} (h : Digits ds) (hne : ds ≠ [])
    (hr : ∀ c, r.head? = some c → isDigit c = false) (col : ℕ) :
    digitsPlus ⟨col, ds ++ r⟩ = some ⟨colAfter col ds, r⟩ := by
  cases ds with
  | nil => simp at hne
  | cons d ds =>
    have hd : isDigit d = true := (isDigit_iff d).2 (h d (by simp))
    have := digitsStar_digits (ds := ds) (fun c hc => h c (by simp [hc])) hr (col + 1)
    simp [digitsPlus, hd, this, colAfter, nextCol, digit_ne_nl hd]

theorem digits_head_ne {ds r : Str} (h : Digits ds) (hne : ds ≠ []) : ∃ d x, ds ++ r = d :: x ∧ '0' ≤ d ∧ d ≤ '9' := by
  cases ds with
  | nil => simp at hne
  | cons d ds => exact ⟨d, ds ++ r, rfl, h d (by simp)⟩

theorem expPart_exp {x r : Str} (h : ExpPart x) (hr : Stop r) (col : ℕ) :
    expPart ⟨col, x ++ r⟩ = ⟨colAfter col x, r⟩ := by
  rcases h with rfl | ⟨e, s, ds, rfl, he, hs, hd, hne⟩
  · cases r with
    | nil => simp [expPart, orElse, lit, colAfter]
    | cons c r =>
      have := hr c rfl
      simp [expPart, orElse, lit, this.2.2.1.symm, this.2.2.2.symm, colAfter]
  · have hstop : ∀ c, r.head? = some c → isDigit c = false := fun c hc => (hr c hc).1
    have h1 : orElse (lit ['e']) (lit ['E']) ⟨col, e :: (s ++ ds) ++ r⟩ = some ⟨nextCol col e, s ++ (ds ++ r)⟩ := by
      rcases he with rfl | rfl <;> simp [orElse, lit]
    have h2 : (orElse (lit ['+']) (lit ['-']) ⟨nextCol col e, s ++ (ds ++ r)⟩).getD ⟨nextCol col e, s ++ (ds ++ r)⟩ =
        ⟨colAfter (nextCol col e) s, ds ++ r⟩ := by
      rcases hs with rfl | rfl | rfl
      · obtain ⟨d, x, hx, hd1, hd2⟩ := digits_head_ne (r := r) hd hne
        have hp : d ≠ '+' := by rintro rfl; exact absurd hd1 (by decide)
        have hm : d ≠ '-' := by rintro rfl; exact absurd hd1 (by decide)
        simp [orElse, hx, lit, hp.symm, hm.symm, colAfter]
      · simp [orElse, lit, colAfter]
      · simp [orElse, lit, colAfter]
    simp only [expPart, h1, h2, digitsPlus_digits hd hne hstop, Option.getD_some, colAfter, colAfter_append]

theorem expPart_took (s : PS) : ∃ x, ExpPart x ∧ Took s x (expPart s) := by
  simp only [expPart]
  split
  · rename_i s1 h1
    cases h2 : digitsPlus ((orElse (lit ['+']) (lit ['-']) s1).getD s1) with
    | none => exact ⟨[], .inl rfl, by simpa using Took.nil s⟩
    | some s2 =>
      obtain ⟨e, he, t1⟩ : ∃ e, (e = 'e' ∨ e = 'E') ∧ Took s [e] s1 := by
        simp only [orElse] at h1
        split at h1
        · rename_i h; simp only [Option.some.injEq] at h1; subst h1; exact ⟨_, .inl rfl, .of_lit h⟩
        · exact ⟨_, .inr rfl, .of_lit h1⟩
      obtain ⟨g, hg, t2⟩ : ∃ g, (g = [] ∨ g = ['+'] ∨ g = ['-']) ∧
          Took s1 g ((orElse (lit ['+']) (lit ['-']) s1).getD s1) := by
        cases h : orElse (lit ['+']) (lit ['-']) s1 with
        | none => exact ⟨[], .inl rfl, by simpa using Took.nil s1⟩
        | some s3 =>
          simp only [orElse] at h
          split at h
          · rename_i h'; simp only [Option.some.injEq] at h; subst h
            exact ⟨_, .inr (.inl rfl), by simpa using Took.of_lit h'⟩
          · exact ⟨_, .inr (.inr rfl), by simpa using Took.of_lit h⟩
      obtain ⟨ds, hd, hne, t3⟩ : ∃ ds, Digits ds ∧ ds ≠ [] ∧
          Took ((orElse (lit ['+']) (lit ['-']) s1).getD s1) ds s2 := by
        generalize (orElse (lit ['+']) (lit ['-']) s1).getD s1 = u at h2
        obtain ⟨c, r⟩ := u
        cases r with
        | nil => simp [digitsPlus] at h2
        | cons d r =>
          simp only [digitsPlus] at h2
          split at h2
          · rename_i hd
            simp only [Option.some.injEq] at h2
            subst h2
            obtain ⟨ds, hds, ht⟩ := digitsStar_took r (c + 1)
            refine ⟨d :: ds, ?_, by simp, by simpa using ht.1, by
              simpa [colAfter, nextCol, digit_ne_nl hd] using ht.2⟩
            intro x hx
            rcases List.mem_cons.1 hx with rfl | hx
            · exact (isDigit_iff _).1 hd
            · exact hds x hx
          · simp at h2
      exact ⟨e :: (g ++ ds), .inr ⟨e, g, ds, rfl, he, hg, hd, hne⟩, by
        simpa using t1.trans (t2.trans t3)⟩
  · exact ⟨[], .inl rfl, .nil s⟩

/-- Specification of the fraction of a number. -/
def FracPart (x : Str) : Prop := x = [] ∨ ∃ ds, x = '.' :: ds ∧ Digits ds

theorem fracPart_frac {x r : Str} (h : FracPart x) (hr : ∀ c, r.head? = some c → isDigit c = false ∧ c ≠ '.')
    (col : ℕ) : fracPart ⟨col, x ++ r⟩ = ⟨colAfter col x, r⟩ := by
  rcases h with rfl | ⟨ds, rfl, hd⟩
  · cases r with
    | nil => simp [fracPart, lit, colAfter]
    | cons c r => simp [fracPart, lit, (hr c rfl).2.symm, colAfter]
  · simp [fracPart, lit, digitsStar_digits hd (fun c hc => (hr c hc).1), colAfter]

theorem fracPart_took (s : PS) : ∃ x, FracPart x ∧ Took s x (fracPart s) := by
  simp only [fracPart]
  split
  · rename_i s1 h1
    obtain ⟨ds, hd, ht⟩ := digitsStar_took s1.rest s1.col
    exact ⟨'.' :: ds, .inr ⟨ds, rfl, hd⟩, (Took.of_lit h1).trans ht⟩
  · exact ⟨[], .inl rfl, .nil s⟩

/-- Specification of the integer part of a number. -/
def IntPart (x : Str) : Prop := x = ['0'] ∨ ∃ c ds, x = c :: ds ∧ '1' ≤ c ∧ c ≤ '9' ∧ Digits ds

theorem intPart_int {x r : Str} (h : IntPart x) (hr : ∀ c, r.head? = some c → isDigit c = false) (col : ℕ) :
    intPart ⟨col, x ++ r⟩ = some ⟨colAfter col x, r⟩ := by
  rcases h with rfl | ⟨c, ds, rfl, h1, h2, hd⟩
  · simp [intPart, lit, colAfter]
  · have h0 : c ≠ '0' := by rintro rfl; exact absurd h1 (by decide)
    have hn : c ≠ '\n' := by rintro rfl; exact absurd h1 (by decide)
    simp [intPart, lit, h0.symm, h1, h2, digitsStar_digits hd hr, colAfter, nextCol, hn]

theorem intPart_took {s s' : PS} (h : intPart s = some s') : ∃ x, IntPart x ∧ Took s x s' := by
  obtain ⟨col, r⟩ := s
  simp only [intPart] at h
  split at h
  · rename_i s1 h1
    simp only [Option.some.injEq] at h
    subst h
    exact ⟨_, .inl rfl, .of_lit h1⟩
  · cases r with
    | nil => simp at h
    | cons c r =>
      simp only at h
      split at h
      · rename_i hc
        simp only [Bool.and_eq_true, decide_eq_true_eq] at hc
        simp only [Option.some.injEq] at h
        subst h
        obtain ⟨ds, hd, ht⟩ := digitsStar_took r (col + 1)
        have hn : c ≠ '\n' := by rintro rfl; exact absurd hc.1 (by decide)
        exact ⟨c :: ds, .inr ⟨c, ds, rfl, hc.1, hc.2, hd⟩, by simpa using ht.1, by
          simpa [colAfter, nextCol, hn] using ht.2⟩
      · simp at h

theorem num_iff (t : Str) : Num t ↔ ∃ sign int frac exp, t = sign ++ (int ++ (frac ++ exp)) ∧
    (sign = [] ∨ sign = ['-']) ∧ IntPart int ∧ FracPart frac ∧ ExpPart exp := Iff.rfl

theorem expPart_head {x r : Str} (h : ExpPart x) (hr : Stop r) :
    ∀ c, (x ++ r).head? = some c → isDigit c = false ∧ c ≠ '.' := by
  rcases h with rfl | ⟨e, s, ds, rfl, he, _⟩
  · intro c hc; exact ⟨(hr c hc).1, (hr c hc).2.1⟩
  · intro c hc
    simp only [List.cons_append, List.head?_cons, Option.some.injEq] at hc
    subst hc
    rcases he with rfl | rfl <;> decide

theorem fracPart_head {x r : Str} (h : FracPart x) (hr : ∀ c, r.head? = some c → isDigit c = false ∧ c ≠ '.') :
    ∀ c, (x ++ r).head? = some c → isDigit c = false := by
  rcases h with rfl | ⟨ds, rfl, _⟩
  · intro c hc; exact (hr c hc).1
  · intro c hc
    simp only [List.cons_append, List.head?_cons, Option.some.injEq] at hc
    subst hc
    decide

theorem intPart_head {x r : Str} (h : IntPart x) : ∃ c y, x ++ r = c :: y ∧ '0' ≤ c ∧ c ≤ '9' := by
  rcases h with rfl | ⟨c, ds, rfl, h1, h2, _⟩
  · exact ⟨'0', r, rfl, by decide, by decide⟩
  · exact ⟨c, ds ++ r, rfl, Char.le_trans (by decide : '0' ≤ '1') h1, h2⟩

theorem number_num {t r : Str} (h : Num t) (hr : Stop r) (col : ℕ) :
    number ⟨col, t ++ r⟩ = some (.number, ⟨colAfter col t, r⟩) := by
  obtain ⟨sign, int, frac, exp, rfl, hs, hi, hf, he⟩ := (num_iff t).1 h
  have h1 := expPart_head he hr
  have h2 := fracPart_head hf h1
  have ho : optLit ['-'] ⟨col, sign ++ (int ++ (frac ++ (exp ++ r)))⟩ =
      ⟨colAfter col sign, int ++ (frac ++ (exp ++ r))⟩ := by
    rcases hs with rfl | rfl
    · obtain ⟨c, y, hc, hc1, _⟩ := intPart_head (r := frac ++ (exp ++ r)) hi
      have : c ≠ '-' := by rintro rfl; exact absurd hc1 (by decide)
      simp [optLit, hc, lit, this.symm, colAfter]
    · simp [optLit, lit, colAfter]
  simp only [List.append_assoc, number, ho, intPart_int hi h2, Option.bind_eq_bind, Option.bind_some, Option.pure_def,
    fracPart_frac hf h1, expPart_exp he hr, colAfter_append]

theorem number_took {s s' : PS} {p : Pair} (h : number s = some (p, s')) :
    p = .number ∧ ∃ t, Num t ∧ Took s t s' := by
  simp only [number, Option.bind_eq_bind, Option.bind_eq_some_iff, Option.pure_def, Option.some.injEq,
    Prod.mk.injEq] at h
  obtain ⟨s1, h1, rfl, rfl⟩ := h
  refine ⟨rfl, ?_⟩
  obtain ⟨sign, hs, t0⟩ : ∃ sign, (sign = [] ∨ sign = ['-']) ∧ Took s sign (optLit ['-'] s) := by
    simp only [optLit]
    cases h : lit ['-'] s with
    | none => exact ⟨[], .inl rfl, by simpa using Took.nil s⟩
    | some s2 => exact ⟨_, .inr rfl, by simpa using Took.of_lit h⟩
  obtain ⟨i, hi, t1⟩ := intPart_took h1
  obtain ⟨f, hf, t2⟩ := fracPart_took s1
  obtain ⟨e, he, t3⟩ := expPart_took (fracPart s1)
  exact ⟨_, (num_iff _).2 ⟨sign, i, f, e, rfl, hs, hi, hf, he⟩, t0.trans (t1.trans (t2.trans t3))⟩

theorem number_ne {c : Char} (h : isDigit c = false) (h' : c ≠ '-') (r : Str) (col : ℕ) :
    number ⟨col, c :: r⟩ = none := by
  have h0 : c ≠ '0' := by rintro rfl; exact absurd h (by decide)
  have h1 : ¬('1' ≤ c ∧ c ≤ '9') := by
    intro hc
    rw [(isDigit_iff c).2 ⟨Char.le_trans (by decide : '0' ≤ '1') hc.1, hc.2⟩] at h
    exact absurd h (by decide)
  simp only [number, optLit, lit, if_neg h'.symm, Option.getD_none, intPart, if_neg h0.symm, Bool.and_eq_true,
    decide_eq_true_eq, if_neg h1, Option.bind_eq_bind, Option.bind_none]

/-! ## Keywords -/

/-- A choice between literals. -/
def oneOf : List Str → PS → Option PS
  | [] => fun _ => none
  | w :: ws => orElse (lit w) (oneOf ws)

theorem orElse_none (f : PS → Option PS) : orElse f (fun _ => none) = f := by
  funext s
  simp only [orElse]
  split <;> simp_all

theorem orElse_assoc (f g h : PS → Option PS) : orElse (orElse f g) h = orElse f (orElse g h) := by
  funext s
  simp only [orElse]
  cases f s <;> rfl

/-- A keyword, bare or in quotes, as the parser reads it. -/
def word (ws : List Str) : PS → Option PS := orElse (oneOf ws) (quoted (oneOf ws))

theorem opInner_eq (op : Op) : opInner op = word op.spellings := by
  have : opValue op = oneOf op.spellings := by cases op <;> simp [opValue, oneOf, Op.spellings, orElse_none]
  simp only [opInner, word, this]

theorem quoted_orElse {f g : PS → Option PS} (h : ∀ s s', f s = some s' → g s = none) :
    orElse (quoted f) (quoted g) = quoted (orElse f g) := by
  funext s
  simp only [orElse, quoted, Option.bind_eq_bind]
  cases h1 : lit ['"'] s with
  | none => simp
  | some s1 =>
    cases h2 : f (skip s1) with
    | none => simp [h2]
    | some s2 =>
      have := h _ _ h2
      simp only [Option.bind_some, h2, this, Option.bind_none]
      cases lit ['"'] (skip s2) <;> rfl

theorem lit_excl {c d : Char} (hcd : c ≠ d) (cs ds : Str) (s s' : PS) (h : lit (c :: cs) s = some s') :
    lit (d :: ds) s = none := by
  obtain ⟨col, r⟩ := s
  cases r with
  | nil => simp [lit] at h
  | cons x r =>
    simp only [lit] at h ⊢
    split at h
    · rename_i hx
      subst hx
      simp [hcd.symm]
    · simp at h

theorem jName_eq : jName = word [['n', 'a', 'm', 'e'], ['N', 'A', 'M', 'E']] := by
  simp only [jName, word, oneOf, orElse_none, orElse_assoc,
    quoted_orElse (lit_excl (by decide : 'n' ≠ 'N') ['a', 'm', 'e'] ['A', 'M', 'E'])]

theorem jChildren_eq : jChildren =
    word [['c', 'h', 'i', 'l', 'd', 'r', 'e', 'n'], ['C', 'H', 'I', 'L', 'D', 'R', 'E', 'N']] := by
  simp only [jChildren, word, oneOf, orElse_none, orElse_assoc, quoted_orElse (lit_excl (by decide : 'c' ≠ 'C')
    ['h', 'i', 'l', 'd', 'r', 'e', 'n'] ['H', 'I', 'L', 'D', 'R', 'E', 'N'])]

/-- Keywords with different first characters that are neither blanks nor quotes nor a slash. -/
structure Keywords (ws : List Str) : Prop where
  firsts : ws.Pairwise fun a b => a.head? ≠ b.head?
  plain : ∀ w ∈ ws, ∃ c cs, w = c :: cs ∧ isWs c = false ∧ c ≠ '/' ∧ c ≠ '"'

theorem oneOf_none {ws : List Str} {r : Str} (h : ∀ w ∈ ws, w ≠ [] ∧ w.head? ≠ r.head?) (col : ℕ) :
    oneOf ws ⟨col, r⟩ = none := by
  induction ws with
  | nil => rfl
  | cons w ws ih =>
    have h1 := h w (by simp)
    have h2 : lit w ⟨col, r⟩ = none := by
      cases w with
      | nil => simp at h1
      | cons c cs =>
        cases r with
        | nil => simp [lit]
        | cons d r => exact lit_ne (by simpa using h1.2) _ _ _
    simp only [oneOf, orElse, h2]
    exact ih fun w hw => h w (by simp [hw])

theorem oneOf_mem {ws : List Str} (hk : Keywords ws) {w : Str} (hw : w ∈ ws) (r : Str) (col : ℕ) :
    oneOf ws ⟨col, w ++ r⟩ = some ⟨colAfter col w, r⟩ := by
  obtain ⟨h1, h2⟩ := hk
  induction ws with
  | nil => simp at hw
  | cons v ws ih =>
    simp only [oneOf, orElse]
    rcases List.mem_cons.1 hw with rfl | hw'
    · rw [lit_append]
    · obtain ⟨c, cs, rfl, -⟩ := h2 w (by simp [hw'])
      obtain ⟨d, ds, rfl, -⟩ := h2 v (by simp)
      have hne : d ≠ c := by simpa using (List.pairwise_cons.1 h1).1 _ hw'
      rw [List.cons_append, lit_ne hne]
      exact ih hw' (List.pairwise_cons.1 h1).2 fun w hw => h2 w (by simp [hw])

theorem word_Word {ws : List Str} (hk : Keywords ws) {t : Str} (h : Word ws t) (r : Str) (col : ℕ) :
    word ws ⟨col, t ++ r⟩ = some ⟨colAfter col t, r⟩ := by
  rcases h with h | ⟨b, w, b', hw, hb, hb', rfl⟩
  · simp [word, orElse, oneOf_mem hk h]
  · have h1 : oneOf ws ⟨col, '"' :: (b ++ (w ++ (b' ++ '"' :: r)))⟩ = none := by
      refine oneOf_none (fun w hw => ?_) _
      obtain ⟨c, cs, rfl, -, -, hq⟩ := hk.plain w hw
      simpa using hq
    obtain ⟨c, cs, hc, hc1, hc2, hc3⟩ := hk.plain w hw
    have hs : skip ⟨nextCol col '"', b ++ (w ++ (b' ++ '"' :: r))⟩ =
        ⟨colAfter (nextCol col '"') b, w ++ (b' ++ '"' :: r)⟩ :=
      skip_blank hb (by rw [hc]; exact tok_cons hc1 hc2) _
    have hs' : ∀ col, skip ⟨col, b' ++ '"' :: r⟩ = ⟨colAfter col b', '"' :: r⟩ :=
      skip_blank hb' (tok_cons (by decide) (by decide))
    simp only [word, orElse, h1, quoted, List.cons_append, List.append_assoc, List.nil_append, lit_one,
      Option.bind_eq_bind, Option.bind_some, hs, oneOf_mem hk hw, hs', colAfter, colAfter_append]

/-- A text which starts with a keyword of one list is not read as a keyword of a list with other first characters. -/
theorem word_disjoint {ws vs : List Str} (hk : Keywords ws) (hv : Keywords vs)
    (hd : ∀ w ∈ ws, ∀ v ∈ vs, w.head? ≠ v.head?) {t : Str} (h : Word vs t) (r : Str) (col : ℕ) :
    word ws ⟨col, t ++ r⟩ = none := by
  have key : ∀ v ∈ vs, ∀ r col, oneOf ws ⟨col, v ++ r⟩ = none := by
    intro v hvm r col
    obtain ⟨d, ds, rfl, -⟩ := hv.plain v hvm
    refine oneOf_none (fun w hw => ?_) _
    obtain ⟨c, cs, rfl, -⟩ := hk.plain w hw
    have := hd _ hw _ hvm
    simpa using this
  rcases h with h | ⟨b, w, b', hw, hb, hb', rfl⟩
  · obtain ⟨d, ds, rfl, -, -, hq⟩ := hv.plain _ h
    have := key _ h r col
    rw [List.cons_append] at this
    simp [word, orElse, this, quoted, lit, hq.symm]
  · have h1 : oneOf ws ⟨col, '"' :: (b ++ (w ++ (b' ++ '"' :: r)))⟩ = none := by
      refine oneOf_none (fun w hw => ?_) _
      obtain ⟨c, cs, rfl, -, -, hq⟩ := hk.plain w hw
      simpa using hq
    obtain ⟨c, cs, hc, hc1, hc2, hc3⟩ := hv.plain w hw
    have hs : skip ⟨nextCol col '"', b ++ (w ++ (b' ++ '"' :: r))⟩ =
        ⟨colAfter (nextCol col '"') b, w ++ (b' ++ '"' :: r)⟩ :=
      skip_blank hb (by rw [hc]; exact tok_cons hc1 hc2) _
    simp only [word, orElse, h1, quoted, List.cons_append, List.append_assoc, List.nil_append, lit_one,
      Option.bind_eq_bind, Option.bind_some, hs, key _ hw, Option.bind_none]

/-- A text which starts with another character is not read as a keyword. -/
theorem word_none {ws : List Str} {r : Str} (h : ∀ w ∈ ws, w ≠ [] ∧ w.head? ≠ r.head?) (hq : r.head? ≠ some '"')
    (col : ℕ) : word ws ⟨col, r⟩ = none := by
  have : lit ['"'] ⟨col, r⟩ = none := by
    cases r with
    | nil => simp [lit]
    | cons c r => exact lit_ne (by simpa using Ne.symm hq) _ _ _
  simp [word, orElse, oneOf_none h, quoted, this]

theorem keywords_op (op : Op) : Keywords op.spellings := by
  cases op <;> refine ⟨by decide, ?_⟩ <;> simp [Op.spellings] <;> decide

theorem keywords_name : Keywords [['n', 'a', 'm', 'e'], ['N', 'A', 'M', 'E']] :=
  ⟨by decide, by simp; decide⟩

theorem keywords_children :
    Keywords [['c', 'h', 'i', 'l', 'd', 'r', 'e', 'n'], ['C', 'H', 'I', 'L', 'D', 'R', 'E', 'N']] :=
  ⟨by decide, by simp; decide⟩

theorem Word.head {ws : List Str} (hk : Keywords ws) {t : Str} (h : Word ws t) :
    ∃ c cs, t = c :: cs ∧ isWs c = false ∧ c ≠ '/' ∧ (c = '"' ∨ ∃ w ∈ ws, w.head? = some c) := by
  rcases h with h | ⟨b, w, b', hw, hb, hb', rfl⟩
  · obtain ⟨c, cs, rfl, h1, h2, -⟩ := hk.plain _ h
    exact ⟨c, cs, rfl, h1, h2, .inr ⟨_, h, rfl⟩⟩
  · exact ⟨'"', _, rfl, by decide, by decide, .inl rfl⟩

theorem oneOf_took {ws : List Str} {s s' : PS} (h : oneOf ws s = some s') : ∃ w ∈ ws, Took s w s' := by
  induction ws with
  | nil => simp [oneOf] at h
  | cons w ws ih =>
    simp only [oneOf, orElse] at h
    split at h
    · rename_i s1 h1
      simp only [Option.some.injEq] at h
      subst h
      exact ⟨w, by simp, .of_lit h1⟩
    · obtain ⟨w', hw, ht⟩ := ih h
      exact ⟨w', by simp [hw], ht⟩

theorem quoted_took {f : PS → Option PS} {Q : Str → Prop} (hf : ∀ s s', f s = some s' → ∃ w, Q w ∧ Took s w s')
    {s s' : PS} (h : quoted f s = some s') :
    ∃ b w b', Q w ∧ Blank b ∧ Blank b' ∧ Took s ('"' :: (b ++ (w ++ (b' ++ ['"'])))) s' := by
  simp only [quoted, Option.bind_eq_bind, Option.bind_eq_some_iff] at h
  obtain ⟨s1, h1, s2, h2, h3⟩ := h
  obtain ⟨b, hb, t1⟩ := skip_took s1
  obtain ⟨w, hw, t2⟩ := hf _ _ h2
  obtain ⟨b', hb', t3⟩ := skip_took s2
  exact ⟨b, w, b', hw, hb, hb', (Took.of_lit h1).trans (t1.trans (t2.trans (t3.trans (.of_lit h3))))⟩

theorem word_took {ws : List Str} {s s' : PS} (h : word ws s = some s') : ∃ t, Word ws t ∧ Took s t s' := by
  simp only [word, orElse] at h
  split at h
  · rename_i s1 h1
    simp only [Option.some.injEq] at h
    subst h
    obtain ⟨w, hw, ht⟩ := oneOf_took h1
    exact ⟨w, .inl hw, ht⟩
  · obtain ⟨b, w, b', hw, hb, hb', ht⟩ := quoted_took (Q := (· ∈ ws)) (fun s s' => oneOf_took) h
    exact ⟨_, .inr ⟨b, w, b', hw, hb, hb', rfl⟩, ht⟩

end Rabe
