import Verif.Spec.Layout
import Verif.Props.Grammar

/-!
# Proofs about the tokens of a policy text
-/

namespace Rabe

/-! ## Beginnings of texts -/

theorem Blank.append {a b : Str} (ha : Blank a) (hb : Blank b) : Blank (a ++ b) := by
  induction ha with
  | nil => exact hb
  | space c t hc _ ih => exact .space c _ hc ih
  | comment body t hn _ ih =>
    have := Blank.comment body _ hn ih
    simpa using this

/-- The characters a token can begin with. -/
def tokenStarts : List Char := ['(', ')', '[', ']', '{', '}', ':', ',', 'a', 'A', '&', 'o', 'O', '|', 'n', 'N', 'c', 'C', '"']

theorem Token.Legal.start {k : Token} (h : k.Legal) : ∃ c t, k.text = c :: t ∧ c ∈ tokenStarts := by
  cases k with
  | sym c =>
    refine ⟨c, [], rfl, ?_⟩
    simp only [Token.Legal, List.mem_cons, List.not_mem_nil, or_false] at h
    rcases h with rfl | rfl | rfl | rfl | rfl | rfl | rfl | rfl <;> decide
  | word w =>
    simp only [Token.Legal, keywords, List.mem_cons, List.not_mem_nil, or_false] at h
    rcases h with rfl | rfl | rfl | rfl | rfl | rfl | rfl | rfl | rfl | rfl <;>
      exact ⟨_, _, rfl, by decide⟩
  | str n => exact ⟨'"', _, rfl, by decide⟩

/-- Layouts of tokens begin with a blank character, a slash or the beginning of a token. -/
theorem Layout.cons_inv {ks : List Token} {c : Char} {t : Str} (h : Layout ks (c :: t)) :
    c ∈ [' ', '\t', '\r', '\n'] ∨ c = '/' ∨ c ∈ tokenStarts := by
  obtain ⟨bl, u, e, hbl, hu⟩ := h
  cases hbl with
  | nil =>
    cases ks with
    | nil => simp only [Trail] at hu; subst hu; simp at e
    | cons k ks =>
      obtain ⟨bl, v, rfl, hk, -⟩ := hu
      obtain ⟨d, s, hs, hd⟩ := hk.start
      rw [hs] at e
      simp only [List.nil_append, List.cons_append, List.cons.injEq] at e
      exact .inr (.inr (e.1 ▸ hd))
  | space d s hd _ =>
    simp only [List.cons_append, List.cons.injEq] at e
    exact .inl (e.1 ▸ hd)
  | comment body s hn _ =>
    simp only [List.cons_append, List.cons.injEq] at e
    exact .inr (.inl e.1)

/-- The text in front of the first `*/` is determined. -/
theorem comment_end {a b x y : Str} (ha : ¬ ['*', '/'] <:+: a) (hb : ¬ ['*', '/'] <:+: b)
    (e : a ++ '*' :: '/' :: x = b ++ '*' :: '/' :: y) : a = b ∧ x = y := by
  induction a generalizing b with
  | nil =>
    cases b with
    | nil => simpa using e
    | cons c b =>
      exfalso
      simp only [List.nil_append, List.cons_append, List.cons.injEq] at e
      obtain ⟨rfl, e⟩ := e
      cases b with
      | nil => simp at e
      | cons d b =>
        simp only [List.cons_append, List.cons.injEq] at e
        obtain ⟨rfl, -⟩ := e
        exact hb ⟨[], b, by simp⟩
  | cons c a ih =>
    cases b with
    | nil =>
      exfalso
      simp only [List.nil_append, List.cons_append, List.cons.injEq] at e
      obtain ⟨rfl, e⟩ := e
      cases a with
      | nil => simp at e
      | cons d a =>
        simp only [List.cons_append, List.cons.injEq] at e
        obtain ⟨rfl, -⟩ := e
        exact ha ⟨[], a, by simp⟩
    | cons d b =>
      simp only [List.cons_append, List.cons.injEq] at e
      obtain ⟨rfl, e⟩ := e
      obtain ⟨rfl, h⟩ := ih (fun hi => ha (hi.trans (List.suffix_cons _ _).isInfix))
        (fun hi => hb (hi.trans (List.suffix_cons _ _).isInfix)) e
      exact ⟨rfl, h⟩

/-- Blanks in front of a layout can be removed. -/
theorem Layout.strip {ks : List Token} {bl r : Str} (hbl : Blank bl) (h : Layout ks (bl ++ r)) : Layout ks r := by
  induction hbl with
  | nil => exact h
  | space c t hc ht ih =>
    refine ih ?_
    obtain ⟨b, u, e, hb, hu⟩ := h
    cases hb with
    | nil =>
      exfalso
      cases ks with
      | nil => simp only [Trail] at hu; subst hu; simp at e
      | cons k ks =>
        obtain ⟨b, v, rfl, hk, -⟩ := hu
        obtain ⟨d, s, hs, hd⟩ := hk.start
        rw [hs] at e
        simp only [List.nil_append, List.cons_append, List.cons.injEq] at e
        rw [← e.1] at hd
        simp only [List.mem_cons, List.not_mem_nil, or_false] at hc
        rcases hc with rfl | rfl | rfl | rfl <;> exact absurd hd (by decide)
    | space d s hd hs =>
      simp only [List.cons_append, List.cons.injEq] at e
      exact ⟨s, u, e.2, hs, hu⟩
    | comment body s hn hs =>
      exfalso
      simp only [List.cons_append, List.cons.injEq] at e
      obtain ⟨rfl, -⟩ := e
      simp at hc
  | comment body t hn ht ih =>
    refine ih ?_
    obtain ⟨b, u, e, hb, hu⟩ := h
    cases hb with
    | nil =>
      exfalso
      cases ks with
      | nil => simp only [Trail] at hu; subst hu; simp at e
      | cons k ks =>
        obtain ⟨b, v, rfl, hk, -⟩ := hu
        obtain ⟨d, s, hs, hd⟩ := hk.start
        rw [hs] at e
        simp only [List.nil_append, List.cons_append, List.cons.injEq] at e
        rw [← e.1] at hd
        exact absurd hd (by decide)
    | space d s hd hs =>
      exfalso
      simp only [List.cons_append, List.cons.injEq] at e
      rw [← e.1] at hd
      simp at hd
    | comment body' s hn' hs =>
      simp only [List.cons_append, List.append_assoc, List.cons.injEq, true_and] at e
      obtain ⟨-, e⟩ := comment_end hn hn' e
      exact ⟨s, u, e, hs, hu⟩

theorem Layout.blank {ks : List Token} {bl r : Str} (hbl : Blank bl) (h : Layout ks r) : Layout ks (bl ++ r) := by
  obtain ⟨b, u, rfl, hb, hu⟩ := h
  exact ⟨bl ++ b, u, by simp, hbl.append hb, hu⟩

/-- A layout that begins like a token is a layout of a token. -/
theorem Layout.first {ks : List Token} {c : Char} {t : Str} (hc : c ∈ tokenStarts) (h : Layout ks (c :: t)) :
    ∃ k ks' r, ks = k :: ks' ∧ k.Legal ∧ c :: t = k.text ++ r ∧ Layout ks' r := by
  obtain ⟨b, u, e, hb, hu⟩ := h
  cases hb with
  | nil =>
    cases ks with
    | nil => simp only [Trail] at hu; subst hu; simp at e
    | cons k ks =>
      obtain ⟨b, v, rfl, hk, hb, hv⟩ := hu
      exact ⟨k, ks, _, rfl, hk, e, b, v, rfl, hb, hv⟩
  | space d s hd hs =>
    exfalso
    simp only [List.cons_append, List.cons.injEq] at e
    obtain ⟨rfl, -⟩ := e
    simp only [List.mem_cons, List.not_mem_nil, or_false] at hd
    rcases hd with rfl | rfl | rfl | rfl <;> exact absurd hc (by decide)
  | comment body s hn hs =>
    exfalso
    simp only [List.cons_append, List.cons.injEq] at e
    obtain ⟨rfl, -⟩ := e
    exact absurd hc (by decide)

/-- A name between quotes is determined. -/
theorem Name.quote_inj {n m x y : Str} (hn : Name n) (hm : Name m) (e : n ++ '"' :: x = m ++ '"' :: y) :
    n = m ∧ x = y := by
  induction hn generalizing m with
  | nil =>
    cases hm with
    | nil => simpa using e
    | plain c t h1 _ _ => simp only [List.nil_append, List.cons_append, List.cons.injEq] at e; exact absurd e.1.symm h1
    | escape c t _ _ => simp at e
    | unicode a b c d t _ _ _ _ _ => simp at e
  | plain c t h1 h2 _ ih =>
    cases hm with
    | nil => simp only [List.nil_append, List.cons_append, List.cons.injEq] at e; exact absurd e.1 h1
    | plain c' t' _ _ ht' =>
      simp only [List.cons_append, List.cons.injEq] at e
      obtain ⟨rfl, e⟩ := e
      obtain ⟨rfl, h⟩ := ih ht' e
      exact ⟨rfl, h⟩
    | escape c t _ _ => simp only [List.cons_append, List.cons.injEq] at e; exact absurd e.1 h2
    | unicode a b c d t _ _ _ _ _ => simp only [List.cons_append, List.cons.injEq] at e; exact absurd e.1 h2
  | escape c t hc _ ih =>
    cases hm with
    | nil => simp at e
    | plain c' t' _ h2 _ => simp only [List.cons_append, List.cons.injEq] at e; exact absurd e.1.symm h2
    | escape c' t' _ ht' =>
      simp only [List.cons_append, List.cons.injEq, true_and] at e
      obtain ⟨rfl, e⟩ := e
      obtain ⟨rfl, h⟩ := ih ht' e
      exact ⟨rfl, h⟩
    | unicode a b c' d t _ _ _ _ _ =>
      simp only [List.cons_append, List.cons.injEq, true_and] at e
      rw [e.1] at hc
      simp at hc
  | unicode a b c d t _ _ _ _ _ ih =>
    cases hm with
    | nil => simp at e
    | plain c' t' _ h2 _ => simp only [List.cons_append, List.cons.injEq] at e; exact absurd e.1.symm h2
    | escape c' t' hc _ =>
      simp only [List.cons_append, List.cons.injEq, true_and] at e
      rw [← e.1] at hc
      simp at hc
    | unicode a' b' c' d' t' _ _ _ _ ht' =>
      simp only [List.cons_append, List.cons.injEq, true_and] at e
      obtain ⟨rfl, rfl, rfl, rfl, e⟩ := e
      obtain ⟨rfl, h⟩ := ih ht' e
      exact ⟨rfl, h⟩

/-- A bracket, colon or comma is a token. -/
theorem Layout.sym {ks : List Token} {c : Char} {r : Str} (hc : (Token.sym c).Legal) (h : Layout ks (c :: r)) :
    ∃ ks', ks = .sym c :: ks' ∧ Layout ks' r := by
  have hs : c ∈ tokenStarts := by
    obtain ⟨d, t, e, hd⟩ := hc.start
    simp only [Token.text, List.cons.injEq] at e
    exact e.1 ▸ hd
  obtain ⟨k, ks', u, rfl, hk, e, hu⟩ := h.first hs
  cases k with
  | sym d =>
    simp only [Token.text, List.singleton_append, List.cons.injEq] at e
    obtain ⟨rfl, rfl⟩ := e
    exact ⟨ks', rfl, hu⟩
  | word w =>
    exfalso
    simp only [Token.Legal, keywords, List.mem_cons, List.not_mem_nil, or_false] at hk
    simp only [Token.Legal, List.mem_cons, List.not_mem_nil, or_false] at hc
    rcases hk with rfl | rfl | rfl | rfl | rfl | rfl | rfl | rfl | rfl | rfl <;>
      simp only [Token.text, List.cons_append, List.cons.injEq] at e <;> obtain ⟨rfl, -⟩ := e <;> simp at hc
  | str n =>
    exfalso
    simp only [Token.text, List.cons_append, List.cons.injEq] at e
    obtain ⟨rfl, -⟩ := e
    simp [Token.Legal] at hc

/-- No keyword is the beginning of another one. -/
theorem keywords_prefix : ∀ v ∈ keywords, ∀ w ∈ keywords, v <+: w → v = w := by decide

/-- A keyword is a token. -/
theorem Layout.word {ks : List Token} {w r : Str} (hw : w ∈ keywords) (h : Layout ks (w ++ r)) :
    ∃ ks', ks = .word w :: ks' ∧ Layout ks' r := by
  have hl : (Token.word w).Legal := hw
  obtain ⟨c, t, e0, hc⟩ := hl.start
  simp only [Token.text] at e0
  obtain ⟨k, ks', u, rfl, hk, e, hu⟩ := (show Layout ks (c :: (t ++ r)) by simpa [e0] using h).first hc
  have e' : w ++ r = k.text ++ u := by rw [e0]; simpa using e
  cases k with
  | sym d =>
    exfalso
    simp only [Token.text, List.singleton_append, List.cons.injEq] at e
    obtain ⟨rfl, -⟩ := e
    simp only [keywords, List.mem_cons, List.not_mem_nil, or_false] at hw
    simp only [Token.Legal, List.mem_cons, List.not_mem_nil, or_false] at hk
    rcases hw with rfl | rfl | rfl | rfl | rfl | rfl | rfl | rfl | rfl | rfl <;>
      simp only [List.cons.injEq] at e0 <;> rw [← e0.1] at hk <;> simp at hk
  | word v =>
    simp only [Token.text] at e'
    have : w = v := by
      rcases List.append_eq_append_iff.1 e' with ⟨a, h1, -⟩ | ⟨a, h1, -⟩
      · exact keywords_prefix w hw v hk ⟨a, h1.symm⟩
      · exact (keywords_prefix v hk w hw ⟨a, h1.symm⟩).symm
    subst this
    exact ⟨ks', rfl, (List.append_cancel_left e') ▸ hu⟩
  | str n =>
    exfalso
    simp only [Token.text, List.cons_append, List.cons.injEq] at e
    obtain ⟨rfl, -⟩ := e
    simp only [keywords, List.mem_cons, List.not_mem_nil, or_false] at hw
    rcases hw with rfl | rfl | rfl | rfl | rfl | rfl | rfl | rfl | rfl | rfl <;> simp at e0

/-- What begins with a quote is a token in quotes. -/
theorem Layout.quote {ks : List Token} {r : Str} (h : Layout ks ('"' :: r)) :
    ∃ n ks' u, ks = .str n :: ks' ∧ Name n ∧ ¬ ['/', '*'] <:+: n ∧ r = n ++ '"' :: u ∧ Layout ks' u := by
  obtain ⟨k, ks', u, rfl, hk, e, hu⟩ := h.first (by decide)
  cases k with
  | sym d =>
    exfalso
    simp only [Token.text, List.singleton_append, List.cons.injEq] at e
    obtain ⟨rfl, -⟩ := e
    simp [Token.Legal] at hk
  | word w =>
    exfalso
    simp only [Token.Legal, keywords, List.mem_cons, List.not_mem_nil, or_false] at hk
    rcases hk with rfl | rfl | rfl | rfl | rfl | rfl | rfl | rfl | rfl | rfl <;> simp [Token.text] at e
  | str n =>
    simp only [Token.text, List.cons_append, List.append_assoc, List.cons.injEq, true_and, List.nil_append] at e
    exact ⟨n, ks', u, rfl, hk.1, hk.2, e, hu⟩

/-- A name in quotes is a token. -/
theorem Layout.str {ks : List Token} {n r : Str} (hn : Name n) (h : Layout ks ('"' :: (n ++ '"' :: r))) :
    ∃ ks', ks = .str n :: ks' ∧ (Token.str n).Legal ∧ Layout ks' r := by
  obtain ⟨m, ks', u, rfl, hm, hc, e, hu⟩ := h.quote
  obtain ⟨rfl, rfl⟩ := hn.quote_inj hm e
  exact ⟨ks', rfl, ⟨hn, hc⟩, hu⟩

/-- A text without quote at the beginning of something quoted is the beginning of the contents. -/
theorem unquoted_prefix {x n u y : Str} (hx : '"' ∉ x) (e : n ++ '"' :: u = x ++ y) :
    ∃ n', n = x ++ n' ∧ n' ++ '"' :: u = y := by
  rcases List.append_eq_append_iff.1 e with ⟨a, rfl, h⟩ | ⟨a, rfl, h⟩
  · cases a with
    | nil => exact ⟨[], by simp, by simpa using h⟩
    | cons c a =>
      simp only [List.cons_append, List.cons.injEq] at h
      exact absurd (by simp [← h.1]) hx
  · exact ⟨a, rfl, h.symm⟩

/-- Blanks at the beginning of something quoted that contains no `/*` are white space. -/
theorem blank_unquoted {b n u y : Str} (hb : Blank b) (hn : ¬ ['/', '*'] <:+: n) (e : n ++ '"' :: u = b ++ y) :
    '"' ∉ b := by
  induction hb generalizing n with
  | nil => simp
  | space c t hc _ ih =>
    cases n with
    | nil =>
      exfalso
      simp only [List.nil_append, List.cons_append, List.cons.injEq] at e
      rw [← e.1] at hc
      simp at hc
    | cons d n =>
      simp only [List.cons_append, List.cons.injEq] at e
      have := ih (fun hi => hn (hi.trans (List.suffix_cons _ _).isInfix)) e.2
      simp only [List.mem_cons, not_or]
      refine ⟨?_, this⟩
      rintro rfl
      simp at hc
  | comment body t _ _ _ =>
    exfalso
    cases n with
    | nil => simp at e
    | cons d n =>
      simp only [List.cons_append, List.cons.injEq] at e
      obtain ⟨rfl, e⟩ := e
      cases n with
      | nil => simp at e
      | cons d n =>
        simp only [List.cons_append, List.cons.injEq] at e
        obtain ⟨rfl, e⟩ := e
        exact hn ⟨[], n, by simp⟩

/-- A keyword, bare or in quotes, is a token, and it contains no quotes but the enclosing ones. -/
theorem Layout.keyword {ks : List Token} {ws : List Str} {w r : Str} (hs : ∀ v ∈ ws, v ∈ keywords) (hw : Word ws w)
    (h : Layout ks (w ++ r)) : ∃ k ks', ks = k :: ks' ∧ k.Legal ∧ k.text = w ∧ Plain w ∧ Layout ks' r := by
  have hq : ∀ v ∈ keywords, '"' ∉ v := by decide
  rcases hw with hw | ⟨b, v, b', hv, hb, hb', rfl⟩
  · obtain ⟨ks', rfl, h'⟩ := h.word (hs w hw)
    refine ⟨_, ks', rfl, hs w hw, rfl, ?_, h'⟩
    rw [Plain, List.count_eq_zero_of_not_mem (hq w (hs w hw))]
    omega
  · have h1 : Layout ks ('"' :: (b ++ (v ++ (b' ++ '"' :: r)))) := by simpa using h
    obtain ⟨n, ks', u, rfl, hn, hc, e, hu⟩ := h1.quote
    have q1 := blank_unquoted hb hc e.symm
    obtain ⟨n1, rfl, e1⟩ := unquoted_prefix q1 e.symm
    obtain ⟨n2, rfl, e2⟩ := unquoted_prefix (hq v (hs v hv)) e1
    have hc2 : ¬ ['/', '*'] <:+: n2 := fun hi =>
      hc (hi.trans ((List.suffix_append v n2).isInfix.trans (List.suffix_append b _).isInfix))
    have q2 := blank_unquoted hb' hc2 e2
    obtain ⟨n3, rfl, e3⟩ := unquoted_prefix q2 e2
    have hn3 : n3 = [] ∧ u = r := by
      cases n3 with
      | nil => exact ⟨rfl, by simpa using e3⟩
      | cons d n3 =>
        exfalso
        simp only [List.cons_append, List.cons.injEq] at e3
        obtain ⟨rfl, -⟩ := e3
        -- a quote inside a name stands behind a backslash
        have key : ∀ {x m : Str}, '"' ∉ x → '\\' ∉ x → Name (x ++ '"' :: m) → False := by
          intro x
          induction x with
          | nil =>
            intro m _ _ h
            generalize e : ([] ++ '"' :: m : Str) = z at h
            cases h with
            | nil => simp at e
            | plain c t h1 _ _ => simp only [List.nil_append, List.cons.injEq] at e; exact h1 e.1.symm
            | escape c t _ _ => simp at e
            | unicode a b c d t _ _ _ _ _ => simp at e
          | cons c x ih =>
            intro m h1 h2 h
            generalize e : (c :: x ++ '"' :: m : Str) = z at h
            simp only [List.mem_cons, not_or] at h1 h2
            cases h with
            | nil => simp at e
            | plain c t _ _ ht =>
              simp only [List.cons_append, List.cons.injEq] at e
              exact ih h1.2 h2.2 (e.2 ▸ ht)
            | escape c t _ _ => simp only [List.cons_append, List.cons.injEq] at e; exact h2.1 e.1.symm
            | unicode a b c d t _ _ _ _ _ => simp only [List.cons_append, List.cons.injEq] at e; exact h2.1 e.1.symm
        have hbs : ∀ v ∈ keywords, '\\' ∉ v := by decide
        have hws : ∀ {b : Str}, Blank b → '"' ∉ b → ¬ ['/', '*'] <:+: b → '\\' ∉ b := by
          intro b hb
          induction hb with
          | nil => simp
          | space c t hc _ ih =>
            intro h1 h2
            simp only [List.mem_cons, not_or] at h1 ⊢
            refine ⟨?_, ih h1.2 fun hi => h2 (hi.trans (List.suffix_cons _ _).isInfix)⟩
            rintro rfl
            simp at hc
          | comment body t _ _ _ => intro _ h2; exact absurd ⟨[], _, rfl⟩ h2
        refine key (x := b ++ (v ++ b')) (m := n3) ?_ ?_ (by simpa using hn)
        · simp only [List.mem_append, not_or]
          exact ⟨q1, hq v (hs v hv), q2⟩
        · simp only [List.mem_append, not_or]
          refine ⟨hws hb q1 fun hi => hc (hi.trans (List.prefix_append b _).isInfix), hbs v (hs v hv),
            hws hb' q2 fun hi => hc2 (hi.trans (List.prefix_append b' _).isInfix)⟩
    obtain ⟨rfl, rfl⟩ := hn3
    refine ⟨_, ks', rfl, ⟨hn, hc⟩, by simp [Token.text], ?_, hu⟩
    simp only [Plain, List.count_cons, List.count_append, List.count_eq_zero_of_not_mem q1,
      List.count_eq_zero_of_not_mem q2, List.count_eq_zero_of_not_mem (hq v (hs v hv))]
    simp

/-- Numbers are no tokens. -/
theorem Layout.num {ks : List Token} {t r : Str} (ht : Num t) (h : Layout ks (t ++ r)) : False := by
  obtain ⟨sign, int, frac, exp, rfl, hs, hi, -⟩ := ht
  have digit : ∀ {c : Char} {u : Str}, '0' ≤ c → c ≤ '9' → Layout ks (c :: u) → False := by
    intro c u h1 h2 h
    have : c ∈ [' ', '\t', '\r', '\n'] ++ '/' :: tokenStarts := by
      rcases h.cons_inv with h | h | h
      · exact List.mem_append_left _ h
      · simp [h]
      · simp [h]
    have all : ∀ c ∈ [' ', '\t', '\r', '\n'] ++ '/' :: tokenStarts, ¬ ('0' ≤ c ∧ c ≤ '9') := by decide
    exact all c this ⟨h1, h2⟩
  rcases hs with rfl | rfl
  · rcases hi with rfl | ⟨c, ds, rfl, h1, h2, -⟩
    · exact digit (c := '0') (by decide) (by decide) h
    · exact digit (c := c) (Char.le_trans (a := '0') (b := '1') (by decide) h1) h2 h
  · have h' : Layout ks ('-' :: (int ++ (frac ++ exp) ++ r)) := by simpa using h
    rcases h'.cons_inv with h | h | h
    · simp at h
    · simp at h
    · exact absurd h (by decide)

theorem Trail.append {ks ls : List Token} {t : Str} :
    Trail (ks ++ ls) t ↔ ∃ u v, t = u ++ v ∧ Trail ks u ∧ Trail ls v := by
  induction ks generalizing t with
  | nil => exact ⟨fun h => ⟨[], t, rfl, rfl, h⟩, by rintro ⟨u, v, rfl, rfl, h⟩; exact h⟩
  | cons k ks ih =>
    constructor
    · rintro ⟨bl, u, rfl, hk, hbl, hu⟩
      obtain ⟨u, v, rfl, hu, hv⟩ := ih.1 hu
      exact ⟨_, v, by simp, ⟨bl, u, rfl, hk, hbl, hu⟩, hv⟩
    · rintro ⟨_, v, rfl, ⟨bl, u, rfl, hk, hbl, hu⟩, hv⟩
      exact ⟨bl, u ++ v, by simp, hk, hbl, ih.2 ⟨u, v, rfl, hu, hv⟩⟩

theorem Layout.blank_nil {ks : List Token} {bl : Str} (hbl : Blank bl) (h : Layout ks bl) : ks = [] := by
  obtain ⟨b, v, e, -, hv⟩ := Layout.strip (r := []) hbl (by simpa using h)
  cases ks with
  | nil => rfl
  | cons k us =>
    obtain ⟨b', w, rfl, hk, -⟩ := hv
    obtain ⟨c, s, hs, -⟩ := hk.start
    rw [hs] at e
    simp at e


/-! ## The human language -/

theorem Item.shapeL_append (is js : List Item) : Item.shapeL (is ++ js) = Item.shapeL is ++ Item.shapeL js := by
  induction is with
  | nil => rfl
  | cons i is ih => simp [Item.shapeL, ih]

theorem spellings_keywords (op : Op) : ∀ v ∈ op.spellings, v ∈ keywords := by
  cases op <;> decide

/-- What the tokens `ks` stand for as a phrase of category `k`, in every layout. -/
def HumanToks (k : HKind) (ks : List Token) (is : List Item) : Prop :=
  match k with
  | .tail op => ∀ bl t, Blank bl → Trail ks t → ∃ u bl', bl ++ t = u ++ bl' ∧ Blank bl' ∧
      ∀ b, ∃ js, Human (.tail op) b u js ∧ Item.shapeL js = Item.shapeL is
  | k => ∀ t, Trail ks t → ∃ u bl', t = u ++ bl' ∧ Blank bl' ∧
      ∀ b, ∃ js, Human k b u js ∧ Item.shapeL js = Item.shapeL is

theorem shapeL_singleton {js : List Item} {i : Item} (h : Item.shapeL js = Item.shapeL [i]) :
    ∃ j, js = [j] ∧ j.shape = i.shape := by
  cases js with
  | nil => simp [Item.shapeL] at h
  | cons j js =>
    cases js with
    | nil => exact ⟨j, rfl, by simpa [Item.shapeL] using h⟩
    | cons k ks => simp [Item.shapeL] at h

/-- The tokens at the beginning of a text that starts with a phrase form this phrase in every layout. -/
theorem human_tokens {k b t is} (h : Human k b t is) : ∀ {r us}, Layout us (t ++ r) →
    ∃ ks us', us = ks ++ us' ∧ Layout us' r ∧ ¬ Item.HasNumL is ∧ HumanToks k ks is := by
  induction h with
  | attr b n hn =>
    intro r us hl
    obtain ⟨us', rfl, hk, hl1⟩ := Layout.str hn (by simpa using hl)
    refine ⟨[.str n], us', rfl, hl1, by simp [Item.HasNumL, Item.HasNum], ?_⟩
    rintro t ⟨bl, u, rfl, -, hbl, rfl⟩
    refine ⟨_, bl, by simp [Token.text], hbl, fun b => ⟨_, .attr b n hn, by simp [Item.shapeL, Item.shape]⟩⟩
  | num b t ht =>
    intro r us hl
    exact (hl.num ht).elim
  | bracket b o bl t bl' c i ho hc hbl hbl' _ ih =>
    intro r us hl
    have hos : (Token.sym o).Legal := by
      simp only [Token.Legal, List.mem_cons, List.not_mem_nil, or_false] at ho ⊢; tauto
    have hcs : (Token.sym c).Legal := by
      simp only [Token.Legal, List.mem_cons, List.not_mem_nil, or_false] at hc ⊢; tauto
    obtain ⟨us', rfl, hl1⟩ := Layout.sym hos (r := bl ++ (t ++ (bl' ++ c :: r))) (by simpa using hl)
    obtain ⟨ks, us', rfl, hl2, hnum, hks⟩ := ih (hl1.strip hbl)
    obtain ⟨us', rfl, hl3⟩ := Layout.sym hcs (hl2.strip hbl')
    refine ⟨.sym o :: (ks ++ [.sym c]), us', by simp, hl3, hnum, ?_⟩
    rintro t ⟨bl, u, rfl, -, hbl, hu⟩
    obtain ⟨u, v, rfl, hu1, bl', v, rfl, -, hbl', rfl⟩ := Trail.append.1 hu
    obtain ⟨u, bl'', rfl, hbl'', hh⟩ := hks _ hu1
    refine ⟨o :: (bl ++ (u ++ (bl'' ++ [c]))), bl', by simp [Token.text], hbl', fun b => ?_⟩
    obtain ⟨js, hj, hsh⟩ := hh (b ++ o :: bl)
    obtain ⟨j, rfl, -⟩ := shapeL_singleton hsh
    exact ⟨_, .bracket b o bl u bl'' c j ho hc hbl hbl'' hj, hsh⟩
  | single b t i _ ih =>
    intro r us hl
    obtain ⟨ks, us', rfl, hl1, hnum, hks⟩ := ih hl
    refine ⟨ks, us', rfl, hl1, hnum, ?_⟩
    intro t ht
    obtain ⟨u, bl', rfl, hbl', hh⟩ := hks t ht
    refine ⟨u, bl', rfl, hbl', fun b => ?_⟩
    obtain ⟨js, hj, hsh⟩ := hh b
    obtain ⟨j, rfl, -⟩ := shapeL_singleton hsh
    exact ⟨_, .single b u j hj, hsh⟩
  | gate b t u op i j is _ _ ih1 ih2 =>
    intro r us hl
    obtain ⟨ks, us', rfl, hl1, hnum, hks⟩ := ih1 (r := u ++ r) (by simpa using hl)
    obtain ⟨ks', us', rfl, hl2, hnum', hks'⟩ := ih2 hl1
    refine ⟨ks ++ ks', us', by simp, hl2, ?_, ?_⟩
    · simp only [Item.HasNumL, Item.HasNum, or_false] at hnum hnum' ⊢
      tauto
    intro t ht
    obtain ⟨t, v, rfl, ht1, hv⟩ := Trail.append.1 ht
    obtain ⟨u, bl, rfl, hbl, hh⟩ := hks t ht1
    obtain ⟨v', bl', e, hbl', hh'⟩ := hks' bl v hbl hv
    refine ⟨u ++ v', bl', by rw [List.append_assoc, e, List.append_assoc], hbl', fun b => ?_⟩
    obtain ⟨js, hj, hsh⟩ := hh b
    obtain ⟨i', rfl, hi⟩ := shapeL_singleton hsh
    obtain ⟨js', hj', hsh'⟩ := hh' (b ++ u)
    cases js' with
    | nil => simp [Item.shapeL] at hsh'
    | cons j' is' =>
      refine ⟨_, .gate b u v' op i' j' is' hj hj', ?_⟩
      simp only [Item.shapeL, Item.shape, hi, List.cons.injEq, and_true] at hsh' ⊢
      rw [hsh'.1, hsh'.2]
  | last b op =>
    intro r us hl
    refine ⟨[], us, rfl, by simpa using hl, by simp [Item.HasNumL], ?_⟩
    rintro bl t hbl rfl
    exact ⟨[], bl, by simp, hbl, fun b => ⟨[], .last b op, rfl⟩⟩
  | next b bl w bl' t u op i is hbl hbl' hw _ _ ih1 ih2 =>
    intro r us hl
    have hl1 := Layout.strip (r := w ++ (bl' ++ (t ++ (u ++ r)))) hbl (by simpa using hl)
    obtain ⟨k, us', rfl, hk, hkw, -, hl2⟩ := hl1.keyword (spellings_keywords op) hw
    obtain ⟨ks, us', rfl, hl3, hnum, hks⟩ := ih1 (hl2.strip hbl')
    obtain ⟨ks', us', rfl, hl4, hnum', hks'⟩ := ih2 hl3
    refine ⟨k :: (ks ++ ks'), us', by simp, hl4, ?_, ?_⟩
    · simp only [Item.HasNumL, or_false] at hnum hnum' ⊢
      tauto
    rintro bl t hbl ⟨bl', x, rfl, -, hbl', hx⟩
    obtain ⟨x, y, rfl, hx1, hy⟩ := Trail.append.1 hx
    obtain ⟨x', bl1, rfl, hbl1, hh⟩ := hks x hx1
    obtain ⟨y', bl2, e, hbl2, hh'⟩ := hks' bl1 y hbl1 hy
    refine ⟨bl ++ (w ++ (bl' ++ (x' ++ y'))), bl2, ?_, hbl2, fun b => ?_⟩
    · rw [hkw]
      simp only [List.append_assoc]
      rw [e]
    obtain ⟨js, hj, hsh⟩ := hh (b ++ (bl ++ (w ++ bl')))
    obtain ⟨i', rfl, hi⟩ := shapeL_singleton hsh
    obtain ⟨js', hj', hsh'⟩ := hh' (b ++ (bl ++ (w ++ (bl' ++ x'))))
    refine ⟨_, .next b bl w bl' x' y' op i' js' hbl hbl' hw hj hj', ?_⟩
    simp only [Item.shapeL, hi, hsh']

/-- The contents of a human-language text depend on its tokens only, apart from the columns. -/
theorem humanText_layout {ks t t' i} (hl : Layout ks t) (hl' : Layout ks t') (h : HumanText t i) :
    ¬ i.HasNum ∧ ∃ j, HumanText t' j ∧ j.shape = i.shape := by
  obtain ⟨bl, u, bl', rfl, hbl, hbl', hh⟩ := h
  obtain ⟨ks, us', rfl, hl1, hnum, hks⟩ := human_tokens hh (hl.strip hbl)
  refine ⟨by simpa [Item.HasNumL] using hnum, ?_⟩
  have : us' = [] := Layout.blank_nil hbl' hl1
  subst this
  obtain ⟨bl1, v, rfl, hbl1, hv⟩ := hl'
  obtain ⟨v, bl2, rfl, hbl2, hh'⟩ := hks v (by simpa using hv)
  obtain ⟨js, hj, hsh⟩ := hh' bl1
  obtain ⟨j, rfl, hj'⟩ := shapeL_singleton hsh
  exact ⟨j, ⟨bl1, v, bl2, rfl, hbl1, hbl2, hj⟩, hj'⟩

/-! ## The JSON language -/

/-- The tokens of a head in the JSON language (see `nameHead`, `childrenHead`) form the head in every layout. -/
theorem spaced_tokens {ps qs : List (Str → Prop)}
    (hp : List.Forall₂ (fun p q => ∀ {x r us}, p x → Layout us (x ++ r) →
      ∃ k us', us = k :: us' ∧ k.text = x ∧ q x ∧ Layout us' r) ps qs) :
    ∀ {h r us}, Spaced ps h → Layout us (h ++ r) →
      ∃ ks us', us = ks ++ us' ∧ Layout us' r ∧ ∀ t, Trail ks t → Spaced qs t := by
  induction hp with
  | nil =>
    rintro h r us rfl hl
    exact ⟨[], us, rfl, hl, fun t ht => ht⟩
  | cons h1 _ ih =>
    rintro h r us ⟨x, bl, u, rfl, hx, hbl, hu⟩ hl
    obtain ⟨k, us', rfl, hk, hq, hl1⟩ := h1 (r := bl ++ (u ++ r)) hx (by simpa using hl)
    obtain ⟨ks, us', rfl, hl2, hks⟩ := ih hu (hl1.strip hbl)
    refine ⟨k :: ks, us', rfl, hl2, ?_⟩
    rintro t ⟨bl', v, rfl, -, hbl', hv⟩
    exact ⟨x, bl', v, by rw [hk], hq, hbl', hks v hv⟩

theorem sym_token {c : Char} (hc : (Token.sym c).Legal) {x r us} (hx : x = [c]) (hl : Layout us (x ++ r)) :
    ∃ k us', us = k :: us' ∧ k.text = x ∧ x = [c] ∧ Layout us' r := by
  subst hx
  obtain ⟨us', rfl, hl1⟩ := Layout.sym hc (r := r) (by simpa using hl)
  exact ⟨_, us', rfl, rfl, rfl, hl1⟩

theorem word_token {ws : List Str} (hs : ∀ v ∈ ws, v ∈ keywords) {x r us} (hx : Word ws x) (hl : Layout us (x ++ r)) :
    ∃ k us', us = k :: us' ∧ k.text = x ∧ Word ws x ∧ Layout us' r := by
  obtain ⟨k, us', rfl, -, hk, -, hl1⟩ := hl.keyword hs hx
  exact ⟨k, us', rfl, hk, hx, hl1⟩

theorem name_tokens {h r us} (hh : Spaced nameHead h) (hl : Layout us (h ++ r)) :
    ∃ ks us', us = ks ++ us' ∧ Layout us' r ∧ ∀ t, Trail ks t → Spaced nameHead t := by
  refine spaced_tokens (qs := nameHead) ?_ hh hl
  refine .cons (sym_token (by simp [Token.Legal])) (.cons (word_token (by decide)) (.cons (sym_token (by simp [Token.Legal])) .nil))

theorem children_tokens {R : Str → Prop} {op h r us} (hh : Spaced (childrenHead R op) h) (hl : Layout us (h ++ r)) :
    ∃ ks us', us = ks ++ us' ∧ Layout us' r ∧ ∀ t, Trail ks t → Spaced (childrenHead Plain op) t := by
  refine spaced_tokens (qs := childrenHead Plain op) ?_ hh hl
  refine .cons ?_ (.cons (sym_token (by simp [Token.Legal])) (.cons (word_token (by decide))
    (.cons (sym_token (by simp [Token.Legal])) (.cons (sym_token (by simp [Token.Legal])) .nil))))
  intro x r us hx hl
  obtain ⟨k, us', rfl, -, hk, hp, hl1⟩ := hl.keyword (spellings_keywords op) hx.1
  exact ⟨k, us', rfl, hk, ⟨hx.1, hp⟩, hl1⟩

/-- What the tokens `ks` stand for as a phrase of category `k`, in every layout. -/
def JsonToks (k : JKind) (ks : List Token) (is : List Item) : Prop :=
  match k with
  | .node => ∀ t, Trail ks t → ∃ u bl', t = u ++ bl' ∧ Blank bl' ∧
      ∀ b, ∃ js, Json Plain .node b u js ∧ Item.shapeL js = Item.shapeL is
  | .list => ∀ t, Trail ks t → ∀ b, ∃ js, Json Plain .list b t js ∧ Item.shapeL js = Item.shapeL is
  | .tail => ∀ bl t, Blank bl → Trail ks t → ∀ b, ∃ js, Json Plain .tail b (bl ++ t) js ∧ Item.shapeL js = Item.shapeL is

/-- The tokens at the beginning of a text that starts with a phrase form this phrase in every layout. -/
theorem json_tokens {R : Str → Prop} {k b t is} (h : Json R k b t is) : ∀ {r us}, Layout us (t ++ r) →
    ∃ ks us', us = ks ++ us' ∧ Layout us' r ∧ ¬ Item.HasNumL is ∧ JsonToks k ks is := by
  induction h with
  | attr b h n bl hh hn hbl =>
    intro r us hl
    obtain ⟨ks, us', rfl, hl1, hks⟩ := name_tokens (r := '"' :: (n ++ '"' :: (bl ++ '}' :: r))) hh (by simpa using hl)
    obtain ⟨us', rfl, -, hl2⟩ := Layout.str hn hl1
    obtain ⟨us', rfl, hl3⟩ := Layout.sym (by simp [Token.Legal]) (hl2.strip hbl)
    refine ⟨ks ++ [.str n, .sym '}'], us', by simp, hl3, by simp [Item.HasNumL, Item.HasNum], ?_⟩
    intro t ht
    obtain ⟨t, v, rfl, ht1, bl1, v, rfl, -, hbl1, bl2, v, rfl, -, hbl2, rfl⟩ := Trail.append.1 ht
    refine ⟨t ++ ('"' :: (n ++ '"' :: (bl1 ++ ['}']))), bl2, by simp [Token.text], hbl2, fun b =>
      ⟨_, .attr b t n bl1 (hks t ht1) hn hbl1, by simp [Item.shapeL, Item.shape]⟩⟩
  | num b h t bl hh ht hbl =>
    intro r us hl
    obtain ⟨ks, us', rfl, hl1, hks⟩ := name_tokens (r := t ++ (bl ++ '}' :: r)) hh (by simpa using hl)
    exact (hl1.num ht).elim
  | gate b h k t bl op is hh hk hbl _ ih =>
    intro r us hl
    obtain ⟨ks, us', rfl, hl1, hks⟩ := name_tokens (r := k ++ (t ++ ']' :: (bl ++ '}' :: r))) hh (by simpa using hl)
    obtain ⟨ks', us', rfl, hl2, hks'⟩ := children_tokens hk hl1
    obtain ⟨ls, us', rfl, hl3, hnum, hls⟩ := ih hl2
    obtain ⟨us', rfl, hl4⟩ := Layout.sym (by simp [Token.Legal]) hl3
    obtain ⟨us', rfl, hl5⟩ := Layout.sym (by simp [Token.Legal]) (hl4.strip hbl)
    refine ⟨ks ++ (ks' ++ (ls ++ [.sym ']', .sym '}'])), us', by simp, hl5,
      by simpa [Item.HasNumL, Item.HasNum] using hnum, ?_⟩
    intro t ht
    obtain ⟨t1, v, rfl, ht1, hv⟩ := Trail.append.1 ht
    obtain ⟨t2, v, rfl, ht2, hv⟩ := Trail.append.1 hv
    obtain ⟨t3, v, rfl, ht3, bl1, v, rfl, -, hbl1, bl2, v, rfl, -, hbl2, rfl⟩ := Trail.append.1 hv
    refine ⟨t1 ++ (t2 ++ (t3 ++ ']' :: (bl1 ++ ['}']))), bl2, by simp [Token.text], hbl2, fun b => ?_⟩
    obtain ⟨js, hj, hsh⟩ := hls t3 ht3 (b ++ (t1 ++ t2))
    exact ⟨_, .gate b t1 t2 t3 bl1 op js (hks t1 ht1) (hks' t2 ht2) hbl1 hj, by simp [Item.shapeL, Item.shape, hsh]⟩
  | empty b =>
    intro r us hl
    refine ⟨[], us, rfl, by simpa using hl, by simp [Item.HasNumL], ?_⟩
    rintro t rfl b
    exact ⟨[], .empty b, rfl⟩
  | first b t u i is _ _ ih1 ih2 =>
    intro r us hl
    obtain ⟨ks, us', rfl, hl1, hnum, hks⟩ := ih1 (r := u ++ r) (by simpa using hl)
    obtain ⟨ks', us', rfl, hl2, hnum', hks'⟩ := ih2 hl1
    refine ⟨ks ++ ks', us', by simp, hl2, ?_, ?_⟩
    · simp only [Item.HasNumL, or_false] at hnum hnum' ⊢
      tauto
    intro t ht b
    obtain ⟨t, v, rfl, ht1, hv⟩ := Trail.append.1 ht
    obtain ⟨t, bl, rfl, hbl, hh⟩ := hks t ht1
    obtain ⟨js, hj, hsh⟩ := hh b
    obtain ⟨j, rfl, hi⟩ := shapeL_singleton hsh
    obtain ⟨js', hj', hsh'⟩ := hks' bl v hbl hv (b ++ t)
    refine ⟨_, by rw [List.append_assoc]; exact .first b t _ j js' hj hj', ?_⟩
    simp [Item.shapeL, hi, hsh']
  | last b bl hbl =>
    intro r us hl
    refine ⟨[], us, rfl, hl.strip hbl, by simp [Item.HasNumL], ?_⟩
    rintro bl t hbl rfl b
    exact ⟨[], .last b _ (by simpa using hbl), rfl⟩
  | next b bl bl' t u i is hbl hbl' _ _ ih1 ih2 =>
    intro r us hl
    have hl1 := Layout.strip (r := ',' :: (bl' ++ (t ++ (u ++ r)))) hbl (by simpa using hl)
    obtain ⟨us', rfl, hl2⟩ := Layout.sym (by simp [Token.Legal]) hl1
    obtain ⟨ks, us', rfl, hl3, hnum, hks⟩ := ih1 (hl2.strip hbl')
    obtain ⟨ks', us', rfl, hl4, hnum', hks'⟩ := ih2 hl3
    refine ⟨.sym ',' :: (ks ++ ks'), us', by simp, hl4, ?_, ?_⟩
    · simp only [Item.HasNumL, or_false] at hnum hnum' ⊢
      tauto
    rintro bl t hbl ⟨bl', x, rfl, -, hbl', hx⟩ b
    obtain ⟨x, y, rfl, hx1, hy⟩ := Trail.append.1 hx
    obtain ⟨x, bl1, rfl, hbl1, hh⟩ := hks x hx1
    obtain ⟨js, hj, hsh⟩ := hh (b ++ (bl ++ ',' :: bl'))
    obtain ⟨j, rfl, hi⟩ := shapeL_singleton hsh
    obtain ⟨js', hj', hsh'⟩ := hks' bl1 y hbl1 hy (b ++ (bl ++ ',' :: (bl' ++ x)))
    refine ⟨j :: js', ?_, by simp [Item.shapeL, hi, hsh']⟩
    have := Json.next b bl bl' x (bl1 ++ y) j js' hbl hbl' hj hj'
    simpa [Token.text] using this

/-- The contents of a JSON text depend on its tokens only, apart from the columns. -/
theorem jsonText_layout {R : Str → Prop} {ks t t' i} (hl : Layout ks t) (hl' : Layout ks t') (h : JsonText R t i) :
    ¬ i.HasNum ∧ ∃ j, JsonText Plain t' j ∧ j.shape = i.shape := by
  obtain ⟨bl, u, bl', rfl, hbl, hbl', hh⟩ := h
  obtain ⟨ks, us', rfl, hl1, hnum, hks⟩ := json_tokens hh (hl.strip hbl)
  refine ⟨by simpa [Item.HasNumL] using hnum, ?_⟩
  have : us' = [] := Layout.blank_nil hbl' hl1
  subst this
  obtain ⟨bl1, v, rfl, hbl1, hv⟩ := hl'
  obtain ⟨v, bl2, rfl, hbl2, hh'⟩ := hks v (by simpa using hv)
  obtain ⟨js, hj, hsh⟩ := hh' bl1
  obtain ⟨j, rfl, hj'⟩ := shapeL_singleton hsh
  exact ⟨j, ⟨bl1, v, bl2, rfl, hbl1, hbl2, hj⟩, hj'⟩

end Rabe
