import Verif.Proof.Grammar

/-!
# The human parser against the human grammar
-/

namespace Rabe

open Pest

mutual
/-- The contents of a token tree. -/
def Pest.Pair.toItem : Pair → Item
  | .string n c => .attr n c
  | .number => .num
  | .gate op cs => .gate op (Pair.toItemL cs)
/-- The contents of a list of token trees. -/
def Pest.Pair.toItemL : List Pair → List Item
  | [] => []
  | c :: cs => Pair.toItem c :: Pair.toItemL cs
end

theorem Pest.Pair.toItemL_eq (cs : List Pair) : Pair.toItemL cs = cs.map Pair.toItem := by
  induction cs with
  | nil => rfl
  | cons c cs ih => simp [Pair.toItemL, ih]

theorem Took.col {s s' : PS} {t b : Str} (h : Took s t s') (hb : s.col = column b) : s'.col = column (b ++ t) := by
  rw [column_append, h.2, hb]

/-! ## What the parser accepts is generated by the grammar -/

/-- Results of `node` are phrases of the grammar, possibly followed by blanks. -/
def NodeSound (node : P Pair) : Prop := ∀ b s p s', s.col = column b → node s = some (p, s') →
  ∃ t bl, Blank bl ∧ Took s (t ++ bl) s' ∧ Human .node b t [p.toItem]

/-- Results of `x` are operands of the grammar. -/
def TermSound (x : P Pair) : Prop := ∀ b s p s', s.col = column b → x s = some (p, s') →
  ∃ t, Took s t s' ∧ Human .term b t [p.toItem]

theorem termSound_alt {x y : P Pair} (hx : TermSound x) (hy : TermSound y) : TermSound (alt x y) := by
  intro b s p s' hb h
  simp only [alt] at h
  split at h
  · rename_i r hr
    simp only [Option.some.injEq] at h
    subst h
    exact hx b s p s' hb hr
  · exact hy b s p s' hb h

theorem termSound_bracketed {op cl : PS → Option PS} {node : P Pair}
    (ho : ∀ s s', op s = some s' → ∃ o ∈ ['(', '[', '{'], Took s [o] s')
    (hc : ∀ s s', cl s = some s' → ∃ o ∈ [')', ']', '}'], Took s [o] s') (hn : NodeSound node) :
    TermSound (bracketed op cl node) := by
  intro b s p s' hb h
  simp only [bracketed, Option.bind_eq_bind, Option.bind_eq_some_iff, Option.pure_def, Option.some.injEq,
    Prod.mk.injEq, Prod.exists] at h
  obtain ⟨s1, h1, q, s2, h2, s3, h3, rfl, rfl⟩ := h
  obtain ⟨o, ho, t1⟩ := ho _ _ h1
  obtain ⟨bl, hbl, t2⟩ := skip_took s1
  have tt := t1.trans t2
  obtain ⟨t, bl1, hbl1, t3, hh⟩ := hn _ _ _ _ (tt.col hb) h2
  obtain ⟨bl2, hbl2, t4⟩ := skip_took s2
  obtain ⟨c, hc, t5⟩ := hc _ _ h3
  refine ⟨o :: (bl ++ (t ++ ((bl1 ++ bl2) ++ [c]))), ?_, ?_⟩
  · have := tt.trans (t3.trans (t4.trans t5))
    simpa using this
  · exact .bracket b o bl t (bl1 ++ bl2) c _ ho hc hbl (blank_append hbl1 hbl2) (by simpa using hh)

theorem oneOf_bracket {l : List Char} {f : PS → Option PS} (hf : f = oneOf (l.map fun c => [c])) (s s' : PS)
    (h : f s = some s') : ∃ o ∈ l, Took s [o] s' := by
  subst hf
  obtain ⟨w, hw, ht⟩ := oneOf_took h
  obtain ⟨c, hc, rfl⟩ := List.mem_map.1 hw
  exact ⟨c, hc, ht⟩

theorem braceOpen_eq : braceOpen = oneOf (['(', '[', '{'].map fun c => [c]) := by
  simp [braceOpen, oneOf, orElse_none]

theorem braceClose_eq : braceClose = oneOf ([')', ']', '}'].map fun c => [c]) := by
  simp [braceClose, oneOf, orElse_none]

theorem termSound_hTerm {node : P Pair} (hn : NodeSound node) : TermSound (hTerm node) := by
  refine termSound_alt (termSound_alt ?_ (termSound_alt ?_ ?_)) ?_
  · intro b s p s' hb h
    obtain ⟨n, hn, rfl, ht⟩ := string_took h
    refine ⟨_, ht, ?_⟩
    rw [Pair.toItem, hb, ← column_append]
    exact .attr b n hn
  · intro b s p s' hb h
    obtain ⟨rfl, t, ht, h1⟩ := number_took h
    exact ⟨t, h1, .num b t ht⟩
  · exact termSound_bracketed (oneOf_bracket braceOpen_eq) (oneOf_bracket braceClose_eq) hn
  · refine termSound_bracketed ?_ ?_ hn
    · intro s s' h; exact ⟨'(', by simp, .of_lit h⟩
    · intro s s' h; exact ⟨')', by simp, .of_lit h⟩

theorem hOpTerm_sound {op : Op} {node : P Pair} (hn : NodeSound node) {b s p s'} (hb : s.col = column b)
    (h : hOpTerm op node s = some (p, s')) : ∃ w bl t, Word op.spellings w ∧ Blank bl ∧
      Took s (w ++ (bl ++ t)) s' ∧ Human .term (b ++ (w ++ bl)) t [p.toItem] := by
  simp only [hOpTerm, Option.bind_eq_bind, Option.bind_eq_some_iff] at h
  obtain ⟨s1, h1, h2⟩ := h
  rw [opInner_eq] at h1
  obtain ⟨w, hw, t1⟩ := word_took h1
  obtain ⟨bl, hbl, t2⟩ := skip_took s1
  have tt := t1.trans t2
  obtain ⟨t, t3, hh⟩ := termSound_hTerm hn _ _ _ _ (tt.col hb) h2
  exact ⟨w, bl, t, hw, hbl, by simpa using tt.trans t3, hh⟩

theorem starTail_sound {op : Op} {node : P Pair} (hn : NodeSound node) : ∀ n b s, s.col = column b →
    ∃ u, Took s u (starTail (hOpTerm op node) n s).2 ∧
      Human (.tail op) b u ((starTail (hOpTerm op node) n s).1.map Pair.toItem) := by
  intro n
  induction n with
  | zero => intro b s hb; exact ⟨[], .nil _, .last b op⟩
  | succ n ih =>
    intro b s hb
    simp only [starTail]
    split
    · exact ⟨[], .nil _, .last b op⟩
    · rename_i p s' h
      obtain ⟨bl, hbl, t1⟩ := skip_took s
      obtain ⟨w, bl', t, hw, hbl', t2, hh⟩ := hOpTerm_sound hn (t1.col hb) h
      have tt := t1.trans t2
      obtain ⟨u, t3, hu⟩ := ih _ s' (tt.col hb)
      refine ⟨bl ++ (w ++ (bl' ++ (t ++ u))), by simpa using tt.trans t3, ?_⟩
      simp only [List.append_assoc] at hh hu
      exact .next b bl w bl' t u op _ _ hbl hbl' hw hh hu

theorem star_sound {op : Op} {node : P Pair} (hn : NodeSound node) {b s} (hb : s.col = column b) :
    ∃ u bl, Blank bl ∧ Took s (u ++ bl) (star (hOpTerm op node) (skip s)).2 ∧
      Human (.tail op) b u ((star (hOpTerm op node) (skip s)).1.map Pair.toItem) := by
  obtain ⟨bl, hbl, t1⟩ := skip_took s
  simp only [Pest.star]
  split
  · exact ⟨[], bl, hbl, t1, .last b op⟩
  · rename_i p s' h
    obtain ⟨w, bl', t, hw, hbl', t2, hh⟩ := hOpTerm_sound hn (t1.col hb) h
    have tt := t1.trans t2
    obtain ⟨u, t3, hu⟩ := starTail_sound (op := op) hn s'.rest.length _ s' (tt.col hb)
    refine ⟨bl ++ (w ++ (bl' ++ (t ++ u))), [], .nil, by simpa using tt.trans t3, ?_⟩
    simp only [List.append_assoc] at hh hu
    exact .next b bl w bl' t u op _ _ hbl hbl' hw hh hu

theorem nodeSound_hGate {op : Op} {node : P Pair} (hn : NodeSound node) : NodeSound (hGate op node) := by
  intro b s p s' hb h
  simp only [hGate, Option.bind_eq_bind, Option.bind_eq_some_iff, Option.pure_def, Option.some.injEq,
    Prod.mk.injEq, Prod.exists] at h
  obtain ⟨q, s1, h1, q2, s2, h2, rfl, rfl⟩ := h
  obtain ⟨t, t1, hh1⟩ := termSound_hTerm hn _ _ _ _ hb h1
  obtain ⟨bl, hbl, t2⟩ := skip_took s1
  obtain ⟨w, bl', u, hw, hbl', t3, hh2⟩ := hOpTerm_sound hn (t2.col (t1.col hb)) h2
  have tt := t1.trans (t2.trans t3)
  obtain ⟨v, bl2, hbl2, t4, hh3⟩ := star_sound (op := op) hn (tt.col hb)
  refine ⟨t ++ (bl ++ (w ++ (bl' ++ (u ++ v)))), bl2, hbl2, by simpa using tt.trans t4, ?_⟩
  rw [Pair.toItem, Pair.toItemL_eq, List.map_cons, List.map_cons]
  refine .gate b t _ op _ _ _ hh1 ?_
  simp only [List.append_assoc] at hh2 hh3
  exact .next _ bl w bl' u v op _ _ hbl hbl' hw (by simpa using hh2) (by simpa using hh3)

theorem nodeSound_alt {x y : P Pair} (hx : NodeSound x) (hy : NodeSound y) : NodeSound (alt x y) := by
  intro b s p s' hb h
  simp only [alt] at h
  split at h
  · rename_i r hr
    simp only [Option.some.injEq] at h
    subst h
    exact hx b s p s' hb hr
  · exact hy b s p s' hb h

theorem nodeSound_hNode : ∀ n, NodeSound (hNode n) := by
  intro n
  induction n with
  | zero => intro b s p s' _ h; simp [hNode] at h
  | succ n ih =>
    refine nodeSound_alt (nodeSound_hGate ih) (nodeSound_alt (nodeSound_hGate ih) ?_)
    intro b s p s' hb h
    obtain ⟨t, t1, hh⟩ := termSound_hTerm ih _ _ _ _ hb h
    exact ⟨t, [], .nil, by simpa using t1, .single b t _ hh⟩

theorem human_sound {n : ℕ} {text : Str} {p : Pair} (h : content (hNode n) text = some p) :
    HumanText text p.toItem := by
  simp only [content, Option.bind_eq_bind, Option.bind_eq_some_iff, Prod.exists] at h
  obtain ⟨q, s, h1, h2⟩ := h
  split at h2
  · rename_i hnil
    simp only [Option.some.injEq] at h2
    subst h2
    obtain ⟨bl, hbl, t1⟩ := skip_took ⟨1, text⟩
    obtain ⟨t, bl', hbl', t2, hh⟩ := nodeSound_hNode n bl _ _ _ (by simpa using t1.col (b := []) (by rfl)) h1
    obtain ⟨bl2, hbl2, t3⟩ := skip_took s
    refine ⟨bl, t, bl' ++ bl2, ?_, hbl, blank_append hbl' hbl2, hh⟩
    have := (t1.trans (t2.trans t3)).1
    rw [hnil] at this
    simpa using this
  · simp at h2

/-! ## What the grammar generates is accepted by the parser -/

/-- After the text of an operand or gate, no operator `op` follows. -/
structure Follow (op : Op) (r : Str) : Prop where
  stop : Stop r
  noOp : ∃ bl r', r = bl ++ r' ∧ Blank bl ∧ Tok r' ∧ ∀ col, word op.spellings ⟨col, r'⟩ = none

/-- Repetition of `x` with blanks before each item, from `s` to `s'`. -/
inductive Run (x : P Pair) : PS → List Pair → PS → Prop where
  | stop (s) : x (skip s) = none → Run x s [] s
  | step (s p s' ps s'') : x (skip s) = some (p, s') → s'.rest.length < s.rest.length → Run x s' ps s'' →
      Run x s (p :: ps) s''

theorem Run.length {x s ps s'} (h : Run x s ps s') : ps.length ≤ s.rest.length := by
  induction h with
  | stop s _ => simp
  | step s p s' ps s'' _ hl _ ih => simp; omega

theorem Run.starTail {x s ps s'} (h : Run x s ps s') : ∀ n, ps.length ≤ n → starTail x n s = (ps, s') := by
  induction h with
  | stop s h =>
    intro n _
    cases n with
    | zero => rfl
    | succ n => simp [Pest.starTail, h]
  | step s p s' ps s'' h1 _ _ ih =>
    intro n hn
    cases n with
    | zero => simp at hn
    | succ n => simp [Pest.starTail, h1, ih n (by simpa using hn)]

theorem Run.star {x s ps s'} (h : Run x s ps s') :
    star x (skip s) = (ps, s') ∨ (ps = [] ∧ s' = s ∧ star x (skip s) = ([], skip s)) := by
  cases h with
  | stop s h => exact .inr ⟨rfl, rfl, by simp [Pest.star, h]⟩
  | step s p s' ps s'' h1 _ h3 => exact .inl (by simp [Pest.star, h1, h3.starTail _ h3.length])

/-- The parser accepts the phrase. -/
def HAccepts : HKind → Str → Str → List Item → Prop
  | .term, b, t, is => ∀ fuel r, Stop r → t.length ≤ fuel →
      ∃ p, hTerm (hNode fuel) ⟨column b, t ++ r⟩ = some (p, ⟨column (b ++ t), r⟩) ∧ is = [p.toItem]
  | .node, b, t, is => ∀ fuel r, (∀ op, Follow op r) → t.length < fuel →
      ∃ p s', hNode fuel ⟨column b, t ++ r⟩ = some (p, s') ∧ is = [p.toItem] ∧
        (s' = ⟨column (b ++ t), r⟩ ∨ s' = skip ⟨column (b ++ t), r⟩)
  | .tail op, b, t, is => ∀ fuel r, Stop r → hOpTerm op (hNode fuel) (skip ⟨column (b ++ t), r⟩) = none →
      t.length ≤ fuel →
      ∃ ps, Run (hOpTerm op (hNode fuel)) ⟨column b, t ++ r⟩ ps ⟨column (b ++ t), r⟩ ∧ is = ps.map Pair.toItem

theorem blank_head {bl : Str} (h : Blank bl) : bl = [] ∨ ∃ c cs, bl = c :: cs ∧ (isWs c = true ∨ c = '/') := by
  cases h with
  | nil => exact .inl rfl
  | space c t hc _ => exact .inr ⟨c, t, rfl, .inl ((isWs_iff c).2 hc)⟩
  | comment body t _ _ => exact .inr ⟨'/', _, rfl, .inr rfl⟩

theorem blank_stop {bl r : Str} (h : Blank bl) (hr : Stop r) : Stop (bl ++ r) := by
  rcases blank_head h with rfl | ⟨c, cs, rfl, hc⟩
  · simpa
  · intro d hd
    simp only [List.cons_append, List.head?_cons, Option.some.injEq] at hd
    subst hd
    rcases hc with hc | rfl
    · simp only [isWs_iff, List.mem_cons, List.not_mem_nil, or_false] at hc
      rcases hc with rfl | rfl | rfl | rfl <;> decide
    · decide

theorem word_stop {op : Op} {w : Str} (h : Word op.spellings w) (r : Str) : Stop (w ++ r) := by
  obtain ⟨c, cs, rfl, -, -, h1⟩ := h.head (keywords_op op)
  intro d hd
  simp only [List.cons_append, List.head?_cons, Option.some.injEq] at hd
  subst hd
  rcases h1 with rfl | ⟨w, hw, hc⟩
  · decide
  · cases op <;> simp only [Op.spellings, List.mem_cons, List.not_mem_nil, or_false] at hw <;>
      rcases hw with rfl | rfl | rfl <;> simp only [List.head?_cons, Option.some.injEq] at hc <;> subst hc <;> decide

theorem word_tok {op : Op} {w : Str} (h : Word op.spellings w) (r : Str) : Tok (w ++ r) := by
  obtain ⟨c, cs, rfl, h1, h2, -⟩ := h.head (keywords_op op)
  exact tok_cons h1 h2

theorem tail_stop {op : Op} {b u is} (h : Human (.tail op) b u is) {r : Str} (hr : Stop r) : Stop (u ++ r) := by
  cases h with
  | last => simpa
  | next =>
    rename_i hbl hbl' hw _ _
    simp only [List.append_assoc]
    exact blank_stop hbl (word_stop hw _)

/-- Operands start with a quote, a digit, a minus sign or an opening bracket. -/
theorem term_head {b t is} (h : Human .term b t is) :
    ∃ c cs, t = c :: cs ∧ (c = '"' ∨ isDigit c = true ∨ c = '-' ∨ c ∈ ['(', '[', '{']) := by
  cases h with
  | attr => exact ⟨'"', _, rfl, .inl rfl⟩
  | num =>
    rename_i hn
    obtain ⟨sign, int, frac, exp, rfl, hs, hi, -⟩ := (num_iff t).1 hn
    rcases hs with rfl | rfl
    · obtain ⟨c, y, hc, h1, h2⟩ := intPart_head (r := frac ++ exp) hi
      exact ⟨c, y, by simpa using hc, .inr (.inl ((isDigit_iff c).2 ⟨h1, h2⟩))⟩
    · exact ⟨'-', _, rfl, .inr (.inr (.inl rfl))⟩
  | bracket =>
    rename_i ho _ _ _ _
    exact ⟨_, _, rfl, .inr (.inr (.inr ho))⟩

theorem term_tok {b t is} (h : Human .term b t is) (r : Str) : Tok (t ++ r) := by
  obtain ⟨c, cs, rfl, hc⟩ := term_head h
  rcases hc with rfl | hc | rfl | hc
  · exact tok_cons (by decide) (by decide)
  · refine tok_cons ?_ ?_
    · by_contra h
      simp only [Bool.not_eq_false, isWs_iff, List.mem_cons, List.not_mem_nil, or_false] at h
      rcases h with rfl | rfl | rfl | rfl <;> exact absurd hc (by decide)
    · rintro rfl; exact absurd hc (by decide)
  · exact tok_cons (by decide) (by decide)
  · simp only [List.mem_cons, List.not_mem_nil, or_false] at hc
    rcases hc with rfl | rfl | rfl <;> exact tok_cons (by decide) (by decide)

theorem node_tok {b t is} (h : Human .node b t is) (r : Str) : Tok (t ++ r) := by
  cases h with
  | single => rename_i h; exact term_tok h r
  | gate => rename_i h _; rw [List.append_assoc]; exact term_tok h _

theorem follow_close (op : Op) {bl : Str} (h : Blank bl) {c : Char} (hc : c ∈ [')', ']', '}']) (r : Str) :
    Follow op (bl ++ c :: r) := by
  refine ⟨blank_stop h ?_, bl, c :: r, rfl, h, ?_, ?_⟩
  · intro d hd
    simp only [List.head?_cons, Option.some.injEq] at hd
    subst hd
    simp only [List.mem_cons, List.not_mem_nil, or_false] at hc
    rcases hc with rfl | rfl | rfl <;> decide
  · simp only [List.mem_cons, List.not_mem_nil, or_false] at hc
    rcases hc with rfl | rfl | rfl <;> exact tok_cons (by decide) (by decide)
  · intro col
    simp only [List.mem_cons, List.not_mem_nil, or_false] at hc
    refine word_none ?_ ?_ col
    · cases op <;> rcases hc with rfl | rfl | rfl <;> simp [Op.spellings]
    · rcases hc with rfl | rfl | rfl <;> simp

theorem follow_end (op : Op) {bl : Str} (h : Blank bl) : Follow op bl := by
  refine ⟨by simpa using blank_stop h stop_nil, bl, [], by simp, h, tok_nil, fun col => word_none ?_ ?_ col⟩
  · cases op <;> simp [Op.spellings]
  · simp

theorem Follow.opTerm_none {op : Op} {r : Str} (h : Follow op r) (node : P Pair) (col : ℕ) :
    hOpTerm op node (skip ⟨col, r⟩) = none := by
  obtain ⟨bl, r', rfl, hbl, ht, hw⟩ := h.noOp
  simp [skip_blank hbl ht, hOpTerm, opInner_eq, hw]

theorem follow_other {op op' : Op} (hne : op ≠ op') {bl w : Str} (hbl : Blank bl) (hw : Word op'.spellings w)
    (r : Str) : Follow op (bl ++ (w ++ r)) := by
  refine ⟨blank_stop hbl (word_stop hw _), bl, w ++ r, rfl, hbl, word_tok hw _, fun col => ?_⟩
  refine word_disjoint (keywords_op op) (keywords_op op') ?_ hw r col
  cases op <;> cases op' <;> simp [Op.spellings] at hne ⊢

/-- An operand followed by `op operand op operand …` is read as a gate up to the first place where no `op` follows. -/
theorem hGate_accepts {op : Op} {fuel : ℕ} {s s1 s2 : PS} {p p2 : Pair} {ps : List Pair}
    (h1 : hTerm (hNode fuel) s = some (p, s1)) (h2 : Run (hOpTerm op (hNode fuel)) s1 (p2 :: ps) s2) :
    ∃ s', hGate op (hNode fuel) s = some (.gate op (p :: p2 :: ps), s') ∧ (s' = s2 ∨ s' = skip s2) := by
  cases h2 with
  | step _ _ s' _ _ h3 _ h4 =>
    simp only [hGate, h1, Option.bind_eq_bind, Option.bind_some, h3, Option.pure_def]
    rcases h4.star with h5 | ⟨rfl, rfl, h5⟩
    · exact ⟨s2, by rw [h5], .inl rfl⟩
    · exact ⟨_, by rw [h5], .inr rfl⟩

theorem hGate_none {op : Op} {fuel : ℕ} {s s1 : PS} {p : Pair}
    (h1 : hTerm (hNode fuel) s = some (p, s1)) (h2 : hOpTerm op (hNode fuel) (skip s1) = none) :
    hGate op (hNode fuel) s = none := by
  simp [hGate, h1, h2]

theorem human_accepts {k b t is} (h : Human k b t is) : HAccepts k b t is := by
  induction h with
  | attr b n hn =>
    intro fuel r _ _
    refine ⟨.string n (nextCol (column b) '"'), ?_, ?_⟩
    · simp only [List.cons_append, List.append_assoc, List.nil_append, hTerm, hValue, alt, string_name hn,
        column_append]
    · simp [Pair.toItem, column_append, colAfter]
  | num b t ht =>
    intro fuel r hr _
    refine ⟨.number, ?_, by simp [Pair.toItem]⟩
    have hs : string ⟨column b, t ++ r⟩ = none := by
      obtain ⟨sign, int, frac, exp, rfl, hsg, hi, -⟩ := (num_iff t).1 ht
      rcases hsg with rfl | rfl
      · obtain ⟨c, y, hc, h1, h2⟩ := intPart_head (r := (frac ++ exp) ++ r) hi
        have : c ≠ '"' := by rintro rfl; exact absurd h1 (by decide)
        have e : [] ++ (int ++ (frac ++ exp)) ++ r = c :: y := by simpa using hc
        rw [e]
        exact string_ne this _ _
      · exact string_ne (by decide) _ _
    simp only [hTerm, hValue, alt, hs, number_num ht hr, column_append]
  | bracket b o bl t bl' c i ho hc hbl hbl' hn ih =>
    intro fuel r hr hl
    obtain ⟨p, s', h1, h2, h3⟩ := ih fuel (bl' ++ c :: r) (fun op => follow_close op hbl' hc r) (by
      simp only [List.length_cons, List.length_append, List.length_nil] at hl; omega)
    refine ⟨p, ?_, h2⟩
    have hct : Tok (c :: r) := by
      simp only [List.mem_cons, List.not_mem_nil, or_false] at hc
      rcases hc with rfl | rfl | rfl <;> exact tok_cons (by decide) (by decide)
    have hos : o ≠ '"' ∧ isDigit o = false ∧ o ≠ '-' := by
      simp only [List.mem_cons, List.not_mem_nil, or_false] at ho
      rcases ho with rfl | rfl | rfl <;> decide
    have hop : braceOpen ⟨column b, o :: (bl ++ (t ++ (bl' ++ c :: r)))⟩ =
        some ⟨nextCol (column b) o, bl ++ (t ++ (bl' ++ c :: r))⟩ := by
      simp only [List.mem_cons, List.not_mem_nil, or_false] at ho
      rcases ho with rfl | rfl | rfl <;> simp [braceOpen, orElse, lit]
    have hsk : skip ⟨nextCol (column b) o, bl ++ (t ++ (bl' ++ c :: r))⟩ =
        ⟨column (b ++ o :: bl), t ++ (bl' ++ c :: r)⟩ := by
      rw [skip_blank hbl (node_tok hn _), column_append, colAfter]
    have hs' : skip s' = ⟨colAfter (column (b ++ o :: bl ++ t)) bl', c :: r⟩ := by
      have : skip ⟨column (b ++ o :: bl ++ t), bl' ++ c :: r⟩ =
        ⟨colAfter (column (b ++ o :: bl ++ t)) bl', c :: r⟩ := skip_blank hbl' hct _
      rcases h3 with rfl | rfl
      · exact this
      · rw [this, skip_tok hct]
    have hcl : braceClose ⟨colAfter (column (b ++ o :: bl ++ t)) bl', c :: r⟩ =
        some ⟨nextCol (colAfter (column (b ++ o :: bl ++ t)) bl') c, r⟩ := by
      simp only [List.mem_cons, List.not_mem_nil, or_false] at hc
      rcases hc with rfl | rfl | rfl <;> simp [braceClose, orElse, lit]
    have e : o :: (bl ++ (t ++ (bl' ++ [c]))) ++ r = o :: (bl ++ (t ++ (bl' ++ c :: r))) := by simp
    have e2 : column (b ++ o :: (bl ++ (t ++ (bl' ++ [c])))) =
        nextCol (colAfter (column (b ++ o :: bl ++ t)) bl') c := by
      simp only [column_append, colAfter_append, colAfter]
    rw [e, e2]
    simp only [hTerm, hValue, alt, string_ne hos.1, number_ne hos.2.1 hos.2.2, bracketed, hop, Option.bind_eq_bind,
      Option.bind_some, hsk, h1, hs', hcl, Option.pure_def]
  | single b t i h ih =>
    intro fuel r hf hl
    obtain ⟨f, rfl⟩ : ∃ f, fuel = f + 1 := ⟨fuel - 1, by omega⟩
    obtain ⟨p, h1, h2⟩ := ih f r (hf .and).stop (by omega)
    refine ⟨p, _, ?_, h2, .inl rfl⟩
    simp only [hNode, alt, hGate_none h1 ((hf .and).opTerm_none _ _), hGate_none h1 ((hf .or).opTerm_none _ _), h1]
  | gate b t u op i j is h hu ih ihu =>
    intro fuel r hf hl
    obtain ⟨f, rfl⟩ : ∃ f, fuel = f + 1 := ⟨fuel - 1, by omega⟩
    simp only [List.length_append] at hl
    obtain ⟨p, h1, h2⟩ := ih f (u ++ r) (tail_stop hu (hf .and).stop) (by omega)
    obtain ⟨ps, h3, h4⟩ := ihu f r (hf op).stop (by simpa using (hf op).opTerm_none _ _) (by omega)
    cases ps with
    | nil => simp at h4
    | cons p2 ps =>
      obtain ⟨s', h5, h6⟩ := hGate_accepts h1 h3
      refine ⟨.gate op (p :: p2 :: ps), s', ?_, ?_, by simpa using h6⟩
      · rw [List.append_assoc]
        cases op with
        | and => simp only [hNode, alt, h5]
        | or =>
          have : hOpTerm .and (hNode f) (skip ⟨column (b ++ t), u ++ r⟩) = none := by
            cases hu with
            | next =>
              rename_i hbl hbl' hw _ _
              simp only [List.append_assoc]
              exact (follow_other (by decide : Op.and ≠ .or) hbl hw _).opTerm_none _ _
          simp only [hNode, alt, hGate_none h1 this, h5]
      · simp only [List.cons.injEq, and_true] at h2
        simp only [List.map_cons] at h4
        simp [Pair.toItem, Pair.toItemL_eq, h2, h4]
  | last b op =>
    intro fuel r _ hf _
    exact ⟨[], by simpa using Run.stop _ hf, by simp⟩
  | next b bl w bl' t u op i is hbl hbl' hw ht hu ih ihu =>
    intro fuel r hs hf hl
    simp only [List.length_append] at hl
    obtain ⟨p, h1, h2⟩ := ih fuel (u ++ r) (tail_stop hu hs) (by omega)
    obtain ⟨ps, h3, h4⟩ := ihu fuel r hs (by simpa using hf) (by omega)
    refine ⟨p :: ps, ?_, by simp only [List.cons.injEq, and_true] at h2; simp [h2, h4]⟩
    simp only [List.append_assoc] at h1 h3 ⊢
    refine .step _ p _ ps _ ?_ ?_ h3
    · rw [skip_blank hbl (word_tok hw _)]
      simp only [hOpTerm, opInner_eq, word_Word (keywords_op op) hw, Option.bind_eq_bind, Option.bind_some]
      rw [skip_blank hbl' (term_tok ht _)]
      rw [← h1]
      simp only [column_append, colAfter_append]
    · obtain ⟨c, cs, rfl, -⟩ := term_head ht
      simp
      omega

theorem human_complete {text : Str} {i : Item} (h : HumanText text i) {n : ℕ} (hn : text.length < n) :
    ∃ p, content (hNode n) text = some p ∧ i = p.toItem := by
  obtain ⟨bl, t, bl', rfl, hbl, hbl', hh⟩ := h
  obtain ⟨p, s', h1, h2, h3⟩ := human_accepts hh n bl' (fun op => follow_end op hbl') (by
    simp only [List.length_append] at hn; omega)
  refine ⟨p, ?_, by simpa using h2⟩
  have hs : (skip s').rest = [] := by
    have : ∀ col, skip ⟨col, bl'⟩ = ⟨colAfter col bl', []⟩ := fun col => by
      simpa using skip_blank hbl' tok_nil col
    rcases h3 with rfl | rfl
    · simp [this]
    · rw [this, skip_tok tok_nil]
  have h0 : skip ⟨1, bl ++ (t ++ bl')⟩ = ⟨column bl, t ++ bl'⟩ := by
    rw [skip_blank hbl (node_tok hh _)]
    have := column_append [] bl
    simp only [List.nil_append] at this
    rw [this]; rfl
  simp [content, h0, h1, hs]

end Rabe
