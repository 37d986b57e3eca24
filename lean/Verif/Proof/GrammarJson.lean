import Verif.Proof.GrammarHuman

/-!
# The JSON parser against the JSON grammar
-/

namespace Rabe

open Pest

/-! ## What the parser accepts is generated by the grammar -/

/-- Any way of writing an operator. -/
def AnyWay (_ : Str) : Prop := True

/-- Results of `node` are phrases of the grammar. -/
def JNodeSound (node : P Pair) : Prop := ∀ b s p s', s.col = column b → node s = some (p, s') →
  ∃ t, Took s t s' ∧ Json AnyWay .node b t [p.toItem]

theorem jObject_took {x : P Pair} {s s' : PS} {p : Pair} (h : jObject x s = some (p, s')) :
    ∃ h' s3 s4 bl, Spaced nameHead h' ∧ Took s h' s3 ∧ x s3 = some (p, s4) ∧ Blank bl ∧ Took s4 (bl ++ ['}']) s' := by
  simp only [jObject, Option.bind_eq_bind, Option.bind_eq_some_iff, Option.pure_def, Option.some.injEq,
      Prod.mk.injEq, Prod.exists] at h
  obtain ⟨s1, h1, s2, h2, s3, h3, q, s4, h4, s5, h5, rfl, rfl⟩ := h
  rw [jName_eq] at h2
  obtain ⟨b1, hb1, t1⟩ := skip_took s1
  obtain ⟨w, hw, t2⟩ := word_took h2
  obtain ⟨b2, hb2, t3⟩ := skip_took s2
  obtain ⟨b3, hb3, t4⟩ := skip_took s3
  obtain ⟨b4, hb4, t5⟩ := skip_took s4
  refine ⟨['{'] ++ (b1 ++ (w ++ (b2 ++ ([':'] ++ (b3 ++ []))))), skip s3, s4, b4, ?_, ?_, h4, hb4, t5.trans (.of_lit h5)⟩
  · exact ⟨_, b1, _, rfl, rfl, hb1, w, b2, _, rfl, hw, hb2, _, b3, _, rfl, rfl, hb3, rfl⟩
  · have := (Took.of_lit h1).trans (t1.trans (t2.trans (t3.trans ((Took.of_lit h3).trans t4))))
    simpa using this

theorem jGateHead_took {op : Op} {s s' : PS} (h : jGateHead op s = some s') :
    ∃ k, Spaced (childrenHead AnyWay op) k ∧ Took s k (skip s') := by
  simp only [jGateHead, Option.bind_eq_bind, Option.bind_eq_some_iff] at h
  obtain ⟨s1, h1, s2, h2, s3, h3, s4, h4, h5⟩ := h
  rw [opInner_eq] at h1
  rw [jChildren_eq] at h3
  obtain ⟨w, hw, t1⟩ := word_took h1
  obtain ⟨b1, hb1, t2⟩ := skip_took s1
  obtain ⟨b2, hb2, t3⟩ := skip_took s2
  obtain ⟨v, hv, t4⟩ := word_took h3
  obtain ⟨b3, hb3, t5⟩ := skip_took s3
  obtain ⟨b4, hb4, t6⟩ := skip_took s4
  obtain ⟨b5, hb5, t7⟩ := skip_took s'
  refine ⟨w ++ (b1 ++ ([','] ++ (b2 ++ (v ++ (b3 ++ ([':'] ++ (b4 ++ (['['] ++ (b5 ++ []))))))))), ?_, ?_⟩
  · exact ⟨w, b1, _, rfl, ⟨hw, trivial⟩, hb1, _, b2, _, rfl, rfl, hb2, v, b3, _, rfl, hv, hb3, _, b4, _, rfl, rfl, hb4,
      _, b5, _, rfl, rfl, hb5, rfl⟩
  · have := t1.trans (t2.trans ((Took.of_lit h2).trans (t3.trans (t4.trans (t5.trans ((Took.of_lit h4).trans
      (t6.trans ((Took.of_lit h5).trans t7))))))))
    simpa using this

theorem jCommaNode_took {node : P Pair} {s s' : PS} {p : Pair} (h : jCommaNode node s = some (p, s')) :
    ∃ bl s1, Blank bl ∧ Took s (',' :: bl) s1 ∧ node s1 = some (p, s') := by
  simp only [jCommaNode, Option.bind_eq_bind, Option.bind_eq_some_iff] at h
  obtain ⟨s1, h1, h2⟩ := h
  obtain ⟨bl, hbl, t1⟩ := skip_took s1
  exact ⟨bl, _, hbl, (Took.of_lit h1).trans t1, h2⟩

theorem jStarTail_sound {node : P Pair} (hn : JNodeSound node) : ∀ n b s, s.col = column b →
    ∃ u, Took s u (skip (starTail (jCommaNode node) n s).2) ∧
      Json AnyWay .tail b u ((starTail (jCommaNode node) n s).1.map Pair.toItem) := by
  intro n
  induction n with
  | zero =>
    intro b s hb
    obtain ⟨bl, hbl, t⟩ := skip_took s
    exact ⟨bl, t, .last b bl hbl⟩
  | succ n ih =>
    intro b s hb
    obtain ⟨bl, hbl, t1⟩ := skip_took s
    simp only [starTail]
    split
    · exact ⟨bl, t1, .last b bl hbl⟩
    · rename_i p s' h
      obtain ⟨bl', s1, hbl', t2, h1⟩ := jCommaNode_took h
      have tt := t1.trans t2
      obtain ⟨t, t3, hh⟩ := hn _ _ _ _ (tt.col hb) h1
      obtain ⟨u, t4, hu⟩ := ih _ s' ((tt.trans t3).col hb)
      refine ⟨bl ++ ',' :: (bl' ++ (t ++ u)), by simpa using (tt.trans t3).trans t4, ?_⟩
      exact .next b bl bl' t u _ _ hbl hbl' hh (by simpa using hu)

theorem jStar_sound {node : P Pair} (hn : JNodeSound node) {b s} (hb : s.col = column b) :
    ∃ u, Took s u (skip (star (jCommaNode node) (skip s)).2) ∧
      Json AnyWay .tail b u ((star (jCommaNode node) (skip s)).1.map Pair.toItem) := by
  obtain ⟨bl, hbl, t1⟩ := skip_took s
  simp only [Pest.star]
  split
  · obtain ⟨bl2, hbl2, t2⟩ := skip_took (skip s)
    exact ⟨bl ++ bl2, t1.trans t2, .last b _ (blank_append hbl hbl2)⟩
  · rename_i p s' h
    obtain ⟨bl', s1, hbl', t2, h1⟩ := jCommaNode_took h
    have tt := t1.trans t2
    obtain ⟨t, t3, hh⟩ := hn _ _ _ _ (tt.col hb) h1
    obtain ⟨u, t4, hu⟩ := jStarTail_sound hn s'.rest.length _ s' ((tt.trans t3).col hb)
    refine ⟨bl ++ ',' :: (bl' ++ (t ++ u)), by simpa using (tt.trans t3).trans t4, ?_⟩
    exact .next b bl bl' t u _ _ hbl hbl' hh (by simpa using hu)

theorem jGate_sound {op : Op} {node : P Pair} (hn : JNodeSound node) {b s p s'} (hb : s.col = column b)
    (h : jGate op node s = some (p, s')) : ∃ k t is, Spaced (childrenHead AnyWay op) k ∧
      Took s (k ++ (t ++ [']'])) s' ∧ Json AnyWay .list (b ++ k) t is ∧ p.toItem = .gate op is := by
  simp only [jGate, alt] at h
  split at h
  · rename_i r hr
    simp only [Option.some.injEq] at h
    subst h
    simp only [Option.bind_eq_bind, Option.bind_eq_some_iff, Option.pure_def, Option.some.injEq,
      Prod.mk.injEq] at hr
    obtain ⟨s1, h1, s2, h2, rfl, rfl⟩ := hr
    obtain ⟨k, hk, t1⟩ := jGateHead_took h1
    exact ⟨k, [], [], hk, t1.trans (.of_lit h2), .empty _, by simp [Pair.toItem, Pair.toItemL]⟩
  · simp only [Option.bind_eq_bind, Option.bind_eq_some_iff, Option.pure_def, Option.some.injEq,
      Prod.mk.injEq, Prod.exists] at h
    obtain ⟨s1, h1, q, s2, h2, s3, h3, rfl, rfl⟩ := h
    obtain ⟨k, hk, t1⟩ := jGateHead_took h1
    obtain ⟨t, t2, hh⟩ := hn _ _ _ _ (t1.col hb) h2
    obtain ⟨u, t3, hu⟩ := jStar_sound hn (t2.col (t1.col hb))
    refine ⟨k, t ++ u, _, hk, ?_, .first _ t u _ _ hh hu, by simp [Pair.toItem, Pair.toItemL_eq]⟩
    have := t1.trans (t2.trans (t3.trans (.of_lit h3)))
    simpa using this

theorem jNodeSound_alt {x y : P Pair} (hx : JNodeSound x) (hy : JNodeSound y) : JNodeSound (alt x y) := by
  intro b s p s' hb h
  simp only [alt] at h
  split at h
  · rename_i r hr
    simp only [Option.some.injEq] at h
    subst h
    exact hx b s p s' hb hr
  · exact hy b s p s' hb h

theorem jNodeSound_gate {op : Op} {node : P Pair} (hn : JNodeSound node) : JNodeSound (jObject (jGate op node)) := by
  intro b s p s' hb h
  obtain ⟨h', s3, s4, bl, hh, t1, h4, hbl, t2⟩ := jObject_took h
  obtain ⟨k, t, is, hk, t3, hl, hp⟩ := jGate_sound hn (t1.col hb) h4
  refine ⟨h' ++ (k ++ (t ++ ']' :: (bl ++ ['}']))), ?_, ?_⟩
  · have := t1.trans (t3.trans t2)
    simpa using this
  · rw [hp]
    exact .gate b h' k t bl op is hh hk hbl (by simpa using hl)

theorem jNodeSound_value : JNodeSound (jObject jValue) := by
  intro b s p s' hb h
  obtain ⟨h', s3, s4, bl, hh, t1, h4, hbl, t2⟩ := jObject_took h
  simp only [jValue, alt] at h4
  split at h4
  · rename_i r hr
    simp only [Option.some.injEq] at h4
    subst h4
    obtain ⟨n, hn, rfl, t3⟩ := string_took hr
    refine ⟨h' ++ ('"' :: (n ++ '"' :: (bl ++ ['}']))), by simpa using t1.trans (t3.trans t2), ?_⟩
    have := Json.attr (R := AnyWay) b h' n bl hh hn hbl
    rw [Pair.toItem, t1.col hb, ← column_append]
    simpa using this
  · obtain ⟨rfl, t, ht, t3⟩ := number_took h4
    exact ⟨h' ++ (t ++ (bl ++ ['}'])), t1.trans (t3.trans t2), .num b h' t bl hh ht hbl⟩

theorem jNodeSound_jNode : ∀ n, JNodeSound (jNode n) := by
  intro n
  induction n with
  | zero => intro b s p s' _ h; simp [jNode] at h
  | succ n ih => exact jNodeSound_alt jNodeSound_value (jNodeSound_alt (jNodeSound_gate ih) (jNodeSound_gate ih))

theorem json_sound {n : ℕ} {text : Str} {p : Pair} (h : content (jNode n) text = some p) :
    JsonText AnyWay text p.toItem := by
  simp only [content, Option.bind_eq_bind, Option.bind_eq_some_iff, Prod.exists] at h
  obtain ⟨q, s, h1, h2⟩ := h
  split at h2
  · rename_i hnil
    simp only [Option.some.injEq] at h2
    subst h2
    obtain ⟨bl, hbl, t1⟩ := skip_took ⟨1, text⟩
    obtain ⟨t, t2, hh⟩ := jNodeSound_jNode n bl _ _ _ (by simpa using t1.col (b := []) (by rfl)) h1
    obtain ⟨bl2, hbl2, t3⟩ := skip_took s
    refine ⟨bl, t, bl2, ?_, hbl, hbl2, hh⟩
    have := (t1.trans (t2.trans t3)).1
    rw [hnil] at this
    simpa using this
  · simp at h2

/-! ## What the grammar generates is accepted by the parser -/

theorem name_quote {n : Str} (h : Name n) : ∀ x y, n = x ++ '"' :: y → ∃ x', x = x' ++ ['\\'] := by
  induction h with
  | nil => intro x y h; simp at h
  | plain c t h1 h2 _ ih =>
    intro x y h
    cases x with
    | nil => simp only [List.nil_append, List.cons.injEq] at h; exact absurd h.1 h1
    | cons a x =>
      simp only [List.cons_append, List.cons.injEq] at h
      obtain ⟨x', rfl⟩ := ih x y h.2
      exact ⟨a :: x', rfl⟩
  | escape c t h1 _ ih =>
    intro x y h
    match x, h with
    | [], h => simp at h
    | [a], h =>
      simp only [List.cons_append, List.cons.injEq] at h
      exact ⟨[], by simp [← h.1]⟩
    | a :: a' :: x, h =>
      simp only [List.cons_append, List.cons.injEq] at h
      obtain ⟨x', rfl⟩ := ih x y h.2.2
      exact ⟨a :: a' :: x', rfl⟩
  | unicode a b c d t ha hb hc hd _ ih =>
    intro x y h
    have hq : ¬ HexDigit '"' := by rw [← isHex_iff]; decide
    match x, h with
    | [], h => simp at h
    | [_], h => simp at h
    | [_, _], h => simp only [List.cons_append, List.nil_append, List.cons.injEq] at h; exact absurd (h.2.2.1 ▸ ha) hq
    | [_, _, _], h =>
      simp only [List.cons_append, List.nil_append, List.cons.injEq] at h; exact absurd (h.2.2.2.1 ▸ hb) hq
    | [_, _, _, _], h =>
      simp only [List.cons_append, List.nil_append, List.cons.injEq] at h; exact absurd (h.2.2.2.2.1 ▸ hc) hq
    | [_, _, _, _, _], h =>
      simp only [List.cons_append, List.nil_append, List.cons.injEq] at h; exact absurd (h.2.2.2.2.2.1 ▸ hd) hq
    | a1 :: a2 :: a3 :: a4 :: a5 :: a6 :: x, h =>
      simp only [List.cons_append, List.cons.injEq] at h
      obtain ⟨x', rfl⟩ := ih x y h.2.2.2.2.2.2
      exact ⟨a1 :: a2 :: a3 :: a4 :: a5 :: a6 :: x', rfl⟩

theorem blank_last {bl : Str} (h : Blank bl) : ∀ x c, bl = x ++ [c] → c ≠ '\\' := by
  induction h with
  | nil => intro x c h; simp at h
  | space c t hc ht ih =>
    intro x d h
    cases x with
    | nil =>
      simp only [List.nil_append, List.cons.injEq] at h
      obtain ⟨rfl, -⟩ := h
      rintro rfl
      simp at hc
    | cons a x =>
      simp only [List.cons_append, List.cons.injEq] at h
      exact ih x d h.2
  | comment body t _ _ ih =>
    intro x d h
    rcases List.eq_nil_or_concat t with rfl | ⟨t', e, rfl⟩
    · have : x ++ [d] = ('/' :: '*' :: (body ++ ['*'])) ++ ['/'] := by rw [← h]; simp
      have := (List.append_inj' this rfl).2
      simp only [List.cons.injEq, and_true] at this
      rw [this]; decide
    · have : x ++ [d] = ('/' :: '*' :: (body ++ '*' :: '/' :: t')) ++ [e] := by rw [← h]; simp
      have := (List.append_inj' this rfl).2
      simp only [List.cons.injEq, and_true] at this
      exact ih t' d (by rw [this]; simp)

/-- The parser accepts the phrase. -/
def JAccepts : JKind → Str → Str → List Item → Prop
  | .node, b, t, is => ∀ fuel r, t.length < fuel →
      ∃ p, jNode fuel ⟨column b, t ++ r⟩ = some (p, ⟨column (b ++ t), r⟩) ∧ is = [p.toItem]
  | .list, b, t, is => ∀ fuel r, t.length < fuel → (t = [] ∧ is = []) ∨
      ∃ p ps s1 s2, jNode fuel ⟨column b, t ++ ']' :: r⟩ = some (p, s1) ∧
        Run (jCommaNode (jNode fuel)) s1 ps s2 ∧ skip s2 = ⟨column (b ++ t), ']' :: r⟩ ∧
        is = p.toItem :: ps.map Pair.toItem ∧ ∃ t', t = '{' :: t'
  | .tail, b, t, is => ∀ fuel r, t.length < fuel →
      ∃ ps s2, Run (jCommaNode (jNode fuel)) ⟨column b, t ++ ']' :: r⟩ ps s2 ∧
        skip s2 = ⟨column (b ++ t), ']' :: r⟩ ∧ is = ps.map Pair.toItem

theorem spaced_nameHead {h : Str} (hh : Spaced nameHead h) : ∃ b1 w b2 b3,
    h = '{' :: (b1 ++ (w ++ (b2 ++ ':' :: b3))) ∧ Blank b1 ∧ Blank b2 ∧ Blank b3 ∧
    Word [['n', 'a', 'm', 'e'], ['N', 'A', 'M', 'E']] w := by
  obtain ⟨_, b1, _, rfl, rfl, hb1, w, b2, _, rfl, hw, hb2, _, b3, _, rfl, rfl, hb3, rfl⟩ := hh
  exact ⟨b1, w, b2, b3, by simp, hb1, hb2, hb3, hw⟩

theorem spaced_childrenHead {R op k} (hk : Spaced (childrenHead R op) k) : ∃ w b1 b2 v b3 b4 b5,
    k = w ++ (b1 ++ ',' :: (b2 ++ (v ++ (b3 ++ ':' :: (b4 ++ '[' :: b5))))) ∧ Blank b1 ∧ Blank b2 ∧ Blank b3 ∧
    Blank b4 ∧ Blank b5 ∧ Word op.spellings w ∧ R w ∧
    Word [['c', 'h', 'i', 'l', 'd', 'r', 'e', 'n'], ['C', 'H', 'I', 'L', 'D', 'R', 'E', 'N']] v := by
  obtain ⟨w, b1, _, rfl, ⟨hw, hR⟩, hb1, _, b2, _, rfl, rfl, hb2, v, b3, _, rfl, hv, hb3, _, b4, _, rfl, rfl, hb4,
      _, b5, _, rfl, rfl, hb5, rfl⟩ := hk
  exact ⟨w, b1, b2, v, b3, b4, b5, by simp, hb1, hb2, hb3, hb4, hb5, hw, hR, hv⟩

theorem keyword_tok {ws : List Str} (hk : Keywords ws) {t : Str} (h : Word ws t) (r : Str) : Tok (t ++ r) := by
  obtain ⟨c, cs, rfl, h1, h2, -⟩ := h.head hk
  exact tok_cons h1 h2

/-- Reading the head `{ "name" :` of an object. -/
theorem jObject_head {h : Str} (hh : Spaced nameHead h) (x : P Pair) {u : Str} (hu : Tok u) (col : ℕ) :
    jObject x ⟨col, h ++ u⟩ = match x ⟨colAfter col h, u⟩ with
      | none => none
      | some (p, s4) => match lit ['}'] (skip s4) with
        | none => none
        | some s5 => some (p, s5) := by
  obtain ⟨b1, w, b2, b3, rfl, hb1, hb2, hb3, hw⟩ := spaced_nameHead hh
  simp only [jObject, List.cons_append, List.append_assoc, lit_one, Option.bind_eq_bind, Option.bind_some]
  rw [skip_blank hb1 (keyword_tok keywords_name hw _), jName_eq, word_Word keywords_name hw]
  simp only [Option.bind_some]
  rw [skip_blank hb2 (tok_cons (by decide) (by decide)), lit_one]
  simp only [Option.bind_some]
  rw [skip_blank hb3 hu]
  simp only [colAfter, colAfter_append]
  cases x ⟨colAfter (nextCol (colAfter (colAfter (colAfter (nextCol col '{') b1) w) b2) ':') b3, u⟩ with
  | none => rfl
  | some q =>
    obtain ⟨p, s4⟩ := q
    simp only [Option.bind_some]
    cases lit ['}'] (skip s4) <;> rfl

theorem jGateHead_accepts {R op k} (hk : Spaced (childrenHead R op) k) {u : Str} (hu : Tok u) (col : ℕ) :
    ∃ s, jGateHead op ⟨col, k ++ u⟩ = some s ∧ skip s = ⟨colAfter col k, u⟩ := by
  obtain ⟨w, b1, b2, v, b3, b4, b5, rfl, hb1, hb2, hb3, hb4, hb5, hw, -, hv⟩ := spaced_childrenHead hk
  simp only [jGateHead, List.cons_append, List.append_assoc, opInner_eq, word_Word (keywords_op op) hw,
    Option.bind_eq_bind, Option.bind_some]
  rw [skip_blank hb1 (tok_cons (by decide) (by decide)), lit_one]
  simp only [Option.bind_some]
  rw [skip_blank hb2 (keyword_tok keywords_children hv _), jChildren_eq, word_Word keywords_children hv]
  simp only [Option.bind_some]
  rw [skip_blank hb3 (tok_cons (by decide) (by decide)), lit_one]
  simp only [Option.bind_some]
  rw [skip_blank hb4 (tok_cons (by decide) (by decide)), lit_one]
  refine ⟨_, rfl, ?_⟩
  rw [skip_blank hb5 hu]
  simp only [colAfter, colAfter_append]

theorem jGateHead_other {R op op' k} (hne : op ≠ op') (hk : Spaced (childrenHead R op') k) (u : Str) (col : ℕ) :
    jGateHead op ⟨col, k ++ u⟩ = none := by
  obtain ⟨w, b1, b2, v, b3, b4, b5, rfl, hb1, hb2, hb3, hb4, hb5, hw, -, hv⟩ := spaced_childrenHead hk
  have : word op.spellings ⟨col, w ++ (b1 ++ ',' :: (b2 ++ (v ++ (b3 ++ ':' :: (b4 ++ '[' :: b5)))) ++ u)⟩ = none := by
    refine word_disjoint (keywords_op op) (keywords_op op') ?_ hw _ col
    cases op <;> cases op' <;> simp [Op.spellings] at hne ⊢
  rw [List.append_assoc]
  simp only [jGateHead, opInner_eq, this, Option.bind_eq_bind, Option.bind_none]

theorem spelling_last {op : Op} {w : Str} (hw : w ∈ op.spellings) : ∃ w' c, w = w' ++ [c] ∧ c ≠ '\\' ∧ '"' ∉ w := by
  cases op <;> simp only [Op.spellings, List.mem_cons, List.not_mem_nil, or_false] at hw <;>
    rcases hw with rfl | rfl | rfl
  · exact ⟨['a', 'n'], 'd', rfl, by decide, by decide⟩
  · exact ⟨['A', 'N'], 'D', rfl, by decide, by decide⟩
  · exact ⟨['&'], '&', rfl, by decide, by decide⟩
  · exact ⟨['o'], 'r', rfl, by decide, by decide⟩
  · exact ⟨['O'], 'R', rfl, by decide, by decide⟩
  · exact ⟨['|'], '|', rfl, by decide, by decide⟩

/-- An object with an operator is not read as an attribute. -/
theorem jValue_gate {op k} (hk : Spaced (childrenHead Plain op) k) (u : Str) (col : ℕ) :
    (match jValue ⟨col, k ++ u⟩ with
      | none => none
      | some (p, s4) => match lit ['}'] (skip s4) with
        | none => none
        | some s5 => some ((p, s5) : Pair × PS)) = none := by
  obtain ⟨w, b1, b2, v, b3, b4, b5, rfl, hb1, hb2, hb3, hb4, hb5, hw, hR, hv⟩ := spaced_childrenHead hk
  rcases hw with hw | ⟨b, w0, b', hw0, hb, hb', rfl⟩
  · have hns : ∃ c cs, w = c :: cs ∧ c ≠ '"' ∧ isDigit c = false ∧ c ≠ '-' := by
      cases op <;> simp only [Op.spellings, List.mem_cons, List.not_mem_nil, or_false] at hw <;>
        rcases hw with rfl | rfl | rfl <;> exact ⟨_, _, rfl, by decide, by decide, by decide⟩
    obtain ⟨c, cs, rfl, h1, h2, h3⟩ := hns
    simp [jValue, alt, string_ne h1, number_ne h2 h3]
  · have hn : number ⟨col, '"' :: (b ++ (w0 ++ (b' ++ ['"']))) ++
        (b1 ++ ',' :: (b2 ++ (v ++ (b3 ++ ':' :: (b4 ++ '[' :: b5))))) ++ u⟩ = none :=
      number_ne (by decide) (by decide) _ _
    simp only [jValue, alt, hn]
    cases hs : string ⟨col, '"' :: (b ++ (w0 ++ (b' ++ ['"']))) ++
        (b1 ++ ',' :: (b2 ++ (v ++ (b3 ++ ':' :: (b4 ++ '[' :: b5))))) ++ u⟩ with
    | none => rfl
    | some q =>
      obtain ⟨p, s4⟩ := q
      obtain ⟨n, hn, rfl, ht⟩ := string_took hs
      have hc : '"' ∉ b ∧ '"' ∉ w0 ∧ '"' ∉ b' := by
        have : List.count '"' b + (List.count '"' w0 + List.count '"' b') ≤ 0 := by
          simp only [Plain, List.count_cons_self, List.count_append, List.count_nil] at hR
          omega
        simp only [← List.count_eq_zero]
        omega
      have hlast : ∀ x, b ++ (w0 ++ b') ≠ x ++ ['\\'] := by
        intro x hx
        rcases List.eq_nil_or_concat b' with rfl | ⟨b'', e, rfl⟩
        · obtain ⟨w', c, rfl, hc, -⟩ := spelling_last hw0
          have : (b ++ w') ++ [c] = x ++ ['\\'] := by rw [← hx]; simp
          have := (List.append_inj' this rfl).2
          simp only [List.cons.injEq, and_true] at this
          exact hc this
        · have : (b ++ (w0 ++ b'')) ++ [e] = x ++ ['\\'] := by rw [← hx]; simp
          have := (List.append_inj' this rfl).2
          simp only [List.cons.injEq, and_true] at this
          exact blank_last hb' b'' e (by simp) this
      -- the attribute read by `string` ends exactly at the closing quote of the operator
      obtain ⟨ht1, ht2⟩ := ht
      have e1 : (b ++ (w0 ++ b')) ++ '"' :: (b1 ++ ',' :: (b2 ++ (v ++ (b3 ++ ':' :: (b4 ++ '[' :: b5)))) ++ u) =
          n ++ '"' :: s4.rest := by
        simp only [List.cons_append, List.append_assoc, List.nil_append, List.cons.injEq, true_and] at ht1
        simpa using ht1
      have hsplit := List.append_eq_append_iff.1 e1
      have hrest : s4.rest = b1 ++ ',' :: (b2 ++ (v ++ (b3 ++ ':' :: (b4 ++ '[' :: b5)))) ++ u := by
        rcases hsplit with ⟨a, ha1, ha2⟩ | ⟨a, ha1, ha2⟩
        · cases a with
          | nil => simp only [List.nil_append, List.cons.injEq, true_and] at ha2; exact ha2.symm
          | cons x a =>
            simp only [List.cons_append, List.cons.injEq] at ha2
            obtain ⟨rfl, -⟩ := ha2
            obtain ⟨x', hx'⟩ := name_quote hn _ _ ha1
            exact absurd hx' (hlast x')
        · cases a with
          | nil => simp only [List.nil_append, List.cons.injEq, true_and] at ha2; exact ha2
          | cons x a =>
            simp only [List.cons_append, List.cons.injEq] at ha2
            obtain ⟨rfl, -⟩ := ha2
            have : '"' ∈ b ++ (w0 ++ b') := by rw [ha1]; simp
            simp only [List.mem_append] at this
            tauto
      obtain ⟨c4, r4⟩ := s4
      simp only at hrest
      subst hrest
      simp only [List.append_assoc, List.cons_append]
      rw [skip_blank hb1 (tok_cons (by decide) (by decide)), lit_ne (by decide)]

theorem json_node_head {R b t is} (h : Json R .node b t is) : ∃ t', t = '{' :: t' := by
  cases h with
  | attr =>
    rename_i hh _ _
    obtain ⟨b1, w, b2, b3, rfl, -⟩ := spaced_nameHead hh
    exact ⟨_, rfl⟩
  | num =>
    rename_i hh _ _
    obtain ⟨b1, w, b2, b3, rfl, -⟩ := spaced_nameHead hh
    exact ⟨_, rfl⟩
  | gate =>
    rename_i hh _ _ _
    obtain ⟨b1, w, b2, b3, rfl, -⟩ := spaced_nameHead hh
    exact ⟨_, rfl⟩

theorem jNode_gate {op : Op} {f : ℕ} {s s' : PS} {p : Pair} (h0 : jObject jValue s = none)
    (h1 : op = .or → jObject (jGate .and (jNode f)) s = none) (h2 : jObject (jGate op (jNode f)) s = some (p, s')) :
    jNode (f + 1) s = some (p, s') := by
  cases op with
  | and => simp only [jNode, alt, h0, h2]
  | or => simp only [jNode, alt, h0, h1 rfl, h2]

theorem json_accepts {k b t is} (h : Json Plain k b t is) : JAccepts k b t is := by
  induction h with
  | attr b h n bl hh hn hbl =>
    intro fuel r hl
    obtain ⟨f, rfl⟩ : ∃ f, fuel = f + 1 := ⟨fuel - 1, by omega⟩
    refine ⟨.string n (nextCol (colAfter (column b) h) '"'), ?_, ?_⟩
    · have e : h ++ ('"' :: (n ++ '"' :: (bl ++ ['}']))) ++ r = h ++ ('"' :: (n ++ '"' :: (bl ++ '}' :: r))) := by simp
      rw [e]
      have hv : jValue ⟨colAfter (column b) h, '"' :: (n ++ '"' :: (bl ++ '}' :: r))⟩ =
          some (.string n (nextCol (colAfter (column b) h) '"'),
            ⟨colAfter (colAfter (column b) h) ('"' :: (n ++ ['"'])), bl ++ '}' :: r⟩) := by
        simp only [jValue, alt, string_name hn]
      have := jObject_head hh jValue (u := '"' :: (n ++ '"' :: (bl ++ '}' :: r))) (tok_cons (by decide) (by decide))
        (column b)
      rw [hv] at this
      simp only at this
      rw [skip_blank hbl (tok_cons (by decide) (by decide)), lit_one] at this
      simp only [jNode, alt, this]
      simp only [column_append, colAfter_append, colAfter]
    · simp [Pair.toItem, column_append, colAfter_append, colAfter]
  | num b h t bl hh ht hbl =>
    intro fuel r hl
    obtain ⟨f, rfl⟩ : ∃ f, fuel = f + 1 := ⟨fuel - 1, by omega⟩
    refine ⟨.number, ?_, by simp [Pair.toItem]⟩
    have hstop : Stop (bl ++ '}' :: r) := blank_stop hbl (by
      intro c hc; simp only [List.head?_cons, Option.some.injEq] at hc; subst hc; decide)
    have hth := term_head (.num [] t ht)
    have htt := term_tok (.num [] t ht) (bl ++ '}' :: r)
    have e : h ++ (t ++ (bl ++ ['}'])) ++ r = h ++ (t ++ (bl ++ '}' :: r)) := by simp
    rw [e]
    have hs : string ⟨colAfter (column b) h, t ++ (bl ++ '}' :: r)⟩ = none := by
      obtain ⟨sign, int, frac, exp, rfl, hsg, hi, -⟩ := (num_iff t).1 ht
      rcases hsg with rfl | rfl
      · obtain ⟨c, y, hc, h1, h2⟩ := intPart_head (r := (frac ++ exp) ++ (bl ++ '}' :: r)) hi
        have : c ≠ '"' := by rintro rfl; exact absurd h1 (by decide)
        have e : [] ++ (int ++ (frac ++ exp)) ++ (bl ++ '}' :: r) = c :: y := by simpa using hc
        rw [e]
        exact string_ne this _ _
      · exact string_ne (by decide) _ _
    have hv : jValue ⟨colAfter (column b) h, t ++ (bl ++ '}' :: r)⟩ =
        some (.number, ⟨colAfter (colAfter (column b) h) t, bl ++ '}' :: r⟩) := by
      simp only [jValue, alt, hs, number_num ht hstop]
    have := jObject_head hh jValue htt (column b)
    rw [hv] at this
    simp only at this
    rw [skip_blank hbl (tok_cons (by decide) (by decide)), lit_one] at this
    simp only [jNode, alt, this, column_append, colAfter_append, colAfter]
  | gate b h k t bl op is hh hk hbl hl ih =>
    intro fuel r hlen
    obtain ⟨f, rfl⟩ : ∃ f, fuel = f + 1 := ⟨fuel - 1, by omega⟩
    obtain ⟨b1, w, b2, b3, e1, -⟩ := spaced_nameHead hh
    obtain ⟨w', c1, c2, v, c3, c4, c5, e2, -, -, -, -, -, hw', -⟩ := spaced_childrenHead hk
    have hktok : ∀ u, Tok (k ++ u) := by
      intro u; rw [e2, List.append_assoc]; exact keyword_tok (keywords_op op) hw' _
    have etext : h ++ (k ++ (t ++ ']' :: (bl ++ ['}']))) ++ r = h ++ (k ++ (t ++ ']' :: (bl ++ '}' :: r))) := by simp
    have e0 : jObject jValue ⟨column b, h ++ (k ++ (t ++ ']' :: (bl ++ '}' :: r)))⟩ = none := by
      rw [jObject_head hh _ (hktok _)]
      exact jValue_gate hk _ _
    have e1' : op = .or → jObject (jGate .and (jNode f)) ⟨column b, h ++ (k ++ (t ++ ']' :: (bl ++ '}' :: r)))⟩ =
        none := by
      rintro rfl
      rw [jObject_head hh _ (hktok _)]
      simp only [jGate, alt, jGateHead_other (by decide : Op.and ≠ .or) hk, Option.bind_eq_bind, Option.bind_none]
    have hf : t.length < f := by
      rw [e1] at hlen
      simp only [List.length_cons, List.length_append] at hlen
      omega
    rcases ih f (bl ++ '}' :: r) hf with ⟨rfl, rfl⟩ | ⟨p, ps, s1, s2, h1, h2, h3, h4, t', ht'⟩
    · refine ⟨.gate op [], ?_, by simp [Pair.toItem, Pair.toItemL]⟩
      rw [etext]
      refine jNode_gate e0 e1' ?_
      rw [jObject_head hh _ (hktok _)]
      obtain ⟨s, hs, hs'⟩ := jGateHead_accepts hk (u := ']' :: (bl ++ '}' :: r)) (tok_cons (by decide) (by decide))
        (colAfter (column b) h)
      simp only [jGate, alt, List.nil_append, hs, Option.bind_eq_bind, Option.bind_some, hs', lit_one, Option.pure_def]
      rw [skip_blank hbl (tok_cons (by decide) (by decide)), lit_one]
      simp only [column_append, colAfter_append, colAfter]
    · refine ⟨.gate op (p :: ps), ?_, by simp [Pair.toItem, Pair.toItemL_eq, h4]⟩
      rw [etext]
      refine jNode_gate e0 e1' ?_
      rw [jObject_head hh _ (hktok _)]
      have htt : Tok (t ++ ']' :: (bl ++ '}' :: r)) := by rw [ht']; exact tok_cons (by decide) (by decide)
      obtain ⟨s, hs, hs'⟩ := jGateHead_accepts hk htt (colAfter (column b) h)
      have hcol : colAfter (colAfter (column b) h) k = column (b ++ (h ++ k)) := by
        simp only [column_append, colAfter_append]
      have hlit : lit [']'] ⟨colAfter (colAfter (column b) h) k, t ++ ']' :: (bl ++ '}' :: r)⟩ = none := by
        rw [ht', List.cons_append]; exact lit_ne (by decide) _ _ _
      have hstar : skip (star (jCommaNode (jNode f)) (skip s1)).2 =
          ⟨column (b ++ (h ++ k) ++ t), ']' :: (bl ++ '}' :: r)⟩ ∧ (star (jCommaNode (jNode f)) (skip s1)).1 = ps := by
        rcases h2.star with h5 | ⟨rfl, rfl, h5⟩
        · rw [h5]; exact ⟨h3, rfl⟩
        · rw [h5]
          refine ⟨?_, rfl⟩
          rw [h3, skip_tok (tok_cons (by decide) (by decide))]
      simp only [jGate, alt, hs, Option.bind_eq_bind, Option.bind_some, hs', hlit, Option.bind_none]
      rw [hcol, h1]
      simp only [Option.bind_some, hstar.1, hstar.2, lit_one, Option.pure_def]
      rw [skip_blank hbl (tok_cons (by decide) (by decide)), lit_one]
      simp only [column_append, colAfter_append, colAfter]
  | empty b => intro fuel r _; exact .inl ⟨rfl, rfl⟩
  | first b t u i is ht hu ih ihu =>
    intro fuel r hl
    simp only [List.length_append] at hl
    obtain ⟨p, h1, h2⟩ := ih fuel (u ++ ']' :: r) (by omega)
    obtain ⟨ps, s2, h3, h4, h5⟩ := ihu fuel r (by omega)
    obtain ⟨t', rfl⟩ := json_node_head ht
    refine .inr ⟨p, ps, _, s2, by rw [List.append_assoc]; exact h1, h3, by simpa using h4, ?_, ⟨_, rfl⟩⟩
    simp only [List.cons.injEq, and_true] at h2
    rw [h2, h5]
  | last b bl hbl =>
    intro fuel r _
    have hs := skip_blank (r := ']' :: r) hbl (tok_cons (by decide) (by decide)) (column b)
    refine ⟨[], _, .stop _ ?_, by rw [hs, column_append], rfl⟩
    rw [hs]
    simp [jCommaNode, lit]
  | next b bl bl' t u i is hbl hbl' ht hu ih ihu =>
    intro fuel r hl
    simp only [List.length_append, List.length_cons] at hl
    obtain ⟨p, h1, h2⟩ := ih fuel (u ++ ']' :: r) (by omega)
    obtain ⟨ps, s2, h3, h4, h5⟩ := ihu fuel r (by omega)
    obtain ⟨t', ht'⟩ := json_node_head ht
    refine ⟨p :: ps, s2, .step _ p _ ps _ ?_ ?_ h3, by simpa using h4, ?_⟩
    · simp only [List.append_assoc, List.cons_append]
      rw [skip_blank hbl (tok_cons (by decide) (by decide))]
      simp only [jCommaNode, lit_one, Option.bind_eq_bind, Option.bind_some]
      rw [skip_blank hbl' (by rw [ht']; exact tok_cons (by decide) (by decide))]
      simp only [column_append, colAfter_append, colAfter] at h1 ⊢
      exact h1
    · simp only [List.length_append, List.length_cons]; omega
    · simp only [List.cons.injEq, and_true] at h2
      simp [h2, h5]

theorem json_complete {text : Str} {i : Item} (h : JsonText Plain text i) {n : ℕ} (hn : text.length < n) :
    ∃ p, content (jNode n) text = some p ∧ i = p.toItem := by
  obtain ⟨bl, t, bl', rfl, hbl, hbl', hh⟩ := h
  obtain ⟨p, h1, h2⟩ := json_accepts hh n bl' (by simp only [List.length_append] at hn; omega)
  refine ⟨p, ?_, by simpa using h2⟩
  have hs : (skip ⟨column (bl ++ t), bl'⟩).rest = [] := by
    have : ∀ col, skip ⟨col, bl'⟩ = ⟨colAfter col bl', []⟩ := fun col => by
      simpa using skip_blank hbl' tok_nil col
    simp [this]
  have h0 : skip ⟨1, bl ++ (t ++ bl')⟩ = ⟨column bl, t ++ bl'⟩ := by
    obtain ⟨t', rfl⟩ := json_node_head hh
    rw [skip_blank hbl (r := '{' :: t' ++ bl') (tok_cons (by decide) (by decide))]
    have := column_append [] bl
    simp only [List.nil_append] at this
    rw [this]; rfl
  simp [content, h0, h1, hs]

end Rabe
