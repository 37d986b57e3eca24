import Verif.Spec.GrammarFirst
import Verif.Proof.GrammarJson

/-!
# The JSON parser against the JSON language with its preference
-/

namespace Rabe

open Pest

/-- Results of `node` are phrases. -/
def JNodeFirst (node : P Pair) : Prop := ∀ b s p s', s.col = column b → node s = some (p, s') →
  ∃ t, Took s t s' ∧ JsonFirst .node b t s'.rest [p.toItem]

theorem jStarTail_first {node : P Pair} (hn : JNodeFirst node) : ∀ n b s, s.col = column b →
    ∃ u, Took s u (skip (starTail (jCommaNode node) n s).2) ∧
      JsonFirst .tail b u (skip (starTail (jCommaNode node) n s).2).rest ((starTail (jCommaNode node) n s).1.map Pair.toItem) := by
  intro n
  induction n with
  | zero =>
    intro b s hb
    obtain ⟨bl, hbl, t⟩ := skip_took s
    exact ⟨bl, t, .last b bl _ hbl⟩
  | succ n ih =>
    intro b s hb
    obtain ⟨bl, hbl, t1⟩ := skip_took s
    simp only [starTail]
    split
    · exact ⟨bl, t1, .last b bl _ hbl⟩
    · rename_i p s' h
      obtain ⟨bl', s1, hbl', t2, h1⟩ := jCommaNode_took h
      have tt := t1.trans t2
      obtain ⟨t, t3, hh⟩ := hn _ _ _ _ (tt.col hb) h1
      obtain ⟨u, t4, hu⟩ := ih _ s' ((tt.trans t3).col hb)
      refine ⟨bl ++ ',' :: (bl' ++ (t ++ u)), by simpa using (tt.trans t3).trans t4, ?_⟩
      rw [t4.1] at hh
      exact .next b bl bl' t u _ _ _ hbl hbl' hh (by simpa using hu)

theorem jStar_first {node : P Pair} (hn : JNodeFirst node) {b s} (hb : s.col = column b) :
    ∃ u, Took s u (skip (star (jCommaNode node) (skip s)).2) ∧
      JsonFirst .tail b u (skip (star (jCommaNode node) (skip s)).2).rest ((star (jCommaNode node) (skip s)).1.map Pair.toItem) := by
  obtain ⟨bl, hbl, t1⟩ := skip_took s
  simp only [Pest.star]
  split
  · obtain ⟨bl2, hbl2, t2⟩ := skip_took (skip s)
    exact ⟨bl ++ bl2, t1.trans t2, .last b _ _ (blank_append hbl hbl2)⟩
  · rename_i p s' h
    obtain ⟨bl', s1, hbl', t2, h1⟩ := jCommaNode_took h
    have tt := t1.trans t2
    obtain ⟨t, t3, hh⟩ := hn _ _ _ _ (tt.col hb) h1
    obtain ⟨u, t4, hu⟩ := jStarTail_first hn s'.rest.length _ s' ((tt.trans t3).col hb)
    refine ⟨bl ++ ',' :: (bl' ++ (t ++ u)), by simpa using (tt.trans t3).trans t4, ?_⟩
    rw [t4.1] at hh
    exact .next b bl bl' t u _ _ _ hbl hbl' hh (by simpa using hu)

theorem jGate_first {op : Op} {node : P Pair} (hn : JNodeFirst node) {b s p s'} (hb : s.col = column b)
    (h : jGate op node s = some (p, s')) : ∃ k t is, Spaced (childrenHead (fun _ => True) op) k ∧
      Took s (k ++ (t ++ [']'])) s' ∧ JsonFirst .list (b ++ k) t (']' :: s'.rest) is ∧ p.toItem = .gate op is := by
  simp only [jGate, alt] at h
  split at h
  · rename_i r hr
    simp only [Option.some.injEq] at h
    subst h
    simp only [Option.bind_eq_bind, Option.bind_eq_some_iff, Option.pure_def, Option.some.injEq,
      Prod.mk.injEq] at hr
    obtain ⟨s1, h1, s2, h2, rfl, rfl⟩ := hr
    obtain ⟨k, hk, t1⟩ := jGateHead_took h1
    exact ⟨k, [], [], hk, t1.trans (.of_lit h2), .empty _ _, by simp [Pair.toItem, Pair.toItemL]⟩
  · simp only [Option.bind_eq_bind, Option.bind_eq_some_iff, Option.pure_def, Option.some.injEq,
      Prod.mk.injEq, Prod.exists] at h
    obtain ⟨s1, h1, q, s2, h2, s3, h3, rfl, rfl⟩ := h
    obtain ⟨k, hk, t1⟩ := jGateHead_took h1
    obtain ⟨t, t2, hh⟩ := hn _ _ _ _ (t1.col hb) h2
    obtain ⟨u, t3, hu⟩ := jStar_first hn (t2.col (t1.col hb))
    rw [(Took.of_lit h3).1] at hu
    have h5 := t3.trans (.of_lit h3)
    rw [h5.1] at hh
    refine ⟨k, t ++ u, _, hk, ?_, .first _ t u _ _ _ (by simpa using hh) (by simpa using hu),
      by simp [Pair.toItem, Pair.toItemL_eq]⟩
    have := t1.trans (t2.trans (t3.trans (.of_lit h3)))
    simpa using this

/-- An object that begins with an attribute is read as one. -/
theorem jObject_attr {h : Str} (hh : Spaced nameHead h) {u : Str} (hu : BeginsAttr u) (col : ℕ) :
    jObject jValue ⟨col, h ++ u⟩ ≠ none := by
  obtain ⟨n, bl, r, rfl, hn, hbl⟩ := hu
  rw [jObject_head hh jValue (tok_cons (by decide) (by decide))]
  simp only [jValue, alt, string_name hn]
  rw [skip_blank hbl (tok_cons (by decide) (by decide)), lit_one]
  simp

theorem jNodeFirst_gate {op : Op} {node : P Pair} (hn : JNodeFirst node) {b s p s'} (hb : s.col = column b)
    (h0 : jObject jValue s = none) (h : jObject (jGate op node) s = some (p, s')) :
    ∃ t, Took s t s' ∧ JsonFirst .node b t s'.rest [p.toItem] := by
  obtain ⟨h', s3, s4, bl, hh, t1, h4, hbl, t2⟩ := jObject_took h
  obtain ⟨k, t, is, hk, t3, hl, hp⟩ := jGate_first hn (t1.col hb) h4
  have tt := t1.trans (t3.trans t2)
  refine ⟨h' ++ (k ++ (t ++ ']' :: (bl ++ ['}']))), by simpa using tt, ?_⟩
  rw [hp]
  rw [t2.1] at hl
  refine .gate b h' k t bl _ op is hh hk hbl (fun ha => ?_) (by simpa using hl)
  have := jObject_attr hh ha s.col
  refine this ?_
  rw [← h0]
  congr 1
  rcases s with ⟨col, r⟩
  simp only [PS.mk.injEq, true_and]
  have := tt.1
  simp only at this
  rw [this]; simp

theorem jNodeFirst_value : JNodeFirst (jObject jValue) := by
  intro b s p s' hb h
  obtain ⟨h', s3, s4, bl, hh, t1, h4, hbl, t2⟩ := jObject_took h
  simp only [jValue, alt] at h4
  split at h4
  · rename_i r hr
    simp only [Option.some.injEq] at h4
    subst h4
    obtain ⟨n, hn, rfl, t3⟩ := string_took hr
    refine ⟨h' ++ ('"' :: (n ++ '"' :: (bl ++ ['}']))), by simpa using t1.trans (t3.trans t2), ?_⟩
    have := JsonFirst.attr b h' n bl s'.rest hh hn hbl
    rw [Pair.toItem, t1.col hb, ← column_append]
    simpa using this
  · obtain ⟨rfl, t, ht, t3⟩ := number_took h4
    exact ⟨h' ++ (t ++ (bl ++ ['}'])), t1.trans (t3.trans t2), .num b h' t bl _ hh ht hbl⟩

theorem jNodeFirst_jNode : ∀ n, JNodeFirst (jNode n) := by
  intro n
  induction n with
  | zero => intro b s p s' _ h; simp [jNode] at h
  | succ n ih =>
    intro b s p s' hb h
    simp only [jNode, alt] at h
    cases e : jObject jValue s with
    | some q =>
      simp only [e, Option.some.injEq] at h
      subst h
      exact jNodeFirst_value b s p s' hb e
    | none =>
      simp only [e] at h
      split at h
      · rename_i r hr
        simp only [Option.some.injEq] at h
        subst h
        exact jNodeFirst_gate ih hb e hr
      · exact jNodeFirst_gate ih hb e h

theorem jsonFirst_sound {n : ℕ} {text : Str} {p : Pair} (h : content (jNode n) text = some p) :
    JsonFirstText text p.toItem := by
  simp only [content, Option.bind_eq_bind, Option.bind_eq_some_iff, Prod.exists] at h
  obtain ⟨q, s, h1, h2⟩ := h
  split at h2
  · rename_i hnil
    simp only [Option.some.injEq] at h2
    subst h2
    obtain ⟨bl, hbl, t1⟩ := skip_took ⟨1, text⟩
    obtain ⟨t, t2, hh⟩ := jNodeFirst_jNode n bl _ _ _ (by simpa using t1.col (b := []) (by rfl)) h1
    obtain ⟨bl2, hbl2, t3⟩ := skip_took s
    have h3 := t3.1
    rw [hnil, List.append_nil] at h3
    rw [h3] at hh
    refine ⟨bl, t, bl2, ?_, hbl, hbl2, hh⟩
    have := (t1.trans (t2.trans t3)).1
    rw [hnil] at this
    simpa using this
  · simp at h2

/-- An object that begins with an operator and not with an attribute is not read as an attribute. -/
theorem jValue_gate_first {R op k} (hk : Spaced (childrenHead R op) k) (u : Str) (hu : ¬ BeginsAttr (k ++ u)) (col : ℕ) :
    (match jValue ⟨col, k ++ u⟩ with
      | none => none
      | some (p, s4) => match lit ['}'] (skip s4) with
        | none => none
        | some s5 => some ((p, s5) : Pair × PS)) = none := by
  obtain ⟨w, b1, b2, v, b3, b4, b5, hkw, hb1, hb2, hb3, hb4, hb5, hw, hR, hv⟩ := spaced_childrenHead hk
  have hn : number ⟨col, k ++ u⟩ = none := by
    subst hkw
    rcases hw with hw | ⟨b, w0, b', hw0, hb, hb', rfl⟩
    · have hns : ∃ c cs, w = c :: cs ∧ isDigit c = false ∧ c ≠ '-' := by
        cases op <;> simp only [Op.spellings, List.mem_cons, List.not_mem_nil, or_false] at hw <;>
          rcases hw with rfl | rfl | rfl <;> exact ⟨_, _, rfl, by decide, by decide⟩
      obtain ⟨c, cs, rfl, h2, h3⟩ := hns
      exact number_ne h2 h3 _ _
    · exact number_ne (by decide) (by decide) _ _
  simp only [jValue, alt, hn]
  cases hs : string ⟨col, k ++ u⟩ with
  | none => rfl
  | some q =>
    obtain ⟨p, s4⟩ := q
    obtain ⟨n, hn, rfl, ht⟩ := string_took hs
    obtain ⟨bl, hbl, t2⟩ := skip_took s4
    simp only
    cases hl : lit ['}'] (skip s4) with
    | none => rfl
    | some s5 =>
      exfalso
      refine hu ⟨n, bl, s5.rest, ?_, hn, hbl⟩
      have := (ht.trans (t2.trans (.of_lit hl))).1
      simpa using this

/-- The parser accepts the phrase. -/
def JAcceptsFirst : JKind → Str → Str → Str → List Item → Prop
  | .node, b, t, r, is => ∀ fuel, t.length < fuel →
      ∃ p, jNode fuel ⟨column b, t ++ r⟩ = some (p, ⟨column (b ++ t), r⟩) ∧ is = [p.toItem]
  | .list, b, t, r, is => ∀ fuel r', r = ']' :: r' → t.length < fuel → (t = [] ∧ is = []) ∨
      ∃ p ps s1 s2, jNode fuel ⟨column b, t ++ r⟩ = some (p, s1) ∧
        Run (jCommaNode (jNode fuel)) s1 ps s2 ∧ skip s2 = ⟨column (b ++ t), r⟩ ∧
        is = p.toItem :: ps.map Pair.toItem ∧ ∃ t', t = '{' :: t'
  | .tail, b, t, r, is => ∀ fuel r', r = ']' :: r' → t.length < fuel →
      ∃ ps s2, Run (jCommaNode (jNode fuel)) ⟨column b, t ++ r⟩ ps s2 ∧
        skip s2 = ⟨column (b ++ t), r⟩ ∧ is = ps.map Pair.toItem

theorem jsonFirst_node_head {b t r is} (h : JsonFirst .node b t r is) : ∃ t', t = '{' :: t' := by
  cases h with
  | attr =>
    rename_i hh _ _
    obtain ⟨b1, w, b2, b3, rfl, -⟩ := spaced_nameHead hh
    exact ⟨_, rfl⟩
  | num =>
    rename_i hh _ _
    obtain ⟨b1, w, b2, b3, rfl, -⟩ := spaced_nameHead hh
    exact ⟨_, rfl⟩
  | gate =>
    rename_i hh _ _ _ _
    obtain ⟨b1, w, b2, b3, rfl, -⟩ := spaced_nameHead hh
    exact ⟨_, rfl⟩

theorem jsonFirst_accepts {k b t r is} (h : JsonFirst k b t r is) : JAcceptsFirst k b t r is := by
  induction h with
  | attr b h n bl r hh hn hbl =>
    intro fuel hl
    obtain ⟨f, rfl⟩ : ∃ f, fuel = f + 1 := ⟨fuel - 1, by omega⟩
    refine ⟨.string n (nextCol (colAfter (column b) h) '"'), ?_, ?_⟩
    · have e : h ++ ('"' :: (n ++ '"' :: (bl ++ ['}']))) ++ r = h ++ ('"' :: (n ++ '"' :: (bl ++ '}' :: r))) := by simp
      rw [e]
      have hv : jValue ⟨colAfter (column b) h, '"' :: (n ++ '"' :: (bl ++ '}' :: r))⟩ =
          some (.string n (nextCol (colAfter (column b) h) '"'),
            ⟨colAfter (colAfter (column b) h) ('"' :: (n ++ ['"'])), bl ++ '}' :: r⟩) := by
        simp only [jValue, alt, string_name hn]
      have := jObject_head hh jValue (u := '"' :: (n ++ '"' :: (bl ++ '}' :: r))) (tok_cons (by decide) (by decide))
        (column b)
      rw [hv] at this
      simp only at this
      rw [skip_blank hbl (tok_cons (by decide) (by decide)), lit_one] at this
      simp only [jNode, alt, this]
      simp only [column_append, colAfter_append, colAfter]
    · simp [Pair.toItem, column_append, colAfter_append, colAfter]
  | num b h t bl r hh ht hbl =>
    intro fuel hl
    obtain ⟨f, rfl⟩ : ∃ f, fuel = f + 1 := ⟨fuel - 1, by omega⟩
    refine ⟨.number, ?_, by simp [Pair.toItem]⟩
    have hstop : Stop (bl ++ '}' :: r) := blank_stop hbl (by
      intro c hc; simp only [List.head?_cons, Option.some.injEq] at hc; subst hc; decide)
    have hth := term_head (.num [] t ht)
    have htt := term_tok (.num [] t ht) (bl ++ '}' :: r)
    have e : h ++ (t ++ (bl ++ ['}'])) ++ r = h ++ (t ++ (bl ++ '}' :: r)) := by simp
    rw [e]
    have hs : string ⟨colAfter (column b) h, t ++ (bl ++ '}' :: r)⟩ = none := by
      obtain ⟨sign, int, frac, exp, rfl, hsg, hi, -⟩ := (num_iff t).1 ht
      rcases hsg with rfl | rfl
      · obtain ⟨c, y, hc, h1, h2⟩ := intPart_head (r := (frac ++ exp) ++ (bl ++ '}' :: r)) hi
        have : c ≠ '"' := by rintro rfl; exact absurd h1 (by decide)
        have e : [] ++ (int ++ (frac ++ exp)) ++ (bl ++ '}' :: r) = c :: y := by simpa using hc
        rw [e]
        exact string_ne this _ _
      · exact string_ne (by decide) _ _
    have hv : jValue ⟨colAfter (column b) h, t ++ (bl ++ '}' :: r)⟩ =
        some (.number, ⟨colAfter (colAfter (column b) h) t, bl ++ '}' :: r⟩) := by
      simp only [jValue, alt, hs, number_num ht hstop]
    have := jObject_head hh jValue htt (column b)
    rw [hv] at this
    simp only at this
    rw [skip_blank hbl (tok_cons (by decide) (by decide)), lit_one] at this
    simp only [jNode, alt, this, column_append, colAfter_append, colAfter]
  | gate b h k t bl r op is hh hk hbl hna hl ih =>
    intro fuel hlen
    obtain ⟨f, rfl⟩ : ∃ f, fuel = f + 1 := ⟨fuel - 1, by omega⟩
    obtain ⟨b1, w, b2, b3, e1, -⟩ := spaced_nameHead hh
    obtain ⟨w', c1, c2, v, c3, c4, c5, e2, -, -, -, -, -, hw', -⟩ := spaced_childrenHead hk
    have hktok : ∀ u, Tok (k ++ u) := by
      intro u; rw [e2, List.append_assoc]; exact keyword_tok (keywords_op op) hw' _
    have etext : h ++ (k ++ (t ++ ']' :: (bl ++ ['}']))) ++ r = h ++ (k ++ (t ++ ']' :: (bl ++ '}' :: r))) := by simp
    have e0 : jObject jValue ⟨column b, h ++ (k ++ (t ++ ']' :: (bl ++ '}' :: r)))⟩ = none := by
      rw [jObject_head hh _ (hktok _)]
      exact jValue_gate_first hk _ hna _
    have e1' : op = .or → jObject (jGate .and (jNode f)) ⟨column b, h ++ (k ++ (t ++ ']' :: (bl ++ '}' :: r)))⟩ =
        none := by
      rintro rfl
      rw [jObject_head hh _ (hktok _)]
      simp only [jGate, alt, jGateHead_other (by decide : Op.and ≠ .or) hk, Option.bind_eq_bind, Option.bind_none]
    have hf : t.length < f := by
      rw [e1] at hlen
      simp only [List.length_cons, List.length_append] at hlen
      omega
    rcases ih f (bl ++ '}' :: r) rfl hf with ⟨rfl, rfl⟩ | ⟨p, ps, s1, s2, h1, h2, h3, h4, t', ht'⟩
    · refine ⟨.gate op [], ?_, by simp [Pair.toItem, Pair.toItemL]⟩
      rw [etext]
      refine jNode_gate e0 e1' ?_
      rw [jObject_head hh _ (hktok _)]
      obtain ⟨s, hs, hs'⟩ := jGateHead_accepts hk (u := ']' :: (bl ++ '}' :: r)) (tok_cons (by decide) (by decide))
        (colAfter (column b) h)
      simp only [jGate, alt, List.nil_append, hs, Option.bind_eq_bind, Option.bind_some, hs', lit_one, Option.pure_def]
      rw [skip_blank hbl (tok_cons (by decide) (by decide)), lit_one]
      simp only [column_append, colAfter_append, colAfter]
    · refine ⟨.gate op (p :: ps), ?_, by simp [Pair.toItem, Pair.toItemL_eq, h4]⟩
      rw [etext]
      refine jNode_gate e0 e1' ?_
      rw [jObject_head hh _ (hktok _)]
      have htt : Tok (t ++ ']' :: (bl ++ '}' :: r)) := by rw [ht']; exact tok_cons (by decide) (by decide)
      obtain ⟨s, hs, hs'⟩ := jGateHead_accepts hk htt (colAfter (column b) h)
      have hcol : colAfter (colAfter (column b) h) k = column (b ++ (h ++ k)) := by
        simp only [column_append, colAfter_append]
      have hlit : lit [']'] ⟨colAfter (colAfter (column b) h) k, t ++ ']' :: (bl ++ '}' :: r)⟩ = none := by
        rw [ht', List.cons_append]; exact lit_ne (by decide) _ _ _
      have hstar : skip (star (jCommaNode (jNode f)) (skip s1)).2 =
          ⟨column (b ++ (h ++ k) ++ t), ']' :: (bl ++ '}' :: r)⟩ ∧ (star (jCommaNode (jNode f)) (skip s1)).1 = ps := by
        rcases h2.star with h5 | ⟨rfl, rfl, h5⟩
        · rw [h5]; exact ⟨h3, rfl⟩
        · rw [h5]
          refine ⟨?_, rfl⟩
          rw [h3, skip_tok (tok_cons (by decide) (by decide))]
      simp only [jGate, alt, hs, Option.bind_eq_bind, Option.bind_some, hs', hlit, Option.bind_none]
      rw [hcol, h1]
      simp only [Option.bind_some, hstar.1, hstar.2, lit_one, Option.pure_def]
      rw [skip_blank hbl (tok_cons (by decide) (by decide)), lit_one]
      simp only [column_append, colAfter_append, colAfter]
  | empty b r => intro fuel r' _ _; exact .inl ⟨rfl, rfl⟩
  | first b t u r i is ht hu ih ihu =>
    intro fuel r' hr hl
    simp only [List.length_append] at hl
    obtain ⟨p, h1, h2⟩ := ih fuel (by omega)
    obtain ⟨ps, s2, h3, h4, h5⟩ := ihu fuel r' hr (by omega)
    obtain ⟨t', rfl⟩ := jsonFirst_node_head ht
    refine .inr ⟨p, ps, _, s2, by rw [List.append_assoc]; exact h1, h3, by simpa using h4, ?_, ⟨_, rfl⟩⟩
    simp only [List.cons.injEq, and_true] at h2
    rw [h2, h5]
  | last b bl r hbl =>
    intro fuel r' hr _
    subst hr
    have hs := skip_blank (r := ']' :: r') hbl (tok_cons (by decide) (by decide)) (column b)
    refine ⟨[], _, .stop _ ?_, by rw [hs, column_append], rfl⟩
    rw [hs]
    simp [jCommaNode, lit]
  | next b bl bl' t u r i is hbl hbl' ht hu ih ihu =>
    intro fuel r' hr hl
    simp only [List.length_append, List.length_cons] at hl
    obtain ⟨p, h1, h2⟩ := ih fuel (by omega)
    obtain ⟨ps, s2, h3, h4, h5⟩ := ihu fuel r' hr (by omega)
    obtain ⟨t', ht'⟩ := jsonFirst_node_head ht
    refine ⟨p :: ps, s2, .step _ p _ ps _ ?_ ?_ h3, by simpa using h4, ?_⟩
    · simp only [List.append_assoc, List.cons_append]
      rw [skip_blank hbl (tok_cons (by decide) (by decide))]
      simp only [jCommaNode, lit_one, Option.bind_eq_bind, Option.bind_some]
      rw [skip_blank hbl' (by rw [ht']; exact tok_cons (by decide) (by decide))]
      simp only [column_append, colAfter_append, colAfter] at h1 ⊢
      exact h1
    · simp only [List.length_append, List.length_cons]; omega
    · simp only [List.cons.injEq, and_true] at h2
      simp [h2, h5]

theorem jsonFirst_complete {text : Str} {i : Item} (h : JsonFirstText text i) {n : ℕ} (hn : text.length < n) :
    ∃ p, content (jNode n) text = some p ∧ i = p.toItem := by
  obtain ⟨bl, t, bl', rfl, hbl, hbl', hh⟩ := h
  obtain ⟨p, h1, h2⟩ := jsonFirst_accepts hh n (by simp only [List.length_append] at hn; omega)
  refine ⟨p, ?_, by simpa using h2⟩
  have hs : (skip ⟨column (bl ++ t), bl'⟩).rest = [] := by
    have : ∀ col, skip ⟨col, bl'⟩ = ⟨colAfter col bl', []⟩ := fun col => by
      simpa using skip_blank hbl' tok_nil col
    simp [this]
  have h0 : skip ⟨1, bl ++ (t ++ bl')⟩ = ⟨column bl, t ++ bl'⟩ := by
    obtain ⟨t', rfl⟩ := jsonFirst_node_head hh
    rw [skip_blank hbl (r := '{' :: t' ++ bl') (tok_cons (by decide) (by decide))]
    have := column_append [] bl
    simp only [List.nil_append] at this
    rw [this]; rfl
  simp [content, h0, h1, hs]

end Rabe
