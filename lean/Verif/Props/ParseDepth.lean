import Verif.Model.PestDepth
import Verif.Props.ParseSteps

/-!
# How deeply parsing nests (C91)
-/

namespace Rabe

open Pest

namespace Depth

open Steps

/-! ## Height of access trees -/

mutual
/-- Number of nodes on the longest path of an access tree, from the root to a leaf or to a gate without operands. -/
def height : Pol → ℕ
  | .leaf _ _ => 1
  | .gate _ cs => 1 + heightL cs
/-- The largest height in a list of access trees. -/
def heightL : List Pol → ℕ
  | [] => 0
  | c :: cs => max (height c) (heightL cs)
end

theorem height_toPol : ∀ p : Pair, height p.toPol = p.convDepth := by
  intro p
  induction p using Pair.ind with
  | hs s c => simp [Pair.toPol, height, Pair.convDepth]
  | hn => simp [Pair.toPol, height, Pair.convDepth]
  | hg op cs ih =>
    simp only [Pair.toPol, height, Pair.convDepth]
    congr 1
    induction cs with
    | nil => rfl
    | cons c cs ihc =>
      simp only [Pair.toPolL, heightL, Pair.convDepthL, ih c (by simp), ihc fun c hc => ih c (by simp [hc])]

/-! ## JSON: the exact nesting for accepted texts -/

/-- When a list is closed here, the last attempt to read a further element did not enter `node`. -/
theorem comma_closed {c : PS → ℕ} {s s' : PS} (h : lit [']'] (skip s) = some s') :
    jCommaNodeDepth c (skip s) = 0 ∧ jCommaNodeDepth c s = 0 := by
  have h1 : lit [','] (skip s) = none := by
    have := (Took.of_lit h).1
    rcases hs : skip s with ⟨col, r⟩
    rw [hs] at this
    simp only [List.cons_append, List.nil_append] at this
    subst this
    exact lit_ne (by decide) _ _ _
  refine ⟨by simp [jCommaNodeDepth, h1], ?_⟩
  cases e : lit [','] s with
  | none => simp [jCommaNodeDepth, e]
  | some s1 =>
    have := (Took.of_lit e).1
    rcases s with ⟨col, r⟩
    simp only [List.cons_append, List.nil_append] at this
    subst this
    rw [skip_tok (tok_cons (by decide) (by decide)), e] at h1
    cases h1
/-- At most one of the two gates reads beyond its operator. -/
theorem gates_excl {x : P Pair} {c : PS → ℕ} (s : PS) :
    jObjectDepth (jGateDepth .and x c) s = 0 ∨
      jObjectDepth (jGateDepth .or x c) s = 0 ∧ jObject (jGate .or x) s = none := by
  simp only [jObjectDepth, jObject, Option.bind_eq_bind]
  cases lit ['{'] s with
  | none => simp
  | some s1 =>
    simp only [Option.bind_some]
    cases e2 : jName (skip s1) with
    | none => simp
    | some s2 =>
      simp only [Option.bind_some]
      cases e3 : lit [':'] (skip s2) with
      | none => simp
      | some s3 =>
        simp only [Option.bind_some]
        cases e4 : opInner .and (skip s3) with
        | none => left; simp [jGateDepth, jGateHead, e4]
        | some s4 =>
          right
          have : opInner .or (skip s3) = none := by
            rw [opInner_eq] at e4 ⊢
            obtain ⟨t, ht, hk⟩ := word_took e4
            rcases hs : skip s3 with ⟨col, r⟩
            rw [hs] at hk
            have := hk.1
            simp only at this
            subst this
            exact word_disjoint (keywords_op .or) (keywords_op .and) (by simp [Op.spellings]) ht _ _
          simp [jGateDepth, jGate, alt, jGateHead, this]
/-- `c` deeps the nodes of the tree a success returns, but for `k` of them. -/
def Deeps (k : ℕ) (x : P Pair) (c : PS → ℕ) : Prop := ∀ s p s', x s = some (p, s') → c s + k = p.convDepth

theorem deeps_comma {x : P Pair} {c : PS → ℕ} (h : Deeps 0 x c) : Deeps 0 (jCommaNode x) (jCommaNodeDepth c) := by
  intro s p s' hs
  simp only [jCommaNode, Option.bind_eq_bind, Option.bind_eq_some_iff] at hs
  obtain ⟨s1, h1, h2⟩ := hs
  simp only [jCommaNodeDepth, h1]
  exact h _ _ _ h2

theorem deeps_starTail {x : P Pair} {c : PS → ℕ} (h : Deeps 0 x c) : ∀ n s,
    c (skip (starTail x n s).2) = 0 → starTailDepth x c n s = Pair.convDepthL (starTail x n s).1 := by
  intro n
  induction n with
  | zero => intro s _; simp [starTailDepth, starTail, Pair.convDepthL]
  | succ n ih =>
    intro s
    simp only [starTailDepth, starTail]
    cases e : x (skip s) with
    | none => simp [Pair.convDepthL]
    | some q =>
      obtain ⟨p, s'⟩ := q
      have h1 := h _ _ _ e
      have h2 := ih s'
      simp only [Pair.convDepthL]
      intro h3
      rw [h2 h3]
      omega

theorem deeps_star {x : P Pair} {c : PS → ℕ} (h : Deeps 0 x c) (s : PS)
    (h0 : c (skip (Pest.star x s).2) = 0) (h1 : c (Pest.star x s).2 = 0) :
    starDepth x c s = Pair.convDepthL (Pest.star x s).1 := by
  simp only [starDepth, Pest.star] at h0 h1 ⊢
  cases e : x s with
  | none => simp only [e] at h1; simp [h1, Pair.convDepthL]
  | some q =>
    obtain ⟨p, s'⟩ := q
    have h2 := h _ _ _ e
    simp only [e] at h0
    simp only [deeps_starTail h _ _ h0, Pair.convDepthL]
    omega

theorem deeps_gate {op : Op} {x : P Pair} {c : PS → ℕ} (h : Deeps 0 x c) :
    Deeps 1 (jGate op x) (jGateDepth op x c) := by
  intro s p s' hs
  simp only [jGate, alt, Option.bind_eq_bind] at hs
  simp only [jGateDepth]
  cases e : jGateHead op s with
  | none => simp [e] at hs
  | some s1 =>
    simp only [e, Option.bind_some] at hs
    cases e2 : lit [']'] (skip s1) with
    | some s2 =>
      simp only [e2, Option.bind_some, Option.pure_def, Option.some.injEq, Prod.mk.injEq] at hs
      obtain ⟨rfl, -⟩ := hs
      simp [e2, Pair.convDepth, Pair.convDepthL]
    | none =>
      simp only [e2, Option.bind_none, Option.bind_eq_some_iff, Prod.exists, Option.pure_def, Option.some.injEq,
        Prod.mk.injEq] at hs
      obtain ⟨q, s2, h1, s3, h2, rfl, -⟩ := hs
      have h3 := comma_closed (c := c) h2
      have h4 := deeps_star (deeps_comma h) (skip s2) h3.1 h3.2
      have h5 := h _ _ _ h1
      simp only [e2, h1, h4, Pair.convDepth, Pair.convDepthL]
      omega

theorem deeps_object {k : ℕ} {x : P Pair} {c : PS → ℕ} (h : Deeps k x c) : Deeps k (jObject x) (jObjectDepth c) := by
  intro s p s' hs
  simp only [jObject, Option.bind_eq_bind, Option.bind_eq_some_iff, Prod.exists, Option.pure_def, Option.some.injEq,
    Prod.mk.injEq] at hs
  obtain ⟨s1, h1, s2, h2, s3, h3, q, s4, h4, s5, -, rfl, -⟩ := hs
  simp only [jObjectDepth, h1, h2, h3]
  exact h _ _ _ h4

theorem deeps_value : Deeps 1 jValue fun _ => 0 := by
  intro s p s' h
  simp only [jValue, alt] at h
  cases e : string s with
  | some q =>
    simp only [e, Option.some.injEq] at h
    subst h
    obtain ⟨_, _, rfl, _⟩ := string_took e
    rfl
  | none =>
    simp only [e] at h
    obtain ⟨rfl, _⟩ := number_took h
    rfl

theorem jNode_deeps : ∀ n, Deeps 0 (jNode n) (jNodeDepth n) := by
  intro n
  induction n with
  | zero => intro s p s' h; simp [jNode] at h
  | succ n ih =>
    intro s p s' h
    have hx := gates_excl (x := jNode n) (c := jNodeDepth n) s
    have hz : jObjectDepth (fun _ => 0) s = 0 := by
      simp only [jObjectDepth]; repeat' (first | rfl | split)
    simp only [jNode, alt] at h
    simp only [jNodeDepth, altDepth, hz]
    cases e1 : jObject jValue s with
    | some q =>
      simp only [e1, Option.some.injEq] at h
      subst h
      have := deeps_object deeps_value _ _ _ e1
      simp only; omega
    | none =>
      simp only [e1] at h
      cases e2 : jObject (jGate .and (jNode n)) s with
      | some q =>
        simp only [e2, Option.some.injEq] at h
        subst h
        have := deeps_object (deeps_gate ih) _ _ _ e2
        simp only; omega
      | none =>
        simp only [e2] at h
        have := deeps_object (deeps_gate ih) _ _ _ h
        rcases hx with hx | hx
        · simp only; omega
        · rw [hx.2] at h; cases h
/-! ## Human language: the exact number for accepted texts -/

/-- `Nests k before t n`: reading the phrase `t` of category `k` (as in `Human`) nests `n` calls of `node`. Each bracket is
one `node`; operands standing side by side are read one after the other. -/
inductive Nests : HKind → Str → Str → List Item → ℕ → Prop where
  | attr (b n) : Name n → Nests .term b ('"' :: (n ++ ['"'])) [.attr n (column (b ++ ['"']))] 0
  | num (b t) : Num t → Nests .term b t [.num] 0
  | bracket (b o bl t bl' c i k) : o ∈ ['(', '[', '{'] → c ∈ [')', ']', '}'] → Blank bl → Blank bl' →
      Nests .node (b ++ o :: bl) t [i] k → Nests .term b (o :: (bl ++ (t ++ (bl' ++ [c])))) [i] k
  | single (b t i k) : Nests .term b t [i] k → Nests .node b t [i] (1 + k)
  | gate (b t u op i j is k l) : Nests .term b t [i] k → Nests (.tail op) (b ++ t) u (j :: is) l →
      Nests .node b (t ++ u) [.gate op (i :: j :: is)] (1 + max k l)
  | last (b op) : Nests (.tail op) b [] [] 0
  | next (b bl w bl' t u op i is k l) : Blank bl → Blank bl' → Word op.spellings w →
      Nests .term (b ++ (bl ++ (w ++ bl'))) t [i] k → Nests (.tail op) (b ++ (bl ++ (w ++ (bl' ++ t)))) u is l →
      Nests (.tail op) b (bl ++ (w ++ (bl' ++ (t ++ u)))) (i :: is) (max k l)

theorem Nests.human {k b t is n} (h : Nests k b t is n) : Human k b t is := by
  induction h with
  | attr b n h => exact .attr b n h
  | num b t h => exact .num b t h
  | bracket b o bl t bl' c i k ho hc h1 h2 _ ih => exact .bracket b o bl t bl' c i ho hc h1 h2 ih
  | single b t i k _ ih => exact .single b t i ih
  | gate b t u op i j is k l _ _ ih ih' => exact .gate b t u op i j is ih ih'
  | last b op => exact .last b op
  | next b bl w bl' t u op i is k l h1 h2 hw _ _ ih ih' => exact .next b bl w bl' t u op i is h1 h2 hw ih ih'

theorem exists_nests {k b t is} (h : Human k b t is) : ∃ n, Nests k b t is n := by
  induction h with
  | attr b n h => exact ⟨_, .attr b n h⟩
  | num b t h => exact ⟨_, .num b t h⟩
  | bracket b o bl t bl' c i ho hc h1 h2 _ ih =>
    obtain ⟨n, ih⟩ := ih; exact ⟨_, .bracket b o bl t bl' c i n ho hc h1 h2 ih⟩
  | single b t i _ ih => obtain ⟨n, ih⟩ := ih; exact ⟨_, .single b t i n ih⟩
  | gate b t u op i j is _ _ ih ih' =>
    obtain ⟨n, ih⟩ := ih; obtain ⟨m, ih'⟩ := ih'; exact ⟨_, .gate b t u op i j is n m ih ih'⟩
  | last b op => exact ⟨_, .last b op⟩
  | next b bl w bl' t u op i is h1 h2 hw _ _ ih ih' =>
    obtain ⟨n, ih⟩ := ih; obtain ⟨m, ih'⟩ := ih'
    exact ⟨_, .next b bl w bl' t u op i is n m h1 h2 hw ih ih'⟩

/-- What is to be shown for a phrase. -/
def Reaches : HKind → Str → Str → ℕ → Prop
  | .term, b, t, n => ∀ fuel r, Stop r → t.length ≤ fuel →
      hTermDepth (hNode fuel) (hNodeDepth fuel) ⟨column b, t ++ r⟩ = n
  | .node, b, t, n => ∀ fuel r, (∀ op, Follow op r) → t.length < fuel → hNodeDepth fuel ⟨column b, t ++ r⟩ = n
  | .tail op, b, t, n => ∀ fuel r K, Follow op r → t.length ≤ fuel → t.length ≤ K →
      starTailDepth (hOpTerm op (hNode fuel)) (hOpTermDepth op (hNode fuel) (hNodeDepth fuel)) K
        ⟨column b, t ++ r⟩ = n

theorem opTermDepth_none {op : Op} {r : Str} (h : Follow op r) (node : P Pair) (c : PS → ℕ) (col : ℕ) :
    hOpTermDepth op node c (skip ⟨col, r⟩) = 0 := by
  obtain ⟨bl, r', rfl, hbl, ht, hw⟩ := h.noOp
  simp [skip_blank hbl ht, hOpTermDepth, opInner_eq, hw]

theorem skip_rest_nil {s : PS} (h : s.rest.length = 0) : (skip s).rest.length = 0 := by
  have := skip_le s; omega

/-- The bound on the number of repetitions does not matter once it reaches the number of characters left. -/
theorem starTailDepth_stable {x : P Pair} {c : PS → ℕ}
    (hx : ∀ s p s', x s = some (p, s') → s'.rest.length < s.rest.length)
    (hc : ∀ s : PS, s.rest.length = 0 → c s = 0) : ∀ K K' s, s.rest.length ≤ K → s.rest.length ≤ K' →
    starTailDepth x c K s = starTailDepth x c K' s := by
  have key : ∀ K s, s.rest.length = 0 → starTailDepth x c K s = 0 := by
    intro K s hs
    cases K with
    | zero => rfl
    | succ K =>
      have h0 := skip_rest_nil hs
      simp only [starTailDepth, hc _ h0]
      cases e : x (skip s) with
      | none => rfl
      | some q => have := hx _ q.1 q.2 e; omega
  intro K
  induction K with
  | zero => intro K' s h _; rw [key 0 s (by omega), key K' s (by omega)]
  | succ K ih =>
    intro K' s h h'
    cases K' with
    | zero => rw [key 0 s (by omega), key _ s (by omega)]
    | succ K' =>
      simp only [starTailDepth]
      cases e : x (skip s) with
      | none => rfl
      | some q =>
        have h1 := hx _ q.1 q.2 e
        have h2 := skip_le s
        simp only [ih K' q.2 (by omega) (by omega)]

theorem hOpTermDepth_nil {op : Op} {node : P Pair} {c : PS → ℕ} (s : PS) (h : s.rest.length = 0) :
    hOpTermDepth op node c s = 0 := by
  rcases s with ⟨col, r⟩
  obtain rfl : r = [] := List.length_eq_zero_iff.1 h
  have : opInner op ⟨col, []⟩ = none := by
    rw [opInner_eq]
    exact word_none (by cases op <;> simp [Op.spellings]) (by simp) col
  simp [hOpTermDepth, this]

/-- A gate reads its first operand and then the others. -/
theorem gateDepth {op : Op} {node : P Pair} (hn : Good node) {c : PS → ℕ} {s s1 : PS} {p : Pair} {K : ℕ}
    (h : hTerm node s = some (p, s1)) (hK : s1.rest.length ≤ K) :
    hGateDepth op node c s =
      max (hTermDepth node c s) (starTailDepth (hOpTerm op node) (hOpTermDepth op node c) K s1) := by
  have hlt : ∀ s p s', hOpTerm op node s = some (p, s') → s'.rest.length < s.rest.length :=
    fun s p s' h => by have := hOpTerm_lt hn h; omega
  rw [starTailDepth_stable hlt hOpTermDepth_nil K (s1.rest.length + 2) s1 hK (by omega)]
  simp only [hGateDepth, h, starTailDepth]
  congr 2
  cases e : hOpTerm op node (skip s1) with
  | none => rfl
  | some q =>
    obtain ⟨p2, s2⟩ := q
    simp only [starDepth]
    congr 1
    cases e2 : hOpTerm op node (skip s2) with
    | none => rfl
    | some q2 =>
      obtain ⟨p3, s3⟩ := q2
      have h1 := hlt _ _ _ e
      have h2 := hlt _ _ _ e2
      have h3 := skip_le s1
      have h4 := skip_le s2
      exact starTailDepth_stable hlt hOpTermDepth_nil _ _ _ le_rfl (by omega)

theorem follow_tail {op : Op} {r : Str} (h : Follow op r) (node : P Pair) (c : PS → ℕ) (col K : ℕ) :
    starTailDepth (hOpTerm op node) (hOpTermDepth op node c) K ⟨col, r⟩ = 0 := by
  cases K with
  | zero => rfl
  | succ K => simp only [starTailDepth, opTermDepth_none h, h.opTerm_none, max_self]

theorem nests_reaches {k b t is n} (h : Nests k b t is n) : Reaches k b t n := by
  induction h with
  | attr b n hn =>
    intro fuel r _ _
    simp only [List.cons_append, List.append_assoc, List.nil_append, hTermDepth, hValueDepth, hValue, alt, altDepth,
      string_name hn, max_self]
  | num b t ht =>
    intro fuel r hr _
    have hs : string ⟨column b, t ++ r⟩ = none := by
      obtain ⟨sign, int, frac, exp, rfl, hsg, hi, -⟩ := (num_iff t).1 ht
      rcases hsg with rfl | rfl
      · obtain ⟨c, y, hc, h1, h2⟩ := intPart_head (r := (frac ++ exp) ++ r) hi
        have : c ≠ '"' := by rintro rfl; exact absurd h1 (by decide)
        have e : [] ++ (int ++ (frac ++ exp)) ++ r = c :: y := by simpa using hc
        rw [e]
        exact string_ne this _ _
      · exact string_ne (by decide) _ _
    simp only [hTermDepth, hValueDepth, hValue, alt, altDepth, hs, number_num ht hr, max_self]
  | bracket b o bl t bl' c i k ho hc hbl hbl' hn ih =>
    intro fuel r hr hl
    have h1 := ih fuel (bl' ++ c :: r) (fun op => follow_close op hbl' hc r) (by
      simp only [List.length_cons, List.length_append, List.length_nil] at hl; omega)
    have hos : o ≠ '"' ∧ isDigit o = false ∧ o ≠ '-' := by
      simp only [List.mem_cons, List.not_mem_nil, or_false] at ho
      rcases ho with rfl | rfl | rfl <;> decide
    have e : o :: (bl ++ (t ++ (bl' ++ [c]))) ++ r = o :: (bl ++ (t ++ (bl' ++ c :: r))) := by simp
    have hop : braceOpen ⟨column b, o :: (bl ++ (t ++ (bl' ++ c :: r)))⟩ =
        some ⟨nextCol (column b) o, bl ++ (t ++ (bl' ++ c :: r))⟩ := by
      simp only [List.mem_cons, List.not_mem_nil, or_false] at ho
      rcases ho with rfl | rfl | rfl <;> simp [braceOpen, orElse, lit]
    have hsk : skip ⟨nextCol (column b) o, bl ++ (t ++ (bl' ++ c :: r))⟩ =
        ⟨column (b ++ o :: bl), t ++ (bl' ++ c :: r)⟩ := by
      rw [skip_blank hbl (node_tok hn.human _), column_append, colAfter]
    rw [e]
    obtain ⟨q, s', h3, -, h4⟩ := human_accepts hn.human fuel (bl' ++ c :: r)
      (fun op => follow_close op hbl' hc r)
      (by simp only [List.length_cons, List.length_append, List.length_nil] at hl; omega)
    have hct : Tok (c :: r) := by
      simp only [List.mem_cons, List.not_mem_nil, or_false] at hc
      rcases hc with rfl | rfl | rfl <;> exact tok_cons (by decide) (by decide)
    have hs' : skip s' = ⟨colAfter (column (b ++ o :: bl ++ t)) bl', c :: r⟩ := by
      have : skip ⟨column (b ++ o :: bl ++ t), bl' ++ c :: r⟩ =
        ⟨colAfter (column (b ++ o :: bl ++ t)) bl', c :: r⟩ := skip_blank hbl' hct _
      rcases h4 with rfl | rfl
      · exact this
      · rw [this, skip_tok hct]
    have hcl : braceClose ⟨colAfter (column (b ++ o :: bl ++ t)) bl', c :: r⟩ =
        some ⟨nextCol (colAfter (column (b ++ o :: bl ++ t)) bl') c, r⟩ := by
      simp only [List.mem_cons, List.not_mem_nil, or_false] at hc
      rcases hc with rfl | rfl | rfl <;> simp [braceClose, orElse, lit]
    have hv : hValue (hNode fuel) ⟨column b, o :: (bl ++ (t ++ (bl' ++ c :: r)))⟩ =
        some (q, ⟨nextCol (colAfter (column (b ++ o :: bl ++ t)) bl') c, r⟩) := by
      simp only [hValue, alt, string_ne hos.1, number_ne hos.2.1 hos.2.2, bracketed, hop, Option.bind_eq_bind,
        Option.bind_some, hsk, h3, hs', hcl, Option.pure_def]
    simp only [hTermDepth, hValueDepth, altDepth, hv, string_ne hos.1, number_ne hos.2.1 hos.2.2, bracketedDepth,
      hop, hsk, h1]
    simp
  | single b t i k h ih =>
    intro fuel r hf hl
    obtain ⟨f, rfl⟩ : ∃ f, fuel = f + 1 := ⟨fuel - 1, by omega⟩
    obtain ⟨p, h1, h2⟩ := human_accepts h.human f r (hf .and).stop (by omega)
    have hc := ih f r (hf .and).stop (by omega)
    have hg : ∀ op, hGateDepth op (hNode f) (hNodeDepth f) ⟨column b, t ++ r⟩ = k := fun op => by
      rw [gateDepth (good_hNode f) h1 le_rfl, hc, follow_tail (hf op), Nat.max_zero]
    simp only [hNodeDepth, altDepth, hGate_none h1 ((hf .and).opTerm_none _ _),
      hGate_none h1 ((hf .or).opTerm_none _ _), hg, hc, max_self]
  | gate b t u op i j is k l h hu ih ihu =>
    intro fuel r hf hl
    obtain ⟨f, rfl⟩ : ∃ f, fuel = f + 1 := ⟨fuel - 1, by omega⟩
    simp only [List.length_append] at hl
    have hst := tail_stop hu.human (hf .and).stop
    obtain ⟨p, h1, h2⟩ := human_accepts h.human f (u ++ r) hst (by omega)
    obtain ⟨ps, h3, h4⟩ := human_accepts hu.human f r (hf op).stop (by simpa using (hf op).opTerm_none _ _) (by omega)
    have hc := ih f (u ++ r) hst (by omega)
    have hg : hGateDepth op (hNode f) (hNodeDepth f) ⟨column b, t ++ (u ++ r)⟩ = max k l := by
      rw [gateDepth (good_hNode f) h1 le_rfl, hc, ihu f r _ (hf op) (by omega) (by simp)]
    cases ps with
    | nil => simp at h4
    | cons p2 ps =>
      obtain ⟨s', h5, h6⟩ := hGate_accepts h1 h3
      rw [List.append_assoc]
      cases op with
      | and =>
        simp only [hNodeDepth, altDepth, h5, hg, Nat.max_zero]
      | or =>
        have hfol : Follow .and (u ++ r) := by
          cases hu with
          | next =>
            rename_i hbl hbl' hw _ _
            simp only [List.append_assoc]
            exact follow_other (by decide : Op.and ≠ .or) hbl hw _
        have hg' : hGateDepth .and (hNode f) (hNodeDepth f) ⟨column b, t ++ (u ++ r)⟩ = k := by
          rw [gateDepth (good_hNode f) h1 le_rfl, hc, follow_tail hfol, Nat.max_zero]
        simp only [hNodeDepth, altDepth, hGate_none h1 (hfol.opTerm_none _ _), h5, hg, hg', Nat.max_zero]
        rw [← max_assoc, max_self]
  | last b op =>
    intro fuel r K hf _ _
    exact follow_tail hf _ _ _ _
  | next b bl w bl' t u op i is k l hbl hbl' hw ht hu ih ihu =>
    intro fuel r K hf hl hK
    simp only [List.length_append] at hl hK
    have hst := tail_stop hu.human hf.stop
    obtain ⟨p, h1, h2⟩ := human_accepts ht.human fuel (u ++ r) hst (by omega)
    have hc := ih fuel (u ++ r) hst (by omega)
    obtain ⟨c, cs, rfl, -⟩ := term_head ht.human
    obtain ⟨K, rfl⟩ : ∃ K', K = K' + 1 := ⟨K - 1, by simp only [List.length_cons] at hK; omega⟩
    have hd := ihu fuel r K hf (by omega) (by simp only [List.length_cons] at hK; omega)
    simp only [List.append_assoc] at h1 hd hc ⊢
    have e : skip ⟨column b, bl ++ (w ++ (bl' ++ ((c :: cs) ++ (u ++ r))))⟩ =
        ⟨colAfter (column b) bl, w ++ (bl' ++ ((c :: cs) ++ (u ++ r)))⟩ := skip_blank hbl (word_tok hw _) _
    have e2 : skip ⟨colAfter (colAfter (column b) bl) w, bl' ++ ((c :: cs) ++ (u ++ r))⟩ =
        ⟨column (b ++ (bl ++ (w ++ bl'))), (c :: cs) ++ (u ++ r)⟩ := by
      rw [skip_blank hbl' (term_tok ht.human _)]
      simp only [column_append, colAfter_append]
    have e3 : opInner op ⟨colAfter (column b) bl, w ++ (bl' ++ ((c :: cs) ++ (u ++ r)))⟩ =
        some ⟨colAfter (colAfter (column b) bl) w, bl' ++ ((c :: cs) ++ (u ++ r))⟩ := by
      rw [opInner_eq, word_Word (keywords_op op) hw]
    have e4 : hOpTerm op (hNode fuel) ⟨colAfter (column b) bl, w ++ (bl' ++ ((c :: cs) ++ (u ++ r)))⟩ =
        some (p, ⟨column (b ++ (bl ++ (w ++ (bl' ++ (c :: cs))))), u ++ r⟩) := by
      simp only [hOpTerm, e3, Option.bind_eq_bind, Option.bind_some]
      rw [e2, h1]
    simp only [starTailDepth, e, e4]
    rw [hd]
    simp only [hOpTermDepth, e3]
    rw [e2, hc]

/-! ## Human language: an upper bound for all texts -/

/-- `c` is at most `B` wherever at most `d` of the characters chosen by `q` are left. -/
def Below (q : Char → Bool) (c : PS → ℕ) (d B : ℕ) : Prop := ∀ s : PS, s.rest.countP q ≤ d → c s ≤ B

theorem reads_countP (q : Char → Bool) {s s' : PS} (h : Reads s s') : s'.rest.countP q ≤ s.rest.countP q := by
  obtain ⟨a, ha, _⟩ := h
  rw [ha]; simp

/-- An opening bracket of the human language. -/
def isOpen (c : Char) : Bool := c == '(' || c == '[' || c == '{'

theorem bracketed_below {o : PS → Option PS} (ho : o = braceOpen ∨ o = lit ['(']) {c : PS → ℕ} {d B : ℕ}
    (h : ∀ d', d' < d → Below isOpen c d' B) : Below isOpen (bracketedDepth o c) d B := by
  intro s hd
  simp only [bracketedDepth]
  cases e : o s with
  | none => exact Nat.zero_le _
  | some s1 =>
    have h1 : s1.rest.countP isOpen + 1 ≤ s.rest.countP isOpen := (open_opens ho e).1
    have h3 := reads_countP isOpen (reads_skip s1)
    exact h (d - 1) (by omega) _ (by omega)

theorem term_below {node : P Pair} {c : PS → ℕ} {d B : ℕ} (h : ∀ d', d' < d → Below isOpen c d' B) :
    Below isOpen (hTermDepth node c) d B := by
  intro s hd
  have h1 := bracketed_below (.inl rfl) h s hd
  have h2 := bracketed_below (.inr rfl) h s hd
  have h3 : hValueDepth c s ≤ B := by
    simp only [hValueDepth, altDepth]
    split
    · simp
    · split
      · simp
      · simpa using h1
  simp only [hTermDepth, altDepth]
  split <;> omega

theorem opTerm_below {op : Op} {node : P Pair} {c : PS → ℕ} {d B : ℕ} (h : ∀ d', d' < d → Below isOpen c d' B) :
    Below isOpen (hOpTermDepth op node c) d B := by
  intro s hd
  simp only [hOpTermDepth]
  cases e : opInner op s with
  | none => exact Nat.zero_le _
  | some s1 =>
    have h1 := (rec_opInner op _ _ e).1
    exact term_below h _ (by have := reads_countP isOpen (h1.trans (reads_skip s1)); omega)

theorem starTail_below {q : Char → Bool} {x : P Pair} (hx : Good x) {c : PS → ℕ} {d B : ℕ} (h : Below q c d B) : ∀ K,
    Below q (starTailDepth x c K) d B := by
  intro K
  induction K with
  | zero => intro s _; simp [starTailDepth]
  | succ K ih =>
    intro s hd
    have h2 := reads_countP q (reads_skip s)
    have h3 := h (skip s) (by omega)
    simp only [starTailDepth]
    cases e : x (skip s) with
    | none => simpa using h3
    | some r =>
      have := ih r.2 (by have := reads_countP q (hx _ _ _ e).reads; omega)
      simp only
      omega

theorem star_below {q : Char → Bool} {x : P Pair} (hx : Good x) {c : PS → ℕ} {d B : ℕ} (h : Below q c d B) :
    Below q (starDepth x c) d B := by
  intro s hd
  have h3 := h s hd
  simp only [starDepth]
  cases e : x s with
  | none => simpa using h3
  | some r =>
    have := starTail_below hx h r.2.rest.length r.2 (by have := reads_countP q (hx _ _ _ e).reads; omega)
    simp only
    omega

theorem gate_below {op : Op} {node : P Pair} (hn : Good node) {c : PS → ℕ} {d B : ℕ}
    (h : ∀ d', d' < d → Below isOpen c d' B) : Below isOpen (hGateDepth op node c) d B := by
  intro s hd
  have h1 := term_below (node := node) h s hd
  cases e : hTerm node s with
  | none => simpa only [hGateDepth, e, Nat.max_zero] using h1
  | some r =>
    obtain ⟨p, s1⟩ := r
    rw [gateDepth hn e le_rfl]
    have := starTail_below (good_hOpTerm (op := op) hn) (opTerm_below (op := op) (node := node) h) s1.rest.length s1
      (by have := reads_countP isOpen (good_hTerm hn _ _ _ e).reads; omega)
    omega

theorem node_below : ∀ fuel d, Below isOpen (hNodeDepth fuel) d (d + 1) := by
  intro fuel
  induction fuel with
  | zero => intro d s _; simp [hNodeDepth]
  | succ n ih =>
    intro d s hd
    have h0 : ∀ d', d' < d → Below isOpen (hNodeDepth n) d' d := fun d' h s hd => (ih d' s hd).trans h
    have h1 := gate_below (op := .and) (good_hNode n) h0 s hd
    have h2 := gate_below (op := .or) (good_hNode n) h0 s hd
    have h3 := term_below (node := hNode n) h0 s hd
    simp only [hNodeDepth, altDepth]
    split
    · omega
    · split <;> omega

/-! ## JSON: an upper bound for all texts -/

/-- The bracket that opens a list. -/
def isList (c : Char) : Bool := c == '['

theorem gateHead_list {op : Op} {s s' : PS} (h : jGateHead op s = some s') :
    s'.rest.countP isList + 1 ≤ s.rest.countP isList := by
  simp only [jGateHead, Option.bind_eq_bind, Option.bind_eq_some_iff] at h
  obtain ⟨s1, h1, s2, h2, s3, h3, s4, h4, h5⟩ := h
  have k1 := reads_countP isList ((rec_opInner op _ _ h1).1.trans (reads_skip s1))
  have k2 : (skip s2).rest.countP isList ≤ (skip s1).rest.countP isList :=
    reads_countP isList ((rec_lit _ 0 (Nat.zero_le _) _ _ h2).1.trans (reads_skip s2))
  have k3 : (skip s3).rest.countP isList ≤ (skip s2).rest.countP isList :=
    reads_countP isList ((rec_jChildren _ _ h3).1.trans (reads_skip s3))
  have k4 : (skip s4).rest.countP isList ≤ (skip s3).rest.countP isList :=
    reads_countP isList ((rec_lit _ 0 (Nat.zero_le _) _ _ h4).1.trans (reads_skip s4))
  have k5 := (Took.of_lit h5).1
  have k6 : (skip s4).rest.countP isList = s'.rest.countP isList + 1 := by
    rw [k5]; simp [isList]
  omega

theorem comma_below {c : PS → ℕ} {d B : ℕ} (h : Below isList c d B) : Below isList (jCommaNodeDepth c) d B := by
  intro s hd
  simp only [jCommaNodeDepth]
  cases e : lit [','] s with
  | none => exact Nat.zero_le _
  | some s1 =>
    exact h _ (by
      have := reads_countP isList ((rec_lit _ 0 (Nat.zero_le _) _ _ e).1.trans (reads_skip s1)); omega)

theorem jGate_below {op : Op} {node : P Pair} (hn : Good node) {c : PS → ℕ} {d B : ℕ}
    (h : ∀ d', d' < d → Below isList c d' B) : Below isList (jGateDepth op node c) d B := by
  intro s hd
  simp only [jGateDepth]
  cases e : jGateHead op s with
  | none => exact Nat.zero_le _
  | some s1 =>
    have h1 := gateHead_list e
    have h2 := reads_countP isList (reads_skip s1)
    simp only
    cases e2 : lit [']'] (skip s1) with
    | some s2 => exact Nat.zero_le _
    | none =>
      have hb : Below isList c (d - 1) B := h (d - 1) (by omega)
      have h3 := hb (skip s1) (by omega)
      cases e3 : node (skip s1) with
      | none => simpa only [Nat.max_zero] using h3
      | some r =>
        have h4 := reads_countP isList ((hn _ _ _ e3).reads.trans (reads_skip r.2))
        have := star_below (good_jCommaNode hn) (comma_below hb) (skip r.2) (by omega)
        simp only
        omega

theorem object_below {cx : PS → ℕ} {d B : ℕ} (h : Below isList cx d B) : Below isList (jObjectDepth cx) d B := by
  intro s hd
  simp only [jObjectDepth]
  cases e : lit ['{'] s with
  | none => exact Nat.zero_le _
  | some s1 =>
    have h1 := reads_countP isList ((rec_lit _ 0 (Nat.zero_le _) _ _ e).1.trans (reads_skip s1))
    simp only
    cases e2 : jName (skip s1) with
    | none => exact Nat.zero_le _
    | some s2 =>
      have h2 := reads_countP isList ((rec_jName _ _ e2).1.trans (reads_skip s2))
      simp only
      cases e3 : lit [':'] (skip s2) with
      | none => exact Nat.zero_le _
      | some s3 =>
        have h3 := reads_countP isList ((rec_lit _ 0 (Nat.zero_le _) _ _ e3).1.trans (reads_skip s3))
        exact h _ (by omega)

theorem jNode_below : ∀ fuel d, Below isList (jNodeDepth fuel) d (d + 1) := by
  intro fuel
  induction fuel with
  | zero => intro d s _; simp [jNodeDepth]
  | succ n ih =>
    intro d s hd
    have h0 : ∀ d', d' < d → Below isList (jNodeDepth n) d' d := fun d' h s hd => (ih d' s hd).trans h
    have h1 := object_below (jGate_below (op := .and) (good_jNode n) h0) s hd
    have h2 := object_below (jGate_below (op := .or) (good_jNode n) h0) s hd
    have h3 := object_below (cx := fun _ => 0) (d := d) (B := d) (fun _ _ => Nat.zero_le _) s hd
    simp only [jNodeDepth, altDepth]
    split
    · omega
    · split <;> omega

/-! ## Trees and nesting in the human language -/

mutual
/-- Height of the contents of a text (a number counts as a leaf). -/
def itemHeight : Item → ℕ
  | .attr _ _ => 1
  | .num => 1
  | .gate _ is => 1 + itemHeightL is
/-- The largest height in a list. -/
def itemHeightL : List Item → ℕ
  | [] => 0
  | i :: is => max (itemHeight i) (itemHeightL is)
end

theorem nests_height {k b t is n} (h : Nests k b t is n) : itemHeightL is ≤ n + 1 := by
  induction h with
  | attr => simp [itemHeightL, itemHeight]
  | num => simp [itemHeightL, itemHeight]
  | bracket => assumption
  | single => omega
  | gate => simp only [itemHeightL, itemHeight] at *; omega
  | last => simp [itemHeightL]
  | next => simp only [itemHeightL] at *; omega

mutual
theorem itemHeight_pol : ∀ p : Pol, itemHeight p.item = height p
  | .leaf _ _ => rfl
  | .gate _ cs => by simp only [Pol.item, itemHeight, height, itemHeight_polL cs]
theorem itemHeight_polL : ∀ cs : List Pol, itemHeightL (Pol.itemL cs) = heightL cs
  | [] => rfl
  | c :: cs => by simp only [Pol.itemL, itemHeightL, heightL, itemHeight_pol c, itemHeight_polL cs]
end

end Depth

open Steps Depth

/-- **C91, upper bound, JSON.** For every text, accepted or not, the nesting of the parser is at most the number of opening
square brackets, plus one. (The full claim, a limit that does not depend on the text, is false: `C91_violated`.) -/
theorem C91_json_upper_partial (text : Str) : parseDepth text .json ≤ text.count '[' + 1 := by
  have h2 := reads_countP isList (reads_skip ⟨1, text⟩)
  exact jNode_below _ _ _ h2

/-- **C91, upper bound, human language.** For every text, accepted or not, the nesting of the parser is at most the number of
opening brackets, plus one. (The full claim, a limit that does not depend on the text, is false: `C91_violated`.) -/
theorem C91_human_upper_partial (text : Str) :
    parseDepth text .human ≤ text.count '(' + text.count '[' + text.count '{' + 1 := by
  have h2 := reads_countP isOpen (reads_skip ⟨1, text⟩)
  have h3 := node_below (text.length + 1) _ _ h2
  have h4 : ∀ l : Str, l.countP isOpen = l.count '(' + l.count '[' + l.count '{' := by
    intro l
    induction l with
    | nil => rfl
    | cons c l ih =>
      simp only [List.countP_cons, List.count_cons, ih, isOpen]
      by_cases h1 : c = '('
      · subst h1; simp; omega
      · by_cases h2 : c = '['
        · subst h2; simp; omega
        · by_cases h3 : c = '{'
          · subst h3; simp; omega
          · simp [h1, h2, h3]
  simp only [h4] at h3
  exact h3

/-- **C91, exact nesting, JSON.** On an accepted text the parser nests as deeply as the policy is high, and so does the
conversion of the tokens that follows. -/
theorem C91_json_exact (text : Str) (p : Pol) (h : Denotes text .json p) :
    parseDepth text .json = height p ∧ convertDepth text .json = height p := by
  have h1 : parse text .json = .ok p.toValue := h
  rw [parse_eq] at h1
  cases e : content (nodeOf .json text.length) text with
  | none => simp [e] at h1
  | some q =>
    simp only [e] at h1
    split at h1
    · cases h1
    · simp only [Res.ok.injEq] at h1
      rw [← toValue_inj _ _ h1, height_toPol]
      refine ⟨?_, by simp [convertDepth, e]⟩
      simp only [content, Option.bind_eq_bind, Option.bind_eq_some_iff, Prod.exists] at e
      obtain ⟨q', s, h2, h3⟩ := e
      split at h3
      · simp only [Option.some.injEq] at h3
        subst h3
        exact jNode_deeps _ _ _ _ h2
      · simp at h3

/-- **C91, exact nesting, human language.** For every text of the human language the parser nests once more than the
brackets of the text do (`Nests`). -/
theorem C91_human_exact (bl t bl' : Str) (i : Item) (n : ℕ) (hbl : Blank bl) (hbl' : Blank bl')
    (h : Nests .node bl t [i] n) : parseDepth (bl ++ (t ++ bl')) .human = n := by
  have h1 := nests_reaches h ((bl ++ (t ++ bl')).length + 1) bl' (fun op => follow_end op hbl')
    (by simp only [List.length_append]; omega)
  simp only [parseDepth]
  rw [skip_blank hbl (node_tok h.human _), ← h1]
  have := column_append [] bl
  simp only [List.nil_append] at this
  rw [this]
  rfl

/-- **C91, lower bound, human language.** On an accepted text the parser nests at least as deeply as the policy is high, less
one; the conversion of the tokens that follows nests exactly as deeply as the policy is high. -/
theorem C91_human_height (text : Str) (p : Pol) (h : Denotes text .human p) :
    height p ≤ parseDepth text .human + 1 ∧ convertDepth text .human = height p := by
  have h1 : parse text .human = .ok p.toValue := h
  constructor
  · obtain ⟨p', hp, bl, t, bl', rfl, hbl, hbl', ht⟩ := (C58_human_parse_iff _ _).1 h1
    obtain rfl := toValue_inj _ _ hp
    obtain ⟨n, hn⟩ := exists_nests ht
    rw [C91_human_exact bl t bl' _ n hbl hbl' hn, ← itemHeight_pol]
    simpa [itemHeightL] using nests_height hn
  · rw [parse_eq] at h1
    cases e : content (nodeOf .human text.length) text with
    | none => simp [e] at h1
    | some q =>
      simp only [e] at h1
      split at h1
      · cases h1
      · simp only [Res.ok.injEq] at h1
        rw [← toValue_inj _ _ h1, height_toPol]
        simp [convertDepth, e]

theorem nested_nests : ∀ (n : ℕ) (b : Str), ∃ col, Nests .node b (nested n) [.attr ['A'] col] (n + 1) := by
  intro n
  induction n with
  | zero =>
    intro b
    exact ⟨_, .single b _ _ 0 (.attr b ['A'] (name_one (by decide) (by decide)))⟩
  | succ n ih =>
    intro b
    obtain ⟨col, h⟩ := ih (b ++ '(' :: [])
    refine ⟨col, ?_⟩
    have h1 := Nests.single b _ _ _ (.bracket b '(' [] (nested n) [] ')' _ _ (by simp) (by simp) .nil .nil h)
    rw [Nat.add_comm (n + 1) 1]
    exact h1

/-- **C91 is violated for the human language.** The text of `n` pairs of brackets around `"A"` has `2 n + 3` characters, is
accepted, stands for the attribute `A`, and makes the parser nest `n + 1` deep. -/
theorem C91_violated_human (n : ℕ) : ∃ col, Denotes (nested n) .human (.leaf ['A'] col) ∧
    (nested n).length = 2 * n + 3 ∧ parseDepth (nested n) .human = n + 1 := by
  obtain ⟨col, h⟩ := nested_nests n []
  refine ⟨col, (C58_human_parse_iff _ _).2 ⟨.leaf ['A'] col, rfl, [], nested n, [], by simp, .nil, .nil, h.human⟩,
    nested_length n, ?_⟩
  simpa using C91_human_exact [] (nested n) [] _ _ .nil .nil h

/-- `n` gates with one operand each around the attribute `A`. -/
def nestedJson : ℕ → Str
  | 0 => chars% "{name:\"A\"}"
  | n + 1 => chars% "{name:and,children:[" ++ (nestedJson n ++ chars% "]}")

theorem nestedJson_length (n : ℕ) : (nestedJson n).length = 22 * n + 10 := by
  induction n with
  | zero => rfl
  | succ n ih => simp [nestedJson, ih]; omega

/-- `n` gates with one operand each around an attribute. -/
def nestedPol : ℕ → ℕ → Pol
  | col, 0 => .leaf ['A'] col
  | col, n + 1 => .gate .and [nestedPol col n]

theorem nestedPol_height (col n : ℕ) : height (nestedPol col n) = n + 1 := by
  induction n with
  | zero => rfl
  | succ n ih => simp [nestedPol, height, heightL, ih]; omega

theorem nestedJson_text : ∀ (n : ℕ) (b : Str), ∃ col, Json Plain .node b (nestedJson n) [(nestedPol col n).item] := by
  have hname : Spaced nameHead (chars% "{name:") :=
    ⟨['{'], [], _, rfl, rfl, .nil, chars% "name", [], _, rfl, .inl (by simp), .nil, [':'], [], _, rfl, rfl, .nil, rfl⟩
  have hop : Spaced (childrenHead Plain .and) (chars% "and,children:[") :=
    ⟨chars% "and", [], _, rfl, ⟨.inl (by simp [Op.spellings]), by simp [Plain]⟩, .nil, [','], [], _, rfl, rfl, .nil,
      chars% "children", [], _, rfl, .inl (by simp), .nil, [':'], [], _, rfl, rfl, .nil, ['['], [], _, rfl, rfl, .nil, rfl⟩
  intro n
  induction n with
  | zero =>
    intro b
    exact ⟨_, Json.attr b _ ['A'] [] hname (name_one (by decide) (by decide)) .nil⟩
  | succ n ih =>
    intro b
    obtain ⟨col, h⟩ := ih (b ++ ((chars% "{name:") ++ chars% "and,children:["))
    refine ⟨col, ?_⟩
    have h1 := Json.gate b _ _ _ [] .and _ hname hop .nil (.first _ _ [] _ [] h (.last _ [] .nil))
    simpa [nestedJson, nestedPol, Pol.item, Pol.itemL] using h1

/-- **C91 is violated for JSON.** The text of `n` gates with one operand each around `A` has `22 n + 10` characters, is
accepted, and makes the parser nest `n + 1` deep, and then the conversion of the tokens. -/
theorem C91_violated_json (n : ℕ) : ∃ col, Denotes (nestedJson n) .json (nestedPol col n) ∧
    (nestedJson n).length = 22 * n + 10 ∧ parseDepth (nestedJson n) .json = n + 1 ∧
    convertDepth (nestedJson n) .json = n + 1 := by
  obtain ⟨col, h⟩ := nestedJson_text n []
  have h1 : Denotes (nestedJson n) .json (nestedPol col n) :=
    C59_json_parse_complete_partial _ _ ⟨[], nestedJson n, [], by simp, .nil, .nil, h⟩
  have h2 := C91_json_exact _ _ h1
  rw [nestedPol_height] at h2
  exact ⟨col, h1, nestedJson_length n, h2⟩

/-- **C91 is violated.** In neither language is there a limit on the nesting, even for accepted texts. -/
theorem C91_violated (language : PolicyLanguage) : ¬ ∃ limit, ∀ text p, Denotes text language p →
    parseDepth text language ≤ limit := by
  rintro ⟨limit, h⟩
  cases language with
  | human =>
    obtain ⟨col, h1, -, h2⟩ := C91_violated_human limit
    have := h _ _ h1
    omega
  | json =>
    obtain ⟨col, h1, -, h2, -⟩ := C91_violated_json limit
    have := h _ _ h1
    omega

theorem unclosed_depth : ∀ (n fuel col : ℕ), n ≤ fuel → hNodeDepth fuel ⟨col, List.replicate n '('⟩ = n + 1 := by
  intro n
  induction n with
  | zero =>
    intro fuel col _
    cases fuel with
    | zero => rfl
    | succ f =>
      have h1 : string ⟨col, []⟩ = none := by simp [string, lit]
      have h2 : number ⟨col, []⟩ = none := rfl
      simp [hNodeDepth, altDepth, hGateDepth, hGate, hTermDepth, hTerm, hValueDepth, hValue, alt, bracketedDepth,
        bracketed, braceOpen, orElse, lit, h1, h2]
  | succ n ih =>
    intro fuel col hf
    obtain ⟨f, rfl⟩ : ∃ f, fuel = f + 1 := ⟨fuel - 1, by omega⟩
    have h3 := ih f (nextCol col '(') (by omega)
    have h4 := (unclosed_steps n f (nextCol col '(') (by omega)).2
    rw [List.replicate_succ]
    have h1 := string_ne (by decide : '(' ≠ '"') (List.replicate n '(') col
    have h2 := number_ne (by decide : isDigit '(' = false) (by decide : '(' ≠ '-') (List.replicate n '(') col
    have hsk : skip ⟨nextCol col '(', List.replicate n '('⟩ = ⟨nextCol col '(', List.replicate n '('⟩ := by
      apply skip_tok
      cases n with
      | zero => exact tok_nil
      | succ n => rw [List.replicate_succ]; exact tok_cons (by decide) (by decide)
    have h5 : lit ['('] ⟨col, '(' :: List.replicate n '('⟩ = some ⟨nextCol col '(', List.replicate n '('⟩ := by simp [lit]
    have h6 : braceOpen ⟨col, '(' :: List.replicate n '('⟩ = some ⟨nextCol col '(', List.replicate n '('⟩ := by
      simp [braceOpen, orElse, h5]
    have ht : hTerm (hNode f) ⟨col, '(' :: List.replicate n '('⟩ = none := by
      simp [hTerm, hValue, alt, h1, h2, bracketed, h5, h6, hsk, h4]
    have hv : hValue (hNode f) ⟨col, '(' :: List.replicate n '('⟩ = none := by
      simp [hValue, alt, h1, h2, bracketed, h6, hsk, h4]
    have hts : hTermDepth (hNode f) (hNodeDepth f) ⟨col, '(' :: List.replicate n '('⟩ = n + 1 := by
      simp only [hTermDepth, hValueDepth, altDepth, hv, h1, h2, bracketedDepth, h5, h6, hsk, h3]
      simp
    have hg : ∀ op, hGate op (hNode f) ⟨col, '(' :: List.replicate n '('⟩ = none := fun op => by
      simp [hGate, ht]
    simp only [hNodeDepth, altDepth, hGateDepth, hg, ht, hts, Nat.max_zero, max_self]
    omega

/-- **C91 is violated also by refused texts.** On `n` opening brackets and nothing else the parser nests `n + 1` deep before
it refuses the text: the bound of `C91_human_upper_partial` is attained. -/
theorem C91_violated_unclosed (n : ℕ) : parse (List.replicate n '(') .human = .err ∧
    parseDepth (List.replicate n '(') .human = n + 1 := by
  have hsk : skip ⟨1, List.replicate n '('⟩ = ⟨1, List.replicate n '('⟩ := by
    apply skip_tok
    cases n with
    | zero => exact tok_nil
    | succ n => rw [List.replicate_succ]; exact tok_cons (by decide) (by decide)
  refine ⟨(C74_violated_unclosed n).1, ?_⟩
  simp only [parseDepth, hsk]
  exact unclosed_depth n _ 1 (by simp)

/-- Example for C91: three pairs of brackets; the JSON text of the same policy; a refused text; two operands side by side, one
in two brackets. -/
example : parseDepth (chars% "(((\"A\")))") .human = 4 ∧ parseDepth (chars% "{\"name\": \"A\"}") .json = 1 ∧
    parseDepth (chars% "(((") .human = 4 ∧
    parseDepth (chars% "{\"name\": \"or\", \"children\": [{\"name\": \"A\"}, {\"name\": \"B\"}]}") .json = 2 ∧
    parseDepth (chars% "(\"A\" or \"B\") and ((\"C\" or \"D\"))") .human = 3 := by
  decide +kernel

set_option maxRecDepth 8000 in
/-- Example for C91: an accepted text of the JSON language with two gates, the inner one empty, and two leaves. -/
example : Denotes (chars%
      "{\"name\": \"or\", \"children\": [{\"name\": \"A\"}, {\"name\": \"and\", \"children\": []}, {\"name\": \"B\"}]}")
      .json (.gate .or [.leaf ['A'] 39, .gate .and [], .leaf ['B'] 87]) ∧
    height (.gate .or [.leaf ['A'] 39, .gate .and [], .leaf ['B'] 87]) = 2 :=
  ⟨rfl, rfl⟩

/-- Example for C91: an accepted text of the human language whose policy is one higher than the parser nests. -/
example : Denotes (chars% "\"A\" and \"B\"") .human (.gate .and [.leaf ['A'] 2, .leaf ['B'] 10]) ∧
    height (.gate .and [.leaf ['A'] 2, .leaf ['B'] 10]) = 2 ∧ parseDepth (chars% "\"A\" and \"B\"") .human = 1 ∧
    convertDepth (chars% "\"A\" and \"B\"") .human = 2 :=
  ⟨show parse _ _ = _ from rfl, rfl, by decide +kernel, by decide +kernel⟩

end Rabe
