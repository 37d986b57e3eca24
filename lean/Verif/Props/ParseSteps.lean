import Verif.Model.PestSteps
import Verif.Proof.GrammarJson
import Verif.Props.Grammar
import Mathlib.Analysis.SpecificLimits.Normed

/-!
# How long parsing takes (C74)
-/

namespace Rabe

open Pest

namespace Steps

/-! ## Lengths -/

theorem Took.le {s s' : PS} {t : Str} (h : Took s t s') : s'.rest.length ≤ s.rest.length := by
  rw [h.1]; simp

theorem skip_le (s : PS) : (skip s).rest.length ≤ s.rest.length := by
  obtain ⟨_, _, h⟩ := skip_took s
  exact Took.le h

theorem lit_lt {c : Char} {cs : Str} {s s' : PS} (h : lit (c :: cs) s = some s') :
    s'.rest.length + 1 ≤ s.rest.length := by
  have := (Took.of_lit h).1
  rw [this]; simp only [List.cons_append, List.length_cons, List.length_append]; omega

theorem word_le {ws : List Str} {s s' : PS} (h : word ws s = some s') : s'.rest.length ≤ s.rest.length := by
  obtain ⟨t, _, ht⟩ := word_took h
  exact Took.le ht

theorem jGateHead_le {op : Op} {s s' : PS} (h : jGateHead op s = some s') : s'.rest.length ≤ s.rest.length := by
  simp only [jGateHead, Option.bind_eq_bind, Option.bind_eq_some_iff] at h
  obtain ⟨s1, h1, s2, h2, s3, h3, s4, h4, h5⟩ := h
  rw [opInner_eq] at h1
  rw [jChildren_eq] at h3
  have := word_le h1; have := word_le h3
  have := lit_lt h2; have := lit_lt h4; have := lit_lt h5
  have := skip_le s1; have := skip_le s2; have := skip_le s3; have := skip_le s4
  omega

/-! ## JSON: each character starts at most one `node` -/

/-- `c` counts at most the characters consumed by a success, and at most one more than the characters left when the parser
fails. -/
def Lin (x : P Pair) (c : PS → ℕ) : Prop :=
  ∀ s, (∀ p s', x s = some (p, s') → c s + s'.rest.length ≤ s.rest.length) ∧ c s ≤ s.rest.length + 1

theorem lin_comma {x : P Pair} {c : PS → ℕ} (h : Lin x c) : Lin (jCommaNode x) (jCommaNodeSteps c) := by
  intro s
  simp only [jCommaNode, jCommaNodeSteps, Option.bind_eq_bind]
  cases e : lit [','] s with
  | none => simp
  | some s1 =>
    have h1 := lit_lt e
    have h2 := skip_le s1
    simp only [Option.bind_some]
    refine ⟨fun p s' hs => ?_, ?_⟩
    · have := (h (skip s1)).1 p s' hs; omega
    · have := (h (skip s1)).2; omega

/-- When a list is closed here, the last attempt to read a further element did not enter `node`. -/
theorem comma_closed {c : PS → ℕ} {s s' : PS} (h : lit [']'] (skip s) = some s') :
    jCommaNodeSteps c (skip s) = 0 ∧ jCommaNodeSteps c s = 0 := by
  have h1 : lit [','] (skip s) = none := by
    have := (Took.of_lit h).1
    rcases hs : skip s with ⟨col, r⟩
    rw [hs] at this
    simp only [List.cons_append, List.nil_append] at this
    subst this
    exact lit_ne (by decide) _ _ _
  refine ⟨by simp [jCommaNodeSteps, h1], ?_⟩
  cases e : lit [','] s with
  | none => simp [jCommaNodeSteps, e]
  | some s1 =>
    have := (Took.of_lit e).1
    rcases s with ⟨col, r⟩
    simp only [List.cons_append, List.nil_append] at this
    subst this
    rw [skip_tok (tok_cons (by decide) (by decide)), e] at h1
    cases h1

theorem lin_starTail {x : P Pair} {c : PS → ℕ} (h : Lin x c) : ∀ n s,
    starTailSteps x c n s ≤ s.rest.length + 1 ∧
      starTailSteps x c n s + (starTail x n s).2.rest.length ≤ s.rest.length + c (skip (starTail x n s).2) := by
  intro n
  induction n with
  | zero => intro s; simp [starTailSteps, starTail]
  | succ n ih =>
    intro s
    have h2 := skip_le s
    simp only [starTailSteps, starTail]
    cases e : x (skip s) with
    | none => have := (h (skip s)).2; simp only; omega
    | some q =>
      obtain ⟨p, s'⟩ := q
      have := (h (skip s)).1 p s' e
      have := ih s'
      simp only; omega

theorem lin_star {x : P Pair} {c : PS → ℕ} (h : Lin x c) (s : PS) :
    starSteps x c s ≤ s.rest.length + 1 ∧
      starSteps x c s + (Pest.star x s).2.rest.length ≤
        s.rest.length + (c (skip (Pest.star x s).2) + c (Pest.star x s).2) := by
  simp only [starSteps, Pest.star]
  cases e : x s with
  | none => have := (h s).2; simp only; omega
  | some q =>
    obtain ⟨p, s'⟩ := q
    have := (h s).1 p s' e
    have := lin_starTail h s'.rest.length s'
    simp only; omega

theorem lin_gate {op : Op} {x : P Pair} {c : PS → ℕ} (h : Lin x c) : Lin (jGate op x) (jGateSteps op x c) := by
  intro s
  simp only [jGate, jGateSteps, alt, Option.bind_eq_bind]
  cases e : jGateHead op s with
  | none => simp
  | some s1 =>
    have h1 := jGateHead_le e
    have h2 := skip_le s1
    simp only [Option.bind_some]
    cases e2 : lit [']'] (skip s1) with
    | some s2 =>
      have := lit_lt e2
      simp only [Option.bind_some, Option.pure_def, Option.some.injEq, Prod.mk.injEq]
      refine ⟨?_, by omega⟩
      rintro p s' ⟨rfl, rfl⟩
      omega
    | none =>
      simp only [Option.bind_none]
      cases e3 : x (skip s1) with
      | none => have := (h (skip s1)).2; simp only [Option.bind_none]; exact ⟨by simp, by omega⟩
      | some q =>
        obtain ⟨p, s2⟩ := q
        have h3 := (h (skip s1)).1 p s2 e3
        have h4 := skip_le s2
        have h5 := lin_star (lin_comma h) (skip s2)
        simp only [Option.bind_some]
        refine ⟨?_, by omega⟩
        intro p' s' hs
        simp only [Option.pure_def, Option.bind_eq_some_iff, Option.some.injEq, Prod.mk.injEq] at hs
        obtain ⟨s3, hs3, -, rfl⟩ := hs
        have h6 := comma_closed (c := c) hs3
        have h7 := lit_lt hs3
        have h8 := skip_le (Pest.star (jCommaNode x) (skip s2)).2
        omega

/-- An object costs as much as its content; a success consumes a character more. -/
theorem lin_object {x : P Pair} {c : PS → ℕ} (h : Lin x c) (s : PS) :
    (∀ p s', jObject x s = some (p, s') → jObjectSteps c s + s'.rest.length + 1 ≤ s.rest.length) ∧
      jObjectSteps c s ≤ s.rest.length := by
  simp only [jObject, jObjectSteps, Option.bind_eq_bind]
  cases e : lit ['{'] s with
  | none => simp
  | some s1 =>
    have h1 := lit_lt e
    have h2 := skip_le s1
    simp only [Option.bind_some]
    cases e2 : jName (skip s1) with
    | none => simp
    | some s2 =>
      rw [jName_eq] at e2
      have h3 := word_le e2
      have h4 := skip_le s2
      simp only [Option.bind_some]
      cases e3 : lit [':'] (skip s2) with
      | none => simp
      | some s3 =>
        have h5 := lit_lt e3
        have h6 := skip_le s3
        simp only [Option.bind_some]
        have h7 := h (skip s3)
        refine ⟨?_, by omega⟩
        intro p s' hs
        simp only [Option.bind_eq_some_iff, Option.pure_def, Option.some.injEq, Prod.mk.injEq, Prod.exists] at hs
        obtain ⟨p', s4, hs4, s5, hs5, rfl, rfl⟩ := hs
        have := h7.1 _ _ hs4
        have := lit_lt hs5
        have := skip_le s4
        omega

theorem jValue_lin : Lin jValue fun _ => 0 := by
  intro s
  refine ⟨fun p s' h => ?_, Nat.zero_le _⟩
  simp only [jValue, alt] at h
  cases e : string s with
  | some q =>
    obtain ⟨p', s''⟩ := q
    simp only [e, Option.some.injEq, Prod.mk.injEq] at h
    obtain ⟨rfl, rfl⟩ := h
    obtain ⟨_, _, _, ht⟩ := string_took e
    simpa using Took.le ht
  | none =>
    simp only [e] at h
    obtain ⟨_, _, _, ht⟩ := number_took h
    simpa using Took.le ht

/-- At most one of the two gates reads beyond its operator. -/
theorem gates_excl {x : P Pair} {c : PS → ℕ} (s : PS) :
    jObjectSteps (jGateSteps .and x c) s = 0 ∨
      jObjectSteps (jGateSteps .or x c) s = 0 ∧ jObject (jGate .or x) s = none := by
  simp only [jObjectSteps, jObject, Option.bind_eq_bind]
  cases lit ['{'] s with
  | none => simp
  | some s1 =>
    simp only [Option.bind_some]
    cases e2 : jName (skip s1) with
    | none => simp
    | some s2 =>
      simp only [Option.bind_some]
      cases e3 : lit [':'] (skip s2) with
      | none => simp
      | some s3 =>
        simp only [Option.bind_some]
        cases e4 : opInner .and (skip s3) with
        | none => left; simp [jGateSteps, jGateHead, e4]
        | some s4 =>
          right
          have : opInner .or (skip s3) = none := by
            rw [opInner_eq] at e4 ⊢
            obtain ⟨t, ht, hk⟩ := word_took e4
            rcases hs : skip s3 with ⟨col, r⟩
            rw [hs] at hk
            have := hk.1
            simp only at this
            subst this
            exact word_disjoint (keywords_op .or) (keywords_op .and) (by simp [Op.spellings]) ht _ _
          simp [jGateSteps, jGate, alt, jGateHead, this]

theorem jNode_lin : ∀ n, Lin (jNode n) (jNodeSteps n) := by
  intro n
  induction n with
  | zero => intro s; simp [jNode, jNodeSteps]
  | succ n ih =>
    intro s
    have hv := lin_object jValue_lin s
    have ha := lin_object (lin_gate (op := .and) ih) s
    have ho := lin_object (lin_gate (op := .or) ih) s
    have hx := gates_excl (x := jNode n) (c := jNodeSteps n) s
    have hz : jObjectSteps (fun _ => 0) s = 0 := by
      simp only [jObjectSteps]; repeat' (first | rfl | split)
    simp only [jNode, jNodeSteps, alt, altSteps, hz]
    cases e1 : jObject jValue s with
    | some q =>
      simp only [Option.some.injEq]
      refine ⟨?_, by omega⟩
      rintro p s' rfl
      have := hv.1 p s' e1
      omega
    | none =>
      cases e2 : jObject (jGate .and (jNode n)) s with
      | some q =>
        simp only [Option.some.injEq]
        refine ⟨?_, by omega⟩
        rintro p s' rfl
        have := ha.1 p s' e2
        omega
      | none =>
        simp only
        refine ⟨?_, by omega⟩
        intro p s' h
        have := ho.1 p s' h
        rcases hx with hx | hx
        · omega
        · rw [hx.2] at h; cases h

/-! ## JSON: the exact number for accepted texts -/

/-- `c` counts the nodes of the tree a success returns, but for `k` of them. -/
def Counts (k : ℕ) (x : P Pair) (c : PS → ℕ) : Prop := ∀ s p s', x s = some (p, s') → c s + k = p.size

theorem counts_comma {x : P Pair} {c : PS → ℕ} (h : Counts 0 x c) : Counts 0 (jCommaNode x) (jCommaNodeSteps c) := by
  intro s p s' hs
  simp only [jCommaNode, Option.bind_eq_bind, Option.bind_eq_some_iff] at hs
  obtain ⟨s1, h1, h2⟩ := hs
  simp only [jCommaNodeSteps, h1]
  exact h _ _ _ h2

theorem counts_starTail {x : P Pair} {c : PS → ℕ} (h : Counts 0 x c) : ∀ n s,
    c (skip (starTail x n s).2) = 0 → starTailSteps x c n s = Pair.sizeL (starTail x n s).1 := by
  intro n
  induction n with
  | zero => intro s _; simp [starTailSteps, starTail, Pair.sizeL]
  | succ n ih =>
    intro s
    simp only [starTailSteps, starTail]
    cases e : x (skip s) with
    | none => simp [Pair.sizeL]
    | some q =>
      obtain ⟨p, s'⟩ := q
      have h1 := h _ _ _ e
      have h2 := ih s'
      simp only [Pair.sizeL]
      intro h3
      rw [h2 h3]
      omega

theorem counts_star {x : P Pair} {c : PS → ℕ} (h : Counts 0 x c) (s : PS)
    (h0 : c (skip (Pest.star x s).2) = 0) (h1 : c (Pest.star x s).2 = 0) :
    starSteps x c s = Pair.sizeL (Pest.star x s).1 := by
  simp only [starSteps, Pest.star] at h0 h1 ⊢
  cases e : x s with
  | none => simp only [e] at h1; simp [h1, Pair.sizeL]
  | some q =>
    obtain ⟨p, s'⟩ := q
    have h2 := h _ _ _ e
    simp only [e] at h0
    simp only [counts_starTail h _ _ h0, Pair.sizeL]
    omega

theorem counts_gate {op : Op} {x : P Pair} {c : PS → ℕ} (h : Counts 0 x c) :
    Counts 1 (jGate op x) (jGateSteps op x c) := by
  intro s p s' hs
  simp only [jGate, alt, Option.bind_eq_bind] at hs
  simp only [jGateSteps]
  cases e : jGateHead op s with
  | none => simp [e] at hs
  | some s1 =>
    simp only [e, Option.bind_some] at hs
    cases e2 : lit [']'] (skip s1) with
    | some s2 =>
      simp only [e2, Option.bind_some, Option.pure_def, Option.some.injEq, Prod.mk.injEq] at hs
      obtain ⟨rfl, -⟩ := hs
      simp [e2, Pair.size, Pair.sizeL]
    | none =>
      simp only [e2, Option.bind_none, Option.bind_eq_some_iff, Prod.exists, Option.pure_def, Option.some.injEq,
        Prod.mk.injEq] at hs
      obtain ⟨q, s2, h1, s3, h2, rfl, -⟩ := hs
      have h3 := comma_closed (c := c) h2
      have h4 := counts_star (counts_comma h) (skip s2) h3.1 h3.2
      have h5 := h _ _ _ h1
      simp only [e2, h1, h4, Pair.size, Pair.sizeL]
      omega

theorem counts_object {k : ℕ} {x : P Pair} {c : PS → ℕ} (h : Counts k x c) : Counts k (jObject x) (jObjectSteps c) := by
  intro s p s' hs
  simp only [jObject, Option.bind_eq_bind, Option.bind_eq_some_iff, Prod.exists, Option.pure_def, Option.some.injEq,
    Prod.mk.injEq] at hs
  obtain ⟨s1, h1, s2, h2, s3, h3, q, s4, h4, s5, -, rfl, -⟩ := hs
  simp only [jObjectSteps, h1, h2, h3]
  exact h _ _ _ h4

theorem counts_value : Counts 1 jValue fun _ => 0 := by
  intro s p s' h
  simp only [jValue, alt] at h
  cases e : string s with
  | some q =>
    simp only [e, Option.some.injEq] at h
    subst h
    obtain ⟨_, _, rfl, _⟩ := string_took e
    rfl
  | none =>
    simp only [e] at h
    obtain ⟨rfl, _⟩ := number_took h
    rfl

theorem jNode_counts : ∀ n, Counts 0 (jNode n) (jNodeSteps n) := by
  intro n
  induction n with
  | zero => intro s p s' h; simp [jNode] at h
  | succ n ih =>
    intro s p s' h
    have hx := gates_excl (x := jNode n) (c := jNodeSteps n) s
    have hz : jObjectSteps (fun _ => 0) s = 0 := by
      simp only [jObjectSteps]; repeat' (first | rfl | split)
    simp only [jNode, alt] at h
    simp only [jNodeSteps, altSteps, hz]
    cases e1 : jObject jValue s with
    | some q =>
      simp only [e1, Option.some.injEq] at h
      subst h
      have := counts_object counts_value _ _ _ e1
      simp only; omega
    | none =>
      simp only [e1] at h
      cases e2 : jObject (jGate .and (jNode n)) s with
      | some q =>
        simp only [e2, Option.some.injEq] at h
        subst h
        have := counts_object (counts_gate ih) _ _ _ e2
        simp only; omega
      | none =>
        simp only [e2] at h
        have := counts_object (counts_gate ih) _ _ _ h
        rcases hx with hx | hx
        · simp only; omega
        · rw [hx.2] at h; cases h

mutual
/-- Number of nodes of an access tree, leaves and gates. -/
def polNodes : Pol → ℕ
  | .leaf _ _ => 1
  | .gate _ cs => 1 + polNodesL cs
/-- Number of nodes of a list of access trees. -/
def polNodesL : List Pol → ℕ
  | [] => 0
  | c :: cs => polNodes c + polNodesL cs
end

theorem polNodes_toPol : ∀ p : Pair, polNodes p.toPol = p.size := by
  intro p
  induction p using Pair.ind with
  | hs s c => simp [Pair.toPol, polNodes, Pair.size]
  | hn => simp [Pair.toPol, polNodes, Pair.size]
  | hg op cs ih =>
    simp only [Pair.toPol, polNodes, Pair.size]
    congr 1
    induction cs with
    | nil => rfl
    | cons c cs ihc =>
      simp only [Pair.toPolL, polNodesL, Pair.sizeL, ih c (by simp), ihc fun c hc => ih c (by simp [hc])]

/-! ## Human language: the exact number for accepted texts -/

/-- `Visits k before t n`: reading the phrase `t` of category `k` (as in `Human`) costs `n` entries of `node`. Each bracket
is one `node`. A `node` that is a single operand reads it three times; an OR reads its first operand twice. -/
inductive Visits : HKind → Str → Str → List Item → ℕ → Prop where
  | attr (b n) : Name n → Visits .term b ('"' :: (n ++ ['"'])) [.attr n (column (b ++ ['"']))] 0
  | num (b t) : Num t → Visits .term b t [.num] 0
  | bracket (b o bl t bl' c i k) : o ∈ ['(', '[', '{'] → c ∈ [')', ']', '}'] → Blank bl → Blank bl' →
      Visits .node (b ++ o :: bl) t [i] k → Visits .term b (o :: (bl ++ (t ++ (bl' ++ [c])))) [i] k
  | single (b t i k) : Visits .term b t [i] k → Visits .node b t [i] (1 + 3 * k)
  | gate (b t u op i j is k l) : Visits .term b t [i] k → Visits (.tail op) (b ++ t) u (j :: is) l →
      Visits .node b (t ++ u) [.gate op (i :: j :: is)] (1 + (if op = .and then 1 else 2) * k + l)
  | last (b op) : Visits (.tail op) b [] [] 0
  | next (b bl w bl' t u op i is k l) : Blank bl → Blank bl' → Word op.spellings w →
      Visits .term (b ++ (bl ++ (w ++ bl'))) t [i] k → Visits (.tail op) (b ++ (bl ++ (w ++ (bl' ++ t)))) u is l →
      Visits (.tail op) b (bl ++ (w ++ (bl' ++ (t ++ u)))) (i :: is) (k + l)

theorem Visits.human {k b t is n} (h : Visits k b t is n) : Human k b t is := by
  induction h with
  | attr b n h => exact .attr b n h
  | num b t h => exact .num b t h
  | bracket b o bl t bl' c i k ho hc h1 h2 _ ih => exact .bracket b o bl t bl' c i ho hc h1 h2 ih
  | single b t i k _ ih => exact .single b t i ih
  | gate b t u op i j is k l _ _ ih ih' => exact .gate b t u op i j is ih ih'
  | last b op => exact .last b op
  | next b bl w bl' t u op i is k l h1 h2 hw _ _ ih ih' => exact .next b bl w bl' t u op i is h1 h2 hw ih ih'

theorem exists_visits {k b t is} (h : Human k b t is) : ∃ n, Visits k b t is n := by
  induction h with
  | attr b n h => exact ⟨_, .attr b n h⟩
  | num b t h => exact ⟨_, .num b t h⟩
  | bracket b o bl t bl' c i ho hc h1 h2 _ ih =>
    obtain ⟨n, ih⟩ := ih; exact ⟨_, .bracket b o bl t bl' c i n ho hc h1 h2 ih⟩
  | single b t i _ ih => obtain ⟨n, ih⟩ := ih; exact ⟨_, .single b t i n ih⟩
  | gate b t u op i j is _ _ ih ih' =>
    obtain ⟨n, ih⟩ := ih; obtain ⟨m, ih'⟩ := ih'; exact ⟨_, .gate b t u op i j is n m ih ih'⟩
  | last b op => exact ⟨_, .last b op⟩
  | next b bl w bl' t u op i is h1 h2 hw _ _ ih ih' =>
    obtain ⟨n, ih⟩ := ih; obtain ⟨m, ih'⟩ := ih'
    exact ⟨_, .next b bl w bl' t u op i is n m h1 h2 hw ih ih'⟩

/-- What is to be shown for a phrase. -/
def Costs : HKind → Str → Str → ℕ → Prop
  | .term, b, t, n => ∀ fuel r, Stop r → t.length ≤ fuel →
      hTermSteps (hNode fuel) (hNodeSteps fuel) ⟨column b, t ++ r⟩ = n
  | .node, b, t, n => ∀ fuel r, (∀ op, Follow op r) → t.length < fuel → hNodeSteps fuel ⟨column b, t ++ r⟩ = n
  | .tail op, b, t, n => ∀ fuel r K, Follow op r → t.length ≤ fuel → t.length ≤ K →
      starTailSteps (hOpTerm op (hNode fuel)) (hOpTermSteps op (hNode fuel) (hNodeSteps fuel)) K
        ⟨column b, t ++ r⟩ = n

theorem opTermSteps_none {op : Op} {r : Str} (h : Follow op r) (node : P Pair) (c : PS → ℕ) (col : ℕ) :
    hOpTermSteps op node c (skip ⟨col, r⟩) = 0 := by
  obtain ⟨bl, r', rfl, hbl, ht, hw⟩ := h.noOp
  simp [skip_blank hbl ht, hOpTermSteps, opInner_eq, hw]

theorem skip_rest_nil {s : PS} (h : s.rest.length = 0) : (skip s).rest.length = 0 := by
  have := skip_le s; omega

/-- The bound on the number of repetitions does not matter once it reaches the number of characters left. -/
theorem starTailSteps_stable {x : P Pair} {c : PS → ℕ}
    (hx : ∀ s p s', x s = some (p, s') → s'.rest.length < s.rest.length)
    (hc : ∀ s : PS, s.rest.length = 0 → c s = 0) : ∀ K K' s, s.rest.length ≤ K → s.rest.length ≤ K' →
    starTailSteps x c K s = starTailSteps x c K' s := by
  have key : ∀ K s, s.rest.length = 0 → starTailSteps x c K s = 0 := by
    intro K s hs
    cases K with
    | zero => rfl
    | succ K =>
      have h0 := skip_rest_nil hs
      simp only [starTailSteps, hc _ h0]
      cases e : x (skip s) with
      | none => rfl
      | some q => have := hx _ q.1 q.2 e; omega
  intro K
  induction K with
  | zero => intro K' s h _; rw [key 0 s (by omega), key K' s (by omega)]
  | succ K ih =>
    intro K' s h h'
    cases K' with
    | zero => rw [key 0 s (by omega), key _ s (by omega)]
    | succ K' =>
      simp only [starTailSteps]
      cases e : x (skip s) with
      | none => rfl
      | some q =>
        have h1 := hx _ q.1 q.2 e
        have h2 := skip_le s
        simp only [ih K' q.2 (by omega) (by omega)]

theorem hOpTermSteps_nil {op : Op} {node : P Pair} {c : PS → ℕ} (s : PS) (h : s.rest.length = 0) :
    hOpTermSteps op node c s = 0 := by
  rcases s with ⟨col, r⟩
  obtain rfl : r = [] := List.length_eq_zero_iff.1 h
  have : opInner op ⟨col, []⟩ = none := by
    rw [opInner_eq]
    exact word_none (by cases op <;> simp [Op.spellings]) (by simp) col
  simp [hOpTermSteps, this]

/-- A gate reads its first operand and then the others. -/
theorem gateSteps {op : Op} {node : P Pair} (hn : Good node) {c : PS → ℕ} {s s1 : PS} {p : Pair} {K : ℕ}
    (h : hTerm node s = some (p, s1)) (hK : s1.rest.length ≤ K) :
    hGateSteps op node c s =
      hTermSteps node c s + starTailSteps (hOpTerm op node) (hOpTermSteps op node c) K s1 := by
  have hlt : ∀ s p s', hOpTerm op node s = some (p, s') → s'.rest.length < s.rest.length :=
    fun s p s' h => by have := hOpTerm_lt hn h; omega
  rw [starTailSteps_stable hlt hOpTermSteps_nil K (s1.rest.length + 2) s1 hK (by omega)]
  simp only [hGateSteps, h, starTailSteps]
  congr 2
  cases e : hOpTerm op node (skip s1) with
  | none => rfl
  | some q =>
    obtain ⟨p2, s2⟩ := q
    simp only [starSteps]
    congr 1
    cases e2 : hOpTerm op node (skip s2) with
    | none => rfl
    | some q2 =>
      obtain ⟨p3, s3⟩ := q2
      have h1 := hlt _ _ _ e
      have h2 := hlt _ _ _ e2
      have h3 := skip_le s1
      have h4 := skip_le s2
      exact starTailSteps_stable hlt hOpTermSteps_nil _ _ _ le_rfl (by omega)

theorem follow_tail {op : Op} {r : Str} (h : Follow op r) (node : P Pair) (c : PS → ℕ) (col K : ℕ) :
    starTailSteps (hOpTerm op node) (hOpTermSteps op node c) K ⟨col, r⟩ = 0 := by
  cases K with
  | zero => rfl
  | succ K => simp only [starTailSteps, opTermSteps_none h, h.opTerm_none]

theorem visits_costs {k b t is n} (h : Visits k b t is n) : Costs k b t n := by
  induction h with
  | attr b n hn =>
    intro fuel r _ _
    simp only [List.cons_append, List.append_assoc, List.nil_append, hTermSteps, hValueSteps, hValue, alt, altSteps,
      string_name hn]
  | num b t ht =>
    intro fuel r hr _
    have hs : string ⟨column b, t ++ r⟩ = none := by
      obtain ⟨sign, int, frac, exp, rfl, hsg, hi, -⟩ := (num_iff t).1 ht
      rcases hsg with rfl | rfl
      · obtain ⟨c, y, hc, h1, h2⟩ := intPart_head (r := (frac ++ exp) ++ r) hi
        have : c ≠ '"' := by rintro rfl; exact absurd h1 (by decide)
        have e : [] ++ (int ++ (frac ++ exp)) ++ r = c :: y := by simpa using hc
        rw [e]
        exact string_ne this _ _
      · exact string_ne (by decide) _ _
    simp only [hTermSteps, hValueSteps, hValue, alt, altSteps, hs, number_num ht hr]
  | bracket b o bl t bl' c i k ho hc hbl hbl' hn ih =>
    intro fuel r hr hl
    have h1 := ih fuel (bl' ++ c :: r) (fun op => follow_close op hbl' hc r) (by
      simp only [List.length_cons, List.length_append, List.length_nil] at hl; omega)
    have hos : o ≠ '"' ∧ isDigit o = false ∧ o ≠ '-' := by
      simp only [List.mem_cons, List.not_mem_nil, or_false] at ho
      rcases ho with rfl | rfl | rfl <;> decide
    have e : o :: (bl ++ (t ++ (bl' ++ [c]))) ++ r = o :: (bl ++ (t ++ (bl' ++ c :: r))) := by simp
    have hop : braceOpen ⟨column b, o :: (bl ++ (t ++ (bl' ++ c :: r)))⟩ =
        some ⟨nextCol (column b) o, bl ++ (t ++ (bl' ++ c :: r))⟩ := by
      simp only [List.mem_cons, List.not_mem_nil, or_false] at ho
      rcases ho with rfl | rfl | rfl <;> simp [braceOpen, orElse, lit]
    have hsk : skip ⟨nextCol (column b) o, bl ++ (t ++ (bl' ++ c :: r))⟩ =
        ⟨column (b ++ o :: bl), t ++ (bl' ++ c :: r)⟩ := by
      rw [skip_blank hbl (node_tok hn.human _), column_append, colAfter]
    rw [e]
    obtain ⟨q, s', h3, -, h4⟩ := human_accepts hn.human fuel (bl' ++ c :: r)
      (fun op => follow_close op hbl' hc r)
      (by simp only [List.length_cons, List.length_append, List.length_nil] at hl; omega)
    have hct : Tok (c :: r) := by
      simp only [List.mem_cons, List.not_mem_nil, or_false] at hc
      rcases hc with rfl | rfl | rfl <;> exact tok_cons (by decide) (by decide)
    have hs' : skip s' = ⟨colAfter (column (b ++ o :: bl ++ t)) bl', c :: r⟩ := by
      have : skip ⟨column (b ++ o :: bl ++ t), bl' ++ c :: r⟩ =
        ⟨colAfter (column (b ++ o :: bl ++ t)) bl', c :: r⟩ := skip_blank hbl' hct _
      rcases h4 with rfl | rfl
      · exact this
      · rw [this, skip_tok hct]
    have hcl : braceClose ⟨colAfter (column (b ++ o :: bl ++ t)) bl', c :: r⟩ =
        some ⟨nextCol (colAfter (column (b ++ o :: bl ++ t)) bl') c, r⟩ := by
      simp only [List.mem_cons, List.not_mem_nil, or_false] at hc
      rcases hc with rfl | rfl | rfl <;> simp [braceClose, orElse, lit]
    have hv : hValue (hNode fuel) ⟨column b, o :: (bl ++ (t ++ (bl' ++ c :: r)))⟩ =
        some (q, ⟨nextCol (colAfter (column (b ++ o :: bl ++ t)) bl') c, r⟩) := by
      simp only [hValue, alt, string_ne hos.1, number_ne hos.2.1 hos.2.2, bracketed, hop, Option.bind_eq_bind,
        Option.bind_some, hsk, h3, hs', hcl, Option.pure_def]
    simp only [hTermSteps, hValueSteps, altSteps, hv, string_ne hos.1, number_ne hos.2.1 hos.2.2, bracketedSteps,
      hop, hsk, h1]
    ring
  | single b t i k h ih =>
    intro fuel r hf hl
    obtain ⟨f, rfl⟩ : ∃ f, fuel = f + 1 := ⟨fuel - 1, by omega⟩
    obtain ⟨p, h1, h2⟩ := human_accepts h.human f r (hf .and).stop (by omega)
    have hc := ih f r (hf .and).stop (by omega)
    have hg : ∀ op, hGateSteps op (hNode f) (hNodeSteps f) ⟨column b, t ++ r⟩ = k := fun op => by
      rw [gateSteps (good_hNode f) h1 le_rfl, hc, follow_tail (hf op), Nat.add_zero]
    simp only [hNodeSteps, altSteps, hGate_none h1 ((hf .and).opTerm_none _ _),
      hGate_none h1 ((hf .or).opTerm_none _ _), hg, hc]
    ring
  | gate b t u op i j is k l h hu ih ihu =>
    intro fuel r hf hl
    obtain ⟨f, rfl⟩ : ∃ f, fuel = f + 1 := ⟨fuel - 1, by omega⟩
    simp only [List.length_append] at hl
    have hst := tail_stop hu.human (hf .and).stop
    obtain ⟨p, h1, h2⟩ := human_accepts h.human f (u ++ r) hst (by omega)
    obtain ⟨ps, h3, h4⟩ := human_accepts hu.human f r (hf op).stop (by simpa using (hf op).opTerm_none _ _) (by omega)
    have hc := ih f (u ++ r) hst (by omega)
    have hg : hGateSteps op (hNode f) (hNodeSteps f) ⟨column b, t ++ (u ++ r)⟩ = k + l := by
      rw [gateSteps (good_hNode f) h1 le_rfl, hc, ihu f r _ (hf op) (by omega) (by simp)]
    cases ps with
    | nil => simp at h4
    | cons p2 ps =>
      obtain ⟨s', h5, h6⟩ := hGate_accepts h1 h3
      rw [List.append_assoc]
      cases op with
      | and =>
        simp only [hNodeSteps, altSteps, h5, hg, if_true]
        ring
      | or =>
        have hfol : Follow .and (u ++ r) := by
          cases hu with
          | next =>
            rename_i hbl hbl' hw _ _
            simp only [List.append_assoc]
            exact follow_other (by decide : Op.and ≠ .or) hbl hw _
        have hg' : hGateSteps .and (hNode f) (hNodeSteps f) ⟨column b, t ++ (u ++ r)⟩ = k := by
          rw [gateSteps (good_hNode f) h1 le_rfl, hc, follow_tail hfol, Nat.add_zero]
        simp only [hNodeSteps, altSteps, hGate_none h1 (hfol.opTerm_none _ _), h5, hg, hg', reduceCtorEq, if_false]
        ring
  | last b op =>
    intro fuel r K hf _ _
    exact follow_tail hf _ _ _ _
  | next b bl w bl' t u op i is k l hbl hbl' hw ht hu ih ihu =>
    intro fuel r K hf hl hK
    simp only [List.length_append] at hl hK
    have hst := tail_stop hu.human hf.stop
    obtain ⟨p, h1, h2⟩ := human_accepts ht.human fuel (u ++ r) hst (by omega)
    have hc := ih fuel (u ++ r) hst (by omega)
    obtain ⟨c, cs, rfl, -⟩ := term_head ht.human
    obtain ⟨K, rfl⟩ : ∃ K', K = K' + 1 := ⟨K - 1, by simp only [List.length_cons] at hK; omega⟩
    have hd := ihu fuel r K hf (by omega) (by simp only [List.length_cons] at hK; omega)
    simp only [List.append_assoc] at h1 hd hc ⊢
    have e : skip ⟨column b, bl ++ (w ++ (bl' ++ ((c :: cs) ++ (u ++ r))))⟩ =
        ⟨colAfter (column b) bl, w ++ (bl' ++ ((c :: cs) ++ (u ++ r)))⟩ := skip_blank hbl (word_tok hw _) _
    have e2 : skip ⟨colAfter (colAfter (column b) bl) w, bl' ++ ((c :: cs) ++ (u ++ r))⟩ =
        ⟨column (b ++ (bl ++ (w ++ bl'))), (c :: cs) ++ (u ++ r)⟩ := by
      rw [skip_blank hbl' (term_tok ht.human _)]
      simp only [column_append, colAfter_append]
    have e3 : opInner op ⟨colAfter (column b) bl, w ++ (bl' ++ ((c :: cs) ++ (u ++ r)))⟩ =
        some ⟨colAfter (colAfter (column b) bl) w, bl' ++ ((c :: cs) ++ (u ++ r))⟩ := by
      rw [opInner_eq, word_Word (keywords_op op) hw]
    have e4 : hOpTerm op (hNode fuel) ⟨colAfter (column b) bl, w ++ (bl' ++ ((c :: cs) ++ (u ++ r)))⟩ =
        some (p, ⟨column (b ++ (bl ++ (w ++ (bl' ++ (c :: cs))))), u ++ r⟩) := by
      simp only [hOpTerm, e3, Option.bind_eq_bind, Option.bind_some]
      rw [e2, h1]
    simp only [starTailSteps, e, e4]
    rw [hd]
    simp only [hOpTermSteps, e3]
    rw [e2, hc]

/-! ## Human language: an upper bound for all texts -/

/-- The number of opening brackets in a text. -/
def opens (r : Str) : ℕ := r.countP fun c => c == '(' || c == '[' || c == '{'

/-- `c` is at most `B` wherever at most `L` characters and `d` opening brackets are left. -/
def Bound (c : PS → ℕ) (L d B : ℕ) : Prop := ∀ s : PS, s.rest.length ≤ L → opens s.rest ≤ d → c s ≤ B

theorem reads_opens {s s' : PS} (h : Reads s s') : opens s'.rest ≤ opens s.rest := by
  obtain ⟨a, ha, _⟩ := h
  rw [ha]; simp [opens]

theorem open_opens {s s' : PS} {o : PS → Option PS} (ho : o = braceOpen ∨ o = lit ['(']) (h : o s = some s') :
    opens s'.rest + 1 ≤ opens s.rest ∧ s'.rest.length ≤ s.rest.length := by
  have key : ∀ c, c ∈ ['(', '[', '{'] → lit [c] s = some s' →
      opens s'.rest + 1 ≤ opens s.rest ∧ s'.rest.length ≤ s.rest.length := by
    intro c hc h
    have := (Took.of_lit h).1
    rw [this]
    simp only [List.mem_cons, List.not_mem_nil, or_false] at hc
    rcases hc with rfl | rfl | rfl <;> simp [opens]
  rcases ho with rfl | rfl
  · simp only [braceOpen, orElse] at h
    cases e : lit ['('] s with
    | some t => simp only [e] at h; exact key '(' (by simp) (by rw [e, h])
    | none =>
      simp only [e] at h
      cases e2 : lit ['['] s with
      | some t => simp only [e2] at h; exact key '[' (by simp) (by rw [e2, h])
      | none => simp only [e2] at h; exact key _ (by simp) h
  · exact key _ (by simp) h

theorem bracketed_bound {o : PS → Option PS} (ho : o = braceOpen ∨ o = lit ['(']) {c : PS → ℕ} {L d B : ℕ}
    (h : ∀ d', d' < d → Bound c L d' B) : Bound (bracketedSteps o c) L d B := by
  intro s hs hd
  simp only [bracketedSteps]
  cases e : o s with
  | none => exact Nat.zero_le _
  | some s1 =>
    have h1 := open_opens ho e
    have h2 := skip_le s1
    have h3 := reads_opens (reads_skip s1)
    exact h (d - 1) (by omega) _ (by omega) (by omega)

theorem term_bound {node : P Pair} {c : PS → ℕ} {L d B : ℕ} (h : ∀ d', d' < d → Bound c L d' B) :
    Bound (hTermSteps node c) L d (2 * B) := by
  intro s hs hd
  have h1 := bracketed_bound (.inl rfl) h s hs hd
  have h2 := bracketed_bound (.inr rfl) h s hs hd
  have h3 : hValueSteps c s ≤ B := by
    simp only [hValueSteps, altSteps]
    split
    · simp
    · split
      · simp
      · simpa using h1
  simp only [hTermSteps, altSteps]
  split <;> omega

theorem opTerm_bound {op : Op} {node : P Pair} {c : PS → ℕ} {L d B : ℕ} (h : ∀ d', d' < d → Bound c L d' B) :
    Bound (hOpTermSteps op node c) L d (2 * B) := by
  intro s hs hd
  simp only [hOpTermSteps]
  cases e : opInner op s with
  | none => exact Nat.zero_le _
  | some s1 =>
    have h1 := (rec_opInner op _ _ e).1
    have h2 := h1.trans (reads_skip s1)
    exact term_bound h _ (by have := h2.le; omega) (by have := reads_opens h2; omega)

theorem starTail_bound {x : P Pair} (hx : Good x) {c : PS → ℕ} {L d B : ℕ} (h : Bound c L d B) : ∀ K,
    Bound (starTailSteps x c K) L d (K * B) := by
  intro K
  induction K with
  | zero => intro s _ _; simp [starTailSteps]
  | succ K ih =>
    intro s hs hd
    have h1 := skip_le s
    have h2 := reads_opens (reads_skip s)
    have h3 := h (skip s) (by omega) (by omega)
    simp only [starTailSteps]
    cases e : x (skip s) with
    | none => simp only; nlinarith
    | some q =>
      have h4 := (hx _ _ _ e).reads
      have := ih q.2 (by have := h4.le; omega) (by have := reads_opens h4; omega)
      simp only
      nlinarith

theorem gate_bound {op : Op} {node : P Pair} (hn : Good node) {c : PS → ℕ} {L d B : ℕ}
    (h : ∀ d', d' < d → Bound c L d' B) : Bound (hGateSteps op node c) L d ((L + 1) * (2 * B)) := by
  intro s hs hd
  have h1 := term_bound (node := node) h s hs hd
  cases e : hTerm node s with
  | none =>
    simp only [hGateSteps, e]
    nlinarith
  | some q =>
    obtain ⟨p, s1⟩ := q
    have h2 := (good_hTerm hn _ _ _ e).reads
    have h3 := h2.le
    rw [gateSteps hn e (K := L) (by omega)]
    have := starTail_bound (good_hOpTerm (op := op) hn) (opTerm_bound (op := op) (node := node) h) L s1 (by omega)
      (by have := reads_opens h2; omega)
    nlinarith

theorem node_bound (L : ℕ) : ∀ fuel d, Bound (hNodeSteps fuel) L d ((4 * L + 7) ^ d) := by
  intro fuel
  induction fuel with
  | zero => intro d s _ _; simpa [hNodeSteps] using Nat.one_le_pow _ _ (by omega)
  | succ n ih =>
    intro d s hs hd
    cases d with
    | zero =>
      have h0 : ∀ d', d' < 0 → Bound (hNodeSteps n) L d' 0 := fun d' h => absurd h (by omega)
      have h1 := gate_bound (op := .and) (good_hNode n) h0 s hs hd
      have h2 := gate_bound (op := .or) (good_hNode n) h0 s hs hd
      have h3 := term_bound (node := hNode n) h0 s hs hd
      simp only [hNodeSteps, altSteps]
      split
      · simp_all
      · split <;> simp_all
    | succ d =>
      have hp : 1 ≤ (4 * L + 7) ^ d := Nat.one_le_pow _ _ (by omega)
      have h0 : ∀ d', d' < d + 1 → Bound (hNodeSteps n) L d' ((4 * L + 7) ^ d) := fun d' h s hs hd =>
        (ih d' s hs hd).trans (Nat.pow_le_pow_right (by omega) (by omega))
      have h1 := gate_bound (op := .and) (good_hNode n) h0 s hs hd
      have h2 := gate_bound (op := .or) (good_hNode n) h0 s hs hd
      have h3 := term_bound (node := hNode n) h0 s hs hd
      rw [pow_succ]
      simp only [hNodeSteps, altSteps]
      split
      · nlinarith
      · split <;> nlinarith

end Steps

open Steps

/-- **C74, JSON.** Parsing a text of the JSON language, accepted or not, enters the rule `node` at most once per character
and once more. -/
theorem C74_json_linear (text : Str) : parseSteps text .json ≤ text.length + 1 := by
  have := (jNode_lin (text.length + 1) (skip ⟨1, text⟩)).2
  have h2 := skip_le ⟨1, text⟩
  simp only [parseSteps]
  simp only at h2
  omega

/-- **C74, JSON, exact number.** Parsing an accepted text of the JSON language enters the rule `node` once for each leaf and
each gate of the policy. -/
theorem C74_json_exact (text : Str) (p : Pol) (h : Denotes text .json p) : parseSteps text .json = polNodes p := by
  have h1 : parse text .json = .ok p.toValue := h
  rw [parse_eq] at h1
  cases e : content (nodeOf .json text.length) text with
  | none => simp [e] at h1
  | some q =>
    simp only [e] at h1
    split at h1
    · cases h1
    · simp only [Res.ok.injEq] at h1
      rw [← toValue_inj _ _ h1, polNodes_toPol]
      simp only [content, Option.bind_eq_bind, Option.bind_eq_some_iff, Prod.exists] at e
      obtain ⟨q', s, h2, h3⟩ := e
      split at h3
      · simp only [Option.some.injEq] at h3
        subst h3
        exact jNode_counts _ _ _ _ h2
      · simp at h3

/-- **C74, human language, exact number.** For every text of the human language: a bracketed or atomic operand standing
alone is read three times, the first operand of an OR twice, and these factors multiply along nested brackets
(`Visits`). -/
theorem C74_human_exact (bl t bl' : Str) (i : Item) (n : ℕ) (hbl : Blank bl) (hbl' : Blank bl')
    (h : Visits .node bl t [i] n) : parseSteps (bl ++ (t ++ bl')) .human = n := by
  have h1 := visits_costs h ((bl ++ (t ++ bl')).length + 1) bl' (fun op => follow_end op hbl')
    (by simp only [List.length_append]; omega)
  simp only [parseSteps]
  rw [skip_blank hbl (node_tok h.human _), ← h1]
  have := column_append [] bl
  simp only [List.nil_append] at this
  rw [this]
  rfl

/-- **C74, human language, upper bound, partial.** For every text, accepted or not, the number of entries is at most a power
of the length, with the number of opening brackets as exponent; without brackets it is one. (Full claim: polynomial in
the length; false, see `C74_violated`.) -/
theorem C74_human_upper_partial (text : Str) : parseSteps text .human ≤ (4 * text.length + 7) ^ opens text := by
  have h1 := skip_le ⟨1, text⟩
  have h2 := reads_opens (reads_skip ⟨1, text⟩)
  exact node_bound text.length _ _ _ h1 h2

/-- `n` pairs of round brackets around `"A"`. -/
def nested : ℕ → Str
  | 0 => chars% "\"A\""
  | n + 1 => '(' :: (nested n ++ [')'])

/-- `"A" or "C"`, then `(("A" or "C") and "B") or "C"`, and so on: no bracket is superfluous. -/
def alternating : ℕ → Str
  | 0 => chars% "\"A\" or \"C\""
  | n + 1 => chars% "((" ++ alternating n ++ chars% ") and \"B\") or \"C\""

theorem nested_length (n : ℕ) : (nested n).length = 2 * n + 3 := by
  induction n with
  | zero => rfl
  | succ n ih => simp [nested, ih]; omega

theorem alternating_length (n : ℕ) : (alternating n).length = 19 * n + 10 := by
  induction n with
  | zero => rfl
  | succ n ih => simp [alternating, ih]; omega

theorem name_one {c : Char} (h : c ≠ '"') (h' : c ≠ '\\') : Name [c] := .plain c [] h h' .nil

theorem nested_visits : ∀ (n : ℕ) (b : Str), ∃ col,
    Visits .node b (nested n) [.attr ['A'] col] ((3 ^ (n + 1) - 1) / 2) := by
  intro n
  induction n with
  | zero =>
    intro b
    exact ⟨_, .single b _ _ 0 (.attr b ['A'] (name_one (by decide) (by decide)))⟩
  | succ n ih =>
    intro b
    obtain ⟨col, h⟩ := ih (b ++ '(' :: [])
    refine ⟨col, ?_⟩
    have h1 := Visits.single b _ _ _ (.bracket b '(' [] (nested n) [] ')' _ _ (by simp) (by simp) .nil .nil h)
    have h2 : 1 + 3 * ((3 ^ (n + 1) - 1) / 2) = (3 ^ (n + 1 + 1) - 1) / 2 := by
      obtain ⟨m, hm⟩ := (by decide : Odd 3).pow (n := n + 1)
      rw [pow_succ 3 (n + 1), hm]
      omega
    rw [← h2]
    exact h1

theorem alternating_visits : ∀ (n : ℕ) (b : Str), ∃ p : Pol,
    Visits .node b (alternating n) [p.item] (2 ^ (n + 2) - 3) := by
  have hsp : Blank [' '] := .space ' ' [] (by simp) .nil
  -- `op "X"` after an operand
  have tail : ∀ (b : Str) (op : Op) (w : Str) (c : Char), w ∈ op.spellings → c ≠ '"' → c ≠ '\\' → ∃ col,
      Visits (.tail op) b ([' '] ++ (w ++ ([' '] ++ ('"' :: ([c] ++ ['"']) ++ [])))) [.attr [c] col] (0 + 0) := by
    intro b op w c hw h h'
    exact ⟨_, .next b [' '] w [' '] _ [] op _ [] 0 0 hsp hsp (.inl hw) (.attr _ [c] (name_one h h')) (.last _ _)⟩
  intro n
  induction n with
  | zero =>
    intro b
    obtain ⟨col, h⟩ := tail (b ++ '"' :: (['A'] ++ ['"'])) .or ['o', 'r'] 'C' (by simp [Op.spellings]) (by decide)
      (by decide)
    exact ⟨.gate .or [.leaf ['A'] _, .leaf ['C'] col],
      .gate b _ _ .or _ _ [] 0 0 (.attr b ['A'] (name_one (by decide) (by decide))) h⟩
  | succ n ih =>
    intro b
    obtain ⟨p, h⟩ := ih (b ++ '(' :: [] ++ '(' :: [])
    have h1 := Visits.bracket (b ++ '(' :: []) '(' [] (alternating n) [] ')' _ _ (by simp) (by simp) .nil .nil h
    obtain ⟨col, h2⟩ := tail (b ++ '(' :: [] ++ '(' :: ([] ++ (alternating n ++ ([] ++ [')'])))) .and ['a', 'n', 'd'] 'B'
      (by simp [Op.spellings]) (by decide) (by decide)
    have h3 := Visits.gate _ _ _ .and _ _ [] _ _ h1 h2
    have h4 := Visits.bracket b '(' [] _ [] ')' _ _ (by simp) (by simp) .nil .nil h3
    obtain ⟨col', h5⟩ := tail (b ++ '(' :: ([] ++ ('(' :: ([] ++ (alternating n ++ ([] ++ [')']))) ++
      ([' '] ++ (['a', 'n', 'd'] ++ ([' '] ++ ('"' :: (['B'] ++ ['"']) ++ [])))) ++ ([] ++ [')'])))) .or ['o', 'r'] 'C'
      (by simp [Op.spellings]) (by decide) (by decide)
    have h6 := Visits.gate _ _ _ .or _ _ [] _ _ h4 h5
    refine ⟨.gate .or [.gate .and [p, .leaf ['B'] col], .leaf ['C'] col'], ?_⟩
    have e : 1 + (if Op.or = Op.and then 1 else 2) *
        (1 + (if Op.and = Op.and then 1 else 2) * (2 ^ (n + 2) - 3) + (0 + 0)) + (0 + 0) = 2 ^ (n + 1 + 2) - 3 := by
      have : 4 ≤ 2 ^ (n + 2) := by
        calc 4 = 2 ^ 2 := rfl
          _ ≤ _ := Nat.pow_le_pow_right (by omega) (by omega)
      rw [show n + 1 + 2 = (n + 2) + 1 from rfl, pow_succ 2 (n + 2)]
      simp only [reduceCtorEq, if_false, if_true]
      omega
    rw [← e]
    convert h6 using 1
    · simp [alternating]
    · simp [Pol.item, Pol.itemL]

/-- **C74 is violated for the human language.** Each further pair of brackets around `"A"` multiplies the number of entries
by three: the text with `n` pairs has `2 n + 3` characters, is accepted and stands for the attribute `A`. -/
theorem C74_violated_nested (n : ℕ) : ∃ col, Denotes (nested n) .human (.leaf ['A'] col) ∧
    (nested n).length = 2 * n + 3 ∧ parseSteps (nested n) .human = (3 ^ (n + 1) - 1) / 2 := by
  obtain ⟨col, h⟩ := nested_visits n []
  refine ⟨col, (C58_human_parse_iff _ _).2 ⟨.leaf ['A'] col, rfl, [], nested n, [], by simp, .nil, .nil, h.human⟩,
    nested_length n, ?_⟩
  simpa using C74_human_exact [] (nested n) [] _ _ .nil .nil h

/-- **C74 is violated for the human language**, also without superfluous brackets: alternating AND and OR in the first
operand doubles the number of entries with every 19 characters. -/
theorem C74_violated_alternating (n : ℕ) : ∃ p, Denotes (alternating n) .human p ∧
    (alternating n).length = 19 * n + 10 ∧ parseSteps (alternating n) .human = 2 ^ (n + 2) - 3 := by
  obtain ⟨p, h⟩ := alternating_visits n []
  refine ⟨p, (C58_human_parse_iff _ _).2 ⟨p, rfl, [], alternating n, [], by simp, .nil, .nil, h.human⟩,
    alternating_length n, ?_⟩
  simpa using C74_human_exact [] (alternating n) [] _ _ .nil .nil h

/-- **C74 is violated for the human language.** No polynomial in the length of the text bounds the number of entries, even
for accepted texts. -/
theorem C74_violated : ¬ ∃ c k : ℕ, ∀ text p, Denotes text .human p →
    parseSteps text .human ≤ c * (text.length + 1) ^ k := by
  rintro ⟨c, k, h⟩
  have h1 : ∀ m : ℕ, 1 ≤ m → (3 : ℝ) ^ m ≤ (2 * c * 4 ^ k + 1) * (m : ℝ) ^ k := by
    intro m hm
    obtain ⟨col, h2, h3, h4⟩ := C74_violated_nested (m - 1)
    have h5 := h _ _ h2
    rw [h3, h4, Nat.sub_add_cancel hm] at h5
    have h6 : (2 * (m - 1) + 3 + 1) ^ k ≤ 4 ^ k * m ^ k := by
      rw [← mul_pow]; exact Nat.pow_le_pow_left (by omega) k
    have h7 : 3 ^ m ≤ 2 * (c * (4 ^ k * m ^ k)) + 1 := by
      have := Nat.mul_le_mul_left c h6
      obtain ⟨j, hj⟩ := (by decide : Odd 3).pow (n := m)
      omega
    have h8 : 1 ≤ m ^ k := Nat.one_le_pow _ _ hm
    have h9 : 3 ^ m ≤ (2 * c * 4 ^ k + 1) * m ^ k := by nlinarith
    exact_mod_cast h9
  have h2 := tendsto_pow_const_div_const_pow_of_one_lt k (by norm_num : (1 : ℝ) < 3)
  have hC : (0 : ℝ) < 2 * c * 4 ^ k + 1 := by positivity
  have h3 := (h2.eventually (gt_mem_nhds (inv_pos.2 hC))).and (Filter.eventually_ge_atTop 1)
  obtain ⟨m, h4, h5⟩ := h3.exists
  have h6 := h1 m h5
  have h7 : (0 : ℝ) < 3 ^ m := by positivity
  rw [div_lt_iff₀ h7, inv_mul_eq_div, lt_div_iff₀ hC] at h4
  linarith

theorem unclosed_steps : ∀ (n fuel col : ℕ), n ≤ fuel →
    5 * hNodeSteps fuel ⟨col, List.replicate n '('⟩ + 1 = 6 ^ (n + 1) ∧
      hNode fuel ⟨col, List.replicate n '('⟩ = none := by
  intro n
  induction n with
  | zero =>
    intro fuel col _
    cases fuel with
    | zero => simp [hNodeSteps, hNode]
    | succ f =>
      have h1 : string ⟨col, []⟩ = none := by simp [string, lit]
      have h2 : number ⟨col, []⟩ = none := rfl
      simp [hNodeSteps, hNode, altSteps, hGateSteps, hGate, hTermSteps, hTerm, hValueSteps, hValue, alt, bracketedSteps,
        bracketed, braceOpen, orElse, lit, h1, h2]
  | succ n ih =>
    intro fuel col hf
    obtain ⟨f, rfl⟩ : ∃ f, fuel = f + 1 := ⟨fuel - 1, by omega⟩
    obtain ⟨h3, h4⟩ := ih f (nextCol col '(') (by omega)
    rw [List.replicate_succ]
    have h1 := string_ne (by decide : '(' ≠ '"') (List.replicate n '(') col
    have h2 := number_ne (by decide : isDigit '(' = false) (by decide : '(' ≠ '-') (List.replicate n '(') col
    have hsk : skip ⟨nextCol col '(', List.replicate n '('⟩ = ⟨nextCol col '(', List.replicate n '('⟩ := by
      apply skip_tok
      cases n with
      | zero => exact tok_nil
      | succ n => rw [List.replicate_succ]; exact tok_cons (by decide) (by decide)
    have h5 : lit ['('] ⟨col, '(' :: List.replicate n '('⟩ = some ⟨nextCol col '(', List.replicate n '('⟩ := by simp [lit]
    have h6 : braceOpen ⟨col, '(' :: List.replicate n '('⟩ = some ⟨nextCol col '(', List.replicate n '('⟩ := by
      simp [braceOpen, orElse, h5]
    have ht : hTerm (hNode f) ⟨col, '(' :: List.replicate n '('⟩ = none := by
      simp [hTerm, hValue, alt, h1, h2, bracketed, h5, h6, hsk, h4]
    have hv : hValue (hNode f) ⟨col, '(' :: List.replicate n '('⟩ = none := by
      simp [hValue, alt, h1, h2, bracketed, h6, hsk, h4]
    have hts : hTermSteps (hNode f) (hNodeSteps f) ⟨col, '(' :: List.replicate n '('⟩ =
        2 * hNodeSteps f ⟨nextCol col '(', List.replicate n '('⟩ := by
      simp only [hTermSteps, hValueSteps, altSteps, hv, h1, h2, bracketedSteps, h5, h6, hsk]
      ring
    have hg : ∀ op, hGate op (hNode f) ⟨col, '(' :: List.replicate n '('⟩ = none := fun op => by
      simp [hGate, ht]
    refine ⟨?_, by simp [hNode, alt, hg, ht]⟩
    simp only [hNodeSteps, altSteps, hGateSteps, hg, ht, hts]
    rw [pow_succ, ← h3]
    generalize hNodeSteps f _ = k
    ring

/-- **C74 is violated for the human language**, worst for texts that are refused: on `n` opening brackets and nothing else,
every bracket is tried under three alternatives of `node` and twice under each, so each further bracket multiplies the
number of entries by six. -/
theorem C74_violated_unclosed (n : ℕ) : parse (List.replicate n '(') .human = .err ∧
    parseSteps (List.replicate n '(') .human = (6 ^ (n + 1) - 1) / 5 := by
  have hsk : skip ⟨1, List.replicate n '('⟩ = ⟨1, List.replicate n '('⟩ := by
    apply skip_tok
    cases n with
    | zero => exact tok_nil
    | succ n => rw [List.replicate_succ]; exact tok_cons (by decide) (by decide)
  obtain ⟨h1, h2⟩ := unclosed_steps n (n + 1) 1 (by omega)
  constructor
  · rw [parse_eq]
    simp [content, nodeOf, hsk, h2]
  · simp only [parseSteps, hsk, List.length_replicate]
    omega

/-- Example for C74: three pairs of brackets take 40 entries, the JSON text of the same policy one; a rejected text. -/
example : parseSteps (chars% "(((\"A\")))") .human = 40 ∧ parseSteps (chars% "{\"name\": \"A\"}") .json = 1 ∧
    parseSteps (chars% "(((") .human = 259 ∧
    parseSteps (chars% "{\"name\": \"or\", \"children\": [{\"name\": \"A\"}, {\"name\": \"B\"}]}") .json = 3 ∧
    opens (chars% "\"A\" and \"B\"") = 0 := by
  decide +kernel

set_option maxRecDepth 8000 in
/-- Example for C74: an accepted text of the JSON language with two gates, the inner one empty, and two leaves. -/
example : Denotes (chars%
      "{\"name\": \"or\", \"children\": [{\"name\": \"A\"}, {\"name\": \"and\", \"children\": []}, {\"name\": \"B\"}]}")
      .json (.gate .or [.leaf ['A'] 39, .gate .and [], .leaf ['B'] 87]) ∧
    polNodes (.gate .or [.leaf ['A'] 39, .gate .and [], .leaf ['B'] 87]) = 4 :=
  ⟨rfl, rfl⟩

/-- Example for C74: an alternation of depth two. -/
example : parseSteps (chars% "((\"A\" or \"C\") and \"B\") or \"C\"") .human = 5 := by decide +kernel

end Rabe
