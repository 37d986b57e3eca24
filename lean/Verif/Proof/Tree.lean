import Verif.Proof.Lagrange

/-!
# Policy check, pruning, shares and coefficients on access trees
-/

set_option linter.unusedSectionVars false

namespace Rabe

variable {F : Type} [Field F] [DecidableEq F]

/-! ## `traverse_policy` -/

theorem traverseAnd_eq (A : List Str) (cs : List PolicyValue) : ∀ r,
    traverseAnd A cs r = (r && cs.all fun c => traversePolicy A c .leaf) := by
  induction cs with
  | nil => intro r; simp [traverseAnd]
  | cons c cs ih => intro r; simp [traverseAnd, ih, Bool.and_assoc]

theorem traverseOr_eq (A : List Str) (cs : List PolicyValue) : ∀ r,
    traverseOr A cs r = (r || cs.any fun c => traversePolicy A c .leaf) := by
  induction cs with
  | nil => intro r; simp [traverseOr]
  | cons c cs ih => intro r; simp [traverseOr, ih, Bool.or_assoc]

theorem traverse_nil (v : PolicyValue) (ty) : traversePolicy [] v ty = false := by
  cases v <;> simp [traversePolicy]

theorem traverse_eq_sat (A : List Str) (hA : A ≠ []) : ∀ p : Pol, ∀ ty,
    traversePolicy A p.toValue ty = p.sat A := by
  have hlen : decide (0 < A.length) = true := by
    simp [List.length_pos_iff, hA]
  apply Pol.ind
  · intro n c ty
    simp only [Pol.toValue_leaf, traversePolicy, hlen, Bool.true_and, Pol.sat_leaf]
    rw [Bool.eq_iff_iff]
    simp
  · intro op cs ih ty
    cases op
    · simp only [Pol.toValue_gate, Op.toType, traversePolicy, hlen, Bool.true_and, traverseAnd_eq,
        Pol.sat_and, List.all_map]
      rw [Bool.eq_iff_iff, List.all_eq_true, List.all_eq_true]
      constructor
      · intro h c hc; rw [← ih c hc .leaf]; exact h c hc
      · intro h c hc; simp only [Function.comp]; rw [ih c hc .leaf]; exact h c hc
    · simp only [Pol.toValue_gate, Op.toType, traversePolicy, hlen, Bool.true_and, traverseOr_eq,
        Pol.sat_or, List.any_map, Bool.false_or]
      rw [Bool.eq_iff_iff, List.any_eq_true, List.any_eq_true]
      constructor
      · rintro ⟨c, hc, h⟩; exact ⟨c, hc, by rw [← ih c hc .leaf]; exact h⟩
      · rintro ⟨c, hc, h⟩; exact ⟨c, hc, by simp only [Function.comp]; rw [ih c hc .leaf]; exact h⟩

/-! ## `calc_pruned` -/

theorem contains_iff (A : List Str) (x : Str) : contains A x = decide (x ∈ A) := by
  unfold contains
  rw [Bool.eq_iff_iff]
  simp only [decide_eq_true_eq]
  rw [Nat.one_le_iff_ne_zero, ← Nat.pos_iff_ne_zero, List.length_pos_iff_exists_mem]
  simp

mutual
/-- The leaves pruning selects: all children of an AND gate, the first satisfied child of an OR gate. -/
def pick (A : List Str) : Pol → List (Str × ℕ)
  | .leaf n c => if n ∈ A then [(n, c)] else []
  | .gate .and cs => if Pol.satAll A cs then pickAll A cs else []
  | .gate .or cs => pickFirst A cs
/-- Concatenation of the selections of all trees. -/
def pickAll (A : List Str) : List Pol → List (Str × ℕ)
  | [] => []
  | c :: cs => pick A c ++ pickAll A cs
/-- Selection of the first satisfied tree. -/
def pickFirst (A : List Str) : List Pol → List (Str × ℕ)
  | [] => []
  | c :: cs => if Pol.sat A c then pick A c else pickFirst A cs
end

/-- Name and label of a leaf, the entries of the pruned list. -/
def leafKey (l : Str × ℕ) : Str × Str := (l.1, nodeIndex l.1 l.2)

theorem prunedAnd_eq (A : List Str) (cs : List Pol)
    (ih : ∀ c ∈ cs, calcPruned A c.toValue none = .ok (c.sat A, (pick A c).map leafKey)) :
    ∀ m acc, prunedAnd A (cs.map Pol.toValue) m acc =
      .ok (m && Pol.satAll A cs,
        if m && Pol.satAll A cs then acc ++ (pickAll A cs).map leafKey else []) := by
  induction cs with
  | nil => intro m acc; cases m <;> simp [prunedAnd, Pol.satAll, pickAll]
  | cons c cs ihc =>
    intro m acc
    simp only [List.map_cons, prunedAnd, ih c (by simp), Res.unwrap_ok, Res.ok_bind]
    rw [ihc (fun d hd => ih d (by simp [hd]))]
    simp only [Pol.satAll, pickAll, List.map_append]
    cases m <;> cases hc : c.sat A <;> cases hs : Pol.satAll A cs <;> simp

theorem prunedOr_eq (A : List Str) (cs : List Pol)
    (ih : ∀ c ∈ cs, calcPruned A c.toValue none = .ok (c.sat A, (pick A c).map leafKey)) :
    ∀ acc, prunedOr A (cs.map Pol.toValue) acc =
      .ok (Pol.satAny A cs, acc ++ (pickFirst A cs).map leafKey) := by
  induction cs with
  | nil => intro acc; simp [prunedOr, Pol.satAny, pickFirst]
  | cons c cs ihc =>
    intro acc
    simp only [List.map_cons, prunedOr, ih c (by simp), Res.unwrap_ok, Res.ok_bind]
    rw [ihc (fun d hd => ih d (by simp [hd]))]
    simp only [Pol.satAny, pickFirst]
    cases hc : c.sat A <;> simp

theorem calcPruned_eq (A : List Str) : ∀ p : Pol, p.Wide →
    calcPruned A p.toValue none = .ok (p.sat A, (pick A p).map leafKey) := by
  intro p
  induction p using Pol.ind with
  | hl n c =>
    intro _
    simp only [Pol.toValue_leaf, calcPruned, contains_iff, Pol.sat_leaf, pick]
    by_cases h : n ∈ A <;> simp [h, leafKey]
  | hg op cs ih =>
    intro hw
    simp only [Pol.Wide, Pol.arity_gate] at hw
    have ih' := fun c hc => ih c hc (hw.2 c hc)
    cases op
    · simp only [Pol.toValue_gate, Op.toType, calcPruned, List.length_map, hw.1, if_true,
        prunedAnd_eq A cs ih', Bool.true_and, Pol.sat, pick]
      cases Pol.satAll A cs <;> simp
    · simp only [Pol.toValue_gate, Op.toType, calcPruned, List.length_map, hw.1, if_true,
        prunedOr_eq A cs ih', Pol.sat, pick]
      simp

mutual
/-- All gates that pruning visits have at least two children: all children of an AND gate are visited, the children of an
OR gate up to the first satisfied one. -/
def Reach (A : List Str) : Pol → Prop
  | .leaf _ _ => True
  | .gate .and cs => 2 ≤ cs.length ∧ ReachAll A cs
  | .gate .or cs => 2 ≤ cs.length ∧ ReachFirst A cs
/-- `Reach` for all trees. -/
def ReachAll (A : List Str) : List Pol → Prop
  | [] => True
  | c :: cs => Reach A c ∧ ReachAll A cs
/-- `Reach` for the trees up to the first satisfied one. -/
def ReachFirst (A : List Str) : List Pol → Prop
  | [] => True
  | c :: cs => Reach A c ∧ (Pol.sat A c = false → ReachFirst A cs)
end

theorem reachAll_iff (A : List Str) (cs : List Pol) : ReachAll A cs ↔ ∀ c ∈ cs, Reach A c := by
  induction cs with
  | nil => simp [ReachAll]
  | cons c cs ih => simp [ReachAll, ih]

theorem reachFirst_of (A : List Str) (cs : List Pol) (h : ∀ c ∈ cs, Reach A c) : ReachFirst A cs := by
  induction cs with
  | nil => simp [ReachFirst]
  | cons c cs ih => exact ⟨h c (by simp), fun _ => ih fun d hd => h d (by simp [hd])⟩

theorem Wide.reach (A : List Str) : ∀ p : Pol, p.Wide → Reach A p := by
  intro p
  induction p using Pol.ind with
  | hl n c => intro _; simp [Reach]
  | hg op cs ih =>
    intro hw
    simp only [Pol.Wide, Pol.arity_gate] at hw
    have := fun c hc => ih c hc (hw.2 c hc)
    cases op
    · exact ⟨hw.1, (reachAll_iff A cs).2 this⟩
    · exact ⟨hw.1, reachFirst_of A cs this⟩

theorem prunedAnd_reach (A : List Str) (cs : List Pol)
    (ih : ∀ c ∈ cs, (Reach A c → calcPruned A c.toValue none = .ok (c.sat A, (pick A c).map leafKey)) ∧
      (¬ Reach A c → calcPruned A c.toValue none = .panic)) (h : ¬ ReachAll A cs) :
    ∀ m acc, prunedAnd A (cs.map Pol.toValue) m acc = .panic := by
  induction cs with
  | nil => simp [ReachAll] at h
  | cons c cs ihc =>
    intro m acc
    simp only [ReachAll, not_and] at h
    by_cases hc : Reach A c
    · simp only [List.map_cons, prunedAnd, (ih c (by simp)).1 hc, Res.unwrap_ok, Res.ok_bind]
      exact ihc (fun d hd => ih d (by simp [hd])) (h hc) _ _
    · simp [prunedAnd, (ih c (by simp)).2 hc, Res.unwrap]

theorem prunedOr_reach (A : List Str) (cs : List Pol)
    (ih : ∀ c ∈ cs, (Reach A c → calcPruned A c.toValue none = .ok (c.sat A, (pick A c).map leafKey)) ∧
      (¬ Reach A c → calcPruned A c.toValue none = .panic)) :
    (ReachFirst A cs → ∀ acc, prunedOr A (cs.map Pol.toValue) acc =
      .ok (Pol.satAny A cs, acc ++ (pickFirst A cs).map leafKey)) ∧
    (¬ ReachFirst A cs → ∀ acc, prunedOr A (cs.map Pol.toValue) acc = .panic) := by
  induction cs with
  | nil => simp [ReachFirst, prunedOr, Pol.satAny, pickFirst]
  | cons c cs ihc =>
    have ihc := ihc fun d hd => ih d (by simp [hd])
    have ihd := ih c (by simp)
    simp only [ReachFirst, List.map_cons, prunedOr]
    by_cases hc : Reach A c
    · simp only [ihd.1 hc, Res.unwrap_ok, Res.ok_bind, hc, true_and]
      cases hs : c.sat A with
      | true => simp [Pol.satAny, pickFirst, hs]
      | false =>
        simp only [forall_true_left, Bool.false_eq_true, if_false, Pol.satAny, pickFirst, hs, Bool.false_or]
        exact ihc
    · simp [hc, ihd.2 hc, Res.unwrap]

/-- `calc_pruned` for every tree: it aborts exactly if a visited gate has fewer than two children. -/
theorem calcPruned_reach (A : List Str) : ∀ p : Pol,
    (Reach A p → calcPruned A p.toValue none = .ok (p.sat A, (pick A p).map leafKey)) ∧
    (¬ Reach A p → calcPruned A p.toValue none = .panic) := by
  intro p
  induction p using Pol.ind with
  | hl n c =>
    refine ⟨fun _ => calcPruned_eq A _ trivial, fun h => absurd trivial h⟩
  | hg op cs ih =>
    cases op
    · simp only [Reach, Pol.toValue_gate, Op.toType, calcPruned, List.length_map]
      by_cases hl : 2 ≤ cs.length
      · simp only [hl, true_and, if_true]
        refine ⟨fun h => ?_, fun h => prunedAnd_reach A cs ih h _ _⟩
        rw [prunedAnd_eq A cs (fun c hc => (ih c hc).1 ((reachAll_iff A cs).1 h c hc))]
        simp only [Bool.true_and, Pol.sat, pick]
        cases Pol.satAll A cs <;> simp
      · simp [hl]
    · simp only [Reach, Pol.toValue_gate, Op.toType, calcPruned, List.length_map]
      by_cases hl : 2 ≤ cs.length
      · simp only [hl, true_and, if_true]
        have := prunedOr_reach A cs ih
        refine ⟨fun h => ?_, fun h => this.2 h _⟩
        rw [this.1 h]
        simp [Pol.sat, pick]
      · simp [hl]

theorem pickAll_eq (A cs) : pickAll A cs = cs.flatMap (pick A) := by
  induction cs with
  | nil => rfl
  | cons c cs ih => simp [pickAll, ih]

theorem pick_unsat (A : List Str) : ∀ p : Pol, p.sat A = false → pick A p = [] := by
  intro p
  induction p using Pol.ind with
  | hl n c => intro h; simp_all [pick]
  | hg op cs ih =>
    intro h
    cases op
    · simp only [Pol.sat] at h; simp [pick, h]
    · simp only [Pol.sat] at h
      simp only [pick]
      induction cs with
      | nil => rfl
      | cons c cs ihc =>
        simp only [Pol.satAny, Bool.or_eq_false_iff] at h
        simp only [pickFirst, h.1]
        exact ihc (fun d hd => ih d (by simp [hd])) h.2

theorem pick_sublist (A : List Str) : ∀ p : Pol, (pick A p).Sublist p.leaves := by
  intro p
  induction p using Pol.ind with
  | hl n c => simp only [pick, Pol.leaves_leaf]; split <;> simp
  | hg op cs ih =>
    cases op
    · simp only [pick]
      split
      · rw [Pol.leaves_gate, pickAll_eq]
        clear * - ih
        induction cs with
        | nil => simp
        | cons c cs ihc =>
          simp only [List.flatMap_cons]
          exact (ih c (by simp)).append (ihc fun d hd => ih d (by simp [hd]))
      · simp
    · simp only [pick, Pol.leaves_gate]
      induction cs with
      | nil => simp [pickFirst]
      | cons c cs ihc =>
        simp only [List.flatMap_cons, pickFirst]
        split
        · exact (ih c (by simp)).trans (List.sublist_append_left _ _)
        · exact (ihc fun d hd => ih d (by simp [hd])).trans (List.sublist_append_right _ _)

theorem pick_owned (A : List Str) : ∀ p : Pol, ∀ l ∈ pick A p, l.1 ∈ A := by
  intro p
  induction p using Pol.ind with
  | hl n c =>
    intro l hl
    simp only [pick] at hl
    split at hl <;> simp_all
  | hg op cs ih =>
    intro l hl
    cases op
    · simp only [pick] at hl
      split at hl
      · rw [pickAll_eq, List.mem_flatMap] at hl
        obtain ⟨c, hc, hl⟩ := hl
        exact ih c hc l hl
      · simp at hl
    · simp only [pick] at hl
      induction cs with
      | nil => simp [pickFirst] at hl
      | cons c cs ihc =>
        simp only [pickFirst] at hl
        split at hl
        · exact ih c (by simp) l hl
        · exact ihc (fun d hd => ih d (by simp [hd])) hl

theorem sat_mono {A B : List Str} (h : ∀ x ∈ A, x ∈ B) : ∀ p : Pol, p.sat A = true → p.sat B = true := by
  intro p
  induction p using Pol.ind with
  | hl n c => simp only [Pol.sat_leaf, decide_eq_true_eq]; exact h n
  | hg op cs ih =>
    cases op
    · simp only [Pol.sat_and, List.all_eq_true]
      exact fun hs c hc => ih c hc (hs c hc)
    · simp only [Pol.sat_or, List.any_eq_true]
      rintro ⟨c, hc, hs⟩
      exact ⟨c, hc, ih c hc hs⟩

theorem pick_sufficient (A : List Str) : ∀ p : Pol, p.sat A = true →
    p.sat ((pick A p).map Prod.fst) = true := by
  intro p
  induction p using Pol.ind with
  | hl n c => intro h; simp_all [pick]
  | hg op cs ih =>
    intro h
    cases op
    · simp only [Pol.sat] at h
      simp only [pick, h, if_true]
      rw [Pol.satAll_eq, List.all_eq_true] at h
      rw [Pol.sat_and, List.all_eq_true]
      intro c hc
      refine sat_mono ?_ c (ih c hc (h c hc))
      intro x hx
      rw [List.mem_map] at hx ⊢
      obtain ⟨l, hl, rfl⟩ := hx
      exact ⟨l, by rw [pickAll_eq, List.mem_flatMap]; exact ⟨c, hc, hl⟩, rfl⟩
    · simp only [Pol.sat] at h
      simp only [pick]
      rw [Pol.sat_or, List.any_eq_true]
      induction cs with
      | nil => simp [Pol.satAny] at h
      | cons c cs ihc =>
        simp only [pickFirst]
        by_cases hc : c.sat A = true
        · rw [if_pos hc]
          exact ⟨c, by simp, ih c (by simp) hc⟩
        · rw [if_neg hc]
          simp only [Pol.satAny, Bool.or_eq_true] at h
          obtain ⟨d, hd, hs⟩ := ihc (fun d hd => ih d (by simp [hd])) (h.resolve_left hc)
          exact ⟨d, by simp [hd], hs⟩

/-! ## Shares -/

/-- Threshold of a gate with `n` children. -/
def thr : Op → ℕ → ℕ
  | .and, n => n
  | .or, _ => 1

/-- Share number `i` of a gate. -/
def gateShare (op : Op) (n : ℕ) (σ : F) (ω : ℕ → F) (i : ℕ) : F :=
  polynomial (σ :: (List.range (thr op n - 1)).map ω) (i : F)

mutual
/-- Number of random scalars consumed for a tree. -/
def draws : Pol → ℕ
  | .leaf _ _ => 0
  | .gate op cs => (thr op cs.length - 1) + drawsL cs
/-- Number of random scalars consumed for a list of trees. -/
def drawsL : List Pol → ℕ
  | [] => 0
  | c :: cs => draws c + drawsL cs
end

mutual
/-- Share values of the leaves, left to right. -/
def shareVals : Pol → F → (ℕ → F) → List F
  | .leaf _ _, σ, _ => [σ]
  | .gate op cs, σ, ω =>
      shareValsL cs (gateShare op cs.length σ ω) 0 (dropS (thr op cs.length - 1) ω)
/-- Share values for children number `i`, `i+1`, … of a gate with shares `q`. -/
def shareValsL : List Pol → (ℕ → F) → ℕ → (ℕ → F) → List F
  | [], _, _, _ => []
  | c :: cs, q, i, ω => shareVals c (q (i + 1)) ω ++ shareValsL cs q (i + 1) (dropS (draws c) ω)
end

theorem dropS_add {α : Type} (m n : ℕ) (ω : ℕ → α) : dropS m (dropS n ω) = dropS (n + m) ω := by
  funext i; simp [dropS, Nat.add_assoc]

@[simp] theorem dropS_zero {α : Type} (ω : ℕ → α) : dropS 0 ω = ω := by
  funext i; simp [dropS]

theorem shareVals_length : ∀ p : Pol, ∀ (σ : F) ω, (shareVals p σ ω).length = p.leaves.length := by
  intro p
  induction p using Pol.ind with
  | hl n c => intro σ ω; simp [shareVals]
  | hg op cs ih =>
    intro σ ω
    simp only [shareVals, Pol.leaves_gate]
    generalize dropS (thr op cs.length - 1) ω = ω'
    generalize gateShare op cs.length σ _ = q
    generalize (0 : ℕ) = i
    induction cs generalizing i ω' with
    | nil => simp [shareValsL]
    | cons c cs ihc =>
      simp only [shareValsL, List.length_append, List.flatMap_cons, ih c (by simp)]
      rw [ihc (fun d hd => ih d (by simp [hd]))]

/-- The label of a leaf. -/
def leafIdx (l : Str × ℕ) : Str := nodeIndex l.1 l.2

/-- The labelled shares. -/
def shares (p : Pol) (σ : F) (ω : ℕ → F) : List (Str × F) :=
  (p.leaves.map leafIdx).zip (shareVals p σ ω)

theorem genShares_get (σ : F) (op : Op) (n : ℕ) (ω : ℕ → F) (i : ℕ) (hi : i < n) :
    (genShares σ (thr op n) n ω).1[i + 1]? = some (gateShare op n σ ω (i + 1)) := by
  have hk : thr op n ≤ n := by cases op <;> simp [thr] <;> omega
  simp only [genShares, hk, if_true]
  rw [List.getElem?_map, List.getElem?_range (by omega)]
  simp [gateShare]

theorem genShares_rest (σ : F) (op : Op) (n : ℕ) (ω : ℕ → F) :
    (genShares σ (thr op n) n ω).2 = dropS (thr op n - 1) ω := by
  unfold genShares
  split
  · rfl
  · cases op
    · simp [thr] at *
    · simp [thr]

theorem zip_append_map {α β γ : Type} (f : α → β) (a b : List α) (c d : List γ) (h : c.length = a.length) :
    ((a ++ b).map f).zip (c ++ d) = (a.map f).zip c ++ (b.map f).zip d := by
  rw [List.map_append, List.zip_append (by simp [h])]

theorem genSharesChildren_eq (op : Op) (n : ℕ) (σ : F) (ω0 : ℕ → F) (cs : List Pol)
    (ih : ∀ c ∈ cs, ∀ (σ : F) ω, genSharesPolicy c.toValue σ none ω =
      .ok (some (shares c σ ω), dropS (draws c) ω)) :
    ∀ i acc ω, i + cs.length ≤ n →
    genSharesChildren (cs.map Pol.toValue) (genShares σ (thr op n) n ω0).1 i acc ω =
      .ok (some (acc ++ ((cs.flatMap Pol.leaves).map leafIdx).zip
        (shareValsL cs (gateShare op n σ ω0) i ω)), dropS (drawsL cs) ω) := by
  induction cs with
  | nil => intro i acc ω _; simp [genSharesChildren, shareValsL, drawsL]
  | cons c cs ihc =>
    intro i acc ω hi
    simp only [List.length_cons] at hi
    simp only [List.map_cons, genSharesChildren, genShares_get σ op n ω0 i (by omega),
      Res.unwrapOption_some, Res.ok_bind, ih c (by simp)]
    rw [ihc (fun d hd => ih d (by simp [hd])) _ _ _ (by omega)]
    simp only [shareValsL, drawsL, List.flatMap_cons, dropS_add]
    rw [zip_append_map leafIdx _ _ _ _ (shareVals_length c _ _), shares]
    simp

theorem genSharesPolicy_eq : ∀ p : Pol, ∀ (σ : F) ω,
    genSharesPolicy p.toValue σ none ω = .ok (some (shares p σ ω), dropS (draws p) ω) := by
  intro p
  induction p using Pol.ind with
  | hl n c => intro σ ω; simp [genSharesPolicy, shares, shareVals, draws, leafIdx]
  | hg op cs ih =>
    intro σ ω
    have h := genSharesChildren_eq op cs.length σ ω cs ih 0 [] (dropS (thr op cs.length - 1) ω)
      (by omega)
    have h2 := genShares_rest σ op cs.length ω
    cases op <;>
    · simp only [Pol.toValue_gate, Op.toType, genSharesPolicy, List.length_map]
      simp only [thr] at h h2 ⊢
      rw [h2, h]
      simp [shares, shareVals, thr, draws, dropS_add]

/-! ## Coefficients -/

/-- Lagrange coefficient of child number `i` of an AND gate with `n` children. -/
def andCoeff (n i : ℕ) : F := recoverCoefficient ((i + 1 : ℕ) : F)
  ((List.range n).map fun i : ℕ => ((i + 1 : ℕ) : F)) 1

/-- Factor applied to child `i` of a gate. -/
def gateCoeff : Op → ℕ → ℕ → F
  | .and, n, i => andCoeff n i
  | .or, _, _ => 1

mutual
/-- Coefficients of the leaves, left to right. -/
def coeffVals : Pol → F → List F
  | .leaf _ _, κ => [κ]
  | .gate op cs, κ => coeffValsL cs (fun i => κ * gateCoeff op cs.length i) 0
/-- Coefficients for children number `i`, `i+1`, …. -/
def coeffValsL : List Pol → (ℕ → F) → ℕ → List F
  | [], _, _ => []
  | c :: cs, g, i => coeffVals c (g i) ++ coeffValsL cs g (i + 1)
end

theorem coeffVals_length : ∀ p : Pol, ∀ (κ : F), (coeffVals p κ).length = p.leaves.length := by
  intro p
  induction p using Pol.ind with
  | hl n c => intro κ; simp [coeffVals]
  | hg op cs ih =>
    intro κ
    simp only [coeffVals, Pol.leaves_gate]
    generalize (fun i => κ * gateCoeff op cs.length i) = g
    generalize (0 : ℕ) = i
    induction cs generalizing i with
    | nil => simp [coeffValsL]
    | cons c cs ihc =>
      simp only [coeffValsL, List.length_append, List.flatMap_cons, ih c (by simp)]
      rw [ihc (fun d hd => ih d (by simp [hd]))]

/-- The labelled coefficients. -/
def coeffs (p : Pol) (κ : F) : List (Str × F) := (p.leaves.map leafIdx).zip (coeffVals p κ)

theorem recover_get (n i : ℕ) (hi : i < n) :
    (recoverCoefficients (andPoints n : List F))[i]? = some (andCoeff n i) := by
  obtain ⟨m, rfl⟩ : ∃ m, n = m + 1 := ⟨n - 1, by omega⟩
  simp only [recoverCoefficients, andPoints]
  rw [List.getElem?_map, List.getElem?_map, List.getElem?_range hi]
  simp [andCoeff]

theorem recover_one : (recoverCoefficients [1] : List F) = [1] := by
  simp [recoverCoefficients, recoverCoefficient]

theorem calcCoeffAnd_eq (κ : F) (n : ℕ) (cs : List Pol)
    (ih : ∀ c ∈ cs, ∀ (κ : F) acc, calcCoefficients c.toValue (some κ) acc none =
      .ok (some (acc ++ coeffs c κ))) :
    ∀ i acc, i + cs.length ≤ n →
    calcCoeffAnd (cs.map Pol.toValue) (recoverCoefficients (andPoints n)) i (some κ) acc =
      .ok (some (acc ++ ((cs.flatMap Pol.leaves).map leafIdx).zip
        (coeffValsL cs (fun i => κ * andCoeff n i) i))) := by
  induction cs with
  | nil => intro i acc _; simp [calcCoeffAnd, coeffValsL]
  | cons c cs ihc =>
    intro i acc hi
    simp only [List.length_cons] at hi
    simp only [List.map_cons, calcCoeffAnd, recover_get n i (by omega), Res.unwrapOption_some,
      Res.ok_bind, ih c (by simp)]
    rw [ihc (fun d hd => ih d (by simp [hd])) _ _ (by omega)]
    simp only [coeffValsL, List.flatMap_cons]
    rw [zip_append_map leafIdx _ _ _ _ (coeffVals_length c _), coeffs]
    simp

theorem calcCoeffOr_eq (κ : F) (cs : List Pol)
    (ih : ∀ c ∈ cs, ∀ (κ : F) acc, calcCoefficients c.toValue (some κ) acc none =
      .ok (some (acc ++ coeffs c κ))) :
    ∀ i acc,
    calcCoeffOr (cs.map Pol.toValue) (recoverCoefficients [1]) (some κ) acc =
      .ok (some (acc ++ ((cs.flatMap Pol.leaves).map leafIdx).zip
        (coeffValsL cs (fun _ => κ * 1) i))) := by
  induction cs with
  | nil => intro i acc; simp [calcCoeffOr, coeffValsL]
  | cons c cs ihc =>
    intro i acc
    simp only [List.map_cons, calcCoeffOr, recover_one, Res.unwrapOption_some, List.getElem?_cons_zero,
      Res.ok_bind, ih c (by simp)]
    have h2 := ihc (fun d hd => ih d (by simp [hd])) (i + 1) (acc ++ coeffs c (κ * 1))
    rw [recover_one] at h2
    rw [h2]
    simp only [coeffValsL, List.flatMap_cons]
    rw [zip_append_map leafIdx _ _ _ _ (coeffVals_length c _), coeffs]
    simp

theorem calcCoefficients_eq : ∀ p : Pol, ∀ (κ : F) acc,
    calcCoefficients p.toValue (some κ) acc none = .ok (some (acc ++ coeffs p κ)) := by
  intro p
  induction p using Pol.ind with
  | hl n c => intro κ acc; simp [calcCoefficients, coeffs, coeffVals, leafIdx]
  | hg op cs ih =>
    intro κ acc
    cases op
    · simp only [Pol.toValue_gate, Op.toType, calcCoefficients, List.length_map]
      rw [calcCoeffAnd_eq κ cs.length cs ih 0 acc (by omega)]
      simp [coeffs, coeffVals, gateCoeff]
    · simp only [Pol.toValue_gate, Op.toType, calcCoefficients]
      rw [calcCoeffOr_eq κ cs ih 0 acc]
      simp [coeffs, coeffVals, gateCoeff]

/-! ## Reconstruction -/

theorem gate_reconstruct [BigChar F] (n : ℕ) (hn : n < 2 ^ 64) (h0 : 0 < n) (σ : F) (ω : ℕ → F) :
    ((List.range n).map fun i => andCoeff n i * gateShare .and n σ ω (i + 1)).sum = σ := by
  have h := lagrange_zero _ (points_nodup (F := F) n hn)
    (σ :: (List.range (n - 1)).map ω) (by simp; omega)
  rw [polynomial_head_zero, List.map_map] at h
  exact h

theorem gateShare_or (n : ℕ) (σ : F) (ω : ℕ → F) (i : ℕ) : gateShare .or n σ ω i = σ := by
  simp [gateShare, thr]

/-- Reconstruction: if `sh` and `cf` assign to the leaves of `p` the shares of `σ` and the coefficients for `κ`,
then the selected leaves combine to `κ * σ`. -/
theorem reconstruct [BigChar F] (A : List Str) (sh cf : Str × ℕ → F) : ∀ p : Pol, p.Fits → p.sat A = true →
    ∀ (κ σ : F) ω, p.leaves.map sh = shareVals p σ ω → p.leaves.map cf = coeffVals p κ →
    Reach A p →
    ((pick A p).map fun l => cf l * sh l).sum = κ * σ := by
  intro p
  induction p using Pol.ind with
  | hl n c =>
    intro _ hs κ σ ω h1 h2 _
    simp [shareVals, coeffVals] at h1 h2
    simp_all [pick]
  | hg op cs ih =>
    intro hf hs κ σ ω h1 h2 hw
    simp only [Pol.Fits, Pol.arity_gate] at hf
    simp only [shareVals, coeffVals, Pol.leaves_gate] at h1 h2
    -- per-child statement
    have key : ∀ (ds : List Pol) (q g : ℕ → F) (i : ℕ) ω',
        (∀ c ∈ ds, c ∈ cs) →
        (ds.flatMap Pol.leaves).map sh = shareValsL ds q i ω' →
        (ds.flatMap Pol.leaves).map cf = coeffValsL ds g i →
        ∀ j (hj : j < ds.length), ds[j].sat A = true → Reach A ds[j] →
          ((pick A ds[j]).map fun l => cf l * sh l).sum = g (i + j) * q (i + j + 1) := by
      intro ds
      induction ds with
      | nil => intro q g i ω' _ _ _ j hj; simp at hj
      | cons d ds ihd =>
        intro q g i ω' hsub hsh hcf j hj hsat hre
        simp only [List.flatMap_cons, List.map_append, shareValsL, coeffValsL] at hsh hcf
        have hsh' := List.append_inj hsh (by simp [shareVals_length])
        have hcf' := List.append_inj hcf (by simp [coeffVals_length])
        cases j with
        | zero =>
          have hd : d ∈ cs := hsub d (by simp)
          exact ih d hd (hf.2 d hd) hsat _ _ _ hsh'.1 hcf'.1 hre
        | succ j =>
          have := ihd q g (i + 1) _ (fun c hc => hsub c (by simp [hc])) hsh'.2 hcf'.2 j
            (by simpa using hj) (by simpa using hsat) (by simpa using hre)
          simp only [List.getElem_cons_succ]
          rw [this]
          congr 2 <;> omega
    have key' := key cs _ _ 0 _ (fun c hc => hc) h1 h2
    cases op
    · simp only [Reach, reachAll_iff] at hw
      simp only [Pol.sat_and, List.all_eq_true] at hs
      have hall : Pol.satAll A cs = true := by rw [Pol.satAll_eq, List.all_eq_true]; exact hs
      simp only [pick, hall, if_true, pickAll_eq]
      have e : ((cs.flatMap (pick A)).map fun l => cf l * sh l).sum
          = ((List.range cs.length).map fun i =>
              (κ * andCoeff cs.length i) * gateShare .and cs.length σ ω (i + 1)).sum := by
        have e1 : ((cs.flatMap (pick A)).map fun l => cf l * sh l).sum
            = (cs.map fun c => ((pick A c).map fun l => cf l * sh l).sum).sum := by
          clear * -
          induction cs with
          | nil => simp
          | cons c cs ih => simp [ih]
        rw [e1]
        congr 1
        apply List.ext_getElem
        · simp
        · intro j hj hj'
          simp only [List.length_map] at hj
          simp only [List.getElem_map, List.getElem_range]
          have := key' j hj (hs _ (List.getElem_mem hj)) (hw.2 _ (List.getElem_mem hj))
          simp only [Nat.zero_add, gateCoeff] at this
          exact this
      rw [e]
      have := gate_reconstruct cs.length hf.1 (by omega) σ ω
      calc _ = ((List.range cs.length).map fun i =>
              κ * (andCoeff cs.length i * gateShare .and cs.length σ ω (i + 1))).sum := by
            congr 1; apply List.map_congr_left; intro i _; ring
        _ = κ * ((List.range cs.length).map fun i =>
              (andCoeff cs.length i * gateShare .and cs.length σ ω (i + 1))).sum := by
            rw [List.sum_map_mul_left]
        _ = κ * σ := by rw [this]
    · have : ∃ j, ∃ hj : j < cs.length, cs[j].sat A = true ∧ pickFirst A cs = pick A cs[j] ∧ Reach A cs[j] := by
        simp only [Pol.sat] at hs
        simp only [Reach] at hw
        replace hw := hw.2
        clear * - hs hw
        induction cs with
        | nil => simp [Pol.satAny] at hs
        | cons c cs ih =>
          simp only [ReachFirst] at hw
          by_cases hc : c.sat A = true
          · exact ⟨0, by simp, by simpa using hc, by simp [pickFirst, hc], hw.1⟩
          · simp only [Pol.satAny, Bool.or_eq_true] at hs
            obtain ⟨j, hj, h1, h2, h3⟩ := ih (hs.resolve_left hc) (hw.2 (by simpa using hc))
            exact ⟨j + 1, by simpa using hj, by simpa using h1, by simp [pickFirst, hc, h2], by simpa using h3⟩
      obtain ⟨j, hj, hsj, hp, hrj⟩ := this
      simp only [pick, hp]
      rw [key' j hj hsj hrj, gateShare_or]
      simp [gateCoeff]

/-- A tree whose gates have children is satisfied by all its attributes. -/
theorem sat_names : ∀ p : Pol, p.Wide → p.sat p.names = true := by
  intro p
  induction p using Pol.ind with
  | hl n c => intro _; simp [Pol.names]
  | hg op cs ih =>
    intro hw
    simp only [Pol.Wide, Pol.arity_gate] at hw
    have h1 : ∀ c ∈ cs, c.sat (Pol.gate op cs).names = true := by
      intro c hc
      refine sat_mono ?_ c (ih c hc (hw.2 c hc))
      intro x hx
      simp only [Pol.names, List.mem_map, Pol.leaves_gate, List.mem_flatMap] at hx ⊢
      obtain ⟨l, hl, rfl⟩ := hx
      exact ⟨l, ⟨c, hc, hl⟩, rfl⟩
    cases op with
    | and => rw [Pol.sat_and, List.all_eq_true]; exact h1
    | or =>
      rw [Pol.sat_or, List.any_eq_true]
      cases cs with
      | nil => simp at hw
      | cons c cs => exact ⟨c, by simp, h1 c (by simp)⟩

/-- Pruning depends on the attribute list only through membership. -/
theorem calcPruned_congr {A B : List Str} (h : ∀ x, x ∈ A ↔ x ∈ B) : ∀ p : Pol,
    calcPruned A p.toValue none = calcPruned B p.toValue none := by
  intro p
  induction p using Pol.ind with
  | hl n c => simp [calcPruned, contains_iff, h]
  | hg op cs ih =>
    cases op
    · simp only [Pol.toValue_gate, Op.toType, calcPruned]
      congr 1
      generalize true = m
      generalize ([] : List (Str × Str)) = acc
      induction cs generalizing m acc with
      | nil => rfl
      | cons c cs ihc =>
        simp only [List.map_cons, prunedAnd, ih c (by simp)]
        congr 1
        funext x
        exact ihc (fun d hd => ih d (by simp [hd])) _ _
    · simp only [Pol.toValue_gate, Op.toType, calcPruned]
      congr 1
      generalize ([] : List (Str × Str)) = acc
      induction cs generalizing acc with
      | nil => rfl
      | cons c cs ihc =>
        simp only [List.map_cons, prunedOr, ih c (by simp)]
        congr 1
        funext x
        rw [ihc (fun d hd => ih d (by simp [hd]))]

theorem traverse_congr {A B : List Str} (h : ∀ x, x ∈ A ↔ x ∈ B) (p : Pol) :
    traversePolicy A p.toValue .leaf = traversePolicy B p.toValue .leaf := by
  by_cases hA : A = []
  · subst hA
    have hB : B = [] := List.eq_nil_iff_forall_not_mem.2 fun x hx => by simpa using (h x).2 hx
    rw [hB]
  · have hB : B ≠ [] := by
      rintro rfl
      exact hA (List.eq_nil_iff_forall_not_mem.2 fun x hx => by simpa using (h x).1 hx)
    rw [traverse_eq_sat A hA, traverse_eq_sat B hB, Bool.eq_iff_iff]
    exact ⟨sat_mono (fun x => (h x).1) p, sat_mono (fun x => (h x).2) p⟩

/-- On a list with distinct keys, lookup by key does not depend on the order. -/
theorem find?_perm {α : Type} (key : α → Str) {xs ys : List α} (h : xs.Perm ys) (hn : (xs.map key).Nodup) (k : Str) :
    xs.find? (fun x => key x == k) = ys.find? (fun x => key x == k) := by
  induction h with
  | nil => rfl
  | cons x _ ih =>
    simp only [List.map_cons, List.nodup_cons] at hn
    simp only [List.find?_cons]
    rw [ih hn.2]
  | swap x y l =>
    simp only [List.map_cons, List.nodup_cons, List.mem_cons, not_or] at hn
    simp only [List.find?_cons]
    by_cases hx : key x = k
    · by_cases hy : key y = k
      · exact absurd (hy.trans hx.symm) hn.1.1
      · rw [beq_eq_false_iff_ne.2 hy, beq_iff_eq.2 hx]
    · rw [beq_eq_false_iff_ne.2 hx]
  | trans h1 _ ih1 ih2 =>
    rw [ih1 hn, ih2 ((h1.map key).nodup_iff.1 hn)]

end Rabe
