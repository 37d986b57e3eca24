import Verif.Spec.Selection
import Verif.Proof.Common

/-!
# Reconstruction from any minimal authorised set of leaves
-/

namespace Rabe

open Pol

theorem selAll_length {cs : List Pol} (ih : ∀ c ∈ cs, ∀ bs, Sel c bs → bs.length = c.leaves.length) :
    ∀ {bs}, SelAll cs bs → bs.length = (leavesL cs).length := by
  induction cs with
  | nil => intro bs h; simp only [SelAll] at h; simp [h, leavesL]
  | cons c cs ihc =>
    intro bs h
    simp only [SelAll] at h
    obtain ⟨b1, b2, rfl, h1, h2⟩ := h
    simp [leavesL, ih c (by simp) _ h1, ihc (fun d hd => ih d (by simp [hd])) h2]

theorem selOne_length {cs : List Pol} (ih : ∀ c ∈ cs, ∀ bs, Sel c bs → bs.length = c.leaves.length) :
    ∀ {bs}, SelOne cs bs → bs.length = (leavesL cs).length := by
  induction cs with
  | nil => intro bs h; exact h.elim
  | cons c cs ihc =>
    intro bs h
    simp only [SelOne] at h
    obtain ⟨b1, b2, rfl, ⟨h1, rfl⟩ | ⟨rfl, h2⟩⟩ := h
    · simp [leavesL, ih c (by simp) _ h1]
    · simp [leavesL, ihc (fun d hd => ih d (by simp [hd])) h2]

theorem sel_length : ∀ (p : Pol) (bs : List Bool), Sel p bs → bs.length = p.leaves.length := by
  intro p
  induction p using Pol.ind with
  | hl n c => intro bs h; simp only [Sel] at h; simp [h]
  | hg op cs ih =>
    intro bs h
    rw [leaves_gate, ← leavesL_eq]
    cases op with
    | and => simp only [Sel] at h; exact selAll_length ih h.2
    | or => simp only [Sel] at h; exact selOne_length ih h

section
variable {α : Type}

theorem marked_append {b1 b2 : List Bool} {x1 x2 : List α} (h : b1.length = x1.length) :
    marked (b1 ++ b2) (x1 ++ x2) = marked b1 x1 ++ marked b2 x2 := by
  simp [marked, List.zip_append h]

theorem marked_false : ∀ (n : ℕ) (xs : List α), marked (List.replicate n false) xs = []
  | 0, xs => by simp [marked]
  | n + 1, [] => by simp [marked]
  | n + 1, x :: xs => by
    have := marked_false n xs
    simp only [marked, List.replicate_succ, List.zip_cons_cons] at this ⊢
    simpa using this

end

/-- Which attribute sets satisfy the tree: those that own a minimal selection. -/
theorem sel_sat (A : List Str) : ∀ (p : Pol) (bs : List Bool), Sel p bs → (∀ l ∈ marked bs p.leaves, l.1 ∈ A) →
    p.sat A = true := by
  intro p
  induction p using Pol.ind with
  | hl n c =>
    intro bs h hA
    simp only [Sel] at h
    subst h
    simpa [marked] using hA
  | hg op cs ih =>
    intro bs h hA
    rw [leaves_gate, ← leavesL_eq] at hA
    cases op with
    | and =>
      simp only [Sel] at h
      rw [sat_and, ← satAll_eq]
      replace h := h.2
      induction cs generalizing bs with
      | nil => rfl
      | cons c cs ihc =>
        simp only [SelAll] at h
        obtain ⟨b1, b2, rfl, h1, h2⟩ := h
        have hl := sel_length c b1 h1
        simp only [leavesL, marked_append hl, List.mem_append] at hA
        simp only [satAll, Bool.and_eq_true]
        exact ⟨ih c (by simp) b1 h1 fun l hl => hA l (Or.inl hl),
          ihc (fun d hd => ih d (by simp [hd])) b2 (fun l hl => hA l (Or.inr hl)) h2⟩
    | or =>
      simp only [Sel] at h
      rw [sat_or, ← satAny_eq]
      induction cs generalizing bs with
      | nil => exact h.elim
      | cons c cs ihc =>
        simp only [SelOne] at h
        simp only [satAny, Bool.or_eq_true]
        obtain ⟨b1, b2, rfl, ⟨h1, rfl⟩ | ⟨rfl, h2⟩⟩ := h
        · left
          simp only [leavesL, marked_append (sel_length c b1 h1), List.mem_append] at hA
          exact ih c (by simp) b1 h1 fun l hl => hA l (Or.inl hl)
        · right
          simp only [leavesL, marked_append (List.length_replicate ..), List.mem_append] at hA
          exact ihc (fun d hd => ih d (by simp [hd])) b2 (fun l hl => hA l (Or.inr hl)) h2

theorem sat_sel (A : List Str) : ∀ p : Pol, NoEmpty p → p.sat A = true →
    ∃ bs, Sel p bs ∧ ∀ l ∈ marked bs p.leaves, l.1 ∈ A := by
  intro p
  induction p using Pol.ind with
  | hl n c =>
    intro _ h
    exact ⟨[true], rfl, by simpa [marked] using h⟩
  | hg op cs ih =>
    intro hn h
    simp only [NoEmpty, arity_gate] at hn
    rw [leaves_gate, ← leavesL_eq]
    cases op with
    | and =>
      rw [sat_and, ← satAll_eq] at h
      obtain ⟨bs, hb⟩ : ∃ bs, SelAll cs bs ∧ ∀ l ∈ marked bs (leavesL cs), l.1 ∈ A := by
        replace hn := hn.2
        induction cs with
        | nil => exact ⟨[], rfl, by simp [marked]⟩
        | cons c cs ihc =>
          simp only [satAll, Bool.and_eq_true] at h
          obtain ⟨b1, h1, a1⟩ := ih c (by simp) (hn c (by simp)) h.1
          obtain ⟨b2, h2, a2⟩ := ihc (fun d hd => ih d (by simp [hd])) h.2 (fun d hd => hn d (by simp [hd]))
          refine ⟨b1 ++ b2, ⟨b1, b2, rfl, h1, h2⟩, ?_⟩
          simp only [leavesL, marked_append (sel_length c b1 h1), List.mem_append]
          rintro l (hl | hl)
          · exact a1 l hl
          · exact a2 l hl
      refine ⟨bs, ?_, hb.2⟩
      simp only [Sel]
      refine ⟨?_, hb.1⟩
      rintro rfl
      simp at hn
    | or =>
      rw [sat_or, ← satAny_eq] at h
      replace hn := hn.2
      simp only [Sel]
      induction cs with
      | nil => simp [satAny] at h
      | cons c cs ihc =>
        simp only [satAny, Bool.or_eq_true] at h
        by_cases hc : c.sat A = true
        · obtain ⟨b1, h1, a1⟩ := ih c (by simp) (hn c (by simp)) hc
          refine ⟨b1 ++ List.replicate (leavesL cs).length false, ⟨b1, _, rfl, Or.inl ⟨h1, rfl⟩⟩, ?_⟩
          simp only [leavesL, marked_append (sel_length c b1 h1), marked_false, List.append_nil]
          exact a1
        · obtain ⟨b2, h2, a2⟩ := ihc (fun d hd => ih d (by simp [hd])) (h.resolve_left hc) (fun d hd => hn d (by simp [hd]))
          refine ⟨List.replicate c.leaves.length false ++ b2, ⟨_, b2, rfl, Or.inr ⟨rfl, h2⟩⟩, ?_⟩
          simp only [leavesL, marked_append (List.length_replicate ..), marked_false, List.nil_append]
          exact a2

/-- What `calc_pruned` returns is, position by position, a minimal authorised selection. -/
theorem pick_sel (A : List Str) : ∀ p : Pol, NoEmpty p → p.sat A = true →
    ∃ bs, Sel p bs ∧ marked bs p.leaves = pick A p := by
  intro p
  induction p using Pol.ind with
  | hl n c =>
    intro _ h
    rw [sat_leaf] at h
    exact ⟨[true], rfl, by simpa [marked, pick] using h⟩
  | hg op cs ih =>
    intro hn h
    simp only [NoEmpty, arity_gate] at hn
    rw [leaves_gate, ← leavesL_eq]
    cases op with
    | and =>
      rw [sat_and, ← satAll_eq] at h
      obtain ⟨bs, hb⟩ : ∃ bs, SelAll cs bs ∧ marked bs (leavesL cs) = pickAll A cs := by
        replace hn := hn.2
        induction cs with
        | nil => exact ⟨[], rfl, by simp [marked, pickAll]⟩
        | cons c cs ihc =>
          simp only [satAll, Bool.and_eq_true] at h
          obtain ⟨b1, h1, a1⟩ := ih c (by simp) (hn c (by simp)) h.1
          obtain ⟨b2, h2, a2⟩ := ihc (fun d hd => ih d (by simp [hd])) h.2 (fun d hd => hn d (by simp [hd]))
          refine ⟨b1 ++ b2, ⟨b1, b2, rfl, h1, h2⟩, ?_⟩
          simp only [leavesL, marked_append (sel_length c b1 h1), pickAll, a1, a2]
      refine ⟨bs, ?_, ?_⟩
      · simp only [Sel]
        refine ⟨?_, hb.1⟩
        rintro rfl
        simp at hn
      · rw [hb.2]; simp [pick, h]
    | or =>
      rw [sat_or, ← satAny_eq] at h
      replace hn := hn.2
      simp only [Sel, pick]
      induction cs with
      | nil => simp [satAny] at h
      | cons c cs ihc =>
        simp only [satAny, Bool.or_eq_true] at h
        simp only [pickFirst]
        by_cases hc : c.sat A = true
        · obtain ⟨b1, h1, a1⟩ := ih c (by simp) (hn c (by simp)) hc
          refine ⟨b1 ++ List.replicate (leavesL cs).length false, ⟨b1, _, rfl, Or.inl ⟨h1, rfl⟩⟩, ?_⟩
          simp only [leavesL, marked_append (sel_length c b1 h1), marked_false, List.append_nil, hc, if_true, a1]
        · obtain ⟨b2, h2, a2⟩ := ihc (fun d hd => ih d (by simp [hd])) (h.resolve_left hc) (fun d hd => hn d (by simp [hd]))
          refine ⟨List.replicate c.leaves.length false ++ b2, ⟨_, b2, rfl, Or.inr ⟨rfl, h2⟩⟩, ?_⟩
          simp only [leavesL, marked_append (List.length_replicate ..), marked_false, List.nil_append, hc, a2]
          simp

section
variable {F : Type} [Field F]

/-- Combination of the marked positions. -/
def selDot (bs : List Bool) (cs ss : List F) : F := ((marked bs (cs.zip ss)).map fun x => x.1 * x.2).sum

theorem selDot_append {b1 b2 : List Bool} {c1 c2 s1 s2 : List F} (h : b1.length = c1.length) (h' : c1.length = s1.length) :
    selDot (b1 ++ b2) (c1 ++ c2) (s1 ++ s2) = selDot b1 c1 s1 + selDot b2 c2 s2 := by
  unfold selDot
  rw [List.zip_append h', marked_append (by simp [h, ← h'])]
  simp

theorem selDot_false (n : ℕ) (c s : List F) : selDot (List.replicate n false) c s = 0 := by
  simp [selDot, marked_false]

variable [DecidableEq F]

theorem sel_reconstruct [BigChar F] : ∀ p : Pol, p.Fits → ∀ bs, Sel p bs → ∀ (κ σ : F) ω,
    selDot bs (coeffVals p κ) (shareVals p σ ω) = κ * σ := by
  intro p
  induction p using Pol.ind with
  | hl n c =>
    intro _ bs h κ σ ω
    simp only [Sel] at h
    subst h
    simp [selDot, marked, coeffVals, shareVals]
  | hg op cs ih =>
    intro hf bs h κ σ ω
    simp only [Fits, arity_gate] at hf
    simp only [shareVals, coeffVals]
    cases op with
    | and =>
      simp only [Sel] at h
      have key : ∀ (ds : List Pol) (bs : List Bool) (q g : ℕ → F) (i : ℕ) ω', (∀ c ∈ ds, c ∈ cs) → SelAll ds bs →
          selDot bs (coeffValsL ds g i) (shareValsL ds q i ω') =
            ((List.range ds.length).map fun j => g (i + j) * q (i + j + 1)).sum := by
        intro ds
        induction ds with
        | nil => intro bs q g i ω' _ h; simp only [SelAll] at h; simp [h, selDot, marked]
        | cons d ds ihd =>
          intro bs q g i ω' hsub h
          simp only [SelAll] at h
          obtain ⟨b1, b2, rfl, h1, h2⟩ := h
          simp only [coeffValsL, shareValsL]
          rw [selDot_append (by rw [sel_length d b1 h1, coeffVals_length]) (by rw [coeffVals_length, shareVals_length]),
            ih d (hsub d (by simp)) (hf.2 d (hsub d (by simp))) b1 h1, ihd b2 q g (i + 1) _ (fun c hc => hsub c (by simp [hc])) h2,
            List.length_cons, List.range_succ_eq_map, List.map_cons, List.sum_cons, List.map_map]
          simp only [Nat.add_zero]
          congr 2
          apply List.map_congr_left
          intro j _
          simp only [Function.comp, Nat.succ_eq_add_one]
          rw [show i + 1 + j = i + (j + 1) by omega]
      rw [key cs bs _ _ 0 _ (fun c hc => hc) h.2]
      have := gate_reconstruct cs.length hf.1 (List.length_pos_iff.2 h.1) σ ω
      calc _ = ((List.range cs.length).map fun i =>
              κ * (andCoeff cs.length i * gateShare .and cs.length σ ω (i + 1))).sum := by
            congr 1; apply List.map_congr_left; intro i _; simp only [Nat.zero_add, gateCoeff]; ring
        _ = κ * ((List.range cs.length).map fun i =>
              (andCoeff cs.length i * gateShare .and cs.length σ ω (i + 1))).sum := by
            rw [List.sum_map_mul_left]
        _ = κ * σ := by rw [this]
    | or =>
      simp only [Sel] at h
      have key : ∀ (ds : List Pol) (bs : List Bool) (q g : ℕ → F) (i : ℕ) ω', (∀ c ∈ ds, c ∈ cs) → SelOne ds bs →
          ∃ j, selDot bs (coeffValsL ds g i) (shareValsL ds q i ω') = g j * q (j + 1) := by
        intro ds
        induction ds with
        | nil => intro bs q g i ω' _ h; exact h.elim
        | cons d ds ihd =>
          intro bs q g i ω' hsub h
          simp only [SelOne] at h
          simp only [coeffValsL, shareValsL]
          obtain ⟨b1, b2, rfl, ⟨h1, rfl⟩ | ⟨rfl, h2⟩⟩ := h
          · refine ⟨i, ?_⟩
            rw [selDot_append (by rw [sel_length d b1 h1, coeffVals_length]) (by rw [coeffVals_length, shareVals_length]),
              ih d (hsub d (by simp)) (hf.2 d (hsub d (by simp))) b1 h1, selDot_false, add_zero]
          · obtain ⟨j, hj⟩ := ihd b2 q g (i + 1) (dropS (draws d) ω') (fun c hc => hsub c (by simp [hc])) h2
            refine ⟨j, ?_⟩
            rw [selDot_append (by rw [List.length_replicate, coeffVals_length]) (by rw [coeffVals_length, shareVals_length]),
              selDot_false, zero_add, hj]
      obtain ⟨j, hj⟩ := key cs bs (gateShare .or cs.length σ ω) (fun i => κ * gateCoeff .or cs.length i) 0
        (dropS (thr .or cs.length - 1) ω) (fun c hc => hc) h
      rw [hj, gateShare_or]
      simp [gateCoeff]

end

end Rabe
