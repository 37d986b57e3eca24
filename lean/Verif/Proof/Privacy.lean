import Verif.Proof.Tree

/-!
# Unauthorised shares are independent of the secret
-/

set_option linter.unusedSectionVars false

namespace Rabe

open Polynomial

variable {F : Type} [Field F] [DecidableEq F]

theorem listPoly_coeffs (n : ℕ) : ∀ P : F[X], P.degree < n → listPoly ((List.range n).map P.coeff) = P := by
  have h : ∀ (l : List F) (m : ℕ), (listPoly l).coeff m = l.getD m 0 := by
    intro l
    induction l with
    | nil => intro m; simp [listPoly]
    | cons c cs ih =>
      intro m
      cases m with
      | zero => simp [listPoly]
      | succ m => simp [listPoly, coeff_C_succ, ih]
  intro P hP
  rw [Polynomial.degree_lt_iff_coeff_zero] at hP
  ext m
  rw [h]
  by_cases hm : m < n
  · simp [hm]
  · simp [hm, hP m (by omega)]

theorem vanish_exists (d : F) : ∀ S : List F, (∀ x ∈ S, x ≠ 0) →
    ∃ P : F[X], P.degree < (S.length + 1 : ℕ) ∧ P.coeff 0 = d ∧ ∀ x ∈ S, P.eval x = 0 := by
  intro S
  induction S with
  | nil =>
    intro _
    exact ⟨C d, lt_of_le_of_lt degree_C_le (by simp), by simp, by simp⟩
  | cons x S ih =>
    intro h
    obtain ⟨P, hd, h0, hv⟩ := ih fun y hy => h y (by simp [hy])
    have hx := h x (by simp)
    refine ⟨P - X * (C x⁻¹ * P), ?_, ?_, ?_⟩
    · rw [Polynomial.degree_lt_iff_coeff_zero] at *
      intro m hm
      simp only [List.length_cons] at hm
      obtain ⟨m, rfl⟩ : ∃ k, m = k + 1 := ⟨m - 1, by omega⟩
      rw [coeff_sub, coeff_X_mul, coeff_C_mul, hd m (by omega), hd (m + 1) (by omega)]
      simp
    · simp [h0]
    · intro y hy
      rcases List.mem_cons.1 hy with rfl | hy
      · simp [eval_sub]; field_simp; simp
      · simp [hv y hy]

/-- A list of `S.length` coefficients that changes the constant term by `d` and is invisible at the points `S`. -/
theorem offset_exists (d : F) (S : List F) (hS : ∀ x ∈ S, x ≠ 0) :
    ∃ a : ℕ → F, ∀ x ∈ S, polynomial (d :: (List.range S.length).map a) x = 0 := by
  obtain ⟨P, hd, h0, hv⟩ := vanish_exists d S hS
  refine ⟨fun i => P.coeff (i + 1), fun x hx => ?_⟩
  have : d :: (List.range S.length).map (fun i => P.coeff (i + 1)) = (List.range (S.length + 1)).map P.coeff := by
    rw [List.range_succ_eq_map, List.map_cons, h0, List.map_map]
    rfl
  rw [this, polynomial_eq, listPoly_coeffs _ P hd]
  exact hv x hx

theorem polynomial_add (x : F) (f g : ℕ → F) : ∀ n (c d : F),
    polynomial ((c + d) :: (List.range n).map fun i => f i + g i) x =
      polynomial (c :: (List.range n).map f) x + polynomial (d :: (List.range n).map g) x := by
  have h : ∀ L : List ℕ, polynomial (L.map fun i => f i + g i) x =
      polynomial (L.map f) x + polynomial (L.map g) x := by
    intro L
    induction L with
    | nil => simp
    | cons l L ih => simp only [List.map_cons, polynomial_cons, ih]; ring
  intro n c d
  simp only [polynomial_cons, h]
  ring

theorem gateShare_add (op : Op) (n : ℕ) (σ d : F) (ω δ : ℕ → F) (i : ℕ) :
    gateShare op n (σ + d) (ω + δ) i = gateShare op n σ ω i + gateShare op n d δ i := by
  simp only [gateShare]
  exact polynomial_add _ ω δ _ σ d

theorem gateShare_congr (op : Op) (n : ℕ) (σ : F) {ω ω' : ℕ → F} (h : ∀ i < thr op n - 1, ω i = ω' i) (i : ℕ) :
    gateShare op n σ ω i = gateShare op n σ ω' i := by
  simp only [gateShare]
  congr 2
  exact List.map_congr_left fun j hj => h j (by simpa using hj)

/-- The shares only depend on the first `draws` random scalars. -/
theorem shareVals_congr : ∀ p : Pol, ∀ (σ : F) {ω ω' : ℕ → F}, (∀ i < draws p, ω i = ω' i) →
    shareVals p σ ω = shareVals p σ ω' := by
  intro p
  induction p using Pol.ind with
  | hl n c => intro σ ω ω' _; simp [shareVals]
  | hg op cs ih =>
    intro σ ω ω' h
    simp only [draws] at h
    simp only [shareVals]
    have hq : gateShare op cs.length σ ω = gateShare op cs.length σ ω' := by
      funext i; exact gateShare_congr op _ σ (fun i hi => h i (by omega)) i
    rw [hq]
    have key : ∀ cs : List Pol, (∀ c ∈ cs, ∀ (σ : F) {ω ω' : ℕ → F}, (∀ i < draws c, ω i = ω' i) →
        shareVals c σ ω = shareVals c σ ω') → ∀ q k {ω ω' : ℕ → F}, (∀ i < drawsL cs, ω i = ω' i) →
        shareValsL cs q k ω = shareValsL cs q k ω' := by
      intro cs
      induction cs with
      | nil => intros; simp [shareValsL]
      | cons c cs ihc =>
        intro ih q k ω ω' h
        simp only [drawsL] at h
        simp only [shareValsL]
        rw [ih c (by simp) _ (fun i hi => h i (by omega)),
          ihc (fun c hc => ih c (by simp [hc])) q (k + 1) (ω := dropS (draws c) ω) (ω' := dropS (draws c) ω')
            (fun i hi => h _ (by omega))]
    refine key cs ih _ _ fun i hi => h _ (by omega)

/-- Values at the visible leaves agree. -/
def AgreeOn (A : List Str) (L : List (Str × ℕ)) (xs ys : List F) : Prop :=
  ∀ (i : ℕ) (l : Str × ℕ), L[i]? = some l → l.1 ∈ A → xs[i]? = ys[i]?

theorem AgreeOn.refl (A L) (xs : List F) : AgreeOn A L xs xs := fun _ _ _ _ => rfl

theorem AgreeOn.append {A : List Str} {L L' : List (Str × ℕ)} {xs ys xs' ys' : List F}
    (hx : xs.length = L.length) (hy : ys.length = L.length)
    (h : AgreeOn A L xs ys) (h' : AgreeOn A L' xs' ys') : AgreeOn A (L ++ L') (xs ++ xs') (ys ++ ys') := by
  intro i l hi hl
  by_cases hlt : i < L.length
  · rw [List.getElem?_append_left hlt] at hi
    rw [List.getElem?_append_left (by omega), List.getElem?_append_left (by omega)]
    exact h i l hi hl
  · rw [List.getElem?_append_right (by omega)] at hi
    rw [List.getElem?_append_right (by omega), List.getElem?_append_right (by omega), hx, hy]
    exact h' _ l hi hl

/-- Glue two randomness offsets. -/
def glue (n : ℕ) (a b : ℕ → F) : ℕ → F := fun i => if i < n then a i else b (i - n)

theorem dropS_glue (n : ℕ) (a b ω : ℕ → F) : dropS n (ω + glue n a b) = dropS n ω + b := by
  funext i; simp [dropS, glue]

theorem glue_lt (n : ℕ) (a b ω : ℕ → F) (i : ℕ) (h : i < n) : (ω + glue n a b) i = (ω + a) i := by
  simp [glue, h]

/-- Hidden change: the secret can be shifted by `d` invisibly for `A`. -/
def Hides (A : List Str) (p : Pol) (d : F) : Prop :=
  ∃ δ : ℕ → F, ∀ σ ω, AgreeOn A p.leaves (shareVals p σ ω) (shareVals p (σ + d) (ω + δ))

theorem hides_zero (A : List Str) (p : Pol) : Hides (F := F) A p 0 :=
  ⟨0, fun σ ω => by simpa using AgreeOn.refl A p.leaves (shareVals p σ ω)⟩

theorem shareValsL_length (cs : List Pol) : ∀ (q : ℕ → F) k ω,
    (shareValsL cs q k ω).length = (cs.flatMap Pol.leaves).length := by
  induction cs with
  | nil => intros; simp [shareValsL]
  | cons c cs ih => intros; simp [shareValsL, ih, shareVals_length]

theorem hidesL (A : List Str) (e : ℕ → F) (cs : List Pol) : ∀ k : ℕ,
    (∀ j (h : j < cs.length), Hides A cs[j] (e (k + j + 1))) →
    ∃ δ : ℕ → F, ∀ q ω, AgreeOn A (cs.flatMap Pol.leaves) (shareValsL cs q k ω)
      (shareValsL cs (fun i => q i + e i) k (ω + δ)) := by
  induction cs with
  | nil => intro k _; exact ⟨0, fun q ω => by simp [shareValsL, AgreeOn]⟩
  | cons c cs ih =>
    intro k h
    obtain ⟨δ1, h1⟩ := h 0 (by simp)
    obtain ⟨δ2, h2⟩ := ih (k + 1) fun j hj => by
      have := h (j + 1) (by simpa using hj)
      simpa [show k + (j + 1) + 1 = k + 1 + j + 1 by omega] using this
    refine ⟨glue (draws c) δ1 δ2, fun q ω => ?_⟩
    simp only [shareValsL, List.flatMap_cons, dropS_glue]
    refine AgreeOn.append (shareVals_length _ _ _) (shareVals_length _ _ _) ?_ (h2 q _)
    rw [shareVals_congr c _ fun i hi => glue_lt (draws c) δ1 δ2 ω i hi]
    simpa using h1 (q (k + 1)) ω

/-- For a tree that `A` does not satisfy the shared secret can be shifted by any `d` such that the shares visible
to `A` do not change. -/
theorem hides [BigChar F] (A : List Str) : ∀ p : Pol, p.Fits → p.sat A = false → ∀ d : F, Hides A p d := by
  intro p
  induction p using Pol.ind with
  | hl n c =>
    intro _ hs d
    refine ⟨0, fun σ ω i l hi hl => ?_⟩
    simp only [Pol.leaves_leaf, Pol.sat_leaf, decide_eq_false_iff_not] at hi hs
    cases i with
    | zero => simp at hi; subst hi; exact absurd hl hs
    | succ i => simp at hi
  | hg op cs ih =>
    intro hf hs d
    simp only [Pol.Fits, Pol.arity_gate] at hf
    -- it suffices to choose the offsets of the gate polynomial
    suffices hmain : ∃ a : ℕ → F, ∀ j (h : j < cs.length),
        Hides A cs[j] (gateShare op cs.length d a (j + 1)) by
      obtain ⟨a, ha⟩ := hmain
      obtain ⟨δ, hδ⟩ := hidesL A (gateShare op cs.length d a) cs 0 (by simpa using ha)
      refine ⟨glue (thr op cs.length - 1) a δ, fun σ ω => ?_⟩
      simp only [shareVals, Pol.leaves_gate, dropS_glue]
      have hq : gateShare op cs.length (σ + d) (ω + glue (thr op cs.length - 1) a δ) =
          fun i => gateShare op cs.length σ ω i + gateShare op cs.length d a i := by
        funext i
        rw [gateShare_congr op _ _ fun i hi => glue_lt _ a δ ω i hi, gateShare_add]
      rw [hq]
      exact hδ _ _
    cases op
    · -- AND: hide the change in one unsatisfied child
      simp only [Pol.sat_and, List.all_eq_false] at hs
      obtain ⟨c, hc, hcs⟩ := hs
      obtain ⟨j0, hj0, rfl⟩ := List.getElem_of_mem hc
      have hcs' : cs[j0].sat A = false := by simpa using hcs
      let S : List F := (((List.range cs.length).erase j0).map fun i : ℕ => ((i + 1 : ℕ) : F))
      have hlen : S.length = cs.length - 1 := by
        simp only [S, List.length_map]
        rw [List.length_erase_of_mem (by simpa using hj0), List.length_range]
      obtain ⟨a, ha⟩ := offset_exists d S (by
        intro x hx
        obtain ⟨i, hi, rfl⟩ := List.mem_map.1 hx
        have := List.mem_of_mem_erase hi
        simp only [List.mem_range] at this
        exact BigChar.cast_ne_zero _ (by omega) (by omega))
      refine ⟨a, fun j hj => ?_⟩
      by_cases hjj : j = j0
      · subst hjj
        exact ih _ hc (hf.2 _ hc) hcs' _
      · have h0 : gateShare .and cs.length d a (j + 1) = 0 := by
          have hm : ((j + 1 : ℕ) : F) ∈ S := by
            refine List.mem_map.2 ⟨j, ?_, rfl⟩
            rw [List.mem_erase_of_ne hjj]
            simpa using hj
          have := ha _ hm
          rw [hlen] at this
          exact this
        rw [h0]
        exact hides_zero A _
    · -- OR: every child is unsatisfied
      simp only [Pol.sat_or, List.any_eq_false] at hs
      refine ⟨0, fun j hj => ?_⟩
      have hc : cs[j] ∈ cs := List.getElem_mem hj
      exact ih _ hc (hf.2 _ hc) (by simpa using hs _ hc) _

end Rabe
