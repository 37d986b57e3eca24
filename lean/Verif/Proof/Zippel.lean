import Verif.Proof.Generic
import Mathlib.Algebra.MvPolynomial.SchwartzZippel
import Mathlib.Algebra.MvPolynomial.Equiv
import Mathlib.LinearAlgebra.Dual.Lemmas

/-!
# Fixed computations as polynomials in the random choices
-/

set_option linter.unusedSectionVars false

namespace Rabe

open MvPolynomial

variable {F G1 G2 Gt : Type} [Field F] [AddCommGroup G1] [Module F G1]
  [AddCommGroup G2] [Module F G2] [AddCommGroup Gt] [Module F Gt]

/-- A polynomial of total degree at most `d` that is not zero vanishes for at most `d / q` of the points. -/
theorem zippel {σ : Type} [Fintype σ] [DecidableEq σ] [Fintype F] [DecidableEq F] (P : MvPolynomial σ F) (hP : P ≠ 0)
    (d : ℕ) (hd : P.totalDegree ≤ d) (S : Finset (σ → F)) (h : ∀ x ∈ S, eval x P = 0) :
    S.card * Fintype.card F ≤ d * Fintype.card (σ → F) := by
  set e := Fintype.equivFin σ
  have h1 := schwartz_zippel_totalDegree (p := rename e P)
    (fun h0 => hP (rename_injective e e.injective (by rw [h0, map_zero]))) (Finset.univ : Finset F)
  have h2 : (rename e P).totalDegree ≤ d := (totalDegree_rename_le e P).trans hd
  have hq : (0 : ℚ≥0) < Fintype.card F := by exact_mod_cast Fintype.card_pos
  have h3 : S.card ≤ (Finset.filter (fun f => eval f (rename e P) = 0)
      (Fintype.piFinset fun _ : Fin (Fintype.card σ) => (Finset.univ : Finset F))).card := by
    refine Finset.card_le_card_of_injOn (fun x i => x (e.symm i)) ?_ ?_
    · intro x hx
      simp only [Finset.coe_filter, Fintype.mem_piFinset, Finset.mem_univ, implies_true, true_and]
      change eval _ _ = 0
      rw [eval_rename]
      rw [← h x hx]
      congr 2
      funext i
      simp
    · intro x _ y _ hxy
      funext i
      have := congrFun hxy (e i)
      simpa using this
  rw [div_le_div_iff₀ (by rw [Finset.card_univ]; positivity) (by rw [Finset.card_univ]; exact hq)] at h1
  have h4 : (S.card : ℚ≥0) * Fintype.card F ≤ d * (Fintype.card F : ℚ≥0) ^ Fintype.card σ := by
    rw [Finset.card_univ] at h1
    calc (S.card : ℚ≥0) * Fintype.card F ≤ _ * Fintype.card F := mul_le_mul_left (by exact_mod_cast h3) _
      _ ≤ _ := h1
      _ ≤ _ := mul_le_mul_left (by exact_mod_cast h2) _
  rw [Fintype.card_fun]
  exact_mod_cast h4

/-- The result of a computation on known exponents, in any commutative algebra. -/
def Formula.scalar {A : Type} [CommRing A] [Algebra F A] (k : Formula F) (one two tgt : List A) : A :=
  (one.zipIdx.map fun x => (two.zipIdx.map fun y => k.pairs x.2 y.2 • (x.1 * y.1)).sum).sum + weigh k.tgt 0 tgt

theorem weigh_map {M N : Type} [AddCommGroup M] [Module F M] [AddCommGroup N] [Module F N] (φ : M →ₗ[F] N) (f : ℕ → F) :
    ∀ (n : ℕ) (l : List M), φ (weigh f n l) = weigh f n (l.map φ)
  | _, [] => by simp [weigh]
  | n, x :: l => by simp [weigh, weigh_map φ f (n + 1) l]

theorem zipIdx_map_sum {α M : Type} [AddCommMonoid M] (l : List α) (g : α → ℕ → M) :
    (l.zipIdx.map fun x => g x.1 x.2).sum = ∑ i : Fin l.length, g l[i] i := by
  rw [← List.sum_ofFn]
  congr 1
  apply List.ext_getElem <;> simp

/-- The computation on multiples of three fixed elements, seen through a linear function. -/
theorem eval_scalar (env : Env F G1 G2 Gt) (k : Formula F) (g1 : G1) (g2 : G2) (φ : Gt →ₗ[F] F)
    (hφ : φ (env.pair g1 g2) = 1) (one two tgt : List F) (v : View G1 G2 Gt) (h1 : v.one = one.map (· • g1))
    (h2 : v.two = two.map (· • g2)) (ht : v.tgt.map φ = tgt) :
    φ (k.eval env v) = k.scalar one two tgt := by
  simp only [Formula.eval, Formula.scalar, map_add, weigh_map, ht, h1, h2]
  congr 1
  rw [map_list_sum, List.map_map]
  simp only [List.zipIdx_map, List.map_map]
  congr 1
  apply List.map_congr_left
  intro x _
  simp only [Function.comp_apply]
  rw [map_list_sum, List.map_map]
  congr 1
  apply List.map_congr_left
  intro y _
  simp only [Function.comp_apply, map_smul, LinearMap.smul_apply, hφ, smul_eq_mul, mul_one, Prod.map]
  simp

theorem scalar_map {A B : Type} [CommRing A] [Algebra F A] [CommRing B] [Algebra F B] (k : Formula F) (f : A →ₐ[F] B)
    (one two tgt : List A) : f (k.scalar one two tgt) = k.scalar (one.map f) (two.map f) (tgt.map f) := by
  have hw := weigh_map f.toLinearMap k.tgt 0 tgt
  simp only [AlgHom.toLinearMap_apply] at hw
  simp only [Formula.scalar, map_add, hw]
  congr 1
  rw [map_list_sum, List.map_map]
  simp only [List.zipIdx_map, List.map_map]
  congr 1
  apply List.map_congr_left
  intro x _
  simp only [Function.comp_apply]
  rw [map_list_sum, List.map_map]
  congr 1
  apply List.map_congr_left
  intro y _
  simp

theorem weigh_degree {σ : Type} (f : ℕ → F) (d : ℕ) : ∀ (n : ℕ) (l : List (MvPolynomial σ F)),
    (∀ p ∈ l, p.totalDegree ≤ d) → (weigh f n l).totalDegree ≤ d
  | _, [], _ => by simp [weigh]
  | n, x :: l, h => by
    refine (totalDegree_add _ _).trans (max_le ((totalDegree_smul_le _ _).trans (h x (by simp))) ?_)
    exact weigh_degree f d (n + 1) l fun p hp => h p (by simp [hp])

theorem list_sum_degree {σ : Type} (d : ℕ) : ∀ (l : List (MvPolynomial σ F)),
    (∀ p ∈ l, p.totalDegree ≤ d) → l.sum.totalDegree ≤ d
  | [], _ => by simp
  | x :: l, h => by
    rw [List.sum_cons]
    refine (totalDegree_add _ _).trans (max_le (h x (by simp)) ?_)
    exact list_sum_degree d l fun p hp => h p (by simp [hp])

theorem scalar_degree {σ : Type} (k : Formula F) (one two tgt : List (MvPolynomial σ F)) (d e : ℕ)
    (h1 : ∀ p ∈ one, p.totalDegree ≤ d) (h2 : ∀ p ∈ two, p.totalDegree ≤ d) (ht : ∀ p ∈ tgt, p.totalDegree ≤ e)
    (hde : d + d ≤ e) : (k.scalar one two tgt).totalDegree ≤ e := by
  refine (totalDegree_add _ _).trans (max_le ?_ (weigh_degree _ _ _ _ ht))
  refine list_sum_degree _ _ fun p hp => ?_
  simp only [List.mem_map, Prod.exists] at hp
  obtain ⟨a, i, ha, rfl⟩ := hp
  refine list_sum_degree _ _ fun p hp => ?_
  simp only [List.mem_map, Prod.exists] at hp
  obtain ⟨b, j, hb, rfl⟩ := hp
  refine (totalDegree_smul_le _ _).trans ((totalDegree_mul _ _).trans ((add_le_add ?_ ?_).trans hde))
  · exact h1 _ (List.fst_mem_of_mem_zipIdx ha)
  · exact h2 _ (List.fst_mem_of_mem_zipIdx hb)

/-- A linear function that is one on a given element. -/
theorem exists_functional (E : Gt) (hE : E ≠ 0) : ∃ φ : Gt →ₗ[F] F, φ E = 1 := by
  by_contra h
  push Not at h
  apply hE
  rw [← Module.forall_dual_apply_eq_zero_iff F]
  intro φ
  by_contra h0
  exact h ((φ E)⁻¹ • φ) (by simp [h0])

end Rabe
