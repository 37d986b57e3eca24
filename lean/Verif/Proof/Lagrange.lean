import Verif.Model.SecretSharing
import Mathlib.LinearAlgebra.Lagrange
import Mathlib.Tactic.Ring

/-!
# Polynomials and Lagrange coefficients of the sharing functions
-/

namespace Rabe

set_option linter.unusedSectionVars false

open Polynomial

variable {F : Type} [Field F] [DecidableEq F]

/-- The Mathlib polynomial with the given coefficient list. -/
noncomputable def listPoly : List F → F[X]
  | [] => 0
  | c :: cs => C c + X * listPoly cs

theorem polynomialFrom_eq (x : F) (cs : List F) : ∀ i acc,
    polynomialFrom x cs i acc = acc + x ^ i * (listPoly cs).eval x := by
  induction cs with
  | nil => intro i acc; simp [polynomialFrom, listPoly]
  | cons c cs ih =>
    intro i acc
    simp only [polynomialFrom, ih, listPoly, eval_add, eval_mul, eval_C, eval_X]
    ring

theorem polynomial_eq (cs : List F) (x : F) : polynomial cs x = (listPoly cs).eval x := by
  simp [polynomial, polynomialFrom_eq]

@[simp] theorem polynomial_cons (c : F) (cs : List F) (x : F) :
    polynomial (c :: cs) x = c + x * polynomial cs x := by
  simp [polynomial_eq, listPoly]

@[simp] theorem polynomial_nil (x : F) : polynomial ([] : List F) x = 0 := by
  simp [polynomial_eq, listPoly]

theorem listPoly_degree_lt (cs : List F) : (listPoly cs).degree < cs.length := by
  induction cs with
  | nil => simp [listPoly]
  | cons c cs ih =>
    rw [Polynomial.degree_lt_iff_coeff_zero] at *
    intro m hm
    simp only [List.length_cons] at hm
    obtain ⟨m, rfl⟩ : ∃ k, m = k + 1 := ⟨m - 1, by omega⟩
    simp only [listPoly, coeff_add, coeff_C_succ, coeff_X_mul, zero_add]
    exact ih m (by omega)

theorem recoverCoefficient_eq (i : F) (l : List F) : ∀ r,
    recoverCoefficient i l r = r * (l.map fun j => if i ≠ j then (0 - j) * (i - j)⁻¹ else 1).prod := by
  induction l with
  | nil => intro r; simp [recoverCoefficient]
  | cons j js ih =>
    intro r
    simp only [recoverCoefficient, ih, List.map_cons, List.prod_cons]
    split <;> ring

theorem recoverCoefficient_basis (xs : List F) (hx : xs.Nodup) (i : F) (hi : i ∈ xs) :
    recoverCoefficient i xs 1 = (Lagrange.basis xs.toFinset id i).eval 0 := by
  rw [recoverCoefficient_eq, one_mul, Lagrange.basis, Polynomial.eval_prod]
  rw [← List.prod_toFinset _ hx, ← Finset.mul_prod_erase _ _ (List.mem_toFinset.2 hi)]
  simp only [ne_eq, not_true_eq_false, if_false, one_mul]
  apply Finset.prod_congr rfl
  intro j hj
  have hne : i ≠ j := fun h => by subst h; simp at hj
  simp only [hne, not_false_eq_true, if_true, Lagrange.basisDivisor, id, eval_mul, eval_C, eval_sub, eval_X]
  ring

/-- Lagrange interpolation at zero with the coefficients computed by the code. -/
theorem lagrange_zero (xs : List F) (hx : xs.Nodup) (a : List F) (ha : a.length ≤ xs.length) :
    (xs.map fun x => recoverCoefficient x xs 1 * polynomial a x).sum = polynomial a 0 := by
  have hdeg : (listPoly a).degree < xs.toFinset.card := by
    refine lt_of_lt_of_le (listPoly_degree_lt a) ?_
    rw [List.toFinset_card_of_nodup hx]
    exact_mod_cast ha
  have hint := Lagrange.eq_interpolate (s := xs.toFinset) (v := id) (f := listPoly a)
    (Set.injOn_id _) hdeg
  rw [polynomial_eq a 0, hint, Lagrange.interpolate_apply, Polynomial.eval_finsetSum,
    List.sum_toFinset _ hx]
  congr 1
  apply List.map_congr_left
  intro x hxm
  rw [recoverCoefficient_basis xs hx x hxm, polynomial_eq]
  simp [mul_comm]

theorem polynomial_head_zero (c : F) (cs : List F) : polynomial (c :: cs) 0 = c := by simp

/-- The evaluation points `1 … n` of a gate are pairwise different scalars. -/
theorem natCast_inj_of_lt [BigChar F] {i j : ℕ} (hi : i < 2 ^ 64) (hj : j < 2 ^ 64)
    (h : (i : F) = (j : F)) : i = j := by
  wlog hij : i ≤ j generalizing i j
  · exact (this hj hi h.symm (by omega)).symm
  by_contra hne
  have h0 : ((j - i : ℕ) : F) = 0 := by
    rw [Nat.cast_sub hij, h, sub_self]
  exact BigChar.cast_ne_zero (F := F) (j - i) (by omega) (by omega) h0

theorem points_nodup [BigChar F] (n : ℕ) (hn : n < 2 ^ 64) :
    ((List.range n).map fun i : ℕ => ((i + 1 : ℕ) : F)).Nodup := by
  rw [List.nodup_map_iff_inj_on (List.nodup_range)]
  intro x hx y hy h
  simp only [List.mem_range] at hx hy
  have := natCast_inj_of_lt (F := F) (i := x + 1) (j := y + 1) (by omega) (by omega) h
  omega

end Rabe
