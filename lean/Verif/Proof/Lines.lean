import Verif.Proof.Generic
import Mathlib.Algebra.Module.LinearMap.Basic
import Mathlib.Algebra.Module.Pi
import Mathlib.Algebra.Module.Prod
import Mathlib.Algebra.BigOperators.Pi
import Mathlib.Data.Fintype.BigOperators
import Mathlib.Data.Finset.Card

/-!
# Counting along lines

Sets that meet every line of one direction in few points are small; the zeros of a quadratic function are such a set.
-/

namespace Rabe

open Classical in
/-- A set that meets every line of direction `d` in at most `B` points. -/
theorem card_lines {F X : Type} [Field F] [Fintype F] [AddCommGroup X] [Module F X] [Fintype X] (S : Finset X) (d : X)
    (B : ℕ) (h : ∀ v, (Finset.univ.filter fun t : F => v + t • d ∈ S).card ≤ B) :
    S.card * Fintype.card F ≤ B * Fintype.card X := by
  have e1 : ∑ t : F, (Finset.univ.filter fun v : X => v + t • d ∈ S).card = Fintype.card F * S.card := by
    rw [Finset.sum_congr rfl (g := fun _ => S.card), Finset.sum_const, Finset.card_univ, smul_eq_mul]
    intro t _
    refine Finset.card_bij (fun v _ => v + t • d) (fun v hv => by simpa using hv) (fun a _ b _ hab => add_right_cancel hab) ?_
    intro b hb
    exact ⟨b - t • d, by simpa using hb, by simp⟩
  have e2 : ∑ t : F, (Finset.univ.filter fun v : X => v + t • d ∈ S).card =
      ∑ v : X, (Finset.univ.filter fun t : F => v + t • d ∈ S).card := by
    simp only [Finset.card_filter]
    exact Finset.sum_comm
  calc S.card * Fintype.card F = _ := mul_comm _ _
    _ = _ := e1.symm
    _ = _ := e2
    _ ≤ ∑ _v : X, B := Finset.sum_le_sum fun v _ => h v
    _ = _ := by rw [Finset.sum_const, Finset.card_univ, smul_eq_mul, mul_comm]

open Classical in
/-- The zeros of a function of degree two. -/
theorem card_quadratic {F V M : Type} [Field F] [Fintype F] [AddCommGroup V] [Module F V] [Fintype V] [AddCommGroup M]
    [Module F M] (A₀ B₀ : M) (A B : V →ₗ[F] M) (l : V →ₗ[F] F) (z₀ : V) (h₀ : A₀ + A z₀ + l z₀ • (B₀ + B z₀) ≠ 0) :
    (Finset.univ.filter fun z => A₀ + A z + l z • (B₀ + B z) = 0).card * Fintype.card F ≤ 2 * Fintype.card V := by
  have hline : ∀ v d : V, ∀ t : F, A₀ + A (v + t • d) + l (v + t • d) • (B₀ + B (v + t • d)) =
      (A₀ + A v + l v • (B₀ + B v)) + t • (A d + l d • B₀ + (l v • B d + l d • B v)) + (t * t) • (l d • B d) := by
    intro v d t
    simp only [map_add, map_smul, smul_eq_mul]
    module
  by_cases hq : ∃ d, l d • B d ≠ 0
  · obtain ⟨d, hd⟩ := hq
    refine card_lines _ d 2 fun v => ?_
    by_contra hc
    push Not at hc
    obtain ⟨t₁, t₂, t₃, h1, h2, h3, n12, n13, n23⟩ := Finset.two_lt_card_iff.1 hc
    simp only [Finset.mem_filter, Finset.mem_univ, true_and, hline] at h1 h2 h3
    set X := A₀ + A v + l v • (B₀ + B v)
    set Y := A d + l d • B₀ + (l v • B d + l d • B v)
    set W := l d • B d
    have e1 : (t₁ - t₂) • (Y + (t₁ + t₂) • W) = 0 := by
      have := congrArg₂ (· - ·) h1 h2
      simp only [sub_zero] at this
      rw [← this]; module
    have e2 : (t₁ - t₃) • (Y + (t₁ + t₃) • W) = 0 := by
      have := congrArg₂ (· - ·) h1 h3
      simp only [sub_zero] at this
      rw [← this]; module
    have f1 := (smul_eq_zero.1 e1).resolve_left (sub_ne_zero.2 n12)
    have f2 := (smul_eq_zero.1 e2).resolve_left (sub_ne_zero.2 n13)
    have e3 : (t₂ - t₃) • W = 0 := by
      have := congrArg₂ (· - ·) f1 f2
      simp only [sub_zero] at this
      rw [← this]; module
    exact hd ((smul_eq_zero.1 e3).resolve_left (sub_ne_zero.2 n23))
  · push Not at hq
    have hpol : ∀ v d, l v • B d + l d • B v = 0 := by
      intro v d
      have := hq (v + d)
      simp only [map_add] at this
      have e : (l v + l d) • (B v + B d) = l v • B v + l d • B d + (l v • B d + l d • B v) := by module
      rw [e, hq, hq, zero_add, zero_add] at this
      exact this
    simp only [hpol, hq, smul_zero, add_zero] at hline
    by_cases hl : ∃ d, A d + l d • B₀ ≠ 0
    · obtain ⟨d, hd⟩ := hl
      refine (card_lines _ d 1 fun v => ?_).trans (by omega)
      apply Finset.card_le_one.2
      intro t ht t' ht'
      simp only [Finset.mem_filter, Finset.mem_univ, true_and, hline] at ht ht'
      have e : (t - t') • (A d + l d • B₀) = 0 := by
        have := congrArg₂ (· - ·) ht ht'
        simp only [sub_zero] at this
        rw [← this]; module
      exact sub_eq_zero.1 ((smul_eq_zero.1 e).resolve_right hd)
    · push Not at hl
      rw [Finset.filter_false_of_mem]
      · simp
      · intro z _ hz
        apply h₀
        have h1 := hline 0 z 1
        have h2 := hline 0 z₀ 1
        rw [hl, smul_zero, add_zero] at h1 h2
        simp only [zero_add, one_smul] at h1 h2
        rw [h2, ← h1]
        exact hz

open Classical in
/-- The counting argument for users who combine keys. The choices are secrets `z`, random numbers `f` of the encryption and
a session element `m`. Row `j` of the ciphertext belongs to the secrets at `pos j`, component `k` of a key to those at
`own k` and an identity with hash `h k`. -/
theorem count_users {F V Gt P : Type} [Field F] [Fintype F] [AddCommGroup V] [Module F V] [Fintype V] [AddCommGroup Gt]
    [Module F Gt] [Fintype Gt] {J L n : ℕ} (h2 : (2 : F) ≠ 0) (E : Gt) (hE : E ≠ 0) (al ye : P → V →ₗ[F] F)
    (pos : Fin J → P) (own : Fin L → P) (h : Fin L → F)
    (unit : ∀ j, ∃ e e' : V, ∀ p, al p e = (if p = pos j then 1 else 0) ∧ ye p e = 0 ∧ al p e' = 0 ∧
      ye p e' = if p = pos j then 1 else 0)
    (a : Fin J → F) (c₂ c₃ : Fin J → Fin L → F) (g₂ g₃ : Fin J → Gt) (T D : Fin J → V → Gt)
    (hT : ∀ j z, T j z = g₃ j + (∑ k, c₃ j k * (al (own k) z + h k * ye (own k) z)) • E)
    (hD : ∀ j z, D j z = (a j * al (pos j) z) • E + (g₂ j + (∑ k, c₂ j k * (al (own k) z + h k * ye (own k) z)) • E) +
      ye (pos j) z • T j z)
    (σ : (Fin n → F) →ₗ[F] F) (lam w r : Fin J → (Fin n → F) →ₗ[F] F)
    (dirs : ∀ j, ∃ d, σ d = 0 ∧ ∀ i, lam i d = 0 ∧ w i d = 0 ∧ r i d = if i = j then 1 else 0)
    (hidden : ∃ d, σ d = 1 ∧ (∀ i, r i d = 0) ∧ ∀ j k, own k = pos j → lam j d + h k * w j d = 0)
    (κ : F) (S : Finset (V × (Fin n → F) × Gt))
    (hS : ∀ z f f' m m', (z, f, m) ∈ S → (z, f', m') ∈ S → m' - m = κ • ((m' - m) + σ (f' - f) • E) +
      ∑ j, ((a j * lam j (f' - f)) • E + w j (f' - f) • T j z + r j (f' - f) • D j z)) :
    S.card * Fintype.card F ≤ 3 * Fintype.card (V × (Fin n → F) × Gt) := by
  by_cases hex : ∃ j z, D j z ≠ 0
  · obtain ⟨j, z₀, hz⟩ := hex
    have hs : S = (S.filter fun x => D j x.1 ≠ 0) ∪ (S.filter fun x => D j x.1 = 0) := by
      ext x; by_cases hx : D j x.1 = 0 <;> simp [hx]
    have b1 : (S.filter fun x => D j x.1 ≠ 0).card * Fintype.card F ≤ 1 * Fintype.card (V × (Fin n → F) × Gt) := by
      obtain ⟨d, hd0, hd⟩ := dirs j
      refine card_lines _ (0, d, 0) 1 ?_
      rintro ⟨z, f, m⟩
      apply Finset.card_le_one.2
      intro t ht t' ht'
      simp only [Finset.mem_filter, Finset.mem_univ, true_and, Prod.smul_mk, smul_zero, Prod.mk_add_mk, add_zero] at ht ht'
      have := hS _ _ _ _ _ ht.1 ht'.1
      have ed : f + t' • d - (f + t • d) = (t' - t) • d := by module
      simp only [ed, map_smul, hd0, hd, smul_eq_mul, mul_zero, zero_smul, sub_self, add_zero, smul_zero, zero_add,
        mul_ite, mul_one, ite_smul, Finset.sum_ite_eq', Finset.mem_univ, if_true] at this
      rw [eq_comm, smul_eq_zero, sub_eq_zero] at this
      exact (this.resolve_right ht.2).symm
    have b2 : (S.filter fun x => D j x.1 = 0).card * Fintype.card F ≤ 2 * Fintype.card (V × (Fin n → F) × Gt) := by
      have hq : (Finset.univ.filter fun z => D j z = 0).card * Fintype.card F ≤ 2 * Fintype.card V := by
        set lin : (Fin L → F) → V →ₗ[F] F := fun c => ∑ k, c k • (al (own k) + h k • ye (own k)) with hlin
        have e : ∀ z, D j z = g₂ j + ((a j • al (pos j) + lin (c₂ j)).smulRight E) z +
            ye (pos j) z • (g₃ j + ((lin (c₃ j)).smulRight E) z) := by
          intro z
          rw [hD, hT]
          simp only [hlin, LinearMap.smulRight_apply, LinearMap.add_apply, LinearMap.smul_apply, LinearMap.sum_apply,
            smul_eq_mul]
          module
        simp only [e] at hz ⊢
        exact card_quadratic _ _ _ _ _ z₀ hz
      have hsub : (S.filter fun x => D j x.1 = 0).card ≤
          ((Finset.univ.filter fun z => D j z = 0) ×ˢ (Finset.univ : Finset ((Fin n → F) × Gt))).card := by
        refine Finset.card_le_card fun x hx => ?_
        simp only [Finset.mem_filter] at hx
        simp [hx.2]
      rw [Finset.card_product, Finset.card_univ] at hsub
      calc _ ≤ _ := Nat.mul_le_mul_right _ hsub
        _ = ((Finset.univ.filter fun z => D j z = 0).card * Fintype.card F) * Fintype.card ((Fin n → F) × Gt) := by ring
        _ ≤ _ := Nat.mul_le_mul_right _ hq
        _ = _ := by rw [Fintype.card_prod V]; ring
    calc _ ≤ ((S.filter fun x => D j x.1 ≠ 0).card + (S.filter fun x => D j x.1 = 0).card) * Fintype.card F := by
          conv_lhs => rw [hs]
          exact Nat.mul_le_mul_right _ (Finset.card_union_le _ _)
      _ ≤ _ := by rw [Nat.add_mul]; omega
  · push Not at hex
    refine le_trans ?_ (Nat.mul_le_mul_right _ (show 1 ≤ 3 by omega))
    by_cases hκ : κ = 0
    · refine card_lines _ (0, 0, E) 1 ?_
      rintro ⟨z, f, m⟩
      apply Finset.card_le_one.2
      intro t ht t' ht'
      simp only [Finset.mem_filter, Finset.mem_univ, true_and, Prod.smul_mk, smul_zero, Prod.mk_add_mk, add_zero] at ht ht'
      have := hS _ _ _ _ _ ht ht'
      simp only [hκ, sub_self, map_zero, mul_zero, zero_smul, add_zero, Finset.sum_const_zero] at this
      have e : (t' - t) • E = 0 := by rw [← this]; module
      exact (sub_eq_zero.1 ((smul_eq_zero.1 e).resolve_right hE)).symm
    · obtain ⟨d, hd1, hdr, hd⟩ := hidden
      refine card_lines _ (0, d, 0) 1 ?_
      rintro ⟨z, f, m⟩
      apply Finset.card_le_one.2
      intro t ht t' ht'
      simp only [Finset.mem_filter, Finset.mem_univ, true_and, Prod.smul_mk, smul_zero, Prod.mk_add_mk, add_zero] at ht ht'
      have := hS _ _ _ _ _ ht ht'
      have ed : f + t' • d - (f + t • d) = (t' - t) • d := by module
      have hrow : ∀ j, (a j * lam j d) • E + w j d • T j z = 0 := by
        intro j
        obtain ⟨e, e', he⟩ := unit j
        set lin : (Fin L → F) → V →ₗ[F] F := fun c => ∑ k, c k • (al (own k) + h k • ye (own k)) with hlin
        have hlin' : ∀ c z, lin c z = ∑ k, c k * (al (own k) z + h k * ye (own k) z) := by
          intro c z
          simp [hlin, LinearMap.sum_apply, mul_add]
        have hT' : ∀ z, T j z = g₃ j + lin (c₃ j) z • E := by intro z; rw [hT, hlin']
        have hD' : ∀ z, D j z = (a j * al (pos j) z) • E + (g₂ j + lin (c₂ j) z • E) + ye (pos j) z • T j z := by
          intro z; rw [hD, hlin']
        have x0 := hex j 0
        have x1 := hex j e
        have x2 := hex j e'
        have x3 := hex j (-e')
        have x4 := hex j (z + e')
        have x5 := hex j z
        simp only [hD', hT', map_zero, map_neg, map_add, he, if_true, mul_zero, zero_smul, add_zero, zero_add, mul_one,
          one_smul, neg_zero] at x0 x1 x2 x3 x4 x5
        rw [x0] at x1 x2 x3 x4 x5
        have y1 : lin (c₃ j) e' • E = 0 := by
          have : (2 : F) • lin (c₃ j) e' • E = 0 := by
            have := congrArg₂ (· + ·) x2 x3
            simp only [add_zero] at this
            rw [← this]; module
          exact (smul_eq_zero.1 this).resolve_left h2
        have y2 : lin (c₃ j) z • E = 0 := by
          have := congrArg₂ (· - ·) (congrArg₂ (· - ·) x4 x5) x2
          simp only [sub_zero] at this
          have e : lin (c₃ j) z • E + ye (pos j) z • lin (c₃ j) e' • E = 0 := by rw [← this]; module
          rwa [y1, smul_zero, add_zero] at e
        have y3 : T j z = -(lin (c₂ j) e' • E) := by
          rw [hT', y2, add_zero, eq_neg_iff_add_eq_zero, ← x2, y1]
          module
        have y4 : a j • E = -(lin (c₂ j) e • E) := by
          rw [eq_neg_iff_add_eq_zero, ← x1]
          module
        have y5 : lam j d * lin (c₂ j) e + w j d * lin (c₂ j) e' = 0 := by
          rw [hlin', hlin', Finset.mul_sum, Finset.mul_sum, ← Finset.sum_add_distrib]
          refine Finset.sum_eq_zero fun k _ => ?_
          simp only [he]
          by_cases hk : own k = pos j
          · simp only [hk, if_true]
            linear_combination c₂ j k * hd j k hk
          · simp [hk]
        rw [y3, mul_comm, mul_smul, y4]
        have : lam j d • -(lin (c₂ j) e • E) + w j d • -(lin (c₂ j) e' • E) =
            -((lam j d * lin (c₂ j) e + w j d * lin (c₂ j) e') • E) := by module
        rw [this, y5, zero_smul, neg_zero]
      simp only [ed, map_smul, hd1, hdr, smul_eq_mul, mul_zero, zero_smul, sub_self, add_zero, zero_add, mul_one] at this
      have hz : ∑ j, ((a j * ((t' - t) * lam j d)) • E + ((t' - t) * w j d) • T j z) = 0 := by
        refine Finset.sum_eq_zero fun j _ => ?_
        have := congrArg ((t' - t) • ·) (hrow j)
        simp only [smul_zero] at this
        rw [← this]; module
      rw [hz, add_zero, eq_comm, smul_eq_zero, smul_eq_zero, sub_eq_zero] at this
      exact ((this.resolve_left hκ).resolve_right hE).symm

end Rabe
