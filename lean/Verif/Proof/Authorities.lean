import Verif.Proof.Computable
import Verif.Proof.DnfMap

/-!
# What a coalition sees of a ciphertext for conjunctions of authorities

Symbols for the group elements of a coalition against MKE08 or BDABE, their values, and the argument that no fixed
computation on these values finds the session element.
-/

set_option linter.unusedSectionVars false

namespace Rabe

variable {F : Type} [Field F]

/-- A source group element of the coalition's view, for `a` authorities, `m` members and `n` conjunctions: published in
advance (a constant, a combination of the authorities' secrets and a multiple of the common point), the two parts of a
member's key, an attribute key, the two parts of a conjunction of the ciphertext. -/
inductive Sym (a m n : ℕ) (F : Type) where
  | pub (c : F) (v : Fin a → F) (d : F)
  | key (u : Fin m)
  | upub (u : Fin m)
  | att (u : Fin m) (i : Fin a) (c : F)
  | ctP (j : Fin n)
  | ctE (j : Fin n)

/-- An element of `Gt` of the coalition's view. -/
inductive TSym (a n : ℕ) (F : Type) where
  | pub (c c1 c2 : F) (v1 v2 : Fin a → F)
  | ct1 (j : Fin n)
  | ct2 (j : Fin n)

/-- A combination of the authorities' secrets. -/
def combo {P : Type} [CommRing P] [Algebra F P] {a : ℕ} (v : Fin a → F) (ρ : Fin a → P) : P := ∑ i, v i • ρ i

variable {a m n : ℕ}

/-- The value of a symbol: `A` the part of the master secret in a member's key, `p` the common point, `μ` the members'
secrets, `ρ` the authorities' secrets, `r` the random numbers of the ciphertext, `E` its conjunctions. -/
def Sym.val {P : Type} [CommRing P] [Algebra F P] (E : Fin n → Fin a → F) (A : Fin m → P) (p : P) (μ : Fin m → P)
    (ρ : Fin a → P) (r : Fin n → P) : Sym a m n F → P
  | .pub c v d => algebraMap F P c + combo v ρ + d • p
  | .key u => A u + μ u * p
  | .upub u => μ u
  | .att u i c => c • (ρ i * μ u)
  | .ctP j => r j * p
  | .ctE j => r j * combo (E j) ρ

/-- The value of a symbol for an element of `Gt`: `y1`, `y2` the master secrets, `s1`, `s2` the parts of the session
element. -/
def TSym.val {P : Type} [CommRing P] [Algebra F P] (E : Fin n → Fin a → F) (y1 y2 s1 s2 : P) (ρ : Fin a → P)
    (r : Fin n → P) : TSym a n F → P
  | .pub c c1 c2 v1 v2 => algebraMap F P c + (algebraMap F P c1 + combo v1 ρ) * y1 + (algebraMap F P c2 + combo v2 ρ) * y2
  | .ct1 j => r j * combo (E j) ρ * y1 + s1
  | .ct2 j => r j * combo (E j) ρ * y2 + s2

theorem combo_map {P Q : Type} [CommRing P] [Algebra F P] [CommRing Q] [Algebra F Q] (f : P →ₐ[F] Q) (v : Fin a → F)
    (ρ : Fin a → P) : f (combo v ρ) = combo v (fun i => f (ρ i)) := by
  simp [combo, map_sum]

theorem Sym.val_map {P Q : Type} [CommRing P] [Algebra F P] [CommRing Q] [Algebra F Q] (f : P →ₐ[F] Q)
    (E : Fin n → Fin a → F) (A : Fin m → P) (p : P) (μ : Fin m → P) (ρ : Fin a → P) (r : Fin n → P) (s : Sym a m n F) :
    f (s.val E A p μ ρ r) =
      s.val E (fun i => f (A i)) (f p) (fun i => f (μ i)) (fun i => f (ρ i)) (fun i => f (r i)) := by
  cases s <;> simp [Sym.val, combo_map]

theorem TSym.val_map {P Q : Type} [CommRing P] [Algebra F P] [CommRing Q] [Algebra F Q] (f : P →ₐ[F] Q)
    (E : Fin n → Fin a → F) (y1 y2 s1 s2 : P) (ρ : Fin a → P) (r : Fin n → P) (s : TSym a n F) :
    f (s.val E y1 y2 s1 s2 ρ r) =
      s.val E (f y1) (f y2) (f s1) (f s2) (fun i => f (ρ i)) (fun i => f (r i)) := by
  cases s <;> simp [TSym.val, combo_map]

section Bilinear
variable {α β : Type}

/-- The pairing part of a computation as a bilinear function of the values. -/
def Formula.bil (k : Formula F) (l1 l2 : List α) : (α → F) →ₗ[F] (α → F) →ₗ[F] F :=
  LinearMap.mk₂ F (fun f g => ∑ i : Fin l1.length, ∑ j : Fin l2.length, k.pairs i j * (f l1[i] * g l2[j]))
    (by intro f f' g; simp only [Pi.add_apply, add_mul, mul_add, Finset.sum_add_distrib])
    (by intro c f g; simp only [Pi.smul_apply, smul_eq_mul, Finset.mul_sum]
        exact Finset.sum_congr rfl fun _ _ => Finset.sum_congr rfl fun _ _ => by ring)
    (by intro f g g'; simp only [Pi.add_apply, mul_add, Finset.sum_add_distrib])
    (by intro c f g; simp only [Pi.smul_apply, smul_eq_mul, Finset.mul_sum]
        exact Finset.sum_congr rfl fun _ _ => Finset.sum_congr rfl fun _ _ => by ring)

theorem bil_congr (k : Formula F) {l1 l2 : List α} {f f' g g' : α → F} (hf : ∀ x ∈ l1, f x = f' x) (hg : ∀ x ∈ l2, g x = g' x) :
    k.bil l1 l2 f g = k.bil l1 l2 f' g' := by
  simp only [Formula.bil, LinearMap.mk₂_apply]
  refine Finset.sum_congr rfl fun i _ => Finset.sum_congr rfl fun j _ => ?_
  rw [hf l1[i] (List.getElem_mem _), hg l2[j] (List.getElem_mem _)]

/-- The remaining part of a computation as a linear function of the values. -/
def Formula.lin (k : Formula F) (lt : List β) : (β → F) →ₗ[F] F where
  toFun h := weigh k.tgt 0 (lt.map h)
  map_add' h h' := by
    suffices H : ∀ n, weigh k.tgt n (lt.map (h + h')) = weigh k.tgt n (lt.map h) + weigh k.tgt n (lt.map h') from H 0
    induction lt with
    | nil => simp [weigh]
    | cons x l ih =>
      intro n
      simp only [List.map_cons, weigh, ih, Pi.add_apply, smul_eq_mul]
      ring
  map_smul' c h := by
    suffices H : ∀ n, weigh k.tgt n (lt.map (c • h)) = c • weigh k.tgt n (lt.map h) from H 0
    induction lt with
    | nil => simp [weigh]
    | cons x l ih =>
      intro n
      simp only [List.map_cons, weigh, ih, Pi.smul_apply, smul_eq_mul]
      ring

theorem scalar_eq (k : Formula F) (l1 l2 : List α) (lt : List β) (f g : α → F) (h : β → F) :
    k.scalar (l1.map f) (l2.map g) (lt.map h) = k.bil l1 l2 f g + k.lin lt h := by
  simp only [Formula.scalar, Formula.lin, LinearMap.coe_mk, AddHom.coe_mk, Formula.bil, LinearMap.mk₂_apply]
  congr 1
  simp only [List.zipIdx_map, List.map_map, Function.comp_def, Prod.map]
  rw [zipIdx_map_sum l1 (fun x i => (l2.zipIdx.map fun y => k.pairs (id i) (id y.2) • (f x * g y.1)).sum)]
  refine Finset.sum_congr rfl fun i _ => ?_
  rw [zipIdx_map_sum l2 (fun y j => k.pairs (id i) (id j) • (f l1[i] * g y))]
  rfl
end Bilinear

theorem fourfold {M : Type} [AddCommGroup M] [Module F M] (B : M →ₗ[F] M →ₗ[F] F) (U0 U1 U2 U3 W0 W3 K : M) (e e' d c : F)
    (P : ∀ p μ ρ r : F, B (U0 + ρ • U1 + μ • U2 + (r * (ρ * e + e')) • U3)
      (U0 + ρ • U1 + μ • U2 + (r * (ρ * e + e')) • U3 + p • W0 + (μ * p) • K + (r * p) • W3) + d = c) : e * B U3 K = 0 := by
  have Q : ∀ μ ρ r : F, B (U0 + ρ • U1 + μ • U2 + (r * (ρ * e + e')) • U3) (W0 + μ • K + r • W3) = 0 := by
    intro μ ρ r
    have h := (P 1 μ ρ r).trans (P 0 μ ρ r).symm
    simp only [one_smul, zero_smul, mul_zero, mul_one, add_zero] at h
    rw [show U0 + ρ • U1 + μ • U2 + (r * (ρ * e + e')) • U3 + W0 + μ • K + r • W3 =
      (U0 + ρ • U1 + μ • U2 + (r * (ρ * e + e')) • U3) + (W0 + μ • K + r • W3) by abel, map_add] at h
    simpa using h
  have R : ∀ μ r : F, B (U1 + (r * e) • U3) (W0 + μ • K + r • W3) = 0 := by
    intro μ r
    have h := (Q μ 1 r).trans (Q μ 0 r).symm
    simp only [one_smul, zero_smul, add_zero] at h
    rw [show U0 + U1 + μ • U2 + (r * (1 * e + e')) • U3 = (U0 + μ • U2 + (r * (0 * e + e')) • U3) + (U1 + (r * e) • U3) by
      module, LinearMap.map_add₂] at h
    simpa using h
  have S : ∀ r : F, B (U1 + (r * e) • U3) K = 0 := by
    intro r
    have h := (R 1 r).trans (R 0 r).symm
    simp only [one_smul, zero_smul, add_zero] at h
    rw [show W0 + K + r • W3 = W0 + r • W3 + K by abel, map_add] at h
    simpa using h
  have h := (S 1).trans (S 0).symm
  simpa using h

theorem threefold {M N : Type} [AddCommGroup M] [Module F M] [AddCommGroup N] [Module F N] (B : M →ₗ[F] M →ₗ[F] F)
    (L : N →ₗ[F] F) (U0 U1 U3 K : M) (T0 T1 T2 D : N) (e e' c : F) (hK : B U3 K = 0)
    (P : ∀ y ρ r : F, B (U0 + ρ • U1 + (r * (ρ * e + e')) • U3) (U0 + ρ • U1 + (r * (ρ * e + e')) • U3 + y • K) +
      L (T0 + y • T1 + (ρ * y) • T2 + (r * (ρ * e + e') * y) • D) = c) : e * L D = 0 := by
  have Q : ∀ ρ r : F, B (U0 + ρ • U1 + (r * (ρ * e + e')) • U3) K + L (T1 + ρ • T2 + (r * (ρ * e + e')) • D) = 0 := by
    intro ρ r
    have h := (P 1 ρ r).trans (P 0 ρ r).symm
    simp only [one_smul, zero_smul, mul_zero, zero_mul, mul_one, add_zero] at h
    rw [show T0 + T1 + ρ • T2 + (r * (ρ * e + e')) • D = T0 + (T1 + ρ • T2 + (r * (ρ * e + e')) • D) by abel, map_add, map_add L] at h
    linear_combination h
  have R : ∀ ρ : F, (ρ * e + e') * L D = 0 := by
    intro ρ
    have h := (Q ρ 1).trans (Q ρ 0).symm
    simpa [hK] using h
  linear_combination R 1 - R 0

open Classical in
/-- If in every conjunction each member lacks an authority whose secret is not known, no fixed computation is right for all
values. The secrets `b` of the authorities in `bad` are known. -/
theorem lacking_known (k : Formula F) (l1 l2 : List (Sym a m n F)) (lt : List (TSym a n F)) (E : Fin n → Fin a → F)
    (bad : Finset (Fin a)) (b : Fin a → F) (h0 : ∀ j, ∃ i, i ∉ bad ∧ E j i ≠ 0)
    (h : ∀ j u, ∃ i, i ∉ bad ∧ E j i ≠ 0 ∧ ∀ c, Sym.att u i c ∈ l1 ∨ Sym.att u i c ∈ l2 → c = 0) (c : F)
    (H : ∀ (y p z : F) (μ : Fin m → F) (ρ : Fin a → F) (r : Fin n → F), (∀ i ∈ bad, ρ i = b i) →
      k.scalar (l1.map (Sym.val E (fun _ => 0) 0 μ ρ r)) (l2.map (Sym.val E (fun _ => y) p μ ρ r))
        (lt.map (TSym.val E 0 y 1 z ρ r)) = c + z) : False := by
  simp only [scalar_eq] at H
  let b' : Fin a → F := fun i => if i ∈ bad then b i else 0
  have hfix : ∀ A, A ∉ bad → ∀ ρ : F, ∀ i ∈ bad, (b' + Pi.single A ρ : Fin a → F) i = b i := by
    intro A hA ρ i hi
    have : i ≠ A := fun h => hA (h ▸ hi)
    simp [b', hi, this]
  have hc : ∀ (A : Fin a) (ρ : F) (v : Fin a → F), combo v (b' + Pi.single A ρ) = combo v b' + v A * ρ := by
    intro A ρ v
    simp [combo, Pi.single_apply, mul_add, Finset.sum_add_distrib]
  let U0 : Sym a m n F → F := fun | .pub c v _ => c + combo v b' | _ => 0
  let U1 : Fin a → Sym a m n F → F := fun A => fun | .pub _ v _ => v A | _ => 0
  let U2 : Fin m → Sym a m n F → F := fun u => fun
    | .upub u' => if u' = u then 1 else 0
    | .att u' i c => if u' = u then c * b' i else 0
    | _ => 0
  let U3 : Fin n → Sym a m n F → F := fun j => fun | .ctE j' => if j' = j then 1 else 0 | _ => 0
  let W0 : Sym a m n F → F := fun | .pub _ _ d => d | _ => 0
  let W3 : Fin n → Sym a m n F → F := fun j => fun | .ctP j' => if j' = j then 1 else 0 | _ => 0
  let K : Fin m → Sym a m n F → F := fun u => fun | .key u' => if u' = u then 1 else 0 | _ => 0
  let T0 : TSym a n F → F := fun | .pub c _ _ _ _ => c | .ct1 _ => 1 | _ => 0
  let T1 : TSym a n F → F := fun | .pub _ _ c _ v => c + combo v b' | _ => 0
  let T2 : Fin a → TSym a n F → F := fun A => fun | .pub _ _ _ _ v => v A | _ => 0
  let D : Fin n → TSym a n F → F := fun j => fun | .ct2 j' => if j' = j then 1 else 0 | _ => 0
  set B := k.bil l1 l2
  set L := k.lin lt
  -- the values at the points used
  have V1 : ∀ (y p μ ρ r : F) (u : Fin m) (A : Fin a) (j : Fin n) (s : Sym a m n F), A ∉ bad →
      (∀ c, s = .att u A c → c = 0) →
      Sym.val E (fun _ => y) p (Pi.single u μ) (b' + Pi.single A ρ) (Pi.single j r) s =
      (U0 + ρ • U1 A + μ • U2 u + (r * (ρ * E j A + combo (E j) b')) • U3 j + p • W0 + y • (∑ u, K u) + (μ * p) • K u + (r * p) • W3 j) s := by
    intro y p μ ρ r u A j s hA hs
    cases s with
    | pub c v d => simp [Sym.val, hc, U0, U1, U2, U3, W0, W3, K]; ring
    | key u' =>
      simp only [Sym.val, Pi.add_apply, Pi.smul_apply, Finset.sum_apply, U0, U1, U2, U3, W0, W3, K, Pi.single_apply]
      split_ifs <;> simp
    | upub u' =>
      simp only [Sym.val, Pi.add_apply, Pi.smul_apply, Finset.sum_apply, U0, U1, U2, U3, W0, W3, K, Pi.single_apply]
      split_ifs <;> simp
    | att u' i c =>
      simp only [Sym.val, Pi.add_apply, Pi.smul_apply, Finset.sum_apply, U0, U1, U2, U3, W0, W3, K, Pi.single_apply]
      have := hs c
      split_ifs with h1 h2
      · subst h1 h2; simp [this rfl]
      · simp
      · simp; ring
      · simp
    | ctP j' =>
      simp only [Sym.val, Pi.add_apply, Pi.smul_apply, Finset.sum_apply, U0, U1, U2, U3, W0, W3, K, Pi.single_apply]
      split_ifs <;> simp
    | ctE j' =>
      simp only [Sym.val, Pi.add_apply, Pi.smul_apply, Finset.sum_apply, U0, U1, U2, U3, W0, W3, K, hc]
      simp only [Pi.single_apply]
      split_ifs with h1
      · subst h1; simp [mul_comm, add_comm]
      · simp
  have V0 : ∀ (y p ρ r : F) (A : Fin a) (j : Fin n) (s : Sym a m n F),
      Sym.val E (fun _ => y) p 0 (b' + Pi.single A ρ) (Pi.single j r) s =
      (U0 + ρ • U1 A + (r * (ρ * E j A + combo (E j) b')) • U3 j + p • W0 + y • (∑ u, K u) + (r * p) • W3 j) s := by
    intro y p ρ r A j s
    cases s with
    | pub c v d => simp [Sym.val, hc, U0, U1, U3, W0, W3, K]; ring
    | key u' => simp [Sym.val, Finset.sum_apply, U0, U1, U3, W0, W3, K]
    | upub u' => simp [Sym.val, Finset.sum_apply, U0, U1, U3, W0, W3, K]
    | att u' i c => simp [Sym.val, Finset.sum_apply, U0, U1, U3, W0, W3, K]
    | ctP j' =>
      simp only [Sym.val, Pi.add_apply, Pi.smul_apply, Finset.sum_apply, U0, U1, U3, W0, W3, K, Pi.single_apply]
      split_ifs <;> simp
    | ctE j' =>
      simp only [Sym.val, Pi.add_apply, Pi.smul_apply, Finset.sum_apply, U0, U1, U3, W0, W3, K, hc]
      simp only [Pi.single_apply]
      split_ifs with h1
      · subst h1; simp [mul_comm, add_comm]
      · simp
  have VT : ∀ (y z ρ r : F) (A : Fin a) (j : Fin n), TSym.val E 0 y 1 z (b' + Pi.single A ρ) (Pi.single j r) =
      T0 + y • T1 + (ρ * y) • T2 A + (r * (ρ * E j A + combo (E j) b') * y) • D j + z • ∑ j, D j := by
    intro y z ρ r A j
    funext s
    cases s with
    | pub c c1 c2 v1 v2 => simp [TSym.val, hc, T0, T1, T2, D]; ring
    | ct1 j' => simp [TSym.val, T0, T1, T2, D]
    | ct2 j' =>
      simp only [TSym.val, Pi.add_apply, Pi.smul_apply, Finset.sum_apply, T0, T1, T2, D, hc]
      simp only [Pi.single_apply]
      split_ifs with h1
      · subst h1; simp [mul_comm, add_comm]
      · simp
  -- a member's key is not paired with a conjunction the member cannot open
  have hK : ∀ j u, B (U3 j) (K u) = 0 := by
    intro j u
    obtain ⟨A, hb, hA, hno⟩ := h j u
    have P : ∀ (p μ ρ r : F),
        B (U0 + ρ • U1 A + μ • U2 u + (r * (ρ * E j A + combo (E j) b')) • U3 j)
          (U0 + ρ • U1 A + μ • U2 u + (r * (ρ * E j A + combo (E j) b')) • U3 j + p • W0 + (μ * p) • K u + (r * p) • W3 j) + L T0 = c := by
      intro p μ ρ r
      have := H 0 p 0 (Pi.single u μ) (b' + Pi.single A ρ) (Pi.single j r) (hfix A hb ρ)
      rw [VT, bil_congr (f' := U0 + ρ • U1 A + μ • U2 u + (r * (ρ * E j A + combo (E j) b')) • U3 j)
        (g' := U0 + ρ • U1 A + μ • U2 u + (r * (ρ * E j A + combo (E j) b')) • U3 j + p • W0 + (μ * p) • K u + (r * p) • W3 j)] at this
      · simpa using this
      · intro s hs
        have := V1 0 0 μ ρ r u A j s hb (fun c hc => hno c (.inl (hc ▸ hs)))
        simpa using this
      · intro s hs
        have := V1 0 p μ ρ r u A j s hb (fun c hc => hno c (.inr (hc ▸ hs)))
        simpa using this
    have hz := fourfold B _ _ _ _ _ _ _ _ _ _ _ P
    exact (mul_eq_zero.1 hz).resolve_left hA
  have hD : ∀ j, L (D j) = 0 := by
    intro j
    obtain ⟨A, hb, hA⟩ := h0 j
    have P : ∀ (y ρ r : F),
        B (U0 + ρ • U1 A + (r * (ρ * E j A + combo (E j) b')) • U3 j)
          (U0 + ρ • U1 A + (r * (ρ * E j A + combo (E j) b')) • U3 j + y • ∑ u, K u) +
        L (T0 + y • T1 + (ρ * y) • T2 A + (r * (ρ * E j A + combo (E j) b') * y) • D j) = c := by
      intro y ρ r
      have := H y 0 0 0 (b' + Pi.single A ρ) (Pi.single j r) (hfix A hb ρ)
      rw [VT, bil_congr (f' := U0 + ρ • U1 A + (r * (ρ * E j A + combo (E j) b')) • U3 j)
        (g' := U0 + ρ • U1 A + (r * (ρ * E j A + combo (E j) b')) • U3 j + y • ∑ u, K u)] at this
      · simpa using this
      · intro s hs
        have := V0 0 0 ρ r A j s
        simpa using this
      · intro s hs
        have := V0 y 0 ρ r A j s
        simpa using this
    have hz := threefold B L _ _ _ _ _ _ _ _ _ _ _ (by simp [hK]) P
    exact (mul_eq_zero.1 hz).resolve_left hA
  have P : ∀ z : F, B U0 U0 + L (T0 + z • ∑ j, D j) = c + z := by
    intro z
    have := H 0 0 z 0 b' 0 (fun i hi => if_pos hi)
    rw [show TSym.val E 0 0 1 z b' 0 = T0 + z • ∑ j, D j by
      funext s
      cases s with
      | pub c c1 c2 v1 v2 => simp [TSym.val, T0, D]
      | ct1 j' => simp [TSym.val, T0, D]
      | ct2 j' => simp [TSym.val, T0, D],
      bil_congr (f' := U0) (g' := U0)] at this
    · exact this
    all_goals
      intro s _
      cases s <;> simp [Sym.val, U0]
  simp only [map_add, map_smul, map_sum, hD, Finset.sum_const_zero, smul_zero, add_zero] at P
  have := (P 0).symm.trans (P 1)
  simp at this

/-- The random values of a run: for every member the part of the master secret in its key for the two source groups, the
common points, the members', authorities' and ciphertext's random numbers, the master secrets, the two parts of the session
element and the element looked for. -/
structure Reading (a m n : ℕ) (P : Type) where
  A1 : Fin m → P
  A2 : Fin m → P
  p1 : P
  p2 : P
  μ : Fin m → P
  ρ : Fin a → P
  r : Fin n → P
  y1 : P
  y2 : P
  s1 : P
  s2 : P
  goal : P

namespace Reading

/-- The image of all values. -/
def map {P Q : Type} (f : P → Q) (R : Reading a m n P) : Reading a m n Q :=
  ⟨fun i => f (R.A1 i), fun i => f (R.A2 i), f R.p1, f R.p2, fun i => f (R.μ i), fun i => f (R.ρ i), fun i => f (R.r i),
    f R.y1, f R.y2, f R.s1, f R.s2, f R.goal⟩

variable {P : Type} [CommRing P] [Algebra F P]

/-- The exponents of the elements of `G1`. -/
def one (E : Fin n → Fin a → F) (R : Reading a m n P) : Sym a m n F → P := Sym.val E R.A1 R.p1 R.μ R.ρ R.r
/-- The exponents of the elements of `G2`. -/
def two (E : Fin n → Fin a → F) (R : Reading a m n P) : Sym a m n F → P := Sym.val E R.A2 R.p2 R.μ R.ρ R.r
/-- The exponents of the elements of `Gt`. -/
def tgt (E : Fin n → Fin a → F) (R : Reading a m n P) : TSym a n F → P := TSym.val E R.y1 R.y2 R.s1 R.s2 R.ρ R.r

end Reading

open MvPolynomial

theorem combo_degree {σ : Type} (v : Fin a → F) (ρ : Fin a → MvPolynomial σ F) (h : ∀ i, (ρ i).totalDegree ≤ 1) :
    (combo v ρ).totalDegree ≤ 1 :=
  (totalDegree_finsetSum _ _).trans (Finset.sup_le fun i _ => (totalDegree_smul_le _ _).trans (h i))

theorem add_degree {σ : Type} {p q : MvPolynomial σ F} {d : ℕ} (hp : p.totalDegree ≤ d) (hq : q.totalDegree ≤ d) :
    (p + q).totalDegree ≤ d := (totalDegree_add _ _).trans (max_le hp hq)

theorem mul_degree {σ : Type} {p q : MvPolynomial σ F} {d e c : ℕ} (hp : p.totalDegree ≤ d) (hq : q.totalDegree ≤ e)
    (h : d + e ≤ c) : (p * q).totalDegree ≤ c := (totalDegree_mul _ _).trans ((add_le_add hp hq).trans h)

theorem const_degree {σ : Type} (c : F) (d : ℕ) : (algebraMap F (MvPolynomial σ F) c).totalDegree ≤ d := by
  rw [algebraMap_eq, totalDegree_C]; exact Nat.zero_le _

theorem Sym.val_degree {σ : Type} (E : Fin n → Fin a → F) (A : Fin m → MvPolynomial σ F) (p : MvPolynomial σ F)
    (μ : Fin m → MvPolynomial σ F) (ρ : Fin a → MvPolynomial σ F) (r : Fin n → MvPolynomial σ F)
    (hA : ∀ i, (A i).totalDegree ≤ 1) (hp : p.totalDegree ≤ 1) (hμ : ∀ i, (μ i).totalDegree ≤ 1)
    (hρ : ∀ i, (ρ i).totalDegree ≤ 1) (hr : ∀ i, (r i).totalDegree ≤ 1) (s : Sym a m n F) :
    (s.val E A p μ ρ r).totalDegree ≤ 2 := by
  have l : ∀ {q : MvPolynomial σ F}, q.totalDegree ≤ 1 → q.totalDegree ≤ 2 := fun h => h.trans (by norm_num)
  cases s with
  | pub c v d =>
    exact add_degree (add_degree (const_degree _ _) (l (combo_degree _ _ hρ))) ((totalDegree_smul_le _ _).trans (l hp))
  | key u => exact add_degree (l (hA u)) (mul_degree (hμ u) hp (by norm_num))
  | upub u => exact l (hμ u)
  | att u i c => exact (totalDegree_smul_le _ _).trans (mul_degree (hρ i) (hμ u) (by norm_num))
  | ctP j => exact mul_degree (hr j) hp (by norm_num)
  | ctE j => exact mul_degree (hr j) (combo_degree _ _ hρ) (by norm_num)

theorem TSym.val_degree {σ : Type} (E : Fin n → Fin a → F) (y1 y2 s1 s2 : MvPolynomial σ F)
    (ρ : Fin a → MvPolynomial σ F) (r : Fin n → MvPolynomial σ F) (h1 : y1.totalDegree ≤ 1) (h2 : y2.totalDegree ≤ 1)
    (hs1 : s1.totalDegree ≤ 4) (hs2 : s2.totalDegree ≤ 4)
    (hρ : ∀ i, (ρ i).totalDegree ≤ 1) (hr : ∀ i, (r i).totalDegree ≤ 1) (s : TSym a n F) :
    (s.val E y1 y2 s1 s2 ρ r).totalDegree ≤ 4 := by
  cases s with
  | pub c c1 c2 v1 v2 =>
    exact add_degree (add_degree (const_degree _ _)
      (mul_degree (add_degree (const_degree _ 1) (combo_degree _ _ hρ)) h1 (by norm_num)))
      (mul_degree (add_degree (const_degree _ 1) (combo_degree _ _ hρ)) h2 (by norm_num))
  | ct1 j => exact add_degree (mul_degree (mul_degree (hr j) (combo_degree _ _ hρ) (le_refl 2)) h1 (by norm_num)) hs1
  | ct2 j => exact add_degree (mul_degree (mul_degree (hr j) (combo_degree _ _ hρ) (le_refl 2)) h2 (by norm_num)) hs2

/-- If in every conjunction each member lacks an authority whose secret is not known, a fixed computation finds the
session element for at most `4 / q` of the random choices. -/
theorem lacking_known_bound {σ : Type} [Fintype σ] [DecidableEq σ] [Fintype F] [DecidableEq F] (k : Formula F)
    (l1 l2 : List (Sym a m n F)) (lt : List (TSym a n F)) (E : Fin n → Fin a → F)
    (bad : Finset (Fin a)) (b : Fin a → F) (h0 : ∀ j, ∃ i, i ∉ bad ∧ E j i ≠ 0)
    (h : ∀ j u, ∃ i, i ∉ bad ∧ E j i ≠ 0 ∧ ∀ c, Sym.att u i c ∈ l1 ∨ Sym.att u i c ∈ l2 → c = 0)
    (R : Reading a m n (MvPolynomial σ F))
    (hA1 : ∀ i, (R.A1 i).totalDegree ≤ 1) (hA2 : ∀ i, (R.A2 i).totalDegree ≤ 1) (hp1 : R.p1.totalDegree ≤ 1)
    (hp2 : R.p2.totalDegree ≤ 1) (hμ : ∀ i, (R.μ i).totalDegree ≤ 1) (hρ : ∀ i, (R.ρ i).totalDegree ≤ 1)
    (hr : ∀ i, (R.r i).totalDegree ≤ 1) (hy1 : R.y1.totalDegree ≤ 1) (hy2 : R.y2.totalDegree ≤ 1)
    (hs1 : R.s1.totalDegree ≤ 4) (hs2 : R.s2.totalDegree ≤ 4) (hg : R.goal.totalDegree ≤ 4) (c : F)
    (hR : ∀ (y p z : F) (μ : Fin m → F) (ρ : Fin a → F) (r : Fin n → F), (∀ i ∈ bad, ρ i = b i) → ∃ x : σ → F,
      R.map (aeval x) = ⟨fun _ => 0, fun _ => y, 0, p, μ, ρ, r, 0, y, 1, z, c + z⟩)
    (S : Finset (σ → F))
    (hS : ∀ x ∈ S, k.scalar (l1.map ((R.map (aeval x)).one E)) (l2.map ((R.map (aeval x)).two E))
      (lt.map ((R.map (aeval x)).tgt E)) = (R.map (aeval x)).goal) :
    S.card * Fintype.card F ≤ 4 * Fintype.card (σ → F) := by
  have key : ∀ x : σ → F, eval x (k.scalar (l1.map (R.one E)) (l2.map (R.two E)) (lt.map (R.tgt E)) - R.goal) =
      k.scalar (l1.map ((R.map (aeval x)).one E)) (l2.map ((R.map (aeval x)).two E))
        (lt.map ((R.map (aeval x)).tgt E)) - (R.map (aeval x)).goal := by
    intro x
    rw [← coe_aeval_eq_eval, RingHom.coe_coe, map_sub, scalar_map k (aeval x)]
    simp only [List.map_map]
    congr 2
    · exact List.map_congr_left fun s _ => Sym.val_map (aeval x) E R.A1 R.p1 R.μ R.ρ R.r s
    · exact List.map_congr_left fun s _ => Sym.val_map (aeval x) E R.A2 R.p2 R.μ R.ρ R.r s
    · exact List.map_congr_left fun s _ => TSym.val_map (aeval x) E R.y1 R.y2 R.s1 R.s2 R.ρ R.r s
  refine zippel (k.scalar (l1.map (R.one E)) (l2.map (R.two E)) (lt.map (R.tgt E)) - R.goal) ?_ 4 ?_ S ?_
  · intro hz
    refine lacking_known k l1 l2 lt E bad b h0 h c fun y p z μ ρ r hρ => ?_
    obtain ⟨x, hx⟩ := hR y p z μ ρ r hρ
    have := key x
    rw [hz, map_zero, hx] at this
    exact (sub_eq_zero.1 this.symm)
  · refine (totalDegree_sub _ _).trans (max_le ?_ hg)
    refine scalar_degree k _ _ _ 2 4 ?_ ?_ ?_ (by norm_num)
    · simp only [List.mem_map]
      rintro _ ⟨s, _, rfl⟩
      exact Sym.val_degree E _ _ _ _ _ hA1 hp1 hμ hρ hr s
    · simp only [List.mem_map]
      rintro _ ⟨s, _, rfl⟩
      exact Sym.val_degree E _ _ _ _ _ hA2 hp2 hμ hρ hr s
    · simp only [List.mem_map]
      rintro _ ⟨s, _, rfl⟩
      exact TSym.val_degree E _ _ _ _ _ _ hy1 hy2 hs1 hs2 hρ hr s
  · intro x hx
    rw [key, hS x hx, sub_self]

/-- If in every conjunction each member lacks an authority, a fixed computation finds the session element for at most
`4 / q` of the random choices. -/
theorem lacking_bound {σ : Type} [Fintype σ] [DecidableEq σ] [Fintype F] [DecidableEq F] (k : Formula F)
    (l1 l2 : List (Sym a m n F)) (lt : List (TSym a n F)) (E : Fin n → Fin a → F)
    (h0 : ∀ j, ∃ i, E j i ≠ 0) (h : ∀ j u, ∃ i, E j i ≠ 0 ∧ ∀ c, Sym.att u i c ∈ l1 ∨ Sym.att u i c ∈ l2 → c = 0)
    (R : Reading a m n (MvPolynomial σ F))
    (hA1 : ∀ i, (R.A1 i).totalDegree ≤ 1) (hA2 : ∀ i, (R.A2 i).totalDegree ≤ 1) (hp1 : R.p1.totalDegree ≤ 1)
    (hp2 : R.p2.totalDegree ≤ 1) (hμ : ∀ i, (R.μ i).totalDegree ≤ 1) (hρ : ∀ i, (R.ρ i).totalDegree ≤ 1)
    (hr : ∀ i, (R.r i).totalDegree ≤ 1) (hy1 : R.y1.totalDegree ≤ 1) (hy2 : R.y2.totalDegree ≤ 1)
    (hs1 : R.s1.totalDegree ≤ 4) (hs2 : R.s2.totalDegree ≤ 4) (hg : R.goal.totalDegree ≤ 4) (c : F)
    (hR : ∀ (y p z : F) (μ : Fin m → F) (ρ : Fin a → F) (r : Fin n → F), ∃ x : σ → F,
      R.map (aeval x) = ⟨fun _ => 0, fun _ => y, 0, p, μ, ρ, r, 0, y, 1, z, c + z⟩)
    (S : Finset (σ → F))
    (hS : ∀ x ∈ S, k.scalar (l1.map ((R.map (aeval x)).one E)) (l2.map ((R.map (aeval x)).two E))
      (lt.map ((R.map (aeval x)).tgt E)) = (R.map (aeval x)).goal) :
    S.card * Fintype.card F ≤ 4 * Fintype.card (σ → F) :=
  lacking_known_bound k l1 l2 lt E ∅ 0 (by simpa using h0) (by simpa using h) R hA1 hA2 hp1 hp2 hμ hρ hr hy1 hy2 hs1 hs2 hg c
    (fun y p z μ ρ r _ => hR y p z μ ρ r) S hS

/-- A member with a key of every authority of a conjunction computes the session element from its part of the ciphertext. -/
theorem opener {G1 G2 Gt : Type} [AddCommGroup G1] [Module F G1] [AddCommGroup G2] [Module F G2] [AddCommGroup Gt]
    [Module F Gt] {env : Env F G1 G2 Gt} {ι : Type} {W : ι → View G1 G2 Gt} (g1 : G1) (g2 : G2) (E : Fin n → Fin a → F)
    (R : ι → Reading a m n F) (l : List (Sym a m n F))
    (h1 : ∀ i, (W i).one = l.map fun s => (R i).one E s • g1) (h2 : ∀ i, (W i).two = l.map fun s => (R i).two E s • g2)
    (j : Fin n) (v : Fin m) (hP : .ctP j ∈ l) (hE : .ctE j ∈ l) (hK : .key v ∈ l)
    (hatt : ∀ i, E j i ≠ 0 → ∃ c, c ≠ 0 ∧ .att v i c ∈ l) (hA : ∀ i, (R i).A1 v + (R i).A2 v = (R i).y1 + (R i).y2)
    (hT : Computable env W fun i =>
      ((R i).r j * combo (E j) (R i).ρ * ((R i).y1 + (R i).y2) + (R i).goal) • env.pair g1 g2) :
    Computable env W fun i => (R i).goal • env.pair g1 g2 := by
  classical
  choose! c hc hl using hatt
  have hs1 : Computable env W fun i => ∑ x ∈ Finset.univ.filter (fun x => E j x ≠ 0), (E j x / c x) •
      env.pair ((R i).one E (.ctP j) • g1) ((R i).two E (.att v x (c x)) • g2) :=
    Computable.sum _ fun x hx => (Computable.pairSym h1 h2 hP (hl x (Finset.mem_filter.1 hx).2)).smul _
  have hs2 : Computable env W fun i => ∑ x ∈ Finset.univ.filter (fun x => E j x ≠ 0), (E j x / c x) •
      env.pair ((R i).one E (.att v x (c x)) • g1) ((R i).two E (.ctP j) • g2) :=
    Computable.sum _ fun x hx => (Computable.pairSym h1 h2 (hl x (Finset.mem_filter.1 hx).2) hP).smul _
  obtain ⟨k, hk⟩ := (((hT.add hs1).add hs2).add (Computable.pairSym h1 h2 hE hK).neg).add (Computable.pairSym h1 h2 hK hE).neg
  refine ⟨k, fun i => (hk i).trans ?_⟩
  have hsum : ∀ z : F, ∑ x ∈ Finset.univ.filter (fun x => E j x ≠ 0), (E j x / c x) * (z * (c x * ((R i).ρ x * (R i).μ v))) =
      z * (R i).μ v * combo (E j) (R i).ρ := by
    intro z
    rw [combo, Finset.mul_sum, Finset.sum_filter]
    refine Finset.sum_congr rfl fun x _ => ?_
    split_ifs with h
    · have := hc x h
      simp only [smul_eq_mul]
      field_simp
    · rw [not_not.1 h]; simp
  have e1 := hsum ((R i).r j * (R i).p1)
  have e2 := hsum ((R i).r j * (R i).p2)
  simp only [Reading.one, Reading.two, Sym.val, map_smul, LinearMap.smul_apply, smul_smul, ← Finset.sum_smul, smul_eq_mul]
  rw [show (∑ x ∈ Finset.univ.filter (fun x => E j x ≠ 0),
      E j x / c x * (c x * ((R i).ρ x * (R i).μ v) * ((R i).r j * (R i).p1))) = _ from
      (Finset.sum_congr rfl fun x _ => by ring).trans e1]
  rw [show (∑ x ∈ Finset.univ.filter (fun x => E j x ≠ 0),
      E j x / c x * ((R i).r j * (R i).p2 * (c x * ((R i).ρ x * (R i).μ v)))) = _ from e2]
  rw [← add_smul, ← add_smul, ← neg_smul, ← neg_smul, ← add_smul, ← add_smul]
  congr 1
  linear_combination (-(R i).r j * combo (E j) (R i).ρ) * hA i

section Closed
variable {G1 G2 Gt : Type} [AddCommGroup G1] [AddCommGroup G2] [AddCommGroup Gt]

/-- What holds of single keys and is preserved by adding a key holds of all terms. -/
structure ClosedTerm (ks : List (PubAttr G1 G2 Gt)) (Q : DnfTerm G1 G2 Gt → Prop) : Prop where
  new : ∀ k ∈ ks, Q ⟨[k.attr], k.gt1, k.gt2, k.g1, k.g2⟩
  add : ∀ k ∈ ks, ∀ t, Q t → Q ⟨t.attrs ++ [k.attr], t.gt1 + k.gt1, t.gt2 + k.gt2, t.g1 + k.g1, t.g2 + k.g2⟩

variable {ks : List (PubAttr G1 G2 Gt)} {Q : DnfTerm G1 G2 Gt → Prop}

theorem leafStep_closed (hQ : ClosedTerm ks Q) (name : Str) (i : ℕ) (terms : List (DnfTerm G1 G2 Gt)) (k : PubAttr G1 G2 Gt)
    (hk : k ∈ ks) (h : ∀ t ∈ terms, Q t) : ∀ t ∈ dnfLeafStep name i terms k, Q t := by
  unfold dnfLeafStep
  split
  · cases hi : terms[i]? with
    | none =>
      intro t ht
      simp only [List.mem_append, List.mem_singleton] at ht
      rcases ht with ht | rfl
      · exact h t ht
      · exact hQ.new k hk
    | some u =>
      intro t ht
      rcases List.mem_or_eq_of_mem_set ht with ht | rfl
      · exact h t ht
      · exact hQ.add k hk u (h u (List.mem_of_getElem? hi))
  · exact h

theorem leaf_closed (hQ : ClosedTerm ks Q) (name : Str) (i : ℕ) : ∀ (l : List (PubAttr G1 G2 Gt)) (_ : ∀ k ∈ l, k ∈ ks)
    (terms : List (DnfTerm G1 G2 Gt)) (_ : ∀ t ∈ terms, Q t), ∀ t ∈ l.foldl (dnfLeafStep name i) terms, Q t
  | [], _, _, h => h
  | k :: l, hl, terms, h =>
    leaf_closed hQ name i l (fun k' hk => hl k' (by simp [hk])) _ (leafStep_closed hQ name i terms k (hl k (by simp)) h)

mutual
theorem dnf_closed (hQ : ClosedTerm ks Q) : ∀ (v : PolicyValue) (terms : List (DnfTerm G1 G2 Gt)) (i : ℕ)
    (parent : Option PolicyType) (_ : ∀ t ∈ terms, Q t), ∀ t ∈ (dnf ks v terms i parent).1, Q t
  | .str n _, terms, i, parent, h => by simp only [dnf]; exact leaf_closed hQ n i ks (fun _ h => h) terms h
  | .array cs, terms, i, parent, h => by
    cases parent with
    | none => simpa [dnf] using h
    | some ty => cases ty with
      | and => simp only [dnf]; exact dnfAnd_closed hQ cs terms i true h
      | or => simp only [dnf]; exact dnfOr_closed hQ cs terms 0 true h
      | leaf => simpa [dnf] using h
  | .object ty v, terms, i, parent, h => by
    cases parent with
    | none => simp only [dnf]; exact dnf_closed hQ v terms i _ h
    | some p => cases p with
      | leaf => simp only [dnf]; exact dnf_closed hQ v terms i _ h
      | or => cases ty with
        | and => simp only [dnf]; exact dnf_closed hQ v terms i _ h
        | or => simpa [dnf] using h
        | leaf => simpa [dnf] using h
      | and => cases ty with
        | leaf => simp only [dnf]; exact dnf_closed hQ v terms i _ h
        | or => simpa [dnf] using h
        | and => simpa [dnf] using h
theorem dnfAnd_closed (hQ : ClosedTerm ks Q) : ∀ (cs : List PolicyValue) (terms : List (DnfTerm G1 G2 Gt)) (i : ℕ)
    (ret : Bool) (_ : ∀ t ∈ terms, Q t), ∀ t ∈ (dnfAnd ks cs terms i ret).1, Q t
  | [], terms, i, ret, h => by simpa [dnfAnd] using h
  | c :: cs, terms, i, ret, h => by
    simp only [dnfAnd]
    split
    · exact dnfAnd_closed hQ cs _ i _ (dnf_closed hQ c terms i _ h)
    · exact dnfAnd_closed hQ cs _ i _ h
theorem dnfOr_closed (hQ : ClosedTerm ks Q) : ∀ (cs : List PolicyValue) (terms : List (DnfTerm G1 G2 Gt)) (i : ℕ)
    (ret : Bool) (_ : ∀ t ∈ terms, Q t), ∀ t ∈ (dnfOr ks cs terms i ret).1, Q t
  | [], terms, i, ret, h => by simpa [dnfOr] using h
  | c :: cs, terms, i, ret, h => by
    simp only [dnfOr]
    split
    · exact dnfOr_closed hQ cs _ _ _ (dnf_closed hQ c terms _ _ h)
    · exact dnfOr_closed hQ cs _ _ _ h
end

theorem mem_insertTerm (x t : DnfTerm G1 G2 Gt) : ∀ l : List (DnfTerm G1 G2 Gt), t ∈ insertTerm x l → t = x ∨ t ∈ l
  | [], h => by simpa [insertTerm] using h
  | y :: ys, h => by
    simp only [insertTerm] at h
    split at h
    · simpa using h
    · rcases List.mem_cons.1 h with rfl | h
      · simp
      · rcases mem_insertTerm x t ys h with h | h <;> simp [h]

theorem mem_sortTerms (t : DnfTerm G1 G2 Gt) : ∀ l : List (DnfTerm G1 G2 Gt), t ∈ sortTerms l → t ∈ l
  | [], h => h
  | x :: xs, h => by
    rcases mem_insertTerm x t _ h with h | h
    · simp [h]
    · simp [mem_sortTerms t xs h]

theorem fromString_closed (hQ : ClosedTerm ks Q) {text : Str} {lang : PolicyLanguage} {T : List (DnfTerm G1 G2 Gt)}
    (h : DnfPolicy.fromString text ks lang = .ok T) : ∀ t ∈ T, Q t := by
  simp only [DnfPolicy.fromString, Res.bind_eq_ok] at h
  obtain ⟨v, _, h⟩ := h
  simp only [jsonToDnf] at h
  split at h
  · obtain rfl := Res.ok.inj h
    exact fun t ht => dnf_closed hQ v [] 0 none (by simp) t (mem_sortTerms t _ ht)
  · simp at h

end Closed

end Rabe
