import Verif.Spec.Generic
import Mathlib.Algebra.Module.Torsion.Field
import Mathlib.Algebra.Order.BigOperators.Group.Finset
import Mathlib.Tactic.LinearCombination
import Mathlib.Tactic.Module
import Mathlib.Tactic.Abel
import Mathlib.Tactic.Linarith

/-!
# Counting the random choices for which a fixed computation succeeds
-/

set_option linter.unusedSectionVars false

namespace Rabe

variable {F G1 G2 Gt : Type} [Field F] [AddCommGroup G1] [Module F G1]
  [AddCommGroup G2] [Module F G2] [AddCommGroup Gt] [Module F Gt]

theorem weigh_append (f : ℕ → F) : ∀ (n : ℕ) (l m : List Gt), weigh f n (l ++ m) = weigh f n l + weigh f (n + l.length) m
  | n, [], m => by simp [weigh]
  | n, x :: l, m => by
    simp only [List.cons_append, weigh, weigh_append f (n + 1) l m, List.length_cons]
    rw [show n + 1 + l.length = n + (l.length + 1) by omega]; abel

/-- Two views with the same elements of `G1` and `G2`. -/
theorem eval_sub (env : Env F G1 G2 Gt) (k : Formula F) {v w : View G1 G2 Gt} (h1 : v.one = w.one) (h2 : v.two = w.two) :
    k.eval env v - k.eval env w = weigh k.tgt 0 v.tgt - weigh k.tgt 0 w.tgt := by
  simp only [Formula.eval, h1, h2]; abel

open Classical in
/-- At most one first component for each second one. -/
theorem card_le_of_det {α β : Type} [Fintype α] [Fintype β] (S : Finset (α × β))
    (h : ∀ a a' b, (a, b) ∈ S → (a', b) ∈ S → a = a') : S.card ≤ Fintype.card β := by
  have := Finset.card_le_card_of_injOn (s := S) (t := Finset.univ) (fun x : α × β => x.2) (fun _ _ => Finset.mem_univ _)
    (by
      rintro ⟨a, b⟩ hx ⟨a', b'⟩ hy (rfl : b = b')
      rw [h a a' b hx hy])
  simpa using this

open Classical in
/-- Counting fibre by fibre. -/
theorem card_fibres {α β : Type} [Fintype α] [Fintype β] (S : Finset (α × β)) (B : ℕ)
    (h : ∀ a, (Finset.univ.filter fun b => (a, b) ∈ S).card ≤ B) : S.card ≤ Fintype.card α * B := by
  have e : S.card = ∑ a : α, (S.filter fun x => x.1 = a).card :=
    Finset.card_eq_sum_card_fiberwise (fun _ _ => Finset.mem_coe.2 (Finset.mem_univ _))
  rw [e]
  calc ∑ a : α, (S.filter fun x => x.1 = a).card ≤ ∑ _a : α, B := by
        apply Finset.sum_le_sum
        intro a _
        refine le_trans (Finset.card_le_card_of_injOn (fun x : α × β => x.2) ?_ ?_) (h a)
        · rintro ⟨a', b⟩ hx
          obtain ⟨hx, rfl⟩ := by simpa using hx
          simpa using hx
        · rintro ⟨a1, b1⟩ h1 ⟨a2, b2⟩ h2 (rfl : b1 = b2)
          simp only [Finset.coe_filter, Set.mem_ofPred_eq] at h1 h2
          rw [h1.2, h2.2]
    _ = Fintype.card α * B := by simp [Finset.card_univ]

open Classical in
/-- Counting fibre by fibre with one exception. -/
theorem card_fibres_but {α β : Type} [Fintype α] [Fintype β] (S : Finset (α × β)) (B : ℕ) (a₀ : α)
    (h : ∀ a, a ≠ a₀ → (Finset.univ.filter fun b => (a, b) ∈ S).card ≤ B) :
    S.card ≤ Fintype.card α * B + Fintype.card β := by
  have hs : S = (S.filter fun x => x.1 ≠ a₀) ∪ (S.filter fun x => x.1 = a₀) := by
    ext x; by_cases hx : x.1 = a₀ <;> simp [hx]
  rw [hs]
  refine le_trans (Finset.card_union_le _ _) (add_le_add ?_ ?_)
  · apply card_fibres
    intro a
    by_cases ha : a = a₀
    · subst ha; simp
    · refine le_trans (Finset.card_le_card ?_) (h a ha)
      intro b hb
      simp at hb ⊢; exact hb.1
  · apply card_le_of_det
    intro a a' b h1 h2
    simp at h1 h2
    rw [h1.2, h2.2]

open Classical in
/-- The set of `(s, (m, a))` such that the slope in `a` is `c₁ + c₂ s` and the slope in `m` is `c₂ - 1`. -/
theorem count_two [Fintype F] [Fintype Gt] (S : Finset (F × Gt × F)) (E : Gt) (hE : E ≠ 0) (c₁ c₂ : F)
    (h : ∀ s m m' a a', (s, m, a) ∈ S → (s, m', a') ∈ S →
      ((c₁ + c₂ * s) * (a' - a)) • E + (c₂ - 1) • (m' - m) = 0) :
    S.card ≤ 2 * Fintype.card F * Fintype.card Gt := by
  have hq : Fintype.card F ≤ Fintype.card Gt := Fintype.card_le_of_injective (fun x : F => x • E)
    (smul_left_injective F hE)
  by_cases hc : c₂ = 0
  · have : S.card ≤ Fintype.card F * Fintype.card F := by
      apply card_fibres
      intro s
      refine card_le_of_det _ fun m m' a h1 h2 => ?_
      simp only [Finset.mem_filter, Finset.mem_univ, true_and] at h1 h2
      have := h s m m' a a h1 h2
      rw [hc] at this
      simp only [sub_self, mul_zero, zero_smul, zero_add, zero_sub, neg_smul, one_smul, neg_eq_zero, sub_eq_zero] at this
      exact this.symm
    refine this.trans ?_
    have := Nat.mul_le_mul_left (Fintype.card F) hq
    nlinarith
  · have : S.card ≤ Fintype.card F * Fintype.card Gt + Fintype.card (Gt × F) := by
      apply card_fibres_but S _ (-c₁ / c₂)
      intro s hs
      have hne : c₁ + c₂ * s ≠ 0 := by
        intro h0
        apply hs
        rw [eq_div_iff hc]; linear_combination h0
      refine le_trans (card_fibres _ 1 fun m => ?_) (by simp)
      apply Finset.card_le_one.2
      intro a h1 a' h2
      simp only [Finset.mem_filter, Finset.mem_univ, true_and] at h1 h2
      have := h s m m a a' h1 h2
      simp only [sub_self, smul_zero, add_zero, smul_eq_zero, hE, or_false, mul_eq_zero, hne, false_or, sub_eq_zero] at this
      exact this.symm
    refine this.trans (le_of_eq ?_)
    rw [Fintype.card_prod]; ring

open Classical in
/-- The set of `(k, s)` such that the slope in `s` is `c - k`. -/
theorem count_one [Fintype F] (S : Finset (F × F)) (E : Gt) (hE : E ≠ 0) (c : F)
    (h : ∀ k s s', (k, s) ∈ S → (k, s') ∈ S → ((c - k) * (s' - s)) • E = 0) : S.card ≤ 2 * Fintype.card F := by
  have : S.card ≤ Fintype.card F * 1 + Fintype.card F := by
    apply card_fibres_but S _ c
    intro k hk
    apply Finset.card_le_one.2
    intro s h1 s' h2
    simp only [Finset.mem_filter, Finset.mem_univ, true_and] at h1 h2
    have := h k s s' h1 h2
    simp only [smul_eq_zero, hE, or_false, mul_eq_zero, sub_eq_zero, Ne.symm hk, false_or] at this
    exact this.symm
  omega

/-- The second view has the same elements except that the last element is shifted by `(s * δ) • E + d`. -/
def Shift (E : Gt) (δ s : F) (d : Gt) (v w : View G1 G2 Gt) : Prop :=
  v.one = w.one ∧ v.two = w.two ∧ ∃ x, v.tgt = [x] ∧ w.tgt = [x + (s * δ) • E + d]

/-- Shifted views, element by element. -/
def Shifts (E : Gt) (δ : F) : List F → List (View G1 G2 Gt) → List (View G1 G2 Gt) → Prop
  | [], [], [] => True
  | s :: ss, v :: vs, w :: ws => Shift E δ s 0 v w ∧ Shifts E δ ss vs ws
  | _, _, _ => False

/-- `∑ f i * l[i]`, the positions counted from `n`. -/
def slope (f : ℕ → F) : ℕ → List F → F
  | _, [] => 0
  | n, x :: l => f n * x + slope f (n + 1) l

theorem Shifts.all {E : Gt} {δ : F} (f : ℕ → F) : ∀ {ss : List F} {vs ws : List (View G1 G2 Gt)} (n : ℕ), Shifts E δ ss vs ws →
    (View.all vs).one = (View.all ws).one ∧ (View.all vs).two = (View.all ws).two ∧
      weigh f n (View.all ws).tgt - weigh f n (View.all vs).tgt = (slope f n ss * δ) • E
  | [], [], [], n, _ => by simp [View.all, weigh, slope]
  | s :: ss, v :: vs, w :: ws, n, ⟨⟨h1, h2, x, hx, hy⟩, h⟩ => by
    obtain ⟨i1, i2, i3⟩ := Shifts.all f (n + 1) h
    refine ⟨by simp [View.all, View.join, h1, i1], by simp [View.all, View.join, h2, i2], ?_⟩
    simp only [View.all, View.join, hx, hy, List.singleton_append, weigh, slope]
    rw [sub_eq_iff_eq_add] at i3
    rw [i3]
    module
  | [], [], _ :: _, _, h => h.elim
  | [], _ :: _, _, _, h => h.elim
  | _ :: _, [], _, _, h => h.elim
  | _ :: _, _ :: _, [], _, h => h.elim

theorem Shifts.of_forall₂ {J C : Type} {P P' : J → C → Prop} {view : C → View G1 G2 Gt} {sec : J → F} {E : Gt} {δ : F}
    (h : ∀ j c c', P j c → P' j c' → Shift E δ (sec j) 0 (view c) (view c')) :
    ∀ {js : List J} {cs cs' : List C}, List.Forall₂ P js cs → List.Forall₂ P' js cs' →
      Shifts E δ (js.map sec) (cs.map view) (cs'.map view)
  | _, _, _, .nil, .nil => trivial
  | _, _, _, .cons a l, .cons b m => ⟨h _ _ _ a b, Shifts.of_forall₂ h l m⟩

theorem View.all_join (a b : View G1 G2 Gt) (l : List (View G1 G2 Gt)) :
    View.all (a.join b :: l) = View.all (a :: b :: l) := by
  simp [View.all, View.join]

/-- Two successes with the same secret. -/
theorem opened_pair (env : Env F G1 G2 Gt) (k : Formula F) {E : Gt} {δ σ c₀ : F} {m m' : Gt} {v w p p' : View G1 G2 Gt}
    {ss : List F} {vs ws : List (View G1 G2 Gt)} (hp1 : p.one = p'.one) (hp2 : p.two = p'.two)
    (hp : weigh k.tgt 0 p'.tgt - weigh k.tgt 0 p.tgt = (c₀ * δ) • E) (hl : p'.tgt.length = p.tgt.length)
    (hv : Shift E δ σ (m' - m) v w) (hs : Shifts E δ ss vs ws)
    (h : k.eval env (View.all (p :: v :: vs)) = m) (h' : k.eval env (View.all (p' :: w :: ws)) = m') :
    ((c₀ + slope k.tgt (p.tgt.length + 1) ss + k.tgt p.tgt.length * σ) * δ) • E +
      (k.tgt p.tgt.length - 1) • (m' - m) = 0 := by
  obtain ⟨h1, h2, x, hx, hy⟩ := hv
  obtain ⟨i1, i2, i3⟩ := hs.all k.tgt (p.tgt.length + 1)
  have e := eval_sub env k (v := View.all (p' :: w :: ws)) (w := View.all (p :: v :: vs))
    (by simp [View.all, View.join, hp1, h1, i1]) (by simp [View.all, View.join, hp2, h2, i2])
  rw [h, h'] at e
  simp only [View.all, View.join, weigh_append, hx, hy, weigh, List.length_singleton, hl, zero_add] at e
  rw [sub_eq_iff_eq_add] at i3 hp
  rw [i3, hp] at e
  have e2 := sub_eq_zero.2 e
  have : ∀ a b : Gt, a = -b → b = 0 → a = 0 := by rintro a b rfl rfl; simp
  refine this _ _ ?_ e2
  module

open Classical in
/-- `count_two` with the session element parametrised by an injective map, and a second slope `C`. -/
theorem count_three [Fintype F] {P : Type} [Fintype P] (hP : Fintype.card F ≤ Fintype.card P) (μ : P → Gt)
    (hμ : Function.Injective μ) (S : Finset (F × P × F)) (E : Gt) (hE : E ≠ 0) (c₁ c₂ C : F) (hC : c₂ = 0 → C = 0)
    (h : ∀ s m m' a a', (s, m, a) ∈ S → (s, m', a') ∈ S →
      ((c₁ + c₂ * s) * (a' - a)) • E + (C - 1) • (μ m' - μ m) = 0) :
    S.card ≤ 2 * Fintype.card F * Fintype.card P := by
  by_cases hc : c₂ = 0
  · have : S.card ≤ Fintype.card F * Fintype.card F := by
      apply card_fibres
      intro s
      refine card_le_of_det _ fun m m' a h1 h2 => ?_
      simp only [Finset.mem_filter, Finset.mem_univ, true_and] at h1 h2
      have := h s m m' a a h1 h2
      rw [hc, hC hc] at this
      simp only [sub_self, mul_zero, zero_smul, zero_add, zero_sub, neg_smul, one_smul, neg_eq_zero, sub_eq_zero] at this
      exact (hμ this).symm
    refine this.trans ?_
    have := Nat.mul_le_mul_left (Fintype.card F) hP
    nlinarith
  · have : S.card ≤ Fintype.card F * Fintype.card P + Fintype.card (P × F) := by
      apply card_fibres_but S _ (-c₁ / c₂)
      intro s hs
      have hne : c₁ + c₂ * s ≠ 0 := by
        intro h0
        apply hs
        rw [eq_div_iff hc]; linear_combination h0
      refine le_trans (card_fibres _ 1 fun m => ?_) (by simp)
      apply Finset.card_le_one.2
      intro a h1 a' h2
      simp only [Finset.mem_filter, Finset.mem_univ, true_and] at h1 h2
      have := h s m m a a' h1 h2
      simp only [sub_self, smul_zero, add_zero, smul_eq_zero, hE, or_false, mul_eq_zero, hne, false_or, sub_eq_zero] at this
      exact this.symm
    refine this.trans (le_of_eq ?_)
    rw [Fintype.card_prod]; ring

/-- The second list is the first one with element `i` moved by `σᵢ • X + τᵢ • Y`. -/
def Moves (X Y : Gt) : List (F × F) → List Gt → List Gt → Prop
  | [], [], [] => True
  | c :: cs, x :: xs, y :: ys => y = x + c.1 • X + c.2 • Y ∧ Moves X Y cs xs ys
  | _, _, _ => False

theorem Moves.append {X Y : Gt} : ∀ {cs ds : List (F × F)} {xs ys us vs : List Gt}, Moves X Y cs xs ys → Moves X Y ds us vs →
    Moves X Y (cs ++ ds) (xs ++ us) (ys ++ vs)
  | [], _, [], [], _, _, _, h => h
  | _ :: _, _, _ :: _, _ :: _, _, _, h, h' => ⟨h.1, h.2.append h'⟩
  | [], _, [], _ :: _, _, _, h, _ => h.elim
  | [], _, _ :: _, _, _, _, h, _ => h.elim
  | _ :: _, _, [], _, _, _, h, _ => h.elim
  | _ :: _, _, _ :: _, [], _, _, h, _ => h.elim

theorem Moves.refl (X Y : Gt) : ∀ (xs : List Gt), Moves X Y (xs.map fun _ => ((0 : F), (0 : F))) xs xs
  | [] => trivial
  | x :: xs => ⟨by simp, Moves.refl X Y xs⟩

theorem Moves.map {α : Type} {X Y : Gt} {c : α → F × F} {f g : α → Gt} (l : List α)
    (h : ∀ a ∈ l, g a = f a + (c a).1 • X + (c a).2 • Y) : Moves X Y (l.map c) (l.map f) (l.map g) := by
  induction l with
  | nil => trivial
  | cons a l ih => exact ⟨h a (by simp), ih fun b hb => h b (by simp [hb])⟩

theorem Moves.weigh {X Y : Gt} (f : ℕ → F) : ∀ {cs : List (F × F)} {xs ys : List Gt} (n : ℕ), Moves X Y cs xs ys →
    Rabe.weigh f n ys - Rabe.weigh f n xs = slope f n (cs.map (·.1)) • X + slope f n (cs.map (·.2)) • Y
  | [], [], [], _, _ => by simp [Rabe.weigh, slope]
  | c :: cs, x :: xs, y :: ys, n, ⟨h1, h2⟩ => by
    have := h2.weigh f (n + 1)
    rw [sub_eq_iff_eq_add] at this
    simp only [Rabe.weigh, List.map_cons, slope, this, h1]
    module
  | [], [], _ :: _, _, h => h.elim
  | [], _ :: _, _, _, h => h.elim
  | _ :: _, [], _, _, h => h.elim
  | _ :: _, _ :: _, [], _, h => h.elim

theorem slope_append (f : ℕ → F) : ∀ (n : ℕ) (l m : List F), slope f n (l ++ m) = slope f n l + slope f (n + l.length) m
  | n, [], m => by simp [slope]
  | n, x :: l, m => by
    simp only [List.cons_append, slope, slope_append f (n + 1) l m, List.length_cons]
    rw [show n + 1 + l.length = n + (l.length + 1) by omega]; ring

theorem slope_zero (f : ℕ → F) {α : Type} : ∀ (n : ℕ) (l : List α), slope f n (l.map fun _ => 0) = 0
  | _, [] => rfl
  | n, _ :: l => by rw [List.map_cons, slope, slope_zero f (n + 1) l]; simp

/-- `r i * T[i]` -/
def mulIdx : (ℕ → F) → List F → List F
  | _, [] => []
  | r, T :: Ts => r 0 * T :: mulIdx (dropS 1 r) Ts

/-- The stream with another element at position `j`. -/
def setS (r : ℕ → F) (j : ℕ) (s : F) : ℕ → F := fun n => if n = j then s else r n

theorem dropS_setS_succ (r : ℕ → F) (j : ℕ) (s : F) : dropS 1 (setS r (j + 1) s) = setS (dropS 1 r) j s := by
  funext n; simp [dropS, setS, Nat.add_comm 1 n]

theorem dropS_setS_zero (r : ℕ → F) (s : F) : dropS 1 (setS r 0 s) = dropS 1 r := by
  funext n; simp [dropS, setS]

theorem slope_mulIdx (f : ℕ → F) (s : F) : ∀ (n : ℕ) (r : ℕ → F) (T : List F) (j : ℕ),
    slope f n (mulIdx (setS r j s) T) = slope f n (mulIdx (setS r j 0) T) + f (n + j) * T.getD j 0 * s
  | n, r, [], j => by simp [mulIdx, slope]
  | n, r, T :: Ts, 0 => by
    simp only [mulIdx, slope, dropS_setS_zero]
    simp [setS]; ring
  | n, r, T :: Ts, j + 1 => by
    simp only [mulIdx, slope, dropS_setS_succ]
    rw [slope_mulIdx f s (n + 1) (dropS 1 r) Ts j]
    simp [setS, show n + 1 + j = n + (j + 1) by omega]; ring

theorem slope_ones (f : ℕ → F) {α : Type} : ∀ (n : ℕ) (l : List α), (∀ j < l.length, f (n + j) = 0) →
    slope f n (l.map fun _ => 1) = 0
  | _, [], _ => rfl
  | n, x :: l, h => by
    have h0 := h 0 (by simp)
    rw [List.map_cons, slope, slope_ones f (n + 1) l fun j hj => by
      have := h (j + 1) (by simpa using hj)
      rwa [show n + 1 + j = n + (j + 1) by omega]]
    simpa using h0

theorem length_mulIdx : ∀ (r : ℕ → F) (T : List F), (mulIdx r T).length = T.length
  | _, [] => rfl
  | r, _ :: T => by simp [mulIdx, length_mulIdx (dropS 1 r) T]

open Classical in
/-- Counting for ciphertexts with several masked copies of the session element `m • M`, the `j`-th one masked by
`(r j * T j * a) • E`. -/
theorem count_copies [Fintype F] (f : ℕ → F) (pre Ts post : List F) (hT : ∀ x ∈ Ts, x ≠ 0) (E M : Gt) (hE : E ≠ 0)
    (hM : M ≠ 0) (r : ℕ → F) : ∃ j, ∀ S : Finset (F × F × F),
      (∀ s m m' a a', (s, m, a) ∈ S → (s, m', a') ∈ S → ∃ xs ys, Moves ((a' - a) • E) ((m' - m) • M)
        (pre.map (fun x => (x, 0)) ++ ((mulIdx (setS r j s) Ts).map (fun x => (x, 1)) ++ post.map fun x => (x, 0))) xs ys ∧
        weigh f 0 ys - weigh f 0 xs = (m' - m) • M) →
      S.card ≤ 2 * Fintype.card F * Fintype.card F := by
  have main : ∀ j, (f (pre.length + j) * Ts.getD j 0 = 0 → slope f pre.length (Ts.map fun _ => 1) = 0) →
      ∀ S : Finset (F × F × F),
      (∀ s m m' a a', (s, m, a) ∈ S → (s, m', a') ∈ S → ∃ xs ys, Moves ((a' - a) • E) ((m' - m) • M)
        (pre.map (fun x => (x, 0)) ++ ((mulIdx (setS r j s) Ts).map (fun x => (x, 1)) ++ post.map fun x => (x, 0))) xs ys ∧
        weigh f 0 ys - weigh f 0 xs = (m' - m) • M) →
      S.card ≤ 2 * Fintype.card F * Fintype.card F := by
    intro j hj S h
    refine count_three le_rfl (fun x : F => x • M) (smul_left_injective F hM) S E hE
      (slope f 0 pre + (slope f pre.length (mulIdx (setS r j 0) Ts) + slope f (pre.length + Ts.length) post))
      (f (pre.length + j) * Ts.getD j 0) (slope f pre.length (Ts.map fun _ => 1)) hj ?_
    intro s m m' a a' h1 h2
    obtain ⟨xs, ys, hm, hw⟩ := h s m m' a a' h1 h2
    have := hm.weigh f 0
    rw [hw] at this
    simp only [List.map_append, List.map_map, Function.comp_def, List.map_id', slope_append, slope_zero, zero_add,
      List.length_map, length_mulIdx, add_zero] at this
    rw [slope_mulIdx] at this
    have e : slope f pre.length ((mulIdx (setS r j s) Ts).map fun _ => (1 : F)) =
        slope f pre.length (Ts.map fun _ => (1 : F)) := by
      rw [List.map_const', List.map_const', length_mulIdx]
    rw [e] at this
    have e4 := sub_eq_zero.2 this
    have : ∀ a b : Gt, a = -b → b = 0 → a = 0 := by rintro a b rfl rfl; simp
    refine this _ _ ?_ e4
    module
  by_cases hex : ∃ j < Ts.length, f (pre.length + j) ≠ 0
  · obtain ⟨j, hj, hf⟩ := hex
    refine ⟨j, main j fun h0 => ?_⟩
    rw [mul_eq_zero] at h0
    rcases h0 with h0 | h0
    · exact absurd h0 hf
    · rw [List.getD_eq_getElem?_getD, List.getElem?_eq_getElem hj, Option.getD_some] at h0
      exact absurd h0 (hT _ (List.getElem_mem hj))
  · push Not at hex
    exact ⟨0, main 0 fun _ => slope_ones f _ _ hex⟩

end Rabe
