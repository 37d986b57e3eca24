import Verif.Proof.Zippel

/-!
# Elements that one fixed computation finds in every view of a family
-/

set_option linter.unusedSectionVars false

namespace Rabe

variable {F G1 G2 Gt : Type} [Field F] [AddCommGroup G1] [Module F G1]
  [AddCommGroup G2] [Module F G2] [AddCommGroup Gt] [Module F Gt]

/-- One computation that is right for every member of a family of views. -/
def Computable (env : Env F G1 G2 Gt) {ι : Type} (W : ι → View G1 G2 Gt) (X : ι → Gt) : Prop :=
  ∃ k : Formula F, ∀ i, k.eval env (W i) = X i

variable {env : Env F G1 G2 Gt} {ι : Type} {W : ι → View G1 G2 Gt} {X Y : ι → Gt}

theorem cweigh_add (f g : ℕ → F) : ∀ (n : ℕ) (l : List Gt), weigh (fun i => f i + g i) n l = weigh f n l + weigh g n l
  | _, [] => by simp [weigh]
  | n, x :: l => by rw [weigh, cweigh_add f g (n + 1) l, weigh, weigh, add_smul]; abel

theorem cweigh_smul (c : F) (f : ℕ → F) : ∀ (n : ℕ) (l : List Gt), weigh (fun i => c * f i) n l = c • weigh f n l
  | _, [] => by simp [weigh]
  | n, x :: l => by rw [weigh, cweigh_smul c f (n + 1) l, weigh, mul_smul, smul_add]

theorem cweigh_zero : ∀ (n : ℕ) (l : List Gt), weigh (fun _ => (0 : F)) n l = 0
  | _, [] => rfl
  | n, x :: l => by rw [weigh, cweigh_zero (n + 1) l]; simp

theorem cweigh_at (p : ℕ) : ∀ (n : ℕ) (l : List Gt), weigh (fun i => if i = n + p then (1 : F) else 0) n l = l.getD p 0
  | n, [] => by simp [weigh]
  | n, x :: l => by
    cases p with
    | zero =>
      have h : ∀ (j : ℕ) (l : List Gt), n < j → weigh (fun i => if i = n then (1 : F) else 0) j l = 0 := by
        intro j l
        induction l generalizing j with
        | nil => intro _; rfl
        | cons y l ih =>
          intro hj
          rw [weigh, ih (j + 1) (by omega), if_neg (by omega)]
          simp
      simp only [Nat.add_zero, weigh, if_true, one_smul, h (n + 1) l (by omega)]
      simp
    | succ p =>
      rw [weigh, if_neg (by omega)]
      have := cweigh_at p (n + 1) l
      rw [show n + 1 + p = n + (p + 1) by omega] at this
      rw [this]
      simp

theorem Computable.add (hX : Computable env W X) (hY : Computable env W Y) : Computable env W fun i => X i + Y i := by
  obtain ⟨k, hk⟩ := hX
  obtain ⟨l, hl⟩ := hY
  refine ⟨⟨fun i j => k.pairs i j + l.pairs i j, fun i => k.tgt i + l.tgt i⟩, fun i => ?_⟩
  beta_reduce
  rw [← hk i, ← hl i]
  simp only [Formula.eval, cweigh_add, add_smul, List.sum_map_add]
  abel

theorem Computable.smul (c : F) (hX : Computable env W X) : Computable env W fun i => c • X i := by
  obtain ⟨k, hk⟩ := hX
  refine ⟨⟨fun i j => c * k.pairs i j, fun i => c * k.tgt i⟩, fun i => ?_⟩
  beta_reduce
  rw [← hk i]
  simp only [Formula.eval, cweigh_smul, mul_smul, smul_add, List.smul_sum, List.map_map, Function.comp_def]

theorem Computable.neg (hX : Computable env W X) : Computable env W fun i => -X i := by
  simpa using hX.smul (-1)

theorem Computable.zero : Computable env W fun _ => 0 :=
  ⟨⟨fun _ _ => 0, fun _ => 0⟩, fun i => by simp [Formula.eval, cweigh_zero]⟩

theorem Computable.sum {κ : Type} (s : Finset κ) {X : κ → ι → Gt} (h : ∀ c ∈ s, Computable env W (X c)) :
    Computable env W fun i => ∑ c ∈ s, X c i := by
  classical
  induction s using Finset.induction_on with
  | empty => simpa using Computable.zero
  | insert c s hc ih =>
    simp only [Finset.sum_insert hc]
    exact (h c (by simp)).add (ih fun c hc => h c (by simp [hc]))

/-- An element of `Gt` at a fixed position. -/
theorem Computable.tgt (p : ℕ) (h : ∀ i, (W i).tgt[p]? = some (X i)) : Computable env W X := by
  refine ⟨⟨fun _ _ => 0, fun i => if i = 0 + p then 1 else 0⟩, fun i => ?_⟩
  simp only [Formula.eval, cweigh_at]
  simp [List.getD_eq_getElem?_getD, h i]

/-- The pairing of two elements at fixed positions. -/
theorem Computable.pair {A : ι → G1} {B : ι → G2} (p q : ℕ) (h1 : ∀ i, (W i).one[p]? = some (A i))
    (h2 : ∀ i, (W i).two[q]? = some (B i)) : Computable env W fun i => env.pair (A i) (B i) := by
  refine ⟨⟨fun i j => if i = p ∧ j = q then 1 else 0, fun _ => 0⟩, fun i => ?_⟩
  simp only [Formula.eval, cweigh_zero, add_zero]
  obtain ⟨hp, ha⟩ := List.getElem?_eq_some_iff.1 (h1 i)
  obtain ⟨hq, hb⟩ := List.getElem?_eq_some_iff.1 (h2 i)
  rw [zipIdx_map_sum (W i).one (fun x n => ((W i).two.zipIdx.map fun y =>
    (if n = p ∧ y.2 = q then (1 : F) else 0) • env.pair x y.1).sum)]
  rw [Finset.sum_eq_single (⟨p, hp⟩ : Fin (W i).one.length)]
  · rw [zipIdx_map_sum (W i).two (fun y n =>
      (if (⟨p, hp⟩ : Fin (W i).one.length).val = p ∧ n = q then (1 : F) else 0) • env.pair (W i).one[(⟨p, hp⟩ : Fin _)] y)]
    rw [Finset.sum_eq_single (⟨q, hq⟩ : Fin (W i).two.length)]
    · simp [ha, hb]
    · intro b _ hb
      rw [if_neg (fun h => hb (Fin.ext h.2)), zero_smul]
    · simp
  · intro b _ hb
    apply List.sum_eq_zero
    simp only [List.mem_map]
    rintro _ ⟨y, _, rfl⟩
    rw [if_neg (fun h => hb (Fin.ext h.1)), zero_smul]
  · simp

/-- The pairing of two elements known by their symbols. -/
theorem Computable.pairSym {α : Type} {l1 l2 : List α} {f : ι → α → G1} {g : ι → α → G2}
    (h1 : ∀ i, (W i).one = l1.map (f i)) (h2 : ∀ i, (W i).two = l2.map (g i)) {s s' : α} (hs : s ∈ l1) (hs' : s' ∈ l2) :
    Computable env W fun i => env.pair (f i s) (g i s') := by
  obtain ⟨p, hp⟩ := List.getElem?_of_mem hs
  obtain ⟨q, hq⟩ := List.getElem?_of_mem hs'
  exact Computable.pair p q (fun i => by rw [h1, List.getElem?_map, hp]; rfl) (fun i => by rw [h2, List.getElem?_map, hq]; rfl)

end Rabe
