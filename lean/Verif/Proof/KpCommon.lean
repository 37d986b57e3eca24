import Verif.Proof.Common
import Verif.Spec.Text

/-!
# Lemmas shared by the proofs of LSW and YCT14
-/

set_option linter.unusedSectionVars false

namespace Rabe

/-- Whatever the widths of the gates: if pruning returns a flag, the flag is the Boolean meaning of the tree. -/
theorem calcPruned_ok_sat (A : List Str) : ∀ p : Pol, ∀ {b l},
    calcPruned A p.toValue none = .ok (b, l) → b = p.sat A := by
  intro p
  induction p using Pol.ind with
  | hl n c =>
    intro b l h
    simp only [Pol.toValue_leaf, calcPruned, contains_iff] at h
    by_cases hn : n ∈ A <;> simp_all
  | hg op cs ih =>
    intro b l h
    cases op
    · simp only [Pol.toValue_gate, Op.toType, calcPruned] at h
      split at h
      · rw [Pol.sat_and]
        have key : ∀ (ds : List Pol), (∀ c ∈ ds, ∀ {b l}, calcPruned A c.toValue none = .ok (b, l) → b = c.sat A) →
            ∀ m acc, prunedAnd A (ds.map Pol.toValue) m acc = .ok (b, l) → b = (m && ds.all (Pol.sat A)) := by
          intro ds
          induction ds with
          | nil => intro _ m acc h; simp only [List.map_nil, prunedAnd, Res.ok.injEq, Prod.mk.injEq] at h; simp [h.1]
          | cons d ds ihd =>
            intro hd m acc h
            simp only [List.map_cons, prunedAnd] at h
            cases hc : calcPruned A d.toValue none with
            | err => simp [hc] at h
            | panic => simp [hc] at h
            | ok x =>
              obtain ⟨f, l'⟩ := x
              simp only [hc, Res.unwrap_ok, Res.ok_bind] at h
              rw [ihd (fun c hc => hd c (by simp [hc])) _ _ h, hd d (by simp) hc]
              simp [Bool.and_assoc]
        simpa using key cs ih true [] h
      · simp at h
    · simp only [Pol.toValue_gate, Op.toType, calcPruned] at h
      split at h
      · rw [Pol.sat_or]
        have key : ∀ (ds : List Pol), (∀ c ∈ ds, ∀ {b l}, calcPruned A c.toValue none = .ok (b, l) → b = c.sat A) →
            ∀ acc, prunedOr A (ds.map Pol.toValue) acc = .ok (b, l) → b = ds.any (Pol.sat A) := by
          intro ds
          induction ds with
          | nil => intro _ acc h; simp only [List.map_nil, prunedOr, Res.ok.injEq, Prod.mk.injEq] at h; simp [h.1]
          | cons d ds ihd =>
            intro hd acc h
            simp only [List.map_cons, prunedOr] at h
            cases hc : calcPruned A d.toValue none with
            | err => simp [hc] at h
            | panic => simp [hc] at h
            | ok x =>
              obtain ⟨f, l'⟩ := x
              have hf := hd d (by simp) hc
              simp only [hc, Res.unwrap_ok, Res.ok_bind] at h
              cases f with
              | true =>
                simp only [if_true, Res.ok.injEq, Prod.mk.injEq] at h
                simp [← h.1, ← hf]
              | false =>
                simp only [Bool.false_eq_true, if_false] at h
                rw [ihd (fun c hc => hd c (by simp [hc])) _ h]
                simp [← hf]
        exact key cs ih [] h
      · simp at h

/-- A loop over the pruned leaves whose state has a sum in the first place. -/
theorem foldR_fst_sum {M N : Type} [AddCommGroup M] (step : M × N → Str × Str → Res (M × N))
    (x : Str × ℕ → M) (L : List (Str × ℕ))
    (h : ∀ l ∈ L, ∀ acc, ∃ n, step acc (leafKey l) = .ok (acc.1 + x l, n)) :
    ∀ acc, ∃ n, Res.foldR step acc (L.map leafKey) = .ok (acc.1 + (L.map x).sum, n) := by
  induction L with
  | nil => intro acc; exact ⟨acc.2, by simp [Res.foldR]⟩
  | cons l L ih =>
    intro acc
    obtain ⟨n, hn⟩ := h l (by simp) acc
    obtain ⟨m, hm⟩ := ih (fun l hl => h l (by simp [hl])) (acc.1 + x l, n)
    refine ⟨m, ?_⟩
    rw [List.map_cons]
    simp only [Res.foldR, Res.rbind_eq]
    rw [hn, Res.ok_bind, hm]
    simp [add_assoc]

theorem sum_map_smul {F M : Type} [Field F] [AddCommGroup M] [Module F M] {α : Type} (L : List α) (f : α → F) (m : M) :
    (L.map fun l => f l • m).sum = (L.map f).sum • m := by
  induction L with
  | nil => simp
  | cons x xs ih => simp only [List.map_cons, List.sum_cons, ih, add_smul]

/-- A name that occurs once among the shortened names belongs to one leaf. -/
theorem leaf_unique {p : Pol} {l l' : Str × ℕ} (hl : l ∈ p.leaves) (hl' : l' ∈ p.leaves)
    (hu : '_' ∉ l.1) (h : l'.1.takeWhile (· != '_') = l.1)
    (hc : (p.names.map fun m => m.takeWhile (· != '_')).count l.1 = 1) : l' = l := by
  have h1 : (p.leaves.filter fun y => y.1.takeWhile (· != '_') == l.1).length = 1 := by
    rw [← hc, Pol.names, List.count, List.countP_map, List.countP_map, List.countP_eq_length_filter]
    rfl
  obtain ⟨z, hz⟩ := List.length_eq_one_iff.1 h1
  have m1 : l ∈ p.leaves.filter fun y => y.1.takeWhile (· != '_') == l.1 := by
    simp only [List.mem_filter, hl, true_and, beq_iff_eq]
    exact removeIndex_of_not_mem hu
  have m2 : l' ∈ p.leaves.filter fun y => y.1.takeWhile (· != '_') == l.1 := by simp [hl', h]
  rw [hz, List.mem_singleton] at m1 m2
  rw [m1, m2]

theorem find?_unique {α β : Type} (xs : List α) (g : α → β) (q : β → Bool) (x : α) (hx : x ∈ xs)
    (hq : ∀ y ∈ xs, q (g y) = true ↔ g y = g x) : (xs.map g).find? q = some (g x) := by
  induction xs with
  | nil => simp at hx
  | cons y ys ih =>
    simp only [List.map_cons, List.find?_cons]
    by_cases hy : g y = g x
    · rw [(hq y (by simp)).2 hy, hy]
    · have h1 : q (g y) = false := by
        cases hqy : q (g y)
        · rfl
        · exact absurd ((hq y (by simp)).1 hqy) hy
      rw [h1]
      have hx' : x ∈ ys := by
        rcases List.mem_cons.1 hx with h | h
        · exact absurd (h ▸ rfl) hy
        · exact h
      exact ih hx' fun z hz => hq z (by simp [hz])

/-- Lookup of the first element with a given name, when the name occurs. -/
theorem exists_find? {α : Type} (key : α → Str) (xs : List α) (k : Str) (h : k ∈ xs.map key) :
    ∃ x ∈ xs, xs.find? (fun x => key x == k) = some x ∧ key x = k := by
  cases hf : xs.find? (fun x => key x == k) with
  | none =>
    obtain ⟨x, hx, he⟩ := List.mem_map.1 h
    have := List.find?_eq_none.1 hf x hx
    simp [he] at this
  | some x =>
    have h1 := List.find?_some hf
    exact ⟨x, List.mem_of_find?_eq_some hf, rfl, by simpa using h1⟩

theorem mapR_ok {α β : Type} {f : α → Res β} {xs : List α} : ∀ {ys}, Res.mapR f xs = .ok ys →
    List.Forall₂ (fun x y => f x = .ok y) xs ys := by
  induction xs with
  | nil => intro ys h; simp only [Res.mapR, Res.ok.injEq] at h; subst h; exact .nil
  | cons x xs ih =>
    intro ys h
    simp only [Res.mapR, Res.rbind_eq, Res.bind_eq_ok, Res.ok.injEq] at h
    obtain ⟨y, hy, zs, hz, rfl⟩ := h
    exact .cons hy (ih hz)

theorem mapR_total {α β : Type} {f : α → Res β} {xs : List α} (h : ∀ x ∈ xs, ∃ y, f x = .ok y) :
    ∃ ys, Res.mapR f xs = .ok ys := by
  induction xs with
  | nil => exact ⟨[], rfl⟩
  | cons x xs ih =>
    obtain ⟨y, hy⟩ := h x (by simp)
    obtain ⟨ys, hys⟩ := ih fun z hz => h z (by simp [hz])
    exact ⟨y :: ys, by simp [Res.mapR, Res.rbind_eq, hy, hys]⟩

end Rabe
