import Verif.Proof.Translation

/-!
# Trees with other columns

For every tree there is one with the same gates and names and pairwise different columns. Where nothing depends on the
columns, statements for trees with different labels therefore hold for all trees.
-/

namespace Rabe

mutual
/-- The tree with the leaves numbered from `k`. -/
def relabel : Pol → ℕ → Pol
  | .leaf n _, k => .leaf n k
  | .gate op cs, k => .gate op (relabelL cs k)
/-- The trees with the leaves numbered from `k`. -/
def relabelL : List Pol → ℕ → List Pol
  | [], _ => []
  | c :: cs, k => relabel c k :: relabelL cs (k + c.leaves.length)
end

mutual
theorem relabel_cols : ∀ (p : Pol) (k : ℕ), (relabel p k).leaves.map Prod.snd = List.range' k p.leaves.length
  | .leaf n c, k => by simp [relabel]
  | .gate op cs, k => by simpa [relabel] using relabelL_cols cs k
theorem relabelL_cols : ∀ (cs : List Pol) (k : ℕ),
    ((relabelL cs k).flatMap Pol.leaves).map Prod.snd = List.range' k (cs.flatMap Pol.leaves).length
  | [], k => by simp [relabelL]
  | c :: cs, k => by
    rw [relabelL, List.flatMap_cons, List.flatMap_cons, List.map_append, relabel_cols, relabelL_cols, List.length_append,
      List.range'_append_1]
end

mutual
theorem same_relabel : ∀ (p : Pol) (k : ℕ), p.Same (relabel p k)
  | .leaf n c, k => by simp [relabel, Pol.Same]
  | .gate op cs, k => by simpa [relabel, Pol.Same] using sameL_relabel cs k
theorem sameL_relabel : ∀ (cs : List Pol) (k : ℕ), Pol.SameL cs (relabelL cs k)
  | [], k => by simp [relabelL, Pol.SameL]
  | c :: cs, k => by
    simp only [relabelL, Pol.SameL]
    exact ⟨same_relabel c k, sameL_relabel cs _⟩
end

/-- A tree with the same gates and names and pairwise different columns. -/
theorem exists_relabel (p : Pol) : ∃ q : Pol, p.Same q ∧ q.leaves.Nodup :=
  ⟨relabel p 0, same_relabel p 0, List.Nodup.of_map Prod.snd (by rw [relabel_cols]; exact List.nodup_range')⟩

/-- Two leaves with one label get different ones. -/
example : relabel (.gate .or [.leaf ['A'] 3, .leaf ['A'] 3]) 0 = .gate .or [.leaf ['A'] 0, .leaf ['A'] 1] := by
  simp [relabel, relabelL]

end Rabe
