import Verif.Prelude
import Mathlib.Algebra.BigOperators.Group.List.Basic
import Mathlib.Data.Fintype.Prod
import Mathlib.Data.Fintype.Card

/-!
# Fixed computations with group elements

Vocabulary for statements about what an observer can compute from published group elements with the operations of
the groups and the pairing alone.
-/

namespace Rabe

variable {F G1 G2 Gt : Type} [Field F] [AddCommGroup G1] [Module F G1]
  [AddCommGroup G2] [Module F G2] [AddCommGroup Gt] [Module F Gt]

/-- The group elements an observer has. -/
structure View (G1 G2 Gt : Type) where
  one : List G1
  two : List G2
  tgt : List Gt

/-- The elements of both views. -/
def View.join (v w : View G1 G2 Gt) : View G1 G2 Gt := ⟨v.one ++ w.one, v.two ++ w.two, v.tgt ++ w.tgt⟩

/-- The elements of all views of a list. -/
def View.all : List (View G1 G2 Gt) → View G1 G2 Gt
  | [] => ⟨[], [], []⟩
  | v :: l => v.join (View.all l)

/-- A computation that is fixed in advance: for every pair of a seen element of `G1` and a seen element of `G2` the
exponent of their pairing, for every seen element of `Gt` its exponent. Every element of `Gt` that can be written down
with the group operations and the pairing has this form. -/
structure Formula (F : Type) where
  pairs : ℕ → ℕ → F
  tgt : ℕ → F

/-- `∑ f i • l[i]`, the positions counted from `n`. -/
def weigh (f : ℕ → F) : ℕ → List Gt → Gt
  | _, [] => 0
  | n, x :: l => f n • x + weigh f (n + 1) l

/-- The result of a computation. -/
def Formula.eval (env : Env F G1 G2 Gt) (k : Formula F) (v : View G1 G2 Gt) : Gt :=
  (v.one.zipIdx.map fun x => (v.two.zipIdx.map fun y => k.pairs x.2 y.2 • env.pair x.1 y.1).sum).sum +
    weigh k.tgt 0 v.tgt

end Rabe
