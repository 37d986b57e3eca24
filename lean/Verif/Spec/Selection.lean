import Verif.Spec.Pol

/-!
# Specification: minimal authorised sets of leaves

Independent of the model of the code. A selection marks each leaf of a tree, from left to right.
-/

namespace Rabe

namespace Pol

mutual
/-- A minimal way to satisfy a tree: a leaf is marked; below an AND gate (with at least one child) every child is satisfied
minimally; below an OR gate exactly one child is, and nothing is marked in the others. -/
def Sel : Pol → List Bool → Prop
  | .leaf _ _, bs => bs = [true]
  | .gate .and cs, bs => cs ≠ [] ∧ SelAll cs bs
  | .gate .or cs, bs => SelOne cs bs
/-- A minimal way to satisfy every tree of a list. -/
def SelAll : List Pol → List Bool → Prop
  | [], bs => bs = []
  | c :: cs, bs => ∃ b1 b2, bs = b1 ++ b2 ∧ Sel c b1 ∧ SelAll cs b2
/-- A minimal way to satisfy one tree of a list, with nothing marked in the others. -/
def SelOne : List Pol → List Bool → Prop
  | [], _ => False
  | c :: cs, bs => ∃ b1 b2, bs = b1 ++ b2 ∧
      ((Sel c b1 ∧ b2 = List.replicate (leavesL cs).length false) ∨
        (b1 = List.replicate (leaves c).length false ∧ SelOne cs b2))
end

/-- Every gate has at least one child. -/
def NoEmpty (p : Pol) : Prop := p.Arity fun _ n => 1 ≤ n

end Pol

/-- The marked leaves. -/
def marked {α : Type} (bs : List Bool) (xs : List α) : List α := ((bs.zip xs).filter fun x => x.1).map fun x => x.2

end Rabe
