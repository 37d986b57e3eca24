import Verif.Prelude

/-!
# Specification: access trees and their Boolean meaning

Independent of the model of the code.
-/

namespace Rabe

/-- The two kinds of gates. -/
inductive Op where
  | and
  | or
  deriving DecidableEq, Repr

/-- An access tree: attribute leaves (with a source position) and AND/OR gates. -/
inductive Pol where
  | leaf (name : Str) (pos : ℕ)
  | gate (op : Op) (children : List Pol)
  deriving Repr

namespace Pol

/-- Induction over access trees. -/
theorem ind {P : Pol → Prop} (hl : ∀ n c, P (leaf n c))
    (hg : ∀ op cs, (∀ c ∈ cs, P c) → P (gate op cs)) : ∀ p, P p := by
  intro p
  refine Pol.rec (motive_1 := P) (motive_2 := fun cs => ∀ c ∈ cs, P c) hl ?_ ?_ ?_ p
  · intro op cs h; exact hg op cs h
  · simp
  · intro h t hh ht c hc
    rcases List.mem_cons.1 hc with rfl | hc
    · exact hh
    · exact ht c hc

mutual
/-- Boolean meaning of an access tree for the attributes `A`: a leaf needs its attribute, an AND gate
all children, an OR gate one child. -/
def sat (A : List Str) : Pol → Bool
  | leaf n _ => decide (n ∈ A)
  | gate .and cs => satAll A cs
  | gate .or cs => satAny A cs
/-- All trees of a list are satisfied. -/
def satAll (A : List Str) : List Pol → Bool
  | [] => true
  | c :: cs => sat A c && satAll A cs
/-- Some tree of a list is satisfied. -/
def satAny (A : List Str) : List Pol → Bool
  | [] => false
  | c :: cs => sat A c || satAny A cs
end

theorem satAll_eq (A cs) : satAll A cs = cs.all (sat A) := by
  induction cs with
  | nil => rfl
  | cons c cs ih => simp [satAll, ih]

theorem satAny_eq (A cs) : satAny A cs = cs.any (sat A) := by
  induction cs with
  | nil => rfl
  | cons c cs ih => simp [satAny, ih]

@[simp] theorem sat_leaf (A n c) : sat A (leaf n c) = decide (n ∈ A) := by simp [sat]
@[simp] theorem sat_and (A cs) : sat A (gate .and cs) = cs.all (sat A) := by
  simp [sat, satAll_eq]
@[simp] theorem sat_or (A cs) : sat A (gate .or cs) = cs.any (sat A) := by
  simp [sat, satAny_eq]

mutual
/-- The leaves (name, position) of a tree from left to right. -/
def leaves : Pol → List (Str × ℕ)
  | leaf n c => [(n, c)]
  | gate _ cs => leavesL cs
/-- The leaves of a list of trees from left to right. -/
def leavesL : List Pol → List (Str × ℕ)
  | [] => []
  | c :: cs => leaves c ++ leavesL cs
end

theorem leavesL_eq (cs) : leavesL cs = cs.flatMap leaves := by
  induction cs with
  | nil => rfl
  | cons c cs ih => simp [leavesL, ih]

@[simp] theorem leaves_leaf (n c) : leaves (leaf n c) = [(n, c)] := by simp [leaves]
@[simp] theorem leaves_gate (op cs) : leaves (gate op cs) = cs.flatMap leaves := by
  simp [leaves, leavesL_eq]

/-- The attribute names of a tree, left to right. -/
def names (p : Pol) : List Str := p.leaves.map Prod.fst

mutual
/-- `arity Q p`: every gate `(op, number of children)` of `p` satisfies `Q`. -/
def Arity (Q : Op → ℕ → Prop) : Pol → Prop
  | leaf _ _ => True
  | gate op cs => Q op cs.length ∧ ArityL Q cs
/-- `Arity` for all trees of a list. -/
def ArityL (Q : Op → ℕ → Prop) : List Pol → Prop
  | [] => True
  | c :: cs => Arity Q c ∧ ArityL Q cs
end

theorem arityL_iff (Q cs) : ArityL Q cs ↔ ∀ c ∈ cs, Arity Q c := by
  induction cs with
  | nil => simp [ArityL]
  | cons c cs ih => simp [ArityL, ih]

@[simp] theorem arity_leaf (Q n c) : Arity Q (leaf n c) ↔ True := by simp [Arity]
@[simp] theorem arity_gate (Q op cs) :
    Arity Q (gate op cs) ↔ Q op cs.length ∧ ∀ c ∈ cs, Arity Q c := by
  simp [Arity, arityL_iff]

theorem Arity.mono {Q Q' : Op → ℕ → Prop} (h : ∀ o n, Q o n → Q' o n) :
    ∀ p, Arity Q p → Arity Q' p := by
  apply ind
  · simp
  · intro op cs ih h1
    rw [arity_gate] at *
    exact ⟨h _ _ h1.1, fun c hc => ih c hc (h1.2 c hc)⟩

/-- All gates have at least two children. -/
def Wide (p : Pol) : Prop := p.Arity fun _ n => 2 ≤ n

/-- All gates have fewer than `2^64` children (a Rust `Vec` cannot hold more). -/
def Fits (p : Pol) : Prop := p.Arity fun _ n => n < 2 ^ 64

/-- AND gates have exactly two children, OR gates at least two. -/
def Binary (p : Pol) : Prop := p.Arity fun o n => match o with
  | .and => n = 2
  | .or => 2 ≤ n

theorem Binary.wide {p : Pol} (h : p.Binary) : p.Wide :=
  Arity.mono (fun o n h => by cases o <;> simp_all) p h

mutual
/-- Number of AND gates. -/
def andCount : Pol → ℕ
  | leaf _ _ => 0
  | gate op cs => (match op with | .and => 1 | .or => 0) + andCountL cs
/-- Number of AND gates in a list of trees. -/
def andCountL : List Pol → ℕ
  | [] => 0
  | c :: cs => andCount c + andCountL cs
end

mutual
/-- Equality of trees up to leaf positions. -/
def Same : Pol → Pol → Prop
  | leaf n _, leaf m _ => n = m
  | gate o cs, gate o' cs' => o = o' ∧ SameL cs cs'
  | _, _ => False
/-- `Same` for lists of trees. -/
def SameL : List Pol → List Pol → Prop
  | [], [] => True
  | c :: cs, d :: ds => Same c d ∧ SameL cs ds
  | _, _ => False
end

end Pol
end Rabe
