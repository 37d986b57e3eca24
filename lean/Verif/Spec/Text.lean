import Verif.Model.Pest

/-!
# Vocabulary for statements about policy texts
-/

namespace Rabe

/-- `parse` accepts the text and the result denotes the access tree `p`. -/
def Denotes (text : Str) (lang : PolicyLanguage) (p : Pol) : Prop := parse text lang = .ok p.toValue

/-- An accepted text of possible length (a Rust string has fewer than `2^64` bytes) whose gates have at least two
children and whose leaves have pairwise different (name, position). -/
structure Regular (text : Str) (lang : PolicyLanguage) (p : Pol) : Prop where
  denotes : Denotes text lang p
  short : text.length < 2 ^ 64
  wide : p.Wide
  labels : p.leaves.Nodup

/-- Every attribute that is both in the policy and in the list has no underscore, and one leaf of the policy has a name
whose part before the first underscore is this attribute. (If no name has an underscore: it occurs once.) -/
def Separate (p : Pol) (attrs : List Str) : Prop :=
  ∀ n ∈ p.names, n ∈ attrs → '_' ∉ n ∧ (p.names.map fun m => m.takeWhile (· != '_')).count n = 1

end Rabe
