import Verif.Props.Parser
import Verif.Proof.Tree

/-!
# C08, C09, C10: policy check and pruning
-/

namespace Rabe

/-- **C08.** For every parsed policy the check accepts a non-empty attribute list iff the list satisfies the AND/OR
formula of the policy, and it refuses the empty list. -/
theorem C08_check_iff_sat (text : Str) (lang : PolicyLanguage) (v : PolicyValue) (h : parse text lang = .ok v) :
    ∃ p : Pol, Denotes text lang p ∧
      (∀ A : List Str, A ≠ [] → (traversePolicy A v .leaf = true ↔ p.sat A = true)) ∧
      traversePolicy [] v .leaf = false := by
  obtain ⟨p, rfl, _⟩ := parse_ok h
  exact ⟨p, h, fun A hA => by rw [traverse_eq_sat A hA], traverse_nil _ _⟩

/-- Accepting and refusing lists for `("A" and "B") or "C"`. -/
example : let v := (Pol.gate .or [.gate .and [.leaf ['A'] 3, .leaf ['B'] 11], .leaf ['C'] 19]).toValue
    parse (chars% "(\"A\" and \"B\") or \"C\"") .human = .ok v ∧
    traversePolicy [['B'], ['A']] v .leaf = true ∧ traversePolicy [['C']] v .leaf = true ∧
    traversePolicy [['B'], ['D']] v .leaf = false := ⟨rfl, rfl, rfl, rfl⟩

/-- The empty list is refused even by a policy that needs no attribute (an AND without children, JSON only). -/
example : let p := Pol.gate .and []
    parse (chars% "{\"name\": \"and\", \"children\": []}") .json = .ok p.toValue ∧
    p.sat [] = true ∧ traversePolicy [] p.toValue .leaf = false := ⟨rfl, rfl, rfl⟩

/-- **C09.** If the check accepts a list then it accepts every list containing all its members; in particular order
and repetition are irrelevant. -/
theorem C09_check_monotone (text : Str) (lang : PolicyLanguage) (v : PolicyValue) (h : parse text lang = .ok v)
    (A B : List Str) (hAB : ∀ x ∈ A, x ∈ B) (ha : traversePolicy A v .leaf = true) :
    traversePolicy B v .leaf = true := by
  obtain ⟨p, rfl, _⟩ := parse_ok h
  have hA : A ≠ [] := by rintro rfl; simp [traverse_nil] at ha
  have hB : B ≠ [] := by
    rintro rfl
    cases A with
    | nil => exact hA rfl
    | cons a A => exact absurd (hAB a (by simp)) (by simp)
  rw [traverse_eq_sat B hB]
  rw [traverse_eq_sat A hA] at ha
  exact sat_mono hAB p ha

/-- Lists with the same members get the same answer. -/
theorem C09_check_order_independent (text : Str) (lang : PolicyLanguage) (v : PolicyValue)
    (h : parse text lang = .ok v) (A B : List Str) (hAB : ∀ x, x ∈ A ↔ x ∈ B) :
    traversePolicy A v .leaf = traversePolicy B v .leaf := by
  rw [Bool.eq_iff_iff]
  exact ⟨C09_check_monotone text lang v h A B fun x hx => (hAB x).1 hx,
    C09_check_monotone text lang v h B A fun x hx => (hAB x).2 hx⟩

/-- Monotonicity is not vacuous and acceptance is not constant. -/
example : let v := (Pol.gate .and [.leaf ['A'] 2, .leaf ['B'] 10]).toValue
    parse (chars% "\"A\" and \"B\"") .human = .ok v ∧
    traversePolicy [['B'], ['A']] v .leaf = true ∧ traversePolicy [['A'], ['C'], ['B'], ['A']] v .leaf = true ∧
    traversePolicy [['A']] v .leaf = false := ⟨rfl, rfl, rfl, rfl⟩

/-- **C10.** For a policy tree whose gates have at least two children, pruning succeeds; it reports a match iff the
attributes satisfy the policy. It selects leaves of the policy, in order, each owned by the user and listed with its
label; when there is a match the selected attributes satisfy the policy, otherwise nothing is selected. -/
theorem C10_pruning (p : Pol) (hw : p.Wide) (A : List Str) :
    ∃ L : List (Str × ℕ),
      calcPruned A p.toValue none = .ok (p.sat A, L.map fun l => (l.1, nodeIndex l.1 l.2)) ∧
      L.Sublist p.leaves ∧ (∀ l ∈ L, l.1 ∈ A) ∧
      (p.sat A = true → p.sat (L.map Prod.fst) = true) ∧ (p.sat A = false → L = []) :=
  ⟨pick A p, calcPruned_eq A p hw, pick_sublist A p, pick_owned A p, pick_sufficient A p, pick_unsat A p⟩

/-- **C10**, human language: no side condition on the gates is needed. -/
theorem C10_pruning_human (text : Str) (v : PolicyValue) (h : parse text .human = .ok v) (A : List Str) :
    ∃ p : Pol, v = p.toValue ∧ ∃ L : List (Str × ℕ),
      calcPruned A v none = .ok (p.sat A, L.map fun l => (l.1, nodeIndex l.1 l.2)) ∧
      L.Sublist p.leaves ∧ (∀ l ∈ L, l.1 ∈ A) ∧
      (p.sat A = true → p.sat (L.map Prod.fst) = true) ∧ (p.sat A = false → L = []) := by
  obtain ⟨p, rfl, _, _, hw⟩ := parse_ok h
  exact ⟨p, rfl, C10_pruning p (hw rfl) A⟩

/-- Gates with fewer than two children abort. -/
theorem C10_narrow_gate_aborts (op : Op) (cs : List Pol) (h : cs.length < 2) (A : List Str) :
    calcPruned A (Pol.gate op cs).toValue none = .panic := by
  have h' : ¬ 2 ≤ (cs.map Pol.toValue).length := by simpa using h
  cases op <;> simp only [Pol.toValue_gate, Op.toType, calcPruned, if_neg h']

/-- A narrow gate can be written in JSON. -/
example : ∃ p, Denotes (chars% "{\"name\": \"or\", \"children\": [{\"name\": \"A\"}]}") .json p ∧
    calcPruned [['A']] p.toValue none = .panic := ⟨.gate .or [.leaf ['A'] 39], rfl, rfl⟩

/-- A match that selects two of four leaves. -/
example : ∃ p, Denotes (chars% "(\"A\" or \"B\") and (\"C\" or \"D\")") .human p ∧ p.Wide ∧
    calcPruned [['B'], ['D'], ['C']] p.toValue none =
      .ok (true, [(['B'], (chars% "B_10")), (['C'], (chars% "C_20"))]) :=
  ⟨.gate .and [.gate .or [.leaf ['A'] 3, .leaf ['B'] 10], .gate .or [.leaf ['C'] 20, .leaf ['D'] 27]], rfl,
    by simp [Pol.Wide], rfl⟩

end Rabe
