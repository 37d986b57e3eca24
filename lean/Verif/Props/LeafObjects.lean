import Verif.Model.Dnf
import Verif.Model.Msp
import Verif.Model.SecretSharing
import Verif.Instance.Bn

/-!
# Policy values that no parser produces

The helpers on policy values are public functions, and `PolicyType::Leaf` is a public variant, so a caller may hand
them leaves that are written as leaf objects (C78). The check for the normal form is described for every policy
value (C21).
-/

namespace Rabe

mutual
/-- A policy value whose leaf objects are replaced by the bare leaves, `/repo/src/utils/policy/pest/mod.rs:26-37`
(specification; what else stands in a leaf object stays). -/
def PolicyValue.bare : PolicyValue → PolicyValue
  | .str n c => .str n c
  | .array cs => .array (PolicyValue.bareL cs)
  | .object .leaf (.str n c) => .str n c
  | .object .leaf v => .object .leaf v
  | .object .and v => .object .and v.bare
  | .object .or v => .object .or v.bare
/-- Lists of policy values whose leaf objects are replaced. -/
def PolicyValue.bareL : List PolicyValue → List PolicyValue
  | [] => []
  | c :: cs => c.bare :: PolicyValue.bareL cs
end

theorem PolicyValue.bareL_length (cs : List PolicyValue) : (PolicyValue.bareL cs).length = cs.length := by
  induction cs with
  | nil => rfl
  | cons c cs ih => simp [PolicyValue.bareL, ih]

/-! ## The normal form check on every policy value -/

/-- `Above v path`: some array inside `v` stands below objects of the types `path`, outermost first
(specification). -/
inductive Above : PolicyValue → List PolicyType → Prop where
  | here (cs : List PolicyValue) : Above (.array cs) []
  | obj {ty : PolicyType} {v : PolicyValue} {path : List PolicyType} : Above v path → Above (.object ty v) (ty :: path)
  | child {c : PolicyValue} {cs : List PolicyValue} {path : List PolicyType} :
      c ∈ cs → Above c path → Above (.array cs) path

/-- What the check wants of an array below objects of the types `path`: the innermost object is an AND, or it is an
OR and there is no AND around it. -/
def GoodPath (path : List PolicyType) : Prop :=
  path.getLast? = some .and ∨ (path.getLast? = some .or ∧ PolicyType.and ∉ path)

mutual
theorem policyInDnf_above : ∀ (v : PolicyValue) (above : List PolicyType),
    policyInDnf v (decide (PolicyType.and ∈ above)) above.getLast? = true ↔
      ∀ path, Above v path → GoodPath (above ++ path)
  | .str n c, above => by
    simp only [policyInDnf, true_iff]
    intro path h
    cases h
  | .object ty v, above => by
    have ih := policyInDnf_above v (above ++ [ty])
    have hr : (∀ path, Above (.object ty v) path → GoodPath (above ++ path)) ↔
        ∀ path, Above v path → GoodPath (above ++ [ty] ++ path) := by
      constructor
      · intro h path hp
        simpa using h _ (Above.obj hp)
      · intro h path hp
        cases hp with
        | obj hp => simpa using h _ hp
    rw [hr, ← ih]
    cases ty <;> simp [policyInDnf]
  | .array cs, above => by
    have ih := policyInDnfL_above cs above
    have hr : (∀ path, Above (.array cs) path → GoodPath (above ++ path)) ↔
        GoodPath above ∧ ∀ c ∈ cs, ∀ path, Above c path → GoodPath (above ++ path) := by
      constructor
      · intro h
        refine ⟨by simpa using h [] (.here cs), fun c hc path hp => h path (.child hc hp)⟩
      · rintro ⟨h0, h⟩ path hp
        cases hp with
        | here => simpa using h0
        | child hc hp => exact h _ hc _ hp
    rw [hr]
    match ht : above.getLast? with
    | some .and =>
      have hm : PolicyType.and ∈ above := List.mem_of_getLast? ht
      have := ih .and true ht
      simp only [hm, decide_true] at this
      simp [policyInDnf, hm, this, GoodPath, ht]
    | some .or =>
      by_cases hm : PolicyType.and ∈ above
      · simp [policyInDnf, hm, GoodPath, ht]
      · have := ih .or true ht
        simp only [hm, decide_false] at this
        simp [policyInDnf, hm, this, GoodPath, ht]
    | some .leaf => simp [policyInDnf, GoodPath, ht]
    | none => simp [policyInDnf, GoodPath, ht]
theorem policyInDnfL_above : ∀ (cs : List PolicyValue) (above : List PolicyType) (ty : PolicyType) (ret : Bool),
    above.getLast? = some ty → (policyInDnfL cs (decide (PolicyType.and ∈ above)) ty ret = true ↔
      ret = true ∧ ∀ c ∈ cs, ∀ path, Above c path → GoodPath (above ++ path))
  | [], above, ty, ret, _ => by simp [policyInDnfL]
  | c :: cs, above, ty, ret, ht => by
    have h1 := policyInDnf_above c above
    rw [ht] at h1
    simp only [policyInDnfL]
    rw [policyInDnfL_above cs above ty _ ht]
    simp only [Bool.and_eq_true, h1, List.mem_cons, forall_eq_or_imp, and_assoc]
end

/-- **C21.** On every policy value, also on those no parser produces, the check succeeds iff for every array the
innermost object around it is an AND, or an OR with no AND around it. -/
theorem C21_dnf_check_values (v : PolicyValue) :
    policyInDnf v false none = true ↔ ∀ path, Above v path → GoodPath path := by
  simpa using policyInDnf_above v []

/-- An OR object directly inside an AND object is rejected. -/
example : policyInDnf (.object .and (.object .or (.array [.str ['A'] 1, .str ['B'] 2]))) false none = false := by
  rw [Bool.eq_false_iff]
  intro h
  have := (C21_dnf_check_values _).1 h _ (.obj (.obj (.here _)))
  simp [GoodPath] at this

/-- Leaf objects and nested arrays are accepted. -/
example : policyInDnf (.object .or (.array [.object .leaf (.str ['A'] 1), .object .and (.array [.str ['B'] 2,
    .array [.str ['C'] 3]])])) false none = true := by decide

/-! ## Leaf objects -/

mutual
theorem policyInDnf_bare : ∀ (v : PolicyValue) (b : Bool) (t : Option PolicyType),
    policyInDnf v.bare b t = policyInDnf v b t
  | .str n c, b, t => by simp [PolicyValue.bare]
  | .array cs, b, t => by
    simp only [PolicyValue.bare, policyInDnf, policyInDnfL_bare cs]
  | .object .and v, b, t => by simp only [PolicyValue.bare, policyInDnf, policyInDnf_bare v]
  | .object .or v, b, t => by simp only [PolicyValue.bare, policyInDnf, policyInDnf_bare v]
  | .object .leaf (.str n c), b, t => by simp only [PolicyValue.bare, policyInDnf]
  | .object .leaf (.array cs), b, t => by simp only [PolicyValue.bare]
  | .object .leaf (.object ty v), b, t => by simp only [PolicyValue.bare]
theorem policyInDnfL_bare : ∀ (cs : List PolicyValue) (b : Bool) (t : PolicyType) (r : Bool),
    policyInDnfL (PolicyValue.bareL cs) b t r = policyInDnfL cs b t r
  | [], b, t, r => by simp [PolicyValue.bareL]
  | c :: cs, b, t, r => by simp only [PolicyValue.bareL, policyInDnfL, policyInDnf_bare c, policyInDnfL_bare cs]
end

mutual
theorem calcPruned_bare (A : List Str) : ∀ (v : PolicyValue) (t : Option PolicyType),
    calcPruned A v.bare t = calcPruned A v t
  | .str n c, t => by simp [PolicyValue.bare]
  | .array cs, t => by
    simp only [PolicyValue.bare, calcPruned, PolicyValue.bareL_length, prunedAnd_bare A cs, prunedOr_bare A cs]
  | .object .and v, t => by simp only [PolicyValue.bare, calcPruned, calcPruned_bare A v]
  | .object .or v, t => by simp only [PolicyValue.bare, calcPruned, calcPruned_bare A v]
  | .object .leaf (.str n c), t => by simp only [PolicyValue.bare, calcPruned]
  | .object .leaf (.array cs), t => by simp only [PolicyValue.bare]
  | .object .leaf (.object ty v), t => by simp only [PolicyValue.bare]
theorem prunedAnd_bare (A : List Str) : ∀ (cs : List PolicyValue) (m : Bool) (acc : List (Str × Str)),
    prunedAnd A (PolicyValue.bareL cs) m acc = prunedAnd A cs m acc
  | [], m, acc => by simp [PolicyValue.bareL]
  | c :: cs, m, acc => by simp only [PolicyValue.bareL, prunedAnd, calcPruned_bare A c, prunedAnd_bare A cs]
theorem prunedOr_bare (A : List Str) : ∀ (cs : List PolicyValue) (acc : List (Str × Str)),
    prunedOr A (PolicyValue.bareL cs) acc = prunedOr A cs acc
  | [], acc => by simp [PolicyValue.bareL]
  | c :: cs, acc => by simp only [PolicyValue.bareL, prunedOr, calcPruned_bare A c, prunedOr_bare A cs]
end

section
variable {F : Type} [Field F] [DecidableEq F]

mutual
theorem genSharesPolicy_bare : ∀ (v : PolicyValue) (x : F) (t : Option PolicyType) (ω : ℕ → F),
    genSharesPolicy v.bare x t ω = genSharesPolicy v x t ω
  | .str n c, x, t, ω => by simp [PolicyValue.bare]
  | .array cs, x, t, ω => by
    simp only [PolicyValue.bare, genSharesPolicy, PolicyValue.bareL_length, genSharesChildren_bare cs]
  | .object .and v, x, t, ω => by simp only [PolicyValue.bare, genSharesPolicy, genSharesPolicy_bare v]
  | .object .or v, x, t, ω => by simp only [PolicyValue.bare, genSharesPolicy, genSharesPolicy_bare v]
  | .object .leaf (.str n c), x, t, ω => by simp only [PolicyValue.bare, genSharesPolicy]
  | .object .leaf (.array cs), x, t, ω => by simp only [PolicyValue.bare]
  | .object .leaf (.object ty v), x, t, ω => by simp only [PolicyValue.bare]
theorem genSharesChildren_bare : ∀ (cs : List PolicyValue) (sh : List F) (i : ℕ) (acc : List (Str × F)) (ω : ℕ → F),
    genSharesChildren (PolicyValue.bareL cs) sh i acc ω = genSharesChildren cs sh i acc ω
  | [], sh, i, acc, ω => by simp [PolicyValue.bareL]
  | c :: cs, sh, i, acc, ω => by
    simp only [PolicyValue.bareL, genSharesChildren, genSharesPolicy_bare c, genSharesChildren_bare cs]
end

mutual
theorem calcCoefficients_bare : ∀ (v : PolicyValue) (x : Option F) (acc : List (Str × F)) (t : Option PolicyType),
    calcCoefficients v.bare x acc t = calcCoefficients v x acc t
  | .str n c, x, acc, t => by simp [PolicyValue.bare]
  | .array cs, x, acc, t => by
    simp only [PolicyValue.bare, calcCoefficients, PolicyValue.bareL_length, calcCoeffAnd_bare cs, calcCoeffOr_bare cs]
  | .object .and v, x, acc, t => by simp only [PolicyValue.bare, calcCoefficients, calcCoefficients_bare v]
  | .object .or v, x, acc, t => by simp only [PolicyValue.bare, calcCoefficients, calcCoefficients_bare v]
  | .object .leaf (.str n c), x, acc, t => by simp only [PolicyValue.bare, calcCoefficients, getValue]
  | .object .leaf (.array cs), x, acc, t => by simp only [PolicyValue.bare]
  | .object .leaf (.object ty v), x, acc, t => by simp only [PolicyValue.bare]
theorem calcCoeffAnd_bare : ∀ (cs : List PolicyValue) (ks : List F) (i : ℕ) (x : Option F) (acc : List (Str × F)),
    calcCoeffAnd (PolicyValue.bareL cs) ks i x acc = calcCoeffAnd cs ks i x acc
  | [], ks, i, x, acc => by simp [PolicyValue.bareL]
  | c :: cs, ks, i, x, acc => by
    simp only [PolicyValue.bareL, calcCoeffAnd, calcCoefficients_bare c, calcCoeffAnd_bare cs]
theorem calcCoeffOr_bare : ∀ (cs : List PolicyValue) (ks : List F) (x : Option F) (acc : List (Str × F)),
    calcCoeffOr (PolicyValue.bareL cs) ks x acc = calcCoeffOr cs ks x acc
  | [], ks, x, acc => by simp [PolicyValue.bareL]
  | c :: cs, ks, x, acc => by
    simp only [PolicyValue.bareL, calcCoeffOr, calcCoefficients_bare c, calcCoeffOr_bare cs]
end
end

mutual
theorem lw_bare : ∀ (v : PolicyValue) (msp : AbePolicy) (x : List ℤ) (t : Option PolicyType),
    lw v.bare msp x t = lw v msp x t
  | .str n c, msp, x, t => by simp [PolicyValue.bare]
  | .array cs, msp, x, t => by
    simp only [PolicyValue.bare, lw, PolicyValue.bareL_length, lwAnd_bare cs, lwOr_bare cs]
  | .object .and v, msp, x, t => by simp only [PolicyValue.bare, lw, lw_bare v]
  | .object .or v, msp, x, t => by simp only [PolicyValue.bare, lw, lw_bare v]
  | .object .leaf (.str n c), msp, x, t => by simp only [PolicyValue.bare, lw]
  | .object .leaf (.array cs), msp, x, t => by simp only [PolicyValue.bare]
  | .object .leaf (.object ty v), msp, x, t => by simp only [PolicyValue.bare]
theorem lwOr_bare : ∀ (cs : List PolicyValue) (msp : AbePolicy) (x : List ℤ) (r : Bool),
    lwOr (PolicyValue.bareL cs) msp x r = lwOr cs msp x r
  | [], msp, x, r => by simp [PolicyValue.bareL]
  | c :: cs, msp, x, r => by simp only [PolicyValue.bareL, lwOr, lw_bare c, lwOr_bare cs]
theorem lwAnd_bare : ∀ (cs : List PolicyValue) (msp : AbePolicy) (xs : List (List ℤ)),
    lwAnd (PolicyValue.bareL cs) msp xs = lwAnd cs msp xs
  | [], msp, xs => by simp [PolicyValue.bareL]
  | c :: cs, msp, [] => by simp only [PolicyValue.bareL, lwAnd]
  | c :: cs, msp, x :: xs => by simp only [PolicyValue.bareL, lwAnd, lw_bare c, lwAnd_bare cs]
end

mutual
theorem serializeJson_bare : ∀ v : PolicyValue, serializeJson v.bare = serializeJson v
  | .str n c => by simp [PolicyValue.bare]
  | .array cs => by simp only [PolicyValue.bare, serializeJson, serializeJsonL_bare cs]
  | .object .and v => by simp only [PolicyValue.bare, serializeJson, serializeJson_bare v]
  | .object .or v => by simp only [PolicyValue.bare, serializeJson, serializeJson_bare v]
  | .object .leaf (.str n c) => by simp only [PolicyValue.bare, serializeJson]
  | .object .leaf (.array cs) => by simp only [PolicyValue.bare]
  | .object .leaf (.object ty v) => by simp only [PolicyValue.bare]
theorem serializeJsonL_bare : ∀ cs : List PolicyValue, serializeJsonL (PolicyValue.bareL cs) = serializeJsonL cs
  | [] => by simp [PolicyValue.bareL]
  | c :: cs => by simp only [PolicyValue.bareL, serializeJsonL, serializeJson_bare c, serializeJsonL_bare cs]
end

mutual
theorem serializeHuman_bare : ∀ (v : PolicyValue) (t : Option PolicyType), serializeHuman v.bare t = serializeHuman v t
  | .str n c, t => by simp [PolicyValue.bare]
  | .array cs, t => by simp only [PolicyValue.bare, serializeHuman, serializeHumanL_bare cs]
  | .object .and v, t => by simp only [PolicyValue.bare, serializeHuman, serializeHuman_bare v]
  | .object .or v, t => by simp only [PolicyValue.bare, serializeHuman, serializeHuman_bare v]
  | .object .leaf (.str n c), t => by simp only [PolicyValue.bare, serializeHuman]
  | .object .leaf (.array cs), t => by simp only [PolicyValue.bare]
  | .object .leaf (.object ty v), t => by simp only [PolicyValue.bare]
theorem serializeHumanL_bare : ∀ cs : List PolicyValue, serializeHumanL (PolicyValue.bareL cs) = serializeHumanL cs
  | [] => by simp [PolicyValue.bareL]
  | c :: cs => by simp only [PolicyValue.bareL, serializeHumanL, serializeHuman_bare c, serializeHumanL_bare cs]
end

/-- **C78** for secret sharing, pruning, coefficients, the span program, the normal form check and both
serialisations: leaf objects mean the same as bare leaves, in every policy value and call. Missing: `traverse_policy`
and the conversion to normal form, which treat them differently (`C78_violated_traverse`, `C78_violated_dnf`). -/
theorem C78_leaf_objects_partial {F : Type} [Field F] [DecidableEq F] (v : PolicyValue) :
    (∀ A t, calcPruned A v t = calcPruned A v.bare t) ∧
    (∀ (x : F) t ω, genSharesPolicy v x t ω = genSharesPolicy v.bare x t ω) ∧
    (∀ (x : Option F) acc t, calcCoefficients v x acc t = calcCoefficients v.bare x acc t) ∧
    calculateMsp v = calculateMsp v.bare ∧
    (∀ b t, policyInDnf v b t = policyInDnf v.bare b t) ∧
    serializeJson v = serializeJson v.bare ∧ (∀ t, serializeHuman v t = serializeHuman v.bare t) := by
  refine ⟨fun A t => (calcPruned_bare A v t).symm, fun x t ω => (genSharesPolicy_bare v x t ω).symm,
    fun x acc t => (calcCoefficients_bare v x acc t).symm, ?_, fun b t => (policyInDnf_bare v b t).symm,
    (serializeJson_bare v).symm, fun t => (serializeHuman_bare v t).symm⟩
  simp only [calculateMsp, lw_bare]

/-- The policy `A and B` with a leaf object for `A`. -/
def leafObjectAnd : PolicyValue := .object .and (.array [.object .leaf (.str ['A'] 1), .str ['B'] 2])

/-- The policy `A or B` with a leaf object for `A`. -/
def leafObjectOr : PolicyValue := .object .or (.array [.object .leaf (.str ['A'] 1), .str ['B'] 2])

example : leafObjectAnd.bare = .object .and (.array [.str ['A'] 1, .str ['B'] 2]) ∧
    calcPruned [['B'], ['A']] leafObjectAnd none = .ok (true, [(['A'], ['A', '_', '1']), (['B'], ['B', '_', '2'])]) :=
  ⟨by simp [leafObjectAnd, PolicyValue.bare, PolicyValue.bareL], by
    simp [leafObjectAnd, calcPruned, prunedAnd, contains, Res.unwrap, nodeIndex, natStr, Nat.toDigits, Nat.toDigitsCore, Nat.digitChar]⟩

/-- **C78 is violated** by `traverse_policy`: a leaf object is satisfied by everybody with some attribute, although
the pruning, which is used to decrypt, does not find the attribute. -/
theorem C78_violated_traverse (n : Str) (c : ℕ) (a : Str) (t : PolicyType) (ha : a ≠ n) :
    traversePolicy [a] (.object .leaf (.str n c)) t = true ∧
    traversePolicy [a] (PolicyValue.object .leaf (.str n c)).bare t = false ∧
    calcPruned [a] (.object .leaf (.str n c)) none = .ok (false, []) := by
  refine ⟨by simp [traversePolicy], by simp [PolicyValue.bare, traversePolicy, ha], ?_⟩
  simp [calcPruned, contains, ha]

/-- **C78 is violated** by the conversion to normal form: `A or B` with a leaf object for `A` is refused, for all
keys, and without the object it is accepted; the check accepts both. -/
theorem C78_violated_dnf {G1 G2 Gt : Type} [AddCommGroup G1] [AddCommGroup G2] [AddCommGroup Gt]
    (pks : List (PubAttr G1 G2 Gt)) :
    jsonToDnf leafObjectOr pks = .err ∧ (∃ terms, jsonToDnf leafObjectOr.bare pks = .ok terms) ∧
    policyInDnf leafObjectOr false none = true := by
  refine ⟨?_, ?_, by decide⟩
  · simp [jsonToDnf, leafObjectOr, dnf, dnfOr]
  · simp [jsonToDnf, leafObjectOr, dnf, dnfOr, PolicyValue.bare, PolicyValue.bareL]

mutual
theorem traversePolicy_bare (A : List Str) : ∀ (v : PolicyValue) (t : PolicyType),
    traversePolicy A v.bare t = true → traversePolicy A v t = true
  | .str n c, t => by simp [PolicyValue.bare]
  | .array cs, t => by
    simp only [PolicyValue.bare, traversePolicy, Bool.and_eq_true, and_imp]
    intro h0 h
    refine ⟨h0, ?_⟩
    cases t with
    | and => exact traverseAnd_bare A cs true true (fun h => h) h
    | or => exact traverseOr_bare A cs false false (fun h => h) h
    | leaf => exact h
  | .object .and v, t => by
    simp only [PolicyValue.bare, traversePolicy, Bool.and_eq_true, and_imp]
    exact fun h0 h => ⟨h0, traversePolicy_bare A v _ h⟩
  | .object .or v, t => by
    simp only [PolicyValue.bare, traversePolicy, Bool.and_eq_true, and_imp]
    exact fun h0 h => ⟨h0, traversePolicy_bare A v _ h⟩
  | .object .leaf (.str n c), t => by
    simp only [PolicyValue.bare, traversePolicy, Bool.and_eq_true, and_imp]
    exact fun h0 _ => ⟨h0, trivial⟩
  | .object .leaf (.array cs), t => by simp only [PolicyValue.bare, imp_self]
  | .object .leaf (.object ty v), t => by simp only [PolicyValue.bare, imp_self]
theorem traverseAnd_bare (A : List Str) : ∀ (cs : List PolicyValue) (r r' : Bool), (r = true → r' = true) →
    traverseAnd A (PolicyValue.bareL cs) r = true → traverseAnd A cs r' = true
  | [], r, r', hr => by simpa [PolicyValue.bareL, traverseAnd] using hr
  | c :: cs, r, r', hr => by
    simp only [PolicyValue.bareL, traverseAnd]
    refine traverseAnd_bare A cs _ _ ?_
    simp only [Bool.and_eq_true, and_imp]
    exact fun h1 h2 => ⟨hr h1, traversePolicy_bare A c _ h2⟩
theorem traverseOr_bare (A : List Str) : ∀ (cs : List PolicyValue) (r r' : Bool), (r = true → r' = true) →
    traverseOr A (PolicyValue.bareL cs) r = true → traverseOr A cs r' = true
  | [], r, r', hr => by simpa [PolicyValue.bareL, traverseOr] using hr
  | c :: cs, r, r', hr => by
    simp only [PolicyValue.bareL, traverseOr]
    refine traverseOr_bare A cs _ _ ?_
    simp only [Bool.or_eq_true]
    exact fun h => h.imp hr (traversePolicy_bare A c _)
end

/-- **C78** for `traverse_policy`: who satisfies the policy with bare leaves satisfies the one with leaf objects.
Missing: the converse, which is false (`C78_violated_traverse`). -/
theorem C78_traverse_partial (A : List Str) (v : PolicyValue) (t : PolicyType) (h : traversePolicy A v.bare t = true) :
    traversePolicy A v t = true := traversePolicy_bare A v t h

example : traversePolicy [['A'], ['B']] leafObjectAnd.bare .leaf = true ∧
    traversePolicy [['A'], ['B']] leafObjectAnd .leaf = true := by
  have h : traversePolicy [['A'], ['B']] leafObjectAnd.bare .leaf = true := by
    simp [leafObjectAnd, PolicyValue.bare, PolicyValue.bareL, traversePolicy, traverseAnd]
  exact ⟨h, C78_traverse_partial _ _ _ h⟩

section
variable {G1 G2 Gt : Type} [AddCommGroup G1] [AddCommGroup G2] [AddCommGroup Gt]

theorem dnfAnd_stopped (pks : List (PubAttr G1 G2 Gt)) (cs : List PolicyValue) (ts : List (DnfTerm G1 G2 Gt)) (i : ℕ) :
    dnfAnd pks cs ts i false = (ts, false) := by
  induction cs with
  | nil => simp [dnfAnd]
  | cons c cs ih => simpa [dnfAnd] using ih

theorem dnfOr_stopped (pks : List (PubAttr G1 G2 Gt)) (cs : List PolicyValue) (ts : List (DnfTerm G1 G2 Gt)) (i : ℕ) :
    dnfOr pks cs ts i false = (ts, false) := by
  induction cs generalizing i with
  | nil => simp [dnfOr]
  | cons c cs ih => simpa [dnfOr] using ih (i + 1)

mutual
theorem dnf_bare (pks : List (PubAttr G1 G2 Gt)) : ∀ (v : PolicyValue) (ts : List (DnfTerm G1 G2 Gt)) (i : ℕ)
    (t : Option PolicyType), (dnf pks v ts i t).2 = true → dnf pks v.bare ts i t = dnf pks v ts i t
  | .str n c, ts, i, t => by simp [PolicyValue.bare]
  | .array cs, ts, i, t => by
    match t with
    | some .and =>
      simp only [PolicyValue.bare, dnf]
      exact dnfAnd_bare pks cs ts i true
    | some .or =>
      simp only [PolicyValue.bare, dnf]
      exact dnfOr_bare pks cs ts 0 true
    | some .leaf => simp [PolicyValue.bare, dnf]
    | none => simp [PolicyValue.bare, dnf]
  | .object .and v, ts, i, t => by
    match t with
    | some .and => simp [PolicyValue.bare, dnf]
    | some .or =>
      simp only [PolicyValue.bare, dnf]
      exact dnf_bare pks v ts i _
    | some .leaf =>
      simp only [PolicyValue.bare, dnf]
      exact dnf_bare pks v ts i _
    | none =>
      simp only [PolicyValue.bare, dnf]
      exact dnf_bare pks v ts i _
  | .object .or v, ts, i, t => by
    match t with
    | some .and => simp [PolicyValue.bare, dnf]
    | some .or => simp [PolicyValue.bare, dnf]
    | some .leaf =>
      simp only [PolicyValue.bare, dnf]
      exact dnf_bare pks v ts i _
    | none =>
      simp only [PolicyValue.bare, dnf]
      exact dnf_bare pks v ts i _
  | .object .leaf (.str n c), ts, i, t => by
    match t with
    | some .and => simp [PolicyValue.bare, dnf]
    | some .or => simp [PolicyValue.bare, dnf]
    | some .leaf => simp [PolicyValue.bare, dnf]
    | none => simp [PolicyValue.bare, dnf]
  | .object .leaf (.array cs), ts, i, t => by simp only [PolicyValue.bare, implies_true]
  | .object .leaf (.object ty v), ts, i, t => by simp only [PolicyValue.bare, implies_true]
theorem dnfAnd_bare (pks : List (PubAttr G1 G2 Gt)) : ∀ (cs : List PolicyValue) (ts : List (DnfTerm G1 G2 Gt)) (i : ℕ)
    (r : Bool), (dnfAnd pks cs ts i r).2 = true → dnfAnd pks (PolicyValue.bareL cs) ts i r = dnfAnd pks cs ts i r
  | [], ts, i, r => by simp [PolicyValue.bareL]
  | c :: cs, ts, i, false => by simp [dnfAnd_stopped]
  | c :: cs, ts, i, true => by
    simp only [PolicyValue.bareL, dnfAnd, if_true]
    intro h
    have hc : (dnf pks c ts i (some .and)).2 = true := by
      by_contra hf
      rw [Bool.not_eq_true] at hf
      rw [hf, dnfAnd_stopped] at h
      simp at h
    rw [dnf_bare pks c ts i _ hc]
    exact dnfAnd_bare pks cs _ i _ h
theorem dnfOr_bare (pks : List (PubAttr G1 G2 Gt)) : ∀ (cs : List PolicyValue) (ts : List (DnfTerm G1 G2 Gt)) (i : ℕ)
    (r : Bool), (dnfOr pks cs ts i r).2 = true → dnfOr pks (PolicyValue.bareL cs) ts i r = dnfOr pks cs ts i r
  | [], ts, i, r => by simp [PolicyValue.bareL]
  | c :: cs, ts, i, false => by simp [dnfOr_stopped]
  | c :: cs, ts, i, true => by
    simp only [PolicyValue.bareL, dnfOr, if_true]
    intro h
    have hc : (dnf pks c ts (i + i) (some .or)).2 = true := by
      by_contra hf
      rw [Bool.not_eq_true] at hf
      rw [hf, dnfOr_stopped] at h
      simp at h
    rw [dnf_bare pks c ts _ _ hc]
    exact dnfOr_bare pks cs _ _ _ h
end

/-- **C78** for the conversion to normal form: if it accepts a value with leaf objects, then it accepts the value
with bare leaves and returns the same terms. Missing: it refuses some (`C78_violated_dnf`). -/
theorem C78_dnf_partial (pks : List (PubAttr G1 G2 Gt)) (v : PolicyValue) (terms : List (DnfTerm G1 G2 Gt))
    (h : jsonToDnf v pks = .ok terms) : jsonToDnf v.bare pks = .ok terms := by
  simp only [jsonToDnf] at h ⊢
  by_cases hf : (dnf pks v [] 0 none).2 = true
  · rwa [dnf_bare pks v [] 0 none hf]
  · rw [if_neg hf] at h
    simp at h
end

/-- The conversion accepts `A and B` with a leaf object for `A`. -/
example : (∃ terms, jsonToDnf (G1 := Fr) (G2 := Fr) (Gt := Fr) leafObjectAnd [] = .ok terms) := by
  simp [jsonToDnf, leafObjectAnd, dnf, dnfAnd]

end Rabe
