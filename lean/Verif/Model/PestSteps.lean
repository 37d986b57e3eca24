import Verif.Model.Pest

/-!
# How often the parsers enter the rule `node`

`pest` does not remember results: when an alternative fails, the next one reads the same text again
(`/repo/src/human.policy.pest:12`, `/repo/src/json.policy.pest:24-28`). The functions here follow the parsers of
`Verif/Model/Pest.lean`, take the results of the sub-parsers from there and count the entries of the rule `node` on the
way, in whatever order and with whatever result. Between two entries of `node` only literals, strings, numbers and blanks
are read.
-/

namespace Rabe
namespace Pest

/-- Entries during `a | b` (e.g. `/repo/src/human.policy.pest:12`): `b` is only tried after `a` has failed. -/
def altSteps (a : P Pair) (ca cb : PS → ℕ) (s : PS) : ℕ :=
  ca s + match a s with
    | some _ => 0
    | none => cb s

/-- Entries during `x*` from the second repetition on, see `starTail` (`/repo/src/human.policy.pest:14,17`,
`/repo/src/json.policy.pest:34,38`): the attempt that fails counts as well. -/
def starTailSteps (x : P Pair) (cx : PS → ℕ) : ℕ → PS → ℕ
  | 0, _ => 0
  | fuel + 1, s => cx (skip s) + match x (skip s) with
      | none => 0
      | some (_, s') => starTailSteps x cx fuel s'

/-- Entries during `x*`, see `star` (`/repo/src/human.policy.pest:14,17`, `/repo/src/json.policy.pest:34,38`). -/
def starSteps (x : P Pair) (cx : PS → ℕ) (s : PS) : ℕ :=
  cx s + match x s with
    | none => 0
    | some (_, s') => starTailSteps x cx s'.rest.length s'

/-! ## Human grammar -/

/-- Entries during `open ~ node ~ close`, `/repo/src/human.policy.pest:19,21`. -/
def bracketedSteps (op : PS → Option PS) (c : PS → ℕ) (s : PS) : ℕ :=
  match op s with
  | none => 0
  | some s1 => c (skip s1)

/-- Entries during `value`, `/repo/src/human.policy.pest:21`. -/
def hValueSteps (c : PS → ℕ) : PS → ℕ :=
  altSteps string (fun _ => 0) (altSteps number (fun _ => 0) (bracketedSteps braceOpen c))

/-- Entries during `term`, `/repo/src/human.policy.pest:19`. -/
def hTermSteps (node : P Pair) (c : PS → ℕ) : PS → ℕ :=
  altSteps (hValue node) (hValueSteps c) (bracketedSteps (lit ['(']) c)

/-- Entries during `opinner ~ term`, `/repo/src/human.policy.pest:14,17`. -/
def hOpTermSteps (op : Op) (node : P Pair) (c : PS → ℕ) (s : PS) : ℕ :=
  match opInner op s with
  | none => 0
  | some s1 => hTermSteps node c (skip s1)

/-- Entries during `term ~ (opinner ~ term)+`, `/repo/src/human.policy.pest:13-18`. -/
def hGateSteps (op : Op) (node : P Pair) (c : PS → ℕ) (s : PS) : ℕ :=
  hTermSteps node c s + match hTerm node s with
    | none => 0
    | some (_, s1) => hOpTermSteps op node c (skip s1) + match hOpTerm op node (skip s1) with
        | none => 0
        | some (_, s2) => starSteps (hOpTerm op node) (hOpTermSteps op node c) (skip s2)

/-- Entries during `node` including this one, `/repo/src/human.policy.pest:12`. -/
def hNodeSteps : ℕ → PS → ℕ
  | 0, _ => 1
  | fuel + 1, s => 1 +
      altSteps (hGate .and (hNode fuel)) (hGateSteps .and (hNode fuel) (hNodeSteps fuel))
        (altSteps (hGate .or (hNode fuel)) (hGateSteps .or (hNode fuel) (hNodeSteps fuel))
          (hTermSteps (hNode fuel) (hNodeSteps fuel))) s

/-! ## JSON grammar -/

/-- Entries during `"," ~ node`, `/repo/src/json.policy.pest:34,38`. -/
def jCommaNodeSteps (c : PS → ℕ) (s : PS) : ℕ :=
  match lit [','] s with
  | none => 0
  | some s1 => c (skip s1)

/-- Entries during `and`/`or`, `/repo/src/json.policy.pest:32-39`; the first alternative contains no `node`. -/
def jGateSteps (op : Op) (node : P Pair) (c : PS → ℕ) (s : PS) : ℕ :=
  match jGateHead op s with
  | none => 0
  | some s1 => match lit [']'] (skip s1) with
      | some _ => 0
      | none => c (skip s1) + match node (skip s1) with
          | none => 0
          | some (_, s2) => starSteps (jCommaNode node) (jCommaNodeSteps c) (skip s2)

/-- Entries during `"{" ~ NAME ~ ":" ~ x ~ "}"`, `/repo/src/json.policy.pest:25-27`. -/
def jObjectSteps (cx : PS → ℕ) (s : PS) : ℕ :=
  match lit ['{'] s with
  | none => 0
  | some s1 => match jName (skip s1) with
      | none => 0
      | some s2 => match lit [':'] (skip s2) with
          | none => 0
          | some s3 => cx (skip s3)

/-- Entries during `node` including this one, `/repo/src/json.policy.pest:24-28`. -/
def jNodeSteps : ℕ → PS → ℕ
  | 0, _ => 1
  | fuel + 1, s => 1 +
      altSteps (jObject jValue) (jObjectSteps fun _ => 0)
        (altSteps (jObject (jGate .and (jNode fuel))) (jObjectSteps (jGateSteps .and (jNode fuel) (jNodeSteps fuel)))
          (jObjectSteps (jGateSteps .or (jNode fuel) (jNodeSteps fuel)))) s

end Pest

/-- Entries of the rule `node` during `parse`, `/repo/src/utils/policy/pest/mod.rs:40-66`. -/
def parseSteps (policy : Str) (language : PolicyLanguage) : ℕ :=
  match language with
  | .human => Pest.hNodeSteps (policy.length + 1) (Pest.skip ⟨1, policy⟩)
  | .json => Pest.jNodeSteps (policy.length + 1) (Pest.skip ⟨1, policy⟩)

end Rabe
