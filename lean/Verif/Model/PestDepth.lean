import Verif.Model.Pest

/-!
# How deeply the parsers nest

`pest` generates one Rust function per rule; a rule that mentions itself calls itself, without a limit
(`/repo/src/utils/policy/pest/mod.rs:47,57` sets none). The functions here follow the parsers of `Verif/Model/Pest.lean`, take
the results of the sub-parsers from there and give the largest number of calls of the rule `node` that are unfinished at
the same time. Between two nested calls of `node` there is a fixed number of other calls (`/repo/src/human.policy.pest:12-21`,
`/repo/src/json.policy.pest:24-39`). Simplification: this number is not counted, and no size of a call is assumed.
-/

namespace Rabe
namespace Pest

/-- Nesting during `a | b` (e.g. `/repo/src/human.policy.pest:12`): `b` is only tried after `a` has failed. -/
def altDepth (a : P Pair) (ca cb : PS → ℕ) (s : PS) : ℕ :=
  max (ca s) (match a s with
    | some _ => 0
    | none => cb s)

/-- Nesting during `x*` from the second repetition on, see `starTail` (`/repo/src/human.policy.pest:14,17`,
`/repo/src/json.policy.pest:34,38`). -/
def starTailDepth (x : P Pair) (cx : PS → ℕ) : ℕ → PS → ℕ
  | 0, _ => 0
  | fuel + 1, s => max (cx (skip s)) (match x (skip s) with
      | none => 0
      | some (_, s') => starTailDepth x cx fuel s')

/-- Nesting during `x*`, see `star` (`/repo/src/human.policy.pest:14,17`, `/repo/src/json.policy.pest:34,38`). -/
def starDepth (x : P Pair) (cx : PS → ℕ) (s : PS) : ℕ :=
  max (cx s) (match x s with
    | none => 0
    | some (_, s') => starTailDepth x cx s'.rest.length s')

/-! ## Human grammar -/

/-- Nesting during `open ~ node ~ close`, `/repo/src/human.policy.pest:19,21`. -/
def bracketedDepth (op : PS → Option PS) (c : PS → ℕ) (s : PS) : ℕ :=
  match op s with
  | none => 0
  | some s1 => c (skip s1)

/-- Nesting during `value`, `/repo/src/human.policy.pest:21`. -/
def hValueDepth (c : PS → ℕ) : PS → ℕ :=
  altDepth string (fun _ => 0) (altDepth number (fun _ => 0) (bracketedDepth braceOpen c))

/-- Nesting during `term`, `/repo/src/human.policy.pest:19`. -/
def hTermDepth (node : P Pair) (c : PS → ℕ) : PS → ℕ :=
  altDepth (hValue node) (hValueDepth c) (bracketedDepth (lit ['(']) c)

/-- Nesting during `opinner ~ term`, `/repo/src/human.policy.pest:14,17`. -/
def hOpTermDepth (op : Op) (node : P Pair) (c : PS → ℕ) (s : PS) : ℕ :=
  match opInner op s with
  | none => 0
  | some s1 => hTermDepth node c (skip s1)

/-- Nesting during `term ~ (opinner ~ term)+`, `/repo/src/human.policy.pest:13-18`. -/
def hGateDepth (op : Op) (node : P Pair) (c : PS → ℕ) (s : PS) : ℕ :=
  max (hTermDepth node c s) (match hTerm node s with
    | none => 0
    | some (_, s1) => max (hOpTermDepth op node c (skip s1)) (match hOpTerm op node (skip s1) with
        | none => 0
        | some (_, s2) => starDepth (hOpTerm op node) (hOpTermDepth op node c) (skip s2)))

/-- Nesting during `node` including this call, `/repo/src/human.policy.pest:12`. -/
def hNodeDepth : ℕ → PS → ℕ
  | 0, _ => 1
  | fuel + 1, s => 1 +
      altDepth (hGate .and (hNode fuel)) (hGateDepth .and (hNode fuel) (hNodeDepth fuel))
        (altDepth (hGate .or (hNode fuel)) (hGateDepth .or (hNode fuel) (hNodeDepth fuel))
          (hTermDepth (hNode fuel) (hNodeDepth fuel))) s

/-! ## JSON grammar -/

/-- Nesting during `"," ~ node`, `/repo/src/json.policy.pest:34,38`. -/
def jCommaNodeDepth (c : PS → ℕ) (s : PS) : ℕ :=
  match lit [','] s with
  | none => 0
  | some s1 => c (skip s1)

/-- Nesting during `and`/`or`, `/repo/src/json.policy.pest:32-39`; the first alternative contains no `node`. -/
def jGateDepth (op : Op) (node : P Pair) (c : PS → ℕ) (s : PS) : ℕ :=
  match jGateHead op s with
  | none => 0
  | some s1 => match lit [']'] (skip s1) with
      | some _ => 0
      | none => max (c (skip s1)) (match node (skip s1) with
          | none => 0
          | some (_, s2) => starDepth (jCommaNode node) (jCommaNodeDepth c) (skip s2))

/-- Nesting during `"{" ~ NAME ~ ":" ~ x ~ "}"`, `/repo/src/json.policy.pest:25-27`. -/
def jObjectDepth (cx : PS → ℕ) (s : PS) : ℕ :=
  match lit ['{'] s with
  | none => 0
  | some s1 => match jName (skip s1) with
      | none => 0
      | some s2 => match lit [':'] (skip s2) with
          | none => 0
          | some s3 => cx (skip s3)

/-- Nesting during `node` including this call, `/repo/src/json.policy.pest:24-28`. -/
def jNodeDepth : ℕ → PS → ℕ
  | 0, _ => 1
  | fuel + 1, s => 1 +
      altDepth (jObject jValue) (jObjectDepth fun _ => 0)
        (altDepth (jObject (jGate .and (jNode fuel))) (jObjectDepth (jGateDepth .and (jNode fuel) (jNodeDepth fuel)))
          (jObjectDepth (jGateDepth .or (jNode fuel) (jNodeDepth fuel)))) s

mutual
/-- Nesting of the calls of `human::parse` and `json::parse`, `/repo/src/utils/policy/pest/human.rs:8-49`, `json.rs:8-48`:
one call for the token itself, and inside it one for each child, one after the other. -/
def Pair.convDepth : Pair → ℕ
  | .string _ _ => 1
  | .number => 1
  | .gate _ cs => 1 + Pair.convDepthL cs
/-- The loop over `pair.into_inner()`, `/repo/src/utils/policy/pest/human.rs:20-22,27-29`. -/
def Pair.convDepthL : List Pair → ℕ
  | [] => 0
  | c :: cs => max c.convDepth (Pair.convDepthL cs)
end

end Pest

/-- Largest number of unfinished calls of the rule `node` during `parse`, `/repo/src/utils/policy/pest/mod.rs:40-66`. -/
def parseDepth (policy : Str) (language : PolicyLanguage) : ℕ :=
  match language with
  | .human => Pest.hNodeDepth (policy.length + 1) (Pest.skip ⟨1, policy⟩)
  | .json => Pest.jNodeDepth (policy.length + 1) (Pest.skip ⟨1, policy⟩)

/-- Largest number of unfinished calls of `human::parse`/`json::parse` during `parse`,
`/repo/src/utils/policy/pest/mod.rs:48,58`; none for a refused text. -/
def convertDepth (policy : Str) (language : PolicyLanguage) : ℕ :=
  match Pest.content (Pest.nodeOf language policy.length) policy with
  | some pair => pair.convDepth
  | none => 0

end Rabe
