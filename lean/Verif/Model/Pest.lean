import Verif.Model.Policy

/-!
# The two policy grammars and the parser

Model of `/repo/src/human.policy.pest`, `/repo/src/json.policy.pest`,
`/repo/src/utils/policy/pest/{mod,human,json}.rs`.

A pest grammar is a PEG: ordered choice commits to the first alternative that succeeds, repetition is greedy.
In non-atomic rules every `~` and every repetition step is preceded by an implicit
`WHITESPACE* ~ (COMMENT ~ WHITESPACE*)*`; atomic rules (`@`, `$`) have no implicit skipping and `@` rules
produce no inner tokens. Error positions are not modelled (only success or failure).
-/

namespace Rabe
namespace Pest

/-- Position in the input: column as returned by `Pair::line_col().1`
(`/repo/src/utils/policy/pest/human.rs:12`; characters since the last newline, plus one) and the remaining text. -/
structure PS where
  col : ℕ
  rest : Str
  deriving DecidableEq, Repr

/-- A PEG expression: fails (`none`) or succeeds with a result and a new position (pest `ParserState`, used in
`/repo/src/utils/policy/pest/mod.rs:47,57`). -/
abbrev P (α : Type) := PS → Option (α × PS)

/-- Column after reading `c` at column `col` (pest `line_col`, used in `/repo/src/utils/policy/pest/human.rs:12`). -/
def nextCol (col : ℕ) (c : Char) : ℕ := if c = '\n' then 1 else col + 1

/-- A string literal of the grammar (e.g. `/repo/src/human.policy.pest:6-11`). -/
def lit : Str → PS → Option PS
  | [], s => some s
  | c :: cs, ⟨col, d :: ds⟩ => if c = d then lit cs ⟨nextCol col d, ds⟩ else none
  | _ :: _, ⟨_, []⟩ => none

/-- Ordered choice `a | b` without results (e.g. `/repo/src/human.policy.pest:6`). -/
def orElse (a b : PS → Option PS) : PS → Option PS := fun s =>
  match a s with
  | some s' => some s'
  | none => b s

/-- `WHITESPACE`, `/repo/src/human.policy.pest:3`, `/repo/src/json.policy.pest:14`. -/
def isWs (c : Char) : Bool := c == ' ' || c == '\t' || c == '\r' || c == '\n'

/-- `WHITESPACE*`. `/repo/src/human.policy.pest:3`. -/
def wsStar : ℕ → Str → PS
  | col, c :: cs => if isWs c then wsStar (nextCol col c) cs else ⟨col, c :: cs⟩
  | col, [] => ⟨col, []⟩

/-- `(!"*/" ~ ANY)* ~ "*/"`, the tail of `COMMENT`, `/repo/src/human.policy.pest:4`. -/
def commentTail : ℕ → Str → Option PS
  | col, '*' :: '/' :: r => some ⟨nextCol (nextCol col '*') '/', r⟩
  | col, c :: r => commentTail (nextCol col c) r
  | _, [] => none

/-- `COMMENT`, `/repo/src/human.policy.pest:4`, `/repo/src/json.policy.pest:15` (pest runs it atomically). -/
def comment (s : PS) : Option PS :=
  match lit ['/', '*'] s with
  | some s' => commentTail s'.col s'.rest
  | none => none

/-- `(COMMENT ~ WHITESPACE*)*`, at most `fuel` comments (each comment consumes at least four characters).
`/repo/src/human.policy.pest:3-4`. -/
def commentsStar : ℕ → PS → PS
  | 0, s => s
  | fuel + 1, s => match comment s with
      | some s' => commentsStar fuel (wsStar s'.col s'.rest)
      | none => s

/-- The implicit skip of pest: `WHITESPACE* ~ (COMMENT ~ WHITESPACE*)*`. `/repo/src/human.policy.pest:3-4`. -/
def skip (s : PS) : PS :=
  let s' := wsStar s.col s.rest
  commentsStar s'.rest.length s'

/-- Escapes allowed after a backslash, `/repo/src/human.policy.pest:26`, `/repo/src/json.policy.pest:44`. -/
def isEscape (c : Char) : Bool :=
  c == '"' || c == '\\' || c == '/' || c == 'b' || c == 'f' || c == 'n' || c == 'r' || c == 't'

/-- `ASCII_HEX_DIGIT`, used in `/repo/src/human.policy.pest:27`. -/
def isHex (c : Char) : Bool :=
  ('0' ≤ c && c ≤ '9') || ('a' ≤ c && c ≤ 'f') || ('A' ≤ c && c ≤ 'F')

/-- `ASCII_DIGIT`, used in `/repo/src/human.policy.pest:31-33`. -/
def isDigit (c : Char) : Bool := '0' ≤ c && c ≤ '9'

/-- `char`, `/repo/src/human.policy.pest:24-28`, `/repo/src/json.policy.pest:42-46`: the characters of one `char`,
and the rest of the text. -/
def charP : Str → Option (Str × Str)
  | [] => none
  | '"' :: _ => none
  | '\\' :: e :: r =>
      if isEscape e then some (['\\', e], r)
      else if e = 'u' then match r with
        | a :: b :: c :: d :: r' =>
            if isHex a && isHex b && isHex c && isHex d then some (['\\', 'u', a, b, c, d], r') else none
        | _ => none
      else none
  | ['\\'] => none
  | c :: r => some ([c], r)

/-- Column after reading a text (pest `line_col`, `/repo/src/utils/policy/pest/human.rs:12`). -/
def colAfter : ℕ → Str → ℕ
  | col, [] => col
  | col, c :: cs => colAfter (nextCol col c) cs

/-- `inner = @{ char* }`, `/repo/src/human.policy.pest:23`, `/repo/src/json.policy.pest:41`: the longest sequence of
`char`s; at most `fuel` of them (each consumes a character). -/
def innerF : ℕ → Str → Str × Str
  | 0, s => ([], s)
  | fuel + 1, s => match charP s with
      | none => ([], s)
      | some (c, r) => let q := innerF fuel r; (c ++ q.1, q.2)

/-- `inner`, with enough fuel. `/repo/src/human.policy.pest:23`. -/
def inner (s : PS) : Str × PS :=
  let q := innerF s.rest.length s.rest
  (q.1, ⟨colAfter s.col q.1, q.2⟩)

/-- A pest token (`Pair`) as inspected by `/repo/src/utils/policy/pest/human.rs:8-49` and `json.rs:8-48`:
a `string` with its `inner` text and the column of `inner`; a `number` (atomic, no inner token); an `and`/`or` with
its children. -/
inductive Pair where
  | string (s : Str) (col : ℕ)
  | number
  | gate (op : Op) (cs : List Pair)
  deriving Repr

/-- `string = ${ "\"" ~ inner ~ "\"" }`, `/repo/src/human.policy.pest:22`, `/repo/src/json.policy.pest:40`. -/
def string : P Pair := fun s => do
  let s1 ← lit ['"'] s
  let q := inner s1
  let s2 ← lit ['"'] q.2
  pure (.string q.1 s1.col, s2)

/-- `ASCII_DIGIT*`, `/repo/src/human.policy.pest:31`. -/
def digitsStar : ℕ → Str → PS
  | col, c :: cs => if isDigit c then digitsStar (col + 1) cs else ⟨col, c :: cs⟩
  | col, [] => ⟨col, []⟩

/-- Optional literal `"-"?` and the like, `/repo/src/human.policy.pest:30`. -/
def optLit (cs : Str) (s : PS) : PS := (lit cs s).getD s

/-- `ASCII_DIGIT+`, `/repo/src/human.policy.pest:33`. -/
def digitsPlus (s : PS) : Option PS :=
  match s.rest with
  | c :: r => if isDigit c then some (digitsStar (s.col + 1) r) else none
  | [] => none

/-- `"0" | ASCII_NONZERO_DIGIT ~ ASCII_DIGIT*`, `/repo/src/human.policy.pest:31`. -/
def intPart (s : PS) : Option PS :=
  match lit ['0'] s with
  | some s' => some s'
  | none => match s.rest with
      | c :: r => if '1' ≤ c && c ≤ '9' then some (digitsStar (s.col + 1) r) else none
      | [] => none

/-- `("." ~ ASCII_DIGIT*)?`, `/repo/src/human.policy.pest:32`. -/
def fracPart (s : PS) : PS :=
  match lit ['.'] s with
  | some s' => digitsStar s'.col s'.rest
  | none => s

/-- `(^"e" ~ ("+" | "-")? ~ ASCII_DIGIT+)?`, `/repo/src/human.policy.pest:33`. -/
def expPart (s : PS) : PS :=
  match orElse (lit ['e']) (lit ['E']) s with
  | some s1 =>
      let s2 := (orElse (lit ['+']) (lit ['-']) s1).getD s1
      (digitsPlus s2).getD s
  | none => s

/-- `number`, `/repo/src/human.policy.pest:29-34`, `/repo/src/json.policy.pest:47-52` (atomic). -/
def number : P Pair := fun s => do
  let s1 ← intPart (optLit ['-'] s)
  pure (.number, expPart (fracPart s1))

/-- `andvalue`/`orvalue`, `/repo/src/human.policy.pest:6-7`, `/repo/src/json.policy.pest:19-20`. -/
def opValue : Op → PS → Option PS
  | .and => orElse (lit ['a', 'n', 'd']) (orElse (lit ['A', 'N', 'D']) (lit ['&', '&']))
  | .or => orElse (lit ['o', 'r']) (orElse (lit ['O', 'R']) (lit ['|', '|']))

/-- `QUOTE ~ x ~ QUOTE` (non-atomic, blanks allowed inside the quotes), `/repo/src/human.policy.pest:8-9`,
`/repo/src/json.policy.pest:16,18,21,22`. -/
def quoted (x : PS → Option PS) (s : PS) : Option PS := do
  let s1 ← lit ['"'] s
  let s2 ← x (skip s1)
  lit ['"'] (skip s2)

/-- `andinner`/`orinner`, `/repo/src/human.policy.pest:8-9`, `/repo/src/json.policy.pest:21-22`. -/
def opInner (op : Op) : PS → Option PS := orElse (opValue op) (quoted (opValue op))

/-- `x*` in a non-atomic rule: first `x`, then `(skip ~ x)*`; `fuel` bounds the number of repetitions (each consumes
a character). Used for `/repo/src/human.policy.pest:14,17`, `/repo/src/json.policy.pest:34,38`. -/
def starTail (x : P Pair) : ℕ → PS → List Pair × PS
  | 0, s => ([], s)
  | fuel + 1, s => match x (skip s) with
      | none => ([], s)
      | some (p, s') => let q := starTail x fuel s'; (p :: q.1, q.2)

/-- `x*` in a non-atomic rule (see `starTail`). `/repo/src/human.policy.pest:14,17`, `/repo/src/json.policy.pest:34,38`. -/
def star (x : P Pair) (s : PS) : List Pair × PS :=
  match x s with
  | none => ([], s)
  | some (p, s') => let q := starTail x s'.rest.length s'; (p :: q.1, q.2)

/-! ## Human grammar -/

/-- `BRACEOPEN`, `/repo/src/human.policy.pest:10`. -/
def braceOpen : PS → Option PS := orElse (lit ['(']) (orElse (lit ['[']) (lit ['{']))
/-- `BRACECLOSE`, `/repo/src/human.policy.pest:11`. -/
def braceClose : PS → Option PS := orElse (lit [')']) (orElse (lit [']']) (lit ['}']))

/-- `open ~ node ~ close`, `/repo/src/human.policy.pest:19,21`. -/
def bracketed (op cl : PS → Option PS) (node : P Pair) : P Pair := fun s => do
  let s1 ← op s
  let (p, s2) ← node (skip s1)
  let s3 ← cl (skip s2)
  pure (p, s3)

/-- Ordered choice with results (e.g. `/repo/src/human.policy.pest:12`). -/
def alt (a b : P Pair) : P Pair := fun s =>
  match a s with
  | some r => some r
  | none => b s

/-- `value`, `/repo/src/human.policy.pest:21`. -/
def hValue (node : P Pair) : P Pair :=
  alt string (alt number (bracketed braceOpen braceClose node))

/-- `term`, `/repo/src/human.policy.pest:19`. -/
def hTerm (node : P Pair) : P Pair :=
  alt (hValue node) (bracketed (lit ['(']) (lit [')']) node)

/-- `opinner ~ term`, `/repo/src/human.policy.pest:14,17`. -/
def hOpTerm (op : Op) (node : P Pair) : P Pair := fun s => do
  let s1 ← opInner op s
  hTerm node (skip s1)

/-- `term ~ (opinner ~ term)+`, `/repo/src/human.policy.pest:13-18` (`x+` is `x ~ x*`). -/
def hGate (op : Op) (node : P Pair) : P Pair := fun s => do
  let (t, s1) ← hTerm node s
  let (t2, s2) ← hOpTerm op node (skip s1)
  let q := star (hOpTerm op node) (skip s2)
  pure (.gate op (t :: t2 :: q.1), q.2)

/-- `node`, `/repo/src/human.policy.pest:12`; `fuel` bounds the nesting of brackets. -/
def hNode : ℕ → P Pair
  | 0 => fun _ => none
  | fuel + 1 => alt (hGate .and (hNode fuel)) (alt (hGate .or (hNode fuel)) (hTerm (hNode fuel)))

/-! ## JSON grammar -/

/-- `NAME`, `/repo/src/json.policy.pest:16`. -/
def jName : PS → Option PS :=
  orElse (lit ['n', 'a', 'm', 'e']) (orElse (lit ['N', 'A', 'M', 'E'])
    (orElse (quoted (lit ['n', 'a', 'm', 'e'])) (quoted (lit ['N', 'A', 'M', 'E']))))

/-- `CHILDREN`, `/repo/src/json.policy.pest:18`. -/
def jChildren : PS → Option PS :=
  orElse (lit ['c', 'h', 'i', 'l', 'd', 'r', 'e', 'n'])
    (orElse (lit ['C', 'H', 'I', 'L', 'D', 'R', 'E', 'N'])
      (orElse (quoted (lit ['c', 'h', 'i', 'l', 'd', 'r', 'e', 'n']))
        (quoted (lit ['C', 'H', 'I', 'L', 'D', 'R', 'E', 'N']))))

/-- `value`, `/repo/src/json.policy.pest:30`. -/
def jValue : P Pair := alt string number

/-- `opinner ~ "," ~ CHILDREN ~ ":" ~ "["`, the common prefix of `/repo/src/json.policy.pest:33-34,37-38`. -/
def jGateHead (op : Op) (s : PS) : Option PS := do
  let s1 ← opInner op s
  let s2 ← lit [','] (skip s1)
  let s3 ← jChildren (skip s2)
  let s4 ← lit [':'] (skip s3)
  lit ['['] (skip s4)

/-- `"," ~ node`, `/repo/src/json.policy.pest:34,38`. -/
def jCommaNode (node : P Pair) : P Pair := fun s => do
  let s1 ← lit [','] s
  node (skip s1)

/-- `and`/`or`, `/repo/src/json.policy.pest:32-39`. -/
def jGate (op : Op) (node : P Pair) : P Pair :=
  alt
    (fun s => do
      let s1 ← jGateHead op s
      let s2 ← lit [']'] (skip s1)
      pure (.gate op [], s2))
    (fun s => do
      let s1 ← jGateHead op s
      let (p, s2) ← node (skip s1)
      let q := star (jCommaNode node) (skip s2)
      let s3 ← lit [']'] (skip q.2)
      pure (.gate op (p :: q.1), s3))

/-- `"{" ~ NAME ~ ":" ~ x ~ "}"`, `/repo/src/json.policy.pest:25-27`. -/
def jObject (x : P Pair) : P Pair := fun s => do
  let s1 ← lit ['{'] s
  let s2 ← jName (skip s1)
  let s3 ← lit [':'] (skip s2)
  let (p, s4) ← x (skip s3)
  let s5 ← lit ['}'] (skip s4)
  pure (p, s5)

/-- `node`, `/repo/src/json.policy.pest:24-28`; `fuel` bounds the nesting. -/
def jNode : ℕ → P Pair
  | 0 => fun _ => none
  | fuel + 1 =>
      alt (jObject jValue) (alt (jObject (jGate .and (jNode fuel))) (jObject (jGate .or (jNode fuel))))

/-! ## Entry points -/

/-- `content = _{ SOI ~ node ~ EOI }`, `/repo/src/human.policy.pest:35`, `/repo/src/json.policy.pest:54`. -/
def content (node : P Pair) (text : Str) : Option Pair := do
  let (p, s) ← node (skip ⟨1, text⟩)
  match (skip s).rest with
  | [] => some p
  | _ :: _ => none

/-- `node` of the given language with fuel for a text of length `n` (each nesting level consumes a bracket).
`/repo/src/utils/policy/pest/mod.rs:47,57`. -/
def nodeOf : PolicyLanguage → ℕ → P Pair
  | .json, n => jNode (n + 1)
  | .human, n => hNode (n + 1)

mutual
/-- `human::parse`/`json::parse`, `/repo/src/utils/policy/pest/human.rs:8-49`, `json.rs:8-48`: a `number` token has
no inner token, so `into_inner().next().unwrap()` panics. -/
def toPolicy : Pair → Res PolicyValue
  | .string s c => .ok (.str s c)
  | .number => .panic
  | .gate op cs => do
      let vs ← toPolicyL cs
      .ok (.object op.toType (.array vs))
/-- The loop over `pair.into_inner()`, `/repo/src/utils/policy/pest/human.rs:20-22,27-29`. -/
def toPolicyL : List Pair → Res (List PolicyValue)
  | [] => .ok []
  | c :: cs => do
      let v ← toPolicy c
      let vs ← toPolicyL cs
      .ok (v :: vs)
end

end Pest

/-- `parse`, `/repo/src/utils/policy/pest/mod.rs:40-66`. -/
def parse (policy : Str) (language : PolicyLanguage) : Res PolicyValue :=
  match Pest.content (Pest.nodeOf language policy.length) policy with
  | some pair => Pest.toPolicy pair
  | none => .err

end Rabe
