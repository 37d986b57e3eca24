import Verif.Spec.Grammar

/-!
# Specification: the tokens of a policy text

A text as a sequence of tokens with blanks (white space and comments) around them. The same tokens serve both policy
languages. Independent of the model of the parser and of the grammars.
-/

namespace Rabe

/-- Tokens: a bracket, colon or comma; a keyword without quotes; a text in quotes. Numbers are left out (a text with a number
is never accepted, `C02_human_panic_iff`, `C02_json_panic_exact`). -/
inductive Token where
  | sym (c : Char)
  | word (w : Str)
  | str (n : Str)
  deriving DecidableEq, Repr

/-- The keywords of both languages. -/
def keywords : List Str :=
  [chars% "and", chars% "AND", chars% "&&", chars% "or", chars% "OR", chars% "||",
    chars% "name", chars% "NAME", chars% "children", chars% "CHILDREN"]

/-- How a token is written. -/
def Token.text : Token → Str
  | .sym c => [c]
  | .word w => w
  | .str n => '"' :: (n ++ ['"'])

/-- The tokens considered. A text in quotes contains no `/*`: otherwise it could be the beginning of a quoted operator with a
comment, as in `"/*" or "*/and"` (see `C59_violated`). -/
def Token.Legal : Token → Prop
  | .sym c => c ∈ ['(', ')', '[', ']', '{', '}', ':', ',']
  | .word w => w ∈ keywords
  | .str n => Name n ∧ ¬ ['/', '*'] <:+: n

/-- The text consists of these tokens, each followed by blanks. -/
def Trail : List Token → Str → Prop
  | [], t => t = []
  | k :: ks, t => ∃ bl u, t = k.text ++ (bl ++ u) ∧ k.Legal ∧ Blank bl ∧ Trail ks u

/-- The text consists of these tokens, with blanks before, between and after them. -/
def Layout (ks : List Token) (t : Str) : Prop := ∃ bl u, t = bl ++ u ∧ Blank bl ∧ Trail ks u

mutual
/-- An access tree without the columns of its leaves. -/
def Pol.shape : Pol → Pol
  | .leaf n _ => .leaf n 0
  | .gate op cs => .gate op (Pol.shapeL cs)
/-- `Pol.shape` for all trees of a list. -/
def Pol.shapeL : List Pol → List Pol
  | [] => []
  | c :: cs => Pol.shape c :: Pol.shapeL cs
end

mutual
/-- The contents of a text without columns. -/
def Item.shape : Item → Item
  | .attr n _ => .attr n 0
  | .num => .num
  | .gate op cs => .gate op (Item.shapeL cs)
/-- `Item.shape` for all items of a list. -/
def Item.shapeL : List Item → List Item
  | [] => []
  | c :: cs => Item.shape c :: Item.shapeL cs
end

end Rabe
