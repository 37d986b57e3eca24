import Verif.Spec.Pol

/-!
# Specification: the two policy languages as grammars

Declarative (generative) description of the texts of the human and of the JSON policy language and of the tree each
text stands for. Independent of the model of the parser: no ordered choice, no look-ahead, no fuel.
-/

namespace Rabe

/-- Column of the character that follows the text `before`: one plus the number of characters since the last newline. -/
def column (before : Str) : ℕ := (before.reverse.takeWhile (· != '\n')).length + 1

/-- What a policy text describes: like `Pol`, but a number may stand where an attribute is expected. -/
inductive Item where
  | attr (name : Str) (pos : ℕ)
  | num
  | gate (op : Op) (children : List Item)
  deriving Repr

mutual
/-- An access tree as the contents of a text. -/
def Pol.item : Pol → Item
  | .leaf n c => .attr n c
  | .gate op cs => .gate op (Pol.itemL cs)
/-- `Pol.item` for all trees of a list. -/
def Pol.itemL : List Pol → List Item
  | [] => []
  | c :: cs => Pol.item c :: Pol.itemL cs
end

mutual
/-- A number occurs. -/
def Item.HasNum : Item → Prop
  | .attr _ _ => False
  | .num => True
  | .gate _ cs => Item.HasNumL cs
/-- A number occurs in one of the items. -/
def Item.HasNumL : List Item → Prop
  | [] => False
  | c :: cs => Item.HasNum c ∨ Item.HasNumL cs
end

/-- Blanks: any sequence of white space and comments `/* … */`. -/
inductive Blank : Str → Prop where
  | nil : Blank []
  | space (c : Char) (t : Str) : c ∈ [' ', '\t', '\r', '\n'] → Blank t → Blank (c :: t)
  | comment (body t : Str) : ¬ ['*', '/'] <:+: body → Blank t → Blank ('/' :: '*' :: (body ++ '*' :: '/' :: t))

/-- Hexadecimal digits. -/
def HexDigit (c : Char) : Prop := ('0' ≤ c ∧ c ≤ '9') ∨ ('a' ≤ c ∧ c ≤ 'f') ∨ ('A' ≤ c ∧ c ≤ 'F')

/-- Legal attribute names as written between the quotes: no quote and no backslash except in an escape sequence. -/
inductive Name : Str → Prop where
  | nil : Name []
  | plain (c : Char) (t : Str) : c ≠ '"' → c ≠ '\\' → Name t → Name (c :: t)
  | escape (c : Char) (t : Str) : c ∈ ['"', '\\', '/', 'b', 'f', 'n', 'r', 't'] → Name t → Name ('\\' :: c :: t)
  | unicode (a b c d : Char) (t : Str) : HexDigit a → HexDigit b → HexDigit c → HexDigit d → Name t →
      Name ('\\' :: 'u' :: a :: b :: c :: d :: t)

/-- A sequence of decimal digits. -/
def Digits (t : Str) : Prop := ∀ c ∈ t, '0' ≤ c ∧ c ≤ '9'

/-- Numbers: sign, integer part, fraction, exponent. -/
def Num (t : Str) : Prop := ∃ sign int frac exp, t = sign ++ (int ++ (frac ++ exp)) ∧
  (sign = [] ∨ sign = ['-']) ∧
  (int = ['0'] ∨ ∃ c ds, int = c :: ds ∧ '1' ≤ c ∧ c ≤ '9' ∧ Digits ds) ∧
  (frac = [] ∨ ∃ ds, frac = '.' :: ds ∧ Digits ds) ∧
  (exp = [] ∨ ∃ e s ds, exp = e :: (s ++ ds) ∧ (e = 'e' ∨ e = 'E') ∧ (s = [] ∨ s = ['+'] ∨ s = ['-']) ∧
    Digits ds ∧ ds ≠ [])

/-- A keyword, bare or in quotes (with blanks inside the quotes). -/
def Word (ws : List Str) (t : Str) : Prop :=
  t ∈ ws ∨ ∃ b w b', w ∈ ws ∧ Blank b ∧ Blank b' ∧ t = '"' :: (b ++ (w ++ (b' ++ ['"'])))

/-- The spellings of an operator. -/
def Op.spellings : Op → List Str
  | .and => [['a', 'n', 'd'], ['A', 'N', 'D'], ['&', '&']]
  | .or => [['o', 'r'], ['O', 'R'], ['|', '|']]

/-! ## The human language -/

/-- Syntactic categories of the human language. -/
inductive HKind where
  /-- an operand: a quoted attribute, a number, or a bracketed expression -/
  | term
  /-- an expression: an operand or operands joined by one operator -/
  | node
  /-- the part `op operand op operand …` following the first operand of a gate -/
  | tail (op : Op)

/-- `Human k before t is`: when it follows the text `before`, the text `t` is a phrase of category `k` with the
contents `is`. All operands of one level are joined by the same operator. -/
inductive Human : HKind → Str → Str → List Item → Prop where
  | attr (b n) : Name n → Human .term b ('"' :: (n ++ ['"'])) [.attr n (column (b ++ ['"']))]
  | num (b t) : Num t → Human .term b t [.num]
  | bracket (b o bl t bl' c i) : o ∈ ['(', '[', '{'] → c ∈ [')', ']', '}'] → Blank bl → Blank bl' →
      Human .node (b ++ o :: bl) t [i] → Human .term b (o :: (bl ++ (t ++ (bl' ++ [c])))) [i]
  | single (b t i) : Human .term b t [i] → Human .node b t [i]
  | gate (b t u op i j is) : Human .term b t [i] → Human (.tail op) (b ++ t) u (j :: is) →
      Human .node b (t ++ u) [.gate op (i :: j :: is)]
  | last (b op) : Human (.tail op) b [] []
  | next (b bl w bl' t u op i is) : Blank bl → Blank bl' → Word op.spellings w →
      Human .term (b ++ (bl ++ (w ++ bl'))) t [i] → Human (.tail op) (b ++ (bl ++ (w ++ (bl' ++ t)))) u is →
      Human (.tail op) b (bl ++ (w ++ (bl' ++ (t ++ u)))) (i :: is)

/-- The texts of the human language and their contents. -/
def HumanText (text : Str) (i : Item) : Prop :=
  ∃ bl t bl', text = bl ++ (t ++ bl') ∧ Blank bl ∧ Blank bl' ∧ Human .node bl t [i]

/-- `Mixed k before t`: the text `t` (following `before`) starts as a phrase of category `k` in which, on some level of
brackets, the operators AND and OR follow each other without brackets. What comes after the second operator is
arbitrary. -/
inductive Mixed : HKind → Str → Str → Prop where
  | here (b t u bl w r op op' i j is) : op ≠ op' → Human .term b t [i] → Human (.tail op) (b ++ t) u (j :: is) →
      Blank bl → Word op'.spellings w → Mixed .node b (t ++ (u ++ (bl ++ (w ++ r))))
  | bracket (b o bl r) : o ∈ ['(', '[', '{'] → Blank bl → Mixed .node (b ++ o :: bl) r → Mixed .term b (o :: (bl ++ r))
  | first (b r) : Mixed .term b r → Mixed .node b r
  | later (b t u bl w bl' r op i is) : Human .term b t [i] → Human (.tail op) (b ++ t) u is → Blank bl →
      Word op.spellings w → Blank bl' → Mixed .term (b ++ (t ++ (u ++ (bl ++ (w ++ bl'))))) r →
      Mixed .node b (t ++ (u ++ (bl ++ (w ++ (bl' ++ r)))))

/-! ## The JSON language -/

/-- The texts of some given tokens, each followed by blanks. -/
def Spaced : List (Str → Prop) → Str → Prop
  | [], t => t = []
  | p :: ps, t => ∃ x bl u, t = x ++ (bl ++ u) ∧ p x ∧ Blank bl ∧ Spaced ps u

/-- Syntactic categories of the JSON language. -/
inductive JKind where
  /-- an object describing an attribute or a gate -/
  | node
  /-- the contents of an array of children -/
  | list
  /-- the part `, node , node …` following the first child -/
  | tail

/-- The tokens `{ "name" :`. -/
def nameHead : List (Str → Prop) :=
  [(· = ['{']), Word [['n', 'a', 'm', 'e'], ['N', 'A', 'M', 'E']], (· = [':'])]

/-- The tokens `op , "children" : [`, where the operator is written in a way permitted by `R`. -/
def childrenHead (R : Str → Prop) (op : Op) : List (Str → Prop) :=
  [fun w => Word op.spellings w ∧ R w, (· = [',']),
    Word [['c', 'h', 'i', 'l', 'd', 'r', 'e', 'n'], ['C', 'H', 'I', 'L', 'D', 'R', 'E', 'N']],
    (· = [':']), (· = ['['])]

/-- `Json k before t is`: when it follows the text `before`, the text `t` is a phrase of category `k` with the
contents `is`. Operators are written in a way permitted by `R` (see `Plain`). -/
inductive Json (R : Str → Prop) : JKind → Str → Str → List Item → Prop where
  | attr (b h n bl) : Spaced nameHead h → Name n → Blank bl →
      Json R .node b (h ++ ('"' :: (n ++ '"' :: (bl ++ ['}'])))) [.attr n (column (b ++ (h ++ ['"'])))]
  | num (b h t bl) : Spaced nameHead h → Num t → Blank bl → Json R .node b (h ++ (t ++ (bl ++ ['}']))) [.num]
  | gate (b h k t bl op is) : Spaced nameHead h → Spaced (childrenHead R op) k → Blank bl →
      Json R .list (b ++ (h ++ k)) t is → Json R .node b (h ++ (k ++ (t ++ ']' :: (bl ++ ['}'])))) [.gate op is]
  | empty (b) : Json R .list b [] []
  | first (b t u i is) : Json R .node b t [i] → Json R .tail (b ++ t) u is → Json R .list b (t ++ u) (i :: is)
  | last (b bl) : Blank bl → Json R .tail b bl []
  | next (b bl bl' t u i is) : Blank bl → Blank bl' → Json R .node (b ++ (bl ++ ',' :: bl')) t [i] →
      Json R .tail (b ++ (bl ++ ',' :: (bl' ++ t))) u is → Json R .tail b (bl ++ ',' :: (bl' ++ (t ++ u))) (i :: is)

/-- Operators without a quote other than the two that may enclose them. (A quoted operator may contain comments; a
comment with a quote in it can make the text look like an attribute, `{"name": "/*"}…*/and", …`.) -/
def Plain (w : Str) : Prop := w.count '"' ≤ 2

/-- The texts of the JSON language, with the operators restricted by `R`, and their contents. -/
def JsonText (R : Str → Prop) (text : Str) (i : Item) : Prop :=
  ∃ bl t bl', text = bl ++ (t ++ bl') ∧ Blank bl ∧ Blank bl' ∧ Json R .node bl t [i]

end Rabe
