import Verif.Spec.Grammar

/-!
# Specification: policy texts of access trees
-/

namespace Rabe

namespace Pol

/-- All attribute names of the tree are legal. -/
def Legal (p : Pol) : Prop := ∀ n ∈ p.names, Name n

/-- The operator as a word. -/
def opName : Op → Str
  | .and => ['a', 'n', 'd']
  | .or => ['o', 'r']

mutual
/-- The fully parenthesised text of a tree in the human language, `q` giving the text of an attribute. -/
def humanWith (q : Str → Str) : Pol → Str
  | leaf n _ => q n
  | gate _ [] => ['(', ')']
  | gate op (c :: cs) => '(' :: (humanWith q c ++ (humanTail q op cs ++ [')']))
/-- The operands of a gate after the first one. -/
def humanTail (q : Str → Str) (op : Op) : List Pol → Str
  | [] => []
  | c :: cs => ' ' :: (opName op ++ ' ' :: (humanWith q c ++ humanTail q op cs))
end

/-- An attribute name in quotes. -/
def quote (n : Str) : Str := '"' :: (n ++ ['"'])

/-- The text of a tree in the human language. -/
def human (p : Pol) : Str := p.humanWith quote

mutual
/-- The text of a tree in the JSON language. -/
def json : Pol → Str
  | leaf n _ => (chars% "{\"name\": \"") ++ (n ++ (chars% "\"}"))
  | gate op cs => (chars% "{\"name\": \"") ++ (opName op ++ ((chars% "\", \"children\": [") ++ (jsonL cs ++ (chars% "]}"))))
/-- The texts of the children, separated by commas. -/
def jsonL : List Pol → Str
  | [] => []
  | c :: cs => json c ++ jsonTail cs
/-- The texts of the children after the first one. -/
def jsonTail : List Pol → Str
  | [] => []
  | c :: cs => ',' :: ' ' :: (json c ++ jsonTail cs)
end

mutual
/-- The tree with all attribute names changed by `f`. -/
def rename (f : Str → Str) : Pol → Pol
  | leaf n c => leaf (f n) c
  | gate op cs => gate op (renameL f cs)
/-- `rename` for all trees of a list. -/
def renameL (f : Str → Str) : List Pol → List Pol
  | [] => []
  | c :: cs => rename f c :: renameL f cs
end

end Pol

end Rabe
