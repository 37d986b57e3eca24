import Verif.Spec.Grammar

/-!
# Specification: the JSON language with a preference

Some texts of the JSON language (`Json`) can be read in two ways, as an attribute and as a gate, because comments are allowed
inside a quoted operator. Here an object is a gate only if it cannot be read as an attribute. Declarative like `Json`: no
parser, no fuel.
-/

namespace Rabe

/-- The text begins with an attribute and the brace that closes its object. -/
def BeginsAttr (u : Str) : Prop := ∃ n bl r, u = '"' :: (n ++ '"' :: (bl ++ '}' :: r)) ∧ Name n ∧ Blank bl

/-- `JsonFirst k before t after is`: between the texts `before` and `after`, the text `t` is a phrase of category `k` with the
contents `is`. As in `Json`, but an object is a gate only if its text does not begin with an attribute and a closing
brace. -/
inductive JsonFirst : JKind → Str → Str → Str → List Item → Prop where
  | attr (b h n bl r) : Spaced nameHead h → Name n → Blank bl →
      JsonFirst .node b (h ++ ('"' :: (n ++ '"' :: (bl ++ ['}'])))) r [.attr n (column (b ++ (h ++ ['"'])))]
  | num (b h t bl r) : Spaced nameHead h → Num t → Blank bl → JsonFirst .node b (h ++ (t ++ (bl ++ ['}']))) r [.num]
  | gate (b h k t bl r op is) : Spaced nameHead h → Spaced (childrenHead (fun _ => True) op) k → Blank bl →
      ¬ BeginsAttr (k ++ (t ++ ']' :: (bl ++ '}' :: r))) →
      JsonFirst .list (b ++ (h ++ k)) t (']' :: (bl ++ '}' :: r)) is →
      JsonFirst .node b (h ++ (k ++ (t ++ ']' :: (bl ++ ['}'])))) r [.gate op is]
  | empty (b r) : JsonFirst .list b [] r []
  | first (b t u r i is) : JsonFirst .node b t (u ++ r) [i] → JsonFirst .tail (b ++ t) u r is →
      JsonFirst .list b (t ++ u) r (i :: is)
  | last (b bl r) : Blank bl → JsonFirst .tail b bl r []
  | next (b bl bl' t u r i is) : Blank bl → Blank bl' → JsonFirst .node (b ++ (bl ++ ',' :: bl')) t (u ++ r) [i] →
      JsonFirst .tail (b ++ (bl ++ ',' :: (bl' ++ t))) u r is →
      JsonFirst .tail b (bl ++ ',' :: (bl' ++ (t ++ u))) r (i :: is)

/-- The texts of the JSON language with the preference, and their contents. -/
def JsonFirstText (text : Str) (i : Item) : Prop :=
  ∃ bl t bl', text = bl ++ (t ++ bl') ∧ Blank bl ∧ Blank bl' ∧ JsonFirst .node bl t bl' [i]

end Rabe
