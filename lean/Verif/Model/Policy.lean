import Verif.Spec.Pol

/-!
# Policy values and small tools

Model of `/repo/src/utils/policy/pest/mod.rs` (data types, serialisation) and
`/repo/src/utils/tools/mod.rs`.
-/

namespace Rabe

/-- `enum PolicyType`, `/repo/src/utils/policy/pest/mod.rs:26-30`. -/
inductive PolicyType where
  | and
  | or
  | leaf
  deriving DecidableEq, Repr

/-- `enum PolicyLanguage`, `/repo/src/utils/policy/pest/mod.rs:18-23`. -/
inductive PolicyLanguage where
  | json
  | human
  deriving DecidableEq, Repr

/-- `enum PolicyValue`, `/repo/src/utils/policy/pest/mod.rs:33-37`. -/
inductive PolicyValue where
  | object (ty : PolicyType) (v : PolicyValue)
  | array (cs : List PolicyValue)
  | str (name : Str) (col : ℕ)
  deriving Repr

/-- `node_index`, `/repo/src/utils/secretsharing/mod.rs:74-76`. -/
def nodeIndex (name : Str) (col : ℕ) : Str := name ++ '_' :: natStr col

/-- `remove_index`, `/repo/src/utils/secretsharing/mod.rs:77-80`: the part before the first `_`. -/
def removeIndex (s : Str) : Str := s.takeWhile (· != '_')

/-- `get_value`, `/repo/src/utils/tools/mod.rs:63-68`. -/
def getValue : PolicyValue → Str
  | .str n c => nodeIndex n c
  | _ => []

/-- `contains`, `/repo/src/utils/tools/mod.rs:15-21`: the number of equal entries is at least one. -/
def contains (data : List Str) (value : Str) : Bool :=
  decide (1 ≤ (data.filter (· == value)).length)

/-- `is_subset`, `/repo/src/utils/tools/mod.rs:24-28` (inclusion of the two `HashSet`s). -/
def isSubset (subset attr : List Str) : Bool := subset.all fun x => decide (x ∈ attr)

/-- Number of bytes of the UTF-8 encoding of a character, needed for the byte slice in
`/repo/src/utils/tools/mod.rs:7`. -/
def utf8Len (c : Char) : ℕ :=
  if c.toNat < 0x80 then 1 else if c.toNat < 0x800 then 2 else if c.toNat < 0x10000 then 3 else 4

/-- `is_negative`, `/repo/src/utils/tools/mod.rs:6-9`. The slice `&attr[..1]` panics when the string is empty
(out of range) or when its first character needs more than one byte (not a char boundary). -/
def isNegative : Str → Res Bool
  | [] => .panic
  | c :: _ => if utf8Len c = 1 then .ok (c == '!') else .panic

mutual
/-- `traverse_policy`, `/repo/src/utils/tools/mod.rs:31-61`. -/
def traversePolicy (attr : List Str) : PolicyValue → PolicyType → Bool
  | .str name _, _ => decide (0 < attr.length) && attr.any (· == name)
  | .object ty v, _ => decide (0 < attr.length) && (match ty with
      | .and => traversePolicy attr v .and
      | .or => traversePolicy attr v .or
      | .leaf => true)
  | .array cs, ty => decide (0 < attr.length) && (match ty with
      | .and => traverseAnd attr cs true
      | .or => traverseOr attr cs false
      | .leaf => false)
/-- Loop of the AND arm, `/repo/src/utils/tools/mod.rs:44-48` (`ret &= …`). -/
def traverseAnd (attr : List Str) : List PolicyValue → Bool → Bool
  | [], ret => ret
  | c :: cs, ret => traverseAnd attr cs (ret && traversePolicy attr c .leaf)
/-- Loop of the OR arm, `/repo/src/utils/tools/mod.rs:51-55` (`ret |= …`). -/
def traverseOr (attr : List Str) : List PolicyValue → Bool → Bool
  | [], ret => ret
  | c :: cs, ret => traverseOr attr cs (ret || traversePolicy attr c .leaf)
end

/-- `contents.join(sep)`, used in `/repo/src/utils/policy/pest/mod.rs:86,103,104`. -/
def joinStr (sep : Str) : List Str → Str
  | [] => []
  | [x] => x
  | x :: y :: ys => x ++ sep ++ joinStr sep (y :: ys)

mutual
/-- `serialize_policy` with `PolicyLanguage::JsonPolicy`, `/repo/src/utils/policy/pest/mod.rs:75-90`. -/
def serializeJson : PolicyValue → Str
  | .object ty v => match ty with
      | .and => (chars% "{\"name\": \"and\", ") ++ serializeJson v ++ ['}']
      | .or => (chars% "{\"name\": \"or\", ") ++ serializeJson v ++ ['}']
      | .leaf => serializeJson v
  | .array cs => (chars% "\"children\": [") ++ joinStr (chars% ", ") (serializeJsonL cs) ++ [']']
  | .str n _ => (chars% "{\"name\": \"") ++ n ++ (chars% "\"}")
/-- `a.iter().map(…).collect()`, `/repo/src/utils/policy/pest/mod.rs:85`. -/
def serializeJsonL : List PolicyValue → List Str
  | [] => []
  | c :: cs => serializeJson c :: serializeJsonL cs
end

mutual
/-- `serialize_policy` with `PolicyLanguage::HumanPolicy`, `/repo/src/utils/policy/pest/mod.rs:91-110`.
An array without AND/OR parent panics (line 105). -/
def serializeHuman : PolicyValue → Option PolicyType → Res Str
  | .object ty v, _ => match ty with
      | .and => serializeHuman v (some .and)
      | .or => serializeHuman v (some .or)
      | .leaf => serializeHuman v (some .leaf)
  | .array cs, parent => do
      let contents ← serializeHumanL cs
      match parent with
      | some .and => .ok ('(' :: joinStr (chars% " and ") contents ++ [')'])
      | some .or => .ok ('(' :: joinStr (chars% " or ") contents ++ [')'])
      | _ => .panic
  | .str n _, _ => .ok n
/-- `a.iter().map(…).collect()`, `/repo/src/utils/policy/pest/mod.rs:101`. -/
def serializeHumanL : List PolicyValue → Res (List Str)
  | [] => .ok []
  | c :: cs => do
      let s ← serializeHuman c none
      let r ← serializeHumanL cs
      .ok (s :: r)
end

/-- The gate tag written by the parsers, `/repo/src/utils/policy/pest/human.rs:23,30`, `json.rs:23,30`. -/
def Op.toType : Op → PolicyType
  | .and => .and
  | .or => .or

mutual
/-- Access trees as policy values (shape produced by the parsers, `/repo/src/utils/policy/pest/human.rs:8-31`). -/
def Pol.toValue : Pol → PolicyValue
  | .leaf n c => .str n c
  | .gate op cs => .object op.toType (.array (Pol.toValueL cs))
/-- Lists of access trees as policy values (children of a gate, `/repo/src/utils/policy/pest/human.rs:23,30`). -/
def Pol.toValueL : List Pol → List PolicyValue
  | [] => []
  | c :: cs => Pol.toValue c :: Pol.toValueL cs
end

theorem Pol.toValueL_eq (cs : List Pol) : Pol.toValueL cs = cs.map Pol.toValue := by
  induction cs with
  | nil => rfl
  | cons c cs ih => simp [Pol.toValueL, ih]

@[simp] theorem Pol.toValue_leaf (n c) : (Pol.leaf n c).toValue = .str n c := by
  simp [Pol.toValue]
@[simp] theorem Pol.toValue_gate (op cs) :
    (Pol.gate op cs).toValue = .object op.toType (.array (cs.map Pol.toValue)) := by
  simp [Pol.toValue, Pol.toValueL_eq]

end Rabe
