import Verif.Model.Policy
import Verif.Model.Pest

/-!
# Disjunctive normal form

Model of `/repo/src/utils/policy/dnf.rs`.
-/

namespace Rabe

variable {G1 G2 Gt : Type} [AddCommGroup G1] [AddCommGroup G2] [AddCommGroup Gt]

/-- The view of a public attribute key given by the trait `PublicAttributeKey`,
`/repo/src/utils/policy/dnf.rs:50-67`. -/
structure PubAttr (G1 G2 Gt : Type) where
  attr : Str
  g1 : G1
  g2 : G2
  gt1 : Gt
  gt2 : Gt

/-- One entry of `DnfPolicy::terms`, `/repo/src/utils/policy/dnf.rs:13-15`. -/
structure DnfTerm (G1 G2 Gt : Type) where
  attrs : List Str
  gt1 : Gt
  gt2 : Gt
  g1 : G1
  g2 : G2

/-- Body of the loop over the public keys in the leaf arm, `/repo/src/utils/policy/dnf.rs:115-134`:
merge into term `i` if it exists, else append a new term. -/
def dnfLeafStep (name : Str) (i : ℕ) (terms : List (DnfTerm G1 G2 Gt)) (pak : PubAttr G1 G2 Gt) :
    List (DnfTerm G1 G2 Gt) :=
  if pak.attr = name then
    match terms[i]? with
    | some t => terms.set i
        { attrs := t.attrs ++ [pak.attr], gt1 := t.gt1 + pak.gt1, gt2 := t.gt2 + pak.gt2,
          g1 := t.g1 + pak.g1, g2 := t.g2 + pak.g2 }
    | none => terms ++ [{ attrs := [pak.attr], gt1 := pak.gt1, gt2 := pak.gt2, g1 := pak.g1, g2 := pak.g2 }]
  else terms

mutual
/-- `dnf`, `/repo/src/utils/policy/dnf.rs:103-174`: returns the updated terms and the success flag. -/
def dnf (pks : List (PubAttr G1 G2 Gt)) : PolicyValue → List (DnfTerm G1 G2 Gt) → ℕ →
    Option PolicyType → List (DnfTerm G1 G2 Gt) × Bool
  | .str n _, terms, i, _ => (pks.foldl (dnfLeafStep n i) terms, true)
  | .array cs, terms, i, parent => match parent with
      | some .and => dnfAnd pks cs terms i true
      | some .or => dnfOr pks cs terms 0 true
      | _ => (terms, false)
  | .object ty v, terms, i, parent => match parent with
      | none => dnf pks v terms i (some ty)
      | some .leaf => dnf pks v terms i (some .leaf)
      | some .or => match ty with
          | .and => dnf pks v terms i (some .and)
          | _ => (terms, false)
      | some .and => match ty with
          | .leaf => dnf pks v terms i (some .leaf)
          | _ => (terms, false)
/-- AND loop, `/repo/src/utils/policy/dnf.rs:141-144` (`ret = ret && dnf(…, i, And)`). -/
def dnfAnd (pks : List (PubAttr G1 G2 Gt)) : List PolicyValue → List (DnfTerm G1 G2 Gt) → ℕ →
    Bool → List (DnfTerm G1 G2 Gt) × Bool
  | [], terms, _, ret => (terms, ret)
  | c :: cs, terms, i, ret =>
      if ret then
        let r := dnf pks c terms i (some .and)
        dnfAnd pks cs r.1 i r.2
      else dnfAnd pks cs terms i false
/-- OR loop, `/repo/src/utils/policy/dnf.rs:147-150`: child number `i` writes to term `i + i`. -/
def dnfOr (pks : List (PubAttr G1 G2 Gt)) : List PolicyValue → List (DnfTerm G1 G2 Gt) → ℕ →
    Bool → List (DnfTerm G1 G2 Gt) × Bool
  | [], terms, _, ret => (terms, ret)
  | c :: cs, terms, i, ret =>
      if ret then
        let r := dnf pks c terms (i + i) (some .or)
        dnfOr pks cs r.1 (i + 1) r.2
      else dnfOr pks cs terms (i + 1) false
end

/-- Insertion used by `sortTerms`, `/repo/src/utils/policy/dnf.rs:183`. -/
def insertTerm (x : DnfTerm G1 G2 Gt) : List (DnfTerm G1 G2 Gt) → List (DnfTerm G1 G2 Gt)
  | [] => [x]
  | y :: ys => if x.attrs.length ≤ y.attrs.length then x :: y :: ys else y :: insertTerm x ys

/-- `terms.sort_by(|a, b| a.0.len().cmp(&b.0.len()))`, `/repo/src/utils/policy/dnf.rs:183` (stable; computed by
insertion sort). -/
def sortTerms : List (DnfTerm G1 G2 Gt) → List (DnfTerm G1 G2 Gt)
  | [] => []
  | x :: xs => insertTerm x (sortTerms xs)

/-- `json_to_dnf`, `/repo/src/utils/policy/dnf.rs:177-189`. -/
def jsonToDnf (v : PolicyValue) (pks : List (PubAttr G1 G2 Gt)) : Res (List (DnfTerm G1 G2 Gt)) :=
  let r := dnf pks v [] 0 none
  if r.2 then .ok (sortTerms r.1) else .err

/-- `DnfPolicy::from_string`, `/repo/src/utils/policy/dnf.rs:28-39`. -/
def DnfPolicy.fromString (policy : Str) (pks : List (PubAttr G1 G2 Gt)) (language : PolicyLanguage) :
    Res (List (DnfTerm G1 G2 Gt)) := do
  let pol ← parse policy language
  jsonToDnf pol pks

/-- `DnfPolicy::from_policy`, `/repo/src/utils/policy/dnf.rs:41-46`. -/
def DnfPolicy.fromPolicy (json : PolicyValue) (pks : List (PubAttr G1 G2 Gt)) : Res (List (DnfTerm G1 G2 Gt)) :=
  jsonToDnf json pks

mutual
/-- `policy_in_dnf`, `/repo/src/utils/policy/dnf.rs:191-231`. -/
def policyInDnf : PolicyValue → Bool → Option PolicyType → Bool
  | .object ty v, conj, _ => match ty with
      | .and => policyInDnf v true (some .and)
      | .or => policyInDnf v conj (some .or)
      | .leaf => policyInDnf v conj (some .leaf)
  | .str _ _, _, _ => true
  | .array cs, conj, parent => match parent with
      | some .and => policyInDnfL cs true .and true
      | some .or => if conj then false else policyInDnfL cs conj .or true
      | _ => false
/-- The loops `ret &= policy_in_dnf(…)`, `/repo/src/utils/policy/dnf.rs:209-211,218-220`. -/
def policyInDnfL : List PolicyValue → Bool → PolicyType → Bool → Bool
  | [], _, _, ret => ret
  | c :: cs, conj, ty, ret => policyInDnfL cs conj ty (ret && policyInDnf c conj (some ty))
end

end Rabe
