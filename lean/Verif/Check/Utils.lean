import Verif.Model.Msp
import Verif.Model.MspDisplay
import Verif.Model.Dnf
import Verif.Model.Recover
import Verif.Model.Aes
import Verif.Instance.Bn

/-!
# The unit tests of the repository, run on the model: utilities

Each example is one `#[test]` of `/repo`, evaluated by the kernel. They check the transcription, they are not proofs of
properties.
-/

namespace Rabe.Check

/-- The text of most tests of the repository, e.g. `/repo/src/schemes/bsw/mod.rs:340`. -/
def danceText : Bytes :=
  (chars% "dance like no one's watching, encrypt like everyone is!").map fun c => UInt8.ofNat c.toNat

/-- Pairwise different values in place of the random numbers. -/
def testTape : Tape Fr Fr Fr Fr where
  fr n := (n * n + 7 * n + 5 : ℕ)
  g1 n := (n + 2 : ℕ)
  g2 n := (n + 3 : ℕ)
  gt n := (n + 11 : ℕ)
  byte n := UInt8.ofNat n

/-- `correctness_test1`, `/repo/src/utils/aes/mod.rs:60-69`. -/
example : ((encryptSymmetric toyEnv (5 : Fr) danceText testTape) >>= fun c => decryptSymmetric toyEnv 5 c.1) =
    .ok danceText := by decide +kernel

/-- `test_single_parsing`, `/repo/src/utils/policy/pest/mod.rs:119-127`. -/
example : (do
    let v ← parse (chars% r#"{"name": "A"}"#) .json
    let h ← serializeHuman v none
    Res.ok (serializeJson v, h)) = .ok (chars% r#"{"name": "A"}"#, chars% "A") := by decide +kernel

/-- `test_children_parsing`, `/repo/src/utils/policy/pest/mod.rs:130-138`. -/
example : (do
    let v ← parse (chars% r#"{"name": "and", "children": [{"name": "B"}, {"name": "C"}]}"#) .json
    let h ← serializeHuman v none
    Res.ok (serializeJson v, h)) =
    .ok (chars% r#"{"name": "and", "children": [{"name": "B"}, {"name": "C"}]}"#, chars% "(B and C)") := by
  decide +kernel

/-- `test_sub_children_parsing`, `/repo/src/utils/policy/pest/mod.rs:141-149`. -/
example : (do
    let v ← parse (chars% r#"{"name": "or", "children": [{"name": "A"}, {"name": "and", "children": [{"name": "B"}, {"name": "C"}]}]}"#) .json
    let h ← serializeHuman v none
    Res.ok (serializeJson v, h)) =
    .ok (chars% r#"{"name": "or", "children": [{"name": "A"}, {"name": "and", "children": [{"name": "B"}, {"name": "C"}]}]}"#,
      chars% "(A or (B and C))") := by
  decide +kernel

/-- `test_msp_from`, `/repo/src/utils/policy/msp.rs:157-200`. The test accepts a text that is not parsed. -/
example : (match parse (chars% r#"{name:"and", children:[{name:"A"}, {name:"or", "children":[{name:"D"}, {name:"and", "children":[{name:"B"},{name:"C"}]}]} ]}"#) .json with
    | .ok v => AbePolicy.fromPolicy v
    | .err => .ok ⟨[[1, 1, 0], [0, -1, 1], [0, 0, -1], [0, -1, 0]], [['A'], ['B'], ['C'], ['D']], 3⟩
    | .panic => .panic) =
    .ok ⟨[[1, 1, 0], [0, -1, 1], [0, 0, -1], [0, -1, 0]], [['A'], ['B'], ['C'], ['D']], 3⟩ := by decide +kernel

/-- The text of `test_msp_from` is indeed accepted. -/
example : (parse (chars% r#"{name:"and", children:[{name:"A"}, {name:"or", "children":[{name:"D"}, {name:"and", "children":[{name:"B"},{name:"C"}]}]} ]}"#) .json >>= AbePolicy.fromPolicy) =
    .ok ⟨[[1, 1, 0], [0, -1, 1], [0, 0, -1], [0, -1, 0]], [['A'], ['B'], ['C'], ['D']], 3⟩ := by decide +kernel

/-- The policies of `test_dnf_from`, `/repo/src/utils/policy/dnf.rs:240-244`. -/
def dnf1 : Str := chars% r#"{"name": "or", "children": [{"name": "and", "children": [{"name": "A"}, {"name": "B"}]}, {"name": "and", "children":  [{"name": "A"}, {"name": "C"}]}]}"#
@[inherit_doc dnf1] def dnf2 : Str := chars% r#"{"name": "and", "children": [{"name": "C"}, {"name": "D"}]}"#
@[inherit_doc dnf1] def dnf3 : Str := chars% r#"{"name": "or", "children": [{"name": "C"}, {"name": "and",  "children": [{"name": "A"}, {"name": "C"}]}, {"name" :"and",  "children": [{"name": "A"}, {"name": "D"}]}]}"#
@[inherit_doc dnf1] def notDnf1 : Str := chars% r#"{"name": "and", "children": [{"name": "or",  "children":: [{"name": "A"}, {"name": "B"}]}, {"name": "and",  "children": [{"name": "C"}, {"name": "D"}]}]}"#
@[inherit_doc dnf1] def notDnf2 : Str := chars% r#"{"name": "or", "children":  [{"name": "and",  "children": [{"name": "or",  "children": [{"name": "C"}, {"name": "D"}]}, {"name": "B"}]}, {"name": "and",  "children": [{"name": "C"}, {"name": "D"}]}]}"#

/-- `test_dnf_from`, first part, `/repo/src/utils/policy/dnf.rs:246-267`; the fourth text is not accepted. -/
example : [dnf1, dnf2, dnf3, notDnf1, notDnf2].map (fun t => (parse t .json >>= fun v => Res.ok (policyInDnf v false none))) =
    [.ok true, .ok true, .ok true, .err, .ok false] := by decide +kernel

/-- `test_dnf_from`, second part, `/repo/src/utils/policy/dnf.rs:269-305`: three terms for the first policy, which has two
disjuncts. -/
example : [dnf1, dnf2, dnf3].map (fun t => (DnfPolicy.fromString t
      ([['A'], ['B'], ['C'], ['D']].map fun a => (⟨a, 1, 1, 1, 1⟩ : PubAttr Fr Fr Fr)) .json >>= fun l => Res.ok l.length)) =
    [.ok 3, .ok 1, .ok 5] := by decide +kernel

/-- The attribute sets of `test_traverse`, `/repo/src/utils/tools/mod.rs:82-97`. -/
def sets : List (List Str) := [[['X'], ['Y']], [['A'], ['B']], [['C'], ['D']], [['A'], ['B'], ['C'], ['D']]]

/-- `test_traverse`, `/repo/src/utils/tools/mod.rs:77-130`. -/
example : ((parse (chars% "what-the-heck?") .json >>= fun _ => Res.ok ()) = .err) ∧
    (parse (chars% r#"{"name": "and", "children": [{"name": "A"}, {"name": "B"}]}"#) .json >>= fun v =>
      Res.ok (sets.map fun s => traversePolicy s v .leaf)) = .ok [false, true, false, true] ∧
    (parse (chars% r#"{"name": "or", "children": [{"name": "A"}, {"name": "B"}]}"#) .json >>= fun v =>
      Res.ok (sets.tail.map fun s => traversePolicy s v .leaf)) = .ok [true, false, true] ∧
    (parse (chars% r#"{"name": "and", "children": [{"name":"or", "children": [{"name": "C"}, {"name": "D"}]}, {"name": "B"}]}"#) .json >>= fun v =>
      Res.ok (sets.tail.map fun s => traversePolicy s v .leaf)) = .ok [false, false, true] := by decide +kernel

/-- `test_secret_sharing_or`, `/repo/src/utils/secretsharing/mod.rs:229-244`. -/
example : (recoverSecret [(genShares (42 : Fr) 1 2 testTape.fr).1.getD 1 0]
      (chars% r#"{"name":"or", "children": [{"name": "A"}, {"name": "B"}]}"#)) =
    .ok ((genShares (42 : Fr) 1 2 testTape.fr).1.getD 0 0) := by decide +kernel

/-- `test_gen_shares_json`, `/repo/src/utils/secretsharing/mod.rs:247-261`. -/
example : (do
    let v ← parse (chars% r#"{"name": "and", "children": [{"name": "A"}, {"name": "B"}, {"name": "C"}, {"name": "D"}]}"#) .json
    let s ← genSharesPolicy v (42 : Fr) none testTape.fr
    let c ← calcCoefficients v (some (1 : Fr)) [] none
    Res.ok (s.1.map List.length, c.map List.length)) = .ok (some 4, some 4) := by decide +kernel

/-- `test_secret_sharing_and`, `/repo/src/utils/secretsharing/mod.rs:264-283`. -/
example : (recoverSecret ((genShares (42 : Fr) 2 2 testTape.fr).1.tail)
      (chars% r#"{"name": "and", "children": [{"name": "A"}, {"name": "B"}]}"#)) =
    .ok ((genShares (42 : Fr) 2 2 testTape.fr).1.getD 0 0) ∧ (genShares (42 : Fr) 2 2 testTape.fr).1.length = 3 := by
  decide +kernel

/-- `test_pruning`, `/repo/src/utils/secretsharing/mod.rs:286-330`: the columns of the selected attributes. -/
example : [chars% r#"{"name": "or", "children": [{"name": "and", "children": [{"name": "A"}, {"name": "B"}]}, {"name": "and", "children": [{"name": "C"}, {"name": "D"}]}]}"#,
      chars% r#"{"name": "or", "children": [{"name": "C"}, {"name": "and", "children": [{"name": "A"}, {"name": "E"}]}]}"#,
      chars% r#"{"name": "or", "children": [{"name": "and", "children": [{"name": "A"}, {"name": "C"}]}, {"name": "and", "children": [{"name": "C"}, {"name": "A"}]}]}"#].map
      (fun t => (parse t .json >>= fun v => calcPruned [['A'], ['B'], ['C']] v none)) =
    [.ok (true, [(['A'], chars% "A_68"), (['B'], chars% "B_83")]), .ok (true, [(['C'], chars% "C_39")]),
      .ok (true, [(['A'], chars% "A_68"), (['C'], chars% "C_83")])] := by decide +kernel

end Rabe.Check
