import Verif.Check.Utils
import Verif.Model.Bsw
import Verif.Model.Ac17
import Verif.Model.Lsw
import Verif.Model.Yct14
import Verif.Model.Ghw11
import Verif.Model.Aw11
import Verif.Model.Bdabe
import Verif.Model.Mke08
import Verif.Props.Aw11

/-!
# The unit tests of the repository, run on the model: schemes

Each example is one `#[test]` of `/repo`, evaluated by the kernel in the concrete environment `toyEnv`. They check the
transcription, they are not proofs of properties. A failing `unwrap` or `assert!` would make the equation false.
-/

namespace Rabe.Check

/-- Shape of the tests of `/repo/src/schemes/bsw/mod.rs:326-600`. -/
def bsw (policy : Str) (attrs attrs' : List Str) : Res (Res Bytes × Res Bytes) := do
  let x ← Bsw.setup toyEnv testTape
  let z ← Bsw.encrypt toyEnv x.1.1 policy .json danceText x.2
  let y ← Bsw.keygen toyEnv x.1.1 x.1.2 attrs z.2
  let sk ← Res.unwrapOption y.1
  let y' ← Bsw.keygen toyEnv x.1.1 x.1.2 attrs' y.2
  let sk' ← Res.unwrapOption y'.1
  .ok (Bsw.decrypt toyEnv sk z.1, Bsw.decrypt toyEnv sk' z.1)

/-- `or`, `/repo/src/schemes/bsw/mod.rs:326-356`. -/
example : bsw (chars% r#"{"name": "or", "children": [{"name": "A"}, {"name": "B"}]}"#) ([chars% "D", chars% "B"]) ([chars% "C", chars% "D"]) = .ok (.ok danceText, .err) := by decide +kernel

/-- `and10`, `/repo/src/schemes/bsw/mod.rs:359-400`. -/
example : bsw (chars% r#"{"name": "and", "children": [{"name": "attr1"}, {"name": "attr2"}, {"name": "attr3"}, {"name": "attr4"}, {"name": "attr5"}, {"name": "attr6"}, {"name": "attr7"}, {"name": "attr8"}, {"name": "attr9"}, {"name": "attr10"}]}"#) ([chars% "attr1", chars% "attr2", chars% "attr3", chars% "attr4", chars% "attr5", chars% "attr6", chars% "attr7", chars% "attr8", chars% "attr9", chars% "attr10"]) ([chars% "attr201", chars% "attr200"]) = .ok (.ok danceText, .err) := by decide +kernel

/-- The policy of `nested`, `/repo/src/schemes/bsw/mod.rs:418-426`. -/
def nestedPolicy : ℕ → Str
  | 0 => chars% r#"{"name":"and", "children": [{"name": "a2"}, {"name": "a1"}]}"#
  | n + 1 => chars% r#"{"name":"and", "children":[{"name":"a"# ++ natStr (n + 3) ++ chars% r#""},"# ++ nestedPolicy n ++ chars% "]}"

/-- `nested`, `/repo/src/schemes/bsw/mod.rs:403-438`. -/
example : bsw (nestedPolicy 27) ((List.range 30).map fun i => 'a' :: natStr (i + 1)) ([chars% "x", chars% "y"]) = .ok (.ok danceText, .err) := by decide +kernel

/-- `or3`, `/repo/src/schemes/bsw/mod.rs:441-469`. -/
example : bsw (chars% r#"{"name": "or", "children": [{"name": "X"}, {"name": "Y"}, {"name": "A"}]}"#) ([chars% "A"]) ([chars% "B", chars% "C"]) = .ok (.ok danceText, .err) := by decide +kernel

/-- `and`, `/repo/src/schemes/bsw/mod.rs:472-497`. -/
example : bsw (chars% r#"{"name": "and", "children":  [{"name": "A"}, {"name": "B"}]}"#) ([chars% "A", chars% "B", chars% "C"]) ([chars% "A", chars% "D"]) = .ok (.ok danceText, .err) := by decide +kernel

/-- `dual_attributes`, `/repo/src/schemes/bsw/mod.rs:500-524`. -/
example : bsw (chars% r#"{"name": "or", "children": [{"name": "and", "children": [{"name": "A"}, {"name": "B"}]}, {"name": "and", "children": [{"name": "B"}, {"name": "C"}]}]}"#) ([chars% "A", chars% "B"]) ([chars% "A", chars% "C"]) = .ok (.ok danceText, .err) := by decide +kernel

/-- `and3`, `/repo/src/schemes/bsw/mod.rs:527-553`. -/
example : bsw (chars% r#"{"name": "and", "children": [{"name": "A"}, {"name": "B"}, {"name": "C"}]}"#) ([chars% "A", chars% "B", chars% "C"]) ([chars% "A", chars% "D"]) = .ok (.ok danceText, .err) := by decide +kernel

/-- `or_and`, `/repo/src/schemes/bsw/mod.rs:556-576`. -/
example : bsw (chars% r#"{"name": "or", "children": [{"name": "and", "children": [{"name": "A"}, {"name": "B"}]}, {"name": "and", "children": [{"name": "C"}, {"name": "D"}]}]}"#) ([chars% "A", chars% "B", chars% "C", chars% "D"]) ([chars% "A", chars% "C"]) = .ok (.ok danceText, .err) := by decide +kernel

/-- `delegate_ab`, `/repo/src/schemes/bsw/mod.rs:579-602`. -/
example : (do
    let x ← Bsw.setup toyEnv testTape
    let z ← Bsw.encrypt toyEnv x.1.1 (chars% r#"{"name": "and", "children": [{"name": "A"}, {"name": "B"}]}"#) .json danceText x.2
    let y ← Bsw.keygen toyEnv x.1.1 x.1.2 [chars% "A", chars% "B", chars% "C"] z.2
    let sk ← Res.unwrapOption y.1
    let d ← Bsw.delegate toyEnv x.1.1 sk [chars% "A", chars% "B"] y.2
    let del ← Res.unwrapOption d.1
    Bsw.decrypt toyEnv del z.1) = .ok danceText := by decide +kernel

/-- Shape of the tests of `/repo/src/schemes/ac17/mod.rs:683-757`. -/
def ac17Kp (policy : Str) (attrs : List Str) : Res (Res Bytes) := do
  let x ← Ac17.setup toyEnv testTape
  let z ← Ac17.kpEncrypt toyEnv x.1.1 attrs danceText x.2
  let y ← Ac17.kpKeygen toyEnv x.1.2 policy .json z.2
  .ok (Ac17.kpDecrypt toyEnv y.1 z.1)

/-- Shape of the tests of `/repo/src/schemes/ac17/mod.rs:760-810`. -/
def ac17Cp (policy : Str) (attrs : List Str) : Res (Res Bytes) := do
  let x ← Ac17.setup toyEnv testTape
  let z ← Ac17.cpEncrypt toyEnv x.1.1 policy danceText .json x.2
  let y ← Ac17.cpKeygen toyEnv x.1.2 attrs z.2
  .ok (Ac17.cpDecrypt toyEnv y.1 z.1)

/-- `kp_and`, `/repo/src/schemes/ac17/mod.rs:683-698`. -/
example : ac17Kp (chars% r#"{"name": "and", "children": [{"name": "A"}, {"name": "B"}]}"#) [chars% "A", chars% "B"] = .ok (.ok danceText) := by decide +kernel

/-- `kp_or_and`, `/repo/src/schemes/ac17/mod.rs:701-712`. -/
example : ac17Kp (chars% r#"{"name": "or", "children": [{"name": "and", "children": [{"name": "A"}, {"name": "B"}]}, {"name": "and", "children": [{"name": "C"}, {"name": "D"}]}]}"#) [chars% "A", chars% "B"] = .ok (.ok danceText) := by decide +kernel

/-- `kp_or_and`, `/repo/src/schemes/ac17/mod.rs:713-723`. -/
example : ac17Kp (chars% r#"{"name": "or", "children": [{"name": "and", "children": [{"name": "A"}, {"name": "B"}]}, {"name": "and", "children": [{"name": "C"}, {"name": "D"}]}]}"#) [chars% "C", chars% "D"] = .ok (.ok danceText) := by decide +kernel

/-- `kp_or`, `/repo/src/schemes/ac17/mod.rs:726-740`. -/
example : ac17Kp (chars% r#"{"name": "or", "children": [{"name": "A"}, {"name": "B"}]}"#) [chars% "B"] = .ok (.ok danceText) := by decide +kernel

/-- `kp_not`, `/repo/src/schemes/ac17/mod.rs:743-757`. -/
example : ac17Kp (chars% r#"{"name": "or", "children": [{"name": "A"}, {"name": "B"}]}"#) [chars% "C"] = .ok (.err) := by decide +kernel

/-- `cp_and`, `/repo/src/schemes/ac17/mod.rs:760-774`. -/
example : ac17Cp (chars% r#"{"name": "and", "children": [{"name": "A"}, {"name": "B"}]}"#) [chars% "A", chars% "B"] = .ok (.ok danceText) := by decide +kernel

/-- `cp_or`, `/repo/src/schemes/ac17/mod.rs:777-792`. -/
example : ac17Cp (chars% r#"{"name": "or", "children": [{"name": "A"}, {"name": "B"}, {"name": "C"}]}"#) [chars% "A"] = .ok (.ok danceText) := by decide +kernel

/-- `cp_or_and_and`, `/repo/src/schemes/ac17/mod.rs:795-809`. -/
example : ac17Cp (chars% r#"{"name": "or", "children": [{"name": "and", "children": [{"name": "A"}, {"name": "B"}]}, {"name": "and", "children": [{"name": "C"}, {"name": "D"}]}]}"#) [chars% "A", chars% "B", chars% "C", chars% "D"] = .ok (.ok danceText) := by decide +kernel

/-- Shape of the tests of `/repo/src/schemes/lsw/mod.rs:298-374`. -/
def lsw (policy : Str) (attrs : List Str) : Res (Res Bytes) := do
  let x ← Lsw.setup toyEnv testTape
  let z ← Lsw.encrypt toyEnv x.1.1 attrs danceText x.2
  let y ← Lsw.keygen toyEnv x.1.1 x.1.2 policy .json z.2
  .ok (Lsw.decrypt toyEnv y.1 z.1)

/-- `and`, `/repo/src/schemes/lsw/mod.rs:298-314`. -/
example : lsw (chars% r#"{"name": "and", "children": [{"name": "C"}, {"name": "B"}]}"#) [chars% "A", chars% "B", chars% "C"] = .ok (.ok danceText) := by decide +kernel

/-- `or`, `/repo/src/schemes/lsw/mod.rs:317-333`. -/
example : lsw (chars% r#"{"name": "or", "children": [{"name": "X"}, {"name": "B"}]}"#) [chars% "A", chars% "B", chars% "C"] = .ok (.ok danceText) := by decide +kernel

/-- `or_and`, `/repo/src/schemes/lsw/mod.rs:336-353`. -/
example : lsw (chars% r#"{"name": "or", "children": [{"name": "A"}, {"name": "and", "children": [{"name": "Y"}, {"name": "Z"}]}]}"#) [chars% "X", chars% "Y", chars% "Z"] = .ok (.ok danceText) := by decide +kernel

/-- `not`, `/repo/src/schemes/lsw/mod.rs:356-373`. -/
example : lsw (chars% r#"{"name": "or", "children": [{"name": "X"}, {"name": "Y"}]}"#) [chars% "A", chars% "B"] = .ok (.err) := by decide +kernel

/-- `or`, `/repo/src/schemes/yct14/mod.rs:373-395`. -/
example : (do
    let x ← Yct14.setup [chars% "A", chars% "B", chars% "C"] testTape
    let z ← Yct14.encrypt toyEnv x.1.1 [chars% "A", chars% "B", chars% "C"] danceText x.2
    let y ← Yct14.keygen x.1.2 (chars% r#"{"name": "or", "children": [{"name": "A"}, {"name": "C"}]}"#) .json z.2
    Yct14.decrypt toyEnv y.1 z.1) = .ok danceText := by decide +kernel

/-- Shape of the tests of `/repo/src/schemes/ghw11/mod.rs:311-450`: the result for the first key, and of `transform` for the
second. -/
def ghw11 (policy : Str) (attrs attrs' : List Str) (text : Bytes) : Res (Res Bytes × Res Unit) := do
  let x ← Ghw11.setup toyEnv testTape
  let y ← Ghw11.keygen toyEnv x.1.1 x.1.2 attrs x.2
  let sk ← Res.unwrapOption y.1
  let y' ← Ghw11.keygen toyEnv x.1.1 x.1.2 attrs' y.2
  let sk' ← Res.unwrapOption y'.1
  let z ← Ghw11.encrypt toyEnv x.1.1 policy .json text y'.2
  let w ← Ghw11.tkgen sk z.2
  let k ← Res.unwrapOption w.1
  let w' ← Ghw11.tkgen sk' w.2
  let k' ← Res.unwrapOption w'.1
  .ok (Ghw11.transform toyEnv z.1 k.1 >>= fun c => Ghw11.decryptOut toyEnv c k.2 z.1.data,
    Ghw11.transform toyEnv z.1 k'.1 >>= fun _ => .ok ())

/-- `or`, `/repo/src/schemes/ghw11/mod.rs:311-354`. -/
example : ghw11 (chars% r#"{"name": "or", "children": [{"name": "A"}, {"name": "B"}]}"#) [chars% "D", chars% "B"] [chars% "C", chars% "D"] danceText = .ok (.ok danceText, .err) := by decide +kernel

/-- `and2`, `/repo/src/schemes/ghw11/mod.rs:357-392`. -/
example : ghw11 (chars% r#"{"name": "and", "children": [{"name": "attr0"}, {"name": "attr1"}]}"#) [chars% "attr0", chars% "attr1"] [chars% "attr0", chars% "attr1"] ((chars% "ghw11 OABE").map fun c => UInt8.ofNat c.toNat) = .ok (.ok ((chars% "ghw11 OABE").map fun c => UInt8.ofNat c.toNat), .ok ()) := by decide +kernel

/-- `and10`, `/repo/src/schemes/ghw11/mod.rs:395-450`. -/
example : ghw11 (chars% r#"{"name": "and", "children": [{"name": "attr1"}, {"name": "attr2"}, {"name": "attr3"}, {"name": "attr4"}, {"name": "attr5"}, {"name": "attr6"}, {"name": "attr7"}, {"name": "attr8"}, {"name": "attr9"}, {"name": "attr10"}]}"#) [chars% "attr1", chars% "attr2", chars% "attr3", chars% "attr4", chars% "attr5", chars% "attr6", chars% "attr7", chars% "attr8", chars% "attr9", chars% "attr10"] [chars% "attr201", chars% "attr200"] danceText = .ok (.ok danceText, .err) := by decide +kernel

/-- Shape of the tests of `/repo/src/schemes/aw11/mod.rs:398-560`: the authorities, the one that issues the first key for
`first`, then additions `(authority, attribute)`, the authorities whose public keys are used. -/
def aw11 (auths : List (List Str)) (issuer : ℕ) (first : List Str) (add : List (ℕ × Str)) (pks : List ℕ) (policy : Str) :
    Res (Res Bytes) := do
  let x ← Aw11.setup testTape
  let y ← RM.mapL (Aw11.authgen asciiCase toyEnv x.1) auths x.2
  let as ← Res.mapR Res.unwrapOption y.1
  let get (i : ℕ) := Res.unwrapOption as[i]?
  let a ← get issuer
  let sk ← Aw11.keygen asciiCase toyEnv x.1 a.2 (chars% "bob") first
  let sk ← Res.foldR (fun sk b => get b.1 >>= fun a => Aw11.addToAttribute asciiCase toyEnv x.1 a.2 b.2 sk) sk add
  let pks ← Res.mapR get pks
  let z ← Aw11.encrypt asciiCase toyEnv x.1 (pks.map (·.1)) policy .json danceText y.2
  .ok (Aw11.decrypt toyEnv x.1 sk z.1)

/-- `and`, `/repo/src/schemes/aw11/mod.rs:398-434`. -/
example : aw11 [[chars% "A", chars% "B", chars% "C"], [chars% "D", chars% "E", chars% "F"], [chars% "G", chars% "H", chars% "I"]] 2 [chars% "H", chars% "I"] [(0, chars% "B")] [2, 0] (chars% r#"{"name": "and", "children": [{"name": "H"}, {"name": "B"}]}"#) = .ok (.ok danceText) := by decide +kernel

/-- `or`, `/repo/src/schemes/aw11/mod.rs:437-475`. -/
example : aw11 [[chars% "A", chars% "B"], [chars% "C", chars% "D"]] 0 [chars% "A"] [(1, chars% "C")] [1, 0] (chars% r#"{"name": "or", "children": [{"name": "B"}, {"name": "C"}]}"#) = .ok (.ok danceText) := by decide +kernel

/-- `or_and`, `/repo/src/schemes/aw11/mod.rs:478-521`. -/
example : aw11 [[chars% "A", chars% "B"], [chars% "C", chars% "D"]] 0 [chars% "A"] [(1, chars% "C"), (1, chars% "D")] [1, 0] (chars% r#"{"name": "or", "children": [{"name": "B"}, {"name": "and", "children": [{"name": "C"}, {"name": "D"}]}]}"#) = .ok (.ok danceText) := by decide +kernel

/-- `not`, `/repo/src/schemes/aw11/mod.rs:524-562`. -/
example : aw11 [[chars% "A", chars% "B"], [chars% "C", chars% "D"]] 0 [chars% "A"] [(1, chars% "D")] [1, 0] (chars% r#"{"name": "or", "children": [{"name": "B"}, {"name": "and", "children": [{"name": "C"}, {"name": "A"}]}]}"#) = .ok (.err) := by decide +kernel

/-- Shape of the tests of `/repo/src/schemes/bdabe/mod.rs:493-661`: the authorities, the one at which the user is registered,
the attributes `(authority, attribute)` of the public keys and of the user. -/
def bdabe (auths : List Str) (issuer : ℕ) (pub own : List (ℕ × Str)) (policy : Str) : Res (Res Bytes) := do
  let x ← Bdabe.setup toyEnv testTape
  let y ← RM.mapL (Bdabe.authgen x.1.1 x.1.2) auths x.2
  let get (i : ℕ) := Res.unwrapOption y.1[i]?
  let a ← get issuer
  let u ← Bdabe.keygen x.1.1 a (chars% "u1") y.2
  let pks ← Res.mapR (fun b => get b.1 >>= fun a => Bdabe.requestAttributePk toyEnv x.1.1 a b.2) pub
  let sks ← Res.mapR (fun b => get b.1 >>= fun a => Bdabe.requestAttributeSk toyEnv u.1.pk a b.2) own
  let z ← Bdabe.encrypt toyEnv x.1.1 pks policy .json danceText u.2
  .ok (Bdabe.decrypt toyEnv (1, 1) { u.1 with skA := u.1.skA ++ sks } z.1)

/-- Shape of the tests of `/repo/src/schemes/mke08/mod.rs:502-616`. -/
def mke08 (auths : List Str) (pub own : List (ℕ × Str)) (policy : Str) : Res (Res Bytes) := do
  let x ← Mke08.setup toyEnv testTape
  let u ← Mke08.keygen x.1.1 x.1.2 (chars% "user1") x.2
  let y ← RM.mapL Mke08.authgen auths u.2
  let get (i : ℕ) := Res.unwrapOption y.1[i]?
  let pks ← Res.mapR (fun b => get b.1 >>= fun a => Mke08.requestAuthorityPk toyEnv x.1.1 b.2 a) pub
  let sks ← Res.mapR (fun b => get b.1 >>= fun a => Mke08.requestAuthoritySk toyEnv u.1.pk b.2 a) own
  let z ← Mke08.encrypt toyEnv x.1.1 pks policy .json danceText y.2
  .ok (Mke08.decrypt toyEnv (1, 1) { u.1 with skA := u.1.skA ++ sks } z.1)

/-- `and`, `/repo/src/schemes/bdabe/mod.rs:493-535`. -/
example : bdabe [chars% "aa1", chars% "aa2"] 0 [(0, chars% "aa1::A"), (1, chars% "aa2::B")] [(0, chars% "aa1::A"), (1, chars% "aa2::B")] (chars% r#"{"name": "and", "children": [{"name": "aa1::A"}, {"name": "aa2::B"}]}"#) = .ok (.ok danceText) := by decide +kernel

/-- `or`, `/repo/src/schemes/bdabe/mod.rs:538-574`. -/
example : bdabe [chars% "aa1", chars% "aa2"] 1 [(0, chars% "aa1::C"), (1, chars% "aa2::B")] [(0, chars% "aa1::C"), (1, chars% "aa2::B")] (chars% r#"{"name": "or", "children": [{"name": "aa1::A"}, {"name": "aa2::B"}]}"#) = .ok (.ok danceText) := by decide +kernel

/-- `or_and`, `/repo/src/schemes/bdabe/mod.rs:577-623`. The second public key is shadowed by the third, so the
conjunction is encrypted for `aa3::C` only. -/
example : bdabe [chars% "aa1", chars% "aa2", chars% "aa3"] 1 [(0, chars% "aa1::A"), (2, chars% "aa3::C")] [(0, chars% "aa1::A"), (1, chars% "aa2::B"), (2, chars% "aa3::C")] (chars% r#"{"name": "or", "children": [{"name": "and", "children": [{"name": "aa3::C"}, {"name": "aa2::B"}]}, {"name": "aa1::X"}]}"#) = .ok (.ok danceText) := by decide +kernel

/-- `not`, `/repo/src/schemes/bdabe/mod.rs:626-661`. -/
example : bdabe [chars% "aa1", chars% "aa2"] 1 [(0, chars% "aa1::A"), (1, chars% "aa2::B")] [(0, chars% "aa1::A"), (1, chars% "aa2::B")] (chars% r#"{"name": "or", "children": [{"name": "aa1::B"}, {"name": "aa2::A"}]}"#) = .ok (.err) := by decide +kernel

/-- `and`, `/repo/src/schemes/mke08/mod.rs:502-535`. -/
example : mke08 [chars% "auth1", chars% "auth2"] [(0, chars% "auth1::A"), (1, chars% "auth2::B")] [(0, chars% "auth1::A"), (1, chars% "auth2::B")] (chars% r#"{"name": "and", "children": [{"name": "auth1::A"}, {"name": "auth2::B"}]}"#) = .ok (.ok danceText) := by decide +kernel

/-- `or`, `/repo/src/schemes/mke08/mod.rs:538-571`. -/
example : mke08 [chars% "auth1", chars% "auth2"] [(0, chars% "auth1::C"), (1, chars% "auth2::B")] [(0, chars% "auth1::C"), (1, chars% "auth2::B")] (chars% r#"{"name": "or", "children": [{"name": "auth1::A"}, {"name": "auth2::B"}]}"#) = .ok (.ok danceText) := by decide +kernel

/-- `or_and`, `/repo/src/schemes/mke08/mod.rs:574-616`. -/
example : mke08 [chars% "auth1", chars% "auth2"] [(0, chars% "auth1::A"), (1, chars% "auth2::B"), (1, chars% "auth2::X")] [(0, chars% "auth1::A"), (1, chars% "auth2::B"), (1, chars% "auth2::X")] (chars% r#"{"name": "or", "children": [{"name": "and", "children": [{"name": "auth1::A"}, {"name": "auth2::B"}]}, {"name": "auth2::X"}]}"#) = .ok (.ok danceText) := by decide +kernel

end Rabe.Check
