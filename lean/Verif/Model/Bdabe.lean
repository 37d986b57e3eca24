import Verif.Model.Dnf
import Verif.Model.Aes

/-!
# BDABE multi-authority CP-ABE

Model of `/repo/src/schemes/bdabe/mod.rs`.
-/

namespace Rabe

/-- `str::match_indices("::")` (used in `/repo/src/schemes/bdabe/mod.rs:465`, `/repo/src/schemes/mke08/mod.rs:473`):
positions of the non-overlapping matches, from the left. Simplification: positions in characters, not in bytes (they
are only used to take a prefix). -/
def matchIndices : Str → ℕ → List ℕ
  | [], _ => []
  | [_], _ => []
  | c :: d :: rest, i => if c = ':' ∧ d = ':' then i :: matchIndices rest (i + 2) else matchIndices (d :: rest) (i + 1)

namespace Bdabe

variable {F G1 G2 Gt : Type} [Field F] [DecidableEq F] [AddCommGroup G1] [Module F G1]
  [AddCommGroup G2] [Module F G2] [AddCommGroup Gt] [Module F Gt]

/-- `BdabePublicKey`, `/repo/src/schemes/bdabe/mod.rs:49-55`. -/
structure PublicKey (G1 G2 Gt : Type) where
  g1 : G1
  g2 : G2
  p1 : G1
  p2 : G2
  eGgY : Gt

/-- `BdabeMasterKey`, `/repo/src/schemes/bdabe/mod.rs:61-63`. -/
structure MasterKey (F : Type) where
  y : F

/-- `BdabePublicUserKey`, `/repo/src/schemes/bdabe/mod.rs:79-83`. -/
structure PublicUserKey (G1 G2 : Type) where
  u : Str
  u1 : G1
  u2 : G2

/-- `BdabeSecretUserKey`, `/repo/src/schemes/bdabe/mod.rs:89-92`. -/
structure SecretUserKey (G1 G2 : Type) where
  u1 : G1
  u2 : G2

/-- `BdabeSecretAttributeKey`, `/repo/src/schemes/bdabe/mod.rs:98-102`. -/
structure SecretAttributeKey (G1 G2 : Type) where
  attr : Str
  au1 : G1
  au2 : G2

/-- `BdabeUserKey`, `/repo/src/schemes/bdabe/mod.rs:69-73`. -/
structure UserKey (G1 G2 : Type) where
  sk : SecretUserKey G1 G2
  pk : PublicUserKey G1 G2
  skA : List (SecretAttributeKey G1 G2)

/-- `BdabePublicAttributeKey`, `/repo/src/schemes/bdabe/mod.rs:108-113`. -/
structure PublicAttributeKey (G1 G2 Gt : Type) where
  attr : Str
  a1 : G1
  a2 : G2
  a3 : Gt

/-- `BdabeSecretAuthorityKey`, `/repo/src/schemes/bdabe/mod.rs:119-124`. -/
structure SecretAuthorityKey (F G1 G2 : Type) where
  name : Str
  a1 : G1
  a2 : G2
  a3 : F

/-- `BdabeCiphertextTuple`, `/repo/src/schemes/bdabe/mod.rs:130-137`. -/
structure CiphertextTuple (G1 G2 Gt : Type) where
  attr : List Str
  e1 : Gt
  e2 : G1
  e3 : G2
  e4 : G1
  e5 : G2

/-- `BdabeCiphertext`, `/repo/src/schemes/bdabe/mod.rs:143-147`. -/
structure Ciphertext (G1 G2 Gt : Type) where
  policy : Str × PolicyLanguage
  j : List (CiphertextTuple G1 G2 Gt)
  ct : Bytes

/-- The trait implementation `PublicAttributeKey for BdabePublicAttributeKey`,
`/repo/src/utils/policy/dnf.rs:86-99`; `gt2` keeps the default `Gt::one()`. -/
def PublicAttributeKey.view (k : PublicAttributeKey G1 G2 Gt) : PubAttr G1 G2 Gt :=
  { attr := k.attr, g1 := k.a1, g2 := k.a2, gt1 := k.a3, gt2 := 0 }

/-- `setup`, `/repo/src/schemes/bdabe/mod.rs:150-163`. -/
def setup (env : Env F G1 G2 Gt) : RM F G1 G2 Gt (PublicKey G1 G2 Gt × MasterKey F) := do
  let g1 ← RM.genG1
  let g2 ← RM.genG2
  let p1 ← RM.genG1
  let p2 ← RM.genG2
  let y ← RM.genFr
  pure ({ g1, g2, p1, p2, eGgY := y • env.pair g1 g2 }, { y })

/-- `authgen`, `/repo/src/schemes/bdabe/mod.rs:174-188`. -/
def authgen (pk : PublicKey G1 G2 Gt) (msk : MasterKey F) (name : Str) :
    RM F G1 G2 Gt (SecretAuthorityKey F G1 G2) := do
  let alpha ← RM.genFr
  let beta := msk.y - alpha
  let a1 := alpha • pk.g1
  let a2 := beta • pk.g2
  let a3 ← RM.genFr
  pure { name, a1, a2, a3 }

/-- `keygen`, `/repo/src/schemes/bdabe/mod.rs:201-222`. -/
def keygen (pk : PublicKey G1 G2 Gt) (skA : SecretAuthorityKey F G1 G2) (name : Str) :
    RM F G1 G2 Gt (UserKey G1 G2) := do
  let rU ← RM.genFr
  pure { sk := { u1 := skA.a1 + rU • pk.p1, u2 := skA.a2 + rU • pk.p2 },
         pk := { u := name, u1 := rU • pk.g1, u2 := rU • pk.g2 },
         skA := [] }

/-- `from_authority`, `/repo/src/schemes/bdabe/mod.rs:461-470`. -/
def fromAuthority (attr authority : Str) : Bool :=
  match matchIndices attr 0 with
  | [i] => attr.take i == authority
  | _ => false

/-- `is_eligible`, `/repo/src/schemes/bdabe/mod.rs:481-486`. -/
def isEligible (_attr _user : Str) : Bool := true

/-- `request_attribute_pk`, `/repo/src/schemes/bdabe/mod.rs:232-260`. -/
def requestAttributePk (env : Env F G1 G2 Gt) (pk : PublicKey G1 G2 Gt) (skA : SecretAuthorityKey F G1 G2)
    (attr : Str) : Res (PublicAttributeKey G1 G2 Gt) :=
  if fromAuthority attr skA.name then
    let exp := env.hash attr * env.hash skA.name * skA.a3
    .ok { attr, a1 := exp • pk.g1, a2 := exp • pk.g2, a3 := exp • pk.eGgY }
  else .err

/-- `request_attribute_sk`, `/repo/src/schemes/bdabe/mod.rs:270-297`. -/
def requestAttributeSk (env : Env F G1 G2 Gt) (pkU : PublicUserKey G1 G2) (skA : SecretAuthorityKey F G1 G2)
    (attr : Str) : Res (SecretAttributeKey G1 G2) :=
  if fromAuthority attr skA.name && isEligible attr pkU.u then
    let exp := env.hash attr * env.hash skA.name * skA.a3
    .ok { attr, au1 := exp • pkU.u1, au2 := exp • pkU.u2 }
  else .err

/-- Body of the loop over the terms in `encrypt`, `/repo/src/schemes/bdabe/mod.rs:328-338`. -/
def encTerm (pk : PublicKey G1 G2 Gt) (msg : Gt) (term : DnfTerm G1 G2 Gt) :
    RM F G1 G2 Gt (CiphertextTuple G1 G2 Gt) := do
  let rJ ← RM.genFr
  pure { attr := term.attrs, e1 := rJ • term.gt1 + msg, e2 := rJ • pk.p1, e3 := rJ • pk.p2,
         e4 := rJ • term.g1, e5 := rJ • term.g2 }

/-- `encrypt`, `/repo/src/schemes/bdabe/mod.rs:309-350`. -/
def encrypt (env : Env F G1 G2 Gt) (pk : PublicKey G1 G2 Gt) (attrPks : List (PublicAttributeKey G1 G2 Gt))
    (policy : Str) (language : PolicyLanguage) (plaintext : Bytes) : RM F G1 G2 Gt (Ciphertext G1 G2 Gt) := do
  let pol ← RM.lift (parse policy language)
  if policyInDnf pol false none then do
    let dnf ← RM.lift (Res.unwrap (DnfPolicy.fromString policy (attrPks.map PublicAttributeKey.view) language))
    let x ← RM.genG1
    let y ← RM.genG2
    let msg := env.pair x y
    let j ← RM.mapL (encTerm pk msg) dnf
    let ct ← encryptSymmetric env msg plaintext
    pure { policy := (policy, language), j, ct }
  else RM.lift .err

/-- `is_satisfiable`, `/repo/src/schemes/bdabe/mod.rs:401-416`. -/
def isSatisfiable (conjunction : List Str) (sk : List (SecretAttributeKey G1 G2)) : Bool :=
  conjunction.all fun a => (sk.find? fun x => x.attr == a).isSome

/-- `calc_satisfiable`, `/repo/src/schemes/bdabe/mod.rs:426-447`. `one` is the pair `(G1::one(), G2::one())` of
generators the sum starts with; it is replaced by the first attribute. -/
def calcSatisfiable (one : G1 × G2) (conjunction : List Str) (sk : List (SecretAttributeKey G1 G2)) : G1 × G2 :=
  conjunction.zipIdx.foldl (fun ret a =>
    match sk.find? fun x => x.attr == a.1 with
    | none => ret
    | some found => if a.2 = 0 then (found.au1, found.au2) else (ret.1 + found.au1, ret.2 + found.au2)) one

/-- `decrypt`, `/repo/src/schemes/bdabe/mod.rs:359-390`: the first satisfied tuple is used; without one the
message element stays `Gt::one()`. -/
def decrypt (env : Env F G1 G2 Gt) (one : G1 × G2) (sk : UserKey G1 G2) (ct : Ciphertext G1 G2 Gt) : Res Bytes := do
  let strAttr := sk.skA.map (·.attr)
  let pol ← parse ct.policy.1 ct.policy.2
  if traversePolicy strAttr pol .leaf = false then .err
  else
    let msg := match ct.j.find? fun j => isSatisfiable j.attr sk.skA with
      | some j =>
        let skSum := calcSatisfiable one j.attr sk.skA
        j.e1 + env.pair j.e2 skSum.2 + env.pair skSum.1 j.e3 +
          -(env.pair j.e4 sk.sk.u2 + env.pair sk.sk.u1 j.e5)
      | none => 0
    decryptSymmetric env msg ct.ct

end Bdabe
end Rabe
