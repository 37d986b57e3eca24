import Verif.Model.Bdabe

/-!
# MKE08 multi-authority CP-ABE

Model of `/repo/src/schemes/mke08/mod.rs`.
-/

namespace Rabe
namespace Mke08

variable {F G1 G2 Gt : Type} [Field F] [DecidableEq F] [AddCommGroup G1] [Module F G1]
  [AddCommGroup G2] [Module F G2] [AddCommGroup Gt] [Module F Gt]

/-- `Mke08PublicKey`, `/repo/src/schemes/mke08/mod.rs:54-61`. -/
structure PublicKey (G1 G2 Gt : Type) where
  g1 : G1
  g2 : G2
  p1 : G1
  p2 : G2
  eGgY1 : Gt
  eGgY2 : Gt

/-- `Mke08MasterKey`, `/repo/src/schemes/mke08/mod.rs:67-70`. -/
structure MasterKey (G1 G2 : Type) where
  g1 : G1
  g2 : G2

/-- `Mke08PublicUserKey`, `/repo/src/schemes/mke08/mod.rs:86-90`. -/
structure PublicUserKey (G1 G2 : Type) where
  name : Str
  g1 : G1
  g2 : G2

/-- `Mke08SecretUserKey`, `/repo/src/schemes/mke08/mod.rs:96-99`. -/
structure SecretUserKey (G1 G2 : Type) where
  g1 : G1
  g2 : G2

/-- `Mke08SecretAuthorityKey`, `/repo/src/schemes/mke08/mod.rs:105-108`. -/
structure SecretAuthorityKey (F : Type) where
  name : Str
  r : F

/-- `Mke08PublicAttributeKey`, `/repo/src/schemes/mke08/mod.rs:114-120`. -/
structure PublicAttributeKey (G1 G2 Gt : Type) where
  attr : Str
  g1 : G1
  g2 : G2
  gt1 : Gt
  gt2 : Gt

/-- `Mke08SecretAttributeKey`, `/repo/src/schemes/mke08/mod.rs:126-130`. -/
structure SecretAttributeKey (G1 G2 : Type) where
  attr : Str
  g1 : G1
  g2 : G2

/-- `Mke08UserKey`, `/repo/src/schemes/mke08/mod.rs:76-80`. -/
structure UserKey (G1 G2 : Type) where
  sk : SecretUserKey G1 G2
  pk : PublicUserKey G1 G2
  skA : List (SecretAttributeKey G1 G2)

/-- `Mke08CTConjunction`, `/repo/src/schemes/mke08/mod.rs:146-154`. -/
structure CTConjunction (G1 G2 Gt : Type) where
  str : List Str
  j1 : Gt
  j2 : Gt
  j3 : G1
  j4 : G2
  j5 : G1
  j6 : G2

/-- `Mke08Ciphertext`, `/repo/src/schemes/mke08/mod.rs:136-140`. -/
structure Ciphertext (G1 G2 Gt : Type) where
  policy : Str × PolicyLanguage
  e : List (CTConjunction G1 G2 Gt)
  ct : Bytes

/-- The trait implementation `PublicAttributeKey for Mke08PublicAttributeKey`,
`/repo/src/utils/policy/dnf.rs:68-84`. -/
def PublicAttributeKey.view (k : PublicAttributeKey G1 G2 Gt) : PubAttr G1 G2 Gt :=
  { attr := k.attr, g1 := k.g1, g2 := k.g2, gt1 := k.gt1, gt2 := k.gt2 }

/-- `setup`, `/repo/src/schemes/mke08/mod.rs:157-175`. -/
def setup (env : Env F G1 G2 Gt) : RM F G1 G2 Gt (PublicKey G1 G2 Gt × MasterKey G1 G2) := do
  let g1 ← RM.genG1
  let g2 ← RM.genG2
  let p1 ← RM.genG1
  let p2 ← RM.genG2
  let y1 ← RM.genFr
  let y2 ← RM.genFr
  pure ({ g1, g2, p1, p2, eGgY1 := y1 • env.pair g1 g2, eGgY2 := y2 • env.pair g1 g2 },
    { g1 := y1 • g1, g2 := y2 • g2 })

/-- `keygen`, `/repo/src/schemes/mke08/mod.rs:185-206`. -/
def keygen (pk : PublicKey G1 G2 Gt) (msk : MasterKey G1 G2) (name : Str) : RM F G1 G2 Gt (UserKey G1 G2) := do
  let mkU ← RM.genFr
  pure { sk := { g1 := msk.g1 + mkU • pk.p1, g2 := msk.g2 + mkU • pk.p2 },
         pk := { name, g1 := mkU • pk.g1, g2 := mkU • pk.g2 },
         skA := [] }

/-- `authgen`, `/repo/src/schemes/mke08/mod.rs:215-223`. -/
def authgen (name : Str) : RM F G1 G2 Gt (SecretAuthorityKey F) := do
  let r ← RM.genFr
  pure { name, r }

/-- `from_authority`, `/repo/src/schemes/mke08/mod.rs:469-478`. -/
def fromAuthority (attr authority : Str) : Bool :=
  match matchIndices attr 0 with
  | [i] => attr.take i == authority
  | _ => false

/-- `is_eligible`, `/repo/src/schemes/mke08/mod.rs:490-495`. -/
def isEligible (_attr _user : Str) : Bool := true

/-- `request_authority_pk`, `/repo/src/schemes/mke08/mod.rs:233-262`. -/
def requestAuthorityPk (env : Env F G1 G2 Gt) (pk : PublicKey G1 G2 Gt) (attr : Str) (skA : SecretAuthorityKey F) :
    Res (PublicAttributeKey G1 G2 Gt) :=
  if fromAuthority attr skA.name then
    let exp := env.hash attr * env.hash skA.name * skA.r
    .ok { attr, g1 := exp • pk.g1, g2 := exp • pk.g2, gt1 := exp • pk.eGgY1, gt2 := exp • pk.eGgY2 }
  else .err

/-- `request_authority_sk`, `/repo/src/schemes/mke08/mod.rs:272-299`. -/
def requestAuthoritySk (env : Env F G1 G2 Gt) (pkU : PublicUserKey G1 G2) (attr : Str) (skA : SecretAuthorityKey F) :
    Res (SecretAttributeKey G1 G2) :=
  if fromAuthority attr skA.name && isEligible attr pkU.name then
    let exp := env.hash attr * env.hash skA.name * skA.r
    .ok { attr, g1 := exp • pkU.g1, g2 := exp • pkU.g2 }
  else .err

/-- Body of the loop over the terms in `encrypt`, `/repo/src/schemes/mke08/mod.rs:333-344`. -/
def encTerm (pk : PublicKey G1 G2 Gt) (msg1 msg2 : Gt) (term : DnfTerm G1 G2 Gt) :
    RM F G1 G2 Gt (CTConjunction G1 G2 Gt) := do
  let rJ ← RM.genFr
  pure { str := term.attrs, j1 := rJ • term.gt1 + msg1, j2 := rJ • term.gt2 + msg2, j3 := rJ • pk.p1,
         j4 := rJ • pk.p2, j5 := rJ • term.g1, j6 := rJ • term.g2 }

/-- `encrypt`, `/repo/src/schemes/mke08/mod.rs:311-356`. -/
def encrypt (env : Env F G1 G2 Gt) (pk : PublicKey G1 G2 Gt) (attrPks : List (PublicAttributeKey G1 G2 Gt))
    (policy : Str) (language : PolicyLanguage) (plaintext : Bytes) : RM F G1 G2 Gt (Ciphertext G1 G2 Gt) := do
  let pol ← RM.lift (parse policy language)
  if policyInDnf pol false none then do
    let dnf ← RM.lift (Res.unwrap (DnfPolicy.fromString policy (attrPks.map PublicAttributeKey.view) language))
    let x ← RM.genG1
    let y ← RM.genG2
    let msg1 := env.pair x y
    let k ← RM.genFr
    let msg2 := k • msg1
    let msg := msg1 + msg2
    let e ← RM.mapL (encTerm pk msg1 msg2) dnf
    let ct ← encryptSymmetric env msg plaintext
    pure { policy := (policy, language), e, ct }
  else RM.lift .err

/-- `is_satisfiable`, `/repo/src/schemes/mke08/mod.rs:409-424`. -/
def isSatisfiable (conjunction : List Str) (sk : List (SecretAttributeKey G1 G2)) : Bool :=
  conjunction.all fun a => (sk.find? fun x => x.attr == a).isSome

/-- `calc_satisfiable`, `/repo/src/schemes/mke08/mod.rs:434-454`. `one` is the pair `(G1::one(), G2::one())` of
generators the sum starts with; it is replaced by the first attribute. -/
def calcSatisfiable (one : G1 × G2) (conjunction : List Str) (sk : List (SecretAttributeKey G1 G2)) : G1 × G2 :=
  conjunction.zipIdx.foldl (fun ret a =>
    match sk.find? fun x => x.attr == a.1 with
    | none => ret
    | some found => if a.2 = 0 then (found.g1, found.g2) else (ret.1 + found.g1, ret.2 + found.g2)) one

/-- `decrypt`, `/repo/src/schemes/mke08/mod.rs:365-398`: the first satisfied conjunction is used; without one the
message element stays `Gt::one()`. -/
def decrypt (env : Env F G1 G2 Gt) (one : G1 × G2) (sk : UserKey G1 G2) (ct : Ciphertext G1 G2 Gt) : Res Bytes := do
  let strAttr := sk.skA.map (·.attr)
  let pol ← parse ct.policy.1 ct.policy.2
  if traversePolicy strAttr pol .leaf = false then .err
  else
    let msg := match ct.e.find? fun j => isSatisfiable j.str sk.skA with
      | some j =>
        let skSum := calcSatisfiable one j.str sk.skA
        j.j1 + j.j2 + env.pair j.j3 skSum.2 + env.pair skSum.1 j.j4 +
          -(env.pair j.j5 sk.sk.g2 + env.pair sk.sk.g1 j.j6)
      | none => 0
    decryptSymmetric env msg ct.ct

end Mke08
end Rabe
