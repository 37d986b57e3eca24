import Verif.Model.Pest
import Verif.Model.SecretSharing
import Verif.Model.Aes

/-!
# YCT14 KP-ABE (no pairing)

Model of `/repo/src/schemes/yct14/mod.rs`.
-/

namespace Rabe
namespace Yct14

variable {F G1 G2 Gt : Type} [Field F] [DecidableEq F] [AddCommGroup G1] [Module F G1]
  [AddCommGroup G2] [Module F G2] [AddCommGroup Gt] [Module F Gt]

/-- `Yct14Type`, `/repo/src/schemes/yct14/mod.rs:61-64`. -/
inductive Node (F Gt : Type) where
  | pub (g : Gt)
  | priv (x : F)
  deriving DecidableEq

/-- `Yct14Attribute`, `/repo/src/schemes/yct14/mod.rs:51-56`. -/
structure Attribute (F Gt : Type) where
  name : Str
  node : Option (Node F Gt)
  deriving DecidableEq

/-- `Yct14AbePublicKey`, `/repo/src/schemes/yct14/mod.rs:142-145`. -/
structure PublicKey (F Gt : Type) where
  g : Gt
  attributes : List (Attribute F Gt)

/-- `Yct14AbeMasterKey`, `/repo/src/schemes/yct14/mod.rs:151-154`. -/
structure MasterKey (F Gt : Type) where
  s : F
  attributes : List (Attribute F Gt)

/-- `Yct14AbeSecretKey`, `/repo/src/schemes/yct14/mod.rs:175-178`. -/
structure SecretKey (F Gt : Type) where
  policy : Str × PolicyLanguage
  du : List (Attribute F Gt)

/-- `Yct14AbeCiphertext`, `/repo/src/schemes/yct14/mod.rs:199-202`. -/
structure Ciphertext (F Gt : Type) where
  attributes : List (Attribute F Gt)
  ct : Bytes

/-- `Yct14Type::public`, `/repo/src/schemes/yct14/mod.rs:67-72`. -/
def Node.public : Node F Gt → Res Gt
  | .pub g => .ok g
  | .priv _ => .err

/-- `Yct14Type::private`, `/repo/src/schemes/yct14/mod.rs:73-78`. -/
def Node.private : Node F Gt → Res F
  | .priv x => .ok x
  | .pub _ => .err

/-- `Yct14Attribute::new`, `/repo/src/schemes/yct14/mod.rs:82-97`: the public and the private part. -/
def Attribute.new (g : Gt) (name : Str) : RM F G1 G2 Gt (Attribute F Gt × Attribute F Gt) := do
  let si ← RM.genFr
  pure ({ name, node := some (.pub (si • g)) }, { name, node := some (.priv si) })

/-- `Yct14AbeMasterKey::get_private`, `/repo/src/schemes/yct14/mod.rs:157-168`: the first attribute with this name and a
node; a node that is not private panics, no such attribute is an error. -/
def MasterKey.getPrivate (msk : MasterKey F Gt) (attr : Str) : Res F :=
  match msk.attributes.find? fun a => a.name == attr && a.node.isSome with
  | none => .err
  | some a => do
      let n ← Res.unwrapOption a.node
      Res.unwrap n.private

/-- `Yct14AbeSecretKey::get_private`, `/repo/src/schemes/yct14/mod.rs:181-192`. -/
def SecretKey.getPrivate (sk : SecretKey F Gt) (attr : Str) : Res F :=
  match sk.du.find? fun a => a.name == attr with
  | none => .err
  | some a => do
      let n ← Res.unwrapOption a.node
      Res.unwrap n.private

/-- `Yct14AbeCiphertext::get_public`, `/repo/src/schemes/yct14/mod.rs:205-216`. -/
def Ciphertext.getPublic (ct : Ciphertext F Gt) (attr : Str) : Res Gt :=
  match ct.attributes.find? fun a => a.name == attr with
  | none => .err
  | some a => do
      let n ← Res.unwrapOption a.node
      Res.unwrap n.public

/-- `Yct14Attribute::private_from`, `/repo/src/schemes/yct14/mod.rs:98-113`. -/
def privateFrom (msk : MasterKey F Gt) (input : Str × F) : Res (Attribute F Gt) := do
  let si ← msk.getPrivate input.1
  let siInv ← inv si
  .ok { name := input.1, node := some (.priv (input.2 * siInv)) }

/-- `Yct14Attribute::public_from`, `/repo/src/schemes/yct14/mod.rs:114-135`. -/
def publicFrom (pk : PublicKey F Gt) (k : F) (name : Str) : Res (Attribute F Gt) := do
  let a ← Res.unwrapOption (pk.attributes.find? fun a => a.name == name)
  match a.node with
  | some (.pub g) => .ok { name, node := some (.pub (k • g)) }
  | some (.priv _) => .panic
  | none => .panic

/-- `setup`, `/repo/src/schemes/yct14/mod.rs:222-249`. -/
def setup (attributes : List Str) : RM F G1 G2 Gt (PublicKey F Gt × MasterKey F Gt) := do
  let s ← RM.genFr
  let g ← RM.genGt
  let pairs ← RM.mapL (Attribute.new g) attributes
  pure ({ g := s • g, attributes := pairs.map (·.1) }, { s, attributes := pairs.map (·.2) })

/-- Body of the loop over the shares in `keygen`, `/repo/src/schemes/yct14/mod.rs:267-273`: an error is printed and the
share is dropped. -/
def keygenShare (msk : MasterKey F Gt) (share : Str × F) : Res (Option (Attribute F Gt)) :=
  match privateFrom msk (removeIndex share.1, share.2) with
  | .ok a => .ok (some a)
  | .err => .ok none
  | .panic => .panic

/-- `keygen`, `/repo/src/schemes/yct14/mod.rs:257-284`. -/
def keygen (msk : MasterKey F Gt) (policy : Str) (language : PolicyLanguage) :
    RM F G1 G2 Gt (SecretKey F Gt) := do
  let pol ← RM.lift (parse policy language)
  let shares? ← RM.liftFr (genSharesPolicy pol msk.s none)
  match shares? with
  | some shares =>
    let du ← RM.lift (Res.mapR (keygenShare msk) shares)
    pure { policy := (policy, language), du := du.filterMap id }
  | none => RM.lift .err

/-- `encrypt`, `/repo/src/schemes/yct14/mod.rs:292-319`. -/
def encrypt (env : Env F G1 G2 Gt) (pk : PublicKey F Gt) (attributes : List Str) (plaintext : Bytes) :
    RM F G1 G2 Gt (Ciphertext F Gt) :=
  if attributes.isEmpty then RM.lift .err
  else if plaintext.isEmpty then RM.lift .err
  else do
    let k ← RM.genFr
    let cs := k • pk.g
    let attrs ← RM.lift (Res.mapR (publicFrom pk k) attributes)
    let ct ← encryptSymmetric env cs plaintext
    pure { attributes := attrs, ct }

/-- Body of the loop over the pruned leaves, `/repo/src/schemes/yct14/mod.rs:345-355`. -/
def decryptStep (sk : SecretKey F Gt) (ct : Ciphertext F Gt) (coeffs : List (Str × F)) (acc : Gt)
    (cur : Str × Str) : Res Gt := do
  let y ← Res.unwrap (ct.getPublic cur.1)
  let x ← Res.unwrap (sk.getPrivate cur.1)
  let z := x • y
  let coeff ← Res.unwrapOption (coeffs.find? fun c => c.1 == cur.2)
  .ok (acc + coeff.2 • z)

/-- `decrypt`, `/repo/src/schemes/yct14/mod.rs:326-365`. -/
def decrypt (env : Env F G1 G2 Gt) (sk : SecretKey F Gt) (ct : Ciphertext F Gt) : Res Bytes := do
  let attr := ct.attributes.map (·.name)
  let policyValue ← parse sk.policy.1 sk.policy.2
  let pruned ← calcPruned attr policyValue none
  if pruned.1 then do
    let coeff? ← calcCoefficients policyValue (some 1) [] none
    let coeffs ← Res.unwrapOption coeff?
    let prod ← Res.foldR (decryptStep sk ct coeffs) 0 pruned.2
    decryptSymmetric env prod ct.ct
  else .err

end Yct14
end Rabe
