import Verif.Model.Pest
import Verif.Model.SecretSharing
import Verif.Model.Aes

/-!
# GHW11 CP-ABE with outsourced decryption

Model of `/repo/src/schemes/ghw11/mod.rs`.
-/

namespace Rabe
namespace Ghw11

variable {F G1 G2 Gt : Type} [Field F] [DecidableEq F] [AddCommGroup G1] [Module F G1]
  [AddCommGroup G2] [Module F G2] [AddCommGroup Gt] [Module F Gt]

/-- `Ghw11PublicKey`, `/repo/src/schemes/ghw11/mod.rs:22-28`. -/
structure PublicKey (G1 G2 Gt : Type) where
  g1 : G1
  g2 : G2
  g1A : G1
  g2A : G2
  eGgAlpha : Gt

/-- `Ghw11MasterKey`, `/repo/src/schemes/ghw11/mod.rs:33-36`. -/
structure MasterKey (G1 G2 Gt : Type) where
  g2Alpha : G2
  pk : PublicKey G1 G2 Gt

/-- `Ghw11Attribute`, `/repo/src/schemes/ghw11/mod.rs:53-56`. -/
structure Attribute (G2 : Type) where
  string : Str
  kX : G2

/-- `Ghw11SecretKey`, `/repo/src/schemes/ghw11/mod.rs:41-48`. -/
structure SecretKey (G2 : Type) where
  k : G2
  l : G2
  attrKey : List (Attribute G2)

/-- `Ghw11TransformKey`, `/repo/src/schemes/ghw11/mod.rs:61-65`. -/
structure TransformKey (G2 : Type) where
  kZ : G2
  lZ : G2
  attrKeyZ : List (Attribute G2)

/-- `Ghw11RetrieveKey`, `/repo/src/schemes/ghw11/mod.rs:70-72`. -/
structure RetrieveKey (F : Type) where
  z : F

/-- `Ghw11Ciphertext`, `/repo/src/schemes/ghw11/mod.rs:77-83`. -/
structure Ciphertext (G1 Gt : Type) where
  policy : Str × PolicyLanguage
  c : Gt
  c1 : G1
  ciDi : List (Str × G1 × G1)
  data : Bytes

/-- `Ghw11TransformCiphertext`, `/repo/src/schemes/ghw11/mod.rs:88-91`. -/
structure TransformCiphertext (Gt : Type) where
  c : Gt
  t : Gt

/-- `setup`, `/repo/src/schemes/ghw11/mod.rs:94-113`. -/
def setup (env : Env F G1 G2 Gt) : RM F G1 G2 Gt (PublicKey G1 G2 Gt × MasterKey G1 G2 Gt) := do
  let g1 ← RM.genG1
  let g2 ← RM.genG2
  let a ← RM.genFr
  let alpha ← RM.genFr
  let pk : PublicKey G1 G2 Gt := { g1, g2, g1A := a • g1, g2A := a • g2, eGgAlpha := alpha • env.pair g1 g2 }
  pure (pk, { g2Alpha := alpha • g2, pk })

/-- `keygen`, `/repo/src/schemes/ghw11/mod.rs:123-152`. -/
def keygen (env : Env F G1 G2 Gt) (pk : PublicKey G1 G2 Gt) (msk : MasterKey G1 G2 Gt) (attributes : List Str) :
    RM F G1 G2 Gt (Option (SecretKey G2)) :=
  if attributes.isEmpty || attributes.length == 0 then pure none
  else do
    let r ← RM.genFr
    pure (some { k := msk.g2Alpha + r • pk.g2A, l := r • pk.g2,
                 attrKey := attributes.map fun j => { string := j, kX := r • env.sha3Hash pk.g2 j } })

/-- `tkgen`, `/repo/src/schemes/ghw11/mod.rs:156-178`. -/
def tkgen (sk : SecretKey G2) : RM F G1 G2 Gt (Option (TransformKey G2 × RetrieveKey F)) := do
  let z ← RM.genFr
  let zInv ← RM.lift (inv z)
  pure (some ({ kZ := zInv • sk.k, lZ := zInv • sk.l,
                attrKeyZ := sk.attrKey.map fun x => { string := x.string, kX := zInv • x.kX } }, { z }))

/-- Body of the loop over the shares, `/repo/src/schemes/ghw11/mod.rs:212-216`. -/
def encShare (env : Env F G1 G2 Gt) (pk : PublicKey G1 G2 Gt) (share : Str × F) :
    RM F G1 G2 Gt (Str × G1 × G1) := do
  let ti ← RM.genFr
  let j := removeIndex share.1
  pure (share.1, share.2 • pk.g1A + (-ti) • env.sha3Hash pk.g1 j, ti • pk.g1)

/-- `encrypt`, `/repo/src/schemes/ghw11/mod.rs:189-224`. The emptiness check of lines 195-197 builds an error and
drops it, so it has no effect. -/
def encrypt (env : Env F G1 G2 Gt) (pk : PublicKey G1 G2 Gt) (policy : Str) (language : PolicyLanguage)
    (plaintext : Bytes) : RM F G1 G2 Gt (Ciphertext G1 Gt) := do
  let secret ← RM.genFr
  let msg ← RM.genGt
  let policyValue ← RM.lift (parse policy language)
  let shares? ← RM.liftFr (genSharesPolicy policyValue secret none)
  let shares ← RM.lift (Res.unwrapOption shares?)
  let ciDi ← RM.mapL (encShare env pk) shares
  let data ← encryptSymmetric env msg plaintext
  pure { policy := (policy, language), c := secret • pk.eGgAlpha + msg, c1 := secret • pk.g1, ciDi, data }

/-- Body of the loop over the pruned leaves, `/repo/src/schemes/ghw11/mod.rs:254-280`; the state is `(t, ci_wi)`. -/
def transformStep (env : Env F G1 G2 Gt) (ct : Ciphertext G1 Gt) (tk : TransformKey G2) (coeffs : List (Str × F))
    (acc : Gt × G1) (cur : Str × Str) : Res (Gt × G1) := do
  let coeff ← Res.unwrapOption (coeffs.find? fun c => c.1 == cur.2)
  let tkAttr ← Res.unwrapOption (tk.attrKeyZ.find? fun a => a.string == cur.1)
  let ctAttr ← Res.unwrapOption (ct.ciDi.find? fun a => a.1 == cur.2)
  .ok (acc.1 + env.pair (coeff.2 • ctAttr.2.2) tkAttr.kX, acc.2 + coeff.2 • ctAttr.2.1)

/-- `transform`, `/repo/src/schemes/ghw11/mod.rs:227-294`. -/
def transform (env : Env F G1 G2 Gt) (ct : Ciphertext G1 Gt) (tk : TransformKey G2) :
    Res (TransformCiphertext Gt) := do
  let attr := tk.attrKeyZ.map (·.string)
  let pol ← parse ct.policy.1 ct.policy.2
  if traversePolicy attr pol .leaf = false then .err
  else do
    let pruned ← calcPruned attr pol none
    let coeff? ← calcCoefficients pol (some 1) [] none
    let coeffs ← Res.unwrapOption coeff?
    if pruned.1 then do
      let st ← Res.foldR (transformStep env ct tk coeffs) (0, 0) pruned.2
      let t := st.1 + env.pair st.2 tk.lZ
      .ok { c := ct.c, t := env.pair ct.c1 tk.kZ + -t }
    else .err

/-- `decrypt_out`, `/repo/src/schemes/ghw11/mod.rs:297-304`. -/
def decryptOut (env : Env F G1 G2 Gt) (pct : TransformCiphertext Gt) (rk : RetrieveKey F) (data : Bytes) : Res Bytes :=
  decryptSymmetric env (pct.c + -(rk.z • pct.t)) data

end Ghw11
end Rabe
