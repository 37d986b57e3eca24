import Verif.Model.Pest
import Verif.Model.SecretSharing
import Verif.Model.Aes

/-!
# BSW CP-ABE

Model of `/repo/src/schemes/bsw/mod.rs`.
-/

namespace Rabe
namespace Bsw

variable {F G1 G2 Gt : Type} [Field F] [DecidableEq F] [AddCommGroup G1] [Module F G1]
  [AddCommGroup G2] [Module F G2] [AddCommGroup Gt] [Module F Gt]

/-- `CpAbePublicKey`, `/repo/src/schemes/bsw/mod.rs:43-49`. -/
structure PublicKey (G1 G2 Gt : Type) where
  g1 : G1
  g2 : G2
  h : G1
  f : G2
  eGgAlpha : Gt

/-- `CpAbeMasterKey`, `/repo/src/schemes/bsw/mod.rs:55-58`. -/
structure MasterKey (F G2 : Type) where
  beta : F
  g2Alpha : G2

/-- `CpAbeAttribute`, `/repo/src/schemes/bsw/mod.rs:85-89`. -/
structure Attribute (G1 G2 : Type) where
  string : Str
  g1 : G1
  g2 : G2

/-- `CpAbeCiphertext`, `/repo/src/schemes/bsw/mod.rs:64-70`. -/
structure Ciphertext (G1 G2 Gt : Type) where
  policy : Str × PolicyLanguage
  c : G1
  cP : Gt
  cY : List (Attribute G1 G2)
  data : Bytes

/-- `CpAbeSecretKey`, `/repo/src/schemes/bsw/mod.rs:76-79`. -/
structure SecretKey (G1 G2 : Type) where
  d : G2
  dJ : List (Attribute G1 G2)

/-- `setup`, `/repo/src/schemes/bsw/mod.rs:92-115`. -/
def setup (env : Env F G1 G2 Gt) : RM F G1 G2 Gt (PublicKey G1 G2 Gt × MasterKey F G2) := do
  let g1 ← RM.genG1
  let g2 ← RM.genG2
  let beta ← RM.genFr
  let alpha ← RM.genFr
  let h := beta • g1
  let betaInv ← RM.lift (inv beta)
  let f := betaInv • g2
  let g2Alpha := alpha • g2
  let eGgAlpha := env.pair g1 g2Alpha
  pure ({ g1, g2, h, f, eGgAlpha }, { beta, g2Alpha })

/-- Body of the loop over the attributes in `keygen`, `/repo/src/schemes/bsw/mod.rs:143-150`. -/
def keygenAttr (env : Env F G1 G2 Gt) (pk : PublicKey G1 G2 Gt) (g2R : G2) (j : Str) :
    RM F G1 G2 Gt (Attribute G1 G2) := do
  let rj ← RM.genFr
  pure { string := j, g1 := rj • pk.g1, g2 := g2R + rj • env.sha3Hash pk.g2 j }

/-- `keygen`, `/repo/src/schemes/bsw/mod.rs:125-152`. -/
def keygen (env : Env F G1 G2 Gt) (pk : PublicKey G1 G2 Gt) (msk : MasterKey F G2)
    (attributes : List Str) : RM F G1 G2 Gt (Option (SecretKey G1 G2)) :=
  if attributes.isEmpty || attributes.length == 0 then pure none
  else do
    let r ← RM.genFr
    let g2R := r • pk.g2
    let betaInv ← RM.lift (inv msk.beta)
    let d := betaInv • (msk.g2Alpha + g2R)
    let dJ ← RM.mapL (keygenAttr env pk g2R) attributes
    pure (some { d, dJ })

/-- Body of the loop in `delegate`, `/repo/src/schemes/bsw/mod.rs:188-200`. -/
def delegateAttr (env : Env F G1 G2 Gt) (pk : PublicKey G1 G2 Gt) (sk : SecretKey G1 G2) (r : F)
    (attr : Str) : RM F G1 G2 Gt (Attribute G1 G2) := do
  let rj ← RM.genFr
  let v ← RM.lift (Res.unwrapOption (sk.dJ.find? fun x => x.string == attr))
  pure { string := attr, g1 := v.g1 + rj • pk.g1,
         g2 := v.g2 + rj • env.sha3Hash pk.g2 attr + r • pk.g2 }

/-- `delegate`, `/repo/src/schemes/bsw/mod.rs:162-206`. -/
def delegate (env : Env F G1 G2 Gt) (pk : PublicKey G1 G2 Gt) (sk : SecretKey G1 G2)
    (subset : List Str) : RM F G1 G2 Gt (Option (SecretKey G1 G2)) :=
  if !isSubset subset (sk.dJ.map (·.string)) then pure none
  else if subset.isEmpty || subset.length == 0 then pure none
  else do
    let r ← RM.genFr
    let dJ ← RM.mapL (delegateAttr env pk sk r) subset
    pure (some { d := sk.d + r • pk.f, dJ })

/-- Ciphertext component of one share, `/repo/src/schemes/bsw/mod.rs:236-243`. -/
def encAttr (env : Env F G1 G2 Gt) (pk : PublicKey G1 G2 Gt) (s : Str × F) : Attribute G1 G2 :=
  { string := s.1, g1 := s.2 • pk.g1, g2 := s.2 • env.sha3Hash pk.g2 (removeIndex s.1) }

/-- `encrypt`, `/repo/src/schemes/bsw/mod.rs:217-251`. The emptiness check of lines 223-225 builds an error and
drops it, so it has no effect. -/
def encrypt (env : Env F G1 G2 Gt) (pk : PublicKey G1 G2 Gt) (policy : Str) (language : PolicyLanguage)
    (plaintext : Bytes) : RM F G1 G2 Gt (Ciphertext G1 G2 Gt) := do
  let secret ← RM.genFr
  let msg ← RM.genGt
  let policyValue ← RM.lift (parse policy language)
  let shares? ← RM.liftFr (genSharesPolicy policyValue secret none)
  let shares ← RM.lift (Res.unwrapOption shares?)
  let data ← encryptSymmetric env msg plaintext
  pure { policy := (policy, language), c := secret • pk.h, cP := secret • pk.eGgAlpha + msg,
         cY := shares.map (encAttr env pk), data }

/-- The loop over the coefficients, `/repo/src/schemes/bsw/mod.rs:289-296`. -/
def coeffLoop (env : Env F G1 G2 Gt) (cy dj : Attribute G1 G2) (j : Str) : List (Str × F) → Gt → Gt
  | [], a => a
  | z :: zs, a =>
      coeffLoop env cy dj j zs
        (if z.1 == j then a + z.2 • (env.pair cy.g1 dj.g2 + -(env.pair dj.g1 cy.g2)) else a)

/-- The loop over the pruned leaves, `/repo/src/schemes/bsw/mod.rs:282-307`. -/
def prunedLoop (env : Env F G1 G2 Gt) (sk : SecretKey G1 G2) (ct : Ciphertext G1 G2 Gt)
    (z : List (Str × F)) : List (Str × Str) → Gt → Gt
  | [], a => a
  | (k, j) :: rest, a =>
      prunedLoop env sk ct z rest
        (match ct.cY.find? fun x => x.string == j with
         | some cy => match sk.dJ.find? fun x => x.string == k with
            | some dj => coeffLoop env cy dj j z a
            | none => a
         | none => a)

/-- `decrypt` up to the recovered session element `_msg`, `/repo/src/schemes/bsw/mod.rs:264-308`. -/
def recoverMsg (env : Env F G1 G2 Gt) (sk : SecretKey G1 G2) (ct : Ciphertext G1 G2 Gt) : Res Gt := do
  let attr := sk.dJ.map (·.string)
  let policyValue ← parse ct.policy.1 ct.policy.2
  if traversePolicy attr policyValue .leaf = false then .err
  else do
    let pruned ← calcPruned attr policyValue none
    if !pruned.1 then .err
    else do
      let z? ← calcCoefficients policyValue (some 1) [] none
      let z ← Res.unwrapOption z?
      let a := prunedLoop env sk ct z pruned.2 0
      .ok (ct.cP + -(env.pair ct.c sk.d + -a))

/-- `decrypt`, `/repo/src/schemes/bsw/mod.rs:260-318`. -/
def decrypt (env : Env F G1 G2 Gt) (sk : SecretKey G1 G2) (ct : Ciphertext G1 G2 Gt) : Res Bytes := do
  let msg ← recoverMsg env sk ct
  decryptSymmetric env msg ct.data

end Bsw
end Rabe
