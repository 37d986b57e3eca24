import Verif.Model.Pest
import Verif.Model.SecretSharing
import Verif.Model.Aes

/-!
# LSW KP-ABE

Model of `/repo/src/schemes/lsw/mod.rs`.
-/

namespace Rabe

namespace Lsw

variable {F G1 G2 Gt : Type} [Field F] [DecidableEq F] [AddCommGroup G1] [Module F G1]
  [AddCommGroup G2] [Module F G2] [AddCommGroup Gt] [Module F Gt]

/-- `KpAbePublicKey`, `/repo/src/schemes/lsw/mod.rs:44-51`. -/
structure PublicKey (G1 G2 Gt : Type) where
  g1 : G1
  g2 : G2
  g1B : G1
  g1B2 : G1
  hB : G1
  eGgAlpha : Gt

/-- `KpAbeMasterKey`, `/repo/src/schemes/lsw/mod.rs:57-63`. -/
structure MasterKey (F G1 G2 : Type) where
  alpha1 : F
  alpha2 : F
  b : F
  hG1 : G1
  hG2 : G2

/-- Entry of the vector `dj`, `/repo/src/schemes/lsw/mod.rs:71`. -/
structure KeyAttr (G1 G2 : Type) where
  name : Str
  d1 : G1
  d2 : G2
  d3 : G1
  d4 : G1
  d5 : G1

/-- `KpAbeSecretKey`, `/repo/src/schemes/lsw/mod.rs:69-72`. -/
structure SecretKey (G1 G2 : Type) where
  policy : Str × PolicyLanguage
  dj : List (KeyAttr G1 G2)

/-- Entry of the vector `ej`, `/repo/src/schemes/lsw/mod.rs:81`. -/
structure CtAttr (G1 : Type) where
  name : Str
  e1 : G1
  e2 : G1
  e3 : G1

/-- `KpAbeCiphertext`, `/repo/src/schemes/lsw/mod.rs:78-83`. -/
structure Ciphertext (G1 G2 Gt : Type) where
  e1 : Gt
  e2 : G2
  ej : List (CtAttr G1)
  ct : Bytes

/-- `setup`, `/repo/src/schemes/lsw/mod.rs:86-110`. -/
def setup (env : Env F G1 G2 Gt) : RM F G1 G2 Gt (PublicKey G1 G2 Gt × MasterKey F G1 G2) := do
  let alpha1 ← RM.genFr
  let alpha2 ← RM.genFr
  let b ← RM.genFr
  let alpha := alpha1 * alpha2
  let g1 ← RM.genG1
  let g2 ← RM.genG2
  let hG1 ← RM.genG1
  let hG2 ← RM.genG2
  let g1B := b • g1
  pure ({ g1, g2, g1B, g1B2 := b • g1B, hB := b • hG1, eGgAlpha := alpha • env.pair g1 g2 },
    { alpha1, alpha2, b, hG1, hG2 })

/-- Body of the loop over the shares, `/repo/src/schemes/lsw/mod.rs:134-159`. -/
def keygenShare (env : Env F G1 G2 Gt) (pk : PublicKey G1 G2 Gt) (msk : MasterKey F G1 G2) (share : Str × F) :
    RM F G1 G2 Gt (KeyAttr G1 G2) := do
  let striped := removeIndex share.1
  let random ← RM.genFr
  let neg ← RM.lift (isNegative striped)
  if neg then
    let shareHash := env.hash striped
    pure { name := striped, d1 := 0, d2 := 0, d3 := share.2 • pk.g1 + random • pk.g1B2,
           d4 := (shareHash * random) • pk.g1B + random • msk.hG1, d5 := (-random) • pk.g1 }
  else
    let shareHash := env.sha3Hash pk.g1 striped
    pure { name := striped, d1 := (msk.alpha2 * share.2) • pk.g1 + random • shareHash, d2 := random • pk.g2,
           d3 := 0, d4 := 0, d5 := 0 }

/-- `keygen`, `/repo/src/schemes/lsw/mod.rs:121-170`. -/
def keygen (env : Env F G1 G2 Gt) (pk : PublicKey G1 G2 Gt) (msk : MasterKey F G1 G2) (policy : Str)
    (language : PolicyLanguage) : RM F G1 G2 Gt (SecretKey G1 G2) := do
  let policyValue ← RM.lift (parse policy language)
  let shares? ← RM.liftFr (genSharesPolicy policyValue msk.alpha1 none)
  match shares? with
  | some shares =>
    let dj ← RM.mapL (keygenShare env pk msk) shares
    pure { policy := (policy, language), dj }
  | none => RM.lift .err

/-- The loop that fills `sx`, `/repo/src/schemes/lsw/mod.rs:197-200`; `i` is the loop counter. -/
def sxLoop : ℕ → ℕ → List F → RM F G1 G2 Gt (List F)
  | 0, _, sx => pure sx
  | n + 1, i, sx => do
      let r ← RM.genFr
      let sx' := sx ++ [r]
      let s0 ← RM.lift (Res.index sx' 0)
      let si ← RM.lift (Res.index sx' i)
      sxLoop n (i + 1) (sx'.set 0 (s0 - si))

/-- Body of the loop over the attributes, `/repo/src/schemes/lsw/mod.rs:201-208`. -/
def encAttr (env : Env F G1 G2 Gt) (pk : PublicKey G1 G2 Gt) (secret : F) (sx : List F) (a : Str × ℕ) :
    Res (CtAttr G1) := do
  let s ← Res.index sx a.2
  .ok { name := a.1, e1 := secret • env.sha3Hash pk.g1 a.1, e2 := s • pk.g1B,
        e3 := (s * env.hash a.1) • pk.g1B2 + s • pk.hB }

/-- `encrypt`, `/repo/src/schemes/lsw/mod.rs:180-219`. -/
def encrypt (env : Env F G1 G2 Gt) (pk : PublicKey G1 G2 Gt) (attributes : List Str) (plaintext : Bytes) :
    RM F G1 G2 Gt (Ciphertext G1 G2 Gt) :=
  if attributes.isEmpty || plaintext.isEmpty then RM.lift .err
  else do
    let secret ← RM.genFr
    let sx ← sxLoop attributes.length 0 [secret]
    let ej ← RM.lift (Res.mapR (encAttr env pk secret sx) attributes.zipIdx)
    let msg ← RM.genGt
    let ct ← encryptSymmetric env msg plaintext
    pure { e1 := secret • pk.eGgAlpha + msg, e2 := secret • pk.g2, ej, ct }

/-- Body of the loop over the pruned leaves, `/repo/src/schemes/lsw/mod.rs:247-279`; the state is `(prod_t, _z_y)`. For a
negative attribute `_z_y` keeps the value of the previous iteration. -/
def decryptStep (env : Env F G1 G2 Gt) (sk : SecretKey G1 G2) (ct : Ciphertext G1 G2 Gt) (coeffs : List (Str × F))
    (acc : Gt × Gt) (cur : Str × Str) : Res (Gt × Gt) := do
  let skAttr ← Res.unwrapOption (sk.dj.find? fun a => a.name == cur.1)
  let ctAttr ← Res.unwrapOption (ct.ej.find? fun a => a.name == cur.1)
  let coeff ← Res.unwrapOption (coeffs.find? fun c => c.1 == cur.2)
  let neg ← isNegative cur.1
  let zy := if neg then acc.2 else env.pair skAttr.d1 ct.e2 + -(env.pair ctAttr.e1 skAttr.d2)
  .ok (acc.1 + coeff.2 • zy, zy)

/-- `decrypt`, `/repo/src/schemes/lsw/mod.rs:228-290`. -/
def decrypt (env : Env F G1 G2 Gt) (sk : SecretKey G1 G2) (ct : Ciphertext G1 G2 Gt) : Res Bytes := do
  let attr := ct.ej.map (·.name)
  let policyValue ← parse sk.policy.1 sk.policy.2
  let pruned ← calcPruned attr policyValue none
  if pruned.1 then do
    let coeff? ← calcCoefficients policyValue (some 1) [] none
    let coeffs ← Res.unwrapOption coeff?
    let st ← Res.foldR (decryptStep env sk ct coeffs) (0, 0) pruned.2
    decryptSymmetric env (ct.e1 + -st.1) ct.ct
  else .err

end Lsw
end Rabe
