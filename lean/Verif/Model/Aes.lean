import Verif.Model.Policy

/-!
# Symmetric payload encryption

Model of `/repo/src/utils/aes/mod.rs`.
-/

namespace Rabe

variable {F G1 G2 Gt : Type} [Field F] [AddCommGroup G1] [Module F G1]
  [AddCommGroup G2] [Module F G2] [AddCommGroup Gt] [Module F Gt]

/-- `encrypt_symmetric`, `/repo/src/utils/aes/mod.rs:10-26`: draws a 12-byte nonce and prepends it. -/
def encryptSymmetric (env : Env F G1 G2 Gt) (msg : Gt) (data : Bytes) : RM F G1 G2 Gt Bytes := do
  let nonce ← RM.genBytes 12
  match env.aeadEnc (env.kdf msg) nonce data with
  | some ct => pure (nonce ++ ct)
  | none => RM.lift .err

/-- `decrypt_symmetric`, `/repo/src/utils/aes/mod.rs:29-44`: `split_off(12)` panics when the input is shorter
than 12 bytes. -/
def decryptSymmetric (env : Env F G1 G2 Gt) (msg : Gt) (nonceCt : Bytes) : Res Bytes :=
  if nonceCt.length < 12 then .panic
  else match env.aeadDec (env.kdf msg) (nonceCt.take 12) (nonceCt.drop 12) with
    | some data => .ok data
    | none => .err

end Rabe
