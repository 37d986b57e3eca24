import Verif.Proof.Common
import Verif.Instance.Bn

/-!
# C23, C24: symmetric payload
-/

set_option linter.unusedSectionVars false

namespace Rabe

variable {F G1 G2 Gt : Type} [Field F] [AddCommGroup G1] [Module F G1]
  [AddCommGroup G2] [Module F G2] [AddCommGroup Gt] [Module F Gt]

/-- **C23.** Whatever `encrypt_symmetric` returns consists of the 12 random bytes and the AEAD output for the key
derived from the group element, and `decrypt_symmetric` with the same group element returns the plaintext. -/
theorem C23_framing_lossless (env : Env F G1 G2 Gt) (msg : Gt) (data out : Bytes) (t t' : Tape F G1 G2 Gt)
    (h : encryptSymmetric env msg data t = .ok (out, t')) :
    decryptSymmetric env msg out = .ok data ∧
    ∃ nonce c, nonce.length = 12 ∧ nonce = (List.range 12).map t.byte ∧
      env.aeadEnc (env.kdf msg) nonce data = some c ∧ out = nonce ++ c := by
  refine ⟨encryptSymmetric_ok h, ?_⟩
  simp only [encryptSymmetric, RM.bind_ok, RM.genBytes, Res.ok.injEq, Prod.mk.injEq] at h
  obtain ⟨nonce, t1, ⟨rfl, rfl⟩, h⟩ := h
  cases hc : env.aeadEnc (env.kdf msg) ((List.range 12).map t.byte) data with
  | none => simp [hc] at h
  | some c =>
    simp only [hc, RM.pure_ok] at h
    exact ⟨_, c, by simp, rfl, hc, h.1⟩

/-- It succeeds iff the AEAD does, and never panics. -/
theorem C23_encrypt_total (env : Env F G1 G2 Gt) (msg : Gt) (data : Bytes) (t : Tape F G1 G2 Gt) :
    (∃ r, encryptSymmetric env msg data t = .ok r) ∨ encryptSymmetric env msg data t = .err := by
  simp only [encryptSymmetric, RM.bind_apply, RM.genBytes]
  cases env.aeadEnc (env.kdf msg) ((List.range 12).map t.byte) data <;> simp

/-- Encryption succeeds in the concrete environment, also for the empty plaintext. -/
example : (∃ r, encryptSymmetric toyEnv 5 [] toyTape = .ok r) ∧ (∃ r, encryptSymmetric toyEnv 5 [1, 2] toyTape = .ok r) := by
  simp [encryptSymmetric, RM.genBytes, toyEnv]

/-- **C24 is violated.** Every payload shorter than 12 bytes aborts, for every key. -/
theorem C24_violated (env : Env F G1 G2 Gt) (msg : Gt) (data : Bytes) (h : data.length < 12) :
    decryptSymmetric env msg data = .panic := by
  simp [decryptSymmetric, h]

example : ([1, 2, 3] : Bytes).length < 12 := by simp

/-- **C24, partial.** Payloads of at least 12 bytes never abort. (Full claim: all payloads; false, see
`C24_violated`.) -/
theorem C24_no_abort_partial (env : Env F G1 G2 Gt) (msg : Gt) (data : Bytes) (h : 12 ≤ data.length) :
    decryptSymmetric env msg data ≠ .panic := by
  simp only [decryptSymmetric, show ¬ data.length < 12 by omega, if_false]
  split <;> simp

example : decryptSymmetric toyEnv 5 (List.replicate 50 7) = .err := by rfl

end Rabe
