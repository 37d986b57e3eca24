import Verif.Model.SecretSharing
import Verif.Model.Pest

/-!
# Recovery of a secret from shares

Model of `recover_secret` in `/repo/src/utils/secretsharing/mod.rs` (used only by the tests of the crate).
-/

namespace Rabe

variable {F : Type} [Field F] [DecidableEq F]

/-- The loop of `recover_secret`, `/repo/src/utils/secretsharing/mod.rs:209-211`: the `i`-th share is multiplied with the
`i`-th coefficient; indexing panics when there are more shares than coefficients. -/
def recoverLoop (coeffs : List (Str × F)) : List F → ℕ → F → Res F
  | [], _, acc => .ok acc
  | s :: ss, i, acc => do
      let c ← Res.unwrapOption coeffs[i]?
      recoverLoop coeffs ss (i + 1) (acc + c.2 * s)

/-- `recover_secret`, `/repo/src/utils/secretsharing/mod.rs:203-213`. -/
def recoverSecret (shares : List F) (policy : Str) : Res F := do
  let v ← (parse policy .json).unwrap
  let r ← calcCoefficients v (some 1) [] none
  let coeffs ← Res.unwrapOption r
  recoverLoop coeffs shares 0 0

end Rabe
