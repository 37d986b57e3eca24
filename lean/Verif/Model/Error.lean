import Verif.Model.Policy

/-!
# Errors

Model of `/repo/src/error.rs`. The other models use `Res.err` without the message.
-/

namespace Rabe

/-- `struct RabeError`, `/repo/src/error.rs:16-21`. -/
structure RabeError where
  details : Str
  deriving DecidableEq

/-- `RabeError::new`, `/repo/src/error.rs:25-27`; `From<String>`, lines 77-81, is the same function. -/
def RabeError.new (msg : Str) : RabeError := ⟨msg⟩

/-- `Display for RabeError`, `/repo/src/error.rs:30-34`. -/
def RabeError.display (e : RabeError) : Str := (chars% "Error: ") ++ e.details

/-- `pest::error::LineColLocation`, used in `/repo/src/error.rs:39-42,52-55`: a position or a span, with lines
and columns. -/
inductive LineColLocation where
  | pos (line col : ℕ)
  | span (startLine startCol endLine endCol : ℕ)

/-- The line that is reported, `/repo/src/error.rs:39-42,52-55`. -/
def LineColLocation.line : LineColLocation → ℕ
  | .pos line _ => line
  | .span s _ e _ => max s e

/-- `From<PestError<jsonRule>>`, `/repo/src/error.rs:37-47`. -/
def RabeError.ofJson (loc : LineColLocation) : RabeError :=
  .new ((chars% "Json Policy Error in line ") ++ natStr loc.line ++ ['\n'])

/-- `From<PestError<humanRule>>`, `/repo/src/error.rs:49-59`. -/
def RabeError.ofHuman (loc : LineColLocation) : RabeError :=
  .new ((chars% "Json Policy Error in line ") ++ natStr loc.line ++ ['\n'])

/-- The error of `parse` for a policy the grammar refuses, `/repo/src/utils/policy/pest/mod.rs:38-66` (`e.into()`);
`loc` is the location reported by `pest`, which is not modelled. -/
def RabeError.ofParse : PolicyLanguage → LineColLocation → RabeError
  | .json, loc => .ofJson loc
  | .human, loc => .ofHuman loc

/-- `rabe_bn::FieldError`, as matched in `/repo/src/error.rs:63-67`. -/
inductive FieldError where
  | invalidSliceLength
  | invalidU512Encoding
  | notMember

/-- `From<FieldError>`, `/repo/src/error.rs:60-69`. -/
def RabeError.ofField : FieldError → RabeError
  | .invalidSliceLength => .new (chars% "FieldError::InvalidSliceLength")
  | .invalidU512Encoding => .new (chars% "FieldError::InvalidU512Encoding")
  | .notMember => .new (chars% "FieldError::NotMember")

end Rabe
