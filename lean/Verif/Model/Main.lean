import Verif.Model.Console

/-!
# The entry point of the console program

The parameters are what `clap` hands over, that is the values of `--s` and `--l` and the subcommand with its arguments; see
`Verif.Model.CommandLine` for the words of the command line.
-/

namespace Rabe

variable {F G1 G2 Gt : Type} [Field F] [DecidableEq F] [AddCommGroup G1] [Module F G1]
  [AddCommGroup G2] [Module F G2] [AddCommGroup Gt] [Module F Gt]
  [Borsh F] [Borsh G1] [Borsh G2] [Borsh Gt] [Serde F] [Serde G1] [Serde G2] [Serde Gt]

namespace Console

/-- The scheme for the value of `--s`, `/repo/rabe-console/src/mod.rs:478-488`. -/
def schemeOf (s : Str) : Scheme :=
  if s = chars% "AC17CP" then .ac17cp
  else if s = chars% "AC17KP" then .ac17kp
  else if s = chars% "AW11" then .aw11
  else if s = chars% "BDABE" then .bdabe
  else if s = chars% "BSW" then .bsw
  else if s = chars% "LSW" then .lsw
  else if s = chars% "MKE08" then .mke08
  else if s = chars% "YCT14" then .yct14
  else .bsw

/-- The policy language for the value of `--l`, `/repo/rabe-console/src/mod.rs:489-497`. -/
def langOf : Option Str → PolicyLanguage
  | some l => if l = chars% "JSON" then .json else .human
  | none => .human

/-- The subcommand with a name, `/repo/rabe-console/src/mod.rs:102-109,498-507`. -/
def cmdOf (s : Str) : Option Cmd :=
  if s = chars% "setup" then some .setup
  else if s = chars% "authgen" then some .authgen
  else if s = chars% "keygen" then some .keygen
  else if s = chars% "delegate" then some .delegate
  else if s = chars% "encrypt" then some .encrypt
  else if s = chars% "decrypt" then some .decrypt
  else if s = chars% "req-attr-pk" then some .reqAttrPk
  else if s = chars% "req-attr-sk" then some .reqAttrSk
  else none

/-- `run`, `/repo/rabe-console/src/mod.rs:476-513`, once `--s` has a value; without a subcommand it does nothing. -/
def dispatch (con : Con F G1 G2 Gt) (scheme : Str) (lang : Option Str) (sub : Option (Str × Given)) : CM F G1 G2 Gt Unit :=
  match sub.bind fun x => (cmdOf x.1).map (·, x.2) with
  | some (cmd, given) => run con cmd given (schemeOf scheme) (langOf lang)
  | none => CM.pure ()

/-- `main`, `/repo/rabe-console/src/mod.rs:469-474,509-512`: the exit status, the files and the random numbers left.
Simplification: a panic ends the process with status 101, as the Rust runtime does. -/
def main (con : Con F G1 G2 Gt) (scheme lang : Option Str) (sub : Option (Str × Given)) (fs : FS)
    (t : Tape F G1 G2 Gt) : ℕ × FS × Tape F G1 G2 Gt :=
  match scheme with
  | none => (1, fs, t)
  | some s =>
    match dispatch con s lang sub fs t with
    | (.ok _, fs', t') => (0, fs', t')
    | (.err, fs', t') => (1, fs', t')
    | (.panic, fs', t') => (101, fs', t')

end Console
end Rabe
