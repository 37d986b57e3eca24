import Verif.Model.Main

/-!
# The words of a command line

How the words of a command line become the arguments of `Verif.Model.Main`. The declarations are those of
`/repo/rabe-console/src/mod.rs:142-469`. What `clap` 2.33 (`/repo/rabe-console/Cargo.toml:32`) does with them is
transcribed from its documentation; its source is not part of `/repo`.

Simplifications. Words are valid UTF-8. A command line that `clap` answers itself (an error, the help text, the version) is
`none`: the process ends before any command runs. The checks that `clap` adds in debug builds are left out: there it
refuses the declarations of `authgen` (an argument with several values before others) and `req-attr-sk` (an optional
argument before a required one) for every command line.
-/

namespace Rabe

variable {F G1 G2 Gt : Type} [Field F] [DecidableEq F] [AddCommGroup G1] [Module F G1]
  [AddCommGroup G2] [Module F G2] [AddCommGroup Gt] [Module F Gt]
  [Borsh F] [Borsh G1] [Borsh G2] [Borsh Gt] [Serde F] [Serde G1] [Serde G2] [Serde Gt]

namespace Console

/-- The arguments without a name, in the order of their declarations, `/repo/rabe-console/src/mod.rs:160-468`. -/
def positionals : Cmd → List Arg
  | .setup => [.msk, .pk, .gp]
  | .authgen => [.gp, .msk, .pk, .attributes, .policy, .name]
  | .keygen => [.gp, .msk, .pk, .sk, .auSk, .policy, .name]
  | .delegate => [.sk, .pk, .attributes]
  | .encrypt => [.file, .policy, .gp, .pk, .attributes]
  | .decrypt => [.file, .gp, .pk, .sk]
  | .reqAttrPk => [.pk, .auSk, .pka, .attributes]
  | .reqAttrSk => [.sk, .ska, .auSk, .attributes]

/-- The argument declared with `last(true)`, `/repo/rabe-console/src/mod.rs:187-194`: it takes the words after `--`. -/
def lastArg : Cmd → Option Arg
  | .setup => some .attributes
  | _ => none

/-- The argument declared with `long(name)`, `/repo/rabe-console/src/mod.rs:294-300`: only `--a` of `keygen`. -/
def longArg (cmd : Cmd) (name : Str) : Option Arg :=
  if cmd = .keygen ∧ name = chars% "a" then some .attributes else none

/-- May this argument have several values (`multiple(true)`, `/repo/rabe-console/src/mod.rs:160-468`)? -/
def isMultiple (cmd : Cmd) (a : Arg) : Bool := ((declare cmd a).map (·.multiple)).getD false

/-- Must this argument be given (`required(true)` without a default value, `/repo/rabe-console/src/mod.rs:160-468`)? -/
def isRequired (cmd : Cmd) (a : Arg) : Bool := ((declare cmd a).map (·.required)).getD false

/-- Does `clap` take a word for the name of an option (`get_matches`, `/repo/rabe-console/src/mod.rs:469`)? It begins with
`-` and is longer than that. -/
def isOption : Str → Bool
  | '-' :: _ :: _ => true
  | _ => false

/-- The name and the value of an option written `name=value` (`clap`, `/repo/rabe-console/src/mod.rs:469`). -/
def splitEq : Str → Str × Option Str
  | [] => ([], none)
  | c :: r => if c = '=' then ([], some r) else (c :: (splitEq r).1, (splitEq r).2)

/-- One more value for an argument (`clap`, `/repo/rabe-console/src/mod.rs:469`). -/
def give (given : Given) (a : Arg) (v : Str) : Given := fun x => if x = a then given x ++ [v] else given x

/-- The state of `clap` while it reads the words of a subcommand (`/repo/rabe-console/src/mod.rs:469`): the arguments
without a name that are still free, whether `--` was read, the option whose value comes next, the values so far. -/
structure Reading where
  free : List Arg
  trailing : Bool
  pending : Option Arg
  given : Given

/-- A word without the meaning of an option goes to the first free argument; an argument with several values stays free
(`clap`, `/repo/rabe-console/src/mod.rs:469`). -/
def readPlain (cmd : Cmd) (st : Reading) (w : Str) : Option Reading :=
  match st.free with
  | [] => none
  | a :: as => some { st with free := if isMultiple cmd a then a :: as else as, given := give st.given a w }

/-- One word (`clap`, `/repo/rabe-console/src/mod.rs:469`). -/
def readWord (cmd : Cmd) (st : Reading) (w : Str) : Option Reading :=
  match st.pending with
  | some a => if isOption w then none else some { st with pending := none, given := give st.given a w }
  | none =>
    if st.trailing = true ∨ isOption w = false then readPlain cmd st w
    else if w = chars% "--" then
      some { st with trailing := true, free := match lastArg cmd with | some a => [a] | none => st.free }
    else match w with
      | '-' :: '-' :: r =>
        match longArg cmd (splitEq r).1 with
        | none => none
        | some a =>
          if st.given a ≠ [] then none
          else match (splitEq r).2 with
            | some v => some { st with given := give st.given a v }
            | none => some { st with pending := some a }
      | _ => none

/-- The words of a subcommand (`clap`, `/repo/rabe-console/src/mod.rs:469`). At the end no value may be missing and the
required arguments must have been given. -/
def readWords (cmd : Cmd) (words : List Str) : Option Given :=
  match words.foldlM (readWord cmd) { free := positionals cmd, trailing := false, pending := none, given := fun _ => [] } with
  | none => none
  | some st =>
    if st.pending = none ∧ (positionals cmd).all (fun a => !isRequired cmd a || !(st.given a).isEmpty) = true then
      some st.given
    else none

/-- The possible values of `--s`, `/repo/rabe-console/src/mod.rs:112-124,151`. -/
def schemeValues : List Str :=
  [chars% "AC17CP", chars% "AC17KP", chars% "AW11", chars% "BDABE", chars% "BSW", chars% "LSW", chars% "MKE08",
    chars% "YCT14"]

/-- The possible values of `--l`, `/repo/rabe-console/src/mod.rs:125-131,159`. -/
def langValues : List Str := [chars% "HUMAN", chars% "JSON"]

/-- The value of an option before the subcommand, `/repo/rabe-console/src/mod.rs:146-161`: it may be given once and must be
one of the possible values. -/
def setOption (s l : Option Str) (name v : Str) : Option (Option Str × Option Str) :=
  if name = chars% "s" ∧ s = none ∧ v ∈ schemeValues then some (some v, l)
  else if name = chars% "l" ∧ l = none ∧ v ∈ langValues then some (s, some v)
  else none

/-- The words after the name of the program (`get_matches`, `/repo/rabe-console/src/mod.rs:142-469`): options, then a
subcommand and its words. The first two arguments are the options read so far. `--s` is required (line 149); a subcommand is
not. -/
def readLine (s l : Option Str) : List Str → Option (Str × Option Str × Option (Str × Given))
  | [] => s.map fun x => (x, l, none)
  | w :: ws =>
    match cmdOf w with
    | some cmd => s.bind fun x => (readWords cmd ws).map fun given => (x, l, some (w, given))
    | none =>
      match w with
      | '-' :: '-' :: r =>
        match (splitEq r).2 with
        | some v => (setOption s l (splitEq r).1 v).bind fun o => readLine o.1 o.2 ws
        | none =>
          match ws with
          | [] => if r = [] then s.map fun x => (x, l, none) else none
          | v :: ws' => (setOption s l (splitEq r).1 v).bind fun o => readLine o.1 o.2 ws'
      | _ => none

/-- The program, called with these words, `/repo/rabe-console/src/mod.rs:111-513`: the exit status (`none` if `clap`
answered itself), the files and the random numbers left. -/
def rabe (con : Con F G1 G2 Gt) (words : List Str) (fs : FS) (t : Tape F G1 G2 Gt) : Option ℕ × FS × Tape F G1 G2 Gt :=
  match readLine none none words with
  | none => (none, fs, t)
  | some (s, l, sub) =>
    let r := main con (some s) l sub fs t
    (some r.1, r.2)

end Console
end Rabe
