import Verif.Model.BorshTypes
import Verif.Model.Serde

/-!
# The console application

`/repo/rabe-console/src/mod.rs` with its default feature `borsh` (`/repo/rabe-console/Cargo.toml:18`), and the file
helpers of `/repo/src/utils/file/mod.rs`. A command is a state transition of a file system. Output on the terminal is not
modelled.
-/

namespace Rabe

/-- The file system as far as the console uses it. `file p` is the content of the file named `p`; `creatable p` says that
`File::create(p)` succeeds (`/repo/src/utils/file/mod.rs:83`). Simplifications: two different path strings are two
different files; opening and reading an existing file succeeds; writing after a successful open succeeds. The empty path
cannot be opened or created. -/
structure FS where
  file : Str → Option Bytes
  creatable : Str → Bool
  file_nil : file [] = none
  creatable_nil : creatable [] = false

namespace FS

/-- Create or truncate the file `p` and write `data`, `/repo/src/utils/file/mod.rs:83-97`. -/
def write (fs : FS) (p : Str) (data : Bytes) (h : fs.creatable p = true) : FS :=
  { fs with
    file := fun q => if q = p then some data else fs.file q
    file_nil := by
      have hp : ([] : Str) ≠ p := by
        intro e
        rw [← e, fs.creatable_nil] at h
        exact Bool.noConfusion h
      rw [if_neg hp]
      exact fs.file_nil }

end FS

/-- A console computation: it may change the file system, draw random numbers, fail or panic. The file system keeps its
changes when a later step fails or panics (`/repo/rabe-console/src/mod.rs:515-631`). -/
abbrev CM (F G1 G2 Gt α : Type) := FS → Tape F G1 G2 Gt → Res α × FS × Tape F G1 G2 Gt

namespace CM
variable {F G1 G2 Gt α β : Type}

/-- Sequencing (plain sequential Rust code; `Err(e) => return Err(e)`, e.g. `/repo/rabe-console/src/mod.rs:690-693`). -/
@[inline] def bind (m : CM F G1 G2 Gt α) (f : α → CM F G1 G2 Gt β) : CM F G1 G2 Gt β := fun fs t =>
  match m fs t with
  | (.ok a, fs', t') => f a fs' t'
  | (.err, fs', t') => (.err, fs', t')
  | (.panic, fs', t') => (.panic, fs', t')

/-- A step without effect (plain Rust expression, e.g. `Ok(())` at `/repo/rabe-console/src/mod.rs:507`). -/
@[inline] def pure (a : α) : CM F G1 G2 Gt α := fun fs t => (.ok a, fs, t)

instance : Monad (CM F G1 G2 Gt) where
  pure := CM.pure
  bind := CM.bind

/-- A step that uses neither files nor randomness (e.g. the hexadecimal reading at `/repo/rabe-console/src/mod.rs:1675`). -/
@[inline] def lift (r : Res α) : CM F G1 G2 Gt α := fun fs t => (r, fs, t)

/-- Call of a library function that draws random numbers, with an `Err` propagated (e.g.
`/repo/rabe-console/src/mod.rs:694-699`). Simplification: the random numbers
drawn by a call that fails are not removed from the tape. -/
@[inline] def call (m : RM F G1 G2 Gt α) : CM F G1 G2 Gt α := fun fs t =>
  match m t with
  | .ok (a, t') => (.ok a, fs, t')
  | .err => (.err, fs, t)
  | .panic => (.panic, fs, t)

/-- Call of a library function whose `Result` is unwrapped (e.g. `/repo/rabe-console/src/mod.rs:851`). -/
@[inline] def callUnwrap (m : RM F G1 G2 Gt α) : CM F G1 G2 Gt α := fun fs t =>
  match m t with
  | .ok (a, t') => (.ok a, fs, t')
  | .err => (.panic, fs, t)
  | .panic => (.panic, fs, t)

/-- Call of a library function whose `Result` is kept as a value (e.g. `/repo/rabe-console/src/mod.rs:1142`). -/
@[inline] def callTry (m : RM F G1 G2 Gt α) : CM F G1 G2 Gt (Option α) := fun fs t =>
  match m t with
  | .ok (a, t') => (.ok (some a), fs, t')
  | .err => (.ok none, fs, t)
  | .panic => (.panic, fs, t)

/-- `read_file`, `/repo/src/utils/file/mod.rs:5-25`: a missing file or invalid UTF-8 panics. -/
def readFile (p : Str) : CM F G1 G2 Gt Str := fun fs t =>
  (match fs.file p with
    | none => .panic
    | some bs => Res.unwrapOption (ofUtf8 bs), fs, t)

/-- `read_to_vec`, `/repo/src/utils/file/mod.rs:27-47`. -/
def readToVec (p : Str) : CM F G1 G2 Gt Bytes := fun fs t => (Res.unwrapOption (fs.file p), fs, t)

/-- `write_from_vec`, `/repo/src/utils/file/mod.rs:49-68`: the file is opened with `File::open`, for reading only, so a
missing file panics and writing a non-empty buffer fails, which panics; writing nothing succeeds. -/
def writeFromVec (p : Str) (data : Bytes) : CM F G1 G2 Gt Unit := fun fs t =>
  (match fs.file p with
    | none => .panic
    | some _ => if data = [] then .ok () else .panic, fs, t)

/-- `write_file`, `/repo/src/utils/file/mod.rs:78-99`. -/
def writeFile (p : Str) (content : Str) : CM F G1 G2 Gt Unit := fun fs t =>
  if h : fs.creatable p = true then (.ok (), fs.write p (utf8 content) h, t) else (.panic, fs, t)

end CM

/-- `str::lines` of the standard library, used at `/repo/src/utils/file/mod.rs:73`: a line ends with `\n` or `\r\n`, the
last line may lack its ending. The first argument collects the current line in reverse. -/
def linesFrom : Str → Str → List Str
  | acc, [] => if acc = [] then [] else [acc.reverse]
  | acc, c :: r =>
    if c = '\n' then
      (match acc with
        | '\r' :: acc' => acc'.reverse
        | _ => acc.reverse) :: linesFrom [] r
    else linesFrom (c :: acc) r

/-- `read_raw`, `/repo/src/utils/file/mod.rs:70-76`: the second line; there must be one. -/
def readRaw (raw : Str) : Res Str := Res.unwrapOption (linesFrom [] raw)[1]?

/-- A hexadecimal digit (`rustc-hex`, used at `/repo/rabe-console/src/mod.rs:1632`). -/
def hexDigit (n : ℕ) : Char := if n < 10 then Char.ofNat (48 + n) else Char.ofNat (87 + n)

/-- `to_hex` of `rustc-hex`, `/repo/rabe-console/src/mod.rs:1632`: two lower-case digits per byte. -/
def toHex (bs : Bytes) : Str := bs.flatMap fun b => [hexDigit (b.toNat / 16), hexDigit (b.toNat % 16)]

/-- Value of a hexadecimal digit of either case (`rustc-hex`, used at `/repo/rabe-console/src/mod.rs:1675`). -/
def hexVal (c : Char) : Option ℕ :=
  if '0' ≤ c ∧ c ≤ '9' then some (c.toNat - 48)
  else if 'a' ≤ c ∧ c ≤ 'f' then some (c.toNat - 87)
  else if 'A' ≤ c ∧ c ≤ 'F' then some (c.toNat - 55)
  else none

/-- Pairs of digits to bytes (see `fromHex`, `/repo/rabe-console/src/mod.rs:1675`). -/
def hexPairs : Str → Option Bytes
  | [] => some []
  | [_] => none
  | a :: b :: r => (hexVal a).bind fun x => (hexVal b).bind fun y => (hexPairs r).map (UInt8.ofNat (16 * x + y) :: ·)

/-- `from_hex` of `rustc-hex`, `/repo/rabe-console/src/mod.rs:1675`: blanks, tabs and line ends are skipped, another
character or an odd number of digits is an error. -/
def fromHex (s : Str) : Option Bytes :=
  hexPairs (s.filter fun c => !(c == ' ' || c == '\t' || c == '\r' || c == '\n'))

/-- The serialiser, chosen by the features `borsh` (default) and `serde` of the console
(`/repo/rabe-console/Cargo.toml:14-18`). -/
inductive Format where
  | borsh | cbor
  deriving DecidableEq

namespace Format

/-- Names of the variants of `Result` in the derived instance of `serde` (used by `/repo/rabe-console/src/mod.rs:1142-1146`). -/
def resultNames : List Str := [chars% "Ok", chars% "Err"]

/-- The bytes of an object: `input.serialize(&mut buffer)` at `/repo/rabe-console/src/mod.rs:1627`, `to_vec_packed` at line
1643. -/
def ser {α : Type} [Borsh α] [Serde α] (fmt : Format) (x : α) : Option Bytes :=
  match fmt with
  | borsh => Borsh.ser x
  | cbor => Serde.toVec true x

/-- The bytes of a `Result<T, RabeError>`, e.g. `/repo/rabe-console/src/mod.rs:1142-1146`. For `serde` a `Result` is an
enumeration with the variants `Ok` and `Err`, and `RabeError` a structure with the field `details`
(`/repo/src/error.rs:17-21`). -/
def serResult {α : Type} [Borsh α] [Serde α] (fmt : Format) (text : Str) (x : Option α) : Option Bytes :=
  match fmt with
  | borsh => Borsh.serResult text x
  | cbor => Serde.enc (match x with
    | some a => .map [Serde.tagOf true resultNames 0, Serde.toVal true a]
    | none => .map [Serde.tagOf true resultNames 1, .map (Serde.entries true [chars% "details"] 0 [some (.text text)])])

/-- The object in the bytes: `T::try_from_slice` at `/repo/rabe-console/src/mod.rs:1653`, `from_slice` at line 1664. -/
def read (α : Type) [Borsh α] [Serde α] (fmt : Format) (bs : Bytes) : Option α :=
  match fmt with
  | borsh => tryFromSlice α bs
  | cbor => Serde.fromSlice α bs

end Format

/-- What the console links against: the serialiser, the cryptography, `G1::one()`/`G2::one()`, upper-casing, `deflate_bytes` and
`inflate_bytes` (`/repo/rabe-console/src/mod.rs:1630,1677`) with the law that inflating a deflated buffer gives it back,
the white-space test of `split_whitespace` (line 1451) and the text of an error (`/repo/src/error.rs:19-21`). -/
structure Con (F G1 G2 Gt : Type) [Field F] [AddCommGroup G1] [Module F G1] [AddCommGroup G2] [Module F G2]
    [AddCommGroup Gt] [Module F Gt] where
  format : Format := .borsh
  env : Env F G1 G2 Gt
  one : G1 × G2
  cm : CaseMap
  deflate : Bytes → Bytes
  inflate : Bytes → Option Bytes
  inflate_deflate : ∀ bs, inflate (deflate bs) = some bs
  isWhite : Char → Bool
  errText : Str

/-- The schemes offered, `/repo/rabe-console/src/mod.rs:112-124`. -/
inductive Scheme where
  | ac17cp | ac17kp | aw11 | bdabe | bsw | lsw | mke08 | yct14
  deriving DecidableEq

/-- The subcommands, `/repo/rabe-console/src/mod.rs:102-109`. -/
inductive Cmd where
  | setup | authgen | keygen | delegate | encrypt | decrypt | reqAttrPk | reqAttrSk
  deriving DecidableEq

/-- The arguments of the subcommands, `/repo/rabe-console/src/mod.rs:63-79`. -/
inductive Arg where
  | attributes | policy | name | file | gp | msk | pk | sk | ska | pka | auSk
  deriving DecidableEq

/-- How a subcommand declares an argument (see `declare`, `/repo/rabe-console/src/mod.rs:160-466`): an optional default value, whether it may have several
values, whether it must be given. -/
structure Decl where
  dflt : Option Str := none
  multiple : Bool := false
  required : Bool := false

namespace Console

/-- Default file names, `/repo/rabe-console/src/mod.rs:130-138`; this one is line 131. -/
def gpDefault : Str := chars% "gp.key"
/-- Default file name, `/repo/rabe-console/src/mod.rs:132`. -/
def mskDefault : Str := chars% "msk.key"
/-- Default file name, `/repo/rabe-console/src/mod.rs:133`. -/
def pkDefault : Str := chars% "pk.key"
/-- Default file name, `/repo/rabe-console/src/mod.rs:134`. -/
def skDefault : Str := chars% "sk.key"
/-- Default file name, `/repo/rabe-console/src/mod.rs:135`. -/
def skaDefault : Str := chars% "ska.key"
/-- Default file name, `/repo/rabe-console/src/mod.rs:136`. -/
def pkaDefault : Str := chars% "pka.key"
/-- Default file name, `/repo/rabe-console/src/mod.rs:138`. -/
def auSkDefault : Str := chars% "skau.key"

/-- Headers and footers, `/repo/rabe-console/src/mod.rs:81-98`. -/
def gpBegin : Str := chars% "-----BEGIN GP-----\n"
/-- `GP_END`, `/repo/rabe-console/src/mod.rs:83`. -/
def gpEnd : Str := chars% "\n-----END GP-----"
/-- `SK_BEGIN`, `/repo/rabe-console/src/mod.rs:84`. -/
def skBegin : Str := chars% "-----BEGIN SK-----\n"
/-- `SK_END`, `/repo/rabe-console/src/mod.rs:85`. -/
def skEnd : Str := chars% "\n-----END SK-----"
/-- `MSK_BEGIN`, `/repo/rabe-console/src/mod.rs:86`. -/
def mskBegin : Str := chars% "-----BEGIN MSK-----\n"
/-- `MSK_END`, `/repo/rabe-console/src/mod.rs:87`. -/
def mskEnd : Str := chars% "\n-----END MSK-----"
/-- `PK_BEGIN`, `/repo/rabe-console/src/mod.rs:88`. -/
def pkBegin : Str := chars% "-----BEGIN PK-----\n"
/-- `PK_END`, `/repo/rabe-console/src/mod.rs:89`. -/
def pkEnd : Str := chars% "\n-----END PK-----"
/-- `CT_BEGIN`, `/repo/rabe-console/src/mod.rs:90`. -/
def ctBegin : Str := chars% "-----BEGIN CT-----\n"
/-- `CT_END`, `/repo/rabe-console/src/mod.rs:91`. -/
def ctEnd : Str := chars% "\n-----END CT-----"
/-- `SKA_BEGIN`, `/repo/rabe-console/src/mod.rs:92`. -/
def skaBegin : Str := chars% "-----BEGIN SAK-----\n"
/-- `SKA_END`, `/repo/rabe-console/src/mod.rs:93`. -/
def skaEnd : Str := chars% "\n-----END SAK-----"
/-- `PKA_BEGIN`, `/repo/rabe-console/src/mod.rs:94`. -/
def pkaBegin : Str := chars% "-----BEGIN PAK-----\n"
/-- `PKA_END`, `/repo/rabe-console/src/mod.rs:95`. -/
def pkaEnd : Str := chars% "\n-----END PAK-----"
/-- `AU_PK_BEGIN`, `/repo/rabe-console/src/mod.rs:96`. -/
def auPkBegin : Str := chars% "-----BEGIN PAUK-----\n"
/-- `AU_PK_END`, `/repo/rabe-console/src/mod.rs:97`. -/
def auPkEnd : Str := chars% "\n-----END PAUK-----"
/-- `AU_SK_BEGIN`, `/repo/rabe-console/src/mod.rs:98`. -/
def auSkBegin : Str := chars% "-----BEGIN SAUK-----\n"
/-- `AU_SK_END`, `/repo/rabe-console/src/mod.rs:99`. -/
def auSkEnd : Str := chars% "\n-----END SAUK-----"

/-- The declarations of the arguments, `/repo/rabe-console/src/mod.rs:160-466`; `none` for an argument that the
subcommand does not have. -/
def declare : Cmd → Arg → Option Decl
  -- lines 160-193
  | .setup, .msk => some { dflt := mskDefault }
  | .setup, .pk => some { dflt := pkDefault }
  | .setup, .gp => some { dflt := gpDefault }
  | .setup, .attributes => some { multiple := true }
  -- lines 194-237
  | .authgen, .gp => some { dflt := gpDefault }
  | .authgen, .msk => some { dflt := mskDefault }
  | .authgen, .pk => some { dflt := pkDefault }
  | .authgen, .attributes => some { multiple := true }
  | .authgen, .policy => some {}
  | .authgen, .name => some {}
  -- lines 238-297
  | .keygen, .gp => some { dflt := gpDefault }
  | .keygen, .msk => some { dflt := mskDefault }
  | .keygen, .pk => some { dflt := pkDefault }
  | .keygen, .sk => some { dflt := skDefault }
  | .keygen, .auSk => some { dflt := auSkDefault }
  | .keygen, .policy => some {}
  | .keygen, .name => some {}
  | .keygen, .attributes => some {}
  -- lines 298-323
  | .delegate, .sk => some { dflt := skDefault }
  | .delegate, .pk => some { dflt := pkDefault }
  | .delegate, .attributes => some { multiple := true }
  -- lines 324-364
  | .encrypt, .file => some { required := true }
  | .encrypt, .policy => some {}
  | .encrypt, .gp => some { dflt := gpDefault }
  | .encrypt, .pk => some { dflt := pkDefault }
  | .encrypt, .attributes => some { multiple := true }
  -- lines 365-396
  | .decrypt, .file => some { required := true }
  | .decrypt, .gp => some { dflt := gpDefault }
  | .decrypt, .pk => some { dflt := pkDefault }
  | .decrypt, .sk => some { dflt := skDefault }
  -- lines 397-430
  | .reqAttrPk, .pk => some { dflt := pkDefault }
  | .reqAttrPk, .auSk => some { dflt := auSkDefault }
  | .reqAttrPk, .pka => some { dflt := pkaDefault }
  | .reqAttrPk, .attributes => some {}
  -- lines 431-464
  | .reqAttrSk, .sk => some { dflt := skDefault }
  | .reqAttrSk, .ska => some { dflt := skaDefault }
  | .reqAttrSk, .auSk => some { dflt := auSkDefault }
  | .reqAttrSk, .attributes => some {}
  | _, _ => none

/-- The values given on the command line for each argument (`get_matches`, `/repo/rabe-console/src/mod.rs:469`). Every assignment
is considered; which of them the words of a command line produce is the subject of `Verif.Model.CommandLine`. -/
abbrev Given := Arg → List Str

/-- May these values be given to this subcommand (`clap`, `/repo/rabe-console/src/mod.rs:469`)? Only declared arguments,
one value unless `multiple`, required ones present. -/
def Legal (cmd : Cmd) (given : Given) : Prop :=
  ∀ a, match declare cmd a with
    | none => given a = []
    | some d => (d.multiple = false → (given a).length ≤ 1) ∧ (d.required = true → given a ≠ [])

/-- `arguments.values_of(a)` after parsing by `clap` (`/repo/rabe-console/src/mod.rs:469`); the empty list stands for
`None`. An argument with a default value always has one; an argument that is not declared never has one. -/
def valuesOf (cmd : Cmd) (given : Given) (a : Arg) : List Str :=
  match declare cmd a with
  | none => []
  | some d => if given a = [] then d.dflt.toList else given a

/-- `arguments.value_of(a)`, e.g. `/repo/rabe-console/src/mod.rs:519`. -/
def valueOf (cmd : Cmd) (given : Given) (a : Arg) : Option Str := (valuesOf cmd given a).head?

/-- `match arguments.value_of(a) { None => default, Some(f) => f }`, e.g. `/repo/rabe-console/src/mod.rs:519-526`. -/
def fileOr (cmd : Cmd) (given : Given) (a : Arg) (dflt : Str) : Str := (valueOf cmd given a).getD dflt

/-- The file of a name, `/repo/rabe-console/src/mod.rs:677-685,817-824`: `name.key`, or the empty string if no name is
given. -/
def nameFile (o : Option Str) : Str :=
  match o with
  | none => []
  | some n => n ++ chars% ".key"

/-- `split_whitespace`, `/repo/rabe-console/src/mod.rs:1451`. The second argument collects the current word in reverse. -/
def splitWhite (white : Char → Bool) : Str → Str → List Str
  | acc, [] => if acc = [] then [] else [acc.reverse]
  | acc, c :: r =>
    if white c then (if acc = [] then splitWhite white [] r else acc.reverse :: splitWhite white [] r)
    else splitWhite white (c :: acc) r

variable {F G1 G2 Gt : Type} [Field F] [DecidableEq F] [AddCommGroup G1] [Module F G1]
  [AddCommGroup G2] [Module F G2] [AddCommGroup Gt] [Module F Gt]
  [Borsh F] [Borsh G1] [Borsh G2] [Borsh Gt] [Serde F] [Serde G1] [Serde G2] [Serde Gt]

/-- `ser_enc` on the serialised object, `/repo/rabe-console/src/mod.rs:1623-1635`: a serialisation error panics. -/
def encBytes (con : Con F G1 G2 Gt) (bs : Option Bytes) (head tail : Str) : Res Str := do
  let buffer ← Res.unwrapOption bs
  .ok (head ++ toHex (con.deflate buffer) ++ tail)

/-- `ser_enc`, `/repo/rabe-console/src/mod.rs:1623-1635`. -/
def serEnc {α : Type} [Borsh α] [Serde α] (con : Con F G1 G2 Gt) (x : α) (head tail : Str) : Res Str :=
  encBytes con (con.format.ser x) head tail

/-- `ser_dec_bin` after reading the file, `/repo/rabe-console/src/mod.rs:1674-1683`. -/
def decText (con : Con F G1 G2 Gt) (text : Str) : Res Bytes := do
  let line ← readRaw text
  match fromHex line with
  | none => .err
  | some bs =>
    match con.inflate bs with
    | none => .err
    | some b => .ok b

/-- `ser_dec`, `/repo/rabe-console/src/mod.rs:1650-1659`, with `ser_dec_bin`, lines 1672-1683. -/
def serDec (α : Type) [Borsh α] [Serde α] (con : Con F G1 G2 Gt) (p : Str) : CM F G1 G2 Gt α := do
  let text ← CM.readFile p
  let bs ← CM.lift (decText con text)
  match con.format.read α bs with
  | none => CM.lift .err
  | some a => pure a

/-- `write_file(Path::new(&p), ser_enc(x, head, tail))`, e.g. `/repo/rabe-console/src/mod.rs:546-549`. -/
def store {α : Type} [Borsh α] [Serde α] (con : Con F G1 G2 Gt) (p : Str) (x : α) (head tail : Str) : CM F G1 G2 Gt Unit := do
  let text ← CM.lift (serEnc con x head tail)
  CM.writeFile p text

/-- `write_file` of a serialised `Result`, e.g. `/repo/rabe-console/src/mod.rs:1142-1146`. -/
def storeResult {α : Type} [Borsh α] [Serde α] (con : Con F G1 G2 Gt) (p : Str) (x : Option α) (head tail : Str) :
    CM F G1 G2 Gt Unit := do
  let text ← CM.lift (encBytes con (con.format.serResult con.errText x) head tail)
  CM.writeFile p text

/-- `for filename in _pk_files { … push(ser_dec(&filename)?) }`, `/repo/rabe-console/src/mod.rs:1177-1183`. -/
def serDecAll (α : Type) [Borsh α] [Serde α] (con : Con F G1 G2 Gt) : List Str → CM F G1 G2 Gt (List α)
  | [] => pure []
  | p :: ps => do
    let a ← serDec α con p
    let as ← serDecAll α con ps
    pure (a :: as)

/-- `run_setup`, `/repo/rabe-console/src/mod.rs:515-631`. -/
def runSetup (con : Con F G1 G2 Gt) (given : Given) (scheme : Scheme) : CM F G1 G2 Gt Unit :=
  let msk := fileOr .setup given .msk mskDefault
  let pk := fileOr .setup given .pk pkDefault
  match scheme with
  | .ac17cp | .ac17kp => do
    let k ← CM.call (Ac17.setup con.env)
    store con msk k.2 mskBegin mskEnd
    store con pk k.1 pkBegin pkEnd
  | .aw11 => do
    let gp ← CM.call (Aw11.setup (F := F) (Gt := Gt) (G1 := G1) (G2 := G2))
    store con msk gp gpBegin gpEnd
  | .bdabe => do
    let k ← CM.call (Bdabe.setup con.env)
    store con msk k.2 mskBegin mskEnd
    store con pk k.1 pkBegin pkEnd
  | .bsw => do
    let k ← CM.call (Bsw.setup con.env)
    store con msk k.2 mskBegin mskEnd
    store con pk k.1 pkBegin pkEnd
  | .lsw => do
    let k ← CM.call (Lsw.setup con.env)
    store con msk k.2 mskBegin mskEnd
    store con pk k.1 pkBegin pkEnd
  | .mke08 => do
    let k ← CM.call (Mke08.setup con.env)
    store con msk k.2 mskBegin mskEnd
    store con pk k.1 pkBegin pkEnd
  | .yct14 =>
    let attributes := valuesOf .setup given .attributes
    if attributes.length > 0 then do
      let k ← CM.call (Yct14.setup (G1 := G1) (G2 := G2) attributes)
      store con msk k.2 mskBegin mskEnd
      store con pk k.1 pkBegin pkEnd
    else CM.lift .err

/-- `run_authgen`, `/repo/rabe-console/src/mod.rs:633-748`. -/
def runAuthgen (con : Con F G1 G2 Gt) (given : Given) (scheme : Scheme) : CM F G1 G2 Gt Unit :=
  let msk := fileOr .authgen given .msk mskDefault
  let pk := fileOr .authgen given .pk pkDefault
  let gp := fileOr .authgen given .gp gpDefault
  let attributes := valuesOf .authgen given .attributes
  let name := (valueOf .authgen given .name).getD []
  let au := nameFile (valueOf .authgen given .name)
  match scheme with
  | .aw11 => do
    let g ← serDec (Aw11.GlobalKey G1 G2) con gp
    let r ← CM.call (Aw11.authgen con.cm con.env g attributes)
    match r with
    | none => CM.lift .err
    | some k => do
      store con msk k.2 auSkBegin auSkEnd
      store con pk k.1 auPkBegin auPkEnd
  | .bdabe => do
    let p ← serDec (Bdabe.PublicKey G1 G2 Gt) con pk
    let m ← serDec (Bdabe.MasterKey F) con msk
    let sk ← CM.call (Bdabe.authgen p m name)
    store con au sk auSkBegin auSkEnd
  | .mke08 => do
    let _ ← serDec (Mke08.PublicKey G1 G2 Gt) con pk
    let _ ← serDec (Mke08.MasterKey G1 G2) con msk
    let sk ← CM.call (Mke08.authgen (F := F) (G1 := G1) (G2 := G2) (Gt := Gt) name)
    store con au sk auSkBegin auSkEnd
  | _ => CM.lift .err

/-- `run_keygen`, `/repo/rabe-console/src/mod.rs:750-957`. -/
def runKeygen (con : Con F G1 G2 Gt) (given : Given) (scheme : Scheme) (lang : PolicyLanguage) :
    CM F G1 G2 Gt Unit :=
  let msk := fileOr .keygen given .msk mskDefault
  let pk := fileOr .keygen given .pk pkDefault
  let gp := fileOr .keygen given .gp gpDefault
  let sk := fileOr .keygen given .sk skDefault
  let ska := fileOr .keygen given .ska skaDefault
  let attributes := valuesOf .keygen given .attributes
  let policy := (valueOf .keygen given .policy).getD []
  let name := (valueOf .keygen given .name).getD []
  let nameF := nameFile (valueOf .keygen given .name)
  match scheme with
  | .ac17cp => do
    -- an error of `ser_dec` or of `cp_keygen` panics, lines 828-831 and 843
    let m ← fun fs t => match serDec (Ac17.MasterKey F G1 G2) con msk fs t with
      | (.err, s) => (.panic, s)
      | r => r
    let k ← CM.callUnwrap (Ac17.cpKeygen con.env m attributes)
    store con sk k skBegin skEnd
  | .ac17kp => do
    let m ← serDec (Ac17.MasterKey F G1 G2) con msk
    let k ← CM.callUnwrap (Ac17.kpKeygen con.env m policy lang)
    store con sk k skBegin skEnd
  | .bsw => do
    let p ← serDec (Bsw.PublicKey G1 G2 Gt) con pk
    let m ← serDec (Bsw.MasterKey F G2) con msk
    let k? ← CM.call (Bsw.keygen con.env p m attributes)
    let k ← CM.lift (Res.unwrapOption k?)
    store con sk k skBegin skEnd
  | .lsw => do
    let p ← serDec (Lsw.PublicKey G1 G2 Gt) con pk
    let m ← serDec (Lsw.MasterKey F G1 G2) con msk
    let k ← CM.callUnwrap (Lsw.keygen con.env p m policy lang)
    store con sk k skBegin skEnd
  | .aw11 => do
    let g ← serDec (Aw11.GlobalKey G1 G2) con gp
    let m ← serDec (Aw11.MasterKey F) con msk
    let k ← CM.lift (Res.unwrap (Aw11.keygen con.cm con.env g m name attributes))
    store con nameF k skBegin skEnd
  | .bdabe => do
    let p ← serDec (Bdabe.PublicKey G1 G2 Gt) con pk
    let m ← serDec (Bdabe.SecretAuthorityKey F G1 G2) con ska
    let k ← CM.call (Bdabe.keygen p m name)
    store con nameF k skBegin skEnd
  | .mke08 => do
    let p ← serDec (Mke08.PublicKey G1 G2 Gt) con pk
    let m ← serDec (Mke08.MasterKey G1 G2) con msk
    if name ≠ [] then do
      let k ← CM.call (Mke08.keygen (F := F) p m name)
      store con nameF k skBegin skEnd
    else CM.lift .err
  | .yct14 => do
    let _ ← serDec (Yct14.PublicKey F Gt) con pk
    let m ← serDec (Yct14.MasterKey F Gt) con msk
    let k ← CM.callUnwrap (Yct14.keygen (G1 := G1) (G2 := G2) m policy lang)
    store con sk k skBegin skEnd

/-- `run_delegate`, `/repo/rabe-console/src/mod.rs:959-1033`: the name of the output file is set only when no key file is
given (lines 977-985). -/
def runDelegate (con : Con F G1 G2 Gt) (given : Given) (scheme : Scheme) : CM F G1 G2 Gt Unit :=
  let pk := fileOr .delegate given .pk pkDefault
  let sk := fileOr .delegate given .sk skDefault
  let dg := match valueOf .delegate given .sk with
    | none => chars% "sk.del.key"
    | some _ => []
  let attributes := valuesOf .delegate given .attributes
  match scheme with
  | .bsw => do
    let p ← serDec (Bsw.PublicKey G1 G2 Gt) con pk
    let k ← serDec (Bsw.SecretKey G1 G2) con sk
    let d? ← CM.call (Bsw.delegate con.env p k attributes)
    match d? with
    | none => CM.lift .err
    | some d => store con dg d skBegin skEnd
  | _ => CM.lift .err

/-- `run_encrypt`, `/repo/rabe-console/src/mod.rs:1035-1254`: `_pk_file` is set only when no public key file is given
(lines 1047-1060), only AC17CP assigns it later (line 1093). -/
def runEncrypt (con : Con F G1 G2 Gt) (given : Given) (scheme : Scheme) (lang : PolicyLanguage) :
    CM F G1 G2 Gt Unit :=
  let pkFile := match valueOf .encrypt given .pk with
    | none => pkDefault
    | some _ => []
  let pkFiles := match valueOf .encrypt given .pk with
    | none => [pkDefault]
    | some _ => valuesOf .encrypt given .pk
  let gp := fileOr .encrypt given .gp gpDefault
  let attributes := valuesOf .encrypt given .attributes
  let policy := (valueOf .encrypt given .policy).getD []
  let ptFile := (valueOf .encrypt given .file).getD []
  let ctFile := match valueOf .encrypt given .file with
    | none => []
    | some f => f ++ chars% ".ct"
  do
  let buffer ← CM.readToVec ptFile
  match scheme with
  | .ac17cp =>
    match pkFiles with
    | [file] => do
      let p ← serDec (Ac17.PublicKey G1 G2 Gt) con file
      let ct ← CM.call (Ac17.cpEncrypt con.env p policy buffer lang)
      store con ctFile ct ctBegin ctEnd
    | _ => CM.lift .err
  | .ac17kp =>
    match pkFiles with
    | [_] => do
      let p ← serDec (Ac17.PublicKey G1 G2 Gt) con pkFile
      let ct ← CM.call (Ac17.kpEncrypt con.env p attributes buffer)
      store con ctFile ct ctBegin ctEnd
    | _ => CM.lift .err
  | .bsw =>
    match pkFiles with
    | [file] => do
      let p ← serDec (Bsw.PublicKey G1 G2 Gt) con file
      let ct ← CM.callTry (Bsw.encrypt con.env p policy lang buffer)
      storeResult con ctFile ct ctBegin ctEnd
    | _ => CM.lift .err
  | .lsw =>
    match pkFiles with
    | [file] => do
      let p ← serDec (Lsw.PublicKey G1 G2 Gt) con file
      let ct ← CM.callTry (Lsw.encrypt con.env p attributes buffer)
      storeResult con ctFile ct ctBegin ctEnd
    | _ => CM.lift .err
  | .aw11 => do
    let g ← serDec (Aw11.GlobalKey G1 G2) con gp
    let ps ← serDecAll (Aw11.PublicKey G2 Gt) con pkFiles
    let ct ← CM.callTry (Aw11.encrypt con.cm con.env g ps policy lang buffer)
    storeResult con ctFile ct ctBegin ctEnd
  | .bdabe => do
    let p ← serDec (Bdabe.PublicKey G1 G2 Gt) con pkFile
    let ps ← serDecAll (Bdabe.PublicAttributeKey G1 G2 Gt) con pkFiles
    let ct ← CM.callTry (Bdabe.encrypt con.env p ps policy lang buffer)
    storeResult con ctFile ct ctBegin ctEnd
  | .mke08 => do
    let p ← serDec (Mke08.PublicKey G1 G2 Gt) con pkFile
    let ps ← serDecAll (Mke08.PublicAttributeKey G1 G2 Gt) con pkFiles
    let ct ← CM.callTry (Mke08.encrypt con.env p ps policy lang buffer)
    storeResult con ctFile ct ctBegin ctEnd
  | .yct14 =>
    match pkFiles with
    | [file] => do
      let p ← serDec (Yct14.PublicKey F Gt) con file
      let ct ← CM.call (Yct14.encrypt con.env p attributes buffer)
      store con ctFile ct ctBegin ctEnd
    | _ => CM.lift .err

/-- The part of `run_decrypt` before the plaintext is stored, `/repo/rabe-console/src/mod.rs:1256-1400`. -/
def decryptPt (con : Con F G1 G2 Gt) (given : Given) (scheme : Scheme) : CM F G1 G2 Gt Bytes :=
  let sk := fileOr .decrypt given .sk skDefault
  let gp := fileOr .decrypt given .gp gpDefault
  let pk := fileOr .decrypt given .pk pkDefault
  let file := (valueOf .decrypt given .file).getD []
  match scheme with
  | .ac17cp => do
    let k ← serDec (Ac17.CpSecretKey G1 G2) con sk
    let ct ← serDec (Ac17.CpCiphertext G1 G2 Gt) con file
    CM.lift (Ac17.cpDecrypt con.env k ct)
  | .ac17kp => do
    let k ← serDec (Ac17.KpSecretKey G1 G2) con sk
    let ct ← serDec (Ac17.KpCiphertext G1 G2 Gt) con file
    CM.lift (Ac17.kpDecrypt con.env k ct)
  | .bsw => do
    let k ← serDec (Bsw.SecretKey G1 G2) con sk
    let ct ← serDec (Bsw.Ciphertext G1 G2 Gt) con file
    CM.lift (Bsw.decrypt con.env k ct)
  | .lsw => do
    let k ← serDec (Lsw.SecretKey G1 G2) con sk
    let ct ← serDec (Lsw.Ciphertext G1 G2 Gt) con file
    CM.lift (Lsw.decrypt con.env k ct)
  | .aw11 => do
    let g ← serDec (Aw11.GlobalKey G1 G2) con gp
    let k ← serDec (Aw11.SecretKey G1) con sk
    let ct ← serDec (Aw11.Ciphertext G2 Gt) con file
    CM.lift (Aw11.decrypt con.env g k ct)
  | .bdabe => do
    let _ ← serDec (Bdabe.PublicKey G1 G2 Gt) con pk
    let k ← serDec (Bdabe.UserKey G1 G2) con sk
    let ct ← serDec (Bdabe.Ciphertext G1 G2 Gt) con file
    CM.lift (Bdabe.decrypt con.env con.one k ct)
  | .mke08 => do
    let _ ← serDec (Mke08.PublicKey G1 G2 Gt) con gp
    let k ← serDec (Mke08.UserKey G1 G2) con sk
    let ct ← serDec (Mke08.Ciphertext G1 G2 Gt) con file
    CM.lift (Mke08.decrypt con.env con.one k ct)
  | .yct14 => do
    let k ← serDec (Yct14.SecretKey F Gt) con sk
    let ct ← serDec (Yct14.Ciphertext F Gt) con file
    CM.lift (Yct14.decrypt con.env k ct)

/-- Name of the output file of `run_decrypt`, `/repo/rabe-console/src/mod.rs:1406-1409`: the last three characters are
removed. -/
def outFile (given : Given) : Str := ((valueOf .decrypt given .file).getD []).dropLast.dropLast.dropLast

/-- `run_decrypt`, `/repo/rabe-console/src/mod.rs:1256-1416`. -/
def runDecrypt (con : Con F G1 G2 Gt) (given : Given) (scheme : Scheme) : CM F G1 G2 Gt Unit := do
  let pt ← decryptPt con given scheme
  CM.writeFromVec (outFile given) pt

/-- The attributes of a request, `/repo/rabe-console/src/mod.rs:1446-1456`: every value is split at white space. -/
def requested (con : Con F G1 G2 Gt) (cmd : Cmd) (given : Given) : List Str :=
  (valuesOf cmd given .attributes).flatMap (splitWhite con.isWhite [])

/-- `run_req_attr_pk`, `/repo/rabe-console/src/mod.rs:1418-1514`. -/
def runReqAttrPk (con : Con F G1 G2 Gt) (given : Given) (scheme : Scheme) : CM F G1 G2 Gt Unit :=
  let pk := fileOr .reqAttrPk given .pk pkDefault
  let au := fileOr .reqAttrPk given .auSk auSkDefault
  let pka := fileOr .reqAttrPk given .pka pkaDefault
  match requested con .reqAttrPk given with
  | [attr] =>
    match scheme with
    | .mke08 => do
      let p ← serDec (Mke08.PublicKey G1 G2 Gt) con pk
      let s ← serDec (Mke08.SecretAuthorityKey F) con au
      let a ← CM.lift (Mke08.requestAuthorityPk con.env p attr s)
      store con pka a pkaBegin pkaEnd
    | .bdabe => do
      let p ← serDec (Bdabe.PublicKey G1 G2 Gt) con pk
      let s ← serDec (Bdabe.SecretAuthorityKey F G1 G2) con au
      let a ← CM.lift (Bdabe.requestAttributePk con.env p s attr)
      store con pka a pkaBegin pkaEnd
    | _ => CM.lift .err
  | _ => CM.lift .err

/-- `run_req_attr_sk`, `/repo/rabe-console/src/mod.rs:1516-1619`: for BDABE an error of the request is printed and the
command succeeds (line 1608). -/
def runReqAttrSk (con : Con F G1 G2 Gt) (given : Given) (scheme : Scheme) : CM F G1 G2 Gt Unit :=
  let sk := fileOr .reqAttrSk given .sk skDefault
  let au := fileOr .reqAttrSk given .auSk auSkDefault
  let ask := fileOr .reqAttrSk given .ska skaDefault
  match requested con .reqAttrSk given with
  | [attr] =>
    match scheme with
    | .mke08 => do
      let u ← serDec (Mke08.UserKey G1 G2) con sk
      let s ← serDec (Mke08.SecretAuthorityKey F) con au
      let a ← CM.lift (Mke08.requestAuthoritySk con.env u.pk attr s)
      store con ask a skaBegin skaEnd
    | .bdabe => do
      let u ← serDec (Bdabe.UserKey G1 G2) con sk
      let s ← serDec (Bdabe.SecretAuthorityKey F G1 G2) con au
      match Bdabe.requestAttributeSk con.env u.pk s attr with
      | .ok a => store con ask a skaBegin skaEnd
      | .err => pure ()
      | .panic => CM.lift .panic
    | _ => CM.lift .err
  | _ => CM.lift .err

/-- `run`, `/repo/rabe-console/src/mod.rs:476-513`, for a legal command line. -/
def run (con : Con F G1 G2 Gt) (cmd : Cmd) (given : Given) (scheme : Scheme) (lang : PolicyLanguage) :
    CM F G1 G2 Gt Unit :=
  match cmd with
  | .setup => runSetup con given scheme
  | .authgen => runAuthgen con given scheme
  | .keygen => runKeygen con given scheme lang
  | .delegate => runDelegate con given scheme
  | .encrypt => runEncrypt con given scheme lang
  | .decrypt => runDecrypt con given scheme
  | .reqAttrPk => runReqAttrPk con given scheme
  | .reqAttrSk => runReqAttrSk con given scheme

end Console

end Rabe
