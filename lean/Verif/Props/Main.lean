import Verif.Model.Main
import Verif.Props.ConsoleFrame

/-!
# C82: the exit status of the console program
-/

set_option linter.unusedSectionVars false

namespace Rabe

variable {F G1 G2 Gt : Type} [Field F] [DecidableEq F] [AddCommGroup G1] [Module F G1]
  [AddCommGroup G2] [Module F G2] [AddCommGroup Gt] [Module F Gt]
  [Borsh F] [Borsh G1] [Borsh G2] [Borsh Gt] [Serde F] [Serde G1] [Serde G2] [Serde Gt]

namespace Console

/-- The name of a scheme on the command line, `/repo/rabe-console/src/mod.rs:112-124`. -/
def _root_.Rabe.Scheme.text : Scheme → Str
  | .ac17cp => chars% "AC17CP"
  | .ac17kp => chars% "AC17KP"
  | .aw11 => chars% "AW11"
  | .bdabe => chars% "BDABE"
  | .bsw => chars% "BSW"
  | .lsw => chars% "LSW"
  | .mke08 => chars% "MKE08"
  | .yct14 => chars% "YCT14"

/-- The name of a language on the command line, `/repo/rabe-console/src/mod.rs:125-131`. -/
def langText : PolicyLanguage → Str
  | .human => chars% "HUMAN"
  | .json => chars% "JSON"

/-- The name of a subcommand on the command line, `/repo/rabe-console/src/mod.rs:102-109`. -/
def _root_.Rabe.Cmd.text : Cmd → Str
  | .setup => chars% "setup"
  | .authgen => chars% "authgen"
  | .keygen => chars% "keygen"
  | .delegate => chars% "delegate"
  | .encrypt => chars% "encrypt"
  | .decrypt => chars% "decrypt"
  | .reqAttrPk => chars% "req-attr-pk"
  | .reqAttrSk => chars% "req-attr-sk"

/-- **C82, partial.** With a subcommand, the exit status is 0 exactly if the command of that name, run for the named
scheme and language, succeeds; 1 exactly if it reports an error; the files are those the command leaves. Missing: the
command line without a subcommand, see `C82_violated`. -/
theorem C82_exit_partial (con : Con F G1 G2 Gt) (scheme : Scheme) (lang : PolicyLanguage) (cmd : Cmd) (given : Given)
    (fs : FS) (t : Tape F G1 G2 Gt) :
    let r := main con (some scheme.text) (some (langText lang)) (some (cmd.text, given)) fs t
    let c := run con cmd given scheme lang fs t
    r.2 = c.2 ∧ (r.1 = 0 ↔ c.1 = .ok ()) ∧ (r.1 = 1 ↔ c.1 = .err) ∧ (r.1 = 101 ↔ c.1 = .panic) := by
  have h1 : schemeOf scheme.text = scheme := by cases scheme <;> decide
  have h2 : langOf (some (langText lang)) = lang := by cases lang <;> decide
  have h3 : cmdOf cmd.text = some cmd := by cases cmd <;> decide
  simp only [main, dispatch, Option.bind_some, h1, h2, h3, Option.map_some]
  rcases run con cmd given scheme lang fs t with ⟨_ | _ | _, fs', t'⟩ <;> simp

/-- Without `--l` policies are in the human language. -/
theorem C82_default_language (con : Con F G1 G2 Gt) (scheme : Option Str) (sub : Option (Str × Given)) (fs : FS)
    (t : Tape F G1 G2 Gt) : main con scheme none sub fs t = main con scheme (some (langText .human)) sub fs t := by
  have h : langOf (some (langText .human)) = langOf none := by decide
  simp only [main, dispatch, h]

/-- Without `--s` the status is 1 and nothing changes. -/
theorem C82_no_scheme (con : Con F G1 G2 Gt) (lang : Option Str) (sub : Option (Str × Given)) (fs : FS)
    (t : Tape F G1 G2 Gt) : main con none lang sub fs t = (1, fs, t) := rfl

/-- Status 0 of a command other than `decrypt` (and the request of BDABE attribute keys, see `C62_violated`) means that
all output files hold readable objects. -/
theorem C82_stored_partial (con : Con F G1 G2 Gt) (scheme : Scheme) (lang : PolicyLanguage) (cmd : Cmd) (given : Given)
    (hd : cmd ≠ .decrypt) (hb : cmd = .reqAttrSk → scheme ≠ .bdabe) (fs fs' : FS) (t t' : Tape F G1 G2 Gt)
    (h : main con (some scheme.text) (some (langText lang)) (some (cmd.text, given)) fs t = (0, fs', t')) :
    outputs given cmd scheme ≠ [] ∧ ∀ q ∈ outputs given cmd scheme, ∃ bs, Holds con fs' q bs := by
  obtain ⟨h1, h2, -⟩ := C82_exit_partial con scheme lang cmd given fs t
  rw [h] at h1 h2
  exact C62_success_partial con cmd given scheme lang hd hb fs fs' t t' (Prod.ext (h2.1 rfl) h1.symm)

/-- **C82 is violated.** Without a subcommand the program does nothing and reports success, for every scheme. -/
theorem C82_violated (con : Con F G1 G2 Gt) (scheme : Str) (lang : Option Str) (fs : FS) (t : Tape F G1 G2 Gt) :
    main con (some scheme) lang none fs t = (0, fs, t) := rfl

/-- The outcomes of `C82_exit_partial` occur: delegation in LSW is refused with status 1, decryption without key files
aborts, and set-up of AW11 ends with status 0, after which `msk.key` is readable as `C82_stored_partial` says. -/
example : (main toyCon (some (chars% "LSW")) none (some (chars% "delegate", noArgs)) toyFS toyTape).1 = 1 ∧
    (main toyCon (some (chars% "BSW")) (some (chars% "JSON")) (some (chars% "decrypt", fun a => if a = .file then [['g']] else []))
      toyFS toyTape).1 = 101 ∧
    ∃ fs' t', main toyCon (some (chars% "AW11")) (some (chars% "HUMAN")) (some (chars% "setup", noArgs)) toyFS toyTape =
      (0, fs', t') ∧ ∃ bs, Holds toyCon fs' (chars% "msk.key") bs := by
  refine ⟨rfl, rfl, ?_⟩
  have h : (match Aw11.setup (F := Fr) (G1 := Fr) (G2 := Fr) (Gt := Fr) toyTape with
    | .ok (gp, _) => (toyCon.format.ser gp).isSome
    | _ => false) = true := by decide +kernel
  split at h
  · rename_i gp t' hset
    obtain ⟨bs, hbs⟩ := Option.isSome_iff_exists.1 h
    obtain ⟨fs', hs⟩ := store_some (con := toyCon) (p := mskDefault) (head := gpBegin) (tail := gpEnd) hbs
      (fs := toyFS) rfl t'
    have hrun : run toyCon .setup noArgs .aw11 .human toyFS toyTape = (.ok (), fs', t') := by
      show (CM.call (Aw11.setup (F := Fr) (G1 := Fr) (G2 := Fr) (Gt := Fr)) >>= fun gp =>
        store toyCon mskDefault gp gpBegin gpEnd) toyFS toyTape = _
      rw [CM.bind_of_ok (call_eq hset), hs]
    obtain ⟨h1, h2, -⟩ := C82_exit_partial toyCon .aw11 .human .setup noArgs toyFS toyTape
    rw [hrun] at h1 h2
    have hm : main toyCon (some Scheme.aw11.text) (some (langText .human)) (some (Cmd.setup.text, noArgs)) toyFS toyTape =
        (0, fs', t') := Prod.ext (h2.2 rfl) h1
    exact ⟨fs', t', hm, (C82_stored_partial toyCon .aw11 .human .setup noArgs (by decide) (by decide) _ _ _ _ hm).2 _
      (by decide)⟩
  · cases h

end Console
end Rabe
