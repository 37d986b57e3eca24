import Verif.Proof.CommandLine
import Verif.Props.ConsoleSession
import Verif.Props.Main

/-!
# C96: what can be said on the command line

The other properties of the console speak about every assignment of values to the arguments of a command. Here the words of
the command line are considered: which assignments can be written down, and which of the calls that the documentation of the
console shows or describes (`/repo/rabe-console/README.md:23-46`) do what it says.
-/

namespace Rabe
open Borsh Console
open Serde (SerdeLaw Shallow)

set_option linter.unusedSectionVars false

/-! ## Assignments that can be written down -/

/-- The arguments without a name in the order in which the help text shows them, `/repo/rabe-console/src/mod.rs:160-468`. -/
def usage : Cmd → List Arg
  | .setup => [.msk, .pk, .gp]
  | .authgen => [.gp, .msk, .pk, .attributes, .policy, .name]
  | .keygen => [.gp, .msk, .pk, .sk, .auSk, .policy, .name]
  | .delegate => [.sk, .pk, .attributes]
  | .encrypt => [.file, .policy, .gp, .pk, .attributes]
  | .decrypt => [.file, .gp, .pk, .sk]
  | .reqAttrPk => [.pk, .auSk, .pka, .attributes]
  | .reqAttrSk => [.sk, .ska, .auSk, .attributes]

/-- The arguments that may have several values. -/
def several : Cmd → Arg → Bool
  | .setup, .attributes | .authgen, .attributes | .delegate, .attributes | .encrypt, .attributes => true
  | _, _ => false

/-- Some words say this. Only arguments of the command have values, one each unless `several`; the file to encrypt or to
decrypt is given; there are no gaps, and nothing follows an argument with several values; the file names of `setup`, which
come before its `--`, do not look like options. -/
structure Sayable (cmd : Cmd) (g : Given) : Prop where
  only : ∀ a, a ∉ usage cmd → ¬ (a = .attributes ∧ (cmd = .setup ∨ cmd = .keygen)) → g a = []
  single : ∀ a, several cmd a = false → (g a).length ≤ 1
  file : cmd = .encrypt ∨ cmd = .decrypt → g .file ≠ []
  order : (usage cmd).Pairwise fun a b => g b ≠ [] → g a ≠ [] ∧ several cmd a = false
  dash : cmd = .setup → ∀ a ∈ usage .setup, ∀ v ∈ g a, ∀ c r, v ≠ '-' :: c :: r

theorem isMultiple_several (cmd : Cmd) : isMultiple cmd = several cmd := by
  funext a; cases cmd <;> cases a <;> rfl

theorem positionals_usage (cmd : Cmd) : positionals cmd = usage cmd := by cases cmd <;> rfl

theorem isOption_false {v : Str} : isOption v = false ↔ ∀ c r, v ≠ '-' :: c :: r := by
  unfold isOption
  split
  · simp
  · rename_i h
    simp only [true_iff]
    exact h

theorem filledL_iff {multi : Arg → Bool} {g : Given} : ∀ {as : List Arg},
    FilledL multi g as ↔ as.Pairwise fun a b => g b ≠ [] → g a ≠ [] ∧ multi a = false
  | [] => by simp [FilledL]
  | a :: as => by
    rw [FilledL, List.pairwise_cons, filledL_iff]
    refine and_congr_left fun _ => ?_
    constructor
    · intro h b hb hg
      refine ⟨fun e => hg (h (Or.inl e) b hb), ?_⟩
      by_contra e
      exact hg (h (Or.inr (by simpa using e)) b hb)
    · intro h hc b hb
      by_contra hg
      obtain ⟨h1, h2⟩ := h b hb hg
      rcases hc with hc | hc
      · exact h1 hc
      · rw [h2] at hc; cases hc

theorem required_iff (cmd : Cmd) (g : Given) :
    (positionals cmd).all (fun a => !isRequired cmd a || !(g a).isEmpty) = true ↔
      (cmd = .encrypt ∨ cmd = .decrypt → g .file ≠ []) := by
  cases cmd <;> simp [positionals, isRequired, declare]

theorem readWords_sayable {cmd : Cmd} {ws : List Str} {g : Given} (h : readWords cmd ws = some g) : Sayable cmd g := by
  unfold readWords at h
  split at h
  · cases h
  · rename_i st hst
    split at h
    · rename_i hc
      cases h
      have hi := inv_words (inv_init cmd) hst
      refine ⟨fun a h1 h2 => hi.declared a (by rwa [positionals_usage]) ?_ ?_, ?_, (required_iff _ _).1 hc.2, ?_, ?_⟩
      · intro e
        obtain ⟨h3, h4, -⟩ := lastArg_some e
        exact h2 ⟨h4, Or.inl h3⟩
      · intro e
        exact h2 ⟨e.2, Or.inr e.1⟩
      · intro a ha
        exact hi.single a (by rwa [isMultiple_several])
      · have := hi.filled
        rwa [filledL_iff, isMultiple_several, positionals_usage] at this
      · intro hs a ha v hv
        exact isOption_false.1 (hi.plain hs a (by rwa [positionals_usage]) v hv)
    · cases h

/-- Words for an assignment: the option of `keygen`, then `--` and the other values in turn; for `setup` the attributes come
last, after `--`. -/
def wordsFor (cmd : Cmd) (g : Given) : List Str :=
  match cmd with
  | .setup => (usage .setup).flatMap g ++ [chars% "--"] ++ g .attributes
  | .keygen => (g .attributes).map (chars% "--a=" ++ ·) ++ [chars% "--"] ++ (usage .keygen).flatMap g
  | c => [chars% "--"] ++ (usage c).flatMap g

theorem readWord_dashes (cmd : Cmd) (st : Reading) (h1 : st.pending = none) (h2 : st.trailing = false) :
    readWord cmd st (chars% "--") =
      some { st with trailing := true, free := match lastArg cmd with | some a => [a] | none => st.free } := by
  unfold readWord
  rw [h1, h2]
  rfl

theorem readWord_long (st : Reading) (h1 : st.pending = none) (h2 : st.trailing = false) (h3 : st.given .attributes = [])
    (v : Str) : readWord .keygen st (chars% "--a=" ++ v) = some { st with given := give st.given .attributes v } := by
  unfold readWord
  rw [h1, h2]
  simp [isOption, splitEq, longArg, h3]

theorem foldlM_last (g : Given) : ∀ (vs : List Str) (st : Reading), st.free = [.attributes] → st.pending = none →
    st.trailing = true → vs.foldlM (readWord .setup) st =
      some { st with given := fun x => if x = .attributes then st.given x ++ vs else st.given x }
  | [], st, _, _, _ => by simp
  | v :: vs, st, h1, h2, h3 => by
    have hs : readWord .setup st v = some { st with given := give st.given .attributes v } := by
      unfold readWord
      simp only [h2, h3, true_or, if_true]
      unfold readPlain
      simp only [h1, h2, h3]
      rfl
    rw [List.foldlM_cons, hs]
    dsimp only [Option.bind_eq_bind, Option.bind_some]
    rw [foldlM_last g vs { st with given := give st.given .attributes v } h1 h2 h3]
    simp only [Option.some.injEq, Reading.mk.injEq, true_and]
    funext x
    by_cases e : x = .attributes
    · subst e; simp [give_self]
    · simp [e, give_ne]

theorem readWords_wordsFor {cmd : Cmd} {g : Given} (h : Sayable cmd g) : readWords cmd (wordsFor cmd g) = some g := by
  have hfill : FilledL (isMultiple cmd) g (positionals cmd) := by
    rw [filledL_iff, isMultiple_several, positionals_usage]; exact h.order
  have hlen : ∀ a ∈ positionals cmd, isMultiple cmd a = false → (g a).length ≤ 1 := fun a _ ha =>
    h.single a (by rwa [isMultiple_several] at ha)
  have hreq := (required_iff cmd g).2 h.file
  have fin : ∀ st : Reading, st.pending = none → st.given = g →
      (wordsFor cmd g).foldlM (readWord cmd)
        { free := positionals cmd, trailing := false, pending := none, given := fun _ => [] } = some st →
      readWords cmd (wordsFor cmd g) = some g := by
    intro st h1 h2 h3
    unfold readWords
    rw [h3]
    dsimp only
    rw [h2, if_pos ⟨h1, hreq⟩]
  by_cases hset : cmd = .setup
  · subst hset
    obtain ⟨fr, hr⟩ := run_plain .setup g (positionals .setup)
      { free := positionals .setup, trailing := false, pending := none, given := fun _ => [] } rfl rfl (by decide)
      (fun _ _ => rfl) hfill hlen fun a ha v hv => Or.inr (isOption_false.2 (h.dash rfl a ha v hv))
    refine fin { free := [.attributes], trailing := true, pending := none, given := g } rfl rfl ?_
    have hw : wordsFor .setup g = (positionals .setup).flatMap g ++ ([chars% "--"] ++ g .attributes) := by
      simp [wordsFor, positionals, usage]
    rw [hw, List.foldlM_append, hr]
    dsimp only [Option.bind_eq_bind, Option.bind_some]
    rw [List.singleton_append, List.foldlM_cons, readWord_dashes _ _ rfl rfl]
    dsimp only [Option.bind_eq_bind, Option.bind_some, lastArg]
    rw [foldlM_last g _ _ rfl rfl rfl]
    simp only [Option.some.injEq, Reading.mk.injEq, true_and]
    funext x
    by_cases e : x = .attributes
    · subst e; simp [positionals]
    · by_cases e2 : x ∈ positionals .setup
      · simp [e, e2]
      · simp [e, e2, h.only x e2 (by simp [e])]
  · have hl : lastArg cmd = none := by cases cmd <;> first | rfl | exact absurd rfl hset
    -- after the option
    have tail : ∀ g0 : Given, (∀ a ∈ positionals cmd, g0 a = []) → (∀ a, a ∉ positionals cmd → g0 a = g a) →
        ∃ st : Reading, st.pending = none ∧ st.given = g ∧ ([chars% "--"] ++ (positionals cmd).flatMap g).foldlM (readWord cmd)
          { free := positionals cmd, trailing := false, pending := none, given := g0 } = some st := by
      intro g0 h0 h1
      obtain ⟨fr, hr⟩ := run_plain cmd g (positionals cmd)
        { free := positionals cmd, trailing := true, pending := none, given := g0 } rfl rfl (positionals_nodup cmd)
        h0 hfill hlen fun a ha v hv => Or.inl rfl
      refine ⟨{ free := fr, trailing := true, pending := none, given := fun x => if x ∈ positionals cmd then g x else g0 x },
        rfl, ?_, ?_⟩
      rotate_left
      · rw [List.singleton_append, List.foldlM_cons, readWord_dashes _ _ rfl rfl]
        dsimp only [Option.bind_eq_bind, Option.bind_some]
        rw [hl]
        exact hr
      · funext x
        by_cases e : x ∈ positionals cmd
        · simp [e]
        · simp [e, h1 x e]
    by_cases hk : cmd = .keygen
    · subst hk
      have hg0 : ∀ a, a ∉ positionals .keygen → a ≠ .attributes → g a = [] := fun a h1 h2 =>
        h.only a h1 (by simp [h2])
      have hw : wordsFor .keygen g = (g .attributes).map (chars% "--a=" ++ ·) ++
          ([chars% "--"] ++ (positionals .keygen).flatMap g) := by
        simp [wordsFor, positionals, usage]
      cases hga : g .attributes with
      | nil =>
        obtain ⟨st, h1, h2, h3⟩ := tail (fun _ => []) (fun _ _ => rfl) fun a ha => by
          by_cases e : a = .attributes
          · rw [e, hga]
          · rw [hg0 a ha e]
        refine fin st h1 h2 ?_
        rw [hw, hga]
        exact h3
      | cons v vs =>
        have hvs : vs = [] := by
          have := h.single .attributes rfl
          rw [hga] at this
          simpa using this
        subst hvs
        obtain ⟨st, h1, h2, h3⟩ := tail (give (fun _ => []) .attributes v)
          (fun a ha => give_ne _ _ fun e => positionals_keygen (e ▸ ha)) fun a ha => by
            by_cases e : a = .attributes
            · rw [e, hga, give_self]; rfl
            · rw [give_ne _ _ e, hg0 a ha e]
        refine fin st h1 h2 ?_
        rw [hw, hga, List.foldlM_append]
        simp only [List.map_cons, List.map_nil, List.foldlM_cons, List.foldlM_nil]
        rw [readWord_long _ rfl rfl rfl]
        exact h3
    · obtain ⟨st, h1, h2, h3⟩ := tail (fun _ => []) (fun _ _ => rfl) fun a ha => by
        rw [h.only a (by rwa [← positionals_usage]) (by simp [hset, hk])]
      refine fin st h1 h2 ?_
      have hw : wordsFor cmd g = [chars% "--"] ++ (positionals cmd).flatMap g := by
        rw [positionals_usage]
        cases cmd <;> first | rfl | exact absurd rfl hset | exact absurd rfl hk
      rw [hw]
      exact h3

/-- **C96, partial.** The assignments that some words of a command line produce are exactly the `Sayable` ones. (Full claim:
all the assignments that the declarations allow; false, see `C96_violated_names`.) -/
theorem C96_words_partial (cmd : Cmd) (g : Given) : (∃ ws, readWords cmd ws = some g) ↔ Sayable cmd g :=
  ⟨fun ⟨_, h⟩ => readWords_sayable h, fun h => ⟨_, readWords_wordsFor h⟩⟩

theorem splitEq_none : ∀ {r : Str}, (splitEq r).2 = none → (splitEq r).1 = r
  | [], _ => rfl
  | c :: r, h => by
    by_cases hc : c = '='
    · simp [splitEq, hc] at h
    · simp only [splitEq, hc, if_false] at h ⊢
      rw [splitEq_none h]

theorem splitEq_some : ∀ {r v : Str}, (splitEq r).2 = some v → r = (splitEq r).1 ++ '=' :: v
  | [], _, h => by simp [splitEq] at h
  | c :: r, v, h => by
    by_cases hc : c = '='
    · simp only [splitEq, hc, if_true, Option.some.injEq] at h ⊢
      simp [h]
    · simp only [splitEq, hc, if_false] at h ⊢
      simpa using splitEq_some h

theorem readWord_dash {cmd : Cmd} {st st' : Reading} {w : Str} (h : readWord cmd st w = some st') (ht : st.trailing = false)
    (hw : w ≠ chars% "--") : st'.trailing = false ∧
      ∀ c r, w = '-' :: c :: r → cmd = .keygen ∧ (w = (chars% "--a") ∨ (chars% "--a=") <+: w) := by
  unfold readWord at h
  cases hp : st.pending with
  | some a =>
    rw [hp] at h
    dsimp only at h
    split at h
    · cases h
    · rename_i ho
      simp only [Option.some.injEq] at h
      subst h
      exact ⟨ht, fun c r e => absurd (by rw [e]; rfl) ho⟩
  | none =>
    rw [hp] at h
    dsimp only at h
    by_cases ho : isOption w = false
    · rw [if_pos (Or.inr ho)] at h
      refine ⟨?_, fun c r e => by rw [e] at ho; cases ho⟩
      unfold readPlain at h
      split at h
      · cases h
      · simp only [Option.some.injEq] at h
        subst h
        exact ht
    · rw [if_neg (by simp [ht, ho]), if_neg hw] at h
      split at h
      · rename_i r
        split at h
        · cases h
        · rename_i a ha
          unfold longArg at ha
          split at ha
          · rename_i hk
            split at h
            · cases h
            · split at h
              · rename_i v hv
                simp only [Option.some.injEq] at h
                subst h
                refine ⟨ht, fun c r' e => ⟨hk.1, Or.inr ?_⟩⟩
                have := splitEq_some hv
                rw [hk.2] at this
                rw [this]
                exact ⟨v, rfl⟩
              · rename_i hv
                simp only [Option.some.injEq] at h
                subst h
                refine ⟨ht, fun c r' e => ⟨hk.1, Or.inl ?_⟩⟩
                rw [← splitEq_none hv, hk.2]
          · cases ha
      · cases h

/-- **C96, words with a dash.** In the words of a subcommand that are accepted, a word that begins with a dash and is longer
is the end of the options, or it is `--a` or `--a=…` of `keygen`. In particular the value after `--a` may not begin with a
dash, and no attribute, policy or file that does can be written as a word of its own. -/
theorem C96_dash {cmd : Cmd} {ws : List Str} {g : Given} (h : readWords cmd ws = some g) (hd : (chars% "--") ∉ ws)
    (c : Char) (r : Str) (hw : '-' :: c :: r ∈ ws) :
    cmd = .keygen ∧ ('-' :: c :: r = (chars% "--a") ∨ (chars% "--a=") <+: '-' :: c :: r) := by
  unfold readWords at h
  have key : ∀ (ws : List Str) (st st' : Reading), ws.foldlM (readWord cmd) st = some st' → st.trailing = false →
      (chars% "--") ∉ ws → '-' :: c :: r ∈ ws →
      cmd = .keygen ∧ ('-' :: c :: r = (chars% "--a") ∨ (chars% "--a=") <+: '-' :: c :: r) := by
    intro ws
    induction ws with
    | nil => intro _ _ _ _ _ h; cases h
    | cons w ws ih =>
      intro st st' hf ht hd hm
      simp only [List.foldlM_cons, Option.bind_eq_bind, Option.bind_eq_some_iff] at hf
      obtain ⟨s1, h1, h2⟩ := hf
      obtain ⟨h3, h4⟩ := readWord_dash h1 ht (fun e => hd (e ▸ List.mem_cons_self ..))
      rcases List.mem_cons.1 hm with e | hm
      · rw [e]
        exact h4 c r e.symm
      · exact ih s1 st' h2 h3 (fun h => hd (List.mem_cons_of_mem _ h)) hm
  split at h
  · cases h
  · rename_i st hst
    exact key ws _ st hst rfl hd hw

/-- A call that meets the hypotheses, and two that are refused. -/
example : (readWords .keygen [chars% "--a=-x"]).isSome = true ∧ readWords .keygen [chars% "--a", chars% "-x"] = none ∧
    readWords .encrypt [chars% "message.txt", chars% "-x"] = none := by
  refine ⟨by decide, ?_, ?_⟩
  · cases h : readWords .keygen [chars% "--a", chars% "-x"] with
    | none => rfl
    | some g => exact absurd (C96_dash h (by decide) 'x' [] (by decide)) (by decide)
  · cases h : readWords .encrypt [chars% "message.txt", chars% "-x"] with
    | none => rfl
    | some g => exact absurd (C96_dash h (by decide) 'x' [] (by decide)) (by decide)

/-- They are legal in the sense of the other properties of the console. -/
theorem C96_legal {cmd : Cmd} {g : Given} (h : Sayable cmd g) : Legal cmd g := by
  intro a
  have h1 := h.only a
  have h2 := h.single a
  have h3 := h.file
  cases cmd <;> cases a <;> simp_all [declare, several, usage]

/-! ## The program -/

section
variable {F G1 G2 Gt : Type} [Field F] [DecidableEq F] [AddCommGroup G1] [Module F G1]
  [AddCommGroup G2] [Module F G2] [AddCommGroup Gt] [Module F Gt]
  [Borsh F] [Serde F] [Borsh G1] [Serde G1] [Borsh G2] [Serde G2] [Borsh Gt] [Serde Gt]

/-- The exit status of a command, see C82. -/
def statusOf : Res Unit → ℕ
  | .ok _ => 0
  | .err => 1
  | .panic => 101

/-- What the program does when it runs a command: the status, the files and the random numbers left. -/
def runs (con : Con F G1 G2 Gt) (cmd : Cmd) (g : Given) (scheme : Scheme) (lang : PolicyLanguage) (fs : FS)
    (t : Tape F G1 G2 Gt) : Option ℕ × FS × Tape F G1 G2 Gt :=
  (some (statusOf (run con cmd g scheme lang fs t).1), (run con cmd g scheme lang fs t).2)

/-- The words of a call: `rabe --s SCHEME [--l LANG] COMMAND …`. -/
def call (scheme : Scheme) (lang : Option PolicyLanguage) (cmd : Cmd) (ws : List Str) : List Str :=
  [chars% "--s", scheme.text] ++ (match lang with | none => [] | some l => [chars% "--l", langText l]) ++ cmd.text :: ws

theorem main_runs (con : Con F G1 G2 Gt) (scheme : Scheme) (lang : Option PolicyLanguage) (cmd : Cmd) (g : Given) (fs : FS)
    (t : Tape F G1 G2 Gt) :
    (some (main con (some scheme.text) (lang.map langText) (some (cmd.text, g)) fs t).1,
      (main con (some scheme.text) (lang.map langText) (some (cmd.text, g)) fs t).2) =
      runs con cmd g scheme (lang.getD .human) fs t := by
  have h1 : schemeOf scheme.text = scheme := by cases scheme <;> decide
  have h2 : langOf (lang.map langText) = lang.getD .human := by
    cases lang with
    | none => rfl
    | some l => cases l <;> decide
  have h3 : cmdOf cmd.text = some cmd := by cases cmd <;> decide
  simp only [main, dispatch, Option.bind_some, h1, h2, h3, Option.map_some, runs]
  rcases run con cmd g scheme (lang.getD .human) fs t with ⟨_ | _ | _, fs', t'⟩ <;> rfl

theorem readLine_call (scheme : Scheme) (lang : Option PolicyLanguage) (cmd : Cmd) (ws : List Str) :
    readLine none none (call scheme lang cmd ws) =
      (readWords cmd ws).map fun g => (scheme.text, lang.map langText, some (cmd.text, g)) := by
  have h3 : cmdOf cmd.text = some cmd := by cases cmd <;> decide
  have hs : setOption none none ['s'] scheme.text = some (some scheme.text, none) := by cases scheme <;> decide
  have step1 : ∀ r, readLine none none ((chars% "--s") :: scheme.text :: r) = readLine (some scheme.text) none r := by
    intro r
    rw [readLine.eq_def]
    dsimp only
    have : cmdOf (chars% "--s") = none := by decide
    rw [this]
    show (setOption none none ['s'] scheme.text).bind _ = _
    rw [hs]; rfl
  cases lang with
  | none =>
    show readLine none none ((chars% "--s") :: scheme.text :: cmd.text :: ws) = _
    rw [step1, readLine.eq_def]
    dsimp only
    rw [h3]
    rfl
  | some l =>
    show readLine none none ((chars% "--s") :: scheme.text :: (chars% "--l") :: langText l :: cmd.text :: ws) = _
    have hl : setOption (some scheme.text) none ['l'] (langText l) = some (some scheme.text, some (langText l)) := by
      cases scheme <;> cases l <;> decide
    rw [step1, readLine.eq_def]
    dsimp only
    have : cmdOf (chars% "--l") = none := by decide
    rw [this]
    show (setOption (some scheme.text) none ['l'] (langText l)).bind _ = _
    rw [hl]
    show readLine (some scheme.text) (some (langText l)) (cmd.text :: ws) = _
    rw [readLine.eq_def]
    dsimp only
    rw [h3]
    rfl

theorem rabe_call (con : Con F G1 G2 Gt) (scheme : Scheme) (lang : Option PolicyLanguage) (cmd : Cmd) (ws : List Str) (fs : FS)
    (t : Tape F G1 G2 Gt) : rabe con (call scheme lang cmd ws) fs t =
      match readWords cmd ws with
      | none => (none, fs, t)
      | some g => runs con cmd g scheme (lang.getD .human) fs t := by
  unfold rabe
  rw [readLine_call]
  cases readWords cmd ws with
  | none => rfl
  | some g => exact main_runs con scheme lang cmd g fs t

theorem cmdOf_text {w : Str} {cmd : Cmd} (h : cmdOf w = some cmd) : w = cmd.text := by
  unfold cmdOf at h
  split_ifs at h <;> (subst_vars; cases h; rfl)

theorem setOption_ok {s l : Option Str} {n v : Str} {o : Option Str × Option Str} (h : setOption s l n v = some o)
    (hs : ∀ x, s = some x → ∃ c : Scheme, x = c.text) (hl : ∀ x, l = some x → ∃ c, x = langText c) :
    (∀ x, o.1 = some x → ∃ c : Scheme, x = c.text) ∧ (∀ x, o.2 = some x → ∃ c, x = langText c) := by
  unfold setOption at h
  split_ifs at h with h1 h2
  · cases h
    refine ⟨fun x hx => ?_, hl⟩
    cases hx
    have := h1.2.2
    simp only [schemeValues, List.mem_cons, List.not_mem_nil, or_false] at this
    rcases this with e | e | e | e | e | e | e | e <;> subst e
    exacts [⟨.ac17cp, rfl⟩, ⟨.ac17kp, rfl⟩, ⟨.aw11, rfl⟩, ⟨.bdabe, rfl⟩, ⟨.bsw, rfl⟩, ⟨.lsw, rfl⟩, ⟨.mke08, rfl⟩, ⟨.yct14, rfl⟩]
  · cases h
    refine ⟨hs, fun x hx => ?_⟩
    cases hx
    have := h2.2.2
    simp only [langValues, List.mem_cons, List.not_mem_nil, or_false] at this
    rcases this with e | e <;> subst e
    exacts [⟨.human, rfl⟩, ⟨.json, rfl⟩]

/-- What the reader of the whole line accepts. -/
theorem readLine_ok : ∀ (n : ℕ) (ws : List Str) (s l : Option Str) (r : Str × Option Str × Option (Str × Given)), ws.length ≤ n →
    readLine s l ws = some r →
    (∀ x, s = some x → ∃ c : Scheme, x = c.text) → (∀ x, l = some x → ∃ c, x = langText c) →
    (∃ c : Scheme, r.1 = c.text) ∧ (∀ x, r.2.1 = some x → ∃ c, x = langText c) ∧
      ∀ x, r.2.2 = some x → ∃ cmd : Cmd, x.1 = cmd.text ∧ Sayable cmd x.2 := by
  intro n
  induction n with
  | zero =>
    intro ws s l r hn h hs hl
    obtain rfl := List.eq_nil_of_length_eq_zero (Nat.le_zero.1 hn)
    rw [readLine] at h
    cases s with
    | none => cases h
    | some x => cases h; exact ⟨hs x rfl, hl, fun _ e => by cases e⟩
  | succ n ih =>
    intro ws s l r hn h hs hl
    cases ws with
    | nil =>
      rw [readLine] at h
      cases s with
      | none => cases h
      | some x => cases h; exact ⟨hs x rfl, hl, fun _ e => by cases e⟩
    | cons w ws =>
      rw [readLine.eq_def] at h
      dsimp only at h
      simp only [List.length_cons, Nat.add_le_add_iff_right] at hn
      split at h
      · rename_i cmd hc
        cases s with
        | none => cases h
        | some x =>
          cases hw : readWords cmd ws with
          | none => rw [hw] at h; cases h
          | some g =>
            rw [hw] at h
            cases h
            refine ⟨hs x rfl, hl, fun y hy => ?_⟩
            cases hy
            exact ⟨cmd, cmdOf_text hc, readWords_sayable hw⟩
      · split at h
        · rename_i r' _
          split at h
          · rename_i v _
            cases ho : setOption s l (splitEq r').1 v with
            | none => rw [ho] at h; cases h
            | some o =>
              rw [ho] at h
              obtain ⟨h1, h2⟩ := setOption_ok ho hs hl
              exact ih ws o.1 o.2 r hn h h1 h2
          · split at h
            · split at h
              · cases s with
                | none => cases h
                | some x => cases h; exact ⟨hs x rfl, hl, fun _ e => by cases e⟩
              · cases h
            · rename_i v ws'
              cases ho : setOption s l (splitEq r').1 v with
              | none => rw [ho] at h; cases h
              | some o =>
                rw [ho] at h
                obtain ⟨h1, h2⟩ := setOption_ok ho hs hl
                exact ih ws' o.1 o.2 r (by simp only [List.length_cons] at hn; omega) h h1 h2
        · cases h

/-- **C96, the program.** Whatever the words: the program changes nothing (`clap` answers, or there is no subcommand), or it
runs a command with an assignment that can be said. -/
theorem C96_program (con : Con F G1 G2 Gt) (words : List Str) (fs : FS) (t : Tape F G1 G2 Gt) :
    rabe con words fs t = (none, fs, t) ∨ rabe con words fs t = (some 0, fs, t) ∨
      ∃ cmd g scheme lang, Sayable cmd g ∧ rabe con words fs t = runs con cmd g scheme lang fs t := by
  unfold rabe
  cases h : readLine none none words with
  | none => exact Or.inl rfl
  | some r =>
    obtain ⟨s, l, sub⟩ := r
    obtain ⟨⟨c, rfl⟩, hl, hsub⟩ := readLine_ok _ words none none _ le_rfl h (fun _ e => by cases e) fun _ e => by cases e
    dsimp only at hl hsub
    cases sub with
    | none => exact Or.inr (Or.inl rfl)
    | some x =>
      obtain ⟨cmd, hx, hg⟩ := hsub x rfl
      obtain ⟨y, g⟩ := x
      dsimp only at hx hg
      subst hx
      have : ∃ lang : Option PolicyLanguage, l = lang.map langText := by
        cases l with
        | none => exact ⟨none, rfl⟩
        | some z =>
          obtain ⟨d, rfl⟩ := hl z rfl
          exact ⟨some d, rfl⟩
      obtain ⟨lang, rfl⟩ := this
      exact Or.inr (Or.inr ⟨cmd, g, c, lang.getD .human, hg, main_runs con c lang cmd g fs t⟩)

/-- Every command with every assignment that can be said is run by some words. -/
theorem C96_program_reach (con : Con F G1 G2 Gt) (cmd : Cmd) (g : Given) (h : Sayable cmd g) (scheme : Scheme)
    (lang : Option PolicyLanguage) (fs : FS) (t : Tape F G1 G2 Gt) :
    rabe con (call scheme lang cmd (wordsFor cmd g)) fs t = runs con cmd g scheme (lang.getD .human) fs t := by
  rw [rabe_call, readWords_wordsFor h]

/-- Without `--s` nothing runs. -/
theorem readLine_no_scheme : ∀ (n : ℕ) (ws : List Str) (l : Option Str), ws.length ≤ n →
    (∀ w ∈ ws, ¬ (chars% "--s") <+: w) → readLine none l ws = none := by
  intro n
  induction n with
  | zero =>
    intro ws l hn _
    obtain rfl := List.eq_nil_of_length_eq_zero (Nat.le_zero.1 hn)
    rfl
  | succ n ih =>
    intro ws l hn h
    cases ws with
    | nil => rfl
    | cons w ws =>
      simp only [List.length_cons, Nat.add_le_add_iff_right] at hn
      rw [readLine.eq_def]
      dsimp only
      split
      · rfl
      · split
        · rename_i r _
          have hname : (splitEq r).1 ≠ ['s'] := by
            intro e
            refine h _ List.mem_cons_self ?_
            cases r with
            | nil => cases e
            | cons c r =>
              rw [splitEq] at e
              split at e
              · cases e
              · simp only [List.cons.injEq] at e
                obtain ⟨rfl, -⟩ := e
                exact ⟨r, rfl⟩
          have hset : ∀ v o, setOption none l (splitEq r).1 v = some o → o.1 = none := by
            intro v o ho
            unfold setOption at ho
            rw [if_neg (fun e => hname e.1)] at ho
            split at ho
            · cases ho; rfl
            · cases ho
          split
          · rename_i v _
            cases ho : setOption none l (splitEq r).1 v with
            | none => rfl
            | some o =>
              rw [Option.bind_some, hset v o ho]
              exact ih ws o.2 hn fun x hx => h x (List.mem_cons_of_mem _ hx)
          · split
            · split <;> rfl
            · rename_i v ws'
              cases ho : setOption none l (splitEq r).1 v with
              | none => rfl
              | some o =>
                rw [Option.bind_some, hset v o ho]
                exact ih ws' o.2 (by simp only [List.length_cons] at hn; omega) fun x hx =>
                  h x (List.mem_cons_of_mem _ (List.mem_cons_of_mem _ hx))
        · rfl

/-- **C96, the scheme is required.** -/
theorem C96_scheme (con : Con F G1 G2 Gt) (words : List Str) (h : ∀ w ∈ words, ¬ (chars% "--s") <+: w) (fs : FS)
    (t : Tape F G1 G2 Gt) : rabe con words fs t = (none, fs, t) := by
  unfold rabe
  rw [readLine_no_scheme _ words none le_rfl h]

/-! ## Gaps can be filled with the default names -/

/-- The same assignment with the default names written out and, before the other arguments of `keygen` and `encrypt`, an
empty policy if there is none. -/
def fill (cmd : Cmd) (g : Given) : Given := fun a =>
  if g a ≠ [] then g a
  else if a = .policy ∧ (cmd = .keygen ∨ cmd = .encrypt) then [[]]
  else ((declare cmd a).bind (·.dflt)).toList

theorem fill_order {cmd : Cmd} {g : Given} (hf : cmd = .encrypt ∨ cmd = .decrypt → g .file ≠ [])
    (ha : cmd = .authgen → g .policy = [] ∧ g .name = []) :
    (usage cmd).Pairwise fun a b => fill cmd g b ≠ [] → fill cmd g a ≠ [] ∧ several cmd a = false := by
  have hne : ∀ a, ((declare cmd a).bind (·.dflt)).isSome = true → fill cmd g a ≠ [] := by
    intro a h
    obtain ⟨d, hd⟩ := Option.isSome_iff_exists.1 h
    unfold fill
    split
    · assumption
    · split
      · simp
      · rw [hd]; simp
  have hp : cmd = .keygen ∨ cmd = .encrypt → fill cmd g .policy ≠ [] := by
    intro h
    unfold fill
    split
    · assumption
    · rw [if_pos ⟨rfl, h⟩]; simp
  have hf' : cmd = .encrypt ∨ cmd = .decrypt → fill cmd g .file ≠ [] := by
    intro h
    unfold fill
    rw [if_pos (hf h)]
    exact hf h
  have ha' : cmd = .authgen → fill cmd g .policy = [] ∧ fill cmd g .name = [] := by
    rintro rfl
    simp [fill, ha rfl, declare]
  have h1 := hne .msk
  have h2 := hne .pk
  have h3 := hne .gp
  have h4 := hne .sk
  have h5 := hne .ska
  have h6 := hne .pka
  have h7 := hne .auSk
  clear hne hf ha
  generalize fill cmd g = k at *
  cases cmd <;> simp only [declare, Option.bind_some, Option.bind_none, Option.isSome_some, Option.isSome_none, true_imp_iff,
      reduceCtorEq, or_self, or_true, true_or, false_imp_iff] at h1 h2 h3 h4 h5 h6 h7 hp hf' ha' <;>
    simp only [usage, List.pairwise_cons, List.mem_cons, List.not_mem_nil, or_false, forall_eq_or_imp, forall_eq, several] <;>
    simp_all

theorem sayable_fill {cmd : Cmd} {g : Given} (hg : Legal cmd g) (ha : cmd = .authgen → g .policy = [] ∧ g .name = [])
    (hd : cmd = .setup → ∀ a ∈ usage .setup, ∀ v ∈ g a, ∀ c r, v ≠ '-' :: c :: r) : Sayable cmd (fill cmd g) := by
  refine ⟨?_, ?_, ?_, ?_, ?_⟩
  · intro a h1 h2
    have h3 := hg a
    cases cmd <;> cases a <;> simp_all [declare, usage, fill]
  · intro a h1
    have h3 := hg a
    unfold fill
    split
    · rename_i hne
      cases cmd <;> cases a <;> simp_all [declare, several]
    · split
      · simp
      · cases (declare cmd a).bind (·.dflt) <;> simp
  · intro hc
    have h3 := hg .file
    rcases hc with rfl | rfl <;> simp_all [declare, fill]
  · refine fill_order (fun h => ?_) ha
    have h3 := hg .file
    rcases h with rfl | rfl <;> exact h3.2 rfl
  · intro hc a h1 v hv c r
    subst hc
    by_cases e : g a = []
    · simp only [usage, List.mem_cons, List.not_mem_nil, or_false] at h1
      rcases h1 with rfl | rfl | rfl <;> simp [fill, e, declare] at hv <;> subst hv <;>
        simp [mskDefault, pkDefault, gpDefault]
    · simp only [fill, ne_eq, e, not_false_eq_true, if_true] at hv
      exact hd rfl a h1 v hv c r

theorem valuesOf_fill (cmd : Cmd) (g : Given) (a : Arg) (h : a ≠ .policy) : valuesOf cmd (fill cmd g) a = valuesOf cmd g a := by
  unfold valuesOf fill
  cases declare cmd a with
  | none => rfl
  | some d =>
    by_cases e : g a = []
    · simp only [e, h, ne_eq, not_true_eq_false, if_false, false_and, Option.bind_some, if_true]
      split
      · rfl
      · rfl
    · simp [e]

theorem policy_fill (cmd : Cmd) (g : Given) :
    (valueOf cmd (fill cmd g) .policy).getD [] = (valueOf cmd g .policy).getD [] := by
  unfold valueOf valuesOf fill
  by_cases e : g .policy = []
  · cases cmd <;> simp [declare, e]
  · cases cmd <;> simp [declare, e]

/-- **C96, partial: nothing but names and policies of authorities is out of reach.** Every assignment that the declarations
allow has the same effect as one that can be said, provided it gives no policy and no name to `authgen` (see
`C96_violated_names`) and no file name that looks like an option to `setup`. -/
theorem C96_reach_partial (cmd : Cmd) (g : Given) (hg : Legal cmd g) (ha : cmd = .authgen → g .policy = [] ∧ g .name = [])
    (hd : cmd = .setup → ∀ a ∈ usage .setup, ∀ v ∈ g a, ∀ c r, v ≠ '-' :: c :: r) :
    ∃ ws, ∀ (con : Con F G1 G2 Gt) (scheme : Scheme) (lang : Option PolicyLanguage) (fs : FS) (t : Tape F G1 G2 Gt),
      rabe con (call scheme lang cmd ws) fs t = runs con cmd g scheme (lang.getD .human) fs t := by
  refine ⟨wordsFor cmd (fill cmd g), fun con scheme lang fs t => ?_⟩
  rw [C96_program_reach con cmd _ (sayable_fill hg ha hd)]
  have hv : ∀ a, a ≠ .policy → valuesOf cmd (fill cmd g) a = valuesOf cmd g a := valuesOf_fill cmd g
  have hp := policy_fill cmd g
  have ho : ∀ a, a ≠ .policy → valueOf cmd (fill cmd g) a = valueOf cmd g a := fun a h => by
    unfold valueOf; rw [hv a h]
  have hf : ∀ a d, a ≠ .policy → fileOr cmd (fill cmd g) a d = fileOr cmd g a d := fun a d h => by
    unfold fileOr; rw [ho a h]
  unfold runs
  have hrun : run con cmd (fill cmd g) scheme (lang.getD .human) = run con cmd g scheme (lang.getD .human) := by
    cases cmd <;> unfold run <;> dsimp only
    · simp (discharger := decide) only [runSetup, hf, hv]
    · simp (discharger := decide) only [runAuthgen, hf, hv, ho]
    · simp (discharger := decide) only [runKeygen, hf, hv, ho, hp]
    · simp (discharger := decide) only [runDelegate, hf, hv, ho]
    · simp (discharger := decide) only [runEncrypt, hf, hv, ho, hp]
    · simp (discharger := decide) only [runDecrypt, decryptPt, outFile, hf, ho]
    · simp (discharger := decide) only [runReqAttrPk, requested, hf, hv]
    · simp (discharger := decide) only [runReqAttrSk, requested, hf, hv]
  rw [hrun]

/-! ## What cannot be said, and what follows -/

/-- **C96 is violated, names of authorities.** No words give a policy or a name to `authgen`: the attributes take all the
words. The declarations allow both. -/
theorem C96_violated_names :
    (∀ ws g, readWords .authgen ws = some g → g .policy = [] ∧ g .name = []) ∧
      ∃ g, Legal .authgen g ∧ g .name ≠ [] ∧ ∀ ws, readWords .authgen ws ≠ some g := by
  have h1 : ∀ ws g, readWords .authgen ws = some g → g .policy = [] ∧ g .name = [] := by
    intro ws g h
    have ho := (readWords_sayable h).order
    simp only [usage, List.pairwise_cons, List.mem_cons, List.not_mem_nil, or_false, forall_eq_or_imp, forall_eq, several] at ho
    obtain ⟨-, -, -, ⟨h1, h2⟩, -⟩ := ho
    constructor
    · by_contra e; exact absurd (h1 e).2 (by simp)
    · by_contra e; exact absurd (h2 e).2 (by simp)
  refine ⟨h1, fun a => if a = .name then [['u']] else [], ?_, by simp, fun ws h => ?_⟩
  · intro a; cases a <;> simp [declare]
  · simpa using (h1 ws _ h).2

variable [BorshLaw F] [BorshLaw G1] [BorshLaw G2] [BorshLaw Gt] [SerdeLaw F] [SerdeLaw G1] [SerdeLaw G2] [SerdeLaw Gt]
  [Shallow F] [Shallow G1] [Shallow G2] [Shallow Gt]

/-- **C96 is violated, authorities.** In the schemes BDABE and MKE08, which need authorities, no call of the program ever
creates one: every `authgen` ends with another status than 0 and leaves all files as they are. -/
theorem C96_violated_authorities (con : Con F G1 G2 Gt) (scheme : Scheme) (hs : scheme = .bdabe ∨ scheme = .mke08)
    (lang : Option PolicyLanguage) (ws : List Str) (fs : FS) (t : Tape F G1 G2 Gt) :
    (rabe con (call scheme lang .authgen ws) fs t).1 ≠ some 0 ∧
      ∀ q, (rabe con (call scheme lang .authgen ws) fs t).2.1.file q = fs.file q := by
  rw [rabe_call]
  cases h : readWords .authgen ws with
  | none => simp
  | some g =>
    obtain ⟨-, hn⟩ := C96_violated_names.1 ws g h
    have hout : outputs g .authgen scheme = [] := by rcases hs with rfl | rfl <;> simp [outputs, hn]
    refine ⟨fun h0 => ?_, fun q => ?_⟩
    · have hok : (run con .authgen g scheme (lang.getD .human) fs t).1 = .ok () := by
        simp only [runs, Option.some.injEq] at h0
        cases hr : (run con .authgen g scheme (lang.getD .human) fs t).1 with
        | ok u => rfl
        | err => rw [hr] at h0; cases h0
        | panic => rw [hr] at h0; cases h0
      exact (C62_success_partial con .authgen g scheme (lang.getD .human) (by simp) (by simp) fs _ t _
        (Prod.ext hok (Prod.mk.eta).symm)).1 hout
    · exact C61_frame con .authgen g scheme (lang.getD .human) fs t q (by simp [hout])

theorem runs_ok {con : Con F G1 G2 Gt} {cmd : Cmd} {g : Given} {scheme : Scheme} {lang : PolicyLanguage} {fs fs' : FS}
    {t t' : Tape F G1 G2 Gt} (h : runs con cmd g scheme lang fs t = (some 0, fs', t')) :
    run con cmd g scheme lang fs t = (.ok (), fs', t') := by
  unfold runs at h
  rcases hr : run con cmd g scheme lang fs t with ⟨_ | _ | _, x, y⟩ <;> rw [hr] at h <;> cases h
  rfl

/-- A call that ends with status 0 ran its command. -/
theorem rabe_ok {con : Con F G1 G2 Gt} {cmd : Cmd} {ws : List Str} {scheme : Scheme} {lang : Option PolicyLanguage} {fs fs' : FS}
    {t t' : Tape F G1 G2 Gt} (h : rabe con (call scheme lang cmd ws) fs t = (some 0, fs', t')) :
    ∃ g, readWords cmd ws = some g ∧ run con cmd g scheme (lang.getD .human) fs t = (.ok (), fs', t') := by
  rw [rabe_call] at h
  cases hw : readWords cmd ws with
  | none => rw [hw] at h; cases h
  | some g => rw [hw] at h; exact ⟨g, rfl, runs_ok h⟩

/-- **C96 is violated, attributes.** Whatever the words, the keys that the program issues in the ciphertext-policy schemes
are for at most one attribute: a call of `keygen` that ends with status 0 has stored a key which the library generated for
at most one. -/
theorem C96_violated_attributes (con : Con F G1 G2 Gt) (lang : Option PolicyLanguage) (ws : List Str) (fs fs' : FS)
    (t t' : Tape F G1 G2 Gt) :
    (rabe con (call .ac17cp lang .keygen ws) fs t = (some 0, fs', t') → ∃ msk attrs sk q, attrs.length ≤ 1 ∧
      Ac17.cpKeygen con.env msk attrs t = .ok (sk, t') ∧ Reads con fs' q sk ∧ ∀ q', q' ≠ q → fs'.file q' = fs.file q') ∧
    (rabe con (call .bsw lang .keygen ws) fs t = (some 0, fs', t') → ∃ pk msk attrs sk q, attrs.length ≤ 1 ∧
      Bsw.keygen con.env pk msk attrs t = .ok (some sk, t') ∧ Reads con fs' q sk ∧ ∀ q', q' ≠ q → fs'.file q' = fs.file q') ∧
    (rabe con (call .aw11 lang .keygen ws) fs t = (some 0, fs', t') → ∃ gk msk n attrs sk q, attrs.length ≤ 1 ∧
      Aw11.keygen con.cm con.env gk msk n attrs = .ok sk ∧ Reads con fs' q sk ∧ ∀ q', q' ≠ q → fs'.file q' = fs.file q') := by
  refine ⟨fun h => ?_, fun h => ?_, fun h => ?_⟩
  · obtain ⟨g, hw, hr⟩ := rabe_ok h
    obtain ⟨msk, sk, -, hk, hs⟩ := C63_keygen_partial con g .ac17cp _ _ _ _ _ hr
    exact ⟨msk, _, sk, _, (readWords_sayable hw).single .attributes rfl, hk, hs, fun q' hq => frame_ok hr (by simpa [outputs] using hq)⟩
  · obtain ⟨g, hw, hr⟩ := rabe_ok h
    obtain ⟨pk, msk, sk, -, -, hk, hs⟩ := C63_keygen_partial con g .bsw _ _ _ _ _ hr
    exact ⟨pk, msk, _, sk, _, (readWords_sayable hw).single .attributes rfl, hk, hs, fun q' hq => frame_ok hr (by simpa [outputs] using hq)⟩
  · obtain ⟨g, hw, hr⟩ := rabe_ok h
    obtain ⟨gk, msk, n, sk, -, -, hn, hk, -, hs⟩ := C63_keygen_partial con g .aw11 _ _ _ _ _ hr
    exact ⟨gk, msk, n, _, sk, _, (readWords_sayable hw).single .attributes rfl, hk, hs,
      fun q' hq => frame_ok hr (by simpa [outputs, hn] using hq)⟩

theorem cpKeygen_attr {env : Env F G1 G2 Gt} {msk : Ac17.MasterKey F G1 G2} {attrs : List Str} {t t' : Tape F G1 G2 Gt}
    {sk : Ac17.CpSecretKey G1 G2} (h : Ac17.cpKeygen env msk attrs t = .ok (sk, t')) : sk.attr = attrs := by
  unfold Ac17.cpKeygen at h
  split at h
  · simp at h
  · simp only [RM.bind_ok, RM.genFr, RM.lift_ok_iff, RM.pure_ok, Res.ok.injEq, Prod.mk.injEq] at h
    obtain ⟨-, -, -, -, -, -, -, -, -, -, -, -, -, -, -, -, -, -, -, -, -, rfl, -⟩ := h
    rfl

theorem cpEncrypt_policy {env : Env F G1 G2 Gt} {pk : Ac17.PublicKey G1 G2 Gt} {text : Str} {lang : PolicyLanguage} {pt : Bytes}
    {t t' : Tape F G1 G2 Gt} {ct : Ac17.CpCiphertext G1 G2 Gt} (h : Ac17.cpEncrypt env pk text pt lang t = .ok (ct, t')) :
    ct.policy = (text, lang) := by
  unfold Ac17.cpEncrypt at h
  simp only [RM.bind_ok, RM.pure_ok, Res.ok.injEq, Prod.mk.injEq] at h
  obtain ⟨-, -, -, -, -, -, -, -, -, -, -, -, -, -, -, -, -, -, -, -, -, -, -, -, -, -, -, rfl, -⟩ := h
  rfl

/-- **C96 is violated, sessions.** A file encrypted with AC17 CP-ABE for a policy that no single attribute satisfies cannot
be decrypted with a key that the program issued: whatever the words of the calls of `keygen`, `encrypt` and `decrypt` and
whatever happens in between, if the key and the ciphertext are still in the files when `decrypt` reads them, it ends with
status 1 and changes nothing. -/
theorem C96_violated_session (con : Con F G1 G2 Gt) (l2 l3 l4 : Option PolicyLanguage) (w2 w3 w4 : List Str) (g2 g3 g4 : Given)
    (h2 : readWords .keygen w2 = some g2) (h3 : readWords .encrypt w3 = some g3) (h4 : readWords .decrypt w4 = some g4)
    (p : Pol) (hp : Denotes (argOr g3 .policy []) (l3.getD .human) p) (hno : ∀ a, p.sat [a] = false)
    (fs1 fs2 fs3 fs4 fs5 : FS) (t1 t2 t3 t4 t5 : Tape F G1 G2 Gt)
    (hk : rabe con (call .ac17cp l2 .keygen w2) fs1 t1 = (some 0, fs2, t2))
    (he : rabe con (call .ac17cp l3 .encrypt w3) fs3 t3 = (some 0, fs4, t4))
    (hsk : argOr g4 .sk (chars% "sk.key") = argOr g2 .sk (chars% "sk.key"))
    (hct : argOr g4 .file [] = argOr g3 .file [] ++ chars% ".ct")
    (k1 : fs5.file (argOr g4 .sk (chars% "sk.key")) = fs2.file (argOr g4 .sk (chars% "sk.key")))
    (k2 : fs5.file (argOr g4 .file []) = fs4.file (argOr g4 .file [])) :
    rabe con (call .ac17cp l4 .decrypt w4) fs5 t5 = (some 1, fs5, t5) := by
  obtain ⟨g2', hw2, hr2⟩ := rabe_ok hk
  rw [h2] at hw2; cases hw2
  obtain ⟨g3', hw3, hr3⟩ := rabe_ok he
  rw [h3] at hw3; cases hw3
  obtain ⟨msk, sk, -, hkey, rs⟩ := C63_keygen_partial con g2 .ac17cp _ _ _ _ _ hr2
  obtain ⟨f, pt, hf, -, pk, ct, -, henc, rc⟩ := C63_encrypt_partial con g3 .ac17cp _ _ _ _ _ hr3
  have hfa : argOr g3 .file [] = f := by
    unfold argOr
    cases hg : g3 .file with
    | nil => rw [hg] at hf; cases hf
    | cons x xs => rw [hg] at hf; cases hf; rfl
  rw [← hsk] at rs
  rw [← hfa, ← hct] at rc
  have rs5 := rs.transfer k1
  have rc5 := rc.transfer k2
  have hattr := cpKeygen_attr hkey
  have hpol := cpEncrypt_policy henc
  have hlen := (readWords_sayable h2).single .attributes rfl
  have hd : Ac17.cpDecrypt con.env sk ct = .err := by
    refine Ac17.C31_ac17_cp_refuses con.env sk ct p (by rw [hpol]; exact hp) ?_
    rw [hattr]
    cases hg : g2 .attributes with
    | nil => exact Or.inr rfl
    | cons a as =>
      rw [hg] at hlen
      obtain rfl : as = [] := by simpa using hlen
      exact Or.inl (hno a)
  have e1 : fileOr .decrypt g4 .sk skDefault = argOr g4 .sk (chars% "sk.key") := fileOr_argOr rfl
  have e2 : (valueOf .decrypt g4 .file).getD [] = argOr g4 .file [] := valueOf_getD rfl rfl
  have hdec : decryptPt con g4 .ac17cp fs5 t5 = (.err, fs5, t5) := by
    unfold decryptPt
    simp only [e1, e2]
    rw [CM.bind_of_ok (rs5 t5), CM.bind_of_ok (rc5 t5)]
    show (Ac17.cpDecrypt con.env sk ct, fs5, t5) = _
    rw [hd]
  rw [rabe_call, h4]
  have hrun : run con .decrypt g4 .ac17cp (l4.getD .human) fs5 t5 = (.err, fs5, t5) := by
    show (decryptPt con g4 .ac17cp >>= fun pt => CM.writeFromVec (outFile g4) pt) fs5 t5 = _
    rw [CM.bind_apply, hdec]
  dsimp only
  unfold runs
  rw [hrun]
  rfl

/-- The calls of the documentation, `/repo/rabe-console/README.md:23-46`, with either form of the policy. -/
def readmeSetup : List Str := [chars% "--s", chars% "AC17CP", chars% "setup"]
/-- The second call of the documentation, `/repo/rabe-console/README.md:30`. -/
def readmeKeygen : List Str := [chars% "--s", chars% "AC17CP", chars% "keygen", chars% "--a", chars% "A and B"]
/-- The third call of the documentation, `/repo/rabe-console/README.md:35-37`. -/
def readmeEncrypt : PolicyLanguage → List Str
  | .human => [chars% "--s", chars% "AC17CP", chars% "--l", chars% "HUMAN", chars% "encrypt", chars% "message.txt",
      chars% "\"A\" and \"B\""]
  | .json => [chars% "--s", chars% "AC17CP", chars% "--l", chars% "JSON", chars% "encrypt", chars% "message.txt",
      chars% "{\"name\":\"and\",\"children\":[{\"name\":\"B\"},{\"name\":\"A\"}]}"]
/-- The last call of the documentation, `/repo/rabe-console/README.md:43`. -/
def readmeDecrypt : List Str := [chars% "--s", chars% "AC17CP", chars% "decrypt", chars% "message.txt.ct"]

/-- **C96 is violated, documentation.** The calls that the documentation shows, one after another: if the first three end
with status 0, the last one ends with status 1 and changes nothing. It never recovers the message. -/
theorem C96_violated_readme (con : Con F G1 G2 Gt) (lang : PolicyLanguage) (fs0 fs1 fs2 fs3 : FS) (t0 t1 t2 t3 : Tape F G1 G2 Gt)
    (_h1 : rabe con readmeSetup fs0 t0 = (some 0, fs1, t1)) (h2 : rabe con readmeKeygen fs1 t1 = (some 0, fs2, t2))
    (h3 : rabe con (readmeEncrypt lang) fs2 t2 = (some 0, fs3, t3)) :
    rabe con readmeDecrypt fs3 t3 = (some 1, fs3, t3) := by
  have hk : readWords .keygen [chars% "--a", chars% "A and B"] = some (keygenArgs (chars% "A and B")) := by
    refine congrArg some (funext fun a => ?_)
    cases a <;> rfl
  have hd : readWords .decrypt [chars% "message.txt.ct"] = some (decryptArgs (chars% "message.txt.ct")) := by
    refine congrArg some (funext fun a => ?_)
    cases a <;> rfl
  have key : ∀ (text : Str) (p : Pol), readmeEncrypt lang = call .ac17cp (some lang) .encrypt [chars% "message.txt", text] →
      readWords .encrypt [chars% "message.txt", text] = some (encryptArgs (chars% "message.txt") text) →
      Denotes text lang p → (∀ a, p.sat [a] = false) → rabe con readmeDecrypt fs3 t3 = (some 1, fs3, t3) := by
    intro text p hcall he hp hno
    rw [hcall] at h3
    obtain ⟨g, hg, hr⟩ := rabe_ok h3
    rw [he] at hg
    cases hg
    exact C96_violated_session con none (some lang) none _ _ _ _ _ _ hk he hd p hp hno fs1 fs2 fs2 fs3 fs3 t1 t2 t2 t3 t3 h2
      h3 rfl rfl (frame_ok hr (q := chars% "sk.key") (by simp [outputs, encryptArgs])) rfl
  have hno : ∀ (x y : Str) (m n : ℕ), x ≠ y → ∀ a, Pol.sat [a] (.gate .and [.leaf x m, .leaf y n]) = false := by
    intro x y m n hne a
    simp only [Pol.sat_and, Pol.sat_leaf, List.all_cons, List.all_nil, Bool.and_true]
    by_contra hc
    simp only [Bool.not_eq_false, Bool.and_eq_true, decide_eq_true_eq, List.mem_singleton] at hc
    exact hne (hc.1.trans hc.2.symm)
  cases lang with
  | human =>
    refine key _ (.gate .and [.leaf ['A'] 2, .leaf ['B'] 10]) rfl ?_ rfl (hno _ _ _ _ (by decide))
    refine congrArg some (funext fun a => ?_)
    cases a <;> rfl
  | json =>
    refine key _ (.gate .and [.leaf ['B'] 36, .leaf ['A'] 49]) rfl ?_ rfl (hno _ _ _ _ (by decide))
    refine congrArg some (funext fun a => ?_)
    cases a <;> rfl

end

/-! ## The hypotheses can be met -/

/-- Words with `--`, an option with `=`, an option with its value in the next word, and several values; words that `clap`
answers itself: one word too many, the option twice, an unknown option, a missing value, a missing file. -/
example :
    (readWords .keygen [chars% "g", chars% "--a=x y", chars% "m"]).map (fun g => (g .gp, g .msk, g .attributes, g .pk)) =
      some ([['g']], [['m']], [chars% "x y"], []) ∧
    (readWords .keygen [chars% "--a", chars% "A", chars% "--", chars% "-g"]).map (fun g => (g .gp, g .attributes)) =
      some ([chars% "-g"], [['A']]) ∧
    (readWords .setup [chars% "m", chars% "--", chars% "A", chars% "-B"]).map (fun g => (g .msk, g .pk, g .attributes)) =
      some ([['m']], [], [['A'], chars% "-B"]) ∧
    (readWords .authgen [chars% "g", chars% "m", chars% "p", chars% "A", chars% "B", chars% "C"]).map
      (fun g => (g .attributes, g .policy, g .name)) = some ([['A'], ['B'], ['C']], [], []) ∧
    (readWords .decrypt [chars% "f", chars% "g", chars% "p", chars% "s", chars% "t"]).isNone ∧
    (readWords .keygen [chars% "--a", chars% "A", chars% "--a", chars% "B"]).isNone ∧
    (readWords .encrypt [chars% "f", chars% "--a", chars% "A"]).isNone ∧ (readWords .keygen [chars% "--a"]).isNone ∧
    (readWords .encrypt []).isNone := by
  refine ⟨rfl, rfl, rfl, rfl, rfl, rfl, rfl, rfl, rfl⟩

/-- An assignment that can be said, with words for it. -/
example : Sayable .encrypt (fill .encrypt (labelArgs ['f'] [['A'], ['B']])) ∧
    wordsFor .encrypt (fill .encrypt (labelArgs ['f'] [['A'], ['B']])) =
      [chars% "--", ['f'], [], chars% "gp.key", chars% "pk.key", ['A'], ['B']] :=
  ⟨sayable_fill (openArgs_legal [] [['A'], ['B']] [] ['f'] [] []).2.2.1 (by simp) (by simp), rfl⟩

/-- The three outcomes of `C96_program`; a line without `--s`. -/
example : (rabe toyCon [chars% "--s", chars% "RSA", chars% "setup"] toyFS toyTape).1 = none ∧
    (rabe toyCon [chars% "--s=LSW"] toyFS toyTape).1 = some 0 ∧
    (rabe toyCon [chars% "--l", chars% "JSON", chars% "--s=LSW", chars% "delegate"] toyFS toyTape).1 = some 1 ∧
    (rabe toyCon [chars% "setup"] toyFS toyTape).1 = none ∧
    (rabe toyCon (call .mke08 none .authgen []) toyFS toyTape).1 = some 101 := ⟨rfl, rfl, rfl, rfl, rfl⟩

/-- A file system with the file of the documentation. -/
def readmeFS : FS where
  file p := if p = chars% "message.txt" then some [7] else none
  creatable p := !p.isEmpty
  file_nil := by simp
  creatable_nil := rfl

/-- The first three calls of the documentation end with status 0 over the concrete environment, so the last one ends with
status 1. -/
theorem C96_readme_witness : ∃ (fs1 fs2 fs3 : FS) (t1 t2 t3 : Tape Fr Fr Fr Fr),
    rabe toyCon readmeSetup readmeFS toyTape = (some 0, fs1, t1) ∧ rabe toyCon readmeKeygen fs1 t1 = (some 0, fs2, t2) ∧
      rabe toyCon (readmeEncrypt .human) fs2 t2 = (some 0, fs3, t3) ∧
      rabe toyCon readmeDecrypt fs3 t3 = (some 1, fs3, t3) := by
  have h : (match Ac17.setup toyEnv toyTape with
    | .ok ((pk, msk), t1) => match Ac17.cpKeygen toyEnv msk [chars% "A and B"] t1 with
      | .ok (sk, t2) => match Ac17.cpEncrypt toyEnv pk (chars% "\"A\" and \"B\"") [7] .human t2 with
        | .ok (ct, _) => (toyCon.format.ser pk).isSome && (toyCon.format.ser msk).isSome &&
            (toyCon.format.ser sk).isSome && (toyCon.format.ser ct).isSome
        | _ => false
      | _ => false
    | _ => false) = true := by decide +kernel
  split at h
  · rename_i pk msk t1 hset
    split at h
    · rename_i sk t2 hkey
      split at h
      · rename_i ct t3 henc
        simp only [Bool.and_eq_true] at h
        obtain ⟨fs1, fs2, fs3, h1, h2, h3⟩ := C56_ac17cp_runs toyCon .human (chars% "A and B") (chars% "message.txt")
          (chars% "\"A\" and \"B\"") readmeFS toyTape t1 t2 t3 pk msk sk ct [7] rfl hset hkey henc
          ⟨h.1.1.1, h.1.1.2, h.1.2, h.2⟩ (by decide) (by decide)
        have r1 : rabe toyCon readmeSetup readmeFS toyTape = (some 0, fs1, t1) := by
          have hw : readWords .setup [] = some noArgs := rfl
          show rabe toyCon (call .ac17cp none .setup []) readmeFS toyTape = _
          rw [rabe_call, hw]
          dsimp only [Option.getD_none]
          unfold runs
          rw [h1]
          rfl
        have r2 : rabe toyCon readmeKeygen fs1 t1 = (some 0, fs2, t2) := by
          have hw : readWords .keygen [chars% "--a", chars% "A and B"] = some (keygenArgs (chars% "A and B")) := by
            refine congrArg some (funext fun a => ?_)
            cases a <;> rfl
          show rabe toyCon (call .ac17cp none .keygen [chars% "--a", chars% "A and B"]) fs1 t1 = _
          rw [rabe_call, hw]
          dsimp only [Option.getD_none]
          unfold runs
          rw [h2]
          rfl
        have r3 : rabe toyCon (readmeEncrypt .human) fs2 t2 = (some 0, fs3, t3) := by
          have hw : readWords .encrypt [chars% "message.txt", chars% "\"A\" and \"B\""] =
              some (encryptArgs (chars% "message.txt") (chars% "\"A\" and \"B\"")) := by
            refine congrArg some (funext fun a => ?_)
            cases a <;> rfl
          show rabe toyCon (call .ac17cp (some .human) .encrypt [chars% "message.txt", chars% "\"A\" and \"B\""]) fs2 t2 = _
          rw [rabe_call, hw]
          dsimp only [Option.getD_some]
          unfold runs
          rw [h3]
          rfl
        exact ⟨fs1, fs2, fs3, t1, t2, t3, r1, r2, r3, C96_violated_readme toyCon .human _ _ _ _ _ _ _ _ r1 r2 r3⟩
      · cases h
    · cases h
  · cases h

end Rabe
