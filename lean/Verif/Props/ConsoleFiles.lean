import Verif.Props.Console

/-!
# C88: which files the console reads

The exact condition on the content of a file, for every file system: the second line must spell compressed bytes of an
object. The first line, which names the kind of object, and everything after the second line play no role.
-/

namespace Rabe

open Console

/-- The value of a hexadecimal digit of either case. -/
def HexValue (c : Char) (v : ℕ) : Prop :=
  v < 10 ∧ c.toNat = 48 + v ∨ 10 ≤ v ∧ v < 16 ∧ (c.toNat = 87 + v ∨ c.toNat = 55 + v)

/-- A blank, a tab or a line end. -/
def Skipped (c : Char) : Prop := c = ' ' ∨ c = '\t' ∨ c = '\r' ∨ c = '\n'

/-- A text spells these half bytes, with blanks anywhere. -/
inductive Spells : Str → List ℕ → Prop
  | nil : Spells [] []
  | skip {c r l} : Skipped c → Spells r l → Spells (c :: r) l
  | digit {c v r l} : HexValue c v → Spells r l → Spells (c :: r) (v :: l)

/-- The half bytes of a byte string, the upper half first. -/
def halves (bs : Bytes) : List ℕ := bs.flatMap fun b => [b.toNat / 16, b.toNat % 16]

/-- A text has this second line: it follows the first line end and goes to the next one, a carriage return before which is
dropped, or to the end of the text, in which case it must not be empty. -/
def SecondLine (text line : Str) : Prop :=
  ∃ first rest, '\n' ∉ first ∧ text = first ++ '\n' :: rest ∧
    ((∃ l r, '\n' ∉ l ∧ rest = l ++ '\n' :: r ∧ (line = l ∧ l.getLast? ≠ some '\r' ∨ l = line ++ ['\r'])) ∨
      ('\n' ∉ rest ∧ rest ≠ [] ∧ line = rest))

theorem hexVal_eq_some {c : Char} {v : ℕ} : hexVal c = some v ↔ HexValue c v := by
  have le_iff : ∀ a b : Char, a ≤ b ↔ a.toNat ≤ b.toNat := fun a b => by
    rw [Char.le_def, UInt32.le_iff_toNat_le]; rfl
  unfold hexVal HexValue
  simp only [le_iff]
  have e : '0'.toNat = 48 ∧ '9'.toNat = 57 ∧ 'a'.toNat = 97 ∧ 'f'.toNat = 102 ∧ 'A'.toNat = 65 ∧ 'F'.toNat = 70 := by decide
  obtain ⟨e1, e2, e3, e4, e5, e6⟩ := e
  rw [e1, e2, e3, e4, e5, e6]
  split
  · simp only [Option.some.injEq]; omega
  · split
    · simp only [Option.some.injEq]; omega
    · split
      · simp only [Option.some.injEq]; omega
      · simp only [reduceCtorEq, false_iff]; omega

theorem HexValue.lt {c v} (h : HexValue c v) : v < 16 := by
  unfold HexValue at h; omega

theorem HexValue.not_skipped {c v} (h : HexValue c v) : ¬ Skipped c := by
  rintro (rfl | rfl | rfl | rfl) <;> revert h <;> unfold HexValue <;>
    simp only [show ' '.toNat = 32 from rfl, show '\t'.toNat = 9 from rfl, show '\r'.toNat = 13 from rfl,
      show '\n'.toNat = 10 from rfl] <;> omega

theorem spells_filter (s : Str) (l : List ℕ) :
    Spells s l ↔ List.Forall₂ HexValue (s.filter fun c => !(c == ' ' || c == '\t' || c == '\r' || c == '\n')) l := by
  induction s generalizing l with
  | nil => 
    constructor
    · rintro ⟨⟩; exact .nil
    · intro h; cases h; exact .nil
  | cons c r ih =>
    by_cases hc : Skipped c
    · have : (!(c == ' ' || c == '\t' || c == '\r' || c == '\n')) = false := by
        rcases hc with rfl | rfl | rfl | rfl <;> rfl
      rw [List.filter_cons_of_neg (by rw [this]; simp), ← ih]
      constructor
      · rintro (_ | ⟨-, h⟩ | ⟨h1, -⟩)
        · exact h
        · exact absurd hc h1.not_skipped
      · exact .skip hc
    · have : (!(c == ' ' || c == '\t' || c == '\r' || c == '\n')) = true := by
        simp only [Skipped, not_or] at hc
        simp [hc]
      rw [List.filter_cons_of_pos (p := fun c => !(c == ' ' || c == '\t' || c == '\r' || c == '\n')) this]
      constructor
      · rintro (_ | ⟨h1, h⟩ | ⟨h1, h⟩)
        · exact absurd h1 hc
        · exact .cons h1 ((ih _).1 h)
      · intro h
        cases h with
        | cons h1 h2 => exact .digit h1 ((ih _).2 h2)

theorem hexPairs_eq_some : ∀ (s : Str) (bs : Bytes), hexPairs s = some bs ↔ List.Forall₂ HexValue s (halves bs)
  | [], bs => by
    cases bs with
    | nil => simp [hexPairs, halves]
    | cons b bs => simp [hexPairs, halves]
  | [a], bs => by
    cases bs with
    | nil => simp [hexPairs, halves]
    | cons b bs => simp [hexPairs, halves]
  | a :: b :: r, bs => by
    have ih := hexPairs_eq_some r
    cases bs with
    | nil => 
      simp only [hexPairs, halves, List.flatMap_nil, List.forall₂_nil_right_iff, reduceCtorEq, iff_false]
      simp [Option.bind_eq_some_iff]
    | cons y bs =>
      simp only [hexPairs, Option.bind_eq_some_iff, hexVal_eq_some, Option.map_eq_some_iff, List.cons.injEq, ih]
      rw [show halves (y :: bs) = y.toNat / 16 :: y.toNat % 16 :: halves bs from rfl, List.forall₂_cons, List.forall₂_cons]
      have hy := y.toNat_lt
      constructor
      · rintro ⟨u, hu, v, hv, bs', h, rfl, rfl⟩
        have h1 := hu.lt
        have h2 := hv.lt
        have e : (UInt8.ofNat (16 * u + v)).toNat = 16 * u + v := by
          rw [UInt8.toNat_ofNat']; omega
        rw [e, show (16 * u + v) / 16 = u by omega, show (16 * u + v) % 16 = v by omega]
        exact ⟨hu, hv, h⟩
      · rintro ⟨hu, hv, h⟩
        refine ⟨_, hu, _, hv, bs, h, ?_, rfl⟩
        rw [show 16 * (y.toNat / 16) + y.toNat % 16 = y.toNat by omega]
        simp

theorem fromHex_eq_some {s : Str} {bs : Bytes} : fromHex s = some bs ↔ Spells s (halves bs) := by
  rw [spells_filter, ← hexPairs_eq_some]; rfl

theorem split_line (s : Str) : '\n' ∉ s ∨ ∃ l r, '\n' ∉ l ∧ s = l ++ '\n' :: r := by
  induction s with
  | nil => exact .inl (by simp)
  | cons c s ih =>
    by_cases hc : c = '\n'
    · exact .inr ⟨[], s, by simp, by simp [hc]⟩
    · rcases ih with h | ⟨l, r, h, rfl⟩
      · exact .inl (by simp [Ne.symm hc, h])
      · exact .inr ⟨c :: l, r, by simp [Ne.symm hc, h], rfl⟩

theorem line_unique {l l' r r' : Str} (h : '\n' ∉ l) (h' : '\n' ∉ l') (e : l ++ '\n' :: r = l' ++ '\n' :: r') :
    l = l' ∧ r = r' := by
  induction l generalizing l' with
  | nil =>
    cases l' with
    | nil => simpa using e
    | cons c l' => simp at e; simp [← e.1] at h'
  | cons c l ih =>
    cases l' with
    | nil => simp at e; simp [e.1] at h
    | cons c' l' =>
      simp only [List.cons_append, List.cons.injEq] at e
      simp only [List.mem_cons, not_or] at h h'
      obtain ⟨rfl, rfl⟩ := ih h.2 h'.2 e.2
      exact ⟨by rw [e.1], rfl⟩

theorem linesFrom_noline (l : Str) (hl : '\n' ∉ l) : ∀ acc,
    linesFrom acc l = if l = [] ∧ acc = [] then [] else [acc.reverse ++ l] := by
  induction l with
  | nil => intro acc; by_cases h : acc = [] <;> simp [linesFrom, h]
  | cons c l ih =>
    intro acc
    simp only [List.mem_cons, not_or] at hl
    have e : linesFrom acc (c :: l) = linesFrom (c :: acc) l := by
      unfold linesFrom
      rw [if_neg (Ne.symm hl.1)]
      cases l <;> rfl
    rw [e, ih hl.2]
    simp

theorem readRaw_ok {text line : Str} : readRaw text = .ok line ↔ SecondLine text line := by
  unfold readRaw SecondLine
  rcases split_line text with h | ⟨first, rest, hf, rfl⟩
  · rw [linesFrom_noline _ h]
    constructor
    · intro h'
      exfalso
      split at h' <;> cases h'
    · rintro ⟨f, r, -, rfl, -⟩
      simp at h
  · rw [linesFrom_line _ _ hf, List.getElem?_cons_succ]
    have hun : ∀ (P : Str → Prop), (∃ f r, '\n' ∉ f ∧ first ++ '\n' :: rest = f ++ '\n' :: r ∧ P r) ↔ P rest := by
      intro P
      constructor
      · rintro ⟨f, r, h, e, hP⟩
        rw [(line_unique hf h e).2]; exact hP
      · exact fun h => ⟨_, _, hf, rfl, h⟩
    rw [hun]
    rcases split_line rest with h | ⟨l, r, hl, rfl⟩
    · rw [linesFrom_noline _ h]
      constructor
      · intro h'
        right
        by_cases h0 : rest = []
        · subst h0; cases h'
        · rw [if_neg (by simp [h0])] at h'
          cases h'
          exact ⟨h, h0, rfl⟩
      · rintro (⟨l, r, -, rfl, -⟩ | ⟨-, h0, rfl⟩)
        · simp at h
        · rw [if_neg (by simp [h0])]; rfl
    · rw [linesFrom_line _ _ hl]
      have hun' : ∀ (P : Str → Prop), (∃ f r', '\n' ∉ f ∧ l ++ '\n' :: r = f ++ '\n' :: r' ∧ P f) ↔ P l := by
        intro P
        constructor
        · rintro ⟨f, r, h, e, hP⟩
          rw [(line_unique hl h e).1]; exact hP
        · exact fun h => ⟨_, _, hl, rfl, h⟩
      rw [hun']
      simp only [List.append_nil, List.mem_append, List.mem_cons, true_or, or_true, not_true_eq_false, false_and, or_false]
      rw [List.getElem?_cons_zero]
      show Res.ok _ = _ ↔ _
      rw [Res.ok.injEq]
      rcases List.eq_nil_or_concat l with rfl | ⟨m, c, rfl⟩
      · show [] = line ↔ _
        constructor
        · rintro rfl; exact .inl ⟨rfl, by simp⟩
        · rintro (⟨h, -⟩ | h)
          · exact h.symm
          · simp at h
      · rw [List.concat_eq_append, List.reverse_append, List.reverse_singleton, List.singleton_append]
        have hl' : (m ++ [c]).getLast? = some c := by simp
        rw [hl']
        by_cases hc : c = '\r'
        · subst hc
          show m.reverse.reverse = line ↔ _
          rw [List.reverse_reverse]
          constructor
          · rintro rfl; exact .inr rfl
          · rintro (⟨-, h⟩ | h)
            · exact absurd rfl h
            · exact List.append_cancel_right h
        · split
          · rename_i h; exact absurd (List.cons.inj h).1 hc
          rw [List.reverse_cons, List.reverse_reverse]
          constructor
          · rintro rfl; exact .inl ⟨rfl, fun h => hc (Option.some.inj h)⟩
          · rintro (⟨h, -⟩ | h)
            · exact h.symm
            · exact absurd (List.cons.inj (List.append_inj_right' h rfl)).1 hc

section
variable {F G1 G2 Gt : Type} [Field F] [AddCommGroup G1] [Module F G1] [AddCommGroup G2] [Module F G2]
  [AddCommGroup Gt] [Module F Gt] {α : Type} [Borsh α] [Serde α]

/-- What reading a file gives, by cases on its second line. -/
theorem serDec_text (con : Con F G1 G2 Gt) {p : Str} {fs : FS} {text : Str} (h : fs.file p = some (utf8 text))
    (t : Tape F G1 G2 Gt) : serDec α con p fs t =
      (match decText con text with
        | .ok b => (match con.format.read α b with
            | none => .err
            | some a => .ok a)
        | .err => .err
        | .panic => .panic, fs, t) := by
  unfold serDec
  rw [CM.bind_of_ok (CM.readFile_utf8 h t)]
  cases hd : decText con text with
  | ok b =>
    rw [CM.bind_of_ok (a := b) (fs1 := fs) (t1 := t) rfl]
    dsimp only
    cases con.format.read α b <;> rfl
  | err => rfl
  | panic => rfl

theorem decText_ok {con : Con F G1 G2 Gt} {text : Str} {b : Bytes} : decText con text = .ok b ↔
    ∃ line bs, SecondLine text line ∧ Spells line (halves bs) ∧ con.inflate bs = some b := by
  unfold decText
  rw [Res.bind_eq_ok]
  constructor
  · rintro ⟨line, h1, h2⟩
    cases hx : fromHex line with
    | none => rw [hx] at h2; cases h2
    | some bs =>
      rw [hx] at h2
      dsimp only at h2
      cases hi : con.inflate bs with
      | none => rw [hi] at h2; cases h2
      | some b' =>
        rw [hi] at h2
        cases h2
        exact ⟨line, bs, readRaw_ok.1 h1, fromHex_eq_some.1 hx, hi⟩
  · rintro ⟨line, bs, h1, h2, h3⟩
    refine ⟨line, readRaw_ok.2 h1, ?_⟩
    rw [fromHex_eq_some.2 h2]
    dsimp only
    rw [h3]

theorem readRaw_ne_err (text : Str) : readRaw text ≠ .err := by
  unfold readRaw
  cases (linesFrom [] text)[1]? <;> simp [Res.unwrapOption]

theorem decText_panic {con : Con F G1 G2 Gt} {text : Str} : decText con text = .panic ↔ ¬ ∃ line, SecondLine text line := by
  unfold decText
  cases h : readRaw text with
  | ok line =>
    simp only [readRaw_ok.1 h |> fun h => show (∃ line, SecondLine text line) from ⟨_, h⟩, not_true_eq_false, iff_false]
    show (match fromHex line with
      | none => Res.err
      | some bs => match con.inflate bs with
        | none => .err
        | some b => .ok b) ≠ .panic
    split
    · simp
    · split <;> simp
  | err => exact absurd h (readRaw_ne_err _)
  | panic =>
    refine ⟨fun _ ⟨line, hl⟩ => ?_, fun _ => rfl⟩
    rw [readRaw_ok.2 hl] at h
    cases h

/-- **C88.** Reading an object from a file succeeds exactly when the file is a text whose second line spells, in digits of
either case and with blanks anywhere, bytes that decompress to the bytes of that object. No other part of the file
matters. -/
theorem C88_reads (con : Con F G1 G2 Gt) (p : Str) (fs : FS) (t : Tape F G1 G2 Gt) (x : α) :
    serDec α con p fs t = (.ok x, fs, t) ↔ ∃ text line bs b, fs.file p = some (utf8 text) ∧ SecondLine text line ∧
      Spells line (halves bs) ∧ con.inflate bs = some b ∧ con.format.read α b = some x := by
  constructor
  · intro h
    cases hf : fs.file p with
    | none => rw [serDec_missing con hf] at h; cases h
    | some raw =>
      cases hu : ofUtf8 raw with
      | none =>
        have : serDec α con p fs t = (.panic, fs, t) :=
          CM.bind_of_panic (by simp [CM.readFile, hf, hu, Res.unwrapOption])
        rw [this] at h; cases h
      | some text =>
        have hf' : fs.file p = some (utf8 text) := by rw [hf, utf8_of_ofUtf8 hu]
        rw [serDec_text con hf'] at h
        cases hd : decText con text with
        | ok b =>
          obtain ⟨line, bs, h1, h2, h3⟩ := decText_ok.1 hd
          rw [hd] at h
          dsimp only at h
          cases hr : con.format.read α b with
          | none => rw [hr] at h; cases h
          | some a =>
            rw [hr] at h
            cases h
            exact ⟨text, line, bs, b, by rw [utf8_of_ofUtf8 hu], h1, h2, h3, hr⟩
        | err => rw [hd] at h; cases h
        | panic => rw [hd] at h; cases h
  · rintro ⟨text, line, bs, b, hf, h1, h2, h3, h4⟩
    rw [serDec_text con hf, decText_ok.2 ⟨line, bs, h1, h2, h3⟩]
    dsimp only
    rw [h4]

/-- **C88, abort.** Reading an object aborts the program exactly when there is no such file, or it is no text, or it has no
second line. -/
theorem C88_aborts (con : Con F G1 G2 Gt) (p : Str) (fs : FS) (t : Tape F G1 G2 Gt) :
    (serDec α con p fs t).1 = .panic ↔ ¬ ∃ text line, fs.file p = some (utf8 text) ∧ SecondLine text line := by
  cases hf : fs.file p with
  | none =>
    rw [serDec_missing con hf]
    simp
  | some raw =>
    cases hu : ofUtf8 raw with
    | none =>
      have : serDec α con p fs t = (.panic, fs, t) :=
        CM.bind_of_panic (by simp [CM.readFile, hf, hu, Res.unwrapOption])
      rw [this]
      refine ⟨fun _ => ?_, fun _ => rfl⟩
      rintro ⟨text, line, h, -⟩
      rw [Option.some.inj h, ofUtf8_utf8] at hu
      cases hu
    | some text =>
      have hf' : fs.file p = some (utf8 text) := by rw [hf, utf8_of_ofUtf8 hu]
      have hr : (∃ text' line, some raw = some (utf8 text') ∧ SecondLine text' line) ↔ ∃ line, SecondLine text line := by
        constructor
        · rintro ⟨text', line, h, hl⟩
          rw [Option.some.inj h, ofUtf8_utf8] at hu
          cases hu
          exact ⟨line, hl⟩
        · rintro ⟨line, hl⟩
          exact ⟨text, line, by rw [utf8_of_ofUtf8 hu], hl⟩
      rw [hr, ← decText_panic (con := con), serDec_text con hf']
      cases decText con text with
      | ok b =>
        dsimp only
        cases con.format.read α b <;> simp
      | err => simp
      | panic => simp

/-- **C88, error.** In all other cases it reports an error and leaves files and random numbers alone. -/
theorem C88_errors (con : Con F G1 G2 Gt) (p : Str) (fs : FS) (t : Tape F G1 G2 Gt) (text line : Str)
    (hf : fs.file p = some (utf8 text)) (hl : SecondLine text line)
    (hn : ¬ ∃ bs b, ∃ x : α, Spells line (halves bs) ∧ con.inflate bs = some b ∧ con.format.read α b = some x) :
    serDec α con p fs t = (.err, fs, t) := by
  obtain ⟨r, hr⟩ := serDec_state (α := α) con p fs t
  cases r with
  | ok x =>
    obtain ⟨text', line', bs, b, h1, h2, h3⟩ := (C88_reads con p fs t x).1 hr
    have e : text = text' := by
      have := congrArg ofUtf8 (Option.some.inj (hf.symm.trans h1))
      rw [ofUtf8_utf8, ofUtf8_utf8] at this
      exact Option.some.inj this
    subst e
    have : line = line' := Res.ok.inj ((readRaw_ok.2 hl).symm.trans (readRaw_ok.2 h2))
    subst this
    exact absurd ⟨bs, b, x, h3⟩ hn
  | err => exact hr
  | panic => exact absurd ⟨text, line, hf, hl⟩ ((C88_aborts (α := α) con p fs t).1 (by rw [hr]))

/-- **C88, frame.** Two files with the same second line are read alike, whatever their headers, footers and further lines
say, and as whatever type. -/
theorem C88_frame (con : Con F G1 G2 Gt) (p q : Str) (fs fs' : FS) (t : Tape F G1 G2 Gt) (text text' line : Str)
    (hp : fs.file p = some (utf8 text)) (hq : fs'.file q = some (utf8 text')) (h : SecondLine text line)
    (h' : SecondLine text' line) : (serDec α con p fs t).1 = (serDec α con q fs' t).1 := by
  rw [serDec_text con hp, serDec_text con hq]
  have : decText con text = decText con text' := by
    unfold decText
    rw [readRaw_ok.2 h, readRaw_ok.2 h']
  rw [this]

end

/-- A text with the header of a public key and upper-case digits with a blank between them has a second line that spells
two bytes; a text of one line has none. -/
example : SecondLine (chars% "-----BEGIN PK-----\n0A f1\r\nrest") (chars% "0A f1") ∧
    Spells (chars% "0A f1") (halves [10, 241]) ∧ (¬ ∃ bs, Spells (chars% "0A f") (halves bs)) ∧
    ¬ ∃ line, SecondLine (chars% "one line") line := by
  refine ⟨⟨chars% "-----BEGIN PK-----", chars% "0A f1\r\nrest", by decide, by decide,
    .inl ⟨chars% "0A f1\r", chars% "rest", by decide, by decide, .inr (by decide)⟩⟩, ?_, ?_, ?_⟩
  · exact fromHex_eq_some.1 (by decide)
  · rintro ⟨bs, h⟩
    have := fromHex_eq_some.2 h
    rw [show fromHex (chars% "0A f") = none by decide] at this
    cases this
  · rintro ⟨line, h⟩
    have := readRaw_ok.2 h
    revert this
    rw [show readRaw (chars% "one line") = .panic by decide +kernel]
    simp

end Rabe
