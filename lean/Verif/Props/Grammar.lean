import Verif.Proof.Print
import Verif.Proof.GrammarMixed
import Verif.Props.Parser

/-!
# C02–C04, C06, C07, C58, C59: the policy languages and the serialisers
-/

namespace Rabe

open Pest

/-! ## C58: the human parser accepts exactly the human language -/

/-- **C58.** The human parser accepts exactly the texts of the human language (`Spec/Grammar.lean`), and yields the
tree the grammar assigns to the text, with the columns of the attributes. -/
theorem C58_human_parse_iff (text : Str) (v : PolicyValue) :
    parse text .human = .ok v ↔ ∃ p : Pol, v = p.toValue ∧ HumanText text p.item := by
  constructor
  · intro h
    obtain ⟨q, hq, h1, rfl⟩ := content_of_parse_ok h
    exact ⟨_, rfl, h1 ▸ human_sound hq⟩
  · rintro ⟨p, rfl, h⟩
    obtain ⟨q, hq, e⟩ := human_complete h (Nat.lt_succ_self _)
    exact (parse_of_content (lang := .human) hq).2 p e.symm

/-- **C58.** A human-language text is rejected exactly when it is not a text of the language at all. -/
theorem C58_human_err_iff (text : Str) : parse text .human = .err ↔ ¬ ∃ i, HumanText text i := by
  constructor
  · rintro h ⟨i, hi⟩
    obtain ⟨q, hq, e⟩ := human_complete hi (Nat.lt_succ_self _)
    have := parse_of_content (lang := .human) hq
    by_cases hn : q.toItem.HasNum
    · rw [this.1 hn] at h; simp at h
    · obtain ⟨p, hp⟩ := item_of_noNum _ hn
      rw [this.2 p hp] at h; simp at h
  · intro h
    cases hp : parse text .human with
    | err => rfl
    | ok v =>
      obtain ⟨q, hq, -⟩ := content_of_parse_ok hp
      exact absurd ⟨_, human_sound hq⟩ h
    | panic =>
      obtain ⟨q, hq, -⟩ := content_of_parse_panic hp
      exact absurd ⟨_, human_sound hq⟩ h

/-- **C58.** The human language is unambiguous: a text stands for one tree only. -/
theorem C58_human_unambiguous (text : Str) (i j : Item) (hi : HumanText text i) (hj : HumanText text j) : i = j := by
  obtain ⟨p, hp, rfl⟩ := human_complete hi (Nat.lt_succ_self _)
  obtain ⟨q, hq, rfl⟩ := human_complete hj (Nat.lt_succ_self _)
  rw [hp] at hq
  simp only [Option.some.injEq] at hq
  rw [hq]

/-- **C02.** Exact description of the aborts of the human parser: it panics on the texts of the language in which a
number stands where an attribute is expected, and on no other text. -/
theorem C02_human_panic_iff (text : Str) : parse text .human = .panic ↔ ∃ i, HumanText text i ∧ i.HasNum := by
  constructor
  · intro h
    obtain ⟨q, hq, h1⟩ := content_of_parse_panic h
    exact ⟨_, human_sound hq, h1⟩
  · rintro ⟨i, hi, hn⟩
    obtain ⟨q, hq, rfl⟩ := human_complete hi (Nat.lt_succ_self _)
    exact (parse_of_content (lang := .human) hq).1 hn

/-- Example for C58 and C02: a text with comments, all three kinds of brackets and several spellings; and a text with a
number. -/
example : (∃ p : Pol, HumanText (chars% " [ \"A\" /* x */ && { \"B\\n\" OR (\"C\")} ] \"and\" \"D\"") p.item) ∧
    (∃ i, HumanText (chars% "\"A\" or -1.5e3") i ∧ i.HasNum) ∧ ¬ ∃ i, HumanText (chars% "\"A\" or B") i := by
  refine ⟨?_, ?_, ?_⟩
  · obtain ⟨p, -, h⟩ := (C58_human_parse_iff _ _).1
      (by rfl : parse (chars% " [ \"A\" /* x */ && { \"B\\n\" OR (\"C\")} ] \"and\" \"D\"") .human =
        .ok (.object .and (.array [.object .and (.array [.str ['A'] 5, .object .or (.array [.str ['B', '\\', 'n'] 22,
          .str ['C'] 32])]), .str ['D'] 46])))
    exact ⟨p, h⟩
  · exact (C02_human_panic_iff _).1 (by rfl)
  · exact (C58_human_err_iff _).1 (by rfl)

/-! ## C59: the JSON parser and the JSON language -/

/-- **C59, what fails.** The JSON parser does not accept all texts of the JSON language: a quoted operator may contain a
comment, and when the comment contains a quote the parser commits to reading an attribute (ordered choice in
`/repo/src/json.policy.pest:24-28`) and rejects the text. -/
theorem C59_violated : ∃ text i, JsonText AnyWay text i ∧ ¬ i.HasNum ∧ parse text .json = .err := by
  refine ⟨chars% "{\"name\": \"/*\"}*/and\", \"children\": []}", .gate .and [], ?_, by simp [Item.HasNum, Item.HasNumL],
    by rfl⟩
  refine ⟨[], chars% "{\"name\": \"/*\"}*/and\", \"children\": []}", [], rfl, .nil, .nil, ?_⟩
  have hname : Spaced nameHead (chars% "{\"name\": ") := by
    refine ⟨['{'], [], _, rfl, rfl, .nil, (chars% "\"name\""), [], _, rfl, ?_, .nil, [':'], [' '], _, rfl, rfl,
      blank_space, rfl⟩
    exact .inr ⟨[], ['n', 'a', 'm', 'e'], [], by simp, .nil, .nil, rfl⟩
  have hop : Spaced (childrenHead AnyWay .and) (chars% "\"/*\"}*/and\", \"children\": [") := by
    refine ⟨chars% "\"/*\"}*/and\"", [], _, rfl, ⟨?_, trivial⟩, .nil, [','], [' '], _, rfl, rfl, blank_space,
      (chars% "\"children\""), [], _, rfl, ?_, .nil, [':'], [' '], _, rfl, rfl, blank_space, ['['], [], _, rfl, rfl,
      .nil, rfl⟩
    · exact .inr ⟨chars% "/*\"}*/", chars% "and", [], by simp [Op.spellings],
        .comment ['"', '}'] [] (by decide) .nil, .nil, rfl⟩
    · exact .inr ⟨[], (chars% "children"), [], by simp, .nil, .nil, rfl⟩
  exact Json.gate [] _ _ [] [] .and [] hname hop .nil (.empty _)

/-- **C59, part 1.** Whatever the JSON parser accepts is a text of the JSON language, and it yields the tree the grammar
assigns to the text. -/
theorem C59_json_parse_sound_partial (text : Str) (v : PolicyValue) (h : parse text .json = .ok v) :
    ∃ p : Pol, v = p.toValue ∧ JsonText AnyWay text p.item := by
  obtain ⟨q, hq, h1, rfl⟩ := content_of_parse_ok h
  exact ⟨_, rfl, h1 ▸ json_sound hq⟩

/-- **C59, part 2.** Every text of the JSON language in which the operators contain no quotes but the enclosing ones
is accepted, with the tree the grammar assigns to it. -/
theorem C59_json_parse_complete_partial (text : Str) (p : Pol) (h : JsonText Plain text p.item) :
    parse text .json = .ok p.toValue := by
  obtain ⟨q, hq, e⟩ := json_complete h (Nat.lt_succ_self _)
  exact (parse_of_content (lang := .json) hq).2 p e.symm

/-- A blank without comment contains no quote. -/
theorem blank_plain {bl : Str} (h : Blank bl) (hc : ¬ ['/', '*'] <:+: bl) : '"' ∉ bl := by
  induction h with
  | nil => simp
  | space c t hs _ ih =>
    simp only [List.mem_cons, not_or]
    refine ⟨?_, ih fun hi => hc (hi.trans (List.suffix_cons c t).isInfix)⟩
    rintro rfl
    simp at hs
  | comment body t _ _ _ => exact absurd ⟨[], body ++ '*' :: '/' :: t, by simp⟩ hc

theorem word_plain {op : Op} {w : Str} (h : Word op.spellings w) (hc : ¬ ['/', '*'] <:+: w) : Plain w := by
  have hs : ∀ v ∈ op.spellings, '"' ∉ v := by cases op <;> simp [Op.spellings]
  rcases h with h | ⟨b, v, b', hv, hb, hb', rfl⟩
  · simp [Plain, List.count_eq_zero_of_not_mem (hs w h)]
  · have h1 := blank_plain hb fun hi => hc (hi.trans ⟨['"'], v ++ (b' ++ ['"']), by simp⟩)
    have h2 := blank_plain hb' fun hi => hc (hi.trans ⟨'"' :: (b ++ v), ['"'], by simp⟩)
    simp [Plain, List.count_append, List.count_eq_zero_of_not_mem h1, List.count_eq_zero_of_not_mem h2,
      List.count_eq_zero_of_not_mem (hs v hv)]

theorem infix_append {x s t : Str} (h : x <:+: s) (u : Str) : x <:+: u ++ (s ++ t) :=
  h.trans ⟨u, t, by simp⟩

theorem json_plain {k b t is} (h : Json AnyWay k b t is) (hc : ¬ ['/', '*'] <:+: t) : Json Plain k b t is := by
  induction h with
  | attr b h n bl hh hn hb => exact .attr b h n bl hh hn hb
  | num b h t bl hh hn hb => exact .num b h t bl hh hn hb
  | gate b h k t bl op is hh hk hb _ ih =>
    refine .gate b h k t bl op is hh ?_ hb (ih fun hi => hc ?_)
    · obtain ⟨w, b1, u, rfl, ⟨hw, -⟩, hb1, hr⟩ := hk
      refine ⟨w, b1, u, rfl, ⟨hw, word_plain hw fun hi => hc ?_⟩, hb1, hr⟩
      simpa using infix_append (t := b1 ++ (u ++ (t ++ ']' :: (bl ++ ['}'])))) hi h
    · simpa using infix_append (t := ']' :: (bl ++ ['}'])) hi (h ++ k)
  | empty b => exact .empty b
  | first b t u i is _ _ ih ihu =>
    exact .first b t u i is (ih fun hi => hc (by simpa using infix_append (t := u) hi []))
      (ihu fun hi => hc (by simpa using infix_append (t := []) hi t))
  | last b bl hb => exact .last b bl hb
  | next b bl bl' t u i is hb hb' _ _ ih ihu =>
    exact .next b bl bl' t u i is hb hb' (ih fun hi => hc (by simpa using infix_append (t := u) hi (bl ++ ',' :: bl')))
      (ihu fun hi => hc (by simpa using infix_append (t := []) hi (bl ++ ',' :: (bl' ++ t))))

theorem jsonText_plain {text : Str} {i : Item} (hc : ¬ ['/', '*'] <:+: text) :
    JsonText AnyWay text i ↔ JsonText Plain text i := by
  constructor
  · rintro ⟨bl, t, bl', rfl, h1, h2, h3⟩
    exact ⟨bl, t, bl', rfl, h1, h2, json_plain h3 fun hi => hc (infix_append hi bl)⟩
  · rintro ⟨bl, t, bl', rfl, h1, h2, h3⟩
    refine ⟨bl, t, bl', rfl, h1, h2, ?_⟩
    have : ∀ {k b t is}, Json Plain k b t is → Json AnyWay k b t is := by
      intro k b t is h
      induction h with
      | attr b h n bl hh hn hb => exact .attr b h n bl hh hn hb
      | num b h t bl hh hn hb => exact .num b h t bl hh hn hb
      | gate b h k t bl op is hh hk hb _ ih =>
        obtain ⟨w, b1, u, rfl, ⟨hw, -⟩, hb1, hr⟩ := hk
        exact .gate b h _ t bl op is hh ⟨w, b1, u, rfl, ⟨hw, trivial⟩, hb1, hr⟩ hb ih
      | empty b => exact .empty b
      | first b t u i is _ _ ih ihu => exact .first b t u i is ih ihu
      | last b bl hb => exact .last b bl hb
      | next b bl bl' t u i is hb hb' _ _ ih ihu => exact .next b bl bl' t u i is hb hb' ih ihu
    exact this h3

/-- **C59, part 3.** On texts in which `/*` does not occur the JSON parser accepts exactly the JSON language, with the
tree the grammar assigns to the text. -/
theorem C59_json_parse_iff_partial (text : Str) (v : PolicyValue) (hc : ¬ ['/', '*'] <:+: text) :
    parse text .json = .ok v ↔ ∃ p : Pol, v = p.toValue ∧ JsonText AnyWay text p.item := by
  refine ⟨C59_json_parse_sound_partial text v, ?_⟩
  rintro ⟨p, rfl, h⟩
  exact C59_json_parse_complete_partial text p ((jsonText_plain hc).1 h)

/-- **C02.** Exact description of the aborts of the JSON parser on texts in which `/*` does not occur. -/
theorem C02_json_panic_iff_partial (text : Str) (hc : ¬ ['/', '*'] <:+: text) :
    parse text .json = .panic ↔ ∃ i, JsonText AnyWay text i ∧ i.HasNum := by
  constructor
  · intro h
    obtain ⟨q, hq, h1⟩ := content_of_parse_panic h
    exact ⟨_, json_sound hq, h1⟩
  · rintro ⟨i, hi, hn⟩
    obtain ⟨q, hq, rfl⟩ := json_complete ((jsonText_plain hc).1 hi) (Nat.lt_succ_self _)
    exact (parse_of_content (lang := .json) hq).1 hn

/-- Example for C59 and C02: a nested gate with several spellings, and a number. -/
example : (∃ p : Pol, JsonText AnyWay
      (chars% "{\"name\": AND, \"CHILDREN\" : [{\"name\": \"A\"}, {name:\"or\",\"children\":[]}]}") p.item) ∧
    (∃ i, JsonText AnyWay (chars% "{\"name\": \"or\", \"children\": [{\"name\": 17}]}") i ∧ i.HasNum) := by
  refine ⟨?_, ?_⟩
  · obtain ⟨p, -, h⟩ := C59_json_parse_sound_partial _ _ (by rfl :
      parse (chars% "{\"name\": AND, \"CHILDREN\" : [{\"name\": \"A\"}, {name:\"or\",\"children\":[]}]}") .json =
        .ok (.object .and (.array [.str ['A'] 39, .object .or (.array [])])))
    exact ⟨p, h⟩
  · exact (C02_json_panic_iff_partial _ (by decide +kernel)).1 (by rfl)

/-! ## C07: every access tree is expressible -/

/-- **C07, human language.** The fully parenthesised text of a tree whose gates have at least two children parses to
that tree. -/
theorem C07_human_expressible (p : Pol) (hw : p.Wide) (hl : p.Legal) :
    ∃ q : Pol, parse p.human .human = .ok q.toValue ∧ p.Same q := by
  obtain ⟨q, hq, h⟩ := human_print p hw hl []
  exact ⟨q, (C58_human_parse_iff _ _).2 ⟨q, rfl, h.text⟩, hq⟩

/-- **C07, JSON language.** The JSON text of any tree parses to that tree. -/
theorem C07_json_expressible (p : Pol) (hl : p.Legal) :
    ∃ q : Pol, parse p.json .json = .ok q.toValue ∧ p.Same q := by
  obtain ⟨q, hq, h⟩ := json_print p hl []
  exact ⟨q, C59_json_parse_complete_partial _ q h.text, hq⟩

/-- Example for C07: a nested tree over names with escapes. -/
example : let p : Pol := .gate .and [.leaf (chars% "and") 0, .gate .or [.leaf (chars% "a\\\"b") 0, .leaf [] 0,
      .leaf (chars% "/*x*/") 0]]
    p.Wide ∧ p.Legal ∧ p.human = (chars% "(\"and\" and (\"a\\\"b\" or \"\" or \"/*x*/\"))") := by
  refine ⟨by simp [Pol.Wide], ?_, by decide⟩
  have h : ∀ n ∈ [chars% "and", chars% "a\\\"b", [], chars% "/*x*/"], Name n := by
    simp only [List.mem_cons, List.not_mem_nil, or_false, forall_eq_or_imp, forall_eq]
    refine ⟨?_, ?_, .nil, ?_⟩
    · exact .plain _ _ (by decide) (by decide) (.plain _ _ (by decide) (by decide) (.plain _ _ (by decide) (by decide) .nil))
    · exact .plain _ _ (by decide) (by decide) (.escape _ _ (by decide) (.plain _ _ (by decide) (by decide) .nil))
    · exact .plain _ _ (by decide) (by decide) (.plain _ _ (by decide) (by decide) (.plain _ _ (by decide) (by decide)
        (.plain _ _ (by decide) (by decide) (.plain _ _ (by decide) (by decide) .nil))))
  exact h

/-! ## C03: JSON serialisation -/

/-- **C03.** Serialising a parsed policy to JSON and parsing the text again yields the same gates, children (in order)
and attribute names. -/
theorem C03_json_roundtrip (text : Str) (lang : PolicyLanguage) (v : PolicyValue) (h : parse text lang = .ok v) :
    ∃ p q : Pol, v = p.toValue ∧ parse (serializeJson v) .json = .ok q.toValue ∧ p.Same q := by
  obtain ⟨p, rfl, -⟩ := parse_ok h
  obtain ⟨q, h1, h2⟩ := C07_json_expressible p (parse_legal h)
  exact ⟨p, q, rfl, by rw [serializeJson_eq]; exact h1, h2⟩

/-- **C03.** What is serialised is the JSON text of the tree. -/
theorem C03_json_text (p : Pol) : serializeJson p.toValue = p.json := serializeJson_eq p

/-- Example for C03: a name with an escaped quote and the word `and` as a name. -/
example : ∃ v, parse (chars% "\"an\\\"d\" and (\"and\" or \"x\")") .human = .ok v ∧
    serializeJson v = (chars% "{\"name\": \"and\", \"children\": [{\"name\": \"an\\\"d\"}, {\"name\": \"or\", \"children\": [{\"name\": \"and\"}, {\"name\": \"x\"}]}]}") ∧
    ∃ w, parse (serializeJson v) .json = .ok w := by
  refine ⟨.object .and (.array [.str (chars% "an\\\"d") 2, .object .or (.array [.str (chars% "and") 15,
    .str (chars% "x") 24])]), by rfl, by decide +kernel, _, by rfl⟩

/-! ## C04: serialisation to the human language -/

/-- **C04 fails for every policy.** The serialiser writes attribute names without quotes
(`/repo/src/utils/policy/pest/mod.rs:104`), so the text of a parsed policy is never accepted again. -/
theorem C04_violated (text : Str) (lang : PolicyLanguage) (v : PolicyValue) (h : parse text lang = .ok v) :
    ∃ s, serializeHuman v none = .ok s ∧ ∀ w, parse s .human ≠ .ok w := by
  obtain ⟨p, rfl, -⟩ := parse_ok h
  refine ⟨_, serializeHuman_eq p none, fun w hw => ?_⟩
  obtain ⟨q, -, bl, t, bl', e, hbl, hbl', hh⟩ := (C58_human_parse_iff _ _).1 hw
  have ho : Open (p.humanWith id) := by
    rw [e]
    refine Open.append_left (Open.append_right (human_open hh ?_) _) (fun x c e => blank_last hbl x c e)
    simpa [Item.HasNumL] using item_noNum q
  refine ho.not_esc ?_
  have hl := parse_legal h
  clear ho e hw h hh
  induction p using Pol.ind with
  | hl n c => rw [Pol.humanWith]; exact name_quote (hl n (by simp [Pol.names]))
  | hg op cs ih =>
    rw [Pol.legal_gate] at hl
    have tail : ∀ ds : List Pol, (∀ c ∈ ds, c ∈ cs) → Esc (Pol.humanTail id op ds) := by
      intro ds
      induction ds with
      | nil => intro _; exact esc_plain (by simp [Pol.humanTail])
      | cons d ds ihd =>
        intro hd
        have h1 : Esc (' ' :: (Pol.opName op ++ [' '])) := esc_plain (by cases op <;> simp [Pol.opName])
        have h2 := h1.append ((ih d (hd d (by simp)) (hl d (hd d (by simp)))).append (ihd fun c hc => hd c (by simp [hc])))
        simpa [Pol.humanTail] using h2
    cases cs with
    | nil => exact esc_plain (by simp [Pol.humanWith])
    | cons c cs =>
      have h1 : Esc ['('] := esc_plain (by simp)
      have h2 := h1.append ((ih c (by simp) (hl c (by simp))).append
        ((tail cs (by simp +contextual)).append (esc_plain (s := [')']) (by simp))))
      simpa [Pol.humanWith] using h2

theorem humanWith_rename (f : Str → Str) : ∀ p : Pol, (p.rename f).humanWith id = p.humanWith f := by
  intro p
  induction p using Pol.ind with
  | hl n c => simp [Pol.rename, Pol.humanWith]
  | hg op cs ih =>
    have tail : ∀ ds : List Pol, (∀ c ∈ ds, c ∈ cs) →
        Pol.humanTail id op (Pol.renameL f ds) = Pol.humanTail f op ds := by
      intro ds
      induction ds with
      | nil => intro _; simp [Pol.renameL, Pol.humanTail]
      | cons d ds ihd =>
        intro hd
        simp [Pol.renameL, Pol.humanTail, ih d (hd d (by simp)), ihd fun c hc => hd c (by simp [hc])]
    cases cs with
    | nil => simp [Pol.rename, Pol.renameL, Pol.humanWith]
    | cons c cs => simp [Pol.rename, Pol.renameL, Pol.humanWith, ih c (by simp), tail cs (by simp +contextual)]

/-- **C04, partial.** The round trip works when the names stored in the tree carry their quotes (the parser never
stores them that way). Missing for the full claim: the quotes themselves, see `C04_violated`. -/
theorem C04_human_roundtrip_partial (p : Pol) (hw : p.Wide) (hl : p.Legal) :
    ∃ s q, serializeHuman (p.rename Pol.quote).toValue none = .ok s ∧ parse s .human = .ok q.toValue ∧ p.Same q := by
  obtain ⟨q, h1, h2⟩ := C07_human_expressible p hw hl
  refine ⟨_, q, serializeHuman_eq _ none, ?_, h2⟩
  rw [humanWith_rename]
  exact h1

/-- Example for C04: a parsed policy, the text it is serialised to, and the rejection of that text. -/
example : ∃ v, parse (chars% "\"A\" and (\"B\" or \"C\")") .human = .ok v ∧
    serializeHuman v none = .ok (chars% "(A and (B or C))") ∧ parse (chars% "(A and (B or C))") .human = .err :=
  ⟨.object .and (.array [.str (chars% "A") 2, .object .or (.array [.str (chars% "B") 11, .str (chars% "C") 18])]),
    by rfl, by rfl, by rfl⟩

/-! ## C06: mixed operators -/

/-- **C06.** A text in which, on some level of brackets, AND and OR follow each other without brackets is rejected,
whatever the operands, the spellings of the operators, the order, and the rest of the text. -/
theorem C06_mixed_rejected (bl m : Str) (hbl : Blank bl) (h : Mixed .node bl m) : parse (bl ++ m) .human = .err := by
  have := mixed_content hbl h (Nat.lt_succ_self _)
  rw [parse_eq, nodeOf, this]

/-- Example for C06: mixed operators inside brackets, followed by arbitrary text. -/
example : Mixed .node [] (chars% "\"A\" && (\"B\" or \"C\" \"AND\" ...") := by
  have hA : Human .term [] (chars% "\"A\"") [.attr ['A'] 2] := .attr [] ['A'] (.plain _ _ (by decide) (by decide) .nil)
  refine .later [] _ [] [' '] (chars% "&&") [' '] _ .and _ [] hA (.last _ _) blank_space (.inl (by simp [Op.spellings]))
    blank_space ?_
  refine .bracket _ '(' [] _ (by simp) .nil ?_
  have hC := Human.attr (chars% "\"A\" && (\"B\" or ") ['C'] (.plain _ _ (by decide) (by decide) .nil)
  have hu := Human.next (chars% "\"A\" && (\"B\"") [' '] (chars% "or") [' '] _ [] .or _ _ blank_space blank_space
    (.inl (by simp [Op.spellings])) hC (.last _ _)
  exact .here (chars% "\"A\" && (") (chars% "\"B\"") _ [' '] (chars% "\"AND\"") (chars% " ...") .or .and _ _ _ (by decide)
    (.attr _ ['B'] (.plain _ _ (by decide) (by decide) .nil)) hu blank_space
    (.inr ⟨[], chars% "AND", [], by simp [Op.spellings], .nil, .nil, rfl⟩)

end Rabe
