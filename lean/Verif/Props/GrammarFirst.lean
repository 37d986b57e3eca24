import Verif.Proof.GrammarFirst
import Verif.Props.Grammar

/-!
# C59, C02: exactly which texts the JSON parser accepts, refuses, and aborts on
-/

namespace Rabe

open Pest

/-- **C59.** Exact description of the JSON parser, for all texts: it accepts the texts of the JSON language in which every
object that begins with an attribute is read as an attribute (`JsonFirst`), with the tree the grammar assigns to the text,
and no others. -/
theorem C59_json_parse_exact (text : Str) (v : PolicyValue) :
    parse text .json = .ok v ↔ ∃ p : Pol, v = p.toValue ∧ JsonFirstText text p.item := by
  constructor
  · intro h
    obtain ⟨q, hq, h1, rfl⟩ := content_of_parse_ok h
    exact ⟨_, rfl, h1 ▸ jsonFirst_sound hq⟩
  · rintro ⟨p, rfl, h⟩
    obtain ⟨q, hq, e⟩ := jsonFirst_complete h (Nat.lt_succ_self _)
    exact (parse_of_content (lang := .json) hq).2 p e.symm

/-- **C59.** A JSON text is rejected exactly when the JSON language with the preference does not contain it at all. -/
theorem C59_json_err_exact (text : Str) : parse text .json = .err ↔ ¬ ∃ i, JsonFirstText text i := by
  constructor
  · rintro h ⟨i, hi⟩
    obtain ⟨q, hq, e⟩ := jsonFirst_complete hi (Nat.lt_succ_self _)
    have := parse_of_content (lang := .json) hq
    by_cases hn : q.toItem.HasNum
    · rw [this.1 hn] at h; simp at h
    · obtain ⟨p, hp⟩ := item_of_noNum _ hn
      rw [this.2 p hp] at h; simp at h
  · intro h
    cases hp : parse text .json with
    | err => rfl
    | ok v =>
      obtain ⟨q, hq, -⟩ := content_of_parse_ok hp
      exact absurd ⟨_, jsonFirst_sound hq⟩ h
    | panic =>
      obtain ⟨q, hq, -⟩ := content_of_parse_panic hp
      exact absurd ⟨_, jsonFirst_sound hq⟩ h

/-- **C02.** Exact description of the aborts of the JSON parser, for all texts: it panics on the texts of the JSON language
with the preference in which a number stands where an attribute is expected, and on no other text. -/
theorem C02_json_panic_exact (text : Str) : parse text .json = .panic ↔ ∃ i, JsonFirstText text i ∧ i.HasNum := by
  constructor
  · intro h
    obtain ⟨q, hq, h1⟩ := content_of_parse_panic h
    exact ⟨_, jsonFirst_sound hq, h1⟩
  · rintro ⟨i, hi, hn⟩
    obtain ⟨q, hq, rfl⟩ := jsonFirst_complete hi (Nat.lt_succ_self _)
    exact (parse_of_content (lang := .json) hq).1 hn

/-- **C59.** With the preference the JSON language is unambiguous: a text stands for one tree only. -/
theorem C59_json_unambiguous (text : Str) (i j : Item) (hi : JsonFirstText text i) (hj : JsonFirstText text j) : i = j := by
  obtain ⟨p, hp, rfl⟩ := jsonFirst_complete hi (Nat.lt_succ_self _)
  obtain ⟨q, hq, rfl⟩ := jsonFirst_complete hj (Nat.lt_succ_self _)
  rw [hp] at hq
  simp only [Option.some.injEq] at hq
  rw [hq]

theorem jsonFirst_json {k b t r is} (h : JsonFirst k b t r is) : Json AnyWay k b t is := by
  induction h with
  | attr b h n bl r hh hn hbl => exact .attr b h n bl hh hn hbl
  | num b h t bl r hh ht hbl => exact .num b h t bl hh ht hbl
  | gate b h k t bl r op is hh hk hbl _ _ ih => exact .gate b h k t bl op is hh hk hbl ih
  | empty b r => exact .empty b
  | first b t u r i is _ _ ih ihu => exact .first b t u i is ih ihu
  | last b bl r hbl => exact .last b bl hbl
  | next b bl bl' t u r i is hbl hbl' _ _ ih ihu => exact .next b bl bl' t u i is hbl hbl' ih ihu

/-- **C59.** The preference only takes readings away: what is left are readings of the JSON language. -/
theorem C59_json_first (text : Str) (i : Item) (h : JsonFirstText text i) : JsonText AnyWay text i := by
  obtain ⟨bl, t, bl', e, hbl, hbl', hh⟩ := h
  exact ⟨bl, t, bl', e, hbl, hbl', jsonFirst_json hh⟩

/-- **C59, what fails besides.** The JSON language without the preference is ambiguous: this text is an AND gate without
children (a policy everybody satisfies), and it is an attribute of the name `/*` with a comment behind it. The parser reads
the attribute. -/
theorem C59_violated_ambiguous : ∃ text n c, JsonText AnyWay text (.gate .and []) ∧ JsonText AnyWay text (.attr n c) ∧
    parse text .json = .ok (.str n c) := by
  refine ⟨chars% "{\"name\": \"/*\"/*/and\", \"children\": [] /**/ }", ['/', '*'], 11, ?_, ?_, by rfl⟩
  · refine ⟨[], chars% "{\"name\": \"/*\"/*/and\", \"children\": [] /**/ }", [], rfl, .nil, .nil, ?_⟩
    have hname : Spaced nameHead (chars% "{\"name\": ") := by
      refine ⟨['{'], [], _, rfl, rfl, .nil, (chars% "\"name\""), [], _, rfl, ?_, .nil, [':'], [' '], _, rfl, rfl,
        blank_space, rfl⟩
      exact .inr ⟨[], ['n', 'a', 'm', 'e'], [], by simp, .nil, .nil, rfl⟩
    have hop : Spaced (childrenHead AnyWay .and) (chars% "\"/*\"/*/and\", \"children\": [") := by
      refine ⟨chars% "\"/*\"/*/and\"", [], _, rfl, ⟨?_, trivial⟩, .nil, [','], [' '], _, rfl, rfl, blank_space,
        (chars% "\"children\""), [], _, rfl, ?_, .nil, [':'], [' '], _, rfl, rfl, blank_space, ['['], [], _, rfl, rfl,
        .nil, rfl⟩
      · exact .inr ⟨chars% "/*\"/*/", chars% "and", [], by simp [Op.spellings],
          .comment ['"', '/'] [] (by decide) .nil, .nil, rfl⟩
      · exact .inr ⟨[], (chars% "children"), [], by simp, .nil, .nil, rfl⟩
    exact Json.gate [] _ _ [] (chars% " /**/ ") .and [] hname hop
      (.space _ _ (by simp) (.comment [] _ (by decide) blank_space)) (.empty _)
  · obtain ⟨p, hp, h⟩ := C59_json_parse_sound_partial
      (chars% "{\"name\": \"/*\"/*/and\", \"children\": [] /**/ }") (.str ['/', '*'] 11) (by rfl)
    cases p with
    | leaf n c =>
      simp only [Pol.toValue, PolicyValue.str.injEq] at hp
      obtain ⟨rfl, rfl⟩ := hp
      exact h
    | gate op cs => simp [Pol.toValue] at hp

/-- Example for the theorems above: a text with a comment in a quoted operator is a gate; a text in which the comment
contains a quote and a brace is refused; one with a number is an abort. -/
example : (∃ p : Pol, JsonFirstText (chars% "{\"name\": \"/*x*/and\", \"children\": [{\"name\": \"A\"}]}") p.item) ∧
    (¬ ∃ i, JsonFirstText (chars% "{\"name\": \"/*\"}*/and\", \"children\": []}") i) ∧
    ∃ i, JsonFirstText (chars% "{\"name\": \"/*x*/and\", \"children\": [{\"name\": -1.5}]}") i ∧ i.HasNum := by
  refine ⟨?_, (C59_json_err_exact _).1 (by rfl), (C02_json_panic_exact _).1 (by rfl)⟩
  obtain ⟨p, -, h⟩ := (C59_json_parse_exact (chars% "{\"name\": \"/*x*/and\", \"children\": [{\"name\": \"A\"}]}")
    (.object .and (.array [.str ['A'] 45]))).1 (by rfl)
  exact ⟨p, h⟩

end Rabe
