import Verif.Spec.Text
import Verif.Proof.ParserNum
import Verif.Proof.Labels
import Mathlib.Data.List.Nodup

/-!
# C01, C02, C05: what `parse` returns
-/

namespace Rabe

open Pest

theorem toValue_inj : ∀ p q : Pol, p.toValue = q.toValue → p = q := by
  intro p
  induction p using Pol.ind with
  | hl n c => intro q h; cases q <;> simp_all
  | hg op cs ih =>
    intro q h
    cases q with
    | leaf n c => simp at h
    | gate op' cs' =>
      simp only [Pol.toValue_gate, PolicyValue.object.injEq, PolicyValue.array.injEq] at h
      obtain ⟨h1, h2⟩ := h
      have hop : op = op' := by cases op <;> cases op' <;> simp_all [Op.toType]
      subst hop
      congr 1
      clear h1
      induction cs generalizing cs' with
      | nil => simpa using h2.symm
      | cons c cs ihc =>
        cases cs' with
        | nil => simp at h2
        | cons d ds =>
          simp only [List.map_cons, List.cons.injEq] at h2
          rw [ih c (by simp) d h2.1, ihc (fun c hc => ih c (by simp [hc])) ds h2.2]

/-- **C01.** Whatever `parse` accepts is an access tree of AND/OR gates over attribute leaves (exactly one), and in
the human language every gate has at least two children. -/
theorem C01_parse_well_formed (text : Str) (lang : PolicyLanguage) (v : PolicyValue)
    (h : parse text lang = .ok v) :
    ∃! p : Pol, Denotes text lang p ∧ v = p.toValue ∧ (lang = .human → p.Wide) := by
  obtain ⟨p, rfl, _, _, hw⟩ := parse_ok h
  refine ⟨p, ⟨h, rfl, hw⟩, ?_⟩
  rintro q ⟨_, hq, _⟩
  exact (toValue_inj _ _ hq).symm

/-- A text with all features: nested gates, comment, several kinds of brackets and spellings. -/
example : parse (chars% "[\"A\" && \"B\"} /* c */ or (\"C\")") .human =
    .ok (Pol.gate .or [.gate .and [.leaf (chars% "A") 3, .leaf (chars% "B") 10], .leaf (chars% "C") 27]).toValue := by
  rfl

/-- The JSON language accepts gates with one or no child. -/
example : parse (chars% "{\"name\": \"and\", \"children\": [{\"name\": \"or\", \"children\": []}]}") .json =
    .ok (Pol.gate .and [.gate .or []]).toValue := by
  rfl

/-- **C02 is violated.** `parse` panics on a number, in both languages. -/
theorem C02_violated : parse (chars% "5") .human = .panic ∧ parse (chars% "{\"name\": 5}") .json = .panic :=
  ⟨rfl, rfl⟩

/-- **C02, partial.** A text without decimal digits never makes `parse` panic. (Full claim: no text at all makes it
panic; false, see `C02_violated`.) -/
theorem C02_parse_no_panic_partial (text : Str) (lang : PolicyLanguage) (h : ∀ c ∈ text, ¬('0' ≤ c ∧ c ≤ '9')) :
    parse text lang ≠ .panic := by
  rw [parse_eq]
  split
  · simp
  · rename_i p hp
    have hd : ∀ c ∈ text, isDigit c = false := by
      intro c hc
      simp only [isDigit, Bool.and_eq_false_iff, decide_eq_false_iff_not]
      have := h c hc
      by_contra hcon
      simp only [not_or, not_not] at hcon
      exact this hcon
    simp only [content, Option.bind_eq_bind, Option.bind_eq_some_iff, Prod.exists] at hp
    obtain ⟨q, s, h1, h2⟩ := hp
    split at h2
    · simp only [Option.some.injEq] at h2
      subst h2
      have := (noNum_nodeOf lang _ _ _ _ h1).2 fun c hc => hd c ((reads_skip ⟨1, text⟩).mem hc)
      simp [this]
    · simp at h2

/-- A text meeting the hypothesis of `C02_parse_no_panic_partial`, accepted. -/
example : (∀ c ∈ (chars% "(\"A\" or \"B\")"), ¬('0' ≤ c ∧ c ≤ '9')) ∧
    parse (chars% "(\"A\" or \"B\")") .human = .ok (Pol.gate .or [.leaf ['A'] 3, .leaf ['B'] 10]).toValue :=
  ⟨by decide, rfl⟩

/-- A numeric string in quotes is an ordinary attribute and does not panic. -/
example : parse (chars% "\"5\"") .human = .ok (Pol.leaf ['5'] 2).toValue := rfl

/-- **C05 is violated.** In a text of three lines both leaves named `A` get the label `A_3`. -/
theorem C05_violated : ∃ p : Pol, Denotes (chars% "(\"A\" and \"B\")\nor\n(\"A\" and \"C\")") .human p ∧
    ¬ (p.leaves.map fun l => nodeIndex l.1 l.2).Nodup := by
  refine ⟨.gate .or [.gate .and [.leaf ['A'] 3, .leaf ['B'] 11], .gate .and [.leaf ['A'] 3, .leaf ['C'] 11]], rfl, ?_⟩
  simp

/-- **C05, partial.** In a text without newline, different leaves get different labels. (Full claim: for every
accepted text; false, see `C05_violated`.) -/
theorem C05_labels_distinct_partial (text : Str) (lang : PolicyLanguage) (v : PolicyValue)
    (h : parse text lang = .ok v) (hn : '\n' ∉ text) :
    ∃ p : Pol, v = p.toValue ∧ p.leaves.Nodup ∧ (p.leaves.map fun l => nodeIndex l.1 l.2).Nodup := by
  obtain ⟨p, rfl, _, hc, _⟩ := parse_ok h
  have hs : (p.leaves.map Prod.snd).Nodup := (hc hn).imp (fun h => Nat.ne_of_lt h)
  have hs' : p.leaves.Nodup := List.Nodup.of_map _ hs
  refine ⟨p, rfl, hs', ?_⟩
  refine (List.nodup_map_iff_inj_on hs').2 ?_
  intro x _ y _ hxy
  obtain ⟨h1, h2⟩ := nodeIndex_inj hxy
  exact Prod.ext h1 h2

/-- A one-line text with a repeated attribute; the labels differ. -/
example : parse (chars% "(\"A\" and \"B\") or (\"A\" and \"C\")") .human = .ok (Pol.gate .or
    [.gate .and [.leaf ['A'] 3, .leaf ['B'] 11], .gate .and [.leaf ['A'] 20, .leaf ['C'] 28]]).toValue := rfl

/-- Single-line human texts are regular. -/
theorem regular_human {text : Str} {v : PolicyValue} (h : parse text .human = .ok v) (hn : '\n' ∉ text)
    (hl : text.length < 2 ^ 64) : ∃ p, v = p.toValue ∧ Regular text .human p := by
  obtain ⟨p, rfl, hf, hc, hw⟩ := parse_ok h
  have hs : (p.leaves.map Prod.snd).Nodup := (hc hn).imp (fun h => Nat.ne_of_lt h)
  have hs' : p.leaves.Nodup := List.Nodup.of_map _ hs
  exact ⟨p, rfl, h, hl, hw rfl, hs'⟩

theorem Regular.fits {text lang p} (h : Regular text lang p) : p.Fits := by
  obtain ⟨q, hq, hf, _⟩ := parse_ok h.denotes
  rw [toValue_inj _ _ hq]
  exact hf h.short

end Rabe
