import Verif.Spec.Print
import Verif.Spec.Text
import Verif.Proof.GrammarJson

/-!
# Outcomes of `parse` in terms of the grammars; printed texts are in the grammars
-/

namespace Rabe

open Pest

/-! ## Token trees, items and access trees -/

theorem Pol.itemL_eq (cs : List Pol) : Pol.itemL cs = cs.map Pol.item := by
  induction cs with
  | nil => rfl
  | cons c cs ih => simp [Pol.itemL, ih]

@[simp] theorem Pol.item_leaf (n c) : (Pol.leaf n c).item = .attr n c := by simp [Pol.item]
@[simp] theorem Pol.item_gate (op cs) : (Pol.gate op cs).item = .gate op (cs.map Pol.item) := by
  simp [Pol.item, Pol.itemL_eq]

theorem Item.hasNumL_iff (cs : List Item) : Item.HasNumL cs ↔ ∃ c ∈ cs, c.HasNum := by
  induction cs with
  | nil => simp [Item.HasNumL]
  | cons c cs ih => simp [Item.HasNumL, ih]

theorem toItem_hasNum : ∀ p : Pair, p.toItem.HasNum ↔ p.hasNumber = true := by
  intro p
  induction p using Pair.ind with
  | hs s c => simp [Pair.toItem, Item.HasNum, Pair.hasNumber]
  | hn => simp [Pair.toItem, Item.HasNum, Pair.hasNumber]
  | hg op cs ih =>
    simp only [Pair.toItem, Pair.toItemL_eq, Item.HasNum, Item.hasNumL_iff, Pair.hasNumber, Pair.hasNumberL_eq,
      List.any_eq_true, List.mem_map]
    constructor
    · rintro ⟨_, ⟨c, hc, rfl⟩, h⟩; exact ⟨c, hc, (ih c hc).1 h⟩
    · rintro ⟨c, hc, h⟩; exact ⟨_, ⟨c, hc, rfl⟩, (ih c hc).2 h⟩

theorem item_noNum : ∀ p : Pol, ¬ p.item.HasNum := by
  intro p
  induction p using Pol.ind with
  | hl n c => simp [Item.HasNum]
  | hg op cs ih =>
    simp only [Pol.item_gate, Item.HasNum, Item.hasNumL_iff, List.mem_map, not_exists, not_and]
    rintro _ ⟨c, hc, rfl⟩
    exact ih c hc

theorem toItem_toPol : ∀ p : Pair, p.hasNumber = false → p.toItem = p.toPol.item := by
  intro p
  induction p using Pair.ind with
  | hs s c => intro _; simp [Pair.toItem, Pair.toPol]
  | hn => intro h; simp [Pair.hasNumber] at h
  | hg op cs ih =>
    intro h
    simp only [Pair.hasNumber, Pair.hasNumberL_eq, List.any_eq_false, Bool.not_eq_true] at h
    simp only [Pair.toItem, Pair.toItemL_eq, Pair.toPol, Pair.toPolL_eq, Pol.item_gate, List.map_map,
      Item.gate.injEq, true_and]
    exact List.map_congr_left fun c hc => ih c hc (h c hc)

theorem item_inj : ∀ p q : Pol, p.item = q.item → p = q := by
  intro p
  induction p using Pol.ind with
  | hl n c => intro q h; cases q <;> simp_all
  | hg op cs ih =>
    intro q h
    cases q with
    | leaf n c => simp at h
    | gate op' cs' =>
      simp only [Pol.item_gate, Item.gate.injEq] at h
      obtain ⟨rfl, h2⟩ := h
      congr 1
      induction cs generalizing cs' with
      | nil => simpa using h2.symm
      | cons c cs ihc =>
        cases cs' with
        | nil => simp at h2
        | cons d ds =>
          simp only [List.map_cons, List.cons.injEq] at h2
          rw [ih c (by simp) d h2.1, ihc (fun c hc => ih c (by simp [hc])) ds h2.2]

/-- Outcomes of `parse` from the token tree. -/
theorem parse_of_content {text : Str} {lang : PolicyLanguage} {p : Pair}
    (h : content (nodeOf lang text.length) text = some p) :
    (p.toItem.HasNum → parse text lang = .panic) ∧
    (∀ q : Pol, p.toItem = q.item → parse text lang = .ok q.toValue) := by
  rw [parse_eq, h]
  refine ⟨fun hn => ?_, fun q hq => ?_⟩
  · simp [(toItem_hasNum p).1 hn]
  · have : p.hasNumber = false := by
      by_contra hc
      simp only [Bool.not_eq_false] at hc
      exact item_noNum q (hq ▸ (toItem_hasNum p).2 hc)
    have e := item_inj _ _ ((toItem_toPol p this).symm.trans hq)
    simp [this, e]

theorem content_of_parse_ok {text : Str} {lang : PolicyLanguage} {v : PolicyValue} (h : parse text lang = .ok v) :
    ∃ p, content (nodeOf lang text.length) text = some p ∧ p.toItem = p.toPol.item ∧ v = p.toPol.toValue := by
  rw [parse_eq] at h
  split at h
  · simp at h
  · rename_i p hp
    split at h
    · simp at h
    · rename_i hn
      simp only [Res.ok.injEq] at h
      exact ⟨p, hp, toItem_toPol p (by simpa using hn), h.symm⟩

theorem content_of_parse_panic {text : Str} {lang : PolicyLanguage} (h : parse text lang = .panic) :
    ∃ p, content (nodeOf lang text.length) text = some p ∧ p.toItem.HasNum := by
  rw [parse_eq] at h
  split at h
  · simp at h
  · rename_i p hp
    split at h
    · rename_i hn
      exact ⟨p, hp, (toItem_hasNum p).2 hn⟩
    · simp at h

/-- Every item without number is an access tree. -/
theorem item_of_noNum : ∀ i : Item, ¬ i.HasNum → ∃ p : Pol, i = p.item := by
  intro i
  refine Item.rec (motive_1 := fun i => ¬ i.HasNum → ∃ p : Pol, i = p.item)
    (motive_2 := fun is => ¬ Item.HasNumL is → ∃ ps : List Pol, is = ps.map Pol.item) ?_ ?_ ?_ ?_ ?_ i
  · intro n c _; exact ⟨.leaf n c, by simp⟩
  · intro h; simp [Item.HasNum] at h
  · intro op cs ih h
    obtain ⟨ps, rfl⟩ := ih (by simpa [Item.HasNum] using h)
    exact ⟨.gate op ps, by simp⟩
  · intro _; exact ⟨[], rfl⟩
  · intro c cs ih1 ih2 h
    simp only [Item.HasNumL, not_or] at h
    obtain ⟨p, rfl⟩ := ih1 h.1
    obtain ⟨ps, rfl⟩ := ih2 h.2
    exact ⟨p :: ps, rfl⟩

/-! ## Names of generated trees are legal -/

mutual
/-- All attribute names of an item are legal. -/
def Item.Legal : Item → Prop
  | .attr n _ => Name n
  | .num => True
  | .gate _ cs => Item.LegalL cs
/-- All attribute names of some items are legal. -/
def Item.LegalL : List Item → Prop
  | [] => True
  | c :: cs => Item.Legal c ∧ Item.LegalL cs
end

theorem Item.legalL_iff (cs : List Item) : Item.LegalL cs ↔ ∀ c ∈ cs, c.Legal := by
  induction cs with
  | nil => simp [Item.LegalL]
  | cons c cs ih => simp [Item.LegalL, ih]

theorem human_legal {k b t is} (h : Human k b t is) : Item.LegalL is := by
  induction h with
  | attr b n hn => simp [Item.LegalL, Item.Legal, hn]
  | num => simp [Item.LegalL, Item.Legal]
  | bracket b o bl t bl' c i _ _ _ _ _ ih => exact ih
  | single b t i _ ih => exact ih
  | gate b t u op i j is _ _ ih ihu => simp_all [Item.LegalL, Item.Legal]
  | last => simp [Item.LegalL]
  | next b bl w bl' t u op i is _ _ _ _ _ ih ihu => simp_all [Item.LegalL]

theorem json_legal {R k b t is} (h : Json R k b t is) : Item.LegalL is := by
  induction h with
  | attr b h n bl _ hn _ => simp [Item.LegalL, Item.Legal, hn]
  | num => simp [Item.LegalL, Item.Legal]
  | gate b h k t bl op is _ _ _ _ ih => simp [Item.LegalL, Item.Legal, ih]
  | empty => simp [Item.LegalL]
  | first b t u i is _ _ ih ihu => simp_all [Item.LegalL]
  | last => simp [Item.LegalL]
  | next b bl bl' t u i is _ _ _ _ ih ihu => simp_all [Item.LegalL]

theorem Pol.legal_gate (op cs) : (Pol.gate op cs).Legal ↔ ∀ c ∈ cs, c.Legal := by
  simp only [Pol.Legal, Pol.names, Pol.leaves_gate, List.map_flatMap, List.mem_flatMap]
  constructor
  · intro h c hc n hn; exact h n ⟨c, hc, hn⟩
  · rintro h n ⟨c, hc, hn⟩; exact h c hc n hn

theorem item_legal : ∀ p : Pol, p.item.Legal ↔ p.Legal := by
  intro p
  induction p using Pol.ind with
  | hl n c => simp [Item.Legal, Pol.Legal, Pol.names]
  | hg op cs ih =>
    rw [Pol.legal_gate]
    simp only [Pol.item_gate, Item.Legal, Item.legalL_iff, List.mem_map, forall_exists_index, and_imp,
      forall_apply_eq_imp_iff₂]
    exact ⟨fun h c hc => (ih c hc).1 (h c hc), fun h c hc => (ih c hc).2 (h c hc)⟩

theorem parse_legal {text : Str} {lang : PolicyLanguage} {p : Pol} (h : parse text lang = .ok p.toValue) : p.Legal := by
  obtain ⟨q, hq, h1, h2⟩ := content_of_parse_ok h
  have : Item.LegalL [q.toItem] := by
    cases lang with
    | human =>
      obtain ⟨bl, t, bl', -, -, -, hh⟩ := human_sound hq
      exact human_legal hh
    | json =>
      obtain ⟨bl, t, bl', -, -, -, hh⟩ := json_sound hq
      exact json_legal hh
  have hv : p = q.toPol := by
    have : ∀ p q : Pol, p.toValue = q.toValue → p = q := by
      intro p
      induction p using Pol.ind with
      | hl n c => intro q h; cases q <;> simp_all
      | hg op cs ih =>
        intro q h
        cases q with
        | leaf n c => simp at h
        | gate op' cs' =>
          simp only [Pol.toValue_gate, PolicyValue.object.injEq, PolicyValue.array.injEq] at h
          obtain ⟨h1, h2⟩ := h
          have hop : op = op' := by cases op <;> cases op' <;> simp_all [Op.toType]
          subst hop
          congr 1
          clear h1
          induction cs generalizing cs' with
          | nil => simpa using h2.symm
          | cons c cs ihc =>
            cases cs' with
            | nil => simp at h2
            | cons d ds =>
              simp only [List.map_cons, List.cons.injEq] at h2
              rw [ih c (by simp) d h2.1, ihc (fun c hc => ih c (by simp [hc])) ds h2.2]
    exact this _ _ h2
  rw [hv, ← item_legal, ← h1]
  simpa [Item.LegalL] using this

/-! ## Printed texts -/

theorem opName_spelling (op : Op) : Pol.opName op ∈ op.spellings := by cases op <;> simp [Pol.opName, Op.spellings]

theorem blank_space : Blank [' '] := .space ' ' [] (by simp) .nil

theorem human_print : ∀ p : Pol, p.Wide → p.Legal → ∀ b, ∃ q : Pol, p.Same q ∧ Human .term b p.human [q.item] := by
  intro p
  induction p using Pol.ind with
  | hl n c =>
    intro _ hl b
    refine ⟨.leaf n (column (b ++ ['"'])), by simp [Pol.Same], ?_⟩
    simp only [Pol.human, Pol.humanWith, Pol.quote, Pol.item_leaf]
    exact .attr b n (hl n (by simp [Pol.names]))
  | hg op cs ih =>
    intro hw hl b
    rw [Pol.legal_gate] at hl
    simp only [Pol.Wide, Pol.arity_gate] at hw
    have tail : ∀ ds : List Pol, (∀ c ∈ ds, c ∈ cs) → ∀ b, ∃ qs : List Pol, Pol.SameL ds qs ∧
        Human (.tail op) b (Pol.humanTail Pol.quote op ds) (qs.map Pol.item) := by
      intro ds
      induction ds with
      | nil => intro _ b; exact ⟨[], by simp [Pol.SameL], by simpa [Pol.humanTail] using .last b op⟩
      | cons d ds ihd =>
        intro hd b
        have hdm := hd d (by simp)
        obtain ⟨q, hq1, hq2⟩ := ih d hdm (hw.2 d hdm) (hl d hdm) (b ++ ([' '] ++ (Pol.opName op ++ [' '])))
        obtain ⟨qs, hqs1, hqs2⟩ := ihd (fun c hc => hd c (by simp [hc]))
          (b ++ ([' '] ++ (Pol.opName op ++ ([' '] ++ d.human))))
        refine ⟨q :: qs, by simp [Pol.SameL, hq1, hqs1], ?_⟩
        have := Human.next b [' '] (Pol.opName op) [' '] d.human _ op _ _ blank_space blank_space
          (.inl (opName_spelling op)) hq2 hqs2
        simpa [Pol.humanTail, Pol.human] using this
    match cs, hw, tail, ih, hl with
    | c :: d :: cs, hw, tail, ih, hl =>
      obtain ⟨q, hq1, hq2⟩ := ih c (by simp) (hw.2 c (by simp)) (hl c (by simp)) (b ++ '(' :: [])
      obtain ⟨qs, hqs1, hqs2⟩ := tail (d :: cs) (by simp +contextual) (b ++ '(' :: [] ++ c.human)
      match qs, hqs1, hqs2 with
      | r :: qs, hqs1, hqs2 =>
        refine ⟨.gate op (q :: r :: qs), ⟨rfl, hq1, hqs1⟩, ?_⟩
        have h1 := Human.gate _ _ _ op _ _ _ hq2 hqs2
        have h2 := Human.bracket b '(' [] _ [] ')' _ (by simp) (by simp) .nil .nil h1
        simpa [Pol.human, Pol.humanWith] using h2
      | [], hqs1, _ => simp [Pol.SameL] at hqs1
    | [c], hw, _, _, _ => simp at hw
    | [], hw, _, _, _ => simp at hw

theorem json_print : ∀ p : Pol, p.Legal → ∀ b, ∃ q : Pol, p.Same q ∧ Json Plain .node b p.json [q.item] := by
  intro p
  have hname : Spaced nameHead (chars% "{\"name\": ") := by
    refine ⟨['{'], [], _, rfl, rfl, .nil, (chars% "\"name\""), [], _, rfl, ?_, .nil, [':'], [' '], _, rfl, rfl,
      blank_space, rfl⟩
    exact .inr ⟨[], ['n', 'a', 'm', 'e'], [], by simp, .nil, .nil, rfl⟩
  induction p using Pol.ind with
  | hl n c =>
    intro hl b
    have := Json.attr (R := Plain) b _ n [] hname (hl n (by simp [Pol.names])) .nil
    rw [← Pol.item_leaf] at this
    exact ⟨.leaf n (column (b ++ ((chars% "{\"name\": ") ++ ['"']))), by simp [Pol.Same], by simpa [Pol.json] using this⟩
  | hg op cs ih =>
    intro hl b
    rw [Pol.legal_gate] at hl
    have tail : ∀ ds : List Pol, (∀ c ∈ ds, c ∈ cs) → ∀ b, ∃ qs : List Pol, Pol.SameL ds qs ∧
        Json Plain .tail b (Pol.jsonTail ds) (qs.map Pol.item) := by
      intro ds
      induction ds with
      | nil => intro _ b; exact ⟨[], by simp [Pol.SameL], by simpa [Pol.jsonTail] using .last b [] .nil⟩
      | cons d ds ihd =>
        intro hd b
        have hdm := hd d (by simp)
        obtain ⟨q, hq1, hq2⟩ := ih d hdm (hl d hdm) (b ++ ([] ++ ',' :: [' ']))
        obtain ⟨qs, hqs1, hqs2⟩ := ihd (fun c hc => hd c (by simp [hc])) (b ++ ([] ++ ',' :: ([' '] ++ d.json)))
        refine ⟨q :: qs, by simp [Pol.SameL, hq1, hqs1], ?_⟩
        have := Json.next b [] [' '] d.json _ _ _ .nil blank_space hq2 hqs2
        simpa [Pol.jsonTail] using this
    have list : ∀ b, ∃ qs : List Pol, Pol.SameL cs qs ∧ Json Plain .list b (Pol.jsonL cs) (qs.map Pol.item) := by
      intro b
      match cs, tail, ih, hl with
      | [], _, _, _ => exact ⟨[], by simp [Pol.SameL], by simpa [Pol.jsonL] using .empty b⟩
      | c :: cs, tail, ih, hl =>
        obtain ⟨q, hq1, hq2⟩ := ih c (by simp) (hl c (by simp)) b
        obtain ⟨qs, hqs1, hqs2⟩ := tail cs (by simp +contextual) (b ++ c.json)
        exact ⟨q :: qs, by simp [Pol.SameL, hq1, hqs1], by
          simpa [Pol.jsonL] using Json.first b c.json _ _ _ hq2 hqs2⟩
    have hop : Spaced (childrenHead Plain op) ('"' :: (Pol.opName op ++ (chars% "\", \"children\": ["))) := by
      refine ⟨'"' :: (Pol.opName op ++ ['"']), [], _, ?_, ⟨?_, ?_⟩, .nil, [','], [' '], _, rfl, rfl, blank_space,
        (chars% "\"children\""), [], _, rfl, ?_, .nil, [':'], [' '], _, rfl, rfl, blank_space, ['['], [], _, rfl, rfl,
        .nil, rfl⟩
      · simp
      · exact .inr ⟨[], Pol.opName op, [], opName_spelling op, .nil, .nil, rfl⟩
      · cases op <;> (simp only [Plain, Pol.opName]; decide)
      · exact .inr ⟨[], (chars% "children"), [], by simp, .nil, .nil, rfl⟩
    obtain ⟨qs, h1, h2⟩ := list (b ++ ((chars% "{\"name\": ") ++ ('"' :: (Pol.opName op ++ (chars% "\", \"children\": [")))))
    refine ⟨.gate op qs, ⟨rfl, h1⟩, ?_⟩
    have := Json.gate b _ _ _ [] op _ hname hop .nil h2
    rw [← Pol.item_gate] at this
    simpa [Pol.json] using this

theorem Human.text {p : Item} {t : Str} (h : Human .term [] t [p]) : HumanText t p :=
  ⟨[], t, [], by simp, .nil, .nil, .single [] t _ h⟩

theorem Json.text {R} {p : Item} {t : Str} (h : Json R .node [] t [p]) : JsonText R t p :=
  ⟨[], t, [], by simp, .nil, .nil, h⟩

/-! ## The serialisers of the code -/

theorem serializeJsonL_eq (cs : List PolicyValue) : serializeJsonL cs = cs.map serializeJson := by
  induction cs with
  | nil => rfl
  | cons c cs ih => simp [serializeJsonL, ih]

theorem serializeJson_eq : ∀ p : Pol, serializeJson p.toValue = p.json := by
  intro p
  induction p using Pol.ind with
  | hl n c => simp [serializeJson, Pol.json]
  | hg op cs ih =>
    have hj : joinStr (chars% ", ") (cs.map fun c => serializeJson c.toValue) = Pol.jsonL cs := by
      have tail : ∀ ds : List Pol, (∀ c ∈ ds, c ∈ cs) → ∀ x, joinStr (chars% ", ")
          (x :: ds.map fun c => serializeJson c.toValue) = x ++ Pol.jsonTail ds := by
        intro ds
        induction ds with
        | nil => intro _ x; simp [joinStr, Pol.jsonTail]
        | cons d ds ihd =>
          intro hd x
          rw [List.map_cons, joinStr, ihd (fun c hc => hd c (by simp [hc])), ih d (hd d (by simp))]
          simp [Pol.jsonTail]
      cases cs with
      | nil => simp [joinStr, Pol.jsonL]
      | cons c cs =>
        rw [List.map_cons, tail cs (by simp +contextual), ih c (by simp)]
        simp [Pol.jsonL]
    cases op <;> simp [serializeJson, serializeJsonL_eq, Op.toType, Pol.json, Pol.opName, ← hj, List.map_map,
      Function.comp_def]

theorem serializeHuman_eq : ∀ p : Pol, ∀ parent, serializeHuman p.toValue parent = .ok (p.humanWith id) := by
  intro p
  induction p using Pol.ind with
  | hl n c => intro parent; simp [serializeHuman, Pol.humanWith]
  | hg op cs ih =>
    intro parent
    have hl : ∀ ds : List Pol, (∀ c ∈ ds, c ∈ cs) →
        serializeHumanL (ds.map Pol.toValue) = .ok (ds.map fun c => c.humanWith id) := by
      intro ds
      induction ds with
      | nil => intro _; simp [serializeHumanL]
      | cons d ds ihd =>
        intro hd
        simp [serializeHumanL, ih d (hd d (by simp)), ihd (fun c hc => hd c (by simp [hc]))]
    have tail : ∀ (ds : List Pol) x, joinStr (' ' :: (Pol.opName op ++ [' ']))
        (x :: ds.map fun c => c.humanWith id) = x ++ Pol.humanTail id op ds := by
      intro ds
      induction ds with
      | nil => intro x; simp [joinStr, Pol.humanTail]
      | cons d ds ihd =>
        intro x
        rw [List.map_cons, joinStr, ihd]
        simp [Pol.humanTail]
    have hj : '(' :: joinStr (' ' :: (Pol.opName op ++ [' '])) (cs.map fun c => c.humanWith id) ++ [')'] =
        (Pol.gate op cs).humanWith id := by
      cases cs with
      | nil => simp [joinStr, Pol.humanWith]
      | cons c cs =>
        rw [List.map_cons, tail]
        simp [Pol.humanWith]
    have := hl cs (by simp)
    cases op <;> simp [serializeHuman, Op.toType, this, ← hj, Pol.opName]

end Rabe
