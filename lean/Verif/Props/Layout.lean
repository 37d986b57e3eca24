import Verif.Proof.Columns
import Verif.Props.Bsw
import Verif.Props.Ac17
import Verif.Props.Bdabe
import Verif.Props.Mke08

/-!
# Property C95: spacing and comments

Two texts with the same tokens (`Verif.Spec.Layout`) that differ in the white space and the comments around the tokens.
-/

namespace Rabe

mutual
theorem item_shape : ∀ p : Pol, p.item.shape = p.shape.item
  | .leaf n c => by simp [Pol.item, Item.shape, Pol.shape]
  | .gate op cs => by
    simp only [Pol.item, Item.shape, Pol.shape, Item.gate.injEq, true_and]
    exact item_shapeL cs
theorem item_shapeL : ∀ cs : List Pol, Item.shapeL (Pol.itemL cs) = Pol.itemL (Pol.shapeL cs)
  | [] => rfl
  | c :: cs => by simp [Pol.itemL, Item.shapeL, Pol.shapeL, item_shape c, item_shapeL cs]
end

mutual
theorem hasNum_shape : ∀ i : Item, i.shape.HasNum ↔ i.HasNum
  | .attr n c => by simp [Item.shape, Item.HasNum]
  | .num => by simp [Item.shape]
  | .gate op cs => by
    simp only [Item.shape, Item.HasNum]
    exact hasNumL_shape cs
theorem hasNumL_shape : ∀ is : List Item, Item.HasNumL (Item.shapeL is) ↔ Item.HasNumL is
  | [] => by simp [Item.shapeL]
  | i :: is => by simp [Item.shapeL, Item.HasNumL, hasNum_shape i, hasNumL_shape is]
end

theorem pol_of_shape {p : Pol} {j : Item} (h : j.shape = p.item.shape) (hn : ¬ p.item.HasNum) :
    ∃ q : Pol, j = q.item ∧ q.shape = p.shape := by
  have hj : ¬ j.HasNum := by rw [← hasNum_shape, h, hasNum_shape]; exact hn
  obtain ⟨q, rfl⟩ := item_of_noNum j hj
  refine ⟨q, rfl, item_inj _ _ ?_⟩
  rw [← item_shape, ← item_shape, h]

/-- One direction: an accepted text stays accepted, with the same tree. -/
theorem denotes_layout {ks : List Token} {t t' : Str} (h : Layout ks t) (h' : Layout ks t') {lang : PolicyLanguage} {p : Pol}
    (hp : Denotes t lang p) : ∃ q, Denotes t' lang q ∧ q.shape = p.shape := by
  cases lang with
  | human =>
    obtain ⟨p', e, hh⟩ := (C58_human_parse_iff t _).1 hp
    obtain ⟨hn, j, hj, hsh⟩ := humanText_layout h h' hh
    obtain ⟨q, rfl, hq⟩ := pol_of_shape hsh hn
    rw [toValue_inj _ _ e]
    exact ⟨q, (C58_human_parse_iff t' _).2 ⟨q, rfl, hj⟩, hq⟩
  | json =>
    obtain ⟨p', e, hh⟩ := C59_json_parse_sound_partial t _ hp
    obtain ⟨hn, j, hj, hsh⟩ := jsonText_layout h h' hh
    obtain ⟨q, rfl, hq⟩ := pol_of_shape hsh hn
    rw [toValue_inj _ _ e]
    exact ⟨q, C59_json_parse_complete_partial t' q hj, hq⟩

theorem layout_no_panic {ks : List Token} {t : Str} (h : Layout ks t) (lang : PolicyLanguage) : parse t lang ≠ .panic := by
  cases lang with
  | human =>
    intro hp
    obtain ⟨i, hi, hn⟩ := (C02_human_panic_iff t).1 hp
    exact (humanText_layout h h hi).1 hn
  | json =>
    intro hp
    obtain ⟨i, hi, hn⟩ := (C02_json_panic_exact t).1 hp
    exact (jsonText_layout h h (C59_json_first t i hi)).1 hn

/-- **C95, the parser.** Two texts with the same tokens: either both are accepted, with the same tree apart from the columns
of the leaves, or both are rejected. Neither makes the parser panic. -/
theorem C95_layout_parse (ks : List Token) (t t' : Str) (h : Layout ks t) (h' : Layout ks t') (lang : PolicyLanguage) :
    (∃ p p' : Pol, Denotes t lang p ∧ Denotes t' lang p' ∧ p'.shape = p.shape) ∨
    (parse t lang = .err ∧ parse t' lang = .err) := by
  rcases hp : parse t lang with v | _ | _
  · obtain ⟨p, rfl, -⟩ := parse_ok hp
    obtain ⟨q, hq, e⟩ := denotes_layout h h' hp
    exact .inl ⟨p, q, hp, hq, e⟩
  · rcases hp' : parse t' lang with v | _ | _
    · obtain ⟨p, rfl, -⟩ := parse_ok hp'
      obtain ⟨q, hq, e⟩ := denotes_layout h' h hp'
      rw [Denotes, hp] at hq
      simp at hq
    · exact .inr ⟨rfl, rfl⟩
    · exact (layout_no_panic h' lang hp').elim
  · exact (layout_no_panic h lang hp).elim

mutual
theorem sat_shape (A : List Str) : ∀ p : Pol, p.shape.sat A = p.sat A
  | .leaf n c => by simp [Pol.shape]
  | .gate .and cs => by simp only [Pol.shape, Pol.sat]; exact satAll_shape A cs
  | .gate .or cs => by simp only [Pol.shape, Pol.sat]; exact satAny_shape A cs
theorem satAll_shape (A : List Str) : ∀ cs : List Pol, Pol.satAll A (Pol.shapeL cs) = Pol.satAll A cs
  | [] => rfl
  | c :: cs => by simp only [Pol.shapeL, Pol.satAll, sat_shape A c, satAll_shape A cs]
theorem satAny_shape (A : List Str) : ∀ cs : List Pol, Pol.satAny A (Pol.shapeL cs) = Pol.satAny A cs
  | [] => rfl
  | c :: cs => by simp only [Pol.shapeL, Pol.satAny, sat_shape A c, satAny_shape A cs]
end

mutual
theorem names_shape : ∀ p : Pol, p.shape.leaves.map Prod.fst = p.leaves.map Prod.fst
  | .leaf n c => by simp [Pol.shape]
  | .gate op cs => by simp only [Pol.shape, Pol.leaves]; exact namesL_shape cs
theorem namesL_shape : ∀ cs : List Pol, (Pol.leavesL (Pol.shapeL cs)).map Prod.fst = (Pol.leavesL cs).map Prod.fst
  | [] => rfl
  | c :: cs => by simp [Pol.shapeL, Pol.leavesL, names_shape c, namesL_shape cs]
end

theorem shapeL_length : ∀ cs : List Pol, (Pol.shapeL cs).length = cs.length
  | [] => rfl
  | c :: cs => by simp [Pol.shapeL, shapeL_length cs]

mutual
theorem arity_shape (Q : Op → ℕ → Prop) : ∀ p : Pol, p.shape.Arity Q ↔ p.Arity Q
  | .leaf n c => by simp [Pol.shape]
  | .gate op cs => by simp only [Pol.shape, Pol.Arity, shapeL_length, arityL_shape Q cs]
theorem arityL_shape (Q : Op → ℕ → Prop) : ∀ cs : List Pol, Pol.ArityL Q (Pol.shapeL cs) ↔ Pol.ArityL Q cs
  | [] => by simp [Pol.shapeL]
  | c :: cs => by simp only [Pol.shapeL, Pol.ArityL, arity_shape Q c, arityL_shape Q cs]
end

/-- **C95, the meaning.** Two texts with the same tokens name the same attributes in the same order and are satisfied by the
same sets of attributes. -/
theorem C95_layout_meaning (ks : List Token) (t t' : Str) (h : Layout ks t) (h' : Layout ks t') (lang : PolicyLanguage)
    (p p' : Pol) (hp : Denotes t lang p) (hp' : Denotes t' lang p') :
    p.names = p'.names ∧ ∀ A, p.sat A = p'.sat A := by
  obtain ⟨q, hq, e⟩ := denotes_layout h h' hp
  have : q = p' := toValue_inj _ _ (Res.ok.inj (hq.symm.trans hp'))
  subst this
  refine ⟨?_, fun A => ?_⟩
  · rw [Pol.names, Pol.names, ← names_shape p, ← e, names_shape]
  · rw [← sat_shape A p, ← e, sat_shape]

/-- Texts from tokens and the blanks behind them. -/
theorem layout_of (bl : Str) (l : List (Token × Str)) (hb : Blank bl) (h : ∀ x ∈ l, x.1.Legal ∧ Blank x.2) :
    Layout (l.map Prod.fst) (bl ++ l.flatMap fun x => x.1.text ++ x.2) := by
  refine ⟨bl, _, rfl, hb, ?_⟩
  induction l with
  | nil => rfl
  | cons x l ih =>
    refine ⟨x.2, l.flatMap fun x => x.1.text ++ x.2, by simp, (h x (by simp)).1, (h x (by simp)).2, ?_⟩
    exact ih fun y hy => h y (by simp [hy])

/-- The tokens of the examples below. -/
def exTokens : List Token :=
  [.sym '(', .str ['A'], .word (chars% "and"), .str ['B'], .sym ')', .word (chars% "or"),
    .sym '(', .str ['A'], .word (chars% "and"), .str ['C'], .sym ')']

theorem exTokens_legal (k : Token) (h : k ∈ exTokens) : k.Legal := by
  have name (c : Char) (h1 : c ≠ '"') (h2 : c ≠ '\\') (h3 : c ≠ '/') : Name [c] ∧ ¬ ['/', '*'] <:+: [c] := by
    refine ⟨.plain c [] h1 h2 .nil, fun h => ?_⟩
    have := h.length_le
    simp at this
  simp only [exTokens, List.mem_cons, List.not_mem_nil, or_false] at h
  rcases h with rfl | rfl | rfl | rfl | rfl | rfl | rfl | rfl | rfl | rfl | rfl <;>
    first
    | exact name _ (by decide) (by decide) (by decide)
    | simp [Token.Legal, keywords]

/-- The policy on one line. -/
def oneLine : Str := chars% "(\"A\" and \"B\") or (\"A\" and \"C\")"

/-- The policy over several lines. -/
def threeLines : Str := chars% "(\"A\" and \"B\")\nor\n(\"A\" and \"C\")"

/-- The policy with a comment and without spaces. -/
def withComment : Str := chars% "/* \"A\" first */(\"A\"and\"B\")or(\"A\"and\"C\")\t"

theorem oneLine_layout : Layout exTokens oneLine :=
  layout_of [] (exTokens.zip [[], [' '], [' '], [], [' '], [' '], [], [' '], [' '], [], []]) .nil (by
    intro x hx
    obtain ⟨h1, h2⟩ := List.of_mem_zip hx
    refine ⟨exTokens_legal _ h1, ?_⟩
    have : x.2 = [] ∨ x.2 = [' '] := by
      simp only [List.mem_cons, List.not_mem_nil, or_false] at h2
      tauto
    rcases this with h | h <;> rw [h]
    · exact .nil
    · exact blank_space)

theorem threeLines_layout : Layout exTokens threeLines :=
  layout_of [] (exTokens.zip [[], [' '], [' '], [], ['\n'], ['\n'], [], [' '], [' '], [], []]) .nil (by
    intro x hx
    obtain ⟨h1, h2⟩ := List.of_mem_zip hx
    refine ⟨exTokens_legal _ h1, ?_⟩
    have : x.2 = [] ∨ x.2 = [' '] ∨ x.2 = ['\n'] := by
      simp only [List.mem_cons, List.not_mem_nil, or_false] at h2
      tauto
    rcases this with h | h | h <;> rw [h]
    · exact .nil
    · exact blank_space
    · exact .space _ _ (by simp) .nil)

theorem withComment_layout : Layout exTokens withComment :=
  layout_of (chars% "/* \"A\" first */") (exTokens.zip [[], [], [], [], [], [], [], [], [], [], ['\t']])
    (.comment (chars% " \"A\" first ") [] (by decide) .nil) (by
    intro x hx
    obtain ⟨h1, h2⟩ := List.of_mem_zip hx
    refine ⟨exTokens_legal _ h1, ?_⟩
    have : x.2 = [] ∨ x.2 = ['\t'] := by simpa using h2
    rcases this with h | h <;> rw [h]
    · exact .nil
    · exact .space _ _ (by simp) .nil)

/-- Accepted texts with the same tokens; the columns differ, the attributes of different leaves may even get the same
column. -/
example : Layout exTokens oneLine ∧ Layout exTokens withComment ∧ ∃ p p', Denotes oneLine .human p ∧
    Denotes withComment .human p' ∧ p ≠ p' ∧ p'.shape = p.shape :=
  ⟨oneLine_layout, withComment_layout,
    .gate .or [.gate .and [.leaf ['A'] 3, .leaf ['B'] 11], .gate .and [.leaf ['A'] 20, .leaf ['C'] 28]],
    .gate .or [.gate .and [.leaf ['A'] 18, .leaf ['B'] 24], .gate .and [.leaf ['A'] 31, .leaf ['C'] 37]],
    rfl, rfl, by simp, by simp [Pol.shape, Pol.shapeL]⟩

/-- The same tokens are no policy of the JSON language in any layout. -/
example : parse oneLine .json = .err ∧ parse withComment .json = .err := ⟨rfl, rfl⟩

/-- A quoted operator of the JSON language counts as a text in quotes. -/
example : Layout [.sym '{', .str (chars% "name"), .sym ':', .str ['A'], .sym '}'] (chars% "{ \"name\" :\n\"A\"}") ∧
    Denotes (chars% "{ \"name\" :\n\"A\"}") .json (.leaf ['A'] 2) := by
  refine ⟨?_, rfl⟩
  refine layout_of [] [(.sym '{', [' ']), (.str (chars% "name"), [' ']), (.sym ':', ['\n']), (.str ['A'], []), (.sym '}', [])]
    .nil ?_
  have hA : Name ['A'] := .plain _ _ (by decide) (by decide) .nil
  have hn : Name (chars% "name") := .plain _ _ (by decide) (by decide) (.plain _ _ (by decide) (by decide)
    (.plain _ _ (by decide) (by decide) (.plain _ _ (by decide) (by decide) .nil)))
  simp only [List.mem_cons, List.not_mem_nil, or_false]
  rintro x (rfl | rfl | rfl | rfl | rfl)
  · exact ⟨by simp [Token.Legal], blank_space⟩
  · exact ⟨⟨hn, by decide⟩, blank_space⟩
  · exact ⟨by simp [Token.Legal], .space _ _ (by simp) .nil⟩
  · exact ⟨⟨hA, by decide⟩, .nil⟩
  · exact ⟨by simp [Token.Legal], .nil⟩

/-- What the texts `t` and `t'` give with the parser, without columns. -/
theorem layout_value {ks : List Token} {t t' : Str} (h : Layout ks t) (h' : Layout ks t') (lang : PolicyLanguage) :
    (∃ v v', parse t lang = .ok v ∧ parse t' lang = .ok v' ∧ v.noCol = v'.noCol) ∨
    (parse t lang = .err ∧ parse t' lang = .err) := by
  rcases C95_layout_parse ks t t' h h' lang with ⟨p, p', hp, hp', e⟩ | e
  · refine .inl ⟨_, _, hp, hp', ?_⟩
    rw [← toValue_shape, ← toValue_shape, e]
  · exact .inr e

theorem msp_nocol (v : PolicyValue) : calculateMsp v.noCol = calculateMsp v := by rw [calculateMsp, calculateMsp, lw_nocol]

theorem jsonToDnf_nocol {G1 G2 Gt : Type} [AddCommGroup G1] [AddCommGroup G2] [AddCommGroup Gt] (v : PolicyValue)
    (pks : List (PubAttr G1 G2 Gt)) : jsonToDnf v.noCol pks = jsonToDnf v pks := by rw [jsonToDnf, jsonToDnf, dnf_nocol]

/-- **C95, the matrix.** Two texts with the same tokens give the same span program. -/
theorem C95_layout_msp (ks : List Token) (t t' : Str) (h : Layout ks t) (h' : Layout ks t') (lang : PolicyLanguage) :
    AbePolicy.fromLanguage t lang = AbePolicy.fromLanguage t' lang := by
  rcases layout_value h h' lang with ⟨v, v', hv, hv', e⟩ | ⟨hv, hv'⟩
  · simp only [AbePolicy.fromLanguage, hv, hv', Res.ok_bind]
    rw [← msp_nocol v, e, msp_nocol]
  · simp only [AbePolicy.fromLanguage, hv, hv']

/-- **C95, the normal form.** Two texts with the same tokens give the same terms for the same public keys. -/
theorem C95_layout_dnf {G1 G2 Gt : Type} [AddCommGroup G1] [AddCommGroup G2] [AddCommGroup Gt]
    (ks : List Token) (t t' : Str) (h : Layout ks t) (h' : Layout ks t') (lang : PolicyLanguage)
    (pks : List (PubAttr G1 G2 Gt)) :
    DnfPolicy.fromString t pks lang = DnfPolicy.fromString t' pks lang := by
  rcases layout_value h h' lang with ⟨v, v', hv, hv', e⟩ | ⟨hv, hv'⟩
  · simp only [DnfPolicy.fromString, hv, hv', Res.ok_bind]
    rw [← jsonToDnf_nocol v, e, jsonToDnf_nocol]
  · simp only [DnfPolicy.fromString, hv, hv']

set_option linter.unusedSectionVars false

variable {F G1 G2 Gt : Type} [Field F] [DecidableEq F] [AddCommGroup G1] [AddCommGroup G2] [AddCommGroup Gt] [Module F G1]
  [Module F G2] [Module F Gt]

theorem RM.bind_value {α β : Type} (a : α) (f : α → RM F G1 G2 Gt β) (s : Tape F G1 G2 Gt) :
    (RM.lift (.ok a) >>= f) s = f a s := rfl

theorem RM.to_bind {α β : Type} {m : RM F G1 G2 Gt α} {f f' : α → RM F G1 G2 Gt β} {g : β × Tape F G1 G2 Gt → β × Tape F G1 G2 Gt}
    (h : ∀ a s, f' a s = (f a s).to g) (s : Tape F G1 G2 Gt) : (m >>= f') s = ((m >>= f) s).to g := by
  show RM.bind m f' s = (RM.bind m f s).to g
  simp only [RM.bind]
  cases m s with
  | ok r => exact h _ _
  | err => rfl
  | panic => rfl

theorem Res.foldR_map {α β γ : Type} (f : γ → β → Res γ) (g : α → β) (l : List α) : ∀ z,
    Res.foldR (fun z a => f z (g a)) z l = Res.foldR f z (l.map g) := by
  induction l with
  | nil => intro z; rfl
  | cons a l ih =>
    intro z
    simp only [Res.foldR, List.map_cons]
    congr 1
    funext z'
    exact ih z'

namespace Ac17

theorem listSum_names (entries : List (Str × List G1)) (i : ℕ) {l l' : List (Str × Str)}
    (h : l.map Prod.fst = l'.map Prod.fst) : listSum entries i l = listSum entries i l' := by
  rw [listSum, listSum, Res.foldR_map (fun acc n => matchSum entries i acc n) Prod.fst,
    Res.foldR_map (fun acc n => matchSum entries i acc n) Prod.fst, h]

/-- The same randomness gives the same ciphertext, apart from the policy text stored in it. -/
theorem C95_ac17_encrypt (env : Env F G1 G2 Gt) (ks : List Token) (t t' : Str) (h : Layout ks t) (h' : Layout ks t')
    (lang : PolicyLanguage) (pk : PublicKey G1 G2 Gt) (pt : Bytes) (s : Tape F G1 G2 Gt) :
    cpEncrypt env pk t' pt lang s =
      (cpEncrypt env pk t pt lang s).to fun r => ({ r.1 with policy := (t', lang) }, r.2) := by
  rcases layout_value h h' lang with ⟨v, v', hv, hv', e⟩ | ⟨hv, hv'⟩
  · simp only [cpEncrypt, hv, hv', RM.bind_value]
    rw [← msp_nocol v, e, msp_nocol]
    iterate 8 refine RM.to_bind (fun _ _ => ?_) _
    rfl
  · simp only [cpEncrypt, hv, hv']
    rfl

/-- The same randomness gives the same key, apart from the policy text stored in it. -/
theorem C95_ac17_keygen (env : Env F G1 G2 Gt) (ks : List Token) (t t' : Str) (h : Layout ks t) (h' : Layout ks t')
    (lang : PolicyLanguage) (msk : MasterKey F G1 G2) (s : Tape F G1 G2 Gt) :
    kpKeygen env msk t' lang s =
      (kpKeygen env msk t lang s).to fun r => ({ r.1 with policy := (t', lang) }, r.2) := by
  rcases layout_value h h' lang with ⟨v, v', hv, hv', e⟩ | ⟨hv, hv'⟩
  · simp only [kpKeygen, hv, hv', RM.bind_value]
    rw [← msp_nocol v, e, msp_nocol]
    iterate 7 refine RM.to_bind (fun _ _ => ?_) _
    rfl
  · simp only [kpKeygen, hv, hv']
    rfl

theorem decStep_names (env : Env F G1 G2 Gt) (sk : SecretKey G1 G2) (ct : Ciphertext G1 G2 Gt) {l l' : List (Str × Str)}
    (h : l.map Prod.fst = l'.map Prod.fst) :
    cpDecStep env sk ct l = cpDecStep env sk ct l' ∧ kpDecStep env sk ct l = kpDecStep env sk ct l' := by
  constructor <;> funext acc i
  · simp only [cpDecStep, listSum_names _ i h]
  · simp only [kpDecStep, listSum_names _ i h]

theorem pruned_cases (attr : List Str) {v v' : PolicyValue} (e : v.noCol = v'.noCol) :
    (∃ b l l', calcPruned attr v none = .ok (b, l) ∧ calcPruned attr v' none = .ok (b, l') ∧
      l.map Prod.fst = l'.map Prod.fst) ∨ calcPruned attr v none = calcPruned attr v' none := by
  have h1 := pruned_nocol attr v none
  rw [e, pruned_nocol attr v' none] at h1
  rcases ha : calcPruned attr v none with ⟨a, l⟩ | _ | _ <;>
    rcases hb : calcPruned attr v' none with ⟨b, l'⟩ | _ | _ <;> rw [ha, hb] at h1 <;>
    simp only [Res.to, namesOf, Res.ok.injEq, Prod.mk.injEq, reduceCtorEq] at h1
  · obtain ⟨rfl, h2⟩ := h1
    exact .inl ⟨_, _, _, rfl, rfl, h2.symm⟩
  · exact .inr rfl
  · exact .inr rfl

/-- Replacing the policy text in a ciphertext by one with the same tokens changes nothing for decryption: any key, any
ciphertext, honest or not. -/
theorem C95_ac17_cp_decrypt (env : Env F G1 G2 Gt) (ks : List Token) (t t' : Str) (h : Layout ks t) (h' : Layout ks t')
    (lang : PolicyLanguage) (sk : CpSecretKey G1 G2) (ct : CpCiphertext G1 G2 Gt) (hct : ct.policy = (t, lang)) :
    cpDecrypt env sk { ct with policy := (t', lang) } = cpDecrypt env sk ct := by
  rcases layout_value h h' lang with ⟨v, v', hv, hv', e⟩ | ⟨hv, hv'⟩
  · have ht : traversePolicy sk.attr v .leaf = traversePolicy sk.attr v' .leaf := by
      rw [← traverse_nocol, e, traverse_nocol]
    simp only [cpDecrypt, cpRecover, hct, hv, hv', Res.ok_bind, ht]
    rcases pruned_cases sk.attr e with ⟨b, l, l', h1, h2, h3⟩ | h1
    · simp only [h1, h2, Res.ok_bind, (decStep_names env sk.sk ct.ct h3).1]
    · rw [h1]
  · simp only [cpDecrypt, cpRecover, hct, hv, hv']

/-- The same for the policy text in a key. -/
theorem C95_ac17_kp_decrypt (env : Env F G1 G2 Gt) (ks : List Token) (t t' : Str) (h : Layout ks t) (h' : Layout ks t')
    (lang : PolicyLanguage) (sk : KpSecretKey G1 G2) (ct : KpCiphertext G1 G2 Gt) (hsk : sk.policy = (t, lang)) :
    kpDecrypt env { sk with policy := (t', lang) } ct = kpDecrypt env sk ct := by
  rcases layout_value h h' lang with ⟨v, v', hv, hv', e⟩ | ⟨hv, hv'⟩
  · have ht : traversePolicy ct.attr v .leaf = traversePolicy ct.attr v' .leaf := by
      rw [← traverse_nocol, e, traverse_nocol]
    simp only [kpDecrypt, kpRecover, hsk, hv, hv', Res.ok_bind, ht]
    rcases pruned_cases ct.attr e with ⟨b, l, l', h1, h2, h3⟩ | h1
    · simp only [h1, h2, Res.ok_bind, (decStep_names env sk.sk ct.ct h3).2]
    · rw [h1]
  · simp only [kpDecrypt, kpRecover, hsk, hv, hv']

end Ac17

namespace Bdabe

/-- The same randomness gives the same ciphertext, apart from the policy text stored in it. -/
theorem C95_bdabe_encrypt (env : Env F G1 G2 Gt) (ks : List Token) (t t' : Str) (h : Layout ks t) (h' : Layout ks t')
    (lang : PolicyLanguage) (pk : PublicKey G1 G2 Gt) (pks : List (PublicAttributeKey G1 G2 Gt)) (pt : Bytes)
    (s : Tape F G1 G2 Gt) :
    encrypt env pk pks t' lang pt s =
      (encrypt env pk pks t lang pt s).to fun r => ({ r.1 with policy := (t', lang) }, r.2) := by
  have hd := C95_layout_dnf ks t t' h h' lang (pks.map PublicAttributeKey.view)
  rcases layout_value h h' lang with ⟨v, v', hv, hv', e⟩ | ⟨hv, hv'⟩
  · have hi : policyInDnf v false none = policyInDnf v' false none := by rw [← inDnf_nocol, e, inDnf_nocol]
    simp only [encrypt, hv, hv', hd, hi, RM.bind_value]
    split
    · iterate 5 refine RM.to_bind (fun _ _ => ?_) _
      rfl
    · rfl
  · simp only [encrypt, hv, hv']
    rfl

/-- Replacing the policy text in a ciphertext by one with the same tokens changes nothing for decryption. -/
theorem C95_bdabe_decrypt (env : Env F G1 G2 Gt) (ks : List Token) (t t' : Str) (h : Layout ks t) (h' : Layout ks t')
    (lang : PolicyLanguage) (one : G1 × G2) (sk : UserKey G1 G2) (ct : Ciphertext G1 G2 Gt) (hct : ct.policy = (t, lang)) :
    decrypt env one sk { ct with policy := (t', lang) } = decrypt env one sk ct := by
  rcases layout_value h h' lang with ⟨v, v', hv, hv', e⟩ | ⟨hv, hv'⟩
  · have ht : traversePolicy (sk.skA.map (·.attr)) v .leaf = traversePolicy (sk.skA.map (·.attr)) v' .leaf := by
      rw [← traverse_nocol, e, traverse_nocol]
    simp only [decrypt, hct, hv, hv', Res.ok_bind, ht]
  · simp only [decrypt, hct, hv, hv']

end Bdabe

namespace Mke08

/-- The same randomness gives the same ciphertext, apart from the policy text stored in it. -/
theorem C95_mke08_encrypt (env : Env F G1 G2 Gt) (ks : List Token) (t t' : Str) (h : Layout ks t) (h' : Layout ks t')
    (lang : PolicyLanguage) (pk : PublicKey G1 G2 Gt) (pks : List (PublicAttributeKey G1 G2 Gt)) (pt : Bytes)
    (s : Tape F G1 G2 Gt) :
    encrypt env pk pks t' lang pt s =
      (encrypt env pk pks t lang pt s).to fun r => ({ r.1 with policy := (t', lang) }, r.2) := by
  have hd := C95_layout_dnf ks t t' h h' lang (pks.map PublicAttributeKey.view)
  rcases layout_value h h' lang with ⟨v, v', hv, hv', e⟩ | ⟨hv, hv'⟩
  · have hi : policyInDnf v false none = policyInDnf v' false none := by rw [← inDnf_nocol, e, inDnf_nocol]
    simp only [encrypt, hv, hv', hd, hi, RM.bind_value]
    split
    · iterate 6 refine RM.to_bind (fun _ _ => ?_) _
      rfl
    · rfl
  · simp only [encrypt, hv, hv']
    rfl

/-- Replacing the policy text in a ciphertext by one with the same tokens changes nothing for decryption. -/
theorem C95_mke08_decrypt (env : Env F G1 G2 Gt) (ks : List Token) (t t' : Str) (h : Layout ks t) (h' : Layout ks t')
    (lang : PolicyLanguage) (one : G1 × G2) (sk : UserKey G1 G2) (ct : Ciphertext G1 G2 Gt) (hct : ct.policy = (t, lang)) :
    decrypt env one sk { ct with policy := (t', lang) } = decrypt env one sk ct := by
  rcases layout_value h h' lang with ⟨v, v', hv, hv', e⟩ | ⟨hv, hv'⟩
  · have ht : traversePolicy (sk.skA.map (·.attr)) v .leaf = traversePolicy (sk.skA.map (·.attr)) v' .leaf := by
      rw [← traverse_nocol, e, traverse_nocol]
    simp only [decrypt, hct, hv, hv', Res.ok_bind, ht]
  · simp only [decrypt, hct, hv, hv']

end Mke08

/-- The comparison of the schemes below is about texts like these: same tokens, one line and several lines. -/
example : oneLine ≠ threeLines ∧ Layout exTokens oneLine ∧ Layout exTokens threeLines :=
  ⟨by decide, oneLine_layout, threeLines_layout⟩

/-- **C95, the other schemes.** The schemes that label leaves by attribute and column (BSW, LSW, AW11, GHW11, YCT14) keep the
meaning under a change of layout that stays on one line: the text is regular again (all labels differ, every gate has at
least two children), and that is what the correctness theorems of these schemes (`C25_bsw_correct_partial`, `C34_lsw_correct_partial`, …) ask for. (Full claim: for every layout;
false, see `C95_violated_bsw`.) -/
theorem C95_layout_regular_partial (ks : List Token) (t t' : Str) (h : Layout ks t) (h' : Layout ks t')
    (lang : PolicyLanguage) (p : Pol) (hp : Regular t lang p) (hn : '\n' ∉ t') (hl : t'.length < 2 ^ 64) :
    ∃ p', Regular t' lang p' ∧ p'.names = p.names ∧ ∀ A, p'.sat A = p.sat A := by
  obtain ⟨q, hq, e⟩ := denotes_layout h h' hp.denotes
  obtain ⟨q', hq', hnd, -⟩ := C05_labels_distinct_partial t' lang _ hq hn
  have := toValue_inj _ _ hq'
  subst this
  obtain ⟨h1, h2⟩ := C95_layout_meaning ks t t' h h' lang p q hp.denotes hq
  refine ⟨q, ⟨hq, hl, ?_, hnd⟩, h1.symm, fun A => (h2 A).symm⟩
  have := hp.wide
  rwa [Pol.Wide, ← arity_shape, ← e, arity_shape] at this

/-- **C95 is violated by BSW.** Two texts with the same tokens, one on one line and one on three lines: a key decrypts every
ciphertext for the first and not the ciphertext for the second. -/
theorem C95_violated_bsw : Layout exTokens oneLine ∧ Layout exTokens threeLines ∧
    ∃ (pk : Bsw.PublicKey Fr Fr Fr) (msk : Bsw.MasterKey Fr Fr) (sk : Bsw.SecretKey Fr Fr)
      (ct ct' : Bsw.Ciphertext Fr Fr Fr) (t₁ t₂ t₃ t₄ : Tape Fr Fr Fr Fr),
    Bsw.setup toyEnv toyTape = .ok ((pk, msk), t₁) ∧
    Bsw.keygen toyEnv pk msk [['A'], ['C']] toyTape = .ok (some sk, t₂) ∧
    Bsw.encrypt toyEnv pk oneLine .human [7] toyTape = .ok (ct, t₃) ∧
    Bsw.encrypt toyEnv pk threeLines .human [7] toyTape = .ok (ct', t₄) ∧
    Bsw.decrypt toyEnv sk ct = .ok [7] ∧ Bsw.decrypt toyEnv sk ct' = .err := by
  refine ⟨oneLine_layout, threeLines_layout, ?_⟩
  obtain ⟨pk, msk, sk, ct', t₁, t₂, t₄, hp, hs, h1, h2, h3, h4⟩ := Bsw.C25_violated_multiline
  obtain ⟨p, hreg, hnames, hsat⟩ : ∃ p, Regular oneLine .human p ∧ p.names = Bsw.multiPol.names ∧
      ∀ A, p.sat A = Bsw.multiPol.sat A := by
    obtain ⟨v, hv⟩ : ∃ v, parse oneLine .human = .ok v := ⟨_, rfl⟩
    obtain ⟨p, rfl, hreg⟩ := regular_human hv (by decide) (by decide)
    obtain ⟨e1, e2⟩ := C95_layout_meaning exTokens oneLine threeLines oneLine_layout threeLines_layout .human p _ hreg.denotes hp
    exact ⟨p, hreg, e1, e2⟩
  obtain ⟨ct, t₃, h5⟩ := (Bsw.C25_bsw_defined toyEnv).2.2 pk oneLine .human p hreg.denotes [7] (by simp [toyEnv]) toyTape
  refine ⟨pk, msk, sk, ct, ct', t₁, t₂, t₃, t₄, h1, h2, h5, h3, ?_, h4⟩
  refine Bsw.C25_bsw_correct_partial toyEnv _ _ pk msk h1 _ _ _ sk h2 oneLine .human p hreg ?_ [7] _ _ ct h5 (by rw [hsat]; exact hs)
  rw [hnames]
  intro n hn _
  simp only [Pol.names, Bsw.multiPol, Pol.leaves_gate] at hn
  simp at hn
  rcases hn with rfl | rfl | rfl | rfl <;> decide

end Rabe
