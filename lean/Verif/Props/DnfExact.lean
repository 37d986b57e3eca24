import Verif.Props.Dnf

/-!
# The terms of a conversion to disjunctive normal form, exactly

`dnf` writes the public keys of disjunct number `k` to the term number `2k`. There are fewer terms than `2k` when a later
disjunct is reached, so its keys become terms of their own until the number is reached, and only the rest is summed.
-/

namespace Rabe

variable {G1 G2 Gt : Type} [AddCommGroup G1] [AddCommGroup G2] [AddCommGroup Gt]

/-- The term with the sums of some public keys. -/
def DnfTerm.ofKeys (ks : List (PubAttr G1 G2 Gt)) : DnfTerm G1 G2 Gt :=
  { attrs := ks.map (·.attr), gt1 := (ks.map (·.gt1)).sum, gt2 := (ks.map (·.gt2)).sum,
    g1 := (ks.map (·.g1)).sum, g2 := (ks.map (·.g2)).sum }

/-- The public keys of the names of a tree, in the order of the leaves. -/
def keysOf (pks : List (PubAttr G1 G2 Gt)) (c : Pol) : List (PubAttr G1 G2 Gt) :=
  c.names.flatMap fun n => pks.filter fun k => k.attr = n

/-- The pieces of a list if the first `room` entries stay alone. -/
def pieces {α : Type} (room : ℕ) (ks : List α) : List (List α) :=
  (ks.take room).map (fun k => [k]) ++ (if ks.drop room = [] then [] else [ks.drop room])

/-- The pieces of the disjuncts from number `k` on if `len` pieces are there already. -/
def spread {α : Type} : List (List α) → ℕ → ℕ → List (List α)
  | [], _, _ => []
  | ks :: rest, k, len => pieces (k + k - len) ks ++ spread rest (k + 1) (len + (pieces (k + k - len) ks).length)

theorem pieces_length {α : Type} (room : ℕ) (ks : List α) : (pieces room ks).length = min (room + 1) ks.length := by
  unfold pieces
  split
  · next h =>
    have := List.drop_eq_nil_iff.1 h
    simp; omega
  · next h =>
    have : ¬ ks.length ≤ room := fun hl => h (List.drop_eq_nil_iff.2 hl)
    simp; omega

theorem pieces_snoc {α : Type} (room : ℕ) (ks : List α) (k : α) :
    pieces room (ks ++ [k]) = if room < ks.length then (ks.take room).map (fun k => [k]) ++ [ks.drop room ++ [k]]
      else pieces room ks ++ [[k]] := by
  unfold pieces
  by_cases h : room < ks.length
  · rw [if_pos h, List.take_append_of_le_length (by omega), List.drop_append_of_le_length (by omega), if_neg (by simp)]
  · rw [if_neg h]
    rcases Nat.lt_or_ge ks.length room with hl | hl
    · rw [List.take_of_length_le (by simp; omega), List.drop_eq_nil_iff.2 (by simp; omega),
        List.take_of_length_le (by omega), List.drop_eq_nil_iff.2 (by omega)]
      simp
    · have he : ks.length = room := by omega
      subst he
      simp

/-- One public key is written. -/
theorem dnfLeafStep_pieces {L : List (DnfTerm G1 G2 Gt)} {i : ℕ} (h0 : L.length ≤ i) (ks : List (PubAttr G1 G2 Gt))
    (k : PubAttr G1 G2 Gt) :
    dnfLeafStep k.attr i (L ++ (pieces (i - L.length) ks).map DnfTerm.ofKeys) k =
      L ++ (pieces (i - L.length) (ks ++ [k])).map DnfTerm.ofKeys := by
  rw [pieces_snoc]
  unfold dnfLeafStep
  rw [if_pos rfl]
  split
  · next t ht =>
    obtain ⟨hlt, hte⟩ := List.getElem?_eq_some_iff.1 ht
    have hlen : i - L.length < ks.length := by
      simp only [List.length_append, List.length_map, pieces_length] at hlt
      omega
    have hd : ks.drop (i - L.length) ≠ [] := by
      intro h
      have := List.drop_eq_nil_iff.1 h
      omega
    have hp : L ++ (pieces (i - L.length) ks).map DnfTerm.ofKeys =
        (L ++ ((ks.take (i - L.length)).map fun k => DnfTerm.ofKeys [k])) ++ [DnfTerm.ofKeys (ks.drop (i - L.length))] := by
      simp only [pieces, if_neg hd, List.map_append, List.map_map, List.append_assoc, List.map_cons, List.map_nil]
      rfl
    have hl : (L ++ ((ks.take (i - L.length)).map fun k => DnfTerm.ofKeys [k])).length = i := by
      simp; omega
    rw [hp] at ht ⊢
    rw [List.getElem?_append_right (by omega), hl] at ht
    simp only [Nat.sub_self, List.getElem?_cons_zero, Option.some.injEq] at ht
    rw [if_pos hlen, List.set_append_right _ _ (by omega), hl, ← ht]
    simp only [Nat.sub_self, List.set_cons_zero, List.map_append, List.map_map, List.append_assoc, List.map_cons,
      List.map_nil]
    congr 2
    simp [DnfTerm.ofKeys]
  · next ht =>
    have hlt := List.getElem?_eq_none_iff.1 ht
    simp only [List.length_append, List.length_map, pieces_length] at hlt
    rw [if_neg (by omega)]
    simp [DnfTerm.ofKeys]

theorem dnfLeaf_pieces {L : List (DnfTerm G1 G2 Gt)} {i : ℕ} (h0 : L.length ≤ i) (n : Str) :
    ∀ (ps ks : List (PubAttr G1 G2 Gt)),
    ps.foldl (dnfLeafStep n i) (L ++ (pieces (i - L.length) ks).map DnfTerm.ofKeys) =
      L ++ (pieces (i - L.length) (ks ++ ps.filter fun k => k.attr = n)).map DnfTerm.ofKeys := by
  intro ps
  induction ps with
  | nil => intro ks; simp
  | cons p ps ih =>
    intro ks
    rw [List.foldl_cons]
    by_cases h : p.attr = n
    · subst h
      rw [dnfLeafStep_pieces h0, ih]
      simp
    · rw [show dnfLeafStep n i _ p = _ from if_neg h, ih]
      simp [h]

theorem dnfAnd_pieces {pks : List (PubAttr G1 G2 Gt)} {L : List (DnfTerm G1 G2 Gt)} {i : ℕ} (h0 : L.length ≤ i) :
    ∀ (cs : List Pol), (∀ c ∈ cs, ∃ n k, c = .leaf n k) → ∀ (ks : List (PubAttr G1 G2 Gt)),
    (dnfAnd pks (cs.map Pol.toValue) (L ++ (pieces (i - L.length) ks).map DnfTerm.ofKeys) i true).1 =
      L ++ (pieces (i - L.length) (ks ++ cs.flatMap (keysOf pks))).map DnfTerm.ofKeys := by
  intro cs
  induction cs with
  | nil => intro _ ks; simp [dnfAnd]
  | cons c cs ih =>
    intro h ks
    obtain ⟨n, j, rfl⟩ := h c (by simp)
    simp only [List.map_cons, Pol.toValue_leaf, dnfAnd, if_true, dnf]
    rw [dnfLeaf_pieces h0, ih (fun c hc => h c (by simp [hc]))]
    simp [keysOf, Pol.names]

theorem pieces_nil {α : Type} (room : ℕ) : pieces room ([] : List α) = [] := by simp [pieces]

/-- One disjunct. -/
theorem dnf_term_pieces {pks : List (PubAttr G1 G2 Gt)} {L : List (DnfTerm G1 G2 Gt)} {i : ℕ} (h0 : L.length ≤ i)
    (c : Pol) (hc : c.IsTerm) :
    (dnf pks c.toValue L i (some .or)).1 = L ++ (pieces (i - L.length) (keysOf pks c)).map DnfTerm.ofKeys := by
  cases c with
  | leaf n k =>
    have := dnfLeaf_pieces h0 n pks []
    simp only [pieces_nil, List.map_nil, List.append_nil, List.nil_append] at this
    simp [dnf, this, keysOf, Pol.names]
  | gate op cs =>
    cases op with
    | or => simp [Pol.IsTerm] at hc
    | and =>
      have := dnfAnd_pieces (pks := pks) h0 cs hc []
      simp only [pieces_nil, List.map_nil, List.append_nil, List.nil_append] at this
      simp only [Pol.toValue_gate, Op.toType, dnf, this]
      congr 3
      change List.flatMap (fun c => keysOf pks c) cs = _
      simp [keysOf, Pol.names, List.flatMap_map, List.flatMap_assoc]

/-- All disjuncts. -/
theorem dnfOr_spread {pks : List (PubAttr G1 G2 Gt)} : ∀ (cs : List Pol), (∀ c ∈ cs, c.IsTerm) →
    ∀ (k : ℕ) (L : List (DnfTerm G1 G2 Gt)), L.length ≤ k + k →
    (dnfOr pks (cs.map Pol.toValue) L k true).1 = L ++ (spread (cs.map (keysOf pks)) k L.length).map DnfTerm.ofKeys := by
  intro cs
  induction cs with
  | nil => intro _ k L _; simp [dnfOr, spread]
  | cons c cs ih =>
    intro h k L h0
    have hc := h c (by simp)
    simp only [List.map_cons, dnfOr, if_true, (dnf_term_grown (pks := pks) h0 c hc).1, dnf_term_pieces h0 c hc]
    rw [ih (fun c hc => h c (by simp [hc])) (k + 1) _ (by
      simp only [List.length_append, List.length_map, pieces_length]; omega)]
    simp [spread]

/-! ## Pieces -/

theorem mem_pieces {α : Type} {room : ℕ} {ks q : List α} (h : q ∈ pieces room ks) : q ≠ [] ∧ ∀ x ∈ q, x ∈ ks := by
  unfold pieces at h
  rcases List.mem_append.1 h with h | h
  · obtain ⟨k, hk, rfl⟩ := List.mem_map.1 h
    exact ⟨by simp, by simpa using List.mem_of_mem_take hk⟩
  · split at h
    · simp at h
    · next hd =>
      rw [List.mem_singleton] at h
      subst h
      exact ⟨hd, fun x hx => List.mem_of_mem_drop hx⟩

theorem pieces_ne_nil {α : Type} (room : ℕ) {ks : List α} (h : ks ≠ []) : pieces room ks ≠ [] := by
  intro hp
  have := congrArg List.length hp
  rw [pieces_length] at this
  have hl : ks.length ≠ 0 := fun hl => h (List.length_eq_zero_iff.1 hl)
  rw [List.length_nil] at this
  omega

/-- A list is one piece if no entry stays alone. -/
theorem pieces_zero {α : Type} {ks : List α} (h : ks ≠ []) : pieces 0 ks = [ks] := by simp [pieces, h]

theorem pieces_head {α : Type} {room : ℕ} (hr : 0 < room) (k : α) (ks : List α) : [k] ∈ pieces room (k :: ks) := by
  obtain ⟨r, rfl⟩ := Nat.exists_eq_succ_of_ne_zero hr.ne'
  simp [pieces]

theorem pieces_map {α β : Type} (f : α → β) (room : ℕ) (ks : List α) :
    pieces room (ks.map f) = (pieces room ks).map (List.map f) := by
  unfold pieces
  rw [← List.map_take, ← List.map_drop]
  simp only [List.map_eq_nil_iff, List.map_append, List.map_map]
  by_cases h : ks.drop room = []
  · rw [if_pos h, if_pos h]; rfl
  · rw [if_neg h, if_neg h]; rfl

theorem spread_map {α β : Type} (f : α → β) : ∀ (kss : List (List α)) (k len : ℕ),
    spread (kss.map (List.map f)) k len = (spread kss k len).map (List.map f) := by
  intro kss
  induction kss with
  | nil => intro k len; rfl
  | cons ks kss ih =>
    intro k len
    simp only [List.map_cons, spread, pieces_map, List.length_map, ih, List.map_append]

/-- Every piece comes from one disjunct. -/
theorem mem_spread {α : Type} : ∀ (kss : List (List α)) (k len : ℕ) (q : List α), q ∈ spread kss k len →
    q ≠ [] ∧ ∃ ks ∈ kss, ∀ x ∈ q, x ∈ ks := by
  intro kss
  induction kss with
  | nil => intro k len q h; simp [spread] at h
  | cons ks kss ih =>
    intro k len q h
    rw [spread] at h
    rcases List.mem_append.1 h with h | h
    · exact ⟨(mem_pieces h).1, ks, by simp, (mem_pieces h).2⟩
    · obtain ⟨h1, c, hc, h2⟩ := ih _ _ _ h
      exact ⟨h1, c, by simp [hc], h2⟩

/-- Every disjunct with a key has a piece. -/
theorem spread_covers {α : Type} : ∀ (kss : List (List α)) (k len : ℕ), ∀ ks ∈ kss, ks ≠ [] →
    ∃ q ∈ spread kss k len, ∀ x ∈ q, x ∈ ks := by
  intro kss
  induction kss with
  | nil => intro k len ks h; simp at h
  | cons c kss ih =>
    intro k len ks hks hne
    rw [spread]
    rcases List.mem_cons.1 hks with rfl | hks
    · obtain ⟨q, hq⟩ := List.exists_mem_of_ne_nil _ (pieces_ne_nil (k + k - len) hne)
      exact ⟨q, List.mem_append_left _ hq, (mem_pieces hq).2⟩
    · obtain ⟨q, hq, hx⟩ := ih (k + 1) _ ks hks hne
      exact ⟨q, List.mem_append_right _ hq, hx⟩

/-- The first key of every later disjunct is a piece of its own. -/
theorem spread_head {α : Type} : ∀ (kss : List (List α)) (k len : ℕ), len < k + k → ∀ x xs, x :: xs ∈ kss →
    [x] ∈ spread kss k len := by
  intro kss
  induction kss with
  | nil => intro k len _ x xs h; simp at h
  | cons c kss ih =>
    intro k len hlt x xs hks
    rw [spread]
    rcases List.mem_cons.1 hks with rfl | hks
    · exact List.mem_append_left _ (pieces_head (by omega) _ _)
    · exact List.mem_append_right _ (ih (k + 1) _ (by rw [pieces_length]; omega) x xs hks)

/-- The names of a tree for which there are public keys: each name as often as there are keys for it. -/
def keyed (pks : List Str) (c : Pol) : List Str := c.names.flatMap fun n => pks.filter fun k => k = n

omit [AddCommGroup G1] [AddCommGroup G2] [AddCommGroup Gt] in
theorem keysOf_attr (pks : List (PubAttr G1 G2 Gt)) (c : Pol) :
    (keysOf pks c).map (·.attr) = keyed (pks.map (·.attr)) c := by
  unfold keysOf keyed
  rw [List.map_flatMap]
  congr 1
  funext n
  rw [List.filter_map]
  rfl

theorem mem_keyed {pks : List Str} {c : Pol} {n : Str} : n ∈ keyed pks c ↔ n ∈ c.names ∧ n ∈ pks := by
  simp only [keyed, List.mem_flatMap, List.mem_filter, decide_eq_true_eq]
  constructor
  · rintro ⟨m, hm, h, rfl⟩; exact ⟨hm, h⟩
  · rintro ⟨h1, h2⟩; exact ⟨n, h1, h2, rfl⟩

/-! ## The claims -/

/-- **C19, exact terms.** For every accepted policy text and every list of public keys (with repeated or missing keys): the
conversion fails iff the policy is not in disjunctive normal form; otherwise the terms are the sums of the keys in the pieces
of the disjuncts, sorted by length. -/
theorem C19_dnf_terms (text : Str) (lang : PolicyLanguage) (p : Pol) (_ : Denotes text lang p)
    (pks : List (PubAttr G1 G2 Gt)) :
    (p.IsDnf → jsonToDnf p.toValue pks =
      .ok (sortTerms ((spread (p.disjuncts.map (keysOf pks)) 0 0).map DnfTerm.ofKeys))) ∧
    (¬ p.IsDnf → jsonToDnf p.toValue pks = .err) := by
  constructor
  · intro hd
    simp only [jsonToDnf]
    rw [if_pos ((dnf_flag pks p _ _).2 hd)]
    congr 2
    have single : ∀ c : Pol, c.IsTerm → c.disjuncts = [c] →
        dnf pks c.toValue [] 0 none = dnf pks c.toValue [] 0 (some .or) →
        (dnf pks c.toValue [] 0 none).1 = (spread (c.disjuncts.map (keysOf pks)) 0 0).map DnfTerm.ofKeys := by
      intro c hc h1 h2
      have := dnf_term_pieces (pks := pks) (L := []) (i := 0) (by simp) c hc
      rw [h2, this, h1]
      simp [spread]
    cases p with
    | leaf n k => exact single (.leaf n k) trivial rfl (by simp [dnf])
    | gate op cs =>
      cases op with
      | and => exact single (.gate .and cs) hd rfl (by simp [dnf, Op.toType])
      | or =>
        have := dnfOr_spread (pks := pks) cs hd 0 [] (by simp)
        simp only [Pol.toValue_gate, Op.toType, dnf, Pol.disjuncts]
        rw [this]
        simp
  · intro hd
    simp only [jsonToDnf]
    rw [if_neg (fun h => hd ((dnf_flag pks p _ _).1 h))]

/-- **C19, exact access.** The attribute sets that cover a listed term are those that contain a piece; only the names of the
public keys matter. -/
theorem C19_dnf_covers (text : Str) (lang : PolicyLanguage) (p : Pol) (hp : Denotes text lang p)
    (pks : List (PubAttr G1 G2 Gt)) (terms : List (DnfTerm G1 G2 Gt)) (h : jsonToDnf p.toValue pks = .ok terms)
    (A : List Str) :
    Covers A terms ↔ ∃ q ∈ spread (p.disjuncts.map (keyed (pks.map (·.attr)))) 0 0, ∀ n ∈ q, n ∈ A := by
  have hd := (jsonToDnf_ok h).1
  rw [(C19_dnf_terms text lang p hp pks).1 hd] at h
  obtain rfl := Res.ok.inj h
  have hm : p.disjuncts.map (keyed (pks.map (·.attr))) = (p.disjuncts.map (keysOf pks)).map (List.map (·.attr)) := by
    rw [List.map_map]
    exact List.map_congr_left fun c _ => (keysOf_attr pks c).symm
  rw [covers_sort, hm, spread_map]
  simp only [Covers, List.mem_map]
  constructor
  · rintro ⟨t, ⟨q, hq, rfl⟩, ht⟩
    exact ⟨_, ⟨q, hq, rfl⟩, ht⟩
  · rintro ⟨_, ⟨q, hq, rfl⟩, ht⟩
    exact ⟨_, ⟨q, hq, rfl⟩, ht⟩

/-- **C19 is violated for every later disjunct with two names**, whatever the public keys are: if `n` is the first of its
names with a public key, `n` alone covers a term. -/
theorem C19_violated_later (text : Str) (lang : PolicyLanguage) (pre post : List Pol) (c : Pol) (hpre : pre ≠ [])
    (hp : Denotes text lang (.gate .or (pre ++ c :: post))) (pks : List (PubAttr G1 G2 Gt))
    (terms : List (DnfTerm G1 G2 Gt)) (h : jsonToDnf (Pol.gate .or (pre ++ c :: post)).toValue pks = .ok terms)
    (n : Str) (ns : List Str) (hc : keyed (pks.map (·.attr)) c = n :: ns) : Covers [n] terms := by
  rw [C19_dnf_covers text lang _ hp pks terms h]
  refine ⟨[n], ?_, fun _ hx => hx⟩
  cases pre with
  | nil => exact absurd rfl hpre
  | cons d ds =>
    simp only [Pol.disjuncts, List.cons_append, List.map_cons, spread]
    refine List.mem_append_right _ (spread_head _ 1 _ ?_ n ns ?_)
    · rw [pieces_length]; omega
    · rw [← hc]
      exact List.mem_map.2 ⟨c, by simp, rfl⟩

/-- Three disjuncts of sizes two, three and one: `"C" and "D" and "E"` falls apart into `C` and `D, E`. -/
example (pks : List (PubAttr Fr Fr Fr)) (hk : pks.map (·.attr) = [['A'], ['B'], ['C'], ['D'], ['E'], ['F']]) :
    ∃ p terms, Denotes (chars% "(\"A\" and \"B\") or (\"C\" and \"D\" and \"E\") or \"F\"") .human p ∧
      jsonToDnf p.toValue pks = .ok terms ∧
      spread (p.disjuncts.map (keyed (pks.map (·.attr)))) 0 0 =
        [[['A'], ['B']], [['C']], [['D'], ['E']], [['F']]] ∧
      Covers [['C']] terms ∧ Covers [['D'], ['E']] terms ∧ ¬ Covers [['A'], ['D']] terms := by
  have hp : Denotes (chars% "(\"A\" and \"B\") or (\"C\" and \"D\" and \"E\") or \"F\"") .human
    (.gate .or [.gate .and [.leaf ['A'] 3, .leaf ['B'] 11], .gate .and [.leaf ['C'] 20, .leaf ['D'] 28, .leaf ['E'] 36],
      .leaf ['F'] 44]) := by with_unfolding_all rfl
  have hs : spread ((Pol.gate .or [.gate .and [.leaf ['A'] 3, .leaf ['B'] 11],
      .gate .and [.leaf ['C'] 20, .leaf ['D'] 28, .leaf ['E'] 36], .leaf ['F'] 44]).disjuncts.map
      (keyed (pks.map (·.attr)))) 0 0 = [[['A'], ['B']], [['C']], [['D'], ['E']], [['F']]] := by
    rw [hk]; decide
  have hj := (C19_dnf_terms _ _ _ hp pks).1 (by simp [Pol.IsDnf, Pol.IsTerm])
  refine ⟨_, _, hp, hj, hs, ?_, ?_, ?_⟩
  · rw [C19_dnf_covers _ _ _ hp pks _ hj, hs]; decide
  · rw [C19_dnf_covers _ _ _ hp pks _ hj, hs]; decide
  · rw [C19_dnf_covers _ _ _ hp pks _ hj, hs]; decide

end Rabe
