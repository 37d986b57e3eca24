import Verif.Proof.Dnf
import Verif.Proof.Common
import Verif.Props.Parser
import Verif.Instance.Bn

/-!
# C19–C22: disjunctive normal form
-/

namespace Rabe

variable {G1 G2 Gt : Type} [AddCommGroup G1] [AddCommGroup G2] [AddCommGroup Gt]

/-- The attributes `A` cover a term of the list. -/
def Covers (A : List Str) (terms : List (DnfTerm G1 G2 Gt)) : Prop := ∃ t ∈ terms, ∀ a ∈ t.attrs, a ∈ A

/-- Every attribute of the policy has a public key in the list. -/
def HasKeys (pks : List (PubAttr G1 G2 Gt)) (p : Pol) : Prop := ∀ n ∈ p.names, ∃ x ∈ pks, x.attr = n

omit [AddCommGroup G1] [AddCommGroup G2] [AddCommGroup Gt] in
theorem covers_sort {A : List Str} {l : List (DnfTerm G1 G2 Gt)} : Covers A (sortTerms l) ↔ Covers A l := by
  simp only [Covers, (sortTerms_perm l).mem_iff]

theorem jsonToDnf_ok {pks : List (PubAttr G1 G2 Gt)} {p : Pol} {terms} (h : jsonToDnf p.toValue pks = .ok terms) :
    p.IsDnf ∧ terms = sortTerms (dnf pks p.toValue [] 0 none).1 := by
  simp only [jsonToDnf] at h
  by_cases hf : (dnf pks p.toValue [] 0 none).2 = true
  · rw [if_pos hf] at h
    exact ⟨(dnf_flag pks p _ _).1 hf, (Res.ok.inj h).symm⟩
  · rw [if_neg hf] at h
    simp at h

/-- The disjuncts of a policy in disjunctive normal form. -/
def Pol.disjuncts : Pol → List Pol
  | .gate .or cs => cs
  | p => [p]

theorem Pol.sat_disjuncts (A : List Str) (p : Pol) : p.sat A = p.disjuncts.any (Pol.sat A) := by
  cases p with
  | leaf n k => simp [Pol.disjuncts]
  | gate op cs => cases op <;> simp [Pol.disjuncts]

theorem Pol.IsDnf.terms {p : Pol} (h : p.IsDnf) : ∀ c ∈ p.disjuncts, c.IsTerm := by
  cases p with
  | leaf n k => simp [Pol.disjuncts, Pol.IsTerm]
  | gate op cs => cases op <;> simpa [Pol.disjuncts, Pol.IsDnf, Pol.IsTerm] using h

theorem Pol.names_disjuncts {p c : Pol} (hc : c ∈ p.disjuncts) : ∀ n ∈ c.names, n ∈ p.names := by
  cases p with
  | leaf n k => simp [Pol.disjuncts] at hc; subst hc; exact fun _ h => h
  | gate op cs =>
    cases op with
    | and => simp [Pol.disjuncts] at hc; subst hc; exact fun _ h => h
    | or =>
      intro n hn
      simp only [Pol.names, List.mem_map] at hn ⊢
      obtain ⟨l, hl, rfl⟩ := hn
      exact ⟨l, by simp only [Pol.leaves_gate, List.mem_flatMap]; exact ⟨c, hc, hl⟩, rfl⟩

theorem Pol.IsTerm.sat_iff {c : Pol} (h : c.IsTerm) (A : List Str) : c.sat A = true ↔ ∀ n ∈ c.names, n ∈ A := by
  cases c with
  | leaf n k => simp [Pol.names]
  | gate op cs =>
    cases op with
    | or => simp [Pol.IsTerm] at h
    | and =>
      simp only [Pol.IsTerm] at h
      simp only [Pol.sat_and, List.all_eq_true, Pol.names, Pol.leaves_gate, List.mem_map, List.mem_flatMap]
      constructor
      · rintro hs n ⟨l, ⟨c, hc, hl⟩, rfl⟩
        obtain ⟨m, k, rfl⟩ := h c hc
        have := hs _ hc
        simp at hl this
        rw [hl]; exact this
      · intro hs c hc
        obtain ⟨m, k, rfl⟩ := h c hc
        have := hs m ⟨(m, k), ⟨_, hc, by simp⟩, rfl⟩
        simpa using this

/-- The raw terms of a convertible policy. -/
theorem dnf_terms (pks : List (PubAttr G1 G2 Gt)) (p : Pol) (hd : p.IsDnf) :
    (∀ t ∈ (dnf pks p.toValue [] 0 none).1, ∃ c ∈ p.disjuncts, ∃ ks, ks ≠ [] ∧
        (∀ x ∈ ks, x ∈ pks ∧ x.attr ∈ c.names) ∧ t.MadeOf ks) ∧
    (∀ c ∈ p.disjuncts, c.names ≠ [] → (∀ n ∈ c.names, ∃ x ∈ pks, x.attr = n) →
        ∃ t ∈ (dnf pks p.toValue [] 0 none).1, ∃ ks, ks ≠ [] ∧ (∀ x ∈ ks, x ∈ pks ∧ x.attr ∈ c.names) ∧
          t.MadeOf ks) := by
  have single : ∀ c : Pol, c.IsTerm → dnf pks c.toValue [] 0 none = dnf pks c.toValue [] 0 (some .or) →
      (∀ t ∈ (dnf pks c.toValue [] 0 none).1, ∃ c' ∈ [c], ∃ ks, ks ≠ [] ∧
        (∀ x ∈ ks, x ∈ pks ∧ x.attr ∈ c'.names) ∧ t.MadeOf ks) ∧
      (∀ c' ∈ [c], c'.names ≠ [] → (∀ n ∈ c'.names, ∃ x ∈ pks, x.attr = n) →
        ∃ t ∈ (dnf pks c.toValue [] 0 none).1, ∃ ks, ks ≠ [] ∧ (∀ x ∈ ks, x ∈ pks ∧ x.attr ∈ c'.names) ∧
          t.MadeOf ks) := by
    intro c hc he
    obtain ⟨_, ⟨N, h2, _, h4⟩, h5⟩ := dnf_term_grown (pks := pks) (L₀ := []) (i := 0) (by simp) c hc
    rw [he, h2]
    refine ⟨fun t ht => ⟨c, by simp, h4 t (by simpa using ht)⟩, ?_⟩
    intro c' hc' hne hk
    rw [List.mem_singleton] at hc'
    subst hc'
    have := h5 hne hk
    rw [h2, List.nil_append] at this
    obtain ⟨t, ht⟩ := List.exists_mem_of_ne_nil N this
    exact ⟨t, by simpa using ht, h4 t ht⟩
  cases p with
  | leaf n k => exact single (.leaf n k) trivial (by simp [dnf])
  | gate op cs =>
    cases op with
    | and => exact single (.gate .and cs) hd (by simp [dnf, Op.toType])
    | or =>
      obtain ⟨_, N, h2, h3, h4⟩ := dnfOr_grown (pks := pks) cs hd 0 [] (by simp)
      simp only [Pol.toValue_gate, Op.toType, dnf, Pol.disjuncts]
      rw [h2, List.nil_append]
      exact ⟨h3, h4⟩

/-- **C22, first half, partial.** If every attribute of a converted policy has a public key, attributes satisfying the
policy cover a listed term. (Full claim: without `p.sat [] = false`; false for AND gates without children, which only the
JSON language can express, see `C22_violated`.) -/
theorem C22_dnf_complete_partial (text : Str) (lang : PolicyLanguage) (p : Pol) (_ : Denotes text lang p)
    (pks : List (PubAttr G1 G2 Gt)) (terms : List (DnfTerm G1 G2 Gt)) (h : jsonToDnf p.toValue pks = .ok terms)
    (hk : HasKeys pks p) (he : p.sat [] = false) (A : List Str) (hA : p.sat A = true) : Covers A terms := by
  obtain ⟨hd, rfl⟩ := jsonToDnf_ok h
  rw [covers_sort]
  rw [Pol.sat_disjuncts, List.any_eq_true] at hA
  obtain ⟨c, hc, hs⟩ := hA
  have hne : c.names ≠ [] := by
    intro hn
    have : c.sat [] = true := ((hd.terms c hc).sat_iff []).2 (by simp [hn])
    rw [Pol.sat_disjuncts, List.any_eq_false] at he
    exact he c hc this
  obtain ⟨t, ht, ks, _, hks, hm⟩ := (dnf_terms pks p hd).2 c hc hne (fun n hn => hk n (Pol.names_disjuncts hc n hn))
  refine ⟨t, ht, fun a ha => ?_⟩
  rw [hm.1, List.mem_map] at ha
  obtain ⟨x, hx, rfl⟩ := ha
  exact ((hd.terms c hc).sat_iff A).1 hs _ (hks x hx).2

/-- **C22 is violated for empty AND gates.** The JSON policy that is an AND without children is converted and satisfied by
every attribute list, but no term is listed, whatever the public keys. -/
theorem C22_violated : ∃ p, Denotes (chars% "{\"name\": \"and\", \"children\": []}") .json p ∧
    (∀ A, p.sat A = true) ∧ ∀ pks : List (PubAttr G1 G2 Gt), HasKeys pks p ∧ jsonToDnf p.toValue pks = .ok [] ∧
      ∀ A, ¬ Covers A ([] : List (DnfTerm G1 G2 Gt)) :=
  ⟨.gate .and [], rfl, fun _ => rfl, fun _ => ⟨fun n hn => by simp [Pol.names] at hn, rfl, fun A h => by simp [Covers] at h⟩⟩

/-- The condition of `C22_dnf_complete_partial` holds for every policy of the human language and for every JSON policy
without empty gates. -/
theorem C22_dnf_nonempty (p : Pol) (h : p.Arity fun _ n => 1 ≤ n) : p.sat [] = false := by
  induction p using Pol.ind with
  | hl n c => simp
  | hg op cs ih =>
    rw [Pol.arity_gate] at h
    have h2 : ∀ c ∈ cs, c.sat [] = false := fun c hc => ih c hc (h.2 c hc)
    cases op with
    | and =>
      cases cs with
      | nil => simp at h
      | cons c cs => simp [h2 c (by simp)]
    | or => simpa [List.any_eq_false] using h2

/-- **C22, second half.** Every listed term is a non-empty list of attributes of one disjunct of the policy and carries
exactly the products (written as sums) of the public keys of these attributes. -/
theorem C22_dnf_term_products (text : Str) (lang : PolicyLanguage) (p : Pol) (_ : Denotes text lang p)
    (pks : List (PubAttr G1 G2 Gt)) (terms : List (DnfTerm G1 G2 Gt)) (h : jsonToDnf p.toValue pks = .ok terms) :
    ∀ t ∈ terms, ∃ ks : List (PubAttr G1 G2 Gt), ks ≠ [] ∧ (∀ x ∈ ks, x ∈ pks ∧ x.attr ∈ p.names) ∧
      t.attrs = ks.map (·.attr) ∧ t.gt1 = (ks.map (·.gt1)).sum ∧ t.gt2 = (ks.map (·.gt2)).sum ∧
      t.g1 = (ks.map (·.g1)).sum ∧ t.g2 = (ks.map (·.g2)).sum := by
  obtain ⟨hd, rfl⟩ := jsonToDnf_ok h
  intro t ht
  rw [(sortTerms_perm _).mem_iff] at ht
  obtain ⟨c, hc, ks, hne, hks, hm⟩ := (dnf_terms pks p hd).1 t ht
  exact ⟨ks, hne, fun x hx => ⟨(hks x hx).1, Pol.names_disjuncts hc _ (hks x hx).2⟩, hm⟩

/-- **C22, order.** The listed terms are sorted by their number of attributes. -/
theorem C22_dnf_sorted (v : PolicyValue) (pks : List (PubAttr G1 G2 Gt)) (terms : List (DnfTerm G1 G2 Gt))
    (h : jsonToDnf v pks = .ok terms) : terms.Pairwise fun a b => a.attrs.length ≤ b.attrs.length := by
  simp only [jsonToDnf] at h
  split at h
  · obtain rfl := Res.ok.inj h
    generalize (dnf pks v [] 0 none).1 = l
    induction l with
    | nil => simp [sortTerms]
    | cons x xs ih =>
      simp only [sortTerms]
      generalize hl : sortTerms xs = ys at ih ⊢
      clear hl
      induction ys with
      | nil => simp [insertTerm]
      | cons y ys ih2 =>
        simp only [insertTerm]
        by_cases hxy : x.attrs.length ≤ y.attrs.length
        · rw [if_pos hxy]
          rw [List.pairwise_cons] at ih ⊢
          refine ⟨?_, List.pairwise_cons.2 ih⟩
          intro z hz
          rcases List.mem_cons.1 hz with rfl | hz
          · exact hxy
          · exact hxy.trans (ih.1 z hz)
        · rw [if_neg hxy]
          rw [List.pairwise_cons] at ih ⊢
          refine ⟨?_, ih2 ih.2⟩
          intro z hz
          rcases List.mem_cons.1 ((insertTerm_perm x ys).mem_iff.1 hz) with rfl | hz
          · omega
          · exact ih.1 z hz
  · simp at h

/-! ## Soundness -/

theorem dnfLeaf_unique {pks : List (PubAttr G1 G2 Gt)} (hn : (pks.map (·.attr)).Nodup) {x} (hx : x ∈ pks) (i : ℕ) :
    ∀ L, pks.foldl (dnfLeafStep x.attr i) L = dnfLeafStep x.attr i L x := by
  have other : ∀ (ps : List (PubAttr G1 G2 Gt)), x.attr ∉ ps.map (·.attr) → ∀ L,
      ps.foldl (dnfLeafStep x.attr i) L = L := by
    intro ps
    induction ps with
    | nil => simp
    | cons k ps ih =>
      intro h L
      simp only [List.map_cons, List.mem_cons, not_or] at h
      have : dnfLeafStep x.attr i L k = L := by simp [dnfLeafStep, Ne.symm h.1]
      rw [List.foldl_cons, this, ih h.2]
  induction pks with
  | nil => simp at hx
  | cons k ps ih =>
    intro L
    rw [List.map_cons, List.nodup_cons] at hn
    rcases List.mem_cons.1 hx with rfl | hx
    · rw [List.foldl_cons, other ps hn.1]
    · have hne : k.attr ≠ x.attr := by
        intro he
        exact hn.1 (he ▸ List.mem_map.2 ⟨x, hx, rfl⟩)
      rw [List.foldl_cons, show dnfLeafStep x.attr i L k = L by simp [dnfLeafStep, hne], ih hn.2 hx]

/-- A conjunction that is written to an existing last term. -/
theorem dnfAnd_merge {pks : List (PubAttr G1 G2 Gt)} (hn : (pks.map (·.attr)).Nodup) : ∀ (cs : List Pol),
    (∀ c ∈ cs, ∃ n k, c = .leaf n k ∧ ∃ x ∈ pks, x.attr = n) → ∀ (t : DnfTerm G1 G2 Gt),
    ((dnfAnd pks (cs.map Pol.toValue) [t] 0 true).1.map (·.attrs)) = [t.attrs ++ cs.flatMap Pol.names] := by
  intro cs
  induction cs with
  | nil => intro _ t; simp [dnfAnd]
  | cons c cs ih =>
    intro h t
    obtain ⟨n, k, rfl, x, hx, rfl⟩ := h c (by simp)
    simp only [List.map_cons, Pol.toValue_leaf, dnfAnd, if_true, dnf, dnfLeaf_unique hn hx]
    simp only [dnfLeafStep, if_true, List.getElem?_cons_zero, List.set_cons_zero]
    rw [ih (fun c hc => h c (by simp [hc]))]
    simp [Pol.names]

/-- The first conjunction gives exactly one term. -/
theorem dnf_first {pks : List (PubAttr G1 G2 Gt)} (hn : (pks.map (·.attr)).Nodup) (c : Pol) (hc : c.IsTerm)
    (hne : c.names ≠ []) (hk : HasKeys pks c) (par : Option PolicyType) (hpar : par = none ∨ par = some .or) :
    (dnf pks c.toValue [] 0 par).1.map (·.attrs) = [c.names] ∧ (dnf pks c.toValue [] 0 par).2 = true := by
  cases c with
  | leaf n k =>
    obtain ⟨x, hx, rfl⟩ := hk n (by simp [Pol.names])
    simp [dnf, dnfLeaf_unique hn hx, dnfLeafStep, Pol.names]
  | gate op cs =>
    cases op with
    | or => simp [Pol.IsTerm] at hc
    | and =>
      have e : dnf pks (Pol.gate .and cs).toValue [] 0 par = dnfAnd pks (cs.map Pol.toValue) [] 0 true := by
        rcases hpar with rfl | rfl <;> simp [dnf, Op.toType]
      rw [e]
      refine ⟨?_, (dnfAnd_flag pks cs _ _).2 hc⟩
      simp only [Pol.IsTerm] at hc
      cases cs with
      | nil => simp [Pol.names] at hne
      | cons d ds =>
        have hmem : ∀ c ∈ d :: ds, ∃ n k, c = .leaf n k ∧ ∃ x ∈ pks, x.attr = n := by
          intro c hcm
          obtain ⟨n, k, rfl⟩ := hc c hcm
          refine ⟨n, k, rfl, hk n (List.mem_map.2 ⟨(n, k), ?_, rfl⟩)⟩
          simp only [Pol.leaves_gate, List.mem_flatMap]; exact ⟨_, hcm, by simp⟩
        obtain ⟨n, k, rfl, x, hx, rfl⟩ := hmem d (by simp)
        simp only [List.map_cons, Pol.toValue_leaf, dnfAnd, if_true, dnf, dnfLeaf_unique hn hx]
        rw [show dnfLeafStep x.attr 0 [] x =
          [{ attrs := [x.attr], gt1 := x.gt1, gt2 := x.gt2, g1 := x.g1, g2 := x.g2 }] by simp [dnfLeafStep]]
        rw [dnfAnd_merge hn ds (fun c hc => hmem c (by simp [hc]))]
        simp [Pol.names, Pol.leaves_gate, List.map_flatMap]
        rfl

/-- Later disjuncts that are single attributes give one term each. -/
theorem dnfOr_leaves {pks : List (PubAttr G1 G2 Gt)} (hn : (pks.map (·.attr)).Nodup) : ∀ (cs : List Pol),
    (∀ c ∈ cs, ∃ n k, c = .leaf n k ∧ ∃ x ∈ pks, x.attr = n) → ∀ (k : ℕ) (L : List (DnfTerm G1 G2 Gt)),
    L.length ≤ k + k →
    (dnfOr pks (cs.map Pol.toValue) L k true).1.map (·.attrs) = L.map (·.attrs) ++ cs.map Pol.names := by
  intro cs
  induction cs with
  | nil => intro _ k L _; simp [dnfOr]
  | cons c cs ih =>
    intro h k L hL
    obtain ⟨n, j, rfl, x, hx, rfl⟩ := h c (by simp)
    simp only [List.map_cons, Pol.toValue_leaf, dnfOr, if_true, dnf, dnfLeaf_unique hn hx]
    have : dnfLeafStep x.attr (k + k) L x =
        L ++ [{ attrs := [x.attr], gt1 := x.gt1, gt2 := x.gt2, g1 := x.g1, g2 := x.g2 }] := by
      simp [dnfLeafStep, List.getElem?_eq_none hL]
    rw [this, ih (fun c hc => h c (by simp [hc])) (k + 1) _ (by simp; omega)]
    simp [Pol.names]

/-- Only the first disjunct may be a conjunction. -/
def Pol.OnlyFirstConj : Pol → Prop
  | .leaf _ _ => True
  | .gate .and cs => ∀ c ∈ cs, ∃ n k, c = .leaf n k
  | .gate .or [] => True
  | .gate .or (c :: cs) => c.IsTerm ∧ ∀ d ∈ cs, ∃ n k, d = .leaf n k

theorem Pol.OnlyFirstConj.isDnf {p : Pol} (h : p.OnlyFirstConj) : p.IsDnf := by
  cases p with
  | leaf n k => trivial
  | gate op cs =>
    cases op with
    | and => exact h
    | or =>
      cases cs with
      | nil => simp [Pol.IsDnf]
      | cons c cs =>
        intro d hd
        rcases List.mem_cons.1 hd with rfl | hd
        · exact h.1
        · obtain ⟨n, k, rfl⟩ := h.2 d hd; trivial

/-- **C19 (partial).** For policies in which at most the first disjunct is a conjunction of several attributes, and
public keys without repetition for all attributes, attributes cover a listed term iff they satisfy the policy. Missing:
all policies with a conjunction as second or later disjunct, for which the statement fails
(`C19_violated_general`), and repeated or missing public keys (`C19_violated_missing_key`). -/
theorem C19_dnf_meaning_partial (text : Str) (lang : PolicyLanguage) (p : Pol) (_ : Denotes text lang p)
    (hp : p.OnlyFirstConj) (he : p.sat [] = false) (pks : List (PubAttr G1 G2 Gt))
    (hn : (pks.map (·.attr)).Nodup) (hk : HasKeys pks p) :
    ∃ terms, jsonToDnf p.toValue pks = .ok terms ∧ ∀ A, Covers A terms ↔ p.sat A = true := by
  refine ⟨_, by simp only [jsonToDnf]; rw [if_pos ((dnf_flag pks p _ _).2 hp.isDnf)], fun A => ?_⟩
  rw [covers_sort]
  have hne : ∀ c ∈ p.disjuncts, c.names ≠ [] := by
    intro c hc hn
    have : c.sat [] = true := ((hp.isDnf.terms c hc).sat_iff []).2 (by simp [hn])
    rw [Pol.sat_disjuncts, List.any_eq_false] at he
    exact he c hc this
  have key : (dnf pks p.toValue [] 0 none).1.map (·.attrs) = p.disjuncts.map Pol.names := by
    cases p with
    | leaf n k => exact (dnf_first hn (.leaf n k) trivial (by simp [Pol.names]) hk none (Or.inl rfl)).1
    | gate op cs =>
      cases op with
      | and =>
        exact (dnf_first hn (.gate .and cs) hp (hne _ (by simp [Pol.disjuncts])) hk none (Or.inl rfl)).1
      | or =>
        cases cs with
        | nil => simp [dnf, Op.toType, dnfOr, Pol.disjuncts]
        | cons c cs =>
          have hk' : ∀ c' ∈ c :: cs, HasKeys pks c' := fun c' hc' n hn' =>
            hk n (Pol.names_disjuncts (p := .gate .or (c :: cs)) hc' n hn')
          obtain ⟨h1, h2⟩ := dnf_first hn c hp.1 (hne c (by simp [Pol.disjuncts])) (hk' c (by simp)) (some .or)
            (Or.inr rfl)
          simp only [Pol.toValue_gate, Op.toType, dnf, List.map_cons, dnfOr, if_true, Pol.disjuncts, Nat.add_zero, h2]
          have hlen : (dnf pks c.toValue [] 0 (some .or)).1.length = 1 := by
            have := congrArg List.length h1
            simpa using this
          rw [dnfOr_leaves hn cs _ 1 _ (by omega), h1]
          · rfl
          · intro d hd
            obtain ⟨n, k, rfl⟩ := hp.2 d hd
            exact ⟨n, k, rfl, hk' (.leaf n k) (by simp [hd]) n (by simp [Pol.names])⟩
  rw [Pol.sat_disjuncts, List.any_eq_true]
  constructor
  · rintro ⟨t, ht, hc⟩
    have : t.attrs ∈ p.disjuncts.map Pol.names := key ▸ List.mem_map.2 ⟨t, ht, rfl⟩
    obtain ⟨c, hcm, hce⟩ := List.mem_map.1 this
    exact ⟨c, hcm, ((hp.isDnf.terms c hcm).sat_iff A).2 (by rw [hce]; exact hc)⟩
  · rintro ⟨c, hcm, hs⟩
    have : c.names ∈ (dnf pks p.toValue [] 0 none).1.map (·.attrs) := key ▸ List.mem_map.2 ⟨c, hcm, rfl⟩
    obtain ⟨t, ht, hte⟩ := List.mem_map.1 this
    exact ⟨t, ht, by rw [hte]; exact ((hp.isDnf.terms c hcm).sat_iff A).1 hs⟩

/-- The public keys used by the examples. -/
def toyPks (names : List Str) : List (PubAttr Fr Fr Fr) := names.map fun n => ⟨n, 1, 1, 1, 1⟩

example : ∃ p : Pol, Denotes (chars% "(\"A\" and \"B\") or \"C\"") .human p ∧ p.OnlyFirstConj ∧
    p.sat [] = false ∧ HasKeys (toyPks [['A'], ['B'], ['C']]) p :=
  ⟨.gate .or [.gate .and [.leaf ['A'] 3, .leaf ['B'] 11], .leaf ['C'] 19], rfl, by simp [Pol.OnlyFirstConj, Pol.IsTerm],
    by decide, by simp [HasKeys, Pol.names, toyPks]⟩

/-! ## Counterexamples to C19 -/

/-- Processing more attributes of a conjunction, or more disjuncts, keeps terms below the index. -/
theorem dnfAnd_keeps {pks : List (PubAttr G1 G2 Gt)} {i : ℕ} {L₀ : List (DnfTerm G1 G2 Gt)} (h0 : L₀.length ≤ i)
    (cs : List Pol) (hc : ∀ c ∈ cs, ∃ n k, c = .leaf n k) {t} (ht : t ∈ L₀) (L) (hL : ∃ N, L = L₀ ++ N ∧ L.length ≤ i + 1) :
    t ∈ (dnfAnd pks (cs.map Pol.toValue) L i true).1 := by
  obtain ⟨N, rfl, hl⟩ := hL
  induction cs generalizing N with
  | nil => simp [dnfAnd, ht]
  | cons c cs ih =>
    obtain ⟨n, k, rfl⟩ := hc c (by simp)
    simp only [List.map_cons, Pol.toValue_leaf, dnfAnd, if_true, dnf]
    have step : ∀ (ps : List (PubAttr G1 G2 Gt)) (N : List (DnfTerm G1 G2 Gt)), (L₀ ++ N).length ≤ i + 1 →
        ∃ M, ps.foldl (dnfLeafStep n i) (L₀ ++ N) = L₀ ++ M ∧ (L₀ ++ M).length ≤ i + 1 := by
      intro ps
      induction ps with
      | nil => intro N hl; exact ⟨N, rfl, hl⟩
      | cons x ps ihp =>
        intro N hl
        rw [List.foldl_cons]
        have : ∃ M, dnfLeafStep n i (L₀ ++ N) x = L₀ ++ M ∧ (L₀ ++ M).length ≤ i + 1 := by
          unfold dnfLeafStep
          split
          · by_cases hi : i < (L₀ ++ N).length
            · rw [List.getElem?_eq_getElem hi]
              simp only []
              rw [List.set_append_right _ _ h0]
              exact ⟨_, rfl, by simpa using hl⟩
            · rw [List.getElem?_eq_none (by omega)]
              simp only []
              rw [List.append_assoc]
              exact ⟨_, rfl, by simp at hi ⊢; omega⟩
          · exact ⟨N, rfl, hl⟩
        obtain ⟨M, hM, hlM⟩ := this
        rw [hM]
        exact ihp M hlM
    obtain ⟨M, hM, hlM⟩ := step pks N hl
    rw [hM]
    exact ih (fun c hc' => hc c (by simp [hc'])) M hlM

theorem dnfOr_keeps {pks : List (PubAttr G1 G2 Gt)} (cs : List Pol) (hc : ∀ c ∈ cs, c.IsTerm) (k : ℕ)
    (L : List (DnfTerm G1 G2 Gt)) (hL : L.length ≤ k + k) {t} (ht : t ∈ L) :
    t ∈ (dnfOr pks (cs.map Pol.toValue) L k true).1 := by
  obtain ⟨_, N, h2, _⟩ := dnfOr_grown (pks := pks) cs hc k L hL
  rw [h2]
  exact List.mem_append_left _ ht

/-- A conjunction as second or later disjunct leaves its first attribute behind as a term of its own. -/
theorem dnfOr_split {pks : List (PubAttr G1 G2 Gt)} (hn : (pks.map (·.attr)).Nodup) (x) (hx : x ∈ pks) (j : ℕ)
    (ds : List Pol) (hds : ∀ d ∈ ds, ∃ n k, d = .leaf n k) (post : List Pol) (hpost : ∀ c ∈ post, c.IsTerm) :
    ∀ (pre : List Pol), (∀ c ∈ pre, c.IsTerm) → ∀ (k : ℕ) (L : List (DnfTerm G1 G2 Gt)),
    (0 < k + pre.length) → (L.length ≤ k + k) → (0 < k → L.length < k + k) →
    ∃ t ∈ (dnfOr pks ((pre ++ Pol.gate .and (.leaf x.attr j :: ds) :: post).map Pol.toValue) L k true).1,
      t.attrs = [x.attr] := by
  intro pre
  induction pre with
  | nil =>
    intro _ k L hk _ hL
    have hL := hL (by simpa using hk)
    simp only [List.nil_append, List.map_cons, Pol.toValue_gate, Op.toType, dnfOr, if_true, dnf, dnfAnd, Pol.toValue_leaf,
      dnfLeaf_unique hn hx]
    have e : dnfLeafStep x.attr (k + k) L x =
        L ++ [{ attrs := [x.attr], gt1 := x.gt1, gt2 := x.gt2, g1 := x.g1, g2 := x.g2 }] := by
      simp [dnfLeafStep, List.getElem?_eq_none hL.le]
    rw [e]
    have hm := dnfAnd_keeps (pks := pks) (i := k + k)
      (L₀ := L ++ [{ attrs := [x.attr], gt1 := x.gt1, gt2 := x.gt2, g1 := x.g1, g2 := x.g2 }]) (by simp; omega) ds hds
      (t := { attrs := [x.attr], gt1 := x.gt1, gt2 := x.gt2, g1 := x.g1, g2 := x.g2 }) (by simp)
      (L ++ [{ attrs := [x.attr], gt1 := x.gt1, gt2 := x.gt2, g1 := x.g1, g2 := x.g2 }])
      ⟨[], by simp, by simp; omega⟩
    have hlen : (dnfAnd pks (ds.map Pol.toValue)
        (L ++ [{ attrs := [x.attr], gt1 := x.gt1, gt2 := x.gt2, g1 := x.g1, g2 := x.g2 }]) (k + k) true).1.length
        ≤ k + k + 1 := by
      obtain ⟨_, ⟨N, h1, h2, _⟩, _⟩ := dnfAnd_grown (pks := pks) (Q := fun _ => True) (i := k + k) (L₀ := L) hL.le
        (.leaf x.attr j :: ds) (by
          intro c hc
          rcases List.mem_cons.1 hc with rfl | hc
          · exact ⟨_, _, rfl, trivial⟩
          · obtain ⟨n, k, rfl⟩ := hds c hc; exact ⟨n, k, rfl, trivial⟩) L ⟨[], by simp, by omega, by simp⟩
      simp only [List.map_cons, Pol.toValue_leaf, dnfAnd, if_true, dnf, dnfLeaf_unique hn hx, e] at h2
      exact h2
    rw [(dnfAnd_flag pks ds _ _).2 hds]
    exact ⟨_, dnfOr_keeps post hpost (k + 1) _ (by omega) hm, rfl⟩
  | cons c pre ih =>
    intro hpre k L hk hL hL'
    obtain ⟨h1, ⟨N, h2, h3, _⟩, _⟩ := dnf_term_grown (pks := pks) hL c (hpre c (by simp))
    simp only [List.cons_append, List.map_cons, dnfOr, if_true, h1]
    exact ih (fun c hc => hpre c (by simp [hc])) (k + 1) _ (by omega) (by omega) (by omega)

/-- **C19 is violated.** For every policy in disjunctive normal form, and public keys without repetition: if some
disjunct other than the first is a conjunction, then the first attribute of that conjunction covers a listed term on its
own. -/
theorem C19_violated_general (pks : List (PubAttr G1 G2 Gt)) (hn : (pks.map (·.attr)).Nodup)
    (pre post ds : List Pol) (n : Str) (j : ℕ) (hpre : pre ≠ [])
    (hd : (Pol.gate .or (pre ++ Pol.gate .and (.leaf n j :: ds) :: post)).IsDnf) (hx : ∃ x ∈ pks, x.attr = n) :
    ∃ terms, jsonToDnf (Pol.gate .or (pre ++ Pol.gate .and (.leaf n j :: ds) :: post)).toValue pks = .ok terms ∧
      Covers [n] terms := by
  refine ⟨_, by simp only [jsonToDnf]; rw [if_pos ((dnf_flag pks _ _ _).2 hd)], ?_⟩
  rw [covers_sort]
  obtain ⟨x, hx, rfl⟩ := hx
  have hmid : (Pol.gate .and (.leaf x.attr j :: ds)).IsTerm := hd _ (by simp)
  obtain ⟨t, ht, hta⟩ := dnfOr_split hn x hx j ds (fun d hd' => hmid d (by simp [hd'])) post
    (fun c hc => hd c (by simp [hc])) pre (fun c hc => hd c (by simp [hc])) 0 []
    (by cases pre with | nil => exact absurd rfl hpre | cons => simp) (by simp) (by simp)
  simp only [Pol.toValue_gate, Op.toType, dnf]
  exact ⟨t, ht, by simp [hta]⟩

/-- **C19 is violated**, concretely: for `("A" and "B") or ("A" and "C")` the attribute `A` alone covers a listed
term, although it does not satisfy the policy. -/
theorem C19_violated : ∃ (p : Pol) (terms : List (DnfTerm Fr Fr Fr)),
    Denotes (chars% "(\"A\" and \"B\") or (\"A\" and \"C\")") .human p ∧
    jsonToDnf p.toValue (toyPks [['A'], ['B'], ['C']]) = .ok terms ∧ HasKeys (toyPks [['A'], ['B'], ['C']]) p ∧
    Covers [['A']] terms ∧ p.sat [['A']] = false := by
  obtain ⟨terms, h, hc⟩ := C19_violated_general (toyPks [['A'], ['B'], ['C']]) (by decide)
    [.gate .and [.leaf ['A'] 3, .leaf ['B'] 11]] [] [.leaf ['C'] 28] ['A'] 20 (by simp)
    (by simp [Pol.IsDnf, Pol.IsTerm]) ⟨⟨['A'], 1, 1, 1, 1⟩, by simp [toyPks], rfl⟩
  exact ⟨_, terms, by with_unfolding_all rfl, h, by simp [HasKeys, Pol.names, toyPks], hc, by decide⟩

/-- **C19 is violated** if a public key is missing: the conjunct is dropped, and `"A" and "B"` becomes the term `A`. -/
theorem C19_violated_missing_key : ∃ (p : Pol) (terms : List (DnfTerm Fr Fr Fr)),
    Denotes (chars% "\"A\" and \"B\"") .human p ∧ jsonToDnf p.toValue (toyPks [['A']]) = .ok terms ∧
    Covers [['A']] terms ∧ p.sat [['A']] = false := by
  refine ⟨.gate .and [.leaf ['A'] 2, .leaf ['B'] 10], [⟨[['A']], 1, 1, 1, 1⟩], rfl, ?_, ?_, by decide⟩
  · simp [jsonToDnf, dnf, dnfAnd, Op.toType, toyPks, dnfLeafStep, sortTerms, insertTerm]
  · exact ⟨_, List.mem_singleton.2 rfl, by simp⟩

/-! ## The check and the conversion -/

/-- **C21.** A parsed policy passes the check iff no OR gate occurs below an AND gate. -/
theorem C21_dnf_check (text : Str) (lang : PolicyLanguage) (v : PolicyValue) (h : parse text lang = .ok v) :
    ∃ p : Pol, v = p.toValue ∧ (policyInDnf v false none = true ↔ p.NoOrBelowAnd) := by
  obtain ⟨p, rfl, _⟩ := parse_ok h
  exact ⟨p, rfl, policyInDnf_iff p none⟩

example : ∃ p : Pol, Denotes (chars% "(\"A\" and \"B\") or \"C\"") .human p ∧ p.NoOrBelowAnd :=
  ⟨.gate .or [.gate .and [.leaf ['A'] 3, .leaf ['B'] 11], .leaf ['C'] 19], rfl, by
    simp [Pol.NoOrBelowAnd, Pol.NoOrBelowAndL, Pol.NoOr, Pol.NoOrL]⟩

example : ∃ p : Pol, Denotes (chars% "(\"A\" or \"B\") and \"C\"") .human p ∧ ¬ p.NoOrBelowAnd :=
  ⟨.gate .and [.gate .or [.leaf ['A'] 3, .leaf ['B'] 10], .leaf ['C'] 19], rfl, by
    simp [Pol.NoOrBelowAnd, Pol.NoOr, Pol.NoOrL]⟩

/-- **C20 is violated**: `("A" and "B") and "C"` passes the check, but the conversion fails for every list of public
keys; so does `("A" or "B") or "C"`. -/
theorem C20_violated (pks : List (PubAttr G1 G2 Gt)) :
    (∃ v, parse (chars% "(\"A\" and \"B\") and \"C\"") .human = .ok v ∧ policyInDnf v false none = true ∧
      jsonToDnf v pks = .err) ∧
    (∃ v, parse (chars% "(\"A\" or \"B\") or \"C\"") .human = .ok v ∧ policyInDnf v false none = true ∧
      jsonToDnf v pks = .err) := by
  constructor
  · refine ⟨(Pol.gate .and [.gate .and [.leaf ['A'] 3, .leaf ['B'] 11], .leaf ['C'] 20]).toValue, rfl, by decide, ?_⟩
    simp only [jsonToDnf]
    rw [if_neg]
    rw [dnf_flag]
    simp [Pol.IsDnf]
  · refine ⟨(Pol.gate .or [.gate .or [.leaf ['A'] 3, .leaf ['B'] 10], .leaf ['C'] 18]).toValue, rfl, by decide, ?_⟩
    simp only [jsonToDnf]
    rw [if_neg]
    rw [dnf_flag]
    simp [Pol.IsDnf, Pol.IsTerm]

/-- **C20 (partial).** The conversion of a parsed policy never aborts, succeeds exactly for the trees that are a leaf, an
AND of leaves, or an OR of such, and every policy it converts passes the check. Missing: the converse of the last part,
which fails for nested gates of the same kind (`C20_violated`). -/
theorem C20_dnf_convertible_partial (text : Str) (lang : PolicyLanguage) (p : Pol) (_ : Denotes text lang p)
    (pks : List (PubAttr G1 G2 Gt)) :
    ((∃ terms, jsonToDnf p.toValue pks = .ok terms) ↔ p.IsDnf) ∧ (¬ p.IsDnf → jsonToDnf p.toValue pks = .err) ∧
    (p.IsDnf → policyInDnf p.toValue false none = true) := by
  refine ⟨?_, ?_, ?_⟩
  · simp only [jsonToDnf]
    constructor
    · rintro ⟨terms, h⟩
      exact (jsonToDnf_ok (pks := pks) (by simpa only [jsonToDnf] using h)).1
    · intro h
      exact ⟨_, by rw [if_pos ((dnf_flag pks p _ _).2 h)]⟩
  · intro h
    simp only [jsonToDnf]
    rw [if_neg]
    rwa [dnf_flag]
  · intro h
    rw [policyInDnf_iff]
    have leafs : ∀ cs : List Pol, (∀ c ∈ cs, ∃ n k, c = .leaf n k) → Pol.NoOrL cs := by
      intro cs hcs
      rw [Pol.noOrL_iff]
      intro c hc
      obtain ⟨n, k, rfl⟩ := hcs c hc
      simp [Pol.NoOr]
    cases p with
    | leaf n k => simp [Pol.NoOrBelowAnd]
    | gate op cs =>
      cases op with
      | and => simpa [Pol.NoOrBelowAnd] using leafs cs h
      | or =>
        simp only [Pol.NoOrBelowAnd, Pol.noOrBelowAndL_iff]
        intro c hc
        have := h c hc
        cases c with
        | leaf n k => simp [Pol.NoOrBelowAnd]
        | gate op ds =>
          cases op with
          | and => simpa [Pol.NoOrBelowAnd] using leafs ds this
          | or => simp [Pol.IsTerm] at this

example : ∃ p : Pol, Denotes (chars% "(\"A\" and \"B\") or (\"A\" and \"C\")") .human p ∧ p.IsDnf ∧
    p.sat [] = false ∧ HasKeys (toyPks [['A'], ['B'], ['C']]) p ∧ p.sat [['A'], ['C']] = true :=
  ⟨.gate .or [.gate .and [.leaf ['A'] 3, .leaf ['B'] 11], .gate .and [.leaf ['A'] 20, .leaf ['C'] 28]], rfl,
    by simp [Pol.IsDnf, Pol.IsTerm], by decide, by simp [HasKeys, Pol.names, toyPks], by decide⟩

end Rabe
