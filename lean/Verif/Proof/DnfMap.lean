import Verif.Model.Dnf
import Mathlib.Algebra.Group.Hom.Defs

/-!
# The conversion to disjunctive normal form commutes with homomorphisms of the groups
-/

namespace Rabe

variable {A1 A2 At B1 B2 Bt : Type} [AddCommGroup A1] [AddCommGroup A2] [AddCommGroup At]
  [AddCommGroup B1] [AddCommGroup B2] [AddCommGroup Bt]

/-- The image of a public key. -/
def PubAttr.map (f1 : A1 →+ B1) (f2 : A2 →+ B2) (ft gt : At →+ Bt) (k : PubAttr A1 A2 At) : PubAttr B1 B2 Bt :=
  ⟨k.attr, f1 k.g1, f2 k.g2, ft k.gt1, gt k.gt2⟩

/-- The image of a term. -/
def DnfTerm.map (f1 : A1 →+ B1) (f2 : A2 →+ B2) (ft gt : At →+ Bt) (t : DnfTerm A1 A2 At) : DnfTerm B1 B2 Bt :=
  ⟨t.attrs, ft t.gt1, gt t.gt2, f1 t.g1, f2 t.g2⟩

variable (f1 : A1 →+ B1) (f2 : A2 →+ B2) (ft gt : At →+ Bt)

theorem dnfLeafStep_map (name : Str) (i : ℕ) (terms : List (DnfTerm A1 A2 At)) (k : PubAttr A1 A2 At) :
    dnfLeafStep name i (terms.map (DnfTerm.map f1 f2 ft gt)) (k.map f1 f2 ft gt) =
      (dnfLeafStep name i terms k).map (DnfTerm.map f1 f2 ft gt) := by
  unfold dnfLeafStep
  simp only [PubAttr.map, List.getElem?_map]
  split
  · cases h : terms[i]? with
    | none => simp [DnfTerm.map]
    | some t => simp [DnfTerm.map, List.map_set]
  · rfl

theorem dnfLeaf_map (name : Str) (i : ℕ) (ks : List (PubAttr A1 A2 At)) : ∀ terms : List (DnfTerm A1 A2 At),
    (ks.map (PubAttr.map f1 f2 ft gt)).foldl (dnfLeafStep name i) (terms.map (DnfTerm.map f1 f2 ft gt)) =
      (ks.foldl (dnfLeafStep name i) terms).map (DnfTerm.map f1 f2 ft gt) := by
  induction ks with
  | nil => intro terms; rfl
  | cons k ks ih =>
    intro terms
    simp only [List.map_cons, List.foldl_cons, dnfLeafStep_map, ih]

/-- Mapping the terms of a result. -/
def mapTerms (r : List (DnfTerm A1 A2 At) × Bool) : List (DnfTerm B1 B2 Bt) × Bool :=
  (r.1.map (DnfTerm.map f1 f2 ft gt), r.2)

mutual
theorem dnf_map (ks : List (PubAttr A1 A2 At)) : ∀ (v : PolicyValue) (terms : List (DnfTerm A1 A2 At)) (i : ℕ)
    (parent : Option PolicyType),
    dnf (ks.map (PubAttr.map f1 f2 ft gt)) v (terms.map (DnfTerm.map f1 f2 ft gt)) i parent =
      mapTerms f1 f2 ft gt (dnf ks v terms i parent)
  | .str n _, terms, i, parent => by simp only [dnf, dnfLeaf_map, mapTerms]
  | .array cs, terms, i, parent => by
    cases parent with
    | none => simp [dnf, mapTerms]
    | some ty => cases ty with
      | and => simp only [dnf]; exact dnfAnd_map ks cs terms i true
      | or => simp only [dnf]; exact dnfOr_map ks cs terms 0 true
      | leaf => simp [dnf, mapTerms]
  | .object ty v, terms, i, parent => by
    cases parent with
    | none => simp only [dnf]; exact dnf_map ks v terms i _
    | some p => cases p with
      | leaf => simp only [dnf]; exact dnf_map ks v terms i _
      | or => cases ty with
        | and => simp only [dnf]; exact dnf_map ks v terms i _
        | or => simp [dnf, mapTerms]
        | leaf => simp [dnf, mapTerms]
      | and => cases ty with
        | leaf => simp only [dnf]; exact dnf_map ks v terms i _
        | or => simp [dnf, mapTerms]
        | and => simp [dnf, mapTerms]
theorem dnfAnd_map (ks : List (PubAttr A1 A2 At)) : ∀ (cs : List PolicyValue) (terms : List (DnfTerm A1 A2 At)) (i : ℕ)
    (ret : Bool), dnfAnd (ks.map (PubAttr.map f1 f2 ft gt)) cs (terms.map (DnfTerm.map f1 f2 ft gt)) i ret =
      mapTerms f1 f2 ft gt (dnfAnd ks cs terms i ret)
  | [], terms, i, ret => by simp [dnfAnd, mapTerms]
  | c :: cs, terms, i, ret => by
    simp only [dnfAnd]
    split
    · rw [dnf_map ks c terms i]; exact dnfAnd_map ks cs _ i _
    · exact dnfAnd_map ks cs _ i _
theorem dnfOr_map (ks : List (PubAttr A1 A2 At)) : ∀ (cs : List PolicyValue) (terms : List (DnfTerm A1 A2 At)) (i : ℕ)
    (ret : Bool), dnfOr (ks.map (PubAttr.map f1 f2 ft gt)) cs (terms.map (DnfTerm.map f1 f2 ft gt)) i ret =
      mapTerms f1 f2 ft gt (dnfOr ks cs terms i ret)
  | [], terms, i, ret => by simp [dnfOr, mapTerms]
  | c :: cs, terms, i, ret => by
    simp only [dnfOr]
    split
    · rw [dnf_map ks c terms (i + i)]; exact dnfOr_map ks cs _ (i + 1) _
    · exact dnfOr_map ks cs _ (i + 1) _
end

theorem insertTerm_map (x : DnfTerm A1 A2 At) (l : List (DnfTerm A1 A2 At)) :
    insertTerm (x.map f1 f2 ft gt) (l.map (DnfTerm.map f1 f2 ft gt)) = (insertTerm x l).map (DnfTerm.map f1 f2 ft gt) := by
  induction l with
  | nil => rfl
  | cons y ys ih =>
    simp only [List.map_cons, insertTerm]
    by_cases h : x.attrs.length ≤ y.attrs.length
    · rw [if_pos h, if_pos (by exact h)]; rfl
    · rw [if_neg h, if_neg (by exact h), ih]; rfl

theorem sortTerms_map (l : List (DnfTerm A1 A2 At)) :
    sortTerms (l.map (DnfTerm.map f1 f2 ft gt)) = (sortTerms l).map (DnfTerm.map f1 f2 ft gt) := by
  induction l with
  | nil => rfl
  | cons x xs ih => simp only [List.map_cons, sortTerms, ih, insertTerm_map]

theorem fromString_map {text : Str} {lang : PolicyLanguage} {ks : List (PubAttr A1 A2 At)} {terms : List (DnfTerm B1 B2 Bt)}
    (hm : DnfPolicy.fromString text (ks.map (PubAttr.map f1 f2 ft gt)) lang = .ok terms) :
    ∃ T, DnfPolicy.fromString text ks lang = .ok T ∧ terms = T.map (DnfTerm.map f1 f2 ft gt) := by
  simp only [DnfPolicy.fromString] at hm ⊢
  cases hv : parse text lang with
  | err => rw [hv] at hm; exact absurd hm (by rintro ⟨⟩)
  | panic => rw [hv] at hm; exact absurd hm (by rintro ⟨⟩)
  | ok v =>
    rw [hv] at hm
    replace hm : jsonToDnf v (ks.map (PubAttr.map f1 f2 ft gt)) = .ok terms := hm
    show ∃ T, jsonToDnf v ks = .ok T ∧ _
    have h := dnf_map f1 f2 ft gt ks v [] 0 none
    simp only [List.map_nil] at h
    simp only [jsonToDnf, h, mapTerms] at hm ⊢
    split at hm
    · rename_i hr
      rw [if_pos hr]
      exact ⟨_, rfl, by simpa [sortTerms_map] using hm.symm⟩
    · exact absurd hm (by rintro ⟨⟩)

end Rabe
