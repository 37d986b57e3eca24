import Verif.Props.Parser
import Verif.Proof.Msp
import Verif.Proof.Common
import Verif.Instance.Bn

/-!
# C15–C18: span programs
-/

namespace Rabe

/-- The conversion of a tree succeeds iff AND gates have two children and OR gates at least two; otherwise it panics. -/
theorem calculateMsp_cases (p : Pol) :
    (p.Binary ∧ ∃ msp, calculateMsp p.toValue = .ok msp) ∨ (¬ p.Binary ∧ calculateMsp p.toValue = .panic) := by
  by_cases h : p.Binary
  · obtain ⟨msp, _, hm, _⟩ := calculateMsp_eq p h
    exact Or.inl ⟨h, msp, hm⟩
  · refine Or.inr ⟨h, ?_⟩
    simp only [calculateMsp, lw_panic p h ⟨[], [], 1⟩ [1] none (Nat.le_refl 1), Res.panic_bind]

theorem fromLanguage_ok {text lang msp} (h : AbePolicy.fromLanguage text lang = .ok msp) :
    ∃ p, Denotes text lang p ∧ p.Binary ∧ calculateMsp p.toValue = .ok msp := by
  simp only [AbePolicy.fromLanguage, Res.bind_eq_ok] at h
  obtain ⟨v, hv, hm⟩ := h
  obtain ⟨p, rfl, _⟩ := parse_ok hv
  refine ⟨p, hv, ?_, hm⟩
  rcases calculateMsp_cases p with ⟨hb, _⟩ | ⟨_, hp⟩
  · exact hb
  · rw [hp] at hm; simp at hm

/-- **C15.** For every policy text the conversion accepts (with pairwise different leaves, see C05): the rows of the
matrix can be matched with the leaves, respecting labels, such that for every satisfying attribute list the rows of the
leaves selected by pruning add up to `(1, 0, …, 0)`. -/
theorem C15_span_program_complete (text : Str) (lang : PolicyLanguage) (msp : AbePolicy)
    (h : AbePolicy.fromLanguage text lang = .ok msp) :
    ∃ p, Denotes text lang p ∧ (p.leaves.Nodup →
      ∃ row : Str × ℕ → List ℤ,
        (msp.pi.zip msp.m).Perm (p.leaves.map fun l => (l.1, row l)) ∧
        ∀ A, p.sat A = true → ∃ sel : List (Str × ℕ),
          calcPruned A p.toValue none = .ok (true, sel.map fun l => (l.1, nodeIndex l.1 l.2)) ∧
          sel.Sublist p.leaves ∧
          ∀ j, j < msp.c → (sel.map fun l => (row l).getD j 0).sum = if j = 0 then 1 else 0) := by
  obtain ⟨p, hp, hb, hm⟩ := fromLanguage_ok h
  refine ⟨p, hp, fun hn => ?_⟩
  obtain ⟨msp', R, hm', hc, hR, hRl, hperm, _⟩ := calculateMsp_eq p hb
  rw [hm] at hm'
  obtain rfl := Res.ok.inj hm'
  have hlen : R.length = p.leaves.length := by
    have := congrArg List.length hR
    rwa [List.length_map, mrows_length p hb] at this
  obtain ⟨row, hrow⟩ := exists_map_eq (β := List ℤ) hn hlen
  refine ⟨row, ?_, fun A hA => ⟨pick A p, ?_, pick_sublist A p, ?_⟩⟩
  · refine hperm.trans ?_
    rw [Pol.names, ← hrow, zip_map_self]
  · rw [calcPruned_eq A p hb.wide, hA]; rfl
  · intro j _
    have hs := pick_sum A (fun l => rowFun (row l)) p hb hA (evec 0 1) 1 (by rw [← hR, ← hrow, List.map_map]; rfl)
    have := congrFun hs j
    rw [show (if j = 0 then (1 : ℤ) else 0) = evec 0 1 j from rfl, ← this]
    generalize pick A p = L
    induction L with
    | nil => simp
    | cons l L ih => simp only [List.map_cons, List.sum_cons, Pi.add_apply, ih]; rfl

/-- The span program of `("A" and "B") or ("C" and ("D" or "A"))`. -/
example : AbePolicy.fromLanguage (chars% "(\"A\" and \"B\") or (\"C\" and (\"D\" or \"A\"))") .human =
    .ok ⟨[[0, 0, -1], [1, 1, 0], [0, -1, 0], [1, 0, 1], [0, 0, -1]], [['A'], ['A'], ['B'], ['C'], ['D']], 3⟩ := by
  rfl

/-- **C16.** For attributes that do not satisfy the policy there is an integer vector with first entry 1 that is orthogonal
to all matrix rows labelled with these attributes. -/
theorem C16_span_program_sound_witness (text : Str) (lang : PolicyLanguage) (msp : AbePolicy)
    (h : AbePolicy.fromLanguage text lang = .ok msp) :
    ∃ p, Denotes text lang p ∧ ∀ A, p.sat A = false →
      ∃ w : ℕ → ℤ, w 0 = 1 ∧ ∀ x ∈ msp.pi.zip msp.m, x.1 ∈ A →
        ∑ j ∈ Finset.range msp.c, x.2.getD j 0 * w j = 0 := by
  obtain ⟨p, hp, hb, hm⟩ := fromLanguage_ok h
  refine ⟨p, hp, fun A hA => ?_⟩
  obtain ⟨msp', R, hm', hc, hR, hRl, hperm, _⟩ := calculateMsp_eq p hb
  rw [hm] at hm'
  obtain rfl := Res.ok.inj hm'
  obtain ⟨w, hw, hdot⟩ := mrows_orthogonal A msp.c p hb (fun _ => 1) (evec 0 1) 1
    (fun j hj => by simp [evec, show j ≠ 0 by omega]) (by omega) (Or.inl hA)
  refine ⟨w, hw 0 (by omega), fun x hx hxA => ?_⟩
  have hx' := hperm.mem_iff.1 hx
  rw [Pol.names, List.zip_map_left, List.mem_map] at hx'
  obtain ⟨⟨l, r⟩, hlr, rfl⟩ := hx'
  have : (l, rowFun r) ∈ p.leaves.zip (mrows p (evec 0 1) 1) := by
    rw [← hR, List.zip_map_right, List.mem_map]
    exact ⟨(l, r), hlr, rfl⟩
  exact hdot _ this hxA

/-- **C16**, spans: over every field, no linear combination of the rows labelled with attributes of a non-satisfying list is
`(1, 0, …, 0)`. -/
theorem C16_span_program_sound (text : Str) (lang : PolicyLanguage) (msp : AbePolicy)
    (h : AbePolicy.fromLanguage text lang = .ok msp) :
    ∃ p, Denotes text lang p ∧ ∀ A, p.sat A = false →
      ∀ (F : Type) [Field F] (κ : ℕ → F), (∀ i, i < msp.pi.length → msp.pi.getD i [] ∉ A → κ i = 0) →
        ¬ ∀ j, j < msp.c → ∑ i ∈ Finset.range msp.pi.length, κ i * (((msp.m.getD i []).getD j 0 : ℤ) : F) =
          if j = 0 then 1 else 0 := by
  obtain ⟨p, hp, hA⟩ := C16_span_program_sound_witness text lang msp h
  refine ⟨p, hp, fun A hAs F _ κ hκ hcon => ?_⟩
  obtain ⟨w, hw0, hw⟩ := hA A hAs
  have hlen : msp.pi.length = msp.m.length ∧ 0 < msp.c := by
    obtain ⟨p, _, hb, hm⟩ := fromLanguage_ok h
    obtain ⟨msp', R, hm', hc, _, _, _, _, _, hl, _⟩ := calculateMsp_eq p hb
    rw [hm] at hm'
    obtain rfl := Res.ok.inj hm'
    exact ⟨hl, by omega⟩
  have h1 : ∑ j ∈ Finset.range msp.c, (w j : F) * ∑ i ∈ Finset.range msp.pi.length,
      κ i * (((msp.m.getD i []).getD j 0 : ℤ) : F) = 1 := by
    rw [Finset.sum_congr rfl fun j hj => by rw [hcon j (Finset.mem_range.1 hj)], Finset.sum_eq_single 0]
    · simp [hw0]
    · intro b _ hb; simp [hb]
    · intro hc; exact absurd (Finset.mem_range.2 hlen.2) hc
  have h2 : ∑ j ∈ Finset.range msp.c, (w j : F) * ∑ i ∈ Finset.range msp.pi.length,
      κ i * (((msp.m.getD i []).getD j 0 : ℤ) : F) = 0 := by
    simp only [Finset.mul_sum]
    rw [Finset.sum_comm]
    refine Finset.sum_eq_zero fun i hi => ?_
    have hi' := Finset.mem_range.1 hi
    by_cases hin : msp.pi.getD i [] ∈ A
    · have hmem : (msp.pi.getD i [], msp.m.getD i []) ∈ msp.pi.zip msp.m := by
        have hi2 : i < msp.m.length := hlen.1 ▸ hi'
        rw [List.getD_eq_getElem?_getD, List.getD_eq_getElem?_getD, List.getElem?_eq_getElem hi',
          List.getElem?_eq_getElem hi2, Option.getD_some, Option.getD_some]
        have : i < (msp.pi.zip msp.m).length := by simp; omega
        rw [← List.getElem_zip (h := this)]
        exact List.getElem_mem this
      have := hw _ hmem hin
      have h3 := congrArg (fun z : ℤ => (z : F)) this
      simp only [Int.cast_sum, Int.cast_mul, Int.cast_zero] at h3
      have e : ∀ j, (w j : F) * (κ i * (((msp.m.getD i []).getD j 0 : ℤ) : F)) =
          κ i * ((((msp.m.getD i []).getD j 0 : ℤ) : F) * (w j : F)) := fun j => by ring
      simp only [e]
      rw [← Finset.mul_sum, h3, mul_zero]
    · simp [hκ i hi' hin]
  rw [h1] at h2
  exact one_ne_zero h2

/-- A non-satisfying list owning two of the five rows of the example above. -/
example : ∃ p, Denotes (chars% "(\"A\" and \"B\") or (\"C\" and (\"D\" or \"A\"))") .human p ∧ p.sat [['D'], ['A']] = false ∧
    p.sat [['C'], ['A']] = true :=
  ⟨.gate .or [.gate .and [.leaf ['A'] 3, .leaf ['B'] 11], .gate .and [.leaf ['C'] 20,
    .gate .or [.leaf ['D'] 29, .leaf ['A'] 36]]], rfl, by simp, by simp⟩

/-- **C17.** The conversion yields one row per leaf; all rows have the reported width, which is one plus the number of AND
gates; entries are -1, 0 or 1; labels are the attribute names of the leaves, sorted; and the sorting keeps every row
together with the label it had in the unsorted output of `lw`. -/
theorem C17_span_program_shape (text : Str) (lang : PolicyLanguage) (msp : AbePolicy)
    (h : AbePolicy.fromLanguage text lang = .ok msp) :
    ∃ p, Denotes text lang p ∧ msp.c = 1 + p.andCount ∧ msp.m.length = p.leaves.length ∧
      msp.pi.length = p.leaves.length ∧
      (∀ r ∈ msp.m, r.length = msp.c ∧ ∀ x ∈ r, x = -1 ∨ x = 0 ∨ x = 1) ∧
      msp.pi.Perm p.names ∧ msp.pi.Pairwise (fun a b => strLe a b = true) ∧
      ∃ raw b, lw p.toValue ⟨[], [], 1⟩ [1] none = .ok (raw, b) ∧
        (msp.pi.zip msp.m).Perm (raw.pi.zip (raw.m.map fun r => r ++ List.replicate (msp.c - r.length) 0)) := by
  obtain ⟨p, hp, hb, hm⟩ := fromLanguage_ok h
  refine ⟨p, hp, ?_⟩
  obtain ⟨msp', R, hm', hc, hR, hRl, hperm, hpi, hmR, hl, hs⟩ := calculateMsp_eq p hb
  rw [hm] at hm'
  obtain rfl := Res.ok.inj hm'
  have hlen : msp.pi.length = p.leaves.length := by rw [hpi.length_eq]; simp [Pol.names]
  refine ⟨hc, hl ▸ hlen, hlen, fun r hr => hRl r (hmR.mem_iff.1 hr), hpi, hs, ?_⟩
  obtain ⟨S, hS, _, hSl, _⟩ := lw_eq p hb { m := [], pi := [], c := 1 } [1] none (by simp)
  refine ⟨_, _, hS, ?_⟩
  simp only [calculateMsp, hS, Res.ok_bind, if_true, Res.ok.injEq] at hm
  rw [← hm]
  simp only []
  rw [← List.unzip_fst, ← List.unzip_snd, List.zip_unzip]
  refine (sortRows_perm _).trans ?_
  have : List.map (resize (1 + p.andCount)) (S.reverse ++ []) =
      List.map (fun r => r ++ List.replicate (1 + p.andCount - r.length) 0) (S.reverse ++ []) := by
    refine List.map_congr_left fun r hr => ?_
    rw [resize, List.take_of_length_le (hSl r (by simpa using hr))]
  rw [this]

/-- **C18 is violated.** `parse` accepts an AND of three attributes in the human language and an OR with one child in JSON;
the conversion of both aborts. -/
theorem C18_violated :
    (∃ v, parse (chars% "\"A\" and \"B\" and \"C\"") .human = .ok v ∧ calculateMsp v = .panic) ∧
    (∃ v, parse (chars% "{\"name\": \"or\", \"children\": [{\"name\": \"A\"}]}") .json = .ok v ∧ calculateMsp v = .panic) :=
  ⟨⟨_, rfl, rfl⟩, ⟨_, rfl, rfl⟩⟩

/-- **C18, partial.** The exact condition: the conversion of a parsed policy succeeds if every AND gate has exactly two and
every OR gate at least two children, and aborts otherwise (it never returns an error). (Full claim: it never aborts; false,
see `C18_violated`.) -/
theorem C18_span_program_defined_partial (text : Str) (lang : PolicyLanguage) (p : Pol) (hp : Denotes text lang p) :
    (p.Binary → ∃ msp, AbePolicy.fromLanguage text lang = .ok msp) ∧
    (¬ p.Binary → AbePolicy.fromLanguage text lang = .panic) := by
  have hp' : parse text lang = .ok p.toValue := hp
  simp only [AbePolicy.fromLanguage, hp', Res.ok_bind]
  rcases calculateMsp_cases p with ⟨hb, h⟩ | ⟨hb, h⟩
  · exact ⟨fun _ => h, fun hn => absurd hb hn⟩
  · exact ⟨fun hn => absurd hn hb, fun _ => h⟩

example : ∃ p, Denotes (chars% "(\"A\" and \"B\") or \"C\" or \"D\"") .human p ∧ p.Binary :=
  ⟨.gate .or [.gate .and [.leaf ['A'] 3, .leaf ['B'] 11], .leaf ['C'] 19, .leaf ['D'] 26], rfl, by simp [Pol.Binary]⟩

end Rabe
