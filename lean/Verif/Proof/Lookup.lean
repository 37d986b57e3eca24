import Verif.Proof.Common
import Verif.Proof.Bsw

/-!
# Looking up shares and coefficients by label

The schemes find the component of a leaf by its label and add up all coefficients with that label. Leaves with equal
names and columns share a label; nothing is assumed about that here.
-/

namespace Rabe

variable {F : Type} [Field F] [DecidableEq F]

/-- The part of a name before the first underscore. -/
def cut (n : Str) : Str := n.takeWhile (· != '_')

theorem removeIndex_leafIdx (l : Str × ℕ) : removeIndex (leafIdx l) = cut l.1 := by
  simp only [removeIndex, leafIdx, nodeIndex, cut, List.takeWhile_append]
  split
  · rename_i h
    have := List.IsPrefix.eq_of_length (List.takeWhile_prefix (fun x : Char => x != '_') (l := l.1)) h
    simp [this]
  · rfl

theorem cut_eq {n : Str} (h : '_' ∉ n) : cut n = n := by
  induction n with
  | nil => rfl
  | cons c n ih =>
    simp only [List.mem_cons, not_or] at h
    rw [cut, List.takeWhile_cons_of_pos (by simpa using fun e : c = '_' => h.1 e.symm), ← cut, ih h.2]

/-- Sum of all coefficients that `calc_coefficients` returns for the label of the leaf. -/
def coeffSum (p : Pol) (κ : F) (l : Str × ℕ) : F :=
  (((coeffs p κ).filter fun z => z.1 == leafIdx l).map (·.2)).sum

/-- The first share that `gen_shares_policy` returns for the label of the leaf. -/
def firstShare (p : Pol) (σ : F) (ω : ℕ → F) (l : Str × ℕ) : F :=
  (((shares p σ ω).find? fun z => z.1 == leafIdx l).map (·.2)).getD 0

theorem shares_find (p : Pol) (σ : F) (ω : ℕ → F) {l : Str × ℕ} (hl : l ∈ p.leaves) :
    (shares p σ ω).find? (fun z => z.1 == leafIdx l) = some (leafIdx l, firstShare p σ ω l) := by
  have hex : ∃ x ∈ shares p σ ω, x.1 = leafIdx l := by
    have h1 : (shares p σ ω).map (·.1) = p.leaves.map leafIdx := by
      rw [shares]
      exact List.map_fst_zip (by simp [shareVals_length])
    have h2 : leafIdx l ∈ (shares p σ ω).map (·.1) := by
      rw [h1]; exact List.mem_map.2 ⟨l, hl, rfl⟩
    obtain ⟨x, hx, hx'⟩ := List.mem_map.1 h2
    exact ⟨x, hx, hx'⟩
  cases h : (shares p σ ω).find? (fun z => z.1 == leafIdx l) with
  | none =>
    rw [List.find?_eq_none] at h
    obtain ⟨x, hx, hx'⟩ := hex
    exact absurd hx' (by simpa using h x hx)
  | some x =>
    have hx := List.find?_some h
    have : x.1 = leafIdx l := by simpa using hx
    simp only [firstShare, h, Option.map_some, Option.getD_some, Option.some.injEq]
    exact Prod.ext this rfl

/-- The first coefficient that `calc_coefficients` returns for the label of the leaf. -/
def firstCoeff (p : Pol) (κ : F) (l : Str × ℕ) : F :=
  (((coeffs p κ).find? fun z => z.1 == leafIdx l).map (·.2)).getD 0

/-- The position of the first leaf with the label of the given leaf. -/
def labelPos (p : Pol) (l : Str × ℕ) : ℕ := (p.leaves.map leafIdx).idxOf (leafIdx l)

theorem shares_labels (p : Pol) (σ : F) (ω : ℕ → F) : (shares p σ ω).map (·.1) = p.leaves.map leafIdx := by
  rw [shares]
  exact List.map_fst_zip (by simp [shareVals_length])

theorem firstCoeff_find (p : Pol) (κ : F) {l : Str × ℕ} (hl : l ∈ p.leaves) :
    (coeffs p κ).find? (fun z => z.1 == leafIdx l) = some (leafIdx l, firstCoeff p κ l) := by
  have hex : ∃ x ∈ coeffs p κ, x.1 = leafIdx l := by
    have h1 : (coeffs p κ).map (·.1) = p.leaves.map leafIdx := by
      rw [coeffs]
      exact List.map_fst_zip (by simp [coeffVals_length])
    have h2 : leafIdx l ∈ (coeffs p κ).map (·.1) := by
      rw [h1]; exact List.mem_map.2 ⟨l, hl, rfl⟩
    obtain ⟨x, hx, hx'⟩ := List.mem_map.1 h2
    exact ⟨x, hx, hx'⟩
  cases h : (coeffs p κ).find? (fun z => z.1 == leafIdx l) with
  | none =>
    rw [List.find?_eq_none] at h
    obtain ⟨x, hx, hx'⟩ := hex
    exact absurd hx' (by simpa using h x hx)
  | some x =>
    have hx := List.find?_some h
    have : x.1 = leafIdx l := by simpa using hx
    simp only [firstCoeff, h, Option.map_some, Option.getD_some, Option.some.injEq]
    exact Prod.ext this rfl

/-- With pairwise different labels the lookups give the share and the coefficient of the leaf. -/
theorem labels_weight [BigChar F] (A : List Str) (p : Pol) (hf : p.Fits) (hn : p.leaves.Nodup) (hs : p.sat A = true)
    (hr : Reach A p) (σ : F) (ω : ℕ → F) :
    ((pick A p).map fun l => coeffSum p (1 : F) l * firstShare p σ ω l).sum = σ := by
  obtain ⟨sh, hsh, hshv⟩ := shares_fun hn σ ω
  obtain ⟨cf, hcf, hcfv⟩ := coeffs_fun hn (1 : F)
  have := reconstruct A sh cf p hf hs 1 σ ω hshv hcfv hr
  rw [one_mul] at this
  refine Eq.trans ?_ this
  congr 1
  apply List.map_congr_left
  intro l hl
  have hlp : l ∈ p.leaves := (pick_sublist A p).subset hl
  have e1 : coeffSum p (1 : F) l = cf l := by
    simp only [coeffSum, hcf]
    rw [Bsw.filter_map_leafIdx hn cf hlp]
    simp
  have e2 : firstShare p σ ω l = sh l := by
    have hm := shares_find p σ ω hlp
    have hm := List.mem_of_find?_eq_some hm
    rw [hsh] at hm
    obtain ⟨x, hx, hx'⟩ := List.mem_map.1 hm
    simp only [Prod.mk.injEq] at hx'
    rw [← hx'.2, leafIdx_inj hx'.1]
  rw [e1, e2]

theorem firstCoeff_eq {p : Pol} (hn : p.leaves.Nodup) (κ : F) {l : Str × ℕ} (hl : l ∈ p.leaves) :
    firstCoeff p κ l = coeffSum p κ l := by
  obtain ⟨cf, hcf, _⟩ := coeffs_fun hn κ
  have hm := List.mem_of_find?_eq_some (firstCoeff_find p κ hl)
  simp only [coeffSum]
  rw [hcf] at hm ⊢
  rw [Bsw.filter_map_leafIdx hn cf hl]
  obtain ⟨x, hx, hx'⟩ := List.mem_map.1 hm
  simp only [Prod.mk.injEq] at hx'
  simp [← hx'.2, leafIdx_inj hx'.1]

end Rabe
