import Verif.Proof.Bsw
import Verif.Proof.Privacy
import Mathlib.Algebra.BigOperators.Fin
import Mathlib.Algebra.BigOperators.Ring.Finset

/-!
# Keys put together from components of several keys
-/

set_option linter.unusedSectionVars false
set_option linter.unnecessarySeqFocus false

namespace Rabe

section Parts

variable {F : Type} [Field F] [DecidableEq F]

theorem sum_map_ite {α ι : Type} [Fintype ι] [DecidableEq ι] (L : List α) (f : α → F) (own : α → ι) (w : ι → F) :
    (L.map fun l => f l * w (own l)).sum = ∑ i, (L.map fun l => if own l = i then f l else 0).sum * w i := by
  induction L with
  | nil => simp
  | cons a L ih =>
    simp only [List.map_cons, List.sum_cons, ih, add_mul, Finset.sum_add_distrib]
    congr 1
    simp [ite_mul]

/-- The contributions of the members of a coalition to the recovered secret: they add up to the secret, and those of a
member who does not satisfy the policy do not determine it. -/
theorem mixed_parts [BigChar F] {ι : Type} [Fintype ι] [DecidableEq ι] {p : Pol} (hn : p.leaves.Nodup) (hf : p.Fits)
    (hw : p.Wide) (A : List Str) (hsat : p.sat A = true) (own : Str → ι) (attrs : ι → List Str)
    (hown : ∀ l ∈ pick A p, l.1 ∈ attrs (own l.1)) :
    ∃ S : ι → F → (ℕ → F) → F, (∀ s ω, ∑ i, S i s ω = s) ∧
      (∀ i, p.sat (attrs i) = false → ∀ d, ∃ δ : ℕ → F, ∀ s ω, S i (s + d) (fun n => ω n + δ n) = S i s ω) ∧
      ∃ cf : Str × ℕ → F, coeffs p 1 = p.leaves.map (fun l => (leafIdx l, cf l)) ∧
        ∀ s ω, ∃ sh : Str × ℕ → F, shares p s ω = p.leaves.map (fun l => (leafIdx l, sh l)) ∧
          ∀ w : ι → F, ((pick A p).map fun l => cf l * sh l * w (own l.1)).sum = ∑ i, S i s ω * w i := by
  obtain ⟨cf, hcf, hcfv⟩ := coeffs_fun hn (1 : F)
  choose sh hsh hshv using fun (s : F) (ω : ℕ → F) => shares_fun hn s ω
  have hw' : ∀ s ω (w : ι → F), ((pick A p).map fun l => cf l * sh s ω l * w (own l.1)).sum =
      ∑ i, ((pick A p).map fun l => if own l.1 = i then cf l * sh s ω l else 0).sum * w i :=
    fun s ω w => sum_map_ite (pick A p) (fun l => cf l * sh s ω l) (fun l => own l.1) w
  refine ⟨fun i s ω => ((pick A p).map fun l => if own l.1 = i then cf l * sh s ω l else 0).sum, ?_, ?_, cf, hcf,
    fun s ω => ⟨sh s ω, hsh s ω, hw' s ω⟩⟩
  · intro s ω
    have h := hw' s ω (fun _ => 1)
    simp only [mul_one] at h
    rw [← h, reconstruct A (sh s ω) cf p hf hsat 1 s ω (hshv s ω) hcfv (Wide.reach _ _ hw), one_mul]
  · intro i hi d
    obtain ⟨δ, hδ⟩ := hides (attrs i) p hf hi d
    refine ⟨δ, fun s ω => ?_⟩
    refine congrArg List.sum (List.map_congr_left fun l hl => ?_)
    split
    · rename_i ho
      have hla : l.1 ∈ attrs i := ho ▸ hown l hl
      obtain ⟨k, hk⟩ := List.mem_iff_getElem?.1 ((pick_sublist A p).subset hl)
      have := hδ s ω k l hk hla
      rw [show (ω + δ) = fun n => ω n + δ n from rfl, ← hshv, ← hshv, List.getElem?_map, List.getElem?_map, hk] at this
      simp only [Option.map_some, Option.some.injEq] at this
      rw [this]
    · rfl

end Parts

namespace Bsw

variable {F G1 G2 Gt : Type} [Field F] [DecidableEq F] [AddCommGroup G1] [Module F G1]
  [AddCommGroup G2] [Module F G2] [AddCommGroup Gt] [Module F Gt]

theorem sum_smul_map {α : Type} (L : List α) (f : α → F) (e : Gt) :
    (L.map fun l => f l • e).sum = (L.map f).sum • e := by
  induction L with
  | nil => simp
  | cons a L ih => simp only [List.map_cons, List.sum_cons, ih, add_smul]

/-- What decryption computes with the first component of the key with exponent `r₀` and attribute components of keys
with the exponents `rOf`. -/
theorem recoverMsg_mixed {env : Env F G1 G2 Gt} {pk : PublicKey G1 G2 Gt} {msk : MasterKey F G2} {α β : F}
    (hs : IsSetup env pk msk α β) {d : G2} {r₀ : F} (hd : d = msk.beta⁻¹ • (msk.g2Alpha + r₀ • pk.g2))
    {dJ : List (Attribute G1 G2)} {rOf : Str → F} {p : Pol} {ct msg s ω}
    (hc : IsCt env pk p ct msg s ω) (hsat : p.sat (dJ.map (·.string)) = true) (hw : p.Wide)
    (hne : dJ.map (·.string) ≠ []) (hn : p.leaves.Nodup) (hu : ∀ l ∈ pick (dJ.map (·.string)) p, '_' ∉ l.1)
    (hfind : ∀ a ∈ dJ.map (·.string), ∃ x : Attribute G1 G2, dJ.find? (fun x => x.string == a) = some x ∧
      ∃ rj : F, x.g1 = rj • pk.g1 ∧ x.g2 = rOf a • pk.g2 + rj • env.hash a • pk.g2)
    {cf sh : Str × ℕ → F} (hcf : coeffs p 1 = p.leaves.map (fun l => (leafIdx l, cf l)))
    (hsh : shares p s ω = p.leaves.map (fun l => (leafIdx l, sh l))) :
    recoverMsg env ⟨d, dJ⟩ ct = .ok (msg + (((pick (dJ.map (·.string)) p).map fun l => cf l * sh l * rOf l.1).sum - s * r₀) •
      env.pair pk.g1 pk.g2) := by
  simp only [recoverMsg, hc.policy, Res.ok_bind, traverse_eq_sat _ hne, hsat,
    calcPruned_eq _ p hw, calcCoefficients_eq, Res.unwrapOption_some]
  simp only [Bool.true_eq_false, if_false, Bool.not_true, Bool.false_eq_true, List.nil_append,
    Res.ok.injEq]
  rw [prunedLoop_eq env ⟨d, dJ⟩ ct _ (fun l => (cf l * sh l * rOf l.1) • env.pair pk.g1 pk.g2)
    (pick (dJ.map (·.string)) p)]
  · rw [hc.c, hc.cP, hd, hs.h, hs.beta, hs.g2Alpha, hs.e, sum_smul_map]
    simp only [map_smul, map_add, LinearMap.smul_apply]
    have hβ := hs.beta_ne
    match_scalars <;> field_simp <;> ring
  · intro l hl
    have hlp : l ∈ p.leaves := (pick_sublist _ p).subset hl
    obtain ⟨dj, hdj, rj, e1, e2⟩ := hfind l.1 (pick_owned _ p l hl)
    refine ⟨encAttr env pk (leafIdx l, sh l), dj, ?_, hdj, ?_⟩
    · rw [hc.cY, hsh, List.map_map]
      exact find?_map_inj _ _ _ _ hlp fun y _ => by
        simp only [Function.comp, encAttr, beq_iff_eq]
        exact ⟨leafIdx_inj, fun h => h ▸ rfl⟩
    · intro a
      rw [coeffLoop_acc, hcf, filter_map_leafIdx hn cf hlp]
      simp only [encAttr, List.map_cons, List.map_nil, List.sum_cons, List.sum_nil, add_zero, e1, e2,
        Env.sha3Hash]
      rw [show removeIndex (leafIdx l) = l.1 from removeIndex_nodeIndex _ (hu l hl)]
      simp only [map_smul, map_add, LinearMap.smul_apply]
      module

end Bsw
end Rabe
