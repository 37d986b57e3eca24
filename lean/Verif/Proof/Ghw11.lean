import Verif.Model.Ghw11
import Verif.Proof.Common

/-!
# GHW11: correctness of outsourced decryption
-/

set_option linter.unusedSectionVars false
set_option linter.unnecessarySeqFocus false

namespace Rabe
namespace Ghw11

variable {F G1 G2 Gt : Type} [Field F] [DecidableEq F] [AddCommGroup G1] [Module F G1]
  [AddCommGroup G2] [Module F G2] [AddCommGroup Gt] [Module F Gt]

/-- Public and master key belong to the exponents `a`, `α`. -/
structure IsSetup (env : Env F G1 G2 Gt) (pk : PublicKey G1 G2 Gt) (msk : MasterKey G1 G2 Gt) (a α : F) : Prop where
  g1A : pk.g1A = a • pk.g1
  g2A : pk.g2A = a • pk.g2
  e : pk.eGgAlpha = α • env.pair pk.g1 pk.g2
  g2Alpha : msk.g2Alpha = α • pk.g2

theorem setup_ok {env : Env F G1 G2 Gt} {t pk msk t'} (h : setup env t = .ok ((pk, msk), t')) :
    ∃ a α, IsSetup env pk msk a α := by
  simp only [setup, RM.bind_ok, RM.genG1, RM.genG2, RM.genFr, RM.pure_ok, Res.ok.injEq, Prod.mk.injEq] at h
  obtain ⟨g1, t1, ⟨rfl, rfl⟩, g2, t2, ⟨rfl, rfl⟩, a, t3, ⟨rfl, rfl⟩, α, t4, ⟨rfl, rfl⟩, ⟨rfl, rfl⟩, _⟩ := h
  exact ⟨_, _, ⟨rfl, rfl, rfl, rfl⟩⟩

/-- The key for the attributes `attrs` and the exponent `r`. -/
def keyFor (env : Env F G1 G2 Gt) (pk : PublicKey G1 G2 Gt) (msk : MasterKey G1 G2 Gt) (attrs : List Str) (r : F) :
    SecretKey G2 :=
  { k := msk.g2Alpha + r • pk.g2A, l := r • pk.g2,
    attrKey := attrs.map fun j => { string := j, kX := r • env.hash j • pk.g2 } }

theorem keygen_ok {env : Env F G1 G2 Gt} {pk msk attrs t sk t'}
    (h : keygen env pk msk attrs t = .ok (some sk, t')) :
    attrs ≠ [] ∧ sk = keyFor env pk msk attrs (t.fr 0) := by
  unfold keygen at h
  split at h
  · simp at h
  · rename_i hne
    have hne' : attrs ≠ [] := by rintro rfl; simp at hne
    simp only [RM.bind_ok, RM.genFr, RM.pure_ok, Res.ok.injEq, Prod.mk.injEq, Option.some.injEq] at h
    obtain ⟨r, t1, ⟨rfl, rfl⟩, rfl, _⟩ := h
    exact ⟨hne', rfl⟩

/-- The transformation key of a key and a blinding exponent. -/
def blind (sk : SecretKey G2) (z : F) : TransformKey G2 :=
  { kZ := z⁻¹ • sk.k, lZ := z⁻¹ • sk.l, attrKeyZ := sk.attrKey.map fun x => { string := x.string, kX := z⁻¹ • x.kX } }

theorem tkgen_ok {sk : SecretKey G2} {t : Tape F G1 G2 Gt} {tk rk t'}
    (h : tkgen sk t = .ok (some (tk, rk), t')) : rk.z ≠ 0 ∧ tk = blind sk rk.z := by
  simp only [tkgen, RM.bind_ok, RM.genFr, RM.lift_ok_iff, RM.pure_ok, inv, Res.ok.injEq, Prod.mk.injEq,
    Option.some.injEq] at h
  obtain ⟨z, t1, ⟨rfl, rfl⟩, zi, t2, ⟨hz, rfl⟩, ⟨rfl, rfl⟩, _⟩ := h
  split at hz
  · simp at hz
  · rename_i hz0
    simp only [Res.ok.injEq] at hz
    subst hz
    exact ⟨hz0, rfl⟩

/-- The ciphertext is an encryption of `msg` under the tree `p` with sharing secret `s`, shares given by `ω` and
exponents `τ`. -/
structure IsCt (env : Env F G1 G2 Gt) (pk : PublicKey G1 G2 Gt) (p : Pol) (ct : Ciphertext G1 Gt)
    (msg : Gt) (s : F) (ω : ℕ → F) : Prop where
  policy : parse ct.policy.1 ct.policy.2 = .ok p.toValue
  c : ct.c = s • pk.eGgAlpha + msg
  c1 : ct.c1 = s • pk.g1
  ciDi : List.Forall₂ (fun (x : Str × F) (y : Str × G1 × G1) => ∃ τ : F,
    y = (x.1, x.2 • pk.g1A + (-τ) • env.hash (removeIndex x.1) • pk.g1, τ • pk.g1)) (shares p s ω) ct.ciDi

theorem encrypt_ok {env : Env F G1 G2 Gt} {pk : PublicKey G1 G2 Gt} {policy lang pt t ct t'} {p : Pol}
    (hp : parse policy lang = .ok p.toValue)
    (h : encrypt env pk policy lang pt t = .ok (ct, t')) :
    ∃ msg s ω, IsCt env pk p ct msg s ω ∧ decryptSymmetric env msg ct.data = .ok pt := by
  simp only [encrypt, RM.bind_ok, RM.genFr, RM.genGt, RM.lift_ok_iff, RM.pure_ok, hp, Res.ok.injEq,
    Prod.mk.injEq, RM.liftFr] at h
  obtain ⟨s, t1, ⟨rfl, rfl⟩, msg, t2, ⟨rfl, rfl⟩, pv, t3, ⟨rfl, rfl⟩, sh, t4, hsh, shs, t5, ⟨hu, rfl⟩, cd, t6, hcd,
    data, t7, hd, rfl, _⟩ := h
  rw [genSharesPolicy_eq] at hsh
  simp only [Res.ok.injEq, Prod.mk.injEq] at hsh
  obtain ⟨rfl, rfl⟩ := hsh
  simp only [Res.unwrapOption_some, Res.ok.injEq] at hu
  subst hu
  refine ⟨_, _, dropS 1 t.fr, ⟨hp, rfl, rfl, ?_⟩, encryptSymmetric_ok hd⟩
  refine (RM.mapL_ok hcd).imp ?_
  rintro a x ⟨u, u', hx⟩
  simp only [encShare, RM.bind_ok, RM.genFr, RM.pure_ok, Res.ok.injEq, Prod.mk.injEq] at hx
  obtain ⟨τ, u1, ⟨rfl, rfl⟩, rfl, _⟩ := hx
  exact ⟨_, rfl⟩

/-- The loop of `transform` when all lookups succeed. -/
theorem fold_transform (env : Env F G1 G2 Gt) (ct : Ciphertext G1 Gt) (tk : TransformKey G2) (coeffs : List (Str × F))
    (x : Str × ℕ → Gt) (y : Str × ℕ → G1) (L : List (Str × ℕ))
    (h : ∀ l ∈ L, ∀ acc, transformStep env ct tk coeffs acc (leafKey l) = .ok (acc.1 + x l, acc.2 + y l)) :
    ∀ acc, Res.foldR (transformStep env ct tk coeffs) acc (L.map leafKey) =
      .ok (acc.1 + (L.map x).sum, acc.2 + (L.map y).sum) := by
  induction L with
  | nil => intro acc; simp [Res.foldR]
  | cons l L ih =>
    intro acc
    rw [List.map_cons]
    simp only [Res.foldR, Res.rbind_eq]
    rw [h l (by simp), Res.ok_bind, ih fun l hl => h l (by simp [hl])]
    simp [add_assoc]

theorem sum_smul {M : Type} [AddCommGroup M] [Module F M] {α : Type} (L : List α) (f : α → F) (m : M) :
    (L.map fun l => f l • m).sum = (L.map f).sum • m := by
  induction L with
  | nil => simp
  | cons x xs ih => simp only [List.map_cons, List.sum_cons, ih, add_smul]

theorem transform_ok [BigChar F] {env : Env F G1 G2 Gt} {pk : PublicKey G1 G2 Gt} {msk : MasterKey G1 G2 Gt}
    {a α : F} (hs : IsSetup env pk msk a α) {attrs : List Str} {r z : F} {p : Pol} {ct : Ciphertext G1 Gt} {msg s ω}
    (hc : IsCt env pk p ct msg s ω) (hsat : p.sat attrs = true) (hw : p.Wide) (hf : p.Fits)
    (hn : p.leaves.Nodup) (hu : ∀ l ∈ pick attrs p, '_' ∉ l.1) (hne : attrs ≠ []) :
    transform env ct (blind (keyFor env pk msk attrs r) z) =
      .ok { c := s • pk.eGgAlpha + msg, t := (z⁻¹ * (s * α)) • env.pair pk.g1 pk.g2 } := by
  obtain ⟨sh, hsh, hshv⟩ := shares_fun hn s ω
  obtain ⟨cf, hcf, hcfv⟩ := coeffs_fun hn (1 : F)
  have hsum := reconstruct attrs sh cf p hf hsat 1 s ω hshv hcfv (Wide.reach _ _ hw)
  have hattr : ((blind (keyFor env pk msk attrs r) z).attrKeyZ.map (·.string)) = attrs := by
    simp [blind, keyFor, Function.comp_def]
  have hcd := hc.ciDi
  rw [hsh, List.forall₂_map_left_iff] at hcd
  haveI : Inhabited (Str × G1 × G1) := ⟨([], 0, 0)⟩
  obtain ⟨cd, hcdf⟩ := exists_map_eq (β := Str × G1 × G1) hn hcd.length_eq.symm
  rw [← hcdf, List.forall₂_map_right_iff, List.forall₂_same] at hcd
  have hτ : ∀ l : Str × ℕ, ∃ τ : F, l ∈ pick attrs p → cd l = (leafIdx l, sh l • pk.g1A + (-τ) • env.hash l.1 • pk.g1,
      τ • pk.g1) := by
    intro l
    by_cases hl : l ∈ pick attrs p
    · obtain ⟨τ, h⟩ := hcd l ((pick_sublist attrs p).subset hl)
      refine ⟨τ, fun _ => ?_⟩
      rw [h]
      simp only []
      rw [show removeIndex (leafIdx l) = l.1 from removeIndex_nodeIndex _ (hu l hl)]
    · exact ⟨0, fun h => absurd h hl⟩
  choose τ hτ using hτ
  have hcn : ∀ l ∈ p.leaves, (cd l).1 = leafIdx l := by
    intro l hl
    obtain ⟨τ, h⟩ := hcd l hl
    rw [h]
  have hstep : ∀ l ∈ pick attrs p, ∀ acc, transformStep env ct (blind (keyFor env pk msk attrs r) z) (coeffs p 1) acc
      (leafKey l) = .ok (acc.1 + (cf l * τ l * (z⁻¹ * r * env.hash l.1)) • env.pair pk.g1 pk.g2,
        acc.2 + (cf l * (sh l * a - τ l * env.hash l.1)) • pk.g1) := by
    intro l hl acc
    have hlp : l ∈ p.leaves := (pick_sublist attrs p).subset hl
    have h1 : (coeffs p (1 : F)).find? (fun c => c.1 == leafIdx l) = some (leafIdx l, cf l) := by
      rw [hcf]
      exact find?_map_inj _ _ _ _ hlp fun y _ => by
        simp only [beq_iff_eq]; exact ⟨leafIdx_inj, fun h => h ▸ rfl⟩
    have h2 : (blind (keyFor env pk msk attrs r) z).attrKeyZ.find? (fun c => c.string == l.1) =
        some ⟨l.1, z⁻¹ • r • env.hash l.1 • pk.g2⟩ := by
      simp only [blind, keyFor, List.map_map]
      exact find?_map_inj _ _ _ _ (pick_owned attrs p l hl) fun y _ => by simp
    have h3 : ct.ciDi.find? (fun c => c.1 == leafIdx l) = some (cd l) := by
      rw [← hcdf]
      exact find?_map_inj _ _ _ _ hlp fun y hy => by
        rw [hcn y hy]
        simp only [beq_iff_eq]; exact ⟨leafIdx_inj, fun h => h ▸ rfl⟩
    have hk : leafKey l = (l.1, leafIdx l) := rfl
    simp only [transformStep, hk, h1, h2, h3, hτ l hl, Res.unwrapOption_some, Res.ok_bind, Res.ok.injEq, hs.g1A,
      map_smul, LinearMap.smul_apply, Prod.mk.injEq]
    constructor <;> module
  simp only [transform, hc.policy, Res.ok_bind, hattr, traverse_eq_sat attrs hne, hsat,
    calcPruned_eq attrs p hw, calcCoefficients_eq, Res.unwrapOption_some]
  simp only [Bool.true_eq_false, if_false, if_true, List.nil_append]
  rw [fold_transform env ct _ _ _ _ _ hstep]
  simp only [Res.ok_bind, Res.ok.injEq, TransformCiphertext.mk.injEq, hc.c, true_and, sum_smul, zero_add, hc.c1,
    blind, keyFor, hs.g2Alpha, hs.g2A, map_smul, map_add, LinearMap.smul_apply]
  have h1 : ((pick attrs p).map fun l => cf l * (sh l * a - τ l * env.hash l.1)).sum =
      s * a - ((pick attrs p).map fun l => cf l * τ l * env.hash l.1).sum := by
    rw [one_mul] at hsum
    rw [← hsum]
    clear * -
    induction pick attrs p with
    | nil => simp
    | cons x xs ih => simp only [List.map_cons, List.sum_cons, ih]; ring
  have h2 : ((pick attrs p).map fun l => cf l * τ l * (z⁻¹ * r * env.hash l.1)).sum =
      z⁻¹ * r * ((pick attrs p).map fun l => cf l * τ l * env.hash l.1).sum := by
    clear * -
    induction pick attrs p with
    | nil => simp
    | cons x xs ih => simp only [List.map_cons, List.sum_cons, ih]; ring
  rw [h1, h2]
  generalize ((pick attrs p).map fun l => cf l * τ l * env.hash l.1).sum = X
  module

end Ghw11
end Rabe
