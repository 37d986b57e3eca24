import Verif.Model.Lsw
import Verif.Proof.KpCommon

/-!
# LSW: correctness of decryption
-/

set_option linter.unusedSectionVars false
set_option linter.unnecessarySeqFocus false

namespace Rabe
namespace Lsw

variable {F G1 G2 Gt : Type} [Field F] [DecidableEq F] [AddCommGroup G1] [Module F G1]
  [AddCommGroup G2] [Module F G2] [AddCommGroup Gt] [Module F Gt]

theorem setup_ok {env : Env F G1 G2 Gt} {t pk msk t'} (h : setup env t = .ok ((pk, msk), t')) :
    pk.eGgAlpha = (msk.alpha1 * msk.alpha2) • env.pair pk.g1 pk.g2 := by
  simp only [setup, RM.bind_ok, RM.genG1, RM.genG2, RM.genFr, RM.pure_ok, Res.ok.injEq, Prod.mk.injEq] at h
  obtain ⟨α1, t1, ⟨rfl, rfl⟩, α2, t2, ⟨rfl, rfl⟩, b, t3, ⟨rfl, rfl⟩, g1, t4, ⟨rfl, rfl⟩, g2, t5, ⟨rfl, rfl⟩,
    h1, t6, ⟨rfl, rfl⟩, h2, t7, ⟨rfl, rfl⟩, ⟨rfl, rfl⟩, _⟩ := h
  rfl

/-- The key component of a share. -/
def IsKeyAttr (env : Env F G1 G2 Gt) (pk : PublicKey G1 G2 Gt) (msk : MasterKey F G1 G2) (name : Str) (share : F)
    (y : KeyAttr G1 G2) : Prop :=
  y.name = name ∧ ∃ neg, isNegative name = .ok neg ∧ (neg = false → ∃ r : F,
    y.d1 = (msk.alpha2 * share) • pk.g1 + r • env.hash name • pk.g1 ∧ y.d2 = r • pk.g2)

/-- The key belongs to the tree `p`; the randomness of the sharing is `ω`. -/
structure IsKey (env : Env F G1 G2 Gt) (pk : PublicKey G1 G2 Gt) (msk : MasterKey F G1 G2) (p : Pol)
    (sk : SecretKey G1 G2) (ω : ℕ → F) : Prop where
  policy : parse sk.policy.1 sk.policy.2 = .ok p.toValue
  dj : List.Forall₂ (fun (x : Str × F) y => IsKeyAttr env pk msk (removeIndex x.1) x.2 y) (shares p msk.alpha1 ω) sk.dj

theorem keygen_ok {env : Env F G1 G2 Gt} {pk : PublicKey G1 G2 Gt} {msk : MasterKey F G1 G2} {policy lang t sk t'}
    {p : Pol} (hp : parse policy lang = .ok p.toValue)
    (h : keygen env pk msk policy lang t = .ok (sk, t')) : IsKey env pk msk p sk t.fr ∧ sk.policy = (policy, lang) := by
  simp only [keygen, RM.bind_ok, RM.lift_ok_iff, hp, Res.ok.injEq, Prod.mk.injEq, RM.liftFr] at h
  obtain ⟨pv, t1, ⟨rfl, rfl⟩, sh, t2, hsh, h⟩ := h
  rw [genSharesPolicy_eq] at hsh
  simp only [Res.ok.injEq, Prod.mk.injEq] at hsh
  obtain ⟨rfl, rfl⟩ := hsh
  simp only [RM.bind_ok, RM.pure_ok] at h
  obtain ⟨dj, t3, hdj, rfl, _⟩ := h
  refine ⟨⟨hp, (RM.mapL_ok hdj).imp ?_⟩, rfl⟩
  rintro a x ⟨u, u', hx⟩
  simp only [keygenShare, RM.bind_ok, RM.genFr, RM.lift_ok_iff, Res.ok.injEq, Prod.mk.injEq] at hx
  obtain ⟨r, u1, ⟨rfl, rfl⟩, neg, u2, ⟨hn, rfl⟩, hx⟩ := hx
  cases neg with
  | true =>
    simp only [if_true, RM.pure_ok] at hx
    obtain ⟨rfl, _⟩ := hx
    exact ⟨rfl, true, hn, by simp⟩
  | false =>
    simp only [Bool.false_eq_true, if_false, RM.pure_ok] at hx
    obtain ⟨rfl, _⟩ := hx
    exact ⟨rfl, false, hn, fun _ => ⟨_, rfl, rfl⟩⟩

/-- The ciphertext is an encryption of `msg` with the exponent `s`. -/
structure IsCt (env : Env F G1 G2 Gt) (pk : PublicKey G1 G2 Gt) (attrs : List Str) (ct : Ciphertext G1 G2 Gt)
    (msg : Gt) (s : F) : Prop where
  e1 : ct.e1 = s • pk.eGgAlpha + msg
  e2 : ct.e2 = s • pk.g2
  names : ct.ej.map (·.name) = attrs
  ej : ∀ y ∈ ct.ej, y.e1 = s • env.hash y.name • pk.g1

theorem encrypt_ok {env : Env F G1 G2 Gt} {pk : PublicKey G1 G2 Gt} {attrs pt t ct t'}
    (h : encrypt env pk attrs pt t = .ok (ct, t')) :
    ∃ msg s, IsCt env pk attrs ct msg s ∧ decryptSymmetric env msg ct.ct = .ok pt := by
  unfold encrypt at h
  split at h
  · simp at h
  · simp only [RM.bind_ok, RM.genFr, RM.genGt, RM.lift_ok_iff, RM.pure_ok, Res.ok.injEq, Prod.mk.injEq] at h
    obtain ⟨s, t1, ⟨rfl, rfl⟩, sx, t2, _, ej, t3, ⟨hej, rfl⟩, msg, t4, ⟨rfl, rfl⟩, c, t5, hc, rfl, _⟩ := h
    have hf := mapR_ok hej
    refine ⟨_, t.fr 0, ⟨rfl, rfl, ?_, ?_⟩, encryptSymmetric_ok hc⟩
    · have := Forall₂.map_eq (f := Prod.fst) (g := fun x : CtAttr G1 => x.name) hf (by
        intro x y hxy
        simp only [encAttr, Res.bind_eq_ok, Res.ok.injEq] at hxy
        obtain ⟨_, _, rfl⟩ := hxy
        rfl)
      rw [this, List.zipIdx_map_fst]
    · intro y hy
      obtain ⟨x, _, hxy⟩ := Forall₂.mem_right hf y hy
      simp only [encAttr, Res.bind_eq_ok, Res.ok.injEq] at hxy
      obtain ⟨_, _, rfl⟩ := hxy
      rfl

theorem decrypt_ok [BigChar F] {env : Env F G1 G2 Gt} {pk : PublicKey G1 G2 Gt} {msk : MasterKey F G1 G2}
    (hs : pk.eGgAlpha = (msk.alpha1 * msk.alpha2) • env.pair pk.g1 pk.g2) {attrs : List Str} {p : Pol}
    {sk : SecretKey G1 G2} {ω} (hk : IsKey env pk msk p sk ω)
    {ct : Ciphertext G1 G2 Gt} {msg s} (hc : IsCt env pk attrs ct msg s)
    (hsat : p.sat attrs = true) (hw : p.Wide) (hf : p.Fits) (hn : p.leaves.Nodup) (hsep : Separate p attrs)
    (hcount : ∀ n ∈ p.names, n ∈ attrs → n.head? ≠ some '!') :
    decrypt env sk ct = decryptSymmetric env msg ct.ct := by
  obtain ⟨sh, hsh, hshv⟩ := shares_fun hn msk.alpha1 ω
  obtain ⟨cf, hcf, hcfv⟩ := coeffs_fun hn (1 : F)
  have hsum := reconstruct attrs sh cf p hf hsat 1 msk.alpha1 ω hshv hcfv (Wide.reach _ _ hw)
  have hdj := hk.dj
  rw [hsh, List.forall₂_map_left_iff] at hdj
  haveI : Inhabited (KeyAttr G1 G2) := ⟨⟨[], 0, 0, 0, 0, 0⟩⟩
  obtain ⟨kd, hkd⟩ := exists_map_eq (β := KeyAttr G1 G2) hn hdj.length_eq.symm
  rw [← hkd, List.forall₂_map_right_iff, List.forall₂_same] at hdj
  have hdj' : ∀ l ∈ p.leaves, IsKeyAttr env pk msk (l.1.takeWhile (· != '_')) (sh l) (kd l) := by
    intro l hl
    have := hdj l hl
    rwa [show removeIndex (leafIdx l, sh l).1 = l.1.takeWhile (· != '_') from removeIndex_nodeIndex_eq _ _] at this
  have hstep : ∀ l ∈ pick attrs p, ∀ acc : Gt × Gt, ∃ n, decryptStep env sk ct (coeffs p 1) acc (leafKey l) =
      .ok (acc.1 + (cf l * sh l * (msk.alpha2 * s)) • env.pair pk.g1 pk.g2, n) := by
    intro l hl acc
    have hlp : l ∈ p.leaves := (pick_sublist attrs p).subset hl
    have hla : l.1 ∈ attrs := pick_owned attrs p l hl
    have hbang := hcount l.1 (List.mem_map.2 ⟨l, hlp, rfl⟩) hla
    obtain ⟨hu, hc1⟩ := hsep l.1 (List.mem_map.2 ⟨l, hlp, rfl⟩) hla
    have h1 : (coeffs p (1 : F)).find? (fun c => c.1 == leafIdx l) = some (leafIdx l, cf l) := by
      rw [hcf]
      exact find?_map_inj _ _ _ _ hlp fun y _ => by
        simp only [beq_iff_eq]; exact ⟨leafIdx_inj, fun h => h ▸ rfl⟩
    have h2 : sk.dj.find? (fun c => c.name == l.1) = some (kd l) := by
      rw [← hkd]
      exact find?_map_inj _ _ _ _ hlp fun y hy => by
        rw [(hdj' y hy).1, beq_iff_eq]
        exact ⟨fun h => leaf_unique hlp hy hu h hc1, fun h => by subst h; exact removeIndex_of_not_mem hu⟩
    obtain ⟨y, hym, hyf, hyn⟩ := exists_find? (fun y : CtAttr G1 => y.name) ct.ej l.1 (by rw [hc.names]; exact hla)
    obtain ⟨_, neg, hneg, hpos⟩ := hdj' l hlp
    rw [show l.1.takeWhile (· != '_') = l.1 from removeIndex_of_not_mem hu] at hneg hpos
    have hnf : neg = false := by
      cases hl1 : l.1 with
      | nil => simp [hl1, isNegative] at hneg
      | cons c cs =>
        rw [hl1] at hneg hbang
        simp only [isNegative] at hneg
        split at hneg
        · simp only [Res.ok.injEq] at hneg
          rw [← hneg, beq_eq_false_iff_ne]
          simpa using hbang
        · simp at hneg
    subst hnf
    obtain ⟨r, hd1, hd2⟩ := hpos rfl
    have hk : leafKey l = (l.1, leafIdx l) := rfl
    refine ⟨env.pair (kd l).d1 ct.e2 + -(env.pair y.e1 (kd l).d2), ?_⟩
    simp only [decryptStep, hk, h1, h2, hyf, hneg, Res.unwrapOption_some, Res.ok_bind, Bool.false_eq_true, if_false,
      Res.ok.injEq, Prod.mk.injEq, and_true]
    rw [hd1, hd2, hc.ej y hym, hyn, hc.e2]
    simp only [map_smul, map_add, LinearMap.smul_apply, LinearMap.add_apply]
    module
  obtain ⟨n, hfold⟩ := foldR_fst_sum _ _ _ hstep (0, 0)
  simp only [decrypt, hk.policy, Res.ok_bind, hc.names, calcPruned_eq attrs p hw, hsat, if_true,
    calcCoefficients_eq, Res.unwrapOption_some, List.nil_append]
  rw [hfold, Res.ok_bind]
  congr 1
  have h1 : ((pick attrs p).map fun l => (cf l * sh l * (msk.alpha2 * s))).sum = msk.alpha1 * (msk.alpha2 * s) := by
    rw [one_mul] at hsum
    rw [← hsum]
    clear * -
    induction pick attrs p with
    | nil => simp
    | cons x xs ih => simp only [List.map_cons, List.sum_cons, ih]; ring
  simp only [zero_add, sum_map_smul, h1, hc.e1, hs]
  module

end Lsw
end Rabe
