import Verif.Model.Bsw
import Verif.Proof.Common

/-!
# BSW: correctness, delegation, key transfer
-/

set_option linter.unusedSectionVars false

namespace Rabe
namespace Bsw

variable {F G1 G2 Gt : Type} [Field F] [DecidableEq F] [AddCommGroup G1] [Module F G1]
  [AddCommGroup G2] [Module F G2] [AddCommGroup Gt] [Module F Gt]

/-- Public and master key belong to the exponents `α`, `β ≠ 0`. -/
structure IsSetup (env : Env F G1 G2 Gt) (pk : PublicKey G1 G2 Gt) (msk : MasterKey F G2) (α β : F) : Prop where
  beta_ne : β ≠ 0
  beta : msk.beta = β
  g2Alpha : msk.g2Alpha = α • pk.g2
  h : pk.h = β • pk.g1
  f : pk.f = β⁻¹ • pk.g2
  e : pk.eGgAlpha = α • env.pair pk.g1 pk.g2

theorem setup_ok {env : Env F G1 G2 Gt} {t pk msk t'} (h : setup env t = .ok ((pk, msk), t')) :
    ∃ α β, IsSetup env pk msk α β := by
  simp only [setup, RM.bind_ok, RM.genG1, RM.genG2, RM.genFr, RM.lift_ok_iff, RM.pure_ok, inv,
    Res.ok.injEq, Prod.mk.injEq] at h
  obtain ⟨g1, t1, ⟨rfl, rfl⟩, g2, t2, ⟨rfl, rfl⟩, β, t3, ⟨rfl, rfl⟩, α, t4, ⟨rfl, rfl⟩, bi, t5, ⟨hb, rfl⟩,
    ⟨rfl, rfl⟩, _⟩ := h
  split at hb
  · simp at hb
  · rename_i hβ
    simp only [Res.ok.injEq] at hb
    exact ⟨_, _, ⟨hβ, rfl, rfl, rfl, by rw [← hb], by simp⟩⟩

theorem setup_succeeds (env : Env F G1 G2 Gt) (t : Tape F G1 G2 Gt) (h : t.fr 0 ≠ 0) :
    ∃ pk msk t', setup env t = .ok ((pk, msk), t') := by
  simp [setup, RM.bind_apply, RM.genG1, RM.genG2, RM.genFr, inv, h]

/-- The key components belong to the attributes `attrs` and the exponents `r`, `r_j`. -/
structure IsKey (env : Env F G1 G2 Gt) (pk : PublicKey G1 G2 Gt) (msk : MasterKey F G2) (attrs : List Str)
    (sk : SecretKey G1 G2) (r : F) : Prop where
  d : sk.d = msk.beta⁻¹ • (msk.g2Alpha + r • pk.g2)
  dJ : List.Forall₂ (fun a (x : Attribute G1 G2) => x.string = a ∧ ∃ rj : F, x.g1 = rj • pk.g1 ∧
    x.g2 = r • pk.g2 + rj • env.hash a • pk.g2) attrs sk.dJ

theorem keygen_ok {env : Env F G1 G2 Gt} {pk msk attrs t sk t'}
    (h : keygen env pk msk attrs t = .ok (some sk, t')) :
    attrs ≠ [] ∧ msk.beta ≠ 0 ∧ ∃ r, IsKey env pk msk attrs sk r := by
  unfold keygen at h
  split at h
  · simp at h
  · rename_i hne
    have hne' : attrs ≠ [] := by rintro rfl; simp at hne
    simp only [RM.bind_ok, RM.genFr, RM.lift_ok_iff, RM.pure_ok, inv, Res.ok.injEq, Prod.mk.injEq,
      Option.some.injEq] at h
    obtain ⟨r, t1, ⟨rfl, rfl⟩, bi, t2, ⟨hb, rfl⟩, dJ, t3, hd, rfl, _⟩ := h
    split at hb
    · simp at hb
    · rename_i hβ
      simp only [Res.ok.injEq] at hb
      refine ⟨hne', hβ, _, ⟨by rw [← hb], ?_⟩⟩
      refine (RM.mapL_ok hd).imp ?_
      rintro a x ⟨s, s', hx⟩
      simp only [keygenAttr, RM.bind_ok, RM.genFr, RM.pure_ok, Res.ok.injEq, Prod.mk.injEq] at hx
      obtain ⟨rj, s1, ⟨rfl, rfl⟩, rfl, _⟩ := hx
      exact ⟨rfl, _, rfl, rfl⟩

/-- Running the attribute loop of `keygen` on a prescribed list of exponents. -/
theorem mapL_keygenAttr (env : Env F G1 G2 Gt) (pk : PublicKey G1 G2 Gt) (g2R : G2) :
    ∀ {attrs : List Str} {dJ : List (Attribute G1 G2)},
      List.Forall₂ (fun a (x : Attribute G1 G2) => x.string = a ∧ ∃ rj : F, x.g1 = rj • pk.g1 ∧
        x.g2 = g2R + rj • env.hash a • pk.g2) attrs dJ →
      ∀ t0 : Tape F G1 G2 Gt, ∃ t t', t.g1 = t0.g1 ∧ t.g2 = t0.g2 ∧
        RM.mapL (keygenAttr env pk g2R) attrs t = .ok (dJ, t') := by
  intro attrs dJ h
  induction h with
  | nil => intro t0; exact ⟨t0, t0, rfl, rfl, rfl⟩
  | cons hx _ ih =>
    intro t0
    obtain ⟨rfl, rj, h1, h2⟩ := hx
    obtain ⟨t, t', e1, e2, he⟩ := ih t0
    refine ⟨{ t with fr := fun n => match n with | 0 => rj | n + 1 => t.fr n }, t', e1, e2, ?_⟩
    simp only [RM.mapL, RM.rbind_eq, RM.rpure_eq, RM.bind_ok, RM.pure_ok]
    refine ⟨_, t, ?_, _, t', he, rfl, rfl⟩
    simp only [keygenAttr, RM.bind_ok, RM.genFr, RM.pure_ok, Res.ok.injEq, Prod.mk.injEq]
    refine ⟨rj, t, ⟨rfl, ?_⟩, ?_, rfl⟩
    · have : dropS 1 (fun n => match n with | 0 => rj | n + 1 => t.fr n) = t.fr := by
        funext n; simp only [dropS, Nat.add_comm 1 n]
      simp [this]
    · rename_i x _ _ _
      cases x
      simp only [Attribute.mk.injEq] at *
      exact ⟨trivial, h1, h2⟩

/-- Every key of the right algebraic form is an output of `keygen` for suitable random numbers. -/
theorem keygen_surj {env : Env F G1 G2 Gt} {pk : PublicKey G1 G2 Gt} {msk : MasterKey F G2} {attrs sk r}
    (hne : attrs ≠ []) (hβ : msk.beta ≠ 0) (h : IsKey env pk msk attrs sk r) (t0 : Tape F G1 G2 Gt) :
    ∃ t t', keygen env pk msk attrs t = .ok (some sk, t') := by
  obtain ⟨t, t', _, _, he⟩ := mapL_keygenAttr env pk (r • pk.g2) h.dJ t0
  refine ⟨{ t with fr := fun n => match n with | 0 => r | n + 1 => t.fr n }, t', ?_⟩
  have hne' : (attrs.isEmpty || attrs.length == 0) = false := by
    cases attrs <;> simp_all
  simp only [keygen, hne', Bool.false_eq_true, if_false, RM.bind_ok, RM.genFr, RM.lift_ok_iff,
    RM.pure_ok, inv, Res.ok.injEq, Prod.mk.injEq, Option.some.injEq]
  refine ⟨r, t, ⟨rfl, ?_⟩, msk.beta⁻¹, t, ⟨by simp [hβ], rfl⟩, sk.dJ, t', he, ?_, rfl⟩
  · have : dropS 1 (fun n => match n with | 0 => r | n + 1 => t.fr n) = t.fr := by
      funext n; simp only [dropS, Nat.add_comm 1 n]
    simp [this]
  · cases sk
    have := h.d
    simp_all

/-! ## Delegation -/

theorem isSubset_iff (s A : List Str) : isSubset s A = true ↔ ∀ x ∈ s, x ∈ A := by
  simp [isSubset]

theorem key_strings {env : Env F G1 G2 Gt} {pk : PublicKey G1 G2 Gt} {msk : MasterKey F G2} {attrs sk r}
    (h : IsKey env pk msk attrs sk r) : sk.dJ.map (·.string) = attrs := by
  have := Forall₂.map_eq (f := id) (g := fun x : Attribute G1 G2 => x.string) h.dJ (fun x y hxy => hxy.1)
  simpa using this

theorem key_find {env : Env F G1 G2 Gt} {pk : PublicKey G1 G2 Gt} {msk : MasterKey F G2} {attrs sk r}
    (h : IsKey env pk msk attrs sk r) {a : Str} (ha : a ∈ attrs) :
    ∃ x : Attribute G1 G2, sk.dJ.find? (fun x => x.string == a) = some x ∧ x.string = a ∧
      ∃ rj : F, x.g1 = rj • pk.g1 ∧ x.g2 = r • pk.g2 + rj • env.hash a • pk.g2 := by
  obtain ⟨y, hy, hys, _⟩ := Forall₂.mem_left h.dJ a ha
  cases hf : sk.dJ.find? (fun x => x.string == a) with
  | none =>
    rw [List.find?_eq_none] at hf
    exact absurd hys (by simpa using hf y hy)
  | some x =>
    have hx := List.find?_some hf
    have hm := List.mem_of_find?_eq_some hf
    obtain ⟨b, _, hb⟩ := Forall₂.mem_right h.dJ x hm
    have hxa : x.string = a := by simpa using hx
    refine ⟨x, rfl, hxa, ?_⟩
    obtain ⟨hb1, hb2⟩ := hb
    rw [hxa] at hb1
    subst hb1
    exact hb2

theorem delegate_ok {env : Env F G1 G2 Gt} {pk : PublicKey G1 G2 Gt} {msk : MasterKey F G2} {α β : F}
    (hs : IsSetup env pk msk α β) {attrs sk r} (hk : IsKey env pk msk attrs sk r) {sub t sk' t'}
    (h : delegate env pk sk sub t = .ok (some sk', t')) :
    sub ≠ [] ∧ (∀ x ∈ sub, x ∈ attrs) ∧ ∃ r', IsKey env pk msk sub sk' r' := by
  unfold delegate at h
  rw [key_strings hk] at h
  split at h
  · simp at h
  · rename_i hsub
    simp only [Bool.not_eq_true', Bool.not_eq_false] at hsub
    rw [isSubset_iff] at hsub
    split at h
    · simp at h
    · rename_i hne
      have hne' : sub ≠ [] := by rintro rfl; simp at hne
      simp only [RM.bind_ok, RM.genFr, RM.pure_ok, Res.ok.injEq, Prod.mk.injEq, Option.some.injEq] at h
      obtain ⟨ρ, t1, ⟨rfl, rfl⟩, dJ, t2, hd, rfl, _⟩ := h
      refine ⟨hne', hsub, r + t.fr 0, ⟨?_, ?_⟩⟩
      · rw [hk.d, hs.f, hs.beta]
        module
      · refine (Forall₂.with_mem (RM.mapL_ok hd)).imp ?_
        rintro a x ⟨hmem, s, s', hx⟩
        obtain ⟨v, hv, hva, rj, e1, e2⟩ := key_find hk (hsub a hmem)
        simp only [delegateAttr, RM.bind_ok, RM.genFr, RM.lift_ok_iff, RM.pure_ok, Res.ok.injEq,
          Prod.mk.injEq, hv, Res.unwrapOption_some] at hx
        obtain ⟨ρj, s1, ⟨rfl, rfl⟩, v', s2, ⟨rfl, rfl⟩, rfl, _⟩ := hx
        refine ⟨rfl, rj + s.fr 0, ?_, ?_⟩
        · simp only [e1]; module
        · simp only [e2, Env.sha3Hash]; module

theorem delegate_succeeds {env : Env F G1 G2 Gt} {pk : PublicKey G1 G2 Gt} {msk : MasterKey F G2} {attrs sk r}
    (hk : IsKey env pk msk attrs sk r) {sub} (hne : sub ≠ []) (hsub : ∀ x ∈ sub, x ∈ attrs)
    (t : Tape F G1 G2 Gt) : ∃ sk' t', delegate env pk sk sub t = .ok (some sk', t') := by
  unfold delegate
  have h1 : isSubset sub (sk.dJ.map (·.string)) = true := by
    rw [key_strings hk, isSubset_iff]; exact hsub
  have h2 : (sub.isEmpty || sub.length == 0) = false := by cases sub <;> simp_all
  simp only [h1, h2, Bool.not_true, Bool.false_eq_true, if_false, RM.bind_ok, RM.pure_ok, RM.genFr,
    Res.ok.injEq, Prod.mk.injEq]
  obtain ⟨dJ, t', h⟩ := RM.mapL_total (f := delegateAttr env pk sk (t.fr 0)) (xs := sub) (by
    intro x hx s
    obtain ⟨v, hv, _⟩ := key_find hk (hsub x hx)
    simp [delegateAttr, RM.genFr, hv]) { t with fr := dropS 1 t.fr }
  exact ⟨_, _, _, _, ⟨rfl, rfl⟩, dJ, t', h, rfl, rfl⟩

/-! ## Correctness -/

theorem coeffLoop_acc (env : Env F G1 G2 Gt) (cy dj : Attribute G1 G2) (j : Str) (zs : List (Str × F)) :
    ∀ a, coeffLoop env cy dj j zs a =
      a + ((zs.filter fun z => z.1 == j).map fun z =>
        z.2 • (env.pair cy.g1 dj.g2 - env.pair dj.g1 cy.g2)).sum := by
  induction zs with
  | nil => intro a; simp [coeffLoop]
  | cons z zs ih =>
    intro a
    simp only [coeffLoop, ih, List.filter_cons]
    split <;> simp [sub_eq_add_neg, add_assoc]

theorem filter_map_leafIdx {L : List (Str × ℕ)} (hn : L.Nodup) (cf : Str × ℕ → F) {l} (hl : l ∈ L) :
    ((L.map fun l => (leafIdx l, cf l)).filter fun z => z.1 == leafIdx l) = [(leafIdx l, cf l)] := by
  induction L with
  | nil => simp at hl
  | cons x xs ih =>
    simp only [List.nodup_cons] at hn
    by_cases hx : x = l
    · subst hx
      have : ((xs.map fun l => (leafIdx l, cf l)).filter fun z => z.1 == leafIdx x) = [] := by
        rw [List.filter_eq_nil_iff]
        rintro z hz
        obtain ⟨y, hy, rfl⟩ := List.mem_map.1 hz
        simp only [beq_iff_eq]
        intro h
        exact hn.1 (leafIdx_inj h ▸ hy)
      simp [this]
    · have hl' : l ∈ xs := by
        rcases List.mem_cons.1 hl with h | h
        · exact absurd h.symm hx
        · exact h
      have : leafIdx x ≠ leafIdx l := fun h => hx (leafIdx_inj h)
      simp [this, ih hn.2 hl']

theorem prunedLoop_eq (env : Env F G1 G2 Gt) (sk : SecretKey G1 G2) (ct : Ciphertext G1 G2 Gt)
    (z : List (Str × F)) (val : Str × ℕ → Gt) (L : List (Str × ℕ))
    (h : ∀ l ∈ L, ∃ cy dj, ct.cY.find? (fun x => x.string == leafIdx l) = some cy ∧
      sk.dJ.find? (fun x => x.string == l.1) = some dj ∧ ∀ a, coeffLoop env cy dj (leafIdx l) z a = a + val l) :
    ∀ a, prunedLoop env sk ct z (L.map leafKey) a = a + (L.map val).sum := by
  induction L with
  | nil => intro a; simp [prunedLoop]
  | cons l L ih =>
    intro a
    obtain ⟨cy, dj, h1, h2, h3⟩ := h l (by simp)
    simp only [List.map_cons, leafKey, prunedLoop]
    simp only [leafIdx] at h1
    rw [ih (fun l hl => h l (by simp [hl])), h1, h2]
    simp only []
    rw [show nodeIndex l.1 l.2 = leafIdx l from rfl, h3]
    simp [add_assoc]

/-- The ciphertext is an encryption of `msg` under the tree `p` with sharing secret `s`. -/
structure IsCt (env : Env F G1 G2 Gt) (pk : PublicKey G1 G2 Gt) (p : Pol) (ct : Ciphertext G1 G2 Gt)
    (msg : Gt) (s : F) (ω : ℕ → F) : Prop where
  policy : parse ct.policy.1 ct.policy.2 = .ok p.toValue
  c : ct.c = s • pk.h
  cP : ct.cP = s • pk.eGgAlpha + msg
  cY : ct.cY = (shares p s ω).map (encAttr env pk)

theorem encrypt_ok {env : Env F G1 G2 Gt} {pk : PublicKey G1 G2 Gt} {policy lang pt t ct t'} {p : Pol}
    (hp : parse policy lang = .ok p.toValue)
    (h : encrypt env pk policy lang pt t = .ok (ct, t')) :
    ∃ msg s ω, IsCt env pk p ct msg s ω ∧ decryptSymmetric env msg ct.data = .ok pt := by
  simp only [encrypt, RM.bind_ok, RM.genFr, RM.genGt, RM.lift_ok_iff, RM.pure_ok, hp, Res.ok.injEq,
    Prod.mk.injEq, RM.liftFr] at h
  obtain ⟨s, t1, ⟨rfl, rfl⟩, msg, t2, ⟨rfl, rfl⟩, pv, t3, ⟨rfl, rfl⟩, sh, t4, hsh, shs, t5, ⟨hu, rfl⟩, data, t6,
    hd, rfl, _⟩ := h
  rw [genSharesPolicy_eq] at hsh
  simp only [Res.ok.injEq, Prod.mk.injEq] at hsh
  obtain ⟨rfl, rfl⟩ := hsh
  simp only [Res.unwrapOption_some, Res.ok.injEq] at hu
  subst hu
  exact ⟨_, _, _, ⟨hp, rfl, rfl, rfl⟩, encryptSymmetric_ok hd⟩

theorem recoverMsg_ok [BigChar F] {env : Env F G1 G2 Gt} {pk : PublicKey G1 G2 Gt} {msk : MasterKey F G2} {α β : F}
    (hs : IsSetup env pk msk α β) {attrs sk r} (hk : IsKey env pk msk attrs sk r) {p : Pol} {ct msg s ω}
    (hc : IsCt env pk p ct msg s ω) (hsat : p.sat attrs = true) (hw : p.Wide) (hf : p.Fits)
    (hn : p.leaves.Nodup) (hu : ∀ l ∈ pick attrs p, '_' ∉ l.1) (hne : attrs ≠ []) :
    recoverMsg env sk ct = .ok msg := by
  obtain ⟨sh, hsh, hshv⟩ := shares_fun hn s ω
  obtain ⟨cf, hcf, hcfv⟩ := coeffs_fun hn (1 : F)
  have hsum := reconstruct attrs sh cf p hf hsat 1 s ω hshv hcfv (Wide.reach _ _ hw)
  simp only [recoverMsg, hc.policy, Res.ok_bind, key_strings hk, traverse_eq_sat attrs hne, hsat,
    calcPruned_eq attrs p hw, calcCoefficients_eq, Res.unwrapOption_some]
  simp only [Bool.true_eq_false, if_false, Bool.not_true, Bool.false_eq_true, List.nil_append,
    Res.ok.injEq]
  rw [prunedLoop_eq env sk ct _ (fun l => (cf l * sh l * r) • env.pair pk.g1 pk.g2) (pick attrs p)]
  · rw [hc.c, hc.cP, hk.d, hs.h, hs.beta, hs.g2Alpha, hs.e]
    have hsum' : ((pick attrs p).map fun l => (cf l * sh l * r) • env.pair pk.g1 pk.g2).sum =
        (s * r) • env.pair pk.g1 pk.g2 := by
      have : (fun l : Str × ℕ => (cf l * sh l * r) • env.pair pk.g1 pk.g2) =
          (fun x : F => (x * r) • env.pair pk.g1 pk.g2) ∘ (fun l : Str × ℕ => cf l * sh l) := by
        funext l; simp
      rw [this, ← List.map_map]
      have h2 : ∀ L : List F, (L.map fun x => (x * r) • env.pair pk.g1 pk.g2).sum =
          (L.sum * r) • env.pair pk.g1 pk.g2 := by
        intro L
        induction L with
        | nil => simp
        | cons x xs ih => simp only [List.map_cons, List.sum_cons, ih, add_mul, add_smul]
      rw [h2, hsum, one_mul]
    rw [hsum']
    simp only [map_smul, map_add, LinearMap.smul_apply]
    have hβ := hs.beta_ne
    match_scalars <;> field_simp <;> ring
  · intro l hl
    have hlp : l ∈ p.leaves := (pick_sublist attrs p).subset hl
    obtain ⟨dj, hdj, _, rj, e1, e2⟩ := key_find hk (pick_owned attrs p l hl)
    refine ⟨encAttr env pk (leafIdx l, sh l), dj, ?_, hdj, ?_⟩
    · rw [hc.cY, hsh, List.map_map]
      exact find?_map_inj _ _ _ _ hlp fun y _ => by
        simp only [Function.comp, encAttr, beq_iff_eq]
        exact ⟨leafIdx_inj, fun h => h ▸ rfl⟩
    · intro a
      rw [coeffLoop_acc, hcf, filter_map_leafIdx hn cf hlp]
      simp only [encAttr, List.map_cons, List.map_nil, List.sum_cons, List.sum_nil, add_zero, e1, e2,
        Env.sha3Hash]
      rw [show removeIndex (leafIdx l) = l.1 from removeIndex_nodeIndex _ (hu l hl)]
      simp only [map_smul, map_add, LinearMap.smul_apply]
      module

end Bsw
end Rabe
