import Verif.Model.Yct14
import Verif.Proof.KpCommon

/-!
# YCT14: correctness of decryption
-/

set_option linter.unusedSectionVars false
set_option linter.unnecessarySeqFocus false

namespace Rabe
namespace Yct14

variable {F G1 G2 Gt : Type} [Field F] [DecidableEq F] [AddCommGroup G1] [Module F G1]
  [AddCommGroup G2] [Module F G2] [AddCommGroup Gt] [Module F Gt]

/-- Public and master key belong to the generator `g` and the attribute exponents `L`. -/
structure IsSetup (uni : List Str) (pk : PublicKey F Gt) (msk : MasterKey F Gt) (g : Gt) (L : List (Str × F)) :
    Prop where
  names : L.map Prod.fst = uni
  gs : pk.g = msk.s • g
  pub : pk.attributes = L.map fun x => { name := x.1, node := some (.pub (x.2 • g)) }
  priv : msk.attributes = L.map fun x => { name := x.1, node := some (.priv x.2) }

theorem setup_exact {uni : List Str} {t : Tape F G1 G2 Gt} {pk msk t'} (h : setup uni t = .ok ((pk, msk), t')) :
    msk.s = t.fr 0 ∧ ∃ L, IsSetup uni pk msk (t.gt 0) L := by
  simp only [setup, RM.bind_ok, RM.genGt, RM.genFr, RM.pure_ok, Res.ok.injEq, Prod.mk.injEq] at h
  obtain ⟨s, t1, ⟨rfl, rfl⟩, g, t2, ⟨rfl, rfl⟩, pairs, t3, hp, ⟨rfl, rfl⟩, _⟩ := h
  have hf := RM.mapL_ok hp
  have : ∃ L : List (Str × F), L.map Prod.fst = uni ∧ pairs = L.map fun x =>
      (({ name := x.1, node := some (.pub (x.2 • t.gt 0)) } : Attribute F Gt),
        ({ name := x.1, node := some (.priv x.2) } : Attribute F Gt)) := by
    clear hp
    induction hf with
    | nil => exact ⟨[], rfl, rfl⟩
    | @cons a _ _ _ hr _ ih =>
      obtain ⟨L, h1, h2⟩ := ih
      obtain ⟨u, u', hu⟩ := hr
      simp only [Attribute.new, RM.bind_ok, RM.genFr, RM.pure_ok, Res.ok.injEq, Prod.mk.injEq] at hu
      obtain ⟨si, u1, ⟨rfl, rfl⟩, rfl, _⟩ := hu
      exact ⟨(a, u.fr 0) :: L, by simp [h1], by simp [h2]⟩
  obtain ⟨L, h1, h2⟩ := this
  exact ⟨rfl, L, ⟨h1, rfl, by simp [h2, Function.comp_def], by simp [h2, Function.comp_def]⟩⟩

theorem setup_ok {uni : List Str} {t : Tape F G1 G2 Gt} {pk msk t'} (h : setup uni t = .ok ((pk, msk), t')) :
    ∃ g L, IsSetup uni pk msk g L := ⟨_, (setup_exact h).2⟩

/-- The exponent of an attribute: the first entry with this name. -/
def expOf (L : List (Str × F)) (n : Str) : Option F := (L.find? fun x => x.1 == n).map Prod.snd

theorem expOf_isSome (L : List (Str × F)) (n : Str) : (expOf L n).isSome = true ↔ n ∈ L.map Prod.fst := by
  simp [expOf]

theorem getPrivate_eq {uni : List Str} {pk : PublicKey F Gt} {msk : MasterKey F Gt} {g : Gt} {L}
    (hs : IsSetup uni pk msk g L) (n : Str) :
    msk.getPrivate n = match expOf L n with | some s => .ok s | none => .err := by
  simp only [MasterKey.getPrivate, hs.priv, expOf, List.find?_map, Function.comp_def, Option.isSome_some, Bool.and_true]
  cases L.find? (fun x => x.1 == n) with
  | none => rfl
  | some x => simp [Node.private]

theorem keygenShare_eq {uni : List Str} {pk : PublicKey F Gt} {msk : MasterKey F Gt} {g : Gt} {L}
    (hs : IsSetup uni pk msk g L) (s : Str × F) :
    keygenShare msk s = match expOf L (removeIndex s.1) with
      | some x => if x = 0 then .panic
          else .ok (some { name := removeIndex s.1, node := some (.priv (s.2 * x⁻¹)) })
      | none => .ok none := by
  simp only [keygenShare, privateFrom, getPrivate_eq hs]
  cases expOf L (removeIndex s.1) with
  | none => rfl
  | some x =>
    by_cases hx : x = 0 <;> simp [inv, hx]

theorem publicFrom_eq {uni : List Str} {pk : PublicKey F Gt} {msk : MasterKey F Gt} {g : Gt} {L}
    (hs : IsSetup uni pk msk g L) (k : F) (n : Str) :
    publicFrom pk k n = match expOf L n with
      | some x => .ok { name := n, node := some (.pub (k • x • g)) }
      | none => .panic := by
  simp only [publicFrom, hs.pub, expOf, List.find?_map, Function.comp_def]
  cases L.find? (fun x => x.1 == n) with
  | none => rfl
  | some x => simp

/-- The key belongs to the tree `p`; the randomness of the sharing is `ω`. -/
structure IsKey (L : List (Str × F)) (msk : MasterKey F Gt) (p : Pol) (sk : SecretKey F Gt) (ω : ℕ → F) : Prop where
  policy : parse sk.policy.1 sk.policy.2 = .ok p.toValue
  sound : ∀ y ∈ sk.du, ∃ x ∈ shares p msk.s ω, ∃ e, expOf L (removeIndex x.1) = some e ∧ e ≠ 0 ∧
    y = { name := removeIndex x.1, node := some (.priv (x.2 * e⁻¹)) }
  complete : ∀ x ∈ shares p msk.s ω, removeIndex x.1 ∈ L.map Prod.fst → removeIndex x.1 ∈ sk.du.map (·.name)

theorem keygen_ok {uni : List Str} {pk : PublicKey F Gt} {msk : MasterKey F Gt} {g : Gt} {L}
    (hs : IsSetup uni pk msk g L) {policy lang} {t : Tape F G1 G2 Gt} {sk t'} {p : Pol}
    (hp : parse policy lang = .ok p.toValue) (h : keygen msk policy lang t = .ok (sk, t')) :
    IsKey L msk p sk t.fr ∧ sk.policy = (policy, lang) := by
  simp only [keygen, RM.bind_ok, RM.lift_ok_iff, hp, Res.ok.injEq, RM.liftFr] at h
  obtain ⟨pv, t1, ⟨rfl, rfl⟩, sh, t2, hsh, h⟩ := h
  rw [genSharesPolicy_eq] at hsh
  simp only [Res.ok.injEq, Prod.mk.injEq] at hsh
  obtain ⟨rfl, rfl⟩ := hsh
  simp only [RM.bind_ok, RM.pure_ok, RM.lift_ok_iff] at h
  obtain ⟨du, t3, ⟨hdu, _⟩, rfl, _⟩ := h
  have hf := mapR_ok hdu
  refine ⟨⟨hp, ?_, ?_⟩, rfl⟩
  · intro y hy
    obtain ⟨o, ho, hoy⟩ := List.mem_filterMap.1 hy
    simp only [id] at hoy
    subst hoy
    obtain ⟨x, hx, hxy⟩ := Forall₂.mem_right hf _ ho
    rw [keygenShare_eq hs] at hxy
    cases he : expOf L (removeIndex x.1) with
    | none => simp [he] at hxy
    | some e =>
      rw [he] at hxy
      simp only [] at hxy
      split at hxy
      · simp at hxy
      · simp only [Res.ok.injEq, Option.some.injEq] at hxy
        exact ⟨x, hx, e, he, by assumption, hxy.symm⟩
  · intro x hx hm
    obtain ⟨o, ho, hxy⟩ := Forall₂.mem_left hf x hx
    rw [keygenShare_eq hs] at hxy
    obtain ⟨e, he⟩ := Option.isSome_iff_exists.1 ((expOf_isSome L _).2 hm)
    rw [he] at hxy
    simp only [] at hxy
    split at hxy
    · simp at hxy
    · simp only [Res.ok.injEq] at hxy
      subst hxy
      exact List.mem_map.2 ⟨_, List.mem_filterMap.2 ⟨_, ho, rfl⟩, rfl⟩

/-- The ciphertext was made with the exponent `k`. -/
structure IsCt (L : List (Str × F)) (g : Gt) (attrs : List Str) (ct : Ciphertext F Gt) (k : F) : Prop where
  names : ct.attributes.map (·.name) = attrs
  nodes : ∀ y ∈ ct.attributes, ∃ e, expOf L y.name = some e ∧ y.node = some (.pub (k • e • g))

theorem encrypt_ok {uni : List Str} {pk : PublicKey F Gt} {msk : MasterKey F Gt} {g : Gt} {L}
    (hs : IsSetup uni pk msk g L) {env : Env F G1 G2 Gt} {attrs pt t ct t'}
    (h : encrypt env pk attrs pt t = .ok (ct, t')) :
    ∃ k, IsCt L g attrs ct k ∧ decryptSymmetric env (k • pk.g) ct.ct = .ok pt := by
  unfold encrypt at h
  split at h
  · simp at h
  split at h
  · simp at h
  · simp only [RM.bind_ok, RM.genFr, RM.lift_ok_iff, RM.pure_ok, Res.ok.injEq, Prod.mk.injEq] at h
    obtain ⟨k, t1, ⟨rfl, rfl⟩, as, t2, ⟨has, rfl⟩, c, t3, hc, rfl, _⟩ := h
    have hf := mapR_ok has
    have hx : ∀ x y, publicFrom pk (t.fr 0) x = .ok y → ∃ e, expOf L x = some e ∧
        y = { name := x, node := some (.pub (t.fr 0 • e • g)) } := by
      intro x y hxy
      rw [publicFrom_eq hs] at hxy
      cases he : expOf L x with
      | none => simp [he] at hxy
      | some e =>
        rw [he] at hxy
        exact ⟨e, rfl, (Res.ok.inj hxy).symm⟩
    refine ⟨t.fr 0, ⟨?_, ?_⟩, encryptSymmetric_ok hc⟩
    · have := Forall₂.map_eq (f := id) (g := fun x : Attribute F Gt => x.name) hf (by
        intro x y hxy
        obtain ⟨e, _, rfl⟩ := hx x y hxy
        rfl)
      simpa using this
    · intro y hy
      obtain ⟨x, _, hxy⟩ := Forall₂.mem_right hf y hy
      obtain ⟨e, he, rfl⟩ := hx x y hxy
      exact ⟨e, he, rfl⟩

/-- A loop over the pruned leaves that computes a sum. -/
theorem foldR_sum {M : Type} [AddCommGroup M] (step : M → Str × Str → Res M)
    (x : Str × ℕ → M) (L : List (Str × ℕ)) (h : ∀ l ∈ L, ∀ acc, step acc (leafKey l) = .ok (acc + x l)) :
    ∀ acc, Res.foldR step acc (L.map leafKey) = .ok (acc + (L.map x).sum) := by
  induction L with
  | nil => intro acc; simp [Res.foldR]
  | cons l L ih =>
    intro acc
    rw [List.map_cons]
    simp only [Res.foldR, Res.rbind_eq]
    rw [h l (by simp), Res.ok_bind, ih fun l hl => h l (by simp [hl])]
    simp [add_assoc]

theorem decrypt_ok [BigChar F] {env : Env F G1 G2 Gt} {uni : List Str} {pk : PublicKey F Gt}
    {msk : MasterKey F Gt} {g : Gt} {L} (hs : IsSetup uni pk msk g L) {attrs : List Str} {p : Pol}
    {sk : SecretKey F Gt} {ω} (hk : IsKey L msk p sk ω) {ct : Ciphertext F Gt} {k} (hc : IsCt L g attrs ct k)
    (hsat : p.sat attrs = true) (hw : p.Wide) (hf : p.Fits) (hn : p.leaves.Nodup)
    (hsep : Separate p attrs) :
    decrypt env sk ct = decryptSymmetric env (k • pk.g) ct.ct := by
  obtain ⟨sh, hsh, hshv⟩ := shares_fun hn msk.s ω
  obtain ⟨cf, hcf, hcfv⟩ := coeffs_fun hn (1 : F)
  have hsum := reconstruct attrs sh cf p hf hsat 1 msk.s ω hshv hcfv (Wide.reach _ _ hw)
  have hrem : ∀ l ∈ p.leaves, removeIndex (leafIdx l) = l.1.takeWhile (· != '_') :=
    fun l _ => removeIndex_nodeIndex_eq _ _
  have hstep : ∀ l ∈ pick attrs p, ∀ acc : Gt, decryptStep sk ct (coeffs p 1) acc (leafKey l) =
      .ok (acc + (cf l * sh l * k) • g) := by
    intro l hl acc
    have hlp : l ∈ p.leaves := (pick_sublist attrs p).subset hl
    have hla : l.1 ∈ attrs := pick_owned attrs p l hl
    obtain ⟨hu, hc1⟩ := hsep l.1 (List.mem_map.2 ⟨l, hlp, rfl⟩) hla
    have hst : l.1.takeWhile (· != '_') = l.1 := removeIndex_of_not_mem hu
    have h1 : (coeffs p (1 : F)).find? (fun c => c.1 == leafIdx l) = some (leafIdx l, cf l) := by
      rw [hcf]
      exact find?_map_inj _ _ _ _ hlp fun y _ => by
        simp only [beq_iff_eq]; exact ⟨leafIdx_inj, fun h => h ▸ rfl⟩
    obtain ⟨y, hym, hyf, hyn⟩ := exists_find? (fun y : Attribute F Gt => y.name) ct.attributes l.1
      (by rw [hc.names]; exact hla)
    obtain ⟨e, he, hnode⟩ := hc.nodes y hym
    rw [hyn] at he
    have hmem : (leafIdx l, sh l) ∈ shares p msk.s ω := by rw [hsh]; exact List.mem_map.2 ⟨l, hlp, rfl⟩
    have hin : l.1 ∈ L.map Prod.fst := by rw [← expOf_isSome, he]; rfl
    have hdm : l.1 ∈ sk.du.map (·.name) := by
      have := hk.complete _ hmem (by simp only [hrem l hlp, hst]; exact hin)
      simpa only [hrem l hlp, hst] using this
    obtain ⟨d, hdmem, hdf, hdn⟩ := exists_find? (fun y : Attribute F Gt => y.name) sk.du l.1 hdm
    obtain ⟨x, hx, e', he', hne, rfl⟩ := hk.sound d hdmem
    rw [hsh] at hx
    obtain ⟨l', hl', rfl⟩ := List.mem_map.1 hx
    simp only [hrem l' hl'] at hdn hdf he'
    obtain rfl := leaf_unique hlp hl' hu hdn hc1
    rw [hst] at he' hdf
    rw [he] at he'
    obtain rfl := Option.some.inj he'
    have hkey : leafKey l' = (l'.1, leafIdx l') := rfl
    simp only [decryptStep, hkey, h1, Ciphertext.getPublic, SecretKey.getPrivate, hyf, hdf, hnode, Node.public,
      Node.private, Res.unwrapOption_some, Res.ok_bind, Res.unwrap_ok, Res.ok.injEq]
    congr 1
    match_scalars
    field_simp
  simp only [decrypt, hk.policy, Res.ok_bind, hc.names, calcPruned_eq attrs p hw, hsat, if_true,
    calcCoefficients_eq, Res.unwrapOption_some, List.nil_append]
  rw [foldR_sum _ _ _ hstep, Res.ok_bind]
  congr 1
  have h1 : ((pick attrs p).map fun l => (cf l * sh l * k)).sum = msk.s * k := by
    rw [one_mul] at hsum
    rw [← hsum]
    clear * -
    induction pick attrs p with
    | nil => simp
    | cons x xs ih => simp only [List.map_cons, List.sum_cons, ih]; ring
  simp only [zero_add, sum_map_smul, h1, hs.gs]
  module

end Yct14
end Rabe
