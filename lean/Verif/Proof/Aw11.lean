import Verif.Model.Aw11
import Verif.Proof.KpCommon
import Verif.Proof.Msp
import Mathlib.Data.List.Nodup

/-!
# AW11: correctness of decryption
-/

set_option linter.unusedSectionVars false
set_option linter.unnecessarySeqFocus false

namespace Rabe

/-! ## Upper case -/

theorem CaseMap.upper_nil (cm : CaseMap) : cm.upper [] = [] := rfl

theorem CaseMap.upper_append (cm : CaseMap) (a b : Str) : cm.upper (a ++ b) = cm.upper a ++ cm.upper b := by
  simp [CaseMap.upper]

theorem CaseMap.upper_idem (cm : CaseMap) (s : Str) : cm.upper (cm.upper s) = cm.upper s := by
  simp only [CaseMap.upper, List.flatMap_assoc]
  congr 1
  funext c
  exact cm.idem c

theorem natStr_digits (n : ℕ) : ∀ c ∈ natStr n, c.isDigit = true := fun _ hc => Nat.isDigit_of_mem_toDigits (by decide) (by decide) hc

theorem CaseMap.upper_natStr (cm : CaseMap) (n : ℕ) : cm.upper (natStr n) = natStr n := by
  have h := natStr_digits n
  unfold CaseMap.upper
  generalize natStr n = s at h
  induction s with
  | nil => rfl
  | cons c s ih =>
    rw [List.flatMap_cons, cm.digit c (h c (by simp)), ih fun d hd => h d (by simp [hd])]
    rfl

/-- The label of a leaf in upper case is the label of the name in upper case. -/
theorem CaseMap.upper_nodeIndex (cm : CaseMap) (n : Str) (c : ℕ) : cm.upper (nodeIndex n c) = nodeIndex (cm.upper n) c := by
  have h : cm.upper ('_' :: natStr c) = '_' :: natStr c := by
    have := cm.upper_natStr c
    simp only [CaseMap.upper, List.flatMap_cons, cm.underscore] at this ⊢
    rw [this]
    rfl
  rw [nodeIndex, CaseMap.upper_append, h, nodeIndex]

theorem CaseMap.no_underscore (cm : CaseMap) {n : Str} (h : '_' ∉ n) : '_' ∉ cm.upper n := by
  intro hc
  obtain ⟨c, hc, hu⟩ := List.mem_flatMap.1 hc
  exact h (cm.only_underscore c hu ▸ hc)

/-- Lookup in a list of optional entries. -/
theorem find?_filterMap {α β : Type} (xs : List α) (f : α → Option β) (q : β → Bool) (x : α) (v : β) (hx : x ∈ xs)
    (hv : f x = some v) (hqv : q v = true) (hu : ∀ y ∈ xs, ∀ w, f y = some w → q w = true → y = x) :
    (xs.filterMap f).find? q = some v := by
  induction xs with
  | nil => simp at hx
  | cons y ys ih =>
    by_cases hy : y = x
    · subst hy
      rw [List.filterMap_cons_some hv, List.find?_cons, hqv]
    · have hx' : x ∈ ys := by
        rcases List.mem_cons.1 hx with h | h
        · exact absurd h.symm hy
        · exact h
      have ih' := ih hx' fun z hz => hu z (by simp [hz])
      cases hf : f y with
      | none => rw [List.filterMap_cons_none hf]; exact ih'
      | some w =>
        rw [List.filterMap_cons_some hf, List.find?_cons]
        have : q w = false := by
          cases hq : q w
          · rfl
          · exact absurd (hu y (by simp) w hf hq) hy
        rw [this]
        exact ih'

namespace Aw11

variable {F G1 G2 Gt : Type} [Field F] [DecidableEq F] [AddCommGroup G1] [Module F G1]
  [AddCommGroup G2] [Module F G2] [AddCommGroup Gt] [Module F Gt]

/-- The public and the secret part of one attribute belong together. -/
structure Matching (env : Env F G1 G2 Gt) (gk : GlobalKey G1 G2) (x : PubAttr G2 Gt × MskAttr F) : Prop where
  name : x.2.name = x.1.name
  e : x.1.e = x.2.alpha • env.pair gk.g1 gk.g2
  y : x.1.y = x.2.y • gk.g2

/-- What `authgen` returns: a list of matching pairs whose names are the given names in upper case. -/
theorem authgen_ok {cm : CaseMap} {env : Env F G1 G2 Gt} {gk attrs t pk msk t'}
    (h : authgen cm env gk attrs t = .ok (some (pk, msk), t')) :
    attrs ≠ [] ∧ ∃ L : List (PubAttr G2 Gt × MskAttr F), pk.attr = L.map (·.1) ∧ msk.attr = L.map (·.2) ∧
      L.map (·.1.name) = attrs.map cm.upper ∧ ∀ x ∈ L, Matching env gk x := by
  unfold authgen at h
  split at h
  · simp at h
  · rename_i hne
    simp only [RM.bind_ok, RM.pure_ok, Option.some.injEq, Prod.mk.injEq] at h
    obtain ⟨L, t1, hL, ⟨rfl, rfl⟩, _⟩ := h
    have h2 := RM.mapL_ok hL
    have h3 : List.Forall₂ (fun a (x : PubAttr G2 Gt × MskAttr F) => x.1.name = cm.upper a ∧ Matching env gk x) attrs L := by
      refine h2.imp ?_
      rintro a x ⟨s, s', hx⟩
      simp only [authgenAttr, RM.bind_ok, RM.genFr, RM.pure_ok, Res.ok.injEq, Prod.mk.injEq] at hx
      obtain ⟨al, u1, ⟨rfl, rfl⟩, y, u2, ⟨rfl, rfl⟩, rfl, _⟩ := hx
      exact ⟨rfl, rfl, rfl, rfl⟩
    refine ⟨by rintro rfl; simp at hne, L, rfl, rfl, Forall₂.map_eq h3 fun x y h => h.1, ?_⟩
    intro x hx
    obtain ⟨a, _, h⟩ := Forall₂.mem_right h3 x hx
    exact h.2

/-- Components issued by the attributes in `L`, each for its own identity (given by `id`). -/
def Comps (env : Env F G1 G2 Gt) (gk : GlobalKey G1 G2) (L : List (PubAttr G2 Gt × MskAttr F)) (id : Str → Prop)
    (attr : List (Str × G1)) : Prop :=
  ∀ c ∈ attr, ∃ x ∈ L, ∃ g, id g ∧ c = (x.1.name, x.2.alpha • gk.g1 + x.2.y • env.hash g • gk.g1)

theorem addToAttribute_ok {cm : CaseMap} {env : Env F G1 G2 Gt} {gk : GlobalKey G1 G2} {L : List (PubAttr G2 Gt × MskAttr F)}
    (hL : ∀ x ∈ L, Matching env gk x) (hup : ∀ x ∈ L, cm.upper x.1.name = x.1.name)
    {msk : MasterKey F} (hm : ∀ a ∈ msk.attr, ∃ x ∈ L, x.2 = a) {attr : Str} {sk sk' : SecretKey G1}
    (h : addToAttribute cm env gk msk attr sk = .ok sk') :
    attr ≠ [] ∧ sk.gid ≠ [] ∧ ∃ x ∈ L, x.1.name = attr ∧ x.2 ∈ msk.attr ∧
      sk' = ⟨sk.gid, sk.attr ++ [(attr, x.2.alpha • gk.g1 + x.2.y • env.hash sk.gid • gk.g1)]⟩ := by
  unfold addToAttribute at h
  split at h
  · simp at h
  · rename_i h1
    split at h
    · simp at h
    · rename_i h2
      refine ⟨by rintro rfl; simp at h1, by intro hc; rw [hc] at h2; simp at h2, ?_⟩
      simp only [Res.bind_eq_ok, Res.ok.injEq] at h
      obtain ⟨a, ha, rfl⟩ := h
      cases hf : msk.attr.find? fun a => a.name == attr with
      | none => rw [hf] at ha; simp at ha
      | some b =>
        rw [hf] at ha
        obtain rfl := Res.ok.inj ha
        have hb : b.name = attr := by simpa using List.find?_some hf
        obtain ⟨x, hx, rfl⟩ := hm b (List.mem_of_find?_eq_some hf)
        have hn : x.1.name = attr := by rw [← hb, (hL x hx).name]
        refine ⟨x, hx, hn, List.mem_of_find?_eq_some hf, ?_⟩
        have : cm.upper x.2.name = attr := by rw [(hL x hx).name, hup x hx, hn]
        rw [this]
        rfl

theorem findPkAttr_some {attr : Str} : ∀ {pks : List (PublicKey G2 Gt)} {a}, findPkAttr attr pks = some a →
    a.name = attr ∧ ∃ pk ∈ pks, a ∈ pk.attr := by
  intro pks
  induction pks with
  | nil => intro a h; simp [findPkAttr] at h
  | cons pk pks ih =>
    intro a h
    simp only [findPkAttr] at h
    cases hf : pk.attr.find? fun a => a.name == attr with
    | none =>
      rw [hf] at h
      obtain ⟨h1, pk', h2, h3⟩ := ih h
      exact ⟨h1, pk', by simp [h2], h3⟩
    | some b =>
      rw [hf] at h
      obtain rfl := Option.some.inj h
      exact ⟨by simpa using List.find?_some hf, pk, by simp, List.mem_of_find?_eq_some hf⟩

theorem findPkAttr_exists {attr : Str} : ∀ {pks : List (PublicKey G2 Gt)},
    (∃ pk ∈ pks, attr ∈ pk.attr.map (·.name)) → ∃ a, findPkAttr attr pks = some a := by
  intro pks
  induction pks with
  | nil => simp
  | cons pk pks ih =>
    rintro ⟨pk', hpk, ha⟩
    simp only [findPkAttr]
    cases hf : pk.attr.find? fun a => a.name == attr with
    | some b => exact ⟨b, rfl⟩
    | none =>
      rcases List.mem_cons.1 hpk with rfl | hpk
      · obtain ⟨x, _, hx, _⟩ := exists_find? (·.name) pk'.attr attr ha
        rw [hf] at hx
        simp at hx
      · exact ih ⟨pk', hpk, ha⟩

/-- The ciphertext is an encryption of `msg` under the tree `p`: shares of `s` given by `ω`, shares of zero given by
`ω'`; leaves without public key are missing. -/
structure IsCt (cm : CaseMap) (env : Env F G1 G2 Gt) (gk : GlobalKey G1 G2) (pks : List (PublicKey G2 Gt)) (p : Pol)
    (ct : Ciphertext G2 Gt) (msg : Gt) (s : F) (ω ω' : ℕ → F) : Prop where
  policy : parse ct.policy.1 ct.policy.2 = .ok p.toValue
  c0 : ct.c0 = msg + s • env.pair gk.g1 gk.g2
  c : ∃ C : List (Option (CtAttr G2 Gt)), ct.c = C.filterMap id ∧
    List.Forall₂ (fun (x : (Str × F) × ℕ) (y : Option (CtAttr G2 Gt)) =>
      (findPkAttr (removeIndex (cm.upper x.1.1)) pks = none ∧ y = none) ∨
      ∃ (a : PubAttr G2 Gt) (r : F) (w : Str × F), findPkAttr (removeIndex (cm.upper x.1.1)) pks = some a ∧ (shares p 0 ω')[x.2]? = some w ∧
        y = some ⟨cm.upper x.1.1, x.1.2 • env.pair gk.g1 gk.g2 + r • a.e, r • gk.g2, r • a.y + w.2 • gk.g2⟩)
      (shares p s ω).zipIdx C

theorem encrypt_ok {cm : CaseMap} {env : Env F G1 G2 Gt} {gk : GlobalKey G1 G2} {pks policy lang pt t ct t'} {p : Pol}
    (hp : parse policy lang = .ok p.toValue)
    (h : encrypt cm env gk pks policy lang pt t = .ok (ct, t')) :
    p.Binary ∧ ∃ msg s ω ω', IsCt cm env gk pks p ct msg s ω ω' ∧ decryptSymmetric env msg ct.ct = .ok pt := by
  simp only [encrypt, RM.bind_ok, RM.genFr, RM.genGt, RM.lift_ok_iff, RM.pure_ok, hp, Res.ok.injEq,
    Prod.mk.injEq, RM.liftFr] at h
  obtain ⟨v, t0, ⟨rfl, rfl⟩, msp, t1, ⟨hm, rfl⟩, r0, t2, ⟨hr0, rfl⟩, s, t3, ⟨rfl, rfl⟩, sh, t4, hsh, shs, t5, ⟨hu, rfl⟩,
    wh, t6, hwh, whs, t7, ⟨hw, rfl⟩, msg, t8, ⟨rfl, rfl⟩, C, t9, hC, data, t10, hd, rfl, _⟩ := h
  rw [genSharesPolicy_eq] at hsh
  simp only [Res.ok.injEq, Prod.mk.injEq] at hsh
  obtain ⟨rfl, rfl⟩ := hsh
  rw [genSharesPolicy_eq] at hwh
  simp only [Res.ok.injEq, Prod.mk.injEq] at hwh
  obtain ⟨rfl, rfl⟩ := hwh
  simp only [Res.unwrapOption_some, Res.ok.injEq] at hu hw
  subst hu hw
  refine ⟨?_, _, _, dropS 1 t2.fr, dropS (draws p) (dropS 1 t2.fr), ⟨hp, rfl, C, rfl, ?_⟩, encryptSymmetric_ok hd⟩
  · by_contra hb
    simp [calculateMsp, lw_panic p hb ⟨[], [], 1⟩ [1] none (Nat.le_refl 1)] at hm
  · refine (RM.mapL_ok hC).imp ?_
    rintro x y ⟨u, u', hx⟩
    simp only [encShare, RM.bind_ok, RM.genFr, Res.ok.injEq, Prod.mk.injEq] at hx
    obtain ⟨r, u1, ⟨rfl, rfl⟩, hx⟩ := hx
    cases hf : findPkAttr (removeIndex (cm.upper x.1.1)) pks with
    | none =>
      rw [hf] at hx
      simp only [RM.pure_ok] at hx
      exact Or.inl ⟨rfl, hx.1⟩
    | some a =>
      rw [hf] at hx
      simp only [RM.bind_ok, RM.lift_ok_iff, RM.pure_ok, Res.index] at hx
      obtain ⟨w, u2, ⟨hw, rfl⟩, rfl, _⟩ := hx
      refine Or.inr ⟨a, _, w, rfl, ?_, rfl⟩
      generalize (shares p (0 : F) (dropS (draws p) (dropS 1 t2.fr)))[x.2]? = o at hw
      cases o with
      | none => simp at hw
      | some w' => rw [Res.ok.inj hw]

theorem foldR_sum' {M : Type} [AddCommGroup M] (step : M → Str × Str → Res M)
    (x : Str × ℕ → M) (L : List (Str × ℕ))
    (h : ∀ l ∈ L, ∀ acc, step acc (leafKey l) = .ok (acc + x l)) :
    ∀ acc, Res.foldR step acc (L.map leafKey) = .ok (acc + (L.map x).sum) := by
  induction L with
  | nil => intro acc; simp [Res.foldR]
  | cons l L ih =>
    intro acc
    rw [List.map_cons]
    simp only [Res.foldR, Res.rbind_eq]
    rw [h l (by simp), Res.ok_bind, ih fun l hl => h l (by simp [hl])]
    simp [add_assoc]

/-- Decryption with components issued for arbitrary identities: the session element is shifted by one term per used
component, which vanishes when the component was issued for the identity of the key. -/
theorem decrypt_ok [BigChar F] {cm : CaseMap} {env : Env F G1 G2 Gt} {gk : GlobalKey G1 G2}
    {L : List (PubAttr G2 Gt × MskAttr F)} (hL : ∀ x ∈ L, Matching env gk x) (hnd : (L.map (·.1.name)).Nodup)
    {pks : List (PublicKey G2 Gt)} (hpks : ∀ pk ∈ pks, ∀ a ∈ pk.attr, ∃ x ∈ L, x.1 = a)
    {p : Pol} {ct : Ciphertext G2 Gt} {msg s ω ω'} (hc : IsCt cm env gk pks p ct msg s ω ω')
    {id : Str → Prop} {sk : SecretKey G1} (hk : Comps env gk L id sk.attr)
    (hsat : p.sat (sk.attr.map (·.1)) = true) (hw : p.Wide) (hf : p.Fits)
    (hn : p.leaves.Nodup) (hu : ∀ l ∈ p.leaves, l.1 ∈ sk.attr.map (·.1) → '_' ∉ l.1)
    (hup : ∀ l ∈ p.leaves, cm.upper l.1 = l.1)
    (hcov : ∀ l ∈ p.leaves, l.1 ∈ sk.attr.map (·.1) → ∃ pk ∈ pks, l.1 ∈ pk.attr.map (·.name))
    (hne : sk.attr ≠ []) :
    ∃ (δ : Str × ℕ → F) (g : Str × ℕ → Str), (∀ l ∈ pick (sk.attr.map (·.1)) p, id (g l)) ∧
      decrypt env gk sk ct = decryptSymmetric env (msg + -(((pick (sk.attr.map (·.1)) p).map fun l =>
        δ l * (env.hash sk.gid - env.hash (g l))).sum • env.pair gk.g1 gk.g2)) ct.ct := by
  set attrs := sk.attr.map (·.1) with hattrs
  have hne' : attrs ≠ [] := by simpa [hattrs] using hne
  obtain ⟨sh, hsh, hshv⟩ := shares_fun hn s ω
  obtain ⟨wh, hwh, hwhv⟩ := shares_fun hn (0 : F) ω'
  obtain ⟨cf, hcf, hcfv⟩ := coeffs_fun hn (1 : F)
  have hsum := reconstruct attrs sh cf p hf hsat 1 s ω hshv hcfv (Wide.reach _ _ hw)
  have hsum0 := reconstruct attrs wh cf p hf hsat 1 0 ω' hwhv hcfv (Wide.reach _ _ hw)
  obtain ⟨C, hCc, hC⟩ := hc.c
  -- entries as a function of the leaf
  have hz : (shares p s ω).zipIdx = p.leaves.zipIdx.map fun l => ((leafIdx l.1, sh l.1), l.2) := by
    rw [hsh, List.zipIdx_map]
    rfl
  rw [hz, List.forall₂_map_left_iff] at hC
  have hC' := Forall₂.with_mem hC
  have hC2 : List.Forall₂ (fun (l : Str × ℕ) (y : Option (CtAttr G2 Gt)) =>
      (findPkAttr (removeIndex (leafIdx l)) pks = none ∧ y = none) ∨
      ∃ (a : PubAttr G2 Gt) (r : F), findPkAttr (removeIndex (leafIdx l)) pks = some a ∧ y = some ⟨leafIdx l, sh l • env.pair gk.g1 gk.g2 + r • a.e, r • gk.g2,
        r • a.y + wh l • gk.g2⟩) (p.leaves.zipIdx.map Prod.fst) C := by
    rw [List.forall₂_map_left_iff]
    refine hC'.imp ?_
    rintro ⟨l, i⟩ y ⟨hmem, h⟩
    have hli := List.mem_zipIdx_iff_getElem?.1 hmem
    have hlm : l ∈ p.leaves := List.mem_of_getElem? hli
    have h1 : cm.upper (leafIdx l) = leafIdx l := by
      rw [leafIdx, CaseMap.upper_nodeIndex, hup l hlm]
    simp only [h1] at h
    rcases h with h | ⟨a, r, w, ha, hw', hy⟩
    · exact Or.inl h
    · refine Or.inr ⟨a, r, ha, ?_⟩
      rw [hwh, List.getElem?_map] at hw'
      simp only at hli hw'
      rw [hli] at hw'
      simp only [Option.map_some, Option.some.injEq] at hw'
      rw [← hw'] at hy
      exact hy
  rw [show p.leaves.zipIdx.map Prod.fst = p.leaves from List.zipIdx_map_fst 0 _] at hC2
  have : Inhabited (Option (CtAttr G2 Gt)) := ⟨none⟩
  obtain ⟨cd, hcd⟩ := exists_map_eq (β := Option (CtAttr G2 Gt)) hn hC2.length_eq.symm
  rw [← hcd, List.forall₂_map_right_iff, List.forall₂_same] at hC2
  have hctc : ct.c = p.leaves.filterMap cd := by
    rw [hCc, ← hcd, List.filterMap_map]
    rfl
  -- the matched attribute of an owned leaf
  have hleaf : ∀ l : Str × ℕ, ∃ (r : F) (x : PubAttr G2 Gt × MskAttr F) (g : Str), l ∈ pick attrs p →
      id g ∧ Matching env gk x ∧
      cd l = some ⟨leafIdx l, sh l • env.pair gk.g1 gk.g2 + r • x.1.e, r • gk.g2, r • x.1.y + wh l • gk.g2⟩ ∧
      sk.attr.find? (fun a => a.1 == l.1) = some (l.1, x.2.alpha • gk.g1 + x.2.y • env.hash g • gk.g1) := by
    intro l
    by_cases hl : l ∈ pick attrs p
    · have hlp : l ∈ p.leaves := (pick_sublist attrs p).subset hl
      have hown := pick_owned attrs p l hl
      obtain ⟨k, hk1, hk2, hk3⟩ := exists_find? (·.1) sk.attr l.1 hown
      obtain ⟨x, hx, g, hg, hkx⟩ := hk k hk1
      have hxn : x.1.name = l.1 := by rw [← hk3, hkx]
      have hC3 := hC2 l hlp
      rw [show removeIndex (leafIdx l) = l.1 from removeIndex_nodeIndex _ (hu l hlp hown)] at hC3
      rcases hC3 with ⟨h1, _⟩ | ⟨a, r, ha, hy⟩
      · obtain ⟨a, ha⟩ := findPkAttr_exists (hcov l hlp hown)
        rw [h1] at ha
        simp at ha
      · obtain ⟨hb1, pk, hpk, hapk⟩ := findPkAttr_some ha
        obtain ⟨z, hz, rfl⟩ := hpks pk hpk a hapk
        have hzx : z = x := List.inj_on_of_nodup_map hnd hz hx (by rw [hb1, hxn])
        subst hzx
        refine ⟨r, z, g, fun _ => ⟨hg, hL z hz, hy, ?_⟩⟩
        rw [hk2, hkx, hb1]
    · exact ⟨0, ⟨⟨[], 0, 0⟩, ⟨[], 0, 0⟩⟩, [], fun h => absurd h hl⟩
  choose r x g hleaf using hleaf
  refine ⟨fun l => cf l * r l * (x l).2.y, g, fun l hl => (hleaf l hl).1, ?_⟩
  have hstep : ∀ l ∈ pick attrs p, ∀ acc, decryptStep env (env.sha3Hash gk.g1 sk.gid) sk ct (coeffs p 1) acc (leafKey l) =
      .ok (acc + (cf l * sh l + env.hash sk.gid * (cf l * wh l) +
        cf l * r l * (x l).2.y * (env.hash sk.gid - env.hash (g l))) • env.pair gk.g1 gk.g2) := by
    intro l hl acc
    have hlp : l ∈ p.leaves := (pick_sublist attrs p).subset hl
    obtain ⟨_, hM, h3, h2⟩ := hleaf l hl
    have h1 : (coeffs p (1 : F)).find? (fun c => c.1 == leafIdx l) = some (leafIdx l, cf l) := by
      rw [hcf]
      exact find?_map_inj _ _ _ _ hlp fun y _ => by
        simp only [beq_iff_eq]; exact ⟨leafIdx_inj, fun h => h ▸ rfl⟩
    have h4 : ct.c.find? (fun c => c.name == leafIdx l) = some ⟨leafIdx l, sh l • env.pair gk.g1 gk.g2 +
        r l • (x l).1.e, r l • gk.g2, r l • (x l).1.y + wh l • gk.g2⟩ := by
      rw [hctc]
      refine find?_filterMap _ _ _ l _ hlp h3 (by simp) ?_
      intro y hy w hw' hq
      rcases hC2 y hy with ⟨_, h⟩ | ⟨a, r', _, h⟩
      · rw [h] at hw'; simp at hw'
      · rw [h] at hw'
        obtain rfl := Option.some.inj hw'
        exact leafIdx_inj (by simpa using hq)
    have hkey : leafKey l = (l.1, leafIdx l) := rfl
    simp only [decryptStep, hkey, h1, h2, h4, Res.unwrapOption_some, Res.ok_bind, Res.ok.injEq, hM.e, hM.y,
      Env.sha3Hash, map_smul, map_add, LinearMap.smul_apply, LinearMap.add_apply]
    module
  simp only [decrypt, hc.policy, Res.ok_bind, ← hattrs, traverse_eq_sat attrs hne', hsat,
    calcPruned_eq attrs p hw, calcCoefficients_eq, Res.unwrapOption_some]
  simp only [Bool.true_eq_false, if_false, if_true, List.nil_append]
  rw [foldR_sum' _ _ _ hstep, Res.ok_bind, sum_map_smul]
  have hs3 : ∀ (a b c : Str × ℕ → F) (M : List (Str × ℕ)), (M.map fun l => a l + env.hash sk.gid * b l + c l).sum =
      (M.map a).sum + env.hash sk.gid * (M.map b).sum + (M.map c).sum := by
    intro a b c M
    induction M with
    | nil => simp
    | cons y ys ih => simp only [List.map_cons, List.sum_cons, ih]; ring
  rw [hs3, hsum, hsum0, hc.c0]
  congr 1
  module

/-! ## Histories of key requests -/

/-- What an authority keeps: the attributes it was set up with, its public and its master key. -/
structure Authority (F G2 Gt : Type) where
  names : List Str
  pk : PublicKey G2 Gt
  msk : MasterKey F

/-- The keys of the authority come from `authgen`. -/
def Authority.Genuine (cm : CaseMap) (env : Env F G1 G2 Gt) (gk : GlobalKey G1 G2) (a : Authority F G2 Gt) : Prop :=
  ∃ t t', authgen cm env gk a.names t = .ok (some (a.pk, a.msk), t')

/-- Keys a user can hold after any number of requests to the authorities: `keygen` starts a key, `add_to_attribute`
extends it. -/
inductive Issued (cm : CaseMap) (env : Env F G1 G2 Gt) (gk : GlobalKey G1 G2) (auths : List (Authority F G2 Gt)) :
    SecretKey G1 → Prop
  | keygen {a gid attrs sk} : a ∈ auths → keygen cm env gk a.msk gid attrs = .ok sk → Issued cm env gk auths sk
  | add {a sk attr sk'} : Issued cm env gk auths sk → a ∈ auths → addToAttribute cm env gk a.msk attr sk = .ok sk' →
      Issued cm env gk auths sk'

/-- All attributes of all authorities. -/
theorem authorities_ok {cm : CaseMap} {env : Env F G1 G2 Gt} {gk : GlobalKey G1 G2} {auths : List (Authority F G2 Gt)}
    (h : ∀ a ∈ auths, a.Genuine cm env gk) :
    ∃ L : List (PubAttr G2 Gt × MskAttr F), (∀ x ∈ L, Matching env gk x) ∧
      L.map (·.1.name) = auths.flatMap (fun a => a.names.map cm.upper) ∧
      ∀ a ∈ auths, (∀ x ∈ a.pk.attr, ∃ y ∈ L, y.1 = x) ∧ (∀ x ∈ a.msk.attr, ∃ y ∈ L, y.2 = x) ∧
        a.pk.attr.map (·.name) = a.names.map cm.upper ∧ a.msk.attr.map (·.name) = a.names.map cm.upper := by
  induction auths with
  | nil => exact ⟨[], by simp, by simp, by simp⟩
  | cons a auths ih =>
    obtain ⟨L, h1, h2, h3⟩ := ih fun b hb => h b (by simp [hb])
    obtain ⟨t, t', ha⟩ := h a (by simp)
    obtain ⟨_, M, hp, hm, hn, hM⟩ := authgen_ok ha
    refine ⟨M ++ L, ?_, by simp [hn, h2], ?_⟩
    · intro x hx
      rcases List.mem_append.1 hx with hx | hx
      · exact hM x hx
      · exact h1 x hx
    · intro b hb
      rcases List.mem_cons.1 hb with rfl | hb
      · refine ⟨?_, ?_, ?_, ?_⟩
        · intro x hx
          rw [hp] at hx
          obtain ⟨y, hy, rfl⟩ := List.mem_map.1 hx
          exact ⟨y, by simp [hy], rfl⟩
        · intro x hx
          rw [hm] at hx
          obtain ⟨y, hy, rfl⟩ := List.mem_map.1 hx
          exact ⟨y, by simp [hy], rfl⟩
        · rw [hp, ← hn, List.map_map]; rfl
        · rw [hm, ← hn, List.map_map]
          exact List.map_congr_left fun x hx => (hM x hx).name
      · obtain ⟨h4, h5, h6⟩ := h3 b hb
        refine ⟨fun x hx => ?_, fun x hx => ?_, h6⟩
        · obtain ⟨y, hy, e⟩ := h4 x hx
          exact ⟨y, by simp [hy], e⟩
        · obtain ⟨y, hy, e⟩ := h5 x hx
          exact ⟨y, by simp [hy], e⟩

theorem foldR_inv {α β : Type} {f : β → α → Res β} (I : β → Prop) {xs : List α} :
    ∀ {b b'}, (∀ b x b', x ∈ xs → I b → f b x = .ok b' → I b') → I b → Res.foldR f b xs = .ok b' → I b' := by
  induction xs with
  | nil => intro b b' _ hb h; simp only [Res.foldR, Res.ok.injEq] at h; exact h ▸ hb
  | cons x xs ih =>
    intro b b' hs hb h
    simp only [Res.foldR, Res.rbind_eq, Res.bind_eq_ok] at h
    obtain ⟨c, hc, h⟩ := h
    exact ih (fun b x b' hx => hs b x b' (by simp [hx])) (hs b x c (by simp) hb hc) h

/-- Every key a user can hold has an identity, at least one component, and its components are those the owners of the
attributes would issue for that identity. -/
theorem issued_ok {cm : CaseMap} {env : Env F G1 G2 Gt} {gk : GlobalKey G1 G2} {auths : List (Authority F G2 Gt)}
    {L : List (PubAttr G2 Gt × MskAttr F)} (hL : ∀ x ∈ L, Matching env gk x)
    (hup : ∀ x ∈ L, cm.upper x.1.name = x.1.name)
    (ha : ∀ a ∈ auths, ∀ x ∈ a.msk.attr, ∃ y ∈ L, y.2 = x) {sk : SecretKey G1} (h : Issued cm env gk auths sk) :
    sk.gid ≠ [] ∧ sk.attr ≠ [] ∧ Comps env gk L (· = sk.gid) sk.attr := by
  have hadd : ∀ a ∈ auths, ∀ (attr : Str) (s s' : SecretKey G1), Comps env gk L (· = s.gid) s.attr →
      addToAttribute cm env gk a.msk attr s = .ok s' →
      s'.gid = s.gid ∧ s'.attr ≠ [] ∧ Comps env gk L (· = s'.gid) s'.attr := by
    intro a haa attr s s' hs h
    obtain ⟨_, _, x, hx, hn, _, rfl⟩ := addToAttribute_ok hL hup (ha a haa) h
    refine ⟨rfl, by simp, ?_⟩
    intro c hc
    rcases List.mem_append.1 hc with hc | hc
    · exact hs c hc
    · obtain rfl := List.mem_singleton.1 hc
      exact ⟨x, hx, s.gid, rfl, by rw [hn]⟩
  induction h with
  | @keygen a gid attrs sk haa h =>
    unfold Aw11.keygen at h
    split at h
    · simp at h
    · rename_i hne
      split at h
      · simp at h
      · rename_i hg
        have hg' : gid ≠ [] := by rintro rfl; simp at hg
        cases attrs with
        | nil => simp at hne
        | cons at0 ats =>
          simp only [Res.foldR, Res.rbind_eq, Res.bind_eq_ok] at h
          obtain ⟨s1, h1, h2⟩ := h
          obtain ⟨e1, e2, e3⟩ := hadd a haa at0 ⟨gid, []⟩ s1 (by intro c hc; simp at hc) h1
          refine foldR_inv (fun s : SecretKey G1 => s.gid ≠ [] ∧ s.attr ≠ [] ∧ Comps env gk L (· = s.gid) s.attr) ?_
            ⟨by rw [e1]; exact hg', e2, e3⟩ h2
          rintro b x b' _ ⟨f1, f2, f3⟩ hb
          obtain ⟨g1, g2, g3⟩ := hadd a haa x b b' f3 hb
          exact ⟨by rw [g1]; exact f1, g2, g3⟩
  | @add a sk attr sk' hi haa h ih =>
    obtain ⟨f1, f2, f3⟩ := ih
    obtain ⟨g1, g2, g3⟩ := hadd a haa attr sk sk' f3 h
    exact ⟨by rw [g1]; exact f1, g2, g3⟩

end Aw11
end Rabe
