import Verif.Props.Collusion
import Verif.Props.Outsider
import Verif.Proof.Privacy

/-!
# C80: what one YCT14 key opens
-/

set_option linter.unusedSectionVars false
set_option linter.unnecessarySeqFocus false

namespace Rabe

variable {F G1 G2 Gt : Type} [Field F] [DecidableEq F] [AddCommGroup G1] [Module F G1]
  [AddCommGroup G2] [Module F G2] [AddCommGroup Gt] [Module F Gt]

namespace Yct14

/-! ## An attribute that occurs twice -/

/-- What the owner of a key for `(A and B) or (A and C)` computes from a ciphertext for `B`, `C`. -/
def steal (sk : SecretKey F Gt) (ct : Ciphertext F Gt) : Gt :=
  match sk.du, ct.attributes with
  | [⟨_, some (.priv a)⟩, ⟨_, some (.priv b)⟩, ⟨_, some (.priv a')⟩, ⟨_, some (.priv c)⟩],
      [⟨_, some (.pub x)⟩, ⟨_, some (.pub y)⟩] => (a - a')⁻¹ • ((a' * b) • x - (a * c) • y)
  | _, _ => 0

/-- **C80 is violated**: the owner of one key for `(A and B) or (A and C)` reads a message for the attributes `B`, `C`,
which do not satisfy the policy and which `decrypt` refuses. The only condition is that the two random numbers of the
key differ. -/
theorem C80_violated (env : Env F G1 G2 Gt) (uni : List Str) (t₁ t₁' : Tape F G1 G2 Gt)
    (pk : PublicKey F Gt) (msk : MasterKey F Gt) (hsetup : setup uni t₁ = .ok ((pk, msk), t₁'))
    (A B C : Str) (hA : '_' ∉ A) (hB : '_' ∉ B) (hC : '_' ∉ C) (hAB : A ≠ B) (hAC : A ≠ C)
    (hAu : A ∈ uni) (hBu : B ∈ uni) (hCu : C ∈ uni) (text : Str) (lang : PolicyLanguage) (i j k l : ℕ)
    (hp : Denotes text lang (.gate .or [.gate .and [.leaf A i, .leaf B j], .gate .and [.leaf A k, .leaf C l]]))
    (t₂ t₂' : Tape F G1 G2 Gt) (sk : SecretKey F Gt) (hkey : keygen msk text lang t₂ = .ok (sk, t₂'))
    (hrand : t₂.fr 0 ≠ t₂.fr 1) (plaintext : Bytes) (t₃ t₃' : Tape F G1 G2 Gt) (ct : Ciphertext F Gt)
    (henc : encrypt env pk [B, C] plaintext t₃ = .ok (ct, t₃')) :
    decrypt env sk ct = .err ∧ decryptSymmetric env (steal sk ct) ct.ct = .ok plaintext := by
  obtain ⟨g, L, hs⟩ := setup_ok hsetup
  obtain ⟨-, hpol⟩ := keygen_ok hs hp hkey
  obtain ⟨c, hc, hd⟩ := encrypt_ok hs henc
  have hsat : (Pol.gate .or [.gate .and [.leaf A i, .leaf B j], .gate .and [.leaf A k, .leaf C l]]).sat [B, C] = false := by
    simp [hAB, hAC]
  refine ⟨C37_yct14_refuses env sk ct _ (by rw [hpol]; exact hp) (by simp [Pol.Wide]) (by rw [hc.names]; exact hsat), ?_⟩
  obtain ⟨x, hx⟩ := Option.isSome_iff_exists.1 ((expOf_isSome L A).2 (by rw [hs.names]; exact hAu))
  obtain ⟨y, hy⟩ := Option.isSome_iff_exists.1 ((expOf_isSome L B).2 (by rw [hs.names]; exact hBu))
  obtain ⟨z, hz⟩ := Option.isSome_iff_exists.1 ((expOf_isSome L C).2 (by rw [hs.names]; exact hCu))
  have key : x ≠ 0 ∧ y ≠ 0 ∧ z ≠ 0 ∧ sk.du = [⟨A, some (.priv ((msk.s + t₂.fr 0) * x⁻¹))⟩,
        ⟨B, some (.priv ((msk.s + t₂.fr 0 * 2) * y⁻¹))⟩, ⟨A, some (.priv ((msk.s + t₂.fr 1) * x⁻¹))⟩,
        ⟨C, some (.priv ((msk.s + t₂.fr 1 * 2) * z⁻¹))⟩] := by
    have h := hkey
    have hp' : parse text lang = .ok (Pol.gate .or [.gate .and [.leaf A i, .leaf B j],
      .gate .and [.leaf A k, .leaf C l]]).toValue := hp
    have hsh : shares (.gate .or [.gate .and [.leaf A i, .leaf B j], .gate .and [.leaf A k, .leaf C l]]) msk.s t₂.fr =
        [(nodeIndex A i, msk.s + t₂.fr 0), (nodeIndex B j, msk.s + t₂.fr 0 * 2),
          (nodeIndex A k, msk.s + t₂.fr 1), (nodeIndex C l, msk.s + t₂.fr 1 * 2)] := by
      simp [shares, shareVals, shareValsL, gateShare, thr, polynomial, polynomialFrom, leafIdx, List.range_succ,
        one_add_one_eq_two, draws, drawsL, dropS]
    simp only [keygen, RM.bind_ok, RM.lift_ok_iff, hp', Res.ok.injEq, RM.liftFr] at h
    obtain ⟨pv, u1, ⟨rfl, rfl⟩, sh, u2, hu, h⟩ := h
    rw [genSharesPolicy_eq] at hu
    simp only [Res.ok.injEq, Prod.mk.injEq] at hu
    obtain ⟨rfl, rfl⟩ := hu
    simp only [RM.bind_ok, RM.pure_ok, RM.lift_ok_iff] at h
    obtain ⟨du, u3, ⟨hdu, _⟩, rfl, _⟩ := h
    rw [hsh] at hdu
    simp only [Res.mapR, Res.rbind_eq, keygenShare_eq hs, removeIndex_nodeIndex _ hA, removeIndex_nodeIndex _ hB,
      removeIndex_nodeIndex _ hC, hx, hy, hz] at hdu
    by_cases hx0 : x = 0
    · simp [hx0] at hdu
    by_cases hy0 : y = 0
    · simp [hx0, hy0] at hdu
    by_cases hz0 : z = 0
    · simp [hx0, hy0, hz0] at hdu
    simp [hx0, hy0, hz0] at hdu
    exact ⟨hx0, hy0, hz0, by simp [← hdu]⟩
  obtain ⟨hx0, hy0, hz0, hdu⟩ := key
  have hct : ct.attributes = [⟨B, some (.pub (c • y • g))⟩, ⟨C, some (.pub (c • z • g))⟩] := by
    have hn := hc.names
    have hm := hc.nodes
    match hl : ct.attributes with
    | [⟨n, e⟩, ⟨n', e'⟩] =>
      rw [hl] at hn hm
      simp only [List.map_cons, List.map_nil, List.cons.injEq, and_true] at hn
      obtain ⟨rfl, rfl⟩ := hn
      obtain ⟨v, h1, h2⟩ := hm ⟨n, e⟩ (by simp)
      obtain ⟨v', h1', h2'⟩ := hm ⟨n', e'⟩ (by simp)
      simp only [hy, hz, Option.some.injEq] at h1 h1' h2 h2'
      subst h1 h1' h2 h2'
      rfl
    | [] | [_] | _ :: _ :: _ :: _ => simp [hl] at hn
  have hval : steal sk ct = c • pk.g := by
    rw [steal, hdu, hct, hs.gs]
    have hne : t₂.fr 0 - t₂.fr 1 ≠ 0 := sub_ne_zero.2 hrand
    simp only [smul_smul, ← sub_smul]
    congr 1
    have e : (msk.s + t₂.fr 0) * x⁻¹ - (msk.s + t₂.fr 1) * x⁻¹ = (t₂.fr 0 - t₂.fr 1) * x⁻¹ := by ring
    rw [e, inv_mul_eq_iff_eq_mul₀ (mul_ne_zero hne (inv_ne_zero hx0))]
    field_simp
    ring
  rw [hval]
  exact hd

/-- The owner of a key for `("A" and "B") or ("A" and "C")` reads a message for `B`, `C`. -/
example : (do
    let x ← setup [['A'], ['B'], ['C']] toyTape
    let u ← keygen x.1.2 (chars% "(\"A\" and \"B\") or (\"A\" and \"C\")") .human { toyTape with fr := fun n => n + 2 }
    let z ← encrypt toyEnv x.1.1 [['B'], ['C']] [1, 2, 3] { toyTape with fr := fun _ => 3 }
    Res.ok (decrypt toyEnv u.1 z.1, decryptSymmetric toyEnv (steal u.1 z.1) z.1.ct)) =
    .ok (.err, .ok [1, 2, 3]) := by decide +kernel

end Yct14

/-! ## Shares are linear in the secret and the random numbers -/

theorem gateShare_lin (op : Op) (n : ℕ) (c σ τ : F) (ω δ : ℕ → F) (i : ℕ) :
    gateShare op n (σ + c * τ) (fun j => ω j + c * δ j) i = gateShare op n σ ω i + c * gateShare op n τ δ i := by
  have h : ∀ (x : F) (L : List F), polynomial (L.map (c * ·)) x = c * polynomial L x := by
    intro x L
    induction L with
    | nil => simp [polynomial, polynomialFrom]
    | cons l L ih => simp only [List.map_cons, polynomial_cons, ih]; ring
  have e := gateShare_add op n σ (c * τ) ω (fun j => c * δ j) i
  have e' : gateShare op n (c * τ) (fun j => c * δ j) i = c * gateShare op n τ δ i := by
    simp only [gateShare]
    rw [← h]
    simp [Function.comp_def]
  rw [← e', ← e]
  rfl

theorem shareVals_lin (c : F) : ∀ (p : Pol) (σ τ : F) (ω δ : ℕ → F),
    shareVals p (σ + c * τ) (fun i => ω i + c * δ i) =
      List.zipWith (fun a b => a + c * b) (shareVals p σ ω) (shareVals p τ δ) := by
  intro p
  induction p using Pol.ind with
  | hl n i => intros; simp [shareVals]
  | hg op cs ih =>
    intro σ τ ω δ
    simp only [shareVals]
    have hq : gateShare op cs.length (σ + c * τ) (fun j => ω j + c * δ j) =
        fun i => gateShare op cs.length σ ω i + c * gateShare op cs.length τ δ i := by
      funext i; exact gateShare_lin op _ c σ τ ω δ i
    rw [hq]
    have key : ∀ cs : List Pol, (∀ p ∈ cs, ∀ (σ τ : F) (ω δ : ℕ → F),
        shareVals p (σ + c * τ) (fun i => ω i + c * δ i) =
          List.zipWith (fun a b => a + c * b) (shareVals p σ ω) (shareVals p τ δ)) →
        ∀ (q r : ℕ → F) (k : ℕ) (ω δ : ℕ → F),
        shareValsL cs (fun i => q i + c * r i) k (fun i => ω i + c * δ i) =
          List.zipWith (fun a b => a + c * b) (shareValsL cs q k ω) (shareValsL cs r k δ) := by
      intro cs
      induction cs with
      | nil => intros; simp [shareValsL]
      | cons p cs ihc =>
        intro ih q r k ω δ
        simp only [shareValsL]
        rw [ih p (by simp), List.zipWith_append (by simp [shareVals_length])]
        congr 1
        exact ihc (fun p hp => ih p (by simp [hp])) q r (k + 1) (dropS (draws p) ω) (dropS (draws p) δ)
    exact key cs ih _ _ 0 (dropS _ ω) (dropS _ δ)

namespace Yct14

/-- The share of the leaf with the name `n`. -/
def shareOf (p : Pol) (σ : F) (ω : ℕ → F) (n : Str) : F := (shareVals p σ ω).getD (p.names.idxOf n) 0

theorem shareOf_lin (p : Pol) (c σ τ : F) (ω δ : ℕ → F) (n : Str) :
    shareOf p (σ + c * τ) (fun i => ω i + c * δ i) n = shareOf p σ ω n + c * shareOf p τ δ n := by
  simp only [shareOf, shareVals_lin, List.getD_eq_getElem?_getD, List.getElem?_zipWith]
  have h1 := shareVals_length p σ ω
  have h2 := shareVals_length p τ δ
  by_cases h : p.names.idxOf n < p.leaves.length
  · rw [List.getElem?_eq_getElem (by omega), List.getElem?_eq_getElem (by omega)]
    simp
  · rw [List.getElem?_eq_none (by omega), List.getElem?_eq_none (by omega)]
    simp

theorem zip_shareVals (p : Pol) (hnd : p.names.Nodup) (σ : F) (ω : ℕ → F) :
    p.names.zip (shareVals p σ ω) = p.names.map fun n => (n, shareOf p σ ω n) := by
  have hl : p.names.length = (shareVals p σ ω).length := by rw [shareVals_length]; simp [Pol.names]
  apply List.ext_getElem
  · simp [hl]
  · intro i h1 h2
    simp only [List.length_zip, List.length_map] at h1 h2
    simp only [List.getElem_zip, List.getElem_map, shareOf, hnd.idxOf_getElem]
    rw [List.getD_eq_getElem?_getD, List.getElem?_eq_getElem (by omega), Option.getD_some]

/-- The part of the key for the leaf named `n` with share `σ` if the exponent of the attribute is `x`. -/
def part (n : Str) (v : F) : Attribute F Gt := ⟨n, some (.priv v)⟩

theorem expOf_map (uni : List Str) (X : Str → F) (n : Str) :
    expOf (uni.map fun a => (a, X a)) n = if n ∈ uni then some (X n) else none := by
  rw [expOf]
  induction uni with
  | nil => simp
  | cons a l ih =>
    simp only [List.map_cons, List.find?_cons, List.mem_cons]
    by_cases h : a = n
    · simp [h]
    · have : (a == n) = false := by simpa using h
      simp only [this, ih, Ne.symm h, false_or]

theorem parts_aux {uni : List Str} {pk : PublicKey F Gt} {msk : MasterKey F Gt} {g : Gt} {X : Str → F}
    (hs : IsSetup uni pk msk g (uni.map fun a => (a, X a))) : ∀ (ls : List (Str × ℕ)) (vs : List F)
    (du : List (Option (Attribute F Gt))), (∀ l ∈ ls, '_' ∉ l.1) → ls.length = vs.length →
    Res.mapR (keygenShare msk) ((ls.map leafIdx).zip vs) = .ok du →
    du.filterMap id = (((ls.map Prod.fst).zip vs).filter (fun x => decide (x.1 ∈ uni))).map
      (fun x => part x.1 (x.2 * (X x.1)⁻¹)) ∧ ∀ n ∈ ls.map Prod.fst, n ∈ uni → X n ≠ 0
  | [], vs, du, _, _, h => by
    simp only [List.map_nil, List.zip_nil_left, Res.mapR, Res.ok.injEq] at h
    subst h
    simp
  | l :: ls, [], du, _, hl, _ => by simp at hl
  | l :: ls, v :: vs, du, hu, hl, h => by
    simp only [List.map_cons, List.zip_cons_cons, Res.mapR, Res.rbind_eq, Res.bind_eq_ok, Res.ok.injEq] at h
    obtain ⟨a, ha, as, has, rfl⟩ := h
    obtain ⟨ih1, ih2⟩ := parts_aux hs ls vs as (fun l hl => hu l (by simp [hl])) (by simpa using hl) has
    have hr : removeIndex (leafIdx l) = l.1 := removeIndex_nodeIndex l.2 (hu l (by simp))
    rw [keygenShare_eq hs, expOf_map] at ha
    simp only [hr] at ha
    by_cases hm : l.1 ∈ uni
    · simp only [hm, if_true] at ha
      by_cases hx : X l.1 = 0
      · simp [hx] at ha
      · simp only [hx, if_false, Res.ok.injEq] at ha
        subst ha
        refine ⟨?_, ?_⟩
        · simp only [List.filterMap_cons, id, List.map_cons, List.zip_cons_cons, hm, decide_true, List.filter_cons_of_pos, part]
          exact congrArg _ ih1
        · intro n hn hnu
          simp only [List.map_cons, List.mem_cons] at hn
          rcases hn with rfl | hn
          · exact hx
          · exact ih2 n hn hnu
    · simp only [hm, if_false, Res.ok.injEq] at ha
      subst ha
      refine ⟨?_, ?_⟩
      · simp only [List.filterMap_cons, id, List.map_cons, List.zip_cons_cons, hm, decide_false]
        rw [List.filter_cons_of_neg (by simp [hm])]
        exact ih1
      · intro n hn hnu
        simp only [List.map_cons, List.mem_cons] at hn
        rcases hn with rfl | hn
        · exact absurd hnu hm
        · exact ih2 n hn hnu

theorem keygen_parts {uni : List Str} {pk : PublicKey F Gt} {msk : MasterKey F Gt} {g : Gt} {X : Str → F}
    (hs : IsSetup uni pk msk g (uni.map fun a => (a, X a))) {policy lang} {t : Tape F G1 G2 Gt} {sk t'} {p : Pol}
    (hp : parse policy lang = .ok p.toValue) (hnd : p.names.Nodup) (hu : ∀ n ∈ p.names, '_' ∉ n)
    (h : keygen msk policy lang t = .ok (sk, t')) :
    sk = ⟨(policy, lang), (p.names.filter (· ∈ uni)).map fun n => part n (shareOf p msk.s t.fr n * (X n)⁻¹)⟩ ∧
      ∀ n ∈ p.names, n ∈ uni → X n ≠ 0 := by
  simp only [keygen, RM.bind_ok, RM.lift_ok_iff, hp, Res.ok.injEq, RM.liftFr] at h
  obtain ⟨pv, t1, ⟨rfl, rfl⟩, sh, t2, hsh, h⟩ := h
  rw [genSharesPolicy_eq] at hsh
  simp only [Res.ok.injEq, Prod.mk.injEq] at hsh
  obtain ⟨rfl, rfl⟩ := hsh
  simp only [RM.bind_ok, RM.pure_ok, RM.lift_ok_iff] at h
  obtain ⟨du, t3, ⟨hdu, _⟩, rfl, _⟩ := h
  obtain ⟨h1, h2⟩ := parts_aux hs p.leaves (shareVals p msk.s _) du
    (fun l hl => hu _ (List.mem_map_of_mem hl)) (shareVals_length _ _ _).symm hdu
  refine ⟨?_, h2⟩
  rw [h1]
  change (⟨_, ((p.names.zip _).filter _).map _⟩ : SecretKey F Gt) = _
  rw [zip_shareVals p hnd, List.filter_map, List.map_map]
  rfl

/-- The tape whose first scalars are `v`. -/
def _root_.Rabe.Tape.setFrs (t : Tape F G1 G2 Gt) {n : ℕ} (v : Fin n → F) : Tape F G1 G2 Gt :=
  { t with fr := fun i => if h : i < n then v ⟨i, h⟩ else t.fr i }

/-- The exponents that `setup` draws: the one of the attribute at position `i` is number `i + 1`. -/
theorem setup_exps {uni : List Str} {t : Tape F G1 G2 Gt} {pk msk t'} (hnd : uni.Nodup)
    (h : setup uni t = .ok ((pk, msk), t')) :
    msk.s = t.fr 0 ∧ IsSetup uni pk msk (t.gt 0) (uni.map fun a => (a, t.fr (uni.idxOf a + 1))) := by
  simp only [setup, RM.bind_ok, RM.genGt, RM.genFr, RM.pure_ok, Res.ok.injEq, Prod.mk.injEq] at h
  obtain ⟨s, t1, ⟨rfl, rfl⟩, g, t2, ⟨rfl, rfl⟩, pairs, t3, hp, ⟨rfl, rfl⟩, _⟩ := h
  have key : ∀ (l : List Str) (u u' : Tape F G1 G2 Gt) (ps : List (Attribute F Gt × Attribute F Gt)), l.Nodup →
      RM.mapL (Attribute.new (t.gt 0)) l u = .ok (ps, u') →
      ps = l.map fun a => (⟨a, some (.pub (u.fr (l.idxOf a) • t.gt 0))⟩, ⟨a, some (.priv (u.fr (l.idxOf a)))⟩) := by
    intro l
    induction l with
    | nil =>
      intro u u' ps _ h
      simp only [RM.mapL, RM.rpure_eq, RM.pure_ok, Prod.mk.injEq] at h
      simp [h.1]
    | cons a l ih =>
      intro u u' ps hnd h
      simp only [RM.mapL, RM.rbind_eq, RM.rpure_eq, RM.bind_ok, Attribute.new, RM.genFr, RM.pure_ok, Res.ok.injEq, Prod.mk.injEq] at h
      obtain ⟨_, u1, ⟨_, _, ⟨rfl, rfl⟩, rfl, rfl⟩, qs, u2, hq, rfl, _⟩ := h
      have := ih _ _ _ (List.nodup_cons.1 hnd).2 hq
      subst this
      have hn := (List.nodup_cons.1 hnd).1
      simp only [List.map_cons, List.idxOf_cons_self, List.cons.injEq, true_and]
      refine List.map_congr_left fun b hb => ?_
      have : a ≠ b := fun e => hn (e ▸ hb)
      simp [List.idxOf_cons_ne _ this, dropS, Nat.add_comm]
  have := key _ _ _ _ hnd hp
  subst this
  refine ⟨rfl, ⟨by simp [Function.comp_def], rfl, ?_, ?_⟩⟩ <;> simp [Function.comp_def, dropS, Nat.add_comm]

theorem ct_elems {uni : List Str} {pk : PublicKey F Gt} {msk : MasterKey F Gt} {g : Gt} {X : Str → F}
    (hs : IsSetup uni pk msk g (uni.map fun a => (a, X a))) {env : Env F G1 G2 Gt} {attrs pt t ct t'}
    (h : encrypt env pk attrs pt t = .ok (ct, t')) :
    attrElems ct.attributes = attrs.map fun a => (t.fr 0 * X a) • g := by
  unfold encrypt at h
  split at h
  · simp at h
  rename_i hne
  split at h
  · simp at h
  simp only [RM.bind_ok, RM.genFr, RM.lift_ok_iff, RM.pure_ok, Res.ok.injEq, Prod.mk.injEq] at h
  obtain ⟨k, t1, ⟨rfl, rfl⟩, as, t2, ⟨has, rfl⟩, c, t3, hc, rfl, _⟩ := h
  have hf := mapR_ok has
  clear has hc hne
  induction hf with
  | nil => rfl
  | @cons a y l ys hy _ ih =>
    rw [publicFrom_eq hs, expOf_map] at hy
    by_cases hm : a ∈ uni
    · simp only [hm, if_true, Res.ok.injEq] at hy
      subst hy
      have : attrElems ys = _ := ih
      simp only [attrElems] at this ⊢
      simp only [List.filterMap_cons, this, List.map_cons, mul_smul]
    · simp [hm] at hy

theorem pk_elems {uni : List Str} {pk : PublicKey F Gt} {msk : MasterKey F Gt} {g : Gt} {X : Str → F}
    (hs : IsSetup uni pk msk g (uni.map fun a => (a, X a))) : attrElems pk.attributes = uni.map fun a => X a • g := by
  rw [attrElems, hs.pub, List.map_map]
  induction uni with
  | nil => rfl
  | cons a l ih => simp [Function.comp_def]

/-- The computation that the owner of the key chooses from the whole key finds the session element. The first components
of `x` are the random numbers of `setup` (master secret, then the exponents of the attributes), the second ones
those of `keygen`, the last one is that of `encrypt`. Keys with a component zero are left out. -/
def OpenedWithKey (env : Env F G1 G2 Gt) (adv : SecretKey F Gt → Formula F) (uni : List Str) (t : Tape F G1 G2 Gt)
    (text : Str) (lang : PolicyLanguage) (u : Tape F G1 G2 Gt) (job : KpJob F G1 G2 Gt) (extra : View G1 G2 Gt) (m : ℕ)
    (x : (Fin (uni.length + 1) → F) × (Fin m → F) × F) : Prop :=
  ∃ pk msk t' sk u' ct w, setup uni (t.setFrs x.1) = .ok ((pk, msk), t') ∧
    keygen msk text lang (u.setFrs x.2.1) = .ok (sk, u') ∧ (∀ a ∈ sk.du, a.node ≠ some (.priv 0)) ∧
    encrypt env pk job.attrs job.plain (job.tape.setFr 0 x.2.2) = .ok (ct, w) ∧
    (adv sk).eval env (View.all [extra, pk.seen, ct.seen]) = x.2.2 • pk.g

theorem weigh_scalars (f : ℕ → F) (g : Gt) (y : Str → F) : ∀ (n : ℕ) (l : List Str),
    weigh f n (l.map fun a => y a • g) = weigh f n (l.map y) • g
  | _, [] => by simp [weigh]
  | n, a :: l => by
    simp only [List.map_cons, weigh, weigh_scalars f g y (n + 1) l, smul_eq_mul]
    module

theorem weigh_lin (f : ℕ → F) (y z : Str → F) (c : F) : ∀ (n : ℕ) (l : List Str),
    weigh f n (l.map fun a => y a + c * z a) = weigh f n (l.map y) + c * weigh f n (l.map z)
  | _, [] => by simp [weigh]
  | n, a :: l => by
    simp only [List.map_cons, weigh, weigh_lin f y z c (n + 1) l, smul_eq_mul]
    ring

/-- The exponents of the attributes, from the key components `e` and the shares. -/
def exps (p : Pol) (uni : List Str) (e : Fin uni.length → F) (s : F) (ω : ℕ → F) (a : Str) : F :=
  if h : uni.idxOf a < uni.length then
    if a ∈ p.names then shareOf p s ω a / e ⟨_, h⟩ else e ⟨_, h⟩
  else 0

/-- The random numbers that belong to the key components `e`, the translated random numbers `r` of the shares, the
random number `k` of the encryption and the master secret `s`. -/
def fromParts (p : Pol) (uni : List Str) (u : Tape F G1 G2 Gt) (δ : ℕ → F)
    (y : ((Fin uni.length → F) × (Fin (draws p) → F)) × F × F) :
    (Fin (uni.length + 1) → F) × (Fin (draws p) → F) × F :=
  (fun i => if h : i.val = 0 then y.2.2 else exps p uni y.1.1 y.2.2 (fun j => (u.setFrs y.1.2).fr j + y.2.2 * δ j)
      (uni[i.val - 1]'(by omega)), fun i => y.1.2 i + y.2.2 * δ i, y.2.1)

/-- The key with the components `e`. -/
def keyOf (p : Pol) (uni : List Str) (text : Str) (lang : PolicyLanguage) (e : Fin uni.length → F) : SecretKey F Gt :=
  ⟨(text, lang), (p.names.filter (· ∈ uni)).map fun n =>
    part n (if h : uni.idxOf n < uni.length then e ⟨_, h⟩ else 0)⟩

/-- How fast the exponents of the attributes change with the master secret. -/
def speed (p : Pol) (uni : List Str) (e : Fin uni.length → F) (δ : ℕ → F) (a : Str) : F :=
  if h : uni.idxOf a < uni.length then
    if a ∈ p.names then shareOf p 1 δ a / e ⟨_, h⟩ else 0
  else 0

theorem exps_speed (p : Pol) (uni : List Str) (e : Fin uni.length → F) (ω δ : ℕ → F) (s : F) (a : Str) :
    exps p uni e s (fun j => ω j + s * δ j) a = exps p uni e 0 ω a + s * speed p uni e δ a := by
  have h := shareOf_lin p s 0 1 ω δ a
  rw [zero_add, mul_one] at h
  simp only [exps, speed]
  split
  · split
    · rw [h]; ring
    · ring
  · ring

theorem shareOf_zero (p : Pol) (n : Str) : shareOf p (0 : F) (fun _ => 0) n = 0 := by
  have h := shareOf_lin p (1 : F) 0 0 (fun _ => 0) (fun _ => 0) n
  simpa using h

theorem shareOf_congr (p : Pol) (s : F) {ω ω' : ℕ → F} (h : ∀ i < draws p, ω i = ω' i) (n : Str) :
    shareOf p s ω n = shareOf p s ω' n := by
  rw [shareOf, shareOf, shareVals_congr p s h]

/-- What a successful run with random numbers `x` is like. -/
theorem opened_run {env : Env F G1 G2 Gt} {adv : SecretKey F Gt → Formula F}
    {uni : List Str} (hnd : uni.Nodup) {t : Tape F G1 G2 Gt} {text : Str} {lang : PolicyLanguage}
    {p : Pol} (hp : Denotes text lang p) (hnames : p.names.Nodup) (hu : ∀ n ∈ p.names, '_' ∉ n)
    {u : Tape F G1 G2 Gt} {job : KpJob F G1 G2 Gt} {extra : View G1 G2 Gt} {m : ℕ}
    {x : (Fin (uni.length + 1) → F) × (Fin m → F) × F}
    (h : OpenedWithKey env adv uni t text lang u job extra m x) (X : Str → F)
    (hX : ∀ a ∈ uni, X a = (t.setFrs x.1).fr (uni.idxOf a + 1)) :
    (∀ n ∈ p.names, n ∈ uni → X n ≠ 0 ∧ shareOf p (x.1 0) (u.setFrs x.2.1).fr n ≠ 0) ∧
    (adv ⟨(text, lang), (p.names.filter (· ∈ uni)).map fun n =>
        part n (shareOf p (x.1 0) (u.setFrs x.2.1).fr n * (X n)⁻¹)⟩).eval env
      ⟨extra.one, extra.two, extra.tgt ++ x.1 0 • t.gt 0 :: (uni.map (fun a => X a • t.gt 0) ++
        job.attrs.map fun a => (x.2.2 * X a) • t.gt 0)⟩ = x.2.2 • x.1 0 • t.gt 0 := by
  obtain ⟨pk, msk, t', sk, u', ct, w, hs, hk, hz, he, hv⟩ := h
  obtain ⟨hms, hset⟩ := setup_exps hnd hs
  have hms' : msk.s = x.1 0 := by rw [hms]; simp [Tape.setFrs]
  have hgt : (t.setFrs x.1).gt 0 = t.gt 0 := rfl
  have hmap : (uni.map fun a => (a, (t.setFrs x.1).fr (uni.idxOf a + 1))) = uni.map fun a => (a, X a) :=
    List.map_congr_left fun a ha => by rw [hX a ha]
  rw [hmap, hgt] at hset
  obtain ⟨hsk, hx0⟩ := keygen_parts hset hp hnames hu hk
  have hct := ct_elems hset he
  have hpk := pk_elems hset
  have hg := hset.gs
  rw [hms'] at hg hsk
  have hkk : (job.tape.setFr 0 x.2.2).fr 0 = x.2.2 := by simp [Tape.setFr]
  rw [hkk] at hct
  refine ⟨fun n hn hnu => ⟨hx0 n hn hnu, fun h0 => ?_⟩, ?_⟩
  · refine hz (part n (shareOf p (x.1 0) (u.setFrs x.2.1).fr n * (X n)⁻¹)) ?_ (by rw [h0, zero_mul]; rfl)
    rw [hsk]
    exact List.mem_map_of_mem (f := fun n => part n (shareOf p (x.1 0) (u.setFrs x.2.1).fr n * (X n)⁻¹))
      (List.mem_filter.2 ⟨hn, by simpa using hnu⟩)
  · rw [← hsk, ← hg, ← hv]
    congr 1
    simp [View.all, View.join, PublicKey.seen, Ciphertext.seen, hct, hpk]

open Classical in
/-- **C80.** If no attribute occurs twice in the policy of the key and the attributes of the ciphertext do not satisfy
it, then for every way to choose a computation from the key: over all random numbers of `setup`, `keygen` and `encrypt`,
the fraction for which the key has no component zero and the computation gives the session element is at most `2 / q`.
Missing: policies in which an attribute occurs twice, for which the claim is false (`C80_violated`). -/
theorem C80_one_key_partial [BigChar F] [Fintype F] (env : Env F G1 G2 Gt) (adv : SecretKey F Gt → Formula F)
    (uni : List Str) (hnd : uni.Nodup) (t : Tape F G1 G2 Gt) (hg : t.gt 0 ≠ 0) (text : Str) (lang : PolicyLanguage)
    (p : Pol) (hp : Denotes text lang p) (hl : text.length < 2 ^ 64) (hnames : p.names.Nodup)
    (hu : ∀ n ∈ p.names, '_' ∉ n) (u : Tape F G1 G2 Gt) (job : KpJob F G1 G2 Gt) (hsat : p.sat job.attrs = false)
    (extra : View G1 G2 Gt) :
    (Finset.univ.filter (OpenedWithKey env adv uni t text lang u job extra (draws p))).card ≤
      2 * Fintype.card F ^ (uni.length + draws p + 1) := by
  have hf : p.Fits := by
    obtain ⟨q, hq, hf, _⟩ := parse_ok hp
    rw [toValue_inj _ _ hq]; exact hf hl
  obtain ⟨δ, hδ⟩ := hides (F := F) job.attrs p hf hsat 1
  have hw : ∀ n ∈ p.names, n ∈ job.attrs → shareOf p 1 δ n = (0 : F) := by
    intro n hn ha
    have hi := List.idxOf_lt_length_of_mem hn
    have hi' : p.names.idxOf n < p.leaves.length := by simpa [Pol.names] using hi
    have hle : p.leaves[p.names.idxOf n].1 = n := by
      have : p.names[p.names.idxOf n] = n := List.getElem_idxOf hi
      refine Eq.trans ?_ this
      simp only [Pol.names, List.getElem_map]
    have := hδ 0 (fun _ => 0) (p.names.idxOf n) p.leaves[p.names.idxOf n] (List.getElem?_eq_getElem hi') (by rw [hle]; exact ha)
    have h0 := shareOf_zero (F := F) p n
    have hz : (fun _ => (0 : F)) + δ = δ := by funext i; simp
    rw [zero_add, hz] at this
    rw [shareOf, List.getD_eq_getElem?_getD] at h0 ⊢
    rw [← this, h0]
  let S := Finset.univ.filter (OpenedWithKey env adv uni t text lang u job extra (draws p))
  let S' := Finset.univ.filter fun y => fromParts p uni u δ y ∈ S
  have h1 : S.card ≤ S'.card := by
    refine Finset.card_le_card_of_surjOn (fromParts p uni u δ) ?_
    rintro ⟨v, r, k⟩ hx
    have hx' : OpenedWithKey env adv uni t text lang u job extra (draws p) (v, r, k) := by
      simpa [S] using hx
    obtain ⟨hne, -⟩ := opened_run hnd hp hnames hu hx' (fun a => (t.setFrs v).fr (uni.idxOf a + 1)) (fun a _ => rfl)
    let ω := (u.setFrs r).fr
    let y : ((Fin uni.length → F) × (Fin (draws p) → F)) × F × F :=
      ((fun j => if uni[j] ∈ p.names then shareOf p (v 0) ω uni[j] / v j.succ else v j.succ,
        fun i => r i - v 0 * δ i), k, v 0)
    have hy : fromParts p uni u δ y = (v, r, k) := by
      have hω : ∀ i < draws p, (fun j => (u.setFrs y.1.2).fr j + y.2.2 * δ j) i = ω i := by
        intro i hi
        simp [y, ω, Tape.setFrs, hi]
      simp only [fromParts, Prod.mk.injEq]
      refine ⟨?_, ?_, rfl⟩
      · funext i
        refine Fin.cases ?_ (fun j => ?_) i
        · simp [y]
        · simp only [Fin.val_succ, Nat.add_one_ne_zero, dif_neg, not_false_eq_true, Nat.add_sub_cancel]
          have hidx : uni.idxOf uni[j.val] = j.val := hnd.idxOf_getElem _ _
          simp only [exps, hidx, j.isLt, dif_pos, shareOf_congr p y.2.2 hω]
          by_cases hm : uni[j.val] ∈ p.names
          · obtain ⟨hX, hσ⟩ := hne _ hm (List.getElem_mem _)
            have hX' : v j.succ ≠ 0 := by
              rw [hidx] at hX
              simpa [Tape.setFrs, Fin.succ] using hX
            have hσ' : shareOf p (v 0) ω uni[j.val] ≠ 0 := hσ
            simp only [hm, if_true, y, Fin.getElem_fin]
            rw [div_div_cancel₀ hσ']
          · simp [hm, y]
      · funext i
        simp [y]
    refine ⟨y, ?_, hy⟩
    simp only [S', Finset.coe_filter, Finset.mem_univ, true_and, Set.mem_ofPred_eq, hy]
    exact hx
  have h2 : S'.card ≤ Fintype.card ((Fin uni.length → F) × (Fin (draws p) → F)) * (2 * Fintype.card F) := by
    apply card_fibres
    rintro ⟨e, r⟩
    let f := (adv (keyOf p uni text lang e)).tgt
    refine count_one _ _ hg (f extra.tgt.length + weigh f (extra.tgt.length + 1) (uni.map (speed p uni e δ))) ?_
    have run : ∀ k s, ((e, r), k, s) ∈ S' →
        (adv (keyOf p uni text lang e)).eval env ⟨extra.one, extra.two, extra.tgt ++ s • t.gt 0 ::
          (uni.map (fun a => (exps p uni e 0 (u.setFrs r).fr a + s * speed p uni e δ a) • t.gt 0) ++
          job.attrs.map fun a => (k * exps p uni e 0 (u.setFrs r).fr a) • t.gt 0)⟩ = k • s • t.gt 0 := by
      intro k s hks
      simp only [S', S, Finset.mem_filter, Finset.mem_univ, true_and] at hks
      have hω : ∀ i < draws p, (u.setFrs (fromParts p uni u δ ((e, r), k, s)).2.1).fr i =
          (u.setFrs r).fr i + s * δ i := by
        intro i hi
        simp [fromParts, Tape.setFrs, hi]
      have h0 : (fromParts p uni u δ ((e, r), k, s)).1 0 = s := by simp [fromParts]
      obtain ⟨hne, hv⟩ := opened_run hnd hp hnames hu hks
        (fun a => exps p uni e 0 (u.setFrs r).fr a + s * speed p uni e δ a) (by
          intro a ha
          have hi := List.idxOf_lt_length_of_mem ha
          simp only [Tape.setFrs, fromParts, Nat.add_lt_add_iff_right, hi, dif_pos, Nat.add_one_ne_zero, dif_neg,
            not_false_eq_true, Nat.add_sub_cancel, List.getElem_idxOf]
          exact (exps_speed p uni e _ δ s a).symm)
      rw [h0] at hne hv
      have hkey : (⟨(text, lang), (p.names.filter (· ∈ uni)).map fun n => part n
          (shareOf p s (u.setFrs (fromParts p uni u δ ((e, r), k, s)).2.1).fr n *
            (exps p uni e 0 (u.setFrs r).fr n + s * speed p uni e δ n)⁻¹)⟩ : SecretKey F Gt) =
          keyOf p uni text lang e := by
        rw [keyOf]
        congr 1
        refine List.map_congr_left fun n hn => ?_
        obtain ⟨hn, hnu⟩ := List.mem_filter.1 hn
        have hnu : n ∈ uni := by simpa using hnu
        have hi := List.idxOf_lt_length_of_mem hnu
        obtain ⟨hX, hσ⟩ := hne n hn hnu
        rw [← exps_speed] at hX ⊢
        rw [shareOf_congr p s hω] at hσ ⊢
        congr 1
        simp only [exps, hi, dif_pos, hn, if_true] at hX ⊢
        rw [inv_div, mul_div_cancel₀ _ hσ]
      rw [hkey] at hv
      rw [← show (fromParts p uni u δ ((e, r), k, s)).2.2 = k from rfl, ← hv]
      congr 5
      refine List.map_congr_left fun a ha => ?_
      congr 2
      have : speed p uni e δ a = 0 := by
        simp only [speed]
        split
        · split
          · rename_i hm
            rw [hw a hm ha, zero_div]
          · rfl
        · rfl
      rw [this, mul_zero, add_zero]
    intro k s s' h h'
    have e1 := run k s (by simpa using h)
    have e2 := run k s' (by simpa using h')
    simp only [Formula.eval, weigh_append, weigh, weigh_scalars, weigh_lin, List.length_map, zero_add] at e1 e2
    have e3 := congrArg₂ (· - ·) e2 e1
    rw [← sub_eq_zero] at e3
    refine Eq.trans ?_ e3
    simp only [f]
    module
  refine h1.trans (h2.trans (le_of_eq ?_))
  simp only [Fintype.card_prod, Fintype.card_fun, Fintype.card_fin]
  ring

/-- A policy without repeated attributes, attributes that do not satisfy it, and a computation, chosen from the key, that
opens the ciphertext for some random numbers. -/
example : Denotes (chars% "\"A\" and \"B\"") .human (.gate .and [.leaf ['A'] 2, .leaf ['B'] 10]) ∧
    (Pol.gate .and [.leaf ['A'] 2, .leaf ['B'] 10]).names.Nodup ∧
    (Pol.gate .and [.leaf ['A'] 2, .leaf ['B'] 10]).sat [['A']] = false ∧ toyTape.gt 0 ≠ 0 ∧
    draws (.gate .and [.leaf ['A'] 2, .leaf ['B'] 10]) = 1 ∧
    OpenedWithKey toyEnv (fun sk => ⟨fun _ _ => 0, fun i => if i = 0 then (sk.du.length : Fr) else 0⟩) [['A'], ['B']] toyTape
      (chars% "\"A\" and \"B\"") .human toyTape ⟨[['A']], [1, 2, 3], toyTape⟩ ⟨[], [], []⟩ 1
      (fun i => if i = 0 then 7 else 3, fun _ => 5, 2) := by
  refine ⟨rfl, by decide, by decide, by decide +kernel, rfl, ?_⟩
  have h : (setup [['A'], ['B']] (toyTape.setFrs (n := 3) fun i => if i = 0 then (7 : Fr) else 3)).check (fun x =>
      (keygen x.1.2 (chars% "\"A\" and \"B\"") .human (toyTape.setFrs (n := 1) fun _ => (5 : Fr))).check fun y =>
      (encrypt toyEnv x.1.1 [['A']] [1, 2, 3] (toyTape.setFr 0 2)).check fun z =>
      decide (∀ a ∈ y.1.du, a.node ≠ some (.priv 0)) && decide (Formula.eval toyEnv
        ⟨fun _ _ => 0, fun i => if i = 0 then (y.1.du.length : Fr) else 0⟩
        (View.all [⟨[], [], []⟩, x.1.1.seen, z.1.seen]) = (2 : Fr) • x.1.1.g)) = true := by
    decide +kernel
  simp only [Res.check_iff, Bool.and_eq_true, decide_eq_true_eq] at h
  obtain ⟨⟨⟨pk, msk⟩, t'⟩, h1, ⟨sk, u'⟩, h2, ⟨ct, w⟩, h3, h4, h5⟩ := h
  exact ⟨pk, msk, t', sk, u', ct, w, h1, h2, h4, h3, h5⟩

end Yct14
end Rabe
