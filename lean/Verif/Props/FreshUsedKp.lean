import Verif.Proof.Inject
import Verif.Proof.KpCommon
import Verif.Props.Fresh

/-!
# C70: every random value enters the output, LSW, YCT14 and AC17
-/

set_option linter.unusedSectionVars false

namespace Rabe

variable {F G1 G2 Gt : Type} [Field F] [DecidableEq F] [AddCommGroup G1] [Module F G1]
  [AddCommGroup G2] [Module F G2] [AddCommGroup Gt] [Module F Gt]

/-! ## LSW -/

/-- **C70, LSW.** -/
theorem Lsw.C70_setup_used (env : Env F G1 G2 Gt) : Shapes (Lsw.setup env) { fr := 3, g1 := 2, g2 := 2 } := by
  intro t u a t' u' h h'
  have e := out_eq h h' rfl rfl
  simp only [Prod.mk.injEq, Lsw.PublicKey.mk.injEq, Lsw.MasterKey.mk.injEq, dropS] at e
  obtain ⟨⟨e1, e2, _⟩, e3, e4, e5, e6, e7⟩ := e
  exact .mk' (all_lt_succ (n := 2) e3 (all_lt_two e4 e5)) (all_lt_two e1 e6) (all_lt_two e2 e7)

theorem Lsw.uses_keygenShare (env : Env F G1 G2 Gt) (pk : Lsw.PublicKey G1 G2 Gt) (msk : Lsw.MasterKey F G1 G2)
    (s : Str × F) : Uses (Lsw.keygenShare env pk msk s) { fr := 1 } := by
  unfold Lsw.keygenShare
  refine (Uses.genFr.bind (k := 0) fun _ => ((Uses.lift _).bind (k := 0) fun b => ?_).cast (by ext <;> simp)).cast
    (by ext <;> simp)
  cases b <;> exact Uses.pure _

/-- **C70, LSW.** -/
theorem Lsw.C70_keygen_used [BigChar F] (env : Env F G1 G2 Gt) (pk : Lsw.PublicKey G1 G2 Gt) (msk : Lsw.MasterKey F G1 G2)
    (h1 : pk.g1 ≠ 0) (h2 : pk.g2 ≠ 0) (hα : msk.alpha2 ≠ 0) (text : Str) (lang : PolicyLanguage) (p : Pol)
    (hp : Denotes text lang p) (hw : p.Wide) (hf : p.Fits) :
    Shapes (Lsw.keygen env pk msk text lang) { fr := draws p + p.leaves.length } := by
  intro t u a t' u' ht hu
  simp only [Lsw.keygen, RM.bind_ok, RM.lift_ok_iff, RM.liftFr, show parse text lang = _ from hp,
    Res.ok.injEq] at ht hu
  obtain ⟨_, t, ⟨rfl, rfl⟩, sh, _, hs, ht⟩ := ht
  obtain ⟨_, u, ⟨rfl, rfl⟩, zh, _, hz, hu⟩ := hu
  rw [genSharesPolicy_eq] at hs hz
  cases hs; cases hz
  simp only [RM.bind_ok, RM.pure_ok] at ht hu
  obtain ⟨L, _, hL, rfl, _⟩ := ht
  obtain ⟨L', _, hL', e, _⟩ := hu
  simp only [Lsw.SecretKey.mk.injEq, true_and] at e
  subst e
  obtain ⟨hS, hR⟩ := mapL_two (n := { fr := 1 }) (A := fun _ => True) (Lsw.uses_keygenShare env pk msk)
    (Lsw.uses_keygenShare env pk msk) (fun x y => x.2 = y.2) (by
      intro x y t u b t' u' _ _ h h'
      simp only [Lsw.keygenShare, RM.bind_ok, RM.genFr, RM.lift_ok_iff, Res.ok.injEq, Prod.mk.injEq] at h h'
      obtain ⟨_, _, ⟨rfl, rfl⟩, n, _, ⟨hn, rfl⟩, h⟩ := h
      obtain ⟨_, _, ⟨rfl, rfl⟩, n', _, ⟨hn', rfl⟩, h'⟩ := h'
      have hname : removeIndex x.1 = removeIndex y.1 := by
        have k1 : b.name = removeIndex x.1 := by
          cases n <;> simp only [Bool.false_eq_true, if_false, if_true, RM.pure_ok] at h <;> rw [h.1]
        have k2 : b.name = removeIndex y.1 := by
          cases n' <;> simp only [Bool.false_eq_true, if_false, if_true, RM.pure_ok] at h' <;> rw [h'.1]
        exact k1.symm.trans k2
      rw [hname, hn'] at hn
      cases hn
      rw [hname] at h
      cases n
      · simp only [Bool.false_eq_true, if_false, RM.pure_ok] at h h'
        obtain ⟨rfl, _⟩ := h
        obtain ⟨e, _⟩ := h'
        simp only [Lsw.KeyAttr.mk.injEq, true_and, and_true] at e
        obtain ⟨e1, e2⟩ := e
        have e2 := smul_left_inj h2 e2
        rw [e2] at e1
        exact ⟨.mk' (all_lt_one e2), mul_left_cancel₀ hα (smul_left_inj h1 (add_right_cancel e1))⟩
      · simp only [if_true, RM.pure_ok] at h h'
        obtain ⟨rfl, _⟩ := h
        obtain ⟨e, _⟩ := h'
        simp only [Lsw.KeyAttr.mk.injEq, true_and] at e
        obtain ⟨e1, _, e2⟩ := e
        have e2 := neg_injective (smul_left_inj h1 e2)
        rw [e2] at e1
        exact ⟨.mk' (all_lt_one e2), smul_left_inj h1 (add_right_cancel e1)⟩) _ _ _ _ _ _ _ (by simp) (by simp) hL hL'
  obtain ⟨-, b⟩ := shareVals_inj p hw hf (shares_vals (forall₂_map_eq (f := fun x : Str × F => x.2) (fun _ _ h => h) hR))
  have hlen : (shares p msk.alpha1 t.fr).length = p.leaves.length := by simp [shares, shareVals_length]
  exact .mk' (all_lt_add b fun i hi => (hS.fr i (by simpa [hlen] using hi)).symm)

/-- The values `sx` after the loop: all but the last random number are subtracted from the first entry. -/
theorem Lsw.sxLoop_eq : ∀ (n i : ℕ) (a l : F) (L : List F) (t : Tape F G1 G2 Gt), L.length + 1 = i →
    Lsw.sxLoop n i (a :: (L ++ [l])) t = .ok ((a - ((l :: (List.range n).map t.fr).take n).sum) ::
      (L ++ [l] ++ (List.range n).map t.fr), t.adv { fr := n })
  | 0, i, a, l, L, t, _ => by
    rw [show (a - ((l :: (List.range 0).map t.fr).take 0).sum) = a by simp, show t.adv { fr := 0 } = t from Tape.adv_zero t]
    simp [Lsw.sxLoop]
  | n + 1, i, a, l, L, t, hi => by
    have h0 : Res.index (a :: (L ++ [l]) ++ [t.fr 0]) 0 = .ok a := rfl
    have h1 : Res.index (a :: (L ++ [l]) ++ [t.fr 0]) i = .ok l := by
      subst hi
      simp [Res.index]
    rw [Lsw.sxLoop]
    simp only [RM.bind_apply, RM.genFr, h0, h1, RM.lift_ok]
    have := Lsw.sxLoop_eq n (i + 1) (a - l) (t.fr 0) (L ++ [l]) { t with fr := dropS 1 t.fr } (by simp; omega)
    rw [show (a :: (L ++ [l]) ++ [t.fr 0]).set 0 (a - l) = (a - l) :: (L ++ [l] ++ [t.fr 0]) from rfl, this]
    have hr : (List.range (n + 1)).map t.fr = t.fr 0 :: (List.range n).map (dropS 1 t.fr) := by
      rw [List.range_succ_eq_map, List.map_cons, List.map_map]
      congr 1
      apply List.map_congr_left
      intro i _
      simp [dropS, Nat.add_comm]
    rw [hr]
    simp [Tape.adv, dropS_add, Nat.add_comm, sub_sub]

/-- The values `sx` of an encryption for `n + 1` attributes: the first entry is minus the sum of the first `n` random
numbers, independent of the secret. -/
theorem Lsw.sx_eq (n : ℕ) (s : F) (t : Tape F G1 G2 Gt) : Lsw.sxLoop (n + 1) 0 [s] t =
    .ok (-((List.range n).map t.fr).sum :: (List.range (n + 1)).map t.fr, t.adv { fr := n + 1 }) := by
  have h0 : Res.index ([s] ++ [t.fr 0]) 0 = .ok s := rfl
  rw [Lsw.sxLoop]
  simp only [RM.bind_apply, RM.genFr, h0, RM.lift_ok]
  have := Lsw.sxLoop_eq n 1 (s - s) (t.fr 0) [] { t with fr := dropS 1 t.fr } rfl
  rw [show ([s] ++ [t.fr 0]).set 0 (s - s) = (s - s) :: ([] ++ [t.fr 0]) from rfl, this]
  have hr : t.fr 0 :: (List.range n).map (dropS 1 t.fr) = (List.range (n + 1)).map t.fr := by
    rw [List.range_succ_eq_map, List.map_cons, List.map_map]
    congr 1
    apply List.map_congr_left
    intro i _
    simp [dropS, Nat.add_comm]
  rw [List.nil_append, List.singleton_append, hr, ← List.map_take, List.take_range, Nat.min_eq_left (by omega)]
  simp [Tape.adv, dropS_add, Nat.add_comm]

theorem Lsw.encrypt_run (env : Env F G1 G2 Gt) (pk : Lsw.PublicKey G1 G2 Gt) (a : Str) (attrs : List Str) (m : Bytes)
    (t : Tape F G1 G2 Gt) {ct t'} (h : Lsw.encrypt env pk (a :: attrs) m t = .ok (ct, t')) :
    m ≠ [] ∧ ct.e1 = t.fr 0 • pk.eGgAlpha + t.gt 0 ∧ ct.e2 = t.fr 0 • pk.g2 ∧
    Res.mapR (Lsw.encAttr env pk (t.fr 0) (-((List.range attrs.length).map (dropS 1 t.fr)).sum ::
      (List.range (attrs.length + 1)).map (dropS 1 t.fr))) (a :: attrs).zipIdx = .ok ct.ej ∧
    encryptSymmetric env (t.gt 0) m (t.adv { fr := attrs.length + 2, gt := 1 }) = .ok (ct.ct, t') := by
  simp only [Lsw.encrypt] at h
  split at h
  · simp at h
  next hne =>
    simp only [RM.bind_ok, RM.genFr, RM.genGt, RM.lift_ok_iff, RM.pure_ok, Res.ok.injEq, Prod.mk.injEq, List.length_cons,
      Lsw.sx_eq] at h
    obtain ⟨_, _, ⟨rfl, rfl⟩, _, _, ⟨rfl, rfl⟩, ej, _, ⟨hej, rfl⟩, _, _, ⟨rfl, rfl⟩, c, _, hc, rfl, rfl⟩ := h
    refine ⟨by rintro rfl; simp at hne, by simp [Tape.adv], rfl, hej, ?_⟩
    simp only [Tape.adv, dropS_zero, dropS_add] at hc ⊢
    rw [show attrs.length + 2 = 1 + (attrs.length + 1) by omega]
    exact hc

/-- **C70, LSW, partial.** A ciphertext determines the secret, all further scalars but the last, the session element and
the nonce. (Full claim: all of them. The last scalar is not used, see `C70_violated_encrypt`.) -/
theorem Lsw.C70_encrypt_used_partial (env : Env F G1 G2 Gt) (pk : Lsw.PublicKey G1 G2 Gt) (h1 : pk.g1B ≠ 0) (h2 : pk.g2 ≠ 0)
    (attrs : List Str) (m : Bytes) : Shapes (Lsw.encrypt env pk attrs m) { fr := attrs.length, gt := 1, byte := 12 } := by
  intro t u c t' u' ht hu
  cases attrs with
  | nil => simp [Lsw.encrypt] at ht
  | cons a attrs =>
    obtain ⟨-, t1, t2, t3, t4⟩ := Lsw.encrypt_run env pk a attrs m t ht
    obtain ⟨-, u1, u2, u3, u4⟩ := Lsw.encrypt_run env pk a attrs m u hu
    have e2 := smul_left_inj h2 (t2.symm.trans u2)
    rw [t1, e2] at u1
    have e1 := add_left_cancel u1
    have hn := symmetric_nonce t4 u4
    have key : ∀ (ω : ℕ → F) (s : F), Res.mapR (Lsw.encAttr env pk s (-((List.range attrs.length).map ω).sum ::
        (List.range (attrs.length + 1)).map ω)) (a :: attrs).zipIdx = .ok c.ej →
        ∀ i < attrs.length, (c.ej[i + 1]?).map (·.e2) = some (ω i • pk.g1B) := by
      intro ω s h i hi
      have hf := mapR_ok h
      have hl : c.ej.length = attrs.length + 1 := by rw [← hf.length_eq]; simp
      have := (List.forall₂_iff_get.1 hf).2 (i + 1) (by simp; omega) (by omega)
      simp only [Lsw.encAttr, List.get_eq_getElem, List.getElem_zipIdx] at this
      rw [List.getElem?_eq_getElem (by omega)]
      have hx : Res.index (-((List.range attrs.length).map ω).sum :: (List.range (attrs.length + 1)).map ω) (0 + (i + 1)) =
          .ok (ω i) := by
        have : i < attrs.length + 1 := by omega
        simp [Res.index, this, Res.unwrapOption]
      rw [hx] at this
      simp only [Res.ok_bind, Res.ok.injEq] at this
      rw [← this]
      rfl
    refine .mk' (fun i hi => ?_) (h4 := all_lt_one e1) (h5 := ?_)
    · cases i with
      | zero => exact e2
      | succ i =>
        simp only [List.length_cons, Nat.add_lt_add_iff_right] at hi
        have := (key _ _ t3 i hi).symm.trans (key _ _ u3 i hi)
        simp only [Option.some.injEq] at this
        simpa [dropS, Nat.add_comm] using smul_left_inj h1 this
    · simpa [Tape.adv] using hn

/-- **C70 fails for LSW.** The last scalar drawn by an encryption is not used: any other value gives the same
ciphertext. -/
theorem Lsw.C70_violated_encrypt (env : Env F G1 G2 Gt) (pk : Lsw.PublicKey G1 G2 Gt) (attrs : List Str) (m : Bytes)
    (t : Tape F G1 G2 Gt) (ct t') (h : Lsw.encrypt env pk attrs m t = .ok (ct, t')) (x : F) :
    Lsw.encrypt env pk attrs m { t with fr := Function.update t.fr attrs.length x } = .ok (ct, t') := by
  cases attrs with
  | nil => simp [Lsw.encrypt] at h
  | cons a attrs =>
    obtain ⟨hm, t1, t2, t3, t4⟩ := Lsw.encrypt_run env pk a attrs m t h
    have hmap : ∀ (g g' : Str × ℕ → Res (Lsw.CtAttr G1)) (l : List (Str × ℕ)), (∀ y ∈ l, g y = g' y) →
        Res.mapR g l = Res.mapR g' l := by
      intro g g' l
      induction l with
      | nil => intro _; rfl
      | cons y l ih =>
        intro hy
        simp only [Res.mapR]
        rw [hy y (by simp), ih fun z hz => hy z (by simp [hz])]
    set ω := Function.update t.fr (a :: attrs).length x with hω
    have h0 : ω 0 = t.fr 0 := by simp [hω]
    have hlt : ∀ i < attrs.length, dropS 1 ω i = dropS 1 t.fr i := by
      intro i hi
      have : 1 + i ≠ attrs.length + 1 := by omega
      simp [hω, dropS, this]
    have hdrop : dropS (attrs.length + 2) ω = dropS (attrs.length + 2) t.fr := by
      funext i
      have : attrs.length + 2 + i ≠ attrs.length + 1 := by omega
      simp [hω, dropS, this]
    have hsum : (List.range attrs.length).map (dropS 1 ω) = (List.range attrs.length).map (dropS 1 t.fr) :=
      List.map_congr_left fun i hi => hlt i (by simpa using hi)
    simp only [Lsw.encrypt, show ((a :: attrs).isEmpty || m.isEmpty) = false by simpa using hm, Bool.false_eq_true, if_false,
      RM.bind_ok, RM.genFr, RM.genGt, RM.lift_ok_iff, RM.pure_ok, Res.ok.injEq, Prod.mk.injEq, List.length_cons, Lsw.sx_eq]
    refine ⟨_, _, ⟨rfl, rfl⟩, _, _, ⟨rfl, rfl⟩, ct.ej, _, ⟨?_, rfl⟩, _, _, ⟨rfl, rfl⟩, ct.ct, t', ?_, ?_, rfl⟩
    · rw [← t3]
      apply hmap
      rintro ⟨b, i⟩ hy
      have hi : i < attrs.length + 1 := by
        have := List.snd_lt_of_mem_zipIdx hy
        simpa using this
      simp only [Lsw.encAttr]
      rw [hsum, h0]
      congr 1
      cases i with
      | zero => rfl
      | succ i =>
        have : i < attrs.length + 1 := by omega
        simp [Res.index, this, hlt i (by omega)]
    · simp only [Tape.adv, dropS_zero, dropS_add] at t4 ⊢
      rw [show 1 + (attrs.length + 1) = attrs.length + 2 by omega, hdrop]
      exact t4
    · cases ct
      simp only [Tape.adv] at *
      simp_all

/-! ## YCT14 -/

theorem Yct14.uses_attrNew (g : Gt) (a : Str) : Uses (Yct14.Attribute.new g a : RM F G1 G2 Gt _) { fr := 1 } := by
  unfold Yct14.Attribute.new; uses

/-- **C70, YCT14.** If the secret is not zero, the keys determine the secret, the base and the scalars of all attributes. -/
theorem Yct14.C70_setup_used (attrs : List Str) (t u : Tape F G1 G2 Gt) (a t' u')
    (hs : t.fr 0 ≠ 0) (h : Yct14.setup attrs t = .ok (a, t')) (h' : Yct14.setup attrs u = .ok (a, u')) :
    t.Same { fr := 1 + attrs.length, gt := 1 } u := by
  simp only [Yct14.setup, RM.bind_ok, RM.genFr, RM.genGt, RM.pure_ok, Res.ok.injEq, Prod.mk.injEq] at h h'
  obtain ⟨_, _, ⟨rfl, rfl⟩, _, _, ⟨rfl, rfl⟩, L, _, hL, rfl, _⟩ := h
  obtain ⟨_, _, ⟨rfl, rfl⟩, _, _, ⟨rfl, rfl⟩, L', _, hL', e, _⟩ := h'
  simp only [Prod.mk.injEq, Yct14.PublicKey.mk.injEq, Yct14.MasterKey.mk.injEq] at e
  obtain ⟨⟨e1, e2⟩, e3, e4⟩ := e
  rw [← e3] at e1
  have e1 := smul_right_injective Gt hs e1
  have key : ∀ A B : List (Yct14.Attribute F Gt × Yct14.Attribute F Gt), A.map (·.1) = B.map (·.1) →
      A.map (·.2) = B.map (·.2) → A = B := by
    intro A
    induction A with
    | nil => intro B h _; cases B <;> simp_all
    | cons a A ih =>
      intro B h h'
      cases B with
      | nil => simp at h
      | cons b B =>
        simp only [List.map_cons, List.cons.injEq] at h h'
        rw [ih B h.2 h'.2, Prod.ext h.1 h'.1]
  obtain rfl := key _ _ e2 e4
  obtain ⟨hS, -⟩ := mapL_two (n := { fr := 1 }) (A := fun _ => True) (Yct14.uses_attrNew _) (Yct14.uses_attrNew _)
    (fun _ _ => True) (by
      intro x y t u b t' u' _ _ h h'
      simp only [Yct14.Attribute.new, RM.bind_ok, RM.genFr, RM.pure_ok, Res.ok.injEq, Prod.mk.injEq] at h h'
      obtain ⟨_, _, ⟨rfl, rfl⟩, rfl, _⟩ := h
      obtain ⟨_, _, ⟨rfl, rfl⟩, e, _⟩ := h'
      simp only [Prod.mk.injEq, Yct14.Attribute.mk.injEq, Option.some.injEq, Yct14.Node.priv.injEq] at e
      exact ⟨.mk' (all_lt_one e.2.2), trivial⟩) _ _ _ _ _ _ _ (by simp) (by simp) hL hL'
  exact .mk' (all_lt_succ e3 fun i hi => (hS.fr i (by simpa using hi)).symm) (h4 := all_lt_one e1)

/-- **C70, YCT14.** If the authority knows every attribute of the policy (with a scalar different from zero), a key
determines the random numbers of the sharing. -/
theorem Yct14.C70_keygen_used [BigChar F] (msk : Yct14.MasterKey F Gt) (text : Str) (lang : PolicyLanguage) (p : Pol)
    (hp : Denotes text lang p) (hw : p.Wide) (hf : p.Fits)
    (hall : ∀ l ∈ p.leaves, ∃ si, msk.getPrivate (removeIndex (leafIdx l)) = .ok si ∧ si ≠ 0) :
    Shapes (Yct14.keygen msk text lang : RM F G1 G2 Gt _) { fr := draws p } := by
  intro t u a t' u' ht hu
  simp only [Yct14.keygen, RM.bind_ok, RM.lift_ok_iff, RM.liftFr, show parse text lang = _ from hp,
    Res.ok.injEq] at ht hu
  obtain ⟨_, t, ⟨rfl, rfl⟩, sh, _, hs, ht⟩ := ht
  obtain ⟨_, u, ⟨rfl, rfl⟩, zh, _, hz, hu⟩ := hu
  rw [genSharesPolicy_eq] at hs hz
  cases hs; cases hz
  simp only [RM.bind_ok, RM.pure_ok, RM.lift_ok_iff] at ht hu
  obtain ⟨L, _, ⟨hL, rfl⟩, rfl, _⟩ := ht
  obtain ⟨L', _, ⟨hL', rfl⟩, e, _⟩ := hu
  simp only [Yct14.SecretKey.mk.injEq, true_and] at e
  have key : ∀ (x : Str × F) y, Yct14.keygenShare msk x = .ok y → x.1 ∈ p.leaves.map leafIdx →
      ∃ si ≠ 0, msk.getPrivate (removeIndex x.1) = .ok si ∧
        y = some { name := removeIndex x.1, node := some (.priv (x.2 * si⁻¹)) } := by
    intro x y h hx
    obtain ⟨l, hl, e⟩ := List.mem_map.1 hx
    obtain ⟨si, hsi, hne⟩ := hall l hl
    rw [e] at hsi
    simp only [Yct14.keygenShare, Yct14.privateFrom, hsi, Res.ok_bind, inv, hne, if_false, Res.ok.injEq] at h
    exact ⟨si, hne, hsi, h.symm⟩
  have hmem : ∀ ω : ℕ → F, ∀ x ∈ shares p msk.s ω, x.1 ∈ p.leaves.map leafIdx := by
    intro ω x hx
    exact (List.of_mem_zip (a := x.1) (b := x.2) hx).1
  have hsome : ∀ (S : List (Str × F)) (L : List (Option (Yct14.Attribute F Gt))), (∀ x ∈ S, x.1 ∈ p.leaves.map leafIdx) →
      List.Forall₂ (fun x y => Yct14.keygenShare msk x = .ok y) S L →
      ∃ f : Str × F → F, (∀ x ∈ S, f x ≠ 0 ∧ msk.getPrivate (removeIndex x.1) = .ok (f x)) ∧
        L.filterMap id = S.map fun x => { name := removeIndex x.1, node := some (.priv (x.2 * (f x)⁻¹)) } := by
    intro S L hS hF
    refine ⟨fun x => match msk.getPrivate (removeIndex x.1) with | .ok s => s | _ => 0, ?_, ?_⟩
    · intro x hx
      obtain ⟨y, _, hy⟩ := Forall₂.mem_left hF x hx
      obtain ⟨si, h1, h2, _⟩ := key x y hy (hS x hx)
      simp only [h2]
      exact ⟨h1, trivial⟩
    · induction hF with
      | nil => rfl
      | @cons x y S L hxy _ ih =>
        obtain ⟨si, h1, h2, rfl⟩ := key x y hxy (hS x (by simp))
        rw [List.filterMap_cons, ih fun z hz => hS z (by simp [hz]), List.map_cons]
        simp only [id, h2]
  have hF := mapR_ok hL
  have hF' := mapR_ok hL'
  obtain ⟨f, hf1, hf2⟩ := hsome _ _ (hmem _) hF
  obtain ⟨f', hf1', hf2'⟩ := hsome _ _ (hmem _) hF'
  rw [hf2, hf2'] at e
  have hinj : ∀ S S' : List (Str × F), (∀ x ∈ S, f x ≠ 0 ∧ msk.getPrivate (removeIndex x.1) = .ok (f x)) →
      (∀ x ∈ S', f' x ≠ 0 ∧ msk.getPrivate (removeIndex x.1) = .ok (f' x)) →
      (S.map fun x => ({ name := removeIndex x.1, node := some (.priv (x.2 * (f x)⁻¹)) } : Yct14.Attribute F Gt)) =
      S'.map (fun x => { name := removeIndex x.1, node := some (.priv (x.2 * (f' x)⁻¹)) }) →
      S.map (·.2) = S'.map (·.2) := by
    intro S
    induction S with
    | nil => intro S' _ _ h; cases S' <;> simp_all
    | cons x S ih =>
      intro S' h h' e
      cases S' with
      | nil => simp at e
      | cons y S' =>
        simp only [List.map_cons, List.cons.injEq, Yct14.Attribute.mk.injEq, Option.some.injEq, Yct14.Node.priv.injEq] at e ⊢
        obtain ⟨⟨e1, e2⟩, e3⟩ := e
        obtain ⟨a1, a2⟩ := h x (by simp)
        obtain ⟨b1, b2⟩ := h' y (by simp)
        rw [e1, b2] at a2
        have a2 := Res.ok.inj a2
        rw [← a2] at e2
        exact ⟨mul_right_cancel₀ (inv_ne_zero b1) e2, ih S' (fun z hz => h z (by simp [hz])) (fun z hz => h' z (by simp [hz])) e3⟩
  obtain ⟨-, b⟩ := shareVals_inj p hw hf (shares_vals (hinj _ _ hf1 hf1' e))
  exact .mk' b

/-- **C70, YCT14.** -/
theorem Yct14.C70_encrypt_used (env : Env F G1 G2 Gt) (pk : Yct14.PublicKey F Gt)
    (hpk : ∀ a ∈ pk.attributes, ∀ g, a.node = some (.pub g) → g ≠ 0) (attrs : List Str) (m : Bytes) :
    Shapes (Yct14.encrypt env pk attrs m) { fr := 1, byte := 12 } := by
  intro t u c t' u' ht hu
  simp only [Yct14.encrypt] at ht hu
  cases attrs with
  | nil => simp at ht
  | cons a attrs =>
    simp only [List.isEmpty_cons, Bool.false_eq_true, if_false] at ht hu
    split at ht
    · simp at ht
    next hm =>
      rw [if_neg hm] at hu
      simp only [RM.bind_ok, RM.genFr, RM.lift_ok_iff, RM.pure_ok, Res.ok.injEq, Prod.mk.injEq] at ht hu
      obtain ⟨_, _, ⟨rfl, rfl⟩, L, _, ⟨hL, rfl⟩, d, _, hd, rfl, _⟩ := ht
      obtain ⟨_, _, ⟨rfl, rfl⟩, L', _, ⟨hL', rfl⟩, d', _, hd', e, _⟩ := hu
      simp only [Yct14.Ciphertext.mk.injEq] at e
      obtain ⟨rfl, rfl⟩ := e
      refine .mk' (all_lt_one ?_) (h5 := fun i hi => symmetric_nonce hd hd' i hi)
      have hF := mapR_ok hL
      have hF' := mapR_ok hL'
      cases hF with
      | cons h1 _ =>
        cases hF' with
        | cons h2 _ =>
          simp only [Yct14.publicFrom] at h1 h2
          cases hfd : pk.attributes.find? fun x => x.name == a with
          | none => simp [hfd] at h1
          | some x =>
            have hx := List.mem_of_find?_eq_some hfd
            simp only [hfd, Res.unwrapOption_some, Res.ok_bind] at h1 h2
            cases hn : x.node with
            | none => simp [hn] at h1
            | some n =>
              cases n with
              | priv s => simp [hn] at h1
              | pub g =>
                simp only [hn, Res.ok.injEq] at h1 h2
                rw [← h1] at h2
                simp only [Yct14.Attribute.mk.injEq, Option.some.injEq, Yct14.Node.pub.injEq, true_and] at h2
                exact (smul_left_inj (hpk x hx g hn) h2).symm

/-! ## AC17 -/

/-- **C70, AC17.** -/
theorem Ac17.C70_setup_used (env : Env F G1 G2 Gt) (t u : Tape F G1 G2 Gt) (a t' u') (hg : t.g1 0 ≠ 0)
    (h : Ac17.setup env t = .ok (a, t')) (h' : Ac17.setup env u = .ok (a, u')) :
    t.Same { fr := 7, g1 := 1, g2 := 1 } u := by
  have e := out_eq h h' rfl rfl
  simp only [Prod.mk.injEq, Ac17.PublicKey.mk.injEq, Ac17.MasterKey.mk.injEq, List.cons.injEq, and_true] at e
  obtain ⟨_, e1, e2, ⟨e3, e4, e5⟩, ⟨e6, e7⟩, e8, e9⟩ := e
  rw [← e1] at e3 e4 e5
  have e3 := smul_left_inj hg e3
  have e4 := smul_left_inj hg e4
  have e5 := smul_left_inj hg e5
  refine .mk' ?_ (all_lt_one e1) (all_lt_one e2)
  simp only [dropS] at e3 e4 e5 e6 e7 e8 e9
  exact all_lt_succ (n := 6) e6 (all_lt_succ (n := 5) e8 (all_lt_succ (n := 4) e7 (all_lt_succ (n := 3) e9
    (all_lt_succ (n := 2) e3 (all_lt_two e4 e5)))))

/-- **C70, AC17 CP-ABE.** -/
theorem Ac17.C70_cp_keygen_used (env : Env F G1 G2 Gt) (msk : Ac17.MasterKey F G1 G2) (hg : msk.g ≠ 0) (hh : msk.h ≠ 0)
    (hb : ∀ b ∈ msk.b, b ≠ 0) (attrs : List Str) :
    Shapes (Ac17.cpKeygen env msk attrs) { fr := 3 + attrs.length } := by
  intro t u c t' u' ht hu
  simp only [Ac17.cpKeygen] at ht hu
  split at ht
  · simp at ht
  next hne =>
    rw [if_neg hne] at hu
    simp only [RM.bind_ok, RM.genFr, RM.lift_ok_iff, RM.pure_ok, Res.ok.injEq, Prod.mk.injEq] at ht hu
    obtain ⟨_, _, ⟨rfl, rfl⟩, _, _, ⟨rfl, rfl⟩, br, _, ⟨hbr, rfl⟩, L, _, hL, _, _, ⟨rfl, rfl⟩, kp, _, ⟨hkp, rfl⟩, gk, _,
      ⟨hgk, rfl⟩, rfl, _⟩ := ht
    obtain ⟨_, _, ⟨rfl, rfl⟩, _, _, ⟨rfl, rfl⟩, br', _, ⟨hbr', rfl⟩, L', _, hL', _, _, ⟨rfl, rfl⟩, kp', _, ⟨hkp', rfl⟩, gk', _,
      ⟨hgk', rfl⟩, e, _⟩ := hu
    simp only [Ac17.CpSecretKey.mk.injEq, Ac17.SecretKey.mk.injEq] at e
    obtain ⟨_, e1, rfl, e3⟩ := e
    rw [hgk] at hgk'
    cases hgk'
    have e3 := (List.append_inj' e3 rfl).2
    simp only [List.cons.injEq, and_true] at e3
    have e3 := neg_injective (smul_left_inj hg (add_left_cancel e3))
    have hbr2 : ∀ r0 r1 br, Ac17.brVec msk r0 r1 = .ok br → ∃ b0 b1 : F, Res.index msk.b 0 = .ok b0 ∧
        Res.index msk.b 1 = .ok b1 ∧ br = [b0 * r0, b1 * r1, 0 + r0 + r1] := by
      intro r0 r1 br h
      simp only [Ac17.brVec] at h
      cases h0 : Res.index msk.b 0 with
      | ok b0 =>
        cases h1 : Res.index msk.b 1 with
        | ok b1 => simp only [h0, h1, Res.ok_bind, Res.ok.injEq] at h; exact ⟨b0, b1, rfl, rfl, h.symm⟩
        | err => simp [h0, h1] at h
        | panic => simp [h0, h1] at h
      | err => simp [h0] at h
      | panic => simp [h0] at h
    obtain ⟨b0, b1, i0, i1, rfl⟩ := hbr2 _ _ _ hbr
    obtain ⟨b0', b1', i0', i1', rfl⟩ := hbr2 _ _ _ hbr'
    rw [i0] at i0'; rw [i1] at i1'
    cases i0'; cases i1'
    have hmem : ∀ i b, Res.index msk.b i = .ok b → b ∈ msk.b := by
      intro i b h
      unfold Res.index at h
      cases e : msk.b[i]? with
      | none => rw [e] at h; cases h
      | some x => rw [e] at h; cases h; exact List.mem_of_getElem? e
    simp only [List.map_cons, List.cons.injEq] at e1
    have k0 := mul_left_cancel₀ (hb _ (hmem _ _ i0)) (smul_left_inj hh e1.1)
    have k1 := mul_left_cancel₀ (hb _ (hmem _ _ i1)) (smul_left_inj hh e1.2.1)
    have hstep : ∀ (br br' : List F) (x : Str) (t u : Tape F G1 G2 Gt) b t' u',
        Ac17.cpKeygenAttr env msk br x t = .ok (b, t') → Ac17.cpKeygenAttr env msk br' x u = .ok (b, u') →
        t.fr 0 = u.fr 0 := by
      intro br br' x t u b t' u' h h'
      simp only [Ac17.cpKeygenAttr, RM.bind_ok, RM.genFr, RM.pure_ok, Res.ok.injEq, Prod.mk.injEq, RM.lift_ok_iff] at h h'
      obtain ⟨_, _, ⟨rfl, rfl⟩, ks, _, ⟨_, rfl⟩, rfl, _⟩ := h
      obtain ⟨_, _, ⟨rfl, rfl⟩, ks', _, ⟨_, rfl⟩, e, _⟩ := h'
      simp only [Prod.mk.injEq, true_and] at e
      have e := (List.append_inj' e rfl).2
      simp only [List.cons.injEq, and_true] at e
      exact neg_injective (smul_left_inj hg e)
    simp only at hL hL' k0 k1
    rw [← k0, ← k1] at hL'
    have hS := Shapes.mapL (Ac17.uses_cpKeygenAttr env msk _)
      (fun x t u b t' u' h h' => .mk' (all_lt_one (hstep _ _ _ _ _ _ _ _ h h'))) _ _ _ _ _ _ hL hL'
    obtain ⟨rfl, _⟩ := Uses.mapL (Ac17.uses_cpKeygenAttr env msk _) _ _ _ _ hL
    obtain ⟨rfl, _⟩ := Uses.mapL (Ac17.uses_cpKeygenAttr env msk _) _ _ _ _ hL'
    have hS' : ∀ i < attrs.length, dropS 1 (dropS 1 t.fr) i = dropS 1 (dropS 1 u.fr) i :=
      fun i hi => (hS.fr i (by simpa using hi)).symm
    refine .mk' ?_
    rw [show 3 + attrs.length = 1 + (1 + (attrs.length + 1)) by omega]
    refine all_lt_succ k0 (all_lt_succ k1 (all_lt_add hS' (all_lt_one ?_)))
    simpa [Tape.adv] using e3

/-- The first two entries of `c_0` determine the exponents. -/
theorem Ac17.c0Vec_inj {pk : Ac17.PublicKey G1 G2 Gt} (hh : ∀ x ∈ pk.hA, x ≠ 0) {s0 s1 r0 r1 : F} {c : List G2}
    (h : Ac17.c0Vec pk s0 s1 = .ok c) (h' : Ac17.c0Vec pk r0 r1 = .ok c) : s0 = r0 ∧ s1 = r1 := by
  have hmem : ∀ i b, Res.index pk.hA i = .ok b → b ∈ pk.hA := by
    intro i b h
    unfold Res.index at h
    cases e : pk.hA[i]? with
    | none => rw [e] at h; cases h
    | some x => rw [e] at h; cases h; exact List.mem_of_getElem? e
  simp only [Ac17.c0Vec] at h h'
  cases h0 : Res.index pk.hA 0 with
  | err => simp [h0] at h
  | panic => simp [h0] at h
  | ok b0 =>
    cases h1 : Res.index pk.hA 1 with
    | err => simp [h0, h1] at h
    | panic => simp [h0, h1] at h
    | ok b1 =>
      cases h2 : Res.index pk.hA 2 with
      | err => simp [h0, h1, h2] at h
      | panic => simp [h0, h1, h2] at h
      | ok b2 =>
        simp only [h0, h1, h2, Res.ok_bind, Res.ok.injEq] at h h'
        rw [← h] at h'
        simp only [List.cons.injEq] at h'
        exact ⟨(smul_left_inj (hh _ (hmem _ _ h0)) h'.1).symm, (smul_left_inj (hh _ (hmem _ _ h1)) h'.2.1).symm⟩

/-- **C70, AC17 CP-ABE.** -/
theorem Ac17.C70_cp_encrypt_used (env : Env F G1 G2 Gt) (pk : Ac17.PublicKey G1 G2 Gt) (hh : ∀ x ∈ pk.hA, x ≠ 0)
    (text : Str) (m : Bytes) (lang : PolicyLanguage) :
    Shapes (Ac17.cpEncrypt env pk text m lang) { fr := 2, gt := 1, byte := 12 } := by
  intro t u c t' u' ht hu
  simp only [Ac17.cpEncrypt, RM.bind_ok, RM.genFr, RM.genGt, RM.lift_ok_iff, RM.pure_ok, Res.ok.injEq, Prod.mk.injEq] at ht hu
  obtain ⟨_, _, ⟨_, rfl⟩, _, _, ⟨_, rfl⟩, _, t, ⟨_, rfl⟩, _, _, ⟨rfl, rfl⟩, _, _, ⟨rfl, rfl⟩, c0, _, ⟨hc, rfl⟩, cp, _, ⟨hp, rfl⟩,
    _, _, ⟨rfl, rfl⟩, d, _, hd, rfl, _⟩ := ht
  obtain ⟨_, _, ⟨_, rfl⟩, _, _, ⟨_, rfl⟩, _, u, ⟨_, rfl⟩, _, _, ⟨rfl, rfl⟩, _, _, ⟨rfl, rfl⟩, c0', _, ⟨hc', rfl⟩, cp', _, ⟨hp', rfl⟩,
    _, _, ⟨rfl, rfl⟩, d', _, hd', e, _⟩ := hu
  simp only [Ac17.CpCiphertext.mk.injEq, Ac17.Ciphertext.mk.injEq] at e
  obtain ⟨_, rfl, _, e, rfl⟩ := e
  obtain ⟨e0, e1⟩ := Ac17.c0Vec_inj hh hc hc'
  simp only at e0 e1 hp hp'
  rw [← e0, ← e1, hp] at hp'
  cases hp'
  exact .mk' (all_lt_two e0 e1) (h4 := all_lt_one (add_left_cancel e)) (h5 := fun i hi => symmetric_nonce hd hd' i hi)

/-- **C70, AC17 KP-ABE.** -/
theorem Ac17.C70_kp_encrypt_used (env : Env F G1 G2 Gt) (pk : Ac17.PublicKey G1 G2 Gt) (hh : ∀ x ∈ pk.hA, x ≠ 0)
    (attrs : List Str) (m : Bytes) :
    Shapes (Ac17.kpEncrypt env pk attrs m) { fr := 2, gt := 1, byte := 12 } := by
  intro t u c t' u' ht hu
  simp only [Ac17.kpEncrypt, RM.bind_ok, RM.genFr, RM.genGt, RM.lift_ok_iff, RM.pure_ok, Res.ok.injEq, Prod.mk.injEq] at ht hu
  obtain ⟨_, _, ⟨rfl, rfl⟩, _, _, ⟨rfl, rfl⟩, c0, _, ⟨hc, rfl⟩, cp, _, ⟨hp, rfl⟩, _, _, ⟨rfl, rfl⟩, d, _, hd, rfl, _⟩ := ht
  obtain ⟨_, _, ⟨rfl, rfl⟩, _, _, ⟨rfl, rfl⟩, c0', _, ⟨hc', rfl⟩, cp', _, ⟨hp', rfl⟩, _, _, ⟨rfl, rfl⟩, d', _, hd', e, _⟩ := hu
  simp only [Ac17.KpCiphertext.mk.injEq, Ac17.Ciphertext.mk.injEq] at e
  obtain ⟨_, rfl, _, e, rfl⟩ := e
  obtain ⟨e0, e1⟩ := Ac17.c0Vec_inj hh hc hc'
  simp only at e0 e1 hp hp'
  rw [← e0, ← e1, hp] at hp'
  cases hp'
  exact .mk' (all_lt_two e0 e1) (h4 := all_lt_one (add_left_cancel e)) (h5 := fun i hi => symmetric_nonce hd hd' i hi)

end Rabe
