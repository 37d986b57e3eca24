import Verif.Proof.Inject
import Verif.Props.Fresh

/-!
# C70: every random value enters the output

The output of an operation determines all the random values the operation consumed, so that none is dropped and none is
replaced by another.
-/

set_option linter.unusedSectionVars false

namespace Rabe

variable {F G1 G2 Gt : Type} [Field F] [DecidableEq F] [AddCommGroup G1] [Module F G1]
  [AddCommGroup G2] [Module F G2] [AddCommGroup Gt] [Module F Gt]

/-! ## BSW -/

/-- **C70, BSW.** -/
theorem Bsw.C70_setup_used (env : Env F G1 G2 Gt) (t u : Tape F G1 G2 Gt) (a t' u') (hg : t.g2 0 ≠ 0)
    (h : Bsw.setup env t = .ok (a, t')) (h' : Bsw.setup env u = .ok (a, u')) : t.Same { fr := 2, g1 := 1, g2 := 1 } u := by
  simp only [Bsw.setup, RM.bind_ok, RM.genG1, RM.genG2, RM.genFr, RM.lift_ok_iff, RM.pure_ok, Res.ok.injEq,
    Prod.mk.injEq] at h h'
  obtain ⟨_, _, ⟨rfl, rfl⟩, _, _, ⟨rfl, rfl⟩, _, _, ⟨rfl, rfl⟩, _, _, ⟨rfl, rfl⟩, _, _, ⟨_, rfl⟩, rfl, _⟩ := h
  obtain ⟨_, _, ⟨rfl, rfl⟩, _, _, ⟨rfl, rfl⟩, _, _, ⟨rfl, rfl⟩, _, _, ⟨rfl, rfl⟩, _, _, ⟨_, rfl⟩, e, _⟩ := h'
  simp only [Prod.mk.injEq, Bsw.PublicKey.mk.injEq, Bsw.MasterKey.mk.injEq, dropS] at e
  obtain ⟨⟨e1, e2, _⟩, e3, e4⟩ := e
  rw [← e2] at e4
  exact .mk' (all_lt_two e3 (smul_left_inj hg e4)) (all_lt_one e1) (all_lt_one e2)

theorem Bsw.uses_keygenAttr (env : Env F G1 G2 Gt) (pk : Bsw.PublicKey G1 G2 Gt) (x : G2) (j : Str) :
    Uses (Bsw.keygenAttr env pk x j) { fr := 1 } := by
  unfold Bsw.keygenAttr; uses

/-- **C70, BSW.** -/
theorem Bsw.C70_keygen_used (env : Env F G1 G2 Gt) (pk : Bsw.PublicKey G1 G2 Gt) (msk : Bsw.MasterKey F G2)
    (h1 : pk.g1 ≠ 0) (h2 : pk.g2 ≠ 0) (attrs : List Str) (h : attrs ≠ []) :
    Shapes (Bsw.keygen env pk msk attrs) { fr := 1 + attrs.length } := by
  intro t u a t' u' ht hu
  simp only [Bsw.keygen, show (attrs.isEmpty || attrs.length == 0) = false by simpa using h, RM.bind_ok, RM.genFr,
    RM.lift_ok_iff, RM.pure_ok, Res.ok.injEq, Prod.mk.injEq, Bool.false_eq_true, if_false, inv] at ht hu
  obtain ⟨_, _, ⟨rfl, rfl⟩, b, _, ⟨hb, rfl⟩, L, _, hL, rfl, _⟩ := ht
  obtain ⟨_, _, ⟨rfl, rfl⟩, b', _, ⟨hb', rfl⟩, L', _, hL', e, _⟩ := hu
  split at hb
  · cases hb
  next hbeta =>
  rw [if_neg hbeta] at hb'
  cases hb; cases hb'
  simp only [Option.some.injEq, Bsw.SecretKey.mk.injEq] at e
  obtain ⟨e1, rfl⟩ := e
  have e1 := smul_left_inj h2 (add_left_cancel ((smul_right_injective G2 (inv_ne_zero hbeta)) e1))
  obtain ⟨hS, -⟩ := mapL_two (n := { fr := 1 }) (A := fun _ => True) (Bsw.uses_keygenAttr env pk _)
    (Bsw.uses_keygenAttr env pk _) (fun _ _ => True) (by
      intro x y t u b t' u' _ _ h h'
      cases h; simp only [Bsw.keygenAttr, RM.bind_ok, RM.genFr, RM.pure_ok, Res.ok.injEq, Prod.mk.injEq] at h'
      obtain ⟨_, _, ⟨rfl, rfl⟩, e, _⟩ := h'
      simp only [Bsw.Attribute.mk.injEq] at e
      exact ⟨.mk' (all_lt_one (smul_left_inj h1 e.2.1)), trivial⟩) _ _ _ _ _ _ _ (by simp) (by simp) hL hL'
  exact .mk' (all_lt_succ e1 fun i hi => (hS.fr i (by simpa using hi)).symm)

theorem Bsw.uses_delegateAttr (env : Env F G1 G2 Gt) (pk : Bsw.PublicKey G1 G2 Gt) (sk : Bsw.SecretKey G1 G2) (x : F)
    (j : Str) : Uses (Bsw.delegateAttr env pk sk x j) { fr := 1 } := by
  unfold Bsw.delegateAttr; uses

/-- **C70, BSW.** -/
theorem Bsw.C70_delegate_used (env : Env F G1 G2 Gt) (pk : Bsw.PublicKey G1 G2 Gt) (sk : Bsw.SecretKey G1 G2)
    (h1 : pk.g1 ≠ 0) (h2 : pk.f ≠ 0) (subset : List Str) (h : subset ≠ [])
    (hs : isSubset subset (sk.dJ.map (·.string)) = true) :
    Shapes (Bsw.delegate env pk sk subset) { fr := 1 + subset.length } := by
  intro t u a t' u' ht hu
  simp only [Bsw.delegate, show (subset.isEmpty || subset.length == 0) = false by simpa using h, RM.bind_ok, RM.genFr,
    RM.pure_ok, Res.ok.injEq, Prod.mk.injEq, Bool.false_eq_true, if_false, hs, Bool.not_true] at ht hu
  obtain ⟨_, _, ⟨rfl, rfl⟩, L, _, hL, rfl, _⟩ := ht
  obtain ⟨_, _, ⟨rfl, rfl⟩, L', _, hL', e, _⟩ := hu
  simp only [Option.some.injEq, Bsw.SecretKey.mk.injEq] at e
  obtain ⟨e1, rfl⟩ := e
  have e1 := smul_left_inj h2 (add_left_cancel e1)
  obtain ⟨hS, -⟩ := mapL_two (n := { fr := 1 }) (A := fun _ => True) (Bsw.uses_delegateAttr env pk sk _)
    (Bsw.uses_delegateAttr env pk sk _) (fun _ _ => True) (by
      intro x y t u b t' u' _ _ h h'
      simp only [Bsw.delegateAttr, RM.bind_ok, RM.genFr, RM.pure_ok, Res.ok.injEq, Prod.mk.injEq, RM.lift_ok_iff] at h h'
      obtain ⟨_, _, ⟨rfl, rfl⟩, v, _, ⟨hv, rfl⟩, rfl, _⟩ := h
      obtain ⟨_, _, ⟨rfl, rfl⟩, v', _, ⟨hv', rfl⟩, e, _⟩ := h'
      simp only [Bsw.Attribute.mk.injEq] at e
      obtain ⟨rfl, e, _⟩ := e
      rw [hv] at hv'
      cases hv'
      exact ⟨.mk' (all_lt_one (smul_left_inj h1 (add_left_cancel e))), trivial⟩) _ _ _ _ _ _ _ (by simp) (by simp) hL hL'
  exact .mk' (all_lt_succ e1 fun i hi => (hS.fr i (by simpa using hi)).symm)

/-- **C70, BSW.** -/
theorem Bsw.C70_encrypt_used [BigChar F] (env : Env F G1 G2 Gt) (pk : Bsw.PublicKey G1 G2 Gt) (hg : pk.g1 ≠ 0)
    (text : Str) (lang : PolicyLanguage) (p : Pol) (hp : Denotes text lang p) (hw : p.Wide) (hf : p.Fits) (m : Bytes) :
    Shapes (Bsw.encrypt env pk text lang m) { fr := 1 + draws p, gt := 1, byte := 12 } := by
  intro t u a t' u' ht hu
  simp only [Bsw.encrypt, RM.bind_ok, RM.genFr, RM.genGt, RM.lift_ok_iff, RM.pure_ok, Res.ok.injEq, Prod.mk.injEq,
    RM.liftFr, show parse text lang = _ from hp] at ht hu
  obtain ⟨_, _, ⟨rfl, rfl⟩, _, _, ⟨rfl, rfl⟩, _, _, ⟨rfl, rfl⟩, sh, _, hs, sh', _, ⟨hs', rfl⟩, d, _, hd, rfl, _⟩ := ht
  obtain ⟨_, _, ⟨rfl, rfl⟩, _, _, ⟨rfl, rfl⟩, _, _, ⟨rfl, rfl⟩, zh, _, hz, zh', _, ⟨hz', rfl⟩, d', _, hd', e, _⟩ := hu
  rw [genSharesPolicy_eq] at hs hz
  cases hs; cases hz; cases hs'; cases hz'
  simp only [Bsw.Ciphertext.mk.injEq] at e
  obtain ⟨_, e1, e2, e3, rfl⟩ := e
  have e3 := congrArg (List.map Bsw.Attribute.g1) e3
  simp only [List.map_map, Function.comp_def, Bsw.encAttr] at e3
  obtain ⟨a, b⟩ := shareVals_inj p hw hf (shares_vals (map_smul_inj hg _ e3))
  rw [a] at e2
  exact .mk' (all_lt_succ a b) (h4 := all_lt_one (add_left_cancel e2)) (h5 := fun i hi => symmetric_nonce hd hd' i hi)

/-! ## GHW11 -/

/-- **C70, GHW11.** -/
theorem Ghw11.C70_setup_used (env : Env F G1 G2 Gt) (t u : Tape F G1 G2 Gt) (a t' u') (h1 : t.g1 0 ≠ 0) (h2 : t.g2 0 ≠ 0)
    (h : Ghw11.setup env t = .ok (a, t')) (h' : Ghw11.setup env u = .ok (a, u')) :
    t.Same { fr := 2, g1 := 1, g2 := 1 } u := by
  have e := out_eq h h' rfl rfl
  simp only [Prod.mk.injEq, Ghw11.PublicKey.mk.injEq, Ghw11.MasterKey.mk.injEq, dropS] at e
  obtain ⟨⟨e1, e2, e3, _⟩, e4, -⟩ := e
  rw [← e1] at e3
  rw [← e2] at e4
  exact .mk' (all_lt_two (smul_left_inj h1 e3) (smul_left_inj h2 e4)) (all_lt_one e1) (all_lt_one e2)

/-- **C70, GHW11.** -/
theorem Ghw11.C70_keygen_used (env : Env F G1 G2 Gt) (pk : Ghw11.PublicKey G1 G2 Gt) (msk : Ghw11.MasterKey G1 G2 Gt)
    (h2 : pk.g2 ≠ 0) (attrs : List Str) (h : attrs ≠ []) :
    Shapes (Ghw11.keygen (F := F) env pk msk attrs) { fr := 1 } := by
  intro t u a t' u' ht hu
  simp only [Ghw11.keygen, show (attrs.isEmpty || attrs.length == 0) = false by simpa using h, RM.bind_ok, RM.genFr,
    RM.pure_ok, Res.ok.injEq, Prod.mk.injEq, Bool.false_eq_true, if_false] at ht hu
  obtain ⟨_, _, ⟨rfl, rfl⟩, rfl, _⟩ := ht
  obtain ⟨_, _, ⟨rfl, rfl⟩, e, _⟩ := hu
  simp only [Option.some.injEq, Ghw11.SecretKey.mk.injEq] at e
  exact .mk' (all_lt_one (smul_left_inj h2 e.2.1))

/-- **C70, GHW11.** -/
theorem Ghw11.C70_tkgen_used (sk : Ghw11.SecretKey G2) : Shapes (Ghw11.tkgen sk : RM F G1 G2 Gt _) { fr := 1 } := by
  intro t u a t' u' ht hu
  simp only [Ghw11.tkgen, RM.bind_ok, RM.genFr, RM.pure_ok, Res.ok.injEq, Prod.mk.injEq, RM.lift_ok_iff] at ht hu
  obtain ⟨_, _, ⟨rfl, rfl⟩, _, _, ⟨_, rfl⟩, rfl, _⟩ := ht
  obtain ⟨_, _, ⟨rfl, rfl⟩, _, _, ⟨_, rfl⟩, e, _⟩ := hu
  simp only [Option.some.injEq, Prod.mk.injEq, Ghw11.RetrieveKey.mk.injEq] at e
  exact .mk' (all_lt_one e.2)

theorem Ghw11.uses_encShare (env : Env F G1 G2 Gt) (pk : Ghw11.PublicKey G1 G2 Gt) (x : Str × F) :
    Uses (Ghw11.encShare env pk x) { fr := 1 } := by
  unfold Ghw11.encShare; uses

/-- **C70, GHW11.** -/
theorem Ghw11.C70_encrypt_used [BigChar F] (env : Env F G1 G2 Gt) (pk : Ghw11.PublicKey G1 G2 Gt) (h1 : pk.g1 ≠ 0)
    (h2 : pk.g1A ≠ 0) (text : Str) (lang : PolicyLanguage) (p : Pol) (hp : Denotes text lang p) (hw : p.Wide)
    (hf : p.Fits) (m : Bytes) :
    Shapes (Ghw11.encrypt env pk text lang m) { fr := 1 + draws p + p.leaves.length, gt := 1, byte := 12 } := by
  intro t u a t' u' ht hu
  simp only [Ghw11.encrypt, RM.bind_ok, RM.genFr, RM.genGt, RM.lift_ok_iff, RM.pure_ok, Res.ok.injEq, Prod.mk.injEq,
    RM.liftFr, show parse text lang = _ from hp] at ht hu
  obtain ⟨_, _, ⟨rfl, rfl⟩, _, _, ⟨rfl, rfl⟩, _, _, ⟨rfl, rfl⟩, sh, _, hs, sh', _, ⟨hs', rfl⟩, L, _, hL, d, _, hd, rfl, _⟩ := ht
  obtain ⟨_, _, ⟨rfl, rfl⟩, _, _, ⟨rfl, rfl⟩, _, _, ⟨rfl, rfl⟩, zh, _, hz, zh', _, ⟨hz', rfl⟩, L', _, hL', d', _, hd', e, _⟩ := hu
  rw [genSharesPolicy_eq] at hs hz
  cases hs; cases hz; cases hs'; cases hz'
  simp only [Ghw11.Ciphertext.mk.injEq] at e
  obtain ⟨_, e1, e2, rfl, rfl⟩ := e
  obtain ⟨hS, hR⟩ := mapL_two (n := { fr := 1 }) (A := fun _ => True) (Ghw11.uses_encShare env pk)
    (Ghw11.uses_encShare env pk) (fun x y => x.2 = y.2) (by
      intro x y t u b t' u' _ _ h h'
      simp only [Ghw11.encShare, RM.bind_ok, RM.genFr, RM.pure_ok, Res.ok.injEq, Prod.mk.injEq] at h h'
      obtain ⟨_, _, ⟨rfl, rfl⟩, rfl, _⟩ := h
      obtain ⟨_, _, ⟨rfl, rfl⟩, e, _⟩ := h'
      simp only [Prod.mk.injEq] at e
      obtain ⟨e0, e1, e2⟩ := e
      have e2 := smul_left_inj h1 e2
      rw [e0, e2] at e1
      exact ⟨.mk' (all_lt_one e2), smul_left_inj h2 (add_right_cancel e1)⟩) _ _ _ _ _ _ _ (by simp) (by simp) hL hL'
  obtain ⟨a, b⟩ := shareVals_inj p hw hf (shares_vals (forall₂_map_eq (f := fun x : Str × F => x.2) (fun _ _ h => h) hR))
  rw [a] at e1
  have hb := hS.byte
  have hlen : (shares p (t.fr 0) (dropS 1 t.fr)).length = p.leaves.length := by simp [shares, shareVals_length]
  refine .mk' (all_lt_add (all_lt_succ a b) fun i hi => ?_) (h4 := all_lt_one (add_left_cancel e1)) (h5 := ?_)
  · have := hS.fr i (by simpa [hlen] using hi)
    simpa [dropS, Nat.add_comm, Nat.add_left_comm] using this.symm
  · obtain ⟨rfl, _⟩ := Uses.mapL (Ghw11.uses_encShare env pk) _ _ _ _ hL
    obtain ⟨rfl, _⟩ := Uses.mapL (Ghw11.uses_encShare env pk) _ _ _ _ hL'
    have := symmetric_nonce hd hd'
    simpa [Tape.adv] using this

/-! ## AW11 -/

/-- **C70, AW11.** -/
theorem Aw11.C70_setup_used : Shapes (Aw11.setup : RM F G1 G2 Gt _) { g1 := 1, g2 := 1 } := by
  intro t u a t' u' h h'
  have e := out_eq h h' rfl rfl
  simp only [Aw11.GlobalKey.mk.injEq] at e
  exact .mk' (h2 := all_lt_one e.1) (h3 := all_lt_one e.2)

theorem Aw11.uses_authgenAttr (cm : CaseMap) (env : Env F G1 G2 Gt) (gk : Aw11.GlobalKey G1 G2) (a : Str) :
    Uses (Aw11.authgenAttr cm env gk a) { fr := 2 } := by
  unfold Aw11.authgenAttr; uses

/-- **C70, AW11.** -/
theorem Aw11.C70_authgen_used (cm : CaseMap) (env : Env F G1 G2 Gt) (gk : Aw11.GlobalKey G1 G2) (attrs : List Str)
    (h : attrs ≠ []) : Shapes (Aw11.authgen cm env gk attrs) { fr := 2 * attrs.length } := by
  intro t u a t' u' ht hu
  simp only [Aw11.authgen, show attrs.isEmpty = false by simpa using h, RM.bind_ok,
    RM.pure_ok, Bool.false_eq_true, if_false] at ht hu
  obtain ⟨L, _, hL, rfl, _⟩ := ht
  obtain ⟨L', _, hL', e, _⟩ := hu
  simp only [Option.some.injEq, Prod.mk.injEq, Aw11.PublicKey.mk.injEq, Aw11.MasterKey.mk.injEq] at e
  have key : ∀ A B : List (Aw11.PubAttr G2 Gt × Aw11.MskAttr F), A.map (·.1) = B.map (·.1) → A.map (·.2) = B.map (·.2) →
      A = B := by
    intro A
    induction A with
    | nil => intro B h _; cases B <;> simp_all
    | cons a A ih =>
      intro B h h'
      cases B with
      | nil => simp at h
      | cons b B =>
        simp only [List.map_cons, List.cons.injEq] at h h'
        rw [ih B h.2 h'.2, Prod.ext h.1 h'.1]
  obtain rfl := key _ _ e.1 e.2
  obtain ⟨hS, -⟩ := mapL_two (n := { fr := 2 }) (A := fun _ => True) (Aw11.uses_authgenAttr cm env gk)
    (Aw11.uses_authgenAttr cm env gk) (fun _ _ => True) (by
      intro x y t u b t' u' _ _ h h'
      simp only [Aw11.authgenAttr, RM.bind_ok, RM.genFr, RM.pure_ok, Res.ok.injEq, Prod.mk.injEq] at h h'
      obtain ⟨_, _, ⟨rfl, rfl⟩, _, _, ⟨rfl, rfl⟩, rfl, _⟩ := h
      obtain ⟨_, _, ⟨rfl, rfl⟩, _, _, ⟨rfl, rfl⟩, e, _⟩ := h'
      simp only [Prod.mk.injEq, Aw11.MskAttr.mk.injEq, dropS] at e
      exact ⟨.mk' (all_lt_two e.2.2.1 e.2.2.2), trivial⟩) _ _ _ _ _ _ _ (by simp) (by simp) hL hL'
  exact .mk' (fun i hi => (hS.fr i (by simp only [Draws.smul_fr]; simp only at hi; omega)).symm)

theorem Aw11.uses_encShare (cm : CaseMap) (env : Env F G1 G2 Gt) (gk : Aw11.GlobalKey G1 G2)
    (pks : List (Aw11.PublicKey G2 Gt)) (w : List (Str × F)) (x : (Str × F) × ℕ) :
    Uses (Aw11.encShare cm env gk pks w x) { fr := 1 } := by
  unfold Aw11.encShare
  refine (Uses.genFr.bind (k := 0) fun _ => ?_).cast (by ext <;> simp)
  cases Aw11.findPkAttr (removeIndex (cm.upper x.1.1)) pks with
  | none => exact Uses.pure _
  | some a => exact ((Uses.lift _).bind fun _ => Uses.pure _).cast (by ext <;> simp)

theorem Aw11.encShare_some {cm : CaseMap} {env : Env F G1 G2 Gt} {gk : Aw11.GlobalKey G1 G2}
    {pks : List (Aw11.PublicKey G2 Gt)} {w : List (Str × F)} {xs : List ((Str × F) × ℕ)} {t t' L}
    (h : RM.mapL (Aw11.encShare cm env gk pks w) xs t = .ok (L, t'))
    (hx : ∀ x ∈ xs, Aw11.findPkAttr (removeIndex (cm.upper x.1.1)) pks ≠ none) : none ∉ L := by
  intro hn
  obtain ⟨x, hm, s, s', hs⟩ := Forall₂.mem_right (RM.mapL_ok h) none hn
  obtain ⟨a, ha⟩ := Option.ne_none_iff_exists'.1 (hx x hm)
  simp only [Aw11.encShare, ha, RM.bind_ok, RM.genFr, RM.pure_ok, Res.ok.injEq, Prod.mk.injEq, RM.lift_ok_iff] at hs
  simp at hs

theorem Res.index_getElem? {α : Type} {l : List α} {i : ℕ} {a : α} (h : Res.index l i = .ok a) : l[i]? = some a := by
  unfold Res.index at h
  cases e : l[i]? with
  | none => rw [e] at h; cases h
  | some b => rw [e] at h; cases h; rfl

theorem filterMap_id_inj {α : Type} : ∀ {A B : List (Option α)}, none ∉ A → none ∉ B →
    A.filterMap id = B.filterMap id → A = B
  | [], [], _, _, _ => rfl
  | [], some b :: B, _, _, h => by simp at h
  | some a :: A, [], _, _, h => by simp at h
  | none :: _, _, h, _, _ => by simp at h
  | _, none :: _, _, h, _ => by simp at h
  | some a :: A, some b :: B, hA, hB, h => by
    simp only [List.filterMap_cons, id, List.cons.injEq] at h
    rw [h.1, filterMap_id_inj (by simpa using hA) (by simpa using hB) h.2]

/-- **C70, AW11.** If every leaf has a public attribute key, a ciphertext determines the secret, the coefficients of both
sharings, the random number of every leaf, the session element and the nonce. -/
theorem Aw11.C70_encrypt_used [BigChar F] (cm : CaseMap) (env : Env F G1 G2 Gt) (gk : Aw11.GlobalKey G1 G2)
    (pks : List (Aw11.PublicKey G2 Gt)) (h2 : gk.g2 ≠ 0) (hgt : env.pair gk.g1 gk.g2 ≠ 0)
    (text : Str) (lang : PolicyLanguage) (p : Pol) (hp : Denotes text lang p)
    (hw : p.Wide) (hf : p.Fits) (hall : ∀ l ∈ p.leaves, Aw11.findPkAttr (removeIndex (cm.upper (leafIdx l))) pks ≠ none)
    (m : Bytes) : Shapes (Aw11.encrypt cm env gk pks text lang m)
      { fr := 1 + draws p + draws p + p.leaves.length, gt := 1, byte := 12 } := by
  intro t u a t' u' ht hu
  simp only [Aw11.encrypt, RM.bind_ok, RM.genFr, RM.genGt, RM.lift_ok_iff, RM.pure_ok, Res.ok.injEq, Prod.mk.injEq,
    RM.liftFr, show parse text lang = _ from hp] at ht hu
  obtain ⟨_, _, ⟨rfl, rfl⟩, _, _, ⟨_, rfl⟩, _, t, ⟨_, rfl⟩, _, _, ⟨rfl, rfl⟩, _, _, hs, _, _, ⟨hs', rfl⟩, _, _, hz, _, _,
    ⟨hz', rfl⟩, _, _, ⟨rfl, rfl⟩, L, _, hL, d, _, hd, rfl, _⟩ := ht
  obtain ⟨_, _, ⟨rfl, rfl⟩, _, _, ⟨_, rfl⟩, _, u, ⟨_, rfl⟩, _, _, ⟨rfl, rfl⟩, _, _, ks, _, _, ⟨ks', rfl⟩, _, _, kz, _, _,
    ⟨kz', rfl⟩, _, _, ⟨rfl, rfl⟩, L', _, hL', d', _, hd', e, _⟩ := hu
  rw [genSharesPolicy_eq] at hs hz ks kz
  cases hs; cases hz; cases hs'; cases hz'
  cases ks; cases kz; cases ks'; cases kz'
  simp only [Aw11.Ciphertext.mk.injEq] at e
  obtain ⟨_, e1, e2, rfl⟩ := e
  have hlen : ∀ (σ : F) ω, (shares p σ ω).length = p.leaves.length := by simp [shares, shareVals_length]
  have hA : ∀ (σ : F) ω, ∀ x ∈ (shares p σ ω).zipIdx,
      Aw11.findPkAttr (removeIndex (cm.upper x.1.1)) pks ≠ none := by
    intro σ ω x hx
    have := (List.of_mem_zip (a := x.1.1) (b := x.1.2) (List.fst_mem_of_mem_zipIdx hx)).1
    obtain ⟨l, hl, e⟩ := List.mem_map.1 this
    exact e ▸ hall l hl
  obtain rfl : L = L' := by
    refine filterMap_id_inj (Aw11.encShare_some hL (hA _ _)) (Aw11.encShare_some hL' (hA _ _)) e2
  obtain ⟨hS, hR⟩ := mapL_two (n := { fr := 1 }) (A := fun x => Aw11.findPkAttr (removeIndex (cm.upper x.1.1)) pks ≠ none)
    (Aw11.uses_encShare cm env gk pks _) (Aw11.uses_encShare cm env gk pks _)
    (fun x y => x.1.2 = y.1.2 ∧ ((shares p (0 : F) (dropS (draws p) (dropS 1 t.fr)))[x.2]?).map (·.2) =
      ((shares p (0 : F) (dropS (draws p) (dropS 1 u.fr)))[y.2]?).map (·.2)) (by
      intro x y t u b t' u' hx hy h h'
      obtain ⟨a, ha⟩ := Option.ne_none_iff_exists'.1 hx
      obtain ⟨a', ha'⟩ := Option.ne_none_iff_exists'.1 hy
      simp only [Aw11.encShare, ha, ha', RM.bind_ok, RM.genFr, RM.pure_ok, Res.ok.injEq, Prod.mk.injEq, RM.lift_ok_iff] at h h'
      obtain ⟨_, _, ⟨rfl, rfl⟩, w, _, ⟨hw, rfl⟩, rfl, _⟩ := h
      obtain ⟨_, _, ⟨rfl, rfl⟩, w', _, ⟨hw', rfl⟩, e, _⟩ := h'
      simp only [Option.some.injEq, Aw11.CtAttr.mk.injEq] at e
      obtain ⟨e0, e1, e2, e3⟩ := e
      rw [e0, ha'] at ha
      cases ha
      have e2 := smul_left_inj h2 e2
      rw [e2] at e1 e3
      refine ⟨.mk' (all_lt_one e2), smul_left_inj hgt (add_right_cancel e1), ?_⟩
      rw [Res.index_getElem? hw, Res.index_getElem? hw']
      simpa using smul_left_inj h2 (add_left_cancel e3)) _ _ _ _ _ _ _ (hA _ _) (hA _ _) hL hL'
  obtain ⟨a, b⟩ := shareVals_inj p hw hf (shares_vals (σ := t.fr 0) (σ' := u.fr 0) (by
    have := forall₂_map_eq (f := fun x : (Str × F) × ℕ => x.1.2) (fun _ _ h => h.1) hR
    have key : ∀ l : List (Str × F), l.zipIdx.map (fun x => x.1.2) = l.map (·.2) := fun l => by
      conv_rhs => rw [← List.zipIdx_map_fst 0 l, List.map_map]
      rfl
    rwa [key, key] at this))
  obtain ⟨-, c⟩ := shareVals_inj p hw hf (shares_vals (σ := (0 : F)) (σ' := 0)
    (ω := dropS (draws p) (dropS 1 t.fr)) (ω' := dropS (draws p) (dropS 1 u.fr)) (by
    apply List.ext_getElem?
    intro i
    rw [List.getElem?_map, List.getElem?_map]
    by_cases hi : i < p.leaves.length
    · have := ((List.forall₂_iff_get.1 hR).2 i (by simpa [hlen] using hi) (by simpa [hlen] using hi)).2
      simpa using this
    · rw [List.getElem?_eq_none (by rw [hlen]; omega), List.getElem?_eq_none (by rw [hlen]; omega)]))
  rw [a] at e1
  refine .mk' (all_lt_add (all_lt_add (all_lt_succ a b) fun i hi => ?_) fun i hi => ?_)
    (h4 := all_lt_one (add_right_cancel e1)) (h5 := ?_)
  · have := c i hi
    simpa [dropS, Nat.add_comm, Nat.add_left_comm, Nat.add_assoc] using this
  · have := hS.fr i (by simpa [hlen] using hi)
    simpa [dropS, Nat.add_comm, Nat.add_left_comm, Nat.add_assoc] using this.symm
  · obtain ⟨rfl, _⟩ := Uses.mapL (Aw11.uses_encShare cm env gk pks _) _ _ _ _ hL
    obtain ⟨rfl, _⟩ := Uses.mapL (Aw11.uses_encShare cm env gk pks _) _ _ _ _ hL'
    have := symmetric_nonce hd hd'
    simpa [Tape.adv] using this

end Rabe
