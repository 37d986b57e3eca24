import Verif.Proof.Inject
import Verif.Props.Fresh

/-!
# C70: every random value enters the output, BDABE and MKE08
-/

set_option linter.unusedSectionVars false

namespace Rabe

variable {F G1 G2 Gt : Type} [Field F] [DecidableEq F] [AddCommGroup G1] [Module F G1]
  [AddCommGroup G2] [Module F G2] [AddCommGroup Gt] [Module F Gt]

/-! ## BDABE -/

/-- **C70, BDABE.** -/
theorem Bdabe.C70_setup_used (env : Env F G1 G2 Gt) : Shapes (Bdabe.setup env) { fr := 1, g1 := 2, g2 := 2 } := by
  intro t u a t' u' h h'
  have e := out_eq h h' rfl rfl
  simp only [Prod.mk.injEq, Bdabe.PublicKey.mk.injEq, Bdabe.MasterKey.mk.injEq, dropS] at e
  obtain ⟨⟨e1, e2, e3, e4, _⟩, e5⟩ := e
  exact .mk' (all_lt_one e5) (all_lt_two e1 e3) (all_lt_two e2 e4)

/-- **C70, BDABE.** -/
theorem Bdabe.C70_authgen_used (pk : Bdabe.PublicKey G1 G2 Gt) (msk : Bdabe.MasterKey F) (hg : pk.g1 ≠ 0) (name : Str) :
    Shapes (Bdabe.authgen pk msk name) { fr := 2 } := by
  intro t u a t' u' h h'
  have e := out_eq h h' rfl rfl
  simp only [Bdabe.SecretAuthorityKey.mk.injEq, dropS] at e
  exact .mk' (all_lt_two (smul_left_inj hg e.2.1) e.2.2.2)

/-- **C70, BDABE.** -/
theorem Bdabe.C70_keygen_used (pk : Bdabe.PublicKey G1 G2 Gt) (hg : pk.g1 ≠ 0) (skA : Bdabe.SecretAuthorityKey F G1 G2)
    (name : Str) : Shapes (Bdabe.keygen pk skA name) { fr := 1 } := by
  intro t u a t' u' h h'
  have e := out_eq h h' rfl rfl
  simp only [Bdabe.UserKey.mk.injEq, Bdabe.PublicUserKey.mk.injEq] at e
  exact .mk' (all_lt_one (smul_left_inj hg e.2.1.2.1))

theorem Bdabe.uses_encTerm (pk : Bdabe.PublicKey G1 G2 Gt) (m : Gt) (t : DnfTerm G1 G2 Gt) :
    Uses (Bdabe.encTerm (F := F) pk m t) { fr := 1 } := by
  unfold Bdabe.encTerm; uses

/-- **C70, BDABE.** A ciphertext determines the scalar of every conjunction, the session element and the nonce. (The two
group elements drawn for the session element only enter through their pairing.) -/
theorem Bdabe.C70_encrypt_used (env : Env F G1 G2 Gt) (pk : Bdabe.PublicKey G1 G2 Gt) (hg : pk.p1 ≠ 0)
    (keys : List (Bdabe.PublicAttributeKey G1 G2 Gt)) (text : Str) (lang : PolicyLanguage) (m : Bytes)
    (d : DnfTerm G1 G2 Gt) (dnf : List (DnfTerm G1 G2 Gt))
    (hd : DnfPolicy.fromString text (keys.map Bdabe.PublicAttributeKey.view) lang = .ok (d :: dnf))
    (t u : Tape F G1 G2 Gt) (ct t' u') (h : Bdabe.encrypt env pk keys text lang m t = .ok (ct, t'))
    (h' : Bdabe.encrypt env pk keys text lang m u = .ok (ct, u')) :
    t.Same { fr := (d :: dnf).length, byte := 12 } u ∧ env.pair (t.g1 0) (t.g2 0) = env.pair (u.g1 0) (u.g2 0) := by
  simp only [Bdabe.encrypt, RM.bind_ok, RM.lift_ok_iff] at h h'
  obtain ⟨pol, t, ⟨hp, rfl⟩, h⟩ := h
  obtain ⟨pol', u, ⟨hp', rfl⟩, h'⟩ := h'
  rw [hp] at hp'
  cases hp'
  split at h
  next hdnf =>
    simp only [hd, RM.bind_ok, RM.genG1, RM.genG2, RM.lift_ok_iff, RM.pure_ok, Res.ok.injEq, Prod.mk.injEq, Res.unwrap,
      hdnf, if_true] at h h'
    obtain ⟨_, t, ⟨rfl, rfl⟩, _, _, ⟨rfl, rfl⟩, _, _, ⟨rfl, rfl⟩, L, _, hL, c, _, hc, rfl, _⟩ := h
    obtain ⟨_, u, ⟨rfl, rfl⟩, _, _, ⟨rfl, rfl⟩, _, _, ⟨rfl, rfl⟩, L', _, hL', c', _, hc', e, _⟩ := h'
    simp only [Bdabe.Ciphertext.mk.injEq] at e
    obtain ⟨_, rfl, rfl⟩ := e
    have key : ∀ (m1 m2 : Gt) (x : DnfTerm G1 G2 Gt) (t u : Tape F G1 G2 Gt) b t' u',
        Bdabe.encTerm pk m1 x t = .ok (b, t') → Bdabe.encTerm pk m2 x u = .ok (b, u') → t.fr 0 = u.fr 0 ∧ m1 = m2 := by
      intro m1 m2 x t u b t' u' h h'
      simp only [Bdabe.encTerm, RM.bind_ok, RM.genFr, RM.pure_ok, Res.ok.injEq, Prod.mk.injEq] at h h'
      obtain ⟨_, _, ⟨rfl, rfl⟩, rfl, _⟩ := h
      obtain ⟨_, _, ⟨rfl, rfl⟩, e, _⟩ := h'
      simp only [Bdabe.CiphertextTuple.mk.injEq] at e
      obtain ⟨_, e1, e2, _⟩ := e
      have e2 := smul_left_inj hg e2
      rw [e2] at e1
      exact ⟨e2, add_left_cancel e1⟩
    have hm : env.pair (t.g1 0) (t.g2 0) = env.pair (u.g1 0) (u.g2 0) := by
      simp only [RM.mapL, RM.rbind_eq, RM.rpure_eq, RM.bind_ok, RM.pure_ok] at hL hL'
      obtain ⟨z, _, h1, _, _, _, rfl, _⟩ := hL
      obtain ⟨z', _, k1, _, _, _, e, _⟩ := hL'
      simp only [List.cons.injEq] at e
      rw [← e.1] at k1
      exact (key _ _ _ _ _ _ _ _ h1 k1).2
    refine ⟨?_, hm⟩
    simp only at hL hL'
    rw [← hm] at hL'
    have hS := Shapes.mapL (Bdabe.uses_encTerm pk _) (fun x t u b t' u' h h' => .mk' (all_lt_one (key _ _ _ _ _ _ _ _ h h').1))
      _ _ _ _ _ _ hL hL'
    obtain ⟨rfl, _⟩ := Uses.mapL (Bdabe.uses_encTerm pk _) _ _ _ _ hL
    obtain ⟨rfl, _⟩ := Uses.mapL (Bdabe.uses_encTerm pk _) _ _ _ _ hL'
    refine .mk' (fun i hi => ?_) (h5 := ?_)
    · exact (hS.fr i (by simpa using hi)).symm
    · have := symmetric_nonce hc hc'
      simpa [Tape.adv] using this
  · simp at h

/-! ## MKE08 -/

/-- **C70, MKE08.** -/
theorem Mke08.C70_setup_used (env : Env F G1 G2 Gt) (t u : Tape F G1 G2 Gt) (a t' u') (h1 : t.g1 0 ≠ 0) (h2 : t.g2 0 ≠ 0)
    (h : Mke08.setup env t = .ok (a, t')) (h' : Mke08.setup env u = .ok (a, u')) :
    t.Same { fr := 2, g1 := 2, g2 := 2 } u := by
  have e := out_eq h h' rfl rfl
  simp only [Prod.mk.injEq, Mke08.PublicKey.mk.injEq, Mke08.MasterKey.mk.injEq, dropS] at e
  obtain ⟨⟨e1, e2, e3, e4, _⟩, e5, e6⟩ := e
  rw [← e1] at e5
  rw [← e2] at e6
  exact .mk' (all_lt_two (smul_left_inj h1 e5) (smul_left_inj h2 e6)) (all_lt_two e1 e3) (all_lt_two e2 e4)

/-- **C70, MKE08.** -/
theorem Mke08.C70_authgen_used (name : Str) : Shapes (Mke08.authgen name : RM F G1 G2 Gt _) { fr := 1 } := by
  intro t u a t' u' h h'
  have e := out_eq h h' rfl rfl
  simp only [Mke08.SecretAuthorityKey.mk.injEq] at e
  exact .mk' (all_lt_one e.2)

/-- **C70, MKE08.** -/
theorem Mke08.C70_keygen_used (pk : Mke08.PublicKey G1 G2 Gt) (hg : pk.g1 ≠ 0) (msk : Mke08.MasterKey G1 G2) (name : Str) :
    Shapes (Mke08.keygen (F := F) pk msk name) { fr := 1 } := by
  intro t u a t' u' h h'
  have e := out_eq h h' rfl rfl
  simp only [Mke08.UserKey.mk.injEq, Mke08.PublicUserKey.mk.injEq] at e
  exact .mk' (all_lt_one (smul_left_inj hg e.2.1.2.1))

theorem Mke08.uses_encTerm (pk : Mke08.PublicKey G1 G2 Gt) (m m' : Gt) (t : DnfTerm G1 G2 Gt) :
    Uses (Mke08.encTerm (F := F) pk m m' t) { fr := 1 } := by
  unfold Mke08.encTerm; uses

/-- **C70, MKE08.** A ciphertext determines the scalar of every conjunction, both parts of the session element and the
nonce; if the first part is not zero, also the factor between the parts. -/
theorem Mke08.C70_encrypt_used (env : Env F G1 G2 Gt) (pk : Mke08.PublicKey G1 G2 Gt) (hg : pk.p1 ≠ 0)
    (keys : List (Mke08.PublicAttributeKey G1 G2 Gt)) (text : Str) (lang : PolicyLanguage) (m : Bytes)
    (d : DnfTerm G1 G2 Gt) (dnf : List (DnfTerm G1 G2 Gt))
    (hd : DnfPolicy.fromString text (keys.map Mke08.PublicAttributeKey.view) lang = .ok (d :: dnf))
    (t u : Tape F G1 G2 Gt) (ct t' u') (hnz : env.pair (t.g1 0) (t.g2 0) ≠ 0)
    (h : Mke08.encrypt env pk keys text lang m t = .ok (ct, t'))
    (h' : Mke08.encrypt env pk keys text lang m u = .ok (ct, u')) :
    t.Same { fr := 1 + (d :: dnf).length, byte := 12 } u ∧ env.pair (t.g1 0) (t.g2 0) = env.pair (u.g1 0) (u.g2 0) := by
  simp only [Mke08.encrypt, RM.bind_ok, RM.lift_ok_iff] at h h'
  obtain ⟨pol, t, ⟨hp, rfl⟩, h⟩ := h
  obtain ⟨pol', u, ⟨hp', rfl⟩, h'⟩ := h'
  rw [hp] at hp'
  cases hp'
  split at h
  next hdnf =>
    simp only [hd, RM.bind_ok, RM.genG1, RM.genG2, RM.genFr, RM.lift_ok_iff, RM.pure_ok, Res.ok.injEq, Prod.mk.injEq,
      Res.unwrap, hdnf, if_true] at h h'
    obtain ⟨_, t, ⟨rfl, rfl⟩, _, _, ⟨rfl, rfl⟩, _, _, ⟨rfl, rfl⟩, _, _, ⟨rfl, rfl⟩, L, _, hL, c, _, hc, rfl, _⟩ := h
    obtain ⟨_, u, ⟨rfl, rfl⟩, _, _, ⟨rfl, rfl⟩, _, _, ⟨rfl, rfl⟩, _, _, ⟨rfl, rfl⟩, L', _, hL', c', _, hc', e, _⟩ := h'
    simp only [Mke08.Ciphertext.mk.injEq] at e
    obtain ⟨_, rfl, rfl⟩ := e
    have key : ∀ (m1 n1 m2 n2 : Gt) (x : DnfTerm G1 G2 Gt) (t u : Tape F G1 G2 Gt) b t' u',
        Mke08.encTerm pk m1 n1 x t = .ok (b, t') → Mke08.encTerm pk m2 n2 x u = .ok (b, u') →
        t.fr 0 = u.fr 0 ∧ m1 = m2 ∧ n1 = n2 := by
      intro m1 n1 m2 n2 x t u b t' u' h h'
      simp only [Mke08.encTerm, RM.bind_ok, RM.genFr, RM.pure_ok, Res.ok.injEq, Prod.mk.injEq] at h h'
      obtain ⟨_, _, ⟨rfl, rfl⟩, rfl, _⟩ := h
      obtain ⟨_, _, ⟨rfl, rfl⟩, e, _⟩ := h'
      simp only [Mke08.CTConjunction.mk.injEq] at e
      obtain ⟨_, e1, e2, e3, _⟩ := e
      have e3 := smul_left_inj hg e3
      rw [e3] at e1 e2
      exact ⟨e3, add_left_cancel e1, add_left_cancel e2⟩
    have hm : env.pair (t.g1 0) (t.g2 0) = env.pair (u.g1 0) (u.g2 0) ∧
        t.fr 0 • env.pair (t.g1 0) (t.g2 0) = u.fr 0 • env.pair (u.g1 0) (u.g2 0) := by
      simp only [RM.mapL, RM.rbind_eq, RM.rpure_eq, RM.bind_ok, RM.pure_ok] at hL hL'
      obtain ⟨z, _, h1, _, _, _, rfl, _⟩ := hL
      obtain ⟨z', _, k1, _, _, _, e, _⟩ := hL'
      simp only [List.cons.injEq] at e
      rw [← e.1] at k1
      exact (key _ _ _ _ _ _ _ _ _ _ h1 k1).2
    refine ⟨?_, hm.1⟩
    have hk : t.fr 0 = u.fr 0 := by
      rw [← hm.1] at hm
      exact smul_left_inj hnz hm.2
    simp only at hL hL'
    rw [← hm.1, ← hk] at hL'
    have hS := Shapes.mapL (Mke08.uses_encTerm pk _ _)
      (fun x t u b t' u' h h' => .mk' (all_lt_one (key _ _ _ _ _ _ _ _ _ _ h h').1)) _ _ _ _ _ _ hL hL'
    obtain ⟨rfl, _⟩ := Uses.mapL (Mke08.uses_encTerm pk _ _) _ _ _ _ hL
    obtain ⟨rfl, _⟩ := Uses.mapL (Mke08.uses_encTerm pk _ _) _ _ _ _ hL'
    refine .mk' (all_lt_succ hk fun i hi => ?_) (h5 := ?_)
    · exact (hS.fr i (by simpa using hi)).symm
    · have := symmetric_nonce hc hc'
      simpa [Tape.adv] using this
  · simp at h

end Rabe
