import Verif.Props.Fresh
import Verif.Instance.Case
import Verif.Instance.Bn
import Mathlib.Tactic.Abel

/-!
# C73: the plaintext enters a ciphertext only through the symmetric encryption
-/

set_option linter.unusedSectionVars false

namespace Rabe

variable {F G1 G2 Gt : Type} [Field F] [DecidableEq F] [AddCommGroup G1] [Module F G1]
  [AddCommGroup G2] [Module F G2] [AddCommGroup Gt] [Module F Gt]

/-- The first twelve random bytes of a stream. -/
def Tape.nonce (t : Tape F G1 G2 Gt) : Bytes := (List.range 12).map t.byte

/-- The stream with another first element of `Gt`. -/
def Tape.setGt (t : Tape F G1 G2 Gt) (msg : Gt) : Tape F G1 G2 Gt :=
  { t with gt := fun n => if n = 0 then msg else t.gt n }

/-- The stream with other first points. -/
def Tape.setPoints (t : Tape F G1 G2 Gt) (x : G1) (y : G2) : Tape F G1 G2 Gt :=
  { t with g1 := fun n => if n = 0 then x else t.g1 n, g2 := fun n => if n = 0 then y else t.g2 n }

theorem dropS_one_set {γ : Type} (x : γ) (ω : ℕ → γ) : dropS 1 (fun n => if n = 0 then x else ω n) = dropS 1 ω := by
  funext n; simp [dropS]

theorem encryptSymmetric_ok_iff {env : Env F G1 G2 Gt} {msg : Gt} {m d : Bytes} {t t' : Tape F G1 G2 Gt} :
    encryptSymmetric env msg m t = .ok (d, t') ↔ t' = { t with byte := dropS 12 t.byte } ∧
      ∃ c, env.aeadEnc (env.kdf msg) t.nonce m = some c ∧ d = t.nonce ++ c := by
  simp only [encryptSymmetric, RM.bind_ok, RM.genBytes, Res.ok.injEq, Prod.mk.injEq]
  constructor
  · rintro ⟨_, _, ⟨rfl, rfl⟩, h⟩
    cases e : env.aeadEnc (env.kdf msg) ((List.range 12).map t.byte) m with
    | none => simp only [e, RM.lift_ok_iff] at h; simp at h
    | some c =>
      simp only [e, RM.pure_ok] at h
      exact ⟨h.2, c, e, h.1⟩
  · rintro ⟨rfl, c, e, rfl⟩
    refine ⟨_, _, ⟨rfl, rfl⟩, ?_⟩
    simp only [Tape.nonce] at e
    simp [e, Tape.nonce]

theorem liftFr_ok_iff {α : Type} {f : (ℕ → F) → Res (α × (ℕ → F))} {t t' : Tape F G1 G2 Gt} {a : α} :
    RM.liftFr f t = .ok (a, t') ↔ ∃ ω, f t.fr = .ok (a, ω) ∧ t' = { t with fr := ω } := by
  simp only [RM.liftFr]
  cases f t.fr with
  | ok x => obtain ⟨y, ω⟩ := x; simp [eq_comm]
  | err => simp
  | panic => simp

/-- **C73, BSW.** The payload is the nonce and the encryption of the plaintext under the key derived from the session
element, which is the next random element of `Gt`. With another plaintext and another session element the same random
numbers give a ciphertext that differs in the payload and in the masked session element only. -/
theorem Bsw.C73_encrypt (env : Env F G1 G2 Gt) (pk : Bsw.PublicKey G1 G2 Gt) (text : Str) (lang : PolicyLanguage)
    (m : Bytes) (t t' : Tape F G1 G2 Gt) (ct : Bsw.Ciphertext G1 G2 Gt)
    (h : Bsw.encrypt env pk text lang m t = .ok (ct, t')) :
    (∃ c, env.aeadEnc (env.kdf (t.gt 0)) t.nonce m = some c ∧ ct.data = t.nonce ++ c) ∧
    ∀ (msg' : Gt) (m' c' : Bytes), env.aeadEnc (env.kdf msg') t.nonce m' = some c' →
      Bsw.encrypt env pk text lang m' (t.setGt msg') =
        .ok ({ ct with cP := ct.cP + (msg' - t.gt 0), data := t.nonce ++ c' }, t') := by
  simp only [Bsw.encrypt, RM.bind_ok, RM.genFr, RM.genGt, RM.lift_ok_iff, liftFr_ok_iff, RM.pure_ok, Res.ok.injEq,
    Prod.mk.injEq, encryptSymmetric_ok_iff] at h
  obtain ⟨_, _, ⟨rfl, rfl⟩, _, _, ⟨rfl, rfl⟩, v, _, ⟨hv, rfl⟩, sh, _, ⟨ω, hs, rfl⟩, sh', _, ⟨hs', rfl⟩, d, _,
    ⟨rfl, c, hc, rfl⟩, rfl, rfl⟩ := h
  refine ⟨⟨c, hc, rfl⟩, fun msg' m' c' hc' => ?_⟩
  simp only [Bsw.encrypt, RM.bind_ok, RM.genFr, RM.genGt, RM.lift_ok_iff, liftFr_ok_iff, RM.pure_ok, Res.ok.injEq,
    Prod.mk.injEq, encryptSymmetric_ok_iff, Tape.setGt, dropS_one_set]
  refine ⟨_, _, ⟨rfl, rfl⟩, _, _, ⟨rfl, rfl⟩, v, _, ⟨hv, rfl⟩, sh, _, ⟨ω, hs, rfl⟩, sh', _, ⟨hs', rfl⟩, _, _,
    ⟨rfl, c', hc', rfl⟩, ?_, ?_⟩
  · congr 1
    simp only [if_true]
    abel
  · simp only [dropS_one_set]

theorem Uses.nonce {α : Type} {x : RM F G1 G2 Gt α} {n : Draws} (hx : Uses x n) (hn : n.byte = 0)
    {t u : Tape F G1 G2 Gt} {a : α} (h : x t = .ok (a, u)) : u.nonce = t.nonce := by
  obtain ⟨rfl, -⟩ := hx t a u h
  simp [Tape.nonce, Tape.adv, hn, dropS_zero]

/-- **C73, GHW11.** As for BSW. -/
theorem Ghw11.C73_encrypt (env : Env F G1 G2 Gt) (pk : Ghw11.PublicKey G1 G2 Gt) (text : Str) (lang : PolicyLanguage)
    (m : Bytes) (t t' : Tape F G1 G2 Gt) (ct : Ghw11.Ciphertext G1 Gt)
    (h : Ghw11.encrypt env pk text lang m t = .ok (ct, t')) :
    (∃ c, env.aeadEnc (env.kdf (t.gt 0)) t.nonce m = some c ∧ ct.data = t.nonce ++ c) ∧
    ∀ (msg' : Gt) (m' c' : Bytes), env.aeadEnc (env.kdf msg') t.nonce m' = some c' →
      Ghw11.encrypt env pk text lang m' (t.setGt msg') =
        .ok ({ ct with c := ct.c + (msg' - t.gt 0), data := t.nonce ++ c' }, t') := by
  have hk : ∀ s, Uses (Ghw11.encShare env pk s) { fr := 1 } := by
    intro s; unfold Ghw11.encShare; uses
  simp only [Ghw11.encrypt, RM.bind_ok, RM.genFr, RM.genGt, RM.lift_ok_iff, liftFr_ok_iff, RM.pure_ok, Res.ok.injEq,
    Prod.mk.injEq, encryptSymmetric_ok_iff] at h
  obtain ⟨_, _, ⟨rfl, rfl⟩, _, _, ⟨rfl, rfl⟩, v, _, ⟨hv, rfl⟩, sh, _, ⟨ω, hs, rfl⟩, sh', _, ⟨hs', rfl⟩, l, u, hl, d, _,
    ⟨rfl, c, hc, rfl⟩, rfl, rfl⟩ := h
  have hn := (Uses.mapL hk sh').nonce (by simp) hl
  replace hn : u.nonce = t.nonce := hn
  rw [hn] at hc ⊢
  refine ⟨⟨c, hc, rfl⟩, fun msg' m' c' hc' => ?_⟩
  rw [← hn] at hc' ⊢
  simp only [Ghw11.encrypt, RM.bind_ok, RM.genFr, RM.genGt, RM.lift_ok_iff, liftFr_ok_iff, RM.pure_ok, Res.ok.injEq,
    Prod.mk.injEq, encryptSymmetric_ok_iff, Tape.setGt]
  refine ⟨_, _, ⟨rfl, rfl⟩, _, _, ⟨rfl, rfl⟩, v, _, ⟨hv, rfl⟩, sh, _, ⟨ω, hs, rfl⟩, sh', _, ⟨hs', rfl⟩, l, u,
    by simpa only [dropS_one_set] using hl, _, _, ⟨rfl, c', hc', rfl⟩, ?_, rfl⟩
  congr 1
  simp only [if_true]
  abel

/-- **C73, AW11.** As for BSW. -/
theorem Aw11.C73_encrypt (cm : CaseMap) (env : Env F G1 G2 Gt) (gk : Aw11.GlobalKey G1 G2)
    (pks : List (Aw11.PublicKey G2 Gt)) (text : Str) (lang : PolicyLanguage)
    (m : Bytes) (t t' : Tape F G1 G2 Gt) (ct : Aw11.Ciphertext G2 Gt)
    (h : Aw11.encrypt cm env gk pks text lang m t = .ok (ct, t')) :
    (∃ c, env.aeadEnc (env.kdf (t.gt 0)) t.nonce m = some c ∧ ct.ct = t.nonce ++ c) ∧
    ∀ (msg' : Gt) (m' c' : Bytes), env.aeadEnc (env.kdf msg') t.nonce m' = some c' →
      Aw11.encrypt cm env gk pks text lang m' (t.setGt msg') =
        .ok ({ ct with c0 := ct.c0 + (msg' - t.gt 0), ct := t.nonce ++ c' }, t') := by
  have hk : ∀ w x, Uses (Aw11.encShare cm env gk pks w x) { fr := 1 } := by
    intro w x
    unfold Aw11.encShare
    refine (Uses.genFr.bind (k := 0) fun _ => ?_).cast (by ext <;> simp)
    cases Aw11.findPkAttr (removeIndex (cm.upper x.1.1)) pks with
    | none => exact Uses.pure _
    | some a => exact ((Uses.lift _).bind fun _ => Uses.pure _).cast (by ext <;> simp)
  simp only [Aw11.encrypt, RM.bind_ok, RM.genFr, RM.genGt, RM.lift_ok_iff, liftFr_ok_iff, RM.pure_ok, Res.ok.injEq,
    Prod.mk.injEq, encryptSymmetric_ok_iff] at h
  obtain ⟨v, t, ⟨hv, rfl⟩, msp, t, ⟨hm, rfl⟩, row, t, ⟨hr, rfl⟩, _, _, ⟨rfl, rfl⟩, sh, _, ⟨ω, hs, rfl⟩, sh', _, ⟨hs', rfl⟩,
    w, _, ⟨ω', hw, rfl⟩, w', _, ⟨hw', rfl⟩, _, _, ⟨rfl, rfl⟩, l, u, hl, d, _, ⟨rfl, c, hc, rfl⟩, rfl, rfl⟩ := h
  have hn := (Uses.mapL (hk w') sh'.zipIdx).nonce (by simp) hl
  replace hn : u.nonce = t.nonce := hn
  rw [hn] at hc ⊢
  refine ⟨⟨c, hc, rfl⟩, fun msg' m' c' hc' => ?_⟩
  rw [← hn] at hc' ⊢
  simp only [Aw11.encrypt, RM.bind_ok, RM.genFr, RM.genGt, RM.lift_ok_iff, liftFr_ok_iff, RM.pure_ok, Res.ok.injEq,
    Prod.mk.injEq, encryptSymmetric_ok_iff, Tape.setGt]
  refine ⟨v, _, ⟨hv, rfl⟩, msp, _, ⟨hm, rfl⟩, row, _, ⟨hr, rfl⟩, _, _, ⟨rfl, rfl⟩, sh, _, ⟨ω, hs, rfl⟩, sh', _, ⟨hs', rfl⟩,
    w, _, ⟨ω', hw, rfl⟩, w', _, ⟨hw', rfl⟩, _, _, ⟨rfl, rfl⟩, l, u, by simpa only [dropS_one_set] using hl, _, _,
    ⟨rfl, c', hc', rfl⟩, ?_, rfl⟩
  congr 1
  simp only [if_true]
  abel

/-- **C73, LSW.** As for BSW, for non-empty plaintexts. -/
theorem Lsw.C73_encrypt (env : Env F G1 G2 Gt) (pk : Lsw.PublicKey G1 G2 Gt) (attrs : List Str)
    (m : Bytes) (t t' : Tape F G1 G2 Gt) (ct : Lsw.Ciphertext G1 G2 Gt)
    (h : Lsw.encrypt env pk attrs m t = .ok (ct, t')) :
    (∃ c, env.aeadEnc (env.kdf (t.gt 0)) t.nonce m = some c ∧ ct.ct = t.nonce ++ c) ∧
    ∀ (msg' : Gt) (m' c' : Bytes), m' ≠ [] → env.aeadEnc (env.kdf msg') t.nonce m' = some c' →
      Lsw.encrypt env pk attrs m' (t.setGt msg') =
        .ok ({ ct with e1 := ct.e1 + (msg' - t.gt 0), ct := t.nonce ++ c' }, t') := by
  unfold Lsw.encrypt at h
  split at h
  · simp [RM.lift] at h
  rename_i hne
  simp only [RM.bind_ok, RM.genFr, RM.genGt, RM.lift_ok_iff, RM.pure_ok, Res.ok.injEq,
    Prod.mk.injEq, encryptSymmetric_ok_iff] at h
  obtain ⟨_, _, ⟨rfl, rfl⟩, sx, u, hx, ej, _, ⟨he, rfl⟩, _, _, ⟨rfl, rfl⟩, d, _, ⟨rfl, c, hc, rfl⟩, rfl, rfl⟩ := h
  have hu := Lsw.uses_sxLoop _ _ _ _ _ _ hx
  obtain ⟨rfl, hu⟩ := hu
  refine ⟨⟨c, ?_, ?_⟩, fun msg' m' c' hm' hc' => ?_⟩
  · simpa [Tape.adv, Tape.nonce, dropS_zero] using hc
  · simp [Tape.adv, Tape.nonce, dropS_zero]
  have hne' : ¬ (attrs.isEmpty || m'.isEmpty) = true := by
    simp only [Bool.or_eq_true, List.isEmpty_iff, not_or] at hne ⊢
    exact ⟨hne.1, hm'⟩
  unfold Lsw.encrypt
  rw [if_neg hne']
  simp only [RM.bind_ok, RM.genFr, RM.genGt, RM.lift_ok_iff, RM.pure_ok, Res.ok.injEq,
    Prod.mk.injEq, encryptSymmetric_ok_iff]
  refine ⟨_, _, ⟨rfl, rfl⟩, sx, _, hu { t.setGt msg' with fr := dropS 1 t.fr } ⟨by simp, by simp, by simp, by simp, by simp⟩, ej, _,
    ⟨he, rfl⟩, _, _, ⟨rfl, rfl⟩, _, _, ⟨rfl, c', ?_, rfl⟩, ?_, ?_⟩
  · simpa [Tape.setGt, Tape.adv, Tape.nonce, dropS_zero] using hc'
  · simp only [Tape.adv, Tape.setGt, dropS_zero, if_true, Tape.nonce]
    congr 1
    abel
  · simp only [Tape.adv, Tape.setGt, dropS_zero, dropS_one_set]

/-- **C73, YCT14.** The symmetric key is derived from `k • g` for the next random scalar `k`; another plaintext changes the
payload only. -/
theorem Yct14.C73_encrypt (env : Env F G1 G2 Gt) (pk : Yct14.PublicKey F Gt) (attrs : List Str)
    (m : Bytes) (t t' : Tape F G1 G2 Gt) (ct : Yct14.Ciphertext F Gt)
    (h : Yct14.encrypt env pk attrs m t = .ok (ct, t')) :
    (∃ c, env.aeadEnc (env.kdf (t.fr 0 • pk.g)) t.nonce m = some c ∧ ct.ct = t.nonce ++ c) ∧
    ∀ (m' c' : Bytes), m' ≠ [] → env.aeadEnc (env.kdf (t.fr 0 • pk.g)) t.nonce m' = some c' →
      Yct14.encrypt env pk attrs m' t = .ok ({ ct with ct := t.nonce ++ c' }, t') := by
  unfold Yct14.encrypt at h
  split at h
  · simp [RM.lift] at h
  split at h
  · simp [RM.lift] at h
  rename_i hne hm
  simp only [RM.bind_ok, RM.genFr, RM.lift_ok_iff, RM.pure_ok, Res.ok.injEq, Prod.mk.injEq, encryptSymmetric_ok_iff] at h
  obtain ⟨_, _, ⟨rfl, rfl⟩, l, _, ⟨hl, rfl⟩, d, _, ⟨rfl, c, hc, rfl⟩, rfl, rfl⟩ := h
  refine ⟨⟨c, hc, rfl⟩, fun m' c' hm' hc' => ?_⟩
  unfold Yct14.encrypt
  rw [if_neg hne, if_neg (by simpa using hm')]
  simp only [RM.bind_ok, RM.genFr, RM.lift_ok_iff, RM.pure_ok, Res.ok.injEq, Prod.mk.injEq, encryptSymmetric_ok_iff]
  exact ⟨_, _, ⟨rfl, rfl⟩, l, _, ⟨hl, rfl⟩, _, _, ⟨rfl, c', hc', rfl⟩, rfl, rfl⟩

/-- **C73, AC17 CP-ABE.** As for BSW. -/
theorem Ac17.C73_cp_encrypt (env : Env F G1 G2 Gt) (pk : Ac17.PublicKey G1 G2 Gt) (text : Str) (lang : PolicyLanguage)
    (m : Bytes) (t t' : Tape F G1 G2 Gt) (ct : Ac17.CpCiphertext G1 G2 Gt)
    (h : Ac17.cpEncrypt env pk text m lang t = .ok (ct, t')) :
    (∃ c, env.aeadEnc (env.kdf (t.gt 0)) t.nonce m = some c ∧ ct.ct.ct = t.nonce ++ c) ∧
    ∀ (msg' : Gt) (m' c' : Bytes), env.aeadEnc (env.kdf msg') t.nonce m' = some c' →
      Ac17.cpEncrypt env pk text m' lang (t.setGt msg') =
        .ok ({ ct with ct := { ct.ct with cP := ct.ct.cP + (msg' - t.gt 0), ct := t.nonce ++ c' } }, t') := by
  simp only [Ac17.cpEncrypt, RM.bind_ok, RM.genFr, RM.genGt, RM.lift_ok_iff, RM.pure_ok, Res.ok.injEq,
    Prod.mk.injEq, encryptSymmetric_ok_iff] at h
  obtain ⟨v, _, ⟨hv, rfl⟩, msp, _, ⟨hm, rfl⟩, row, _, ⟨hr, rfl⟩, _, _, ⟨rfl, rfl⟩, _, _, ⟨rfl, rfl⟩, c0, _, ⟨h0, rfl⟩,
    cp, _, ⟨h1, rfl⟩, _, _, ⟨rfl, rfl⟩, d, _, ⟨rfl, c, hc, rfl⟩, rfl, rfl⟩ := h
  refine ⟨⟨c, hc, rfl⟩, fun msg' m' c' hc' => ?_⟩
  simp only [Ac17.cpEncrypt, RM.bind_ok, RM.genFr, RM.genGt, RM.lift_ok_iff, RM.pure_ok, Res.ok.injEq,
    Prod.mk.injEq, encryptSymmetric_ok_iff, Tape.setGt]
  refine ⟨v, _, ⟨hv, rfl⟩, msp, _, ⟨hm, rfl⟩, row, _, ⟨hr, rfl⟩, _, _, ⟨rfl, rfl⟩, _, _, ⟨rfl, rfl⟩, c0, _, ⟨h0, rfl⟩,
    cp, _, ⟨h1, rfl⟩, _, _, ⟨rfl, rfl⟩, _, _, ⟨rfl, c', hc', rfl⟩, ?_, ?_⟩
  · congr 2
    simp only [if_true]
    abel
  · simp only [dropS_one_set]

/-- **C73, AC17 KP-ABE.** As for BSW. -/
theorem Ac17.C73_kp_encrypt (env : Env F G1 G2 Gt) (pk : Ac17.PublicKey G1 G2 Gt) (attrs : List Str)
    (m : Bytes) (t t' : Tape F G1 G2 Gt) (ct : Ac17.KpCiphertext G1 G2 Gt)
    (h : Ac17.kpEncrypt env pk attrs m t = .ok (ct, t')) :
    (∃ c, env.aeadEnc (env.kdf (t.gt 0)) t.nonce m = some c ∧ ct.ct.ct = t.nonce ++ c) ∧
    ∀ (msg' : Gt) (m' c' : Bytes), env.aeadEnc (env.kdf msg') t.nonce m' = some c' →
      Ac17.kpEncrypt env pk attrs m' (t.setGt msg') =
        .ok ({ ct with ct := { ct.ct with cP := ct.ct.cP + (msg' - t.gt 0), ct := t.nonce ++ c' } }, t') := by
  simp only [Ac17.kpEncrypt, RM.bind_ok, RM.genFr, RM.genGt, RM.lift_ok_iff, RM.pure_ok, Res.ok.injEq,
    Prod.mk.injEq, encryptSymmetric_ok_iff] at h
  obtain ⟨_, _, ⟨rfl, rfl⟩, _, _, ⟨rfl, rfl⟩, c0, _, ⟨h0, rfl⟩,
    cp, _, ⟨h1, rfl⟩, _, _, ⟨rfl, rfl⟩, d, _, ⟨rfl, c, hc, rfl⟩, rfl, rfl⟩ := h
  refine ⟨⟨c, hc, rfl⟩, fun msg' m' c' hc' => ?_⟩
  simp only [Ac17.kpEncrypt, RM.bind_ok, RM.genFr, RM.genGt, RM.lift_ok_iff, RM.pure_ok, Res.ok.injEq,
    Prod.mk.injEq, encryptSymmetric_ok_iff, Tape.setGt]
  refine ⟨_, _, ⟨rfl, rfl⟩, _, _, ⟨rfl, rfl⟩, c0, _, ⟨h0, rfl⟩,
    cp, _, ⟨h1, rfl⟩, _, _, ⟨rfl, rfl⟩, _, _, ⟨rfl, c', hc', rfl⟩, ?_, ?_⟩
  · congr 2
    simp only [if_true]
    abel
  · simp only [dropS_one_set]

theorem swap_msg (a x y : Gt) : a + y = a + x + (y - x) := by abel

theorem swap_smul (k : F) (a x y : Gt) : a + k • y = a + k • x + k • (y - x) := by rw [smul_sub]; abel

theorem RM.mapL_map {α β : Type} {f g : α → RM F G1 G2 Gt β} (φ : β → β)
    (h : ∀ x t y t', f x t = .ok (y, t') → g x t = .ok (φ y, t')) :
    ∀ (l : List α) (t : Tape F G1 G2 Gt) (ys : List β) (t' : Tape F G1 G2 Gt), RM.mapL f l t = .ok (ys, t') →
      RM.mapL g l t = .ok (ys.map φ, t')
  | [], t, ys, t', e => by
    simp only [RM.mapL, RM.rpure_eq, RM.pure_ok] at e ⊢
    obtain ⟨rfl, rfl⟩ := e
    exact ⟨rfl, rfl⟩
  | x :: l, t, ys, t', e => by
    simp only [RM.mapL, RM.rbind_eq, RM.rpure_eq, RM.bind_ok, RM.pure_ok] at e ⊢
    obtain ⟨y, t1, e1, zs, t2, e2, rfl, rfl⟩ := e
    exact ⟨_, _, h _ _ _ _ e1, _, _, RM.mapL_map φ h l _ _ _ e2, rfl, rfl⟩

/-- **C73, BDABE.** The session element is the pairing of the next two random points. With other points and another
plaintext the same scalars give a ciphertext that differs in the payload and in the masked session elements only. -/
theorem Bdabe.C73_encrypt (env : Env F G1 G2 Gt) (pk : Bdabe.PublicKey G1 G2 Gt)
    (keys : List (Bdabe.PublicAttributeKey G1 G2 Gt)) (text : Str) (lang : PolicyLanguage)
    (m : Bytes) (t t' : Tape F G1 G2 Gt) (ct : Bdabe.Ciphertext G1 G2 Gt)
    (h : Bdabe.encrypt env pk keys text lang m t = .ok (ct, t')) :
    (∃ c, env.aeadEnc (env.kdf (env.pair (t.g1 0) (t.g2 0))) t.nonce m = some c ∧ ct.ct = t.nonce ++ c) ∧
    ∀ (x : G1) (y : G2) (m' c' : Bytes), env.aeadEnc (env.kdf (env.pair x y)) t.nonce m' = some c' →
      Bdabe.encrypt env pk keys text lang m' (t.setPoints x y) =
        .ok ({ ct with j := ct.j.map fun e => { e with e1 := e.e1 + (env.pair x y - env.pair (t.g1 0) (t.g2 0)) },
                       ct := t.nonce ++ c' }, t') := by
  have hk : ∀ msg s, Uses (Bdabe.encTerm (F := F) pk msg s) { fr := 1 } := by
    intro msg s; unfold Bdabe.encTerm; uses
  simp only [Bdabe.encrypt, RM.bind_ok, RM.lift_ok_iff] at h
  obtain ⟨v, t, ⟨hv, rfl⟩, h⟩ := h
  split at h
  swap
  · simp [RM.lift] at h
  rename_i hdnf
  simp only [RM.bind_ok, RM.genG1, RM.genG2, RM.lift_ok_iff, RM.pure_ok, Res.ok.injEq, Prod.mk.injEq,
    encryptSymmetric_ok_iff] at h
  obtain ⟨dnf, t, ⟨hd, rfl⟩, _, _, ⟨rfl, rfl⟩, _, _, ⟨rfl, rfl⟩, l, u, hl, d, _, ⟨rfl, c, hc, rfl⟩, rfl, rfl⟩ := h
  have hn := (Uses.mapL (hk _) dnf).nonce (by simp) hl
  replace hn : u.nonce = t.nonce := hn
  rw [hn] at hc ⊢
  refine ⟨⟨c, hc, rfl⟩, fun x y m' c' hc' => ?_⟩
  rw [← hn] at hc' ⊢
  simp only [Bdabe.encrypt, RM.bind_ok, RM.lift_ok_iff]
  refine ⟨v, _, ⟨hv, rfl⟩, ?_⟩
  rw [if_pos hdnf]
  simp only [RM.bind_ok, RM.genG1, RM.genG2, RM.lift_ok_iff, RM.pure_ok, Res.ok.injEq, Prod.mk.injEq,
    encryptSymmetric_ok_iff]
  refine ⟨dnf, _, ⟨hd, rfl⟩, _, _, ⟨rfl, rfl⟩, _, _, ⟨rfl, rfl⟩, _, u, ?_, _, _, ⟨rfl, c', hc', rfl⟩, rfl, rfl⟩
  simp only [Tape.setPoints, dropS_one_set, if_true]
  refine RM.mapL_map _ (fun s t z t' e => ?_) _ _ _ _ hl
  simp only [Bdabe.encTerm, RM.bind_ok, RM.genFr, RM.pure_ok, Res.ok.injEq, Prod.mk.injEq] at e ⊢
  obtain ⟨_, _, ⟨rfl, rfl⟩, rfl, rfl⟩ := e
  refine ⟨_, _, ⟨rfl, rfl⟩, ?_, rfl⟩
  congr 1
  exact (swap_msg (Gt := Gt) _ _ _).symm

/-- **C73, MKE08.** As for BDABE; the two parts of the session element are the pairing and a random multiple of it. -/
theorem Mke08.C73_encrypt (env : Env F G1 G2 Gt) (pk : Mke08.PublicKey G1 G2 Gt)
    (keys : List (Mke08.PublicAttributeKey G1 G2 Gt)) (text : Str) (lang : PolicyLanguage)
    (m : Bytes) (t t' : Tape F G1 G2 Gt) (ct : Mke08.Ciphertext G1 G2 Gt)
    (h : Mke08.encrypt env pk keys text lang m t = .ok (ct, t')) :
    (∃ c, env.aeadEnc (env.kdf (env.pair (t.g1 0) (t.g2 0) + t.fr 0 • env.pair (t.g1 0) (t.g2 0))) t.nonce m = some c ∧
      ct.ct = t.nonce ++ c) ∧
    ∀ (x : G1) (y : G2) (m' c' : Bytes),
      env.aeadEnc (env.kdf (env.pair x y + t.fr 0 • env.pair x y)) t.nonce m' = some c' →
      Mke08.encrypt env pk keys text lang m' (t.setPoints x y) =
        .ok ({ ct with e := ct.e.map fun e => { e with
                         j1 := e.j1 + (env.pair x y - env.pair (t.g1 0) (t.g2 0)),
                         j2 := e.j2 + t.fr 0 • (env.pair x y - env.pair (t.g1 0) (t.g2 0)) },
                       ct := t.nonce ++ c' }, t') := by
  have hk : ∀ msg msg' s, Uses (Mke08.encTerm (F := F) pk msg msg' s) { fr := 1 } := by
    intro msg msg' s; unfold Mke08.encTerm; uses
  simp only [Mke08.encrypt, RM.bind_ok, RM.lift_ok_iff] at h
  obtain ⟨v, t, ⟨hv, rfl⟩, h⟩ := h
  split at h
  swap
  · simp [RM.lift] at h
  rename_i hdnf
  simp only [RM.bind_ok, RM.genG1, RM.genG2, RM.genFr, RM.lift_ok_iff, RM.pure_ok, Res.ok.injEq, Prod.mk.injEq,
    encryptSymmetric_ok_iff] at h
  obtain ⟨dnf, t, ⟨hd, rfl⟩, _, _, ⟨rfl, rfl⟩, _, _, ⟨rfl, rfl⟩, _, _, ⟨rfl, rfl⟩, l, u, hl, d, _, ⟨rfl, c, hc, rfl⟩, rfl,
    rfl⟩ := h
  have hn := (Uses.mapL (hk _ _) dnf).nonce (by simp) hl
  replace hn : u.nonce = t.nonce := hn
  rw [hn] at hc ⊢
  refine ⟨⟨c, hc, rfl⟩, fun x y m' c' hc' => ?_⟩
  rw [← hn] at hc' ⊢
  simp only [Mke08.encrypt, RM.bind_ok, RM.lift_ok_iff]
  refine ⟨v, _, ⟨hv, rfl⟩, ?_⟩
  rw [if_pos hdnf]
  simp only [RM.bind_ok, RM.genG1, RM.genG2, RM.genFr, RM.lift_ok_iff, RM.pure_ok, Res.ok.injEq, Prod.mk.injEq,
    encryptSymmetric_ok_iff]
  refine ⟨dnf, _, ⟨hd, rfl⟩, _, _, ⟨rfl, rfl⟩, _, _, ⟨rfl, rfl⟩, _, _, ⟨rfl, rfl⟩, _, u, ?_, _, _, ⟨rfl, c', hc', rfl⟩, rfl,
    rfl⟩
  simp only [Tape.setPoints, dropS_one_set, if_true]
  refine RM.mapL_map _ (fun s t z t' e => ?_) _ _ _ _ hl
  simp only [Mke08.encTerm, RM.bind_ok, RM.genFr, RM.pure_ok, Res.ok.injEq, Prod.mk.injEq] at e ⊢
  obtain ⟨_, _, ⟨rfl, rfl⟩, rfl, rfl⟩ := e
  refine ⟨_, _, ⟨rfl, rfl⟩, ?_, rfl⟩
  congr 1
  · exact (swap_msg (Gt := Gt) _ _ _).symm
  · exact (swap_smul (F := F) (Gt := Gt) _ _ _ _).symm

/-! ## Cases

Two runs each: the second with another plaintext and another session element, as in the theorems. -/

example : (Bsw.setup toyEnv toyTape).check (fun ((pk, _), t) =>
    (Bsw.encrypt toyEnv pk (chars% "\"A\" and \"B\"") .human [1, 2] t).check fun (ct, _) =>
    (Bsw.encrypt toyEnv pk (chars% "\"A\" and \"B\"") .human [7] (t.setGt 9)).check fun (ct', _) =>
      decide (ct.data ≠ ct'.data ∧ ct'.cP = ct.cP + 8 ∧ ct.c = ct'.c ∧
        ct.cY.map (fun x => (x.string, x.g1, x.g2)) = ct'.cY.map fun x => (x.string, x.g1, x.g2))) = true := by
  decide +kernel

example : (Ghw11.setup toyEnv toyTape).check (fun ((pk, _), t) =>
    (Ghw11.encrypt toyEnv pk (chars% "\"A\" and \"B\"") .human [1, 2] t).check fun (ct, _) =>
    (Ghw11.encrypt toyEnv pk (chars% "\"A\" and \"B\"") .human [7] (t.setGt 9)).check fun (ct', _) =>
      decide (ct.data ≠ ct'.data ∧ ct'.c = ct.c + 8 ∧ ct.c1 = ct'.c1 ∧ ct.ciDi = ct'.ciDi)) = true := by
  decide +kernel

example : (Aw11.setup toyTape).check (fun (gk, t) =>
    (Aw11.authgen asciiCase toyEnv gk [['A'], ['B']] t).check fun (r, t) => match r with
      | none => false
      | some (pk, _) => (Aw11.encrypt asciiCase toyEnv gk [pk] (chars% "\"A\" and \"B\"") .human [1, 2] t).check fun (ct, _) =>
        (Aw11.encrypt asciiCase toyEnv gk [pk] (chars% "\"A\" and \"B\"") .human [7] (t.setGt 9)).check fun (ct', _) =>
          decide (ct.ct ≠ ct'.ct ∧ ct'.c0 = ct.c0 + 8 ∧
            ct.c.map (fun x => (x.name, x.c1, x.c2, x.c3)) = ct'.c.map fun x => (x.name, x.c1, x.c2, x.c3))) = true := by
  decide +kernel

example : (Lsw.setup toyEnv toyTape).check (fun ((pk, _), t) =>
    (Lsw.encrypt toyEnv pk [['A'], ['B']] [1, 2] t).check fun (ct, _) =>
    (Lsw.encrypt toyEnv pk [['A'], ['B']] [7] (t.setGt 9)).check fun (ct', _) =>
      decide (ct.ct ≠ ct'.ct ∧ ct'.e1 = ct.e1 + 8 ∧ ct.e2 = ct'.e2 ∧
        ct.ej.map (fun x => (x.name, x.e1, x.e2, x.e3)) = ct'.ej.map fun x => (x.name, x.e1, x.e2, x.e3))) = true := by
  decide +kernel

example : (Yct14.setup [['A'], ['B']] toyTape).check (fun ((pk, _), t) =>
    (Yct14.encrypt toyEnv pk [['A'], ['B']] [1, 2] t).check fun (ct, _) =>
    (Yct14.encrypt toyEnv pk [['A'], ['B']] [7] t).check fun (ct', _) =>
      decide (ct.ct ≠ ct'.ct ∧ ct.attributes.map (·.name) = ct'.attributes.map (·.name))) = true := by
  decide +kernel

example : (Ac17.setup toyEnv toyTape).check (fun ((pk, _), t) =>
    ((Ac17.cpEncrypt toyEnv pk (chars% "\"A\" and \"B\"") [1, 2] .human t).check fun (ct, _) =>
    (Ac17.cpEncrypt toyEnv pk (chars% "\"A\" and \"B\"") [7] .human (t.setGt 9)).check fun (ct', _) =>
      decide (ct.ct.ct ≠ ct'.ct.ct ∧ ct'.ct.cP = ct.ct.cP + 8 ∧ ct.ct.c0 = ct'.ct.c0 ∧ ct.ct.c = ct'.ct.c)) &&
    (Ac17.kpEncrypt toyEnv pk [['A'], ['B']] [1, 2] t).check fun (ct, _) =>
    (Ac17.kpEncrypt toyEnv pk [['A'], ['B']] [7] (t.setGt 9)).check fun (ct', _) =>
      decide (ct.ct.ct ≠ ct'.ct.ct ∧ ct'.ct.cP = ct.ct.cP + 8 ∧ ct.ct.c0 = ct'.ct.c0 ∧ ct.ct.c = ct'.ct.c)) = true := by
  decide +kernel

example : (Bdabe.setup toyEnv toyTape).check (fun ((pk, msk), t) => (Bdabe.authgen pk msk ['A'] t).check fun (skA, t) =>
    (Bdabe.requestAttributePk toyEnv pk skA (chars% "A::a")).check (fun k1 =>
      (Bdabe.requestAttributePk toyEnv pk skA (chars% "A::b")).check fun k2 =>
        (Bdabe.encrypt toyEnv pk [k1, k2] (chars% "\"A::a\" or \"A::b\"") .human [1, 2] t).check fun (ct, _) =>
        (Bdabe.encrypt toyEnv pk [k1, k2] (chars% "\"A::a\" or \"A::b\"") .human [7] (t.setPoints 3 4)).check fun (ct', _) =>
          decide (ct.ct ≠ ct'.ct ∧ ct.j.map (fun x => (x.attr, x.e1 + 11, x.e2, x.e3, x.e4, x.e5)) =
            ct'.j.map fun x => (x.attr, x.e1, x.e2, x.e3, x.e4, x.e5)))) = true := by
  decide +kernel

example : (Mke08.setup toyEnv toyTape).check (fun ((pk, _), t) => (Mke08.authgen ['A'] t).check fun (skA, t) =>
    (Mke08.requestAuthorityPk toyEnv pk (chars% "A::a") skA).check (fun k1 =>
      (Mke08.requestAuthorityPk toyEnv pk (chars% "A::b") skA).check fun k2 =>
        (Mke08.encrypt toyEnv pk [k1, k2] (chars% "\"A::a\" or \"A::b\"") .human [1, 2] t).check fun (ct, _) =>
        (Mke08.encrypt toyEnv pk [k1, k2] (chars% "\"A::a\" or \"A::b\"") .human [7] (t.setPoints 3 4)).check fun (ct', _) =>
          decide (ct.ct ≠ ct'.ct ∧ ct.e.map (fun x => (x.str, x.j1 + 11, x.j2 + 11)) =
            ct'.e.map (fun x => (x.str, x.j1, x.j2)) ∧ ct.e.map (fun x => (x.j3, x.j4, x.j5, x.j6)) =
            ct'.e.map fun x => (x.j3, x.j4, x.j5, x.j6)))) = true := by
  decide +kernel

end Rabe
