import Verif.Proof.Privacy
import Verif.Proof.Selection
import Verif.Props.Bsw
import Verif.Props.Ghw11

/-!
# C52: ciphertexts of BSW and GHW11 can be given another policy without any key
-/

set_option linter.unusedSectionVars false

namespace Rabe

variable {F G1 G2 Gt : Type} [Field F] [DecidableEq F] [AddCommGroup G1] [Module F G1]
  [AddCommGroup G2] [Module F G2] [AddCommGroup Gt] [Module F Gt]

/-- The sum of the group elements, each multiplied by its weight. -/
def combine {M : Type} [AddCommGroup M] [Module F M] (ws : List F) (xs : List M) : M :=
  (List.zipWith (fun w x => w • x) ws xs).sum

theorem gateShare_shift (op : Op) (n : ℕ) (σ τ : F) (ω : ℕ → F) (i : ℕ) :
    gateShare op n (σ + τ) ω i = σ + gateShare op n τ ω i := by
  simp only [gateShare, polynomial_cons]
  ring

theorem shareVals_shift : ∀ p : Pol, ∀ (σ τ : F) ω, shareVals p (σ + τ) ω = (shareVals p τ ω).map (σ + ·) := by
  intro p
  induction p using Pol.ind with
  | hl n c => intro σ τ ω; simp [shareVals]
  | hg op cs ih =>
    intro σ τ ω
    simp only [shareVals]
    have key : ∀ cs : List Pol, (∀ c ∈ cs, ∀ (σ τ : F) ω, shareVals c (σ + τ) ω = (shareVals c τ ω).map (σ + ·)) →
        ∀ (q q' : ℕ → F) k ω, (∀ i, q i = σ + q' i) →
        shareValsL cs q k ω = (shareValsL cs q' k ω).map (σ + ·) := by
      intro cs
      induction cs with
      | nil => intros; simp [shareValsL]
      | cons c cs ihc =>
        intro ih q q' k ω h
        simp only [shareValsL, List.map_append]
        rw [h, ih c (by simp), ihc (fun c hc => ih c (by simp [hc])) q q' _ _ h]
    exact key cs ih _ _ _ _ fun i => gateShare_shift op _ σ τ ω i

theorem shares_shift (p : Pol) (σ : F) (ω : ℕ → F) :
    shares p σ ω = (shares p 0 ω).map fun x => (x.1, σ + x.2) := by
  have := shareVals_shift p σ 0 ω
  rw [add_zero] at this
  rw [shares, this, List.zip_map_right]
  rfl

/-- Weights of the shares, chosen from the policy alone, whose combination is the secret. -/
theorem weights [BigChar F] (p : Pol) (hw : p.Wide) (hf : p.Fits) :
    ∃ ws : List F, ∀ σ ω, (List.zipWith (· * ·) ws (shareVals p σ ω)).sum = σ := by
  obtain ⟨bs, hbs, -⟩ := sat_sel p.names p (Pol.Arity.mono (fun _ _ h => by omega) p hw) (sat_names p hw)
  refine ⟨List.zipWith (fun b c => if b then c else 0) bs (coeffVals p 1), fun σ ω => ?_⟩
  have := sel_reconstruct p hf bs hbs (1 : F) σ ω
  rw [one_mul] at this
  unfold selDot marked at this
  refine Eq.trans ?_ this
  have : ∀ (bs : List Bool) (cs ss : List F),
      (List.zipWith (· * ·) (List.zipWith (fun b c => if b then c else 0) bs cs) ss).sum =
      ((((bs.zip (cs.zip ss)).filter fun x => x.1).map fun x => x.2).map fun x => x.1 * x.2).sum := by
    intro bs
    induction bs with
    | nil => simp
    | cons b bs ih =>
      intro cs ss
      cases cs with
      | nil => simp
      | cons c cs =>
        cases ss with
        | nil => simp
        | cons s ss => cases b <;> simp [ih]
  exact this _ _ _

theorem combine_smul {M α : Type} [AddCommGroup M] [Module F M] (m : M) : ∀ (ws : List F) (L : List α) (f : α → F)
    (x : α → M), (∀ a ∈ L, x a = f a • m) →
    combine ws (L.map x) = (List.zipWith (· * ·) ws (L.map f)).sum • m := by
  intro ws
  unfold combine
  induction ws with
  | nil => simp
  | cons w ws ih =>
    intro L f x h
    cases L with
    | nil => simp
    | cons a L =>
      simp only [List.map_cons, List.zipWith_cons_cons, List.sum_cons, add_smul]
      rw [h a (by simp), ih L f x fun a ha => h a (by simp [ha]), mul_smul]

theorem shares_snd (p : Pol) (σ : F) (ω : ℕ → F) : (shares p σ ω).map (·.2) = shareVals p σ ω := by
  rw [shares]
  exact List.map_snd_zip (by simp [shareVals_length])

theorem Pol.fits_of_short {text : Str} {lang : PolicyLanguage} {p : Pol} (hp : Denotes text lang p)
    (hs : text.length < 2 ^ 64) : p.Fits := by
  obtain ⟨q, hq, hf, _⟩ := parse_ok hp
  rw [toValue_inj _ _ hq]
  exact hf hs

/-- The symmetric encryption depends on the random bytes only. -/
theorem encryptSymmetric_bytes {env : Env F G1 G2 Gt} {msg : Gt} {pt d : Bytes} {t t' : Tape F G1 G2 Gt}
    (h : encryptSymmetric env msg pt t = .ok (d, t')) (u : Tape F G1 G2 Gt) (hu : u.byte = t.byte) :
    ∃ u', encryptSymmetric env msg pt u = .ok (d, u') := by
  simp only [encryptSymmetric, RM.bind_ok, RM.genBytes, Res.ok.injEq, Prod.mk.injEq] at h ⊢
  obtain ⟨n, t1, ⟨rfl, rfl⟩, h⟩ := h
  refine ⟨{ u with byte := dropS 12 u.byte }, _, _, ⟨rfl, rfl⟩, ?_⟩
  rw [hu]
  cases hc : env.aeadEnc (env.kdf msg) ((List.range 12).map t.byte) pt with
  | none => rw [hc] at h; simp [RM.lift] at h
  | some c =>
    rw [hc] at h
    simp only [RM.pure_ok, Res.ok.injEq, Prod.mk.injEq] at h ⊢
    exact ⟨h.1, trivial⟩

namespace Bsw

/-- The components of the new policy: a sharing of zero, added to the combination `S1`, `S2` of the old components. -/
def readdressAttr (env : Env F G1 G2 Gt) (pk : PublicKey G1 G2 Gt) (S1 : G1) (S2 : G2) (z : Str × F) : Attribute G1 G2 :=
  { string := z.1, g1 := S1 + z.2 • pk.g1, g2 := env.hash (removeIndex z.1) • (S2 + z.2 • pk.g2) }

/-- The attack. It gives the ciphertext another policy. It uses the public key, the public hash function and weights
`ws` for the old policy; no key. -/
def readdress (env : Env F G1 G2 Gt) (pk : PublicKey G1 G2 Gt) (ws : List F) (text : Str) (lang : PolicyLanguage)
    (ct : Ciphertext G1 G2 Gt) : RM F G1 G2 Gt (Ciphertext G1 G2 Gt) := do
  let v ← RM.lift (parse text lang)
  let zeros? ← RM.liftFr (genSharesPolicy v 0 none)
  let zeros ← RM.lift (Res.unwrapOption zeros?)
  let S1 := combine ws (ct.cY.map (·.g1))
  let S2 := combine ws (ct.cY.map fun y => (env.hash (removeIndex y.string))⁻¹ • y.g2)
  pure { ct with policy := (text, lang), cY := zeros.map (readdressAttr env pk S1 S2) }

/-- **C52 is violated in BSW, ciphertexts.** For every policy there are weights with which `readdress` turns every
ciphertext for this policy into one for any other policy: the same that `encrypt` would have made with the same secret,
session element and nonce. (The names of the old policy must have non-zero hashes.) -/
theorem C52_violated_bsw_readdress [BigChar F] (text : Str) (lang : PolicyLanguage) (p : Pol)
    (hp : Denotes text lang p) (hshort : text.length < 2 ^ 64) (hw : p.Wide) :
    ∃ ws : List F, ∀ (env : Env F G1 G2 Gt) (pk : PublicKey G1 G2 Gt)
      (_ : ∀ l ∈ p.leaves, env.hash (removeIndex (leafIdx l)) ≠ 0)
      (plaintext : Bytes) (t t' : Tape F G1 G2 Gt) (ct : Ciphertext G1 G2 Gt)
      (_ : encrypt env pk text lang plaintext t = .ok (ct, t'))
      (text₂ : Str) (lang₂ : PolicyLanguage) (q : Pol) (_ : Denotes text₂ lang₂ q) (u : Tape F G1 G2 Gt),
      ∃ ct₂ u' t₂', readdress env pk ws text₂ lang₂ ct u = .ok (ct₂, u') ∧
        encrypt env pk text₂ lang₂ plaintext { t with fr := fun n => if n = 0 then t.fr 0 else u.fr (n - 1) } =
          .ok (ct₂, t₂') := by
  obtain ⟨ws, hws⟩ := weights (F := F) p hw (Pol.fits_of_short hp hshort)
  refine ⟨ws, fun env pk hhash plaintext t t' ct henc text₂ lang₂ q hq u => ?_⟩
  replace hp : parse text lang = .ok p.toValue := hp
  replace hq : parse text₂ lang₂ = .ok q.toValue := hq
  simp only [encrypt, RM.bind_ok, RM.genFr, RM.genGt, RM.lift_ok_iff, RM.pure_ok, hp, Res.ok.injEq,
    Prod.mk.injEq, RM.liftFr] at henc
  obtain ⟨s, t1, ⟨rfl, rfl⟩, msg, t2, ⟨rfl, rfl⟩, pv, t3, ⟨rfl, rfl⟩, sh, t4, hsh, shs, t5, ⟨hu, rfl⟩, data, t6,
    hd, rfl, _⟩ := henc
  rw [genSharesPolicy_eq] at hsh
  simp only [Res.ok.injEq, Prod.mk.injEq] at hsh
  obtain ⟨rfl, rfl⟩ := hsh
  simp only [Res.unwrapOption_some, Res.ok.injEq] at hu
  subst hu
  have e1 : combine ws (((shares p (t.fr 0) (dropS 1 t.fr)).map (encAttr env pk)).map (·.g1)) = t.fr 0 • pk.g1 := by
    rw [List.map_map, combine_smul pk.g1 ws _ (fun x : Str × F => x.2) _ (fun _ _ => by rfl), shares_snd, hws]
  have e2 : combine ws (((shares p (t.fr 0) (dropS 1 t.fr)).map (encAttr env pk)).map fun y =>
      (env.hash (removeIndex y.string))⁻¹ • y.g2) = t.fr 0 • pk.g2 := by
    rw [List.map_map, combine_smul pk.g2 ws _ (fun x : Str × F => x.2) _, shares_snd, hws]
    intro a ha
    have hl : a.1 ∈ p.leaves.map leafIdx := List.of_mem_zip ha |>.1
    obtain ⟨l, hl, hl'⟩ := List.mem_map.1 hl
    have h0 := hhash l hl
    rw [hl'] at h0
    simp only [Function.comp, encAttr, Env.sha3Hash, smul_smul]
    congr 1
    field_simp
  obtain ⟨t₂', hd'⟩ := encryptSymmetric_bytes hd { t with
    fr := dropS (draws q) u.fr, gt := dropS 1 t.gt } rfl
  have hdrop : dropS 1 (fun n => if n = 0 then t.fr 0 else u.fr (n - 1)) = u.fr := by
    funext n; simp [dropS]
  refine ⟨⟨(text₂, lang₂), t.fr 0 • pk.h, t.fr 0 • pk.eGgAlpha + t.gt 0,
    (shares q (t.fr 0) u.fr).map (encAttr env pk), data⟩, { u with fr := dropS (draws q) u.fr }, t₂', ?_, ?_⟩
  · simp only [readdress, RM.bind_apply, hq, RM.lift_ok, RM.liftFr, genSharesPolicy_eq, Res.unwrapOption_some,
      RM.pure_apply, e1, e2]
    rw [shares_shift q (t.fr 0), List.map_map]
    congr 3
    refine List.map_congr_left fun z _ => ?_
    simp [readdressAttr, encAttr, Env.sha3Hash, smul_smul, add_mul, add_smul, mul_comm]
  · simp only [encrypt, RM.bind_apply, RM.genFr, RM.genGt, hq, RM.lift_ok, RM.liftFr, hdrop, genSharesPolicy_eq,
      Res.unwrapOption_some, RM.pure_apply, if_true, hd']

/-- Every key that satisfies the new policy reads the plaintext, although nobody with a key took part. -/
theorem C52_violated_bsw_readdress_decrypts [BigChar F] (text : Str) (lang : PolicyLanguage) (p : Pol)
    (hp : Denotes text lang p) (hshort : text.length < 2 ^ 64) (hw : p.Wide) :
    ∃ ws : List F, ∀ (env : Env F G1 G2 Gt) (t₁ t₁' : Tape F G1 G2 Gt) (pk : PublicKey G1 G2 Gt) (msk : MasterKey F G2)
      (_ : setup env t₁ = .ok ((pk, msk), t₁'))
      (_ : ∀ l ∈ p.leaves, env.hash (removeIndex (leafIdx l)) ≠ 0)
      (plaintext : Bytes) (t₂ t₂' : Tape F G1 G2 Gt) (ct : Ciphertext G1 G2 Gt)
      (_ : encrypt env pk text lang plaintext t₂ = .ok (ct, t₂'))
      (text₂ : Str) (lang₂ : PolicyLanguage) (q : Pol) (_ : Regular text₂ lang₂ q) (u : Tape F G1 G2 Gt)
      (attrs : List Str) (t₃ t₃' : Tape F G1 G2 Gt) (sk : SecretKey G1 G2)
      (_ : keygen env pk msk attrs t₃ = .ok (some sk, t₃'))
      (_ : ∀ n ∈ q.names, n ∈ attrs → '_' ∉ n) (_ : q.sat attrs = true),
      ∃ ct₂ u', readdress env pk ws text₂ lang₂ ct u = .ok (ct₂, u') ∧ decrypt env sk ct₂ = .ok plaintext := by
  obtain ⟨ws, h⟩ := C52_violated_bsw_readdress (F := F) (G1 := G1) (G2 := G2) (Gt := Gt) text lang p hp hshort hw
  refine ⟨ws, fun env t₁ t₁' pk msk hs hhash m t₂ t₂' ct henc text₂ lang₂ q hq u attrs t₃ t₃' sk hk hn hsat => ?_⟩
  obtain ⟨ct₂, u', t', h1, h2⟩ := h env pk hhash m t₂ t₂' ct henc text₂ lang₂ q hq.denotes u
  exact ⟨ct₂, u', h1, C25_bsw_correct_partial env t₁ t₁' pk msk hs attrs t₃ t₃' sk hk text₂ lang₂ q hq hn m _ _ ct₂ h2
    hsat⟩

/-- A ciphertext for `A` and `B` is given the policy `C` or `D`; the key for `D` reads it, and did not read the original. -/
example : ∃ (ws : List Fr) (pk : PublicKey Fr Fr Fr) (msk : MasterKey Fr Fr) (sk : SecretKey Fr Fr)
    (ct ct₂ : Ciphertext Fr Fr Fr) (t₁ t₂ t₃ u : Tape Fr Fr Fr Fr),
    setup toyEnv toyTape = .ok ((pk, msk), t₁) ∧ keygen toyEnv pk msk [['D']] toyTape = .ok (some sk, t₂) ∧
    encrypt toyEnv pk (chars% "\"A\" and \"B\"") .human [1, 2, 3] toyTape = .ok (ct, t₃) ∧
    decrypt toyEnv sk ct = .err ∧
    readdress toyEnv pk ws (chars% "\"C\" or \"D\"") .human ct toyTape = .ok (ct₂, u) ∧
    decrypt toyEnv sk ct₂ = .ok [1, 2, 3] := by
  obtain ⟨ws, h⟩ := C52_violated_bsw_readdress_decrypts (F := Fr) (G1 := Fr) (G2 := Fr) (Gt := Fr)
    (chars% "\"A\" and \"B\"") .human (.gate .and [.leaf ['A'] 2, .leaf ['B'] 10]) (show parse _ _ = _ from rfl)
    (by simp) (by simp [Pol.Wide])
  obtain ⟨d1, d2, d3⟩ := C25_bsw_defined toyEnv
  obtain ⟨pk, msk, t₁, h1⟩ := d1 toyTape (by simp [toyTape])
  obtain ⟨sk, t₂, h2⟩ := d2 _ _ _ _ h1 [['D']] (by simp) toyTape
  obtain ⟨ct, t₃, h3⟩ := d3 pk (chars% "\"A\" and \"B\"") .human (.gate .and [.leaf ['A'] 2, .leaf ['B'] 10])
    (show parse _ _ = _ from rfl) [1, 2, 3] (by intro k n; rfl) toyTape
  obtain ⟨ct₂, u, h4, h5⟩ := h toyEnv _ _ pk msk h1 (by show ∀ l ∈ _, toyHash _ ≠ 0; decide +kernel) [1, 2, 3] _ _ ct h3
    (chars% "\"C\" or \"D\"") .human (.gate .or [.leaf ['C'] 2, .leaf ['D'] 9])
    ⟨show parse _ _ = _ from rfl, by simp, by simp [Pol.Wide], by simp⟩ toyTape [['D']] _ _ sk h2
    (by simp [Pol.names]) (by simp)
  refine ⟨ws, pk, msk, sk, ct, ct₂, t₁, t₂, t₃, u, h1, h2, h3, ?_, h4, h5⟩
  obtain ⟨-, -, r, hk⟩ := keygen_ok h2
  obtain ⟨_, _, _, hc, -⟩ := encrypt_ok (show parse _ _ = Res.ok (Pol.gate .and [.leaf ['A'] 2, .leaf ['B'] 10]).toValue
    from rfl) h3
  exact C26_bsw_refuses toyEnv sk ct _ hc.policy (Or.inl (by rw [key_strings hk]; simp))

end Bsw

namespace Ghw11

/-- One component of the new policy: made as in `encrypt` for a share of zero, with the combination `S` of the old
components added. -/
def readdressShare (env : Env F G1 G2 Gt) (pk : PublicKey G1 G2 Gt) (S : G1) (z : Str × F) :
    RM F G1 G2 Gt (Str × G1 × G1) := do
  let y ← encShare env pk z
  pure (y.1, S + y.2.1, y.2.2)

/-- The attack on GHW11, as for BSW. -/
def readdress (env : Env F G1 G2 Gt) (pk : PublicKey G1 G2 Gt) (ws : List F) (text : Str) (lang : PolicyLanguage)
    (ct : Ciphertext G1 Gt) : RM F G1 G2 Gt (Ciphertext G1 Gt) := do
  let v ← RM.lift (parse text lang)
  let zeros? ← RM.liftFr (genSharesPolicy v 0 none)
  let zeros ← RM.lift (Res.unwrapOption zeros?)
  let S := combine ws (ct.ciDi.map fun y => y.2.1 + env.hash (removeIndex y.1) • y.2.2)
  let ciDi ← RM.mapL (readdressShare env pk S) zeros
  pure { ct with policy := (text, lang), ciDi }

theorem mapL_map {α β γ : Type} (f : β → RM F G1 G2 Gt γ) (g : α → RM F G1 G2 Gt γ) (φ : α → β)
    (h : ∀ a, f (φ a) = g a) (L : List α) : RM.mapL f (L.map φ) = RM.mapL g L := by
  induction L with
  | nil => rfl
  | cons a L ih => simp only [List.map_cons, RM.mapL, h, ih]

/-- The loop draws scalars only and its outcome depends on them only. -/
theorem mapL_encShare (env : Env F G1 G2 Gt) (pk : PublicKey G1 G2 Gt) : ∀ (L : List (Str × F)) (ω : ℕ → F),
    ∃ ys, ∀ t : Tape F G1 G2 Gt, t.fr = ω →
      RM.mapL (encShare env pk) L t = .ok (ys, { t with fr := dropS L.length ω }) := by
  intro L
  induction L with
  | nil => intro ω; exact ⟨[], by rintro t rfl; simp [RM.mapL, RM.pure]⟩
  | cons a L ih =>
    intro ω
    obtain ⟨ys, h⟩ := ih (dropS 1 ω)
    refine ⟨(a.1, a.2 • pk.g1A + (-(ω 0)) • env.sha3Hash pk.g1 (removeIndex a.1), ω 0 • pk.g1) :: ys, ?_⟩
    rintro t rfl
    simp only [RM.mapL, RM.bind, encShare, RM.genFr, RM.bind_apply, RM.pure_apply, h { t with fr := dropS 1 t.fr } rfl,
      RM.pure, dropS_add, List.length_cons]
    rw [Nat.add_comm]

/-- **C52 is violated in GHW11, ciphertexts.** For every policy there are weights with which `readdress` turns every
ciphertext for this policy into one for any other policy: the same that `encrypt` would have made with the same secret,
session element and nonce. -/
theorem C52_violated_ghw11_readdress [BigChar F] (text : Str) (lang : PolicyLanguage) (p : Pol)
    (hp : Denotes text lang p) (hshort : text.length < 2 ^ 64) (hw : p.Wide) :
    ∃ ws : List F, ∀ (env : Env F G1 G2 Gt) (pk : PublicKey G1 G2 Gt)
      (plaintext : Bytes) (t t' : Tape F G1 G2 Gt) (ct : Ciphertext G1 Gt)
      (_ : encrypt env pk text lang plaintext t = .ok (ct, t'))
      (text₂ : Str) (lang₂ : PolicyLanguage) (q : Pol) (_ : Denotes text₂ lang₂ q) (u : Tape F G1 G2 Gt),
      ∃ ct₂ u' t₂', readdress env pk ws text₂ lang₂ ct u = .ok (ct₂, u') ∧
        encrypt env pk text₂ lang₂ plaintext { t with fr := fun n => if n = 0 then t.fr 0 else u.fr (n - 1) } =
          .ok (ct₂, t₂') := by
  obtain ⟨ws, hws⟩ := weights (F := F) p hw (Pol.fits_of_short hp hshort)
  refine ⟨ws, fun env pk plaintext t t' ct henc text₂ lang₂ q hq u => ?_⟩
  replace hp : parse text lang = .ok p.toValue := hp
  replace hq : parse text₂ lang₂ = .ok q.toValue := hq
  simp only [encrypt, RM.bind_ok, RM.genFr, RM.genGt, RM.lift_ok_iff, RM.pure_ok, hp, Res.ok.injEq,
    Prod.mk.injEq, RM.liftFr] at henc
  obtain ⟨s, t1, ⟨rfl, rfl⟩, msg, t2, ⟨rfl, rfl⟩, pv, t3, ⟨rfl, rfl⟩, sh, t4, hsh, shs, t5, ⟨hu, rfl⟩, cd, t6, hcd,
    data, t7, hd, rfl, _⟩ := henc
  rw [genSharesPolicy_eq] at hsh
  simp only [Res.ok.injEq, Prod.mk.injEq] at hsh
  obtain ⟨rfl, rfl⟩ := hsh
  simp only [Res.unwrapOption_some, Res.ok.injEq] at hu
  subst hu
  have hrows : cd.map (fun y => y.2.1 + env.hash (removeIndex y.1) • y.2.2) =
      (shares p (t.fr 0) (dropS 1 t.fr)).map fun x => x.2 • pk.g1A := by
    have := (RM.mapL_ok hcd).imp
      (S := fun (x : Str × F) (y : Str × G1 × G1) => y.2.1 + env.hash (removeIndex y.1) • y.2.2 = x.2 • pk.g1A) ?_
    · refine List.forall₂_eq_eq_eq ▸ ?_
      rw [List.forall₂_map_left_iff, List.forall₂_map_right_iff]
      exact this.flip
    · rintro a x ⟨u, u', hx⟩
      simp only [encShare, RM.bind_ok, RM.genFr, RM.pure_ok, Res.ok.injEq, Prod.mk.injEq] at hx
      obtain ⟨τ, u1, ⟨rfl, rfl⟩, rfl, _⟩ := hx
      simp [Env.sha3Hash, smul_smul, mul_comm]
  have e1 : combine ws (cd.map fun y => y.2.1 + env.hash (removeIndex y.1) • y.2.2) = t.fr 0 • pk.g1A := by
    rw [hrows, combine_smul pk.g1A ws _ (fun x : Str × F => x.2) _ (fun _ _ => by rfl), shares_snd, hws]
  have hbyte : t.byte = t6.byte := by
    obtain ⟨ys, hys⟩ := mapL_encShare env pk (shares p (t.fr 0) (dropS 1 t.fr)) (dropS (draws p) (dropS 1 t.fr))
    have hcd' := hcd
    rw [hys { t with fr := dropS (draws p) (dropS 1 t.fr), gt := dropS 1 t.gt } rfl] at hcd'
    simp only [Res.ok.injEq, Prod.mk.injEq] at hcd'
    rw [← hcd'.2]
  have hdrop : dropS 1 (fun n => if n = 0 then t.fr 0 else u.fr (n - 1)) = u.fr := by
    funext n; simp [dropS]
  have hm : RM.mapL (encShare env pk) (shares q (t.fr 0) u.fr) =
      RM.mapL (readdressShare env pk (t.fr 0 • pk.g1A)) (shares q 0 u.fr) := by
    rw [shares_shift q (t.fr 0)]
    refine mapL_map _ _ _ (fun a => ?_) _
    funext v
    simp [encShare, readdressShare, RM.genFr, add_smul, add_assoc]
  obtain ⟨zs, hzs⟩ := mapL_encShare env pk (shares q (t.fr 0) u.fr) (dropS (draws q) u.fr)
  obtain ⟨t₂', hd'⟩ := encryptSymmetric_bytes hd { t with
    fr := dropS (shares q (t.fr 0) u.fr).length (dropS (draws q) u.fr), gt := dropS 1 t.gt } hbyte
  refine ⟨⟨(text₂, lang₂), t.fr 0 • pk.eGgAlpha + t.gt 0, t.fr 0 • pk.g1, zs, data⟩,
    { u with fr := dropS (shares q (t.fr 0) u.fr).length (dropS (draws q) u.fr) }, t₂', ?_, ?_⟩
  · simp only [readdress, RM.bind_apply, hq, RM.lift_ok, RM.liftFr, genSharesPolicy_eq, Res.unwrapOption_some,
      RM.pure_apply, e1, ← hm,
      hzs { u with fr := dropS (draws q) u.fr } rfl]
  · simp only [encrypt, RM.bind_apply, RM.genFr, RM.genGt, hq, RM.lift_ok, RM.liftFr, hdrop, genSharesPolicy_eq,
      Res.unwrapOption_some, RM.pure_apply, if_true,
      hzs { t with fr := dropS (draws q) u.fr, gt := dropS 1 t.gt } rfl, hd']

/-- Every key that satisfies the new policy reads the plaintext. -/
theorem C52_violated_ghw11_readdress_decrypts [BigChar F] (text : Str) (lang : PolicyLanguage) (p : Pol)
    (hp : Denotes text lang p) (hshort : text.length < 2 ^ 64) (hw : p.Wide) :
    ∃ ws : List F, ∀ (env : Env F G1 G2 Gt) (t₁ t₁' : Tape F G1 G2 Gt) (pk : PublicKey G1 G2 Gt)
      (msk : MasterKey G1 G2 Gt) (_ : setup env t₁ = .ok ((pk, msk), t₁'))
      (plaintext : Bytes) (t₂ t₂' : Tape F G1 G2 Gt) (ct : Ciphertext G1 Gt)
      (_ : encrypt env pk text lang plaintext t₂ = .ok (ct, t₂'))
      (text₂ : Str) (lang₂ : PolicyLanguage) (q : Pol) (_ : Regular text₂ lang₂ q) (u : Tape F G1 G2 Gt)
      (attrs : List Str) (t₃ t₃' : Tape F G1 G2 Gt) (sk : SecretKey G2)
      (_ : keygen env pk msk attrs t₃ = .ok (some sk, t₃'))
      (t₄ t₄' : Tape F G1 G2 Gt) (tk : TransformKey G2) (rk : RetrieveKey F)
      (_ : tkgen sk t₄ = .ok (some (tk, rk), t₄'))
      (_ : ∀ n ∈ q.names, n ∈ attrs → '_' ∉ n) (_ : q.sat attrs = true),
      ∃ ct₂ u' pct, readdress env pk ws text₂ lang₂ ct u = .ok (ct₂, u') ∧ transform env ct₂ tk = .ok pct ∧
        decryptOut env pct rk ct₂.data = .ok plaintext := by
  obtain ⟨ws, h⟩ := C52_violated_ghw11_readdress (F := F) (G1 := G1) (G2 := G2) (Gt := Gt) text lang p hp hshort hw
  refine ⟨ws, fun env t₁ t₁' pk msk hs m t₂ t₂' ct henc text₂ lang₂ q hq u attrs t₃ t₃' sk hk t₄ t₄' tk rk htk hn
    hsat => ?_⟩
  obtain ⟨ct₂, u', t', h1, h2⟩ := h env pk m t₂ t₂' ct henc text₂ lang₂ q hq.denotes u
  obtain ⟨pct, h3, h4⟩ := C42_ghw11_correct_partial env t₁ t₁' pk msk hs attrs t₃ t₃' sk hk t₄ t₄' tk rk htk text₂ lang₂ q
    hq hn m _ _ ct₂ h2 hsat
  exact ⟨ct₂, u', pct, h1, h3, h4⟩

/-- A ciphertext for `A` and `B` is given the policy `C` or `D`; the key for `D` reads it. -/
example : ∃ (ws : List Fr) (pk : PublicKey Fr Fr Fr) (msk : MasterKey Fr Fr Fr) (sk : SecretKey Fr)
    (tk : TransformKey Fr) (rk : RetrieveKey Fr)
    (ct ct₂ : Ciphertext Fr Fr) (t₁ t₂ t₃ t₄ u : Tape Fr Fr Fr Fr) (pct : TransformCiphertext Fr),
    setup toyEnv toyTape = .ok ((pk, msk), t₁) ∧ keygen toyEnv pk msk [['D']] toyTape = .ok (some sk, t₂) ∧
    tkgen sk toyTape = .ok (some (tk, rk), t₃) ∧
    encrypt toyEnv pk (chars% "\"A\" and \"B\"") .human [1, 2, 3] toyTape = .ok (ct, t₄) ∧
    readdress toyEnv pk ws (chars% "\"C\" or \"D\"") .human ct toyTape = .ok (ct₂, u) ∧
    transform toyEnv ct₂ tk = .ok pct ∧ decryptOut toyEnv pct rk ct₂.data = .ok [1, 2, 3] := by
  obtain ⟨ws, h⟩ := C52_violated_ghw11_readdress_decrypts (F := Fr) (G1 := Fr) (G2 := Fr) (Gt := Fr)
    (chars% "\"A\" and \"B\"") .human (.gate .and [.leaf ['A'] 2, .leaf ['B'] 10]) (show parse _ _ = _ from rfl)
    (by simp) (by simp [Pol.Wide])
  obtain ⟨d1, d2, d3, d4⟩ := C42_ghw11_defined toyEnv
  obtain ⟨pk, msk, t₁, h1⟩ := d1 toyTape
  obtain ⟨sk, t₂, h2⟩ := d2 pk msk [['D']] (by simp) toyTape
  obtain ⟨tk, rk, t₃, h3⟩ := d3 sk toyTape (by simp [toyTape])
  obtain ⟨ct, t₄, h4⟩ := d4 pk (chars% "\"A\" and \"B\"") .human (.gate .and [.leaf ['A'] 2, .leaf ['B'] 10])
    (show parse _ _ = _ from rfl) [1, 2, 3] (by intro k n; rfl) toyTape
  obtain ⟨ct₂, u, pct, h5, h6, h7⟩ := h toyEnv _ _ pk msk h1 [1, 2, 3] _ _ ct h4
    (chars% "\"C\" or \"D\"") .human (.gate .or [.leaf ['C'] 2, .leaf ['D'] 9])
    ⟨show parse _ _ = _ from rfl, by simp, by simp [Pol.Wide], by simp⟩ toyTape [['D']] _ _ sk h2 _ _ tk rk h3
    (by simp [Pol.names]) (by simp)
  exact ⟨ws, pk, msk, sk, tk, rk, ct, ct₂, t₁, t₂, t₃, t₄, u, pct, h1, h2, h3, h4, h5, h6, h7⟩

end Ghw11
end Rabe
