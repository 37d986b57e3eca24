import Verif.Props.Ac17
import Verif.Props.Aw11
import Verif.Props.Lsw
import Verif.Props.Yct14

/-!
# C53 for AC17, AW11, LSW and YCT14

In the ciphertext-policy schemes (AW11 and the CP variant of AC17) the attributes are those of the key, in the key-policy
schemes (LSW, YCT14 and the KP variant of AC17) those of the ciphertext. The statements about the order hold for keys and
ciphertexts of any origin; the statements about larger lists are about issued keys and honest ciphertexts.
-/

namespace Rabe

/-- A loop over a list does not depend on the order of the list if its body commutes. -/
theorem Res.foldR_perm {α β : Type} {f : β → α → Res β}
    (hf : ∀ b x y, (f b x >>= fun b' => f b' y) = (f b y >>= fun b' => f b' x)) {xs ys : List α} (h : xs.Perm ys) :
    ∀ b, Res.foldR f b xs = Res.foldR f b ys := by
  induction h with
  | nil => intro b; rfl
  | cons x _ ih => intro b; simp only [Res.foldR, ih]
  | swap x y l =>
    intro b
    simp only [Res.foldR, Res.rbind_eq]
    rw [← bind_assoc, ← bind_assoc, hf]
  | trans _ _ ih₁ ih₂ => intro b; rw [ih₁, ih₂]

theorem Res.foldR_congr {α β : Type} {f g : β → α → Res β} {xs : List α} (h : ∀ b, ∀ x ∈ xs, f b x = g b x) :
    ∀ b, Res.foldR f b xs = Res.foldR g b xs := by
  induction xs with
  | nil => intro b; rfl
  | cons x xs ih =>
    intro b
    simp only [Res.foldR, h b x (by simp)]
    congr 1
    funext b'
    exact ih (fun b y hy => h b y (by simp [hy])) b'

namespace Ac17

variable {F G1 G2 Gt : Type} [Field F] [DecidableEq F] [AddCommGroup G1] [Module F G1]
  [AddCommGroup G2] [Module F G2] [AddCommGroup Gt] [Module F Gt]

theorem matchSum_perm {xs ys : List (Str × List G1)} (h : xs.Perm ys) (i : ℕ) (acc : G1) (n : Str) :
    matchSum xs i acc n = matchSum ys i acc n := by
  refine Res.foldR_perm (fun b x y => ?_) h acc
  by_cases hx : (x.1 == n) = true <;> by_cases hy : (y.1 == n) = true <;>
    simp only [hx, hy, if_true, if_false, Res.ok_bind, Bool.false_eq_true, bind_assoc]
  cases hx' : x.2[i]? <;> cases hy' : y.2[i]? <;> simp [Res.index, hx', hy', add_right_comm]

theorem listSum_perm {xs ys : List (Str × List G1)} (h : xs.Perm ys) (i : ℕ) (l : List (Str × Str)) :
    listSum xs i l = listSum ys i l :=
  Res.foldR_congr (fun b x _ => matchSum_perm h i b x.1) 0

omit [DecidableEq F] in
/-- **C53, AC17 CP.** For every ciphertext and every key, of any origin and even with repeated attributes, the outcome of
`cp_decrypt` does not depend on the order of the key's attributes and components. -/
theorem C53_ac17_cp_order (env : Env F G1 G2 Gt) (ct : CpCiphertext G1 G2 Gt) (sk sk' : CpSecretKey G1 G2)
    (hattr : sk'.attr.Perm sk.attr) (hk : sk'.sk.k.Perm sk.sk.k) (hk0 : sk'.sk.k0 = sk.sk.k0)
    (hkP : sk'.sk.kP = sk.sk.kP) : cpDecrypt env sk' ct = cpDecrypt env sk ct := by
  have hmem : ∀ x, x ∈ sk'.attr ↔ x ∈ sk.attr := fun x => hattr.mem_iff
  have hstep : ∀ l, cpDecStep env sk'.sk ct.ct l = cpDecStep env sk.sk ct.ct l := by
    intro l
    funext acc i
    simp only [cpDecStep, listSum_perm hk, hk0, hkP]
  cases hp : parse ct.policy.1 ct.policy.2 with
  | err => simp only [cpDecrypt, cpRecover, hp, Res.err_bind]
  | panic => simp only [cpDecrypt, cpRecover, hp, Res.panic_bind]
  | ok v =>
    obtain ⟨p, rfl, _⟩ := parse_ok hp
    simp only [cpDecrypt, cpRecover, hp, Res.ok_bind, traverse_congr hmem p, calcPruned_congr hmem p, hstep]

omit [DecidableEq F] in
/-- **C53, AC17 KP.** For every key and every ciphertext, of any origin and even with repeated attributes, the outcome of
`kp_decrypt` does not depend on the order of the ciphertext's attributes and components. -/
theorem C53_ac17_kp_order (env : Env F G1 G2 Gt) (sk : KpSecretKey G1 G2) (ct ct' : KpCiphertext G1 G2 Gt)
    (hattr : ct'.attr.Perm ct.attr) (hc : ct'.ct.c.Perm ct.ct.c) (hc0 : ct'.ct.c0 = ct.ct.c0)
    (hcP : ct'.ct.cP = ct.ct.cP) (hct : ct'.ct.ct = ct.ct.ct) : kpDecrypt env sk ct' = kpDecrypt env sk ct := by
  have hmem : ∀ x, x ∈ ct'.attr ↔ x ∈ ct.attr := fun x => hattr.mem_iff
  have hstep : ∀ l, kpDecStep env sk.sk ct'.ct l = kpDecStep env sk.sk ct.ct l := by
    intro l
    funext acc i
    simp only [kpDecStep, listSum_perm hc, hc0]
  cases hp : parse sk.policy.1 sk.policy.2 with
  | err => simp only [kpDecrypt, kpRecover, hp, Res.err_bind]
  | panic => simp only [kpDecrypt, kpRecover, hp, Res.panic_bind]
  | ok v =>
    obtain ⟨p, rfl, _⟩ := parse_ok hp
    simp only [kpDecrypt, kpRecover, hp, Res.ok_bind, traverse_congr hmem p, calcPruned_congr hmem p, hstep, hcP, hct]

/-- **C53, AC17 CP, larger keys, partial.** For issued keys, honest ciphertexts and regular policies: if a key for
`attrs` decrypts, so does every issued key for a list containing `attrs` (in any order), with the same result, as long as
no attribute of that list is repeated in the list or in the policy. (Full claim: without `Once`; false, see
`C53_violated_ac17`.) -/
theorem C53_ac17_larger_partial (env : Env F G1 G2 Gt)
    (t₁ t₁' : Tape F G1 G2 Gt) (pk : PublicKey G1 G2 Gt) (msk : MasterKey F G1 G2)
    (hsetup : setup env t₁ = .ok ((pk, msk), t₁'))
    (attrs attrs' : List Str) (hsub : ∀ x ∈ attrs, x ∈ attrs') (hnd : attrs.Nodup)
    (s₁ s₁' s₂ s₂' : Tape F G1 G2 Gt) (sk sk' : CpSecretKey G1 G2)
    (hkey : cpKeygen env msk attrs s₁ = .ok (sk, s₁'))
    (hkey' : cpKeygen env msk attrs' s₂ = .ok (sk', s₂'))
    (text : Str) (lang : PolicyLanguage) (p : Pol) (hreg : Regular text lang p) (honce : Once p attrs')
    (plaintext : Bytes) (t₃ t₃' : Tape F G1 G2 Gt) (ct : CpCiphertext G1 G2 Gt)
    (henc : cpEncrypt env pk text plaintext lang t₃ = .ok (ct, t₃'))
    (data : Bytes) (hdec : cpDecrypt env sk ct = .ok data) : cpDecrypt env sk' ct = .ok data := by
  obtain ⟨P, hs⟩ := setup_ok hsetup
  obtain ⟨hne, _, _, _, hk⟩ := cpKeygen_ok hs hkey
  obtain ⟨p', hp', hsat, _⟩ := C31_ac17_cp_decrypts_only_if_satisfied env sk ct data hdec
  have hpol : ct.policy = (text, lang) := by
    simp only [cpEncrypt, RM.bind_ok, RM.pure_ok] at henc
    obtain ⟨_, _, _, _, _, _, _, _, _, _, _, _, _, _, _, _, _, _, _, _, _, _, _, _, _, _, _, h, _⟩ := henc
    rw [h]
  have hpp : p'.toValue = p.toValue := by
    have h3 : parse ct.policy.1 ct.policy.2 = .ok p'.toValue := hp'
    rw [hpol, show parse (text, lang).1 (text, lang).2 = .ok p.toValue from hreg.denotes] at h3
    exact (Res.ok.inj h3).symm
  rw [hk.attr] at hsat
  have hsa : p.sat attrs = true := by
    have := traverse_eq_sat attrs hne p' .leaf
    rw [hpp, traverse_eq_sat attrs hne p] at this
    rw [this, hsat]
  have ho : Once p attrs := fun n hn ha =>
    ⟨(honce n hn (hsub n ha)).1, List.count_eq_one_of_mem hnd ha⟩
  have e := C30_ac17_cp_correct_partial env t₁ t₁' pk msk hsetup attrs s₁ s₁' sk hkey text lang p hreg plaintext
    t₃ t₃' ct henc hsa ho
  rw [hdec] at e
  obtain rfl := Res.ok.inj e
  exact C30_ac17_cp_correct_partial env t₁ t₁' pk msk hsetup attrs' s₂ s₂' sk' hkey' text lang p hreg data
    t₃ t₃' ct henc (sat_mono hsub p hsa) honce

/-- **C53 is violated by AC17.** For `("B" and "B") or "A"` a key for `A` decrypts, and a key for `A`, `B` does not. -/
theorem C53_violated_ac17 : ∃ (p : Pol) (pk : PublicKey Fr Fr Fr) (msk : MasterKey Fr Fr Fr)
    (sk sk' : CpSecretKey Fr Fr) (ct : CpCiphertext Fr Fr Fr) (t₁ t₂ t₃ t₄ : Tape Fr Fr Fr Fr),
    Regular (chars% "(\"B\" and \"B\") or \"A\"") .human p ∧
    setup toyEnv toyTape = .ok ((pk, msk), t₁) ∧
    cpKeygen toyEnv msk [['A']] toyTape = .ok (sk, t₂) ∧
    cpKeygen toyEnv msk [['A'], ['B']] toyTape = .ok (sk', t₃) ∧
    cpEncrypt toyEnv pk (chars% "(\"B\" and \"B\") or \"A\"") [7] .human toyTape = .ok (ct, t₄) ∧
    cpDecrypt toyEnv sk ct = .ok [7] ∧ cpDecrypt toyEnv sk' ct = .err := by
  have h : (do
    let x ← setup toyEnv toyTape
    let y ← cpKeygen toyEnv x.1.2 [['A']] toyTape
    let y' ← cpKeygen toyEnv x.1.2 [['A'], ['B']] toyTape
    let z ← cpEncrypt toyEnv x.1.1 (chars% "(\"B\" and \"B\") or \"A\"") [7] .human toyTape
    .ok (cpDecrypt toyEnv y.1 z.1, cpDecrypt toyEnv y'.1 z.1) : Res (Res Bytes × Res Bytes)) = .ok (.ok [7], .err) := by
    decide +kernel
  simp only [Res.bind_eq_ok, Res.ok.injEq, Prod.mk.injEq] at h
  obtain ⟨⟨⟨pk, msk⟩, t1⟩, h1, ⟨sk, t2⟩, h2, ⟨sk', t3⟩, h3, ⟨ct, t4⟩, h4, h5, h6⟩ := h
  exact ⟨.gate .or [.gate .and [.leaf ['B'] 3, .leaf ['B'] 11], .leaf ['A'] 19], pk, msk, sk, sk', ct, t1, t2, t3, t4,
    ⟨rfl, by simp, by simp [Pol.Wide], by simp⟩, h1, h2, h3, h4, h5, h6⟩

/-- Two keys and a policy meeting all hypotheses of `C53_ac17_larger_partial`. -/
example : ∃ (p : Pol) (pk : PublicKey Fr Fr Fr) (msk : MasterKey Fr Fr Fr)
    (sk sk' : CpSecretKey Fr Fr) (ct : CpCiphertext Fr Fr Fr) (t₁ t₂ t₃ t₄ : Tape Fr Fr Fr Fr),
    Regular (chars% "(\"B\" and \"C\") or \"A\"") .human p ∧ Once p [['B'], ['C'], ['A']] ∧ [['A']].Nodup ∧
    setup toyEnv toyTape = .ok ((pk, msk), t₁) ∧
    cpKeygen toyEnv msk [['A']] toyTape = .ok (sk, t₂) ∧
    cpKeygen toyEnv msk [['B'], ['C'], ['A']] toyTape = .ok (sk', t₃) ∧
    cpEncrypt toyEnv pk (chars% "(\"B\" and \"C\") or \"A\"") [7] .human toyTape = .ok (ct, t₄) ∧
    cpDecrypt toyEnv sk ct = .ok [7] ∧ cpDecrypt toyEnv sk' ct = .ok [7] := by
  have h : (do
    let x ← setup toyEnv toyTape
    let y ← cpKeygen toyEnv x.1.2 [['A']] toyTape
    let y' ← cpKeygen toyEnv x.1.2 [['B'], ['C'], ['A']] toyTape
    let z ← cpEncrypt toyEnv x.1.1 (chars% "(\"B\" and \"C\") or \"A\"") [7] .human toyTape
    .ok (cpDecrypt toyEnv y.1 z.1, cpDecrypt toyEnv y'.1 z.1) : Res (Res Bytes × Res Bytes)) =
      .ok (.ok [7], .ok [7]) := by
    decide +kernel
  simp only [Res.bind_eq_ok, Res.ok.injEq, Prod.mk.injEq] at h
  obtain ⟨⟨⟨pk, msk⟩, t1⟩, h1, ⟨sk, t2⟩, h2, ⟨sk', t3⟩, h3, ⟨ct, t4⟩, h4, h5, h6⟩ := h
  exact ⟨.gate .or [.gate .and [.leaf ['B'] 3, .leaf ['C'] 11], .leaf ['A'] 19], pk, msk, sk, sk', ct, t1, t2, t3, t4,
    ⟨rfl, by simp, by simp [Pol.Wide], by simp⟩, by simp [Once, Pol.names], by simp, h1, h2, h3, h4, h5, h6⟩

/-- Two attributes in the other order; both keys decrypt. -/
example : ∃ (pk : PublicKey Fr Fr Fr) (msk : MasterKey Fr Fr Fr) (sk sk' : CpSecretKey Fr Fr)
    (ct : CpCiphertext Fr Fr Fr) (t₁ t₂ t₃ : Tape Fr Fr Fr Fr),
    setup toyEnv toyTape = .ok ((pk, msk), t₁) ∧ cpKeygen toyEnv msk [['A'], ['B']] toyTape = .ok (sk, t₂) ∧
    cpEncrypt toyEnv pk (chars% "\"B\" and \"A\"") [7] .human toyTape = .ok (ct, t₃) ∧
    sk' = ⟨sk.attr.reverse, sk.sk.k0, sk.sk.k.reverse, sk.sk.kP⟩ ∧ sk'.attr ≠ sk.attr ∧
    cpDecrypt toyEnv sk ct = .ok [7] ∧ cpDecrypt toyEnv sk' ct = .ok [7] := by
  have h : (do
    let x ← setup toyEnv toyTape
    let y ← cpKeygen toyEnv x.1.2 [['A'], ['B']] toyTape
    let z ← cpEncrypt toyEnv x.1.1 (chars% "\"B\" and \"A\"") [7] .human toyTape
    .ok (y.1.attr, cpDecrypt toyEnv y.1 z.1) : Res (List Str × Res Bytes)) = .ok ([['A'], ['B']], .ok [7]) := by
    decide +kernel
  simp only [Res.bind_eq_ok, Res.ok.injEq, Prod.mk.injEq] at h
  obtain ⟨⟨⟨pk, msk⟩, t1⟩, h1, ⟨sk, t2⟩, h2, ⟨ct, t3⟩, h3, h4, h5⟩ := h
  refine ⟨pk, msk, sk, _, ct, t1, t2, t3, h1, h2, h3, rfl, ?_, h5, ?_⟩
  · simp only at h4
    simp [h4]
  · exact (C53_ac17_cp_order toyEnv ct sk ⟨sk.attr.reverse, sk.sk.k0, sk.sk.k.reverse, sk.sk.kP⟩
      (List.reverse_perm _) (List.reverse_perm _) rfl rfl).trans h5

/-- **C53, AC17 KP, larger attribute lists, partial.** If an issued key for a regular policy decrypts an honest ciphertext
for `attrs`, then it decrypts every honest ciphertext for a list containing `attrs` (in any order) to the plaintext
encrypted, as long as no attribute of that list is repeated in the list or in the policy. (Full claim: without `Once`;
false, see `C32_violated_policy`, `C32_violated_ciphertext`.) -/
theorem C53_ac17_kp_larger_partial (env : Env F G1 G2 Gt)
    (t₁ t₁' : Tape F G1 G2 Gt) (pk : PublicKey G1 G2 Gt) (msk : MasterKey F G1 G2)
    (hsetup : setup env t₁ = .ok ((pk, msk), t₁'))
    (text : Str) (lang : PolicyLanguage) (p : Pol) (hreg : Regular text lang p)
    (t₂ t₂' : Tape F G1 G2 Gt) (sk : KpSecretKey G1 G2)
    (hkey : kpKeygen env msk text lang t₂ = .ok (sk, t₂'))
    (attrs attrs' : List Str) (hsub : ∀ x ∈ attrs, x ∈ attrs') (honce : Once p attrs')
    (pt pt' : Bytes) (s₁ s₁' s₂ s₂' : Tape F G1 G2 Gt) (ct ct' : KpCiphertext G1 G2 Gt)
    (henc : kpEncrypt env pk attrs pt s₁ = .ok (ct, s₁'))
    (henc' : kpEncrypt env pk attrs' pt' s₂ = .ok (ct', s₂'))
    (data : Bytes) (hdec : kpDecrypt env sk ct = .ok data) : kpDecrypt env sk ct' = .ok pt' := by
  obtain ⟨P, hs⟩ := setup_ok hsetup
  obtain ⟨ha, _⟩ := kpEncrypt_ok hs henc
  obtain ⟨p', hp', hsat, hne⟩ := C33_ac17_kp_decrypts_only_if_satisfied env sk ct data hdec
  have hpol : sk.policy = (text, lang) := by
    simp only [kpKeygen, RM.bind_ok, RM.pure_ok] at hkey
    obtain ⟨_, _, _, _, _, _, _, _, _, _, _, _, _, _, _, _, _, _, _, _, _, _, _, _, h, _⟩ := hkey
    rw [h]
  have hpp : p'.toValue = p.toValue := by
    have h3 : parse sk.policy.1 sk.policy.2 = .ok p'.toValue := hp'
    rw [hpol, show parse (text, lang).1 (text, lang).2 = .ok p.toValue from hreg.denotes] at h3
    exact (Res.ok.inj h3).symm
  have hsa : p.sat ct.attr = true := by
    have := traverse_eq_sat ct.attr hne p' .leaf
    rw [hpp, traverse_eq_sat ct.attr hne p] at this
    rw [this, hsat]
  rw [ha] at hsa
  exact C32_ac17_kp_correct_partial env t₁ t₁' pk msk hsetup text lang p hreg t₂ t₂' sk hkey attrs' pt' s₂ s₂' ct'
    henc' (sat_mono hsub p hsa) honce

/-- Two ciphertexts and a key meeting all hypotheses of `C53_ac17_kp_larger_partial`; the second list is also the first
in another order with one more attribute. -/
example : ∃ (p : Pol) (pk : PublicKey Fr Fr Fr) (msk : MasterKey Fr Fr Fr)
    (sk : KpSecretKey Fr Fr) (ct ct' : KpCiphertext Fr Fr Fr) (t₁ t₂ t₃ t₄ : Tape Fr Fr Fr Fr),
    Regular (chars% "\"C\" or (\"A\" and \"B\")") .human p ∧ Once p [['C'], ['B'], ['A']] ∧
    setup toyEnv toyTape = .ok ((pk, msk), t₁) ∧
    kpKeygen toyEnv msk (chars% "\"C\" or (\"A\" and \"B\")") .human toyTape = .ok (sk, t₂) ∧
    kpEncrypt toyEnv pk [['A'], ['B']] [7] toyTape = .ok (ct, t₃) ∧
    kpEncrypt toyEnv pk [['C'], ['B'], ['A']] [8, 9] toyTape = .ok (ct', t₄) ∧
    kpDecrypt toyEnv sk ct = .ok [7] ∧ kpDecrypt toyEnv sk ct' = .ok [8, 9] := by
  have h : (do
    let x ← setup toyEnv toyTape
    let y ← kpKeygen toyEnv x.1.2 (chars% "\"C\" or (\"A\" and \"B\")") .human toyTape
    let z ← kpEncrypt toyEnv x.1.1 [['A'], ['B']] [7] toyTape
    let z' ← kpEncrypt toyEnv x.1.1 [['C'], ['B'], ['A']] [8, 9] toyTape
    .ok (kpDecrypt toyEnv y.1 z.1, kpDecrypt toyEnv y.1 z'.1) : Res (Res Bytes × Res Bytes)) =
      .ok (.ok [7], .ok [8, 9]) := by
    decide +kernel
  simp only [Res.bind_eq_ok, Res.ok.injEq, Prod.mk.injEq] at h
  obtain ⟨⟨⟨pk, msk⟩, t1⟩, h1, ⟨sk, t2⟩, h2, ⟨ct, t3⟩, h3, ⟨ct', t4⟩, h4, h5, h6⟩ := h
  exact ⟨.gate .or [.leaf ['C'] 2, .gate .and [.leaf ['A'] 10, .leaf ['B'] 18]], pk, msk, sk, ct, ct', t1, t2, t3, t4,
    ⟨rfl, by simp, by simp [Pol.Wide], by simp⟩, by simp [Once, Pol.names], h1, h2, h3, h4, h5, h6⟩

end Ac17

namespace Aw11

variable {F G1 G2 Gt : Type} [Field F] [DecidableEq F] [AddCommGroup G1] [Module F G1]
  [AddCommGroup G2] [Module F G2] [AddCommGroup Gt] [Module F Gt]

/-- **C53, AW11.** For every ciphertext and every key with distinct attribute names, of any origin, the outcome of
`decrypt` does not depend on the order of the key's components. -/
theorem C53_aw11_order (env : Env F G1 G2 Gt) (gk : GlobalKey G1 G2) (ct : Ciphertext G2 Gt) (sk sk' : SecretKey G1)
    (hgid : sk'.gid = sk.gid) (hperm : sk'.attr.Perm sk.attr) (hn : (sk.attr.map (·.1)).Nodup) :
    decrypt env gk sk' ct = decrypt env gk sk ct := by
  have hmem : ∀ x, x ∈ sk'.attr.map (·.1) ↔ x ∈ sk.attr.map (·.1) := fun x => (hperm.map _).mem_iff
  have hstep : ∀ (h : G1) (z : List (Str × F)), decryptStep env h sk' ct z = decryptStep env h sk ct z := by
    intro h z
    funext acc cur
    simp only [decryptStep]
    rw [find?_perm (fun a : Str × G1 => a.1) hperm ((hperm.map _).nodup_iff.2 hn) cur.1]
  cases hp : parse ct.policy.1 ct.policy.2 with
  | err => simp only [decrypt, hp, Res.err_bind]
  | panic => simp only [decrypt, hp, Res.panic_bind]
  | ok v =>
    obtain ⟨p, rfl, _⟩ := parse_ok hp
    simp only [decrypt, hp, Res.ok_bind, traverse_congr hmem p, calcPruned_congr hmem p, hstep, hgid]

/-- **C53, AW11, larger keys, partial.** Under the hypotheses of `C38_aw11_correct_partial`: if a key decrypts, so does
every issued key with at least the same attributes, with the same result, even if it belongs to another user. (Full claim: for
every accepted policy; false for names with an underscore, see `C38_violated_underscore`.) -/
theorem C53_aw11_larger_partial [BigChar F] (cm : CaseMap) (env : Env F G1 G2 Gt) (gk : GlobalKey G1 G2)
    (auths : List (Authority F G2 Gt)) (hauths : ∀ a ∈ auths, a.Genuine cm env gk)
    (hdistinct : (auths.flatMap fun a => a.names.map cm.upper).Nodup)
    (sk sk' : SecretKey G1) (hkey : Issued cm env gk auths sk) (hkey' : Issued cm env gk auths sk')
    (hsub : ∀ x ∈ sk.attr.map (·.1), x ∈ sk'.attr.map (·.1))
    (text : Str) (lang : PolicyLanguage) (p : Pol) (hreg : Regular text lang p)
    (hname : ∀ n ∈ p.names, n ∈ sk'.attr.map (·.1) → '_' ∉ n) (hupper : ∀ n ∈ p.names, cm.upper n = n)
    (pks : List (PublicKey G2 Gt)) (hpks : ∀ pk ∈ pks, ∃ a ∈ auths, a.pk = pk)
    (hcover : ∀ n ∈ p.names, n ∈ sk'.attr.map (·.1) → ∃ pk ∈ pks, n ∈ pk.attr.map (·.name))
    (plaintext : Bytes) (t t' : Tape F G1 G2 Gt) (ct : Ciphertext G2 Gt)
    (henc : encrypt cm env gk pks text lang plaintext t = .ok (ct, t'))
    (data : Bytes) (hdec : decrypt env gk sk ct = .ok data) : decrypt env gk sk' ct = .ok data := by
  obtain ⟨p', hp', hsat, hne⟩ := C39_aw11_decrypts_only_if_satisfied env gk sk ct data hdec
  obtain ⟨_, _, _, _, _, hc, _⟩ := encrypt_ok hreg.denotes henc
  have hpp : p'.toValue = p.toValue := by
    have h3 : parse ct.policy.1 ct.policy.2 = .ok p'.toValue := hp'
    rw [hc.policy] at h3
    exact (Res.ok.inj h3).symm
  have hne' : sk.attr.map (·.1) ≠ [] := by simpa using hne
  have hs : p.sat (sk.attr.map (·.1)) = true := by
    have := traverse_eq_sat _ hne' p' .leaf
    rw [hpp, traverse_eq_sat _ hne' p] at this
    rw [this, hsat]
  have e := C38_aw11_correct_partial cm env gk auths hauths hdistinct sk hkey text lang p hreg
    (fun n hn ha => hname n hn (hsub n ha)) hupper pks hpks
    (fun n hn ha => hcover n hn (hsub n ha)) plaintext t t' ct henc hs
  rw [hdec] at e
  obtain rfl := Res.ok.inj e
  exact C38_aw11_correct_partial cm env gk auths hauths hdistinct sk' hkey' text lang p hreg hname hupper pks hpks
    hcover data t t' ct henc (sat_mono hsub p hs)

/-- One authority for `A` and `B`, a key of user `U` for `A` and one of user `V` for `B`, `A`, meeting all hypotheses of
`C53_aw11_larger_partial` and, for the second key and its reverse, of `C53_aw11_order`. -/
example : ∃ (p : Pol) (gk : GlobalKey Fr Fr) (a : Authority Fr Fr Fr) (sk sk' : SecretKey Fr)
    (ct : Ciphertext Fr Fr) (t t' : Tape Fr Fr Fr Fr),
    (∀ x ∈ [a], x.Genuine asciiCase toyEnv gk) ∧
    ([a].flatMap fun x => x.names.map asciiCase.upper).Nodup ∧
    Issued asciiCase toyEnv gk [a] sk ∧ Issued asciiCase toyEnv gk [a] sk' ∧
    (∀ x ∈ sk.attr.map (·.1), x ∈ sk'.attr.map (·.1)) ∧
    Regular (chars% "\"B\" or \"A\"") .human p ∧ (∀ n ∈ p.names, n ∈ sk'.attr.map (·.1) → '_' ∉ n) ∧
    (∀ n ∈ p.names, asciiCase.upper n = n) ∧
    (∀ n ∈ p.names, n ∈ sk'.attr.map (·.1) → ∃ pk ∈ [a.pk], n ∈ pk.attr.map (·.name)) ∧
    encrypt asciiCase toyEnv gk [a.pk] (chars% "\"B\" or \"A\"") .human [7] t = .ok (ct, t') ∧
    decrypt toyEnv gk sk ct = .ok [7] ∧ decrypt toyEnv gk sk' ct = .ok [7] ∧ (sk'.attr.map (·.1)).Nodup ∧
    decrypt toyEnv gk ⟨sk'.gid, sk'.attr.reverse⟩ ct = .ok [7] := by
  have h : (do
    let x ← setup toyTape
    let y ← authgen asciiCase toyEnv x.1 [['A'], ['B']] { toyTape with fr := fun n => n + 2 }
    let a ← Res.unwrapOption y.1
    let sk ← keygen asciiCase toyEnv x.1 a.2 ['U'] [['A']]
    let sk' ← keygen asciiCase toyEnv x.1 a.2 ['V'] [['B'], ['A']]
    let z ← encrypt asciiCase toyEnv x.1 [a.1] (chars% "\"B\" or \"A\"") .human [7] { toyTape with fr := fun n => n + 3 }
    .ok (sk.attr.map (·.1), sk'.attr.map (·.1), a.1.attr.map (·.name), decrypt toyEnv x.1 sk z.1) :
      Res (List Str × List Str × List Str × Res Bytes)) =
      .ok ([['A']], [['B'], ['A']], [['A'], ['B']], .ok [7]) := by
    decide +kernel
  simp only [Res.bind_eq_ok, Res.ok.injEq, Prod.mk.injEq] at h
  obtain ⟨⟨gk, t1⟩, _, ⟨o, t2⟩, h2, ⟨pk, msk⟩, h3, sk, h4, sk', h5, ⟨ct, t3⟩, h6, n1, n2, n3, h7⟩ := h
  cases o with
  | none => simp at h3
  | some x =>
    obtain rfl := Res.ok.inj h3
    simp only at n1 n2 n3 h4 h5 h6 h7
    let p : Pol := .gate .or [.leaf ['B'] 2, .leaf ['A'] 9]
    have hr : Regular (chars% "\"B\" or \"A\"") .human p := ⟨rfl, by simp, by simp [Pol.Wide, p], by simp [p]⟩
    let a : Authority Fr Fr Fr := ⟨[['A'], ['B']], pk, msk⟩
    have hG : ∀ x ∈ [a], x.Genuine asciiCase toyEnv gk := by
      intro x hx
      obtain rfl := List.mem_singleton.1 hx
      exact ⟨_, _, h2⟩
    have hD : ([a].flatMap fun x => x.names.map asciiCase.upper).Nodup := by
      simp only [List.flatMap_cons, List.flatMap_nil, a]
      decide
    have hi : Issued asciiCase toyEnv gk [a] sk := .keygen (a := a) (by simp) h4
    have hi' : Issued asciiCase toyEnv gk [a] sk' := .keygen (a := a) (by simp) h5
    have hN : ∀ n ∈ p.names, n ∈ sk'.attr.map (·.1) → '_' ∉ n := by
      rw [n2]
      simp only [Pol.names, p]
      decide
    have hU : ∀ n ∈ p.names, asciiCase.upper n = n := by
      simp only [Pol.names, p]
      decide
    have hsub : ∀ x ∈ sk.attr.map (·.1), x ∈ sk'.attr.map (·.1) := by rw [n1, n2]; simp
    have hC : ∀ n ∈ p.names, n ∈ sk'.attr.map (·.1) → ∃ pk ∈ [a.pk], n ∈ pk.attr.map (·.name) := by
      intro n _ hn
      rw [n2] at hn
      refine ⟨pk, by simp [a], ?_⟩
      rw [n3]
      simp only [List.mem_cons, List.not_mem_nil, or_false] at hn ⊢
      tauto
    have hdec := C53_aw11_larger_partial asciiCase toyEnv gk [a] hG hD sk sk' hi hi' hsub _ _ p hr hN hU [a.pk] (by simp) hC
      [7] _ _ ct h6 [7] h7
    have hn : (sk'.attr.map (·.1)).Nodup := by rw [n2]; simp
    refine ⟨p, gk, a, sk, sk', ct, _, _, hG, hD, hi, hi', hsub, hr, hN, hU, hC, h6, h7, hdec, hn, ?_⟩
    rw [C53_aw11_order toyEnv gk ct sk' ⟨sk'.gid, sk'.attr.reverse⟩ rfl (List.reverse_perm _) hn, hdec]

end Aw11

namespace Lsw

variable {F G1 G2 Gt : Type} [Field F] [DecidableEq F] [AddCommGroup G1] [Module F G1]
  [AddCommGroup G2] [Module F G2] [AddCommGroup Gt] [Module F Gt]

/-- **C53, LSW.** For every key and every ciphertext with distinct attribute names, of any origin, the outcome of
`decrypt` does not depend on the order of the ciphertext's components. -/
theorem C53_lsw_order (env : Env F G1 G2 Gt) (sk : SecretKey G1 G2) (ct ct' : Ciphertext G1 G2 Gt)
    (h1 : ct'.e1 = ct.e1) (h2 : ct'.e2 = ct.e2) (hct : ct'.ct = ct.ct) (hperm : ct'.ej.Perm ct.ej)
    (hn : (ct.ej.map (·.name)).Nodup) : decrypt env sk ct' = decrypt env sk ct := by
  have hmem : ∀ x, x ∈ ct'.ej.map (·.name) ↔ x ∈ ct.ej.map (·.name) := fun x => (hperm.map _).mem_iff
  have hstep : ∀ (z : List (Str × F)), decryptStep env sk ct' z = decryptStep env sk ct z := by
    intro z
    funext acc cur
    simp only [decryptStep]
    rw [find?_perm (fun a : CtAttr G1 => a.name) hperm ((hperm.map _).nodup_iff.2 hn) cur.1, h2]
  cases hp : parse sk.policy.1 sk.policy.2 with
  | err => simp only [decrypt, hp, Res.err_bind]
  | panic => simp only [decrypt, hp, Res.panic_bind]
  | ok v =>
    obtain ⟨p, rfl, _⟩ := parse_ok hp
    simp only [decrypt, hp, Res.ok_bind, calcPruned_congr hmem p, hstep, h1, hct]

/-- **C53, LSW, larger attribute lists, partial.** If an issued key for a regular policy decrypts an honest ciphertext for
`attrs`, then it decrypts every honest ciphertext for a list containing `attrs` (in any order) to the plaintext
encrypted, under the hypotheses of `C34_lsw_correct_partial`. (Full claim: every accepted policy; false, see
`C34_violated_repeated`, `C34_violated_negative`.) -/
theorem C53_lsw_larger_partial [BigChar F] (env : Env F G1 G2 Gt)
    (t₁ t₁' : Tape F G1 G2 Gt) (pk : PublicKey G1 G2 Gt) (msk : MasterKey F G1 G2)
    (hsetup : setup env t₁ = .ok ((pk, msk), t₁'))
    (text : Str) (lang : PolicyLanguage) (p : Pol) (hreg : Regular text lang p)
    (t₂ t₂' : Tape F G1 G2 Gt) (sk : SecretKey G1 G2)
    (hkey : keygen env pk msk text lang t₂ = .ok (sk, t₂'))
    (attrs attrs' : List Str) (hsub : ∀ x ∈ attrs, x ∈ attrs')
    (hsep : Separate p attrs') (hpos : Positive p attrs')
    (pt pt' : Bytes) (s₁ s₁' s₂ s₂' : Tape F G1 G2 Gt) (ct ct' : Ciphertext G1 G2 Gt)
    (henc : encrypt env pk attrs pt s₁ = .ok (ct, s₁'))
    (henc' : encrypt env pk attrs' pt' s₂ = .ok (ct', s₂'))
    (data : Bytes) (hdec : decrypt env sk ct = .ok data) : decrypt env sk ct' = .ok pt' := by
  refine C34_lsw_correct_partial env t₁ t₁' pk msk hsetup text lang p hreg t₂ t₂' sk hkey attrs' pt' s₂ s₂' ct'
    henc' (sat_mono hsub p ?_) hsep hpos
  obtain ⟨hk, _⟩ := keygen_ok hreg.denotes hkey
  obtain ⟨_, _, hc, _⟩ := encrypt_ok henc
  by_contra hns
  have := C35_lsw_refuses env sk ct p hk.policy hreg.wide (by rw [hc.names]; simpa using hns)
  rw [hdec] at this
  simp at this

/-- Two ciphertexts and a key meeting all hypotheses of `C53_lsw_larger_partial` and, for the second ciphertext and its
reverse, of `C53_lsw_order`. -/
example : ∃ (p : Pol) (pk : PublicKey Fr Fr Fr) (msk : MasterKey Fr Fr Fr)
    (sk : SecretKey Fr Fr) (ct ct' : Ciphertext Fr Fr Fr) (t₁ t₂ t₃ t₄ : Tape Fr Fr Fr Fr),
    Regular (chars% "\"C\" or (\"A\" and \"B\")") .human p ∧ Separate p [['C'], ['B'], ['A']] ∧
    Positive p [['C'], ['B'], ['A']] ∧ setup toyEnv toyTape = .ok ((pk, msk), t₁) ∧
    keygen toyEnv pk msk (chars% "\"C\" or (\"A\" and \"B\")") .human toyTape = .ok (sk, t₂) ∧
    encrypt toyEnv pk [['A'], ['B']] [7] toyTape = .ok (ct, t₃) ∧
    encrypt toyEnv pk [['C'], ['B'], ['A']] [8, 9] toyTape = .ok (ct', t₄) ∧
    decrypt toyEnv sk ct = .ok [7] ∧ decrypt toyEnv sk ct' = .ok [8, 9] ∧ (ct'.ej.map (·.name)).Nodup ∧
    decrypt toyEnv sk { ct' with ej := ct'.ej.reverse } = .ok [8, 9] := by
  have h : (do
    let x ← setup toyEnv toyTape
    let y ← keygen toyEnv x.1.1 x.1.2 (chars% "\"C\" or (\"A\" and \"B\")") .human toyTape
    let z ← encrypt toyEnv x.1.1 [['A'], ['B']] [7] toyTape
    let z' ← encrypt toyEnv x.1.1 [['C'], ['B'], ['A']] [8, 9] toyTape
    .ok (decrypt toyEnv y.1 z.1, decrypt toyEnv y.1 z'.1) : Res (Res Bytes × Res Bytes)) =
      .ok (.ok [7], .ok [8, 9]) := by
    decide +kernel
  simp only [Res.bind_eq_ok, Res.ok.injEq, Prod.mk.injEq] at h
  obtain ⟨⟨⟨pk, msk⟩, t1⟩, h1, ⟨sk, t2⟩, h2, ⟨ct, t3⟩, h3, ⟨ct', t4⟩, h4, h5, h6⟩ := h
  have hn : (ct'.ej.map (·.name)).Nodup := by
    obtain ⟨_, _, hc, _⟩ := encrypt_ok h4
    rw [hc.names]
    simp
  exact ⟨.gate .or [.leaf ['C'] 2, .gate .and [.leaf ['A'] 10, .leaf ['B'] 18]], pk, msk, sk, ct, ct', t1, t2, t3, t4,
    ⟨rfl, by simp, by simp [Pol.Wide], by simp⟩, by simp [Separate, Pol.names], by simp [Positive, Pol.names], h1, h2, h3, h4, h5,
    h6, hn, (C53_lsw_order toyEnv sk ct' { ct' with ej := ct'.ej.reverse } rfl rfl rfl (List.reverse_perm _) hn).trans h6⟩

end Lsw

namespace Yct14

variable {F G1 G2 Gt : Type} [Field F] [DecidableEq F] [AddCommGroup G1] [Module F G1]
  [AddCommGroup G2] [Module F G2] [AddCommGroup Gt] [Module F Gt]

/-- **C53, YCT14.** For every key and every ciphertext with distinct attribute names, of any origin, the outcome of
`decrypt` does not depend on the order of the ciphertext's components. -/
theorem C53_yct14_order (env : Env F G1 G2 Gt) (sk : SecretKey F Gt) (ct ct' : Ciphertext F Gt)
    (hct : ct'.ct = ct.ct) (hperm : ct'.attributes.Perm ct.attributes)
    (hn : (ct.attributes.map (·.name)).Nodup) : decrypt env sk ct' = decrypt env sk ct := by
  have hmem : ∀ x, x ∈ ct'.attributes.map (·.name) ↔ x ∈ ct.attributes.map (·.name) :=
    fun x => (hperm.map _).mem_iff
  have hstep : ∀ (z : List (Str × F)), decryptStep sk ct' z = decryptStep sk ct z := by
    intro z
    funext acc cur
    simp only [decryptStep, Ciphertext.getPublic]
    rw [find?_perm (fun a : Attribute F Gt => a.name) hperm ((hperm.map _).nodup_iff.2 hn) cur.1]
  cases hp : parse sk.policy.1 sk.policy.2 with
  | err => simp only [decrypt, hp, Res.err_bind]
  | panic => simp only [decrypt, hp, Res.panic_bind]
  | ok v =>
    obtain ⟨p, rfl, _⟩ := parse_ok hp
    simp only [decrypt, hp, Res.ok_bind, calcPruned_congr hmem p, hstep, hct]

/-- **C53, YCT14, larger attribute lists, partial.** If an issued key for a regular policy decrypts an honest ciphertext
for `attrs`, then it decrypts every honest ciphertext for a list containing `attrs` (in any order) to the plaintext
encrypted, under the hypotheses of `C36_yct14_correct_partial`. (Full claim: every accepted policy; false, see
`C36_violated_repeated`, `C36_violated_underscore`.) -/
theorem C53_yct14_larger_partial [BigChar F] (env : Env F G1 G2 Gt) (uni : List Str)
    (t₁ t₁' : Tape F G1 G2 Gt) (pk : PublicKey F Gt) (msk : MasterKey F Gt)
    (hsetup : setup uni t₁ = .ok ((pk, msk), t₁'))
    (text : Str) (lang : PolicyLanguage) (p : Pol) (hreg : Regular text lang p)
    (t₂ t₂' : Tape F G1 G2 Gt) (sk : SecretKey F Gt)
    (hkey : keygen msk text lang t₂ = .ok (sk, t₂'))
    (attrs attrs' : List Str) (hsub : ∀ x ∈ attrs, x ∈ attrs')
    (hsep : Separate p attrs')
    (pt pt' : Bytes) (s₁ s₁' s₂ s₂' : Tape F G1 G2 Gt) (ct ct' : Ciphertext F Gt)
    (henc : encrypt env pk attrs pt s₁ = .ok (ct, s₁'))
    (henc' : encrypt env pk attrs' pt' s₂ = .ok (ct', s₂'))
    (data : Bytes) (hdec : decrypt env sk ct = .ok data) : decrypt env sk ct' = .ok pt' := by
  refine C36_yct14_correct_partial env uni t₁ t₁' pk msk hsetup text lang p hreg t₂ t₂' sk hkey attrs' pt' s₂ s₂'
    ct' henc' (sat_mono hsub p ?_) hsep
  obtain ⟨g, L, hs⟩ := setup_ok hsetup
  obtain ⟨hk, _⟩ := keygen_ok hs hreg.denotes hkey
  obtain ⟨_, hc, _⟩ := encrypt_ok hs henc
  by_contra hns
  have := C37_yct14_refuses env sk ct p hk.policy hreg.wide (by rw [hc.names]; simpa using hns)
  rw [hdec] at this
  simp at this

/-- Two ciphertexts and a key meeting all hypotheses of `C53_yct14_larger_partial` and, for the second ciphertext and its
reverse, of `C53_yct14_order`. -/
example : ∃ (p : Pol) (pk : PublicKey Fr Fr) (msk : MasterKey Fr Fr)
    (sk : SecretKey Fr Fr) (ct ct' : Ciphertext Fr Fr) (t₁ t₂ t₃ t₄ : Tape Fr Fr Fr Fr),
    Regular (chars% "\"C\" or (\"A\" and \"B\")") .human p ∧ Separate p [['C'], ['B'], ['A']] ∧
    setup [['A'], ['B'], ['C']] toyTape = .ok ((pk, msk), t₁) ∧
    keygen msk (chars% "\"C\" or (\"A\" and \"B\")") .human toyTape = .ok (sk, t₂) ∧
    encrypt toyEnv pk [['A'], ['B']] [7] toyTape = .ok (ct, t₃) ∧
    encrypt toyEnv pk [['C'], ['B'], ['A']] [8, 9] toyTape = .ok (ct', t₄) ∧
    decrypt toyEnv sk ct = .ok [7] ∧ decrypt toyEnv sk ct' = .ok [8, 9] ∧ (ct'.attributes.map (·.name)).Nodup ∧
    decrypt toyEnv sk { ct' with attributes := ct'.attributes.reverse } = .ok [8, 9] := by
  have h : (do
    let x ← setup [['A'], ['B'], ['C']] toyTape
    let y ← keygen x.1.2 (chars% "\"C\" or (\"A\" and \"B\")") .human toyTape
    let z ← encrypt toyEnv x.1.1 [['A'], ['B']] [7] toyTape
    let z' ← encrypt toyEnv x.1.1 [['C'], ['B'], ['A']] [8, 9] toyTape
    .ok (z'.1.attributes.map (·.name), decrypt toyEnv y.1 z.1, decrypt toyEnv y.1 z'.1) :
      Res (List Str × Res Bytes × Res Bytes)) = .ok ([['C'], ['B'], ['A']], .ok [7], .ok [8, 9]) := by
    decide +kernel
  simp only [Res.bind_eq_ok, Res.ok.injEq, Prod.mk.injEq] at h
  obtain ⟨⟨⟨pk, msk⟩, t1⟩, h1, ⟨sk, t2⟩, h2, ⟨ct, t3⟩, h3, ⟨ct', t4⟩, h4, h5, h6, h7⟩ := h
  have hn : (ct'.attributes.map (·.name)).Nodup := by
    simp only at h5
    rw [h5]
    simp
  exact ⟨.gate .or [.leaf ['C'] 2, .gate .and [.leaf ['A'] 10, .leaf ['B'] 18]], pk, msk, sk, ct, ct', t1, t2, t3, t4,
    ⟨rfl, by simp, by simp [Pol.Wide], by simp⟩, by simp [Separate, Pol.names], h1, h2, h3, h4, h6, h7, hn,
    (C53_yct14_order toyEnv sk ct' { ct' with attributes := ct'.attributes.reverse } rfl (List.reverse_perm _) hn).trans
      h7⟩

end Yct14
end Rabe
