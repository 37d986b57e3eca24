import Verif.Proof.Translation
import Verif.Props.Grammar

/-!
# Property C98: the language of a policy

Two texts, in the same or in different languages, that denote the same tree apart from the columns of the leaves.
-/

namespace Rabe

set_option linter.unusedSectionVars false

variable {F G1 G2 Gt : Type} [Field F] [DecidableEq F] [AddCommGroup G1] [AddCommGroup G2] [AddCommGroup Gt] [Module F G1]
  [Module F G2] [Module F Gt]

/-- **C98, the matrix.** The same span program. -/
theorem C98_msp {t t' : Str} {lang lang' : PolicyLanguage} {p q : Pol} (hp : Denotes t lang p) (hq : Denotes t' lang' q)
    (h : p.Same q) : AbePolicy.fromLanguage t' lang' = AbePolicy.fromLanguage t lang := by
  simp only [AbePolicy.fromLanguage, show parse t lang = _ from hp, show parse t' lang' = _ from hq, Res.ok_bind]
  rw [← msp_nocol p.toValue, same_value h, msp_nocol]

/-- **C98, the normal form.** The same terms for the same public keys. -/
theorem C98_dnf {t t' : Str} {lang lang' : PolicyLanguage} {p q : Pol} (hp : Denotes t lang p) (hq : Denotes t' lang' q)
    (h : p.Same q) (pks : List (PubAttr G1 G2 Gt)) :
    DnfPolicy.fromString t' pks lang' = DnfPolicy.fromString t pks lang := by
  simp only [DnfPolicy.fromString, show parse t lang = _ from hp, show parse t' lang' = _ from hq, Res.ok_bind]
  rw [← jsonToDnf_nocol p.toValue, same_value h, jsonToDnf_nocol]

/-- **C98, the library's translation.** The JSON text that the library writes for an accepted policy denotes the same tree. -/
theorem C98_serialised {t : Str} {lang : PolicyLanguage} {p : Pol} (hp : Denotes t lang p) :
    ∃ q, Denotes (serializeJson p.toValue) .json q ∧ p.Same q ∧ p.names = q.names ∧ ∀ A, p.sat A = q.sat A := by
  obtain ⟨p', q, e, hq, h⟩ := C03_json_roundtrip t lang _ hp
  have := toValue_inj _ _ e
  subst this
  exact ⟨q, hq, h, same_names h, fun A => same_sat h A⟩

theorem same_traverse {p q : Pol} (h : p.Same q) (A : List Str) :
    traversePolicy A p.toValue .leaf = traversePolicy A q.toValue .leaf := by
  rw [← traverse_nocol, same_value h, traverse_nocol]

theorem alike_to {α β : Type} {f : α → β} {x : Res α} {y : Res β} (h : Res.Alike (fun a b => b = f a) x y) : y = x.to f := by
  cases x <;> cases y <;> simp_all [Res.Alike, Res.to]

/-! ## AC17, BDABE, MKE08: nothing depends on the columns -/

namespace Ac17

/-- The same randomness gives the same ciphertext, apart from the stored policy. -/
theorem C98_cp_encrypt (env : Env F G1 G2 Gt) {t t' : Str} {lang lang' : PolicyLanguage} {p q : Pol} (hp : Denotes t lang p)
    (hq : Denotes t' lang' q) (h : p.Same q) (pk : PublicKey G1 G2 Gt) (pt : Bytes) (s : Tape F G1 G2 Gt) :
    cpEncrypt env pk t' pt lang' s =
      (cpEncrypt env pk t pt lang s).to fun r => ({ r.1 with policy := (t', lang') }, r.2) := by
  simp only [cpEncrypt, show parse t lang = _ from hp, show parse t' lang' = _ from hq, RM.bind_value]
  rw [← msp_nocol p.toValue, same_value h, msp_nocol]
  iterate 8 refine RM.to_bind (fun _ _ => ?_) _
  rfl

/-- The same randomness gives the same key, apart from the stored policy. -/
theorem C98_kp_keygen (env : Env F G1 G2 Gt) {t t' : Str} {lang lang' : PolicyLanguage} {p q : Pol} (hp : Denotes t lang p)
    (hq : Denotes t' lang' q) (h : p.Same q) (msk : MasterKey F G1 G2) (s : Tape F G1 G2 Gt) :
    kpKeygen env msk t' lang' s = (kpKeygen env msk t lang s).to fun r => ({ r.1 with policy := (t', lang') }, r.2) := by
  simp only [kpKeygen, show parse t lang = _ from hp, show parse t' lang' = _ from hq, RM.bind_value]
  rw [← msp_nocol p.toValue, same_value h, msp_nocol]
  iterate 7 refine RM.to_bind (fun _ _ => ?_) _
  rfl

/-- The policy stored in a ciphertext may be replaced: any key, any ciphertext. -/
theorem C98_cp_decrypt (env : Env F G1 G2 Gt) {t t' : Str} {lang lang' : PolicyLanguage} {p q : Pol} (hp : Denotes t lang p)
    (hq : Denotes t' lang' q) (h : p.Same q) (sk : CpSecretKey G1 G2) (ct : CpCiphertext G1 G2 Gt)
    (hct : ct.policy = (t, lang)) :
    cpDecrypt env sk { ct with policy := (t', lang') } = cpDecrypt env sk ct := by
  simp only [cpDecrypt, cpRecover, hct, show parse t lang = _ from hp, show parse t' lang' = _ from hq, Res.ok_bind,
    same_traverse h]
  rcases pruned_cases sk.attr (same_value h) with ⟨b, l, l', h1, h2, h3⟩ | h1
  · simp only [h1, h2, Res.ok_bind, (decStep_names env sk.sk ct.ct h3).1]
  · rw [h1]

/-- The policy stored in a key may be replaced. -/
theorem C98_kp_decrypt (env : Env F G1 G2 Gt) {t t' : Str} {lang lang' : PolicyLanguage} {p q : Pol} (hp : Denotes t lang p)
    (hq : Denotes t' lang' q) (h : p.Same q) (sk : KpSecretKey G1 G2) (ct : KpCiphertext G1 G2 Gt)
    (hsk : sk.policy = (t, lang)) :
    kpDecrypt env { sk with policy := (t', lang') } ct = kpDecrypt env sk ct := by
  simp only [kpDecrypt, kpRecover, hsk, show parse t lang = _ from hp, show parse t' lang' = _ from hq, Res.ok_bind,
    same_traverse h]
  rcases pruned_cases ct.attr (same_value h) with ⟨b, l, l', h1, h2, h3⟩ | h1
  · simp only [h1, h2, Res.ok_bind, (decStep_names env sk.sk ct.ct h3).2]
  · rw [h1]

end Ac17

namespace Bdabe

/-- The same randomness gives the same ciphertext, apart from the stored policy. -/
theorem C98_encrypt (env : Env F G1 G2 Gt) {t t' : Str} {lang lang' : PolicyLanguage} {p q : Pol} (hp : Denotes t lang p)
    (hq : Denotes t' lang' q) (h : p.Same q) (pk : PublicKey G1 G2 Gt) (pks : List (PublicAttributeKey G1 G2 Gt))
    (pt : Bytes) (s : Tape F G1 G2 Gt) :
    encrypt env pk pks t' lang' pt s =
      (encrypt env pk pks t lang pt s).to fun r => ({ r.1 with policy := (t', lang') }, r.2) := by
  have hd := C98_dnf hp hq h (pks.map PublicAttributeKey.view)
  have hi : policyInDnf p.toValue false none = policyInDnf q.toValue false none := by
    rw [← inDnf_nocol, same_value h, inDnf_nocol]
  simp only [encrypt, show parse t lang = _ from hp, show parse t' lang' = _ from hq, hd, hi, RM.bind_value]
  split
  · iterate 5 refine RM.to_bind (fun _ _ => ?_) _
    rfl
  · rfl

/-- The policy stored in a ciphertext may be replaced. -/
theorem C98_decrypt (env : Env F G1 G2 Gt) {t t' : Str} {lang lang' : PolicyLanguage} {p q : Pol} (hp : Denotes t lang p)
    (hq : Denotes t' lang' q) (h : p.Same q) (one : G1 × G2) (sk : UserKey G1 G2) (ct : Ciphertext G1 G2 Gt)
    (hct : ct.policy = (t, lang)) :
    decrypt env one sk { ct with policy := (t', lang') } = decrypt env one sk ct := by
  simp only [decrypt, hct, show parse t lang = _ from hp, show parse t' lang' = _ from hq, Res.ok_bind, same_traverse h]

end Bdabe

namespace Mke08

/-- The same randomness gives the same ciphertext, apart from the stored policy. -/
theorem C98_encrypt (env : Env F G1 G2 Gt) {t t' : Str} {lang lang' : PolicyLanguage} {p q : Pol} (hp : Denotes t lang p)
    (hq : Denotes t' lang' q) (h : p.Same q) (pk : PublicKey G1 G2 Gt) (pks : List (PublicAttributeKey G1 G2 Gt))
    (pt : Bytes) (s : Tape F G1 G2 Gt) :
    encrypt env pk pks t' lang' pt s =
      (encrypt env pk pks t lang pt s).to fun r => ({ r.1 with policy := (t', lang') }, r.2) := by
  have hd := C98_dnf hp hq h (pks.map PublicAttributeKey.view)
  have hi : policyInDnf p.toValue false none = policyInDnf q.toValue false none := by
    rw [← inDnf_nocol, same_value h, inDnf_nocol]
  simp only [encrypt, show parse t lang = _ from hp, show parse t' lang' = _ from hq, hd, hi, RM.bind_value]
  split
  · iterate 6 refine RM.to_bind (fun _ _ => ?_) _
    rfl
  · rfl

/-- The policy stored in a ciphertext may be replaced. -/
theorem C98_decrypt (env : Env F G1 G2 Gt) {t t' : Str} {lang lang' : PolicyLanguage} {p q : Pol} (hp : Denotes t lang p)
    (hq : Denotes t' lang' q) (h : p.Same q) (one : G1 × G2) (sk : UserKey G1 G2) (ct : Ciphertext G1 G2 Gt)
    (hct : ct.policy = (t, lang)) :
    decrypt env one sk { ct with policy := (t', lang') } = decrypt env one sk ct := by
  simp only [decrypt, hct, show parse t lang = _ from hp, show parse t' lang' = _ from hq, Res.ok_bind, same_traverse h]

end Mke08

/-! ## LSW, YCT14: the keys do not contain columns, decryption finds coefficients by column -/

theorem coeffs_calc (p : Pol) : calcCoefficients p.toValue (some (1 : F)) [] none = .ok (some (coeffs p 1)) := by
  rw [calcCoefficients_eq]
  rfl

theorem forall2_map {α β γ δ : Type} {R : α → β → Prop} (f : α → γ) (g : β → δ) : ∀ {xs : List α} {ys : List β},
    List.Forall₂ R xs ys → List.Forall₂ (fun x y => ∃ l m, R l m ∧ x = f l ∧ y = g m) (xs.map f) (ys.map g)
  | _, _, .nil => .nil
  | _, _, .cons h t => .cons ⟨_, _, h, rfl, rfl⟩ (forall2_map f g t)

theorem forall2_map_key {p q : Pol} (h : p.Same q) (A : List Str) :
    List.Forall₂ (fun x y => ∃ l m, Opposite p q l m ∧ x = leafKey l ∧ y = leafKey m) ((pick A p).map leafKey)
      ((pick A q).map leafKey) := forall2_map _ _ (pick_same A p q h)

theorem forall2_eq {α : Type} : ∀ {xs ys : List α}, List.Forall₂ (· = ·) xs ys → xs = ys
  | _, _, .nil => rfl
  | _, _, .cons rfl t => by rw [forall2_eq t]

theorem parse_alike {t t' : Str} {lang lang' : PolicyLanguage} {p q : Pol} (hp : Denotes t lang p) (hq : Denotes t' lang' q) :
    RM.Alike (F := F) (G1 := G1) (G2 := G2) (Gt := Gt) (fun v w => v = p.toValue ∧ w = q.toValue) (RM.lift (parse t lang))
      (RM.lift (parse t' lang')) := by
  rw [show parse t lang = _ from hp, show parse t' lang' = _ from hq]
  exact fun s => ⟨⟨rfl, rfl⟩, rfl⟩

theorem alike_run {α β : Type} {f : α → β} {m : RM F G1 G2 Gt α} {m' : RM F G1 G2 Gt β}
    (h : RM.Alike (fun a b => b = f a) m m') (s : Tape F G1 G2 Gt) : m' s = (m s).to fun r => (f r.1, r.2) := by
  refine alike_to ?_
  have := h s
  revert this
  rcases m s with ⟨a, u⟩ | _ | _ <;> rcases m' s with ⟨b, v⟩ | _ | _ <;> simp only [Res.Alike] <;> try exact id
  rintro ⟨rfl, rfl⟩
  rfl

/-- Related lists of shares. -/
def SameList (p q : Pol) (xs ys : List (Str × F)) : Prop :=
  xs.map Prod.fst = p.leaves.map leafIdx ∧ ys.map Prod.fst = q.leaves.map leafIdx ∧
    List.Forall₂ (fun a b => Beside a.1 b.1 ∧ a.2 = b.2) xs ys

theorem unwrap_shares {p q : Pol} {x y : Option (List (Str × F))} (h : SameShares p q x y) :
    RM.Alike (F := F) (G1 := G1) (G2 := G2) (Gt := Gt) (SameList p q) (RM.lift (Res.unwrapOption x))
      (RM.lift (Res.unwrapOption y)) := by
  obtain ⟨xs, ys, rfl, rfl, h⟩ := h
  exact fun s => ⟨h, rfl⟩

namespace Lsw

/-- The same randomness gives the same key, apart from the stored policy. -/
theorem C98_keygen (env : Env F G1 G2 Gt) {t t' : Str} {lang lang' : PolicyLanguage} {p q : Pol} (hp : Denotes t lang p)
    (hq : Denotes t' lang' q) (h : p.Same q) (pk : PublicKey G1 G2 Gt) (msk : MasterKey F G1 G2) (s : Tape F G1 G2 Gt) :
    keygen env pk msk t' lang' s = (keygen env pk msk t lang s).to fun r => ({ r.1 with policy := (t', lang') }, r.2) := by
  refine alike_run (f := fun a : SecretKey G1 G2 => { a with policy := (t', lang') }) ?_ s
  refine RM.Alike.bind (parse_alike hp hq) ?_
  rintro _ _ ⟨rfl, rfl⟩
  refine RM.Alike.bind (genShares_same h _) ?_
  rintro _ _ ⟨xs, ys, rfl, rfl, -, -, hf⟩
  refine RM.Alike.bind (RM.Alike.mapL (S := (· = ·)) (fun a b e => ?_) hf) ?_
  · have : keygenShare env pk msk a = keygenShare env pk msk b := by
      funext u
      simp only [keygenShare, e.1.cut, e.2]
    rw [this]
    exact RM.alike_refl _
  · intro a b e
    rw [forall2_eq e]
    exact RM.Alike.pure rfl

/-- The policy stored in a key may be replaced: any key, any ciphertext. -/
theorem C98_decrypt_partial (env : Env F G1 G2 Gt) {t t' : Str} {lang lang' : PolicyLanguage} {p q : Pol}
    (hp : Regular t lang p) (hq : Regular t' lang' q) (h : p.Same q) (sk : SecretKey G1 G2) (ct : Ciphertext G1 G2 Gt)
    (hsk : sk.policy = (t, lang)) : decrypt env { sk with policy := (t', lang') } ct = decrypt env sk ct := by
  simp only [decrypt, hsk, show parse t lang = _ from hp.denotes, show parse t' lang' = _ from hq.denotes, Res.ok_bind,
    calcPruned_eq _ p hp.wide, calcPruned_eq _ q hq.wide, coeffs_calc, Res.unwrapOption_some, same_sat h]
  split
  · congr 1
    refine (foldR_same ?_ (forall2_map_key h _) _).symm
    rintro acc _ _ ⟨l, m, ho, rfl, rfl⟩
    obtain ⟨x, e1, e2⟩ := coeff_same h hp.labels hq.labels (1 : F) ho
    simp only [leafIdx] at e1 e2
    simp only [decryptStep, leafKey, e1, e2, Res.unwrapOption_some, Res.ok_bind]
    simp only [ho.name h]
  · rfl

end Lsw

namespace Yct14

/-- The same randomness gives the same key, apart from the stored policy. -/
theorem C98_keygen {t t' : Str} {lang lang' : PolicyLanguage} {p q : Pol} (hp : Denotes t lang p)
    (hq : Denotes t' lang' q) (h : p.Same q) (msk : MasterKey F Gt) (s : Tape F G1 G2 Gt) :
    keygen msk t' lang' s = (keygen msk t lang s).to fun r => ({ r.1 with policy := (t', lang') }, r.2) := by
  refine alike_run (f := fun a : SecretKey F Gt => { a with policy := (t', lang') }) ?_ s
  refine RM.Alike.bind (parse_alike hp hq) ?_
  rintro _ _ ⟨rfl, rfl⟩
  refine RM.Alike.bind (genShares_same h _) ?_
  rintro _ _ ⟨xs, ys, rfl, rfl, -, -, hf⟩
  refine RM.Alike.bind (RM.Alike.lift (Res.Alike.mapR (S := (· = ·)) (fun a b e => ?_) hf)) ?_
  · have : keygenShare msk a = keygenShare msk b := by simp only [keygenShare, e.1.cut, e.2]
    rw [this]
    exact Res.alike_refl _
  · intro a b e
    rw [forall2_eq e]
    exact RM.Alike.pure rfl

/-- The policy stored in a key may be replaced: any key, any ciphertext. -/
theorem C98_decrypt_partial (env : Env F G1 G2 Gt) {t t' : Str} {lang lang' : PolicyLanguage} {p q : Pol}
    (hp : Regular t lang p) (hq : Regular t' lang' q) (h : p.Same q) (sk : SecretKey F Gt) (ct : Ciphertext F Gt)
    (hsk : sk.policy = (t, lang)) : decrypt env { sk with policy := (t', lang') } ct = decrypt env sk ct := by
  simp only [decrypt, hsk, show parse t lang = _ from hp.denotes, show parse t' lang' = _ from hq.denotes, Res.ok_bind,
    calcPruned_eq _ p hp.wide, calcPruned_eq _ q hq.wide, coeffs_calc, Res.unwrapOption_some, same_sat h]
  split
  · congr 1
    refine (foldR_same ?_ (forall2_map_key h _) _).symm
    rintro acc _ _ ⟨l, m, ho, rfl, rfl⟩
    obtain ⟨x, e1, e2⟩ := coeff_same h hp.labels hq.labels (1 : F) ho
    simp only [leafIdx] at e1 e2
    simp only [decryptStep, leafKey, e1, e2, Res.unwrapOption_some, Res.ok_bind]
    simp only [ho.name h]
    rfl
  · rfl

end Yct14

/-! ## BSW, GHW11, AW11: the ciphertexts contain columns -/

namespace Bsw

/-- Two ciphertexts for texts of the trees `p` and `q` that differ in the stored policy and the columns in the labels only. -/
structure SameCt (p q : Pol) (ct ct' : Ciphertext G1 G2 Gt) : Prop where
  c : ct.c = ct'.c
  cP : ct.cP = ct'.cP
  data : ct.data = ct'.data
  labels : ct.cY.map (·.string) = p.leaves.map fun l => nodeIndex l.1 l.2
  labels' : ct'.cY.map (·.string) = q.leaves.map fun l => nodeIndex l.1 l.2
  values : List.Forall₂ (fun a b => a.g1 = b.g1 ∧ a.g2 = b.g2) ct.cY ct'.cY

/-- The same randomness gives the same ciphertext, apart from the stored policy and the columns in the labels. -/
theorem C98_encrypt (env : Env F G1 G2 Gt) {t t' : Str} {lang lang' : PolicyLanguage} {p q : Pol} (hp : Denotes t lang p)
    (hq : Denotes t' lang' q) (h : p.Same q) (pk : PublicKey G1 G2 Gt) (pt : Bytes) :
    RM.Alike (fun ct ct' => SameCt p q ct ct' ∧ ct.policy = (t, lang) ∧ ct'.policy = (t', lang'))
      (encrypt env pk t lang pt) (encrypt env pk t' lang' pt) := by
  refine RM.Alike.bind (RM.alike_refl _) ?_
  rintro s _ rfl
  refine RM.Alike.bind (RM.alike_refl _) ?_
  rintro msg _ rfl
  refine RM.Alike.bind (parse_alike hp hq) ?_
  rintro _ _ ⟨rfl, rfl⟩
  refine RM.Alike.bind (genShares_same h _) ?_
  intro x y hs
  refine RM.Alike.bind (unwrap_shares hs) ?_
  rintro xs ys ⟨h1, h2, hf⟩
  refine RM.Alike.bind (RM.alike_refl _) ?_
  rintro d _ rfl
  refine RM.Alike.pure ⟨⟨rfl, rfl, rfl, ?_, ?_, ?_⟩, rfl, rfl⟩
  · rw [List.map_map]; exact h1
  · rw [List.map_map]; exact h2
  · refine forall2_imp ?_ (forall2_map (encAttr env pk) (encAttr env pk) hf)
    rintro _ _ ⟨a, b, e, rfl, rfl⟩
    simp only [encAttr, e.1.cut, e.2, and_self]

theorem coeffLoop_miss (env : Env F G1 G2 Gt) (cy dj : Attribute G1 G2) (j : Str) : ∀ (z : List (Str × F)) (a : Gt),
    j ∉ z.map Prod.fst → coeffLoop env cy dj j z a = a
  | [], a, _ => rfl
  | x :: z, a, h => by
    simp only [List.map_cons, List.mem_cons, not_or] at h
    rw [coeffLoop, if_neg (by simpa using fun e => h.1 e.symm), coeffLoop_miss env cy dj j z a h.2]

theorem coeffLoop_find (env : Env F G1 G2 Gt) (cy dj : Attribute G1 G2) (j : Str) : ∀ (z : List (Str × F)) (a : Gt),
    (z.map Prod.fst).Nodup → ∀ x, z.find? (fun c => c.1 == j) = some x →
    coeffLoop env cy dj j z a = a + x.2 • (env.pair cy.g1 dj.g2 + -(env.pair dj.g1 cy.g2))
  | [], a, _, x, hx => by simp at hx
  | y :: z, a, h, x, hx => by
    simp only [List.map_cons, List.nodup_cons] at h
    rw [coeffLoop]
    by_cases e : y.1 = j
    · simp only [List.find?_cons, e, beq_self_eq_true, Option.some.injEq] at hx
      subst hx
      rw [if_pos (by simpa using e), coeffLoop_miss env cy dj j z _ (e ▸ h.1)]
    · rw [List.find?_cons_of_neg (by simpa using e)] at hx
      rw [if_neg (by simpa using e), coeffLoop_find env cy dj j z a h.2 x hx]

theorem prunedLoop_same (env : Env F G1 G2 Gt) (sk : SecretKey G1 G2) {ct ct' : Ciphertext G1 G2 Gt} {z z' : List (Str × F)}
    {R : Str × Str → Str × Str → Prop} (hR : ∀ x y, R x y → x.1 = y.1 ∧
      ∃ c c' k, ct.cY.find? (fun a => a.string == x.2) = some c ∧ ct'.cY.find? (fun a => a.string == y.2) = some c' ∧
        c.g1 = c'.g1 ∧ c.g2 = c'.g2 ∧ z.find? (fun a => a.1 == x.2) = some (x.2, k) ∧
        z'.find? (fun a => a.1 == y.2) = some (y.2, k))
    (hz : (z.map Prod.fst).Nodup) (hz' : (z'.map Prod.fst).Nodup) : ∀ {l l' : List (Str × Str)}, List.Forall₂ R l l' →
    ∀ a, prunedLoop env sk ct z l a = prunedLoop env sk ct' z' l' a
  | _, _, .nil, a => rfl
  | _, _, .cons (a := x) (b := y) h t, a => by
    obtain ⟨e, c, c', k, h1, h2, h3, h4, h5, h6⟩ := hR x y h
    obtain ⟨x1, x2⟩ := x
    obtain ⟨y1, y2⟩ := y
    dsimp only at e h1 h2 h5 h6
    subst e
    simp only [prunedLoop, h1, h2]
    rw [prunedLoop_same env sk hR hz hz' t]
    congr 1
    cases sk.dJ.find? fun x => x.string == x1 with
    | none => rfl
    | some dj =>
      dsimp only
      rw [coeffLoop_find env c dj x2 z a hz _ h5, coeffLoop_find env c' dj y2 z' a hz' _ h6, h3, h4]

theorem coeffs_nodup {p : Pol} (hp : p.leaves.Nodup) : ((coeffs p (1 : F)).map Prod.fst).Nodup := by
  rw [coeffs, List.map_fst_zip (by simp [coeffVals_length])]
  exact labels_nodup hp

/-- Every key, whatever it is, gets the same from the two ciphertexts. -/
theorem C98_decrypt_partial (env : Env F G1 G2 Gt) {t t' : Str} {lang lang' : PolicyLanguage} {p q : Pol}
    (hp : Regular t lang p) (hq : Regular t' lang' q) (h : p.Same q) (sk : SecretKey G1 G2) {ct ct' : Ciphertext G1 G2 Gt}
    (hc : SameCt p q ct ct') (hct : ct.policy = (t, lang)) (hct' : ct'.policy = (t', lang')) :
    decrypt env sk ct' = decrypt env sk ct := by
  have hr : recoverMsg env sk ct' = recoverMsg env sk ct := by
    simp only [recoverMsg, hct, hct', show parse t lang = _ from hp.denotes, show parse t' lang' = _ from hq.denotes,
      Res.ok_bind, calcPruned_eq _ p hp.wide, calcPruned_eq _ q hq.wide, coeffs_calc, Res.unwrapOption_some, same_sat h,
      same_traverse h, hc.c, hc.cP]
    rw [prunedLoop_same env sk (ct := ct) (ct' := ct') (fun x y hxy => ?_) (coeffs_nodup hp.labels) (coeffs_nodup hq.labels)
      (forall2_map_key h _)]
    obtain ⟨l, m, ho, rfl, rfl⟩ := hxy
    obtain ⟨k, e1, e2⟩ := coeff_same h hp.labels hq.labels (1 : F) ho
    obtain ⟨x, y, hv, f1, f2⟩ := find_same (fun a : Attribute G1 G2 => a.string) (fun a : Attribute G1 G2 => a.string) hc.values
      (by rw [hc.labels]; exact labels_nodup hp.labels) (by rw [hc.labels']; exact labels_nodup hq.labels)
      (a := leafIdx l) (b := leafIdx m) (by rw [hc.labels, hc.labels']; exact zip_map_mem leafIdx leafIdx ho)
    exact ⟨ho.name h, x, y, k, f1, f2, hv.1, hv.2, e1, e2⟩
  simp only [decrypt, hr, hc.data]

end Bsw

namespace Ghw11

/-- Two ciphertexts for texts of the trees `p` and `q` that differ in the stored policy and the columns in the labels only. -/
structure SameCt (p q : Pol) (ct ct' : Ciphertext G1 Gt) : Prop where
  c : ct.c = ct'.c
  c1 : ct.c1 = ct'.c1
  data : ct.data = ct'.data
  labels : ct.ciDi.map (·.1) = p.leaves.map fun l => nodeIndex l.1 l.2
  labels' : ct'.ciDi.map (·.1) = q.leaves.map fun l => nodeIndex l.1 l.2
  values : List.Forall₂ (fun a b => a.2 = b.2) ct.ciDi ct'.ciDi

theorem encShare_labels (env : Env F G1 G2 Gt) (pk : PublicKey G1 G2 Gt) : ∀ (xs : List (Str × F)) (s : Tape F G1 G2 Gt) ys s',
    RM.mapL (encShare env pk) xs s = .ok (ys, s') → ys.map (·.1) = xs.map Prod.fst
  | [], s, ys, s', h => by
    cases h
    rfl
  | x :: xs, s, ys, s', h => by
    simp only [RM.mapL, RM.bind, encShare, RM.bind_apply, RM.genFr, RM.pure_apply] at h
    split at h <;> cases h
    rename_i hz
    simp [encShare_labels env pk xs _ _ _ hz]

/-- The same randomness gives the same ciphertext, apart from the stored policy and the columns in the labels. -/
theorem C98_encrypt (env : Env F G1 G2 Gt) {t t' : Str} {lang lang' : PolicyLanguage} {p q : Pol} (hp : Denotes t lang p)
    (hq : Denotes t' lang' q) (h : p.Same q) (pk : PublicKey G1 G2 Gt) (pt : Bytes) :
    RM.Alike (fun ct ct' => SameCt p q ct ct' ∧ ct.policy = (t, lang) ∧ ct'.policy = (t', lang'))
      (encrypt env pk t lang pt) (encrypt env pk t' lang' pt) := by
  refine RM.Alike.bind (RM.alike_refl _) ?_
  rintro s _ rfl
  refine RM.Alike.bind (RM.alike_refl _) ?_
  rintro msg _ rfl
  refine RM.Alike.bind (parse_alike hp hq) ?_
  rintro _ _ ⟨rfl, rfl⟩
  refine RM.Alike.bind (genShares_same h _) ?_
  intro x y hs
  refine RM.Alike.bind (unwrap_shares hs) ?_
  rintro xs ys ⟨h1, h2, hf⟩
  refine RM.Alike.bind (R := fun a b => a.map (·.1) = xs.map Prod.fst ∧ b.map (·.1) = ys.map Prod.fst ∧
    List.Forall₂ (fun a b => a.2 = b.2) a b) ?_ ?_
  · have : RM.Alike (List.Forall₂ fun a b => a.2 = b.2) (RM.mapL (encShare env pk) xs) (RM.mapL (encShare env pk) ys) := by
      refine RM.Alike.mapL (fun a b e => ?_) hf
      refine RM.Alike.bind (RM.alike_refl _) ?_
      rintro r _ rfl
      exact RM.Alike.pure (by simp only [e.1.cut, e.2])
    intro u
    have hu := this u
    have l1 := encShare_labels env pk xs u
    have l2 := encShare_labels env pk ys u
    revert hu l1 l2
    rcases RM.mapL (encShare env pk) xs u with ⟨a, v⟩ | _ | _ <;>
      rcases RM.mapL (encShare env pk) ys u with ⟨b, w⟩ | _ | _ <;> intro hu l1 l2 <;> simp only [Res.Alike] at hu ⊢
    exact ⟨⟨l1 _ _ rfl, l2 _ _ rfl, hu.1⟩, hu.2⟩
  rintro as bs ⟨l1, l2, hv⟩
  refine RM.Alike.bind (RM.alike_refl _) ?_
  rintro d _ rfl
  exact RM.Alike.pure ⟨⟨rfl, rfl, rfl, l1.trans h1, l2.trans h2, hv⟩, rfl, rfl⟩

/-- Every transformation key, whatever it is, gets the same from the two ciphertexts. -/
theorem C98_transform_partial (env : Env F G1 G2 Gt) {t t' : Str} {lang lang' : PolicyLanguage} {p q : Pol}
    (hp : Regular t lang p) (hq : Regular t' lang' q) (h : p.Same q) (tk : TransformKey G2) {ct ct' : Ciphertext G1 Gt}
    (hc : SameCt p q ct ct') (hct : ct.policy = (t, lang)) (hct' : ct'.policy = (t', lang')) :
    transform env ct' tk = transform env ct tk := by
  simp only [transform, hct, hct', show parse t lang = _ from hp.denotes, show parse t' lang' = _ from hq.denotes,
    Res.ok_bind, calcPruned_eq _ p hp.wide, calcPruned_eq _ q hq.wide, coeffs_calc, Res.unwrapOption_some, same_sat h,
    same_traverse h, hc.c, hc.c1]
  rw [foldR_same ?_ (forall2_map_key h _)]
  rintro acc _ _ ⟨l, m, ho, rfl, rfl⟩
  obtain ⟨k, e1, e2⟩ := coeff_same h hp.labels hq.labels (1 : F) ho
  obtain ⟨x, y, hv, f1, f2⟩ := find_same (fun a : Str × G1 × G1 => a.1) (fun a : Str × G1 × G1 => a.1) hc.values
    (by rw [hc.labels]; exact labels_nodup hp.labels) (by rw [hc.labels']; exact labels_nodup hq.labels)
    (a := leafIdx l) (b := leafIdx m) (by rw [hc.labels, hc.labels']; exact zip_map_mem leafIdx leafIdx ho)
  simp only [leafIdx] at e1 e2 f1 f2
  simp only [transformStep, leafKey, e1, e2, f1, f2, Res.unwrapOption_some, Res.ok_bind, hv]
  simp only [ho.name h]

end Ghw11

namespace Aw11

/-- Components of two ciphertexts: the same elements for the same attribute; or both leaves have no public key. -/
def SameAttr (l m : Str × ℕ) (x y : Option (CtAttr G2 Gt)) : Prop :=
  x = none ∧ y = none ∨ ∃ n n' c1 c2 c3, x = some ⟨n, c1, c2, c3⟩ ∧ y = some ⟨n', c1, c2, c3⟩ ∧ n = nodeIndex l.1 l.2 ∧
    n' = nodeIndex m.1 m.2

/-- A leaf with its name in upper case. -/
def upLeaf (cm : CaseMap) (l : Str × ℕ) : Str × ℕ := (cm.upper l.1, l.2)

/-- Two ciphertexts for texts of the trees `p` and `q` that differ in the stored policy and the columns in the labels only;
the names in the labels are in upper case. -/
structure SameCt (cm : CaseMap) (p q : Pol) (ct ct' : Ciphertext G2 Gt) : Prop where
  c0 : ct.c0 = ct'.c0
  data : ct.ct = ct'.ct
  values : ∃ xs : List ((Option (CtAttr G2 Gt)) × Option (CtAttr G2 Gt)),
    List.Forall₂ (fun l x => SameAttr l.1 l.2 x.1 x.2) ((p.leaves.map (upLeaf cm)).zip (q.leaves.map (upLeaf cm))) xs ∧
    ct.c = (xs.map Prod.fst).filterMap id ∧ ct'.c = (xs.map Prod.snd).filterMap id

theorem encShare_same (cm : CaseMap) (env : Env F G1 G2 Gt) (gk : GlobalKey G1 G2) (pks : List (PublicKey G2 Gt))
    {ws ws' : List (Str × F)} (hw : List.Forall₂ (fun a b => Beside a.1 b.1 ∧ a.2 = b.2) ws ws') (l m : Str × ℕ)
    (hlm : l.1 = m.1) (σ : F) (i : ℕ) :
    RM.Alike (SameAttr (upLeaf cm l) (upLeaf cm m)) (encShare cm env gk pks ws ((leafIdx l, σ), i)) (encShare cm env gk pks ws' ((leafIdx m, σ), i)) := by
  have u1 : cm.upper (leafIdx l) = leafIdx (upLeaf cm l) := by rw [leafIdx, CaseMap.upper_nodeIndex]; rfl
  have u2 : cm.upper (leafIdx m) = leafIdx (upLeaf cm m) := by rw [leafIdx, CaseMap.upper_nodeIndex]; rfl
  have hcut : removeIndex (leafIdx (upLeaf cm l)) = removeIndex (leafIdx (upLeaf cm m)) :=
    Beside.cut ⟨cm.upper l.1, l.2, m.2, rfl, by rw [leafIdx, upLeaf, hlm]⟩
  refine RM.Alike.bind (RM.alike_refl _) ?_
  rintro r _ rfl
  simp only [u1, u2, hcut]
  cases findPkAttr (removeIndex (leafIdx (upLeaf cm m))) pks with
  | none => exact RM.Alike.pure (.inl ⟨rfl, rfl⟩)
  | some a =>
    refine RM.Alike.bind (R := fun a b => a.2 = b.2) (RM.Alike.lift ?_) ?_
    · simp only [Res.index]
      clear u1 u2 hcut
      induction hw generalizing i with
      | nil => trivial
      | cons h t ih =>
        cases i with
        | zero => exact h.2
        | succ i => exact ih i
    · intro w w' e
      rw [e]
      exact RM.Alike.pure (.inr ⟨_, _, _, _, _, rfl, rfl, rfl, rfl⟩)

theorem mapL_same (cm : CaseMap) (env : Env F G1 G2 Gt) (gk : GlobalKey G1 G2) (pks : List (PublicKey G2 Gt))
    {ws ws' : List (Str × F)} (hw : List.Forall₂ (fun a b => Beside a.1 b.1 ∧ a.2 = b.2) ws ws') :
    ∀ (L M : List (Str × ℕ)) (V : List F) (i : ℕ), L.map Prod.fst = M.map Prod.fst → V.length = L.length →
    RM.Alike (fun xs ys => ∃ zs : List ((Option (CtAttr G2 Gt)) × Option (CtAttr G2 Gt)),
        List.Forall₂ (fun l x => SameAttr l.1 l.2 x.1 x.2) ((L.map (upLeaf cm)).zip (M.map (upLeaf cm))) zs ∧
          xs = zs.map Prod.fst ∧ ys = zs.map Prod.snd)
      (RM.mapL (encShare cm env gk pks ws) (((L.map leafIdx).zip V).zipIdx i))
      (RM.mapL (encShare cm env gk pks ws') (((M.map leafIdx).zip V).zipIdx i))
  | [], [], V, i, _, _ => RM.Alike.pure ⟨[], .nil, rfl, rfl⟩
  | [], _ :: _, _, _, h, _ => by simp at h
  | _ :: _, [], _, _, h, _ => by simp at h
  | _ :: _, _ :: _, [], _, _, h => by simp at h
  | l :: L, m :: M, v :: V, i, h, hV => by
    simp only [List.map_cons, List.cons.injEq] at h
    simp only [List.map_cons, List.zip_cons_cons, List.zipIdx_cons, RM.mapL]
    refine RM.Alike.bind (encShare_same cm env gk pks hw l m h.1 v i) fun x y hxy => ?_
    refine RM.Alike.bind (mapL_same cm env gk pks hw L M V (i + 1) h.2 (by simpa using hV)) ?_
    rintro _ _ ⟨zs, hz, rfl, rfl⟩
    exact RM.Alike.pure ⟨(x, y) :: zs, .cons hxy hz, rfl, rfl⟩

/-- The same randomness gives the same ciphertext, apart from the stored policy and the columns in the labels. -/
theorem C98_encrypt (cm : CaseMap) (env : Env F G1 G2 Gt) {t t' : Str} {lang lang' : PolicyLanguage} {p q : Pol}
    (hp : Denotes t lang p) (hq : Denotes t' lang' q) (h : p.Same q)
    (gk : GlobalKey G1 G2) (pks : List (PublicKey G2 Gt)) (pt : Bytes) :
    RM.Alike (fun ct ct' => SameCt cm p q ct ct' ∧ ct.policy = (t, lang) ∧ ct'.policy = (t', lang'))
      (encrypt cm env gk pks t lang pt) (encrypt cm env gk pks t' lang' pt) := by
  refine RM.Alike.bind (parse_alike hp hq) ?_
  rintro _ _ ⟨rfl, rfl⟩
  rw [← msp_nocol p.toValue, same_value h, msp_nocol]
  refine RM.Alike.bind (RM.alike_refl _) ?_
  rintro msp _ rfl
  refine RM.Alike.bind (RM.alike_refl _) ?_
  rintro _ _ -
  refine RM.Alike.bind (RM.alike_refl _) ?_
  rintro s _ rfl
  intro ta
  simp only [RM.bind_apply, RM.liftFr, genSharesPolicy_eq, Res.unwrapOption_some, RM.lift_ok, (same_shares h s ta.fr).2,
    (same_shares h (0 : F) (dropS (draws q) ta.fr)).2]
  have key : RM.Alike (F := F) (G1 := G1) (G2 := G2) (Gt := Gt)
      (fun ct ct' => SameCt cm p q ct ct' ∧ ct.policy = (t, lang) ∧ ct'.policy = (t', lang'))
      (do
        let msg ← RM.genGt
        let c ← RM.mapL (encShare cm env gk pks (shares p 0 (dropS (draws q) ta.fr))) (shares p s ta.fr).zipIdx
        let ct ← encryptSymmetric env msg pt
        pure { policy := (t, lang), c0 := msg + s • env.pair gk.g1 gk.g2, c := c.filterMap id, ct := ct })
      (do
        let msg ← RM.genGt
        let c ← RM.mapL (encShare cm env gk pks (shares q 0 (dropS (draws q) ta.fr))) (shares q s ta.fr).zipIdx
        let ct ← encryptSymmetric env msg pt
        pure { policy := (t', lang'), c0 := msg + s • env.pair gk.g1 gk.g2, c := c.filterMap id, ct := ct }) := by
    refine RM.Alike.bind (RM.alike_refl _) ?_
    rintro msg _ rfl
    have hm := mapL_same cm env gk pks (shares_same h (0 : F) (dropS (draws q) ta.fr)) p.leaves q.leaves
      (shareVals p s ta.fr) 0 (same_names h) (shareVals_length _ _ _)
    refine RM.Alike.bind (R := _) (by
      rw [shares.eq_def q s, ← (same_shares h s ta.fr).1]
      exact hm) ?_
    rintro _ _ ⟨zs, hz, rfl, rfl⟩
    refine RM.Alike.bind (RM.alike_refl _) ?_
    rintro d _ rfl
    exact RM.Alike.pure ⟨⟨rfl, rfl, zs, hz, rfl, rfl⟩, rfl, rfl⟩
  exact key _

theorem find_none : ∀ {L M : List (Str × ℕ)} {zs : List ((Option (CtAttr G2 Gt)) × Option (CtAttr G2 Gt))},
    List.Forall₂ (fun l x => SameAttr l.1 l.2 x.1 x.2) (L.zip M) zs → L.length = M.length → ∀ {l m : Str × ℕ},
    (l ∉ L → ((zs.map Prod.fst).filterMap id).find? (fun a => a.name == leafIdx l) = none) ∧
    (m ∉ M → ((zs.map Prod.snd).filterMap id).find? (fun a => a.name == leafIdx m) = none) := by
  intro L
  induction L with
  | nil =>
    intro M zs hz _ l m
    simp only [List.zip_nil_left, List.forall₂_nil_left_iff] at hz
    subst hz
    simp
  | cons a L ih =>
    intro M zs hz hlen l m
    cases M with
    | nil => simp at hlen
    | cons b M =>
      simp only [List.zip_cons_cons] at hz
      cases hz with
      | cons hx ht =>
        rename_i x zs
        obtain ⟨i1, i2⟩ := ih ht (by simpa using hlen) (l := l) (m := m)
        simp only [List.mem_cons, not_or, List.map_cons]
        rcases hx with ⟨e1, e2⟩ | ⟨n, n', c1, c2, c3, e1, e2, e3, e4⟩
        · simp only [e1, e2, List.filterMap_cons, id]
          exact ⟨fun h => i1 h.2, fun h => i2 h.2⟩
        · simp only [e1, e2, List.filterMap_cons, id, List.find?_cons]
          constructor
          · rintro ⟨h1, h2⟩
            have : ¬ (n == leafIdx l) = true := by
              simp only [beq_iff_eq, e3]
              exact fun e => h1 (leafIdx_inj (l := a) e).symm
            simp only [this]
            exact i1 h2
          · rintro ⟨h1, h2⟩
            have : ¬ (n' == leafIdx m) = true := by
              simp only [beq_iff_eq, e4]
              exact fun e => h1 (leafIdx_inj (l := b) e).symm
            simp only [this]
            exact i2 h2

theorem find_attr {L M : List (Str × ℕ)} {zs : List ((Option (CtAttr G2 Gt)) × Option (CtAttr G2 Gt))}
    (hz : List.Forall₂ (fun l x => SameAttr l.1 l.2 x.1 x.2) (L.zip M) zs) (hlen : L.length = M.length) (hL : L.Nodup)
    (hM : M.Nodup) {l m : Str × ℕ} (hlm : (l, m) ∈ L.zip M) :
    ∃ x y, SameAttr l m x y ∧ ((zs.map Prod.fst).filterMap id).find? (fun a => a.name == leafIdx l) = x ∧
      ((zs.map Prod.snd).filterMap id).find? (fun a => a.name == leafIdx m) = y := by
  induction L generalizing M zs with
  | nil => simp at hlm
  | cons a L ih =>
    cases M with
    | nil => simp at hlen
    | cons b M =>
      simp only [List.zip_cons_cons] at hz
      cases hz with
      | cons hx ht =>
        rename_i x zs
        rw [List.nodup_cons] at hL hM
        simp only [List.zip_cons_cons, List.mem_cons, Prod.mk.injEq] at hlm
        rcases hlm with ⟨rfl, rfl⟩ | hlm
        · obtain ⟨i1, i2⟩ := find_none ht (by simpa using hlen) (l := l) (m := m)
          refine ⟨x.1, x.2, hx, ?_, ?_⟩
          · rcases hx with ⟨e1, e2⟩ | ⟨n, n', c1, c2, c3, e1, e2, e3, e4⟩
            · simp only [List.map_cons, e1, List.filterMap_cons, id]
              exact i1 hL.1
            · simp [e1, List.filterMap_cons, e3, leafIdx]
          · rcases hx with ⟨e1, e2⟩ | ⟨n, n', c1, c2, c3, e1, e2, e3, e4⟩
            · simp only [List.map_cons, e2, List.filterMap_cons, id]
              exact i2 hM.1
            · simp [e2, List.filterMap_cons, e4, leafIdx]
        · obtain ⟨y, z, hyz, f1, f2⟩ := ih ht (by simpa using hlen) hL.2 hM.2 hlm
          obtain ⟨m1, m2⟩ := List.of_mem_zip hlm
          refine ⟨y, z, hyz, ?_, ?_⟩
          · rcases hx with ⟨e1, e2⟩ | ⟨n, n', c1, c2, c3, e1, e2, e3, e4⟩
            · simpa only [List.map_cons, e1, List.filterMap_cons, id] using f1
            · have : ¬ (n == leafIdx l) = true := by
                simp only [beq_iff_eq, e3]
                exact fun e => hL.1 (leafIdx_inj (l := a) e ▸ m1)
              simpa only [List.map_cons, e1, List.filterMap_cons, id, List.find?_cons, this] using f1
          · rcases hx with ⟨e1, e2⟩ | ⟨n, n', c1, c2, c3, e1, e2, e3, e4⟩
            · simpa only [List.map_cons, e2, List.filterMap_cons, id] using f2
            · have : ¬ (n' == leafIdx m) = true := by
                simp only [beq_iff_eq, e4]
                exact fun e => hM.1 (leafIdx_inj (l := b) e ▸ m2)
              simpa only [List.map_cons, e2, List.filterMap_cons, id, List.find?_cons, this] using f2

/-- Every key, whatever it is, gets the same from the two ciphertexts, if no two leaves of an attribute, in whatever case, are
in one column. -/
theorem C98_decrypt_partial (cm : CaseMap) (env : Env F G1 G2 Gt) {t t' : Str} {lang lang' : PolicyLanguage} {p q : Pol}
    (hp : Regular t lang p) (hq : Regular t' lang' q) (h : p.Same q)
    (hpl : (p.leaves.map (upLeaf cm)).Nodup) (hql : (q.leaves.map (upLeaf cm)).Nodup) (gk : GlobalKey G1 G2)
    (sk : SecretKey G1)
    {ct ct' : Ciphertext G2 Gt} (hc : SameCt cm p q ct ct') (hct : ct.policy = (t, lang)) (hct' : ct'.policy = (t', lang')) :
    decrypt env gk sk ct' = decrypt env gk sk ct := by
  simp only [decrypt, hct, hct', show parse t lang = _ from hp.denotes, show parse t' lang' = _ from hq.denotes,
    Res.ok_bind, calcPruned_eq _ p hp.wide, calcPruned_eq _ q hq.wide, coeffs_calc, Res.unwrapOption_some, same_sat h,
    same_traverse h, hc.c0, hc.data]
  rw [foldR_same ?_ (forall2_map_key h _)]
  rintro acc _ _ ⟨l, m, ho, rfl, rfl⟩
  obtain ⟨k, e1, e2⟩ := coeff_same h hp.labels hq.labels (1 : F) ho
  obtain ⟨zs, hz, c1, c2⟩ := hc.values
  have hlen : (p.leaves.map (upLeaf cm)).length = (q.leaves.map (upLeaf cm)).length := by simp [same_leaves h]
  obtain ⟨x, y, hxy, f1, f2⟩ : ∃ x y, SameAttr l m x y ∧
      ((zs.map Prod.fst).filterMap id).find? (fun a => a.name == leafIdx l) = x ∧
      ((zs.map Prod.snd).filterMap id).find? (fun a => a.name == leafIdx m) = y := by
    by_cases hu : cm.upper l.1 = l.1
    · have e1 : upLeaf cm l = l := by rw [upLeaf, hu]
      have e2 : upLeaf cm m = m := by rw [upLeaf, ← ho.name h, hu, ho.name h]
      refine find_attr hz hlen hpl hql ?_
      rw [List.zip_map, ← e1, ← e2]
      exact List.mem_map.2 ⟨(l, m), ho, by simp [Prod.map, e1, e2]⟩
    · have key : ∀ (L : List (Str × ℕ)) (c : ℕ), (l.1, c) ∉ L.map (upLeaf cm) := by
        intro L c hm
        obtain ⟨b, -, hb⟩ := List.mem_map.1 hm
        have hb1 := congrArg Prod.fst hb
        simp only [upLeaf] at hb1
        exact hu (by rw [← hb1, CaseMap.upper_idem])
      obtain ⟨n1, n2⟩ := find_none hz hlen (l := l) (m := m)
      exact ⟨_, _, .inl ⟨rfl, rfl⟩, n1 (key _ l.2), n2 (by
        have := key q.leaves m.2
        rwa [ho.name h] at this)⟩
  rw [← c1] at f1
  rw [← c2] at f2
  simp only [leafIdx] at e1 e2 f1 f2
  simp only [decryptStep, leafKey, e1, e2, f1, f2, Res.unwrapOption_some, Res.ok_bind]
  simp only [ho.name h]
  rcases hxy with ⟨rfl, rfl⟩ | ⟨n, n', c1, c2, c3, rfl, rfl, -, -⟩
  · rfl
  · rfl

end Aw11

/-! ## A policy in both languages -/

/-- A policy in the human language. -/
def inHuman : Str := chars% "\"A\" and (\"B\" or \"C\")"

/-- The same policy in the JSON language. -/
def inJson : Str :=
  chars% "{\"name\": \"and\", \"children\": [{\"name\": \"A\"}, {\"name\": \"or\", \"children\": [{\"name\": \"B\"}, {\"name\": \"C\"}]}]}"

/-- The tree of `inHuman`. -/
def humanTree : Pol := .gate .and [.leaf ['A'] 2, .gate .or [.leaf ['B'] 11, .leaf ['C'] 18]]

/-- The tree of `inJson`: other columns. -/
def jsonTree : Pol := .gate .and [.leaf ['A'] 40, .gate .or [.leaf ['B'] 83, .leaf ['C'] 98]]

theorem inHuman_regular : Regular inHuman .human humanTree :=
  ⟨rfl, by decide, by simp [Pol.Wide, humanTree], by simp [humanTree]⟩

set_option maxRecDepth 8000 in
theorem inJson_regular : Regular inJson .json jsonTree :=
  ⟨rfl, by decide +kernel, by simp [Pol.Wide, jsonTree], by simp [jsonTree]⟩

theorem tree_same : humanTree.Same jsonTree := by simp [humanTree, jsonTree, Pol.Same, Pol.SameL]

/-- The two texts meet the hypotheses of all theorems of this module; the second is what the library writes for the first. -/
example : serializeJson humanTree.toValue = inJson ∧ humanTree ≠ jsonTree ∧
    (humanTree.leaves.map (Aw11.upLeaf asciiCase)).Nodup ∧ (jsonTree.leaves.map (Aw11.upLeaf asciiCase)).Nodup ∧
    humanTree.sat [['A'], ['C']] = true := by
  refine ⟨rfl, by simp [humanTree, jsonTree], ?_, ?_, by simp [humanTree]⟩
  · simp [humanTree, Aw11.upLeaf]
  · simp [jsonTree, Aw11.upLeaf]

/-- **C98, AW11 as a whole, with a name in lower case.** A key for `A` and `B` decrypts the ciphertexts for both texts; the label
of `b` is written in upper case. -/
example : ∃ (gk : Aw11.GlobalKey Fr Fr) (pk : Aw11.PublicKey Fr Fr) (msk : Aw11.MasterKey Fr)
    (sk : Aw11.SecretKey Fr) (ct ct' : Aw11.Ciphertext Fr Fr) (t₁ t₂ t₃ t₄ : Tape Fr Fr Fr Fr),
    Aw11.setup toyTape = .ok (gk, t₁) ∧ Aw11.authgen asciiCase toyEnv gk [['A'], ['b']] toyTape = .ok (some (pk, msk), t₂) ∧
    Aw11.keygen asciiCase toyEnv gk msk ['U'] [['A'], ['B']] = .ok sk ∧
    Aw11.encrypt asciiCase toyEnv gk [pk] (chars% "\"A\" or \"b\"") .human [7] toyTape = .ok (ct, t₃) ∧
    Aw11.encrypt asciiCase toyEnv gk [pk] (chars% "(\"A\") or \"b\"") .human [7] toyTape = .ok (ct', t₄) ∧
    ct.c.map (·.name) = [chars% "A_2", chars% "B_9"] ∧
    Aw11.SameCt asciiCase (.gate .or [.leaf ['A'] 2, .leaf ['b'] 9]) (.gate .or [.leaf ['A'] 3, .leaf ['b'] 11]) ct ct' ∧
    Aw11.decrypt toyEnv gk sk ct = .ok [7] ∧ Aw11.decrypt toyEnv gk sk ct' = .ok [7] := by
  have h : (do
    let x ← Aw11.setup toyTape
    let y ← Aw11.authgen asciiCase toyEnv x.1 [['A'], ['b']] toyTape
    let a ← Res.unwrapOption y.1
    let sk ← Aw11.keygen asciiCase toyEnv x.1 a.2 ['U'] [['A'], ['B']]
    let z ← Aw11.encrypt asciiCase toyEnv x.1 [a.1] (chars% "\"A\" or \"b\"") .human [7] toyTape
    let w ← Aw11.encrypt asciiCase toyEnv x.1 [a.1] (chars% "(\"A\") or \"b\"") .human [7] toyTape
    .ok (z.1.c.map (·.name), Aw11.decrypt toyEnv x.1 sk z.1, Aw11.decrypt toyEnv x.1 sk w.1) :
      Res (List Str × Res Bytes × Res Bytes)) = .ok ([chars% "A_2", chars% "B_9"], .ok [7], .ok [7]) := by decide +kernel
  simp only [Res.bind_eq_ok, Res.ok.injEq, Prod.mk.injEq] at h
  obtain ⟨⟨gk, t1⟩, h1, ⟨o, t2⟩, h2, ⟨pk, msk⟩, h3, sk, h4, ⟨ct, t3⟩, h5, ⟨ct', t4⟩, h6, h7, h8, h9⟩ := h
  cases o with
  | none => simp at h3
  | some a =>
    obtain rfl := Res.ok.inj h3
    have := Aw11.C98_encrypt asciiCase toyEnv (t := chars% "\"A\" or \"b\"") (t' := chars% "(\"A\") or \"b\"") (lang := .human)
      (lang' := .human) (p := .gate .or [.leaf ['A'] 2, .leaf ['b'] 9]) (q := .gate .or [.leaf ['A'] 3, .leaf ['b'] 11])
      rfl rfl (by simp [Pol.Same, Pol.SameL]) gk [pk] [7] toyTape
    rw [h5, h6] at this
    exact ⟨gk, pk, msk, sk, ct, ct', t1, t2, t3, t4, h1, h2, h4, h5, h6, h7, this.1.1, h8, h9⟩

/-- **C98, BSW as a whole.** A key for `A`, `C` decrypts the ciphertexts for both texts. -/
example : ∃ (pk : Bsw.PublicKey Fr Fr Fr) (sk : Bsw.SecretKey Fr Fr) (ct ct' : Bsw.Ciphertext Fr Fr Fr)
    (t₃ t₄ : Tape Fr Fr Fr Fr), Bsw.encrypt toyEnv pk inHuman .human [7] toyTape = .ok (ct, t₃) ∧
    Bsw.encrypt toyEnv pk inJson .json [7] toyTape = .ok (ct', t₄) ∧ Bsw.SameCt humanTree jsonTree ct ct' ∧
    Bsw.decrypt toyEnv sk ct = .ok [7] ∧ Bsw.decrypt toyEnv sk ct' = .ok [7] := by
  obtain ⟨d1, d2, d3⟩ := Bsw.C25_bsw_defined toyEnv
  obtain ⟨pk, msk, t₁, h1⟩ := d1 toyTape (by simp [toyTape])
  obtain ⟨sk, t₂, h2⟩ := d2 _ _ _ _ h1 [['A'], ['C']] (by simp) toyTape
  obtain ⟨ct, t₃, h3⟩ := d3 pk _ _ _ inHuman_regular.denotes [7] (by simp [toyEnv]) toyTape
  obtain ⟨ct', t₄, h4⟩ := d3 pk _ _ _ inJson_regular.denotes [7] (by simp [toyEnv]) toyTape
  have := Bsw.C98_encrypt toyEnv inHuman_regular.denotes inJson_regular.denotes tree_same pk [7] toyTape
  rw [h3, h4] at this
  obtain ⟨⟨hs, e1, e2⟩, -⟩ := this
  have hd := Bsw.C25_bsw_correct_partial toyEnv _ _ pk msk h1 _ _ _ sk h2 _ _ _ inHuman_regular (by
    intro n hn _
    simp [Pol.names, humanTree] at hn
    rcases hn with rfl | rfl | rfl <;> decide) [7] _ _ ct h3 (by simp [humanTree])
  refine ⟨pk, sk, ct, ct', t₃, t₄, h3, h4, hs, hd, ?_⟩
  rw [Bsw.C98_decrypt_partial toyEnv inHuman_regular inJson_regular tree_same sk hs e1 e2, hd]

/-! ## Where the stored text cannot be replaced -/

/-- **C98 is violated by BSW.** In a ciphertext for `"A"`, the stored policy is replaced by the text that the library itself writes
for it. The key decrypted before and does not afterwards. -/
theorem Bsw.C98_violated : ∃ (v : PolicyValue) (pk : PublicKey Fr Fr Fr) (msk : MasterKey Fr Fr) (sk : SecretKey Fr Fr)
    (ct : Ciphertext Fr Fr Fr) (t₁ t₂ t₃ : Tape Fr Fr Fr Fr), parse (chars% "\"A\"") .human = .ok v ∧
    setup toyEnv toyTape = .ok ((pk, msk), t₁) ∧ keygen toyEnv pk msk [['A']] toyTape = .ok (some sk, t₂) ∧
    encrypt toyEnv pk (chars% "\"A\"") .human [7] toyTape = .ok (ct, t₃) ∧ decrypt toyEnv sk ct = .ok [7] ∧
    decrypt toyEnv sk { ct with policy := (serializeJson v, .json) } = .err := by
  have h : (do
    let v ← parse (chars% "\"A\"") .human
    let x ← setup toyEnv toyTape
    let y ← keygen toyEnv x.1.1 x.1.2 [['A']] toyTape
    let sk ← Res.unwrapOption y.1
    let z ← encrypt toyEnv x.1.1 (chars% "\"A\"") .human [7] toyTape
    .ok (decrypt toyEnv sk z.1, decrypt toyEnv sk { z.1 with policy := (serializeJson v, .json) }) :
      Res (Res Bytes × Res Bytes)) = .ok (.ok [7], .err) := by decide +kernel
  simp only [Res.bind_eq_ok, Res.ok.injEq, Prod.mk.injEq] at h
  obtain ⟨v, h0, ⟨⟨pk, msk⟩, t1⟩, h1, ⟨o, t2⟩, h2, sk, h3, ⟨ct, t3⟩, h4, h5, h6⟩ := h
  cases o with
  | none => simp at h3
  | some sk' =>
    obtain rfl := Res.ok.inj h3
    exact ⟨v, pk, msk, sk', ct, t1, t2, t3, h0, h1, h2, h4, h5, h6⟩

/-- **C98 is violated by GHW11.** The same: the transformation aborts. -/
theorem Ghw11.C98_violated : ∃ (v : PolicyValue) (pk : PublicKey Fr Fr Fr) (msk : MasterKey Fr Fr Fr) (sk : SecretKey Fr)
    (tk : TransformKey Fr) (rk : RetrieveKey Fr) (ct : Ciphertext Fr Fr) (t₁ t₂ t₃ t₄ : Tape Fr Fr Fr Fr),
    parse (chars% "\"A\"") .human = .ok v ∧ setup toyEnv toyTape = .ok ((pk, msk), t₁) ∧
    keygen toyEnv pk msk [['A']] toyTape = .ok (some sk, t₂) ∧ tkgen sk toyTape = .ok (some (tk, rk), t₃) ∧
    encrypt toyEnv pk (chars% "\"A\"") .human [7] toyTape = .ok (ct, t₄) ∧
    (transform toyEnv ct tk >>= fun pct => decryptOut toyEnv pct rk ct.data) = .ok [7] ∧
    (transform toyEnv { ct with policy := (serializeJson v, .json) } tk).to (fun _ => ()) = .panic := by
  have h : (do
    let v ← parse (chars% "\"A\"") .human
    let x ← setup toyEnv toyTape
    let y ← keygen toyEnv x.1.1 x.1.2 [['A']] toyTape
    let sk ← Res.unwrapOption y.1
    let w ← tkgen sk toyTape
    let k ← Res.unwrapOption w.1
    let z ← encrypt toyEnv x.1.1 (chars% "\"A\"") .human [7] toyTape
    .ok (transform toyEnv z.1 k.1 >>= fun pct => decryptOut toyEnv pct k.2 z.1.data,
      (transform toyEnv { z.1 with policy := (serializeJson v, .json) } k.1).to (fun _ => ())) :
      Res (Res Bytes × Res Unit)) = .ok (.ok [7], .panic) := by decide +kernel
  simp only [Res.bind_eq_ok, Res.ok.injEq, Prod.mk.injEq] at h
  obtain ⟨v, h0, ⟨⟨pk, msk⟩, t1⟩, h1, ⟨o, t2⟩, h2, sk, h3, ⟨o', t3⟩, h4, ⟨tk, rk⟩, h5, ⟨ct, t4⟩, h6, h7, h8⟩ := h
  cases o with
  | none => simp at h3
  | some sk' =>
    cases o' with
    | none => simp at h5
    | some k =>
      obtain rfl := Res.ok.inj h3
      obtain rfl := Res.ok.inj h5
      exact ⟨v, pk, msk, sk', tk, rk, ct, t1, t2, t3, t4, h0, h1, h2, h4, h6, Res.bind_eq_ok.2 h7, h8⟩

/-- **C98 is violated by AW11.** The same: decryption aborts. -/
theorem Aw11.C98_violated : ∃ (v : PolicyValue) (gk : GlobalKey Fr Fr) (pk : PublicKey Fr Fr) (msk : MasterKey Fr)
    (sk : SecretKey Fr) (ct : Ciphertext Fr Fr) (t₁ t₂ t₃ : Tape Fr Fr Fr Fr),
    parse (chars% "\"A\"") .human = .ok v ∧ setup toyTape = .ok (gk, t₁) ∧
    authgen asciiCase toyEnv gk [['A']] toyTape = .ok (some (pk, msk), t₂) ∧
    keygen asciiCase toyEnv gk msk ['U'] [['A']] = .ok sk ∧
    encrypt asciiCase toyEnv gk [pk] (chars% "\"A\"") .human [7] toyTape = .ok (ct, t₃) ∧
    decrypt toyEnv gk sk ct = .ok [7] ∧
    decrypt toyEnv gk sk { ct with policy := (serializeJson v, .json) } = .panic := by
  have h : (do
    let v ← parse (chars% "\"A\"") .human
    let x ← setup toyTape
    let y ← authgen asciiCase toyEnv x.1 [['A']] toyTape
    let a ← Res.unwrapOption y.1
    let sk ← keygen asciiCase toyEnv x.1 a.2 ['U'] [['A']]
    let z ← encrypt asciiCase toyEnv x.1 [a.1] (chars% "\"A\"") .human [7] toyTape
    .ok (decrypt toyEnv x.1 sk z.1, decrypt toyEnv x.1 sk { z.1 with policy := (serializeJson v, .json) }) :
      Res (Res Bytes × Res Bytes)) = .ok (.ok [7], .panic) := by decide +kernel
  simp only [Res.bind_eq_ok, Res.ok.injEq, Prod.mk.injEq] at h
  obtain ⟨v, h0, ⟨gk, t1⟩, h1, ⟨o, t2⟩, h2, ⟨pk, msk⟩, h3, sk, h4, ⟨ct, t3⟩, h5, h6, h7⟩ := h
  cases o with
  | none => simp at h3
  | some a =>
    obtain rfl := Res.ok.inj h3
    exact ⟨v, gk, pk, msk, sk, ct, t1, t2, t3, h0, h1, h2, h4, h5, h6, h7⟩

end Rabe
