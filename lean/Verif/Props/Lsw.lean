import Verif.Props.Parser
import Verif.Proof.Lsw
import Verif.Instance.Bn

/-!
# C34, C35, C51, C52: LSW
-/

set_option linter.unusedSectionVars false
set_option linter.unnecessarySeqFocus false

namespace Rabe
namespace Lsw

variable {F G1 G2 Gt : Type} [Field F] [DecidableEq F] [AddCommGroup G1] [Module F G1]
  [AddCommGroup G2] [Module F G2] [AddCommGroup Gt] [Module F Gt]

/-- No attribute that is both in the policy and in the list is marked as negative. -/
def Positive (p : Pol) (attrs : List Str) : Prop := ∀ n ∈ p.names, n ∈ attrs → n.head? ≠ some '!'

/-- An attribute name on which key generation aborts: the part before the first underscore is empty or starts with a
character outside ASCII. -/
def BadName (n : Str) : Prop :=
  (n.takeWhile (· != '_')) = [] ∨ ∃ c cs, n.takeWhile (· != '_') = c :: cs ∧ 128 ≤ c.toNat

/-! ## Correctness -/

/-- **C34, partial.** Any set-up, any encryption, any key issued for a regular policy: if the ciphertext attributes satisfy
the policy and the common attributes are positive, have no underscore and occur once in the policy (counted after names
are cut at the first underscore), then decryption returns the plaintext. (Full claim: every policy accepted by `keygen`; false, see
`C34_violated_repeated`, `C34_violated_negative`, `C34_violated_underscore`, `C34_violated_narrow`.) -/
theorem C34_lsw_correct_partial [BigChar F] (env : Env F G1 G2 Gt)
    (t₁ t₁' : Tape F G1 G2 Gt) (pk : PublicKey G1 G2 Gt) (msk : MasterKey F G1 G2)
    (hsetup : setup env t₁ = .ok ((pk, msk), t₁'))
    (text : Str) (lang : PolicyLanguage) (p : Pol) (hreg : Regular text lang p)
    (t₂ t₂' : Tape F G1 G2 Gt) (sk : SecretKey G1 G2)
    (hkey : keygen env pk msk text lang t₂ = .ok (sk, t₂'))
    (attrs : List Str) (plaintext : Bytes) (t₃ t₃' : Tape F G1 G2 Gt) (ct : Ciphertext G1 G2 Gt)
    (henc : encrypt env pk attrs plaintext t₃ = .ok (ct, t₃'))
    (hsat : p.sat attrs = true) (hsep : Separate p attrs) (hpos : Positive p attrs) :
    decrypt env sk ct = .ok plaintext := by
  have hs := setup_ok hsetup
  obtain ⟨hk, _⟩ := keygen_ok hreg.denotes hkey
  obtain ⟨msg, s, hc, hd⟩ := encrypt_ok henc
  rw [decrypt_ok hs hk hc hsat hreg.wide hreg.fits hreg.labels hsep hpos, hd]

theorem sxLoop_total (n : ℕ) : ∀ (i : ℕ) (sx : List F) (t : Tape F G1 G2 Gt), i < sx.length →
    ∃ sx' t', sxLoop n i sx t = .ok (sx', t') ∧ sx'.length = sx.length + n := by
  induction n with
  | zero => intro i sx t _; exact ⟨sx, t, rfl, rfl⟩
  | succ n ih =>
    intro i sx t hi
    have h0 : Res.index (sx ++ [t.fr 0]) 0 = .ok (sx ++ [t.fr 0])[0] := by
      simp only [Res.index]
      rw [List.getElem?_eq_getElem (by simp)]
      rfl
    have h1 : Res.index (sx ++ [t.fr 0]) i = .ok ((sx ++ [t.fr 0])[i]'(by simp; omega)) := by
      simp only [Res.index]
      rw [List.getElem?_eq_getElem (by simp; omega)]
      rfl
    obtain ⟨sx', t', h2, h3⟩ := ih (i + 1)
      ((sx ++ [t.fr 0]).set 0 ((sx ++ [t.fr 0])[0] - (sx ++ [t.fr 0])[i]'(by simp; omega)))
      { t with fr := dropS 1 t.fr } (by simp; omega)
    refine ⟨sx', t', ?_, ?_⟩
    · rw [sxLoop]
      simp only [RM.bind_apply, RM.genFr, h0, h1, RM.lift_ok]
      exact h2
    · rw [h3]; simp; omega

theorem encrypt_eq (env : Env F G1 G2 Gt) (pk : PublicKey G1 G2 Gt) (attrs : List Str) (pt : Bytes)
    (h1 : attrs ≠ []) (h2 : pt ≠ []) (t : Tape F G1 G2 Gt) :
    ∃ (ej : List (CtAttr G1)) (t1 : Tape F G1 G2 Gt), encrypt env pk attrs pt t =
      (do let ct ← encryptSymmetric env (t1.gt 0) pt
          pure (⟨t.fr 0 • pk.eGgAlpha + t1.gt 0, t.fr 0 • pk.g2, ej, ct⟩ : Ciphertext G1 G2 Gt) :
          RM F G1 G2 Gt (Ciphertext G1 G2 Gt))
        { t1 with gt := dropS 1 t1.gt } := by
  have hne : (attrs.isEmpty || pt.isEmpty) = false := by cases attrs <;> cases pt <;> simp_all
  obtain ⟨sx, t1, hsx, hl⟩ := sxLoop_total attrs.length 0 [t.fr 0] { t with fr := dropS 1 t.fr } (by simp)
  obtain ⟨ej, hej⟩ := mapR_total (f := encAttr env pk (t.fr 0) sx) (xs := attrs.zipIdx) (by
    rintro ⟨a, i⟩ hx
    have hi := (List.mem_zipIdx hx).2.1
    have : i < sx.length := by rw [hl]; simp; omega
    simp [encAttr, Res.index, List.getElem?_eq_getElem this])
  refine ⟨ej, t1, ?_⟩
  simp [encrypt, hne, RM.genFr, hsx, hej, RM.genGt]

theorem isNegative_cases (n : Str) (c : ℕ) :
    (BadName n ∧ isNegative (removeIndex (nodeIndex n c)) = .panic) ∨
      (¬ BadName n ∧ ∃ b, isNegative (removeIndex (nodeIndex n c)) = .ok b) := by
  rw [removeIndex_nodeIndex_eq]
  unfold BadName
  cases h : n.takeWhile (· != '_') with
  | nil => left; simp [isNegative]
  | cons c cs =>
    by_cases hc : 128 ≤ c.toNat
    · left
      refine ⟨Or.inr ⟨c, cs, rfl, hc⟩, ?_⟩
      have : utf8Len c ≠ 1 := by
        unfold utf8Len
        have : ¬ c.toNat < 0x80 := by omega
        simp only [this, if_false]
        split <;> [skip; split] <;> omega
      simp [isNegative, this]
    · right
      refine ⟨by simp; omega, ?_⟩
      have : utf8Len c = 1 := by
        unfold utf8Len
        have : c.toNat < 0x80 := by omega
        simp [this]
      exact ⟨c == '!', by simp [isNegative, this]⟩

theorem keygenShare_ok (env : Env F G1 G2 Gt) (pk : PublicKey G1 G2 Gt) (msk : MasterKey F G1 G2) (s : Str × F) {b}
    (h : isNegative (removeIndex s.1) = .ok b) (t : Tape F G1 G2 Gt) :
    ∃ y t', keygenShare env pk msk s t = .ok (y, t') := by
  cases b <;> simp [keygenShare, RM.genFr, h]

theorem keygenShare_panic (env : Env F G1 G2 Gt) (pk : PublicKey G1 G2 Gt) (msk : MasterKey F G1 G2) (s : Str × F)
    (h : isNegative (removeIndex s.1) = .panic) (t : Tape F G1 G2 Gt) :
    keygenShare env pk msk s t = .panic := by
  simp [keygenShare, RM.genFr, h]

theorem mapL_panic {α β : Type} {f : α → RM F G1 G2 Gt β} {xs : List α}
    (hf : ∀ x ∈ xs, (∀ t, f x t = .panic) ∨ ∀ t, ∃ y t', f x t = .ok (y, t'))
    (hp : ∃ x ∈ xs, ∀ t, f x t = .panic) : ∀ t, RM.mapL f xs t = .panic := by
  induction xs with
  | nil => simp at hp
  | cons x xs ih =>
    intro t
    simp only [RM.mapL, RM.rbind_eq, RM.bind_apply]
    rcases hf x (by simp) with h | h
    · rw [h]
    · obtain ⟨y, t', hy⟩ := h t
      have : ∃ x ∈ xs, ∀ t, f x t = .panic := by
        obtain ⟨z, hz, hzp⟩ := hp
        rcases List.mem_cons.1 hz with rfl | hz
        · rw [hzp] at hy; simp at hy
        · exact ⟨z, hz, hzp⟩
      rw [hy]
      simp only []
      rw [ih (fun z hz => hf z (by simp [hz])) this]

theorem mem_shares {p : Pol} {σ : F} {ω : ℕ → F} {s : Str × F} (h : s ∈ shares p σ ω) :
    ∃ l ∈ p.leaves, s.1 = leafIdx l := by
  have h1 : s.1 ∈ (shares p σ ω).map Prod.fst := List.mem_map.2 ⟨s, h, rfl⟩
  rw [shares, List.map_fst_zip (by simp [shareVals_length])] at h1
  obtain ⟨l, hl, he⟩ := List.mem_map.1 h1
  exact ⟨l, hl, he.symm⟩

theorem shares_of_leaf {p : Pol} (σ : F) (ω : ℕ → F) {l} (h : l ∈ p.leaves) :
    ∃ s ∈ shares p σ ω, s.1 = leafIdx l := by
  have h1 : leafIdx l ∈ (shares p σ ω).map Prod.fst := by
    rw [shares, List.map_fst_zip (by simp [shareVals_length])]
    exact List.mem_map.2 ⟨l, h, rfl⟩
  obtain ⟨s, hs, he⟩ := List.mem_map.1 h1
  exact ⟨s, hs, he⟩

/-- Set-up always succeeds, key generation succeeds for every accepted policy without bad names, encryption for
every non-empty attribute list and plaintext when the AEAD accepts the plaintext. -/
theorem C34_lsw_defined (env : Env F G1 G2 Gt) :
    (∀ t : Tape F G1 G2 Gt, ∃ pk msk t', setup env t = .ok ((pk, msk), t')) ∧
    (∀ (pk : PublicKey G1 G2 Gt) (msk : MasterKey F G1 G2) text lang p, Denotes text lang p →
      (∀ n ∈ p.names, ¬ BadName n) → ∀ t, ∃ sk t', keygen env pk msk text lang t = .ok (sk, t')) ∧
    (∀ (pk : PublicKey G1 G2 Gt) (attrs : List Str) (plaintext : Bytes), attrs ≠ [] → plaintext ≠ [] →
      (∀ k n, (env.aeadEnc k n plaintext).isSome = true) →
      ∀ t, ∃ ct t', encrypt env pk attrs plaintext t = .ok (ct, t')) := by
  refine ⟨?_, ?_, ?_⟩
  · intro t
    simp only [setup, RM.bind_apply, RM.genG1, RM.genG2, RM.genFr, RM.pure_apply, Res.ok.injEq, Prod.mk.injEq]
    exact ⟨_, _, _, ⟨rfl, rfl⟩, rfl⟩
  · intro pk msk text lang p hp hn t
    have hp' : parse text lang = .ok p.toValue := hp
    obtain ⟨dj, t', hdj⟩ := RM.mapL_total (f := keygenShare env pk msk) (xs := shares p msk.alpha1 t.fr) (by
      intro s hs u
      obtain ⟨l, hl, he⟩ := mem_shares hs
      rcases isNegative_cases l.1 l.2 with h | ⟨_, b, hb⟩
      · exact absurd h.1 (hn l.1 (List.mem_map.2 ⟨l, hl, rfl⟩))
      · exact keygenShare_ok env pk msk s (by rw [he]; exact hb) u) { t with fr := dropS (draws p) t.fr }
    simp [keygen, hp', RM.liftFr, genSharesPolicy_eq, hdj]
  · intro pk attrs pt h1 h2 ha t
    obtain ⟨ej, t1, he⟩ := encrypt_eq env pk attrs pt h1 h2 t
    obtain ⟨c, hc⟩ := Option.isSome_iff_exists.1 (ha (env.kdf (t1.gt 0)) ((List.range 12).map t1.byte))
    rw [he]
    simp [encryptSymmetric, RM.genBytes, hc]

/-- The whole workflow in the concrete environment; `t` is the tape of `keygen`. -/
def toyRun (t : Tape Fr Fr Fr Fr) (attrs : List Str) (text : Str) (lang : PolicyLanguage) (plaintext : Bytes) :
    Res (Res Bytes) := do
  let x ← setup toyEnv toyTape
  let y ← keygen toyEnv x.1.1 x.1.2 text lang t
  let z ← encrypt toyEnv x.1.1 attrs plaintext toyTape
  .ok (decrypt toyEnv y.1 z.1)

theorem toyRun_ok {t attrs text lang plaintext r} (h : toyRun t attrs text lang plaintext = .ok r) :
    ∃ pk msk sk ct t₁ t₂ t₃, setup toyEnv toyTape = .ok ((pk, msk), t₁) ∧
      keygen toyEnv pk msk text lang t = .ok (sk, t₂) ∧
      encrypt toyEnv pk attrs plaintext toyTape = .ok (ct, t₃) ∧ decrypt toyEnv sk ct = r := by
  simp only [toyRun, Res.bind_eq_ok, Res.ok.injEq] at h
  obtain ⟨⟨⟨pk, msk⟩, t1⟩, h1, ⟨sk, t2⟩, h2, ⟨ct, t3⟩, h3, h4⟩ := h
  exact ⟨pk, msk, sk, ct, t1, t2, t3, h1, h2, h3, h4⟩

/-- **C34 is violated, repeated attribute.** A key for `("A" and "B") or ("A" and "C")` does not decrypt a ciphertext for
`A`, `C`. -/
theorem C34_violated_repeated : ∃ (p : Pol) (pk : PublicKey Fr Fr Fr) (msk : MasterKey Fr Fr Fr) (sk : SecretKey Fr Fr)
    (ct : Ciphertext Fr Fr Fr) (t₁ t₂ t₃ : Tape Fr Fr Fr Fr),
    Regular (chars% "(\"A\" and \"B\") or (\"A\" and \"C\")") .human p ∧ p.sat [['A'], ['C']] = true ∧
    setup toyEnv toyTape = .ok ((pk, msk), t₁) ∧
    keygen toyEnv pk msk (chars% "(\"A\" and \"B\") or (\"A\" and \"C\")") .human { toyTape with fr := fun n => n } =
      .ok (sk, t₂) ∧
    encrypt toyEnv pk [['A'], ['C']] [7] toyTape = .ok (ct, t₃) ∧ decrypt toyEnv sk ct = .err := by
  have h : toyRun { toyTape with fr := fun n => n } [['A'], ['C']] (chars% "(\"A\" and \"B\") or (\"A\" and \"C\")")
    .human [7] = .ok .err := by decide +kernel
  obtain ⟨pk, msk, sk, ct, t1, t2, t3, h⟩ := toyRun_ok h
  exact ⟨.gate .or [.gate .and [.leaf ['A'] 3, .leaf ['B'] 11], .gate .and [.leaf ['A'] 20, .leaf ['C'] 28]], pk, msk,
    sk, ct, t1, t2, t3, ⟨rfl, by simp, by simp [Pol.Wide], by simp⟩, by simp, h⟩

/-- **C34 is violated, negative attribute.** A key for `"!A"` does not decrypt a ciphertext for `!A`. -/
theorem C34_violated_negative : ∃ (p : Pol) (pk : PublicKey Fr Fr Fr) (msk : MasterKey Fr Fr Fr) (sk : SecretKey Fr Fr)
    (ct : Ciphertext Fr Fr Fr) (t₁ t₂ t₃ : Tape Fr Fr Fr Fr),
    Regular (chars% "\"!A\"") .human p ∧ p.sat [['!', 'A']] = true ∧
    setup toyEnv toyTape = .ok ((pk, msk), t₁) ∧ keygen toyEnv pk msk (chars% "\"!A\"") .human toyTape = .ok (sk, t₂) ∧
    encrypt toyEnv pk [['!', 'A']] [7] toyTape = .ok (ct, t₃) ∧ decrypt toyEnv sk ct = .err := by
  have h : toyRun toyTape [['!', 'A']] (chars% "\"!A\"") .human [7] = .ok .err := by decide +kernel
  obtain ⟨pk, msk, sk, ct, t1, t2, t3, h⟩ := toyRun_ok h
  exact ⟨.leaf ['!', 'A'] 2, pk, msk, sk, ct, t1, t2, t3, ⟨rfl, by simp, by simp [Pol.Wide], by simp⟩, by simp, h⟩

/-- **C34 is violated, underscore.** A key for `"A_1"` aborts on a ciphertext for `A_1`. -/
theorem C34_violated_underscore : ∃ (p : Pol) (pk : PublicKey Fr Fr Fr) (msk : MasterKey Fr Fr Fr) (sk : SecretKey Fr Fr)
    (ct : Ciphertext Fr Fr Fr) (t₁ t₂ t₃ : Tape Fr Fr Fr Fr),
    Regular (chars% "\"A_1\"") .human p ∧ p.sat [(chars% "A_1")] = true ∧
    setup toyEnv toyTape = .ok ((pk, msk), t₁) ∧ keygen toyEnv pk msk (chars% "\"A_1\"") .human toyTape = .ok (sk, t₂) ∧
    encrypt toyEnv pk [(chars% "A_1")] [7] toyTape = .ok (ct, t₃) ∧ decrypt toyEnv sk ct = .panic := by
  have h : toyRun toyTape [(chars% "A_1")] (chars% "\"A_1\"") .human [7] = .ok .panic := by decide +kernel
  obtain ⟨pk, msk, sk, ct, t1, t2, t3, h⟩ := toyRun_ok h
  exact ⟨.leaf (chars% "A_1") 2, pk, msk, sk, ct, t1, t2, t3, ⟨rfl, by simp, by simp [Pol.Wide], by simp⟩, by simp, h⟩

/-- **C34 is violated, narrow gates.** A key for the JSON policy "or" with the single child `A` aborts on a ciphertext
for `A`. -/
theorem C34_violated_narrow : ∃ (p : Pol) (pk : PublicKey Fr Fr Fr) (msk : MasterKey Fr Fr Fr) (sk : SecretKey Fr Fr)
    (ct : Ciphertext Fr Fr Fr) (t₁ t₂ t₃ : Tape Fr Fr Fr Fr),
    Denotes (chars% "{\"name\": \"or\", \"children\": [{\"name\": \"A\"}]}") .json p ∧ p.sat [['A']] = true ∧
    setup toyEnv toyTape = .ok ((pk, msk), t₁) ∧
    keygen toyEnv pk msk (chars% "{\"name\": \"or\", \"children\": [{\"name\": \"A\"}]}") .json toyTape = .ok (sk, t₂) ∧
    encrypt toyEnv pk [['A']] [7] toyTape = .ok (ct, t₃) ∧ decrypt toyEnv sk ct = .panic := by
  have h : toyRun toyTape [['A']] (chars% "{\"name\": \"or\", \"children\": [{\"name\": \"A\"}]}") .json [7] =
    .ok .panic := by decide +kernel
  obtain ⟨pk, msk, sk, ct, t1, t2, t3, h⟩ := toyRun_ok h
  exact ⟨.gate .or [.leaf ['A'] 39], pk, msk, sk, ct, t1, t2, t3, rfl, by simp, h⟩

/-- A run meeting all hypotheses of `C34_lsw_correct_partial`; an attribute outside the ciphertext is repeated,
another has an underscore. -/
example : ∃ (p : Pol) (pk : PublicKey Fr Fr Fr) (msk : MasterKey Fr Fr Fr) (sk : SecretKey Fr Fr)
    (ct : Ciphertext Fr Fr Fr) (t₁ t₂ t₃ : Tape Fr Fr Fr Fr),
    Regular (chars% "(\"A\" and \"B\") or (\"B\" and \"C_1\") or (\"D\" and \"E\")") .human p ∧
    p.sat [['D'], ['A'], ['E']] = true ∧ Separate p [['D'], ['A'], ['E']] ∧ Positive p [['D'], ['A'], ['E']] ∧
    setup toyEnv toyTape = .ok ((pk, msk), t₁) ∧
    keygen toyEnv pk msk (chars% "(\"A\" and \"B\") or (\"B\" and \"C_1\") or (\"D\" and \"E\")") .human
      { toyTape with fr := fun n => n } = .ok (sk, t₂) ∧
    encrypt toyEnv pk [['D'], ['A'], ['E']] [7, 8] toyTape = .ok (ct, t₃) ∧ decrypt toyEnv sk ct = .ok [7, 8] := by
  have h : toyRun { toyTape with fr := fun n => n } [['D'], ['A'], ['E']]
    (chars% "(\"A\" and \"B\") or (\"B\" and \"C_1\") or (\"D\" and \"E\")") .human [7, 8] = .ok (.ok [7, 8]) := by
    decide +kernel
  obtain ⟨pk, msk, sk, ct, t1, t2, t3, h⟩ := toyRun_ok h
  exact ⟨.gate .or [.gate .and [.leaf ['A'] 3, .leaf ['B'] 11], .gate .and [.leaf ['B'] 20, .leaf ['C', '_', '1'] 28],
    .gate .and [.leaf ['D'] 39, .leaf ['E'] 47]], pk, msk, sk, ct, t1, t2, t3,
    ⟨rfl, by simp, by simp [Pol.Wide], by simp⟩, by simp, by simp [Separate, Pol.names], by simp [Positive, Pol.names], h⟩

/-! ## Refusal -/

/-- **C35.** Whatever the group elements are: if the attribute names of the ciphertext do not satisfy the policy stored in
the key (gates with at least two children), `decrypt` returns an error. -/
theorem C35_lsw_refuses (env : Env F G1 G2 Gt) (sk : SecretKey G1 G2) (ct : Ciphertext G1 G2 Gt) (p : Pol)
    (hp : Denotes sk.policy.1 sk.policy.2 p) (hw : p.Wide) (h : p.sat (ct.ej.map (·.name)) = false) :
    decrypt env sk ct = .err := by
  have hp' : parse sk.policy.1 sk.policy.2 = .ok p.toValue := hp
  simp only [decrypt, hp', Res.ok_bind, calcPruned_eq _ p hw, h, Bool.false_eq_true, if_false]

/-- Contrapositive of **C35**, for every stored policy text, also with narrow gates. -/
theorem C35_lsw_decrypts_only_if_satisfied (env : Env F G1 G2 Gt) (sk : SecretKey G1 G2) (ct : Ciphertext G1 G2 Gt)
    (data : Bytes) (h : decrypt env sk ct = .ok data) :
    ∃ p, Denotes sk.policy.1 sk.policy.2 p ∧ p.sat (ct.ej.map (·.name)) = true := by
  simp only [decrypt, Res.bind_eq_ok] at h
  obtain ⟨v, hv, ⟨b, l⟩, hb, h⟩ := h
  obtain ⟨p, rfl, _⟩ := parse_ok hv
  refine ⟨p, hv, ?_⟩
  rw [← calcPruned_ok_sat _ p hb]
  cases b
  · simp at h
  · rfl

/-- A ciphertext with one of two needed attributes. -/
example (x y z : Fr) (c : Bytes) : let ct : Ciphertext Fr Fr Fr := ⟨x, y, [⟨['A'], z, z, z⟩], c⟩
    ∃ p, Denotes (chars% "\"A\" and \"B\"") .human p ∧ p.Wide ∧ p.sat (ct.ej.map (·.name)) = false :=
  ⟨.gate .and [.leaf ['A'] 2, .leaf ['B'] 10], rfl, by simp [Pol.Wide], by simp⟩

/-! ## Aborts -/

/-- **C51, encryption.** Encryption never aborts, whatever the attribute names. -/
theorem C51_lsw_encrypt_no_panic (env : Env F G1 G2 Gt) (pk : PublicKey G1 G2 Gt) (attrs : List Str) (pt : Bytes)
    (t : Tape F G1 G2 Gt) : encrypt env pk attrs pt t ≠ .panic := by
  by_cases h1 : attrs = []
  · subst h1; simp [encrypt]
  by_cases h2 : pt = []
  · subst h2; simp [encrypt]
  obtain ⟨ej, t1, he⟩ := encrypt_eq env pk attrs pt h1 h2 t
  rw [he]
  simp only [RM.bind_apply, encryptSymmetric, RM.genBytes]
  cases hc : env.aeadEnc (env.kdf (t1.gt 0)) ((List.range 12).map t1.byte) pt <;> simp

/-- **C51, key generation.** Key generation aborts exactly when parsing aborts or the policy has a bad name; it returns
`Err` only when parsing does. -/
theorem C51_lsw_keygen_panic_iff_partial (env : Env F G1 G2 Gt) (pk : PublicKey G1 G2 Gt) (msk : MasterKey F G1 G2)
    (text : Str) (lang : PolicyLanguage) (t : Tape F G1 G2 Gt) :
    (keygen env pk msk text lang t = .panic ↔
      parse text lang = .panic ∨ ∃ p, Denotes text lang p ∧ ∃ n ∈ p.names, BadName n) ∧
    (keygen env pk msk text lang t = .err ↔ parse text lang = .err) := by
  cases hp : parse text lang with
  | err =>
    have : ¬ ∃ p, Denotes text lang p ∧ ∃ n ∈ p.names, BadName n := by
      rintro ⟨p, h, _⟩
      have : parse text lang = .ok p.toValue := h
      rw [hp] at this; simp at this
    simp [keygen, hp, this]
  | panic => simp [keygen, hp]
  | ok v =>
    obtain ⟨p, rfl, _⟩ := parse_ok hp
    by_cases hb : ∃ n ∈ p.names, BadName n
    · have h1 : keygen env pk msk text lang t = .panic := by
        obtain ⟨n, hn, hbn⟩ := hb
        obtain ⟨l, hl, rfl⟩ := List.mem_map.1 hn
        have h2 : ∀ u, RM.mapL (keygenShare env pk msk) (shares p msk.alpha1 t.fr) u = .panic := by
          apply mapL_panic
          · intro s hs
            obtain ⟨l, _, he⟩ := mem_shares hs
            rcases isNegative_cases l.1 l.2 with h | ⟨_, b, hb⟩
            · exact Or.inl (keygenShare_panic env pk msk s (by rw [he]; exact h.2))
            · exact Or.inr (keygenShare_ok env pk msk s (by rw [he]; exact hb))
          · obtain ⟨s, hs, he⟩ := shares_of_leaf msk.alpha1 t.fr hl
            rcases isNegative_cases l.1 l.2 with h | h
            · exact ⟨s, hs, keygenShare_panic env pk msk s (by rw [he]; exact h.2)⟩
            · exact absurd hbn h.1
        simp [keygen, hp, RM.liftFr, genSharesPolicy_eq, h2]
      rw [h1]
      simp only [true_iff, reduceCtorEq, and_true]
      exact Or.inr ⟨p, hp, hb⟩
    · obtain ⟨sk, t', hk⟩ := (C34_lsw_defined env).2.1 pk msk text lang p hp
        (fun n hn h => hb ⟨n, hn, h⟩) t
      rw [hk]
      simp only [reduceCtorEq, false_or, false_iff, and_true]
      rintro ⟨p', hp', hb'⟩
      have : parse text lang = .ok p'.toValue := hp'
      rw [hp] at this
      have hpp : p.toValue = p'.toValue := Res.ok.inj this
      rw [toValue_inj _ _ hpp] at hb
      exact hb hb'

/-- **C51 is violated.** Key generation aborts, for every key and all randomness, on the policies `"é"` and `"_A"`. -/
theorem C51_violated (env : Env F G1 G2 Gt) (pk : PublicKey G1 G2 Gt) (msk : MasterKey F G1 G2) (t : Tape F G1 G2 Gt) :
    keygen env pk msk (chars% "\"é\"") .human t = .panic ∧ keygen env pk msk (chars% "\"_A\"") .human t = .panic := by
  constructor
  · refine ((C51_lsw_keygen_panic_iff_partial env pk msk _ _ t).1).2 (Or.inr ⟨.leaf (chars% "é") 2, rfl, ?_⟩)
    exact ⟨(chars% "é"), by simp [Pol.names], Or.inr ⟨'é', [], by simp, by decide⟩⟩
  · refine ((C51_lsw_keygen_panic_iff_partial env pk msk _ _ t).1).2 (Or.inr ⟨.leaf (chars% "_A") 2, rfl, ?_⟩)
    exact ⟨(chars% "_A"), by simp [Pol.names], Or.inl (by simp)⟩

/-! ## Transferring components -/

/-- A ciphertext for the attributes `wanted` made with public values only from a ciphertext with at least one
attribute. -/
def forgeCt (env : Env F G1 G2 Gt) (ct : Ciphertext G1 G2 Gt) (wanted : List Str) : Ciphertext G1 G2 Gt :=
  match ct.ej with
  | [] => ct
  | a :: _ => { ct with ej := wanted.map fun w => { a with name := w, e1 := (env.hash w * (env.hash a.name)⁻¹) • a.e1 } }

/-- **C52 is violated in LSW.** Every issued key for a regular policy (names without underscores, positive, no
repetition) reads every ciphertext, whatever its attributes, after `forgeCt`; only the hash of the first attribute must
not be zero. -/
theorem C52_violated_lsw [BigChar F] (env : Env F G1 G2 Gt)
    (t₁ t₁' : Tape F G1 G2 Gt) (pk : PublicKey G1 G2 Gt) (msk : MasterKey F G1 G2)
    (hsetup : setup env t₁ = .ok ((pk, msk), t₁'))
    (text : Str) (lang : PolicyLanguage) (p : Pol) (hreg : Regular text lang p)
    (hsep : Separate p p.names) (hpos : Positive p p.names)
    (t₂ t₂' : Tape F G1 G2 Gt) (sk : SecretKey G1 G2)
    (hkey : keygen env pk msk text lang t₂ = .ok (sk, t₂'))
    (a : Str) (rest : List Str) (plaintext : Bytes) (t₃ t₃' : Tape F G1 G2 Gt) (ct : Ciphertext G1 G2 Gt)
    (henc : encrypt env pk (a :: rest) plaintext t₃ = .ok (ct, t₃')) (hhash : env.hash a ≠ 0) :
    decrypt env sk (forgeCt env ct p.names) = .ok plaintext := by
  have hs := setup_ok hsetup
  obtain ⟨hk, _⟩ := keygen_ok hreg.denotes hkey
  obtain ⟨msg, s, hc, hd⟩ := encrypt_ok henc
  obtain ⟨y, ys, hy⟩ : ∃ y ys, ct.ej = y :: ys := by
    cases h : ct.ej with
    | nil => have := hc.names; simp [h] at this
    | cons y ys => exact ⟨y, ys, rfl⟩
  have hya : y.name = a := by
    have := hc.names
    rw [hy] at this
    simp only [List.map_cons, List.cons.injEq] at this
    exact this.1
  have hf : IsCt env pk p.names (forgeCt env ct p.names) msg s := by
    simp only [forgeCt, hy]
    refine ⟨hc.e1, hc.e2, by simp [Function.comp_def], ?_⟩
    intro z hz
    obtain ⟨w, _, rfl⟩ := List.mem_map.1 hz
    simp only [hc.ej y (by simp [hy]), hya]
    match_scalars <;> field_simp
  have hct : (forgeCt env ct p.names).ct = ct.ct := by simp only [forgeCt, hy]
  rw [decrypt_ok hs hk hf (sat_names p hreg.wide) hreg.wide hreg.fits hreg.labels hsep hpos, hct, hd]

/-- A ciphertext for `A` and a key for `"B" and "C"`, in the concrete environment. -/
example : ∃ (p : Pol) (pk : PublicKey Fr Fr Fr) (msk : MasterKey Fr Fr Fr) (sk : SecretKey Fr Fr)
    (ct : Ciphertext Fr Fr Fr) (t₁ t₂ t₃ : Tape Fr Fr Fr Fr),
    Regular (chars% "\"B\" and \"C\"") .human p ∧ Separate p p.names ∧ Positive p p.names ∧
    p.sat [['A']] = false ∧ toyEnv.hash ['A'] ≠ 0 ∧
    setup toyEnv toyTape = .ok ((pk, msk), t₁) ∧
    keygen toyEnv pk msk (chars% "\"B\" and \"C\"") .human toyTape = .ok (sk, t₂) ∧
    encrypt toyEnv pk [['A']] [7, 8] toyTape = .ok (ct, t₃) ∧ decrypt toyEnv sk ct = .err := by
  have h : toyRun toyTape [['A']] (chars% "\"B\" and \"C\"") .human [7, 8] = .ok .err := by decide +kernel
  have h0 : toyEnv.hash ['A'] ≠ 0 := by decide +kernel
  obtain ⟨pk, msk, sk, ct, t1, t2, t3, h⟩ := toyRun_ok h
  exact ⟨.gate .and [.leaf ['B'] 2, .leaf ['C'] 10], pk, msk, sk, ct, t1, t2, t3,
    ⟨rfl, by simp, by simp [Pol.Wide], by simp⟩, by simp [Separate, Pol.names], by simp [Positive, Pol.names], by simp, h0, h⟩

end Lsw
end Rabe
