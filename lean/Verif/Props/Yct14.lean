import Verif.Props.Parser
import Verif.Proof.Yct14
import Verif.Instance.Bn

/-!
# C36, C37: YCT14
-/

set_option linter.unusedSectionVars false
set_option linter.unnecessarySeqFocus false

namespace Rabe
namespace Yct14

variable {F G1 G2 Gt : Type} [Field F] [DecidableEq F] [AddCommGroup G1] [Module F G1]
  [AddCommGroup G2] [Module F G2] [AddCommGroup Gt] [Module F Gt]

/-! ## Correctness -/

/-- **C36, partial.** Any universe, any set-up, any encryption, any key issued for a regular policy (names outside
the universe included): if the ciphertext attributes satisfy the policy and the common attributes have no underscore and
occur once in the policy (counted after names are cut at the first underscore), then decryption returns the plaintext.
(Full claim: every policy accepted by
`keygen`; false, see `C36_violated_repeated`, `C36_violated_underscore`, `C36_violated_narrow`.) -/
theorem C36_yct14_correct_partial [BigChar F] (env : Env F G1 G2 Gt) (uni : List Str)
    (t₁ t₁' : Tape F G1 G2 Gt) (pk : PublicKey F Gt) (msk : MasterKey F Gt)
    (hsetup : setup uni t₁ = .ok ((pk, msk), t₁'))
    (text : Str) (lang : PolicyLanguage) (p : Pol) (hreg : Regular text lang p)
    (t₂ t₂' : Tape F G1 G2 Gt) (sk : SecretKey F Gt)
    (hkey : keygen msk text lang t₂ = .ok (sk, t₂'))
    (attrs : List Str) (plaintext : Bytes) (t₃ t₃' : Tape F G1 G2 Gt) (ct : Ciphertext F Gt)
    (henc : encrypt env pk attrs plaintext t₃ = .ok (ct, t₃'))
    (hsat : p.sat attrs = true) (hsep : Separate p attrs) :
    decrypt env sk ct = .ok plaintext := by
  obtain ⟨g, L, hs⟩ := setup_ok hsetup
  obtain ⟨hk, _⟩ := keygen_ok hs hreg.denotes hkey
  obtain ⟨k, hc, hd⟩ := encrypt_ok hs henc
  rw [decrypt_ok hs hk hc hsat hreg.wide hreg.fits hreg.labels hsep, hd]

/-- Set-up always succeeds; if the scalars it drew for the attributes are not zero, key generation succeeds for every
accepted policy; encryption succeeds for every non-empty list of attributes of the universe and non-empty plaintext when
the AEAD accepts the plaintext. -/
theorem C36_yct14_defined (env : Env F G1 G2 Gt) (uni : List Str) :
    (∀ t : Tape F G1 G2 Gt, ∃ pk msk t', setup uni t = .ok ((pk, msk), t')) ∧
    (∀ (t t' : Tape F G1 G2 Gt) (pk : PublicKey F Gt) (msk : MasterKey F Gt), setup uni t = .ok ((pk, msk), t') →
      ((∀ a ∈ msk.attributes, a.node ≠ some (.priv 0)) → ∀ text lang p, Denotes text lang p →
        ∀ u : Tape F G1 G2 Gt, ∃ sk u', keygen msk text lang u = .ok (sk, u')) ∧
      ∀ (attrs : List Str) (plaintext : Bytes), attrs ≠ [] → (∀ a ∈ attrs, a ∈ uni) → plaintext ≠ [] →
        (∀ k n, (env.aeadEnc k n plaintext).isSome = true) →
        ∀ u, ∃ ct u', encrypt env pk attrs plaintext u = .ok (ct, u')) := by
  refine ⟨?_, ?_⟩
  · intro t
    obtain ⟨ps, t', hp⟩ := RM.mapL_total (f := Attribute.new (F := F) (G1 := G1) (G2 := G2) (t.gt 0)) (xs := uni)
      (by intro x _ u; simp [Attribute.new, RM.genFr])
      { fr := dropS 1 t.fr, g1 := t.g1, g2 := t.g2, gt := dropS 1 t.gt, byte := t.byte }
    simp [setup, RM.genFr, RM.genGt, hp]
  · intro t t' pk msk h
    obtain ⟨g, L, hs⟩ := setup_ok h
    refine ⟨?_, ?_⟩
    · intro hz text lang p hp u
      have hp' : parse text lang = .ok p.toValue := hp
      obtain ⟨du, hdu⟩ := mapR_total (f := keygenShare msk) (xs := shares p msk.s u.fr) (by
        intro s _
        rw [keygenShare_eq hs]
        cases he : expOf L (removeIndex s.1) with
        | none => exact ⟨_, rfl⟩
        | some e =>
          have : e ≠ 0 := by
            rintro rfl
            simp only [expOf, Option.map_eq_some_iff] at he
            obtain ⟨x, hx, hx0⟩ := he
            refine hz ⟨x.1, some (.priv x.2)⟩ ?_ (by rw [hx0])
            rw [hs.priv]
            exact List.mem_map.2 ⟨x, List.mem_of_find?_eq_some hx, rfl⟩
          simp [this])
      simp [keygen, hp', RM.liftFr, genSharesPolicy_eq, hdu]
    · intro attrs pt h1 h2 h3 ha u
      have h1' : attrs.isEmpty = false := by cases attrs <;> simp_all
      have h3' : List.isEmpty pt = false := by cases pt <;> simp_all
      obtain ⟨as, has⟩ := mapR_total (f := publicFrom pk (u.fr 0)) (xs := attrs) (by
        intro a haa
        rw [publicFrom_eq hs]
        obtain ⟨e, he⟩ := Option.isSome_iff_exists.1 ((expOf_isSome L a).2 (by rw [hs.names]; exact h2 a haa))
        rw [he]
        exact ⟨_, rfl⟩)
      obtain ⟨c, hc⟩ := Option.isSome_iff_exists.1 (ha (env.kdf (u.fr 0 • pk.g)) ((List.range 12).map u.byte))
      simp [encrypt, h1', h3', RM.genFr, has, encryptSymmetric, RM.genBytes, hc]

/-- The whole workflow in the concrete environment; `t` is the tape of `keygen`. -/
def toyRun (uni : List Str) (t : Tape Fr Fr Fr Fr) (attrs : List Str) (text : Str) (lang : PolicyLanguage)
    (plaintext : Bytes) : Res (Res Bytes) := do
  let x ← setup uni toyTape
  let y ← keygen x.1.2 text lang t
  let z ← encrypt toyEnv x.1.1 attrs plaintext toyTape
  .ok (decrypt toyEnv y.1 z.1)

theorem toyRun_ok {uni t attrs text lang plaintext r} (h : toyRun uni t attrs text lang plaintext = .ok r) :
    ∃ pk msk sk ct t₁ t₂ t₃, setup uni toyTape = .ok ((pk, msk), t₁) ∧
      keygen msk text lang t = .ok (sk, t₂) ∧
      encrypt toyEnv pk attrs plaintext toyTape = .ok (ct, t₃) ∧ decrypt toyEnv sk ct = r := by
  simp only [toyRun, Res.bind_eq_ok, Res.ok.injEq] at h
  obtain ⟨⟨⟨pk, msk⟩, t1⟩, h1, ⟨sk, t2⟩, h2, ⟨ct, t3⟩, h3, h4⟩ := h
  exact ⟨pk, msk, sk, ct, t1, t2, t3, h1, h2, h3, h4⟩

/-- **C36 is violated, repeated attribute.** A key for `("A" and "B") or ("A" and "C")` does not decrypt a ciphertext for
`A`, `C`. -/
theorem C36_violated_repeated : ∃ (p : Pol) (pk : PublicKey Fr Fr) (msk : MasterKey Fr Fr) (sk : SecretKey Fr Fr)
    (ct : Ciphertext Fr Fr) (t₁ t₂ t₃ : Tape Fr Fr Fr Fr),
    Regular (chars% "(\"A\" and \"B\") or (\"A\" and \"C\")") .human p ∧ p.sat [['A'], ['C']] = true ∧
    setup [['A'], ['B'], ['C']] toyTape = .ok ((pk, msk), t₁) ∧
    keygen msk (chars% "(\"A\" and \"B\") or (\"A\" and \"C\")") .human { toyTape with fr := fun n => n } =
      .ok (sk, t₂) ∧
    encrypt toyEnv pk [['A'], ['C']] [7] toyTape = .ok (ct, t₃) ∧ decrypt toyEnv sk ct = .err := by
  have h : toyRun [['A'], ['B'], ['C']] { toyTape with fr := fun n => n } [['A'], ['C']]
    (chars% "(\"A\" and \"B\") or (\"A\" and \"C\")") .human [7] = .ok .err := by decide +kernel
  obtain ⟨pk, msk, sk, ct, t1, t2, t3, h⟩ := toyRun_ok h
  exact ⟨.gate .or [.gate .and [.leaf ['A'] 3, .leaf ['B'] 11], .gate .and [.leaf ['A'] 20, .leaf ['C'] 28]], pk, msk,
    sk, ct, t1, t2, t3, ⟨rfl, by simp, by simp [Pol.Wide], by simp⟩, by simp, h⟩

/-- **C36 is violated, underscore.** A key for `"A_1"` aborts on a ciphertext for `A_1`. -/
theorem C36_violated_underscore : ∃ (p : Pol) (pk : PublicKey Fr Fr) (msk : MasterKey Fr Fr) (sk : SecretKey Fr Fr)
    (ct : Ciphertext Fr Fr) (t₁ t₂ t₃ : Tape Fr Fr Fr Fr),
    Regular (chars% "\"A_1\"") .human p ∧ p.sat [(chars% "A_1")] = true ∧
    setup [(chars% "A_1")] toyTape = .ok ((pk, msk), t₁) ∧
    keygen msk (chars% "\"A_1\"") .human toyTape = .ok (sk, t₂) ∧
    encrypt toyEnv pk [(chars% "A_1")] [7] toyTape = .ok (ct, t₃) ∧ decrypt toyEnv sk ct = .panic := by
  have h : toyRun [(chars% "A_1")] toyTape [(chars% "A_1")] (chars% "\"A_1\"") .human [7] = .ok .panic := by
    decide +kernel
  obtain ⟨pk, msk, sk, ct, t1, t2, t3, h⟩ := toyRun_ok h
  exact ⟨.leaf (chars% "A_1") 2, pk, msk, sk, ct, t1, t2, t3, ⟨rfl, by simp, by simp [Pol.Wide], by simp⟩, by simp, h⟩

/-- **C36 is violated, narrow gates.** A key for the JSON policy "or" with the single child `A` aborts on a ciphertext
for `A`. -/
theorem C36_violated_narrow : ∃ (p : Pol) (pk : PublicKey Fr Fr) (msk : MasterKey Fr Fr) (sk : SecretKey Fr Fr)
    (ct : Ciphertext Fr Fr) (t₁ t₂ t₃ : Tape Fr Fr Fr Fr),
    Denotes (chars% "{\"name\": \"or\", \"children\": [{\"name\": \"A\"}]}") .json p ∧ p.sat [['A']] = true ∧
    setup [['A']] toyTape = .ok ((pk, msk), t₁) ∧
    keygen msk (chars% "{\"name\": \"or\", \"children\": [{\"name\": \"A\"}]}") .json toyTape = .ok (sk, t₂) ∧
    encrypt toyEnv pk [['A']] [7] toyTape = .ok (ct, t₃) ∧ decrypt toyEnv sk ct = .panic := by
  have h : toyRun [['A']] toyTape [['A']] (chars% "{\"name\": \"or\", \"children\": [{\"name\": \"A\"}]}") .json [7] =
    .ok .panic := by decide +kernel
  obtain ⟨pk, msk, sk, ct, t1, t2, t3, h⟩ := toyRun_ok h
  exact ⟨.gate .or [.leaf ['A'] 39], pk, msk, sk, ct, t1, t2, t3, rfl, by simp, h⟩

/-- Encrypting for an attribute outside the universe aborts. -/
theorem C36_violated_outside (env : Env F G1 G2 Gt) (uni : List Str) (t t' : Tape F G1 G2 Gt) (pk : PublicKey F Gt)
    (msk : MasterKey F Gt) (hsetup : setup uni t = .ok ((pk, msk), t')) (a : Str) (ha : a ∉ uni) (pt : Bytes)
    (hpt : pt ≠ []) (u : Tape F G1 G2 Gt) : encrypt env pk [a] pt u = .panic := by
  obtain ⟨g, L, hs⟩ := setup_ok hsetup
  have h3' : List.isEmpty pt = false := by cases pt <;> simp_all
  have : expOf L a = none := by
    cases he : expOf L a with
    | none => rfl
    | some e => exact absurd (by rw [← hs.names, ← expOf_isSome, he]; rfl) ha
  simp [encrypt, h3', RM.genFr, Res.mapR, Res.rbind_eq, publicFrom_eq hs, this]

/-- A run meeting all hypotheses of `C36_yct14_correct_partial`; an attribute outside the ciphertext is
repeated, another has an underscore. -/
example : ∃ (p : Pol) (pk : PublicKey Fr Fr) (msk : MasterKey Fr Fr) (sk : SecretKey Fr Fr)
    (ct : Ciphertext Fr Fr) (t₁ t₂ t₃ : Tape Fr Fr Fr Fr),
    Regular (chars% "(\"A\" and \"B\") or (\"B\" and \"C_1\") or (\"D\" and \"E\")") .human p ∧
    p.sat [['D'], ['A'], ['E']] = true ∧ Separate p [['D'], ['A'], ['E']] ∧
    setup [['A'], ['B'], ['D'], ['E']] toyTape = .ok ((pk, msk), t₁) ∧
    keygen msk (chars% "(\"A\" and \"B\") or (\"B\" and \"C_1\") or (\"D\" and \"E\")") .human
      { toyTape with fr := fun n => n } = .ok (sk, t₂) ∧
    encrypt toyEnv pk [['D'], ['A'], ['E']] [7, 8] toyTape = .ok (ct, t₃) ∧ decrypt toyEnv sk ct = .ok [7, 8] := by
  have h : toyRun [['A'], ['B'], ['D'], ['E']] { toyTape with fr := fun n => n } [['D'], ['A'], ['E']]
    (chars% "(\"A\" and \"B\") or (\"B\" and \"C_1\") or (\"D\" and \"E\")") .human [7, 8] = .ok (.ok [7, 8]) := by
    decide +kernel
  obtain ⟨pk, msk, sk, ct, t1, t2, t3, h⟩ := toyRun_ok h
  exact ⟨.gate .or [.gate .and [.leaf ['A'] 3, .leaf ['B'] 11], .gate .and [.leaf ['B'] 20, .leaf ['C', '_', '1'] 28],
    .gate .and [.leaf ['D'] 39, .leaf ['E'] 47]], pk, msk, sk, ct, t1, t2, t3,
    ⟨rfl, by simp, by simp [Pol.Wide], by simp⟩, by simp, by simp [Separate, Pol.names], h⟩

/-! ## Refusal -/

/-- **C37.** Whatever the values in key and ciphertext are: if the attribute names of the ciphertext do not satisfy the
policy stored in the key (gates with at least two children), `decrypt` returns an error. -/
theorem C37_yct14_refuses (env : Env F G1 G2 Gt) (sk : SecretKey F Gt) (ct : Ciphertext F Gt) (p : Pol)
    (hp : Denotes sk.policy.1 sk.policy.2 p) (hw : p.Wide) (h : p.sat (ct.attributes.map (·.name)) = false) :
    decrypt env sk ct = .err := by
  have hp' : parse sk.policy.1 sk.policy.2 = .ok p.toValue := hp
  simp only [decrypt, hp', Res.ok_bind, calcPruned_eq _ p hw, h, Bool.false_eq_true, if_false]

/-- Contrapositive of **C37**, for every stored policy text, also with narrow gates. -/
theorem C37_yct14_decrypts_only_if_satisfied (env : Env F G1 G2 Gt) (sk : SecretKey F Gt) (ct : Ciphertext F Gt)
    (data : Bytes) (h : decrypt env sk ct = .ok data) :
    ∃ p, Denotes sk.policy.1 sk.policy.2 p ∧ p.sat (ct.attributes.map (·.name)) = true := by
  simp only [decrypt, Res.bind_eq_ok] at h
  obtain ⟨v, hv, ⟨b, l⟩, hb, h⟩ := h
  obtain ⟨p, rfl, _⟩ := parse_ok hv
  refine ⟨p, hv, ?_⟩
  rw [← calcPruned_ok_sat _ p hb]
  cases b
  · simp at h
  · rfl

/-- A ciphertext with one of two needed attributes. -/
example (x : Fr) (c : Bytes) : let ct : Ciphertext Fr Fr := ⟨[⟨['A'], some (.pub x)⟩], c⟩
    ∃ p, Denotes (chars% "\"A\" and \"B\"") .human p ∧ p.Wide ∧ p.sat (ct.attributes.map (·.name)) = false :=
  ⟨.gate .and [.leaf ['A'] 2, .leaf ['B'] 10], rfl, by simp [Pol.Wide], by simp⟩

end Yct14
end Rabe
