import Verif.Proof.Ghw11
import Verif.Props.Parser
import Verif.Instance.Bn

/-!
# C42, C43, C52, C53: GHW11
-/

set_option linter.unusedSectionVars false
set_option linter.unnecessarySeqFocus false

namespace Rabe
namespace Ghw11

variable {F G1 G2 Gt : Type} [Field F] [DecidableEq F] [AddCommGroup G1] [Module F G1]
  [AddCommGroup G2] [Module F G2] [AddCommGroup Gt] [Module F Gt]

/-! ## Correctness -/

/-- **C42, partial.** Any set-up, any issued key, any transformation key made from it, any encryption under a regular
policy: if no attribute that is both in the policy and in the key has an underscore and the attributes satisfy the policy then transforming and finishing
with the retrieval key returns the plaintext. (Full claim: every policy text accepted by `encrypt`; false, see
`C42_violated_underscore`, `C42_violated_narrow`, `C42_violated_multiline`.) -/
theorem C42_ghw11_correct_partial [BigChar F] (env : Env F G1 G2 Gt)
    (t₁ t₁' : Tape F G1 G2 Gt) (pk : PublicKey G1 G2 Gt) (msk : MasterKey G1 G2 Gt)
    (hsetup : setup env t₁ = .ok ((pk, msk), t₁'))
    (attrs : List Str) (t₂ t₂' : Tape F G1 G2 Gt) (sk : SecretKey G2)
    (hkey : keygen env pk msk attrs t₂ = .ok (some sk, t₂'))
    (t₃ t₃' : Tape F G1 G2 Gt) (tk : TransformKey G2) (rk : RetrieveKey F)
    (htk : tkgen sk t₃ = .ok (some (tk, rk), t₃'))
    (text : Str) (lang : PolicyLanguage) (p : Pol) (hreg : Regular text lang p)
    (hname : ∀ n ∈ p.names, n ∈ attrs → '_' ∉ n)
    (plaintext : Bytes) (t₄ t₄' : Tape F G1 G2 Gt) (ct : Ciphertext G1 Gt)
    (henc : encrypt env pk text lang plaintext t₄ = .ok (ct, t₄'))
    (hsat : p.sat attrs = true) :
    ∃ pct, transform env ct tk = .ok pct ∧ decryptOut env pct rk ct.data = .ok plaintext := by
  obtain ⟨a, α, hs⟩ := setup_ok hsetup
  obtain ⟨hne, rfl⟩ := keygen_ok hkey
  obtain ⟨hz, rfl⟩ := tkgen_ok htk
  obtain ⟨msg, s, ω, hc, hd⟩ := encrypt_ok hreg.denotes henc
  have hu : ∀ l ∈ pick attrs p, '_' ∉ l.1 := fun l hl =>
    hname _ (List.mem_map.2 ⟨l, (pick_sublist attrs p).subset hl, rfl⟩) (pick_owned attrs p l hl)
  refine ⟨_, transform_ok hs hc hsat hreg.wide hreg.fits hreg.labels hu hne, ?_⟩
  rw [decryptOut]
  convert hd using 2
  simp only [hs.e]
  match_scalars <;> field_simp <;> ring

/-- Set-up always succeeds, key generation succeeds for every non-empty attribute list, blinding unless the random
exponent is zero, encryption for every accepted policy. -/
theorem C42_ghw11_defined (env : Env F G1 G2 Gt) :
    (∀ t : Tape F G1 G2 Gt, ∃ pk msk t', setup env t = .ok ((pk, msk), t')) ∧
    (∀ pk msk (attrs : List Str), attrs ≠ [] → ∀ s : Tape F G1 G2 Gt,
      ∃ sk s', keygen env pk msk attrs s = .ok (some sk, s')) ∧
    (∀ (sk : SecretKey G2) (s : Tape F G1 G2 Gt), s.fr 0 ≠ 0 → ∃ tk rk s', tkgen sk s = .ok (some (tk, rk), s')) ∧
    (∀ (pk : PublicKey G1 G2 Gt) text lang p, Denotes text lang p → ∀ (plaintext : Bytes),
      (∀ k n, (env.aeadEnc k n plaintext).isSome = true) →
      ∀ s, ∃ ct s', encrypt env pk text lang plaintext s = .ok (ct, s')) := by
  refine ⟨?_, ?_, ?_, ?_⟩
  · intro t
    simp only [setup, RM.bind_apply, RM.genG1, RM.genG2, RM.genFr, RM.pure_apply, Res.ok.injEq, Prod.mk.injEq]
    exact ⟨_, _, _, ⟨rfl, rfl⟩, rfl⟩
  · intro pk msk attrs hne s
    have hne' : (attrs.isEmpty || attrs.length == 0) = false := by cases attrs <;> simp_all
    simp [keygen, hne', RM.genFr]
  · intro sk s hz
    simp only [tkgen, RM.bind_apply, RM.genFr, inv, hz, if_false, RM.lift_ok, RM.pure_apply, Res.ok.injEq,
      Prod.mk.injEq, Option.some.injEq]
    exact ⟨_, _, _, ⟨rfl, rfl⟩, rfl⟩
  · intro pk text lang p hp plaintext ha s
    have hp' : parse text lang = .ok p.toValue := hp
    obtain ⟨cd, s', hcd⟩ := RM.mapL_total (f := encShare env pk) (xs := shares p (s.fr 0) (dropS 1 s.fr))
      (by intro x _ u; simp [encShare, RM.genFr])
      { fr := dropS (draws p) (dropS 1 s.fr), g1 := s.g1, g2 := s.g2, gt := dropS 1 s.gt, byte := s.byte }
    obtain ⟨c, hc⟩ := Option.isSome_iff_exists.1 (ha (env.kdf (s.gt 0)) ((List.range 12).map s'.byte))
    simp [encrypt, RM.bind_apply, RM.genFr, RM.genGt, hp', RM.liftFr, genSharesPolicy_eq, encryptSymmetric,
      RM.genBytes, hcd, hc]

/-- The whole workflow in the concrete environment, all random numbers equal to one except those of `encrypt`. -/
def toyRun (t : Tape Fr Fr Fr Fr) (attrs : List Str) (text : Str) (lang : PolicyLanguage) (plaintext : Bytes) :
    Res (Res Bytes) := do
  let x ← setup toyEnv toyTape
  let y ← keygen toyEnv x.1.1 x.1.2 attrs toyTape
  let sk ← Res.unwrapOption y.1
  let w ← tkgen sk toyTape
  let k ← Res.unwrapOption w.1
  let z ← encrypt toyEnv x.1.1 text lang plaintext t
  .ok (transform toyEnv z.1 k.1 >>= fun pct => decryptOut toyEnv pct k.2 z.1.data)

theorem toyRun_ok {t attrs text lang plaintext r} (h : toyRun t attrs text lang plaintext = .ok r) :
    ∃ pk msk sk tk rk ct t₁ t₂ t₃ t₄, setup toyEnv toyTape = .ok ((pk, msk), t₁) ∧
      keygen toyEnv pk msk attrs toyTape = .ok (some sk, t₂) ∧ tkgen sk toyTape = .ok (some (tk, rk), t₃) ∧
      encrypt toyEnv pk text lang plaintext t = .ok (ct, t₄) ∧
      (transform toyEnv ct tk >>= fun pct => decryptOut toyEnv pct rk ct.data) = r := by
  simp only [toyRun, Res.bind_eq_ok, Res.ok.injEq] at h
  obtain ⟨⟨⟨pk, msk⟩, t1⟩, h1, ⟨o, t2⟩, h2, sk, h3, ⟨o', t3⟩, h4, ⟨tk, rk⟩, h5, ⟨ct, t4⟩, h6, h7⟩ := h
  cases o with
  | none => simp at h3
  | some sk' =>
    cases o' with
    | none => simp at h5
    | some k =>
      obtain rfl := Res.ok.inj h3
      obtain rfl := Res.ok.inj h5
      exact ⟨pk, msk, sk', tk, rk, ct, t1, t2, t3, t4, h1, h2, h4, h6, h7⟩

/-- **C42 is violated, underscores.** For the policy consisting of the attribute `A_1`, a key for `A_1` does not
decrypt. -/
theorem C42_violated_underscore : ∃ (p : Pol) (pk : PublicKey Fr Fr Fr) (msk : MasterKey Fr Fr Fr) (sk : SecretKey Fr)
    (tk : TransformKey Fr) (rk : RetrieveKey Fr) (ct : Ciphertext Fr Fr) (t₁ t₂ t₃ t₄ : Tape Fr Fr Fr Fr),
    Regular (chars% "\"A_1\"") .human p ∧ p.sat [(chars% "A_1")] = true ∧
    setup toyEnv toyTape = .ok ((pk, msk), t₁) ∧
    keygen toyEnv pk msk [(chars% "A_1")] toyTape = .ok (some sk, t₂) ∧
    tkgen sk toyTape = .ok (some (tk, rk), t₃) ∧
    encrypt toyEnv pk (chars% "\"A_1\"") .human [7] toyTape = .ok (ct, t₄) ∧
    (transform toyEnv ct tk >>= fun pct => decryptOut toyEnv pct rk ct.data) = .err := by
  have h : toyRun toyTape [(chars% "A_1")] (chars% "\"A_1\"") .human [7] = .ok .err := by decide +kernel
  obtain ⟨pk, msk, sk, tk, rk, ct, t1, t2, t3, t4, h⟩ := toyRun_ok h
  exact ⟨.leaf (chars% "A_1") 2, pk, msk, sk, tk, rk, ct, t1, t2, t3, t4,
    ⟨rfl, by simp, by simp [Pol.Wide], by simp⟩, by simp, h⟩

/-- **C42 is violated, several lines.** For `("A" and "B")⏎or⏎("A" and "C")` a key for `A`, `C` does not decrypt. -/
theorem C42_violated_multiline : ∃ (p : Pol) (pk : PublicKey Fr Fr Fr) (msk : MasterKey Fr Fr Fr) (sk : SecretKey Fr)
    (tk : TransformKey Fr) (rk : RetrieveKey Fr) (ct : Ciphertext Fr Fr) (t₁ t₂ t₃ t₄ : Tape Fr Fr Fr Fr),
    Denotes (chars% "(\"A\" and \"B\")\nor\n(\"A\" and \"C\")") .human p ∧ p.sat [['A'], ['C']] = true ∧
    setup toyEnv toyTape = .ok ((pk, msk), t₁) ∧
    keygen toyEnv pk msk [['A'], ['C']] toyTape = .ok (some sk, t₂) ∧
    tkgen sk toyTape = .ok (some (tk, rk), t₃) ∧
    encrypt toyEnv pk (chars% "(\"A\" and \"B\")\nor\n(\"A\" and \"C\")") .human [7]
      { toyTape with fr := fun n => n } = .ok (ct, t₄) ∧
    (transform toyEnv ct tk >>= fun pct => decryptOut toyEnv pct rk ct.data) = .err := by
  have h : toyRun { toyTape with fr := fun n => n } [['A'], ['C']] (chars% "(\"A\" and \"B\")\nor\n(\"A\" and \"C\")") .human [7] = .ok .err := by
    decide +kernel
  obtain ⟨pk, msk, sk, tk, rk, ct, t1, t2, t3, t4, h⟩ := toyRun_ok h
  exact ⟨.gate .or [.gate .and [.leaf ['A'] 3, .leaf ['B'] 11], .gate .and [.leaf ['A'] 3, .leaf ['C'] 11]], pk, msk,
    sk, tk, rk, ct, t1, t2, t3, t4, rfl, by simp, h⟩

/-- **C42 is violated, narrow gates.** The JSON policy "or" with the single child `A` aborts `transform`. -/
theorem C42_violated_narrow : ∃ text p, Denotes text .json p ∧ p.sat [['A']] = true ∧
    ∀ (env : Env F G1 G2 Gt) (tk : TransformKey G2) (ct : Ciphertext G1 Gt),
      tk.attrKeyZ.map (·.string) = [['A']] → ct.policy = (text, .json) → transform env ct tk = .panic := by
  refine ⟨(chars% "{\"name\": \"or\", \"children\": [{\"name\": \"A\"}]}"), .gate .or [.leaf ['A'] 39], rfl,
    by simp, ?_⟩
  intro env sk ct hk hp
  have h1 : parse ct.policy.1 ct.policy.2 = .ok (Pol.gate .or [.leaf ['A'] 39]).toValue := by rw [hp]; rfl
  have h2 : traversePolicy [['A']] (Pol.gate .or [.leaf ['A'] 39]).toValue .leaf = true := rfl
  have h3 : calcPruned [['A']] (Pol.gate .or [.leaf ['A'] 39]).toValue none = .panic := rfl
  simp only [transform, hk, h1, h2, h3, Res.ok_bind, Bool.true_eq_false, if_false, Res.panic_bind]

/-- A run of the concrete environment meeting all hypotheses of `C42_ghw11_correct_partial`. -/
example : ∃ (p : Pol) (pk : PublicKey Fr Fr Fr) (msk : MasterKey Fr Fr Fr) (sk : SecretKey Fr)
    (tk : TransformKey Fr) (rk : RetrieveKey Fr) (ct : Ciphertext Fr Fr) (t₁ t₂ t₃ t₄ : Tape Fr Fr Fr Fr),
    setup toyEnv toyTape = .ok ((pk, msk), t₁) ∧
    keygen toyEnv pk msk [['D'], ['A']] toyTape = .ok (some sk, t₂) ∧ tkgen sk toyTape = .ok (some (tk, rk), t₃) ∧
    Regular (chars% "(\"A\" and \"B\" and \"C\") or (\"A\" and \"D\")") .human p ∧ (∀ n ∈ p.names, '_' ∉ n) ∧
    encrypt toyEnv pk (chars% "(\"A\" and \"B\" and \"C\") or (\"A\" and \"D\")") .human [1, 2, 3] toyTape = .ok (ct, t₄) ∧
    p.sat [['D'], ['A']] = true ∧
    ∃ pct, transform toyEnv ct tk = .ok pct ∧ decryptOut toyEnv pct rk ct.data = .ok [1, 2, 3] := by
  obtain ⟨d1, d2, d3, d4⟩ := C42_ghw11_defined toyEnv
  obtain ⟨pk, msk, t₁, h1⟩ := d1 toyTape
  obtain ⟨sk, t₂, h2⟩ := d2 pk msk [['D'], ['A']] (by simp) toyTape
  obtain ⟨tk, rk, t₃, h3⟩ := d3 sk toyTape (by simp [toyTape])
  let p : Pol := .gate .or [.gate .and [.leaf ['A'] 3, .leaf ['B'] 11, .leaf ['C'] 19],
    .gate .and [.leaf ['A'] 28, .leaf ['D'] 36]]
  have hr : Regular (chars% "(\"A\" and \"B\" and \"C\") or (\"A\" and \"D\")") .human p :=
    ⟨rfl, by simp, by simp [Pol.Wide, p], by simp [p]⟩
  have hn : ∀ n ∈ p.names, '_' ∉ n := by simp [Pol.names, p]
  have hs : p.sat [['D'], ['A']] = true := by simp [p]
  obtain ⟨ct, t₄, h4⟩ := d4 pk _ _ p hr.denotes [1, 2, 3] (by simp [toyEnv]) toyTape
  exact ⟨p, pk, msk, sk, tk, rk, ct, t₁, t₂, t₃, t₄, h1, h2, h3, hr, hn, h4, hs,
    C42_ghw11_correct_partial toyEnv _ _ pk msk h1 _ _ _ sk h2 _ _ tk rk h3 _ _ p hr (fun n h _ => hn n h) _ _ _ ct h4 hs⟩

/-! ## Refusal -/

/-- **C43.** Whatever the group elements are: if the attribute names of the transformation key do not satisfy the policy
stored in the ciphertext, `transform` returns an error. -/
theorem C43_ghw11_refuses (env : Env F G1 G2 Gt) (tk : TransformKey G2) (ct : Ciphertext G1 Gt) (p : Pol)
    (hp : Denotes ct.policy.1 ct.policy.2 p)
    (h : p.sat (tk.attrKeyZ.map (·.string)) = false ∨ tk.attrKeyZ = []) : transform env ct tk = .err := by
  have hp' : parse ct.policy.1 ct.policy.2 = .ok p.toValue := hp
  have ht : traversePolicy (tk.attrKeyZ.map (·.string)) p.toValue .leaf = false := by
    by_cases he : tk.attrKeyZ = []
    · rw [he, List.map_nil, traverse_nil]
    · rw [traverse_eq_sat _ (by simpa using he)]
      exact h.resolve_right he
  simp only [transform, hp', Res.ok_bind, ht, if_true]

/-- Contrapositive of **C43**, for every stored policy text. -/
theorem C43_ghw11_transforms_only_if_satisfied (env : Env F G1 G2 Gt) (tk : TransformKey G2) (ct : Ciphertext G1 Gt)
    (pct : TransformCiphertext Gt) (h : transform env ct tk = .ok pct) :
    ∃ p, Denotes ct.policy.1 ct.policy.2 p ∧ p.sat (tk.attrKeyZ.map (·.string)) = true ∧ tk.attrKeyZ ≠ [] := by
  have h' := h
  simp only [transform, Res.bind_eq_ok] at h'
  obtain ⟨v, hv, _⟩ := h'
  obtain ⟨p, rfl, _⟩ := parse_ok hv
  refine ⟨p, hv, ?_, ?_⟩
  · by_contra hc
    rw [C43_ghw11_refuses env tk ct p hv (Or.inl (by simpa using hc))] at h
    simp at h
  · intro hc
    rw [C43_ghw11_refuses env tk ct p hv (Or.inr hc)] at h
    simp at h

/-- A key owning one of two needed attributes. -/
example (x y z : Fr) : let tk : TransformKey Fr := ⟨x, y, [⟨['A'], z⟩]⟩
    ∃ p, Denotes (chars% "\"A\" and \"B\"") .human p ∧ p.sat (tk.attrKeyZ.map (·.string)) = false :=
  ⟨.gate .and [.leaf ['A'] 2, .leaf ['B'] 10], rfl, by simp⟩

/-! ## Transferring components -/

/-- A key for the attributes `attrs` made from any key with public values only: the component of an attribute is its
(publicly computable) hash times the component `l`. -/
def forgeKey (env : Env F G1 G2 Gt) (sk : SecretKey G2) (attrs : List Str) : SecretKey G2 :=
  { sk with attrKey := attrs.map fun a => { string := a, kX := env.hash a • sk.l } }

/-- **C52 is violated in GHW11.** For any public and master key, `forgeKey` turns any issued key into the key `keygen`
would have issued with the same random number for any other non-empty attribute list. -/
theorem C52_violated_ghw11 (env : Env F G1 G2 Gt) (pk : PublicKey G1 G2 Gt) (msk : MasterKey G1 G2 Gt)
    (attrs : List Str) (t t' : Tape F G1 G2 Gt) (sk : SecretKey G2)
    (hkey : keygen env pk msk attrs t = .ok (some sk, t')) (wanted : List Str) (hne : wanted ≠ []) :
    keygen env pk msk wanted t = .ok (some (forgeKey env sk wanted), t') := by
  have hne' : (wanted.isEmpty || wanted.length == 0) = false := by cases wanted <;> simp_all
  unfold keygen at hkey
  split at hkey
  · simp at hkey
  · simp only [RM.bind_ok, RM.genFr, RM.pure_ok, Res.ok.injEq, Prod.mk.injEq, Option.some.injEq] at hkey
    obtain ⟨r, t1, ⟨rfl, rfl⟩, rfl, rfl⟩ := hkey
    simp [keygen, hne', RM.genFr, forgeKey, Env.sha3Hash, smul_smul, mul_comm]

/-- The forged key reads every ciphertext, whatever the attributes of the original key. -/
theorem C52_violated_ghw11_decrypts [BigChar F] (env : Env F G1 G2 Gt)
    (t₁ t₁' : Tape F G1 G2 Gt) (pk : PublicKey G1 G2 Gt) (msk : MasterKey G1 G2 Gt)
    (hsetup : setup env t₁ = .ok ((pk, msk), t₁'))
    (attrs : List Str) (t₂ t₂' : Tape F G1 G2 Gt) (sk : SecretKey G2)
    (hkey : keygen env pk msk attrs t₂ = .ok (some sk, t₂'))
    (text : Str) (lang : PolicyLanguage) (p : Pol) (hreg : Regular text lang p)
    (hname : ∀ n ∈ p.names, '_' ∉ n) (hne : p.names ≠ [])
    (t₃ t₃' : Tape F G1 G2 Gt) (tk : TransformKey G2) (rk : RetrieveKey F)
    (htk : tkgen (forgeKey env sk p.names) t₃ = .ok (some (tk, rk), t₃'))
    (plaintext : Bytes) (t₄ t₄' : Tape F G1 G2 Gt) (ct : Ciphertext G1 Gt)
    (henc : encrypt env pk text lang plaintext t₄ = .ok (ct, t₄')) :
    ∃ pct, transform env ct tk = .ok pct ∧ decryptOut env pct rk ct.data = .ok plaintext :=
  C42_ghw11_correct_partial env t₁ t₁' pk msk hsetup p.names t₂ t₂' _
    (C52_violated_ghw11 env pk msk attrs t₂ t₂' sk hkey p.names hne) t₃ t₃' tk rk htk text lang p hreg
    (fun n hn _ => hname n hn) plaintext
    t₄ t₄' ct henc (sat_names p hreg.wide)

/-- A key for `A` forged into one for `B` and `C`, in the concrete environment. -/
example : ∃ (pk : PublicKey Fr Fr Fr) (msk : MasterKey Fr Fr Fr) (sk : SecretKey Fr) (t₁ t₂ : Tape Fr Fr Fr Fr),
    setup toyEnv toyTape = .ok ((pk, msk), t₁) ∧ keygen toyEnv pk msk [['A']] toyTape = .ok (some sk, t₂) ∧
    ∃ p, Regular (chars% "\"B\" and \"C\"") .human p ∧ p.names = [['B'], ['C']] ∧ p.sat [['A']] = false := by
  obtain ⟨d1, d2, _⟩ := C42_ghw11_defined toyEnv
  obtain ⟨pk, msk, t₁, h1⟩ := d1 toyTape
  obtain ⟨sk, t₂, h2⟩ := d2 pk msk [['A']] (by simp) toyTape
  exact ⟨pk, msk, sk, t₁, t₂, h1, h2, .gate .and [.leaf ['B'] 2, .leaf ['C'] 10],
    ⟨rfl, by simp, by simp [Pol.Wide], by simp⟩, by simp [Pol.names], by simp⟩

/-! ## Order of the attributes -/

/-- **C53, GHW11.** For every ciphertext (of any origin) and every transformation key with distinct attribute names, the
outcome of `transform` does not depend on the order of the key's components. -/
theorem C53_ghw11_order (env : Env F G1 G2 Gt) (ct : Ciphertext G1 Gt) (tk tk' : TransformKey G2)
    (hk : tk'.kZ = tk.kZ) (hl : tk'.lZ = tk.lZ) (hperm : tk'.attrKeyZ.Perm tk.attrKeyZ)
    (hn : (tk.attrKeyZ.map (·.string)).Nodup) : transform env ct tk' = transform env ct tk := by
  have hmem : ∀ x, x ∈ tk'.attrKeyZ.map (·.string) ↔ x ∈ tk.attrKeyZ.map (·.string) :=
    fun x => (hperm.map _).mem_iff
  have hstep : transformStep (F := F) env ct tk' = transformStep env ct tk := by
    funext cs acc cur
    simp only [transformStep]
    rw [find?_perm (fun a : Attribute G2 => a.string) hperm ((hperm.map _).nodup_iff.2 hn) cur.1]
  cases hp : parse ct.policy.1 ct.policy.2 with
  | err => simp only [transform, hp, Res.err_bind]
  | panic => simp only [transform, hp, Res.panic_bind]
  | ok v =>
    obtain ⟨p, rfl, _⟩ := parse_ok hp
    simp only [transform, hp, Res.ok_bind, traverse_congr hmem p, calcPruned_congr hmem p, hstep, hk, hl]

/-- **C53, GHW11, larger keys, partial.** For issued keys and regular policies without underscores: if the key for `attrs` decrypts, so does every
issued key for a list containing `attrs` (in any order), with the same result. -/
theorem C53_ghw11_larger_partial [BigChar F] (env : Env F G1 G2 Gt)
    (t₁ t₁' : Tape F G1 G2 Gt) (pk : PublicKey G1 G2 Gt) (msk : MasterKey G1 G2 Gt)
    (hsetup : setup env t₁ = .ok ((pk, msk), t₁'))
    (attrs attrs' : List Str) (hsub : ∀ x ∈ attrs, x ∈ attrs')
    (s₁ s₁' s₂ s₂' s₃ s₃' s₄ s₄' : Tape F G1 G2 Gt) (sk sk' : SecretKey G2)
    (hkey : keygen env pk msk attrs s₁ = .ok (some sk, s₁'))
    (hkey' : keygen env pk msk attrs' s₂ = .ok (some sk', s₂'))
    (tk tk' : TransformKey G2) (rk rk' : RetrieveKey F)
    (htk : tkgen sk s₃ = .ok (some (tk, rk), s₃')) (htk' : tkgen sk' s₄ = .ok (some (tk', rk'), s₄'))
    (text : Str) (lang : PolicyLanguage) (p : Pol) (hreg : Regular text lang p) (hname : ∀ n ∈ p.names, n ∈ attrs' → '_' ∉ n)
    (plaintext : Bytes) (t₄ t₄' : Tape F G1 G2 Gt) (ct : Ciphertext G1 Gt)
    (henc : encrypt env pk text lang plaintext t₄ = .ok (ct, t₄'))
    (data : Bytes) (hdec : (transform env ct tk >>= fun pct => decryptOut env pct rk ct.data) = .ok data) :
    (transform env ct tk' >>= fun pct => decryptOut env pct rk' ct.data) = .ok data := by
  obtain ⟨pct, h1, h2⟩ := Res.bind_eq_ok.1 hdec
  obtain ⟨p', hp', hsat, _⟩ := C43_ghw11_transforms_only_if_satisfied env tk ct pct h1
  have hpol : ct.policy = (text, lang) := by
    simp only [encrypt, RM.bind_ok, RM.pure_ok] at henc
    obtain ⟨s, t1, _, msg, t2, _, pv, t3, _, sh, t4, _, shs, t5, _, data, t6, _, cd, t7, _, rfl, _⟩ := henc
    rfl
  have hpp : p'.toValue = p.toValue := by
    have h3 : parse ct.policy.1 ct.policy.2 = .ok p'.toValue := hp'
    rw [hpol, show parse (text, lang).1 (text, lang).2 = .ok p.toValue from hreg.denotes] at h3
    exact (Res.ok.inj h3).symm
  obtain ⟨hne, rfl⟩ := keygen_ok hkey
  obtain ⟨_, rfl⟩ := tkgen_ok htk
  have hattr : ((blind (keyFor env pk msk attrs (s₁.fr 0)) rk.z).attrKeyZ.map (·.string)) = attrs := by
    simp [blind, keyFor, Function.comp_def]
  rw [hattr] at hsat
  have hs : p.sat attrs = true := by
    have := traverse_eq_sat attrs hne p' .leaf
    rw [hpp, traverse_eq_sat attrs hne p] at this
    rw [this, hsat]
  obtain ⟨pct1, e1, e2⟩ := C42_ghw11_correct_partial env t₁ t₁' pk msk hsetup attrs s₁ s₁' _ hkey s₃ s₃' _ rk htk text
    lang p hreg (fun n hn ha => hname n hn (hsub n ha)) plaintext t₄ t₄' ct henc hs
  rw [h1] at e1
  obtain rfl := Res.ok.inj e1
  rw [h2] at e2
  obtain rfl := Res.ok.inj e2
  obtain ⟨pct2, f1, f2⟩ := C42_ghw11_correct_partial env t₁ t₁' pk msk hsetup attrs' s₂ s₂' _ hkey' s₄ s₄' _ rk' htk'
    text lang p hreg hname data t₄ t₄' ct henc (sat_mono hsub p hs)
  rw [f1]
  exact f2

end Ghw11
end Rabe
