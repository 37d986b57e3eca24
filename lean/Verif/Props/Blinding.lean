import Verif.Props.Docs
import Verif.Props.Ghw11

/-!
# Property C103: GHW11, blinding and retrieval keys

What outsourced decryption returns does not depend on the number with which the key was blinded, and of all retrieval keys only the
one made together with the transformation key recovers the session element.
-/

namespace Rabe
namespace Ghw11

set_option linter.unusedSectionVars false

variable {F G1 G2 Gt : Type} [Field F] [DecidableEq F] [AddCommGroup G1] [Module F G1]
  [AddCommGroup G2] [Module F G2] [AddCommGroup Gt] [Module F Gt]

/-- One step of the transformation with a blinded key. -/
theorem transformStep_blind (env : Env F G1 G2 Gt) (ct : Ciphertext G1 Gt) (sk : SecretKey G2) (z : F) (coeffs : List (Str × F))
    (cur : Str × Str) (acc : Gt × G1) :
    transformStep env ct (blind sk z) coeffs (z⁻¹ • acc.1, acc.2) cur =
      match transformStep env ct (blind sk (1 : F)) coeffs acc cur with
      | .ok x => .ok (z⁻¹ • x.1, x.2)
      | .err => .err
      | .panic => .panic := by
  simp only [transformStep, blind, List.find?_map, Function.comp_def]
  cases coeffs.find? (fun c => c.1 == cur.2) <;> cases sk.attrKey.find? (fun a => a.string == cur.1) <;>
    cases ct.ciDi.find? (fun a => a.1 == cur.2) <;> simp [Res.unwrapOption, smul_add, smul_comm z⁻¹]

/-- The loop of the transformation with a blinded key. -/
theorem foldR_blind (env : Env F G1 G2 Gt) (ct : Ciphertext G1 Gt) (sk : SecretKey G2) (z : F) (coeffs : List (Str × F)) :
    ∀ (L : List (Str × Str)) (acc : Gt × G1),
    Res.foldR (transformStep env ct (blind sk z) coeffs) (z⁻¹ • acc.1, acc.2) L =
      match Res.foldR (transformStep env ct (blind sk (1 : F)) coeffs) acc L with
      | .ok x => .ok (z⁻¹ • x.1, x.2)
      | .err => .err
      | .panic => .panic := by
  intro L
  induction L with
  | nil => intro acc; simp [Res.foldR]
  | cons cur L ih =>
    intro acc
    simp only [Res.foldR, transformStep_blind, Res.rbind_eq]
    cases transformStep env ct (blind sk (1 : F)) coeffs acc cur with
    | ok x => simpa using ih x
    | err => rfl
    | panic => rfl

/-- A transformation with a blinded key gives the blinded result. -/
theorem transform_blind (env : Env F G1 G2 Gt) (ct : Ciphertext G1 Gt) (sk : SecretKey G2) (z : F) :
    transform env ct (blind sk z) =
      match transform env ct (blind sk (1 : F)) with
      | .ok x => .ok { c := x.c, t := z⁻¹ • x.t }
      | .err => .err
      | .panic => .panic := by
  have ha : (blind sk z).attrKeyZ.map (·.string) = (blind sk (1 : F)).attrKeyZ.map (·.string) := by
    simp [blind, Function.comp_def]
  simp only [transform, ha]
  cases parse ct.policy.1 ct.policy.2 with
  | err => rfl
  | panic => rfl
  | ok pol =>
    simp only [Res.ok_bind]
    split
    · rfl
    · cases calcPruned ((blind sk (1 : F)).attrKeyZ.map (·.string)) pol none with
      | err => rfl
      | panic => rfl
      | ok pruned =>
        simp only [Res.ok_bind]
        cases (calcCoefficients pol (some 1) [] none : Res (Option (List (Str × F)))) with
        | err => rfl
        | panic => rfl
        | ok co =>
          cases co with
          | none => rfl
          | some coeffs =>
            simp only [Res.ok_bind, Res.unwrapOption]
            split
            · have := foldR_blind env ct sk z coeffs pruned.2 (0, 0)
              simp only [smul_zero] at this
              rw [this]
              cases Res.foldR (transformStep env ct (blind sk (1 : F)) coeffs) (0, 0) pruned.2 with
              | err => rfl
              | panic => rfl
              | ok st => simp [blind, smul_add, smul_neg]
            · rfl

/-- **C103, blinding.** Two transformation keys made from one key, with any random numbers: for every ciphertext, policy text, key
and payload, of any origin, transforming with the one and finishing with its retrieval key has the same outcome (bytes, error or
abort) as with the other. -/
theorem C103_blinding (env : Env F G1 G2 Gt) (sk : SecretKey G2) (s₁ s₁' s₂ s₂' : Tape F G1 G2 Gt) (tk₁ tk₂ : TransformKey G2)
    (rk₁ rk₂ : RetrieveKey F) (h₁ : tkgen sk s₁ = .ok (some (tk₁, rk₁), s₁')) (h₂ : tkgen sk s₂ = .ok (some (tk₂, rk₂), s₂'))
    (ct : Ciphertext G1 Gt) (data : Bytes) :
    (do let x ← transform env ct tk₁; decryptOut env x rk₁ data) =
      (do let x ← transform env ct tk₂; decryptOut env x rk₂ data) := by
  obtain ⟨z₁, rfl⟩ := tkgen_ok h₁
  obtain ⟨z₂, rfl⟩ := tkgen_ok h₂
  rw [transform_blind env ct sk rk₁.z, transform_blind env ct sk rk₂.z]
  cases transform env ct (blind sk (1 : F)) with
  | err => rfl
  | panic => rfl
  | ok x => simp [decryptOut, smul_smul, z₁, z₂]

/-- What `encrypt` draws: the secret is the first number, the session element the first element of the target group. -/
theorem encrypt_draws {env : Env F G1 G2 Gt} {pk : PublicKey G1 G2 Gt} {policy lang pt} {t t' : Tape F G1 G2 Gt} {ct} {p : Pol}
    (hp : parse policy lang = .ok p.toValue) (h : encrypt env pk policy lang pt t = .ok (ct, t')) :
    ∃ ω, IsCt env pk p ct (t.gt 0) (t.fr 0) ω := by
  simp only [encrypt, RM.bind_ok, RM.genFr, RM.genGt, RM.lift_ok_iff, RM.pure_ok, hp, Res.ok.injEq,
    Prod.mk.injEq, RM.liftFr] at h
  obtain ⟨s, t1, ⟨rfl, rfl⟩, msg, t2, ⟨rfl, rfl⟩, pv, t3, ⟨rfl, rfl⟩, sh, t4, hsh, shs, t5, ⟨hu, rfl⟩, cd, t6, hcd,
    data, t7, hd, rfl, _⟩ := h
  rw [genSharesPolicy_eq] at hsh
  simp only [Res.ok.injEq, Prod.mk.injEq] at hsh
  obtain ⟨rfl, rfl⟩ := hsh
  simp only [Res.unwrapOption_some, Res.ok.injEq] at hu
  subst hu
  refine ⟨dropS 1 t.fr, ⟨hp, rfl, rfl, ?_⟩⟩
  refine (RM.mapL_ok hcd).imp ?_
  rintro a x ⟨u, u', hx⟩
  simp only [encShare, RM.bind_ok, RM.genFr, RM.pure_ok, Res.ok.injEq, Prod.mk.injEq] at hx
  obtain ⟨τ, u1, ⟨rfl, rfl⟩, rfl, _⟩ := hx
  exact ⟨_, rfl⟩

/-- What `setup` draws. -/
theorem setup_draws {env : Env F G1 G2 Gt} {t t' : Tape F G1 G2 Gt} {pk msk} (h : setup env t = .ok ((pk, msk), t')) :
    IsSetup env pk msk (t.fr 0) (t.fr 1) ∧ pk.g1 = t.g1 0 ∧ pk.g2 = t.g2 0 := by
  simp only [setup, RM.bind_ok, RM.genG1, RM.genG2, RM.genFr, RM.pure_ok, Res.ok.injEq, Prod.mk.injEq] at h
  obtain ⟨g1, t1, ⟨rfl, rfl⟩, g2, t2, ⟨rfl, rfl⟩, a, t3, ⟨rfl, rfl⟩, α, t4, ⟨rfl, rfl⟩, ⟨rfl, rfl⟩, _⟩ := h
  exact ⟨⟨rfl, rfl, rfl, rfl⟩, rfl, rfl⟩

/-- The retrieval key contains the number that was drawn. -/
theorem tkgen_draws {sk : SecretKey G2} {t t' : Tape F G1 G2 Gt} {tk rk} (h : tkgen sk t = .ok (some (tk, rk), t')) :
    rk.z = t.fr 0 := by
  simp only [tkgen, RM.bind_ok, RM.genFr, RM.lift_ok_iff, RM.pure_ok, Res.ok.injEq, Prod.mk.injEq, Option.some.injEq] at h
  obtain ⟨z, t1, ⟨rfl, rfl⟩, zi, t2, ⟨-, rfl⟩, ⟨-, rfl⟩, _⟩ := h
  rfl

/-- **C103, retrieval keys.** Any set-up, any issued key, any transformation key made from it, any encryption under a regular policy
that the attributes satisfy (names in both without underscore), and any retrieval key: the element with which the payload is
decrypted is the session element exactly if the number in the retrieval key is the one drawn with the transformation key, unless the
exponent of the set-up, the secret of the encryption or the pairing of the generators is zero. -/
theorem C103_retrieve [BigChar F] (env : Env F G1 G2 Gt) (t₁ t₁' : Tape F G1 G2 Gt) (pk : PublicKey G1 G2 Gt)
    (msk : MasterKey G1 G2 Gt) (hsetup : setup env t₁ = .ok ((pk, msk), t₁')) (attrs : List Str) (t₂ t₂' : Tape F G1 G2 Gt)
    (sk : SecretKey G2) (hkey : keygen env pk msk attrs t₂ = .ok (some sk, t₂')) (t₃ t₃' : Tape F G1 G2 Gt) (tk : TransformKey G2)
    (rk : RetrieveKey F) (htk : tkgen sk t₃ = .ok (some (tk, rk), t₃')) (text : Str) (lang : PolicyLanguage) (p : Pol)
    (hreg : Regular text lang p) (hname : ∀ n ∈ p.names, n ∈ attrs → '_' ∉ n) (plaintext : Bytes) (t₄ t₄' : Tape F G1 G2 Gt)
    (ct : Ciphertext G1 Gt) (henc : encrypt env pk text lang plaintext t₄ = .ok (ct, t₄')) (hsat : p.sat attrs = true)
    (rk' : RetrieveKey F) :
    ∃ pct, transform env ct tk = .ok pct ∧
      (∀ data, decryptOut env pct rk' data = decryptSymmetric env
        (t₄.gt 0 + ((1 - rk'.z / rk.z) * (t₄.fr 0 * t₁.fr 1)) • env.pair (t₁.g1 0) (t₁.g2 0)) data) ∧
      (t₄.gt 0 + ((1 - rk'.z / rk.z) * (t₄.fr 0 * t₁.fr 1)) • env.pair (t₁.g1 0) (t₁.g2 0) = t₄.gt 0 ↔
        rk'.z = t₃.fr 0 ∨ t₁.fr 1 = 0 ∨ t₄.fr 0 = 0 ∨ env.pair (t₁.g1 0) (t₁.g2 0) = 0) := by
  obtain ⟨hs, h1, h2⟩ := setup_draws hsetup
  obtain ⟨hne, rfl⟩ := keygen_ok hkey
  have hd := tkgen_draws htk
  obtain ⟨hz, rfl⟩ := tkgen_ok htk
  obtain ⟨ω, hc⟩ := encrypt_draws hreg.denotes henc
  have hu : ∀ l ∈ pick attrs p, '_' ∉ l.1 := fun l hl =>
    hname _ (List.mem_map.2 ⟨l, (pick_sublist attrs p).subset hl, rfl⟩) (pick_owned attrs p l hl)
  refine ⟨_, transform_ok hs hc hsat hreg.wide hreg.fits hreg.labels hu hne, fun data => ?_, ?_⟩
  · rw [decryptOut, ← h1, ← h2]
    congr 1
    simp only [hs.e]
    match_scalars <;> field_simp
    ring
  · rw [add_eq_left, smul_eq_zero, mul_eq_zero, mul_eq_zero, sub_eq_zero, eq_comm, div_eq_one_iff_eq hz, hd]
    tauto

/-- **C103, users.** Two users whose attributes satisfy the policy: the service sends both the same first component, and the second
components are the same up to the blinding, so they do not tell which attributes or which random numbers a user has. -/
theorem C103_users [BigChar F] (env : Env F G1 G2 Gt) (t₁ t₁' : Tape F G1 G2 Gt) (pk : PublicKey G1 G2 Gt)
    (msk : MasterKey G1 G2 Gt) (hsetup : setup env t₁ = .ok ((pk, msk), t₁')) (attrs attrs' : List Str)
    (t₂ t₂' u₂ u₂' : Tape F G1 G2 Gt) (sk sk' : SecretKey G2) (hkey : keygen env pk msk attrs t₂ = .ok (some sk, t₂'))
    (hkey' : keygen env pk msk attrs' u₂ = .ok (some sk', u₂')) (t₃ t₃' u₃ u₃' : Tape F G1 G2 Gt) (tk tk' : TransformKey G2)
    (rk rk' : RetrieveKey F) (htk : tkgen sk t₃ = .ok (some (tk, rk), t₃')) (htk' : tkgen sk' u₃ = .ok (some (tk', rk'), u₃'))
    (text : Str) (lang : PolicyLanguage) (p : Pol)
    (hreg : Regular text lang p) (hname : ∀ n ∈ p.names, n ∈ attrs ∨ n ∈ attrs' → '_' ∉ n) (plaintext : Bytes)
    (t₄ t₄' : Tape F G1 G2 Gt) (ct : Ciphertext G1 Gt) (henc : encrypt env pk text lang plaintext t₄ = .ok (ct, t₄'))
    (hsat : p.sat attrs = true) (hsat' : p.sat attrs' = true) :
    ∃ pct pct', transform env ct tk = .ok pct ∧ transform env ct tk' = .ok pct' ∧ pct'.c = pct.c ∧
      pct'.t = (t₃.fr 0 / u₃.fr 0) • pct.t := by
  obtain ⟨hs, h1, h2⟩ := setup_draws hsetup
  obtain ⟨hne, rfl⟩ := keygen_ok hkey
  obtain ⟨hne', rfl⟩ := keygen_ok hkey'
  have hd := tkgen_draws htk
  have hd' := tkgen_draws htk'
  obtain ⟨hz, rfl⟩ := tkgen_ok htk
  obtain ⟨hz', rfl⟩ := tkgen_ok htk'
  obtain ⟨ω, hc⟩ := encrypt_draws hreg.denotes henc
  refine ⟨_, _, transform_ok hs hc hsat hreg.wide hreg.fits hreg.labels (fun l hl =>
    hname _ (List.mem_map.2 ⟨l, (pick_sublist attrs p).subset hl, rfl⟩) (.inl (pick_owned attrs p l hl))) hne,
    transform_ok hs hc hsat' hreg.wide hreg.fits hreg.labels (fun l hl =>
    hname _ (List.mem_map.2 ⟨l, (pick_sublist attrs' p).subset hl, rfl⟩) (.inr (pick_owned attrs' p l hl))) hne', rfl, ?_⟩
  rw [smul_smul, ← hd, ← hd']
  field_simp

/-- A key for `A`, `B`, its transformation key, and a ciphertext for `"A" and "B"`: with the retrieval key the session element is
recovered, with another number in its place it is not. -/
example : ∃ pk msk sk tk rk ct t₁ t₂ t₃ t₄ pct, setup toyEnv toyTape = .ok ((pk, msk), t₁) ∧
    keygen toyEnv pk msk [['A'], ['B']] toyTape = .ok (some sk, t₂) ∧ tkgen sk toyTape = .ok (some (tk, rk), t₃) ∧
    encrypt toyEnv pk (chars% "\"A\" and \"B\"") .human [7, 8] toyTape = .ok (ct, t₄) ∧ transform toyEnv ct tk = .ok pct ∧
    decryptOut toyEnv pct rk ct.data = .ok [7, 8] ∧
    toyTape.gt 0 + ((1 - (2 : Fr) / rk.z) * (toyTape.fr 0 * toyTape.fr 1)) • toyEnv.pair (toyTape.g1 0) (toyTape.g2 0) ≠
      toyTape.gt 0 := by
  obtain ⟨d1, d2, d3, d4⟩ := C42_ghw11_defined toyEnv
  obtain ⟨pk, msk, t₁, h1⟩ := d1 toyTape
  obtain ⟨sk, t₂, h2⟩ := d2 pk msk [['A'], ['B']] (by simp) toyTape
  obtain ⟨tk, rk, t₃, h3⟩ := d3 sk toyTape (by simp [toyTape])
  obtain ⟨ct, t₄, h4⟩ := d4 pk _ _ _ docAnd_regular.denotes [7, 8] (toy_accepts _) toyTape
  have hsat : docAnd.sat [['A'], ['B']] = true := by simp [docAnd]
  have hname : ∀ n ∈ docAnd.names, n ∈ [['A'], ['B']] → '_' ∉ n := by simp [docAnd, Pol.names]
  obtain ⟨pct, h5, h6⟩ := C42_ghw11_correct_partial toyEnv _ _ pk msk h1 _ _ _ sk h2 _ _ tk rk h3 _ _ _ docAnd_regular hname
    [7, 8] _ _ ct h4 hsat
  obtain ⟨pct', h7, -, h8⟩ := C103_retrieve toyEnv _ _ pk msk h1 _ _ _ sk h2 _ _ tk rk h3 _ _ _ docAnd_regular hname
    [7, 8] _ _ ct h4 hsat ⟨2⟩
  refine ⟨pk, msk, sk, tk, rk, ct, t₁, t₂, t₃, t₄, pct, h1, h2, h3, h4, h5, h6, fun h => ?_⟩
  have := h8.1 h
  revert this
  decide +kernel

/-- Two users, with `A`, `B` and with `A`, `B`, `C`, and different blinding numbers: the second components differ by the factor
`1 / 2`, and with one key both blindings give the plaintext. -/
example : ∃ pk msk sk sk' tk rk tk' rk' tk'' rk'' ct t₁ t₂ u₂ t₃ u₃ v₃ t₄ pct pct', setup toyEnv toyTape = .ok ((pk, msk), t₁) ∧
    keygen toyEnv pk msk [['A'], ['B']] toyTape = .ok (some sk, t₂) ∧
    keygen toyEnv pk msk [['A'], ['B'], ['C']] { toyTape with fr := fun _ => (3 : Fr) } = .ok (some sk', u₂) ∧
    tkgen sk toyTape = .ok (some (tk, rk), t₃) ∧ tkgen sk' { toyTape with fr := fun _ => (2 : Fr) } = .ok (some (tk', rk'), u₃) ∧
    tkgen sk { toyTape with fr := fun _ => (2 : Fr) } = .ok (some (tk'', rk''), v₃) ∧
    encrypt toyEnv pk (chars% "\"A\" and \"B\"") .human [7, 8] toyTape = .ok (ct, t₄) ∧ transform toyEnv ct tk = .ok pct ∧
    transform toyEnv ct tk' = .ok pct' ∧ pct'.t = ((1 : Fr) / 2) • pct.t ∧
    (do let x ← transform toyEnv ct tk''; decryptOut toyEnv x rk'' ct.data) = .ok [7, 8] := by
  obtain ⟨d1, d2, d3, d4⟩ := C42_ghw11_defined toyEnv
  obtain ⟨pk, msk, t₁, h1⟩ := d1 toyTape
  obtain ⟨sk, t₂, h2⟩ := d2 pk msk [['A'], ['B']] (by simp) toyTape
  obtain ⟨sk', u₂, h2'⟩ := d2 pk msk [['A'], ['B'], ['C']] (by simp) { toyTape with fr := fun _ => (3 : Fr) }
  have h20 : (2 : Fr) ≠ 0 := by decide +kernel
  obtain ⟨tk, rk, t₃, h3⟩ := d3 sk toyTape (by simp [toyTape])
  obtain ⟨tk', rk', u₃, h3'⟩ := d3 sk' { toyTape with fr := fun _ => (2 : Fr) } h20
  obtain ⟨tk'', rk'', v₃, h3''⟩ := d3 sk { toyTape with fr := fun _ => (2 : Fr) } h20
  obtain ⟨ct, t₄, h4⟩ := d4 pk _ _ _ docAnd_regular.denotes [7, 8] (toy_accepts _) toyTape
  have hsat : docAnd.sat [['A'], ['B']] = true := by simp [docAnd]
  have hsat' : docAnd.sat [['A'], ['B'], ['C']] = true := by simp [docAnd]
  have hu : ∀ n ∈ docAnd.names, '_' ∉ n := by simp [docAnd, Pol.names]
  obtain ⟨x, h5, h6⟩ := C42_ghw11_correct_partial toyEnv _ _ pk msk h1 _ _ _ sk h2 _ _ tk rk h3 _ _ _ docAnd_regular
    (fun n hn _ => hu n hn) [7, 8] _ _ ct h4 hsat
  obtain ⟨pct, pct', h7, h8, -, h9⟩ := C103_users toyEnv _ _ pk msk h1 _ _ _ _ _ _ sk sk' h2 h2' _ _ _ _ tk tk' rk rk' h3 h3' _ _ _
    docAnd_regular (fun n hn _ => hu n hn) [7, 8] _ _ ct h4 hsat hsat'
  refine ⟨pk, msk, sk, sk', tk, rk, tk', rk', tk'', rk'', ct, t₁, t₂, u₂, t₃, u₃, v₃, t₄, pct, pct', h1, h2, h2', h3, h3', h3'', h4,
    h7, h8, h9, ?_⟩
  rw [← C103_blinding toyEnv sk _ _ _ _ tk tk'' rk rk'' h3 h3'' ct ct.data, h5]
  exact h6

end Ghw11
end Rabe
