import Verif.Props.Ac17

/-!
# C52: AC17, ciphertexts can be moved to another policy
-/

set_option linter.unusedSectionVars false

namespace Rabe
namespace Ac17

variable {F G1 G2 Gt : Type} [Field F] [DecidableEq F] [AddCommGroup G1] [Module F G1]
  [AddCommGroup G2] [Module F G2] [AddCommGroup Gt] [Module F Gt]

/-- The determinant of the first two equations of a component with the public exponents `h`. -/
def det (h : ℕ → ℕ → F) : F := h 0 0 * h 1 1 - h 0 1 * h 1 0

/-- Both random numbers of a ciphertext, as multiples of the generator, computed from a component `x₀, x₁, …` with the
public exponents `h`. -/
def solve (h : ℕ → ℕ → F) (x₀ x₁ : G1) : G1 × G1 :=
  ((det h)⁻¹ • (h 1 1 • x₀ - h 0 1 • x₁), (det h)⁻¹ • (h 0 0 • x₁ - h 1 0 • x₀))

/-- A component with the public exponents `h`. -/
def remake (h : ℕ → ℕ → F) (u : G1 × G1) : List G1 := [0, 1, 2].map fun l => h l 0 • u.1 + h l 1 • u.2

theorem solve_eq {h : ℕ → ℕ → F} (hd : det h ≠ 0) (s0 s1 : F) (g : G1) :
    solve h (0 + s0 • h 0 0 • g + s1 • h 0 1 • g) (0 + s0 • h 1 0 • g + s1 • h 1 1 • g) = (s0 • g, s1 • g) := by
  have h' : h 0 0 * h 1 1 - h 0 1 * h 1 0 ≠ 0 := hd
  simp only [solve, det, Prod.mk.injEq]
  constructor <;>
    (simp only [smul_smul, ← add_smul, ← sub_smul, zero_add]
     congr 1
     field_simp
     ring)

theorem remake_eq (h : ℕ → ℕ → F) (s0 s1 : F) (g : G1) :
    remake h (s0 • g, s1 • g) = [0, 1, 2].map fun l => 0 + s0 • h l 0 • g + s1 • h l 1 • g := by
  unfold remake
  refine List.map_congr_left fun l _ => ?_
  rw [zero_add, smul_comm s0, smul_comm s1]

/-! ## Key policies -/

/-- A ciphertext for the attributes `wanted`, made with public values only from a ciphertext with at least one attribute. -/
def forgeKp (env : Env F G1 G2 Gt) (ct : KpCiphertext G1 G2 Gt) (wanted : List Str) : KpCiphertext G1 G2 Gt :=
  match ct.ct.c with
  | (a, x₀ :: x₁ :: _) :: _ =>
    let u := solve (fun l t => env.hash (hashIn a l t)) x₀ x₁
    { attr := wanted, ct := { ct.ct with c := wanted.map fun w => (w, remake (fun l t => env.hash (hashIn w l t)) u) } }
  | _ => ct

/-- **C52 is violated in AC17 (key policies).** From every ciphertext with at least one attribute, `forgeKp` computes
exactly the ciphertext that encryption would have made for the attributes `wanted` with the same random numbers; only the
determinant of four public hash values must not be zero. -/
theorem C52_violated_ac17_kp (env : Env F G1 G2 Gt) (pk : PublicKey G1 G2 Gt) (a : Str) (rest wanted : List Str)
    (plaintext : Bytes) (t t' : Tape F G1 G2 Gt) (ct : KpCiphertext G1 G2 Gt)
    (henc : kpEncrypt env pk (a :: rest) plaintext t = .ok (ct, t'))
    (hdet : det (fun l u => env.hash (hashIn a l u)) ≠ 0) :
    kpEncrypt env pk wanted plaintext t = .ok (forgeKp env ct wanted, t') := by
  simp only [kpEncrypt, RM.bind_ok, RM.genFr, RM.genGt, RM.lift_ok_iff, RM.pure_ok, Res.ok.injEq, Prod.mk.injEq] at henc ⊢
  obtain ⟨s0, t1, ⟨rfl, rfl⟩, s1, t2, ⟨rfl, rfl⟩, c0, t3, ⟨hc0, rfl⟩, cp, t4, ⟨hcp, rfl⟩, msg, t5, ⟨rfl, rfl⟩, d, t6, hd,
    rfl, rfl⟩ := henc
  refine ⟨_, _, ⟨rfl, rfl⟩, _, _, ⟨rfl, rfl⟩, _, _, ⟨hc0, rfl⟩, _, _, ⟨hcp, rfl⟩, _, _, ⟨rfl, rfl⟩, _, _, hd, ?_, rfl⟩
  simp only [forgeKp, List.map_cons, kpEncAttr, Env.sha3Hash, solve_eq hdet, KpCiphertext.mk.injEq, Ciphertext.mk.injEq,
    true_and, and_true]
  refine List.map_congr_left fun w _ => ?_
  rw [remake_eq]
  rfl

/-- **C52 is violated in AC17 (key policies), consequence.** Every issued key for a regular policy without repeated names
reads every ciphertext with at least one attribute, whatever its attributes, after `forgeKp`. -/
theorem C52_violated_ac17_kp_decrypts (env : Env F G1 G2 Gt)
    (t₁ t₁' : Tape F G1 G2 Gt) (pk : PublicKey G1 G2 Gt) (msk : MasterKey F G1 G2)
    (hsetup : setup env t₁ = .ok ((pk, msk), t₁'))
    (text : Str) (lang : PolicyLanguage) (p : Pol) (hreg : Regular text lang p) (hnd : p.names.Nodup)
    (t₂ t₂' : Tape F G1 G2 Gt) (sk : KpSecretKey G1 G2) (hkey : kpKeygen env msk text lang t₂ = .ok (sk, t₂'))
    (a : Str) (rest : List Str) (plaintext : Bytes) (t₃ t₃' : Tape F G1 G2 Gt) (ct : KpCiphertext G1 G2 Gt)
    (henc : kpEncrypt env pk (a :: rest) plaintext t₃ = .ok (ct, t₃'))
    (hdet : det (fun l u => env.hash (hashIn a l u)) ≠ 0) :
    kpDecrypt env sk (forgeKp env ct p.names) = .ok plaintext :=
  C32_ac17_kp_correct_partial env t₁ t₁' pk msk hsetup text lang p hreg t₂ t₂' sk hkey p.names plaintext t₃ t₃' _
    (C52_violated_ac17_kp env pk a rest p.names plaintext t₃ t₃' ct henc hdet) (sat_names p hreg.wide)
    fun _ hn _ => ⟨List.count_eq_one_of_mem hnd hn, List.count_eq_one_of_mem hnd hn⟩

/-! ## Ciphertext policies -/

/-- The public exponents of a row. -/
def rowExp (env : Env F G1 G2 Gt) (name : Str) (row : List ℤ) (cols l t : ℕ) : F :=
  (List.range cols).foldl (fun acc j => addEntry (row.getD j 0) acc (env.hash (hashIn (colName (j + 1)) l t)))
    (env.hash (hashIn name l t))

theorem rowHash_rowExp (env : Env F G1 G2 Gt) (g : G1) (name : Str) (row : List ℤ) (cols l t : ℕ) :
    rowHash env g name row cols l t = rowExp env name row cols l t • g := by
  simp only [rowHash, rowExp, Env.sha3Hash]
  generalize env.hash (hashIn name l t) = x
  induction List.range cols generalizing x with
  | nil => rfl
  | cons j js ih =>
    simp only [List.foldl_cons, ← ih]
    congr 1
    unfold addEntry
    split_ifs <;> simp [add_smul, sub_smul]

/-- The labelled rows of the span program of a policy text, and the length of the first one. -/
def rowsOf (text : Str) (lang : PolicyLanguage) : Res (ℕ × List (Str × List ℤ)) := do
  let pol ← parse text lang
  let msp ← Res.unwrap (calculateMsp pol)
  let row0 ← Res.index msp.m 0
  .ok (row0.length, msp.pi.zip msp.m)

/-- A ciphertext for another policy, made with public values only. -/
def forgeCp (env : Env F G1 G2 Gt) (ct : CpCiphertext G1 G2 Gt) (text : Str) (lang : PolicyLanguage) :
    Res (CpCiphertext G1 G2 Gt) := do
  let old ← rowsOf ct.policy.1 ct.policy.2
  let new ← rowsOf text lang
  match old.2, ct.ct.c with
  | r :: _, (_, x₀ :: x₁ :: _) :: _ =>
    let u := solve (fun l t => rowExp env r.1 r.2 old.1 l t) x₀ x₁
    .ok { policy := (text, lang)
          ct := { ct.ct with c := new.2.map fun w => (w.1, remake (fun l t => rowExp env w.1 w.2 new.1 l t) u) } }
  | _, _ => .err

/-- **C52 is violated in AC17 (ciphertext policies).** From every ciphertext, `forgeCp` computes exactly the ciphertext
that encryption would have made for any other supported policy with the same random numbers; only the determinant of four
public exponents of the first row must not be zero. -/
theorem C52_violated_ac17_cp (env : Env F G1 G2 Gt) (pk : PublicKey G1 G2 Gt)
    (text : Str) (lang : PolicyLanguage) (n : ℕ) (r : Str × List ℤ) (rs : List (Str × List ℤ))
    (hrows : rowsOf text lang = .ok (n, r :: rs)) (hdet : det (fun l u => rowExp env r.1 r.2 n l u) ≠ 0)
    (text' : Str) (lang' : PolicyLanguage) (p' : Pol) (hp' : Denotes text' lang' p') (hb' : p'.Binary)
    (plaintext : Bytes) (t t' : Tape F G1 G2 Gt) (ct : CpCiphertext G1 G2 Gt)
    (henc : cpEncrypt env pk text plaintext lang t = .ok (ct, t')) :
    ∃ ct', forgeCp env ct text' lang' = .ok ct' ∧ cpEncrypt env pk text' plaintext lang' t = .ok (ct', t') := by
  simp only [cpEncrypt, RM.bind_ok, RM.genFr, RM.genGt, RM.lift_ok_iff, RM.pure_ok, Res.ok.injEq, Prod.mk.injEq] at henc ⊢
  obtain ⟨v, t0, ⟨hv, rfl⟩, m, t0', ⟨hm, rfl⟩, row0, t0'', ⟨hr0, rfl⟩,
    s0, t1, ⟨rfl, rfl⟩, s1, t2, ⟨rfl, rfl⟩, c0, t3, ⟨hc0, rfl⟩, cp, t4, ⟨hcp, rfl⟩, msg, t5, ⟨rfl, rfl⟩, d, t6, hd,
    rfl, rfl⟩ := henc
  simp only [rowsOf, hv, hm, hr0, Res.ok_bind, Res.ok.injEq, Prod.mk.injEq] at hrows
  obtain ⟨rfl, hz⟩ := hrows
  have hv' : parse text' lang' = .ok p'.toValue := hp'
  obtain ⟨m', row0', hm', hr0'⟩ : ∃ m' row0', calculateMsp p'.toValue = .ok m' ∧ Res.index m'.m 0 = .ok row0' := by
    obtain ⟨m', R, hm', -, hR, -, -, -, hmR, -⟩ := calculateMsp_eq p' hb'
    have hlen : R.length = p'.leaves.length := by
      have := congrArg List.length hR
      rwa [List.length_map, mrows_length p' hb'] at this
    cases hmm : m'.m with
    | nil =>
      have := hmR.length_eq
      rw [hmm, hlen] at this
      exact absurd (List.length_eq_zero_iff.1 this.symm) (leaves_ne_nil hb'.wide)
    | cons r rs => exact ⟨m', r, hm', by simp [hmm, Res.index]⟩
  refine ⟨_, ?_, _, _, ⟨hv', rfl⟩, _, _, ⟨by rw [hm']; rfl, rfl⟩, _, _, ⟨hr0', rfl⟩, _, _, ⟨rfl, rfl⟩, _, _, ⟨rfl, rfl⟩,
    _, _, ⟨hc0, rfl⟩, _, _, ⟨hcp, rfl⟩, _, _, ⟨rfl, rfl⟩, _, _, hd, rfl, rfl⟩
  have hnew : rowsOf text' lang' = .ok (row0'.length, m'.pi.zip m'.m) := by
    simp [rowsOf, hv', hm', hr0']
  have hold : rowsOf text lang = .ok (row0.length, r :: rs) := by
    simp [rowsOf, hv, hm, hr0, hz]
  simp only [forgeCp, hold, hnew, Res.ok_bind, hz, List.map_cons, cpEncRow, rowHash_rowExp, solve_eq hdet]
  simp only [Res.ok.injEq, CpCiphertext.mk.injEq, Ciphertext.mk.injEq, true_and, and_true]
  refine List.map_congr_left fun w _ => ?_
  rw [remake_eq]
  simp only [cpEncRow, rowHash_rowExp]

/-- **C52 is violated in AC17 (ciphertext policies), consequence.** Every issued key reads every ciphertext, whatever its
policy, after `forgeCp` to some policy the key satisfies. -/
theorem C52_violated_ac17_cp_decrypts (env : Env F G1 G2 Gt)
    (t₁ t₁' : Tape F G1 G2 Gt) (pk : PublicKey G1 G2 Gt) (msk : MasterKey F G1 G2)
    (hsetup : setup env t₁ = .ok ((pk, msk), t₁'))
    (attrs : List Str) (t₂ t₂' : Tape F G1 G2 Gt) (sk : CpSecretKey G1 G2)
    (hkey : cpKeygen env msk attrs t₂ = .ok (sk, t₂'))
    (text : Str) (lang : PolicyLanguage) (n : ℕ) (r : Str × List ℤ) (rs : List (Str × List ℤ))
    (hrows : rowsOf text lang = .ok (n, r :: rs)) (hdet : det (fun l u => rowExp env r.1 r.2 n l u) ≠ 0)
    (plaintext : Bytes) (t₃ t₃' : Tape F G1 G2 Gt) (ct : CpCiphertext G1 G2 Gt)
    (henc : cpEncrypt env pk text plaintext lang t₃ = .ok (ct, t₃'))
    (text' : Str) (lang' : PolicyLanguage) (p' : Pol) (hreg : Regular text' lang' p') (hb' : p'.Binary)
    (hsat : p'.sat attrs = true) (honce : Once p' attrs) :
    ∃ ct', forgeCp env ct text' lang' = .ok ct' ∧ cpDecrypt env sk ct' = .ok plaintext := by
  obtain ⟨ct', h1, h2⟩ := C52_violated_ac17_cp env pk text lang n r rs hrows hdet text' lang' p' hreg.denotes hb' plaintext
    t₃ t₃' ct henc
  exact ⟨ct', h1, C30_ac17_cp_correct_partial env t₁ t₁' pk msk hsetup attrs t₂ t₂' sk hkey text' lang' p' hreg plaintext
    t₃ t₃' ct' h2 hsat honce⟩

/-- A message for `"A" and "B"` is read with a key for `C` alone. -/
example : (do
    let x ← setup toyEnv toyTape
    let y ← cpKeygen toyEnv x.1.2 [['C']] toyTape
    let z ← cpEncrypt toyEnv x.1.1 (chars% "\"A\" and \"B\"") [7] .human toyTape
    let w ← forgeCp toyEnv z.1 (chars% "\"C\"") .human
    .ok (cpDecrypt toyEnv y.1 z.1, cpDecrypt toyEnv y.1 w) : Res (Res Bytes × Res Bytes)) =
    .ok (.err, .ok [7]) := by decide +kernel

/-- A message for the attribute `A` is read with a key for `"B" and "C"`. -/
example : (do
    let x ← setup toyEnv toyTape
    let y ← kpKeygen toyEnv x.1.2 (chars% "\"B\" and \"C\"") .human toyTape
    let z ← kpEncrypt toyEnv x.1.1 [['A']] [7] toyTape
    .ok (kpDecrypt toyEnv y.1 z.1, kpDecrypt toyEnv y.1 (forgeKp toyEnv z.1 [['B'], ['C']])) : Res (Res Bytes × Res Bytes)) =
    .ok (.err, .ok [7]) := by decide +kernel

/-- The determinants of both examples are not zero. -/
example : det (fun l u => toyEnv.hash (hashIn ['A'] l u)) ≠ 0 ∧
    ∃ n r rs, rowsOf (chars% "\"A\" and \"B\"") .human = .ok (n, r :: rs) ∧
      det (fun l u => rowExp toyEnv r.1 r.2 n l u) ≠ 0 := by
  refine ⟨by decide +kernel, 2, ?_⟩
  exact ⟨_, _, rfl, by decide +kernel⟩

end Ac17
end Rabe
