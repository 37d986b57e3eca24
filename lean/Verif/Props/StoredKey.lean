import Verif.Props.OutcomeKp
import Verif.Props.StoredAc17
import Verif.Props.Aw11
import Mathlib.Tactic.LinearCombination

/-!
# C93: replacing the policy stored in a key

In the key-policy schemes the policy text is a field of the key, and decryption prunes this text instead of anything the
components of the key are bound to. The holder of a key can replace the text. For attributes of a ciphertext that do not
satisfy the policy of key generation, what decryption computes after any replacement is independent of the shared secret.
-/

set_option linter.unusedSectionVars false

namespace Rabe

variable {F G1 G2 Gt : Type} [Field F] [DecidableEq F] [AddCommGroup G1] [Module F G1]
  [AddCommGroup G2] [Module F G2] [AddCommGroup Gt] [Module F Gt]

/-- Renaming that changes none of the names. -/
theorem rename_eq_self (f : Str → Str) : ∀ p : Pol, (∀ n ∈ p.names, f n = n) → Aw11.rename f p = p := by
  intro p
  induction p using Pol.ind with
  | hl n c => intro h; rw [Aw11.rename, h n (by simp [Pol.names])]
  | hg op cs ih =>
    intro h
    rw [Aw11.rename, Aw11.renameL_eq]
    congr 1
    conv_rhs => rw [← List.map_id cs]
    refine List.map_congr_left fun c hc => ih c hc fun n hn => h n ?_
    obtain ⟨l, hl, rfl⟩ := List.mem_map.1 hn
    exact List.mem_map.2 ⟨l, by rw [Pol.leaves_gate]; exact List.mem_flatMap.2 ⟨c, hc, hl⟩, rfl⟩

theorem namedShare_agree {A : List Str} : ∀ {L : List (Str × ℕ)} {v w : List F},
    AgreeOn A (L.map fun l => (cut l.1, l.2)) v w → v.length = L.length → w.length = L.length → ∀ {n : Str}, n ∈ A →
    ((((L.map leafIdx).zip v).find? fun z => removeIndex z.1 == n).map (·.2)).getD 0 =
      ((((L.map leafIdx).zip w).find? fun z => removeIndex z.1 == n).map (·.2)).getD 0 := by
  intro L
  induction L with
  | nil => intros; rfl
  | cons a L ih =>
    intro v w h hv hw n hn
    obtain ⟨x, v, rfl⟩ := List.exists_cons_of_length_eq_add_one hv
    obtain ⟨y, w, rfl⟩ := List.exists_cons_of_length_eq_add_one hw
    simp only [List.map_cons, List.zip_cons_cons, List.find?_cons, removeIndex_leafIdx]
    by_cases ha : cut a.1 = n
    · have := h 0 (cut a.1, a.2) (by simp) (by rw [ha]; exact hn)
      simpa [ha] using this
    · have : (cut a.1 == n) = false := by simpa using ha
      simp only [this]
      exact ih (fun i l' hi hl' => by simpa using h (i + 1) l' (by simpa using hi) hl')
        (by simpa using hv) (by simpa using hw) hn

/-- The shares that are found under the names of `A` do not change under the hidden translations. -/
theorem namedShare_hidden [BigChar F] {text lang} {p : Pol} (h : Denotes text lang p) (hl : text.length < 2 ^ 64)
    {A : List Str} (hA : (Aw11.rename cut p).sat A = false) (d : F) :
    ∃ δ : ℕ → F, ∀ (σ : F) (ω : ℕ → F) (n : Str), n ∈ A →
      namedShare p (σ + d) (fun i => ω i + δ i) n = namedShare p σ ω n := by
  have hf : (Aw11.rename cut p).Fits := by
    obtain ⟨q, hq, hf, _⟩ := parse_ok h
    rw [toValue_inj _ _ hq]
    exact (Aw11.arity_rename cut _ q).2 (hf hl)
  obtain ⟨δ, hδ⟩ := hides A (Aw11.rename cut p) hf hA d
  refine ⟨δ, fun σ ω n hn => ?_⟩
  have := hδ σ ω
  rw [Aw11.leaves_rename, Aw11.shareVals_rename, Aw11.shareVals_rename] at this
  exact (namedShare_agree this (shareVals_length _ _ _) (shareVals_length _ _ _) hn).symm

/-- The coefficient that is found under a label. -/
def labelCoeff (z : List (Str × F)) (j : Str) : F := ((z.find? fun c => c.1 == j).map (·.2)).getD 0

/-- A loop whose steps either abort or go on in a known way. -/
theorem foldR_steps {S X : Type} (step : S → X → Res S) (nxt : S → X → S) (L : List X)
    (hst : ∀ x ∈ L, ∀ acc, step acc x = .panic ∨ step acc x = .err ∨ step acc x = .ok (nxt acc x)) :
    ∀ acc, Res.foldR step acc L = .panic ∨ Res.foldR step acc L = .err ∨ Res.foldR step acc L = .ok (L.foldl nxt acc) := by
  induction L with
  | nil => intro acc; simp [Res.foldR]
  | cons x L ih =>
    intro acc
    simp only [Res.foldR, Res.rbind_eq, List.foldl_cons]
    rcases hst x (by simp) acc with h | h | h
    · simp [h]
    · simp [h]
    · rw [h, Res.ok_bind]
      exact ih (fun y hy => hst y (by simp [hy])) _

namespace Lsw

/-- The sum of coefficients and shares over the leaves that pruning selects from the stored policy. A name that starts
with `!` contributes the value `v` of the leaf before it. -/
def readSum (p : Pol) (σ : F) (ω : ℕ → F) (z : List (Str × F)) : List (Str × Str) → F → F
  | [], _ => 0
  | x :: L, v =>
      let v' := if x.1.head? = some '!' then v else namedShare p σ ω x.1
      labelCoeff z x.2 * v' + readSum p σ ω z L v'

theorem foldl_readSum (p : Pol) (σ : F) (ω : ℕ → F) (z : List (Str × F)) (E : Gt) : ∀ (L : List (Str × Str)) (a v : F),
    (L.foldl (fun (acc : Gt × Gt) x =>
      let zy := if x.1.head? = some '!' then acc.2 else namedShare p σ ω x.1 • E
      (acc.1 + labelCoeff z x.2 • zy, zy)) (a • E, v • E)).1 = (a + readSum p σ ω z L v) • E := by
  intro L
  induction L with
  | nil => intro a v; simp [readSum]
  | cons l L ih =>
    intro a v
    by_cases h : l.1.head? = some '!'
    · have := ih (a + labelCoeff z l.2 * v) v
      simp only [List.foldl_cons, readSum, h, if_true, ← add_assoc]
      rw [← this]
      congr 3
      module
    · have := ih (a + labelCoeff z l.2 * namedShare p σ ω l.1) (namedShare p σ ω l.1)
      simp only [List.foldl_cons, readSum, h, if_false, ← add_assoc]
      rw [← this]
      congr 3
      module

theorem readSum_congr {p : Pol} {σ τ : F} {ω ψ : ℕ → F} (z : List (Str × F)) : ∀ {L : List (Str × Str)} (v : F),
    (∀ x ∈ L, namedShare p σ ω x.1 = namedShare p τ ψ x.1) → readSum p σ ω z L v = readSum p τ ψ z L v := by
  intro L
  induction L with
  | nil => intros; rfl
  | cons x L ih =>
    intro v h
    simp only [readSum, h x (by simp)]
    rw [ih _ fun y hy => h y (by simp [hy])]

/-- **C93, LSW, partial.** A key policy, attributes of ciphertexts that do not satisfy it when its names are shortened at
the first underscore. There are translations of the random numbers of key generation, one for each shift `d` of the secret of
the authority, such that for every policy text put into the key: a value `T`, the same for all keys, ciphertexts and random
numbers and unchanged by these translations, is what decryption works with in place of the secret, if it does not fail. So a
replacement opens the payload with the right element for at most one shift out of all. (Full claim: it never does; false, see
`C93_violated_lsw`.) -/
theorem C93_lsw_stored_policy_partial [BigChar F] (text : Str) (lang : PolicyLanguage) (p : Pol) (hp : Denotes text lang p)
    (hlen : text.length < 2 ^ 64) (attrs : List Str) (hsat : (Aw11.rename cut p).sat attrs = false) :
    ∃ δ : F → ℕ → F, ∀ stored : Str × PolicyLanguage, ∃ T : F → (ℕ → F) → F,
      (∀ σ ω d, T (σ + d) (fun i => ω i + δ d i) = T σ ω) ∧
      ∀ (env : Env F G1 G2 Gt) (t₁ t₁' t₂ t₂' t₃ t₃' : Tape F G1 G2 Gt) (pk : PublicKey G1 G2 Gt)
        (msk : MasterKey F G1 G2) (sk : SecretKey G1 G2) (plaintext : Bytes) (ct : Ciphertext G1 G2 Gt),
        setup env t₁ = .ok ((pk, msk), t₁') → keygen env pk msk text lang t₂ = .ok (sk, t₂') →
        encrypt env pk attrs plaintext t₃ = .ok (ct, t₃') →
        decryptSymmetric env (t₃.gt 0) ct.ct = .ok plaintext ∧
        (decrypt env { sk with policy := stored } ct = .panic ∨ decrypt env { sk with policy := stored } ct = .err ∨
          decrypt env { sk with policy := stored } ct = decryptSymmetric env (t₃.gt 0 +
            ((t₁.fr 0 - T (t₁.fr 0) t₂.fr) * (t₁.fr 1 * t₃.fr 0)) • env.pair pk.g1 pk.g2) ct.ct) := by
  choose δ hδ using fun d : F => namedShare_hidden (F := F) hp hlen hsat d
  refine ⟨δ, fun stored => ?_⟩
  have hplain : ∀ {env : Env F G1 G2 Gt} {t₃ t₃' : Tape F G1 G2 Gt} {pk : PublicKey G1 G2 Gt} {plaintext : Bytes}
      {ct : Ciphertext G1 G2 Gt}, encrypt env pk attrs plaintext t₃ = .ok (ct, t₃') →
      decryptSymmetric env (t₃.gt 0) ct.ct = .ok plaintext := by
    intro env t₃ t₃' pk plaintext ct henc
    unfold encrypt at henc
    split at henc
    · simp at henc
    · simp only [RM.bind_ok, RM.genFr, RM.genGt, RM.lift_ok_iff, RM.pure_ok, Res.ok.injEq, Prod.mk.injEq] at henc
      obtain ⟨s, t1, ⟨rfl, rfl⟩, sx, t2, hsx, ej, t3, ⟨hej, rfl⟩, msg, t4, ⟨rfl, rfl⟩, c, t5, hc, rfl, _⟩ := henc
      have := encryptSymmetric_ok hc
      rwa [sxLoop_gt _ _ _ _ hsx] at this
  by_cases hst : ∃ (q : Pol) (L : List (Str × Str)), parse stored.1 stored.2 = .ok q.toValue ∧
      calcPruned attrs q.toValue none = .ok (true, L)
  swap
  · refine ⟨fun _ _ => 0, fun _ _ _ => rfl, ?_⟩
    intro env t₁ t₁' t₂ t₂' t₃ t₃' pk msk sk plaintext ct hsetup hkey henc
    refine ⟨hplain henc, ?_⟩
    have hc := encrypt_exact henc
    simp only [decrypt, hc.names]
    cases hv : parse stored.1 stored.2 with
    | err => simp
    | panic => simp
    | ok v =>
      obtain ⟨q, rfl, -⟩ := parse_ok hv
      cases hL : calcPruned attrs q.toValue none with
      | err => simp [hL]
      | panic => simp [hL]
      | ok x =>
        obtain ⟨b, L⟩ := x
        cases b with
        | true => exact absurd ⟨q, L, hv, hL⟩ hst
        | false => simp [hL]
  obtain ⟨q, L, hv, hL⟩ := hst
  have hown : ∀ x ∈ L, x.1 ∈ attrs := by
    intro x hx
    obtain ⟨y, rfl, hy⟩ := calcPruned_ok_owned attrs q hL x hx
    exact hy
  refine ⟨fun σ ω => readSum p σ ω (coeffs q 1) L 0,
    fun σ ω d => readSum_congr _ _ fun x hx => hδ d σ ω x.1 (hown x hx), ?_⟩
  intro env t₁ t₁' t₂ t₂' t₃ t₃' pk msk sk plaintext ct hsetup hkey henc
  refine ⟨hplain henc, ?_⟩
  have hs := setup_ok hsetup
  have hα := setup_alphas hsetup
  obtain ⟨hk, _⟩ := keygen_ok hp hkey
  have hc := encrypt_exact henc
  have hlook := find?_forall₂ (R := fun (x : Str × F) y => IsKeyAttr env pk msk (removeIndex x.1) x.2 y)
    (fun x => removeIndex x.1) (fun y : KeyAttr G1 G2 => y.name) (hk.dj.imp fun x y h => ⟨h.1, h⟩)
  have hfold := foldR_steps (decryptStep env { sk with policy := stored } ct (coeffs q 1))
    (fun (acc : Gt × Gt) x =>
      let zy := if x.1.head? = some '!' then acc.2 else
        namedShare p msk.alpha1 t₂.fr x.1 • (msk.alpha2 * t₃.fr 0) • env.pair pk.g1 pk.g2
      (acc.1 + labelCoeff (coeffs q (1 : F)) x.2 • zy, zy)) L
    (by
      intro x hx acc
      obtain ⟨c, hcm, hcf, hcn⟩ := exists_find? (fun y : CtAttr G1 => y.name) ct.ej x.1
        (by rw [hc.names]; exact hown x hx)
      cases hf : (shares p msk.alpha1 t₂.fr).find? fun z => removeIndex z.1 == x.1 with
      | none => left; simp [decryptStep, (hlook x.1).2 hf]
      | some w =>
        obtain ⟨y, hy1, _, neg, hneg, hpos⟩ := (hlook x.1).1 w hf
        have hw : removeIndex w.1 = x.1 := by simpa using List.find?_some hf
        have hw2 : w.2 = namedShare p msk.alpha1 t₂.fr x.1 := by simp [namedShare, hf]
        cases hz : (coeffs q (1 : F)).find? fun c => c.1 == x.2 with
        | none => left; simp [decryptStep, hy1, hcf, hz]
        | some k =>
          right; right
          have hk2 : labelCoeff (coeffs q (1 : F)) x.2 = k.2 := by simp [labelCoeff, hz]
          rw [hw] at hneg hpos
          have hb := isNegative_ok hneg
          simp only [decryptStep, hy1, hcf, hz, hneg, Res.unwrapOption_some, Res.ok_bind, Res.ok.injEq, hk2]
          cases neg with
          | true => simp [hb.1 rfl]
          | false =>
            have hb' : ¬ x.1.head? = some '!' := fun h => by simpa using hb.2 h
            obtain ⟨r, hd1, hd2⟩ := hpos rfl
            have hz : env.pair y.d1 ct.e2 + -(env.pair c.e1 y.d2) =
                namedShare p msk.alpha1 t₂.fr x.1 • (msk.alpha2 * t₃.fr 0) • env.pair pk.g1 pk.g2 := by
              rw [hd1, hd2, hc.ej c hcm, hcn, hc.e2, ← hw2]
              simp only [map_smul, map_add, LinearMap.smul_apply, LinearMap.add_apply]
              module
            simp only [Bool.false_eq_true, if_false, hb', hz]) (0, 0)
  have h0 := foldl_readSum p msk.alpha1 t₂.fr (coeffs q 1) ((msk.alpha2 * t₃.fr 0) • env.pair pk.g1 pk.g2) L 0 0
  simp only [zero_smul, zero_add] at h0
  simp only [decrypt, hv, hc.names, hL, calcCoefficients_eq, Res.ok_bind, if_true, Res.unwrapOption_some, List.nil_append]
  rcases hfold with h | h | h
  · left; rw [h]; rfl
  · right; left; rw [h]; rfl
  · right; right
    rw [h, Res.ok_bind, h0, hc.e1, hs, hα.1, hα.2]
    congr 1
    module

/-- A policy and attributes meeting the hypotheses: the names have no underscore. -/
example : ∃ p, Denotes (chars% "\"A\" and \"B\"") .human p ∧ (chars% "\"A\" and \"B\"").length < 2 ^ 64 ∧
    Aw11.rename cut p = p ∧ (Aw11.rename cut p).sat [['A']] = false :=
  ⟨.gate .and [.leaf ['A'] 2, .leaf ['B'] 10], rfl, by decide,
    rename_eq_self _ _ (by simp [Pol.names, cut]), by simp [Aw11.rename, Aw11.renameL, cut]⟩

/-- **C93 is violated for LSW, by chance.** When the random number of the sharing is zero, a key for `"A" and "B"` opens a
ciphertext for `A` after the text in the key is replaced. -/
theorem C93_violated_lsw : (do
    let x ← setup toyEnv toyTape
    let y ← keygen toyEnv x.1.1 x.1.2 (chars% "\"A\" and \"B\"") .human { toyTape with fr := fun _ => 0 }
    let z ← encrypt toyEnv x.1.1 [['A']] [7] toyTape
    .ok (decrypt toyEnv y.1 z.1, decrypt toyEnv { y.1 with policy := (chars% "\"A\"", .human) } z.1) :
      Res (Res Bytes × Res Bytes)) = .ok (.err, .ok [7]) := by decide +kernel

/-- **C93 is violated for LSW, underscores.** A key for `"A_1"` opens a ciphertext for `A` after the text is replaced, for
other random numbers too: the component is listed under `A`. -/
theorem C93_violated_lsw_underscore : (do
    let x ← setup toyEnv toyTape
    let y ← keygen toyEnv x.1.1 x.1.2 (chars% "\"A_1\"") .human { toyTape with fr := fun n => n + 1 }
    let z ← encrypt toyEnv x.1.1 [['A']] [7] toyTape
    .ok (decrypt toyEnv y.1 z.1, decrypt toyEnv { y.1 with policy := (chars% "\"A\"", .human) } z.1) :
      Res (Res Bytes × Res Bytes)) = .ok (.err, .ok [7]) := by decide +kernel

/-- With other random numbers the replacement does not help. -/
example : (do
    let x ← setup toyEnv toyTape
    let y ← keygen toyEnv x.1.1 x.1.2 (chars% "\"A\" and \"B\"") .human { toyTape with fr := fun n => n + 1 }
    let z ← encrypt toyEnv x.1.1 [['A']] [7] toyTape
    .ok (decrypt toyEnv y.1 z.1, decrypt toyEnv { y.1 with policy := (chars% "\"A\"", .human) } z.1) :
      Res (Res Bytes × Res Bytes)) = .ok (.err, .err) := by decide +kernel

end Lsw

namespace Yct14

/-- The sum of coefficients and shares over the leaves that pruning selects from the stored policy. -/
def readSum (p : Pol) (σ : F) (ω : ℕ → F) (z : List (Str × F)) (L : List (Str × Str)) : F :=
  (L.map fun x => labelCoeff z x.2 * namedShare p σ ω x.1).sum

/-- **C93, YCT14, partial.** As for LSW: for attributes that do not satisfy the key policy with shortened names, what
decryption works with in place of the secret is unchanged by translations of the random numbers that shift the secret. The
payload is sealed with `k·s` times the generator and opened with `k·T` times the generator. (Full claim: replacing the text
never helps; false, see `C93_violated_yct14`.) -/
theorem C93_yct14_stored_policy_partial [BigChar F] (text : Str) (lang : PolicyLanguage) (p : Pol) (hp : Denotes text lang p)
    (hlen : text.length < 2 ^ 64) (attrs : List Str) (hsat : (Aw11.rename cut p).sat attrs = false) :
    ∃ δ : F → ℕ → F, ∀ stored : Str × PolicyLanguage, ∃ T : F → (ℕ → F) → F,
      (∀ σ ω d, T (σ + d) (fun i => ω i + δ d i) = T σ ω) ∧
      ∀ (env : Env F G1 G2 Gt) (universe_ : List Str) (t₁ t₁' t₂ t₂' t₃ t₃' : Tape F G1 G2 Gt) (pk : PublicKey F Gt)
        (msk : MasterKey F Gt) (sk : SecretKey F Gt) (plaintext : Bytes) (ct : Ciphertext F Gt),
        setup universe_ t₁ = .ok ((pk, msk), t₁') → keygen msk text lang t₂ = .ok (sk, t₂') →
        encrypt env pk attrs plaintext t₃ = .ok (ct, t₃') →
        decryptSymmetric env ((t₃.fr 0 * t₁.fr 0) • t₁.gt 0) ct.ct = .ok plaintext ∧
        (decrypt env { sk with policy := stored } ct = .panic ∨ decrypt env { sk with policy := stored } ct = .err ∨
          decrypt env { sk with policy := stored } ct =
            decryptSymmetric env ((t₃.fr 0 * T (t₁.fr 0) t₂.fr) • t₁.gt 0) ct.ct) := by
  choose δ hδ using fun d : F => namedShare_hidden (F := F) hp hlen hsat d
  refine ⟨δ, fun stored => ?_⟩
  have hplain : ∀ {env : Env F G1 G2 Gt} {universe_ : List Str} {t₁ t₁' t₃ t₃' : Tape F G1 G2 Gt} {pk : PublicKey F Gt}
      {msk : MasterKey F Gt} {plaintext : Bytes} {ct : Ciphertext F Gt},
      setup universe_ t₁ = .ok ((pk, msk), t₁') → encrypt env pk attrs plaintext t₃ = .ok (ct, t₃') →
      decryptSymmetric env ((t₃.fr 0 * t₁.fr 0) • t₁.gt 0) ct.ct = .ok plaintext ∧ ct.attributes.map (·.name) = attrs := by
    intro env universe_ t₁ t₁' t₃ t₃' pk msk plaintext ct hsetup henc
    obtain ⟨hσ, L, hs⟩ := setup_exact hsetup
    obtain ⟨hc, hd⟩ := encrypt_exact hs henc
    rw [hs.gs, hσ, smul_smul] at hd
    exact ⟨hd, hc.names⟩
  by_cases hst : ∃ (q : Pol) (L : List (Str × Str)), parse stored.1 stored.2 = .ok q.toValue ∧
      calcPruned attrs q.toValue none = .ok (true, L)
  swap
  · refine ⟨fun _ _ => 0, fun _ _ _ => rfl, ?_⟩
    intro env universe_ t₁ t₁' t₂ t₂' t₃ t₃' pk msk sk plaintext ct hsetup hkey henc
    obtain ⟨hd, hc⟩ := hplain hsetup henc
    refine ⟨hd, ?_⟩
    simp only [decrypt, hc]
    cases hv : parse stored.1 stored.2 with
    | err => simp
    | panic => simp
    | ok v =>
      obtain ⟨q, rfl, -⟩ := parse_ok hv
      cases hL : calcPruned attrs q.toValue none with
      | err => simp [hL]
      | panic => simp [hL]
      | ok x =>
        obtain ⟨b, L⟩ := x
        cases b with
        | true => exact absurd ⟨q, L, hv, hL⟩ hst
        | false => simp [hL]
  obtain ⟨q, L, hv, hL⟩ := hst
  have hown : ∀ x ∈ L, x.1 ∈ attrs := by
    intro x hx
    obtain ⟨y, rfl, hy⟩ := calcPruned_ok_owned attrs q hL x hx
    exact hy
  refine ⟨fun σ ω => readSum p σ ω (coeffs q 1) L, fun σ ω d => ?_, ?_⟩
  · simp only [readSum]
    congr 1
    refine List.map_congr_left fun x hx => ?_
    rw [hδ d σ ω x.1 (hown x hx)]
  intro env universe_ t₁ t₁' t₂ t₂' t₃ t₃' pk msk sk plaintext ct hsetup hkey henc
  refine ⟨(hplain hsetup henc).1, ?_⟩
  obtain ⟨hσ, M, hs⟩ := setup_exact hsetup
  obtain ⟨hk, hpol⟩ := keygen_ok hs hp hkey
  obtain ⟨hc, hd⟩ := encrypt_exact hs henc
  obtain ⟨os, hos, hdu⟩ := keygen_du hp hkey
  have hname : ∀ x ∈ shares p msk.s t₂.fr, ∀ y, keygenShare msk x = .ok (some y) → y.name = removeIndex x.1 := by
    intro x _ y hxy
    rw [keygenShare_eq hs] at hxy
    cases he : expOf M (removeIndex x.1) with
    | none => simp [he] at hxy
    | some e =>
      rw [he] at hxy
      simp only [] at hxy
      split at hxy
      · simp at hxy
      · simp only [Res.ok.injEq, Option.some.injEq] at hxy
        rw [← hxy]
  have hfold := foldR_steps (decryptStep { sk with policy := stored } ct (coeffs q 1))
    (fun (acc : Gt) x =>
      acc + (labelCoeff (coeffs q (1 : F)) x.2 * namedShare p msk.s t₂.fr x.1 * t₃.fr 0) • t₁.gt 0) L
    (by
      intro x hx acc
      obtain ⟨c, hcm, hcf, hcn⟩ := exists_find? (fun y : Attribute F Gt => y.name) ct.attributes x.1
        (by rw [hc.names]; exact hown x hx)
      obtain ⟨e, he, hnode⟩ := hc.nodes c hcm
      rw [hcn] at he
      have hfind := mapR_find (fun x : Str × F => removeIndex x.1) (fun y : Attribute F Gt => y.name) x.1 hos hname
        (by
          intro z _ hz hcon
          rw [keygenShare_eq hs, hz, he] at hcon
          simp only [] at hcon
          split at hcon <;> simp at hcon)
      rw [← hdu] at hfind
      cases hf : (shares p msk.s t₂.fr).find? fun z => removeIndex z.1 == x.1 with
      | none =>
        left
        rw [hf, Option.bind_none] at hfind
        simp [decryptStep, SecretKey.getPrivate, hfind, Ciphertext.getPublic, hcf, hnode, Node.public]
      | some w =>
        have hw : removeIndex w.1 = x.1 := by simpa using List.find?_some hf
        have hw2 : w.2 = namedShare p msk.s t₂.fr x.1 := by simp [namedShare, hf]
        have hks := keygenShare_eq hs w
        rw [hw, he] at hks
        simp only [] at hks
        obtain ⟨o, _, ho⟩ := Forall₂.mem_left (mapR_ok hos) w (List.mem_of_find?_eq_some hf)
        have hne : e ≠ 0 := by
          rintro rfl
          rw [hks] at ho
          simp at ho
        rw [if_neg hne] at hks
        rw [hf, Option.bind_some, hks] at hfind
        cases hz : (coeffs q (1 : F)).find? fun c => c.1 == x.2 with
        | none =>
          left
          simp [decryptStep, SecretKey.getPrivate, hfind, Ciphertext.getPublic, hcf, hnode, Node.public, Node.private, hz]
        | some k =>
          right; right
          have hk2 : labelCoeff (coeffs q (1 : F)) x.2 = k.2 := by simp [labelCoeff, hz]
          simp only [decryptStep, SecretKey.getPrivate, hfind, Ciphertext.getPublic, hcf, hnode, Node.public,
            Node.private, Res.unwrapOption_some, Res.ok_bind, Res.unwrap_ok, hz, hk2, Res.ok.injEq, ← hw2]
          congr 1
          match_scalars
          field_simp) 0
  have hsum : ∀ (L : List (Str × Str)) (a : F), L.foldl (fun (acc : Gt) x =>
      acc + (labelCoeff (coeffs q (1 : F)) x.2 * namedShare p msk.s t₂.fr x.1 * t₃.fr 0) • t₁.gt 0) (a • t₁.gt 0) =
      (a + t₃.fr 0 * readSum p msk.s t₂.fr (coeffs q 1) L) • t₁.gt 0 := by
    intro L
    induction L with
    | nil => intro a; simp [readSum]
    | cons l L ih =>
      intro a
      rw [List.foldl_cons, ← add_smul, ih]
      simp only [readSum, List.map_cons, List.sum_cons]
      congr 1
      ring
  have h0 := hsum L 0
  rw [zero_smul, zero_add] at h0
  simp only [decrypt, hv, hc.names, hL, calcCoefficients_eq, Res.ok_bind, if_true, Res.unwrapOption_some, List.nil_append]
  rcases hfold with h | h | h
  · left; rw [h]; rfl
  · right; left; rw [h]; rfl
  · right; right
    rw [h, Res.ok_bind, h0, hσ]

/-- A policy and attributes meeting the hypotheses: the names have no underscore. -/
example : ∃ p, Denotes (chars% "\"A\" and \"B\"") .human p ∧ (chars% "\"A\" and \"B\"").length < 2 ^ 64 ∧
    Aw11.rename cut p = p ∧ (Aw11.rename cut p).sat [['A']] = false :=
  ⟨.gate .and [.leaf ['A'] 2, .leaf ['B'] 10], rfl, by decide,
    rename_eq_self _ _ (by simp [Pol.names, cut]), by simp [Aw11.rename, Aw11.renameL, cut]⟩

/-- **C93 is violated for YCT14, by chance**, as for LSW. -/
theorem C93_violated_yct14 : (do
    let x ← setup [['A'], ['B']] toyTape
    let y ← keygen x.1.2 (chars% "\"A\" and \"B\"") .human { toyTape with fr := fun _ => 0 }
    let z ← encrypt toyEnv x.1.1 [['A']] [7] toyTape
    .ok (decrypt toyEnv y.1 z.1, decrypt toyEnv { y.1 with policy := (chars% "\"A\"", .human) } z.1) :
      Res (Res Bytes × Res Bytes)) = .ok (.err, .ok [7]) := by decide +kernel

/-- **C93 is violated for YCT14, underscores**, as for LSW. -/
theorem C93_violated_yct14_underscore : (do
    let x ← setup [['A'], ['B']] toyTape
    let y ← keygen x.1.2 (chars% "\"A_1\"") .human { toyTape with fr := fun n => n + 1 }
    let z ← encrypt toyEnv x.1.1 [['A']] [7] toyTape
    .ok (decrypt toyEnv y.1 z.1, decrypt toyEnv { y.1 with policy := (chars% "\"A\"", .human) } z.1) :
      Res (Res Bytes × Res Bytes)) = .ok (.err, .ok [7]) := by decide +kernel

/-- With other random numbers the replacement does not help. -/
example : (do
    let x ← setup [['A'], ['B']] toyTape
    let y ← keygen x.1.2 (chars% "\"A\" and \"B\"") .human { toyTape with fr := fun n => n + 1 }
    let z ← encrypt toyEnv x.1.1 [['A']] [7] toyTape
    .ok (decrypt toyEnv y.1 z.1, decrypt toyEnv { y.1 with policy := (chars% "\"A\"", .human) } z.1) :
      Res (Res Bytes × Res Bytes)) = .ok (.err, .err) := by decide +kernel

end Yct14

namespace Ac17

omit [DecidableEq F] in
theorem sum_finset (n : ℕ) (f : ℕ → F) : ((List.range n).map f).sum = ∑ j ∈ Finset.range n, f j := by
  induction n with
  | zero => rfl
  | succ n ih => rw [List.range_succ, List.map_append, List.sum_append, ih, Finset.sum_range_succ]; simp

/-- The exponent that remains after a decryption with a stored policy. `κ`: the coefficients of the columns; `ρ`: names and
coefficients of further hash values; `σ`: the scalars drawn for the columns. -/
def residue (env : Env F G1 G2 Gt) (P : Params F) (r0 r1 s0 s1 : F) (σ : List F) (n : ℕ) (κ : ℕ → ℤ) (ρ : List (Str × ℤ)) :
    F :=
  ((κ 0 : ℤ) : F) * blind P s0 s1 +
  ((List.range n).map fun j => ((κ (j + 1) : ℤ) : F) * colX env P r0 r1 s0 s1 σ j).sum +
  (ρ.map fun x => ((x.2 : ℤ) : F) * mix env P r0 r1 s0 s1 x.1).sum

omit [DecidableEq F] in
/-- The deviation of a decryption, with the columns and the hash values collected. -/
theorem kpExcess_residue (env : Env F G1 G2 Gt) (P : Params F) (r0 r1 s0 s1 : F) (σ : List F) (rows : List (Str × List ℤ))
    (n : ℕ) (attrs used : List Str) (hu : ∀ a ∈ used, a ∈ attrs) :
    kpExcess env P r0 r1 s0 s1 σ rows n attrs used = -residue env P r0 r1 s0 s1 σ n (colCoeff rows used)
      (attrs.dedup.map fun a => (a, (used.count a : ℤ) * (((rows.map Prod.fst).count a : ℤ) - (attrs.count a : ℤ)))) := by
  rw [kpExcess, residue]
  generalize mix env P r0 r1 s0 s1 = M
  generalize blind P s0 s1 = B
  generalize colX env P r0 r1 s0 s1 σ = X
  have h1 := sum_swap rows (List.range n) (fun x => (used.count x.1 : ℤ)) (fun x j => x.2.getD (j + 1) 0) X
  have h3 := sum_grouped (List.nodup_dedup attrs) (fun a => (used.count a : F) * M a) (rows.map Prod.fst) (by
    intro a _ ha
    rw [List.mem_dedup] at ha
    rw [List.count_eq_zero.2 fun h => ha (hu a h)]
    simp)
  have h4 := sum_grouped (List.nodup_dedup attrs) (fun a => (used.count a : F) * M a) attrs (by
    intro a ha ha'
    exact absurd (List.mem_dedup.2 ha) ha')
  have h5 : (rows.map fun x => (used.count x.1 : F) * (((x.2.getD 0 0 : ℤ) : F) * B)).sum =
      (((rows.map fun x => (used.count x.1 : ℤ) * x.2.getD 0 0).sum : ℤ) : F) * B := by
    clear h1 h3 h4
    induction rows with
    | nil => simp
    | cons x xs ih =>
      simp only [List.map_cons, List.sum_cons, ih]
      push_cast
      ring
  rw [List.map_map] at h3
  have hsub : ∀ {α : Type} (L : List α) (f g : α → F), (L.map fun x => f x - g x).sum = (L.map f).sum - (L.map g).sum := by
    intro α L f g
    induction L with
    | nil => simp
    | cons x xs ih => simp only [List.map_cons, List.sum_cons, ih]; ring
  simp only [List.map_map, Function.comp_def, colCoeff, Int.cast_sub, sub_mul, mul_add, List.sum_map_add, hsub,
    Int.cast_mul, mul_sub, Int.cast_natCast, if_true, Nat.add_eq_zero_iff, one_ne_zero, and_false, if_false, sub_zero,
    Int.cast_one, one_mul] at h1 h3 h5 ⊢
  rw [h1, h3, h4, h5]
  have e : ∀ k : Str → ℕ, (attrs.dedup.map fun a => (used.count a : F) * (k a : F) * M a) =
      attrs.dedup.map fun a => (k a : F) * ((used.count a : F) * M a) :=
    fun k => List.map_congr_left fun a _ => by ring
  rw [e, e]
  ring

omit [DecidableEq F] in
/-- Two lists of column scalars that differ at `i` only, all later columns having the coefficient zero. -/
theorem residue_sub (env : Env F G1 G2 Gt) (P : Params F) (r0 r1 s0 s1 : F) (σ τ : List F) (n : ℕ) (κ : ℕ → ℤ)
    (ρ : List (Str × ℤ)) {i : ℕ} (hi : i < n) (hlast : ∀ j < n, i < j → ((κ (j + 1) : ℤ) : F) = 0)
    (heq : ∀ j, j ≠ i → σ.getD j 0 = τ.getD j 0) :
    residue env P r0 r1 s0 s1 σ n κ ρ - residue env P r0 r1 s0 s1 τ n κ ρ =
      -(((κ (i + 1) : ℤ) : F) * (s0 * (P.a0 + 1) + s1 * (P.a1 + 1)) * (σ.getD i 0 - τ.getD i 0)) := by
  have hcol : ∀ j < i, colX env P r0 r1 s0 s1 σ j = colX env P r0 r1 s0 s1 τ j := by
    intro j hj
    rw [colX, colX, heq j (by omega)]
    congr 2
    refine List.map_congr_left fun k hk => ?_
    rw [heq k (by have := List.mem_range.1 hk; omega)]
  have hi' : colX env P r0 r1 s0 s1 σ i - colX env P r0 r1 s0 s1 τ i =
      -((s0 * (P.a0 + 1) + s1 * (P.a1 + 1)) * (σ.getD i 0 - τ.getD i 0)) := by
    rw [colX, colX, List.range_succ, List.map_append, List.map_append, List.sum_append, List.sum_append]
    have : ((List.range i).map fun k => mix env P r0 r1 s0 s1 (colName (k + 1)) - (s0 * P.a0 + s1 * P.a1) * σ.getD k 0) =
        (List.range i).map fun k => mix env P r0 r1 s0 s1 (colName (k + 1)) - (s0 * P.a0 + s1 * P.a1) * τ.getD k 0 :=
      List.map_congr_left fun k hk => by rw [heq k (by have := List.mem_range.1 hk; omega)]
    rw [this]
    simp only [List.map_cons, List.map_nil, List.sum_cons, List.sum_nil]
    ring
  have hs : (∑ j ∈ Finset.range n, ((κ (j + 1) : ℤ) : F) * colX env P r0 r1 s0 s1 σ j) -
      ∑ j ∈ Finset.range n, ((κ (j + 1) : ℤ) : F) * colX env P r0 r1 s0 s1 τ j =
      ((κ (i + 1) : ℤ) : F) * (colX env P r0 r1 s0 s1 σ i - colX env P r0 r1 s0 s1 τ i) := by
    rw [← Finset.sum_sub_distrib, Finset.sum_eq_single i]
    · ring
    · intro j hj hne
      by_cases hlt : j < i
      · rw [hcol j hlt]; ring
      · rw [hlast j (Finset.mem_range.1 hj) (by omega)]; ring
    · intro h; exact absurd (Finset.mem_range.2 hi) h
  simp only [residue, sum_finset]
  linear_combination hs + ((κ (i + 1) : ℤ) : F) * hi'

/-- The last column with a coefficient that is not zero. -/
theorem exists_last {n : ℕ} {Q : ℕ → Prop} (h : ∃ j < n, Q j) : ∃ i < n, Q i ∧ ∀ j < n, i < j → ¬ Q j := by
  induction n with
  | zero => obtain ⟨j, hj, _⟩ := h; omega
  | succ n ih =>
    by_cases hn : Q n
    · exact ⟨n, by omega, hn, fun j hj hlt => by omega⟩
    · obtain ⟨j, hj, hq⟩ := h
      have hj' : j < n := by
        rcases Nat.lt_succ_iff_lt_or_eq.1 hj with h | rfl
        · exact h
        · exact absurd hq hn
      obtain ⟨i, hi, hq, hl⟩ := ih ⟨j, hj', hq⟩
      refine ⟨i, by omega, hq, fun k hk hlt => ?_⟩
      rcases Nat.lt_succ_iff_lt_or_eq.1 hk with h | rfl
      · exact hl k h hlt
      · exact hn

/-- **C93, AC17 KP-ABE, partial.** A key policy, attributes of ciphertexts that do not satisfy it, any replacement of the
policy text in the key. There are integer coefficients of the columns, not all of them zero in the field, and of further hash
values, independent of all keys and random numbers, such that whatever `kp_decrypt` recovers is the session element minus
their combination (`residue`). So the replacement works only if this combination vanishes: for at most one value of one of the
scalars that key generation draws for the columns, or, if the first column alone remains, for at most one value of the last
exponent of the master key. (Full claim: it never works; false, see `C93_violated_ac17`.) -/
theorem C93_ac17_kp_stored_policy_partial (text : Str) (lang : PolicyLanguage) (p : Pol) (hp : Denotes text lang p)
    (attrs : List Str) (hsat : p.sat attrs = false) (stored : Str × PolicyLanguage) :
    ∃ (n : ℕ) (κ : ℕ → ℤ) (ρ : List (Str × ℤ)), (∃ j ≤ n, ((κ j : ℤ) : F) ≠ 0) ∧
      (∀ (env : Env F G1 G2 Gt) (t₁ t₁' t₂ t₂' t₃ t₃' : Tape F G1 G2 Gt) (pk : PublicKey G1 G2 Gt) (msk : MasterKey F G1 G2)
        (sk : KpSecretKey G1 G2) (plaintext : Bytes) (ct : KpCiphertext G1 G2 Gt) (m : Gt),
        setup env t₁ = .ok ((pk, msk), t₁') → kpKeygen env msk text lang t₂ = .ok (sk, t₂') →
        kpEncrypt env pk attrs plaintext t₃ = .ok (ct, t₃') → kpRecover env { sk with policy := stored } ct = .ok m →
        m = t₃.gt 0 - residue env (drawn t₁) (t₂.fr 0) (t₂.fr 1) (t₃.fr 0) (t₃.fr 1)
          ((List.range n).map fun j => t₂.fr (2 + j)) n κ ρ • env.pair (t₁.g1 0) (t₁.g2 0)) ∧
      ((∀ j < n, ((κ (j + 1) : ℤ) : F) = 0) → ∀ (env : Env F G1 G2 Gt) (t₁ u₁ t₂ t₃ : Tape F G1 G2 Gt)
        (xt xu : (PublicKey G1 G2 Gt × MasterKey F G1 G2) × Tape F G1 G2 Gt) (yt yu : KpSecretKey G1 G2 × Tape F G1 G2 Gt)
        (zt zu : KpCiphertext G1 G2 Gt × Tape F G1 G2 Gt) (m m' : Bytes),
        (∀ k, k ≠ 6 → t₁.fr k = u₁.fr k) → t₁.g1 0 = u₁.g1 0 → t₁.g2 0 = u₁.g2 0 → env.pair (t₁.g1 0) (t₁.g2 0) ≠ 0 →
        t₃.fr 0 + t₃.fr 1 ≠ 0 →
        setup env t₁ = .ok xt → kpKeygen env xt.1.2 text lang t₂ = .ok yt → kpEncrypt env xt.1.1 attrs m t₃ = .ok zt →
        setup env u₁ = .ok xu → kpKeygen env xu.1.2 text lang t₂ = .ok yu → kpEncrypt env xu.1.1 attrs m' t₃ = .ok zu →
        kpRecover env { yt.1 with policy := stored } zt.1 = .ok (t₃.gt 0) →
        kpRecover env { yu.1 with policy := stored } zu.1 = .ok (t₃.gt 0) → t₁.fr 6 = u₁.fr 6) ∧
      ((∃ j < n, ((κ (j + 1) : ℤ) : F) ≠ 0) → ∃ i < n, ∀ (env : Env F G1 G2 Gt) (t₁ t₂ u₂ t₃ : Tape F G1 G2 Gt)
        (x : (PublicKey G1 G2 Gt × MasterKey F G1 G2) × Tape F G1 G2 Gt) (yt yu : KpSecretKey G1 G2 × Tape F G1 G2 Gt)
        (z : KpCiphertext G1 G2 Gt × Tape F G1 G2 Gt) (m : Bytes),
        (∀ k, k ≠ 2 + i → t₂.fr k = u₂.fr k) → env.pair (t₁.g1 0) (t₁.g2 0) ≠ 0 →
        t₃.fr 0 * (t₁.fr 0 + 1) + t₃.fr 1 * (t₁.fr 2 + 1) ≠ 0 →
        setup env t₁ = .ok x → kpKeygen env x.1.2 text lang t₂ = .ok yt → kpKeygen env x.1.2 text lang u₂ = .ok yu →
        kpEncrypt env x.1.1 attrs m t₃ = .ok z →
        kpRecover env { yt.1 with policy := stored } z.1 = .ok (t₃.gt 0) →
        kpRecover env { yu.1 with policy := stored } z.1 = .ok (t₃.gt 0) → t₂.fr (2 + i) = u₂.fr (2 + i)) := by
  -- the first part implies the others
  suffices h : ∃ (n : ℕ) (κ : ℕ → ℤ) (ρ : List (Str × ℤ)), (∃ j ≤ n, ((κ j : ℤ) : F) ≠ 0) ∧
      ∀ (env : Env F G1 G2 Gt) (t₁ t₁' t₂ t₂' t₃ t₃' : Tape F G1 G2 Gt) (pk : PublicKey G1 G2 Gt) (msk : MasterKey F G1 G2)
        (sk : KpSecretKey G1 G2) (plaintext : Bytes) (ct : KpCiphertext G1 G2 Gt) (m : Gt),
        setup env t₁ = .ok ((pk, msk), t₁') → kpKeygen env msk text lang t₂ = .ok (sk, t₂') →
        kpEncrypt env pk attrs plaintext t₃ = .ok (ct, t₃') → kpRecover env { sk with policy := stored } ct = .ok m →
        m = t₃.gt 0 - residue env (drawn t₁) (t₂.fr 0) (t₂.fr 1) (t₃.fr 0) (t₃.fr 1)
          ((List.range n).map fun j => t₂.fr (2 + j)) n κ ρ • env.pair (t₁.g1 0) (t₁.g2 0) by
    obtain ⟨n, κ, ρ, hne, h⟩ := h
    refine ⟨n, κ, ρ, hne, h, ?_, ?_⟩
    · intro hz env t₁ u₁ t₂ t₃ ⟨⟨pk, msk⟩, t₁'⟩ ⟨⟨pk', msk'⟩, u₁'⟩ ⟨yt, t₂'⟩ ⟨yu, u₂'⟩ ⟨zt, t₃'⟩ ⟨zu, u₃'⟩ m m' hk6 hg1 hg2
        hpair hs01 h1 h2 h3 h4 h5 h6 h7 h8
      have e1 := h env _ _ _ _ _ _ _ _ _ _ _ _ h1 h2 h3 h7
      have e2 := h env _ _ _ _ _ _ _ _ _ _ _ _ h4 h5 h6 h8
      rw [← hg1, ← hg2] at e2
      rw [eq_comm, sub_eq_self, smul_eq_zero, or_iff_left hpair] at e1 e2
      have hk0 : ((κ 0 : ℤ) : F) ≠ 0 := by
        obtain ⟨j, hj, hne⟩ := hne
        cases j with
        | zero => exact hne
        | succ j => exact absurd (hz j (by omega)) hne
      have hsum : ∀ X : ℕ → F, ((List.range n).map fun j => ((κ (j + 1) : ℤ) : F) * X j).sum = 0 := fun X =>
        List.sum_eq_zero fun y hy => by
          obtain ⟨j, hj, rfl⟩ := List.mem_map.1 hy
          rw [hz j (List.mem_range.1 hj), zero_mul]
      have hmix : ∀ x, mix env (drawn t₁) (t₂.fr 0) (t₂.fr 1) (t₃.fr 0) (t₃.fr 1) x =
          mix env (drawn u₁) (t₂.fr 0) (t₂.fr 1) (t₃.fr 0) (t₃.fr 1) x := by
        intro x
        simp only [mix, hs, drawn, hk6 0 (by decide), hk6 1 (by decide), hk6 2 (by decide), hk6 3 (by decide)]
      simp only [residue, hsum, hmix] at e1 e2
      have : ((κ 0 : ℤ) : F) * (t₃.fr 0 + t₃.fr 1) * (t₁.fr 6 - u₁.fr 6) = 0 := by
        have e := e1.trans e2.symm
        simp only [blind, drawn, hk6 0 (by decide), hk6 2 (by decide), hk6 4 (by decide), hk6 5 (by decide)] at e
        linear_combination e
      rcases mul_eq_zero.1 this with h | h
      · exact absurd h (mul_ne_zero hk0 hs01)
      · exact sub_eq_zero.1 h
    · intro hex
      obtain ⟨i, hi, hki, hlast⟩ := exists_last hex
      refine ⟨i, hi, ?_⟩
      intro env t₁ t₂ u₂ t₃ ⟨⟨pk, msk⟩, t₁'⟩ ⟨yt, t₂'⟩ ⟨yu, u₂'⟩ ⟨z, t₃'⟩ m hk hpair hs01 h1 h2 h3 h4 h5 h6
      have e1 := h env _ _ _ _ _ _ _ _ _ _ _ _ h1 h2 h4 h5
      have e2 := h env _ _ _ _ _ _ _ _ _ _ _ _ h1 h3 h4 h6
      rw [eq_comm, sub_eq_self, smul_eq_zero, or_iff_left hpair] at e1 e2
      rw [← hk 0 (by omega), ← hk 1 (by omega)] at e2
      have hget : ∀ (f : ℕ → F) j, ((List.range n).map f).getD j 0 = if j < n then f j else 0 := by
        intro f j
        by_cases hj : j < n <;> simp [List.getD, hj]
      have hsub := residue_sub env (drawn t₁) (t₂.fr 0) (t₂.fr 1) (t₃.fr 0) (t₃.fr 1)
        ((List.range n).map fun j => t₂.fr (2 + j)) ((List.range n).map fun j => u₂.fr (2 + j)) n κ ρ hi
        (fun j hj hij => not_not.1 (hlast j hj hij)) (by
          intro j hj
          rw [hget, hget, hk (2 + j) (by omega)])
      rw [e1, e2, sub_zero, eq_comm, neg_eq_zero, hget, hget, if_pos hi, if_pos hi] at hsub
      rcases mul_eq_zero.1 hsub with h | h
      · exact absurd h (mul_ne_zero hki hs01)
      · exact sub_eq_zero.1 h
  by_cases hb : p.Binary
  swap
  · refine ⟨0, fun _ => 1, [], ⟨0, by omega, by simp⟩, ?_⟩
    intro env t₁ t₁' t₂ t₂' t₃ t₃' pk msk sk pt ct m hsu hk
    exact absurd (kpKeygen_exact (setup_exact hsu).1 hp hk).1 hb
  obtain ⟨msp, R, hm, hc, -⟩ := calculateMsp_eq p hb
  have hcp : 0 < msp.c := by omega
  by_cases hst : attrs ≠ [] ∧ ∃ (v : PolicyValue) (L : List (Str × Str)), parse stored.1 stored.2 = .ok v ∧
      calcPruned attrs v none = .ok (true, L)
  swap
  · refine ⟨0, fun _ => 1, [], ⟨0, by omega, by simp⟩, ?_⟩
    intro env t₁ t₁' t₂ t₂' t₃ t₃' pk msk sk pt ct m hsu hk henc hrec
    obtain ⟨ha, -⟩ := kpEncrypt_exact (setup_exact hsu).1 henc
    simp only [kpRecover, Res.bind_eq_ok, ha] at hrec
    obtain ⟨v, hv, hrec⟩ := hrec
    split at hrec
    · simp at hrec
    · rename_i htr
      simp only [Res.bind_eq_ok] at hrec
      obtain ⟨⟨b, L⟩, hL, hrec⟩ := hrec
      cases b with
      | false => simp at hrec
      | true =>
        refine absurd ⟨?_, v, L, hv, hL⟩ hst
        rintro rfl
        exact htr (traverse_nil v _)
  obtain ⟨hne, v, L, hv, hL⟩ := hst
  obtain ⟨q, rfl, -⟩ := parse_ok hv
  have hown := calcPruned_ok_owned attrs q hL
  obtain ⟨K, rfl, hK⟩ : ∃ K : List (Str × ℕ), L = K.map leafKey ∧ ∀ y ∈ K, y.1 ∈ attrs := by
    clear hL
    induction L with
    | nil => exact ⟨[], rfl, by simp⟩
    | cons x xs ih =>
      obtain ⟨K, rfl, hK⟩ := ih fun y hy => hown y (by simp [hy])
      obtain ⟨y, rfl, hy⟩ := hown x (by simp)
      exact ⟨y :: K, rfl, by simpa [hy] using hK⟩
  have hu : ∀ n ∈ K.map Prod.fst, n ∈ attrs := by
    intro n hn
    obtain ⟨y, hy, rfl⟩ := List.mem_map.1 hn
    exact hK y hy
  obtain ⟨j, hj, hjne⟩ := colCoeff_ne F hp hm hcp hsat hu
  refine ⟨msp.c - 1, colCoeff (msp.pi.zip msp.m) (K.map Prod.fst),
    attrs.dedup.map fun a => (a, ((K.map Prod.fst).count a : ℤ) * ((((msp.pi.zip msp.m).map Prod.fst).count a : ℤ) -
      (attrs.count a : ℤ))), ⟨j, by omega, hjne⟩, ?_⟩
  intro env t₁ t₁' t₂ t₂' t₃ t₃' pk msk sk pt ct m hsu hk henc hrec
  obtain ⟨hss, hg, hh⟩ := setup_exact hsu
  obtain ⟨-, -, h0, h1, hk0, msp', hm', ps, hps, hkk⟩ := kpKeygen_exact hss hp hk
  obtain ⟨ha, hbody, hcc, -⟩ := kpEncrypt_exact hss henc
  rw [hm] at hm'
  obtain rfl := Res.ok.inj hm'
  subst ha
  have htr : traversePolicy ct.attr q.toValue .leaf = true := by
    rw [traverse_eq_sat ct.attr hne]
    exact (calcPruned_ok_sat ct.attr q hL).symm
  have := kpRecover_selected (sk := { sk with policy := stored }) h0 h1 hv hk0 hkk hbody hcc htr hL
  rw [hrec, Res.ok.injEq, hps, kpExcess_residue _ _ _ _ _ _ _ _ _ _ _ hu, hg, hh, neg_smul, ← sub_eq_add_neg] at this
  exact this

/-- A policy and attributes meeting the hypotheses; after the replacement by `"A"` the second column has the coefficient 1. -/
example : ∃ p, Denotes (chars% "\"A\" and \"B\"") .human p ∧ p.sat [['A']] = false ∧
    calculateMsp p.toValue = .ok ⟨[[1, 1], [0, -1]], [['A'], ['B']], 2⟩ ∧
    colCoeff [(['A'], [1, 1]), (['B'], [0, -1])] [['A']] 0 = 0 ∧ colCoeff [(['A'], [1, 1]), (['B'], [0, -1])] [['A']] 1 = 1 :=
  ⟨.gate .and [.leaf ['A'] 2, .leaf ['B'] 10], rfl, by decide, rfl, by decide, by decide⟩

/-- **C93 is violated for AC17 KP-ABE, by chance.** When the random numbers of the key are zero, a key for `"A" and "B"` opens a
ciphertext for `A` after the text in the key is replaced. -/
theorem C93_violated_ac17 : (do
    let x ← setup toyEnv toyTape
    let y ← kpKeygen toyEnv x.1.2 (chars% "\"A\" and \"B\"") .human { toyTape with fr := fun _ => 0 }
    let z ← kpEncrypt toyEnv x.1.1 [['A']] [7] toyTape
    .ok (kpDecrypt toyEnv y.1 z.1, kpDecrypt toyEnv { y.1 with policy := (chars% "\"A\"", .human) } z.1) :
      Res (Res Bytes × Res Bytes)) = .ok (.err, .ok [7]) := by decide +kernel

/-- With other random numbers the replacement does not help. -/
example : (do
    let x ← setup toyEnv toyTape
    let y ← kpKeygen toyEnv x.1.2 (chars% "\"A\" and \"B\"") .human { toyTape with fr := fun n => n + 1 }
    let z ← kpEncrypt toyEnv x.1.1 [['A']] [7] toyTape
    .ok (kpDecrypt toyEnv y.1 z.1, kpDecrypt toyEnv { y.1 with policy := (chars% "\"A\"", .human) } z.1) :
      Res (Res Bytes × Res Bytes)) = .ok (.err, .err) := by decide +kernel

end Ac17
end Rabe
