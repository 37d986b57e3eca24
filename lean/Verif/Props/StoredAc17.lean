import Verif.Props.OutcomeAc17
import Verif.Props.StoredPolicy
import Verif.Props.Msp

/-!
# C49: AC17 CP-ABE, replacing the stored policy

What `cp_decrypt` recovers after the stored policy is replaced is the session element plus a multiple of the pairing of the
generators. The factor is an integer combination of hash values of pairwise different names, mixed with the random numbers of
key and ciphertext; for a key that does not satisfy the policy of the encryption the combination is not empty.
-/

namespace Rabe
namespace Ac17

variable {F G1 G2 Gt : Type} [Field F] [DecidableEq F] [AddCommGroup G1] [Module F G1]
  [AddCommGroup G2] [Module F G2] [AddCommGroup Gt] [Module F Gt]

theorem colName_inj {i j : ℕ} (h : colName i = colName j) : i = j := by
  simp only [colName, List.cons.injEq, true_and] at h
  exact natStr_inj h

omit [DecidableEq F] in
theorem sum_single {D : List Str} (hD : D.Nodup) {n : Str} (hn : n ∈ D) (f : Str → F) :
    (D.map fun a => (if n = a then 1 else 0) * f a).sum = f n := by
  induction D with
  | nil => simp at hn
  | cons d ds ih =>
    rw [List.nodup_cons] at hD
    rw [List.map_cons, List.sum_cons]
    by_cases h : n = d
    · subst h
      have : (ds.map fun a => (if n = a then (1 : F) else 0) * f a).sum = 0 := by
        refine List.sum_eq_zero fun x hx => ?_
        obtain ⟨a, ha, rfl⟩ := List.mem_map.1 hx
        have : n ≠ a := fun h => hD.1 (h ▸ ha)
        simp [this]
      rw [this]; simp
    · have hn' : n ∈ ds := by simpa [h] using hn
      rw [ih hD.2 hn']; simp [h]

omit [DecidableEq F] in
/-- A sum over names, grouped by name. -/
theorem sum_grouped {D : List Str} (hD : D.Nodup) (f : Str → F) (xs : List Str) (h : ∀ n ∈ xs, n ∉ D → f n = 0) :
    (xs.map f).sum = (D.map fun a => (xs.count a : F) * f a).sum := by
  induction xs with
  | nil => simp
  | cons x xs ih =>
    rw [List.map_cons, List.sum_cons, ih fun n hn => h n (by simp [hn])]
    have hx : f x = (D.map fun a => (if x = a then 1 else 0) * f a).sum := by
      by_cases hx : x ∈ D
      · exact (sum_single hD hx f).symm
      · rw [h x (by simp) hx, eq_comm]
        refine List.sum_eq_zero fun y hy => ?_
        obtain ⟨a, ha, rfl⟩ := List.mem_map.1 hy
        have : x ≠ a := fun h => hx (h ▸ ha)
        simp [this]
    rw [hx, ← List.sum_map_add]
    congr 1
    refine List.map_congr_left fun a _ => ?_
    rw [List.count_cons, ← add_mul]
    by_cases hxa : x = a
    · simp only [hxa, if_true, beq_self_eq_true]; push_cast; ring
    · simp [hxa]

/-- The coefficient of column `j`: what the selected rows add up to, minus the entry of the target vector. -/
def colCoeff (rows : List (Str × List ℤ)) (used : List Str) (j : ℕ) : ℤ :=
  (rows.map fun x => (used.count x.1 : ℤ) * x.2.getD j 0).sum - if j = 0 then 1 else 0

/-- Names and integer coefficients of the hash values that remain after a decryption with the selected names `used`. -/
def remainder (rows : List (Str × List ℤ)) (cols : ℕ) (attrs used : List Str) : List (Str × ℤ) :=
  ((List.range cols).map fun j => (colName (j + 1), colCoeff rows used j)) ++
  attrs.dedup.map fun a => (a, (used.count a : ℤ) * (((rows.map Prod.fst).count a : ℤ) - (attrs.count a : ℤ)))

theorem remainder_nodup (rows : List (Str × List ℤ)) (cols : ℕ) (attrs used : List Str)
    (hcol : ∀ j, colName (j + 1) ∉ attrs) : ((remainder rows cols attrs used).map Prod.fst).Nodup := by
  have e : (remainder rows cols attrs used).map Prod.fst = (List.range cols).map (fun j => colName (j + 1)) ++ attrs.dedup := by
    simp [remainder, Function.comp_def]
  rw [e, List.nodup_append]
  refine ⟨(List.nodup_range).map fun i j h => by have := colName_inj h; omega, List.nodup_dedup _, ?_⟩
  rintro _ h1 b h2 rfl
  obtain ⟨j, _, rfl⟩ := List.mem_map.1 h1
  exact hcol j (List.mem_dedup.1 h2)

omit [DecidableEq F] in
theorem sum_swap {α β : Type} (rows : List α) (L : List β) (a : α → ℤ) (b : α → β → ℤ) (m : β → F) :
    (rows.map fun x => ((a x : ℤ) : F) * (L.map fun j => ((b x j : ℤ) : F) * m j).sum).sum =
      (L.map fun j => (((rows.map fun x => a x * b x j).sum : ℤ) : F) * m j).sum := by
  induction rows with
  | nil => simp
  | cons x xs ih =>
    rw [List.map_cons, List.sum_cons, ih, ← List.sum_map_mul_left, ← List.sum_map_add]
    congr 1
    refine List.map_congr_left fun j _ => ?_
    rw [List.map_cons, List.sum_cons]
    push_cast
    ring

omit [DecidableEq F] in
theorem sum_first (cols : ℕ) (h : 0 < cols) (m : ℕ → F) :
    ((List.range cols).map fun j => (((if j = 0 then 1 else 0 : ℤ)) : F) * m j).sum = m 0 := by
  obtain ⟨n, rfl⟩ : ∃ n, cols = n + 1 := ⟨cols - 1, by omega⟩
  rw [List.range_succ_eq_map, List.map_cons, List.sum_cons, List.map_map]
  have : ((List.range n).map ((fun j => (((if j = 0 then 1 else 0 : ℤ)) : F) * m j) ∘ Nat.succ)).sum = 0 :=
    List.sum_eq_zero fun x hx => by
      obtain ⟨j, _, rfl⟩ := List.mem_map.1 hx
      simp
  rw [this]
  simp

omit [DecidableEq F] in
/-- The deviation of a decryption, with the hash values collected by name. -/
theorem cpExcess_remainder (env : Env F G1 G2 Gt) (P : Params F) (r0 r1 s0 s1 : F) (rows : List (Str × List ℤ)) (cols : ℕ)
    (hcols : 0 < cols) (attrs used : List Str) (hu : ∀ n ∈ used, n ∈ attrs) :
    cpExcess env P r0 r1 s0 s1 rows cols attrs used =
      ((remainder rows cols attrs used).map fun x => ((x.2 : ℤ) : F) * mix env P r0 r1 s0 s1 x.1).sum := by
  have h01 : mix env P r0 r1 s0 s1 (chars% "01") = mix env P r0 r1 s0 s1 (colName (0 + 1)) := rfl
  rw [cpExcess, h01]
  generalize mix env P r0 r1 s0 s1 = M
  have h1 := sum_swap rows (List.range cols) (fun x => (used.count x.1 : ℤ)) (fun x j => x.2.getD j 0)
    (fun j => M (colName (j + 1)))
  have h2 := sum_first cols hcols fun j => M (colName (j + 1))
  have h3 := sum_grouped (List.nodup_dedup attrs) (fun n => (used.count n : F) * M n) (rows.map Prod.fst) (by
    intro n _ hn
    rw [List.mem_dedup] at hn
    rw [List.count_eq_zero.2 fun h => hn (hu n h)]
    simp)
  have h4 := sum_grouped (List.nodup_dedup attrs) (fun n => (used.count n : F) * M n) attrs (by
    intro n hn hn'
    exact absurd (List.mem_dedup.2 hn) hn')
  rw [List.map_map] at h3
  have hsub : ∀ {α : Type} (L : List α) (f g : α → F), (L.map fun x => f x - g x).sum = (L.map f).sum - (L.map g).sum := by
    intro α L f g
    induction L with
    | nil => simp
    | cons x xs ih => simp only [List.map_cons, List.sum_cons, ih]; ring
  simp only [remainder, List.map_append, List.sum_append, List.map_map, Function.comp_def, colCoeff, Int.cast_sub, sub_mul,
    mul_add, List.sum_map_add, hsub, Int.cast_mul, mul_sub, Int.cast_natCast] at h1 h3 ⊢
  rw [h1, h2, h3, h4]
  have e : ∀ k : Str → ℕ, (attrs.dedup.map fun a => (used.count a : F) * (k a : F) * M a) =
      attrs.dedup.map fun a => (k a : F) * ((used.count a : F) * M a) :=
    fun k => List.map_congr_left fun a _ => by ring
  rw [e, e]
  ring

theorem sum_rows (rows : List (Str × List ℤ)) (a : Str × List ℤ → ℤ) (w : ℕ → ℤ) (c : ℕ) :
    ∑ j ∈ Finset.range c, (rows.map fun x => a x * x.2.getD j 0).sum * w j =
      (rows.map fun x => a x * ∑ j ∈ Finset.range c, x.2.getD j 0 * w j).sum := by
  induction rows with
  | nil => simp
  | cons x xs ih =>
    simp only [List.map_cons, List.sum_cons, add_mul, Finset.sum_add_distrib, ih, Finset.mul_sum, mul_assoc]

/-- Some column keeps a coefficient that is not zero in the field, if the selected names do not satisfy the policy. -/
theorem colCoeff_ne (F : Type) [Field F] {text : Str} {lang : PolicyLanguage} {p : Pol} {msp : AbePolicy}
    (hp : Denotes text lang p) (hm : calculateMsp p.toValue = .ok msp) (hc : 0 < msp.c) {A used : List Str}
    (hA : p.sat A = false) (hu : ∀ n ∈ used, n ∈ A) :
    ∃ j < msp.c, ((colCoeff (msp.pi.zip msp.m) used j : ℤ) : F) ≠ 0 := by
  have hf : AbePolicy.fromLanguage text lang = .ok msp := by
    have hp' : parse text lang = .ok p.toValue := hp
    rw [AbePolicy.fromLanguage, hp', Res.ok_bind, hm]
  obtain ⟨q, hq, hw⟩ := C16_span_program_sound_witness text lang msp hf
  have : q = p := toValue_inj _ _ (Res.ok.inj ((Eq.symm hq).trans hp))
  subst this
  obtain ⟨w, hw0, hw⟩ := hw A hA
  have hsum : ∑ j ∈ Finset.range msp.c, colCoeff (msp.pi.zip msp.m) used j * w j = -1 := by
    simp only [colCoeff, sub_mul, Finset.sum_sub_distrib, sum_rows]
    have h0 : ((msp.pi.zip msp.m).map fun x => (used.count x.1 : ℤ) *
        ∑ j ∈ Finset.range msp.c, x.2.getD j 0 * w j).sum = 0 := by
      refine List.sum_eq_zero fun y hy => ?_
      obtain ⟨x, hx, rfl⟩ := List.mem_map.1 hy
      by_cases hxu : x.1 ∈ used
      · rw [hw x hx (hu _ hxu), mul_zero]
      · rw [List.count_eq_zero.2 hxu]; simp
    rw [h0, Finset.sum_eq_single 0]
    · simp [hw0]
    · intro j _ hj; simp [hj]
    · intro h; exact absurd (Finset.mem_range.2 hc) h
  by_contra hcon
  simp only [not_exists, not_and, not_not] at hcon
  have := congrArg (fun z : ℤ => (z : F)) hsum
  simp only [Int.cast_sum, Int.cast_mul] at this
  rw [Finset.sum_eq_zero fun j hj => by rw [hcon j (Finset.mem_range.1 hj), zero_mul]] at this
  simp at this

/-- **C49, AC17 CP-ABE, partial.** A policy of an encryption, attributes that do not satisfy it and are not named like matrix
columns (see C50), any replacement of the stored policy. There are integer coefficients for pairwise different names, not all
of them zero in the field and independent of all keys and random numbers, such that whatever `cp_decrypt` recovers is the
session element plus the combination of the hash values of these names, mixed with the random numbers of key and ciphertext.
So the replacement works only if this combination vanishes, and then for one value of the first random number of the encryption
at most. (Full claim: it never works; false, see `C49_violated_ac17`.) -/
theorem C49_ac17_cp_stored_policy_partial (text : Str) (lang : PolicyLanguage) (p : Pol) (hp : Denotes text lang p)
    (attrs : List Str) (hsat : p.sat attrs = false) (hcol : ∀ j, colName (j + 1) ∉ attrs) (stored : Str × PolicyLanguage) :
    ∃ terms : List (Str × ℤ), (terms.map Prod.fst).Nodup ∧ (∃ x ∈ terms, ((x.2 : ℤ) : F) ≠ 0) ∧
      ∀ (env : Env F G1 G2 Gt) (t₁ t₁' t₂ t₂' : Tape F G1 G2 Gt) (pk : PublicKey G1 G2 Gt) (msk : MasterKey F G1 G2)
        (sk : CpSecretKey G1 G2),
        setup env t₁ = .ok ((pk, msk), t₁') → cpKeygen env msk attrs t₂ = .ok (sk, t₂') →
        (∀ (t₃ t₃' : Tape F G1 G2 Gt) (plaintext : Bytes) (ct : CpCiphertext G1 G2 Gt) (m : Gt),
          cpEncrypt env pk text plaintext lang t₃ = .ok (ct, t₃') →
          cpRecover env sk { ct with policy := stored } = .ok m →
          m = t₃.gt 0 + (terms.map fun x => ((x.2 : ℤ) : F) *
            mix env (drawn t₁) (t₂.fr 0) (t₂.fr 1) (t₃.fr 0) (t₃.fr 1) x.1).sum • env.pair (t₁.g1 0) (t₁.g2 0)) ∧
        (env.pair (t₁.g1 0) (t₁.g2 0) ≠ 0 →
          (terms.map fun x => ((x.2 : ℤ) : F) * hs env x.1 (drawn t₁) (t₂.fr 0) (t₂.fr 1) 0).sum ≠ 0 →
          ∀ (t₃ t₃' t₄ t₄' : Tape F G1 G2 Gt) (m n : Bytes) (c d : CpCiphertext G1 G2 Gt), t₃.fr 1 = t₄.fr 1 →
          cpEncrypt env pk text m lang t₃ = .ok (c, t₃') → cpEncrypt env pk text n lang t₄ = .ok (d, t₄') →
          cpRecover env sk { c with policy := stored } = .ok (t₃.gt 0) →
          cpRecover env sk { d with policy := stored } = .ok (t₄.gt 0) → t₃.fr 0 = t₄.fr 0) := by
  -- the first part implies the second
  suffices h : ∃ terms : List (Str × ℤ), (terms.map Prod.fst).Nodup ∧ (∃ x ∈ terms, ((x.2 : ℤ) : F) ≠ 0) ∧
      ∀ (env : Env F G1 G2 Gt) (t₁ t₁' t₂ t₂' : Tape F G1 G2 Gt) (pk : PublicKey G1 G2 Gt) (msk : MasterKey F G1 G2)
        (sk : CpSecretKey G1 G2),
        setup env t₁ = .ok ((pk, msk), t₁') → cpKeygen env msk attrs t₂ = .ok (sk, t₂') →
        ∀ (t₃ t₃' : Tape F G1 G2 Gt) (plaintext : Bytes) (ct : CpCiphertext G1 G2 Gt) (m : Gt),
          cpEncrypt env pk text plaintext lang t₃ = .ok (ct, t₃') →
          cpRecover env sk { ct with policy := stored } = .ok m →
          m = t₃.gt 0 + (terms.map fun x => ((x.2 : ℤ) : F) *
            mix env (drawn t₁) (t₂.fr 0) (t₂.fr 1) (t₃.fr 0) (t₃.fr 1) x.1).sum • env.pair (t₁.g1 0) (t₁.g2 0) by
    obtain ⟨terms, h1, h2, h3⟩ := h
    refine ⟨terms, h1, h2, fun env t₁ t₁' t₂ t₂' pk msk sk hsu hk => ⟨h3 env t₁ t₁' t₂ t₂' pk msk sk hsu hk, ?_⟩⟩
    intro hg hne t₃ t₃' t₄ t₄' m n c d h1 hc hd hm hn
    have key : ∀ {t : Tape F G1 G2 Gt}, t.gt 0 = t.gt 0 + (terms.map fun x => ((x.2 : ℤ) : F) *
        mix env (drawn t₁) (t₂.fr 0) (t₂.fr 1) (t.fr 0) (t.fr 1) x.1).sum • env.pair (t₁.g1 0) (t₁.g2 0) →
        t.fr 0 * (terms.map fun x => ((x.2 : ℤ) : F) * hs env x.1 (drawn t₁) (t₂.fr 0) (t₂.fr 1) 0).sum =
          -(t.fr 1 * (terms.map fun x => ((x.2 : ℤ) : F) * hs env x.1 (drawn t₁) (t₂.fr 0) (t₂.fr 1) 1).sum) := by
      intro t h
      rw [left_eq_add, smul_eq_zero, or_iff_left hg] at h
      simp only [mix] at h
      rw [sum_two] at h
      exact eq_neg_of_add_eq_zero_left h
    have e3 := key (h3 env t₁ t₁' t₂ t₂' pk msk sk hsu hk _ _ _ _ _ hc hm)
    have e4 := key (h3 env t₁ t₁' t₂ t₂' pk msk sk hsu hk _ _ _ _ _ hd hn)
    rw [h1, ← e4] at e3
    exact mul_right_cancel₀ hne e3
  by_cases hb : p.Binary
  swap
  · refine ⟨[(chars% "01", 1)], by simp, ⟨_, List.mem_singleton.2 rfl, by simp⟩, ?_⟩
    intro env t₁ t₁' t₂ t₂' pk msk sk hs hk t₃ t₃' pt ct m henc
    exact absurd (cpEncrypt_exact (setup_exact hs).1 hp henc).1 hb
  obtain ⟨msp, R, hm, hc, -⟩ := calculateMsp_eq p hb
  have hcp : 0 < msp.c := by omega
  by_cases hst : ∃ (v : PolicyValue) (L : List (Str × Str)), parse stored.1 stored.2 = .ok v ∧
      calcPruned attrs v none = .ok (true, L)
  swap
  · refine ⟨[(chars% "01", 1)], by simp, ⟨_, List.mem_singleton.2 rfl, by simp⟩, ?_⟩
    intro env t₁ t₁' t₂ t₂' pk msk sk hs hk t₃ t₃' pt ct m henc hrec
    obtain ⟨hne, σ, hkk⟩ := cpKeygen_exact (setup_exact hs).1 hk
    simp only [cpRecover, Res.bind_eq_ok, hkk.attr] at hrec
    obtain ⟨v, hv, hrec⟩ := hrec
    split at hrec
    · simp at hrec
    · simp only [Res.bind_eq_ok] at hrec
      obtain ⟨⟨b, L⟩, hL, hrec⟩ := hrec
      cases b with
      | false => simp at hrec
      | true => exact absurd ⟨v, L, hv, hL⟩ hst
  obtain ⟨v, L, hv, hL⟩ := hst
  obtain ⟨q, rfl, -⟩ := parse_ok hv
  have hown := calcPruned_ok_owned attrs q hL
  obtain ⟨K, rfl, hK⟩ : ∃ K : List (Str × ℕ), L = K.map leafKey ∧ ∀ y ∈ K, y.1 ∈ attrs := by
    clear hL
    induction L with
    | nil => exact ⟨[], rfl, by simp⟩
    | cons x xs ih =>
      obtain ⟨K, rfl, hK⟩ := ih fun y hy => hown y (by simp [hy])
      obtain ⟨y, rfl, hy⟩ := hown x (by simp)
      exact ⟨y :: K, rfl, by simpa [hy] using hK⟩
  have hu : ∀ n ∈ K.map Prod.fst, n ∈ attrs := by
    intro n hn
    obtain ⟨y, hy, rfl⟩ := List.mem_map.1 hn
    exact hK y hy
  refine ⟨remainder (msp.pi.zip msp.m) msp.c attrs (K.map Prod.fst), remainder_nodup _ _ _ _ hcol, ?_, ?_⟩
  · obtain ⟨j, hj, hne⟩ := colCoeff_ne F hp hm hcp hsat hu
    exact ⟨_, List.mem_append_left _ (List.mem_map.2 ⟨j, List.mem_range.2 hj, rfl⟩), hne⟩
  · intro env t₁ t₁' t₂ t₂' pk msk sk hs hk t₃ t₃' pt ct m henc hrec
    obtain ⟨hs, hg, hh⟩ := setup_exact hs
    obtain ⟨hne, σ, hkk⟩ := cpKeygen_exact hs hk
    obtain ⟨-, -, msp', hm', hbody, hcc, -⟩ := cpEncrypt_exact hs hp henc
    rw [hm] at hm'
    obtain rfl := Res.ok.inj hm'
    have htr : traversePolicy attrs q.toValue .leaf = true := by
      rw [traverse_eq_sat attrs hne]
      exact (calcPruned_ok_sat attrs q hL).symm
    have := cpRecover_selected (ct := { ct with policy := stored }) hkk hv hbody hcc htr hL
    rw [hrec, Res.ok.injEq, cpExcess_remainder _ _ _ _ _ _ _ _ hcp _ _ hu, hg, hh] at this
    exact this

/-- A policy and attributes meeting the hypotheses; the remainder after the replacement by `"A"` has the coefficient 1 for the
second column. -/
example : ∃ p, Denotes (chars% "\"A\" and \"B\"") .human p ∧ p.sat [['A']] = false ∧ (∀ j, colName (j + 1) ∉ [['A']]) ∧
    calculateMsp p.toValue = .ok ⟨[[1, 1], [0, -1]], [['A'], ['B']], 2⟩ ∧
    remainder [(['A'], [1, 1]), (['B'], [0, -1])] 2 [['A']] [['A']] =
      [(chars% "01", 0), (chars% "02", 1), (['A'], 0)] :=
  ⟨.gate .and [.leaf ['A'] 2, .leaf ['B'] 10], rfl, by decide, by simp [colName], rfl, by decide +kernel⟩

/-- **C49 is violated for AC17 by chance.** When both random numbers of the key are zero, a key for `A` alone opens a message
for `"A" and "B"` after the stored policy is replaced. -/
theorem C49_violated_ac17 : (do
    let x ← setup toyEnv toyTape
    let y ← cpKeygen toyEnv x.1.2 [['A']] { toyTape with fr := fun n => if n < 2 then 0 else 3 }
    let z ← cpEncrypt toyEnv x.1.1 (chars% "\"A\" and \"B\"") [7] .human toyTape
    .ok (cpDecrypt toyEnv y.1 z.1, cpDecrypt toyEnv y.1 { z.1 with policy := (chars% "\"A\"", .human) }) :
      Res (Res Bytes × Res Bytes)) = .ok (.err, .ok [7]) := by decide +kernel

/-- With other random numbers the replacement does not help. -/
example : (do
    let x ← setup toyEnv toyTape
    let y ← cpKeygen toyEnv x.1.2 [['A']] toyTape
    let z ← cpEncrypt toyEnv x.1.1 (chars% "\"A\" and \"B\"") [7] .human toyTape
    .ok (cpDecrypt toyEnv y.1 z.1, cpDecrypt toyEnv y.1 { z.1 with policy := (chars% "\"A\"", .human) }) :
      Res (Res Bytes × Res Bytes)) = .ok (.err, .err) := by decide +kernel

end Ac17
end Rabe
