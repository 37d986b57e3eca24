import Verif.Props.Collusion
import Verif.Props.Ghw11

/-!
# C49: BSW and GHW11, replacing the stored policy
-/

set_option linter.unusedSectionVars false

namespace Rabe

variable {F G1 G2 Gt : Type} [Field F] [DecidableEq F] [AddCommGroup G1] [Module F G1]
  [AddCommGroup G2] [Module F G2] [AddCommGroup Gt] [Module F Gt]

/-- Whatever the widths of the gates: pruning selects leaves with owned attributes. -/
theorem calcPruned_ok_owned (A : List Str) : ∀ p : Pol, ∀ {b l},
    calcPruned A p.toValue none = .ok (b, l) → ∀ x ∈ l, ∃ y : Str × ℕ, x = leafKey y ∧ y.1 ∈ A := by
  intro p
  induction p using Pol.ind with
  | hl n c =>
    intro b l h
    simp only [Pol.toValue_leaf, calcPruned, contains_iff] at h
    by_cases hn : n ∈ A
    · simp only [hn, decide_true, if_true, Res.ok.injEq, Prod.mk.injEq] at h
      intro x hx
      rw [← h.2, List.mem_singleton] at hx
      exact ⟨(n, c), hx, hn⟩
    · simp only [hn, decide_false, Bool.false_eq_true, if_false, Res.ok.injEq, Prod.mk.injEq] at h
      intro x hx
      simp [← h.2] at hx
  | hg op cs ih =>
    intro b l h
    cases op
    · simp only [Pol.toValue_gate, Op.toType, calcPruned] at h
      split at h
      · have key : ∀ (ds : List Pol), (∀ c ∈ ds, ∀ {b l}, calcPruned A c.toValue none = .ok (b, l) →
            ∀ x ∈ l, ∃ y : Str × ℕ, x = leafKey y ∧ y.1 ∈ A) →
            ∀ m acc, (∀ x ∈ acc, ∃ y : Str × ℕ, x = leafKey y ∧ y.1 ∈ A) →
            prunedAnd A (ds.map Pol.toValue) m acc = .ok (b, l) → ∀ x ∈ l, ∃ y : Str × ℕ, x = leafKey y ∧ y.1 ∈ A := by
          intro ds
          induction ds with
          | nil =>
            intro _ m acc hacc h
            simp only [List.map_nil, prunedAnd, Res.ok.injEq, Prod.mk.injEq] at h
            intro x hx
            rw [← h.2] at hx
            split at hx
            · exact hacc x hx
            · simp at hx
          | cons d ds ihd =>
            intro hd m acc hacc h
            simp only [List.map_cons, prunedAnd] at h
            cases hc : calcPruned A d.toValue none with
            | err => simp [hc] at h
            | panic => simp [hc] at h
            | ok x =>
              obtain ⟨f, l'⟩ := x
              simp only [hc, Res.unwrap_ok, Res.ok_bind] at h
              refine ihd (fun c hc => hd c (by simp [hc])) _ _ ?_ h
              intro x hx
              split at hx
              · rcases List.mem_append.1 hx with hx | hx
                · exact hacc x hx
                · exact hd d (by simp) hc x hx
              · exact hacc x hx
        exact key cs ih true [] (by simp) h
      · simp at h
    · simp only [Pol.toValue_gate, Op.toType, calcPruned] at h
      split at h
      · have key : ∀ (ds : List Pol), (∀ c ∈ ds, ∀ {b l}, calcPruned A c.toValue none = .ok (b, l) →
            ∀ x ∈ l, ∃ y : Str × ℕ, x = leafKey y ∧ y.1 ∈ A) →
            ∀ acc, (∀ x ∈ acc, ∃ y : Str × ℕ, x = leafKey y ∧ y.1 ∈ A) →
            prunedOr A (ds.map Pol.toValue) acc = .ok (b, l) → ∀ x ∈ l, ∃ y : Str × ℕ, x = leafKey y ∧ y.1 ∈ A := by
          intro ds
          induction ds with
          | nil =>
            intro _ acc hacc h
            simp only [List.map_nil, prunedOr, Res.ok.injEq, Prod.mk.injEq] at h
            rw [← h.2]; exact hacc
          | cons d ds ihd =>
            intro hd acc hacc h
            simp only [List.map_cons, prunedOr] at h
            cases hc : calcPruned A d.toValue none with
            | err => simp [hc] at h
            | panic => simp [hc] at h
            | ok x =>
              obtain ⟨f, l'⟩ := x
              simp only [hc, Res.unwrap_ok, Res.ok_bind] at h
              cases f with
              | true =>
                simp only [if_true, Res.ok.injEq, Prod.mk.injEq] at h
                intro x hx
                rw [← h.2] at hx
                rcases List.mem_append.1 hx with hx | hx
                · exact hacc x hx
                · exact hd d (by simp) hc x hx
              | false =>
                simp only [Bool.false_eq_true, if_false] at h
                exact ihd (fun c hc => hd c (by simp [hc])) _ hacc h
        exact key cs ih [] (by simp) h
      · simp at h

/-- The first share with a given label. -/
def shareOf (xs : List (Str × F)) (j : Str) : F := ((xs.find? fun x => x.1 == j).map Prod.snd).getD 0

theorem shareOf_agree {A : List Str} : ∀ {L : List (Str × ℕ)} {v w : List F}, AgreeOn A L v w → v.length = L.length →
    w.length = L.length → ∀ {l : Str × ℕ}, l.1 ∈ A →
    shareOf ((L.map leafIdx).zip v) (leafIdx l) = shareOf ((L.map leafIdx).zip w) (leafIdx l) := by
  intro L
  induction L with
  | nil => intros; rfl
  | cons a L ih =>
    intro v w h hv hw l hl
    obtain ⟨x, v, rfl⟩ := List.exists_cons_of_length_eq_add_one hv
    obtain ⟨y, w, rfl⟩ := List.exists_cons_of_length_eq_add_one hw
    simp only [shareOf, List.map_cons, List.zip_cons_cons, List.find?_cons]
    by_cases ha : a = l
    · subst ha
      have := h 0 a (by simp) hl
      simpa using this
    · have : (leafIdx a == leafIdx l) = false := by
        simpa using fun e => ha (leafIdx_inj e)
      simp only [this]
      exact ih (fun i l' hi hl' => by simpa using h (i + 1) l' (by simpa using hi) hl')
        (by simpa using hv) (by simpa using hw) hl

/-- Shares of owned leaves under the hidden translations. -/
theorem shareOf_hidden [BigChar F] {text lang} {p : Pol} (h : Denotes text lang p) (hl : text.length < 2 ^ 64)
    {A : List Str} (hA : p.sat A = false) (d : F) :
    ∃ δ : ℕ → F, ∀ (s : F) (ω : ℕ → F) (l : Str × ℕ), l.1 ∈ A →
      shareOf (shares p (s + d) fun n => ω n + δ n) (leafIdx l) = shareOf (shares p s ω) (leafIdx l) := by
  have hf : p.Fits := by
    obtain ⟨q, hq, hf, _⟩ := parse_ok h
    rw [toValue_inj _ _ hq]; exact hf hl
  obtain ⟨δ, hδ⟩ := hides A p hf hA d
  refine ⟨δ, fun s ω l hl' => ?_⟩
  exact (shareOf_agree (hδ s ω) (shareVals_length _ _ _) (shareVals_length _ _ _) hl').symm

namespace Bsw

/-- What a selected leaf adds, per unit of its share. -/
def weight (env : Env F G1 G2 Gt) (pk : PublicKey G1 G2 Gt) (sk : SecretKey G1 G2) (z : List (Str × F))
    (x : Str × Str) : Gt :=
  match sk.dJ.find? fun y => y.string == x.1 with
  | some dj => coeffLoop env (encAttr env pk (x.2, 1)) dj x.2 z 0
  | none => 0

theorem coeffLoop_smul (env : Env F G1 G2 Gt) (pk : PublicKey G1 G2 Gt) (dj : Attribute G1 G2) (j : Str) (q : F)
    (z : List (Str × F)) (a : Gt) :
    coeffLoop env (encAttr env pk (j, q)) dj j z a = a + q • coeffLoop env (encAttr env pk (j, 1)) dj j z 0 := by
  rw [coeffLoop_acc, coeffLoop_acc _ (encAttr env pk (j, 1)), zero_add]
  congr 1
  induction z.filter fun z => z.1 == j with
  | nil => simp
  | cons x xs ih =>
    rw [List.map_cons, List.sum_cons, List.map_cons, List.sum_cons, ih, smul_add]
    congr 1
    simp only [encAttr, one_smul, map_smul, LinearMap.smul_apply, ← smul_sub]
    rw [smul_comm]

theorem prunedLoop_weights (env : Env F G1 G2 Gt) (pk : PublicKey G1 G2 Gt) (sk : SecretKey G1 G2)
    (ct : Ciphertext G1 G2 Gt) (z sh : List (Str × F)) (hc : ct.cY = sh.map (encAttr env pk)) (L : List (Str × Str)) :
    ∀ a, prunedLoop env sk ct z L a = a + (L.map fun x => shareOf sh x.2 • weight env pk sk z x).sum := by
  induction L with
  | nil => intro a; simp [prunedLoop]
  | cons x xs ih =>
    intro a
    obtain ⟨k, j⟩ := x
    rw [prunedLoop, ih, List.map_cons, List.sum_cons, ← add_assoc]
    congr 1
    have hfind : ct.cY.find? (fun x => x.string == j) = (sh.find? fun x => x.1 == j).map (encAttr env pk) := by
      rw [hc, List.find?_map]; rfl
    rw [hfind]
    cases hs : sh.find? fun x => x.1 == j with
    | none => simp [shareOf, hs]
    | some y =>
      have hy : y.1 = j := by simpa using List.find?_some hs
      obtain ⟨y1, y2⟩ := y
      simp only at hy
      subst hy
      simp only [Option.map_some, shareOf, hs, weight, Option.getD_some]
      cases sk.dJ.find? fun x => x.string == k with
      | none => simp
      | some dj => exact coeffLoop_smul ..

theorem shift_eq {m X Y Z : Gt} (h : Y + m + -(X + -Z) = m) : X - Y = Z := by
  have h' : Y + m + -(X + -Z) = m + (Y - X + Z) := by abel
  rw [h', add_eq_left] at h
  rw [← sub_eq_zero, ← neg_eq_zero, ← h]
  abel

/-- **C49, BSW, partial.** The names of a key (of any origin) do not satisfy the policy of an encryption. Then there are
translations of the random numbers of the encryption, one for each shift `d` of its secret, such that for every
replacement of the stored policy at most one `d` lets the key recover the session element; the only condition is that the
first component of the key does not open ciphertexts by itself. So a replacement works by chance only: for one out of all
values of a random number. (Full claim: it never works; false, see `C49_violated_bsw`.) -/
theorem C49_bsw_stored_policy_partial [BigChar F] (env : Env F G1 G2 Gt) (pk : PublicKey G1 G2 Gt) (sk : SecretKey G1 G2)
    (hd : env.pair pk.h sk.d ≠ pk.eGgAlpha) (text : Str) (lang : PolicyLanguage) (p : Pol) (hp : Denotes text lang p)
    (hlen : text.length < 2 ^ 64) (hsat : p.sat (sk.dJ.map (·.string)) = false) :
    ∃ δ : F → ℕ → F, ∀ (stored : Str × PolicyLanguage) (t₂ : Tape F G1 G2 Gt) (d e : F) (m n : Bytes)
      (c c' : Ciphertext G1 G2 Gt) (s s' : Tape F G1 G2 Gt),
      encrypt env pk text lang m (translate t₂ d (δ d)) = .ok (c, s) →
      encrypt env pk text lang n (translate t₂ e (δ e)) = .ok (c', s') →
      recoverMsg env sk { c with policy := stored } = .ok (t₂.gt 0) →
      recoverMsg env sk { c' with policy := stored } = .ok (t₂.gt 0) → d = e := by
  choose δ hδ using fun d : F => shareOf_hidden (F := F) hp hlen hsat d
  refine ⟨δ, fun stored t₂ d e m n c c' s s' hc hc' hm hn => ?_⟩
  obtain ⟨hc, -⟩ := encrypt_rand hp hc
  obtain ⟨hc', -⟩ := encrypt_rand hp hc'
  have key : ∀ {d : F} {c : Ciphertext G1 G2 Gt}, IsCt env pk p c ((translate t₂ d (δ d)).gt 0)
      ((translate t₂ d (δ d)).fr 0) (fun n => (translate t₂ d (δ d)).fr (n + 1)) →
      recoverMsg env sk { c with policy := stored } = .ok (t₂.gt 0) →
      ∃ (v : PolicyValue) (L : List (Str × Str)) (z : List (Str × F)), parse stored.1 stored.2 = .ok v ∧
        calcPruned (sk.dJ.map (·.string)) v none = .ok (true, L) ∧
        calcCoefficients v (some 1) [] none = .ok (some z) ∧
        (t₂.fr 0 + d) • (env.pair pk.h sk.d - pk.eGgAlpha) =
          (L.map fun x => shareOf (shares p (t₂.fr 0) fun n => t₂.fr (n + 1)) x.2 • weight env pk sk z x).sum := by
    intro d c hc h
    simp only [recoverMsg, Res.bind_eq_ok] at h
    obtain ⟨v, hv, h⟩ := h
    split at h
    · simp at h
    · simp only [Res.bind_eq_ok] at h
      obtain ⟨⟨b, L⟩, hL, h⟩ := h
      split at h
      · simp at h
      · rename_i hb
        have hb : b = true := by simpa using hb
        subst hb
        simp only [Res.bind_eq_ok, Res.ok.injEq] at h
        obtain ⟨z?, hz, z, hz', h⟩ := h
        cases z? with
        | none => simp [Res.unwrapOption] at hz'
        | some z₀ =>
          simp only [Res.unwrapOption_some, Res.ok.injEq] at hz'
          subst hz'
          refine ⟨v, L, z₀, hv, hL, hz, ?_⟩
          rw [prunedLoop_weights env pk sk { c with policy := stored } z₀ _ hc.cY, zero_add, hc.cP, hc.c] at h
          have e : (L.map fun x => shareOf (shares p (t₂.fr 0) fun n => t₂.fr (n + 1)) x.2 • weight env pk sk z₀ x) =
              (L.map fun x => shareOf (shares p ((translate t₂ d (δ d)).fr 0)
                fun n => (translate t₂ d (δ d)).fr (n + 1)) x.2 • weight env pk sk z₀ x) := by
            obtain ⟨q, rfl, -⟩ := parse_ok hv
            refine List.map_congr_left fun x hx => ?_
            obtain ⟨l, rfl, hl⟩ := calcPruned_ok_owned _ q hL x hx
            exact congrArg (· • _) (hδ d (t₂.fr 0) (fun n => t₂.fr (n + 1)) l hl).symm
          rw [e]
          have hg : (translate t₂ d (δ d)).gt 0 = t₂.gt 0 := rfl
          have hf : (translate t₂ d (δ d)).fr 0 = t₂.fr 0 + d := rfl
          rw [hg, hf, map_smul, LinearMap.smul_apply] at h
          rw [hf, smul_sub]
          exact shift_eq h
  obtain ⟨v, L, z, h1, h2, h3, h4⟩ := key hc hm
  obtain ⟨v', L', z', h1', h2', h3', h4'⟩ := key hc' hn
  rw [h1, Res.ok.injEq] at h1'; subst h1'
  rw [h2, Res.ok.injEq, Prod.mk.injEq] at h2'; obtain ⟨-, rfl⟩ := h2'
  rw [h3, Res.ok.injEq, Option.some.injEq] at h3'; subst h3'
  rw [← h4', ← sub_eq_zero, ← sub_smul, smul_eq_zero] at h4
  rcases h4 with h | h
  · have : t₂.fr 0 + d - (t₂.fr 0 + e) = d - e := by ring
    rw [this, sub_eq_zero] at h
    exact h
  · exact absurd (sub_eq_zero.1 h) hd

/-- Issued keys meet the condition of `C49_bsw_stored_policy_partial`, unless their random number or the pairing is zero. -/
theorem C49_bsw_issued (env : Env F G1 G2 Gt) (t₁ t₁' : Tape F G1 G2 Gt) (pk : PublicKey G1 G2 Gt) (msk : MasterKey F G2)
    (hsetup : setup env t₁ = .ok ((pk, msk), t₁')) (attrs : List Str) (t t' : Tape F G1 G2 Gt) (sk : SecretKey G1 G2)
    (hkey : keygen env pk msk attrs t = .ok (some sk, t')) (hr : t.fr 0 ≠ 0) (hg : env.pair pk.g1 pk.g2 ≠ 0) :
    env.pair pk.h sk.d ≠ pk.eGgAlpha := by
  obtain ⟨α, β, hs⟩ := setup_ok hsetup
  rw [hs.h, (keygen_exp hkey).d, hs.e, hs.beta, hs.g2Alpha]
  intro h
  have hβ := hs.beta_ne
  simp only [map_smul, map_add, LinearMap.smul_apply, smul_add, smul_smul] at h
  rw [mul_right_comm, inv_mul_cancel₀ hβ, one_mul, mul_right_comm, inv_mul_cancel₀ hβ, one_mul, add_eq_left,
    smul_eq_zero] at h
  exact h.elim hr hg

/-- **C49 is violated for BSW by chance.** When the random coefficient of the encryption is zero, a key for `A` alone opens
a message for `"A" and "B"` after the stored policy is replaced. -/
theorem C49_violated_bsw : (do
    let x ← setup toyEnv toyTape
    let y ← keygen toyEnv x.1.1 x.1.2 [['A']] toyTape
    let z ← encrypt toyEnv x.1.1 (chars% "\"A\" and \"B\"") .human [7] { toyTape with fr := fun n => if n = 0 then 3 else 0 }
    let sk ← Res.unwrapOption y.1
    .ok (decrypt toyEnv sk z.1, decrypt toyEnv sk { z.1 with policy := (chars% " \"A\"", .human) },
      decrypt toyEnv sk { z.1 with policy := (chars% "\"A\"", .human) }) : Res (Res Bytes × Res Bytes × Res Bytes)) =
    .ok (.err, .err, .ok [7]) := by decide +kernel

/-- With another coefficient the replacement does not help. -/
example : (do
    let x ← setup toyEnv toyTape
    let y ← keygen toyEnv x.1.1 x.1.2 [['A']] toyTape
    let z ← encrypt toyEnv x.1.1 (chars% "\"A\" and \"B\"") .human [7] toyTape
    let sk ← Res.unwrapOption y.1
    .ok (decrypt toyEnv sk z.1, decrypt toyEnv sk { z.1 with policy := (chars% "\"A\"", .human) }) :
      Res (Res Bytes × Res Bytes)) = .ok (.err, .err) := by decide +kernel

end Bsw

namespace Ghw11

/-- The secret, its coefficients and the session element of an encryption are the random values drawn. -/
theorem encrypt_rand {env : Env F G1 G2 Gt} {pk : PublicKey G1 G2 Gt} {policy lang pt t ct t'} {p : Pol}
    (hp : parse policy lang = .ok p.toValue) (h : encrypt env pk policy lang pt t = .ok (ct, t')) :
    IsCt env pk p ct (t.gt 0) (t.fr 0) (fun n => t.fr (n + 1)) ∧ decryptSymmetric env (t.gt 0) ct.data = .ok pt := by
  simp only [encrypt, RM.bind_ok, RM.genFr, RM.genGt, RM.lift_ok_iff, RM.pure_ok, hp, Res.ok.injEq,
    Prod.mk.injEq, RM.liftFr] at h
  obtain ⟨s, t1, ⟨rfl, rfl⟩, msg, t2, ⟨rfl, rfl⟩, pv, t3, ⟨rfl, rfl⟩, sh, t4, hsh, shs, t5, ⟨hu, rfl⟩, cd, t6, hcd,
    data, t7, hd, rfl, _⟩ := h
  rw [genSharesPolicy_eq] at hsh
  simp only [Res.ok.injEq, Prod.mk.injEq] at hsh
  obtain ⟨rfl, rfl⟩ := hsh
  simp only [Res.unwrapOption_some, Res.ok.injEq] at hu
  subst hu
  have : dropS 1 t.fr = fun n => t.fr (n + 1) := by funext n; simp [dropS, Nat.add_comm]
  refine ⟨⟨hp, rfl, rfl, ?_⟩, encryptSymmetric_ok hd⟩
  rw [← this]
  refine (RM.mapL_ok hcd).imp ?_
  rintro a x ⟨u, u', hx⟩
  simp only [encShare, RM.bind_ok, RM.genFr, RM.pure_ok, Res.ok.injEq, Prod.mk.injEq] at hx
  obtain ⟨τ, u1, ⟨rfl, rfl⟩, rfl, _⟩ := hx
  exact ⟨_, rfl⟩

theorem find?_forall₂ {β : Type} {R : Str × F → Str × β → Prop} (hR : ∀ x y, R x y → y.1 = x.1) :
    ∀ {xs : List (Str × F)} {ys : List (Str × β)}, List.Forall₂ R xs ys → ∀ {j : Str} {y},
      ys.find? (fun a => a.1 == j) = some y → ∃ x, xs.find? (fun a => a.1 == j) = some x ∧ R x y := by
  intro xs ys h
  induction h with
  | nil => intro j y h; simp at h
  | @cons x y xs ys hxy _ ih =>
    intro j z h
    rw [List.find?_cons] at h ⊢
    rw [hR x y hxy] at h
    cases hx : x.1 == j with
    | true =>
      simp only [hx, Option.some.injEq] at h
      exact ⟨x, rfl, h ▸ hxy⟩
    | false =>
      simp only [hx] at h
      exact ih h

/-- The loop of `transform` under a replaced policy. -/
theorem fold_stored {env : Env F G1 G2 Gt} {pk : PublicKey G1 G2 Gt} {msk : MasterKey G1 G2 Gt}
    {a α : F} (hs : IsSetup env pk msk a α) {attrs : List Str} {r z : F} {p : Pol} {ct ct' : Ciphertext G1 Gt} {msg s ω}
    (hc : IsCt env pk p ct msg s ω) (hct' : ct'.ciDi = ct.ciDi) (hname : ∀ n ∈ p.names, n ∈ attrs → '_' ∉ n)
    (zs : List (Str × F)) : ∀ (L : List (Str × Str)), (∀ x ∈ L, ∃ y : Str × ℕ, x = leafKey y ∧ y.1 ∈ attrs) →
    ∀ acc st, Res.foldR (transformStep env ct' (blind (keyFor env pk msk attrs r) z) zs) acc L = .ok st →
    st.1 + env.pair st.2 (z⁻¹ • r • pk.g2) = acc.1 + env.pair acc.2 (z⁻¹ • r • pk.g2) +
      (L.map fun x => shareOf zs x.2 * shareOf (shares p s ω) x.2).sum • (z⁻¹ * r * a) • env.pair pk.g1 pk.g2 := by
  intro L
  induction L with
  | nil =>
    intro _ acc st h
    simp only [Res.foldR, Res.ok.injEq] at h
    simp [h]
  | cons x L ih =>
    intro hL acc st h
    simp only [Res.foldR, Res.rbind_eq, Res.bind_eq_ok] at h
    obtain ⟨acc', hstep, h⟩ := h
    rw [ih (fun y hy => hL y (by simp [hy])) acc' st h, List.map_cons, List.sum_cons, add_smul, ← add_assoc]
    congr 1
    obtain ⟨l, rfl, hl⟩ := hL x (by simp)
    simp only [transformStep, Res.bind_eq_ok, leafKey] at hstep
    obtain ⟨c, h1, k, h2, y, h3, h4⟩ := hstep
    have some_of : ∀ {T : Type} {o : Option T} {v}, Res.unwrapOption o = .ok v → o = some v := by
      intro T o v h
      cases o with
      | none => simp [Res.unwrapOption] at h
      | some w => simpa using h
    replace h1 := some_of h1
    replace h2 := some_of h2
    replace h3 := some_of h3
    rw [hct'] at h3
    obtain ⟨q, hq, τ, rfl⟩ := find?_forall₂ (fun x y h => by obtain ⟨τ, rfl⟩ := h; rfl) hc.ciDi h3
    have hq1 : q.1 = leafIdx l := by simpa [leafIdx] using List.find?_some hq
    have hk : k.kX = z⁻¹ • r • env.hash l.1 • pk.g2 := by
      have hm := List.mem_of_find?_eq_some h2
      have hk1 : k.string = l.1 := by simpa using List.find?_some h2
      simp only [blind, keyFor, List.map_map, List.mem_map, Function.comp] at hm
      obtain ⟨n, _, rfl⟩ := hm
      simp only at hk1
      subst hk1
      rfl
    have hu : '_' ∉ l.1 := by
      have hm := List.mem_of_find?_eq_some hq
      have hm' : q.1 ∈ p.leaves.map leafIdx := (List.of_mem_zip hm).1
      obtain ⟨l', hl', e⟩ := List.mem_map.1 hm'
      obtain rfl : l' = l := leafIdx_inj (e.trans hq1)
      exact hname _ (List.mem_map.2 ⟨l', hl', rfl⟩) hl
    have hrm : removeIndex q.1 = l.1 := by rw [hq1]; exact removeIndex_nodeIndex _ hu
    have e1 : shareOf zs (leafIdx l) = c.2 := by
      simp only [shareOf]
      rw [show (zs.find? fun x => x.1 == leafIdx l) = some c from h1]; rfl
    have e2 : shareOf (shares p s ω) (leafIdx l) = q.2 := by
      simp only [shareOf]
      rw [show ((shares p s ω).find? fun x => x.1 == leafIdx l) = some q from hq]; rfl
    simp only [Res.ok.injEq] at h4
    rw [← h4, hrm, hk, show (leafKey l).2 = leafIdx l from rfl, e1, e2, hs.g1A]
    simp only [map_smul, map_add, LinearMap.smul_apply, LinearMap.add_apply]
    module

/-- **C49, GHW11, partial.** The attributes of an issued key do not satisfy the policy of an encryption. Then there are
translations of the random numbers of the encryption, one for each shift `d` of its secret, such that for every
replacement of the stored policy at most one `d` lets the key recover the session element. So a replacement works by chance
only. (Full claim: it never works; false as for BSW. The names common to key and policy must have no underscore; the
exponents of set-up and key must not be zero.) -/
theorem C49_ghw11_stored_policy_partial [BigChar F] (env : Env F G1 G2 Gt) (t₁ t₁' : Tape F G1 G2 Gt)
    (pk : PublicKey G1 G2 Gt) (msk : MasterKey G1 G2 Gt) (hsetup : setup env t₁ = .ok ((pk, msk), t₁'))
    (hA : pk.g1A ≠ 0) (attrs : List Str) (tk tk' : Tape F G1 G2 Gt) (sk : SecretKey G2)
    (hkey : keygen env pk msk attrs tk = .ok (some sk, tk')) (hr : tk.fr 0 ≠ 0) (hg : env.pair pk.g1 pk.g2 ≠ 0)
    (t₃ t₃' : Tape F G1 G2 Gt) (tr : TransformKey G2) (rk : RetrieveKey F)
    (htk : tkgen sk t₃ = .ok (some (tr, rk), t₃'))
    (text : Str) (lang : PolicyLanguage) (p : Pol) (hp : Denotes text lang p)
    (hlen : text.length < 2 ^ 64) (hname : ∀ n ∈ p.names, n ∈ attrs → '_' ∉ n) (hsat : p.sat attrs = false) :
    ∃ δ : F → ℕ → F, ∀ (stored : Str × PolicyLanguage) (t₂ : Tape F G1 G2 Gt) (d e : F) (m n : Bytes)
      (c c' : Ciphertext G1 Gt) (x x' : TransformCiphertext Gt) (s s' : Tape F G1 G2 Gt),
      encrypt env pk text lang m (Bsw.translate t₂ d (δ d)) = .ok (c, s) →
      encrypt env pk text lang n (Bsw.translate t₂ e (δ e)) = .ok (c', s') →
      transform env { c with policy := stored } tr = .ok x → x.c + -(rk.z • x.t) = t₂.gt 0 →
      transform env { c' with policy := stored } tr = .ok x' → x'.c + -(rk.z • x'.t) = t₂.gt 0 → d = e := by
  obtain ⟨a, α, hs⟩ := setup_ok hsetup
  obtain ⟨hne, rfl⟩ := keygen_ok hkey
  obtain ⟨hz, rfl⟩ := tkgen_ok htk
  choose δ hδ using fun d : F => shareOf_hidden (F := F) hp hlen hsat d
  refine ⟨δ, fun stored t₂ d e m n c c' x x' s s' hc hc' hx hm hx' hn => ?_⟩
  obtain ⟨hc, -⟩ := encrypt_rand hp hc
  obtain ⟨hc', -⟩ := encrypt_rand hp hc'
  have ha : a ≠ 0 := by rintro rfl; exact hA (by rw [hs.g1A, zero_smul])
  have hattr : ((blind (keyFor env pk msk attrs (tk.fr 0)) rk.z).attrKeyZ.map (·.string)) = attrs := by
    simp [blind, keyFor, Function.comp_def]
  have key : ∀ {d : F} {c : Ciphertext G1 Gt} {x}, IsCt env pk p c ((Bsw.translate t₂ d (δ d)).gt 0)
      ((Bsw.translate t₂ d (δ d)).fr 0) (fun n => (Bsw.translate t₂ d (δ d)).fr (n + 1)) →
      transform env { c with policy := stored } (blind (keyFor env pk msk attrs (tk.fr 0)) rk.z) = .ok x →
      x.c + -(rk.z • x.t) = t₂.gt 0 →
      ∃ (v : PolicyValue) (L : List (Str × Str)) (z : List (Str × F)), parse stored.1 stored.2 = .ok v ∧
        calcPruned attrs v none = .ok (true, L) ∧
        calcCoefficients v (some 1) [] none = .ok (some z) ∧
        t₂.fr 0 + d =
          (L.map fun x => shareOf z x.2 * shareOf (shares p (t₂.fr 0) fun n => t₂.fr (n + 1)) x.2).sum := by
    intro d c x hc h hx
    simp only [transform, Res.bind_eq_ok, hattr] at h
    obtain ⟨v, hv, h⟩ := h
    split at h
    · simp at h
    · simp only [Res.bind_eq_ok] at h
      obtain ⟨⟨b, L⟩, hL, z?, hz?, z, hz', h⟩ := h
      split at h
      · rename_i hb
        have hb : b = true := by simpa using hb
        subst hb
        simp only [Res.bind_eq_ok, Res.ok.injEq] at h
        obtain ⟨st, hst, rfl⟩ := h
        cases z? with
        | none => simp [Res.unwrapOption] at hz'
        | some z₀ =>
          simp only [Res.unwrapOption_some, Res.ok.injEq] at hz'
          subst hz'
          refine ⟨v, L, z₀, hv, hL, hz?, ?_⟩
          obtain ⟨q, rfl, -⟩ := parse_ok hv
          have hown := calcPruned_ok_owned attrs q hL
          have hf := fold_stored hs hc (ct' := { c with policy := stored }) rfl hname z₀ L hown (0, 0) st hst
          have e : (L.map fun x => shareOf z₀ x.2 * shareOf (shares p ((Bsw.translate t₂ d (δ d)).fr 0)
                fun n => (Bsw.translate t₂ d (δ d)).fr (n + 1)) x.2) =
              (L.map fun x => shareOf z₀ x.2 * shareOf (shares p (t₂.fr 0) fun n => t₂.fr (n + 1)) x.2) := by
            refine List.map_congr_left fun x hx => ?_
            obtain ⟨l, rfl, hl⟩ := hown x hx
            exact congrArg (_ * ·) (hδ d (t₂.fr 0) (fun n => t₂.fr (n + 1)) l hl)
          rw [e] at hf
          simp only [map_zero, LinearMap.zero_apply, zero_add] at hf
          have hl : (blind (keyFor env pk msk attrs (tk.fr 0)) rk.z).lZ = rk.z⁻¹ • tk.fr 0 • pk.g2 := rfl
          have hk : (blind (keyFor env pk msk attrs (tk.fr 0)) rk.z).kZ =
            rk.z⁻¹ • (msk.g2Alpha + tk.fr 0 • pk.g2A) := rfl
          simp only [hl, hf, hk, hc.c, hc.c1, hs.e, hs.g2Alpha, hs.g2A] at hx
          have hg' : (Bsw.translate t₂ d (δ d)).gt 0 = t₂.gt 0 := rfl
          have hf' : (Bsw.translate t₂ d (δ d)).fr 0 = t₂.fr 0 + d := rfl
          rw [hg', hf'] at hx
          generalize (L.map fun x => shareOf z₀ x.2 * shareOf (shares p (t₂.fr 0) fun n => t₂.fr (n + 1)) x.2).sum = S at hx ⊢
          simp only [map_smul, map_add, LinearMap.smul_apply] at hx
          have h0 : ((S - (t₂.fr 0 + d)) * (tk.fr 0 * a)) • env.pair pk.g1 pk.g2 = 0 := by
            rw [← sub_eq_zero] at hx
            rw [← hx]
            match_scalars <;> field_simp <;> ring
          rw [smul_eq_zero, mul_eq_zero, mul_eq_zero] at h0
          rcases h0 with (h0 | h0 | h0) | h0
          · exact (sub_eq_zero.1 h0).symm
          · exact absurd h0 hr
          · exact absurd h0 ha
          · exact absurd h0 hg
      · simp at h
  obtain ⟨v, L, z, h1, h2, h3, h4⟩ := key hc hx hm
  obtain ⟨v', L', z', h1', h2', h3', h4'⟩ := key hc' hx' hn
  rw [h1, Res.ok.injEq] at h1'; subst h1'
  rw [h2, Res.ok.injEq, Prod.mk.injEq] at h2'; obtain ⟨-, rfl⟩ := h2'
  rw [h3, Res.ok.injEq, Option.some.injEq] at h3'; subst h3'
  exact add_left_cancel (h4.trans h4'.symm)

/-- A key for `A` and a message for `"A" and "B"`; the replacement `"A"` works when the random coefficient of the encryption
is zero, and not otherwise. -/
example : (do
    let x ← setup toyEnv toyTape
    let y ← keygen toyEnv x.1.1 x.1.2 [['A']] toyTape
    let z ← encrypt toyEnv x.1.1 (chars% "\"A\" and \"B\"") .human [7] { toyTape with fr := fun n => if n = 0 then 3 else 0 }
    let z' ← encrypt toyEnv x.1.1 (chars% "\"A\" and \"B\"") .human [7] toyTape
    let sk ← Res.unwrapOption y.1
    let k ← tkgen (F := Fr) (G1 := Fr) (Gt := Fr) sk toyTape
    let k ← Res.unwrapOption k.1
    let w ← transform toyEnv { z.1 with policy := (chars% "\"A\"", .human) } k.1
    let w' ← transform toyEnv { z'.1 with policy := (chars% "\"A\"", .human) } k.1
    .ok (decryptOut toyEnv w k.2 z.1.data, decryptOut toyEnv w' k.2 z'.1.data) : Res (Res Bytes × Res Bytes)) =
    .ok (.ok [7], .err) := by decide +kernel

end Ghw11
end Rabe
