import Verif.Proof.Lookup
import Verif.Props.Lsw
import Verif.Props.Yct14

/-!
# C75 for the key-policy schemes

The key-policy schemes list the key components under the names of the leaves, shortened at the first underscore, and look
them up by the full name. As in `Verif.Props.Outcome` nothing is assumed about the policy: for issued keys and honest
ciphertexts the result of decryption is given for every accepted policy text.
-/

namespace Rabe

variable {F G1 G2 Gt : Type} [Field F] [DecidableEq F] [AddCommGroup G1] [Module F G1]
  [AddCommGroup G2] [Module F G2] [AddCommGroup Gt] [Module F Gt]

/-- The share of the first leaf whose name, shortened at the first underscore, is `n`. -/
def namedShare (p : Pol) (σ : F) (ω : ℕ → F) (n : Str) : F :=
  (((shares p σ ω).find? fun z => removeIndex z.1 == n).map (·.2)).getD 0

/-- The shortened names of the shares are the shortened names of the leaves. -/
theorem shares_cut (p : Pol) (σ : F) (ω : ℕ → F) :
    (shares p σ ω).map (fun z => removeIndex z.1) = p.names.map cut := by
  have := congrArg (List.map removeIndex) (shares_labels p σ ω)
  simpa [List.map_map, Function.comp_def, removeIndex_leafIdx, Pol.names] using this

theorem not_mem_cut (n : Str) : '_' ∉ cut n := by
  intro h
  have h1 := List.all_takeWhile (p := fun x : Char => x != '_') (l := n)
  have := List.all_eq_true.1 h1 _ h
  simp at this

/-- A name without underscore that occurs in the policy has a share. -/
theorem namedShare_find (p : Pol) (σ : F) (ω : ℕ → F) {n : Str} (hn : n ∈ p.names.map cut) :
    ∃ x ∈ shares p σ ω, (shares p σ ω).find? (fun z => removeIndex z.1 == n) = some x ∧ removeIndex x.1 = n ∧
      x.2 = namedShare p σ ω n := by
  obtain ⟨x, h1, h2, h3⟩ := exists_find? (fun z : Str × F => removeIndex z.1) (shares p σ ω) n
    (by rw [shares_cut]; exact hn)
  exact ⟨x, h1, h2, h3, by simp [namedShare, h2]⟩

/-- A name that occurs once among the shortened names has the share of its leaf. -/
theorem namedShare_unique {p : Pol} (σ : F) (ω : ℕ → F) (hn : p.leaves.Nodup) {l : Str × ℕ} (hl : l ∈ p.leaves)
    (hu : '_' ∉ l.1) (hc : (p.names.map cut).count l.1 = 1) : namedShare p σ ω l.1 = firstShare p σ ω l := by
  obtain ⟨x, h1, _, h3, h4⟩ := namedShare_find p σ ω (n := l.1)
    (List.mem_map.2 ⟨l.1, List.mem_map.2 ⟨l, hl, rfl⟩, cut_eq hu⟩)
  obtain ⟨sh, hsh, _⟩ := shares_fun hn σ ω
  have h5 := shares_find p σ ω hl
  rw [hsh] at h1 h5
  obtain ⟨l', hl', rfl⟩ := List.mem_map.1 h1
  have : l' = l := leaf_unique hl hl' hu (by rw [← h3]; exact (removeIndex_nodeIndex_eq _ _).symm) hc
  subst this
  rw [find?_map_inj _ _ _ _ hl' fun y _ => by
    simp only [beq_iff_eq]; exact ⟨leafIdx_inj, fun h => h ▸ rfl⟩] at h5
  rw [← h4]
  exact (Prod.mk.inj (Option.some.inj h5)).2

/-- A loop over the pruned leaves that aborts for some leaves and goes on for the others. -/
theorem foldR_outcome {S : Type} (step : S → Str × Str → Res S) (nxt : S → Str × ℕ → S) (bad : Str × ℕ → Prop)
    (L : List (Str × ℕ)) (hbad : ∀ l ∈ L, bad l → ∀ acc, step acc (leafKey l) = .panic)
    (hok : ∀ l ∈ L, ¬ bad l → ∀ acc, step acc (leafKey l) = .ok (nxt acc l)) :
    ∀ acc, ((∃ l ∈ L, bad l) → Res.foldR step acc (L.map leafKey) = .panic) ∧
      ((∀ l ∈ L, ¬ bad l) → Res.foldR step acc (L.map leafKey) = .ok (L.foldl nxt acc)) := by
  induction L with
  | nil => intro acc; simp [Res.foldR]
  | cons l L ih =>
    intro acc
    have ih := ih (fun l hl => hbad l (by simp [hl])) (fun l hl => hok l (by simp [hl]))
    simp only [List.map_cons, Res.foldR, Res.rbind_eq, List.foldl_cons]
    by_cases hl : bad l
    · rw [hbad l (by simp) hl]
      exact ⟨fun _ => rfl, fun h => absurd hl (h l (by simp))⟩
    · rw [hok l (by simp) hl, Res.ok_bind]
      refine ⟨fun ⟨l', h1, h2⟩ => (ih _).1 ⟨l', ?_, h2⟩, fun h => (ih _).2 fun l' h1 => h l' (by simp [h1])⟩
      rcases List.mem_cons.1 h1 with rfl | h1
      · exact absurd h2 hl
      · exact h1

/-- Lookup in a list whose entries correspond to the entries of another list. -/
theorem find?_forall₂ {α β : Type} {R : α → β → Prop} (f : α → Str) (g : β → Str) {xs : List α} {ys : List β}
    (h : List.Forall₂ (fun x y => g y = f x ∧ R x y) xs ys) (n : Str) :
    (∀ x, xs.find? (fun x => f x == n) = some x → ∃ y, ys.find? (fun y => g y == n) = some y ∧ R x y) ∧
    (xs.find? (fun x => f x == n) = none → ys.find? (fun y => g y == n) = none) := by
  induction h with
  | nil => simp
  | @cons a b as bs hab _ ih =>
    by_cases ha : f a = n
    · have hb : g b = n := hab.1.trans ha
      simp only [List.find?_cons, ha, hb, beq_self_eq_true, Option.some.injEq, reduceCtorEq, false_imp_iff, and_true]
      rintro x rfl
      exact ⟨b, rfl, hab.2⟩
    · have hb : ¬ g b = n := fun h => ha (hab.1 ▸ h)
      rw [List.find?_cons_of_neg (by simpa using ha), List.find?_cons_of_neg (by simpa using hb)]
      exact ih

namespace Lsw

/-- The sum of coefficients and shares that decryption forms over the used leaves. A positive name contributes the share of
the first leaf with this name; a name that starts with `!` contributes the value `v` of the leaf before it. -/
def total (p : Pol) (σ : F) (ω : ℕ → F) : List (Str × ℕ) → F → F
  | [], _ => 0
  | l :: L, v =>
      let v' := if l.1.head? = some '!' then v else namedShare p σ ω l.1
      firstCoeff p (1 : F) l * v' + total p σ ω L v'

theorem isNegative_ok {n : Str} {b : Bool} (h : isNegative n = .ok b) : b = true ↔ n.head? = some '!' := by
  cases n with
  | nil => simp [isNegative] at h
  | cons c cs =>
    simp only [isNegative] at h
    split at h
    · simp only [Res.ok.injEq] at h
      subst h
      simp
    · simp at h

theorem sxLoop_gt (n : ℕ) : ∀ (i : ℕ) (sx : List F) (t : Tape F G1 G2 Gt) {r t'},
    sxLoop n i sx t = .ok (r, t') → t'.gt = t.gt := by
  induction n with
  | zero => intro i sx t r t' h; simp only [sxLoop, RM.pure_ok] at h; rw [h.2]
  | succ n ih =>
    intro i sx t r t' h
    simp only [sxLoop, RM.bind_ok, RM.genFr, RM.lift_ok_iff, Res.ok.injEq, Prod.mk.injEq] at h
    obtain ⟨_, t1, ⟨rfl, rfl⟩, _, _, ⟨_, rfl⟩, _, _, ⟨_, rfl⟩, h⟩ := h
    have := ih _ _ _ h
    exact this

theorem foldl_total (p : Pol) (σ : F) (ω : ℕ → F) (E : Gt) : ∀ (L : List (Str × ℕ)) (a v : F),
    (L.foldl (fun (acc : Gt × Gt) l =>
      let zy := if l.1.head? = some '!' then acc.2 else namedShare p σ ω l.1 • E
      (acc.1 + firstCoeff p (1 : F) l • zy, zy)) (a • E, v • E)).1 = (a + total p σ ω L v) • E := by
  intro L
  induction L with
  | nil => intro a v; simp [total]
  | cons l L ih =>
    intro a v
    by_cases h : l.1.head? = some '!'
    · have := ih (a + firstCoeff p (1 : F) l * v) v
      simp only [List.foldl_cons, total, h, if_true, ← add_assoc]
      rw [← this]
      congr 3
      module
    · have := ih (a + firstCoeff p (1 : F) l * namedShare p σ ω l.1) (namedShare p σ ω l.1)
      simp only [List.foldl_cons, total, h, if_false, ← add_assoc]
      rw [← this]
      congr 3
      module

/-- The exponents of the master key are the first two scalars. -/
theorem setup_alphas {env : Env F G1 G2 Gt} {t₁ t₁' : Tape F G1 G2 Gt} {pk msk}
    (hsetup : setup env t₁ = .ok ((pk, msk), t₁')) : msk.alpha1 = t₁.fr 0 ∧ msk.alpha2 = t₁.fr 1 := by
  simp only [setup, RM.bind_ok, RM.genG1, RM.genG2, RM.genFr, RM.pure_ok, Res.ok.injEq, Prod.mk.injEq] at hsetup
  obtain ⟨α1, t1, ⟨rfl, rfl⟩, α2, t2, ⟨rfl, rfl⟩, b, t3, ⟨rfl, rfl⟩, g1, t4, ⟨rfl, rfl⟩, g2, t5, ⟨rfl, rfl⟩,
    h1, t6, ⟨rfl, rfl⟩, h2, t7, ⟨rfl, rfl⟩, ⟨rfl, rfl⟩, _⟩ := hsetup
  exact ⟨rfl, rfl⟩

/-- Session element and exponent of an encryption are its first random numbers. -/
theorem encrypt_exact {env : Env F G1 G2 Gt} {pk attrs plaintext} {t₃ t₃' : Tape F G1 G2 Gt} {ct : Ciphertext G1 G2 Gt}
    (henc : encrypt env pk attrs plaintext t₃ = .ok (ct, t₃')) : IsCt env pk attrs ct (t₃.gt 0) (t₃.fr 0) := by
  unfold encrypt at henc
  split at henc
  · simp at henc
  · simp only [RM.bind_ok, RM.genFr, RM.genGt, RM.lift_ok_iff, RM.pure_ok, Res.ok.injEq, Prod.mk.injEq] at henc
    obtain ⟨s, t1, ⟨rfl, rfl⟩, sx, t2, hsx, ej, t3, ⟨hej, rfl⟩, msg, t4, ⟨rfl, rfl⟩, c, t5, hc, rfl, _⟩ := henc
    have hgt := sxLoop_gt _ _ _ _ hsx
    have hf := mapR_ok hej
    refine ⟨by rw [hgt], rfl, ?_, ?_⟩
    · have := Forall₂.map_eq (f := Prod.fst) (g := fun x : CtAttr G1 => x.name) hf (by
        intro x y hxy
        simp only [encAttr, Res.bind_eq_ok, Res.ok.injEq] at hxy
        obtain ⟨_, _, rfl⟩ := hxy
        rfl)
      rw [this, List.zipIdx_map_fst]
    · intro y hy
      obtain ⟨x, _, hxy⟩ := Forall₂.mem_right hf y hy
      simp only [encAttr, Res.bind_eq_ok, Res.ok.injEq] at hxy
      obtain ⟨_, _, rfl⟩ := hxy
      rfl

/-- **C75, LSW.** Any set-up, any issued key, any encryption, any accepted policy text. A gate that pruning visits has
fewer than two children: abort, whether or not the policy is satisfied. Otherwise: not satisfied: error. A used name has an
underscore: abort. Otherwise the payload is opened with the encrypted session element plus the difference between the
secret `α₁` and `total`, times `α₂·s`, times the pairing of the generators. -/
theorem C75_lsw_outcome (env : Env F G1 G2 Gt)
    (t₁ t₁' : Tape F G1 G2 Gt) (pk : PublicKey G1 G2 Gt) (msk : MasterKey F G1 G2)
    (hsetup : setup env t₁ = .ok ((pk, msk), t₁'))
    (text : Str) (lang : PolicyLanguage) (p : Pol) (hp : Denotes text lang p)
    (t₂ t₂' : Tape F G1 G2 Gt) (sk : SecretKey G1 G2)
    (hkey : keygen env pk msk text lang t₂ = .ok (sk, t₂'))
    (attrs : List Str) (plaintext : Bytes) (t₃ t₃' : Tape F G1 G2 Gt) (ct : Ciphertext G1 G2 Gt)
    (henc : encrypt env pk attrs plaintext t₃ = .ok (ct, t₃')) :
    (¬ Reach attrs p → decrypt env sk ct = .panic) ∧
    (Reach attrs p → p.sat attrs = false → decrypt env sk ct = .err) ∧
    (Reach attrs p → p.sat attrs = true → (∃ l ∈ pick attrs p, '_' ∈ l.1) → decrypt env sk ct = .panic) ∧
    (Reach attrs p → p.sat attrs = true → (∀ l ∈ pick attrs p, '_' ∉ l.1) → decrypt env sk ct =
      decryptSymmetric env (t₃.gt 0 + ((t₁.fr 0 - total p (t₁.fr 0) t₂.fr (pick attrs p) 0) * (t₁.fr 1 * t₃.fr 0)) •
        env.pair pk.g1 pk.g2) ct.ct) := by
  have hs := setup_ok hsetup
  have hα := setup_alphas hsetup
  obtain ⟨hk, _⟩ := keygen_ok hp hkey
  have hc := encrypt_exact henc
  have hlook := find?_forall₂ (R := fun (x : Str × F) y => IsKeyAttr env pk msk (removeIndex x.1) x.2 y)
    (fun x => removeIndex x.1) (fun y : KeyAttr G1 G2 => y.name) (hk.dj.imp fun x y h => ⟨h.1, h⟩)
  have hfold := foldR_outcome (decryptStep env sk ct (coeffs p 1))
    (fun (acc : Gt × Gt) l =>
      let zy := if l.1.head? = some '!' then acc.2 else
        namedShare p msk.alpha1 t₂.fr l.1 • (msk.alpha2 * t₃.fr 0) • env.pair pk.g1 pk.g2
      (acc.1 + firstCoeff p (1 : F) l • zy, zy)) (fun l => '_' ∈ l.1) (pick attrs p)
    (by
      intro l hl hu acc
      have : sk.dj.find? (fun y => y.name == l.1) = none := by
        apply (hlook l.1).2
        rw [List.find?_eq_none]
        intro x hx hcon
        have hx' : removeIndex x.1 ∈ p.names.map cut := by
          rw [← shares_cut p msk.alpha1 t₂.fr]; exact List.mem_map.2 ⟨x, hx, rfl⟩
        obtain ⟨m, _, hm⟩ := List.mem_map.1 hx'
        rw [← beq_iff_eq.1 hcon, ← hm] at hu
        exact not_mem_cut m hu
      simp [decryptStep, leafKey, this])
    (by
      intro l hl hu acc
      have hlp : l ∈ p.leaves := (pick_sublist attrs p).subset hl
      have hla : l.1 ∈ attrs := pick_owned attrs p l hl
      obtain ⟨x, hx1, hx2, hx3, hx4⟩ := namedShare_find p msk.alpha1 t₂.fr (n := l.1)
        (List.mem_map.2 ⟨l.1, List.mem_map.2 ⟨l, hlp, rfl⟩, cut_eq hu⟩)
      obtain ⟨y, hy1, _, neg, hneg, hpos⟩ := (hlook l.1).1 x hx2
      obtain ⟨c, hcm, hcf, hcn⟩ := exists_find? (fun y : CtAttr G1 => y.name) ct.ej l.1 (by rw [hc.names]; exact hla)
      rw [hx3] at hneg hpos
      have hb := isNegative_ok hneg
      have hkk : leafKey l = (l.1, leafIdx l) := rfl
      simp only [decryptStep, hkk, hy1, hcf, firstCoeff_find p (1 : F) hlp, hneg, Res.unwrapOption_some, Res.ok_bind,
        Res.ok.injEq]
      cases neg with
      | true => simp [hb.1 rfl]
      | false =>
        have hb' : ¬ l.1.head? = some '!' := fun h => by simpa using hb.2 h
        obtain ⟨r, hd1, hd2⟩ := hpos rfl
        have hz : env.pair y.d1 ct.e2 + -(env.pair c.e1 y.d2) =
            namedShare p msk.alpha1 t₂.fr l.1 • (msk.alpha2 * t₃.fr 0) • env.pair pk.g1 pk.g2 := by
          rw [hd1, hd2, hc.ej c hcm, hcn, hc.e2, hx4]
          simp only [map_smul, map_add, LinearMap.smul_apply, LinearMap.add_apply]
          module
        simp only [Bool.false_eq_true, if_false, hb', hz]) (0, 0)
  have hpol := hk.policy
  refine ⟨fun hr => ?_, fun hr hsat => ?_, fun hr hsat hu => ?_, fun hr hsat hu => ?_⟩
  · simp [decrypt, hpol, hc.names, (calcPruned_reach attrs p).2 hr]
  · simp [decrypt, hpol, hc.names, (calcPruned_reach attrs p).1 hr, hsat]
  · simp [decrypt, hpol, hc.names, (calcPruned_reach attrs p).1 hr, hsat, calcCoefficients_eq, hfold.1 hu]
  · have h0 := foldl_total p msk.alpha1 t₂.fr ((msk.alpha2 * t₃.fr 0) • env.pair pk.g1 pk.g2) (pick attrs p) 0 0
    simp only [zero_smul, zero_add] at h0
    simp only [decrypt, hpol, hc.names, (calcPruned_reach attrs p).1 hr, hsat, calcCoefficients_eq, Res.ok_bind, if_true,
      Res.unwrapOption_some, List.nil_append, hfold.2 hu]
    rw [h0, hc.e1, hs, hα.1, hα.2]
    congr 1
    module

/-- With pairwise different labels, if the used names occur once in the policy and none of them starts with `!`, the sum
is the shared secret. -/
theorem total_eq [BigChar F] (attrs : List Str) (p : Pol) (hf : p.Fits) (hn : p.leaves.Nodup)
    (hsat : p.sat attrs = true) (hr : Reach attrs p) (σ : F) (ω : ℕ → F) (v : F)
    (hu : ∀ l ∈ pick attrs p, '_' ∉ l.1 ∧ l.1.head? ≠ some '!' ∧ (p.names.map cut).count l.1 = 1) :
    total p σ ω (pick attrs p) v = σ := by
  refine Eq.trans ?_ (labels_weight attrs p hf hn hsat hr σ ω)
  have hsub := (pick_sublist attrs p).subset
  generalize pick attrs p = L at hu hsub
  induction L generalizing v with
  | nil => rfl
  | cons l L ih =>
    obtain ⟨h1, h2, h3⟩ := hu l (by simp)
    have hl : l ∈ p.leaves := hsub (by simp)
    simp only [total, h2, if_false, List.map_cons, List.sum_cons, namedShare_unique σ ω hn hl h1 h3,
      firstCoeff_eq hn (1 : F) hl, ih _ (fun l hl => hu l (by simp [hl])) (fun l hl => hsub (by simp [hl]))]

/-- **C75, LSW, correctness** (stronger than C34): for every accepted policy with pairwise different labels, if pruning
meets no gate with fewer than two children and the names it selects are positive, occur once and have no underscore,
decryption returns the plaintext. -/
theorem C75_lsw_correct [BigChar F] (env : Env F G1 G2 Gt)
    (t₁ t₁' : Tape F G1 G2 Gt) (pk : PublicKey G1 G2 Gt) (msk : MasterKey F G1 G2)
    (hsetup : setup env t₁ = .ok ((pk, msk), t₁'))
    (text : Str) (lang : PolicyLanguage) (p : Pol) (hp : Denotes text lang p)
    (t₂ t₂' : Tape F G1 G2 Gt) (sk : SecretKey G1 G2)
    (hkey : keygen env pk msk text lang t₂ = .ok (sk, t₂'))
    (attrs : List Str) (plaintext : Bytes) (t₃ t₃' : Tape F G1 G2 Gt) (ct : Ciphertext G1 G2 Gt)
    (henc : encrypt env pk attrs plaintext t₃ = .ok (ct, t₃'))
    (hf : p.Fits) (hn : p.leaves.Nodup) (hsat : p.sat attrs = true) (hr : Reach attrs p)
    (hu : ∀ l ∈ pick attrs p, '_' ∉ l.1 ∧ l.1.head? ≠ some '!' ∧ (p.names.map cut).count l.1 = 1) :
    decrypt env sk ct = .ok plaintext := by
  rw [(C75_lsw_outcome env t₁ t₁' pk msk hsetup text lang p hp t₂ t₂' sk hkey attrs plaintext t₃ t₃' ct henc).2.2.2 hr hsat
    fun l hl => (hu l hl).1, total_eq attrs p hf hn hsat hr _ _ _ hu]
  unfold encrypt at henc
  split at henc
  · simp at henc
  · simp only [RM.bind_ok, RM.genFr, RM.genGt, RM.lift_ok_iff, RM.pure_ok, Res.ok.injEq, Prod.mk.injEq] at henc
    obtain ⟨s, t1, ⟨rfl, rfl⟩, sx, t2, hsx, ej, t3, ⟨hej, rfl⟩, msg, t4, ⟨rfl, rfl⟩, c, t5, hc, rfl, _⟩ := henc
    have hgt := sxLoop_gt _ _ _ _ hsx
    have := encryptSymmetric_ok hc
    rw [hgt] at this
    simpa using this

set_option maxRecDepth 4000 in
/-- A policy with a gate of one child that pruning does not visit for the attribute `A` and visits for `B`: all hypotheses
of `C75_lsw_correct` and of the first case of `C75_lsw_outcome`. -/
example : ∃ (p : Pol) (pk : PublicKey Fr Fr Fr) (msk : MasterKey Fr Fr Fr) (sk : SecretKey Fr Fr)
    (ct : Ciphertext Fr Fr Fr) (t₁ t₂ t₃ : Tape Fr Fr Fr Fr),
    Denotes (chars% "{\"name\": \"or\", \"children\": [{\"name\": \"A\"}, {\"name\": \"and\", \"children\": [{\"name\": \"B\"}]}]}")
      .json p ∧ ¬ p.Wide ∧ p.Fits ∧ p.leaves.Nodup ∧ Reach [['A']] p ∧ p.sat [['A']] = true ∧ ¬ Reach [['B']] p ∧
    (∀ l ∈ pick [['A']] p, '_' ∉ l.1 ∧ l.1.head? ≠ some '!' ∧ (p.names.map cut).count l.1 = 1) ∧
    setup toyEnv toyTape = .ok ((pk, msk), t₁) ∧
    keygen toyEnv pk msk (chars% "{\"name\": \"or\", \"children\": [{\"name\": \"A\"}, {\"name\": \"and\", \"children\": [{\"name\": \"B\"}]}]}")
      .json { toyTape with fr := fun n => n } = .ok (sk, t₂) ∧
    encrypt toyEnv pk [['A']] [7, 8] toyTape = .ok (ct, t₃) ∧ decrypt toyEnv sk ct = .ok [7, 8] := by
  have h : toyRun { toyTape with fr := fun n => n } [['A']]
    (chars% "{\"name\": \"or\", \"children\": [{\"name\": \"A\"}, {\"name\": \"and\", \"children\": [{\"name\": \"B\"}]}]}")
    .json [7, 8] = .ok (.ok [7, 8]) := by
    decide +kernel
  obtain ⟨pk, msk, sk, ct, t1, t2, t3, h⟩ := toyRun_ok h
  refine ⟨.gate .or [.leaf ['A'] 39, .gate .and [.leaf ['B'] 83]], pk, msk, sk, ct, t1, t2, t3, rfl,
    by simp [Pol.Wide], by simp [Pol.Fits], by simp, by simp [Reach, ReachFirst], by simp, by simp [Reach, ReachFirst],
    ?_, h⟩
  intro l hl
  have := pick_owned _ _ l hl
  simp only [List.mem_singleton] at this
  rw [this]
  decide +kernel

/-- A repeated name: the key component of the first leaf `A` is used with the coefficient of the second, and the sum is not
the secret. -/
example : ∃ (p : Pol), Denotes (chars% "(\"A\" and \"B\") or (\"A\" and \"C\")") .human p ∧
    p.sat [['A'], ['C']] = true ∧ Reach [['A'], ['C']] p ∧ (∀ l ∈ pick [['A'], ['C']] p, '_' ∉ l.1) ∧
    total p (1 : Fr) (fun n => n) (pick [['A'], ['C']] p) 0 ≠ 1 := by
  refine ⟨.gate .or [.gate .and [.leaf ['A'] 3, .leaf ['B'] 11], .gate .and [.leaf ['A'] 20, .leaf ['C'] 28]], rfl,
    by simp, by simp [Reach, ReachFirst, ReachAll], ?_, by decide +kernel⟩
  intro l hl
  have := pick_owned _ _ l hl
  simp only [List.mem_cons, List.not_mem_nil, or_false] at this
  rcases this with h | h <;> simp [h]

end Lsw

namespace Yct14

/-- The sum of coefficients and shares that decryption forms over the used leaves: every name contributes the share of the
first leaf with this name. -/
def total (p : Pol) (σ : F) (ω : ℕ → F) (L : List (Str × ℕ)) : F :=
  (L.map fun l => firstCoeff p (1 : F) l * namedShare p σ ω l.1).sum

/-- Lookup in the list of key components, made from the shares by dropping those that fail. -/
theorem mapR_find {α β : Type} {f : α → Res (Option β)} (k : α → Str) (g : β → Str) (n : Str) {xs : List α} {os}
    (h : Res.mapR f xs = .ok os) (hk : ∀ x ∈ xs, ∀ y, f x = .ok (some y) → g y = k x)
    (hn : ∀ x ∈ xs, k x = n → f x ≠ .ok none) :
    (os.filterMap id).find? (fun y => g y == n) = (xs.find? fun x => k x == n).bind fun x =>
      match f x with | .ok o => o | _ => none := by
  have hf := mapR_ok h
  clear h
  induction hf with
  | nil => rfl
  | @cons x o xs os hxo _ ih =>
    have ih := ih (fun x hx => hk x (by simp [hx])) (fun x hx => hn x (by simp [hx]))
    by_cases hx : k x = n
    · cases o with
      | none => exact absurd hxo (hn x (by simp) hx)
      | some y =>
        have hy : g y = n := (hk x (by simp) y hxo).trans hx
        simp [hx, hy, hxo]
    · rw [List.find?_cons_of_neg (by simpa using hx), ← ih]
      cases o with
      | none => rfl
      | some y =>
        have hy : ¬ g y = n := fun h => hx ((hk x (by simp) y hxo) ▸ h)
        simp only [List.filterMap_cons, id]
        rw [List.find?_cons_of_neg (by simpa using hy)]

/-- The exponent of an encryption is its first random number; the payload is sealed with this multiple of the public key. -/
theorem encrypt_exact {env : Env F G1 G2 Gt} {uni} {pk : PublicKey F Gt} {msk L g attrs plaintext} {t₃ t₃' : Tape F G1 G2 Gt}
    {ct : Ciphertext F Gt} (hs : IsSetup uni pk msk g L) (henc : encrypt env pk attrs plaintext t₃ = .ok (ct, t₃')) :
    IsCt L g attrs ct (t₃.fr 0) ∧ decryptSymmetric env (t₃.fr 0 • pk.g) ct.ct = .ok plaintext := by
  obtain ⟨k, hc, hd⟩ := encrypt_ok hs henc
  unfold encrypt at henc
  split at henc
  · simp at henc
  split at henc
  · simp at henc
  · simp only [RM.bind_ok, RM.genFr, RM.lift_ok_iff, RM.pure_ok, Res.ok.injEq, Prod.mk.injEq] at henc
    obtain ⟨k, t1, ⟨rfl, rfl⟩, as, t2, ⟨has, rfl⟩, c, t3, hcc, rfl, _⟩ := henc
    refine ⟨⟨hc.names, ?_⟩, encryptSymmetric_ok hcc⟩
    intro y hy
    obtain ⟨x, _, hxy⟩ := Forall₂.mem_right (mapR_ok has) y hy
    rw [publicFrom_eq hs] at hxy
    cases he : expOf L x with
    | none => simp [he] at hxy
    | some e =>
      rw [he] at hxy
      obtain rfl := Res.ok.inj hxy
      exact ⟨e, he, rfl⟩

omit [AddCommGroup G1] [Module F G1] [AddCommGroup G2] [Module F G2] [AddCommGroup Gt] [Module F Gt] in
/-- The components of an issued key are those of the shares that do not fail. -/
theorem keygen_du {msk : MasterKey F Gt} {text lang} {p : Pol} (hp : Denotes text lang p) {t₂ t₂' : Tape F G1 G2 Gt}
    {sk : SecretKey F Gt} (hkey : keygen msk text lang t₂ = .ok (sk, t₂')) :
    ∃ os, Res.mapR (keygenShare msk) (shares p msk.s t₂.fr) = .ok os ∧ sk.du = os.filterMap id := by
  simp only [keygen, RM.bind_ok, RM.lift_ok_iff, show parse text lang = .ok p.toValue from hp, Res.ok.injEq,
    RM.liftFr] at hkey
  obtain ⟨pv, t1, ⟨rfl, rfl⟩, sh, t2, hsh, h⟩ := hkey
  rw [genSharesPolicy_eq] at hsh
  simp only [Res.ok.injEq, Prod.mk.injEq] at hsh
  obtain ⟨rfl, rfl⟩ := hsh
  simp only [RM.bind_ok, RM.pure_ok, RM.lift_ok_iff] at h
  obtain ⟨du, t3, ⟨hdu, _⟩, rfl, _⟩ := h
  exact ⟨du, hdu, rfl⟩

/-- **C75, YCT14.** Any set-up, any issued key, any encryption, any accepted policy text. A gate that pruning visits has
fewer than two children: abort, whether or not the policy is satisfied. Otherwise: not satisfied: error. A used name has an
underscore: abort. Otherwise the payload is opened with `k·total` times the generator, where it was sealed with `k·s` times
the generator. -/
theorem C75_yct14_outcome (env : Env F G1 G2 Gt)
    (universe_ : List Str) (t₁ t₁' : Tape F G1 G2 Gt) (pk : PublicKey F Gt) (msk : MasterKey F Gt)
    (hsetup : setup universe_ t₁ = .ok ((pk, msk), t₁'))
    (text : Str) (lang : PolicyLanguage) (p : Pol) (hp : Denotes text lang p)
    (t₂ t₂' : Tape F G1 G2 Gt) (sk : SecretKey F Gt)
    (hkey : keygen msk text lang t₂ = .ok (sk, t₂'))
    (attrs : List Str) (plaintext : Bytes) (t₃ t₃' : Tape F G1 G2 Gt) (ct : Ciphertext F Gt)
    (henc : encrypt env pk attrs plaintext t₃ = .ok (ct, t₃')) :
    (¬ Reach attrs p → decrypt env sk ct = .panic) ∧
    (Reach attrs p → p.sat attrs = false → decrypt env sk ct = .err) ∧
    (Reach attrs p → p.sat attrs = true → (∃ l ∈ pick attrs p, '_' ∈ l.1) → decrypt env sk ct = .panic) ∧
    (Reach attrs p → p.sat attrs = true → (∀ l ∈ pick attrs p, '_' ∉ l.1) → decrypt env sk ct =
      decryptSymmetric env ((t₃.fr 0 * total p (t₁.fr 0) t₂.fr (pick attrs p)) • t₁.gt 0) ct.ct) ∧
    decryptSymmetric env ((t₃.fr 0 * t₁.fr 0) • t₁.gt 0) ct.ct = .ok plaintext := by
  obtain ⟨hσ, L, hs⟩ := setup_exact hsetup
  obtain ⟨hk, hpol⟩ := keygen_ok hs hp hkey
  obtain ⟨hc, hd⟩ := encrypt_exact hs henc
  obtain ⟨os, hos, hdu⟩ := keygen_du hp hkey
  have hname : ∀ x ∈ shares p msk.s t₂.fr, ∀ y, keygenShare msk x = .ok (some y) → y.name = removeIndex x.1 := by
    intro x _ y hxy
    rw [keygenShare_eq hs] at hxy
    cases he : expOf L (removeIndex x.1) with
    | none => simp [he] at hxy
    | some e =>
      rw [he] at hxy
      simp only [] at hxy
      split at hxy
      · simp at hxy
      · simp only [Res.ok.injEq, Option.some.injEq] at hxy
        rw [← hxy]
  have hfold := foldR_outcome (decryptStep sk ct (coeffs p 1))
    (fun (acc : Gt) l => acc + (firstCoeff p (1 : F) l * namedShare p msk.s t₂.fr l.1 * t₃.fr 0) • t₁.gt 0)
    (fun l => '_' ∈ l.1) (pick attrs p)
    (by
      intro l hl hu acc
      have : sk.du.find? (fun y => y.name == l.1) = none := by
        rw [List.find?_eq_none]
        intro y hy hcon
        obtain ⟨x, hx, e, _, _, rfl⟩ := hk.sound y hy
        have hx' : removeIndex x.1 ∈ p.names.map cut := by
          rw [← shares_cut p msk.s t₂.fr]; exact List.mem_map.2 ⟨x, hx, rfl⟩
        obtain ⟨m, _, hm⟩ := List.mem_map.1 hx'
        rw [← beq_iff_eq.1 hcon, ← hm] at hu
        exact not_mem_cut m hu
      have hla : l.1 ∈ attrs := pick_owned attrs p l hl
      obtain ⟨c, hcm, hcf, hcn⟩ := exists_find? (fun y : Attribute F Gt => y.name) ct.attributes l.1
        (by rw [hc.names]; exact hla)
      obtain ⟨e, he, hnode⟩ := hc.nodes c hcm
      simp [decryptStep, leafKey, SecretKey.getPrivate, this, Ciphertext.getPublic, hcf, hnode, Node.public])
    (by
      intro l hl hu acc
      have hlp : l ∈ p.leaves := (pick_sublist attrs p).subset hl
      have hla : l.1 ∈ attrs := pick_owned attrs p l hl
      obtain ⟨c, hcm, hcf, hcn⟩ := exists_find? (fun y : Attribute F Gt => y.name) ct.attributes l.1
        (by rw [hc.names]; exact hla)
      obtain ⟨e, he, hnode⟩ := hc.nodes c hcm
      rw [hcn] at he
      obtain ⟨x, hx1, hx2, hx3, hx4⟩ := namedShare_find p msk.s t₂.fr (n := l.1)
        (List.mem_map.2 ⟨l.1, List.mem_map.2 ⟨l, hlp, rfl⟩, cut_eq hu⟩)
      have hks := keygenShare_eq hs x
      rw [hx3, he] at hks
      simp only [] at hks
      have hfind := mapR_find (fun x : Str × F => removeIndex x.1) (fun y : Attribute F Gt => y.name) l.1 hos hname
        (by
          intro z _ hz hcon
          rw [keygenShare_eq hs, hz, he] at hcon
          simp only [] at hcon
          split at hcon <;> simp at hcon)
      obtain ⟨o, _, ho⟩ := Forall₂.mem_left (mapR_ok hos) x hx1
      have hne : e ≠ 0 := by
        rintro rfl
        rw [hks] at ho
        simp at ho
      rw [if_neg hne] at hks
      rw [hx2, Option.bind_some, hks, ← hdu] at hfind
      simp only [decryptStep, leafKey, SecretKey.getPrivate, hfind, Ciphertext.getPublic, hcf, hnode, Node.public,
        Node.private, Res.unwrapOption_some, Res.ok_bind, Res.unwrap_ok]
      rw [show (coeffs p (1 : F)).find? (fun c => c.1 == nodeIndex l.1 l.2) = _ from firstCoeff_find p (1 : F) hlp]
      simp only [Res.unwrapOption_some, Res.ok_bind, Res.ok.injEq, hx4]
      congr 1
      match_scalars
      field_simp) 0
  have hpol := hk.policy
  refine ⟨fun hr => ?_, fun hr hsat => ?_, fun hr hsat hu => ?_, fun hr hsat hu => ?_, ?_⟩
  · simp [decrypt, hpol, hc.names, (calcPruned_reach attrs p).2 hr]
  · simp [decrypt, hpol, hc.names, (calcPruned_reach attrs p).1 hr, hsat]
  · simp [decrypt, hpol, hc.names, (calcPruned_reach attrs p).1 hr, hsat, calcCoefficients_eq, hfold.1 hu]
  · have hsum : ∀ (M : List (Str × ℕ)) (a : F), M.foldl (fun (acc : Gt) l =>
        acc + (firstCoeff p (1 : F) l * namedShare p msk.s t₂.fr l.1 * t₃.fr 0) • t₁.gt 0) (a • t₁.gt 0) =
        (a + t₃.fr 0 * total p msk.s t₂.fr M) • t₁.gt 0 := by
      intro M
      induction M with
      | nil => intro a; simp [total]
      | cons l M ih =>
        intro a
        rw [List.foldl_cons, ← add_smul, ih]
        simp only [total, List.map_cons, List.sum_cons]
        congr 1
        ring
    have h0 := hsum (pick attrs p) 0
    rw [zero_smul, zero_add] at h0
    simp only [decrypt, hpol, hc.names, (calcPruned_reach attrs p).1 hr, hsat, calcCoefficients_eq, Res.ok_bind, if_true,
      Res.unwrapOption_some, List.nil_append, hfold.2 hu]
    rw [h0, hσ]
  · rwa [hs.gs, hσ, smul_smul] at hd

/-- **C75, YCT14, correctness** (stronger than C36): for every accepted policy with pairwise different labels, if pruning
meets no gate with fewer than two children and the names it selects occur once and have no underscore, decryption returns
the plaintext. -/
theorem C75_yct14_correct [BigChar F] (env : Env F G1 G2 Gt)
    (universe_ : List Str) (t₁ t₁' : Tape F G1 G2 Gt) (pk : PublicKey F Gt) (msk : MasterKey F Gt)
    (hsetup : setup universe_ t₁ = .ok ((pk, msk), t₁'))
    (text : Str) (lang : PolicyLanguage) (p : Pol) (hp : Denotes text lang p)
    (t₂ t₂' : Tape F G1 G2 Gt) (sk : SecretKey F Gt)
    (hkey : keygen msk text lang t₂ = .ok (sk, t₂'))
    (attrs : List Str) (plaintext : Bytes) (t₃ t₃' : Tape F G1 G2 Gt) (ct : Ciphertext F Gt)
    (henc : encrypt env pk attrs plaintext t₃ = .ok (ct, t₃'))
    (hf : p.Fits) (hn : p.leaves.Nodup) (hsat : p.sat attrs = true) (hr : Reach attrs p)
    (hu : ∀ l ∈ pick attrs p, '_' ∉ l.1 ∧ (p.names.map cut).count l.1 = 1) :
    decrypt env sk ct = .ok plaintext := by
  obtain ⟨_, _, _, h1, h2⟩ := C75_yct14_outcome env universe_ t₁ t₁' pk msk hsetup text lang p hp t₂ t₂' sk hkey attrs
    plaintext t₃ t₃' ct henc
  rw [h1 hr hsat fun l hl => (hu l hl).1, ← h2]
  congr 3
  refine Eq.trans ?_ (labels_weight attrs p hf hn hsat hr _ t₂.fr)
  unfold total
  congr 1
  refine List.map_congr_left fun l hl => ?_
  have hlp : l ∈ p.leaves := (pick_sublist attrs p).subset hl
  rw [namedShare_unique _ _ hn hlp (hu l hl).1 (hu l hl).2, firstCoeff_eq hn (1 : F) hlp]

set_option maxRecDepth 4000 in
/-- A policy with a gate of one child that pruning does not visit for the attribute `A` and visits for `B`: all hypotheses
of `C75_yct14_correct` and of the first case of `C75_yct14_outcome`. -/
example : ∃ (p : Pol) (pk : PublicKey Fr Fr) (msk : MasterKey Fr Fr) (sk : SecretKey Fr Fr)
    (ct : Ciphertext Fr Fr) (t₁ t₂ t₃ : Tape Fr Fr Fr Fr),
    Denotes (chars% "{\"name\": \"or\", \"children\": [{\"name\": \"A\"}, {\"name\": \"and\", \"children\": [{\"name\": \"B\"}]}]}")
      .json p ∧ ¬ p.Wide ∧ p.Fits ∧ p.leaves.Nodup ∧ Reach [['A']] p ∧ p.sat [['A']] = true ∧ ¬ Reach [['B']] p ∧
    (∀ l ∈ pick [['A']] p, '_' ∉ l.1 ∧ (p.names.map cut).count l.1 = 1) ∧
    setup [['A'], ['B']] toyTape = .ok ((pk, msk), t₁) ∧
    keygen msk (chars% "{\"name\": \"or\", \"children\": [{\"name\": \"A\"}, {\"name\": \"and\", \"children\": [{\"name\": \"B\"}]}]}")
      .json { toyTape with fr := fun n => n } = .ok (sk, t₂) ∧
    encrypt toyEnv pk [['A']] [7, 8] toyTape = .ok (ct, t₃) ∧ decrypt toyEnv sk ct = .ok [7, 8] := by
  have h : toyRun [['A'], ['B']] { toyTape with fr := fun n => n } [['A']]
    (chars% "{\"name\": \"or\", \"children\": [{\"name\": \"A\"}, {\"name\": \"and\", \"children\": [{\"name\": \"B\"}]}]}")
    .json [7, 8] = .ok (.ok [7, 8]) := by
    decide +kernel
  obtain ⟨pk, msk, sk, ct, t1, t2, t3, h⟩ := toyRun_ok h
  refine ⟨.gate .or [.leaf ['A'] 39, .gate .and [.leaf ['B'] 83]], pk, msk, sk, ct, t1, t2, t3, rfl,
    by simp [Pol.Wide], by simp [Pol.Fits], by simp, by simp [Reach, ReachFirst], by simp, by simp [Reach, ReachFirst],
    ?_, h⟩
  intro l hl
  have := pick_owned _ _ l hl
  simp only [List.mem_singleton] at this
  rw [this]
  decide +kernel

/-- A repeated name: the key component of the first leaf `A` is used with the coefficient of the second, and the sum is not
the secret. -/
example : ∃ (p : Pol), Denotes (chars% "(\"A\" and \"B\") or (\"A\" and \"C\")") .human p ∧
    p.sat [['A'], ['C']] = true ∧ Reach [['A'], ['C']] p ∧ (∀ l ∈ pick [['A'], ['C']] p, '_' ∉ l.1) ∧
    total p (1 : Fr) (fun n => n) (pick [['A'], ['C']] p) ≠ 1 := by
  refine ⟨.gate .or [.gate .and [.leaf ['A'] 3, .leaf ['B'] 11], .gate .and [.leaf ['A'] 20, .leaf ['C'] 28]], rfl,
    by simp, by simp [Reach, ReachFirst, ReachAll], ?_, by decide +kernel⟩
  intro l hl
  have := pick_owned _ _ l hl
  simp only [List.mem_cons, List.not_mem_nil, or_false] at this
  rcases this with h | h <;> simp [h]

end Yct14
end Rabe
