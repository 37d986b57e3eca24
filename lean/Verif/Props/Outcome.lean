import Mathlib.Tactic.LinearCombination
import Verif.Proof.Lookup
import Verif.Proof.KpCommon
import Verif.Props.Bsw
import Verif.Props.Ghw11

/-!
# C75: what an honest decryption computes, for every accepted policy

The correctness theorems C25, C30, … have hypotheses on the policy. Here nothing is assumed about gates, names and
columns: for keys issued and ciphertexts made by the library the result of decryption is given for every accepted policy
text, as a function of the random numbers that were drawn. Session elements are off by an explicit multiple of the
pairing of the generators; decryption is correct exactly if the multiple is zero.
-/

namespace Rabe

variable {F G1 G2 Gt : Type} [Field F] [DecidableEq F] [AddCommGroup G1] [Module F G1]
  [AddCommGroup G2] [Module F G2] [AddCommGroup Gt] [Module F Gt]

namespace Bsw

omit [DecidableEq F] in
/-- The components of the key in terms of the drawn scalars. -/
theorem mapL_keygenAttr_exact (env : Env F G1 G2 Gt) (pk : PublicKey G1 G2 Gt) (x : G2) :
    ∀ (attrs : List Str) (t : Tape F G1 G2 Gt) {dJ t'}, RM.mapL (keygenAttr env pk x) attrs t = .ok (dJ, t') →
      dJ.map (·.string) = attrs ∧
      ∀ a ∈ attrs, dJ.find? (fun y => y.string == a) = some
        ⟨a, t.fr (attrs.idxOf a) • pk.g1, x + t.fr (attrs.idxOf a) • env.hash a • pk.g2⟩ := by
  intro attrs
  induction attrs with
  | nil => intro t dJ t' h; simp_all [RM.mapL, RM.pure]
  | cons b bs ih =>
    intro t dJ t' h
    simp only [RM.mapL, RM.rbind_eq, RM.rpure_eq, RM.bind_ok, RM.pure_ok, keygenAttr, RM.genFr, Res.ok.injEq,
      Prod.mk.injEq] at h
    obtain ⟨y, t1, ⟨_, _, ⟨rfl, rfl⟩, rfl, rfl⟩, ys, t2, h2, rfl, rfl⟩ := h
    obtain ⟨i1, i2⟩ := ih _ h2
    refine ⟨by simp [i1], ?_⟩
    intro a ha
    by_cases hab : b = a
    · subst hab
      simp [Env.sha3Hash]
    · have ha' : a ∈ bs := by
        rcases List.mem_cons.1 ha with h | h
        · exact absurd h.symm hab
        · exact h
      have := i2 a ha'
      rw [List.find?_cons_of_neg (by simpa using hab), this, List.idxOf_cons_ne _ hab]
      simp [dropS, Nat.add_comm]

/-- The multiple of `e(g1, g2)` that an honest decryption adds to the session element: for every used leaf the
coefficients and the share found under its label, the key exponent `r` and the exponent `ρ n` of the key component, where the
key uses the hash of the name and the ciphertext the hash of the part before the first underscore. -/
def excess (env : Env F G1 G2 Gt) (attrs : List Str) (p : Pol) (s : F) (ω : ℕ → F) (r : F) (ρ : Str → F) : F :=
  ((pick attrs p).map fun l => coeffSum p (1 : F) l * firstShare p s ω l *
    (r + ρ l.1 * (env.hash l.1 - env.hash (cut l.1)))).sum - s * r

/-- What `decrypt` recovers, before the payload is opened. -/
theorem recoverMsg_outcome (env : Env F G1 G2 Gt)
    (t₁ t₁' : Tape F G1 G2 Gt) (pk : PublicKey G1 G2 Gt) (msk : MasterKey F G2)
    (hsetup : setup env t₁ = .ok ((pk, msk), t₁'))
    (attrs : List Str) (t₂ t₂' : Tape F G1 G2 Gt) (sk : SecretKey G1 G2)
    (hkey : keygen env pk msk attrs t₂ = .ok (some sk, t₂'))
    (text : Str) (lang : PolicyLanguage) (p : Pol) (hp : Denotes text lang p)
    (plaintext : Bytes) (t₃ t₃' : Tape F G1 G2 Gt) (ct : Ciphertext G1 G2 Gt)
    (henc : encrypt env pk text lang plaintext t₃ = .ok (ct, t₃')) :
    (p.sat attrs = false → recoverMsg env sk ct = .err) ∧
    (p.sat attrs = true → ¬ Reach attrs p → recoverMsg env sk ct = .panic) ∧
    (p.sat attrs = true → Reach attrs p → recoverMsg env sk ct = .ok
      (t₃.gt 0 + excess env attrs p (t₃.fr 0) (dropS 1 t₃.fr) (t₂.fr 0) (fun n => t₂.fr (attrs.idxOf n + 1)) •
        env.pair pk.g1 pk.g2)) := by
  obtain ⟨α, β, hs⟩ := setup_ok hsetup
  have hp' : parse text lang = .ok p.toValue := hp
  -- the key
  unfold keygen at hkey
  split at hkey
  · simp at hkey
  rename_i hne
  have hne' : attrs ≠ [] := by rintro rfl; simp at hne
  simp only [RM.bind_ok, RM.genFr, RM.lift_ok_iff, RM.pure_ok, inv, Res.ok.injEq, Prod.mk.injEq,
    Option.some.injEq] at hkey
  obtain ⟨r, t1, ⟨rfl, rfl⟩, bi, t2, ⟨hb, rfl⟩, dJ, t3, hd, rfl, _⟩ := hkey
  obtain ⟨hn, hf⟩ := mapL_keygenAttr_exact env pk _ attrs _ hd
  rw [if_neg (by rw [hs.beta]; exact hs.beta_ne), Res.ok.injEq] at hb
  -- the ciphertext
  simp only [encrypt, RM.bind_ok, RM.genFr, RM.genGt, RM.lift_ok_iff, RM.pure_ok, hp', Res.ok.injEq,
    Prod.mk.injEq, RM.liftFr] at henc
  obtain ⟨s, u1, ⟨rfl, rfl⟩, msg, u2, ⟨rfl, rfl⟩, pv, u3, ⟨rfl, rfl⟩, sh, u4, hsh, shs, u5, ⟨hu, rfl⟩, data, u6,
    hdat, rfl, _⟩ := henc
  rw [genSharesPolicy_eq] at hsh
  simp only [Res.ok.injEq, Prod.mk.injEq] at hsh
  obtain ⟨rfl, rfl⟩ := hsh
  simp only [Res.unwrapOption_some, Res.ok.injEq] at hu
  subst hu
  have ht := traverse_eq_sat attrs hne' p .leaf
  refine ⟨fun h => ?_, fun h hr => ?_, fun h hr => ?_⟩
  · simp [recoverMsg, hp', hn, ht, h]
  · simp [recoverMsg, hp', hn, ht, h, (calcPruned_reach attrs p).2 hr]
  · simp only [recoverMsg, hp', Res.ok_bind, hn, ht, h, (calcPruned_reach attrs p).1 hr,
      calcCoefficients_eq, Res.unwrapOption_some, Bool.true_eq_false, if_false, Bool.not_true, Bool.false_eq_true,
      List.nil_append, Res.ok.injEq]
    rw [prunedLoop_eq env _ _ _ (fun l => (coeffSum p (1 : F) l * firstShare p (t₃.fr 0) (dropS 1 t₃.fr) l *
      (t₂.fr 0 + t₂.fr (attrs.idxOf l.1 + 1) * (env.hash l.1 - env.hash (cut l.1)))) • env.pair pk.g1 pk.g2)
      (pick attrs p)]
    · rw [sum_map_smul, excess, ← hb, hs.h, hs.beta, hs.g2Alpha, hs.e]
      generalize ((pick attrs p).map fun l => coeffSum p (1 : F) l * firstShare p (t₃.fr 0) (dropS 1 t₃.fr) l *
        (t₂.fr 0 + t₂.fr (attrs.idxOf l.1 + 1) * (env.hash l.1 - env.hash (cut l.1)))).sum = S
      simp only [map_smul, map_add, LinearMap.smul_apply]
      have hβ := hs.beta_ne
      match_scalars <;> field_simp <;> ring
    · intro l hl
      have hlp : l ∈ p.leaves := (pick_sublist attrs p).subset hl
      have hown := pick_owned attrs p l hl
      have hfind := shares_find p (t₃.fr 0) (dropS 1 t₃.fr) hlp
      refine ⟨encAttr env pk (leafIdx l, firstShare p (t₃.fr 0) (dropS 1 t₃.fr) l), _, ?_, hf _ hown, ?_⟩
      · simp only [List.find?_map, Function.comp_def, encAttr]
        rw [show (shares p (t₃.fr 0) (dropS 1 t₃.fr)).find? (fun x => x.1 == leafIdx l) = _ from hfind]
        rfl
      · intro a
        rw [coeffLoop_acc]
        congr 1
        rw [sum_map_smul]
        change coeffSum p (1 : F) l • _ = _
        simp only [encAttr, Env.sha3Hash, removeIndex_leafIdx, map_smul, map_add, LinearMap.smul_apply, dropS,
          Nat.add_comm 1 _]
        module

/-- **C75, BSW.** Any set-up, any issued key, any encryption, any accepted policy text. Not satisfied: error. A gate that
pruning visits has fewer than two children: abort. Otherwise the payload is opened with the encrypted session element plus
`excess` times the pairing of the generators, where `s`, `ω`, `r`, `ρ` are the scalars drawn by `encrypt` and `keygen`. -/
theorem C75_bsw_outcome (env : Env F G1 G2 Gt)
    (t₁ t₁' : Tape F G1 G2 Gt) (pk : PublicKey G1 G2 Gt) (msk : MasterKey F G2)
    (hsetup : setup env t₁ = .ok ((pk, msk), t₁'))
    (attrs : List Str) (t₂ t₂' : Tape F G1 G2 Gt) (sk : SecretKey G1 G2)
    (hkey : keygen env pk msk attrs t₂ = .ok (some sk, t₂'))
    (text : Str) (lang : PolicyLanguage) (p : Pol) (hp : Denotes text lang p)
    (plaintext : Bytes) (t₃ t₃' : Tape F G1 G2 Gt) (ct : Ciphertext G1 G2 Gt)
    (henc : encrypt env pk text lang plaintext t₃ = .ok (ct, t₃')) :
    (p.sat attrs = false → decrypt env sk ct = .err) ∧
    (p.sat attrs = true → ¬ Reach attrs p → decrypt env sk ct = .panic) ∧
    (p.sat attrs = true → Reach attrs p → decrypt env sk ct = decryptSymmetric env
      (t₃.gt 0 + excess env attrs p (t₃.fr 0) (dropS 1 t₃.fr) (t₂.fr 0) (fun n => t₂.fr (attrs.idxOf n + 1)) •
        env.pair pk.g1 pk.g2) ct.data) := by
  obtain ⟨h1, h2, h3⟩ := recoverMsg_outcome env t₁ t₁' pk msk hsetup attrs t₂ t₂' sk hkey text lang p hp plaintext t₃ t₃'
    ct henc
  refine ⟨fun h => ?_, fun h hr => ?_, fun h hr => ?_⟩
  · rw [decrypt, h1 h]; rfl
  · rw [decrypt, h2 h hr]; rfl
  · rw [decrypt, h3 h hr]; rfl

/-- With pairwise different labels, in particular for every text in one line, the excess comes only from used names with
an underscore. -/
theorem C75_bsw_excess [BigChar F] (env : Env F G1 G2 Gt) (attrs : List Str) (p : Pol) (hf : p.Fits)
    (hn : p.leaves.Nodup) (hsat : p.sat attrs = true) (hr : Reach attrs p) (s : F) (ω : ℕ → F) (r : F) (ρ : Str → F) :
    excess env attrs p s ω r ρ = (((pick attrs p).filter fun l => '_' ∈ l.1).map fun l =>
      coeffSum p (1 : F) l * firstShare p s ω l * ρ l.1 * (env.hash l.1 - env.hash (cut l.1))).sum := by
  have h := labels_weight attrs p hf hn hsat hr s ω
  have key : ∀ L : List (Str × ℕ), (L.map fun l => coeffSum p (1 : F) l * firstShare p s ω l *
      (r + ρ l.1 * (env.hash l.1 - env.hash (cut l.1)))).sum =
      (L.map fun l => coeffSum p (1 : F) l * firstShare p s ω l).sum * r + ((L.filter fun l => '_' ∈ l.1).map fun l =>
      coeffSum p (1 : F) l * firstShare p s ω l * ρ l.1 * (env.hash l.1 - env.hash (cut l.1))).sum := by
    intro L
    induction L with
    | nil => simp
    | cons l L ih =>
      simp only [List.map_cons, List.sum_cons, ih, List.filter_cons]
      by_cases hu : '_' ∈ l.1
      · simp only [hu, decide_true, if_true, List.map_cons, List.sum_cons]; ring
      · simp only [hu, decide_false, Bool.false_eq_true, if_false, cut_eq hu]; ring
  rw [excess, key, h]
  ring

/-- **C75, BSW, correctness** (stronger than C25): for every accepted policy with pairwise different labels, if pruning
meets no gate with fewer than two children and the names it selects have no underscore, decryption returns the
plaintext. -/
theorem C75_bsw_correct [BigChar F] (env : Env F G1 G2 Gt)
    (t₁ t₁' : Tape F G1 G2 Gt) (pk : PublicKey G1 G2 Gt) (msk : MasterKey F G2)
    (hsetup : setup env t₁ = .ok ((pk, msk), t₁'))
    (attrs : List Str) (t₂ t₂' : Tape F G1 G2 Gt) (sk : SecretKey G1 G2)
    (hkey : keygen env pk msk attrs t₂ = .ok (some sk, t₂'))
    (text : Str) (lang : PolicyLanguage) (p : Pol) (hp : Denotes text lang p)
    (plaintext : Bytes) (t₃ t₃' : Tape F G1 G2 Gt) (ct : Ciphertext G1 G2 Gt)
    (henc : encrypt env pk text lang plaintext t₃ = .ok (ct, t₃'))
    (hf : p.Fits) (hn : p.leaves.Nodup) (hsat : p.sat attrs = true) (hr : Reach attrs p)
    (hu : ∀ l ∈ pick attrs p, '_' ∉ l.1) : decrypt env sk ct = .ok plaintext := by
  rw [(C75_bsw_outcome env t₁ t₁' pk msk hsetup attrs t₂ t₂' sk hkey text lang p hp plaintext t₃ t₃' ct henc).2.2 hsat hr,
    C75_bsw_excess env attrs p hf hn hsat hr,
    show (pick attrs p).filter (fun l => '_' ∈ l.1) = [] by simpa [List.filter_eq_nil_iff] using hu]
  have hp' : parse text lang = .ok p.toValue := hp
  simp only [encrypt, RM.bind_ok, RM.genFr, RM.genGt, RM.lift_ok_iff, RM.pure_ok, hp', Res.ok.injEq,
    Prod.mk.injEq, RM.liftFr] at henc
  obtain ⟨s, u1, ⟨rfl, rfl⟩, msg, u2, ⟨rfl, rfl⟩, pv, u3, ⟨rfl, rfl⟩, sh, u4, hsh, shs, u5, ⟨hu, rfl⟩, data, u6,
    hdat, rfl, _⟩ := henc
  simpa using encryptSymmetric_ok hdat

/-- **C75, BSW, underscores.** General form of `C25_violated_underscore`. Let `n` be a name that pruning selects, whose
hash differs from the hash of its part before the underscore, and whose leaves have a non-zero total weight. Of two keys
that differ only in the random exponent of the component for `n`, at most one recovers the session element. -/
theorem C75_bsw_underscore [BigChar F] (env : Env F G1 G2 Gt)
    (t₁ t₁' : Tape F G1 G2 Gt) (pk : PublicKey G1 G2 Gt) (msk : MasterKey F G2)
    (hsetup : setup env t₁ = .ok ((pk, msk), t₁')) (he : env.pair pk.g1 pk.g2 ≠ 0)
    (attrs : List Str) (n : Str) (t₂ t₂' u₂ u₂' : Tape F G1 G2 Gt) (sk sk' : SecretKey G1 G2)
    (hkey : keygen env pk msk attrs t₂ = .ok (some sk, t₂'))
    (hkey' : keygen env pk msk attrs u₂ = .ok (some sk', u₂'))
    (heq : ∀ i, i ≠ attrs.idxOf n + 1 → t₂.fr i = u₂.fr i) (hdiff : t₂.fr (attrs.idxOf n + 1) ≠ u₂.fr (attrs.idxOf n + 1))
    (text : Str) (lang : PolicyLanguage) (p : Pol) (hp : Denotes text lang p)
    (hf : p.Fits) (hn : p.leaves.Nodup) (hsat : p.sat attrs = true) (hr : Reach attrs p)
    (hh : env.hash n ≠ env.hash (cut n))
    (plaintext : Bytes) (t₃ t₃' : Tape F G1 G2 Gt) (ct : Ciphertext G1 G2 Gt)
    (henc : encrypt env pk text lang plaintext t₃ = .ok (ct, t₃'))
    (hw : (((pick attrs p).filter fun l => l.1 = n).map fun l =>
      coeffSum p (1 : F) l * firstShare p (t₃.fr 0) (dropS 1 t₃.fr) l).sum ≠ 0) :
    ¬ (recoverMsg env sk ct = .ok (t₃.gt 0) ∧ recoverMsg env sk' ct = .ok (t₃.gt 0)) := by
  rintro ⟨h1, h2⟩
  rw [(recoverMsg_outcome env t₁ t₁' pk msk hsetup attrs t₂ t₂' sk hkey text lang p hp plaintext t₃ t₃' ct henc).2.2 hsat
    hr, C75_bsw_excess env attrs p hf hn hsat hr] at h1
  rw [(recoverMsg_outcome env t₁ t₁' pk msk hsetup attrs u₂ u₂' sk' hkey' text lang p hp plaintext t₃ t₃' ct henc).2.2
    hsat hr, C75_bsw_excess env attrs p hf hn hsat hr] at h2
  simp only [Res.ok.injEq, add_eq_left, smul_eq_zero, he, or_false] at h1 h2
  have hnu : '_' ∈ n := by
    by_contra h
    exact hh (by rw [cut_eq h])
  have key : ∀ L : List (Str × ℕ), (∀ l ∈ L, l.1 ∈ attrs) → (((L.filter fun l => '_' ∈ l.1).map fun l =>
      coeffSum p (1 : F) l * firstShare p (t₃.fr 0) (dropS 1 t₃.fr) l * t₂.fr (attrs.idxOf l.1 + 1) *
        (env.hash l.1 - env.hash (cut l.1))).sum -
      ((L.filter fun l => '_' ∈ l.1).map fun l =>
      coeffSum p (1 : F) l * firstShare p (t₃.fr 0) (dropS 1 t₃.fr) l * u₂.fr (attrs.idxOf l.1 + 1) *
        (env.hash l.1 - env.hash (cut l.1))).sum) = ((L.filter fun l => l.1 = n).map fun l =>
      coeffSum p (1 : F) l * firstShare p (t₃.fr 0) (dropS 1 t₃.fr) l).sum *
      ((t₂.fr (attrs.idxOf n + 1) - u₂.fr (attrs.idxOf n + 1)) * (env.hash n - env.hash (cut n))) := by
    intro L
    induction L with
    | nil => simp
    | cons l L ih =>
      intro hL
      have ih := ih fun l hl => hL l (by simp [hl])
      simp only [List.filter_cons]
      by_cases hl : l.1 = n
      · simp only [hl, hnu, decide_true, if_true, List.map_cons, List.sum_cons]
        linear_combination ih
      · have hi : t₂.fr (attrs.idxOf l.1 + 1) = u₂.fr (attrs.idxOf l.1 + 1) := by
          apply heq
          intro h
          exact hl (List.idxOf_inj (hL l (by simp)) |>.1 (by omega))
        by_cases hu : '_' ∈ l.1
        · simp only [hl, hu, decide_true, decide_false, Bool.false_eq_true, if_true, if_false, List.map_cons,
            List.sum_cons, hi]
          linear_combination ih
        · simp only [hl, hu, decide_false, Bool.false_eq_true, if_false]
          exact ih
  have := key (pick attrs p) fun l hl => pick_owned attrs p l hl
  rw [h1, h2, sub_zero] at this
  rcases mul_eq_zero.1 this.symm with h | h
  · exact hw h
  · rcases mul_eq_zero.1 h with h | h
    · exact hdiff (sub_eq_zero.1 h)
    · exact hh (sub_eq_zero.1 h)

set_option maxRecDepth 4000 in
/-- A policy with a gate of one child that pruning does not visit: the hypotheses of C25 fail, those of
`C75_bsw_correct` hold. With the single attribute `B` the same key generation gives a key for which decryption aborts. -/
example : ∃ (p : Pol) (pk : PublicKey Fr Fr Fr) (msk : MasterKey Fr Fr) (sk sk' : SecretKey Fr Fr)
    (ct : Ciphertext Fr Fr Fr) (t₁ t₂ t₂' t₃ : Tape Fr Fr Fr Fr),
    Denotes (chars% "{\"name\": \"or\", \"children\": [{\"name\": \"A\"}, {\"name\": \"and\", \"children\": [{\"name\": \"B\"}]}]}")
      .json p ∧ ¬ p.Wide ∧ p.Fits ∧ p.leaves.Nodup ∧
    setup toyEnv toyTape = .ok ((pk, msk), t₁) ∧
    keygen toyEnv pk msk [['A']] toyTape = .ok (some sk, t₂) ∧
    keygen toyEnv pk msk [['B']] toyTape = .ok (some sk', t₂') ∧
    encrypt toyEnv pk (chars% "{\"name\": \"or\", \"children\": [{\"name\": \"A\"}, {\"name\": \"and\", \"children\": [{\"name\": \"B\"}]}]}")
      .json [1, 2, 3] toyTape = .ok (ct, t₃) ∧
    Reach [['A']] p ∧ ¬ Reach [['B']] p ∧ p.sat [['A']] = true ∧ p.sat [['B']] = true ∧
    decrypt toyEnv sk ct = .ok [1, 2, 3] ∧ decrypt toyEnv sk' ct = .panic := by
  obtain ⟨d1, d2, d3⟩ := C25_bsw_defined toyEnv
  obtain ⟨pk, msk, t₁, h1⟩ := d1 toyTape (by simp [toyTape])
  obtain ⟨sk, t₂, h2⟩ := d2 _ _ _ _ h1 [['A']] (by simp) toyTape
  obtain ⟨sk', t₂', h2'⟩ := d2 _ _ _ _ h1 [['B']] (by simp) toyTape
  let p : Pol := .gate .or [.leaf ['A'] 39, .gate .and [.leaf ['B'] 83]]
  have hd : Denotes (chars% "{\"name\": \"or\", \"children\": [{\"name\": \"A\"}, {\"name\": \"and\", \"children\": [{\"name\": \"B\"}]}]}")
    .json p := rfl
  obtain ⟨ct, t₃, h3⟩ := d3 pk _ _ p hd [1, 2, 3] (by simp [toyEnv]) toyTape
  have hr : Reach [['A']] p := by simp [p, Reach, ReachFirst]
  have hr' : ¬ Reach [['B']] p := by simp [p, Reach, ReachFirst]
  have hs : p.sat [['A']] = true := by simp [p]
  have hs' : p.sat [['B']] = true := by simp [p]
  have hf : p.Fits := by simp [p, Pol.Fits]
  have hn : p.leaves.Nodup := by simp [p]
  exact ⟨p, pk, msk, sk, sk', ct, t₁, t₂, t₂', t₃, hd, by simp [p, Pol.Wide], hf, hn, h1, h2, h2', h3, hr, hr', hs, hs',
    C75_bsw_correct toyEnv _ _ pk msk h1 _ _ _ sk h2 _ _ p hd _ _ _ ct h3 hf hn hs hr
      (fun l hl => by
        have : l ∈ p.leaves := (pick_sublist _ p).subset hl
        simp only [p, Pol.leaves, Pol.leavesL, List.append_nil, List.cons_append, List.nil_append, List.mem_cons,
          List.not_mem_nil, or_false] at this
        rcases this with rfl | rfl <;> simp),
    (C75_bsw_outcome toyEnv _ _ pk msk h1 _ _ _ sk' h2' _ _ p hd _ _ _ ct h3).2.1 hs' hr'⟩

/-- A policy with a name that contains an underscore: the key component for `A_1` uses another hash than the ciphertext
component, and of two keys that differ in the exponent of that component at most one opens the ciphertext. -/
example : ∃ (p : Pol) (pk : PublicKey Fr Fr Fr) (msk : MasterKey Fr Fr) (sk sk' : SecretKey Fr Fr)
    (ct : Ciphertext Fr Fr Fr) (t₁ t₂ t₂' t₃ : Tape Fr Fr Fr Fr),
    Denotes (chars% "\"A_1\"") .human p ∧ setup toyEnv toyTape = .ok ((pk, msk), t₁) ∧
    keygen toyEnv pk msk [(chars% "A_1")] toyTape = .ok (some sk, t₂) ∧
    keygen toyEnv pk msk [(chars% "A_1")] { toyTape with fr := fun i => if i = 1 then 2 else 1 } = .ok (some sk', t₂') ∧
    encrypt toyEnv pk (chars% "\"A_1\"") .human [7] toyTape = .ok (ct, t₃) ∧
    ¬ (recoverMsg toyEnv sk ct = .ok (toyTape.gt 0) ∧ recoverMsg toyEnv sk' ct = .ok (toyTape.gt 0)) := by
  obtain ⟨d1, d2, d3⟩ := C25_bsw_defined toyEnv
  obtain ⟨pk, msk, t₁, h1⟩ := d1 toyTape (by simp [toyTape])
  obtain ⟨sk, t₂, h2⟩ := d2 _ _ _ _ h1 [(chars% "A_1")] (by simp) toyTape
  obtain ⟨sk', t₂', h2'⟩ := d2 _ _ _ _ h1 [(chars% "A_1")] (by simp)
    { toyTape with fr := fun i => if i = 1 then 2 else 1 }
  let p : Pol := .leaf (chars% "A_1") 2
  have hd : Denotes (chars% "\"A_1\"") .human p := rfl
  obtain ⟨ct, t₃, h3⟩ := d3 pk _ _ p hd [7] (by simp [toyEnv]) toyTape
  have hpk : pk.g1 = 1 ∧ pk.g2 = 1 := by
    simp [setup, toyEnv] at h1
    obtain ⟨⟨rfl, _⟩, _⟩ := h1
    exact ⟨rfl, rfl⟩
  have h12 : (1 : Fr) ≠ 2 := by
    intro h
    have := sub_eq_zero.2 h
    norm_num at this
  refine ⟨p, pk, msk, sk, sk', ct, t₁, t₂, t₂', t₃, hd, h1, h2, h2', h3,
    C75_bsw_underscore toyEnv _ _ pk msk h1 ?_ _ (chars% "A_1") _ _ _ _ sk sk' h2 h2' ?_ ?_ _ _ p hd ?_ ?_ ?_ ?_ ?_
      _ _ _ ct h3 ?_⟩
  · simp [hpk.1, hpk.2, toyEnv]
  · intro i hi
    have : i ≠ 1 := by simpa using hi
    simp [toyTape, this]
  · simpa [toyTape] using h12
  · simp [p, Pol.Fits]
  · simp [p]
  · simp [p]
  · simp [p, Reach]
  · decide +kernel
  · simp [p, pick, coeffSum, firstShare, coeffs, coeffVals, shares, shareVals, toyTape]

end Bsw

namespace Ghw11

omit [DecidableEq F] in
/-- The ciphertext components in terms of the drawn scalars. -/
theorem mapL_encShare_exact (env : Env F G1 G2 Gt) (pk : PublicKey G1 G2 Gt) (j : Str) (v : F) :
    ∀ (shs : List (Str × F)) (t : Tape F G1 G2 Gt) {cd t'}, RM.mapL (encShare env pk) shs t = .ok (cd, t') →
      shs.find? (fun z => z.1 == j) = some (j, v) →
      cd.find? (fun z => z.1 == j) = some (j, v • pk.g1A + (-(t.fr ((shs.map (·.1)).idxOf j))) •
        env.hash (removeIndex j) • pk.g1, t.fr ((shs.map (·.1)).idxOf j) • pk.g1) := by
  intro shs
  induction shs with
  | nil => intro t cd t' _ h; simp at h
  | cons x xs ih =>
    intro t cd t' h hf
    simp only [RM.mapL, RM.rbind_eq, RM.rpure_eq, RM.bind_ok, RM.pure_ok, encShare, RM.genFr, Res.ok.injEq,
      Prod.mk.injEq] at h
    obtain ⟨y, t1, ⟨_, _, ⟨rfl, rfl⟩, rfl, rfl⟩, ys, t2, h2, rfl, rfl⟩ := h
    by_cases hx : x.1 = j
    · rw [List.find?_cons_of_pos (by simpa using hx)] at hf
      obtain rfl := Option.some.inj hf
      simp [Env.sha3Hash]
    · rw [List.find?_cons_of_neg (by simpa using hx)] at hf
      rw [List.find?_cons_of_neg (by simpa using hx), ih _ h2 hf, List.map_cons, List.idxOf_cons_ne _ hx]
      simp [dropS, Nat.add_comm]

/-- The multiple of `e(g1, g2)` that an honest decryption adds to the session element; `τ l` is the exponent of the
first ciphertext component with the label of the leaf. -/
def excess (env : Env F G1 G2 Gt) (attrs : List Str) (p : Pol) (a s : F) (ω : ℕ → F) (r : F) (τ : Str × ℕ → F) : F :=
  (((pick attrs p).map fun l => firstCoeff p (1 : F) l *
    (firstShare p s ω l * a + τ l * (env.hash l.1 - env.hash (cut l.1)))).sum - s * a) * r

/-- **C75, GHW11.** Any set-up, any issued key, any transformation key made from it, any encryption, any accepted policy
text. Not satisfied: error. A gate that pruning visits has fewer than two children: abort. Otherwise the transformation
succeeds and the payload is opened with the encrypted session element plus `excess` times the pairing of the
generators. -/
theorem C75_ghw11_outcome (env : Env F G1 G2 Gt)
    (t₁ t₁' : Tape F G1 G2 Gt) (pk : PublicKey G1 G2 Gt) (msk : MasterKey G1 G2 Gt)
    (hsetup : setup env t₁ = .ok ((pk, msk), t₁'))
    (attrs : List Str) (t₂ t₂' : Tape F G1 G2 Gt) (sk : SecretKey G2)
    (hkey : keygen env pk msk attrs t₂ = .ok (some sk, t₂'))
    (t₃ t₃' : Tape F G1 G2 Gt) (tk : TransformKey G2) (rk : RetrieveKey F)
    (htk : tkgen sk t₃ = .ok (some (tk, rk), t₃'))
    (text : Str) (lang : PolicyLanguage) (p : Pol) (hp : Denotes text lang p)
    (plaintext : Bytes) (t₄ t₄' : Tape F G1 G2 Gt) (ct : Ciphertext G1 Gt)
    (henc : encrypt env pk text lang plaintext t₄ = .ok (ct, t₄')) :
    (p.sat attrs = false → transform env ct tk = .err) ∧
    (p.sat attrs = true → ¬ Reach attrs p → transform env ct tk = .panic) ∧
    (p.sat attrs = true → Reach attrs p → ∃ pct, transform env ct tk = .ok pct ∧
      ∀ data, decryptOut env pct rk data = decryptSymmetric env (t₄.gt 0 +
        excess env attrs p (t₁.fr 0) (t₄.fr 0) (dropS 1 t₄.fr) (t₂.fr 0)
          (fun l => t₄.fr (1 + draws p + labelPos p l)) • env.pair pk.g1 pk.g2) data) := by
  have hs : IsSetup env pk msk (t₁.fr 0) (t₁.fr 1) := by
    simp only [setup, RM.bind_ok, RM.genG1, RM.genG2, RM.genFr, RM.pure_ok, Res.ok.injEq, Prod.mk.injEq] at hsetup
    obtain ⟨g1, t1, ⟨rfl, rfl⟩, g2, t2, ⟨rfl, rfl⟩, a, t3, ⟨rfl, rfl⟩, α, t4, ⟨rfl, rfl⟩, ⟨rfl, rfl⟩, _⟩ := hsetup
    exact ⟨rfl, rfl, rfl, rfl⟩
  have hp' : parse text lang = .ok p.toValue := hp
  obtain ⟨hne, rfl⟩ := keygen_ok hkey
  obtain ⟨hz, rfl⟩ := tkgen_ok htk
  simp only [encrypt, RM.bind_ok, RM.genFr, RM.genGt, RM.lift_ok_iff, RM.pure_ok, hp', Res.ok.injEq,
    Prod.mk.injEq, RM.liftFr] at henc
  obtain ⟨s, u1, ⟨rfl, rfl⟩, msg, u2, ⟨rfl, rfl⟩, pv, u3, ⟨rfl, rfl⟩, sh, u4, hsh, shs, u5, ⟨hu, rfl⟩, cd, u6, hcd,
    dat, u7, hdat, rfl, _⟩ := henc
  rw [genSharesPolicy_eq] at hsh
  simp only [Res.ok.injEq, Prod.mk.injEq] at hsh
  obtain ⟨rfl, rfl⟩ := hsh
  simp only [Res.unwrapOption_some, Res.ok.injEq] at hu
  subst hu
  have hattr : ((blind (keyFor env pk msk attrs (t₂.fr 0)) rk.z).attrKeyZ.map (·.string)) = attrs := by
    simp [blind, keyFor, Function.comp_def]
  have ht := traverse_eq_sat attrs hne p .leaf
  refine ⟨fun h => ?_, fun h hr => ?_, fun h hr => ?_⟩
  · simp [transform, hp', hattr, ht, h]
  · simp [transform, hp', hattr, ht, h, (calcPruned_reach attrs p).2 hr]
  · have hstep : ∀ l ∈ pick attrs p, ∀ acc, transformStep env
        ⟨(text, lang), t₄.fr 0 • pk.eGgAlpha + t₄.gt 0, t₄.fr 0 • pk.g1, cd, dat⟩
        (blind (keyFor env pk msk attrs (t₂.fr 0)) rk.z) (coeffs p 1) acc
        (leafKey l) = .ok (acc.1 + (firstCoeff p (1 : F) l * t₄.fr (1 + draws p + labelPos p l) *
          (rk.z⁻¹ * t₂.fr 0 * env.hash l.1)) • env.pair pk.g1 pk.g2,
        acc.2 + (firstCoeff p (1 : F) l * (firstShare p (t₄.fr 0) (dropS 1 t₄.fr) l * t₁.fr 0 -
          t₄.fr (1 + draws p + labelPos p l) * env.hash (cut l.1))) • pk.g1) := by
      intro l hl acc
      have hlp : l ∈ p.leaves := (pick_sublist attrs p).subset hl
      have hown := pick_owned attrs p l hl
      have h1 := firstCoeff_find p (1 : F) hlp
      have h3 := mapL_encShare_exact env pk _ _ _ _ hcd (shares_find p (t₄.fr 0) (dropS 1 t₄.fr) hlp)
      have h2 : (blind (keyFor env pk msk attrs (t₂.fr 0)) rk.z).attrKeyZ.find? (fun a => a.string == l.1) =
          some ⟨l.1, rk.z⁻¹ • t₂.fr 0 • env.hash l.1 • pk.g2⟩ := by
        simp only [blind, keyFor, List.map_map]
        clear * - hown
        induction attrs with
        | nil => simp at hown
        | cons a as ih =>
          by_cases ha : a = l.1
          · subst ha; simp
          · rw [List.map_cons, List.find?_cons_of_neg (by simpa using ha)]
            exact ih ((List.mem_cons.1 hown).resolve_left fun h => ha h.symm)
      rw [shares_labels] at h3
      change _ = some (leafIdx l, _ + (-(t₄.fr (1 + (draws p + labelPos p l)))) • _,
        t₄.fr (1 + (draws p + labelPos p l)) • _) at h3
      have hk : leafKey l = (l.1, leafIdx l) := rfl
      simp only [transformStep, hk, h1, h2, h3, Res.unwrapOption_some, Res.ok_bind, Res.ok.injEq, hs.g1A,
        removeIndex_leafIdx, map_smul, LinearMap.smul_apply, Prod.mk.injEq, ← Nat.add_assoc]
      constructor <;> module
    simp only [transform, hp', Res.ok_bind, hattr, ht, h, (calcPruned_reach attrs p).1 hr, calcCoefficients_eq,
      Res.unwrapOption_some]
    simp only [Bool.true_eq_false, if_false, if_true, List.nil_append]
    rw [fold_transform env _ _ _ _ _ _ hstep]
    refine ⟨_, rfl, fun data => ?_⟩
    rw [decryptOut]
    congr 1
    simp only [sum_smul, zero_add, blind, keyFor, hs.g2Alpha, hs.g2A, hs.e, map_smul, map_add, LinearMap.smul_apply,
      excess]
    have hX : ∀ (τ : Str × ℕ → F) (c σ : Str × ℕ → F) (z r a : F) (L : List (Str × ℕ)), z ≠ 0 →
        z * ((L.map fun l => c l * τ l * (z⁻¹ * r * env.hash l.1)).sum +
          z⁻¹ * r * (L.map fun l => c l * (σ l * a - τ l * env.hash (cut l.1))).sum) =
        (L.map fun l => c l * (σ l * a + τ l * (env.hash l.1 - env.hash (cut l.1)))).sum * r := by
      intro τ c σ z r a L hz
      induction L with
      | nil => simp
      | cons x xs ih =>
        simp only [List.map_cons, List.sum_cons, add_mul, ← ih]
        field_simp
        ring
    have hX := hX (fun l => t₄.fr (1 + draws p + labelPos p l)) (firstCoeff p (1 : F))
      (firstShare p (t₄.fr 0) (dropS 1 t₄.fr)) rk.z (t₂.fr 0) (t₁.fr 0) (pick attrs p) hz
    rw [sub_mul, ← hX]
    generalize ((pick attrs p).map fun l => firstCoeff p (1 : F) l * t₄.fr (1 + draws p + labelPos p l) *
      (rk.z⁻¹ * t₂.fr 0 * env.hash l.1)).sum = X
    generalize ((pick attrs p).map fun l => firstCoeff p (1 : F) l *
      (firstShare p (t₄.fr 0) (dropS 1 t₄.fr) l * t₁.fr 0 -
        t₄.fr (1 + draws p + labelPos p l) * env.hash (cut l.1))).sum = Y
    match_scalars <;> field_simp <;> ring

/-- With pairwise different labels the excess comes only from used names with an underscore. -/
theorem C75_ghw11_excess [BigChar F] (env : Env F G1 G2 Gt) (attrs : List Str) (p : Pol) (hf : p.Fits)
    (hn : p.leaves.Nodup) (hsat : p.sat attrs = true) (hr : Reach attrs p) (a s : F) (ω : ℕ → F) (r : F)
    (τ : Str × ℕ → F) :
    excess env attrs p a s ω r τ = (((pick attrs p).filter fun l => '_' ∈ l.1).map fun l =>
      coeffSum p (1 : F) l * τ l * (env.hash l.1 - env.hash (cut l.1))).sum * r := by
  have h := labels_weight attrs p hf hn hsat hr s ω
  have key : ∀ L : List (Str × ℕ), (∀ l ∈ L, l ∈ p.leaves) → (L.map fun l => firstCoeff p (1 : F) l *
      (firstShare p s ω l * a + τ l * (env.hash l.1 - env.hash (cut l.1)))).sum =
      (L.map fun l => coeffSum p (1 : F) l * firstShare p s ω l).sum * a + ((L.filter fun l => '_' ∈ l.1).map fun l =>
      coeffSum p (1 : F) l * τ l * (env.hash l.1 - env.hash (cut l.1))).sum := by
    intro L
    induction L with
    | nil => simp
    | cons l L ih =>
      intro hL
      simp only [List.map_cons, List.sum_cons, ih fun l hl => hL l (by simp [hl]), List.filter_cons,
        firstCoeff_eq hn (1 : F) (hL l (by simp))]
      by_cases hu : '_' ∈ l.1
      · simp only [hu, decide_true, if_true, List.map_cons, List.sum_cons]; ring
      · simp only [hu, decide_false, Bool.false_eq_true, if_false, cut_eq hu]; ring
  rw [excess, key _ fun l hl => (pick_sublist attrs p).subset hl, h]
  ring

/-- **C75, GHW11, correctness** (stronger than C42): for every accepted policy with pairwise different labels, if pruning
meets no gate with fewer than two children and the names it selects have no underscore, outsourced decryption returns the
plaintext. -/
theorem C75_ghw11_correct [BigChar F] (env : Env F G1 G2 Gt)
    (t₁ t₁' : Tape F G1 G2 Gt) (pk : PublicKey G1 G2 Gt) (msk : MasterKey G1 G2 Gt)
    (hsetup : setup env t₁ = .ok ((pk, msk), t₁'))
    (attrs : List Str) (t₂ t₂' : Tape F G1 G2 Gt) (sk : SecretKey G2)
    (hkey : keygen env pk msk attrs t₂ = .ok (some sk, t₂'))
    (t₃ t₃' : Tape F G1 G2 Gt) (tk : TransformKey G2) (rk : RetrieveKey F)
    (htk : tkgen sk t₃ = .ok (some (tk, rk), t₃'))
    (text : Str) (lang : PolicyLanguage) (p : Pol) (hp : Denotes text lang p)
    (plaintext : Bytes) (t₄ t₄' : Tape F G1 G2 Gt) (ct : Ciphertext G1 Gt)
    (henc : encrypt env pk text lang plaintext t₄ = .ok (ct, t₄'))
    (hf : p.Fits) (hn : p.leaves.Nodup) (hsat : p.sat attrs = true) (hr : Reach attrs p)
    (hu : ∀ l ∈ pick attrs p, '_' ∉ l.1) :
    ∃ pct, transform env ct tk = .ok pct ∧ decryptOut env pct rk ct.data = .ok plaintext := by
  obtain ⟨pct, h1, h2⟩ := (C75_ghw11_outcome env t₁ t₁' pk msk hsetup attrs t₂ t₂' sk hkey t₃ t₃' tk rk htk text lang p hp
    plaintext t₄ t₄' ct henc).2.2 hsat hr
  refine ⟨pct, h1, ?_⟩
  rw [h2, C75_ghw11_excess env attrs p hf hn hsat hr,
    show (pick attrs p).filter (fun l => '_' ∈ l.1) = [] by simpa [List.filter_eq_nil_iff] using hu]
  have hp' : parse text lang = .ok p.toValue := hp
  simp only [encrypt, RM.bind_ok, RM.genFr, RM.genGt, RM.lift_ok_iff, RM.pure_ok, hp', Res.ok.injEq,
    Prod.mk.injEq, RM.liftFr] at henc
  obtain ⟨s, u1, ⟨rfl, rfl⟩, msg, u2, ⟨rfl, rfl⟩, pv, u3, ⟨rfl, rfl⟩, sh, u4, hsh, shs, u5, ⟨hu, rfl⟩, cd, u6, hcd,
    dat, u7, hdat, rfl, _⟩ := henc
  simpa using encryptSymmetric_ok hdat

set_option maxRecDepth 4000 in
/-- The policy with a gate of one child again: the key for `A` transforms the ciphertext and gets the plaintext, with the
key for `B` the transformation aborts. -/
example : ∃ (p : Pol) (pk : PublicKey Fr Fr Fr) (msk : MasterKey Fr Fr Fr) (sk sk' : SecretKey Fr)
    (tk tk' : TransformKey Fr) (rk rk' : RetrieveKey Fr) (ct : Ciphertext Fr Fr)
    (t₁ t₂ t₂' t₃ t₃' t₄ : Tape Fr Fr Fr Fr),
    Denotes (chars% "{\"name\": \"or\", \"children\": [{\"name\": \"A\"}, {\"name\": \"and\", \"children\": [{\"name\": \"B\"}]}]}")
      .json p ∧ ¬ p.Wide ∧ p.Fits ∧ p.leaves.Nodup ∧
    setup toyEnv toyTape = .ok ((pk, msk), t₁) ∧
    keygen toyEnv pk msk [['A']] toyTape = .ok (some sk, t₂) ∧ tkgen sk toyTape = .ok (some (tk, rk), t₃) ∧
    keygen toyEnv pk msk [['B']] toyTape = .ok (some sk', t₂') ∧ tkgen sk' toyTape = .ok (some (tk', rk'), t₃') ∧
    encrypt toyEnv pk (chars% "{\"name\": \"or\", \"children\": [{\"name\": \"A\"}, {\"name\": \"and\", \"children\": [{\"name\": \"B\"}]}]}")
      .json [1, 2, 3] toyTape = .ok (ct, t₄) ∧
    Reach [['A']] p ∧ ¬ Reach [['B']] p ∧ p.sat [['A']] = true ∧ p.sat [['B']] = true ∧
    (∃ pct, transform toyEnv ct tk = .ok pct ∧ decryptOut toyEnv pct rk ct.data = .ok [1, 2, 3]) ∧
    transform toyEnv ct tk' = .panic := by
  obtain ⟨d1, d2, d3, d4⟩ := C42_ghw11_defined toyEnv
  obtain ⟨pk, msk, t₁, h1⟩ := d1 toyTape
  obtain ⟨sk, t₂, h2⟩ := d2 pk msk [['A']] (by simp) toyTape
  obtain ⟨tk, rk, t₃, h3⟩ := d3 sk toyTape (by simp [toyTape])
  obtain ⟨sk', t₂', h2'⟩ := d2 pk msk [['B']] (by simp) toyTape
  obtain ⟨tk', rk', t₃', h3'⟩ := d3 sk' toyTape (by simp [toyTape])
  let p : Pol := .gate .or [.leaf ['A'] 39, .gate .and [.leaf ['B'] 83]]
  have hd : Denotes (chars% "{\"name\": \"or\", \"children\": [{\"name\": \"A\"}, {\"name\": \"and\", \"children\": [{\"name\": \"B\"}]}]}")
    .json p := rfl
  obtain ⟨ct, t₄, h4⟩ := d4 pk _ _ p hd [1, 2, 3] (by simp [toyEnv]) toyTape
  have hr : Reach [['A']] p := by simp [p, Reach, ReachFirst]
  have hr' : ¬ Reach [['B']] p := by simp [p, Reach, ReachFirst]
  have hs : p.sat [['A']] = true := by simp [p]
  have hs' : p.sat [['B']] = true := by simp [p]
  have hf : p.Fits := by simp [p, Pol.Fits]
  have hn : p.leaves.Nodup := by simp [p]
  exact ⟨p, pk, msk, sk, sk', tk, tk', rk, rk', ct, t₁, t₂, t₂', t₃, t₃', t₄, hd, by simp [p, Pol.Wide], hf, hn, h1, h2, h3,
    h2', h3', h4, hr, hr', hs, hs',
    C75_ghw11_correct toyEnv _ _ pk msk h1 _ _ _ sk h2 _ _ tk rk h3 _ _ p hd _ _ _ ct h4 hf hn hs hr
      (fun l hl => by
        have : l ∈ p.leaves := (pick_sublist _ p).subset hl
        simp only [p, Pol.leaves, Pol.leavesL, List.append_nil, List.cons_append, List.nil_append, List.mem_cons,
          List.not_mem_nil, or_false] at this
        rcases this with rfl | rfl <;> simp),
    (C75_ghw11_outcome toyEnv _ _ pk msk h1 _ _ _ sk' h2' _ _ tk' rk' h3' _ _ p hd _ _ _ ct h4).2.1 hs' hr'⟩

end Ghw11
end Rabe
