import Verif.Props.StoredPolicy
import Verif.Props.Aw11

/-!
# C49: AW11, replacing the stored policy
-/

set_option linter.unusedSectionVars false

namespace Rabe
namespace Aw11

variable {F G1 G2 Gt : Type} [Field F] [DecidableEq F] [AddCommGroup G1] [Module F G1]
  [AddCommGroup G2] [Module F G2] [AddCommGroup Gt] [Module F Gt]

/-- The value by which `decrypt` divides the first component. -/
def divisor (env : Env F G1 G2 Gt) (gk : GlobalKey G1 G2) (sk : SecretKey G1) (ct : Ciphertext G2 Gt) : Res Gt := do
  let strAttr := sk.attr.map (·.1)
  let pol ← parse ct.policy.1 ct.policy.2
  if traversePolicy strAttr pol .leaf = false then .err
  else do
    let pruned ← calcPruned strAttr pol none
    let coeff? ← calcCoefficients pol (some 1) [] none
    let coeffs ← Res.unwrapOption coeff?
    if pruned.1 then Res.foldR (decryptStep env (env.sha3Hash gk.g1 sk.gid) sk ct coeffs) 0 pruned.2
    else .err

theorem decrypt_divisor (env : Env F G1 G2 Gt) (gk : GlobalKey G1 G2) (sk : SecretKey G1) (ct : Ciphertext G2 Gt) :
    decrypt env gk sk ct = divisor env gk sk ct >>= fun x => decryptSymmetric env (ct.c0 + -x) ct.ct := by
  simp only [decrypt, divisor]
  cases parse ct.policy.1 ct.policy.2 with
  | err => rfl
  | panic => rfl
  | ok v =>
    simp only [Res.ok_bind]
    split
    · rfl
    · cases calcPruned (sk.attr.map (·.1)) v none with
      | err => rfl
      | panic => rfl
      | ok pr =>
        simp only [Res.ok_bind]
        cases calcCoefficients v (some (1 : F)) [] none with
        | err => rfl
        | panic => rfl
        | ok z =>
          cases z with
          | none => rfl
          | some z =>
            simp only [Res.ok_bind, Res.unwrapOption_some]
            split <;> rfl

/-- Two ciphertexts whose components for labels with owned names are the same have the same divisor. -/
theorem divisor_congr (env : Env F G1 G2 Gt) (gk : GlobalKey G1 G2) (sk : SecretKey G1) (c c' : Ciphertext G2 Gt)
    (hpol : c'.policy = c.policy)
    (h : ∀ l : Str × ℕ, l.1 ∈ sk.attr.map (·.1) →
      c'.c.find? (fun a => a.name == leafIdx l) = c.c.find? fun a => a.name == leafIdx l) :
    divisor env gk sk c' = divisor env gk sk c := by
  simp only [divisor, hpol]
  cases hv : parse c.policy.1 c.policy.2 with
  | err => rfl
  | panic => rfl
  | ok v =>
    obtain ⟨q, rfl, -⟩ := parse_ok hv
    simp only [Res.ok_bind]
    split
    · rfl
    · cases hL : calcPruned (sk.attr.map (·.1)) q.toValue none with
      | err => rfl
      | panic => rfl
      | ok pr =>
        obtain ⟨b, L⟩ := pr
        have hown := calcPruned_ok_owned _ q hL
        clear hL
        simp only [Res.ok_bind]
        cases calcCoefficients q.toValue (some (1 : F)) [] none with
        | err => rfl
        | panic => rfl
        | ok z =>
          cases z with
          | none => rfl
          | some z =>
            simp only [Res.ok_bind, Res.unwrapOption_some]
            split
            · generalize (0 : Gt) = acc
              induction L generalizing acc with
              | nil => rfl
              | cons x L ih =>
                have hstep : decryptStep env (env.sha3Hash gk.g1 sk.gid) sk c' z acc x =
                    decryptStep env (env.sha3Hash gk.g1 sk.gid) sk c z acc x := by
                  obtain ⟨l, rfl, hl⟩ := hown x (by simp)
                  have := h l hl
                  simp only [decryptStep, leafKey]
                  rw [show nodeIndex l.1 l.2 = leafIdx l from rfl, this]
                simp only [Res.foldR, Res.rbind_eq, hstep]
                cases decryptStep env (env.sha3Hash gk.g1 sk.gid) sk c z acc x with
                | err => rfl
                | panic => rfl
                | ok y => exact ih (fun x hx => hown x (by simp [hx])) y
            · rfl

/-- What an encryption is made of, with the random numbers it has used. -/
theorem encrypt_rand {cm : CaseMap} {env : Env F G1 G2 Gt} {gk : GlobalKey G1 G2} {pks : List (PublicKey G2 Gt)}
    {policy lang pt t ct t'} {p : Pol} (hp : parse policy lang = .ok p.toValue)
    (h : encrypt cm env gk pks policy lang pt t = .ok (ct, t')) :
    ∃ C t1, RM.mapL (encShare cm env gk pks (shares p 0 (dropS (draws p) (dropS 1 t.fr))))
      (shares p (t.fr 0) (dropS 1 t.fr)).zipIdx
      { fr := dropS (draws p) (dropS (draws p) (dropS 1 t.fr)), g1 := t.g1, g2 := t.g2, gt := dropS 1 t.gt,
        byte := t.byte } = .ok (C, t1) ∧
      ct.policy = (policy, lang) ∧ ct.c0 = t.gt 0 + t.fr 0 • env.pair gk.g1 gk.g2 ∧ ct.c = C.filterMap id ∧
      decryptSymmetric env (t.gt 0) ct.ct = .ok pt := by
  simp only [encrypt, RM.bind_ok, RM.genFr, RM.genGt, RM.lift_ok_iff, RM.pure_ok, hp, Res.ok.injEq,
    Prod.mk.injEq, RM.liftFr] at h
  obtain ⟨_, _, ⟨rfl, rfl⟩, msp, _, ⟨hm, rfl⟩, _, _, ⟨h0, rfl⟩, s, _, ⟨rfl, rfl⟩, x, _, hx, S, _, ⟨hS, rfl⟩,
    y, _, hy, W, _, ⟨hW, rfl⟩, msg, _, ⟨rfl, rfl⟩, C, t1, hC, d, t2, hd, rfl, rfl⟩ := h
  simp only [genSharesPolicy_eq, Res.ok.injEq, Prod.mk.injEq] at hx hy
  obtain ⟨rfl, rfl⟩ := hx
  obtain ⟨rfl, rfl⟩ := hy
  simp only [Res.unwrapOption_some, Res.ok.injEq] at hS hW
  subst hS hW
  exact ⟨C, t1, hC, rfl, rfl, rfl, encryptSymmetric_ok hd⟩

/-- Shares that are equal for owned names give equal components for owned names. -/
theorem components_agree {cm : CaseMap} {env : Env F G1 G2 Gt} {gk : GlobalKey G1 G2} {pks : List (PublicKey G2 Gt)}
    {W : List (Str × F)} {A : List Str} : ∀ {L : List (Str × ℕ)} {v w : List F} {k : ℕ} {t C t1},
    (∀ l ∈ L, cm.upper l.1 = l.1) → AgreeOn A L v w → v.length = L.length → w.length = L.length →
    RM.mapL (encShare cm env gk pks W) (((L.map leafIdx).zip v).zipIdx k) t = .ok (C, t1) →
    ∃ C', RM.mapL (encShare cm env gk pks W) (((L.map leafIdx).zip w).zipIdx k) t = .ok (C', t1) ∧
      ∀ l : Str × ℕ, l.1 ∈ A → (C'.filterMap id).find? (fun a => a.name == leafIdx l) =
        (C.filterMap id).find? fun a => a.name == leafIdx l := by
  intro L
  induction L with
  | nil =>
    intro v w k t C t1 _ _ _ _ h
    simp only [List.map_nil, List.zip_nil_left, List.zipIdx_nil, RM.mapL, RM.rpure_eq, RM.pure_ok] at h ⊢
    obtain ⟨rfl, rfl⟩ := h
    exact ⟨[], ⟨rfl, rfl⟩, fun _ _ => rfl⟩
  | cons a L ih =>
    intro v w k t C t1 hup h hv hw hC
    obtain ⟨x, v, rfl⟩ := List.exists_cons_of_length_eq_add_one hv
    obtain ⟨y, w, rfl⟩ := List.exists_cons_of_length_eq_add_one hw
    simp only [List.map_cons, List.zip_cons_cons, List.zipIdx_cons, RM.mapL, RM.rbind_eq,
      RM.rpure_eq, RM.bind_ok, RM.pure_ok] at hC
    obtain ⟨o, t2, ho, C0, t3, hC0, rfl, rfl⟩ := hC
    obtain ⟨C', hC', hfind⟩ := ih (fun l hl => hup l (by simp [hl]))
      (fun i l hi hl => by simpa using h (i + 1) l (by simpa using hi) hl) (by simpa using hv) (by simpa using hw) hC0
    have hua : cm.upper (leafIdx a) = leafIdx a := by
      simp only [leafIdx, CaseMap.upper_nodeIndex, hup a (by simp)]
    have hxy : a.1 ∈ A → x = y := fun ha => by simpa using h 0 a (by simp) ha
    simp only [encShare, RM.bind_ok, RM.genFr, Res.ok.injEq, Prod.mk.injEq, hua] at ho
    obtain ⟨r, t4, ⟨rfl, rfl⟩, ho⟩ := ho
    cases hpk : findPkAttr (removeIndex (leafIdx a)) pks with
    | none =>
      simp only [hpk, RM.pure_ok] at ho
      obtain ⟨rfl, rfl⟩ := ho
      refine ⟨none :: C', ?_, fun l hl => by simpa using hfind l hl⟩
      simp [List.zipIdx_cons, RM.mapL, RM.rbind_eq, RM.rpure_eq, RM.bind_apply, encShare, RM.genFr, hua, hpk, hC']
    | some b =>
      simp only [hpk, RM.bind_ok, RM.lift_ok_iff, RM.pure_ok] at ho
      obtain ⟨z, t5, ⟨hz, rfl⟩, rfl, rfl⟩ := ho
      refine ⟨some { name := leafIdx a, c1 := y • env.pair gk.g1 gk.g2 + t.fr 0 • b.e, c2 := t.fr 0 • gk.g2,
                     c3 := t.fr 0 • b.y + z.2 • gk.g2 } :: C', ?_, fun l hl => ?_⟩
      · simp [List.zipIdx_cons, RM.mapL, RM.rbind_eq, RM.rpure_eq, RM.bind_apply, encShare, RM.genFr, hua, hpk, hC', hz]
      · simp only [List.filterMap_cons, id, List.find?_cons]
        cases hla : leafIdx a == leafIdx l with
        | true =>
          have := leafIdx_inj (by simpa using hla : leafIdx a = leafIdx l)
          subst this
          simp only [hxy hl]
        | false => exact hfind l hl

/-- **C49, AW11, partial.** The names of the components of a key object (whatever the components are, from whichever
authorities and identities they come) do not satisfy the policy of an encryption, its names taken in upper case. Then there
are translations of the random numbers of the encryption, one for each shift `d` of its secret, and for every
replacement of the stored policy one value `E` in the target group, the same for all `d`, such that decryption uses the
session element shifted by `(s + d)·e - E` with `e` the pairing of the generators. So a replacement works by chance only.
(Full claim: it never works; false as for BSW.) -/
theorem C49_aw11_stored_policy_partial [BigChar F] (cm : CaseMap) (env : Env F G1 G2 Gt) (gk : GlobalKey G1 G2)
    (pks : List (PublicKey G2 Gt)) (names : List Str) (text : Str) (lang : PolicyLanguage) (p : Pol)
    (hp : Denotes text lang p) (hlen : text.length < 2 ^ 64) (hsat : (rename cm.upper p).sat names = false) :
    ∃ δ : F → ℕ → F, ∀ (sk : SecretKey G1) (stored : Str × PolicyLanguage) (t₂ : Tape F G1 G2 Gt),
      sk.attr.map (·.1) = names → ∃ E : Res Gt, ∀ (d : F) (m : Bytes) (c : Ciphertext G2 Gt) (t' : Tape F G1 G2 Gt),
      encrypt cm env gk pks text lang m (Bsw.translate t₂ d (δ d)) = .ok (c, t') →
      decryptSymmetric env (t₂.gt 0) c.ct = .ok m ∧
      decrypt env gk sk { c with policy := stored } =
        E >>= fun E => decryptSymmetric env (t₂.gt 0 + ((t₂.fr 0 + d) • env.pair gk.g1 gk.g2 - E)) c.ct := by
  have hf : p.Fits := by
    obtain ⟨q, hq, hf, _⟩ := parse_ok hp
    rw [toValue_inj _ _ hq]; exact hf hlen
  have hf' : (rename cm.upper p).Fits := (arity_rename cm.upper _ p).2 hf
  choose δ hδ using fun d : F => hides names (rename cm.upper p) hf' hsat d
  refine ⟨fun d n => if n < draws p then δ d n else 0, fun sk stored t₂ hn => ?_⟩
  have hup : ∀ l ∈ (rename cm.upper p).leaves, cm.upper l.1 = l.1 := by
    intro l hl
    rw [leaves_rename] at hl
    obtain ⟨l', _, rfl⟩ := List.mem_map.1 hl
    exact cm.upper_idem _
  -- the components under the translated random numbers
  have main : ∀ {d : F} {m c t'}, encrypt cm env gk pks text lang m
      (Bsw.translate t₂ d fun n => if n < draws p then δ d n else 0) = .ok (c, t') →
      ∀ {d' : F} {m' c' s'}, encrypt cm env gk pks text lang m'
      (Bsw.translate t₂ d' fun n => if n < draws p then δ d' n else 0) = .ok (c', s') →
      divisor env gk sk { c with policy := stored } = divisor env gk sk { c' with policy := stored } := by
    have hw : ∀ d, dropS (draws p) (dropS 1 (Bsw.translate t₂ d fun n => if n < draws p then δ d n else 0).fr) =
        dropS (draws p) (dropS 1 t₂.fr) := by
      intro d
      funext n
      simp only [dropS, Bsw.translate]
      have : 1 + (draws p + n) = (draws p + n) + 1 := by omega
      simp [this]
    have hv : ∀ d, AgreeOn names (rename cm.upper p).leaves (shareVals (rename cm.upper p) (t₂.fr 0) (dropS 1 t₂.fr))
        (shareVals (rename cm.upper p) (t₂.fr 0 + d)
          (dropS 1 (Bsw.translate t₂ d fun n => if n < draws p then δ d n else 0).fr)) := by
      intro d
      have := hδ d (t₂.fr 0) (dropS 1 t₂.fr)
      have e : shareVals (rename cm.upper p) (t₂.fr 0 + d)
          (dropS 1 (Bsw.translate t₂ d fun n => if n < draws p then δ d n else 0).fr) =
          shareVals (rename cm.upper p) (t₂.fr 0 + d) (dropS 1 t₂.fr + δ d) := by
        refine shareVals_congr _ _ ?_
        intro i hi
        rw [draws_rename] at hi
        have h1 : 1 + i = i + 1 := by omega
        simp [dropS, Bsw.translate, h1, hi]
      rw [e]
      exact this
    have comp : ∀ {d : F} {m c t'}, encrypt cm env gk pks text lang m
        (Bsw.translate t₂ d fun n => if n < draws p then δ d n else 0) = .ok (c, t') →
        ∃ C₀ t1, RM.mapL (encShare cm env gk pks (shares (rename cm.upper p) 0 (dropS (draws p) (dropS 1 t₂.fr))))
          (shares (rename cm.upper p) (t₂.fr 0) (dropS 1 t₂.fr)).zipIdx
          { fr := dropS (draws p) (dropS (draws p) (dropS 1 t₂.fr)), g1 := t₂.g1, g2 := t₂.g2, gt := dropS 1 t₂.gt,
            byte := t₂.byte } = .ok (C₀, t1) ∧ ∀ l : Str × ℕ, l.1 ∈ names →
          c.c.find? (fun a => a.name == leafIdx l) = (C₀.filterMap id).find? fun a => a.name == leafIdx l := by
      intro d m c t' h
      obtain ⟨C, t1, hC, -, -, hc, -⟩ := encrypt_rand hp h
      rw [hw d, ← encShares_norm, ← shares_rename, ← shares_rename] at hC
      have hag : AgreeOn names (rename cm.upper p).leaves (shareVals (rename cm.upper p) (t₂.fr 0 + d)
          (dropS 1 (Bsw.translate t₂ d fun n => if n < draws p then δ d n else 0).fr))
          (shareVals (rename cm.upper p) (t₂.fr 0) (dropS 1 t₂.fr)) := fun i l hi hl => (hv d i l hi hl).symm
      obtain ⟨C', hC', hfind⟩ := components_agree hup hag (shareVals_length _ _ _) (shareVals_length _ _ _) hC
      refine ⟨C', t1, hC', fun l hl => ?_⟩
      rw [hc, hfind l hl]
    intro d m c t' h d' m' c' s' h'
    obtain ⟨C₁, _, h1, e1⟩ := comp h
    obtain ⟨C₂, _, h2, e2⟩ := comp h'
    rw [h1] at h2
    obtain ⟨rfl, rfl⟩ : C₁ = C₂ ∧ _ := by simpa using h2
    refine divisor_congr env gk sk { c' with policy := stored } { c with policy := stored } rfl fun l hl => ?_
    rw [hn] at hl
    exact (e1 l hl).trans (e2 l hl).symm
  by_cases hex : ∃ d m c t', encrypt cm env gk pks text lang m
      (Bsw.translate t₂ d fun n => if n < draws p then δ d n else 0) = .ok (c, t')
  · obtain ⟨d₀, m₀, c₀, s₀, h₀⟩ := hex
    refine ⟨divisor env gk sk { c₀ with policy := stored }, fun d m c t' h => ?_⟩
    obtain ⟨C, t1, -, -, hc0, -, hd⟩ := encrypt_rand hp h
    refine ⟨hd, ?_⟩
    rw [decrypt_divisor, main h h₀]
    congr 1
    funext x
    congr 1
    show c.c0 + -x = _
    rw [hc0]
    show t₂.gt 0 + (t₂.fr 0 + d) • _ + -x = _
    abel
  · exact ⟨.err, fun d m c t' h => absurd ⟨d, m, c, t', h⟩ hex⟩

/-- With a pairing of the generators different from zero at most one shift uses the session element itself. -/
example (g : Fr) (hg : g ≠ 0) (s E d d' : Fr) (h : (s + d) • g - E = 0) (h' : (s + d') • g - E = 0) : d = d' := by
  have : (s + d) * g = (s + d') * g := by simpa using (sub_eq_zero.1 h).trans (sub_eq_zero.1 h').symm
  simpa using mul_right_cancel₀ hg this

/-- **C49 is violated, AW11 (by chance), and a concrete case:** `U` has a key for `A` only, the policy is `"A" and "B"`. Decryption refuses; with the stored policy
replaced by `"A"` the check of the policy passes and decryption uses a wrong session element. With the coefficients of the two
sharing polynomials equal to zero (chance) the replacement works. -/
theorem C49_violated_aw11 : (do
    let x ← setup toyTape
    let y ← authgen asciiCase toyEnv x.1 [['A'], ['B']] { toyTape with fr := fun n => n + 2 }
    let a ← Res.unwrapOption y.1
    let u ← keygen asciiCase toyEnv x.1 a.2 ['U'] [['A']]
    let z ← encrypt asciiCase toyEnv x.1 [a.1] (chars% "\"A\" and \"B\"") .human [1, 2, 3]
      { toyTape with fr := fun n => n + 3 }
    let w ← encrypt asciiCase toyEnv x.1 [a.1] (chars% "\"A\" and \"B\"") .human [1, 2, 3]
      { toyTape with fr := fun n => if n = 1 ∨ n = 2 then 0 else n + 3 }
    Res.ok (decrypt toyEnv x.1 u z.1, decrypt toyEnv x.1 u { z.1 with policy := ((chars% "\"A\""), .human) },
      decrypt toyEnv x.1 u { w.1 with policy := ((chars% "\"A\""), .human) })) =
    .ok (.err, .err, .ok [1, 2, 3]) := by decide +kernel

/-- The hypotheses of `C49_aw11_stored_policy_partial` can be met. -/
example : Denotes (chars% "\"a\" and \"B\"") .human (.gate .and [.leaf ['a'] 2, .leaf ['B'] 10]) ∧
    (rename asciiCase.upper (.gate .and [.leaf ['a'] 2, .leaf ['B'] 10])).sat [['A']] = false :=
  ⟨rfl, by decide +kernel⟩

end Aw11
end Rabe
