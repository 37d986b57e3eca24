import Verif.Props.Bsw
import Verif.Props.Ac17
import Verif.Props.Lsw
import Verif.Props.Yct14
import Verif.Props.Ghw11
import Verif.Props.Aw11
import Verif.Props.Bdabe
import Verif.Props.Mke08

/-!
# C69: for which policies encryption and key generation succeed
-/

namespace Rabe

variable {F G1 G2 Gt : Type} [Field F] [DecidableEq F] [AddCommGroup G1] [Module F G1]
  [AddCommGroup G2] [Module F G2] [AddCommGroup Gt] [Module F Gt]

/-- The call `run`, which takes the policy `text`, succeeds exactly when the text denotes a tree that is `good`, and panics
exactly when parsing panics or the text denotes a tree that is `bad`. -/
structure PolicyOutcome {α : Type} (text : Str) (lang : PolicyLanguage) (run : Res α) (good bad : Pol → Prop) : Prop where
  ok_iff : (∃ a, run = .ok a) ↔ ∃ p, Denotes text lang p ∧ good p
  panic_iff : run = .panic ↔ parse text lang = .panic ∨ ∃ p, Denotes text lang p ∧ bad p

theorem PolicyOutcome.of {α : Type} {text : Str} {lang : PolicyLanguage} {run : Res α} {good bad : Pol → Prop}
    (herr : parse text lang = .err → run = .err) (hpanic : parse text lang = .panic → run = .panic)
    (hgood : ∀ p, Denotes text lang p → good p → ∃ a, run = .ok a)
    (hbad : ∀ p, Denotes text lang p → bad p → run = .panic)
    (helse : ∀ p, Denotes text lang p → ¬ good p → ¬ bad p → run = .err) : PolicyOutcome text lang run good bad := by
  cases hp : parse text lang with
  | err =>
    have no : ∀ p, ¬ Denotes text lang p := fun p h => by
      have : parse text lang = .ok p.toValue := h
      simp [hp] at this
    rw [herr hp]
    exact ⟨by simp [no], by simp [no, hp]⟩
  | panic =>
    have no : ∀ p, ¬ Denotes text lang p := fun p h => by
      have : parse text lang = .ok p.toValue := h
      simp [hp] at this
    rw [hpanic hp]
    exact ⟨by simp [no], by simp [hp]⟩
  | ok v =>
    obtain ⟨p, rfl, -⟩ := parse_ok hp
    have hd : Denotes text lang p := hp
    have uni : ∀ q, Denotes text lang q → q = p := fun q hq => by
      have h : parse text lang = .ok q.toValue := hq
      rw [hp] at h
      exact (toValue_inj _ _ (Res.ok.inj h)).symm
    refine ⟨⟨fun ⟨a, ha⟩ => ⟨p, hd, ?_⟩, fun ⟨q, hq, hg⟩ => hgood q hq hg⟩, ⟨fun h => ?_, ?_⟩⟩
    · by_contra hg
      by_cases hb : bad p
      · rw [hbad p hd hb] at ha; simp at ha
      · rw [helse p hd hg hb] at ha; simp at ha
    · right
      refine ⟨p, hd, ?_⟩
      by_contra hb
      by_cases hg : good p
      · obtain ⟨a, ha⟩ := hgood p hd hg
        simp [ha] at h
      · rw [helse p hd hg hb] at h; simp at h
    · rintro (h | ⟨q, hq, hb⟩)
      · simp [hp] at h
      · exact hbad q hq hb

/-- **C69, BSW.** Encryption succeeds for every accepted policy and panics only when parsing does. -/
theorem Bsw.C69_bsw_encrypt (env : Env F G1 G2 Gt) (pk : Bsw.PublicKey G1 G2 Gt) (text : Str) (lang : PolicyLanguage)
    (plaintext : Bytes) (haead : ∀ k n, (env.aeadEnc k n plaintext).isSome = true) (t : Tape F G1 G2 Gt) :
    PolicyOutcome text lang (Bsw.encrypt env pk text lang plaintext t) (fun _ => True) (fun _ => False) := by
  refine .of (fun h => ?_) (fun h => ?_) (fun p hp _ => ?_) (fun _ _ h => h.elim) (fun _ _ h => (h trivial).elim)
  · simp [Bsw.encrypt, RM.genFr, RM.genGt, h]
  · simp [Bsw.encrypt, RM.genFr, RM.genGt, h]
  · obtain ⟨ct, s', h⟩ := (Bsw.C25_bsw_defined env).2.2 pk text lang p hp plaintext haead t
    exact ⟨_, h⟩

/-- **C69, GHW11.** Encryption succeeds for every accepted policy and panics only when parsing does. -/
theorem Ghw11.C69_ghw11_encrypt (env : Env F G1 G2 Gt) (pk : Ghw11.PublicKey G1 G2 Gt) (text : Str)
    (lang : PolicyLanguage) (plaintext : Bytes) (haead : ∀ k n, (env.aeadEnc k n plaintext).isSome = true)
    (t : Tape F G1 G2 Gt) :
    PolicyOutcome text lang (Ghw11.encrypt env pk text lang plaintext t) (fun _ => True) (fun _ => False) := by
  refine .of (fun h => ?_) (fun h => ?_) (fun p hp _ => ?_) (fun _ _ h => h.elim) (fun _ _ h => (h trivial).elim)
  · simp [Ghw11.encrypt, RM.genFr, RM.genGt, h]
  · simp [Ghw11.encrypt, RM.genFr, RM.genGt, h]
  · obtain ⟨ct, s', h⟩ := (Ghw11.C42_ghw11_defined env).2.2.2 pk text lang p hp plaintext haead t
    exact ⟨_, h⟩

/-- **C69, YCT14.** Key generation succeeds for every accepted policy, unless a random number of the set-up was zero. -/
theorem Yct14.C69_yct14_keygen (uni : List Str) (t t' : Tape F G1 G2 Gt) (pk : Yct14.PublicKey F Gt)
    (msk : Yct14.MasterKey F Gt) (hsetup : Yct14.setup uni t = .ok ((pk, msk), t'))
    (hz : ∀ a ∈ msk.attributes, a.node ≠ some (.priv 0)) (env : Env F G1 G2 Gt) (text : Str) (lang : PolicyLanguage)
    (u : Tape F G1 G2 Gt) : PolicyOutcome text lang (Yct14.keygen msk text lang u) (fun _ => True) (fun _ => False) := by
  refine .of (fun h => ?_) (fun h => ?_) (fun p hp _ => ?_) (fun _ _ h => h.elim) (fun _ _ h => (h trivial).elim)
  · simp [Yct14.keygen, h]
  · simp [Yct14.keygen, h]
  · obtain ⟨sk, s', h⟩ := ((Yct14.C36_yct14_defined env uni).2 t t' pk msk hsetup).1 hz text lang p hp u
    exact ⟨_, h⟩

/-- **C69, LSW.** Key generation succeeds exactly for the accepted policies without bad names and panics for the others.
(Full claim: it succeeds for all accepted policies; false, see `C51_violated`.) -/
theorem Lsw.C69_lsw_keygen_partial (env : Env F G1 G2 Gt) (pk : Lsw.PublicKey G1 G2 Gt) (msk : Lsw.MasterKey F G1 G2)
    (text : Str) (lang : PolicyLanguage) (t : Tape F G1 G2 Gt) :
    PolicyOutcome text lang (Lsw.keygen env pk msk text lang t) (fun p => ∀ n ∈ p.names, ¬ Lsw.BadName n)
      (fun p => ∃ n ∈ p.names, Lsw.BadName n) := by
  refine .of (fun h => ?_) (fun h => ?_) (fun p hp hg => ?_) (fun p hp hb => ?_) (fun p hp hg hb => ?_)
  · simp [Lsw.keygen, h]
  · simp [Lsw.keygen, h]
  · obtain ⟨sk, s', h⟩ := (Lsw.C34_lsw_defined env).2.1 pk msk text lang p hp hg t
    exact ⟨_, h⟩
  · exact (Lsw.C51_lsw_keygen_panic_iff_partial env pk msk text lang t).1.2 (Or.inr ⟨p, hp, hb⟩)
  · exact absurd (fun n hn hbn => hb ⟨n, hn, hbn⟩) hg

/-- **C69, AC17, ciphertext policies.** Encryption succeeds exactly for the accepted policies whose AND gates have two
and whose OR gates at least two children, and panics for all other accepted policies. (Full claim: it succeeds for all
accepted policies; false, see `C69_violated_ac17`.) -/
theorem Ac17.C69_ac17_cp_encrypt_partial (env : Env F G1 G2 Gt) (t t' : Tape F G1 G2 Gt) (pk : Ac17.PublicKey G1 G2 Gt)
    (msk : Ac17.MasterKey F G1 G2) (hsetup : Ac17.setup env t = .ok ((pk, msk), t')) (text : Str)
    (lang : PolicyLanguage) (plaintext : Bytes) (haead : ∀ k n, (env.aeadEnc k n plaintext).isSome = true)
    (s : Tape F G1 G2 Gt) :
    PolicyOutcome text lang (Ac17.cpEncrypt env pk text plaintext lang s) Pol.Binary (fun p => ¬ p.Binary) := by
  refine .of (fun h => ?_) (fun h => ?_) (fun p hp hg => ?_) (fun p hp hb => ?_) (fun p hp hg hb => absurd hg hb)
  · simp [Ac17.cpEncrypt, h]
  · simp [Ac17.cpEncrypt, h]
  · obtain ⟨ct, s', h⟩ := (Ac17.C30_ac17_cp_defined env).2.2 t t' pk msk hsetup text lang p hp hg plaintext haead s
    exact ⟨_, h⟩
  · have hp' : parse text lang = .ok p.toValue := hp
    rcases calculateMsp_cases p with ⟨hb', _⟩ | ⟨_, h⟩
    · exact absurd hb' hb
    · simp [Ac17.cpEncrypt, hp', h]

/-- **C69, AC17, key policies.** The same for key generation, unless a random number of the set-up was zero. -/
theorem Ac17.C69_ac17_kp_keygen_partial (env : Env F G1 G2 Gt) (t t' : Tape F G1 G2 Gt) (pk : Ac17.PublicKey G1 G2 Gt)
    (msk : Ac17.MasterKey F G1 G2) (hsetup : Ac17.setup env t = .ok ((pk, msk), t')) (h0 : t.fr 0 ≠ 0) (h2 : t.fr 2 ≠ 0)
    (text : Str) (lang : PolicyLanguage) (s : Tape F G1 G2 Gt) :
    PolicyOutcome text lang (Ac17.kpKeygen env msk text lang s) Pol.Binary (fun p => ¬ p.Binary) := by
  refine .of (fun h => ?_) (fun h => ?_) (fun p hp hg => ?_) (fun p hp hb => ?_) (fun p hp hg hb => absurd hg hb)
  · simp [Ac17.kpKeygen, h]
  · simp [Ac17.kpKeygen, h]
  · obtain ⟨ct, s', h⟩ := (Ac17.C32_ac17_kp_defined env).1 t t' pk msk hsetup h0 h2 text lang p hp hg s
    exact ⟨_, h⟩
  · have hp' : parse text lang = .ok p.toValue := hp
    rcases calculateMsp_cases p with ⟨hb', _⟩ | ⟨_, h⟩
    · exact absurd hb' hb
    · simp [Ac17.kpKeygen, hp', h]

/-- **C69 is violated for AC17.** No key and no random numbers let `"A" and "B" and "C"` be used as a policy. -/
theorem Ac17.C69_violated_ac17 (env : Env F G1 G2 Gt) (pk : Ac17.PublicKey G1 G2 Gt) (msk : Ac17.MasterKey F G1 G2)
    (plaintext : Bytes) (t : Tape F G1 G2 Gt) :
    (∃ p, Denotes (chars% "\"A\" and \"B\" and \"C\"") .human p) ∧
    Ac17.cpEncrypt env pk (chars% "\"A\" and \"B\" and \"C\"") plaintext .human t = .panic ∧
    Ac17.kpKeygen env msk (chars% "\"A\" and \"B\" and \"C\"") .human t = .panic := by
  have hp : parse (chars% "\"A\" and \"B\" and \"C\"") .human =
    .ok (Pol.gate .and [.leaf ['A'] 2, .leaf ['B'] 10, .leaf ['C'] 18]).toValue := rfl
  have hm : calculateMsp (Pol.gate .and [.leaf ['A'] 2, .leaf ['B'] 10, .leaf ['C'] 18]).toValue = .panic := rfl
  refine ⟨⟨_, hp⟩, ?_⟩
  generalize (Pol.gate .and [.leaf ['A'] 2, .leaf ['B'] 10, .leaf ['C'] 18]).toValue = v at hp hm
  exact ⟨by simp [Ac17.cpEncrypt, hp, hm], by simp [Ac17.kpKeygen, hp, hm]⟩

/-- **C69, AW11.** Encryption succeeds exactly for the accepted policies whose AND gates have two and whose OR gates at
least two children, whatever the public keys, and panics for all other accepted policies. (Full claim: it succeeds for all
accepted policies; false, see `C38_violated_ternary`.) -/
theorem Aw11.C69_aw11_encrypt_partial (cm : CaseMap) (env : Env F G1 G2 Gt) (gk : Aw11.GlobalKey G1 G2)
    (pks : List (Aw11.PublicKey G2 Gt)) (text : Str) (lang : PolicyLanguage) (plaintext : Bytes)
    (haead : ∀ k n, (env.aeadEnc k n plaintext).isSome = true) (s : Tape F G1 G2 Gt) :
    PolicyOutcome text lang (Aw11.encrypt cm env gk pks text lang plaintext s) Pol.Binary (fun p => ¬ p.Binary) := by
  refine .of (fun h => ?_) (fun h => ?_) (fun p hp hg => ?_) (fun p hp hb => ?_) (fun p hp hg hb => absurd hg hb)
  · simp [Aw11.encrypt, h]
  · simp [Aw11.encrypt, h]
  · obtain ⟨ct, s', h⟩ := (Aw11.C38_aw11_defined cm env).2.2 gk pks text lang p hp hg plaintext haead s
    exact ⟨_, h⟩
  · have hp' : parse text lang = .ok p.toValue := hp
    rcases calculateMsp_cases p with ⟨hb', _⟩ | ⟨_, h⟩
    · exact absurd hb' hb
    · simp [Aw11.encrypt, hp', h]

/-- A tree that is a leaf, an AND of leaves or an OR of such has no OR below an AND. -/
theorem isDnf_noOr {text lang} {p : Pol} (hp : Denotes text lang p) (h : p.IsDnf) : p.NoOrBelowAnd :=
  (policyInDnf_iff p none).1 ((C20_dnf_convertible_partial (G1 := Fr) (G2 := Fr) (Gt := Fr) text lang p hp []).2.2 h)

/-- **C69, BDABE.** Encryption succeeds exactly for the accepted policies that are a leaf, an AND of leaves or an OR of
such, whatever the public keys; it panics for the other policies without OR below AND (and returns an error for the
rest). (Full claim: it never panics on an accepted policy; false, see `C20_violated`.) -/
theorem Bdabe.C69_bdabe_encrypt_partial (env : Env F G1 G2 Gt) (pk : Bdabe.PublicKey G1 G2 Gt)
    (pks : List (Bdabe.PublicAttributeKey G1 G2 Gt)) (text : Str) (lang : PolicyLanguage) (plaintext : Bytes)
    (haead : ∀ k n, (env.aeadEnc k n plaintext).isSome = true) (s : Tape F G1 G2 Gt) :
    PolicyOutcome text lang (Bdabe.encrypt env pk pks text lang plaintext s) Pol.IsDnf
      (fun p => p.NoOrBelowAnd ∧ ¬ p.IsDnf) := by
  refine .of (fun h => ?_) (fun h => ?_) (fun p hp hg => ?_) (fun p hp hb => ?_) (fun p hp hg hb => ?_)
  · simp [Bdabe.encrypt, h]
  · simp [Bdabe.encrypt, h]
  · obtain ⟨ct, s', h⟩ := ((Bdabe.C44_bdabe_defined env).2.2.2 pk pks text lang p hp plaintext haead s).1 hg
    exact ⟨_, h⟩
  · exact ((Bdabe.C44_bdabe_defined env).2.2.2 pk pks text lang p hp plaintext haead s).2.2 hb.1 hb.2
  · exact ((Bdabe.C44_bdabe_defined env).2.2.2 pk pks text lang p hp plaintext haead s).2.1 fun h => hb ⟨h, hg⟩

/-- **C69, MKE08.** The same for MKE08. -/
theorem Mke08.C69_mke08_encrypt_partial (env : Env F G1 G2 Gt) (pk : Mke08.PublicKey G1 G2 Gt)
    (pks : List (Mke08.PublicAttributeKey G1 G2 Gt)) (text : Str) (lang : PolicyLanguage) (plaintext : Bytes)
    (haead : ∀ k n, (env.aeadEnc k n plaintext).isSome = true) (s : Tape F G1 G2 Gt) :
    PolicyOutcome text lang (Mke08.encrypt env pk pks text lang plaintext s) Pol.IsDnf
      (fun p => p.NoOrBelowAnd ∧ ¬ p.IsDnf) := by
  refine .of (fun h => ?_) (fun h => ?_) (fun p hp hg => ?_) (fun p hp hb => ?_) (fun p hp hg hb => ?_)
  · simp [Mke08.encrypt, h]
  · simp [Mke08.encrypt, h]
  · obtain ⟨ct, s', h⟩ := ((Mke08.C46_mke08_defined env).2.2.2 pk pks text lang p hp plaintext haead s).1 hg
    exact ⟨_, h⟩
  · exact ((Mke08.C46_mke08_defined env).2.2.2 pk pks text lang p hp plaintext haead s).2.2 hb.1 hb.2
  · exact ((Mke08.C46_mke08_defined env).2.2.2 pk pks text lang p hp plaintext haead s).2.1 fun h => hb ⟨h, hg⟩

/-- **C69 is violated for BDABE and MKE08.** `("A" and "B") and "C"` makes both panic. -/
theorem C69_violated_dnf (env : Env F G1 G2 Gt) (pk : Bdabe.PublicKey G1 G2 Gt)
    (pks : List (Bdabe.PublicAttributeKey G1 G2 Gt)) (pk' : Mke08.PublicKey G1 G2 Gt)
    (pks' : List (Mke08.PublicAttributeKey G1 G2 Gt)) (plaintext : Bytes)
    (haead : ∀ k n, (env.aeadEnc k n plaintext).isSome = true) (s : Tape F G1 G2 Gt) :
    Bdabe.encrypt env pk pks (chars% "(\"A\" and \"B\") and \"C\"") .human plaintext s = .panic ∧
    Mke08.encrypt env pk' pks' (chars% "(\"A\" and \"B\") and \"C\"") .human plaintext s = .panic := by
  have hd : Denotes (chars% "(\"A\" and \"B\") and \"C\"") .human
    (.gate .and [.gate .and [.leaf ['A'] 3, .leaf ['B'] 11], .leaf ['C'] 20]) := rfl
  have hb : (Pol.gate .and [.gate .and [.leaf ['A'] 3, .leaf ['B'] 11], .leaf ['C'] 20]).NoOrBelowAnd ∧
      ¬ (Pol.gate .and [.gate .and [.leaf ['A'] 3, .leaf ['B'] 11], .leaf ['C'] 20]).IsDnf := by
    simp [Pol.NoOrBelowAnd, Pol.NoOr, Pol.NoOrL, Pol.IsDnf]
  exact ⟨(Bdabe.C69_bdabe_encrypt_partial env pk pks _ _ plaintext haead s).panic_iff.2 (Or.inr ⟨_, hd, hb⟩),
    (Mke08.C69_mke08_encrypt_partial env pk' pks' _ _ plaintext haead s).panic_iff.2 (Or.inr ⟨_, hd, hb⟩)⟩

/-- The AEAD of the concrete environment never fails, and the trees of the theorems exist: a policy that all schemes accept. -/
example : (∀ m k n, (toyEnv.aeadEnc k n m).isSome = true) ∧
    ∃ p, Denotes (chars% "(\"A\" and \"B\") or \"C\"") .human p ∧ p.Binary ∧ p.IsDnf ∧ ∀ n ∈ p.names, ¬ Lsw.BadName n :=
  ⟨fun _ _ _ => rfl, .gate .or [.gate .and [.leaf ['A'] 3, .leaf ['B'] 11], .leaf ['C'] 19], rfl,
    by simp [Pol.Binary], by simp [Pol.IsDnf, Pol.IsTerm], by
      simp [Pol.names, Lsw.BadName]⟩

end Rabe
