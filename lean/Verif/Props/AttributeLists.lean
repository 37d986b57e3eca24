import Verif.Props.Ac17
import Verif.Props.Aw11
import Verif.Props.Bsw
import Verif.Props.Docs
import Verif.Props.Ghw11
import Verif.Props.Lsw
import Verif.Props.Yct14

/-!
# Property C101: lists of attributes

Which lists of attributes key generation, delegation and encryption accept, refuse, or abort on.
-/

namespace Rabe

set_option linter.unusedSectionVars false

variable {F G1 G2 Gt : Type} [Field F] [DecidableEq F] [AddCommGroup G1] [Module F G1]
  [AddCommGroup G2] [Module F G2] [AddCommGroup Gt] [Module F Gt]

/-- **C101, BSW.** After any set-up, key generation returns no key exactly for the empty list and a key for every other list. -/
theorem Bsw.C101_keygen (env : Env F G1 G2 Gt) (t t' : Tape F G1 G2 Gt) (pk : PublicKey G1 G2 Gt) (msk : MasterKey F G2)
    (hsetup : setup env t = .ok ((pk, msk), t')) (attrs : List Str) (s : Tape F G1 G2 Gt) :
    ∃ o s', keygen env pk msk attrs s = .ok (o, s') ∧ (o = none ↔ attrs = []) := by
  by_cases h : attrs = []
  · subst h
    exact ⟨none, s, rfl, by simp⟩
  · obtain ⟨sk, s', e⟩ := (C25_bsw_defined env).2.1 t t' pk msk hsetup attrs h s
    exact ⟨some sk, s', e, by simp [h]⟩

/-- **C101, BSW.** For every key, of any origin, delegation returns a key exactly for the lists that are not empty and contain only
attributes of the key, and no key for every other list; it never aborts and reports no error. -/
theorem Bsw.C101_delegate (env : Env F G1 G2 Gt) (pk : PublicKey G1 G2 Gt) (sk : SecretKey G1 G2) (subset : List Str)
    (s : Tape F G1 G2 Gt) : ∃ o s', delegate env pk sk subset s = .ok (o, s') ∧
      (o = none ↔ subset = [] ∨ ∃ a ∈ subset, a ∉ sk.dJ.map (·.string)) := by
  by_cases h1 : ∀ a ∈ subset, a ∈ sk.dJ.map (·.string)
  · have hs : isSubset subset (sk.dJ.map (·.string)) = true := (isSubset_iff _ _).2 h1
    by_cases h : subset = []
    · subst h
      exact ⟨none, s, by simp [delegate, hs], by simp⟩
    · have he : subset.isEmpty = false := by cases subset <;> simp_all
      have hl : subset.length ≠ 0 := by cases subset <;> simp_all
      obtain ⟨dJ, s', e⟩ := RM.mapL_total (f := delegateAttr env pk sk (s.fr 0)) (xs := subset) (by
        intro a ha u
        obtain ⟨k, _, hk, _⟩ := exists_find? (·.string) sk.dJ a (h1 a ha)
        simp [delegateAttr, RM.genFr, hk]) { s with fr := dropS 1 s.fr }
      refine ⟨some ⟨sk.d + s.fr 0 • pk.f, dJ⟩, s', ?_, ?_⟩
      · simp [delegate, hs, he, hl, RM.bind_apply, RM.genFr, e]
      · simp only [reduceCtorEq, h, false_or, false_iff, not_exists, not_and, not_not]
        exact h1
  · have hs : isSubset subset (sk.dJ.map (·.string)) = false := by
      rw [← Bool.not_eq_true, isSubset_iff]
      exact h1
    refine ⟨none, s, by simp [delegate, hs], by simpa using .inr (by simpa using h1)⟩

/-- **C101, GHW11.** Key generation returns no key exactly for the empty list and a key for every other list. -/
theorem Ghw11.C101_keygen (env : Env F G1 G2 Gt) (pk : PublicKey G1 G2 Gt) (msk : MasterKey G1 G2 Gt) (attrs : List Str)
    (s : Tape F G1 G2 Gt) : ∃ o s', keygen env pk msk attrs s = .ok (o, s') ∧ (o = none ↔ attrs = []) := by
  by_cases h : attrs = []
  · subst h
    exact ⟨none, s, rfl, by simp⟩
  · obtain ⟨sk, s', e⟩ := (C42_ghw11_defined env).2.1 pk msk attrs h s
    exact ⟨some sk, s', e, by simp [h]⟩

/-- **C101, AC17 CP-ABE.** After any set-up, key generation reports an error for the empty list; for every other list it returns a
key if the two random numbers of the set-up that are inverted are not zero, and aborts if one is. The attributes do not matter. -/
theorem Ac17.C101_keygen (env : Env F G1 G2 Gt) (t t' : Tape F G1 G2 Gt) (pk : PublicKey G1 G2 Gt) (msk : MasterKey F G1 G2)
    (hsetup : setup env t = .ok ((pk, msk), t')) (attrs : List Str) (s : Tape F G1 G2 Gt) :
    (attrs = [] → cpKeygen env msk attrs s = .err) ∧
      (attrs ≠ [] → (t.fr 0 ≠ 0 ∧ t.fr 2 ≠ 0 → ∃ sk s', cpKeygen env msk attrs s = .ok (sk, s')) ∧
        (¬ (t.fr 0 ≠ 0 ∧ t.fr 2 ≠ 0) → cpKeygen env msk attrs s = .panic)) := by
  refine ⟨?_, fun h => ⟨fun h0 => (C30_ac17_cp_defined env).2.1 t t' pk msk hsetup h0.1 h0.2 attrs h s, fun h0 => ?_⟩⟩
  · rintro rfl
    simp [cpKeygen]
  · obtain ⟨⟨b0, b1, hb⟩, hi⟩ := inverse_panics hsetup h0
    have : ∀ br a u, cpKeygenAttr env msk br a u = .panic := by
      intro br a u
      rcases hi with hi | ⟨x, hi, hi'⟩
      · simp [cpKeygenAttr, RM.bind_apply, RM.genFr, Res.mapR, hi, RM.lift, Res.rbind_eq]
      · simp [cpKeygenAttr, RM.bind_apply, RM.genFr, Res.mapR, hi, hi', RM.lift, Res.rbind_eq]
    cases attrs with
    | nil => exact absurd rfl h
    | cons a as => simp [cpKeygen, RM.bind_apply, RM.genFr, brVec, hb, RM.lift, Res.index, mapL_panic (this _ _ _)]

/-- **C101 is violated by AC17 KP-ABE.** Encryption for the empty list succeeds, for every set-up, and every key refuses the
ciphertext: the plaintext is lost. -/
theorem Ac17.C101_violated_ac17 (env : Env F G1 G2 Gt) (t t' : Tape F G1 G2 Gt) (pk : PublicKey G1 G2 Gt)
    (msk : MasterKey F G1 G2) (hsetup : setup env t = .ok ((pk, msk), t')) (plaintext : Bytes)
    (haead : ∀ k n, (env.aeadEnc k n plaintext).isSome = true) (s : Tape F G1 G2 Gt) :
    ∃ ct s', kpEncrypt env pk [] plaintext s = .ok (ct, s') ∧ ∀ sk data, kpDecrypt env sk ct ≠ .ok data := by
  obtain ⟨ct, s', e⟩ := (C32_ac17_kp_defined env).2 t t' pk msk hsetup [] plaintext haead s
  refine ⟨ct, s', e, fun sk data hd => ?_⟩
  obtain ⟨p, -, -, hn⟩ := C33_ac17_kp_decrypts_only_if_satisfied env sk ct data hd
  apply hn
  simp only [kpEncrypt, RM.bind_ok, RM.pure_ok] at e
  obtain ⟨_, _, -, _, _, -, _, _, -, _, _, -, _, _, -, _, _, -, rfl, -⟩ := e
  rfl

/-- **C101, AC17 KP-ABE, partial.** Encryption succeeds for every list. (Full claim: the empty list is refused; false, see
`C101_violated_ac17`.) -/
theorem Ac17.C101_encrypt_partial (env : Env F G1 G2 Gt) (t t' : Tape F G1 G2 Gt) (pk : PublicKey G1 G2 Gt)
    (msk : MasterKey F G1 G2) (hsetup : setup env t = .ok ((pk, msk), t')) (attrs : List Str) (plaintext : Bytes)
    (haead : ∀ k n, (env.aeadEnc k n plaintext).isSome = true) (s : Tape F G1 G2 Gt) :
    ∃ ct s', kpEncrypt env pk attrs plaintext s = .ok (ct, s') :=
  (C32_ac17_kp_defined env).2 t t' pk msk hsetup attrs plaintext haead s

/-- **C101, LSW.** Encryption reports an error exactly for the empty list and the empty plaintext, and succeeds otherwise. -/
theorem Lsw.C101_encrypt (env : Env F G1 G2 Gt) (pk : PublicKey G1 G2 Gt) (attrs : List Str) (plaintext : Bytes)
    (haead : ∀ k n, (env.aeadEnc k n plaintext).isSome = true) (s : Tape F G1 G2 Gt) :
    (attrs = [] ∨ plaintext = [] → encrypt env pk attrs plaintext s = .err) ∧
      (attrs ≠ [] → plaintext ≠ [] → ∃ ct s', encrypt env pk attrs plaintext s = .ok (ct, s')) := by
  refine ⟨?_, fun h h' => (C34_lsw_defined env).2.2 pk attrs plaintext h h' haead s⟩
  rintro (rfl | rfl) <;> simp [encrypt]

namespace Yct14

theorem mapR_panic {α β : Type} {f : α → Res β} : ∀ {xs : List α}, (∀ x ∈ xs, f x ≠ .err) → (∃ x ∈ xs, f x = .panic) →
    Res.mapR f xs = .panic := by
  intro xs
  induction xs with
  | nil => rintro _ ⟨_, hx, _⟩; simp at hx
  | cons x xs ih =>
    intro h hx
    simp only [Res.mapR, Res.rbind_eq]
    cases e : f x with
    | err => exact absurd e (h x (by simp))
    | panic => rfl
    | ok y =>
      rw [ih (fun z hz => h z (by simp [hz]))]
      · rfl
      · obtain ⟨z, hz, hp⟩ := hx
        rcases List.mem_cons.1 hz with rfl | hz
        · rw [e] at hp; simp at hp
        · exact ⟨z, hz, hp⟩

/-- **C101, YCT14, partial.** After any set-up, encryption reports an error for the empty list and the empty plaintext; otherwise it
succeeds if all attributes were given to set-up, and aborts if one was not. (Full claim: it never aborts.) -/
theorem C101_encrypt_partial (env : Env F G1 G2 Gt) (uni : List Str) (t t' : Tape F G1 G2 Gt) (pk : PublicKey F Gt)
    (msk : MasterKey F Gt) (hsetup : setup uni t = .ok ((pk, msk), t')) (attrs : List Str) (plaintext : Bytes)
    (haead : ∀ k n, (env.aeadEnc k n plaintext).isSome = true) (s : Tape F G1 G2 Gt) :
    (attrs = [] ∨ plaintext = [] → encrypt env pk attrs plaintext s = .err) ∧
      (attrs ≠ [] → plaintext ≠ [] →
        ((∀ a ∈ attrs, a ∈ uni) → ∃ ct s', encrypt env pk attrs plaintext s = .ok (ct, s')) ∧
        ((∃ a ∈ attrs, a ∉ uni) → encrypt env pk attrs plaintext s = .panic)) := by
  refine ⟨?_, fun h h' => ⟨fun ha => ((C36_yct14_defined env uni).2 t t' pk msk hsetup).2 attrs plaintext h ha h' haead s,
    fun hx => ?_⟩⟩
  · rintro (rfl | rfl)
    · simp [encrypt]
    · by_cases he : attrs.isEmpty = true <;> simp [encrypt, he]
  · obtain ⟨g, L, hs⟩ := setup_ok hsetup
    have h1' : attrs.isEmpty = false := by cases attrs <;> simp_all
    have h3' : List.isEmpty plaintext = false := by cases plaintext <;> simp_all
    have hm : Res.mapR (publicFrom pk (s.fr 0)) attrs = .panic := by
      apply mapR_panic
      · intro a _
        rw [publicFrom_eq hs]
        split <;> simp
      · obtain ⟨a, ha, hu⟩ := hx
        refine ⟨a, ha, ?_⟩
        have : expOf L a = none := by
          rw [← Option.not_isSome_iff_eq_none, expOf_isSome, hs.names]
          exact hu
        rw [publicFrom_eq hs, this]
    simp [encrypt, h1', h3', RM.genFr, hm]

/-- **C101 is violated by YCT14.** Encryption for an attribute that was not given to set-up aborts. -/
theorem C101_violated : ∃ (pk : PublicKey Fr Fr) (msk : MasterKey Fr Fr) (t : Tape Fr Fr Fr Fr),
    setup [['A']] toyTape = .ok ((pk, msk), t) ∧ encrypt toyEnv pk [['A'], ['B']] [7] toyTape = .panic := by
  obtain ⟨pk, msk, t, h⟩ := (C36_yct14_defined toyEnv [['A']]).1 toyTape
  exact ⟨pk, msk, t, h, ((C101_encrypt_partial toyEnv _ _ _ pk msk h [['A'], ['B']] [7] (fun _ _ => rfl) toyTape).2
    (by simp) (by simp)).2 ⟨['B'], by simp⟩⟩

end Yct14

namespace Aw11

/-- **C101, AW11.** The set-up of an authority returns no key exactly for the empty list. -/
theorem C101_authgen (cm : CaseMap) (env : Env F G1 G2 Gt) (gk : GlobalKey G1 G2) (names : List Str) (s : Tape F G1 G2 Gt) :
    ∃ o s', authgen cm env gk names s = .ok (o, s') ∧ (o = none ↔ names = []) := by
  by_cases h : names = []
  · subst h
    exact ⟨none, s, rfl, by simp⟩
  · obtain ⟨pk, msk, s', e⟩ := (C38_aw11_defined cm env).2.1 gk names h s
    exact ⟨some (pk, msk), s', e, by simp [h]⟩

theorem add_gid {cm : CaseMap} {env : Env F G1 G2 Gt} {gk : GlobalKey G1 G2} {msk : MasterKey F} {attr : Str}
    {sk sk' : SecretKey G1} (h : addToAttribute cm env gk msk attr sk = .ok sk') : sk'.gid = sk.gid := by
  unfold addToAttribute at h
  split at h
  · simp at h
  · split at h
    · simp at h
    · simp only [Res.bind_eq_ok, Res.ok.injEq] at h
      obtain ⟨_, _, rfl⟩ := h
      rfl

theorem add_bad {cm : CaseMap} {env : Env F G1 G2 Gt} {gk : GlobalKey G1 G2} {a : Authority F G2 Gt}
    (ha : a.Genuine cm env gk) {attr : Str} {sk : SecretKey G1} (hg : sk.gid ≠ []) (h : attr ∉ a.names.map cm.upper) :
    addToAttribute cm env gk a.msk attr sk = if attr = [] then .err else .panic := by
  obtain ⟨L, hL, hLn, hA⟩ := authorities_ok (auths := [a]) (by simpa using ha)
  have hn := (hA a (by simp)).2.2.2
  have hf : (a.msk.attr.find? fun a => a.name == attr) = none := by
    rw [List.find?_eq_none]
    intro b hb e
    apply h
    rw [← hn]
    exact List.mem_map.2 ⟨b, hb, by simpa using e⟩
  have h2 : sk.gid.isEmpty = false := by cases hg' : sk.gid <;> simp_all
  by_cases he : attr = []
  · subst he
    simp [addToAttribute]
  · have h1 : attr.isEmpty = false := by cases attr <;> simp_all
    simp [addToAttribute, h1, h2, hf, he, Res.unwrapOption]

/-- **C101, AW11, partial.** The key generation of an authority, for every authority and list of attributes: an error for the empty
list and the empty user name; a key if every attribute is one of the authority, written in upper case; otherwise the first
attribute that is not decides, an error if it is empty and an abort if it is not. (Full claim: it never aborts.) -/
theorem C101_keygen_partial (cm : CaseMap) (env : Env F G1 G2 Gt) (gk : GlobalKey G1 G2) (a : Authority F G2 Gt)
    (ha : a.Genuine cm env gk) (name : Str) (attrs : List Str) :
    (attrs = [] ∨ name = [] → keygen cm env gk a.msk name attrs = .err) ∧
    (attrs ≠ [] → name ≠ [] →
      ((∀ x ∈ attrs, x ≠ [] ∧ x ∈ a.names.map cm.upper) → ∃ sk, keygen cm env gk a.msk name attrs = .ok sk) ∧
      ∀ l x r, attrs = l ++ x :: r → (∀ y ∈ l, y ≠ [] ∧ y ∈ a.names.map cm.upper) → x ∉ a.names.map cm.upper →
        keygen cm env gk a.msk name attrs = if x = [] then .err else .panic) := by
  have key : ∀ (l : List Str) (sk : SecretKey G1), sk.gid ≠ [] → (∀ y ∈ l, y ≠ [] ∧ y ∈ a.names.map cm.upper) →
      ∀ r, ∃ sk', sk'.gid ≠ [] ∧ Res.foldR (fun sk x => addToAttribute cm env gk a.msk x sk) sk (l ++ r) =
        Res.foldR (fun sk x => addToAttribute cm env gk a.msk x sk) sk' r := by
    intro l
    induction l with
    | nil => intro sk hg _ r; exact ⟨sk, hg, rfl⟩
    | cons y l ih =>
      intro sk hg hl r
      obtain ⟨h1, h2⟩ := hl y (by simp)
      obtain ⟨sk1, e1⟩ := (C38_aw11_defined_add cm env gk a ha y sk).2 ⟨h1, hg, h2⟩
      obtain ⟨sk2, hg2, e2⟩ := ih sk1 (by rw [add_gid e1]; exact hg) (fun z hz => hl z (by simp [hz])) r
      refine ⟨sk2, hg2, ?_⟩
      rw [List.cons_append, Res.foldR, Res.rbind_eq, e1, Res.ok_bind, e2]
  refine ⟨?_, fun h h' => ?_⟩
  · rintro (rfl | rfl)
    · simp [keygen]
    · by_cases he : attrs.isEmpty = true <;> simp [keygen, he]
  · have h1 : attrs.isEmpty = false := by cases attrs <;> simp_all
    have h2 : name.isEmpty = false := by cases name <;> simp_all
    simp only [keygen, h1, h2, Bool.false_eq_true, if_false]
    refine ⟨fun hall => ?_, fun l x r e hl hx => ?_⟩
    · obtain ⟨sk, -, e⟩ := key attrs ⟨name, []⟩ h' hall []
      rw [List.append_nil] at e
      exact ⟨sk, e⟩
    · obtain ⟨sk, hg, e'⟩ := key l ⟨name, []⟩ h' hl (x :: r)
      rw [e, e', Res.foldR, Res.rbind_eq, add_bad ha hg hx]
      split <;> rfl

/-- **C101 is violated by AW11.** An authority for the attribute `a` aborts when asked for a key for `a`. -/
theorem C101_violated : ∃ (gk : GlobalKey Fr Fr) (a : Authority Fr Fr Fr), a.names = [['a']] ∧
    a.Genuine asciiCase toyEnv gk ∧ keygen asciiCase toyEnv gk a.msk ['u'] [['a']] = .panic := by
  obtain ⟨gk, t, -⟩ := (C38_aw11_defined asciiCase toyEnv).1 toyTape
  obtain ⟨pk, msk, t', h⟩ := (C38_aw11_defined asciiCase toyEnv).2.1 gk [['a']] (by simp) toyTape
  refine ⟨gk, ⟨[['a']], pk, msk⟩, rfl, ⟨_, _, h⟩, ?_⟩
  have := ((C101_keygen_partial asciiCase toyEnv gk ⟨[['a']], pk, msk⟩ ⟨_, _, h⟩ ['u'] [['a']]).2 (by simp) (by simp)).2
    [] ['a'] [] rfl (by simp) (show ['a'] ∉ [['a']].map asciiCase.upper by decide)
  simpa using this

/-- The same authority and the name in upper case. -/
example : ∃ (gk : GlobalKey Fr Fr) (a : Authority Fr Fr Fr) (sk : SecretKey Fr), a.names = [['a']] ∧
    a.Genuine asciiCase toyEnv gk ∧ keygen asciiCase toyEnv gk a.msk ['u'] [['A']] = .ok sk := by
  obtain ⟨gk, t, -⟩ := (C38_aw11_defined asciiCase toyEnv).1 toyTape
  obtain ⟨pk, msk, t', h⟩ := (C38_aw11_defined asciiCase toyEnv).2.1 gk [['a']] (by simp) toyTape
  obtain ⟨sk, e⟩ := ((C101_keygen_partial asciiCase toyEnv gk ⟨[['a']], pk, msk⟩ ⟨_, _, h⟩ ['u'] [['A']]).2 (by simp)
    (by simp)).1 (show ∀ x ∈ [['A']], x ≠ [] ∧ x ∈ [['a']].map asciiCase.upper by decide)
  exact ⟨gk, _, sk, rfl, ⟨_, _, h⟩, e⟩

end Aw11

/-- Set-ups meeting the hypotheses exist: the BSW and AC17 set-ups on the concrete tape. -/
example : (∃ pk msk t', Bsw.setup toyEnv toyTape = .ok ((pk, msk), t')) ∧
    (∃ pk msk t', Ac17.setup toyEnv toyTape = .ok ((pk, msk), t')) ∧ toyTape.fr 0 ≠ 0 ∧ toyTape.fr 2 ≠ 0 :=
  ⟨(Bsw.C25_bsw_defined toyEnv).1 toyTape (by simp [toyTape]), (Ac17.C30_ac17_cp_defined toyEnv).1 toyTape,
    by simp [toyTape], by simp [toyTape]⟩

/-- Delegation of one attribute out of two, of a foreign one, and of none. -/
example : ∃ (pk : Bsw.PublicKey Fr Fr Fr) (sk : Bsw.SecretKey Fr Fr), sk.dJ.map (·.string) = [['A'], ['B']] ∧
    (∃ k s', Bsw.delegate toyEnv pk sk [['B']] toyTape = .ok (some k, s')) ∧
    (∃ s', Bsw.delegate toyEnv pk sk [['B'], ['C']] toyTape = .ok (none, s')) ∧
    ∃ s', Bsw.delegate toyEnv pk sk [] toyTape = .ok (none, s') := by
  refine ⟨⟨1, 2, 3, 4, 5⟩, ⟨6, [⟨['A'], 7, 8⟩, ⟨['B'], 9, 10⟩]⟩, rfl, ?_, ?_, ?_⟩
  · obtain ⟨o, s', e, h⟩ := Bsw.C101_delegate toyEnv ⟨1, 2, 3, 4, 5⟩ ⟨6, [⟨['A'], 7, 8⟩, ⟨['B'], 9, 10⟩]⟩ [['B']] toyTape
    cases o with
    | none => simp at h
    | some k => exact ⟨k, s', e⟩
  · obtain ⟨o, s', e, h⟩ := Bsw.C101_delegate toyEnv ⟨1, 2, 3, 4, 5⟩ ⟨6, [⟨['A'], 7, 8⟩, ⟨['B'], 9, 10⟩]⟩ [['B'], ['C']] toyTape
    obtain rfl := h.2 (.inr ⟨['C'], by simp⟩)
    exact ⟨s', e⟩
  · obtain ⟨o, s', e, h⟩ := Bsw.C101_delegate toyEnv ⟨1, 2, 3, 4, 5⟩ ⟨6, [⟨['A'], 7, 8⟩, ⟨['B'], 9, 10⟩]⟩ [] toyTape
    obtain rfl := h.2 (.inl rfl)
    exact ⟨s', e⟩

end Rabe
