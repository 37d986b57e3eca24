import Verif.Proof.Ac17
import Verif.Proof.KpCommon
import Verif.Instance.Bn
import Verif.Instance.Case
import Verif.Model.Bsw
import Verif.Model.Ghw11
import Verif.Model.Aw11
import Verif.Model.Lsw
import Verif.Model.Yct14
import Verif.Model.Bdabe
import Verif.Model.Mke08

/-!
# C71: keys and ciphertexts have one component for each requested attribute

Keys of ciphertext-policy schemes and ciphertexts of key-policy schemes list the requested attributes, in order. Ciphertexts
of ciphertext-policy schemes and keys of key-policy schemes list the leaves of the policy, in order (AC17: sorted by name),
and store the policy they were made for.
-/

set_option linter.unusedSectionVars false

namespace Rabe

variable {F G1 G2 Gt : Type} [Field F] [DecidableEq F] [AddCommGroup G1] [Module F G1]
  [AddCommGroup G2] [Module F G2] [AddCommGroup Gt] [Module F Gt]

/-- A loop that keeps a projection of its elements. -/
theorem RM.mapL_names {α β γ : Type} {f : α → RM F G1 G2 Gt β} {p : β → γ} {q : α → γ} {xs : List α} {t ys t'}
    (h : RM.mapL f xs t = .ok (ys, t')) (hf : ∀ x s y s', f x s = .ok (y, s') → p y = q x) : ys.map p = xs.map q := by
  have h' := RM.mapL_ok h
  clear h
  induction h' with
  | nil => rfl
  | cons a _ ih => obtain ⟨s, s', a⟩ := a; simp [hf _ _ _ _ a, ih]

theorem mapR_names {α β γ : Type} {f : α → Res β} {p : β → γ} {q : α → γ} {xs : List α} {ys}
    (h : Res.mapR f xs = .ok ys) (hf : ∀ x y, f x = .ok y → p y = q x) : ys.map p = xs.map q := by
  have h' := mapR_ok h
  clear h
  induction h' with
  | nil => rfl
  | cons a _ ih => simp [hf _ _ a, ih]

theorem shares_names {p : Pol} (σ : F) (ω : ℕ → F) :
    (shares p σ ω).map (·.1) = p.leaves.map fun l => l.1 ++ '_' :: natStr l.2 := by
  rw [shares, List.map_fst_zip (by simp [shareVals_length])]
  rfl

theorem takeWhile_label (n : Str) (c : ℕ) : removeIndex (n ++ '_' :: natStr c) = n.takeWhile (· != '_') :=
  removeIndex_nodeIndex_eq n c

/-! ## BSW -/

/-- **C71, BSW.** -/
theorem Bsw.C71_keygen (env : Env F G1 G2 Gt) (pk msk) (attrs : List Str) (t r t')
    (h : Bsw.keygen env pk msk attrs t = .ok (r, t')) :
    match r with
    | none => attrs = []
    | some sk => attrs ≠ [] ∧ sk.dJ.map (·.string) = attrs := by
  simp only [Bsw.keygen] at h
  split at h
  next he =>
    simp only [RM.pure_ok] at h
    obtain ⟨rfl, _⟩ := h
    simpa using he
  next he =>
    simp only [RM.bind_ok, RM.pure_ok] at h
    obtain ⟨_, _, _, _, _, _, dJ, _, hL, rfl, _⟩ := h
    refine ⟨by simpa using he, ?_⟩
    have := RM.mapL_names (p := (·.string)) (q := id) hL fun x s y s' h => by
      simp only [Bsw.keygenAttr, RM.bind_ok, RM.pure_ok] at h
      obtain ⟨_, _, _, rfl, _⟩ := h
      rfl
    simpa using this

/-- **C71, BSW.** A delegated key lists the requested subset. -/
theorem Bsw.C71_delegate (env : Env F G1 G2 Gt) (pk) (sk : Bsw.SecretKey G1 G2) (subset : List Str) (t r t')
    (h : Bsw.delegate env pk sk subset t = .ok (r, t')) :
    match r with
    | none => subset = [] ∨ ¬ subset ⊆ sk.dJ.map (·.string)
    | some sk' => sk'.dJ.map (·.string) = subset ∧ subset ⊆ sk.dJ.map (·.string) := by
  simp only [Bsw.delegate] at h
  have hsub : isSubset subset (sk.dJ.map (·.string)) = true ↔ subset ⊆ sk.dJ.map (·.string) := by
    simp [isSubset, List.subset_def]
  split at h
  next he =>
    simp only [RM.pure_ok] at h
    obtain ⟨rfl, _⟩ := h
    exact .inr fun hc => by rw [hsub.2 hc] at he; simp at he
  next he =>
    split at h
    next hs =>
      simp only [RM.pure_ok] at h
      obtain ⟨rfl, _⟩ := h
      exact .inl (by simpa using hs)
    next hs =>
      simp only [RM.bind_ok, RM.pure_ok] at h
      obtain ⟨_, _, _, dJ, _, hL, rfl, _⟩ := h
      refine ⟨?_, hsub.1 (by simpa using he)⟩
      have := RM.mapL_names (p := (·.string)) (q := id) hL fun x s y s' h => by
        simp only [Bsw.delegateAttr, RM.bind_ok, RM.pure_ok] at h
        obtain ⟨_, _, _, _, _, _, rfl, _⟩ := h
        rfl
      simpa using this

/-- **C71, BSW.** -/
theorem Bsw.C71_encrypt (env : Env F G1 G2 Gt) (pk) (text : Str) (lang : PolicyLanguage) (p : Pol)
    (hp : Denotes text lang p) (m : Bytes) (t ct t') (h : Bsw.encrypt env pk text lang m t = .ok (ct, t')) :
    ct.policy = (text, lang) ∧ ct.cY.map (·.string) = p.leaves.map fun l => l.1 ++ '_' :: natStr l.2 := by
  simp only [Bsw.encrypt, RM.bind_ok, RM.genFr, RM.genGt, RM.lift_ok_iff, RM.pure_ok, Res.ok.injEq, Prod.mk.injEq,
    RM.liftFr, show parse text lang = _ from hp] at h
  obtain ⟨_, _, ⟨rfl, rfl⟩, _, _, ⟨rfl, rfl⟩, _, _, ⟨rfl, rfl⟩, sh, _, hs, sh', _, ⟨hs', rfl⟩, d, _, hd, rfl, _⟩ := h
  rw [genSharesPolicy_eq] at hs
  cases hs; cases hs'
  exact ⟨rfl, by rw [← shares_names (F := F), List.map_map]; rfl⟩

/-! ## GHW11 -/

/-- **C71, GHW11.** -/
theorem Ghw11.C71_keygen (env : Env F G1 G2 Gt) (pk msk) (attrs : List Str) (t r t')
    (h : Ghw11.keygen env pk msk attrs t = .ok (r, t')) :
    match r with
    | none => attrs = []
    | some sk => attrs ≠ [] ∧ sk.attrKey.map (·.string) = attrs := by
  simp only [Ghw11.keygen] at h
  split at h
  next he =>
    simp only [RM.pure_ok] at h
    obtain ⟨rfl, _⟩ := h
    simpa using he
  next he =>
    simp only [RM.bind_ok, RM.pure_ok] at h
    obtain ⟨_, _, _, rfl, _⟩ := h
    exact ⟨by simpa using he, by simp [Function.comp_def]⟩

/-- **C71, GHW11.** -/
theorem Ghw11.C71_tkgen (sk : Ghw11.SecretKey G2) (t : Tape F G1 G2 Gt) (r t') (h : Ghw11.tkgen sk t = .ok (r, t')) :
    ∃ tk rk, r = some (tk, rk) ∧ tk.attrKeyZ.map (·.string) = sk.attrKey.map (·.string) := by
  simp only [Ghw11.tkgen, RM.bind_ok, RM.pure_ok] at h
  obtain ⟨_, _, _, _, _, _, rfl, _⟩ := h
  exact ⟨_, _, rfl, by simp [Function.comp_def]⟩

/-- **C71, GHW11.** -/
theorem Ghw11.C71_encrypt (env : Env F G1 G2 Gt) (pk) (text : Str) (lang : PolicyLanguage) (p : Pol)
    (hp : Denotes text lang p) (m : Bytes) (t ct t') (h : Ghw11.encrypt env pk text lang m t = .ok (ct, t')) :
    ct.policy = (text, lang) ∧ ct.ciDi.map (·.1) = p.leaves.map fun l => l.1 ++ '_' :: natStr l.2 := by
  simp only [Ghw11.encrypt, RM.bind_ok, RM.genFr, RM.genGt, RM.lift_ok_iff, RM.pure_ok, Res.ok.injEq, Prod.mk.injEq,
    RM.liftFr, show parse text lang = _ from hp] at h
  obtain ⟨_, _, ⟨rfl, rfl⟩, _, _, ⟨rfl, rfl⟩, _, _, ⟨rfl, rfl⟩, sh, _, hs, sh', _, ⟨hs', rfl⟩, c, _, hc, d, _, hd, rfl, _⟩ := h
  rw [genSharesPolicy_eq] at hs
  cases hs; cases hs'
  refine ⟨rfl, ?_⟩
  rw [← shares_names (F := F)]
  exact RM.mapL_names hc fun x s y s' h => by
    simp only [Ghw11.encShare, RM.bind_ok, RM.pure_ok] at h
    obtain ⟨_, _, _, rfl, _⟩ := h
    rfl

/-! ## AW11 -/

/-- **C71, AW11.** -/
theorem Aw11.C71_authgen (cm : CaseMap) (env : Env F G1 G2 Gt) (gk) (attrs : List Str) (t r t')
    (h : Aw11.authgen cm env gk attrs t = .ok (r, t')) :
    match r with
    | none => attrs = []
    | some (pk, msk) => attrs ≠ [] ∧ pk.attr.map (·.name) = attrs.map cm.upper ∧ msk.attr.map (·.name) = attrs.map cm.upper := by
  simp only [Aw11.authgen] at h
  split at h
  next he =>
    simp only [RM.pure_ok] at h
    obtain ⟨rfl, _⟩ := h
    simpa using he
  next he =>
    simp only [RM.bind_ok, RM.pure_ok] at h
    obtain ⟨l, _, hL, rfl, _⟩ := h
    refine ⟨by simpa using he, ?_, ?_⟩
    · rw [List.map_map]
      exact RM.mapL_names hL fun x s y s' h => by
        simp only [Aw11.authgenAttr, RM.bind_ok, RM.pure_ok] at h
        obtain ⟨_, _, _, _, _, _, rfl, _⟩ := h
        rfl
    · rw [List.map_map]
      exact RM.mapL_names hL fun x s y s' h => by
        simp only [Aw11.authgenAttr, RM.bind_ok, RM.pure_ok] at h
        obtain ⟨_, _, _, _, _, _, rfl, _⟩ := h
        rfl

/-- **C71, AW11.** Adding an attribute appends it and keeps the identity. -/
theorem Aw11.C71_add (cm : CaseMap) (env : Env F G1 G2 Gt) (gk) (msk : Aw11.MasterKey F) (attr : Str)
    (sk sk' : Aw11.SecretKey G1) (h : Aw11.addToAttribute cm env gk msk attr sk = .ok sk') :
    sk'.gid = sk.gid ∧ sk'.attr.map (·.1) = sk.attr.map (·.1) ++ [cm.upper attr] := by
  simp only [Aw11.addToAttribute] at h
  split at h
  · cases h
  split at h
  · cases h
  simp only [Res.bind_eq_ok, Res.ok.injEq] at h
  obtain ⟨a, ha, rfl⟩ := h
  unfold Res.unwrapOption at ha
  split at ha
  next b hb =>
    cases ha
    have := List.find?_some hb
    simp only [beq_iff_eq] at this
    simp [this]
  next => cases ha

/-- **C71, AW11.** -/
theorem Aw11.C71_keygen (cm : CaseMap) (env : Env F G1 G2 Gt) (gk) (msk : Aw11.MasterKey F) (name : Str)
    (attrs : List Str) (sk : Aw11.SecretKey G1) (h : Aw11.keygen cm env gk msk name attrs = .ok sk) :
    sk.gid = name ∧ sk.attr.map (·.1) = attrs.map cm.upper := by
  simp only [Aw11.keygen] at h
  split at h
  · cases h
  split at h
  · cases h
  have key : ∀ (attrs : List Str) (sk0 sk : Aw11.SecretKey G1),
      Res.foldR (fun sk a => Aw11.addToAttribute cm env gk msk a sk) sk0 attrs = .ok sk →
      sk.gid = sk0.gid ∧ sk.attr.map (·.1) = sk0.attr.map (·.1) ++ attrs.map cm.upper := by
    intro attrs
    induction attrs with
    | nil => intro sk0 sk h; simp only [Res.foldR, Res.ok.injEq] at h; subst h; simp
    | cons a attrs ih =>
      intro sk0 sk h
      simp only [Res.foldR, Res.rbind_eq, Res.bind_eq_ok] at h
      obtain ⟨sk1, h1, h2⟩ := h
      obtain ⟨e1, e2⟩ := Aw11.C71_add cm env gk msk a _ _ h1
      obtain ⟨e3, e4⟩ := ih _ _ h2
      exact ⟨e3.trans e1, by simp [e4, e2]⟩
  simpa using key _ _ _ h

/-- **C71, AW11.** Partial: the ciphertext lists the leaves of the policy that have a public key; the other leaves are
dropped (`C71_violated_encrypt`). If all have one, all leaves are listed. -/
theorem Aw11.C71_encrypt_partial (cm : CaseMap) (env : Env F G1 G2 Gt) (gk) (pks : List (Aw11.PublicKey G2 Gt)) (text : Str)
    (lang : PolicyLanguage) (p : Pol) (hp : Denotes text lang p) (m : Bytes) (t ct t')
    (h : Aw11.encrypt cm env gk pks text lang m t = .ok (ct, t')) :
    ct.policy = (text, lang) ∧ ct.c.map (·.name) =
      ((p.leaves.map fun l => cm.upper (l.1 ++ '_' :: natStr l.2)).filter fun x =>
        (Aw11.findPkAttr (x.takeWhile (· != '_')) pks).isSome) := by
  simp only [Aw11.encrypt, RM.bind_ok, RM.genFr, RM.genGt, RM.lift_ok_iff, RM.pure_ok, Res.ok.injEq, Prod.mk.injEq,
    RM.liftFr, show parse text lang = _ from hp] at h
  obtain ⟨_, _, ⟨rfl, rfl⟩, _, _, _, _, _, _, _, _, ⟨rfl, rfl⟩, sh, _, hs, sh', _, ⟨hs', rfl⟩, zh, _, hz, zh', _, ⟨hz', rfl⟩,
    _, _, ⟨rfl, rfl⟩, c, _, hc, d, _, hd, rfl, _⟩ := h
  rw [genSharesPolicy_eq] at hs
  cases hs; cases hs'
  refine ⟨rfl, ?_⟩
  have h1 := RM.mapL_names (p := fun y : Option (Aw11.CtAttr G2 Gt) => y.map (·.name))
    (q := fun x : (Str × F) × ℕ => if (Aw11.findPkAttr ((cm.upper x.1.1).takeWhile (· != '_')) pks).isSome
      then some (cm.upper x.1.1) else none) hc (fun x s y s' h => by
    simp only [Aw11.encShare, RM.bind_ok, removeIndex] at h
    obtain ⟨_, _, _, h⟩ := h
    cases e : Aw11.findPkAttr ((cm.upper x.1.1).takeWhile (· != '_')) pks with
    | none =>
      simp only [e, RM.pure_ok] at h
      obtain ⟨rfl, _⟩ := h
      simp [e]
    | some a =>
      simp only [e, RM.bind_ok, RM.pure_ok] at h
      obtain ⟨_, _, _, rfl, _⟩ := h
      simp [e])
  have h2 : (c.filterMap id).map (·.name) = (c.map fun y => y.map (·.name)).filterMap id := by
    rw [List.filterMap_map, List.map_filterMap]
    rfl
  rw [h2, h1, List.filterMap_map]
  have h3 : ∀ (S : List (Str × F)) (n : ℕ), List.filterMap (id ∘ fun x : (Str × F) × ℕ =>
      if (Aw11.findPkAttr ((cm.upper x.1.1).takeWhile (· != '_')) pks).isSome then some (cm.upper x.1.1) else none)
      (S.zipIdx n) = ((S.map (·.1)).map cm.upper).filter fun x => (Aw11.findPkAttr (x.takeWhile (· != '_')) pks).isSome := by
    intro S
    induction S with
    | nil => intro n; rfl
    | cons x S ih =>
      intro n
      simp only [List.zipIdx_cons, List.filterMap_cons, List.map_cons, List.filter_cons, Function.comp_apply, id]
      have := ih (n + 1)
      simp only [Function.comp_def, id] at this ⊢
      rw [this]
      by_cases hk : (Aw11.findPkAttr ((cm.upper x.1).takeWhile (· != '_')) pks).isSome = true
      · simp [hk]
      · simp [hk]
  rw [h3, shares_names, List.map_map]
  rfl

/-- **C71 fails for AW11.** A leaf without public key is dropped: encryption for `"A" and "B"` with a public key for `A`
only succeeds and gives a ciphertext without component for `B`. -/
theorem Aw11.C71_violated_encrypt : ∃ (gk : Aw11.GlobalKey Fr Fr) (pk : Aw11.PublicKey Fr Fr) (msk : Aw11.MasterKey Fr)
    (t t' t'' : Tape Fr Fr Fr Fr)
    (ct : Aw11.Ciphertext Fr Fr) (p : Pol), Aw11.setup toyTape = .ok (gk, t) ∧
    Aw11.authgen asciiCase toyEnv gk [['A']] t = .ok (some (pk, msk), t') ∧
    Denotes (chars% "\"A\" and \"B\"") .human p ∧ p.leaves.length = 2 ∧
    Aw11.encrypt asciiCase toyEnv gk [pk] (chars% "\"A\" and \"B\"") .human [7] t' = .ok (ct, t'') ∧
    ct.c.map (·.name) = [chars% "A_2"] := by
  have h : (Aw11.setup toyTape).check (fun x => (Aw11.authgen asciiCase toyEnv x.1 [['A']] x.2).check fun y =>
      match y.1 with
      | none => false
      | some z => (Aw11.encrypt asciiCase toyEnv x.1 [z.1] (chars% "\"A\" and \"B\"") .human [7] y.2).check fun c =>
          decide (c.1.c.map (·.name) = [chars% "A_2"])) = true := by decide +kernel
  obtain ⟨x, h1, h⟩ := Res.check_iff.1 h
  obtain ⟨⟨y, t⟩, h2, h⟩ := Res.check_iff.1 h
  cases y with
  | none => simp at h
  | some z =>
    obtain ⟨c, h3, h⟩ := Res.check_iff.1 h
    exact ⟨x.1, z.1, z.2, x.2, t, c.2, c.1, .gate .and [.leaf ['A'] 2, .leaf ['B'] 10], h1, h2, rfl, rfl, h3,
      of_decide_eq_true h⟩

/-! ## LSW -/

/-- **C71, LSW.** The names of a key are those of the leaves, up to the first underscore. -/
theorem Lsw.C71_keygen (env : Env F G1 G2 Gt) (pk msk) (text : Str) (lang : PolicyLanguage) (p : Pol)
    (hp : Denotes text lang p) (t sk t') (h : Lsw.keygen env pk msk text lang t = .ok (sk, t')) :
    sk.policy = (text, lang) ∧ sk.dj.map (·.name) = p.leaves.map fun l => l.1.takeWhile (· != '_') := by
  simp only [Lsw.keygen, RM.bind_ok, RM.lift_ok_iff, Res.ok.injEq, RM.liftFr, show parse text lang = _ from hp] at h
  obtain ⟨_, _, ⟨rfl, rfl⟩, sh, _, hs, h⟩ := h
  rw [genSharesPolicy_eq] at hs
  cases hs
  simp only [RM.bind_ok, RM.pure_ok] at h
  obtain ⟨dj, _, hd, rfl, _⟩ := h
  refine ⟨rfl, ?_⟩
  have := RM.mapL_names (p := (·.name)) (q := fun x => removeIndex x.1) hd fun x s y s' h => by
    simp only [Lsw.keygenShare, RM.bind_ok] at h
    obtain ⟨_, _, _, _, _, _, h⟩ := h
    split at h <;> (simp only [RM.pure_ok] at h; obtain ⟨rfl, _⟩ := h; rfl)
  have e : ∀ S : List (Str × F), S.map (fun x => removeIndex x.1) = (S.map (·.1)).map removeIndex :=
    fun S => (List.map_map ..).symm
  rw [this, e, shares_names, List.map_map]
  simp [Function.comp_def, takeWhile_label]

/-- **C71, LSW.** -/
theorem Lsw.C71_encrypt (env : Env F G1 G2 Gt) (pk) (attrs : List Str) (m : Bytes) (t ct t')
    (h : Lsw.encrypt env pk attrs m t = .ok (ct, t')) : ct.ej.map (·.name) = attrs := by
  simp only [Lsw.encrypt] at h
  split at h
  · simp at h
  simp only [RM.bind_ok, RM.lift_ok_iff, RM.pure_ok] at h
  obtain ⟨_, _, _, sx, _, _, ej, _, ⟨hej, _⟩, _, _, _, _, _, _, rfl, _⟩ := h
  rw [mapR_names (p := (·.name)) (q := (·.1)) hej fun x y h => by
    simp only [Lsw.encAttr, Res.bind_eq_ok, Res.ok.injEq] at h
    obtain ⟨_, _, rfl⟩ := h
    rfl]
  exact List.zipIdx_map_fst ..

/-! ## YCT14 -/

/-- **C71, YCT14.** -/
theorem Yct14.C71_setup (attrs : List Str) (t : Tape F G1 G2 Gt) (pk msk t')
    (h : Yct14.setup attrs t = .ok ((pk, msk), t')) :
    pk.attributes.map (·.name) = attrs ∧ msk.attributes.map (·.name) = attrs := by
  simp only [Yct14.setup, RM.bind_ok, RM.pure_ok, Prod.mk.injEq] at h
  obtain ⟨_, _, _, _, _, _, l, _, hl, ⟨rfl, rfl⟩, _⟩ := h
  constructor
  · rw [List.map_map, RM.mapL_names (q := id) hl fun x s y s' h => by
      simp only [Yct14.Attribute.new, RM.bind_ok, RM.pure_ok] at h
      obtain ⟨_, _, _, rfl, _⟩ := h
      rfl]
    simp
  · rw [List.map_map, RM.mapL_names (q := id) hl fun x s y s' h => by
      simp only [Yct14.Attribute.new, RM.bind_ok, RM.pure_ok] at h
      obtain ⟨_, _, _, rfl, _⟩ := h
      rfl]
    simp

/-- **C71, YCT14.** -/
theorem Yct14.C71_encrypt (env : Env F G1 G2 Gt) (pk) (attrs : List Str) (m : Bytes) (t ct t')
    (h : Yct14.encrypt env pk attrs m t = .ok (ct, t')) : ct.attributes.map (·.name) = attrs := by
  simp only [Yct14.encrypt] at h
  split at h
  · simp at h
  split at h
  · simp at h
  simp only [RM.bind_ok, RM.lift_ok_iff, RM.pure_ok] at h
  obtain ⟨_, _, _, l, _, ⟨hl, _⟩, _, _, _, rfl, _⟩ := h
  rw [mapR_names (p := (·.name)) (q := id) hl fun x y h => by
    simp only [Yct14.publicFrom, Res.bind_eq_ok] at h
    obtain ⟨_, _, h⟩ := h
    split at h
    · cases h; rfl
    · cases h
    · cases h]
  simp

/-- **C71, YCT14.** Partial: a key lists the leaves of the policy whose name (up to the first underscore) is an attribute
of the master key; the other leaves are dropped (`C71_violated_keygen`). -/
theorem Yct14.C71_keygen_partial (msk : Yct14.MasterKey F Gt) (text : Str) (lang : PolicyLanguage) (p : Pol)
    (hp : Denotes text lang p) (t : Tape F G1 G2 Gt) (sk t') (h : Yct14.keygen msk text lang t = .ok (sk, t')) :
    sk.policy = (text, lang) ∧ sk.du.map (·.name) =
      (p.leaves.map fun l => l.1.takeWhile (· != '_')).filter fun n =>
        match msk.getPrivate n with | .ok _ => true | _ => false := by
  simp only [Yct14.keygen, RM.bind_ok, RM.lift_ok_iff, Res.ok.injEq, RM.liftFr, show parse text lang = _ from hp] at h
  obtain ⟨_, _, ⟨rfl, rfl⟩, sh, _, hs, h⟩ := h
  rw [genSharesPolicy_eq] at hs
  cases hs
  simp only [RM.bind_ok, RM.pure_ok, RM.lift_ok_iff] at h
  obtain ⟨du, _, ⟨hd, _⟩, rfl, _⟩ := h
  refine ⟨rfl, ?_⟩
  have h1 := mapR_names (p := fun y : Option (Yct14.Attribute F Gt) => y.map (·.name)) (q := fun x : Str × F =>
    if (match msk.getPrivate (removeIndex x.1) with | .ok _ => true | _ => false) then some (removeIndex x.1)
    else none) hd fun x y h => by
      simp only [Yct14.keygenShare, Yct14.privateFrom] at h
      cases hg : msk.getPrivate (removeIndex x.1) with
      | ok s =>
        rw [hg] at h
        by_cases h0 : s = 0
        · simp [h0, inv] at h
        · simp [h0, inv] at h; simp [← h]
      | err => rw [hg] at h; cases h; simp
      | panic => rw [hg] at h; cases h
  have h2 : (du.filterMap id).map (·.name) = (du.map fun y => y.map (·.name)).filterMap id := by
    rw [List.filterMap_map, List.map_filterMap]
    rfl
  rw [h2, h1, List.filterMap_map]
  have h3 : ∀ S : List (Str × F), List.filterMap (id ∘ fun x : Str × F =>
      if (match msk.getPrivate (removeIndex x.1) with | .ok _ => true | _ => false) then some (removeIndex x.1)
      else none) S = ((S.map (·.1)).map removeIndex).filter fun n =>
        match msk.getPrivate n with | .ok _ => true | _ => false := by
    intro S
    induction S with
    | nil => rfl
    | cons x S ih =>
      simp only [List.filterMap_cons, List.map_cons, List.filter_cons, Function.comp_apply, id]
      rw [← ih]
      simp only [Function.comp_def, id]
      by_cases hk : (match msk.getPrivate (removeIndex x.1) with | .ok _ => true | _ => false) = true
      · simp only [hk, if_true]
      · simp only [hk]; rfl
  rw [h3, shares_names, List.map_map]
  simp only [Function.comp_def, takeWhile_label]

/-- **C71 fails for YCT14.** A key for `"A" and "B"` made with a master key that knows `A` only is issued without component
for `B`. -/
theorem Yct14.C71_violated_keygen : ∃ (pk : Yct14.PublicKey Fr Fr) (msk : Yct14.MasterKey Fr Fr)
    (t t' : Tape Fr Fr Fr Fr)
    (sk : Yct14.SecretKey Fr Fr) (p : Pol), Yct14.setup [['A']] toyTape = .ok ((pk, msk), t) ∧
    Denotes (chars% "\"A\" and \"B\"") .human p ∧ p.leaves.length = 2 ∧
    Yct14.keygen msk (chars% "\"A\" and \"B\"") .human t = .ok (sk, t') ∧ sk.du.map (·.name) = [['A']] := by
  refine ⟨_, _, _, _, _, .gate .and [.leaf ['A'] 2, .leaf ['B'] 10], rfl, rfl, rfl, rfl, rfl⟩

/-! ## AC17 -/

/-- **C71, AC17 CP-ABE.** -/
theorem Ac17.C71_cp_keygen (env : Env F G1 G2 Gt) (msk) (attrs : List Str) (t sk t')
    (h : Ac17.cpKeygen env msk attrs t = .ok (sk, t')) : sk.attr = attrs ∧ sk.sk.k.map (·.1) = attrs := by
  simp only [Ac17.cpKeygen] at h
  split at h
  · simp at h
  simp only [RM.bind_ok, RM.lift_ok_iff, RM.pure_ok] at h
  obtain ⟨_, _, _, _, _, _, _, _, _, L, _, hL, _, _, _, _, _, _, _, _, _, rfl, _⟩ := h
  refine ⟨rfl, ?_⟩
  have := RM.mapL_names (p := (·.1)) (q := id) hL fun x s y s' h => by
    simp only [Ac17.cpKeygenAttr, RM.bind_ok, RM.pure_ok] at h
    obtain ⟨_, _, _, _, _, _, rfl, _⟩ := h
    rfl
  simpa using this

/-- **C71, AC17 KP-ABE.** The names of a key are those of the leaves, sorted. -/
theorem Ac17.C71_kp_keygen (env : Env F G1 G2 Gt) (msk) (text : Str) (lang : PolicyLanguage) (p : Pol)
    (hp : Denotes text lang p) (hb : p.Binary) (t sk t') (h : Ac17.kpKeygen env msk text lang t = .ok (sk, t')) :
    sk.policy = (text, lang) ∧ (sk.sk.k.map (·.1)).Perm (p.leaves.map (·.1)) ∧
      (sk.sk.k.map (·.1)).Pairwise (fun a b => strLe a b = true) := by
  obtain ⟨msp, R, hm, -, -, -, -, hpi, -, hlen, hsort⟩ := calculateMsp_eq p hb
  simp only [Ac17.kpKeygen, RM.bind_ok, RM.lift_ok_iff, RM.pure_ok, show parse text lang = _ from hp] at h
  obtain ⟨_, _, ⟨e, rfl⟩, msp', _, ⟨hm', rfl⟩, _, _, _, _, _, _, _, _, _, _, _, _, _, _, _, L, _, hL, rfl, _⟩ := h
  cases Res.ok.inj e
  rw [hm] at hm'
  cases Res.ok.inj hm'
  have := RM.mapL_names (p := (·.1)) (q := (·.1)) hL fun x s y s' h => by
    simp only [Ac17.kpKeygenRow, RM.bind_ok, RM.pure_ok] at h
    obtain ⟨_, _, _, _, _, _, _, _, _, rfl, _⟩ := h
    rfl
  rw [List.map_fst_zip (by omega)] at this
  rw [this]
  exact ⟨rfl, by simpa [Pol.names] using hpi, hsort⟩

/-- **C71, AC17 CP-ABE.** The names of a ciphertext are those of the leaves, sorted. -/
theorem Ac17.C71_cp_encrypt (env : Env F G1 G2 Gt) (pk) (text : Str) (lang : PolicyLanguage) (p : Pol)
    (hp : Denotes text lang p) (hb : p.Binary) (m : Bytes) (t ct t')
    (h : Ac17.cpEncrypt env pk text m lang t = .ok (ct, t')) :
    ct.policy = (text, lang) ∧ (ct.ct.c.map (·.1)).Perm (p.leaves.map (·.1)) ∧
      (ct.ct.c.map (·.1)).Pairwise (fun a b => strLe a b = true) := by
  obtain ⟨msp, R, hm, -, -, -, -, hpi, -, hlen, hsort⟩ := calculateMsp_eq p hb
  simp only [Ac17.cpEncrypt, RM.bind_ok, RM.lift_ok_iff, RM.pure_ok, show parse text lang = _ from hp] at h
  obtain ⟨_, _, ⟨e, rfl⟩, msp', _, ⟨hm', rfl⟩, _, _, _, _, _, _, _, _, _, _, _, _, _, _, _, _, _, _, _, _, _, rfl, _⟩ := h
  cases Res.ok.inj e
  rw [hm] at hm'
  cases Res.ok.inj hm'
  simp only [List.map_map, Function.comp_def, Ac17.cpEncRow]
  rw [List.map_fst_zip (by omega)]
  exact ⟨trivial, by simpa [Pol.names] using hpi, hsort⟩

/-- **C71, AC17 KP-ABE.** -/
theorem Ac17.C71_kp_encrypt (env : Env F G1 G2 Gt) (pk) (attrs : List Str) (m : Bytes) (t ct t')
    (h : Ac17.kpEncrypt env pk attrs m t = .ok (ct, t')) : ct.attr = attrs ∧ ct.ct.c.map (·.1) = attrs := by
  simp only [Ac17.kpEncrypt, RM.bind_ok, RM.lift_ok_iff, RM.pure_ok] at h
  obtain ⟨_, _, _, _, _, _, _, _, _, _, _, _, _, _, _, _, _, _, rfl, _⟩ := h
  exact ⟨rfl, by simp [Function.comp_def, Ac17.kpEncAttr]⟩

/-! ## BDABE and MKE08 -/

/-- **C71, BDABE.** -/
theorem Bdabe.C71_keygen (pk : Bdabe.PublicKey G1 G2 Gt) (skA : Bdabe.SecretAuthorityKey F G1 G2) (name : Str) (t uk t')
    (h : Bdabe.keygen pk skA name t = .ok (uk, t')) : uk.pk.u = name ∧ uk.skA = [] := by
  simp only [Bdabe.keygen, RM.bind_ok, RM.pure_ok] at h
  obtain ⟨_, _, _, rfl, _⟩ := h
  exact ⟨rfl, rfl⟩

/-- **C71, BDABE.** The ciphertext has a tuple for each term of the disjunctive form, with the attributes of the term. -/
theorem Bdabe.C71_encrypt (env : Env F G1 G2 Gt) (pk) (keys : List (Bdabe.PublicAttributeKey G1 G2 Gt)) (text : Str)
    (lang : PolicyLanguage) (m : Bytes) (t ct t') (h : Bdabe.encrypt env pk keys text lang m t = .ok (ct, t')) :
    ct.policy = (text, lang) ∧ ∃ terms, DnfPolicy.fromString text (keys.map Bdabe.PublicAttributeKey.view) lang = .ok terms ∧
      ct.j.map (·.attr) = terms.map (·.attrs) := by
  simp only [Bdabe.encrypt, RM.bind_ok, RM.lift_ok_iff] at h
  obtain ⟨_, _, _, h⟩ := h
  split at h
  · simp only [RM.bind_ok, RM.pure_ok, RM.lift_ok_iff] at h
    obtain ⟨d, _, ⟨hd, _⟩, _, _, _, _, _, _, j, _, hj, _, _, _, rfl, _⟩ := h
    refine ⟨rfl, d, ?_, RM.mapL_names hj fun x s y s' h => ?_⟩
    · revert hd
      cases DnfPolicy.fromString text (keys.map Bdabe.PublicAttributeKey.view) lang <;> simp [Res.unwrap]
    · simp only [Bdabe.encTerm, RM.bind_ok, RM.pure_ok] at h
      obtain ⟨_, _, _, rfl, _⟩ := h
      rfl
  · simp at h

/-- **C71, MKE08.** -/
theorem Mke08.C71_keygen (pk : Mke08.PublicKey G1 G2 Gt) (msk : Mke08.MasterKey G1 G2) (name : Str)
    (t : Tape F G1 G2 Gt) (uk t') (h : Mke08.keygen pk msk name t = .ok (uk, t')) : uk.pk.name = name ∧ uk.skA = [] := by
  simp only [Mke08.keygen, RM.bind_ok, RM.pure_ok] at h
  obtain ⟨_, _, _, rfl, _⟩ := h
  exact ⟨rfl, rfl⟩

/-- **C71, MKE08.** -/
theorem Mke08.C71_encrypt (env : Env F G1 G2 Gt) (pk) (keys : List (Mke08.PublicAttributeKey G1 G2 Gt)) (text : Str)
    (lang : PolicyLanguage) (m : Bytes) (t ct t') (h : Mke08.encrypt env pk keys text lang m t = .ok (ct, t')) :
    ct.policy = (text, lang) ∧ ∃ terms, DnfPolicy.fromString text (keys.map Mke08.PublicAttributeKey.view) lang = .ok terms ∧
      ct.e.map (·.str) = terms.map (·.attrs) := by
  simp only [Mke08.encrypt, RM.bind_ok, RM.lift_ok_iff] at h
  obtain ⟨_, _, _, h⟩ := h
  split at h
  · simp only [RM.bind_ok, RM.pure_ok, RM.lift_ok_iff] at h
    obtain ⟨d, _, ⟨hd, _⟩, _, _, _, _, _, _, _, _, _, j, _, hj, _, _, _, rfl, _⟩ := h
    refine ⟨rfl, d, ?_, RM.mapL_names hj fun x s y s' h => ?_⟩
    · revert hd
      cases DnfPolicy.fromString text (keys.map Mke08.PublicAttributeKey.view) lang <;> simp [Res.unwrap]
    · simp only [Mke08.encTerm, RM.bind_ok, RM.pure_ok] at h
      obtain ⟨_, _, _, rfl, _⟩ := h
      rfl
  · simp at h

/-! ## Cases

Runs that meet the hypotheses of the theorems above, with the listed names. -/

/-- The policy text of the cases. -/
def contentsText : Str := chars% "(\"B\" and \"A\") or \"C_1\""

example : Denotes contentsText .human (.gate .or [.gate .and [.leaf ['B'] 3, .leaf ['A'] 11], .leaf (chars% "C_1") 19]) ∧
    (Pol.gate .or [.gate .and [.leaf ['B'] 3, .leaf ['A'] 11], .leaf (chars% "C_1") 19]).Binary :=
  ⟨show parse _ _ = _ from rfl, by simp [Pol.Binary]⟩

example : (Bsw.setup toyEnv toyTape).check (fun ((pk, msk), t) =>
    (Bsw.keygen toyEnv pk msk [['B'], ['A'], ['B']] t).check (fun (sk, t) => match sk with
      | none => false
      | some sk => decide (sk.dJ.map (·.string) = [['B'], ['A'], ['B']]) &&
        (Bsw.delegate toyEnv pk sk [['A']] t).check (fun (sk', _) => decide (sk'.map (·.dJ.map (·.string)) = some [['A']])) &&
        (Bsw.delegate toyEnv pk sk [['C']] t).check (fun (sk', _) => decide (sk'.map (·.dJ.map (·.string)) = none))) &&
    (Bsw.encrypt toyEnv pk contentsText .human [1] t).check fun (ct, _) =>
      decide (ct.cY.map (·.string) = [chars% "B_3", chars% "A_11", chars% "C_1_19"])) = true := by decide +kernel

example : (Ghw11.setup toyEnv toyTape).check (fun ((pk, msk), t) =>
    (Ghw11.keygen toyEnv pk msk [['B'], ['A']] t).check (fun (sk, t) => match sk with
      | none => false
      | some sk => decide (sk.attrKey.map (·.string) = [['B'], ['A']]) &&
        (Ghw11.tkgen sk t).check (fun (r, _) => decide (r.map (·.1.attrKeyZ.map (·.string)) = some [['B'], ['A']]))) &&
    (Ghw11.encrypt toyEnv pk contentsText .human [1] t).check fun (ct, _) =>
      decide (ct.ciDi.map (·.1) = [chars% "B_3", chars% "A_11", chars% "C_1_19"])) = true := by decide +kernel

example : (Aw11.setup toyTape).check (fun (gk, t) =>
    (Aw11.authgen asciiCase toyEnv gk [['b'], ['A'], ['c']] t).check fun (r, t) => match r with
      | none => false
      | some (pk, msk) => decide (pk.attr.map (·.name) = [['B'], ['A'], ['C']]) &&
        (Aw11.keygen asciiCase toyEnv gk msk (chars% "bob") [['B'], ['A']]).check (fun sk =>
          decide (sk.attr.map (·.1) = [['B'], ['A']])) &&
        (Aw11.encrypt asciiCase toyEnv gk [pk] contentsText .human [1] t).check fun (ct, _) =>
          decide (ct.c.map (·.name) = [chars% "B_3", chars% "A_11", chars% "C_1_19"])) = true := by decide +kernel

example : (Lsw.setup toyEnv toyTape).check (fun ((pk, msk), t) =>
    (Lsw.keygen toyEnv pk msk contentsText .human t).check (fun (sk, _) =>
      decide (sk.dj.map (·.name) = [['B'], ['A'], ['C']])) &&
    (Lsw.encrypt toyEnv pk [['B'], ['A']] [1] t).check fun (ct, _) => decide (ct.ej.map (·.name) = [['B'], ['A']])) =
      true := by decide +kernel

example : (Yct14.setup [['A'], ['B'], ['C']] toyTape).check (fun ((pk, msk), t) =>
    (Yct14.keygen msk contentsText .human t).check (fun (sk, _) =>
      decide (sk.du.map (·.name) = [['B'], ['A'], ['C']])) &&
    (Yct14.encrypt toyEnv pk [['B'], ['A']] [1] t).check fun (ct, _) =>
      decide (ct.attributes.map (·.name) = [['B'], ['A']])) = true := by decide +kernel

example : (Ac17.setup toyEnv toyTape).check (fun ((pk, msk), t) =>
    (Ac17.cpKeygen toyEnv msk [['B'], ['A']] t).check (fun (sk, _) => decide (sk.sk.k.map (·.1) = [['B'], ['A']])) &&
    (Ac17.kpKeygen toyEnv msk contentsText .human t).check (fun (sk, _) =>
      decide (sk.sk.k.map (·.1) = [['A'], ['B'], chars% "C_1"])) &&
    (Ac17.cpEncrypt toyEnv pk contentsText [1] .human t).check (fun (ct, _) =>
      decide (ct.ct.c.map (·.1) = [['A'], ['B'], chars% "C_1"])) &&
    (Ac17.kpEncrypt toyEnv pk [['B'], ['A']] [1] t).check fun (ct, _) => decide (ct.ct.c.map (·.1) = [['B'], ['A']])) =
      true := by decide +kernel

example : (Bdabe.setup toyEnv toyTape).check (fun ((pk, msk), t) => (Bdabe.authgen pk msk ['A'] t).check fun (skA, t) =>
    (Bdabe.keygen pk skA ['U'] t).check (fun (uk, _) => decide (uk.pk.u = ['U'] ∧ uk.skA.map (·.attr) = [])) &&
    (Bdabe.requestAttributePk toyEnv pk skA (chars% "A::a")).check (fun k1 =>
      (Bdabe.requestAttributePk toyEnv pk skA (chars% "A::b")).check fun k2 =>
        (Bdabe.encrypt toyEnv pk [k1, k2] (chars% "\"A::a\" or \"A::b\"") .human [1] t).check fun (ct, _) =>
          decide (ct.j.map (·.attr) = [[chars% "A::a"], [chars% "A::b"]]))) = true := by decide +kernel

example : (Mke08.setup toyEnv toyTape).check (fun ((pk, msk), t) => (Mke08.authgen ['A'] t).check fun (skA, t) =>
    (Mke08.keygen pk msk ['U'] t).check (fun (uk, _) => decide (uk.pk.name = ['U'] ∧ uk.skA.map (·.attr) = [])) &&
    (Mke08.requestAuthorityPk toyEnv pk (chars% "A::a") skA).check (fun k1 =>
      (Mke08.requestAuthorityPk toyEnv pk (chars% "A::b") skA).check fun k2 =>
        (Mke08.encrypt toyEnv pk [k1, k2] (chars% "\"A::a\" or \"A::b\"") .human [1] t).check fun (ct, _) =>
          decide (ct.e.map (·.str) = [[chars% "A::a"], [chars% "A::b"]]))) = true := by decide +kernel

end Rabe
