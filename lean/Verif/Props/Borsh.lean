import Verif.Proof.Borsh
import Verif.Proof.Yct14
import Verif.Proof.Parser
import Verif.Instance.Console

/-!
# C57, C60: binary serialisation
-/

namespace Rabe

open Borsh

variable {F G1 G2 Gt : Type} [Borsh F] [Borsh G1] [Borsh G2] [Borsh Gt]

/-- The value serialises, and what it serialises to is read back as the same value. -/
def RoundTrips {α : Type} [Borsh α] (x : α) : Prop := ∀ bs, ser x = some bs → tryFromSlice α bs = some x

section
variable [BorshLaw F] [BorshLaw G1] [BorshLaw G2] [BorshLaw Gt]

/-- **C57, partial: BSW.** -/
theorem C57_bsw_roundtrip_partial :
    (∀ x : Bsw.PublicKey G1 G2 Gt, RoundTrips x) ∧ (∀ x : Bsw.MasterKey F G2, RoundTrips x) ∧
    (∀ x : Bsw.SecretKey G1 G2, RoundTrips x) ∧ (∀ x : Bsw.Attribute G1 G2, RoundTrips x) ∧
    (∀ x : Bsw.Ciphertext G1 G2 Gt, RoundTrips x) :=
  ⟨fun _ _ => tryFromSlice_ser, fun _ _ => tryFromSlice_ser, fun _ _ => tryFromSlice_ser, fun _ _ => tryFromSlice_ser,
    fun _ _ => tryFromSlice_ser⟩

/-- **C57, partial: AC17.** -/
theorem C57_ac17_roundtrip_partial :
    (∀ x : Ac17.PublicKey G1 G2 Gt, RoundTrips x) ∧ (∀ x : Ac17.MasterKey F G1 G2, RoundTrips x) ∧
    (∀ x : Ac17.CpSecretKey G1 G2, RoundTrips x) ∧ (∀ x : Ac17.KpSecretKey G1 G2, RoundTrips x) ∧
    (∀ x : Ac17.CpCiphertext G1 G2 Gt, RoundTrips x) ∧ (∀ x : Ac17.KpCiphertext G1 G2 Gt, RoundTrips x) :=
  ⟨fun _ _ => tryFromSlice_ser, fun _ _ => tryFromSlice_ser, fun _ _ => tryFromSlice_ser, fun _ _ => tryFromSlice_ser,
    fun _ _ => tryFromSlice_ser, fun _ _ => tryFromSlice_ser⟩

/-- **C57, partial: LSW.** -/
theorem C57_lsw_roundtrip_partial :
    (∀ x : Lsw.PublicKey G1 G2 Gt, RoundTrips x) ∧ (∀ x : Lsw.MasterKey F G1 G2, RoundTrips x) ∧
    (∀ x : Lsw.SecretKey G1 G2, RoundTrips x) ∧ (∀ x : Lsw.Ciphertext G1 G2 Gt, RoundTrips x) :=
  ⟨fun _ _ => tryFromSlice_ser, fun _ _ => tryFromSlice_ser, fun _ _ => tryFromSlice_ser, fun _ _ => tryFromSlice_ser⟩

/-- **C57, partial: AW11.** -/
theorem C57_aw11_roundtrip_partial :
    (∀ x : Aw11.GlobalKey G1 G2, RoundTrips x) ∧ (∀ x : Aw11.PublicKey G2 Gt, RoundTrips x) ∧
    (∀ x : Aw11.MasterKey F, RoundTrips x) ∧ (∀ x : Aw11.SecretKey G1, RoundTrips x) ∧
    (∀ x : Aw11.Ciphertext G2 Gt, RoundTrips x) :=
  ⟨fun _ _ => tryFromSlice_ser, fun _ _ => tryFromSlice_ser, fun _ _ => tryFromSlice_ser, fun _ _ => tryFromSlice_ser,
    fun _ _ => tryFromSlice_ser⟩

/-- **C57, partial: BDABE.** -/
theorem C57_bdabe_roundtrip_partial :
    (∀ x : Bdabe.PublicKey G1 G2 Gt, RoundTrips x) ∧ (∀ x : Bdabe.MasterKey F, RoundTrips x) ∧
    (∀ x : Bdabe.SecretAuthorityKey F G1 G2, RoundTrips x) ∧ (∀ x : Bdabe.UserKey G1 G2, RoundTrips x) ∧
    (∀ x : Bdabe.PublicAttributeKey G1 G2 Gt, RoundTrips x) ∧ (∀ x : Bdabe.SecretAttributeKey G1 G2, RoundTrips x) ∧
    (∀ x : Bdabe.Ciphertext G1 G2 Gt, RoundTrips x) :=
  ⟨fun _ _ => tryFromSlice_ser, fun _ _ => tryFromSlice_ser, fun _ _ => tryFromSlice_ser, fun _ _ => tryFromSlice_ser,
    fun _ _ => tryFromSlice_ser, fun _ _ => tryFromSlice_ser, fun _ _ => tryFromSlice_ser⟩

/-- **C57, partial: MKE08.** -/
theorem C57_mke08_roundtrip_partial :
    (∀ x : Mke08.PublicKey G1 G2 Gt, RoundTrips x) ∧ (∀ x : Mke08.MasterKey G1 G2, RoundTrips x) ∧
    (∀ x : Mke08.SecretAuthorityKey F, RoundTrips x) ∧ (∀ x : Mke08.UserKey G1 G2, RoundTrips x) ∧
    (∀ x : Mke08.PublicAttributeKey G1 G2 Gt, RoundTrips x) ∧ (∀ x : Mke08.SecretAttributeKey G1 G2, RoundTrips x) ∧
    (∀ x : Mke08.Ciphertext G1 G2 Gt, RoundTrips x) :=
  ⟨fun _ _ => tryFromSlice_ser, fun _ _ => tryFromSlice_ser, fun _ _ => tryFromSlice_ser, fun _ _ => tryFromSlice_ser,
    fun _ _ => tryFromSlice_ser, fun _ _ => tryFromSlice_ser, fun _ _ => tryFromSlice_ser⟩

end

/-- A BSW key that serialises (the hypotheses of the theorems above are met): the bytes are there and are read back. -/
example : let x : Bsw.SecretKey Fr Fr := ⟨3, [⟨['A'], 1, 2⟩, ⟨['é'], 4, 5⟩]⟩
    (ser x).map List.length = some 175 ∧ (ser x).bind (tryFromSlice (Bsw.SecretKey Fr Fr)) = some x := by
  refine ⟨by decide +kernel, ?_⟩
  have hs : (ser (⟨3, [⟨['A'], 1, 2⟩, ⟨['é'], 4, 5⟩]⟩ : Bsw.SecretKey Fr Fr)).isSome = true := by decide +kernel
  obtain ⟨bs, hb⟩ := Option.isSome_iff_exists.1 hs
  show (ser _).bind _ = _
  rw [hb]
  exact C57_bsw_roundtrip_partial (F := Fr) (Gt := Fr) |>.2.2.1 _ _ hb

/-! ## YCT14 -/

/-- The same value without its nodes. -/
def Yct14.Attribute.strip (a : Yct14.Attribute F Gt) : Yct14.Attribute F Gt := { a with node := none }

section
omit [Borsh F] [Borsh Gt]

theorem yct14_attribute_de (a : Yct14.Attribute F Gt) (bs : Bytes) (h : ser a = some bs) (r : Bytes) :
    de (bs ++ r) = some (a.strip, r) := by
  have h1 : ser a.name = some bs := h
  have := BorshLaw.de_ser a.name bs h1 r
  show (de (α := List Char) (bs ++ r)).map _ = _
  rw [this]
  rfl

theorem yct14_attributes_deAll : ∀ (xs : List (Yct14.Attribute F Gt)) (bs : Bytes), serAll xs = some bs → ∀ r,
    deAll xs.length (bs ++ r) = some (xs.map Yct14.Attribute.strip, r)
  | [], bs, h, r => by cases h; rfl
  | x :: xs, bs, h, r => by
    simp only [serAll, Option.bind_eq_some_iff, Option.map_eq_some_iff] at h
    obtain ⟨b, hb, bs', hbs, rfl⟩ := h
    simp [deAll, List.append_assoc, yct14_attribute_de x b hb, yct14_attributes_deAll xs bs' hbs r]

theorem yct14_attributes_de (xs : List (Yct14.Attribute F Gt)) (bs : Bytes) (h : ser xs = some bs) (r : Bytes) :
    de (bs ++ r) = some (xs.map Yct14.Attribute.strip, r) := by
  simp only [ser, Option.bind_eq_some_iff, Option.map_eq_some_iff] at h
  obtain ⟨l, hl, b, hb, rfl⟩ := h
  obtain ⟨hn, rfl⟩ := serLen_some hl
  simp [de, List.append_assoc, deLen_le32 hn, yct14_attributes_deAll xs b hb r]

/-- **C57 is violated by YCT14.** An attribute with a node does not survive serialisation: no attribute that carries a
value is ever read back. -/
theorem C57_violated (a : Yct14.Attribute F Gt) (h : a.node ≠ none) (bs : Bytes) (hs : ser a = some bs) :
    tryFromSlice (Yct14.Attribute F Gt) bs = some a.strip ∧ tryFromSlice (Yct14.Attribute F Gt) bs ≠ some a := by
  have h1 := yct14_attribute_de a bs hs []
  rw [List.append_nil] at h1
  have h2 : tryFromSlice (Yct14.Attribute F Gt) bs = some a.strip := by simp [tryFromSlice, h1]
  refine ⟨h2, ?_⟩
  rw [h2]
  intro e
  exact h ((congrArg Yct14.Attribute.node (Option.some.inj e)).symm)

end

/-- The attribute `A` with a public value serialises, so `C57_violated` speaks about something. -/
example : ser (⟨['A'], some (.pub 5)⟩ : Yct14.Attribute Fr Fr) = some [1, 0, 0, 0, 65] := by decide +kernel

/-- The serialisation of `x` is read back as `y`, whatever follows. -/
def DeTo {α : Type} [Borsh α] (x y : α) : Prop := ∀ bs, ser x = some bs → ∀ r, de (bs ++ r) = some (y, r)

theorem deTo_pair {α β : Type} [Borsh α] [Borsh β] {x x' : α} {y y' : β} (hx : DeTo x x') (hy : DeTo y y') :
    DeTo (x, y) (x', y') := by
  intro bs h r
  simp only [ser, Option.bind_eq_some_iff, Option.map_eq_some_iff] at h
  obtain ⟨b1, h1, b2, h2, rfl⟩ := h
  simp [de, List.append_assoc, hx _ h1, hy _ h2]

theorem deTo_via {α β : Type} [Borsh α] (out : β → α) (back : α → β) {x : β} {y : α} (h : DeTo (out x) y) :
    @DeTo β (Borsh.via out back) x (back y) := by
  intro bs hs r
  show (de (bs ++ r)).map _ = _
  rw [h bs hs r]
  rfl

theorem deTo_try {α : Type} [Borsh α] {x y : α} (h : DeTo x y) {bs : Bytes} (hs : ser x = some bs) :
    tryFromSlice α bs = some y := by
  have := h bs hs []
  rw [List.append_nil] at this
  simp [tryFromSlice, this]

/-- **C57, YCT14.** What reading back gives for every key and ciphertext: everything except the nodes. -/
theorem C57_yct14_loses_nodes [BorshLaw F] [BorshLaw Gt] :
    (∀ (x : Yct14.PublicKey F Gt) bs, ser x = some bs →
      tryFromSlice (Yct14.PublicKey F Gt) bs = some { x with attributes := x.attributes.map Yct14.Attribute.strip }) ∧
    (∀ (x : Yct14.MasterKey F Gt) bs, ser x = some bs →
      tryFromSlice (Yct14.MasterKey F Gt) bs = some { x with attributes := x.attributes.map Yct14.Attribute.strip }) ∧
    (∀ (x : Yct14.SecretKey F Gt) bs, ser x = some bs →
      tryFromSlice (Yct14.SecretKey F Gt) bs = some { x with du := x.du.map Yct14.Attribute.strip }) ∧
    (∀ (x : Yct14.Ciphertext F Gt) bs, ser x = some bs →
      tryFromSlice (Yct14.Ciphertext F Gt) bs =
        some { x with attributes := x.attributes.map Yct14.Attribute.strip }) := by
  refine ⟨?_, ?_, ?_, ?_⟩
  · rintro ⟨g, as⟩ bs h
    exact deTo_try (deTo_via (fun x : Yct14.PublicKey F Gt => (x.g, x.attributes)) (fun p => (⟨p.1, p.2⟩ : Yct14.PublicKey F Gt))
      (deTo_pair (show DeTo g g from BorshLaw.de_ser g) (show DeTo as (as.map Yct14.Attribute.strip) from yct14_attributes_de as))) h
  · rintro ⟨g, as⟩ bs h
    exact deTo_try (deTo_via (fun x : Yct14.MasterKey F Gt => (x.s, x.attributes)) (fun p => (⟨p.1, p.2⟩ : Yct14.MasterKey F Gt))
      (deTo_pair (show DeTo g g from BorshLaw.de_ser g) (show DeTo as (as.map Yct14.Attribute.strip) from yct14_attributes_de as))) h
  · rintro ⟨g, as⟩ bs h
    exact deTo_try (deTo_via (fun x : Yct14.SecretKey F Gt => (x.policy, x.du)) (fun p => (⟨p.1, p.2⟩ : Yct14.SecretKey F Gt))
      (deTo_pair (show DeTo g g from BorshLaw.de_ser g) (show DeTo as (as.map Yct14.Attribute.strip) from yct14_attributes_de as))) h
  · rintro ⟨as, c⟩ bs h
    exact deTo_try (deTo_via (fun x : Yct14.Ciphertext F Gt => (x.attributes, x.ct)) (fun p => (⟨p.1, p.2⟩ : Yct14.Ciphertext F Gt))
      (deTo_pair (show DeTo as (as.map Yct14.Attribute.strip) from yct14_attributes_de as) (show DeTo c c from BorshLaw.de_ser c))) h

/-! ### Consequences: stored YCT14 keys are unusable -/

set_option linter.unusedSectionVars false

omit [Borsh F] [Borsh Gt] in
theorem find_strip {xs : List (Yct14.Attribute F Gt)} {P : Yct14.Attribute F Gt → Bool} {a : Yct14.Attribute F Gt}
    (h : (xs.map Yct14.Attribute.strip).find? P = some a) : a.node = none := by
  have := List.mem_of_find?_eq_some h
  obtain ⟨b, _, rfl⟩ := List.mem_map.1 this
  rfl

theorem mapR_panic {α β : Type} {f : α → Res β} {xs : List α} (hx : xs ≠ []) (h : ∀ x, f x = .panic) :
    Res.mapR f xs = .panic := by
  cases xs with
  | nil => exact absurd rfl hx
  | cons x xs => simp only [Res.mapR, h x]; rfl

/-- A pruning that succeeds selects at least one leaf. -/
theorem calcPruned_true_ne (A : List Str) : ∀ p : Pol, ∀ {l},
    calcPruned A p.toValue none = .ok (true, l) → l ≠ [] := by
  intro p
  induction p using Pol.ind with
  | hl n c =>
    intro l h
    simp only [Pol.toValue_leaf, calcPruned] at h
    split at h
    · cases h; simp
    · cases h
  | hg op cs ih =>
    intro l h
    cases op
    · simp only [Pol.toValue_gate, Op.toType, calcPruned] at h
      split at h
      · rename_i hlen
        have key : ∀ (ds : List Pol), (∀ c ∈ ds, ∀ {l}, calcPruned A c.toValue none = .ok (true, l) → l ≠ []) →
            ∀ m acc, (acc ≠ [] ∨ ds ≠ []) → prunedAnd A (ds.map Pol.toValue) m acc = .ok (true, l) → l ≠ [] := by
          intro ds
          induction ds with
          | nil =>
            intro _ m acc hne h
            cases m
            · simp [prunedAnd] at h
            · simp only [List.map_nil, prunedAnd, if_true, Res.ok.injEq, Prod.mk.injEq, true_and] at h
              subst h
              simpa using hne
          | cons d ds ihd =>
            intro hd m acc hne h
            simp only [List.map_cons, prunedAnd] at h
            cases hc : calcPruned A d.toValue none with
            | err => simp [hc] at h
            | panic => simp [hc] at h
            | ok x =>
              obtain ⟨f, l'⟩ := x
              simp only [hc, Res.unwrap_ok, Res.ok_bind] at h
              have hrec := ihd (fun c hc => hd c (by simp [hc])) (m && f) (if (m && f) = true then acc ++ l' else acc)
              cases m <;> cases f
              case true.true =>
                exact hrec (.inl (by simp [hd d (by simp) hc])) h
              all_goals
                exfalso
                have hm : ∀ (ds : List Pol) acc, prunedAnd A (ds.map Pol.toValue) false acc ≠ .ok (true, l) := by
                  intro ds
                  induction ds with
                  | nil => intro acc h; simp [prunedAnd] at h
                  | cons e es ihe =>
                    intro acc h
                    simp only [List.map_cons, prunedAnd] at h
                    cases hc : calcPruned A e.toValue none with
                    | err => simp [hc] at h
                    | panic => simp [hc] at h
                    | ok x => simp only [hc, Res.unwrap_ok, Res.ok_bind, Bool.false_and] at h; exact ihe _ h
                exact hm _ _ h
        exact key cs ih true [] (.inr (by rintro rfl; simp at hlen)) h
      · cases h
    · simp only [Pol.toValue_gate, Op.toType, calcPruned] at h
      split at h
      · have key : ∀ (ds : List Pol), (∀ c ∈ ds, ∀ {l}, calcPruned A c.toValue none = .ok (true, l) → l ≠ []) →
            ∀ acc, prunedOr A (ds.map Pol.toValue) acc = .ok (true, l) → l ≠ [] := by
          intro ds
          induction ds with
          | nil => intro _ acc h; simp [prunedOr] at h
          | cons d ds ihd =>
            intro hd acc h
            simp only [List.map_cons, prunedOr] at h
            cases hc : calcPruned A d.toValue none with
            | err => simp [hc] at h
            | panic => simp [hc] at h
            | ok x =>
              obtain ⟨f, l'⟩ := x
              simp only [hc, Res.unwrap_ok, Res.ok_bind] at h
              cases f with
              | true =>
                simp only [if_true, Res.ok.injEq, Prod.mk.injEq, true_and] at h
                subst h
                simp [hd d (by simp) hc]
              | false =>
                simp only [Bool.false_eq_true, if_false] at h
                exact ihd (fun c hc => hd c (by simp [hc])) _ h
        exact key cs ih [] h
      · cases h

section
variable [Field F] [DecidableEq F] [AddCommGroup G1] [Module F G1]
  [AddCommGroup G2] [Module F G2] [AddCommGroup Gt] [Module F Gt]
omit [Borsh F] [Borsh G1] [Borsh G2] [Borsh Gt]

/-- **C57, YCT14.** Encrypting with a public key that was stored and read back panics, for all attributes and all
plaintexts, empty ones (which are refused) excepted. -/
theorem C57_yct14_encrypt_panics (env : Env F G1 G2 Gt) (pk : Yct14.PublicKey F Gt) (attributes : List Str)
    (plaintext : Bytes) (h1 : attributes ≠ []) (h2 : plaintext ≠ []) (t : Tape F G1 G2 Gt) :
    Yct14.encrypt env { pk with attributes := pk.attributes.map Yct14.Attribute.strip } attributes plaintext t
      = .panic := by
  have hp : ∀ k name, Yct14.publicFrom { pk with attributes := pk.attributes.map Yct14.Attribute.strip } k name
      = .panic := by
    intro k name
    unfold Yct14.publicFrom
    cases hf : (pk.attributes.map Yct14.Attribute.strip).find? fun a => a.name == name with
    | none => rfl
    | some a => simp [find_strip hf]
  have e1 : attributes.isEmpty = false := by cases attributes <;> simp_all
  have e2 : plaintext.isEmpty = false := by cases plaintext <;> simp_all
  simp only [Yct14.encrypt, e1, e2, Bool.false_eq_true, if_false]
  show RM.bind RM.genFr _ t = _
  simp only [RM.bind, RM.genFr]
  show RM.bind (RM.lift (Res.mapR _ attributes)) _ _ = _
  simp only [RM.bind, RM.lift, mapR_panic h1 (hp _), Res.panic_bind]

/-- **C57, YCT14.** Generating a key with a master key that was stored and read back produces a key without any
component, whatever the policy, if it produces one. -/
theorem C57_yct14_keygen_empty (msk : Yct14.MasterKey F Gt) (policy : Str) (lang : PolicyLanguage)
    (t t' : Tape F G1 G2 Gt) (sk : Yct14.SecretKey F Gt)
    (h : Yct14.keygen { msk with attributes := msk.attributes.map Yct14.Attribute.strip } policy lang t = .ok (sk, t')) :
    sk.du = [] := by
  have hk : ∀ x, Yct14.keygenShare { msk with attributes := msk.attributes.map Yct14.Attribute.strip } x = .ok none := by
    intro x
    have hp : Yct14.MasterKey.getPrivate { msk with attributes := msk.attributes.map Yct14.Attribute.strip }
        (removeIndex x.1) = .err := by
      unfold Yct14.MasterKey.getPrivate
      cases hf : (msk.attributes.map Yct14.Attribute.strip).find? fun a =>
          a.name == removeIndex x.1 && a.node.isSome with
      | none => rfl
      | some a => simpa [find_strip hf] using List.find?_some hf
    simp [Yct14.keygenShare, Yct14.privateFrom, hp]
  simp only [Yct14.keygen, RM.bind_ok, RM.lift_ok_iff] at h
  obtain ⟨pv, t1, -, sh, t2, -, h⟩ := h
  cases sh with
  | none => simp [RM.lift] at h
  | some shares =>
    simp only [RM.bind_ok, RM.pure_ok, RM.lift_ok_iff] at h
    obtain ⟨du, t3, ⟨hdu, _⟩, rfl, _⟩ := h
    have hf := mapR_ok hdu
    apply List.eq_nil_iff_forall_not_mem.2
    intro y hy
    obtain ⟨o, ho, hoy⟩ := List.mem_filterMap.1 hy
    simp only [id] at hoy
    subst hoy
    obtain ⟨x, hx, hxy⟩ := Forall₂.mem_right hf _ ho
    rw [hk] at hxy
    cases hxy

/-- A master key with one attribute, its node lost: the key for the policy `A` is produced and is empty. -/
example : ((Yct14.keygen (G1 := Fr) (G2 := Fr) (⟨3, [⟨['A'], none⟩]⟩ : Yct14.MasterKey Fr Fr) (chars% "\"A\"") .human toyTape).bind
    fun r => .ok r.1.du) = .ok [] := by decide +kernel

theorem yct14_decrypt_step (env : Env F G1 G2 Gt) (sk : Yct14.SecretKey F Gt) (ct : Yct14.Ciphertext F Gt)
    (hstep : ∀ coeffs acc cur, Yct14.decryptStep sk ct coeffs acc cur = .panic) (m : Bytes) :
    Yct14.decrypt env sk ct ≠ .ok m := by
  intro h
  simp only [Yct14.decrypt, Res.bind_eq_ok] at h
  obtain ⟨v, hv, pr, hpr, h⟩ := h
  obtain ⟨p, rfl, -⟩ := parse_ok hv
  split at h
  · rename_i hb
    simp only [Res.bind_eq_ok] at h
    obtain ⟨-, -, coeffs, -, prod, hf, -⟩ := h
    obtain ⟨b, l⟩ := pr
    cases hb
    cases l with
    | nil => exact calcPruned_true_ne _ _ hpr rfl
    | cons x xs =>
      simp only [Res.foldR, hstep] at hf
      cases hf
  · cases h

/-- **C57, YCT14.** Decrypting with a key that was stored and read back never succeeds, whatever the ciphertext. -/
theorem C57_yct14_decrypt_sk (env : Env F G1 G2 Gt) (sk : Yct14.SecretKey F Gt) (ct : Yct14.Ciphertext F Gt)
    (m : Bytes) : Yct14.decrypt env { sk with du := sk.du.map Yct14.Attribute.strip } ct ≠ .ok m := by
  apply yct14_decrypt_step
  intro coeffs acc cur
  have hg : Res.unwrap (Yct14.SecretKey.getPrivate { sk with du := sk.du.map Yct14.Attribute.strip } cur.1)
      = .panic := by
    unfold Yct14.SecretKey.getPrivate
    cases hf : (sk.du.map Yct14.Attribute.strip).find? fun a => a.name == cur.1 with
    | none => rfl
    | some a => simp [find_strip hf]
  simp only [Yct14.decryptStep, hg]
  cases ct.getPublic cur.1 <;> rfl

/-- **C57, YCT14.** Decrypting a ciphertext that was stored and read back never succeeds, whatever the key. -/
theorem C57_yct14_decrypt_ct (env : Env F G1 G2 Gt) (sk : Yct14.SecretKey F Gt) (ct : Yct14.Ciphertext F Gt)
    (m : Bytes) :
    Yct14.decrypt env sk { ct with attributes := ct.attributes.map Yct14.Attribute.strip } ≠ .ok m := by
  apply yct14_decrypt_step
  intro coeffs acc cur
  have hg : Res.unwrap (Yct14.Ciphertext.getPublic { ct with attributes := ct.attributes.map Yct14.Attribute.strip } cur.1)
      = .panic := by
    unfold Yct14.Ciphertext.getPublic
    cases hf : (ct.attributes.map Yct14.Attribute.strip).find? fun a => a.name == cur.1 with
    | none => rfl
    | some a => simp [find_strip hf]
  simp only [Yct14.decryptStep, hg]
  rfl

end

/-! ## C60 -/

/-- One encoding per object: a byte string that is read as an object is the serialisation of that object. -/
def Canonical (α : Type) [Borsh α] : Prop := ∀ (bs : Bytes) (x : α), tryFromSlice α bs = some x → ser x = some bs

/-- A serialisation with bytes appended or with bytes cut off is refused. -/
def Delimited (α : Type) [Borsh α] : Prop := ∀ (x : α) (bs : Bytes), ser x = some bs → ∀ extra, extra ≠ [] →
  tryFromSlice α (bs ++ extra) = none ∧ ∀ cut, bs = cut ++ extra → tryFromSlice α cut = none

theorem canonical_of {α : Type} [Borsh α] [BorshExact α] : Canonical α := fun _ _ => ser_of_tryFromSlice

/-- Reading may lose something (`g`), but always stops at the end of the serialisation. -/
theorem delimited_of' {α : Type} [Borsh α] [BorshExact α] (g : α → α)
    (hg : ∀ (x : α) (bs : Bytes), ser x = some bs → ∀ r, Borsh.de (bs ++ r) = some (g x, r)) : Delimited α := by
  intro x bs hs extra he
  refine ⟨?_, ?_⟩
  · unfold tryFromSlice
    rw [hg x bs hs extra]
    cases extra with
    | nil => exact absurd rfl he
    | cons b r => rfl
  · rintro cut rfl
    cases hc : tryFromSlice α cut with
    | none => rfl
    | some y =>
      exfalso
      have h1 := hg y cut (ser_of_tryFromSlice hc) extra
      have h2 := hg x _ hs []
      rw [List.append_nil, h1] at h2
      exact he (Prod.mk.inj (Option.some.inj h2)).2

theorem delimited_of {α : Type} [Borsh α] [BorshLaw α] [BorshExact α] : Delimited α :=
  delimited_of' id BorshLaw.de_ser

section
variable [BorshExact F] [BorshExact G1] [BorshExact G2] [BorshExact Gt]

/-- **C60.** The binary form of every key and ciphertext is unique. -/
theorem C60_canonical :
    (Canonical (Bsw.PublicKey G1 G2 Gt) ∧ Canonical (Bsw.MasterKey F G2) ∧ Canonical (Bsw.SecretKey G1 G2) ∧
      Canonical (Bsw.Ciphertext G1 G2 Gt)) ∧
    (Canonical (Ac17.PublicKey G1 G2 Gt) ∧ Canonical (Ac17.MasterKey F G1 G2) ∧ Canonical (Ac17.CpSecretKey G1 G2) ∧
      Canonical (Ac17.KpSecretKey G1 G2) ∧ Canonical (Ac17.CpCiphertext G1 G2 Gt) ∧
      Canonical (Ac17.KpCiphertext G1 G2 Gt)) ∧
    (Canonical (Lsw.PublicKey G1 G2 Gt) ∧ Canonical (Lsw.MasterKey F G1 G2) ∧ Canonical (Lsw.SecretKey G1 G2) ∧
      Canonical (Lsw.Ciphertext G1 G2 Gt)) ∧
    (Canonical (Aw11.GlobalKey G1 G2) ∧ Canonical (Aw11.PublicKey G2 Gt) ∧ Canonical (Aw11.MasterKey F) ∧
      Canonical (Aw11.SecretKey G1) ∧ Canonical (Aw11.Ciphertext G2 Gt)) ∧
    (Canonical (Bdabe.PublicKey G1 G2 Gt) ∧ Canonical (Bdabe.MasterKey F) ∧
      Canonical (Bdabe.SecretAuthorityKey F G1 G2) ∧ Canonical (Bdabe.UserKey G1 G2) ∧
      Canonical (Bdabe.PublicAttributeKey G1 G2 Gt) ∧ Canonical (Bdabe.SecretAttributeKey G1 G2) ∧
      Canonical (Bdabe.Ciphertext G1 G2 Gt)) ∧
    (Canonical (Mke08.PublicKey G1 G2 Gt) ∧ Canonical (Mke08.MasterKey G1 G2) ∧
      Canonical (Mke08.SecretAuthorityKey F) ∧ Canonical (Mke08.UserKey G1 G2) ∧
      Canonical (Mke08.PublicAttributeKey G1 G2 Gt) ∧ Canonical (Mke08.SecretAttributeKey G1 G2) ∧
      Canonical (Mke08.Ciphertext G1 G2 Gt)) ∧
    (Canonical (Yct14.PublicKey F Gt) ∧ Canonical (Yct14.MasterKey F Gt) ∧ Canonical (Yct14.SecretKey F Gt) ∧
      Canonical (Yct14.Ciphertext F Gt)) := by
  refine ⟨⟨?_, ?_, ?_, ?_⟩, ⟨?_, ?_, ?_, ?_, ?_, ?_⟩, ⟨?_, ?_, ?_, ?_⟩, ⟨?_, ?_, ?_, ?_, ?_⟩,
    ⟨?_, ?_, ?_, ?_, ?_, ?_, ?_⟩, ⟨?_, ?_, ?_, ?_, ?_, ?_, ?_⟩, ⟨?_, ?_, ?_, ?_⟩⟩ <;> exact canonical_of

variable [BorshLaw F] [BorshLaw G1] [BorshLaw G2] [BorshLaw Gt]

/-- **C60.** A key or ciphertext with bytes appended or cut off is refused. -/
theorem C60_delimited :
    (Delimited (Bsw.PublicKey G1 G2 Gt) ∧ Delimited (Bsw.MasterKey F G2) ∧ Delimited (Bsw.SecretKey G1 G2) ∧
      Delimited (Bsw.Ciphertext G1 G2 Gt)) ∧
    (Delimited (Ac17.PublicKey G1 G2 Gt) ∧ Delimited (Ac17.MasterKey F G1 G2) ∧ Delimited (Ac17.CpSecretKey G1 G2) ∧
      Delimited (Ac17.KpSecretKey G1 G2) ∧ Delimited (Ac17.CpCiphertext G1 G2 Gt) ∧
      Delimited (Ac17.KpCiphertext G1 G2 Gt)) ∧
    (Delimited (Lsw.PublicKey G1 G2 Gt) ∧ Delimited (Lsw.MasterKey F G1 G2) ∧ Delimited (Lsw.SecretKey G1 G2) ∧
      Delimited (Lsw.Ciphertext G1 G2 Gt)) ∧
    (Delimited (Aw11.GlobalKey G1 G2) ∧ Delimited (Aw11.PublicKey G2 Gt) ∧ Delimited (Aw11.MasterKey F) ∧
      Delimited (Aw11.SecretKey G1) ∧ Delimited (Aw11.Ciphertext G2 Gt)) ∧
    (Delimited (Bdabe.PublicKey G1 G2 Gt) ∧ Delimited (Bdabe.MasterKey F) ∧
      Delimited (Bdabe.SecretAuthorityKey F G1 G2) ∧ Delimited (Bdabe.UserKey G1 G2) ∧
      Delimited (Bdabe.PublicAttributeKey G1 G2 Gt) ∧ Delimited (Bdabe.SecretAttributeKey G1 G2) ∧
      Delimited (Bdabe.Ciphertext G1 G2 Gt)) ∧
    (Delimited (Mke08.PublicKey G1 G2 Gt) ∧ Delimited (Mke08.MasterKey G1 G2) ∧
      Delimited (Mke08.SecretAuthorityKey F) ∧ Delimited (Mke08.UserKey G1 G2) ∧
      Delimited (Mke08.PublicAttributeKey G1 G2 Gt) ∧ Delimited (Mke08.SecretAttributeKey G1 G2) ∧
      Delimited (Mke08.Ciphertext G1 G2 Gt)) ∧
    (Delimited (Yct14.PublicKey F Gt) ∧ Delimited (Yct14.MasterKey F Gt) ∧ Delimited (Yct14.SecretKey F Gt) ∧
      Delimited (Yct14.Ciphertext F Gt)) := by
  refine ⟨⟨?_, ?_, ?_, ?_⟩, ⟨?_, ?_, ?_, ?_, ?_, ?_⟩, ⟨?_, ?_, ?_, ?_⟩, ⟨?_, ?_, ?_, ?_, ?_⟩,
    ⟨?_, ?_, ?_, ?_, ?_, ?_, ?_⟩, ⟨?_, ?_, ?_, ?_, ?_, ?_, ?_⟩, ⟨?_, ?_, ?_, ?_⟩⟩
  iterate 33 exact delimited_of
  · refine delimited_of' (fun x => { x with attributes := x.attributes.map Yct14.Attribute.strip }) ?_
    rintro ⟨g, as⟩
    exact deTo_via (fun x : Yct14.PublicKey F Gt => (x.g, x.attributes)) (fun p => (⟨p.1, p.2⟩ : Yct14.PublicKey F Gt))
      (deTo_pair (show DeTo g g from BorshLaw.de_ser g) (show DeTo as (as.map Yct14.Attribute.strip) from yct14_attributes_de as))
  · refine delimited_of' (fun x => { x with attributes := x.attributes.map Yct14.Attribute.strip }) ?_
    rintro ⟨g, as⟩
    exact deTo_via (fun x : Yct14.MasterKey F Gt => (x.s, x.attributes)) (fun p => (⟨p.1, p.2⟩ : Yct14.MasterKey F Gt))
      (deTo_pair (show DeTo g g from BorshLaw.de_ser g) (show DeTo as (as.map Yct14.Attribute.strip) from yct14_attributes_de as))
  · refine delimited_of' (fun x => { x with du := x.du.map Yct14.Attribute.strip }) ?_
    rintro ⟨g, as⟩
    exact deTo_via (fun x : Yct14.SecretKey F Gt => (x.policy, x.du)) (fun p => (⟨p.1, p.2⟩ : Yct14.SecretKey F Gt))
      (deTo_pair (show DeTo g g from BorshLaw.de_ser g) (show DeTo as (as.map Yct14.Attribute.strip) from yct14_attributes_de as))
  · refine delimited_of' (fun x => { x with attributes := x.attributes.map Yct14.Attribute.strip }) ?_
    rintro ⟨as, c⟩
    exact deTo_via (fun x : Yct14.Ciphertext F Gt => (x.attributes, x.ct)) (fun p => (⟨p.1, p.2⟩ : Yct14.Ciphertext F Gt))
      (deTo_pair (show DeTo as (as.map Yct14.Attribute.strip) from yct14_attributes_de as) (show DeTo c c from BorshLaw.de_ser c))

end

/-- Bytes that are read as a master key of BDABE, and the same bytes with one more or one less are not. -/
example : tryFromSlice (Bdabe.MasterKey Fr) (5 :: List.replicate 31 0) = some ⟨5⟩ ∧
    tryFromSlice (Bdabe.MasterKey Fr) (5 :: List.replicate 32 0) = none ∧
    tryFromSlice (Bdabe.MasterKey Fr) (5 :: List.replicate 30 0) = none := by
  have h : ser (⟨5⟩ : Bdabe.MasterKey Fr) = some (5 :: List.replicate 31 0) := by decide +kernel
  have hd := (C60_delimited (F := Fr) (G1 := Fr) (G2 := Fr) (Gt := Fr)).2.2.2.2.1.2.1 ⟨5⟩ _ h [0] (by simp)
  exact ⟨tryFromSlice_ser h, hd.1, hd.2 _ rfl⟩

end Rabe
