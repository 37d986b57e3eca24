import Verif.Props.ConsoleFrame

/-!
# C63: what the console stores is what the library returned
-/

namespace Rabe

open Console
open Serde (SerdeLaw Shallow)

set_option linter.unusedSectionVars false

section
variable {F G1 G2 Gt : Type} [Field F] [DecidableEq F] [AddCommGroup G1] [Module F G1]
  [AddCommGroup G2] [Module F G2] [AddCommGroup Gt] [Module F Gt]
  [Borsh F] [Serde F] [Borsh G1] [Serde G1] [Borsh G2] [Serde G2] [Borsh Gt] [Serde Gt]

/-- Reading the file gives this object. -/
def Reads {α : Type} [Borsh α] [Serde α] (con : Con F G1 G2 Gt) (fs : FS) (p : Str) (x : α) : Prop :=
  ∀ t, serDec α con p fs t = (.ok x, fs, t)

/-- What is left of an attribute of YCT14 in a file: without its node if the feature is `borsh`, see
`C57_yct14_loses_nodes`. -/
def kept (con : Con F G1 G2 Gt) (a : Yct14.Attribute F Gt) : Yct14.Attribute F Gt :=
  match con.format with
  | .borsh => { a with node := none }
  | .cbor => a

/-- What `setup` has to do: run the set-up of the scheme and leave both keys in their files. (For YCT14: what is left of
them, see `kept`.) -/
def SetupDone (con : Con F G1 G2 Gt) (given : Given) (fs' : FS) (t t' : Tape F G1 G2 Gt) : Scheme → Prop
  | .ac17cp | .ac17kp => ∃ pk msk, Ac17.setup con.env t = .ok ((pk, msk), t') ∧
      Reads con fs' (argOr given .msk (chars% "msk.key")) msk ∧ Reads con fs' (argOr given .pk (chars% "pk.key")) pk
  | .aw11 => ∃ gp, Aw11.setup (F := F) (Gt := Gt) (G1 := G1) (G2 := G2) t = .ok (gp, t') ∧
      Reads con fs' (argOr given .msk (chars% "msk.key")) gp
  | .bdabe => ∃ pk msk, Bdabe.setup con.env t = .ok ((pk, msk), t') ∧
      Reads con fs' (argOr given .msk (chars% "msk.key")) msk ∧ Reads con fs' (argOr given .pk (chars% "pk.key")) pk
  | .bsw => ∃ pk msk, Bsw.setup con.env t = .ok ((pk, msk), t') ∧
      Reads con fs' (argOr given .msk (chars% "msk.key")) msk ∧ Reads con fs' (argOr given .pk (chars% "pk.key")) pk
  | .lsw => ∃ pk msk, Lsw.setup con.env t = .ok ((pk, msk), t') ∧
      Reads con fs' (argOr given .msk (chars% "msk.key")) msk ∧ Reads con fs' (argOr given .pk (chars% "pk.key")) pk
  | .mke08 => ∃ pk msk, Mke08.setup con.env t = .ok ((pk, msk), t') ∧
      Reads con fs' (argOr given .msk (chars% "msk.key")) msk ∧ Reads con fs' (argOr given .pk (chars% "pk.key")) pk
  | .yct14 => ∃ (pk : Yct14.PublicKey F Gt) (msk : Yct14.MasterKey F Gt), given .attributes ≠ [] ∧
      Yct14.setup (G1 := G1) (G2 := G2) (given .attributes) t = .ok ((pk, msk), t') ∧
      Reads con fs' (argOr given .msk (chars% "msk.key"))
        { msk with attributes := msk.attributes.map (kept con) } ∧
      Reads con fs' (argOr given .pk (chars% "pk.key")) { pk with attributes := pk.attributes.map (kept con) }

/-- What `authgen` has to do: run the authority set-up on the keys in the input files and leave the result in the output
files. The schemes without authorities do not have the command. -/
def AuthgenDone (con : Con F G1 G2 Gt) (given : Given) (fs fs' : FS) (t t' : Tape F G1 G2 Gt) : Scheme → Prop
  | .aw11 => ∃ gk pk msk, Reads con fs (argOr given .gp (chars% "gp.key")) gk ∧
      Aw11.authgen con.cm con.env gk (given .attributes) t = .ok (some (pk, msk), t') ∧
      Reads con fs' (argOr given .msk (chars% "msk.key")) msk ∧ Reads con fs' (argOr given .pk (chars% "pk.key")) pk
  | .bdabe => ∃ (pk : Bdabe.PublicKey G1 G2 Gt) (msk : Bdabe.MasterKey F) (n : Str) (ska : Bdabe.SecretAuthorityKey F G1 G2),
      Reads con fs (argOr given .pk (chars% "pk.key")) pk ∧ Reads con fs (argOr given .msk (chars% "msk.key")) msk ∧
      (given .name).head? = some n ∧ Bdabe.authgen pk msk n t = .ok (ska, t') ∧ Reads con fs' (n ++ chars% ".key") ska
  | .mke08 => ∃ (n : Str) (ska : Mke08.SecretAuthorityKey F), (given .name).head? = some n ∧
      Mke08.authgen (F := F) (G1 := G1) (G2 := G2) (Gt := Gt) n t = .ok (ska, t') ∧ Reads con fs' (n ++ chars% ".key") ska
  | _ => False

/-- What `keygen` has to do. (For YCT14 the nodes are lost. BDABE reads the key of the authority from
`ska.key`, see `C56_violated_bdabe`.) -/
def KeygenDone (con : Con F G1 G2 Gt) (given : Given) (lang : PolicyLanguage) (fs fs' : FS) (t t' : Tape F G1 G2 Gt) :
    Scheme → Prop
  | .ac17cp => ∃ (msk : Ac17.MasterKey F G1 G2) (sk : Ac17.CpSecretKey G1 G2),
      Reads con fs (argOr given .msk (chars% "msk.key")) msk ∧
      Ac17.cpKeygen con.env msk (given .attributes) t = .ok (sk, t') ∧ Reads con fs' (argOr given .sk (chars% "sk.key")) sk
  | .ac17kp => ∃ (msk : Ac17.MasterKey F G1 G2) (sk : Ac17.KpSecretKey G1 G2),
      Reads con fs (argOr given .msk (chars% "msk.key")) msk ∧
      Ac17.kpKeygen con.env msk (argOr given .policy []) lang t = .ok (sk, t') ∧
      Reads con fs' (argOr given .sk (chars% "sk.key")) sk
  | .bsw => ∃ (pk : Bsw.PublicKey G1 G2 Gt) (msk : Bsw.MasterKey F G2) (sk : Bsw.SecretKey G1 G2),
      Reads con fs (argOr given .pk (chars% "pk.key")) pk ∧ Reads con fs (argOr given .msk (chars% "msk.key")) msk ∧
      Bsw.keygen con.env pk msk (given .attributes) t = .ok (some sk, t') ∧
      Reads con fs' (argOr given .sk (chars% "sk.key")) sk
  | .lsw => ∃ (pk : Lsw.PublicKey G1 G2 Gt) (msk : Lsw.MasterKey F G1 G2) (sk : Lsw.SecretKey G1 G2),
      Reads con fs (argOr given .pk (chars% "pk.key")) pk ∧ Reads con fs (argOr given .msk (chars% "msk.key")) msk ∧
      Lsw.keygen con.env pk msk (argOr given .policy []) lang t = .ok (sk, t') ∧
      Reads con fs' (argOr given .sk (chars% "sk.key")) sk
  | .aw11 => ∃ (gk : Aw11.GlobalKey G1 G2) (msk : Aw11.MasterKey F) (n : Str) (sk : Aw11.SecretKey G1),
      Reads con fs (argOr given .gp (chars% "gp.key")) gk ∧ Reads con fs (argOr given .msk (chars% "msk.key")) msk ∧
      (given .name).head? = some n ∧ Aw11.keygen con.cm con.env gk msk n (given .attributes) = .ok sk ∧ t' = t ∧
      Reads con fs' (n ++ chars% ".key") sk
  | .bdabe => ∃ (pk : Bdabe.PublicKey G1 G2 Gt) (ska : Bdabe.SecretAuthorityKey F G1 G2) (n : Str) (sk : Bdabe.UserKey G1 G2),
      Reads con fs (argOr given .pk (chars% "pk.key")) pk ∧ Reads con fs (chars% "ska.key") ska ∧
      (given .name).head? = some n ∧ Bdabe.keygen pk ska n t = .ok (sk, t') ∧ Reads con fs' (n ++ chars% ".key") sk
  | .mke08 => ∃ (pk : Mke08.PublicKey G1 G2 Gt) (msk : Mke08.MasterKey G1 G2) (n : Str) (sk : Mke08.UserKey G1 G2),
      Reads con fs (argOr given .pk (chars% "pk.key")) pk ∧ Reads con fs (argOr given .msk (chars% "msk.key")) msk ∧
      (given .name).head? = some n ∧ n ≠ [] ∧ Mke08.keygen (F := F) pk msk n t = .ok (sk, t') ∧
      Reads con fs' (n ++ chars% ".key") sk
  | .yct14 => ∃ (msk : Yct14.MasterKey F Gt) (sk : Yct14.SecretKey F Gt),
      Reads con fs (argOr given .msk (chars% "msk.key")) msk ∧
      Yct14.keygen (G1 := G1) (G2 := G2) msk (argOr given .policy []) lang t = .ok (sk, t') ∧
      Reads con fs' (argOr given .sk (chars% "sk.key")) { sk with du := sk.du.map (kept con) }

/-- The outcome of an encryption as a value: the ciphertext, or nothing if the library reports an error. -/
def Outcome {α : Type} (r : Res (α × Tape F G1 G2 Gt)) (t t' : Tape F G1 G2 Gt) : Option α → Prop
  | some a => r = .ok (a, t')
  | none => r = .err ∧ t' = t

/-- The file contains the serialised `Result` of the library call. -/
def HoldsResult {α : Type} [Borsh α] [Serde α] (con : Con F G1 G2 Gt) (fs : FS) (p : Str) (o : Option α) : Prop :=
  ∃ bs, con.format.serResult con.errText o = some bs ∧ Holds con fs p bs

/-- What `encrypt` has to do: encrypt the content of the file with the public key (or keys) and leave the result next to
it. For BSW, LSW and AW11 the `Result` of the library is stored, also when it is an error. For AC17KP, BDABE and MKE08 the
command never succeeds, and for YCT14 not with the `borsh` feature. -/
def EncryptDone (con : Con F G1 G2 Gt) (given : Given) (lang : PolicyLanguage) (fs fs' : FS) (t t' : Tape F G1 G2 Gt)
    (f : Str) (pt : Bytes) : Scheme → Prop
  | .ac17cp => ∃ (pk : Ac17.PublicKey G1 G2 Gt) (ct : Ac17.CpCiphertext G1 G2 Gt),
      Reads con fs (argOr given .pk (chars% "pk.key")) pk ∧
      Ac17.cpEncrypt con.env pk (argOr given .policy []) pt lang t = .ok (ct, t') ∧ Reads con fs' (f ++ chars% ".ct") ct
  | .bsw => ∃ (pk : Bsw.PublicKey G1 G2 Gt) (o : Option (Bsw.Ciphertext G1 G2 Gt)),
      Reads con fs (argOr given .pk (chars% "pk.key")) pk ∧
      Outcome (Bsw.encrypt con.env pk (argOr given .policy []) lang pt t) t t' o ∧ HoldsResult con fs' (f ++ chars% ".ct") o
  | .lsw => ∃ (pk : Lsw.PublicKey G1 G2 Gt) (o : Option (Lsw.Ciphertext G1 G2 Gt)),
      Reads con fs (argOr given .pk (chars% "pk.key")) pk ∧
      Outcome (Lsw.encrypt con.env pk (given .attributes) pt t) t t' o ∧ HoldsResult con fs' (f ++ chars% ".ct") o
  | .aw11 => ∃ (gk : Aw11.GlobalKey G1 G2) (pks : List (Aw11.PublicKey G2 Gt)) (o : Option (Aw11.Ciphertext G2 Gt)),
      Reads con fs (argOr given .gp (chars% "gp.key")) gk ∧
      List.Forall₂ (Reads con fs) (if given .pk = [] then [chars% "pk.key"] else given .pk) pks ∧
      Outcome (Aw11.encrypt con.cm con.env gk pks (argOr given .policy []) lang pt t) t t' o ∧
      HoldsResult con fs' (f ++ chars% ".ct") o
  | .yct14 => ∃ (pk : Yct14.PublicKey F Gt) (ct : Yct14.Ciphertext F Gt), con.format = .cbor ∧
      Reads con fs (argOr given .pk (chars% "pk.key")) pk ∧
      Yct14.encrypt con.env pk (given .attributes) pt t = .ok (ct, t') ∧ Reads con fs' (f ++ chars% ".ct") ct
  | _ => False

/-- What `req-attr-pk` has to do. -/
def ReqAttrPkDone (con : Con F G1 G2 Gt) (given : Given) (fs fs' : FS) (attr : Str) : Scheme → Prop
  | .bdabe => ∃ (pk : Bdabe.PublicKey G1 G2 Gt) (ska : Bdabe.SecretAuthorityKey F G1 G2)
      (pka : Bdabe.PublicAttributeKey G1 G2 Gt), Reads con fs (argOr given .pk (chars% "pk.key")) pk ∧
      Reads con fs (argOr given .auSk (chars% "skau.key")) ska ∧ Bdabe.requestAttributePk con.env pk ska attr = .ok pka ∧
      Reads con fs' (argOr given .pka (chars% "pka.key")) pka
  | .mke08 => ∃ (pk : Mke08.PublicKey G1 G2 Gt) (ska : Mke08.SecretAuthorityKey F)
      (pka : Mke08.PublicAttributeKey G1 G2 Gt), Reads con fs (argOr given .pk (chars% "pk.key")) pk ∧
      Reads con fs (argOr given .auSk (chars% "skau.key")) ska ∧ Mke08.requestAuthorityPk con.env pk attr ska = .ok pka ∧
      Reads con fs' (argOr given .pka (chars% "pka.key")) pka
  | _ => False

/-- What `req-attr-sk` has to do. (BDABE reports success also when the request is refused, see `C62_violated`.) -/
def ReqAttrSkDone (con : Con F G1 G2 Gt) (given : Given) (fs fs' : FS) (attr : Str) : Scheme → Prop
  | .bdabe => ∃ (u : Bdabe.UserKey G1 G2) (ska : Bdabe.SecretAuthorityKey F G1 G2),
      Reads con fs (argOr given .sk (chars% "sk.key")) u ∧ Reads con fs (argOr given .auSk (chars% "skau.key")) ska ∧
      ((∃ a, Bdabe.requestAttributeSk con.env u.pk ska attr = .ok a ∧
        Reads con fs' (argOr given .ska (chars% "ska.key")) a) ∨
       (Bdabe.requestAttributeSk con.env u.pk ska attr = .err ∧ fs' = fs))
  | .mke08 => ∃ (u : Mke08.UserKey G1 G2) (ska : Mke08.SecretAuthorityKey F) (a : Mke08.SecretAttributeKey G1 G2),
      Reads con fs (argOr given .sk (chars% "sk.key")) u ∧ Reads con fs (argOr given .auSk (chars% "skau.key")) ska ∧
      Mke08.requestAuthoritySk con.env u.pk attr ska = .ok a ∧ Reads con fs' (argOr given .ska (chars% "ska.key")) a
  | _ => False

/-- What `decrypt` has to compute. (MKE08 reads a public key from the file of the global parameters, see
`C56_violated_mke08_decrypt`; YCT14 recovers nothing with the `borsh` feature.) -/
def Recovers (con : Con F G1 G2 Gt) (given : Given) (fs : FS) (f : Str) (pt : Bytes) : Scheme → Prop
  | .ac17cp => ∃ (sk : Ac17.CpSecretKey G1 G2) (ct : Ac17.CpCiphertext G1 G2 Gt),
      Reads con fs (argOr given .sk (chars% "sk.key")) sk ∧ Reads con fs f ct ∧ Ac17.cpDecrypt con.env sk ct = .ok pt
  | .ac17kp => ∃ (sk : Ac17.KpSecretKey G1 G2) (ct : Ac17.KpCiphertext G1 G2 Gt),
      Reads con fs (argOr given .sk (chars% "sk.key")) sk ∧ Reads con fs f ct ∧ Ac17.kpDecrypt con.env sk ct = .ok pt
  | .bsw => ∃ (sk : Bsw.SecretKey G1 G2) (ct : Bsw.Ciphertext G1 G2 Gt),
      Reads con fs (argOr given .sk (chars% "sk.key")) sk ∧ Reads con fs f ct ∧ Bsw.decrypt con.env sk ct = .ok pt
  | .lsw => ∃ (sk : Lsw.SecretKey G1 G2) (ct : Lsw.Ciphertext G1 G2 Gt),
      Reads con fs (argOr given .sk (chars% "sk.key")) sk ∧ Reads con fs f ct ∧ Lsw.decrypt con.env sk ct = .ok pt
  | .aw11 => ∃ (gk : Aw11.GlobalKey G1 G2) (sk : Aw11.SecretKey G1) (ct : Aw11.Ciphertext G2 Gt),
      Reads con fs (argOr given .gp (chars% "gp.key")) gk ∧ Reads con fs (argOr given .sk (chars% "sk.key")) sk ∧
      Reads con fs f ct ∧ Aw11.decrypt con.env gk sk ct = .ok pt
  | .bdabe => ∃ (sk : Bdabe.UserKey G1 G2) (ct : Bdabe.Ciphertext G1 G2 Gt),
      Reads con fs (argOr given .sk (chars% "sk.key")) sk ∧ Reads con fs f ct ∧
      Bdabe.decrypt con.env con.one sk ct = .ok pt
  | .mke08 => ∃ (gk : Mke08.PublicKey G1 G2 Gt) (sk : Mke08.UserKey G1 G2) (ct : Mke08.Ciphertext G1 G2 Gt),
      Reads con fs (argOr given .gp (chars% "gp.key")) gk ∧ Reads con fs (argOr given .sk (chars% "sk.key")) sk ∧
      Reads con fs f ct ∧ Mke08.decrypt con.env con.one sk ct = .ok pt
  | .yct14 => ∃ (sk : Yct14.SecretKey F Gt) (ct : Yct14.Ciphertext F Gt), con.format = .cbor ∧
      Reads con fs (argOr given .sk (chars% "sk.key")) sk ∧ Reads con fs f ct ∧ Yct14.decrypt con.env sk ct = .ok pt

theorem serDec_reads {α : Type} [Borsh α] [Serde α] {con : Con F G1 G2 Gt} {p : Str} {fs fs' : FS} {t t' : Tape F G1 G2 Gt} {x : α}
    (h : serDec α con p fs t = (.ok x, fs', t')) : Reads con fs p x ∧ fs' = fs ∧ t' = t := by
  obtain ⟨rfl, rfl⟩ := serDec_ok h
  refine ⟨fun t => ?_, rfl, rfl⟩
  unfold serDec at h ⊢
  obtain ⟨text, fs1, t1, h1, h2⟩ := CM.bind_ok h
  have e1 : CM.readFile p fs' t = (.ok text, fs', t) := by
    unfold CM.readFile at h1 ⊢
    simp only [Prod.mk.injEq] at h1 ⊢
    exact ⟨h1.1, trivial⟩
  have e0 : fs1 = fs' ∧ t1 = t' := by
    obtain ⟨r, hr⟩ := CM.readFile_state p fs' t'
    rw [hr] at h1
    cases h1
    exact ⟨rfl, rfl⟩
  obtain ⟨rfl, rfl⟩ := e0
  rw [CM.bind_of_ok e1]
  obtain ⟨bs, fs2, t2, h3, h4⟩ := CM.bind_ok h2
  obtain ⟨h5, rfl, rfl⟩ := CM.lift_ok h3
  have e2 : CM.lift (decText con text) fs2 t = (.ok bs, fs2, t) := by rw [h5]; rfl
  rw [CM.bind_of_ok e2]
  cases hx : con.format.read α bs with
  | none => rw [hx] at h4; cases h4
  | some a => rw [hx] at h4; cases h4; rfl

variable [BorshLaw F] [BorshLaw G1] [BorshLaw G2] [BorshLaw Gt] [SerdeLaw F] [SerdeLaw G1] [SerdeLaw G2] [SerdeLaw Gt]
  [Shallow F] [Shallow G1] [Shallow G2] [Shallow Gt]

theorem store_reads {α : Type} [Borsh α] [Serde α] [Stored α] {con : Con F G1 G2 Gt} {p : Str} {x : α} {head tail : Str}
    (hf : Framing head tail) {fs fs' : FS} {t t' : Tape F G1 G2 Gt}
    (h : store con p x head tail fs t = (.ok (), fs', t')) : t' = t ∧ p ≠ [] ∧ Reads con fs' p x := by
  obtain ⟨rfl, -, h2, -, bs, h3, h4⟩ := store_ok hf h
  exact ⟨rfl, h2, serDec_of_ser h3 h4⟩

theorem map_kept_borsh {con : Con F G1 G2 Gt} (h : con.format = .borsh) (l : List (Yct14.Attribute F Gt)) :
    l.map (kept con) = l.map Yct14.Attribute.strip := by
  refine List.map_congr_left fun a _ => ?_
  unfold kept
  rw [h]
  rfl

theorem map_kept_cbor {con : Con F G1 G2 Gt} (h : con.format = .cbor) (l : List (Yct14.Attribute F Gt)) :
    l.map (kept con) = l := by
  refine (List.map_congr_left fun a _ => ?_).trans (List.map_id l)
  unfold kept
  rw [h]
  rfl

theorem read_yct14_msk {con : Con F G1 G2 Gt} {x : Yct14.MasterKey F Gt} {bs : Bytes} (h : con.format.ser x = some bs) :
    con.format.read (Yct14.MasterKey F Gt) bs = some { x with attributes := x.attributes.map (kept con) } := by
  cases hf : con.format with
  | borsh =>
    rw [hf] at h
    rw [map_kept_borsh hf]
    exact (C57_yct14_loses_nodes (F := F) (Gt := Gt)).2.1 x bs h
  | cbor =>
    rw [hf] at h
    rw [map_kept_cbor hf]
    exact Serde.fromSlice_toVec h

theorem read_yct14_pk {con : Con F G1 G2 Gt} {x : Yct14.PublicKey F Gt} {bs : Bytes} (h : con.format.ser x = some bs) :
    con.format.read (Yct14.PublicKey F Gt) bs = some { x with attributes := x.attributes.map (kept con) } := by
  cases hf : con.format with
  | borsh =>
    rw [hf] at h
    rw [map_kept_borsh hf]
    exact (C57_yct14_loses_nodes (F := F) (Gt := Gt)).1 x bs h
  | cbor =>
    rw [hf] at h
    rw [map_kept_cbor hf]
    exact Serde.fromSlice_toVec h

theorem read_yct14_sk {con : Con F G1 G2 Gt} {x : Yct14.SecretKey F Gt} {bs : Bytes} (h : con.format.ser x = some bs) :
    con.format.read (Yct14.SecretKey F Gt) bs = some { x with du := x.du.map (kept con) } := by
  cases hf : con.format with
  | borsh =>
    rw [hf] at h
    rw [map_kept_borsh hf]
    exact (C57_yct14_loses_nodes (F := F) (Gt := Gt)).2.2.1 x bs h
  | cbor =>
    rw [hf] at h
    rw [map_kept_cbor hf]
    exact Serde.fromSlice_toVec h

theorem store2_reads {α β : Type} [Borsh α] [Serde α] [Stored α] [Borsh β] [Serde β] [Stored β] {con : Con F G1 G2 Gt} {p q : Str} {x : α}
    {y : β} {h1 e1 h2 e2 : Str} (hf1 : Framing h1 e1) (hf2 : Framing h2 e2) (hpq : p ≠ q) {fs fs' : FS}
    {t t' : Tape F G1 G2 Gt} (h : (store con p x h1 e1 >>= fun _ => store con q y h2 e2) fs t = (.ok (), fs', t')) :
    t' = t ∧ Reads con fs' p x ∧ Reads con fs' q y := by
  obtain ⟨rfl, -, -, ⟨b1, hb1, hh1⟩, b2, hb2, hh2⟩ := store2_ok hf1 hf2 hpq h
  exact ⟨rfl, serDec_of_ser hb1 hh1, serDec_of_ser hb2 hh2⟩

theorem valueOf_name {cmd : Cmd} {given : Given} (h : declare cmd .name = some {}) :
    valueOf cmd given .name = (given .name).head? := by
  unfold valueOf valuesOf
  rw [h]
  dsimp only
  cases given .name <;> rfl

theorem valuesOf_given {cmd : Cmd} {given : Given} {a : Arg} {d : Decl} (h : declare cmd a = some d) (hd : d.dflt = none) :
    valuesOf cmd given a = given a := by
  unfold valuesOf
  rw [h]
  dsimp only
  rw [hd]
  cases given a <;> rfl

theorem valueOf_getD {cmd : Cmd} {given : Given} {a : Arg} {d : Decl} (h : declare cmd a = some d) (hd : d.dflt = none) :
    (valueOf cmd given a).getD [] = argOr given a [] := by
  unfold valueOf argOr
  rw [valuesOf_given h hd]
  cases given a <;> rfl

theorem head_argOr {given : Given} {a : Arg} {n : Str} (h : (given a).head? = some n) : argOr given a [] = n := by
  unfold argOr
  cases hg : given a with
  | nil => rw [hg] at h; cases h
  | cons x xs => rw [hg] at h; cases h; rfl

/-- A store under `name.key` succeeds only if a name is given. -/
theorem store_name_reads {α : Type} [Borsh α] [Serde α] [Stored α] {con : Con F G1 G2 Gt} {o : Option Str} {x : α} {head tail : Str}
    (hf : Framing head tail) {fs fs' : FS} {t t' : Tape F G1 G2 Gt}
    (h : store con (nameFile o) x head tail fs t = (.ok (), fs', t')) :
    t' = t ∧ ∃ n, o = some n ∧ Reads con fs' (n ++ chars% ".key") x := by
  obtain ⟨rfl, hne, hr⟩ := store_reads hf h
  cases o with
  | none => exact absurd rfl hne
  | some n => exact ⟨rfl, n, rfl, hr⟩

/-- **C63, set-up.** If `setup` reports success and the two key files have different names, the files contain the keys that
the library returned. -/
theorem C63_setup_partial (con : Con F G1 G2 Gt) (given : Given) (scheme : Scheme) (lang : PolicyLanguage) (fs fs' : FS)
    (t t' : Tape F G1 G2 Gt) (hne : argOr given .msk (chars% "msk.key") ≠ argOr given .pk (chars% "pk.key"))
    (h : run con .setup given scheme lang fs t = (.ok (), fs', t')) : SetupDone con given fs' t t' scheme := by
  have h1 : fileOr .setup given .msk mskDefault = argOr given .msk (chars% "msk.key") := fileOr_argOr rfl
  have h2 : fileOr .setup given .pk pkDefault = argOr given .pk (chars% "pk.key") := fileOr_argOr rfl
  have h3 : valuesOf .setup given .attributes = given .attributes := valuesOf_given rfl rfl
  have h' : runSetup con given scheme fs t = (.ok (), fs', t') := h
  unfold runSetup at h'
  simp only [h1, h2] at h'
  cases scheme <;> dsimp only at h' ⊢
  case yct14 =>
    split at h'
    · rename_i hl
      rw [h3] at h' hl
      obtain ⟨⟨pk, msk⟩, fs1, t1, hc, hs⟩ := CM.bind_ok h'
      obtain ⟨hd, rfl⟩ := CM.call_ok hc
      obtain ⟨rfl, -, -, ⟨b1, hb1, hh1⟩, b2, hb2, hh2⟩ := store2_ok framing_msk framing_pk hne hs
      refine ⟨pk, msk, by intro e; rw [e] at hl; simp at hl, hd, ?_, ?_⟩
      · intro t
        rw [serDec_holds hh1, read_yct14_msk hb1]
      · intro t
        rw [serDec_holds hh2, read_yct14_pk hb2]
    · cases h'
  case aw11 =>
    obtain ⟨gp, fs1, t1, hc, hs⟩ := CM.bind_ok h'
    obtain ⟨hd, rfl⟩ := CM.call_ok hc
    obtain ⟨rfl, -, hr⟩ := store_reads framing_gp hs
    exact ⟨gp, hd, hr⟩
  all_goals
    obtain ⟨⟨pk, msk⟩, fs1, t1, hc, hs⟩ := CM.bind_ok h'
    obtain ⟨hd, rfl⟩ := CM.call_ok hc
    obtain ⟨rfl, hr⟩ := store2_reads framing_msk framing_pk hne hs
    exact ⟨pk, msk, hd, hr⟩

/-- **C63, authorities.** If `authgen` reports success, the library was called with the objects in the input files, and
the output files contain what it returned. (AW11: the two output files must have different names.) -/
theorem C63_authgen_partial (con : Con F G1 G2 Gt) (given : Given) (scheme : Scheme) (lang : PolicyLanguage) (fs fs' : FS)
    (t t' : Tape F G1 G2 Gt) (hne : argOr given .msk (chars% "msk.key") ≠ argOr given .pk (chars% "pk.key"))
    (h : run con .authgen given scheme lang fs t = (.ok (), fs', t')) : AuthgenDone con given fs fs' t t' scheme := by
  have h1 : fileOr .authgen given .msk mskDefault = argOr given .msk (chars% "msk.key") := fileOr_argOr rfl
  have h2 : fileOr .authgen given .pk pkDefault = argOr given .pk (chars% "pk.key") := fileOr_argOr rfl
  have h3 : fileOr .authgen given .gp gpDefault = argOr given .gp (chars% "gp.key") := fileOr_argOr rfl
  have h4 : valueOf .authgen given .name = (given .name).head? := valueOf_name rfl
  have h5 : valuesOf .authgen given .attributes = given .attributes := valuesOf_given rfl rfl
  have h' : runAuthgen con given scheme fs t = (.ok (), fs', t') := h
  unfold runAuthgen at h'
  simp only [h1, h2, h3, h4, h5] at h'
  cases scheme <;> dsimp only at h' ⊢
  case aw11 =>
    obtain ⟨gk, fs1, t1, hg, hx⟩ := CM.bind_ok h'
    obtain ⟨hp, rfl, rfl⟩ := serDec_reads hg
    obtain ⟨o, fs2, t2, hc, hy⟩ := CM.bind_ok hx
    obtain ⟨hd, rfl⟩ := CM.call_ok hc
    cases o with
    | none => cases hy
    | some k =>
      obtain ⟨rfl, hr⟩ := store2_reads framing_auSk framing_auPk hne hy
      exact ⟨gk, k.1, k.2, hp, hd, hr⟩
  case bdabe =>
    obtain ⟨pk, fs1, t1, hg, hx⟩ := CM.bind_ok h'
    obtain ⟨hp, rfl, rfl⟩ := serDec_reads hg
    obtain ⟨msk, fs2, t2, hg2, hy⟩ := CM.bind_ok hx
    obtain ⟨hm, rfl, rfl⟩ := serDec_reads hg2
    obtain ⟨k, fs3, t3, hc, hz⟩ := CM.bind_ok hy
    obtain ⟨hd, rfl⟩ := CM.call_ok hc
    obtain ⟨rfl, n, hn, hr⟩ := store_name_reads framing_auSk hz
    rw [hn] at hd
    exact ⟨pk, msk, n, k, hp, hm, hn, hd, hr⟩
  case mke08 =>
    obtain ⟨pk, fs1, t1, hg, hx⟩ := CM.bind_ok h'
    obtain ⟨hp, rfl, rfl⟩ := serDec_reads hg
    obtain ⟨msk, fs2, t2, hg2, hy⟩ := CM.bind_ok hx
    obtain ⟨hm, rfl, rfl⟩ := serDec_reads hg2
    obtain ⟨k, fs3, t3, hc, hz⟩ := CM.bind_ok hy
    obtain ⟨hd, rfl⟩ := CM.call_ok hc
    obtain ⟨rfl, n, hn, hr⟩ := store_name_reads framing_auSk hz
    rw [hn] at hd
    exact ⟨n, k, hn, hd, hr⟩
  all_goals cases h'

/-- **C63, keys.** If `keygen` reports success, the library was called with the objects in the input files, the attributes,
the policy and the name given, and the output file contains the key it returned. -/
theorem C63_keygen_partial (con : Con F G1 G2 Gt) (given : Given) (scheme : Scheme) (lang : PolicyLanguage) (fs fs' : FS)
    (t t' : Tape F G1 G2 Gt) (h : run con .keygen given scheme lang fs t = (.ok (), fs', t')) :
    KeygenDone con given lang fs fs' t t' scheme := by
  have h1 : fileOr .keygen given .msk mskDefault = argOr given .msk (chars% "msk.key") := fileOr_argOr rfl
  have h2 : fileOr .keygen given .pk pkDefault = argOr given .pk (chars% "pk.key") := fileOr_argOr rfl
  have h3 : fileOr .keygen given .gp gpDefault = argOr given .gp (chars% "gp.key") := fileOr_argOr rfl
  have h4 : fileOr .keygen given .sk skDefault = argOr given .sk (chars% "sk.key") := fileOr_argOr rfl
  have h5 : fileOr .keygen given .ska skaDefault = chars% "ska.key" := rfl
  have h6 : valueOf .keygen given .name = (given .name).head? := valueOf_name rfl
  have h7 : valuesOf .keygen given .attributes = given .attributes := valuesOf_given rfl rfl
  have h8 : (valueOf .keygen given .policy).getD [] = argOr given .policy [] := valueOf_getD rfl rfl
  have h' : runKeygen con given scheme lang fs t = (.ok (), fs', t') := h
  unfold runKeygen at h'
  simp only [h1, h2, h3, h4, h5, h6, h7, h8] at h'
  cases scheme <;> dsimp only at h' ⊢
  case ac17cp =>
    obtain ⟨msk, fs1, t1, hg, hx⟩ := CM.bind_ok h'
    have hg' : serDec (Ac17.MasterKey F G1 G2) con (argOr given .msk (chars% "msk.key")) fs t = (.ok msk, fs1, t1) := by
      generalize serDec (Ac17.MasterKey F G1 G2) con (argOr given .msk (chars% "msk.key")) fs t = x at hg
      obtain ⟨r, s⟩ := x
      cases r with
      | err => cases hg
      | ok a => exact hg
      | panic => exact hg
    obtain ⟨hm, rfl, rfl⟩ := serDec_reads hg'
    obtain ⟨k, fs2, t2, hc, hy⟩ := CM.bind_ok hx
    obtain ⟨hd, rfl⟩ := CM.callUnwrap_ok hc
    obtain ⟨rfl, -, hr⟩ := store_reads framing_sk hy
    exact ⟨msk, k, hm, hd, hr⟩
  case ac17kp =>
    obtain ⟨msk, fs1, t1, hg, hx⟩ := CM.bind_ok h'
    obtain ⟨hm, rfl, rfl⟩ := serDec_reads hg
    obtain ⟨k, fs2, t2, hc, hy⟩ := CM.bind_ok hx
    obtain ⟨hd, rfl⟩ := CM.callUnwrap_ok hc
    obtain ⟨rfl, -, hr⟩ := store_reads framing_sk hy
    exact ⟨msk, k, hm, hd, hr⟩
  case bsw =>
    obtain ⟨pk, fs1, t1, hg, hx⟩ := CM.bind_ok h'
    obtain ⟨hp, rfl, rfl⟩ := serDec_reads hg
    obtain ⟨msk, fs2, t2, hg2, hx2⟩ := CM.bind_ok hx
    obtain ⟨hm, rfl, rfl⟩ := serDec_reads hg2
    obtain ⟨o, fs3, t3, hc, hx3⟩ := CM.bind_ok hx2
    obtain ⟨hd, rfl⟩ := CM.call_ok hc
    obtain ⟨k, fs4, t4, hu, hx4⟩ := CM.bind_ok hx3
    obtain ⟨hu', rfl, rfl⟩ := CM.lift_ok hu
    cases o with
    | none => cases hu'
    | some k' =>
      cases hu'
      obtain ⟨rfl, -, hr⟩ := store_reads framing_sk hx4
      exact ⟨pk, msk, k, hp, hm, hd, hr⟩
  case lsw =>
    obtain ⟨pk, fs1, t1, hg, hx⟩ := CM.bind_ok h'
    obtain ⟨hp, rfl, rfl⟩ := serDec_reads hg
    obtain ⟨msk, fs2, t2, hg2, hx2⟩ := CM.bind_ok hx
    obtain ⟨hm, rfl, rfl⟩ := serDec_reads hg2
    obtain ⟨k, fs3, t3, hc, hx3⟩ := CM.bind_ok hx2
    obtain ⟨hd, rfl⟩ := CM.callUnwrap_ok hc
    obtain ⟨rfl, -, hr⟩ := store_reads framing_sk hx3
    exact ⟨pk, msk, k, hp, hm, hd, hr⟩
  case aw11 =>
    obtain ⟨gk, fs1, t1, hg, hx⟩ := CM.bind_ok h'
    obtain ⟨hp, rfl, rfl⟩ := serDec_reads hg
    obtain ⟨msk, fs2, t2, hg2, hx2⟩ := CM.bind_ok hx
    obtain ⟨hm, rfl, rfl⟩ := serDec_reads hg2
    obtain ⟨k, fs3, t3, hc, hx3⟩ := CM.bind_ok hx2
    obtain ⟨hd, rfl, rfl⟩ := CM.lift_ok hc
    obtain ⟨rfl, n, hn, hr⟩ := store_name_reads framing_sk hx3
    rw [hn] at hd
    refine ⟨gk, msk, n, k, hp, hm, hn, ?_, rfl, hr⟩
    cases hk : Aw11.keygen con.cm con.env gk msk n (given .attributes) with
    | ok a => simp only [Option.getD_some, hk, Res.unwrap_ok] at hd; exact hd
    | err => simp [hk] at hd
    | panic => simp [hk] at hd
  case bdabe =>
    obtain ⟨pk, fs1, t1, hg, hx⟩ := CM.bind_ok h'
    obtain ⟨hp, rfl, rfl⟩ := serDec_reads hg
    obtain ⟨msk, fs2, t2, hg2, hx2⟩ := CM.bind_ok hx
    obtain ⟨hm, rfl, rfl⟩ := serDec_reads hg2
    obtain ⟨k, fs3, t3, hc, hx3⟩ := CM.bind_ok hx2
    obtain ⟨hd, rfl⟩ := CM.call_ok hc
    obtain ⟨rfl, n, hn, hr⟩ := store_name_reads framing_sk hx3
    rw [hn] at hd
    exact ⟨pk, msk, n, k, hp, hm, hn, hd, hr⟩
  case mke08 =>
    obtain ⟨pk, fs1, t1, hg, hx⟩ := CM.bind_ok h'
    obtain ⟨hp, rfl, rfl⟩ := serDec_reads hg
    obtain ⟨msk, fs2, t2, hg2, hx2⟩ := CM.bind_ok hx
    obtain ⟨hm, rfl, rfl⟩ := serDec_reads hg2
    split at hx2
    · rename_i hne
      obtain ⟨k, fs3, t3, hc, hx3⟩ := CM.bind_ok hx2
      obtain ⟨hd, rfl⟩ := CM.call_ok hc
      obtain ⟨rfl, n, hn, hr⟩ := store_name_reads framing_sk hx3
      rw [hn] at hd hne
      exact ⟨pk, msk, n, k, hp, hm, hn, hne, hd, hr⟩
    · cases hx2
  case yct14 =>
    obtain ⟨pk, fs1, t1, hg, hx⟩ := CM.bind_ok h'
    obtain ⟨-, rfl, rfl⟩ := serDec_reads hg
    obtain ⟨msk, fs2, t2, hg2, hx2⟩ := CM.bind_ok hx
    obtain ⟨hm, rfl, rfl⟩ := serDec_reads hg2
    obtain ⟨k, fs3, t3, hc, hx3⟩ := CM.bind_ok hx2
    obtain ⟨hd, rfl⟩ := CM.callUnwrap_ok hc
    obtain ⟨rfl, -, -, -, bs, hb, hh⟩ := store_ok framing_sk hx3
    refine ⟨msk, k, hm, hd, fun t => ?_⟩
    rw [serDec_holds hh, read_yct14_sk hb]

theorem serDecAll_reads {α : Type} [Borsh α] [Serde α] {con : Con F G1 G2 Gt} : ∀ {ps : List Str} {fs fs' : FS}
    {t t' : Tape F G1 G2 Gt} {xs : List α}, serDecAll α con ps fs t = (.ok xs, fs', t') →
      List.Forall₂ (Reads con fs) ps xs ∧ fs' = fs ∧ t' = t
  | [], fs, fs', t, t', xs, h => by
    cases h
    exact ⟨.nil, rfl, rfl⟩
  | p :: ps, fs, fs', t, t', xs, h => by
    obtain ⟨a, fs1, t1, h1, h2⟩ := CM.bind_ok h
    obtain ⟨hr, rfl, rfl⟩ := serDec_reads h1
    obtain ⟨as, fs2, t2, h3, h4⟩ := CM.bind_ok h2
    obtain ⟨hrs, rfl, rfl⟩ := serDecAll_reads h3
    cases h4
    exact ⟨.cons hr hrs, rfl, rfl⟩

theorem callTry_outcome {α : Type} {m : RM F G1 G2 Gt α} {fs fs' : FS} {t t' : Tape F G1 G2 Gt} {o : Option α}
    (h : CM.callTry m fs t = (.ok o, fs', t')) : fs' = fs ∧ Outcome (m t) t t' o := by
  obtain ⟨rfl, ⟨a, rfl, ha⟩ | ⟨rfl, ha, rfl⟩⟩ := CM.callTry_ok h
  · exact ⟨rfl, ha⟩
  · exact ⟨rfl, ha, rfl⟩

theorem storeResult_holds {α : Type} [Borsh α] [Serde α] {con : Con F G1 G2 Gt} {p : Str} {x : Option α} {head tail : Str}
    (hf : Framing head tail) {fs fs' : FS} {t t' : Tape F G1 G2 Gt}
    (h : storeResult con p x head tail fs t = (.ok (), fs', t')) : t' = t ∧ p ≠ [] ∧ HoldsResult con fs' p x := by
  obtain ⟨rfl, -, h2, -, h3⟩ := storeResult_ok hf h
  exact ⟨rfl, h2, h3⟩

/-- **C63, encryption.** If `encrypt` reports success, a file was given and exists, the library was called with its content
and the keys in the key files, and the outcome is stored next to it. -/
theorem C63_encrypt_partial (con : Con F G1 G2 Gt) (given : Given) (scheme : Scheme) (lang : PolicyLanguage) (fs fs' : FS)
    (t t' : Tape F G1 G2 Gt) (h : run con .encrypt given scheme lang fs t = (.ok (), fs', t')) :
    ∃ f pt, (given .file).head? = some f ∧ fs.file f = some pt ∧ EncryptDone con given lang fs fs' t t' f pt scheme := by
  obtain ⟨q, hq⟩ := valueOf_encrypt_pk given
  have h1 : valuesOf .encrypt given .pk = if given .pk = [] then [chars% "pk.key"] else given .pk := by
    unfold valuesOf
    simp only [declare]
    cases given .pk <;> rfl
  have h3 : fileOr .encrypt given .gp gpDefault = argOr given .gp (chars% "gp.key") := fileOr_argOr rfl
  have h4 : valueOf .encrypt given .file = (given .file).head? := by
    unfold valueOf
    rw [valuesOf_given rfl rfl]
  have h7 : valuesOf .encrypt given .attributes = given .attributes := valuesOf_given rfl rfl
  have h8 : (valueOf .encrypt given .policy).getD [] = argOr given .policy [] := valueOf_getD rfl rfl
  have h9 : ∀ f, (if given .pk = [] then [chars% "pk.key"] else given .pk) = [f] →
      f = argOr given .pk (chars% "pk.key") := by
    intro f hf
    unfold argOr
    cases hg : given .pk with
    | nil => rw [hg] at hf; simpa using hf.symm
    | cons x xs => rw [hg] at hf; simp at hf; simp [hf.1]
  have h' : runEncrypt con given scheme lang fs t = (.ok (), fs', t') := h
  unfold runEncrypt at h'
  simp only [hq, h1, h3, h4, h7, h8] at h'
  obtain ⟨pt, fs1, t1, hb, hx⟩ := CM.bind_ok h'
  obtain ⟨hpt, rfl, rfl⟩ := CM.readToVec_ok hb
  have hfile : ∀ f, (given .file).head? = some f → fs1.file f = some pt := by
    intro f hf
    rw [hf] at hpt
    exact hpt
  cases hfd : (given .file).head? with
  | none =>
    rw [hfd] at hpt hx
    exfalso
    cases scheme <;> dsimp only at hx
    case aw11 =>
      obtain ⟨_, _, _, -, hx⟩ := CM.bind_ok hx
      obtain ⟨_, _, _, -, hx⟩ := CM.bind_ok hx
      obtain ⟨_, _, _, -, hx⟩ := CM.bind_ok hx
      exact (storeResult_holds framing_ct hx).2.1 rfl
    case bdabe =>
      obtain ⟨_, _, _, -, hx⟩ := CM.bind_ok hx
      obtain ⟨_, _, _, -, hx⟩ := CM.bind_ok hx
      obtain ⟨_, _, _, -, hx⟩ := CM.bind_ok hx
      exact (storeResult_holds framing_ct hx).2.1 rfl
    case mke08 =>
      obtain ⟨_, _, _, -, hx⟩ := CM.bind_ok hx
      obtain ⟨_, _, _, -, hx⟩ := CM.bind_ok hx
      obtain ⟨_, _, _, -, hx⟩ := CM.bind_ok hx
      exact (storeResult_holds framing_ct hx).2.1 rfl
    all_goals
      generalize (if given .pk = [] then [chars% "pk.key"] else given .pk) = l at hx
      match l with
      | [] => cases hx
      | _ :: _ :: _ => cases hx
      | [_] =>
        obtain ⟨_, _, _, -, hx⟩ := CM.bind_ok hx
        obtain ⟨_, _, _, -, hx⟩ := CM.bind_ok hx
        first
        | exact (storeResult_holds framing_ct hx).2.1 rfl
        | exact (store_ok framing_ct hx).2.2.1 rfl
  | some f =>
    rw [hfd] at hx
    refine ⟨f, pt, rfl, hfile f hfd, ?_⟩
    have hF : ∀ s, s ∈ [Scheme.ac17kp, .bdabe, .mke08] → s = scheme → False := by
      rintro s hs rfl
      have := (C56_violated_encrypt con given s lang hs fs1 t1).1
      rw [h] at this
      exact this rfl
    cases scheme <;> dsimp only at hx
    case ac17kp => exact (hF .ac17kp (by simp) rfl).elim
    case bdabe => exact (hF .bdabe (by simp) rfl).elim
    case mke08 => exact (hF .mke08 (by simp) rfl).elim
    case yct14 =>
      have hfmt : con.format = .cbor := by
        cases hf : con.format with
        | cbor => rfl
        | borsh =>
          have := (C56_violated_yct14_encrypt con hf given lang fs1 t1).1
          rw [h] at this
          exact (this rfl).elim
      generalize hl : (if given .pk = [] then [chars% "pk.key"] else given .pk) = l at hx
      match l with
      | [] => cases hx
      | _ :: _ :: _ => cases hx
      | [file] =>
        obtain rfl := h9 _ hl
        obtain ⟨pk, fs2, t2, hg, hx1⟩ := CM.bind_ok hx
        obtain ⟨hpk, rfl, rfl⟩ := serDec_reads hg
        obtain ⟨ct, fs4, t4, hc, hx3⟩ := CM.bind_ok hx1
        obtain ⟨ho, rfl⟩ := CM.call_ok hc
        obtain ⟨rfl, -, -, -, bs, hb, hh⟩ := store_ok framing_ct hx3
        refine ⟨pk, ct, hfmt, hpk, ho, fun t => ?_⟩
        rw [hfmt] at hb
        rw [serDec_holds hh, hfmt, show Format.read (Yct14.Ciphertext F Gt) .cbor bs = _ from Serde.fromSlice_toVec hb]
    case aw11 =>
      obtain ⟨gk, fs2, t2, hg, hx1⟩ := CM.bind_ok hx
      obtain ⟨hgk, rfl, rfl⟩ := serDec_reads hg
      obtain ⟨pks, fs3, t3, hk, hx2⟩ := CM.bind_ok hx1
      obtain ⟨hpk, rfl, rfl⟩ := serDecAll_reads hk
      obtain ⟨o, fs4, t4, hc, hx3⟩ := CM.bind_ok hx2
      obtain ⟨rfl, ho⟩ := callTry_outcome hc
      obtain ⟨rfl, -, hr⟩ := storeResult_holds framing_ct hx3
      exact ⟨gk, pks, o, hgk, hpk, ho, hr⟩
    case ac17cp =>
      generalize hl : (if given .pk = [] then [chars% "pk.key"] else given .pk) = l at hx
      match l with
      | [] => cases hx
      | _ :: _ :: _ => cases hx
      | [file] =>
        obtain rfl := h9 _ hl
        obtain ⟨pk, fs2, t2, hg, hx1⟩ := CM.bind_ok hx
        obtain ⟨hpk, rfl, rfl⟩ := serDec_reads hg
        obtain ⟨ct, fs4, t4, hc, hx3⟩ := CM.bind_ok hx1
        obtain ⟨ho, rfl⟩ := CM.call_ok hc
        obtain ⟨rfl, -, hr⟩ := store_reads framing_ct hx3
        exact ⟨pk, ct, hpk, ho, hr⟩
    case bsw =>
      generalize hl : (if given .pk = [] then [chars% "pk.key"] else given .pk) = l at hx
      match l with
      | [] => cases hx
      | _ :: _ :: _ => cases hx
      | [file] =>
        obtain rfl := h9 _ hl
        obtain ⟨pk, fs2, t2, hg, hx1⟩ := CM.bind_ok hx
        obtain ⟨hpk, rfl, rfl⟩ := serDec_reads hg
        obtain ⟨o, fs4, t4, hc, hx3⟩ := CM.bind_ok hx1
        obtain ⟨rfl, ho⟩ := callTry_outcome hc
        obtain ⟨rfl, -, hr⟩ := storeResult_holds framing_ct hx3
        exact ⟨pk, o, hpk, ho, hr⟩
    case lsw =>
      generalize hl : (if given .pk = [] then [chars% "pk.key"] else given .pk) = l at hx
      match l with
      | [] => cases hx
      | _ :: _ :: _ => cases hx
      | [file] =>
        obtain rfl := h9 _ hl
        obtain ⟨pk, fs2, t2, hg, hx1⟩ := CM.bind_ok hx
        obtain ⟨hpk, rfl, rfl⟩ := serDec_reads hg
        obtain ⟨o, fs4, t4, hc, hx3⟩ := CM.bind_ok hx1
        obtain ⟨rfl, ho⟩ := callTry_outcome hc
        obtain ⟨rfl, -, hr⟩ := storeResult_holds framing_ct hx3
        exact ⟨pk, o, hpk, ho, hr⟩

/-- Among the values there is exactly one word, `a`: one of them is `a` between white space, the others are white space
only. -/
def OneWord (white : Char → Bool) (vs : List Str) (a : Str) : Prop :=
  ∃ us ws pre post, vs = us ++ (pre ++ a ++ post) :: ws ∧ (∀ v ∈ us ++ ws, ∀ c ∈ v, white c = true) ∧
    (∀ c ∈ pre ++ post, white c = true) ∧ a ≠ [] ∧ ∀ c ∈ a, white c = false

theorem splitWhite_white {white : Char → Bool} : ∀ {s acc : Str}, (∀ c ∈ s, white c = true) →
    splitWhite white acc s = if acc = [] then [] else [acc.reverse]
  | [], _, _ => rfl
  | c :: s, acc, h => by
    have ih := splitWhite_white (s := s) (acc := []) fun d hd => h d (List.mem_cons_of_mem _ hd)
    rw [if_pos rfl] at ih
    rw [splitWhite, if_pos (h c (by simp)), ih]

theorem splitWhite_skip {white : Char → Bool} : ∀ {pre s : Str}, (∀ c ∈ pre, white c = true) →
    splitWhite white [] (pre ++ s) = splitWhite white [] s
  | [], _, _ => rfl
  | c :: pre, s, h => by
    rw [List.cons_append, splitWhite, if_pos (h c (by simp)), if_pos rfl,
      splitWhite_skip fun d hd => h d (List.mem_cons_of_mem _ hd)]

theorem splitWhite_word {white : Char → Bool} : ∀ {a s acc : Str}, (∀ c ∈ a, white c = false) →
    splitWhite white acc (a ++ s) = splitWhite white (a.reverse ++ acc) s
  | [], _, _, _ => rfl
  | c :: a, s, acc, h => by
    rw [List.cons_append, splitWhite, if_neg (by rw [h c (by simp)]; simp),
      splitWhite_word fun d hd => h d (List.mem_cons_of_mem _ hd)]
    simp

theorem splitWhite_nil {white : Char → Bool} : ∀ {s acc : Str}, splitWhite white acc s = [] →
    acc = [] ∧ ∀ c ∈ s, white c = true
  | [], acc, h => by
    rw [splitWhite] at h
    split_ifs at h with ha
    exact ⟨ha, by simp⟩
  | c :: s, acc, h => by
    rw [splitWhite] at h
    split_ifs at h with hc ha
    · obtain ⟨-, h2⟩ := splitWhite_nil h
      exact ⟨ha, by simpa [hc] using h2⟩
    · obtain ⟨h1, -⟩ := splitWhite_nil h
      cases h1

theorem splitWhite_one {white : Char → Bool} {a : Str} : ∀ {s acc : Str}, splitWhite white acc s = [a] →
    ∃ pre m post, s = pre ++ m ++ post ∧ a = acc.reverse ++ m ∧ (acc ≠ [] → pre = []) ∧ a ≠ [] ∧
      (∀ c ∈ pre ++ post, white c = true) ∧ ∀ c ∈ m, white c = false
  | [], acc, h => by
    rw [splitWhite] at h
    split_ifs at h with ha
    refine ⟨[], [], [], rfl, ?_, fun _ => rfl, ?_, by simp, by simp⟩
    · simpa using (List.cons.inj h).1.symm
    · rw [← (List.cons.inj h).1]
      simpa using ha
  | c :: s, acc, h => by
    rw [splitWhite] at h
    split_ifs at h with hc ha
    · obtain ⟨pre, m, post, rfl, rfl, -, h3, h4, h5⟩ := splitWhite_one h
      refine ⟨c :: pre, _, post, rfl, by simp [ha], fun hn => absurd ha hn, h3, ?_, h5⟩
      intro d hd
      rcases List.mem_cons.1 hd with rfl | hd
      · exact hc
      · exact h4 d hd
    · obtain ⟨h1, h2⟩ := List.cons.inj h
      obtain ⟨-, h3⟩ := splitWhite_nil h2
      refine ⟨[], [], c :: s, rfl, by simp [h1], fun _ => rfl, ?_, ?_, by simp⟩
      · rw [← h1]
        simpa using ha
      · intro d hd
        rcases List.mem_cons.1 hd with rfl | hd
        · exact hc
        · exact h3 d hd
    · obtain ⟨pre, m, post, rfl, h2, h1, h3, h4, h5⟩ := splitWhite_one h
      obtain rfl := h1 (by simp)
      refine ⟨[], c :: m, post, rfl, by simpa using h2, fun _ => rfl, h3, by simpa using h4, ?_⟩
      intro d hd
      rcases List.mem_cons.1 hd with rfl | hd
      · simpa using hc
      · exact h5 d hd

theorem flatMap_splitWhite_nil {white : Char → Bool} {vs : List Str} :
    vs.flatMap (splitWhite white []) = [] ↔ ∀ v ∈ vs, ∀ c ∈ v, white c = true := by
  rw [List.flatMap_eq_nil_iff]
  refine forall₂_congr fun v _ => ⟨fun h => (splitWhite_nil h).2, fun h => by rw [splitWhite_white h]; rfl⟩

theorem flatMap_splitWhite {white : Char → Bool} {a : Str} : ∀ {vs : List Str},
    vs.flatMap (splitWhite white []) = [a] ↔ OneWord white vs a
  | [] => by simp [OneWord]
  | v :: vs => by
    rw [List.flatMap_cons]
    constructor
    · intro h
      rcases List.append_eq_singleton_iff.1 h with ⟨h1, h2⟩ | ⟨h1, h2⟩
      · obtain ⟨us, ws, pre, post, rfl, h3, h4⟩ := flatMap_splitWhite.1 h2
        refine ⟨v :: us, ws, pre, post, rfl, ?_, h4⟩
        intro x hx
        rcases List.mem_cons.1 hx with rfl | hx
        · exact (splitWhite_nil h1).2
        · exact h3 x hx
      · obtain ⟨pre, m, post, rfl, rfl, -, h3, h4, h5⟩ := splitWhite_one h1
        exact ⟨[], vs, pre, post, rfl, flatMap_splitWhite_nil.1 h2, h4, h3, h5⟩
    · rintro ⟨us, ws, pre, post, he, h1, h2, h3, h4⟩
      cases us with
      | nil =>
        obtain ⟨rfl, rfl⟩ := List.cons.inj he
        have : splitWhite white [] (pre ++ a ++ post) = [a] := by
          rw [List.append_assoc, splitWhite_skip fun c hc => h2 c (List.mem_append_left _ hc), splitWhite_word h4,
            splitWhite_white fun c hc => h2 c (List.mem_append_right _ hc)]
          simp [h3]
        rw [this, (flatMap_splitWhite_nil (vs := vs)).2 h1]
        rfl
      | cons u us =>
        obtain ⟨rfl, rfl⟩ := List.cons.inj he
        have : splitWhite white [] v = [] := by rw [splitWhite_white (h1 v (by simp))]; rfl
        rw [this, List.nil_append]
        exact flatMap_splitWhite.2 ⟨us, ws, pre, post, rfl, fun x hx => h1 x (List.mem_cons_of_mem _ hx), h2, h3, h4⟩

/-- **C63, requested attribute.** A request names the attribute `a` exactly when `a` is the only word among its values. -/
theorem C63_requested (con : Con F G1 G2 Gt) (cmd : Cmd) (hc : cmd = .reqAttrPk ∨ cmd = .reqAttrSk) (given : Given) (a : Str) :
    requested con cmd given = [a] ↔ OneWord con.isWhite (given .attributes) a := by
  rw [← flatMap_splitWhite]
  unfold requested
  rcases hc with rfl | rfl <;> rw [valuesOf_given rfl rfl]

/-- Two values, one of them blank: one word. -/
example : OneWord (· == ' ') [chars% "  ", chars% " aa::x "] (chars% "aa::x") :=
  ⟨[chars% "  "], [], [' '], [' '], rfl, by decide, by decide, by decide, by decide⟩

/-- **C63, requests for public attribute keys.** -/
theorem C63_reqAttrPk (con : Con F G1 G2 Gt) (given : Given) (scheme : Scheme) (lang : PolicyLanguage) (fs fs' : FS)
    (t t' : Tape F G1 G2 Gt) (h : run con .reqAttrPk given scheme lang fs t = (.ok (), fs', t')) :
    ∃ a, OneWord con.isWhite (given .attributes) a ∧ ReqAttrPkDone con given fs fs' a scheme := by
  have h1 : fileOr .reqAttrPk given .pk pkDefault = argOr given .pk (chars% "pk.key") := fileOr_argOr rfl
  have h2 : fileOr .reqAttrPk given .auSk auSkDefault = argOr given .auSk (chars% "skau.key") := fileOr_argOr rfl
  have h3 : fileOr .reqAttrPk given .pka pkaDefault = argOr given .pka (chars% "pka.key") := fileOr_argOr rfl
  have h4 : requested con .reqAttrPk given = (given .attributes).flatMap (splitWhite con.isWhite []) := by
    unfold requested
    rw [valuesOf_given rfl rfl]
  have h' : runReqAttrPk con given scheme fs t = (.ok (), fs', t') := h
  unfold runReqAttrPk at h'
  simp only [h1, h2, h3, h4] at h'
  generalize hl : (given .attributes).flatMap (splitWhite con.isWhite []) = l at h'
  match l with
  | [] => cases h'
  | _ :: _ :: _ => cases h'
  | [a] =>
    refine ⟨a, flatMap_splitWhite.1 hl, ?_⟩
    cases scheme <;> dsimp only at h' ⊢
    case mke08 =>
      obtain ⟨pk, fs1, t1, hg, hx⟩ := CM.bind_ok h'
      obtain ⟨hp, rfl, rfl⟩ := serDec_reads hg
      obtain ⟨s, fs2, t2, hg2, hx2⟩ := CM.bind_ok hx
      obtain ⟨hm, rfl, rfl⟩ := serDec_reads hg2
      obtain ⟨k, fs3, t3, hc, hx3⟩ := CM.bind_ok hx2
      obtain ⟨hd, rfl, rfl⟩ := CM.lift_ok hc
      obtain ⟨rfl, -, hr⟩ := store_reads framing_pka hx3
      exact ⟨pk, s, k, hp, hm, hd, hr⟩
    case bdabe =>
      obtain ⟨pk, fs1, t1, hg, hx⟩ := CM.bind_ok h'
      obtain ⟨hp, rfl, rfl⟩ := serDec_reads hg
      obtain ⟨s, fs2, t2, hg2, hx2⟩ := CM.bind_ok hx
      obtain ⟨hm, rfl, rfl⟩ := serDec_reads hg2
      obtain ⟨k, fs3, t3, hc, hx3⟩ := CM.bind_ok hx2
      obtain ⟨hd, rfl, rfl⟩ := CM.lift_ok hc
      obtain ⟨rfl, -, hr⟩ := store_reads framing_pka hx3
      exact ⟨pk, s, k, hp, hm, hd, hr⟩
    all_goals cases h'

/-- **C63, requests for secret attribute keys.** -/
theorem C63_reqAttrSk_partial (con : Con F G1 G2 Gt) (given : Given) (scheme : Scheme) (lang : PolicyLanguage) (fs fs' : FS)
    (t t' : Tape F G1 G2 Gt) (h : run con .reqAttrSk given scheme lang fs t = (.ok (), fs', t')) :
    ∃ a, OneWord con.isWhite (given .attributes) a ∧ ReqAttrSkDone con given fs fs' a scheme := by
  have h1 : fileOr .reqAttrSk given .sk skDefault = argOr given .sk (chars% "sk.key") := fileOr_argOr rfl
  have h2 : fileOr .reqAttrSk given .auSk auSkDefault = argOr given .auSk (chars% "skau.key") := fileOr_argOr rfl
  have h3 : fileOr .reqAttrSk given .ska skaDefault = argOr given .ska (chars% "ska.key") := fileOr_argOr rfl
  have h4 : requested con .reqAttrSk given = (given .attributes).flatMap (splitWhite con.isWhite []) := by
    unfold requested
    rw [valuesOf_given rfl rfl]
  have h' : runReqAttrSk con given scheme fs t = (.ok (), fs', t') := h
  unfold runReqAttrSk at h'
  simp only [h1, h2, h3, h4] at h'
  generalize hl : (given .attributes).flatMap (splitWhite con.isWhite []) = l at h'
  match l with
  | [] => cases h'
  | _ :: _ :: _ => cases h'
  | [a] =>
    refine ⟨a, flatMap_splitWhite.1 hl, ?_⟩
    cases scheme <;> dsimp only at h' ⊢
    case mke08 =>
      obtain ⟨u, fs1, t1, hg, hx⟩ := CM.bind_ok h'
      obtain ⟨hp, rfl, rfl⟩ := serDec_reads hg
      obtain ⟨s, fs2, t2, hg2, hx2⟩ := CM.bind_ok hx
      obtain ⟨hm, rfl, rfl⟩ := serDec_reads hg2
      obtain ⟨k, fs3, t3, hc, hx3⟩ := CM.bind_ok hx2
      obtain ⟨hd, rfl, rfl⟩ := CM.lift_ok hc
      obtain ⟨rfl, -, hr⟩ := store_reads framing_ska hx3
      exact ⟨u, s, k, hp, hm, hd, hr⟩
    case bdabe =>
      obtain ⟨u, fs1, t1, hg, hx⟩ := CM.bind_ok h'
      obtain ⟨hp, rfl, rfl⟩ := serDec_reads hg
      obtain ⟨s, fs2, t2, hg2, hx2⟩ := CM.bind_ok hx
      obtain ⟨hm, rfl, rfl⟩ := serDec_reads hg2
      refine ⟨u, s, hp, hm, ?_⟩
      cases hk : Bdabe.requestAttributeSk con.env u.pk s a with
      | ok k =>
        rw [hk] at hx2
        exact .inl ⟨k, rfl, (store_reads framing_ska hx2).2.2⟩
      | err =>
        rw [hk] at hx2
        cases hx2
        exact .inr ⟨rfl, rfl⟩
      | panic =>
        rw [hk] at hx2
        cases hx2
    all_goals cases h'

/-- **C63, decryption.** If the decryption part of `decrypt` succeeds, the plaintext is what the library returned for the
key and the ciphertext in the files. -/
theorem C63_decrypt (con : Con F G1 G2 Gt) (given : Given) (scheme : Scheme) (fs fs' : FS) (t t' : Tape F G1 G2 Gt)
    (pt : Bytes) (h : decryptPt con given scheme fs t = (.ok pt, fs', t')) :
    fs' = fs ∧ t' = t ∧ Recovers con given fs (argOr given .file []) pt scheme := by
  have h1 : fileOr .decrypt given .sk skDefault = argOr given .sk (chars% "sk.key") := fileOr_argOr rfl
  have h3 : fileOr .decrypt given .gp gpDefault = argOr given .gp (chars% "gp.key") := fileOr_argOr rfl
  have h8 : (valueOf .decrypt given .file).getD [] = argOr given .file [] := valueOf_getD rfl rfl
  have h' := h
  unfold decryptPt at h'
  simp only [h1, h3, h8] at h'
  cases scheme <;> dsimp only at h'
  case yct14 =>
    have hfmt : con.format = .cbor := by
      cases hf : con.format with
      | cbor => rfl
      | borsh => exact (C56_violated_yct14_decrypt con hf given fs fs' t t' pt h).elim
    obtain ⟨k, fs2, t2, hg2, hx2⟩ := CM.bind_ok h'
    obtain ⟨hm, rfl, rfl⟩ := serDec_reads hg2
    obtain ⟨ct, fs3, t3, hg3, hx3⟩ := CM.bind_ok hx2
    obtain ⟨hc, rfl, rfl⟩ := serDec_reads hg3
    obtain ⟨hd, rfl, rfl⟩ := CM.lift_ok hx3
    exact ⟨rfl, rfl, k, ct, hfmt, hm, hc, hd⟩
  case aw11 =>
    obtain ⟨gk, fs1, t1, hg, hx⟩ := CM.bind_ok h'
    obtain ⟨hp, rfl, rfl⟩ := serDec_reads hg
    obtain ⟨k, fs2, t2, hg2, hx2⟩ := CM.bind_ok hx
    obtain ⟨hm, rfl, rfl⟩ := serDec_reads hg2
    obtain ⟨ct, fs3, t3, hg3, hx3⟩ := CM.bind_ok hx2
    obtain ⟨hc, rfl, rfl⟩ := serDec_reads hg3
    obtain ⟨hd, rfl, rfl⟩ := CM.lift_ok hx3
    exact ⟨rfl, rfl, gk, k, ct, hp, hm, hc, hd⟩
  case mke08 =>
    obtain ⟨gk, fs1, t1, hg, hx⟩ := CM.bind_ok h'
    obtain ⟨hp, rfl, rfl⟩ := serDec_reads hg
    obtain ⟨k, fs2, t2, hg2, hx2⟩ := CM.bind_ok hx
    obtain ⟨hm, rfl, rfl⟩ := serDec_reads hg2
    obtain ⟨ct, fs3, t3, hg3, hx3⟩ := CM.bind_ok hx2
    obtain ⟨hc, rfl, rfl⟩ := serDec_reads hg3
    obtain ⟨hd, rfl, rfl⟩ := CM.lift_ok hx3
    exact ⟨rfl, rfl, gk, k, ct, hp, hm, hc, hd⟩
  case bdabe =>
    obtain ⟨gk, fs1, t1, hg, hx⟩ := CM.bind_ok h'
    obtain ⟨-, rfl, rfl⟩ := serDec_reads hg
    obtain ⟨k, fs2, t2, hg2, hx2⟩ := CM.bind_ok hx
    obtain ⟨hm, rfl, rfl⟩ := serDec_reads hg2
    obtain ⟨ct, fs3, t3, hg3, hx3⟩ := CM.bind_ok hx2
    obtain ⟨hc, rfl, rfl⟩ := serDec_reads hg3
    obtain ⟨hd, rfl, rfl⟩ := CM.lift_ok hx3
    exact ⟨rfl, rfl, k, ct, hm, hc, hd⟩
  all_goals
    obtain ⟨k, fs2, t2, hg2, hx2⟩ := CM.bind_ok h'
    obtain ⟨hm, rfl, rfl⟩ := serDec_reads hg2
    obtain ⟨ct, fs3, t3, hg3, hx3⟩ := CM.bind_ok hx2
    obtain ⟨hc, rfl, rfl⟩ := serDec_reads hg3
    obtain ⟨hd, rfl, rfl⟩ := CM.lift_ok hx3
    exact ⟨rfl, rfl, k, ct, hm, hc, hd⟩

end

/-- `setup --msk k --pk k`. -/
def sameArgs (k : Str) : Given
  | .msk => [k]
  | .pk => [k]
  | _ => []

/-- **C63 is violated: one file for two keys.** `setup` with the same name for both keys reports success, and the master
key is lost. -/
theorem C63_violated_same_file : ∃ fs' t', run toyCon .setup (sameArgs ['k']) .bsw .human toyFS toyTape = (.ok (), fs', t') ∧
    ∀ msk : Bsw.MasterKey Fr Fr, ¬ Reads toyCon fs' ['k'] msk := by
  have h : (match Bsw.setup toyEnv toyTape with
    | .ok ((pk, msk), _) => (toyCon.format.ser msk).isSome && (match toyCon.format.ser pk with
      | some bs => (toyCon.format.read (Bsw.MasterKey Fr Fr) bs).isNone
      | none => false)
    | _ => false) = true := by decide +kernel
  split at h
  · rename_i pk msk t' hset
    rw [Bool.and_eq_true] at h
    obtain ⟨h1, h2⟩ := h
    obtain ⟨bs, hbs⟩ := Option.isSome_iff_exists.1 h1
    cases hb : toyCon.format.ser pk with
    | none => rw [hb] at h2; cases h2
    | some bp =>
      rw [hb] at h2
      obtain ⟨fs1, hs1⟩ := store_some (con := toyCon) (p := ['k']) (head := mskBegin) (tail := mskEnd) hbs
        (fs := toyFS) rfl t'
      obtain ⟨-, hc, -⟩ := store_ok framing_msk hs1
      obtain ⟨fs2, hs2⟩ := store_some (con := toyCon) (p := ['k']) (head := pkBegin) (tail := pkEnd) hb
        (fs := fs1) (by rw [hc]; rfl) t'
      refine ⟨fs2, t', ?_, ?_⟩
      · show (CM.call (Bsw.setup toyEnv) >>= fun k => store toyCon ['k'] k.2 mskBegin mskEnd >>= fun _ =>
          store toyCon ['k'] k.1 pkBegin pkEnd) toyFS toyTape = _
        rw [CM.bind_of_ok (call_eq hset), CM.bind_of_ok hs1, hs2]
      · intro m hm
        obtain ⟨-, -, -, -, bs', hbs', hh⟩ := store_ok framing_pk hs2
        rw [hb] at hbs'
        cases hbs'
        have hr := hm toyTape
        rw [serDec_holds hh] at hr
        cases ht : toyCon.format.read (Bsw.MasterKey Fr Fr) bp with
        | none => rw [ht] at hr; cases hr
        | some x => dsimp only at h2; rw [ht] at h2; cases h2
  · cases h

/-- **C63 is violated: an encryption that failed.** For BSW, LSW and AW11 the `Result` of the library is stored: `encrypt`
with a policy that does not parse reports success, and the output file contains the error. -/
theorem C63_violated_result : ∃ (fs fs' : FS) (t' : Tape Fr Fr Fr Fr) (pk : Bsw.PublicKey Fr Fr Fr),
    Reads toyCon fs (chars% "pk.key") pk ∧
    Bsw.encrypt toyEnv pk (chars% "\"A\" or") .human [7] toyTape = .err ∧
    run toyCon .encrypt (encryptArgs ['f'] (chars% "\"A\" or")) .bsw .human fs toyTape = (.ok (), fs', t') ∧
    Holds toyCon fs' (chars% "f.ct") [0, 0, 0, 0, 0] := by
  obtain ⟨fs, hc, hf, -, hpk⟩ := stored toyCon pkDefault ['f'] (⟨1, 2, 3, 4, 5⟩ : Bsw.PublicKey Fr Fr Fr) [7] (by decide)
    (by decide +kernel) toyFS (by intro r; cases r <;> simp [toyFS]) (by decide) rfl toyTape
  have h : Bsw.encrypt toyEnv (⟨1, 2, 3, 4, 5⟩ : Bsw.PublicKey Fr Fr Fr) (chars% "\"A\" or") .human [7] toyTape = .err := by
    have : (match Bsw.encrypt toyEnv (⟨1, 2, 3, 4, 5⟩ : Bsw.PublicKey Fr Fr Fr) (chars% "\"A\" or") .human [7] toyTape with
      | .err => true
      | _ => false) = true := by decide +kernel
    split at this
    · assumption
    · cases this
  have hbs : toyCon.format.serResult toyCon.errText (none : Option (Bsw.Ciphertext Fr Fr Fr)) = some [0, 0, 0, 0, 0] := by
    decide +kernel
  obtain ⟨fs', hs⟩ := storeResult_some (con := toyCon) (p := chars% "f.ct") (head := ctBegin) (tail := ctEnd) hbs
      ((hc _).2 (by decide)) toyTape
  refine ⟨fs, fs', toyTape, _, hpk, h, ?_, ?_⟩
  · show (CM.readToVec ['f'] >>= fun b => serDec (Bsw.PublicKey Fr Fr Fr) toyCon pkDefault >>= fun p =>
      CM.callTry (Bsw.encrypt toyEnv p (chars% "\"A\" or") .human b) >>= fun ct =>
        storeResult toyCon (chars% "f.ct") ct ctBegin ctEnd) fs toyTape = _
    have ht : CM.callTry (Bsw.encrypt toyEnv (⟨1, 2, 3, 4, 5⟩ : Bsw.PublicKey Fr Fr Fr) (chars% "\"A\" or") .human [7]) fs
        toyTape = (.ok none, fs, toyTape) := by
      unfold CM.callTry
      rw [h]
    rw [CM.bind_of_ok (readToVec_eq hf _), CM.bind_of_ok (hpk _), CM.bind_of_ok ht, hs]
  · obtain ⟨-, -, -, -, bs, hb, hh⟩ := storeResult_ok framing_ct hs
    rw [hbs] at hb
    cases hb
    exact hh

/-- A set-up as supposed in `C63_setup_partial`: afterwards the files contain the keys of the library. -/
example : ∃ fs' t' pk msk, run toyCon .setup noArgs .bsw .human toyFS toyTape = (.ok (), fs', t') ∧
    Bsw.setup toyEnv toyTape = .ok ((pk, msk), t') ∧ Reads toyCon fs' (chars% "msk.key") msk ∧
    Reads toyCon fs' (chars% "pk.key") pk := by
  have h : (match Bsw.setup toyEnv toyTape with
    | .ok ((pk, msk), _) => (toyCon.format.ser msk).isSome && (toyCon.format.ser pk).isSome
    | _ => false) = true := by decide +kernel
  split at h
  · rename_i pk msk t' hset
    rw [Bool.and_eq_true] at h
    obtain ⟨bs, hbs⟩ := Option.isSome_iff_exists.1 h.1
    obtain ⟨bp, hbp⟩ := Option.isSome_iff_exists.1 h.2
    obtain ⟨fs', hs⟩ := store2_some (con := toyCon) (h2 := pkBegin) (e2 := pkEnd) (fs := toyFS) (p := mskDefault)
      (q := pkDefault) framing_msk hbs hbp rfl rfl t'
    have hrun : run toyCon .setup noArgs .bsw .human toyFS toyTape = (.ok (), fs', t') := by
      show (CM.call (Bsw.setup toyEnv) >>= fun k => store toyCon mskDefault k.2 mskBegin mskEnd >>= fun _ =>
          store toyCon pkDefault k.1 pkBegin pkEnd) toyFS toyTape = _
      rw [CM.bind_of_ok (call_eq hset)]
      exact hs
    obtain ⟨pk', msk', h1, h2⟩ := C63_setup_partial toyCon noArgs .bsw .human _ _ _ _ (by decide) hrun
    exact ⟨fs', t', pk', msk', hrun, h1, h2⟩
  · cases h

/-- A request as supposed in `C63_reqAttrPk`, for MKE08. -/
example : ∃ (fs fs' : FS) (t' : Tape Fr Fr Fr Fr),
    run toyCon .reqAttrPk (requestArgs (chars% "aa::x")) .mke08 .human fs toyTape = (.ok (), fs', t') ∧
    ReqAttrPkDone toyCon (requestArgs (chars% "aa::x")) fs fs' (chars% "aa::x") .mke08 := by
  have hx : (toyCon.format.ser (⟨1, 2, 3, 4, 5, 6⟩ : Mke08.PublicKey Fr Fr Fr)).isSome = true := by decide +kernel
  have hy : (toyCon.format.ser (⟨chars% "aa", 1⟩ : Mke08.SecretAuthorityKey Fr)).isSome = true := by decide +kernel
  obtain ⟨bx, hbx⟩ := Option.isSome_iff_exists.1 hx
  obtain ⟨byt, hby⟩ := Option.isSome_iff_exists.1 hy
  obtain ⟨fs, h⟩ := store2_some (con := toyCon) (h2 := auSkBegin) (e2 := auSkEnd) (fs := toyFS) (p := pkDefault)
    (q := auSkDefault) framing_pk hbx hby rfl rfl toyTape
  obtain ⟨-, hcr, ho, ⟨bx', hbx', h1⟩, by', hby', h2⟩ := store2_ok framing_pk framing_auSk (by decide) h
  have hk : (match Mke08.requestAuthorityPk toyEnv (⟨1, 2, 3, 4, 5, 6⟩ : Mke08.PublicKey Fr Fr Fr) (chars% "aa::x")
      (⟨chars% "aa", 1⟩ : Mke08.SecretAuthorityKey Fr) with
    | .ok a => (toyCon.format.ser a).isSome
    | _ => false) = true := by decide +kernel
  split at hk
  · rename_i a ha
    obtain ⟨ba, hba⟩ := Option.isSome_iff_exists.1 hk
    obtain ⟨fs', hs⟩ := store_some (con := toyCon) (p := pkaDefault) (head := pkaBegin) (tail := pkaEnd) hba
      (fs := fs) (by rw [hcr]; rfl) toyTape
    have hrun : run toyCon .reqAttrPk (requestArgs (chars% "aa::x")) .mke08 .human fs toyTape = (.ok (), fs', toyTape) := by
      show runReqAttrPk toyCon (requestArgs (chars% "aa::x")) .mke08 fs toyTape = _
      have hq : requested toyCon .reqAttrPk (requestArgs (chars% "aa::x")) = [chars% "aa::x"] := by decide
      unfold runReqAttrPk
      simp only [hq]
      have e1 : serDec (Mke08.PublicKey Fr Fr Fr) toyCon
        (fileOr .reqAttrPk (requestArgs (chars% "aa::x")) .pk pkDefault) fs toyTape = _ := serDec_of_ser hbx' h1 toyTape
      have e2 : serDec (Mke08.SecretAuthorityKey Fr) toyCon
        (fileOr .reqAttrPk (requestArgs (chars% "aa::x")) .auSk auSkDefault) fs toyTape = _ := serDec_of_ser hby' h2 toyTape
      have e3 : CM.lift (Mke08.requestAuthorityPk toyCon.env (⟨1, 2, 3, 4, 5, 6⟩ : Mke08.PublicKey Fr Fr Fr) (chars% "aa::x")
        (⟨chars% "aa", 1⟩ : Mke08.SecretAuthorityKey Fr)) fs toyTape = (.ok a, fs, toyTape) := by
        unfold CM.lift
        rw [show Mke08.requestAuthorityPk toyCon.env _ _ _ = _ from ha]
      rw [CM.bind_of_ok e1, CM.bind_of_ok e2, CM.bind_of_ok e3]
      exact hs
    refine ⟨fs, fs', toyTape, hrun, ?_⟩
    obtain ⟨b, hb, hd⟩ := C63_reqAttrPk toyCon _ _ _ _ _ _ _ hrun
    have : (requestArgs (chars% "aa::x") .attributes).flatMap (splitWhite toyCon.isWhite []) = [chars% "aa::x"] := by decide
    rw [flatMap_splitWhite.2 hb] at this
    cases this
    exact hd
  · cases hk

/-- A key generation as supposed in `C63_keygen_partial`, for MKE08. -/
example : ∃ (fs fs' : FS) (t' : Tape Fr Fr Fr Fr),
    run toyCon .keygen (authgenArgs ['u']) .mke08 .human fs toyTape = (.ok (), fs', t') ∧
    KeygenDone toyCon (authgenArgs ['u']) .human fs fs' toyTape t' .mke08 := by
  have hx : (toyCon.format.ser (⟨1, 2, 3, 4, 5, 6⟩ : Mke08.PublicKey Fr Fr Fr)).isSome = true := by decide +kernel
  have hy : (toyCon.format.ser (⟨1, 2⟩ : Mke08.MasterKey Fr Fr)).isSome = true := by decide +kernel
  obtain ⟨bx, hbx⟩ := Option.isSome_iff_exists.1 hx
  obtain ⟨byt, hby⟩ := Option.isSome_iff_exists.1 hy
  obtain ⟨fs, h⟩ := store2_some (con := toyCon) (h2 := mskBegin) (e2 := mskEnd) (fs := toyFS) (p := pkDefault)
    (q := mskDefault) framing_pk hbx hby rfl rfl toyTape
  obtain ⟨-, hcr, ho, ⟨bx', hbx', h1⟩, by', hby', h2⟩ := store2_ok framing_pk framing_msk (by decide) h
  have hk : (match Mke08.keygen (F := Fr) (⟨1, 2, 3, 4, 5, 6⟩ : Mke08.PublicKey Fr Fr Fr)
      (⟨1, 2⟩ : Mke08.MasterKey Fr Fr) ['u'] toyTape with
    | .ok (a, _) => (toyCon.format.ser a).isSome
    | _ => false) = true := by decide +kernel
  split at hk
  · rename_i a t' ha
    obtain ⟨ba, hba⟩ := Option.isSome_iff_exists.1 hk
    obtain ⟨fs', hs⟩ := store_some (con := toyCon) (p := chars% "u.key") (head := skBegin) (tail := skEnd) hba
      (fs := fs) (by rw [hcr]; rfl) t'
    have hrun : run toyCon .keygen (authgenArgs ['u']) .mke08 .human fs toyTape = (.ok (), fs', t') := by
      show (serDec (Mke08.PublicKey Fr Fr Fr) toyCon pkDefault >>= fun p =>
        serDec (Mke08.MasterKey Fr Fr) toyCon mskDefault >>= fun m =>
        CM.call (Mke08.keygen (F := Fr) p m ['u']) >>= fun k => store toyCon (chars% "u.key") k skBegin skEnd) fs toyTape = _
      rw [CM.bind_of_ok (serDec_of_ser hbx' h1 toyTape), CM.bind_of_ok (serDec_of_ser hby' h2 toyTape),
        CM.bind_of_ok (call_eq ha), hs]
    exact ⟨fs, fs', t', hrun, C63_keygen_partial toyCon _ _ _ _ _ _ _ hrun⟩
  · cases hk

/-- A decryption as supposed in `C63_decrypt`, for BSW. -/
example : ∃ (fs : FS), decryptPt toyCon (decryptArgs ['c']) .bsw fs toyTape = (.ok [7], fs, toyTape) ∧
    Recovers toyCon (decryptArgs ['c']) fs ['c'] [7] .bsw := by
  have hk : (match Bsw.setup toyEnv toyTape with
    | .ok ((pk, msk), t1) => match Bsw.keygen toyEnv pk msk [['A']] t1 with
      | .ok (some sk, t2) => match Bsw.encrypt toyEnv pk (chars% "\"A\" or \"B\"") .human [7] t2 with
        | .ok (ct, _) => (toyCon.format.ser sk).isSome && (toyCon.format.ser ct).isSome && (Bsw.decrypt toyEnv sk ct == .ok [7])
        | _ => false
      | _ => false
    | _ => false) = true := by decide +kernel
  split at hk
  · split at hk
    · rename_i sk _ _
      split at hk
      · rename_i ct _ _
        rw [Bool.and_eq_true, Bool.and_eq_true] at hk
        obtain ⟨⟨h1, h2⟩, h3⟩ := hk
        obtain ⟨bx, hbx⟩ := Option.isSome_iff_exists.1 h1
        obtain ⟨byt, hby⟩ := Option.isSome_iff_exists.1 h2
        obtain ⟨fs, h⟩ := store2_some (con := toyCon) (h2 := ctBegin) (e2 := ctEnd) (fs := toyFS) (p := skDefault)
          (q := ['c']) framing_sk hbx hby rfl rfl toyTape
        obtain ⟨-, hcr, ho, ⟨bx', hbx', h4⟩, by', hby', h5⟩ := store2_ok framing_sk framing_ct (by decide) h
        have hrun : decryptPt toyCon (decryptArgs ['c']) .bsw fs toyTape = (.ok [7], fs, toyTape) := by
          show (serDec (Bsw.SecretKey Fr Fr) toyCon skDefault >>= fun k =>
            serDec (Bsw.Ciphertext Fr Fr Fr) toyCon ['c'] >>= fun c => CM.lift (Bsw.decrypt toyEnv k c)) fs toyTape = _
          rw [CM.bind_of_ok (serDec_of_ser hbx' h4 toyTape), CM.bind_of_ok (serDec_of_ser hby' h5 toyTape), eq_of_beq h3]
          rfl
        exact ⟨fs, hrun, (C63_decrypt toyCon _ _ _ _ _ _ _ hrun).2.2⟩
      · cases hk
    · cases hk
  · cases hk

end Rabe
