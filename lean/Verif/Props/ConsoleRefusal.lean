import Verif.Props.ConsoleObjects
import Verif.Props.Main
import Verif.Props.ConsoleFiles

/-!
# C87: what the console does with a refusal of the library
-/

namespace Rabe

open Console

set_option linter.unusedSectionVars false

section
variable {F G1 G2 Gt : Type} [Field F] [DecidableEq F] [AddCommGroup G1] [Module F G1]
  [AddCommGroup G2] [Module F G2] [AddCommGroup Gt] [Module F Gt]
  [Borsh F] [Serde F] [Borsh G1] [Serde G1] [Borsh G2] [Serde G2] [Borsh Gt] [Serde Gt]

/-- The files named on the command line hold the objects that `keygen` needs, and the library refuses to make a key from
them (`Err`, for BSW `None`). The other schemes never refuse. -/
def KeygenRefused (con : Con F G1 G2 Gt) (given : Given) (lang : PolicyLanguage) (fs : FS) (t : Tape F G1 G2 Gt) :
    Scheme → Prop
  | .ac17cp => ∃ msk : Ac17.MasterKey F G1 G2, Reads con fs (argOr given .msk (chars% "msk.key")) msk ∧
      Ac17.cpKeygen con.env msk (given .attributes) t = .err
  | .ac17kp => ∃ msk : Ac17.MasterKey F G1 G2, Reads con fs (argOr given .msk (chars% "msk.key")) msk ∧
      Ac17.kpKeygen con.env msk (argOr given .policy []) lang t = .err
  | .bsw => ∃ (pk : Bsw.PublicKey G1 G2 Gt) (msk : Bsw.MasterKey F G2) (t' : Tape F G1 G2 Gt),
      Reads con fs (argOr given .pk (chars% "pk.key")) pk ∧ Reads con fs (argOr given .msk (chars% "msk.key")) msk ∧
      Bsw.keygen con.env pk msk (given .attributes) t = .ok (none, t')
  | .lsw => ∃ (pk : Lsw.PublicKey G1 G2 Gt) (msk : Lsw.MasterKey F G1 G2),
      Reads con fs (argOr given .pk (chars% "pk.key")) pk ∧ Reads con fs (argOr given .msk (chars% "msk.key")) msk ∧
      Lsw.keygen con.env pk msk (argOr given .policy []) lang t = .err
  | .aw11 => ∃ (gk : Aw11.GlobalKey G1 G2) (msk : Aw11.MasterKey F),
      Reads con fs (argOr given .gp (chars% "gp.key")) gk ∧ Reads con fs (argOr given .msk (chars% "msk.key")) msk ∧
      Aw11.keygen con.cm con.env gk msk (((given .name).head?).getD []) (given .attributes) = .err
  | .yct14 => ∃ (pk : Yct14.PublicKey F Gt) (msk : Yct14.MasterKey F Gt),
      Reads con fs (argOr given .pk (chars% "pk.key")) pk ∧ Reads con fs (argOr given .msk (chars% "msk.key")) msk ∧
      Yct14.keygen (G1 := G1) (G2 := G2) msk (argOr given .policy []) lang t = .err
  | _ => False

/-- The same for `encrypt`. -/
def EncryptRefused (con : Con F G1 G2 Gt) (given : Given) (lang : PolicyLanguage) (fs : FS) (t : Tape F G1 G2 Gt)
    (pt : Bytes) : Scheme → Prop
  | .ac17cp => ∃ pk : Ac17.PublicKey G1 G2 Gt, Reads con fs (argOr given .pk (chars% "pk.key")) pk ∧
      Ac17.cpEncrypt con.env pk (argOr given .policy []) pt lang t = .err
  | .bsw => ∃ pk : Bsw.PublicKey G1 G2 Gt, Reads con fs (argOr given .pk (chars% "pk.key")) pk ∧
      Bsw.encrypt con.env pk (argOr given .policy []) lang pt t = .err
  | .lsw => ∃ pk : Lsw.PublicKey G1 G2 Gt, Reads con fs (argOr given .pk (chars% "pk.key")) pk ∧
      Lsw.encrypt con.env pk (given .attributes) pt t = .err
  | .aw11 => ∃ (gk : Aw11.GlobalKey G1 G2) (pk : Aw11.PublicKey G2 Gt), Reads con fs (argOr given .gp (chars% "gp.key")) gk ∧
      Reads con fs (argOr given .pk (chars% "pk.key")) pk ∧
      Aw11.encrypt con.cm con.env gk [pk] (argOr given .policy []) lang pt t = .err
  | .yct14 => ∃ pk : Yct14.PublicKey F Gt, Reads con fs (argOr given .pk (chars% "pk.key")) pk ∧
      Yct14.encrypt con.env pk (given .attributes) pt t = .err
  | _ => False

/-- The same for `decrypt`. -/
def DecryptRefused (con : Con F G1 G2 Gt) (given : Given) (fs : FS) : Scheme → Prop
  | .ac17cp => ∃ (sk : Ac17.CpSecretKey G1 G2) (ct : Ac17.CpCiphertext G1 G2 Gt),
      Reads con fs (argOr given .sk (chars% "sk.key")) sk ∧ Reads con fs (argOr given .file []) ct ∧
      Ac17.cpDecrypt con.env sk ct = .err
  | .ac17kp => ∃ (sk : Ac17.KpSecretKey G1 G2) (ct : Ac17.KpCiphertext G1 G2 Gt),
      Reads con fs (argOr given .sk (chars% "sk.key")) sk ∧ Reads con fs (argOr given .file []) ct ∧
      Ac17.kpDecrypt con.env sk ct = .err
  | .bsw => ∃ (sk : Bsw.SecretKey G1 G2) (ct : Bsw.Ciphertext G1 G2 Gt),
      Reads con fs (argOr given .sk (chars% "sk.key")) sk ∧ Reads con fs (argOr given .file []) ct ∧
      Bsw.decrypt con.env sk ct = .err
  | .lsw => ∃ (sk : Lsw.SecretKey G1 G2) (ct : Lsw.Ciphertext G1 G2 Gt),
      Reads con fs (argOr given .sk (chars% "sk.key")) sk ∧ Reads con fs (argOr given .file []) ct ∧
      Lsw.decrypt con.env sk ct = .err
  | .aw11 => ∃ (gk : Aw11.GlobalKey G1 G2) (sk : Aw11.SecretKey G1) (ct : Aw11.Ciphertext G2 Gt),
      Reads con fs (argOr given .gp (chars% "gp.key")) gk ∧
      Reads con fs (argOr given .sk (chars% "sk.key")) sk ∧ Reads con fs (argOr given .file []) ct ∧
      Aw11.decrypt con.env gk sk ct = .err
  | .bdabe => ∃ (pk : Bdabe.PublicKey G1 G2 Gt) (sk : Bdabe.UserKey G1 G2) (ct : Bdabe.Ciphertext G1 G2 Gt),
      Reads con fs (fileOr .decrypt given .pk (chars% "pk.key")) pk ∧
      Reads con fs (argOr given .sk (chars% "sk.key")) sk ∧ Reads con fs (argOr given .file []) ct ∧
      Bdabe.decrypt con.env con.one sk ct = .err
  | .mke08 => ∃ (pk : Mke08.PublicKey G1 G2 Gt) (sk : Mke08.UserKey G1 G2) (ct : Mke08.Ciphertext G1 G2 Gt),
      Reads con fs (argOr given .gp (chars% "gp.key")) pk ∧
      Reads con fs (argOr given .sk (chars% "sk.key")) sk ∧ Reads con fs (argOr given .file []) ct ∧
      Mke08.decrypt con.env con.one sk ct = .err
  | .yct14 => ∃ (sk : Yct14.SecretKey F Gt) (ct : Yct14.Ciphertext F Gt),
      Reads con fs (argOr given .sk (chars% "sk.key")) sk ∧ Reads con fs (argOr given .file []) ct ∧
      Yct14.decrypt con.env sk ct = .err

theorem call_err {α : Type} {m : RM F G1 G2 Gt α} {fs : FS} {t : Tape F G1 G2 Gt} (h : m t = .err) :
    CM.call m fs t = (.err, fs, t) := by unfold CM.call; rw [h]

theorem callUnwrap_err {α : Type} {m : RM F G1 G2 Gt α} {fs : FS} {t : Tape F G1 G2 Gt} (h : m t = .err) :
    CM.callUnwrap m fs t = (.panic, fs, t) := by unfold CM.callUnwrap; rw [h]

theorem callTry_err {α : Type} {m : RM F G1 G2 Gt α} {fs : FS} {t : Tape F G1 G2 Gt} (h : m t = .err) :
    CM.callTry m fs t = (.ok none, fs, t) := by unfold CM.callTry; rw [h]

/-- The program named on the command line. -/
abbrev status (con : Con F G1 G2 Gt) (cmd : Cmd) (given : Given) (scheme : Scheme) (lang : PolicyLanguage) (fs : FS)
    (t : Tape F G1 G2 Gt) : ℕ × FS × Tape F G1 G2 Gt :=
  main con (some scheme.text) (some (langText lang)) (some (cmd.text, given)) fs t

theorem keygen_refused (con : Con F G1 G2 Gt) (given : Given) (scheme : Scheme) (lang : PolicyLanguage) (fs : FS)
    (t : Tape F G1 G2 Gt) (h : KeygenRefused con given lang fs t scheme) :
    (run con .keygen given scheme lang fs t).1 = .panic ∧ (run con .keygen given scheme lang fs t).2.1 = fs := by
  have h1 : fileOr .keygen given .msk mskDefault = argOr given .msk (chars% "msk.key") := fileOr_argOr rfl
  have h2 : fileOr .keygen given .pk pkDefault = argOr given .pk (chars% "pk.key") := fileOr_argOr rfl
  have h3 : fileOr .keygen given .gp gpDefault = argOr given .gp (chars% "gp.key") := fileOr_argOr rfl
  have h6 : valueOf .keygen given .name = (given .name).head? := valueOf_name rfl
  have h7 : valuesOf .keygen given .attributes = given .attributes := valuesOf_given rfl rfl
  have h8 : (valueOf .keygen given .policy).getD [] = argOr given .policy [] := valueOf_getD rfl rfl
  have hrun : run con .keygen given scheme lang fs t = runKeygen con given scheme lang fs t := rfl
  rw [hrun]
  unfold runKeygen
  simp only [h1, h2, h3, h6, h7, h8]
  cases scheme <;> dsimp only [KeygenRefused] at h ⊢
  case ac17cp =>
    obtain ⟨msk, hm, hr⟩ := h
    rw [CM.bind_of_ok (a := msk) (fs1 := fs) (t1 := t) (by rw [hm t]), CM.bind_of_panic (callUnwrap_err hr)]
    exact ⟨rfl, rfl⟩
  case ac17kp =>
    obtain ⟨msk, hm, hr⟩ := h
    rw [CM.bind_of_ok (hm t), CM.bind_of_panic (callUnwrap_err hr)]
    exact ⟨rfl, rfl⟩
  case aw11 =>
    obtain ⟨gk, msk, hg, hm, hr⟩ := h
    rw [CM.bind_of_ok (hg t), CM.bind_of_ok (hm t), hr]
    exact ⟨rfl, rfl⟩
  case bsw =>
    obtain ⟨pk, msk, t', hp, hm, hr⟩ := h
    rw [CM.bind_of_ok (hp t), CM.bind_of_ok (hm t), CM.bind_of_ok (call_eq hr)]
    exact ⟨rfl, rfl⟩
  case lsw =>
    obtain ⟨pk, msk, hp, hm, hr⟩ := h
    rw [CM.bind_of_ok (hp t), CM.bind_of_ok (hm t), CM.bind_of_panic (callUnwrap_err hr)]
    exact ⟨rfl, rfl⟩
  case yct14 =>
    obtain ⟨pk, msk, hp, hm, hr⟩ := h
    rw [CM.bind_of_ok (hp t), CM.bind_of_ok (hm t), CM.bind_of_panic (callUnwrap_err hr)]
    exact ⟨rfl, rfl⟩

/-- **C87 is violated: `keygen`.** If the library refuses to make a key, the program does not report an error but aborts
(status 101), in all six schemes whose key generation can refuse. No file is changed. -/
theorem C87_violated_keygen (con : Con F G1 G2 Gt) (given : Given) (scheme : Scheme) (lang : PolicyLanguage) (fs : FS)
    (t : Tape F G1 G2 Gt) (h : KeygenRefused con given lang fs t scheme) :
    (status con .keygen given scheme lang fs t).1 = 101 ∧ (status con .keygen given scheme lang fs t).2.1 = fs := by
  obtain ⟨h1, -, -, h4⟩ := C82_exit_partial con scheme lang .keygen given fs t
  obtain ⟨h2, h3⟩ := keygen_refused con given scheme lang fs t h
  exact ⟨h4.2 h2, (congrArg Prod.fst h1).trans h3⟩

theorem encrypt_args (given : Given) :
    valuesOf .encrypt given .pk = (if given .pk = [] then [chars% "pk.key"] else given .pk) := by
  unfold valuesOf
  simp only [declare]
  cases given .pk <;> rfl

theorem encrypt_one {given : Given} (h : (given .pk).length ≤ 1) :
    (if given .pk = [] then [chars% "pk.key"] else given .pk) = [argOr given .pk (chars% "pk.key")] := by
  unfold argOr
  match hg : given .pk with
  | [] => rfl
  | [x] => rfl
  | _ :: _ :: _ => rw [hg] at h; simp at h

/-- **C87 is violated: `encrypt`.** If the library refuses to encrypt, the program of BSW, LSW and AW11 reports success
(status 0) and stores the error in the place of the ciphertext. -/
theorem C87_violated_encrypt (con : Con F G1 G2 Gt) (given : Given) (scheme : Scheme) (lang : PolicyLanguage)
    (hs : scheme ∈ [Scheme.bsw, .lsw, .aw11]) (fs : FS) (t : Tape F G1 G2 Gt) (f : Str) (pt : Bytes)
    (hf : (given .file).head? = some f) (hpt : fs.file f = some pt) (hk : (given .pk).length ≤ 1)
    (hc : fs.creatable (f ++ chars% ".ct") = true) (bs : Bytes)
    (hb : con.format.serResult con.errText (none : Option G1) = some bs)
    (h : EncryptRefused con given lang fs t pt scheme) :
    (status con .encrypt given scheme lang fs t).1 = 0 ∧
    Holds con (status con .encrypt given scheme lang fs t).2.1 (f ++ chars% ".ct") bs := by
  obtain ⟨q, hq⟩ := valueOf_encrypt_pk given
  have h1 := (encrypt_args given).trans (encrypt_one hk)
  have h3 : fileOr .encrypt given .gp gpDefault = argOr given .gp (chars% "gp.key") := fileOr_argOr rfl
  have h4 : valueOf .encrypt given .file = (given .file).head? := by
    unfold valueOf
    rw [valuesOf_given rfl rfl]
  have h7 : valuesOf .encrypt given .attributes = given .attributes := valuesOf_given rfl rfl
  have h8 : (valueOf .encrypt given .policy).getD [] = argOr given .policy [] := valueOf_getD rfl rfl
  have hstore : ∀ {α : Type} [Borsh α] [Serde α], ∃ fs', storeResult con (f ++ chars% ".ct") (none : Option α) ctBegin ctEnd fs t =
      (.ok (), fs', t) ∧ Holds con fs' (f ++ chars% ".ct") bs := by
    intro α _ _
    have hb' : con.format.serResult con.errText (none : Option α) = some bs := by
      rw [← hb]
      cases con.format <;> rfl
    have hw : storeResult con (f ++ chars% ".ct") (none : Option α) ctBegin ctEnd fs t =
        (.ok (), fs.write (f ++ chars% ".ct") (utf8 (ctBegin ++ toHex (con.deflate bs) ++ ctEnd)) hc, t) := by
      unfold storeResult encBytes
      rw [hb', CM.bind_of_ok (a := ctBegin ++ toHex (con.deflate bs) ++ ctEnd) (fs1 := fs) (t1 := t) rfl]
      unfold CM.writeFile
      rw [dif_pos hc]
    obtain ⟨-, -, -, -, bs', hb2, hh⟩ := storeResult_ok framing_ct hw
    rw [hb'] at hb2
    cases hb2
    exact ⟨_, hw, hh⟩
  have key : ∃ fs', run con .encrypt given scheme lang fs t = (.ok (), fs', t) ∧ Holds con fs' (f ++ chars% ".ct") bs := by
    have hrun : run con .encrypt given scheme lang fs t = runEncrypt con given scheme lang fs t := rfl
    rw [hrun]
    unfold runEncrypt
    simp only [hq, h1, h3, h4, h7, h8, hf]
    rw [CM.bind_of_ok (readToVec_eq (by simpa using hpt) t)]
    simp only [List.mem_cons, List.not_mem_nil, or_false] at hs
    rcases hs with rfl | rfl | rfl
    · obtain ⟨pk, hp, hr⟩ := h
      obtain ⟨fs', e1, e2⟩ := hstore (α := Bsw.Ciphertext G1 G2 Gt)
      refine ⟨fs', ?_, e2⟩
      dsimp only
      rw [CM.bind_of_ok (hp t), CM.bind_of_ok (callTry_err hr), e1]
    · obtain ⟨pk, hp, hr⟩ := h
      obtain ⟨fs', e1, e2⟩ := hstore (α := Lsw.Ciphertext G1 G2 Gt)
      refine ⟨fs', ?_, e2⟩
      dsimp only
      rw [CM.bind_of_ok (hp t), CM.bind_of_ok (callTry_err hr), e1]
    · obtain ⟨gk, pk, hg, hp, hr⟩ := h
      obtain ⟨fs', e1, e2⟩ := hstore (α := Aw11.Ciphertext G2 Gt)
      refine ⟨fs', ?_, e2⟩
      dsimp only
      have hall : serDecAll (Aw11.PublicKey G2 Gt) con [argOr given .pk (chars% "pk.key")] fs t = (.ok [pk], fs, t) := by
        unfold serDecAll
        rw [CM.bind_of_ok (hp t)]
        rfl
      rw [CM.bind_of_ok (hg t), CM.bind_of_ok hall, CM.bind_of_ok (callTry_err hr), e1]
  obtain ⟨fs', e1, e2⟩ := key
  obtain ⟨g1, g2, -⟩ := C82_exit_partial con scheme lang .encrypt given fs t
  refine ⟨g2.2 (by rw [e1]), ?_⟩
  rw [show (status con .encrypt given scheme lang fs t).2.1 = fs' from by rw [g1, e1]]
  exact e2

/-- **C87, partial: `encrypt`.** For AC17CP and YCT14 a refusal is reported with status 1, and no file is changed.
(Full claim: for all schemes and commands; false, see `C87_violated_encrypt`, `C87_violated_keygen` and
`C62_violated`.) -/
theorem C87_encrypt_partial (con : Con F G1 G2 Gt) (given : Given) (scheme : Scheme) (lang : PolicyLanguage)
    (hs : scheme ∈ [Scheme.ac17cp, .yct14]) (fs : FS) (t : Tape F G1 G2 Gt) (f : Str) (pt : Bytes)
    (hf : (given .file).head? = some f) (hpt : fs.file f = some pt) (hk : (given .pk).length ≤ 1)
    (h : EncryptRefused con given lang fs t pt scheme) :
    (status con .encrypt given scheme lang fs t).1 = 1 ∧ (status con .encrypt given scheme lang fs t).2.1 = fs := by
  obtain ⟨q, hq⟩ := valueOf_encrypt_pk given
  have h1 := (encrypt_args given).trans (encrypt_one hk)
  have h4 : valueOf .encrypt given .file = (given .file).head? := by
    unfold valueOf
    rw [valuesOf_given rfl rfl]
  have h7 : valuesOf .encrypt given .attributes = given .attributes := valuesOf_given rfl rfl
  have h8 : (valueOf .encrypt given .policy).getD [] = argOr given .policy [] := valueOf_getD rfl rfl
  have key : run con .encrypt given scheme lang fs t = (.err, fs, t) := by
    have hrun : run con .encrypt given scheme lang fs t = runEncrypt con given scheme lang fs t := rfl
    rw [hrun]
    unfold runEncrypt
    simp only [hq, h1, h4, h7, h8, hf]
    rw [CM.bind_of_ok (readToVec_eq (by simpa using hpt) t)]
    simp only [List.mem_cons, List.not_mem_nil, or_false] at hs
    rcases hs with rfl | rfl
    · obtain ⟨pk, hp, hr⟩ := h
      dsimp only
      rw [CM.bind_of_ok (hp t), CM.bind_of_err (call_err hr)]
    · obtain ⟨pk, hp, hr⟩ := h
      dsimp only
      rw [CM.bind_of_ok (hp t), CM.bind_of_err (call_err hr)]
  obtain ⟨g1, -, g3, -⟩ := C82_exit_partial con scheme lang .encrypt given fs t
  rw [key] at g1 g3
  exact ⟨g3.2 rfl, by rw [g1]⟩

/-- **C87, decryption.** In every scheme a refusal is reported with status 1, and no file is changed. -/
theorem C87_decrypt (con : Con F G1 G2 Gt) (given : Given) (scheme : Scheme) (lang : PolicyLanguage) (fs : FS)
    (t : Tape F G1 G2 Gt) (h : DecryptRefused con given fs scheme) :
    (status con .decrypt given scheme lang fs t).1 = 1 ∧ (status con .decrypt given scheme lang fs t).2.1 = fs := by
  have h1 : fileOr .decrypt given .sk skDefault = argOr given .sk (chars% "sk.key") := fileOr_argOr rfl
  have h3 : fileOr .decrypt given .gp gpDefault = argOr given .gp (chars% "gp.key") := fileOr_argOr rfl
  have h8 : (valueOf .decrypt given .file).getD [] = argOr given .file [] := valueOf_getD rfl rfl
  have key : decryptPt con given scheme fs t = (.err, fs, t) := by
    unfold decryptPt
    simp only [h1, h3, h8]
    cases scheme <;> dsimp only [DecryptRefused] at h ⊢
    case aw11 =>
      obtain ⟨gk, sk, ct, hg, hk, hc, hr⟩ := h
      rw [CM.bind_of_ok (hg t), CM.bind_of_ok (hk t), CM.bind_of_ok (hc t), hr]
      rfl
    case bdabe =>
      obtain ⟨gk, sk, ct, hg, hk, hc, hr⟩ := h
      have hg' : serDec (Bdabe.PublicKey G1 G2 Gt) con (fileOr .decrypt given .pk pkDefault) fs t = (.ok gk, fs, t) := hg t
      rw [CM.bind_of_ok hg', CM.bind_of_ok (hk t), CM.bind_of_ok (hc t), hr]
      rfl
    case mke08 =>
      obtain ⟨gk, sk, ct, hg, hk, hc, hr⟩ := h
      rw [CM.bind_of_ok (hg t), CM.bind_of_ok (hk t), CM.bind_of_ok (hc t), hr]
      rfl
    all_goals
      obtain ⟨sk, ct, hk, hc, hr⟩ := h
      rw [CM.bind_of_ok (hk t), CM.bind_of_ok (hc t), hr]
      rfl
  have hrun : run con .decrypt given scheme lang fs t = (.err, fs, t) := CM.bind_of_err key
  obtain ⟨g1, -, g3, -⟩ := C82_exit_partial con scheme lang .decrypt given fs t
  rw [hrun] at g1 g3
  exact ⟨g3.2 rfl, by rw [g1]⟩

/-- **C87, requests and delegation.** A refused request for a public attribute key, for a secret attribute key of MKE08, a
refused delegation in BSW and a refused set-up of an AW11 authority are reported with status 1, and no file is changed. For
secret attribute keys of BDABE see `C62_violated`. -/
theorem C87_requests_partial (con : Con F G1 G2 Gt) (given : Given) (lang : PolicyLanguage) (fs : FS)
    (t : Tape F G1 G2 Gt) (attr : Str) :
    (∀ (pk : Mke08.PublicKey G1 G2 Gt) (s : Mke08.SecretAuthorityKey F), requested con .reqAttrPk given = [attr] →
      Reads con fs (argOr given .pk (chars% "pk.key")) pk → Reads con fs (argOr given .auSk (chars% "skau.key")) s →
      Mke08.requestAuthorityPk con.env pk attr s = .err →
      (status con .reqAttrPk given .mke08 lang fs t).1 = 1 ∧ (status con .reqAttrPk given .mke08 lang fs t).2.1 = fs) ∧
    (∀ (pk : Bdabe.PublicKey G1 G2 Gt) (s : Bdabe.SecretAuthorityKey F G1 G2), requested con .reqAttrPk given = [attr] →
      Reads con fs (argOr given .pk (chars% "pk.key")) pk → Reads con fs (argOr given .auSk (chars% "skau.key")) s →
      Bdabe.requestAttributePk con.env pk s attr = .err →
      (status con .reqAttrPk given .bdabe lang fs t).1 = 1 ∧ (status con .reqAttrPk given .bdabe lang fs t).2.1 = fs) ∧
    (∀ (u : Mke08.UserKey G1 G2) (s : Mke08.SecretAuthorityKey F), requested con .reqAttrSk given = [attr] →
      Reads con fs (argOr given .sk (chars% "sk.key")) u → Reads con fs (argOr given .auSk (chars% "skau.key")) s →
      Mke08.requestAuthoritySk con.env u.pk attr s = .err →
      (status con .reqAttrSk given .mke08 lang fs t).1 = 1 ∧ (status con .reqAttrSk given .mke08 lang fs t).2.1 = fs) ∧
    (∀ (pk : Bsw.PublicKey G1 G2 Gt) (sk : Bsw.SecretKey G1 G2) (t' : Tape F G1 G2 Gt),
      Reads con fs (argOr given .pk (chars% "pk.key")) pk → Reads con fs (argOr given .sk (chars% "sk.key")) sk →
      Bsw.delegate con.env pk sk (given .attributes) t = .ok (none, t') →
      (status con .delegate given .bsw lang fs t).1 = 1 ∧ (status con .delegate given .bsw lang fs t).2.1 = fs) ∧
    (∀ (gk : Aw11.GlobalKey G1 G2) (t' : Tape F G1 G2 Gt), Reads con fs (argOr given .gp (chars% "gp.key")) gk →
      Aw11.authgen con.cm con.env gk (given .attributes) t = .ok (none, t') →
      (status con .authgen given .aw11 lang fs t).1 = 1 ∧ (status con .authgen given .aw11 lang fs t).2.1 = fs) := by
  have conv : ∀ {cmd : Cmd} {scheme : Scheme} {t' : Tape F G1 G2 Gt}, run con cmd given scheme lang fs t = (.err, fs, t') →
      (status con cmd given scheme lang fs t).1 = 1 ∧ (status con cmd given scheme lang fs t).2.1 = fs := by
    intro cmd scheme t' hrun
    obtain ⟨g1, -, g3, -⟩ := C82_exit_partial con scheme lang cmd given fs t
    rw [hrun] at g1 g3
    exact ⟨g3.2 rfl, by rw [g1]⟩
  refine ⟨?_, ?_, ?_, ?_, ?_⟩
  · intro pk s ha hp hs hr
    refine conv (t' := t) ?_
    have h1 : fileOr .reqAttrPk given .pk pkDefault = argOr given .pk (chars% "pk.key") := fileOr_argOr rfl
    have h2 : fileOr .reqAttrPk given .auSk auSkDefault = argOr given .auSk (chars% "skau.key") := fileOr_argOr rfl
    show runReqAttrPk con given .mke08 fs t = _
    unfold runReqAttrPk
    simp only [ha, h1, h2]
    rw [CM.bind_of_ok (hp t), CM.bind_of_ok (hs t), hr]
    rfl
  · intro pk s ha hp hs hr
    refine conv (t' := t) ?_
    have h1 : fileOr .reqAttrPk given .pk pkDefault = argOr given .pk (chars% "pk.key") := fileOr_argOr rfl
    have h2 : fileOr .reqAttrPk given .auSk auSkDefault = argOr given .auSk (chars% "skau.key") := fileOr_argOr rfl
    show runReqAttrPk con given .bdabe fs t = _
    unfold runReqAttrPk
    simp only [ha, h1, h2]
    rw [CM.bind_of_ok (hp t), CM.bind_of_ok (hs t), hr]
    rfl
  · intro u s ha hp hs hr
    refine conv (t' := t) ?_
    have h1 : fileOr .reqAttrSk given .sk skDefault = argOr given .sk (chars% "sk.key") := fileOr_argOr rfl
    have h2 : fileOr .reqAttrSk given .auSk auSkDefault = argOr given .auSk (chars% "skau.key") := fileOr_argOr rfl
    show runReqAttrSk con given .mke08 fs t = _
    unfold runReqAttrSk
    simp only [ha, h1, h2]
    rw [CM.bind_of_ok (hp t), CM.bind_of_ok (hs t), hr]
    rfl
  · intro pk sk t' hp hs hr
    refine conv (t' := t') ?_
    have h1 : fileOr .delegate given .pk pkDefault = argOr given .pk (chars% "pk.key") := fileOr_argOr rfl
    have h2 : fileOr .delegate given .sk skDefault = argOr given .sk (chars% "sk.key") := fileOr_argOr rfl
    have h7 : valuesOf .delegate given .attributes = given .attributes := valuesOf_given rfl rfl
    show runDelegate con given .bsw fs t = _
    unfold runDelegate
    simp only [h1, h2, h7]
    rw [CM.bind_of_ok (hp t), CM.bind_of_ok (hs t), CM.bind_of_ok (call_eq hr)]
    rfl
  · intro gk t' hg hr
    refine conv (t' := t') ?_
    have h3 : fileOr .authgen given .gp gpDefault = argOr given .gp (chars% "gp.key") := fileOr_argOr rfl
    have h7 : valuesOf .authgen given .attributes = given .attributes := valuesOf_given rfl rfl
    show runAuthgen con given .aw11 fs t = _
    unfold runAuthgen
    simp only [h3, h7]
    rw [CM.bind_of_ok (hg t), CM.bind_of_ok (call_eq hr)]
    rfl

end

/-- The policy `x`, which is none, and the file `f`. -/
def badPolicy : Given := fun a => if a = .policy then [['x']] else if a = .file then [['f']] else []

/-- An object that can be stored can be read from some file system that also holds the file `f`. -/
theorem toy_reads {α : Type} [Borsh α] [Serde α] [Stored α] {p : Str} (hp : toyFS.creatable p = true) (hf : p ≠ ['f']) {x : α}
    (h : (toyCon.format.ser x).isSome = true) : ∃ fs : FS, Reads toyCon fs p x ∧ fs.file ['f'] = some [7] ∧
      fs.creatable = toyFS.creatable := by
  obtain ⟨bs, hbs⟩ := Option.isSome_iff_exists.1 h
  obtain ⟨fs, hs⟩ := store_some (con := toyCon) (p := p) (head := skBegin) (tail := skEnd) hbs (fs := toyFS) hp toyTape
  obtain ⟨-, hc, -, ho, bs', hbs', hh⟩ := store_ok framing_sk hs
  exact ⟨fs, fun t => serDec_of_ser hbs' hh t, by rw [ho _ hf.symm]; rfl, hc⟩

/-- The policy `x` is no policy: key generation of AC17KP aborts, as `C87_violated_keygen` says. -/
theorem C87_violated_witness : ∃ fs : FS,
    (status toyCon .keygen badPolicy .ac17kp .human fs toyTape).1 = 101 := by
  obtain ⟨fs, hr, -⟩ := toy_reads (p := chars% "msk.key") (x := (⟨1, 1, [1, 1, 1], [1, 1], [1, 1]⟩ : Ac17.MasterKey Fr Fr Fr)) rfl (by decide)
    (by decide +kernel)
  exact ⟨fs, (C87_violated_keygen toyCon badPolicy .ac17kp .human fs toyTape ⟨_, hr, by with_unfolding_all rfl⟩).1⟩

/-- Encryption of `f` with this policy: BSW stores an error and reports success. -/
example : ∃ (fs : FS) (bs : Bytes), (status toyCon .encrypt badPolicy
      .bsw .human fs toyTape).1 = 0 ∧
    Holds toyCon (status toyCon .encrypt badPolicy
      .bsw .human fs toyTape).2.1 (chars% "f.ct") bs := by
  obtain ⟨fs, hr, hf, hc⟩ := toy_reads (p := chars% "pk.key") (x := (⟨1, 1, 1, 1, 1⟩ : Bsw.PublicKey Fr Fr Fr)) rfl (by decide)
    (by decide +kernel)
  obtain ⟨bs, hb⟩ := Option.isSome_iff_exists.1 (by decide +kernel :
    (toyCon.format.serResult toyCon.errText (none : Option Fr)).isSome = true)
  exact ⟨fs, bs, C87_violated_encrypt toyCon badPolicy .bsw .human (by simp) fs toyTape ['f'] [7] rfl hf (by decide) (by rw [hc]; rfl) bs hb
    ⟨_, hr, by with_unfolding_all rfl⟩⟩

/-- AC17CP reports the same refusal. -/
example : ∃ fs : FS, (status toyCon .encrypt badPolicy
    .ac17cp .human fs toyTape).1 = 1 := by
  obtain ⟨fs, hr, hf, -⟩ := toy_reads (p := chars% "pk.key") (x := (⟨1, [1, 1, 1], [1, 1]⟩ : Ac17.PublicKey Fr Fr Fr)) rfl (by decide)
    (by decide +kernel)
  exact ⟨fs, (C87_encrypt_partial toyCon badPolicy .ac17cp .human (by simp) fs toyTape ['f'] [7] rfl hf (by decide)
    ⟨_, hr, by with_unfolding_all rfl⟩).1⟩

/-- Two objects that can be stored can be read from some file system. -/
theorem toy_reads2 {α β : Type} [Borsh α] [Serde α] [Stored α] [Borsh β] [Serde β] [Stored β] {p q : Str}
    (hp : toyFS.creatable p = true) (hq : toyFS.creatable q = true) (hpq : p ≠ q) {x : α} {y : β}
    (hx : (toyCon.format.ser x).isSome = true) (hy : (toyCon.format.ser y).isSome = true) :
    ∃ fs : FS, Reads toyCon fs p x ∧ Reads toyCon fs q y := by
  obtain ⟨bs, hbs⟩ := Option.isSome_iff_exists.1 hx
  obtain ⟨cs, hcs⟩ := Option.isSome_iff_exists.1 hy
  obtain ⟨fs, hs⟩ := store_some (con := toyCon) (p := p) (head := skBegin) (tail := skEnd) hbs (fs := toyFS) hp toyTape
  obtain ⟨-, hc, -, -, bs', hbs', hh⟩ := store_ok framing_sk hs
  obtain ⟨fs', hs'⟩ := store_some (con := toyCon) (p := q) (head := skBegin) (tail := skEnd) hcs (fs := fs) (by rw [hc]; exact hq) toyTape
  obtain ⟨-, -, -, ho, cs', hcs', hh'⟩ := store_ok framing_sk hs'
  refine ⟨fs', fun t => ?_, fun t => serDec_of_ser hcs' hh' t⟩
  rw [C88_reads]
  obtain ⟨text, line, b, c, h1, h2⟩ := (C88_reads toyCon p fs t x).1 (serDec_of_ser hbs' hh t)
  exact ⟨text, line, b, c, by rw [ho p hpq]; exact h1, h2⟩

/-- A ciphertext of AC17CP for `"A"` and a key without attributes: decryption reports the refusal. -/
example : ∃ fs : FS, (status toyCon .decrypt badPolicy .ac17cp .human fs toyTape).1 = 1 := by
  obtain ⟨fs, h1, h2⟩ := toy_reads2 (p := chars% "sk.key") (q := ['f'])
    (x := (⟨[], ⟨[1], [], []⟩⟩ : Ac17.CpSecretKey Fr Fr))
    (y := (⟨(chars% "\"A\"", .human), ⟨[1, 1, 1], [(['A'], [1, 1, 1])], 1, [7]⟩⟩ : Ac17.CpCiphertext Fr Fr Fr))
    rfl rfl (by decide) (by decide +kernel) (by decide +kernel)
  exact ⟨fs, (C87_decrypt toyCon badPolicy .ac17cp .human fs toyTape ⟨_, _, h1, h2, by with_unfolding_all rfl⟩).1⟩

/-- An AW11 authority for no attributes is refused, with status 1. -/
example : ∃ fs : FS, (status toyCon .authgen badPolicy .aw11 .human fs toyTape).1 = 1 := by
  obtain ⟨fs, h, -⟩ := toy_reads (p := chars% "gp.key") (x := (⟨1, 1⟩ : Aw11.GlobalKey Fr Fr)) rfl (by decide)
    (by decide +kernel)
  exact ⟨fs, ((C87_requests_partial toyCon badPolicy .human fs toyTape []).2.2.2.2 _ _ h (by with_unfolding_all rfl)).1⟩

end Rabe
