import Verif.Props.Console
import Verif.Proof.ConsoleChain

/-!
# C56: command sequences that do not work
-/

namespace Rabe

open Console
open Serde (SerdeLaw Shallow)

set_option linter.unusedSectionVars false

section
variable {F G1 G2 Gt : Type} [Field F] [DecidableEq F] [AddCommGroup G1] [Module F G1]
  [AddCommGroup G2] [Module F G2] [AddCommGroup Gt] [Module F Gt]
  [Borsh F] [Serde F] [Borsh G1] [Serde G1] [Borsh G2] [Serde G2] [Borsh Gt] [Serde Gt]

theorem valueOf_encrypt_pk (given : Given) : ∃ f, valueOf .encrypt given .pk = some f := by
  unfold valueOf valuesOf
  simp only [declare]
  cases h : given .pk with
  | nil => exact ⟨_, rfl⟩
  | cons f fs => exact ⟨f, by simp⟩

theorem valueOf_delegate_sk (given : Given) : ∃ f, valueOf .delegate given .sk = some f := by
  unfold valueOf valuesOf
  simp only [declare]
  cases h : given .sk with
  | nil => exact ⟨_, rfl⟩
  | cons f fs => exact ⟨f, by simp⟩

theorem bind_readToVec_state {β : Type} (p : Str) (f : Bytes → CM F G1 G2 Gt β) (fs : FS) (t : Tape F G1 G2 Gt)
    (P : Res β × FS × Tape F G1 G2 Gt → Prop) (h : ∀ b, P (f b fs t)) (hp : P (.panic, fs, t)) :
    P ((CM.readToVec p >>= f) fs t) := by
  rw [CM.bind_apply]
  unfold CM.readToVec
  cases fs.file p with
  | none => exact hp
  | some b => exact h b

/-- Nothing happened: the command failed or panicked and the file system is as before. -/
def Fails (x : Res Unit × FS × Tape F G1 G2 Gt) (fs : FS) : Prop := x.1 ≠ .ok () ∧ x.2.1 = fs

theorem fails_panic (fs : FS) (t : Tape F G1 G2 Gt) : Fails (.panic, fs, t) fs := ⟨by simp, rfl⟩
theorem fails_err (fs : FS) (t : Tape F G1 G2 Gt) : Fails (.err, fs, t) fs := ⟨by simp, rfl⟩

theorem bind_serDec {α β : Type} [Borsh α] [Serde α] (con : Con F G1 G2 Gt) (p : Str) (f : α → CM F G1 G2 Gt β) (fs : FS)
    (t : Tape F G1 G2 Gt) (P : Res β × FS × Tape F G1 G2 Gt → Prop)
    (h : ∀ a, serDec α con p fs t = (.ok a, fs, t) → P (f a fs t)) (he : P (.err, fs, t)) (hp : P (.panic, fs, t)) :
    P ((serDec α con p >>= f) fs t) := by
  obtain ⟨r, hr⟩ := serDec_state (α := α) con p fs t
  cases r with
  | ok a => rw [CM.bind_of_ok hr]; exact h a hr
  | err => rw [CM.bind_of_err hr]; exact he
  | panic => rw [CM.bind_of_panic hr]; exact hp

/-- **C56 is violated: encryption.** For AC17KP, BDABE and MKE08 the command `encrypt` never succeeds, whatever the
arguments and the contents of the files. -/
theorem C56_violated_encrypt (con : Con F G1 G2 Gt) (given : Given) (scheme : Scheme) (lang : PolicyLanguage)
    (hs : scheme ∈ [Scheme.ac17kp, .bdabe, .mke08]) (fs : FS) (t : Tape F G1 G2 Gt) :
    Fails (run con .encrypt given scheme lang fs t) fs := by
  obtain ⟨f, hf⟩ := valueOf_encrypt_pk given
  show Fails (runEncrypt con given scheme lang fs t) fs
  unfold runEncrypt
  apply bind_readToVec_state (P := fun x => Fails x fs)
  · intro b
    simp only [List.mem_cons, List.not_mem_nil, or_false] at hs
    rcases hs with rfl | rfl | rfl
    · simp only [hf]
      match valuesOf .encrypt given .pk with
      | [] => exact fails_err fs t
      | [_] =>
        dsimp only
        rw [CM.bind_of_panic (serDec_nil con fs t)]
        exact fails_panic fs t
      | _ :: _ :: _ => exact fails_err fs t
    · simp only [hf]
      rw [CM.bind_of_panic (serDec_nil con fs t)]
      exact fails_panic fs t
    · simp only [hf]
      rw [CM.bind_of_panic (serDec_nil con fs t)]
      exact fails_panic fs t
  · exact fails_panic fs t

/-- **C56 is violated: delegation.** The command `delegate` never succeeds, whatever the scheme, the arguments and the
contents of the files. -/
theorem C56_violated_delegate (con : Con F G1 G2 Gt) (given : Given) (scheme : Scheme) (lang : PolicyLanguage)
    (fs : FS) (t : Tape F G1 G2 Gt) : Fails (run con .delegate given scheme lang fs t) fs := by
  obtain ⟨f, hf⟩ := valueOf_delegate_sk given
  show Fails (runDelegate con given scheme fs t) fs
  cases scheme <;> unfold runDelegate <;> try exact fails_err fs t
  simp only [hf]
  apply bind_serDec (P := fun x => Fails x fs) _ _ _ _ _ _ (fails_err fs t) (fails_panic fs t)
  intro p hp
  apply bind_serDec (P := fun x => Fails x fs) _ _ _ _ _ _ (fails_err fs t) (fails_panic fs t)
  intro k hk
  rw [CM.bind_apply]
  unfold CM.call
  cases Bsw.delegate con.env p k (valuesOf .delegate given .attributes) t with
  | err => exact fails_err fs t
  | panic => exact fails_panic fs t
  | ok x =>
    obtain ⟨d, t'⟩ := x
    cases d with
    | none => exact fails_err fs t'
    | some d =>
      dsimp only
      rw [store_nil]
      exact fails_panic fs t'

/-! ### YCT14 -/

theorem strip_id {xs : List (Yct14.Attribute F Gt)} (h : ∀ a ∈ xs, a.node = none) :
    xs.map Yct14.Attribute.strip = xs := by
  conv_rhs => rw [← List.map_id xs]
  apply List.map_congr_left
  intro a ha
  unfold Yct14.Attribute.strip
  cases a
  have := h _ ha
  simp only at this
  subst this
  rfl

theorem serDec_try {α : Type} [Borsh α] [Serde α] {con : Con F G1 G2 Gt} {p : Str} {fs fs' : FS} {t t' : Tape F G1 G2 Gt} {a : α}
    (h : serDec α con p fs t = (.ok a, fs', t')) : ∃ bs, con.format.read α bs = some a := by
  unfold serDec at h
  obtain ⟨text, fs1, t1, -, h⟩ := CM.bind_ok h
  obtain ⟨bs, fs2, t2, -, h⟩ := CM.bind_ok h
  cases hs : con.format.read α bs with
  | none => rw [hs] at h; cases h
  | some b => rw [hs] at h; cases h; exact ⟨bs, hs⟩

/-- **C56 is violated: YCT14.** With the `borsh` feature the command `encrypt` never succeeds for YCT14, whatever the
arguments and the contents of the files. -/
theorem C56_violated_yct14_encrypt (con : Con F G1 G2 Gt) (hfmt : con.format = .borsh) (given : Given) (lang : PolicyLanguage)
    (fs : FS) (t : Tape F G1 G2 Gt) : Fails (run con .encrypt given .yct14 lang fs t) fs := by
  show Fails (runEncrypt con given .yct14 lang fs t) fs
  unfold runEncrypt
  apply bind_readToVec_state (P := fun x => Fails x fs) _ _ _ _ _ (fails_panic fs t)
  intro b
  obtain ⟨f, hf⟩ := valueOf_encrypt_pk given
  simp only [hf]
  match valuesOf .encrypt given .pk with
  | [] => exact fails_err fs t
  | _ :: _ :: _ => exact fails_err fs t
  | [file] =>
    dsimp only
    apply bind_serDec (P := fun x => Fails x fs) _ _ _ _ _ _ (fails_err fs t) (fails_panic fs t)
    intro p hp
    obtain ⟨bs, hbs⟩ := serDec_try hp
    rw [hfmt] at hbs
    have hn := strip_id (yct14_pk_nodes hbs)
    rw [CM.bind_apply]
    unfold CM.call
    by_cases h1 : valuesOf .encrypt given .attributes = []
    · have : Yct14.encrypt con.env p (valuesOf .encrypt given .attributes) b t = .err := by
        rw [h1]; rfl
      rw [this]
      exact fails_err fs t
    · by_cases h2 : b = []
      · have : Yct14.encrypt con.env p (valuesOf .encrypt given .attributes) b t = .err := by
          subst h2
          unfold Yct14.encrypt
          split <;> rfl
        rw [this]
        exact fails_err fs t
      · have := C57_yct14_encrypt_panics con.env p _ b h1 h2 t
        rw [hn] at this
        rw [show Yct14.encrypt con.env p (valuesOf .encrypt given .attributes) b t = .panic from this]
        exact fails_panic fs t

/-- **C56 is violated: YCT14.** With the `borsh` feature the command `decrypt` never recovers a plaintext for YCT14, whatever
the arguments and the contents of the files. -/
theorem C56_violated_yct14_decrypt (con : Con F G1 G2 Gt) (hfmt : con.format = .borsh) (given : Given) (fs fs' : FS)
    (t t' : Tape F G1 G2 Gt) (pt : Bytes) : decryptPt con given .yct14 fs t ≠ (.ok pt, fs', t') := by
  intro h
  dsimp only [decryptPt] at h
  obtain ⟨k, fs1, t1, hk, h⟩ := CM.bind_ok h
  obtain ⟨ct, fs2, t2, -, h⟩ := CM.bind_ok h
  obtain ⟨h, -, -⟩ := CM.lift_ok h
  obtain ⟨bs, hbs⟩ := serDec_try hk
  rw [hfmt] at hbs
  have := C57_yct14_decrypt_sk con.env k ct pt
  rw [strip_id (yct14_sk_nodes hbs)] at this
  exact this h

/-! ### BSW, LSW, AW11: the ciphertext is stored as a `Result` -/

theorem valueOf_file (given : Given) {f : Str} (h : given .file = [f]) :
    valueOf .encrypt given .file = some f ∧ valueOf .decrypt given .file = some f := by
  simp [valueOf, valuesOf, declare, h]

theorem bsw_encrypt_policy {env : Env F G1 G2 Gt} {pk : Bsw.PublicKey G1 G2 Gt} {policy lang pt}
    {t t' : Tape F G1 G2 Gt} {ct} (h : Bsw.encrypt env pk policy lang pt t = .ok (ct, t')) :
    ct.policy = (policy, lang) := by
  simp only [Bsw.encrypt, RM.bind_ok, RM.pure_ok] at h
  obtain ⟨_, _, -, _, _, -, _, _, -, _, _, -, _, _, -, _, _, -, rfl, -⟩ := h
  rfl

theorem aw11_encrypt_policy {cm : CaseMap} {env : Env F G1 G2 Gt} {gk : Aw11.GlobalKey G1 G2} {pks policy lang pt}
    {t t' : Tape F G1 G2 Gt} {ct} (h : Aw11.encrypt cm env gk pks policy lang pt t = .ok (ct, t')) :
    ct.policy = (policy, lang) := by
  simp only [Aw11.encrypt, RM.bind_ok, RM.pure_ok] at h
  obtain ⟨_, _, -, _, _, -, _, _, -, _, _, -, _, _, -, _, _, -, _, _, -, _, _, -, _, _, -, _, _, -, _, _, -, rfl, -⟩ := h
  rfl

/-- **C56 is violated: BSW.** After a successful `encrypt` of the file `f`, the command `decrypt` on the produced file never
recovers a plaintext, whichever key is used. (Policy texts and error texts of at least 2^24 bytes are excepted.) -/
theorem C56_violated_bsw [Shallow G1] [Shallow G2] [Shallow Gt] (con : Con F G1 G2 Gt) (given given' : Given) (lang : PolicyLanguage) (f : Str)
    (hg : given .file = [f]) (hg' : given' .file = [f ++ chars% ".ct"])
    (hlen : ∀ s ∈ given .policy, (utf8 s).length < 2 ^ 24) (herr : (utf8 con.errText).length < 2 ^ 24)
    (fs fs' fs'' : FS) (t t' t'' t3' : Tape F G1 G2 Gt)
    (h : run con .encrypt given .bsw lang fs t = (.ok (), fs', t')) (pt : Bytes) :
    decryptPt con given' .bsw fs' t'' ≠ (.ok pt, fs'', t3') := by
  have hpol : (utf8 ((valueOf .encrypt given .policy).getD [])).length < 2 ^ 24 := by
    cases hp : given .policy with
    | nil => simp [valueOf, valuesOf, declare, hp, utf8]
    | cons s l => simpa [valueOf, valuesOf, declare, hp] using hlen s (by simp [hp])
  have h' : runEncrypt con given .bsw lang fs t = (.ok (), fs', t') := h
  unfold runEncrypt at h'
  obtain ⟨b, fs1, t1, hb, hx1⟩ := CM.bind_ok h'
  obtain ⟨q, hq⟩ := valueOf_encrypt_pk given
  simp only [hq, (valueOf_file given hg).1] at hx1
  match hv : valuesOf .encrypt given .pk, hx1 with
  | [], hx1 => cases hx1
  | _ :: _ :: _, hx1 => cases hx1
  | [file], hx1 =>
    dsimp only at hx1
    obtain ⟨p, fs2, t2, -, hx2⟩ := CM.bind_ok hx1
    obtain ⟨o, fs3, t3, ho, hx3⟩ := CM.bind_ok hx2
    obtain ⟨-, ho⟩ := CM.callTry_ok ho
    obtain ⟨-, -, -, -, bs, hbs, hh⟩ := storeResult_ok framing_ct hx3
    intro hd
    dsimp only [decryptPt] at hd
    obtain ⟨k, fs4, t4, hk, hx4⟩ := CM.bind_ok hd
    obtain ⟨rfl, rfl⟩ := serDec_ok hk
    obtain ⟨ct, fs5, t5, hct, hx5⟩ := CM.bind_ok hx4
    obtain ⟨hx6, -, -⟩ := CM.lift_ok hx5
    rw [(valueOf_file given' hg').2] at hct
    obtain ⟨htry, -, -⟩ := serDec_holds_ok hh hct
    have hfmt := borsh_of_result bsw_notResult hbs htry
    rw [hfmt] at hbs htry
    have hbad := bsw_policyFirst.result herr (o := o) (by
      rintro x rfl
      rcases ho with ⟨a, ha, hm⟩ | ⟨ha, -⟩
      · cases ha
        rw [bsw_encrypt_policy hm]
        exact hpol
      · cases ha) hbs htry
    simp only [Bsw.decrypt, Bsw.recoverMsg, Res.bind_eq_ok] at hx6
    obtain ⟨-, ⟨v, hv, -⟩, -⟩ := hx6
    exact parse_badStart hbad _ _ hv

/-- **C56 is violated: AW11.** As `C56_violated_bsw`. -/
theorem C56_violated_aw11_ct [Shallow G2] [Shallow Gt] (con : Con F G1 G2 Gt) (given given' : Given) (lang : PolicyLanguage) (f : Str)
    (hg : given .file = [f]) (hg' : given' .file = [f ++ chars% ".ct"])
    (hlen : ∀ s ∈ given .policy, (utf8 s).length < 2 ^ 24) (herr : (utf8 con.errText).length < 2 ^ 24)
    (fs fs' fs'' : FS) (t t' t'' t3' : Tape F G1 G2 Gt)
    (h : run con .encrypt given .aw11 lang fs t = (.ok (), fs', t')) (pt : Bytes) :
    decryptPt con given' .aw11 fs' t'' ≠ (.ok pt, fs'', t3') := by
  have hpol : (utf8 ((valueOf .encrypt given .policy).getD [])).length < 2 ^ 24 := by
    cases hp : given .policy with
    | nil => simp [valueOf, valuesOf, declare, hp, utf8]
    | cons s l => simpa [valueOf, valuesOf, declare, hp] using hlen s (by simp [hp])
  have h' : runEncrypt con given .aw11 lang fs t = (.ok (), fs', t') := h
  unfold runEncrypt at h'
  obtain ⟨b, fs1, t1, hb, hx1⟩ := CM.bind_ok h'
  obtain ⟨q, hq⟩ := valueOf_encrypt_pk given
  simp only [hq, (valueOf_file given hg).1] at hx1
  obtain ⟨p, fs2, t2, -, hx2⟩ := CM.bind_ok hx1
  obtain ⟨ps, fs2', t2', -, hx3⟩ := CM.bind_ok hx2
  obtain ⟨o, fs3, t3, ho, hx4⟩ := CM.bind_ok hx3
  obtain ⟨-, ho⟩ := CM.callTry_ok ho
  obtain ⟨-, -, -, -, bs, hbs, hh⟩ := storeResult_ok framing_ct hx4
  intro hd
  dsimp only [decryptPt] at hd
  obtain ⟨g, fs4', t4', hg4, hx5⟩ := CM.bind_ok hd
  obtain ⟨rfl, rfl⟩ := serDec_ok hg4
  obtain ⟨k, fs4, t4, hk, hx6⟩ := CM.bind_ok hx5
  obtain ⟨rfl, rfl⟩ := serDec_ok hk
  obtain ⟨ct, fs5, t5, hct, hx7⟩ := CM.bind_ok hx6
  obtain ⟨hx8, -, -⟩ := CM.lift_ok hx7
  rw [(valueOf_file given' hg').2] at hct
  obtain ⟨htry, -, -⟩ := serDec_holds_ok hh hct
  have hfmt := borsh_of_result aw11_notResult hbs htry
  rw [hfmt] at hbs htry
  have hbad := aw11_policyFirst.result herr (o := o) (by
    rintro x rfl
    rcases ho with ⟨a, ha, hm⟩ | ⟨ha, -⟩
    · cases ha
      rw [aw11_encrypt_policy hm]
      exact hpol
    · cases ha) hbs htry
  simp only [Aw11.decrypt, Res.bind_eq_ok] at hx8
  obtain ⟨v, hv, -⟩ := hx8
  exact parse_badStart hbad _ _ hv

/-- **C56 is violated: LSW.** After a successful `encrypt` (with the public key from any file `key`), the ciphertext that the
library produced is never what is read from the file. -/
theorem C56_violated_lsw [BorshExact F] [BorshExact G1] [BorshExact G2] [BorshExact Gt]
    [Shallow G1] [Shallow G2] [Shallow Gt] (con : Con F G1 G2 Gt)
    (given : Given) (lang : PolicyLanguage) (f key : Str) (hg : given .file = [f]) (hkey : given .pk = [key])
    (fs fs' : FS) (t t' : Tape F G1 G2 Gt) (h : run con .encrypt given .lsw lang fs t = (.ok (), fs', t'))
    (pk : Lsw.PublicKey G1 G2 Gt) (hpk : serDec (Lsw.PublicKey G1 G2 Gt) con key fs t = (.ok pk, fs, t))
    (pt : Bytes) (hpt : fs.file f = some pt) (ct : Lsw.Ciphertext G1 G2 Gt) (t₁ : Tape F G1 G2 Gt)
    (hct : Lsw.encrypt con.env pk (given .attributes) pt t = .ok (ct, t₁)) (fs'' : FS) (t'' t₃ : Tape F G1 G2 Gt) :
    serDec (Lsw.Ciphertext G1 G2 Gt) con (f ++ chars% ".ct") fs' t'' ≠ (.ok ct, fs'', t₃) := by
  have h' : runEncrypt con given .lsw lang fs t = (.ok (), fs', t') := h
  unfold runEncrypt at h'
  have ha : valuesOf .encrypt given .attributes = given .attributes := by
    simp only [valuesOf, declare]
    split
    · rename_i h; rw [h]; rfl
    · rfl
  have hv : valuesOf .encrypt given .pk = [key] := by simp [valuesOf, declare, hkey]
  have hq : valueOf .encrypt given .pk = some key := by simp [valueOf, hv]
  simp only [hq, hv, ha, (valueOf_file given hg).1, Option.getD_some] at h'
  have hr : CM.readToVec f fs t = (.ok pt, fs, t) := by unfold CM.readToVec; rw [hpt]; rfl
  rw [CM.bind_of_ok hr, CM.bind_of_ok hpk] at h'
  obtain ⟨o, fs3, t3, ho, h3⟩ := CM.bind_ok h'
  obtain ⟨-, ho'⟩ := CM.callTry_ok ho
  obtain ⟨-, -, -, -, bs, hbs, hh⟩ := storeResult_ok framing_ct h3
  intro hd
  obtain ⟨htry, -, -⟩ := serDec_holds_ok hh hd
  rcases ho' with ⟨a, rfl, hm⟩ | ⟨-, he, -⟩
  · rw [hct] at hm
    cases hm
    have hfmt := borsh_of_result lsw_notResult hbs htry
    rw [hfmt] at hbs htry
    exact result_ne (err := con.errText) hbs htry
  · rw [hct] at he
    cases he

/-! ### AW11, BDABE, MKE08: files nobody writes -/

/-- **C56 is violated: AW11.** Set-up stores the global parameters in `msk.key`; the other commands look for them in `gp.key`.
If there is no such file before set-up, they all fail afterwards. -/
theorem C56_violated_aw11 (con : Con F G1 G2 Gt) (given given' : Given) (lang : PolicyLanguage) (cmd : Cmd)
    (hcmd : cmd ∈ [Cmd.authgen, .keygen, .encrypt, .decrypt]) (fs fs' : FS) (t t' t'' : Tape F G1 G2 Gt)
    (hfs : fs.file gpDefault = none) (hg : given .msk = []) (hg' : given' .gp = [])
    (h : run con .setup given .aw11 lang fs t = (.ok (), fs', t')) :
    Fails (run con cmd given' .aw11 lang fs' t'') fs' := by
  have hmsk : fileOr .setup given .msk mskDefault = mskDefault := by simp [fileOr, valueOf, valuesOf, declare, hg]
  have h' : (CM.call (Aw11.setup (F := F) (Gt := Gt) (G1 := G1) (G2 := G2)) >>= fun gp =>
      store con (fileOr .setup given .msk mskDefault) gp gpBegin gpEnd) fs t = (.ok (), fs', t') := h
  rw [hmsk] at h'
  obtain ⟨k, fs1, t1, hk, hx1⟩ := CM.bind_ok h'
  obtain ⟨-, rfl⟩ := CM.call_ok hk
  obtain ⟨-, -, -, ho, -⟩ := store_ok framing_gp hx1
  have hnone : fs'.file gpDefault = none := by rw [ho _ (by decide)]; exact hfs
  simp only [List.mem_cons, List.not_mem_nil, or_false] at hcmd
  rcases hcmd with rfl | rfl | rfl | rfl
  · have hgp : fileOr .authgen given' .gp gpDefault = gpDefault := by simp [fileOr, valueOf, valuesOf, declare, hg']
    show Fails (runAuthgen con given' .aw11 fs' t'') fs'
    dsimp only [runAuthgen]
    rw [hgp, CM.bind_of_panic (serDec_missing con hnone t'')]
    exact fails_panic _ _
  · have hgp : fileOr .keygen given' .gp gpDefault = gpDefault := by simp [fileOr, valueOf, valuesOf, declare, hg']
    show Fails (runKeygen con given' .aw11 lang fs' t'') fs'
    dsimp only [runKeygen]
    rw [hgp, CM.bind_of_panic (serDec_missing con hnone t'')]
    exact fails_panic _ _
  · have hgp : fileOr .encrypt given' .gp gpDefault = gpDefault := by simp [fileOr, valueOf, valuesOf, declare, hg']
    show Fails (runEncrypt con given' .aw11 lang fs' t'') fs'
    unfold runEncrypt
    apply bind_readToVec_state (P := fun x => Fails x fs') _ _ _ _ _ (fails_panic _ _)
    intro b
    dsimp only
    rw [hgp, CM.bind_of_panic (serDec_missing con hnone t'')]
    exact fails_panic _ _
  · have hgp : fileOr .decrypt given' .gp gpDefault = gpDefault := by simp [fileOr, valueOf, valuesOf, declare, hg']
    show Fails (runDecrypt con given' .aw11 fs' t'') fs'
    unfold runDecrypt
    dsimp only [decryptPt]
    rw [hgp, CM.bind_of_panic (CM.bind_of_panic (serDec_missing con hnone t''))]
    exact fails_panic _ _

/-- **C56 is violated: BDABE.** Key generation reads the authority's key from `ska.key`, whatever the arguments; the command
`authgen --n name` writes it to `name.key`. Unless the authority is called `ska`, key generation fails after set-up and
`authgen`. -/
theorem C56_violated_bdabe (con : Con F G1 G2 Gt) (given₂ given₃ : Given) (lang : PolicyLanguage) (name : Str)
    (hname : given₂ .name = [name]) (hska : name ≠ chars% "ska") (fs fs₁ fs₂ : FS) (t t₁ t₂ t₃ : Tape F G1 G2 Gt)
    (hfs : fs.file skaDefault = none) (h₁ : run con .setup noArgs .bdabe lang fs t = (.ok (), fs₁, t₁))
    (h₂ : run con .authgen given₂ .bdabe lang fs₁ t₁ = (.ok (), fs₂, t₂)) :
    Fails (run con .keygen given₃ .bdabe lang fs₂ t₃) fs₂ := by
  have h₁' : (CM.call (Bdabe.setup con.env) >>= fun k => (store con mskDefault k.2 mskBegin mskEnd >>= fun _ =>
      store con pkDefault k.1 pkBegin pkEnd)) fs t = (.ok (), fs₁, t₁) := h₁
  obtain ⟨k, fsa, ta, hk, hx1⟩ := CM.bind_ok h₁'
  obtain ⟨-, rfl⟩ := CM.call_ok hk
  obtain ⟨-, -, ho1, -⟩ := store2_ok framing_msk framing_pk (by decide) hx1
  have h₂' : runAuthgen con given₂ .bdabe fs₁ t₁ = (.ok (), fs₂, t₂) := h₂
  dsimp only [runAuthgen] at h₂'
  obtain ⟨p, fsb, tb, hp, hx2⟩ := CM.bind_ok h₂'
  obtain ⟨rfl, rfl⟩ := serDec_ok hp
  obtain ⟨m, fsc, tc, hm, hx3⟩ := CM.bind_ok hx2
  obtain ⟨rfl, rfl⟩ := serDec_ok hm
  obtain ⟨s, fsd, td, hs, hx4⟩ := CM.bind_ok hx3
  obtain ⟨-, rfl⟩ := CM.call_ok hs
  obtain ⟨-, -, -, ho2, -⟩ := store_ok framing_auSk hx4
  have hv : valueOf .authgen given₂ .name = some name := by simp [valueOf, valuesOf, declare, hname]
  have hne : skaDefault ≠ nameFile (valueOf .authgen given₂ .name) := by
    rw [hv]
    intro e
    apply hska
    have e' : chars% "ska" ++ chars% ".key" = name ++ chars% ".key" := e
    exact (List.append_cancel_right e').symm
  have hnone : fs₂.file skaDefault = none := by
    rw [ho2 _ hne, ho1 _ (by decide) (by decide)]; exact hfs
  show Fails (runKeygen con given₃ .bdabe lang fs₂ t₃) fs₂
  dsimp only [runKeygen]
  apply bind_serDec (P := fun x => Fails x fs₂) _ _ _ _ _ _ (fails_err _ _) (fails_panic _ _)
  intro p hp
  have hska : fileOr .keygen given₃ .ska skaDefault = skaDefault := by simp [fileOr, valueOf, valuesOf, declare]
  rw [hska, CM.bind_of_panic (serDec_missing con hnone t₃)]
  exact fails_panic _ _

/-- **C56 is violated: MKE08.** Decryption looks for the public key in the file of the global parameters, which no command
writes. -/
theorem C56_violated_mke08_decrypt (con : Con F G1 G2 Gt) (given : Given) (lang : PolicyLanguage) (hg : given .gp = [])
    (fs : FS) (t : Tape F G1 G2 Gt) (hfs : fs.file gpDefault = none) :
    Fails (run con .decrypt given .mke08 lang fs t) fs := by
  have hgp : fileOr .decrypt given .gp gpDefault = gpDefault := by simp [fileOr, valueOf, valuesOf, declare, hg]
  show Fails (runDecrypt con given .mke08 fs t) fs
  unfold runDecrypt
  dsimp only [decryptPt]
  rw [hgp, CM.bind_of_panic (CM.bind_of_panic (serDec_missing con hfs t))]
  exact fails_panic _ _

end

/-! ### The hypotheses can be met -/

section
variable {F G1 G2 Gt : Type} [Field F] [DecidableEq F] [AddCommGroup G1] [Module F G1]
  [AddCommGroup G2] [Module F G2] [AddCommGroup Gt] [Module F Gt]
  [Borsh F] [Serde F] [Borsh G1] [Serde G1] [Borsh G2] [Serde G2] [Borsh Gt] [Serde Gt]

/-- `encrypt f policy` or `encrypt f --a attribute`. -/
def encryptBoth (f policy attr : Str) : Given
  | .file => [f]
  | .policy => [policy]
  | .attributes => [attr]
  | .pk => [pkDefault]
  | _ => []

theorem call_eq {α : Type} {m : RM F G1 G2 Gt α} {fs : FS} {t t' : Tape F G1 G2 Gt} {a : α} (h : m t = .ok (a, t')) :
    CM.call m fs t = (.ok a, fs, t') := by unfold CM.call; rw [h]

theorem callTry_eq {α : Type} {m : RM F G1 G2 Gt α} {fs : FS} {t t' : Tape F G1 G2 Gt} {a : α} (h : m t = .ok (a, t')) :
    CM.callTry m fs t = (.ok (some a), fs, t') := by unfold CM.callTry; rw [h]

theorem readToVec_eq {f : Str} {fs : FS} {b : Bytes} (h : fs.file f = some b) (t : Tape F G1 G2 Gt) :
    CM.readToVec f fs t = (.ok b, fs, t) := by unfold CM.readToVec; rw [h]; rfl

/-- A stored object and an unrelated file, in a file system that allows everything. -/
theorem stored {α : Type} [Borsh α] [Serde α] [Stored α] (con : Con F G1 G2 Gt) (p q : Str) (x : α) (b : Bytes) (hpq : q ≠ p)
    (hx : (con.format.ser x).isSome) (fs : FS) (hc : ∀ r, fs.creatable r = true ↔ r ≠ []) (hp : p ≠ []) (hq : fs.file q = some b)
    (t0 : Tape F G1 G2 Gt) : ∃ fs' : FS, (∀ r, fs'.creatable r = true ↔ r ≠ []) ∧ fs'.file q = some b ∧
      (∀ r, r ≠ p → fs'.file r = fs.file r) ∧ ∀ t, serDec α con p fs' t = (.ok x, fs', t) := by
  obtain ⟨bs, hbs⟩ := Option.isSome_iff_exists.1 hx
  obtain ⟨fs', h⟩ := store_some (con := con) (head := pkBegin) (tail := pkEnd) hbs ((hc p).2 hp) t0
  obtain ⟨-, hcr, -, ho, bs', hbs', hh⟩ := store_ok framing_pk h
  exact ⟨fs', fun r => by rw [hcr, hc], by rw [ho q hpq, hq], ho, fun t => serDec_of_ser hbs' hh t⟩

end

/-- A successful `encrypt` for BSW, as supposed in `C56_violated_bsw`. -/
example : ∃ (fs fs' : FS) (t' : Tape Fr Fr Fr Fr),
    run toyCon .encrypt (encryptBoth ['f'] (chars% "\"A\" or \"B\"") ['A']) .bsw .human fs toyTape = (.ok (), fs', t') := by
  obtain ⟨fs, hc, hf, -, hpk⟩ := stored toyCon pkDefault ['f'] (⟨1, 2, 3, 4, 5⟩ : Bsw.PublicKey Fr Fr Fr) [7] (by decide)
    (by decide +kernel) toyFS (by intro r; cases r <;> simp [toyFS]) (by decide) rfl toyTape
  have h : (match Bsw.encrypt toyEnv (⟨1, 2, 3, 4, 5⟩ : Bsw.PublicKey Fr Fr Fr) (chars% "\"A\" or \"B\"") .human [7] toyTape with
    | .ok (ct, _) => (toyCon.format.serResult toyCon.errText (some ct)).isSome
    | _ => false) = true := by decide +kernel
  split at h
  · rename_i ct t' henc
    obtain ⟨bs, hbs⟩ := Option.isSome_iff_exists.1 h
    obtain ⟨fs', hs⟩ := storeResult_some (con := toyCon) (p := chars% "f.ct") (head := ctBegin) (tail := ctEnd) hbs
      ((hc _).2 (by decide)) t'
    refine ⟨fs, fs', t', ?_⟩
    show (CM.readToVec ['f'] >>= fun b => serDec (Bsw.PublicKey Fr Fr Fr) toyCon pkDefault >>= fun p =>
      CM.callTry (Bsw.encrypt toyEnv p (chars% "\"A\" or \"B\"") .human b) >>= fun ct =>
        storeResult toyCon (chars% "f.ct") ct ctBegin ctEnd) fs toyTape = _
    rw [CM.bind_of_ok (readToVec_eq hf _), CM.bind_of_ok (hpk _), CM.bind_of_ok (callTry_eq henc), hs]
  · cases h

/-- A successful `encrypt` for LSW, as supposed in `C56_violated_lsw`. -/
example : ∃ (fs fs' : FS) (t' : Tape Fr Fr Fr Fr) (pk : Lsw.PublicKey Fr Fr Fr) (ct : Lsw.Ciphertext Fr Fr Fr),
    run toyCon .encrypt (encryptBoth ['f'] (chars% "\"A\" or \"B\"") ['A']) .lsw .human fs toyTape = (.ok (), fs', t') ∧
    serDec (Lsw.PublicKey Fr Fr Fr) toyCon pkDefault fs toyTape = (.ok pk, fs, toyTape) ∧ fs.file ['f'] = some [7] ∧
    Lsw.encrypt toyEnv pk [['A']] [7] toyTape = .ok (ct, t') := by
  obtain ⟨fs, hc, hf, -, hpk⟩ := stored toyCon pkDefault ['f'] (⟨1, 2, 3, 4, 5, 6⟩ : Lsw.PublicKey Fr Fr Fr) [7]
    (by decide) (by decide +kernel) toyFS (by intro r; cases r <;> simp [toyFS]) (by decide) rfl toyTape
  have h : (match Lsw.encrypt toyEnv (⟨1, 2, 3, 4, 5, 6⟩ : Lsw.PublicKey Fr Fr Fr) [['A']] [7] toyTape with
    | .ok (ct, _) => (toyCon.format.serResult toyCon.errText (some ct)).isSome
    | _ => false) = true := by decide +kernel
  split at h
  · rename_i ct t' henc
    obtain ⟨bs, hbs⟩ := Option.isSome_iff_exists.1 h
    obtain ⟨fs', hs⟩ := storeResult_some (con := toyCon) (p := chars% "f.ct") (head := ctBegin) (tail := ctEnd) hbs
      ((hc _).2 (by decide)) t'
    refine ⟨fs, fs', t', _, ct, ?_, hpk _, hf, henc⟩
    show (CM.readToVec ['f'] >>= fun b => serDec (Lsw.PublicKey Fr Fr Fr) toyCon pkDefault >>= fun p =>
      CM.callTry (Lsw.encrypt toyEnv p [['A']] b) >>= fun ct =>
        storeResult toyCon (chars% "f.ct") ct ctBegin ctEnd) fs toyTape = _
    rw [CM.bind_of_ok (readToVec_eq hf _), CM.bind_of_ok (hpk _), CM.bind_of_ok (callTry_eq henc), hs]
  · cases h

/-- A successful `encrypt` for AW11, as supposed in `C56_violated_aw11_ct`: the user has moved the global parameters. -/
example : ∃ (fs fs' : FS) (t' : Tape Fr Fr Fr Fr),
    run toyCon .encrypt (encryptBoth ['f'] (chars% "\"A\" or \"B\"") ['A']) .aw11 .human fs toyTape = (.ok (), fs', t') := by
  obtain ⟨fs₁, hc₁, hf₁, -, hpk₁⟩ := stored toyCon gpDefault ['f'] (⟨1, 2⟩ : Aw11.GlobalKey Fr Fr) [7]
    (by decide) (by decide +kernel) toyFS (by intro r; cases r <;> simp [toyFS]) (by decide) rfl toyTape
  have hser : ∃ bs, toyCon.format.ser (⟨[⟨['A'], 3, 4⟩, ⟨['B'], 5, 6⟩]⟩ : Aw11.PublicKey Fr Fr) = some bs :=
    Option.isSome_iff_exists.1 (by decide +kernel)
  obtain ⟨bs, hbs⟩ := hser
  obtain ⟨fs, hst⟩ := store_some (con := toyCon) (head := pkBegin) (tail := pkEnd) hbs ((hc₁ pkDefault).2 (by decide)) toyTape
  obtain ⟨-, hcr, -, ho, bs', hbs', hh⟩ := store_ok framing_pk hst
  have hc : ∀ r, fs.creatable r = true ↔ r ≠ [] := fun r => by rw [hcr, hc₁]
  have hpk : ∀ t, serDec (Aw11.PublicKey Fr Fr) toyCon pkDefault fs t = (.ok ⟨[⟨['A'], 3, 4⟩, ⟨['B'], 5, 6⟩]⟩, fs, t) :=
    serDec_of_ser hbs' hh
  have hf : fs.file ['f'] = some [7] := by rw [ho _ (by decide), hf₁]
  have hgp : ∀ t : Tape Fr Fr Fr Fr, serDec (Aw11.GlobalKey Fr Fr) toyCon gpDefault fs t = (.ok ⟨1, 2⟩, fs, t) := by
    intro t
    have h1 := hpk₁ t
    have hfile := ho gpDefault (by decide)
    simp only [serDec, CM.bind_apply, CM.readFile, hfile] at h1 ⊢
    revert h1
    cases fs₁.file gpDefault with
    | none => intro h1; cases h1
    | some b =>
      dsimp only
      cases ofUtf8 b with
      | none => intro h1; cases h1
      | some s =>
        simp only [Res.unwrapOption, CM.lift]
        cases decText toyCon s with
        | err => intro h1; cases h1
        | panic => intro h1; cases h1
        | ok y =>
          dsimp only
          cases toyCon.format.read (Aw11.GlobalKey Fr Fr) y with
          | none => intro h1; cases h1
          | some g => intro h1; cases h1; rfl
  have h : (match Aw11.encrypt toyCon.cm toyEnv (⟨1, 2⟩ : Aw11.GlobalKey Fr Fr)
      [(⟨[⟨['A'], 3, 4⟩, ⟨['B'], 5, 6⟩]⟩ : Aw11.PublicKey Fr Fr)] (chars% "\"A\" or \"B\"") .human [7] toyTape with
    | .ok (ct, _) => (toyCon.format.serResult toyCon.errText (some ct)).isSome
    | _ => false) = true := by decide +kernel
  split at h
  · rename_i ct t' henc
    obtain ⟨bs, hbs⟩ := Option.isSome_iff_exists.1 h
    obtain ⟨fs', hs⟩ := storeResult_some (con := toyCon) (p := chars% "f.ct") (head := ctBegin) (tail := ctEnd) hbs
      ((hc _).2 (by decide)) t'
    refine ⟨fs, fs', t', ?_⟩
    have hall : serDecAll (Aw11.PublicKey Fr Fr) toyCon [pkDefault] fs toyTape =
        (.ok [⟨[⟨['A'], 3, 4⟩, ⟨['B'], 5, 6⟩]⟩], fs, toyTape) := by
      unfold serDecAll
      rw [CM.bind_of_ok (hpk _)]
      rfl
    show (CM.readToVec ['f'] >>= fun b => serDec (Aw11.GlobalKey Fr Fr) toyCon gpDefault >>= fun g =>
      serDecAll (Aw11.PublicKey Fr Fr) toyCon [pkDefault] >>= fun ps =>
      CM.callTry (Aw11.encrypt toyCon.cm toyEnv g ps (chars% "\"A\" or \"B\"") .human b) >>= fun ct =>
        storeResult toyCon (chars% "f.ct") ct ctBegin ctEnd) fs toyTape = _
    rw [CM.bind_of_ok (readToVec_eq hf _), CM.bind_of_ok (hgp _), CM.bind_of_ok hall, CM.bind_of_ok (callTry_eq henc), hs]
  · cases h

/-- A successful set-up for AW11 in a file system without `gp.key`, as supposed in `C56_violated_aw11`. -/
example : ∃ fs' t', toyFS.file gpDefault = none ∧
    run toyCon .setup noArgs .aw11 .human toyFS toyTape = (.ok (), fs', t') := by
  have h : (match Aw11.setup (F := Fr) (G1 := Fr) (G2 := Fr) (Gt := Fr) toyTape with
    | .ok (gp, _) => (toyCon.format.ser gp).isSome
    | _ => false) = true := by decide +kernel
  split at h
  · rename_i gp t' hset
    obtain ⟨bs, hbs⟩ := Option.isSome_iff_exists.1 h
    obtain ⟨fs', hs⟩ := store_some (con := toyCon) (p := mskDefault) (head := gpBegin) (tail := gpEnd) hbs
      (fs := toyFS) rfl t'
    refine ⟨fs', t', rfl, ?_⟩
    show (CM.call (Aw11.setup (F := Fr) (G1 := Fr) (G2 := Fr) (Gt := Fr)) >>= fun gp =>
      store toyCon mskDefault gp gpBegin gpEnd) toyFS toyTape = _
    rw [CM.bind_of_ok (call_eq hset), hs]
  · cases h

/-- `authgen --n name`. -/
def authgenArgs (name : Str) : Given
  | .name => [name]
  | _ => []

/-- Set-up and authority generation for BDABE succeed, as supposed in `C56_violated_bdabe`. -/
example : ∃ fs₁ fs₂ t₁ t₂, toyFS.file skaDefault = none ∧
    run toyCon .setup noArgs .bdabe .human toyFS toyTape = (.ok (), fs₁, t₁) ∧
    run toyCon .authgen (authgenArgs (chars% "aa")) .bdabe .human fs₁ t₁ = (.ok (), fs₂, t₂) := by
  have h : (match Bdabe.setup toyEnv toyTape with
    | .ok ((pk, msk), t₁) => match Bdabe.authgen pk msk (chars% "aa") t₁ with
      | .ok (sk, _) => (toyCon.format.ser pk).isSome && (toyCon.format.ser msk).isSome && (toyCon.format.ser sk).isSome
      | _ => false
    | _ => false) = true := by decide +kernel
  split at h
  · rename_i pk msk t₁ hset
    split at h
    · rename_i sk t₂ hau
      simp only [Bool.and_eq_true] at h
      obtain ⟨bp, hbp⟩ := Option.isSome_iff_exists.1 h.1.1
      obtain ⟨bm, hbm⟩ := Option.isSome_iff_exists.1 h.1.2
      obtain ⟨bk, hbk⟩ := Option.isSome_iff_exists.1 h.2
      obtain ⟨fs₁, h1⟩ := store2_some (con := toyCon) (h2 := pkBegin) (e2 := pkEnd) (fs := toyFS) (p := mskDefault)
        (q := pkDefault) framing_msk hbm hbp rfl rfl t₁
      obtain ⟨-, hcr, -, ⟨bm', hbm', hm⟩, bp', hbp', hp⟩ := store2_ok framing_msk framing_pk (by decide) h1
      obtain ⟨fs₂, h2⟩ := store_some (con := toyCon) (p := chars% "aa.key") (head := auSkBegin) (tail := auSkEnd) hbk
        (fs := fs₁) (by rw [hcr]; rfl) t₂
      refine ⟨fs₁, fs₂, t₁, t₂, rfl, ?_, ?_⟩
      · show (CM.call (Bdabe.setup toyEnv) >>= fun k => (store toyCon mskDefault k.2 mskBegin mskEnd >>= fun _ =>
          store toyCon pkDefault k.1 pkBegin pkEnd)) toyFS toyTape = _
        rw [CM.bind_of_ok (call_eq hset), h1]
      · show (serDec (Bdabe.PublicKey Fr Fr Fr) toyCon pkDefault >>= fun p => serDec (Bdabe.MasterKey Fr) toyCon mskDefault >>=
          fun m => CM.call (Bdabe.authgen p m (chars% "aa")) >>= fun sk =>
            store toyCon (chars% "aa.key") sk auSkBegin auSkEnd) fs₁ t₁ = _
        rw [CM.bind_of_ok (serDec_of_ser hbp' hp _), CM.bind_of_ok (serDec_of_ser hbm' hm _), CM.bind_of_ok (call_eq hau), h2]
    · cases h
  · cases h

end Rabe
