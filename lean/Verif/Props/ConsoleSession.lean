import Verif.Props.ConsoleObjects
import Verif.Props.Yct14

/-!
# C56 with arbitrary arguments, and with other commands in between

`C56_ac17cp_chain_partial` is about the four commands one after another with the default file names. Here the names are
arbitrary and any other commands may run between them, successful or not, as long as they do not write the files
concerned. The same is shown for YCT14 with the `serde` feature (with `borsh` it is false, see
`C56_violated_yct14_encrypt`).
-/

namespace Rabe
open Borsh Console
open Serde (SerdeLaw Shallow)

set_option linter.unusedSectionVars false

variable {F G1 G2 Gt : Type} [Field F] [DecidableEq F] [AddCommGroup G1] [Module F G1]
  [AddCommGroup G2] [Module F G2] [AddCommGroup Gt] [Module F Gt]
  [Borsh F] [Serde F] [Borsh G1] [Serde G1] [Borsh G2] [Serde G2] [Borsh Gt] [Serde Gt]

/-- A command line. -/
structure Line where
  cmd : Cmd
  given : Given
  scheme : Scheme
  lang : PolicyLanguage

/-- The files it may write, see `C61_frame`. -/
def Line.outputs (l : Line) : List Str := Rabe.outputs l.given l.cmd l.scheme

/-- The state after the commands have run one after another, whatever each of them reports. -/
def session (con : Con F G1 G2 Gt) : List Line → FS × Tape F G1 G2 Gt → FS × Tape F G1 G2 Gt
  | [], s => s
  | l :: ls, s => session con ls (run con l.cmd l.given l.scheme l.lang s.1 s.2).2

/-- A file that none of the commands may write is the same afterwards. -/
theorem C61_session (con : Con F G1 G2 Gt) (q : Str) : ∀ (ls : List Line) (s : FS × Tape F G1 G2 Gt),
    (∀ l ∈ ls, q ∉ l.outputs) → (session con ls s).1.file q = s.1.file q
  | [], _, _ => rfl
  | l :: ls, s, h => by
    rw [session, C61_session con q ls _ fun x hx => h x (List.mem_cons_of_mem _ hx)]
    exact C61_frame con l.cmd l.given l.scheme l.lang s.1 s.2 q (h l List.mem_cons_self)

theorem Reads.transfer {α : Type} [Borsh α] [Serde α] {con : Con F G1 G2 Gt} {fs fs' : FS} {p : Str} {x : α}
    (h : Reads con fs p x) (he : fs'.file p = fs.file p) : Reads con fs' p x := by
  intro t
  have h1 := h t
  unfold serDec CM.readFile at h1 ⊢
  simp only [CM.bind_apply, he] at h1 ⊢
  revert h1
  cases fs.file p with
  | none => intro h1; cases h1
  | some b =>
    dsimp only
    cases ofUtf8 b with
    | none => intro h1; cases h1
    | some s =>
      simp only [Res.unwrapOption, CM.lift]
      cases decText con s with
      | err => intro h1; cases h1
      | panic => intro h1; cases h1
      | ok y =>
        dsimp only
        cases con.format.read α y with
        | none => intro h1; cases h1
        | some g => intro h1; cases h1; rfl

theorem Reads.unique {α : Type} [Borsh α] [Serde α] {con : Con F G1 G2 Gt} {fs : FS} {p : Str} {x y : α}
    (hx : Reads con fs p x) (hy : Reads con fs p y) (t : Tape F G1 G2 Gt) : x = y := by
  have h := hx t
  rw [hy t] at h
  cases h
  rfl

/-- The files of four command lines `setup`, `keygen`, `encrypt`, `decrypt` fit together: keys are read from where they
were written, and `decrypt` is given the output of `encrypt`. -/
structure Fitting (g1 g2 g3 g4 : Given) (f : Str) : Prop where
  msk : argOr g2 .msk (chars% "msk.key") = argOr g1 .msk (chars% "msk.key")
  pk : argOr g3 .pk (chars% "pk.key") = argOr g1 .pk (chars% "pk.key")
  sk : argOr g4 .sk (chars% "sk.key") = argOr g2 .sk (chars% "sk.key")
  file : (g3 .file).head? = some f
  ct : argOr g4 .file [] = f ++ chars% ".ct"
  msk_ne_pk : argOr g1 .msk (chars% "msk.key") ≠ argOr g1 .pk (chars% "pk.key")
  pk_ne_sk : argOr g1 .pk (chars% "pk.key") ≠ argOr g2 .sk (chars% "sk.key")
  file_ne : f ∉ [argOr g1 .msk (chars% "msk.key"), argOr g1 .pk (chars% "pk.key"), argOr g2 .sk (chars% "sk.key")]
  ct_ne : argOr g2 .sk (chars% "sk.key") ≠ f ++ chars% ".ct"

/-- The commands do not write these files. -/
def Avoid (ls : List Line) (files : List Str) : Prop := ∀ q ∈ files, ∀ l ∈ ls, q ∉ l.outputs

theorem frame_ok {con : Con F G1 G2 Gt} {cmd : Cmd} {given : Given} {scheme : Scheme} {lang : PolicyLanguage} {fs fs' : FS}
    {t t' : Tape F G1 G2 Gt} {r : Res Unit} (h : run con cmd given scheme lang fs t = (r, fs', t')) {q : Str}
    (hq : q ∉ outputs given cmd scheme) : fs'.file q = fs.file q := by
  have := C61_frame con cmd given scheme lang fs t q hq
  rwa [h] at this

variable [BorshLaw F] [BorshLaw G1] [BorshLaw G2] [BorshLaw Gt] [SerdeLaw F] [SerdeLaw G1] [SerdeLaw G2] [SerdeLaw Gt]
  [Shallow F] [Shallow G1] [Shallow G2] [Shallow Gt]

/-- **C56, partial: YCT14 with the `serde` feature.** Setup, key generation, encryption and decryption with any fitting
arguments and any other commands in between: if the first three succeed, the last one recovers the content of the file that
was encrypted. (Full claim: for every scheme, both features, and delegation; false, see `C56_violated_yct14_encrypt`. The
plaintext is not stored, see C55. `Regular` and `Separate` as in C36.) -/
theorem C56_yct14_cbor_session_partial [BigChar F] (con : Con F G1 G2 Gt) (hfmt : con.format = .cbor)
    (l1 l2 l3 : PolicyLanguage) (g1 g2 g3 g4 : Given) (f : Str) (hfit : Fitting g1 g2 g3 g4 f) (p : Pol)
    (hreg : Regular (argOr g2 .policy []) l2 p) (hsat : p.sat (g3 .attributes) = true) (hsep : Separate p (g3 .attributes))
    (b1 b2 b3 : List Line)
    (h1b : Avoid b1 [argOr g1 .msk (chars% "msk.key"), argOr g1 .pk (chars% "pk.key"), f])
    (h2b : Avoid b2 [argOr g1 .pk (chars% "pk.key"), argOr g2 .sk (chars% "sk.key"), f])
    (h3b : Avoid b3 [argOr g2 .sk (chars% "sk.key"), f ++ chars% ".ct"])
    (fs0 fs1 fs2 fs3 : FS) (t0 t1 t2 t3 : Tape F G1 G2 Gt)
    (h1 : run con .setup g1 .yct14 l1 fs0 t0 = (.ok (), fs1, t1))
    (h2 : run con .keygen g2 .yct14 l2 (session con b1 (fs1, t1)).1 (session con b1 (fs1, t1)).2 = (.ok (), fs2, t2))
    (h3 : run con .encrypt g3 .yct14 l3 (session con b2 (fs2, t2)).1 (session con b2 (fs2, t2)).2 = (.ok (), fs3, t3)) :
    ∃ pt, fs0.file f = some pt ∧
      decryptPt con g4 .yct14 (session con b3 (fs3, t3)).1 (session con b3 (fs3, t3)).2 =
        (.ok pt, session con b3 (fs3, t3)) := by
  have hfn := hfit.file_ne
  simp only [List.mem_cons, List.not_mem_nil, or_false, not_or] at hfn
  obtain ⟨hf1, hf2, hf3⟩ := hfn
  obtain ⟨pk, msk, -, hset, rm, rp⟩ := C63_setup_partial con g1 .yct14 l1 _ _ _ _ hfit.msk_ne_pk h1
  rw [map_kept_cbor hfmt] at rm rp
  obtain ⟨msk', sk, rm', hkey, rs⟩ := C63_keygen_partial con g2 .yct14 l2 _ _ _ _ h2
  rw [map_kept_cbor hfmt] at rs
  rw [hfit.msk] at rm'
  have e1 := C61_session con (argOr g1 .msk (chars% "msk.key")) b1 (fs1, t1) (h1b _ (by simp))
  obtain rfl := rm'.unique (rm.transfer e1) t0
  obtain ⟨f', pt, hf', hpt, pk', ct, -, rp', henc, rc⟩ := C63_encrypt_partial con g3 .yct14 l3 _ _ _ _ h3
  rw [hfit.file] at hf'
  cases hf'
  rw [hfit.pk] at rp'
  have e2 := C61_session con (argOr g1 .pk (chars% "pk.key")) b1 (fs1, t1) (h1b _ (by simp))
  have e3 := frame_ok h2 (q := argOr g1 .pk (chars% "pk.key")) (by simpa [outputs] using hfit.pk_ne_sk)
  have e4 := C61_session con (argOr g1 .pk (chars% "pk.key")) b2 (fs2, t2) (h2b _ (by simp))
  obtain rfl := rp'.unique (((rp.transfer e2).transfer e3).transfer e4) t0
  refine ⟨pt, ?_, ?_⟩
  · have d1 := frame_ok h1 (q := f) (by simp [outputs, hf1, hf2])
    have d2 := C61_session con f b1 (fs1, t1) (h1b _ (by simp))
    have d3 := frame_ok h2 (q := f) (by simp [outputs, hf3])
    have d4 := C61_session con f b2 (fs2, t2) (h2b _ (by simp))
    rw [← hpt, d4, d3, d2, d1]
  · have r5 := frame_ok h3 (q := argOr g2 .sk (chars% "sk.key")) (by simp [outputs, hfit.file, hfit.ct_ne])
    have r6 := C61_session con (argOr g2 .sk (chars% "sk.key")) b2 (fs2, t2) (h2b _ (by simp))
    have r7 := C61_session con (argOr g2 .sk (chars% "sk.key")) b3 (fs3, t3) (h3b _ (by simp))
    have r8 := C61_session con (f ++ chars% ".ct") b3 (fs3, t3) (h3b _ (by simp))
    have rs4 := ((rs.transfer r6).transfer r5).transfer r7
    have rc4 := rc.transfer r8
    have k1 : fileOr .decrypt g4 .sk skDefault = argOr g2 .sk (chars% "sk.key") := (fileOr_argOr rfl).trans hfit.sk
    have k2 : (valueOf .decrypt g4 .file).getD [] = f ++ chars% ".ct" := (valueOf_getD rfl rfl).trans hfit.ct
    generalize session con b3 (fs3, t3) = s4 at rs4 rc4
    obtain ⟨fs4, t4⟩ := s4
    unfold decryptPt
    simp only [k1, k2]
    rw [CM.bind_of_ok (rs4 t4), CM.bind_of_ok (rc4 t4)]
    show (Yct14.decrypt con.env sk ct, fs4, t4) = _
    rw [Yct14.C36_yct14_correct_partial con.env _ _ _ pk msk hset _ l2 p hreg _ _ sk hkey _ pt _ _ ct henc hsat hsep]

/-- **C56, partial: AC17CP.** The same for AC17CP, with both features. (Full claim: for every scheme and for delegation;
false. `Regular` and `Once` as in C30.) -/
theorem C56_ac17cp_session_partial [BigChar F] (con : Con F G1 G2 Gt)
    (l1 l2 l3 : PolicyLanguage) (g1 g2 g3 g4 : Given) (f : Str) (hfit : Fitting g1 g2 g3 g4 f) (p : Pol)
    (hreg : Regular (argOr g3 .policy []) l3 p) (hsat : p.sat (g2 .attributes) = true) (honce : Ac17.Once p (g2 .attributes))
    (b1 b2 b3 : List Line)
    (h1b : Avoid b1 [argOr g1 .msk (chars% "msk.key"), argOr g1 .pk (chars% "pk.key"), f])
    (h2b : Avoid b2 [argOr g1 .pk (chars% "pk.key"), argOr g2 .sk (chars% "sk.key"), f])
    (h3b : Avoid b3 [argOr g2 .sk (chars% "sk.key"), f ++ chars% ".ct"])
    (fs0 fs1 fs2 fs3 : FS) (t0 t1 t2 t3 : Tape F G1 G2 Gt)
    (h1 : run con .setup g1 .ac17cp l1 fs0 t0 = (.ok (), fs1, t1))
    (h2 : run con .keygen g2 .ac17cp l2 (session con b1 (fs1, t1)).1 (session con b1 (fs1, t1)).2 = (.ok (), fs2, t2))
    (h3 : run con .encrypt g3 .ac17cp l3 (session con b2 (fs2, t2)).1 (session con b2 (fs2, t2)).2 = (.ok (), fs3, t3)) :
    ∃ pt, fs0.file f = some pt ∧
      decryptPt con g4 .ac17cp (session con b3 (fs3, t3)).1 (session con b3 (fs3, t3)).2 =
        (.ok pt, session con b3 (fs3, t3)) := by
  have hfn := hfit.file_ne
  simp only [List.mem_cons, List.not_mem_nil, or_false, not_or] at hfn
  obtain ⟨hf1, hf2, hf3⟩ := hfn
  obtain ⟨pk, msk, hset, rm, rp⟩ := C63_setup_partial con g1 .ac17cp l1 _ _ _ _ hfit.msk_ne_pk h1
  obtain ⟨msk', sk, rm', hkey, rs⟩ := C63_keygen_partial con g2 .ac17cp l2 _ _ _ _ h2
  rw [hfit.msk] at rm'
  have e1 := C61_session con (argOr g1 .msk (chars% "msk.key")) b1 (fs1, t1) (h1b _ (by simp))
  obtain rfl := rm'.unique (rm.transfer e1) t0
  obtain ⟨f', pt, hf', hpt, pk', ct, rp', henc, rc⟩ := C63_encrypt_partial con g3 .ac17cp l3 _ _ _ _ h3
  rw [hfit.file] at hf'
  cases hf'
  rw [hfit.pk] at rp'
  have e2 := C61_session con (argOr g1 .pk (chars% "pk.key")) b1 (fs1, t1) (h1b _ (by simp))
  have e3 := frame_ok h2 (q := argOr g1 .pk (chars% "pk.key")) (by simpa [outputs] using hfit.pk_ne_sk)
  have e4 := C61_session con (argOr g1 .pk (chars% "pk.key")) b2 (fs2, t2) (h2b _ (by simp))
  obtain rfl := rp'.unique (((rp.transfer e2).transfer e3).transfer e4) t0
  refine ⟨pt, ?_, ?_⟩
  · have d1 := frame_ok h1 (q := f) (by simp [outputs, hf1, hf2])
    have d2 := C61_session con f b1 (fs1, t1) (h1b _ (by simp))
    have d3 := frame_ok h2 (q := f) (by simp [outputs, hf3])
    have d4 := C61_session con f b2 (fs2, t2) (h2b _ (by simp))
    rw [← hpt, d4, d3, d2, d1]
  · have r5 := frame_ok h3 (q := argOr g2 .sk (chars% "sk.key")) (by simp [outputs, hfit.file, hfit.ct_ne])
    have r6 := C61_session con (argOr g2 .sk (chars% "sk.key")) b2 (fs2, t2) (h2b _ (by simp))
    have r7 := C61_session con (argOr g2 .sk (chars% "sk.key")) b3 (fs3, t3) (h3b _ (by simp))
    have r8 := C61_session con (f ++ chars% ".ct") b3 (fs3, t3) (h3b _ (by simp))
    have rs4 := ((rs.transfer r6).transfer r5).transfer r7
    have rc4 := rc.transfer r8
    have k1 : fileOr .decrypt g4 .sk skDefault = argOr g2 .sk (chars% "sk.key") := (fileOr_argOr rfl).trans hfit.sk
    have k2 : (valueOf .decrypt g4 .file).getD [] = f ++ chars% ".ct" := (valueOf_getD rfl rfl).trans hfit.ct
    generalize session con b3 (fs3, t3) = s4 at rs4 rc4
    obtain ⟨fs4, t4⟩ := s4
    unfold decryptPt
    simp only [k1, k2]
    rw [CM.bind_of_ok (rs4 t4), CM.bind_of_ok (rc4 t4)]
    show (Ac17.cpDecrypt con.env sk ct, fs4, t4) = _
    rw [Ac17.C30_ac17_cp_correct_partial con.env _ _ _ _ hset _ _ _ sk hkey _ l3 p hreg pt _ _ ct henc hsat honce]

/-! ## The hypotheses can be met -/

/-- `setup -- a₁ a₂ …`. -/
def universeArgs (attrs : List Str) : Given
  | .attributes => attrs
  | _ => []

/-- `keygen` with a policy and a name for the key file. -/
def policyArgs (policy s : Str) : Given
  | .policy => [policy]
  | .sk => [s]
  | _ => []

/-- `encrypt f` with the attributes `a₁ a₂ …`. -/
def labelArgs (f : Str) (attrs : List Str) : Given
  | .file => [f]
  | .attributes => attrs
  | _ => []

/-- `decrypt f` with the key file `s`. -/
def openArgs (f s : Str) : Given
  | .file => [f]
  | .sk => [s]
  | _ => []

theorem openArgs_legal (attrs attrs' : List Str) (policy f f' s : Str) : Legal .setup (universeArgs attrs) ∧
    Legal .keygen (policyArgs policy s) ∧ Legal .encrypt (labelArgs f attrs') ∧ Legal .decrypt (openArgs f' s) := by
  refine ⟨?_, ?_, ?_, ?_⟩ <;> intro x <;> cases x <;>
    simp [declare, universeArgs, policyArgs, labelArgs, openArgs]

/-- Commands in between, which fail at once. -/
def others : List Line := [⟨.reqAttrPk, noArgs, .mke08, .human⟩, ⟨.delegate, noArgs, .ac17cp, .json⟩]

omit [BorshLaw F] [BorshLaw G1] [BorshLaw G2] [BorshLaw Gt] [SerdeLaw F] [SerdeLaw G1] [SerdeLaw G2] [SerdeLaw Gt]
  [Shallow F] [Shallow G1] [Shallow G2] [Shallow Gt] in
theorem session_others (con : Con F G1 G2 Gt) (s : FS × Tape F G1 G2 Gt) : session con others s = s := rfl

/-- **C56, existence.** With the `serde` feature the commands of YCT14 succeed if the library calls do, the objects can be
serialised and the files can be created. -/
theorem C56_yct14_cbor_runs (con : Con F G1 G2 Gt) (hfmt : con.format = .cbor) (lang : PolicyLanguage)
    (uni attrs : List Str) (huni : uni ≠ []) (policy s f : Str) (fs0 : FS)
    (t0 t1 t2 t3 : Tape F G1 G2 Gt) (pk : Yct14.PublicKey F Gt) (msk : Yct14.MasterKey F Gt) (sk : Yct14.SecretKey F Gt)
    (ct : Yct14.Ciphertext F Gt) (pt : Bytes) (hpt : fs0.file f = some pt)
    (hset : Yct14.setup (G1 := G1) (G2 := G2) uni t0 = .ok ((pk, msk), t1))
    (hkey : Yct14.keygen (G1 := G1) (G2 := G2) msk policy lang t1 = .ok (sk, t2))
    (henc : Yct14.encrypt con.env pk attrs pt t2 = .ok (ct, t3))
    (hs : (con.format.ser pk).isSome ∧ (con.format.ser msk).isSome ∧ (con.format.ser sk).isSome ∧ (con.format.ser ct).isSome)
    (hc : ∀ p ∈ [mskDefault, pkDefault, s, f ++ chars% ".ct"], fs0.creatable p = true)
    (hsp : s ∉ [mskDefault, pkDefault]) (hf : f ∉ [mskDefault, pkDefault, s]) :
    ∃ fs1 fs2 fs3, run con .setup (universeArgs uni) .yct14 lang fs0 t0 = (.ok (), fs1, t1) ∧
      run con .keygen (policyArgs policy s) .yct14 lang fs1 t1 = (.ok (), fs2, t2) ∧
      run con .encrypt (labelArgs f attrs) .yct14 lang fs2 t2 = (.ok (), fs3, t3) := by
  simp only [List.mem_cons, List.not_mem_nil, or_false, not_or, forall_eq_or_imp, forall_eq] at hf hc hsp
  obtain ⟨hf1, hf2, hf3⟩ := hf
  obtain ⟨hc1, hc2, hc3, hc4⟩ := hc
  obtain ⟨hs1, hs2⟩ := hsp
  obtain ⟨bp, hbp⟩ := Option.isSome_iff_exists.1 hs.1
  obtain ⟨bm, hbm⟩ := Option.isSome_iff_exists.1 hs.2.1
  obtain ⟨bk, hbk⟩ := Option.isSome_iff_exists.1 hs.2.2.1
  obtain ⟨bc, hbc⟩ := Option.isSome_iff_exists.1 hs.2.2.2
  obtain ⟨fs1, h1⟩ := store2_some (con := con) (h2 := pkBegin) (e2 := pkEnd) framing_msk hbm hbp hc1 hc2 t1
  obtain ⟨-, hcr1, ho1, ⟨bm', hbm', hm⟩, bp', hbp', hp⟩ := store2_ok framing_msk framing_pk (by decide) h1
  obtain ⟨fs2, h2⟩ := store_some (con := con) (head := skBegin) (tail := skEnd) (fs := fs1) hbk
    (p := s) (by rw [hcr1]; exact hc3) t2
  obtain ⟨-, hcr2, -, ho2, -⟩ := store_ok framing_sk h2
  obtain ⟨fs3, h3⟩ := store_some (con := con) (head := ctBegin) (tail := ctEnd) (fs := fs2) hbc
    (p := f ++ chars% ".ct") (by rw [hcr2, hcr1]; exact hc4) t3
  have rm : Reads con fs1 mskDefault msk := fun t => by
    rw [serDec_holds hm, read_yct14_msk hbm', map_kept_cbor hfmt]
  have rp : Reads con fs1 pkDefault pk := fun t => by
    rw [serDec_holds hp, read_yct14_pk hbp', map_kept_cbor hfmt]
  refine ⟨fs1, fs2, fs3, ?_, ?_, ?_⟩
  · obtain ⟨a, as, rfl⟩ := List.exists_cons_of_ne_nil huni
    show (CM.call (Yct14.setup (G1 := G1) (G2 := G2) (a :: as)) >>= fun k => (store con mskDefault k.2 mskBegin mskEnd >>=
      fun _ => store con pkDefault k.1 pkBegin pkEnd)) fs0 t0 = (.ok (), fs1, t1)
    rw [CM.bind_of_ok (call_eq hset)]
    exact h1
  · show (serDec (Yct14.PublicKey F Gt) con pkDefault >>= fun _ => serDec (Yct14.MasterKey F Gt) con mskDefault >>= fun m =>
      CM.callUnwrap (Yct14.keygen (G1 := G1) (G2 := G2) m policy lang) >>= fun k => store con s k skBegin skEnd) fs1 t1 =
        (.ok (), fs2, t2)
    have hcall : CM.callUnwrap (Yct14.keygen (G1 := G1) (G2 := G2) msk policy lang) fs1 t1 = (.ok sk, fs1, t2) := by
      unfold CM.callUnwrap; rw [hkey]
    rw [CM.bind_of_ok (rp t1), CM.bind_of_ok (rm t1), CM.bind_of_ok hcall]
    exact h2
  · have he : run con .encrypt (labelArgs f attrs) .yct14 lang = CM.readToVec f >>= fun buffer =>
        serDec (Yct14.PublicKey F Gt) con pkDefault >>= fun p => CM.call (Yct14.encrypt con.env p attrs buffer) >>= fun ct =>
          store con (f ++ chars% ".ct") ct ctBegin ctEnd := by
      cases attrs <;> rfl
    rw [he]
    have hr : CM.readToVec f fs2 t2 = (.ok pt, fs2, t2) := by
      unfold CM.readToVec
      rw [ho2 f hf3, ho1 f hf1 hf2, hpt]
      rfl
    rw [CM.bind_of_ok hr, CM.bind_of_ok (rp.transfer (ho2 pkDefault (Ne.symm hs2)) t2), CM.bind_of_ok (call_eq henc)]
    exact h3

/-- The console built with the `serde` feature. -/
def toyConC : Con Fr Fr Fr Fr := { toyCon with format := .cbor }

/-- A session of YCT14 with the `serde` feature in which all the hypotheses hold; the console with the `borsh` feature
fails in every situation. -/
theorem C56_yct14_cbor_witness :
    (∃ (fs1 fs2 fs3 : FS) (t1 t2 t3 : Tape Fr Fr Fr Fr),
      run toyConC .setup (universeArgs [['A'], ['B']]) .yct14 .human toyFS toyTape = (.ok (), fs1, t1) ∧
      run toyConC .keygen (policyArgs (chars% "\"A\" and \"B\"") ['s']) .yct14 .human fs1 t1 = (.ok (), fs2, t2) ∧
      run toyConC .encrypt (labelArgs ['f'] [['B'], ['A']]) .yct14 .human fs2 t2 = (.ok (), fs3, t3) ∧
      decryptPt toyConC (openArgs (chars% "f.ct") ['s']) .yct14 fs3 t3 = (.ok [7], fs3, t3)) ∧
    (∀ (given : Given) (fs : FS) (t : Tape Fr Fr Fr Fr), (run toyCon .encrypt given .yct14 .human fs t).1 ≠ .ok ()) := by
  refine ⟨?_, fun given fs t => (C56_violated_yct14_encrypt toyCon rfl given .human fs t).1⟩
  have h : (match Yct14.setup (G1 := Fr) (G2 := Fr) [['A'], ['B']] toyTape with
    | .ok ((pk, msk), t1) => match Yct14.keygen (G1 := Fr) (G2 := Fr) msk (chars% "\"A\" and \"B\"") .human t1 with
      | .ok (sk, t2) => match Yct14.encrypt toyEnv pk [['B'], ['A']] [7] t2 with
        | .ok (ct, _) => (toyConC.format.ser pk).isSome && (toyConC.format.ser msk).isSome &&
            (toyConC.format.ser sk).isSome && (toyConC.format.ser ct).isSome
        | _ => false
      | _ => false
    | _ => false) = true := by decide +kernel
  split at h
  · rename_i pk msk t1 hset
    split at h
    · rename_i sk t2 hkey
      split at h
      · rename_i ct t3 henc
        simp only [Bool.and_eq_true] at h
        obtain ⟨fs1, fs2, fs3, h1, h2, h3⟩ := C56_yct14_cbor_runs toyConC rfl .human [['A'], ['B']] [['B'], ['A']] (by simp)
          (chars% "\"A\" and \"B\"") ['s'] ['f'] toyFS toyTape t1 t2 t3 pk msk sk ct [7] rfl hset hkey henc
          ⟨h.1.1.1, h.1.1.2, h.1.2, h.2⟩ (by decide) (by decide) (by decide)
        have hreg : Regular (chars% "\"A\" and \"B\"") .human (.gate .and [.leaf ['A'] 2, .leaf ['B'] 10]) :=
          ⟨rfl, by simp, by simp [Pol.Wide], by simp⟩
        obtain ⟨pt, hpt, hd⟩ := C56_yct14_cbor_session_partial toyConC rfl .human .human .human
          (universeArgs [['A'], ['B']]) (policyArgs (chars% "\"A\" and \"B\"") ['s']) (labelArgs ['f'] [['B'], ['A']])
          (openArgs (chars% "f.ct") ['s']) ['f'] (by constructor <;> decide) _ hreg (by decide +kernel)
          (by unfold Separate; decide +kernel) others others others (by unfold Avoid; decide) (by unfold Avoid; decide)
          (by unfold Avoid; decide) toyFS fs1 fs2 fs3 toyTape t1 t2 t3 h1 h2 h3
        cases hpt
        exact ⟨fs1, fs2, fs3, t1, t2, t3, h1, h2, h3, hd⟩
      · cases h
    · cases h
  · cases h

/-- A session of AC17CP in which all the hypotheses hold, with the `borsh` feature. -/
example : ∃ (fs1 fs2 fs3 : FS) (t1 t2 t3 : Tape Fr Fr Fr Fr) (p : Pol),
    Fitting noArgs (keygenArgs ['A']) (encryptArgs ['f'] (chars% "\"A\" or \"B\"")) (decryptArgs (chars% "f.ct")) ['f'] ∧
    Regular (chars% "\"A\" or \"B\"") .human p ∧ p.sat [['A']] = true ∧ Ac17.Once p [['A']] ∧
    Avoid others [chars% "msk.key", chars% "pk.key", chars% "sk.key", ['f'], chars% "f.ct"] ∧
    run toyCon .setup noArgs .ac17cp .human toyFS toyTape = (.ok (), fs1, t1) ∧
    run toyCon .keygen (keygenArgs ['A']) .ac17cp .human (session toyCon others (fs1, t1)).1
      (session toyCon others (fs1, t1)).2 = (.ok (), fs2, t2) ∧
    run toyCon .encrypt (encryptArgs ['f'] (chars% "\"A\" or \"B\"")) .ac17cp .human
      (session toyCon others (fs2, t2)).1 (session toyCon others (fs2, t2)).2 = (.ok (), fs3, t3) := by
  obtain ⟨fs1, fs2, fs3, t1, t2, t3, h1, h2, h3, -⟩ := C55_violated_witness
  exact ⟨fs1, fs2, fs3, t1, t2, t3, .gate .or [.leaf ['A'] 2, .leaf ['B'] 9], by constructor <;> decide,
    ⟨rfl, by simp, by simp [Pol.Wide], by simp⟩, by simp, by simp [Ac17.Once, Pol.names], by unfold Avoid; decide, h1, h2, h3⟩

end Rabe
