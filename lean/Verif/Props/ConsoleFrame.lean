import Verif.Props.ConsoleChain

/-!
# C61, C62: which files the console commands write
-/

namespace Rabe

open Console
open Serde (SerdeLaw Shallow)

set_option linter.unusedSectionVars false

section
variable {F G1 G2 Gt : Type} [Field F] [DecidableEq F] [AddCommGroup G1] [Module F G1]
  [AddCommGroup G2] [Module F G2] [AddCommGroup Gt] [Module F Gt]
  [Borsh F] [Serde F] [Borsh G1] [Serde G1] [Borsh G2] [Serde G2] [Borsh Gt] [Serde Gt]

/-- The value given for an argument, or a default. -/
def argOr (given : Given) (a : Arg) (dflt : Str) : Str :=
  match given a with
  | [] => dflt
  | f :: _ => f

/-- The files a command may write: what a user expects from the arguments and the default names. -/
def outputs (given : Given) : Cmd → Scheme → List Str
  | .setup, .aw11 => [argOr given .msk (chars% "msk.key")]
  | .setup, _ => [argOr given .msk (chars% "msk.key"), argOr given .pk (chars% "pk.key")]
  | .authgen, .aw11 => [argOr given .msk (chars% "msk.key"), argOr given .pk (chars% "pk.key")]
  | .authgen, _ => (given .name).head?.toList.map (· ++ chars% ".key")
  | .keygen, .aw11 => (given .name).head?.toList.map (· ++ chars% ".key")
  | .keygen, .bdabe => (given .name).head?.toList.map (· ++ chars% ".key")
  | .keygen, .mke08 => (given .name).head?.toList.map (· ++ chars% ".key")
  | .keygen, _ => [argOr given .sk (chars% "sk.key")]
  | .delegate, _ => []
  | .encrypt, _ => (given .file).head?.toList.map (· ++ chars% ".ct")
  | .decrypt, _ => []
  | .reqAttrPk, _ => [argOr given .pka (chars% "pka.key")]
  | .reqAttrSk, _ => [argOr given .ska (chars% "ska.key")]

/-- Only the files of the list may change. -/
def Touches {α : Type} (S : List Str) (m : CM F G1 G2 Gt α) : Prop :=
  ∀ fs t, (∀ q, q ∉ S → (m fs t).2.1.file q = fs.file q) ∧ (m fs t).2.1.creatable = fs.creatable

section
variable {α β : Type} {S : List Str}

theorem touches_bind {m : CM F G1 G2 Gt α} {f : α → CM F G1 G2 Gt β} (hm : Touches S m) (hf : ∀ a, Touches S (f a)) :
    Touches S (m >>= f) := by
  intro fs t
  have h1 := hm fs t
  rw [CM.bind_apply]
  generalize m fs t = x at h1
  obtain ⟨r, fs', t'⟩ := x
  cases r with
  | ok a =>
    have h2 := hf a fs' t'
    exact ⟨fun q hq => (h2.1 q hq).trans (h1.1 q hq), h2.2.trans h1.2⟩
  | err => exact h1
  | panic => exact h1

theorem touches_of_eq {m : CM F G1 G2 Gt α} (h : ∀ fs t, (m fs t).2.1 = fs) : Touches S m :=
  fun fs t => by rw [h]; exact ⟨fun _ _ => rfl, rfl⟩

theorem touches_lift (r : Res α) : Touches S (CM.lift r : CM F G1 G2 Gt α) := touches_of_eq fun _ _ => rfl

theorem touches_pure (a : α) : Touches S (pure a : CM F G1 G2 Gt α) := touches_of_eq fun _ _ => rfl

theorem touches_call (m : RM F G1 G2 Gt α) : Touches S (CM.call m) := touches_of_eq fun fs t => by
  unfold CM.call; split <;> rfl

theorem touches_callUnwrap (m : RM F G1 G2 Gt α) : Touches S (CM.callUnwrap m) := touches_of_eq fun fs t => by
  unfold CM.callUnwrap; split <;> rfl

theorem touches_callTry (m : RM F G1 G2 Gt α) : Touches S (CM.callTry m) := touches_of_eq fun fs t => by
  unfold CM.callTry; split <;> rfl

theorem touches_readToVec (p : Str) : Touches S (CM.readToVec p : CM F G1 G2 Gt Bytes) := touches_of_eq fun _ _ => rfl

theorem touches_writeFromVec (p : Str) (d : Bytes) : Touches S (CM.writeFromVec p d : CM F G1 G2 Gt Unit) :=
  touches_of_eq fun _ _ => rfl

theorem touches_serDec [Borsh α] [Serde α] (con : Con F G1 G2 Gt) (p : Str) : Touches S (serDec α con p) :=
  touches_of_eq fun fs t => by
    obtain ⟨r, hr⟩ := serDec_state (α := α) con p fs t
    rw [hr]

theorem touches_serDecAll [Borsh α] [Serde α] (con : Con F G1 G2 Gt) : ∀ ps : List Str, Touches S (serDecAll α con ps)
  | [] => touches_pure _
  | p :: ps => touches_bind (touches_serDec con p) fun _ => touches_bind (touches_serDecAll con ps) fun _ => touches_pure _

theorem touches_writeFile {p : Str} (hp : p = [] ∨ p ∈ S) (c : Str) : Touches S (CM.writeFile p c : CM F G1 G2 Gt Unit) := by
  intro fs t
  rcases hp with rfl | hp
  · rw [CM.writeFile_nil]
    exact ⟨fun _ _ => rfl, rfl⟩
  · unfold CM.writeFile
    split
    · refine ⟨fun q hq => ?_, rfl⟩
      have : q ≠ p := fun e => hq (e ▸ hp)
      simp [FS.write, this]
    · exact ⟨fun _ _ => rfl, rfl⟩

theorem touches_store [Borsh α] [Serde α] (con : Con F G1 G2 Gt) {p : Str} (hp : p = [] ∨ p ∈ S) (x : α) (h e : Str) :
    Touches S (store con p x h e) := touches_bind (touches_lift _) fun c => touches_writeFile hp c

theorem touches_storeResult [Borsh α] [Serde α] (con : Con F G1 G2 Gt) {p : Str} (hp : p = [] ∨ p ∈ S) (x : Option α) (h e : Str) :
    Touches S (storeResult con p x h e) := touches_bind (touches_lift _) fun c => touches_writeFile hp c

end

theorem fileOr_argOr {cmd : Cmd} {given : Given} {a : Arg} {d : Str} (h : declare cmd a = some { dflt := some d }) :
    fileOr cmd given a d = argOr given a d := by
  unfold fileOr valueOf valuesOf argOr
  rw [h]
  dsimp only
  cases given a with
  | nil => rfl
  | cons f fs => simp

theorem nameFile_mem {cmd : Cmd} {given : Given} (h : declare cmd .name = some {}) :
    nameFile (valueOf cmd given .name) = [] ∨
      nameFile (valueOf cmd given .name) ∈ (given .name).head?.toList.map (· ++ chars% ".key") := by
  unfold valueOf valuesOf
  rw [h]
  dsimp only
  cases given .name with
  | nil => left; rfl
  | cons f fs => right; simp [nameFile]

/-- The proof of `C61_frame` for one command: walk through the program; hypotheses say that the stored files are outputs. -/
macro "frame" : tactic => `(tactic| repeat' first
  | with_reducible exact touches_lift _ | with_reducible exact touches_pure _ | with_reducible exact touches_call _
  | with_reducible exact touches_callUnwrap _ | with_reducible exact touches_callTry _
  | with_reducible exact touches_readToVec _ | with_reducible exact touches_writeFromVec _ _
  | with_reducible exact touches_serDec _ _ | with_reducible exact touches_serDecAll _ _
  | ((with_reducible refine touches_store _ ?_ _ _ _); first | assumption | exact Or.inl rfl)
  | ((with_reducible refine touches_storeResult _ ?_ _ _ _); first | assumption | exact Or.inl rfl)
  | (with_reducible refine touches_bind ?_ (fun _ => ?_)) | split)

theorem touches_setup (con : Con F G1 G2 Gt) (given : Given) (scheme : Scheme) (lang : PolicyLanguage) :
    Touches (outputs given .setup scheme) (run con .setup given scheme lang) := by
  have h1 : ∀ S, S = outputs given .setup scheme →
      (fileOr .setup given .msk mskDefault = [] ∨ fileOr .setup given .msk mskDefault ∈ S) := by
    rintro _ rfl
    right
    rw [show fileOr .setup given .msk mskDefault = argOr given .msk mskDefault from fileOr_argOr rfl]
    cases scheme <;> exact List.mem_cons_self
  have h2 : scheme ≠ .aw11 →
      (fileOr .setup given .pk pkDefault = [] ∨ fileOr .setup given .pk pkDefault ∈ outputs given .setup scheme) := by
    intro hs
    right
    rw [show fileOr .setup given .pk pkDefault = argOr given .pk pkDefault from fileOr_argOr rfl]
    cases scheme <;> first | exact absurd rfl hs | exact List.mem_cons_of_mem _ List.mem_cons_self
  show Touches _ (runSetup con given scheme)
  have h1 := h1 _ rfl
  unfold runSetup
  cases scheme <;> dsimp only <;> first | (have h2 := h2 (by decide); frame) | frame

theorem touches_authgen (con : Con F G1 G2 Gt) (given : Given) (scheme : Scheme) (lang : PolicyLanguage) :
    Touches (outputs given .authgen scheme) (run con .authgen given scheme lang) := by
  have h1 : scheme = .aw11 → (fileOr .authgen given .msk mskDefault = [] ∨
      fileOr .authgen given .msk mskDefault ∈ outputs given .authgen scheme) := by
    rintro rfl
    right
    rw [show fileOr .authgen given .msk mskDefault = argOr given .msk mskDefault from fileOr_argOr rfl]
    exact List.mem_cons_self
  have h2 : scheme = .aw11 → (fileOr .authgen given .pk pkDefault = [] ∨
      fileOr .authgen given .pk pkDefault ∈ outputs given .authgen scheme) := by
    rintro rfl
    right
    rw [show fileOr .authgen given .pk pkDefault = argOr given .pk pkDefault from fileOr_argOr rfl]
    exact List.mem_cons_of_mem _ List.mem_cons_self
  have h3 := nameFile_mem (cmd := .authgen) (given := given) rfl
  show Touches _ (runAuthgen con given scheme)
  unfold runAuthgen
  cases scheme <;> dsimp only <;> first | (have h1 := h1 rfl; have h2 := h2 rfl; frame) | frame

theorem touches_keygen (con : Con F G1 G2 Gt) (given : Given) (scheme : Scheme) (lang : PolicyLanguage) :
    Touches (outputs given .keygen scheme) (run con .keygen given scheme lang) := by
  have h1 : fileOr .keygen given .sk skDefault = [] ∨
      fileOr .keygen given .sk skDefault ∈ [argOr given .sk (chars% "sk.key")] := by
    right
    rw [show fileOr .keygen given .sk skDefault = argOr given .sk skDefault from fileOr_argOr rfl]
    exact List.mem_cons_self
  have h3 := nameFile_mem (cmd := .keygen) (given := given) rfl
  show Touches _ (runKeygen con given scheme lang)
  unfold runKeygen
  cases scheme <;> dsimp only
  case ac17cp =>
    refine touches_bind (touches_of_eq fun fs t => ?_) fun _ => by frame
    obtain ⟨r, hr⟩ := serDec_state (α := Ac17.MasterKey F G1 G2) con (fileOr .keygen given .msk mskDefault) fs t
    rw [hr]
    cases r <;> rfl
  all_goals frame

theorem touches_delegate (con : Con F G1 G2 Gt) (given : Given) (scheme : Scheme) (lang : PolicyLanguage) :
    Touches (outputs given .delegate scheme) (run con .delegate given scheme lang) := by
  obtain ⟨v, hv⟩ : ∃ v, valueOf .delegate given .sk = some v := by
    unfold valueOf valuesOf
    dsimp only [declare]
    split
    · exact ⟨_, rfl⟩
    · rename_i h
      cases hg : given .sk with
      | nil => exact absurd hg h
      | cons f _ => exact ⟨f, rfl⟩
  show Touches _ (runDelegate con given scheme)
  unfold runDelegate
  cases scheme <;> dsimp only <;> (try simp only [hv]) <;> frame

theorem touches_encrypt (con : Con F G1 G2 Gt) (given : Given) (scheme : Scheme) (lang : PolicyLanguage) :
    Touches (outputs given .encrypt scheme) (run con .encrypt given scheme lang) := by
  have h : ∀ f, valueOf .encrypt given .file = some f →
      f ++ chars% ".ct" ∈ (given .file).head?.toList.map (· ++ chars% ".ct") := by
    intro f hf
    unfold valueOf valuesOf at hf
    dsimp only [declare] at hf
    cases hg : given .file with
    | nil => rw [hg] at hf; simp at hf
    | cons g gs =>
      rw [hg] at hf
      simp at hf
      simp [hf]
  show Touches _ (runEncrypt con given scheme lang)
  unfold runEncrypt
  dsimp only
  refine touches_bind (touches_readToVec _) fun b => ?_
  cases hv : valueOf .encrypt given .file with
  | none => cases scheme <;> dsimp only <;> frame
  | some f =>
    have h1 := Or.inr (a := f ++ chars% ".ct" = []) (h f hv)
    cases scheme <;> dsimp only <;> frame

theorem touches_decrypt (con : Con F G1 G2 Gt) (given : Given) (scheme : Scheme) (lang : PolicyLanguage) :
    Touches (outputs given .decrypt scheme) (run con .decrypt given scheme lang) := by
  show Touches _ (runDecrypt con given scheme)
  unfold runDecrypt decryptPt
  cases scheme <;> dsimp only <;> frame

theorem touches_reqAttrPk (con : Con F G1 G2 Gt) (given : Given) (scheme : Scheme) (lang : PolicyLanguage) :
    Touches (outputs given .reqAttrPk scheme) (run con .reqAttrPk given scheme lang) := by
  have h1 : fileOr .reqAttrPk given .pka pkaDefault = [] ∨
      fileOr .reqAttrPk given .pka pkaDefault ∈ [argOr given .pka (chars% "pka.key")] := by
    right
    rw [show fileOr .reqAttrPk given .pka pkaDefault = argOr given .pka pkaDefault from fileOr_argOr rfl]
    exact List.mem_cons_self
  show Touches _ (runReqAttrPk con given scheme)
  unfold runReqAttrPk
  cases scheme <;> dsimp only <;> frame

theorem touches_reqAttrSk (con : Con F G1 G2 Gt) (given : Given) (scheme : Scheme) (lang : PolicyLanguage) :
    Touches (outputs given .reqAttrSk scheme) (run con .reqAttrSk given scheme lang) := by
  have h1 : fileOr .reqAttrSk given .ska skaDefault = [] ∨
      fileOr .reqAttrSk given .ska skaDefault ∈ [argOr given .ska (chars% "ska.key")] := by
    right
    rw [show fileOr .reqAttrSk given .ska skaDefault = argOr given .ska skaDefault from fileOr_argOr rfl]
    exact List.mem_cons_self
  show Touches _ (runReqAttrSk con given scheme)
  unfold runReqAttrSk
  cases scheme <;> dsimp only <;> frame

/-- **C61.** Whatever a command does (success, error or panic), for every scheme and every file system: only the files named
by its arguments, or their default names, can change. In particular `decrypt` and `delegate` change nothing. -/
theorem C61_frame (con : Con F G1 G2 Gt) (cmd : Cmd) (given : Given) (scheme : Scheme) (lang : PolicyLanguage) (fs : FS)
    (t : Tape F G1 G2 Gt) (q : Str) (hq : q ∉ outputs given cmd scheme) :
    (run con cmd given scheme lang fs t).2.1.file q = fs.file q := by
  suffices h : Touches (outputs given cmd scheme) (run con cmd given scheme lang) from (h fs t).1 q hq
  cases cmd
  · exact touches_setup con given scheme lang
  · exact touches_authgen con given scheme lang
  · exact touches_keygen con given scheme lang
  · exact touches_delegate con given scheme lang
  · exact touches_encrypt con given scheme lang
  · exact touches_decrypt con given scheme lang
  · exact touches_reqAttrPk con given scheme lang
  · exact touches_reqAttrSk con given scheme lang

/-- Encrypting leaves the plaintext file as it was. -/
theorem C61_plaintext (con : Con F G1 G2 Gt) (given : Given) (f : Str) (hf : given .file = [f]) (scheme : Scheme)
    (lang : PolicyLanguage) (fs : FS) (t : Tape F G1 G2 Gt) :
    (run con .encrypt given scheme lang fs t).2.1.file f = fs.file f := by
  refine C61_frame con .encrypt given scheme lang fs t f ?_
  simp [outputs, hf]

/-! ## C62 -/

/-- If the program succeeds, the file system afterwards has the property. -/
def Ensures {α : Type} (m : CM F G1 G2 Gt α) (Q : FS → Prop) : Prop :=
  ∀ fs t a fs' t', m fs t = (.ok a, fs', t') → Q fs'

theorem ensures_bind {α β : Type} {Q : FS → Prop} {m : CM F G1 G2 Gt α} {f : α → CM F G1 G2 Gt β}
    (h : ∀ a, Ensures (f a) Q) : Ensures (m >>= f) Q := by
  intro fs t b fs' t' he
  obtain ⟨a, fs1, t1, -, h2⟩ := CM.bind_ok he
  exact h a _ _ _ _ _ h2

theorem ensures_err {α : Type} {Q : FS → Prop} : Ensures (CM.lift .err : CM F G1 G2 Gt α) Q := by
  intro fs t a fs' t' h; cases h

theorem ensures_panic {α : Type} {Q : FS → Prop} : Ensures (CM.lift .panic : CM F G1 G2 Gt α) Q := by
  intro fs t a fs' t' h; cases h

/-- The files exist, are the console's files, and none has an empty name. -/
def Written (con : Con F G1 G2 Gt) (S : List Str) (fs : FS) : Prop :=
  S ≠ [] ∧ ∀ q ∈ S, ∃ bs, Holds con fs q bs

theorem ensures_store {α : Type} [Borsh α] [Serde α] (con : Con F G1 G2 Gt) {p : Str} {S : List Str} (hp : p = [] ∨ S = [p]) (x : α)
    {h e : Str} (hf : Framing h e) : Ensures (store con p x h e) (Written con S) := by
  intro fs t a fs' t' he
  obtain ⟨-, -, hne, -, bs, -, hh⟩ := store_ok hf he
  rcases hp with rfl | rfl
  · exact absurd rfl hne
  · exact ⟨by simp, fun q hq => by rw [List.mem_singleton.1 hq]; exact ⟨bs, hh⟩⟩

theorem ensures_storeResult {α : Type} [Borsh α] [Serde α] (con : Con F G1 G2 Gt) {p : Str} {S : List Str} (hp : p = [] ∨ S = [p])
    (x : Option α) {h e : Str} (hf : Framing h e) : Ensures (storeResult con p x h e) (Written con S) := by
  intro fs t a fs' t' he
  obtain ⟨-, -, hne, -, bs, -, hh⟩ := storeResult_ok hf he
  rcases hp with rfl | rfl
  · exact absurd rfl hne
  · exact ⟨by simp, fun q hq => by rw [List.mem_singleton.1 hq]; exact ⟨bs, hh⟩⟩

theorem ensures_store2 {α β : Type} [Borsh α] [Serde α] [Borsh β] [Serde β] (con : Con F G1 G2 Gt) {p q : Str} {S : List Str} (hp : S = [p, q])
    (x : α) (y : β) {h e h' e' : Str} (hf : Framing h e) (hf' : Framing h' e') :
    Ensures (store con p x h e >>= fun _ => store con q y h' e') (Written con S) := by
  intro fs t a fs' t' he
  subst hp
  obtain ⟨u, fs1, t1, ha, hb⟩ := CM.bind_ok he
  obtain ⟨-, -, -, -, b1, -, hh1⟩ := store_ok hf ha
  obtain ⟨-, -, -, ho2, b2, -, hh2⟩ := store_ok hf' hb
  refine ⟨by simp, fun r hr => ?_⟩
  simp only [List.mem_cons, List.not_mem_nil, or_false] at hr
  by_cases hq : r = q
  · subst hq; exact ⟨b2, hh2⟩
  · rcases hr with rfl | rfl
    · exact ⟨b1, hh1.transfer (ho2 _ hq)⟩
    · exact absurd rfl hq

/-- The proof of `C62_success_partial` for one command. -/
macro "written" : tactic => `(tactic| repeat' first
  | with_reducible exact ensures_err | with_reducible exact ensures_panic
  | ((with_reducible refine ensures_store2 _ ?_ _ _ ?_ ?_) <;>
      first | assumption | exact framing_msk | exact framing_pk | exact framing_auSk | exact framing_auPk)
  | ((with_reducible refine ensures_store _ ?_ _ ?_) <;>
      first | assumption | exact framing_gp | exact framing_sk | exact framing_auSk | exact framing_ct | exact framing_pka
            | exact framing_ska | exact Or.inl rfl)
  | ((with_reducible refine ensures_storeResult _ ?_ _ ?_) <;> first | assumption | exact framing_ct | exact Or.inl rfl)
  | (with_reducible refine ensures_bind (fun _ => ?_)) | split)

theorem written_setup (con : Con F G1 G2 Gt) (given : Given) (scheme : Scheme) :
    Ensures (runSetup con given scheme) (Written con (outputs given .setup scheme)) := by
  have h1 : fileOr .setup given .msk mskDefault = argOr given .msk mskDefault := fileOr_argOr rfl
  have h2 : fileOr .setup given .pk pkDefault = argOr given .pk pkDefault := fileOr_argOr rfl
  have e1 : fileOr .setup given .msk mskDefault = [] ∨
      [argOr given .msk (chars% "msk.key")] = [fileOr .setup given .msk mskDefault] := by rw [h1]; exact Or.inr rfl
  have e2 : [argOr given .msk (chars% "msk.key"), argOr given .pk (chars% "pk.key")] =
      [fileOr .setup given .msk mskDefault, fileOr .setup given .pk pkDefault] := by rw [h1, h2]; rfl
  unfold runSetup
  cases scheme <;> dsimp only <;> written

theorem nameFile_eq {cmd : Cmd} {given : Given} (h : declare cmd .name = some {}) :
    nameFile (valueOf cmd given .name) = [] ∨
      (given .name).head?.toList.map (· ++ chars% ".key") = [nameFile (valueOf cmd given .name)] := by
  unfold valueOf valuesOf
  rw [h]
  dsimp only
  cases given .name with
  | nil => left; rfl
  | cons f fs => right; simp [nameFile]

theorem written_authgen (con : Con F G1 G2 Gt) (given : Given) (scheme : Scheme) :
    Ensures (runAuthgen con given scheme) (Written con (outputs given .authgen scheme)) := by
  have h1 : fileOr .authgen given .msk mskDefault = argOr given .msk mskDefault := fileOr_argOr rfl
  have h2 : fileOr .authgen given .pk pkDefault = argOr given .pk pkDefault := fileOr_argOr rfl
  have e2 : [argOr given .msk (chars% "msk.key"), argOr given .pk (chars% "pk.key")] =
      [fileOr .authgen given .msk mskDefault, fileOr .authgen given .pk pkDefault] := by rw [h1, h2]; rfl
  have e3 := nameFile_eq (cmd := .authgen) (given := given) rfl
  unfold runAuthgen
  cases scheme <;> dsimp only <;> written

theorem written_keygen (con : Con F G1 G2 Gt) (given : Given) (scheme : Scheme) (lang : PolicyLanguage) :
    Ensures (runKeygen con given scheme lang) (Written con (outputs given .keygen scheme)) := by
  have h1 : fileOr .keygen given .sk skDefault = argOr given .sk skDefault := fileOr_argOr rfl
  have e1 : fileOr .keygen given .sk skDefault = [] ∨
      [argOr given .sk (chars% "sk.key")] = [fileOr .keygen given .sk skDefault] := by rw [h1]; exact Or.inr rfl
  have e3 := nameFile_eq (cmd := .keygen) (given := given) rfl
  unfold runKeygen
  cases scheme <;> dsimp only <;> written

theorem written_encrypt (con : Con F G1 G2 Gt) (given : Given) (scheme : Scheme) (lang : PolicyLanguage) :
    Ensures (runEncrypt con given scheme lang) (Written con (outputs given .encrypt scheme)) := by
  unfold runEncrypt
  dsimp only
  refine ensures_bind fun b => ?_
  cases hv : valueOf .encrypt given .file with
  | none => cases scheme <;> dsimp only <;> written
  | some f =>
    have h1 : f ++ chars% ".ct" = [] ∨ (given .file).head?.toList.map (· ++ chars% ".ct") = [f ++ chars% ".ct"] := by
      unfold valueOf valuesOf at hv
      dsimp only [declare] at hv
      cases hg : given .file with
      | nil => rw [hg] at hv; simp at hv
      | cons g gs =>
        rw [hg] at hv
        simp at hv
        simp [hv]
    cases scheme <;> dsimp only <;> written

theorem written_reqAttrPk (con : Con F G1 G2 Gt) (given : Given) (scheme : Scheme) :
    Ensures (runReqAttrPk con given scheme) (Written con (outputs given .reqAttrPk scheme)) := by
  have h1 : fileOr .reqAttrPk given .pka pkaDefault = argOr given .pka pkaDefault := fileOr_argOr rfl
  have e1 : fileOr .reqAttrPk given .pka pkaDefault = [] ∨
      [argOr given .pka (chars% "pka.key")] = [fileOr .reqAttrPk given .pka pkaDefault] := by rw [h1]; exact Or.inr rfl
  unfold runReqAttrPk
  cases scheme <;> dsimp only <;> written

theorem written_reqAttrSk (con : Con F G1 G2 Gt) (given : Given) (scheme : Scheme) (hs : scheme ≠ .bdabe) :
    Ensures (runReqAttrSk con given scheme) (Written con (outputs given .reqAttrSk scheme)) := by
  have h1 : fileOr .reqAttrSk given .ska skaDefault = argOr given .ska skaDefault := fileOr_argOr rfl
  have e1 : fileOr .reqAttrSk given .ska skaDefault = [] ∨
      [argOr given .ska (chars% "ska.key")] = [fileOr .reqAttrSk given .ska skaDefault] := by rw [h1]; exact Or.inr rfl
  unfold runReqAttrSk
  cases scheme <;> first | exact absurd rfl hs | (dsimp only; written)

/-- **C62, partial.** If a command other than `decrypt` and BDABE's `req-attr-sk` reports success, it has at least one output
file, and every output file exists and can be decoded by the console. (Full claim: for every command; false, see
`C62_violated` and, for `decrypt`, `C55_violated`.) -/
theorem C62_success_partial (con : Con F G1 G2 Gt) (cmd : Cmd) (given : Given) (scheme : Scheme) (lang : PolicyLanguage)
    (hd : cmd ≠ .decrypt) (hb : cmd = .reqAttrSk → scheme ≠ .bdabe) (fs fs' : FS) (t t' : Tape F G1 G2 Gt)
    (h : run con cmd given scheme lang fs t = (.ok (), fs', t')) :
    outputs given cmd scheme ≠ [] ∧ ∀ q ∈ outputs given cmd scheme, ∃ bs, Holds con fs' q bs := by
  cases cmd with
  | setup => exact written_setup con given scheme _ _ _ _ _ h
  | authgen => exact written_authgen con given scheme _ _ _ _ _ h
  | keygen => exact written_keygen con given scheme lang _ _ _ _ _ h
  | delegate =>
    have := (C56_violated_delegate con given scheme lang fs t).1
    rw [h] at this
    exact absurd rfl this
  | encrypt => exact written_encrypt con given scheme lang _ _ _ _ _ h
  | decrypt => exact absurd rfl hd
  | reqAttrPk => exact written_reqAttrPk con given scheme _ _ _ _ _ h
  | reqAttrSk => exact written_reqAttrSk con given scheme (hb rfl) _ _ _ _ _ h

/-- **C62 is violated: BDABE.** If the authority refuses the request for a secret attribute key, the command reports success
and the file system is as before: no key has been stored. -/
theorem C62_violated (con : Con F G1 G2 Gt) (given : Given) (lang : PolicyLanguage) (fs : FS) (t : Tape F G1 G2 Gt)
    (attr : Str) (ha : requested con .reqAttrSk given = [attr]) (u : Bdabe.UserKey G1 G2)
    (s : Bdabe.SecretAuthorityKey F G1 G2) (hu : serDec _ con (argOr given .sk (chars% "sk.key")) fs t = (.ok u, fs, t))
    (hs : serDec _ con (argOr given .auSk (chars% "skau.key")) fs t = (.ok s, fs, t))
    (hr : Bdabe.requestAttributeSk con.env u.pk s attr = .err) :
    run con .reqAttrSk given .bdabe lang fs t = (.ok (), fs, t) := by
  have h1 : fileOr .reqAttrSk given .sk skDefault = argOr given .sk skDefault := fileOr_argOr rfl
  have h2 : fileOr .reqAttrSk given .auSk auSkDefault = argOr given .auSk auSkDefault := fileOr_argOr rfl
  show runReqAttrSk con given .bdabe fs t = _
  unfold runReqAttrSk
  simp only [ha, h1, h2]
  have hu' : serDec (Bdabe.UserKey G1 G2) con (argOr given .sk skDefault) fs t = (.ok u, fs, t) := hu
  have hs' : serDec (Bdabe.SecretAuthorityKey F G1 G2) con (argOr given .auSk auSkDefault) fs t = (.ok s, fs, t) := hs
  rw [CM.bind_of_ok hu', CM.bind_of_ok hs', hr]
  rfl

end

/-- `req-attr-sk` of an attribute. -/
def requestArgs (attr : Str) : Given
  | .attributes => [attr]
  | _ => []

/-- A run of `req-attr-sk` that reports success and stores nothing: the attribute `bb::x` is requested from the authority
`aa`. -/
theorem C62_violated_witness : ∃ fs : FS, fs.file (chars% "ska.key") = none ∧
    run toyCon .reqAttrSk (requestArgs (chars% "bb::x")) .bdabe .human fs toyTape = (.ok (), fs, toyTape) := by
  have hx : (toyCon.format.ser (⟨⟨1, 2⟩, ⟨['u'], 3, 4⟩, []⟩ : Bdabe.UserKey Fr Fr)).isSome = true := by decide +kernel
  have hy : (toyCon.format.ser (⟨chars% "aa", 1, 2, 3⟩ : Bdabe.SecretAuthorityKey Fr Fr Fr)).isSome = true := by decide +kernel
  obtain ⟨bx, hbx⟩ := Option.isSome_iff_exists.1 hx
  obtain ⟨byt, hby⟩ := Option.isSome_iff_exists.1 hy
  obtain ⟨fs, h⟩ := store2_some (con := toyCon) (h2 := auSkBegin) (e2 := auSkEnd) (fs := toyFS) (p := skDefault)
    (q := auSkDefault) framing_sk hbx hby rfl rfl toyTape
  obtain ⟨-, -, ho, ⟨bx', hbx', h1⟩, by', hby', h2⟩ := store2_ok framing_sk framing_auSk (by decide) h
  refine ⟨fs, by rw [ho _ (by decide) (by decide)]; rfl, ?_⟩
  exact C62_violated toyCon (requestArgs (chars% "bb::x")) .human fs toyTape (chars% "bb::x") (by decide)
    ⟨⟨1, 2⟩, ⟨['u'], 3, 4⟩, []⟩ ⟨chars% "aa", 1, 2, 3⟩ (serDec_of_ser hbx' h1 _) (serDec_of_ser hby' h2 _) rfl

/-- C61 and C62 say something about a run that succeeds: set-up for AW11 changes only `msk.key`, and afterwards that file is
readable. -/
example : ∃ fs' t', run toyCon .setup noArgs .aw11 .human toyFS toyTape = (.ok (), fs', t') ∧
    fs'.file ['f'] = some [7] ∧ ∃ bs, Holds toyCon fs' (chars% "msk.key") bs := by
  have h : (match Aw11.setup (F := Fr) (G1 := Fr) (G2 := Fr) (Gt := Fr) toyTape with
    | .ok (gp, _) => (toyCon.format.ser gp).isSome
    | _ => false) = true := by decide +kernel
  split at h
  · rename_i gp t' hset
    obtain ⟨bs, hbs⟩ := Option.isSome_iff_exists.1 h
    obtain ⟨fs', hs⟩ := store_some (con := toyCon) (p := mskDefault) (head := gpBegin) (tail := gpEnd) hbs
      (fs := toyFS) rfl t'
    have hrun : run toyCon .setup noArgs .aw11 .human toyFS toyTape = (.ok (), fs', t') := by
      show (CM.call (Aw11.setup (F := Fr) (G1 := Fr) (G2 := Fr) (Gt := Fr)) >>= fun gp =>
        store toyCon mskDefault gp gpBegin gpEnd) toyFS toyTape = _
      rw [CM.bind_of_ok (call_eq hset), hs]
    refine ⟨fs', t', hrun, ?_, ?_⟩
    · have := C61_frame toyCon .setup noArgs .aw11 .human toyFS toyTape ['f'] (by decide)
      rw [hrun] at this
      exact this
    · exact (C62_success_partial toyCon .setup noArgs .aw11 .human (by decide) (by decide) _ _ _ _ hrun).2 _ (by decide)
  · cases h

/-- A file system with one file `f`, which is empty. -/
def emptyFS : FS where
  file p := if p = ['f'] then some [] else none
  creatable p := !p.isEmpty
  file_nil := by simp
  creatable_nil := rfl

theorem empty_chain : (match Ac17.setup toyEnv toyTape with
    | .ok ((pk, msk), t1) => match Ac17.cpKeygen toyEnv msk [['A']] t1 with
      | .ok (sk, t2) => match Ac17.cpEncrypt toyEnv pk (chars% "\"A\" or \"B\"") [] .human t2 with
        | .ok (ct, _) => (toyCon.format.ser pk).isSome && (toyCon.format.ser msk).isSome && (toyCon.format.ser sk).isSome && (toyCon.format.ser ct).isSome
        | _ => false
      | _ => false
    | _ => false) = true := by decide +kernel

/-- A run of `decrypt f.ct` that succeeds, as in the hypotheses of `C55_success_partial` and `C55_name_partial`: the
plaintext is empty. -/
example : ∃ (fs3 : FS) (t3 : Tape Fr Fr Fr Fr),
    runDecrypt toyCon (decryptArgs (chars% "f.ct")) .ac17cp fs3 t3 = (.ok (), fs3, t3) := by
  have h := empty_chain
  split at h
  · rename_i pk msk t1 hset
    split at h
    · rename_i sk t2 hkey
      split at h
      · rename_i ct t3 henc
        simp only [Bool.and_eq_true] at h
        obtain ⟨fs1, fs2, fs3, h1, h2, h3⟩ := C56_ac17cp_runs toyCon .human ['A'] ['f'] (chars% "\"A\" or \"B\"") emptyFS
          toyTape t1 t2 t3 pk msk sk ct [] rfl hset hkey henc ⟨h.1.1.1, h.1.1.2, h.1.2, h.2⟩ (by decide) (by decide)
        obtain ⟨pt, hpt, hd⟩ := C56_ac17cp_chain_partial toyCon .human ['A'] ['f'] (chars% "\"A\" or \"B\"")
          (.gate .or [.leaf ['A'] 2, .leaf ['B'] 9]) ⟨rfl, by simp, by simp [Pol.Wide], by simp⟩ (by simp)
          (by simp [Ac17.Once, Pol.names]) emptyFS fs1 fs2 fs3 toyTape t1 t2 t3 (by decide) (by decide) h1 h2 h3
        cases hpt
        refine ⟨fs3, t3, ?_⟩
        have g1 := C61_frame toyCon .setup noArgs .ac17cp .human emptyFS toyTape ['f'] (by decide)
        have g2 := C61_frame toyCon .keygen (keygenArgs ['A']) .ac17cp .human fs1 t1 ['f'] (by decide)
        have g3 := C61_frame toyCon .encrypt (encryptArgs ['f'] (chars% "\"A\" or \"B\"")) .ac17cp .human fs2 t2 ['f']
          (by decide)
        rw [h1] at g1
        rw [h2] at g2
        rw [h3] at g3
        have hf : fs3.file ['f'] = some [] := by rw [g3, g2, g1]; rfl
        replace hd : decryptPt toyCon (decryptArgs (chars% "f.ct")) .ac17cp fs3 t3 = (.ok [], fs3, t3) := hd
        unfold runDecrypt
        rw [CM.bind_of_ok hd]
        have ho : outFile (decryptArgs (chars% "f.ct")) = ['f'] := rfl
        simp [CM.writeFromVec, ho, hf]
      · cases h
    · cases h
  · cases h

end Rabe
