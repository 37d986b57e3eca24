import Verif.Model.Ffi
import Verif.Proof.Borsh
import Verif.Props.Bsw

/-!
# C76: the C interface of BSW
-/

namespace Rabe

theorem utf8EncodeChar_zero {c : Char} (h : (0 : UInt8) ∈ String.utf8EncodeChar c) : c = '\x00' := by
  have hb : c.val.toNat < 1114112 := by
    have := c.valid
    rcases this with h | ⟨_, h⟩
    · exact lt_trans h (by decide)
    · exact h
  unfold String.utf8EncodeChar at h
  dsimp only at h
  split at h
  · simp only [List.mem_cons, List.not_mem_nil, or_false] at h
    have h0 := congrArg UInt8.toNat h
    simp only [UInt8.toNat_ofNat', UInt8.toNat_ofNat, Nat.reducePow, Nat.zero_mod] at h0
    apply Char.ext
    apply UInt32.toNat.inj
    show c.val.toNat = 0
    omega
  · exfalso
    split at h
    · simp only [List.mem_cons, List.not_mem_nil, or_false] at h
      rcases h with h | h <;> have h0 := congrArg UInt8.toNat h <;>
        simp only [UInt8.toNat_ofNat', UInt8.toNat_ofNat, Nat.reducePow, Nat.zero_mod] at h0 <;> omega
    · split at h
      · simp only [List.mem_cons, List.not_mem_nil, or_false] at h
        rcases h with h | h | h <;> have h0 := congrArg UInt8.toNat h <;>
          simp only [UInt8.toNat_ofNat', UInt8.toNat_ofNat, Nat.reducePow, Nat.zero_mod] at h0 <;> omega
      · simp only [List.mem_cons, List.not_mem_nil, or_false] at h
        rcases h with h | h | h | h <;> have h0 := congrArg UInt8.toNat h <;>
          simp only [UInt8.toNat_ofNat', UInt8.toNat_ofNat, Nat.reducePow, Nat.zero_mod] at h0 <;> omega

theorem zero_not_mem_utf8 {s : Str} (h : '\x00' ∉ s) : (0 : UInt8) ∉ utf8 s := by
  intro h0
  obtain ⟨c, hc, h0⟩ := List.mem_flatMap.1 h0
  exact h (utf8EncodeChar_zero h0 ▸ hc)

/-- A text without NUL followed by a zero byte is read back, whatever follows. -/
theorem cStr_utf8 {s : Str} (h : '\x00' ∉ s) (rest : Bytes) : cStr (utf8 s ++ 0 :: rest) = .ok (utf8 s) := by
  have h0 := zero_not_mem_utf8 h
  rw [cStr, if_pos (by simp)]
  rw [List.takeWhile_append_of_pos (fun x hx => by
    simp only [decide_eq_true_eq]; rintro rfl; exact h0 hx)]
  simp

theorem splitComma_no {s : Str} (h : ',' ∉ s) : splitComma s = [s] := by
  induction s with
  | nil => rfl
  | cons c cs ih =>
    simp only [List.mem_cons, not_or] at h
    rw [splitComma, if_neg (Ne.symm h.1), ih h.2]

theorem splitComma_append {s : Str} (h : ',' ∉ s) (r : Str) : splitComma (s ++ ',' :: r) = s :: splitComma r := by
  induction s with
  | nil => simp [splitComma]
  | cons c cs ih =>
    simp only [List.mem_cons, not_or] at h
    rw [List.cons_append, splitComma, if_neg (Ne.symm h.1), ih h.2]

/-- Names without commas, joined by commas, are split again. -/
theorem splitComma_join : ∀ {attrs : List Str}, attrs ≠ [] → (∀ a ∈ attrs, ',' ∉ a) →
    splitComma ((attrs.intersperse [',']).flatten) = attrs
  | [a], _, h => by simp [splitComma_no (h a (by simp))]
  | a :: b :: as, _, h => by
    have ih := splitComma_join (attrs := b :: as) (by simp) fun x hx => h x (List.mem_cons_of_mem _ hx)
    simp only [List.intersperse_cons_cons, List.flatten_cons, List.cons_append, List.nil_append]
    rw [splitComma_append (h a (by simp))]
    exact congrArg _ ih

namespace Bsw

variable {F G1 G2 Gt : Type} [Field F] [DecidableEq F] [AddCommGroup G1] [Module F G1]
  [AddCommGroup G2] [Module F G2] [AddCommGroup Gt] [Module F Gt]

/-- The tag of AES-256-GCM has 16 bytes (`/repo/src/utils/aes/mod.rs:40`): an input that opens is 16 bytes longer than its
content. -/
def Tag16 (env : Env F G1 G2 Gt) : Prop := ∀ k n c m, env.aeadDec k n c = some m → c.length = m.length + 16

/-- **C76, key generation, partial.** Names without commas and without the character number 0, joined by commas and ended
by a zero byte: the interface gives the key that the library gives. (Full claim: all names; false, see
`C76_violated_comma`.) -/
theorem C76_keygen_partial (env : Env F G1 G2 Gt) (ctx : Context F G1 G2 Gt) (attrs : List Str) (hne : attrs ≠ [])
    (hc : ∀ a ∈ attrs, ',' ∉ a) (h0 : ∀ a ∈ attrs, '\x00' ∉ a) (rest : Bytes) (t t' : Tape F G1 G2 Gt)
    (sk : SecretKey G1 G2) (hkey : keygen env ctx.pk ctx.msk attrs t = .ok (some sk, t')) :
    ffiKeygen env ctx (utf8 ((attrs.intersperse [',']).flatten) ++ 0 :: rest) t = .ok sk := by
  have h : '\x00' ∉ (attrs.intersperse [',']).flatten := by
    clear hkey
    induction attrs with
    | nil => simp
    | cons a as ih =>
      cases as with
      | nil => simpa using h0
      | cons b bs =>
        have := ih (by simp) (fun x hx => hc x (List.mem_cons_of_mem _ hx))
          (fun x hx => h0 x (List.mem_cons_of_mem _ hx))
        simp only [List.intersperse_cons_cons, List.flatten_cons, List.mem_append, not_or]
        exact ⟨h0 a (by simp), by simp, this⟩
  rw [ffiKeygen, cStr_utf8 h, Mem.ok_bind, ofUtf8_utf8]
  simp [Mem.unwrapOption, ffiCall, splitComma_join hne hc, hkey]

/-- **C76 is violated for names with a comma.** The request for the single name `a,b` gives the key for `a` and `b`. -/
theorem C76_violated_comma (env : Env F G1 G2 Gt) (ctx : Context F G1 G2 Gt) (a b : Str) (ha : ',' ∉ a) (hb : ',' ∉ b)
    (ha0 : '\x00' ∉ a) (hb0 : '\x00' ∉ b) (t t' : Tape F G1 G2 Gt)
    (sk : SecretKey G1 G2) (hkey : keygen env ctx.pk ctx.msk [a, b] t = .ok (some sk, t')) :
    ffiKeygen env ctx (utf8 (a ++ ',' :: b) ++ [0]) t = .ok sk ∧ sk.dJ.map (·.string) = [a, b] := by
  refine ⟨?_, ?_⟩
  · have := C76_keygen_partial env ctx [a, b] (by simp) (by simp [ha, hb]) (by simp [ha0, hb0]) [] t t' sk hkey
    simpa using this
  · obtain ⟨_, _, _, hk⟩ := keygen_ok hkey
    exact key_strings hk

omit [DecidableEq F] in
/-- **C76, encryption, partial.** Policy text and plaintext in buffers of any size: if the library encrypts and the text
of the ciphertext is shorter than 4 GiB, the interface returns that text with one zero byte behind it and the length of the
two. (Full claim: any length; false, see `C76_violated_length`.) -/
theorem C76_encrypt_partial (env : Env F G1 G2 Gt) (js : JsonCodec (Ciphertext G1 G2 Gt)) (ctx : Context F G1 G2 Gt)
    (policy : Str) (hpol : '\x00' ∉ policy) (plaintext rest₁ rest₂ : Bytes) (t t' : Tape F G1 G2 Gt)
    (ct : Ciphertext G1 G2 Gt) (henc : encrypt env ctx.pk policy .json plaintext t = .ok (ct, t'))
    (s : Str) (hs : js.write ct = some s) (hlen : (utf8 s).length + 1 < 2 ^ 32) :
    ffiEncrypt env js ctx (utf8 policy ++ 0 :: rest₁) (plaintext ++ rest₂) plaintext.length t =
      .ok (some (utf8 s ++ [0], (utf8 s).length + 1)) := by
  rw [ffiEncrypt, cStr_utf8 hpol, Mem.ok_bind, ofUtf8_utf8]
  simp only [readBytes, List.length_append, Nat.le_add_right, if_true, List.take_left, Mem.ok_bind, ffiCall, henc, hs,
    Nat.mod_eq_of_lt hlen, Nat.add_sub_cancel_left, List.replicate_one, Mem.pure_eq]

omit [DecidableEq F] in
/-- The interface answers -1 whenever the library refuses. -/
theorem C76_encrypt_refused (env : Env F G1 G2 Gt) (js : JsonCodec (Ciphertext G1 G2 Gt)) (ctx : Context F G1 G2 Gt)
    (policy : Str) (hpol : '\x00' ∉ policy) (plaintext rest₁ rest₂ : Bytes) (t : Tape F G1 G2 Gt)
    (henc : encrypt env ctx.pk policy .json plaintext t = .err) :
    ffiEncrypt env js ctx (utf8 policy ++ 0 :: rest₁) (plaintext ++ rest₂) plaintext.length t = .ok none := by
  rw [ffiEncrypt, cStr_utf8 hpol, Mem.ok_bind, ofUtf8_utf8]
  simp [readBytes, ffiCall, henc]

omit [DecidableEq F] in
/-- **C76 is violated for long ciphertexts.** If the text of the ciphertext has `2 ^ 32 - 1` bytes or more, it is written
beyond the end of the buffer, whose size is the length modulo `2 ^ 32`. -/
theorem C76_violated_length (env : Env F G1 G2 Gt) (js : JsonCodec (Ciphertext G1 G2 Gt)) (ctx : Context F G1 G2 Gt)
    (policy : Str) (hpol : '\x00' ∉ policy) (plaintext rest₁ rest₂ : Bytes) (t t' : Tape F G1 G2 Gt)
    (ct : Ciphertext G1 G2 Gt) (henc : encrypt env ctx.pk policy .json plaintext t = .ok (ct, t'))
    (s : Str) (hs : js.write ct = some s) (hlen : 2 ^ 32 ≤ (utf8 s).length + 1) :
    ffiEncrypt env js ctx (utf8 policy ++ 0 :: rest₁) (plaintext ++ rest₂) plaintext.length t = .undefined := by
  have h : ¬ (utf8 s).length ≤ ((utf8 s).length + 1) % 2 ^ 32 := by omega
  rw [ffiEncrypt, cStr_utf8 hpol, Mem.ok_bind, ofUtf8_utf8]
  simp only [readBytes, List.length_append, Nat.le_add_right, if_true, List.take_left, Mem.ok_bind, ffiCall, henc, hs]
  rw [if_neg h]

/-- An authenticated payload that opens is 28 bytes longer than the plaintext. -/
theorem decrypt_length {env : Env F G1 G2 Gt} (htag : Tag16 env) {sk : SecretKey G1 G2} {ct : Ciphertext G1 G2 Gt}
    {pt : Bytes} (h : decrypt env sk ct = .ok pt) : ct.data.length = pt.length + 28 := by
  rw [decrypt, Res.bind_eq_ok] at h
  obtain ⟨msg, _, h⟩ := h
  rw [decryptSymmetric] at h
  split at h
  · simp at h
  · cases hd : env.aeadDec (env.kdf msg) (ct.data.take 12) (ct.data.drop 12) with
    | none => simp [hd] at h
    | some m =>
      simp only [hd, Res.ok.injEq] at h
      subst h
      have := htag _ _ _ _ hd
      rw [List.length_drop] at this
      omega

/-- The announced size of the plaintext is 12 bytes too large. -/
theorem C76_violated_size (env : Env F G1 G2 Gt) (htag : Tag16 env) (checks : Bool) (sk : SecretKey G1 G2)
    (ct : Ciphertext G1 G2 Gt) (pt : Bytes) (h : decrypt env sk ct = .ok pt) (hlt : pt.length + 28 < 2 ^ 32) :
    ffiDecryptGetSize checks ct = .ok (pt.length + 12) := by
  rw [ffiDecryptGetSize, decrypt_length htag h, Nat.mod_eq_of_lt hlt, sub32, if_pos (by omega)]
  congr 1

omit [DecidableEq F] in
/-- For a payload shorter than 16 bytes the announced size is almost 4 GiB, or the call panics. -/
theorem C76_violated_underflow (ct : Ciphertext G1 G2 Gt) (h : ct.data.length < 16) :
    ffiDecryptGetSize true ct = .panic ∧ ∃ n, 2 ^ 32 - 16 ≤ n ∧ ffiDecryptGetSize false ct = .ok n := by
  have hm : ct.data.length % 2 ^ 32 = ct.data.length := Nat.mod_eq_of_lt (by omega)
  refine ⟨?_, 2 ^ 32 + ct.data.length - 16, by omega, ?_⟩
  · rw [ffiDecryptGetSize, hm, sub32, if_neg (by omega)]; rfl
  · rw [ffiDecryptGetSize, hm, sub32, if_neg (by omega)]; rfl

example : ({ policy := ([], .json), c := 1, cP := 1, cY := [], data := [1, 2] } : Ciphertext Fr Fr Fr).data.length < 16 := by
  decide

/-- **C76 is violated.** Whenever the library decrypts the stored ciphertext, the interface reads 12 bytes behind the end of
the plaintext (or, if the plaintext is empty, panics). -/
theorem C76_violated_decrypt (env : Env F G1 G2 Gt) (htag : Tag16 env) (js : JsonCodec (Ciphertext G1 G2 Gt)) (checks : Bool)
    (sk : SecretKey G1 G2) (ct : Ciphertext G1 G2 Gt) (pt : Bytes) (h : decrypt env sk ct = .ok pt)
    (hlt : pt.length + 28 < 2 ^ 32) (s : Str) (hs : js.write ct = some s) (rest : Bytes) :
    ffiDecrypt env js checks sk (utf8 s ++ 0 :: rest) ((utf8 s).length + 1) =
      if pt = [] then .panic else .undefined := by
  rw [ffiDecrypt, cStr_utf8 (js.no_nul _ _ hs), Mem.ok_bind, ofUtf8_utf8]
  simp only [sub32, Nat.le_add_left, if_true, Nat.add_sub_cancel, Mem.ok_bind, js.read_write _ _ hs, h,
    decrypt_length htag h, Nat.mod_eq_of_lt hlt, show 16 ≤ pt.length + 28 by omega]
  cases pt with
  | nil => simp
  | cons b bs =>
    have : ¬ (b :: bs).length + 28 - 16 ≤ (b :: bs).length := by omega
    simp only [readBytes]
    rw [if_neg this]
    simp

/-- For every input, not only for well-formed ones: the interface never returns a plaintext, unless the plaintext has
almost 4 GiB or more. -/
theorem C76_violated_never (env : Env F G1 G2 Gt) (htag : Tag16 env) (js : JsonCodec (Ciphertext G1 G2 Gt)) (checks : Bool)
    (sk : SecretKey G1 G2) (region : Bytes) (n : ℕ) (out : Bytes × ℕ)
    (h : ffiDecrypt env js checks sk region n = .ok (some out)) :
    ∃ ct pt, decrypt env sk ct = .ok pt ∧ 2 ^ 32 ≤ pt.length + 28 := by
  rw [ffiDecrypt] at h
  cases h1 : cStr region with
  | panic => simp [h1] at h
  | undefined => simp [h1] at h
  | ok bytes =>
  rw [h1, Mem.ok_bind] at h
  cases h2 : ofUtf8 bytes with
  | none => simp [h2] at h
  | some text =>
  simp only [h2] at h
  cases h3 : sub32 checks n 1 with
  | panic => simp [h3] at h
  | undefined => simp [h3] at h
  | ok k =>
  rw [h3, Mem.ok_bind] at h
  split at h
  swap
  · simp at h
  cases h4 : js.read text with
  | none => simp [h4] at h
  | some ct =>
  simp only [h4] at h
  cases h5 : decrypt env sk ct with
  | err => simp [h5] at h
  | panic => simp [h5] at h
  | ok pt =>
  refine ⟨ct, pt, h5, ?_⟩
  by_contra hlt
  have hlt : pt.length + 28 < 2 ^ 32 := by omega
  simp only [h5, decrypt_length htag h5, Nat.mod_eq_of_lt hlt, sub32, show 16 ≤ pt.length + 28 by omega, if_true,
    Mem.ok_bind] at h
  cases pt with
  | nil => simp at h
  | cons b bs =>
    have : ¬ (b :: bs).length + 28 - 16 ≤ (b :: bs).length := by omega
    simp only [readBytes] at h
    rw [if_neg this] at h
    simp at h

/-- **C76, decryption, partial.** What the interface does right: it answers -1 iff the library refuses the ciphertext it
was given. (Full claim: and returns the plaintext otherwise; false, see `C76_violated_decrypt`.) -/
theorem C76_decrypt_refused_partial (env : Env F G1 G2 Gt) (htag : Tag16 env) (js : JsonCodec (Ciphertext G1 G2 Gt))
    (checks : Bool) (sk : SecretKey G1 G2) (ct : Ciphertext G1 G2 Gt) (hlt : ct.data.length < 2 ^ 32) (s : Str)
    (hs : js.write ct = some s) (rest : Bytes) :
    ffiDecrypt env js checks sk (utf8 s ++ 0 :: rest) ((utf8 s).length + 1) = .ok none ↔ decrypt env sk ct = .err := by
  cases h : decrypt env sk ct with
  | ok pt =>
    rw [C76_violated_decrypt env htag js checks sk ct pt h (by rw [← decrypt_length htag h]; exact hlt) s hs rest]
    split <;> simp
  | err =>
    rw [ffiDecrypt, cStr_utf8 (js.no_nul _ _ hs), Mem.ok_bind, ofUtf8_utf8]
    simp [sub32, js.read_write _ _ hs, h]
  | panic =>
    rw [ffiDecrypt, cStr_utf8 (js.no_nul _ _ hs), Mem.ok_bind, ofUtf8_utf8]
    simp [sub32, js.read_write _ _ hs, h]

omit [DecidableEq F] in
/-- Delegation through the interface gives the library's key, and panics where the library refuses. -/
theorem C76_delegate (env : Env F G1 G2 Gt) (ctx : Context F G1 G2 Gt) (sk : SecretKey G1 G2) (attrs : List Str)
    (t : Tape F G1 G2 Gt) :
    (∀ sk' t', delegate env ctx.pk sk attrs t = .ok (some sk', t') → ffiDelegate env ctx sk attrs t = .ok sk') ∧
    (∀ t', delegate env ctx.pk sk attrs t = .ok (none, t') → ffiDelegate env ctx sk attrs t = .panic) := by
  refine ⟨fun sk' t' h => ?_, fun t' h => ?_⟩ <;> simp [ffiDelegate, ffiCall, h, Mem.unwrapOption]

/-- A concrete AEAD with a tag of 16 bytes. -/
def gcmEnv : Env Fr Fr Fr Fr where
  pair := LinearMap.mul Fr Fr
  hash := toyHash
  kdf := toyKdf
  aeadEnc k _ m := some ((k ++ List.replicate 16 0).take 16 ++ m)
  aeadDec k _ c := if c.take 16 = (k ++ List.replicate 16 0).take 16 then some (c.drop 16) else none
  aeadDec_enc := by
    intro k n m c h
    simp only [Option.some.injEq] at h
    subst h
    have : ((k ++ List.replicate 16 (0 : UInt8)).take 16).length = 16 := by simp
    rw [List.take_append_of_le_length (by rw [this]), List.drop_append_of_le_length (by rw [this]),
      List.take_of_length_le (by rw [this]), List.drop_of_length_le (by rw [this])]
    simp

theorem gcmEnv_tag : Tag16 gcmEnv := by
  intro k n c m h
  simp only [gcmEnv] at h
  split at h
  · rename_i hc
    simp only [Option.some.injEq] at h
    subst h
    have : (c.take 16).length = 16 := by rw [hc]; simp
    rw [List.length_take] at this
    rw [List.length_drop]
    omega
  · simp at h

/-- A writer for one object. -/
noncomputable def JsonCodec.only {α : Type} (x : α) : JsonCodec α where
  write y := by classical exact if y = x then some ['x'] else none
  read s := if s = ['x'] then some x else none
  read_write := by
    intro y s h
    split at h <;> simp_all
  no_nul := by
    intro y s h
    split at h
    · simp only [Option.some.injEq] at h; subst h; decide
    · simp at h

/-- One run of the library in this environment. -/
def gcmRun (attrs : List Str) (text : Str) (plaintext : Bytes) : Res (Res Bytes) := do
  let x ← setup gcmEnv toyTape
  let y ← keygen gcmEnv x.1.1 x.1.2 attrs toyTape
  let sk ← Res.unwrapOption y.1
  let z ← encrypt gcmEnv x.1.1 text .json plaintext toyTape
  .ok (decrypt gcmEnv sk z.1)

/-- The whole chain through the interface: create, request a key for `A` and `B`, encrypt two bytes, and decrypt the
buffer. The last step reads behind the end of the plaintext. -/
example : ∃ ctx sk ct, ∃ js : JsonCodec (Ciphertext Fr Fr Fr), ∃ buf n,
    ffiCreate gcmEnv toyTape = .ok ctx ∧
    ffiKeygen gcmEnv ctx (utf8 (chars% "A,B") ++ [0]) toyTape = .ok sk ∧
    ffiEncrypt gcmEnv js ctx (utf8 (chars% "{\"name\": \"or\", \"children\": [{\"name\": \"B\"}, {\"name\": \"C\"}]}") ++ [0])
      [1, 2, 3] 2 toyTape = .ok (some (buf, n)) ∧
    decrypt gcmEnv sk ct = .ok [1, 2] ∧ ffiDecryptGetSize true ct = .ok 14 ∧
    ffiDecrypt gcmEnv js true sk buf n = .undefined := by
  have h : gcmRun [['A'], ['B']] (chars% "{\"name\": \"or\", \"children\": [{\"name\": \"B\"}, {\"name\": \"C\"}]}") [1, 2] =
    .ok (.ok [1, 2]) := by decide +kernel
  simp only [gcmRun, Res.bind_eq_ok, Res.ok.injEq] at h
  obtain ⟨⟨⟨pk, msk⟩, t₁⟩, h1, ⟨sk?, t₂⟩, h2, sk, h3, ⟨ct, t₃⟩, h4, h5⟩ := h
  cases sk? with
  | none => simp at h3
  | some sk' =>
  simp only [Res.unwrapOption_some, Res.ok.injEq] at h3
  subst h3
  have hs : (JsonCodec.only ct).write ct = some ['x'] := by simp [JsonCodec.only]
  have he := C76_encrypt_partial gcmEnv (JsonCodec.only ct) ⟨msk, pk⟩ _ (by decide) [1, 2] [] [3] _ _ ct h4 ['x'] hs (by decide)
  have hd := C76_violated_decrypt gcmEnv gcmEnv_tag (JsonCodec.only ct) true sk' ct [1, 2] h5 (by decide) ['x'] hs []
  refine ⟨⟨msk, pk⟩, sk', ct, JsonCodec.only ct, _, _, ?_, ?_, he, h5,
    C76_violated_size gcmEnv gcmEnv_tag true sk' ct [1, 2] h5 (by decide), by simpa using hd⟩
  · simp [ffiCreate, ffiCall, h1, Mem.unwrapOption]
  · exact C76_keygen_partial gcmEnv ⟨msk, pk⟩ [['A'], ['B']] (by simp) (by decide) (by decide) [] _ _ sk' h2

/-- A writer whose output has a given length: the hypothesis of `C76_violated_length` can be met. -/
example {α : Type} (x : α) (n : ℕ) : ∃ js : JsonCodec α, ∃ s, js.write x = some s ∧ (utf8 s).length = n := by
  classical
  refine ⟨⟨fun y => if y = x then some (List.replicate n 'x') else none,
    fun s => if s = List.replicate n 'x' then some x else none, ?_, ?_⟩, List.replicate n 'x', by simp, ?_⟩
  · intro y s h
    split at h <;> simp_all
  · intro y s h
    split at h
    · simp only [Option.some.injEq] at h; subst h; simp [List.mem_replicate]
    · simp at h
  · induction n with
    | zero => rfl
    | succ n ih => rw [List.replicate_succ]; simp only [utf8, List.flatMap_cons, List.length_append] at ih ⊢; rw [ih]; rw [show (String.utf8EncodeChar 'x').length = 1 from rfl]; omega

end Bsw
end Rabe
