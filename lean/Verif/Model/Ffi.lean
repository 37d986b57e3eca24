import Verif.Model.Bsw
import Verif.Model.Borsh

/-!
# The C interface of BSW

Model of `/repo/src/ffi/bsw.rs`. The file is not part of the crate (`/repo/src/lib.rs` does not declare the module `ffi`)
and was written against an earlier interface in which the library answered `None` where it now answers `Err`; the model
reads `None` as `Err`. Pointers to library objects are modelled by the objects (the caller passes what the interface
returned, and nothing is released twice; `Verif.Model.FfiHeap` has the pointers); a pointer into a byte buffer is modelled
by the bytes from there to the end of the allocation. `malloc` never fails.
-/

namespace Rabe

/-- Outcome of a C-callable function: it returns, it panics (which must not cross the boundary), or it reads or writes
outside of an allocation. Source: the `unsafe` blocks of `/repo/src/ffi/bsw.rs`. -/
inductive Mem (α : Type) where
  | ok (a : α)
  | panic
  | undefined
  deriving DecidableEq, Repr

namespace Mem

variable {α β : Type}

/-- Sequencing (plain Rust code in `/repo/src/ffi/bsw.rs`). -/
@[inline] def bind : Mem α → (α → Mem β) → Mem β
  | ok a, f => f a
  | panic, _ => panic
  | undefined, _ => undefined

instance : Monad Mem where
  pure := ok
  bind := bind

@[simp] theorem ok_bind (a : α) (f : α → Mem β) : (ok a >>= f) = f a := rfl
@[simp] theorem panic_bind (f : α → Mem β) : ((panic : Mem α) >>= f) = panic := rfl
@[simp] theorem undefined_bind (f : α → Mem β) : ((undefined : Mem α) >>= f) = undefined := rfl
@[simp] theorem pure_eq (a : α) : (pure a : Mem α) = ok a := rfl

/-- `unwrap` of an option, e.g. `/repo/src/ffi/bsw.rs:46`. -/
@[inline] def unwrapOption : Option α → Mem α
  | some a => ok a
  | none => panic

end Mem

/-- `a - b` on `u32`, `/repo/src/ffi/bsw.rs:127,145,155`: with overflow checks a negative result panics, without them it
wraps. -/
def sub32 (checks : Bool) (a b : ℕ) : Mem ℕ :=
  if b ≤ a then .ok (a - b) else if checks then .panic else .ok (2 ^ 32 + a - b)

/-- `CStr::from_ptr(p).to_bytes()`, `/repo/src/ffi/bsw.rs:46,92,140`: the bytes before the first zero; without a zero the
read leaves the allocation. -/
def cStr (region : Bytes) : Mem Bytes :=
  if 0 ∈ region then .ok (region.takeWhile (· ≠ 0)) else .undefined

/-- `str::split(",")`, `/repo/src/ffi/bsw.rs:47`: the parts between commas; always at least one. -/
def splitComma : Str → List Str
  | [] => [[]]
  | c :: cs =>
    if c = ',' then [] :: splitComma cs
    else match splitComma cs with
      | [] => [[c]]
      | w :: ws => (c :: w) :: ws

/-- `ptr::copy_nonoverlapping(src, dst, n)` and `slice::from_raw_parts(src, n)`, `/repo/src/ffi/bsw.rs:100,117,157`: the
first `n` bytes; reading more than there are leaves the allocation. -/
def readBytes (src : Bytes) (n : ℕ) : Mem Bytes :=
  if n ≤ src.length then .ok (src.take n) else .undefined

/-- `serde_json` for ciphertexts (`serde_json::to_string`, `from_str`, `/repo/src/ffi/bsw.rs:108,146`), a parameter:
reading inverts writing, and control characters are escaped. -/
structure JsonCodec (α : Type) where
  write : α → Option Str
  read : Str → Option α
  read_write : ∀ x s, write x = some s → read s = some x
  no_nul : ∀ x s, write x = some s → '\x00' ∉ s

namespace Bsw

variable {F G1 G2 Gt : Type} [Field F] [DecidableEq F] [AddCommGroup G1] [Module F G1]
  [AddCommGroup G2] [Module F G2] [AddCommGroup Gt] [Module F Gt]

/-- `CpAbeContext`, `/repo/src/ffi/bsw.rs:16-20`. -/
structure Context (F G1 G2 Gt : Type) where
  msk : MasterKey F G2
  pk : PublicKey G1 G2 Gt

/-- A library call with random numbers inside the interface: a panic is a panic; `Err` is read as `None`
(`/repo/src/ffi/bsw.rs:104-106`). -/
def ffiCall {α : Type} (m : RM F G1 G2 Gt α) (t : Tape F G1 G2 Gt) : Mem (Option α) :=
  match m t with
  | .ok (a, _) => .ok (some a)
  | .err => .ok none
  | .panic => .panic

/-- `rabe_bsw_context_create`, `/repo/src/ffi/bsw.rs:22-32`. -/
def ffiCreate (env : Env F G1 G2 Gt) (t : Tape F G1 G2 Gt) : Mem (Context F G1 G2 Gt) := do
  let r ← ffiCall (setup env) t
  let (pk, msk) ← Mem.unwrapOption r
  pure { msk, pk }

/-- `rabe_bsw_keygen`, `/repo/src/ffi/bsw.rs:40-60`: names are separated by commas. -/
def ffiKeygen (env : Env F G1 G2 Gt) (ctx : Context F G1 G2 Gt) (attributes : Bytes) (t : Tape F G1 G2 Gt) :
    Mem (SecretKey G1 G2) := do
  let bytes ← cStr attributes
  let text ← Mem.unwrapOption (ofUtf8 bytes)
  let r ← ffiCall (keygen env ctx.pk ctx.msk (splitComma text)) t
  let sk? ← Mem.unwrapOption r
  Mem.unwrapOption sk?

/-- `rabe_bsw_delegate`, `/repo/src/ffi/bsw.rs:68-80`. -/
def ffiDelegate (env : Env F G1 G2 Gt) (ctx : Context F G1 G2 Gt) (sk : SecretKey G1 G2) (attributes : List Str)
    (t : Tape F G1 G2 Gt) : Mem (SecretKey G1 G2) := do
  let r ← ffiCall (delegate env ctx.pk sk attributes) t
  let sk? ← Mem.unwrapOption r
  Mem.unwrapOption sk?

/-- `rabe_bsw_encrypt`, `/repo/src/ffi/bsw.rs:82-122`. `none` is the return value -1; otherwise 0 with the buffer stored
through `ct_buf` and the length stored through `ct_buf_len`. The length is cut to 32 bits before the allocation. -/
def ffiEncrypt (env : Env F G1 G2 Gt) (js : JsonCodec (Ciphertext G1 G2 Gt)) (ctx : Context F G1 G2 Gt) (policy pt : Bytes)
    (ptLen : ℕ) (t : Tape F G1 G2 Gt) : Mem (Option (Bytes × ℕ)) := do
  let pol ← cStr policy
  match ofUtf8 pol with
  | none => pure none
  | some text => do
    let data ← readBytes pt ptLen
    match ← ffiCall (encrypt env ctx.pk text .json data) t with
    | none => pure none
    | some ct =>
      match js.write ct with
      | none => pure none
      | some s =>
        let size := ((utf8 s).length + 1) % 2 ^ 32
        if (utf8 s).length ≤ size then
          pure (some (utf8 s ++ List.replicate (size - (utf8 s).length) 0, size))
        else .undefined

/-- `rabe_bsw_decrypt_get_size`, `/repo/src/ffi/bsw.rs:124-128`. -/
def ffiDecryptGetSize (checks : Bool) (ct : Ciphertext G1 G2 Gt) : Mem ℕ :=
  sub32 checks (ct.data.length % 2 ^ 32) 16

/-- `rabe_bsw_decrypt`, `/repo/src/ffi/bsw.rs:130-163`. `none` is the return value -1; otherwise 0 with the buffer stored
through `pt_buf` and the length stored through `pt_buf_len`. -/
def ffiDecrypt (env : Env F G1 G2 Gt) (js : JsonCodec (Ciphertext G1 G2 Gt)) (checks : Bool) (sk : SecretKey G1 G2)
    (ct : Bytes) (ctLen : ℕ) : Mem (Option (Bytes × ℕ)) := do
  let bytes ← cStr ct
  match ofUtf8 bytes with
  | none => pure none
  | some text => do
    let n ← sub32 checks ctLen 1
    if bytes.length = n then
      match js.read text with
      | none => pure none
      | some c =>
        match decrypt env sk c with
        | .err => pure none
        | .panic => .panic
        | .ok pt => do
          let size ← sub32 checks (c.data.length % 2 ^ 32) 16
          match pt with
          | [] => .panic
          | _ :: _ => do
            let out ← readBytes pt size
            pure (some (out, size))
    else .panic

end Bsw
end Rabe
