import Verif.Model.Ffi

/-!
# The C interface of BSW with pointers

Model of the functions of `/repo/src/ffi/bsw.rs` on addresses. The memory holds the objects that exist: the boxed contexts
and keys made by the interface, the buffers it allocates with `malloc`, and (for the two functions that take a pointer to
one) vectors of strings and ciphertexts. The contents of the calls are those of `Verif.Model.Ffi`.

Simplifications: an access through an address at which no object of the right type exists is `undefined` whatever happens
to be stored there; a new object gets any address that is not in use, so addresses of released objects may be used again;
`malloc` never fails; the calls run one after the other (no threads); the out-pointers for buffers and lengths are valid.
-/

namespace Rabe
namespace Bsw

variable {F G1 G2 Gt : Type} [Field F] [DecidableEq F] [AddCommGroup G1] [Module F G1]
  [AddCommGroup G2] [Module F G2] [AddCommGroup Gt] [Module F Gt]

/-- What a pointer of the interface points to: the pointee types in the signatures of `/repo/src/ffi/bsw.rs:22-163`. -/
inductive FfiObj (F G1 G2 Gt : Type) where
  | context (c : Context F G1 G2 Gt)
  | key (sk : SecretKey G1 G2)
  | buffer (b : Bytes)
  | strings (v : List Str)
  | ciphertext (ct : Ciphertext G1 G2 Gt)

/-- The types of `FfiObj` (`/repo/src/ffi/bsw.rs:22-163`). -/
inductive FfiKind where
  | context | key | buffer | strings | ciphertext
  deriving DecidableEq, Repr

/-- The type of an object (`/repo/src/ffi/bsw.rs:22-163`). -/
def FfiObj.kind : FfiObj F G1 G2 Gt → FfiKind
  | .context _ => .context
  | .key _ => .key
  | .buffer _ => .buffer
  | .strings _ => .strings
  | .ciphertext _ => .ciphertext

/-- The objects that exist, with their addresses (`Box::new`, `/repo/src/ffi/bsw.rs:26,54,78`; `malloc`, lines 115,156). -/
abbrev FfiHeap (F G1 G2 Gt : Type) := List (ℕ × FfiObj F G1 G2 Gt)

/-- The allocator behind `Box::new` and `malloc` (`/repo/src/ffi/bsw.rs:26,54,78,115,156`), a parameter: it chooses an
address that is not in use. -/
structure FfiAllocator where
  pick : List ℕ → ℕ
  fresh : ∀ used, pick used ∉ used

namespace FfiHeap

/-- The object at an address (dereferencing, e.g. `/repo/src/ffi/bsw.rs:52`). -/
def get (h : FfiHeap F G1 G2 Gt) (p : ℕ) : Option (FfiObj F G1 G2 Gt) := h.lookup p

/-- The addresses in use (`Box::new`, `/repo/src/ffi/bsw.rs:26`). -/
def used (h : FfiHeap F G1 G2 Gt) : List ℕ := h.map Prod.fst

/-- `&*ctx`, `/repo/src/ffi/bsw.rs:52,76,98`, and `transmute(ctx)`, line 36. -/
def context (h : FfiHeap F G1 G2 Gt) (p : ℕ) : Mem (Context F G1 G2 Gt) :=
  match h.get p with
  | some (.context c) => .ok c
  | _ => .undefined

/-- `&*sk`, `/repo/src/ffi/bsw.rs:77`, `&mut *sk`, line 138, and `transmute(sk)`, line 64. -/
def key (h : FfiHeap F G1 G2 Gt) (p : ℕ) : Mem (SecretKey G1 G2) :=
  match h.get p with
  | some (.key sk) => .ok sk
  | _ => .undefined

/-- A pointer to bytes: `/repo/src/ffi/bsw.rs:46,91,99,140`. -/
def buffer (h : FfiHeap F G1 G2 Gt) (p : ℕ) : Mem Bytes :=
  match h.get p with
  | some (.buffer b) => .ok b
  | _ => .undefined

/-- `&mut *attributes`, `/repo/src/ffi/bsw.rs:74`. -/
def strings (h : FfiHeap F G1 G2 Gt) (p : ℕ) : Mem (List Str) :=
  match h.get p with
  | some (.strings v) => .ok v
  | _ => .undefined

/-- `&mut *ct`, `/repo/src/ffi/bsw.rs:126`. -/
def ciphertext (h : FfiHeap F G1 G2 Gt) (p : ℕ) : Mem (Ciphertext G1 G2 Gt) :=
  match h.get p with
  | some (.ciphertext ct) => .ok ct
  | _ => .undefined

/-- Dropping a box (`/repo/src/ffi/bsw.rs:36-38,64-66`) or `free` of a buffer by the caller. -/
def release (h : FfiHeap F G1 G2 Gt) (p : ℕ) : FfiHeap F G1 G2 Gt := h.filter fun e => e.1 ≠ p

/-- `Box::new` and `malloc` (`/repo/src/ffi/bsw.rs:26,54,78,115,156`): the new address and the memory. -/
def alloc (al : FfiAllocator) (h : FfiHeap F G1 G2 Gt) (o : FfiObj F G1 G2 Gt) : ℕ × FfiHeap F G1 G2 Gt :=
  (al.pick h.used, (al.pick h.used, o) :: h)

end FfiHeap

/-- A byte argument (`attributes`, `policy`, `pt`, `ct` in `/repo/src/ffi/bsw.rs:42,84,85,133`): memory of the caller, or a
buffer that the interface has allocated. -/
inductive FfiBytes where
  | own (b : Bytes)
  | stored (p : ℕ)

/-- The bytes behind a byte argument (`/repo/src/ffi/bsw.rs:46,91,99,140`). -/
def FfiHeap.bytes (h : FfiHeap F G1 G2 Gt) : FfiBytes → Mem Bytes
  | .own b => .ok b
  | .stored p => h.buffer p

/-- The calls: the eight functions of `/repo/src/ffi/bsw.rs:22-163`, and `free` (called by the program for the buffers of
lines 115 and 156, which no function of the interface releases). -/
inductive FfiOp where
  | create
  | contextDestroy (ctx : ℕ)
  | keygen (ctx : ℕ) (attributes : FfiBytes)
  | keygenDestroy (sk : ℕ)
  | delegate (ctx sk attributes : ℕ)
  | encrypt (ctx : ℕ) (policy pt : FfiBytes) (ptLen : ℕ)
  | getSize (ct : ℕ)
  | decrypt (sk : ℕ) (ct : FfiBytes) (ctLen : ℕ)
  | free (p : ℕ)

/-- What a call returns: nothing, a pointer, -1, 0 with a buffer and its length stored through the out-pointers, or a
number (`/repo/src/ffi/bsw.rs:22-163`). -/
inductive FfiAnswer where
  | done
  | pointer (p : ℕ)
  | failed
  | stored (p len : ℕ)
  | size (n : ℕ)
  deriving DecidableEq, Repr

/-- One call on the memory: `/repo/src/ffi/bsw.rs:22-163`. The arguments are read in the order of the code: key generation
and encryption look at the text before they touch the context, and encryption answers -1 for a policy that is not UTF-8
without touching the context or the plaintext. -/
def ffiStep (env : Env F G1 G2 Gt) (js : JsonCodec (Ciphertext G1 G2 Gt)) (checks : Bool) (al : FfiAllocator)
    (op : FfiOp) (t : Tape F G1 G2 Gt) (h : FfiHeap F G1 G2 Gt) : Mem (FfiAnswer × FfiHeap F G1 G2 Gt) :=
  match op with
  | .create => do
    let c ← ffiCreate env t
    let a := h.alloc al (.context c)
    pure (.pointer a.1, a.2)
  | .contextDestroy p => do
    let _ ← h.context p
    pure (.done, h.release p)
  | .keygen p attributes => do
    let region ← h.bytes attributes
    let bytes ← cStr region
    let _ ← Mem.unwrapOption (ofUtf8 bytes)
    let ctx ← h.context p
    let sk ← ffiKeygen env ctx region t
    let a := h.alloc al (.key sk)
    pure (.pointer a.1, a.2)
  | .keygenDestroy p => do
    let _ ← h.key p
    pure (.done, h.release p)
  | .delegate p q attributes => do
    let v ← h.strings attributes
    let ctx ← h.context p
    let sk ← h.key q
    let dsk ← ffiDelegate env ctx sk v t
    let a := h.alloc al (.key dsk)
    pure (.pointer a.1, a.2)
  | .encrypt p policy pt ptLen => do
    let region ← h.bytes policy
    let bytes ← cStr region
    match ofUtf8 bytes with
    | none => pure (.failed, h)
    | some _ => do
      let ctx ← h.context p
      let data ← h.bytes pt
      match ← ffiEncrypt env js ctx region data ptLen t with
      | none => pure (.failed, h)
      | some r =>
        let a := h.alloc al (.buffer r.1)
        pure (.stored a.1 r.2, a.2)
  | .getSize p => do
    let ct ← h.ciphertext p
    let n ← ffiDecryptGetSize checks ct
    pure (.size n, h)
  | .decrypt p ct ctLen => do
    let sk ← h.key p
    let region ← h.bytes ct
    match ← ffiDecrypt env js checks sk region ctLen with
    | none => pure (.failed, h)
    | some r =>
      let a := h.alloc al (.buffer r.1)
      pure (.stored a.1 r.2, a.2)
  | .free p => do
    let _ ← h.buffer p
    pure (.done, h.release p)

/-- A program: calls one after the other, each with its random numbers (`/repo/src/ffi/bsw.rs:22-163`). The answers, and
the memory at the end. -/
def ffiRun (env : Env F G1 G2 Gt) (js : JsonCodec (Ciphertext G1 G2 Gt)) (checks : Bool) (al : FfiAllocator) :
    List (FfiOp × Tape F G1 G2 Gt) → FfiHeap F G1 G2 Gt → Mem (List FfiAnswer × FfiHeap F G1 G2 Gt)
  | [], h => .ok ([], h)
  | (op, t) :: ops, h => do
    let r ← ffiStep env js checks al op t h
    let s ← ffiRun env js checks al ops r.2
    pure (r.1 :: s.1, s.2)

end Bsw
end Rabe
