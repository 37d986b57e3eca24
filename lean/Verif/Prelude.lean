import Mathlib.Algebra.Module.LinearMap.Defs
import Mathlib.Algebra.Module.LinearMap.Basic
import Mathlib.Algebra.Module.LinearMap.End
import Mathlib.Algebra.Field.Defs

/-!
# Basic vocabulary of the model

Outcomes of Rust calls, character strings, byte strings, the random tape and the
cryptographic environment (groups, pairing, hash, AEAD).
-/

namespace Rabe

/-- Outcome of a Rust call: a value, an `Err(RabeError)`, or a panic.
Source: convention used in all of `/repo/src` (`Result<_, RabeError>` from `src/error.rs:19-21`, plus
`unwrap`/`expect`/`panic!`/indexing). Simplification: the error text is dropped. -/
inductive Res (α : Type) where
  | ok (a : α)
  | err
  | panic
  deriving DecidableEq, Repr

namespace Res

variable {α β : Type}

/-- Sequencing of calls: `Err` propagates as with `match … Err(e) => Err(e)` / `?`
(e.g. `/repo/src/schemes/bsw/mod.rs:244-249`), a panic unwinds. -/
@[inline] def bind : Res α → (α → Res β) → Res β
  | ok a, f => f a
  | err, _ => err
  | panic, _ => panic

instance : Monad Res where
  pure := ok
  bind := bind

@[simp] theorem ok_bind (a : α) (f : α → Res β) : (ok a >>= f) = f a := rfl
@[simp] theorem err_bind (f : α → Res β) : ((err : Res α) >>= f) = err := rfl
@[simp] theorem panic_bind (f : α → Res β) : ((panic : Res α) >>= f) = panic := rfl
@[simp] theorem pure_eq (a : α) : (pure a : Res α) = ok a := rfl

theorem bind_eq_ok {x : Res α} {f : α → Res β} {b : β} :
    (x >>= f) = ok b ↔ ∃ a, x = ok a ∧ f a = ok b := by
  cases x <;> simp

/-- `Option::unwrap` as used e.g. in `/repo/src/schemes/bsw/mod.rs:232`: `None` panics. -/
@[inline] def unwrapOption : Option α → Res α
  | some a => ok a
  | none => panic

/-- `Result::unwrap`/`expect` as used e.g. in `/repo/src/utils/secretsharing/mod.rs:160`:
an `Err` becomes a panic. -/
@[inline] def unwrap : Res α → Res α
  | ok a => ok a
  | err => panic
  | panic => panic

@[simp] theorem unwrapOption_some (a : α) : unwrapOption (some a) = ok a := rfl
@[simp] theorem unwrapOption_none : unwrapOption (none : Option α) = panic := rfl
@[simp] theorem unwrap_ok (a : α) : unwrap (ok a) = ok a := rfl
@[simp] theorem unwrap_err : unwrap (err : Res α) = panic := rfl
@[simp] theorem unwrap_panic : unwrap (panic : Res α) = panic := rfl

/-- Indexing `v[i]` of a vector, e.g. `/repo/src/schemes/ac17/mod.rs:415`: panics when out of bounds. -/
def index (v : List α) (i : ℕ) : Res α := unwrapOption v[i]?

/-- A `for x in xs { out.push(f(x)) }` loop whose body may fail (e.g. `/repo/src/schemes/ac17/mod.rs:227-240`). -/
def mapR (f : α → Res β) : List α → Res (List β)
  | [] => ok []
  | x :: xs => bind (f x) fun y => bind (mapR f xs) fun ys => ok (y :: ys)

/-- A `for x in xs { … }` loop that updates a state and may fail (e.g. `/repo/src/schemes/ac17/mod.rs:403-414`). -/
def foldR (f : β → α → Res β) : β → List α → Res β
  | b, [] => ok b
  | b, x :: xs => bind (f b x) fun b' => foldR f b' xs

theorem rbind_eq (x : Res α) (f : α → Res β) : bind x f = (x >>= f) := rfl

instance : LawfulMonad Res := LawfulMonad.mk'
  (id_map := by intro α x; cases x <;> rfl)
  (pure_bind := by intros; rfl)
  (bind_assoc := by intro α β γ x f g; cases x <;> rfl)

end Res

/-- Rust `String`/`&str` as a list of Unicode scalar values. Used for every `String` field in
`/repo/src`. Simplification: equality and concatenation do not depend on the UTF-8 encoding;
where byte offsets matter (`/repo/src/utils/tools/mod.rs:7`) the model uses the UTF-8 size. -/
abbrev Str := List Char

/-- `Vec<u8>` (payloads, e.g. `/repo/src/schemes/bsw/mod.rs:69`). -/
abbrev Bytes := List UInt8

/-- The random numbers a call will draw, one infinite stream per type.
Source: `rand::thread_rng()` / `rng.gen()` (e.g. `/repo/src/schemes/bsw/mod.rs:94-100`).
Simplification: a draw returns an arbitrary element; theorems quantify over all tapes. -/
structure Tape (F G1 G2 Gt : Type) where
  fr : ℕ → F
  g1 : ℕ → G1
  g2 : ℕ → G2
  gt : ℕ → Gt
  byte : ℕ → UInt8

/-- Drop the first `n` elements of a stream. Auxiliary to `Tape` (source: successive `rng.gen()`
calls, `/repo/src/utils/secretsharing/mod.rs:132-134`). -/
def dropS {α : Type} (n : ℕ) (ω : ℕ → α) : ℕ → α := fun i => ω (n + i)

/-- A computation that may draw random numbers, fail, or panic.
Source: functions taking `thread_rng()` such as `/repo/src/schemes/bsw/mod.rs:92-115`. -/
abbrev RM (F G1 G2 Gt : Type) (α : Type) := Tape F G1 G2 Gt → Res (α × Tape F G1 G2 Gt)

namespace RM
variable {F G1 G2 Gt α β : Type}

/-- Sequencing of random computations (plain sequential Rust code, e.g.
`/repo/src/schemes/bsw/mod.rs:139-151`). -/
@[inline] def bind (m : RM F G1 G2 Gt α) (f : α → RM F G1 G2 Gt β) : RM F G1 G2 Gt β :=
  fun t => match m t with
    | .ok (a, t') => f a t'
    | .err => .err
    | .panic => .panic

/-- A computation that draws nothing (plain Rust expression). -/
@[inline] def pure (a : α) : RM F G1 G2 Gt α := fun t => .ok (a, t)

instance : Monad (RM F G1 G2 Gt) where
  pure := RM.pure
  bind := RM.bind

/-- Embed a computation that draws nothing. -/
@[inline] def lift (m : Res α) : RM F G1 G2 Gt α := fun t => m >>= fun a => .ok (a, t)

/-- `rng.gen::<Fr>()`, e.g. `/repo/src/schemes/bsw/mod.rs:99`. -/
def genFr : RM F G1 G2 Gt F := fun t => .ok (t.fr 0, { t with fr := dropS 1 t.fr })
/-- `rng.gen::<G1>()`, e.g. `/repo/src/schemes/bsw/mod.rs:96`. -/
def genG1 : RM F G1 G2 Gt G1 := fun t => .ok (t.g1 0, { t with g1 := dropS 1 t.g1 })
/-- `rng.gen::<G2>()`, e.g. `/repo/src/schemes/bsw/mod.rs:97`. -/
def genG2 : RM F G1 G2 Gt G2 := fun t => .ok (t.g2 0, { t with g2 := dropS 1 t.g2 })
/-- `rng.gen::<Gt>()`, e.g. `/repo/src/schemes/bsw/mod.rs:229`. -/
def genGt : RM F G1 G2 Gt Gt := fun t => .ok (t.gt 0, { t with gt := dropS 1 t.gt })
/-- `n` draws of `rng.gen::<u8>()`, `/repo/src/utils/aes/mod.rs:17`. -/
def genBytes (n : ℕ) : RM F G1 G2 Gt Bytes := fun t =>
  .ok ((List.range n).map t.byte, { t with byte := dropS n t.byte })

/-- A computation that only draws scalars, run on the scalar stream of the tape
(`/repo/src/utils/secretsharing/mod.rs:82-141` draws scalars only). -/
def liftFr (m : (ℕ → F) → Res (α × (ℕ → F))) : RM F G1 G2 Gt α := fun t =>
  match m t.fr with
  | .ok (a, ω) => .ok (a, { t with fr := ω })
  | .err => .err
  | .panic => .panic

/-- A `for x in xs { … out.push(f(x)) }` loop whose body may draw random numbers
(e.g. `/repo/src/schemes/bsw/mod.rs:143-150`). -/
def mapL (f : α → RM F G1 G2 Gt β) : List α → RM F G1 G2 Gt (List β)
  | [] => pure []
  | x :: xs => RM.bind (f x) fun y => RM.bind (mapL f xs) fun ys => pure (y :: ys)

/-- A `for x in xs { … }` loop that updates a state and may draw random numbers
(e.g. `/repo/src/schemes/lsw/mod.rs:137-165`). -/
def foldL (f : β → α → RM F G1 G2 Gt β) : β → List α → RM F G1 G2 Gt β
  | b, [] => pure b
  | b, x :: xs => RM.bind (f b x) fun b' => foldL f b' xs

@[simp] theorem bind_apply (m : RM F G1 G2 Gt α) (f : α → RM F G1 G2 Gt β) (t) :
    (m >>= f) t = match m t with
      | .ok (a, t') => f a t'
      | .err => .err
      | .panic => .panic := rfl
@[simp] theorem pure_apply (a : α) (t : Tape F G1 G2 Gt) :
    (Pure.pure a : RM F G1 G2 Gt α) t = .ok (a, t) := rfl
@[simp] theorem lift_ok (a : α) (t : Tape F G1 G2 Gt) :
    (lift (.ok a) : RM F G1 G2 Gt α) t = .ok (a, t) := rfl
@[simp] theorem lift_err (t : Tape F G1 G2 Gt) :
    (lift .err : RM F G1 G2 Gt α) t = .err := rfl
@[simp] theorem lift_panic (t : Tape F G1 G2 Gt) :
    (lift .panic : RM F G1 G2 Gt α) t = .panic := rfl

end RM

/-- The scalar field is large: the positive machine integers are non-zero in it.
Source: `Fr` of `rabe_bn` has a 254-bit prime order while Rust indices are `usize`
(`/repo/src/utils/tools/mod.rs:11-13`). -/
class BigChar (F : Type) [Field F] : Prop where
  cast_ne_zero : ∀ n : ℕ, 0 < n → n < 2 ^ 64 → (n : F) ≠ 0

/-- The cryptographic environment.
* `pair` — `rabe_bn::pairing`, an arbitrary bilinear map (`Gt` is written additively);
* `hash` — `sha3_hash_fr`, `/repo/src/utils/hash/mod.rs:23-32` (never fails: a 32-byte digest is reduced);
* `kdf` — `/repo/src/utils/aes/mod.rs:47-55`;
* `aeadEnc`/`aeadDec` — `Aes256Gcm::encrypt`/`decrypt`, `/repo/src/utils/aes/mod.rs:19,40`
  (key, nonce, data), with `none` for an error;
* `aeadDec_enc` — the only assumption: decryption inverts encryption. -/
structure Env (F G1 G2 Gt : Type) [Field F] [AddCommGroup G1] [Module F G1]
    [AddCommGroup G2] [Module F G2] [AddCommGroup Gt] [Module F Gt] where
  pair : G1 →ₗ[F] G2 →ₗ[F] Gt
  hash : Str → F
  kdf : Gt → Bytes
  aeadEnc : Bytes → Bytes → Bytes → Option Bytes
  aeadDec : Bytes → Bytes → Bytes → Option Bytes
  aeadDec_enc : ∀ k n m c, aeadEnc k n m = some c → aeadDec k n c = some m

/-- `Fr::inverse().unwrap()`, e.g. `/repo/src/schemes/bsw/mod.rs:104`: zero has no inverse and panics. -/
def inv {F : Type} [Field F] [DecidableEq F] (x : F) : Res F :=
  if x = 0 then .panic else .ok x⁻¹

/-- `sha3_hash(g, data)`, `/repo/src/utils/hash/mod.rs:10-20`: the base times the digest as a scalar. -/
def Env.sha3Hash {F G1 G2 Gt G : Type} [Field F] [AddCommGroup G1] [Module F G1]
    [AddCommGroup G2] [Module F G2] [AddCommGroup Gt] [Module F Gt]
    [AddCommGroup G] [Module F G] (env : Env F G1 G2 Gt) (g : G) (s : Str) : G :=
  env.hash s • g

open Lean in
/-- `chars% "abc"` is the list of characters `['a', 'b', 'c']` (notation for string literals in `/repo/src`). -/
macro "chars%" s:str : term => do
  let cs := (s.getString.toList.map fun c => Syntax.mkCharLit c).toArray
  `(([$cs,*] : List Char))

/-- Decimal digits of a number, `usize::to_string` (`/repo/src/utils/secretsharing/mod.rs:75`). -/
def natStr (n : ℕ) : Str := Nat.toDigits 10 n

end Rabe
