import Verif.Model.Policy

/-!
# Binary serialisation (the `borsh` feature)

The derive macros of `borsh` 1.5 (`/repo/Cargo.toml`) write the fields of a structure in the order of their declaration,
a vector as a little-endian `u32` length followed by its elements, a string as the vector of its UTF-8 bytes, an
enumeration as a one-byte variant number followed by the fields of the variant. `rabe_bn` provides the instances for
`Fr`, `G1`, `G2`, `Gt`; its source is not part of `/repo`, so those four encoders are parameters.
-/

namespace Rabe

/-- `BorshSerialize` and `BorshDeserialize`, derived e.g. at `/repo/src/schemes/bsw/mod.rs:41`: `ser` is `none` when
serialisation fails (a length above `u32::MAX`), `de` consumes a prefix of its input and returns the value and the rest,
`none` is an error. -/
class Borsh (α : Type) where
  ser : α → Option Bytes
  de : Bytes → Option (α × Bytes)

/-- `T::try_from_slice`, used at `/repo/rabe-console/src/mod.rs:1650`: the whole input must be consumed. -/
def tryFromSlice (α : Type) [Borsh α] (bs : Bytes) : Option α :=
  match Borsh.de (α := α) bs with
  | some (a, []) => some a
  | _ => none

/-- UTF-8 bytes of a string (`String::as_bytes`, e.g. `/repo/src/utils/file/mod.rs:88`). -/
def utf8 (s : Str) : Bytes := s.flatMap String.utf8EncodeChar

/-- Decoding of UTF-8 (`String::from_utf8` in `borsh`; `read_to_string` at `/repo/src/utils/file/mod.rs:20`). -/
def ofUtf8 (bs : Bytes) : Option Str := bs.toByteArray.utf8Decode?.map Array.toList

namespace Borsh

variable {α β : Type}

/-- One byte; the variant number of an enumeration (`/repo/src/utils/policy/pest/mod.rs:16-23`). -/
instance : Borsh UInt8 where
  ser b := some [b]
  de
    | [] => none
    | b :: r => some (b, r)

/-- Little-endian bytes of a 32-bit length (`borsh` writes `len as u32` before the elements of every `Vec` and `String`,
e.g. field `c_y` at `/repo/src/schemes/bsw/mod.rs:68`). -/
def le32 (n : ℕ) : Bytes :=
  [UInt8.ofNat n, UInt8.ofNat (n / 256), UInt8.ofNat (n / 256 ^ 2), UInt8.ofNat (n / 256 ^ 3)]

/-- Serialised length; a length that does not fit is an error (see `le32`; field `c_y`, `/repo/src/schemes/bsw/mod.rs:68`). -/
def serLen (n : ℕ) : Option Bytes := if n < 2 ^ 32 then some (le32 n) else none

/-- Reading of a length (see `le32`; field `c_y`, `/repo/src/schemes/bsw/mod.rs:68`). -/
def deLen : Bytes → Option (ℕ × Bytes)
  | a :: b :: c :: d :: r => some (a.toNat + 256 * (b.toNat + 256 * (c.toNat + 256 * d.toNat)), r)
  | _ => none

/-- The elements of a vector, one after another (field `d_j`, `/repo/src/schemes/bsw/mod.rs:78`). -/
def serAll [Borsh α] : List α → Option Bytes
  | [] => some []
  | x :: xs => (ser x).bind fun b => (serAll xs).map (b ++ ·)

/-- Reading of `n` elements (see `serAll`; field `d_j`, `/repo/src/schemes/bsw/mod.rs:78`). -/
def deAll [Borsh α] : ℕ → Bytes → Option (List α × Bytes)
  | 0, bs => some ([], bs)
  | n + 1, bs => (de bs).bind fun (x, r) => (deAll n r).map fun (xs, r') => (x :: xs, r')

/-- `Vec<T>`, e.g. `/repo/src/schemes/bsw/mod.rs:68`; for `T = u8` this is the layout of `data`, line 69. -/
instance [Borsh α] : Borsh (List α) where
  ser xs := (serLen xs.length).bind fun l => (serAll xs).map (l ++ ·)
  de bs := (deLen bs).bind fun (n, r) => deAll n r

/-- `String`, e.g. `/repo/src/schemes/bsw/mod.rs:86`. -/
instance : Borsh (List Char) where
  ser s := (serLen (utf8 s).length).map (· ++ utf8 s)
  de bs := (deLen bs).bind fun (n, r) =>
    if r.length < n then none else (ofUtf8 (r.take n)).map fun s => (s, r.drop n)

/-- A pair, e.g. `(String, PolicyLanguage)` at `/repo/src/schemes/bsw/mod.rs:65`; structures are nested pairs of their
fields. -/
instance [Borsh α] [Borsh β] : Borsh (α × β) where
  ser p := (ser p.1).bind fun b => (ser p.2).map (b ++ ·)
  de bs := (de bs).bind fun (x, r) => (de r).map fun (y, r') => ((x, y), r')

/-- A derived instance, given the fields of the structure as nested pairs (`#[derive(BorshSerialize, BorshDeserialize)]`,
e.g. `/repo/src/schemes/bsw/mod.rs:41`). -/
@[reducible] def via [Borsh α] (out : β → α) (back : α → β) : Borsh β where
  ser b := ser (out b)
  de bs := (de bs).map fun (a, r) => (back a, r)

/-- `PolicyLanguage`, `/repo/src/utils/policy/pest/mod.rs:14-23`: variant 0 is `JsonPolicy`, variant 1 `HumanPolicy`. -/
instance : Borsh PolicyLanguage where
  ser
    | .json => some [0]
    | .human => some [1]
  de
    | [] => none
    | b :: r => if b = 0 then some (.json, r) else if b = 1 then some (.human, r) else none

/-- `Result<T, RabeError>` as serialised by `/repo/rabe-console/src/mod.rs:1145-1149`: `borsh` writes 0 for `Err`,
1 for `Ok`. `RabeError` is its text (`/repo/src/error.rs:19-21`), which the model keeps as an arbitrary string. -/
def serResult [Borsh α] (text : Str) : Option α → Option Bytes
  | some a => (ser a).map ((1 : UInt8) :: ·)
  | none => (ser text).map ((0 : UInt8) :: ·)

end Borsh

end Rabe
