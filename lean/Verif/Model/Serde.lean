import Verif.Model.Borsh
import Verif.Model.Ac17
import Verif.Model.Aw11
import Verif.Model.Bdabe
import Verif.Model.Bsw
import Verif.Model.Ghw11
import Verif.Model.Lsw
import Verif.Model.Mke08
import Verif.Model.Yct14

/-!
# Serialisation under the `serde` feature

`serde` is the default feature of the library (`/repo/Cargo.toml:18-20`); the console uses it with the packed format of
`serde_cbor` (`/repo/rabe-console/src/mod.rs:1637-1670`). The derive macros of `serde` turn a value into a tree of the
data model of `serde` and back; a format writes such trees as bytes. Here `SVal` is that tree, `Serde` holds the derived
conversions, and `toVec`, `fromSlice` are the CBOR format. `rabe_bn` provides the instances for `Fr`, `G1`, `G2`, `Gt`; its
source is not part of `/repo`, so these four are parameters. Not modelled: floating-point numbers and indefinite lengths in
the input of `fromSlice` (no value of this library is written with them).
-/

namespace Rabe

/-- A value of the data model of `serde` as CBOR writes it (`to_vec_packed`, `/repo/rabe-console/src/mod.rs:1641`):
`neg n` is `-1 - n`; the list of a `map` alternates keys and values. -/
inductive SVal where
  | nat (n : ℕ)
  | neg (n : ℕ)
  | bytes (b : Bytes)
  | text (s : Str)
  | seq (l : List SVal)
  | map (kv : List SVal)
  | bool (b : Bool)
  | null

/-- `Serialize` and `Deserialize`, derived e.g. at `/repo/src/schemes/bsw/mod.rs:41`. `toVal packed` is what a format gets to
write: with `packed`, fields and variants are their numbers, otherwise their names. `ofVal` is `none` on an error.
`missing` is the value of an absent field (only an `Option` has one). -/
class Serde (α : Type) where
  toVal : Bool → α → SVal
  ofVal : SVal → Option α
  missing : Option α := none

namespace Serde

variable {α β γ : Type}

/-- The number of a field from its key in a map: by number, by name, or by the bytes of the name; an unknown field is
`some none` (ignored), anything else an error (derived, e.g. `/repo/src/schemes/bsw/mod.rs:41`). -/
def fieldOf (names : List Str) : SVal → Option (Option ℕ)
  | .nat i => some (if i < names.length then some i else none)
  | .text s => some (names.findIdx? (· == s))
  | .bytes b => some (names.findIdx? (utf8 · == b))
  | _ => none

/-- The entries of a structure from number `i` on; fields that are skipped are `none` (see `Serde`;
`/repo/src/schemes/bsw/mod.rs:41`). -/
def entries (packed : Bool) : List Str → ℕ → List (Option SVal) → List SVal
  | n :: ns, i, some v :: r => (if packed then .nat i else .text n) :: v :: entries packed ns (i + 1) r
  | _ :: ns, i, none :: r => entries packed ns (i + 1) r
  | _, _, _ => []

/-- Collects the fields of a structure from the entries of a map; a field that occurs twice is an error (see `Serde`;
`/repo/src/schemes/bsw/mod.rs:41`). -/
def collect (names : List Str) : List SVal → List (Option SVal) → Option (List (Option SVal))
  | [], acc => some acc
  | [_], _ => none
  | k :: v :: r, acc =>
    match fieldOf names k with
    | none => none
    | some none => collect names r acc
    | some (some i) =>
      match acc[i]? with
      | some (some _) => none
      | _ => collect names r (acc.set i (some v))

/-- The fields of a structure from a map, or in their order from a sequence (see `Serde`; `/repo/src/schemes/bsw/mod.rs:41`). -/
def readStruct (names : List Str) : SVal → Option (List (Option SVal))
  | .map kv => collect names kv (names.map fun _ => none)
  | .seq l => if l.length = names.length then some (l.map some) else none
  | _ => none

/-- The fields of a structure or tuple as nested pairs, see `structOf`, `tupleOf` (derived code, e.g.
`/repo/src/schemes/bsw/mod.rs:41`): `vals` are the values to write (`none`: skipped), `read` takes the values found
(`none`: absent). -/
class Row (α : Type) where
  vals : Bool → α → List (Option SVal)
  read : List (Option SVal) → Option α

/-- No more fields (see `Row`). -/
instance : Row Unit where
  vals _ _ := []
  read
    | [] => some ()
    | _ => none

/-- One more field (see `Row`). -/
instance [Serde α] [Row β] : Row (α × β) where
  vals packed x := some (toVal packed x.1) :: Row.vals packed x.2
  read
    | o :: r => (match o with
      | some v => ofVal v
      | none => missing).bind fun a => (Row.read r).map fun b => (a, b)
    | [] => none

/-- A field with `skip_serializing_if = "Option::is_none"`, `/repo/src/schemes/yct14/mod.rs:54`. -/
structure SkipNone (α : Type) where
  get : Option α

/-- A derived instance of a structure, given its fields as nested pairs ended by `()`
(`#[derive(Serialize, Deserialize)]`, e.g. `/repo/src/schemes/bsw/mod.rs:41`). -/
@[reducible] def structOf [Row α] (names : List Str) (out : β → α) (back : α → β) : Serde β where
  toVal packed b := .map (entries packed names 0 (Row.vals packed (out b)))
  ofVal v := (readStruct names v).bind fun l => (Row.read l).map back

/-- A tuple, given as nested pairs ended by `()`: a sequence of its length, e.g. `/repo/src/schemes/ac17/mod.rs:86`. -/
@[reducible] def tupleOf [Row α] (out : β → α) (back : α → β) : Serde β where
  toVal packed b := .seq ((Row.vals packed (out b)).filterMap id)
  ofVal
    | .seq l => (Row.read (l.map some)).map back
    | _ => none

/-- `u8`, e.g. the elements of `data`, `/repo/src/schemes/bsw/mod.rs:69`. -/
instance : Serde UInt8 where
  toVal _ b := .nat b.toNat
  ofVal
    | .nat n => if n < 256 then some (UInt8.ofNat n) else none
    | _ => none

/-- The elements of a sequence (see the instance for `Vec`, below; `/repo/src/schemes/bsw/mod.rs:68`). -/
def ofVals [Serde α] : List SVal → Option (List α)
  | [] => some []
  | v :: r => (ofVal v).bind fun a => (ofVals r).map (a :: ·)

/-- `Vec<T>`, e.g. `/repo/src/schemes/bsw/mod.rs:68`; also for `T = u8` (line 69). -/
instance [Serde α] : Serde (List α) where
  toVal packed l := .seq (l.map (toVal packed))
  ofVal
    | .seq l => ofVals l
    | _ => none

/-- `String`, e.g. `/repo/src/schemes/bsw/mod.rs:86`. -/
instance : Serde (List Char) where
  toVal _ s := .text s
  ofVal
    | .text s => some s
    | .bytes b => ofUtf8 b
    | _ => none

/-- A pair, e.g. `(String, PolicyLanguage)`, `/repo/src/schemes/bsw/mod.rs:65`. -/
instance [Serde α] [Serde β] : Serde (α × β) :=
  tupleOf (fun x => (x.1, x.2, ())) (fun (a, b, _) => (a, b))

/-- A triple, e.g. `(String, G1, G1)`, `/repo/src/schemes/ghw11/mod.rs:81`. -/
instance (priority := high) [Serde α] [Serde β] [Serde γ] : Serde (α × β × γ) :=
  tupleOf (fun x => (x.1, x.2.1, x.2.2, ())) (fun (a, b, c, _) => (a, b, c))

/-- `Option<T>`, `/repo/src/schemes/yct14/mod.rs:55`. -/
instance [Serde α] : Serde (Option α) where
  toVal packed
    | some a => toVal packed a
    | none => .null
  ofVal
    | .null => some none
    | v => (ofVal v).map some
  missing := some none

/-- A field that is left out when it is `None` (see `SkipNone`). -/
instance [Serde α] [Row β] : Row (SkipNone α × β) where
  vals packed x := x.1.get.map (toVal packed) :: Row.vals packed x.2
  read
    | o :: r => (match o with
      | some v => (ofVal v : Option (Option α))
      | none => missing).bind fun a => (Row.read r).map fun b => (⟨a⟩, b)
    | [] => none

/-- The number of a variant from its tag: by number, by name, or by the bytes of the name (derived code of an enumeration,
`/repo/src/utils/policy/pest/mod.rs:14-23`, `/repo/src/schemes/yct14/mod.rs:58-64`). -/
def variantOf (names : List Str) (v : SVal) : Option ℕ := (fieldOf names v).bind id

/-- The tag of variant `i` (see `variantOf`; `/repo/src/utils/policy/pest/mod.rs:14-23`). -/
def tagOf (packed : Bool) (names : List Str) (i : ℕ) : SVal := if packed then .nat i else .text (names.getD i [])

/-- A variant without fields is its tag; a map from the tag to `null` and a sequence of the tag alone are read as well
(see `variantOf`; `/repo/src/utils/policy/pest/mod.rs:14-23`). -/
def unitVariant (names : List Str) : SVal → Option ℕ
  | .map [k, .null] => variantOf names k
  | .seq [k] => variantOf names k
  | v => variantOf names v

/-- A variant with one field is a map from the tag to the value; a sequence of tag and value is read as well (see
`variantOf`; `/repo/src/schemes/yct14/mod.rs:58-64`). -/
def newtypeVariant (names : List Str) : SVal → Option (ℕ × SVal)
  | .map [k, v] => (variantOf names k).map (·, v)
  | .seq [k, v] => (variantOf names k).map (·, v)
  | _ => none

/-- Names of the variants, `/repo/src/utils/policy/pest/mod.rs:18-23`. -/
def languageNames : List Str := [chars% "JsonPolicy", chars% "HumanPolicy"]

/-- `PolicyLanguage`, `/repo/src/utils/policy/pest/mod.rs:14-23`. -/
instance : Serde PolicyLanguage where
  toVal packed
    | .json => tagOf packed languageNames 0
    | .human => tagOf packed languageNames 1
  ofVal v :=
    match unitVariant languageNames v with
    | some 0 => some .json
    | some 1 => some .human
    | _ => none

/-! ## CBOR -/

/-- `k` bytes, the most significant first (the format behind `/repo/rabe-console/src/mod.rs:1641`). -/
def be : ℕ → ℕ → Bytes
  | 0, _ => []
  | k + 1, n => be k (n / 256) ++ [UInt8.ofNat n]

/-- Reading of `k` bytes (see `be`; `/repo/rabe-console/src/mod.rs:1664`). -/
def readBe (k : ℕ) (bs : Bytes) : Option (ℕ × Bytes) :=
  if bs.length < k then none
  else some ((bs.take k).foldl (fun a b => a * 256 + b.toNat) 0, bs.drop k)

/-- The head of an item: major type and number, in the shortest form; `none` if the number has more than 64 bits, which no
length or number in the library has (see `be`; `/repo/rabe-console/src/mod.rs:1641`). -/
def head (major n : ℕ) : Option Bytes :=
  if n < 24 then some [UInt8.ofNat (major * 32 + n)]
  else if n < 256 then some (UInt8.ofNat (major * 32 + 24) :: be 1 n)
  else if n < 256 ^ 2 then some (UInt8.ofNat (major * 32 + 25) :: be 2 n)
  else if n < 256 ^ 4 then some (UInt8.ofNat (major * 32 + 26) :: be 4 n)
  else if n < 256 ^ 8 then some (UInt8.ofNat (major * 32 + 27) :: be 8 n)
  else none

/-- Reading of a head (`from_slice`, `/repo/rabe-console/src/mod.rs:1664`): longer forms than the shortest are accepted;
indefinite lengths are not modelled. -/
def readHead : Bytes → Option (ℕ × ℕ × Bytes)
  | [] => none
  | b :: r =>
    let i := b.toNat % 32
    let m := b.toNat / 32
    if i < 24 then some (m, i, r)
    else if i = 24 then (readBe 1 r).map fun (n, r) => (m, n, r)
    else if i = 25 then (readBe 2 r).map fun (n, r) => (m, n, r)
    else if i = 26 then (readBe 4 r).map fun (n, r) => (m, n, r)
    else if i = 27 then (readBe 8 r).map fun (n, r) => (m, n, r)
    else none

mutual

/-- The bytes of a value (`to_vec_packed`, `/repo/rabe-console/src/mod.rs:1641`). -/
def enc : SVal → Option Bytes
  | .nat n => head 0 n
  | .neg n => head 1 n
  | .bytes b => (head 2 b.length).map (· ++ b)
  | .text s => (head 3 (utf8 s).length).map (· ++ utf8 s)
  | .seq l => (head 4 l.length).bind fun h => (encAll l).map (h ++ ·)
  | .map kv => (head 5 (kv.length / 2)).bind fun h => (encAll kv).map (h ++ ·)
  | .bool b => some [if b then 245 else 244]
  | .null => some [246]

/-- The bytes of several values (see `enc`; `/repo/rabe-console/src/mod.rs:1641`). -/
def encAll : List SVal → Option Bytes
  | [] => some []
  | v :: r => (enc v).bind fun b => (encAll r).map (b ++ ·)

end

/-- Reading of `n` values (see `parse`; `/repo/rabe-console/src/mod.rs:1664`). -/
def parseN (p : Bytes → Option (SVal × Bytes)) : ℕ → Bytes → Option (List SVal × Bytes)
  | 0, bs => some ([], bs)
  | n + 1, bs => (p bs).bind fun (v, r) => (parseN p n r).map fun (vs, r') => (v :: vs, r')

/-- Reading of a value, given a way to read the values inside it, or none if no level may be entered (`from_slice`,
`/repo/rabe-console/src/mod.rs:1664`). Tags are ignored; `undefined` is read as `null`. -/
def parseItem (sub : Option (Bytes → Option (SVal × Bytes))) (bs : Bytes) : Option (SVal × Bytes) :=
  (readHead bs).bind fun (m, n, r) =>
    match m with
    | 0 => some (.nat n, r)
    | 1 => some (.neg n, r)
    | 2 => if r.length < n then none else some (.bytes (r.take n), r.drop n)
    | 3 => if r.length < n then none else (ofUtf8 (r.take n)).map fun s => (.text s, r.drop n)
    | 4 => sub.bind fun p => (parseN p n r).map fun (l, r') => (.seq l, r')
    | 5 => sub.bind fun p => (parseN p (2 * n) r).map fun (l, r') => (.map l, r')
    | 6 => sub.bind fun p => p r
    | 7 =>
      if bs.head? = some 244 then some (.bool false, r) else if bs.head? = some 245 then some (.bool true, r)
      else if bs.head? = some 246 ∨ bs.head? = some 247 then some (.null, r) else none
    | _ => none

/-- Reading of a value inside at most `depth` levels of sequences, maps and tags (see `parseItem`;
`/repo/rabe-console/src/mod.rs:1664`). -/
def parse : ℕ → Bytes → Option (SVal × Bytes)
  | 0 => parseItem none
  | d + 1 => parseItem (some (parse d))

/-- `serde_cbor::to_vec_packed` (`packed`), `/repo/rabe-console/src/mod.rs:1641`, and `to_vec`, which writes names in place of
numbers. -/
def toVec [Serde α] (packed : Bool) (x : α) : Option Bytes := enc (toVal packed x)

/-- `serde_cbor::from_slice`, `/repo/rabe-console/src/mod.rs:1664`: the whole input must be consumed; at most 127 levels are
entered. -/
def fromSlice (α : Type) [Serde α] (bs : Bytes) : Option α :=
  match parse 127 bs with
  | some (v, []) => ofVal v
  | _ => none

/-! # Derived instances -/

variable {F G1 G2 Gt : Type} [Serde F] [Serde G1] [Serde G2] [Serde Gt]

/-! ## `/repo/src/schemes/ac17/mod.rs` -/
/-- `Ac17PublicKey`, `/repo/src/schemes/ac17/mod.rs:62-66`. -/
instance : Serde (Ac17.PublicKey G1 G2 Gt) :=
  structOf [chars% "g", chars% "h_a", chars% "e_gh_ka"]
    (fun x => (x.g, x.hA, x.eGhKa, ()))
    (fun (x0, x1, x2, _) => ⟨x0, x1, x2⟩)

/-- `Ac17MasterKey`, `/repo/src/schemes/ac17/mod.rs:72-78`. -/
instance : Serde (Ac17.MasterKey F G1 G2) :=
  structOf [chars% "g", chars% "h", chars% "g_k", chars% "a", chars% "b"]
    (fun x => (x.g, x.h, x.gK, x.a, x.b, ()))
    (fun (x0, x1, x2, x3, x4, _) => ⟨x0, x1, x2, x3, x4⟩)

/-- `Ac17Ciphertext`, `/repo/src/schemes/ac17/mod.rs:84-89`. -/
instance : Serde (Ac17.Ciphertext G1 G2 Gt) :=
  structOf [chars% "c_0", chars% "c", chars% "c_p", chars% "ct"]
    (fun x => (x.c0, x.c, x.cP, x.ct, ()))
    (fun (x0, x1, x2, x3, _) => ⟨x0, x1, x2, x3⟩)

/-- `Ac17CpCiphertext`, `/repo/src/schemes/ac17/mod.rs:95-98`. -/
instance : Serde (Ac17.CpCiphertext G1 G2 Gt) :=
  structOf [chars% "policy", chars% "ct"]
    (fun x => (x.policy, x.ct, ()))
    (fun (x0, x1, _) => ⟨x0, x1⟩)

/-- `Ac17KpCiphertext`, `/repo/src/schemes/ac17/mod.rs:104-107`. -/
instance : Serde (Ac17.KpCiphertext G1 G2 Gt) :=
  structOf [chars% "attr", chars% "ct"]
    (fun x => (x.attr, x.ct, ()))
    (fun (x0, x1, _) => ⟨x0, x1⟩)

/-- `Ac17SecretKey`, `/repo/src/schemes/ac17/mod.rs:113-117`. -/
instance : Serde (Ac17.SecretKey G1 G2) :=
  structOf [chars% "k_0", chars% "k", chars% "k_p"]
    (fun x => (x.k0, x.k, x.kP, ()))
    (fun (x0, x1, x2, _) => ⟨x0, x1, x2⟩)

/-- `Ac17KpSecretKey`, `/repo/src/schemes/ac17/mod.rs:123-126`. -/
instance : Serde (Ac17.KpSecretKey G1 G2) :=
  structOf [chars% "policy", chars% "sk"]
    (fun x => (x.policy, x.sk, ()))
    (fun (x0, x1, _) => ⟨x0, x1⟩)

/-- `Ac17CpSecretKey`, `/repo/src/schemes/ac17/mod.rs:132-135`. -/
instance : Serde (Ac17.CpSecretKey G1 G2) :=
  structOf [chars% "attr", chars% "sk"]
    (fun x => (x.attr, x.sk, ()))
    (fun (x0, x1, _) => ⟨x0, x1⟩)


/-! ## `/repo/src/schemes/aw11/mod.rs` -/
/-- `Aw11GlobalKey`, `/repo/src/schemes/aw11/mod.rs:50-53`. -/
instance : Serde (Aw11.GlobalKey G1 G2) :=
  structOf [chars% "g1", chars% "g2"]
    (fun x => (x.g1, x.g2, ()))
    (fun (x0, x1, _) => ⟨x0, x1⟩)

/-- Tuple in `/repo/src/schemes/aw11/mod.rs:60`. -/
instance : Serde (Aw11.PubAttr G2 Gt) :=
  tupleOf (fun x => (x.name, x.e, x.y, ()))
    (fun (x0, x1, x2, _) => ⟨x0, x1, x2⟩)

/-- `Aw11PublicKey`, `/repo/src/schemes/aw11/mod.rs:59-61`. -/
instance : Serde (Aw11.PublicKey G2 Gt) :=
  structOf [chars% "attr"]
    (fun x => (x.attr, ()))
    (fun (x0, _) => ⟨x0⟩)

/-- Tuple in `/repo/src/schemes/aw11/mod.rs:68`. -/
instance : Serde (Aw11.MskAttr F) :=
  tupleOf (fun x => (x.name, x.alpha, x.y, ()))
    (fun (x0, x1, x2, _) => ⟨x0, x1, x2⟩)

/-- `Aw11MasterKey`, `/repo/src/schemes/aw11/mod.rs:67-69`. -/
instance : Serde (Aw11.MasterKey F) :=
  structOf [chars% "attr"]
    (fun x => (x.attr, ()))
    (fun (x0, _) => ⟨x0⟩)

/-- Tuple in `/repo/src/schemes/aw11/mod.rs:78`. -/
instance : Serde (Aw11.CtAttr G2 Gt) :=
  tupleOf (fun x => (x.name, x.c1, x.c2, x.c3, ()))
    (fun (x0, x1, x2, x3, _) => ⟨x0, x1, x2, x3⟩)

/-- `Aw11Ciphertext`, `/repo/src/schemes/aw11/mod.rs:75-80`. -/
instance : Serde (Aw11.Ciphertext G2 Gt) :=
  structOf [chars% "policy", chars% "c_0", chars% "c", chars% "ct"]
    (fun x => (x.policy, x.c0, x.c, x.ct, ()))
    (fun (x0, x1, x2, x3, _) => ⟨x0, x1, x2, x3⟩)

/-- `Aw11SecretKey`, `/repo/src/schemes/aw11/mod.rs:86-89`. -/
instance : Serde (Aw11.SecretKey G1) :=
  structOf [chars% "gid", chars% "attr"]
    (fun x => (x.gid, x.attr, ()))
    (fun (x0, x1, _) => ⟨x0, x1⟩)


/-! ## `/repo/src/schemes/bdabe/mod.rs` -/
/-- `BdabePublicKey`, `/repo/src/schemes/bdabe/mod.rs:49-55`. -/
instance : Serde (Bdabe.PublicKey G1 G2 Gt) :=
  structOf [chars% "g1", chars% "g2", chars% "p1", chars% "p2", chars% "e_gg_y"]
    (fun x => (x.g1, x.g2, x.p1, x.p2, x.eGgY, ()))
    (fun (x0, x1, x2, x3, x4, _) => ⟨x0, x1, x2, x3, x4⟩)

/-- `BdabeMasterKey`, `/repo/src/schemes/bdabe/mod.rs:61-63`. -/
instance : Serde (Bdabe.MasterKey F) :=
  structOf [chars% "y"]
    (fun x => (x.y, ()))
    (fun (x0, _) => ⟨x0⟩)

/-- `BdabePublicUserKey`, `/repo/src/schemes/bdabe/mod.rs:79-83`. -/
instance : Serde (Bdabe.PublicUserKey G1 G2) :=
  structOf [chars% "u", chars% "u1", chars% "u2"]
    (fun x => (x.u, x.u1, x.u2, ()))
    (fun (x0, x1, x2, _) => ⟨x0, x1, x2⟩)

/-- `BdabeSecretUserKey`, `/repo/src/schemes/bdabe/mod.rs:89-92`. -/
instance : Serde (Bdabe.SecretUserKey G1 G2) :=
  structOf [chars% "u1", chars% "u2"]
    (fun x => (x.u1, x.u2, ()))
    (fun (x0, x1, _) => ⟨x0, x1⟩)

/-- `BdabeSecretAttributeKey`, `/repo/src/schemes/bdabe/mod.rs:98-102`. -/
instance : Serde (Bdabe.SecretAttributeKey G1 G2) :=
  structOf [chars% "attr", chars% "au1", chars% "au2"]
    (fun x => (x.attr, x.au1, x.au2, ()))
    (fun (x0, x1, x2, _) => ⟨x0, x1, x2⟩)

/-- `BdabeUserKey`, `/repo/src/schemes/bdabe/mod.rs:69-73`. -/
instance : Serde (Bdabe.UserKey G1 G2) :=
  structOf [chars% "sk", chars% "pk", chars% "sk_a"]
    (fun x => (x.sk, x.pk, x.skA, ()))
    (fun (x0, x1, x2, _) => ⟨x0, x1, x2⟩)

/-- `BdabePublicAttributeKey`, `/repo/src/schemes/bdabe/mod.rs:108-113`. -/
instance : Serde (Bdabe.PublicAttributeKey G1 G2 Gt) :=
  structOf [chars% "attr", chars% "a1", chars% "a2", chars% "a3"]
    (fun x => (x.attr, x.a1, x.a2, x.a3, ()))
    (fun (x0, x1, x2, x3, _) => ⟨x0, x1, x2, x3⟩)

/-- `BdabeSecretAuthorityKey`, `/repo/src/schemes/bdabe/mod.rs:119-124`. -/
instance : Serde (Bdabe.SecretAuthorityKey F G1 G2) :=
  structOf [chars% "name", chars% "a1", chars% "a2", chars% "a3"]
    (fun x => (x.name, x.a1, x.a2, x.a3, ()))
    (fun (x0, x1, x2, x3, _) => ⟨x0, x1, x2, x3⟩)

/-- `BdabeCiphertextTuple`, `/repo/src/schemes/bdabe/mod.rs:130-137`. -/
instance : Serde (Bdabe.CiphertextTuple G1 G2 Gt) :=
  structOf [chars% "attr", chars% "e1", chars% "e2", chars% "e3", chars% "e4", chars% "e5"]
    (fun x => (x.attr, x.e1, x.e2, x.e3, x.e4, x.e5, ()))
    (fun (x0, x1, x2, x3, x4, x5, _) => ⟨x0, x1, x2, x3, x4, x5⟩)

/-- `BdabeCiphertext`, `/repo/src/schemes/bdabe/mod.rs:143-147`. -/
instance : Serde (Bdabe.Ciphertext G1 G2 Gt) :=
  structOf [chars% "policy", chars% "j", chars% "ct"]
    (fun x => (x.policy, x.j, x.ct, ()))
    (fun (x0, x1, x2, _) => ⟨x0, x1, x2⟩)


/-! ## `/repo/src/schemes/bsw/mod.rs` -/
/-- `CpAbePublicKey`, `/repo/src/schemes/bsw/mod.rs:43-49`. -/
instance : Serde (Bsw.PublicKey G1 G2 Gt) :=
  structOf [chars% "g1", chars% "g2", chars% "h", chars% "f", chars% "e_gg_alpha"]
    (fun x => (x.g1, x.g2, x.h, x.f, x.eGgAlpha, ()))
    (fun (x0, x1, x2, x3, x4, _) => ⟨x0, x1, x2, x3, x4⟩)

/-- `CpAbeMasterKey`, `/repo/src/schemes/bsw/mod.rs:55-58`. -/
instance : Serde (Bsw.MasterKey F G2) :=
  structOf [chars% "beta", chars% "g2_alpha"]
    (fun x => (x.beta, x.g2Alpha, ()))
    (fun (x0, x1, _) => ⟨x0, x1⟩)

/-- `CpAbeAttribute`, `/repo/src/schemes/bsw/mod.rs:85-89`. -/
instance : Serde (Bsw.Attribute G1 G2) :=
  structOf [chars% "string", chars% "g1", chars% "g2"]
    (fun x => (x.string, x.g1, x.g2, ()))
    (fun (x0, x1, x2, _) => ⟨x0, x1, x2⟩)

/-- `CpAbeCiphertext`, `/repo/src/schemes/bsw/mod.rs:64-70`. -/
instance : Serde (Bsw.Ciphertext G1 G2 Gt) :=
  structOf [chars% "policy", chars% "c", chars% "c_p", chars% "c_y", chars% "data"]
    (fun x => (x.policy, x.c, x.cP, x.cY, x.data, ()))
    (fun (x0, x1, x2, x3, x4, _) => ⟨x0, x1, x2, x3, x4⟩)

/-- `CpAbeSecretKey`, `/repo/src/schemes/bsw/mod.rs:76-79`. -/
instance : Serde (Bsw.SecretKey G1 G2) :=
  structOf [chars% "d", chars% "d_j"]
    (fun x => (x.d, x.dJ, ()))
    (fun (x0, x1, _) => ⟨x0, x1⟩)


/-! ## `/repo/src/schemes/ghw11/mod.rs` -/
/-- `Ghw11PublicKey`, `/repo/src/schemes/ghw11/mod.rs:22-28`. -/
instance : Serde (Ghw11.PublicKey G1 G2 Gt) :=
  structOf [chars% "g1", chars% "g2", chars% "g1_a", chars% "g2_a", chars% "e_gg_alpha"]
    (fun x => (x.g1, x.g2, x.g1A, x.g2A, x.eGgAlpha, ()))
    (fun (x0, x1, x2, x3, x4, _) => ⟨x0, x1, x2, x3, x4⟩)

/-- `Ghw11MasterKey`, `/repo/src/schemes/ghw11/mod.rs:33-36`. -/
instance : Serde (Ghw11.MasterKey G1 G2 Gt) :=
  structOf [chars% "g2_alpha", chars% "pk"]
    (fun x => (x.g2Alpha, x.pk, ()))
    (fun (x0, x1, _) => ⟨x0, x1⟩)

/-- `Ghw11Attribute`, `/repo/src/schemes/ghw11/mod.rs:53-56`. -/
instance : Serde (Ghw11.Attribute G2) :=
  structOf [chars% "string", chars% "k_x"]
    (fun x => (x.string, x.kX, ()))
    (fun (x0, x1, _) => ⟨x0, x1⟩)

/-- `Ghw11SecretKey`, `/repo/src/schemes/ghw11/mod.rs:41-45`. -/
instance : Serde (Ghw11.SecretKey G2) :=
  structOf [chars% "k", chars% "l", chars% "attr_key"]
    (fun x => (x.k, x.l, x.attrKey, ()))
    (fun (x0, x1, x2, _) => ⟨x0, x1, x2⟩)

/-- `Ghw11TransformKey`, `/repo/src/schemes/ghw11/mod.rs:61-65`. -/
instance : Serde (Ghw11.TransformKey G2) :=
  structOf [chars% "k_z", chars% "l_z", chars% "attr_key_z"]
    (fun x => (x.kZ, x.lZ, x.attrKeyZ, ()))
    (fun (x0, x1, x2, _) => ⟨x0, x1, x2⟩)

/-- `Ghw11RetrieveKey`, `/repo/src/schemes/ghw11/mod.rs:70-72`. -/
instance : Serde (Ghw11.RetrieveKey F) :=
  structOf [chars% "z"]
    (fun x => (x.z, ()))
    (fun (x0, _) => ⟨x0⟩)

/-- `Ghw11Ciphertext`, `/repo/src/schemes/ghw11/mod.rs:77-83`. -/
instance : Serde (Ghw11.Ciphertext G1 Gt) :=
  structOf [chars% "policy", chars% "c", chars% "c1", chars% "ci_di", chars% "data"]
    (fun x => (x.policy, x.c, x.c1, x.ciDi, x.data, ()))
    (fun (x0, x1, x2, x3, x4, _) => ⟨x0, x1, x2, x3, x4⟩)

/-- `Ghw11TransformCiphertext`, `/repo/src/schemes/ghw11/mod.rs:88-91`. -/
instance : Serde (Ghw11.TransformCiphertext Gt) :=
  structOf [chars% "c", chars% "t"]
    (fun x => (x.c, x.t, ()))
    (fun (x0, x1, _) => ⟨x0, x1⟩)


/-! ## `/repo/src/schemes/lsw/mod.rs` -/
/-- `KpAbePublicKey`, `/repo/src/schemes/lsw/mod.rs:44-51`. -/
instance : Serde (Lsw.PublicKey G1 G2 Gt) :=
  structOf [chars% "g1", chars% "g2", chars% "g1_b", chars% "g1_b2", chars% "h_b", chars% "e_gg_alpha"]
    (fun x => (x.g1, x.g2, x.g1B, x.g1B2, x.hB, x.eGgAlpha, ()))
    (fun (x0, x1, x2, x3, x4, x5, _) => ⟨x0, x1, x2, x3, x4, x5⟩)

/-- `KpAbeMasterKey`, `/repo/src/schemes/lsw/mod.rs:57-63`. -/
instance : Serde (Lsw.MasterKey F G1 G2) :=
  structOf [chars% "alpha1", chars% "alpha2", chars% "b", chars% "h_g1", chars% "h_g2"]
    (fun x => (x.alpha1, x.alpha2, x.b, x.hG1, x.hG2, ()))
    (fun (x0, x1, x2, x3, x4, _) => ⟨x0, x1, x2, x3, x4⟩)

/-- Tuple in `/repo/src/schemes/lsw/mod.rs:71`. -/
instance : Serde (Lsw.KeyAttr G1 G2) :=
  tupleOf (fun x => (x.name, x.d1, x.d2, x.d3, x.d4, x.d5, ()))
    (fun (x0, x1, x2, x3, x4, x5, _) => ⟨x0, x1, x2, x3, x4, x5⟩)

/-- `KpAbeSecretKey`, `/repo/src/schemes/lsw/mod.rs:69-72`. -/
instance : Serde (Lsw.SecretKey G1 G2) :=
  structOf [chars% "policy", chars% "dj"]
    (fun x => (x.policy, x.dj, ()))
    (fun (x0, x1, _) => ⟨x0, x1⟩)

/-- Tuple in `/repo/src/schemes/lsw/mod.rs:81`. -/
instance : Serde (Lsw.CtAttr G1) :=
  tupleOf (fun x => (x.name, x.e1, x.e2, x.e3, ()))
    (fun (x0, x1, x2, x3, _) => ⟨x0, x1, x2, x3⟩)

/-- `KpAbeCiphertext`, `/repo/src/schemes/lsw/mod.rs:78-83`. -/
instance : Serde (Lsw.Ciphertext G1 G2 Gt) :=
  structOf [chars% "e1", chars% "e2", chars% "ej", chars% "ct"]
    (fun x => (x.e1, x.e2, x.ej, x.ct, ()))
    (fun (x0, x1, x2, x3, _) => ⟨x0, x1, x2, x3⟩)


/-! ## `/repo/src/schemes/mke08/mod.rs` -/
/-- `Mke08PublicKey`, `/repo/src/schemes/mke08/mod.rs:54-61`. -/
instance : Serde (Mke08.PublicKey G1 G2 Gt) :=
  structOf [chars% "g1", chars% "g2", chars% "p1", chars% "p2", chars% "e_gg_y1", chars% "e_gg_y2"]
    (fun x => (x.g1, x.g2, x.p1, x.p2, x.eGgY1, x.eGgY2, ()))
    (fun (x0, x1, x2, x3, x4, x5, _) => ⟨x0, x1, x2, x3, x4, x5⟩)

/-- `Mke08MasterKey`, `/repo/src/schemes/mke08/mod.rs:67-70`. -/
instance : Serde (Mke08.MasterKey G1 G2) :=
  structOf [chars% "g1", chars% "g2"]
    (fun x => (x.g1, x.g2, ()))
    (fun (x0, x1, _) => ⟨x0, x1⟩)

/-- `Mke08PublicUserKey`, `/repo/src/schemes/mke08/mod.rs:86-90`. -/
instance : Serde (Mke08.PublicUserKey G1 G2) :=
  structOf [chars% "name", chars% "g1", chars% "g2"]
    (fun x => (x.name, x.g1, x.g2, ()))
    (fun (x0, x1, x2, _) => ⟨x0, x1, x2⟩)

/-- `Mke08SecretUserKey`, `/repo/src/schemes/mke08/mod.rs:96-99`. -/
instance : Serde (Mke08.SecretUserKey G1 G2) :=
  structOf [chars% "g1", chars% "g2"]
    (fun x => (x.g1, x.g2, ()))
    (fun (x0, x1, _) => ⟨x0, x1⟩)

/-- `Mke08SecretAuthorityKey`, `/repo/src/schemes/mke08/mod.rs:105-108`. -/
instance : Serde (Mke08.SecretAuthorityKey F) :=
  structOf [chars% "name", chars% "r"]
    (fun x => (x.name, x.r, ()))
    (fun (x0, x1, _) => ⟨x0, x1⟩)

/-- `Mke08PublicAttributeKey`, `/repo/src/schemes/mke08/mod.rs:114-120`. -/
instance : Serde (Mke08.PublicAttributeKey G1 G2 Gt) :=
  structOf [chars% "attr", chars% "g1", chars% "g2", chars% "gt1", chars% "gt2"]
    (fun x => (x.attr, x.g1, x.g2, x.gt1, x.gt2, ()))
    (fun (x0, x1, x2, x3, x4, _) => ⟨x0, x1, x2, x3, x4⟩)

/-- `Mke08SecretAttributeKey`, `/repo/src/schemes/mke08/mod.rs:126-130`. -/
instance : Serde (Mke08.SecretAttributeKey G1 G2) :=
  structOf [chars% "attr", chars% "g1", chars% "g2"]
    (fun x => (x.attr, x.g1, x.g2, ()))
    (fun (x0, x1, x2, _) => ⟨x0, x1, x2⟩)

/-- `Mke08UserKey`, `/repo/src/schemes/mke08/mod.rs:76-80`. -/
instance : Serde (Mke08.UserKey G1 G2) :=
  structOf [chars% "sk", chars% "pk", chars% "sk_a"]
    (fun x => (x.sk, x.pk, x.skA, ()))
    (fun (x0, x1, x2, _) => ⟨x0, x1, x2⟩)

/-- `Mke08CTConjunction`, `/repo/src/schemes/mke08/mod.rs:146-154`. -/
instance : Serde (Mke08.CTConjunction G1 G2 Gt) :=
  structOf [chars% "str", chars% "j1", chars% "j2", chars% "j3", chars% "j4", chars% "j5", chars% "j6"]
    (fun x => (x.str, x.j1, x.j2, x.j3, x.j4, x.j5, x.j6, ()))
    (fun (x0, x1, x2, x3, x4, x5, x6, _) => ⟨x0, x1, x2, x3, x4, x5, x6⟩)

/-- `Mke08Ciphertext`, `/repo/src/schemes/mke08/mod.rs:136-140`. -/
instance : Serde (Mke08.Ciphertext G1 G2 Gt) :=
  structOf [chars% "policy", chars% "e", chars% "ct"]
    (fun x => (x.policy, x.e, x.ct, ()))
    (fun (x0, x1, x2, _) => ⟨x0, x1, x2⟩)


/-! ## `/repo/src/schemes/yct14/mod.rs` -/
/-- Names of the variants, `/repo/src/schemes/yct14/mod.rs:61-64`. -/
def nodeNames : List Str := [chars% "Public", chars% "Private"]

/-- `Yct14Type`, `/repo/src/schemes/yct14/mod.rs:58-64`. -/
instance : Serde (Yct14.Node F Gt) where
  toVal packed
    | .pub g => .map [tagOf packed nodeNames 0, toVal packed g]
    | .priv x => .map [tagOf packed nodeNames 1, toVal packed x]
  ofVal v :=
    match newtypeVariant nodeNames v with
    | some (0, w) => (ofVal w).map .pub
    | some (1, w) => (ofVal w).map .priv
    | _ => none

/-- `Yct14Attribute`, `/repo/src/schemes/yct14/mod.rs:48-56`; without the `borsh` feature `node` is left out when it is
`None` (line 54). (With both features it is written as `null`; both are read in the same way.) -/
instance : Serde (Yct14.Attribute F Gt) :=
  structOf [chars% "name", chars% "node"]
    (fun x => (x.name, (⟨x.node⟩ : SkipNone (Yct14.Node F Gt)), ()))
    (fun (x0, ⟨x1⟩, _) => ⟨x0, x1⟩)

/-- `Yct14AbePublicKey`, `/repo/src/schemes/yct14/mod.rs:142-145`. -/
instance : Serde (Yct14.PublicKey F Gt) :=
  structOf [chars% "g", chars% "attributes"]
    (fun x => (x.g, x.attributes, ()))
    (fun (x0, x1, _) => ⟨x0, x1⟩)

/-- `Yct14AbeMasterKey`, `/repo/src/schemes/yct14/mod.rs:151-154`. -/
instance : Serde (Yct14.MasterKey F Gt) :=
  structOf [chars% "s", chars% "attributes"]
    (fun x => (x.s, x.attributes, ()))
    (fun (x0, x1, _) => ⟨x0, x1⟩)

/-- `Yct14AbeSecretKey`, `/repo/src/schemes/yct14/mod.rs:175-178`. -/
instance : Serde (Yct14.SecretKey F Gt) :=
  structOf [chars% "policy", chars% "du"]
    (fun x => (x.policy, x.du, ()))
    (fun (x0, x1, _) => ⟨x0, x1⟩)

/-- `Yct14AbeCiphertext`, `/repo/src/schemes/yct14/mod.rs:199-202`. -/
instance : Serde (Yct14.Ciphertext F Gt) :=
  structOf [chars% "attributes", chars% "ct"]
    (fun x => (x.attributes, x.ct, ()))
    (fun (x0, x1, _) => ⟨x0, x1⟩)


end Serde

end Rabe
