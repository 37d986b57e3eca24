import Verif.Proof.Serde
import Verif.Instance.Console

/-!
# C66: serialisation under the `serde` feature
-/

namespace Rabe

open Serde

variable {F G1 G2 Gt : Type} [Serde F] [Serde G1] [Serde G2] [Serde Gt]
  [SerdeLaw F] [SerdeLaw G1] [SerdeLaw G2] [SerdeLaw Gt] [Shallow F] [Shallow G1] [Shallow G2] [Shallow Gt]

/-- Written with numbers (`to_vec_packed`) or names (`to_vec`) for fields and variants, every value of the type is read back
as the same value; what is left after cutting bytes off the end, or adding bytes, is rejected. -/
def Survives (α : Type) [Serde α] : Prop := ∀ (packed : Bool) (x : α) (bs : Bytes), toVec packed x = some bs →
  fromSlice α bs = some x ∧ (∀ p s, bs = p ++ s → s ≠ [] → fromSlice α p = none) ∧
  (∀ s, s ≠ [] → fromSlice α (bs ++ s) = none)

theorem survives {α : Type} [Serde α] [SerdeLaw α] [Depth 127 α] : Survives α := fun _ _ _ h =>
  ⟨fromSlice_toVec h, fun _ _ => fromSlice_prefix h, fun _ => fromSlice_append h⟩

/-- **C66: AC17.** -/
theorem C66_ac17_roundtrip :
    Survives (Ac17.PublicKey G1 G2 Gt) ∧ Survives (Ac17.MasterKey F G1 G2) ∧ Survives (Ac17.Ciphertext G1 G2 Gt) ∧
    Survives (Ac17.CpCiphertext G1 G2 Gt) ∧ Survives (Ac17.KpCiphertext G1 G2 Gt) ∧ Survives (Ac17.SecretKey G1 G2) ∧
    Survives (Ac17.KpSecretKey G1 G2) ∧ Survives (Ac17.CpSecretKey G1 G2) :=
  ⟨survives, survives, survives, survives, survives, survives, survives, survives⟩

/-- **C66: AW11.** -/
theorem C66_aw11_roundtrip :
    Survives (Aw11.GlobalKey G1 G2) ∧ Survives (Aw11.PublicKey G2 Gt) ∧ Survives (Aw11.MasterKey F) ∧
    Survives (Aw11.Ciphertext G2 Gt) ∧ Survives (Aw11.SecretKey G1) :=
  ⟨survives, survives, survives, survives, survives⟩

/-- **C66: BDABE.** -/
theorem C66_bdabe_roundtrip :
    Survives (Bdabe.PublicKey G1 G2 Gt) ∧ Survives (Bdabe.MasterKey F) ∧ Survives (Bdabe.PublicUserKey G1 G2) ∧
    Survives (Bdabe.SecretUserKey G1 G2) ∧ Survives (Bdabe.SecretAttributeKey G1 G2) ∧ Survives (Bdabe.UserKey G1 G2) ∧
    Survives (Bdabe.PublicAttributeKey G1 G2 Gt) ∧ Survives (Bdabe.SecretAuthorityKey F G1 G2) ∧
    Survives (Bdabe.CiphertextTuple G1 G2 Gt) ∧ Survives (Bdabe.Ciphertext G1 G2 Gt) :=
  ⟨survives, survives, survives, survives, survives, survives, survives, survives, survives, survives⟩

/-- **C66: BSW.** -/
theorem C66_bsw_roundtrip :
    Survives (Bsw.PublicKey G1 G2 Gt) ∧ Survives (Bsw.MasterKey F G2) ∧ Survives (Bsw.Attribute G1 G2) ∧
    Survives (Bsw.Ciphertext G1 G2 Gt) ∧ Survives (Bsw.SecretKey G1 G2) :=
  ⟨survives, survives, survives, survives, survives⟩

/-- **C66: GHW11.** -/
theorem C66_ghw11_roundtrip :
    Survives (Ghw11.PublicKey G1 G2 Gt) ∧ Survives (Ghw11.MasterKey G1 G2 Gt) ∧ Survives (Ghw11.Attribute G2) ∧
    Survives (Ghw11.SecretKey G2) ∧ Survives (Ghw11.TransformKey G2) ∧ Survives (Ghw11.RetrieveKey F) ∧
    Survives (Ghw11.Ciphertext G1 Gt) ∧ Survives (Ghw11.TransformCiphertext Gt) :=
  ⟨survives, survives, survives, survives, survives, survives, survives, survives⟩

/-- **C66: LSW.** -/
theorem C66_lsw_roundtrip :
    Survives (Lsw.PublicKey G1 G2 Gt) ∧ Survives (Lsw.MasterKey F G1 G2) ∧ Survives (Lsw.SecretKey G1 G2) ∧
    Survives (Lsw.Ciphertext G1 G2 Gt) :=
  ⟨survives, survives, survives, survives⟩

/-- **C66: MKE08.** -/
theorem C66_mke08_roundtrip :
    Survives (Mke08.PublicKey G1 G2 Gt) ∧ Survives (Mke08.MasterKey G1 G2) ∧ Survives (Mke08.PublicUserKey G1 G2) ∧
    Survives (Mke08.SecretUserKey G1 G2) ∧ Survives (Mke08.SecretAuthorityKey F) ∧
    Survives (Mke08.PublicAttributeKey G1 G2 Gt) ∧ Survives (Mke08.SecretAttributeKey G1 G2) ∧
    Survives (Mke08.UserKey G1 G2) ∧ Survives (Mke08.CTConjunction G1 G2 Gt) ∧ Survives (Mke08.Ciphertext G1 G2 Gt) :=
  ⟨survives, survives, survives, survives, survives, survives, survives, survives, survives, survives⟩

/-- **C66: YCT14.** -/
theorem C66_yct14_roundtrip :
    Survives (Yct14.PublicKey F Gt) ∧ Survives (Yct14.MasterKey F Gt) ∧ Survives (Yct14.SecretKey F Gt) ∧
    Survives (Yct14.Ciphertext F Gt) :=
  ⟨survives, survives, survives, survives⟩

/-- Every number and every length in the value has at most 64 bits. -/
inductive Serde.Small : SVal → Prop
  | nat (n) : n < 2 ^ 64 → Small (.nat n)
  | neg (n) : n < 2 ^ 64 → Small (.neg n)
  | bytes (b : Bytes) : b.length < 2 ^ 64 → Small (.bytes b)
  | text (s) : (utf8 s).length < 2 ^ 64 → Small (.text s)
  | seq (l : List SVal) : l.length < 2 ^ 64 → (∀ v ∈ l, Small v) → Small (.seq l)
  | map (l : List SVal) : l.length < 2 ^ 64 → (∀ v ∈ l, Small v) → Small (.map l)
  | bool (b) : Small (.bool b)
  | null : Small .null

theorem head_total (m n : ℕ) (h : n < 2 ^ 64) : ∃ bs, head m n = some bs := by
  unfold head
  split_ifs <;> first | exact ⟨_, rfl⟩ | omega

theorem encAll_total : ∀ l : List SVal, (∀ v ∈ l, ∃ bs, enc v = some bs) → ∃ bs, encAll l = some bs
  | [], _ => ⟨[], by rw [encAll]⟩
  | v :: l, h => by
    obtain ⟨b, hb⟩ := h v (by simp)
    obtain ⟨c, hc⟩ := encAll_total l fun w hw => h w (List.mem_cons_of_mem _ hw)
    exact ⟨b ++ c, by rw [encAll, hb, hc]; rfl⟩

/-- **C66: writing succeeds.** Whenever numbers and lengths have at most 64 bits. -/
theorem C66_total (v : SVal) (h : Small v) : ∃ bs, enc v = some bs := by
  induction h with
  | nat n hn => rw [enc]; exact head_total _ _ hn
  | neg n hn => rw [enc]; exact head_total _ _ hn
  | bytes b hb =>
    obtain ⟨x, hx⟩ := head_total 2 _ hb
    exact ⟨x ++ b, by rw [enc, hx]; rfl⟩
  | text s hs =>
    obtain ⟨x, hx⟩ := head_total 3 _ hs
    exact ⟨x ++ utf8 s, by rw [enc, hx]; rfl⟩
  | seq l hl _ ih =>
    obtain ⟨x, hx⟩ := head_total 4 _ hl
    obtain ⟨y, hy⟩ := encAll_total l ih
    exact ⟨x ++ y, by rw [enc, hx, hy]; rfl⟩
  | map l hl _ ih =>
    obtain ⟨x, hx⟩ := head_total 5 (l.length / 2) (by omega)
    obtain ⟨y, hy⟩ := encAll_total l ih
    exact ⟨x ++ y, by rw [enc, hx, hy]; rfl⟩
  | bool b => exact ⟨_, by rw [enc]⟩
  | null => exact ⟨_, by rw [enc]⟩

/-- **C66: different values are written differently**, for every type with the round trip, e.g. all those above. -/
theorem C66_injective {α : Type} [Serde α] (hα : Survives α) (packed packed' : Bool) (x y : α) (bs : Bytes)
    (hx : toVec packed x = some bs) (hy : toVec packed' y = some bs) : x = y :=
  Option.some.inj ((hα packed x bs hx).1.symm.trans (hα packed' y bs hy).1)

/-! ## Concrete cases -/

/-- A YCT14 key with a public, a private and no node, and a GHW11 ciphertext: the bytes are there and are read back. (In the
binary format of the `borsh` feature the nodes are lost, C57.) -/
example : let x : Yct14.PublicKey Fr Fr := ⟨3, [⟨['A'], some (.pub 5)⟩, ⟨['é'], some (.priv 6)⟩, ⟨['C'], none⟩]⟩
    let y : Ghw11.Ciphertext Fr Fr := ⟨(chars% "\"A\" or \"B\"", .human), 1, 2, [(chars% "A_2", 3, 4)], [7, 200]⟩
    (∀ packed, ∃ bs, toVec packed x = some bs ∧ fromSlice (Yct14.PublicKey Fr Fr) bs = some x) ∧
    (∀ packed, ∃ bs, toVec packed y = some bs ∧ fromSlice (Ghw11.Ciphertext Fr Fr) bs = some y) := by
  refine ⟨fun packed => ?_, fun packed => ?_⟩
  · have h : (toVec packed (⟨3, [⟨['A'], some (.pub 5)⟩, ⟨['é'], some (.priv 6)⟩, ⟨['C'], none⟩]⟩ :
        Yct14.PublicKey Fr Fr)).isSome = true := by cases packed <;> decide +kernel
    obtain ⟨bs, hb⟩ := Option.isSome_iff_exists.1 h
    exact ⟨bs, hb, (C66_yct14_roundtrip.1 packed _ bs hb).1⟩
  · have h : (toVec packed (⟨(chars% "\"A\" or \"B\"", .human), 1, 2, [(chars% "A_2", 3, 4)], [7, 200]⟩ :
        Ghw11.Ciphertext Fr Fr)).isSome = true := by cases packed <;> decide +kernel
    obtain ⟨bs, hb⟩ := Option.isSome_iff_exists.1 h
    exact ⟨bs, hb, ((C66_ghw11_roundtrip (F := Fr) (G2 := Fr)).2.2.2.2.2.2.1 packed _ bs hb).1⟩

/-- The packed bytes of a small value: a map of two entries with the keys 0 and 1. -/
example : toVec true (⟨chars% "ab", chars% "x", 3⟩ : Str × Str × UInt8) = some [131, 98, 97, 98, 97, 120, 3] ∧
    toVec true ((chars% "A", .human) : Str × PolicyLanguage) = some [130, 97, 65, 1] ∧
    fromSlice (Str × PolicyLanguage) [130, 97, 65, 1] = some (chars% "A", .human) ∧
    fromSlice (Str × PolicyLanguage) [130, 97, 65] = none := by
  refine ⟨by decide +kernel, by decide +kernel, by decide +kernel, by decide +kernel⟩

/-- Unlike the binary format of the `borsh` feature (C60), a value has several encodings that are accepted. -/
example : fromSlice (Str × PolicyLanguage) [130, 97, 65, 1] = fromSlice (Str × PolicyLanguage) [130, 120, 1, 65, 24, 1] := by
  decide +kernel

end Rabe
