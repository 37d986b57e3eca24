import Verif.Instance.Bn
import Verif.Instance.Case
import Verif.Proof.Console

/-!
# A concrete console

Serialisation of the concrete scalars as 32 little-endian bytes, a console without compression, and a small file system.
Used by the examples and counterexamples for the console.
-/

namespace Rabe

/-- `k` little-endian bytes of a number (stand-in for the encoders of `rabe_bn`, imported in
`/repo/src/schemes/bsw/mod.rs:25`). -/
def toLe : ℕ → ℕ → Bytes
  | 0, _ => []
  | k + 1, n => UInt8.ofNat n :: toLe k (n / 256)

/-- Number of little-endian bytes, see `toLe`. -/
def ofLe : Bytes → ℕ
  | [] => 0
  | b :: r => b.toNat + 256 * ofLe r

theorem toLe_length : ∀ k n, (toLe k n).length = k
  | 0, _ => rfl
  | k + 1, n => by simp [toLe, toLe_length k]

theorem ofLe_toLe : ∀ k n, n < 256 ^ k → ofLe (toLe k n) = n
  | 0, n, h => by simp at h; simp [toLe, ofLe, h]
  | k + 1, n, h => by
    have : n / 256 < 256 ^ k := by rw [Nat.div_lt_iff_lt_mul (by omega)]; rw [pow_succ] at h; exact h
    simp only [toLe, ofLe, ofLe_toLe k _ this, UInt8.toNat_ofNat']
    omega

theorem toLe_ofLe : ∀ bs : Bytes, toLe bs.length (ofLe bs) = bs
  | [] => rfl
  | b :: r => by
    have hb := b.toNat_lt
    have h1 : (b.toNat + 256 * ofLe r) / 256 = ofLe r := by omega
    have h2 : UInt8.ofNat (b.toNat + 256 * ofLe r) = b := by
      apply UInt8.toNat.inj
      simp only [UInt8.toNat_ofNat']
      omega
    simp only [List.length_cons, toLe, ofLe, h1, h2, toLe_ofLe r]

/-- Concrete serialisation of scalars, a stand-in for the instance of `rabe_bn`. -/
instance : Borsh Fr where
  ser x := some (toLe 32 x.val)
  de bs := if bs.length < 32 then none
    else if ofLe (bs.take 32) < bnOrder then some ((ofLe (bs.take 32) : ℕ), bs.drop 32) else none

theorem fr_val_lt (x : Fr) : x.val < 256 ^ 32 := lt_trans (ZMod.val_lt x) (by norm_num [bnOrder])

instance : BorshLaw Fr where
  de_ser a bs h r := by
    simp only [Borsh.ser, Option.some.injEq] at h
    subst h
    have hl := toLe_length 32 a.val
    have ht : (toLe 32 a.val ++ r).take 32 = toLe 32 a.val := by rw [List.take_append_of_le_length (by omega), List.take_of_length_le (by omega)]
    have hd : (toLe 32 a.val ++ r).drop 32 = r := by rw [List.drop_append_of_le_length (by omega), List.drop_of_length_le (by omega)]; rfl
    have hv := ofLe_toLe 32 a.val (fr_val_lt a)
    simp only [Borsh.de]
    rw [if_neg (by rw [List.length_append, hl]; omega), ht, hd, hv, if_pos (ZMod.val_lt a), ZMod.natCast_zmod_val]

instance : BorshExact Fr where
  exact bs a r h := by
    simp only [Borsh.de] at h
    split at h
    · cases h
    · rename_i hl
      split at h
      · rename_i hv
        simp only [Option.some.injEq, Prod.mk.injEq] at h
        obtain ⟨rfl, rfl⟩ := h
        refine ⟨_, rfl, ?_⟩
        have e : ((ofLe (bs.take 32) : ℕ) : Fr).val = ofLe (bs.take 32) := ZMod.val_cast_of_lt hv
        have hlen : (bs.take 32).length = 32 := by rw [List.length_take]; omega
        have := toLe_ofLe (bs.take 32)
        rw [hlen] at this
        rw [e, this, List.take_append_drop]
      · cases h

section
open Serde

/-- Concrete values of scalars, a stand-in for the instance of `rabe_bn` (imported in `/repo/src/schemes/bsw/mod.rs:25`):
a sequence of 32 numbers. -/
instance : Serde Fr where
  toVal _ x := .seq ((toLe 32 x.val).map fun b => .nat b.toNat)
  ofVal v := (ofVal v : Option (List UInt8)).bind fun b =>
    if b.length = 32 ∧ ofLe b < bnOrder then some ((ofLe b : ℕ)) else none

instance : SerdeLaw Fr :=
  ⟨fun packed x => by
    have h : (ofVal (.seq ((toLe 32 x.val).map fun b => .nat b.toNat)) : Option (List UInt8)) = some (toLe 32 x.val) :=
      SerdeLaw.ofVal_toVal packed (toLe 32 x.val)
    show (ofVal (.seq ((toLe 32 x.val).map fun b => .nat b.toNat)) : Option (List UInt8)).bind _ = _
    rw [h]
    have hv := ofLe_toLe 32 x.val (fr_val_lt x)
    simp only [Option.bind_some, hv, toLe_length, ZMod.val_lt x, and_self, if_true, ZMod.natCast_zmod_val]⟩

instance : Shallow Fr :=
  ⟨fun _ x => .seq 63 _ fun v hv => by
    obtain ⟨b, _, rfl⟩ := List.mem_map.1 hv
    constructor⟩

end

/-- The console over the concrete environment, without compression. -/
def toyCon : Con Fr Fr Fr Fr where
  env := toyEnv
  one := (1, 1)
  cm := asciiCase
  deflate := id
  inflate := some
  inflate_deflate _ := rfl
  isWhite c := c == ' '
  errText := []

/-- A file system with one file `f` containing the byte 7, in which every non-empty path can be created. -/
def toyFS : FS where
  file p := if p = ['f'] then some [7] else none
  creatable p := !p.isEmpty
  file_nil := by simp
  creatable_nil := rfl

end Rabe
