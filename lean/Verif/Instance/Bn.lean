import Verif.Prelude
import Verif.Instance.Prime
import Mathlib.Algebra.Field.ZMod
import Mathlib.Algebra.Module.LinearMap.Prod
import Mathlib.Algebra.Algebra.Bilinear

/-!
# A concrete environment

The scalar field of BN254 with all groups equal to the additive group of scalars. Used by the examples that show
that the hypotheses of the theorems can be met, and by the counterexamples.
-/

namespace Rabe

/-- The order of the groups of `rabe_bn` (crate imported in `/repo/src/lib.rs:92`). -/
abbrev bnOrder : ℕ := 21888242871839275222246405745257275088548364400416034343698204186575808495617

instance : Fact bnOrder.Prime := ⟨prime_21888242871839275222246405745257275088548364400416034343698204186575808495617⟩

/-- The scalar field `Fr` of `rabe_bn` (imported in `/repo/src/schemes/bsw/mod.rs:25`). -/
abbrev Fr := ZMod bnOrder

instance : BigChar Fr where
  cast_ne_zero n h0 h1 h := by
    rw [ZMod.natCast_eq_zero_iff] at h
    exact absurd (Nat.le_of_dvd h0 h) (by norm_num [bnOrder] at *; omega)

/-- Little-endian bytes of a scalar, an injective stand-in for the KDF of `/repo/src/utils/aes/mod.rs:47-55`. -/
def toyKdf (x : Fr) : Bytes := (List.range 32).map fun i => UInt8.ofNat (x.val / 256 ^ i % 256)

/-- A stand-in for the hash: the characters as digits of a number. -/
def toyHash (s : Str) : Fr := (s.foldl (fun a c => a * 1114112 + c.toNat) 1 : ℕ)

/-- A stand-in for the AEAD that detects a wrong key: the key is stored in front of the text. -/
def toyDec (k _n c : Bytes) : Option Bytes := if c.take k.length = k then some (c.drop k.length) else none

/-- The concrete environment: multiplication as pairing. -/
def toyEnv : Env Fr Fr Fr Fr where
  pair := LinearMap.mul Fr Fr
  hash := toyHash
  kdf := toyKdf
  aeadEnc k _ m := some (k ++ m)
  aeadDec := toyDec
  aeadDec_enc := by
    intro k n m c h
    simp only [Option.some.injEq] at h
    subst h
    simp [toyDec]

/-- A concrete tape: all random numbers are one. -/
def toyTape : Tape Fr Fr Fr Fr where
  fr _ := 1
  g1 _ := 1
  g2 _ := 1
  gt _ := 1
  byte _ := 0

@[simp] theorem toy_genFr : RM.genFr toyTape = .ok (1, toyTape) := rfl
@[simp] theorem toy_genG1 : RM.genG1 toyTape = .ok (1, toyTape) := rfl
@[simp] theorem toy_genG2 : RM.genG2 toyTape = .ok (1, toyTape) := rfl
@[simp] theorem toy_genGt : RM.genGt toyTape = .ok (1, toyTape) := rfl
@[simp] theorem toy_genBytes (n : ℕ) : RM.genBytes n toyTape = .ok (List.replicate n 0, toyTape) := by
  simp only [RM.genBytes, toyTape, List.map_const', List.length_range]
  rfl
@[simp] theorem toy_inv : inv (1 : Fr) = .ok 1 := by simp [inv]

/-- The value of a run, tested by `P`. -/
def Res.check {α : Type} (r : Res α) (P : α → Bool) : Bool := match r with | .ok a => P a | _ => false

theorem Res.check_iff {α : Type} {r : Res α} {P : α → Bool} : r.check P = true ↔ ∃ a, r = .ok a ∧ P a = true := by
  cases r <;> simp [Res.check]

/-- Run a computation that draws scalars only on the all-ones stream. -/
theorem toy_liftFr {α : Type} (m : (ℕ → Fr) → Res (α × (ℕ → Fr))) :
    RM.liftFr m toyTape = match m (fun _ => 1) with
      | .ok (a, ω) => .ok (a, { toyTape with fr := ω })
      | .err => .err
      | .panic => .panic := by
  unfold RM.liftFr
  rw [show toyTape.fr = fun _ => 1 from rfl]
  cases m fun _ => 1 <;> rfl

end Rabe
