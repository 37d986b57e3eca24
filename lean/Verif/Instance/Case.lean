import Verif.Model.Aw11

/-!
# A concrete upper-case conversion

The conversion of the 26 ASCII letters, used by the examples and counterexamples for AW11.
-/

namespace Rabe

/-- Upper case of one ASCII character (what `str::to_uppercase`, `/repo/src/schemes/aw11/mod.rs:137`, does on ASCII). -/
def asciiUp (c : Char) : Char := if 97 ≤ c.toNat ∧ c.toNat ≤ 122 then Char.ofNat (c.toNat - 32) else c

theorem asciiUp_toNat (c : Char) : (asciiUp c).toNat = if 97 ≤ c.toNat ∧ c.toNat ≤ 122 then c.toNat - 32 else c.toNat := by
  unfold asciiUp
  split
  · rename_i h
    have hv : (c.toNat - 32).isValidChar := Or.inl (by omega)
    rw [Char.ofNat, dif_pos hv]
    rfl
  · rfl

theorem asciiUp_idem (c : Char) : asciiUp (asciiUp c) = asciiUp c := by
  have h := asciiUp_toNat c
  rw [asciiUp, if_neg]
  rw [h]
  split <;> omega

/-- The conversion of ASCII letters as a `CaseMap`. -/
def asciiCase : CaseMap where
  up c := [asciiUp c]
  digit c h := by
    simp only [Char.isDigit, Bool.and_eq_true, decide_eq_true_eq, ge_iff_le, UInt32.le_iff_toNat_le] at h
    rw [asciiUp, if_neg]
    have h2 : c.toNat ≤ 57 := h.2
    omega
  underscore := rfl
  only_underscore c h := by
    have h1 : asciiUp c = '_' := (List.mem_singleton.1 h).symm
    have h2 := asciiUp_toNat c
    rw [h1] at h2
    have h3 : ('_' : Char).toNat = 95 := rfl
    rw [h3] at h2
    split at h2
    · omega
    · exact Char.ext (UInt32.toNat_inj.1 h2.symm)
  idem c := by simp [asciiUp_idem]

end Rabe
