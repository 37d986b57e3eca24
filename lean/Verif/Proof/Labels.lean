import Verif.Model.Policy

/-!
# Labels: `node_index` and `remove_index`
-/

namespace Rabe

theorem natStr_inj {m n : ℕ} (h : natStr m = natStr n) : m = n := by
  have h1 := Nat.ofDigitChars_ten_toDigits (n := m)
  have h2 := Nat.ofDigitChars_ten_toDigits (n := n)
  unfold natStr at h
  rw [h] at h1
  exact h1.symm.trans h2

theorem natStr_no_underscore (n : ℕ) : '_' ∉ natStr n := Nat.underscore_not_in_toDigits

theorem takeWhile_ne_append {a b : Str} {c : Char} (ha : c ∉ a) :
    (a ++ c :: b).takeWhile (· != c) = a := by
  induction a with
  | nil => simp
  | cons x xs ih =>
    simp only [List.mem_cons, not_or] at ha
    have hx : (x != c) = true := by simp [bne_iff_ne]; exact fun h => ha.1 h.symm
    simp [hx, ih ha.2]

theorem removeIndex_nodeIndex {n : Str} (c : ℕ) (h : '_' ∉ n) : removeIndex (nodeIndex n c) = n := by
  simp only [removeIndex, nodeIndex]
  exact takeWhile_ne_append h

theorem removeIndex_of_not_mem {n : Str} (h : '_' ∉ n) : n.takeWhile (· != '_') = n := by
  induction n with
  | nil => rfl
  | cons c cs ih =>
    simp only [List.mem_cons, not_or] at h
    rw [List.takeWhile_cons_of_pos (by simpa using fun e => h.1 e.symm), ih h.2]

/-- Stripping the position from a label gives the part of the attribute before its first underscore. -/
theorem removeIndex_nodeIndex_eq (n : Str) (c : ℕ) :
    removeIndex (nodeIndex n c) = n.takeWhile (· != '_') := by
  simp only [removeIndex, nodeIndex]
  induction n with
  | nil => simp
  | cons x xs ih =>
    simp only [List.cons_append, List.takeWhile_cons]
    split
    · rw [ih]
    · rfl

theorem takeWhile_ne_self {n : Str} (h : n.takeWhile (· != '_') = n) : '_' ∉ n := by
  induction n with
  | nil => simp
  | cons x xs ih =>
    simp only [List.takeWhile_cons] at h
    split at h
    · rename_i hx
      simp only [List.cons.injEq, true_and] at h
      simp only [bne_iff_ne, ne_eq] at hx
      simp only [List.mem_cons, not_or]
      exact ⟨fun e => hx e.symm, ih h⟩
    · simp at h

theorem nodeIndex_inj {n m : Str} {c d : ℕ} (h : nodeIndex n c = nodeIndex m d) : n = m ∧ c = d := by
  unfold nodeIndex at h
  have h' := congrArg List.reverse h
  simp only [List.reverse_append, List.reverse_cons] at h'
  have hc : '_' ∉ (natStr c).reverse := by simp [natStr_no_underscore]
  have hd : '_' ∉ (natStr d).reverse := by simp [natStr_no_underscore]
  have e1 := congrArg (List.takeWhile (· != '_')) h'
  simp only [List.append_assoc, List.singleton_append] at e1 h'
  rw [takeWhile_ne_append hc, takeWhile_ne_append hd] at e1
  rw [e1] at h'
  have h2 := List.append_cancel_left h'
  simp only [List.cons.injEq, true_and, List.reverse_inj] at h2
  exact ⟨h2, natStr_inj (List.reverse_inj.1 e1)⟩

end Rabe
