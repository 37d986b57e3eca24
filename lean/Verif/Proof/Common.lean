import Verif.Proof.Tree
import Verif.Proof.Labels
import Verif.Model.Aes
import Verif.Model.Pest
import Mathlib.Tactic.Module
import Mathlib.Tactic.FieldSimp

/-!
# Lemmas shared by the scheme proofs
-/

set_option linter.unusedSectionVars false

namespace Rabe

section RM
variable {F G1 G2 Gt α β : Type}

theorem RM.bind_ok {m : RM F G1 G2 Gt α} {f : α → RM F G1 G2 Gt β} {t : Tape F G1 G2 Gt} {r} :
    (m >>= f) t = .ok r ↔ ∃ a t', m t = .ok (a, t') ∧ f a t' = .ok r := by
  simp only [RM.bind_apply]
  cases h : m t with
  | ok x => obtain ⟨a, t'⟩ := x; simp
  | err => simp
  | panic => simp

theorem RM.rbind_eq (m : RM F G1 G2 Gt α) (f : α → RM F G1 G2 Gt β) : RM.bind m f = (m >>= f) := rfl
theorem RM.rpure_eq (a : α) : (RM.pure a : RM F G1 G2 Gt α) = Pure.pure a := rfl

theorem RM.pure_ok {a b : α} {t t' : Tape F G1 G2 Gt} :
    (Pure.pure a : RM F G1 G2 Gt α) t = .ok (b, t') ↔ b = a ∧ t' = t := by
  simp [eq_comm]

theorem RM.lift_ok_iff {m : Res α} {b : α} {t t' : Tape F G1 G2 Gt} :
    (RM.lift m : RM F G1 G2 Gt α) t = .ok (b, t') ↔ m = .ok b ∧ t' = t := by
  cases m <;> simp [eq_comm]

theorem RM.mapL_ok {f : α → RM F G1 G2 Gt β} {xs : List α} : ∀ {t ys t'},
    RM.mapL f xs t = .ok (ys, t') → List.Forall₂ (fun x y => ∃ s s', f x s = .ok (y, s')) xs ys := by
  induction xs with
  | nil =>
    intro t ys t' h
    simp only [RM.mapL, RM.rpure_eq, RM.pure_ok] at h
    obtain ⟨rfl, _⟩ := h
    exact .nil
  | cons x xs ih =>
    intro t ys t' h
    simp only [RM.mapL, RM.rbind_eq, RM.rpure_eq, RM.bind_ok, RM.pure_ok] at h
    obtain ⟨y, t1, hy, zs, t2, hz, rfl, _⟩ := h
    exact .cons ⟨t, t1, hy⟩ (ih hz)

theorem RM.mapL_total {f : α → RM F G1 G2 Gt β} {xs : List α}
    (hf : ∀ x ∈ xs, ∀ t, ∃ y t', f x t = .ok (y, t')) : ∀ t, ∃ ys t', RM.mapL f xs t = .ok (ys, t') := by
  induction xs with
  | nil => intro t; exact ⟨[], t, rfl⟩
  | cons x xs ih =>
    intro t
    obtain ⟨y, t1, hy⟩ := hf x (by simp) t
    obtain ⟨ys, t2, hys⟩ := ih (fun z hz => hf z (by simp [hz])) t1
    refine ⟨y :: ys, t2, ?_⟩
    simp only [RM.mapL, RM.rbind_eq, RM.rpure_eq, RM.bind_ok, RM.pure_ok]
    exact ⟨y, t1, hy, ys, t2, hys, rfl, rfl⟩

theorem RM.foldL_ok_inv {f : β → α → RM F G1 G2 Gt β} (I : β → List α → Prop)
    (hstep : ∀ b x xs t b' t', I b (x :: xs) → f b x t = .ok (b', t') → I b' xs) :
    ∀ {xs : List α} {b t b' t'}, I b xs → RM.foldL f b xs t = .ok (b', t') → I b' [] := by
  intro xs
  induction xs with
  | nil =>
    intro b t b' t' hI h
    simp only [RM.foldL, RM.rpure_eq, RM.pure_ok] at h
    obtain ⟨rfl, _⟩ := h
    exact hI
  | cons x xs ih =>
    intro b t b' t' hI h
    simp only [RM.foldL, RM.rbind_eq, RM.bind_ok] at h
    obtain ⟨b1, t1, h1, h2⟩ := h
    exact ih (hstep _ _ _ _ _ _ hI h1) h2

end RM

/-- On a list without repetition every list of values of the same length is given by a function. -/
theorem exists_map_eq {α β : Type} [DecidableEq α] [Inhabited β] {xs : List α} (hx : xs.Nodup) :
    ∀ {ys : List β}, ys.length = xs.length → ∃ f : α → β, xs.map f = ys := by
  induction xs with
  | nil => intro ys h; exact ⟨fun _ => default, by simp_all⟩
  | cons x xs ih =>
    intro ys h
    cases ys with
    | nil => simp at h
    | cons y ys =>
      simp only [List.nodup_cons] at hx
      obtain ⟨f, hf⟩ := ih hx.2 (ys := ys) (by simpa using h)
      refine ⟨fun a => if a = x then y else f a, ?_⟩
      simp only [List.map_cons, if_true, List.cons.injEq, true_and]
      rw [← hf]
      apply List.map_congr_left
      intro a ha
      have : a ≠ x := fun e => hx.1 (e ▸ ha)
      simp [this]

theorem zip_map_self {α β γ : Type} (f : α → β) (g : α → γ) (xs : List α) :
    (xs.map f).zip (xs.map g) = xs.map fun x => (f x, g x) := by
  induction xs with
  | nil => rfl
  | cons x xs ih => simp [ih]

theorem leafIdx_inj {l l' : Str × ℕ} (h : leafIdx l = leafIdx l') : l = l' := by
  obtain ⟨h1, h2⟩ := nodeIndex_inj h
  exact Prod.ext h1 h2

theorem find?_map_inj {α β : Type} (xs : List α) (g : α → β) (q : β → Bool) (x : α) (hx : x ∈ xs)
    (hq : ∀ y ∈ xs, q (g y) = true ↔ y = x) : (xs.map g).find? q = some (g x) := by
  induction xs with
  | nil => simp at hx
  | cons y ys ih =>
    simp only [List.map_cons, List.find?_cons]
    by_cases hy : y = x
    · subst hy
      simp [(hq y (by simp)).2 rfl]
    · have h1 : q (g y) = false := by
        cases hqy : q (g y)
        · rfl
        · exact absurd ((hq y (by simp)).1 hqy) hy
      rw [h1]
      have hx' : x ∈ ys := by
        rcases List.mem_cons.1 hx with h | h
        · exact absurd h.symm hy
        · exact h
      exact ih hx' fun z hz => hq z (by simp [hz])

theorem Forall₂.mem_left {α β : Type} {R : α → β → Prop} {xs : List α} {ys : List β}
    (h : List.Forall₂ R xs ys) : ∀ x ∈ xs, ∃ y ∈ ys, R x y := by
  induction h with
  | nil => simp
  | cons hr _ ih =>
    intro x hx
    rcases List.mem_cons.1 hx with rfl | hx
    · exact ⟨_, by simp, hr⟩
    · obtain ⟨y, hy, hR⟩ := ih x hx
      exact ⟨y, by simp [hy], hR⟩

theorem Forall₂.mem_right {α β : Type} {R : α → β → Prop} {xs : List α} {ys : List β}
    (h : List.Forall₂ R xs ys) : ∀ y ∈ ys, ∃ x ∈ xs, R x y := by
  induction h with
  | nil => simp
  | cons hr _ ih =>
    intro y hy
    rcases List.mem_cons.1 hy with rfl | hy
    · exact ⟨_, by simp, hr⟩
    · obtain ⟨x, hx, hR⟩ := ih y hy
      exact ⟨x, by simp [hx], hR⟩

theorem Forall₂.map_eq {α β γ : Type} {R : α → β → Prop} {xs : List α} {ys : List β} {f : α → γ} {g : β → γ}
    (h : List.Forall₂ R xs ys) (hfg : ∀ x y, R x y → g y = f x) : ys.map g = xs.map f := by
  induction h with
  | nil => rfl
  | cons hr _ ih => simp [ih, hfg _ _ hr]

theorem Forall₂.with_mem {α β : Type} {R : α → β → Prop} {xs : List α} {ys : List β}
    (h : List.Forall₂ R xs ys) : List.Forall₂ (fun x y => x ∈ xs ∧ R x y) xs ys := by
  induction h with
  | nil => exact .nil
  | cons hr _ ih => exact .cons ⟨by simp, hr⟩ (ih.imp fun x y hxy => ⟨by simp [hxy.1], hxy.2⟩)

section Aes
variable {F G1 G2 Gt : Type} [Field F] [AddCommGroup G1] [Module F G1]
  [AddCommGroup G2] [Module F G2] [AddCommGroup Gt] [Module F Gt]

theorem encryptSymmetric_ok {env : Env F G1 G2 Gt} {msg data t r t'}
    (h : encryptSymmetric env msg data t = .ok (r, t')) : decryptSymmetric env msg r = .ok data := by
  simp only [encryptSymmetric, RM.bind_ok] at h
  obtain ⟨nonce, t1, hn, h⟩ := h
  simp only [RM.genBytes, Res.ok.injEq, Prod.mk.injEq] at hn
  have hlen : nonce.length = 12 := by rw [← hn.1]; simp
  cases hc : env.aeadEnc (env.kdf msg) nonce data with
  | none => simp [hc] at h
  | some c =>
    simp only [hc, RM.pure_ok] at h
    obtain ⟨rfl, _⟩ := h
    have h1 : ¬ (nonce ++ c).length < 12 := by simp; omega
    simp only [decryptSymmetric, h1, if_false]
    rw [List.take_append_of_le_length (by omega), List.take_of_length_le (by omega),
      List.drop_append_of_le_length (by omega), List.drop_of_length_le (by omega), List.nil_append,
      env.aeadDec_enc _ _ _ _ hc]
end Aes

section Sharing
variable {F : Type} [Field F] [DecidableEq F]

/-- Shares and coefficients of a tree without repeated leaves as functions of the leaf. -/
theorem shares_fun {p : Pol} (hn : p.leaves.Nodup) (σ : F) (ω : ℕ → F) :
    ∃ sh : Str × ℕ → F, shares p σ ω = p.leaves.map (fun l => (leafIdx l, sh l)) ∧
      p.leaves.map sh = shareVals p σ ω := by
  haveI : Inhabited F := ⟨0⟩
  obtain ⟨sh, hsh⟩ := exists_map_eq (β := F) hn (shareVals_length p σ ω)
  exact ⟨sh, by rw [shares, ← hsh, zip_map_self], hsh⟩

theorem coeffs_fun {p : Pol} (hn : p.leaves.Nodup) (κ : F) :
    ∃ cf : Str × ℕ → F, coeffs p κ = p.leaves.map (fun l => (leafIdx l, cf l)) ∧
      p.leaves.map cf = coeffVals p κ := by
  haveI : Inhabited F := ⟨0⟩
  obtain ⟨cf, hcf⟩ := exists_map_eq (β := F) hn (coeffVals_length p κ)
  exact ⟨cf, by rw [coeffs, ← hcf, zip_map_self], hcf⟩

end Sharing

end Rabe
