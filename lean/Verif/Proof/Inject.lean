import Verif.Proof.Fresh

/-!
# Outputs that determine the random values they were computed from
-/

set_option linter.unusedSectionVars false

namespace Rabe

open Polynomial

section
variable {F : Type} [Field F] [DecidableEq F]

theorem listPoly_inj : ∀ a b : List F, a.length = b.length → listPoly a = listPoly b → a = b
  | [], [], _, _ => rfl
  | [], _ :: _, h, _ => by simp at h
  | _ :: _, [], h, _ => by simp at h
  | x :: a, y :: b, h, e => by
    simp only [listPoly] at e
    have h0 := congrArg (fun P : F[X] => P.coeff 0) e
    simp only [coeff_add, coeff_C_zero, mul_coeff_zero, coeff_X_zero, zero_mul, add_zero] at h0
    subst h0
    have := mul_left_cancel₀ X_ne_zero (add_left_cancel e)
    rw [listPoly_inj a b (by simpa using h) this]

/-- The shares of a gate determine the secret and the coefficients. -/
theorem gateShare_inj [BigChar F] (op : Op) (n : ℕ) (h1 : 1 ≤ n) (hn : n < 2 ^ 64) {σ σ' : F} {ω ω' : ℕ → F}
    (h : ∀ i < n, gateShare op n σ ω (i + 1) = gateShare op n σ' ω' (i + 1)) :
    σ = σ' ∧ ∀ i < thr op n - 1, ω i = ω' i := by
  have hk : thr op n ≤ n ∧ 1 ≤ thr op n := by cases op <;> simp [thr] <;> omega
  have hP : listPoly (σ :: (List.range (thr op n - 1)).map ω) = listPoly (σ' :: (List.range (thr op n - 1)).map ω') := by
    have hc : (Finset.image (fun i : ℕ => ((i + 1 : ℕ) : F)) (Finset.range n)).card = n := by
      rw [Finset.card_image_of_injOn, Finset.card_range]
      intro i hi j hj e
      simp only [Finset.coe_range, Set.mem_Iio] at hi hj
      have := natCast_inj_of_lt (F := F) (by omega) (by omega) e
      omega
    refine Polynomial.eq_of_degree_sub_lt_of_eval_finset_eq
      (Finset.image (fun i : ℕ => ((i + 1 : ℕ) : F)) (Finset.range n)) ?_ ?_
    · rw [hc]
      refine lt_of_le_of_lt (degree_sub_le _ _) (max_lt ?_ ?_) <;>
        refine lt_of_lt_of_le (listPoly_degree_lt _) ?_ <;> simp <;> exact_mod_cast (by omega)
    · intro x hx
      obtain ⟨i, hi, rfl⟩ := Finset.mem_image.1 hx
      have := h i (by simpa using hi)
      simpa only [gateShare, polynomial_eq] using this
  have := listPoly_inj _ _ (by simp) hP
  simp only [List.cons.injEq] at this
  refine ⟨this.1, fun i hi => ?_⟩
  have := congrArg (fun l => l[i]?) this.2
  simpa [hi] using this

theorem leaves_ne_nil : ∀ p : Pol, p.Wide → p.leaves ≠ [] := by
  intro p
  induction p using Pol.ind with
  | hl n c => simp
  | hg op cs ih =>
    intro hw
    simp only [Pol.Wide, Pol.arity_gate] at hw
    obtain ⟨h2, hw⟩ := hw
    cases cs with
    | nil => simp at h2
    | cons c cs =>
      simp only [Pol.leaves_gate, List.flatMap_cons, ne_eq, List.append_eq_nil_iff, not_and]
      exact fun h => absurd h (ih c (by simp) (hw c (by simp)))

/-- The share values of the leaves determine the secret and the random numbers of the sharing. -/
theorem shareVals_inj [BigChar F] : ∀ p : Pol, p.Wide → p.Fits → ∀ {σ σ' : F} {ω ω' : ℕ → F},
    shareVals p σ ω = shareVals p σ' ω' → σ = σ' ∧ ∀ i < draws p, ω i = ω' i := by
  intro p
  induction p using Pol.ind with
  | hl n c => intro _ _ σ σ' ω ω' h; simpa [shareVals, draws] using h
  | hg op cs ih =>
    intro hw hf σ σ' ω ω' h
    simp only [Pol.Wide, Pol.arity_gate] at hw
    simp only [Pol.Fits, Pol.arity_gate] at hf
    obtain ⟨h2, hw⟩ := hw
    obtain ⟨hlt, hf⟩ := hf
    simp only [shareVals] at h
    have key : ∀ cs : List Pol, (∀ c ∈ cs, ∀ {σ σ' : F} {ω ω' : ℕ → F},
        shareVals c σ ω = shareVals c σ' ω' → σ = σ' ∧ ∀ i < draws c, ω i = ω' i) → ∀ (q q' : ℕ → F) k {ω ω' : ℕ → F},
        shareValsL cs q k ω = shareValsL cs q' k ω' →
        (∀ i < cs.length, q (k + i + 1) = q' (k + i + 1)) ∧ ∀ i < drawsL cs, ω i = ω' i := by
      intro cs
      induction cs with
      | nil => intro _ q q' k ω ω' _; simp [drawsL]
      | cons c cs ihc =>
        intro ih q q' k ω ω' h
        simp only [shareValsL] at h
        obtain ⟨e1, e2⟩ := List.append_inj h (by simp [shareVals_length])
        obtain ⟨a1, a2⟩ := ih c (by simp) e1
        obtain ⟨b1, b2⟩ := ihc (fun c hc => ih c (by simp [hc])) q q' (k + 1) e2
        refine ⟨fun i hi => ?_, fun i hi => ?_⟩
        · cases i with
          | zero => simpa using a1
          | succ i =>
            have := b1 i (by simpa using hi)
            rwa [show k + (i + 1) + 1 = k + 1 + i + 1 by omega]
        · simp only [drawsL] at hi
          by_cases hlt : i < draws c
          · exact a2 i hlt
          · have := b2 (i - draws c) (by omega)
            simp only [dropS] at this
            rwa [show draws c + (i - draws c) = i by omega] at this
    obtain ⟨a, b⟩ := key cs (fun c hc => ih c hc (hw c hc) (hf c hc)) _ _ 0 h
    obtain ⟨c, d⟩ := gateShare_inj op cs.length (by omega) hlt (σ := σ) (σ' := σ') (ω := ω) (ω' := ω')
      (fun i hi => by simpa using a i hi)
    refine ⟨c, fun i hi => ?_⟩
    simp only [draws] at hi
    by_cases hlt : i < thr op cs.length - 1
    · exact d i hlt
    · have := b (i - (thr op cs.length - 1)) (by omega)
      simp only [dropS] at this
      rwa [show thr op cs.length - 1 + (i - (thr op cs.length - 1)) = i by omega] at this

end

section
variable {F G1 G2 Gt : Type} [Field F] [DecidableEq F] [AddCommGroup G1] [Module F G1]
  [AddCommGroup G2] [Module F G2] [AddCommGroup Gt] [Module F Gt]

/-- The result of `m` determines the `n` random values it consumed: every one of them enters the result. -/
def Shapes {α : Type} (m : RM F G1 G2 Gt α) (n : Draws) : Prop :=
  ∀ t u a t' u', m t = .ok (a, t') → m u = .ok (a, u') → t.Same n u

theorem smul_left_inj {V : Type} [AddCommGroup V] [Module F V] {g : V} (hg : g ≠ 0) {a b : F} (h : a • g = b • g) :
    a = b := by
  by_contra hne
  refine hg ?_
  have : (a - b) • g = 0 := by rw [sub_smul, h, sub_self]
  rcases smul_eq_zero.1 this with h | h
  · exact absurd (sub_eq_zero.1 h) hne
  · exact h

theorem Tape.Same.add {n k : Draws} {t u : Tape F G1 G2 Gt} (h : t.Same n u) (h' : (t.adv n).Same k (u.adv n)) :
    t.Same (n + k) u := by
  have key : ∀ {α : Type} (a b : ℕ) (x y : ℕ → α), (∀ i < a, x i = y i) → (∀ i < b, dropS a x i = dropS a y i) →
      ∀ i < a + b, x i = y i := by
    intro α a b x y h h' i hi
    by_cases hlt : i < a
    · exact h i hlt
    · have := h' (i - a) (by omega)
      simp only [dropS] at this
      rwa [show a + (i - a) = i by omega] at this
  exact ⟨key _ _ _ _ h.fr h'.fr, key _ _ _ _ h.g1 h'.g1, key _ _ _ _ h.g2 h'.g2, key _ _ _ _ h.gt h'.gt,
    key _ _ _ _ h.byte h'.byte⟩

theorem Shapes.mapL {α β : Type} {f : α → RM F G1 G2 Gt β} {n : Draws} (hu : ∀ a, Uses (f a) n)
    (hf : ∀ a, Shapes (f a) n) : ∀ xs : List α, Shapes (RM.mapL f xs) (xs.length • n)
  | [] => by
    intro t u a t' u' _ _
    constructor <;> intro i hi <;> simp at hi
  | x :: xs => by
    intro t u a t' u' ht hu'
    simp only [RM.mapL, RM.rbind_eq, RM.rpure_eq, RM.bind_ok, RM.pure_ok] at ht hu'
    obtain ⟨y, t1, h1, ys, t2, h2, rfl, rfl⟩ := ht
    obtain ⟨y', u1, k1, ys', u2, k2, e, rfl⟩ := hu'
    simp only [List.cons.injEq] at e
    obtain ⟨rfl, rfl⟩ := e
    obtain ⟨rfl, _⟩ := hu x _ _ _ h1
    obtain ⟨rfl, _⟩ := hu x _ _ _ k1
    have a := hf x _ _ _ _ _ h1 k1
    have b := Shapes.mapL hu hf xs _ _ _ _ _ h2 k2
    have : (x :: xs).length • n = n + xs.length • n := by ext <;> simp <;> ring
    rw [this]
    exact a.add b

/-- The symmetric ciphertext starts with the nonce. -/
theorem symmetric_nonce {env : Env F G1 G2 Gt} {msg msg' : Gt} {data data' : Bytes} {t u : Tape F G1 G2 Gt} {t' u' c}
    (h : encryptSymmetric env msg data t = .ok (c, t')) (h' : encryptSymmetric env msg' data' u = .ok (c, u')) :
    ∀ i < 12, t.byte i = u.byte i := by
  have key : ∀ {msg : Gt} {data : Bytes} {t t' : Tape F G1 G2 Gt}, encryptSymmetric env msg data t = .ok (c, t') →
      c.take 12 = (List.range 12).map t.byte := by
    intro msg data t t' h
    simp only [encryptSymmetric, RM.bind_ok, RM.genBytes, Res.ok.injEq, Prod.mk.injEq] at h
    obtain ⟨n, t1, ⟨rfl, rfl⟩, h⟩ := h
    cases he : env.aeadEnc (env.kdf msg) ((List.range 12).map t.byte) data with
    | none => simp [he] at h
    | some d =>
      simp only [he, RM.pure_ok] at h
      rw [h.1, List.take_left' (by simp)]
  intro i hi
  have := congrArg (fun l => l[i]?) ((key h).symm.trans (key h'))
  simpa [hi] using this

/-- Consumed values from equalities in each stream. -/
theorem Tape.Same.mk' {n : Draws} {t u : Tape F G1 G2 Gt} (h1 : ∀ i < n.fr, t.fr i = u.fr i := by simp)
    (h2 : ∀ i < n.g1, t.g1 i = u.g1 i := by simp) (h3 : ∀ i < n.g2, t.g2 i = u.g2 i := by simp)
    (h4 : ∀ i < n.gt, t.gt i = u.gt i := by simp) (h5 : ∀ i < n.byte, t.byte i = u.byte i := by simp) : t.Same n u :=
  ⟨fun i hi => (h1 i hi).symm, fun i hi => (h2 i hi).symm, fun i hi => (h3 i hi).symm, fun i hi => (h4 i hi).symm,
    fun i hi => (h5 i hi).symm⟩

/-- The labelled shares determine the share values. -/
theorem shares_vals {p : Pol} {σ σ' : F} {ω ω' : ℕ → F} (h : (shares p σ ω).map (·.2) = (shares p σ' ω').map (·.2)) :
    shareVals p σ ω = shareVals p σ' ω' := by
  simp only [shares] at h
  rw [List.map_snd_zip (by simp [shareVals_length]), List.map_snd_zip (by simp [shareVals_length])] at h
  exact h

theorem map_smul_inj {V α : Type} [AddCommGroup V] [Module F V] {g : V} (hg : g ≠ 0) (f : α → F) : ∀ {a b : List α},
    a.map (fun x => f x • g) = b.map (fun x => f x • g) → a.map f = b.map f
  | [], [], _ => rfl
  | [], _ :: _, h => by simp at h
  | _ :: _, [], h => by simp at h
  | x :: a, y :: b, h => by
    simp only [List.map_cons, List.cons.injEq] at h ⊢
    exact ⟨smul_left_inj hg h.1, map_smul_inj hg f h.2⟩

/-- A first value and then values of the rest. -/
theorem all_lt_succ {α : Type} {x y : ℕ → α} {n : ℕ} (h0 : x 0 = y 0) (h : ∀ i < n, dropS 1 x i = dropS 1 y i) :
    ∀ i < 1 + n, x i = y i := by
  intro i hi
  cases i with
  | zero => exact h0
  | succ i =>
    have := h i (by omega)
    simpa [dropS, Nat.add_comm] using this

theorem all_lt_one {α : Type} {x y : ℕ → α} (h : x 0 = y 0) : ∀ i < 1, x i = y i := by
  intro i hi; obtain rfl : i = 0 := by omega
  exact h

theorem all_lt_two {α : Type} {x y : ℕ → α} (h : x 0 = y 0) (h1 : x 1 = y 1) : ∀ i < 2, x i = y i :=
  all_lt_succ (n := 1) h (all_lt_one (by simpa [dropS] using h1))

theorem all_lt_add {α : Type} {x y : ℕ → α} {n k : ℕ} (h0 : ∀ i < n, x i = y i)
    (h : ∀ i < k, dropS n x i = dropS n y i) : ∀ i < n + k, x i = y i := by
  intro i hi
  by_cases hlt : i < n
  · exact h0 i hlt
  · have := h (i - n) (by omega)
    simp only [dropS] at this
    rwa [show n + (i - n) = i by omega] at this

theorem out_eq {α : Type} {m : RM F G1 G2 Gt α} {t u a t' u' x y tx uy} (h : m t = .ok (a, t')) (h' : m u = .ok (a, u'))
    (hx : m t = .ok (x, tx)) (hy : m u = .ok (y, uy)) : x = y := by
  rw [h] at hx; rw [h'] at hy
  cases hx; cases hy; rfl

/-- Two loops with the same result: the values consumed agree and the elements are related. -/
theorem mapL_two {α β : Type} {f f' : α → RM F G1 G2 Gt β} {n : Draws} (hu : ∀ a, Uses (f a) n)
    (hu' : ∀ a, Uses (f' a) n) (R : α → α → Prop) {A : α → Prop}
    (hf : ∀ x y t u b t' u', A x → A y → f x t = .ok (b, t') → f' y u = .ok (b, u') → t.Same n u ∧ R x y) :
    ∀ xs ys t u L t' u', (∀ x ∈ xs, A x) → (∀ y ∈ ys, A y) → RM.mapL f xs t = .ok (L, t') →
      RM.mapL f' ys u = .ok (L, u') → t.Same (xs.length • n) u ∧ List.Forall₂ R xs ys
  | [], [], t, u, L, t', u', _, _, h, h' => ⟨by constructor <;> intro i hi <;> simp at hi, .nil⟩
  | [], y :: ys, t, u, L, t', u', _, _, h, h' => by
    simp only [RM.mapL, RM.rbind_eq, RM.rpure_eq, RM.bind_ok, RM.pure_ok] at h h'
    obtain ⟨rfl, _⟩ := h
    simp at h'
  | x :: xs, [], t, u, L, t', u', _, _, h, h' => by
    simp only [RM.mapL, RM.rbind_eq, RM.rpure_eq, RM.bind_ok, RM.pure_ok] at h h'
    obtain ⟨rfl, _⟩ := h'
    simp at h
  | x :: xs, y :: ys, t, u, L, t', u', hx, hy, ht, hu2 => by
    simp only [RM.mapL, RM.rbind_eq, RM.rpure_eq, RM.bind_ok, RM.pure_ok] at ht hu2
    obtain ⟨z, t1, h1, zs, t2, h2, rfl, rfl⟩ := ht
    obtain ⟨z', u1, k1, zs', u2, k2, e, rfl⟩ := hu2
    simp only [List.cons.injEq] at e
    obtain ⟨rfl, rfl⟩ := e
    obtain ⟨rfl, _⟩ := hu x _ _ _ h1
    obtain ⟨rfl, _⟩ := hu' y _ _ _ k1
    obtain ⟨a, r⟩ := hf x y _ _ _ _ _ (hx x (by simp)) (hy y (by simp)) h1 k1
    obtain ⟨b, r'⟩ := mapL_two hu hu' R hf xs ys _ _ _ _ _ (fun x h => hx x (by simp [h])) (fun x h => hy x (by simp [h]))
      h2 k2
    have : (x :: xs).length • n = n + xs.length • n := by ext <;> simp <;> ring
    rw [this]
    exact ⟨a.add b, .cons r r'⟩

/-- Two loops over the same list with the same result: the values consumed agree and every element has the property. -/
theorem mapL_pair {α β : Type} {f f' : α → RM F G1 G2 Gt β} {n : Draws} (hu : ∀ a, Uses (f a) n)
    (hu' : ∀ a, Uses (f' a) n) (R : α → Prop) {A : α → Prop}
    (hf : ∀ x t u b t' u', A x → f x t = .ok (b, t') → f' x u = .ok (b, u') → t.Same n u ∧ R x) :
    ∀ xs t u L t' u', (∀ x ∈ xs, A x) → RM.mapL f xs t = .ok (L, t') →
      RM.mapL f' xs u = .ok (L, u') → t.Same (xs.length • n) u ∧ ∀ x ∈ xs, R x
  | [], t, u, L, t', u', _, h, h' => ⟨by constructor <;> intro i hi <;> simp at hi, by simp⟩
  | x :: xs, t, u, L, t', u', hx, ht, hu2 => by
    simp only [RM.mapL, RM.rbind_eq, RM.rpure_eq, RM.bind_ok, RM.pure_ok] at ht hu2
    obtain ⟨z, t1, h1, zs, t2, h2, rfl, rfl⟩ := ht
    obtain ⟨z', u1, k1, zs', u2, k2, e, rfl⟩ := hu2
    simp only [List.cons.injEq] at e
    obtain ⟨rfl, rfl⟩ := e
    obtain ⟨rfl, _⟩ := hu x _ _ _ h1
    obtain ⟨rfl, _⟩ := hu' x _ _ _ k1
    obtain ⟨a, r⟩ := hf x _ _ _ _ _ (hx x (by simp)) h1 k1
    obtain ⟨b, r'⟩ := mapL_pair hu hu' R hf xs _ _ _ _ _ (fun x h => hx x (by simp [h])) h2 k2
    have : (x :: xs).length • n = n + xs.length • n := by ext <;> simp <;> ring
    rw [this]
    exact ⟨a.add b, by simpa using ⟨r, r'⟩⟩

theorem forall₂_map_eq {α β : Type} {f : α → β} {R : α → α → Prop} (h : ∀ x y, R x y → f x = f y) {xs ys : List α}
    (hr : List.Forall₂ R xs ys) : xs.map f = ys.map f := by
  induction hr with
  | nil => rfl
  | cons a _ ih => simp [h _ _ a, ih]

end
end Rabe
