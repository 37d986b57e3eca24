import Verif.Props.Layout
import Verif.Props.Lsw
import Verif.Props.Yct14
import Verif.Props.Aw11
import Verif.Props.Ghw11

/-!
# Trees that differ only in the columns of their leaves

Shares, coefficients and selected leaves of two such trees, and computations with the same course.
-/

namespace Rabe

mutual
theorem same_shape : ∀ p q : Pol, p.Same q → p.shape = q.shape
  | .leaf n c, .leaf m d, h => by simp only [Pol.Same] at h; simp [Pol.shape, h]
  | .leaf _ _, .gate _ _, h => by simp [Pol.Same] at h
  | .gate _ _, .leaf _ _, h => by simp [Pol.Same] at h
  | .gate o cs, .gate o' ds, h => by
    simp only [Pol.Same] at h
    simp only [Pol.shape, Pol.gate.injEq]
    exact ⟨h.1, sameL_shape cs ds h.2⟩
theorem sameL_shape : ∀ cs ds : List Pol, Pol.SameL cs ds → Pol.shapeL cs = Pol.shapeL ds
  | [], [], _ => rfl
  | [], _ :: _, h => by simp [Pol.SameL] at h
  | _ :: _, [], h => by simp [Pol.SameL] at h
  | c :: cs, d :: ds, h => by
    simp only [Pol.SameL] at h
    simp [Pol.shapeL, same_shape c d h.1, sameL_shape cs ds h.2]
end

theorem same_value {p q : Pol} (h : p.Same q) : p.toValue.noCol = q.toValue.noCol := by
  rw [← toValue_shape, ← toValue_shape, same_shape p q h]

theorem same_names {p q : Pol} (h : p.Same q) : p.names = q.names := by
  rw [Pol.names, Pol.names, ← names_shape p, same_shape p q h, names_shape]

theorem same_sat {p q : Pol} (h : p.Same q) (A : List Str) : p.sat A = q.sat A := by
  rw [← sat_shape A p, same_shape p q h, sat_shape]

theorem same_leaves {p q : Pol} (h : p.Same q) : p.leaves.length = q.leaves.length := by
  have := congrArg List.length (same_names h)
  simpa [Pol.names] using this

section
variable {F : Type} [Field F] [DecidableEq F]

mutual
theorem draws_shape : ∀ p : Pol, draws p.shape = draws p
  | .leaf n c => by simp [Pol.shape, draws]
  | .gate op cs => by simp only [Pol.shape, draws, shapeL_length, drawsL_shape cs]
theorem drawsL_shape : ∀ cs : List Pol, drawsL (Pol.shapeL cs) = drawsL cs
  | [] => rfl
  | c :: cs => by simp only [Pol.shapeL, drawsL, draws_shape c, drawsL_shape cs]
end

mutual
theorem shareVals_shape : ∀ (p : Pol) (σ : F) (ω : ℕ → F), shareVals p.shape σ ω = shareVals p σ ω
  | .leaf n c, σ, ω => by simp [Pol.shape, shareVals]
  | .gate op cs, σ, ω => by simp only [Pol.shape, shareVals, shapeL_length, shareValsL_shape cs]
theorem shareValsL_shape : ∀ (cs : List Pol) (q : ℕ → F) (i : ℕ) (ω : ℕ → F),
    shareValsL (Pol.shapeL cs) q i ω = shareValsL cs q i ω
  | [], _, _, _ => rfl
  | c :: cs, q, i, ω => by
    simp only [Pol.shapeL, shareValsL, shareVals_shape c, shareValsL_shape cs, draws_shape c]
end

mutual
theorem coeffVals_shape : ∀ (p : Pol) (κ : F), coeffVals p.shape κ = coeffVals p κ
  | .leaf n c, κ => by simp [Pol.shape, coeffVals]
  | .gate op cs, κ => by simp only [Pol.shape, coeffVals, shapeL_length, coeffValsL_shape cs]
theorem coeffValsL_shape : ∀ (cs : List Pol) (g : ℕ → F) (i : ℕ),
    coeffValsL (Pol.shapeL cs) g i = coeffValsL cs g i
  | [], _, _ => rfl
  | c :: cs, g, i => by simp only [Pol.shapeL, coeffValsL, coeffVals_shape c, coeffValsL_shape cs]
end

theorem same_shares {p q : Pol} (h : p.Same q) (σ : F) (ω : ℕ → F) :
    shareVals p σ ω = shareVals q σ ω ∧ draws p = draws q := by
  rw [← shareVals_shape p, ← draws_shape p, same_shape p q h, shareVals_shape, draws_shape]
  exact ⟨rfl, rfl⟩

theorem same_coeffs {p q : Pol} (h : p.Same q) (κ : F) : coeffVals p κ = coeffVals q κ := by
  rw [← coeffVals_shape p, same_shape p q h, coeffVals_shape]

end

/-- The leaves at the same position. -/
def Opposite (p q : Pol) (l m : Str × ℕ) : Prop := (l, m) ∈ p.leaves.zip q.leaves

theorem zip_names : ∀ {L M : List (Str × ℕ)}, L.map Prod.fst = M.map Prod.fst → ∀ x ∈ L.zip M, x.1.1 = x.2.1
  | [], _, _, x, hx => by simp at hx
  | _ :: _, [], h, x, hx => by simp at hx
  | a :: L, b :: M, h, x, hx => by
    simp only [List.map_cons, List.cons.injEq] at h
    simp only [List.zip_cons_cons, List.mem_cons] at hx
    rcases hx with rfl | hx
    · exact h.1
    · exact zip_names h.2 x hx

theorem Opposite.name {p q : Pol} (h : p.Same q) {l m : Str × ℕ} (ho : Opposite p q l m) : l.1 = m.1 :=
  zip_names (same_names h) _ ho

theorem forall2_imp {α β : Type} {R S : α → β → Prop} (h : ∀ a b, R a b → S a b) : ∀ {xs : List α} {ys : List β},
    List.Forall₂ R xs ys → List.Forall₂ S xs ys
  | _, _, .nil => .nil
  | _, _, .cons a b => .cons (h _ _ a) (forall2_imp h b)

theorem forall2_append {α β : Type} {R : α → β → Prop} : ∀ {xs xs' : List α} {ys ys' : List β},
    List.Forall₂ R xs ys → List.Forall₂ R xs' ys' → List.Forall₂ R (xs ++ xs') (ys ++ ys')
  | _, _, _, _, .nil, h => h
  | _, _, _, _, .cons a b, h => .cons a (forall2_append b h)

mutual
theorem pick_same (A : List Str) : ∀ p q : Pol, p.Same q → List.Forall₂ (Opposite p q) (pick A p) (pick A q)
  | .leaf n c, .leaf m d, h => by
    simp only [Pol.Same] at h
    subst h
    simp only [pick]
    split
    · exact .cons (by simp [Opposite]) .nil
    · exact .nil
  | .leaf _ _, .gate _ _, h => by simp [Pol.Same] at h
  | .gate _ _, .leaf _ _, h => by simp [Pol.Same] at h
  | .gate .and cs, .gate o' ds, h => by
    simp only [Pol.Same] at h
    obtain ⟨rfl, h⟩ := h
    have hs : Pol.satAll A cs = Pol.satAll A ds := by rw [← satAll_shape A cs, sameL_shape cs ds h, satAll_shape]
    simp only [pick, hs]
    split
    · exact forall2_imp (fun _ _ x => by simpa only [Opposite, Pol.leaves] using x) (pickAll_same A cs ds h)
    · exact .nil
  | .gate .or cs, .gate o' ds, h => by
    simp only [Pol.Same] at h
    obtain ⟨rfl, h⟩ := h
    simp only [pick]
    exact forall2_imp (fun _ _ x => by simpa only [Opposite, Pol.leaves] using x) (pickFirst_same A cs ds h)
theorem pickAll_same (A : List Str) : ∀ cs ds : List Pol, Pol.SameL cs ds →
    List.Forall₂ (fun l m => (l, m) ∈ (Pol.leavesL cs).zip (Pol.leavesL ds)) (pickAll A cs) (pickAll A ds)
  | [], [], _ => .nil
  | [], _ :: _, h => by simp [Pol.SameL] at h
  | _ :: _, [], h => by simp [Pol.SameL] at h
  | c :: cs, d :: ds, h => by
    simp only [Pol.SameL] at h
    simp only [pickAll, Pol.leavesL, List.zip_append (same_leaves h.1), List.mem_append]
    exact forall2_append (forall2_imp (fun _ _ x => .inl x) (pick_same A c d h.1))
      (forall2_imp (fun _ _ x => .inr x) (pickAll_same A cs ds h.2))
theorem pickFirst_same (A : List Str) : ∀ cs ds : List Pol, Pol.SameL cs ds →
    List.Forall₂ (fun l m => (l, m) ∈ (Pol.leavesL cs).zip (Pol.leavesL ds)) (pickFirst A cs) (pickFirst A ds)
  | [], [], _ => .nil
  | [], _ :: _, h => by simp [Pol.SameL] at h
  | _ :: _, [], h => by simp [Pol.SameL] at h
  | c :: cs, d :: ds, h => by
    simp only [Pol.SameL] at h
    simp only [pickFirst, Pol.leavesL, List.zip_append (same_leaves h.1), List.mem_append, same_sat h.1 A]
    split
    · exact forall2_imp (fun _ _ x => .inl x) (pick_same A c d h.1)
    · exact forall2_imp (fun _ _ x => .inr x) (pickFirst_same A cs ds h.2)
end

/-- Searching for the labels of leaves at the same position in lists that agree position by position. -/
theorem find_same {α β γ δ : Type} [BEq γ] [LawfulBEq γ] [BEq δ] [LawfulBEq δ] {R : α → β → Prop} (f : α → γ) (g : β → δ) :
    ∀ {xs : List α} {ys : List β}, List.Forall₂ R xs ys → (xs.map f).Nodup → (ys.map g).Nodup →
    ∀ {a b}, (a, b) ∈ (xs.map f).zip (ys.map g) →
    ∃ x y, R x y ∧ xs.find? (fun x => f x == a) = some x ∧ ys.find? (fun y => g y == b) = some y
  | _, _, .nil, _, _, a, b, hm => by simp at hm
  | _, _, .cons (a := x) (b := y) h t, hx, hy, a, b, hm => by
    simp only [List.map_cons, List.nodup_cons] at hx hy
    simp only [List.map_cons, List.zip_cons_cons, List.mem_cons, Prod.mk.injEq] at hm
    rcases hm with ⟨rfl, rfl⟩ | hm
    · exact ⟨x, y, h, by simp, by simp⟩
    · obtain ⟨x', y', hr, h1, h2⟩ := find_same f g t hx.2 hy.2 hm
      obtain ⟨m1, m2⟩ := List.of_mem_zip hm
      have e1 : f x ≠ a := fun e => hx.1 (e ▸ m1)
      have e2 : g y ≠ b := fun e => hy.1 (e ▸ m2)
      exact ⟨x', y', hr, by simp [e1, h1], by simp [e2, h2]⟩

theorem foldR_same {α β : Type} {R : α → α → Prop} {f g : β → α → Res β} (h : ∀ b x y, R x y → f b x = g b y) :
    ∀ {xs ys : List α}, List.Forall₂ R xs ys → ∀ b, Res.foldR f b xs = Res.foldR g b ys
  | _, _, .nil, _ => rfl
  | _, _, .cons (a := x) (b := y) hx t, b => by
    simp only [Res.foldR, h b x y hx]
    congr 1
    funext b'
    exact foldR_same h t b'

theorem labels_nodup {L : List (Str × ℕ)} (h : L.Nodup) : (L.map leafIdx).Nodup :=
  h.map fun _ _ => leafIdx_inj

theorem zip_map_mem {α β γ δ : Type} (f : α → γ) (g : β → δ) {xs : List α} {ys : List β} {a b} (h : (a, b) ∈ xs.zip ys) :
    (f a, g b) ∈ (xs.map f).zip (ys.map g) := by
  rw [List.zip_map]
  exact List.mem_map.2 ⟨(a, b), h, rfl⟩

theorem zip_forall2 {α β γ : Type} {R : α → β → Prop} : ∀ {A : List α} {B : List β} (V : List γ), List.Forall₂ R A B →
    List.Forall₂ (fun x y => R x.1 y.1 ∧ x.2 = y.2) (A.zip V) (B.zip V)
  | _, _, [], _ => by simp
  | _, _, _ :: _, .nil => by simp
  | _, _, v :: V, .cons h t => by
    simp only [List.zip_cons_cons]
    exact .cons ⟨h, rfl⟩ (zip_forall2 V t)

/-- Labels of leaves with the same attribute. -/
def Beside (a b : Str) : Prop := ∃ n c d, a = nodeIndex n c ∧ b = nodeIndex n d

theorem Beside.cut {a b : Str} (h : Beside a b) : removeIndex a = removeIndex b := by
  obtain ⟨n, c, d, rfl, rfl⟩ := h
  rw [removeIndex_nodeIndex_eq, removeIndex_nodeIndex_eq]

theorem leaves_forall2 : ∀ {L M : List (Str × ℕ)}, L.map Prod.fst = M.map Prod.fst →
    List.Forall₂ Beside (L.map leafIdx) (M.map leafIdx)
  | [], [], _ => .nil
  | [], _ :: _, h => by simp at h
  | _ :: _, [], h => by simp at h
  | a :: L, b :: M, h => by
    simp only [List.map_cons, List.cons.injEq] at h
    simp only [List.map_cons]
    refine .cons ?_ (leaves_forall2 h.2)
    exact ⟨a.1, a.2, b.2, rfl, by rw [leafIdx, h.1]⟩

section
variable {F : Type} [Field F] [DecidableEq F]

/-- The coefficient of a leaf, found by its label. -/
theorem coeff_same {p q : Pol} (h : p.Same q) (hp : p.leaves.Nodup) (hq : q.leaves.Nodup) (κ : F) {l m : Str × ℕ}
    (ho : Opposite p q l m) : ∃ x : F, (coeffs p κ).find? (fun c => c.1 == leafIdx l) = some (leafIdx l, x) ∧
      (coeffs q κ).find? (fun c => c.1 == leafIdx m) = some (leafIdx m, x) := by
  have h1 : (coeffs p κ).map Prod.fst = p.leaves.map leafIdx := by
    rw [coeffs, List.map_fst_zip]
    simp [coeffVals_length]
  have h2 : (coeffs q κ).map Prod.fst = q.leaves.map leafIdx := by
    rw [coeffs, List.map_fst_zip]
    simp [coeffVals_length]
  have hf : List.Forall₂ (fun x y => Beside x.1 y.1 ∧ x.2 = y.2) (coeffs p κ) (coeffs q κ) := by
    rw [coeffs, coeffs, same_coeffs h]
    exact zip_forall2 _ (leaves_forall2 (same_names h))
  obtain ⟨x, y, hr, e1, e2⟩ := find_same Prod.fst Prod.fst hf (by rw [h1]; exact labels_nodup hp)
    (by rw [h2]; exact labels_nodup hq) (a := leafIdx l) (b := leafIdx m)
    (by rw [h1, h2]; exact zip_map_mem _ _ ho)
  have f1 := List.find?_some e1
  have f2 := List.find?_some e2
  simp only [beq_iff_eq] at f1 f2
  refine ⟨x.2, ?_, ?_⟩
  · rw [e1, ← f1]
  · rw [e2, ← f2, hr.2]

/-- The shares of the two trees. -/
theorem shares_same {p q : Pol} (h : p.Same q) (σ : F) (ω : ℕ → F) :
    List.Forall₂ (fun x y => Beside x.1 y.1 ∧ x.2 = y.2) (shares p σ ω) (shares q σ ω) := by
  rw [shares, shares, (same_shares h σ ω).1]
  exact zip_forall2 _ (leaves_forall2 (same_names h))

theorem shares_leafIdx (p : Pol) (σ : F) (ω : ℕ → F) : (shares p σ ω).map Prod.fst = p.leaves.map leafIdx := by
  rw [shares, List.map_fst_zip]
  simp [shareVals_length]
end

/-! ## Computations with the same course -/

/-- Both succeed with related values, both report an error or both panic. -/
def Res.Alike {α β : Type} (R : α → β → Prop) : Res α → Res β → Prop
  | .ok a, .ok b => R a b
  | .err, .err => True
  | .panic, .panic => True
  | _, _ => False

theorem Res.alike_refl {α : Type} (x : Res α) : Res.Alike (· = ·) x x := by
  cases x <;> simp [Res.Alike]

theorem Res.Alike.eq {α : Type} {x y : Res α} (h : Res.Alike (· = ·) x y) : x = y := by
  cases x <;> cases y <;> simp_all [Res.Alike]

theorem Res.Alike.bind {α β γ δ : Type} {R : α → β → Prop} {S : γ → δ → Prop} {x : Res α} {y : Res β} {f : α → Res γ}
    {g : β → Res δ} (h : Res.Alike R x y) (hf : ∀ a b, R a b → Res.Alike S (f a) (g b)) :
    Res.Alike S (x >>= f) (y >>= g) := by
  cases x <;> cases y <;> simp_all [Res.Alike]

section
variable {F G1 G2 Gt : Type} {α β γ δ : Type}

/-- The same for random computations, which draw the same random numbers. -/
def RM.Alike (R : α → β → Prop) (m : RM F G1 G2 Gt α) (m' : RM F G1 G2 Gt β) : Prop :=
  ∀ s, Res.Alike (fun x y => R x.1 y.1 ∧ x.2 = y.2) (m s) (m' s)

theorem RM.alike_refl (m : RM F G1 G2 Gt α) : RM.Alike (· = ·) m m := by
  intro s
  rcases m s with ⟨a, t⟩ | _ | _ <;> simp [Res.Alike]

theorem RM.Alike.bind {R : α → β → Prop} {S : γ → δ → Prop} {x : RM F G1 G2 Gt α} {y : RM F G1 G2 Gt β}
    {f : α → RM F G1 G2 Gt γ} {g : β → RM F G1 G2 Gt δ} (h : RM.Alike R x y)
    (hf : ∀ a b, R a b → RM.Alike S (f a) (g b)) : RM.Alike S (x >>= f) (y >>= g) := by
  intro s
  have := h s
  show Res.Alike _ (RM.bind x f s) (RM.bind y g s)
  simp only [RM.bind]
  revert this
  rcases x s with ⟨a, t⟩ | _ | _ <;> rcases y s with ⟨b, u⟩ | _ | _ <;> intro this <;> simp only [Res.Alike] at this ⊢
  obtain ⟨h1, rfl⟩ := this
  exact hf a b h1 t

theorem RM.Alike.pure {R : α → β → Prop} {a : α} {b : β} (h : R a b) :
    RM.Alike R (Pure.pure a : RM F G1 G2 Gt α) (Pure.pure b) := fun _ => ⟨h, rfl⟩

theorem RM.Alike.lift {R : α → β → Prop} {x : Res α} {y : Res β} (h : Res.Alike R x y) :
    RM.Alike R (RM.lift x : RM F G1 G2 Gt α) (RM.lift y) := by
  intro s
  cases x <;> cases y <;> simp_all [Res.Alike, RM.lift]

theorem RM.Alike.mapL {R : α → β → Prop} {S : γ → δ → Prop} {f : α → RM F G1 G2 Gt γ} {g : β → RM F G1 G2 Gt δ}
    (hf : ∀ a b, R a b → RM.Alike S (f a) (g b)) : ∀ {xs : List α} {ys : List β}, List.Forall₂ R xs ys →
    RM.Alike (List.Forall₂ S) (RM.mapL f xs) (RM.mapL g ys)
  | _, _, .nil => RM.Alike.pure .nil
  | _, _, .cons h t => RM.Alike.bind (hf _ _ h) fun _ _ h1 => RM.Alike.bind (RM.Alike.mapL hf t) fun _ _ h2 =>
      RM.Alike.pure (.cons h1 h2)

theorem Res.Alike.mapR {R : α → β → Prop} {S : γ → δ → Prop} {f : α → Res γ} {g : β → Res δ}
    (hf : ∀ a b, R a b → Res.Alike S (f a) (g b)) : ∀ {xs : List α} {ys : List β}, List.Forall₂ R xs ys →
    Res.Alike (List.Forall₂ S) (Res.mapR f xs) (Res.mapR g ys)
  | _, _, .nil => List.Forall₂.nil
  | _, _, .cons h t => Res.Alike.bind (hf _ _ h) fun _ _ h1 => Res.Alike.bind (Res.Alike.mapR hf t) fun _ _ h2 =>
      (List.Forall₂.cons h1 h2 : List.Forall₂ S _ _)

theorem RM.Alike.mono {R S : α → β → Prop} {x : RM F G1 G2 Gt α} {y : RM F G1 G2 Gt β} (h : RM.Alike R x y)
    (hs : ∀ a b, R a b → S a b) : RM.Alike S x y := by
  intro s
  have := h s
  revert this
  rcases x s with ⟨a, t⟩ | _ | _ <;> rcases y s with ⟨b, u⟩ | _ | _ <;> intro this <;> simp only [Res.Alike] at this ⊢
  exact ⟨hs _ _ this.1, this.2⟩

variable [Field F] [DecidableEq F]

/-- Related shares of the two trees: same values, same attribute, and the labels of the leaves. -/
def SameShares (p q : Pol) (x y : Option (List (Str × F))) : Prop :=
  ∃ xs ys, x = some xs ∧ y = some ys ∧ xs.map Prod.fst = p.leaves.map leafIdx ∧ ys.map Prod.fst = q.leaves.map leafIdx ∧
    List.Forall₂ (fun a b => Beside a.1 b.1 ∧ a.2 = b.2) xs ys

theorem genShares_same {p q : Pol} (h : p.Same q) (σ : F) :
    RM.Alike (SameShares p q) (RM.liftFr (G1 := G1) (G2 := G2) (Gt := Gt) (genSharesPolicy p.toValue σ none))
      (RM.liftFr (genSharesPolicy q.toValue σ none)) := by
  intro s
  simp only [RM.liftFr, genSharesPolicy_eq, Res.Alike, (same_shares h σ s.fr).2, and_true]
  exact ⟨_, _, rfl, rfl, shares_leafIdx _ _ _, shares_leafIdx _ _ _, shares_same h _ _⟩

end

end Rabe
