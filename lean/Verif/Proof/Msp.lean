import Verif.Model.Msp
import Verif.Proof.Tree
import Mathlib.Algebra.BigOperators.Group.Finset.Basic
import Mathlib.Algebra.BigOperators.Ring.Finset
import Mathlib.Algebra.BigOperators.Pi
import Mathlib.Tactic.Ring

/-!
# The span program produced by `lw` and `calculate_msp`
-/

namespace Rabe

/-- A row as a function, zero beyond its length. -/
def rowFun (l : List ℤ) : ℕ → ℤ := fun j => l.getD j 0

/-- The vector with entry `x` at position `c`. -/
def evec (c : ℕ) (x : ℤ) : ℕ → ℤ := fun j => if j = c then x else 0

mutual
/-- Rows of the tree for the vector `v` and counter `c`, in leaf order. -/
def mrows : Pol → (ℕ → ℤ) → ℕ → List (ℕ → ℤ)
  | .leaf _ _, v, _ => [v]
  | .gate .or cs, v, c => mrowsOr cs v c
  | .gate .and cs, v, c => mrowsAnd cs [v + evec c 1, evec c (-1)] (c + 1)
/-- Rows of the children of an OR gate. -/
def mrowsOr : List Pol → (ℕ → ℤ) → ℕ → List (ℕ → ℤ)
  | [], _, _ => []
  | d :: ds, v, c => mrows d v c ++ mrowsOr ds v (c + d.andCount)
/-- Rows of the children of an AND gate with the given vectors. -/
def mrowsAnd : List Pol → List (ℕ → ℤ) → ℕ → List (ℕ → ℤ)
  | d :: ds, v :: vs, c => mrows d v c ++ mrowsAnd ds vs (c + d.andCount)
  | _, _, _ => []
end

theorem resize_length (n : ℕ) (l : List ℤ) : (resize n l).length = n := by
  simp only [resize, List.length_append, List.length_take, List.length_replicate]; omega

theorem rowFun_append_zero (l : List ℤ) (k : ℕ) : rowFun (l ++ List.replicate k 0) = rowFun l := by
  funext j
  simp only [rowFun, List.getD_eq_getElem?_getD]
  by_cases h : j < l.length
  · rw [List.getElem?_append_left h]
  · rw [List.getElem?_append_right (by omega), List.getElem?_eq_none (l := l) (by omega), List.getElem?_replicate]
    split <;> rfl

theorem rowFun_resize {n : ℕ} {l : List ℤ} (h : l.length ≤ n) : rowFun (resize n l) = rowFun l := by
  rw [resize, List.take_of_length_le h, rowFun_append_zero]

theorem rowFun_snoc {c : ℕ} {l : List ℤ} (h : l.length = c) (x : ℤ) : rowFun (l ++ [x]) = rowFun l + evec c x := by
  funext j
  simp only [rowFun, List.getD_eq_getElem?_getD, Pi.add_apply, evec]
  by_cases hj : j < l.length
  · rw [List.getElem?_append_left hj, if_neg (by omega), add_zero]
  · rw [List.getElem?_append_right (by omega), List.getElem?_eq_none (l := l) (by omega)]
    by_cases hc : j = c
    · subst hc; simp [h]
    · rw [if_neg hc, List.getElem?_eq_none (by simp; omega)]
      simp

theorem rowFun_nil : rowFun [] = 0 := by funext j; simp [rowFun]

/-- Entries of a matrix row. -/
def Small (r : List ℤ) : Prop := ∀ x ∈ r, x = -1 ∨ x = 0 ∨ x = 1

theorem small_resize {n r} (h : Small r) : Small (resize n r) := by
  intro x hx
  rcases List.mem_append.1 hx with hx | hx
  · exact h x (List.mem_of_mem_take hx)
  · rw [List.mem_replicate] at hx; exact Or.inr (Or.inl hx.2)

theorem small_snoc {r y} (h : Small r) (hy : y = -1 ∨ y = 0 ∨ y = 1) : Small (r ++ [y]) := by
  intro x hx
  rcases List.mem_append.1 hx with hx | hx
  · exact h x hx
  · rw [List.mem_singleton] at hx; exact hx ▸ hy

/-- What `lw` does on a tree: it puts the rows of the tree, last leaf first, in front of the matrix. -/
def LwOk (names : List Str) (rows : List (ℕ → ℤ)) (k : ℕ) (msp : AbePolicy) (small : Prop)
    (res : Res (AbePolicy × Bool)) : Prop :=
  ∃ R : List (List ℤ), res = .ok ({ m := R.reverse ++ msp.m, pi := names.reverse ++ msp.pi, c := msp.c + k }, true) ∧
    R.map rowFun = rows ∧ (∀ r ∈ R, r.length ≤ msp.c + k) ∧ (small → ∀ r ∈ R, Small r)

theorem lwOr_eq (cs : List Pol)
    (ih : ∀ c ∈ cs, ∀ msp v par, v.length ≤ msp.c →
      LwOk c.names (mrows c (rowFun v) msp.c) c.andCount msp (Small v) (lw c.toValue msp v par)) :
    ∀ msp v, v.length ≤ msp.c →
      LwOk ((cs.flatMap Pol.leaves).map Prod.fst) (mrowsOr cs (rowFun v) msp.c) (Pol.andCountL cs) msp (Small v)
        (lwOr (cs.map Pol.toValue) msp v true) := by
  induction cs with
  | nil => intro msp v _; exact ⟨[], by simp [lwOr, Pol.andCountL], by simp [mrowsOr], by simp, by simp⟩
  | cons d ds ihd =>
    intro msp v hv
    obtain ⟨R, hR, hRr, hRl, hRs⟩ := ih d (by simp) msp v (some .or) hv
    obtain ⟨S, hS, hSr, hSl, hSs⟩ := ihd (fun c hc => ih c (by simp [hc]))
      { m := R.reverse ++ msp.m, pi := d.names.reverse ++ msp.pi, c := msp.c + d.andCount } v (by simp; omega)
    refine ⟨R ++ S, ?_, ?_, ?_, ?_⟩
    · simp only [List.map_cons, lwOr, hR, Res.ok_bind, Bool.true_and, hS]
      simp [Pol.names, Pol.andCountL, Nat.add_assoc]
    · simp [mrowsOr, hRr, hSr]
    · intro r hr
      rw [Pol.andCountL]
      rcases List.mem_append.1 hr with h | h
      · have := hRl r h; omega
      · have := hSl r h; simp only at this; omega
    · intro hs r hr
      rcases List.mem_append.1 hr with h | h
      · exact hRs hs r h
      · exact hSs hs r h

theorem lw_eq : ∀ p : Pol, p.Binary → ∀ msp v par, v.length ≤ msp.c →
    LwOk p.names (mrows p (rowFun v) msp.c) p.andCount msp (Small v) (lw p.toValue msp v par) := by
  intro p
  induction p using Pol.ind with
  | hl n c =>
    intro _ msp v par hv
    exact ⟨[v], by simp [lw, Pol.names, Pol.andCount], by simp [mrows], by simp [Pol.andCount, hv], by simp⟩
  | hg op cs ih =>
    intro hb msp v par hv
    simp only [Pol.Binary, Pol.arity_gate] at hb
    cases op with
    | or =>
      have hlen : ¬ (cs.map Pol.toValue).length < 2 := by rw [List.length_map]; exact Nat.not_lt.2 hb.1
      simp only [Pol.toValue_gate, Op.toType, lw, hlen, if_false]
      have := lwOr_eq cs (fun c hc => ih c hc (hb.2 c hc)) msp v hv
      simpa [Pol.names, mrows, Pol.andCount] using this
    | and =>
      obtain ⟨a, b, rfl⟩ := List.length_eq_two.1 hb.1
      simp only [Pol.toValue_gate, Op.toType, lw, List.map_cons, List.map_nil, List.length_cons, List.length_nil,
        Nat.zero_add, Nat.reduceAdd, Nat.lt_irrefl, if_false, ne_eq, not_true_eq_false]
      have l1 : (resize msp.c v ++ [1]).length = msp.c + 1 := by simp [resize_length]
      have l2 : (resize msp.c [] ++ [-1]).length = msp.c + 1 := by simp [resize_length]
      have f1 : rowFun (resize msp.c v ++ [1]) = rowFun v + evec msp.c 1 := by
        rw [rowFun_snoc (resize_length _ _), rowFun_resize hv]
      have f2 : rowFun (resize msp.c [] ++ [-1]) = evec msp.c (-1) := by
        rw [rowFun_snoc (resize_length _ _), rowFun_resize (by simp), rowFun_nil, zero_add]
      obtain ⟨R, hR, hRr, hRl, hRs⟩ := ih a (by simp) (hb.2 a (by simp)) { msp with c := msp.c + 1 }
        (resize msp.c v ++ [1]) (some .and) (by simp [resize_length])
      obtain ⟨S, hS, hSr, hSl, hSs⟩ := ih b (by simp) (hb.2 b (by simp))
        { m := R.reverse ++ msp.m, pi := a.names.reverse ++ msp.pi, c := msp.c + 1 + a.andCount }
        (resize msp.c [] ++ [-1]) (some .and) (by simp [resize_length])
      refine ⟨R ++ S, ?_, ?_, ?_, ?_⟩
      · simp only [lwAnd, hR, Res.ok_bind, if_true, hS]
        simp only [Pol.names, Pol.leaves_gate, List.flatMap_cons, List.flatMap_nil, List.append_nil, List.map_append,
          List.reverse_append, List.append_assoc, Pol.andCount, Pol.andCountL]
        simp only [Res.ok.injEq, Prod.mk.injEq, and_true, AbePolicy.mk.injEq, true_and]
        omega
      · rw [f1] at hRr
        rw [f2] at hSr
        simp [mrows, mrowsAnd, hRr, hSr]
      · intro r hr
        simp only [Pol.andCount, Pol.andCountL]
        rcases List.mem_append.1 hr with h | h
        · have := hRl r h; simp only at this; omega
        · have := hSl r h; simp only at this; omega
      · intro hs r hr
        rcases List.mem_append.1 hr with h | h
        · exact hRs (small_snoc (small_resize hs) (by simp)) r h
        · exact hSs (small_snoc (small_resize (by simp [Small])) (by simp)) r h

/-! ## Completeness of the span program -/

theorem mrows_length : ∀ p : Pol, p.Binary → ∀ v c, (mrows p v c).length = p.leaves.length := by
  intro p
  induction p using Pol.ind with
  | hl n c => intro _ v c; simp [mrows]
  | hg op cs ih =>
    intro hb v c
    simp only [Pol.Binary, Pol.arity_gate] at hb
    cases op with
    | or =>
      simp only [mrows, Pol.leaves_gate]
      have : ∀ ds : List Pol, (∀ d ∈ ds, d ∈ cs) → ∀ c, (mrowsOr ds v c).length = (ds.flatMap Pol.leaves).length := by
        intro ds
        induction ds with
        | nil => simp [mrowsOr]
        | cons d ds ihd =>
          intro hsub c
          have hd : d ∈ cs := hsub d (by simp)
          simp only [mrowsOr, List.length_append, List.flatMap_cons, ih d hd (hb.2 d hd),
            ihd fun e he => hsub e (by simp [he])]
      exact this cs (fun d hd => hd) c
    | and =>
      obtain ⟨a, b, rfl⟩ := List.length_eq_two.1 hb.1
      simp [mrows, mrowsAnd, ih a (by simp) (hb.2 a (by simp)), ih b (by simp) (hb.2 b (by simp))]

theorem pick_sum (A : List Str) (row : Str × ℕ → ℕ → ℤ) : ∀ p : Pol, p.Binary → p.sat A = true → ∀ v c,
    p.leaves.map row = mrows p v c → ((pick A p).map row).sum = v := by
  intro p
  induction p using Pol.ind with
  | hl n c =>
    intro _ hs v k h
    simp [mrows] at h
    simp_all [pick]
  | hg op cs ih =>
    intro hb hs v c h
    simp only [Pol.Binary, Pol.arity_gate] at hb
    cases op with
    | or =>
      simp only [mrows, Pol.leaves_gate] at h
      have : ∀ ds : List Pol, (∀ d ∈ ds, d ∈ cs) → Pol.satAny A ds = true → ∀ c,
          (ds.flatMap Pol.leaves).map row = mrowsOr ds v c → ((pickFirst A ds).map row).sum = v := by
        intro ds
        induction ds with
        | nil => intro _ h; simp [Pol.satAny] at h
        | cons d ds ihd =>
          intro hsub hsat c h
          have hd : d ∈ cs := hsub d (by simp)
          simp only [List.flatMap_cons, List.map_append, mrowsOr] at h
          have h' := List.append_inj h (by simp [mrows_length d (hb.2 d hd)])
          by_cases hdA : d.sat A = true
          · simp only [pickFirst, hdA, if_true]
            exact ih d hd (hb.2 d hd) hdA v c h'.1
          · simp only [Pol.satAny, Bool.or_eq_true] at hsat
            simp only [pickFirst, hdA]
            exact ihd (fun e he => hsub e (by simp [he])) (hsat.resolve_left hdA) _ h'.2
      simp only [pick]
      exact this cs (fun d hd => hd) (by simpa [Pol.satAny_eq] using hs) c h
    | and =>
      obtain ⟨a, b, rfl⟩ := List.length_eq_two.1 hb.1
      have ha : a.sat A = true := by simp at hs; exact hs.1
      have hb' : b.sat A = true := by simp at hs; exact hs.2
      simp only [mrows, mrowsAnd, Pol.leaves_gate, List.flatMap_cons, List.flatMap_nil, List.append_nil,
        List.map_append] at h
      have h' := List.append_inj h (by simp [mrows_length a (hb.2 a (by simp))])
      have ea := ih a (by simp) (hb.2 a (by simp)) ha _ _ h'.1
      have eb := ih b (by simp) (hb.2 b (by simp)) hb' _ _ h'.2
      simp only [pick, Pol.satAll, ha, hb', Bool.and_self, if_true, pickAll, List.append_nil, List.map_append,
        List.sum_append, ea, eb]
      funext j
      simp only [Pi.add_apply, evec]
      split <;> simp

/-! ## Soundness of the span program -/

/-- Scalar product of the first `N` entries. -/
def dot (N : ℕ) (w v : ℕ → ℤ) : ℤ := ∑ j ∈ Finset.range N, v j * w j

theorem dot_add (N w u v) : dot N w (u + v) = dot N w u + dot N w v := by
  simp [dot, add_mul, Finset.sum_add_distrib]

theorem dot_evec {N c : ℕ} (h : c < N) (w x) : dot N w (evec c x) = x * w c := by
  unfold dot evec
  rw [Finset.sum_eq_single c]
  · simp
  · intro b _ hb; simp [hb]
  · intro hc; exact absurd (Finset.mem_range.2 h) hc

theorem dot_congr {N c : ℕ} {w w' v : ℕ → ℤ} (hv : ∀ j, c ≤ j → v j = 0) (hw : ∀ j, j < c → w' j = w j) :
    dot N w' v = dot N w v := by
  unfold dot
  refine Finset.sum_congr rfl fun j _ => ?_
  by_cases h : j < c
  · rw [hw j h]
  · rw [hv j (by omega)]; simp

theorem mrows_support : ∀ p : Pol, p.Binary → ∀ v c, (∀ j, c ≤ j → v j = 0) →
    ∀ r ∈ mrows p v c, ∀ j, c + p.andCount ≤ j → r j = 0 := by
  intro p
  induction p using Pol.ind with
  | hl n k =>
    intro _ v c hv r hr j hj
    simp only [mrows, List.mem_singleton] at hr
    subst hr
    exact hv j (by omega)
  | hg op cs ih =>
    intro hb v c hv
    simp only [Pol.Binary, Pol.arity_gate] at hb
    cases op with
    | or =>
      have : ∀ ds : List Pol, (∀ d ∈ ds, d ∈ cs) → ∀ c, (∀ j, c ≤ j → v j = 0) →
          ∀ r ∈ mrowsOr ds v c, ∀ j, c + Pol.andCountL ds ≤ j → r j = 0 := by
        intro ds
        induction ds with
        | nil => intro _ c _ r hr; simp [mrowsOr] at hr
        | cons d ds ihd =>
          intro hsub c hv r hr j hj
          have hd : d ∈ cs := hsub d (by simp)
          simp only [Pol.andCountL] at hj
          simp only [mrowsOr, List.mem_append] at hr
          rcases hr with hr | hr
          · exact ih d hd (hb.2 d hd) v c hv r hr j (by omega)
          · exact ihd (fun e he => hsub e (by simp [he])) (c + d.andCount) (fun j hj => hv j (by omega)) r hr j (by omega)
      simp only [mrows, Pol.andCount, Nat.zero_add]
      exact this cs (fun d hd => hd) c hv
    | and =>
      obtain ⟨a, b, rfl⟩ := List.length_eq_two.1 hb.1
      intro r hr j hj
      simp only [Pol.andCount, Pol.andCountL] at hj
      simp only [mrows, mrowsAnd, List.append_nil, List.mem_append] at hr
      rcases hr with hr | hr
      · refine ih a (by simp) (hb.2 a (by simp)) _ (c + 1) ?_ r hr j (by omega)
        intro i hi
        simp [evec, hv i (by omega), show i ≠ c by omega]
      · refine ih b (by simp) (hb.2 b (by simp)) _ (c + 1 + a.andCount) ?_ r hr j (by omega)
        intro i hi
        simp [evec, show i ≠ c by omega]

theorem mrows_orthogonal (A : List Str) (N : ℕ) : ∀ p : Pol, p.Binary → ∀ w v c, (∀ j, c ≤ j → v j = 0) →
    c + p.andCount ≤ N → (p.sat A = false ∨ dot N w v = 0) →
    ∃ w' : ℕ → ℤ, (∀ j, j < c → w' j = w j) ∧ ∀ x ∈ p.leaves.zip (mrows p v c), x.1.1 ∈ A → dot N w' x.2 = 0 := by
  intro p
  induction p using Pol.ind with
  | hl n k =>
    intro _ w v c hv _ h
    refine ⟨w, fun _ _ => rfl, ?_⟩
    intro x hx hA
    simp only [Pol.leaves_leaf, mrows, List.zip_cons_cons, List.zip_nil_right, List.mem_singleton] at hx
    subst hx
    simp only at hA
    rcases h with h | h
    · simp [hA] at h
    · exact h
  | hg op cs ih =>
    intro hb w v c hv hN h
    simp only [Pol.Binary, Pol.arity_gate] at hb
    cases op with
    | or =>
      have : ∀ ds : List Pol, (∀ d ∈ ds, d ∈ cs) → ∀ w c, (∀ j, c ≤ j → v j = 0) → c + Pol.andCountL ds ≤ N →
          (Pol.satAny A ds = false ∨ dot N w v = 0) →
          ∃ w' : ℕ → ℤ, (∀ j, j < c → w' j = w j) ∧
            ∀ x ∈ (ds.flatMap Pol.leaves).zip (mrowsOr ds v c), x.1.1 ∈ A → dot N w' x.2 = 0 := by
        intro ds
        induction ds with
        | nil => intro _ w c _ _ _; exact ⟨w, fun _ _ => rfl, by simp [mrowsOr]⟩
        | cons d ds ihd =>
          intro hsub w c hv hN h
          have hd : d ∈ cs := hsub d (by simp)
          simp only [Pol.andCountL] at hN
          obtain ⟨w1, e1, h1⟩ := ih d hd (hb.2 d hd) w v c hv (by omega)
            (h.imp (fun h => by simp only [Pol.satAny, Bool.or_eq_false_iff] at h; exact h.1) id)
          obtain ⟨w2, e2, h2⟩ := ihd (fun e he => hsub e (by simp [he])) w1 (c + d.andCount)
            (fun j hj => hv j (by omega)) (by omega)
            (h.imp (fun h => by simp only [Pol.satAny, Bool.or_eq_false_iff] at h; exact h.2)
              (fun h => by rw [dot_congr hv e1]; exact h))
          refine ⟨w2, fun j hj => by rw [e2 j (by omega), e1 j hj], ?_⟩
          intro x hx hA
          simp only [List.flatMap_cons, mrowsOr] at hx
          rw [List.zip_append (by rw [mrows_length d (hb.2 d hd)]), List.mem_append] at hx
          rcases hx with hx | hx
          · rw [dot_congr (mrows_support d (hb.2 d hd) v c hv _ (List.of_mem_zip hx).2) e2]
            exact h1 x hx hA
          · exact h2 x hx hA
      simp only [mrows, Pol.leaves_gate]
      simp only [Pol.andCount, Nat.zero_add] at hN
      refine this cs (fun d hd => hd) w c hv hN (h.imp (fun h => ?_) id)
      simpa [Pol.satAny_eq] using h
    | and =>
      obtain ⟨a, b, rfl⟩ := List.length_eq_two.1 hb.1
      simp only [Pol.andCount, Pol.andCountL] at hN
      have hba := hb.2 a (by simp)
      have hbb := hb.2 b (by simp)
      -- value given to the new coordinate
      have hy : ∃ y : ℤ, (a.sat A = false ∨ dot N w v + y = 0) ∧ (b.sat A = false ∨ y = 0) := by
        by_cases ha : a.sat A = false
        · exact ⟨0, Or.inl ha, Or.inr rfl⟩
        · rcases h with h | h
          · refine ⟨-dot N w v, Or.inr (by ring), Or.inl ?_⟩
            simp only [Pol.sat_and, List.all_cons, List.all_nil, Bool.and_true] at h
            simp only [Bool.not_eq_false] at ha
            simpa [ha] using h
          · exact ⟨0, Or.inr (by rw [h]; ring), Or.inr rfl⟩
      obtain ⟨y, hya, hyb⟩ := hy
      let w0 : ℕ → ℤ := fun j => if j = c then y else w j
      have e0 : ∀ j, j < c → w0 j = w j := fun j hj => by simp [w0, show j ≠ c by omega]
      have hv1 : ∀ j, c + 1 ≤ j → (v + evec c 1) j = 0 := fun j hj => by
        simp [evec, hv j (by omega), show j ≠ c by omega]
      have hv2 : ∀ j, c + 1 ≤ j → evec c (-1) j = 0 := fun j hj => by
        simp [evec, show j ≠ c by omega]
      have w0c : w0 c = y := by simp [w0]
      obtain ⟨w1, e1, h1⟩ := ih a (by simp) hba w0 (v + evec c 1) (c + 1) hv1 (by omega)
        (hya.imp id fun h => by
          rw [dot_add, dot_evec (by omega), dot_congr hv e0, w0c, one_mul]; exact h)
      obtain ⟨w2, e2, h2⟩ := ih b (by simp) hbb w1 (evec c (-1)) (c + 1 + a.andCount)
        (fun j hj => hv2 j (by omega)) (by omega)
        (hyb.imp id fun h => by
          rw [dot_evec (by omega), e1 c (by omega), w0c, h]; ring)
      refine ⟨w2, fun j hj => by rw [e2 j (by omega), e1 j (by omega), e0 j hj], ?_⟩
      intro x hx hA
      simp only [Pol.leaves_gate, List.flatMap_cons, List.flatMap_nil, List.append_nil, mrows, mrowsAnd] at hx
      rw [List.zip_append (by rw [mrows_length a hba]), List.mem_append] at hx
      rcases hx with hx | hx
      · rw [dot_congr (mrows_support a hba _ _ hv1 _ (List.of_mem_zip hx).2) e2]
        exact h1 x hx hA
      · exact h2 x hx hA

/-! ## Sorting -/

theorem insertRow_perm (x) (l : List (Str × List ℤ)) : (insertRow x l).Perm (x :: l) := by
  induction l with
  | nil => exact List.Perm.refl _
  | cons y ys ih =>
    simp only [insertRow]
    split
    · exact List.Perm.refl _
    · exact (List.Perm.cons y ih).trans (List.Perm.swap x y ys)

theorem sortRows_perm (l : List (Str × List ℤ)) : (sortRows l).Perm l := by
  induction l with
  | nil => exact List.Perm.refl _
  | cons x xs ih => exact (insertRow_perm x _).trans (List.Perm.cons x ih)

theorem strLe_total : ∀ a b : Str, strLe a b = true ∨ strLe b a = true
  | [], _ => Or.inl rfl
  | _ :: _, [] => Or.inr rfl
  | a :: as, b :: bs => by
    simp only [strLe]
    rcases Nat.lt_trichotomy a.toNat b.toNat with h | h | h
    · left; simp [h]
    · simp only [h, Nat.lt_irrefl, if_false, if_true]; exact strLe_total as bs
    · right; simp [h]

theorem strLe_trans : ∀ {a b c : Str}, strLe a b = true → strLe b c = true → strLe a c = true
  | [], _, _, _, _ => rfl
  | _ :: _, [], _, h, _ => by simp [strLe] at h
  | _ :: _, _ :: _, [], _, h => by simp [strLe] at h
  | a :: as, b :: bs, c :: cs, h1, h2 => by
    simp only [strLe] at *
    by_cases hab : a.toNat < b.toNat
    · by_cases hbc : b.toNat < c.toNat
      · simp [show a.toNat < c.toNat by omega]
      · simp only [hbc, if_false] at h2
        split at h2
        · simp [show a.toNat < c.toNat by omega]
        · simp at h2
    · simp only [hab, if_false] at h1
      split at h1
      · rename_i e
        by_cases hbc : b.toNat < c.toNat
        · simp [show a.toNat < c.toNat by omega]
        · simp only [hbc, if_false] at h2
          split at h2
          · simp only [show ¬ a.toNat < c.toNat by omega, show a.toNat = c.toNat by omega, if_true]
            simp only [Nat.lt_irrefl, if_false]
            exact strLe_trans h1 h2
          · simp at h2
      · simp at h1

theorem insertRow_sorted (x) (l : List (Str × List ℤ)) (h : l.Pairwise fun a b => strLe a.1 b.1 = true) :
    (insertRow x l).Pairwise fun a b => strLe a.1 b.1 = true := by
  induction l with
  | nil => simp [insertRow]
  | cons y ys ih =>
    simp only [List.pairwise_cons] at h
    simp only [insertRow]
    split
    · rename_i hxy
      simp only [List.pairwise_cons]
      refine ⟨?_, h⟩
      intro z hz
      rcases List.mem_cons.1 hz with rfl | hz
      · exact hxy
      · exact strLe_trans hxy (h.1 z hz)
    · rename_i hxy
      simp only [List.pairwise_cons]
      refine ⟨?_, ih h.2⟩
      intro z hz
      rcases List.mem_cons.1 ((insertRow_perm x ys).mem_iff.1 hz) with rfl | hz
      · exact (strLe_total z.1 y.1).resolve_left hxy
      · exact h.1 z hz

theorem sortRows_sorted (l : List (Str × List ℤ)) : (sortRows l).Pairwise fun a b => strLe a.1 b.1 = true := by
  induction l with
  | nil => simp [sortRows]
  | cons x xs ih => exact insertRow_sorted x _ ih

/-! ## `calculate_msp` -/

/-- The span program of a tree: the rows, in leaf order, form a list `R`; the result is `R` padded to the width,
sorted by label. -/
theorem calculateMsp_eq (p : Pol) (hb : p.Binary) :
    ∃ msp R, calculateMsp p.toValue = .ok msp ∧ msp.c = 1 + p.andCount ∧
      R.map rowFun = mrows p (evec 0 1) 1 ∧ (∀ r ∈ R, r.length = msp.c ∧ Small r) ∧
      (msp.pi.zip msp.m).Perm (p.names.zip R) ∧ msp.pi.Perm p.names ∧ msp.m.Perm R ∧
      msp.pi.length = msp.m.length ∧ msp.pi.Pairwise (fun a b => strLe a b = true) := by
  obtain ⟨R, hR, hRr, hRl, hRs⟩ := lw_eq p hb { m := [], pi := [], c := 1 } [1] none (by simp)
  have e1 : rowFun [1] = evec 0 1 := by funext j; cases j <;> simp [rowFun, evec]
  rw [e1] at hRr
  have hlen : R.length = p.names.length := by
    have := congrArg List.length hRr
    rw [List.length_map, mrows_length p hb] at this
    simpa [Pol.names] using this
  simp only [List.append_nil] at hR hRr hRl
  have hz : ((p.names.reverse).zip (R.reverse.map (resize (1 + p.andCount)))) =
      (p.names.zip (R.map (resize (1 + p.andCount)))).reverse := by
    rw [List.map_reverse, List.zip_eq_zipWith, List.zip_eq_zipWith, List.reverse_zipWith (by simp [hlen])]
  let rows := sortRows ((p.names.reverse).zip (R.reverse.map (resize (1 + p.andCount))))
  have hperm : rows.Perm (p.names.zip (R.map (resize (1 + p.andCount)))) := by
    refine (sortRows_perm _).trans ?_
    rw [hz]
    exact List.reverse_perm _
  refine ⟨{ m := rows.map Prod.snd, pi := rows.map Prod.fst, c := 1 + p.andCount },
    R.map (resize (1 + p.andCount)), ?_, rfl, ?_, ?_, ?_, ?_, ?_, ?_, ?_⟩
  · simp only [calculateMsp, hR, Res.ok_bind, if_true, rows]
  · rw [← hRr, List.map_map]
    refine List.map_congr_left fun r hr => rowFun_resize (hRl r hr)
  · intro r hr
    obtain ⟨r', hr', rfl⟩ := List.mem_map.1 hr
    exact ⟨resize_length _ _, small_resize (hRs (by simp [Small]) r' hr')⟩
  · simp only []
    rw [← List.unzip_fst, ← List.unzip_snd, List.zip_unzip]
    exact hperm
  · have := hperm.map Prod.fst
    rwa [List.map_fst_zip (by simp [hlen])] at this
  · have := hperm.map Prod.snd
    rwa [List.map_snd_zip (by simp [hlen])] at this
  · simp
  · rw [List.pairwise_map]
    exact sortRows_sorted _

/-! ## Abort -/

theorem lw_panic : ∀ p : Pol, ¬ p.Binary → ∀ msp v par, v.length ≤ msp.c → lw p.toValue msp v par = .panic := by
  intro p
  induction p using Pol.ind with
  | hl n c => intro h; simp [Pol.Binary] at h
  | hg op cs ih =>
    intro h msp v par hv
    simp only [Pol.Binary, Pol.arity_gate, not_and_or] at h
    by_cases hlen : cs.length < 2
    · have hlen' : (cs.map Pol.toValue).length < 2 := by simpa using hlen
      cases op <;> simp only [Pol.toValue_gate, Op.toType, lw, if_pos hlen']
    · have hlen' : ¬ (cs.map Pol.toValue).length < 2 := by simpa using hlen
      cases op with
      | or =>
        have hex : ∃ c ∈ cs, ¬ c.Binary := by
          rcases h with h | h
          · exact absurd (Nat.le_of_not_lt hlen) h
          · simpa [Pol.Binary] using h
        simp only [Pol.toValue_gate, Op.toType, lw, if_neg hlen']
        clear hlen hlen' h
        have : ∀ ds : List Pol, (∀ d ∈ ds, d ∈ cs) → (∃ c ∈ ds, ¬ c.Binary) → ∀ msp, v.length ≤ msp.c →
            lwOr (ds.map Pol.toValue) msp v true = .panic := by
          intro ds
          induction ds with
          | nil => intro _ h; simp at h
          | cons d ds ihd =>
            intro hsub hex msp hv
            simp only [List.map_cons, lwOr]
            by_cases hd : d.Binary
            · obtain ⟨R, hR, _⟩ := lw_eq d hd msp v (some .or) hv
              rw [hR, Res.ok_bind]
              refine ihd (fun e he => hsub e (by simp [he])) ?_ _ (by simp; omega)
              obtain ⟨c, hc, hcb⟩ := hex
              rcases List.mem_cons.1 hc with rfl | hc
              · exact absurd hd hcb
              · exact ⟨c, hc, hcb⟩
            · rw [ih d (hsub d (by simp)) hd msp v _ hv]
              rfl
        exact this cs (fun d hd => hd) hex msp hv
      | and =>
        simp only [Pol.toValue_gate, Op.toType, lw, if_neg hlen']
        by_cases h2 : cs.length = 2
        · have h2' : ¬ (cs.map Pol.toValue).length ≠ 2 := by simpa using h2
          rw [if_neg h2']
          obtain ⟨a, b, rfl⟩ := List.length_eq_two.1 h2
          have hab : ¬ a.Binary ∨ ¬ b.Binary := by
            rcases h with h | h
            · exact absurd h2 h
            · have : ¬ (a.Binary ∧ b.Binary) := by simpa [Pol.Binary] using h
              exact not_and_or.1 this
          simp only [List.map_cons, List.map_nil, lwAnd]
          by_cases ha : a.Binary
          · obtain ⟨R, hR, _⟩ := lw_eq a ha { msp with c := msp.c + 1 } (resize msp.c v ++ [1]) (some .and)
              (by simp [resize_length])
            rw [hR, Res.ok_bind]
            simp only [if_true]
            rw [ih b (by simp) (hab.resolve_left (by simpa using ha)) _ _ _ (by simp [resize_length])]
            rfl
          · rw [ih a (by simp) ha _ _ _ (by simp [resize_length])]
            rfl
        · have h2' : (cs.map Pol.toValue).length ≠ 2 := by simpa using h2
          rw [if_pos h2']

end Rabe
