import Verif.Model.Dnf
import Verif.Proof.Tree
import Mathlib.Algebra.BigOperators.Group.List.Basic

/-!
# The conversion to disjunctive normal form
-/

namespace Rabe

variable {G1 G2 Gt : Type} [AddCommGroup G1] [AddCommGroup G2] [AddCommGroup Gt]

/-- A leaf, or an AND gate over leaves. -/
def Pol.IsTerm : Pol → Prop
  | .leaf _ _ => True
  | .gate .and cs => ∀ c ∈ cs, ∃ n k, c = .leaf n k
  | .gate .or _ => False

/-- A term, or an OR gate over terms. -/
def Pol.IsDnf : Pol → Prop
  | .leaf _ _ => True
  | .gate .and cs => ∀ c ∈ cs, ∃ n k, c = .leaf n k
  | .gate .or cs => ∀ c ∈ cs, c.IsTerm

/-- The term is the sum of the public keys `ks`. -/
def DnfTerm.MadeOf (t : DnfTerm G1 G2 Gt) (ks : List (PubAttr G1 G2 Gt)) : Prop :=
  t.attrs = ks.map (·.attr) ∧ t.gt1 = (ks.map (·.gt1)).sum ∧ t.gt2 = (ks.map (·.gt2)).sum ∧
    t.g1 = (ks.map (·.g1)).sum ∧ t.g2 = (ks.map (·.g2)).sum

/-- The terms after `L₀` are non-empty sums of public keys for attributes with the property `Q`. -/
def Grown (pks : List (PubAttr G1 G2 Gt)) (Q : Str → Prop) (L₀ L : List (DnfTerm G1 G2 Gt)) (b : ℕ) : Prop :=
  ∃ N, L = L₀ ++ N ∧ L.length ≤ b ∧ ∀ t ∈ N, ∃ ks, ks ≠ [] ∧ (∀ k ∈ ks, k ∈ pks ∧ Q k.attr) ∧ t.MadeOf ks

theorem dnfLeafStep_grown {pks : List (PubAttr G1 G2 Gt)} {Q : Str → Prop} {L₀ L : List (DnfTerm G1 G2 Gt)} {i : ℕ}
    (h0 : L₀.length ≤ i) (h : Grown pks Q L₀ L (i + 1)) (name : Str) (hQ : Q name) (pak) (hp : pak ∈ pks) :
    Grown pks Q L₀ (dnfLeafStep name i L pak) (i + 1) ∧ (L ≠ L₀ ∨ pak.attr = name → dnfLeafStep name i L pak ≠ L₀) := by
  obtain ⟨N, rfl, hlen, hN⟩ := h
  unfold dnfLeafStep
  by_cases hname : pak.attr = name
  · rw [if_pos hname]
    by_cases hi : i < (L₀ ++ N).length
    · have hi' : i - L₀.length < N.length := by simp at hi; omega
      rw [List.getElem?_eq_getElem hi]
      simp only []
      have hset : ∀ t, (L₀ ++ N).set i t = L₀ ++ N.set (i - L₀.length) t := by
        intro t
        rw [List.set_append_right _ _ h0]
      have hget : (L₀ ++ N)[i] = N[i - L₀.length] := List.getElem_append_right h0
      rw [hset]
      refine ⟨⟨_, rfl, by simpa using hlen, ?_⟩, fun _ => ?_⟩
      · intro t ht
        rcases List.mem_or_eq_of_mem_set ht with ht | rfl
        · exact hN t ht
        · obtain ⟨ks, hne, hks, e1, e2, e3, e4, e5⟩ := hN _ (List.getElem_mem hi')
          refine ⟨ks ++ [pak], by simp, ?_, ?_⟩
          · intro k hk
            rcases List.mem_append.1 hk with hk | hk
            · exact hks k hk
            · rw [List.mem_singleton] at hk
              exact ⟨hk ▸ hp, by rw [hk, hname]; exact hQ⟩
          · simp [DnfTerm.MadeOf, hget, e1, e2, e3, e4, e5]
      · intro hc
        have := congrArg List.length hc
        simp at this
        subst this
        simp at hi'
    · rw [List.getElem?_eq_none (by omega)]
      simp only []
      rw [List.append_assoc]
      refine ⟨⟨_, rfl, by simp at hi ⊢; omega, ?_⟩, fun _ => ?_⟩
      · intro t ht
        rcases List.mem_append.1 ht with ht | ht
        · exact hN t ht
        · rw [List.mem_singleton] at ht
          subst ht
          refine ⟨[pak], by simp, ?_, by simp [DnfTerm.MadeOf]⟩
          intro k hk
          rw [List.mem_singleton] at hk
          exact ⟨hk ▸ hp, by rw [hk, hname]; exact hQ⟩
      · intro hc
        have := congrArg List.length hc
        simp at this
  · rw [if_neg hname]
    exact ⟨⟨N, rfl, hlen, hN⟩, fun h => h.resolve_right hname⟩

theorem dnfLeaf_grown {pks : List (PubAttr G1 G2 Gt)} {Q : Str → Prop} {L₀ : List (DnfTerm G1 G2 Gt)} {i : ℕ}
    (h0 : L₀.length ≤ i) (name : Str) (hQ : Q name) : ∀ (ps : List (PubAttr G1 G2 Gt)), (∀ k ∈ ps, k ∈ pks) →
    ∀ L, Grown pks Q L₀ L (i + 1) →
    Grown pks Q L₀ (ps.foldl (dnfLeafStep name i) L) (i + 1) ∧
      (L ≠ L₀ ∨ (∃ k ∈ ps, k.attr = name) → ps.foldl (dnfLeafStep name i) L ≠ L₀) := by
  intro ps
  induction ps with
  | nil => intro _ L h; exact ⟨h, by simp⟩
  | cons k ps ih =>
    intro hsub L h
    obtain ⟨h1, h2⟩ := dnfLeafStep_grown h0 h name hQ k (hsub k (by simp))
    obtain ⟨h3, h4⟩ := ih (fun k hk => hsub k (by simp [hk])) _ h1
    refine ⟨h3, fun h => ?_⟩
    simp only [List.foldl_cons]
    apply h4
    rcases h with h | ⟨k', hk', he⟩
    · exact Or.inl (h2 (Or.inl h))
    · rcases List.mem_cons.1 hk' with rfl | hk'
      · exact Or.inl (h2 (Or.inr he))
      · exact Or.inr ⟨k', hk', he⟩

theorem dnfAnd_grown {pks : List (PubAttr G1 G2 Gt)} {Q : Str → Prop} {L₀ : List (DnfTerm G1 G2 Gt)} {i : ℕ}
    (h0 : L₀.length ≤ i) : ∀ cs : List Pol, (∀ c ∈ cs, ∃ n k, c = .leaf n k ∧ Q n) →
    ∀ L, Grown pks Q L₀ L (i + 1) →
    (dnfAnd pks (cs.map Pol.toValue) L i true).2 = true ∧
    Grown pks Q L₀ (dnfAnd pks (cs.map Pol.toValue) L i true).1 (i + 1) ∧
      (L ≠ L₀ ∨ (∃ n k, Pol.leaf n k ∈ cs ∧ ∃ x ∈ pks, x.attr = n) →
        (dnfAnd pks (cs.map Pol.toValue) L i true).1 ≠ L₀) := by
  intro cs
  induction cs with
  | nil => intro _ L h; simp [dnfAnd, h]
  | cons c cs ih =>
    intro hcs L h
    obtain ⟨n, k, rfl, hQ⟩ := hcs c (by simp)
    obtain ⟨h1, h2⟩ := dnfLeaf_grown (pks := pks) h0 n hQ pks (fun k hk => hk) L h
    obtain ⟨h3, h4, h5⟩ := ih (fun c hc => hcs c (by simp [hc])) _ h1
    simp only [List.map_cons, Pol.toValue_leaf, dnfAnd, if_true, dnf]
    refine ⟨h3, h4, fun h => h5 ?_⟩
    rcases h with h | ⟨n', k', hm, x, hx, he⟩
    · exact Or.inl (h2 (Or.inl h))
    · rcases List.mem_cons.1 hm with hm | hm
      · obtain ⟨rfl, rfl⟩ := Pol.leaf.inj hm
        exact Or.inl (h2 (Or.inr ⟨x, hx, he⟩))
      · exact Or.inr ⟨n', k', hm, x, hx, he⟩

/-- One disjunct: the new terms consist of public keys of its attributes; there is one if the public keys exist. -/
theorem dnf_term_grown {pks : List (PubAttr G1 G2 Gt)} {L₀ : List (DnfTerm G1 G2 Gt)} {i : ℕ}
    (h0 : L₀.length ≤ i) (c : Pol) (hc : c.IsTerm) :
    (dnf pks c.toValue L₀ i (some .or)).2 = true ∧
    Grown pks (· ∈ c.names) L₀ (dnf pks c.toValue L₀ i (some .or)).1 (i + 1) ∧
      (c.names ≠ [] → (∀ n ∈ c.names, ∃ x ∈ pks, x.attr = n) → (dnf pks c.toValue L₀ i (some .or)).1 ≠ L₀) := by
  have hg : ∀ Q : Str → Prop, Grown pks Q L₀ L₀ (i + 1) := fun Q => ⟨[], by simp, by omega, by simp⟩
  cases c with
  | leaf n k =>
    obtain ⟨h1, h2⟩ := dnfLeaf_grown (pks := pks) (Q := (· ∈ (Pol.leaf n k).names)) h0 n (by simp [Pol.names]) pks
      (fun k hk => hk) L₀ (hg _)
    simp only [Pol.toValue_leaf, dnf]
    exact ⟨trivial, h1, fun _ h => h2 (Or.inr (h n (by simp [Pol.names])))⟩
  | gate op cs =>
    cases op with
    | or => simp [Pol.IsTerm] at hc
    | and =>
      simp only [Pol.IsTerm] at hc
      have hc' : ∀ c ∈ cs, ∃ n k, c = .leaf n k ∧ n ∈ (Pol.gate .and cs).names := by
        intro c hcm
        obtain ⟨n, k, rfl⟩ := hc c hcm
        exact ⟨n, k, rfl, List.mem_map.2 ⟨(n, k), by
          simp only [Pol.leaves_gate, List.mem_flatMap]; exact ⟨_, hcm, by simp⟩, rfl⟩⟩
      obtain ⟨h1, h2, h3⟩ := dnfAnd_grown (pks := pks) (Q := (· ∈ (Pol.gate .and cs).names)) h0 cs hc' L₀ (hg _)
      simp only [Pol.toValue_gate, Op.toType, dnf]
      refine ⟨h1, h2, fun hne h => h3 (Or.inr ?_)⟩
      cases cs with
      | nil => simp [Pol.names] at hne
      | cons d ds =>
        obtain ⟨n, k, rfl, hn⟩ := hc' d (by simp)
        exact ⟨n, k, by simp, h n hn⟩

/-- All disjuncts. -/
theorem dnfOr_grown {pks : List (PubAttr G1 G2 Gt)} : ∀ (cs : List Pol), (∀ c ∈ cs, c.IsTerm) →
    ∀ (k : ℕ) (L₀ : List (DnfTerm G1 G2 Gt)), L₀.length ≤ k + k →
    (dnfOr pks (cs.map Pol.toValue) L₀ k true).2 = true ∧
    ∃ N, (dnfOr pks (cs.map Pol.toValue) L₀ k true).1 = L₀ ++ N ∧
      (∀ t ∈ N, ∃ c ∈ cs, ∃ ks, ks ≠ [] ∧ (∀ x ∈ ks, x ∈ pks ∧ x.attr ∈ c.names) ∧ t.MadeOf ks) ∧
      (∀ c ∈ cs, c.names ≠ [] → (∀ n ∈ c.names, ∃ x ∈ pks, x.attr = n) →
        ∃ t ∈ N, ∃ ks, ks ≠ [] ∧ (∀ x ∈ ks, x ∈ pks ∧ x.attr ∈ c.names) ∧ t.MadeOf ks) := by
  intro cs
  induction cs with
  | nil => intro _ k L₀ _; exact ⟨by simp [dnfOr], [], by simp [dnfOr], by simp, by simp⟩
  | cons d ds ih =>
    intro hcs k L₀ h0
    obtain ⟨h1, ⟨N, h2, h3, h4⟩, h5⟩ := dnf_term_grown (pks := pks) h0 d (hcs d (by simp))
    obtain ⟨h6, M, h7, h8, h9⟩ := ih (fun c hc => hcs c (by simp [hc])) (k + 1)
      (dnf pks d.toValue L₀ (k + k) (some .or)).1 (by omega)
    simp only [List.map_cons, dnfOr, if_true, h1]
    refine ⟨h6, N ++ M, ?_, ?_, ?_⟩
    · rw [h7, h2, List.append_assoc]
    · intro t ht
      rcases List.mem_append.1 ht with ht | ht
      · obtain ⟨ks, hk⟩ := h4 t ht
        exact ⟨d, by simp, ks, hk⟩
      · obtain ⟨c, hc, ks, hk⟩ := h8 t ht
        exact ⟨c, by simp [hc], ks, hk⟩
    · intro c hc hne hp
      rcases List.mem_cons.1 hc with rfl | hc
      · have hN : N ≠ [] := by
          rintro rfl
          exact h5 hne hp (by rw [h2, List.append_nil])
        obtain ⟨t, ht⟩ := List.exists_mem_of_ne_nil N hN
        exact ⟨t, by simp [ht], h4 t ht⟩
      · obtain ⟨t, ht, hk⟩ := h9 c hc hne hp
        exact ⟨t, by simp [ht], hk⟩

/-! ## The success flag -/

theorem dnfAnd_false (pks : List (PubAttr G1 G2 Gt)) (cs : List PolicyValue) : ∀ L i, (dnfAnd pks cs L i false).2 = false := by
  induction cs with
  | nil => intro L i; rfl
  | cons c cs ih => intro L i; simp [dnfAnd, ih]

theorem dnfOr_false (pks : List (PubAttr G1 G2 Gt)) (cs : List PolicyValue) : ∀ L i, (dnfOr pks cs L i false).2 = false := by
  induction cs with
  | nil => intro L i; rfl
  | cons c cs ih => intro L i; simp [dnfOr, ih]

theorem dnfAnd_flag (pks : List (PubAttr G1 G2 Gt)) (cs : List Pol) : ∀ L i,
    (dnfAnd pks (cs.map Pol.toValue) L i true).2 = true ↔ ∀ c ∈ cs, ∃ n k, c = .leaf n k := by
  induction cs with
  | nil => intro L i; simp [dnfAnd]
  | cons c cs ih =>
    intro L i
    simp only [List.map_cons, dnfAnd, if_true]
    cases c with
    | leaf n k => simp [dnf, ih]
    | gate op ds =>
      cases op <;> simp [dnf, Op.toType, dnfAnd_false]

theorem dnfOr_flag (pks : List (PubAttr G1 G2 Gt)) (cs : List Pol) : ∀ L i,
    (dnfOr pks (cs.map Pol.toValue) L i true).2 = true ↔ ∀ c ∈ cs, c.IsTerm := by
  induction cs with
  | nil => intro L i; simp [dnfOr]
  | cons c cs ih =>
    intro L i
    simp only [List.map_cons, dnfOr, if_true]
    cases c with
    | leaf n k => simp [dnf, ih, Pol.IsTerm]
    | gate op ds =>
      cases op with
      | or => simp [dnf, Op.toType, dnfOr_false, Pol.IsTerm]
      | and =>
        simp only [Pol.toValue_gate, Op.toType, dnf, List.mem_cons, forall_eq_or_imp, Pol.IsTerm]
        cases hb : (dnfAnd pks (ds.map Pol.toValue) L (i + i) true).2 with
        | true =>
          rw [ih]
          exact ⟨fun h => ⟨(dnfAnd_flag pks ds _ _).1 hb, h⟩, fun h => h.2⟩
        | false =>
          rw [dnfOr_false]
          constructor
          · simp
          · intro h
            rw [(dnfAnd_flag pks ds _ _).2 h.1] at hb
            simp at hb

theorem dnf_flag (pks : List (PubAttr G1 G2 Gt)) (p : Pol) (L i) :
    (dnf pks p.toValue L i none).2 = true ↔ p.IsDnf := by
  cases p with
  | leaf n k => simp [dnf, Pol.IsDnf]
  | gate op cs =>
    cases op with
    | and => simp [dnf, Op.toType, Pol.IsDnf, dnfAnd_flag]
    | or => simp [dnf, Op.toType, Pol.IsDnf, dnfOr_flag]

/-! ## Sorting -/

omit [AddCommGroup G1] [AddCommGroup G2] [AddCommGroup Gt] in
theorem insertTerm_perm (x : DnfTerm G1 G2 Gt) (l) : (insertTerm x l).Perm (x :: l) := by
  induction l with
  | nil => exact List.Perm.refl _
  | cons y ys ih =>
    simp only [insertTerm]
    split
    · exact List.Perm.refl _
    · exact (List.Perm.cons y ih).trans (List.Perm.swap x y ys)

omit [AddCommGroup G1] [AddCommGroup G2] [AddCommGroup Gt] in
theorem sortTerms_perm (l : List (DnfTerm G1 G2 Gt)) : (sortTerms l).Perm l := by
  induction l with
  | nil => exact List.Perm.refl _
  | cons x xs ih => exact (insertTerm_perm x _).trans (List.Perm.cons x ih)

/-! ## The check -/

mutual
/-- Specification: no OR gate occurs below an AND gate. -/
def Pol.NoOrBelowAnd : Pol → Prop
  | .leaf _ _ => True
  | .gate .and cs => Pol.NoOrL cs
  | .gate .or cs => Pol.NoOrBelowAndL cs
/-- No tree of the list has an OR gate below an AND gate. -/
def Pol.NoOrBelowAndL : List Pol → Prop
  | [] => True
  | c :: cs => Pol.NoOrBelowAnd c ∧ Pol.NoOrBelowAndL cs
/-- The tree has no OR gate. -/
def Pol.NoOr : Pol → Prop
  | .leaf _ _ => True
  | .gate .and cs => Pol.NoOrL cs
  | .gate .or _ => False
/-- No tree of the list has an OR gate. -/
def Pol.NoOrL : List Pol → Prop
  | [] => True
  | c :: cs => Pol.NoOr c ∧ Pol.NoOrL cs
end

theorem Pol.noOrL_iff (cs : List Pol) : Pol.NoOrL cs ↔ ∀ c ∈ cs, c.NoOr := by
  induction cs with
  | nil => simp [Pol.NoOrL]
  | cons c cs ih => simp [Pol.NoOrL, ih]

theorem Pol.noOrBelowAndL_iff (cs : List Pol) : Pol.NoOrBelowAndL cs ↔ ∀ c ∈ cs, c.NoOrBelowAnd := by
  induction cs with
  | nil => simp [Pol.NoOrBelowAndL]
  | cons c cs ih => simp [Pol.NoOrBelowAndL, ih]

theorem policyInDnfL_eq (cs : List PolicyValue) (conj ty) : ∀ r,
    policyInDnfL cs conj ty r = (r && cs.all fun c => policyInDnf c conj (some ty)) := by
  induction cs with
  | nil => intro r; simp [policyInDnfL]
  | cons c cs ih => intro r; simp [policyInDnfL, ih, Bool.and_assoc]

theorem policyInDnf_true (p : Pol) : ∀ par, (policyInDnf p.toValue true par = true ↔ p.NoOr) := by
  induction p using Pol.ind with
  | hl n c => intro par; simp [policyInDnf, Pol.NoOr]
  | hg op cs ih =>
    intro par
    cases op with
    | or => simp [policyInDnf, Op.toType, Pol.NoOr]
    | and =>
      simp only [Pol.toValue_gate, Op.toType, policyInDnf, policyInDnfL_eq, Bool.true_and, List.all_map,
        List.all_eq_true, Pol.NoOr, Pol.noOrL_iff]
      exact ⟨fun h c hc => (ih c hc _).1 (h c hc), fun h c hc => (ih c hc _).2 (h c hc)⟩

theorem policyInDnf_iff (p : Pol) : ∀ par, (policyInDnf p.toValue false par = true ↔ p.NoOrBelowAnd) := by
  induction p using Pol.ind with
  | hl n c => intro par; simp [policyInDnf, Pol.NoOrBelowAnd]
  | hg op cs ih =>
    intro par
    cases op with
    | or =>
      simp only [Pol.toValue_gate, Op.toType, policyInDnf, policyInDnfL_eq, Bool.true_and, List.all_map,
        List.all_eq_true, Pol.NoOrBelowAnd, Pol.noOrBelowAndL_iff, Bool.false_eq_true, if_false]
      exact ⟨fun h c hc => (ih c hc _).1 (h c hc), fun h c hc => (ih c hc _).2 (h c hc)⟩
    | and =>
      simp only [Pol.toValue_gate, Op.toType, policyInDnf, policyInDnfL_eq, Bool.true_and, List.all_map,
        List.all_eq_true, Pol.NoOrBelowAnd, Pol.noOrL_iff]
      exact ⟨fun h c hc => (policyInDnf_true c _).1 (h c hc), fun h c hc => (policyInDnf_true c _).2 (h c hc)⟩

end Rabe
