import Verif.Proof.Inject
import Verif.Proof.Ac17
import Verif.Props.Fresh
import Mathlib.Tactic.LinearCombination

/-!
# C70: every random value enters the output, keys of AC17 KP-ABE

The columns of the span program after the first one are linearly independent, and the first two components of a row differ
in the factor of the scalar of this row.
-/

set_option linter.unusedSectionVars false

namespace Rabe

variable {F G1 G2 Gt : Type} [Field F] [DecidableEq F] [AddCommGroup G1] [Module F G1]
  [AddCommGroup G2] [Module F G2] [AddCommGroup Gt] [Module F Gt]

/-- Scalar product of the first `N` entries of a row with a vector over the field. -/
def fdot (N : ℕ) (x : ℕ → F) (v : ℕ → ℤ) : F := ∑ j ∈ Finset.range N, (v j : F) * x j

theorem fdot_add (N : ℕ) (x : ℕ → F) (u v : ℕ → ℤ) : fdot N x (u + v) = fdot N x u + fdot N x v := by
  simp [fdot, add_mul, Finset.sum_add_distrib]

theorem fdot_evec {N c : ℕ} (h : c < N) (x : ℕ → F) (y : ℤ) : fdot N x (evec c y) = y * x c := by
  unfold fdot evec
  rw [Finset.sum_eq_single c]
  · simp
  · intro b _ hb; simp [hb]
  · intro hc; exact absurd (Finset.mem_range.2 h) hc

/-- A vector orthogonal to all rows is orthogonal to the vector of the root and zero at every column of a gate. -/
theorem mrows_rank (N : ℕ) (x : ℕ → F) : ∀ p : Pol, p.Binary → ∀ v c, c + p.andCount ≤ N →
    (∀ r ∈ mrows p v c, fdot N x r = 0) → fdot N x v = 0 ∧ ∀ j, c ≤ j → j < c + p.andCount → x j = 0 := by
  intro p
  induction p using Pol.ind with
  | hl n k =>
    intro _ v c _ h
    exact ⟨h v (by simp [mrows]), fun j h1 h2 => by simp only [Pol.andCount] at h2; omega⟩
  | hg op cs ih =>
    intro hb v c hN h
    simp only [Pol.Binary, Pol.arity_gate] at hb
    cases op with
    | or =>
      have key : ∀ ds : List Pol, (∀ d ∈ ds, d ∈ cs) → ∀ c, c + Pol.andCountL ds ≤ N →
          (∀ r ∈ mrowsOr ds v c, fdot N x r = 0) →
          (ds ≠ [] → fdot N x v = 0) ∧ ∀ j, c ≤ j → j < c + Pol.andCountL ds → x j = 0 := by
        intro ds
        induction ds with
        | nil => intro _ c _ _; exact ⟨by simp, fun j h1 h2 => by simp only [Pol.andCountL] at h2; omega⟩
        | cons d ds ihd =>
          intro hsub c hN h
          have hd : d ∈ cs := hsub d (by simp)
          simp only [Pol.andCountL] at hN ⊢
          simp only [mrowsOr, List.mem_append] at h
          obtain ⟨a1, a2⟩ := ih d hd (hb.2 d hd) v c (by omega) fun r hr => h r (.inl hr)
          obtain ⟨_, b2⟩ := ihd (fun e he => hsub e (by simp [he])) (c + d.andCount) (by omega) fun r hr => h r (.inr hr)
          refine ⟨fun _ => a1, fun j h1 h2 => ?_⟩
          by_cases hj : j < c + d.andCount
          · exact a2 j h1 hj
          · exact b2 j (by omega) (by omega)
      simp only [Pol.andCount, Nat.zero_add, mrows] at hN h ⊢
      obtain ⟨k1, k2⟩ := key cs (fun d hd => hd) c hN h
      exact ⟨k1 (by rintro rfl; simp at hb), k2⟩
    | and =>
      obtain ⟨a, b, rfl⟩ := List.length_eq_two.1 hb.1
      have iha := ih a (by simp) (hb.2 a (by simp))
      have ihb := ih b (by simp) (hb.2 b (by simp))
      simp only [Pol.andCount, Pol.andCountL] at hN ⊢
      simp only [mrows, mrowsAnd, List.append_nil, List.mem_append] at h
      obtain ⟨a1, a2⟩ := iha _ (c + 1) (by simp at hN; omega) fun r hr => h r (.inl hr)
      obtain ⟨b1, b2⟩ := ihb _ _ (by simp at hN; omega) fun r hr => h r (.inr hr)
      have hc : c < N := by simp at hN; omega
      rw [fdot_evec hc] at b1
      have hx : x c = 0 := by simpa using b1
      rw [fdot_add, fdot_evec hc, hx, mul_zero, add_zero] at a1
      refine ⟨a1, fun j h1 h2 => ?_⟩
      by_cases h0 : j = c
      · rw [h0, hx]
      by_cases hj : j < c + 1 + a.andCount
      · exact a2 j (by omega) hj
      · exact b2 j (by omega) (by simp at h2; omega)

/-- Changing the scalars of the columns changes `_temp` by the same amount for both values of `_t`. -/
theorem Ac17.tempX_sub (env : Env F G1 G2 Gt) (P : Ac17.Params F) (r0 r1 ai : F) (sp sp' : List F) (t j : ℕ) :
    Ac17.tempX env P r0 r1 ai sp t j = Ac17.tempX env P r0 r1 ai sp' t j +
      ∑ i ∈ Finset.range j, (sp'.getD i 0 - sp.getD i 0) := by
  induction j with
  | zero => simp [Ac17.tempX]
  | succ j ih => rw [Ac17.tempX, Ac17.tempX, ih, Finset.sum_range_succ]; ring

theorem Ac17.kpX_sub (env : Env F G1 G2 Gt) (P : Ac17.Params F) (r0 r1 ai k : F) (sp sp' : List F) (n : ℕ) (σ σ' : F)
    (name : Str) (row : List ℤ) (t : ℕ) :
    Ac17.kpX env P r0 r1 ai k sp n σ name row t = Ac17.kpX env P r0 r1 ai k sp' n σ' name row t + ((σ - σ') * ai +
      ((List.range n).map fun j => ((row.getD (j + 1) 0 : ℤ) : F) *
        ∑ i ∈ Finset.range (j + 1), (sp'.getD i 0 - sp.getD i 0)).sum) := by
  have : ((List.range n).map fun j => ((row.getD (j + 1) 0 : ℤ) : F) * Ac17.tempX env P r0 r1 ai sp t (j + 1)).sum =
      ((List.range n).map fun j => ((row.getD (j + 1) 0 : ℤ) : F) * Ac17.tempX env P r0 r1 ai sp' t (j + 1)).sum +
      ((List.range n).map fun j => ((row.getD (j + 1) 0 : ℤ) : F) *
        ∑ i ∈ Finset.range (j + 1), (sp'.getD i 0 - sp.getD i 0)).sum := by
    rw [← List.sum_map_add]
    refine congrArg List.sum (List.map_congr_left fun j _ => ?_)
    rw [Ac17.tempX_sub env P r0 r1 ai sp sp', mul_add]
  simp only [Ac17.kpX, this]
  ring

/-- Two equal rows of keys with equal first components. -/
theorem Ac17.kpVec_inj {env : Env F G1 G2 Gt} {g : G1} (hg : g ≠ 0) {P : Ac17.Params F} (ha0 : P.a0 ≠ 0) (ha1 : P.a1 ≠ 0)
    (ha : P.a0 ≠ P.a1) {r0 r1 : F} {sp sp' : List F} {n : ℕ} {row : List ℤ} {name : Str} {σ σ' : F}
    (h : Ac17.kpVec env g P r0 r1 sp n row name σ = Ac17.kpVec env g P r0 r1 sp' n row name σ') :
    σ = σ' ∧ ((List.range n).map fun j => ((row.getD (j + 1) 0 : ℤ) : F) * (sp'.getD j 0 - sp.getD j 0)).sum = 0 := by
  simp only [Ac17.kpVec, List.cons.injEq, and_true] at h
  obtain ⟨h0, h1, h2⟩ := h
  have h0 := smul_left_inj hg h0
  have h1 := smul_left_inj hg h1
  have h2 := smul_left_inj hg h2
  rw [Ac17.kpX_sub env P r0 r1 _ _ sp sp' n σ σ', add_eq_left] at h0 h1
  have hne : P.a0⁻¹ - P.a1⁻¹ ≠ 0 := by
    intro hc
    exact ha (inv_injective (sub_eq_zero.1 hc))
  have hσ : (σ - σ') * (P.a0⁻¹ - P.a1⁻¹) = 0 := by linear_combination h0 - h1
  have hσ : σ = σ' := sub_eq_zero.1 ((mul_eq_zero.1 hσ).resolve_right hne)
  refine ⟨hσ, ?_⟩
  simp only [Ac17.kpL, hσ] at h2
  have e : ((List.range n).map fun j => ((row.getD (j + 1) 0 : ℤ) : F) * (sp'.getD j 0 - sp.getD j 0)).sum +
      ((List.range n).map fun j => ((row.getD (j + 1) 0 : ℤ) : F) * -(sp'.getD j 0)).sum =
      ((List.range n).map fun j => ((row.getD (j + 1) 0 : ℤ) : F) * -(sp.getD j 0)).sum := by
    rw [← List.sum_map_add]
    refine congrArg List.sum (List.map_congr_left fun j _ => ?_)
    ring
  have e2 := add_left_cancel h2
  rw [← e2] at e
  exact add_eq_right.1 e

/-- **C70, AC17 KP-ABE.** If the two scalars `a` of the master key differ, all values consumed by a key generation enter the
key: two runs with the same key consumed the same values. -/
theorem Ac17.C70_kp_keygen_used (env : Env F G1 G2 Gt) {τ τ' : Tape F G1 G2 Gt} {pk msk}
    (hset : Ac17.setup env τ = .ok ((pk, msk), τ')) (hg : msk.g ≠ 0) (hh : msk.h ≠ 0)
    (hb : ∀ b ∈ msk.b, b ≠ 0) (ha : msk.a.Nodup) {text lang} {p : Pol} (hp : Denotes text lang p) (hbin : p.Binary) :
    Shapes (Ac17.kpKeygen env msk text lang) { fr := 2 + p.andCount + p.leaves.length } := by
  obtain ⟨P, hs⟩ := Ac17.setup_ok hset
  obtain ⟨msp, R, hm, hc, hR, hRl, hperm, hpi, hmR, hlen, _⟩ := calculateMsp_eq p hbin
  have hRlen : R.length = p.leaves.length := by
    rw [← mrows_length p hbin (evec 0 1) 1, ← hR, List.length_map]
  have hrowlen : ∀ r ∈ msp.m, r.length = 1 + p.andCount ∧ Small r := by
    intro r hr
    have := hRl r (hmR.subset hr)
    rwa [hc] at this
  have hzl : (msp.pi.zip msp.m).length = p.leaves.length := by
    rw [List.length_zip, hlen, Nat.min_self, hmR.length_eq, hRlen]
  rw [hs.a] at ha
  have ha : P.a0 ≠ P.a1 := by simpa using ha
  have hb0 : P.b0 ≠ 0 := hb _ (by simp [hs.b])
  have hb1 : P.b1 ≠ 0 := hb _ (by simp [hs.b])
  intro t u c t' u' ht hu
  have hbr : ∀ r0 r1, Ac17.brVec msk r0 r1 = .ok [P.b0 * r0, P.b1 * r1, 0 + r0 + r1] := by
    intro r0 r1
    simp [Ac17.brVec, hs.b, Res.index]
  simp only [Ac17.kpKeygen, RM.bind_ok, RM.genFr, RM.lift_ok_iff, RM.pure_ok, Res.ok.injEq, Prod.mk.injEq, hbr] at ht hu
  rw [show parse text lang = .ok p.toValue from hp] at ht hu
  obtain ⟨_, _, ⟨ev, rfl⟩, m1, _, ⟨hm1, rfl⟩, r, t, ⟨hr, rfl⟩, _, _, ⟨rfl, rfl⟩, _, _, ⟨rfl, rfl⟩, _, _, ⟨rfl, rfl⟩, sp, t1,
    hsp, k, _, hk, rfl, _⟩ := ht
  obtain ⟨_, _, ⟨ev', rfl⟩, m2, _, ⟨hm2, rfl⟩, r', u, ⟨hr', rfl⟩, _, _, ⟨rfl, rfl⟩, _, _, ⟨rfl, rfl⟩, _, _, ⟨rfl, rfl⟩, sp', u1,
    hsp', k', _, hk', e, _⟩ := hu
  cases Res.ok.inj ev; cases Res.ok.inj ev'
  rw [hm] at hm1 hm2
  cases Res.ok.inj hm1; cases Res.ok.inj hm2
  rw [hr] at hr'
  cases Res.ok.inj hr'
  simp only [Ac17.KpSecretKey.mk.injEq, Ac17.SecretKey.mk.injEq, List.map_cons, List.cons.injEq] at e
  obtain ⟨_, ⟨e0, e1, _⟩, rfl, _⟩ := e
  have e0 := mul_left_cancel₀ hb0 (smul_left_inj hh e0)
  have e1 := mul_left_cancel₀ hb1 (smul_left_inj hh e1)
  have hrmem : r ∈ msp.m := by
    unfold Res.index at hr
    cases e : msp.m[0]? with
    | none => rw [e] at hr; cases hr
    | some x => rw [e] at hr; cases hr; exact List.mem_of_getElem? e
  have hcols : r.length - 1 = p.andCount := by rw [(hrowlen r hrmem).1]; omega
  simp only at hsp hsp' hk hk' e0 e1
  rw [hcols] at hsp hsp'
  rw [← e0, ← e1] at hk'
  obtain ⟨hS, hR0⟩ := mapL_pair (Ac17.uses_kpKeygenRow env msk _ sp _) (Ac17.uses_kpKeygenRow env msk _ sp' _)
    (fun x => ((List.range p.andCount).map fun j => ((x.2.getD (j + 1) 0 : ℤ) : F) * (sp'.getD j 0 - sp.getD j 0)).sum = 0)
    (A := fun x => Small x.2) (fun x t u b t' u' hx h h' => by
      obtain ⟨a0, a1, k1⟩ := Ac17.kpKeygenRow_ok hs hx h
      obtain ⟨_, _, k2⟩ := Ac17.kpKeygenRow_ok hs hx h'
      rw [k1, Prod.mk.injEq, hcols] at k2
      obtain ⟨q1, q2⟩ := Ac17.kpVec_inj hg a0 a1 ha k2.2
      exact ⟨.mk' (all_lt_one q1), q2⟩) _ _ _ _ _ _
      (fun x hx => (hrowlen x.2 (List.of_mem_zip hx).2).2) hk hk'
  have hrank := mrows_rank (1 + p.andCount) (fun j => if j = 0 then 0 else sp'.getD (j - 1) 0 - sp.getD (j - 1) 0) p hbin
    (evec 0 1) 1 le_rfl (by
      intro q hq
      rw [← hR] at hq
      obtain ⟨r, hr, rfl⟩ := List.mem_map.1 hq
      obtain ⟨i, hi, rfl⟩ := List.getElem_of_mem (hmR.symm.subset hr)
      have := hR0 (msp.pi[i]'(by omega), msp.m[i]) (by
        rw [← List.getElem_zip (h := by simp; omega)]
        exact List.getElem_mem _)
      rw [fdot, Nat.add_comm 1, Finset.sum_range_succ']
      simp only [Nat.succ_ne_zero, if_false, if_true, mul_zero, add_zero, Nat.add_sub_cancel, rowFun]
      refine Eq.trans ?_ this
      generalize p.andCount = n
      induction n with
      | zero => rfl
      | succ n ih => rw [Finset.sum_range_succ, ih, List.range_succ, List.map_append, List.sum_append]; simp)
  have hsplen : sp.length = p.andCount ∧ sp'.length = p.andCount := by
    constructor
    · simpa using (RM.mapL_ok hsp).length_eq.symm
    · simpa using (RM.mapL_ok hsp').length_eq.symm
  have hspe : sp = sp' := by
    refine List.ext_getElem (by omega) fun i h1 h2 => ?_
    have := hrank.2 (i + 1) (by omega) (by omega)
    simp only [Nat.add_sub_cancel, Nat.succ_ne_zero, if_false] at this
    have := (sub_eq_zero.1 this).symm
    simpa [List.getD_eq_getElem?_getD, h1, h2] using this
  subst hspe
  have hS1 := Shapes.mapL (fun _ => Uses.genFr) (fun _ t u b t' u' h h' => by
    simp only [RM.genFr, Res.ok.injEq, Prod.mk.injEq] at h h'
    exact .mk' (all_lt_one (h.1.trans h'.1.symm))) _ _ _ _ _ _ hsp hsp'
  obtain ⟨rfl, _⟩ := Uses.mapL (fun _ => Uses.genFr) _ _ _ _ hsp
  obtain ⟨rfl, _⟩ := Uses.mapL (fun _ => Uses.genFr) _ _ _ _ hsp'
  refine .mk' ?_
  rw [show 2 + p.andCount + p.leaves.length = 1 + (1 + (p.andCount + p.leaves.length)) by omega]
  refine all_lt_succ e0 (all_lt_succ e1 (all_lt_add (fun i hi => ?_) fun i hi => ?_))
  · exact (hS1.fr i (by simpa using hi)).symm
  · have := (hS.fr i (by simpa [hzl] using hi)).symm
    simpa [Tape.adv] using this

end Rabe
