import Verif.Proof.Layout
import Verif.Props.GrammarFirst
import Verif.Model.Ac17
import Verif.Model.Bdabe
import Verif.Model.Mke08

/-!
# Functions that do not look at the columns of a policy
-/

namespace Rabe

mutual
/-- A policy value without columns (specification helper). -/
def PolicyValue.noCol : PolicyValue → PolicyValue
  | .str n _ => .str n 0
  | .object ty v => .object ty v.noCol
  | .array cs => .array (PolicyValue.noColL cs)
/-- `PolicyValue.noCol` for lists. -/
def PolicyValue.noColL : List PolicyValue → List PolicyValue
  | [] => []
  | c :: cs => c.noCol :: PolicyValue.noColL cs
end

theorem noColL_length : ∀ cs : List PolicyValue, (PolicyValue.noColL cs).length = cs.length
  | [] => rfl
  | c :: cs => by simp [PolicyValue.noColL, noColL_length cs]

mutual
theorem toValue_shape : ∀ p : Pol, p.shape.toValue = p.toValue.noCol
  | .leaf n c => by simp [Pol.shape, Pol.toValue, PolicyValue.noCol]
  | .gate op cs => by
    simp only [Pol.shape, Pol.toValue, PolicyValue.noCol, PolicyValue.object.injEq, PolicyValue.array.injEq, true_and]
    exact toValue_shapeL cs
theorem toValue_shapeL : ∀ cs : List Pol, Pol.toValueL (Pol.shapeL cs) = PolicyValue.noColL (Pol.toValueL cs)
  | [] => rfl
  | c :: cs => by simp [Pol.shapeL, Pol.toValueL, PolicyValue.noColL, toValue_shape c, toValue_shapeL cs]
end

mutual
theorem traverse_nocol (attr : List Str) : ∀ v ty, traversePolicy attr v.noCol ty = traversePolicy attr v ty
  | .str n c, ty => by simp [PolicyValue.noCol, traversePolicy]
  | .object t v, ty => by
    simp only [PolicyValue.noCol, traversePolicy]
    cases t <;> simp [traverse_nocol attr v]
  | .array cs, ty => by
    simp only [PolicyValue.noCol, traversePolicy]
    cases ty <;> simp [traverseAnd_nocol attr cs, traverseOr_nocol attr cs]
theorem traverseAnd_nocol (attr : List Str) : ∀ cs r, traverseAnd attr (PolicyValue.noColL cs) r = traverseAnd attr cs r
  | [], r => rfl
  | c :: cs, r => by simp [PolicyValue.noColL, traverseAnd, traverse_nocol attr c, traverseAnd_nocol attr cs]
theorem traverseOr_nocol (attr : List Str) : ∀ cs r, traverseOr attr (PolicyValue.noColL cs) r = traverseOr attr cs r
  | [], r => rfl
  | c :: cs, r => by simp [PolicyValue.noColL, traverseOr, traverse_nocol attr c, traverseOr_nocol attr cs]
end

mutual
theorem lw_nocol : ∀ v msp x ty, lw v.noCol msp x ty = lw v msp x ty
  | .str n c, msp, x, ty => by simp [PolicyValue.noCol, lw]
  | .object t v, msp, x, ty => by
    simp only [PolicyValue.noCol, lw]
    cases t <;> simp [lw_nocol v]
  | .array cs, msp, x, ty => by
    simp only [PolicyValue.noCol, lw, noColL_length]
    rcases ty with _ | (_ | _ | _) <;> simp [lwAnd_nocol cs, lwOr_nocol cs]
theorem lwAnd_nocol : ∀ cs msp x, lwAnd (PolicyValue.noColL cs) msp x = lwAnd cs msp x
  | [], msp, x => rfl
  | c :: cs, msp, [] => by simp [PolicyValue.noColL, lwAnd]
  | c :: cs, msp, x :: xs => by simp [PolicyValue.noColL, lwAnd, lw_nocol c, lwAnd_nocol cs]
theorem lwOr_nocol : ∀ cs msp x r, lwOr (PolicyValue.noColL cs) msp x r = lwOr cs msp x r
  | [], msp, x, r => rfl
  | c :: cs, msp, x, r => by simp [PolicyValue.noColL, lwOr, lw_nocol c, lwOr_nocol cs]
end

mutual
theorem inDnf_nocol : ∀ v c ty, policyInDnf v.noCol c ty = policyInDnf v c ty
  | .str n _, c, ty => by simp [PolicyValue.noCol, policyInDnf]
  | .object t v, c, ty => by
    simp only [PolicyValue.noCol, policyInDnf]
    cases t <;> simp [inDnf_nocol v]
  | .array cs, c, ty => by
    simp only [PolicyValue.noCol, policyInDnf]
    rcases ty with _ | (_ | _ | _) <;> simp [inDnfL_nocol cs]
theorem inDnfL_nocol : ∀ cs c ty r, policyInDnfL (PolicyValue.noColL cs) c ty r = policyInDnfL cs c ty r
  | [], c, ty, r => rfl
  | v :: cs, c, ty, r => by simp [PolicyValue.noColL, policyInDnfL, inDnf_nocol v, inDnfL_nocol cs]
end

variable {F G1 G2 Gt : Type} [Field F] [DecidableEq F] [AddCommGroup G1] [AddCommGroup G2] [AddCommGroup Gt] [Module F G1]
  [Module F G2] [Module F Gt]

mutual
theorem dnf_nocol (pks : List (PubAttr G1 G2 Gt)) : ∀ v terms i ty, dnf pks v.noCol terms i ty = dnf pks v terms i ty
  | .str n _, terms, i, ty => by simp [PolicyValue.noCol, dnf]
  | .object t v, terms, i, ty => by
    simp only [PolicyValue.noCol, dnf]
    rcases ty with _ | (_ | _ | _) <;> cases t <;> simp [dnf_nocol pks v]
  | .array cs, terms, i, ty => by
    simp only [PolicyValue.noCol, dnf]
    rcases ty with _ | (_ | _ | _) <;> simp [dnfAnd_nocol pks cs, dnfOr_nocol pks cs]
theorem dnfAnd_nocol (pks : List (PubAttr G1 G2 Gt)) : ∀ cs terms i r,
    dnfAnd pks (PolicyValue.noColL cs) terms i r = dnfAnd pks cs terms i r
  | [], terms, i, r => by simp [PolicyValue.noColL]
  | c :: cs, terms, i, r => by simp [PolicyValue.noColL, dnfAnd, dnf_nocol pks c, dnfAnd_nocol pks cs]
theorem dnfOr_nocol (pks : List (PubAttr G1 G2 Gt)) : ∀ cs terms i r,
    dnfOr pks (PolicyValue.noColL cs) terms i r = dnfOr pks cs terms i r
  | [], terms, i, r => by simp [PolicyValue.noColL]
  | c :: cs, terms, i, r => by simp [PolicyValue.noColL, dnfOr, dnf_nocol pks c, dnfOr_nocol pks cs]
end

/-- The result of `calcPruned` without columns. -/
def namesOf (r : Bool × List (Str × Str)) : Bool × List Str := (r.1, r.2.map Prod.fst)

/-- `Res.map` of this development for statements. -/
def Res.to {α β : Type} (f : α → β) : Res α → Res β
  | .ok a => .ok (f a)
  | .err => .err
  | .panic => .panic

mutual
theorem pruned_nocol (attr : List Str) : ∀ v ty,
    (calcPruned attr v.noCol ty).to namesOf = (calcPruned attr v ty).to namesOf
  | .str n c, ty => by
    simp only [PolicyValue.noCol, calcPruned]
    split <;> simp [Res.to, namesOf]
  | .object t v, ty => by
    simp only [PolicyValue.noCol, calcPruned]
    cases t <;> exact pruned_nocol attr v _
  | .array cs, ty => by
    simp only [PolicyValue.noCol, calcPruned, noColL_length]
    rcases ty with _ | (_ | _ | _)
    · rfl
    all_goals try rfl
    all_goals
      dsimp only
      split
      · first
        | exact prunedAnd_nocol attr cs _ _ _ rfl
        | exact prunedOr_nocol attr cs _ _ rfl
      · rfl
theorem prunedAnd_nocol (attr : List Str) : ∀ cs m acc acc', acc.map Prod.fst = acc'.map Prod.fst →
    (prunedAnd attr (PolicyValue.noColL cs) m acc).to namesOf = (prunedAnd attr cs m acc').to namesOf
  | [], m, acc, acc', h => by
    simp only [PolicyValue.noColL, prunedAnd, Res.to, namesOf]
    cases m <;> simp [h]
  | c :: cs, m, acc, acc', h => by
    have h1 := pruned_nocol attr c none
    simp only [PolicyValue.noColL, prunedAnd]
    rcases ha : calcPruned attr c.noCol none with ⟨a, l⟩ | _ | _ <;>
      rcases hb : calcPruned attr c none with ⟨b, l'⟩ | _ | _ <;> rw [ha, hb] at h1 <;>
      simp only [Res.to, namesOf, Res.ok.injEq, Prod.mk.injEq, reduceCtorEq] at h1
    · obtain ⟨rfl, h2⟩ := h1
      refine prunedAnd_nocol attr cs _ _ _ ?_
      split <;> simp [h, h2]
    · rfl
    · rfl
theorem prunedOr_nocol (attr : List Str) : ∀ cs acc acc', acc.map Prod.fst = acc'.map Prod.fst →
    (prunedOr attr (PolicyValue.noColL cs) acc).to namesOf = (prunedOr attr cs acc').to namesOf
  | [], acc, acc', h => by simp [PolicyValue.noColL, prunedOr, Res.to, namesOf, h]
  | c :: cs, acc, acc', h => by
    have h1 := pruned_nocol attr c none
    simp only [PolicyValue.noColL, prunedOr]
    rcases ha : calcPruned attr c.noCol none with ⟨a, l⟩ | _ | _ <;>
      rcases hb : calcPruned attr c none with ⟨b, l'⟩ | _ | _ <;> rw [ha, hb] at h1 <;>
      simp only [Res.to, namesOf, Res.ok.injEq, Prod.mk.injEq, reduceCtorEq] at h1
    · obtain ⟨rfl, h2⟩ := h1
      show Res.to namesOf (if a = true then _ else _) = Res.to namesOf (if a = true then _ else _)
      split
      · simp [Res.to, namesOf, h, h2]
      · exact prunedOr_nocol attr cs _ _ h
    · rfl
    · rfl
end

end Rabe
