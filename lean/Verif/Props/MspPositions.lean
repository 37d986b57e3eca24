import Verif.Props.Msp
import Verif.Proof.Selection

/-!
# C15 by position

`C15_span_program_complete` matches rows with leaves by name and column and so assumes that these differ. Here rows are
matched with the leaves by position, for every policy text the conversion accepts.
-/

namespace Rabe

open Pol

theorem map_marked {α β : Type} (f : α → β) : ∀ (bs : List Bool) (xs : List α), (marked bs xs).map f = marked bs (xs.map f)
  | [], _ => by simp [marked]
  | _ :: _, [] => by simp [marked]
  | b :: bs, x :: xs => by
    have := map_marked f bs xs
    cases b <;> simp [marked] at this ⊢ <;> exact this

/-- The rows of a minimal authorised selection of leaves add up to the vector of the tree. -/
theorem sel_sum : ∀ p : Pol, p.Binary → ∀ bs, Sel p bs → ∀ v c, (marked bs (mrows p v c)).sum = v := by
  intro p
  induction p using Pol.ind with
  | hl n k =>
    intro _ bs h v c
    simp only [Sel] at h
    subst h
    simp [mrows, marked]
  | hg op cs ih =>
    intro hb bs h v c
    simp only [Pol.Binary, Pol.arity_gate] at hb
    cases op with
    | or =>
      simp only [Sel] at h
      simp only [mrows]
      have hb2 := hb.2
      clear hb
      induction cs generalizing bs c with
      | nil => exact h.elim
      | cons d ds ihd =>
        obtain ⟨b1, b2, rfl, h⟩ := h
        have hl := mrows_length d (hb2 d (by simp)) v c
        simp only [mrowsOr]
        rcases h with ⟨h1, rfl⟩ | ⟨rfl, h2⟩
        · rw [marked_append (by rw [hl, sel_length d b1 h1]), marked_false, List.append_nil]
          exact ih d (by simp) (hb2 d (by simp)) b1 h1 v c
        · rw [marked_append (by rw [hl, List.length_replicate]), marked_false, List.nil_append]
          exact ihd (fun e he => ih e (by simp [he])) b2 _ h2 fun e he => hb2 e (by simp [he])
    | and =>
      obtain ⟨a, b, rfl⟩ := List.length_eq_two.1 hb.1
      obtain ⟨_, b1, b2, rfl, h1, b3, b4, rfl, h3, h4⟩ := h
      have hba := hb.2 a (by simp)
      have hbb := hb.2 b (by simp)
      simp only [SelAll] at h4
      subst h4
      simp only [mrows, mrowsAnd, List.append_nil]
      rw [marked_append (by rw [mrows_length a hba, sel_length a b1 h1]), List.sum_append,
        ih a (by simp) hba b1 h1, ih b (by simp) hbb b3 h3]
      funext j
      simp only [Pi.add_apply, evec]
      split <;> simp

/-- **C15**, for every policy text the conversion accepts, also when two leaves have the same name and column: the matrix
has one row for each leaf, labelled with its name, such that the rows of every minimal authorised selection of leaves add
up to `(1, 0, …, 0)`; and pruning with satisfying attributes selects the leaves of such a selection. -/
theorem C15_span_program_positions (text : Str) (lang : PolicyLanguage) (msp : AbePolicy)
    (h : AbePolicy.fromLanguage text lang = .ok msp) :
    ∃ p, Denotes text lang p ∧ ∃ rows : List (List ℤ), rows.length = p.leaves.length ∧
      (msp.pi.zip msp.m).Perm (p.names.zip rows) ∧
      (∀ bs, p.Sel bs → ∀ j, j < msp.c → ((marked bs rows).map fun r => r.getD j 0).sum = if j = 0 then 1 else 0) ∧
      ∀ A, p.sat A = true → ∃ bs, p.Sel bs ∧
        calcPruned A p.toValue none = .ok (true, (marked bs p.leaves).map fun l => (l.1, nodeIndex l.1 l.2)) := by
  obtain ⟨p, hp, hb, hm⟩ := fromLanguage_ok h
  obtain ⟨msp', R, hm', hc, hR, hRl, hperm, _⟩ := calculateMsp_eq p hb
  rw [hm] at hm'
  obtain rfl := Res.ok.inj hm'
  refine ⟨p, hp, R, ?_, hperm, fun bs hbs j _ => ?_, fun A hA => ?_⟩
  · have := congrArg List.length hR
    rwa [List.length_map, mrows_length p hb] at this
  · have hs := sel_sum p hb bs hbs (evec 0 1) 1
    rw [← hR, ← map_marked] at hs
    have := congrFun hs j
    rw [show (if j = 0 then (1 : ℤ) else 0) = evec 0 1 j from rfl, ← this]
    generalize marked bs R = L
    induction L with
    | nil => simp
    | cons l L ih => simp only [List.map_cons, List.sum_cons, Pi.add_apply, ih]; rfl
  · obtain ⟨bs, hbs, hpick⟩ := pick_sel A p (Pol.Arity.mono (fun _ _ h => by omega) p hb.wide) hA
    refine ⟨bs, hbs, ?_⟩
    rw [calcPruned_eq A p hb.wide, hA, hpick]; rfl

/-- A text with two leaves of the same name and column: its span program and a minimal selection of the second half. -/
example : (∃ p, Denotes (chars% "(\"A\" and \"B\")\nor\n(\"A\" and \"C\")") .human p ∧ ¬ p.leaves.Nodup ∧
      p.Sel [false, false, true, true]) ∧
    AbePolicy.fromLanguage (chars% "(\"A\" and \"B\")\nor\n(\"A\" and \"C\")") .human =
      .ok ⟨[[1, 0, 1], [1, 1, 0], [0, -1, 0], [0, 0, -1]], [['A'], ['A'], ['B'], ['C']], 3⟩ := by
  refine ⟨⟨.gate .or [.gate .and [.leaf ['A'] 3, .leaf ['B'] 11], .gate .and [.leaf ['A'] 3, .leaf ['C'] 11]], rfl,
    by simp, ?_⟩, rfl⟩
  refine ⟨[false, false], [true, true], rfl, Or.inr ⟨rfl, [true, true], [], rfl, Or.inl ⟨⟨by simp, ?_⟩, rfl⟩⟩⟩
  exact ⟨[true], [true], rfl, rfl, [true], [], rfl, rfl, rfl⟩

end Rabe
