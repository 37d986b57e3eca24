import Verif.Model.CommandLine
import Mathlib.Data.List.Nodup

/-!
# Lemmas about the reader of command lines
-/

namespace Rabe.Console

theorem give_self (g : Given) (a : Arg) (v : Str) : give g a v a = g a ++ [v] := by simp [give]

theorem give_ne (g : Given) {a b : Arg} (v : Str) (h : b ≠ a) : give g a v b = g b := by simp [give, h]

/-- Arguments in this order have values without gaps, and nothing follows one with several values. -/
def FilledL (multi : Arg → Bool) (g : Given) : List Arg → Prop
  | [] => True
  | a :: as => (g a = [] ∨ multi a = true → ∀ b ∈ as, g b = []) ∧ FilledL multi g as

theorem filledL_of_nil {multi : Arg → Bool} {g : Given} : ∀ {as : List Arg}, (∀ b ∈ as, g b = []) → FilledL multi g as
  | [], _ => trivial
  | _ :: _, h => ⟨fun _ b hb => h b (List.mem_cons_of_mem _ hb), filledL_of_nil fun b hb => h b (List.mem_cons_of_mem _ hb)⟩

theorem filledL_split {multi : Arg → Bool} {g : Given} : ∀ {done free : List Arg},
    (∀ a ∈ done, g a ≠ [] ∧ multi a = false) → (∀ b ∈ free.tail, g b = []) → FilledL multi g (done ++ free)
  | [], [], _, _ => trivial
  | [], _ :: _, _, hf => ⟨fun _ => hf, filledL_of_nil hf⟩
  | a :: done, free, hd, hf => by
    refine ⟨fun h => ?_, filledL_split (fun b hb => hd b (List.mem_cons_of_mem _ hb)) hf⟩
    obtain ⟨h1, h2⟩ := hd a List.mem_cons_self
    rcases h with h | h
    · exact absurd h h1
    · rw [h2] at h; cases h

/-- What holds while the words of a subcommand are read. -/
structure Inv (cmd : Cmd) (st : Reading) : Prop where
  declared : ∀ a, a ∉ positionals cmd → lastArg cmd ≠ some a → ¬ (cmd = .keygen ∧ a = .attributes) → st.given a = []
  pending : ∀ a, st.pending = some a → cmd = .keygen ∧ a = .attributes ∧ st.given a = []
  single : ∀ a, isMultiple cmd a = false → (st.given a).length ≤ 1
  plain : cmd = .setup → ∀ a ∈ positionals .setup, ∀ v ∈ st.given a, isOption v = false
  filled : FilledL (isMultiple cmd) st.given (positionals cmd)
  free : (st.trailing = true ∧ ∃ a, lastArg cmd = some a ∧ st.free = [a]) ∨
    ((st.trailing = false ∨ lastArg cmd = none) ∧ ∃ done, positionals cmd = done ++ st.free ∧
      (∀ a ∈ done, st.given a ≠ [] ∧ isMultiple cmd a = false) ∧
      (∀ a as, st.free = a :: as → st.given a = [] ∨ isMultiple cmd a = true) ∧ ∀ b ∈ st.free.tail, st.given b = [])

theorem positionals_nodup (cmd : Cmd) : (positionals cmd).Nodup := by cases cmd <;> decide

theorem positionals_keygen : Arg.attributes ∉ positionals .keygen := by decide

theorem lastArg_some {cmd : Cmd} {a : Arg} (h : lastArg cmd = some a) :
    cmd = .setup ∧ a = .attributes ∧ a ∉ positionals cmd ∧ isMultiple cmd a = true := by
  cases cmd <;> simp [lastArg] at h
  subst h
  exact ⟨rfl, rfl, by decide, rfl⟩

theorem longArg_some {cmd : Cmd} {n : Str} {a : Arg} (h : longArg cmd n = some a) : cmd = .keygen ∧ a = .attributes := by
  unfold longArg at h
  split at h
  · rename_i hc; cases h; exact ⟨hc.1, rfl⟩
  · cases h

theorem inv_init (cmd : Cmd) :
    Inv cmd { free := positionals cmd, trailing := false, pending := none, given := fun _ => [] } where
  declared _ _ _ _ := rfl
  pending _ h := by cases h
  single _ _ := by simp
  plain _ _ _ _ hv := by cases hv
  filled := filledL_of_nil fun _ _ => rfl
  free := Or.inr ⟨Or.inl rfl, [], rfl, by simp, fun _ _ _ => Or.inl rfl, fun _ _ => rfl⟩

/-- Giving a value to the option of `keygen` does not disturb the rest. -/
theorem inv_long {cmd : Cmd} {st : Reading} (h : Inv cmd st) (hc : cmd = .keygen) (hg : st.given .attributes = []) (v : Str)
    (p : Option Arg) (hp : p = none) : Inv cmd { st with pending := p, given := give st.given .attributes v } := by
  subst hc hp
  have hne : ∀ a ∈ positionals .keygen, give st.given .attributes v a = st.given a := fun a ha =>
    give_ne _ _ fun e => positionals_keygen (e ▸ ha)
  refine ⟨?_, by simp, ?_, by simp, ?_, ?_⟩
  · intro a h1 h2 h3
    have : a ≠ .attributes := fun e => h3 ⟨rfl, e⟩
    exact (give_ne _ _ this).trans (h.declared a h1 h2 h3)
  · intro a ha
    by_cases e : a = .attributes
    · subst e; simp [give_self, hg]
    · simp only [give_ne _ _ e]; exact h.single a ha
  · refine ?_
    have hf := h.filled
    revert hf hne
    generalize positionals .keygen = ps
    intro hne
    induction ps with
    | nil => exact fun _ => trivial
    | cons a as ih =>
      intro hf
      refine ⟨fun h1 b hb => ?_, ih (fun b hb => hne b (List.mem_cons_of_mem _ hb)) hf.2⟩
      dsimp only at h1 ⊢
      rw [hne b (List.mem_cons_of_mem _ hb)]
      rw [hne a List.mem_cons_self] at h1
      exact hf.1 h1 b hb
  · rcases h.free with ⟨-, a, ha, -⟩ | ⟨-, done, h1, h2, h3, h4⟩
    · cases ha
    · have hd : ∀ a ∈ done, give st.given .attributes v a = st.given a := fun a ha => hne a (h1 ▸ List.mem_append_left _ ha)
      have hf : ∀ a ∈ st.free, give st.given .attributes v a = st.given a :=
        fun a ha => hne a (h1 ▸ List.mem_append_right _ ha)
      refine Or.inr ⟨Or.inr rfl, done, h1, ?_, ?_, ?_⟩
      · intro a ha; simp only [hd a ha]; exact h2 a ha
      · intro a as e; simp only [hf a (e ▸ List.mem_cons_self)]; exact h3 a as e
      · intro b hb; simp only [hf b (List.mem_of_mem_tail hb)]; exact h4 b hb

theorem inv_plain {cmd : Cmd} {st st' : Reading} {w : Str} (h : Inv cmd st) (hpend : st.pending = none)
    (hw : st.trailing = true ∨ isOption w = false) (hs : readPlain cmd st w = some st') : Inv cmd st' := by
  unfold readPlain at hs
  cases hfr : st.free with
  | nil => rw [hfr] at hs; cases hs
  | cons a as =>
    rw [hfr] at hs
    cases hs
    rcases h.free with ⟨ht, b, hb, hfb⟩ | ⟨ht, done, h1, h2, h3, h4⟩
    · -- the words after `--` of `setup`
      rw [hfr] at hfb
      cases hfb
      obtain ⟨rfl, rfl, hnp, hm⟩ := lastArg_some hb
      have hne : ∀ x ∈ positionals .setup, give st.given .attributes w x = st.given x := fun x hx =>
        give_ne _ _ fun e => hnp (e ▸ hx)
      refine ⟨?_, fun x hx => ?_, ?_, ?_, ?_, ?_⟩
      · intro x h5 h6 h7
        have : x ≠ .attributes := fun e => h6 (e ▸ hb)
        exact (give_ne _ _ this).trans (h.declared x h5 h6 h7)
      · rw [hpend] at hx; cases hx
      · intro x hx
        by_cases e : x = .attributes
        · subst e; rw [hm] at hx; cases hx
        · simp only [give_ne _ _ e]; exact h.single x hx
      · intro _ x hx v hv
        dsimp only at hv
        rw [hne x hx] at hv
        exact h.plain rfl x hx v hv
      · have h1 := hne .msk (by decide)
        have h2 := hne .pk (by decide)
        have h3 := hne .gp (by decide)
        have hf := h.filled
        simp only [positionals, FilledL, List.mem_cons, List.not_mem_nil, or_false, forall_eq_or_imp, forall_eq, h1, h2, h3,
          false_imp_iff, implies_true] at hf ⊢
        exact hf
      · refine Or.inl ⟨ht, .attributes, hb, ?_⟩
        simp [hm]
    · rw [hfr] at h1
      have hnd := positionals_nodup cmd
      rw [h1] at hnd
      have hnd2 := (List.nodup_append.1 hnd).2.1
      have hdisj := (List.nodup_append.1 hnd).2.2
      have haas : a ∉ as := (List.nodup_cons.1 hnd2).1
      have hdone : ∀ x ∈ done, give st.given a w x = st.given x := fun x hx =>
        give_ne _ _ fun e => hdisj x hx a List.mem_cons_self e
      have hasg : ∀ x ∈ as, give st.given a w x = st.given x := fun x hx => give_ne _ _ fun e => haas (e ▸ hx)
      have ha : a ∈ positionals cmd := by rw [h1]; simp
      have h3a := h3 a as hfr
      have htail : ∀ x ∈ as, st.given x = [] := by simpa [hfr] using h4
      have hnew : FilledL (isMultiple cmd) (give st.given a w) (positionals cmd) := by
        rw [h1]
        refine filledL_split (fun x hx => by rw [hdone x hx]; exact h2 x hx) ?_
        intro x hx
        have hx' : x ∈ as := hx
        rw [hasg x hx']; exact htail x hx'
      refine ⟨?_, fun x hx => ?_, ?_, ?_, hnew, ?_⟩
      · intro x h5 h6 h7
        have : x ≠ a := fun e => h5 (e ▸ ha)
        exact (give_ne _ _ this).trans (h.declared x h5 h6 h7)
      · rw [hpend] at hx; cases hx
      · intro x hx
        by_cases e : x = a
        · subst e
          rcases h3a with e | e
          · simp [give_self, e]
          · rw [e] at hx; cases hx
        · simp only [give_ne _ _ e]; exact h.single x hx
      · intro hc x hx v hv
        by_cases e : x = a
        · subst e
          simp only [give_self, List.mem_append, List.mem_singleton] at hv
          rcases hv with hv | rfl
          · exact h.plain hc x hx v hv
          · rcases hw with hw | hw
            · rcases ht with ht | ht
              · rw [ht] at hw; cases hw
              · subst hc; cases ht
            · exact hw
        · simp only [give_ne _ _ e] at hv
          exact h.plain hc x hx v hv
      · refine Or.inr ⟨ht, ?_⟩
        dsimp only
        by_cases hm : isMultiple cmd a = true
        · refine ⟨done, by simpa [hm] using h1, ?_, ?_, ?_⟩
          · intro x hx; rw [hdone x hx]; exact h2 x hx
          · intro x xs hx
            simp only [hm, if_true, List.cons.injEq] at hx
            exact Or.inr (hx.1 ▸ hm)
          · simp only [hm, if_true, List.tail_cons]
            intro x hx; rw [hasg x hx]; exact htail x hx
        · have hm' : isMultiple cmd a = false := by simpa using hm
          refine ⟨done ++ [a], by simpa [hm'] using h1, ?_, ?_, ?_⟩
          · intro x hx
            rcases List.mem_append.1 hx with hx | hx
            · rw [hdone x hx]; exact h2 x hx
            · rw [List.mem_singleton] at hx
              subst hx
              exact ⟨by simp [give_self], hm'⟩
          · intro x xs hx
            simp only [hm', Bool.false_eq_true, if_false] at hx
            have : x ∈ as := hx ▸ List.mem_cons_self
            rw [hasg x this]; exact Or.inl (htail x this)
          · simp only [hm', Bool.false_eq_true, if_false]
            intro x hx
            rw [hasg x (List.mem_of_mem_tail hx)]; exact htail x (List.mem_of_mem_tail hx)

theorem inv_word {cmd : Cmd} {st st' : Reading} {w : Str} (h : Inv cmd st) (hs : readWord cmd st w = some st') : Inv cmd st' := by
  unfold readWord at hs
  cases hp : st.pending with
  | some a =>
    rw [hp] at hs
    dsimp only at hs
    split at hs
    · cases hs
    · cases hs
      obtain ⟨h1, rfl, h3⟩ := h.pending a hp
      exact inv_long h h1 h3 w none rfl
  | none =>
    rw [hp] at hs
    dsimp only at hs
    split at hs
    · rename_i hw
      exact inv_plain h hp hw hs
    · rename_i hw
      split at hs
      · cases hs
        cases hl : lastArg cmd with
        | none =>
          refine ⟨h.declared, fun a ha => ?_, h.single, h.plain, h.filled, ?_⟩
          · cases ha
          · rcases h.free with ⟨-, a, ha, -⟩ | ⟨-, hd⟩
            · rw [hl] at ha; cases ha
            · exact Or.inr ⟨Or.inr hl, hd⟩
        | some a => exact ⟨h.declared, fun a ha => (by cases ha), h.single, h.plain, h.filled, Or.inl ⟨rfl, a, hl, rfl⟩⟩
      · split at hs
        · rename_i r
          split at hs
          · cases hs
          · rename_i a hl
            obtain ⟨hc, rfl⟩ := longArg_some hl
            split at hs
            · cases hs
            · rename_i hg
              have hg' : st.given .attributes = [] := by simpa using hg
              split at hs
              · rename_i v _
                cases hs
                exact inv_long h hc hg' v none rfl
              · cases hs
                exact ⟨h.declared, fun a ha => by cases ha; exact ⟨hc, rfl, hg'⟩, h.single, h.plain, h.filled, h.free⟩
        · cases hs

theorem inv_words {cmd : Cmd} : ∀ {ws : List Str} {st st' : Reading}, Inv cmd st → ws.foldlM (readWord cmd) st = some st' →
    Inv cmd st'
  | [], _, _, h, hs => by cases hs; exact h
  | w :: ws, st, st', h, hs => by
    rw [List.foldlM_cons] at hs
    cases hw : readWord cmd st w with
    | none => rw [hw] at hs; cases hs
    | some st1 =>
      rw [hw] at hs
      exact inv_words (inv_word h hw) hs

/-- Words without the meaning of an option go to the free arguments in turn. -/
theorem run_plain (cmd : Cmd) (g : Given) : ∀ (ps : List Arg) (st : Reading), st.free = ps → st.pending = none → ps.Nodup →
    (∀ a ∈ ps, st.given a = []) → FilledL (isMultiple cmd) g ps →
    (∀ a ∈ ps, isMultiple cmd a = false → (g a).length ≤ 1) →
    (∀ a ∈ ps, ∀ v ∈ g a, st.trailing = true ∨ isOption v = false) →
    ∃ fr, (ps.flatMap g).foldlM (readWord cmd) st =
      some { st with free := fr, given := fun x => if x ∈ ps then g x else st.given x }
  | [], st, _, _, _, _, _, _, _ => ⟨st.free, by simp⟩
  | a :: as, st, hfr, hpend, hnd, hnil, hfill, hlen, hopt => by
    have haas := (List.nodup_cons.1 hnd).1
    have hstep : ∀ (s : Reading) (v : Str), v ∈ g a → s.free = a :: as → s.pending = none → s.trailing = st.trailing →
        readWord cmd s v = some { s with free := if isMultiple cmd a then a :: as else as, given := give s.given a v } := by
      intro s v hv h1 h2 h3
      unfold readWord
      rw [h2]
      dsimp only
      rw [if_pos (by rw [h3]; exact hopt a List.mem_cons_self v hv)]
      unfold readPlain
      simp only [h1, h2]
    by_cases hm : isMultiple cmd a = true
    · -- all the values go to this argument
      have hlater : ∀ b ∈ as, g b = [] := hfill.1 (Or.inr hm)
      have hflat : (a :: as).flatMap g = g a := by
        rw [List.flatMap_cons, List.flatMap_eq_nil_iff.2 hlater, List.append_nil]
      rw [hflat]
      have key : ∀ (vs : List Str) (s : Reading), (∀ v ∈ vs, v ∈ g a) → s.free = a :: as → s.pending = none →
          s.trailing = st.trailing → vs.foldlM (readWord cmd) s =
            some { s with given := fun x => if x = a then s.given x ++ vs else s.given x } := by
        intro vs
        induction vs with
        | nil => intro s _ _ _ _; simp
        | cons v vs ih =>
          intro s hv h1 h2 h3
          rw [List.foldlM_cons, hstep s v (hv v List.mem_cons_self) h1 h2 h3]
          dsimp only [Option.bind_eq_bind, Option.bind_some]
          rw [ih { s with free := if isMultiple cmd a = true then a :: as else as, given := give s.given a v }
            (fun x hx => hv x (List.mem_cons_of_mem _ hx)) (by simp [hm]) h2 h3]
          simp only [hm, if_true, Option.some.injEq, Reading.mk.injEq, h1, true_and]
          funext x
          by_cases e : x = a
          · subst e; simp [give_self]
          · simp [e, give_ne]
      refine ⟨a :: as, ?_⟩
      rw [key (g a) st (fun v hv => hv) hfr hpend rfl]
      simp only [Option.some.injEq, Reading.mk.injEq, hfr, true_and]
      funext x
      by_cases e : x = a
      · subst e; simp [hnil]
      · by_cases e2 : x ∈ as
        · simp [e, e2, hlater x e2, hnil x (List.mem_cons_of_mem _ e2)]
        · simp [e, e2]
    · have hm' : isMultiple cmd a = false := by simpa using hm
      have hl := hlen a List.mem_cons_self hm'
      cases hga : g a with
      | nil =>
        have hlater : ∀ b ∈ as, g b = [] := hfill.1 (Or.inl hga)
        have hflat : (a :: as).flatMap g = [] := by
          rw [List.flatMap_cons, List.flatMap_eq_nil_iff.2 hlater, hga]; rfl
        refine ⟨st.free, ?_⟩
        rw [hflat]
        have hgv : st.given = fun x => if x ∈ a :: as then g x else st.given x := by
          funext x
          by_cases e : x ∈ a :: as
          · rw [if_pos e, hnil x e]
            rcases List.mem_cons.1 e with rfl | e
            · exact hga.symm
            · exact (hlater x e).symm
          · rw [if_neg e]
        rw [List.foldlM_nil]
        congr 1
        rw [← hgv]
      | cons v vs =>
        have hvs : vs = [] := by
          rw [hga] at hl
          simpa using hl
        subst hvs
        obtain ⟨fr, hr⟩ := run_plain cmd g as { st with free := as, given := give st.given a v } rfl hpend
          (List.nodup_cons.1 hnd).2
          (fun b hb => by
            have : b ≠ a := fun e => haas (e ▸ hb)
            simp only [give_ne _ _ this]
            exact hnil b (List.mem_cons_of_mem _ hb))
          hfill.2 (fun b hb => hlen b (List.mem_cons_of_mem _ hb)) (fun b hb => hopt b (List.mem_cons_of_mem _ hb))
        refine ⟨fr, ?_⟩
        rw [List.flatMap_cons, hga, List.singleton_append, List.foldlM_cons,
          hstep st v (by rw [hga]; exact List.mem_cons_self) hfr hpend rfl]
        dsimp only [Option.bind_eq_bind, Option.bind_some]
        simp only [hm', Bool.false_eq_true, if_false]
        rw [hr]
        simp only [Option.some.injEq, Reading.mk.injEq, true_and]
        funext x
        by_cases e : x = a
        · subst e
          simp [haas, give_self, hnil, hga]
        · by_cases e2 : x ∈ as
          · simp [e2]
          · simp [e, e2, give_ne]

end Rabe.Console
