import Verif.Model.FfiHeap
import Verif.Props.Ffi
import Verif.Props.Outcome

/-!
# C94: the objects of the C interface

Programs that call the functions of `/repo/src/ffi/bsw.rs` in any order, with any arguments. A program sees pointers only in
the answers of earlier calls; `Live` says, from the calls and answers alone, which pointers it may still use for what.
-/

namespace Rabe
namespace Bsw

variable {F G1 G2 Gt : Type}

/-- The pointer that a call hands to the program, with its type. -/
def gives : FfiOp → FfiAnswer → Option (FfiKind × ℕ)
  | .create, .pointer p => some (.context, p)
  | .keygen _ _, .pointer p => some (.key, p)
  | .delegate _ _ _, .pointer p => some (.key, p)
  | .encrypt _ _ _ _, .stored p _ => some (.buffer, p)
  | .decrypt _ _ _, .stored p _ => some (.buffer, p)
  | _, _ => none

/-- The pointer that a call releases. -/
def releases : FfiOp → Option ℕ
  | .contextDestroy p => some p
  | .keygenDestroy p => some p
  | .free p => some p
  | _ => none

/-- What the program knows: the calls it made, with their answers, the oldest first. -/
abbrev History := List (FfiOp × FfiAnswer)

/-- The pointer was handed out with this type and has not been released since. -/
def Live (k : FfiKind) (p : ℕ) (hist : History) : Prop :=
  ∃ before e after, hist = before ++ e :: after ∧ gives e.1 e.2 = some (k, p) ∧ ∀ e' ∈ after, releases e'.1 ≠ some p

theorem live_nil {k : FfiKind} {p : ℕ} : ¬ Live k p [] := by
  rintro ⟨b, e, a, h, _⟩
  simp at h

theorem live_snoc {k : FfiKind} {p : ℕ} {hist : History} {e : FfiOp × FfiAnswer} :
    Live k p (hist ++ [e]) ↔ gives e.1 e.2 = some (k, p) ∨ (Live k p hist ∧ releases e.1 ≠ some p) := by
  constructor
  · rintro ⟨b, x, a, h, hg, hr⟩
    rcases List.eq_nil_or_concat a with rfl | ⟨a', y, rfl⟩
    · have h' := List.append_inj' h rfl
      simp only [List.cons.injEq, and_true] at h'
      exact .inl (h'.2 ▸ hg)
    · rw [List.concat_eq_append, ← List.cons_append, ← List.append_assoc] at h
      have h' := List.append_inj' h rfl
      simp only [List.cons.injEq, and_true] at h'
      refine .inr ⟨⟨b, x, a', h'.1, hg, fun e' he' => hr e' (by simp [he'])⟩, ?_⟩
      rw [h'.2]
      exact hr y (by simp)
  · rintro (hg | ⟨⟨b, x, a, rfl, hg, hr⟩, hrel⟩)
    · exact ⟨hist, e, [], rfl, hg, by simp⟩
    · refine ⟨b, x, a ++ [e], by simp, hg, fun e' he' => ?_⟩
      rcases List.mem_append.1 he' with h | h
      · exact hr e' h
      · rw [List.mem_singleton.1 h]; exact hrel

variable [Field F] [DecidableEq F] [AddCommGroup G1] [Module F G1]
  [AddCommGroup G2] [Module F G2] [AddCommGroup Gt] [Module F Gt]

namespace FfiHeap

variable {h : FfiHeap F G1 G2 Gt} {p q : ℕ} {o : FfiObj F G1 G2 Gt}

omit [Field F] [DecidableEq F] [AddCommGroup G1] [Module F G1] [AddCommGroup G2] [Module F G2] [AddCommGroup Gt]
  [Module F Gt] in
theorem get_cons : FfiHeap.get ((p, o) :: h) q = if q = p then some o else h.get q := by
  unfold FfiHeap.get
  rw [List.lookup_cons]
  by_cases e : q = p
  · simp [e]
  · simp [e, beq_false_of_ne e]

omit [Field F] [DecidableEq F] [AddCommGroup G1] [Module F G1] [AddCommGroup G2] [Module F G2] [AddCommGroup Gt]
  [Module F Gt] in
theorem get_release : (h.release p).get q = if q = p then none else h.get q := by
  induction h with
  | nil => simp [FfiHeap.release, FfiHeap.get]
  | cons e h ih =>
    obtain ⟨a, o⟩ := e
    unfold FfiHeap.release at ih ⊢
    rw [List.filter_cons]
    by_cases ha : a = p
    · subst ha
      simp only [ne_eq, not_true, decide_false, Bool.false_eq_true, if_false]
      rw [ih, get_cons]
      by_cases hq : q = a <;> simp [hq]
    · simp only [ne_eq, ha, not_false_iff, decide_true, if_true]
      rw [get_cons, get_cons, ih]
      by_cases hq : q = p
      · subst hq; simp [Ne.symm ha]
      · simp [hq]

omit [Field F] [DecidableEq F] [AddCommGroup G1] [Module F G1] [AddCommGroup G2] [Module F G2] [AddCommGroup Gt]
  [Module F Gt] in
theorem get_eq_none : h.get p = none ↔ p ∉ h.used := by
  induction h with
  | nil => simp [FfiHeap.get, FfiHeap.used]
  | cons e h ih =>
    obtain ⟨a, o⟩ := e
    rw [get_cons]
    simp only [FfiHeap.used, List.map_cons, List.mem_cons, not_or] at ih ⊢
    by_cases hq : p = a <;> simp [hq, ih]

omit [Field F] [DecidableEq F] [AddCommGroup G1] [Module F G1] [AddCommGroup G2] [Module F G2] [AddCommGroup Gt]
  [Module F Gt] in
theorem get_pick (al : FfiAllocator) : h.get (al.pick h.used) = none := get_eq_none.2 (al.fresh _)

omit [Field F] [DecidableEq F] [AddCommGroup G1] [Module F G1] [AddCommGroup G2] [Module F G2] [AddCommGroup Gt]
  [Module F Gt] in
theorem context_eq {c : Context F G1 G2 Gt} : h.context p = .ok c ↔ h.get p = some (.context c) := by
  unfold FfiHeap.context
  cases h.get p with
  | none => simp
  | some o => cases o <;> simp

omit [Field F] [DecidableEq F] [AddCommGroup G1] [Module F G1] [AddCommGroup G2] [Module F G2] [AddCommGroup Gt]
  [Module F Gt] in
theorem key_eq {sk : SecretKey G1 G2} : h.key p = .ok sk ↔ h.get p = some (.key sk) := by
  unfold FfiHeap.key
  cases h.get p with
  | none => simp
  | some o => cases o <;> simp

omit [Field F] [DecidableEq F] [AddCommGroup G1] [Module F G1] [AddCommGroup G2] [Module F G2] [AddCommGroup Gt]
  [Module F Gt] in
theorem buffer_eq {b : Bytes} : h.buffer p = .ok b ↔ h.get p = some (.buffer b) := by
  unfold FfiHeap.buffer
  cases h.get p with
  | none => simp
  | some o => cases o <;> simp

end FfiHeap

variable {env : Env F G1 G2 Gt} {js : JsonCodec (Ciphertext G1 G2 Gt)} {checks : Bool} {al : FfiAllocator}

theorem Mem.bind_eq_ok {α β : Type} {m : Mem α} {f : α → Mem β} {b : β} :
    (m >>= f) = .ok b ↔ ∃ a, m = .ok a ∧ f a = .ok b := by
  cases m <;> simp [bind, Mem.bind]

/-- What a call that returns does to the memory: nothing, it adds one object at a new address and hands out its pointer, or
it removes one object. -/
theorem step_cases {op : FfiOp} {t : Tape F G1 G2 Gt} {h h' : FfiHeap F G1 G2 Gt} {a : FfiAnswer}
    (hs : ffiStep env js checks al op t h = .ok (a, h')) :
    (gives op a = none ∧ releases op = none ∧ h' = h) ∨
    (∃ k p o, gives op a = some (k, p) ∧ releases op = none ∧ FfiObj.kind o = k ∧ h.get p = none ∧ h' = (p, o) :: h) ∨
    (∃ p o, gives op a = none ∧ releases op = some p ∧ h.get p = some o ∧ h' = h.release p) := by
  cases op with
  | create =>
    simp only [ffiStep, Mem.bind_eq_ok, Mem.pure_eq, Mem.ok.injEq, Prod.mk.injEq] at hs
    obtain ⟨c, hc, rfl, rfl⟩ := hs
    exact .inr (.inl ⟨_, _, _, rfl, rfl, rfl, FfiHeap.get_pick al, rfl⟩)
  | contextDestroy p =>
    simp only [ffiStep, Mem.bind_eq_ok, Mem.pure_eq, Mem.ok.injEq, Prod.mk.injEq] at hs
    obtain ⟨c, hc, rfl, rfl⟩ := hs
    exact .inr (.inr ⟨p, _, rfl, rfl, FfiHeap.context_eq.1 hc, rfl⟩)
  | keygen p attributes =>
    simp only [ffiStep, Mem.bind_eq_ok, Mem.pure_eq, Mem.ok.injEq, Prod.mk.injEq] at hs
    obtain ⟨r, _, b, _, s, _, c, _, sk, _, rfl, rfl⟩ := hs
    exact .inr (.inl ⟨_, _, _, rfl, rfl, rfl, FfiHeap.get_pick al, rfl⟩)
  | keygenDestroy p =>
    simp only [ffiStep, Mem.bind_eq_ok, Mem.pure_eq, Mem.ok.injEq, Prod.mk.injEq] at hs
    obtain ⟨c, hc, rfl, rfl⟩ := hs
    exact .inr (.inr ⟨p, _, rfl, rfl, FfiHeap.key_eq.1 hc, rfl⟩)
  | delegate p q v =>
    simp only [ffiStep, Mem.bind_eq_ok, Mem.pure_eq, Mem.ok.injEq, Prod.mk.injEq] at hs
    obtain ⟨r, _, b, _, s, _, c, _, rfl, rfl⟩ := hs
    exact .inr (.inl ⟨_, _, _, rfl, rfl, rfl, FfiHeap.get_pick al, rfl⟩)
  | encrypt p policy pt n =>
    simp only [ffiStep, Mem.bind_eq_ok] at hs
    obtain ⟨r, _, b, _, hs⟩ := hs
    cases hu : ofUtf8 b with
    | none =>
      simp only [hu, Mem.pure_eq, Mem.ok.injEq, Prod.mk.injEq] at hs
      obtain ⟨rfl, rfl⟩ := hs
      exact .inl ⟨rfl, rfl, rfl⟩
    | some s =>
      simp only [hu, Mem.bind_eq_ok] at hs
      obtain ⟨c, _, d, _, x, _, hs⟩ := hs
      cases x with
      | none =>
        simp only [Mem.pure_eq, Mem.ok.injEq, Prod.mk.injEq] at hs
        obtain ⟨rfl, rfl⟩ := hs
        exact .inl ⟨rfl, rfl, rfl⟩
      | some x =>
        simp only [Mem.pure_eq, Mem.ok.injEq, Prod.mk.injEq] at hs
        obtain ⟨rfl, rfl⟩ := hs
        exact .inr (.inl ⟨_, _, _, rfl, rfl, rfl, FfiHeap.get_pick al, rfl⟩)
  | getSize p =>
    simp only [ffiStep, Mem.bind_eq_ok, Mem.pure_eq, Mem.ok.injEq, Prod.mk.injEq] at hs
    obtain ⟨r, _, b, _, rfl, rfl⟩ := hs
    exact .inl ⟨rfl, rfl, rfl⟩
  | decrypt p ct n =>
    simp only [ffiStep, Mem.bind_eq_ok] at hs
    obtain ⟨c, _, d, _, x, _, hs⟩ := hs
    cases x with
    | none =>
      simp only [Mem.pure_eq, Mem.ok.injEq, Prod.mk.injEq] at hs
      obtain ⟨rfl, rfl⟩ := hs
      exact .inl ⟨rfl, rfl, rfl⟩
    | some x =>
      simp only [Mem.pure_eq, Mem.ok.injEq, Prod.mk.injEq] at hs
      obtain ⟨rfl, rfl⟩ := hs
      exact .inr (.inl ⟨_, _, _, rfl, rfl, rfl, FfiHeap.get_pick al, rfl⟩)
  | free p =>
    simp only [ffiStep, Mem.bind_eq_ok, Mem.pure_eq, Mem.ok.injEq, Prod.mk.injEq] at hs
    obtain ⟨c, hc, rfl, rfl⟩ := hs
    exact .inr (.inr ⟨p, _, rfl, rfl, FfiHeap.buffer_eq.1 hc, rfl⟩)

theorem run_append (A B : List (FfiOp × Tape F G1 G2 Gt)) (h : FfiHeap F G1 G2 Gt) (r : List FfiAnswer × FfiHeap F G1 G2 Gt) :
    ffiRun env js checks al (A ++ B) h = .ok r ↔ ∃ x y, ffiRun env js checks al A h = .ok x ∧
      ffiRun env js checks al B x.2 = .ok y ∧ r = (x.1 ++ y.1, y.2) := by
  induction A generalizing h r with
  | nil =>
    simp only [List.nil_append, ffiRun, Mem.ok.injEq]
    constructor
    · intro hr
      exact ⟨_, r, rfl, hr, by simp⟩
    · rintro ⟨x, y, rfl, hy, rfl⟩
      simpa using hy
  | cons e A ih =>
    obtain ⟨op, t⟩ := e
    simp only [List.cons_append, ffiRun, Mem.bind_eq_ok, Mem.pure_eq, Mem.ok.injEq, ih]
    constructor
    · rintro ⟨a, ha, _, ⟨x, y, hx, hy, rfl⟩, rfl⟩
      exact ⟨_, y, ⟨a, ha, x, hx, rfl⟩, hy, rfl⟩
    · rintro ⟨_, y, ⟨a, ha, x, hx, rfl⟩, hy, rfl⟩
      exact ⟨a, ha, _, ⟨x, y, hx, hy, rfl⟩, rfl⟩

theorem run_length {A : List (FfiOp × Tape F G1 G2 Gt)} {h : FfiHeap F G1 G2 Gt} {r : List FfiAnswer × FfiHeap F G1 G2 Gt}
    (hr : ffiRun env js checks al A h = .ok r) : r.1.length = A.length := by
  induction A generalizing h r with
  | nil => simp only [ffiRun, Mem.ok.injEq] at hr; subst hr; rfl
  | cons e A ih =>
    obtain ⟨op, t⟩ := e
    simp only [ffiRun, Mem.bind_eq_ok, Mem.pure_eq, Mem.ok.injEq] at hr
    obtain ⟨a, _, x, hx, rfl⟩ := hr
    simp [ih hx]

/-- The calls of a program with their answers. -/
def history (ops : List (FfiOp × Tape F G1 G2 Gt)) (ans : List FfiAnswer) : History := (ops.map Prod.fst).zip ans

omit [Field F] [DecidableEq F] [AddCommGroup G1] [Module F G1] [AddCommGroup G2] [Module F G2] [AddCommGroup Gt]
  [Module F Gt] in
theorem history_append {A B : List (FfiOp × Tape F G1 G2 Gt)} {x y : List FfiAnswer} (hl : x.length = A.length) :
    history (A ++ B) (x ++ y) = history A x ++ history B y := by
  unfold history
  rw [List.map_append, List.zip_append (by simp [hl])]

/-- **C94, which objects exist.** After any program, an object of a type exists at an address iff the program was handed
that pointer with that type and has not released it since. -/
theorem C94_live (ops : List (FfiOp × Tape F G1 G2 Gt)) (ans : List FfiAnswer) (h : FfiHeap F G1 G2 Gt)
    (hr : ffiRun env js checks al ops [] = .ok (ans, h)) (k : FfiKind) (p : ℕ) :
    (∃ o, h.get p = some o ∧ o.kind = k) ↔ Live k p (history ops ans) := by
  induction ops using List.reverseRecOn generalizing ans h k p with
  | nil =>
    simp only [ffiRun, Mem.ok.injEq, Prod.mk.injEq] at hr
    obtain ⟨rfl, rfl⟩ := hr
    constructor
    · rintro ⟨o, ho, _⟩; simp [FfiHeap.get] at ho
    · intro hl; exact absurd hl live_nil
  | append_singleton ops e ih =>
    obtain ⟨op, t⟩ := e
    obtain ⟨x, y, hx, hy, hxy⟩ := (run_append _ _ _ _).1 hr
    simp only [ffiRun, Mem.bind_eq_ok, Mem.pure_eq, Mem.ok.injEq] at hy
    obtain ⟨⟨a, h'⟩, hs, _, rfl, rfl⟩ := hy
    simp only [Prod.mk.injEq] at hxy
    obtain ⟨rfl, rfl⟩ := hxy
    rw [history_append (run_length hx)]
    have hh : history [(op, t)] [a] = [(op, a)] := rfl
    rw [hh, live_snoc, ← ih x.1 x.2 hx]
    rcases step_cases hs with ⟨hg, hrel, rfl⟩ | ⟨k', p', o', hg, hrel, hk, hn, rfl⟩ | ⟨p', o', hg, hrel, ho, rfl⟩
    · simp [hg, hrel]
    · simp only [hg, hrel, Option.some.injEq, Prod.mk.injEq, ne_eq, reduceCtorEq, not_false_iff, and_true]
      rw [FfiHeap.get_cons]
      by_cases hp : p = p'
      · subst hp
        simp only [if_true, Option.some.injEq, exists_eq_left', and_true, hn, reduceCtorEq, false_and, exists_false, or_false]
        rw [hk]
      · rw [if_neg hp]
        simp [Ne.symm hp]
    · simp only [hg, hrel, reduceCtorEq, false_or, ne_eq, Option.some.injEq]
      rw [FfiHeap.get_release]
      by_cases hp : p = p'
      · simp [hp]
      · simp [hp, Ne.symm hp]

/-- **C94, no object is changed.** An object that the calls do not release is the same after them, whatever they are. -/
theorem C94_persist (ops : List (FfiOp × Tape F G1 G2 Gt)) (ans : List FfiAnswer) (h h' : FfiHeap F G1 G2 Gt)
    (hr : ffiRun env js checks al ops h = .ok (ans, h')) (p : ℕ) (o : FfiObj F G1 G2 Gt) (ho : h.get p = some o)
    (hrel : ∀ e ∈ ops, releases e.1 ≠ some p) : h'.get p = some o := by
  induction ops generalizing ans h with
  | nil =>
    simp only [ffiRun, Mem.ok.injEq, Prod.mk.injEq] at hr
    obtain ⟨rfl, rfl⟩ := hr
    exact ho
  | cons e ops ih =>
    obtain ⟨op, t⟩ := e
    simp only [ffiRun, Mem.bind_eq_ok, Mem.pure_eq, Mem.ok.injEq, Prod.mk.injEq] at hr
    obtain ⟨⟨a, h₁⟩, hs, ⟨as, h₂⟩, hr, rfl, rfl⟩ := hr
    refine ih _ _ hr ?_ fun e he => hrel e (List.mem_cons_of_mem _ he)
    rcases step_cases hs with ⟨_, _, rfl⟩ | ⟨k', p', o', _, _, _, hn, rfl⟩ | ⟨p', o', _, hrl, _, rfl⟩
    · exact ho
    · rw [FfiHeap.get_cons, if_neg (by rintro rfl; rw [ho] at hn; simp at hn)]
      exact ho
    · rw [FfiHeap.get_release, if_neg (by rintro rfl; exact hrel (op, t) (by simp) hrl)]
      exact ho

/-- The number of handed out pointers in a history. -/
def given (hist : History) : ℕ := hist.countP fun e => (gives e.1 e.2).isSome

/-- The number of releasing calls in a history. -/
def released (hist : History) : ℕ := hist.countP fun e => (releases e.1).isSome

theorem run_nodup {ops : List (FfiOp × Tape F G1 G2 Gt)} {ans : List FfiAnswer} {h h' : FfiHeap F G1 G2 Gt}
    (hr : ffiRun env js checks al ops h = .ok (ans, h')) (hn : h.used.Nodup) : h'.used.Nodup := by
  induction ops generalizing ans h with
  | nil =>
    simp only [ffiRun, Mem.ok.injEq, Prod.mk.injEq] at hr
    obtain ⟨rfl, rfl⟩ := hr
    exact hn
  | cons e ops ih =>
    obtain ⟨op, t⟩ := e
    simp only [ffiRun, Mem.bind_eq_ok, Mem.pure_eq, Mem.ok.injEq, Prod.mk.injEq] at hr
    obtain ⟨⟨a, h₁⟩, hs, ⟨as, h₂⟩, hr, rfl, rfl⟩ := hr
    refine ih hr ?_
    rcases step_cases hs with ⟨_, _, rfl⟩ | ⟨k', p', o', _, _, _, hnn, rfl⟩ | ⟨p', o', _, hrl, _, rfl⟩
    · exact hn
    · exact List.nodup_cons.2 ⟨FfiHeap.get_eq_none.1 hnn, hn⟩
    · exact List.Nodup.sublist (List.Sublist.map _ List.filter_sublist) hn

omit [Field F] [DecidableEq F] [AddCommGroup G1] [Module F G1] [AddCommGroup G2] [Module F G2] [AddCommGroup Gt]
  [Module F Gt] in
theorem release_length {h : FfiHeap F G1 G2 Gt} {p : ℕ} {o : FfiObj F G1 G2 Gt} (hn : h.used.Nodup)
    (ho : h.get p = some o) : (h.release p).length + 1 = h.length := by
  induction h with
  | nil => simp [FfiHeap.get] at ho
  | cons e h ih =>
    obtain ⟨a, x⟩ := e
    rw [FfiHeap.get_cons] at ho
    simp only [FfiHeap.used, List.map_cons, List.nodup_cons] at hn
    unfold FfiHeap.release at ih ⊢
    rw [List.filter_cons]
    by_cases ha : p = a
    · subst ha
      simp only [ne_eq, not_true, decide_false, Bool.false_eq_true, if_false, List.length_cons, add_left_inj]
      rw [List.filter_eq_self.2]
      intro y hy
      simp only [decide_not, Bool.not_eq_eq_eq_not, Bool.not_true, decide_eq_false_iff_not]
      rintro rfl
      exact hn.1 (List.mem_map_of_mem hy)
    · rw [if_neg ha] at ho
      simp only [ne_eq, Ne.symm ha, not_false_iff, decide_true, if_true, List.length_cons]
      rw [ih hn.2 ho]

/-- **C94, the number of objects.** After any program, the objects that exist are as many as the pointers it was handed
minus its releasing calls: the interface releases nothing on its own, and keeps no objects the program has no pointer to. -/
theorem C94_count (ops : List (FfiOp × Tape F G1 G2 Gt)) (ans : List FfiAnswer) (h : FfiHeap F G1 G2 Gt)
    (hr : ffiRun env js checks al ops [] = .ok (ans, h)) :
    h.length + released (history ops ans) = given (history ops ans) := by
  induction ops using List.reverseRecOn generalizing ans h with
  | nil =>
    simp only [ffiRun, Mem.ok.injEq, Prod.mk.injEq] at hr
    obtain ⟨rfl, rfl⟩ := hr
    rfl
  | append_singleton ops e ih =>
    obtain ⟨op, t⟩ := e
    obtain ⟨x, y, hx, hy, hxy⟩ := (run_append _ _ _ _).1 hr
    simp only [ffiRun, Mem.bind_eq_ok, Mem.pure_eq, Mem.ok.injEq] at hy
    obtain ⟨⟨a, h'⟩, hs, _, rfl, rfl⟩ := hy
    simp only [Prod.mk.injEq] at hxy
    obtain ⟨rfl, rfl⟩ := hxy
    rw [history_append (run_length hx)]
    have hh : history [(op, t)] [a] = [(op, a)] := rfl
    rw [hh]
    unfold given released at ih ⊢
    simp only [List.countP_append, List.countP_cons, List.countP_nil]
    have ih := ih x.1 x.2 hx
    have hn : x.2.used.Nodup := run_nodup hx (by simp [FfiHeap.used])
    rcases step_cases hs with ⟨hg, hrel, rfl⟩ | ⟨k', p', o', hg, hrel, hk, _, rfl⟩ | ⟨p', o', hg, hrel, ho, rfl⟩
    · simp [hg, hrel]; omega
    · simp [hg, hrel]; omega
    · have := release_length hn ho
      simp [hg, hrel]; omega

/-! ## Which calls are defined -/

omit [Field F] [DecidableEq F] [AddCommGroup G1] [Module F G1] [AddCommGroup G2] [Module F G2] [AddCommGroup Gt]
  [Module F Gt] in
theorem context_cases (h : FfiHeap F G1 G2 Gt) (p : ℕ) : h.context p = .undefined ∨ ∃ c, h.context p = .ok c := by
  unfold FfiHeap.context
  cases h.get p with
  | none => simp
  | some o => cases o <;> simp

omit [Field F] [DecidableEq F] [AddCommGroup G1] [Module F G1] [AddCommGroup G2] [Module F G2] [AddCommGroup Gt]
  [Module F Gt] in
theorem key_cases (h : FfiHeap F G1 G2 Gt) (p : ℕ) : h.key p = .undefined ∨ ∃ c, h.key p = .ok c := by
  unfold FfiHeap.key
  cases h.get p with
  | none => simp
  | some o => cases o <;> simp

omit [Field F] [DecidableEq F] [AddCommGroup G1] [Module F G1] [AddCommGroup G2] [Module F G2] [AddCommGroup Gt]
  [Module F Gt] in
theorem buffer_cases (h : FfiHeap F G1 G2 Gt) (p : ℕ) : h.buffer p = .undefined ∨ ∃ c, h.buffer p = .ok c := by
  unfold FfiHeap.buffer
  cases h.get p with
  | none => simp
  | some o => cases o <;> simp

omit [Field F] [DecidableEq F] [AddCommGroup G1] [Module F G1] [AddCommGroup G2] [Module F G2] [AddCommGroup Gt]
  [Module F Gt] in
theorem kind_context {o : FfiObj F G1 G2 Gt} (h : o.kind = .context) : ∃ c, o = .context c := by
  cases o <;> simp_all [FfiObj.kind]

omit [Field F] [DecidableEq F] [AddCommGroup G1] [Module F G1] [AddCommGroup G2] [Module F G2] [AddCommGroup Gt]
  [Module F Gt] in
theorem kind_key {o : FfiObj F G1 G2 Gt} (h : o.kind = .key) : ∃ c, o = .key c := by
  cases o <;> simp_all [FfiObj.kind]

omit [Field F] [DecidableEq F] [AddCommGroup G1] [Module F G1] [AddCommGroup G2] [Module F G2] [AddCommGroup Gt]
  [Module F Gt] in
theorem kind_buffer {o : FfiObj F G1 G2 Gt} (h : o.kind = .buffer) : ∃ c, o = .buffer c := by
  cases o <;> simp_all [FfiObj.kind]

section
variable {ops : List (FfiOp × Tape F G1 G2 Gt)} {ans : List FfiAnswer} {h : FfiHeap F G1 G2 Gt}

theorem live_context (hr : ffiRun env js checks al ops [] = .ok (ans, h)) {p : ℕ} :
    Live .context p (history ops ans) ↔ ∃ c, h.context p = .ok c := by
  rw [← C94_live ops ans h hr]
  constructor
  · rintro ⟨o, ho, hk⟩
    obtain ⟨c, rfl⟩ := kind_context hk
    exact ⟨c, FfiHeap.context_eq.2 ho⟩
  · rintro ⟨c, hc⟩
    exact ⟨_, FfiHeap.context_eq.1 hc, rfl⟩

theorem live_key (hr : ffiRun env js checks al ops [] = .ok (ans, h)) {p : ℕ} :
    Live .key p (history ops ans) ↔ ∃ c, h.key p = .ok c := by
  rw [← C94_live ops ans h hr]
  constructor
  · rintro ⟨o, ho, hk⟩
    obtain ⟨c, rfl⟩ := kind_key hk
    exact ⟨c, FfiHeap.key_eq.2 ho⟩
  · rintro ⟨c, hc⟩
    exact ⟨_, FfiHeap.key_eq.1 hc, rfl⟩

theorem live_buffer (hr : ffiRun env js checks al ops [] = .ok (ans, h)) {p : ℕ} :
    Live .buffer p (history ops ans) ↔ ∃ c, h.buffer p = .ok c := by
  rw [← C94_live ops ans h hr]
  constructor
  · rintro ⟨o, ho, hk⟩
    obtain ⟨c, rfl⟩ := kind_buffer hk
    exact ⟨c, FfiHeap.buffer_eq.2 ho⟩
  · rintro ⟨c, hc⟩
    exact ⟨_, FfiHeap.buffer_eq.1 hc, rfl⟩

/-- **C94, destroying.** A context is destroyed when the pointer is a live context pointer; anything else (a second time, a
pointer to a key or a buffer, a pointer never handed out) is undefined. The same for keys and buffers. -/
theorem C94_destroy (hr : ffiRun env js checks al ops [] = .ok (ans, h)) (p : ℕ) (t : Tape F G1 G2 Gt) :
    (Live .context p (history ops ans) → ffiStep env js checks al (.contextDestroy p) t h = .ok (.done, h.release p)) ∧
    (¬ Live .context p (history ops ans) → ffiStep env js checks al (.contextDestroy p) t h = .undefined) ∧
    (Live .key p (history ops ans) → ffiStep env js checks al (.keygenDestroy p) t h = .ok (.done, h.release p)) ∧
    (¬ Live .key p (history ops ans) → ffiStep env js checks al (.keygenDestroy p) t h = .undefined) ∧
    (Live .buffer p (history ops ans) → ffiStep env js checks al (.free p) t h = .ok (.done, h.release p)) ∧
    (¬ Live .buffer p (history ops ans) → ffiStep env js checks al (.free p) t h = .undefined) := by
  rw [live_context hr, live_key hr, live_buffer hr]
  simp only [ffiStep]
  refine ⟨?_, ?_, ?_, ?_, ?_, ?_⟩
  · rintro ⟨c, hc⟩; rw [hc]; rfl
  · intro hn; rcases context_cases h p with hc | hc
    · rw [hc]; rfl
    · exact absurd hc hn
  · rintro ⟨c, hc⟩; rw [hc]; rfl
  · intro hn; rcases key_cases h p with hc | hc
    · rw [hc]; rfl
    · exact absurd hc hn
  · rintro ⟨c, hc⟩; rw [hc]; rfl
  · intro hn; rcases buffer_cases h p with hc | hc
    · rw [hc]; rfl
    · exact absurd hc hn

theorem not_given {k : FfiKind} {p : ℕ} {hist : History} (hk : k = .strings ∨ k = .ciphertext) : ¬ Live k p hist := by
  rintro ⟨b, ⟨op, a⟩, c, _, hg, _⟩
  cases op <;> cases a <;> simp only [gives, Option.some.injEq, Prod.mk.injEq, reduceCtorEq] at hg <;>
    obtain ⟨rfl, _⟩ := hg <;> simp at hk

/-- **C94 is violated: two functions cannot be used.** No function of the interface hands out a vector of strings or a
ciphertext object, which `rabe_bsw_delegate` and `rabe_bsw_decrypt_get_size` take. So after any program every call of these two
functions, with any pointer that the program was handed, is undefined. -/
theorem C94_violated_unusable (hr : ffiRun env js checks al ops [] = .ok (ans, h)) (p q r : ℕ) (t : Tape F G1 G2 Gt) :
    ffiStep env js checks al (.delegate p q r) t h = .undefined ∧
    ffiStep env js checks al (.getSize p) t h = .undefined := by
  constructor
  · have : h.strings r = .undefined := by
      cases ho : h.get r with
      | none => simp [FfiHeap.strings, ho]
      | some o =>
        cases o with
        | strings v => exact absurd ((C94_live ops ans h hr .strings r).1 ⟨_, ho, rfl⟩) (not_given (.inl rfl))
        | _ => simp [FfiHeap.strings, ho]
    simp [ffiStep, this]
  · have : h.ciphertext p = .undefined := by
      cases ho : h.get p with
      | none => simp [FfiHeap.ciphertext, ho]
      | some o =>
        cases o with
        | ciphertext v => exact absurd ((C94_live ops ans h hr .ciphertext p).1 ⟨_, ho, rfl⟩) (not_given (.inr rfl))
        | _ => simp [FfiHeap.ciphertext, ho]
    simp [ffiStep, this]

/-- **C94, wrong pointers.** With a pointer that is not a live context pointer, key generation never returns, and encryption
can only answer -1 (for a policy that is not UTF-8, before it looks at the context); with UTF-8 texts both are undefined.
A text that is not UTF-8 makes key generation panic and encryption answer -1, whatever the pointer. Decryption with a pointer
that is not a live key pointer is undefined. -/
theorem C94_wrong_pointer (hr : ffiRun env js checks al ops [] = .ok (ans, h)) (p : ℕ) (t : Tape F G1 G2 Gt) :
    (¬ Live .context p (history ops ans) →
      (∀ attributes r, ffiStep env js checks al (.keygen p attributes) t h ≠ .ok r) ∧
      (∀ s rest, '\x00' ∉ s → ffiStep env js checks al (.keygen p (.own (utf8 s ++ 0 :: rest))) t h = .undefined) ∧
      (∀ policy pt n r, ffiStep env js checks al (.encrypt p policy pt n) t h = .ok r → r = (.failed, h)) ∧
      (∀ s rest pt n, '\x00' ∉ s →
        ffiStep env js checks al (.encrypt p (.own (utf8 s ++ 0 :: rest)) pt n) t h = .undefined)) ∧
    (∀ arg region b, h.bytes arg = .ok region → cStr region = .ok b → ofUtf8 b = none →
      ffiStep env js checks al (.keygen p arg) t h = .panic ∧
      ∀ pt n, ffiStep env js checks al (.encrypt p arg pt n) t h = .ok (.failed, h)) ∧
    (¬ Live .key p (history ops ans) → ∀ ct n, ffiStep env js checks al (.decrypt p ct n) t h = .undefined) := by
  rw [live_context hr, live_key hr]
  refine ⟨?_, fun arg region b hb hcs hu => by simp [ffiStep, hb, hcs, hu, Mem.unwrapOption], ?_⟩
  · intro hn
    have hc : h.context p = .undefined := (context_cases h p).resolve_right hn
    refine ⟨?_, ?_, ?_, ?_⟩
    · intro attributes r hs
      simp only [ffiStep, Mem.bind_eq_ok, hc] at hs
      obtain ⟨_, _, _, _, _, _, _, hx, _⟩ := hs
      simp at hx
    · intro s rest h0
      simp [ffiStep, FfiHeap.bytes, cStr_utf8 h0, ofUtf8_utf8, Mem.unwrapOption, hc]
    · intro policy pt n r hs
      simp only [ffiStep, Mem.bind_eq_ok] at hs
      obtain ⟨region, _, b, _, hs⟩ := hs
      cases hu : ofUtf8 b with
      | none => simp only [hu, Mem.pure_eq, Mem.ok.injEq] at hs; exact hs.symm
      | some s =>
        simp only [hu, Mem.bind_eq_ok, hc] at hs
        obtain ⟨_, hx, _⟩ := hs
        simp at hx
    · intro s rest pt n h0
      simp [ffiStep, FfiHeap.bytes, cStr_utf8 h0, ofUtf8_utf8, hc]
  · intro hn ct n
    have hc : h.key p = .undefined := (key_cases h p).resolve_right hn
    simp [ffiStep, hc]

/-- A released pointer that no later call has handed out again is dead. -/
def Dead (p : ℕ) (hist : History) : Prop :=
  ∃ before e after, hist = before ++ e :: after ∧ releases e.1 = some p ∧ ∀ e' ∈ after, ∀ k, gives e'.1 e'.2 ≠ some (k, p)

theorem dead_not_live {k : FfiKind} {p : ℕ} {hist : History} (hd : Dead p hist) : ¬ Live k p hist := by
  obtain ⟨b, e, a, rfl, hrel, hno⟩ := hd
  induction a using List.reverseRecOn with
  | nil =>
    rw [live_snoc]
    rintro (hg | ⟨_, hx⟩)
    · obtain ⟨op, an⟩ := e
      cases op <;> simp [releases] at hrel <;> cases an <;> simp [gives] at hg
    · exact hx hrel
  | append_singleton a x ih =>
    rw [show b ++ e :: (a ++ [x]) = (b ++ e :: a) ++ [x] by simp, live_snoc]
    rintro (hg | ⟨hl, _⟩)
    · exact hno x (by simp) k hg
    · exact ih (fun e' he' => hno e' (by simp [he'])) hl

/-- **C94, use after destroy.** A pointer that was released and not handed out again is refused by every function: the
destroying functions and decryption are undefined on it, key generation never returns, encryption answers at most -1. -/
theorem C94_use_after_destroy (hr : ffiRun env js checks al ops [] = .ok (ans, h)) (p : ℕ)
    (hd : Dead p (history ops ans)) (t : Tape F G1 G2 Gt) :
    ffiStep env js checks al (.contextDestroy p) t h = .undefined ∧
    ffiStep env js checks al (.keygenDestroy p) t h = .undefined ∧
    ffiStep env js checks al (.free p) t h = .undefined ∧
    (∀ ct n, ffiStep env js checks al (.decrypt p ct n) t h = .undefined) ∧
    (∀ attributes r, ffiStep env js checks al (.keygen p attributes) t h ≠ .ok r) ∧
    (∀ policy pt n r, ffiStep env js checks al (.encrypt p policy pt n) t h = .ok r → r = (.failed, h)) := by
  have h1 := C94_destroy (env := env) (js := js) (checks := checks) (al := al) hr p t
  have h2 := C94_wrong_pointer (env := env) (js := js) (checks := checks) (al := al) hr p t
  have hw := h2.1 (dead_not_live hd)
  exact ⟨h1.2.1 (dead_not_live hd), h1.2.2.2.1 (dead_not_live hd), h1.2.2.2.2.2 (dead_not_live hd),
    h2.2.2 (dead_not_live hd), hw.1, hw.2.2.1⟩

theorem cStr_defined {region : Bytes} (h0 : (0 : UInt8) ∈ region) : ∃ b, cStr region = .ok b := by
  simp [cStr, h0]

omit [Field F] [DecidableEq F] [AddCommGroup G1] [Module F G1] [AddCommGroup G2] [Module F G2] [AddCommGroup Gt]
  [Module F Gt] in
theorem ffiCall_defined {α : Type} (m : RM F G1 G2 Gt α) (t : Tape F G1 G2 Gt) : ffiCall m t ≠ .undefined := by
  unfold ffiCall
  cases m t <;> simp

theorem unwrapOption_defined {α : Type} (o : Option α) : Mem.unwrapOption o ≠ .undefined := by
  cases o <;> simp [Mem.unwrapOption]

theorem bind_defined {α β : Type} {m : Mem α} {f : α → Mem β} (hm : m ≠ .undefined) (hf : ∀ a, m = .ok a → f a ≠ .undefined) :
    (m >>= f) ≠ .undefined := by
  cases m with
  | ok a => exact hf a rfl
  | panic => simp
  | undefined => exact absurd rfl hm

/-- **C94, memory safety, partial.** A program that passes live pointers of the right type is never undefined: in creating
contexts; in generating keys from zero-terminated names; in encrypting under a zero-terminated policy as many bytes as there
are, if the text of the ciphertext is shorter than 4 GiB; in destroying. (Full claim: also in decrypting, delegating and
asking for the size; false, see `C76_violated_decrypt` and `C94_violated_unusable`.) -/
theorem C94_defined_partial (hr : ffiRun env js checks al ops [] = .ok (ans, h)) (t : Tape F G1 G2 Gt) :
    ffiStep env js checks al .create t h ≠ .undefined ∧
    (∀ p attributes region, Live .context p (history ops ans) → h.bytes attributes = .ok region → 0 ∈ region →
      ffiStep env js checks al (.keygen p attributes) t h ≠ .undefined) ∧
    (∀ p policy region pt data n, Live .context p (history ops ans) → h.bytes policy = .ok region → 0 ∈ region →
      h.bytes pt = .ok data → n ≤ data.length →
      (∀ c text ct t' s, h.get p = some (.context c) → encrypt env c.pk text .json (data.take n) t = .ok (ct, t') →
        js.write ct = some s → (utf8 s).length + 1 < 2 ^ 32) →
      ffiStep env js checks al (.encrypt p policy pt n) t h ≠ .undefined) ∧
    (∀ p, Live .context p (history ops ans) → ffiStep env js checks al (.contextDestroy p) t h ≠ .undefined) ∧
    (∀ p, Live .key p (history ops ans) → ffiStep env js checks al (.keygenDestroy p) t h ≠ .undefined) ∧
    (∀ p, Live .buffer p (history ops ans) → ffiStep env js checks al (.free p) t h ≠ .undefined) ∧
    (∀ p, Live .buffer p (history ops ans) → ∃ region, h.bytes (.stored p) = .ok region) := by
  refine ⟨?_, ?_, ?_, fun p hl => ?_, fun p hl => ?_, fun p hl => ?_, fun p hl => ?_⟩
  · simp only [ffiStep, ffiCreate]
    refine bind_defined (bind_defined (ffiCall_defined _ _) fun a _ => bind_defined (unwrapOption_defined _) ?_) ?_ <;>
      intros <;> simp
  · intro p attributes region hl hb h0
    obtain ⟨c, hc⟩ := (live_context hr).1 hl
    obtain ⟨b, hcs⟩ := cStr_defined h0
    simp only [ffiStep, hb, Mem.ok_bind, hcs, hc]
    refine bind_defined (unwrapOption_defined _) fun text _ => bind_defined ?_ fun _ _ => by simp
    simp only [ffiKeygen, hcs, Mem.ok_bind]
    exact bind_defined (unwrapOption_defined _) fun _ _ => bind_defined (ffiCall_defined _ _) fun _ _ =>
      bind_defined (unwrapOption_defined _) fun _ _ => unwrapOption_defined _
  · intro p policy region pt data n hl hb h0 hd hn hlen
    obtain ⟨c, hc⟩ := (live_context hr).1 hl
    obtain ⟨b, hcs⟩ := cStr_defined h0
    simp only [ffiStep, hb, Mem.ok_bind, hcs, hc, hd]
    cases hu : ofUtf8 b with
    | none => simp
    | some text =>
      simp only [ffiEncrypt, hcs, Mem.ok_bind, hu, readBytes, hn, if_true]
      refine bind_defined (bind_defined (ffiCall_defined _ _) fun x hx => ?_) fun x hx => ?_
      · cases x with
        | none => simp
        | some ct =>
          cases hw : js.write ct with
          | none => simp [hw]
          | some s =>
            have he : ∃ t', encrypt env c.pk text .json (data.take n) t = .ok (ct, t') := by
              unfold ffiCall at hx
              split at hx
              · rename_i a t' e
                simp only [Mem.ok.injEq, Option.some.injEq] at hx
                exact ⟨t', hx ▸ e⟩
              · simp at hx
              · simp at hx
            obtain ⟨t', he⟩ := he
            have := hlen c text ct t' s (FfiHeap.context_eq.1 hc) he hw
            simp only [hw]
            rw [if_pos (by rw [Nat.mod_eq_of_lt this]; omega)]
            simp
      · cases x <;> simp
  · rw [(C94_destroy hr p t).1 hl]; simp
  · rw [(C94_destroy hr p t).2.2.1 hl]; simp
  · rw [(C94_destroy hr p t).2.2.2.2.1 hl]; simp
  · exact (live_buffer hr).1 hl

end

/-! ## The calls do what the library does, at any time -/

/-- What the program reads after a call that stores a buffer: nothing if the answer is -1, otherwise the contents of the
buffer and the stored length. -/
def observe : Mem (FfiAnswer × FfiHeap F G1 G2 Gt) → Mem (Option (Bytes × ℕ))
  | .ok (.failed, _) => .ok none
  | .ok (.stored p n, h) => do
    let b ← h.buffer p
    pure (some (b, n))
  | .ok _ => .undefined
  | .panic => .panic
  | .undefined => .undefined

/-- **C94, decryption at any time.** The result of a decryption depends on the key object and on the bytes passed, and on
nothing else in the memory: not on the context the key was made with, which may have been destroyed, nor on other keys. -/
theorem C94_decrypt_observed (h : FfiHeap F G1 G2 Gt) (p : ℕ) (sk : SecretKey G1 G2) (ct : FfiBytes) (region : Bytes) (n : ℕ)
    (hk : h.get p = some (.key sk)) (hb : h.bytes ct = .ok region) (t : Tape F G1 G2 Gt) :
    observe (ffiStep env js checks al (.decrypt p ct n) t h) = ffiDecrypt env js checks sk region n := by
  simp only [ffiStep, FfiHeap.key_eq.2 hk, Mem.ok_bind, hb]
  cases hd : ffiDecrypt env js checks sk region n with
  | ok x =>
    cases x with
    | none => simp [observe]
    | some x =>
      simp only [Mem.ok_bind, Mem.pure_eq, observe, FfiHeap.alloc]
      rw [FfiHeap.buffer_eq.2 (by rw [FfiHeap.get_cons, if_pos rfl])]
      rfl
  | panic => simp [observe]
  | undefined => simp [observe]

/-- **C94, encryption at any time.** The same for encryption: the result depends on the context object, the policy text and
the plaintext bytes (and the random numbers). -/
theorem C94_encrypt_observed (h : FfiHeap F G1 G2 Gt) (p : ℕ) (c : Context F G1 G2 Gt) (policy pt : FfiBytes)
    (region data : Bytes) (n : ℕ) (hc : h.get p = some (.context c)) (hb : h.bytes policy = .ok region)
    (hd : h.bytes pt = .ok data) (t : Tape F G1 G2 Gt) :
    observe (ffiStep env js checks al (.encrypt p policy pt n) t h) = ffiEncrypt env js c region data n t := by
  simp only [ffiStep, FfiHeap.context_eq.2 hc, Mem.ok_bind, hb, hd]
  cases hcs : cStr region with
  | panic => simp [observe, ffiEncrypt, hcs]
  | undefined => simp [observe, ffiEncrypt, hcs]
  | ok b =>
    simp only [Mem.ok_bind]
    cases hu : ofUtf8 b with
    | none => simp [observe, ffiEncrypt, hcs, hu]
    | some text =>
      cases he : ffiEncrypt env js c region data n t with
      | ok x =>
        cases x with
        | none => simp [observe]
        | some x =>
          simp only [Mem.ok_bind, Mem.pure_eq, observe, FfiHeap.alloc]
          rw [FfiHeap.buffer_eq.2 (by rw [FfiHeap.get_cons, if_pos rfl])]
          rfl
      | panic => simp [observe]
      | undefined => simp [observe]

/-! ## A whole program -/

/-- The memory before every call. -/
theorem run_states {ops : List (FfiOp × Tape F G1 G2 Gt)} {ans : List FfiAnswer} {h₀ h : FfiHeap F G1 G2 Gt}
    (hr : ffiRun env js checks al ops h₀ = .ok (ans, h)) :
    ∃ H : ℕ → FfiHeap F G1 G2 Gt, H 0 = h₀ ∧ H ops.length = h ∧ ∀ i op t, ops[i]? = some (op, t) →
      ∃ a, ans[i]? = some a ∧ ffiStep env js checks al op t (H i) = .ok (a, H (i + 1)) := by
  induction ops generalizing ans h₀ with
  | nil =>
    simp only [ffiRun, Mem.ok.injEq, Prod.mk.injEq] at hr
    obtain ⟨rfl, rfl⟩ := hr
    exact ⟨fun _ => h₀, rfl, rfl, by simp⟩
  | cons e ops ih =>
    obtain ⟨op, t⟩ := e
    simp only [ffiRun, Mem.bind_eq_ok, Mem.pure_eq, Mem.ok.injEq, Prod.mk.injEq] at hr
    obtain ⟨⟨a, h₁⟩, hs, ⟨as, h₂⟩, hr, rfl, rfl⟩ := hr
    obtain ⟨H, H0, Hn, Hs⟩ := ih hr
    refine ⟨fun i => match i with | 0 => h₀ | i + 1 => H i, rfl, Hn, ?_⟩
    intro i op' t' hi
    cases i with
    | zero =>
      simp only [List.getElem?_cons_zero, Option.some.injEq, Prod.mk.injEq] at hi
      obtain ⟨rfl, rfl⟩ := hi
      exact ⟨a, rfl, by simp only [H0]; exact hs⟩
    | succ i => exact Hs i op' t' (by simpa using hi)

theorem states_persist {ops : List (FfiOp × Tape F G1 G2 Gt)} {ans : List FfiAnswer} {H : ℕ → FfiHeap F G1 G2 Gt}
    (Hs : ∀ i op t, ops[i]? = some (op, t) →
      ∃ a, ans[i]? = some a ∧ ffiStep env js checks al op t (H i) = .ok (a, H (i + 1)))
    {p : ℕ} {o : FfiObj F G1 G2 Gt} {i : ℕ} (ho : (H i).get p = some o) {j : ℕ} (hij : i ≤ j) (hj : j ≤ ops.length)
    (hrel : ∀ m e, i ≤ m → m < j → ops[m]? = some e → releases e.1 ≠ some p) : (H j).get p = some o := by
  induction j, hij using Nat.le_induction with
  | base => exact ho
  | succ j hij ih =>
    have ho' := ih (by omega) fun m e h1 h2 => hrel m e h1 (by omega)
    have hget : ops[j]? = some ops[j] := List.getElem?_eq_getElem (by omega)
    obtain ⟨a, _, hs⟩ := Hs j _ _ hget
    refine C94_persist (env := env) (js := js) (checks := checks) (al := al) [ops[j]] [a] (H j) (H (j + 1)) ?_ p o ho' ?_
    · show (ffiStep env js checks al ops[j].1 ops[j].2 (H j) >>= _) = _
      have hs' : ffiStep env js checks al ops[j].1 ops[j].2 (H j) = .ok (a, H (j + 1)) := hs
      rw [hs']
      rfl
    · intro e he
      rw [List.mem_singleton.1 he]
      exact hrel j _ hij (by omega) hget

omit [Field F] [DecidableEq F] [AddCommGroup G1] [Module F G1] [AddCommGroup G2] [Module F G2] [AddCommGroup Gt]
  [Module F Gt] in
theorem ffiCall_some {α : Type} {m : RM F G1 G2 Gt α} {t : Tape F G1 G2 Gt} {a : α} (h : ffiCall m t = .ok (some a)) :
    ∃ t', m t = .ok (a, t') := by
  unfold ffiCall at h
  split at h
  · rename_i x t' e
    simp only [Mem.ok.injEq, Option.some.injEq] at h
    exact ⟨t', h ▸ e⟩
  · simp at h
  · simp at h

theorem unwrapOption_ok {α : Type} {o : Option α} {a : α} : Mem.unwrapOption o = .ok a ↔ o = some a := by
  cases o <;> simp [Mem.unwrapOption]

theorem join_no_nul {attrs : List Str} (h0 : ∀ a ∈ attrs, '\x00' ∉ a) : '\x00' ∉ (attrs.intersperse [',']).flatten := by
  induction attrs with
  | nil => simp
  | cons a as ih =>
    cases as with
    | nil => simpa using h0
    | cons b bs =>
      simp only [List.intersperse_cons_cons, List.flatten_cons, List.mem_append, not_or]
      exact ⟨h0 a (by simp), by decide, ih fun x hx => h0 x (by simp [hx])⟩

/-- **C94, a whole program.** Any program that creates a context, requests a key for some names from it, encrypts a
plaintext under it (in any order, with any other calls before, between and after, with the context alive for the two calls and
the key and the buffer alive at the end), and then decrypts the buffer with the key: if the names do not satisfy the policy,
the answer is -1. If they do (policy as in `C75_bsw_correct`), the call reads behind the end of the plaintext or panics:
the claim that it gives the plaintext back fails for every program. -/
theorem C94_session_partial [BigChar F] (htag : Tag16 env)
    (ops : List (FfiOp × Tape F G1 G2 Gt)) (ans : List FfiAnswer) (h : FfiHeap F G1 G2 Gt)
    (hr : ffiRun env js checks al ops [] = .ok (ans, h))
    (iC iK iE c k b n : ℕ) (t₁ t₂ t₃ : Tape F G1 G2 Gt)
    (hC : ops[iC]? = some (.create, t₁)) (hCa : ans[iC]? = some (.pointer c))
    (attrs : List Str) (hne : attrs ≠ []) (hcomma : ∀ a ∈ attrs, ',' ∉ a) (h0 : ∀ a ∈ attrs, '\x00' ∉ a) (rest₁ : Bytes)
    (hK : ops[iK]? = some (.keygen c (.own (utf8 ((attrs.intersperse [',']).flatten) ++ 0 :: rest₁)), t₂))
    (hKa : ans[iK]? = some (.pointer k))
    (text : Str) (htext : '\x00' ∉ text) (p : Pol) (hp : Denotes text .json p) (plaintext rest₂ rest₃ : Bytes)
    (hE : ops[iE]? = some (.encrypt c (.own (utf8 text ++ 0 :: rest₂)) (.own (plaintext ++ rest₃)) plaintext.length, t₃))
    (hEa : ans[iE]? = some (.stored b n))
    (hCK : iC < iK) (hCE : iC < iE)
    (hcl : ∀ m e, iC < m → m < max iK iE → ops[m]? = some e → releases e.1 ≠ some c)
    (hkl : ∀ m e, iK < m → ops[m]? = some e → releases e.1 ≠ some k)
    (hbl : ∀ m e, iE < m → ops[m]? = some e → releases e.1 ≠ some b)
    (t : Tape F G1 G2 Gt) :
    (p.sat attrs = false → ffiStep env js checks al (.decrypt k (.stored b) n) t h = .ok (.failed, h)) ∧
    (p.sat attrs = true → p.Fits → p.leaves.Nodup → Reach attrs p → (∀ l ∈ pick attrs p, '_' ∉ l.1) →
      plaintext.length + 28 < 2 ^ 32 →
      ffiStep env js checks al (.decrypt k (.stored b) n) t h = if plaintext = [] then .panic else .undefined) := by
  obtain ⟨H, H0, Hn, Hs⟩ := run_states hr
  have len_of : ∀ {i e}, ops[i]? = some e → i < ops.length := fun hi => (List.getElem?_eq_some_iff.1 hi).1
  -- the context
  obtain ⟨a, ha, hs⟩ := Hs _ _ _ hC
  rw [hCa] at ha
  obtain rfl := Option.some.inj ha
  simp only [ffiStep, Mem.bind_eq_ok, Mem.pure_eq, Mem.ok.injEq, Prod.mk.injEq, FfiAnswer.pointer.injEq] at hs
  obtain ⟨ctx, hctx, hc, hH⟩ := hs
  have hcget : (H (iC + 1)).get c = some (.context ctx) := by
    rw [← hH, FfiHeap.alloc, FfiHeap.get_cons, if_pos]
    exact hc.symm
  simp only [ffiCreate, Mem.bind_eq_ok, unwrapOption_ok, Mem.pure_eq, Mem.ok.injEq] at hctx
  obtain ⟨_, hset, ⟨pk, msk⟩, rfl, rfl⟩ := hctx
  obtain ⟨t₁', hset⟩ := ffiCall_some hset
  -- the key
  obtain ⟨a, ha, hs⟩ := Hs _ _ _ hK
  rw [hKa] at ha
  obtain rfl := Option.some.inj ha
  have hck : (H iK).get c = some (.context ⟨msk, pk⟩) :=
    states_persist Hs hcget (by omega) (len_of hK).le fun m e h1 h2 => hcl m e (by omega) (lt_of_lt_of_le h2 (le_max_left _ _))
  simp only [ffiStep, FfiHeap.bytes, Mem.ok_bind, FfiHeap.context_eq.2 hck, Mem.bind_eq_ok, Mem.pure_eq, Mem.ok.injEq,
    Prod.mk.injEq, FfiAnswer.pointer.injEq] at hs
  obtain ⟨_, _, _, _, sk, hsk, hk, hH⟩ := hs
  have hkget : (H (iK + 1)).get k = some (.key sk) := by
    rw [← hH, FfiHeap.alloc, FfiHeap.get_cons, if_pos]
    exact hk.symm
  have hkend : h.get k = some (.key sk) := by
    rw [← Hn]
    exact states_persist Hs hkget (len_of hK) le_rfl fun m e h1 _ => hkl m e (by omega)
  rw [ffiKeygen, cStr_utf8 (join_no_nul h0), Mem.ok_bind, ofUtf8_utf8] at hsk
  simp only [Mem.unwrapOption, Mem.ok_bind, splitComma_join hne hcomma] at hsk
  simp only [Mem.bind_eq_ok] at hsk
  obtain ⟨x, hx, y, hy, hsk⟩ := hsk
  obtain rfl := (unwrapOption_ok (o := x)).1 hy
  obtain rfl := (unwrapOption_ok (o := y)).1 hsk
  obtain ⟨t₂', hkey⟩ := ffiCall_some hx
  -- the ciphertext
  obtain ⟨a, ha, hs⟩ := Hs _ _ _ hE
  rw [hEa] at ha
  obtain rfl := Option.some.inj ha
  have hce : (H iE).get c = some (.context ⟨msk, pk⟩) :=
    states_persist Hs hcget (by omega) (len_of hE).le fun m e h1 h2 => hcl m e (by omega) (lt_of_lt_of_le h2 (le_max_right _ _))
  have hobs := C94_encrypt_observed (env := env) (js := js) (checks := checks) (al := al) (H iE) c ⟨msk, pk⟩
    (.own (utf8 text ++ 0 :: rest₂)) (.own (plaintext ++ rest₃)) _ _ plaintext.length hce rfl rfl t₃
  rw [hs] at hobs
  have hbkind : ∃ buf, (H (iE + 1)).get b = some (.buffer buf) := by
    rcases step_cases hs with ⟨hg, _⟩ | ⟨k', p', o', hg, _, hkk, _, hH⟩ | ⟨p', o', hg, _⟩
    · simp [gives] at hg
    · simp only [gives, Option.some.injEq, Prod.mk.injEq] at hg
      obtain ⟨rfl, rfl⟩ := hg
      obtain ⟨buf, rfl⟩ := kind_buffer hkk
      exact ⟨buf, by rw [hH, FfiHeap.get_cons, if_pos rfl]⟩
    · simp [gives] at hg
  obtain ⟨buf, hbget⟩ := hbkind
  have hbend : h.get b = some (.buffer buf) := by
    rw [← Hn]
    exact states_persist Hs hbget (len_of hE) le_rfl fun m e h1 _ => hbl m e (by omega)
  simp only [observe, FfiHeap.buffer_eq.2 hbget, Mem.ok_bind, Mem.pure_eq] at hobs
  rw [ffiEncrypt, cStr_utf8 htext, Mem.ok_bind, ofUtf8_utf8] at hobs
  simp only [readBytes, List.length_append, Nat.le_add_right, if_true, Mem.ok_bind, List.take_left'] at hobs
  have hobs := hobs.symm
  rw [Mem.bind_eq_ok] at hobs
  obtain ⟨x, hx, hobs⟩ := hobs
  cases x with
  | none => simp at hobs
  | some ct =>
  obtain ⟨t₃', henc⟩ := ffiCall_some hx
  cases hw : js.write ct with
  | none => simp [hw] at hobs
  | some s =>
  simp only [hw] at hobs
  split at hobs
  case isFalse => simp at hobs
  rename_i hle
  have hlt : (utf8 s).length + 1 < 2 ^ 32 := by omega
  simp only [Nat.mod_eq_of_lt hlt, Mem.pure_eq, Mem.ok.injEq, Option.some.injEq, Prod.mk.injEq, Nat.add_sub_cancel_left,
    List.replicate_one] at hobs
  obtain ⟨rfl, rfl⟩ := hobs
  have hout := C75_bsw_outcome env t₁ t₁' pk msk hset attrs t₂ t₂' sk hkey text .json p hp plaintext t₃ t₃' ct henc
  have hfd : ffiStep env js checks al (.decrypt k (.stored b) ((utf8 s).length + 1)) t h =
      (ffiDecrypt env js checks sk (utf8 s ++ [0]) ((utf8 s).length + 1) >>= fun r => match r with
        | none => pure (.failed, h)
        | some r => pure (.stored (h.alloc al (.buffer r.1)).1 r.2, (h.alloc al (.buffer r.1)).2)) := by
    simp only [ffiStep, FfiHeap.key_eq.2 hkend, Mem.ok_bind, FfiHeap.bytes, FfiHeap.buffer_eq.2 hbend]
    rfl
  rw [hfd]
  constructor
  · intro hsat
    have hd := hout.1 hsat
    have : ffiDecrypt env js checks sk (utf8 s ++ [0]) ((utf8 s).length + 1) = .ok none := by
      rw [ffiDecrypt, cStr_utf8 (js.no_nul _ _ hw), Mem.ok_bind, ofUtf8_utf8]
      simp [sub32, js.read_write _ _ hw, hd]
    rw [this]
    rfl
  · intro hsat hf hn hreach hu hl
    have hd := C75_bsw_correct env t₁ t₁' pk msk hset attrs t₂ t₂' sk hkey text .json p hp plaintext t₃ t₃' ct henc hf hn
      hsat hreach hu
    have := C76_violated_decrypt env htag js checks sk ct plaintext hd hl s hw []
    rw [this]
    split <;> rfl

/-! ## A concrete program -/

theorem le_foldr_max {l : List ℕ} {x : ℕ} (h : x ∈ l) : x ≤ l.foldr max 0 := by
  induction l with
  | nil => simp at h
  | cons a l ih =>
    rcases List.mem_cons.1 h with rfl | h
    · exact le_max_left _ _
    · exact (ih h).trans (le_max_right _ _)

/-- An allocator that uses addresses again: the successor of the largest address in use. -/
def nextAddress : FfiAllocator where
  pick used := used.foldr max 0 + 1
  fresh used h := by have := le_foldr_max h; omega

/-- The policy of the concrete program: `B` or `C`. -/
def policyBC : Str := chars% "{\"name\": \"or\", \"children\": [{\"name\": \"B\"}, {\"name\": \"C\"}]}"

/-- The concrete program: create a context, request a key for the names, encrypt two bytes, destroy the context. -/
def program (names : Bytes) : List (FfiOp × Tape Fr Fr Fr Fr) :=
  [(.create, toyTape), (.keygen 1 (.own (names ++ [0])), toyTape),
    (.encrypt 1 (.own (utf8 policyBC ++ [0])) (.own [1, 2, 3]) 2, toyTape), (.contextDestroy 1, toyTape)]

/-- The concrete program runs, and answers with the pointers 1, 2 and 3; the key and the buffer exist at the end. -/
theorem program_runs (names : List Str) (hnames : names = [['A'], ['B']] ∨ names = [['A'], ['D']]) :
    ∃ js h, ffiRun gcmEnv js true nextAddress (program (utf8 ((names.intersperse [',']).flatten))) [] =
      .ok ([.pointer 1, .pointer 2, .stored 3 2, .done], h) ∧ h.used = [3, 2] ∧
      ∃ sk buf, h.get 2 = some (.key sk) ∧ h.get 3 = some (.buffer buf) := by
  have h : gcmRun names policyBC [1, 2] = .ok (if names = [['A'], ['B']] then .ok [1, 2] else .err) := by
    rcases hnames with rfl | rfl <;> decide +kernel
  simp only [gcmRun, Res.bind_eq_ok, Res.ok.injEq] at h
  obtain ⟨⟨⟨pk, msk⟩, t₁⟩, h1, ⟨sk?, t₂⟩, h2, sk, h3, ⟨ct, t₃⟩, h4, h5⟩ := h
  cases sk? with
  | none => simp at h3
  | some sk' =>
  simp only [Res.unwrapOption_some, Res.ok.injEq] at h3
  subst h3
  have hs : (JsonCodec.only ct).write ct = some ['x'] := by simp [JsonCodec.only]
  have he := C76_encrypt_partial gcmEnv (JsonCodec.only ct) ⟨msk, pk⟩ policyBC (by decide) [1, 2] [] [3] _ _ ct h4 ['x'] hs
    (by decide)
  have hnn : names ≠ [] ∧ (∀ a ∈ names, ',' ∉ a) ∧ ∀ a ∈ names, '\x00' ∉ a := by
    rcases hnames with rfl | rfl <;> decide
  have hk := C76_keygen_partial gcmEnv ⟨msk, pk⟩ names hnn.1 hnn.2.1 hnn.2.2 [] _ _ sk' h2
  have hc : ffiCreate gcmEnv toyTape = .ok ⟨msk, pk⟩ := by simp [ffiCreate, ffiCall, h1, Mem.unwrapOption]
  have hcs := cStr_utf8 (join_no_nul hnn.2.2) []
  have hcp := cStr_utf8 (s := policyBC) (by decide) []
  refine ⟨JsonCodec.only ct, [(3, .buffer (utf8 ['x'] ++ [0])), (2, .key sk')], ?_, rfl, sk', _, rfl, rfl⟩
  have e1 : (nextAddress.pick (FfiHeap.used ([] : FfiHeap Fr Fr Fr Fr))) = 1 := rfl
  have he' : ffiEncrypt gcmEnv (JsonCodec.only ct) ⟨msk, pk⟩ (utf8 policyBC ++ [0]) [1, 2, 3] 2 toyTape =
    .ok (some (utf8 ['x'] ++ [0], 2)) := he
  simp only [program, ffiRun, ffiStep, hc, Mem.ok_bind, Mem.pure_eq, FfiHeap.bytes, hcs, hcp, ofUtf8_utf8, Mem.unwrapOption,
    FfiHeap.alloc, e1]
  have g1 : ∀ c : Context Fr Fr Fr Fr, FfiHeap.context [(1, FfiObj.context c)] 1 = .ok c := fun _ => rfl
  simp only [g1, Mem.ok_bind, hk]
  have g2 : ∀ (c : Context Fr Fr Fr Fr) (k : SecretKey Fr Fr),
    FfiHeap.context [(nextAddress.pick (FfiHeap.used [(1, FfiObj.context c)]), .key k), (1, FfiObj.context c)] 1 = .ok c :=
    fun _ _ => rfl
  simp only [g2, Mem.ok_bind, he']
  rfl

/-- The hypotheses of the theorems above are met by the concrete program: the key and the buffer are live after it, the
context is dead, and no further pointer is. -/
example : ∃ js h ans, ffiRun gcmEnv js true nextAddress (program (utf8 (chars% "A,B"))) [] = .ok (ans, h) ∧
    Live .key 2 (history (program (utf8 (chars% "A,B"))) ans) ∧
    Live .buffer 3 (history (program (utf8 (chars% "A,B"))) ans) ∧
    Dead 1 (history (program (utf8 (chars% "A,B"))) ans) ∧
    given (history (program (utf8 (chars% "A,B"))) ans) = 3 ∧ released (history (program (utf8 (chars% "A,B"))) ans) = 1 ∧
    ffiStep gcmEnv js true nextAddress (.contextDestroy 1) toyTape h = .undefined ∧
    (∃ r, ffiStep gcmEnv js true nextAddress .create toyTape h = .ok (.pointer 4, r)) := by
  obtain ⟨js, h, hr, hu, sk, buf, _, _⟩ := program_runs [['A'], ['B']] (.inl rfl)
  have hd : Dead 1 (history (program (utf8 (chars% "A,B"))) [.pointer 1, .pointer 2, .stored 3 2, .done]) :=
    ⟨(history (program (utf8 (chars% "A,B"))) [.pointer 1, .pointer 2, .stored 3 2, .done]).take 3,
      (.contextDestroy 1, .done), [], rfl, rfl, by simp⟩
  refine ⟨js, h, _, hr, ?_, ?_, hd, by decide, by decide, ?_, ?_⟩
  · exact ⟨(history (program (utf8 (chars% "A,B"))) [.pointer 1, .pointer 2, .stored 3 2, .done]).take 1, _,
      (history (program (utf8 (chars% "A,B"))) [.pointer 1, .pointer 2, .stored 3 2, .done]).drop 2, rfl, rfl, by
      simp [history, program, releases]⟩
  · exact ⟨(history (program (utf8 (chars% "A,B"))) [.pointer 1, .pointer 2, .stored 3 2, .done]).take 2, _,
      (history (program (utf8 (chars% "A,B"))) [.pointer 1, .pointer 2, .stored 3 2, .done]).drop 3, rfl, rfl, by
      simp [history, program, releases]⟩
  · exact (C94_use_after_destroy hr 1 hd toyTape).1
  · have : ∃ c, ffiCreate gcmEnv toyTape = .ok c := by
      simp only [program, ffiRun, Mem.bind_eq_ok, ffiStep] at hr
      obtain ⟨_, ⟨c, hc, _⟩, _⟩ := hr
      exact ⟨c, hc⟩
    obtain ⟨c, hc⟩ := this
    refine ⟨(4, .context c) :: h, ?_⟩
    simp only [ffiStep, hc, Mem.ok_bind, FfiHeap.alloc, hu]
    rfl

/-- The whole program with a decryption at the end: undefined for the names `A` and `B`, -1 for the names `A` and `D`. -/
example : (∃ js h ans, ffiRun gcmEnv js true nextAddress (program (utf8 (chars% "A,B"))) [] = .ok (ans, h) ∧
      ffiStep gcmEnv js true nextAddress (.decrypt 2 (.stored 3) 2) toyTape h = .undefined) ∧
    (∃ js h ans, ffiRun gcmEnv js true nextAddress (program (utf8 (chars% "A,D"))) [] = .ok (ans, h) ∧
      ffiStep gcmEnv js true nextAddress (.decrypt 2 (.stored 3) 2) toyTape h = .ok (.failed, h)) := by
  let p : Pol := .gate .or [.leaf ['B'] 39, .leaf ['C'] 54]
  have hp : Denotes policyBC .json p := rfl
  have hf : p.Fits := by simp [p, Pol.Fits]
  have hn : p.leaves.Nodup := by simp [p]
  have hrel : ∀ (names : Bytes) (q m : ℕ) (e : FfiOp × Tape Fr Fr Fr Fr), (program names)[m]? = some e →
      releases e.1 = some q → m = 3 ∧ q = 1 := by
    intro names q m e he hq
    match m with
    | 0 | 1 | 2 => simp [program] at he; subst he; simp [releases] at hq
    | 3 => simp [program] at he; subst he; simp [releases] at hq; exact ⟨rfl, hq.symm⟩
    | m + 4 => simp [program] at he
  constructor
  · obtain ⟨js, h, hr, hu, _⟩ := program_runs [['A'], ['B']] (.inl rfl)
    refine ⟨js, h, _, hr, ?_⟩
    have := (C94_session_partial gcmEnv_tag _ _ h hr 0 1 2 1 2 3 2 toyTape toyTape toyTape rfl rfl [['A'], ['B']] (by decide)
      (by decide) (by decide) [] rfl rfl policyBC (by decide) p hp [1, 2] [] [3] rfl rfl (by decide) (by decide)
      (fun m e h1 h2 he hq => by have := hrel _ _ _ _ he hq; simp at h2; omega)
      (fun m e h1 he hq => by have := hrel _ _ _ _ he hq; omega)
      (fun m e h1 he hq => by have := hrel _ _ _ _ he hq; omega) toyTape).2 (by simp [p]) hf hn
      (by simp [p, Reach, ReachFirst])
      (fun l hl => by
        have : l ∈ p.leaves := (pick_sublist _ p).subset hl
        simp only [p, Pol.leaves, Pol.leavesL, List.append_nil, List.cons_append, List.nil_append, List.mem_cons,
          List.not_mem_nil, or_false] at this
        rcases this with rfl | rfl <;> simp) (by decide)
    simpa using this
  · obtain ⟨js, h, hr, hu, _⟩ := program_runs [['A'], ['D']] (.inr rfl)
    refine ⟨js, h, _, hr, ?_⟩
    exact (C94_session_partial gcmEnv_tag _ _ h hr 0 1 2 1 2 3 2 toyTape toyTape toyTape rfl rfl [['A'], ['D']] (by decide)
      (by decide) (by decide) [] rfl rfl policyBC (by decide) p hp [1, 2] [] [3] rfl rfl (by decide) (by decide)
      (fun m e h1 h2 he hq => by have := hrel _ _ _ _ he hq; simp at h2; omega)
      (fun m e h1 he hq => by have := hrel _ _ _ _ he hq; omega)
      (fun m e h1 he hq => by have := hrel _ _ _ _ he hq; omega) toyTape).1 (by simp [p])

end Bsw
end Rabe
