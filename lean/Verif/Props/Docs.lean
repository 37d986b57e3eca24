import Verif.Model.Docs
import Verif.Props.Ac17
import Verif.Props.Aw11
import Verif.Props.Bdabe
import Verif.Props.Bsw
import Verif.Props.Lsw
import Verif.Props.Mke08
import Verif.Props.Yct14

/-!
# Property C99: the examples in the documentation

For every plaintext that the symmetric encryption accepts, every environment and all random numbers.
-/

namespace Rabe

set_option linter.unusedSectionVars false

variable {F G1 G2 Gt : Type} [Field F] [DecidableEq F] [AddCommGroup G1] [Module F G1]
  [AddCommGroup G2] [Module F G2] [AddCommGroup Gt] [Module F Gt]

/-- The symmetric encryption accepts the plaintext. -/
def Accepts (env : Env F G1 G2 Gt) (plaintext : Bytes) : Prop := ∀ k n, (env.aeadEnc k n plaintext).isSome = true

theorem toy_accepts (pt : Bytes) : Accepts toyEnv pt := fun _ _ => rfl

/-- All random numbers are zero. -/
def zeroTape : Tape Fr Fr Fr Fr := { toyTape with fr := fun _ => 0 }

theorem assertPlain_ok (pt : Bytes) (s : Tape F G1 G2 Gt) : assertPlain (.ok pt) pt s = .ok ((), s) := by
  simp [assertPlain, RM.bind_apply, Res.unwrap, RM.lift]

theorem orPanic_ok {α : Type} {m : RM F G1 G2 Gt α} {s s' : Tape F G1 G2 Gt} {x : α} (h : m s = .ok (x, s')) :
    m.orPanic s = .ok (x, s') := by
  simp [RM.orPanic, h, Res.unwrap]

theorem orPanic_panic {α : Type} {m : RM F G1 G2 Gt α} {s : Tape F G1 G2 Gt} (h : m s = .panic) :
    m.orPanic s = .panic := by
  simp [RM.orPanic, h, Res.unwrap]

theorem mapL_panic {α β : Type} {f : α → RM F G1 G2 Gt β} {x : α} {xs : List α} {s : Tape F G1 G2 Gt} (h : f x s = .panic) :
    RM.mapL f (x :: xs) s = .panic := by
  show (RM.bind (f x) _) s = _
  simp [RM.bind, h]

/-- The tree of `"A" and "B"`. -/
def docAnd : Pol := .gate .and [.leaf ['A'] 2, .leaf ['B'] 10]

theorem docAnd_regular : Regular (chars% "\"A\" and \"B\"") .human docAnd :=
  ⟨rfl, by simp, by simp [Pol.Wide, docAnd], by simp [docAnd]⟩

/-- The tree of `"A" or "B"`. -/
def docOr : Pol := .gate .or [.leaf ['A'] 2, .leaf ['B'] 9]

theorem docOr_regular : Regular (chars% "\"A\" or \"B\"") .human docOr :=
  ⟨rfl, by simp, by simp [Pol.Wide, docOr], by simp [docOr]⟩

namespace Bsw

/-- **C99, BSW, partial.** The example ends normally exactly if the first random number is not zero; otherwise it aborts. (Full
claim: it always ends normally; false, the number is inverted.) -/
theorem C99_example_partial [BigChar F] (env : Env F G1 G2 Gt) (pt : Bytes) (ha : Accepts env pt) (s : Tape F G1 G2 Gt) :
    (s.fr 0 ≠ 0 → ∃ s', doc env pt s = .ok ((), s')) ∧ (s.fr 0 = 0 → doc env pt s = .panic) := by
  obtain ⟨d1, d2, d3⟩ := C25_bsw_defined env
  constructor
  · intro h0
    obtain ⟨pk, msk, t₁, h1⟩ := d1 s h0
    obtain ⟨ct, t₂, h2⟩ := d3 pk _ _ _ docAnd_regular.denotes pt ha t₁
    obtain ⟨sk, t₃, h3⟩ := d2 _ _ _ _ h1 [['A'], ['B']] (by simp) t₂
    have hd := C25_bsw_correct_partial env _ _ pk msk h1 _ _ _ sk h3 _ _ _ docAnd_regular (by
      intro n hn _
      simp [Pol.names, docAnd] at hn
      rcases hn with rfl | rfl <;> decide) pt _ _ ct h2 (by simp [docAnd])
    exact ⟨t₃, by simp [doc, RM.bind_apply, h1, orPanic_ok h2, h3, hd, assertPlain_ok, RM.lift]⟩
  · intro h0
    simp [doc, RM.bind_apply, setup, RM.genG1, RM.genG2, RM.genFr, RM.lift, inv, h0]

/-- **C99 violated.** With zero for every random number the example aborts, also when the symmetric encryption accepts the
plaintext. -/
theorem C99_violated : Accepts toyEnv [7, 8] ∧ doc toyEnv [7, 8] zeroTape = .panic :=
  ⟨toy_accepts _, (C99_example_partial toyEnv [7, 8] (toy_accepts _) zeroTape).2 (by simp [zeroTape])⟩

/-- Random numbers that are not zero. -/
example : ∃ s', doc toyEnv [7, 8] toyTape = .ok ((), s') :=
  (C99_example_partial toyEnv [7, 8] (toy_accepts _) toyTape).1 (by simp [toyTape])

end Bsw

namespace Ac17

/-- One of the two secret exponents cannot be inverted. -/
theorem inverse_panics {env : Env F G1 G2 Gt} {s t' : Tape F G1 G2 Gt} {pk msk} (h1 : setup env s = .ok ((pk, msk), t'))
    (h0 : ¬ (s.fr 0 ≠ 0 ∧ s.fr 2 ≠ 0)) :
    (∃ b0 b1, msk.b = [b0, b1]) ∧ (aInverse msk 0 = .panic ∨ ∃ x, aInverse msk 0 = .ok x ∧ aInverse msk 1 = .panic) := by
  simp only [setup, RM.bind_apply, RM.genG1, RM.genG2, RM.genFr, RM.pure_apply, Res.ok.injEq, Prod.mk.injEq] at h1
  obtain ⟨⟨-, rfl⟩, -⟩ := h1
  refine ⟨⟨_, _, rfl⟩, ?_⟩
  by_cases h : s.fr 0 = 0
  · left
    simp [aInverse, Res.index, inv, h]
  · have h' : s.fr 2 = 0 := by tauto
    right
    simp [aInverse, Res.index, inv, h, h', dropS]

/-- **C99, AC17 CP-ABE, partial.** The example ends normally exactly if the first and the third random number are not zero;
otherwise it aborts. (Full claim: it always ends normally; false, the numbers are inverted.) -/
theorem C99_example_cp_partial (env : Env F G1 G2 Gt) (pt : Bytes) (ha : Accepts env pt) (s : Tape F G1 G2 Gt) :
    (s.fr 0 ≠ 0 ∧ s.fr 2 ≠ 0 → ∃ s', docCp env pt s = .ok ((), s')) ∧
      (¬ (s.fr 0 ≠ 0 ∧ s.fr 2 ≠ 0) → docCp env pt s = .panic) := by
  obtain ⟨d1, d2, d3⟩ := C30_ac17_cp_defined env
  obtain ⟨pk, msk, t₁, h1⟩ := d1 s
  obtain ⟨ct, t₂, h2⟩ := d3 _ _ _ _ h1 _ _ _ docAnd_regular.denotes (by simp [Pol.Binary, docAnd]) pt ha t₁
  constructor
  · rintro ⟨h0, h0'⟩
    obtain ⟨sk, t₃, h3⟩ := d2 _ _ _ _ h1 h0 h0' [['A'], ['B']] (by simp) t₂
    have hd := C30_ac17_cp_correct_partial env _ _ pk msk h1 _ _ _ sk h3 _ _ _ docAnd_regular pt _ _ ct h2
      (by simp [docAnd]) (by simp [Once, Pol.names, docAnd])
    exact ⟨t₃, by simp [docCp, RM.bind_apply, h1, orPanic_ok h2, orPanic_ok h3, hd, assertPlain_ok]⟩
  · intro h0
    have h3 : cpKeygen env msk [['A'], ['B']] t₂ = .panic := by
      obtain ⟨⟨b0, b1, hb⟩, hi⟩ := inverse_panics h1 h0
      have : ∀ br a u, cpKeygenAttr env msk br a u = .panic := by
        intro br a u
        rcases hi with hi | ⟨x, hi, hi'⟩
        · simp [cpKeygenAttr, RM.bind_apply, RM.genFr, Res.mapR, hi, RM.lift, Res.rbind_eq]
        · simp [cpKeygenAttr, RM.bind_apply, RM.genFr, Res.mapR, hi, hi', RM.lift, Res.rbind_eq]
      simp [cpKeygen, RM.bind_apply, RM.genFr, brVec, hb, RM.lift, Res.index, mapL_panic (this _ _ _)]
    simp [docCp, RM.bind_apply, h1, orPanic_ok h2, orPanic_panic h3]

/-- **C99, AC17 KP-ABE, partial.** The same for the other example. -/
theorem C99_example_kp_partial (env : Env F G1 G2 Gt) (pt : Bytes) (ha : Accepts env pt) (s : Tape F G1 G2 Gt) :
    (s.fr 0 ≠ 0 ∧ s.fr 2 ≠ 0 → ∃ s', docKp env pt s = .ok ((), s')) ∧
      (¬ (s.fr 0 ≠ 0 ∧ s.fr 2 ≠ 0) → docKp env pt s = .panic) := by
  obtain ⟨d2, d3⟩ := C32_ac17_kp_defined env
  obtain ⟨pk, msk, t₁, h1⟩ := (C30_ac17_cp_defined env).1 s
  obtain ⟨ct, t₂, h2⟩ := d3 _ _ _ _ h1 [['A'], ['B']] pt ha t₁
  constructor
  · rintro ⟨h0, h0'⟩
    obtain ⟨sk, t₃, h3⟩ := d2 _ _ _ _ h1 h0 h0' _ _ _ docAnd_regular.denotes (by simp [Pol.Binary, docAnd]) t₂
    have hd := C32_ac17_kp_correct_partial env _ _ pk msk h1 _ _ _ docAnd_regular _ _ sk h3 _ pt _ _ ct h2
      (by simp [docAnd]) (by simp [Once, Pol.names, docAnd])
    exact ⟨t₃, by simp [docKp, RM.bind_apply, h1, orPanic_ok h2, orPanic_ok h3, hd, assertPlain_ok]⟩
  · intro h0
    have h3 : kpKeygen env msk (chars% "\"A\" and \"B\"") .human t₂ = .panic := by
      obtain ⟨⟨b0, b1, hb⟩, hi⟩ := inverse_panics h1 h0
      have hm : ∃ m, calculateMsp docAnd.toValue = .ok m ∧ ∃ r rs q qs, m.m = r :: rs ∧ m.pi = q :: qs :=
        ⟨_, rfl, _, _, _, _, rfl, rfl⟩
      obtain ⟨m, hm, r, rs, q, qs, hr, hq⟩ := hm
      have hne : ∀ (row : List ℤ) (x : G1) (t : ℕ), addGk (row.getD 0 0) x msk.gK t ≠ .err := by
        intro row x t
        simp only [addGk, Res.index]
        split
        · cases msk.gK[t]? <;> simp [Res.unwrapOption]
        · split
          · cases msk.gK[t]? <;> simp [Res.unwrapOption]
          · simp
      have : ∀ br sp n row u, kpKeygenRow env msk br sp n row u = .panic := by
        intro br sp n row u
        rcases hi with hi | ⟨x, hi, hi'⟩
        · simp [kpKeygenRow, RM.bind_apply, RM.genFr, Res.mapR, kpKeyEntry, hi, RM.lift, Res.rbind_eq]
        · have he : ∀ σ, kpKeyEntry env msk br sp n σ row 1 = .panic := by
            intro σ
            simp [kpKeyEntry, hi']
          have he' : ∀ σ, kpKeyEntry env msk br sp n σ row 0 ≠ .err := by
            intro σ
            simp only [kpKeyEntry, hi, Res.ok_bind]
            cases h : addGk (row.2.getD 0 0) (hashSum env msk.g row.1 br x 0 0 + (σ * x) • msk.g) msk.gK 0 with
            | ok y => simp
            | err => exact absurd h (hne _ _ _)
            | panic => simp
          have : Res.mapR (kpKeyEntry env msk br sp n (u.fr 0) row) [0, 1] = .panic := by
            simp only [Res.mapR, he, Res.rbind_eq]
            cases h : kpKeyEntry env msk br sp n (u.fr 0) row 0 with
            | ok y => simp
            | err => exact absurd h (he' _)
            | panic => simp
          simp [kpKeygenRow, RM.bind_apply, RM.genFr, this, RM.lift]
      obtain ⟨sp, u, hsp⟩ := RM.mapL_total (f := fun _ : ℕ => (RM.genFr : RM F G1 G2 Gt F)) (xs := List.range (r.length - 1))
        (by intro x _ u; simp [RM.genFr]) { t₂ with fr := dropS 1 (dropS 1 t₂.fr) }
      simp only [kpKeygen, RM.bind_apply, RM.lift, show parse _ .human = _ from docAnd_regular.denotes, hm, Res.ok_bind, hr, hq,
        Res.unwrap, RM.genFr, brVec, hb]
      simp [hsp, mapL_panic (this _ _ _ _ _), Res.index, List.zip]
    simp [docKp, RM.bind_apply, h1, orPanic_ok h2, orPanic_panic h3]

/-- **C99 violated.** With zero for every random number the example aborts, also when the symmetric encryption accepts the
plaintext. -/
theorem C99_violated_cp : Accepts toyEnv [7, 8] ∧ docCp toyEnv [7, 8] zeroTape = .panic :=
  ⟨toy_accepts _, (C99_example_cp_partial toyEnv [7, 8] (toy_accepts _) zeroTape).2 (by simp [zeroTape])⟩

/-- Random numbers that are not zero. -/
example : ∃ s', docCp toyEnv [7, 8] toyTape = .ok ((), s') :=
  (C99_example_cp_partial toyEnv [7, 8] (toy_accepts _) toyTape).1 (by simp [toyTape])

/-- **C99 violated.** With zero for every random number the example aborts, also when the symmetric encryption accepts the
plaintext. -/
theorem C99_violated_kp : Accepts toyEnv [7, 8] ∧ docKp toyEnv [7, 8] zeroTape = .panic :=
  ⟨toy_accepts _, (C99_example_kp_partial toyEnv [7, 8] (toy_accepts _) zeroTape).2 (by simp [zeroTape])⟩

/-- Random numbers that are not zero. -/
example : ∃ s', docKp toyEnv [7, 8] toyTape = .ok ((), s') :=
  (C99_example_kp_partial toyEnv [7, 8] (toy_accepts _) toyTape).1 (by simp [toyTape])

end Ac17

namespace Lsw

/-- **C99, LSW.** The example ends normally, whatever the random numbers. -/
theorem C99_example [BigChar F] (env : Env F G1 G2 Gt) (pt : Bytes) (ha : Accepts env pt) (hpt : pt ≠ [])
    (s : Tape F G1 G2 Gt) : ∃ s', doc env pt s = .ok ((), s') := by
  obtain ⟨d1, d2, d3⟩ := C34_lsw_defined env
  have hr : Regular (chars% "\"B\" or \"C\"") .human (.gate .or [.leaf ['B'] 2, .leaf ['C'] 9]) :=
    ⟨rfl, by simp, by simp [Pol.Wide], by simp⟩
  obtain ⟨pk, msk, t₁, h1⟩ := d1 s
  obtain ⟨ct, t₂, h2⟩ := d3 pk [['A'], ['B']] pt (by simp) hpt ha t₁
  obtain ⟨sk, t₃, h3⟩ := d2 pk msk _ _ _ hr.denotes (by
    intro n hn
    simp [Pol.names] at hn
    rcases hn with rfl | rfl <;> simp [BadName]) t₂
  have hd := C34_lsw_correct_partial env _ _ pk msk h1 _ _ _ hr _ _ sk h3 _ pt _ _ ct h2 (by simp)
    (by simp [Separate, Pol.names]) (by simp [Positive, Pol.names])
  exact ⟨t₃, by simp [doc, RM.bind_apply, h1, orPanic_ok h2, orPanic_ok h3, hd, assertPlain_ok]⟩

/-- The hypotheses hold, also if all random numbers are zero. -/
example : ∃ s', doc toyEnv [7, 8] zeroTape = .ok ((), s') := C99_example toyEnv [7, 8] (toy_accepts _) (by simp) zeroTape

end Lsw

namespace Yct14

/-- **C99, YCT14, partial.** The example ends normally exactly if the second and the third random number (the secrets of `A` and `B`)
are not zero; otherwise it aborts. (Full claim: it always ends normally; false, the numbers are inverted.) -/
theorem C99_example_partial [BigChar F] (env : Env F G1 G2 Gt) (pt : Bytes) (ha : Accepts env pt) (hpt : pt ≠ [])
    (s : Tape F G1 G2 Gt) : (s.fr 1 ≠ 0 ∧ s.fr 2 ≠ 0 → ∃ s', doc env pt s = .ok ((), s')) ∧
      (¬ (s.fr 1 ≠ 0 ∧ s.fr 2 ≠ 0) → doc env pt s = .panic) := by
  obtain ⟨d1, d2⟩ := C36_yct14_defined env [['A'], ['B'], ['C']]
  obtain ⟨pk, msk, t₁, h1⟩ := d1 s
  obtain ⟨ct, t₂, h2⟩ := (d2 _ _ _ _ h1).2 [['A'], ['B']] pt (by simp) (by simp) hpt ha t₁
  have hm : ∃ a b c, msk.attributes = [⟨['A'], some (.priv (s.fr 1))⟩, ⟨['B'], some (.priv (s.fr 2))⟩,
      ⟨c, some (.priv b)⟩] ∧ msk.s = a := by
    simp only [setup, RM.bind_apply, RM.genGt, RM.genFr, RM.pure_apply, RM.mapL, Attribute.new] at h1
    obtain ⟨⟨-, rfl⟩, -⟩ := h1
    exact ⟨_, _, _, rfl, rfl⟩
  obtain ⟨a, b, c, hm, hs⟩ := hm
  have g : ∀ (n : Str) (z x : F), msk.getPrivate (removeIndex n) = .ok z →
      keygenShare msk (n, x) = if z = 0 then .panic else .ok (some ⟨removeIndex n, some (.priv (x * z⁻¹))⟩) := by
    intro n z x h
    by_cases hz : z = 0 <;> simp [keygenShare, privateFrom, h, inv, hz]
  have gA : msk.getPrivate (removeIndex (leafIdx (['A'], 2))) = .ok (s.fr 1) := by
    rw [show removeIndex (leafIdx (['A'], 2)) = ['A'] from by decide]
    simp [MasterKey.getPrivate, hm, Res.unwrapOption, Node.private, Res.unwrap]
  have gB : msk.getPrivate (removeIndex (leafIdx (['B'], 9))) = .ok (s.fr 2) := by
    rw [show removeIndex (leafIdx (['B'], 9)) = ['B'] from by decide]
    simp [MasterKey.getPrivate, hm, Res.unwrapOption, Node.private, Res.unwrap]
  have hp : parse (chars% "\"A\" or \"B\"") .human = .ok docOr.toValue := docOr_regular.denotes
  obtain ⟨x, y, hxy⟩ : ∃ x y, shares docOr msk.s t₂.fr = [(leafIdx (['A'], 2), x), (leafIdx (['B'], 9), y)] := by
    simp [shares, docOr, Pol.leaves, shareVals, shareValsL]
  refine ⟨?_, ?_⟩
  · rintro ⟨n1, n2⟩
    obtain ⟨sk, t₃, h3⟩ : ∃ sk t₃, keygen msk (chars% "\"A\" or \"B\"") .human t₂ = .ok (sk, t₃) := by
      simp [keygen, hp, RM.liftFr, genSharesPolicy_eq, hxy, Res.mapR, Res.rbind_eq, g _ _ _ gA, g _ _ _ gB, n1, n2]
    have hd := C36_yct14_correct_partial env _ _ _ pk msk h1 _ _ _ docOr_regular _ _ sk h3 _ pt _ _ ct h2
      (by simp [docOr]) (by simp [Separate, Pol.names, docOr])
    exact ⟨t₃, by simp [doc, RM.bind_apply, h1, orPanic_ok h2, orPanic_ok h3, hd, assertPlain_ok]⟩
  · intro n
    have h3 : keygen msk (chars% "\"A\" or \"B\"") .human t₂ = .panic := by
      by_cases n1 : s.fr 1 = 0
      · simp [keygen, hp, RM.liftFr, genSharesPolicy_eq, hxy, Res.mapR, Res.rbind_eq, g _ _ _ gA, n1]
      · have n2 : s.fr 2 = 0 := by
          by_contra h
          exact n ⟨n1, h⟩
        simp [keygen, hp, RM.liftFr, genSharesPolicy_eq, hxy, Res.mapR, Res.rbind_eq, g _ _ _ gA, g _ _ _ gB, n1, n2]
    simp [doc, RM.bind_apply, h1, orPanic_ok h2, orPanic_panic h3]

/-- **C99 violated.** With zero for every random number the example aborts, also when the symmetric encryption accepts the
plaintext. -/
theorem C99_violated : Accepts toyEnv [7, 8] ∧ doc toyEnv [7, 8] zeroTape = .panic :=
  ⟨toy_accepts _, (C99_example_partial toyEnv [7, 8] (toy_accepts _) (by simp) zeroTape).2 (by simp [zeroTape])⟩

/-- Random numbers that are not zero. -/
example : ∃ s', doc toyEnv [7, 8] toyTape = .ok ((), s') :=
  (C99_example_partial toyEnv [7, 8] (toy_accepts _) (by simp) toyTape).1 (by simp [toyTape])

end Yct14

namespace Aw11

/-- **C99, AW11.** The example ends normally, whatever the random numbers (`A` and `B` are letters in upper case). -/
theorem C99_example [BigChar F] (cm : CaseMap) (hA : cm.upper ['A'] = ['A']) (hB : cm.upper ['B'] = ['B'])
    (env : Env F G1 G2 Gt) (pt : Bytes) (ha : Accepts env pt) (s : Tape F G1 G2 Gt) :
    ∃ s', doc cm env pt s = .ok ((), s') := by
  obtain ⟨d1, d2, d3⟩ := C38_aw11_defined cm env
  obtain ⟨gk, t₁, h1⟩ := d1 s
  obtain ⟨pk, msk, t₂, h2⟩ := d2 gk [['A'], ['B']] (by simp) t₁
  let a : Authority F G2 Gt := ⟨[['A'], ['B']], pk, msk⟩
  have hG : a.Genuine cm env gk := ⟨_, _, h2⟩
  obtain ⟨bob, h3⟩ := (C38_aw11_defined_add cm env gk a hG ['A'] ⟨chars% "bob", []⟩).2 ⟨by simp, by simp, by simp [a, hA]⟩
  have h3' : keygen cm env gk msk (chars% "bob") [['A']] = .ok bob := by
    simp only [keygen, Res.foldR, List.isEmpty_cons, Bool.false_eq_true, if_false]
    rw [h3]
    rfl
  obtain ⟨ct, t₃, h4⟩ := d3 gk [pk] _ _ _ docOr_regular.denotes (by simp [Pol.Binary, docOr]) pt ha t₂
  have hGs : ∀ x ∈ [a], x.Genuine cm env gk := by simpa using hG
  obtain ⟨L, _, _, hL⟩ := authorities_ok hGs
  have hn : bob.attr.map (·.1) = [['A']] := by
    obtain ⟨L, hL, hLn, hA'⟩ := authorities_ok hGs
    obtain ⟨-, -, x, -, hx, -, rfl⟩ := addToAttribute_ok hL (by
      intro x hx
      have : x.1.name ∈ L.map (·.1.name) := List.mem_map.2 ⟨x, hx, rfl⟩
      rw [hLn] at this
      simp [a, hA, hB] at this
      rcases this with h | h <;> rw [h] <;> assumption) (hA' a (by simp)).2.1 h3
    simp
  have hd := C38_aw11_correct_partial cm env gk [a] hGs (by simp [a, hA, hB]) bob (.keygen (a := a) (by simp) h3')
    _ _ _ docOr_regular (by rw [hn]; simp; rintro n - rfl; decide) (by simp [Pol.names, docOr, hA, hB]) [pk] (by simp [a]) (by
      rw [hn]
      intro n _ hn
      simp only [List.mem_singleton] at hn
      subst hn
      refine ⟨pk, by simp, ?_⟩
      rw [show pk = a.pk from rfl, (hL a (by simp)).2.2.1]
      simp [a, hA]) pt _ _ ct h4 (by rw [hn]; simp [docOr])
  exact ⟨t₃, by simp [doc, RM.bind_apply, h1, h2, h3', orPanic_ok h4, hd, assertPlain_ok, RM.lift, Res.unwrap]⟩

/-- The hypotheses hold, also if all random numbers are zero. -/
example : ∃ s', doc asciiCase toyEnv [7, 8] zeroTape = .ok ((), s') :=
  C99_example asciiCase (by decide) (by decide) toyEnv [7, 8] (toy_accepts _) zeroTape

end Aw11

namespace Mke08

/-- **C99, MKE08.** The example ends normally, whatever the random numbers. -/
theorem C99_example (env : Env F G1 G2 Gt) (one : G1 × G2) (pt : Bytes) (ha : Accepts env pt) (s : Tape F G1 G2 Gt) :
    ∃ s', doc env one pt s = .ok ((), s') := by
  obtain ⟨d1, d2, d3, d4⟩ := C46_mke08_defined env
  obtain ⟨pk, msk, t₁, h1⟩ := d1 s
  obtain ⟨sk, t₂, h2⟩ := d3 pk msk (chars% "user1") t₁
  obtain ⟨a₁, t₃, h3, -, n1⟩ := d2 (chars% "aa1") t₂
  obtain ⟨a₂, t₄, h4, -, n2⟩ := d2 (chars% "aa2") t₃
  have f1 : fromAuthority (chars% "aa1::A") a₁.name = true := by rw [n1]; decide
  have f2 : fromAuthority (chars% "aa2::B") a₂.name = true := by rw [n2]; decide
  obtain ⟨p1, e1, v1⟩ : ∃ p, requestAuthorityPk env pk (chars% "aa1::A") a₁ = .ok p ∧ p.attr = chars% "aa1::A" := by
    simp [requestAuthorityPk, f1]
  obtain ⟨p2, e2, v2⟩ : ∃ p, requestAuthorityPk env pk (chars% "aa2::B") a₂ = .ok p ∧ p.attr = chars% "aa2::B" := by
    simp [requestAuthorityPk, f2]
  obtain ⟨k1, e3, v3⟩ : ∃ p, requestAuthoritySk env sk.pk (chars% "aa1::A") a₁ = .ok p ∧ p.attr = chars% "aa1::A" := by
    simp [requestAuthoritySk, f1, isEligible]
  obtain ⟨k2, e4, v4⟩ : ∃ p, requestAuthoritySk env sk.pk (chars% "aa2::B") a₂ = .ok p ∧ p.attr = chars% "aa2::B" := by
    simp [requestAuthoritySk, f2, isEligible]
  have hsk : sk.skA = [] := by
    simp only [keygen, RM.bind_apply, RM.genFr, RM.pure_apply, Res.ok.injEq, Prod.mk.injEq] at h2
    rw [← h2.1]
  let p : Pol := .gate .and [.leaf (chars% "aa1::A") 2, .leaf (chars% "aa2::B") 15]
  have hp : Denotes (chars% "\"aa1::A\" and \"aa2::B\"") .human p := by with_unfolding_all rfl
  obtain ⟨ct, t₅, h5⟩ := (d4 pk [p1, p2] _ _ p hp pt ha t₄).1 (by simp [Pol.IsDnf, p])
  have hI : Issued env pk msk [a₁, a₂] { sk with skA := sk.skA ++ [k1] ++ [k2] } :=
    .request { sk with skA := sk.skA ++ [k1] } a₂ _ k2
      (.request sk a₁ _ k1 (.keygen _ _ _ _ h2) (by simp) e3) (by simp) e4
  have hd := C46_mke08_correct_partial env one _ _ pk msk h1 [a₁, a₂] (by
      have : a₁.name ≠ a₂.name := by rw [n1, n2]; decide
      simp [this, this.symm]) _ hI [p1, p2] (by
      intro k hk
      simp only [List.mem_cons, List.not_mem_nil, or_false] at hk
      rcases hk with rfl | rfl
      · exact ⟨a₁, by simp, _, e1⟩
      · exact ⟨a₂, by simp, _, e2⟩) _ _ p hp (by simp [Pol.names, p, v1, v2]) (by simp [p]) pt _ _ ct h5
    (by simp [hsk, v3, v4, p])
  refine ⟨t₅, ?_⟩
  simp only [doc, RM.bind_apply, h1, h2, h3, h4, e1, e2, e3, e4, orPanic_ok h5, RM.lift, Res.unwrap, Res.ok_bind, hd, assertPlain_ok]

/-- The hypothesis holds, also if all random numbers are zero. -/
example : ∃ s', doc toyEnv (1, 1) [7, 8] zeroTape = .ok ((), s') := C99_example toyEnv (1, 1) [7, 8] (toy_accepts _) zeroTape

end Mke08

namespace Bdabe

/-- **C99, BDABE.** The example ends normally, whatever the random numbers, although the public key of `auth1::B` is missing. -/
theorem C99_example (env : Env F G1 G2 Gt) (one : G1 × G2) (pt : Bytes) (ha : Accepts env pt) (s : Tape F G1 G2 Gt) :
    ∃ s', doc env one pt s = .ok ((), s') := by
  obtain ⟨d1, d2, d3, d4⟩ := C44_bdabe_defined env
  obtain ⟨pk, msk, t₁, h1⟩ := d1 s
  obtain ⟨a, t₂, h2, hG, n1⟩ := d2 pk msk (chars% "auth1") t₁
  obtain ⟨sk, t₃, h3⟩ := d3 pk a (chars% "u1") t₂
  have f1 : fromAuthority (chars% "auth1::A") a.name = true := by rw [n1]; decide
  obtain ⟨k, e1, v1⟩ : ∃ p, requestAttributePk env pk a (chars% "auth1::A") = .ok p ∧ p.attr = chars% "auth1::A" := by
    simp [requestAttributePk, f1]
  obtain ⟨x, e2, v2⟩ : ∃ p, requestAttributeSk env sk.pk a (chars% "auth1::A") = .ok p ∧ p.attr = chars% "auth1::A" := by
    simp [requestAttributeSk, f1, isEligible]
  have hsk : sk.skA = [] := by
    simp only [keygen, RM.bind_apply, RM.genFr, RM.pure_apply, Res.ok.injEq, Prod.mk.injEq] at h3
    rw [← h3.1]
  let p : Pol := .gate .or [.leaf (chars% "auth1::A") 2, .leaf (chars% "auth1::B") 16]
  have hp : Denotes (chars% "\"auth1::A\" or \"auth1::B\"") .human p := by with_unfolding_all rfl
  obtain ⟨ct, t₄, h4⟩ := (d4 pk [k] _ _ p hp pt ha t₃).1 (by simp [Pol.IsDnf, Pol.IsTerm, p])
  have hI : Issued env pk [a] { sk with skA := sk.skA ++ [x] } :=
    .request sk a _ x (.keygen a _ _ _ _ (by simp) h3) (by simp) e2
  have hd : decrypt env one { sk with skA := sk.skA ++ [x] } ct = .ok pt := by
    obtain ⟨terms, msg, hterms, hpol, hd, _, hj⟩ := encrypt_ok hp h4
    have hinj : ∀ b ∈ [a], ∀ c ∈ [a], b.name = c.name → b = c := by simp
    have hc := encrypt_ctOk (setup_ok h1) hinj (show Requested env pk [a] [k] from by
      intro k' hk'
      simp only [List.mem_singleton] at hk'
      exact ⟨a, by simp, _, hk' ▸ e1⟩) hterms hp hj
    have hcov : Covers [chars% "auth1::A"] terms := by
      obtain ⟨hdnf, rfl⟩ := jsonToDnf_ok hterms
      obtain ⟨t, ht, ks, -, hks, hm⟩ := (dnf_terms ([k].map PublicAttributeKey.view) p hdnf).2 (.leaf (chars% "auth1::A") 2) (by simp [Pol.disjuncts, p])
        (by simp [Pol.names]) (by simp [Pol.names, PublicAttributeKey.view, v1])
      refine covers_sort.2 ⟨t, ht, ?_⟩
      intro n hn
      rw [hm.1] at hn
      obtain ⟨y, hy, rfl⟩ := List.mem_map.1 hn
      simpa [Pol.names] using (hks y hy).2
    have hpol' : parse ct.policy.1 ct.policy.2 = .ok p.toValue := by rw [hpol]; exact hp
    rw [(decrypt_eq hc (issued_ok (by simpa using hG) hinj hI) one hpol' (by simp) (by simp [hsk, v2, p])).1
      ((covers_j hj _).2 (by simpa [hsk, v2] using hcov)), hd]
  refine ⟨t₄, ?_⟩
  simp only [doc, RM.bind_apply, h1, h2, h3, e1, e2, orPanic_ok h4, RM.lift, Res.unwrap, Res.ok_bind, hd, assertPlain_ok]

/-- The hypothesis holds, also if all random numbers are zero. -/
example : ∃ s', doc toyEnv (1, 1) [7, 8] zeroTape = .ok ((), s') := C99_example toyEnv (1, 1) [7, 8] (toy_accepts _) zeroTape

end Bdabe

/-! ## What a normal end says, and no other outcome than normal end and abort -/

theorem orPanic_ok_iff {α : Type} {m : RM F G1 G2 Gt α} {s : Tape F G1 G2 Gt} {r : α × Tape F G1 G2 Gt} :
    m.orPanic s = .ok r ↔ m s = .ok r := by
  rw [RM.orPanic]
  cases m s <;> simp [Res.unwrap]

theorem assertPlain_ok_iff {r : Res Bytes} {pt : Bytes} {s : Tape F G1 G2 Gt} {x : Unit × Tape F G1 G2 Gt} :
    assertPlain r pt s = .ok x → r = .ok pt := by
  intro h
  obtain ⟨⟨⟩, s'⟩ := x
  simp only [assertPlain, RM.bind_ok, RM.lift_ok_iff] at h
  obtain ⟨y, t, ⟨h1, rfl⟩, h2, -⟩ := h
  split at h2
  · rename_i e
    subst e
    cases r <;> simp_all [Res.unwrap]
  · simp at h2

/-- A computation that ends normally or aborts, without an error to handle. -/
def NoErr {α : Type} (m : RM F G1 G2 Gt α) : Prop := ∀ s, m s ≠ .err

namespace NoErr

theorem bind {α β : Type} {m : RM F G1 G2 Gt α} {f : α → RM F G1 G2 Gt β} (h : NoErr m) (hf : ∀ x, NoErr (f x)) :
    NoErr (m >>= f) := by
  intro s
  rw [RM.bind_apply]
  cases e : m s with
  | ok x => simpa using hf x.1 x.2
  | err => exact absurd e (h s)
  | panic => simp

theorem pure {α : Type} (x : α) : NoErr (Pure.pure x : RM F G1 G2 Gt α) := fun _ => by simp

theorem orPanic {α : Type} (m : RM F G1 G2 Gt α) : NoErr m.orPanic := fun s => by
  rw [RM.orPanic]
  cases m s <;> simp [Res.unwrap]

theorem lift {α : Type} {r : Res α} (h : r ≠ .err) : NoErr (RM.lift r : RM F G1 G2 Gt α) := fun s => by
  cases r <;> simp_all

theorem unwrap {α : Type} (r : Res α) : Res.unwrap r ≠ .err := by cases r <;> simp [Res.unwrap]

theorem unwrapOption {α : Type} (o : Option α) : Res.unwrapOption o ≠ .err := by cases o <;> simp [Res.unwrapOption]

theorem inverse (x : F) : inv x ≠ .err := by
  rw [inv]
  split <;> simp

theorem assert (r : Res Bytes) (pt : Bytes) : NoErr (assertPlain r pt : RM F G1 G2 Gt Unit) :=
  (lift (unwrap r)).bind fun x => lift (by split <;> simp)

theorem genFr : NoErr (RM.genFr : RM F G1 G2 Gt F) := fun s => by simp [RM.genFr]
theorem genG1 : NoErr (RM.genG1 : RM F G1 G2 Gt G1) := fun s => by simp [RM.genG1]
theorem genG2 : NoErr (RM.genG2 : RM F G1 G2 Gt G2) := fun s => by simp [RM.genG2]
theorem genGt : NoErr (RM.genGt : RM F G1 G2 Gt Gt) := fun s => by simp [RM.genGt]

theorem mapL {α β : Type} {f : α → RM F G1 G2 Gt β} (h : ∀ x, NoErr (f x)) : ∀ xs, NoErr (RM.mapL f xs) := by
  intro xs
  induction xs with
  | nil => exact pure _
  | cons x xs ih => exact (h x).bind fun _ => ih.bind fun _ => pure _

end NoErr

/-- **C99, BSW.** If the example ends normally, decryption in it returned the plaintext; and it never ends with an error, for any
plaintext. -/
theorem Bsw.C99_returns (env : Env F G1 G2 Gt) (pt : Bytes) : NoErr (doc env pt) ∧ ∀ s s', doc env pt s = .ok ((), s') →
    ∃ pk msk ct sk t₁ t₂ t₃, setup env s = .ok ((pk, msk), t₁) ∧
      encrypt env pk (chars% "\"A\" and \"B\"") .human pt t₁ = .ok (ct, t₂) ∧
      keygen env pk msk [['A'], ['B']] t₂ = .ok (some sk, t₃) ∧ decrypt env sk ct = .ok pt := by
  constructor
  · refine NoErr.bind ?_ fun x => (NoErr.orPanic _).bind fun ct => NoErr.bind ?_ fun o =>
      (NoErr.lift (NoErr.unwrapOption _)).bind fun sk => NoErr.assert _ _
    · exact NoErr.genG1.bind fun _ => NoErr.genG2.bind fun _ => NoErr.genFr.bind fun _ => NoErr.genFr.bind fun _ =>
        (NoErr.lift (NoErr.inverse _)).bind fun _ => NoErr.pure _
    · exact NoErr.genFr.bind fun _ => (NoErr.lift (NoErr.inverse _)).bind fun _ =>
        (NoErr.mapL (fun _ => NoErr.genFr.bind fun _ => NoErr.pure _) _).bind fun _ => NoErr.pure _
  · intro s s' h
    simp only [doc, RM.bind_ok, orPanic_ok_iff, RM.lift_ok_iff] at h
    obtain ⟨⟨pk, msk⟩, t1, h1, ct, t2, h2, o, t3, h3, sk, t4, ⟨h4, rfl⟩, h5⟩ := h
    cases o with
    | none => simp [Res.unwrapOption] at h4
    | some k =>
      obtain rfl := Res.ok.inj h4
      exact ⟨pk, msk, ct, k, t1, t2, t4, h1, h2, h3, assertPlain_ok_iff h5⟩

/-- **C99, AC17, both examples.** If an example ends normally, decryption in it returned the plaintext; and it never ends with an
error, for any plaintext. -/
theorem Ac17.C99_returns (env : Env F G1 G2 Gt) (pt : Bytes) : NoErr (docCp env pt) ∧ NoErr (docKp env pt) ∧
    (∀ s s', docCp env pt s = .ok ((), s') → ∃ pk msk ct sk t₁ t₂ t₃, setup env s = .ok ((pk, msk), t₁) ∧
      cpEncrypt env pk (chars% "\"A\" and \"B\"") pt .human t₁ = .ok (ct, t₂) ∧
      cpKeygen env msk [['A'], ['B']] t₂ = .ok (sk, t₃) ∧ cpDecrypt env sk ct = .ok pt) ∧
    ∀ s s', docKp env pt s = .ok ((), s') → ∃ pk msk ct sk t₁ t₂ t₃, setup env s = .ok ((pk, msk), t₁) ∧
      kpEncrypt env pk [['A'], ['B']] pt t₁ = .ok (ct, t₂) ∧
      kpKeygen env msk (chars% "\"A\" and \"B\"") .human t₂ = .ok (sk, t₃) ∧ kpDecrypt env sk ct = .ok pt := by
  have hs : NoErr (setup env) := by
    intro s
    obtain ⟨pk, msk, t₁, h1⟩ := (C30_ac17_cp_defined env).1 s
    simp [h1]
  refine ⟨hs.bind fun x => (NoErr.orPanic _).bind fun _ => (NoErr.orPanic _).bind fun _ => NoErr.assert _ _,
    hs.bind fun x => (NoErr.orPanic _).bind fun _ => (NoErr.orPanic _).bind fun _ => NoErr.assert _ _, ?_, ?_⟩
  · intro s s' h
    simp only [docCp, RM.bind_ok, orPanic_ok_iff] at h
    obtain ⟨⟨pk, msk⟩, t1, h1, ct, t2, h2, sk, t3, h3, h5⟩ := h
    exact ⟨pk, msk, ct, sk, t1, t2, t3, h1, h2, h3, assertPlain_ok_iff h5⟩
  · intro s s' h
    simp only [docKp, RM.bind_ok, orPanic_ok_iff] at h
    obtain ⟨⟨pk, msk⟩, t1, h1, ct, t2, h2, sk, t3, h3, h5⟩ := h
    exact ⟨pk, msk, ct, sk, t1, t2, t3, h1, h2, h3, assertPlain_ok_iff h5⟩

/-- **C99, LSW.** If the example ends normally, decryption in it returned the plaintext; and it never ends with an error, for any
plaintext. -/
theorem Lsw.C99_returns (env : Env F G1 G2 Gt) (pt : Bytes) : NoErr (doc env pt) ∧ ∀ s s', doc env pt s = .ok ((), s') →
    ∃ pk msk ct sk t₁ t₂ t₃, setup env s = .ok ((pk, msk), t₁) ∧ encrypt env pk [['A'], ['B']] pt t₁ = .ok (ct, t₂) ∧
      keygen env pk msk (chars% "\"B\" or \"C\"") .human t₂ = .ok (sk, t₃) ∧ decrypt env sk ct = .ok pt := by
  have hs : NoErr (setup env) := by
    intro s
    simp [setup, RM.bind_apply, RM.genFr, RM.genG1, RM.genG2]
  refine ⟨hs.bind fun x => (NoErr.orPanic _).bind fun _ => (NoErr.orPanic _).bind fun _ => NoErr.assert _ _, ?_⟩
  intro s s' h
  simp only [doc, RM.bind_ok, orPanic_ok_iff] at h
  obtain ⟨⟨pk, msk⟩, t1, h1, ct, t2, h2, sk, t3, h3, h5⟩ := h
  exact ⟨pk, msk, ct, sk, t1, t2, t3, h1, h2, h3, assertPlain_ok_iff h5⟩

/-- **C99, YCT14.** If the example ends normally, decryption in it returned the plaintext; and it never ends with an error, for
any plaintext. -/
theorem Yct14.C99_returns (env : Env F G1 G2 Gt) (pt : Bytes) : NoErr (doc env pt) ∧ ∀ s s', doc env pt s = .ok ((), s') →
    ∃ pk msk ct sk t₁ t₂ t₃, (setup [['A'], ['B'], ['C']] : RM F G1 G2 Gt _) s = .ok ((pk, msk), t₁) ∧
      encrypt env pk [['A'], ['B']] pt t₁ = .ok (ct, t₂) ∧
      keygen msk (chars% "\"A\" or \"B\"") .human t₂ = .ok (sk, t₃) ∧ decrypt env sk ct = .ok pt := by
  have hs : NoErr (setup [['A'], ['B'], ['C']] : RM F G1 G2 Gt _) := by
    intro s
    obtain ⟨pk, msk, t₁, h1⟩ := (C36_yct14_defined env [['A'], ['B'], ['C']]).1 s
    simp [h1]
  refine ⟨hs.bind fun x => (NoErr.orPanic _).bind fun _ => (NoErr.orPanic _).bind fun _ => NoErr.assert _ _, ?_⟩
  intro s s' h
  simp only [doc, RM.bind_ok, orPanic_ok_iff] at h
  obtain ⟨⟨pk, msk⟩, t1, h1, ct, t2, h2, sk, t3, h3, h5⟩ := h
  exact ⟨pk, msk, ct, sk, t1, t2, t3, h1, h2, h3, assertPlain_ok_iff h5⟩

theorem unwrap_ok_iff {α : Type} {r : Res α} {x : α} : Res.unwrap r = .ok x ↔ r = .ok x := by cases r <;> simp [Res.unwrap]

theorem unwrapOption_ok_iff {α : Type} {o : Option α} {x : α} : Res.unwrapOption o = .ok x ↔ o = some x := by
  cases o <;> simp [Res.unwrapOption]

/-- **C99, AW11.** If the example ends normally, decryption in it returned the plaintext; and it never ends with an error, for any
plaintext. -/
theorem Aw11.C99_returns (cm : CaseMap) (env : Env F G1 G2 Gt) (pt : Bytes) : NoErr (doc cm env pt) ∧
    ∀ s s', doc cm env pt s = .ok ((), s') → ∃ gk pk msk sk ct t₁ t₂ t₃, setup s = .ok (gk, t₁) ∧
      authgen cm env gk [['A'], ['B']] t₁ = .ok (some (pk, msk), t₂) ∧
      keygen cm env gk msk (chars% "bob") [['A']] = .ok sk ∧
      encrypt cm env gk [pk] (chars% "\"A\" or \"B\"") .human pt t₂ = .ok (ct, t₃) ∧ decrypt env gk sk ct = .ok pt := by
  constructor
  · refine NoErr.bind (NoErr.genG1.bind fun _ => NoErr.genG2.bind fun _ => NoErr.pure _) fun gk => NoErr.bind ?_ fun o =>
      (NoErr.lift (NoErr.unwrapOption _)).bind fun a => (NoErr.lift (NoErr.unwrap _)).bind fun sk =>
      (NoErr.orPanic _).bind fun ct => NoErr.assert _ _
    exact (NoErr.mapL (fun _ => NoErr.genFr.bind fun _ => NoErr.genFr.bind fun _ => NoErr.pure _) _).bind fun _ => NoErr.pure _
  · intro s s' h
    simp only [doc, RM.bind_ok, orPanic_ok_iff, RM.lift_ok_iff, unwrap_ok_iff, unwrapOption_ok_iff] at h
    obtain ⟨gk, t1, h1, o, t2, h2, ⟨pk, msk⟩, t3, ⟨rfl, rfl⟩, sk, t4, ⟨h4, rfl⟩, ct, t5, h5, h6⟩ := h
    exact ⟨gk, pk, msk, sk, ct, t1, t4, t5, h1, h2, h4, h5, assertPlain_ok_iff h6⟩

/-- **C99, MKE08.** If the example ends normally, decryption in it returned the plaintext; and it never ends with an error, for any
plaintext. -/
theorem Mke08.C99_returns (env : Env F G1 G2 Gt) (one : G1 × G2) (pt : Bytes) : NoErr (doc env one pt) ∧
    ∀ s s', doc env one pt s = .ok ((), s') → ∃ pk msk sk a₁ a₂ p₁ p₂ k₁ k₂ ct t₁ t₂ t₃ t₄ t₅,
      setup env s = .ok ((pk, msk), t₁) ∧ keygen pk msk (chars% "user1") t₁ = .ok (sk, t₂) ∧
      authgen (chars% "aa1") t₂ = .ok (a₁, t₃) ∧ authgen (chars% "aa2") t₃ = .ok (a₂, t₄) ∧
      requestAuthorityPk env pk (chars% "aa1::A") a₁ = .ok p₁ ∧ requestAuthorityPk env pk (chars% "aa2::B") a₂ = .ok p₂ ∧
      requestAuthoritySk env sk.pk (chars% "aa1::A") a₁ = .ok k₁ ∧
      requestAuthoritySk env sk.pk (chars% "aa2::B") a₂ = .ok k₂ ∧
      encrypt env pk [p₁, p₂] (chars% "\"aa1::A\" and \"aa2::B\"") .human pt t₄ = .ok (ct, t₅) ∧
      decrypt env one { sk with skA := sk.skA ++ [k₁, k₂] } ct = .ok pt := by
  constructor
  · refine NoErr.bind (NoErr.genG1.bind fun _ => NoErr.genG2.bind fun _ => NoErr.genG1.bind fun _ => NoErr.genG2.bind fun _ =>
      NoErr.genFr.bind fun _ => NoErr.genFr.bind fun _ => NoErr.pure _) fun x =>
      NoErr.bind (NoErr.genFr.bind fun _ => NoErr.pure _) fun _ => NoErr.bind (NoErr.genFr.bind fun _ => NoErr.pure _) fun _ =>
      NoErr.bind (NoErr.genFr.bind fun _ => NoErr.pure _) fun _ => (NoErr.lift (NoErr.unwrap _)).bind fun _ =>
      (NoErr.lift (NoErr.unwrap _)).bind fun _ => (NoErr.lift (NoErr.unwrap _)).bind fun _ =>
      (NoErr.lift (NoErr.unwrap _)).bind fun _ => (NoErr.orPanic _).bind fun _ => NoErr.assert _ _
  · intro s s' h
    simp only [doc, RM.bind_ok, orPanic_ok_iff, RM.lift_ok_iff, unwrap_ok_iff] at h
    obtain ⟨⟨pk, msk⟩, t1, h1, sk, t2, h2, a1, t3, h3, a2, t4, h4, p1, _, ⟨h5, rfl⟩, p2, _, ⟨h6, rfl⟩, k1, _, ⟨h7, rfl⟩, k2, _,
      ⟨h8, rfl⟩, ct, t5, h9, h10⟩ := h
    refine ⟨pk, msk, sk, a1, a2, p1, p2, k1, k2, ct, t1, t2, t3, _, t5, h1, h2, h3, h4, h5, h6, h7, h8, h9, ?_⟩
    simpa using assertPlain_ok_iff h10

/-- **C99, BDABE.** If the example ends normally, decryption in it returned the plaintext; and it never ends with an error, for any
plaintext. -/
theorem Bdabe.C99_returns (env : Env F G1 G2 Gt) (one : G1 × G2) (pt : Bytes) : NoErr (doc env one pt) ∧
    ∀ s s', doc env one pt s = .ok ((), s') → ∃ pk msk auth sk p k ct t₁ t₂ t₃ t₄, setup env s = .ok ((pk, msk), t₁) ∧
      authgen pk msk (chars% "auth1") t₁ = .ok (auth, t₂) ∧ keygen pk auth (chars% "u1") t₂ = .ok (sk, t₃) ∧
      requestAttributePk env pk auth (chars% "auth1::A") = .ok p ∧
      requestAttributeSk env sk.pk auth (chars% "auth1::A") = .ok k ∧
      encrypt env pk [p] (chars% "\"auth1::A\" or \"auth1::B\"") .human pt t₃ = .ok (ct, t₄) ∧
      decrypt env one { sk with skA := sk.skA ++ [k] } ct = .ok pt := by
  constructor
  · refine NoErr.bind (NoErr.genG1.bind fun _ => NoErr.genG2.bind fun _ => NoErr.genG1.bind fun _ => NoErr.genG2.bind fun _ =>
      NoErr.genFr.bind fun _ => NoErr.pure _) fun x =>
      NoErr.bind (NoErr.genFr.bind fun _ => NoErr.genFr.bind fun _ => NoErr.pure _) fun _ =>
      NoErr.bind (NoErr.genFr.bind fun _ => NoErr.pure _) fun _ => (NoErr.lift (NoErr.unwrap _)).bind fun _ =>
      (NoErr.lift (NoErr.unwrap _)).bind fun _ => (NoErr.orPanic _).bind fun _ => NoErr.assert _ _
  · intro s s' h
    simp only [doc, RM.bind_ok, orPanic_ok_iff, RM.lift_ok_iff, unwrap_ok_iff] at h
    obtain ⟨⟨pk, msk⟩, t1, h1, a, t2, h2, sk, t3, h3, p, _, ⟨h5, rfl⟩, k, _, ⟨h7, rfl⟩, ct, t5, h9, h10⟩ := h
    exact ⟨pk, msk, a, sk, p, k, ct, t1, t2, _, t5, h1, h2, h3, h5, h7, h9, assertPlain_ok_iff h10⟩

/-- A symmetric encryption that refuses everything: the BSW example aborts. -/
example : Bsw.doc { toyEnv with aeadEnc := fun _ _ _ => none, aeadDec_enc := fun _ _ _ _ h => by cases h } [7, 8] toyTape =
    .panic := by
  have h : (Bsw.doc { toyEnv with aeadEnc := fun _ _ _ => none, aeadDec_enc := fun _ _ _ _ h => by cases h } [7, 8] toyTape >>=
      fun _ => (.ok () : Res Unit)) = .panic := by decide +kernel
  revert h
  generalize Bsw.doc _ _ toyTape = r
  cases r <;> simp

end Rabe
