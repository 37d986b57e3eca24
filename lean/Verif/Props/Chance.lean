import Verif.Props.Ac17
import Verif.Props.Aw11
import Verif.Props.Bdabe
import Verif.Props.Bsw
import Verif.Props.Docs
import Verif.Props.Ghw11
import Verif.Props.Lsw
import Verif.Props.Mke08
import Verif.Props.Yct14
import Verif.Proof.Lookup

/-!
# Property C102: the random numbers decide only about the values, not about the outcome

Set-up, creation of authorities and users, key generation and transformation keys should succeed for all random numbers. Which
random numbers make them abort is said exactly.
-/

namespace Rabe

set_option linter.unusedSectionVars false

variable {F G1 G2 Gt : Type} [Field F] [DecidableEq F] [AddCommGroup G1] [Module F G1]
  [AddCommGroup G2] [Module F G2] [AddCommGroup Gt] [Module F Gt]

/-- **C102, set-up.** Set-up of every scheme other than BSW succeeds for all random numbers. -/
theorem C102_setup (env : Env F G1 G2 Gt) (uni : List Str) (t : Tape F G1 G2 Gt) :
    (∃ r t', Ac17.setup env t = .ok (r, t')) ∧ (∃ r t', Aw11.setup t = .ok (r, t')) ∧
      (∃ r t', Bdabe.setup env t = .ok (r, t')) ∧ (∃ r t', Ghw11.setup env t = .ok (r, t')) ∧
      (∃ r t', Lsw.setup env t = .ok (r, t')) ∧ (∃ r t', Mke08.setup env t = .ok (r, t')) ∧
      ∃ r t', Yct14.setup uni t = .ok (r, t') := by
  obtain ⟨p1, m1, t1, h1⟩ := (Ac17.C30_ac17_cp_defined env).1 t
  obtain ⟨p2, t2, h2⟩ := (Aw11.C38_aw11_defined asciiCase env).1 t
  obtain ⟨p3, m3, t3, h3⟩ := (Bdabe.C44_bdabe_defined env).1 t
  obtain ⟨p4, m4, t4, h4⟩ := (Ghw11.C42_ghw11_defined env).1 t
  obtain ⟨p5, m5, t5, h5⟩ := (Lsw.C34_lsw_defined env).1 t
  obtain ⟨p6, m6, t6, h6⟩ := (Mke08.C46_mke08_defined env).1 t
  obtain ⟨p7, m7, t7, h7⟩ := (Yct14.C36_yct14_defined env uni).1 t
  exact ⟨⟨_, _, h1⟩, ⟨_, _, h2⟩, ⟨_, _, h3⟩, ⟨_, _, h4⟩, ⟨_, _, h5⟩, ⟨_, _, h6⟩, _, _, h7⟩

/-- **C102, BSW set-up, partial.** It succeeds if the first random number is not zero, and aborts if it is. -/
theorem Bsw.C102_setup_partial (env : Env F G1 G2 Gt) (t : Tape F G1 G2 Gt) :
    (t.fr 0 ≠ 0 → ∃ r t', setup env t = .ok (r, t')) ∧ (t.fr 0 = 0 → setup env t = .panic) := by
  refine ⟨fun h => ?_, fun h => ?_⟩
  · obtain ⟨pk, msk, t', e⟩ := (C25_bsw_defined env).1 t h
    exact ⟨_, _, e⟩
  · simp [setup, RM.bind_apply, RM.genG1, RM.genG2, RM.genFr, RM.lift, inv, h]

/-- **C102, GHW11 transformation keys, partial.** For every key they are made if the random number is not zero, and the function
aborts if it is. -/
theorem Ghw11.C102_tkgen_partial (sk : SecretKey G2) (t : Tape F G1 G2 Gt) :
    (t.fr 0 ≠ 0 → ∃ tk rk t', tkgen sk t = .ok (some (tk, rk), t')) ∧ (t.fr 0 = 0 → tkgen sk t = .panic) := by
  refine ⟨fun h => ?_, fun h => ?_⟩
  · simp [tkgen, RM.bind_apply, RM.genFr, RM.lift, inv, h]
  · simp [tkgen, RM.bind_apply, RM.genFr, RM.lift, inv, h]

/-- **C102, BDABE and MKE08.** Authorities and users are created for every name and all random numbers. -/
theorem C102_names (pk : Bdabe.PublicKey G1 G2 Gt) (msk : Bdabe.MasterKey F) (a : Bdabe.SecretAuthorityKey F G1 G2)
    (pk' : Mke08.PublicKey G1 G2 Gt) (msk' : Mke08.MasterKey G1 G2) (env : Env F G1 G2 Gt) (name : Str) (t : Tape F G1 G2 Gt) :
    (∃ r t', Bdabe.authgen pk msk name t = .ok (r, t')) ∧ (∃ r t', Bdabe.keygen pk a name t = .ok (r, t')) ∧
      (∃ r t', (Mke08.authgen name : RM F G1 G2 Gt _) t = .ok (r, t')) ∧ ∃ r t', Mke08.keygen pk' msk' name t = .ok (r, t') := by
  obtain ⟨r1, t1, h1, -⟩ := (Bdabe.C44_bdabe_defined env).2.1 pk msk name t
  obtain ⟨r2, t2, h2⟩ := (Bdabe.C44_bdabe_defined env).2.2.1 pk a name t
  obtain ⟨r3, t3, h3, -⟩ := (Mke08.C46_mke08_defined env).2.1 name t
  obtain ⟨r4, t4, h4⟩ := (Mke08.C46_mke08_defined env).2.2.1 pk' msk' name t
  exact ⟨⟨_, _, h1⟩, ⟨_, _, h2⟩, ⟨_, _, h3⟩, _, _, h4⟩

namespace Ac17

/-- **C102, AC17 KP-ABE key generation, partial.** After any set-up, for a policy with two operands at every `and`, it succeeds if
the two random numbers of the set-up that are inverted are not zero, and aborts if one is; its own random numbers do not matter. -/
theorem C102_kpKeygen_partial (env : Env F G1 G2 Gt) (t t' : Tape F G1 G2 Gt) (pk : PublicKey G1 G2 Gt) (msk : MasterKey F G1 G2)
    (hsetup : setup env t = .ok ((pk, msk), t')) (text : Str) (lang : PolicyLanguage) (p : Pol) (hp : Denotes text lang p)
    (hbin : p.Binary) (s : Tape F G1 G2 Gt) :
    (t.fr 0 ≠ 0 ∧ t.fr 2 ≠ 0 → ∃ sk s', kpKeygen env msk text lang s = .ok (sk, s')) ∧
      (¬ (t.fr 0 ≠ 0 ∧ t.fr 2 ≠ 0) → kpKeygen env msk text lang s = .panic) := by
  refine ⟨fun h => (C32_ac17_kp_defined env).1 _ _ _ _ hsetup h.1 h.2 _ _ _ hp hbin s, fun h0 => ?_⟩
  obtain ⟨⟨b0, b1, hb⟩, hi⟩ := inverse_panics hsetup h0
  have hp' : parse text lang = .ok p.toValue := hp
  obtain ⟨m, R, hm, hc, hR, hRl, hperm, hpi, hmR, hl, hs⟩ := calculateMsp_eq p hbin
  have hlen : R.length = p.leaves.length := by
    have := congrArg List.length hR
    rwa [List.length_map, mrows_length p hbin] at this
  have hml : m.m.length ≠ 0 := by
    rw [hmR.length_eq, hlen]
    exact fun h => leaves_ne_nil hbin.wide (List.length_eq_zero_iff.1 h)
  obtain ⟨r, rs, hr⟩ : ∃ r rs, m.m = r :: rs := by
    cases h : m.m with
    | nil => simp [h] at hml
    | cons r rs => exact ⟨r, rs, rfl⟩
  obtain ⟨q, qs, hq⟩ : ∃ q qs, m.pi = q :: qs := by
    cases h : m.pi with
    | nil => simp_all
    | cons q qs => exact ⟨q, qs, rfl⟩
  have hne : ∀ (row : List ℤ) (x : G1) (t : ℕ), addGk (row.getD 0 0) x msk.gK t ≠ .err := by
    intro row x t
    simp only [addGk, Res.index]
    split
    · cases msk.gK[t]? <;> simp [Res.unwrapOption]
    · split
      · cases msk.gK[t]? <;> simp [Res.unwrapOption]
      · simp
  have : ∀ br sp n row u, kpKeygenRow env msk br sp n row u = .panic := by
    intro br sp n row u
    rcases hi with hi | ⟨x, hi, hi'⟩
    · simp [kpKeygenRow, RM.bind_apply, RM.genFr, Res.mapR, kpKeyEntry, hi, RM.lift, Res.rbind_eq]
    · have he : ∀ σ, kpKeyEntry env msk br sp n σ row 1 = .panic := by
        intro σ
        simp [kpKeyEntry, hi']
      have he' : ∀ σ, kpKeyEntry env msk br sp n σ row 0 ≠ .err := by
        intro σ
        simp only [kpKeyEntry, hi, Res.ok_bind]
        cases h : addGk (row.2.getD 0 0) (hashSum env msk.g row.1 br x 0 0 + (σ * x) • msk.g) msk.gK 0 with
        | ok y => simp
        | err => exact absurd h (hne _ _ _)
        | panic => simp
      have : Res.mapR (kpKeyEntry env msk br sp n (u.fr 0) row) [0, 1] = .panic := by
        simp only [Res.mapR, he, Res.rbind_eq]
        cases h : kpKeyEntry env msk br sp n (u.fr 0) row 0 with
        | ok y => simp
        | err => exact absurd h (he' _)
        | panic => simp
      simp [kpKeygenRow, RM.bind_apply, RM.genFr, this, RM.lift]
  obtain ⟨sp, u, hsp⟩ := RM.mapL_total (f := fun _ : ℕ => (RM.genFr : RM F G1 G2 Gt F)) (xs := List.range (r.length - 1))
    (by intro x _ u; simp [RM.genFr]) { s with fr := dropS 1 (dropS 1 s.fr) }
  simp only [kpKeygen, RM.bind_apply, RM.lift, hp', hm, Res.ok_bind, hr, hq, Res.unwrap, RM.genFr, brVec, hb]
  simp [hsp, mapL_panic (this _ _ _ _ _), Res.index, List.zip]

end Ac17

namespace Yct14

/-- A list of computations without errors aborts if one of them does. -/
theorem mapR_panic {α β : Type} {f : α → Res β} : ∀ {xs : List α}, (∀ x ∈ xs, f x ≠ .err) → (∃ x ∈ xs, f x = .panic) →
    Res.mapR f xs = .panic := by
  intro xs
  induction xs with
  | nil => simp
  | cons x xs ih =>
    intro h h'
    cases e : f x with
    | err => exact absurd e (h x (by simp))
    | panic => simp [Res.mapR, e, Res.rbind_eq]
    | ok y =>
      obtain ⟨z, hz, hz'⟩ := h'
      have hz : z ∈ xs := by
        rcases List.mem_cons.1 hz with rfl | hz
        · rw [e] at hz'
          cases hz'
        · exact hz
      simp [Res.mapR, e, Res.rbind_eq, ih (fun x hx => h x (by simp [hx])) ⟨z, hz, hz'⟩]

/-- **C102, YCT14 key generation, partial.** After any set-up, for every policy that is accepted, it aborts exactly if the secret
exponent of an attribute of the policy is zero (names count up to the first underscore, and the first entry with a name counts), and
succeeds otherwise; its own random numbers do not matter. -/
theorem C102_keygen_partial (uni : List Str) (t t' : Tape F G1 G2 Gt) (pk : PublicKey F Gt) (msk : MasterKey F Gt)
    (hsetup : setup uni t = .ok ((pk, msk), t')) (text : Str) (lang : PolicyLanguage) (p : Pol) (hp : Denotes text lang p)
    (s : Tape F G1 G2 Gt) :
    ((∀ n ∈ p.names, ∀ a, msk.attributes.find? (fun a => a.name == n.takeWhile (· != '_')) = some a → a.node ≠ some (.priv 0)) →
      ∃ sk s', keygen msk text lang s = .ok (sk, s')) ∧
    ((∃ n ∈ p.names, ∃ a, msk.attributes.find? (fun a => a.name == n.takeWhile (· != '_')) = some a ∧ a.node = some (.priv 0)) →
      keygen msk text lang s = .panic) := by
  obtain ⟨g, L, hs⟩ := setup_ok hsetup
  have hp' : parse text lang = .ok p.toValue := hp
  have hf : ∀ n a, msk.attributes.find? (fun a => a.name == n) = some a ↔
      ∃ x, expOf L n = some x ∧ a = ⟨n, some (.priv x)⟩ := by
    intro n a
    rw [hs.priv, List.find?_map]
    simp only [expOf, Option.map_eq_some_iff, Function.comp_def]
    constructor
    · rintro ⟨x, hx, rfl⟩
      have := List.find?_some hx
      simp only [beq_iff_eq] at this
      exact ⟨_, ⟨x, hx, rfl⟩, by rw [this]⟩
    · rintro ⟨_, ⟨x, hx, rfl⟩, rfl⟩
      have := List.find?_some hx
      simp only [beq_iff_eq] at this
      exact ⟨x, hx, by rw [this]⟩
  have hlab : ∀ x ∈ shares p msk.s s.fr, ∃ n ∈ p.names, removeIndex x.1 = n.takeWhile (· != '_') := by
    intro x hx
    have : x.1 ∈ p.leaves.map leafIdx := by
      rw [← shares_labels p msk.s s.fr]
      exact List.mem_map.2 ⟨x, hx, rfl⟩
    obtain ⟨l, hl, e⟩ := List.mem_map.1 this
    exact ⟨l.1, List.mem_map.2 ⟨l, hl, rfl⟩, by rw [← e, removeIndex_leafIdx]; rfl⟩
  refine ⟨fun h => ?_, ?_⟩
  · obtain ⟨du, hdu⟩ := mapR_total (f := keygenShare msk) (xs := shares p msk.s s.fr) (by
      intro x hx
      rw [keygenShare_eq hs]
      cases he : expOf L (removeIndex x.1) with
      | none => exact ⟨_, rfl⟩
      | some e =>
        obtain ⟨n, hn, hn'⟩ := hlab x hx
        have := h n hn _ ((hf _ _).2 ⟨e, by rw [← hn']; exact he, rfl⟩)
        have : e ≠ 0 := by
          rintro rfl
          exact this rfl
        simp [this])
    simp [keygen, hp', RM.liftFr, genSharesPolicy_eq, hdu]
  · rintro ⟨n, hn, a, ha, ha'⟩
    obtain ⟨x, hx, rfl⟩ := (hf _ _).1 ha
    simp only [Option.some.injEq, Node.priv.injEq] at ha'
    subst ha'
    obtain ⟨l, hl, rfl⟩ := List.mem_map.1 hn
    have : leafIdx l ∈ (shares p msk.s s.fr).map (·.1) := by
      rw [shares_labels]
      exact List.mem_map.2 ⟨l, hl, rfl⟩
    obtain ⟨y, hy, hyl⟩ := List.mem_map.1 this
    have hdu : Res.mapR (keygenShare msk) (shares p msk.s s.fr) = .panic := mapR_panic
      (by
        intro z _
        rw [keygenShare_eq hs]
        cases expOf L (removeIndex z.1) with
        | none => simp
        | some e => by_cases he : e = 0 <;> simp [he])
      ⟨y, hy, by
        rw [keygenShare_eq hs, hyl, removeIndex_leafIdx]
        have : expOf L (cut l.1) = some 0 := hx
        simp [this]⟩
    simp [keygen, hp', RM.liftFr, genSharesPolicy_eq, hdu]

/-- The loop over the attributes in `setup`: the exponents are the random numbers in order. -/
theorem new_values (g : Gt) : ∀ (uni : List Str) (t : Tape F G1 G2 Gt) ps t', RM.mapL (Attribute.new g) uni t = .ok (ps, t') →
    ps.map (·.2) = uni.mapIdx fun i n => { name := n, node := some (.priv (t.fr i)) } := by
  intro uni
  induction uni with
  | nil =>
    intro t ps t' h
    obtain ⟨rfl, -⟩ := h
    rfl
  | cons n uni ih =>
    intro t ps t' h
    simp only [RM.mapL, RM.rbind_eq, RM.rpure_eq, RM.bind_ok, RM.pure_ok, Attribute.new, RM.genFr, Res.ok.injEq,
      Prod.mk.injEq] at h
    obtain ⟨x, t1, ⟨s, t2, ⟨rfl, rfl⟩, rfl, rfl⟩, xs, t3, hx, rfl, -⟩ := h
    rw [List.map_cons, List.mapIdx_cons, ih _ _ _ hx]
    simp [dropS, Nat.add_comm]

/-- After set-up the secret exponent of the attribute at position `i` of the universe is the random number `i + 1`. -/
theorem setup_values {uni : List Str} {t t' : Tape F G1 G2 Gt} {pk : PublicKey F Gt} {msk : MasterKey F Gt}
    (h : setup uni t = .ok ((pk, msk), t')) :
    msk.attributes = uni.mapIdx fun i n => { name := n, node := some (.priv (t.fr (i + 1))) } := by
  simp only [setup, RM.bind_ok, RM.genGt, RM.genFr, RM.pure_ok, Res.ok.injEq, Prod.mk.injEq] at h
  obtain ⟨s, t1, ⟨rfl, rfl⟩, g, t2, ⟨rfl, rfl⟩, pairs, t3, hp, ⟨rfl, rfl⟩, _⟩ := h
  rw [new_values _ _ _ _ _ hp]
  simp [dropS, Nat.add_comm]

/-- **C102, YCT14 key generation in terms of the random numbers, partial.** It aborts if, for an attribute of the policy, the
random number drawn by set-up for the first entry of the universe with its name (up to the first underscore) is zero, and succeeds
otherwise. -/
theorem C102_keygen_numbers_partial (uni : List Str) (t t' : Tape F G1 G2 Gt) (pk : PublicKey F Gt) (msk : MasterKey F Gt)
    (hsetup : setup uni t = .ok ((pk, msk), t')) (text : Str) (lang : PolicyLanguage) (p : Pol) (hp : Denotes text lang p)
    (s : Tape F G1 G2 Gt) :
    ((∃ n ∈ p.names, ∃ i, uni[i]? = some (n.takeWhile (· != '_')) ∧ (∀ j < i, uni[j]? ≠ some (n.takeWhile (· != '_'))) ∧
        t.fr (i + 1) = 0) → keygen msk text lang s = .panic) ∧
    ((¬ ∃ n ∈ p.names, ∃ i, uni[i]? = some (n.takeWhile (· != '_')) ∧ (∀ j < i, uni[j]? ≠ some (n.takeWhile (· != '_'))) ∧
        t.fr (i + 1) = 0) → ∃ sk s', keygen msk text lang s = .ok (sk, s')) := by
  have hf : ∀ c : Str, (∃ a, msk.attributes.find? (fun a => a.name == c) = some a ∧ a.node = some (.priv 0)) ↔
      ∃ i, uni[i]? = some c ∧ (∀ j < i, uni[j]? ≠ some c) ∧ t.fr (i + 1) = 0 := by
    intro c
    rw [setup_values hsetup]
    simp only [List.find?_eq_some_iff_getElem, List.getElem_mapIdx, List.length_mapIdx]
    constructor
    · rintro ⟨a, ⟨ha, i, hi, rfl, hj⟩, h0⟩
      simp only [beq_iff_eq] at ha
      simp only [Option.some.injEq, Node.priv.injEq] at h0
      refine ⟨i, by rw [List.getElem?_eq_getElem hi, ha], fun j hji e => ?_, h0⟩
      have := hj j hji
      rw [List.getElem?_eq_getElem (by omega)] at e
      simp [Option.some.inj e] at this
    · rintro ⟨i, hi, hj, h0⟩
      obtain ⟨hl, e⟩ := List.getElem?_eq_some_iff.1 hi
      refine ⟨_, ⟨by simp [e], i, hl, rfl, fun j hji => ?_⟩, by simp [h0]⟩
      have := hj j hji
      rw [List.getElem?_eq_getElem (by omega)] at this
      simpa using this
  obtain ⟨h1, h2⟩ := C102_keygen_partial uni t t' pk msk hsetup text lang p hp s
  refine ⟨fun ⟨n, hn, h⟩ => h2 ⟨n, hn, (hf _).2 h⟩, fun h => h1 fun n hn a ha h0 => h ⟨n, hn, (hf _).1 ⟨a, ha, h0⟩⟩⟩

end Yct14

/-- **C102 is violated.** With zero for every random number, set-up of BSW and the creation of transformation keys for any key in
GHW11 abort. -/
theorem C102_violated (sk : Ghw11.SecretKey Fr) :
    Bsw.setup toyEnv zeroTape = .panic ∧ (Ghw11.tkgen sk : RM Fr Fr Fr Fr _) zeroTape = .panic :=
  ⟨(Bsw.C102_setup_partial toyEnv zeroTape).2 rfl, (Ghw11.C102_tkgen_partial sk zeroTape).2 rfl⟩

/-- **C102 is violated, AC17 and YCT14.** With zero for every random number set-up succeeds, but the keys it returns cannot be used
to make a key for `"A" and "B"` or `"A" or "B"`. -/
theorem C102_violated_keygen : ∃ pk msk t' pk' msk' t'', Ac17.setup toyEnv zeroTape = .ok ((pk, msk), t') ∧
    Ac17.kpKeygen toyEnv msk (chars% "\"A\" and \"B\"") .human toyTape = .panic ∧
    (Yct14.setup [['A'], ['B']] : RM Fr Fr Fr Fr _) zeroTape = .ok ((pk', msk'), t'') ∧
    (Yct14.keygen msk' (chars% "\"A\" or \"B\"") .human : RM Fr Fr Fr Fr _) toyTape = .panic := by
  obtain ⟨pk, msk, t', h⟩ := (Ac17.C30_ac17_cp_defined toyEnv).1 zeroTape
  obtain ⟨pk', msk', t'', h'⟩ := (Yct14.C36_yct14_defined toyEnv [['A'], ['B']]).1 zeroTape
  refine ⟨pk, msk, t', pk', msk', t'', h, ?_, h', ?_⟩
  · exact (Ac17.C102_kpKeygen_partial toyEnv _ _ pk msk h _ _ _ docAnd_regular.denotes
      (by simp [Pol.Binary, docAnd]) toyTape).2 (by simp [zeroTape])
  · refine (Yct14.C102_keygen_partial _ _ _ pk' msk' h' _ _ _ docOr_regular.denotes toyTape).2
      ⟨['A'], by simp [Pol.names, docOr], ?_⟩
    have e := h'
    simp only [Yct14.setup, RM.bind_apply, RM.mapL, Yct14.Attribute.new, RM.genGt, RM.genFr, RM.pure_apply] at e
    obtain ⟨⟨-, rfl⟩, -⟩ := e
    exact ⟨_, rfl, rfl⟩

/-- Random numbers for which nothing aborts. -/
example : (∃ r t', Bsw.setup toyEnv toyTape = .ok (r, t')) ∧
    ∀ sk : Ghw11.SecretKey Fr, ∃ tk rk t', (Ghw11.tkgen sk : RM Fr Fr Fr Fr _) toyTape = .ok (some (tk, rk), t') :=
  ⟨(Bsw.C102_setup_partial toyEnv toyTape).1 (by simp [toyTape]),
    fun sk => (Ghw11.C102_tkgen_partial sk toyTape).1 (by simp [toyTape])⟩

/-- The same for key generation of AC17 KP-ABE and YCT14. -/
example : ∃ pk msk t' pk' msk' t'', Ac17.setup toyEnv toyTape = .ok ((pk, msk), t') ∧
    (∃ sk s', Ac17.kpKeygen toyEnv msk (chars% "\"A\" and \"B\"") .human toyTape = .ok (sk, s')) ∧
    (Yct14.setup [['A'], ['B']] : RM Fr Fr Fr Fr _) toyTape = .ok ((pk', msk'), t'') ∧
    ∃ sk s', (Yct14.keygen msk' (chars% "\"A\" or \"B\"") .human : RM Fr Fr Fr Fr _) toyTape = .ok (sk, s') := by
  obtain ⟨pk, msk, t', h⟩ := (Ac17.C30_ac17_cp_defined toyEnv).1 toyTape
  obtain ⟨pk', msk', t'', h'⟩ := (Yct14.C36_yct14_defined toyEnv [['A'], ['B']]).1 toyTape
  refine ⟨pk, msk, t', pk', msk', t'', h, ?_, h', ?_⟩
  · exact (Ac17.C102_kpKeygen_partial toyEnv _ _ pk msk h _ _ _ docAnd_regular.denotes
      (by simp [Pol.Binary, docAnd]) toyTape).1 (by simp [toyTape])
  · refine (Yct14.C102_keygen_partial _ _ _ pk' msk' h' _ _ _ docOr_regular.denotes toyTape).1 ?_
    simp only [Yct14.setup, RM.bind_apply, RM.mapL, Yct14.Attribute.new, RM.genGt, RM.genFr, RM.pure_apply] at h'
    obtain ⟨⟨-, rfl⟩, -⟩ := h'
    intro n _ a ha
    have := List.mem_of_find?_eq_some ha
    simp only [List.map_cons, List.map_nil, List.mem_cons, List.not_mem_nil, or_false] at this
    rcases this with rfl | rfl <;> simp [toyTape, dropS]

end Rabe
