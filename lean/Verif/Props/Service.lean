import Verif.Props.Outsider
import Verif.Instance.Bn

/-!
# C81: what the transformation service of GHW11 can open
-/

set_option linter.unusedSectionVars false

namespace Rabe

variable {F G1 G2 Gt : Type} [Field F] [DecidableEq F] [AddCommGroup G1] [Module F G1]
  [AddCommGroup G2] [Module F G2] [AddCommGroup Gt] [Module F Gt]

namespace Ghw11

/-- The group elements of a transformation key, `/repo/src/schemes/ghw11/mod.rs:61-65`. -/
def TransformKey.seen (tk : TransformKey G2) : View G1 G2 Gt := ⟨[], tk.kZ :: tk.lZ :: tk.attrKeyZ.map (·.kX), []⟩

/-- A user of the service: attributes, random numbers of `keygen` and of `tkgen`. -/
structure User (F G1 G2 Gt : Type) where
  attrs : List Str
  keyTape : Tape F G1 G2 Gt
  tkTape : Tape F G1 G2 Gt

/-- The computation `k` finds the session element of the ciphertext made by `job` from the transformation keys of all
users, the public key, the ciphertext, the ciphertexts `others` and the elements `extra`. `x` holds the random
numbers of `keygen` and `tkgen` of every user, the secret of the encryption, the session element and `alpha`. -/
def OpenedByService (env : Env F G1 G2 Gt) (k : Formula F) (t : Tape F G1 G2 Gt) (job : CpJob F G1 G2 Gt)
    (others : List (CpJob F G1 G2 Gt)) {n : ℕ} (users : Fin n → User F G1 G2 Gt) (extra : View G1 G2 Gt)
    (x : (Fin n → F × F) × F × Gt × F) : Prop :=
  ∃ pk msk t' ct u cts, ∃ tks : Fin n → TransformKey G2, setup env (t.setFr 1 x.2.2.2) = .ok ((pk, msk), t') ∧
    encrypt env pk job.text job.lang job.plain ((job.tape.setFr 0 x.2.1).setGt x.2.2.1) = .ok (ct, u) ∧
    List.Forall₂ (fun o c => ∃ u, encrypt env pk o.text o.lang o.plain o.tape = .ok (c, u)) others cts ∧
    (∀ i, ∃ sk rk v v', keygen env pk msk (users i).attrs ((users i).keyTape.setFr 0 (x.1 i).1) = .ok (some sk, v) ∧
      tkgen sk ((users i).tkTape.setFr 0 (x.1 i).2) = .ok (some (tks i, rk), v')) ∧
    k.eval env (View.all (extra.join (View.all (List.ofFn fun i => (tks i).seen)) :: pk.seen :: ct.seen ::
      cts.map Ciphertext.seen)) = x.2.2.1

/-- A transformation key of `/repo/src/schemes/ghw11/mod.rs:156-178`, with `β` in place of `alpha / z` and `ρ` in place of `r / z`. -/
def tkOf (env : Env F G1 G2 Gt) (t : Tape F G1 G2 Gt) (attrs : List Str) (y : F × F) : TransformKey G2 :=
  ⟨y.1 • t.g2 0 + y.2 • t.fr 0 • t.g2 0, y.2 • t.g2 0,
    attrs.map fun j => ⟨j, y.2 • env.sha3Hash (t.g2 0) j⟩⟩

/-- The random numbers of `keygen` and `tkgen`, `/repo/src/schemes/ghw11/mod.rs:136,163`, that belong to `β` and `ρ`. -/
def randOf (a : F) (y : F × F) : F × F := (y.2 * (a / y.1), a / y.1)

theorem tk_eq {env : Env F G1 G2 Gt} {t t' : Tape F G1 G2 Gt} {a : F} {pk : PublicKey G1 G2 Gt} {msk : MasterKey G1 G2 Gt}
    (hs : setup env (t.setFr 1 a) = .ok ((pk, msk), t')) {attrs : List Str} {u w v v' : Tape F G1 G2 Gt} {r z : F}
    {sk : SecretKey G2} {tk : TransformKey G2} {rk : RetrieveKey F}
    (hk : keygen env pk msk attrs (u.setFr 0 r) = .ok (some sk, v))
    (ht : tkgen sk (w.setFr 0 z) = .ok (some (tk, rk), v')) :
    z ≠ 0 ∧ tk = tkOf env t attrs (a * z⁻¹, r * z⁻¹) := by
  simp only [setup, RM.bind_ok, RM.genG1, RM.genG2, RM.genFr, RM.pure_ok, Res.ok.injEq, Prod.mk.injEq,
    Tape.setFr] at hs
  obtain ⟨_, _, ⟨rfl, rfl⟩, _, _, ⟨rfl, rfl⟩, _, _, ⟨rfl, rfl⟩, _, _, ⟨rfl, rfl⟩, ⟨rfl, rfl⟩, rfl⟩ := hs
  unfold keygen at hk
  split at hk
  · simp at hk
  simp only [RM.bind_ok, RM.genFr, RM.pure_ok, Res.ok.injEq, Prod.mk.injEq, Option.some.injEq, Tape.setFr] at hk
  obtain ⟨_, _, ⟨rfl, rfl⟩, rfl, rfl⟩ := hk
  simp only [tkgen, RM.bind_ok, RM.genFr, RM.pure_ok, RM.lift_ok_iff, Res.ok.injEq, Prod.mk.injEq, Option.some.injEq,
    Tape.setFr] at ht
  obtain ⟨_, _, ⟨rfl, rfl⟩, zi, _, ⟨hzi, rfl⟩, ⟨rfl, rfl⟩, rfl⟩ := ht
  simp only [if_true, inv] at hzi
  split at hzi
  · simp at hzi
  rename_i hz
  simp only [Res.ok.injEq] at hzi
  subst hzi
  refine ⟨hz, ?_⟩
  simp only [tkOf, TransformKey.mk.injEq, dropS, if_true, List.map_map]
  norm_num
  refine ⟨?_, ?_, ?_⟩
  · module
  · module
  · intro j _
    module

open Classical in
/-- **C81.** For every computation, every policy and plaintext, any number of users with any attributes and all other
random numbers: from the transformation keys of all users, the public key, the ciphertext and other ciphertexts the
computation gives the session element for at most the fraction `3 / q` of the choices of `alpha`, the secret of the
encryption, the session element and the random numbers of all keys. The transformed ciphertext is among what the
service computes. -/
theorem C81_service [Fintype F] [Fintype Gt] (env : Env F G1 G2 Gt) (k : Formula F) (t : Tape F G1 G2 Gt)
    (hpair : env.pair (t.g1 0) (t.g2 0) ≠ 0) (job : CpJob F G1 G2 Gt) (others : List (CpJob F G1 G2 Gt)) {n : ℕ}
    (users : Fin n → User F G1 G2 Gt) (extra : View G1 G2 Gt) :
    (Finset.univ.filter (OpenedByService env k t job others users extra)).card ≤
      3 * (Fintype.card F ^ (2 * n + 1) * Fintype.card Gt) := by
  let S := Finset.univ.filter (OpenedByService env k t job others users extra)
  let S₀ : Finset ((Fin n → F × F) × F × Gt × F) := Finset.univ.filter fun x => x.2.2.2 = 0
  let S₁ := S.filter fun x => x.2.2.2 ≠ 0
  let f : (Fin n → F × F) × F × Gt × F → (Fin n → F × F) × F × Gt × F :=
    fun y => (fun i => randOf y.2.2.2 (y.1 i), y.2)
  let S' := Finset.univ.filter fun y => f y ∈ S₁
  have h0 : S₀.card ≤ Fintype.card (Fin n → F × F) * (Fintype.card F * Fintype.card Gt) := by
    apply card_fibres
    intro y
    have := card_le_of_det (α := F) (β := F × Gt)
      (Finset.univ.filter fun x : F × F × Gt => (y, x.2.1, x.2.2, x.1) ∈ S₀) (by
        intro a a' b h h'
        simp only [S₀, Finset.mem_filter, Finset.mem_univ, true_and] at h h'
        rw [h, h'])
    rw [Fintype.card_prod] at this
    refine le_trans (Finset.card_le_card_of_injOn (fun x : F × Gt × F => (x.2.2, x.1, x.2.1)) ?_ ?_) this
    · intro x hx
      simpa using hx
    · rintro ⟨a, b, c⟩ - ⟨a', b', c'⟩ - h
      simp only [Prod.mk.injEq] at h ⊢
      exact ⟨h.2.1, h.2.2, h.1⟩
  have h1 : S₁.card ≤ S'.card := by
    refine Finset.card_le_card_of_surjOn f ?_
    rintro ⟨y, s, m, a⟩ hx
    have hx' := hx
    simp only [S₁, S, Finset.coe_filter, Finset.mem_filter, Finset.mem_univ, true_and, Set.mem_ofPred_eq] at hx'
    obtain ⟨⟨pk, msk, t', ct, u, cts, tks, hs, -, -, hk, -⟩, ha⟩ := hx'
    have hz : ∀ i, (y i).2 ≠ 0 := by
      intro i
      obtain ⟨sk, rk, v, v', h1, h2⟩ := hk i
      exact (tk_eq hs h1 h2).1
    have hf : f (fun i => (a / (y i).2, (y i).1 / (y i).2), s, m, a) = (y, s, m, a) := by
      simp only [f, randOf, Prod.mk.injEq, and_true]
      funext i
      have := hz i
      rw [div_div_cancel₀ ha, div_mul_cancel₀ _ this]
    refine ⟨_, ?_, hf⟩
    simp only [S', Finset.coe_filter, Finset.mem_univ, true_and, Set.mem_ofPred_eq, hf]
    exact hx
  have h2 : S'.card ≤ Fintype.card (Fin n → F × F) * (2 * Fintype.card F * Fintype.card Gt) := by
    apply card_fibres
    intro y
    refine le_trans (Finset.card_le_card ?_) (C77_outsider env k t hpair job others
      (extra.join (View.all (List.ofFn fun i => (tkOf env t (users i).attrs (y i)).seen))))
    rintro ⟨s, m, a⟩ hx
    simp only [S', S₁, S, f, Finset.mem_filter, Finset.mem_univ, true_and] at hx ⊢
    obtain ⟨⟨pk, msk, t', ct, u, cts, tks, hs, he, ho, hk, hv⟩, ha⟩ := hx
    refine ⟨pk, msk, t', ct, u, cts, hs, he, ho, ?_⟩
    have htk : tks = fun i => tkOf env t (users i).attrs (y i) := by
      funext i
      obtain ⟨sk, rk, v, v', h1, h2⟩ := hk i
      obtain ⟨hz, htk⟩ := tk_eq hs h1 h2
      rw [htk]
      congr 1
      simp only [randOf] at hz ⊢
      have hb : (y i).1 ≠ 0 := by
        intro h
        rw [h, div_zero] at hz
        exact hz rfl
      refine Prod.ext ?_ ?_
      · simp only
        field_simp
      · simp only
        rw [mul_assoc, mul_inv_cancel₀ hz, mul_one]
    rw [htk] at hv
    exact hv
  have hS : S ⊆ S₀ ∪ S₁ := by
    intro x hx
    by_cases h : x.2.2.2 = 0
    · exact Finset.mem_union_left _ (by simpa [S₀] using h)
    · exact Finset.mem_union_right _ (Finset.mem_filter.2 ⟨hx, h⟩)
  refine (Finset.card_le_card hS).trans ((Finset.card_union_le _ _).trans ((add_le_add h0 (h1.trans h2)).trans
    (le_of_eq ?_)))
  simp only [Fintype.card_fun, Fintype.card_prod, Fintype.card_fin]
  ring

/-- The numbers `r = 3`, `z = 4`, `s = 5`, `m = 6`, `alpha = 7`, a user whose attributes satisfy the policy, and the
computation that has the retrieve key `4` built in: for these numbers it opens the ciphertext, so the set counted in
`C81_service` is not empty. -/
example : toyEnv.pair (toyTape.g1 0) (toyTape.g2 0) ≠ 0 ∧
    OpenedByService toyEnv
      ⟨fun i j => if (i, j) = (2, 0) then -4 else if (i, j) = (3, 1) ∨ (i, j) = (4, 2) then 4 else 0,
        fun i => if i = 1 then 1 else 0⟩ toyTape
      ⟨chars% "\"A\"", .human, [1, 2, 3], toyTape⟩ [] (fun _ : Fin 1 => ⟨[['A']], toyTape, toyTape⟩) ⟨[], [], []⟩
      (fun _ => (3, 4), 5, 6, 7) := by
  refine ⟨by decide +kernel, ?_⟩
  have h : (setup toyEnv (toyTape.setFr 1 7)).check (fun x =>
      (encrypt toyEnv x.1.1 (chars% "\"A\"") .human [1, 2, 3] ((toyTape.setFr 0 5).setGt 6)).check fun y =>
      (keygen toyEnv x.1.1 x.1.2 [['A']] (toyTape.setFr 0 3)).check fun w =>
      match w.1 with
      | none => false
      | some sk => (tkgen sk (toyTape.setFr 0 4)).check fun z =>
        match z.1 with
        | none => false
        | some tk => decide (Formula.eval toyEnv
          ⟨fun i j => if (i, j) = (2, 0) then -4 else if (i, j) = (3, 1) ∨ (i, j) = (4, 2) then 4 else 0,
            fun i => if i = 1 then 1 else 0⟩
          (View.all [(⟨[], [], []⟩ : View Fr Fr Fr).join (View.all [tk.1.seen]), x.1.1.seen, y.1.seen]) = 6)) = true := by
    decide +kernel
  rw [Res.check_iff] at h
  obtain ⟨⟨⟨pk, msk⟩, t'⟩, hs, h⟩ := h
  rw [Res.check_iff] at h
  obtain ⟨⟨ct, u⟩, he, h⟩ := h
  rw [Res.check_iff] at h
  obtain ⟨⟨sk?, v⟩, hk, h⟩ := h
  cases sk? with
  | none => simp at h
  | some sk =>
    simp only [] at h
    rw [Res.check_iff] at h
    obtain ⟨⟨tk?, v'⟩, ht, h⟩ := h
    cases tk? with
    | none => simp at h
    | some tk =>
      exact ⟨pk, msk, t', ct, u, [], fun _ => tk.1, hs, he, .nil, fun _ => ⟨sk, tk.2, v, v', hk, ht⟩,
        of_decide_eq_true h⟩

end Ghw11
end Rabe
