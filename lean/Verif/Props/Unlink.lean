import Verif.Props.Bsw

/-!
# C72: a delegated key does not show which key it was made from
-/

set_option linter.unusedSectionVars false

namespace Rabe

variable {F G1 G2 Gt : Type} [Field F] [DecidableEq F] [AddCommGroup G1] [Module F G1]
  [AddCommGroup G2] [Module F G2] [AddCommGroup Gt] [Module F Gt]

/-- The random stream `t` with the constants `δ` added to its scalars. For a fixed `δ` this is a bijection of the random
streams that maps uniformly distributed scalars to uniformly distributed scalars. -/
def Tape.shift (δ : ℕ → F) (t : Tape F G1 G2 Gt) : Tape F G1 G2 Gt := { t with fr := fun n => t.fr n + δ n }

theorem Tape.shift_shift (δ ε : ℕ → F) (t : Tape F G1 G2 Gt) : (t.shift δ).shift ε = t.shift fun n => δ n + ε n := by
  simp [Tape.shift, add_assoc]

theorem Tape.shift_neg (δ : ℕ → F) (t : Tape F G1 G2 Gt) : (t.shift fun n => -δ n).shift δ = t := by
  simp [Tape.shift]

/-- The sequence `r, δ 0, δ 1, …`. -/
def prependS (r : F) (δ : ℕ → F) : ℕ → F
  | 0 => r
  | n + 1 => δ n

theorem Tape.drop_shift (r : F) (δ : ℕ → F) (t : Tape F G1 G2 Gt) :
    { t.shift (prependS r δ) with fr := dropS 1 (t.shift (prependS r δ)).fr } =
      ({ t with fr := dropS 1 t.fr } : Tape F G1 G2 Gt).shift δ := by
  simp only [Tape.shift, Tape.mk.injEq, and_true]
  funext n
  simp [dropS, Nat.add_comm 1 n, prependS]

namespace Bsw

/-- The loops of `delegate` and `keygen` compute the same components from shifted random numbers. -/
theorem mapL_shift (env : Env F G1 G2 Gt) (pk : PublicKey G1 G2 Gt) {sk : SecretKey G1 G2} {r₀ : F} :
    ∀ sub : List Str, (∀ a ∈ sub, ∃ x : Attribute G1 G2, sk.dJ.find? (fun x => x.string == a) = some x ∧ x.string = a ∧
      ∃ rj : F, x.g1 = rj • pk.g1 ∧ x.g2 = r₀ • pk.g2 + rj • env.hash a • pk.g2) →
    ∃ δ : ℕ → F, ∀ (r : F) (t : Tape F G1 G2 Gt), ∃ dJ t' t'', RM.mapL (delegateAttr env pk sk r) sub t = .ok (dJ, t') ∧
      RM.mapL (keygenAttr env pk ((r + r₀) • pk.g2)) sub (t.shift δ) = .ok (dJ, t'') := by
  intro sub
  induction sub with
  | nil => intro _; exact ⟨fun _ => 0, fun r t => ⟨[], t, _, rfl, rfl⟩⟩
  | cons a sub ih =>
    intro h
    obtain ⟨δ, hδ⟩ := ih fun b hb => h b (List.mem_cons_of_mem _ hb)
    obtain ⟨x, hx, rfl, rj, h1, h2⟩ := h a List.mem_cons_self
    refine ⟨prependS rj δ, fun r t => ?_⟩
    obtain ⟨dJ, t', t'', e1, e2⟩ := hδ r { t with fr := dropS 1 t.fr }
    refine ⟨⟨x.string, (t.fr 0 + rj) • pk.g1, (r + r₀) • pk.g2 + (t.fr 0 + rj) • env.sha3Hash pk.g2 x.string⟩ :: dJ, t', t'', ?_, ?_⟩
    · simp only [RM.mapL, RM.rbind_eq, RM.rpure_eq, RM.bind_ok, RM.pure_ok, delegateAttr, RM.genFr, RM.lift_ok_iff, hx,
        Res.unwrapOption_some, Res.ok.injEq, Prod.mk.injEq]
      refine ⟨_, _, ⟨_, _, ⟨rfl, rfl⟩, _, _, ⟨rfl, rfl⟩, rfl, rfl⟩, _, _, e1, ?_, rfl⟩
      simp only [h1, h2, Env.sha3Hash, List.cons.injEq, and_true, Attribute.mk.injEq, true_and]
      constructor <;> module
    · simp only [RM.mapL, RM.rbind_eq, RM.rpure_eq, RM.bind_ok, RM.pure_ok, keygenAttr, RM.genFr, Res.ok.injEq,
        Prod.mk.injEq]
      refine ⟨_, _, ⟨_, _, ⟨rfl, rfl⟩, rfl, rfl⟩, _, _, ?_, rfl, rfl⟩
      rw [Tape.drop_shift]
      exact e2

/-- **C72.** For every issued key and every non-empty list of its attributes there are constants such that delegation with
any random stream gives the key that `keygen` issues for the list with the stream shifted by the constants. So a delegated
key is distributed exactly like an issued key for the list, whatever key it was made from. -/
theorem C72_delegated_like_issued (env : Env F G1 G2 Gt)
    (t₁ t₁' : Tape F G1 G2 Gt) (pk : PublicKey G1 G2 Gt) (msk : MasterKey F G2)
    (hsetup : setup env t₁ = .ok ((pk, msk), t₁'))
    (attrs : List Str) (t₂ t₂' : Tape F G1 G2 Gt) (sk : SecretKey G1 G2)
    (hkey : keygen env pk msk attrs t₂ = .ok (some sk, t₂'))
    (sub : List Str) (hne : sub ≠ []) (hsub : ∀ x ∈ sub, x ∈ attrs) :
    ∃ δ : ℕ → F, ∀ t : Tape F G1 G2 Gt, ∃ sk' t' t'', delegate env pk sk sub t = .ok (some sk', t') ∧
      keygen env pk msk sub (t.shift δ) = .ok (some sk', t'') := by
  obtain ⟨α, β, hs⟩ := setup_ok hsetup
  obtain ⟨_, hβ, r₀, hk⟩ := keygen_ok hkey
  obtain ⟨δ, hδ⟩ := mapL_shift (F := F) (Gt := Gt) env pk (r₀ := r₀) sub fun a ha => key_find hk (hsub a ha)
  refine ⟨prependS r₀ δ, fun t => ?_⟩
  obtain ⟨dJ, t', t'', e1, e2⟩ := hδ (t.fr 0) { t with fr := dropS 1 t.fr }
  have h1 : isSubset sub (sk.dJ.map (·.string)) = true := by rw [key_strings hk, isSubset_iff]; exact hsub
  have h2 : (sub.isEmpty || sub.length == 0) = false := by cases sub <;> simp_all
  refine ⟨⟨sk.d + t.fr 0 • pk.f, dJ⟩, t', t'', ?_, ?_⟩
  · simp only [delegate, h1, h2, Bool.not_true, Bool.false_eq_true, if_false, RM.bind_ok, RM.pure_ok, RM.genFr,
      Res.ok.injEq, Prod.mk.injEq]
    exact ⟨_, _, ⟨rfl, rfl⟩, _, _, e1, rfl, rfl⟩
  · simp only [keygen, h2, Bool.false_eq_true, if_false, RM.bind_ok, RM.genFr, RM.lift_ok_iff, RM.pure_ok, inv,
      Res.ok.injEq, Prod.mk.injEq, Option.some.injEq, hβ]
    refine ⟨_, _, ⟨rfl, rfl⟩, _, _, ⟨rfl, rfl⟩, dJ, t'', ?_, ?_, rfl⟩
    · rw [Tape.drop_shift]
      exact e2
    · simp only [hk.d, hs.f, hs.beta, Tape.shift, SecretKey.mk.injEq, and_true, prependS]
      module

/-- **C72**, two users: a key delegated to `sub` from the key of one user is distributed exactly like a key delegated to
`sub` from the key of another user, so it does not show which of the two it was made from. -/
theorem C72_unlinkable (env : Env F G1 G2 Gt)
    (t₁ t₁' : Tape F G1 G2 Gt) (pk : PublicKey G1 G2 Gt) (msk : MasterKey F G2)
    (hsetup : setup env t₁ = .ok ((pk, msk), t₁'))
    (attrs₁ attrs₂ : List Str) (u₁ u₁' u₂ u₂' : Tape F G1 G2 Gt) (sk₁ sk₂ : SecretKey G1 G2)
    (hkey₁ : keygen env pk msk attrs₁ u₁ = .ok (some sk₁, u₁')) (hkey₂ : keygen env pk msk attrs₂ u₂ = .ok (some sk₂, u₂'))
    (sub : List Str) (hne : sub ≠ []) (hsub₁ : ∀ x ∈ sub, x ∈ attrs₁) (hsub₂ : ∀ x ∈ sub, x ∈ attrs₂) :
    ∃ δ : ℕ → F, ∀ t : Tape F G1 G2 Gt, ∃ sk' t' t'', delegate env pk sk₁ sub t = .ok (some sk', t') ∧
      delegate env pk sk₂ sub (t.shift δ) = .ok (some sk', t'') := by
  obtain ⟨δ₁, h₁⟩ := C72_delegated_like_issued env t₁ t₁' pk msk hsetup attrs₁ u₁ u₁' sk₁ hkey₁ sub hne hsub₁
  obtain ⟨δ₂, h₂⟩ := C72_delegated_like_issued env t₁ t₁' pk msk hsetup attrs₂ u₂ u₂' sk₂ hkey₂ sub hne hsub₂
  refine ⟨fun n => δ₁ n + -δ₂ n, fun t => ?_⟩
  obtain ⟨k₁, a, b, e1, e2⟩ := h₁ t
  obtain ⟨k₂, c, d, e3, e4⟩ := h₂ (t.shift fun n => δ₁ n + -δ₂ n)
  have : (t.shift fun n => δ₁ n + -δ₂ n).shift δ₂ = t.shift δ₁ := by simp [Tape.shift_shift]
  rw [this, e2] at e4
  simp only [Res.ok.injEq, Prod.mk.injEq, Option.some.injEq] at e4
  obtain ⟨rfl, -⟩ := e4
  exact ⟨k₁, a, c, e1, e3⟩

/-- **C72**, chains: a key delegated from an already delegated key is distributed exactly like one issued for the list or
delegated from the first key directly: the number of steps does not show. -/
theorem C72_chain_unlinkable (env : Env F G1 G2 Gt)
    (t₁ t₁' : Tape F G1 G2 Gt) (pk : PublicKey G1 G2 Gt) (msk : MasterKey F G2)
    (hsetup : setup env t₁ = .ok ((pk, msk), t₁'))
    (attrs : List Str) (t₂ t₂' : Tape F G1 G2 Gt) (sk : SecretKey G1 G2)
    (hkey : keygen env pk msk attrs t₂ = .ok (some sk, t₂'))
    (sk₁ : SecretKey G1 G2) (mid : List Str) (hchain : DelegationChain env pk sk sk₁ mid)
    (sub : List Str) (hne : sub ≠ []) (hsub : ∀ x ∈ sub, x ∈ mid) :
    ∃ δ : ℕ → F, ∀ t : Tape F G1 G2 Gt, ∃ sk' t' t'', delegate env pk sk₁ sub t = .ok (some sk', t') ∧
      delegate env pk sk sub (t.shift δ) = .ok (some sk', t'') := by
  obtain ⟨⟨u, u', hu⟩, _, hmid⟩ := C27_delegated_key_is_issued_key env t₁ t₁' pk msk hsetup attrs t₂ t₂' sk hkey sk₁ mid hchain
  exact C72_unlinkable env t₁ t₁' pk msk hsetup mid attrs u u' t₂ t₂' sk₁ sk hu hkey sub hne hsub
    fun x hx => hmid x (hsub x hx)

/-- Two users with the attributes `A, B` and `C, A` whose keys use different random numbers: their keys for `A` agree
when the random numbers of the second delegation are shifted by `-2`. -/
example : (setup toyEnv toyTape).check (fun ((pk, msk), _) =>
    (keygen toyEnv pk msk [['A'], ['B']] { toyTape with fr := fun _ => 5 }).check fun (sk₁, _) =>
    (keygen toyEnv pk msk [['C'], ['A']] { toyTape with fr := fun _ => 7 }).check fun (sk₂, _) => match sk₁, sk₂ with
    | some sk₁, some sk₂ => (delegate toyEnv pk sk₁ [['A']] toyTape).check fun (k₁, _) =>
        (delegate toyEnv pk sk₂ [['A']] (toyTape.shift fun _ => -2)).check fun (k₂, _) =>
          decide (k₁.map (fun k => (k.d, k.dJ.map fun x => (x.string, x.g1, x.g2))) =
            k₂.map fun k => (k.d, k.dJ.map fun x => (x.string, x.g1, x.g2))) && k₁.isSome
    | _, _ => false) = true := by decide +kernel

end Bsw
end Rabe
