import Verif.Props.OneKey
import Verif.Proof.Computable
import Verif.Proof.Lines
import Mathlib.LinearAlgebra.Dual.Lemmas

/-!
# C89: which YCT14 ciphertexts a given set of keys opens
-/

set_option linter.unusedSectionVars false

namespace Rabe

open Classical in
/-- Points of `E`, each with an element of `F`, of which each line of direction `d` has few. -/
theorem card_along {F X : Type} [Field F] [Fintype F] [AddCommGroup X] [Module F X] [Fintype X] (E : Finset X)
    (O : Finset (X × F)) (d : X) (n : ℕ) (Q : F) (hO : ∀ v k, (v, k) ∈ O → v ∈ E)
    (hE : ∀ v ∈ E, Fintype.card F - n ≤ (Finset.univ.filter fun c : F => v + c • d ∈ E).card)
    (h1 : ∀ (v : X) (k c c' : F), k ≠ Q → (v + c • d, k) ∈ O → (v + c' • d, k) ∈ O → c = c') :
    O.card * (Fintype.card F - n) ≤ 2 * Fintype.card F * E.card := by
  set q := Fintype.card F with hq
  let m : X → ℕ := fun v => (Finset.univ.filter fun c : F => v + c • d ∈ E).card
  let o : X → ℕ := fun v => (Finset.univ.filter fun y : F × F => (v + y.1 • d, y.2) ∈ O).card
  have em : ∑ v, m v = q * E.card := by
    have e1 : ∑ t : F, (Finset.univ.filter fun v : X => v + t • d ∈ E).card = q * E.card := by
      rw [Finset.sum_congr rfl (g := fun _ => E.card), Finset.sum_const, Finset.card_univ, smul_eq_mul]
      intro t _
      refine Finset.card_bij (fun v _ => v + t • d) (fun v hv => by simpa using hv) (fun a _ b _ hab => add_right_cancel hab) ?_
      intro b hb
      exact ⟨b - t • d, by simpa using hb, by simp⟩
    rw [← e1]
    simp only [m, Finset.card_filter]
    exact Finset.sum_comm
  have eo : ∑ v, o v = q * O.card := by
    have e1 : ∑ t : F, (Finset.univ.filter fun y : X × F => (y.1 + t • d, y.2) ∈ O).card = q * O.card := by
      rw [Finset.sum_congr rfl (g := fun _ => O.card), Finset.sum_const, Finset.card_univ, smul_eq_mul]
      intro t _
      refine Finset.card_bij (fun y _ => (y.1 + t • d, y.2)) (fun v hv => by simpa using hv) ?_ ?_
      · rintro ⟨a, k⟩ _ ⟨b, l⟩ _ hab
        simp only [Prod.mk.injEq, add_left_inj] at hab
        exact Prod.ext hab.1 hab.2
      · rintro ⟨b, k⟩ hb
        exact ⟨(b - t • d, k), by simpa using hb, by simp⟩
    rw [← e1]
    simp only [o, Finset.card_filter, Fintype.sum_prod_type]
    exact Finset.sum_comm
  have ho : ∀ v, 0 < o v → 0 < m v := by
    intro v hv
    obtain ⟨⟨c, k⟩, hc⟩ := Finset.card_pos.1 hv
    simp only [Finset.mem_filter, Finset.mem_univ, true_and] at hc
    exact Finset.card_pos.2 ⟨c, by simpa using hO _ _ hc⟩
  have hm : ∀ v, 0 < m v → q - n ≤ m v := by
    intro v hv
    obtain ⟨c, hc⟩ := Finset.card_pos.1 hv
    simp only [Finset.mem_filter, Finset.mem_univ, true_and] at hc
    refine (hE _ hc).trans (Finset.card_le_card_of_injOn (fun c' => c + c') ?_ ?_)
    · intro c' hc'
      simp only [Finset.coe_filter, Finset.mem_univ, true_and, Set.mem_ofPred_eq] at hc' ⊢
      rwa [add_smul, ← add_assoc]
    · intro a _ b _ hab
      exact add_left_cancel hab
  have hom : ∀ v, o v ≤ m v + q := by
    intro v
    have hs : (Finset.univ.filter fun y : F × F => (v + y.1 • d, y.2) ∈ O) ⊆
        ((Finset.univ.filter fun c : F => v + c • d ∈ E).image fun c => (c, Q)) ∪
        (Finset.univ.filter fun y : F × F => (v + y.1 • d, y.2) ∈ O ∧ y.2 ≠ Q) := by
      rintro ⟨c, k⟩ h
      simp only [Finset.mem_filter, Finset.mem_univ, true_and] at h
      by_cases hk : k = Q
      · subst hk
        exact Finset.mem_union_left _ (Finset.mem_image.2 ⟨c, by simpa using hO _ _ h, rfl⟩)
      · exact Finset.mem_union_right _ (by simpa using ⟨h, hk⟩)
    refine (Finset.card_le_card hs).trans ((Finset.card_union_le _ _).trans (add_le_add Finset.card_image_le ?_))
    rw [hq, ← Finset.card_univ]
    refine Finset.card_le_card_of_injOn (fun y => y.2) (fun _ _ => Finset.mem_coe.2 (Finset.mem_univ _)) ?_
    rintro ⟨a, k⟩ ha ⟨b, l⟩ hb hab
    simp only [Finset.coe_filter, Finset.mem_univ, true_and, Set.mem_ofPred_eq] at ha hb hab
    subst hab
    rw [h1 v k a b ha.2 ha.1 hb.1]
  have key : ∀ v, o v * (q - n) ≤ 2 * q * m v := by
    intro v
    rcases Nat.eq_zero_or_pos (o v) with h0 | h0
    · simp [h0]
    · have h2 := hm v (ho v h0)
      calc o v * (q - n) ≤ (m v + q) * (q - n) := Nat.mul_le_mul_right _ (hom v)
        _ = m v * (q - n) + q * (q - n) := Nat.add_mul _ _ _
        _ ≤ m v * q + q * m v := Nat.add_le_add (Nat.mul_le_mul_left _ (Nat.sub_le _ _)) (Nat.mul_le_mul_left _ h2)
        _ = 2 * q * m v := by ring
  have hsum := Finset.sum_le_sum fun v (_ : v ∈ Finset.univ) => key v
  rw [← Finset.sum_mul, ← Finset.mul_sum, em, eo] at hsum
  have hq0 : 0 < q := Fintype.card_pos
  have : q * (O.card * (q - n)) ≤ q * (2 * q * E.card) := by
    calc q * (O.card * (q - n)) = q * O.card * (q - n) := by ring
      _ ≤ 2 * q * (q * E.card) := hsum
      _ = q * (2 * q * E.card) := by ring
  exact Nat.le_of_mul_le_mul_left this hq0

namespace Yct14

variable {F G1 G2 Gt : Type} [Field F] [DecidableEq F] [AddCommGroup G1] [Module F G1]
  [AddCommGroup G2] [Module F G2] [AddCommGroup Gt] [Module F Gt]

/-! ## Statement -/

/-- A user: the policy of the key as text and as a formula, the other random numbers of the call and the key. -/
structure Member (F G1 G2 Gt : Type) where
  text : Str
  lang : PolicyLanguage
  pol : Pol
  tape : Tape F G1 G2 Gt
  key : SecretKey F Gt

/-- The random numbers of one call of `setup` (master secret, then the exponents of the attributes) and of the calls of
`keygen`. -/
abbrev Drawn {ι : Type} (uni : List Str) (mem : ι → Member F G1 G2 Gt) : Type :=
  (Fin (uni.length + 1) → F) × ((i : ι) → Fin (draws (mem i).pol) → F)

/-- With these random numbers the users get the given keys. -/
def Yields {ι : Type} (uni : List Str) (t : Tape F G1 G2 Gt) (mem : ι → Member F G1 G2 Gt) (x : Drawn uni mem) : Prop :=
  ∃ pk msk t', setup uni (t.setFrs x.1) = .ok ((pk, msk), t') ∧
    ∀ i, ∃ u, keygen msk (mem i).text (mem i).lang ((mem i).tape.setFrs (x.2 i)) = .ok ((mem i).key, u)

/-- The exponent that `setup` draws for the attribute `a`. -/
def exponent (uni : List Str) (v : Fin (uni.length + 1) → F) (a : Str) : F :=
  if h : uni.idxOf a < uni.length then v ⟨uni.idxOf a + 1, Nat.succ_lt_succ h⟩ else 0

/-- The keys fix the master secret relative to the attributes of a ciphertext: whenever the users get these keys, the
master secret is the same combination of the exponents of these attributes. -/
def Fixed {ι : Type} (uni : List Str) (t : Tape F G1 G2 Gt) (mem : ι → Member F G1 G2 Gt) (attrs : List Str) : Prop :=
  ∃ c : ℕ → F, ∀ x, Yields uni t mem x → x.1 0 = ∑ i : Fin attrs.length, c i * exponent uni x.1 attrs[i]

/-- The users get the given keys, and the computation finds the session element of the ciphertext made by `job` with the
random number `x.2`. The computation may use the public key, the ciphertext, other ciphertexts and their session
elements, and other elements. -/
def OpenedByKeys {ι : Type} (env : Env F G1 G2 Gt) (f : Formula F) (uni : List Str) (t : Tape F G1 G2 Gt)
    (mem : ι → Member F G1 G2 Gt) (job : KpJob F G1 G2 Gt) (others : List (KpJob F G1 G2 Gt)) (extra : View G1 G2 Gt)
    (x : Drawn uni mem × F) : Prop :=
  Yields uni t mem x.1 ∧ ∃ pk msk t' ct u cts, setup uni (t.setFrs x.1.1) = .ok ((pk, msk), t') ∧
    encrypt env pk job.attrs job.plain (job.tape.setFr 0 x.2) = .ok (ct, u) ∧
    List.Forall₂ (fun o c => ∃ u, encrypt env pk o.attrs o.plain o.tape = .ok (c, u)) others cts ∧
    f.eval env (View.all (extra :: ⟨[], [], others.map fun o => o.tape.fr 0 • pk.g⟩ :: pk.seen :: ct.seen ::
      cts.map Ciphertext.seen)) = x.2 • pk.g

/-! ## Keys as solutions of linear equations -/

theorem setup_total (uni : List Str) (t : Tape F G1 G2 Gt) :
    ∃ pk msk t', (setup uni t : Res ((PublicKey F Gt × MasterKey F Gt) × Tape F G1 G2 Gt)) = .ok ((pk, msk), t') := by
  have key : ∀ (g : Gt) (l : List Str) (u : Tape F G1 G2 Gt), ∃ ps u', RM.mapL (Attribute.new g) l u = .ok (ps, u') := by
    intro g l
    induction l with
    | nil => intro u; exact ⟨[], u, rfl⟩
    | cons a l ih =>
      intro u
      obtain ⟨ps, u', h⟩ := ih { u with fr := dropS 1 u.fr }
      refine ⟨(⟨a, some (.pub (u.fr 0 • g))⟩, ⟨a, some (.priv (u.fr 0))⟩) :: ps, u', ?_⟩
      simp only [RM.mapL, RM.rbind_eq, RM.rpure_eq, RM.bind_ok, Attribute.new, RM.genFr, RM.pure_ok, Res.ok.injEq,
        Prod.mk.injEq]
      exact ⟨_, _, ⟨_, _, ⟨rfl, rfl⟩, rfl, rfl⟩, _, _, h, rfl, rfl⟩
  obtain ⟨ps, u', h⟩ := key (t.gt 0) uni { t with fr := dropS 1 t.fr, gt := dropS 1 t.gt }
  refine ⟨⟨t.fr 0 • t.gt 0, ps.map (·.1)⟩, ⟨t.fr 0, ps.map (·.2)⟩, u', ?_⟩
  simp only [setup, RM.bind_ok, RM.genGt, RM.genFr, RM.pure_ok, Res.ok.injEq, Prod.mk.injEq]
  exact ⟨_, _, ⟨rfl, rfl⟩, _, _, ⟨rfl, rfl⟩, ps, u', h, ⟨rfl, rfl⟩, rfl⟩

/-- The names under which `keygen` stores the components. -/
def cut (p : Pol) : List Str := p.leaves.map fun l => removeIndex (leafIdx l)

theorem mapR_shares {uni : List Str} {pk : PublicKey F Gt} {msk : MasterKey F Gt} {g : Gt} {X : Str → F}
    (hs : IsSetup uni pk msk g (uni.map fun a => (a, X a))) (key : List (Attribute F Gt)) :
    ∀ (ls : List (Str × ℕ)) (vs : List F), ls.length = vs.length →
    ((∃ du, Res.mapR (keygenShare msk) ((ls.map leafIdx).zip vs) = .ok du ∧ key = du.filterMap id) ↔
    (key = (((ls.map fun l => removeIndex (leafIdx l)).zip vs).filter (fun x => decide (x.1 ∈ uni))).map
      (fun x => part x.1 (x.2 * (X x.1)⁻¹)) ∧ ∀ n ∈ ls.map fun l => removeIndex (leafIdx l), n ∈ uni → X n ≠ 0)) := by
  intro ls
  induction ls generalizing key with
  | nil =>
    intro vs _
    simp [Res.mapR]
  | cons l ls ih =>
    intro vs hl
    cases vs with
    | nil => simp at hl
    | cons v vs =>
      have ih := fun key => ih key vs (by simpa using hl)
      simp only [List.map_cons, List.zip_cons_cons, Res.mapR, Res.rbind_eq, Res.bind_eq_ok, Res.ok.injEq,
        keygenShare_eq hs, expOf_map, List.mem_cons, forall_eq_or_imp]
      by_cases hm : removeIndex (leafIdx l) ∈ uni
      · by_cases hx : X (removeIndex (leafIdx l)) = 0
        · simp [hm, hx]
        · simp only [hm, if_true, hx, if_false, Res.ok.injEq, decide_true, List.filter_cons_of_pos, List.map_cons,
            not_false_eq_true, true_imp_iff, true_and, ne_eq]
          constructor
          · rintro ⟨_, ⟨a, rfl, as, has, rfl⟩, rfl⟩
            obtain ⟨h1, h2⟩ := (ih _).1 ⟨as, has, rfl⟩
            refine ⟨?_, h2⟩
            simp only [List.filterMap_cons, id, part]
            exact congrArg _ h1
          · rintro ⟨rfl, h2⟩
            obtain ⟨as, has, h⟩ := (ih _).2 ⟨rfl, h2⟩
            refine ⟨_, ⟨_, rfl, as, has, rfl⟩, ?_⟩
            simp only [List.filterMap_cons, id, part]
            exact congrArg _ h
      · rw [List.filter_cons_of_neg (by simp [hm])]
        simp only [hm, if_false, Res.ok.injEq, false_imp_iff, true_and]
        constructor
        · rintro ⟨_, ⟨a, rfl, as, has, rfl⟩, rfl⟩
          obtain ⟨h1, h2⟩ := (ih _).1 ⟨as, has, rfl⟩
          exact ⟨by simpa using h1, h2⟩
        · rintro ⟨rfl, h2⟩
          obtain ⟨as, has, h⟩ := (ih _).2 ⟨rfl, h2⟩
          exact ⟨_, ⟨_, rfl, as, has, rfl⟩, by simpa using h⟩

theorem keygen_iff {uni : List Str} {pk : PublicKey F Gt} {msk : MasterKey F Gt} {g : Gt} {X : Str → F}
    (hs : IsSetup uni pk msk g (uni.map fun a => (a, X a))) {policy lang} {t : Tape F G1 G2 Gt} {sk} {p : Pol}
    (hp : parse policy lang = .ok p.toValue) : (∃ t', keygen msk policy lang t = .ok (sk, t')) ↔
    sk = ⟨(policy, lang), (((cut p).zip (shareVals p msk.s t.fr)).filter (fun x => decide (x.1 ∈ uni))).map
      (fun x => part x.1 (x.2 * (X x.1)⁻¹))⟩ ∧ ∀ n ∈ cut p, n ∈ uni → X n ≠ 0 := by
  have hk := mapR_shares hs sk.du p.leaves (shareVals p msk.s t.fr) (shareVals_length _ _ _).symm
  have e : (sk = ⟨(policy, lang), (((cut p).zip (shareVals p msk.s t.fr)).filter (fun x => decide (x.1 ∈ uni))).map
      (fun x => part x.1 (x.2 * (X x.1)⁻¹))⟩) ↔ sk.policy = (policy, lang) ∧ sk.du =
      (((cut p).zip (shareVals p msk.s t.fr)).filter (fun x => decide (x.1 ∈ uni))).map
      (fun x => part x.1 (x.2 * (X x.1)⁻¹)) := by
    cases sk; simp
  rw [e, and_assoc, cut, ← hk]
  constructor
  · rintro ⟨t', h⟩
    simp only [keygen, RM.bind_ok, RM.lift_ok_iff, hp, Res.ok.injEq, RM.liftFr] at h
    obtain ⟨pv, t1, ⟨rfl, rfl⟩, sh, t2, hsh, h⟩ := h
    rw [genSharesPolicy_eq] at hsh
    simp only [Res.ok.injEq, Prod.mk.injEq] at hsh
    obtain ⟨rfl, rfl⟩ := hsh
    simp only [RM.bind_ok, RM.pure_ok, RM.lift_ok_iff] at h
    obtain ⟨du, t3, ⟨hdu, _⟩, rfl, _⟩ := h
    exact ⟨rfl, du, hdu, rfl⟩
  · rintro ⟨h1, du, h2, h3⟩
    refine ⟨{ t with fr := dropS (draws p) t.fr }, ?_⟩
    simp only [keygen, RM.bind_ok, RM.lift_ok_iff, hp, Res.ok.injEq, RM.liftFr]
    refine ⟨_, t, ⟨rfl, rfl⟩, some (shares p msk.s t.fr), { t with fr := dropS (draws p) t.fr }, ?_, ?_⟩
    · rw [genSharesPolicy_eq]
    · simp only [RM.bind_ok, RM.pure_ok, RM.lift_ok_iff]
      refine ⟨du, _, ⟨h2, rfl⟩, ?_, rfl⟩
      cases sk
      simp only at h1 h3
      subst h1 h3
      rfl

theorem parts_congr {uni : List Str} {X Y : Str → F} : ∀ (ns : List Str) (vs ws : List F), ns.length = vs.length →
    ns.length = ws.length →
    (((ns.zip vs).filter (fun x => decide (x.1 ∈ uni))).map (fun x => (part x.1 (x.2 * (X x.1)⁻¹) : Attribute F Gt)) =
      ((ns.zip ws).filter (fun x => decide (x.1 ∈ uni))).map (fun x => part x.1 (x.2 * (Y x.1)⁻¹)) ↔
    ∀ j n, ns[j]? = some n → n ∈ uni → vs.getD j 0 * (X n)⁻¹ = ws.getD j 0 * (Y n)⁻¹)
  | [], [], [], _, _ => by simp
  | n :: ns, v :: vs, w :: ws, h1, h2 => by
    have ih := parts_congr (uni := uni) (X := X) (Y := Y) ns vs ws (by simpa using h1) (by simpa using h2)
    have e : (∀ j m, (n :: ns)[j]? = some m → m ∈ uni → (v :: vs).getD j 0 * (X m)⁻¹ = (w :: ws).getD j 0 * (Y m)⁻¹) ↔
        (n ∈ uni → v * (X n)⁻¹ = w * (Y n)⁻¹) ∧
        (∀ j m, ns[j]? = some m → m ∈ uni → vs.getD j 0 * (X m)⁻¹ = ws.getD j 0 * (Y m)⁻¹) := by
      constructor
      · intro h
        exact ⟨fun hn => by simpa using h 0 n rfl hn, fun j m hj hm => by simpa using h (j + 1) m (by simpa using hj) hm⟩
      · rintro ⟨ha, hb⟩ j m hj hm
        cases j with
        | zero =>
          simp only [List.getElem?_cons_zero, Option.some.injEq] at hj
          subst hj
          simpa using ha hm
        | succ j => simpa using hb j m (by simpa using hj) hm
    rw [e, ← ih]
    by_cases hn : n ∈ uni
    · simp only [List.zip_cons_cons, hn, decide_true, List.filter_cons_of_pos, List.map_cons, List.cons.injEq, part,
        Attribute.mk.injEq, true_and, Option.some.injEq, Node.priv.injEq, true_imp_iff]
    · simp only [List.zip_cons_cons]
      rw [List.filter_cons_of_neg (by simp [hn]), List.filter_cons_of_neg (by simp [hn])]
      simp [hn]
  | [], _ :: _, _, h, _ => by simp at h
  | [], [], _ :: _, _, h => by simp at h
  | _ :: _, [], _, h, _ => by simp at h
  | _ :: _, _ :: _, [], _, h => by simp at h

variable {ι : Type} {uni : List Str} {mem : ι → Member F G1 G2 Gt}

/-- A list of numbers, continued by zeros. -/
def pad {n : ℕ} (f : Fin n → F) (i : ℕ) : F := if h : i < n then f ⟨i, h⟩ else 0

/-- The share of leaf `j` of the policy of user `i`. -/
def shareNo (mem : ι → Member F G1 G2 Gt) (i : ι) (j : ℕ) : Drawn uni mem →ₗ[F] F where
  toFun x := (shareVals (mem i).pol (x.1 0) (pad (x.2 i))).getD j 0
  map_add' x y := by
    have h := shareVals_lin 1 (mem i).pol (x.1 0) (y.1 0) (pad (x.2 i)) (pad (y.2 i))
    have e : (fun k => pad (x.2 i) k + 1 * pad (y.2 i) k) = pad ((x + y).2 i) := by
      funext k
      simp only [pad, Prod.snd_add, Pi.add_apply]
      split <;> simp
    rw [e, one_mul] at h
    change (shareVals (mem i).pol (x.1 0 + y.1 0) _).getD j 0 = _
    rw [h]
    simp only [List.getD_eq_getElem?_getD, List.getElem?_zipWith]
    have h1 := shareVals_length (mem i).pol (x.1 0) (pad (x.2 i))
    have h2 := shareVals_length (mem i).pol (y.1 0) (pad (y.2 i))
    by_cases hj : j < (mem i).pol.leaves.length
    · rw [List.getElem?_eq_getElem (by omega), List.getElem?_eq_getElem (by omega)]
      simp
    · rw [List.getElem?_eq_none (by omega), List.getElem?_eq_none (by omega)]
      simp
  map_smul' c x := by
    have h := shareVals_lin c (mem i).pol 0 (x.1 0) (fun _ => 0) (pad (x.2 i))
    have e : (fun k => (0 : F) + c * pad (x.2 i) k) = pad ((c • x).2 i) := by
      funext k
      simp only [pad, Prod.smul_snd, Pi.smul_apply, smul_eq_mul]
      split <;> simp
    rw [e, zero_add] at h
    change (shareVals (mem i).pol (c * x.1 0) _).getD j 0 = _
    rw [h]
    have h0 : ∀ k : ℕ, ((shareVals (mem i).pol (0 : F) (fun _ => 0))[k]?).getD 0 = 0 := by
      intro k
      have := shareVals_lin (1 : F) (mem i).pol 0 0 (fun _ => 0) (fun _ => 0)
      simp only [mul_zero, add_zero, one_mul] at this
      have hk := congrArg (fun l => (l[k]?).getD 0) this
      simp only [List.getElem?_zipWith] at hk
      cases hc : (shareVals (mem i).pol (0 : F) (fun _ => 0))[k]? with
      | none => rfl
      | some a =>
        simp only [hc, Option.getD_some] at hk
        simpa using hk
    simp only [List.getD_eq_getElem?_getD, List.getElem?_zipWith]
    have h1 := shareVals_length (mem i).pol (0 : F) (fun _ => 0)
    have h2 := shareVals_length (mem i).pol (x.1 0) (pad (x.2 i))
    have h3 := h0 j
    by_cases hj : j < (mem i).pol.leaves.length
    · rw [List.getElem?_eq_getElem (by omega)] at h3
      rw [List.getElem?_eq_getElem (by omega), List.getElem?_eq_getElem (by omega)]
      simp only [Option.getD_some] at h3
      simp [h3]
    · rw [List.getElem?_eq_none (by omega), List.getElem?_eq_none (by omega)]
      simp

/-- The exponent of an attribute. -/
def expNo (mem : ι → Member F G1 G2 Gt) (a : Str) : Drawn uni mem →ₗ[F] F where
  toFun x := exponent uni x.1 a
  map_add' x y := by simp only [exponent]; split <;> simp
  map_smul' c x := by simp only [exponent]; split <;> simp

/-- The master secret. -/
def secNo (uni : List Str) (mem : ι → Member F G1 G2 Gt) : Drawn uni mem →ₗ[F] F where
  toFun x := x.1 0
  map_add' _ _ := rfl
  map_smul' _ _ := rfl

theorem setup_run {t : Tape F G1 G2 Gt} (hnd : uni.Nodup) {v : Fin (uni.length + 1) → F} {pk msk t'}
    (h : setup uni (t.setFrs v) = .ok ((pk, msk), t')) :
    msk.s = v 0 ∧ IsSetup uni pk msk (t.gt 0) (uni.map fun a => (a, exponent uni v a)) := by
  obtain ⟨h1, h2⟩ := setup_exps hnd h
  refine ⟨by rw [h1]; simp [Tape.setFrs], ?_⟩
  have e : (uni.map fun a => (a, (t.setFrs v).fr (uni.idxOf a + 1))) = uni.map fun a => (a, exponent uni v a) := by
    refine List.map_congr_left fun a ha => ?_
    have := List.idxOf_lt_length_of_mem ha
    simp [Tape.setFrs, exponent, this]
  rw [e] at h2
  exact h2

theorem yields_iff {t : Tape F G1 G2 Gt} (hnd : uni.Nodup) (hp : ∀ i, Denotes (mem i).text (mem i).lang (mem i).pol)
    (x : Drawn uni mem) : Yields uni t mem x ↔ ∀ i,
    (mem i).key = ⟨((mem i).text, (mem i).lang), (((cut (mem i).pol).zip (shareVals (mem i).pol (x.1 0) (pad (x.2 i)))).filter
      (fun y => decide (y.1 ∈ uni))).map (fun y => part y.1 (y.2 * (expNo mem y.1 x)⁻¹))⟩ ∧
      ∀ n ∈ cut (mem i).pol, n ∈ uni → expNo mem n x ≠ 0 := by
  have hcon : ∀ i, shareVals (mem i).pol (x.1 0) (pad (x.2 i)) =
      shareVals (mem i).pol (x.1 0) ((mem i).tape.setFrs (x.2 i)).fr :=
    fun i => shareVals_congr _ _ fun k hk => by simp [pad, Tape.setFrs, hk]
  constructor
  · rintro ⟨pk, msk, t', hs, hk⟩ i
    obtain ⟨h1, h2⟩ := setup_run hnd hs
    have := (keygen_iff h2 (hp i)).1 (hk i)
    rw [h1, ← hcon] at this
    exact this
  · intro h
    obtain ⟨pk, msk, t', hs⟩ := setup_total uni (t.setFrs x.1)
    obtain ⟨h1, h2⟩ := setup_run hnd hs
    refine ⟨pk, msk, t', hs, fun i => (keygen_iff h2 (hp i)).2 ?_⟩
    rw [h1, ← hcon]
    exact h i

theorem yields_base {t : Tape F G1 G2 Gt} (hnd : uni.Nodup) (hp : ∀ i, Denotes (mem i).text (mem i).lang (mem i).pol)
    {x₀ : Drawn uni mem} (h₀ : Yields uni t mem x₀) (x : Drawn uni mem) : Yields uni t mem x ↔
    ∀ i j n, (cut (mem i).pol)[j]? = some n → n ∈ uni →
      expNo mem n x ≠ 0 ∧ shareNo mem i j x = shareNo mem i j x₀ * (expNo mem n x₀)⁻¹ * expNo mem n x := by
  rw [yields_iff hnd hp] at h₀ ⊢
  refine forall_congr' fun i => ?_
  obtain ⟨hk, -⟩ := h₀ i
  have hl : ∀ y : Drawn uni mem, (cut (mem i).pol).length = (shareVals (mem i).pol (y.1 0) (pad (y.2 i))).length := by
    intro y; rw [shareVals_length]; simp [cut]
  have hc := parts_congr (Gt := Gt) (uni := uni) (X := fun n => expNo mem n x₀) (Y := fun n => expNo mem n x) _ _ _ (hl x₀) (hl x)
  rw [hk]
  simp only [SecretKey.mk.injEq, true_and]
  rw [hc]
  constructor
  · rintro ⟨h1, h2⟩ j n hj hn
    have hx := h2 n (List.mem_of_getElem? hj) hn
    refine ⟨hx, ?_⟩
    have := h1 j n hj hn
    change shareNo mem i j x₀ * _ = shareNo mem i j x * _ at this
    rw [this, inv_mul_cancel_right₀ hx]
  · intro h
    refine ⟨fun j n hj hn => ?_, fun n hn hu => ?_⟩
    · obtain ⟨h1, h2⟩ := h j n hj hn
      change shareNo mem i j x₀ * _ = shareNo mem i j x * _
      rw [h2, mul_inv_cancel_right₀ h1]
    · obtain ⟨j, hj⟩ := List.getElem?_of_mem hn
      exact (h j n hj hu).1

/-- The solutions of the linear equations that the keys give. -/
def solutions (x₀ : Drawn uni mem) : Submodule F (Drawn uni mem) where
  carrier := {x | ∀ i j n, (cut (mem i).pol)[j]? = some n → n ∈ uni →
    shareNo mem i j x = shareNo mem i j x₀ * (expNo mem n x₀)⁻¹ * expNo mem n x}
  add_mem' {x y} hx hy i j n hj hn := by rw [map_add, map_add, hx i j n hj hn, hy i j n hj hn]; ring
  zero_mem' i j n hj hn := by simp
  smul_mem' c x hx i j n hj hn := by
    rw [map_smul, map_smul, hx i j n hj hn]
    simp only [smul_eq_mul]
    ring

/-- If the keys do not fix the master secret, it can change while the exponents of the attributes stay. -/
theorem exists_dir {t : Tape F G1 G2 Gt} (hnd : uni.Nodup) (hp : ∀ i, Denotes (mem i).text (mem i).lang (mem i).pol)
    {x₀ : Drawn uni mem} (h₀ : Yields uni t mem x₀) {attrs : List Str} (hno : ¬Fixed uni t mem attrs) :
    ∃ d ∈ solutions x₀, (∀ a ∈ attrs, expNo mem a d = 0) ∧ d.1 0 = 1 := by
  by_contra hc
  refine hno ?_
  let L : Fin attrs.length → (solutions x₀) →ₗ[F] F := fun i => (expNo mem attrs[i]).domRestrict _
  have hmem : (secNo uni mem).domRestrict (solutions x₀) ∈ Submodule.span F (Set.range L) := by
    refine mem_span_of_iInf_ker_le_ker fun y hy => ?_
    rw [LinearMap.mem_ker]
    by_contra hne
    refine hc ⟨(secNo uni mem y.1)⁻¹ • y.1, Submodule.smul_mem _ _ y.2, fun a ha => ?_, ?_⟩
    · obtain ⟨i, hi, rfl⟩ := List.getElem_of_mem ha
      rw [Submodule.mem_iInf] at hy
      have : expNo mem attrs[i] y.1 = 0 := hy ⟨i, hi⟩
      rw [map_smul, this, smul_zero]
    · exact inv_mul_cancel₀ hne
  rw [Submodule.mem_span_range_iff_exists_fun] at hmem
  obtain ⟨c, hc⟩ := hmem
  refine ⟨fun i => if h : i < attrs.length then c ⟨i, h⟩ else 0, fun x hx => ?_⟩
  have hs : x ∈ solutions x₀ := fun i j n hj hn => (((yields_base hnd hp h₀ x).1 hx) i j n hj hn).2
  have := congrArg (fun f => f ⟨x, hs⟩) hc
  change _ = x.1 0 at this
  rw [← this]
  simp only [LinearMap.coe_sum, Finset.sum_apply, LinearMap.smul_apply, smul_eq_mul]
  refine Finset.sum_congr rfl fun i _ => ?_
  rw [dif_pos i.2]
  rfl

/-! ## What is seen -/

/-- A multiple of the master secret or of an exponent, or the element of the ciphertext for an attribute. -/
inductive Sym (F : Type) where
  | own (c : F) (a : Option Str)
  | ct (a : Str)

/-- The exponent of what is seen. -/
def Sym.val (x : Drawn uni mem) (k : F) : Sym F → F
  | .own c none => c * secNo uni mem x
  | .own c (some a) => c * expNo mem a x
  | .ct a => k * expNo mem a x

/-- What is seen. -/
def syms (uni : List Str) (job : KpJob F G1 G2 Gt) (others : List (KpJob F G1 G2 Gt)) : List (Sym F) :=
  (others.map fun o => .own (o.tape.fr 0) none) ++ (.own 1 none :: ((uni.map fun a => .own 1 (some a)) ++
    (job.attrs.map .ct ++ others.flatMap fun o => o.attrs.map fun a => .own (o.tape.fr 0) (some a))))

theorem seen_eq {env : Env F G1 G2 Gt} {t : Tape F G1 G2 Gt} (hnd : uni.Nodup) {job : KpJob F G1 G2 Gt}
    {others : List (KpJob F G1 G2 Gt)} {extra : View G1 G2 Gt} {x : Drawn uni mem} {k : F} {pk msk t' ct u cts}
    (hs : setup uni (t.setFrs x.1) = .ok ((pk, msk), t'))
    (he : encrypt env pk job.attrs job.plain (job.tape.setFr 0 k) = .ok (ct, u))
    (ho : List.Forall₂ (fun o c => ∃ u, encrypt env pk o.attrs o.plain o.tape = .ok (c, u)) others cts) :
    pk.g = x.1 0 • t.gt 0 ∧
    View.all (extra :: ⟨[], [], others.map fun o => o.tape.fr 0 • pk.g⟩ :: pk.seen :: ct.seen ::
      cts.map Ciphertext.seen) =
      ⟨extra.one, extra.two, extra.tgt ++ (syms uni job others).map fun s => s.val x k • t.gt 0⟩ := by
  obtain ⟨h1, h2⟩ := setup_run hnd hs
  have hg : pk.g = x.1 0 • t.gt 0 := by rw [h2.gs, h1]
  refine ⟨hg, ?_⟩
  have hcts : View.all (cts.map Ciphertext.seen) = (⟨[], [], others.flatMap fun o =>
      o.attrs.map fun a => (o.tape.fr 0 * exponent uni x.1 a) • t.gt 0⟩ : View G1 G2 Gt) := by
    clear he
    induction ho with
    | nil => rfl
    | @cons o c os cs hoc _ ih =>
      obtain ⟨w, hw⟩ := hoc
      simp only [List.map_cons, View.all, ih, View.join, Ciphertext.seen, List.nil_append, List.flatMap_cons, ct_elems h2 hw]
  have hk : (job.tape.setFr 0 k).fr 0 = k := by simp [Tape.setFr]
  simp only [View.all, hcts, View.join, PublicKey.seen, Ciphertext.seen, ct_elems h2 he, pk_elems h2, hg, hk]
  simp only [List.append_nil, View.mk.injEq, true_and, syms, List.map_append, List.map_cons, List.map_map,
    List.map_flatMap, Function.comp_def, Sym.val, one_mul, mul_smul, List.cons_append]
  rfl

theorem wscalars {α : Type} (f : ℕ → F) (g : Gt) (y : α → F) : ∀ (n : ℕ) (l : List α),
    weigh f n (l.map fun a => y a • g) = weigh f n (l.map y) • g
  | _, [] => by simp [weigh]
  | n, a :: l => by
    simp only [List.map_cons, weigh, wscalars f g y (n + 1) l, smul_eq_mul]
    module

theorem wlin {α : Type} (f : ℕ → F) (y z : α → F) (c : F) : ∀ (n : ℕ) (l : List α),
    weigh f n (l.map fun a => y a + c * z a) = weigh f n (l.map y) + c * weigh f n (l.map z)
  | _, [] => by simp [weigh]
  | n, a :: l => by
    simp only [List.map_cons, weigh, wlin f y z c (n + 1) l, smul_eq_mul]
    ring

open Classical in
/-- Along a direction of the solutions most runs give the same keys. -/
theorem steps_many [Fintype F] {t : Tape F G1 G2 Gt} (hnd : uni.Nodup)
    (hp : ∀ i, Denotes (mem i).text (mem i).lang (mem i).pol) {x₀ v : Drawn uni mem} (h₀ : Yields uni t mem x₀)
    (hv : Yields uni t mem v) {d : Drawn uni mem} (hd : d ∈ solutions x₀) :
    Fintype.card F - uni.length ≤ (Finset.univ.filter fun c : F => Yields uni t mem (v + c • d)).card := by
  have hv' := (yields_base hnd hp h₀ v).1 hv
  have hsub : Finset.univ \ (uni.toFinset.image fun n => -(expNo mem n v * (expNo mem n d)⁻¹)) ⊆
      Finset.univ.filter fun c : F => Yields uni t mem (v + c • d) := by
    intro c hc
    simp only [Finset.mem_sdiff, Finset.mem_univ, true_and, Finset.mem_image, List.mem_toFinset, not_exists,
      not_and] at hc
    simp only [Finset.mem_filter, Finset.mem_univ, true_and]
    rw [yields_base hnd hp h₀]
    intro i j n hj hn
    obtain ⟨h1, h2⟩ := hv' i j n hj hn
    refine ⟨fun h => ?_, ?_⟩
    · rw [map_add, map_smul, smul_eq_mul] at h
      by_cases h0 : expNo mem n d = 0
      · rw [h0, mul_zero, add_zero] at h
        exact h1 h
      · refine hc n hn ?_
        field_simp
        linear_combination -h
    · rw [map_add, map_smul, h2, hd i j n hj hn, map_add, map_smul]
      simp only [smul_eq_mul]
      ring
  refine le_trans ?_ (Finset.card_le_card hsub)
  rw [Finset.card_sdiff_of_subset (Finset.subset_univ _), Finset.card_univ]
  exact Nat.sub_le_sub_left (Finset.card_image_le.trans (List.toFinset_card_le _)) _

open Classical in
/-- **C89.** If the keys do not fix the master secret relative to the attributes of the ciphertext, every computation
finds the session element for at most a fraction `2 / (q - n)` of the random numbers with which the users get these
keys, where `n` is the number of attributes of `setup`. -/
theorem C89_keys [Fintype F] [Fintype ι] [DecidableEq ι] (env : Env F G1 G2 Gt) (f : Formula F) (uni : List Str)
    (hnd : uni.Nodup) (t : Tape F G1 G2 Gt) (hg : t.gt 0 ≠ 0) (mem : ι → Member F G1 G2 Gt)
    (hp : ∀ i, Denotes (mem i).text (mem i).lang (mem i).pol) (job : KpJob F G1 G2 Gt)
    (others : List (KpJob F G1 G2 Gt)) (extra : View G1 G2 Gt) (hno : ¬Fixed uni t mem job.attrs) :
    (Finset.univ.filter (OpenedByKeys env f uni t mem job others extra)).card * (Fintype.card F - uni.length) ≤
      2 * Fintype.card F * (Finset.univ.filter (Yields uni t mem)).card := by
  by_cases hex : ∃ x₀, Yields uni t mem x₀
  swap
  · have : Finset.univ.filter (OpenedByKeys env f uni t mem job others extra) = ∅ := by
      refine Finset.filter_eq_empty_iff.2 fun x _ h => hex ⟨x.1, h.1⟩
    simp [this]
  obtain ⟨x₀, h₀⟩ := hex
  obtain ⟨d, hd, hda, hd1⟩ := exists_dir hnd hp h₀ hno
  have dir : ∀ (k c : F) (v : Drawn uni mem) (s : Sym F), s ∈ syms uni job others →
      s.val (v + c • d) k = s.val v k + c * (match s with | .ct _ => 0 | s => s.val d k) := by
    intro k c v s hs
    match s with
    | .own b none => simp only [Sym.val, map_add, map_smul, smul_eq_mul]; ring
    | .own b (some a) => simp only [Sym.val, map_add, map_smul, smul_eq_mul]; ring
    | .ct a =>
      have ha : a ∈ job.attrs := by simpa [syms] using hs
      simp only [Sym.val, map_add, map_smul, smul_eq_mul, hda a ha]
      ring
  refine card_along _ _ d _ (weigh f.tgt extra.tgt.length ((syms uni job others).map fun s =>
    match s with | .ct _ => 0 | s => s.val d 0)) ?_ ?_ ?_
  · intro v k h
    simp only [Finset.mem_filter, Finset.mem_univ, true_and] at h ⊢
    exact h.1
  · intro v hv
    simp only [Finset.mem_filter, Finset.mem_univ, true_and] at hv ⊢
    exact steps_many hnd hp h₀ hv hd
  · intro v k c c' hk h h'
    simp only [Finset.mem_filter, Finset.mem_univ, true_and] at h h'
    obtain ⟨-, pk, msk, t', ct, u, cts, hs, he, ho, hv⟩ := h
    obtain ⟨-, pk', msk', t'', ct', u', cts', hs', he', ho', hv'⟩ := h'
    obtain ⟨g1, e1⟩ := seen_eq (extra := extra) hnd hs he ho
    obtain ⟨g2, e2⟩ := seen_eq (extra := extra) hnd hs' he' ho'
    have val : ∀ c : F, ((syms uni job others).map fun s => s.val (v + c • d) k • t.gt 0) =
        (syms uni job others).map fun s => (s.val v k + c * (match s with | .ct _ => 0 | s => s.val d 0)) • t.gt 0 := by
      intro c
      refine List.map_congr_left fun s hs => ?_
      rw [dir k c v s hs]
      match s with
      | .own b none => rfl
      | .own b (some a) => rfl
      | .ct a => rfl
    rw [e1, val, g1] at hv
    rw [e2, val, g2] at hv'
    simp only [Formula.eval, weigh_append, wscalars, wlin, Nat.zero_add] at hv hv'
    have hs1 : ∀ c : F, (v + c • d).1 0 = v.1 0 + c := by
      intro c
      change v.1 0 + c * d.1 0 = _
      rw [hd1, mul_one]
    simp only [hs1] at hv hv'
    set A := weigh f.tgt extra.tgt.length ((syms uni job others).map fun s => s.val v k)
    set B := weigh f.tgt extra.tgt.length ((syms uni job others).map fun s =>
      match s with | .ct _ => (0 : F) | s => s.val d 0)
    have e := congrArg₂ (· - ·) hv hv'
    have e3 : ((c - c') * (B - k)) • t.gt 0 = 0 := by
      rw [← sub_eq_zero] at e
      rw [← e]
      module
    rcases smul_eq_zero.1 e3 with h | h
    · rcases mul_eq_zero.1 h with h | h
      · exact sub_eq_zero.1 h
      · exact absurd (sub_eq_zero.1 h).symm hk
    · exact absurd h hg

/-- **C89, the other case.** If the keys fix the master secret relative to the attributes of the ciphertext, one
computation from the public key and the ciphertext finds the session element whenever the users get these keys, for
every random number of the encryption. -/
theorem C89_opens (env : Env F G1 G2 Gt) (uni : List Str) (hnd : uni.Nodup) (t : Tape F G1 G2 Gt)
    (mem : ι → Member F G1 G2 Gt) (job : KpJob F G1 G2 Gt) (h : Fixed uni t mem job.attrs) :
    ∃ f : Formula F, ∀ (x : Drawn uni mem) (k : F) pk msk t' ct u, Yields uni t mem x →
      setup uni (t.setFrs x.1) = .ok ((pk, msk), t') →
      encrypt env pk job.attrs job.plain (job.tape.setFr 0 k) = .ok (ct, u) →
      f.eval env (View.all [pk.seen, ct.seen]) = k • pk.g ∧
        decryptSymmetric env (f.eval env (View.all [pk.seen, ct.seen])) ct.ct = .ok job.plain := by
  obtain ⟨c, hc⟩ := h
  let W : Drawn uni mem × F → View G1 G2 Gt := fun y => ⟨[], [], (syms uni job []).map fun s => s.val y.1 y.2 • t.gt 0⟩
  have hcomp : Computable env W fun y => ∑ i : Fin job.attrs.length, c i • (Sym.ct job.attrs[i]).val y.1 y.2 • t.gt 0 := by
    refine Computable.sum _ fun i _ => Computable.smul _ ?_
    refine Computable.tgt (1 + uni.length + i) fun y => ?_
    have hi := i.2
    simp only [W, syms, List.map_nil, List.nil_append, List.flatMap_nil, List.append_nil, List.map_cons, List.map_append,
      List.map_map]
    rw [show 1 + uni.length + i.val = (uni.length + i.val) + 1 by omega, List.getElem?_cons_succ,
      List.getElem?_append_right (by simp)]
    simp
  obtain ⟨f, hf⟩ := hcomp
  refine ⟨f, fun x k pk msk t' ct u hy hs he => ?_⟩
  obtain ⟨g1, e1⟩ := seen_eq (extra := ⟨[], [], []⟩) hnd hs he .nil
  have hv : View.all [pk.seen, ct.seen] = W (x, k) := by
    simpa [View.all, View.join, W] using e1
  have hval : f.eval env (View.all [pk.seen, ct.seen]) = k • pk.g := by
    rw [hv, hf, g1, hc x hy, Finset.sum_smul, Finset.smul_sum]
    refine Finset.sum_congr rfl fun i _ => ?_
    change c i • (k * exponent uni x.1 job.attrs[i]) • t.gt 0 = _
    module
  refine ⟨hval, ?_⟩
  rw [hval]
  unfold encrypt at he
  split at he
  · simp at he
  split at he
  · simp at he
  simp only [RM.bind_ok, RM.genFr, RM.lift_ok_iff, RM.pure_ok, Res.ok.injEq, Prod.mk.injEq] at he
  obtain ⟨k', t1, ⟨rfl, rfl⟩, as, t2, ⟨has, rfl⟩, c, t3, hc, rfl, _⟩ := he
  have := encryptSymmetric_ok hc
  simpa [Tape.setFr] using this

/-! ## Keys and policies -/

/-- If the shares of a satisfying set are zero, the secret is zero. -/
theorem _root_.Rabe.secret_zero [BigChar F] (A : List Str) : ∀ p : Pol, p.Fits → p.Wide → p.sat A = true → ∀ (σ : F) ω,
    (∀ i l, p.leaves[i]? = some l → l.1 ∈ A → (shareVals p σ ω).getD i 0 = 0) → σ = 0 := by
  intro p
  induction p using Pol.ind with
  | hl n c =>
    intro _ _ hs σ ω h
    have := h 0 (n, c) (by simp) (by simpa using hs)
    simpa [shareVals] using this
  | hg op cs ih =>
    intro hf hw hs σ ω h
    simp only [Pol.Fits, Pol.Wide, Pol.arity_gate] at hf hw
    have key : ∀ (ds : List Pol) (q : ℕ → F) (k : ℕ) (ω : ℕ → F), (∀ d ∈ ds, d ∈ cs) →
        (∀ i l, (ds.flatMap Pol.leaves)[i]? = some l → l.1 ∈ A → (shareValsL ds q k ω).getD i 0 = 0) →
        ∀ j (hj : j < ds.length), ds[j].sat A = true → q (k + j + 1) = 0 := by
      intro ds
      induction ds with
      | nil => intro q k ω _ _ j hj; simp at hj
      | cons d ds ihd =>
        intro q k ω hsub hz j hj hsat
        cases j with
        | zero =>
          have hd : d ∈ cs := hsub d (by simp)
          refine ih d hd (hf.2 d hd) (hw.2 d hd) hsat _ ω fun i l hi hl => ?_
          have hlt : i < d.leaves.length := (List.getElem?_eq_some_iff.1 hi).1
          have := hz i l (by rw [List.flatMap_cons, List.getElem?_append_left hlt]; exact hi) hl
          rw [shareValsL, List.getD_eq_getElem?_getD, List.getElem?_append_left (by rw [shareVals_length]; exact hlt)] at this
          rw [List.getD_eq_getElem?_getD]
          exact this
        | succ j =>
          have := ihd q (k + 1) (dropS (draws d) ω) (fun e he => hsub e (by simp [he])) (fun i l hi hl => by
            have := hz (d.leaves.length + i) l (by
              rw [List.flatMap_cons, List.getElem?_append_right (by omega), Nat.add_sub_cancel_left]; exact hi) hl
            rw [shareValsL, List.getD_eq_getElem?_getD, List.getElem?_append_right (by rw [shareVals_length]; omega),
              shareVals_length, Nat.add_sub_cancel_left] at this
            rw [List.getD_eq_getElem?_getD]
            exact this) j (by simpa using hj) (by simpa using hsat)
          rw [show k + (j + 1) + 1 = k + 1 + j + 1 by omega]
          exact this
    have hall := key cs (gateShare op cs.length σ ω) 0 (dropS (thr op cs.length - 1) ω) (fun _ h => h)
      (by simpa only [shareVals, Pol.leaves_gate] using h)
    cases op with
    | and =>
      rw [← gate_reconstruct cs.length hf.1 (by omega) σ ω]
      refine List.sum_eq_zero fun y hy => ?_
      obtain ⟨j, hj, rfl⟩ := List.mem_map.1 hy
      have hj := List.mem_range.1 hj
      have := hall j hj (by
        simp only [Pol.sat_and, List.all_eq_true] at hs
        exact hs _ (List.getElem_mem hj))
      rw [zero_add] at this
      rw [this, mul_zero]
    | or =>
      simp only [Pol.sat_or, List.any_eq_true] at hs
      obtain ⟨c, hc, hsat⟩ := hs
      obtain ⟨j, hj, rfl⟩ := List.getElem_of_mem hc
      have := hall j hj hsat
      rwa [gateShare_or] at this

/-- **C89, authorized keys.** If the attributes satisfy the policy of one of the keys, the keys fix the master secret. -/
theorem C89_authorized [BigChar F] (uni : List Str) (hnd : uni.Nodup) (t : Tape F G1 G2 Gt)
    (mem : ι → Member F G1 G2 Gt) (hp : ∀ i, Denotes (mem i).text (mem i).lang (mem i).pol) (i : ι)
    (hl : (mem i).text.length < 2 ^ 64) (hw : (mem i).pol.Wide) (attrs : List Str) (hu : ∀ a ∈ attrs, a ∈ uni ∧ '_' ∉ a)
    (hsat : (mem i).pol.sat attrs = true) : Fixed uni t mem attrs := by
  by_contra hno
  have hex : ∃ x, Yields uni t mem x := by
    by_contra hc
    exact hno ⟨fun _ => 0, fun x hx => absurd ⟨x, hx⟩ hc⟩
  obtain ⟨x₀, h₀⟩ := hex
  obtain ⟨d, hd, hda, hd1⟩ := exists_dir hnd hp h₀ hno
  have hf : (mem i).pol.Fits := by
    obtain ⟨q, hq, hf, _⟩ := parse_ok (hp i)
    rw [toValue_inj _ _ hq]; exact hf hl
  have := secret_zero (F := F) attrs (mem i).pol hf hw hsat (d.1 0) (pad (d.2 i)) fun j l hj hm => by
    have hr : removeIndex (leafIdx l) = l.1 := removeIndex_nodeIndex l.2 (hu _ hm).2
    have := hd i j l.1 (by rw [cut, List.getElem?_map, hj, Option.map_some, hr]) (hu _ hm).1
    rw [hda _ hm, mul_zero] at this
    exact this
  rw [hd1] at this
  exact one_ne_zero this

open Classical in
/-- A direction in which only the master secret changes leaves it open. -/
theorem free_of_dir [Fintype F] {t : Tape F G1 G2 Gt} (hnd : uni.Nodup)
    (hp : ∀ i, Denotes (mem i).text (mem i).lang (mem i).pol) {x₀ : Drawn uni mem} (h₀ : Yields uni t mem x₀)
    (hq : uni.length + 2 ≤ Fintype.card F) {d : Drawn uni mem} (hd : d ∈ solutions x₀) {attrs : List Str}
    (hda : ∀ a ∈ attrs, expNo mem a d = 0) (hd1 : d.1 0 = 1) : ¬Fixed uni t mem attrs := by
  rintro ⟨c, hc⟩
  have h2 := steps_many hnd hp h₀ h₀ hd
  obtain ⟨a, ha, b, hb, hab⟩ := Finset.one_lt_card.1
    (show 1 < (Finset.univ.filter fun c : F => Yields uni t mem (x₀ + c • d)).card by omega)
  simp only [Finset.mem_filter, Finset.mem_univ, true_and] at ha hb
  have ea := hc _ ha
  have eb := hc _ hb
  have hexp : ∀ (c : F) (i : Fin attrs.length), exponent uni (x₀ + c • d).1 attrs[i] = exponent uni x₀.1 attrs[i] := by
    intro c i
    change expNo mem attrs[i] (x₀ + c • d) = expNo mem attrs[i] x₀
    rw [map_add, map_smul, hda attrs[i] (List.getElem_mem i.2), smul_zero, add_zero]
  have hs1 : ∀ c : F, (x₀ + c • d).1 0 = x₀.1 0 + c := by
    intro c
    change x₀.1 0 + c * d.1 0 = _
    rw [hd1, mul_one]
  simp only [hexp, hs1] at ea eb
  exact hab (add_left_cancel (ea.trans eb.symm))

/-- **C89, policies without common attributes.** If no attribute occurs twice in all the policies together, the keys have
no component zero and the users get them in some run, then they fix the master secret only if the attributes of the
ciphertext satisfy the policy of one of the keys. -/
theorem C89_disjoint [BigChar F] [Fintype F] (uni : List Str) (hnd : uni.Nodup) (t : Tape F G1 G2 Gt)
    (mem : ι → Member F G1 G2 Gt) (hp : ∀ i, Denotes (mem i).text (mem i).lang (mem i).pol)
    (hl : ∀ i, (mem i).text.length < 2 ^ 64) (hu : ∀ i, ∀ n ∈ (mem i).pol.names, '_' ∉ n)
    (honce : ∀ (i : ι) (j : ℕ) (i' : ι) (j' : ℕ) (n : Str), (mem i).pol.names[j]? = some n → (mem i').pol.names[j']? = some n → i = i' ∧ j = j')
    (hnz : ∀ i, ∀ a ∈ (mem i).key.du, a.node ≠ some (.priv 0)) (hex : ∃ x, Yields uni t mem x)
    (hq : uni.length + 2 ≤ Fintype.card F) (attrs : List Str) (hfix : Fixed uni t mem attrs) :
    ∃ i, (mem i).pol.sat attrs = true := by
  classical
  by_contra hno
  obtain ⟨x₀, h₀⟩ := hex
  have hcut : ∀ i, cut (mem i).pol = (mem i).pol.names := by
    intro i
    refine List.map_congr_left fun l hl => removeIndex_nodeIndex l.2 (hu i _ (List.mem_map_of_mem hl))
  have hδ : ∀ i, ∃ δ : ℕ → F, ∀ j l, (mem i).pol.leaves[j]? = some l → l.1 ∈ attrs →
      (shareVals (mem i).pol 1 δ).getD j 0 = 0 := by
    intro i
    have hf : (mem i).pol.Fits := by
      obtain ⟨q, hq, hf, _⟩ := parse_ok (hp i)
      rw [toValue_inj _ _ hq]; exact hf (hl i)
    obtain ⟨δ, hδ⟩ := hides (F := F) attrs (mem i).pol hf (by
      by_contra h
      exact hno ⟨i, by simpa using h⟩) 1
    refine ⟨δ, fun j l hj hm => ?_⟩
    have h1 := hδ 0 (fun _ => 0) j l hj hm
    have h0 : shareNo (uni := uni) mem i j 0 = 0 := map_zero _
    change (shareVals (mem i).pol (0 : F) (pad fun _ => 0)).getD j 0 = 0 at h0
    have e : pad (fun _ : Fin (draws (mem i).pol) => (0 : F)) = fun _ => 0 := by
      funext k; simp [pad]
    rw [e, List.getD_eq_getElem?_getD, h1, zero_add] at h0
    have e' : (fun _ => (0 : F)) + δ = δ := by funext k; simp
    rw [e'] at h0
    rw [List.getD_eq_getElem?_getD]
    exact h0
  choose δ hδ using hδ
  let κ : ι → ℕ → Str → F := fun i j n => shareNo mem i j x₀ * (expNo mem n x₀)⁻¹
  let val : Str → F := fun n => if h : ∃ ij : ι × ℕ, (mem ij.1).pol.names[ij.2]? = some n then
    (shareVals (mem h.choose.1).pol 1 (δ h.choose.1)).getD h.choose.2 0 * (κ h.choose.1 h.choose.2 n)⁻¹ else 0
  have hval : ∀ i j n, (mem i).pol.names[j]? = some n → val n = (shareVals (mem i).pol 1 (δ i)).getD j 0 * (κ i j n)⁻¹ := by
    intro i j n h
    have hx : ∃ ij : ι × ℕ, (mem ij.1).pol.names[ij.2]? = some n := ⟨(i, j), h⟩
    obtain ⟨e1, e2⟩ := honce _ _ _ _ _ hx.choose_spec h
    simp only [val, dif_pos hx]
    generalize hx.choose = c at e1 e2
    obtain ⟨c1, c2⟩ := c
    simp only at e1 e2
    subst e1 e2
    rfl
  let d : Drawn uni mem := (fun k => if h : k.val = 0 then 1 else val (uni[k.val - 1]'(by omega)), fun i k => δ i k)
  have hd1 : d.1 0 = 1 := by simp [d]
  have hexp : ∀ n ∈ uni, expNo mem n d = val n := by
    intro n hn
    have hi := List.idxOf_lt_length_of_mem hn
    change exponent uni d.1 n = _
    simp [exponent, hi, d]
  have hsh : ∀ i j, shareNo mem i j d = (shareVals (mem i).pol 1 (δ i)).getD j 0 := by
    intro i j
    change (shareVals (mem i).pol (d.1 0) (pad (d.2 i))).getD j 0 = _
    rw [hd1, shareVals_congr (mem i).pol 1 (ω' := δ i) fun k hk => by simp [pad, hk, d]]
  refine free_of_dir hnd hp h₀ hq (d := d) ?_ (attrs := attrs) ?_ hd1 hfix
  · intro i j n hj hn
    rw [hcut] at hj
    have hk : κ i j n ≠ 0 := by
      intro h0
      obtain ⟨hk, -⟩ := (yields_iff hnd hp x₀).1 h₀ i
      refine hnz i (part n (κ i j n)) ?_ (by rw [h0]; rfl)
      rw [hk]
      obtain ⟨hjl, hjn⟩ := List.getElem?_eq_some_iff.1 hj
      have hlen : j < (shareVals (mem i).pol (x₀.1 0) (pad (x₀.2 i))).length := by
        rw [shareVals_length]; simpa [Pol.names] using hjl
      refine List.mem_map.2 ⟨(n, shareNo mem i j x₀), List.mem_filter.2 ⟨?_, by simpa using hn⟩, rfl⟩
      rw [hcut]
      refine List.mem_iff_getElem?.2 ⟨j, ?_⟩
      rw [List.getElem?_zip_eq_some]
      refine ⟨hj, ?_⟩
      change _ = some ((shareVals (mem i).pol (x₀.1 0) (pad (x₀.2 i))).getD j 0)
      rw [List.getD_eq_getElem?_getD, List.getElem?_eq_getElem hlen, Option.getD_some]
    rw [hexp n hn, hval i j n hj, hsh]
    change _ = κ i j n * _
    rw [mul_comm (κ i j n), inv_mul_cancel_right₀ hk]
  · intro a ha
    by_cases hm : a ∈ uni
    · rw [hexp a hm]
      by_cases hx : ∃ ij : ι × ℕ, (mem ij.1).pol.names[ij.2]? = some a
      · obtain ⟨⟨i, j⟩, hij⟩ := hx
        rw [hval i j a hij]
        simp only [Pol.names, List.getElem?_map, Option.map_eq_some_iff] at hij
        obtain ⟨l, hl, rfl⟩ := hij
        rw [hδ i j l hl ha, zero_mul]
      · simp only [val, dif_neg hx]
    · change exponent uni d.1 a = 0
      rw [exponent, dif_neg]
      exact fun h => hm (List.idxOf_lt_length_iff.1 h)

/-! ## Examples -/

deriving instance DecidableEq for Node, Attribute, SecretKey

/-- The users get given keys if the calls return them. -/
theorem yields_of {m : ℕ} {t : Tape F G1 G2 Gt} {mem : Fin m → Member F G1 G2 Gt} {x : Drawn uni mem}
    (h : ∀ i, (do
      let y ← setup uni (t.setFrs x.1)
      let u ← keygen y.1.2 (mem i).text (mem i).lang ((mem i).tape.setFrs (x.2 i))
      Res.ok u.1) = .ok (mem i).key) : Yields uni t mem x := by
  obtain ⟨pk, msk, t', hs⟩ := setup_total uni (t.setFrs x.1)
  refine ⟨pk, msk, t', hs, fun i => ?_⟩
  have := h i
  simp only [Res.bind_eq_ok, hs, Res.ok.injEq] at this
  obtain ⟨_, rfl, ⟨sk, u⟩, hk, rfl⟩ := this
  exact ⟨u, hk⟩

theorem owners_policy : Denotes (chars% "\"A\" and \"B\"") .human (.gate .and [.leaf ['A'] 2, .leaf ['B'] 10]) := rfl

/-- The owner of one key for `"A" and "B"`. -/
def oneOwner : Fin 1 → Member Fr Fr Fr Fr := fun _ =>
  ⟨chars% "\"A\" and \"B\"", .human, .gate .and [.leaf ['A'] 2, .leaf ['B'] 10], toyTape,
    ⟨(chars% "\"A\" and \"B\"", .human), [⟨['A'], some (.priv 1)⟩, ⟨['B'], some (.priv 1)⟩]⟩⟩

/-- One key for `"A" and "B"` does not fix the master secret relative to `A`: it is 1 in one run with this key and 0 in
another one, and the exponent of `A` is 1 in both. -/
theorem oneOwner_free : ¬Fixed [['A'], ['B']] toyTape oneOwner [['A']] := by
  rintro ⟨c, hc⟩
  have h1 := hc (![1, 1, 1], fun _ _ => 0) (yields_of fun i => by fin_cases i; decide +kernel)
  have h2 := hc (![0, 1, 2], fun _ _ => 1) (yields_of fun i => by fin_cases i; decide +kernel)
  simp [exponent] at h1 h2
  exact zero_ne_one (h2.trans h1.symm)

/-- `C89_keys` for this key and a message for `A`. -/
example (f : Formula Fr) := by
  classical
  exact C89_keys toyEnv f [['A'], ['B']] (by decide) toyTape (by decide +kernel) oneOwner (fun _ => owners_policy)
    ⟨[['A']], [1, 2, 3], toyTape⟩ [⟨[['B']], [4], toyTape⟩] ⟨[1], [2], [3]⟩ oneOwner_free

/-- The owners of two keys for `"A" and "B"`. -/
def twoOwners : Fin 2 → Member Fr Fr Fr Fr := fun i =>
  ⟨chars% "\"A\" and \"B\"", .human, .gate .and [.leaf ['A'] 2, .leaf ['B'] 10], toyTape,
    ⟨(chars% "\"A\" and \"B\"", .human), if i = 0 then [⟨['A'], some (.priv 1)⟩, ⟨['B'], some (.priv 1)⟩]
      else [⟨['A'], some (.priv 2)⟩, ⟨['B'], some (.priv 3)⟩]⟩⟩

/-- Two keys for `"A" and "B"` fix the master secret relative to `B`: with these keys it is the exponent of `B`. -/
theorem twoOwners_fixed : Fixed [['A'], ['B']] toyTape twoOwners [['B']] := by
  refine ⟨fun _ => 1, fun x hx => ?_⟩
  rw [yields_iff (by decide) (fun _ => owners_policy)] at hx
  obtain ⟨h0, h0'⟩ := hx 0
  obtain ⟨h1, -⟩ := hx 1
  have hc : ∀ i, cut (twoOwners i).pol = [['A'], ['B']] := by intro i; rfl
  have hA := h0' ['A'] (by simp [hc]) (by simp)
  have hB := h0' ['B'] (by simp [hc]) (by simp)
  rw [hc] at h0 h1
  simp [twoOwners, shareVals, shareValsL, gateShare, thr, polynomial, polynomialFrom, List.range_succ, part] at h0 h1
  obtain ⟨a0, b0⟩ := h0
  obtain ⟨a1, b1⟩ := h1
  rw [eq_mul_inv_iff_mul_eq₀ (by assumption)] at a0 b0 a1 b1
  have : x.1 0 = expNo twoOwners ['B'] x := by
    linear_combination -4 * a0 + 2 * b0 + 2 * a1 - b1
  rw [this]
  simp [expNo]

/-- They get these keys in some run. -/
example : Yields [['A'], ['B']] toyTape twoOwners (![1, 1, 1], fun i _ => if i = 0 then 0 else 1) :=
  yields_of fun i => by fin_cases i <;> decide +kernel

/-- `C89_opens` for these keys and a message for `B`. -/
example := C89_opens toyEnv [['A'], ['B']] (by decide) toyTape twoOwners ⟨[['B']], [1, 2, 3], toyTape⟩ twoOwners_fixed

/-- `C89_authorized` for one key for `"A" and "B"` and a message for `B`, `A`. -/
example : Fixed [['A'], ['B']] toyTape oneOwner [['B'], ['A']] :=
  C89_authorized _ (by decide) toyTape oneOwner (fun _ => owners_policy) 0 (by decide) (by simp [oneOwner, Pol.Wide])
    _ (by simp) (by simp [oneOwner])

/-- The owners of a key for `"A" and "B"` and of a key for `"C"`. -/
def strangers : Fin 2 → Member Fr Fr Fr Fr := fun i =>
  if i = 0 then oneOwner 0 else ⟨chars% "\"C\"", .human, .leaf ['C'] 2, toyTape,
    ⟨(chars% "\"C\"", .human), [⟨['C'], some (.priv 1)⟩]⟩⟩

/-- `C89_disjoint` for these two keys and a message for `B`: they get these keys in some run, and neither policy is
satisfied. -/
example : ¬Fixed [['A'], ['B'], ['C']] toyTape strangers [['B']] := by
  intro h
  obtain ⟨i, hi⟩ := C89_disjoint _ (by decide) toyTape strangers
    (by intro i; fin_cases i; exacts [owners_policy, rfl]) (by intro i; fin_cases i <;> decide)
    (by intro i; fin_cases i <;> simp [strangers, oneOwner, Pol.names])
    (by
      intro i j i' j' n h h'
      fin_cases i <;> fin_cases i' <;> simp [strangers, oneOwner, Pol.names] at h h' ⊢
      all_goals
        rcases j with _ | _ | j <;> rcases j' with _ | _ | j' <;> simp at h h' ⊢
        all_goals exact absurd (h.trans h'.symm) (by decide))
    (by intro i; fin_cases i <;> decide +kernel)
    ⟨(![1, 1, 1, 1], fun _ _ => 0), yields_of fun i => by fin_cases i <;> decide +kernel⟩
    (by rw [ZMod.card]; norm_num [bnOrder]) [['B']] h
  fin_cases i <;> simp [strangers, oneOwner] at hi

end Yct14
end Rabe
