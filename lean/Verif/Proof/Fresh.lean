import Verif.Proof.Common
import Verif.Proof.Privacy
import Mathlib.Tactic.Ring

/-!
# Use of the random source

`Draws` counts random values of each kind. `Uses m n`: whenever `m` succeeds it has consumed exactly the first `n` values of the
source, the rest is left untouched for the next operation, and the result is determined by the consumed values.
-/

set_option linter.unusedSectionVars false

namespace Rabe

/-- Numbers of random values: scalars, elements of the three groups, bytes. -/
@[ext] structure Draws where
  fr : ℕ := 0
  g1 : ℕ := 0
  g2 : ℕ := 0
  gt : ℕ := 0
  byte : ℕ := 0
  deriving DecidableEq

namespace Draws
instance : Zero Draws := ⟨{}⟩
instance : Add Draws := ⟨fun a b => ⟨a.fr + b.fr, a.g1 + b.g1, a.g2 + b.g2, a.gt + b.gt, a.byte + b.byte⟩⟩
instance : SMul ℕ Draws := ⟨fun k a => ⟨k * a.fr, k * a.g1, k * a.g2, k * a.gt, k * a.byte⟩⟩
@[simp] theorem zero_fr : (0 : Draws).fr = 0 := rfl
@[simp] theorem zero_g1 : (0 : Draws).g1 = 0 := rfl
@[simp] theorem zero_g2 : (0 : Draws).g2 = 0 := rfl
@[simp] theorem zero_gt : (0 : Draws).gt = 0 := rfl
@[simp] theorem zero_byte : (0 : Draws).byte = 0 := rfl
@[simp] theorem add_fr (a b : Draws) : (a + b).fr = a.fr + b.fr := rfl
@[simp] theorem add_g1 (a b : Draws) : (a + b).g1 = a.g1 + b.g1 := rfl
@[simp] theorem add_g2 (a b : Draws) : (a + b).g2 = a.g2 + b.g2 := rfl
@[simp] theorem add_gt (a b : Draws) : (a + b).gt = a.gt + b.gt := rfl
@[simp] theorem add_byte (a b : Draws) : (a + b).byte = a.byte + b.byte := rfl
@[simp] theorem smul_fr (k : ℕ) (a : Draws) : (k • a).fr = k * a.fr := rfl
@[simp] theorem smul_g1 (k : ℕ) (a : Draws) : (k • a).g1 = k * a.g1 := rfl
@[simp] theorem smul_g2 (k : ℕ) (a : Draws) : (k • a).g2 = k * a.g2 := rfl
@[simp] theorem smul_gt (k : ℕ) (a : Draws) : (k • a).gt = k * a.gt := rfl
@[simp] theorem smul_byte (k : ℕ) (a : Draws) : (k • a).byte = k * a.byte := rfl
end Draws

section
variable {F G1 G2 Gt α β : Type}

/-- The source after `n` values have been consumed. -/
def Tape.adv (t : Tape F G1 G2 Gt) (n : Draws) : Tape F G1 G2 Gt :=
  { fr := dropS n.fr t.fr, g1 := dropS n.g1 t.g1, g2 := dropS n.g2 t.g2, gt := dropS n.gt t.gt,
    byte := dropS n.byte t.byte }

/-- Two sources have the same first `n` values. -/
structure Tape.Same (n : Draws) (t u : Tape F G1 G2 Gt) : Prop where
  fr : ∀ i < n.fr, u.fr i = t.fr i
  g1 : ∀ i < n.g1, u.g1 i = t.g1 i
  g2 : ∀ i < n.g2, u.g2 i = t.g2 i
  gt : ∀ i < n.gt, u.gt i = t.gt i
  byte : ∀ i < n.byte, u.byte i = t.byte i

/-- Whenever `m` succeeds, it has consumed exactly the first `n` values of the source, and every source with the same first
`n` values leads to the same result. -/
def Uses (m : RM F G1 G2 Gt α) (n : Draws) : Prop :=
  ∀ t a t', m t = .ok (a, t') → t' = t.adv n ∧ ∀ u, t.Same n u → m u = .ok (a, u.adv n)

theorem dropS_dropS {γ : Type} (a b : ℕ) (ω : ℕ → γ) : dropS b (dropS a ω) = dropS (a + b) ω := by
  funext i; simp [dropS, Nat.add_assoc]

@[simp] theorem Tape.adv_zero (t : Tape F G1 G2 Gt) : t.adv 0 = t := by
  cases t; simp [Tape.adv, dropS_zero]

theorem Tape.adv_adv (t : Tape F G1 G2 Gt) (n k : Draws) : (t.adv n).adv k = t.adv (n + k) := by
  simp [Tape.adv, dropS_dropS]

theorem Tape.Same.left {n k : Draws} {t u : Tape F G1 G2 Gt} (h : t.Same (n + k) u) : t.Same n u :=
  ⟨fun i hi => h.fr i (by simp; omega), fun i hi => h.g1 i (by simp; omega), fun i hi => h.g2 i (by simp; omega),
    fun i hi => h.gt i (by simp; omega), fun i hi => h.byte i (by simp; omega)⟩

theorem Tape.Same.right {n k : Draws} {t u : Tape F G1 G2 Gt} (h : t.Same (n + k) u) : (t.adv n).Same k (u.adv n) :=
  ⟨fun i hi => h.fr _ (by simp; omega), fun i hi => h.g1 _ (by simp; omega), fun i hi => h.g2 _ (by simp; omega),
    fun i hi => h.gt _ (by simp; omega), fun i hi => h.byte _ (by simp; omega)⟩

theorem Uses.cast {m : RM F G1 G2 Gt α} {n k : Draws} (h : Uses m n) (e : n = k) : Uses m k := e ▸ h

theorem Uses.pure (a : α) : Uses (Pure.pure a : RM F G1 G2 Gt α) 0 := by
  intro t b t' h
  obtain ⟨rfl, rfl⟩ := RM.pure_ok.1 h
  exact ⟨by simp, fun u _ => by simp⟩

theorem Uses.lift (m : Res α) : Uses (RM.lift m : RM F G1 G2 Gt α) 0 := by
  intro t b t' h
  obtain ⟨rfl, rfl⟩ := RM.lift_ok_iff.1 h
  exact ⟨by simp, fun u _ => by simp⟩

theorem Uses.err (n : Draws) : Uses (RM.lift .err : RM F G1 G2 Gt α) n := by
  intro t b t' h
  simp at h

theorem Uses.bind {m : RM F G1 G2 Gt α} {f : α → RM F G1 G2 Gt β} {n k : Draws} (h : Uses m n)
    (hf : ∀ a, Uses (f a) k) : Uses (m >>= f) (n + k) := by
  intro t b t' hb
  obtain ⟨a, t1, h1, h2⟩ := RM.bind_ok.1 hb
  obtain ⟨rfl, hu⟩ := h _ _ _ h1
  obtain ⟨rfl, hv⟩ := hf a _ _ _ h2
  refine ⟨Tape.adv_adv t n k, fun u hs => ?_⟩
  rw [RM.bind_ok]
  exact ⟨a, _, hu u hs.left, by rw [hv _ hs.right, Tape.adv_adv]⟩

theorem Uses.bind_of {m : RM F G1 G2 Gt α} {f : α → RM F G1 G2 Gt β} {n k : Draws} (h : Uses m n)
    (hf : ∀ a t t', m t = .ok (a, t') → Uses (f a) k) : Uses (m >>= f) (n + k) := by
  intro t b t' hb
  obtain ⟨a, t1, h1, h2⟩ := RM.bind_ok.1 hb
  obtain ⟨rfl, hu⟩ := h _ _ _ h1
  obtain ⟨rfl, hv⟩ := hf a _ _ h1 _ _ _ h2
  refine ⟨Tape.adv_adv t n k, fun u hs => ?_⟩
  rw [RM.bind_ok]
  exact ⟨a, _, hu u hs.left, by rw [hv _ hs.right, Tape.adv_adv]⟩

theorem Uses.lift_bind {m : Res α} {a : α} (hm : m = .ok a) {f : α → RM F G1 G2 Gt β} {k : Draws} (hf : Uses (f a) k) :
    Uses (RM.lift m >>= f) k := by
  subst hm
  exact hf

theorem Uses.mapL {f : α → RM F G1 G2 Gt β} {n : Draws} (hf : ∀ a, Uses (f a) n) :
    ∀ xs : List α, Uses (RM.mapL f xs) (xs.length • n)
  | [] => by
    have : ([] : List α).length • n = 0 := by ext <;> simp
    rw [this]; exact Uses.pure _
  | x :: xs => by
    have : (x :: xs).length • n = n + (xs.length • n + 0) := by ext <;> simp <;> ring
    rw [this]
    exact (hf x).bind fun y => (Uses.mapL hf xs).bind fun ys => Uses.pure _

theorem Uses.genFr : Uses (RM.genFr : RM F G1 G2 Gt F) { fr := 1 } := by
  intro t b t' h
  obtain ⟨rfl, rfl⟩ : b = t.fr 0 ∧ t' = _ := by simpa [RM.genFr, eq_comm] using h
  refine ⟨by simp [Tape.adv, dropS_zero], fun u hs => ?_⟩
  simp [RM.genFr, Tape.adv, dropS_zero, hs.fr 0 (by simp)]

theorem Uses.genG1 : Uses (RM.genG1 : RM F G1 G2 Gt G1) { g1 := 1 } := by
  intro t b t' h
  obtain ⟨rfl, rfl⟩ : b = t.g1 0 ∧ t' = _ := by simpa [RM.genG1, eq_comm] using h
  refine ⟨by simp [Tape.adv, dropS_zero], fun u hs => ?_⟩
  simp [RM.genG1, Tape.adv, dropS_zero, hs.g1 0 (by simp)]

theorem Uses.genG2 : Uses (RM.genG2 : RM F G1 G2 Gt G2) { g2 := 1 } := by
  intro t b t' h
  obtain ⟨rfl, rfl⟩ : b = t.g2 0 ∧ t' = _ := by simpa [RM.genG2, eq_comm] using h
  refine ⟨by simp [Tape.adv, dropS_zero], fun u hs => ?_⟩
  simp [RM.genG2, Tape.adv, dropS_zero, hs.g2 0 (by simp)]

theorem Uses.genGt : Uses (RM.genGt : RM F G1 G2 Gt Gt) { gt := 1 } := by
  intro t b t' h
  obtain ⟨rfl, rfl⟩ : b = t.gt 0 ∧ t' = _ := by simpa [RM.genGt, eq_comm] using h
  refine ⟨by simp [Tape.adv, dropS_zero], fun u hs => ?_⟩
  simp [RM.genGt, Tape.adv, dropS_zero, hs.gt 0 (by simp)]

theorem Uses.genBytes (n : ℕ) : Uses (RM.genBytes n : RM F G1 G2 Gt Bytes) { byte := n } := by
  intro t b t' h
  obtain ⟨rfl, rfl⟩ : b = (List.range n).map t.byte ∧ t' = _ := by simpa [RM.genBytes, eq_comm] using h
  refine ⟨by simp [Tape.adv, dropS_zero], fun u hs => ?_⟩
  simp only [RM.genBytes, Tape.adv, dropS_zero, Res.ok.injEq, Prod.mk.injEq, and_true]
  exact List.map_congr_left fun i hi => hs.byte i (by simpa using hi)

end

section
variable {F G1 G2 Gt : Type} [Field F] [DecidableEq F] [AddCommGroup G1] [Module F G1]
  [AddCommGroup G2] [Module F G2] [AddCommGroup Gt] [Module F Gt]

theorem Uses.shares (p : Pol) (σ : F) :
    Uses (RM.liftFr (genSharesPolicy p.toValue σ none) : RM F G1 G2 Gt _) { fr := draws p } := by
  intro t b t' h
  simp only [RM.liftFr, genSharesPolicy_eq, Res.ok.injEq, Prod.mk.injEq] at h
  obtain ⟨rfl, rfl⟩ := h
  refine ⟨by simp [Tape.adv, dropS_zero], fun u hs => ?_⟩
  simp only [RM.liftFr, genSharesPolicy_eq, Tape.adv, dropS_zero, Rabe.shares,
    shareVals_congr p σ (ω := u.fr) (ω' := t.fr) hs.fr]

theorem Uses.shares_bind {β : Type} (p : Pol) (σ : F) {f : Option (List (Str × F)) → RM F G1 G2 Gt β} {k : Draws}
    (hf : ∀ S, S.length = p.leaves.length → Uses (f (some S)) k) :
    Uses (RM.liftFr (genSharesPolicy p.toValue σ none) >>= f) ({ fr := draws p } + k) := by
  refine (Uses.shares p σ).bind_of fun a t t' h => ?_
  simp only [RM.liftFr, genSharesPolicy_eq, Res.ok.injEq, Prod.mk.injEq] at h
  obtain ⟨rfl, -⟩ := h
  exact hf _ (by simp [Rabe.shares, shareVals_length])

theorem Uses.symmetric (env : Env F G1 G2 Gt) (msg : Gt) (data : Bytes) :
    Uses (encryptSymmetric env msg data) { byte := 12 } := by
  refine ((Uses.genBytes 12).bind (k := 0) fun nonce => ?_).cast (by ext <;> simp)
  split
  · exact Uses.pure _
  · exact Uses.lift _

end

theorem Uses.then {F G1 G2 Gt α β : Type} {m : RM F G1 G2 Gt α} {f : α → RM F G1 G2 Gt β} {n k r : Draws} (h : Uses m n)
    (e : r = n + k) (hf : ∀ a, Uses (f a) k) : Uses (m >>= f) r := e ▸ h.bind hf

/-- `k` values, then the rest. -/
theorem Uses.genFr_then {F G1 G2 Gt β : Type} {f : F → RM F G1 G2 Gt β} {r : Draws} (hr : 1 ≤ r.fr)
    (hf : ∀ a, Uses (f a) { r with fr := r.fr - 1 }) : Uses (RM.genFr >>= f) r :=
  Uses.genFr.then (by ext <;> simp; omega) hf

theorem Uses.genG1_then {F G1 G2 Gt β : Type} {f : G1 → RM F G1 G2 Gt β} {r : Draws} (hr : 1 ≤ r.g1)
    (hf : ∀ a, Uses (f a) { r with g1 := r.g1 - 1 }) : Uses (RM.genG1 >>= f) r :=
  Uses.genG1.then (by ext <;> simp; omega) hf

theorem Uses.genG2_then {F G1 G2 Gt β : Type} {f : G2 → RM F G1 G2 Gt β} {r : Draws} (hr : 1 ≤ r.g2)
    (hf : ∀ a, Uses (f a) { r with g2 := r.g2 - 1 }) : Uses (RM.genG2 >>= f) r :=
  Uses.genG2.then (by ext <;> simp; omega) hf

theorem Uses.genGt_then {F G1 G2 Gt β : Type} {f : Gt → RM F G1 G2 Gt β} {r : Draws} (hr : 1 ≤ r.gt)
    (hf : ∀ a, Uses (f a) { r with gt := r.gt - 1 }) : Uses (RM.genGt >>= f) r :=
  Uses.genGt.then (by ext <;> simp; omega) hf

theorem Uses.lift_then {F G1 G2 Gt α β : Type} {m : Res α} {f : α → RM F G1 G2 Gt β} {r : Draws}
    (hf : ∀ a, Uses (f a) r) : Uses (RM.lift m >>= f) r :=
  (Uses.lift m).then (by ext <;> simp) hf

/-- Closes goals `Uses m n` for a straight-line program by the rules above. -/
macro "uses" : tactic => `(tactic| repeat' first
  | refine Uses.genFr_then (by simp) fun _ => ?_
  | refine Uses.genG1_then (by simp) fun _ => ?_
  | refine Uses.genG2_then (by simp) fun _ => ?_
  | refine Uses.genGt_then (by simp) fun _ => ?_
  | refine Uses.lift_then fun _ => ?_
  | exact (Uses.pure _).cast (by ext <;> simp))

end Rabe
