import Mathlib.NumberTheory.LucasPrimality
import Mathlib.Tactic.NormNum.Prime

/-!
# The group order of BN254 is prime

Pratt certificate for the order of the groups of `rabe_bn` (the crate behind `/repo/src/lib.rs:92`).
-/

namespace Rabe

/-- `a ^ n % m` by repeated squaring; `fuel` bounds the number of binary digits of `n`. -/
def powMod (a m : ℕ) : ℕ → ℕ → ℕ
  | 0, _ => 1 % m
  | fuel + 1, n =>
      if n = 0 then 1 % m
      else
        let h := powMod a m fuel (n / 2)
        if n % 2 = 0 then h * h % m else h * h % m * a % m

theorem powMod_eq (a m : ℕ) : ∀ fuel n, n < 2 ^ fuel → powMod a m fuel n = a ^ n % m := by
  intro fuel
  induction fuel with
  | zero => intro n h; obtain rfl : n = 0 := by simpa using h
            simp [powMod]
  | succ fuel ih =>
    intro n h
    have h2 : n / 2 < 2 ^ fuel := by omega
    simp only [powMod, ih _ h2]
    split
    · subst_vars; simp
    · have e : n = 2 * (n / 2) + n % 2 := by omega
      split
      · rename_i h0
        conv_rhs => rw [e, h0, Nat.add_zero, Nat.two_mul, pow_add]
        exact (Nat.mul_mod _ _ _).symm
      · have h1 : n % 2 = 1 := by omega
        conv_rhs => rw [e, h1, pow_succ, Nat.two_mul, pow_add]
        rw [Nat.mul_mod (a ^ (n / 2) * a ^ (n / 2)) a m, Nat.mul_mod (a ^ (n / 2)) (a ^ (n / 2)) m]
        simp [Nat.mul_mod]

theorem pratt (p a : ℕ) (fs : List ℕ) (hp : 1 < p) (hprod : p - 1 = fs.prod) (hfs : ∀ q ∈ fs, q.Prime)
    (hlt : p < 2 ^ 254) (h1 : powMod a p 254 (p - 1) = 1) (h2 : ∀ q ∈ fs, powMod a p 254 ((p - 1) / q) ≠ 1) :
    p.Prime := by
  have hd : ∀ q, (p - 1) / q < 2 ^ 254 := fun q => lt_of_le_of_lt (Nat.div_le_self _ _) (by omega)
  rw [powMod_eq _ _ _ _ (by omega)] at h1
  simp only [powMod_eq _ _ _ _ (hd _)] at h2
  have key : ∀ n : ℕ, ((a : ZMod p) ^ n = 1 ↔ a ^ n % p = 1) := by
    intro n
    rw [← Nat.cast_pow, ← Nat.cast_one, ZMod.natCast_eq_natCast_iff', Nat.mod_eq_of_lt hp]
  refine lucas_primality p (a : ZMod p) ((key _).2 h1) ?_
  intro q hq hd
  rw [Ne, key]
  apply h2
  rw [hprod] at hd
  obtain ⟨r, hr, hqr⟩ := (Nat.Prime.prime hq).dvd_prod_iff.1 hd
  rwa [(Nat.prime_dvd_prime_iff_eq hq (hfs r hr)).1 hqr]

theorem prime_2 : Nat.Prime 2 := by norm_num

theorem prime_3 : Nat.Prime 3 := by norm_num

theorem prime_13 : Nat.Prime 13 := by norm_num

theorem prime_29 : Nat.Prime 29 := by norm_num

theorem prime_983 : Nat.Prime 983 := by norm_num

theorem prime_11003 : Nat.Prime 11003 := by norm_num

theorem prime_237073 : Nat.Prime 237073 := by norm_num

theorem prime_11 : Nat.Prime 11 := by norm_num

theorem prime_3691 : Nat.Prime 3691 := by norm_num

theorem prime_4999 : Nat.Prime 4999 := by norm_num

theorem prime_405928799 : Nat.Prime 405928799 := by
  refine pratt 405928799 22 [2, 11, 3691, 4999] (by norm_num) (by norm_num) ?_ (by norm_num) (by decide +kernel) (by decide +kernel)
  simp only [List.forall_mem_cons, List.not_mem_nil, false_implies, implies_true, and_true]
  exact ⟨prime_2, prime_11, prime_3691, prime_4999⟩

theorem prime_107 : Nat.Prime 107 := by norm_num

theorem prime_7 : Nat.Prime 7 := by norm_num

theorem prime_661 : Nat.Prime 661 := by norm_num

theorem prime_93001 : Nat.Prime 93001 := by norm_num

theorem prime_12048837557 : Nat.Prime 12048837557 := by
  refine pratt 12048837557 2 [2, 2, 7, 7, 661, 93001] (by norm_num) (by norm_num) ?_ (by norm_num) (by decide +kernel) (by decide +kernel)
  simp only [List.forall_mem_cons, List.not_mem_nil, false_implies, implies_true, and_true]
  exact ⟨prime_2, prime_2, prime_7, prime_7, prime_661, prime_93001⟩

theorem prime_5156902474397 : Nat.Prime 5156902474397 := by
  refine pratt 5156902474397 2 [2, 2, 107, 12048837557] (by norm_num) (by norm_num) ?_ (by norm_num) (by decide +kernel) (by decide +kernel)
  simp only [List.forall_mem_cons, List.not_mem_nil, false_implies, implies_true, and_true]
  exact ⟨prime_2, prime_2, prime_107, prime_12048837557⟩

theorem prime_1670836401704629 : Nat.Prime 1670836401704629 := by
  refine pratt 1670836401704629 2 [2, 2, 3, 3, 3, 3, 5156902474397] (by norm_num) (by norm_num) ?_ (by norm_num) (by decide +kernel) (by decide +kernel)
  simp only [List.forall_mem_cons, List.not_mem_nil, false_implies, implies_true, and_true]
  exact ⟨prime_2, prime_2, prime_3, prime_3, prime_3, prime_3, prime_5156902474397⟩

theorem prime_5 : Nat.Prime 5 := by norm_num

theorem prime_823 : Nat.Prime 823 := by norm_num

theorem prime_19 : Nat.Prime 19 := by norm_num

theorem prime_41927 : Nat.Prime 41927 := by norm_num

theorem prime_1593227 : Nat.Prime 1593227 := by
  refine pratt 1593227 2 [2, 19, 41927] (by norm_num) (by norm_num) ?_ (by norm_num) (by decide +kernel) (by decide +kernel)
  simp only [List.forall_mem_cons, List.not_mem_nil, false_implies, implies_true, and_true]
  exact ⟨prime_2, prime_19, prime_41927⟩

theorem prime_83 : Nat.Prime 83 := by norm_num

theorem prime_379 : Nat.Prime 379 := by norm_num

theorem prime_1637 : Nat.Prime 1637 := by norm_num

theorem prime_229 : Nat.Prime 229 := by norm_num

theorem prime_853 : Nat.Prime 853 := by norm_num

theorem prime_639533339 : Nat.Prime 639533339 := by
  refine pratt 639533339 2 [2, 229, 853, 1637] (by norm_num) (by norm_num) ?_ (by norm_num) (by decide +kernel) (by decide +kernel)
  simp only [List.forall_mem_cons, List.not_mem_nil, false_implies, implies_true, and_true]
  exact ⟨prime_2, prime_229, prime_853, prime_1637⟩

theorem prime_65865678001877903 : Nat.Prime 65865678001877903 := by
  refine pratt 65865678001877903 5 [2, 83, 379, 1637, 639533339] (by norm_num) (by norm_num) ?_ (by norm_num) (by decide +kernel) (by decide +kernel)
  simp only [List.forall_mem_cons, List.not_mem_nil, false_implies, implies_true, and_true]
  exact ⟨prime_2, prime_83, prime_379, prime_1637, prime_639533339⟩

theorem prime_13818364434197438864469338081 : Nat.Prime 13818364434197438864469338081 := by
  refine pratt 13818364434197438864469338081 3 [2, 2, 2, 2, 2, 5, 823, 1593227, 65865678001877903] (by norm_num) (by norm_num) ?_ (by norm_num) (by decide +kernel) (by decide +kernel)
  simp only [List.forall_mem_cons, List.not_mem_nil, false_implies, implies_true, and_true]
  exact ⟨prime_2, prime_2, prime_2, prime_2, prime_2, prime_5, prime_823, prime_1593227, prime_65865678001877903⟩

theorem prime_21888242871839275222246405745257275088548364400416034343698204186575808495617 : Nat.Prime 21888242871839275222246405745257275088548364400416034343698204186575808495617 := by
  refine pratt 21888242871839275222246405745257275088548364400416034343698204186575808495617 5 [2, 2, 2, 2, 2, 2, 2, 2, 2, 2, 2, 2, 2, 2, 2, 2, 2, 2, 2, 2, 2, 2, 2, 2, 2, 2, 2, 2, 3, 3, 13, 29, 983, 11003, 237073, 405928799, 1670836401704629, 13818364434197438864469338081] (by norm_num) (by norm_num) ?_ (by norm_num) (by decide +kernel) (by decide +kernel)
  simp only [List.forall_mem_cons, List.not_mem_nil, false_implies, implies_true, and_true]
  exact ⟨prime_2, prime_2, prime_2, prime_2, prime_2, prime_2, prime_2, prime_2, prime_2, prime_2, prime_2, prime_2, prime_2, prime_2, prime_2, prime_2, prime_2, prime_2, prime_2, prime_2, prime_2, prime_2, prime_2, prime_2, prime_2, prime_2, prime_2, prime_2, prime_3, prime_3, prime_13, prime_29, prime_983, prime_11003, prime_237073, prime_405928799, prime_1670836401704629, prime_13818364434197438864469338081⟩

end Rabe
