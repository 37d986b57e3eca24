import Verif.Model.Policy

/-!
# Tree secret sharing

Model of `/repo/src/utils/secretsharing/mod.rs`.
-/

namespace Rabe

variable {F : Type} [Field F] [DecidableEq F]

/-- `polynomial`, `/repo/src/utils/secretsharing/mod.rs:215-221`; `i` is the loop index, `acc` the running sum
(`x.pow(usize_to_fr(i))` is `x ^ i`). -/
def polynomialFrom (x : F) : List F → ℕ → F → F
  | [], _, acc => acc
  | c :: cs, i, acc => polynomialFrom x cs (i + 1) (acc + c * x ^ i)

/-- `polynomial`, `/repo/src/utils/secretsharing/mod.rs:215-221`. -/
def polynomial (coeff : List F) (x : F) : F := polynomialFrom x coeff 0 0

/-- `gen_shares`, `/repo/src/utils/secretsharing/mod.rs:124-141`; the second component is the rest of the
random stream. -/
def genShares (secret : F) (k n : ℕ) (ω : ℕ → F) : List F × (ℕ → F) :=
  if k ≤ n then
    let a := secret :: (List.range (k - 1)).map ω
    ((List.range (n + 1)).map fun i : ℕ => polynomial a (i : F), dropS (k - 1) ω)
  else ([], ω)

mutual
/-- `gen_shares_policy`, `/repo/src/utils/secretsharing/mod.rs:82-122`, threading the random stream. -/
def genSharesPolicy : PolicyValue → F → Option PolicyType → (ℕ → F) →
    Res (Option (List (Str × F)) × (ℕ → F))
  | .str n c, secret, _, ω => .ok (some [(nodeIndex n c, secret)], ω)
  | .object ty v, secret, _, ω => match ty with
      | .and => genSharesPolicy v secret (some .and) ω
      | .or => genSharesPolicy v secret (some .or) ω
      | .leaf => genSharesPolicy v secret (some .leaf) ω
  | .array cs, secret, ty, ω => match ty with
      | some .and =>
          let r := genShares secret cs.length cs.length ω
          genSharesChildren cs r.1 0 [] r.2
      | some .or =>
          let r := genShares secret 1 cs.length ω
          genSharesChildren cs r.1 0 [] r.2
      | _ => .panic
/-- The loop over the children, `/repo/src/utils/secretsharing/mod.rs:111-119`
(`shares[_i + 1]` panics when out of range). -/
def genSharesChildren : List PolicyValue → List F → ℕ → List (Str × F) → (ℕ → F) →
    Res (Option (List (Str × F)) × (ℕ → F))
  | [], _, _, result, ω => .ok (some result, ω)
  | c :: cs, shares, i, result, ω => do
      let share ← Res.unwrapOption shares[i + 1]?
      let (items, ω') ← genSharesPolicy c share none ω
      match items with
      | none => .panic
      | some items => genSharesChildren cs shares (i + 1) (result ++ items) ω'
end

/-- Inner loop of `recover_coefficients`, `/repo/src/utils/secretsharing/mod.rs:64-68`. The `inverse().unwrap()`
of line 66 is guarded by `_i != _j`, so it never panics. -/
def recoverCoefficient (i : F) : List F → F → F
  | [], result => result
  | j :: js, result =>
      recoverCoefficient i js (if i ≠ j then result * ((0 - j) * (i - j)⁻¹) else result)

/-- `recover_coefficients`, `/repo/src/utils/secretsharing/mod.rs:60-72`. -/
def recoverCoefficients (list : List F) : List F := list.map fun i => recoverCoefficient i list 1

/-- The evaluation points of an AND gate, `/repo/src/utils/secretsharing/mod.rs:25-29`: `1`, then previous plus one;
never empty. -/
def andPoints : ℕ → List F
  | 0 => [1]
  | n + 1 => (List.range (n + 1)).map fun i => ((i + 1 : ℕ) : F)

mutual
/-- `calc_coefficients`, `/repo/src/utils/secretsharing/mod.rs:9-57`. -/
def calcCoefficients : PolicyValue → Option F → List (Str × F) → Option PolicyType →
    Res (Option (List (Str × F)))
  | .object ty v, coeff, acc, _ => match ty with
      | .and => calcCoefficients v coeff acc (some .and)
      | .or => calcCoefficients v coeff acc (some .or)
      | .leaf => do
          let c ← Res.unwrapOption coeff
          .ok (some (acc ++ [(getValue v, c)]))
  | .array cs, coeff, acc, ty => match ty with
      | none => .panic
      | some .and =>
          calcCoeffAnd cs (recoverCoefficients (andPoints cs.length)) 0 coeff acc
      | some .or => calcCoeffOr cs (recoverCoefficients [1]) coeff acc
      | some .leaf => .ok none
  | .str n c, coeff, acc, _ => do
      let k ← Res.unwrapOption coeff
      .ok (some (acc ++ [(nodeIndex n c, k)]))
/-- Loop of the AND arm, `/repo/src/utils/secretsharing/mod.rs:31-37`. -/
def calcCoeffAnd : List PolicyValue → List F → ℕ → Option F → List (Str × F) →
    Res (Option (List (Str × F)))
  | [], _, _, _, acc => .ok (some acc)
  | c :: cs, ks, i, coeff, acc => do
      let k ← Res.unwrapOption coeff
      let ki ← Res.unwrapOption ks[i]?
      let r ← calcCoefficients c (some (k * ki)) acc none
      match r with
      | none => .ok none
      | some acc' => calcCoeffAnd cs ks (i + 1) coeff acc'
/-- Loop of the OR arm, `/repo/src/utils/secretsharing/mod.rs:41-47`. -/
def calcCoeffOr : List PolicyValue → List F → Option F → List (Str × F) →
    Res (Option (List (Str × F)))
  | [], _, _, acc => .ok (some acc)
  | c :: cs, ks, coeff, acc => do
      let k ← Res.unwrapOption coeff
      let k0 ← Res.unwrapOption ks[0]?
      let r ← calcCoefficients c (some (k * k0)) acc none
      match r with
      | none => .ok none
      | some acc' => calcCoeffOr cs ks coeff acc'
end

mutual
/-- `calc_pruned`, `/repo/src/utils/secretsharing/mod.rs:143-201`. -/
def calcPruned (attr : List Str) : PolicyValue → Option PolicyType → Res (Bool × List (Str × Str))
  | .object ty v, _ => match ty with
      | .and => calcPruned attr v (some .and)
      | .or => calcPruned attr v (some .or)
      | .leaf => calcPruned attr v (some .leaf)
  | .array cs, ty => match ty with
      | some .and => if 2 ≤ cs.length then prunedAnd attr cs true [] else .panic
      | some .or => if 2 ≤ cs.length then prunedOr attr cs [] else .panic
      | _ => .err
  | .str n c, _ =>
      if contains attr n then .ok (true, [(n, nodeIndex n c)]) else .ok (false, [])
/-- AND loop, `/repo/src/utils/secretsharing/mod.rs:159-172`; all children are visited, the list is cleared
at the end when some child did not match. -/
def prunedAnd (attr : List Str) : List PolicyValue → Bool → List (Str × Str) →
    Res (Bool × List (Str × Str))
  | [], m, acc => .ok (m, if m then acc else [])
  | c :: cs, m, acc => do
      let (found, l) ← Res.unwrap (calcPruned attr c none)
      let m' := m && found
      prunedAnd attr cs m' (if m' then acc ++ l else acc)
/-- OR loop, `/repo/src/utils/secretsharing/mod.rs:177-185`; stops at the first match. -/
def prunedOr (attr : List Str) : List PolicyValue → List (Str × Str) →
    Res (Bool × List (Str × Str))
  | [], acc => .ok (false, acc)
  | c :: cs, acc => do
      let (found, l) ← Res.unwrap (calcPruned attr c none)
      if found then .ok (true, acc ++ l) else prunedOr attr cs acc
end

end Rabe
