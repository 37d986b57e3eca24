import Verif.Model.Pest

/-!
# Monotone span programs

Model of `/repo/src/utils/policy/msp.rs`.
-/

namespace Rabe

/-- `struct AbePolicy`, `/repo/src/utils/policy/msp.rs:11-15`. Entries are only -1, 0, 1, so `i8` is modelled
by `ℤ` without overflow. -/
structure AbePolicy where
  m : List (List ℤ)
  pi : List Str
  c : ℕ
  deriving DecidableEq, Repr

/-- `Vec::resize(n, 0)`, used in `/repo/src/utils/policy/msp.rs:90,135,137`: truncates or pads with zeros. -/
def resize (n : ℕ) (l : List ℤ) : List ℤ := l.take n ++ List.replicate (n - l.length) 0

mutual
/-- `lw` (Lewko–Waters), `/repo/src/utils/policy/msp.rs:102-147`. -/
def lw : PolicyValue → AbePolicy → List ℤ → Option PolicyType → Res (AbePolicy × Bool)
  | .str n _, msp, v, _ => .ok ({ msp with m := v :: msp.m, pi := n :: msp.pi }, true)
  | .object ty p, msp, v, _ => match ty with
      | .and => lw p msp v (some .and)
      | .or => lw p msp v (some .or)
      | .leaf => lw p msp v (some .leaf)
  | .array cs, msp, v, parent =>
      if cs.length < 2 then .panic
      else match parent with
        | some .or => lwOr cs msp v true
        | some .and =>
            if cs.length ≠ 2 then .panic
            else
              let right := resize msp.c v ++ [1]
              let left := resize msp.c [] ++ [-1]
              lwAnd cs { msp with c := msp.c + 1 } [right, left]
        | some .leaf => .ok (msp, false)
        | none => .ok (msp, false)
/-- OR loop, `/repo/src/utils/policy/msp.rs:125-129` (`_ret &= lw(…)`, every child is visited). -/
def lwOr : List PolicyValue → AbePolicy → List ℤ → Bool → Res (AbePolicy × Bool)
  | [], msp, _, ret => .ok (msp, ret)
  | c :: cs, msp, v, ret => do
      let (msp', r) ← lw c msp v (some .or)
      lwOr cs msp' v (ret && r)
/-- The two recursive calls of the AND arm joined by `&&`, `/repo/src/utils/policy/msp.rs:140`
(the second call is skipped when the first returns `false`). The list holds the vectors of the children. -/
def lwAnd : List PolicyValue → AbePolicy → List (List ℤ) → Res (AbePolicy × Bool)
  | c :: cs, msp, v :: vs => do
      let (msp', r) ← lw c msp v (some .and)
      if r then lwAnd cs msp' vs else .ok (msp', false)
  | _, msp, _ => .ok (msp, true)
end

/-- Order of Rust strings (`Ord for str`): bytewise, which for UTF-8 equals lexicographic order of the scalar
values. Used by `permutation::sort`, `/repo/src/utils/policy/msp.rs:93`. -/
def strLe : Str → Str → Bool
  | [], _ => true
  | _ :: _, [] => false
  | a :: as, b :: bs =>
      if a.toNat < b.toNat then true else if a.toNat = b.toNat then strLe as bs else false

/-- Insertion into a sorted list of labelled rows, auxiliary to `sortRows`, `/repo/src/utils/policy/msp.rs:93-95`. -/
def insertRow (x : Str × List ℤ) : List (Str × List ℤ) → List (Str × List ℤ)
  | [] => [x]
  | y :: ys => if strLe x.1 y.1 then x :: y :: ys else y :: insertRow x ys

/-- `permutation::sort(pi)` applied to `pi` and `m`, `/repo/src/utils/policy/msp.rs:93-95`: the rows and labels
are sorted together, stably, by label. Simplification: computed by insertion sort (every stable sort
gives the same result). -/
def sortRows : List (Str × List ℤ) → List (Str × List ℤ)
  | [] => []
  | x :: xs => insertRow x (sortRows xs)

/-- `calculate_msp`, `/repo/src/utils/policy/msp.rs:78-99`. -/
def calculateMsp (p : PolicyValue) : Res AbePolicy := do
  let (msp, r) ← lw p { m := [], pi := [], c := 1 } [1] none
  if r then
    let rows := msp.m.map (resize msp.c)
    let sorted := sortRows (msp.pi.zip rows)
    .ok { m := sorted.map Prod.snd, pi := sorted.map Prod.fst, c := msp.c }
  else .err

/-- `AbePolicy::from_language` (and `AbePolicy::new`, which calls it), `/repo/src/utils/policy/msp.rs:24-39`. -/
def AbePolicy.fromLanguage (content : Str) (language : PolicyLanguage) : Res AbePolicy := do
  let v ← parse content language
  calculateMsp v

end Rabe
