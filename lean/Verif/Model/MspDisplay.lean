import Verif.Model.Msp

/-!
# Printing a span program

Model of `impl Display for AbePolicy`, `/repo/src/utils/policy/msp.rs:46-74`.
-/

namespace Rabe

/-- `AbePolicy::from_policy`, `/repo/src/utils/policy/msp.rs:41-43`. -/
def AbePolicy.fromPolicy (content : PolicyValue) : Res AbePolicy := calculateMsp content

/-- `i8::to_string`, `/repo/src/utils/policy/msp.rs:60`. Simplification: defined on `ℤ`, as the matrix entries are. -/
def intStr (z : ℤ) : Str := if z < 0 then '-' :: natStr z.natAbs else natStr z.natAbs

/-- Loop over the columns of a row, `/repo/src/utils/policy/msp.rs:59-62`; `s` is `_m_str`. -/
def displayCols (s : Str) (row : List ℤ) : Str := row.foldl (fun s col => s ++ intStr col ++ [',']) s

/-- Loop over the rows, `/repo/src/utils/policy/msp.rs:57-66`; `s` is `_m_str`, `dropLast` is `String::pop`. Without
columns the `pop` removes the opening parenthesis. -/
def displayRows (s : Str) (m : List (List ℤ)) : Str :=
  m.foldl (fun s row => (displayCols (s ++ ['(']) row).dropLast ++ [')'] ++ [',']) s

/-- Loop over the labels, `/repo/src/utils/policy/msp.rs:49-54`; `s` is `_pi_str`. The labels are not escaped. -/
def displayLabels (s : Str) (pi : List Str) : Str := pi.foldl (fun s a => s ++ ['"'] ++ a ++ ['"'] ++ [',']) s

/-- `Display::fmt` of `AbePolicy`, `/repo/src/utils/policy/msp.rs:46-72`. -/
def AbePolicy.display (p : AbePolicy) : Str :=
  let piStr := (displayLabels ['['] p.pi).dropLast ++ [']']
  let mStr := (displayRows ['['] p.m).dropLast ++ [']']
  chars% "{_m: " ++ mStr ++ chars% ", _pi: " ++ piStr ++ chars% ", _c: " ++ natStr p.c ++ ['}']

end Rabe
