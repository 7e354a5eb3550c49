/-!
Model of `match` and `type_matcher` (`/repo/include/yato/type_match.h`).

A type is a number. `rank a t` says how well an argument of type `a` converts implicitly to a parameter of type `t`: `none` if it does not, a smaller number for a better conversion.

Simplifications:
 * Ranks are numbers, so that two conversions are always comparable; in C++ some are not, and then the call is ambiguous.
 * References, const and the value category of the argument are part of its type.
-/
set_option autoImplicit false

namespace Verif.TypeMatch

/-- l.19-44 `match_dispatcher`: the members `_invoke_case` that are visible in the class for the given cases; each case is given by the type of its parameter and is numbered from `k`. Those of the
base class are brought in by the using declaration (l.24), except where the class declares one with the same parameter (l.28), which hides them. The list has the members of the most derived class
first. -/
def visible : List Nat → Nat → List (Nat × Nat)
  | [], _ => []
  | t :: ts, k => visible ts (k + 1) ++ (if ts.contains t then [] else [(t, k)])

/-- C++, overload resolution among functions of one parameter: the best of the given ones, with its rank, and whether another one is as good. -/
def best (rank : Nat → Option Nat) : List (Nat × Nat) → Option (Nat × Nat × Bool)
  | [] => none
  | (t, k) :: fs =>
    match rank t, best rank fs with
    | none, r => r
    | some n, none => some (n, k, false)
    | some n, some (m, j, tie) => if n < m then some (n, k, false) else if m < n then some (m, j, tie) else some (n, k, true)

/-- l.61-71: the number of the case that is called; `none` if the call does not compile -/
def call (rank : Nat → Nat → Option Nat) (cases : List Nat) (a : Nat) : Option Nat :=
  match best (rank a) (visible cases 0) with
  | some (_, k, false) => some k
  | _ => none

end Verif.TypeMatch
