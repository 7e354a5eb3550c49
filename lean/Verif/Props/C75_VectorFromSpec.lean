import Verif.Model.VectorFrom

/-!
# C75 and C76, specification: what a nested list means, and what a view shows
-/
set_option autoImplicit false

namespace Verif.VectorNd
open Verif.Views (Desc)
variable {α : Type}

/-- The lengths of all lists at level `i` of a nested list; level 0 is the list itself. -/
def lens : (d : Nat) → NL α d → Nat → List Nat
  | 0, (l : List α), 0 => [l.length]
  | 0, _, _ + 1 => []
  | _ + 1, (l : List (NL α _)), 0 => [l.length]
  | d + 1, (l : List (NL α d)), i + 1 => l.flatMap fun x => lens d x i

/-- The largest number of a list, zero if there is none. -/
def largest (l : List Nat) : Nat := l.foldr max 0

/-- The sizes a nested list asks for: along each dimension the largest length at that level. -/
def wanted (d : Nat) (l : NL α d) : List Nat := (List.range (d + 1)).map fun i => largest (lens d l i)

/-- The element a nested list means at a multi-index: a short innermost list goes on with its last element. -/
def item : (d : Nat) → NL α d → List Nat → Option α
  | 0, (l : List α), [j] => if j < l.length then l[j]? else l.getLast?
  | d + 1, (l : List (NL α d)), j :: js => (l[j]?).bind fun x => item d x js
  | _, _, _ => none

/-- The lists of each level but the innermost have the same length, and no innermost list is empty. -/
def Uniform (d : Nat) (l : NL α d) : Prop :=
  (∀ i, i < d → ∀ m ∈ lens d l i, ∀ n ∈ lens d l i, m = n) ∧ ∀ n ∈ lens d l d, n ≠ 0

/-! ### Views -/

/-- The object a view shows at a multi-index (`none`: there is none in memory, or the index does not fit the view). -/
def shows (sz : Nat) (mem : Nat → Option α) (p : Nat) (ds : List Desc) (idx : List Nat) : Option α :=
  (Views.elem sz p ds idx).bind mem

end Verif.VectorNd
