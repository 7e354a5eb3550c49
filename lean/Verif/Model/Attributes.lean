import Verif.Model.Any

/-!
# Model of `attributes_map` (`include/yato/attributes_interface.h` l.25-337)

The `std::map` is the sequence of its entries in the order of the keys, for any comparison `lt` of keys; `lower_bound`, `find`, `erase`
walk through it. The values are the contents of `any`s (`Verif.Any`, `none`: empty). All types can be copied here, and allocations
succeed: exceptions of these are not modelled. The lock provider, and copies of whole maps, are not modelled.
-/
set_option autoImplicit false

namespace Verif.Attributes

variable {K α : Type}

/-- `std::map<key_type, yato::any>`, l.181 -/
abbrev Map (K α : Type) := List (K × Option (Any.Content α))

/-- l.186-196 `insert_or_assign_`: `lower_bound`, then `emplace_hint` or an assignment -/
def insertOrAssign (lt : K → K → Bool) (k : K) (v : Option (Any.Content α)) : Map K α → Map K α
  | [] => [(k, v)]
  | p :: m => if lt p.1 k then p :: insertOrAssign lt k v m else if lt k p.1 then (k, v) :: p :: m else (p.1, v) :: m

/-- `std::map::find` -/
def find (lt : K → K → Bool) (k : K) : Map K α → Option (Option (Any.Content α))
  | [] => none
  | p :: m => if lt p.1 k then find lt k m else if lt k p.1 then none else some p.2

/-- `std::map::erase` of a key -/
def erase (lt : K → K → Bool) (k : K) : Map K α → Map K α
  | [] => []
  | p :: m => if lt p.1 k then p :: erase lt k m else if lt k p.1 then p :: m else m

/-- The argument of `set_attribute`. -/
inductive Arg (α : Type) where
  /-- a value of the type `T`, neither `void` nor `any` -/
  | val (T : Nat) (a : α)
  /-- an `any`: const, or a temporary -/
  | any (v : Option (Any.Content α))
  /-- an `any` that is a variable and not const -/
  | anyVar (v : Option (Any.Content α))

/-- l.52 `yato::any(std::forward<AttrType>(value))` -/
def Arg.make : Arg α → Option (Any.Content α)
  | .val T a => some (.plain T a)
  | .any v => v
  | .anyVar v => some (Any.box v)

inductive Op (K α : Type) where
  | set (k : K) (a : Arg α)
  | clear (k : K)
  | has (k : K)
  | valid (k : K)
  | get (k : K)
  | getAs (k : K) (T : Nat)
  | getOr (k : K) (T : Nat) (d : Any.Content α)
  | getOpt (k : K) (T : Nat)

inductive Res (α : Type) where
  | done
  | bool (b : Bool)
  /-- a reference to the stored `any` -/
  | any (v : Option (Any.Content α))
  | got (c : Any.Content α)
  | none
  /-- `bad_attribute` is thrown -/
  | badAttribute
  /-- `bad_any_cast` is thrown -/
  | badCast
deriving DecidableEq, Repr

/-- One call. -/
def step (lt : K → K → Bool) (validator : K → Bool) (m : Map K α) : Op K α → Res α × Map K α
  | .set k a => (.bool true, insertOrAssign lt k a.make m) -- l.49-53, l.206-210
  | .clear k => (.done, erase lt k m) -- l.59-62, l.212-215
  | .has k => (.bool (find lt k m).isSome, m) -- l.264-267
  | .valid k => (.bool (validator k), m) -- l.68-71, l.217-220
  | .get k => -- l.273-280
    match find lt k m with
    | Option.none => (.badAttribute, m)
    | some v => (.any v, m)
  | .getAs k T => -- l.287-294
    match find lt k m with
    | Option.none => (.badAttribute, m)
    | some v =>
      if Any.typeOf v ≠ T then (.badAttribute, m)
      else
        match Any.getAs v T with
        | some c => (.got c, m)
        | Option.none => (.badCast, m)
  | .getOr k T d => -- l.301-309
    match find lt k m with
    | Option.none => (.got d, m)
    | some v => (.got ((Any.getAs v T).getD d), m)
  | .getOpt k T => -- l.316-327
    match find lt k m with
    | Option.none => (.none, m)
    | some v =>
      if Any.typeOf v ≠ T then (.none, m)
      else
        match Any.getAs v T with
        | some c => (.got c, m)
        | Option.none => (.badCast, m)

def run (lt : K → K → Bool) (validator : K → Bool) : Map K α → List (Op K α) → List (Res α) × Map K α
  | m, [] => ([], m)
  | m, op :: ops => ((step lt validator m op).1 :: (run lt validator (step lt validator m op).2 ops).1, (run lt validator (step lt validator m op).2 ops).2)

end Verif.Attributes
