/-!
Model of `optional` for element types without lifetimes: pointers, for which `optional_storage` has a specialization without a flag
(`/repo/include/yato/optional.h` l.129-185, documented at l.1115: the null pointer is treated as an empty optional), `bool` and integers,
with the conversions between optionals of different types and to and from `std::optional`, and of `flatten` on nested optionals.
`Verif.Model.Optional` models `optional` for class types, with the lifetimes of the stored objects.

Simplifications:
 * Values are natural numbers: an address (0 is the null pointer), 0 or 1 for `bool`, or an integer.
 * Statements on variables that are not in scope, declarations of variables that are, and statements that do not compile do nothing
   (`skipped`).
 * A violated `YATO_REQUIRES` is bad (`none`).
 * `optional<T*>` for different `T` between which pointers convert are one kind (`ptr`).
 * Moving from a pointer, a `bool` or an integer leaves it as it was.
-/
set_option autoImplicit false

namespace Verif.OptionalKinds

/-- The element type: `T*`, `bool` or `int`. -/
inductive Kind where
  | ptr
  | bool
  | int
deriving DecidableEq, Repr

/-- `std::is_constructible<K', K>`, and what the conversion does: pointers and integers convert to `bool`, `bool` to integers. -/
def conv : (K K' : Kind) → Option (Nat → Nat)
  | .ptr, .ptr => some id
  | .bool, .bool => some id
  | .int, .int => some id
  | .bool, .int => some id
  | .ptr, .bool => some fun v => if v = 0 then 0 else 1
  | .int, .bool => some fun v => if v = 0 then 0 else 1
  | _, _ => none

/-- `optional_storage`: `m_value` and `m_stored` (l.112-113), or `m_ptr` (l.184) in `val`. -/
structure Sto where
  val : Nat
  flag : Bool
deriving DecidableEq, Repr

/-- the default constructors: l.51-54, l.138-139 with the initializer l.184 -/
def Sto.blank : Sto := ⟨0, false⟩

/-- `is_stored` (l.85-89, l.160-164) -/
def Sto.isStored (K : Kind) (s : Sto) : Bool :=
  match K with
  | .ptr => s.val != 0
  | _ => s.flag

/-- `set_stored` (l.91-95, l.166-168: nothing for pointers) -/
def Sto.setStored (K : Kind) (s : Sto) (b : Bool) : Sto :=
  match K with
  | .ptr => s
  | _ => { s with flag := b }

/-- `construct` (l.71-77, l.149-153) -/
def Sto.put (s : Sto) (v : Nat) : Sto := { s with val := v }

/-- `destroy` (l.79-83, l.155-158) -/
def Sto.drop (K : Kind) (s : Sto) : Sto :=
  match K with
  | .ptr => { s with val := 0 }
  | _ => s

/-- l.900-907 `construct_` -/
def construct_ (K : Kind) (s : Sto) (v : Nat) : Option Sto :=
  if s.isStored K then none else some ((s.put v).setStored K true)

/-- l.909-915 `destroy_` -/
def destroy_ (K : Kind) (s : Sto) : Sto :=
  if s.isStored K then (s.drop K).setStored K false else s

/-- l.933-943 `copy_constructor_` from an optional of type `K'` -/
def copyConstructor (K K' : Kind) (c : Nat → Nat) (s s' : Sto) : Option Sto :=
  if s'.isStored K' then construct_ K s (c s'.val) else some (s.setStored K false)

/-- l.945-956 `move_constructor_`: also what is left of the source -/
def moveConstructor (K K' : Kind) (c : Nat → Nat) (s s' : Sto) : Option (Sto × Sto) :=
  if s'.isStored K' then (construct_ K s (c s'.val)).map fun t => (t, destroy_ K' s') else some (s.setStored K false, s')

/-- l.958-988 `copy_assign_` and `move_assign_` (the source is as before, see the simplifications) -/
def assign (K K' : Kind) (c : Nat → Nat) (s s' : Sto) : Option Sto :=
  if s.isStored K && s'.isStored K' then some (s.put (c s'.val))
  else if s'.isStored K' then construct_ K (destroy_ K s) (c s'.val)
  else some (destroy_ K s)

/-- l.917-931 `swap_` -/
def swap_ (K : Kind) (s s' : Sto) : Option (Sto × Sto) :=
  if s.isStored K && s'.isStored K then some (s.put s'.val, s'.put s.val)
  else if s'.isStored K then moveConstructor K K id s s'
  else some (destroy_ K s, s')

/-- How a source is given: a variable that is `const` (or by copy-initialization), a variable that is not, or `std::move` of one. -/
inductive Src where
  | const
  | var
  | move
deriving DecidableEq, Repr

/-- `optional<K> x(y)` for an optional `y` of type `K'`: the new optional and what is left of `y`. Of a variable that is not `const`
the constructor from any value (l.280-287) is a better match than the copy constructor (l.292-296) and the one from optionals of other
types (l.311-317), provided that `K` can be constructed from `y`; this is so for `bool`, by the explicit `operator bool` (l.668-672).
Copies from `const` variables and copy-initializations (in C++20 the constructor l.284 is explicit there) are by l.292-296 or
l.311-317, moves by l.302-306 or l.322-328. -/
def newFrom (K K' : Kind) (c : Nat → Nat) (src : Src) (s' : Sto) : Option (Sto × Sto) :=
  match src with
  | .move => moveConstructor K K' c .blank s'
  | .const => (copyConstructor K K' c .blank s').map fun t => (t, s')
  | .var =>
    if K = .bool then (construct_ K .blank (if s'.isStored K' then 1 else 0)).map fun t => (t, s')
    else (copyConstructor K K' c .blank s').map fun t => (t, s')

/-- Statements. -/
inductive Op where
  /-- `optional<K> x;` or `optional<K> x(nullopt);` -/
  | new (x : Nat) (K : Kind)
  /-- `optional<K> x(v);` for a value of type `K'` -/
  | newVal (x : Nat) (K K' : Kind) (v : Nat)
  /-- `optional<K> x(y);` or `optional<K> x(std::move(y));` -/
  | newFrom (x : Nat) (K : Kind) (y : Nat) (src : Src)
  /-- `optional<K> x(o);` for a `std::optional<K'>` -/
  | newStd (x : Nat) (K K' : Kind) (o : Option Nat)
  /-- `auto x = y.map(f);` for an `f` that returns a `K` -/
  | newMap (x : Nat) (K : Kind) (y : Nat) (f : Nat → Nat)
  /-- `auto x = y.filter(p);`, or of `std::move(y)` -/
  | newFilter (x y : Nat) (src : Src) (p : Nat → Bool)
  /-- the end of `x`'s scope -/
  | del (x : Nat)
  /-- `x.emplace(v);` -/
  | emplace (x : Nat) (K' : Kind) (v : Nat)
  /-- `x.reset();` -/
  | reset (x : Nat)
  /-- `x = y;` or `x = std::move(y);` -/
  | assign (x y : Nat)
  /-- `x = v;` -/
  | assignVal (x : Nat) (K' : Kind) (v : Nat)
  /-- `x = nullopt;` -/
  | assignNull (x : Nat)
  /-- `x.swap(y);` -/
  | swap (x y : Nat)
  /-- `x.get()`, `*x`, `x.get_or_throw()` -/
  | get (x : Nat)
  /-- `*x = v;` -/
  | setVal (x : Nat) (v : Nat)
  /-- `x.get_unsafe()` -/
  | getUnsafe (x : Nat)
  /-- `x.get_or(d)` -/
  | getOr (x : Nat) (d : Nat)
  /-- `x.empty()` -/
  | isEmpty (x : Nat)
  /-- `x.exists(p)` -/
  | exists (x : Nat) (p : Nat → Bool)
  /-- `x.visit(f)`: `f` may change the value -/
  | visit (x : Nat) (f : Nat → Nat)
  /-- `std::optional<K>(x)` -/
  | toStd (x : Nat)

inductive Res where
  | skipped
  | done
  /-- `bad_optional_access`, or the exception given to `get_or_throw` -/
  | noValue
  | value (v : Nat)
  | bool (b : Bool)
  | std (o : Option Nat)
deriving DecidableEq, Repr

/-- The variables. -/
abbrev St := Nat → Option (Kind × Sto)

def St.set (s : St) (x : Nat) (v : Option (Kind × Sto)) : St := fun y => if y = x then v else s y

/-- One statement; `none`: a violated requirement. -/
def step (s : St) : Op → Option (Res × St)
  | .new x K => -- l.244-252
    match s x with
    | some _ => some (.skipped, s)
    | none => some (.done, s.set x (some (K, .blank)))
  | .newVal x K K' v => -- l.268-287
    match s x, conv K' K with
    | none, some c => (construct_ K .blank (c v)).map fun t => (.done, s.set x (some (K, t)))
    | _, _ => some (.skipped, s)
  | .newFrom x K y src =>
    match s x, s y with
    | none, some (K', s') =>
      match conv K' K with
      | some c => (newFrom K K' c src s').map fun t => (.done, (s.set x (some (K, t.1))).set y (some (K', t.2)))
      | none => some (.skipped, s)
    | _, _ => some (.skipped, s)
  | .newStd x K K' o => -- l.341-364
    match s x, conv K' K with
    | none, some c =>
      match o with
      | some v => (construct_ K .blank (c v)).map fun t => (.done, s.set x (some (K, t)))
      | none => some (.done, s.set x (some (K, .blank)))
    | _, _ => some (.skipped, s)
  | .newMap x K y f => -- l.1005-1012
    match s x, s y with
    | none, some (K', s') =>
      if s'.isStored K' then (construct_ K .blank (f s'.val)).map fun t => (.done, s.set x (some (K, t)))
      else some (.done, s.set x (some (K, .blank)))
    | _, _ => some (.skipped, s)
  | .newFilter x y src p => -- l.1014-1021
    match s x, s y with
    | none, some (K, s') =>
      if s'.isStored K && p s'.val then (newFrom K K id src s').map fun t => (.done, (s.set x (some (K, t.1))).set y (some (K, t.2)))
      else some (.done, s.set x (some (K, .blank)))
    | _, _ => some (.skipped, s)
  | .del x => -- l.370-373
    match s x with
    | some _ => some (.done, s.set x none)
    | none => some (.skipped, s)
  | .emplace x K' v => -- l.378-385
    match s x with
    | some (K, t) =>
      match conv K' K with
      | some c =>
        match construct_ K (destroy_ K t) (c v) with
        | some t => if t.isStored K then some (.done, s.set x (some (K, t))) else none
        | none => none
      | none => some (.skipped, s)
    | none => some (.skipped, s)
  | .reset x => -- l.677-680
    match s x with
    | some (K, t) => some (.done, s.set x (some (K, destroy_ K t)))
    | none => some (.skipped, s)
  | .assign x y => -- l.390-427
    match s x, s y with
    | some (K, t), some (K', t') =>
      match conv K' K with
      | some c => if x = y then none else (assign K K' c t t').map fun t => (.done, s.set x (some (K, t)))
      | none => some (.skipped, s)
    | _, _ => some (.skipped, s)
  | .assignVal x K' v => -- l.268-287, then l.400-404
    match s x with
    | some (K, t) =>
      match conv K' K with
      | some c => ((construct_ K .blank (c v)).bind fun t' => assign K K id t t').map fun t => (.done, s.set x (some (K, t)))
      | none => some (.skipped, s)
    | none => some (.skipped, s)
  | .assignNull x => -- l.250-252, then l.400-404
    match s x with
    | some (K, t) => (assign K K id t .blank).map fun t => (.done, s.set x (some (K, t)))
    | none => some (.skipped, s)
  | .swap x y => -- l.464-467
    match s x, s y with
    | some (K, t), some (K', t') =>
      if K = K' then (swap_ K t t').map fun u => if x = y then (.done, s.set x (some (K, t))) else (.done, (s.set x (some (K, u.1))).set y (some (K, u.2)))
      else some (.skipped, s)
    | _, _ => some (.skipped, s)
  | .get x => -- l.473-519, l.593-652
    match s x with
    | some (K, t) => some (if t.isStored K then .value t.val else .noValue, s)
    | none => some (.skipped, s)
  | .setVal x v => -- l.486-493
    match s x with
    | some (K, t) => if t.isStored K then some (.done, s.set x (some (K, t.put v))) else some (.noValue, s)
    | none => some (.skipped, s)
  | .getUnsafe x => -- l.525-563
    match s x with
    | some (K, t) => if t.isStored K then some (.value t.val, s) else none
    | none => some (.skipped, s)
  | .getOr x d => -- l.570-586
    match s x with
    | some (K, t) => some (.value (if t.isStored K then t.val else d), s)
    | none => some (.skipped, s)
  | .isEmpty x => -- l.658-672
    match s x with
    | some (K, t) => some (.bool (!t.isStored K), s)
    | none => some (.skipped, s)
  | .exists x p => -- l.1023-1028
    match s x with
    | some (K, t) => some (.bool (t.isStored K && p t.val), s)
    | none => some (.skipped, s)
  | .visit x f => -- l.996-1003
    match s x with
    | some (K, t) => if t.isStored K then some (.done, s.set x (some (K, t.put (f t.val)))) else some (.done, s)
    | none => some (.skipped, s)
  | .toStd x => -- l.433-454
    match s x with
    | some (K, t) => some (.std (if t.isStored K then some t.val else none), s)
    | none => some (.skipped, s)

/-- A program. -/
def run (s : St) : List Op → Option (List Res × St)
  | [] => some ([], s)
  | op :: ops => (step s op).bind fun r => (run r.2 ops).map fun t => (r.1 :: t.1, t.2)

/-! ### Nested optionals -/

/-- An optional of values of a type `α` that is not an optional, or an optional of optionals. -/
inductive Nested (α : Type) where
  | inner (o : Option α)
  | outer (o : Option (Nested α))

variable {α : Type}

/-- `flatten` of an lvalue: `flatten_impl_` l.1030-1039, l.1052-1059 -/
def flatten : Nested α → Option α
  | .inner o => o
  | .outer none => none
  | .outer (some n) => flatten n

/-- `flatten` of an rvalue: `flatten_impl_` l.1041-1050, l.1061-1068: the optional that has the value is moved, so that it is empty
after that (l.951); the others keep what they hold. -/
def flattenMove : Nested α → Option α × Nested α
  | .inner o => (o, .inner none)
  | .outer none => (none, .outer none)
  | .outer (some n) => ((flattenMove n).1, .outer (some (flattenMove n).2))

end Verif.OptionalKinds
