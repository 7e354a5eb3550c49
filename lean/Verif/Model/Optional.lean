import Verif.Model.Cells

/-!
Model of `optional` (`/repo/include/yato/optional.h`) for element types that are neither pointers nor references, on the storage
cells of `Verif.Model.Cells`; the further member is the flag `m_stored` (l.113).

Each statement calls at most one operation of the element type that may throw (a constructor, an assignment or `swap`), or a
function of the user. Whether it throws is chosen by the environment, for each statement.

Simplifications:
 * The element type is described by what a move leaves behind (`moved`) and by what an assignment or `swap` that throws leaves in
   its target (`torn`); a constructor that throws leaves its argument as it was. Destructors do not throw.
 * A violated `YATO_REQUIRES` is bad.
 * Statements on variables that are not in scope, and declarations of variables that are, do nothing (`skipped`).
 * Conversions between optionals of different types, `std::optional` and the overloads that differ only in constness are not modelled
   separately; `get_unsafe`, `operator*` and `flatten` are not modelled.
-/
set_option autoImplicit false

namespace Verif.Optional
open Verif.Cells

/-- The element type. -/
structure Ty (α : Type) where
  /-- value of an object after it was moved from -/
  moved : α → α
  /-- value of the target after an assignment of the second argument, or a swap with it, that threw -/
  torn : α → α → α

variable {α : Type}

/-- A computation on optionals. -/
abbrev MO (α : Type) := M Bool α

/-- l.902-907 `construct_`; `false`: the constructor of the element threw. -/
def construct_ (x : Nat) (a : α) (fail : Bool) : MO α Bool := do
  if ← info x then bad
  else
    if ← construct x a fail then
      setInfo x true
      pure true
    else pure false

/-- l.909-915 `destroy_`. -/
def destroy_ (x : Nat) : MO α Unit := do
  if ← info x then
    destroy x
    setInfo x false
  else pure ()

/-- l.935-943 `copy_constructor_`. -/
def copyConstructor (x y : Nat) (fail : Bool) : MO α Bool := do
  if ← info y then
    let a ← value y
    construct_ x a fail
  else
    setInfo x false
    pure true

/-- l.947-956 `move_constructor_`. -/
def moveConstructor (t : Ty α) (x y : Nat) (fail : Bool) : MO α Bool := do
  if ← info y then
    let a ← value y
    if ← construct_ x a fail then
      store y (t.moved a)
      destroy_ y
      pure true
    else pure false
  else
    setInfo x false
    pure true

/-- Assignment of a value to the object in `x`. -/
def assignVal (t : Ty α) (x : Nat) (b : α) (fail : Bool) : MO α Bool := do
  let a ← value x
  if fail then
    store x (t.torn a b)
    pure false
  else
    store x b
    pure true

/-- l.388-394 copy assignment and l.960-972 `copy_assign_`. -/
def copyAssign (t : Ty α) (x y : Nat) (fail : Bool) : MO α Bool := do
  if x = y then bad
  else
    if (← info x) && (← info y) then
      let b ← value y
      assignVal t x b fail
    else
      destroy_ x
      if ← info y then
        let b ← value y
        construct_ x b fail
      else pure true

/-- l.400-404 move assignment and l.976-988 `move_assign_`: a source that held a value still holds one. -/
def moveAssign (t : Ty α) (x y : Nat) (fail : Bool) : MO α Bool := do
  if x = y then bad
  else
    if (← info x) && (← info y) then
      let b ← value y
      if ← assignVal t x b fail then
        store y (t.moved b)
        pure true
      else pure false
    else
      destroy_ x
      if ← info y then
        let b ← value y
        if ← construct_ x b fail then
          store y (t.moved b)
          pure true
        else pure false
      else pure true

/-- l.919-931 `swap_`. -/
def swap_ (t : Ty α) (x y : Nat) (fail : Bool) : MO α Bool := do
  if (← info x) && (← info y) then
    let a ← value x
    let b ← value y
    if fail then
      store x (t.torn a b)
      store y (t.torn b a)
      pure false
    else
      store x b
      store y a
      pure true
  else
    if ← info y then
      moveConstructor t x y fail
    else
      destroy_ x
      pure true

/-- l.380-385 `emplace`. -/
def emplace (x : Nat) (a : α) (fail : Bool) : MO α Bool := do
  destroy_ x
  construct_ x a fail

inductive Op (α : Type) where
  /-- `optional<T> x;` -/
  | new (x : Nat)
  /-- `optional<T> x(a);` or with `in_place` -/
  | newVal (x : Nat) (a : α)
  /-- `optional<T> x(y);` -/
  | newCopy (x y : Nat)
  /-- `optional<T> x(std::move(y));` -/
  | newMove (x y : Nat)
  /-- `auto x = y.map(f);` `f` gives its result, or throws, and may change the value it is called with. -/
  | newMap (x y : Nat) (f : α → Option α × α)
  /-- `auto x = y.filter(p);` or `auto x = std::move(y).filter(p);` -/
  | newFilter (x y : Nat) (move : Bool) (p : α → Bool)
  /-- the end of `x`'s scope -/
  | del (x : Nat)
  /-- `x.emplace(a);` -/
  | emplace (x : Nat) (a : α)
  /-- `x.reset();` -/
  | reset (x : Nat)
  /-- `x = y;` -/
  | copyAssign (x y : Nat)
  /-- `x = std::move(y);` -/
  | moveAssign (x y : Nat)
  /-- `x.swap(y);` -/
  | swap (x y : Nat)
  /-- `x.get()` and `x.get_or_throw()` -/
  | get (x : Nat)
  /-- `T v(std::move(x).get());` and the same with `get_or_throw` -/
  | getMove (x : Nat)
  /-- `x.get_or(d)` -/
  | getOr (x : Nat) (d : α)
  /-- `std::move(x).get_or(d)` -/
  | getOrMove (x : Nat) (d : α)
  /-- `x.empty()`, `!static_cast<bool>(x)` -/
  | isEmpty (x : Nat)
  /-- `x.exists(p)` -/
  | exists (x : Nat) (p : α → Bool)
  /-- `x.visit(f)`: `f` may change the value; `fail` means that it throws after that. -/
  | visit (x : Nat) (f : α → α)

inductive Res (α : Type) where
  | skipped
  | done
  | threw
  /-- `bad_optional_access`, or the exception given to `get_or_throw` -/
  | noValue
  | value (a : α)
  | bool (b : Bool)
deriving DecidableEq, Repr

/-- `T v(std::move(*x))` -/
def takeOut (t : Ty α) (x : Nat) (fail : Bool) : MO α (Res α) := do
  let a ← value x
  if fail then pure .threw
  else
    store x (t.moved a)
    pure (.value a)

/-- The constructor of `x` succeeds, or there is no `x`. -/
def finish (x : Nat) (ok : Bool) : MO α (Res α) := do
  if ok then pure .done
  else
    undeclare x
    pure .threw

/-- A declaration of `x`. -/
def declaring (x : Nat) (body : MO α (Res α)) : MO α (Res α) := do
  if ← alive x then pure .skipped
  else
    declare x false
    body

/-- One statement. -/
def step (t : Ty α) (fail : Bool) : Op α → MO α (Res α)
  | .new x => declaring x (pure .done) -- l.246
  | .newVal x a => declaring x do -- l.257-287
      finish x (← construct_ x a fail)
  | .newCopy x y => do -- l.293-296
      if ← alive y then
        declaring x do finish x (← copyConstructor x y fail)
      else pure .skipped
  | .newMove x y => do -- l.303-306
      if ← alive y then
        declaring x do finish x (← moveConstructor t x y fail)
      else pure .skipped
  | .newMap x y f => do -- l.1007-1012
      if ← alive y then
        declaring x do
          if ← info y then
            let a ← value y
            store y (f a).2
            match (f a).1 with
            | none => finish x false
            | some b => finish x (← construct_ x b fail)
          else finish x true
      else pure .skipped
  | .newFilter x y move p => do -- l.1016-1021
      if ← alive y then
        declaring x do
          if ← info y then
            let a ← value y
            if p a then
              if move then finish x (← moveConstructor t x y fail)
              else finish x (← copyConstructor x y fail)
            else finish x true
          else finish x true
      else pure .skipped
  | .del x => do -- l.370-373
      if ← alive x then
        destroy_ x
        undeclare x
        pure .done
      else pure .skipped
  | .emplace x a => do
      if ← alive x then
        if ← emplace x a fail then pure .done else pure .threw
      else pure .skipped
  | .reset x => do -- l.677-680
      if ← alive x then
        destroy_ x
        pure .done
      else pure .skipped
  | .copyAssign x y => do
      if (← alive x) && (← alive y) then
        if ← copyAssign t x y fail then pure .done else pure .threw
      else pure .skipped
  | .moveAssign x y => do
      if (← alive x) && (← alive y) then
        if ← moveAssign t x y fail then pure .done else pure .threw
      else pure .skipped
  | .swap x y => do -- l.464-467
      if (← alive x) && (← alive y) then
        if ← swap_ t x y fail then pure .done else pure .threw
      else pure .skipped
  | .get x => do -- l.473-493, l.595-601
      if ← alive x then
        if ← info x then
          let a ← value x
          pure (.value a)
        else pure .noValue
      else pure .skipped
  | .getMove x => do -- l.499-519, l.609-615
      if ← alive x then
        if ← info x then takeOut t x fail
        else pure .noValue
      else pure .skipped
  | .getOr x d => do -- l.572-575
      if ← alive x then
        if ← info x then
          let a ← value x
          if fail then pure .threw else pure (.value a)
        else if fail then pure .threw else pure (.value d)
      else pure .skipped
  | .getOrMove x d => do -- l.583-586
      if ← alive x then
        if ← info x then takeOut t x fail
        else if fail then pure .threw else pure (.value d)
      else pure .skipped
  | .isEmpty x => do -- l.658-672
      if ← alive x then
        let b ← info x
        pure (.bool (!b))
      else pure .skipped
  | .exists x p => do -- l.1025-1028
      if ← alive x then
        if ← info x then
          let a ← value x
          pure (.bool (p a))
        else pure (.bool false)
      else pure .skipped
  | .visit x f => do -- l.998-1003
      if ← alive x then
        if ← info x then
          let a ← value x
          store x (f a)
          if fail then pure .threw else pure .done
        else pure .done
      else pure .skipped

/-- A program; each statement comes with whether what it calls throws. -/
def run (t : Ty α) : List (Op α × Bool) → MO α (List (Res α))
  | [] => pure []
  | (op, fail) :: ops => do
    let r ← step t fail op
    let rs ← run t ops
    pure (r :: rs)

end Verif.Optional
