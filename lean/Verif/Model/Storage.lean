import Verif.Model.Cells

/-!
# Model of `storage`

`include/yato/storage.h`: a container for one object, on the stack if the object is small (`storage_impl<T, L, false>`, l.116-243) and otherwise on the heap (`storage_impl<T, L, true>`, l.20-114).

* Programs over variables of one type `storage<T>`. Variable `x` has the cell `x + 1` of `Verif.Cells`; the cell 0 is the local variable `tmp` of the member functions.
* On the stack the cell is the buffer. On the heap it is what the `std::unique_ptr` owns: raw storage stands for a null pointer.
* `fail = some k`: the `k`-th copy (from 0) of an object that the statement makes throws, or for the heap the allocation before it.
* The outcome `none` is undefined behaviour: a null pointer is dereferenced, or the buffer is read or destroyed although there is no object in it.
* Copies are equal to the original. Destructors do not throw.
-/
set_option autoImplicit false

namespace Verif.Storage
open Verif.Cells

variable {α : Type}

abbrev MS (α : Type) := M Unit α

inductive Op (α : Type)
  /-- `storage<T> x;` -/
  | new (x : Nat)
  /-- `storage<T> x(a);` -/
  | newVal (x : Nat) (a : α)
  /-- `storage<T> x(y);` -/
  | newCopy (x y : Nat)
  /-- `storage<T> x(std::move(y));` -/
  | newMove (x y : Nat)
  /-- the end of the scope of `x` -/
  | del (x : Nat)
  /-- `x = y;` -/
  | copyAssign (x y : Nat)
  /-- `x = std::move(y);` -/
  | moveAssign (x y : Nat)
  /-- `x.swap(y);` `swap(x, y);` -/
  | swap (x y : Nat)
  /-- the value of `*x` -/
  | get (x : Nat)
  /-- `*x = a;` -/
  | set (x : Nat) (a : α)
  /-- `x.get() == nullptr` -/
  | isNull (x : Nat)

inductive Res (α : Type)
  | skipped
  | done
  | threw
  | value (a : α)
  | bool (b : Bool)
deriving DecidableEq, Repr

def toRes (ok : Bool) : Res α := if ok then .done else .threw

/-! ## On the stack -/

/-- l.182-191 `swap` -/
def stackSwap (x y : Nat) (fail : Option Nat) : MS α Bool := do
  if x = y then pure true
  else
    let a ← value (x + 1)
    declare 0 ()
    if ← construct 0 a (fail == some 0) then
      destroy (x + 1)
      let b ← value (y + 1)
      if ← construct (x + 1) b (fail == some 1) then
        destroy (y + 1)
        let c ← value 0
        let ok ← construct (y + 1) c (fail == some 2)
        destroy 0
        undeclare 0
        pure ok
      else
        destroy 0
        undeclare 0
        pure false
    else
      undeclare 0
      pure false

/-- l.193-200, l.202-209 `operator =`: both copy -/
def stackAssign (x y : Nat) (fail : Option Nat) : MS α Bool := do
  if x = y then pure true
  else
    destroy (x + 1)
    let b ← value (y + 1)
    construct (x + 1) b (fail == some 0)

/-- a constructor that copies an object into the buffer (l.162-175), or to the heap (l.42-50) -/
def stackNew (x : Nat) (a : α) (fail : Option Nat) : MS α (Res α) := do
  declare (x + 1) ()
  if ← construct (x + 1) a (fail == some 0) then pure .done
  else
    undeclare (x + 1)
    pure .threw

/-- A statement, with the variables it uses in scope and a new one not in scope. -/
def stackStep (fail : Option Nat) : Op α → MS α (Res α)
  | .new x => do -- l.158-160: the buffer stays raw
      declare (x + 1) ()
      pure .done
  | .newVal x a => stackNew x a fail -- l.162-165
  | .newCopy x y => do -- l.167-170
      let a ← value (y + 1)
      stackNew x a fail
  | .newMove x y => do -- l.172-175: a copy
      let a ← value (y + 1)
      stackNew x a fail
  | .del x => do -- l.177-180
      destroy (x + 1)
      undeclare (x + 1)
      pure .done
  | .copyAssign x y => do
      let ok ← stackAssign x y fail
      pure (toRes ok)
  | .moveAssign x y => do
      let ok ← stackAssign x y fail
      pure (toRes ok)
  | .swap x y => do
      let ok ← stackSwap x y fail
      pure (toRes ok)
  | .get x => do -- l.233-242
      let a ← value (x + 1)
      pure (.value a)
  | .set x a => do
      store (x + 1) a
      pure .done
  | .isNull _ => pure (.bool false) -- l.211-220: the address of the buffer

/-! ## On the heap -/

/-- `std::unique_ptr` of `x` takes what `y` owns; `x` is null before -/
def transfer (y x : Nat) : MS α Unit := fun s =>
  match s.vars x, s.vars y with
  | some ⟨none, i⟩, some ⟨m, j⟩ => some ((), (s.set x (some ⟨m, i⟩)).set y (some ⟨none, j⟩))
  | _, _ => none

/-- `std::unique_ptr::swap` -/
def swapMem (x y : Nat) : MS α Unit := fun s =>
  match s.vars x, s.vars y with
  | some ⟨m, i⟩, some ⟨k, j⟩ => some ((), (s.set x (some ⟨k, i⟩)).set y (some ⟨m, j⟩))
  | _, _ => none

/-- Does the pointer own an object? -/
def owns (x : Nat) : MS α Bool := fun s =>
  match s.vars x with
  | some c => some (c.mem.isSome, s)
  | none => none

/-- `reset()` -/
def release (x : Nat) : MS α Unit := do
  if ← owns x then destroy x else pure ()

/-- l.68-75 `operator =` -/
def heapCopyAssign (x y : Nat) (fail : Option Nat) : MS α Bool := do
  if x = y then pure true
  else
    let b ← value (y + 1)
    declare 0 ()
    if ← construct 0 b (fail == some 0) then
      swapMem 0 (x + 1)
      release 0
      undeclare 0
      pure true
    else
      undeclare 0
      pure false

def heapStep (fail : Option Nat) : Op α → MS α (Res α)
  | .new x => do -- l.38-40
      declare (x + 1) ()
      pure .done
  | .newVal x a => stackNew x a fail -- l.42-45: `make_unique`
  | .newCopy x y => do -- l.47-50
      let a ← value (y + 1)
      stackNew x a fail
  | .newMove x y => do -- l.52-55
      declare (x + 1) ()
      transfer (y + 1) (x + 1)
      pure .done
  | .del x => do -- l.57-59 and the destructor of `unique_ptr`
      release (x + 1)
      undeclare (x + 1)
      pure .done
  | .copyAssign x y => do
      let ok ← heapCopyAssign x y fail
      pure (toRes ok)
  | .moveAssign x y => do -- l.77-83
      if x = y then pure .done
      else
        release (x + 1)
        transfer (y + 1) (x + 1)
        pure .done
  | .swap x y => do -- l.61-66
      if x = y then pure .done
      else
        swapMem (x + 1) (y + 1)
        pure .done
  | .get x => do -- l.105-113
      let a ← value (x + 1)
      pure (.value a)
  | .set x a => do
      store (x + 1) a
      pure .done
  | .isNull x => do -- l.85-93
      let b ← owns (x + 1)
      pure (.bool (!b))

/-! ## Programs -/

/-- A statement about variables that are not in scope, or a declaration of one that is, is left out. -/
def inScope (op : Op α) : MS α Bool := do
  match op with
  | .new x | .newVal x _ => pure (!(← alive (x + 1)))
  | .newCopy x y | .newMove x y => pure (!(← alive (x + 1)) && (← alive (y + 1)))
  | .del x | .get x | .set x _ | .isNull x => alive (x + 1)
  | .copyAssign x y | .moveAssign x y | .swap x y => pure ((← alive (x + 1)) && (← alive (y + 1)))

def step (heap : Bool) (fail : Option Nat) (op : Op α) : MS α (Res α) := do
  if ← inScope op then
    if heap then heapStep fail op else stackStep fail op
  else pure .skipped

def run (heap : Bool) : List (Op α × Option Nat) → MS α (List (Res α))
  | [] => pure []
  | (op, fail) :: ops => do
    let r ← step heap fail op
    let rs ← run heap ops
    pure (r :: rs)

end Verif.Storage
