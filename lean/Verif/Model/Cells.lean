/-!
Storage cells with object lifetimes, for the models of `optional` and `variant`.

A program has variables, numbered by naturals. A variable in scope has storage for one object, which is raw or holds a live object,
and some further members (`info`). Every object that is ever constructed gets a number of its own, and the numbers of the destroyed
objects are recorded in order, so that "constructed and destroyed exactly once" can be read off. The outcome `bad` (`none`) stands
for undefined behaviour or a broken contract:
 * constructing an object in storage that already holds one (its destructor would never run);
 * destroying, reading or assigning to storage that holds no object;
 * the end of a variable whose storage still holds an object (its destructor would never run).
-/
set_option autoImplicit false

namespace Verif.Cells

structure Cell (μ β : Type) where
  mem : Option (Nat × β)
  info : μ
deriving DecidableEq, Repr

structure St (μ β : Type) where
  vars : Nat → Option (Cell μ β)
  /-- number of objects constructed so far -/
  next : Nat
  /-- objects destroyed so far, the last one first -/
  dead : List Nat

def St.init {μ β : Type} : St μ β := ⟨fun _ => none, 0, []⟩

/-- A computation: it changes the state and returns a value, or it is `bad` (`none`). -/
def M (μ β γ : Type) : Type := St μ β → Option (γ × St μ β)

namespace M
variable {μ β γ δ : Type}

def pure (x : γ) : M μ β γ := fun s => some (x, s)
def bind (m : M μ β γ) (f : γ → M μ β δ) : M μ β δ := fun s =>
  match m s with
  | none => none
  | some (x, s') => f x s'

instance : Monad (M μ β) where
  pure := M.pure
  bind := M.bind
end M

section
variable {μ β γ : Type}

def bad : M μ β γ := fun _ => none

def St.set (s : St μ β) (x : Nat) (c : Option (Cell μ β)) : St μ β := { s with vars := fun y => if y = x then c else s.vars y }

/-- Is the variable in scope? -/
def alive (x : Nat) : M μ β Bool := fun s => some ((s.vars x).isSome, s)

/-- A variable comes into scope, with raw storage. -/
def declare (x : Nat) (i : μ) : M μ β Unit := fun s =>
  match s.vars x with
  | some _ => none
  | none => some ((), s.set x (some ⟨none, i⟩))

/-- A variable goes out of scope. -/
def undeclare (x : Nat) : M μ β Unit := fun s =>
  match s.vars x with
  | some ⟨none, _⟩ => some ((), s.set x none)
  | _ => none

def info (x : Nat) : M μ β μ := fun s =>
  match s.vars x with
  | some c => some (c.info, s)
  | none => none

def setInfo (x : Nat) (i : μ) : M μ β Unit := fun s =>
  match s.vars x with
  | some c => some ((), s.set x (some { c with info := i }))
  | none => none

/-- Construct an object in the variable's storage; if `fail`, the constructor throws (`false`) and there is no object. -/
def construct (x : Nat) (b : β) (fail : Bool) : M μ β Bool := fun s =>
  match s.vars x with
  | some ⟨none, i⟩ =>
    if fail then some (false, s)
    else some (true, { s.set x (some ⟨some (s.next, b), i⟩) with next := s.next + 1 })
  | _ => none

/-- Destroy the object in the variable's storage. -/
def destroy (x : Nat) : M μ β Unit := fun s =>
  match s.vars x with
  | some ⟨some (id, _), i⟩ => some ((), { s.set x (some ⟨none, i⟩) with dead := id :: s.dead })
  | _ => none

/-- The value of the object in the variable's storage. -/
def value (x : Nat) : M μ β β := fun s =>
  match s.vars x with
  | some ⟨some (_, b), _⟩ => some (b, s)
  | _ => none

/-- The object in the variable's storage gets a new value. -/
def store (x : Nat) (b : β) : M μ β Unit := fun s =>
  match s.vars x with
  | some ⟨some (id, _), i⟩ => some ((), s.set x (some ⟨some (id, b), i⟩))
  | _ => none

end

end Verif.Cells
