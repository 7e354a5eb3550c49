import Verif.Model.Arenas

/-!
# Model of dynamic arrays whose allocators have a state (`/repo/include/yato/dynamic_array.h` l.41-160, 261-306)

As Model/Arenas.lean, which has the memory and the traits of allocators. The elements are counted only (they are in Model/DynArray.lean, where the
allocator has no state); nothing throws but the move itself; operations on objects that do not exist, or exist already, are passed over. The
assignment of an initializer list (l.162-167), which returns nothing, is left out.
-/
set_option autoImplicit false

namespace Verif.ArenasDyn

open Verif.Arenas (Traits State upd alloc dealloc)

/-- An array is a `Vec` of Model/Arenas.lean, of which `cap` and `size` are both `m_size` (dynamic_array.h l.41-43). -/
abbrev Arr := Verif.Arenas.Vec

/-- What an operation does: undefined behaviour, a normal end, or an exception. -/
inductive Res
  | ub
  | ok (s : State)
  | threw (s : State)

/-- The operations of a program. -/
inductive Op
  /-- `dynamic_array(allocator)`, an array without memory (l.100-106) -/
  | empty (i a : Nat)
  /-- the constructors with a size or a list (l.108-127); a block of no elements is a block -/
  | create (i a n : Nat)
  /-- `dynamic_array i(std::move(j))` (l.136-139) -/
  | move (i j : Nat)
  /-- `i = std::move(j)` (l.154-160) -/
  | moveAssign (i j : Nat)
  /-- `i.swap(j)` (l.141-150, 300-306), for allocators that propagate on swap only -/
  | swap (i j : Nat)
  /-- `assign` and `resize` (l.272-297) -/
  | assign (i n : Nat)
  /-- `clear` (l.264-267) -/
  | clear (i : Nat)
  /-- the destructor (l.129-132) -/
  | destroy (i : Nat)
deriving DecidableEq, Repr

/-- `_allocate` (l.46-52) into variable `i`. -/
def allocate (s : State) (i a n : Nat) : State :=
  { alloc s a n with vars := upd s.vars i (some ⟨a, some s.next, n, n⟩) }

/-- `_destroy` (l.70-80), which leaves the array without memory, or removes it (`keep = false`). -/
def destroy (s : State) (i : Nat) (v : Arr) (keep : Bool) : Option State :=
  dealloc { s with vars := upd s.vars i (if keep then some (if v.block.isSome then ⟨v.alloc, none, 0, 0⟩ else v) else none) } v.alloc v.block v.cap

/-- `_move_assign` (l.84-96) from `j` to `i`, whose allocator is `a` before; the memory of `i` is not returned. -/
def moveAssign (t : Traits) (s : State) (i j : Nat) (a : Nat) (w : Arr) : Res :=
  if t.pocma || a == w.alloc then .ok { s with vars := upd (upd s.vars j (some ⟨w.alloc, none, 0, 0⟩)) i (some w) }
  else .threw s

/-- One operation. -/
def step (t : Traits) (s : State) (op : Op) : Res :=
  match op with
  | .empty i a => match s.vars i with
    | none => .ok { s with vars := upd s.vars i (some ⟨a, none, 0, 0⟩) }
    | some _ => .ok s
  | .create i a n => match s.vars i with
    | none => .ok (allocate s i a n)
    | some _ => .ok s
  | .move i j => match s.vars i, s.vars j with
    | none, some w => moveAssign t s i j t.dflt w
    | _, _ => .ok s
  | .moveAssign i j => if i = j then .ok s else match s.vars i, s.vars j with
    | some v, some w => moveAssign t s i j v.alloc w
    | _, _ => .ok s
  | .swap i j => if t.pocs = false ∨ i = j then .ok s else match s.vars i, s.vars j with
    | some v, some w => .ok { s with vars := upd (upd s.vars j (some v)) i (some w) }
    | _, _ => .ok s
  | .assign i n => match s.vars i with
    | some v => match destroy s i v true with
      | none => .ub
      | some s1 => .ok (allocate s1 i v.alloc n)
    | none => .ok s
  | .clear i => match s.vars i with
    | some v => match destroy s i v true with
      | none => .ub
      | some s1 => .ok s1
    | none => .ok s
  | .destroy i => match s.vars i with
    | some v => match destroy s i v false with
      | none => .ub
      | some s1 => .ok s1
    | none => .ok s

/-- A program that goes on after exceptions; `none`: undefined behaviour. -/
def run (t : Traits) (s : State) : List Op → Option State
  | [] => some s
  | op :: ops => match step t s op with
    | .ub => none
    | .ok s' => run t s' ops
    | .threw s' => run t s' ops

end Verif.ArenasDyn
