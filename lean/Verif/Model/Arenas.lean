/-!
# Model of vectors whose allocators have a state (`/repo/include/yato/vector_nd.h` l.84-156, 187-192, 900-1125, 1157-1212)

An allocator is known by the arena that it draws its memory from (two allocators are equal if their arenas are). A block must go back to an equal
allocator, with the size that was asked for; anything else is undefined behaviour (`none`). Modelled: which allocator each vector holds, the block it
owns, and every allocation and deallocation of the members that create, copy, move, assign, swap, reshape, grow, shrink and destroy vectors.
Simplifications: elements are counted only (they are in Model/VectorNd.lean and Model/VectorObjs.lean, where the allocator has no state); nothing throws;
an operation on an object that does not exist, on an object that exists where a new one is to be made, or on twice the same object (excluded by
`YATO_REQUIRES(this != &other)`) is passed over; the vector of several dimensions (that of one dimension, l.2075-2456, does the same, except that it
asks for a block of no elements too); moving from an allocator leaves its value, as the standard requires; allocators can be assigned and swapped.
-/
set_option autoImplicit false

namespace Verif.Arenas

/-- `std::allocator_traits` of the type of the allocators, with arenas for their values. -/
structure Traits where
  /-- `propagate_on_container_swap` -/
  pocs : Bool
  /-- `propagate_on_container_move_assignment` -/
  pocma : Bool
  /-- `select_on_container_copy_construction` -/
  select : Nat → Nat
  /-- the value of `allocator_type()` -/
  dflt : Nat

/-- A vector: `m_storage` with the allocator and the pointer, `m_allocated_size` (vector_nd.h l.84-85), and the number of elements
(by `m_descriptors`, l.604). -/
structure Vec where
  alloc : Nat
  block : Option Nat
  cap : Nat
  size : Nat
deriving DecidableEq, Repr

/-- The variables of the program, and the memory: the arena and the size of each block that is allocated. Blocks from `next` on are not used yet. -/
structure State where
  vars : Nat → Option Vec
  heap : Nat → Option (Nat × Nat)
  next : Nat

/-- A variable, or a block, is set. -/
def upd {α : Type} (f : Nat → α) (i : Nat) (x : α) : Nat → α := fun j => if j = i then x else f j

/-- `memory::allocate` (memory_utility.h l.250-258). -/
def alloc (s : State) (a n : Nat) : State := { s with heap := upd s.heap s.next (some (a, n)), next := s.next + 1 }

/-- `memory::deallocate` (memory_utility.h l.263-268), if there is a block. -/
def dealloc (s : State) (a : Nat) (b : Option Nat) (n : Nat) : Option State :=
  match b with
  | none => some s
  | some b => if s.heap b = some (a, n) then some { s with heap := upd s.heap b none } else none

/-- A vector of `n` elements with the allocator `a`: `init_from_value`, `init_from_range` and the like (vector_nd.h l.198-241, 908-1000, 1009-1012,
1076-1085): no block for no elements. -/
def make (s : State) (a n : Nat) : State × Vec :=
  if n = 0 then (s, ⟨a, none, 0, 0⟩) else (alloc s a n, ⟨a, some s.next, n, n⟩)

/-- `swap` of two vectors (vector_nd.h l.1206-1212, 150-156, 88-97): the allocators are swapped only if they propagate. -/
def swapVec (t : Traits) (v w : Vec) : Vec × Vec :=
  if t.pocs then (w, v) else ({ w with alloc := v.alloc }, { v with alloc := w.alloc })

/-- `this_type{ source }.swap(*this)` and the end of the temporary (vector_nd.h l.1048, 1094, 1123; l.143-148): `a` is the allocator of the
temporary. -/
def assignTmp (t : Traits) (s : State) (i : Nat) (v : Vec) (a n : Nat) : Option State :=
  let (s1, tmp) := make s a n
  let (tmp', v') := swapVec t tmp v
  dealloc { s1 with vars := upd s1.vars i (some v') } tmp'.alloc tmp'.block tmp'.cap

/-- What is left of a vector that was moved from (vector_nd.h l.112-118, 134-135, and `tidy_`): the allocator stays. -/
def emptied (v : Vec) : Vec := { v with block := none, cap := 0, size := 0 }

/-- The operations of a program. -/
inductive Op
  /-- a constructor with the allocator `a`, of `n` elements (vector_nd.h l.900-1000) -/
  | create (i a n : Nat)
  /-- `vector i(j)` (l.1005-1013) -/
  | copy (i j : Nat)
  /-- `vector i(std::move(j))` (l.1018-1024) -/
  | move (i j : Nat)
  /-- `i = j` (l.1045-1050) -/
  | copyAssign (i j : Nat)
  /-- `i = std::move(j)` (l.1055-1067) -/
  | moveAssign (i j : Nat)
  /-- `i = view` or `i = proxy`, of `n` elements (l.1091-1125); both make a temporary with the default allocator (l.1072-1086, 1101-1115) -/
  | assignView (i n : Nat)
  /-- `i = std::vector` with the allocator `a` and `n` elements (l.2278-2293, 2212-2228) -/
  | assignStd (i a n : Nat)
  /-- `i.swap(j)` (l.1206-1212) -/
  | swap (i j : Nat)
  /-- a member that changes the number of elements to `n`, with a new block of `c` elements if there are too few (l.248-461, 501-523) -/
  | change (i n c : Nat)
  /-- `i.shrink_to_fit()` (l.529-552) -/
  | shrink (i : Nat)
  /-- `vector i(j.reshape(extents))` (l.1161-1168), a copy -/
  | reshape (i j : Nat)
  /-- `vector i(j.reshape(extents, alloc))` (l.1174-1181) -/
  | reshapeWith (i j a : Nat)
  /-- `vector i(std::move(j).reshape(extents))` (l.1186-1193, 1029-1040) -/
  | reshapeMove (i j : Nat)
  /-- the destructor (l.1130-1133, 143-148) -/
  | destroy (i : Nat)
deriving DecidableEq, Repr

/-- A new variable `i` with a vector of `n` elements. -/
def create (s : State) (i a n : Nat) : State :=
  let (s1, v) := make s a n
  { s1 with vars := upd s1.vars i (some v) }

/-- One operation; `none`: undefined behaviour. The lines are those at the operations. -/
def step (t : Traits) (s : State) (op : Op) : Option State :=
  match op with
  | .create i a n => match s.vars i with
    | none => some (create s i a n)
    | some _ => some s
  | .copy i j => match s.vars i, s.vars j with
    | none, some w => some (create s i (t.select w.alloc) w.size)
    | _, _ => some s
  | .move i j => match s.vars i, s.vars j with
    | none, some w => some { s with vars := upd (upd s.vars j (some (emptied w))) i (some w) }
    | _, _ => some s
  | .copyAssign i j => if i = j then some s else match s.vars i, s.vars j with
    | some v, some w => assignTmp t s i v (t.select w.alloc) w.size
    | _, _ => some s
  | .moveAssign i j => if i = j then some s else match s.vars i, s.vars j with
    | some v, some w => dealloc { s with vars := upd (upd s.vars j (some (emptied w))) i (some w) } v.alloc v.block v.cap
    | _, _ => some s
  | .assignView i n => match s.vars i with
    | some v => assignTmp t s i v t.dflt n
    | none => some s
  | .assignStd i a n => match s.vars i with
    | some v => assignTmp t s i v a n
    | none => some s
  | .swap i j => if i = j then some s else match s.vars i, s.vars j with
    | some v, some w => some { s with vars := upd (upd s.vars j (some (swapVec t v w).2)) i (some (swapVec t v w).1) }
    | _, _ => some s
  | .change i n c => match s.vars i with
    | some v =>
      if v.cap < c then dealloc { alloc s v.alloc c with vars := upd s.vars i (some ⟨v.alloc, some s.next, c, n⟩) } v.alloc v.block v.cap
      else some { s with vars := upd s.vars i (some { v with size := n }) }
    | none => some s
  | .shrink i => match s.vars i with
    | some v =>
      if v.block.isSome ∧ v.size ≠ v.cap then
        let (s1, w) := make s v.alloc v.size
        dealloc { s1 with vars := upd s1.vars i (some w) } v.alloc v.block v.cap
      else some s
    | none => some s
  | .reshape i j => match s.vars i, s.vars j with
    | none, some w => some (create s i t.dflt w.size)
    | _, _ => some s
  | .reshapeWith i j a => match s.vars i, s.vars j with
    | none, some w => some (create s i a w.size)
    | _, _ => some s
  | .reshapeMove i j => match s.vars i, s.vars j with
    | none, some w => some { s with vars := upd (upd s.vars j (some (emptied w))) i (some w) }
    | _, _ => some s
  | .destroy i => match s.vars i with
    | some v => dealloc { s with vars := upd s.vars i none } v.alloc v.block v.cap
    | none => some s

/-- A program. -/
def run (t : Traits) (s : State) : List Op → Option State
  | [] => some s
  | op :: ops => match step t s op with
    | none => none
    | some s' => run t s' ops

/-- No variables and no blocks. -/
def init : State := ⟨fun _ => none, fun _ => none, 0⟩

end Verif.Arenas
