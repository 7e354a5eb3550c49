/-!
Model of `vector_nd` (`/repo/include/yato/vector_nd.h`) and of the raw memory functions it uses
(`/repo/include/yato/memory_utility.h`).

Memory is a set of blocks of slots. A slot is dead (`none`: raw storage) or holds a live object (`some a`). The operations on
slots and blocks follow the C++ object lifetime rules; breaking one of them is the outcome `bad`:
 * constructing an object in a slot that is outside the block or already holds an object;
 * destroying, or copying from, a slot without a live object (including a slot of a freed block);
 * freeing a block twice, with a wrong size, or while it still holds live objects (their destructors would never run);
 * violating a `YATO_REQUIRES`/`YATO_ASSERT` of the code (a debug build stops there, a release build goes on regardless).

Construction of an element and allocation of a block can throw. Which attempt throws is chosen by the environment: the heap
carries two arbitrary functions of the number of attempts made so far.

Simplifications:
 * Sizes are natural numbers: `size_t` overflow is not modelled (except in `increase`, which tests for it).
 * Elements are of a non-trivial type; for trivial types the code copies the same slots with `memcpy`/`memmove`, skips the
   destructor calls and cannot throw (that it ends with the same elements is C116, Model/RawMemory.lean).
 * Destructors do not throw; the allocator has no state.
 * Moving an argument into the vector is modelled as copying a value that belongs to nobody.
-/
set_option autoImplicit false

namespace Verif.VectorNd

/-- What a constructor call copies from: an object outside every vector, or the object in a slot. -/
inductive Src (α : Type) where
  | val (a : α)
  | ref (b i : Nat)
deriving DecidableEq, Repr

/-- The heap. `blk b = none`: block `b` is not allocated (not yet, or no longer). -/
structure Heap (α : Type) where
  blk : Nat → Option (List (Option α))
  /-- number of the next block to be allocated -/
  next : Nat
  /-- does the element constructor throw at the given attempt? -/
  failC : Nat → Bool
  /-- does the allocation throw at the given attempt? -/
  failA : Nat → Bool
  /-- number of constructions and allocations attempted so far -/
  tick : Nat
  /-- number of elements constructed so far -/
  copies : Nat

/-- A heap without blocks. -/
def Heap.empty {α : Type} (failC failA : Nat → Bool) : Heap α := ⟨fun _ => none, 0, failC, failA, 0, 0⟩

/-- A computation: it changes the heap and returns a value, or it is `bad` (`none`). -/
def M (α β : Type) : Type := Heap α → Option (β × Heap α)

namespace M
variable {α β γ : Type}

def pure (x : β) : M α β := fun h => some (x, h)
def bind (m : M α β) (f : β → M α γ) : M α γ := fun h =>
  match m h with
  | none => none
  | some (x, h') => f x h'

instance : Monad (M α) where
  pure := M.pure
  bind := M.bind
end M

/-- Undefined behaviour, a leaked object or a violated contract. -/
def bad {α β : Type} : M α β := fun _ => none

section
variable {α : Type}

/-- The slot `i` of block `b`: `none` if there is no such slot. -/
def Heap.slot (h : Heap α) (b i : Nat) : Option (Option α) :=
  match h.blk b with
  | none => none
  | some c => c[i]?

/-- Value of the object a constructor copies from, if there is one. -/
def Heap.read (h : Heap α) : Src α → Option α
  | .val a => some a
  | .ref b i =>
    match h.slot b i with
    | some (some a) => some a
    | _ => none

def Heap.put (h : Heap α) (b : Nat) (c : Option (List (Option α))) : Heap α :=
  { h with blk := fun b' => if b' = b then c else h.blk b' }

def Heap.setSlot (h : Heap α) (b i : Nat) (x : Option α) : Heap α :=
  match h.blk b with
  | none => h
  | some c => h.put b (some (c.set i x))

/-- `alloc_traits::construct(alloc, b + i, *s)`: `false` means that the constructor threw. -/
def construct (b i : Nat) (s : Src α) : M α Bool := fun h =>
  match h.read s with
  | none => none
  | some a =>
    match h.slot b i with
    | some none =>
      if h.failC h.tick then some (false, { h with tick := h.tick + 1 })
      else some (true, { h.setSlot b i (some a) with tick := h.tick + 1, copies := h.copies + 1 })
    | _ => none

/-- `alloc_traits::destroy(alloc, b + i)`. -/
def destroyAt (b i : Nat) : M α Unit := fun h =>
  match h.slot b i with
  | some (some _) => some ((), h.setSlot b i none)
  | _ => none

/-- memory_utility.h l.126-137: `n` elements from `lo` upwards. -/
def destroyN (b : Nat) : Nat → Nat → M α Unit
  | _, 0 => pure ()
  | lo, n + 1 => do
    destroyAt b lo
    destroyN b (lo + 1) n

/-- memory_utility.h l.373-381 `memory::destroy(alloc, b + lo, b + hi)`. -/
def destroy (b lo hi : Nat) : M α Unit :=
  if hi < lo then bad else destroyN b lo (hi - lo)

/-- memory_utility.h l.250-258 `memory::allocate`: `none` means that the allocator threw. -/
def allocate (n : Nat) : M α (Option Nat) := fun h =>
  if n = 0 then none
  else if h.failA h.tick then some (none, { h with tick := h.tick + 1 })
  else some (some h.next, { h.put h.next (some (List.replicate n none)) with next := h.next + 1, tick := h.tick + 1 })

/-- memory_utility.h l.263-268 `memory::deallocate`. -/
def deallocate (b n : Nat) : M α Unit := fun h =>
  match h.blk b with
  | none => none
  | some c => if c.length = n ∧ c.all Option.isNone then some ((), h.put b none) else none

/-- The loop of `fill_uninitialized` (memory_utility.h l.274-286), of `copy_operation` (l.58-70) and of `transfer_operation`
(l.151-163; its source is `const`, so `move_if_noexcept` copies): copies the sources one after the other to consecutive slots
from `d`. Returns where it stopped (the `dst` pointer passed by reference) and whether it got to the end without a throw. -/
def copyLoop (b : Nat) : Nat → List (Src α) → M α (Nat × Bool)
  | d, [] => pure (d, true)
  | d, s :: ss => do
    let ok ← construct b d s
    if ok then copyLoop b (d + 1) ss else pure (d, false)

/-- memory_utility.h l.181-195 `transfer_left_operation`: for each of `n` elements, ascending: destroy the destination, then
copy the source there. -/
def transferLeft (b : Nat) : Nat → Nat → Nat → M α (Nat × Bool)
  | _, dst, 0 => pure (dst, true)
  | src, dst, n + 1 => do
    destroyAt b dst
    let ok ← construct b dst (.ref b src)
    if ok then transferLeft b (src + 1) (dst + 1) n else pure (dst, false)

/-- memory_utility.h l.213-229 `transfer_right_operation`: the same, descending; `srcEnd` is one past the last source, `dst` the
last destination. -/
def transferRight (b : Nat) : Nat → Nat → Nat → M α (Nat × Bool)
  | _, dst, 0 => pure (dst, true)
  | srcEnd, dst, n + 1 => do
    destroyAt b dst
    let ok ← construct b dst (.ref b (srcEnd - 1))
    if ok then transferRight b (srcEnd - 1) (dst - 1) n else pure (dst, false)

/-- The slots `lo .. lo + n` of a block as sources. -/
def refs (b lo n : Nat) : List (Src α) := (List.range' lo n).map (Src.ref b)

/-! ### `raw_vector` (vector_nd.h l.74-554) -/

/-- vector_nd.h l.84: the pointer (`none` is null) and the allocated size. -/
structure RV where
  ptr : Option Nat
  cap : Nat
deriving DecidableEq, Repr

/-- Largest value of `size_t` on a 64-bit machine. -/
def sizeMax : Nat := 2 ^ 64 - 1

/-- vector_nd.h l.58-68 `default_capacity_policy::increase`. -/
def increase (old new : Nat) : M α Nat :=
  if ¬ new > old then bad
  else if old < sizeMax / 2 then pure (max new (2 * old)) else pure new

/-- vector_nd.h l.101-103, 143-148: the null pointer, and the destructor, which only frees the block. -/
def RV.null : RV := ⟨none, 0⟩
def rvFree (rv : RV) : M α Unit :=
  match rv.ptr with
  | none => pure ()
  | some b => deallocate b rv.cap

/-- The first `n` slots of the vector as sources; none for a null pointer. -/
def rvRefs (rv : RV) (n : Nat) : List (Src α) :=
  match rv.ptr with
  | none => []
  | some b => refs b 0 n

/-- vector_nd.h l.198-241 `init_from_value` and `init_from_range`: allocate exactly as many slots as there are sources and copy
them there. -/
def rvInit (rv : RV) (ss : List (Src α)) : M α (Bool × RV) :=
  if rv.ptr.isSome ∨ ss.length = 0 then bad
  else do
    let a ← allocate ss.length
    match a with
    | none => pure (false, rv)
    | some nb => do
      let r ← copyLoop nb 0 ss
      if r.2 then pure (true, ⟨some nb, ss.length⟩)
      else do
        destroy nb 0 r.1
        deallocate nb ss.length
        pure (false, rv)

/-- vector_nd.h l.247-289 `assign`. The second component of the result is the flag `valid`. -/
def rvAssign (rv : RV) (old new : Nat) (valid : Bool) (s : Src α) : M α (Bool × Bool × RV) :=
  if new ≤ rv.cap ∧ rv.cap ≠ 0 then
    match rv.ptr with
    | none => bad
    | some b => do
      destroy b 0 old
      let r ← copyLoop b 0 (List.replicate new s)
      if r.2 then pure (true, valid, rv)
      else do
        destroy b 0 r.1
        pure (false, false, rv)
  else do
    let ncap ← increase rv.cap new
    let a ← allocate ncap
    match a with
    | none => pure (false, valid, rv)
    | some nb => do
      let r ← copyLoop nb 0 (List.replicate new s)
      if r.2 then
        match rv.ptr with
        | none => pure (true, valid, ⟨some nb, ncap⟩)
        | some ob => do
          destroy ob 0 old
          deallocate ob rv.cap
          pure (true, valid, ⟨some nb, ncap⟩)
      else do
        destroy nb 0 r.1
        deallocate nb ncap
        pure (false, true, rv)

/-- vector_nd.h l.291-339 `resize`. -/
def rvResize (rv : RV) (old new : Nat) (s : Src α) : M α (Bool × RV) :=
  if new < old then
    match rv.ptr with
    | none => bad
    | some b => do
      destroy b new old
      pure (true, rv)
  else if new > old then
    if new > rv.cap then do
      let ncap ← increase rv.cap new
      let a ← allocate ncap
      match a with
      | none => pure (false, rv)
      | some nb => do
        -- transfer the old elements, if there is an old block, then fill the added space
        let r ← copyLoop nb 0 (rvRefs rv old ++ List.replicate (new - old) s)
        if r.2 then
          match rv.ptr with
          | none => pure (true, ⟨some nb, ncap⟩)
          | some ob => do
            destroy ob 0 old
            deallocate ob rv.cap
            pure (true, ⟨some nb, ncap⟩)
        else do
          destroy nb 0 r.1
          deallocate nb ncap
          pure (false, rv)
    else
      match rv.ptr with
      | none => bad
      | some b => do
        let r ← copyLoop b old (List.replicate (new - old) s)
        if r.2 then pure (true, rv)
        else do
          destroy b old r.1
          pure (false, rv)
  else pure (true, rv)

/-- The part common to `prepare_push_back` (vector_nd.h l.346-362), `reserve` (l.504-520) and `shrink_to_fit` (l.535-550) once
the new block is allocated: transfer the elements, free the old block. -/
def rvMoveTo (rv : RV) (size nb ncap : Nat) : M α (Bool × RV) :=
  match rv.ptr with
  | none => pure (true, ⟨some nb, ncap⟩)
  | some ob => do
    let r ← copyLoop nb 0 (refs ob 0 size)
    if r.2 then do
      destroy ob 0 size
      deallocate ob rv.cap
      pure (true, ⟨some nb, ncap⟩)
    else do
      destroy nb 0 r.1
      deallocate nb ncap
      pure (false, rv)

/-- vector_nd.h l.341-365 `prepare_push_back`. The caller constructs in the slots `[old, new)` of the returned block. -/
def rvPreparePushBack (rv : RV) (old new : Nat) : M α (Bool × RV) :=
  if new > rv.cap then do
    let ncap ← increase rv.cap new
    let a ← allocate ncap
    match a with
    | none => pure (false, rv)
    | some nb => rvMoveTo rv old nb ncap
  else pure (true, rv)

/-- vector_nd.h l.370-461 `prepare_insert`. The last component of the result is the in-out parameter `valid_count`. The caller
constructs in the slots `[off, off + count * es)`. -/
def rvPrepareInsert (rv : RV) (old off count es valid : Nat) : M α (Bool × RV × Nat) :=
  if ¬ old + count * es > old ∨ off > old then bad
  else if old + count * es > rv.cap then do
    let ncap ← increase rv.cap (old + count * es)
    let a ← allocate ncap
    match a with
    | none => pure (false, rv, valid)
    | some nb =>
      match rv.ptr with
      | none => pure (true, ⟨some nb, ncap⟩, valid)
      | some ob => do
        let l ← copyLoop nb 0 (refs ob 0 off)
        if l.2 then do
          let r ← copyLoop nb (off + count * es) (refs ob off (old - off))
          if r.2 then do
            destroy ob 0 old
            deallocate ob rv.cap
            pure (true, ⟨some nb, ncap⟩, valid)
          else do
            destroy nb 0 l.1
            destroy nb (off + count * es) r.1
            deallocate nb ncap
            pure (false, rv, old / es)
        else do
          destroy nb 0 l.1
          deallocate nb ncap
          pure (false, rv, old / es)
  else
    match rv.ptr with
    | none => bad
    | some b =>
      if count * es ≥ old - off then do
        -- no overlap
        let r ← copyLoop b (off + count * es) (refs b off (old - off))
        if r.2 then do
          destroy b off old
          pure (true, rv, valid)
        else do
          destroy b (off + count * es) r.1
          pure (false, rv, old / es)
      else do
        -- the tail goes to raw memory
        let t ← copyLoop b old (refs b (old - count * es) (count * es))
        if t.2 then do
          -- the rest of the right part is shifted, the last element first
          let r ← transferRight b (old - count * es) (old - 1) (old - count * es - off)
          if r.2 then do
            destroy b off (off + count * es)
            pure (true, rv, valid)
          else do
            destroy b (r.1 / es * es) r.1
            destroy b (r.1 + 1) t.1
            pure (false, rv, r.1 / es)
        else do
          destroy b old t.1
          pure (false, rv, old / es)

/-- vector_nd.h l.466-495 `erase`; the result has the in-out parameter `valid_count`. -/
def rvErase (rv : RV) (old off count es valid : Nat) : M α (Bool × Nat) :=
  if count = 0 ∨ count * es = 0 ∨ off + count * es > old then bad
  else
    match rv.ptr with
    | none => bad
    | some b => do
      let r ← transferLeft b (off + count * es) off (old - (off + count * es))
      if r.2 then do
        destroy b (old - count * es) old
        pure (true, valid)
      else do
        destroy b (r.1 / es * es) r.1
        destroy b (r.1 + 1) old
        pure (false, r.1 / es)

/-- vector_nd.h l.501-523 `reserve`. -/
def rvReserve (rv : RV) (size ncap : Nat) : M α (Bool × RV) :=
  if ncap > rv.cap then do
    let a ← allocate ncap
    match a with
    | none => pure (false, rv)
    | some nb => rvMoveTo rv size nb ncap
  else pure (true, rv)

/-- vector_nd.h l.529-552 `shrink_to_fit`. -/
def rvShrink (rv : RV) (size : Nat) : M α (Bool × RV) :=
  match rv.ptr with
  | none => pure (true, rv)
  | some ob =>
    if size = rv.cap then pure (true, rv)
    else if size > 0 then do
      let a ← allocate size
      match a with
      | none => pure (false, rv)
      | some nb => rvMoveTo rv size nb size
    else do
      destroy ob 0 size
      deallocate ob rv.cap
      pure (true, RV.null)

/-! ### The vectors -/

/-- How a member function ends: normally, with an exception of an element copy or of the allocator, or with an exception of the
vector itself. -/
inductive Out where
  | ok | threw | argumentError | outOfRange
deriving DecidableEq, Repr

/-- The one-dimensional vector (vector_nd.h l.2010). -/
structure Vec1 where
  rv : RV
  size : Nat
deriving DecidableEq, Repr

namespace Vec1

/-- vector_nd.h l.2077-2080: the empty vector. -/
def nil : Vec1 := ⟨RV.null, 0⟩

/-- vector_nd.h l.2093-2238: the constructors from a size and a value, from a range, and the copy constructor: `none` if an
exception leaves the constructor (then no vector exists). -/
def ctor (ss : List (Src α)) : M α (Option Vec1) := do
  let r ← rvInit RV.null ss
  if r.1 then pure (some ⟨r.2, ss.length⟩) else pure none

/-- vector_nd.h l.2233-2238: the copy constructor. Reading from a null pointer does not happen, since `size = 0` then. -/
def copyCtor (v : Vec1) : M α (Option Vec1) :=
  ctor (rvRefs v.rv v.size)

/-- vector_nd.h l.2059-2065 `destroy_`. -/
def destroyAll (v : Vec1) : M α Unit :=
  if v.size ≠ 0 then
    match v.rv.ptr with
    | none => bad
    | some b => destroy b 0 v.size
  else pure ()

/-- vector_nd.h l.2356-2359 and l.143-148: the destructor. -/
def dtor (v : Vec1) : M α Unit := do
  destroyAll v
  rvFree v.rv

/-- vector_nd.h l.2380-2393 `assign`. -/
def assign (v : Vec1) (n : Nat) (s : Src α) : M α (Out × Vec1) := do
  let r ← rvAssign v.rv v.size n true s
  if r.1 then pure (.ok, ⟨r.2.2, n⟩)
  else pure (.threw, ⟨r.2.2, if r.2.1 then v.size else 0⟩)

/-- vector_nd.h l.2798-2801 `reserve`. -/
def reserve (v : Vec1) (n : Nat) : M α (Out × Vec1) := do
  let r ← rvReserve v.rv v.size n
  pure (if r.1 then .ok else .threw, ⟨r.2, v.size⟩)

/-- vector_nd.h l.2806-2810 `clear`. -/
def clear (v : Vec1) : M α (Out × Vec1) := do
  destroyAll v
  pure (.ok, ⟨v.rv, 0⟩)

/-- vector_nd.h l.2815-2818 `shrink_to_fit`. -/
def shrink (v : Vec1) : M α (Out × Vec1) := do
  let r ← rvShrink v.rv v.size
  pure (if r.1 then .ok else .threw, ⟨r.2, v.size⟩)

/-- vector_nd.h l.2824-2858 `resize`. -/
def resize (v : Vec1) (n : Nat) (s : Src α) : M α (Out × Vec1) := do
  let r ← rvResize v.rv v.size n s
  pure (if r.1 then (.ok, ⟨r.2, n⟩) else (.threw, ⟨r.2, v.size⟩))

/-- vector_nd.h l.2907-2941 `push_back` and `emplace_back`. -/
def pushBack (v : Vec1) (s : Src α) : M α (Out × Vec1) := do
  let r ← rvPreparePushBack v.rv v.size (v.size + 1)
  if r.1 then
    match r.2.ptr with
    | none => bad
    | some b => do
      let ok ← construct b v.size s
      pure (if ok then (.ok, ⟨r.2, v.size + 1⟩) else (.threw, ⟨r.2, v.size⟩))
  else pure (.threw, ⟨r.2, v.size⟩)

/-- vector_nd.h l.2946-2953 `pop_back`. -/
def popBack (v : Vec1) : M α (Out × Vec1) :=
  if v.size = 0 then pure (.outOfRange, v)
  else
    match v.rv.ptr with
    | none => bad
    | some b => do
      destroyAt b (v.size - 1)
      pure (.ok, ⟨v.rv, v.size - 1⟩)

/-- vector_nd.h l.2958-3100 and 2028-2039 `prepare_insert_`: `insert` (one value, `count` values, a range) and `emplace`: the sources are copied one by one before
position `p`. An empty range inserts nothing (l.3031-3033, 3071-3073). -/
def insert (v : Vec1) (p : Nat) (ss : List (Src α)) : M α (Out × Vec1) :=
  if ss.length = 0 then pure (.ok, v)
  else do
    let r ← rvPrepareInsert v.rv v.size p ss.length 1 0
    if r.1 then
      match r.2.1.ptr with
      | none => bad
      | some b => do
        let c ← copyLoop b p ss
        if c.2 then pure (.ok, ⟨r.2.1, v.size + ss.length⟩)
        else do
          destroy b (p + ss.length) (v.size + ss.length)
          pure (.threw, ⟨r.2.1, c.1⟩)
    else pure (.threw, ⟨r.2.1, r.2.2⟩)

/-- vector_nd.h l.2042-2057 `erase_`. -/
def eraseN (v : Vec1) (p count : Nat) : M α (Out × Vec1) :=
  if v.size < count then bad
  else do
    let r ← rvErase v.rv v.size p count 1 0
    if r.1 then pure (.ok, ⟨v.rv, v.size - count⟩)
    else pure (.threw, ⟨v.rv, r.2⟩)

/-- vector_nd.h l.3105-3112 `erase(position)`. -/
def erase (v : Vec1) (p : Nat) : M α (Out × Vec1) :=
  if v.size = 0 then pure (.argumentError, v) else eraseN v p 1

/-- vector_nd.h l.3117-3133 `erase(first, last)`. -/
def eraseRange (v : Vec1) (p q : Nat) : M α (Out × Vec1) :=
  if q < p then pure (.argumentError, v)
  else if q - p ≠ 0 then
    if q - p > v.size then pure (.argumentError, v) else eraseN v p (q - p)
  else pure (.ok, v)

end Vec1

/-- `dimensionality::total_size` and `init_subsizes_` (l.778-784): the product of the sizes, from the last to the first. -/
def prodL (l : List Nat) : Nat := l.foldr (· * ·) 1

/-- The vector of two or more dimensions (vector_nd.h l.604-605). `top` and `total` are the size and the total size in the first
descriptor, `sub` the sizes in the others, `es` the total size in the second descriptor. -/
structure VecN where
  rv : RV
  top : Nat
  total : Nat
  sub : List Nat
  es : Nat
deriving DecidableEq, Repr

namespace VecN

/-- vector_nd.h l.604, 894-895: the empty vector; the descriptors are zero. `d` is the number of dimensions minus one. -/
def nil (d : Nat) : VecN := ⟨RV.null, 0, 0, List.replicate d 0, 0⟩

/-- vector_nd.h l.859-863 `update_top_dimension_`. -/
def setTop (v : VecN) (n : Nat) : VecN := { v with top := n, total := v.es * n }

/-- vector_nd.h l.786-792 `init_sizes_`. -/
def initSizes (v : VecN) (top : Nat) (sub : List Nat) : VecN :=
  { v with top := top, total := top * prodL sub, sub := sub, es := prodL sub }

/-- vector_nd.h l.664-676 `match_sub_dimensions_`. -/
def matchSub (v : VecN) (shape : List Nat) : Bool :=
  decide (shape.length = v.sub.length) && (decide (v.total = 0) || decide (shape = v.sub))

/-- vector_nd.h l.678-689 `init_dimensions_if_empty_`. -/
def initIfEmpty (v : VecN) (shape : List Nat) : VecN :=
  if v.total = 0 then v.initSizes 0 shape else v

/-- vector_nd.h l.870-879 `destroy_`. -/
def destroyAll (v : VecN) : M α Unit :=
  if v.total ≠ 0 then
    match v.rv.ptr with
    | none => bad
    | some b => destroy b 0 v.total
  else pure ()

/-- vector_nd.h l.1130-1133 and l.143-148: the destructor. -/
def dtor (v : VecN) : M α Unit := do
  destroyAll v
  rvFree v.rv

/-- vector_nd.h l.1139-1155 `assign`. -/
def assign (v : VecN) (top : Nat) (sub : List Nat) (s : Src α) : M α (Out × VecN) := do
  let r ← rvAssign v.rv v.total (top * prodL sub) true s
  if r.1 then pure (.ok, { v with rv := r.2.2 }.initSizes top sub)
  else pure (.threw, if r.2.1 then { v with rv := r.2.2 } else { v with rv := r.2.2 }.setTop 0)

/-- vector_nd.h l.1548-1551 `reserve`. -/
def reserve (v : VecN) (n : Nat) : M α (Out × VecN) := do
  let r ← rvReserve v.rv v.total n
  pure (if r.1 then .ok else .threw, { v with rv := r.2 })

/-- vector_nd.h l.1557-1560 `shrink_to_fit`. -/
def shrink (v : VecN) : M α (Out × VecN) := do
  let r ← rvShrink v.rv v.total
  pure (if r.1 then .ok else .threw, { v with rv := r.2 })

/-- vector_nd.h l.1568-1589 `resize(length)`. -/
def resizeTop (v : VecN) (n : Nat) (s : Src α) : M α (Out × VecN) := do
  let r ← rvResize v.rv v.total (n * v.es) s
  pure (if r.1 then (.ok, { v with rv := r.2 }.setTop n) else (.threw, { v with rv := r.2 }))

/-- vector_nd.h l.1597-1618 `resize(extents)`. -/
def resizeAll (v : VecN) (top : Nat) (sub : List Nat) (s : Src α) : M α (Out × VecN) := do
  let r ← rvResize v.rv v.total (top * prodL sub) s
  pure (if r.1 then (.ok, { v with rv := r.2 }.initSizes top sub) else (.threw, { v with rv := r.2 }))

/-- vector_nd.h l.1623-1626 `clear`; nothing is constructed, the source is not used. -/
def clear (v : VecN) (s : Src α) : M α (Out × VecN) := resizeTop v 0 s

/-- vector_nd.h l.1684-1735 `push_back` of a sub-vector of the given shape with the given elements in plain order. -/
def pushBack (v : VecN) (shape : List Nat) (row : List (Src α)) : M α (Out × VecN) :=
  if ¬ v.matchSub shape then pure (.argumentError, v)
  else do
    let v1 := v.initIfEmpty shape
    let r ← rvPreparePushBack v1.rv v1.total (v1.total + row.length)
    if r.1 then
      match r.2.ptr with
      | none => bad
      | some b => do
        let c ← copyLoop b v1.total row
        if c.2 then pure (.ok, { v1 with rv := r.2 }.setTop (v1.top + 1))
        else do
          destroy b v1.total c.1
          pure (.threw, { v1 with rv := r.2 })
    else pure (.threw, { v1 with rv := r.2 })

/-- vector_nd.h l.1740-1752 `pop_back`; the check for an empty vector exists in debug builds only. -/
def popBack (v : VecN) : M α (Out × VecN) :=
  if v.top = 0 then bad
  else
    match v.rv.ptr with
    | none => bad
    | some b => do
      destroy b (v.setTop (v.top - 1)).total v.total
      pure (.ok, v.setTop (v.top - 1))

/-- vector_nd.h l.691-702 `prepare_insert_`. -/
def prepareInsert (v : VecN) (off count es : Nat) : M α (Bool × VecN) := do
  let r ← rvPrepareInsert v.rv v.total off count es 0
  pure (if r.1 then (true, { v with rv := r.2.1 }) else (false, { v with rv := r.2.1 }.setTop r.2.2))

/-- vector_nd.h l.1771-1803 and l.1867-1909 `insert` of a moved sub-vector or of a range of `count` sub-vectors of the given
shape; `rows` are their elements in plain order. `p` is the position as a row number: the code derives the offset from the
pointer in the iterator, which is `p` times the old row size. -/
def insertRange (v : VecN) (p count : Nat) (shape : List Nat) (rows : List (Src α)) : M α (Out × VecN) :=
  if count = 0 then pure (.ok, v)
  else if ¬ v.matchSub shape then pure (.argumentError, v)
  else if prodL shape = 0 then pure (.argumentError, v.initIfEmpty shape)
  else do
    let r ← prepareInsert (v.initIfEmpty shape) (p * v.es) count (prodL shape)
    if r.1 then
      match r.2.rv.ptr with
      | none => bad
      | some b => do
        let c ← copyLoop b (p * v.es) rows
        if c.2 then pure (.ok, r.2.setTop (r.2.top + count))
        else do
          destroy b (p * v.es + (c.1 - p * v.es) / prodL shape * prodL shape) c.1
          destroy b (p * v.es + count * prodL shape) (r.2.total + count * prodL shape)
          pure (.threw, r.2.setTop (p * v.es / prodL shape + (c.1 - p * v.es) / prodL shape))
    else pure (.threw, r.2)

/-- vector_nd.h l.1834-1839: the loop which copies the sub-vector again and again. `n` rows remain, `done` are complete, the next
slot is `d`. Returns `copy_first`, `copy_last`, `inserted_count` and whether it got to the end. -/
def rowLoop (b : Nat) (row : List (Src α)) : Nat → Nat → Nat → M α (Nat × Nat × Nat × Bool)
  | 0, done, d => pure (d, d, done, true)
  | n + 1, done, d => do
    let c ← copyLoop b d row
    if c.2 then rowLoop b row n (done + 1) c.1 else pure (d, c.1, done, false)

/-- vector_nd.h l.1811-1856 `insert` of `count` copies of one sub-vector. -/
def insertCount (v : VecN) (p count : Nat) (shape : List Nat) (row : List (Src α)) : M α (Out × VecN) :=
  if count = 0 then pure (.ok, v)
  else if ¬ v.matchSub shape then pure (.argumentError, v)
  else if prodL shape = 0 then pure (.argumentError, v.initIfEmpty shape)
  else do
    let r ← prepareInsert (v.initIfEmpty shape) (p * v.es) count (prodL shape)
    if r.1 then
      match r.2.rv.ptr with
      | none => bad
      | some b => do
        let c ← rowLoop b row count 0 (p * v.es)
        if c.2.2.2 then pure (.ok, r.2.setTop (r.2.top + count))
        else do
          destroy b c.1 c.2.1
          destroy b (p * v.es + count * prodL shape) (r.2.total + count * prodL shape)
          pure (.threw, r.2.setTop (p * v.es / prodL shape + c.2.2.1))
    else pure (.threw, r.2)

/-- vector_nd.h l.704-718 `erase_`. -/
def eraseN (v : VecN) (p count : Nat) : M α (Out × VecN) := do
  let r ← rvErase v.rv v.total (p * v.es) count v.es 0
  if r.1 then pure (.ok, v.setTop (v.top - count))
  else pure (.threw, v.setTop r.2)

/-- vector_nd.h l.1924-1930 `erase(position)`. -/
def erase (v : VecN) (p : Nat) : M α (Out × VecN) :=
  if v.top = 0 then pure (.argumentError, v) else eraseN v p 1

/-- vector_nd.h l.1935-1951 `erase(first, last)`. -/
def eraseRange (v : VecN) (p q : Nat) : M α (Out × VecN) :=
  if q < p then pure (.argumentError, v)
  else if q - p ≠ 0 then
    if q - p > v.top then pure (.argumentError, v) else eraseN v p (q - p)
  else pure (.ok, v)

end VecN
end

end Verif.VectorNd
