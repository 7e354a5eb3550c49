import Verif.Model.VectorNd

/-!
Model of the members of `vector_nd` that create, copy, move, swap, reshape and destroy whole vectors
(`/repo/include/yato/vector_nd.h` l.895-1133, 1157-1213, 2077-2359, 2401-2456, `raw_vector` l.100-157), on top of the heap of
`Model/VectorNd.lean`.

Simplifications (besides those of `Model/VectorNd.lean`):
 * The allocator has no state, so copying, moving and swapping allocators does nothing.
 * The number of dimensions is a template parameter in the code; here a vector of one dimension is `Vec.one` and a vector of more
   dimensions `Vec.many`, and a program that mixes them up in a way the compiler rejects is not considered.
 * `get_allocator` of the one-dimensional vector (l.2444-2447) calls a member that does not exist; it is left out.
 * The conversions from and to `std::vector` are left out (they are copies of a range).
-/
set_option autoImplicit false

namespace Verif.VectorNd
variable {α : Type}

/-- A vector with some number of dimensions. -/
inductive Vec where
  | one (v : Vec1)
  | many (v : VecN)
deriving DecidableEq, Repr

namespace Vec

/-- The storage. -/
def rv : Vec → RV
  | .one v => v.rv
  | .many v => v.rv

/-- The sizes (`dimensions()`, vector_nd.h l.1470-1473 and l.2713-2716). -/
def dims : Vec → List Nat
  | .one v => [v.size]
  | .many v => v.top :: v.sub

/-- `total_size()`: l.1531-1534 and l.2782-2785. -/
def total : Vec → Nat
  | .one v => v.size
  | .many v => v.total

/-- The same object with an empty `raw_vector` after it was moved from, and its sizes after `tidy_` (l.884-888, 2067-2070). For more
dimensions only the size of the first one becomes zero. The moving constructor and assignment of `raw_vector` (l.112-118, 122-138)
leave a null pointer and a zero size behind. -/
def tidy : Vec → Vec
  | .one _ => .one ⟨RV.null, 0⟩
  | .many v => .many ({ v with rv := RV.null }.setTop 0)

/-- The destructor. -/
def dtor : Vec → M α Unit
  | .one v => v.dtor
  | .many v => v.dtor

/-- A vector with the given sizes and storage: l.786-792 `init_sizes_`, and `m_size` of the one-dimensional vector. -/
def shaped (rv : RV) : List Nat → Vec
  | [] => .one ⟨rv, 1⟩
  | [n] => .one ⟨rv, n⟩
  | n :: k :: sub => .many (VecN.initSizes ⟨rv, 0, 0, [], 0⟩ n (k :: sub))

/-- The constructors from sizes and a range (l.936-947, 2132-2148), and from sizes and a value (l.921-930, 2113-2126: the range then
repeats the value as often as needed). With more dimensions a range of another length than the sizes say is refused and a vector
without elements gets no storage. With one dimension a range of another length violates a contract of `init_from_range`
(l.222-240), and so does the length zero. No vector results when the constructor throws. -/
def ctor (dims : List Nat) (ss : List (Src α)) : M α (Out × Option Vec) :=
  match dims with
  | [] => bad
  | [n] =>
    if n ≠ ss.length then bad
    else do
      let r ← rvInit RV.null ss
      if r.1 then pure (.ok, some (shaped r.2 [n])) else pure (.threw, none)
  | n :: k :: sub =>
    if prodL (n :: k :: sub) ≠ ss.length then pure (.argumentError, none)
    else if ss.length ≠ 0 then do
      let r ← rvInit RV.null ss
      if r.1 then pure (.ok, some (shaped r.2 (n :: k :: sub))) else pure (.threw, none)
    else pure (.ok, some (shaped RV.null (n :: k :: sub)))

/-- l.1005-1013 and 2233-2238: the copy constructor. -/
def copyCtor (v : Vec) : M α (Out × Option Vec) :=
  match v with
  | .one w => do
    let r ← w.copyCtor
    match r with
    | some u => pure (.ok, some (.one u))
    | none => pure (.threw, none)
  | .many w =>
    if w.total ≠ 0 then do
      let r ← rvInit RV.null (rvRefs w.rv w.total)
      if r.1 then pure (.ok, some (.many { w with rv := r.2 })) else pure (.threw, none)
    else pure (.ok, some (.many { w with rv := RV.null }))

/-- l.1017-1024 and 2246-2252: the moving constructor. The results are the new vector and what is left of the argument. -/
def moveCtor (v : Vec) : Vec × Vec := (v, v.tidy)

/-- l.1206-1212, 2452-2456 and `raw_vector::swap` l.150-156: everything is exchanged. -/
def swap (v w : Vec) : Vec × Vec := (w, v)

/-- l.1045-1050 and 2254-2259: `this_type{other}.swap(*this)`, then the temporary is destroyed. -/
def copyAssign (v w : Vec) : M α (Out × Vec) := do
  let r ← w.copyCtor
  match r.2 with
  | none => pure (r.1, v)
  | some t => do
    let s := swap t v
    s.1.dtor
    pure (.ok, s.2)

/-- l.870-879 and 2059-2065 `destroy_`. -/
def destroyAll : Vec → M α Unit
  | .one v => v.destroyAll
  | .many v => v.destroyAll

/-- l.1055-1067 and 2264-2273: the elements are destroyed, the storage is released by the assignment of `raw_vector` (l.122-138), and
the members are taken over. -/
def moveAssign (v w : Vec) : M α (Vec × Vec) := do
  v.destroyAll
  rvFree v.rv
  pure (moveCtor w)

/-- l.1161-1168 and 2407-2414: a new vector with other sizes and the same elements. -/
def reshape (v : Vec) (dims : List Nat) : M α (Out × Option Vec) :=
  if prodL dims ≠ v.total then pure (.argumentError, none)
  else ctor dims (rvRefs v.rv v.total)

/-- l.1186-1193, 2432-2439 and the move-reshape constructors l.1029-1040, 2340-2351: the new vector takes over the storage. -/
def moveReshape (v : Vec) (dims : List Nat) : Out × Option Vec × Vec :=
  if prodL dims ≠ v.total then (.argumentError, none, v)
  else (.ok, some (shaped v.rv dims), v.tidy)

end Vec

end Verif.VectorNd
