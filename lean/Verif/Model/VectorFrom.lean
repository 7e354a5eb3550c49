import Verif.Model.VectorObjs
import Verif.Model.Views

/-!
Model of the constructors of `vector_nd` from nested initializer lists and from views, and of `push_back`/`insert` of views
(`/repo/include/yato/vector_nd.h` l.30-46, 608-647, 720-762, 808-851, 962-970, 1072-1125, 1684-1708, 1867-1909, 2175-2179, 2298-2336,
`/repo/include/yato/memory_utility.h` l.292-352), on top of the heap of `Model/VectorNd.lean` and the addresses of `Model/Views.lean`.

Simplifications (besides those of the two models):
 * A view looks at memory outside the vectors of the heap: `mem a` is the object at the byte address `a`, `none` if there is none.
   Reading where there is no object is `bad`.
 * The code that catches an exception and the code that goes on after a `throw` statement are told apart by an `Out`.
-/
set_option autoImplicit false

namespace Verif.VectorNd
open Verif.Views (Desc)
variable {α : Type}

/-- vector_nd.h l.33-45 `initializer_list_nd_t`, with `d + 1` dimensions. -/
def NL (α : Type) : Nat → Type
  | 0 => List α
  | d + 1 => List (NL α d)

/-- vector_nd.h l.818-835 `deduce_sizes_from_ilist_`: the list of sizes is updated on the way, from the level of the argument on. -/
def deduce : (d : Nat) → List Nat → NL α d → List Nat
  | _, [], _ => []
  | 0, n :: ns, (l : List α) => max n l.length :: ns
  | d + 1, n :: ns, (l : List (NL α d)) => max n l.length :: l.foldl (fun s x => deduce d s x) ns

/-- vector_nd.h l.808-816 `init_sizes_from_ilist_`, without the call of `init_subsizes_`. -/
def sizesOf (d : Nat) (l : NL α d) : List Nat := deduce d (List.replicate (d + 1) 0) l

/-- A `for` loop over the parts of a source; an exception ends it. -/
def each {β : Type} (f : β → Nat → M α (Nat × Out)) : List β → Nat → M α (Nat × Out)
  | [], dst => pure (dst, .ok)
  | x :: xs, dst => do
    let r ← f x dst
    if r.2 = .ok then each f xs r.1 else pure r

/-- The end of a loop that copies elements: an exception is one thrown by the copy. -/
def ended (r : Nat × Bool) : Nat × Out := (r.1, if r.2 then .ok else .threw)

/-- vector_nd.h l.733-756 `raw_copy_initializer_list_` of an innermost list: the last element is repeated up to the size. -/
def copyRow (b n : Nat) (l : List α) (dst : Nat) : M α (Nat × Out) :=
  if n < l.length then bad
  else do
    let r ← copyLoop b dst (l.map Src.val)
    if r.2 then
      if n - l.length ≠ 0 then
        match l.getLast? with
        | none => pure (r.1, .argumentError)
        | some a => do
          let t ← copyLoop b r.1 (List.replicate (n - l.length) (Src.val a))
          pure (ended t)
      else pure (r.1, .ok)
    else pure (r.1, .threw)

/-- vector_nd.h l.720-756 `raw_copy_initializer_list_`. The sizes are those from the level of the list on. -/
def copyIL (b : Nat) : (d : Nat) → List Nat → NL α d → Nat → M α (Nat × Out)
  | _, [], _, _ => bad
  | 0, n :: _, (l : List α), dst => copyRow b n l dst
  | d + 1, n :: ns, (l : List (NL α d)), dst =>
    if n ≠ l.length then pure (dst, .argumentError) else each (copyIL b d ns) l dst

/-- vector_nd.h l.608-626 `raw_init_from_ilist_` and l.628-646 `raw_init_from_multidim_`, l.222-241 `init_from_range`: allocate, copy,
and on an exception destroy what was copied and free the block. -/
def initBy (total : Nat) (copy : Nat → Nat → M α (Nat × Out)) : M α (Out × RV) :=
  if total = 0 then bad
  else do
    let a ← allocate total
    match a with
    | none => pure (.threw, RV.null)
    | some nb => do
      let r ← copy nb 0
      if r.2 = .ok then pure (.ok, ⟨some nb, total⟩)
      else do
        destroy nb 0 r.1
        deallocate nb total
        pure (r.2, RV.null)

/-- The vector that results from the storage, if the storage was filled. -/
def finishWith (dims : List Nat) (r : Out × RV) : Out × Option Vec :=
  if r.1 = .ok then (.ok, some (Vec.shaped r.2 dims)) else (r.1, none)

/-- vector_nd.h l.962-970 for more dimensions and l.2175-2179 for one. -/
def fromList : (d : Nat) → NL α d → M α (Out × Option Vec)
  | 0, (l : List α) => Vec.ctor [l.length] (l.map Src.val)
  | d + 1, l =>
    if prodL (sizesOf (d + 1) l) ≠ 0 then do
      let r ← initBy (prodL (sizesOf (d + 1) l)) (fun nb => copyIL nb (d + 1) (sizesOf (d + 1) l) l)
      pure (finishWith (sizesOf (d + 1) l) r)
    else pure (.ok, some (Vec.shaped RV.null (sizesOf (d + 1) l)))

/-! ### Views -/

/-- memory_utility.h l.293-300 `copy_to_uninitialized` (the loop l.58-70) with pointers into memory outside the vectors. -/
def copyMem (mem : Nat → Option α) (b : Nat) : Nat → List Nat → M α (Nat × Bool)
  | dst, [] => pure (dst, true)
  | dst, a :: as =>
    match mem a with
    | none => bad
    | some x => do
      let ok ← construct b dst (.val x)
      if ok then copyMem mem b (dst + 1) as else pure (dst, false)

/-- The addresses of `n` consecutive elements. -/
def consecutive (sz p n : Nat) : List Nat := (List.range n).map fun k => p + k * sz

/-- vector_nd.h l.838-851 `fill_from_miltidim_` (sic): the iterators of a view step by the byte offset of a row (iterator_nd.h l.84-91). -/
def fillMD (sz : Nat) (mem : Nat → Option α) (b : Nat) : List Desc → Nat → Nat → M α (Nat × Out)
  | [], _, _ => bad
  | [d], p, dst => do
    let r ← copyMem mem b dst (consecutive sz p d.size)
    pure (ended r)
  | d :: d' :: ds, p, dst => each (fun k => fillMD sz mem b (d' :: ds) (p + k * d'.offset)) (List.range d.size) dst

/-- vector_nd.h l.1072-1086 and 2298-2306 (proxies), l.1101-1115 and 2321-2328 (views): construct from a view at address `p`;
`continuous` is what the view says about itself (always true with one dimension). -/
def fromMultidim (sz : Nat) (mem : Nat → Option α) (continuous : List Desc → Bool) (ds : List Desc) (p : Nat) : M α (Out × Option Vec) :=
  if prodL (ds.map Desc.size) ≠ 0 then do
    let r ← initBy (prodL (ds.map Desc.size)) fun nb dst =>
      if continuous ds then
        if (Views.plainAddrs sz p ds).length ≠ prodL (ds.map Desc.size) then bad
        else do
          let r ← copyMem mem nb dst (Views.plainAddrs sz p ds)
          pure (ended r)
      else fillMD sz mem nb ds p dst
    pure (finishWith (ds.map Desc.size) r)
  else if ds.length ≤ 1 then bad
  else pure (.ok, some (Vec.shaped RV.null (ds.map Desc.size)))

def fromView (sz : Nat) (mem : Nat → Option α) : List Desc → Nat → M α (Out × Option Vec) := fromMultidim sz mem (Views.viewContinuous sz)
def fromProxy (sz : Nat) (mem : Nat → Option α) : List Desc → Nat → M α (Out × Option Vec) := fromMultidim sz mem (Views.proxyContinuous sz)

/-- memory_utility.h l.306-342 `copy_to_uninitialized_multidim` for a range of `n` sub-views with descriptors `ds` from address `p`,
with `makes_plain_range` (iterator_nd.h l.65-72). The plain range goes up to the first address of the last iterator. -/
def copyMD (sz : Nat) (mem : Nat → Option α) (b : Nat) : List Desc → Nat → Nat → Nat → M α (Nat × Out)
  | [], _, _, _ => bad
  | [d], p, n, dst =>
    if sz * d.total == d.offset then do
      let r ← copyMem mem b dst (consecutive sz p (n * d.offset / sz))
      pure (ended r)
    else
      each (fun k dst => do
        let r ← copyMem mem b dst (consecutive sz (p + k * d.offset) d.size)
        pure (ended r)) (List.range n) dst
  | d :: d' :: ds, p, n, dst =>
    if sz * d.total == d.offset then
      if Views.proxyContinuous sz (d :: d' :: ds) then do
        let r ← copyMem mem b dst (consecutive sz p (n * d.offset / sz))
        pure (ended r)
      else bad
    else each (fun k => copyMD sz mem b (d' :: ds) (p + k * d.offset) d.size) (List.range n) dst

/-- memory_utility.h l.307-352 for the range `[cbegin, cend)` of one view: the iterators of a view with one dimension are pointers. -/
def copyWhole (sz : Nat) (mem : Nat → Option α) (b : Nat) (ds : List Desc) (p dst : Nat) : M α (Nat × Out) :=
  match ds with
  | [] => bad
  | [d] => do
    let r ← copyMem mem b dst (consecutive sz p d.size)
    pure (ended r)
  | d :: d' :: ds => copyMD sz mem b (d' :: ds) p d.size dst

namespace VecN

/-- vector_nd.h l.1684-1708 `push_back` of a view with descriptors `ds` at address `p`. -/
def pushBackView (sz : Nat) (mem : Nat → Option α) (v : VecN) (ds : List Desc) (p : Nat) : M α (Out × VecN) :=
  if ¬ v.matchSub (ds.map Desc.size) then pure (.argumentError, v)
  else do
    let v1 := v.initIfEmpty (ds.map Desc.size)
    let r ← rvPreparePushBack v1.rv v1.total (v1.total + prodL (ds.map Desc.size))
    if r.1 then
      match r.2.ptr with
      | none => bad
      | some b => do
        let c ← copyWhole sz mem b ds p v1.total
        if c.2 = .ok then pure (.ok, { v1 with rv := r.2 }.setTop (v1.top + 1))
        else do
          destroy b v1.total c.1
          pure (c.2, { v1 with rv := r.2 })
    else pure (.threw, { v1 with rv := r.2 })

/-- vector_nd.h l.1867-1909 `insert` of the `count` sub-views with descriptors `ds` from address `p`, before row `pos`. -/
def insertViews (sz : Nat) (mem : Nat → Option α) (v : VecN) (pos count : Nat) (ds : List Desc) (p : Nat) : M α (Out × VecN) :=
  if count = 0 then pure (.ok, v)
  else if ¬ v.matchSub (ds.map Desc.size) then pure (.argumentError, v)
  else if prodL (ds.map Desc.size) = 0 then pure (.argumentError, v.initIfEmpty (ds.map Desc.size))
  else do
    let r ← prepareInsert (v.initIfEmpty (ds.map Desc.size)) (pos * v.es) count (prodL (ds.map Desc.size))
    if r.1 then
      match r.2.rv.ptr with
      | none => bad
      | some b => do
        let c ← copyMD sz mem b ds p count (pos * v.es)
        if c.2 = .ok then pure (.ok, r.2.setTop (r.2.top + count))
        else do
          destroy b (pos * v.es + (c.1 - pos * v.es) / prodL (ds.map Desc.size) * prodL (ds.map Desc.size)) c.1
          destroy b (pos * v.es + count * prodL (ds.map Desc.size)) (r.2.total + count * prodL (ds.map Desc.size))
          pure (c.2, r.2.setTop (pos * v.es / prodL (ds.map Desc.size) + (c.1 - pos * v.es) / prodL (ds.map Desc.size)))
    else pure (.threw, r.2)

end VecN

end Verif.VectorNd
