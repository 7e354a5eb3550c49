import Verif.Model.VectorObjs

/-!
Model of what a `vector_nd` hands out to access its elements: rows (`proxy_nd`, `/repo/include/yato/array_proxy.h` l.45-417 and
l.423-700), iterators over rows (`iterator_nd`, `/repo/include/yato/iterator_nd.h` l.26-239, a proxy that can be moved) and pointers to
elements. A proxy does not hold any sizes: it has a pointer to the first element, and a pointer to the size descriptors that are stored
*inside the vector object* it was taken from (`/repo/include/yato/vector_nd.h` l.604, 758-776). The heap and the vectors are those of
`Model/VectorNd.lean` and `Model/VectorObjs.lean`.

Using a pointer to a freed block, to a slot without a live object, or to the descriptors of a vector object whose lifetime has ended is
undefined behaviour: `none`. So is violating a `YATO_REQUIRES`.

Simplifications:
 * The address of a vector object is the name of its variable together with the number of objects of this name that have been
   destroyed before: a later object of the same name is another object.
 * Offsets are counted in elements; the code counts bytes (`advance_bytes`), all elements have the same size.
 * `const` and mutable proxies, and the access policies, are not distinguished.
 * A proxy of one dimension points to the two numbers of its descriptor separately (l.458-460, 485-487); they live in the same object.
-/
set_option autoImplicit false

namespace Verif.VectorNd
variable {α : Type}

/-- The vector objects: the living ones, and how many of each name have been destroyed. -/
structure Objs where
  vars : Nat → Option Vec
  deaths : Nat → Nat

/-- A pointer to a descriptor: which object, and the index of the descriptor in its array. -/
structure Desc where
  obj : Nat
  life : Nat
  lvl : Nat
deriving DecidableEq, Repr

/-- array_proxy.h l.84-85: the pointer to the first element (block and slot; no block is the null pointer), and the pointer to the
descriptors. A plain pointer to an element has no descriptors. -/
structure Row where
  ptr : Option Nat
  off : Nat
  desc : Option Desc
deriving DecidableEq, Repr

/-- The vector a descriptor belongs to, if it still exists. -/
def Objs.find (o : Objs) (d : Desc) : Option VecN :=
  if o.deaths d.obj = d.life then
    match o.vars d.obj with
    | some (.many v) => some v
    | _ => none
  else none

/-- vector_nd.h l.604, 778-792: the sizes in the descriptors from index `lvl` on. -/
def VecN.sizesFrom (v : VecN) (lvl : Nat) : List Nat := (v.top :: v.sub).drop lvl

/-- vector_nd.h l.778-792, 859-863: the total size in descriptor `lvl`. The first two are stored in the model of the vector; the
others are only ever written together with the sizes, as their products. -/
def VecN.totalAt (v : VecN) : Nat → Nat
  | 0 => v.total
  | 1 => v.es
  | n + 2 => prodL (v.sub.drop (n + 1))

/-- array_proxy.h l.185-188, 231-235, 551-554: `dimensions()` of a proxy. A plain pointer has none. -/
def Row.sizes (o : Objs) (r : Row) : Option (List Nat) :=
  match r.desc with
  | none => some []
  | some d => (o.find d).map fun v => v.sizesFrom d.lvl

/-- array_proxy.h l.261-264, 609-612: `total_size()` of a proxy; `total_stored()` (l.270-273, 618-621) is the same number of elements
for a vector, because the descriptors of a vector have no strides (container_base.h l.46-61). -/
def Row.total (o : Objs) (r : Row) : Option Nat :=
  match r.desc with
  | none => some 1
  | some d => (o.find d).map fun v => v.totalAt d.lvl

/-- The result of pointer arithmetic must stay inside the block or just behind it. -/
def inBlock (h : Heap α) (p : Option Nat) (off : Nat) : Bool :=
  match p with
  | none => decide (off = 0)
  | some b =>
    match h.blk b with
    | none => false
    | some c => decide (off ≤ c.length)

/-- vector_nd.h l.1430-1433 `proxy()` and l.1422-1425 `cproxy()`. -/
def Objs.proxy (o : Objs) (x : Nat) : Option Row :=
  match o.vars x with
  | some (.many v) => some ⟨v.rv.ptr, 0, some ⟨x, o.deaths x, 0⟩⟩
  | _ => none

/-- vector_nd.h l.758-761, 1226-1230 and 1270-1297: row `i` (`x[i]`, `front()`, `back()`), or the iterator `x.begin() + i`, of a vector
with more dimensions; the iterator may be the end. -/
def Objs.iter (o : Objs) (h : Heap α) (x i : Nat) : Option Row :=
  match o.vars x with
  | some (.many v) =>
    if i ≤ v.top ∧ inBlock h v.rv.ptr (i * v.es) then some ⟨v.rv.ptr, i * v.es, some ⟨x, o.deaths x, 1⟩⟩ else none
  | _ => none

/-- vector_nd.h l.1310-1329, 2472-2476 and 2513-2573: a pointer to element `i` in plain order, or behind the last one. -/
def Objs.elem (o : Objs) (x i : Nat) : Option Row :=
  match o.vars x with
  | some v => if i ≤ v.total then some ⟨v.rv.ptr, i, none⟩ else none
  | none => none

/-- array_proxy.h l.158-162 and 100-105 for more dimensions: the sub-row `i`; l.527-531 for one dimension: (a pointer to) the element
`i`. -/
def Row.sub (o : Objs) (h : Heap α) (r : Row) (i : Nat) : Option Row :=
  match r.desc with
  | none => none
  | some d =>
    match o.find d with
    | none => none
    | some v =>
      match v.sizesFrom d.lvl with
      | [] => none
      | [n] => if i < n ∧ inBlock h r.ptr (r.off + i) then some ⟨r.ptr, r.off + i, none⟩ else none
      | n :: _ :: _ =>
        if i < n ∧ inBlock h r.ptr (r.off + i * v.totalAt (d.lvl + 1)) then
          some ⟨r.ptr, r.off + i * v.totalAt (d.lvl + 1), some { d with lvl := d.lvl + 1 }⟩
        else none

/-- iterator_nd.h l.87-91, 107-111, 126-130, 154-158: `++it`, `--it`, `it += n`, `it -= n`. The step is the *current* total size of the
row. For a plain pointer it is one. -/
def Row.advance (o : Objs) (h : Heap α) (r : Row) (n : Int) : Option Row :=
  match r.total o with
  | none => none
  | some t =>
    if 0 ≤ (r.off : Int) + n * t ∧ inBlock h r.ptr ((r.off : Int) + n * t).toNat then
      some { r with off := ((r.off : Int) + n * t).toNat }
    else none

/-- The objects in `n` slots from `off`, if they are all alive. -/
def readN (h : Heap α) (p : Option Nat) : Nat → Nat → Option (List α)
  | _, 0 => some []
  | off, n + 1 =>
    match p.bind fun b => h.read (.ref b off) with
    | none => none
    | some a => (readN h p (off + 1) n).map (a :: ·)

/-- array_proxy.h l.185-188 and 321-334: the sizes and all elements of a row. -/
def Row.read (o : Objs) (h : Heap α) (r : Row) : Option (List Nat × List α) :=
  match r.sizes o, r.total o with
  | some s, some t => (readN h r.ptr r.off t).map fun l => (s, l)
  | _, _ => none

/-- `*p = a` for a pointer to an element: the element is assigned to, so there must be one. -/
def Row.write (r : Row) (a : α) : M α Unit := fun h =>
  match r.ptr, r.desc with
  | some b, none =>
    match h.slot b r.off with
    | some (some _) => some ((), h.setSlot b r.off (some a))
    | _ => none
  | _, _ => none

end Verif.VectorNd
