import Verif.Model.Views
/-!
Model of programs that use arrays (`array_nd`), views of them (`array_view_nd`) and rows of views (`proxy_nd`) together:
`/repo/include/yato/array_nd.h`, `array_view.h`, `array_proxy.h`, `iterator_nd.h`.  Addresses come from `Model/Views.lean`.

Simplifications (besides those of `Model/Views.lean`):
 * All arrays of a program have elements of one type of `sz` bytes, whose copying and swapping does not throw.
 * A pointer is the array it points into and the distance in bytes from the start of that array.  An access that does not hit an
   element of that array is undefined (`ub`), also if it would hit another array.
 * Arrays live to the end of the program; views may be destroyed.  A view that has been destroyed is `none`.
 * Arrays, views and rows get numbers in the order they are created.
 * A program that names things which do not exist, or with a wrong number of indices, does not compile: `reject`.
-/
set_option autoImplicit false

namespace Verif.ArrayNd
open Verif.Views (Desc elem arrElem arrAt totalSize elemDescs byteDescs viewContinuous proxyContinuous)
variable {α : Type}

/-- Outcome of a statement. -/
inductive Out (β : Type) where
  | ok (b : β)
  /-- undefined behaviour -/
  | ub
  /-- does not compile -/
  | reject
deriving Repr

/-- One after the other. -/
def Out.bind {β γ : Type} (x : Out β) (f : β → Out γ) : Out γ :=
  match x with
  | .ok b => f b
  | .ub => .ub
  | .reject => .reject

def Out.get {β : Type} : Option β → Out β
  | some b => .ok b
  | none => .reject

/-- array_nd.h l.545-603 `array_nd_impl`: the extents are part of the type, the elements are `m_array` in row-major order. -/
structure Arr (α : Type) where
  ext : List Nat
  cells : List α
deriving Repr

/-- array_view.h l.56-57 `array_view_base`: base pointer and descriptors; l.235-236 in one dimension: pointer and size, here as the
descriptor `(size, size, size * sz)`. -/
structure View where
  arr : Nat
  base : Nat
  descs : List Desc
deriving Repr

/-- array_proxy.h l.84-85 `proxy_nd`: data pointer and a pointer to the descriptor number `lvl` of the view `view`; l.458-460: the
one-dimensional proxy points to the members of the last descriptor. -/
structure Row where
  arr : Nat
  base : Nat
  view : Nat
  lvl : Nat
deriving Repr

structure St (α : Type) where
  arrs : List (Arr α)
  views : List (Option View)
  rows : List Row
deriving Repr

/-- What a statement returns. -/
inductive Res (α : Type) where
  | unit
  | val (x : α)
  | vals (xs : List α)
  | threw
  /-- dimensions and strides in bytes -/
  | info (ext strides : List Nat)
deriving Repr

/-- The statements of a program. -/
inductive Op (α : Type) where
  /-- `a.at(idx...)` -/
  | arrAt (a : Nat) (idx : List Nat)
  /-- `a[i]...[k]` -/
  | arrGet (a : Nat) (idx : List Nat)
  /-- `a[i]...[k] = x` -/
  | arrSet (a : Nat) (idx : List Nat) (x : α)
  /-- loop over the rows of `a`, over their rows, and so on -/
  | arrAll (a : Nat)
  /-- loop from `a.plain_begin()` to `a.plain_end()` -/
  | arrPlain (a : Nat)
  /-- `a.fill(x)` -/
  | fill (a : Nat) (x : α)
  /-- `a.fill(a[i]...[k])` -/
  | fillOwn (a : Nat) (idx : List Nat)
  /-- `a.swap(b)` -/
  | swap (a b : Nat)
  /-- `a = b` -/
  | copy (a b : Nat)
  /-- `auto v = yato::view(a)` -/
  | viewOf (a : Nat)
  /-- `array_view_nd<T, N> v(a.data() + start, extents, element strides)` -/
  | viewPart (a start : Nat) (ext strides : List Nat)
  /-- `array_view_nd<T, N> w(v.data(), v.dimensions(), v.strides())` -/
  | viewAgain (v : Nat)
  /-- `auto w = v.reshape(extents)` -/
  | reshape (v : Nat) (ext : List Nat)
  /-- `v = w` -/
  | assign (v w : Nat)
  /-- `v.rebind(a.data())` -/
  | rebind (v a : Nat)
  /-- the end of the lifetime of `v` -/
  | drop (v : Nat)
  /-- `v.dimensions()`, `v.strides()` -/
  | viewInfo (v : Nat)
  /-- `v[i]...[k]` -/
  | viewGet (v : Nat) (idx : List Nat)
  /-- `v[i]...[k] = x` -/
  | viewSet (v : Nat) (idx : List Nat) (x : α)
  /-- loop over the rows of `v`, over their rows, and so on -/
  | viewAll (v : Nat)
  /-- `auto r = v[i]`, at least two dimensions -/
  | row (v i : Nat)
  /-- `auto q = r[i]`, at least two dimensions -/
  | subRow (r i : Nat)
  /-- `r[i]...[k]` -/
  | rowGet (r : Nat) (idx : List Nat)
  /-- `r[i]...[k] = x` -/
  | rowSet (r : Nat) (idx : List Nat) (x : α)
  /-- loop over `r` -/
  | rowAll (r : Nat)
  /-- `array_view_nd<T, N> v(r)` -/
  | viewOfRow (r : Nat)
deriving Repr

/-! ### Memory -/

/-- The number of the element at a distance of `off` bytes from the start of an array of `n` elements. -/
def cellAt (sz n off : Nat) : Out Nat :=
  if off % sz = 0 ∧ off / sz < n then .ok (off / sz) else .ub

/-- Read the element at a distance of `off` bytes. -/
def load (sz : Nat) (cells : List α) (off : Nat) : Out α :=
  (cellAt sz cells.length off).bind fun k =>
    match cells[k]? with
    | some x => .ok x
    | none => .ub

/-- Write the element at a distance of `off` bytes. -/
def store (sz : Nat) (cells : List α) (off : Nat) (x : α) : Out (List α) :=
  (cellAt sz cells.length off).bind fun k => .ok (cells.set k x)

def loadAll (sz : Nat) (cells : List α) : List Nat → Out (List α)
  | [] => .ok []
  | o :: os => (load sz cells o).bind fun x => (loadAll sz cells os).bind fun xs => .ok (x :: xs)

/-! ### Loops -/

/-- `for (it = begin; it != stop; ++it)` where `++` adds `off` bytes (iterator_nd.h l.87-91, 194-198).  The first argument counts
down from the number of rows: it never ends the loop before `it` reaches `stop`. -/
def walk (off stop : Nat) : Nat → Nat → List Nat
  | 0, _ => []
  | n + 1, p => if p = stop then [] else p :: walk off stop n (p + off)

/-- Nested loops over a view or a proxy (array_proxy.h l.289-316, 608-662; array_view.h l.182-197, 330-343): the distances of the
elements visited.  The end is the sub-view number `size`, `++` adds `total_stored()` of the sub-view (array_proxy.h l.269-273). -/
def iterOffs (sz : Nat) : List Desc → Nat → List Nat
  | [], _ => []
  | [d], p => walk sz (p + d.size * sz) d.size p
  | d :: d' :: ds, p => (walk d'.offset (p + d.size * d'.offset) d.size p).flatMap (iterOffs sz (d' :: ds))

/-- Nested loops over an array (array_nd.h l.204-238, 424-458, 621-655): `total_stored()` of a row is `total_size * sizeof`
(l.192-196). -/
def arrIterOffs (sz : Nat) : List Nat → Nat → List Nat
  | [], _ => []
  | [e], p => walk sz (p + e * sz) e p
  | e :: e' :: es, p =>
    (walk (totalSize (e' :: es) * sz) (p + e * (totalSize (e' :: es) * sz)) e p).flatMap (arrIterOffs sz (e' :: es))

/-- `std::fill(plain_begin(), plain_end(), value)` (array_nd.h l.888-894), `value` being outside the array. -/
def fillLoop (x : α) : Nat → Nat → List α → List α
  | 0, _, cells => cells
  | n + 1, k, cells => fillLoop x n (k + 1) (cells.set k x)

/-- The same, `value` being a reference to the element number `src`: it is read anew for each assignment. -/
def fillOwnLoop (src : Nat) : Nat → Nat → List α → List α
  | 0, _, cells => cells
  | n + 1, k, cells =>
    match cells[src]? with
    | some x => fillOwnLoop src n (k + 1) (cells.set k x)
    | none => cells

/-- The elements of the array number `a`. -/
def cellsOf (arrs : List (Arr α)) (a : Nat) : List α :=
  match arrs[a]? with
  | some A => A.cells
  | none => []

/-- Replace the elements of the array number `a`. -/
def putCells (arrs : List (Arr α)) (a : Nat) (cells : List α) : List (Arr α) :=
  arrs.modify a fun A => { A with cells := cells }

/-- array_nd.h l.608-619 `swap`: `std::iter_swap(it1++, it2++)` until `it1` is at the end; the arrays may be the same. -/
def swapLoop (a b : Nat) : Nat → Nat → List (Arr α) → List (Arr α)
  | 0, _, arrs => arrs
  | n + 1, k, arrs =>
    match (cellsOf arrs a)[k]?, (cellsOf arrs b)[k]? with
    | some x, some y =>
      let arrs' := putCells arrs a ((cellsOf arrs a).set k y)
      swapLoop a b n (k + 1) (putCells arrs' b ((cellsOf arrs' b).set k x))
    | _, _ => arrs

/-- The assignment the compiler provides: element by element; the arrays may be the same. -/
def copyLoop (a b : Nat) : Nat → Nat → List (Arr α) → List (Arr α)
  | 0, _, arrs => arrs
  | n + 1, k, arrs =>
    match (cellsOf arrs b)[k]? with
    | some y => copyLoop a b n (k + 1) (putCells arrs a ((cellsOf arrs a).set k y))
    | none => arrs

/-! ### Views -/

/-- array_view.h l.60-72, 239-241: from element strides. -/
def descsElem (sz : Nat) (ext strides : List Nat) : List Desc := elemDescs sz ext strides

/-- array_view.h l.74-86, 243-245: from byte strides; one dimension has none. -/
def descsByte (sz : Nat) (ext strides : List Nat) : List Desc :=
  match ext with
  | [e] => [⟨e, e, e * sz⟩]
  | _ => byteDescs ext strides

/-- array_view.h l.88-103: the descriptors of the proxy are copied; l.247-250: in one dimension only the size. -/
def descsOfRow (sz : Nat) (ds : List Desc) : List Desc :=
  match ds with
  | [d] => [⟨d.size, d.size, d.size * sz⟩]
  | _ => ds

/-- array_nd.h l.57-66 `plain_array_strides`: the total sizes of the shape and its sub-shapes, in bytes. -/
def plainStrides (sz : Nat) : List Nat → List Nat
  | [] => []
  | e :: es => totalSize (e :: es) * sz :: plainStrides sz es

/-- array_nd.h l.1273-1278 `view`: from `data()`, `dimensions()`, and `strides()` which skips the first (l.848-851). -/
def descsOfArr (sz : Nat) (ext : List Nat) : List Desc := descsByte sz ext (plainStrides sz ext).tail

/-- The view number `v`; using one after its end is undefined. -/
def view (s : St α) (v : Nat) : Out View :=
  match s.views[v]? with
  | some (some V) => .ok V
  | some none => .ub
  | none => .reject

/-- The descriptors a row looks at: those the view has now (array_proxy.h l.84-85). -/
def rowDescs (s : St α) (r : Row) : Out (List Desc) :=
  (view s r.view).bind fun V => .ok (V.descs.drop r.lvl)

def newView (s : St α) (V : View) : Out (St α × Res α) := .ok ({ s with views := s.views ++ [some V] }, .unit)
def newRow (s : St α) (r : Row) : Out (St α × Res α) := .ok ({ s with rows := s.rows ++ [r] }, .unit)
def setView (s : St α) (v : Nat) (V : Option View) : Out (St α × Res α) := .ok ({ s with views := s.views.set v V }, .unit)

/-- Read an element. -/
def getAt (sz : Nat) (s : St α) (a off : Nat) : Out (St α × Res α) :=
  (Out.get s.arrs[a]?).bind fun A => (load sz A.cells off).bind fun x => .ok (s, .val x)

/-- Write an element. -/
def setAt (sz : Nat) (s : St α) (a off : Nat) (x : α) : Out (St α × Res α) :=
  (Out.get s.arrs[a]?).bind fun A => (store sz A.cells off x).bind fun c => .ok ({ s with arrs := putCells s.arrs a c }, .unit)

/-- Read many elements. -/
def getAll (sz : Nat) (s : St α) (a : Nat) (offs : List Nat) : Out (St α × Res α) :=
  (Out.get s.arrs[a]?).bind fun A => (loadAll sz A.cells offs).bind fun xs => .ok (s, .vals xs)

/-- array_view.h l.182-187, array_proxy.h l.99-105: the sub-view number `i`, `off` bytes being the step. -/
def subOf (base : Nat) (ds : List Desc) (i : Nat) : Out Nat :=
  match ds with
  | _ :: d' :: _ => .ok (base + i * d'.offset)
  | _ => .reject

/-- One statement. -/
def step (sz : Nat) (s : St α) : Op α → Out (St α × Res α)
  | .arrAt a idx =>
    (Out.get s.arrs[a]?).bind fun A => (Out.get (arrAt sz 0 A.ext (idx.map Int.ofNat))).bind fun
      | .elem off => getAt sz s a off
      | _ => .ok (s, .threw)
  | .arrGet a idx =>
    (Out.get s.arrs[a]?).bind fun A => (Out.get (arrElem sz 0 A.ext idx)).bind fun off => getAt sz s a off
  | .arrSet a idx x =>
    (Out.get s.arrs[a]?).bind fun A => (Out.get (arrElem sz 0 A.ext idx)).bind fun off => setAt sz s a off x
  | .arrAll a => (Out.get s.arrs[a]?).bind fun A => getAll sz s a (arrIterOffs sz A.ext 0)
  | .arrPlain a =>
    (Out.get s.arrs[a]?).bind fun A => getAll sz s a (walk sz (totalSize A.ext * sz) (totalSize A.ext) 0)
  | .fill a x =>
    (Out.get s.arrs[a]?).bind fun A =>
      .ok ({ s with arrs := putCells s.arrs a (fillLoop x (totalSize A.ext) 0 A.cells) }, .unit)
  | .fillOwn a idx =>
    (Out.get s.arrs[a]?).bind fun A => (Out.get (arrElem sz 0 A.ext idx)).bind fun off =>
      (cellAt sz A.cells.length off).bind fun k =>
        .ok ({ s with arrs := putCells s.arrs a (fillOwnLoop k (totalSize A.ext) 0 A.cells) }, .unit)
  | .swap a b =>
    (Out.get s.arrs[a]?).bind fun A => (Out.get s.arrs[b]?).bind fun B =>
      if A.ext = B.ext then .ok ({ s with arrs := swapLoop a b (totalSize A.ext) 0 s.arrs }, .unit) else .reject
  | .copy a b =>
    (Out.get s.arrs[a]?).bind fun A => (Out.get s.arrs[b]?).bind fun B =>
      if A.ext = B.ext then .ok ({ s with arrs := copyLoop a b (totalSize A.ext) 0 s.arrs }, .unit) else .reject
  | .viewOf a => (Out.get s.arrs[a]?).bind fun A => newView s ⟨a, 0, descsOfArr sz A.ext⟩
  | .viewPart a start ext strides =>
    (Out.get s.arrs[a]?).bind fun _ =>
      if strides.length + 1 = ext.length then newView s ⟨a, start * sz, descsElem sz ext strides⟩ else .reject
  | .viewAgain v =>
    (view s v).bind fun V => newView s ⟨V.arr, V.base, descsByte sz (V.descs.map Desc.size) (V.descs.tail.map Desc.offset)⟩
  | .reshape v ext =>
    (view s v).bind fun V => if ext = [] then .reject else newView s ⟨V.arr, V.base, descsElem sz ext ext.tail⟩
  | .assign v w =>
    (view s v).bind fun V => (view s w).bind fun W =>
      if V.descs.length = W.descs.length then setView s v (some W) else .reject
  | .rebind v a =>
    (view s v).bind fun V => (Out.get s.arrs[a]?).bind fun _ => setView s v (some { V with arr := a, base := 0 })
  | .drop v => (view s v).bind fun _ => setView s v none
  | .viewInfo v => (view s v).bind fun V => .ok (s, .info (V.descs.map Desc.size) (V.descs.tail.map Desc.offset))
  | .viewGet v idx =>
    (view s v).bind fun V => (Out.get (elem sz V.base V.descs idx)).bind fun off => getAt sz s V.arr off
  | .viewSet v idx x =>
    (view s v).bind fun V => (Out.get (elem sz V.base V.descs idx)).bind fun off => setAt sz s V.arr off x
  | .viewAll v => (view s v).bind fun V => getAll sz s V.arr (iterOffs sz V.descs V.base)
  | .row v i =>
    (view s v).bind fun V => (subOf V.base V.descs i).bind fun b => newRow s ⟨V.arr, b, v, 1⟩
  | .subRow r i =>
    (Out.get s.rows[r]?).bind fun R => (rowDescs s R).bind fun ds =>
      (subOf R.base ds i).bind fun b => newRow s { R with base := b, lvl := R.lvl + 1 }
  | .rowGet r idx =>
    (Out.get s.rows[r]?).bind fun R => (rowDescs s R).bind fun ds =>
      (Out.get (elem sz R.base ds idx)).bind fun off => getAt sz s R.arr off
  | .rowSet r idx x =>
    (Out.get s.rows[r]?).bind fun R => (rowDescs s R).bind fun ds =>
      (Out.get (elem sz R.base ds idx)).bind fun off => setAt sz s R.arr off x
  | .rowAll r =>
    (Out.get s.rows[r]?).bind fun R => (rowDescs s R).bind fun ds => getAll sz s R.arr (iterOffs sz ds R.base)
  | .viewOfRow r =>
    (Out.get s.rows[r]?).bind fun R => (rowDescs s R).bind fun ds => newView s ⟨R.arr, R.base, descsOfRow sz ds⟩

/-- A program: the statements one after the other, with what each returns. -/
def run (sz : Nat) (s : St α) : List (Op α) → Out (St α × List (Res α))
  | [] => .ok (s, [])
  | op :: ops => (step sz s op).bind fun r => (run sz r.1 ops).bind fun q => .ok (q.1, r.2 :: q.2)

end Verif.ArrayNd
