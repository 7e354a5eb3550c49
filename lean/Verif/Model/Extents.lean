import Verif.Model.Numeric

/-!
# Model of the extents of containers with the arithmetic of their size type

`dimensionality` and `dims` (`/repo/include/yato/container_base.h`), and the vectors whose storage is sized by them (`vector_nd.h`).
Other models take extents as natural numbers; here they are values of a C++ integer type (`IntTy`, Model/Numeric.lean) and products are
computed in it. Checked build: a failed assertion is an outcome.
-/
set_option autoImplicit false

namespace Verif.Extents

open Verif.Numeric

/-- Outcome of an operation: a value, a failed assertion, an exception, undefined behaviour. -/
inductive Out (α : Type) where
  | val (a : α)
  | assert
  | throws
  | ub
deriving DecidableEq, Repr

/-- An argument of `dims`: its type and value. -/
structure Arg where
  ty : IntTy
  val : Int
deriving DecidableEq, Repr

/-- `dims<SizeType>(extents...)` (container_base.h l.435-441): each argument goes through `narrow_cast` (types.h l.48-59), whose
assertion may fail. Also `strides<SizeType>(offsets...)` (container_base.h l.602-608). -/
def dims (t : IntTy) : List Arg → Out (List Int)
  | [] => .val []
  | a :: as =>
    match narrowCast a.ty t a.val with
    | none => .assert
    | some v =>
      match dims t as with
      | .val vs => .val (v :: vs)
      | o => o

/-- `dimensionality(const range&)` (container_base.h l.185-191, 325-328): the number of values is asserted, unless there are no
dimensions; `std::copy` converts each value without a check. Also `strides_array(const range&)` (l.486-492, 545-548). -/
def ofRange (t : IntTy) (n : Nat) (vs : List Int) : Out (List Int) :=
  if n = 0 then .val []
  else if vs.length = n then .val (vs.map t.conv) else .assert

/-- A product in the size type: the operands are promoted, the result is converted back; `none` is overflow of a signed type. -/
def mul (t : IntTy) (a b : Int) : Option Int := (t.promote.arith (a * b)).map t.conv

/-- The recursion of `total_size_impl_` (container_base.h l.160-166) on the extents from `idx` on: the last extent, or the first times the rest. -/
def totalImpl (t : IntTy) : List Int → Option Int
  | [] => some 0
  | [e] => some e
  | e :: e' :: es =>
    match totalImpl t (e' :: es) with
    | none => none
    | some r => mul t e r

/-- `total_size(start_dim)` (container_base.h l.238-242, 375-379): `idx >= dimensions_number - 1` stops at the last extent, whatever `idx` is. -/
def total (t : IntTy) (es : List Int) (start : Nat := 0) : Out Int :=
  match totalImpl t (es.drop (if start ≥ es.length - 1 then es.length - 1 else start)) with
  | none => .ub
  | some v => .val v

/-- `operator[]` (container_base.h l.204-214, 341-351): unchecked, but throws if there are no dimensions. -/
def get (es : List Int) (i : Nat) : Out Int :=
  match es with
  | [] => .throws
  | _ =>
    match es[i]? with
    | none => .ub
    | some v => .val v

/-- `at` (container_base.h l.216-224, 353-361). -/
def at' (es : List Int) (i : Nat) : Out Int :=
  match es[i]? with
  | none => .throws
  | some v => .val v

/-- `front` (container_base.h l.244-254, 381-391). -/
def front (es : List Int) : Out Int :=
  match es.head? with
  | none => .throws
  | some v => .val v

/-- `back` (container_base.h l.256-266, 393-403). -/
def back (es : List Int) : Out Int :=
  match es.getLast? with
  | none => .throws
  | some v => .val v

/-- `sub_dims` (container_base.h l.288-292, 425-429): the range constructor for one dimension less, of the extents but the first. -/
def subDims (t : IntTy) (es : List Int) : Out (List Int) := ofRange t (es.length - 1) es.tail

/-- The type in which integers of two types are compared: both are promoted, and then the wider one is taken, or the unsigned one if
the signed one is not wider. -/
def common (a b : IntTy) : IntTy :=
  let a := a.promote
  let b := b.promote
  if a.signed = b.signed then (if a.bits < b.bits then b else a)
  else if a.signed then (if a.bits > b.bits then a else b)
  else (if b.bits > a.bits then b else a)

/-- `operator==` of extents of two size types (container_base.h l.295-300), and of strides (l.584-589): `std::equal` compares value by value. The numbers
of dimensions are the same, otherwise it does not compile. -/
def equal (t u : IntTy) : List Int → List Int → Bool
  | x :: xs, y :: ys => decide ((common t u).conv x = (common t u).conv y) && equal t u xs ys
  | _, _ => true

/-! ### Vectors -/

/-- `init_sizes_` (vector_nd.h l.786-792): size and total of each dimension, in `size_t`. -/
def descriptors : List Int → List (Int × Int)
  | [] => []
  | e :: es =>
    match descriptors es with
    | [] => [(e, e)]
    | d :: ds => (e, u64.conv (e * d.2)) :: d :: ds

/-- A vector: the descriptors and the number of elements in the storage. The elements are left out. -/
structure Vec where
  descr : List (Int × Int)
  store : Int
deriving DecidableEq, Repr

/-- `vector_nd::total_size` (vector_nd.h l.1527-1534). -/
def Vec.total (v : Vec) : Int :=
  match v.descr with
  | [] => 0
  | d :: _ => d.2

/-- The constructors from sizes (vector_nd.h l.908-930) with `init_from_value` (l.198-216): storage for as many elements as the total says.
The allocation is taken to succeed. -/
def construct (es : List Int) : Vec := ⟨descriptors es, Vec.total ⟨descriptors es, 0⟩⟩

/-- `reshape` (vector_nd.h l.1161-1193, 2407-2439): refused (`none`) if the totals differ; the storage is moved (l.1029-1040), or
copied to one of the same size (l.936-948). -/
def reshape (v : Vec) (es : List Int) : Option Vec :=
  match totalImpl u64 es with
  | none => none
  | some n => if n = v.total then some ⟨descriptors es, v.store⟩ else none

/-- Access to an element by an index for each dimension: `operator[]` of the vector (vector_nd.h l.1216-1230 with l.758-761) and then of
rows (array_proxy.h l.99-105, 157-162, 526-531). Each index is asserted to be less than the size of its dimension. The pointer moves by the
index times the total of the next dimension, computed in `size_t`; leaving the storage is undefined. Simplification: an element is one byte. Another number of indices (the last line) does not compile. -/
def access (store : Int) : List (Int × Int) → List Int → Int → Out Int
  | [d], [i], base =>
    if i < d.1 then (if 0 ≤ base + i ∧ base + i < store then .val (base + i) else .ub) else .assert
  | d :: d' :: ds, i :: is, base =>
    if i < d.1 then
      (if 0 ≤ base + u64.conv (i * d'.2) ∧ base + u64.conv (i * d'.2) ≤ store then access store (d' :: ds) is (base + u64.conv (i * d'.2)) else .ub)
    else .assert
  | _, _, _ => .throws

/-- The element of a vector. -/
def Vec.get (v : Vec) (is : List Int) : Out Int := access v.store v.descr is 0

end Verif.Extents
