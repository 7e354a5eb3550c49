import Verif.Model.Ranges

/-!
Model of integer conversions and of the code built on them: `narrow_cast` (`/repo/include/yato/types.h` l.48-59),
`numeric_iterator` (`numeric_iterator.h`), `numeric_range` (`range.h` l.244-262), `lookup_table` with integer arguments
(`lookup_table.h` l.72-159, 225-310).

C++ arithmetic is modelled on mathematical integers: a value of an integer type is an integer in its range; conversions wrap
(two's complement); unsigned arithmetic wraps; signed overflow is undefined (`none`); operands narrower than `int` are
promoted to `int` first.
-/
set_option autoImplicit false

namespace Verif.Numeric

/-- A C++ integer type. -/
structure IntTy where
  signed : Bool
  bits : Nat
deriving DecidableEq, Repr

def IntTy.lo (t : IntTy) : Int := if t.signed then -2 ^ (t.bits - 1) else 0
def IntTy.hi (t : IntTy) : Int := if t.signed then 2 ^ (t.bits - 1) else 2 ^ t.bits
/-- The values of the type: `lo ≤ x < hi`. -/
def IntTy.Mem (t : IntTy) (x : Int) : Prop := t.lo ≤ x ∧ x < t.hi

/-- Conversion to the type: the value congruent modulo `2^bits` in its range. -/
def IntTy.conv (t : IntTy) (x : Int) : Int := (x - t.lo) % 2 ^ t.bits + t.lo

def i32 : IntTy := ⟨true, 32⟩
def i64 : IntTy := ⟨true, 64⟩
def u32 : IntTy := ⟨false, 32⟩
def u64 : IntTy := ⟨false, 64⟩

/-- Integer promotion: types narrower than `int` become `int`. -/
def IntTy.promote (t : IntTy) : IntTy := if t.bits < 32 then i32 else t

/-- The result of an arithmetic operation in type `t` whose mathematical value is `x`. -/
def IntTy.arith (t : IntTy) (x : Int) : Option Int :=
  if t.signed then (if t.lo ≤ x ∧ x < t.hi then some x else none) else some (t.conv x)

/-! ### narrow_cast -/

/-- The two assertions of `narrow_cast<TypeTo>(val)` (types.h l.56-57): the round trip is exact, and if the types differ in
signedness the result has the same sign (l.25-44). -/
def narrowOk (src dst : IntTy) (v : Int) : Bool :=
  decide (v = src.conv (dst.conv v)) && (src.signed == dst.signed || (decide (dst.conv v < 0) == decide (v < 0)))

/-- `narrow_cast` in a checked build: `none` is the failed assertion. -/
def narrowCast (src dst : IntTy) (v : Int) : Option Int := if narrowOk src dst v then some (dst.conv v) else none

/-! ### numeric_iterator -/

/-- Outcome of an operation in a checked build. -/
inductive Out where
  | val (v : Int)
  | assert
  | ub
deriving DecidableEq, Repr

/-- `operator++` (numeric_iterator.h l.66-72) in a checked build. -/
def inc (t : IntTy) (v : Int) : Out := if v < t.hi - 1 then .val (v + 1) else .assert
/-- `operator--` (l.82-87) in a checked build. -/
def dec (t : IntTy) (v : Int) : Out := if v > t.lo then .val (v - 1) else .assert

/-- `operator-(const this_type&)` (l.123-126): computed in the promoted type, converted to `ptrdiff_t`; `none` is overflow. -/
def dist (t : IntTy) (a b : Int) : Option Int := (t.promote.arith (a - b)).map i64.conv

/-- `operator+=(difference_type)` (l.97-102) in a release build: the offset is converted to the value type and added in the
promoted type, the sum converted back. -/
def plus (t : IntTy) (a off : Int) : Option Int := (t.promote.arith (a + t.conv off)).map t.conv

/-- The same in a checked build: `narrow_cast` checks the conversion of the offset, then
`m_value <= max - narrow_cast(offset)` is asserted, itself computed in the promoted type. -/
def plusChecked (t : IntTy) (a off : Int) : Out :=
  match narrowCast i64 t off with
  | none => .assert
  | some o =>
    match t.promote.arith (t.hi - 1 - o) with
    | none => .ub
    | some m =>
      if a ≤ m then
        match t.promote.arith (a + o) with
        | none => .ub
        | some s => .val (t.conv s)
      else .assert

/-- `operator-=(difference_type)` (l.110-115) in a release build. -/
def minusOff (t : IntTy) (a off : Int) : Option Int := (t.promote.arith (a - t.conv off)).map t.conv

/-- The same in a checked build: `m_value >= min + narrow_cast(offset)` is asserted, computed in the promoted type. -/
def minusChecked (t : IntTy) (a off : Int) : Out :=
  match narrowCast i64 t off with
  | none => .assert
  | some o =>
    match t.promote.arith (t.lo + o) with
    | none => .ub
    | some m =>
      if a ≥ m then
        match t.promote.arith (a - o) with
        | none => .ub
        | some s => .val (t.conv s)
      else .assert

/-- `numeric_iterator` as an iterator: `operator*` returns a reference to the value held by the iterator. -/
def numIter (t : IntTy) : Ranges.Iter Int Int :=
  { deref := fun v => some v
    next := fun v => if v < t.hi - 1 then some (v + 1) else none
    prev := fun v => if v > t.lo then some (v - 1) else none
    ne := fun a b => a != b
    stash := true
    copy := fun v => some v }

/-- `numeric_range(first, last)` (range.h l.255-262). -/
def numericRange (t : IntTy) (a b : Int) : Ranges.Rng Int := ⟨Int, numIter t, a, b⟩

/-! ### lookup_table with `int32_t` arguments -/

/-- What `init_base_` stores (lookup_table.h l.110-120): first, length and the two cached coefficients; the table size
is `n`.  `2 * table_size * m_first` is computed in `size_t`; `none` is overflow of an `int32_t` operation. -/
structure Lut where
  n : Nat
  first : Int
  length : Int
  c0 : Int
  c1 : Int
deriving DecidableEq, Repr

def lutInit (n : Nat) (first last : Int) : Option Lut :=
  (i32.arith (last - first)).bind fun len =>
  (i32.arith (len - i32.conv (u64.conv (2 * n * first)))).bind fun c0 =>
  (i32.arith (2 * len)).map fun c1 => ⟨n, first, len, c0, c1⟩

/-- The argument of sample `idx` (l.121-124): `(first * (N - 1) + idx * (last - first)) / (N - 1)` in `size_t`, converted back. -/
def sampleArg (n : Nat) (first last : Int) (idx : Nat) : Int :=
  i32.conv (u64.conv (first * (n - 1 : Nat) + idx * (last - first)) / (n - 1 : Nat))

/-- `get_index_<1>` (l.128-132): in `size_t`, converted to `int32_t`.  Division by zero is undefined. -/
def index1 (t : Lut) (x : Int) : Option Int :=
  if u64.conv t.c1 = 0 then none else some (i32.conv (u64.conv (2 * (t.n - 1 : Nat) * x + t.c0) / u64.conv t.c1))

/-- `fetch_<1>` (l.145-149): the sample read; an index outside the array is undefined. -/
def fetch1 (t : Lut) (x : Int) : Option Nat :=
  (index1 t x).bind fun i => if 0 ≤ i ∧ i < t.n then some i.toNat else none

/-- `get_index_<2>` (l.134-143): index and fixed point weight with 10 bits.  `x - m_first` is computed in `int32_t`. -/
def index2 (t : Lut) (x : Int) : Option (Int × Int) :=
  (i32.arith (x - t.first)).bind fun d =>
  if u64.conv t.length = 0 then none else
    let tmp := i64.conv (u64.conv (1024 * (t.n - 1 : Nat) * d) / u64.conv t.length)
    let idx := min (i32.conv (tmp / 1024)) ((t.n : Int) - 2)
    some (idx, u32.conv (i32.conv (tmp - idx * 1024)))

/-- `lut_linear_interpolator::operator()` for a value type `int32_t` (l.245-247): `(one - a) * s0 + a * s1` and the division are
computed in `uint32_t`, the result is converted to the value type. -/
def linear (a s0 s1 : Int) : Int :=
  i32.conv (u32.conv (u32.conv (1024 - a) * u32.conv s0 + a * u32.conv s1) / 1024)

/-- `lookup_table::get` with the linear interpolator over a table of `f` (l.303-308). -/
def getLinear (n : Nat) (first last : Int) (f : Int → Int) (x : Int) : Option Int :=
  (lutInit n first last).bind fun t => (index2 t x).bind fun ia =>
    if 0 ≤ ia.1 ∧ ia.1 + 1 < t.n then
      some (linear ia.2 (f (sampleArg n first last ia.1.toNat)) (f (sampleArg n first last (ia.1.toNat + 1))))
    else none

end Verif.Numeric
