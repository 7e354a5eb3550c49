import Verif.Model.Reals
import Verif.Model.Numeric

/-!
# Model of casts between floating-point types and of the literals

`include/yato/types.h` l.62-72 (`float_cast`) and l.102-175 (the literals `_s8` to `_u64`, `_f32`, `_f64` and `_f80`), with the types of `primitive_types.h` l.46-56.

* Numbers are those of `Reals` (a sign and a number of units, an infinity, or the one NaN), but a unit is 2^-16494 here, so that all formats of `long double` can be expressed.
* `float` and `double` have the formats of IEC 60559. `long double` is the same as `double` (Microsoft), the 80-bit format of x87, or the 128-bit format.
* Conversions round to the nearest number, and to the even one of two. The standard leaves that to the implementation.
* A failed assertion (`assertion.h` l.103-111, l.165-176) is one outcome, whether the program is aborted or an exception is thrown.
-/
set_option autoImplicit false

namespace Verif.FloatCast

open Verif.Reals (Fmt Num)
open Verif.Numeric (IntTy)

/-- One is `2 ^ unit` units. -/
def unit : Nat := 16494

/-- What `long double` is. -/
inductive LongDouble
  | binary64
  | x87
  | binary128
deriving DecidableEq, Repr

/-- The floating-point types (primitive_types.h l.46-56). -/
inductive FTy
  | float32
  | float64
  | float80
deriving DecidableEq, Repr

/-- The format of a type: its bits, the power of two (in units) that all numbers are multiples of, and the one that they are less than. -/
def fmt (ld : LongDouble) : FTy → Fmt
  | .float32 => ⟨24, 16345, 16622⟩
  | .float64 => ⟨53, 15420, 17518⟩
  | .float80 =>
    match ld with
    | .binary64 => ⟨53, 15420, 17518⟩
    | .x87 => ⟨64, 49, 32878⟩
    | .binary128 => ⟨113, 0, 32878⟩

/-- `std::numeric_limits<T>::max()`, in units -/
def maxUnits (f : Fmt) : Nat := 2 ^ f.top - 2 ^ (f.top - f.p)

/-- How a program is compiled: with assertions or without, what `long double` is, and whether the conversion of a number beyond the largest one is defined as in IEC 60559. For the C++ standard it is not. -/
structure Env where
  checked : Bool
  ld : LongDouble
  iec : Bool
deriving DecidableEq, Repr

/-- What a call comes to. -/
inductive Out (α : Type)
  | ok (v : α)
  | assert
  | ub
deriving DecidableEq, Repr

/-- `static_cast` to a floating-point type (types.h l.70-71, l.158, l.165, l.172) -/
def cast (e : Env) (dst : FTy) : Num → Out Num
  | .nan => .ok .nan
  | .inf neg => .ok (.inf neg)
  | .fin neg k => if k ≤ maxUnits (fmt e.ld dst) || e.iec then .ok ((fmt e.ld dst).round neg k 1) else .ub

/-- `float_cast` (types.h l.62-72) -/
def floatCast (e : Env) (src dst : FTy) (x : Num) : Out Num :=
  if e.checked then
    match cast e dst x with
    | .ok y =>
      match cast e src y with
      | .ok z => if Reals.eq x z then cast e dst x else .assert -- l.70
      | .assert => .assert
      | .ub => .ub
    | .assert => .assert
    | .ub => .ub
  else cast e dst x -- l.71

/-- `lowest() <= number && number <= max()`, both converted to `long double` (types.h l.157, l.164, l.171) -/
def inRange (f : Fmt) : Num → Bool
  | .nan => false
  | .inf _ => false
  | .fin _ k => decide (k ≤ maxUnits f)

/-- The literals `_f32`, `_f64` and `_f80` called with a `long double` (types.h l.154-173). -/
def realLiteral (e : Env) (dst : FTy) (number : Num) : Out Num :=
  if e.checked && !inRange (fmt e.ld dst) number then .assert else cast e dst number

/-- a finite number, if it is one -/
def finite : Num → Option Num
  | .fin neg k => some (.fin neg k)
  | _ => none

/-- The `long double` that the compiler makes of the digits that spell `n / d`; a number that is too large is an error. -/
def digits (ld : LongDouble) (n d : Nat) : Option Num := finite ((fmt ld .float80).round false (n * 2 ^ unit) d)

/-- A literal as it is written in a program: digits that spell `n / d` and a suffix. `none` is an error of the compiler. -/
def realWritten (e : Env) (dst : FTy) (n d : Nat) : Option (Out Num) := (digits e.ld n d).map (realLiteral e dst)

/-- The literals `_s8` to `_u64` called with an `unsigned long long` (types.h l.106-152): a `narrow_cast`, that is checked or not (l.48-59). -/
def intLiteral (e : Env) (dst : IntTy) (number : Nat) : Out Int :=
  if e.checked then
    match Numeric.narrowCast Numeric.u64 dst number with
    | some v => .ok v
    | none => .assert
  else .ok (dst.conv number)

/-- A minus before a literal. It is not a part of the literal: it is applied to the result, after promotion to `int`. -/
def minus (t : IntTy) : Out Int → Out Int
  | .ok v =>
    match t.promote.arith (-v) with
    | some w => .ok w
    | none => .ub
  | .assert => .assert
  | .ub => .ub

end Verif.FloatCast
