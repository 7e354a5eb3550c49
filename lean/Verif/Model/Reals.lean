import Verif.Model.ScalarText

/-!
# Model of real numbers in configs

`modules/config/yato/config/utility.h`, `utility.cpp`, `config_backend.h`, `config_builder.h`, `config_builder.cpp` and `containers.h`: what happens to values of the types `float`, `double` and
`long double`. `ScalarText` models the conversions of stored values for any arithmetic of `double`; here the arithmetic is that of IEC 60559.

* Numbers are counted in units of 2^-1074, the smallest positive `double`: a finite number is a sign and a natural number of units.
* Conversions round to the nearest number, and to the even one of two. There is one NaN, without a sign.
* The functions of the C library (`strtod`, `std::to_string`, which is `sprintf("%f")`) are modelled after the C standard, with exact rounding, in the "C" locale.
-/
set_option autoImplicit false

namespace Verif.Reals

open Verif.Config (Str)
open Verif.ScalarText (Out Stored Ty isSpace digitVal valueIn signOf decDigits digitChar decode)

/-- A format: `p` bits, multiples of `2 ^ low` units, less than `2 ^ top` units. -/
structure Fmt where
  p : Nat
  low : Nat
  top : Nat
deriving DecidableEq, Repr

/-- One is `2 ^ unit` units. -/
def unit : Nat := 1074

/-- `double` -/
def binary64 : Fmt := ⟨53, 0, 2098⟩

/-- `float`: multiples of 2^-149 below 2^128 -/
def binary32 : Fmt := ⟨24, 925, 1202⟩

/-- A number of either type. -/
inductive Num
  | nan
  | inf (neg : Bool)
  | fin (neg : Bool) (k : Nat)
deriving DecidableEq, Repr

/-- The numbers near `k` are multiples of two to this power. -/
def Fmt.spacing (f : Fmt) (k : Nat) : Nat := max f.low (k.log2 + 1 - f.p)

/-- `n / d`, rounded to the nearest integer, and to the even one of two -/
def halfEven (n d : Nat) : Nat :=
  if 2 * (n % d) < d then n / d
  else if d < 2 * (n % d) then n / d + 1
  else if n / d % 2 = 0 then n / d
  else n / d + 1

/-- The number of units nearest to `n / d` if there were no largest number. -/
def Fmt.near (f : Fmt) (n d : Nat) : Nat := halfEven n (d * 2 ^ f.spacing (n / d)) * 2 ^ f.spacing (n / d)

/-- The conversion of a number with the absolute value `n / d` units. -/
def Fmt.round (f : Fmt) (neg : Bool) (n d : Nat) : Num := if f.near n d < 2 ^ f.top then .fin neg (f.near n d) else .inf neg

/-- `static_cast<double>` of an `int64_t` (utility.cpp l.98, l.111) -/
def ofInt (n : Int) : Num := binary64.round (decide (n < 0)) (n.natAbs * 2 ^ unit) 1

/-- `static_cast<int64_t>` of a `double` (utility.cpp l.96): undefined if the number without its fraction does not fit -/
def toInt : Num → Option Int
  | .fin neg k =>
    let n : Int := if neg then -((k / 2 ^ unit : Nat) : Int) else ((k / 2 ^ unit : Nat) : Int)
    if -(2 ^ 63) ≤ n ∧ n < 2 ^ 63 then some n else none
  | _ => none

/-- `==` (utility.cpp l.98) -/
def eq : Num → Num → Bool
  | .fin a k, .fin b l => decide (k = l) && (decide (a = b) || decide (k = 0))
  | .inf a, .inf b => decide (a = b)
  | _, _ => false

/-- the last six digits of a number -/
def sixDigits (n : Nat) : Str :=
  [digitChar (n / 100000 % 10), digitChar (n / 10000 % 10), digitChar (n / 1000 % 10), digitChar (n / 100 % 10), digitChar (n / 10 % 10), digitChar (n % 10)]

/-- `serializer<real>::to_string` (utility.h l.122-126), `std::to_string(double)`: six decimals -/
def text : Num → Str
  | .nan => ['n', 'a', 'n']
  | .inf neg => (if neg then ['-'] else []) ++ ['i', 'n', 'f']
  | .fin neg k =>
    let n := halfEven (k * 10 ^ 6) (2 ^ unit)
    (if neg then ['-'] else []) ++ (decDigits (n / 10 ^ 6) ++ '.' :: sixDigits (n % 10 ^ 6))

/-- `strtod`: digits with a point: the number without the point, the number of digits after it, and the length -/
def mantissa (base : Nat) (s : Str) : Option (Nat × Nat × Nat) :=
  let ds := s.takeWhile (fun c => decide (digitVal c < base))
  match s.drop ds.length with
  | '.' :: r =>
    let fs := r.takeWhile (fun c => decide (digitVal c < base))
    if ds = [] ∧ fs = [] then none else some (valueIn base (ds ++ fs), fs.length, ds.length + 1 + fs.length)
  | _ => if ds = [] then none else some (valueIn base ds, 0, ds.length)

/-- `strtod`: an exponent, which begins with one of the given letters, and its length -/
def exponent (lo up : Char) (s : Str) : Int × Nat :=
  match s with
  | c :: r =>
    if c = lo ∨ c = up then
      let g := signOf r
      let ds := (r.drop g.2).takeWhile (fun c => decide (digitVal c < 10))
      if ds = [] then (0, 0) else (if g.1 then -(valueIn 10 ds : Int) else (valueIn 10 ds : Int), 1 + g.2 + ds.length)
    else (0, 0)
  | [] => (0, 0)

/-- The double nearest to `v * base ^ e`. -/
def scaled (neg : Bool) (v base : Nat) (e : Int) : Num :=
  if 0 ≤ e then binary64.round neg (v * base ^ e.toNat * 2 ^ unit) 1 else binary64.round neg (v * 2 ^ unit) (base ^ (-e).toNat)

/-- `strtod`: the letters of a word, in lower or upper case -/
def begins (w s : Str) : Bool := decide ((s.take w.length).map Char.toLower = w)

/-- `strtod`: what may follow `nan`: letters, digits and underscores in parentheses -/
def nanTail (s : Str) : Nat :=
  match s with
  | '(' :: r =>
    let cs := r.takeWhile (fun c => decide (digitVal c < 36) || decide (c = '_'))
    match r.drop cs.length with
    | ')' :: _ => cs.length + 2
    | _ => 0
  | _ => 0

/-- `strtod`: what follows the prefix `0x` -/
def hexTail (s : Str) : Option Str :=
  match s with
  | c :: x :: r => if c = '0' ∧ (x = 'x' ∨ x = 'X') then some r else none
  | _ => none

/-- `strtod`: hexadecimal numbers, with their length -/
def hexNumber (neg : Bool) (s : Str) : Option (Num × Nat) :=
  (hexTail s).bind fun r => (mantissa 16 r).map fun m =>
    (scaled neg m.1 2 ((exponent 'p' 'P' (r.drop m.2.2)).1 - 4 * m.2.1), 2 + m.2.2 + (exponent 'p' 'P' (r.drop m.2.2)).2)

/-- `strtod`: decimal numbers, with their length -/
def decNumber (neg : Bool) (s : Str) : Option (Num × Nat) :=
  (mantissa 10 s).map fun m => (scaled neg m.1 10 ((exponent 'e' 'E' (s.drop m.2.2)).1 - m.2.1), m.2.2 + (exponent 'e' 'E' (s.drop m.2.2)).2)

/-- `strtod` after the sign: the value and the length, `none` if there is no number -/
def unsigned (neg : Bool) (s : Str) : Option (Num × Nat) :=
  if begins ['i', 'n', 'f', 'i', 'n', 'i', 't', 'y'] s then some (.inf neg, 8)
  else if begins ['i', 'n', 'f'] s then some (.inf neg, 3)
  else if begins ['n', 'a', 'n'] s then some (.nan, 3 + nanTail (s.drop 3))
  else
    match hexNumber neg s with
    | some r => some r
    | none => decNumber neg s

/-- the C function `strtod(str, &end)`: the value and the position of the end -/
def strtod (s : Str) : Num × Nat :=
  let w := (s.takeWhile isSpace).length
  let t := s.drop w
  let g := signOf t
  match unsigned g.1 (t.drop g.2) with
  | some (x, l) => (x, w + g.2 + l)
  | none => (.fin false 0, 0)

/-- `serializer<real>::cvt_from(const std::string&, ...)` (utility.h l.128-138) -/
def decodeReal (s : Str) : Out Num := decode (fun t => some ((strtod t).1, some (strtod t).2)) s

/-- The arithmetic of `double` for the conversions of stored values. -/
def ops : ScalarText.Real Num := ⟨toInt, ofInt, eq, text, decodeReal⟩

/-! ## The C++ types -/

/-- `float`, `double`, `long double`; and optionals and smart pointers, which have the converters of containers.h l.73-113 and smart_pointers.h. `long double` is taken to be no wider than `double`;
its values do not matter below. -/
inductive RTy
  | float
  | double
  | ldouble
  | opt (t : RTy)
  | ptr (t : RTy)
deriving DecidableEq, Repr

/-- The values. -/
def RTy.Val : RTy → Type
  | .float => Num
  | .double => Num
  | .ldouble => Num
  | .opt t => Option t.Val
  | .ptr t => Option t.Val

/-- The outcome of a call: the program ends by a failed assertion, undefined behaviour, an exception, or a result. -/
inductive Ret (α : Type)
  | abort
  | ub
  | error
  | ok (a : α)
deriving DecidableEq, Repr

/-- Does `store` of the converter exist (config_backend.h l.104-112)? `checked_limits_converter` (l.132-141) has none; the converters of containers call that of their contents. -/
def stores : RTy → Bool
  | .float => false
  | .double => true
  | .ldouble => true
  | .opt t => stores t
  | .ptr t => stores t

/-- Does `put(name, value)` compile (config_builder.h l.154, l.160, l.190-197)? `float` and `double` have overloads of their own. -/
def puts : RTy → Bool
  | .float => true
  | t => stores t

/-- `invoke_store` (config.h l.185-190). For `long double`, `identity_converter::store` (config_backend.h l.104-107) returns a reference to a temporary `double`; for an empty optional `value()`
throws, and a null pointer is dereferenced. -/
def store : (t : RTy) → t.Val → Ret Num
  | .float, x => .ok x
  | .double, x => .ok x
  | .ldouble, _ => .ub
  | .opt t, v => match v with | some x => store t x | none => .error
  | .ptr t, v => match v with | some x => store t x | none => .ub

/-- `skip` (containers.h l.82-85, l.103-106; smart_pointers.h l.34-37, l.55-58) -/
def skip : (t : RTy) → t.Val → Bool
  | .opt _, v => Option.isNone v
  | .ptr _, v => Option.isNone v
  | _, _ => false

/-- `put(name, value)` (config_builder.h l.190-197, config_builder.cpp l.145-155): the value that is stored under the name, if one is. Converting a `float` to `double` changes nothing. -/
def put (t : RTy) (v : t.Val) : Ret (Option Num) :=
  if skip t v then .ok none
  else
    match store t v with
    | .ok x => .ok (some x)
    | .ub => .ub
    | .abort => .abort
    | .error => .error

/-- the largest `float` -/
def floatMax : Nat := 2 ^ 1202 - 2 ^ 1178

/-- `checked_limits_converter<float, double>` (config_backend.h l.132-141) in a debug or a release build -/
def toFloat (debug : Bool) : Num → Ret Num
  | .nan => if debug then .abort else .ok .nan
  | .inf neg => if debug then .abort else .ok (.inf neg)
  | .fin neg k => if k ≤ floatMax then .ok (binary32.round neg k 1) else if debug then .abort else .ub

/-- `invoke_load` (config.h l.171-176). For `long double`, `identity_converter::load` (config_backend.h l.94-97) returns a reference to a temporary. -/
def load (debug : Bool) : (t : RTy) → Num → Ret t.Val
  | .float, x => toFloat debug x
  | .double, x => .ok x
  | .ldouble, _ => .ub
  | .opt t, x => match load debug t x with | .ok v => .ok (some v) | .ub => .ub | .abort => .abort | .error => .error
  | .ptr t, x => match load debug t x with | .ok v => .ok (some v) | .ub => .ub | .abort => .abort | .error => .error

/-- `value<T>()` of an entry (config.h l.331-341) with the given stored value: `none` is an empty optional -/
def value (debug : Bool) (t : RTy) (v : Stored Num) : Ret (Option t.Val) :=
  match ScalarText.get ops .real v with
  | none => .ub
  | some (.real x) => match load debug t x with | .ok y => .ok (some y) | .ub => .ub | .abort => .abort | .error => .error
  | some _ => .ok none

end Verif.Reals
