import Verif.Model.Config

/-!
# Model of the conversions between scalars and text

`modules/config/yato/config/utility.h` and `utility.cpp`, and `config_value::get` of `config_backend.h`.

* A `std::string` is a list of characters, which stand for bytes; after the last one there is a zero byte.
* `char` is signed. `std::isspace` and `std::tolower` have undefined behaviour for a negative `char` other than -1.
* The locale is "C". `errno` is not modelled.
* Only the overloads for `std::string` are modelled here. Those for a pointer and a length are in `Decode`.
* `strtod`, `std::to_string(double)` and the arithmetic of `double` are parameters. `Reals` has them.
-/
set_option autoImplicit false

namespace Verif.ScalarText

open Verif.Config (Str)

/-- The outcome of a conversion: undefined behaviour; no value; or a value. -/
inductive Out (α : Type) | ub | fail | ok (v : α)
deriving DecidableEq, Repr

/-- the `char`s that may be passed to `std::isspace` and `std::tolower`: those not negative, and -1, which is `EOF` -/
def classified (c : Char) : Bool := decide (c.toNat < 128) || decide (c.toNat = 255)

/-- `std::isspace` in the "C" locale -/
def isSpace (c : Char) : Bool := decide (c.toNat = 32) || (decide (9 ≤ c.toNat) && decide (c.toNat ≤ 13))

/-- `skip_spaces` (utility.h l.25-32): the number of skipped characters, `none` for undefined behaviour. The zero byte after the string is not a space. -/
def skipSpaces : Str → Option Nat
  | [] => some 0
  | c :: r => if classified c then (if isSpace c then (skipSpaces r).map (· + 1) else some 0) else none

/-- `details::decode` (l.41-65). The decoder gives a value and the position where it has stopped, `none` for a null pointer; or has undefined behaviour. -/
def decode {α : Type} (decoder : Str → Option (α × Option Nat)) (s : Str) : Out α :=
  if s = [] then .fail
  else
    match skipSpaces s with
    | none => .ub
    | some b =>
      match decoder (s.drop b) with
      | none => .ub
      | some (_, none) => .fail
      | some (v, some e) =>
        if e = (s.drop b).length then .ok v
        else
          match skipSpaces ((s.drop b).drop e) with
          | none => .ub
          | some k => if e + k = (s.drop b).length then .ok v else .fail

/-! ## Integers -/

/-- the value of a digit in the bases up to 36; 99 for other characters -/
def digitVal (c : Char) : Nat :=
  if 48 ≤ c.toNat ∧ c.toNat ≤ 57 then c.toNat - 48
  else if 97 ≤ c.toNat ∧ c.toNat ≤ 122 then c.toNat - 87
  else if 65 ≤ c.toNat ∧ c.toNat ≤ 90 then c.toNat - 55
  else 99

/-- `strtoll`: the number that digits spell -/
def valueIn (base : Nat) (ds : Str) : Nat := ds.foldl (fun a c => a * base + digitVal c) 0

/-- `strtoll`: is there a minus, and the length of the sign -/
def signOf (s : Str) : Bool × Nat :=
  match s with
  | c :: _ => if c = '-' then (true, 1) else if c = '+' then (false, 1) else (false, 0)
  | [] => (false, 0)

/-- `strtoll` with base 0: the base, and the length of the prefix `0x`; the digits of an octal number begin with its prefix `0` -/
def baseOf (s : Str) : Nat × Nat :=
  match s with
  | [] => (10, 0)
  | c :: r =>
    if c = '0' then
      match r with
      | x :: d :: _ => if (x = 'x' ∨ x = 'X') ∧ digitVal d < 16 then (16, 2) else (8, 0)
      | _ => (8, 0)
    else (10, 0)

/-- `strtoll` gives the nearest number of type `long long` if the number is out of range -/
def clamp (n : Int) : Int := if n < -(2 ^ 63) then -(2 ^ 63) else if 2 ^ 63 - 1 < n then 2 ^ 63 - 1 else n

/-- the C function `strtoll(str, &end, 0)` -/
def strtoll (s : Str) : Int × Nat :=
  let w := (s.takeWhile isSpace).length
  let t := s.drop w
  let g := signOf t
  let u := t.drop g.2
  let b := baseOf u
  let ds := (u.drop b.2).takeWhile (fun c => decide (digitVal c < b.1))
  if ds = [] then (0, 0)
  else (clamp (if g.1 then -(valueIn b.1 ds : Int) else (valueIn b.1 ds : Int)), w + g.2 + b.2 + ds.length)

/-- `serializer<integer>::cvt_from(const std::string&, ...)` (l.84-93) -/
def decodeInt (s : Str) : Out Int := decode (fun t => some ((strtoll t).1, some (strtoll t).2)) s

/-- the character of a digit -/
def digitChar (d : Nat) : Char := Char.ofNat (48 + d)

/-- the decimal digits of a number -/
def decDigits (n : Nat) : Str :=
  if _h : n < 10 then [digitChar n] else decDigits (n / 10) ++ [digitChar (n % 10)]
termination_by n
decreasing_by omega

/-- `serializer<integer>::to_string` (l.78-81), `std::to_string(int64_t)` -/
def encodeInt (v : Int) : Str := if v < 0 then '-' :: decDigits v.natAbs else decDigits v.natAbs

/-! ## Booleans -/

/-- `true_patterns` and `false_patterns` (l.166-167) -/
def truePatterns : List Str := [['1'], ['y', 'e', 's'], ['y'], ['t', 'r', 'u', 'e'], ['t'], ['o', 'n']]
def falsePatterns : List Str := [['0'], ['n', 'o'], ['n'], ['f', 'a', 'l', 's', 'e'], ['f'], ['o', 'f', 'f']]

/-- `pattern_length` (l.168) -/
def patternLength : Nat := 6

/-- l.190-193: at most `pattern_length` characters up to a zero byte, in lower case -/
def lowered (s : Str) : Option Str :=
  let t := (s.take patternLength).takeWhile (fun c => decide (c.toNat ≠ 0))
  if t.all classified then some (t.map Char.toLower) else none

/-- `match` (l.171-185): the pattern is a prefix of the string, which is followed by zero bytes -/
def matches_ (pattern s : Str) : Bool := pattern.isPrefixOf s

/-- `strtobool` (l.188-212): the value, and the position after the word, `none` if there is none (`*str_end` is not written and stays null) -/
def strtobool (s : Str) : Option (Bool × Option Nat) :=
  match lowered s with
  | none => none
  | some t =>
    match truePatterns.find? (fun p => matches_ p t) with
    | some p => some (true, some p.length)
    | none =>
      match falsePatterns.find? (fun p => matches_ p t) with
      | some p => some (false, some p.length)
      | none => some (false, none)

/-- `serializer<boolean>::cvt_from(const std::string&, ...)` (l.221-230) -/
def decodeBool (s : Str) : Out Bool := decode strtobool s

/-- `serializer<boolean>::to_string` (l.215-218) -/
def encodeBool (b : Bool) : Str := if b then ['1'] else ['0']

/-! ## Conversions of stored values -/

/-- What is needed of `double`: `static_cast<int64_t>` (`none` for undefined behaviour), `static_cast<double>`, `==`, `std::to_string` and `strtod` with `decode`. -/
structure Real (R : Type) where
  toInt : R → Option Int
  ofInt : Int → R
  eq : R → R → Bool
  text : R → Str
  parse : Str → Out R

/-- `stored_type` (config_backend.h l.39-47) without configs -/
inductive Ty | integer | real | boolean | string
deriving DecidableEq, Repr

/-- `stored_variant` (l.249-256) without configs; empty is the alternative `void` -/
inductive Stored (R : Type) | empty | integer (n : Int) | real (r : R) | boolean (b : Bool) | string (s : Str)

/-- `cvt_from_string_` (utility.cpp l.47-57): the converted value, or the string itself; `none` for undefined behaviour -/
def fromString {R α : Type} (make : α → Stored R) (s : Str) (o : Out α) : Option (Stored R) :=
  match o with
  | .ub => none
  | .fail => some (.string s)
  | .ok v => some (make v)

/-- `value_converter::apply` (utility.cpp l.127-137) with the table of functions (l.74-118). `none` is undefined behaviour. -/
def apply {R : Type} (ops : Real R) (dst : Ty) (src : Stored R) : Option (Stored R) :=
  match src, dst with
  | .empty, _ => some .empty
  | .integer n, .integer => some (.integer n)
  | .real r, .real => some (.real r)
  | .boolean b, .boolean => some (.boolean b)
  | .string s, .string => some (.string s)
  | .string s, .integer => fromString .integer s (decodeInt s)
  | .string s, .real => fromString .real s (ops.parse s)
  | .string s, .boolean => fromString .boolean s (decodeBool s)
  | .integer n, .string => some (.string (encodeInt n))
  | .real r, .string => some (.string (ops.text r))
  | .boolean b, .string => some (.string (encodeBool b))
  | .real r, .integer =>
    match ops.toInt r with
    | none => none
    | some n => if ops.eq r (ops.ofInt n) then some (.integer n) else some .empty
  | .boolean b, .integer => some (.integer (if b then 1 else 0))
  | .integer n, .real => some (.real (ops.ofInt n))
  | .integer n, .boolean => some (.boolean (decide (n ≠ 0)))
  | .boolean _, .real => some .empty
  | .real _, .boolean => some .empty

/-- `variant::get_opt` for the type of the fetched values: the value if it has this type -/
def Stored.asType {R : Type} (v : Stored R) (t : Ty) : Stored R :=
  match v, t with
  | .integer n, .integer => .integer n
  | .real r, .real => .real r
  | .boolean b, .boolean => .boolean b
  | .string s, .string => .string s
  | _, _ => .empty

/-- `config_value::get<Ty_>(dst_type)` (config_backend.h l.304-311): an empty optional is `Stored.empty` -/
def get {R : Type} (ops : Real R) (dst : Ty) (src : Stored R) : Option (Stored R) := (apply ops dst src).map (fun v => v.asType dst)

end Verif.ScalarText
