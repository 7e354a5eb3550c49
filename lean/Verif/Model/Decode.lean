import Verif.Model.Reals

/-!
# Model of the serializers of scalars

`modules/config/yato/config/utility.h`: the overloads of `serializer::cvt_from` for characters in memory with a length, and those for other scalars.

* Memory is the list of the characters that may be read from the pointer on. Reading behind the last of them is undefined behaviour.
* `char` is signed; see `ScalarText`.
-/
set_option autoImplicit false

namespace Verif.Decode

open Verif.Config (Str)
open Verif.ScalarText (Out Stored Ty Real classified isSpace decodeInt decodeBool encodeInt encodeBool strtoll strtobool patternLength)

/-- the zero byte -/
def nul : Char := Char.ofNat 0

/-- `skip_spaces` (l.25-32): the number of skipped characters, `none` for undefined behaviour -/
def skipMem : Str → Option Nat
  | [] => none
  | c :: r => if classified c then (if isSpace c then (skipMem r).map (· + 1) else some 0) else none

/-- The characters before the first zero byte; `none` if there is no zero byte, so that the memory does not hold a C string. -/
def cstr : Str → Option Str
  | [] => none
  | c :: r => if c = nul then some [] else (cstr r).map (c :: ·)

/-- What the caller may pass as a length: `yato::nolength`, or a number. -/
inductive Len
  | nolength
  | count (n : Nat)
deriving DecidableEq, Repr

/-- l.45-50: the length from the first character that is not a space on. For a C string this is `strlen`; otherwise the spaces are subtracted, and if there are more of them than characters `beg + len`
overflows, which is undefined behaviour, as is a position behind the end of the memory. -/
def restLen (mem : Str) (b : Nat) : Len → Option Nat
  | .nolength => (cstr (mem.drop b)).map List.length
  | .count n => if b ≤ n ∧ n ≤ mem.length then some (n - b) else none

/-- `details::decode` (l.41-65); a null pointer is `none` -/
def decodeMem {α : Type} (decoder : Str → Option (α × Option Nat)) (str : Option Str) (len : Len) : Out α :=
  match str with
  | none => .fail
  | some mem =>
    if len = .count 0 then .fail
    else
      match skipMem mem with
      | none => .ub
      | some b =>
        match restLen mem b len, decoder (mem.drop b) with
        | none, _ => .ub
        | _, none => .ub
        | _, some (_, none) => .fail
        | some l, some (v, some e) =>
          if e = l then .ok v
          else
            match skipMem ((mem.drop b).drop e) with
            | none => .ub
            | some k => if e + k = l then .ok v else .fail

/-- A function of the C library for C strings: it is undefined if there is no zero byte. -/
def library {α : Type} (f : Str → α × Nat) (mem : Str) : Option (α × Option Nat) :=
  match cstr mem with
  | none => none
  | some s => some ((f s).1, some (f s).2)

/-- `serializer<integer>::cvt_from(const char*, size_t, ...)` (l.83-87) -/
def intMem (str : Option Str) (len : Len) : Out Int := decodeMem (library strtoll) str len

/-- `serializer<real>::cvt_from(const char*, size_t, ...)` (l.128-132) -/
def realMem (str : Option Str) (len : Len) : Out Reals.Num := decodeMem (library Reals.strtod) str len

/-- `strtobool` (l.188-212) reads characters up to a zero byte, and at most one more than `pattern_length` of them (l.191). -/
def boolDecoder (mem : Str) : Option (Bool × Option Nat) :=
  if nul ∈ mem.take (patternLength + 1) ∨ patternLength + 1 ≤ mem.length then strtobool (mem.takeWhile (fun c => decide (c ≠ nul))) else none

/-- `serializer<boolean>::cvt_from(const char*, size_t, ...)` (l.220-224) -/
def boolMem (str : Option Str) (len : Len) : Out Bool := decodeMem boolDecoder str len

/-- `serializer<string>::cvt_from(const char*, size_t, ...)` (l.272-299); the destination is not null -/
def stringMem (str : Option Str) (len : Len) : Out Str :=
  match str, len with
  | none, .count 0 => .ok []
  | none, _ => .fail
  | some _, .count 0 => .ok []
  | some mem, .count n => if n ≤ mem.length then .ok (mem.take n) else .ub
  | some mem, .nolength =>
    match cstr mem with
    | none => .ub
    | some s => .ok s

/-- `serializer<DstTy_>::cvt_from(src, &tmp)` for the scalars (l.89-114, l.134-158, l.226-258, l.301-330); `fail` is the result `false`. There is no overload for an empty variant. -/
def convert {R : Type} (ops : Real R) (dst : Ty) (src : Stored R) : Out (Stored R) :=
  let of {α : Type} (make : α → Stored R) (o : Out α) : Out (Stored R) := match o with | .ub => .ub | .fail => .fail | .ok v => .ok (make v)
  match src, dst with
  | .empty, _ => .fail
  | .string s, .integer => of .integer (decodeInt s)
  | .integer n, .integer => .ok (.integer n)
  | .real r, .integer => match ops.toInt r with | none => .ub | some n => .ok (.integer n)
  | .boolean b, .integer => .ok (.integer (if b then 1 else 0))
  | .string s, .real => of .real (ops.parse s)
  | .integer n, .real => .ok (.real (ops.ofInt n))
  | .real r, .real => .ok (.real r)
  | .boolean _, .real => .fail
  | .string s, .boolean => of .boolean (decodeBool s)
  | .integer n, .boolean => if n = 0 then .ok (.boolean false) else if n = 1 then .ok (.boolean true) else .fail
  | .real _, .boolean => .fail
  | .boolean b, .boolean => .ok (.boolean b)
  | .string s, .string => .ok (.string s)
  | .integer n, .string => .ok (.string (encodeInt n))
  | .real r, .string => .ok (.string (ops.text r))
  | .boolean b, .string => .ok (.string (encodeBool b))

/-- `cvt_from(src, dst, dst_type)` (l.334-362): the result and the variant afterwards; `none` is undefined behaviour. The destination `none` is a type without a serializer. -/
def convertInto {R : Type} (ops : Real R) (dst : Option Ty) (src var : Stored R) : Option (Bool × Stored R) :=
  match dst with
  | none => some (false, var)
  | some t =>
    match convert ops t src with
    | .ub => none
    | .fail => some (false, var)
    | .ok v => some (true, v)

end Verif.Decode
