import Verif.Model.Reals
import Verif.Props.C56_ScalarText
import Mathlib.Algebra.Order.Field.Rat
import Mathlib.Algebra.Order.Field.Power

/-!
# C103: real numbers in configs: specification

The numbers of the C++ types as rational numbers, what rounding means, and how numbers are spelled.
-/
set_option autoImplicit false

namespace Verif.Reals

open Verif.Config (Str)
open Verif.ScalarText (Number)

/-- The finite numbers of a binary format: `m * 2 ^ e` with `p` bits. -/
def IsBinary (p : Nat) (lo hi : Int) (x : ℚ) : Prop := ∃ m e : Int, |m| < 2 ^ p ∧ lo ≤ e ∧ e ≤ hi ∧ x = m * 2 ^ e

/-- the finite numbers of type `double` -/
def IsDouble (x : ℚ) : Prop := IsBinary 53 (-1074) 971 x

/-- the finite numbers of type `float` -/
def IsFloat (x : ℚ) : Prop := IsBinary 24 (-149) 104 x

/-- The rational number that a finite number is. -/
def val (neg : Bool) (k : Nat) : ℚ := (if neg then -1 else 1) * ((k : ℚ) / 2 ^ 1074)

/-- the numbers of type `double` -/
def Num.Double : Num → Prop
  | .fin neg k => IsDouble (val neg k)
  | _ => True

/-- the numbers of type `float` -/
def Num.Float : Num → Prop
  | .fin neg k => IsFloat (val neg k)
  | _ => True

/-- `x` is a number of the set nearest to `q`. -/
def Nearest (S : ℚ → Prop) (q x : ℚ) : Prop := S x ∧ ∀ y, S y → |x - q| ≤ |y - q|

/-- `x` is the conversion of a number of absolute value `a` to `double`: the nearest one, or infinity if that is too far above the largest, which is 2^1024 - 2^971. -/
def Rounded (neg : Bool) (a : ℚ) (x : Num) : Prop :=
  (∃ k, x = .fin neg k ∧ Nearest IsDouble a (val false k) ∧ a ≤ 2 ^ 1024 - 2 ^ 970) ∨ (x = .inf neg ∧ 2 ^ 1024 - 2 ^ 970 ≤ a)

/-- digits, with a point or without, that spell `v / base ^ f` -/
inductive Mantissa (base : Nat) : Str → Nat → Nat → Prop
  | whole (ds : Str) (v : Nat) : ds ≠ [] → Number base ds v → Mantissa base ds v 0
  | point (ds fs : Str) (v : Nat) : ds ++ fs ≠ [] → Number base (ds ++ fs) v → Mantissa base (ds ++ '.' :: fs) v fs.length

/-- a decimal exponent, or none -/
inductive Exponent (lo up : Char) : Str → Int → Prop
  | none : Exponent lo up [] 0
  | plain (c : Char) (ds : Str) (n : Nat) : c = lo ∨ c = up → ds ≠ [] → Number 10 ds n → Exponent lo up (c :: ds) n
  | plus (c : Char) (ds : Str) (n : Nat) : c = lo ∨ c = up → ds ≠ [] → Number 10 ds n → Exponent lo up (c :: '+' :: ds) n
  | minus (c : Char) (ds : Str) (n : Nat) : c = lo ∨ c = up → ds ≠ [] → Number 10 ds n → Exponent lo up (c :: '-' :: ds) (-n)

/-- decimal and hexadecimal numbers without a sign -/
inductive Magnitude : Str → ℚ → Prop
  | dec (m x : Str) (v f : Nat) (e : Int) : Mantissa 10 m v f → Exponent 'e' 'E' x e → Magnitude (m ++ x) (v / 10 ^ f * 10 ^ e)
  | hex (c : Char) (m x : Str) (v f : Nat) (e : Int) : c = 'x' ∨ c = 'X' → Mantissa 16 m v f → Exponent 'p' 'P' x e → Magnitude ('0' :: c :: (m ++ x)) (v / 16 ^ f * 2 ^ e)

/-- what may be written for a real number without a sign, and the number that is read for it -/
inductive Spelled (neg : Bool) : Str → Num → Prop
  | number (s : Str) (a : ℚ) (x : Num) : Magnitude s a → Rounded neg a x → Spelled neg s x
  | inf (s : Str) : s.map Char.toLower = ['i', 'n', 'f'] ∨ s.map Char.toLower = ['i', 'n', 'f', 'i', 'n', 'i', 't', 'y'] → Spelled neg s (.inf neg)
  | nan (s : Str) : s.map Char.toLower = ['n', 'a', 'n'] → Spelled neg s .nan
  | nanOf (s cs : Str) : s.map Char.toLower = ['n', 'a', 'n'] → (∀ c ∈ cs, c.isAlphanum = true ∨ c = '_') → Spelled neg (s ++ '(' :: (cs ++ [')'])) .nan

/-- real literals -/
inductive RealLit : Str → Num → Prop
  | plain (s : Str) (x : Num) : Spelled false s x → RealLit s x
  | plus (s : Str) (x : Num) : Spelled false s x → RealLit ('+' :: s) x
  | minus (s : Str) (x : Num) : Spelled true s x → RealLit ('-' :: s) x

/-- `s` is the number `neg`, `n / 10 ^ 6` with six decimals. -/
def SixDecimals (s : Str) (neg : Bool) (n : Nat) : Prop :=
  ∃ ds fs : Str, s = (if neg then ['-'] else []) ++ ds ++ '.' :: fs ∧ fs.length = 6 ∧ Number 10 (ds ++ fs) n ∧ (ds = ['0'] ∨ ∃ c r, ds = c :: r ∧ c ≠ '0')

/-- The types with `long double` in them. -/
def RTy.long : RTy → Bool
  | .ldouble => true
  | .opt t => t.long
  | .ptr t => t.long
  | _ => false

/-- A value that holds a finite number of the type. -/
def Holds : (t : RTy) → t.Val → Prop
  | .float, x => ∃ neg k, (show Num from x) = .fin neg k ∧ IsFloat (val neg k)
  | .double, _ => True
  | .ldouble, _ => True
  | .opt t, v => ∃ x, (show Option t.Val from v) = some x ∧ Holds t x
  | .ptr t, v => ∃ x, (show Option t.Val from v) = some x ∧ Holds t x

end Verif.Reals
