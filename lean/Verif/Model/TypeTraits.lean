/-!
Model of the type computations of `/repo/include/yato/type_traits.h` and `primitive_types.h`: integer types by size,
`narrowest_fit_*`, qualifiers (`take_cv_from`, `remove_cvref`, ...), packs (`is_same`, `one_of`, `has_trait`) and signatures of
callables (`is_callable`, `callable_trait`, `make_function`).

A template instantiation is a function call; an instantiation which does not compile, or a class template without the asked
member, is `none`.  Simplifications: the extra workarounds for MSVC 2013 are left out; `is_iterator`, `is_invocable`, the member
detection macros and `disable_if` only pass on what the compiler finds and are not modelled.
-/
set_option autoImplicit false

namespace Verif.TypeTraits

/-! ## Fixed size types -/

inductive Tag where
  | signed | unsigned | floating
deriving DecidableEq, Repr

/-- The types `make_type` can give, and `void`. -/
inductive Num where
  | int (bits : Nat) | uint (bits : Nat) | float (bits : Nat) | void
deriving DecidableEq, Repr

/-- `make_type<Tag, Size>::type` (primitive_types.h l.70-134). -/
def makeType : Tag → Nat → Option Num
  | .signed, 8 => some (.int 8)
  | .signed, 16 => some (.int 16)
  | .signed, 32 => some (.int 32)
  | .signed, 64 => some (.int 64)
  | .unsigned, 8 => some (.uint 8)
  | .unsigned, 16 => some (.uint 16)
  | .unsigned, 32 => some (.uint 32)
  | .unsigned, 64 => some (.uint 64)
  | .floating, 32 => some (.float 32)
  | .floating, 64 => some (.float 64)
  | .floating, 80 => some (.float 80)
  | _, _ => none

/-- `std::numeric_limits<T>::min()` and `max()` of an integer type. -/
def limits : Num → Option (Int × Int)
  | .int b => some (-(2 : Int) ^ (b - 1), (2 : Int) ^ (b - 1) - 1)
  | .uint b => some (0, (2 : Int) ^ b - 1)
  | _ => none

/-- `static_cast` of an integer to `uint64_t` or `int64_t`. -/
def cast64 (isSigned : Bool) (x : Int) : Int :=
  let m := x % 18446744073709551616
  if isSigned && m ≥ 9223372036854775808 then m - 18446744073709551616 else m

/-- `fits_type<DstType, ValueType, Value>` (type_traits.h l.536-541), `isSigned` says which of the two `ValueType`s is meant. -/
def fitsType (dst : Num) (isSigned : Bool) (v : Int) : Option Bool :=
  (limits dst).map fun (lo, hi) => decide (v ≥ cast64 isSigned lo) && decide (v ≤ cast64 isSigned hi)

/-- `narrowest_fit_impl<Tag, ValueType, Value, Size>` (type_traits.h l.543-558).  The recursion doubles the size; a size of zero
does not compile. -/
def narrowestFit (tag : Tag) (isSigned : Bool) (v : Int) (size : Nat) : Option Num :=
  if size > 64 then some .void
  else if size = 0 then none
  else do
    let t ← makeType tag size
    let next ← narrowestFit tag isSigned v (2 * size)
    let fits ← fitsType t isSigned v
    some (if fits then t else next)
termination_by 65 - size

/-- `narrowest_fit_unsigned_t<Value>` (type_traits.h l.561-562, 567-568). -/
def narrowestFitUnsigned (v : Int) : Option Num := narrowestFit .unsigned false v 8

/-- `narrowest_fit_signed_t<Value>` (type_traits.h l.564-565, 570-571). -/
def narrowestFitSigned (v : Int) : Option Num := narrowestFit .signed true v 8

/-- `wider_type<Ty_>::type` (type_traits.h l.129-143) for the integer types. -/
def widerType : Num → Option Num
  | .uint 8 => some (.uint 16)
  | .uint 16 => some (.uint 32)
  | .uint 32 => some (.uint 64)
  | .uint 64 => some (.uint 64)
  | .int 8 => some (.int 16)
  | .int 16 => some (.int 32)
  | .int 32 => some (.int 64)
  | .int 64 => some (.int 64)
  | .float 32 => some (.float 64)
  | .float 64 => some (.float 80)
  | _ => none

/-! ## Qualifiers -/

/-- C++ types, as far as qualifiers go.  `obj` is any class, enumeration, arithmetic type or `void`, by number; the two flags are
`const` and `volatile`.  An array has the qualifiers of its elements; references and functions have none. -/
inductive Ty where
  | obj (c v : Bool) (n : Nat)
  | ptr (c v : Bool) (to : Ty)
  | arr (size : Nat) (elem : Ty)
  | lref (to : Ty)
  | rref (to : Ty)
  | fn (n : Nat)
deriving DecidableEq, Repr

/-- `std::is_const`. -/
def Ty.isConst : Ty → Bool
  | .obj c _ _ => c
  | .ptr c _ _ => c
  | .arr _ e => e.isConst
  | _ => false

/-- `std::is_volatile`. -/
def Ty.isVolatile : Ty → Bool
  | .obj _ v _ => v
  | .ptr _ v _ => v
  | .arr _ e => e.isVolatile
  | _ => false

/-- `std::add_const`. -/
def Ty.addConst : Ty → Ty
  | .obj _ v n => .obj true v n
  | .ptr _ v t => .ptr true v t
  | .arr k e => .arr k e.addConst
  | t => t

/-- `std::add_volatile`. -/
def Ty.addVolatile : Ty → Ty
  | .obj c _ n => .obj c true n
  | .ptr c _ t => .ptr c true t
  | .arr k e => .arr k e.addVolatile
  | t => t

/-- `std::remove_cv`. -/
def Ty.removeCv : Ty → Ty
  | .obj _ _ n => .obj false false n
  | .ptr _ _ t => .ptr false false t
  | .arr k e => .arr k e.removeCv
  | t => t

/-- `std::remove_reference`. -/
def Ty.removeReference : Ty → Ty
  | .lref t => t
  | .rref t => t
  | t => t

/-- `std::add_lvalue_reference`: an rvalue reference becomes an lvalue reference to the same type. -/
def Ty.addLvalueReference : Ty → Ty
  | .lref t => .lref t
  | .rref t => .lref t
  | t => .lref t

/-- `take_const_from` (type_traits.h l.577-584). -/
def takeConstFrom (a b : Ty) : Ty := if a.isConst then b.addConst else b

/-- `take_volatile_from` (type_traits.h l.589-596). -/
def takeVolatileFrom (a b : Ty) : Ty := if a.isVolatile then b.addVolatile else b

/-- `take_cv_from` (type_traits.h l.601-605). -/
def takeCvFrom (a b : Ty) : Ty := takeConstFrom a (takeVolatileFrom a b)

/-- `remove_cvref` (type_traits.h l.153-160). -/
def removeCvref (t : Ty) : Ty := t.removeReference.removeCv

/-- `add_lvalue_reference_to_const` (type_traits.h l.647-654); `void` is left out. -/
def addLvalueReferenceToConst (t : Ty) : Ty := t.addConst.addLvalueReference

/-! ## Packs -/

/-- `is_same<T1, T2, T...>` (type_traits.h l.241-251). -/
def isSame {T : Type} [DecidableEq T] : T → T → List T → Bool
  | a, b, [] => a = b
  | a, b, c :: rest => decide (a = b) && isSame b c rest

/-- `one_of<T, Some, Others...>` (type_traits.h l.257-265). -/
def oneOf {T : Type} [DecidableEq T] (t : T) : T → List T → Bool
  | a, [] => t = a
  | a, b :: rest => decide (t = a) || oneOf t b rest

/-- `has_trait<Trait, T1, T...>` (type_traits.h l.271-281). -/
def hasTrait {T : Type} (p : T → Bool) : T → List T → Bool
  | a, [] => p a
  | a, b :: rest => p a && hasTrait p b rest

/-! ## Callables -/

/-- A function type without a class: result, arguments, C variadic, `noexcept`. -/
structure Sig where
  ret : Ty
  args : List Ty
  variadic : Bool := false
  isNoexcept : Bool := false
deriving DecidableEq, Repr

inductive RefQual where
  | none | lvalue | rvalue
deriving DecidableEq, Repr

/-- The type of a pointer to a member function `R (C::*)(Args...) cv ref noexcept`. -/
structure Mem where
  cls : Nat
  isConst : Bool := false
  isVolatile : Bool := false
  ref : RefQual := .none
  sig : Sig
deriving DecidableEq, Repr

/-- One declaration of `operator()` of a class. -/
inductive Op where
  | plain (m : Mem)
  | template
deriving DecidableEq, Repr

/-- Types which can be asked for their signature; the two flags of a pointer are its own `const` and `volatile`. -/
inductive Callee where
  | fnPtr (c v : Bool) (s : Sig)
  | memPtr (c v : Bool) (m : Mem)
  /-- a function type, no pointer -/
  | func (s : Sig)
  /-- a class, possibly qualified, with its `operator()`s; closures and `std::function` are classes with one -/
  | cls (c v : Bool) (ops : List Op)
  /-- any other type -/
  | other (t : Ty)
deriving DecidableEq, Repr

/-- `noexcept` belongs to the type from C++17 on (the build uses C++20, CMakeLists.txt l.28). -/
def Sig.matchesPlain (cxx17 : Bool) (s : Sig) : Bool := !s.variadic && !(cxx17 && s.isNoexcept)

/-- Is `T` of the form `Ret(Clazz::*)(Args...)` with `const`/`volatile` (l.318-336, 390-412)? -/
def Mem.matchesPlain (cxx17 : Bool) (m : Mem) : Bool := m.sig.matchesPlain cxx17 && m.ref = .none

/-- `is_function_pointer` (type_traits.h l.308-336). -/
def isFunctionPointer (cxx17 : Bool) : Callee → Bool
  | .fnPtr c v s => !c && !v && s.matchesPlain cxx17
  | .memPtr c v m => !c && !v && m.matchesPlain cxx17
  | _ => false

/-- The type of `&T::operator()` if there is one (l.371). -/
def opPtr : Callee → Option Mem
  | .cls _ _ [.plain m] => some m
  | _ => none

/-- `has_operator_round_brackets` (type_traits.h l.365-373). -/
def hasOperatorRoundBrackets (t : Callee) : Bool := (opPtr t).isSome

/-- `is_callable` (type_traits.h l.376-379). -/
def isCallable (cxx17 : Bool) (t : Callee) : Bool := hasOperatorRoundBrackets t || isFunctionPointer cxx17 t

/-- `remove_class` (type_traits.h l.387-422): a pointer to function type `R(*)(Args...)`, by its signature. -/
def removeClass (cxx17 : Bool) : Callee → Option Sig
  | .fnPtr _ _ s => if s.matchesPlain cxx17 then some { ret := s.ret, args := s.args } else none
  | .memPtr _ _ m => if m.matchesPlain cxx17 then some { ret := m.sig.ret, args := m.sig.args } else none
  | _ => none

/-- What `callable_trait` tells: `result_type`, `arguments_list`, `arguments_num` (type_traits.h l.447-463). -/
structure Trait where
  resultType : Ty
  argumentsList : List Ty
  argumentsNum : Nat
deriving DecidableEq, Repr

/-- `function_trait<R(*)(Args...)>` (type_traits.h l.447-463). -/
def functionTrait (s : Sig) : Trait :=
  { resultType := s.ret, argumentsList := s.args, argumentsNum := s.args.length }

/-- `callable_trait<T>` (type_traits.h l.494-506).  `none`: the trait has no members, or naming it does not compile. -/
def callableTrait (cxx17 : Bool) (t : Callee) : Option Trait :=
  if isFunctionPointer cxx17 t then (removeClass cxx17 t).map functionTrait
  else match opPtr t with
    | some m => (removeClass cxx17 (.memPtr false false m)).map functionTrait
    | none => none

/-- `callable_trait<T>::arg<I>::type` (type_traits.h l.455-459, meta.h `list_at`). -/
def Trait.arg (t : Trait) (i : Nat) : Option Ty := t.argumentsList[i]?

/-- `make_function` (type_traits.h l.511-516) called with an expression of type `t` (a function name has a function type): the
signature of the `std::function` it returns.  A pointer to a member function cannot be called with its arguments alone, so
`std::function` refuses it. -/
def makeFunction (cxx17 : Bool) (t : Callee) : Option Sig :=
  match t with
  | .memPtr .. => none
  | _ => (callableTrait cxx17 t).map fun tr => { ret := tr.resultType, args := tr.argumentsList }

end Verif.TypeTraits
