/-!
# Model of the call of methods by pointer (`/repo/include/yato/invoke.h` l.16-40, `/repo/include/yato/type_traits.h` l.165-208)

`yato::invoke(obj, method, args...)` calls a method by a pointer to member for an object given directly or by a pointer. Two overloads of templates
compete; each takes part only if its call is well formed. Modelled: which of them are viable, which one is chosen, and on which object it calls the
method. Simplifications: the arguments fit the method; no volatile; base classes are accessible and unambiguous; the version for compilers other than
MSVC, where `is_pointer` or `is_smart_ptr` is asked for.
-/
set_option autoImplicit false

namespace Verif.Invoke

/-- The reference qualifier of a method. -/
inductive Ref | no | lvalue | rvalue
deriving DecidableEq, Repr

/-- A pointer to a method: the class that it is a member of, and its qualifiers. -/
structure Method where
  cls : Nat
  isConst : Bool
  ref : Ref
deriving DecidableEq, Repr

/-- The kinds of pointer-like classes: those `is_smart_ptr` knows (type_traits.h l.199-208), `std::weak_ptr`, which has no `operator*`, and other
classes with an `operator*` (for instance `yato::not_null`, not_null.h l.26-140). -/
inductive Smart | unique | shared | weak | other
deriving DecidableEq, Repr

/-- An object: its identity, its class, and whether it may not be changed through the name or the pointer at hand. -/
structure Obj where
  id : Nat
  cls : Nat
  isConst : Bool
deriving DecidableEq, Repr

/-- What is given as `obj`: an object of a class that is not pointer-like, a raw pointer, or an object of a pointer-like class (with its own identity
and class). `to` is the pointee; `none`: the pointer is null, and `cls`, `isConst` are those of the pointee's type. -/
inductive Given
  | object (o : Obj)
  | raw (to : Option Nat) (cls : Nat) (isConst : Bool)
  | smart (k : Smart) (self : Obj) (to : Option Nat) (cls : Nat) (isConst : Bool)
deriving DecidableEq, Repr

/-- The argument: what is given, whether the expression is an rvalue, and, for a raw pointer, nothing else: its own constness does not matter. -/
structure Arg where
  given : Given
  rvalue : Bool
deriving DecidableEq, Repr

/-- The outcome: the program does not compile, the null pointer is dereferenced, or the method is called on the object. -/
inductive Outcome
  | illFormed
  | ub
  | call (id : Nat)
deriving DecidableEq, Repr

variable (derives : Nat → Nat → Bool)

/-- Whether `(x.*method)(args...)` is well formed for an **lvalue** `x`, as `obj` and `*obj` are in both overloads (invoke.h l.29, l.31, l.37, l.39):
the class is the one of the method or derived from it, a const object needs a const method, and a method for rvalues cannot be called. -/
def callable (cls : Nat) (isConst : Bool) (m : Method) : Bool :=
  (cls == m.cls || derives cls m.cls) && (!isConst || m.isConst) && m.ref != .rvalue

/-- Whether the first overload takes part (invoke.h l.27-32): a raw pointer or a smart pointer that `is_smart_ptr` knows, and the call on `*obj` is
well formed. The constness of the pointee is that of the type (`*obj` of a const pointer is not const). -/
def viable1 (a : Arg) (m : Method) : Bool :=
  match a.given with
  | .object _ => false
  | .raw _ c k => callable derives c k m
  | .smart .unique _ _ c k => callable derives c k m
  | .smart .shared _ _ c k => callable derives c k m
  | .smart .weak _ _ _ _ => false
  | .smart .other _ _ _ _ => false

/-- Whether the second overload takes part (invoke.h l.35-40): the call on `obj` itself is well formed. -/
def viable2 (a : Arg) (m : Method) : Bool :=
  match a.given with
  | .object o => callable derives o.cls o.isConst m
  | .raw _ _ _ => false
  | .smart _ self _ _ _ => callable derives self.cls self.isConst m

/-- The call by the first overload (invoke.h l.31). -/
def run1 (a : Arg) : Outcome :=
  match a.given with
  | .object _ => .illFormed
  | .raw none _ _ => .ub
  | .raw (some i) _ _ => .call i
  | .smart _ _ none _ _ => .ub
  | .smart _ _ (some i) _ _ => .call i

/-- The call by the second overload (invoke.h l.39). -/
def run2 (a : Arg) : Outcome :=
  match a.given with
  | .object o => .call o.id
  | .raw _ _ _ => .illFormed
  | .smart _ self _ _ _ => .call self.id

/-- Whether `obj` itself is const, for the choice of the overload. -/
def selfConst (g : Given) : Bool :=
  match g with
  | .object o => o.isConst
  | .raw _ _ _ => false
  | .smart _ self _ _ _ => self.isConst

/-- `yato::invoke` (invoke.h l.27-40). If both take part, `_Class &&` is the better match for an rvalue and for an lvalue that is not const; for a
const lvalue both parameters are `const _Class &`, and the first overload is more specialized. -/
def invoke (a : Arg) (m : Method) : Outcome :=
  match viable1 derives a m, viable2 derives a m with
  | false, false => .illFormed
  | true, false => run1 a
  | false, true => run2 a
  | true, true => if a.rvalue || !selfConst a.given then run2 a else run1 a

end Verif.Invoke
