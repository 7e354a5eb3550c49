import Verif.Model.Numeric
import Verif.Model.Views

/-!
# Model of how the members of a sampler are found and used (`/repo/include/yato/container_nd.h` l.788-1104, 1183-1209)

A sampler is any class; `sampler_traits` looks which members it has and uses a default in the place of one that it does not find.
Model/Views.lean has what is read, given the functions of the sampler; here these functions come from the declaration of the class.
-/
set_option autoImplicit false

namespace Verif.SamplerMembers

open Verif.Numeric (IntTy)

/-- The reference qualifier of a member function. -/
inductive Ref | no | lvalue | rvalue
deriving DecidableEq, Repr

/-- How a member function of a sampler is declared: as a template (over the dimension, or over the type of the value), `const`, with a reference
qualifier, and whether its return type is exactly the documented one (`bool`, `size_t`) or another that converts to it.
Its parameters accept the arguments. -/
structure Decl where
  isTemplate : Bool
  isConst : Bool
  ref : Ref
  exact : Bool
deriving DecidableEq, Repr

/-- Whether the member can be called on `std::declval<Sampler>()`, a sampler that is not const and an rvalue. -/
def Decl.onDeclval (m : Decl) : Bool :=
  match m.ref with
  | .lvalue => m.isConst
  | _ => true

/-- Whether it can be called on a named sampler, const or not. -/
def Decl.onNamed (m : Decl) (isConst : Bool) : Bool :=
  match m.ref with
  | .rvalue => false
  | _ => m.isConst || !isConst

/-- `has_check_index_method` (container_nd.h l.804-814) and `has_transform_index_method` (l.816-826): with a template argument, and the type of the
result has to be the same. -/
def Decl.foundIndex (m : Decl) : Bool := m.isTemplate && m.onDeclval && m.exact

/-- `has_transform_value_method` (container_nd.h l.828-838): without a template argument (it may be deduced), the result is of any type. -/
def Decl.foundValue (m : Decl) : Bool := m.onDeclval

/-- `has_boundary_value_method` (container_nd.h l.840-850): with a template argument, the result is of any type. -/
def Decl.foundBoundary (m : Decl) : Bool := m.isTemplate && m.onDeclval

/-- What a result is: a value, or a reference to something that outlives the call. -/
inductive Ret | value | ref
deriving DecidableEq, Repr

/-- A class of samplers. The functions are those that its members compute, on indices of its `index_type`. -/
structure Cls where
  indexTy : Option IntTy
  check : Option (Decl × (Nat → Int → Nat → Bool))
  transform : Option (Decl × (Nat → Int → Nat → Nat))
  value : Option (Decl × Ret)
  boundary : Option (Decl × Ret)
  /-- `return_type<ValueType>`, if the class has it -/
  returnTy : Option Ret

/-- How the sampler is given: `load<S>(c, ...)`, `at<S>(c, ...)`, `loads(s, c, ...)`, `ats(s, c, ...)`, the latter with a sampler that is an lvalue, a const
lvalue or an rvalue. -/
inductive Given | made | lvalue | constLvalue | rvalue
deriving DecidableEq, Repr

/-- Whether the sampler is const inside `load_impl_` and `at_impl_` (container_nd.h l.881-942, 1183-1209): an rvalue binds to `const Sampler&`. -/
def Given.isConst : Given → Bool
  | .lvalue => false
  | _ => true

/-- The type of the indices (container_nd.h l.873), `size_t` by default. -/
def Cls.index (c : Cls) : IntTy :=
  match c.indexTy with
  | some t => t
  | none => Numeric.u64

/-- `invoke_check_index_` (container_nd.h l.1048-1061): the member if it was found, or `in_idx < size`, compared in `size_t`. `none`: it
was found, but cannot be called. Simplification: index types of at most 64 bits. -/
def Cls.checkFn (c : Cls) (g : Given) : Option (Nat → Int → Nat → Bool) :=
  match c.check with
  | some (m, f) =>
    if m.foundIndex then (if m.onNamed g.isConst then some f else none)
    else some fun _ i n => decide (Numeric.u64.conv i < n)
  | none => some fun _ i n => decide (Numeric.u64.conv i < n)

/-- `invoke_transform_index_` (container_nd.h l.1063-1075): the member if it was found, or the index (a release build does not check the
`narrow_cast`). -/
def Cls.transformFn (c : Cls) (g : Given) : Option (Nat → Int → Nat → Nat) :=
  match c.transform with
  | some (m, f) =>
    if m.foundIndex then (if m.onNamed g.isConst then some f else none)
    else some fun _ i _ => (Numeric.u64.conv i).toNat
  | none => some fun _ i _ => (Numeric.u64.conv i).toNat

/-- `invoke_boundary_value_` in `load_impl_` (container_nd.h l.955-960, 1091-1103): `some (some r)` if the sampler's member is used, `some none` for the
exception, `none` if it does not compile. -/
def Cls.boundaryUse (c : Cls) (g : Given) : Option (Option Ret) :=
  match c.boundary with
  | some (m, r) => if m.foundBoundary then (if m.onNamed g.isConst then some (some r) else none) else some none
  | none => some none

/-- `invoke_transform_value_` (container_nd.h l.954, 961, 1077-1089): likewise, `some none` if the value is returned as it is. -/
def Cls.valueUse (c : Cls) (g : Given) : Option (Option Ret) :=
  match c.value with
  | some (m, r) => if m.foundValue then (if m.onNamed g.isConst then some (some r) else none) else some none
  | none => some none

/-- The sampler as `load` uses it, `none` if it does not compile (container_nd.h l.950-963). -/
def Cls.sampler (c : Cls) (g : Given) : Option Views.Sampler :=
  match c.checkFn g, c.transformFn g, c.boundaryUse g, c.valueUse g with
  | some check, some transform, some b, some _ =>
    some { conv := c.index.conv, check := check, transform := transform, boundary := b.isSome }
  | _, _, _, _ => none

/-- The sampler as `at` uses it (container_nd.h l.965-975): without `transform_value` and `boundary_value`. -/
def Cls.samplerAt (c : Cls) (g : Given) : Option Views.Sampler :=
  match c.checkFn g, c.transformFn g with
  | some check, some transform => some { conv := c.index.conv, check := check, transform := transform, boundary := false }
  | _, _ => none

/-- What `load` gives: a value, a reference to an element or to something of the sampler, or a reference to what is gone. -/
inductive Result | value | element | other | dangling
deriving DecidableEq, Repr

/-- A result of `r` returned as `return_type` (container_nd.h l.790-802, 875-876: a reference to const by default): a value returned as a reference is gone. -/
def Cls.give (c : Cls) (r : Ret) (src : Result) : Result :=
  match c.returnTy with
  | some .value => .value
  | _ =>
    match r with
    | .value => .dangling
    | .ref => src

/-- What `load` gives in range (container_nd.h l.961-962, 1077-1089). The element is bound to the parameter `const ValueType&`; `elem` is whether the container
gives a reference to the element or a value, which is gone after the call. -/
def Cls.loadInRange (c : Cls) (g : Given) (elem : Ret) : Option Result :=
  match c.valueUse g with
  | none => none
  | some none => some (c.give elem .element)
  | some (some r) => some (c.give r .other)

/-- What `load` gives out of range (container_nd.h l.958-960, 1091-1103): `some none` is the exception. -/
def Cls.loadOutside (c : Cls) (g : Given) : Option (Option Result) :=
  match c.boundaryUse g with
  | none => none
  | some none => some none
  | some (some r) => some (some (c.give r .other))

end Verif.SamplerMembers
