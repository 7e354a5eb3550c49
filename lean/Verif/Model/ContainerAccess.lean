/-!
Model of the access to elements through the generic interface of containers: `subscript`, `csubscript`, `data` and `cdata` of
`container_ops` (`/repo/include/yato/container_nd.h`).

A container is given by its elements and by what its operators, methods and iterators hand out. The outcome `refused` means that the call
does not compile.

Simplifications: of a reference or pointer only the place it leads to and whether it can be written through are kept, and one converts to
another if it does not add the right to write; the flags of the traits are those deduced from the operators and methods, none of which is
restricted to lvalues; an element is a row if there are several dimensions; indices are mathematical integers.
-/
set_option autoImplicit false

namespace Verif.ContAccess

/-- What can be done through a reference or a pointer. -/
inductive Right where
  | read
  | write
deriving DecidableEq, Repr

/-- `std::is_convertible` between references or pointers to the same type. -/
def Right.converts : Right → Right → Bool
  | .read, .write => false
  | _, _ => true

/-- The outcome of an access: for `data`, the place is that of the first element. -/
inductive Out where
  | refused
  | ub
  | place (i : Nat) (r : Right)
deriving DecidableEq, Repr

/-- What the traits of a container (container_nd.h l.122-317, for C arrays l.339-380, for `std::array` l.388-431, for `std::vector`
l.439-482) find about its elements. A missing operator or method is `none`. -/
structure Cont where
  /-- the number of elements -/
  size : Nat
  /-- whether it is a C array, which has the operator `[]` and which `std::data` accepts -/
  array : Bool
  /-- the types `reference` and `const_reference` (l.192-200) -/
  ref : Right
  cref : Right
  /-- the type `value_type`: `read` if it is `const` -/
  value : Right
  /-- what an iterator from `std::begin` leads to, for a container and for a `const` container -/
  iter : Right
  citer : Right
  /-- what `c[i]` gives, for a container and for a `const` container -/
  sub : Option Right
  csub : Option Right
  /-- what `c.data()` gives, for a container and for a `const` container -/
  data : Option Right
  dataC : Option Right
  /-- what `c.cdata()` gives -/
  cdata : Option Right
  /-- the type `const_value_pointer` (l.218-221): that of the container if it has one, otherwise a pointer to `const` -/
  cptr : Right
deriving DecidableEq, Repr

/-- Taking the element at an index, by `operator[]` or by advancing an iterator to it (container_base.h l.129-135). -/
def element (n : Nat) (i : Int) (r : Right) : Out := if 0 ≤ i ∧ i < n then .place i.toNat r else .ub

/-- Returning it as the given type. -/
def Out.as (o : Out) (r : Right) : Out :=
  match o with
  | .place i r' => if r'.converts r then .place i r else .refused
  | o => o

namespace Cont

/-- `has_operator_subscript` (container_nd.h l.261-266, type_traits.h l.676-678). -/
def hasSub (c : Cont) : Bool := match c.sub with | some r => r.converts c.ref | none => false

/-- `has_operator_csubscript` (container_nd.h l.268-273). -/
def hasCsub (c : Cont) : Bool := match c.csub with | some r => r.converts c.cref | none => false

/-- `has_method_data` (container_nd.h l.303-308, type_traits.h l.672-674): for C arrays `false` (container_nd.h l.378). -/
def hasData (c : Cont) : Bool := match c.data with | some r => r.converts c.value | none => false

/-- `c[i]`, and `c[i]` of a `const` container. -/
def at' (c : Cont) (s : Option Right) (i : Int) : Out :=
  match s with
  | some r => element c.size i r
  | none => .refused

/-- `container_ops::subscript(c, i)` (container_nd.h l.614-624). Whether the result converts is a matter of types: the conversion is
refused for all indices. -/
def opSub (c : Cont) (i : Int) : Out :=
  if c.hasSub then (c.at' c.sub i).as c.ref
  else if c.iter.converts c.ref then (element c.size i c.iter).as c.ref else .refused

/-- `container_ops::subscript(c, i)` of a `const` container (container_nd.h l.626-636): `decltype(auto)`, and the flag is that of containers
that are not `const`. -/
def opSubConst (c : Cont) (i : Int) : Out := if c.hasSub then c.at' c.csub i else element c.size i c.citer

/-- `container_ops::csubscript(c, i)` (container_nd.h l.638-648). -/
def opCsub (c : Cont) (i : Int) : Out :=
  if c.hasCsub then (c.at' c.csub i).as c.cref
  else if c.citer.converts c.cref then (element c.size i c.citer).as c.cref else .refused

/-- A pointer from a method, as an outcome. -/
def pointer : Option Right → Out
  | some r => .place 0 r
  | none => .refused

/-- `std::data(c)`: the method, or the array itself. -/
def stdData (c : Cont) (m : Option Right) (arr : Right) : Out := if c.array then .place 0 arr else pointer m

/-- `container_ops::data(c)` (container_nd.h l.689-702). -/
def opData (c : Cont) : Out := if c.hasData then pointer c.data else c.stdData c.data c.value

/-- `container_ops::data(c)` of a `const` container (container_nd.h l.707-720). -/
def opDataConst (c : Cont) : Out := if c.hasData then pointer c.dataC else c.stdData c.dataC .read

/-- `has_method_cdata` (container_nd.h l.310-315): what the method gives is to convert to a pointer to `const`, as any pointer does. -/
def hasCdata (c : Cont) : Bool := match c.cdata with | some r => r.converts .read | none => false

/-- `container_ops::cdata(c)` (container_nd.h l.725-747): three overloads, of which one is enabled. They give a `const_value_pointer`. -/
def opCdata (c : Cont) : Out :=
  (if c.hasCdata then pointer c.cdata
   else if !(c.hasCdata || !c.hasData) then pointer c.dataC
   else c.stdData c.dataC .read).as c.cptr

end Cont

/-- A C array (container_nd.h l.339-380). -/
def cArray (n : Nat) : Cont := ⟨n, true, .write, .read, .write, .write, .read, some .write, some .read, none, none, none, .read⟩

/-- A `std::vector` or `std::array` (container_nd.h l.388-431, 439-482). -/
def stdVector (n : Nat) : Cont := ⟨n, false, .write, .read, .write, .write, .read, some .write, some .read, some .write, some .read, none, .read⟩

/-- An `array_view` of `n` elements (array_view.h l.207-233, 361-386): its operator `[]` (l.477-481) and method `data()` (l.670-673) are
`const` and give what can be written, and `const_value_pointer` (l.370) is a constant pointer, not a pointer to `const`; it is what `cdata()`
(l.678-681) gives. `proxy_nd` of one dimension (array_proxy.h l.436-447, 527-531, 735-738, 753-756) is the same. -/
def arrayView (n : Nat) : Cont := ⟨n, false, .write, .read, .write, .write, .write, some .write, some .write, some .write, some .write, some .write, .write⟩

end Verif.ContAccess
