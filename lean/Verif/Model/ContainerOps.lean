/-!
Model of the generic interface of containers: `container_traits` and `container_ops` (`/repo/include/yato/container_nd.h`),
`dimensionality` and the functions `length`, `width`, `height`, `depth`, `layers` (`/repo/include/yato/container_base.h`).

A container is given by the methods it has and what they answer; `none` means that the method is missing. The outcome `none` of an
operation means that the call does not compile.

Simplifications: sizes are natural numbers (products are assumed to fit `size_t`); the flags of the traits are those deduced from the
methods; a method that has the right name also has a convertible result; access to elements is in `Model/ContainerAccess.lean`.
-/
set_option autoImplicit false

namespace Verif.ContOps

/-- What the traits of a container (container_nd.h l.122-317, for C arrays l.339-380, for `std::array` l.388-431, for `std::vector`
l.439-482) find: the number of dimensions, and the methods `size()`, `size(dim)`, `stride(dim)`, `continuous()`, `dimensions()`,
`dimensions_range()`, `strides()`, `total_size()`. `stdSize` is what `std::size` answers. -/
structure Cont where
  num : Nat
  size0 : Option Nat
  size1 : Option (Nat → Nat)
  stride : Option (Nat → Nat)
  continuous : Option Bool
  dimensions : Option (List Nat)
  dimsRange : Option (List Nat)
  strides : Option (List Nat)
  total : Option Nat
  stdSize : Option Nat

/-- A C array of `n` elements (container_nd.h l.339-380): no methods, but `std::size` accepts it. -/
def cArray (n : Nat) : Cont := ⟨1, none, none, none, none, none, none, none, none, some n⟩

/-- A `std::array` or `std::vector` of `n` elements (container_nd.h l.388-431, 439-482). -/
def stdVector (n : Nat) : Cont := ⟨1, some n, none, none, none, none, none, none, none, some n⟩

/-- `dimensionality::total_size_impl_` (container_base.h l.160-166) from a dimension on; `[]` is `dimensionality<0>` (l.375-379). -/
def totalFrom : List Nat → Nat → Nat
  | [], _ => 0
  | [e], _ => e
  | e :: e' :: es, 0 => e * totalFrom (e' :: es) 0
  | _ :: e' :: es, k + 1 => totalFrom (e' :: es) k

/-- `dimensionality::total_size(start_dim)` (container_base.h l.238-242, 375-379). -/
def totalSize (ext : List Nat) (start : Nat := 0) : Nat := totalFrom ext start

/-- `dimensionality::sub_dims` (container_base.h l.288-292, 425-429). -/
def subDims (ext : List Nat) : List Nat := ext.tail

namespace Cont

/-- `container_ops::has_method_size0` (container_nd.h l.528). -/
def hasSize0 (c : Cont) : Bool := c.size0.isSome || c.size1.isSome
/-- `container_ops::has_method_size1` (container_nd.h l.529). -/
def hasSize1 (c : Cont) : Bool := (decide (c.num < 1) && c.size0.isSome) || c.size1.isSome
/-- `container_ops::has_method_strides` (container_nd.h l.530). -/
def hasStrides (c : Cont) : Bool := c.stride.isSome || c.strides.isSome
/-- `container_ops::has_method_dimensions_range` (container_nd.h l.533). -/
def hasDimsRange (c : Cont) : Bool := c.dimsRange.isSome || c.hasSize1

/-- `container_ops::size(c)` (container_nd.h l.536-552). -/
def opSize (c : Cont) : Option Nat :=
  match c.size0, c.size1 with
  | some n, _ => some n
  | none, some f => some (f 0)
  | none, none => c.stdSize

/-- `container_ops::size(c, dim)` (container_nd.h l.554-564). -/
def opSizeDim (c : Cont) (dim : Nat) : Option Nat :=
  match c.size1 with
  | some f => some (f dim)
  | none => if c.num = 1 then c.opSize else none

/-- `make_dims_from_size_` (container_nd.h l.68-92): the method `size()` in one dimension, otherwise `size(dim)`. -/
def dimsFromSize (c : Cont) : Option (List Nat) :=
  if c.num = 1 then c.size0.map fun n => [n] else c.size1.map fun f => (List.range c.num).map f

/-- `container_ops::dimensions(c)` (container_nd.h l.566-576). -/
def opDimensions (c : Cont) : Option (List Nat) :=
  match c.dimensions with
  | some ds => some ds
  | none => c.dimsFromSize

/-- `container_ops::dimensions_range(c)` (container_nd.h l.578-588). -/
def opDimsRange (c : Cont) : Option (List Nat) :=
  match c.dimsRange with
  | some ds => some ds
  | none => if c.hasSize1 then (List.range c.num).mapM c.opSizeDim else none

/-- `container_ops::total_size(c)` (container_nd.h l.590-600). -/
def opTotal (c : Cont) : Option Nat :=
  match c.total with
  | some n => some n
  | none => c.opDimensions.map fun ds => totalSize ds

/-- `container_ops::continuous(c)` (container_nd.h l.602-612). -/
def opContinuous (c : Cont) : Bool :=
  match c.continuous with
  | some b => b
  | none => decide (c.num = 1)

/-- `container_ops::stride(c, dim)` (container_nd.h l.752-756). -/
def opStride (c : Cont) (dim : Nat) : Option Nat := c.stride.map fun f => f dim

/-- `container_ops::strides(c)` (container_nd.h l.761-774) with `make_array_from_strides_` (l.94-112). `strides_array<0>` has no
constructor without arguments (container_base.h l.535-548). -/
def opStrides (c : Cont) : Option (List Nat) :=
  match c.strides, c.stride with
  | some ss, _ => some ss
  | none, some f => if c.num - 1 = 0 then none else some ((List.range (c.num - 1)).map f)
  | none, none => none

/-- `length(c)` (container_base.h l.636-642). -/
def length (c : Cont) : Option Nat := if c.num = 1 then c.size1.map (· 0) else none

/-- `width(c)` (container_base.h l.644-650, 660-666, 708-714). -/
def width (c : Cont) : Option Nat :=
  if c.num = 2 then c.size1.map (· 1) else if c.num = 3 then c.size1.map (· 2) else if c.num = 4 then c.size1.map (· 3) else none

/-- `height(c)` (container_base.h l.652-658, 668-674, 700-706). -/
def height (c : Cont) : Option Nat :=
  if c.num = 2 then c.size1.map (· 0) else if c.num = 3 then c.size1.map (· 1) else if c.num = 4 then c.size1.map (· 2) else none

/-- `depth(c)` (container_base.h l.676-682, 692-698). -/
def depth (c : Cont) : Option Nat :=
  if c.num = 3 then c.size1.map (· 0) else if c.num = 4 then c.size1.map (· 1) else none

/-- `layers(c)` (container_base.h l.684-690). -/
def layers (c : Cont) : Option Nat := if c.num = 4 then c.size1.map (· 0) else none

end Cont
end Verif.ContOps
