/-!
Model of the addressing of multi-dimensional containers: `/repo/include/yato/container_base.h`, `array_nd.h`, `array_proxy.h`,
`array_view.h`, `container_nd.h` (samplers), `iterator_nd.h` and the descriptors of `vector_nd.h`.

Simplifications:
* addresses, extents and strides are natural numbers: products of extents and strides are assumed to fit `size_t`
  (`iterator_nd` below, where wrap-around matters, uses 64-bit arithmetic);
* an access is represented by the byte address of the element it designates;
* compile time checks (number of indices) become the outcome `none`;
* `YATO_REQUIRES` is not checked (release build); what the theorems need of it is stated as a hypothesis.
-/
set_option autoImplicit false

namespace Verif.Views

/-- One dimension descriptor, offset in bytes: `dimension_descriptor_strided` (container_base.h l.71-86), or `dimension_descriptor`
(l.45-61) after `offset_to_bytes`. -/
structure Desc where
  size : Nat
  total : Nat
  offset : Nat
deriving DecidableEq, Repr

/-- `dimensionality::total_size` (container_base.h l.160-166), `plain_array_shape::total_size` (array_nd.h l.37, 50). -/
def totalSize : List Nat → Nat
  | [] => 0
  | [e] => e
  | e :: es => e * totalSize es

/-- Descriptors of a dense container with elements of `sz` bytes: `init_sizes_` (vector_nd.h l.786-792); the byte offset is
`offset_to_bytes(total)` (container_base.h l.55-60). -/
def denseDescs (sz : Nat) : List Nat → List Desc
  | [] => []
  | e :: es =>
    match denseDescs sz es with
    | [] => [⟨e, e, e * sz⟩]
    | d :: ds => ⟨e, e * d.total, e * d.total * sz⟩ :: d :: ds

/-- The loop of the constructor of a view from element strides (array_view.h l.60-72).  The list holds, for each dimension, the
extent and the stride that multiplies the next offset (for the first dimension the code uses `extents[0]`). -/
def elemLoop (sz : Nat) : List (Nat × Nat) → List Desc
  | [] => []
  | (e, s) :: es =>
    match elemLoop sz es with
    | [] => [⟨e, e, s * sz⟩]
    | d :: ds => ⟨e, e * d.total, s * d.offset⟩ :: d :: ds

/-- Constructor from element strides (array_view.h l.60-72); at least two dimensions, one stride less than extents. -/
def elemDescs (sz : Nat) (ext strides : List Nat) : List Desc :=
  match ext with
  | [] => []
  | e0 :: _ => elemLoop sz (ext.zip (e0 :: strides))

/-- The loop of the constructor of a view from byte strides (array_view.h l.74-86), dimensions 1 and up. -/
def byteLoop : List (Nat × Nat) → List Desc
  | [] => []
  | (e, s) :: es =>
    match byteLoop es with
    | [] => [⟨e, e, s⟩]
    | d :: ds => ⟨e, e * d.total, s⟩ :: d :: ds

/-- Constructor from byte strides (array_view.h l.74-86). -/
def byteDescs (ext strides : List Nat) : List Desc :=
  match ext with
  | [] => []
  | e0 :: es =>
    match byteLoop (es.zip strides) with
    | [] => []
    | d :: ds => ⟨e0, e0 * d.total, e0 * d.offset⟩ :: d :: ds

/-- `operator[]` applied repeatedly (array_view.h l.182-187 and 330-333, array_proxy.h l.99-105 and the 1-D specialization
l.423-760, vector_nd.h l.758-776): the address of the designated element. -/
def elem (sz : Nat) : Nat → List Desc → List Nat → Option Nat
  | p, [_], [i] => some (p + i * sz)
  | p, _ :: d :: ds, i :: is => elem sz (p + i * d.offset) (d :: ds) is
  | _, _, _ => none

/-- `operator[]` of `array_nd`/`sub_array` applied repeatedly (array_nd.h l.126-134, 151-156, 366-371, 723-736). -/
def arrElem (sz : Nat) : Nat → List Nat → List Nat → Option Nat
  | p, [_], [i] => some (p + i * sz)
  | p, _ :: e :: es, i :: is => arrElem sz (p + i * totalSize (e :: es) * sz) (e :: es) is
  | _, _, _ => none

/-- `proxy_nd::continuous` (array_proxy.h l.279-284); the one-dimensional proxy is always continuous. -/
def proxyContinuous (sz : Nat) : List Desc → Bool
  | _ :: d :: _ => d.offset == d.total * sz
  | _ => true

/-- `array_view_base::is_continuous_` (array_view.h l.199-202, 345-348). -/
def viewContinuous (sz : Nat) : List Desc → Bool
  | d :: _ :: _ => d.total * sz == d.offset
  | _ => true

/-- The addresses visited from `plain_begin()` to `plain_end()` (array_view.h l.602-624, array_proxy.h l.321-334): `total_size`
consecutive elements from the base pointer. -/
def plainAddrs (sz p : Nat) (ds : List Desc) : List Nat :=
  match ds with
  | [] => []
  | d :: _ => (List.range d.total).map fun k => p + k * sz

/-! ### Checked access and samplers -/

/-- Outcome of a checked access: an element, the sampler's boundary value, or `out_of_range_error`. -/
inductive Res where
  | elem (addr : Nat)
  | boundary
  | throws
deriving DecidableEq, Repr

/-- Conversion of an integer argument to `size_t`. -/
def toSize (i : Int) : Nat := (i % (2 ^ 64 : Int)).toNat
/-- Conversion of an integer argument to `int32_t`. -/
def toInt32 (i : Int) : Int := (i + 2 ^ 31) % (2 ^ 32 : Int) - 2 ^ 31

/-- `array_nd::at`, `sub_array::at` (array_nd.h l.158-165, 373-379, 738-754). -/
def arrAt (sz : Nat) : Nat → List Nat → List Int → Option Res
  | p, [e], [i] => if toSize i ≥ e then some .throws else some (.elem (p + toSize i * sz))
  | p, e :: e' :: es, i :: is =>
    if toSize i ≥ e then some .throws else arrAt sz (p + toSize i * totalSize (e' :: es) * sz) (e' :: es) is
  | _, _, _ => none

/-- A sampler (container_nd.h l.855-866): conversion of the argument to its `index_type`, `check_index<dim>(i, size)`,
`transform_index<dim>(i, size)` and whether it has a `boundary_value`. -/
structure Sampler where
  conv : Int → Int
  check : Nat → Int → Nat → Bool
  transform : Nat → Int → Nat → Nat
  boundary : Bool

/-- `sampler_default` (l.1110-1113) with the defaults of `sampler_traits` (l.1055-1075). -/
def samplerDefault : Sampler :=
  { conv := fun i => toSize i, check := fun _ i n => decide (i < n), transform := fun _ i _ => i.toNat, boundary := false }

/-- `sampler_zero` (l.1133-1155). -/
def samplerZero : Sampler :=
  { conv := toInt32, check := fun _ i n => decide (0 ≤ i ∧ i < n), transform := fun _ i _ => i.toNat, boundary := true }

/-- `size - 1` in `size_t`. -/
def sizePred (n : Nat) : Nat := (n + 18446744073709551615) % 18446744073709551616

theorem sizePred_eq (n : Nat) (h : 0 < n) (h' : n ≤ 9223372036854775808) : sizePred n = n - 1 := by
  unfold sizePred; omega

/-- `sampler_clamp` (l.1161-1179).  `size - 1` is computed in `size_t`. -/
def samplerClamp : Sampler :=
  { conv := toInt32, check := fun _ _ _ => true,
    transform := fun _ i n => min (max 0 i).toNat (sizePred n), boundary := false }

/-- `check_bounds_impl_` (l.977-994). -/
def checkBounds (s : Sampler) : Nat → List Nat → List Int → Bool
  | d, [e], [i] => s.check d (s.conv i) e
  | d, e :: es, i :: is => s.check d (s.conv i) e && checkBounds s (d + 1) es is
  | _, _, _ => true

/-- `fetch_value_continious_impl_` (l.1024-1046): the dimension counter starts at 0. -/
def fetchCont (s : Sampler) (sz p : Nat) : Nat → Nat → List Nat → List Int → Option Nat
  | off, d, [e], [i] => some (p + (off + s.transform d (s.conv i) e) * sz)
  | off, d, e :: e' :: es, i :: is => fetchCont s sz p ((off + s.transform d (s.conv i) e) * e') (d + 1) (e' :: es) is
  | _, _, _, _ => none

/-- `fetch_value_impl_` of a strided view (l.996-1014): subscript with the transformed index, then the sub-view.  The tag handed to the
sub-view is the category of the container it was taken from (l.1013), which is strided, so the last, one-dimensional sub-view is also
read by the generic overload (l.996-1004), with its own dimension number, although its own category is continuous. -/
def fetchStrided (s : Sampler) (sz : Nat) : Nat → Nat → List Desc → List Int → Option Nat
  | p, dim, [d], [i] => some (p + s.transform dim (s.conv i) d.size * sz)
  | p, dim, d :: d' :: ds, i :: is => fetchStrided s sz (p + s.transform dim (s.conv i) d.size * d'.offset) (dim + 1) (d' :: ds) is
  | _, _, _, _ => none

/-- `sampler_traits::load` (l.950-963) for a container with dense storage (`vector_nd`, `array_nd`). -/
def loadDense (s : Sampler) (sz p : Nat) (ext : List Nat) (idx : List Int) : Option Res :=
  if checkBounds s 0 ext idx then (fetchCont s sz p 0 0 ext idx).map .elem
  else some (if s.boundary then .boundary else .throws)

/-- `sampler_traits::load` (l.950-963) for a strided view. -/
def loadStrided (s : Sampler) (sz p : Nat) (ds : List Desc) (idx : List Int) : Option Res :=
  if checkBounds s 0 (ds.map Desc.size) idx then (fetchStrided s sz p 0 ds idx).map .elem
  else some (if s.boundary then .boundary else .throws)

/-- `vector_nd::at` (vector_nd.h l.1234-1249): `yato::at` with the default sampler; out of bounds always throws (container_nd.h l.965-975). -/
def vecAt (sz p : Nat) (ext : List Nat) (idx : List Int) : Option Res := loadDense samplerDefault sz p ext idx
/-- `array_view_nd::at` (array_view.h l.483-488). -/
def viewAt (sz p : Nat) (ds : List Desc) (idx : List Int) : Option Res := loadStrided samplerDefault sz p ds idx

/-! ### Iterators over the first dimension -/

/-- Machine words: pointers and `size_t` are residues modulo 2^64, `ptrdiff_t` is the signed residue. -/
def wrap (x : Int) : Int := x % 2 ^ 64
def signed (x : Int) : Int := (x + 2 ^ 63) % 2 ^ 64 - 2 ^ 63

/-- `iterator_nd::operator+=` (iterator_nd.h l.126-130): `offset * total_stored` is computed in `size_t`, so a negative
offset is added as a huge unsigned number (out of range pointer arithmetic by the letter; here it wraps around). -/
def itAdd (stored : Nat) (p : Int) (n : Int) : Int := wrap (p + wrap (n * stored))
/-- `iterator_nd::operator-=` (l.154-158): computed in `ptrdiff_t`. -/
def itSub (stored : Nat) (p : Int) (n : Int) : Int := wrap (p + signed (-n * stored))
/-- `operator++`, `operator--` (l.87-91, 107-111). -/
def itInc (stored : Nat) (p : Int) : Int := wrap (p + stored)
def itDec (stored : Nat) (p : Int) : Int := wrap (p + signed (-(stored : Int)))
/-- `operator-` of two iterators (l.174-180): the byte difference is converted to `size_t` for the division by the unsigned
`total_stored()`, the quotient is converted back to `ptrdiff_t`; division by zero is undefined. -/
def itDist (stored : Nat) (p q : Int) : Option Int :=
  if stored = 0 then none else some (signed (wrap (signed (p - q)) / stored))

end Verif.Views
