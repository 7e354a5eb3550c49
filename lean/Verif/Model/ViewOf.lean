import Verif.Model.Views

/-!
Model of the functions that make a view or a proxy of a container: `view`, `cview`, `make_view`, the constructors of `array_view_nd`,
`reshape` and `rebind` (`/repo/include/yato/array_view.h`), the members `view`, `cview`, `proxy` of `vector_nd` (`vector_nd.h`), `view`
and `cview` of `array_nd` (`array_nd.h`), on the descriptors of `Verif.Model.Views`. The pointer of the view is the pointer to the data
of the container.

Simplifications: those of `Verif.Model.Views`; `T` and `const T` are not distinguished.
-/
set_option autoImplicit false

namespace Verif.Views

/-- A view or a proxy: the base pointer and the descriptors. A one-dimensional view has only a size (array_view.h l.235-236), here with
what `total_size` and `print_size` compute of it (l.309-317). -/
structure AView where
  ptr : Nat
  descs : List Desc
deriving DecidableEq, Repr

/-- `array_view_base<T, 1>` (array_view.h l.207-349). -/
def oneDim (sz e : Nat) : List Desc := [⟨e, e, e * sz⟩]

/-- `array_view_nd(ptr, extents, element_strides)`, array_view.h l.397-399, 60-72, 239-241. -/
def AView.elems (sz ptr : Nat) (ext strides : List Nat) : AView :=
  match ext with
  | [e] => ⟨ptr, oneDim sz e⟩
  | _ => ⟨ptr, elemDescs sz ext strides⟩

/-- `array_view_nd(ptr, extents, byte_strides)`, array_view.h l.401-403, 74-86, 243-245. -/
def AView.bytes (sz ptr : Nat) (ext strides : List Nat) : AView :=
  match ext with
  | [e] => ⟨ptr, oneDim sz e⟩
  | _ => ⟨ptr, byteDescs ext strides⟩

/-- `array_view_nd(ptr, extents)`, array_view.h l.393-395, with `sub_dims` (container_base.h l.288-292); also `make_view` (l.892-896) and
`view`, `cview` of C arrays, `std::array` and `std::vector` (l.705-739, 756-790). -/
def AView.make (sz ptr : Nat) (ext : List Nat) : AView := AView.elems sz ptr ext ext.tail

/-- `array_view_nd(proxy)`, array_view.h l.438-442, 88-103, 247-250. The offsets of the proxy's descriptors are bytes already. -/
def AView.ofProxy (sz : Nat) (v : AView) : AView :=
  match v.descs with
  | [d] => ⟨v.ptr, oneDim sz d.size⟩
  | ds => ⟨v.ptr, ds⟩

/-- `operator[]` but for the last dimension: a proxy on the next descriptors (array_view.h l.182-187, array_proxy.h l.99-105). -/
def AView.sub (v : AView) (i : Nat) : Option AView :=
  match v.descs with
  | _ :: d :: ds => some ⟨v.ptr + i * d.offset, d :: ds⟩
  | _ => none

/-- `operator[]` applied to all indices. -/
def AView.at (sz : Nat) (v : AView) (idx : List Nat) : Option Nat := elem sz v.ptr v.descs idx

/-- `dimensions()` of views, proxies and vectors: array_view.h l.170-173, 319-322, 540-543; array_proxy.h l.184-188, 207-214, 550-572;
vector_nd.h l.1470-1473, 1495-1498. -/
def dims (ds : List Desc) : List Nat := ds.map Desc.size

/-- `total_size()` of views, proxies and vectors: array_view.h l.160-163, 309-312; array_proxy.h l.260-264, 608-612; vector_nd.h
l.1530-1534, 2782-2785. -/
def AView.totalSize (v : AView) : Option Nat := v.descs.head?.map Desc.total

/-- `print_size()`: array_view.h l.165-168, 314-317, 523-526. -/
def AView.printSize (v : AView) : Option Nat := v.descs.head?.map Desc.offset

/-- `strides()` of views and proxies, in bytes: array_view.h l.175-180, 325-328, 548-551; array_proxy.h l.193-197, 216-225, 559-581. -/
def AView.strides (v : AView) : List Nat := v.descs.tail.map Desc.offset

/-- `strides()` of `vector_nd`, in bytes: vector_nd.h l.1478-1481, 1503-1506, 2721-2724, 2746-2749. -/
def vectorStrides (sz : Nat) (ds : List Desc) : List Nat := ds.tail.map fun d => d.total * sz

/-- The pack of `plain_array_strides`, array_nd.h l.57-66: the total sizes of the shape and of its sub-shapes. -/
def shapeTotals : List Nat → List Nat
  | [] => []
  | e :: es => Views.totalSize (e :: es) :: shapeTotals es

/-- `strides()` of `array_nd`, in bytes: array_nd.h l.62-66, 824-827, 848-851, 1164-1167, 1188-1191. -/
def arrayStrides (sz : Nat) (ext : List Nat) : List Nat := (shapeTotals ext).tail.map (· * sz)

/-- `yato::view(c)`, `yato::cview(c)` of any container with `strides()`: array_view.h l.832-840, 852-860, 873-889. -/
def viewOfContainer (sz ptr : Nat) (dims strides : List Nat) : AView := AView.bytes sz ptr dims strides

/-- The members `view()`, `cview()` and the conversions to a view of `vector_nd` (vector_nd.h l.1390-1417, 2633-2660), which
`yato::view` and `yato::cview` of a `vector_nd` call (l.3188-3198). -/
def vectorView (sz ptr : Nat) (ext : List Nat) : AView := AView.make sz ptr (dims (denseDescs sz ext))

/-- The members `proxy()`, `cproxy()` of `vector_nd`: vector_nd.h l.1422-1449, 2665-2692. -/
def vectorProxy (sz ptr : Nat) (ext : List Nat) : AView := ⟨ptr, denseDescs sz ext⟩

/-- `yato::view`, `yato::cview` of an `array_nd`: array_nd.h l.1266-1278. -/
def viewOfArray (sz ptr : Nat) (ext : List Nat) : AView := AView.bytes sz ptr ext (arrayStrides sz ext)

/-- `yato::view`, `yato::cview` of a proxy (through array_view.h l.873-889). -/
def viewOfProxy (sz : Nat) (v : AView) : AView := viewOfContainer sz v.ptr (dims v.descs) v.strides

/-- `array_view_nd::reshape`, array_view.h l.460-467; `none` if one of the two `YATO_REQUIRES` fails. -/
def AView.reshape (sz : Nat) (v : AView) (ext : List Nat) : Option AView :=
  if viewContinuous sz v.descs = true ∧ v.totalSize = some (Views.totalSize ext) then some (AView.make sz v.ptr ext) else none

/-- `array_view_nd::rebind`, array_view.h l.660-665: the new view and the old pointer. -/
def AView.rebind (v : AView) (ptr : Nat) : AView × Nat := (⟨ptr, v.descs⟩, v.ptr)

end Verif.Views
