import Verif.Model.ViewOf
import Verif.Lemmas.Views
import Verif.Props.C11_Views

/-!
**C96** A view made of a container designates the elements of the container and reports its shape: for every number of dimensions, every
extents and indices, `yato::view(c)`, `c.view()`, `array_view_nd(proxy)` and `reshape` give a view whose element at a multi-index is the
container's, with the same dimensions, total size and strides, and which is continuous when the container is.
-/
set_option autoImplicit false

namespace Verif.ViewOf
open Verif.Views

/-! ### Specification -/

/-- The product of the extents. -/
def cells (ext : List Nat) : Nat := ext.foldr (· * ·) 1

/-- The row-major number of a cell: the last index runs fastest. -/
def cellNumber : List Nat → List Nat → Nat
  | _ :: es, i :: is => i * cells es + cellNumber es is
  | _, _ => 0

/-- The sizes in bytes of the rows below each dimension but the last. -/
def rowBytes (sz : Nat) : List Nat → List Nat
  | _ :: e :: es => cells (e :: es) * sz :: rowBytes sz (e :: es)
  | _ => []

/-- The view of dense storage at `ptr` with these extents. -/
structure ViewsDense (sz ptr : Nat) (ext : List Nat) (w : AView) : Prop where
  cell : ∀ idx, idx.length = ext.length → w.at sz idx = some (ptr + cellNumber ext idx * sz)
  shape : dims w.descs = ext
  total : w.totalSize = some (cells ext)
  bytes : w.printSize = some (cells ext * sz)
  strided : w.strides = rowBytes sz ext
  continuous : viewContinuous sz w.descs = true

/-- `w` shows what `v` does: the same elements, dimensions, total size and strides. -/
structure SameCells (sz : Nat) (v w : AView) : Prop where
  cell : ∀ idx, w.at sz idx = v.at sz idx
  shape : dims w.descs = dims v.descs
  total : w.totalSize = v.totalSize
  strided : w.strides = v.strides

/-- The proxy or view `v` describes a table: the totals are the products of the extents, and rows do not overlap. -/
structure Sound (sz : Nat) (v : AView) : Prop where
  nonempty : v.descs ≠ []
  shape : Shape v.descs
  rows : Rows sz v.descs

/-! ### Lemmas -/

theorem cells_prod (ext : List Nat) : cells ext = prod ext := by
  induction ext with
  | nil => rfl
  | cons e es ih => simp only [cells, List.foldr_cons, prod] at *; rw [ih]

theorem dense_total (sz : Nat) (e : Nat) (es : List Nat) (d : Desc) (ds : List Desc) (h : denseDescs sz (e :: es) = d :: ds) :
    d.total = cells (e :: es) := by
  obtain ⟨h1, h2, -, -⟩ := dense_props sz (e :: es)
  rw [h] at h1 h2
  rw [shape_prod d ds h2, h1, cells_prod]

theorem dense_cell (sz : Nat) : ∀ (ext : List Nat) (p : Nat) (idx : List Nat), ext ≠ [] → idx.length = ext.length →
    elem sz p (denseDescs sz ext) idx = some (p + cellNumber ext idx * sz)
  | [], _, _, h, _ => absurd rfl h
  | [e], p, [i], _, _ => by simp [denseDescs, elem, cellNumber, cells]
  | [e], p, [], _, h => by simp at h
  | [e], p, _ :: _ :: _, _, h => by simp at h
  | e :: e' :: es, p, [], _, h => by simp at h
  | e :: e' :: es, p, i :: is, _, h => by
    obtain ⟨d, ds, hd⟩ := dense_head sz e' es
    obtain ⟨-, -, h3, -⟩ := dense_props sz (e' :: es)
    have ht := dense_total sz e' es d ds hd
    have ho := h3 d (by rw [hd]; simp)
    have ih := dense_cell sz (e' :: es) (p + i * d.offset) is (by simp) (by simpa using h)
    rw [denseDescs, hd]
    simp only [elem]
    rw [hd] at ih
    rw [ih, cellNumber, ho, ht, Nat.add_mul, Nat.mul_assoc, Nat.add_assoc]

theorem dense_strides (sz : Nat) : ∀ (ext : List Nat), (denseDescs sz ext).tail.map Desc.offset = rowBytes sz ext
  | [] => rfl
  | [e] => rfl
  | e :: e' :: es => by
    obtain ⟨d, ds, hd⟩ := dense_head sz e' es
    have ih := dense_strides sz (e' :: es)
    obtain ⟨-, -, h3, -⟩ := dense_props sz (e' :: es)
    rw [denseDescs, hd]
    rw [hd] at ih
    simp only [List.tail_cons, List.map_cons, rowBytes] at ih ⊢
    rw [ih, h3 d (by rw [hd]; simp), dense_total sz e' es d ds hd]

theorem viewsDense (sz ptr : Nat) (ext : List Nat) (h : ext ≠ []) : ViewsDense sz ptr ext ⟨ptr, denseDescs sz ext⟩ := by
  obtain ⟨e, es, rfl⟩ := List.exists_cons_of_ne_nil h
  obtain ⟨d, ds, hd⟩ := dense_head sz e es
  obtain ⟨h1, -, h3, -⟩ := dense_props sz (e :: es)
  have ht := dense_total sz e es d ds hd
  refine ⟨fun idx hi => dense_cell sz _ ptr idx h hi, h1, ?_, ?_, dense_strides sz _, (C15_dense_is_continuous sz _).1⟩
  · simp [AView.totalSize, hd, ht]
  · simp [AView.printSize, hd, h3 d (by rw [hd]; simp), ht]

theorem elemLoop_dense (sz : Nat) : ∀ (ext : List Nat), elemLoop sz (ext.zip ext) = denseDescs sz ext
  | [] => rfl
  | [e] => rfl
  | e :: e' :: es => by
    obtain ⟨d, ds, hd⟩ := dense_head sz e' es
    have ih := elemLoop_dense sz (e' :: es)
    obtain ⟨-, -, h3, -⟩ := dense_props sz (e' :: es)
    rw [denseDescs, hd, List.zip_cons_cons, elemLoop, ih, hd]
    simp only
    rw [h3 d (by rw [hd]; simp), Nat.mul_assoc]

theorem make_dense (sz ptr : Nat) : ∀ (ext : List Nat), AView.make sz ptr ext = ⟨ptr, denseDescs sz ext⟩
  | [] => rfl
  | [e] => rfl
  | e :: e' :: es => by simp only [AView.make, AView.elems, elemDescs, List.tail_cons]; rw [elemLoop_dense]

theorem byteLoop_descs : ∀ (ds : List Desc), Shape ds → byteLoop ((ds.map Desc.size).zip (ds.map Desc.offset)) = ds
  | [], _ => rfl
  | [⟨_, _, _⟩], h => by cases h; rfl
  | d :: d' :: ds, h => by
    have ih := byteLoop_descs (d' :: ds) h.2
    rw [List.map_cons, List.map_cons (l := d' :: ds), List.zip_cons_cons, byteLoop, ih]
    simp only
    rw [← h.1]

/-- Making a view of byte strides changes the descriptors only in the size in bytes of the whole. -/
theorem bytes_descs (sz ptr : Nat) (d d' : Desc) (ds : List Desc) (h : Shape (d :: d' :: ds)) :
    AView.bytes sz ptr (dims (d :: d' :: ds)) ((d' :: ds).map Desc.offset) = ⟨ptr, ⟨d.size, d.total, d.size * d'.offset⟩ :: d' :: ds⟩ := by
  simp only [AView.bytes, dims, List.map_cons, byteDescs]
  have := byteLoop_descs (d' :: ds) h.2
  simp only [List.map_cons] at this
  rw [this]
  simp only
  rw [← h.1]

theorem shapeTotals_rows (sz : Nat) : ∀ (ext : List Nat), arrayStrides sz ext = rowBytes sz ext
  | [] => rfl
  | [e] => rfl
  | e :: e' :: es => by
    have ih := shapeTotals_rows sz (e' :: es)
    simp only [arrayStrides, shapeTotals, List.tail_cons, List.map_cons, rowBytes] at ih ⊢
    rw [← ih, totalSize_prod _ (by simp), cells_prod]

theorem vectorStrides_rows (sz : Nat) (ext : List Nat) : vectorStrides sz (denseDescs sz ext) = rowBytes sz ext := by
  rw [← dense_strides]
  obtain ⟨-, -, h3, -⟩ := dense_props sz ext
  exact List.map_congr_left fun d hd => (h3 d (List.mem_of_mem_tail hd)).symm

theorem bytes_dense (sz ptr : Nat) : ∀ (ext : List Nat), ext ≠ [] → AView.bytes sz ptr ext (rowBytes sz ext) = ⟨ptr, denseDescs sz ext⟩
  | [], h => absurd rfl h
  | [e], _ => rfl
  | e :: e' :: es, _ => by
    obtain ⟨h1, h2, h3, -⟩ := dense_props sz (e :: e' :: es)
    have hs := dense_strides sz (e :: e' :: es)
    obtain ⟨d, ds, hd⟩ := dense_head sz e' es
    have hd2 : denseDescs sz (e :: e' :: es) = ⟨e, e * d.total, e * d.total * sz⟩ :: d :: ds := by rw [denseDescs, hd]
    rw [hd2] at h1 h2 h3 hs ⊢
    have := bytes_descs sz ptr _ d ds h2
    simp only [List.tail_cons] at hs
    rw [hs] at this
    have hdim : dims (⟨e, e * d.total, e * d.total * sz⟩ :: d :: ds) = e :: e' :: es := h1
    rw [hdim] at this
    rw [this, h3 d (by simp), Nat.mul_assoc]

/-! ### Properties -/

/-- **C96** for vectors: the members `view()`, `proxy()`, a view made of the proxy in either way, and the generic `view` on the dimensions
and strides a vector reports all show the vector's dense storage, whose elements are also those of `operator[]`. -/
theorem C96_vector (sz ptr : Nat) (ext : List Nat) (h : ext ≠ []) :
    ViewsDense sz ptr ext (vectorView sz ptr ext) ∧ ViewsDense sz ptr ext (vectorProxy sz ptr ext) ∧
    ViewsDense sz ptr ext ((vectorProxy sz ptr ext).ofProxy sz) ∧ ViewsDense sz ptr ext (viewOfProxy sz (vectorProxy sz ptr ext)) ∧
    ViewsDense sz ptr ext (viewOfContainer sz ptr (dims (denseDescs sz ext)) (vectorStrides sz (denseDescs sz ext))) := by
  have hd : dims (denseDescs sz ext) = ext := (dense_props sz ext).1
  have key := viewsDense sz ptr ext h
  refine ⟨?_, key, ?_, ?_, ?_⟩
  · rw [vectorView, hd, make_dense]; exact key
  · have : (vectorProxy sz ptr ext).ofProxy sz = ⟨ptr, denseDescs sz ext⟩ := by
      obtain ⟨e, es, rfl⟩ := List.exists_cons_of_ne_nil h
      cases es with
      | nil => rfl
      | cons e' es =>
        obtain ⟨d, ds, hd⟩ := dense_head sz e' es
        simp only [vectorProxy, AView.ofProxy, denseDescs.eq_2 sz e, hd]
    rw [this]; exact key
  · simp only [viewOfProxy, viewOfContainer, vectorProxy, AView.strides]
    rw [hd, dense_strides, bytes_dense sz ptr ext h]; exact key
  · rw [viewOfContainer, hd, vectorStrides_rows, bytes_dense sz ptr ext h]; exact key

example : (vectorView 4 100 [2, 3, 5]).at 4 [1, 2, 3] = some (100 + (1 * 15 + 2 * 5 + 3) * 4) ∧
    (vectorView 4 100 [2, 3, 5]).strides = [60, 20] := by decide

/-- **C96** for arrays: `yato::view` and `yato::cview` of an `array_nd` show its storage; the element is that of `operator[]`. -/
theorem C96_array (sz ptr : Nat) (ext : List Nat) (h : ext ≠ []) :
    ViewsDense sz ptr ext (viewOfArray sz ptr ext) ∧ ∀ idx, (viewOfArray sz ptr ext).at sz idx = arrElem sz ptr ext idx := by
  have : viewOfArray sz ptr ext = ⟨ptr, denseDescs sz ext⟩ := by
    rw [viewOfArray, shapeTotals_rows, bytes_dense sz ptr ext h]
  rw [this]
  exact ⟨viewsDense sz ptr ext h, fun idx => (arrElem_eq sz ext ptr idx).symm⟩

example : arrayStrides 8 [2, 3, 5] = [120, 40] ∧ (viewOfArray 8 0 [2, 3, 5]).at 8 [1, 0, 4] = some 152 := by decide

/-- **C96** for C arrays, `std::array`, `std::vector` and `make_view`: a pointer and extents. -/
theorem C96_plain (sz ptr : Nat) (ext : List Nat) (h : ext ≠ []) : ViewsDense sz ptr ext (AView.make sz ptr ext) := by
  rw [make_dense]; exact viewsDense sz ptr ext h

/-- **C96** for proxies and views, padded or not: a view made of it by the constructor or by `yato::view` shows the same elements. -/
theorem C96_proxy (sz : Nat) (v : AView) (hv : Sound sz v) : SameCells sz v (v.ofProxy sz) ∧ SameCells sz v (viewOfProxy sz v) := by
  obtain ⟨ptr, ds⟩ := v
  obtain ⟨hne, hs, hr⟩ := hv
  dsimp only at hne hs hr
  match ds, hne, hs, hr with
  | [d], _, hs, hr =>
    have hs : d.total = d.size := hs
    have hat : ∀ (x : Desc) (idx : List Nat), elem sz ptr [x] idx = elem sz ptr [d] idx := by
      intro x idx
      match idx with
      | [] => rfl
      | [i] => rfl
      | _ :: _ :: _ => rfl
    exact ⟨⟨fun idx => hat _ idx, rfl, by simp [AView.ofProxy, AView.totalSize, oneDim, hs], rfl⟩,
      ⟨fun idx => hat _ idx, rfl, by simp [viewOfProxy, viewOfContainer, AView.bytes, dims, AView.totalSize, oneDim, hs], rfl⟩⟩
  | d :: d' :: ds, _, hs, _ =>
    refine ⟨⟨fun _ => rfl, rfl, rfl, rfl⟩, ?_⟩
    have : viewOfProxy sz ⟨ptr, d :: d' :: ds⟩ = ⟨ptr, ⟨d.size, d.total, d.size * d'.offset⟩ :: d' :: ds⟩ := bytes_descs sz ptr d d' ds hs
    rw [this]
    refine ⟨fun idx => ?_, rfl, rfl, rfl⟩
    match idx with
    | [] => rfl
    | [i] => rfl
    | i :: j :: is => rfl

example : Sound 4 ⟨100, elemDescs 4 [2, 3, 5] [4, 8]⟩ := ⟨by decide, by simp [elemDescs, elemLoop, Shape], by simp [elemDescs, elemLoop, Rows]⟩

/-- **C96** for sub-views: `v[i]` is sound and its element at `idx` is the element of `v` at `i` and `idx`, whichever view is made of it. -/
theorem C96_slice (sz : Nat) (v w : AView) (i : Nat) (hv : Sound sz v) (h : v.sub i = some w) :
    Sound sz w ∧ dims w.descs = (dims v.descs).tail ∧ w.strides = v.strides.tail ∧
    ∀ idx, w.at sz idx = v.at sz (i :: idx) ∧ (w.ofProxy sz).at sz idx = v.at sz (i :: idx) ∧ (viewOfProxy sz w).at sz idx = v.at sz (i :: idx) := by
  obtain ⟨ptr, ds⟩ := v
  match ds, hv, h with
  | [], _, h => cases h
  | [_], _, h => cases h
  | d :: d' :: ds, hv, h =>
    cases h
    have hw : Sound sz ⟨ptr + i * d'.offset, d' :: ds⟩ := ⟨by simp, hv.shape.2, hv.rows.2⟩
    obtain ⟨h1, h2⟩ := C96_proxy sz _ hw
    exact ⟨hw, rfl, rfl, fun idx => ⟨rfl, h1.cell idx, h2.cell idx⟩⟩

example : ∃ w, (⟨100, elemDescs 4 [2, 3, 5] [4, 8]⟩ : AView).sub 1 = some w ∧ w.ptr = 100 + 4 * 8 * 4 ∧ w.strides = [32] := ⟨_, rfl, by decide, by decide⟩

/-- **C96**, continuity: `yato::view` of a proxy answers `continuous()` as the proxy does, unless the first extent is zero. A view made by
the constructor never answers true when the proxy answers false. Not proved, because false (`C96_slice_continuous_violated`): the view made
by the constructor is continuous whenever the proxy is. -/
theorem C96_continuous_partial (sz : Nat) (v : AView) (hv : Sound sz v) (hpos : ∀ e ∈ dims v.descs, 0 < e) :
    viewContinuous sz (viewOfProxy sz v).descs = proxyContinuous sz v.descs ∧
    (viewContinuous sz (v.ofProxy sz).descs = true → proxyContinuous sz v.descs = true) := by
  obtain ⟨ptr, ds⟩ := v
  obtain ⟨hne, hs, hr⟩ := hv
  dsimp only at hne hs hr hpos
  match ds, hne, hs, hr, hpos with
  | [d], _, _, _, _ => exact ⟨rfl, fun _ => rfl⟩
  | d :: d' :: ds, _, hs, hr, hpos =>
    have hp : 0 < d.size := hpos d.size (by simp [dims])
    have : viewOfProxy sz ⟨ptr, d :: d' :: ds⟩ = ⟨ptr, ⟨d.size, d.total, d.size * d'.offset⟩ :: d' :: ds⟩ := bytes_descs sz ptr d d' ds hs
    rw [this]
    have h1 := hs.1
    constructor
    · simp only [viewContinuous, proxyContinuous]
      rw [Bool.eq_iff_iff, beq_iff_eq, beq_iff_eq, h1, Nat.mul_assoc]
      exact ⟨fun h => (Nat.eq_of_mul_eq_mul_left hp h).symm, fun h => by rw [h]⟩
    · intro hc
      simp only [AView.ofProxy, viewContinuous, proxyContinuous, beq_iff_eq] at hc ⊢
      have hle := rows_total sz d' ds hs.2 hr.2
      have h2 := hr.1
      rw [h1, Nat.mul_assoc] at hc
      have h3 : d.size * d'.offset ≤ d.size * (d'.total * sz) := by rw [hc]; exact h2
      exact Nat.le_antisymm (Nat.le_of_mul_le_mul_left h3 hp) hle

/-- A 3-D view whose planes are padded: a plane is continuous, and so is `yato::view` of it, but a view constructed from it denies it,
and its `print_size()` counts the padding after the plane; `reshape` then refuses it. -/
theorem C96_slice_continuous_violated : ∃ (v w : AView), Sound 4 v ∧ v.sub 0 = some w ∧ proxyContinuous 4 w.descs = true ∧
    viewContinuous 4 (viewOfProxy 4 w).descs = true ∧ viewContinuous 4 (w.ofProxy 4).descs = false ∧
    (viewOfProxy 4 w).printSize = some 24 ∧ (w.ofProxy 4).printSize = some 36 ∧
    ((viewOfProxy 4 w).reshape 4 [6]).isSome = true ∧ (w.ofProxy 4).reshape 4 [6] = none :=
  ⟨⟨0, elemDescs 4 [2, 2, 3] [3, 3]⟩, _, ⟨by decide, by simp [elemDescs, elemLoop, Shape], by simp [elemDescs, elemLoop, Rows]⟩, rfl, by decide,
    by decide, by decide, by decide, by decide, by decide, by decide⟩

/-- **C96** for `reshape`: it is defined exactly for continuous views and as many cells; the elements, in lexicographic order of their
indices, are those of the view, and the new view shows dense storage. -/
theorem C96_reshape (sz : Nat) (v : AView) (ext : List Nat) (hv : Sound sz v) (hpos : ∀ e ∈ dims v.descs, 0 < e) (hne : ext ≠ []) :
    ((v.reshape sz ext).isSome = true ↔ viewContinuous sz v.descs = true ∧ cells (dims v.descs) = cells ext) ∧
    ∀ w, v.reshape sz ext = some w → ViewsDense sz v.ptr ext w ∧
      (allIdx ext).map (w.at sz) = (allIdx (dims v.descs)).map (v.at sz) := by
  obtain ⟨ptr, ds⟩ := v
  obtain ⟨hnn, hs, hr⟩ := hv
  obtain ⟨d, ds, rfl⟩ := List.exists_cons_of_ne_nil hnn
  have ht : (⟨ptr, d :: ds⟩ : AView).totalSize = some (cells (dims (d :: ds))) := by
    simp only [AView.totalSize, List.head?_cons, Option.map_some]
    rw [cells_prod, shape_prod d ds hs]; rfl
  have hte : Views.totalSize ext = cells ext := by rw [totalSize_prod ext hne, cells_prod]
  constructor
  · simp only [AView.reshape, ht, hte, Option.some.injEq]
    split <;> simp_all
  · intro w hw
    simp only [AView.reshape, ht, hte, Option.some.injEq] at hw
    split at hw
    · next hc =>
      cases hw
      rw [make_dense]
      refine ⟨viewsDense sz ptr ext hne, ?_⟩
      have hp : ∀ x ∈ d :: ds, 0 < x.size := fun x hx => hpos _ (List.mem_map_of_mem hx)
      have h1 := C15_view_continuous sz ptr (d :: ds) hnn hs hr hp hc.1
      obtain ⟨e, es, rfl⟩ := List.exists_cons_of_ne_nil hne
      obtain ⟨d2, ds2, hd2⟩ := dense_head sz e es
      obtain ⟨g1, g2, g3, -⟩ := dense_props sz (e :: es)
      have h2 := elem_tight sz d2 ds2 ptr (hd2 ▸ g2) (fun x hx => g3 x (by rw [hd2]; exact List.mem_of_mem_tail hx))
      rw [← hd2, g1, dense_total sz e es d2 ds2 hd2, ← hc.2] at h2
      refine Eq.trans h2 (Eq.trans ?_ h1.symm)
      simp only [plainAddrs, List.map_map, Function.comp_def]
      rw [shape_prod d ds hs, cells_prod]; rfl
    · cases hw

example : ∃ w, (⟨100, elemDescs 4 [4, 3] [3]⟩ : AView).reshape 4 [2, 6] = some w ∧ w.at 4 [1, 0] = (⟨100, elemDescs 4 [4, 3] [3]⟩ : AView).at 4 [2, 0] :=
  ⟨_, rfl, by decide⟩

/-- **C96** for `rebind`: the old pointer is returned; the shape is kept and every element is found at the same distance from the pointer. -/
theorem C96_rebind (sz : Nat) (v : AView) (ptr : Nat) (hv : Sound sz v) :
    (v.rebind ptr).2 = v.ptr ∧ dims (v.rebind ptr).1.descs = dims v.descs ∧ (v.rebind ptr).1.strides = v.strides ∧
    (v.rebind ptr).1.totalSize = v.totalSize ∧
    ∀ idx a, v.at sz idx = some a → v.ptr ≤ a ∧ (v.rebind ptr).1.at sz idx = some (ptr + (a - v.ptr)) := by
  refine ⟨rfl, rfl, rfl, rfl, fun idx a ha => ?_⟩
  have h1 := elem_dense_flat sz v.descs 0 v.ptr idx hv.nonempty
  have h2 := elem_dense_flat sz v.descs 0 ptr idx hv.nonempty
  simp only [Nat.zero_add] at h1 h2
  simp only [AView.at] at ha
  rw [h1] at ha
  cases hb : elem sz 0 v.descs idx with
  | none => rw [hb] at ha; cases ha
  | some b =>
    rw [hb] at ha h2
    cases ha
    refine ⟨Nat.le_add_left _ _, ?_⟩
    simp only [AView.rebind, AView.at, h2, Option.map_some]
    congr 1; omega

example : ((⟨100, elemDescs 4 [4, 3] [5]⟩ : AView).rebind 1000).1.at 4 [2, 1] = some 1044 := by decide

end Verif.ViewOf
