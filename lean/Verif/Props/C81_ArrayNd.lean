import Verif.Lemmas.ArrayNd
/-!
C81: arrays, views of them and rows of views are names for elements of the arrays: a program that uses them behaves as if every view
and every row were fixed, at its creation, to certain positions of one array; what is written through one name is read through all
names of the same position, and nothing else changes.
-/
set_option autoImplicit false

namespace Verif.ArrayNd
open Verif.Views
variable {α : Type}

/-! ## Specification

An array is its extents and its elements, in row-major order.  A view or a row is an array, the position of its first element and
its layout (extent and step of each dimension); the element with the indices `i, j, ..` is at the position
`start + i * step0 + j * step1 + ..`. `layout`, `rowMajor`, `pos`, `inRange` and `far` are at the head of `Lemmas/ArrayNd.lean`. -/

structure SView where
  arr : Nat
  start : Nat
  dims : List (Nat × Nat)

/-- A row also remembers the view it was taken from; it is `live` until that view is assigned to or destroyed. -/
structure SRow where
  arr : Nat
  start : Nat
  dims : List (Nat × Nat)
  view : Nat
  live : Bool

structure SSt (α : Type) where
  arrs : List (Arr α)
  views : List (Option SView)
  rows : List SRow

/-- The layout has elements and all of them are in the array `a`. -/
def fits (arrs : List (Arr α)) (a start : Nat) (dims : List (Nat × Nat)) : Bool :=
  match arrs[a]? with
  | some A => decide (start + far dims < A.cells.length) && dims.all fun d => decide (0 < d.1)
  | none => false

/-- Replace the elements of the array `a`. -/
def change (arrs : List (Arr α)) (a : Nat) (f : List α → List α) : List (Arr α) :=
  arrs.modify a fun A => { A with cells := f A.cells }

/-- The element at the given position of the array `a`. -/
def valueAt (arrs : List (Arr α)) (a p : Nat) : Option α := (arrs[a]?).bind fun A => A.cells[p]?

/-- The values, if all are there. -/
def allSome : List (Option α) → Option (List α)
  | [] => some []
  | x :: xs => x.bind fun y => (allSome xs).map fun ys => y :: ys

/-- All elements of a layout: indices in lexicographic order. -/
def valuesAt (arrs : List (Arr α)) (a start : Nat) (dims : List (Nat × Nat)) : Option (List α) :=
  allSome ((allIdx (dims.map Prod.fst)).map fun idx => valueAt arrs a (pos start dims idx))

def theView (t : SSt α) (v : Nat) : Option SView := (t.views[v]?).join

/-- A row that may be used. -/
def theRow (t : SSt α) (r : Nat) : Option SRow := (t.rows[r]?).bind fun R => if R.live then some R else none

/-- The rows after the view `v` has been assigned to or destroyed. -/
def endRows (v : Nat) (rows : List SRow) : List SRow := rows.map fun R => if R.view = v then { R with live := false } else R

/-- What each statement does (elements of `sz` bytes); `none`: the statement is not allowed. -/
def specStep (sz : Nat) (t : SSt α) : Op α → Option (SSt α × Res α)
  | .arrAt a idx => do
    let A ← t.arrs[a]?
    if idx.length = A.ext.length ∧ (∀ i ∈ idx, i < 2 ^ 64) then
      if inRange idx (rowMajor A.ext) then (valueAt t.arrs a (pos 0 (rowMajor A.ext) idx)).map fun x => (t, .val x)
      else some (t, .threw)
    else none
  | .arrGet a idx => do
    let A ← t.arrs[a]?
    if inRange idx (rowMajor A.ext) then (valueAt t.arrs a (pos 0 (rowMajor A.ext) idx)).map fun x => (t, .val x) else none
  | .arrSet a idx x => do
    let A ← t.arrs[a]?
    if inRange idx (rowMajor A.ext) then
      some ({ t with arrs := change t.arrs a fun c => c.set (pos 0 (rowMajor A.ext) idx) x }, .unit) else none
  | .arrAll a => (t.arrs[a]?).map fun A => (t, .vals A.cells)
  | .arrPlain a => (t.arrs[a]?).map fun A => (t, .vals A.cells)
  | .fill a x => (t.arrs[a]?).map fun _ => ({ t with arrs := change t.arrs a fun c => List.replicate c.length x }, .unit)
  | .fillOwn a idx => do
    let A ← t.arrs[a]?
    if inRange idx (rowMajor A.ext) then
      (valueAt t.arrs a (pos 0 (rowMajor A.ext) idx)).map fun x =>
        ({ t with arrs := change t.arrs a fun c => List.replicate c.length x }, .unit)
    else none
  | .swap a b => do
    let A ← t.arrs[a]?
    let B ← t.arrs[b]?
    if A.ext = B.ext then some ({ t with arrs := change (change t.arrs a fun _ => B.cells) b fun _ => A.cells }, .unit) else none
  | .copy a b => do
    let A ← t.arrs[a]?
    let B ← t.arrs[b]?
    if A.ext = B.ext then some ({ t with arrs := change t.arrs a fun _ => B.cells }, .unit) else none
  | .viewOf a => (t.arrs[a]?).map fun A => ({ t with views := t.views ++ [some ⟨a, 0, rowMajor A.ext⟩] }, .unit)
  | .viewPart a start ext strides =>
    -- the rows, padded to `strides`, are not longer than that; every element is in the array
    if strides.length + 1 = ext.length ∧ (∀ x ∈ ext.tail.zip strides, x.1 ≤ x.2) ∧ fits t.arrs a start (layout ext strides) then
      some ({ t with views := t.views ++ [some ⟨a, start, layout ext strides⟩] }, .unit)
    else none
  | .viewAgain v => (theView t v).map fun V => ({ t with views := t.views ++ [some V] }, .unit)
  | .reshape v ext => do
    let V ← theView t v
    -- no gaps, and as many elements as before
    if V.dims = rowMajor (V.dims.map Prod.fst) ∧ ext ≠ [] ∧ prod ext = prod (V.dims.map Prod.fst) then
      some ({ t with views := t.views ++ [some ⟨V.arr, V.start, rowMajor ext⟩] }, .unit)
    else none
  | .assign v w => do
    let V ← theView t v
    let W ← theView t w
    if V.dims.length = W.dims.length then
      some ({ t with views := t.views.set v (some W), rows := endRows v t.rows }, .unit)
    else none
  | .rebind v a => do
    let V ← theView t v
    if fits t.arrs a 0 V.dims then some ({ t with views := t.views.set v (some { V with arr := a, start := 0 }) }, .unit) else none
  | .drop v => (theView t v).map fun _ => ({ t with views := t.views.set v none, rows := endRows v t.rows }, .unit)
  | .viewInfo v => (theView t v).map fun V => (t, .info (V.dims.map Prod.fst) (V.dims.dropLast.map fun d => d.2 * sz))
  | .viewGet v idx => do
    let V ← theView t v
    if inRange idx V.dims then (valueAt t.arrs V.arr (pos V.start V.dims idx)).map fun x => (t, .val x) else none
  | .viewSet v idx x => do
    let V ← theView t v
    if inRange idx V.dims then
      some ({ t with arrs := change t.arrs V.arr fun c => c.set (pos V.start V.dims idx) x }, .unit) else none
  | .viewAll v => do
    let V ← theView t v
    (valuesAt t.arrs V.arr V.start V.dims).map fun xs => (t, .vals xs)
  | .row v i => do
    let V ← theView t v
    match V.dims with
    | d :: d' :: ds =>
      if i < d.1 then some ({ t with rows := t.rows ++ [⟨V.arr, V.start + i * d.2, d' :: ds, v, true⟩] }, .unit) else none
    | _ => none
  | .subRow r i => do
    let R ← theRow t r
    match R.dims with
    | d :: d' :: ds =>
      if i < d.1 then some ({ t with rows := t.rows ++ [⟨R.arr, R.start + i * d.2, d' :: ds, R.view, true⟩] }, .unit) else none
    | _ => none
  | .rowGet r idx => do
    let R ← theRow t r
    if inRange idx R.dims then (valueAt t.arrs R.arr (pos R.start R.dims idx)).map fun x => (t, .val x) else none
  | .rowSet r idx x => do
    let R ← theRow t r
    if inRange idx R.dims then
      some ({ t with arrs := change t.arrs R.arr fun c => c.set (pos R.start R.dims idx) x }, .unit) else none
  | .rowAll r => do
    let R ← theRow t r
    (valuesAt t.arrs R.arr R.start R.dims).map fun xs => (t, .vals xs)
  | .viewOfRow r => (theRow t r).map fun R => ({ t with views := t.views ++ [some ⟨R.arr, R.start, R.dims⟩] }, .unit)

/-- The statements one after the other. -/
def specRun (sz : Nat) (t : SSt α) : List (Op α) → Option (SSt α × List (Res α))
  | [] => some (t, [])
  | op :: ops => do
    let r ← specStep sz t op
    let q ← specRun sz r.1 ops
    some (q.1, r.2 :: q.2)

/-- An array has at least one dimension, extents above zero (array_nd.h l.31, 44), and as many elements as its extents say. -/
def ArrOk (A : Arr α) : Prop := A.ext ≠ [] ∧ (∀ e ∈ A.ext, 0 < e) ∧ A.cells.length = prod A.ext

/-! ## Lemmas -/

theorem allSome_map : ∀ {l : List (Option α)} {xs : List α}, allSome l = some xs → l = xs.map some
  | [], xs, h => by cases h; rfl
  | x :: l, xs, h => by
    cases x with
    | none => simp [allSome] at h
    | some y =>
      simp only [allSome, Option.bind_some, Option.map_eq_some_iff] at h
      obtain ⟨ys, h1, rfl⟩ := h
      simp [allSome_map h1]

theorem pos_rowMajor : ∀ (ext : List Nat), ext ≠ [] → ∀ (st : Nat),
    (allIdx ext).map (pos st (rowMajor ext)) = (List.range (prod ext)).map fun k => st + k
  | [], h, _ => absurd rfl h
  | [e], _, st => by
    simp only [allIdx, prod, Nat.mul_one, List.map_cons, List.map_nil]
    rw [← List.map_eq_flatMap, List.map_map]
    apply List.map_congr_left
    intro i _
    simp [pos, rowMajor, layout, steps]
  | e :: e' :: es, _, st => by
    have ih := pos_rowMajor (e' :: es) (by simp)
    rw [allIdx, List.map_flatMap, rowMajor_cons]
    have : ∀ i, List.map (pos st ((e, prod (e' :: es)) :: rowMajor (e' :: es))) (List.map (fun x => i :: x) (allIdx (e' :: es))) =
        (List.range (prod (e' :: es))).map fun j => st + (i * prod (e' :: es) + j) := by
      intro i
      rw [List.map_map]
      have h1 : (pos st ((e, prod (e' :: es)) :: rowMajor (e' :: es)) ∘ fun x => i :: x) = pos (st + i * prod (e' :: es)) (rowMajor (e' :: es)) := by
        funext x; rfl
      rw [h1, ih]
      apply List.map_congr_left
      intro j _
      omega
    simp only [this]
    exact range_mul (prod (e' :: es)) (fun k => st + k) e

theorem change_get (arrs : List (Arr α)) (a : Nat) (f : List α → List α) (b : Nat) :
    (change arrs a f)[b]? = (arrs[b]?).map fun A => if a = b then { A with cells := f A.cells } else A := by
  simp only [change, List.getElem?_modify]
  by_cases h : a = b <;> simp [h]

theorem change_put {arrs : List (Arr α)} {a : Nat} {A : Arr α} (h : arrs[a]? = some A) (f : List α → List α) :
    change arrs a f = putCells arrs a (f A.cells) := by
  apply List.ext_getElem?
  intro b
  rw [change_get, putCells_get]
  by_cases e : a = b
  · subst e; simp [h]
  · simp [e]

/-- The same arrays up to the values of the elements. -/
def SameShape (arrs arrs' : List (Arr α)) : Prop :=
  ∀ a : Nat, (arrs[a]?).map (fun A => (A.ext, A.cells.length)) = (arrs'[a]?).map (fun A => (A.ext, A.cells.length))

theorem sameShape_put {arrs : List (Arr α)} {a : Nat} {A : Arr α} (h : arrs[a]? = some A) {c : List α} (hc : c.length = A.cells.length) :
    SameShape arrs (putCells arrs a c) := by
  intro b
  rw [putCells_get]
  by_cases e : a = b
  · subst e; simp [h, hc]
  · simp [e]

theorem SameShape.trans {x y z : List (Arr α)} (h : SameShape x y) (h' : SameShape y z) : SameShape x z :=
  fun a => (h a).trans (h' a)

theorem SameShape.fits {x y : List (Arr α)} (h : SameShape x y) (a start : Nat) (dims : List (Nat × Nat)) :
    fits y a start dims = fits x a start dims := by
  have := h a
  simp only [ArrayNd.fits]
  cases hx : x[a]? <;> cases hy : y[a]? <;> simp [hx, hy] at this ⊢
  rw [this.2]

theorem SameShape.ok {x y : List (Arr α)} (h : SameShape x y) (hx : ∀ A ∈ x, ArrOk A) : ∀ A ∈ y, ArrOk A := by
  intro A hA
  obtain ⟨a, ha⟩ := List.mem_iff_getElem?.1 hA
  have := h a
  rw [ha] at this
  cases hb : x[a]? with
  | none => rw [hb] at this; simp at this
  | some B =>
    rw [hb] at this
    simp only [Option.map_some, Option.some.injEq, Prod.mk.injEq] at this
    obtain ⟨o1, o2, o3⟩ := hx B (List.mem_of_getElem? hb)
    exact ⟨by rw [← this.1]; exact o1, by rw [← this.1]; exact o2, by rw [← this.1, ← this.2]; exact o3⟩

/-- A view and what it stands for. -/
structure ViewRel (sz : Nat) (arrs : List (Arr α)) (V : View) (W : SView) : Prop where
  arr : V.arr = W.arr
  base : V.base = W.start * sz
  rel : RelD sz V.descs W.dims
  shape : Shape V.descs
  rows : Rows sz V.descs
  fits : fits arrs W.arr W.start W.dims = true

inductive VR (sz : Nat) (arrs : List (Arr α)) : Option (Option View) → Option (Option SView) → Prop where
  | none : VR sz arrs none none
  | dead : VR sz arrs (some none) (some none)
  | live {V : View} {W : SView} (h : ViewRel sz arrs V W) : VR sz arrs (some (some V)) (some (some W))

theorem VR.isSome {sz : Nat} {arrs : List (Arr α)} {x : Option (Option View)} {y : Option (Option SView)} (h : VR sz arrs x y) :
    x.isSome = y.isSome := by cases h <;> rfl

/-- A row and what it stands for. -/
structure RowRel (sz : Nat) (arrs : List (Arr α)) (views : List (Option View)) (r : Row) (R : SRow) : Prop where
  arr : r.arr = R.arr
  base : r.base = R.start * sz
  view : r.view = R.view
  live : R.live = true → ∃ V, views[r.view]? = some (some V) ∧ RelD sz (V.descs.drop r.lvl) R.dims ∧ Shape (V.descs.drop r.lvl) ∧
    Rows sz (V.descs.drop r.lvl) ∧ ArrayNd.fits arrs R.arr R.start R.dims = true

structure Rel (sz : Nat) (s : St α) (t : SSt α) : Prop where
  arrs : s.arrs = t.arrs
  ok : ∀ A ∈ t.arrs, ArrOk A
  views : ∀ v : Nat, VR sz t.arrs s.views[v]? t.views[v]?
  len : s.rows.length = t.rows.length
  rows : ∀ (r : Nat) (R : Row) (R' : SRow), s.rows[r]? = some R → t.rows[r]? = some R' → RowRel sz t.arrs s.views R R'

section
variable {sz : Nat} {s : St α} {t : SSt α}

theorem Rel.view (h : Rel sz s t) {v : Nat} {W : SView} (hv : theView t v = some W) :
    ∃ V, ArrayNd.view s v = .ok V ∧ s.views[v]? = some (some V) ∧ ViewRel sz t.arrs V W := by
  have hv' : t.views[v]? = some (some W) := by
    simp only [theView] at hv
    cases e : t.views[v]? with
    | none => simp [e] at hv
    | some o => rw [e] at hv; simpa using hv
  have := h.views v
  rw [hv'] at this
  generalize hs : s.views[v]? = o at this
  cases this with
  | live h' => exact ⟨_, by simp [ArrayNd.view, hs], rfl, h'⟩

theorem Rel.row (h : Rel sz s t) {r : Nat} {R' : SRow} (hr : theRow t r = some R') :
    ∃ R V, s.rows[r]? = some R ∧ s.views[R.view]? = some (some V) ∧ rowDescs s R = .ok (V.descs.drop R.lvl) ∧ R.arr = R'.arr ∧
      R.base = R'.start * sz ∧ R.view = R'.view ∧ RelD sz (V.descs.drop R.lvl) R'.dims ∧ Shape (V.descs.drop R.lvl) ∧
      Rows sz (V.descs.drop R.lvl) ∧ fits t.arrs R'.arr R'.start R'.dims = true := by
  simp only [theRow, Option.bind_eq_some_iff] at hr
  obtain ⟨R0, hr0, hl⟩ := hr
  split at hl
  · rename_i hlive
    simp only [Option.some.injEq] at hl
    subst hl
    have hlt : r < s.rows.length := by
      rw [h.len]; exact (List.getElem?_eq_some_iff.1 hr0).1
    have hs : s.rows[r]? = some s.rows[r] := List.getElem?_eq_getElem hlt
    have hr := h.rows r _ _ hs hr0
    obtain ⟨V, h1, h2, h3, h4, h5⟩ := hr.live hlive
    exact ⟨_, V, hs, h1, by simp [rowDescs, ArrayNd.view, h1, Out.bind], hr.arr, hr.base, hr.view, h2, h3, h4, h5⟩
  · simp at hl

theorem fits_lt {arrs : List (Arr α)} {a start : Nat} {dims : List (Nat × Nat)} (h : fits arrs a start dims = true) :
    ∃ A, arrs[a]? = some A ∧ start + far dims < A.cells.length ∧ ∀ d ∈ dims, 0 < d.1 := by
  simp only [fits] at h
  split at h
  · rename_i A hA
    simp only [Bool.and_eq_true, decide_eq_true_eq, List.all_eq_true] at h
    exact ⟨A, hA, h.1, h.2⟩
  · simp at h

theorem fits_iff {arrs : List (Arr α)} {a start : Nat} {dims : List (Nat × Nat)} {A : Arr α} (hA : arrs[a]? = some A) :
    fits arrs a start dims = true ↔ start + far dims < A.cells.length ∧ ∀ d ∈ dims, 0 < d.1 := by
  simp only [fits, hA, Bool.and_eq_true, decide_eq_true_eq, List.all_eq_true]

theorem arr_fits {A : Arr α} (h : ArrOk A) {a : Nat} {arrs : List (Arr α)} (ha : arrs[a]? = some A) :
    fits arrs a 0 (rowMajor A.ext) = true := by
  rw [fits_iff ha]
  have := rowMajor_far A.ext h.1 h.2.1
  refine ⟨by rw [h.2.2]; omega, ?_⟩
  intro d hd
  apply h.2.1
  have : d.1 ∈ (rowMajor A.ext).map Prod.fst := List.mem_map.2 ⟨d, hd, rfl⟩
  rwa [rowMajor_fst A.ext h.1] at this

theorem sizes_pos {ds : List Desc} {dims : List (Nat × Nat)} (h : RelD sz ds dims) (hp : ∀ d ∈ dims, 0 < d.1) : ∀ d ∈ ds, 0 < d.size := by
  intro d hd
  have h1 : d.size ∈ ds.map Desc.size := List.mem_map.2 ⟨d, hd, rfl⟩
  rw [h.sizes] at h1
  obtain ⟨x, hx, e⟩ := List.mem_map.1 h1
  rw [← e]; exact hp x hx

/-- Reading an element of a layout. -/
theorem get_ok (hsz : 0 < sz) (h : Rel sz s t) {ds : List Desc} {dims : List (Nat × Nat)} {a start : Nat} (hd : RelD sz ds dims)
    {idx : List Nat} (hi : inRange idx dims = true) {x : α}
    (hx : valueAt t.arrs a (pos start dims idx) = some x) :
    ((Out.get (elem sz (start * sz) ds idx)).bind fun off => getAt sz s a off) = .ok (s, .val x) := by
  rw [elem_pos hd idx start (inRange_length idx dims hi)]
  simp only [valueAt, Option.bind_eq_some_iff] at hx
  obtain ⟨A, hA, hx⟩ := hx
  simp only [Out.get, Out.bind, getAt, h.arrs, hA, load_ok hsz hx]

/-- Changing elements keeps the relation. -/
theorem Rel.change (h : Rel sz s t) {arrs' : List (Arr α)} (hs : SameShape t.arrs arrs') :
    Rel sz { s with arrs := arrs' } { t with arrs := arrs' } := by
  refine ⟨rfl, hs.ok h.ok, ?_, h.len, ?_⟩
  · intro v
    have hv := h.views v
    show VR sz arrs' s.views[v]? t.views[v]?
    generalize s.views[v]? = x at hv ⊢
    generalize t.views[v]? = y at hv ⊢
    cases hv with
    | none => exact .none
    | dead => exact .dead
    | live h' => exact .live { h' with fits := by rw [hs.fits]; exact h'.fits }
  · intro r R R' h1 h2
    have hr := h.rows r R R' h1 h2
    refine ⟨hr.arr, hr.base, hr.view, ?_⟩
    intro hl
    obtain ⟨V, a1, a2, a3, a4, a5⟩ := hr.live hl
    exact ⟨V, a1, a2, a3, a4, by rw [show ({ t with arrs := arrs' } : SSt α).arrs = arrs' from rfl, hs.fits]; exact a5⟩

/-- Writing an element of a layout. -/
theorem set_ok (hsz : 0 < sz) (h : Rel sz s t) {ds : List Desc} {dims : List (Nat × Nat)} {a start : Nat} (hd : RelD sz ds dims)
    {idx : List Nat} (hi : inRange idx dims = true) (hf : fits t.arrs a start dims = true) (x : α) :
    ∃ s', ((Out.get (elem sz (start * sz) ds idx)).bind fun off => setAt sz s a off x) = .ok (s', .unit) ∧
      Rel sz s' { t with arrs := ArrayNd.change t.arrs a fun c => c.set (pos start dims idx) x } := by
  obtain ⟨A, hA, hlt, -⟩ := fits_lt hf
  have hp := pos_le dims idx start hi
  rw [elem_pos hd idx start (inRange_length idx dims hi)]
  refine ⟨{ s with arrs := putCells t.arrs a (A.cells.set (pos start dims idx) x) }, ?_, ?_⟩
  · simp only [Out.get, Out.bind, setAt, h.arrs, hA, store_ok hsz x (show pos start dims idx < A.cells.length by omega)]
  · rw [change_put hA]
    exact h.change (sameShape_put hA (by simp))

theorem getAll_ok (hsz : 0 < sz) (h : Rel sz s t) {ds : List Desc} {dims : List (Nat × Nat)} {a start : Nat} (hd : RelD sz ds dims)
    (hsh : Shape ds) (hr : Rows sz ds) (hf : fits t.arrs a start dims = true) {xs : List α}
    (hx : valuesAt t.arrs a start dims = some xs) : getAll sz s a (iterOffs sz ds (start * sz)) = .ok (s, .vals xs) := by
  obtain ⟨A, hA, hlt, hp⟩ := fits_lt hf
  have h1 := allSome_map hx
  rw [iterOffs_eq hsz hd hsh hr (sizes_pos hd hp)]
  have h2 : ((allIdx (dims.map Prod.fst)).map (pos start dims)).map (fun k => A.cells[k]?) = xs.map some := by
    rw [← h1, List.map_map]
    apply List.map_congr_left
    intro idx _
    simp [valueAt, hA]
  have h3 := loadAll_ok hsz h2
  rw [List.map_map] at h3
  simp only [getAll, h.arrs, hA, Out.get, Out.bind]
  have e : ((fun x => x * sz) ∘ pos start dims) = fun idx => pos start dims idx * sz := rfl
  rw [e] at h3
  rw [h3]

theorem values_arr {A : Arr α} (hA : ArrOk A) {arrs : List (Arr α)} {a : Nat} (ha : arrs[a]? = some A) :
    (allIdx A.ext).map (fun idx => A.cells[pos 0 (rowMajor A.ext) idx]?) = A.cells.map some := by
  have := pos_rowMajor A.ext hA.1 0
  have h2 := congrArg (List.map fun k => A.cells[k]?) this
  rw [List.map_map, List.map_map] at h2
  refine h2.trans ?_
  rw [← hA.2.2]
  apply List.ext_getElem?
  intro k
  simp only [List.getElem?_map, List.getElem?_range, Function.comp]
  by_cases hk : k < A.cells.length
  · simp [List.getElem?_range hk, hk]
  · simp [List.getElem?_eq_none (Nat.le_of_not_lt hk), hk]

theorem Rel.viewsLen (h : Rel sz s t) : s.views.length = t.views.length := by
  have key : ∀ v : Nat, v < s.views.length ↔ v < t.views.length := by
    intro v
    have := (h.views v).isSome
    rw [Bool.eq_iff_iff] at this
    simpa using this
  have h1 := key s.views.length
  have h2 := key t.views.length
  omega

theorem Rel.newView (h : Rel sz s t) {V : View} {W : SView} (hv : ViewRel sz t.arrs V W) :
    Rel sz { s with views := s.views ++ [some V] } { t with views := t.views ++ [some W] } := by
  have hlen := h.viewsLen
  refine ⟨h.arrs, h.ok, ?_, h.len, ?_⟩
  · intro v
    show VR sz t.arrs (s.views ++ [some V])[v]? (t.views ++ [some W])[v]?
    simp only [List.getElem?_append, hlen]
    split
    · exact h.views v
    · cases e : v - t.views.length with
      | zero => exact .live hv
      | succ n => simp; exact .none
  · intro r R R' h1 h2
    have hr := h.rows r R R' h1 h2
    refine ⟨hr.arr, hr.base, hr.view, ?_⟩
    intro hl
    obtain ⟨V', a1, a2⟩ := hr.live hl
    refine ⟨V', ?_, a2⟩
    show (s.views ++ [some V])[R.view]? = _
    rw [List.getElem?_append_left (List.getElem?_eq_some_iff.1 a1).1]
    exact a1

theorem Rel.newRow (h : Rel sz s t) {R : Row} {R' : SRow} (hr : RowRel sz t.arrs s.views R R') :
    Rel sz { s with rows := s.rows ++ [R] } { t with rows := t.rows ++ [R'] } := by
  refine ⟨h.arrs, h.ok, h.views, by simp [h.len], ?_⟩
  intro r Q Q' h1 h2
  change (s.rows ++ [R])[r]? = _ at h1
  change (t.rows ++ [R'])[r]? = _ at h2
  by_cases hlt : r < s.rows.length
  · rw [List.getElem?_append_left hlt] at h1
    rw [List.getElem?_append_left (by rw [← h.len]; exact hlt)] at h2
    exact h.rows r Q Q' h1 h2
  · rw [List.getElem?_append_right (Nat.le_of_not_lt hlt)] at h1
    rw [List.getElem?_append_right (by rw [← h.len]; exact Nat.le_of_not_lt hlt)] at h2
    rw [← h.len] at h2
    cases e : r - s.rows.length with
    | zero =>
      rw [e] at h1 h2
      simp only [List.getElem?_cons_zero, Option.some.injEq] at h1 h2
      subst h1; subst h2
      exact hr
    | succ n => rw [e] at h1; simp at h1

theorem endRows_get {v r : Nat} {rows : List SRow} {R' : SRow} (h : (endRows v rows)[r]? = some R') :
    ∃ R, rows[r]? = some R ∧ R' = if R.view = v then { R with live := false } else R := by
  simp only [endRows, List.getElem?_map, Option.map_eq_some_iff] at h
  obtain ⟨R, h1, h2⟩ := h
  exact ⟨R, h1, h2.symm⟩

/-- A view is replaced and its rows come to an end. -/
theorem Rel.endView (h : Rel sz s t) {v : Nat} {V : Option View} {W : Option SView}
    (hv : v < s.views.length) (hw : VR sz t.arrs (some V) (some W)) :
    Rel sz { s with views := s.views.set v V } { t with views := t.views.set v W, rows := endRows v t.rows } := by
  refine ⟨h.arrs, h.ok, ?_, by simp [endRows, h.len], ?_⟩
  · intro u
    show VR sz t.arrs (s.views.set v V)[u]? (t.views.set v W)[u]?
    by_cases e : v = u
    · subst e
      have hl : v < t.views.length := by rw [← h.viewsLen]; exact hv
      rw [List.getElem?_set_self hv, List.getElem?_set_self hl]
      exact hw
    · rw [List.getElem?_set_ne e, List.getElem?_set_ne e]
      exact h.views u
  · intro r R R' h1 h2
    obtain ⟨R0, h3, rfl⟩ := endRows_get h2
    have hr := h.rows r R R0 h1 h3
    by_cases e : R0.view = v
    · rw [if_pos e]
      exact ⟨hr.arr, hr.base, hr.view, (fun hl => by cases hl)⟩
    · rw [if_neg e]
      refine ⟨hr.arr, hr.base, hr.view, ?_⟩
      intro hl
      obtain ⟨V', a1, a2⟩ := hr.live hl
      refine ⟨V', ?_, a2⟩
      show (s.views.set v V)[R.view]? = _
      rw [List.getElem?_set_ne (by rw [hr.view]; exact fun e' => e e'.symm)]
      exact a1

/-- A view gets another pointer: its rows go on as before. -/
theorem Rel.rebind (h : Rel sz s t) {v : Nat} {V V' : View} {W : SView} (hv : s.views[v]? = some (some V)) (hd : V'.descs = V.descs)
    (hw : ViewRel sz t.arrs V' W) :
    Rel sz { s with views := s.views.set v (some V') } { t with views := t.views.set v (some W) } := by
  have hlt : v < s.views.length := (List.getElem?_eq_some_iff.1 hv).1
  refine ⟨h.arrs, h.ok, ?_, h.len, ?_⟩
  · intro u
    show VR sz t.arrs (s.views.set v (some V'))[u]? (t.views.set v (some W))[u]?
    by_cases e : v = u
    · subst e
      have hl : v < t.views.length := by rw [← h.viewsLen]; exact hlt
      rw [List.getElem?_set_self hlt, List.getElem?_set_self hl]
      exact .live hw
    · rw [List.getElem?_set_ne e, List.getElem?_set_ne e]
      exact h.views u
  · intro r R R' h1 h2
    have hr := h.rows r R R' h1 h2
    refine ⟨hr.arr, hr.base, hr.view, ?_⟩
    intro hl
    obtain ⟨U, a1, a2⟩ := hr.live hl
    by_cases e : v = R.view
    · refine ⟨V', ?_, ?_⟩
      · show (s.views.set v (some V'))[R.view]? = _
        rw [← e, List.getElem?_set_self hlt]
      · rw [← e, hv] at a1
        cases a1
        rw [hd]; exact a2
    · refine ⟨U, ?_, a2⟩
      show (s.views.set v (some V'))[R.view]? = _
      rw [List.getElem?_set_ne e]
      exact a1

theorem shape_tail {d d' : Desc} {ds : List Desc} (h : Shape (d :: d' :: ds)) : Shape (d' :: ds) := h.2
theorem rows_tail {d d' : Desc} {ds : List Desc} (h : Rows sz (d :: d' :: ds)) : Rows sz (d' :: ds) := h.2

/-- The sub-view number `i` of a layout. -/
theorem sub_ok {ds : List Desc} {d d' : Nat × Nat} {dims : List (Nat × Nat)} (hd : RelD sz ds (d :: d' :: dims)) {start : Nat} (i : Nat) :
    ∃ x y zs, ds = x :: y :: zs ∧ RelD sz (y :: zs) (d' :: dims) ∧ subOf (start * sz) ds i = .ok ((start + i * d.2) * sz) := by
  cases ds with
  | nil => exact absurd rfl hd.ne
  | cons x ds =>
    cases ds with
    | nil => simp [RelD] at hd
    | cons y zs =>
      refine ⟨x, y, zs, rfl, hd.2.2, ?_⟩
      simp only [subOf, hd.2.1]
      rw [← Nat.mul_assoc, ← Nat.add_mul]

theorem fits_sub {arrs : List (Arr α)} {a start : Nat} {d : Nat × Nat} {dims : List (Nat × Nat)} (h : fits arrs a start (d :: dims) = true)
    {i : Nat} (hi : i < d.1) : fits arrs a (start + i * d.2) dims = true := by
  obtain ⟨A, hA, h1, h2⟩ := fits_lt h
  rw [fits_iff hA]
  simp only [far] at h1
  have := Nat.mul_le_mul_right d.2 (show i ≤ d.1 - 1 by omega)
  exact ⟨by omega, fun x hx => h2 x (by simp [hx])⟩

theorem descsOfRow_ok {ds : List Desc} {dims : List (Nat × Nat)} (hd : RelD sz ds dims) (hs : Shape ds) (hr : Rows sz ds) :
    RelD sz (descsOfRow sz ds) dims ∧ Shape (descsOfRow sz ds) ∧ Rows sz (descsOfRow sz ds) := by
  match ds, hd, hs, hr with
  | [], hd, _, _ => exact absurd rfl hd.ne
  | [d], hd, hs, hr =>
    refine ⟨?_, rfl, Nat.le_refl _⟩
    match dims, hd with
    | [x], hd => exact hd
    | [], hd => simp [RelD] at hd
    | _ :: _ :: _, hd => simp [RelD] at hd
  | d :: d' :: ds, hd, hs, hr => exact ⟨hd, hs, hr⟩

theorem arrAt_get {idx : List Nat} {ext : List Nat} : ∀ (p : Nat), ext ≠ [] → idx.length = ext.length → (∀ i ∈ idx, i < 2 ^ 64) →
    arrAt sz p ext (idx.map Int.ofNat) =
      if inRange idx (rowMajor ext) then (arrElem sz p ext idx).map .elem else some .throws := by
  have conv : ∀ i : Nat, i < 2 ^ 64 → toSize (Int.ofNat i) = i := by
    intro i hi
    simp only [toSize]
    have : (Int.ofNat i) % (2 ^ 64 : Int) = i := Int.emod_eq_of_lt (by simp) (by simp; omega)
    rw [this]; rfl
  induction ext generalizing idx with
  | nil => intro p h; exact absurd rfl h
  | cons e es ih =>
    intro p _ hl hi
    cases idx with
    | nil => simp at hl
    | cons i is =>
      have ci := conv i (hi i (by simp))
      cases es with
      | nil =>
        cases is with
        | cons j js => simp at hl
        | nil =>
          simp only [List.map_cons, List.map_nil, arrAt, ci, rowMajor, layout, steps, List.tail, List.zip_cons_cons, List.zip_nil_left,
            inRange, arrElem, Bool.and_true, decide_eq_true_eq]
          by_cases h : i < e
          · rw [if_neg (by omega), if_pos h]; rfl
          · rw [if_pos (by omega), if_neg h]
      | cons e' es =>
        have := ih (idx := is) (p + i * totalSize (e' :: es) * sz) (by simp) (by simpa using hl) (fun x hx => hi x (by simp [hx]))
        rw [rowMajor_cons]
        simp only [List.map_cons, arrAt, ci, inRange, arrElem]
        by_cases h : i < e
        · rw [if_neg (by omega), this]
          simp only [h, decide_true, Bool.true_and]
        · rw [if_pos (by omega)]
          simp [h]

/-- The array itself as a layout. -/
theorem arrElem_get (ext : List Nat) (h : ext ≠ []) (idx : List Nat) : arrElem sz 0 ext idx = elem sz (0 * sz) (denseDescs sz ext) idx := by
  rw [arrElem_eq, Nat.zero_mul]

theorem bind_ok {β γ : Type} (b : β) (f : β → Out γ) : (Out.ok b).bind f = f b := rfl
theorem bind_some {β γ : Type} (b : β) (f : β → Out γ) : (Out.get (some b)).bind f = f b := rfl

theorem step_ok (hsz : 0 < sz) (h : Rel sz s t) {op : Op α} {t' : SSt α} {r : Res α} (hop : specStep sz t op = some (t', r)) :
    ∃ s', step sz s op = .ok (s', r) ∧ Rel sz s' t' := by
  cases op with
  | arrAt a idx =>
    simp only [specStep, Option.bind_eq_bind, Option.bind_eq_some_iff] at hop
    obtain ⟨A, hA, hop⟩ := hop
    have ok := h.ok A (List.mem_of_getElem? hA)
    split at hop
    · rename_i hl
      have key := arrAt_get (sz := sz) 0 ok.1 hl.1 hl.2
      by_cases hi : inRange idx (rowMajor A.ext) = true
      · rw [if_pos hi] at hop key
        simp only [Option.map_eq_some_iff, Prod.mk.injEq] at hop
        obtain ⟨x, hx, rfl, rfl⟩ := hop
        have hg := get_ok hsz h (relD_dense sz A.ext ok.1) hi hx
        rw [← arrElem_get A.ext ok.1] at hg
        refine ⟨s, ?_, h⟩
        simp only [step, h.arrs, hA, Out.get, Out.bind, key]
        cases he : arrElem sz 0 A.ext idx with
        | none => rw [he] at hg; simp [Out.get, Out.bind] at hg
        | some off => rw [he] at hg; simpa [Out.get, Out.bind] using hg
      · rw [if_neg hi] at hop key
        simp only [Option.some.injEq, Prod.mk.injEq] at hop
        obtain ⟨rfl, rfl⟩ := hop
        exact ⟨s, by simp only [step, h.arrs, hA, Out.get, Out.bind, key], h⟩
    · simp at hop
  | arrGet a idx =>
    simp only [specStep, Option.bind_eq_bind, Option.bind_eq_some_iff] at hop
    obtain ⟨A, hA, hop⟩ := hop
    have ok := h.ok A (List.mem_of_getElem? hA)
    split at hop
    · rename_i hi
      simp only [Option.map_eq_some_iff, Prod.mk.injEq] at hop
      obtain ⟨x, hx, rfl, rfl⟩ := hop
      have hg := get_ok hsz h (relD_dense sz A.ext ok.1) hi hx
      rw [← arrElem_get A.ext ok.1] at hg
      refine ⟨s, ?_, h⟩
      simp only [step]
      rw [h.arrs, hA]
      exact hg
    · simp at hop
  | arrSet a idx x =>
    simp only [specStep, Option.bind_eq_bind, Option.bind_eq_some_iff] at hop
    obtain ⟨A, hA, hop⟩ := hop
    have ok := h.ok A (List.mem_of_getElem? hA)
    split at hop
    · rename_i hi
      simp only [Option.some.injEq, Prod.mk.injEq] at hop
      obtain ⟨rfl, rfl⟩ := hop
      obtain ⟨s', h1, h2⟩ := set_ok hsz h (relD_dense sz A.ext ok.1) hi (arr_fits ok hA) x
      rw [← arrElem_get A.ext ok.1] at h1
      refine ⟨s', ?_, h2⟩
      simp only [step]
      rw [h.arrs, hA]
      exact h1
    · simp at hop
  | arrAll a =>
    simp only [specStep, Option.map_eq_some_iff, Prod.mk.injEq] at hop
    obtain ⟨A, hA, rfl, rfl⟩ := hop
    have ok := h.ok A (List.mem_of_getElem? hA)
    refine ⟨s, ?_, h⟩
    obtain ⟨-, h2, -, h4⟩ := dense_props sz A.ext
    have hd := relD_dense sz A.ext ok.1
    obtain ⟨-, -, -, hp⟩ := fits_lt (arr_fits ok hA)
    have hf := rowMajor_fst A.ext ok.1
    have e := iterOffs_eq hsz hd h2 h4 (sizes_pos hd hp) 0
    rw [hf, Nat.zero_mul, ← arrIterOffs_eq sz A.ext ok.1] at e
    have hv := values_arr ok hA
    have h3 := loadAll_ok hsz (ks := (allIdx A.ext).map (pos 0 (rowMajor A.ext))) (by rw [List.map_map]; exact hv)
    rw [List.map_map] at h3
    simp only [step, getAll, h.arrs, hA, Out.get, Out.bind, e]
    rw [show (fun idx => pos 0 (rowMajor A.ext) idx * sz) = ((fun x => x * sz) ∘ pos 0 (rowMajor A.ext)) from rfl, h3]
  | arrPlain a =>
    simp only [specStep, Option.map_eq_some_iff, Prod.mk.injEq] at hop
    obtain ⟨A, hA, rfl, rfl⟩ := hop
    have ok := h.ok A (List.mem_of_getElem? hA)
    refine ⟨s, ?_, h⟩
    have e := walk_eq sz hsz (totalSize A.ext) 0
    rw [Nat.zero_add] at e
    have h3 := loadAll_ok hsz (cells := A.cells) (ks := List.range A.cells.length) (xs := A.cells) (by
      apply List.ext_getElem?
      intro k
      by_cases hk : k < A.cells.length
      · simp [List.getElem?_range hk, hk]
      · simp [List.getElem?_eq_none (Nat.le_of_not_lt hk), hk])
    simp only [step, getAll, h.arrs, hA, Out.get, Out.bind, e]
    rw [totalSize_prod A.ext ok.1, ← ok.2.2]
    have : (List.range A.cells.length).map (fun k => 0 + k * sz) = (List.range A.cells.length).map (· * sz) := by
      apply List.map_congr_left; intro k _; omega
    rw [this, h3]
  | fill a x =>
    simp only [specStep, Option.map_eq_some_iff, Prod.mk.injEq] at hop
    obtain ⟨A, hA, rfl, rfl⟩ := hop
    have ok := h.ok A (List.mem_of_getElem? hA)
    have e : fillLoop x (totalSize A.ext) 0 A.cells = List.replicate A.cells.length x := by
      rw [totalSize_prod A.ext ok.1, ← ok.2.2, fillLoop_eq x _ 0 _ (by simp)]; simp
    refine ⟨{ s with arrs := putCells t.arrs a (List.replicate A.cells.length x) }, ?_, ?_⟩
    · simp only [step, h.arrs, hA, Out.get, Out.bind, e]
    · rw [change_put hA]
      exact h.change (sameShape_put hA (by simp))
  | fillOwn a idx =>
    simp only [specStep, Option.bind_eq_bind, Option.bind_eq_some_iff] at hop
    obtain ⟨A, hA, hop⟩ := hop
    have ok := h.ok A (List.mem_of_getElem? hA)
    split at hop
    · rename_i hi
      simp only [Option.map_eq_some_iff, Prod.mk.injEq] at hop
      obtain ⟨x, hx, rfl, rfl⟩ := hop
      simp only [valueAt, hA, Option.bind_some] at hx
      have hlt : pos 0 (rowMajor A.ext) idx < A.cells.length := (List.getElem?_eq_some_iff.1 hx).1
      have he := elem_pos (relD_dense sz A.ext ok.1) idx 0 (inRange_length _ _ hi)
      rw [← arrElem_get A.ext ok.1] at he
      have e : fillOwnLoop (pos 0 (rowMajor A.ext) idx) (totalSize A.ext) 0 A.cells = List.replicate A.cells.length x := by
        rw [totalSize_prod A.ext ok.1, ← ok.2.2, fillOwnLoop_eq x _ _ 0 _ (by simp) hx, fillLoop_eq x _ 0 _ (by simp)]; simp
      refine ⟨{ s with arrs := putCells t.arrs a (List.replicate A.cells.length x) }, ?_, ?_⟩
      · simp only [step, h.arrs, hA, Out.get, Out.bind, he, cellAt_ok hsz hlt, e]
      · rw [change_put hA]
        exact h.change (sameShape_put hA (by simp))
    · simp at hop
  | swap a b =>
    simp only [specStep, Option.bind_eq_bind, Option.bind_eq_some_iff] at hop
    obtain ⟨A, hA, B, hB, hop⟩ := hop
    have okA := h.ok A (List.mem_of_getElem? hA)
    have okB := h.ok B (List.mem_of_getElem? hB)
    split at hop
    · rename_i hext
      simp only [Option.some.injEq, Prod.mk.injEq] at hop
      obtain ⟨rfl, rfl⟩ := hop
      have hlen : A.cells.length = B.cells.length := by rw [okA.2.2, okB.2.2, hext]
      refine ⟨{ s with arrs := swapLoop a b (totalSize A.ext) 0 t.arrs }, ?_, ?_⟩
      · simp only [step, h.arrs, hA, hB, Out.get, Out.bind, if_pos hext]
      · rw [totalSize_prod A.ext okA.1, ← okA.2.2]
        by_cases hab : a = b
        · subst hab
          rw [hA] at hB
          cases hB
          rw [swapLoop_self, change_put hA, putCells_self hA, change_put hA, putCells_self hA]
          have := h.change (arrs' := t.arrs) (fun _ => rfl)
          exact this
        · have hB' : (putCells t.arrs a B.cells)[b]? = some B := by rw [putCells_get, hB]; simp [hab]
          rw [swapLoop_eq hab _ 0 _ A B hA hB (by simp) (by omega), change_put hA, change_put hB']
          simp only [List.take_zero, List.nil_append, List.drop_zero]
          exact h.change ((sameShape_put hA hlen.symm).trans (sameShape_put hB' hlen))
    · simp at hop
  | copy a b =>
    simp only [specStep, Option.bind_eq_bind, Option.bind_eq_some_iff] at hop
    obtain ⟨A, hA, B, hB, hop⟩ := hop
    have okA := h.ok A (List.mem_of_getElem? hA)
    have okB := h.ok B (List.mem_of_getElem? hB)
    split at hop
    · rename_i hext
      simp only [Option.some.injEq, Prod.mk.injEq] at hop
      obtain ⟨rfl, rfl⟩ := hop
      have hlen : A.cells.length = B.cells.length := by rw [okA.2.2, okB.2.2, hext]
      refine ⟨{ s with arrs := copyLoop a b (totalSize A.ext) 0 t.arrs }, ?_, ?_⟩
      · simp only [step, h.arrs, hA, hB, Out.get, Out.bind, if_pos hext]
      · rw [totalSize_prod A.ext okA.1, ← okA.2.2]
        by_cases hab : a = b
        · subst hab
          rw [hA] at hB
          cases hB
          rw [copyLoop_self, change_put hA, putCells_self hA]
          have := h.change (arrs' := t.arrs) (fun _ => rfl)
          exact this
        · rw [copyLoop_eq hab _ 0 _ A B hA hB (by simp) (by omega), change_put hA]
          simp only [List.take_zero, List.nil_append, List.drop_zero]
          exact h.change (sameShape_put hA hlen.symm)
    · simp at hop
  | viewOf a =>
    simp only [specStep, Option.map_eq_some_iff, Prod.mk.injEq] at hop
    obtain ⟨A, hA, rfl, rfl⟩ := hop
    have ok := h.ok A (List.mem_of_getElem? hA)
    obtain ⟨p1, p2⟩ := descsOfArr_props sz A.ext ok.1
    have g := h.newView (V := ⟨a, 0, descsOfArr sz A.ext⟩) (W := ⟨a, 0, rowMajor A.ext⟩)
      ⟨rfl, by simp, relD_arr sz A.ext ok.1, p1, p2, arr_fits ok hA⟩
    exact ⟨_, by simp only [step, (show s.arrs[a]? = some A by rw [h.arrs]; exact hA), Out.get, Out.bind]; rfl, g⟩
  | viewPart a start ext strides =>
    simp only [specStep] at hop
    split at hop
    · rename_i hc
      obtain ⟨c1, c2, c3⟩ := hc
      simp only [Option.some.injEq, Prod.mk.injEq] at hop
      obtain ⟨rfl, rfl⟩ := hop
      obtain ⟨A, hA, -⟩ := fits_lt c3
      cases ext with
      | nil => simp at c1
      | cons e es =>
        obtain ⟨p1, p2⟩ := elemDescs_props sz e es strides (by simpa using c1) c2
        have g := h.newView (V := ⟨a, start * sz, descsElem sz (e :: es) strides⟩) (W := ⟨a, start, layout (e :: es) strides⟩)
          ⟨rfl, rfl, relD_elem sz _ _ c1, p1, p2, c3⟩
        exact ⟨_, by simp only [step, (show s.arrs[a]? = some A by rw [h.arrs]; exact hA), Out.get, Out.bind, if_pos c1]; rfl, g⟩
    · simp at hop
  | viewAgain v =>
    simp only [specStep, Option.map_eq_some_iff, Prod.mk.injEq] at hop
    obtain ⟨W, hW, rfl, rfl⟩ := hop
    obtain ⟨V, h1, h2, h3⟩ := h.view hW
    have g := h.newView (V := ⟨V.arr, V.base, descsByte sz (V.descs.map Desc.size) (V.descs.tail.map Desc.offset)⟩) (W := W)
      ⟨h3.arr, h3.base, relD_byte h3.rel, ?_, ?_, h3.fits⟩
    · exact ⟨_, by simp only [step, h1, Out.bind]; rfl, g⟩
    · have hs := h3.shape; have hr := h3.rows; have hd := h3.rel
      revert hs hr hd
      show _ → _ → _ → Shape (descsByte sz (V.descs.map Desc.size) (V.descs.tail.map Desc.offset))
      match V.descs with
      | [] => intro _ _ hd; exact absurd rfl hd.ne
      | [d] => intro _ _ _; rfl
      | d :: d' :: ds => intro _ hr _; exact (byteDescs_props hr).1
    · have hs := h3.shape; have hr := h3.rows; have hd := h3.rel
      revert hs hr hd
      show _ → _ → _ → Rows sz (descsByte sz (V.descs.map Desc.size) (V.descs.tail.map Desc.offset))
      match V.descs with
      | [] => intro _ _ hd; exact absurd rfl hd.ne
      | [d] => intro _ _ _; exact Nat.le_refl _
      | d :: d' :: ds => intro _ hr _; exact (byteDescs_props hr).2
  | reshape v ext =>
    simp only [specStep, Option.bind_eq_bind, Option.bind_eq_some_iff] at hop
    obtain ⟨W, hW, hop⟩ := hop
    obtain ⟨V, h1, h2, h3⟩ := h.view hW
    split at hop
    · rename_i hc
      obtain ⟨c1, c2, c3⟩ := hc
      simp only [Option.some.injEq, Prod.mk.injEq] at hop
      obtain ⟨rfl, rfl⟩ := hop
      cases ext with
      | nil => exact absurd rfl c2
      | cons e es =>
        obtain ⟨p1, p2⟩ := elemDescs_props sz e es es rfl (zip_self_le es)
        have hne : W.dims.map Prod.fst ≠ [] := by
          intro e0
          have := h3.rel.length
          have e1 : W.dims = [] := by simpa using e0
          rw [e1] at this
          exact h3.rel.ne (by simpa using this)
        obtain ⟨A, hA, f1, f2⟩ := fits_lt h3.fits
        have hpos : ∀ x ∈ W.dims.map Prod.fst, 0 < x := by
          intro x hx
          obtain ⟨d, hd, rfl⟩ := List.mem_map.1 hx
          exact f2 d hd
        have hfar := rowMajor_far _ hne hpos
        rw [← c1] at hfar
        have hprod : 0 < prod (e :: es) := by rw [c3]; exact prod_pos _ hpos
        have hpos' : ∀ x ∈ e :: es, 0 < x := by
          intro x hx
          apply Nat.pos_of_ne_zero
          rintro rfl
          have : ∀ l : List Nat, 0 ∈ l → prod l = 0 := by
            intro l
            induction l with
            | nil => simp
            | cons y l ih =>
              intro hm
              rcases List.mem_cons.1 hm with rfl | hm
              · simp [prod]
              · simp [prod, ih hm]
          rw [this _ hx] at hprod
          exact absurd hprod (Nat.lt_irrefl _)
        have hfar' := rowMajor_far (e :: es) (by simp) hpos'
        have g := h.newView (V := ⟨V.arr, V.base, descsElem sz (e :: es) es⟩) (W := ⟨W.arr, W.start, rowMajor (e :: es)⟩)
          ⟨h3.arr, h3.base, relD_elem sz (e :: es) es rfl, p1, p2, ?_⟩
        · exact ⟨_, by simp only [step, h1, Out.bind, if_neg c2]; rfl, g⟩
        rw [fits_iff hA]
        refine ⟨by show W.start + far (rowMajor (e :: es)) < _; omega, ?_⟩
        intro d hd
        have : d.1 ∈ (rowMajor (e :: es)).map Prod.fst := List.mem_map.2 ⟨d, hd, rfl⟩
        rw [rowMajor_fst _ (by simp)] at this
        exact hpos' _ this
    · simp at hop
  | assign v w =>
    simp only [specStep, Option.bind_eq_bind, Option.bind_eq_some_iff] at hop
    obtain ⟨W, hW, W', hW', hop⟩ := hop
    obtain ⟨V, h1, h2, h3⟩ := h.view hW
    obtain ⟨V', h1', h2', h3'⟩ := h.view hW'
    split at hop
    · rename_i hc
      simp only [Option.some.injEq, Prod.mk.injEq] at hop
      obtain ⟨rfl, rfl⟩ := hop
      refine ⟨_, ?_, h.endView (List.getElem?_eq_some_iff.1 h2).1 (.live h3')⟩
      simp only [step, h1, h1', Out.bind, if_pos (show V.descs.length = V'.descs.length by rw [h3.rel.length, h3'.rel.length, hc])]
      rfl
    · simp at hop
  | rebind v a =>
    simp only [specStep, Option.bind_eq_bind, Option.bind_eq_some_iff] at hop
    obtain ⟨W, hW, hop⟩ := hop
    obtain ⟨V, h1, h2, h3⟩ := h.view hW
    split at hop
    · rename_i hc
      simp only [Option.some.injEq, Prod.mk.injEq] at hop
      obtain ⟨rfl, rfl⟩ := hop
      obtain ⟨A, hA, -⟩ := fits_lt hc
      exact ⟨_, by simp only [step, h1, (show s.arrs[a]? = some A by rw [h.arrs]; exact hA), Out.get, Out.bind]; rfl,
        h.rebind (V' := { V with arr := a, base := 0 }) h2 rfl ⟨rfl, by simp, h3.rel, h3.shape, h3.rows, hc⟩⟩
    · simp at hop
  | drop v =>
    simp only [specStep, Option.map_eq_some_iff, Prod.mk.injEq] at hop
    obtain ⟨W, hW, rfl, rfl⟩ := hop
    obtain ⟨V, h1, h2, h3⟩ := h.view hW
    exact ⟨_, by simp only [step, h1, Out.bind]; rfl, h.endView (List.getElem?_eq_some_iff.1 h2).1 .dead⟩
  | viewInfo v =>
    simp only [specStep, Option.map_eq_some_iff, Prod.mk.injEq] at hop
    obtain ⟨W, hW, rfl, rfl⟩ := hop
    obtain ⟨V, h1, h2, h3⟩ := h.view hW
    exact ⟨s, by simp only [step, h1, Out.bind, h3.rel.sizes, h3.rel.offsets], h⟩
  | viewGet v idx =>
    simp only [specStep, Option.bind_eq_bind, Option.bind_eq_some_iff] at hop
    obtain ⟨W, hW, hop⟩ := hop
    obtain ⟨V, h1, h2, h3⟩ := h.view hW
    split at hop
    · rename_i hi
      simp only [Option.map_eq_some_iff, Prod.mk.injEq] at hop
      obtain ⟨x, hx, rfl, rfl⟩ := hop
      refine ⟨s, ?_, h⟩
      simp only [step, h1]
      rw [show Out.bind (Out.ok V) = fun f => f V from rfl]
      simp only [h3.base, h3.arr]
      exact get_ok hsz h h3.rel hi hx
    · simp at hop
  | viewSet v idx x =>
    simp only [specStep, Option.bind_eq_bind, Option.bind_eq_some_iff] at hop
    obtain ⟨W, hW, hop⟩ := hop
    obtain ⟨V, h1, h2, h3⟩ := h.view hW
    split at hop
    · rename_i hi
      simp only [Option.some.injEq, Prod.mk.injEq] at hop
      obtain ⟨rfl, rfl⟩ := hop
      obtain ⟨s', g1, g2⟩ := set_ok hsz h h3.rel hi h3.fits x
      refine ⟨s', ?_, g2⟩
      simp only [step, h1]
      rw [show Out.bind (Out.ok V) = fun f => f V from rfl]
      simp only [h3.base, h3.arr]
      exact g1
    · simp at hop
  | viewAll v =>
    simp only [specStep, Option.bind_eq_bind, Option.bind_eq_some_iff, Option.map_eq_some_iff, Prod.mk.injEq] at hop
    obtain ⟨W, hW, xs, hx, rfl, rfl⟩ := hop
    obtain ⟨V, h1, h2, h3⟩ := h.view hW
    refine ⟨s, ?_, h⟩
    simp only [step, h1]
    rw [show Out.bind (Out.ok V) = fun f => f V from rfl]
    simp only [h3.base, h3.arr]
    exact getAll_ok hsz h h3.rel h3.shape h3.rows h3.fits hx
  | row v i =>
    simp only [specStep, Option.bind_eq_bind, Option.bind_eq_some_iff] at hop
    obtain ⟨W, hW, hop⟩ := hop
    obtain ⟨V, h1, h2, h3⟩ := h.view hW
    split at hop
    · rename_i d d' ds hdims
      split at hop
      · rename_i hi
        simp only [Option.some.injEq, Prod.mk.injEq] at hop
        obtain ⟨rfl, rfl⟩ := hop
        have hrel := h3.rel
        rw [hdims] at hrel
        have hfit := h3.fits
        rw [hdims] at hfit
        obtain ⟨x, y, zs, e, r1, r2⟩ := sub_ok hrel (start := W.start) i
        have hsh := h3.shape; have hrw := h3.rows
        rw [e] at hsh hrw
        refine ⟨{ s with rows := s.rows ++ [⟨V.arr, (W.start + i * d.2) * sz, v, 1⟩] },
          by simp only [step, h1, Out.bind, h3.base, r2, ArrayNd.newRow], h.newRow ⟨h3.arr, rfl, rfl, ?_⟩⟩
        intro _
        refine ⟨V, h2, ?_⟩
        show RelD sz (V.descs.drop 1) _ ∧ Shape (V.descs.drop 1) ∧ Rows sz (V.descs.drop 1) ∧ _
        rw [e]
        exact ⟨r1, hsh.2, hrw.2, fits_sub hfit hi⟩
      · simp at hop
    · simp at hop
  | subRow r i =>
    simp only [specStep, Option.bind_eq_bind, Option.bind_eq_some_iff] at hop
    obtain ⟨R', hR', hop⟩ := hop
    obtain ⟨R, V, b1, b2, b3, b4, b5, b6, b7, b8, b9, b10⟩ := h.row hR'
    split at hop
    · rename_i d d' ds hdims
      split at hop
      · rename_i hi
        simp only [Option.some.injEq, Prod.mk.injEq] at hop
        obtain ⟨rfl, rfl⟩ := hop
        rw [hdims] at b7 b10
        obtain ⟨x, y, zs, e, r1, r2⟩ := sub_ok b7 (start := R'.start) i
        refine ⟨{ s with rows := s.rows ++ [{ R with base := (R'.start + i * d.2) * sz, lvl := R.lvl + 1 }] },
          by simp only [step, b1, Out.get, b3, Out.bind, b5, r2, ArrayNd.newRow], h.newRow ⟨b4, rfl, b6, ?_⟩⟩
        intro _
        refine ⟨V, b2, ?_⟩
        show RelD sz (V.descs.drop (R.lvl + 1)) _ ∧ Shape (V.descs.drop (R.lvl + 1)) ∧ Rows sz (V.descs.drop (R.lvl + 1)) ∧ _
        have e' : V.descs.drop (R.lvl + 1) = y :: zs := by
          rw [show R.lvl + 1 = R.lvl + 1 from rfl, ← List.drop_drop, e]; rfl
        rw [e'] 
        rw [e] at b8 b9
        exact ⟨r1, b8.2, b9.2, fits_sub b10 hi⟩
      · simp at hop
    · simp at hop
  | rowGet r idx =>
    simp only [specStep, Option.bind_eq_bind, Option.bind_eq_some_iff] at hop
    obtain ⟨R', hR', hop⟩ := hop
    obtain ⟨R, V, b1, b2, b3, b4, b5, b6, b7, b8, b9, b10⟩ := h.row hR'
    split at hop
    · rename_i hi
      simp only [Option.map_eq_some_iff, Prod.mk.injEq] at hop
      obtain ⟨x, hx, rfl, rfl⟩ := hop
      refine ⟨s, ?_, h⟩
      simp only [step, b1, bind_some, b3, bind_ok, b4, b5]
      exact get_ok hsz h b7 hi hx
    · simp at hop
  | rowSet r idx x =>
    simp only [specStep, Option.bind_eq_bind, Option.bind_eq_some_iff] at hop
    obtain ⟨R', hR', hop⟩ := hop
    obtain ⟨R, V, b1, b2, b3, b4, b5, b6, b7, b8, b9, b10⟩ := h.row hR'
    split at hop
    · rename_i hi
      simp only [Option.some.injEq, Prod.mk.injEq] at hop
      obtain ⟨rfl, rfl⟩ := hop
      obtain ⟨s', g1, g2⟩ := set_ok hsz h b7 hi b10 x
      refine ⟨s', ?_, g2⟩
      simp only [step, b1, bind_some, b3, bind_ok, b4, b5]
      exact g1
    · simp at hop
  | rowAll r =>
    simp only [specStep, Option.bind_eq_bind, Option.bind_eq_some_iff, Option.map_eq_some_iff, Prod.mk.injEq] at hop
    obtain ⟨R', hR', xs, hx, rfl, rfl⟩ := hop
    obtain ⟨R, V, b1, b2, b3, b4, b5, b6, b7, b8, b9, b10⟩ := h.row hR'
    refine ⟨s, ?_, h⟩
    simp only [step, b1, bind_some, b3, bind_ok, b4, b5]
    exact getAll_ok hsz h b7 b8 b9 b10 hx
  | viewOfRow r =>
    simp only [specStep, Option.map_eq_some_iff, Prod.mk.injEq] at hop
    obtain ⟨R', hR', rfl, rfl⟩ := hop
    obtain ⟨R, V, b1, b2, b3, b4, b5, b6, b7, b8, b9, b10⟩ := h.row hR'
    obtain ⟨d1, d2, d3⟩ := descsOfRow_ok b7 b8 b9
    have g := h.newView (V := ⟨R.arr, R.base, descsOfRow sz (V.descs.drop R.lvl)⟩) (W := ⟨R'.arr, R'.start, R'.dims⟩) ⟨b4, b5, d1, d2, d3, b10⟩
    exact ⟨_, by simp only [step, b1, Out.get, b3, Out.bind]; rfl, g⟩

theorem run_ok (hsz : 0 < sz) : ∀ (ops : List (Op α)) (s : St α) (t t' : SSt α) (rs : List (Res α)), Rel sz s t →
    specRun sz t ops = some (t', rs) → ∃ s', run sz s ops = .ok (s', rs) ∧ Rel sz s' t'
  | [], s, t, t', rs, h, hr => by
    simp only [specRun, Option.some.injEq, Prod.mk.injEq] at hr
    obtain ⟨rfl, rfl⟩ := hr
    exact ⟨s, rfl, h⟩
  | op :: ops, s, t, t', rs, h, hr => by
    simp only [specRun, Option.bind_eq_bind, Option.bind_eq_some_iff, Option.some.injEq, Prod.mk.injEq] at hr
    obtain ⟨⟨t1, r1⟩, h1, ⟨t2, r2⟩, h2, rfl, rfl⟩ := hr
    obtain ⟨s1, g1, g2⟩ := step_ok hsz h h1
    obtain ⟨s2, g3, g4⟩ := run_ok hsz ops s1 t1 t2 r2 g2 h2
    exact ⟨s2, by simp only [run, g1, Out.bind, g3], g4⟩

theorem specRun_append : ∀ (ops ops' : List (Op α)) (t : SSt α),
    specRun sz t (ops ++ ops') = (specRun sz t ops).bind fun q => (specRun sz q.1 ops').map fun q' => (q'.1, q.2 ++ q'.2)
  | [], ops', t => by
    simp only [List.nil_append, specRun, Option.bind_some]
    cases specRun sz t ops' <;> rfl
  | op :: ops, ops', t => by
    simp only [List.cons_append, specRun, Option.bind_eq_bind]
    cases specStep sz t op with
    | none => rfl
    | some r =>
      simp only [Option.bind_some, specRun_append ops ops' r.1]
      cases specRun sz r.1 ops with
      | none => rfl
      | some q =>
        simp only [Option.bind_some]
        cases specRun sz q.1 ops' with
        | none => rfl
        | some q' => rfl

theorem fits_value {arrs : List (Arr α)} {a start : Nat} {dims : List (Nat × Nat)} (h : fits arrs a start dims = true) {idx : List Nat}
    (hi : inRange idx dims = true) : ∃ x, valueAt arrs a (pos start dims idx) = some x := by
  obtain ⟨A, hA, hlt, -⟩ := fits_lt h
  have := pos_le dims idx start hi
  exact ⟨A.cells[pos start dims idx]'(by omega), by simp [valueAt, hA]⟩

theorem allSome_ok : ∀ (l : List (Option α)), (∀ o ∈ l, o ≠ none) → ∃ xs, allSome l = some xs
  | [], _ => ⟨[], rfl⟩
  | o :: l, h => by
    obtain ⟨xs, hx⟩ := allSome_ok l fun o' ho => h o' (by simp [ho])
    cases o with
    | none => exact absurd rfl (h none (by simp))
    | some x => exact ⟨x :: xs, by simp [allSome, hx]⟩

theorem fits_values {arrs : List (Arr α)} {a start : Nat} {dims : List (Nat × Nat)} (h : fits arrs a start dims = true) :
    ∃ xs, valuesAt arrs a start dims = some xs := by
  apply allSome_ok
  intro o ho
  obtain ⟨idx, hidx, rfl⟩ := List.mem_map.1 ho
  have hi : inRange idx dims = true := by rw [inRange_iff]; exact (mem_allIdx _ _).1 hidx
  obtain ⟨x, hx⟩ := fits_value h hi
  rw [hx]; simp

theorem tight_layout : ∀ {ds : List Desc} {dims : List (Nat × Nat)}, 0 < sz → RelD sz ds dims → Shape ds → Tight sz ds →
    dims = rowMajor (dims.map Prod.fst)
  | [d], [x], _, h, _, _ => by
    obtain ⟨x1, x2⟩ := x
    have : x2 = 1 := h.2
    subst this; rfl
  | d :: d' :: ds, x :: xs, hsz, h, hs, ht => by
    have ih := tight_layout hsz h.2.2 hs.2 (fun y hy => ht y (List.mem_of_mem_tail hy))
    obtain ⟨y, ys, rfl⟩ : ∃ y ys, xs = y :: ys := by
      cases xs with
      | nil => have := h.2.2.length; simp at this
      | cons y ys => exact ⟨y, ys, rfl⟩
    have h1 := ht d' (by simp)
    rw [h.2.1, shape_prod d' ds hs.2, h.2.2.sizes] at h1
    have h2 : x.2 = prod ((y :: ys).map Prod.fst) := Nat.eq_of_mul_eq_mul_right hsz h1
    rw [List.map_cons, List.map_cons, rowMajor_cons]
    rw [List.map_cons] at ih h2
    rw [← ih, ← h2]
  | [], _, _, h, _, _ => by simp [RelD] at h
  | [d], [], _, h, _, _ => by simp [RelD] at h
  | [d], _ :: _ :: _, _, h, _, _ => by simp [RelD] at h
  | d :: d' :: ds, [], _, h, _, _ => by simp [RelD] at h

theorem rel_start (arrs : List (Arr α)) (h : ∀ A ∈ arrs, ArrOk A) : Rel sz ⟨arrs, [], []⟩ ⟨arrs, [], []⟩ :=
  ⟨rfl, h, fun v => by simpa using VR.none, rfl, fun r R R' h1 => by simp at h1⟩

end

/-! ## The property -/

/-- **C81**: whatever arrays there are, a program that the specification allows runs without undefined behaviour, each of its
statements returns exactly what the specification says, and afterwards the arrays hold what the specification says.
The full property, in which rows may be used after their view has been assigned to or destroyed, is false: see below. -/
theorem C81_programs_partial (sz : Nat) (hsz : 0 < sz) (arrs : List (Arr α)) (hok : ∀ A ∈ arrs, ArrOk A) (ops : List (Op α))
    (t : SSt α) (rs : List (Res α)) (h : specRun sz ⟨arrs, [], []⟩ ops = some (t, rs)) :
    ∃ s, run sz ⟨arrs, [], []⟩ ops = .ok (s, rs) ∧ s.arrs = t.arrs := by
  obtain ⟨s, h1, h2⟩ := run_ok hsz ops _ _ t rs (rel_start arrs hok) h
  exact ⟨s, h1, h2.arrs⟩

/-- The specification allows what a user expects: at any time each element of each view, and of each row whose view is still the
same, may be read and written, and all of them may be walked over; so these statements never go outside the array. -/
theorem C81_allowed (sz : Nat) (hsz : 0 < sz) (arrs : List (Arr α)) (hok : ∀ A ∈ arrs, ArrOk A) (ops : List (Op α))
    (t : SSt α) (rs : List (Res α)) (h : specRun sz ⟨arrs, [], []⟩ ops = some (t, rs)) :
    (∀ v V, theView t v = some V → (∃ xs, specStep sz t (.viewAll v) = some (t, .vals xs)) ∧
      ∀ idx, inRange idx V.dims = true → (∃ x, specStep sz t (.viewGet v idx) = some (t, .val x)) ∧
        ∀ x, ∃ t', specStep sz t (.viewSet v idx x) = some (t', .unit)) ∧
    (∀ r R, theRow t r = some R → (∃ xs, specStep sz t (.rowAll r) = some (t, .vals xs)) ∧
      ∀ idx, inRange idx R.dims = true → (∃ x, specStep sz t (.rowGet r idx) = some (t, .val x)) ∧
        ∀ x, ∃ t', specStep sz t (.rowSet r idx x) = some (t', .unit)) := by
  obtain ⟨s, -, hr⟩ := run_ok hsz ops _ _ t rs (rel_start arrs hok) h
  constructor
  · intro v V hv
    obtain ⟨V', -, -, h3⟩ := hr.view hv
    obtain ⟨xs, hx⟩ := fits_values h3.fits
    refine ⟨⟨xs, by simp [specStep, hv, hx]⟩, ?_⟩
    intro idx hi
    obtain ⟨x, hx⟩ := fits_value h3.fits hi
    exact ⟨⟨x, by simp [specStep, hv, hi, hx]⟩, fun x => ⟨_, by simp only [specStep, hv, Option.bind_eq_bind, Option.bind_some, hi]; rfl⟩⟩
  · intro r R hR
    obtain ⟨R', V, -, -, -, -, -, -, -, -, -, hf⟩ := hr.row hR
    obtain ⟨xs, hx⟩ := fits_values hf
    refine ⟨⟨xs, by simp [specStep, hR, hx]⟩, ?_⟩
    intro idx hi
    obtain ⟨x, hx⟩ := fits_value hf hi
    exact ⟨⟨x, by simp [specStep, hR, hi, hx]⟩, fun x => ⟨_, by simp only [specStep, hR, Option.bind_eq_bind, Option.bind_some, hi]; rfl⟩⟩

/-- Two views: what is written through one is read through the other exactly at the indices that name the same position. -/
theorem C81_aliasing (sz : Nat) (hsz : 0 < sz) (arrs : List (Arr α)) (hok : ∀ A ∈ arrs, ArrOk A) (ops : List (Op α))
    (t : SSt α) (rs : List (Res α)) (h : specRun sz ⟨arrs, [], []⟩ ops = some (t, rs)) (v w : Nat) (V W : SView)
    (hv : theView t v = some V) (hw : theView t w = some W) (i j : List Nat) (hi : inRange i V.dims = true)
    (hj : inRange j W.dims = true) (x : α) :
    ∃ old s, run sz ⟨arrs, [], []⟩ (ops ++ [.viewGet w j, .viewSet v i x, .viewGet w j]) =
      .ok (s, rs ++ [.val old, .unit,
        .val (if V.arr = W.arr ∧ pos V.start V.dims i = pos W.start W.dims j then x else old)]) := by
  obtain ⟨s, -, hr⟩ := run_ok hsz ops _ _ t rs (rel_start arrs hok) h
  obtain ⟨V', -, -, fv⟩ := hr.view hv
  obtain ⟨W', -, -, fw⟩ := hr.view hw
  obtain ⟨old, ho⟩ := fits_value fw.fits hj
  have key : valueAt (change t.arrs V.arr fun c => c.set (pos V.start V.dims i) x) W.arr (pos W.start W.dims j) =
      some (if V.arr = W.arr ∧ pos V.start V.dims i = pos W.start W.dims j then x else old) := by
    simp only [valueAt, Option.bind_eq_some_iff] at ho
    obtain ⟨A, hA, ho⟩ := ho
    simp only [valueAt, change_get, hA, Option.map_some, Option.bind_some]
    by_cases e : V.arr = W.arr
    · simp only [e, if_true, true_and]
      by_cases e' : pos V.start V.dims i = pos W.start W.dims j
      · rw [if_pos e', e', List.getElem?_set_self (List.getElem?_eq_some_iff.1 ho).1]
      · rw [if_neg e', List.getElem?_set_ne e', ho]
    · simp only [e, if_false, false_and, ho]
  obtain ⟨s', h1, -⟩ := C81_programs_partial sz hsz arrs hok (ops ++ [.viewGet w j, .viewSet v i x, .viewGet w j])
    ({ t with arrs := change t.arrs V.arr fun c => c.set (pos V.start V.dims i) x })
    (rs ++ [.val old, .unit, .val (if V.arr = W.arr ∧ pos V.start V.dims i = pos W.start W.dims j then x else old)]) (by
      have hw' : theView ({ t with arrs := change t.arrs V.arr fun c => c.set (pos V.start V.dims i) x } : SSt α) w = some W := hw
      rw [specRun_append, h, Option.bind_some]
      simp only [specRun, specStep, hv, hw, hw', Option.bind_eq_bind, Option.bind_some, if_pos hi, if_pos hj, ho, key, Option.map_some])
  exact ⟨old, s', h1⟩

/-- `continuous()` may be trusted: where it answers true the view has no gaps, so `reshape` to any extents with as many elements is
allowed. -/
theorem C81_continuous (sz : Nat) (hsz : 0 < sz) (arrs : List (Arr α)) (hok : ∀ A ∈ arrs, ArrOk A) (ops : List (Op α))
    (t : SSt α) (rs : List (Res α)) (h : specRun sz ⟨arrs, [], []⟩ ops = some (t, rs)) (s : St α)
    (hs : run sz ⟨arrs, [], []⟩ ops = .ok (s, rs)) (v : Nat) (V : View) (hV : s.views[v]? = some (some V))
    (hc : viewContinuous sz V.descs = true) :
    ∃ W, theView t v = some W ∧ ∀ ext, ext ≠ [] → prod ext = prod (W.dims.map Prod.fst) →
      specStep sz t (.reshape v ext) = some ({ t with views := t.views ++ [some ⟨W.arr, W.start, rowMajor ext⟩] }, .unit) := by
  obtain ⟨s', h1, hr⟩ := run_ok hsz ops _ _ t rs (rel_start arrs hok) h
  rw [hs] at h1
  simp only [Out.ok.injEq, Prod.mk.injEq, and_true] at h1
  subst h1
  have hv := hr.views v
  rw [hV] at hv
  generalize ht : t.views[v]? = o at hv
  cases hv with
  | live h' =>
    rename_i W
    have hw : theView t v = some W := by simp [theView, ht]
    refine ⟨W, hw, ?_⟩
    intro ext hne hp
    have hd : W.dims = rowMajor (W.dims.map Prod.fst) := by
      refine tight_layout hsz h'.rel h'.shape ?_
      obtain ⟨A, hA, -, hpos⟩ := fits_lt h'.fits
      have hsp := sizes_pos h'.rel hpos
      have hshape := h'.shape
      have hrows := h'.rows
      revert hc hsp hshape hrows
      match V.descs with
      | [] => intro _ _ _ _ x hx; simp at hx
      | [d] => intro _ _ _ _ x hx; simp at hx
      | d :: d' :: ds =>
        intro hc hsp hshape hrows x hx
        simp only [viewContinuous, beq_iff_eq] at hc
        exact tight_of sz d _ hshape hrows hsp hc.symm x (List.mem_of_mem_tail hx)
    simp only [specStep, hw, Option.bind_eq_bind, Option.bind_some]
    rw [if_pos ⟨hd, hne, hp⟩]

/-- The converse does not hold: a view made from a row of a padded view has no gaps but does not answer that it is continuous. -/
theorem C81_continuous_converse_violated :
    ∃ (arrs : List (Arr Nat)) (ops : List (Op Nat)) (s : St Nat) (rs : List (Res Nat)) (V : View) (t : SSt Nat) (W : SView),
      (∀ A ∈ arrs, ArrOk A) ∧ run 4 ⟨arrs, [], []⟩ ops = .ok (s, rs) ∧ specRun 4 ⟨arrs, [], []⟩ ops = some (t, rs) ∧
      s.views[1]? = some (some V) ∧ theView t 1 = some W ∧ W.dims = rowMajor (W.dims.map Prod.fst) ∧
      viewContinuous 4 V.descs = false := by
  refine ⟨[⟨[12], List.range 12⟩], [.viewPart 0 0 [2, 2, 2] [3, 2], .row 0 1, .viewOfRow 0], _, _, _, _, _, ?_, rfl, rfl, rfl, rfl,
    by decide, by decide⟩
  intro A hA
  simp only [List.mem_singleton] at hA
  subst hA
  exact ⟨by decide, by decide, by decide⟩

/-- Rows are not values: a row used after its view has been destroyed (for example a row kept from a temporary view,
`auto row = view(array)[1];`) is undefined behaviour, although its elements are still there. -/
theorem C81_row_after_view_violated :
    ∃ (arrs : List (Arr Nat)), (∀ A ∈ arrs, ArrOk A) ∧
      (∃ s, run 4 ⟨arrs, [], []⟩ [.viewOf 0, .row 0 1, .rowGet 0 [0]] = .ok (s, [.unit, .unit, .val 13])) ∧
      run 4 ⟨arrs, [], []⟩ [.viewOf 0, .row 0 1, .drop 0, .rowGet 0 [0]] = .ub := by
  refine ⟨[⟨[2, 3], [10, 11, 12, 13, 14, 15]⟩], ?_, ⟨_, rfl⟩, rfl⟩
  intro A hA
  simp only [List.mem_singleton] at hA
  subst hA
  exact ⟨by decide, by decide, by decide⟩

/-- And a row is changed by an assignment to its view: the same row has three elements before and two after; and it can be made to
reach beyond the end of the array. -/
theorem C81_row_after_assign_violated :
    ∃ (arrs : List (Arr Nat)), (∀ A ∈ arrs, ArrOk A) ∧
      (∃ s, run 4 ⟨arrs, [], []⟩ [.viewOf 0, .viewPart 0 0 [1, 2] [3], .row 0 1, .rowAll 0, .assign 0 1, .rowAll 0] =
        .ok (s, [.unit, .unit, .unit, .vals [13, 14, 15], .unit, .vals [13, 14]])) ∧
      run 4 ⟨arrs, [], []⟩ [.viewPart 0 0 [3, 2] [2], .viewOf 0, .row 0 2, .assign 0 1, .rowAll 0] = .ub := by
  refine ⟨[⟨[2, 3], [10, 11, 12, 13, 14, 15]⟩], ?_, ⟨_, rfl⟩, rfl⟩
  intro A hA
  simp only [List.mem_singleton] at hA
  subst hA
  exact ⟨by decide, by decide, by decide⟩

/-! ## The hypotheses are met -/

private def demo : List (Arr Nat) := [⟨[2, 3], [10, 11, 12, 13, 14, 15]⟩, ⟨[2, 3], [0, 0, 0, 0, 0, 0]⟩]

private theorem demo_ok : ∀ A ∈ demo, ArrOk A := by
  intro A hA
  simp only [demo, List.mem_cons, List.not_mem_nil, or_false] at hA
  rcases hA with rfl | rfl <;> exact ⟨by decide, by decide, by decide⟩

private def prog : List (Op Nat) :=
  [.viewOf 0, .row 0 1, .rowSet 0 [2] 99, .arrAt 0 [1, 2], .arrAt 0 [2, 0], .reshape 0 [3, 2], .viewGet 1 [2, 1],
   .viewPart 0 1 [2, 2] [3], .viewAll 2, .viewInfo 2, .viewOfRow 0, .rebind 0 1, .viewSet 0 [0, 0] 7, .arrAll 1, .viewSet 3 [0] 50, .rowAll 0,
   .swap 0 1, .arrPlain 0, .rowGet 0 [0], .viewAgain 2, .viewAll 4, .fillOwn 1 [0, 2], .arrAll 1, .copy 0 1, .fill 1 3, .arrAll 0,
   .assign 0 2, .viewAll 0, .drop 1]

private def expect : List (Res Nat) :=
  [.unit, .unit, .unit, .val 99, .threw, .unit, .val 99, .unit, .vals [11, 12, 14, 99], .info [2, 2] [12], .unit, .unit, .unit,
   .vals [7, 0, 0, 0, 0, 0], .unit, .vals [50, 14, 99], .unit, .vals [7, 0, 0, 0, 0, 0], .val 0, .unit, .vals [0, 0, 0, 0], .unit,
   .vals [12, 12, 12, 12, 12, 12], .unit, .unit, .vals [12, 12, 12, 12, 12, 12], .unit, .vals [12, 12, 12, 12], .unit]

/-- A long program is allowed and gives these results. -/
example : (specRun 4 ⟨demo, [], []⟩ prog).map Prod.snd = some expect := rfl

example : ∃ s, run 4 ⟨demo, [], []⟩ prog = .ok (s, expect) := ⟨_, rfl⟩

/-- Two views of the same element. -/
example : ∃ t rs, specRun 4 ⟨demo, [], []⟩ [.viewOf 0, .viewPart 0 1 [2, 2] [3]] = some (t, rs) ∧
    theView t 0 = some ⟨0, 0, [(2, 3), (3, 1)]⟩ ∧ theView t 1 = some ⟨0, 1, [(2, 3), (2, 1)]⟩ ∧
    inRange [1, 2] [(2, 3), (3, 1)] = true ∧ inRange [1, 1] [(2, 3), (2, 1)] = true ∧
    pos 0 [(2, 3), (3, 1)] [1, 2] = pos 1 [(2, 3), (2, 1)] [1, 1] := ⟨_, _, rfl, rfl, rfl, rfl, rfl, rfl⟩

/-- A view that is continuous. -/
example : ∃ s rs V, run 4 ⟨demo, [], []⟩ [.viewOf 0] = .ok (s, rs) ∧ s.views[0]? = some (some V) ∧ viewContinuous 4 V.descs = true :=
  ⟨_, _, _, rfl, rfl, rfl⟩

end Verif.ArrayNd
