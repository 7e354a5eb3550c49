import Verif.Lemmas.VectorFrom3
import Verif.Props.C75_VectorFrom
import Verif.Props.C11_Views

/-!
# C76: vectors from views

A view is given by its descriptors and the address of its first element; `mem` is the memory it looks at. Rows may be farther apart in
memory than they are long, and what is between them may not be readable. `shows` (`Props/C75_VectorFromSpec.lean`) is what the view shows
at a multi-index.
-/
set_option autoImplicit false

namespace Verif.VectorNd
open Verif.Views (Desc allIdx elem Rows Shape)
variable {α : Type}

/-- A view as the constructors of `array_view_nd` make it: totals are products of sizes, and rows do not overlap. -/
structure ViewOk (sz : Nat) (mem : Nat → Option α) (p : Nat) (ds : List Desc) : Prop where
  nonempty : ds ≠ []
  shape : Shape ds
  rows : Rows sz ds
  /-- every element is an object -/
  readable : ∀ idx, Views.InRange idx (ds.map Desc.size) → ∃ x, shows sz mem p ds idx = some x

theorem ViewOk.read {sz : Nat} {mem : Nat → Option α} {p : Nat} {ds : List Desc} (k : ViewOk sz mem p ds) : Readable sz mem p ds :=
  fun idx hi => k.readable idx ((Views.mem_allIdx _ _).mp hi)

theorem from_view_aux {sz : Nat} {mem : Nat → Option α} {p : Nat} {ds : List Desc} (k : ViewOk sz mem p ds) {continuous : List Desc → Bool}
    (hplain : prodL (ds.map Desc.size) ≠ 0 → continuous ds = true →
      (allIdx (ds.map Desc.size)).map (elem sz p ds) = (Views.plainAddrs sz p ds).map some)
    (hz : prodL (ds.map Desc.size) ≠ 0 ∨ 2 ≤ ds.length) (h : Heap α) (w : WfH h) :
    ∃ out o h', fromMultidim sz mem continuous ds p h = some ((out, o), h') ∧ (∀ b, (rvO o).ptr ≠ some b → h'.blk b = h.blk b) ∧
      ((out = .ok ∧ ∃ v, o = some v ∧ viewV h' v = (ds.map Desc.size, (allIdx (ds.map Desc.size)).map (shows sz mem p ds))) ∨
       (out = .threw ∧ o = none ∧ CanFail h)) := by
  obtain ⟨out, o, h', e, ev, hr⟩ := fromMultidim_spec hplain k.nonempty hz k.read w
  refine ⟨out, o, h', e, fun b hb => ev.frame b (by simp [RV.null]) hb, ?_⟩
  rcases hr with ⟨rfl, rv, rfl, hl⟩ | hr
  · refine Or.inl ⟨rfl, _, rfl, ?_⟩
    rw [view_shaped ev.wf hl (by simpa using k.nonempty) (viewVals_length k.read).symm, viewVals_eq k.read]
  · exact Or.inr hr

/-- **C76, construction from a view.** The constructor runs without undefined behaviour; in particular it reads nothing but elements of the
view. The vector has the sizes of the view, and at every multi-index the element the view shows there, in one block of its own; or a copy
or the allocation threw, and all memory is as before. (With one dimension: not from an empty view.) -/
theorem C76_from_view_partial {sz : Nat} {mem : Nat → Option α} {p : Nat} {ds : List Desc} (k : ViewOk sz mem p ds)
    (hz : prodL (ds.map Desc.size) ≠ 0 ∨ 2 ≤ ds.length) (h : Heap α) (w : WfH h) :
    ∃ out o h', fromView sz mem ds p h = some ((out, o), h') ∧ (∀ b, (rvO o).ptr ≠ some b → h'.blk b = h.blk b) ∧
      ((out = .ok ∧ ∃ v, o = some v ∧ viewV h' v = (ds.map Desc.size, (allIdx (ds.map Desc.size)).map (shows sz mem p ds))) ∨
       (out = .threw ∧ o = none ∧ CanFail h)) :=
  from_view_aux k (fun h0 hc => Views.C15_view_continuous sz p ds k.nonempty k.shape k.rows (pos_of_prod h0) hc) hz h w

/-- **C76, construction from a proxy** (a row of a view or of a vector): the same. -/
theorem C76_from_proxy_partial {sz : Nat} {mem : Nat → Option α} {p : Nat} {ds : List Desc} (k : ViewOk sz mem p ds)
    (hz : prodL (ds.map Desc.size) ≠ 0 ∨ 2 ≤ ds.length) (h : Heap α) (w : WfH h) :
    ∃ out o h', fromProxy sz mem ds p h = some ((out, o), h') ∧ (∀ b, (rvO o).ptr ≠ some b → h'.blk b = h.blk b) ∧
      ((out = .ok ∧ ∃ v, o = some v ∧ viewV h' v = (ds.map Desc.size, (allIdx (ds.map Desc.size)).map (shows sz mem p ds))) ∨
       (out = .threw ∧ o = none ∧ CanFail h)) :=
  from_view_aux k (fun h0 hc => Views.C15_proxy_continuous sz p ds k.nonempty k.shape k.rows (pos_of_prod h0) hc) hz h w

/-- **C76, `push_back` of a view** does what `push_back` of a vector with the same sizes and elements does (which is what C19 is about),
whatever the gaps between the rows of the view. -/
theorem C76_push_back_view {sz : Nat} (hsz : 0 < sz) {mem : Nat → Option α} {p : Nat} {ds : List Desc} (k : ViewOk sz mem p ds)
    (hz : prodL (ds.map Desc.size) ≠ 0) (v : VecN) (row : List α)
    (hrow : row.map some = (allIdx (ds.map Desc.size)).map (shows sz mem p ds)) :
    v.pushBackView sz mem ds p = execN v (.pushBack (ds.map Desc.size) row) := by
  have hv : row = viewVals sz mem p ds := by
    have := hrow.trans (viewVals_eq k.read).symm
    exact List.map_injective_iff.mpr (Option.some_injective α) this
  subst hv
  funext h
  simp only [execN, VecN.pushBackView, VecN.pushBack]
  by_cases hm : v.matchSub (ds.map Desc.size) = true
  · rw [if_neg (by simpa using hm), if_neg (by simpa using hm)]
    rw [List.length_map, viewVals_length k.read]
    generalize v.initIfEmpty (ds.map Desc.size) = v1
    cases e : (rvPreparePushBack v1.rv v1.total (v1.total + prodL (ds.map Desc.size)) : M α (Bool × RV)) h with
    | none => rw [bind_none e, bind_none e]
    | some r =>
      obtain ⟨⟨ok, rv⟩, h1⟩ := r
      rw [bind_some e, bind_some e]
      cases ok with
      | false => rfl
      | true =>
        simp only [if_true]
        cases hp : rv.ptr with
        | none => rfl
        | some b =>
          simp only
          rw [copyWhole_plan hsz mem b k.nonempty k.shape k.rows hz k.read]
          exact planRun_use (fun d => by simp) (fun d => by simp) h1
  · rw [if_pos (by simpa using hm), if_pos (by simpa using hm)]

/-- **C76, `insert` of a range of sub-views** (for instance some rows of a bigger view) does what inserting vectors with the same sizes and
elements does. -/
theorem C76_insert_views {sz : Nat} (hsz : 0 < sz) {mem : Nat → Option α} {p count pos : Nat} {d : Desc} {ds : List Desc}
    (k : ∀ i, i < count → ViewOk sz mem (p + i * d.offset) (d :: ds)) (v : VecN) (rows : List (List α)) (hn : rows.length = count)
    (hrows : ∀ i (hi : i < rows.length), rows[i].map some = (allIdx ((d :: ds).map Desc.size)).map (shows sz mem (p + i * d.offset) (d :: ds))) :
    v.insertViews sz mem pos count (d :: ds) p = execN v (.insertRange pos ((d :: ds).map Desc.size) rows) := by
  have hv : rows.flatten = (List.range count).flatMap fun i => viewVals sz mem (p + i * d.offset) (d :: ds) := by
    rw [← hn]
    have := flatMap_range (f := fun r : List α => r) (fun i => viewVals sz mem (p + i * d.offset) (d :: ds)) rows ?_
    · rw [this]; simp [List.flatMap_id']
    · intro i hi
      have := (hrows i hi).trans (viewVals_eq (k i (by omega)).read).symm
      exact (List.map_injective_iff.mpr (Option.some_injective α) this).symm
  funext h
  simp only [execN, VecN.insertViews, VecN.insertRange]
  rw [hn]
  by_cases hc : count = 0
  · rw [if_pos hc, if_pos hc]
  rw [if_neg hc, if_neg hc]
  by_cases hm : v.matchSub ((d :: ds).map Desc.size) = true
  · have hm' : ¬ ¬ v.matchSub ((d :: ds).map Desc.size) = true := by simpa using hm
    rw [if_neg hm', if_neg hm']
    by_cases hz : prodL ((d :: ds).map Desc.size) = 0
    · rw [if_pos hz, if_pos hz]
    · rw [if_neg hz, if_neg hz]
      generalize v.initIfEmpty ((d :: ds).map Desc.size) = v1
      cases e : (VecN.prepareInsert v1 (pos * v.es) count (prodL ((d :: ds).map Desc.size)) : M α (Bool × VecN)) h with
      | none => rw [bind_none e, bind_none e]
      | some r =>
        obtain ⟨⟨ok, u⟩, h1⟩ := r
        rw [bind_some e, bind_some e]
        cases ok with
        | false => rfl
        | true =>
          simp only [if_true]
          cases hp : u.rv.ptr with
          | none => rfl
          | some b =>
            simp only
            have k0 := k 0 (by omega)
            rw [copyMD_plan hsz mem b (d :: ds) p count k0.nonempty k0.shape k0.rows hz
              (by simp only [List.head?_cons, Option.map_some, Option.getD_some]; exact fun i hi => (k i hi).read)]
            simp only [List.head?_cons, Option.map_some, Option.getD_some]
            rw [hv]
            exact planRun_use (fun d => by simp) (fun d => by simp) h1
  · rw [if_pos hm, if_pos hm]

/-! Non-vacuity: a 2 x 3 x 2 view with gaps; the memory between the rows is not readable. -/

/-- Rows of 2 elements of 4 bytes, 12 bytes apart; planes 40 bytes apart. -/
def gappy : List Desc := [⟨2, 12, 80⟩, ⟨3, 6, 40⟩, ⟨2, 2, 12⟩]
def gappyMem (a : Nat) : Option Nat := if a % 4 = 0 ∧ a % 40 < 36 ∧ a % 40 % 12 < 8 then some a else none
example : ViewOk 4 gappyMem 0 gappy := by
  refine ⟨by simp [gappy], by simp [gappy, Shape], by simp [gappy, Rows], ?_⟩
  have : ∀ idx ∈ allIdx (gappy.map Desc.size), ∃ x, shows 4 gappyMem 0 gappy idx = some x := by
    have : ∀ idx ∈ allIdx (gappy.map Desc.size), (shows 4 gappyMem 0 gappy idx).isSome = true := by decide +kernel
    intro idx hi
    exact Option.isSome_iff_exists.mp (this idx hi)
  exact fun idx hi => this idx ((Views.mem_allIdx _ _).mpr hi)
example : Views.viewContinuous 4 gappy = false ∧ Views.viewContinuous 4 (Views.denseDescs 4 [2, 3]) = true := by decide
example : (fromView 4 gappyMem gappy 0 (Heap.empty never never)).map (fun r => (r.1.1, r.1.2.map (viewV r.2))) =
    some (.ok, some ([2, 3, 2], [0, 4, 12, 16, 24, 28, 40, 44, 52, 56, 64, 68].map some)) := by decide +kernel
example : (fromView 4 (fun a => if a < 124 then some a else none) (Views.denseDescs 4 [2, 3]) 100 (Heap.empty never never)).map
    (fun r => (r.1.1, r.1.2.map (viewV r.2))) = some (.ok, some ([2, 3], [100, 104, 108, 112, 116, 120].map some)) := by decide +kernel
/-- Two planes of it pushed to the back of an empty vector, and its planes inserted before the first. -/
example : ((do
    let a ← (VecN.nil 2).pushBackView 4 gappyMem gappy.tail 0
    let b ← a.2.insertViews 4 gappyMem 0 2 gappy.tail 0
    pure (a.1, b.1, b.2.top, b.2.rv) : M Nat (Out × Out × Nat × RV)) (Heap.empty never never)).map (fun r => r.1) = some (.ok, .ok, 3, ⟨some 1, 18⟩) := by
  decide +kernel

/-- **C76 fails for views whose rows overlap**, which the constructor from byte strides does not refuse (it compares a stride in bytes with an
extent in elements): `continuous()` may then be true of a view whose elements are not consecutive, and the vector gets other elements than
the view shows. Here: 2 x 2 x 2 elements of 4 bytes with rows at a distance of 4 bytes and planes at a distance of 16. And with one dimension
an empty view violates a contract of the library. -/
theorem C76_overlapping_violated :
    (∃ ds, ds = Views.byteDescs [2, 2, 2] [16, 4] ∧ Views.viewContinuous 4 ds = true ∧
      (allIdx (ds.map Desc.size)).map (shows 4 (fun a => some a) 0 ds) = [0, 4, 4, 8, 16, 20, 20, 24].map some ∧
      (fromView 4 (fun a => some a) ds 0 (Heap.empty never never : Heap Nat)).map (fun r => (r.1.1, r.1.2.map (viewV r.2))) =
        some (.ok, some ([2, 2, 2], [0, 4, 8, 12, 16, 20, 24, 28].map some))) ∧
    (fromView 4 (fun a => some a) [⟨0, 0, 0⟩] 0 (Heap.empty never never : Heap Nat)).isNone = true := by
  refine ⟨⟨_, rfl, by decide +kernel, by decide +kernel, by decide +kernel⟩, by decide +kernel⟩

end Verif.VectorNd
