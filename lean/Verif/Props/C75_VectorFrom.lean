import Verif.Lemmas.VectorFrom2
import Verif.Props.C74_VectorObjs

/-!
# C75: vectors from nested initializer lists

The specification is in `Props/C75_VectorFromSpec.lean`.
-/
set_option autoImplicit false

namespace Verif.VectorNd
open Verif.Views (Desc allIdx)
variable {α : Type}

theorem allIdx_nil {ns : List Nat} (h : prodL ns = 0) : allIdx ns = [] := by
  have := allIdx_length ns
  rw [h] at this
  exact List.length_eq_zero_iff.mp this

/-- What a vector shows that was given sizes and storage. -/
theorem view_shaped {h : Heap α} (w : WfH h) {rv : RV} {l : List α} (o : HasList h rv l) {dims : List Nat} (hd : dims ≠ [])
    (hl : prodL dims = l.length) : viewV h (Vec.shaped rv dims) = (dims, l.map some) := by
  rw [viewV_eq (shaped_rel w o hd hl)]
  match dims with
  | [] => exact absurd rfl hd
  | [n] =>
    have : n = l.length := by simpa [prodL] using hl
    simp [AVal.ofElems, AVal.dims, AVal.elems, this]
  | n :: k :: sub =>
    have hl' : n * prodL (k :: sub) = l.length := hl
    simp [AVal.ofElems, AVal.dims, AVal.elems, chunks_length, chunks_all hl']

/-- **C75.** A vector from a nested list (with one dimension: not from an empty one). The constructor runs without undefined behaviour, and
 * it makes a vector: along each dimension it has the largest length of the lists at that level, its element at each multi-index is the one
   the list means there (a short innermost list goes on with its last element), and the list was uniform or has no elements; or
 * the list is not uniform and it throws `argument_error`; or
 * an element's copy or the allocation throws, which goes on to the caller.
If it throws, nothing is left: all blocks of memory are as before. If not, only the vector's block is new. -/
theorem C75_nested_list_partial (d : Nat) (l : NL α d) (h : Heap α) (w : WfH h) (h0 : d ≠ 0 ∨ lens d l 0 ≠ [0]) :
    ∃ out o h', fromList d l h = some ((out, o), h') ∧ (∀ b, (rvO o).ptr ≠ some b → h'.blk b = h.blk b) ∧
      ((out = .ok ∧ (∃ v, o = some v ∧ viewV h' v = (wanted d l, (allIdx (wanted d l)).map (item d l))) ∧ (Uniform d l ∨ prodL (wanted d l) = 0)) ∨
       (out = .argumentError ∧ o = none ∧ ¬ Uniform d l) ∨
       (out = .threw ∧ o = none ∧ CanFail h)) := by
  match d, l, h0 with
  | 0, l, h0 =>
    have key : ∀ l : List α, l ≠ [] → ∃ out o h', Vec.ctor [l.length] (l.map Src.val) h = some ((out, o), h') ∧
        (∀ b, (rvO o).ptr ≠ some b → h'.blk b = h.blk b) ∧
        ((out = .ok ∧ (∃ v, o = some v ∧ viewV h' v = (wanted 0 (l : NL α 0), (allIdx (wanted 0 (l : NL α 0))).map (item 0 (l : NL α 0)))) ∧
          (Uniform 0 (l : NL α 0) ∨ prodL (wanted 0 (l : NL α 0)) = 0)) ∨
         (out = .argumentError ∧ o = none ∧ ¬ Uniform 0 (l : NL α 0)) ∨ (out = .threw ∧ o = none ∧ CanFail h)) := by
      intro l hl
      have hpos : 0 < l.length := List.length_pos_iff.mpr hl
      obtain ⟨out, o, h', e, m⟩ := ctor_made (dims := [l.length]) w (ss := l.map Src.val) (by simpa [startable] using hl) (Reads.vals l) (by simp [prodL])
      refine ⟨out, o, h', e, fun b hb => m.ev.frame b (by simp [RV.null]) hb, ?_⟩
      rcases m.res with ⟨rfl, v, rfl, r⟩ | ⟨rfl, rfl, hf⟩
      · refine Or.inl ⟨rfl, ⟨v, rfl, ?_⟩, Or.inl ⟨fun i hi => absurd hi (by omega), by simpa [lens] using hl⟩⟩
        rw [viewV_eq r, wanted_zero]
        have := rowPlan_items (n := l.length) (l := l) (Nat.le_refl _) hl
        rw [← this, rowPlan]
        simp [AVal.ofElems, AVal.dims, AVal.elems]
      · exact Or.inr (Or.inr ⟨rfl, rfl, hf⟩)
    refine key l ?_
    intro e
    rcases h0 with h0 | h0
    · exact absurd rfl h0
    · exact h0 (by rw [e]; rfl)
  | d + 1, l, _ =>
    simp only [fromList]
    rw [sizesOf_eq]
    have hd : wanted (d + 1) l ≠ [] := by
      intro e
      have := wanted_length (d + 1) l
      rw [e] at this; simp at this
    by_cases hz : prodL (wanted (d + 1) l) = 0
    · rw [if_neg (by simpa using hz)]
      refine ⟨.ok, _, h, rfl, fun b _ => rfl, Or.inl ⟨rfl, ⟨_, rfl, ?_⟩, Or.inr hz⟩⟩
      rw [allIdx_nil hz]
      have := view_shaped (l := ([] : List α)) w (hasList_null h) hd (by simpa using hz)
      simpa using this
    · rw [if_pos hz]
      have hf : Fits (d + 1) (wanted (d + 1) l) l := fits_of _ _ _ (below_refl _)
      have hlen := nlPlan_length (d + 1) _ l hf (wanted_length _ _)
      have hok := nlPlan_ok (d + 1) _ l (wanted_length _ _) hf hz
      have hitems := nlPlan_items (d + 1) _ l (wanted_length _ _) hf
      have hfull : (nlPlan (d + 1) (wanted (d + 1) l) l).2 = .ok → (nlPlan (d + 1) (wanted (d + 1) l) l).1.length = prodL (wanted (d + 1) l) := by
        intro ho
        have := congrArg List.length (hitems (hok.mp ho) hz)
        simpa [allIdx_length] using this
      obtain ⟨out, rv, h', e, ev, hr⟩ := initBy_spec w hz hlen (copy := fun nb => copyIL nb (d + 1) (wanted (d + 1) l) l)
        (fun nb => copyIL_plan nb _ _ _ hf)
      rw [bind_some e, pure_run]
      rcases hr with ⟨rfl, ho, hl⟩ | ⟨rfl, rfl, hc⟩ | ⟨rfl, hn, rfl⟩
      · refine ⟨.ok, some (Vec.shaped rv (wanted (d + 1) l)), h', by simp [finishWith], ?_, ?_⟩
        · intro b hb
          rw [rvO, shaped_rv] at hb
          exact ev.frame b (by simp [RV.null]) hb
        · refine Or.inl ⟨rfl, ⟨_, rfl, ?_⟩, Or.inl ((uniform_iff _ _ hz).mpr (hok.mp ho))⟩
          rw [view_shaped ev.wf hl hd (hfull ho).symm, hitems (hok.mp ho) hz]
      · refine ⟨.threw, none, h', by simp [finishWith], fun b _ => by rw [evolves_null ev], Or.inr (Or.inr ⟨rfl, rfl, hc⟩)⟩
      · have ha : (nlPlan (d + 1) (wanted (d + 1) l) l).2 = .argumentError := (nlPlan_end _ _ _).resolve_left hn
        rw [ha]
        refine ⟨.argumentError, none, h', by simp [finishWith], fun b _ => by rw [evolves_null ev], Or.inr (Or.inl ⟨rfl, rfl, ?_⟩)⟩
        intro hu
        exact hn (hok.mpr ((uniform_iff _ _ hz).mp hu))

/-- **C75, without exceptions from outside**: a uniform list is taken, a list with elements that is not uniform is refused. -/
theorem C75_decision (d : Nat) (l : NL α d) (h : Heap α) (w : WfH h) (q : Quiet h) (h0 : d ≠ 0 ∨ lens d l 0 ≠ [0]) :
    ∃ o h', (Uniform d l → fromList d l h = some ((.ok, o), h')) ∧
      (¬ Uniform d l → prodL (wanted d l) ≠ 0 → fromList d l h = some ((.argumentError, o), h') ∧ o = none ∧ h'.blk = h.blk) := by
  obtain ⟨out, o, h', e, hb, hr⟩ := C75_nested_list_partial d l h w h0
  refine ⟨o, h', fun hu => ?_, fun hn hz => ?_⟩
  · rcases hr with ⟨rfl, _⟩ | ⟨_, _, hx⟩ | ⟨_, _, hf⟩
    · exact e
    · exact absurd hu hx
    · exact absurd hf q.not
  · rcases hr with ⟨rfl, _, hx⟩ | ⟨rfl, rfl, _⟩ | ⟨_, _, hf⟩
    · exact absurd hx (not_or.mpr ⟨hn, hz⟩)
    · exact ⟨e, rfl, funext fun b => hb b (by simp [rvO, RV.null])⟩
    · exact absurd hf q.not

/-! Non-vacuity: a table with a short row, a cube, a list that is refused, a copy that throws. -/

def ragged : NL Nat 1 := [[1, 2, 3], [4], [5, 6]]
def cube : NL Nat 2 := [[[1], [2, 3]], [[4, 5], [6]]]
def crooked : NL Nat 2 := [[[1], [2]], [[3]]]
example : wanted 1 ragged = [3, 3] ∧ wanted 2 cube = [2, 2, 2] ∧ wanted 2 crooked = [2, 2, 1] := by decide
example : (fromList 1 ragged (Heap.empty never never)).map (fun r => (r.1.1, r.1.2.map (viewV r.2))) =
    some (.ok, some ([3, 3], [some 1, some 2, some 3, some 4, some 4, some 4, some 5, some 6, some 6])) := by decide +kernel
example : (fromList 2 cube (Heap.empty never never)).map (fun r => (r.1.1, r.1.2.map (viewV r.2))) =
    some (.ok, some ([2, 2, 2], [some 1, some 1, some 2, some 3, some 4, some 5, some 6, some 6])) := by decide +kernel
example : (fromList 2 crooked (Heap.empty never never)).map (fun r => (r.1.1, r.1.2, (List.range 3).all fun b => (r.2.blk b).isNone)) =
    some (.argumentError, none, true) := by decide +kernel
example : (fromList 1 ([[1, 2], []] : List (List Nat)) (Heap.empty never never)).map (fun r => (r.1.1, r.1.2)) = some (.argumentError, none) := by
  decide +kernel
example : (fromList 2 cube (Heap.empty (fun t => t = 5) never)).map (fun r => (r.1.1, r.1.2, (List.range 3).all fun b => (r.2.blk b).isNone)) =
    some (.threw, none, true) := by decide +kernel
example : WfH (Heap.empty never never : Heap Nat) ∧ Quiet (Heap.empty never never : Heap Nat) := ⟨fun _ _ => rfl, quiet_empty⟩

/-- **C75 fails without elements**: the form of a nested list is checked only while elements are copied, so a list of lists of different
lengths is taken when there is no element at all; and with one dimension the empty list violates a contract of the library. -/
theorem C75_no_elements_violated :
    (¬ Uniform 2 ([[[]], [[], []]] : List (List (List Nat))) ∧
      (fromList 2 ([[[]], [[], []]] : List (List (List Nat))) (Heap.empty never never)).map (fun r => (r.1.1, r.1.2.map (viewV r.2))) =
        some (.ok, some ([2, 2, 0], []))) ∧
    (fromList 0 ([] : List Nat) (Heap.empty never never)).isNone = true := by
  refine ⟨⟨?_, by decide +kernel⟩, by decide +kernel⟩
  rintro ⟨h, _⟩
  exact absurd (h 1 (by omega) 1 (by decide) 2 (by decide)) (by decide)

end Verif.VectorNd
