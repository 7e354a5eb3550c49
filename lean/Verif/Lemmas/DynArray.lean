import Verif.Model.DynArray
import Verif.Lemmas.VectorNd2

/-!
Lemmas about `dynamic_array`.
-/
set_option autoImplicit false
set_option linter.unusedSectionVars false

namespace Verif.DynArray
open Verif.VectorNd (Heap M Src construct destroyAt deallocate copyLoop bad Upd WfH Reads Keeps bind_some pure_run destroyAt_spec copyLoop_spec deallocate_spec lt_next)

variable {α : Type}

/-- A variable's block went from `p` to `p'`; the old one is freed, other blocks stay as they were. -/
structure Chg (h : Heap α) (p : Option Nat) (h' : Heap α) (p' : Option Nat) : Prop where
  wf : WfH h'
  frame : ∀ b, p ≠ some b → p' ≠ some b → h'.blk b = h.blk b
  freed : ∀ b, p = some b → p' ≠ some b → h'.blk b = none
  fresh : ∀ b, p' = some b → p ≠ some b → h.blk b = none
  failC : h'.failC = h.failC
  failA : h'.failA = h.failA

theorem Chg.refl {h : Heap α} (w : WfH h) (p : Option Nat) : Chg h p h p :=
  ⟨w, fun _ _ _ => rfl, fun _ e n => absurd e n, fun _ e n => absurd e n, rfl, rfl⟩

/-- Free, then allocate. -/
theorem Chg.trans {h h1 h2 : Heap α} {p p' : Option Nat} (c : Chg h p h1 none) (d : Chg h1 none h2 p') : Chg h p h2 p' where
  wf := d.wf
  frame := fun b e1 e2 => by rw [d.frame b (by simp) e2, c.frame b e1 (by simp)]
  freed := fun b e1 e2 => by rw [d.frame b (by simp) e2, c.freed b e1 (by simp)]
  fresh := fun b e1 e2 => by
    have := d.fresh b e1 (by simp)
    rwa [c.frame b e2 (by simp)] at this
  failC := by rw [d.failC, c.failC]
  failA := by rw [d.failA, c.failA]

theorem destroyRev_spec (b : Nat) : ∀ (n : Nat) (L : List α) (h : Heap α) (C : List (Option α)), L.length = n → h.blk b = some (L.map some ++ C) →
    ∃ h', destroyRev b n h = some ((), h') ∧ Upd h h' b (List.replicate n none ++ C) 0
  | 0, L, h, C, hn, e => by
    have : L = [] := List.length_eq_zero_iff.mp hn
    subst this
    exact ⟨h, rfl, Upd.refl (by simpa using e)⟩
  | n + 1, L, h, C, hn, e => by
    obtain ⟨L', a, rfl⟩ := Verif.VectorNd.exists_concat L (by intro h0; subst h0; simp at hn)
    have hl : L'.length = n := by simpa using hn
    obtain ⟨h1, e1, u1⟩ := destroyAt_spec (h := h) (b := b) (i := n) (A := L'.map some) (C := C) (a := a) (by rw [e]; simp) (by simp [hl])
    obtain ⟨h2, e2, u2⟩ := destroyRev_spec b n L' h1 (none :: C) hl u1.here
    refine ⟨h2, by rw [destroyRev, bind_some e1, e2], (u1.trans u2).congr ?_ rfl⟩
    rw [List.replicate_succ']
    simp

/-- The array has a block of exactly its elements, or none. -/
def Has (h : Heap α) (d : DA) (l : List α) : Prop :=
  match d.data with
  | none => l = []
  | some b => h.blk b = some (l.map some) ∧ d.size = l.length

theorem Has.none' {h : Heap α} {d : DA} {l : List α} (o : Has h d l) (e : d.data = none) : l = [] := by
  simpa only [Has, e] using o

theorem Has.some' {h : Heap α} {d : DA} {l : List α} {b : Nat} (o : Has h d l) (e : d.data = some b) :
    h.blk b = some (l.map some) ∧ d.size = l.length := by
  simpa only [Has, e] using o

theorem Has.frame {h h' : Heap α} {d : DA} {l : List α} (o : Has h d l) (hb : ∀ b, d.data = some b → h'.blk b = h.blk b) : Has h' d l := by
  cases e : d.data with
  | none => simpa only [Has, e] using o
  | some b => simpa only [Has, e, hb b e] using o

theorem destroy_spec {h : Heap α} (w : WfH h) {d : DA} {l : List α} (o : Has h d l) :
    ∃ d' h', destroy d h = some (d', h') ∧ d'.data = none ∧ (d' = d ∨ d'.size = 0) ∧ Chg h d.data h' none := by
  cases e : d.data with
  | none => exact ⟨d, h, by simp only [destroy, e, pure_run], e, .inl rfl, Chg.refl w _⟩
  | some b =>
    obtain ⟨eb, es⟩ := o.some' e
    obtain ⟨h1, e1, u1⟩ := destroyRev_spec b d.size l h [] es.symm (by simpa using eb)
    obtain ⟨h2, e2, f⟩ := deallocate_spec (h := h1) (b := b) (n := d.size) (by simpa using u1.here)
    refine ⟨⟨0, none⟩, h2, ?_, rfl, .inr rfl, ?_, ?_, ?_, fun b' e' => by simp at e', by rw [f.failC, u1.failC], by rw [f.failA, u1.failA]⟩
    · simp only [destroy, e]
      rw [bind_some e1, bind_some e2]; rfl
    · intro b' hb'
      by_cases c : b' = b
      · rw [c, f.here]
      · rw [f.other _ c, u1.other _ c]
        exact w b' (by rw [f.next, u1.next] at hb'; exact hb')
    · intro b' hb' _
      have : b' ≠ b := fun c => hb' (by rw [c])
      rw [f.other _ this, u1.other _ this]
    · intro b' hb' _
      have : b = b' := by simpa using hb'
      rw [← this, f.here]

/-- Allocation and construction, if no element constructor throws. -/
theorem fill_spec {h : Heap α} (w : WfH h) (hc : ∀ t, h.failC t = false) {ss : List (Src α)} {vs : List α} (hr : Reads h ss vs) :
    (∃ b h', (∃ h1, allocate ss.length h = some ((true, ⟨ss.length, some b⟩), h1) ∧ constructAll ⟨ss.length, some b⟩ ss h1 = some (true, h')) ∧
      Chg h none h' (some b) ∧ Has h' ⟨ss.length, some b⟩ vs ∧ h.failA h.tick = false) ∨
    (∃ h', allocate ss.length h = some ((false, ⟨ss.length, none⟩), h') ∧ Chg h none h' none ∧ h'.blk = h.blk ∧ h.failA h.tick = true) := by
  have hlen := hr.length
  cases hf : h.failA h.tick with
  | true =>
    right
    refine ⟨{ h with tick := h.tick + 1 }, ?_, ⟨w, fun _ _ _ => rfl, fun _ e => by simp at e, fun _ e => by simp at e, rfl, rfl⟩, rfl, rfl⟩
    simp [allocate, bind, M.bind, alloc, hf, pure, M.pure]
  | false =>
    left
    refine ⟨h.next, ?_⟩
    obtain ⟨h1, hh1⟩ : ∃ h1, h1 = { h.put h.next (some (List.replicate ss.length none)) with next := h.next + 1, tick := h.tick + 1 } := ⟨_, rfl⟩
    have b1 : h1.blk h.next = some (List.replicate ss.length none) := by rw [hh1]; simp [Heap.put]
    have o1 : ∀ b, b ≠ h.next → h1.blk b = h.blk b := by intro b hb; rw [hh1]; simp [Heap.put, hb]
    have n1 : h1.next = h.next + 1 := by rw [hh1]
    have c1 : h1.failC = h.failC := by rw [hh1]; rfl
    have a1 : h1.failA = h.failA := by rw [hh1]; rfl
    have k1 : Keeps h h1 := by
      intro b i a e
      have hb : b ≠ h.next := by
        intro c; subst c
        simp only [Heap.slot, w _ (Nat.le_refl _)] at e
        cases e
      simpa only [Heap.slot, o1 b hb] using e
    have e1 : allocate ss.length h = some ((true, ⟨ss.length, some h.next⟩), h1) := by
      rw [hh1]
      simp [allocate, bind, M.bind, alloc, hf, pure, M.pure]
    obtain ⟨k, h2, hk, e2, u2, _, ht⟩ := copyLoop_spec h.next ss vs h1 [] [] 0 (by simpa using b1) rfl (hr.keep k1)
    have hk' : k = ss.length := by
      by_cases c : k < ss.length
      · obtain ⟨t, ht⟩ := ht c
        rw [c1, hc] at ht; cases ht
      · omega
    subst hk'
    refine ⟨h2, ⟨h1, e1, ?_⟩, ⟨?_, ?_, fun _ e => by simp at e, ?_, by rw [u2.failC, c1], by rw [u2.failA, a1]⟩, ?_, rfl⟩
    · simp only [constructAll]
      rw [bind_some e2]
      simp [pure_run]
    · intro b hb
      rw [u2.next, n1] at hb
      rw [u2.other _ (by omega), o1 _ (by omega)]
      exact w b (by omega)
    · intro b _ hb
      have : b ≠ h.next := fun c => hb (by rw [c])
      rw [u2.other _ this, o1 _ this]
    · intro b hb _
      have : h.next = b := by simpa using hb
      rw [← this]; exact w _ (Nat.le_refl _)
    · have := u2.here
      simp only [Has]
      refine ⟨?_, hlen⟩
      rw [this]
      simp [hlen, List.take_of_length_le]

theorem create_spec {h : Heap α} (w : WfH h) (hc : ∀ t, h.failC t = false) {ss : List (Src α)} {vs : List α} (hr : Reads h ss vs) :
    (∃ d h', create ss h = some (some d, h') ∧ Chg h none h' d.data ∧ Has h' d vs ∧ d.data.isSome ∧ h.failA h.tick = false) ∨
    (∃ h', create ss h = some (none, h') ∧ Chg h none h' none ∧ h.failA h.tick = true) := by
  rcases fill_spec w hc hr with ⟨b, h', ⟨h1, e1, e2⟩, c, o, hf⟩ | ⟨h', e1, c, _, hf⟩
  · left
    refine ⟨⟨ss.length, some b⟩, h', ?_, c, o, rfl, hf⟩
    rw [create, bind_some e1]
    simp only [if_true]
    rw [bind_some e2]; rfl
  · right
    refine ⟨h', ?_, c, hf⟩
    rw [create, bind_some e1]; rfl

theorem reassign_spec {h : Heap α} (w : WfH h) (hc : ∀ t, h.failC t = false) {d : DA} {l : List α} (o : Has h d l) {ss : List (Src α)} {vs : List α}
    (hr : ∀ h1 : Heap α, (∀ b, d.data ≠ some b → h1.blk b = h.blk b) → Reads h1 ss vs) :
    (∃ d' h', reassign d ss h = some ((true, d'), h') ∧ Chg h d.data h' d'.data ∧ Has h' d' vs ∧ d'.data.isSome) ∨
    (∃ d' h', reassign d ss h = some ((false, d'), h') ∧ Chg h d.data h' none ∧ d'.data = none ∧ ∃ t, h.failA t = true) := by
  obtain ⟨d1, h1, e1, _, _, c1⟩ := destroy_spec w o
  have hr1 := hr h1 fun b hb => c1.frame b hb (by simp)
  rcases fill_spec c1.wf (by rw [c1.failC]; exact hc) hr1 with ⟨b, h2, ⟨h2', e2, e3⟩, c2, o2, _⟩ | ⟨h2, e2, c2, _, hf⟩
  · left
    refine ⟨⟨ss.length, some b⟩, h2, ?_, ?_, o2, rfl⟩
    · rw [reassign, bind_some e1, bind_some e2]
      simp only [if_true]
      rw [bind_some e3]; rfl
    · exact c1.trans c2
  · right
    refine ⟨⟨ss.length, none⟩, h2, ?_, c1.trans c2, rfl, ⟨h1.tick, by rw [← c1.failA]; exact hf⟩⟩
    rw [reassign, bind_some e1, bind_some e2]; rfl

end Verif.DynArray
