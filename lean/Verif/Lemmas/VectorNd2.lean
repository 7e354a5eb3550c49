import Verif.Lemmas.VectorNd

/-!
Lemmas about `raw_vector`: what each of its functions does to the vector's block and to the rest of the heap.
-/
set_option autoImplicit false
set_option linter.unusedSectionVars false

namespace Verif.VectorNd
variable {α : Type}

/-! ### Ownership -/

/-- Blocks that were never allocated are not there. -/
def WfH (h : Heap α) : Prop := ∀ b, h.next ≤ b → h.blk b = none

/-- The vector's block has the slots `X` (no block: no slots). -/
def Holds (h : Heap α) (rv : RV) (X : List (Option α)) : Prop :=
  match rv.ptr with
  | none => rv.cap = 0 ∧ X = []
  | some b => h.blk b = some X ∧ X.length = rv.cap ∧ 0 < rv.cap

/-- The first slots hold the elements of `l`, the other ones are dead. -/
def slots (cap : Nat) (l : List α) : List (Option α) := l.map some ++ List.replicate (cap - l.length) none

def HasList (h : Heap α) (rv : RV) (l : List α) : Prop := Holds h rv (slots rv.cap l) ∧ l.length ≤ rv.cap

/-- What an operation on the vector may do to the heap: the vector's block may be replaced by a new one, in which case the old
one is freed; all other blocks stay as they were. -/
structure Evolves (h : Heap α) (rv : RV) (h' : Heap α) (rv' : RV) : Prop where
  wf : WfH h'
  frame : ∀ b, rv.ptr ≠ some b → rv'.ptr ≠ some b → h'.blk b = h.blk b
  moved : ∀ b, rv.ptr = some b → rv'.ptr ≠ some b → h'.blk b = none
  fresh : ∀ b, rv'.ptr = some b → rv.ptr ≠ some b → h.blk b = none
  failC : h'.failC = h.failC
  failA : h'.failA = h.failA

theorem Evolves.refl {h : Heap α} {rv : RV} (w : WfH h) : Evolves h rv h rv :=
  ⟨w, fun _ _ _ => rfl, fun _ e n => absurd e n, fun _ e n => absurd e n, rfl, rfl⟩

theorem Evolves.trans {h h1 h2 : Heap α} {rv rv1 rv2 : RV} (e : Evolves h rv h1 rv1) (f : Evolves h1 rv1 h2 rv2) :
    Evolves h rv h2 rv2 where
  wf := f.wf
  frame := fun b n0 n2 => by
    by_cases h1' : rv1.ptr = some b
    · rw [f.moved b h1' n2, e.fresh b h1' n0]
    · rw [f.frame b h1' n2, e.frame b n0 h1']
  moved := fun b e0 n2 => by
    by_cases h1' : rv1.ptr = some b
    · exact f.moved b h1' n2
    · rw [f.frame b h1' n2, e.moved b e0 h1']
  fresh := fun b e2 n0 => by
    by_cases h1' : rv1.ptr = some b
    · exact e.fresh b h1' n0
    · rw [← e.frame b n0 h1', f.fresh b e2 h1']
  failC := f.failC.trans e.failC
  failA := f.failA.trans e.failA

/-- An exception needs a cause. -/
def CanFail (h : Heap α) : Prop := (∃ t, h.failC t = true) ∨ (∃ t, h.failA t = true)

theorem lt_next {h : Heap α} (w : WfH h) {b : Nat} {X : List (Option α)} (e : h.blk b = some X) : b < h.next := by
  rcases Nat.lt_or_ge b h.next with hb | hb
  · exact hb
  · rw [w b hb] at e; cases e

theorem Upd.wf {h h' : Heap α} {b k : Nat} {X : List (Option α)} (u : Upd h h' b X k) (w : WfH h) (hb : b < h.next) : WfH h' := by
  intro b' hb'
  rw [u.next] at hb'
  rw [u.other b' (by omega)]
  exact w b' hb'

theorem Upd.evolves {h h' : Heap α} {rv : RV} {b k : Nat} {X : List (Option α)} (u : Upd h h' b X k) (w : WfH h)
    (hp : rv.ptr = some b) (hb : b < h.next) : Evolves h rv h' rv where
  wf := u.wf w hb
  frame := fun b' n _ => u.other b' (fun e => n (by rw [e]; exact hp))
  moved := fun b' e n => absurd e n
  fresh := fun b' e n => absurd e n
  failC := u.failC
  failA := u.failA

theorem holds_some {h : Heap α} {rv : RV} {b : Nat} {X : List (Option α)} (hp : rv.ptr = some b) :
    Holds h rv X ↔ h.blk b = some X ∧ X.length = rv.cap ∧ 0 < rv.cap := by
  simp only [Holds, hp]

theorem holds_none {h : Heap α} {rv : RV} {X : List (Option α)} (hp : rv.ptr = none) : Holds h rv X ↔ rv.cap = 0 ∧ X = [] := by
  simp only [Holds, hp]

theorem slots_length {cap : Nat} {l : List α} (hl : l.length ≤ cap) : (slots cap l).length = cap := by
  simp [slots]; omega

theorem hasList_none {h : Heap α} {rv : RV} {l : List α} (hp : rv.ptr = none) (o : HasList h rv l) : l = [] ∧ rv.cap = 0 := by
  have := (holds_none hp).mp o.1
  have h2 := o.2
  rw [this.1] at h2
  exact ⟨List.length_eq_zero_iff.mp (by omega), this.1⟩

theorem hasList_null (h : Heap α) : HasList h RV.null ([] : List α) := ⟨⟨rfl, rfl⟩, Nat.le_refl _⟩

theorem hasList_some {h : Heap α} {rv : RV} {b : Nat} {l : List α} (hp : rv.ptr = some b) (o : HasList h rv l) :
    h.blk b = some (l.map some ++ List.replicate (rv.cap - l.length) none) ∧ l.length ≤ rv.cap ∧ 0 < rv.cap := by
  have := (holds_some hp).mp o.1
  exact ⟨this.1, o.2, this.2.2⟩

theorem hasList_mk {h : Heap α} {rv : RV} {b : Nat} {l : List α} (hp : rv.ptr = some b)
    (e : h.blk b = some (l.map some ++ List.replicate (rv.cap - l.length) none)) (hl : l.length ≤ rv.cap) (hc : 0 < rv.cap) :
    HasList h rv l := ⟨(holds_some hp).mpr ⟨e, slots_length hl, hc⟩, hl⟩

/-! ### Allocation -/

/-- Block `nb` was added, with `n` dead slots. -/
structure Alloc (h h' : Heap α) (nb n : Nat) : Prop where
  before : h.blk nb = none
  here : h'.blk nb = some (List.replicate n none)
  other : ∀ b, b ≠ nb → h'.blk b = h.blk b
  wf : WfH h'
  failC : h'.failC = h.failC
  failA : h'.failA = h.failA
  copies : h'.copies = h.copies

/-- Nothing changed but the number of attempts. -/
structure Same (h h' : Heap α) : Prop where
  blk : h'.blk = h.blk
  next : h'.next = h.next
  failC : h'.failC = h.failC
  failA : h'.failA = h.failA
  copies : h'.copies = h.copies

theorem Same.evolves {h h' : Heap α} {rv : RV} (s : Same h h') (w : WfH h) : Evolves h rv h' rv where
  wf := by intro b hb; rw [s.blk]; exact w b (by rw [← s.next]; exact hb)
  frame := fun b _ _ => by rw [s.blk]
  moved := fun b e n => absurd e n
  fresh := fun b e n => absurd e n
  failC := s.failC
  failA := s.failA

theorem Same.holds {h h' : Heap α} (s : Same h h') {rv : RV} {X : List (Option α)} (o : Holds h rv X) : Holds h' rv X := by
  cases hp : rv.ptr with
  | none => exact (holds_none hp).mpr ((holds_none hp).mp o)
  | some b => rw [holds_some hp] at o ⊢; rw [s.blk]; exact o

theorem allocate_spec {h : Heap α} (w : WfH h) {n : Nat} (hn : n ≠ 0) :
    (∃ nb h', allocate n h = some (some nb, h') ∧ Alloc h h' nb n ∧ h.failA h.tick = false) ∨
    (∃ h', allocate n h = some (none, h') ∧ Same h h' ∧ h.failA h.tick = true) := by
  cases hf : h.failA h.tick with
  | true =>
    right
    refine ⟨{ h with tick := h.tick + 1 }, by simp only [allocate, if_neg hn, hf, if_true], ⟨rfl, rfl, rfl, rfl, rfl⟩, rfl⟩
  | false =>
    left
    refine ⟨h.next, { h.put h.next (some (List.replicate n none)) with next := h.next + 1, tick := h.tick + 1 }, by simp only [allocate, if_neg hn, hf]; rfl, ⟨w _ (Nat.le_refl _), by simp [Heap.put], fun b hb => by simp [Heap.put, hb], ?_, rfl, rfl, rfl⟩, rfl⟩
    intro b hb
    have hb' : h.next + 1 ≤ b := hb
    have : b ≠ h.next := by omega
    simp only [Heap.put, if_neg this]
    exact w b (by omega)

/-- Block `b` was freed. -/
structure Freed (h h' : Heap α) (b : Nat) : Prop where
  here : h'.blk b = none
  other : ∀ b', b' ≠ b → h'.blk b' = h.blk b'
  next : h'.next = h.next
  failC : h'.failC = h.failC
  failA : h'.failA = h.failA
  copies : h'.copies = h.copies

theorem deallocate_spec {h : Heap α} {b n : Nat} (e : h.blk b = some (List.replicate n none)) :
    ∃ h', deallocate b n h = some ((), h') ∧ Freed h h' b := by
  refine ⟨h.put b none, ?_, ⟨by simp [Heap.put], fun b' hb => by simp [Heap.put, hb], rfl, rfl, rfl, rfl⟩⟩
  simp [deallocate, e]

/-- Destroying all elements and freeing the block. -/
theorem free_spec {β : Type} {h : Heap α} {ob cap size : Nat} {l : List α} (x : β)
    (e : h.blk ob = some (l.map some ++ List.replicate (cap - l.length) none)) (hl : l.length ≤ cap) (hs : size = l.length) :
    ∃ h', (do destroy ob 0 size; deallocate ob cap; pure x : M α β) h = some (x, h') ∧ Freed h h' ob := by
  obtain ⟨h1, e1, u1⟩ := destroy_spec (h := h) (b := ob) (lo := 0) (hi := size) (A := []) (L := l)
    (C := List.replicate (cap - l.length) none) (by simpa using e) rfl (by simp [hs])
  have : ([] ++ (List.replicate l.length none ++ List.replicate (cap - l.length) none) : List (Option α)) = List.replicate cap none := by
    rw [List.nil_append, List.replicate_append_replicate]; congr 1; omega
  obtain ⟨h2, e2, f2⟩ := deallocate_spec (n := cap) (u1.here.trans (congrArg some this))
  refine ⟨h2, by rw [bind_some e1, bind_some e2, pure_run], f2.here, ?_, f2.next.trans u1.next, f2.failC.trans u1.failC, f2.failA.trans u1.failA, f2.copies.trans u1.copies⟩
  intro b' hb'
  rw [f2.other b' hb', u1.other b' hb']

/-- A new block was allocated and written, the old one freed: the vector now uses the new block. -/
theorem realloc_ok {h h1 h2 h3 : Heap α} {rv : RV} {ob nb ncap k : Nat} {X : List (Option α)} (hp : rv.ptr = some ob)
    (a : Alloc h h1 nb ncap) (u : Upd h1 h2 nb X k) (f : Freed h2 h3 ob) (hX : X.length = ncap) (hn : 0 < ncap) (hne : ob ≠ nb) :
    Evolves h rv h3 ⟨some nb, ncap⟩ ∧ Holds h3 ⟨some nb, ncap⟩ X ∧ h3.copies = h.copies + k := by
  refine ⟨⟨?_, ?_, ?_, ?_, ?_, ?_⟩, ?_, ?_⟩
  · intro b hb
    have hnb : nb < h1.next := lt_next a.wf a.here
    rw [f.next, u.next] at hb
    by_cases hbo : b = ob
    · subst hbo; exact f.here
    · rw [f.other b hbo, u.other b (by omega)]; exact a.wf b hb
  · intro b n0 n1
    have : b ≠ ob := fun e => n0 (by rw [e]; exact hp)
    have h2' : b ≠ nb := fun e => n1 (by rw [e])
    rw [f.other b this, u.other b h2', a.other b h2']
  · intro b e0 _
    have : b = ob := by rw [hp] at e0; exact (Option.some.inj e0).symm
    rw [this]; exact f.here
  · intro b e1 _
    have : b = nb := (Option.some.inj e1).symm
    rw [this]; exact a.before
  · rw [f.failC, u.failC, a.failC]
  · rw [f.failA, u.failA, a.failA]
  · exact ⟨by rw [f.other nb (Ne.symm hne)]; exact u.here, hX, hn⟩
  · rw [f.copies, u.copies, a.copies]

/-- The same when there was no old block. -/
theorem realloc_null {h h1 h2 : Heap α} {rv : RV} {nb ncap k : Nat} {X : List (Option α)} (hp : rv.ptr = none)
    (a : Alloc h h1 nb ncap) (u : Upd h1 h2 nb X k) (hX : X.length = ncap) (hn : 0 < ncap) :
    Evolves h rv h2 ⟨some nb, ncap⟩ ∧ Holds h2 ⟨some nb, ncap⟩ X ∧ h2.copies = h.copies + k := by
  refine ⟨⟨?_, ?_, ?_, ?_, ?_, ?_⟩, ?_, ?_⟩
  · exact u.wf a.wf (lt_next a.wf a.here)
  · intro b _ n1
    have h2' : b ≠ nb := fun e => n1 (by rw [e])
    rw [u.other b h2', a.other b h2']
  · intro b e0 _; rw [hp] at e0; cases e0
  · intro b e1 _
    have : b = nb := (Option.some.inj e1).symm
    rw [this]; exact a.before
  · rw [u.failC, a.failC]
  · rw [u.failA, a.failA]
  · exact ⟨u.here, hX, hn⟩
  · rw [u.copies, a.copies]

/-- A new block was allocated, written, and given up again: the vector is as before. -/
theorem realloc_fail {h h1 h2 h3 : Heap α} {rv : RV} {nb ncap k : Nat} {X Y : List (Option α)} (w : WfH h)
    (a : Alloc h h1 nb ncap) (u : Upd h1 h2 nb Y k) (f : Freed h2 h3 nb) (o : Holds h rv X) :
    Evolves h rv h3 rv ∧ Holds h3 rv X := by
  have same : ∀ b, h3.blk b = h.blk b := by
    intro b
    by_cases hb : b = nb
    · subst hb; rw [f.here, a.before]
    · rw [f.other b hb, u.other b hb, a.other b hb]
  refine ⟨⟨?_, fun b _ _ => same b, fun b e n => absurd e n, fun b e n => absurd e n, ?_, ?_⟩, ?_⟩
  · intro b hb
    have hnb : nb < h1.next := lt_next a.wf a.here
    rw [f.next, u.next] at hb
    rw [f.other b (by omega), u.other b (by omega)]
    exact a.wf b hb
  · rw [f.failC, u.failC, a.failC]
  · rw [f.failA, u.failA, a.failA]
  · cases hp : rv.ptr with
    | none => exact (holds_none hp).mpr ((holds_none hp).mp o)
    | some b => rw [holds_some hp] at o ⊢; rw [same]; exact o

theorem alloc_ne {h h1 : Heap α} {nb n b : Nat} {X : List (Option α)} (a : Alloc h h1 nb n) (e : h.blk b = some X) : b ≠ nb := by
  intro hb; subst hb; rw [a.before] at e; cases e

/-! ### `increase`, moving to another block, `reserve`, `shrink_to_fit`, `prepare_push_back` -/

theorem increase_spec (h : Heap α) {old new : Nat} (hlt : old < new) :
    ∃ c, increase old new h = some (c, h) ∧ new ≤ c ∧ (c = new ∨ c = 2 * old) ∧
      (old < sizeMax / 2 → c = max new (2 * old)) := by
  by_cases ho : old < sizeMax / 2
  · refine ⟨max new (2 * old), by rw [increase, if_neg (by omega), if_pos ho, pure_run], Nat.le_max_left _ _, by omega, fun _ => rfl⟩
  · refine ⟨new, by rw [increase, if_neg (by omega), if_neg ho, pure_run], Nat.le_refl _, Or.inl rfl, fun h' => absurd h' ho⟩

theorem rvMoveTo_spec {h h1 : Heap α} {rv : RV} {nb ncap size : Nat} {l : List α} (w : WfH h) (o : HasList h rv l)
    (hs : size = l.length) (a : Alloc h h1 nb ncap) (hc : l.length ≤ ncap) (hn : 0 < ncap) :
    (∃ h', rvMoveTo rv size nb ncap h1 = some ((true, ⟨some nb, ncap⟩), h') ∧ Evolves h rv h' ⟨some nb, ncap⟩ ∧
      HasList h' ⟨some nb, ncap⟩ l ∧ h'.copies = h.copies + l.length) ∨
    (∃ h', rvMoveTo rv size nb ncap h1 = some ((false, rv), h') ∧ Evolves h rv h' rv ∧ HasList h' rv l ∧ ∃ t, h.failC t = true) := by
  cases hp : rv.ptr with
  | none =>
    obtain ⟨rfl, hcap⟩ := hasList_none hp o
    left
    obtain ⟨ev, ho, hcop⟩ := realloc_null (rv := rv) hp a (Upd.refl a.here) (by simp) hn
    refine ⟨h1, by simp only [rvMoveTo, hp, pure_run], ev, ⟨by simpa [slots] using ho, by simp⟩, by simpa using hcop⟩
  | some ob =>
    obtain ⟨eb, hl, hcap⟩ := hasList_some hp o
    have hne := alloc_ne a eb
    have eb1 : h1.blk ob = some (l.map some ++ List.replicate (rv.cap - l.length) none) := by rw [a.other ob hne]; exact eb
    have enb : h1.blk nb = some ([] ++ (List.replicate (refs ob 0 size : List (Src α)).length none ++ List.replicate (ncap - l.length) none)) := by
      rw [a.here, refs_length, List.nil_append, List.replicate_append_replicate, hs]; congr 2; omega
    have hr : Reads h1 (refs ob 0 size) l := by
      rw [hs]; exact Reads.refs l [] (List.replicate (rv.cap - l.length) none) 0 (by simpa using eb1) rfl
    obtain ⟨k, h2, hk, e2, u2, _, hfail⟩ := copyLoop_spec nb (refs ob 0 size) l h1 [] _ 0 enb rfl hr
    rw [refs_length] at hk hfail u2 e2
    by_cases hks : k = size
    · left
      have eob2 : h2.blk ob = some (l.map some ++ List.replicate (rv.cap - l.length) none) := by rw [u2.other ob hne]; exact eb1
      obtain ⟨h3, e3, f3⟩ := free_spec (size := size) ((true, (⟨some nb, ncap⟩ : RV))) eob2 hl hs
      have hX : (([] : List (Option α)) ++ ((l.take k).map some ++ (List.replicate (size - k) none ++ List.replicate (ncap - l.length) none))) = slots ncap l := by
        subst hks; subst hs; simp [slots]
      obtain ⟨ev, ho, hcop⟩ := realloc_ok (rv := rv) hp a (u2.congr hX rfl) f3 (slots_length hc) hn hne
      refine ⟨h3, ?_, ev, ⟨ho, hc⟩, by rw [hcop, hks, hs]⟩
      simp only [rvMoveTo, hp]
      rw [bind_some e2]
      simp only [hks, decide_true, if_true]
      exact e3
    · right
      have hX : (([] : List (Option α)) ++ ((l.take k).map some ++ (List.replicate (size - k) none ++ List.replicate (ncap - l.length) none)))
          = (l.take k).map some ++ List.replicate (ncap - (l.take k).length) none := by
        rw [List.nil_append, List.replicate_append_replicate, List.length_take]; congr 2; omega
      have u2' := u2.congr hX rfl
      have hlk : (l.take k).length = k := by rw [List.length_take]; omega
      obtain ⟨h3, e3, f3⟩ := free_spec (size := 0 + k) ((false, rv)) u2'.here (by rw [hlk]; omega) (by rw [hlk]; omega)
      obtain ⟨ev, ho⟩ := realloc_fail w a u2 f3 o.1
      obtain ⟨t, ht⟩ := hfail (by omega)
      refine ⟨h3, ?_, ev, ⟨ho, o.2⟩, t, by rw [← a.failC]; exact ht⟩
      simp only [rvMoveTo, hp]
      rw [bind_some e2]
      simp only [hks, decide_false, Bool.false_eq_true, if_false]
      exact e3

theorem rvReserve_spec {h : Heap α} {rv : RV} {size ncap : Nat} {l : List α} (w : WfH h) (o : HasList h rv l)
    (hs : size = l.length) :
    ∃ ok rv' h', rvReserve rv size ncap h = some ((ok, rv'), h') ∧ Evolves h rv h' rv' ∧ HasList h' rv' l ∧
      (ok = true → rv'.cap = max rv.cap ncap) ∧ (ok = false → rv' = rv ∧ CanFail h) := by
  by_cases hc : ncap > rv.cap
  · rcases allocate_spec w (n := ncap) (by omega) with ⟨nb, h1, e1, a, _⟩ | ⟨h1, e1, s, hf⟩
    · rcases rvMoveTo_spec w o hs a (by have := o.2; omega) (by omega) with ⟨h2, e2, ev, o2, _⟩ | ⟨h2, e2, ev, o2, ht⟩
      · refine ⟨true, _, h2, by rw [rvReserve, if_pos hc, bind_some e1]; exact e2, ev, o2, fun _ => ?_, fun hh => by simp at hh⟩
        show ncap = max rv.cap ncap
        omega
      · refine ⟨false, _, h2, by rw [rvReserve, if_pos hc, bind_some e1]; exact e2, ev, o2, fun hh => by simp at hh, fun _ => ⟨rfl, Or.inl ht⟩⟩
    · refine ⟨false, rv, h1, by rw [rvReserve, if_pos hc, bind_some e1]; rfl, s.evolves w, ⟨s.holds o.1, o.2⟩, fun hh => by simp at hh, fun _ => ⟨rfl, Or.inr ⟨_, hf⟩⟩⟩
  · refine ⟨true, rv, h, by rw [rvReserve, if_neg hc, pure_run], Evolves.refl w, o, fun _ => by omega, fun hh => by simp at hh⟩

theorem rvPreparePushBack_spec {h : Heap α} {rv : RV} {old new : Nat} {l : List α} (w : WfH h) (o : HasList h rv l)
    (hs : old = l.length) (hn : old ≤ new) :
    ∃ ok rv' h', rvPreparePushBack rv old new h = some ((ok, rv'), h') ∧ Evolves h rv h' rv' ∧ HasList h' rv' l ∧
      (ok = true → new ≤ rv'.cap ∧ (new ≤ rv.cap → rv' = rv ∧ h' = h) ∧
        (rv.cap < new → h'.copies = h.copies + l.length ∧ (rv'.cap = new ∨ rv'.cap = 2 * rv.cap) ∧
          (rv.cap < sizeMax / 2 → rv'.cap = max new (2 * rv.cap)))) ∧
      (ok = false → rv' = rv ∧ CanFail h) := by
  by_cases hc : new > rv.cap
  · obtain ⟨c, ec, hnc, hc2, hmax⟩ := increase_spec h hc
    rcases allocate_spec w (n := c) (by omega) with ⟨nb, h1, e1, a, _⟩ | ⟨h1, e1, s, hf⟩
    · rcases rvMoveTo_spec w o hs a (by omega) (by omega) with ⟨h2, e2, ev, o2, hcop⟩ | ⟨h2, e2, ev, o2, ht⟩
      · exact ⟨true, _, h2, by rw [rvPreparePushBack, if_pos hc, bind_some ec, bind_some e1]; exact e2, ev, o2, fun _ => ⟨hnc, fun hh => absurd hh (by omega), fun _ => ⟨hcop, hc2, hmax⟩⟩, fun hh => by simp at hh⟩
      · exact ⟨false, _, h2, by rw [rvPreparePushBack, if_pos hc, bind_some ec, bind_some e1]; exact e2, ev, o2, fun hh => by simp at hh, fun _ => ⟨rfl, Or.inl ht⟩⟩
    · exact ⟨false, rv, h1, by rw [rvPreparePushBack, if_pos hc, bind_some ec, bind_some e1]; rfl, s.evolves w, ⟨s.holds o.1, o.2⟩, fun hh => by simp at hh, fun _ => ⟨rfl, Or.inr ⟨_, hf⟩⟩⟩
  · exact ⟨true, rv, h, by rw [rvPreparePushBack, if_neg hc, pure_run], Evolves.refl w, o, fun _ => ⟨by omega, fun _ => ⟨rfl, rfl⟩, fun hh => absurd hh hc⟩, fun hh => by simp at hh⟩

theorem rvFree_spec {h : Heap α} {rv : RV} (w : WfH h) (o : HasList h rv []) :
    ∃ h', rvFree rv h = some ((), h') ∧ Evolves h rv h' RV.null := by
  cases hp : rv.ptr with
  | none =>
    refine ⟨h, by simp only [rvFree, hp, pure_run], w, fun _ _ _ => rfl, fun b e _ => (by rw [hp] at e; cases e), fun b e _ => (by cases e), rfl, rfl⟩
  | some ob =>
    obtain ⟨eb, _, _⟩ := hasList_some hp o
    obtain ⟨h1, e1, f⟩ := deallocate_spec (n := rv.cap) (by simpa using eb)
    refine ⟨h1, by simp only [rvFree, hp, e1], ?_, ?_, ?_, fun b e _ => (by cases e), f.failC, f.failA⟩
    · intro b hb
      rw [f.next] at hb
      by_cases hbo : b = ob
      · subst hbo; exact f.here
      · rw [f.other b hbo]; exact w b hb
    · intro b n _
      exact f.other b (fun e => n (by rw [e]; exact hp))
    · intro b e _
      have : b = ob := by rw [hp] at e; exact (Option.some.inj e).symm
      rw [this]; exact f.here

theorem rvShrink_spec {h : Heap α} {rv : RV} {size : Nat} {l : List α} (w : WfH h) (o : HasList h rv l)
    (hs : size = l.length) :
    ∃ ok rv' h', rvShrink rv size h = some ((ok, rv'), h') ∧ Evolves h rv h' rv' ∧ HasList h' rv' l ∧
      (ok = true → rv'.cap = l.length) ∧ (ok = false → rv' = rv ∧ CanFail h) := by
  cases hp : rv.ptr with
  | none =>
    obtain ⟨rfl, hcap⟩ := hasList_none hp o
    exact ⟨true, rv, h, by simp only [rvShrink, hp, pure_run], Evolves.refl w, o, fun _ => by simpa using hcap, fun hh => by simp at hh⟩
  | some ob =>
    obtain ⟨eb, hl, hcap⟩ := hasList_some hp o
    by_cases h1c : size = rv.cap
    · exact ⟨true, rv, h, by simp only [rvShrink, hp, if_pos h1c, pure_run], Evolves.refl w, o, fun _ => by omega, fun hh => by simp at hh⟩
    · by_cases h2c : size > 0
      · rcases allocate_spec w (n := size) (by omega) with ⟨nb, h1, e1, a, _⟩ | ⟨h1, e1, s, hf⟩
        · rcases rvMoveTo_spec w o hs a (by omega) (by omega) with ⟨h2, e2, ev, o2, _⟩ | ⟨h2, e2, ev, o2, ht⟩
          · refine ⟨true, _, h2, ?_, ev, o2, fun _ => hs, fun hh => by simp at hh⟩
            simp only [rvShrink, hp, if_neg h1c, if_pos h2c]; rw [bind_some e1]; exact e2
          · refine ⟨false, _, h2, ?_, ev, o2, fun hh => by simp at hh, fun _ => ⟨rfl, Or.inl ht⟩⟩
            simp only [rvShrink, hp, if_neg h1c, if_pos h2c]; rw [bind_some e1]; exact e2
        · refine ⟨false, rv, h1, ?_, s.evolves w, ⟨s.holds o.1, o.2⟩, fun hh => by simp at hh, fun _ => ⟨rfl, Or.inr ⟨_, hf⟩⟩⟩
          simp only [rvShrink, hp, if_neg h1c, if_pos h2c]; rw [bind_some e1]; rfl
      · have hl0 : l = [] := List.length_eq_zero_iff.mp (by omega)
        subst hl0
        obtain ⟨h1, e1, f⟩ := free_spec (size := size) ((true, RV.null)) eb (by simp) hs
        refine ⟨true, RV.null, h1, ?_, ⟨?_, ?_, ?_, fun b e _ => (by cases e), f.failC, f.failA⟩, hasList_null h1, fun _ => rfl, fun hh => by simp at hh⟩
        · simp only [rvShrink, hp, if_neg h1c, if_neg h2c]; exact e1
        · intro b hb
          rw [f.next] at hb
          by_cases hbo : b = ob
          · subst hbo; exact f.here
          · rw [f.other b hbo]; exact w b hb
        · intro b n _
          exact f.other b (fun e => n (by rw [e]; exact hp))
        · intro b e _
          have : b = ob := by rw [hp] at e; exact (Option.some.inj e).symm
          rw [this]; exact f.here

end Verif.VectorNd
