import Verif.Lemmas.VectorNd2

/-!
Lemmas about `raw_vector`, continued: initialisation, `assign`, `resize`, `erase`, `prepare_insert`.
-/
set_option autoImplicit false
set_option linter.unusedSectionVars false

namespace Verif.VectorNd
variable {α : Type}

theorem Alloc.keeps {h h1 : Heap α} {nb n : Nat} (a : Alloc h h1 nb n) : Keeps h h1 := by
  intro b i x hs
  have hb : b ≠ nb := by intro e; subst e; simp [Heap.slot, a.before] at hs
  simp only [Heap.slot, a.other b hb] at hs ⊢; exact hs

/-- Merging dead slots. -/
theorem rep_add (a b : Nat) (C : List (Option α)) :
    (List.replicate a none ++ (List.replicate b none ++ C) : List (Option α)) = List.replicate (a + b) none ++ C := by
  rw [← List.append_assoc, List.replicate_append_replicate]

theorem rep_cons (b : Nat) (C : List (Option α)) :
    (none :: (List.replicate b none ++ C) : List (Option α)) = List.replicate (b + 1) none ++ C := by
  simp [List.replicate_succ]

theorem rep_add' (a b : Nat) :
    (List.replicate a none ++ List.replicate b none : List (Option α)) = List.replicate (a + b) none := by
  rw [List.replicate_append_replicate]

theorem rep_cons' (b : Nat) : (none :: List.replicate b none : List (Option α)) = List.replicate (b + 1) none := by
  simp [List.replicate_succ]

/-- The elements of the vector can be read. -/
theorem rvRefs_reads {h : Heap α} {rv : RV} {l : List α} {n : Nat} (o : HasList h rv l) (hs : n = l.length) : Reads h (rvRefs rv n) l := by
  cases hp : rv.ptr with
  | none =>
    have := (hasList_none hp o).1
    subst this
    simp only [rvRefs, hp]; trivial
  | some ob =>
    obtain ⟨eb, _, _⟩ := hasList_some hp o
    simp only [rvRefs, hp]
    rw [hs]
    exact Reads.refs l [] (List.replicate (rv.cap - l.length) none) 0 (by simpa using eb) rfl

/-- Copying into a block just allocated: either everything is copied, or the block is freed and the vector is as before. -/
theorem fillNew_spec {h h1 : Heap α} {rv : RV} {nb ncap : Nat} {ss : List (Src α)} {vs l : List α} (w : WfH h)
    (o : HasList h rv l) (a : Alloc h h1 nb ncap) (hr : Reads h1 ss vs) (hc : ss.length ≤ ncap) :
    (∃ h2, copyLoop nb 0 ss h1 = some ((ss.length, true), h2) ∧ Upd h1 h2 nb (slots ncap vs) ss.length ∧ Keeps h1 h2) ∨
    (∃ k h2, copyLoop nb 0 ss h1 = some ((k, false), h2) ∧ (∃ t, h.failC t = true) ∧
      ∀ {β : Type} (x : β), ∃ h3, (do destroy nb 0 k; deallocate nb ncap; pure x : M α β) h2 = some (x, h3) ∧
        Evolves h rv h3 rv ∧ HasList h3 rv l) := by
  have hlen := hr.length
  have enb : h1.blk nb = some ([] ++ (List.replicate ss.length none ++ List.replicate (ncap - ss.length) none)) := by
    rw [a.here, List.nil_append, rep_add']; congr 2; omega
  obtain ⟨k, h2, hk, e2, u2, k2, hfail⟩ := copyLoop_spec nb ss vs h1 [] _ 0 enb rfl hr
  rw [Nat.zero_add] at e2
  by_cases hks : k = ss.length
  · left
    subst hks
    refine ⟨h2, by rw [e2]; simp, u2.congr ?_ rfl, k2⟩
    rw [hlen]; simp [slots]
  · right
    obtain ⟨t, ht⟩ := hfail (by omega)
    refine ⟨k, h2, by rw [e2]; simp [hks], ⟨t, by rw [← a.failC]; exact ht⟩, ?_⟩
    intro β x
    have hlk : (vs.take k).length = k := by rw [List.length_take]; omega
    have hX : (([] : List (Option α)) ++ ((vs.take k).map some ++ (List.replicate (ss.length - k) none ++ List.replicate (ncap - ss.length) none)))
        = (vs.take k).map some ++ List.replicate (ncap - (vs.take k).length) none := by
      rw [List.nil_append, rep_add', hlk]; congr 2; omega
    have u2' := u2.congr hX rfl
    obtain ⟨h3, e3, f3⟩ := free_spec (size := k) x u2'.here (by rw [hlk]; omega) hlk.symm
    obtain ⟨ev, ho⟩ := realloc_fail w a u2 f3 o.1
    exact ⟨h3, e3, ev, ho, o.2⟩

/-- After the new block was written: free the old one, if there is one. -/
theorem switch_spec {β : Type} {h h1 h2 : Heap α} {rv : RV} {nb ncap k size : Nat} {X : List (Option α)} {l : List α} (x : β)
    (o : HasList h rv l) (hs : size = l.length) (a : Alloc h h1 nb ncap) (u : Upd h1 h2 nb X k) (hX : X.length = ncap)
    (hn : 0 < ncap) :
    ∃ h3, (match rv.ptr with
        | none => pure x
        | some ob => do destroy ob 0 size; deallocate ob rv.cap; pure x : M α β) h2 = some (x, h3) ∧
      Evolves h rv h3 ⟨some nb, ncap⟩ ∧ Holds h3 ⟨some nb, ncap⟩ X ∧ h3.copies = h.copies + k := by
  cases hp : rv.ptr with
  | none => exact ⟨h2, rfl, realloc_null hp a u hX hn⟩
  | some ob =>
    obtain ⟨eb, hl, _⟩ := hasList_some hp o
    have hne := alloc_ne a eb
    obtain ⟨h3, e3, f3⟩ := free_spec (size := size) x (by rw [u.other ob hne, a.other ob hne]; exact eb) hl hs
    exact ⟨h3, e3, realloc_ok hp a u f3 hX hn hne⟩

theorem rvInit_spec {h : Heap α} {ss : List (Src α)} {vs : List α} (w : WfH h) (hr : Reads h ss vs) (hne : ss ≠ []) :
    ∃ ok rv' h', rvInit RV.null ss h = some ((ok, rv'), h') ∧ Evolves h RV.null h' rv' ∧
      (ok = true → HasList h' rv' vs ∧ rv'.cap = vs.length) ∧ (ok = false → rv' = RV.null ∧ CanFail h) := by
  have h0 : ss.length ≠ 0 := fun e => hne (List.length_eq_zero_iff.mp e)
  have hcond : ¬ (RV.null.ptr.isSome ∨ ss.length = 0) := by simp [RV.null]; exact hne
  rcases allocate_spec w h0 with ⟨nb, h1, e1, a, _⟩ | ⟨h1, e1, s, hf⟩
  · rcases fillNew_spec w (hasList_null h) a (hr.keep a.keeps) (Nat.le_refl _) with ⟨h2, e2, u2, _⟩ | ⟨k, h2, e2, ht, hx⟩
    · have hlen := hr.length
      obtain ⟨ev, ho, _⟩ := realloc_null (rv := RV.null) rfl a u2 (slots_length (by omega)) (by omega)
      refine ⟨true, ⟨some nb, ss.length⟩, h2, ?_, ev, fun _ => ⟨⟨ho, by show vs.length ≤ ss.length; omega⟩, hlen⟩, fun hh => by simp at hh⟩
      rw [rvInit, if_neg hcond, bind_some e1]
      simp only
      rw [bind_some e2]; rfl
    · obtain ⟨h3, e3, ev, _⟩ := hx ((false, RV.null))
      refine ⟨false, RV.null, h3, ?_, ev, fun hh => by simp at hh, fun _ => ⟨rfl, Or.inl ht⟩⟩
      rw [rvInit, if_neg hcond, bind_some e1]
      simp only
      rw [bind_some e2]; exact e3
  · refine ⟨false, RV.null, h1, ?_, s.evolves w, fun hh => by simp at hh, fun _ => ⟨rfl, Or.inr ⟨_, hf⟩⟩⟩
    rw [rvInit, if_neg hcond, bind_some e1]; rfl

theorem rvAssign_spec {h : Heap α} {rv : RV} {old new : Nat} {a : α} {l : List α} (w : WfH h) (o : HasList h rv l)
    (hs : old = l.length) (hpre : new ≠ 0 ∨ rv.cap ≠ 0) :
    ∃ ok valid rv' h', rvAssign rv old new true (.val a) h = some ((ok, valid, rv'), h') ∧ Evolves h rv h' rv' ∧
      (ok = true → HasList h' rv' (List.replicate new a)) ∧
      (ok = false → rv' = rv ∧ HasList h' rv (if valid then l else []) ∧ CanFail h) := by
  by_cases hc : new ≤ rv.cap ∧ rv.cap ≠ 0
  · cases hp : rv.ptr with
    | none => exact absurd (hasList_none hp o).2 hc.2
    | some b =>
      obtain ⟨eb, hl, hcap⟩ := hasList_some hp o
      have hb := lt_next w eb
      obtain ⟨h1, e1, u1⟩ := destroy_spec (h := h) (b := b) (lo := 0) (hi := old) (A := []) (L := l) (by simpa using eb) rfl (by omega)
      have enb : h1.blk b = some ([] ++ (List.replicate (List.replicate new (Src.val a)).length none ++ List.replicate (rv.cap - new) none)) := by
        rw [u1.here, List.nil_append, List.nil_append, rep_add', rep_add', List.length_replicate]; congr 2; omega
      obtain ⟨k, h2, hk, e2, u2, _, hfail⟩ := copyLoop_spec b (List.replicate new (.val a)) (List.replicate new a) h1 [] _ 0 enb rfl
        (Reads.replicate rfl new)
      rw [List.length_replicate] at hk hfail u2 e2
      rw [Nat.zero_add] at e2
      have u := u1.trans u2
      by_cases hks : k = new
      · subst hks
        refine ⟨true, true, rv, h2, ?_, u.evolves w hp hb, fun _ => hasList_mk hp (u.here.trans ?_) (by simpa using hc.1) hcap, fun hh => by simp at hh⟩
        · rw [rvAssign, if_pos hc]; simp only [hp]
          rw [bind_some e1, bind_some e2]; simp [pure_run]
        · simp
      · have hX : (([] : List (Option α)) ++ (((List.replicate new a).take k).map some ++ (List.replicate (new - k) none ++ List.replicate (rv.cap - new) none)))
            = [] ++ ((List.replicate k a).map some ++ List.replicate (rv.cap - k) none) := by
          rw [rep_add']
          simp only [List.take_replicate, List.nil_append]
          congr 2 <;> congr 1 <;> omega
        have uX := u.congr hX rfl
        obtain ⟨h3, e3, u3⟩ := destroy_spec (h := h2) (b := b) (lo := 0) (hi := k) uX.here rfl (by simp)
        have ue := u.trans u3
        obtain ⟨t, ht⟩ := hfail (by omega)
        refine ⟨false, false, rv, h3, ?_, ue.evolves w hp hb, fun hh => by simp at hh, fun _ => ⟨rfl, hasList_mk hp (ue.here.trans ?_) (by simp) hcap, Or.inl ⟨t, by rw [← u1.failC]; exact ht⟩⟩⟩
        · rw [rvAssign, if_pos hc]; simp only [hp]
          rw [bind_some e1, bind_some e2]; simp only [hks, decide_false, Bool.false_eq_true, if_false]
          rw [bind_some e3]; rfl
        · simp only [List.nil_append, rep_add', List.length_replicate, List.map_nil, List.length_nil, Nat.sub_zero, Bool.false_eq_true, if_false]
          congr 2; omega
  · have hlt : rv.cap < new := by omega
    obtain ⟨c, ec, hnc, _, _⟩ := increase_spec h hlt
    rcases allocate_spec w (n := c) (by omega) with ⟨nb, h1, e1, al, _⟩ | ⟨h1, e1, s, hf⟩
    · rcases fillNew_spec w o al (Reads.replicate (s := .val a) (a := a) rfl new) (by simpa using hnc) with ⟨h2, e2, u2, _⟩ | ⟨k, h2, e2, ht, hx⟩
      · obtain ⟨h3, e3, ev, ho, _⟩ := switch_spec (size := old) ((true, true, (⟨some nb, c⟩ : RV))) o hs al u2 (slots_length (by simpa using hnc)) (by omega)
        refine ⟨true, true, _, h3, ?_, ev, fun _ => ⟨ho, by simpa using hnc⟩, fun hh => by simp at hh⟩
        rw [rvAssign, if_neg hc, bind_some ec, bind_some e1]
        simp only
        rw [bind_some e2]; exact e3
      · obtain ⟨h3, e3, ev, ho⟩ := hx ((false, true, rv))
        refine ⟨false, true, rv, h3, ?_, ev, fun hh => by simp at hh, fun _ => ⟨rfl, ho, Or.inl ht⟩⟩
        rw [rvAssign, if_neg hc, bind_some ec, bind_some e1]
        simp only
        rw [bind_some e2]; exact e3
    · refine ⟨false, true, rv, h1, ?_, s.evolves w, fun hh => by simp at hh, fun _ => ⟨rfl, ⟨s.holds o.1, o.2⟩, Or.inr ⟨_, hf⟩⟩⟩
      rw [rvAssign, if_neg hc, bind_some ec, bind_some e1]; rfl

theorem rvResize_spec {h : Heap α} {rv : RV} {old new : Nat} {s : Src α} {a : α} {l : List α} (w : WfH h) (o : HasList h rv l)
    (hs : old = l.length) (hrd : h.read s = some a) :
    ∃ ok rv' h', rvResize rv old new s h = some ((ok, rv'), h') ∧ Evolves h rv h' rv' ∧
      (ok = true → HasList h' rv' (l.take new ++ List.replicate (new - old) a)) ∧
      (ok = false → rv' = rv ∧ HasList h' rv l ∧ CanFail h) := by
  have hl := o.2
  by_cases h1c : new < old
  · cases hp : rv.ptr with
    | none => have := (hasList_none hp o).1; subst this; simp at hs; omega
    | some b =>
      obtain ⟨eb, hl, hcap⟩ := hasList_some hp o
      have hX : l.map some ++ List.replicate (rv.cap - l.length) none = (l.take new).map some ++ ((l.drop new).map some ++ List.replicate (rv.cap - l.length) none) := by
        rw [← List.append_assoc, ← List.map_append, List.take_append_drop]
      obtain ⟨h1, e1, u1⟩ := destroy_spec (h := h) (b := b) (lo := new) (hi := old) (eb.trans (congrArg some hX)) (by simp; omega) (by simp; omega)
      refine ⟨true, rv, h1, ?_, u1.evolves w hp (lt_next w eb), fun _ => hasList_mk hp (u1.here.trans ?_) (by simp; omega) hcap, fun hh => by simp at hh⟩
      · rw [rvResize, if_pos h1c]; simp only [hp]; rw [bind_some e1]; rfl
      · rw [rep_add', show new - old = 0 by omega]
        simp only [List.replicate_zero, List.append_nil, List.length_drop, List.length_take]
        congr 3; omega
  · by_cases h2c : new > old
    · by_cases h3c : new > rv.cap
      · obtain ⟨c, ec, hnc, _, _⟩ := increase_spec h h3c
        have hfin : l ++ List.replicate (new - old) a = l.take new ++ List.replicate (new - old) a := by
          rw [List.take_of_length_le (by omega)]
        rcases allocate_spec w (n := c) (by omega) with ⟨nb, h1, e1, al, _⟩ | ⟨h1, e1, sm, hf⟩
        · have hr1 : Reads h1 (rvRefs rv old ++ List.replicate (new - old) s) (l ++ List.replicate (new - old) a) := by
            refine Reads.append ?_ (Reads.replicate (al.keeps.read hrd) _)
            exact (rvRefs_reads o hs).keep al.keeps
          have hlen := hr1.length
          have hlen2 : (l ++ List.replicate (new - old) a).length = new := by simp; omega
          rcases fillNew_spec w o al hr1 (by omega) with ⟨h2, e2, u2, _⟩ | ⟨k, h2, e2, ht, hx⟩
          · obtain ⟨h3, e3, ev, ho, _⟩ := switch_spec (size := old) ((true, (⟨some nb, c⟩ : RV))) o hs al u2 (slots_length (by omega)) (by omega)
            refine ⟨true, _, h3, ?_, ev, fun _ => by rw [← hfin]; exact ⟨ho, by show _ ≤ c; omega⟩, fun hh => by simp at hh⟩
            rw [rvResize, if_neg h1c, if_pos h2c, if_pos h3c, bind_some ec, bind_some e1]
            simp only
            rw [bind_some e2]; exact e3
          · obtain ⟨h3, e3, ev, ho⟩ := hx ((false, rv))
            refine ⟨false, rv, h3, ?_, ev, fun hh => by simp at hh, fun _ => ⟨rfl, ho, Or.inl ht⟩⟩
            rw [rvResize, if_neg h1c, if_pos h2c, if_pos h3c, bind_some ec, bind_some e1]
            simp only
            rw [bind_some e2]; exact e3
        · refine ⟨false, rv, h1, ?_, sm.evolves w, fun hh => by simp at hh, fun _ => ⟨rfl, ⟨sm.holds o.1, o.2⟩, Or.inr ⟨_, hf⟩⟩⟩
          rw [rvResize, if_neg h1c, if_pos h2c, if_pos h3c, bind_some ec, bind_some e1]; rfl
      · cases hp : rv.ptr with
        | none => have := (hasList_none hp o).2; omega
        | some b =>
          obtain ⟨eb, _, hcap⟩ := hasList_some hp o
          have hb := lt_next w eb
          have enb : h.blk b = some (l.map some ++ (List.replicate (List.replicate (new - old) s).length none ++ List.replicate (rv.cap - new) none)) := by
            rw [eb, rep_add', List.length_replicate]; congr 3; omega
          obtain ⟨k, h2, hk, e2, u2, _, hfail⟩ := copyLoop_spec b (List.replicate (new - old) s) (List.replicate (new - old) a) h (l.map some) _ old enb (by simpa using hs)
            (Reads.replicate hrd _)
          rw [List.length_replicate] at hk hfail u2 e2
          by_cases hks : k = new - old
          · subst hks
            refine ⟨true, rv, h2, ?_, u2.evolves w hp hb, fun _ => hasList_mk hp (u2.here.trans ?_) (by simp; omega) hcap, fun hh => by simp at hh⟩
            · rw [rvResize, if_neg h1c, if_pos h2c, if_neg h3c]; simp only [hp]; rw [bind_some e2]; simp [pure_run]
            · rw [List.take_of_length_le (l := l) (by omega)]
              simp
              congr 2; omega
          · have hX : l.map some ++ (((List.replicate (new - old) a).take k).map some ++ (List.replicate (new - old - k) none ++ List.replicate (rv.cap - new) none))
                = l.map some ++ ((List.replicate k a).map some ++ List.replicate (rv.cap - old - k) none) := by
              rw [rep_add', List.take_replicate]; congr 3 <;> congr 1 <;> omega
            have uX := u2.congr hX rfl
            obtain ⟨h3, e3, u3⟩ := destroy_spec (h := h2) (b := b) (lo := old) (hi := old + k) uX.here (by simpa using hs) (by simp)
            have ue := u2.trans u3
            obtain ⟨t, ht⟩ := hfail (by omega)
            refine ⟨false, rv, h3, ?_, ue.evolves w hp hb, fun hh => by simp at hh, fun _ => ⟨rfl, hasList_mk hp (ue.here.trans ?_) hl hcap, Or.inl ⟨t, ht⟩⟩⟩
            · rw [rvResize, if_neg h1c, if_pos h2c, if_neg h3c]; simp only [hp]; rw [bind_some e2]
              simp only [hks, decide_false, Bool.false_eq_true, if_false]
              rw [bind_some e3]; rfl
            · rw [rep_add', List.length_replicate]; congr 3; omega
    · refine ⟨true, rv, h, by rw [rvResize, if_neg h1c, if_neg h2c, pure_run], Evolves.refl w, fun _ => ?_, fun hh => by simp at hh⟩
      have : new = l.length := by omega
      rw [List.take_of_length_le (by omega), show new - old = 0 by omega]
      simpa using o

/-! ### `erase` -/

theorem rvErase_spec {h : Heap α} {rv : RV} {old off count es valid : Nat} {l : List α} (w : WfH h) (o : HasList h rv l)
    (hs : old = l.length) (hes : 0 < es) (hcnt : 0 < count) (hoff : off + count * es ≤ old) :
    ∃ ok v h', rvErase rv old off count es valid h = some ((ok, v), h') ∧ Evolves h rv h' rv ∧
      (ok = true → v = valid ∧ HasList h' rv (l.take off ++ l.drop (off + count * es))) ∧
      (ok = false → off / es ≤ v ∧ v * es ≤ old - count * es ∧
        HasList h' rv ((l.take off ++ l.drop (off + count * es)).take (v * es)) ∧ CanFail h) := by
  have her : 0 < count * es := Nat.mul_pos hcnt hes
  generalize hE : count * es = er at *
  cases hp : rv.ptr with
  | none => have := (hasList_none hp o).1; subst this; simp at hs; omega
  | some b =>
    obtain ⟨eb, hl, hcap⟩ := hasList_some hp o
    have hb := lt_next w eb
    generalize hP : l.take off = P
    generalize hX : (l.drop off).take er = X
    generalize hY : l.drop (off + er) = Y
    have hlP : P.length = off := by rw [← hP, List.length_take]; omega
    have hlX : X.length = er := by rw [← hX, List.length_take, List.length_drop]; omega
    have hlY : Y.length = old - (off + er) := by rw [← hY, List.length_drop, hs]
    have hleq : l = P ++ (X ++ Y) := by
      rw [← hP, ← hX, ← hY, ← List.drop_drop, List.take_append_drop, List.take_append_drop]
    generalize hR : rv.cap - l.length = R at eb
    have eb1 : h.blk b = some (P.map some ++ ((X ++ Y).map some ++ List.replicate R none)) := by
      rw [eb, hleq]; simp
    obtain ⟨k, h1, hk, e1, u1, w1⟩ := transferLeft_spec b Y X h (P.map some) _ (off + er) off eb1
      (by intro hc; subst hc; simp at hlX; omega) (by simp [hlP]) (by rw [hlX])
    rw [hlY] at e1
    have hcond : ¬ (count = 0 ∨ er = 0 ∨ off + er > old) := by omega
    by_cases hky : k = Y.length
    · have u := u1 hky
      have hX2 : P.map some ++ ((Y ++ (X ++ Y).drop k).map some ++ List.replicate R none)
          = (P ++ Y).map some ++ (((X ++ Y).drop k).map some ++ List.replicate R none) := by simp
      have hld : ((X ++ Y).drop k).length = er := by simp; omega
      obtain ⟨h2, e2, u2⟩ := destroy_spec (h := h1) (b := b) (lo := old - er) (hi := old) (u.here.trans (congrArg some hX2))
        (by simp; omega) (by omega)
      have ue := u.trans u2
      refine ⟨true, valid, h2, ?_, ue.evolves w hp hb, fun _ => ⟨rfl, hasList_mk hp (ue.here.trans ?_) (by simp; omega) hcap⟩, fun hh => by simp at hh⟩
      · rw [rvErase, hE, if_neg hcond]; simp only [hp]
        rw [bind_some e1]; simp only [← hlY, hky, decide_true, if_true]
        rw [bind_some e2]; rfl
      · rw [rep_add', hld]; congr 3; simp; omega
    · obtain ⟨u, t, ht⟩ := w1 (by omega)
      generalize hd : off + k = d at *
      generalize hv : d / es * es = v at *
      have hvd : v ≤ d := by rw [← hv]; exact Nat.div_mul_le_self d es
      have hQ : (P ++ Y.take k).length = d := by simp; omega
      generalize hQd : P ++ Y.take k = Q at *
      have hX2 : P.map some ++ ((Y.take k).map some ++ none :: (((X ++ Y).drop (k + 1)).map some ++ List.replicate R none))
          = (Q.take v).map some ++ ((Q.drop v).map some ++ none :: (((X ++ Y).drop (k + 1)).map some ++ List.replicate R none)) := by
        rw [← List.append_assoc, ← List.map_append, hQd, ← List.append_assoc, ← List.map_append, List.take_append_drop]
      obtain ⟨h2, e2, u2⟩ := destroy_spec (h := h1) (b := b) (lo := v) (hi := d) (u.here.trans (congrArg some hX2))
        (by simp; omega) (by simp; omega)
      have hX3 : (Q.take v).map some ++ (List.replicate (Q.drop v).length none ++ none :: (((X ++ Y).drop (k + 1)).map some ++ List.replicate R none))
          = ((Q.take v).map some ++ List.replicate (d - v + 1) none) ++ (((X ++ Y).drop (k + 1)).map some ++ List.replicate R none) := by
        rw [List.length_drop, hQ, List.append_assoc, List.replicate_succ']; simp
      obtain ⟨h3, e3, u3⟩ := destroy_spec (h := h2) (b := b) (lo := d + 1) (hi := old) (u2.here.trans (congrArg some hX3))
        (by simp; omega) (by simp; omega)
      have ue := (u.trans u2).trans u3
      have hpre : (P ++ Y).take v = Q.take v := by
        have h1 : (P ++ Y).take d = Q := by
          rw [List.take_append, List.take_of_length_le (by omega), hlP, ← hQd]; congr 2; omega
        rw [← h1, List.take_take]; congr 1; omega
      have hv' : d / es * es ≤ old - er := by rw [hv]; omega
      refine ⟨false, d / es, h3, ?_, ue.evolves w hp hb, fun hh => by simp at hh, fun _ => ⟨?_, hv', ?_, Or.inl ⟨t, ht⟩⟩⟩
      · rw [rvErase, hE, if_neg hcond]; simp only [hp]
        rw [bind_some e1]; simp only [← hlY, hky, decide_false, Bool.false_eq_true, if_false, hv]
        rw [bind_some e2, bind_some e3]; rfl
      · exact Nat.div_le_div_right (by omega)
      · rw [hv, hpre]
        refine hasList_mk hp (ue.here.trans ?_) (by simp; omega) hcap
        rw [List.append_assoc, rep_add', rep_add']
        congr 3
        simp; omega

end Verif.VectorNd
