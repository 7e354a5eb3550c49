import Verif.Lemmas.VectorNd8

/-!
# C19-C23: `vector_nd`

The specification (calls as operations on lists of elements or rows, preconditions, programs) is in `Props/C19_VectorSpec.lean`.
A computation of the model yields `none` if it has undefined behaviour (use of an unconstructed or destroyed object, construction
over a live object, access outside a block, freed block), leaks an object, or violates a contract of the library.
-/
set_option autoImplicit false

namespace Verif.VectorNd
variable {α : Type}

def never : Nat → Bool := fun _ => false

theorem quiet_empty : Quiet (Heap.empty never never : Heap α) := ⟨fun _ => rfl, fun _ => rfl⟩

/-! ## C19: refinement of a list -/

/-- **C19, one dimension.** Any program on an initially empty vector ends without undefined behaviour, with the same outcomes of
the calls and the same contents as the program on a list; the size is right and the capacity is not below it. -/
theorem C19_list_partial (ops : List (Op1 α)) :
    ∃ v h, run1 Vec1.nil ops (Heap.empty never never) = some (((specRun1 [] ops).1, v), h) ∧
      view1 h v = (specRun1 [] ops).2.map some ∧ v.size = (specRun1 [] ops).2.length ∧ v.size ≤ v.rv.cap := by
  obtain ⟨v, h, e, _, r⟩ := run1_quiet ops (rep1_nil (wf_empty never never)) quiet_empty
  exact ⟨v, h, e, view1_eq r, r.2.2, by have := r.2.1.2; have := r.2.2; omega⟩

/-- **C19, more dimensions** (`d + 1` of them). The stored sizes are those of the abstract vector. -/
theorem C19_rows_partial {d : Nat} (hd : 0 < d) (ops : List (OpN α)) :
    ∃ v h, runN (VecN.nil d) ops (Heap.empty never never) = some (((specRunN ⟨List.replicate d 0, []⟩ ops).1, v), h) ∧
      viewN h v = (specRunN ⟨List.replicate d 0, []⟩ ops).2.rows.map (·.map some) ∧
      v.top = (specRunN ⟨List.replicate d 0, []⟩ ops).2.rows.length ∧ v.sub = (specRunN ⟨List.replicate d 0, []⟩ ops).2.sub ∧
      v.total = v.top * prodL v.sub ∧ v.total ≤ v.rv.cap := by
  obtain ⟨v, h, e, _, r⟩ := runN_quiet ops (repN_nil (wf_empty never never) hd) quiet_empty
  refine ⟨v, h, e, viewN_eq r, r.top, r.sub, ?_, ?_⟩
  · rw [r.total_eq, r.top, r.sub]
  · have := r.list.2; rw [← r.total] at this; exact this

/-- All rows of the abstract vector have the shape it says, so the theorem above speaks of equally shaped rows. -/
theorem C19_rows_shape {d : Nat} (hd : 0 < d) (ops : List (OpN α)) :
    ∀ r ∈ (specRunN (⟨List.replicate d 0, []⟩ : Tab α) ops).2.rows, r.length = prodL (specRunN ⟨List.replicate d 0, []⟩ ops).2.sub := by
  obtain ⟨v, h, e, _, r⟩ := runN_quiet ops (repN_nil (wf_empty never never) hd) quiet_empty
  exact r.rows

/-- From any state: each call with its precondition does what the specification says, or throws because a copy or an allocation
threw. -/
theorem C19_call {h : Heap α} {v : Vec1} {l : List α} (r : Rep1 h v l) (op : Op1 α) (hv : valid1 v.size op = true) :
    ∃ out v' h', exec1 v op h = some ((out, v'), h') ∧
      (out = (spec1 l op).1 ∧ Rep1 h' v' (spec1 l op).2 ∨ out = .threw ∧ CanFail h) := by
  obtain ⟨out, v', h', e, post⟩ := exec1_spec r hv
  refine ⟨out, v', h', e, ?_⟩
  by_cases ht : out = .threw
  · exact Or.inr ⟨ht, (post.fail ht).1⟩
  · exact Or.inl (post.good ht)

example : specRun1 [] [.pushBack 1, .pushBack 2, .insert 1 [7, 8], .erase 0, .resize 5 9, .popBack, .eraseRange 1 3, .popBack,
    .popBack, .popBack, .erase 0, .insert 5 [1]] =
    ([.ok, .ok, .ok, .ok, .ok, .ok, .ok, .ok, .ok, .outOfRange, .argumentError], []) := by decide +kernel
example : specRunN ⟨[0], []⟩ [.pushBack [2] [1, 2], .pushBack [3] [1, 2, 3], .insertCount 0 2 [2] [5, 6], .erase 1, .resizeAll 3 [1] 0] =
    ([.ok, .argumentError, .ok, .ok, .ok], ⟨[1], [[5], [6], [1]]⟩) := by decide +kernel

/-- **C19 fails for rows without elements**: after `resize(3)` of an empty vector there are three (empty) rows; adding a row of
another shape is accepted instead of rejected and leaves one row instead of four. -/
theorem C19_empty_rows_violated :
    ∃ (v : VecN) (h : Heap Nat),
      (do let a ← (VecN.nil 1).resizeTop 3 (.val 0); let b ← a.2.pushBack [2] [.val 1, .val 2]; pure (a.2.top, b))
        (Heap.empty never never) = some ((3, .ok, v), h) ∧ v.top = 1 := by
  refine ⟨_, _, rfl, ?_⟩; decide +kernel

/-- The same with rows that are pushed: of two empty rows only one is counted. -/
theorem C19_push_empty_rows_violated :
    ∃ (v : VecN) (h : Heap Nat),
      (do let a ← (VecN.nil 1).reserve 1; let b ← a.2.pushBack [0] []; b.2.pushBack [0] [])
        (Heap.empty never never) = some ((.ok, v), h) ∧ v.top = 1 := by
  refine ⟨_, _, rfl, ?_⟩; decide +kernel

/-- Assigning nothing to a vector without storage violates a contract (`default_capacity_policy::increase` requires growth), and so
does copying an empty vector (it asks for a block of no elements). -/
theorem C19_assign_nothing_violated : ((Vec1.nil.assign 0 (.val 0)) (Heap.empty never never : Heap Nat)).isNone = true ∧
    (Vec1.nil.copyCtor (Heap.empty never never : Heap Nat)).isNone = true := by decide +kernel

/-- A copy of a vector that is not empty has its contents; the original and all other vectors stay as they are. -/
theorem C19_copy {h : Heap α} {v : Vec1} {l : List α} (r : Rep1 h v l) (hne : l ≠ []) :
    ∃ o h', v.copyCtor h = some (o, h') ∧
      (∀ w, o = some w → Rep1 h' w l ∧ Rep1 h' v l ∧ w.rv.ptr ≠ v.rv.ptr) ∧
      (o = none → CanFail h ∧ Rep1 h' v l ∧ h'.blk = h.blk) := by
  obtain ⟨w, o, hs⟩ := r
  have hr := rvRefs_reads o hs
  have hlen : (rvRefs v.rv v.size : List (Src α)).length = l.length := hr.length
  have hne' : (rvRefs v.rv v.size : List (Src α)) ≠ [] := by
    intro hh; rw [hh] at hlen; exact hne (List.length_eq_zero_iff.mp hlen.symm)
  obtain ⟨ok, rv', h', e, ev, hok, hno⟩ := rvInit_spec w hr hne'
  cases hp : v.rv.ptr with
  | none => exact absurd (hasList_none hp o).1 hne
  | some b =>
    obtain ⟨eb, hl, hc⟩ := hasList_some hp o
    have hb : rv'.ptr ≠ some b := fun hh => by
      have := ev.fresh b hh (by simp [RV.null]); rw [this] at eb; cases eb
    have ho' : HasList h' v.rv l := by
      refine hasList_mk hp ?_ hl hc
      rw [ev.frame b (by simp [RV.null]) hb]; exact eb
    cases ok with
    | true =>
      refine ⟨some ⟨rv', l.length⟩, h', by rw [Vec1.copyCtor, Vec1.ctor, bind_some e, hlen]; rfl, ?_, fun hh => by cases hh⟩
      intro w' hw'
      obtain rfl : _ = w' := Option.some.inj hw'
      exact ⟨⟨ev.wf, (hok rfl).1, rfl⟩, ⟨ev.wf, ho', hs⟩, hb⟩
    | false =>
      obtain ⟨rfl, hcf⟩ := hno rfl
      refine ⟨none, h', by rw [Vec1.copyCtor, Vec1.ctor, bind_some e]; rfl, (by intro w' hw'; cases hw'), fun _ => ⟨hcf, ⟨ev.wf, ho', hs⟩, ?_⟩⟩
      funext b'
      exact ev.frame b' (by simp [RV.null]) (by simp [RV.null])

example : ((do let a ← exec1 Vec1.nil (.insert 0 [4, 5]); let b ← a.2.copyCtor; pure b.isSome) (Heap.empty never never : Heap Nat)).map Prod.fst
    = some true := by decide +kernel

/-- The calls about capacity: after `reserve(n)` it is at least `n`, after `shrink_to_fit` it equals the size. -/
theorem C19_capacity_calls {h : Heap α} {v : Vec1} {l : List α} (r : Rep1 h v l) (n : Nat) :
    (∃ out v' h', v.reserve n h = some ((out, v'), h') ∧ (out = .ok → n ≤ v'.rv.cap ∧ Rep1 h' v' l)) ∧
    (∃ out v' h', v.shrink h = some ((out, v'), h') ∧ (out = .ok → v'.rv.cap = v'.size ∧ Rep1 h' v' l)) := by
  obtain ⟨w, o, hs⟩ := r
  constructor
  · obtain ⟨ok, rv', h1, e1, ev1, o1, hok, _⟩ := rvReserve_spec (ncap := n) w o hs
    refine ⟨if ok then .ok else .threw, ⟨rv', v.size⟩, h1, by rw [Vec1.reserve, bind_some e1]; rfl, fun hh => ?_⟩
    cases ok with
    | true => exact ⟨by have := hok rfl; show n ≤ rv'.cap; omega, ev1.wf, o1, hs⟩
    | false => simp at hh
  · obtain ⟨ok, rv', h1, e1, ev1, o1, hok, _⟩ := rvShrink_spec w o hs
    refine ⟨if ok then .ok else .threw, ⟨rv', v.size⟩, h1, by rw [Vec1.shrink, bind_some e1]; rfl, fun hh => ?_⟩
    cases ok with
    | true => exact ⟨(hok rfl).trans hs.symm, ev1.wf, o1, hs⟩
    | false => simp at hh

/-! ## C20: every object is constructed and destroyed once -/

/-- **C20, one dimension.** After any program without exceptions the destructor ends well (all steps of the model check that the
objects they use are alive and the slots they fill are dead; a block is freed only when all its slots are dead), and no block is
left. -/
theorem C20_lifetimes (ops : List (Op1 α)) :
    ∃ outs h, (do let r ← run1 Vec1.nil ops; r.2.dtor; pure r.1) (Heap.empty never never : Heap α) = some (outs, h) ∧ ∀ b, h.blk b = none := by
  obtain ⟨v, h, e, ev, r⟩ := run1_quiet ops (rep1_nil (wf_empty never never)) quiet_empty
  obtain ⟨h1, e1, ev1⟩ := dtor1 r
  exact ⟨_, h1, by rw [bind_some e, bind_some e1]; rfl, all_free (rv := RV.null) (fun _ => rfl) (ev.trans ev1)⟩

/-- **C20, more dimensions.** -/
theorem C20_lifetimes_nd {d : Nat} (hd : 0 < d) (ops : List (OpN α)) :
    ∃ outs h, (do let r ← runN (VecN.nil d) ops; r.2.dtor; pure r.1) (Heap.empty never never : Heap α) = some (outs, h) ∧ ∀ b, h.blk b = none := by
  obtain ⟨v, h, e, ev, r⟩ := runN_quiet ops (repN_nil (wf_empty never never) hd) quiet_empty
  obtain ⟨h1, e1, ev1⟩ := dtorN r
  exact ⟨_, h1, by rw [bind_some e, bind_some e1]; rfl, all_free (rv := RV.null) (fun _ => rfl) (ev.trans ev1)⟩

/-- What the checks of the model mean: an object is constructed only in a dead slot from a live object, destroyed only when alive,
and a block is freed only with the size it was allocated with and when all its slots are dead. -/
theorem C20_checks (h : Heap α) (b i n : Nat) (s : Src α) :
    ((construct b i s h).isSome = true → h.slot b i = some none ∧ (h.read s).isSome = true) ∧
    ((destroyAt b i h).isSome = true → ∃ a, h.slot b i = some (some a)) ∧
    ((deallocate b n h).isSome = true → h.blk b = some (List.replicate n none)) := by
  refine ⟨fun hh => ?_, fun hh => ?_, fun hh => ?_⟩
  · simp only [construct] at hh
    split at hh
    · cases hh
    · rename_i a ha
      split at hh
      · rename_i hs; exact ⟨hs, by rw [ha]; rfl⟩
      · cases hh
  · simp only [destroyAt] at hh
    split at hh
    · rename_i a ha; exact ⟨_, ha⟩
    · cases hh
  · simp only [deallocate] at hh
    split at hh
    · cases hh
    · rename_i c hc
      split at hh
      · rename_i hx
        rw [hc]; congr 1
        refine List.eq_replicate_iff.mpr ⟨hx.1, fun y hy => ?_⟩
        have := List.all_eq_true.mp hx.2 y hy
        simpa using this
      · cases hh

/-- Vectors do not disturb each other: a call on one leaves the contents of every other one as they were. -/
theorem C20_frame {h : Heap α} {v w : Vec1} {l m : List α} (r : Rep1 h v l) (rw' : Rep1 h w m) (hd : v.rv.ptr = none ∨ v.rv.ptr ≠ w.rv.ptr)
    (op : Op1 α) (hv : valid1 v.size op = true) :
    ∃ out v' h', exec1 v op h = some ((out, v'), h') ∧ Rep1 h' w m ∧ (v'.rv.ptr = none ∨ v'.rv.ptr ≠ w.rv.ptr) := by
  obtain ⟨out, v', h', e, post⟩ := exec1_spec r hv
  refine ⟨out, v', h', e, ?_⟩
  cases hp : w.rv.ptr with
  | none =>
    obtain ⟨rfl, hcap⟩ := hasList_none hp rw'.2.1
    have hnull : w.rv = RV.null := by
      have : w.rv = ⟨w.rv.ptr, w.rv.cap⟩ := rfl
      rw [this, hp, hcap]; rfl
    refine ⟨⟨post.ev.wf, by rw [hnull]; exact hasList_null h', rw'.2.2⟩, ?_⟩
    cases v'.rv.ptr <;> simp
  | some b =>
    obtain ⟨eb, hl, hc⟩ := hasList_some hp rw'.2.1
    have hvb : v.rv.ptr ≠ some b := by
      rcases hd with hd | hd
      · rw [hd]; simp
      · rw [← hp]; exact hd
    have hb : v'.rv.ptr ≠ some b := fun hh => by
      have := post.ev.fresh b hh hvb; rw [this] at eb; cases eb
    exact ⟨⟨post.ev.wf, hasList_mk hp (by rw [post.ev.frame b hvb hb]; exact eb) hl hc, rw'.2.2⟩, Or.inr hb⟩

example : ∃ (h : Heap Nat) (v w : Vec1), Rep1 h v [1] ∧ Rep1 h w [2, 3] ∧ v.rv.ptr ≠ w.rv.ptr :=
  ⟨⟨fun b => if b = 0 then some [some 1] else if b = 1 then some [some 2, some 3, none] else none, 2, never, never, 0, 0⟩,
    ⟨⟨some 0, 1⟩, 1⟩, ⟨⟨some 1, 3⟩, 2⟩,
    ⟨fun b hb => by dsimp only at hb ⊢; rw [if_neg (by omega), if_neg (by omega)], ⟨⟨rfl, rfl, by decide⟩, by decide⟩, rfl⟩,
    ⟨fun b hb => by dsimp only at hb ⊢; rw [if_neg (by omega), if_neg (by omega)], ⟨⟨rfl, rfl, by decide⟩, by decide⟩, rfl⟩, by decide⟩

/-! ## C21: exceptions -/

/-- **C21, one call, one dimension.** Whichever copies and allocations throw: if the call throws, then exactly the first `size`
slots are alive (`Rep1`), and what is left is as listed in `left1` (nothing changed for `push_back`, `resize`, `reserve` and
`shrink_to_fit`; unchanged or empty for `assign`; at least the elements before the position for `insert` and `erase`). Missing: an
allocation that throws inside `insert`. -/
theorem C21_call_partial {h : Heap α} {v : Vec1} {l : List α} (r : Rep1 h v l) (op : Op1 α) (hv : valid1 v.size op = true)
    (hA : (∀ t, h.failA t = false) ∨ op.inserts = false) :
    ∃ out v' h', exec1 v op h = some ((out, v'), h') ∧ (out = .threw → ∃ l', Rep1 h' v' l' ∧ left1 l l' op) ∧
      (out ≠ .threw → Rep1 h' v' (spec1 l op).2 ∧ out = (spec1 l op).1) := by
  obtain ⟨out, v', h', e, post⟩ := exec1_spec r hv
  refine ⟨out, v', h', e, fun ht => ?_, fun ht => ⟨(post.good ht).2, (post.good ht).1⟩⟩
  obtain ⟨_, hh | ⟨⟨p, as, rfl⟩, t, ht⟩⟩ := post.fail ht
  · exact hh
  · rcases hA with q | q
    · rw [q t] at ht; cases ht
    · exact absurd q (by simp [Op1.inserts])

/-- **C21, one call, more dimensions.** -/
theorem C21_call_nd_partial {h : Heap α} {v : VecN} {s : Tab α} (r : RepN h v s) (op : OpN α) (hv : validN v.top v.sub op = true)
    (hA : (∀ t, h.failA t = false) ∨ op.inserts = false) :
    ∃ out v' h', execN v op h = some ((out, v'), h') ∧ (out = .threw → ∃ s', RepN h' v' s' ∧ leftN s s' op) ∧
      (out ≠ .threw → RepN h' v' (specN s op).2 ∧ out = (specN s op).1) := by
  obtain ⟨out, v', h', e, post⟩ := execN_spec r hv
  refine ⟨out, v', h', e, fun ht => ?_, fun ht => ⟨(post.good ht).2, (post.good ht).1⟩⟩
  obtain ⟨_, hh | ⟨⟨p, c, sh, row, rfl⟩ | ⟨p, sh, rs, rfl⟩, t, ht⟩⟩ := post.fail ht
  · exact hh
  · rcases hA with q | q
    · rw [q t] at ht; cases ht
    · exact absurd q (by simp [OpN.inserts])
  · rcases hA with q | q
    · rw [q t] at ht; cases ht
    · exact absurd q (by simp [OpN.inserts])

/-- **C21, programs.** Whichever copies throw, and whichever allocations throw if the program does not insert: the vector can be
used on after every exception and can be destroyed, and then no object and no block is left. -/
theorem C21_reuse_partial (failC failA : Nat → Bool) (ops : List (Op1 α))
    (hA : (∀ t, failA t = false) ∨ ∀ op ∈ ops, op.inserts = false) :
    ∃ outs h, (do let r ← run1 Vec1.nil ops; r.2.dtor; pure r.1) (Heap.empty failC failA : Heap α) = some (outs, h) ∧ ∀ b, h.blk b = none := by
  obtain ⟨outs, v, h, l, e, ev, r⟩ := run1_safe ops (rep1_nil (wf_empty failC failA)) hA
  obtain ⟨h1, e1, ev1⟩ := dtor1 r
  exact ⟨_, h1, by rw [bind_some e, bind_some e1]; rfl, all_free (rv := RV.null) (fun _ => rfl) (ev.trans ev1)⟩

theorem C21_reuse_nd_partial (failC failA : Nat → Bool) {d : Nat} (hd : 0 < d) (ops : List (OpN α))
    (hA : (∀ t, failA t = false) ∨ ∀ op ∈ ops, op.inserts = false) :
    ∃ outs h, (do let r ← runN (VecN.nil d) ops; r.2.dtor; pure r.1) (Heap.empty failC failA : Heap α) = some (outs, h) ∧ ∀ b, h.blk b = none := by
  obtain ⟨outs, v, h, l, e, ev, r⟩ := runN_safe ops (repN_nil (wf_empty failC failA) hd) hA
  obtain ⟨h1, e1, ev1⟩ := dtorN r
  exact ⟨_, h1, by rw [bind_some e, bind_some e1]; rfl, all_free (rv := RV.null) (fun _ => rfl) (ev.trans ev1)⟩

/-- The fifth attempt (the second copied element of the insertion) throws: one of the new elements stays. -/
example : ((run1 Vec1.nil [.insert 0 [1, 2], .reserve 9, .insert 1 [7, 8], .pushBack 3])
    (Heap.empty (fun t => t = 8) never : Heap Nat)).map (fun x => (x.1.1, view1 x.2 x.1.2)) = some ([.ok, .ok, .threw, .ok], [some 1, some 7, some 3]) := by
  decide +kernel

/-- **C21 fails when the allocation in `insert` throws**: the size becomes zero although both elements are still alive. Destroying
the vector then loses them, and adding an element constructs it over a live one. -/
theorem C21_insert_alloc_violated :
    ∃ (v : Vec1) (h : Heap Nat), run1 Vec1.nil [.insert 0 [1, 2], .insert 1 [7]] (Heap.empty never (fun t => t = 3))
        = some (([.ok, .threw], v), h) ∧ v.size = 0 ∧ (∃ b, v.rv.ptr = some b ∧ h.blk b = some [some 1, some 2]) ∧
      (v.dtor h).isNone = true ∧ (v.pushBack (.val 5) h).isNone = true := by
  refine ⟨_, _, rfl, ?_⟩
  refine ⟨rfl, ⟨_, rfl, rfl⟩, ?_⟩
  decide +kernel

/-! ## C22: pushing an element of the vector itself -/

/-- **C22 fails at full capacity**: the argument refers to the old block, which is freed before the copy is made. -/
theorem C22_self_push_violated :
    ((do let r ← Vec1.nil.pushBack (.val 7); r.2.pushBack (.ref (r.2.rv.ptr.getD 0) 0)) (Heap.empty never never : Heap Nat)).isNone = true := by
  decide +kernel

/-- **C22 below capacity**: a copy of the element's current value is appended (or the copy throws and nothing changes). -/
theorem C22_self_push_partial {h : Heap α} {v : Vec1} {l : List α} (r : Rep1 h v l) {b : Nat} (hb : v.rv.ptr = some b) {i : Nat}
    (hi : i < l.length) (hcap : v.size < v.rv.cap) :
    ∃ out v' h', v.pushBack (.ref b i) h = some ((out, v'), h') ∧
      ((out = .ok ∧ Rep1 h' v' (l ++ [l[i]])) ∨ (out = .threw ∧ Rep1 h' v' l ∧ ∃ t, h.failC t = true)) := by
  obtain ⟨w, o, hs⟩ := r
  obtain ⟨ok, rv', h1, e1, ev1, o1, hok, hno⟩ := rvPreparePushBack_spec (new := v.size + 1) w o hs (by omega)
  cases ok with
  | false =>
    -- below capacity nothing is done, so nothing can fail
    have : rvPreparePushBack v.rv v.size (v.size + 1) h = some ((true, v.rv), h) := by
      rw [rvPreparePushBack, if_neg (by omega)]; rfl
    rw [this] at e1; cases e1
  | true =>
    obtain ⟨rfl, rfl⟩ := (hok rfl).2.1 (by omega)
    obtain ⟨eb, hl, hc⟩ := hasList_some hb o
    have eb' : h1.blk b = some (l.map some ++ none :: List.replicate (v.rv.cap - l.length - 1) none) := by
      rw [eb, rep_cons']; congr 3; omega
    rcases construct_spec (i := v.size) (s := .ref b i) (a := l[i]) eb' (by simpa using hs) (read_slot hb o hi) with ⟨h2, e2, u2, _⟩ | ⟨h2, e2, u2, hf⟩
    · have ev2 := u2.evolves (rv := v.rv) ev1.wf hb (lt_next ev1.wf eb)
      refine ⟨.ok, ⟨v.rv, v.size + 1⟩, h2, ?_, Or.inl ⟨rfl, ev2.wf, hasList_mk hb (u2.here.trans ?_) (by simp; omega) hc, by simp [hs]⟩⟩
      · rw [Vec1.pushBack, bind_some e1]; simp only [hb, if_true]; rw [bind_some e2]; rfl
      · simp; omega
    · have ev2 := u2.evolves (rv := v.rv) ev1.wf hb (lt_next ev1.wf eb)
      refine ⟨.threw, ⟨v.rv, v.size⟩, h2, ?_, Or.inr ⟨rfl, ⟨ev2.wf, hasList_mk hb (u2.here.trans ?_) hl hc, hs⟩, _, hf⟩⟩
      · rw [Vec1.pushBack, bind_some e1]; simp only [hb, if_true]; rw [bind_some e2]; rfl
      · rw [← eb', eb]

example : ((do let a ← Vec1.nil.reserve 2; let r ← a.2.pushBack (.val 7); let q ← r.2.pushBack (.ref (r.2.rv.ptr.getD 0) 0); pure q.1)
    (Heap.empty never never : Heap Nat)).map Prod.fst = some .ok := by decide +kernel

/-! ## C23: amortised cost of `push_back` -/

/-- `n` calls of `push_back`. -/
def pushes (v : Vec1) : List α → M α Vec1
  | [] => pure v
  | a :: as => do
    let r ← v.pushBack (.val a)
    pushes r.2 as

def pushesN (v : VecN) (shape : List Nat) : List (List α) → M α VecN
  | [] => pure v
  | a :: as => do
    let r ← v.pushBack shape (a.map Src.val)
    pushesN r.2 shape as

theorem pushes_pay : ∀ (as : List α) {h : Heap α} {v : Vec1} {l : List α} {s c n c0 : Nat}, Rep1 h v l → Quiet h →
    Pay 1 s c n v.size v.rv.cap (h.copies - c0) → c0 ≤ h.copies → v.size + as.length ≤ sizeMax / 2 →
    ∃ v' h', pushes v as h = some (v', h') ∧ Rep1 h' v' (l ++ as) ∧ c0 ≤ h'.copies ∧
      Pay 1 s c (n + as.length) v'.size v'.rv.cap (h'.copies - c0)
  | [], h, v, l, s, c, n, c0, r, _, p, hc0, _ => ⟨v, h, rfl, by rwa [List.append_nil], hc0, p⟩
  | a :: as, h, v, l, s, c, n, c0, r, q, p, hc0, hlim => by
    simp only [List.length_cons] at hlim
    obtain ⟨v1, h1, e1, r1, q1, hstep⟩ := pushCost1 r q a (by omega)
    have hsz : v1.size = v.size + 1 := by rw [r1.2.2, r.2.2]; simp
    have hge : h.copies ≤ h1.copies := by omega
    have p1 := p.step (total' := v1.size) (cap' := v1.rv.cap) (paid' := h1.copies - c0) hsz (by rw [hsz]; omega)
    obtain ⟨v2, h2, e2, r2, hc2, p2⟩ := pushes_pay as r1 q1 p1 (by omega) (by omega)
    refine ⟨v2, h2, by rw [pushes, bind_some e1]; exact e2, by simpa using r2, hc2, ?_⟩
    rw [List.length_cons, Nat.add_comm as.length, ← Nat.add_assoc]; exact p2

/-- **C23, one dimension.** `n` calls of `push_back` on a vector of `s` elements make at most `3 * n + s` copies. -/
theorem C23_push_cost {h : Heap α} {v : Vec1} {l : List α} (r : Rep1 h v l) (q : Quiet h) (as : List α)
    (hlim : v.size + as.length ≤ sizeMax / 2) :
    ∃ v' h', pushes v as h = some (v', h') ∧ Rep1 h' v' (l ++ as) ∧ h'.copies - h.copies ≤ 3 * as.length + v.size := by
  have hfit : v.size ≤ v.rv.cap := by have := r.2.1.2; have := r.2.2; omega
  have p0 : Pay 1 v.size v.rv.cap 0 v.size v.rv.cap (h.copies - h.copies) := ⟨by omega, hfit, by omega, Or.inl ⟨rfl, by omega⟩⟩
  obtain ⟨v', h', e, r', _, p⟩ := pushes_pay as r q p0 (Nat.le_refl _) hlim
  have := p.bound hfit
  exact ⟨v', h', e, r', by omega⟩

/-- From the empty vector: at most `3 * n` copies. -/
theorem C23_push_cost_empty (as : List α) (hlim : as.length ≤ sizeMax / 2) :
    ∃ v h, pushes Vec1.nil as (Heap.empty never never) = some (v, h) ∧ view1 h v = as.map some ∧ h.copies ≤ 3 * as.length := by
  obtain ⟨v, h, e, r, hc⟩ := C23_push_cost (rep1_nil (wf_empty never never)) quiet_empty as (by simpa [Vec1.nil] using hlim)
  exact ⟨v, h, e, by have := view1_eq r; simpa using this, by simpa [Heap.empty, Vec1.nil] using hc⟩

/-- **C23, capacity.** A call of `push_back` keeps the capacity or makes it the larger of the needed size and twice the old
capacity; in particular it is at most doubled once the vector has storage. -/
theorem C23_capacity {h : Heap α} {v : Vec1} {l : List α} (r : Rep1 h v l) (q : Quiet h) (a : α) (hlim : v.size < sizeMax / 2) :
    ∃ v' h', v.pushBack (.val a) h = some ((.ok, v'), h') ∧ (v'.rv.cap = v.rv.cap ∨ v'.rv.cap = max (v.size + 1) (2 * v.rv.cap)) ∧
      v.rv.cap ≤ v'.rv.cap ∧ (0 < v.rv.cap → v'.rv.cap ≤ 2 * v.rv.cap) := by
  obtain ⟨v1, h1, e1, r1, q1, hstep⟩ := pushCost1 r q a hlim
  have hfit : v.size ≤ v.rv.cap := by have := r.2.1.2; have := r.2.2; omega
  exact ⟨v1, h1, e1, by omega, by omega, by omega⟩

theorem pushesN_pay (sub : List Nat) (hpos : 0 < prodL sub) : ∀ (as : List (List α)) {h : Heap α} {v : VecN} {rows : List (List α)} {s c n c0 : Nat},
    RepN h v ⟨sub, rows⟩ → Quiet h → (∀ a ∈ as, a.length = prodL sub) →
    Pay (prodL sub) s c n v.total v.rv.cap (h.copies - c0) → c0 ≤ h.copies →
    c < sizeMax / 2 → 2 * (v.total + as.length * prodL sub) < sizeMax / 2 →
    ∃ v' h', pushesN v sub as h = some (v', h') ∧ RepN h' v' ⟨sub, rows ++ as⟩ ∧ c0 ≤ h'.copies ∧
      Pay (prodL sub) s c (n + as.length) v'.total v'.rv.cap (h'.copies - c0)
  | [], h, v, rows, s, c, n, c0, r, _, _, p, hc0, _, _ => ⟨v, h, rfl, by rwa [List.append_nil], hc0, p⟩
  | a :: as, h, v, rows, s, c, n, c0, r, q, hlen, p, hc0, hc, hlim => by
    have hsm : (as.length + 1) * prodL sub = as.length * prodL sub + prodL sub := Nat.succ_mul as.length (prodL sub)
    rw [List.length_cons] at hlim
    have hal := hlen a List.mem_cons_self
    have hcap : v.rv.cap < sizeMax / 2 := by
      rcases p.grown with ⟨g, _⟩ | g
      · rw [g]; exact hc
      · omega
    obtain ⟨v1, h1, e1, r1, q1, hstep⟩ := pushCostN r q hal hpos hcap
    dsimp only at e1
    have hsz : v1.total = v.total + prodL sub := by rw [r1.total, r.total]; simp [hal]
    rw [hal] at hstep
    have p1 := p.step (total' := v1.total) (cap' := v1.rv.cap) (paid' := h1.copies - c0) hsz (by rw [hsz]; omega)
    obtain ⟨v2, h2, e2, r2, hc2, p2⟩ := pushesN_pay sub hpos as r1 q1 (fun x hx => hlen x (List.mem_cons_of_mem _ hx)) p1 (by omega) hc (by rw [hsz]; omega)
    refine ⟨v2, h2, by rw [pushesN, bind_some e1]; exact e2, by simpa using r2, hc2, ?_⟩
    rw [List.length_cons, Nat.add_comm as.length, ← Nat.add_assoc]; exact p2

/-- **C23, more dimensions.** `n` calls which append a row of `m` elements to a vector of `s` elements make at most
`3 * n * m + s` copies. -/
theorem C23_push_cost_nd {h : Heap α} {v : VecN} {sub : List Nat} {rows : List (List α)} (r : RepN h v ⟨sub, rows⟩) (q : Quiet h)
    (hpos : 0 < prodL sub) (as : List (List α)) (hlen : ∀ a ∈ as, a.length = prodL sub) (hc : v.rv.cap < sizeMax / 2)
    (hlim : 2 * (v.total + as.length * prodL sub) < sizeMax / 2) :
    ∃ v' h', pushesN v sub as h = some (v', h') ∧ RepN h' v' ⟨sub, rows ++ as⟩ ∧
      h'.copies - h.copies ≤ 3 * (as.length * prodL sub) + v.total := by
  have hfit : v.total ≤ v.rv.cap := by rw [r.total]; exact r.list.2
  have p0 : Pay (prodL sub) v.total v.rv.cap 0 v.total v.rv.cap (h.copies - h.copies) := ⟨by omega, hfit, by omega, Or.inl ⟨rfl, by omega⟩⟩
  obtain ⟨v', h', e, r', _, p⟩ := pushesN_pay sub hpos as r q hlen p0 (Nat.le_refl _) hc hlim
  have := p.bound hfit
  rw [Nat.zero_add] at this
  exact ⟨v', h', e, r', this⟩

/-- Ten pushes: 10 elements, and 0+1+2+4+8 elements transferred. -/
example : (pushes Vec1.nil (List.range 10) (Heap.empty never never)).map (fun x => (x.2.copies, x.1.rv.cap)) = some (25, 16) := by
  decide +kernel

end Verif.VectorNd
