import Verif.Props.C74_VectorObjs
import Verif.Model.VectorRows

/-!
Lemmas for C102: a block that was freed is never used again, and a member function replaces the block of its vector only together with
its capacity.
-/
set_option autoImplicit false
set_option linter.unusedSectionVars false

namespace Verif.VectorNd
variable {α β γ : Type}

/-- Whatever the computation does: the old block number `b` stays old, a freed block `b` stays freed, and the result satisfies `Q`. -/
def T (b : Nat) (Q : β → Prop) (m : M α β) : Prop :=
  ∀ h x h', m h = some (x, h') → b < h.next → b < h'.next ∧ (h.blk b = none → h'.blk b = none) ∧ Q x

theorem T.pure {b : Nat} {Q : β → Prop} {x : β} (q : Q x) : T b Q (pure x : M α β) := by
  intro h y h' e hb
  cases e
  exact ⟨hb, id, q⟩

theorem T.bad {b : Nat} {Q : β → Prop} : T b Q (bad : M α β) := by
  intro h y h' e hb
  cases e

theorem T.bind {b : Nat} {Q : β → Prop} {Q' : γ → Prop} {m : M α β} {f : β → M α γ} (tm : T b Q m) (tf : ∀ x, Q x → T b Q' (f x)) :
    T b Q' (m >>= f) := by
  intro h y h' e hb
  have e : M.bind m f h = some (y, h') := e
  simp only [M.bind] at e
  cases hm : m h with
  | none => rw [hm] at e; cases e
  | some p =>
    rw [hm] at e
    obtain ⟨h1, h2, h3⟩ := tm h p.1 p.2 hm hb
    obtain ⟨g1, g2, g3⟩ := tf p.1 h3 p.2 y h' e h1
    exact ⟨g1, fun q => g2 (h2 q), g3⟩

theorem T.mono {b : Nat} {Q Q' : β → Prop} {m : M α β} (t : T b Q m) (i : ∀ x, Q x → Q' x) : T b Q' m :=
  fun h x h' e hb => let ⟨h1, h2, h3⟩ := t h x h' e hb; ⟨h1, h2, i x h3⟩

/-- No claim about the result. -/
abbrev T0 (b : Nat) (m : M α β) : Prop := T b (fun _ => True) m

theorem put_none {h : Heap α} {b b' : Nat} {c : Option (List (Option α))} (hc : h.blk b' ≠ none) (hb : h.blk b = none) : (h.put b' c).blk b = none := by
  have : b ≠ b' := fun e => hc (e ▸ hb)
  simp [Heap.put, this, hb]

theorem setSlot_none {h : Heap α} {b b' i : Nat} {x : Option α} (hb : h.blk b = none) : (h.setSlot b' i x).blk b = none := by
  unfold Heap.setSlot
  split
  · exact hb
  · rename_i c hc
    exact put_none (by rw [hc]; simp) hb

theorem setSlot_next (h : Heap α) (b i : Nat) (x : Option α) : (h.setSlot b i x).next = h.next := by
  unfold Heap.setSlot
  split <;> rfl

theorem t_construct (b b' i : Nat) (s : Src α) : T0 b (construct b' i s) := by
  intro h x h' e hb
  unfold construct at e
  repeat' split at e
  all_goals first | (cases e; done) | skip
  · cases e; exact ⟨hb, id, trivial⟩
  · cases e
    refine ⟨?_, fun q => setSlot_none q, trivial⟩
    show b < (h.setSlot _ _ _).next
    rw [setSlot_next]; exact hb

theorem t_destroyAt (b b' i : Nat) : T0 b (destroyAt b' i : M α Unit) := by
  intro h x h' e hb
  unfold destroyAt at e
  repeat' split at e
  all_goals first | (cases e; done) | skip
  cases e
  exact ⟨by rw [setSlot_next]; exact hb, fun q => setSlot_none q, trivial⟩

theorem t_allocate (b n : Nat) : T b (fun o => ∀ nb, o = some nb → nb ≠ b) (allocate n : M α (Option Nat)) := by
  intro h x h' e hb
  unfold allocate at e
  repeat' split at e
  all_goals first | (cases e; done) | skip
  · cases e; exact ⟨hb, id, fun _ q => by cases q⟩
  · cases e
    refine ⟨Nat.lt_succ_of_lt hb, fun q => ?_, fun nb q => by cases q; omega⟩
    have : b ≠ h.next := by omega
    simp [Heap.put, this, q]

theorem t_deallocate (b b' n : Nat) : T0 b (deallocate b' n : M α Unit) := by
  intro h x h' e hb
  unfold deallocate at e
  repeat' split at e
  all_goals first | (cases e; done) | skip
  rename_i c hc _
  cases e
  exact ⟨hb, fun q => put_none (by rw [hc]; simp) q, trivial⟩

theorem t_increase (b old new : Nat) : T b (fun n => old < n) (increase old new : M α Nat) := by
  unfold increase
  split
  · exact T.bad
  · rename_i h1
    split
    · exact T.pure (by omega)
    · exact T.pure (by omega)

theorem t_destroyN (b b' : Nat) : ∀ lo n, T0 b (destroyN b' lo n : M α Unit)
  | _, 0 => T.pure trivial
  | lo, n + 1 => T.bind (t_destroyAt b b' lo) (fun _ _ => t_destroyN b b' (lo + 1) n)

theorem t_destroy (b b' lo hi : Nat) : T0 b (destroy b' lo hi : M α Unit) := by
  unfold destroy
  split
  · exact T.bad
  · exact t_destroyN _ _ _ _

theorem t_copyLoop (b b' : Nat) : ∀ (ss : List (Src α)) d, T0 b (copyLoop b' d ss)
  | [], _ => T.pure trivial
  | s :: ss, d => T.bind (t_construct b b' d s) (fun ok _ => by
      split
      · exact t_copyLoop b b' ss (d + 1)
      · exact T.pure trivial)

theorem t_transferLeft (b b' : Nat) : ∀ n s d, T0 b (transferLeft b' s d n : M α (Nat × Bool))
  | 0, _, _ => T.pure trivial
  | n + 1, s, d => T.bind (t_destroyAt b b' d) (fun _ _ => T.bind (t_construct b b' d _) (fun ok _ => by
      split
      · exact t_transferLeft b b' n _ _
      · exact T.pure trivial))

theorem t_transferRight (b b' : Nat) : ∀ n s d, T0 b (transferRight b' s d n : M α (Nat × Bool))
  | 0, _, _ => T.pure trivial
  | n + 1, s, d => T.bind (t_destroyAt b b' d) (fun _ _ => T.bind (t_construct b b' d _) (fun ok _ => by
      split
      · exact t_transferRight b b' n _ _
      · exact T.pure trivial))

/-- The storage is the same, or has another capacity and is not the block `b`. -/
def Chg (b : Nat) (rv rv' : RV) : Prop := rv' = rv ∨ (rv'.cap ≠ rv.cap ∧ rv'.ptr ≠ some b)

theorem Chg.refl (b : Nat) (rv : RV) : Chg b rv rv := Or.inl rfl

/-- One step of the proofs below. -/
syntax "tstep" : tactic
macro_rules | `(tactic| tstep) => `(tactic| exact T.bad)
macro_rules | `(tactic| tstep) => `(tactic| split)
macro_rules | `(tactic| tstep) => `(tactic| refine T.bind (t_destroy _ _ _ _) (fun _ _ => ?_))
macro_rules | `(tactic| tstep) => `(tactic| refine T.bind (t_deallocate _ _ _) (fun _ _ => ?_))
macro_rules | `(tactic| tstep) => `(tactic| refine T.bind (t_copyLoop _ _ _ _) (fun _ _ => ?_))
macro_rules | `(tactic| tstep) => `(tactic| refine T.bind (t_transferLeft _ _ _ _ _) (fun _ _ => ?_))
macro_rules | `(tactic| tstep) => `(tactic| refine T.bind (t_transferRight _ _ _ _ _) (fun _ _ => ?_))
macro_rules | `(tactic| tstep) => `(tactic| refine T.bind (t_construct _ _ _ _) (fun _ _ => ?_))
macro_rules | `(tactic| tstep) => `(tactic| refine T.bind (t_destroyAt _ _ _) (fun _ _ => ?_))

theorem chg_new {b : Nat} {rv : RV} {nb ncap : Nat} (h1 : nb ≠ b) (h2 : rv.cap < ncap) : Chg b rv ⟨some nb, ncap⟩ :=
  Or.inr ⟨by show ncap ≠ _; omega, fun e => h1 (by cases e; rfl)⟩

theorem t_rvFree (b : Nat) (rv : RV) : T0 b (rvFree rv : M α Unit) := by
  unfold rvFree
  split
  · exact T.pure trivial
  · exact t_deallocate _ _ _

theorem t_rvInit (b : Nat) (ss : List (Src α)) : T b (fun r => r.2.ptr ≠ some b) (rvInit RV.null ss) := by
  unfold rvInit
  split
  · exact T.bad
  · refine T.bind (t_allocate _ _) (fun a ha => ?_)
    split
    · exact T.pure (by simp [RV.null])
    · rename_i nb
      have := ha nb rfl
      repeat' tstep
      · exact T.pure (by simpa using this)
      · exact T.pure (by simp [RV.null])

theorem t_rvAssign (b : Nat) (rv : RV) (old new : Nat) (valid : Bool) (s : Src α) :
    T b (fun r => Chg b rv r.2.2) (rvAssign rv old new valid s) := by
  unfold rvAssign
  split
  · repeat' tstep
    · exact T.pure (Chg.refl _ _)
    · exact T.pure (Chg.refl _ _)
  · refine T.bind (t_increase _ _ _) (fun n hn => T.bind (t_allocate _ _) (fun a ha => ?_))
    split
    · exact T.pure (Chg.refl _ _)
    · rename_i nb
      have := ha nb rfl
      repeat' tstep
      · exact T.pure (chg_new this hn)
      · exact T.pure (chg_new this hn)
      · exact T.pure (Chg.refl _ _)

theorem t_rvResize (b : Nat) (rv : RV) (old new : Nat) (s : Src α) : T b (fun r => Chg b rv r.2) (rvResize rv old new s) := by
  unfold rvResize
  split
  · repeat' tstep
    exact T.pure (Chg.refl _ _)
  · split
    · split
      · refine T.bind (t_increase _ _ _) (fun n hn => T.bind (t_allocate _ _) (fun a ha => ?_))
        split
        · exact T.pure (Chg.refl _ _)
        · rename_i nb
          have := ha nb rfl
          repeat' tstep
          · exact T.pure (chg_new this hn)
          · exact T.pure (chg_new this hn)
          · exact T.pure (Chg.refl _ _)
      · repeat' tstep
        · exact T.pure (Chg.refl _ _)
        · exact T.pure (Chg.refl _ _)
    · exact T.pure (Chg.refl _ _)

theorem t_rvMoveTo (b : Nat) (rv : RV) (size nb ncap : Nat) (h1 : nb ≠ b) (h2 : rv.cap ≠ ncap) :
    T b (fun r => Chg b rv r.2) (rvMoveTo rv size nb ncap : M α (Bool × RV)) := by
  have hc : Chg b rv ⟨some nb, ncap⟩ := Or.inr ⟨fun e => h2 e.symm, fun e => h1 (by cases e; rfl)⟩
  unfold rvMoveTo
  split
  · exact T.pure hc
  · repeat' tstep
    · exact T.pure hc
    · exact T.pure (Chg.refl _ _)

theorem t_rvPreparePushBack (b : Nat) (rv : RV) (old new : Nat) : T b (fun r => Chg b rv r.2) (rvPreparePushBack rv old new : M α (Bool × RV)) := by
  unfold rvPreparePushBack
  split
  · refine T.bind (t_increase _ _ _) (fun n hn => T.bind (t_allocate _ _) (fun a ha => ?_))
    split
    · exact T.pure (Chg.refl _ _)
    · rename_i nb
      exact t_rvMoveTo _ _ _ _ _ (ha nb rfl) (by omega)
  · exact T.pure (Chg.refl _ _)

theorem t_rvPrepareInsert (b : Nat) (rv : RV) (old off count es valid : Nat) :
    T b (fun r => Chg b rv r.2.1) (rvPrepareInsert rv old off count es valid : M α (Bool × RV × Nat)) := by
  unfold rvPrepareInsert
  split
  · exact T.bad
  · split
    · refine T.bind (t_increase _ _ _) (fun n hn => T.bind (t_allocate _ _) (fun a ha => ?_))
      split
      · exact T.pure (Chg.refl _ _)
      · rename_i nb
        have := ha nb rfl
        repeat' tstep
        · exact T.pure (chg_new this hn)
        · exact T.pure (chg_new this hn)
        · exact T.pure (Chg.refl _ _)
        · exact T.pure (Chg.refl _ _)
    · repeat' tstep
      all_goals exact T.pure (Chg.refl _ _)

theorem t_rvErase (b : Nat) (rv : RV) (old off count es valid : Nat) : T0 b (rvErase rv old off count es valid : M α (Bool × Nat)) := by
  unfold rvErase
  repeat' tstep
  all_goals exact T.pure trivial

theorem t_rvReserve (b : Nat) (rv : RV) (size ncap : Nat) : T b (fun r => Chg b rv r.2) (rvReserve rv size ncap : M α (Bool × RV)) := by
  unfold rvReserve
  split
  · refine T.bind (t_allocate _ _) (fun a ha => ?_)
    split
    · exact T.pure (Chg.refl _ _)
    · rename_i nb
      exact t_rvMoveTo _ _ _ _ _ (ha nb rfl) (by omega)
  · exact T.pure (Chg.refl _ _)

theorem t_rvShrink (b : Nat) (rv : RV) (size : Nat) : T b (fun r => Chg b rv r.2) (rvShrink rv size : M α (Bool × RV)) := by
  unfold rvShrink
  split
  · exact T.pure (Chg.refl _ _)
  · split
    · exact T.pure (Chg.refl _ _)
    · rename_i hne
      split
      · refine T.bind (t_allocate _ _) (fun a ha => ?_)
        split
        · exact T.pure (Chg.refl _ _)
        · rename_i nb
          exact t_rvMoveTo _ _ _ _ _ (ha nb rfl) (fun e => hne e.symm)
      · repeat' tstep
        refine T.pure (Or.inr ⟨?_, ?_⟩)
        · show 0 ≠ rv.cap
          omega
        · simp [RV.null]

/-! ### Vectors -/

theorem t_destroyAll1 (b : Nat) (v : Vec1) : T0 b (v.destroyAll : M α Unit) := by
  unfold Vec1.destroyAll
  split
  · split
    · exact T.bad
    · exact t_destroy _ _ _ _
  · exact T.pure trivial

theorem t_destroyAllN (b : Nat) (v : VecN) : T0 b (v.destroyAll : M α Unit) := by
  unfold VecN.destroyAll
  split
  · split
    · exact T.bad
    · exact t_destroy _ _ _ _
  · exact T.pure trivial

macro_rules | `(tactic| tstep) => `(tactic| refine T.bind (t_destroyAll1 _ _) (fun _ _ => ?_))
macro_rules | `(tactic| tstep) => `(tactic| refine T.bind (t_destroyAllN _ _) (fun _ _ => ?_))
macro_rules | `(tactic| tstep) => `(tactic| refine T.bind (t_rvAssign _ _ _ _ _ _) (fun _ _ => ?_))
macro_rules | `(tactic| tstep) => `(tactic| refine T.bind (t_rvResize _ _ _ _ _) (fun _ _ => ?_))
macro_rules | `(tactic| tstep) => `(tactic| refine T.bind (t_rvPreparePushBack _ _ _ _) (fun _ _ => ?_))
macro_rules | `(tactic| tstep) => `(tactic| refine T.bind (t_rvPrepareInsert _ _ _ _ _ _ _) (fun _ _ => ?_))
macro_rules | `(tactic| tstep) => `(tactic| refine T.bind (t_rvErase _ _ _ _ _ _ _) (fun _ _ => ?_))
macro_rules | `(tactic| tstep) => `(tactic| refine T.bind (t_rvReserve _ _ _ _) (fun _ _ => ?_))
macro_rules | `(tactic| tstep) => `(tactic| refine T.bind (t_rvShrink _ _ _) (fun _ _ => ?_))

theorem t_exec1 (b : Nat) (v : Vec1) (op : Op1 α) : T b (fun r => Chg b v.rv r.2.rv) (exec1 v op) := by
  cases op <;> simp only [exec1, Vec1.pushBack, Vec1.popBack, Vec1.insert, Vec1.erase, Vec1.eraseRange, Vec1.eraseN, Vec1.resize,
    Vec1.assign, Vec1.clear, Vec1.reserve, Vec1.shrink]
  all_goals repeat' tstep
  all_goals refine T.pure ?_
  all_goals first
    | assumption
    | exact Chg.refl _ _
    | (split <;> assumption)

theorem setTop_rv (v : VecN) (n : Nat) : (v.setTop n).rv = v.rv := rfl
theorem initSizes_rv (v : VecN) (n : Nat) (s : List Nat) : (v.initSizes n s).rv = v.rv := rfl
theorem initIfEmpty_rv (v : VecN) (s : List Nat) : (v.initIfEmpty s).rv = v.rv := by
  unfold VecN.initIfEmpty; split <;> rfl

theorem t_prepareInsert (b : Nat) (v : VecN) (off c es : Nat) : T b (fun r => Chg b v.rv r.2.rv) (v.prepareInsert off c es : M α (Bool × VecN)) := by
  unfold VecN.prepareInsert
  refine T.bind (t_rvPrepareInsert _ _ _ _ _ _ _) (fun r hr => T.pure ?_)
  split <;> exact hr

theorem t_rowLoop (b b' : Nat) (row : List (Src α)) : ∀ n done d, T0 b (VecN.rowLoop b' row n done d)
  | 0, _, _ => T.pure trivial
  | n + 1, done, d => T.bind (t_copyLoop b b' row d) (fun c _ => by
      split
      · exact t_rowLoop b b' row n _ _
      · exact T.pure trivial)

macro_rules | `(tactic| tstep) => `(tactic| refine T.bind (t_prepareInsert _ _ _ _ _) (fun _ _ => ?_))
macro_rules | `(tactic| tstep) => `(tactic| refine T.bind (t_rowLoop _ _ _ _ _ _) (fun _ _ => ?_))

theorem t_execN (b : Nat) (v : VecN) (op : OpN α) : T b (fun r => Chg b v.rv r.2.rv) (execN v op) := by
  cases op <;> simp only [execN, VecN.pushBack, VecN.popBack, VecN.insertCount, VecN.insertRange, VecN.erase, VecN.eraseRange, VecN.eraseN,
    VecN.resizeTop, VecN.resizeAll, VecN.assign, VecN.clear, VecN.reserve, VecN.shrink]
  all_goals repeat' tstep
  all_goals refine T.pure ?_
  all_goals simp only [initIfEmpty_rv] at *
  all_goals first
    | assumption
    | exact Chg.refl _ _
    | (rw [initIfEmpty_rv]; exact Chg.refl _ _)
    | (split <;> assumption)
    | (split <;> split <;> assumption)

theorem t_ctor (b : Nat) (dims : List Nat) (ss : List (Src α)) :
    T b (fun r => ∀ v, r.2 = some v → v.rv.ptr ≠ some b) (Vec.ctor dims ss) := by
  unfold Vec.ctor
  split
  · exact T.bad
  · split
    · exact T.bad
    · refine T.bind (t_rvInit _ _) (fun r hr => ?_)
      split
      · exact T.pure (fun v e => by cases e; rw [shaped_rv]; exact hr)
      · exact T.pure (fun v e => by cases e)
  · split
    · exact T.pure (fun v e => by cases e)
    · split
      · refine T.bind (t_rvInit _ _) (fun r hr => ?_)
        split
        · exact T.pure (fun v e => by cases e; rw [shaped_rv]; exact hr)
        · exact T.pure (fun v e => by cases e)
      · exact T.pure (fun v e => by cases e; rw [shaped_rv]; simp [RV.null])

theorem t_copyCtor (b : Nat) (v : Vec) : T b (fun r => ∀ w, r.2 = some w → w.rv.ptr ≠ some b) (v.copyCtor : M α (Out × Option Vec)) := by
  unfold Vec.copyCtor
  split
  · have : ∀ w : Vec1, T b (fun r => ∀ u, r = some u → u.rv.ptr ≠ some b) (w.copyCtor : M α (Option Vec1)) := by
      intro w
      unfold Vec1.copyCtor Vec1.ctor
      refine T.bind (t_rvInit _ _) (fun r hr => ?_)
      split
      · exact T.pure (fun v e => by cases e; exact hr)
      · exact T.pure (fun v e => by cases e)
    refine T.bind (this _) (fun r hr => ?_)
    split
    · exact T.pure (fun v e => by cases e; exact hr _ rfl)
    · exact T.pure (fun v e => by cases e)
  · split
    · refine T.bind (t_rvInit _ _) (fun r hr => ?_)
      split
      · exact T.pure (fun v e => by cases e; exact hr)
      · exact T.pure (fun v e => by cases e)
    · exact T.pure (fun v e => by cases e; simp [Vec.rv, RV.null])

theorem t_dtor (b : Nat) (v : Vec) : T0 b (v.dtor : M α Unit) := by
  cases v with
  | one v => exact T.bind (t_destroyAll1 _ _) (fun _ _ => t_rvFree _ _)
  | many v => exact T.bind (t_destroyAllN _ _) (fun _ _ => t_rvFree _ _)

theorem t_destroyAll (b : Nat) (v : Vec) : T0 b (v.destroyAll : M α Unit) := by
  cases v with
  | one v => exact t_destroyAll1 _ _
  | many v => exact t_destroyAllN _ _

/-- Assignment: the old value stays, or a new block is there. -/
theorem t_copyAssign (b : Nat) (v w : Vec) :
    T b (fun r => (r.1 ≠ .ok ∧ r.2 = v) ∨ (r.1 = .ok ∧ r.2.rv.ptr ≠ some b)) (v.copyAssign w : M α (Out × Vec)) := by
  unfold Vec.copyAssign
  have key : T b (fun r => (∀ w, r.2 = some w → w.rv.ptr ≠ some b) ∧ (r.2 = none → r.1 ≠ .ok)) (w.copyCtor : M α (Out × Option Vec)) := by
    intro h x h' e hb
    obtain ⟨h1, h2, h3⟩ := t_copyCtor b w h x h' e hb
    refine ⟨h1, h2, h3, fun hn ho => ?_⟩
    have : ∀ w : Vec, T b (fun r => r.2 = none → r.1 ≠ .ok) (w.copyCtor : M α (Out × Option Vec)) := by
      intro w
      unfold Vec.copyCtor Vec1.copyCtor Vec1.ctor
      split
      · refine T.bind (Q := fun _ => True) ?_ (fun r hr => ?_)
        · refine T.bind (t_rvInit _ _) (fun r hr => ?_)
          split <;> exact T.pure trivial
        · split
          · exact T.pure (fun e => by cases e)
          · exact T.pure (fun _ e => by cases e)
      · split
        · refine T.bind (t_rvInit _ _) (fun r hr => ?_)
          split
          · exact T.pure (fun e => by cases e)
          · exact T.pure (fun _ e => by cases e)
        · exact T.pure (fun e => by cases e)
    exact (this w h x h' e hb).2.2 hn ho
  refine T.bind key (fun r hr => ?_)
  split
  · rename_i hn
    exact T.pure (Or.inl ⟨hr.2 hn, rfl⟩)
  · rename_i t ht
    refine T.bind (t_dtor _ _) (fun _ _ => T.pure (Or.inr ⟨rfl, hr.1 _ ht⟩))

end Verif.VectorNd
