import Verif.Props.C102_VectorRowsSpec
import Verif.Lemmas.VectorRows

/-!
Lemmas for C102: a member function replaces the storage of its vector only if it needs more.
-/
set_option autoImplicit false
set_option linter.unusedSectionVars false

namespace Verif.VectorNd
variable {α β γ : Type}

/-- Whatever the computation returns satisfies `Q`. -/
def Res (Q : β → Prop) (m : M α β) : Prop := ∀ h x h', m h = some (x, h') → Q x

theorem Res.pure {Q : β → Prop} {x : β} (q : Q x) : Res Q (pure x : M α β) := by
  intro h y h' e; cases e; exact q

theorem Res.bad {Q : β → Prop} : Res Q (bad : M α β) := by
  intro h y h' e; cases e

theorem Res.bind {Q : β → Prop} {Q' : γ → Prop} {m : M α β} {f : β → M α γ} (tm : Res Q m) (tf : ∀ x, Q x → Res Q' (f x)) : Res Q' (m >>= f) := by
  intro h y h' e
  have e : M.bind m f h = some (y, h') := e
  simp only [M.bind] at e
  cases hm : m h with
  | none => rw [hm] at e; cases e
  | some p => rw [hm] at e; exact tf p.1 (tm h p.1 p.2 hm) p.2 y h' e

theorem Res.bindAny {Q' : γ → Prop} {m : M α β} {f : β → M α γ} (tf : ∀ x, Res Q' (f x)) : Res Q' (m >>= f) :=
  Res.bind (Q := fun _ => True) (fun _ _ _ _ => trivial) (fun x _ => tf x)

theorem Res.mono {Q Q' : β → Prop} {m : M α β} (t : Res Q m) (i : ∀ x, Q x → Q' x) : Res Q' m := fun h x h' e => i x (t h x h' e)

/-- The storage stays, or `n` elements do not fit into it and do fit into the new one. -/
def Grow (n : Nat) (rv rv' : RV) : Prop := rv' = rv ∨ (rv.cap < n ∧ n ≤ rv'.cap)

theorem grow_refl (n : Nat) (rv : RV) : Grow n rv rv := Or.inl rfl

theorem r_increase (old new : Nat) : Res (fun n => old < new ∧ new ≤ n) (increase old new : M α Nat) := by
  unfold increase
  split
  · exact Res.bad
  · split
    · exact Res.pure ⟨by omega, Nat.le_max_left _ _⟩
    · exact Res.pure ⟨by omega, Nat.le_refl _⟩

/-- One step of the proofs below. -/
syntax "rstep" : tactic
macro_rules | `(tactic| rstep) => `(tactic| exact Res.bad)
macro_rules | `(tactic| rstep) => `(tactic| exact Res.pure (grow_refl _ _))
macro_rules | `(tactic| rstep) => `(tactic| split)
macro_rules | `(tactic| rstep) => `(tactic| refine Res.bindAny (fun _ => ?_))

theorem r_moveTo (rv : RV) (size nb ncap n : Nat) (h1 : rv.cap < n) (h2 : n ≤ ncap) : Res (fun r => Grow n rv r.2) (rvMoveTo rv size nb ncap : M α (Bool × RV)) := by
  unfold rvMoveTo
  repeat' rstep
  all_goals exact Res.pure (Or.inr ⟨h1, h2⟩)

theorem r_assign (rv : RV) (old new : Nat) (valid : Bool) (s : Src α) : Res (fun r => Grow new rv r.2.2) (rvAssign rv old new valid s) := by
  unfold rvAssign
  split
  · repeat' rstep
  · refine Res.bind (r_increase _ _) (fun n hn => ?_)
    repeat' rstep
    all_goals exact Res.pure (Or.inr hn)

theorem r_resize (rv : RV) (old new : Nat) (s : Src α) : Res (fun r => Grow new rv r.2) (rvResize rv old new s) := by
  unfold rvResize
  split
  · repeat' rstep
  · split
    · split
      · refine Res.bind (r_increase _ _) (fun n hn => ?_)
        repeat' rstep
        all_goals exact Res.pure (Or.inr hn)
      · repeat' rstep
    · exact Res.pure (grow_refl _ _)

theorem r_push (rv : RV) (old new : Nat) : Res (fun r => Grow new rv r.2) (rvPreparePushBack rv old new : M α (Bool × RV)) := by
  unfold rvPreparePushBack
  split
  · refine Res.bind (r_increase _ _) (fun n hn => Res.bindAny (fun a => ?_))
    split
    · exact Res.pure (grow_refl _ _)
    · exact r_moveTo _ _ _ _ _ hn.1 hn.2
  · exact Res.pure (grow_refl _ _)

theorem r_prepareInsert (rv : RV) (old off count es valid : Nat) :
    Res (fun r => Grow (old + count * es) rv r.2.1) (rvPrepareInsert rv old off count es valid : M α (Bool × RV × Nat)) := by
  unfold rvPrepareInsert
  split
  · exact Res.bad
  · split
    · refine Res.bind (r_increase _ _) (fun n hn => ?_)
      repeat' rstep
      all_goals exact Res.pure (Or.inr hn)
    · repeat' rstep

theorem r_reserve (rv : RV) (size ncap : Nat) : Res (fun r => Grow ncap rv r.2) (rvReserve rv size ncap : M α (Bool × RV)) := by
  unfold rvReserve
  split
  · refine Res.bindAny (fun a => ?_)
    split
    · exact Res.pure (grow_refl _ _)
    · exact r_moveTo _ _ _ _ _ (by assumption) (Nat.le_refl _)
  · exact Res.pure (grow_refl _ _)

theorem r_shrink (rv : RV) (size : Nat) : Res (fun r => r.2 = rv ∨ r.2.cap = size) (rvShrink rv size : M α (Bool × RV)) := by
  unfold rvShrink
  split
  · exact Res.pure (Or.inl rfl)
  · split
    · exact Res.pure (Or.inl rfl)
    · split
      · refine Res.bindAny (fun a => ?_)
        split
        · exact Res.pure (Or.inl rfl)
        · unfold rvMoveTo
          split
          · exact Res.pure (Or.inr rfl)
          · refine Res.bindAny (fun _ => ?_)
            split
            · exact Res.bindAny (fun _ => Res.bindAny (fun _ => Res.pure (Or.inr rfl)))
            · exact Res.bindAny (fun _ => Res.bindAny (fun _ => Res.pure (Or.inl rfl)))
      · refine Res.bindAny (fun _ => Res.bindAny (fun _ => Res.pure (Or.inr ?_)))
        show 0 = size; omega

/-- A call on a vector of one dimension. -/
theorem r_exec1 (v : Vec1) (op : Op1 α) : Res (fun r => r.2.rv = v.rv ∨ op.recaps v.size v.rv.cap r.2.rv.cap) (exec1 v op) := by
  cases op with
  | pushBack a =>
    simp only [exec1, Vec1.pushBack]
    refine Res.bind (r_push _ _ _) (fun r hr => ?_)
    have hr : r.2 = v.rv ∨ _ := hr
    split
    · split
      · exact Res.bad
      · refine Res.bindAny (fun ok => Res.pure ?_)
        cases ok <;> exact hr
    · exact Res.pure hr
  | popBack =>
    simp only [exec1, Vec1.popBack]
    split
    · exact Res.pure (Or.inl rfl)
    · split
      · exact Res.bad
      · exact Res.bindAny (fun _ => Res.pure (Or.inl rfl))
  | insert p as =>
    simp only [exec1, Vec1.insert]
    split
    · exact Res.pure (Or.inl rfl)
    · refine Res.bind (r_prepareInsert _ _ _ _ _ _) (fun r hr => ?_)
      have hr : r.2.1 = v.rv ∨ (v.rv.cap < v.size + as.length ∧ v.size + as.length ≤ r.2.1.cap) := by
        simpa [Grow] using hr
      split
      · split
        · exact Res.bad
        · refine Res.bindAny (fun c => ?_)
          split
          · exact Res.pure hr
          · exact Res.bindAny (fun _ => Res.pure hr)
      · exact Res.pure hr
  | erase p =>
    simp only [exec1, Vec1.erase, Vec1.eraseN]
    repeat' first | exact Res.pure (Or.inl rfl) | rstep
  | eraseRange p q =>
    simp only [exec1, Vec1.eraseRange, Vec1.eraseN]
    repeat' first | exact Res.pure (Or.inl rfl) | rstep
  | resize n a =>
    simp only [exec1, Vec1.resize]
    refine Res.bind (r_resize _ _ _ _) (fun r hr => Res.pure ?_)
    split <;> exact hr
  | assign n a =>
    simp only [exec1, Vec1.assign]
    refine Res.bind (r_assign _ _ _ _ _) (fun r hr => ?_)
    split <;> exact Res.pure hr
  | clear =>
    simp only [exec1, Vec1.clear]
    exact Res.bindAny (fun _ => Res.pure (Or.inl rfl))
  | reserve n =>
    simp only [exec1, Vec1.reserve]
    exact Res.bind (r_reserve _ _ _) (fun r hr => Res.pure hr)
  | shrink =>
    simp only [exec1, Vec1.shrink]
    exact Res.bind (r_shrink _ _) (fun r hr => Res.pure hr)

theorem initIfEmpty_total (v : VecN) (shape : List Nat) : (v.initIfEmpty shape).total = v.total := by
  unfold VecN.initIfEmpty
  split
  · rename_i h
    show 0 * _ = _
    rw [h, Nat.zero_mul]
  · rfl

theorem r_prepareN (v : VecN) (off count es : Nat) :
    Res (fun r => Grow (v.total + count * es) v.rv r.2.rv) (v.prepareInsert off count es : M α (Bool × VecN)) := by
  unfold VecN.prepareInsert
  refine Res.bind (r_prepareInsert _ _ _ _ _ _) (fun r hr => Res.pure ?_)
  split <;> exact hr

/-- A call on a vector of more dimensions. -/
theorem r_execN (v : VecN) (op : OpN α) (hes : v.es = prodL v.sub) :
    Res (fun r => r.2.rv = v.rv ∨ op.recaps v.total v.sub v.rv.cap r.2.rv.cap) (execN v op) := by
  cases op with
  | pushBack shape row =>
    simp only [execN, VecN.pushBack]
    split
    · exact Res.pure (Or.inl rfl)
    · refine Res.bind (r_push _ _ _) (fun r hr => ?_)
      have hr : r.2 = v.rv ∨ (v.rv.cap < v.total + row.length ∧ v.total + row.length ≤ r.2.cap) := by
        simpa [Grow, initIfEmpty_total, initIfEmpty_rv] using hr
      split
      · split
        · exact Res.bad
        · refine Res.bindAny (fun c => ?_)
          split
          · exact Res.pure hr
          · exact Res.bindAny (fun _ => Res.pure hr)
      · exact Res.pure hr
  | popBack =>
    simp only [execN, VecN.popBack]
    split
    · exact Res.bad
    · split
      · exact Res.bad
      · exact Res.bindAny (fun _ => Res.pure (Or.inl rfl))
  | insertCount p count shape row =>
    simp only [execN, VecN.insertCount]
    split
    · exact Res.pure (Or.inl rfl)
    · split
      · exact Res.pure (Or.inl rfl)
      · split
        · exact Res.pure (Or.inl (initIfEmpty_rv _ _))
        · refine Res.bind (r_prepareN _ _ _ _) (fun r hr => ?_)
          have hr : r.2.rv = v.rv ∨ (v.rv.cap < v.total + count * prodL shape ∧ v.total + count * prodL shape ≤ r.2.rv.cap) := by
            simpa [Grow, initIfEmpty_total, initIfEmpty_rv] using hr
          split
          · split
            · exact Res.bad
            · refine Res.bindAny (fun c => ?_)
              split
              · exact Res.pure hr
              · exact Res.bindAny (fun _ => Res.bindAny (fun _ => Res.pure hr))
          · exact Res.pure hr
  | insertRange p shape rows =>
    simp only [execN, VecN.insertRange]
    split
    · exact Res.pure (Or.inl rfl)
    · split
      · exact Res.pure (Or.inl rfl)
      · split
        · exact Res.pure (Or.inl (initIfEmpty_rv _ _))
        · refine Res.bind (r_prepareN _ _ _ _) (fun r hr => ?_)
          have hr : r.2.rv = v.rv ∨ (v.rv.cap < v.total + rows.length * prodL shape ∧ v.total + rows.length * prodL shape ≤ r.2.rv.cap) := by
            simpa [Grow, initIfEmpty_total, initIfEmpty_rv] using hr
          split
          · split
            · exact Res.bad
            · refine Res.bindAny (fun c => ?_)
              split
              · exact Res.pure hr
              · exact Res.bindAny (fun _ => Res.bindAny (fun _ => Res.pure hr))
          · exact Res.pure hr
  | erase p =>
    simp only [execN, VecN.erase, VecN.eraseN]
    repeat' first | exact Res.pure (Or.inl rfl) | rstep
  | eraseRange p q =>
    simp only [execN, VecN.eraseRange, VecN.eraseN]
    repeat' first | exact Res.pure (Or.inl rfl) | rstep
  | resizeTop n a =>
    simp only [execN, VecN.resizeTop]
    refine Res.bind (r_resize _ _ _ _) (fun r hr => Res.pure ?_)
    rw [hes] at hr
    split <;> exact hr
  | resizeAll top sub a =>
    simp only [execN, VecN.resizeAll]
    refine Res.bind (r_resize _ _ _ _) (fun r hr => Res.pure ?_)
    split <;> exact hr
  | assign top sub a =>
    simp only [execN, VecN.assign]
    refine Res.bind (r_assign _ _ _ _ _) (fun r hr => ?_)
    split
    · exact Res.pure hr
    · refine Res.pure ?_
      split <;> exact hr
  | clear a =>
    simp only [execN, VecN.clear, VecN.resizeTop]
    refine Res.bind (r_resize _ _ _ _) (fun r hr => Res.pure ?_)
    have hr : r.2 = v.rv := by
      rcases hr with hr | hr
      · exact hr
      · exact absurd hr.1 (by simp)
    split <;> exact Or.inl hr
  | reserve n =>
    simp only [execN, VecN.reserve]
    exact Res.bind (r_reserve _ _ _) (fun r hr => Res.pure hr)
  | shrink =>
    simp only [execN, VecN.shrink]
    exact Res.bind (r_shrink _ _) (fun r hr => Res.pure hr)

end Verif.VectorNd
