import Verif.Model.Scheduler
set_option autoImplicit false

namespace Verif.Scheduler

/-- Due times do not increase along the vector. -/
def Desc (l : List Event) : Prop := l.Pairwise (fun a b => b.time ≤ a.time)

theorem insertEvent_perm (e : Event) (l : List Event) : (insertEvent e l).Perm (e :: l) := by
  induction l with
  | nil => exact .refl _
  | cons x xs ih =>
    unfold insertEvent
    split
    · exact .refl _
    · exact (List.Perm.cons x ih).trans (.swap e x xs)

theorem insertEvent_desc {e : Event} {l : List Event} (h : Desc l) : Desc (insertEvent e l) := by
  induction l with
  | nil => simp [insertEvent, Desc]
  | cons x xs ih =>
    unfold Desc at h
    rw [List.pairwise_cons] at h
    unfold insertEvent
    split
    · rename_i hlt
      unfold Desc
      rw [List.pairwise_cons, List.pairwise_cons]
      refine ⟨?_, h⟩
      intro a ha
      rcases List.mem_cons.1 ha with rfl | ha
      · omega
      · have := h.1 a ha; omega
    · rename_i hlt
      unfold Desc
      rw [List.pairwise_cons]
      refine ⟨?_, ih h.2⟩
      intro a ha
      rcases List.mem_cons.1 ((insertEvent_perm e xs).mem_iff.1 ha) with rfl | ha
      · omega
      · exact h.1 a ha

theorem insertEvent_ne_nil (e : Event) (l : List Event) : insertEvent e l ≠ [] := by
  cases l with
  | nil => simp [insertEvent]
  | cons x xs => unfold insertEvent; split <;> simp

/-- The last element of a non-increasing list is a minimum. -/
theorem desc_last {l : List Event} {e : Event} (h : Desc l) (he : l.getLast? = some e) :
    ∀ x ∈ l, e.time ≤ x.time := by
  have hl : l = l.dropLast ++ [e] := by
    have hne : l ≠ [] := by rintro rfl; simp at he
    rw [List.getLast?_eq_some_getLast hne] at he
    simp at he
    rw [← he]; exact (List.dropLast_concat_getLast hne).symm
  intro x hx
  rw [hl] at hx h
  unfold Desc at h
  rw [List.pairwise_append] at h
  rcases List.mem_append.1 hx with hx | hx
  · exact h.2.2 x hx e (by simp)
  · simp at hx; subst hx; exact Nat.le_refl _

theorem dropLast_getLast {l : List Event} {e : Event} (he : l.getLast? = some e) : l.dropLast ++ [e] = l := by
  have hne : l ≠ [] := by rintro rfl; simp at he
  rw [List.getLast?_eq_some_getLast hne] at he
  simp at he
  rw [← he]; exact List.dropLast_concat_getLast hne

structure Inv (s : St) : Prop where
  desc : Desc s.events
  perm : s.enqueued.Perm (s.started ++ s.events)
  empty : s.th = .waitEmpty → s.notifies = 0 → s.events = [] ∧ s.soft = false ∧ s.force = false
  until_ : ∀ t, s.th = .waitUntil t → s.notifies = 0 → s.force = false ∧ ∃ e, s.events.getLast? = some e ∧ e.time = t
  exited : s.th = .exited → s.force = true ∨ s.soft = true

theorem init_inv (now : Nat) : Inv (init now) := by
  refine ⟨by simp [init, Desc], by simp [init], by simp [init], by simp [init], by simp [init]⟩

theorem threadStep_inv {s : St} (h : Inv s) : Inv (threadStep s) := by
  unfold threadStep
  split
  · rename_i hf
    exact ⟨h.desc, h.perm, by simp, by simp, fun _ => Or.inl hf⟩
  · rename_i hf
    split
    · rename_i he
      split
      · rename_i hs
        exact ⟨h.desc, h.perm, by simp, by simp, fun _ => Or.inr hs⟩
      · rename_i hs
        refine ⟨h.desc, h.perm, ?_, by simp, by simp⟩
        intro _ _
        exact ⟨List.getLast?_eq_none_iff.1 he, by simpa using hs, by simpa using hf⟩
    · rename_i e he
      split
      · rename_i hlt
        refine ⟨h.desc, h.perm, by simp, ?_, by simp⟩
        intro t ht _
        simp at ht
        exact ⟨by simpa using hf, e, he, ht⟩
      · have hd := dropLast_getLast he
        refine ⟨?_, ?_, by simp, by simp, by simp⟩
        · have := h.desc
          unfold Desc at *
          rw [← hd, List.pairwise_append] at this
          exact this.1
        · refine h.perm.trans ?_
          have h2 : s.events.Perm (e :: s.events.dropLast) := by
            have h3 : (s.events.dropLast ++ [e]).Perm (e :: s.events.dropLast) := List.perm_append_comm
            rwa [hd] at h3
          simp only [List.append_assoc, List.singleton_append]
          exact List.Perm.append_left _ h2

theorem step_inv {s s' : St} {a : Act} (h : Inv s) (hs : step s a = some s') : Inv s' := by
  cases a with
  | enqueue e =>
    simp [step] at hs; subst hs
    refine ⟨insertEvent_desc h.desc, ?_, by simp, by simp, h.exited⟩
    have h1 : (s.enqueued ++ [e]).Perm (e :: s.enqueued) := List.perm_append_comm
    refine h1.trans ?_
    have h2 : (s.started ++ insertEvent e s.events).Perm (s.started ++ e :: s.events) :=
      List.Perm.append_left _ (insertEvent_perm e s.events)
    refine List.Perm.trans ?_ h2.symm
    exact (List.Perm.cons e h.perm).trans List.perm_middle.symm
  | tick d => simp [step] at hs; subst hs; exact ⟨h.desc, h.perm, h.empty, h.until_, h.exited⟩
  | softStop => simp [step] at hs; subst hs; exact ⟨h.desc, h.perm, by simp, by simp, by simp⟩
  | forceStop => simp [step] at hs; subst hs; exact ⟨h.desc, h.perm, by simp, by simp, by simp⟩
  | notify =>
    simp only [step] at hs
    split at hs
    · simp at hs
    · simp at hs; subst hs
      refine ⟨h.desc, h.perm, ?_, ?_, ?_⟩ <;> simp only [notify] <;> cases hth : s.th <;> simp
      exact h.exited hth
  | thread =>
    simp only [step] at hs
    split at hs
    · simp at hs; subst hs; exact threadStep_inv h
    · simp at hs; subst hs; exact ⟨h.desc, h.perm, by simp, by simp, by simp⟩
    · simp at hs
  | wake =>
    simp only [step] at hs
    split at hs
    · simp at hs; subst hs; exact ⟨h.desc, h.perm, by simp, by simp, by simp⟩
    · simp at hs; subst hs; exact ⟨h.desc, h.perm, by simp, by simp, by simp⟩
    · simp at hs

theorem reach_inv {now : Nat} {acts : List Act} {s : St} (h : Reach now acts s) : Inv s := by
  induction h with
  | init => exact init_inv now
  | step _ hs ih => exact step_inv ih hs

end Verif.Scheduler
