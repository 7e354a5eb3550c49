import Verif.Lemmas.Scheduler

/-!
C42: the scheduler, for every set of events, every arrival order and every interleaving of clock, callers and the
scheduler thread.
-/
set_option autoImplicit false

namespace Verif.Scheduler

/-! ### Specification -/

/-- The events passed to `enqueue`, in order. -/
def submitted (acts : List Act) : List Event := acts.filterMap fun | .enqueue e => some e | _ => none

theorem enqueued_eq {now : Nat} {acts : List Act} {s : St} (h : Reach now acts s) : s.enqueued = submitted acts := by
  induction h with
  | init => rfl
  | @step acts s a s' _ hs ih =>
    have key : s'.enqueued = s.enqueued ++ submitted [a] := by
      cases a <;> simp only [step, threadStep] at hs <;> repeat' split at hs
      all_goals first
        | (simp at hs; done)
        | (simp at hs; subst hs; simp [submitted])
    rw [key, ih]; simp [submitted, List.filterMap_append]

/-! ### Theorems -/

/-- **C42**, due times and order (partial: for equal due times the documented order does not hold, see below).  Whenever a
step starts an event, the event was submitted and is due, and no pending event has an earlier due time. -/
theorem C42_due_order_partial {now : Nat} {acts : List Act} {s s' : St} {a : Act} (h : Reach now acts s)
    (hs : step s a = some s') (hst : s'.started ≠ s.started) :
    ∃ e, s'.started = s.started ++ [e] ∧ s'.th = .exec e ∧ e ∈ submitted acts ∧ e.time ≤ s.now ∧
      ∀ x ∈ s.events, e.time ≤ x.time := by
  have hi := reach_inv h
  cases a with
  | thread =>
    simp only [step] at hs
    split at hs
    · simp at hs; subst hs
      unfold threadStep at hst ⊢
      split at hst
      · simp at hst
      · rename_i hf
        split at hst
        · split at hst <;> simp at hst
        · rename_i e he
          split at hst
          · simp at hst
          · rename_i hlt
            have hmem : e ∈ s.events := List.mem_of_getLast? he
            refine ⟨e, ?_, ?_, ?_, by omega, desc_last hi.desc he⟩
            · simp [hf, he, hlt]
            · simp [hf, he, hlt]
            · rw [← enqueued_eq h]
              exact hi.perm.mem_iff.2 (List.mem_append_right _ hmem)
    · simp at hs; subst hs; simp at hst
    · simp at hs
  | _ =>
    simp only [step] at hs
    repeat' split at hs
    all_goals first
      | (simp at hs; done)
      | (simp at hs; subst hs; simp at hst)

/-- **C42**, at most once: the started events together with the pending ones are exactly the submitted ones, with
multiplicity. -/
theorem C42_each_at_most_once {now : Nat} {acts : List Act} {s : St} (h : Reach now acts s) :
    (submitted acts).Perm (s.started ++ s.events) := by
  rw [← enqueued_eq h]; exact (reach_inv h).perm

/-- **C42**, destruction: unless `stop()` was called, the scheduler thread exits only when every submitted event was
started. -/
theorem C42_soft_stop_drains {now : Nat} {acts : List Act} {s s' : St} (h : Reach now acts s)
    (hs : step s .thread = some s') (hex : s'.th = .exited) (hf : s.force = false) :
    (submitted acts).Perm s'.started := by
  have hi := reach_inv h
  simp only [step] at hs
  split at hs
  · simp at hs; subst hs
    unfold threadStep at *
    simp only [hf] at *
    cases he : s.events.getLast? with
    | none =>
      have h0 := List.getLast?_eq_none_iff.1 he
      have := hi.perm
      rw [h0] at this
      rw [← enqueued_eq h]
      simp only [Bool.false_eq_true, if_false]
      split <;> simpa using this
    | some e =>
      simp [he] at hex
      split at hex <;> simp at hex
  · simp at hs; subst hs; simp at hex
  · simp at hs

/-- **C42**, `stop()`: once it was called no further event is started. -/
theorem C42_force_stop {s s' : St} {a : Act} (hf : s.force = true) (hs : step s a = some s') :
    s'.started = s.started ∧ s'.force = true := by
  cases a <;> simp only [step, threadStep, hf, if_true] at hs <;> repeat' split at hs
  all_goals first
    | (simp at hs; done)
    | (simp at hs; subst hs; simp [hf])
    | simp_all

/-- **C42**, no event is forgotten: if a pending event is due while the scheduler thread is blocked and no notification is
on its way, then the time the thread waits for has already come, so that its `wait_until` returns. -/
theorem C42_due_event_wakes {now : Nat} {acts : List Act} {s : St} (h : Reach now acts s) (hn : s.notifies = 0)
    (e : Event) (he : e ∈ s.events) (hdue : e.time ≤ s.now) :
    s.th ≠ .waitEmpty ∧ ∀ t, s.th = .waitUntil t → t ≤ s.now := by
  have hi := reach_inv h
  refine ⟨?_, ?_⟩
  · intro hw
    rw [(hi.empty hw hn).1] at he; simp at he
  · intro t ht
    obtain ⟨-, x, hx, rfl⟩ := hi.until_ t ht hn
    exact Nat.le_trans (desc_last hi.desc hx e he) hdue

theorem reach_of_run {now : Nat} : ∀ (as acts : List Act) {s s' : St}, Reach now acts s → run s as = some s' →
    Reach now (acts ++ as) s'
  | [], acts, s, s', h, hs => by simp [run] at hs; subst hs; simpa using h
  | a :: as, acts, s, s', h, hs => by
    unfold run at hs
    cases h1 : step s a with
    | none => rw [h1] at hs; simp at hs
    | some s1 =>
      rw [h1] at hs
      have := reach_of_run as (acts ++ [a]) (.step h h1) hs
      simpa using this

/-- How far the clock was advanced. -/
def elapsed (acts : List Act) : Nat := (acts.map fun | .tick d => d | _ => 0).sum

/-- The clock of the model is the time since the start. -/
theorem C42_clock {now : Nat} {acts : List Act} {s : St} (h : Reach now acts s) : s.now = now + elapsed acts := by
  induction h with
  | init => rfl
  | @step acts s a s' _ hs ih =>
    have key : s'.now = s.now + elapsed [a] := by
      cases a <;> simp only [step, threadStep] at hs <;> repeat' split at hs
      all_goals first
        | (simp at hs; done)
        | (simp at hs; subst hs; simp [elapsed])
    rw [key, ih]; simp [elapsed]; omega

/-- Each due event is started after finitely many steps of the scheduler thread, from a thread that looks at the events. -/
theorem due_runs {s : St} (hi : Inv s) (hf : s.force = false) (hth : s.th = .active) {e : Event} (he : e ∈ s.events)
    (hdue : e.time ≤ s.now) : ∃ more s', (∀ a ∈ more, a = Act.thread) ∧ run s more = some s' ∧ e ∈ s'.started := by
  generalize hn : s.events.length = n
  induction n generalizing s with
  | zero => rw [List.length_eq_zero_iff] at hn; rw [hn] at he; simp at he
  | succ n ih =>
    cases hx : s.events.getLast? with
    | none => rw [List.getLast?_eq_none_iff] at hx; rw [hx] at he; simp at he
    | some x =>
      have hle := desc_last hi.desc hx e he
      have hstep : step s .thread = some { s with events := s.events.dropLast, th := .exec x, started := s.started ++ [x] } := by
        simp only [step, hth, threadStep, hf, hx]
        rw [if_neg (by decide), if_neg (by omega)]
      have hd := dropLast_getLast hx
      by_cases hex : e = x
      · exact ⟨[.thread], _, by simp, by simp only [run, hstep]; rfl, by simp [hex]⟩
      · have hmem : e ∈ s.events.dropLast := by
          rw [← hd] at he
          rcases List.mem_append.1 he with h | h
          · exact h
          · simp at h; exact absurd h hex
        have h1 := step_inv hi hstep
        have hstep2 : step { s with events := s.events.dropLast, th := .exec x, started := s.started ++ [x] } .thread =
          some { s with events := s.events.dropLast, th := .active, started := s.started ++ [x] } := rfl
        have h2 := step_inv h1 hstep2
        obtain ⟨more, s', m1, m2, m3⟩ := ih h2 hf rfl hmem hdue (by simp [hn])
        refine ⟨.thread :: .thread :: more, s', ?_, ?_, m3⟩
        · intro a ha
          simp only [List.mem_cons] at ha
          rcases ha with rfl | rfl | ha
          · rfl
          · rfl
          · exact m1 a ha
        · simp only [run, hstep, hstep2, Option.bind_some]; exact m2

/-- **C42**, every event runs: while the scheduler thread lives and `stop()` was not called, each pending event is started
after the clock has reached its due time and the thread has taken finitely many steps.  No other call is needed: the only
other steps are a notification that is already on its way and the end of a `wait_until` whose time has come. -/
theorem C42_every_event_runs {now : Nat} {acts : List Act} {s : St} (h : Reach now acts s) (hf : s.force = false)
    (hth : s.th ≠ .exited) (e : Event) (he : e ∈ s.events) :
    ∃ more s', (∀ a ∈ more, a = .tick (e.time - s.now) ∨ a = .thread ∨ (a = .notify ∧ s.notifies ≠ 0) ∨
        (a = .wake ∧ ∃ t, s.th = .waitUntil t ∧ t ≤ e.time)) ∧
      Reach now (acts ++ more) s' ∧ e ∈ s'.started := by
  have h0 : step s (.tick (e.time - s.now)) = some { s with now := s.now + (e.time - s.now) } := rfl
  have r0 := Reach.step h h0
  have hi := reach_inv h
  have hd : e.time ≤ s.now + (e.time - s.now) := by omega
  have key : ∃ a s1, (a = .tick (e.time - s.now) ∨ a = .thread ∨ (a = .notify ∧ s.notifies ≠ 0) ∨
        (a = .wake ∧ ∃ t, s.th = .waitUntil t ∧ t ≤ e.time)) ∧
      step { s with now := s.now + (e.time - s.now) } a = some s1 ∧ ((s1.th = .active ∧ s1.force = false ∧ e ∈ s1.events ∧ e.time ≤ s1.now)) := by
    cases ht : s.th with
    | exited => exact absurd ht hth
    | active => exact ⟨.tick (e.time - s.now), { s with now := s.now + (e.time - s.now) + (e.time - s.now), th := .active }, Or.inl rfl, rfl, rfl, hf, he, by dsimp only; omega⟩
    | exec x => exact ⟨.thread, { s with now := s.now + (e.time - s.now), th := .active }, Or.inr (Or.inl rfl), by simp only [step], rfl, hf, he, hd⟩
    | waitEmpty =>
      by_cases hn : s.notifies = 0
      · rw [(hi.empty ht hn).1] at he; simp at he
      · exact ⟨.notify, { s with now := s.now + (e.time - s.now), th := .active, notifies := s.notifies - 1 }, Or.inr (Or.inr (Or.inl ⟨rfl, hn⟩)), by simp only [step, notify, hn, if_false], rfl, hf, he, hd⟩
    | waitUntil t =>
      by_cases hn : s.notifies = 0
      · obtain ⟨-, x, hx, rfl⟩ := hi.until_ t ht hn
        exact ⟨.wake, { s with now := s.now + (e.time - s.now), th := .active }, Or.inr (Or.inr (Or.inr ⟨rfl, _, rfl, desc_last hi.desc hx e he⟩)), by simp only [step], rfl, hf, he, hd⟩
      · exact ⟨.notify, { s with now := s.now + (e.time - s.now), th := .active, notifies := s.notifies - 1 }, Or.inr (Or.inr (Or.inl ⟨rfl, hn⟩)), by simp only [step, notify, hn, if_false], rfl, hf, he, hd⟩
  obtain ⟨a, s1, ha, hs1, h1, h2, h3, h4⟩ := key
  have r1 := Reach.step r0 hs1
  obtain ⟨more, s', m1, m2, m3⟩ := due_runs (reach_inv r1) h2 h1 h3 h4
  refine ⟨.tick (e.time - s.now) :: a :: more, s', ?_, ?_, m3⟩
  · intro b hb
    simp only [List.mem_cons] at hb
    rcases hb with rfl | rfl | hb
    · exact Or.inl rfl
    · exact ha
    · exact Or.inr (Or.inl (m1 b hb))
  · have := reach_of_run more _ r1 m2
    simpa using this

/-! ### Events with the same due time -/

theorem insertEvent_last {e : Event} {l : List Event} (h : ∀ x ∈ l, e.time ≤ x.time) :
    (insertEvent e l).getLast? = some e := by
  induction l with
  | nil => rfl
  | cons x xs ih =>
    have h1 := h x (by simp)
    unfold insertEvent
    rw [if_neg (by omega), List.getLast?_cons, ih (fun y hy => h y (by simp [hy]))]
    rfl

theorem flags_reach {now : Nat} {acts : List Act} {s : St} (h : Reach now acts s) :
    (s.soft = true ↔ .softStop ∈ acts) ∧ (s.force = true ↔ .forceStop ∈ acts) ∧ (s.th = .exited → .softStop ∈ acts ∨ .forceStop ∈ acts) := by
  induction h with
  | init => simp [Scheduler.init]
  | @step acts s a s' _ hs ih =>
    obtain ⟨h1, h2, h3⟩ := ih
    have keep : ∀ (t : Th), (t = .exited → s.soft = true ∨ s.force = true ∨ s.th = .exited) → t = .exited → Act.softStop ∈ acts ∨ Act.forceStop ∈ acts := by
      intro t ht e
      rcases ht e with h | h | h
      · exact .inl (h1.1 h)
      · exact .inr (h2.1 h)
      · exact h3 h
    have more : (Act.softStop ∈ acts ∨ Act.forceStop ∈ acts) → Act.softStop ∈ acts ++ [a] ∨ Act.forceStop ∈ acts ++ [a] := by
      intro h; rcases h with h | h
      · exact .inl (List.mem_append_left _ h)
      · exact .inr (List.mem_append_left _ h)
    cases a with
    | enqueue e => simp only [step, Option.some.injEq] at hs; subst hs; simpa using ⟨h1, h2, h3⟩
    | tick d => simp only [step, Option.some.injEq] at hs; subst hs; simpa using ⟨h1, h2, h3⟩
    | softStop => simp only [step, Option.some.injEq] at hs; subst hs; simpa using h2
    | forceStop => simp only [step, Option.some.injEq] at hs; subst hs; simpa using h1
    | notify =>
      simp only [step] at hs
      split at hs
      · simp at hs
      · simp only [Option.some.injEq] at hs
        subst hs
        refine ⟨by simpa using h1, by simpa using h2, fun e => more (keep _ (fun e => ?_) e)⟩
        right; right
        cases ht : s.th <;> simp [ht, Scheduler.notify] at e <;> rfl
    | thread =>
      simp only [step] at hs
      split at hs
      · simp only [Option.some.injEq] at hs
        subst hs
        have hflag : (threadStep s).soft = s.soft ∧ (threadStep s).force = s.force := by
          unfold threadStep
          repeat' split
          all_goals exact ⟨rfl, rfl⟩
        refine ⟨by rw [hflag.1]; simpa using h1, by rw [hflag.2]; simpa using h2, fun e => more (keep _ (fun e => ?_) e)⟩
        unfold threadStep at e
        repeat' split at e
        all_goals first | (simp at e; done) | (rename_i h; exact .inr (.inl h)) | (rename_i h; exact .inl h)
      · simp only [Option.some.injEq] at hs
        subst hs
        exact ⟨by simpa using h1, by simpa using h2, by simp⟩
      · simp at hs
    | wake =>
      simp only [step] at hs
      split at hs
      · simp only [Option.some.injEq] at hs
        subst hs
        exact ⟨by simpa using h1, by simpa using h2, by simp⟩
      · simp only [Option.some.injEq] at hs
        subst hs
        exact ⟨by simpa using h1, by simpa using h2, by simp⟩
      · simp at hs

/-- **C42**, the thread lives: the scheduler thread ends only after the destructor or `stop()` was called. -/
theorem C42_lives {now : Nat} {acts : List Act} {s : St} (h : Reach now acts s) (he : s.th = .exited) : .softStop ∈ acts ∨ .forceStop ∈ acts :=
  (flags_reach h).2.2 he

/-- **C42**, every event runs, without reference to the state of the thread: whatever was called before, except the destructor and `stop()`, each pending event is
started after the clock has reached its due time and the thread has taken finitely many steps. -/
theorem C42_every_event_runs_unless_stopped {now : Nat} {acts : List Act} {s : St} (h : Reach now acts s) (h1 : .softStop ∉ acts) (h2 : .forceStop ∉ acts) (e : Event)
    (he : e ∈ submitted acts) : e ∈ s.started ∨ ∃ more s', (∀ a ∈ more, a = .tick (e.time - s.now) ∨ a = .thread ∨ (a = .notify ∧ s.notifies ≠ 0) ∨
        (a = .wake ∧ ∃ t, s.th = .waitUntil t ∧ t ≤ e.time)) ∧ Reach now (acts ++ more) s' ∧ e ∈ s'.started := by
  by_cases hs : e ∈ s.started
  · exact .inl hs
  · right
    have hp := C42_each_at_most_once h
    refine C42_every_event_runs h ?_ ?_ e ?_
    · cases hf : s.force with
      | false => rfl
      | true => exact absurd ((flags_reach h).2.1.1 hf) h2
    · intro hx
      rcases C42_lives h hx with h | h
      · exact h1 h
      · exact h2 h
    · have := hp.mem_iff (a := e)
      simp only [List.mem_append] at this
      rcases this.1 he with h | h
      · exact absurd h hs
      · exact h

/-- What the code really does: an event submitted with a due time not later than all pending ones, in particular with the
same due time as an earlier one, is started before all of them. -/
theorem C42_equal_times_newest_first (s : St) (e : Event) (he : ∀ x ∈ s.events, e.time ≤ x.time) :
    ∃ s', step s (.enqueue e) = some s' ∧ s'.events.getLast? = some e :=
  ⟨_, rfl, insertEvent_last he⟩

/-- **C42 is violated**: events 1 and 2 have the same due time, 1 is submitted first, 2 runs first. -/
theorem C42_fifo_violated : ∃ s, Reach 0 [.enqueue ⟨5, 1⟩, .enqueue ⟨5, 2⟩, .tick 5, .thread, .thread, .thread] s ∧
    s.started = [⟨5, 2⟩, ⟨5, 1⟩] :=
  ⟨_, .step (.step (.step (.step (.step (.step .init (a := .enqueue ⟨5, 1⟩) rfl) (a := .enqueue ⟨5, 2⟩) rfl)
    (a := .tick 5) rfl) (a := .thread) rfl) (a := .thread) rfl) (a := .thread) rfl, rfl⟩

/-! ### Non-vacuity -/

/-- The thread waits for the event due at 9; an event due at 3 arrives and is executed first. -/
example : ∃ s, run (init 0) [.enqueue ⟨9, 1⟩, .notify, .thread, .enqueue ⟨3, 2⟩, .notify, .thread, .tick 3, .wake, .thread,
    .thread, .softStop, .thread, .tick 6, .wake, .thread, .thread, .thread] = some s ∧
    s.started = [⟨3, 2⟩, ⟨9, 1⟩] ∧ s.th = .exited := ⟨_, rfl, rfl, rfl⟩

/-- A due event while the thread is blocked with an expired timer. -/
example : ∃ s acts e, Reach 0 acts s ∧ s.notifies = 0 ∧ e ∈ s.events ∧ e.time ≤ s.now ∧ s.th = .waitUntil 3 :=
  ⟨_, [.enqueue ⟨3, 1⟩, .notify, .thread, .tick 4], ⟨3, 1⟩, reach_of_run _ [] .init rfl, rfl, by decide, by decide, rfl⟩

/-- The thread sleeps until 9, two events are pending. -/
example : ∃ s, Reach 0 [.enqueue ⟨9, 1⟩, .notify, .enqueue ⟨12, 2⟩, .thread] s ∧ s.force = false ∧ s.th = .waitUntil 9 ∧
    (⟨12, 2⟩ : Event) ∈ s.events :=
  ⟨_, reach_of_run [.enqueue ⟨9, 1⟩, .notify, .enqueue ⟨12, 2⟩, .thread] [] .init rfl, rfl, rfl, by decide⟩

end Verif.Scheduler
