import Verif.Lemmas.Mailbox

/-!
C37-C40: the mailbox and the dynamic executor, for every number of senders and pool threads and every interleaving.

`Reach n acts s` says that the interleaving `acts` of atomic actions leads from the fresh mailbox to `s`.  A state with
`running = [.usrMsg m c]` is one in which a pool thread is inside the actor's `receive` with message `m`.
-/
set_option autoImplicit false

namespace Verif.Mailbox

/-! ### Specification -/

/-- The user messages senders tried to enqueue, in order. -/
def sentUsr (acts : List Act) : List Nat := acts.filterMap fun | .enqUsr m => some m | _ => none

/-- The system messages senders tried to enqueue, in order. -/
def sentSys (acts : List Act) : List Nat := acts.filterMap fun | .enqSys m => some m | _ => none

/-- Some thread is inside the actor's code or about to enter it. -/
def active (s : St) : Nat := s.queued + s.running.length

/-- No thread has anything to do: no sender between enqueue and schedule, no task queued or running. -/
def idle (s : St) : Prop := s.pending = 0 ∧ s.queued = 0 ∧ s.running = []

/-! ### C37 -/

/-- **C37.** Messages of each kind are handed out in the order they were accepted: what was handed out so far followed by
what is still queued is exactly what was accepted; nothing is lost, duplicated or reordered. -/
theorem C37_fifo {n : Nat} {acts : List Act} {s : St} (h : Reach n acts s) :
    s.accUsr = s.popUsr ++ s.usr ∧ s.accSys = s.popSys ++ s.sys :=
  ⟨(reach_inv h).fifoU, (reach_inv h).fifoS⟩

theorem acc_step {n : Nat} {s s' : St} {a : Act} (hs : step n s a = .ok s') (ho : s.isOpen = true) :
    s'.accUsr = s.accUsr ++ sentUsr [a] ∧ s'.accSys = s.accSys ++ sentSys [a] := by
  cases a with
  | enqUsr m => simp [step, enqUsr, ho] at hs; subst hs; simp [sentUsr, sentSys]
  | enqSys m => simp [step, enqSys, ho] at hs; subst hs; simp [sentUsr, sentSys]
  | sched =>
    simp only [step, schedule] at hs
    repeat' split at hs
    all_goals first
      | (simp at hs; done)
      | (simp at hs; subst hs; simp [sentUsr, sentSys])
  | pick =>
    simp only [step] at hs
    repeat' split at hs
    all_goals first
      | (simp at hs; done)
      | (simp at hs; subst hs; simp [sentUsr, sentSys])
  | destroy =>
    simp only [step] at hs
    repeat' split at hs
    all_goals first
      | (simp at hs; done)
      | (simp at hs; subst hs; simp [sentUsr, sentSys])
  | task i o =>
    simp only [step, taskStep, schedule] at hs
    repeat' split at hs
    all_goals first
      | (simp [Res.map] at hs; done)
      | (simp [Res.map] at hs; subst hs; simp [setPC, close, sentUsr, sentSys])

/-- **C37**, acceptance: while the mailbox is open every message sent so far was accepted, in order. -/
theorem C37_accepted_while_open {n : Nat} {acts : List Act} {s : St} (h : Reach n acts s) (ho : s.isOpen = true) :
    s.accUsr = sentUsr acts ∧ s.accSys = sentSys acts := by
  induction h with
  | init => simp [init, sentUsr, sentSys]
  | @step acts s a s' hr hs ih =>
    have ho0 : s.isOpen = true := by
      cases hc : s.isOpen with
      | true => rfl
      | false => rw [closed_stays hs hc] at ho; simp at ho
    obtain ⟨h1, h2⟩ := ih ho0
    obtain ⟨h3, h4⟩ := acc_step hs ho0
    rw [h3, h4, h1, h2]
    simp [sentUsr, sentSys, List.filterMap_append]

/-- **C37**, hand-out: a step changes the list of user messages handed out only by giving one message to the task that
performs the step; at that moment no system message is waiting and the actor has been started. -/
theorem C37_user_after_system_and_start {n : Nat} {acts : List Act} {s s' : St} {a : Act} (_h : Reach n acts s)
    (hs : step n s a = .ok s') (hp : s'.popUsr ≠ s.popUsr) :
    s.sys = [] ∧ s.started = true ∧ ∃ m i o c, a = .task i o ∧ s'.popUsr = s.popUsr ++ [m] ∧
      s.running[i]? = some (.pop c) ∧ s'.running[i]? = some (.usrMsg m c) ∧ s.usr = m :: s'.usr := by
  cases a with
  | enqUsr m => simp only [step, enqUsr, Res.ok.injEq] at hs; split at hs <;> (subst hs; simp at hp)
  | enqSys m => simp only [step, enqSys, Res.ok.injEq] at hs; split at hs <;> (subst hs; simp at hp)
  | sched =>
    simp only [step, schedule] at hs
    repeat' split at hs
    all_goals first
      | (simp at hs; done)
      | (simp at hs; subst hs; simp at hp)
  | pick =>
    simp only [step] at hs
    repeat' split at hs
    all_goals first
      | (simp at hs; done)
      | (simp at hs; subst hs; simp at hp)
  | destroy =>
    simp only [step] at hs
    repeat' split at hs
    all_goals first
      | (simp at hs; done)
      | (simp at hs; subst hs; simp at hp)
  | task i o =>
    simp only [step, taskStep, schedule] at hs
    repeat' split at hs
    all_goals first
      | (simp [Res.map] at hs; done)
      | (simp [Res.map] at hs; subst hs; simp [setPC, close] at hp; done)
      | skip
    rename_i c hi _ hsys _ hst _ m rest husr
    simp at hs; subst hs
    refine ⟨hsys, hst, m, i, o, c, rfl, rfl, hi, ?_, husr⟩
    obtain ⟨hlt, -⟩ := List.getElem?_eq_some_iff.1 hi
    simp [setPC, hlt]

/-- **C37**, start: whenever a user message has been handed out, a successful `start` was processed before. -/
theorem C37_started_before_user {n : Nat} {acts : List Act} {s : St} (h : Reach n acts s) (hp : s.popUsr ≠ []) :
    ∃ i, Act.task i .startOk ∈ acts := started_inv h (Or.inr hp)

/-- An action by which no system message stops the actor. -/
def Act.keeps (a : Act) : Prop := ∀ j, a ≠ .task j .startFail ∧ a ≠ .task j .stopped

theorem open_step {n : Nat} {s s' : St} {a : Act} (ha : a.keeps) (h : s.isOpen = true ∧ PC.closing ∉ s.running) (hs : step n s a = .ok s') :
    s'.isOpen = true ∧ PC.closing ∉ s'.running := by
  have sched : ∀ (t t' : St) (b : Bool), schedule t b = .ok t' → t'.isOpen = t.isOpen ∧ t'.running = t.running := by
    intro t t' b ht
    unfold schedule at ht
    repeat' split at ht
    all_goals first
      | (cases ht; done)
      | (cases ht; exact ⟨rfl, rfl⟩)
  have setp : ∀ (i : Nat) (pc : PC), pc ≠ .closing → PC.closing ∉ s.running.set i pc := by
    intro i pc hne hm
    rcases List.mem_or_eq_of_mem_set hm with hm | hm
    · exact h.2 hm
    · exact hne hm.symm
  cases a with
  | enqUsr m => cases hs; simp only [enqUsr]; split <;> exact h
  | enqSys m => cases hs; simp only [enqSys]; split <;> exact h
  | sched =>
    simp only [step] at hs
    split at hs
    · cases hs
    · obtain ⟨h1, h2⟩ := sched _ _ _ hs
      rw [h1, h2]
      exact h
  | pick =>
    simp only [step] at hs
    repeat' split at hs
    all_goals first
      | (cases hs; done)
      | (cases hs; exact ⟨h.1, by simp [h.2]⟩)
  | destroy =>
    simp only [step] at hs
    split at hs <;> cases hs
    exact h
  | task i o =>
    simp only [step, taskStep] at hs
    split at hs
    · cases hs
    · split at hs
      · cases hs; exact ⟨h.1, setp _ _ (by simp)⟩
      · repeat' split at hs
        all_goals first
          | (cases hs; done)
          | (cases hs; exact ⟨h.1, setp _ _ (by simp)⟩)
    · split at hs
      · cases o with
        | keep => cases hs; exact ⟨h.1, setp _ _ (by simp)⟩
        | startOk => cases hs; exact ⟨h.1, setp _ _ (by simp)⟩
        | startFail => exact absurd rfl (ha i).1
        | stopped => exact absurd rfl (ha i).2
      · cases hs
    · split at hs
      · cases hs
        refine ⟨h.1, setp _ _ ?_⟩
        split <;> simp
      · cases hs
    · cases hq : schedule s true with
      | disabled => rw [hq] at hs; cases hs
      | ub => rw [hq] at hs; cases hs
      | ok t =>
        rw [hq] at hs
        cases hs
        obtain ⟨h1, h2⟩ := sched _ _ _ hq
        refine ⟨h1.trans h.1, fun hm => ?_⟩
        have hm := List.mem_of_mem_eraseIdx hm
        rw [h2] at hm
        exact h.2 hm
    · rename_i hc
      exact absurd (List.mem_of_getElem? hc) h.2
    · cases hs
      exact ⟨h.1, fun hm => h.2 (List.mem_of_mem_eraseIdx hm)⟩

/-- **C37**, the mailbox stays open: as long as no system message stops the actor, its mailbox accepts messages, so that what `C37_fifo`, `C37_accepted_while_open`, `C38_mutual_exclusion` and
`C39_work_is_scheduled` say of open mailboxes holds. -/
theorem C37_stays_open {n : Nat} {acts : List Act} {s : St} (h : Reach n acts s) (ha : ∀ j, Act.task j .startFail ∉ acts ∧ Act.task j .stopped ∉ acts) : s.isOpen = true := by
  have key : s.isOpen = true ∧ PC.closing ∉ s.running := by
    induction h with
    | init => exact ⟨rfl, by simp [init]⟩
    | @step acts s a s' _ hs ih =>
      refine open_step (fun j => ⟨fun he => ?_, fun he => ?_⟩) (ih fun j => ⟨fun hm => (ha j).1 (List.mem_append_left _ hm), fun hm => (ha j).2 (List.mem_append_left _ hm)⟩) hs
      · exact (ha j).1 (by simp [he])
      · exact (ha j).2 (by simp [he])
  exact key.1

/-! ### C38 -/

/-- **C38.** While the mailbox is open at most one executor task is queued or running for it. -/
theorem C38_mutual_exclusion {n : Nat} {acts : List Act} {s : St} (h : Reach n acts s) (ho : s.isOpen = true) :
    active s ≤ 1 := (reach_inv h).excl ho

/-- **C38**, flag: the `scheduled` flag tells exactly whether such a task exists. -/
theorem C38_scheduled_iff {n : Nat} {acts : List Act} {s : St} (h : Reach n acts s) (ho : s.isOpen = true) :
    s.scheduled = true ↔ active s = 1 := (reach_inv h).schedIff ho

/-! ### C39 -/

/-- **C39.** An open mailbox with a message the actor may process has a task queued or running, or some sender is about to
schedule one. -/
theorem C39_work_is_scheduled {n : Nat} {acts : List Act} {s : St} (h : Reach n acts s) (ho : s.isOpen = true)
    (hw : s.sys ≠ [] ∨ (s.started = true ∧ s.usr ≠ [])) : active s = 1 ∨ 0 < s.pending := by
  have hw' : hasWork s = true := by
    unfold hasWork
    rcases hw with hw | ⟨h1, h2⟩
    · split <;> simp [hw]
    · simp [h1, h2, ho]
  rcases (reach_inv h).wake ho hw' with h1 | h1
  · exact Or.inl (((reach_inv h).schedIff ho).1 h1)
  · exact Or.inr h1

/-- **C39**, quiescence: when no thread has anything to do, an open mailbox holds no system message, and no user message
either once the actor has started. -/
theorem C39_idle_means_done {n : Nat} {acts : List Act} {s : St} (h : Reach n acts s) (ho : s.isOpen = true)
    (hi : idle s) : s.sys = [] ∧ (s.started = true → s.usr = []) := by
  have key : ¬ (s.sys ≠ [] ∨ (s.started = true ∧ s.usr ≠ [])) := by
    intro hw
    rcases C39_work_is_scheduled h ho hw with h1 | h1
    · simp [active, hi.2.1, hi.2.2] at h1
    · rw [hi.1] at h1; simp at h1
  refine ⟨?_, fun hst => ?_⟩
  · cases hs : s.sys with
    | nil => rfl
    | cons a l => exact absurd (Or.inl (by simp [hs])) key
  · cases hs : s.usr with
    | nil => rfl
    | cons a l => exact absurd (Or.inr ⟨hst, by simp [hs]⟩) key

/-- **C39**, progress: unless all threads are idle, some thread inside the system can make a step. -/
theorem C39_progress {n : Nat} {acts : List Act} {s : St} (h : Reach n acts s) (ho : s.isOpen = true)
    (hi : ¬ idle s) : ∃ a s', a.internal = true ∧ step n s a = .ok s' := by
  have hub := fun a => no_ub_open (n := n) (reach_inv h) (reach_ainv h) ho a
  have fin : ∀ a : Act, a.internal = true → step n s a ≠ .disabled → ∃ a s', a.internal = true ∧ step n s a = .ok s' := by
    intro a ha hd
    cases hs : step n s a with
    | disabled => exact absurd hs hd
    | ub => exact absurd hs (hub a)
    | ok s' => exact ⟨a, s', ha, hs⟩
  by_cases hp : s.pending = 0
  · by_cases hq : s.queued = 0
    · have hr : s.running ≠ [] := fun hr => hi ⟨hp, hq, hr⟩
      refine fin (.task 0 .keep) rfl ?_
      cases hrun : s.running with
      | nil => exact absurd hrun hr
      | cons pc rest =>
        simp only [step, taskStep, hrun, List.getElem?_cons_zero, schedule]
        cases pc <;> simp only [] <;> repeat' split
        all_goals simp [Res.map]
    · refine fin .pick rfl ?_
      simp only [step, hq, if_false]
      split <;> simp
  · refine fin .sched rfl ?_
    simp only [step, hp, if_false, schedule]
    repeat' split
    all_goals simp

/-- Number of steps that threads inside the system can make, while the mailbox stays open and nobody sends. -/
theorem internal_bound {n : Nat} : ∀ (acts : List Act) {s s' : St}, Inv s →
    run n s acts = .ok s' → (∀ a ∈ acts, a.internal = true) → s'.isOpen = true → acts.length + measure s' ≤ measure s
  | [], s, s', _, hs, _, _ => by simp [run] at hs; subst hs; simp
  | a :: as, s, s', h, hs, hi, ho => by
    unfold run at hs
    split at hs
    · rename_i s1 hs1
      have h1 : Inv s1 := step_inv h hs1
      have := internal_bound as h1 hs (fun b hb => hi b (by simp [hb])) ho
      have ho1 : s1.isOpen = true := by
        cases hc : s1.isOpen with
        | true => rfl
        | false =>
          exfalso
          have : ∀ (as : List Act) (s1 : St), s1.isOpen = false → run n s1 as = .ok s' → s'.isOpen = false := by
            intro as
            induction as with
            | nil => intro s1 h1 h2; simp [run] at h2; rw [← h2]; exact h1
            | cons b bs ih =>
              intro s1 h1 h2
              unfold run at h2
              split at h2
              · rename_i s2 hs2; exact ih s2 (closed_stays hs2 h1) h2
              · rename_i r hr; exact absurd h2 (hr s')
          rw [this as s1 hc hs] at ho; simp at ho
      have := step_measure h hs1 (hi a (by simp)) ho1
      simp only [List.length_cons]
      omega
    · rename_i r hr; exact absurd hs (hr s')

/-- **C39**, termination: from any reachable state there is a bound on the number of steps that the threads inside the
system can make while the mailbox stays open and no new message arrives.  Together with `C39_progress` the system always
becomes idle, and then, by `C39_idle_means_done`, every processable message has been processed. -/
theorem C39_terminates {n : Nat} {acts : List Act} {s : St} (h : Reach n acts s) :
    ∃ bound, ∀ as s', (∀ a ∈ as, a.internal = true) → run n s as = .ok s' → s'.isOpen = true → as.length ≤ bound :=
  ⟨measure s, fun as _ hi hs ho => by have := internal_bound as (reach_inv h) hs hi ho; omega⟩

/-! ### C40

The property is false of the code: a sender that enqueued before the stop may call `schedule_for_execution` after the cell
is gone. -/

/-- Sender A enqueues user message 7 (not yet scheduled); sender B enqueues the system message `stop` (9) and schedules;
the pool runs the stop, the parent destroys the cell, the mailbox is closed; then A reaches `schedule_for_execution`. -/
def uafTrace : List Act :=
  [.enqUsr 7, .enqSys 9, .sched, .pick, .task 0 .keep, .task 0 .stopped, .destroy, .task 0 .keep, .task 0 .keep, .sched]

/-- **C40 is violated**: an execution ends with an access to the destroyed cell. -/
theorem C40_use_after_free_violated (n : Nat) : run n init uafTrace = .ub := by
  simp [run, uafTrace, step, init, enqUsr, enqSys, schedule, hasWork, taskStep, setPC, close, Res.map]

/-- Like `uafTrace`, but the parent is slow to destroy the cell and a system message (8) was left in the queue: the late
`sched` makes the pool run the stopped actor again. -/
def zombieTrace : List Act :=
  [.enqUsr 7, .enqSys 9, .sched, .enqSys 8, .pick, .task 0 .keep, .task 0 .stopped, .task 0 .keep, .task 0 .keep,
   .sched, .pick, .task 0 .keep]

/-- **C40 is violated**: a stopped actor with a closed mailbox processes another system message. -/
theorem C40_runs_after_stop_violated (n : Nat) :
    ∃ s, run n init zombieTrace = .ok s ∧ s.isOpen = false ∧ s.detached = true ∧ s.running = [.sysMsg 8 0] := 
  ⟨_, rfl, rfl, rfl, rfl⟩

/-- Executions in which no sender is between its enqueue and its schedule call at the moment the mailbox is closed. -/
inductive ReachQuiet (n : Nat) : List Act → St → Prop
  | init : ReachQuiet n [] init
  | step {acts s a s'} : ReachQuiet n acts s → step n s a = .ok s' →
      (s.isOpen = true → s'.isOpen = false → s.pending = 0) → ReachQuiet n (acts ++ [a]) s'

theorem ReachQuiet.reach {n : Nat} {acts : List Act} {s : St} (h : ReachQuiet n acts s) : Reach n acts s := by
  induction h with
  | init => exact .init
  | step _ hs _ ih => exact .step ih hs

def QInv (s : St) : Prop := s.isOpen = false → s.pending = 0 ∧ s.queued = 0 ∧ ∀ pc ∈ s.running, pc = PC.notify

theorem closing_step {n : Nat} {s s' : St} {a : Act} (hs : step n s a = .ok s') (ho : s.isOpen = true)
    (hc : s'.isOpen = false) : ∃ i o, a = .task i o ∧ s.running[i]? = some .closing ∧ s' = setPC (close s) i .notify := by
  cases a with
  | enqUsr m => simp [step, enqUsr, ho] at hs; subst hs; simp [ho] at hc
  | enqSys m => simp [step, enqSys, ho] at hs; subst hs; simp [ho] at hc
  | sched =>
    simp only [step, schedule] at hs
    repeat' split at hs
    all_goals first
      | (simp at hs; done)
      | (simp at hs; subst hs; simp [ho] at hc)
  | pick =>
    simp only [step] at hs
    repeat' split at hs
    all_goals first
      | (simp at hs; done)
      | (simp at hs; subst hs; simp [ho] at hc)
  | destroy =>
    simp only [step] at hs
    repeat' split at hs
    all_goals first
      | (simp at hs; done)
      | (simp at hs; subst hs; simp [ho] at hc)
  | task i o =>
    simp only [step, taskStep, schedule] at hs
    repeat' split at hs
    all_goals first
      | (simp [Res.map] at hs; done)
      | (simp [Res.map] at hs; subst hs; simp [setPC, ho] at hc; done)
      | skip
    rename_i hi
    simp at hs
    exact ⟨i, o, rfl, hi, hs.symm⟩

theorem closed_task {n : Nat} {s : St} {i : Nat} {o : Outcome} {r : Res} (hq : ∀ pc ∈ s.running, pc = PC.notify)
    (hs : taskStep n s i o = r) : r = .disabled ∨ r = .ok { s with running := s.running.eraseIdx i } := by
  unfold taskStep at hs
  cases hi : s.running[i]? with
  | none => rw [hi] at hs; exact Or.inl hs.symm
  | some pc =>
    have := hq pc (List.mem_of_getElem? hi)
    subst this
    rw [hi] at hs
    exact Or.inr hs.symm

theorem quiet_inv {n : Nat} {acts : List Act} {s : St} (h : ReachQuiet n acts s) : QInv s := by
  induction h with
  | init => simp [QInv, init]
  | @step acts s a s' hr hs hquiet ih =>
    intro hc
    cases ho : s.isOpen with
    | true =>
      obtain ⟨i, o, rfl, hi, rfl⟩ := closing_step hs ho hc
      obtain ⟨rfl, h2, h3, -⟩ := running_single (reach_inv hr.reach) ho hi
      refine ⟨hquiet ho hc, h3, ?_⟩
      simp [setPC, close, h2]
    | false =>
      obtain ⟨h1, h2, h3⟩ := ih ho
      cases a with
      | enqUsr m => simp [step, enqUsr, ho] at hs; subst hs; exact ⟨h1, h2, h3⟩
      | enqSys m => simp [step, enqSys, ho] at hs; subst hs; exact ⟨h1, h2, h3⟩
      | sched => simp [step, h1] at hs
      | pick => simp [step, h2] at hs
      | destroy =>
        simp only [step] at hs
        split at hs
        · simp at hs; subst hs; exact ⟨h1, h2, h3⟩
        · simp at hs
      | task i o =>
        rcases closed_task h3 (by simpa [step] using hs) with h4 | h4
        · simp at h4
        · simp at h4; subst h4
          exact ⟨h1, h2, fun pc hpc => h3 pc (List.mem_of_mem_eraseIdx hpc)⟩

/-- **C40**, the part that holds: if no sender is between its enqueue and its schedule call when the mailbox is closed, then
no action ever accesses a destroyed cell, and after the close no message is handed out and no thread is inside the actor.
What is missing is the case of such a sender, for which the property is false (`C40_use_after_free_violated`). -/
theorem C40_stopped_never_touched_partial {n : Nat} {acts : List Act} {s : St} (h : ReachQuiet n acts s) (a : Act) :
    step n s a ≠ .ub ∧
    (s.isOpen = false → (∀ pc ∈ s.running, pc = PC.notify) ∧
      ∀ s', step n s a = .ok s' → s'.popUsr = s.popUsr ∧ s'.popSys = s.popSys) := by
  cases ho : s.isOpen with
  | true =>
    exact ⟨no_ub_open (reach_inv h.reach) (reach_ainv h.reach) ho a, by simp⟩
  | false =>
    obtain ⟨h1, h2, h3⟩ := quiet_inv h ho
    refine ⟨?_, fun _ => ⟨h3, ?_⟩⟩
    · cases a with
      | enqUsr m => simp [step]
      | enqSys m => simp [step]
      | sched => simp [step, h1]
      | pick => simp [step, h2]
      | destroy => simp only [step]; split <;> simp
      | task i o =>
        intro hs
        rcases closed_task h3 (by simpa [step] using hs) with h4 | h4 <;> simp at h4
    · intro s' hs
      cases a with
      | enqUsr m => simp [step, enqUsr, ho] at hs; subst hs; simp
      | enqSys m => simp [step, enqSys, ho] at hs; subst hs; simp
      | sched => simp [step, h1] at hs
      | pick => simp [step, h2] at hs
      | destroy =>
        simp only [step] at hs
        split at hs
        · simp at hs; subst hs; simp
        · simp at hs
      | task i o =>
        rcases closed_task h3 (by simpa [step] using hs) with h4 | h4
        · simp at h4
        · simp at h4; subst h4; simp

/-- **C40**, unconditional part: as long as the mailbox is open, no action of any thread accesses a destroyed cell. -/
theorem C40_open_never_ub {n : Nat} {acts : List Act} {s : St} (h : Reach n acts s) (ho : s.isOpen = true) (a : Act) :
    step n s a ≠ .ub := no_ub_open (reach_inv h) (reach_ainv h) ho a

/-! ### Non-vacuity -/

theorem reach_of_run {n : Nat} : ∀ (as acts : List Act) {s s' : St}, Reach n acts s → run n s as = .ok s' →
    Reach n (acts ++ as) s'
  | [], acts, s, s', h, hs => by simp [run] at hs; subst hs; simpa using h
  | a :: as, acts, s, s', h, hs => by
    unfold run at hs
    split at hs
    · rename_i s1 hs1
      have := reach_of_run as (acts ++ [a]) (.step h hs1) hs
      simpa using this
    · rename_i r hr; exact absurd hs (hr s')

/-- Start message 1, two user messages 5 and 6 from different senders; the start and message 5 have been handed out, 6 still
queued, and a third sender is about to schedule. -/
def demo : List Act :=
  [.enqSys 1, .enqUsr 5, .sched, .pick, .enqUsr 6, .task 0 .keep, .task 0 .startOk, .task 0 .keep]

example : ∃ s, Reach 5 demo s ∧ s.isOpen = true ∧ s.popSys = [1] ∧ s.popUsr = [5] ∧ s.usr = [6] ∧
    s.running = [.usrMsg 5 0] ∧ s.pending = 1 := by
  refine ⟨_, reach_of_run demo [] .init rfl, rfl, rfl, rfl, rfl, rfl, rfl⟩

/-- No action of it stops the actor. -/
example : ∀ j, Act.task j .startFail ∉ demo ∧ Act.task j .stopped ∉ demo := by
  intro j
  simp [demo]

/-- An idle open mailbox after all messages were processed. -/
example : ∃ s acts, Reach 5 acts s ∧ s.isOpen = true ∧ idle s ∧ s.popUsr = [5, 6] ∧ s.started = true := by
  refine ⟨_, demo ++ [.sched, .task 0 .keep, .task 0 .keep, .task 0 .keep, .task 0 .keep, .task 0 .keep],
    reach_of_run _ [] .init rfl, rfl, ⟨rfl, rfl, rfl⟩, rfl, rfl⟩

/-- A quiet close. -/
example : ∃ s acts, ReachQuiet 5 acts s ∧ s.isOpen = false ∧ s.alive = false ∧ s.usr = [5] := by
  refine ⟨_, _, .step (.step (.step (.step (.step (.step (.step (.step (.step .init (a := .enqSys 1) rfl (by decide))
    (a := .sched) rfl (by decide)) (a := .pick) rfl (by decide)) (a := .enqUsr 5) rfl (by decide)) (a := .task 0 .keep) rfl (by decide))
    (a := .task 0 .stopped) rfl (by decide)) (a := .destroy) rfl (by decide)) (a := .task 0 .keep) rfl (by decide))
    (a := .task 0 .keep) rfl (by decide), rfl, rfl, rfl⟩

/-! ### After the end -/

theorem unstarted_step {n : Nat} {s s' : St} {a : Act} (hs : step n s a = .ok s') (h : s.started = false) (ha : ∀ i, a ≠ .task i .startOk) :
    s'.started = false ∧ s'.popUsr = s.popUsr := by
  cases a with
  | enqUsr m => simp only [step, enqUsr, Res.ok.injEq] at hs; split at hs <;> (subst hs; simp [h])
  | enqSys m => simp only [step, enqSys, Res.ok.injEq] at hs; split at hs <;> (subst hs; simp [h])
  | sched =>
    simp only [step, schedule] at hs
    split at hs
    · simp at hs
    · split at hs
      · split at hs
        · split at hs <;> (simp at hs; subst hs; simp [h])
        · simp at hs
      · simp at hs; subst hs; simp [h]
  | pick =>
    simp only [step] at hs
    split at hs
    · simp at hs
    · split at hs
      · simp at hs; subst hs; simp [h]
      · simp at hs
  | destroy =>
    simp only [step] at hs
    split at hs
    · simp at hs; subst hs; simp [h]
    · simp at hs
  | task i o =>
    simp only [step] at hs
    unfold taskStep at hs
    split at hs
    · simp at hs
    · split at hs
      · simp at hs; subst hs; simp [setPC, h]
      · split at hs
        · rw [if_neg (by simp [h])] at hs
          simp at hs; subst hs; simp [setPC, h]
        · simp at hs
    · split at hs
      · split at hs
        · simp at hs; subst hs; simp [setPC, h]
        · exact absurd rfl (ha i)
        · simp at hs; subst hs; simp [setPC]
        · simp at hs; subst hs; simp [setPC]
      · simp at hs
    · split at hs
      · simp at hs; subst hs; simp [setPC, h]
      · simp at hs
    · unfold schedule at hs
      simp only [Bool.or_true, if_true] at hs
      split at hs
      · split at hs <;> (simp only [Res.map, Res.ok.injEq] at hs; subst hs; simp [h])
      · simp [Res.map] at hs
    · simp at hs; subst hs; simp [setPC, close, h]
    · simp at hs; subst hs; simp [h]

/-- **C37**, after the end: when the actor's start has failed or it has stopped, it is handed no further user message
(unless it were started again), whatever happens. -/
theorem C37_nothing_after_stop {n : Nat} {s s₀ s' : St} {i m c : Nat} {o : Outcome} {acts : List Act}
    (hi : s.running[i]? = some (.sysMsg m c)) (ho : o = .startFail ∨ o = .stopped) (hs : step n s (.task i o) = .ok s₀)
    (hr : run n s₀ acts = .ok s') (ha : ∀ j, Act.task j .startOk ∉ acts) : s'.popUsr = s.popUsr := by
  have h0 : s₀.started = false ∧ s₀.popUsr = s.popUsr := by
    simp only [step, taskStep, hi] at hs
    split at hs
    · rcases ho with rfl | rfl <;> (simp at hs; subst hs; simp [setPC])
    · simp at hs
  have key : ∀ (acts : List Act) (x y : St), x.started = false → run n x acts = .ok y → (∀ j, Act.task j .startOk ∉ acts) → y.popUsr = x.popUsr := by
    intro acts
    induction acts with
    | nil => intro x y _ hr _; simp [run] at hr; rw [hr]
    | cons a as ih =>
      intro x y hx hr ha
      simp only [run] at hr
      split at hr
      · rename_i z hz
        have hne : ∀ j, a ≠ .task j .startOk := fun j e => ha j (by rw [e]; simp)
        obtain ⟨h1, h2⟩ := unstarted_step hz hx hne
        rw [ih z y h1 hr (fun j hj => ha j (List.mem_cons_of_mem _ hj)), h2]
      · rename_i hne; exact absurd hr (hne y)
  rw [key acts s₀ s' h0.1 hr ha, h0.2]

/-- A failed start with a user message waiting: the message is never handed out. -/
example : (match run 5 init [.enqSys 0, .enqUsr 7, .sched, .pick, .task 0 .keep, .task 0 .startFail, .enqUsr 8, .enqSys 1, .task 0 .keep, .sched, .pick, .task 1 .keep, .task 1 .keep, .task 1 .keep] with
    | .ok s => (s.popUsr, s.usr, s.popSys, s.running) | _ => ([], [], [], [])) = ([], [7, 8], [0, 1], [.notify, .resched]) := by decide +kernel

/-- An actor that has started stays so until its start fails or it stops. -/
theorem started_step {n : Nat} {s s' : St} {a : Act} (hs : step n s a = .ok s') (h : s.started = true)
    (ha : ∀ j, a ≠ .task j .startFail ∧ a ≠ .task j .stopped) : s'.started = true := by
  cases a with
  | enqUsr m => simp only [step, enqUsr, Res.ok.injEq] at hs; split at hs <;> (subst hs; exact h)
  | enqSys m => simp only [step, enqSys, Res.ok.injEq] at hs; split at hs <;> (subst hs; exact h)
  | sched =>
    simp only [step, schedule] at hs
    repeat' split at hs
    all_goals first
      | (simp at hs; done)
      | (simp at hs; subst hs; exact h)
  | pick =>
    simp only [step] at hs
    repeat' split at hs
    all_goals first
      | (simp at hs; done)
      | (simp at hs; subst hs; exact h)
  | destroy =>
    simp only [step] at hs
    repeat' split at hs
    all_goals first
      | (simp at hs; done)
      | (simp at hs; subst hs; exact h)
  | task i o =>
    have h1 := (ha i).1
    have h2 := (ha i).2
    simp only [step, taskStep, schedule] at hs
    repeat' split at hs
    all_goals first
      | (simp [Res.map] at hs; done)
      | (simp [Res.map] at hs; subst hs; simp [setPC, close, h]; done)
      | exact absurd rfl h1
      | exact absurd rfl h2

theorem started_run {n : Nat} : ∀ (acts : List Act) {s s' : St}, run n s acts = .ok s' → s.started = true →
    (∀ j, Act.task j .startFail ∉ acts ∧ Act.task j .stopped ∉ acts) → s'.started = true
  | [], s, s', hr, h, _ => by simp [run] at hr; rw [← hr]; exact h
  | a :: as, s, s', hr, h, ha => by
    simp only [run] at hr
    split at hr
    · rename_i z hz
      refine started_run as hr (started_step hz h fun j => ⟨fun e => (ha j).1 (by rw [e]; simp), fun e => (ha j).2 (by rw [e]; simp)⟩)
        fun j => ⟨fun e => (ha j).1 (List.mem_cons_of_mem _ e), fun e => (ha j).2 (List.mem_cons_of_mem _ e)⟩
    · rename_i hne; exact absurd hr (hne s')

/-- **C39**, delivery: if the actor processed a successful start, did not stop since, its mailbox is open and no thread has
anything to do, then every message ever sent, before or after the start, was handed to the actor, in the order of sending. -/
theorem C39_delivered {n : Nat} {acts bs : List Act} {s s₀ s' : St} {i m c : Nat} (h : Reach n acts s)
    (hi : s.running[i]? = some (.sysMsg m c)) (hs : step n s (.task i .startOk) = .ok s₀) (hr : run n s₀ bs = .ok s')
    (hb : ∀ j, Act.task j .startFail ∉ bs ∧ Act.task j .stopped ∉ bs) (ho : s'.isOpen = true) (hd : idle s') :
    s'.popUsr = sentUsr (acts ++ bs) ∧ s'.popSys = sentSys (acts ++ bs) := by
  have h0 : s₀.started = true := by
    simp only [step, taskStep, hi] at hs
    split at hs
    · simp at hs; subst hs; rfl
    · simp at hs
  have hst := started_run bs hr h0 hb
  have hr' := reach_of_run bs _ (.step h hs) hr
  obtain ⟨h1, h2⟩ := C39_idle_means_done hr' ho hd
  obtain ⟨f1, f2⟩ := C37_fifo hr'
  obtain ⟨g1, g2⟩ := C37_accepted_while_open hr' ho
  rw [h2 hst, List.append_nil, g1] at f1
  rw [h1, List.append_nil, g2] at f2
  refine ⟨f1.symm.trans ?_, f2.symm.trans ?_⟩ <;> simp [sentUsr, sentSys]

/-- A user message sent before the start and one sent after it are both handed out. -/
example : ∃ s s₀ s', Reach 5 [.enqUsr 7, .sched, .enqSys 0, .sched, .pick, .task 0 .keep] s ∧ s.running[0]? = some (.sysMsg 0 0) ∧
    step 5 s (.task 0 .startOk) = .ok s₀ ∧
    run 5 s₀ [.task 0 .keep, .task 0 .keep, .enqUsr 8, .task 0 .keep, .task 0 .keep, .task 0 .keep, .task 0 .keep] = .ok s' ∧
    s'.isOpen = true ∧ idle s' ∧ s'.popUsr = [7, 8] ∧ s'.popSys = [0] :=
  ⟨_, _, _, reach_of_run [.enqUsr 7, .sched, .enqSys 0, .sched, .pick, .task 0 .keep] [] .init rfl, rfl, rfl, rfl, rfl, ⟨rfl, rfl, rfl⟩, rfl, rfl⟩

end Verif.Mailbox
