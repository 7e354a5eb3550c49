import Verif.Lemmas.ThreadPool

/-!
C41: the thread pool, for every number of workers, every list of tasks and every interleaving.
-/
set_option autoImplicit false

namespace Verif.ThreadPool

/-! ### Specification -/

/-- The tasks handed to `enqueue`, in order. -/
def submitted (acts : List Act) : List Nat := acts.filterMap fun | .enqueue t _ => some t | _ => none

/-- Number of workers currently running task `t`. -/
def runningCount (s : St) (t : Nat) : Nat := s.workers.countP (· = .exec t)

/-! ### Theorems -/

theorem accepted_eq_submitted {threads : Nat} {acts : List Act} {s : St} (h : Reach threads acts s) :
    s.accepted = submitted acts := by
  induction h with
  | init => rfl
  | @step acts s a s' _ hs ih =>
    have key : s'.accepted = s.accepted ++ submitted [a] := by
      cases a with
      | enqueue t wake =>
        simp only [step] at hs
        repeat' split at hs
        all_goals first
          | (simp at hs; done)
          | (simp at hs; subst hs; simp [submitted])
      | stop =>
        simp only [step] at hs
        repeat' split at hs
        all_goals first
          | (simp at hs; done)
          | (simp at hs; subst hs; simp [submitted])
      | check i =>
        simp only [step] at hs
        repeat' split at hs
        all_goals first
          | (simp at hs; done)
          | (simp at hs; subst hs; simp [submitted])
      | finish i b =>
        simp only [step] at hs
        repeat' split at hs
        all_goals first
          | (simp at hs; done)
          | (simp at hs; subst hs; simp [submitted])
      | spurious i =>
        simp only [step] at hs
        repeat' split at hs
        all_goals first
          | (simp at hs; done)
          | (simp at hs; subst hs; simp [submitted])
    rw [key, ih]
    simp [submitted, List.filterMap_append]

/-- **C41**, order: the tasks started so far, followed by those still queued, are exactly the submitted ones in order. -/
theorem C41_starts_in_order {threads : Nat} {acts : List Act} {s : St} (h : Reach threads acts s) :
    submitted acts = s.started ++ s.queue := by
  rw [← accepted_eq_submitted h]; exact (reach_inv h).fifo

/-- **C41**, exactly once: every start of a task corresponds to one worker still running it or to one completion. -/
theorem C41_started_once {threads : Nat} {acts : List Act} {s : St} (h : Reach threads acts s) (t : Nat) :
    s.started.count t = s.finished.count t + runningCount s t := (reach_inv h).once t

/-- **C41**, destruction, for pools with at least one worker whose tasks do not throw: when the destructor has joined all
workers, the finished tasks are exactly the submitted ones.  Missing: pools of zero workers, for which the claim is false
(`C41_zero_workers_violated`), and throwing tasks, which are undefined behaviour (`C41_throwing_task_violated`). -/
theorem C41_destroyed_all_ran_partial {threads : Nat} {acts : List Act} {s : St} (ht : 0 < threads)
    (h : Reach threads acts s) (hd : destroyed s) : s.finished.Perm (submitted acts) ∧ s.started = submitted acts := by
  have hi := reach_inv h
  have hl := hi.len
  have hmem : W.done ∈ s.workers := by
    cases hw : s.workers with
    | nil => rw [hw] at hl; simp at hl; omega
    | cons w ws => have := hd.2 w (by simp [hw]); subst this; simp
  have hq := (hi.doneStop hmem).2
  have hst : s.started = submitted acts := by rw [C41_starts_in_order h, hq]; simp
  refine ⟨?_, hst⟩
  rw [List.perm_iff_count]
  intro t
  have h1 := hi.once t
  have h0 : nExec s t = 0 := by
    simp only [nExec, List.countP_eq_zero]
    intro w hw
    simp [hd.2 w hw]
  rw [← hst, h1, h0]; simp

/-- **C41**, no lost wake-up: as long as some worker is blocked, every queued task has a worker that is awake and about to
look at the queue. -/
theorem C41_work_conserving {threads : Nat} {acts : List Act} {s : St} (h : Reach threads acts s)
    (hw : W.wait ∈ s.workers) : s.queue.length ≤ s.workers.countP (· = .check) :=
  (reach_inv h).conserve (nWait_pos.2 hw)

/-- **C41**, no deadlock: if a task is queued, or the destructor is waiting, some worker can make a step. -/
theorem C41_progress {threads : Nat} {acts : List Act} {s : St} (ht : 0 < threads) (h : Reach threads acts s)
    (hq : s.queue ≠ [] ∨ (s.stop = true ∧ ¬ destroyed s)) :
    ∃ i s', step s (.check i) = .ok s' ∨ step s (.finish i false) = .ok s' := by
  have hi := reach_inv h
  -- a worker that is neither blocked nor finished can step
  have key : ∀ w ∈ s.workers, w ≠ .wait → w ≠ .done →
      ∃ i s', step s (.check i) = .ok s' ∨ step s (.finish i false) = .ok s' := by
    intro w hw h1 h2
    obtain ⟨i, hl, hiw⟩ := List.mem_iff_getElem.1 hw
    have hget : s.workers[i]? = some w := by rw [List.getElem?_eq_getElem hl, hiw]
    refine ⟨i, ?_⟩
    cases w with
    | wait => exact absurd rfl h1
    | done => exact absurd rfl h2
    | check =>
      cases hqq : s.queue with
      | nil =>
        cases hst : s.stop with
        | true => exact ⟨_, Or.inl (by simp [step, hget, hqq, hst]; rfl)⟩
        | false => exact ⟨_, Or.inl (by simp [step, hget, hqq, hst]; rfl)⟩
      | cons t q => exact ⟨_, Or.inl (by simp [step, hget, hqq]; rfl)⟩
    | exec t => exact ⟨_, Or.inr (by simp [step, hget]; rfl)⟩
  rcases hq with hq | ⟨hst, hnd⟩
  · have hnodone : W.done ∉ s.workers := fun hd => hq (hi.doneStop hd).2
    by_cases hw : W.wait ∈ s.workers
    · have h1 := hi.conserve (nWait_pos.2 hw)
      have h2 : 0 < s.queue.length := List.length_pos_iff.2 hq
      have h3 : 0 < s.workers.countP (· = .check) := by simp only [nCheck] at h1; omega
      obtain ⟨w, hw1, hw2⟩ := List.countP_pos_iff.1 h3
      simp at hw2; subst hw2
      exact key _ hw1 (by simp) (by simp)
    · cases hws : s.workers with
      | nil => have := hi.len; rw [hws] at this; simp at this; omega
      | cons w ws =>
        have hm : w ∈ s.workers := by simp [hws]
        exact key w hm (fun h => hw (h ▸ hm)) (fun h => hnodone (h ▸ hm))
  · have hnw := hi.stopWait hst
    have : ∃ w ∈ s.workers, w ≠ W.done := by
      refine Classical.byContradiction fun hno => hnd ⟨hst, fun w hw => ?_⟩
      exact Classical.byContradiction fun hne => hno ⟨w, hw, hne⟩
    obtain ⟨w, hw, hne⟩ := this
    exact key w hw (fun h => hnw (h ▸ hw)) hne

/-! Termination of the destructor. -/

def W.weight : W → Nat
  | .check => 1
  | .wait => 2
  | .exec _ => 2
  | .done => 0

def drainMeasure (s : St) : Nat := 3 * s.queue.length + (s.workers.map W.weight).sum

theorem sum_set {ws : List W} {i : Nat} {w w' : W} (h : ws[i]? = some w) :
    ((ws.set i w').map W.weight).sum + w.weight = (ws.map W.weight).sum + w'.weight := by
  induction ws generalizing i with
  | nil => simp at h
  | cons x xs ih =>
    cases i with
    | zero => simp at h; subst h; simp; omega
    | succ i => simp at h; have := ih h; simp only [List.set_cons_succ, List.map_cons, List.sum_cons]; omega

/-- **C41**, the destructor returns: after `stop` each step of a worker decreases a natural number, so with
`C41_progress` all workers terminate. -/
theorem C41_drain_terminates {s s' : St} {i : Nat} (hst : s.stop = true)
    (hs : step s (.check i) = .ok s' ∨ step s (.finish i false) = .ok s') : drainMeasure s' < drainMeasure s := by
  rcases hs with hs | hs
  · simp only [step] at hs
    split at hs
    · rename_i hi
      split at hs
      · rename_i hq
        simp [hst] at hs; subst hs
        have := sum_set (w' := .done) hi
        simp only [W.weight] at this
        simp only [drainMeasure]; omega
      · rename_i t q hq
        simp at hs; subst hs
        have := sum_set (w' := .exec t) hi
        simp only [W.weight] at this
        simp only [drainMeasure, hq, List.length_cons]; omega
    · simp at hs
  · simp only [step] at hs
    split at hs
    · rename_i t hi
      simp at hs; subst hs
      have := sum_set (w' := .check) hi
      simp only [W.weight] at this
      simp only [drainMeasure]; omega
    · simp at hs

/-- Once the destructor has begun, the flag stays set. -/
theorem stop_of_mem {threads : Nat} {acts : List Act} {s : St} (h : Reach threads acts s) (hm : Act.stop ∈ acts) :
    s.stop = true := by
  induction h with
  | init => simp at hm
  | @step acts s a s' _ hs ih =>
    rcases List.mem_append.1 hm with hm | hm
    · have h1 := ih hm
      cases a <;> simp only [step] at hs <;> repeat' split at hs
      all_goals first
        | (cases hs; done)
        | (cases hs; first | exact h1 | rfl)
    · simp at hm; subst hm
      simp only [step] at hs
      split at hs
      · cases hs
      · cases hs; rfl

/-- **C41**, the destructor returns and everything ran, for a pool of at least one worker: from every state in which the
destructor has begun, the workers, taking steps in any order as long as one of them can, reach the state in which all of
them have left their loops, and then the finished tasks are exactly the submitted ones. -/
theorem C41_destructor_returns {threads : Nat} {acts : List Act} {s : St} (ht : 0 < threads) (h : Reach threads acts s)
    (hm : Act.stop ∈ acts) :
    ∃ more s', (∀ a ∈ more, ∃ i, a = .check i ∨ a = .finish i false) ∧ more.length ≤ drainMeasure s ∧
      Reach threads (acts ++ more) s' ∧ destroyed s' ∧ s'.finished.Perm (submitted acts) := by
  generalize hn : drainMeasure s = n
  induction n using Nat.strongRecOn generalizing acts s with
  | ind n ih =>
    have hst := stop_of_mem h hm
    by_cases hd : destroyed s
    · exact ⟨[], s, by simp, by simp, by simpa using h, hd, (C41_destroyed_all_ran_partial ht h hd).1⟩
    · obtain ⟨i, s1, hs⟩ := C41_progress ht h (Or.inr ⟨hst, hd⟩)
      have hlt := C41_drain_terminates hst hs
      have key : ∃ a, (a = .check i ∨ a = .finish i false) ∧ step s a = .ok s1 := by
        rcases hs with hs | hs
        · exact ⟨_, Or.inl rfl, hs⟩
        · exact ⟨_, Or.inr rfl, hs⟩
      obtain ⟨a, ha, hsa⟩ := key
      obtain ⟨more, s', h1, h2, h3, h4, h5⟩ := ih _ (hn ▸ hlt) (.step h hsa) (by simp [hm]) rfl
      refine ⟨a :: more, s', ?_, ?_, by simpa using h3, h4, ?_⟩
      · intro b hb
        rcases List.mem_cons.1 hb with rfl | hb
        · exact ⟨i, ha⟩
        · exact h1 b hb
      · simp only [List.length_cons]; omega
      · have : submitted (acts ++ [a]) = submitted acts := by
          rcases ha with rfl | rfl <;> simp [submitted]
        rwa [this] at h5

/-- Until the destructor begins the flag is clear. -/
theorem not_stop {threads : Nat} {acts : List Act} {s : St} (h : Reach threads acts s) (hm : Act.stop ∉ acts) : s.stop = false := by
  induction h with
  | init => rfl
  | @step acts s a s' _ hs ih =>
    simp only [List.mem_append, List.mem_singleton, not_or] at hm
    have h1 := ih hm.1
    cases a <;> simp only [step] at hs <;> repeat' split at hs
    all_goals first
      | (cases hs; done)
      | (cases hs; exact h1)
      | exact absurd rfl hm.2

/-- **C41**, tasks are accepted: until the destructor begins, every task can be submitted, whatever the workers are doing. -/
theorem C41_accepts {threads : Nat} {acts : List Act} {s : St} (h : Reach threads acts s) (hm : Act.stop ∉ acts) (t : Nat) :
    ∃ wake s', Reach threads (acts ++ [.enqueue t wake]) s' := by
  have hst := not_stop h hm
  by_cases hw : W.wait ∈ s.workers
  · obtain ⟨i, hi⟩ := List.getElem?_of_mem hw
    exact ⟨some i, _, .step h (by simp only [step, hst, notifyOne, hi, if_true, Bool.false_eq_true, if_false]; rfl)⟩
  · exact ⟨none, _, .step h (by simp only [step, hst, notifyOne, hw, Bool.false_eq_true, if_false]; rfl)⟩

/-! Every task runs, without the destructor. -/

def W.work : W → Nat
  | .check => 1
  | .wait => 0
  | .exec _ => 2
  | .done => 0

def workMeasure (s : St) : Nat := 3 * s.queue.length + (s.workers.map W.work).sum

theorem sum_work {ws : List W} {i : Nat} {w w' : W} (h : ws[i]? = some w) : ((ws.set i w').map W.work).sum + w.work = (ws.map W.work).sum + w'.work := by
  induction ws generalizing i with
  | nil => simp at h
  | cons x xs ih =>
    cases i with
    | zero => simp at h; subst h; simp; omega
    | succ i => simp at h; have := ih h; simp only [List.set_cons_succ, List.map_cons, List.sum_cons]; omega

theorem work_decreases {s s' : St} {i : Nat} (hs : step s (.check i) = .ok s' ∨ step s (.finish i false) = .ok s') : workMeasure s' < workMeasure s := by
  rcases hs with hs | hs
  · simp only [step] at hs
    split at hs
    · rename_i hi
      split at hs
      · rename_i hq
        split at hs
        · cases hs
          have := sum_work (w' := .done) hi
          simp only [W.work] at this
          simp only [workMeasure]; omega
        · cases hs
          have := sum_work (w' := .wait) hi
          simp only [W.work] at this
          simp only [workMeasure]; omega
      · rename_i t q hq
        cases hs
        have := sum_work (w' := .exec t) hi
        simp only [W.work] at this
        simp only [workMeasure, hq, List.length_cons]; omega
    · cases hs
  · simp only [step] at hs
    split at hs
    · rename_i t hi
      simp at hs; subst hs
      have := sum_work (w' := .check) hi
      simp only [W.work] at this
      simp only [workMeasure]; omega
    · cases hs

/-- **C41**, every task runs, for a pool of at least one worker whose tasks return: from every reachable state, whether or not the destructor has begun, finitely many steps of the workers lead to a
state in which the finished tasks are exactly the submitted ones. -/
theorem C41_every_task_runs {threads : Nat} {acts : List Act} {s : St} (ht : 0 < threads) (h : Reach threads acts s) :
    ∃ more s', (∀ a ∈ more, ∃ i, a = .check i ∨ a = .finish i false) ∧ Reach threads (acts ++ more) s' ∧ s'.finished.Perm (submitted acts) := by
  generalize hn : workMeasure s = n
  induction n using Nat.strongRecOn generalizing acts s with
  | ind n ih =>
    by_cases hd : s.queue = [] ∧ ∀ t : Nat, W.exec t ∉ s.workers
    · refine ⟨[], s, by simp, by simpa using h, ?_⟩
      have h1 := C41_starts_in_order h
      rw [hd.1, List.append_nil] at h1
      rw [h1]
      refine List.perm_iff_count.2 fun t => ?_
      have h2 := C41_started_once h t
      have h3 : runningCount s t = 0 := by
        unfold runningCount
        rw [List.countP_eq_zero]
        intro w hw
        have := hd.2 t
        simp only [decide_eq_true_eq]
        intro hc
        exact this (hc ▸ hw)
      omega
    · have key : ∃ i a s1, (a = .check i ∨ a = .finish i false) ∧ step s a = .ok s1 := by
        by_cases hq : s.queue = []
        · have : ∃ t : Nat, W.exec t ∈ s.workers := Classical.byContradiction fun hno => hd ⟨hq, fun t ht => hno ⟨t, ht⟩⟩
          obtain ⟨t, ht⟩ := this
          obtain ⟨i, hi⟩ := List.getElem?_of_mem ht
          exact ⟨i, .finish i false, _, Or.inr rfl, by simp only [step, hi, Bool.false_eq_true, if_false]; rfl⟩
        · obtain ⟨i, s1, hs⟩ := C41_progress ht h (Or.inl hq)
          rcases hs with hs | hs
          · exact ⟨i, _, s1, Or.inl rfl, hs⟩
          · exact ⟨i, _, s1, Or.inr rfl, hs⟩
      obtain ⟨i, a, s1, ha, hsa⟩ := key
      have hlt : workMeasure s1 < workMeasure s := work_decreases (i := i) (by rcases ha with rfl | rfl; exact Or.inl hsa; exact Or.inr hsa)
      obtain ⟨more, s', h1, h3, h5⟩ := ih _ (hn ▸ hlt) (.step h hsa) rfl
      refine ⟨a :: more, s', ?_, by simpa using h3, ?_⟩
      · intro b hb
        rcases List.mem_cons.1 hb with rfl | hb
        · exact ⟨i, ha⟩
        · exact h1 b hb
      · have : submitted (acts ++ [a]) = submitted acts := by
          rcases ha with rfl | rfl <;> simp [submitted]
        rwa [this] at h5

/-! ### Where the property fails -/

/-- A pool of zero workers accepts a task, and its destructor returns although the task never ran. -/
theorem C41_zero_workers_violated :
    ∃ s, Reach 0 [.enqueue 1 none, .stop] s ∧ destroyed s ∧ s.accepted = [1] ∧ s.started = [] :=
  ⟨_, .step (.step .init (a := .enqueue 1 none) rfl) (a := .stop) rfl, ⟨rfl, by simp [init, notifyAll]⟩, rfl, rfl⟩

/-- A task that throws makes the worker use the logger that was never created. -/
theorem C41_throwing_task_violated : run (init 1) [.enqueue 1 none, .check 0, .finish 0 true] = .ub := by decide

/-- A task that submits another task while the pool is being destroyed hits the same null logger. -/
theorem C41_enqueue_during_drain_violated :
    run (init 1) [.enqueue 1 none, .check 0, .stop, .enqueue 2 none] = .ub := by decide

/-! ### Non-vacuity -/

/-- Two workers, three tasks, tasks 1 and 2 overlap; the pool drains and is destroyed. -/
def demo : List Act :=
  [.check 0, .enqueue 1 (some 0), .check 1, .enqueue 2 none, .check 0, .enqueue 3 none, .stop, .finish 1 false, .check 1,
   .finish 0 false, .check 0, .finish 1 false, .check 1]

theorem reach_of_run {threads : Nat} : ∀ (as acts : List Act) {s s' : St}, Reach threads acts s → run s as = .ok s' →
    Reach threads (acts ++ as) s'
  | [], acts, s, s', h, hs => by simp [run] at hs; subst hs; simpa using h
  | a :: as, acts, s, s', h, hs => by
    unfold run at hs
    split at hs
    · rename_i s1 hs1
      have := reach_of_run as (acts ++ [a]) (.step h hs1) hs
      simpa using this
    · rename_i r hr; exact absurd hs (hr s')

example : ∃ s, Reach 2 demo s ∧ destroyed s ∧ s.started = [1, 2, 3] ∧ s.finished = [1, 2, 3] :=
  ⟨_, reach_of_run demo [] .init rfl, ⟨rfl, by decide⟩, rfl, rfl⟩

/-- The destructor begins with one task running, one queued and one worker asleep. -/
example : ∃ s, Reach 2 [.check 0, .enqueue 1 (some 0), .check 0, .enqueue 2 none, .stop] s ∧ s.queue = [2] ∧ ¬ destroyed s :=
  ⟨_, reach_of_run [.check 0, .enqueue 1 (some 0), .check 0, .enqueue 2 none, .stop] [] .init rfl, rfl, fun h => absurd (h.2 (.exec 1) (by decide)) (by decide)⟩

/-- A state with a blocked worker and a queued task. -/
example : ∃ s, Reach 2 [.check 0, .check 1, .enqueue 1 (some 0)] s ∧ W.wait ∈ s.workers ∧ s.queue = [1] :=
  ⟨_, .step (.step (.step .init (a := .check 0) rfl) (a := .check 1) rfl) (a := .enqueue 1 (some 0)) rfl, by decide, rfl⟩

end Verif.ThreadPool
