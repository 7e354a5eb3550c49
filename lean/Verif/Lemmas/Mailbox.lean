import Verif.Model.Mailbox
set_option autoImplicit false

namespace Verif.Mailbox

/-- The inductive invariant of reachable states. -/
structure Inv (s : St) : Prop where
  fifoU : s.accUsr = s.popUsr ++ s.usr
  fifoS : s.accSys = s.popSys ++ s.sys
  excl : s.isOpen = true → s.queued + s.running.length ≤ 1
  schedIff : s.isOpen = true → (s.scheduled = true ↔ s.queued + s.running.length = 1)
  noNotify : s.isOpen = true → PC.notify ∉ s.running
  wake : s.isOpen = true → hasWork s = true → s.scheduled = true ∨ 0 < s.pending

theorem init_inv : Inv init := by
  constructor <;> simp [init, hasWork]

theorem running_single {s : St} {i : Nat} {pc : PC} (h : Inv s) (ho : s.isOpen = true)
    (hi : s.running[i]? = some pc) : i = 0 ∧ s.running = [pc] ∧ s.queued = 0 ∧ s.scheduled = true := by
  have h1 := h.excl ho
  obtain ⟨hlt, heq⟩ := List.getElem?_eq_some_iff.1 hi
  have hl : s.running.length = 1 := by omega
  have hi0 : i = 0 := by omega
  subst hi0
  refine ⟨rfl, ?_, by omega, (h.schedIff ho).2 (by omega)⟩
  obtain ⟨x, hx⟩ := List.length_eq_one_iff.1 hl
  rw [hx] at hi ⊢
  simpa using hi

theorem enqUsr_inv {s : St} (h : Inv s) (m : Nat) : Inv (enqUsr s m) := by
  unfold enqUsr
  split
  · rename_i ho
    constructor
    · simp [h.fifoU]
    · exact h.fifoS
    · exact h.excl
    · exact h.schedIff
    · exact h.noNotify
    · intro _ _
      cases hs : s.scheduled <;> simp
  · exact h

theorem enqSys_inv {s : St} (h : Inv s) (m : Nat) : Inv (enqSys s m) := by
  unfold enqSys
  split
  · rename_i ho
    constructor
    · exact h.fifoU
    · simp [h.fifoS]
    · exact h.excl
    · exact h.schedIff
    · exact h.noNotify
    · intro _ _
      cases hs : s.scheduled <;> simp
  · exact h

theorem sched_inv {n : Nat} {s s' : St} (h : Inv s) (hs : step n s .sched = .ok s') : Inv s' := by
  simp only [step] at hs
  split at hs
  · simp at hs
  · rename_i hp
    unfold schedule at hs
    cases hsch : s.scheduled with
    | true =>
      simp [hsch] at hs
      subst hs
      refine ⟨h.fifoU, h.fifoS, h.excl, ?_, h.noNotify, fun _ _ => Or.inl rfl⟩
      intro ho; have := h.schedIff ho; rw [hsch] at this; exact this
    | false =>
      simp only [hsch, Bool.not_false, Bool.true_or, if_true] at hs
      split at hs
      · have hz : s.isOpen = true → s.queued + s.running.length = 0 := by
          intro ho
          have h1 := h.excl ho
          have h2 := h.schedIff ho
          rw [hsch] at h2
          simp at h2
          omega
        split at hs
        · simp at hs; subst hs
          refine ⟨h.fifoU, h.fifoS, ?_, ?_, h.noNotify, fun _ _ => Or.inl rfl⟩
          · intro ho; have := hz ho; simp; omega
          · intro ho; have := hz ho; simp; omega
        · rename_i hw
          simp at hs; subst hs
          refine ⟨h.fifoU, h.fifoS, h.excl, ?_, h.noNotify, ?_⟩
          · intro ho; have := hz ho; simp; omega
          · intro ho hw'; exact absurd hw' hw
      · simp at hs

theorem pick_inv {n : Nat} {s s' : St} (h : Inv s) (hs : step n s .pick = .ok s') : Inv s' := by
  simp only [step] at hs
  split at hs
  · simp at hs
  · rename_i hq
    split at hs
    · simp at hs; subst hs
      refine ⟨h.fifoU, h.fifoS, ?_, ?_, ?_, h.wake⟩
      · intro ho; have := h.excl ho; simp; omega
      · intro ho; have := h.schedIff ho; simp only [List.length_append, List.length_cons, List.length_nil]
        rw [this]; omega
      · intro ho; have := h.noNotify ho; simpa using this
    · simp at hs

/-- Moving a task to another position, possibly changing fields that the invariant reads. -/
theorem move_inv {s s' : St} {i : Nat} {pc pc' : PC} (h : Inv s) (hi : s.running[i]? = some pc)
    (hU : s'.accUsr = s'.popUsr ++ s'.usr) (hS : s'.accSys = s'.popSys ++ s'.sys)
    (ho : s'.isOpen = s.isOpen) (hsch : s'.scheduled = s.scheduled) (hq : s'.queued = s.queued)
    (hr : s'.running = s.running.set i pc') (hn : pc' ≠ .notify) : Inv s' := by
  refine ⟨hU, hS, ?_, ?_, ?_, ?_⟩
  · intro hop; rw [ho] at hop; rw [hq, hr, List.length_set]; exact h.excl hop
  · intro hop; rw [ho] at hop; rw [hq, hr, List.length_set, hsch]; exact h.schedIff hop
  · intro hop; rw [ho] at hop
    have := (running_single h hop hi)
    rw [hr, this.2.1, this.1]
    simpa using hn.symm
  · intro hop _; rw [ho] at hop
    rw [hsch]
    exact Or.inl (running_single h hop hi).2.2.2

theorem task_inv {n : Nat} {s s' : St} {i : Nat} {o : Outcome} (h : Inv s)
    (hs : taskStep n s i o = .ok s') : Inv s' := by
  unfold taskStep at hs
  split at hs
  · simp at hs
  · -- pop
    rename_i c hi
    split at hs
    · rename_i m rest hsys
      simp at hs; subst hs
      exact move_inv h hi h.fifoU (by simp [setPC, h.fifoS, hsys]) rfl rfl rfl rfl (by simp)
    · rename_i hsys
      split at hs
      · split at hs
        · split at hs
          · rename_i m rest husr
            simp at hs; subst hs
            exact move_inv h hi (by simp [setPC, h.fifoU, husr]) h.fifoS rfl rfl rfl rfl (by simp)
          · simp at hs; subst hs
            exact move_inv h hi h.fifoU h.fifoS rfl rfl rfl rfl (by simp)
        · simp at hs; subst hs
          exact move_inv h hi h.fifoU h.fifoS rfl rfl rfl rfl (by simp)
      · simp at hs
  · rename_i m c hi
    split at hs
    · split at hs <;> (simp at hs; subst hs; exact move_inv h hi h.fifoU h.fifoS rfl rfl rfl rfl (by simp))
    · simp at hs
  · rename_i m c hi
    split at hs
    · simp at hs; subst hs
      refine move_inv h hi h.fifoU h.fifoS rfl rfl rfl rfl ?_
      split <;> simp
    · simp at hs
  · -- reschedule
    rename_i hi
    unfold schedule at hs
    simp only [Bool.or_true, if_true] at hs
    split at hs
    · split at hs
      · simp only [Res.map, Res.ok.injEq] at hs; subst hs
        refine ⟨h.fifoU, h.fifoS, ?_, ?_, ?_, fun _ _ => Or.inl rfl⟩
        · intro ho; obtain ⟨rfl, hr, hq, _⟩ := running_single h ho hi; simp [hr, hq]
        · intro ho; obtain ⟨rfl, hr, hq, _⟩ := running_single h ho hi; simp [hr, hq]
        · intro ho; obtain ⟨rfl, hr, hq, _⟩ := running_single h ho hi; simp [hr]
      · rename_i hw
        simp only [Res.map, Res.ok.injEq] at hs; subst hs
        refine ⟨h.fifoU, h.fifoS, ?_, ?_, ?_, fun _ hw' => absurd hw' hw⟩
        · intro ho; obtain ⟨rfl, hr, hq, _⟩ := running_single h ho hi; simp [hr, hq]
        · intro ho; obtain ⟨rfl, hr, hq, _⟩ := running_single h ho hi; simp [hr, hq]
        · intro ho; obtain ⟨rfl, hr, hq, _⟩ := running_single h ho hi; simp [hr]
    · simp [Res.map] at hs
  · -- close
    simp at hs; subst hs
    exact ⟨h.fifoU, h.fifoS, by simp [setPC, close], by simp [setPC, close], by simp [setPC, close], by simp [setPC, close]⟩
  · -- notify
    rename_i hi
    simp at hs; subst hs
    have hclosed : s.isOpen ≠ true := by
      intro ho
      have := running_single h ho hi
      exact h.noNotify ho (by rw [this.2.1]; simp)
    exact ⟨h.fifoU, h.fifoS, fun ho => absurd ho hclosed, fun ho => absurd ho hclosed, fun ho => absurd ho hclosed,
      fun ho => absurd ho hclosed⟩

theorem step_inv {n : Nat} {s s' : St} {a : Act} (h : Inv s) (hs : step n s a = .ok s') : Inv s' := by
  cases a with
  | enqUsr m => simp [step] at hs; subst hs; exact enqUsr_inv h m
  | enqSys m => simp [step] at hs; subst hs; exact enqSys_inv h m
  | sched => exact sched_inv h hs
  | pick => exact pick_inv h hs
  | task i o => exact task_inv h hs
  | destroy =>
    simp only [step] at hs
    split at hs
    · simp at hs; subst hs
      exact ⟨h.fifoU, h.fifoS, h.excl, h.schedIff, h.noNotify, h.wake⟩
    · simp at hs

theorem reach_inv {n : Nat} {acts : List Act} {s : St} (h : Reach n acts s) : Inv s := by
  induction h with
  | init => exact init_inv
  | step _ hs ih => exact step_inv ih hs

/-! Start before user messages. -/

theorem started_inv {n : Nat} {acts : List Act} {s : St} (h : Reach n acts s) :
    ((s.started = true ∨ s.popUsr ≠ []) → ∃ i, Act.task i .startOk ∈ acts) := by
  induction h with
  | init => simp [init]
  | @step acts s a s' hr hs ih =>
    intro hcond
    have keep : (s'.started = s.started ∧ (s'.popUsr ≠ [] → s.popUsr ≠ [] ∨ s.started = true)) →
        ∃ i, Act.task i .startOk ∈ acts ++ [a] := by
      rintro ⟨h1, h2⟩
      have : s.started = true ∨ s.popUsr ≠ [] := by
        rcases hcond with hc | hc
        · exact Or.inl (by rw [← h1]; exact hc)
        · rcases h2 hc with h | h
          · exact Or.inr h
          · exact Or.inl h
      obtain ⟨i, hi⟩ := ih this
      exact ⟨i, by simp [hi]⟩
    cases a with
    | enqUsr m =>
      simp [step] at hs; subst hs; apply keep
      unfold enqUsr; split <;> exact ⟨rfl, Or.inl⟩
    | enqSys m =>
      simp [step] at hs; subst hs; apply keep
      unfold enqSys; split <;> exact ⟨rfl, Or.inl⟩
    | sched =>
      apply keep
      simp only [step, schedule] at hs
      repeat' split at hs
      all_goals first
        | (simp at hs; done)
        | (simp at hs; subst hs; exact ⟨rfl, Or.inl⟩)
    | pick =>
      apply keep
      simp only [step] at hs
      repeat' split at hs
      all_goals first
        | (simp at hs; done)
        | (simp at hs; subst hs; exact ⟨rfl, Or.inl⟩)
    | destroy =>
      apply keep
      simp only [step] at hs
      repeat' split at hs
      all_goals first
        | (simp at hs; done)
        | (simp at hs; subst hs; exact ⟨rfl, Or.inl⟩)
    | task i o =>
      by_cases ho : o = .startOk
      · subst ho; exact ⟨i, by simp⟩
      · -- otherwise `started` can only be cleared
        have : (s'.started = true → s.started = true) ∧ (s'.popUsr ≠ [] → s.popUsr ≠ [] ∨ s.started = true) := by
          simp only [step, taskStep, schedule] at hs
          repeat' split at hs
          all_goals first
            | (simp [Res.map] at hs; done)
            | (simp [Res.map] at hs; subst hs; simp_all [setPC, close])
            | (simp [Res.map] at hs; subst hs; simp_all [setPC, close]; done)
        have h' : s.started = true ∨ s.popUsr ≠ [] := by
          rcases hcond with hc | hc
          · exact Or.inl (this.1 hc)
          · rcases this.2 hc with h | h
            · exact Or.inr h
            · exact Or.inl h
        obtain ⟨j, hj⟩ := ih h'
        exact ⟨j, by simp [hj]⟩

/-! Destruction can only overlap with the very end of the stopping task. -/

/-- While the mailbox is open, the cell can only be gone when the single task is about to close the mailbox. -/
structure AInv (s : St) : Prop where
  det : s.isOpen = true → s.detached = true → s.running = [.closing]
  dead : s.alive = false → s.detached = true

theorem init_ainv : AInv init := by constructor <;> simp [init]

theorem detached_single {s : St} (h : Inv s) (ha : AInv s) (ho : s.isOpen = true) (hd : s.detached = true) :
    s.queued = 0 ∧ s.scheduled = true := by
  have h1 := ha.det ho hd
  have h2 := h.excl ho
  have h3 := h.schedIff ho
  rw [h1] at h2 h3
  simp at h2 h3
  exact ⟨h2, h3.2 (by omega)⟩

theorem step_ainv {n : Nat} {s s' : St} {a : Act} (h : Inv s) (ha : AInv s) (hs : step n s a = .ok s') : AInv s' := by
  cases a with
  | enqUsr m =>
    simp [step] at hs; subst hs
    unfold enqUsr; split
    · exact ⟨ha.det, ha.dead⟩
    · exact ha
  | enqSys m =>
    simp [step] at hs; subst hs
    unfold enqSys; split
    · exact ⟨ha.det, ha.dead⟩
    · exact ha
  | sched =>
    simp only [step, schedule] at hs
    repeat' split at hs
    all_goals first
      | (simp at hs; done)
      | (simp at hs; subst hs; exact ⟨ha.det, ha.dead⟩)
  | pick =>
    simp only [step] at hs
    repeat' split at hs
    all_goals first
      | (simp at hs; done)
      | (simp at hs; subst hs; refine ⟨?_, ha.dead⟩
         intro ho hd
         have := (detached_single h ha ho hd).1
         contradiction)
  | destroy =>
    simp only [step] at hs
    split at hs
    · rename_i hc
      simp at hs; subst hs; exact ⟨ha.det, fun _ => hc.1⟩
    · simp at hs
  | task i o =>
    -- an open, detached mailbox can only step by closing
    have key : ∀ pc, s.running[i]? = some pc → pc ≠ .closing → s.isOpen = true → s.detached = false := by
      intro pc hi hpc ho
      cases hd : s.detached with
      | false => rfl
      | true =>
        have h1 := (running_single h ho hi).2.1
        rw [ha.det ho hd] at h1
        simp at h1
        exact absurd h1.symm hpc
    simp only [step, taskStep] at hs
    split at hs
    · simp at hs
    all_goals rename_i hi
    · have k := key _ hi (by simp)
      repeat' split at hs
      all_goals first
        | (simp at hs; done)
        | (simp at hs; subst hs
           refine ⟨?_, ha.dead⟩
           intro ho hd
           have := k ho
           simp [setPC] at hd
           rw [this] at hd; simp at hd)
    · have k := key _ hi (by simp)
      have hr := fun ho => running_single h ho hi
      repeat' split at hs
      all_goals first
        | (simp at hs; done)
        | (simp at hs; subst hs
           refine ⟨?_, ha.dead⟩
           intro ho hd
           have := k ho
           simp [setPC] at hd
           rw [this] at hd; simp at hd; done)
        | (simp at hs; subst hs
           refine ⟨?_, fun _ => rfl⟩
           intro ho hd
           obtain ⟨h1, h2, _⟩ := hr ho
           simp [setPC, h1, h2])
    · have k := key _ hi (by simp)
      repeat' split at hs
      all_goals first
        | (simp at hs; done)
        | (simp at hs; subst hs
           refine ⟨?_, ha.dead⟩
           intro ho hd
           have := k ho
           simp [setPC] at hd
           rw [this] at hd; simp at hd)
    · have k := key _ hi (by simp)
      unfold schedule at hs
      repeat' split at hs
      all_goals first
        | (simp [Res.map] at hs; done)
        | (simp [Res.map] at hs; subst hs
           refine ⟨?_, ha.dead⟩
           intro ho hd
           have := k ho
           simp at hd
           rw [this] at hd; simp at hd)
    · simp at hs; subst hs
      exact ⟨by simp [setPC, close], ha.dead⟩
    · have k := key _ hi (by simp)
      simp at hs; subst hs
      refine ⟨?_, ha.dead⟩
      intro ho hd
      have := k ho
      simp at hd
      rw [this] at hd; simp at hd

theorem reach_ainv {n : Nat} {acts : List Act} {s : St} (h : Reach n acts s) : AInv s := by
  induction h with
  | init => exact init_ainv
  | step hr hs ih => exact step_ainv (reach_inv hr) ih hs

/-- While the mailbox is open no action is undefined behaviour. -/
theorem no_ub_open {n : Nat} {s : St} (h : Inv s) (ha : AInv s) (ho : s.isOpen = true) (a : Act) :
    step n s a ≠ .ub := by
  cases a with
  | enqUsr m => simp [step]
  | enqSys m => simp [step]
  | destroy => simp only [step]; split <;> simp
  | sched =>
    intro hs
    simp only [step, schedule] at hs
    repeat' split at hs
    all_goals first
      | (simp at hs; done)
      | skip
    rename_i hp hsch hal
    have hdead : s.alive = false := by simpa using hal
    have := (detached_single h ha ho (ha.dead hdead)).2
    simp [this] at hsch
  | pick =>
    intro hs
    simp only [step] at hs
    repeat' split at hs
    all_goals first
      | (simp at hs; done)
      | skip
    rename_i hp hal
    have hdead : s.alive = false := by simpa using hal
    have := (detached_single h ha ho (ha.dead hdead)).1
    contradiction
  | task i o =>
    intro hs
    have key : ∀ pc, s.running[i]? = some pc → pc ≠ .closing → s.alive = true := by
      intro pc hi hpc
      cases hal : s.alive with
      | true => rfl
      | false =>
        have h1 := (running_single h ho hi).2.1
        rw [ha.det ho (ha.dead hal)] at h1
        simp at h1
        exact absurd h1.symm hpc
    simp only [step, taskStep] at hs
    split at hs
    · simp at hs
    all_goals rename_i hi
    · have k := key _ hi (by simp)
      simp only [k, if_true] at hs
      repeat' split at hs
      all_goals simp at hs
    · have k := key _ hi (by simp)
      simp only [k, if_true] at hs
      repeat' split at hs
      all_goals simp at hs
    · have k := key _ hi (by simp)
      simp only [k, if_true] at hs
      simp at hs
    · have k := key _ hi (by simp)
      simp only [schedule, k, if_true] at hs
      repeat' split at hs
      all_goals simp [Res.map] at hs
    · simp at hs
    · simp at hs

/-! Termination of internal activity. -/

/-- Actions of threads already inside the system: no new message, no destruction. -/
def Act.internal : Act → Bool
  | .sched | .pick | .task _ _ => true
  | _ => false

def PC.weight (work : Bool) : PC → Nat
  | .pop _ => if work then 3 else 2
  | .sysMsg _ _ => 6
  | .usrMsg _ _ => 6
  | .resched => if work then 5 else 1
  | .closing => 2
  | .notify => 1

/-- A bound on the number of internal steps an open mailbox can make. -/
def measure (s : St) : Nat :=
  10 * (s.usr.length + s.sys.length) + 5 * s.pending + s.queued * (if hasWork s then 4 else 3) +
    (s.running.map (PC.weight (hasWork s))).sum

theorem closed_stays {n : Nat} {s s' : St} {a : Act} (hs : step n s a = .ok s') (hc : s.isOpen = false) :
    s'.isOpen = false := by
  cases a with
  | enqUsr m => simp [step, enqUsr, hc] at hs; subst hs; exact hc
  | enqSys m => simp [step, enqSys, hc] at hs; subst hs; exact hc
  | sched =>
    simp only [step, schedule] at hs
    repeat' split at hs
    all_goals first
      | (simp at hs; done)
      | (simp at hs; subst hs; exact hc)
  | pick =>
    simp only [step] at hs
    repeat' split at hs
    all_goals first
      | (simp at hs; done)
      | (simp at hs; subst hs; exact hc)
  | destroy =>
    simp only [step] at hs
    repeat' split at hs
    all_goals first
      | (simp at hs; done)
      | (simp at hs; subst hs; exact hc)
  | task i o =>
    simp only [step, taskStep, schedule] at hs
    repeat' split at hs
    all_goals first
      | (simp [Res.map] at hs; done)
      | (simp [Res.map] at hs; subst hs; simp [setPC, close, hc])

theorem task_measure {n : Nat} {s s' : St} {i : Nat} {o : Outcome} (h : Inv s)
    (hs : taskStep n s i o = .ok s') (ho' : s'.isOpen = true) (ho : s.isOpen = true) :
    measure s' + 1 ≤ measure s := by
  unfold taskStep at hs
  split at hs
  · simp at hs
  all_goals
    rename_i hi
    obtain ⟨rfl, hr, hq, hsc⟩ := running_single h ho hi
  · split at hs
    · rename_i m rest hsys
      simp at hs; subst hs
      simp [measure, setPC, hr, hq, hsys, PC.weight, hasWork]
      omega
    · rename_i hsys
      split at hs
      · split at hs
        · rename_i hst
          split at hs
          · rename_i m rest husr
            simp at hs; subst hs
            simp [measure, setPC, hr, hq, hsys, husr, hst, ho, PC.weight, hasWork]
            omega
          · rename_i husr
            simp at hs; subst hs
            simp [measure, setPC, hr, hq, hsys, husr, hst, ho, PC.weight, hasWork]
        · rename_i hst
          simp at hs; subst hs
          simp at hst
          simp [measure, setPC, hr, hq, hsys, hst, PC.weight, hasWork]
      · simp at hs
  · split at hs
    · split at hs <;> simp at hs <;> subst hs <;>
        simp only [measure, setPC, hr, hq, List.set_cons_zero, List.map_cons, List.map_nil, List.sum_cons, List.sum_nil,
          PC.weight] <;> (repeat' split) <;> omega
    · simp at hs
  · split at hs
    · simp at hs; subst hs
      simp only [measure, setPC, hr, hq, List.set_cons_zero, List.map_cons, List.map_nil, List.sum_cons, List.sum_nil]
      split <;> simp only [PC.weight] <;> (repeat' split) <;> omega
    · simp at hs
  · unfold schedule at hs
    simp only [Bool.or_true, if_true] at hs
    split at hs
    · split at hs
      · rename_i hw
        simp only [Res.map, Res.ok.injEq] at hs; subst hs
        simp only [hasWork] at hw
        simp [measure, hr, hq, PC.weight, hasWork, hw]
      · rename_i hw
        simp only [Res.map, Res.ok.injEq] at hs; subst hs
        simp only [hasWork] at hw
        simp [measure, hr, hq, PC.weight, hasWork, hw]
    · simp [Res.map] at hs
  · simp at hs; subst hs
    simp [setPC, close] at ho'
  · exact absurd (List.mem_of_getElem? hi) (h.noNotify ho)

theorem step_measure {n : Nat} {s s' : St} {a : Act} (h : Inv s) (hs : step n s a = .ok s')
    (hint : a.internal = true) (ho' : s'.isOpen = true) : measure s' + 1 ≤ measure s := by
  have ho : s.isOpen = true := by
    cases hc : s.isOpen with
    | true => rfl
    | false => rw [closed_stays hs hc] at ho'; simp at ho'
  cases a with
  | enqUsr m => simp [Act.internal] at hint
  | enqSys m => simp [Act.internal] at hint
  | destroy => simp [Act.internal] at hint
  | task i o => exact task_measure h hs ho' ho
  | pick =>
    simp only [step] at hs
    split at hs
    · simp at hs
    · split at hs
      · rename_i hq _
        simp at hs; subst hs
        have h1 := h.excl ho
        have hq1 : s.queued = 1 := by omega
        have hr : s.running = [] := by
          apply List.eq_nil_of_length_eq_zero; omega
        have e : ∀ q r, hasWork { s with queued := q, running := r } = hasWork s := fun _ _ => rfl
        simp only [measure, e, hr, hq1]
        generalize hasWork s = p
        cases p <;> simp [PC.weight]
      · simp at hs
  | sched =>
    simp only [step, schedule] at hs
    repeat' split at hs
    all_goals first
      | (simp at hs; done)
      | skip
    · rename_i hp _ _ hw
      simp at hs; subst hs
      simp only [hasWork] at hw
      simp only [measure, hasWork, hw, if_true]
      have : (s.queued + 1) * 4 = s.queued * 4 + 4 := by omega
      omega
    · rename_i hp _ _ hw
      simp at hs; subst hs
      simp only [hasWork] at hw
      simp only [measure, hasWork, hw]
      simp
      omega
    · rename_i hp _
      simp at hs; subst hs
      have e : ∀ p, hasWork { s with pending := p } = hasWork s := fun _ => rfl
      simp only [measure, e]
      generalize s.queued * _ = x
      omega

end Verif.Mailbox
