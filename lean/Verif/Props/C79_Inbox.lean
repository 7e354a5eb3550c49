import Verif.Model.Inbox
/-!
C79: an inbox hands every message sent to it to exactly one `receive` call, in the order the messages were accepted; a
`receive` gives up only at a moment when every accepted message has been handed out and its timeout has passed; no `receive`
sleeps while a message waits; messages sent to an inbox never run anything.
-/
set_option autoImplicit false

namespace Verif.Inbox

/-! ## Specification: what an observer's record of sends, calls and answers must look like -/

/-- The messages accepted, in order. -/
def accepted (log : List Ev) : List Payload :=
  log.filterMap fun | .accepted m => some m | _ => none

/-- The messages handed out by `receive`, in order. -/
def handedOut (log : List Ev) : List Payload :=
  log.filterMap fun | .got _ m => some m | _ => none

/-- The unanswered call (timeout, start) of thread `r` after one more event. -/
def openStep (r : Nat) (st : Option (Int × Int)) : Ev → Option (Int × Int)
  | .called r' timeout t1 => if r' = r then some (timeout, t1) else st
  | .got r' _ => if r' = r then none else st
  | .gaveUp r' _ => if r' = r then none else st
  | .accepted _ => st

/-- The call of `receive` by thread `r` which is not answered yet. -/
def openCall (r : Nat) (log : List Ev) : Option (Int × Int) := log.foldl (openStep r) none

/-- What must hold of an event, given everything recorded before it. -/
def GoodEv (before : List Ev) : Ev → Prop
  | .accepted _ => True
  | .called r _ _ => openCall r before = none
  -- a message is the oldest one not handed out yet, and answers a call
  | .got r m => (openCall r before).isSome ∧ ∃ rest, accepted before = handedOut before ++ m :: rest
  -- giving up answers a call after its timeout (microseconds; the clock counts nanoseconds), nothing being there
  | .gaveUp r t => ∃ timeout t1, openCall r before = some (timeout, t1) ∧ t1 + timeout * 1000 ≤ t ∧
      accepted before = handedOut before

def Good (log : List Ev) : Prop := ∀ before e after, log = before ++ e :: after → GoodEv before e

/-! ## Lemmas -/

theorem Good.nil : Good [] := by
  intro b e a h
  cases b <;> cases h

theorem Good.snoc {log : List Ev} {e : Ev} (h : Good log) (he : GoodEv log e) : Good (log ++ [e]) := by
  intro b x a hx
  rcases List.eq_nil_or_concat a with ha | ⟨a', y, ha⟩
  · subst ha
    obtain ⟨h1, h2⟩ := List.append_inj' hx rfl
    cases h2
    subst h1
    exact he
  · rw [List.concat_eq_append] at ha
    subst ha
    rw [← List.cons_append, ← List.append_assoc] at hx
    obtain ⟨h1, _⟩ := List.append_inj' hx rfl
    exact h b x a' h1

theorem accepted_snoc (log : List Ev) (e : Ev) :
    accepted (log ++ [e]) = accepted log ++ (match e with | .accepted m => [m] | _ => []) := by
  unfold accepted
  rw [List.filterMap_append]
  cases e <;> rfl

theorem handedOut_snoc (log : List Ev) (e : Ev) :
    handedOut (log ++ [e]) = handedOut log ++ (match e with | .got _ m => [m] | _ => []) := by
  unfold handedOut
  rw [List.filterMap_append]
  cases e <;> rfl

theorem openCall_snoc (r : Nat) (log : List Ev) (e : Ev) : openCall r (log ++ [e]) = openStep r (openCall r log) e := by
  unfold openCall
  rw [List.foldl_append]
  rfl

/-- The effects an action can have. -/
inductive Eff (s : St) : St → Prop
  | quiet (h : Option Nat) (k : List Nat) : (h.isSome = s.holder.isSome) → Eff s { s with holder := h, sys := k }
  | accept (m : Payload) : s.holder.isSome = true → s.rcv.any PC.isWaiting = false →
      Eff s { s with usr := s.usr ++ [m], log := s.log ++ [.accepted m] }
  | acceptWake (m : Payload) (r : Nat) (due : Int) : s.holder.isSome = true → s.rcv[r]? = some (.waiting due) →
      Eff s { s with usr := s.usr ++ [m], log := s.log ++ [.accepted m], rcv := s.rcv.set r (.woken due) }
  | wake (r : Nat) (due : Int) (k : List Nat) : s.rcv[r]? = some (.waiting due) →
      Eff s { s with sys := k, rcv := s.rcv.set r (.woken due) }
  | callGot (r : Nat) (timeout t1 : Int) (m : Payload) (rest : List Payload) : s.holder.isSome = true →
      s.rcv[r]? = some .idle → s.usr = m :: rest →
      Eff s { s with usr := rest, rcv := s.rcv.set r .idle, log := s.log ++ [.called r timeout t1] ++ [.got r m] }
  | callGaveUp (r : Nat) (timeout t1 t2 : Int) : s.holder.isSome = true → s.rcv[r]? = some .idle → s.usr = [] →
      t1 + timeout * 1000 ≤ t2 →
      Eff s { s with rcv := s.rcv.set r .idle, log := s.log ++ [.called r timeout t1] ++ [.gaveUp r t2] }
  | callWait (r : Nat) (timeout t1 : Int) : s.holder.isSome = true → s.rcv[r]? = some .idle → s.usr = [] →
      Eff s { s with rcv := s.rcv.set r (.waiting (t1 + timeout * 1000)), log := s.log ++ [.called r timeout t1] }
  | runGot (r : Nat) (due : Int) (m : Payload) (rest : List Payload) : s.rcv[r]? = some (.woken due) → s.usr = m :: rest →
      Eff s { s with usr := rest, rcv := s.rcv.set r .idle, log := s.log ++ [.got r m] }
  | runGaveUp (r : Nat) (due t : Int) : s.rcv[r]? = some (.woken due) → s.usr = [] → due ≤ t →
      Eff s { s with rcv := s.rcv.set r .idle, log := s.log ++ [.gaveUp r t] }
  | runWait (r : Nat) (due : Int) : s.rcv[r]? = some (.woken due) → s.usr = [] →
      Eff s { s with rcv := s.rcv.set r (.waiting due) }
  | die : s.holder.isSome = true → s.rcv.all (· = .idle) = true →
      Eff s { s with holder := none, usr := [], sys := [], dropped := s.usr }

theorem dueTime_some {t1 timeout due : Int} (h : dueTime t1 timeout = some due) : due = t1 + timeout * 1000 := by
  unfold dueTime at h
  split at h
  · injection h with h
    exact h.symm
  · cases h

theorem notifyOne_some {s s' : St} {w : Option Nat} (h : notifyOne s w = some s') :
    (s' = s ∧ s.rcv.any PC.isWaiting = false) ∨
      ∃ r due, s.rcv[r]? = some (.waiting due) ∧ s' = { s with rcv := s.rcv.set r (.woken due) } := by
  cases w with
  | none =>
    simp only [notifyOne] at h
    split at h
    · cases h
    · next hw =>
      injection h with h
      exact .inl ⟨h.symm, by simpa using hw⟩
  | some r =>
    simp only [notifyOne] at h
    split at h
    · next due hr =>
      injection h with h
      exact .inr ⟨r, due, hr, h.symm⟩
    · cases h

theorem loopHead_cases (s : St) (r : Nat) (due t : Int) :
    (∃ m rest, s.usr = m :: rest ∧
      loopHead s r due t = { s with usr := rest, rcv := s.rcv.set r .idle, log := s.log ++ [.got r m] }) ∨
    (s.usr = [] ∧ due ≤ t ∧ loopHead s r due t = { s with rcv := s.rcv.set r .idle, log := s.log ++ [.gaveUp r t] }) ∨
    (s.usr = [] ∧ t < due ∧ loopHead s r due t = { s with rcv := s.rcv.set r (.waiting due) }) := by
  cases hu : s.usr with
  | cons m rest =>
    refine .inl ⟨m, rest, rfl, ?_⟩
    simp [loopHead, hu, finish]
  | nil =>
    by_cases ht : t < due
    · refine .inr (.inr ⟨rfl, ht, ?_⟩)
      simp [loopHead, hu, ht]
    · refine .inr (.inl ⟨rfl, by omega, ?_⟩)
      simp [loopHead, hu, ht, finish]

theorem step_eff {s s' : St} {a : Act} (ho : s.isOpen = true) (h : step s a = .ok s') : Eff s s' := by
  cases a with
  | send m w =>
    simp only [step, send] at h
    split at h
    · injection h with h
      subst h
      exact Eff.quiet (s := s) s.holder s.sys rfl
    · next hh =>
      have hh' : s.holder.isSome = true := by
        cases hx : s.holder with
        | none => rw [hx] at hh; exact (hh rfl).elim
        | some _ => rfl
      split at h
      · cases h
      · next s1 hn =>
        simp only [afterEnqueue] at h
        split at h
        · injection h with h
          subst h
          rcases notifyOne_some hn with ⟨rfl, hw⟩ | ⟨r, due, hr, rfl⟩
          · exact .accept m hh' hw
          · exact .acceptWake m r due hh' hr
        · cases h
  | sendSys k w =>
    simp only [step, sendSys] at h
    split at h
    · injection h with h
      subst h
      exact Eff.quiet (s := s) s.holder s.sys rfl
    · split at h
      · cases h
      · next s1 hn =>
        simp only [afterEnqueue] at h
        split at h
        · injection h with h
          subst h
          rcases notifyOne_some hn with ⟨rfl, hw⟩ | ⟨r, due, hr, rfl⟩
          · exact Eff.quiet (s := s) s.holder (s.sys ++ [k]) rfl
          · exact .wake r due _ hr
        · cases h
  | call r o timeout t1 t2 =>
    simp only [step, call] at h
    split at h
    · next hr =>
      split at h
      · next hh =>
        have hh' : s.holder.isSome = true := by rw [hh]; rfl
        split at h
        · next hu =>
          have hu' : s.usr = [] := by simpa using hu
          split at h
          · cases h
          · next due hd =>
            injection h with h
            have hdue := dueTime_some hd
            subst hdue
            rcases loopHead_cases { s with log := s.log ++ [.called r timeout t1] } r (t1 + timeout * 1000) t2 with
              ⟨m, rest, h1, _⟩ | ⟨_, h2, h3⟩ | ⟨_, _, h3⟩
            · dsimp only at h1
              rw [hu'] at h1
              cases h1
            · rw [h3] at h
              subst h
              exact .callGaveUp r timeout t1 t2 hh' hr hu' h2
            · rw [h3] at h
              subst h
              exact .callWait r timeout t1 hh' hr hu'
        · next hu =>
          injection h with h
          cases hx : s.usr with
          | nil => simp [hx] at hu
          | cons m rest =>
            simp only [finish, hx] at h
            subst h
            exact .callGot r timeout t1 m rest hh' hr hx
      · cases h
    · cases h
  | wake r =>
    simp only [step, wake] at h
    split at h
    · next due hr =>
      injection h with h
      subst h
      exact Eff.wake r due s.sys hr
    · cases h
  | run r t =>
    simp only [step, runWoken] at h
    split at h
    · next due hr =>
      injection h with h
      rcases loopHead_cases s r due t with ⟨m, rest, h1, h3⟩ | ⟨h1, h2, h3⟩ | ⟨h1, _, h3⟩
      · rw [h3] at h
        subst h
        exact .runGot r due m rest hr h1
      · rw [h3] at h
        subst h
        exact .runGaveUp r due t hr h1 h2
      · rw [h3] at h
        subst h
        exact .runWait r due hr h1
    · cases h
  | move o o' =>
    simp only [step, move] at h
    split at h
    · next hh =>
      injection h with h
      subst h
      exact Eff.quiet (s := s) (some o') s.sys (by rw [hh]; rfl)
    · injection h with h
      subst h
      exact Eff.quiet (s := s) s.holder s.sys rfl
  | destroy o =>
    simp only [step, destroy] at h
    split at h
    · next hh =>
      split at h
      · next hall =>
        injection h with h
        subst h
        exact .die (by rw [hh]; rfl) hall
      · cases h
    · injection h with h
      subst h
      exact Eff.quiet (s := s) s.holder s.sys rfl

/-- The position of a thread agrees with its unanswered call. -/
def PcOk (c : Option (Int × Int)) : Option PC → Prop
  | some (.waiting due) => ∃ timeout t1, c = some (timeout, t1) ∧ due = t1 + timeout * 1000
  | some (.woken due) => ∃ timeout t1, c = some (timeout, t1) ∧ due = t1 + timeout * 1000
  | _ => c = none

structure Inv (s : St) : Prop where
  isOpen : s.isOpen = true
  sched : s.scheduled = true
  good : Good s.log
  fifo : accepted s.log = handedOut s.log ++ s.usr ++ s.dropped
  alive : s.holder.isSome = true → s.dropped = []
  dead : s.holder = none → s.usr = [] ∧ ∀ pc ∈ s.rcv, pc = PC.idle
  pcs : ∀ r : Nat, PcOk (openCall r s.log) s.rcv[r]?
  wake : s.usr.length ≤ s.rcv.countP PC.isWoken ∨ s.rcv.any PC.isWaiting = false

theorem Inv.init (n : Nat) : Inv (init n) where
  isOpen := rfl
  sched := rfl
  good := Good.nil
  fifo := rfl
  alive _ := rfl
  dead h := by cases h
  pcs r := by
    show PcOk none (List.replicate n PC.idle)[r]?
    rw [List.getElem?_replicate]
    split <;> exact rfl
  wake := .inl (Nat.zero_le _)

theorem openStep_other {r r' : Nat} {c : Option (Int × Int)} (hne : r' ≠ r) :
    (∀ to t1, openStep r c (.called r' to t1) = c) ∧ (∀ m, openStep r c (.got r' m) = c) ∧
      (∀ t, openStep r c (.gaveUp r' t) = c) := by
  refine ⟨fun _ _ => ?_, fun _ => ?_, fun _ => ?_⟩ <;> simp only [openStep] <;> rw [if_neg hne]

theorem lt_of_some {l : List PC} {r : Nat} {p : PC} (h : l[r]? = some p) : r < l.length := by
  rcases Nat.lt_or_ge r l.length with h1 | h1
  · exact h1
  · rw [List.getElem?_eq_none h1] at h; cases h

theorem any_set {l : List PC} {r : Nat} {p : PC} (hp : p.isWaiting = false) (h : l.any PC.isWaiting = false) :
    (l.set r p).any PC.isWaiting = false := by
  rw [List.any_eq_false] at *
  intro x hx
  rcases List.mem_or_eq_of_mem_set hx with h1 | h1
  · exact h x h1
  · subst h1
    simp [hp]

theorem countP_set_pc {l : List PC} {r : Nat} {p q : PC} (h : l[r]? = some p) :
    (l.set r q).countP PC.isWoken + (if p.isWoken then 1 else 0) = l.countP PC.isWoken + (if q.isWoken then 1 else 0) := by
  induction l generalizing r with
  | nil => cases h
  | cons x xs ih =>
    cases r with
    | zero =>
      cases h
      simp only [List.set_cons_zero, List.countP_cons]
      omega
    | succ r =>
      have := ih (r := r) h
      simp only [List.set_cons_succ, List.countP_cons]
      omega

theorem idle_not_dead {s : St} (h : Inv s) {r : Nat} {p : PC} (hr : s.rcv[r]? = some p) (hp : p ≠ .idle) :
    s.holder.isSome = true := by
  cases hx : s.holder with
  | some _ => rfl
  | none => exact (hp ((h.dead hx).2 p (List.mem_of_getElem? hr))).elim

theorem isSome_not_none {o : Option Nat} (h : o.isSome = true) : o ≠ none := by
  cases o with
  | none => cases h
  | some _ => intro e; cases e

/-- Replacing the position of thread `r` and the record of calls. -/
theorem pcs_set {s : St} (h : Inv s) {r : Nat} {p q : PC} (hr : s.rcv[r]? = some p) {log : List Ev}
    (hq : PcOk (openCall r log) (some q)) (ho : ∀ r', r ≠ r' → openCall r' log = openCall r' s.log) (r' : Nat) :
    PcOk (openCall r' log) (s.rcv.set r q)[r']? := by
  by_cases e : r = r'
  · subst e
    rw [List.getElem?_set_self (lt_of_some hr)]
    exact hq
  · rw [List.getElem?_set_ne e, ho r' e]
    exact h.pcs r'

theorem Inv.eff {s s' : St} (h : Inv s) (e : Eff s s') : Inv s' := by
  have hs := h.fifo
  cases e with
  | quiet o k ho =>
    exact { isOpen := h.isOpen, sched := h.sched, good := h.good, fifo := h.fifo, alive := fun x => h.alive (ho ▸ x),
            dead := fun x => by
              apply h.dead
              dsimp only at x
              rw [x] at ho
              cases hx : s.holder with
              | none => rfl
              | some _ => rw [hx] at ho; cases ho
            pcs := h.pcs, wake := h.wake }
  | accept m hh hw =>
    refine ⟨h.isOpen, h.sched, h.good.snoc trivial, ?_, h.alive, fun x => (isSome_not_none hh x).elim, fun r => ?_, .inr hw⟩
    · show accepted (s.log ++ [.accepted m]) = handedOut (s.log ++ [.accepted m]) ++ (s.usr ++ [m]) ++ s.dropped
      rw [accepted_snoc, handedOut_snoc, hs, h.alive hh]
      simp
    · show PcOk (openCall r (s.log ++ [.accepted m])) s.rcv[r]?
      rw [openCall_snoc]
      exact h.pcs r
  | acceptWake m r due hh hr =>
    have hpc := h.pcs r
    rw [hr] at hpc
    refine ⟨h.isOpen, h.sched, h.good.snoc trivial, ?_, h.alive, fun x => (isSome_not_none hh x).elim, ?_, ?_⟩
    · show accepted (s.log ++ [.accepted m]) = handedOut (s.log ++ [.accepted m]) ++ (s.usr ++ [m]) ++ s.dropped
      rw [accepted_snoc, handedOut_snoc, hs, h.alive hh]
      simp
    · refine pcs_set h hr (log := s.log ++ [.accepted m]) ?_ ?_
      · rw [openCall_snoc]; exact hpc
      · intro r' _; rw [openCall_snoc]; rfl
    · have hc := countP_set_pc (q := .woken due) hr
      simp only [PC.isWoken] at hc
      rcases h.wake with hw | hw
      · left
        show (s.usr ++ [m]).length ≤ _
        rw [List.length_append]
        simp at hc ⊢
        omega
      · right
        exact any_set rfl hw
  | wake r due k hr =>
    have hpc := h.pcs r
    rw [hr] at hpc
    have hh := idle_not_dead h hr (fun e => by cases e)
    refine ⟨h.isOpen, h.sched, h.good, hs, h.alive, fun x => (isSome_not_none hh x).elim, ?_, ?_⟩
    · exact pcs_set h hr (log := s.log) hpc (fun _ _ => rfl)
    · have hc := countP_set_pc (q := .woken due) hr
      simp only [PC.isWoken] at hc
      rcases h.wake with hw | hw
      · left
        simp at hc ⊢
        omega
      · right
        exact any_set rfl hw
  | callGot r timeout t1 m rest hh hr hu =>
    have hpc : openCall r s.log = none := by have := h.pcs r; rw [hr] at this; exact this
    have hoc : openCall r (s.log ++ [.called r timeout t1]) = some (timeout, t1) := by
      rw [openCall_snoc]; simp [openStep]
    refine ⟨h.isOpen, h.sched, (h.good.snoc (e := .called r timeout t1) hpc).snoc ⟨by rw [hoc]; rfl, rest, ?_⟩, ?_, h.alive,
      fun x => (isSome_not_none hh x).elim, ?_, ?_⟩
    · rw [accepted_snoc, handedOut_snoc, hs, h.alive hh, hu]
      simp
    · show accepted _ = handedOut _ ++ rest ++ s.dropped
      rw [accepted_snoc, accepted_snoc, handedOut_snoc, handedOut_snoc, hs, h.alive hh, hu]
      simp
    · refine pcs_set h hr ?_ ?_
      · rw [openCall_snoc]; simp [openStep, PcOk]
      · intro r' hne
        rw [openCall_snoc, (openStep_other hne).2.1, openCall_snoc, (openStep_other hne).1]
    · have hc := countP_set_pc (q := .idle) hr
      simp only [PC.isWoken] at hc
      rcases h.wake with hw | hw
      · left
        rw [hu] at hw
        simp at hc hw ⊢
        omega
      · right
        exact any_set rfl hw
  | callGaveUp r timeout t1 t2 hh hr hu hle =>
    have hpc : openCall r s.log = none := by have := h.pcs r; rw [hr] at this; exact this
    have hoc : openCall r (s.log ++ [.called r timeout t1]) = some (timeout, t1) := by
      rw [openCall_snoc]; simp [openStep]
    refine ⟨h.isOpen, h.sched, (h.good.snoc (e := .called r timeout t1) hpc).snoc ⟨timeout, t1, hoc, hle, ?_⟩, ?_, h.alive,
      fun x => (isSome_not_none hh x).elim, ?_, ?_⟩
    · rw [accepted_snoc, handedOut_snoc, hs, h.alive hh, hu]
      simp
    · show accepted _ = handedOut _ ++ s.usr ++ s.dropped
      rw [accepted_snoc, accepted_snoc, handedOut_snoc, handedOut_snoc, hs]
      simp
    · refine pcs_set h hr ?_ ?_
      · rw [openCall_snoc]; simp [openStep, PcOk]
      · intro r' hne
        rw [openCall_snoc, (openStep_other hne).2.2, openCall_snoc, (openStep_other hne).1]
    · left
      show s.usr.length ≤ _
      rw [hu]
      exact Nat.zero_le _
  | callWait r timeout t1 hh hr hu =>
    have hpc : openCall r s.log = none := by have := h.pcs r; rw [hr] at this; exact this
    refine ⟨h.isOpen, h.sched, h.good.snoc hpc, ?_, h.alive, fun x => (isSome_not_none hh x).elim, ?_, ?_⟩
    · show accepted _ = handedOut _ ++ s.usr ++ s.dropped
      rw [accepted_snoc, handedOut_snoc, hs]
      simp
    · refine pcs_set h hr ?_ ?_
      · rw [openCall_snoc]; exact ⟨timeout, t1, by simp [openStep], rfl⟩
      · intro r' hne
        rw [openCall_snoc, (openStep_other hne).1]
    · left
      show s.usr.length ≤ _
      rw [hu]
      exact Nat.zero_le _
  | runGot r due m rest hr hu =>
    have hh := idle_not_dead h hr (fun e => by cases e)
    have hpc := h.pcs r
    rw [hr] at hpc
    obtain ⟨to, t1, hoc, _⟩ := hpc
    refine ⟨h.isOpen, h.sched, h.good.snoc ⟨by rw [hoc]; rfl, rest, ?_⟩, ?_, h.alive,
      fun x => (isSome_not_none hh x).elim, ?_, ?_⟩
    · rw [hs, h.alive hh, hu]
      simp
    · show accepted _ = handedOut _ ++ rest ++ s.dropped
      rw [accepted_snoc, handedOut_snoc, hs, h.alive hh, hu]
      simp
    · refine pcs_set h hr ?_ ?_
      · rw [openCall_snoc]; simp [openStep, PcOk]
      · intro r' hne
        rw [openCall_snoc, (openStep_other hne).2.1]
    · have hc := countP_set_pc (q := .idle) hr
      simp only [PC.isWoken] at hc
      rcases h.wake with hw | hw
      · left
        rw [hu] at hw
        simp at hc hw ⊢
        omega
      · right
        exact any_set rfl hw
  | runGaveUp r due t hr hu hle =>
    have hh := idle_not_dead h hr (fun e => by cases e)
    have hpc := h.pcs r
    rw [hr] at hpc
    obtain ⟨to, t1, hoc, hd⟩ := hpc
    refine ⟨h.isOpen, h.sched, h.good.snoc ⟨to, t1, hoc, hd ▸ hle, ?_⟩, ?_, h.alive,
      fun x => (isSome_not_none hh x).elim, ?_, ?_⟩
    · rw [hs, h.alive hh, hu]
      simp
    · show accepted _ = handedOut _ ++ s.usr ++ s.dropped
      rw [accepted_snoc, handedOut_snoc, hs]
      simp
    · refine pcs_set h hr ?_ ?_
      · rw [openCall_snoc]; simp [openStep, PcOk]
      · intro r' hne
        rw [openCall_snoc, (openStep_other hne).2.2]
    · left
      show s.usr.length ≤ _
      rw [hu]
      exact Nat.zero_le _
  | runWait r due hr hu =>
    have hh := idle_not_dead h hr (fun e => by cases e)
    have hpc := h.pcs r
    rw [hr] at hpc
    refine ⟨h.isOpen, h.sched, h.good, hs, h.alive, fun x => (isSome_not_none hh x).elim, ?_, ?_⟩
    · exact pcs_set h hr (log := s.log) hpc (fun _ _ => rfl)
    · left
      show s.usr.length ≤ _
      rw [hu]
      exact Nat.zero_le _
  | die hh hall =>
    have hall' : ∀ pc ∈ s.rcv, pc = PC.idle := by simpa using hall
    refine ⟨h.isOpen, h.sched, h.good, ?_, fun x => ?_, fun _ => ⟨rfl, hall'⟩, h.pcs, .inl (Nat.zero_le _)⟩
    · show accepted s.log = handedOut s.log ++ [] ++ s.usr
      rw [hs, h.alive hh]
      simp
    · cases x

theorem Reach.inv {n : Nat} {acts : List Act} {s : St} (h : Reach n acts s) : Inv s := by
  induction h with
  | init => exact Inv.init n
  | step _ hs ih => exact ih.eff (step_eff ih.isOpen hs)

theorem reach_of_run {n : Nat} : ∀ (as acts : List Act) {s s' : St}, Reach n acts s → run s as = .ok s' →
    Reach n (acts ++ as) s' := by
  intro as
  induction as with
  | nil =>
    intro acts s s' h hr
    simp only [run] at hr
    injection hr with hr
    subst hr
    simpa using h
  | cons a as ih =>
    intro acts s s' h hr
    simp only [run] at hr
    split at hr
    · next s1 h1 =>
      have := ih (acts ++ [a]) (h.step h1) hr
      simpa using this
    · next hne => exact (hne _ hr).elim

/-! ## The property -/

/-- Every record of sends, calls and answers an execution can produce is as specified: a thread has at most one unanswered
call; an answer answers a call; a message handed out is always the oldest accepted one not handed out before; a call gives up
only with a clock reading past its due time and when every accepted message has been handed out. -/
theorem C79_observed {n : Nat} {acts : List Act} {s : St} (h : Reach n acts s) : Good s.log := h.inv.good

/-- the messages sent, read off the history -/
def sentMsgs : List Act → List Payload
  | [] => []
  | .send m _ :: r => m :: sentMsgs r
  | _ :: r => sentMsgs r

/-- the calls of `receive`, read off the history -/
def callsOf : List Act → List (Nat × Int)
  | [] => []
  | .call r _ timeout _ _ :: l => (r, timeout) :: callsOf l
  | _ :: l => callsOf l

/-- the calls of `receive` in the record -/
def called (log : List Ev) : List (Nat × Int) := log.filterMap fun | .called r timeout _ => some (r, timeout) | _ => none

theorem sentMsgs_append (a b : List Act) : sentMsgs (a ++ b) = sentMsgs a ++ sentMsgs b := by
  induction a with
  | nil => rfl
  | cons x a ih => cases x <;> simp [sentMsgs, ih]

theorem callsOf_append (a b : List Act) : callsOf (a ++ b) = callsOf a ++ callsOf b := by
  induction a with
  | nil => rfl
  | cons x a ih => cases x <;> simp [callsOf, ih]

theorem afterEnqueue_ok {s s' : St} (h : afterEnqueue s = .ok s') : s' = s := by
  unfold afterEnqueue at h
  split at h <;> cases h
  rfl

theorem finish_log (s : St) (r : Nat) (t : Int) : accepted (finish s r t).log = accepted s.log ∧ called (finish s r t).log = called s.log ∧ (finish s r t).holder = s.holder := by
  unfold finish
  split <;> simp [accepted, called, List.filterMap_append]

theorem loopHead_log (s : St) (r : Nat) (due t : Int) :
    accepted (loopHead s r due t).log = accepted s.log ∧ called (loopHead s r due t).log = called s.log ∧ (loopHead s r due t).holder = s.holder := by
  unfold loopHead
  split
  · exact ⟨rfl, rfl, rfl⟩
  · exact finish_log s r t

theorem step_log {s s' : St} {a : Act} (ho : s.isOpen = true) (h : step s a = .ok s') :
    accepted s'.log = accepted s.log ++ (if s.holder.isSome then sentMsgs [a] else []) ∧ called s'.log = called s.log ++ callsOf [a] ∧
      ((∀ o, a ≠ .destroy o) → s'.holder.isSome = s.holder.isSome) ∧ (s.holder = none → s'.holder = none) := by
  cases a with
  | send m w =>
    simp only [step, send] at h
    split at h
    · rename_i hn
      cases h
      cases hh : s.holder with
      | none => simp [callsOf]
      | some x => rw [hh] at hn; cases hn
    · rename_i hn
      split at h
      · cases h
      · rename_i t ht
        cases afterEnqueue_ok h
        have hq : s'.log = s.log ++ [.accepted m] ∧ s'.holder = s.holder := by
          rcases notifyOne_some ht with ⟨e, _⟩ | ⟨_, _, _, e⟩ <;> rw [e] <;> exact ⟨rfl, rfl⟩
        cases hh : s.holder with
        | none => rw [hh] at hn; exact absurd rfl hn
        | some x => simp [hq.1, hq.2, accepted, called, sentMsgs, callsOf, List.filterMap_append, hh]
  | sendSys k w =>
    simp only [step, sendSys] at h
    split at h
    · cases h
      simp [callsOf, sentMsgs]
    · split at h
      · cases h
      · rename_i t ht
        cases afterEnqueue_ok h
        have hq : s'.log = s.log ∧ s'.holder = s.holder := by
          rcases notifyOne_some ht with ⟨e, _⟩ | ⟨_, _, _, e⟩ <;> rw [e] <;> exact ⟨rfl, rfl⟩
        simp [hq.1, hq.2, callsOf, sentMsgs]
  | call r o timeout t1 t2 =>
    simp only [step, call] at h
    split at h
    · split at h
      · split at h
        · split at h
          · cases h
          · cases h
            obtain ⟨e1, e2, e3⟩ := loopHead_log { s with log := s.log ++ [.called r timeout t1] } r (by assumption) t2
            rw [e1, e2, e3]
            simp [accepted, called, List.filterMap_append, callsOf, sentMsgs]
        · cases h
          obtain ⟨e1, e2, e3⟩ := finish_log { s with log := s.log ++ [.called r timeout t1] } r t1
          rw [e1, e2, e3]
          simp [accepted, called, List.filterMap_append, callsOf, sentMsgs]
      · cases h
    · cases h
  | wake r =>
    simp only [step, wake] at h
    split at h <;> cases h
    simp [callsOf, sentMsgs]
  | run r t =>
    simp only [step, runWoken] at h
    split at h <;> cases h
    obtain ⟨e1, e2, e3⟩ := loopHead_log s r (by assumption) t
    rw [e1, e2, e3]
    simp [callsOf, sentMsgs]
  | move o o' =>
    simp only [step, move] at h
    split at h <;> cases h
    · rename_i hh
      simp [callsOf, sentMsgs, hh]
    · simp [callsOf, sentMsgs]
  | destroy o =>
    simp only [step, destroy] at h
    repeat' split at h
    all_goals first
      | (cases h; done)
      | (cases h; simp [callsOf, sentMsgs])

/-- Messages are accepted: as long as no inbox object is destroyed, the accepted messages are those that were sent, in order; in any case they are a beginning of them. The record has every call of `receive`. -/
theorem C79_accepts {n : Nat} {acts : List Act} {s : St} (h : Reach n acts s) :
    accepted s.log <+: sentMsgs acts ∧ ((∀ o, .destroy o ∉ acts) → accepted s.log = sentMsgs acts) ∧ called s.log = callsOf acts := by
  have key : (s.holder.isSome = true → accepted s.log = sentMsgs acts) ∧ accepted s.log <+: sentMsgs acts ∧ called s.log = callsOf acts ∧
      ((∀ o, .destroy o ∉ acts) → s.holder.isSome = true) := by
    induction h with
    | init => exact ⟨fun _ => rfl, List.prefix_rfl, rfl, fun _ => rfl⟩
    | @step acts s s' a hr hs ih =>
      obtain ⟨e1, e2, e3, e4⟩ := step_log hr.inv.isOpen hs
      obtain ⟨i1, i2, i3, i4⟩ := ih
      rw [sentMsgs_append, callsOf_append, e1, e2, i3]
      cases hh : s.holder with
      | none =>
        refine ⟨fun hx => ?_, ?_, rfl, fun hd => ?_⟩
        · rw [e4 hh] at hx; cases hx
        · simp only [Option.isSome_none, Bool.false_eq_true, if_false, List.append_nil]
          exact i2.trans (List.prefix_append _ _)
        · have := i4 (fun o ho => hd o (List.mem_append_left _ ho))
          rw [hh] at this; cases this
      | some x =>
        have i1' := i1 (by rw [hh]; rfl)
        simp only [Option.isSome_some, if_true, i1']
        refine ⟨by simp, List.prefix_rfl, trivial, fun hd => ?_⟩
        rw [e3 (fun o ho => hd o (by simp [ho])), hh]
        rfl
  exact ⟨key.2.1, fun hd => key.1 (key.2.2.2 hd), key.2.2.1⟩

/-- While the inbox exists, every accepted message was handed out exactly once or is still queued, in order; when it is
destroyed the queued ones, and only they, are lost. -/
theorem C79_exactly_once {n : Nat} {acts : List Act} {s : St} (h : Reach n acts s) :
    accepted s.log = handedOut s.log ++ s.usr ++ s.dropped ∧ (s.holder.isSome = true → s.dropped = []) ∧
      (s.holder = none → s.usr = []) :=
  ⟨h.inv.fifo, h.inv.alive, fun hn => (h.inv.dead hn).1⟩

/-- No lost wake-up: while a thread sleeps in `receive`, there are at least as many awake threads inside `receive` as
undelivered messages. -/
theorem C79_no_lost_wakeup {n : Nat} {acts : List Act} {s : St} (h : Reach n acts s) {r : Nat} {due : Int}
    (hw : s.rcv[r]? = some (.waiting due)) : s.usr.length ≤ s.rcv.countP PC.isWoken := by
  rcases h.inv.wake with h1 | h1
  · exact h1
  · rw [List.any_eq_false] at h1
    exact (h1 _ (List.mem_of_getElem? hw) rfl).elim

/-- So an undelivered message is taken by the next step of some awake thread, whatever the clock says. -/
theorem C79_progress {n : Nat} {acts : List Act} {s : St} (h : Reach n acts s) {r : Nat} {due : Int}
    (hw : s.rcv[r]? = some (.waiting due)) {m : Payload} {rest : List Payload} (hu : s.usr = m :: rest) :
    ∃ r', ∀ t, ∃ s', step s (.run r' t) = .ok s' ∧ s'.log = s.log ++ [.got r' m] ∧ s'.usr = rest := by
  have hc := C79_no_lost_wakeup h hw
  rw [hu] at hc
  have hpos : 0 < s.rcv.countP PC.isWoken := by
    simp only [List.length_cons] at hc
    omega
  obtain ⟨pc, hmem, hpc⟩ := List.countP_pos_iff.1 hpos
  obtain ⟨r', hr'⟩ := List.mem_iff_getElem?.1 hmem
  refine ⟨r', fun t => ?_⟩
  cases pc with
  | idle => cases hpc
  | waiting d => cases hpc
  | woken d =>
    refine ⟨{ s with usr := rest, rcv := s.rcv.set r' .idle, log := s.log ++ [.got r' m] }, ?_, rfl, rfl⟩
    simp [step, runWoken, hr', loopHead, hu, finish]

/-- Every `receive` ends: a sleeping thread can always be woken by its timer, and an awake one which finds a message or reads a
time past the due time of its call answers. -/
theorem C79_returns {n : Nat} {acts : List Act} {s : St} (h : Reach n acts s) {r : Nat} {timeout t1 : Int}
    (hc : openCall r s.log = some (timeout, t1)) (t : Int) (ht : t1 + timeout * 1000 ≤ t) :
    ∃ as s', (as = [.run r t] ∨ as = [.wake r, .run r t]) ∧ run s as = .ok s' ∧ openCall r s'.log = none := by
  have fin : ∀ (s : St) (due : Int), t1 + timeout * 1000 = due → s.rcv[r]? = some (.woken due) →
      ∃ s', run s [.run r t] = .ok s' ∧ openCall r s'.log = none := by
    intro s due hd hr
    refine ⟨loopHead s r due t, by simp [run, step, runWoken, hr], ?_⟩
    rcases loopHead_cases s r due t with ⟨m, rest, _, h3⟩ | ⟨_, _, h3⟩ | ⟨_, h2, _⟩
    · rw [h3]; dsimp only; rw [openCall_snoc]; simp [openStep]
    · rw [h3]; dsimp only; rw [openCall_snoc]; simp [openStep]
    · omega
  have hp := h.inv.pcs r
  rw [hc] at hp
  cases hr : s.rcv[r]? with
  | none => rw [hr] at hp; cases hp
  | some pc =>
    rw [hr] at hp
    cases pc with
    | idle => cases hp
    | woken due =>
      obtain ⟨a, b, he, hd⟩ := hp
      cases he
      obtain ⟨s', h1, h2⟩ := fin s due hd.symm hr
      exact ⟨_, s', .inl rfl, h1, h2⟩
    | waiting due =>
      obtain ⟨a, b, he, hd⟩ := hp
      cases he
      obtain ⟨s', h1, h2⟩ := fin { s with rcv := s.rcv.set r (.woken due) } due hd.symm
        (List.getElem?_set_self (lt_of_some hr))
      refine ⟨_, s', .inr rfl, ?_, h2⟩
      have hw : step s (.wake r) = .ok { s with rcv := s.rcv.set r (.woken due) } := by simp [step, wake, hr]
      rw [run, hw]
      exact h1

/-- `receive()`, or any `receive` without a positive timeout, answers at once when the clock does not go back: with the oldest
message if there is one. -/
theorem C79_poll_partial {n : Nat} {acts : List Act} {s : St} (_h : Reach n acts s) {r o : Nat} {timeout t1 t2 : Int}
    (hz : timeout ≤ 0) (hm : t1 ≤ t2) {s' : St} (hs : step s (.call r o timeout t1 t2) = .ok s') :
    s'.log = s.log ++ [.called r timeout t1] ++
      [match s.usr with | m :: _ => .got r m | [] => .gaveUp r t2] := by
  simp only [step, call] at hs
  split at hs
  · split at hs
    · cases hu : s.usr with
      | nil =>
        simp only [hu, List.isEmpty_nil, if_true] at hs
        split at hs
        · cases hs
        · next due hd =>
          have hdue := dueTime_some hd
          injection hs with hs
          subst hs
          rw [loopHead, if_neg (by simp; omega)]
          simp [finish]
      | cons m rest =>
        simp only [hu, List.isEmpty_cons, Bool.false_eq_true, if_false] at hs
        injection hs with hs
        subst hs
        simp [finish]
    · cases hs
  · cases hs

/-- Sending to an inbox never runs anything and is never undefined, and system messages (`stop`, `watch`) change nothing an
observer sees: the only uses which are undefined are `receive` on an object which does not hold the mailbox any more, a
`receive` which finds no message and whose due time does not fit the clock, and destroying the inbox under a `receive`. -/
theorem C79_undefined_iff {n : Nat} {acts : List Act} {s : St} (h : Reach n acts s) (a : Act) :
    step s a = .ub ↔
      (∃ r o timeout t1 t2, a = .call r o timeout t1 t2 ∧ s.rcv[r]? = some .idle ∧
        (s.holder ≠ some o ∨ (s.usr = [] ∧
          ¬ (-2 ^ 63 ≤ timeout * 1000 ∧ timeout * 1000 < 2 ^ 63 ∧
             -2 ^ 63 ≤ t1 + timeout * 1000 ∧ t1 + timeout * 1000 < 2 ^ 63)))) ∨
      (∃ o, a = .destroy o ∧ s.holder = some o ∧ ∃ r, (openCall r s.log).isSome) := by
  have hi := h.inv
  cases a with
  | send m w =>
    constructor
    · intro hs
      simp only [step, send] at hs
      split at hs
      · cases hs
      · split at hs
        · split at hs
          · cases hs
          · next s1 h1 =>
            have : s1.scheduled = true := by
              rcases notifyOne_some h1 with ⟨rfl, _⟩ | ⟨_, _, _, rfl⟩ <;> exact hi.sched
            rw [afterEnqueue, if_pos this] at hs
            cases hs
        · cases hs
    · rintro (⟨_, _, _, _, _, e, _⟩ | ⟨_, e, _⟩) <;> cases e
  | sendSys k w =>
    constructor
    · intro hs
      simp only [step, sendSys] at hs
      split at hs
      · cases hs
      · split at hs
        · split at hs
          · cases hs
          · next s1 h1 =>
            have : s1.scheduled = true := by
              rcases notifyOne_some h1 with ⟨rfl, _⟩ | ⟨_, _, _, rfl⟩ <;> exact hi.sched
            rw [afterEnqueue, if_pos this] at hs
            cases hs
        · cases hs
    · rintro (⟨_, _, _, _, _, e, _⟩ | ⟨_, e, _⟩) <;> cases e
  | wake r =>
    constructor
    · intro hs
      simp only [step, wake] at hs
      split at hs <;> cases hs
    · rintro (⟨_, _, _, _, _, e, _⟩ | ⟨_, e, _⟩) <;> cases e
  | run r t =>
    constructor
    · intro hs
      simp only [step, runWoken] at hs
      split at hs <;> cases hs
    · rintro (⟨_, _, _, _, _, e, _⟩ | ⟨_, e, _⟩) <;> cases e
  | move o o' =>
    constructor
    · intro hs
      simp only [step, move] at hs
      split at hs <;> cases hs
    · rintro (⟨_, _, _, _, _, e, _⟩ | ⟨_, e, _⟩) <;> cases e
  | call r o timeout t1 t2 =>
    have hdue : dueTime t1 timeout = none ↔ ¬ (-2 ^ 63 ≤ timeout * 1000 ∧ timeout * 1000 < 2 ^ 63 ∧
             -2 ^ 63 ≤ t1 + timeout * 1000 ∧ t1 + timeout * 1000 < 2 ^ 63) := by
      unfold dueTime inInt64
      split
      · next hx =>
        simp only [Bool.and_eq_true, decide_eq_true_eq] at hx
        constructor
        · intro e; cases e
        · intro hn; exact (hn (by omega)).elim
      · next hx =>
        simp only [Bool.and_eq_true, decide_eq_true_eq] at hx
        constructor
        · intro _ hn; exact hx (by omega)
        · intro _; rfl
    constructor
    · intro hs
      simp only [step, call] at hs
      split at hs
      · next hr =>
        refine .inl ⟨r, o, timeout, t1, t2, rfl, hr, ?_⟩
        split at hs
        · split at hs
          · next hu =>
            split at hs
            · next hd => exact .inr ⟨by simpa using hu, hdue.1 hd⟩
            · cases hs
          · cases hs
        · next hh => exact .inl hh
      · cases hs
    · rintro (⟨_, _, _, _, _, e, hr, hx⟩ | ⟨_, e, _⟩)
      · cases e
        simp only [step, call, hr]
        rcases hx with hx | ⟨hu, hd⟩
        · rw [if_neg hx]
        · split
          · simp [hu, hdue.2 hd]
          · rfl
      · cases e
  | destroy o =>
    have hall : s.rcv.all (· = .idle) = false ↔ ∃ r, (openCall r s.log).isSome := by
      constructor
      · intro hx
        rw [List.all_eq_false] at hx
        obtain ⟨pc, hm, hne⟩ := hx
        obtain ⟨r, hr⟩ := List.mem_iff_getElem?.1 hm
        have hp := hi.pcs r
        rw [hr] at hp
        refine ⟨r, ?_⟩
        cases pc with
        | idle => simp at hne
        | waiting d => obtain ⟨_, _, he, _⟩ := hp; rw [he]; rfl
        | woken d => obtain ⟨_, _, he, _⟩ := hp; rw [he]; rfl
      · rintro ⟨r, hr⟩
        have hp := hi.pcs r
        rw [List.all_eq_false]
        cases hx : s.rcv[r]? with
        | none => rw [hx] at hp; rw [show openCall r s.log = none from hp] at hr; cases hr
        | some pc =>
          refine ⟨pc, List.mem_of_getElem? hx, ?_⟩
          rw [hx] at hp
          cases pc with
          | idle => rw [show openCall r s.log = none from hp] at hr; cases hr
          | waiting d => simp
          | woken d => simp
    constructor
    · intro hs
      simp only [step, destroy] at hs
      split at hs
      · next hh =>
        split at hs
        · cases hs
        · next hx => exact .inr ⟨o, rfl, hh, hall.1 (by simpa using hx)⟩
      · cases hs
    · rintro (⟨_, _, _, _, _, e, _⟩ | ⟨_, e, hh, hx⟩)
      · cases e
      · cases e
        simp only [step, destroy, if_pos hh]
        rw [if_neg (by rw [hall.2 hx]; exact Bool.false_ne_true)]

/-- System messages sent to an inbox are kept for ever and are invisible. -/
theorem C79_system_invisible {n : Nat} {acts : List Act} {s s' : St} (h : Reach n acts s) {k : Nat} {w : Option Nat}
    (hs : step s (.sendSys k w) = .ok s') : s'.log = s.log ∧ s'.usr = s.usr ∧ s'.holder = s.holder ∧
      (s.holder.isSome = true → s'.sys = s.sys ++ [k]) := by
  simp only [step, sendSys] at hs
  split at hs
  · next hx =>
    injection hs with hs
    subst hs
    refine ⟨rfl, rfl, rfl, fun hy => ?_⟩
    cases hz : s.holder with
    | none => rw [hz] at hy; cases hy
    | some _ => rw [hz] at hx; cases hx
  · have ho := h.inv.isOpen
    split at hs
    · split at hs
      · cases hs
      · next s1 h1 =>
        simp only [afterEnqueue] at hs
        split at hs
        · injection hs with hs
          subst hs
          rcases notifyOne_some h1 with ⟨rfl, _⟩ | ⟨_, _, _, rfl⟩ <;> exact ⟨rfl, rfl, rfl, fun _ => rfl⟩
        · cases hs
    · next hc => exact (hc ho).elim

/-! ## Where the code falls short -/

/-- A null answer does not mean that no message came: a message with an empty `any` is taken from the queue and gives the same
answer as giving up. -/
theorem C79_null_means_nothing_violated :
    ∃ acts s e, Reach 1 acts s ∧ s.log.getLast? = some e ∧ answer e = some none ∧
      ∃ r m, e = .got r m :=
  ⟨[.send none none, .call 0 0 5 100 100], _, .got 0 none, reach_of_run _ [] .init rfl, rfl, rfl, 0, none, rfl⟩

/-- `receive` on an inbox which was moved from is undefined. -/
theorem C79_moved_from_violated : ∃ acts s, Reach 1 acts s ∧ step s (.call 0 0 5 100 100) = .ub :=
  ⟨[.move 0 1], _, reach_of_run _ [] .init rfl, rfl⟩

/-- Waiting "for ever" (`std::chrono::microseconds::max()`) on an empty inbox is undefined. -/
theorem C79_wait_for_ever_violated : ∃ acts s, Reach 1 acts s ∧ step s (.call 0 0 9223372036854775807 100 100) = .ub :=
  ⟨[], _, .init, rfl⟩

/-- `receive()` can sleep when the clock is set back between its two readings. -/
theorem C79_poll_violated : ∃ acts s, Reach 1 acts s ∧ s.log = [.called 0 0 100] ∧ s.rcv = [.waiting 100] :=
  ⟨[.call 0 0 0 100 99], _, reach_of_run _ [] .init rfl, rfl, rfl⟩

/-! ## Non-vacuity -/

/-- Two threads wait, two messages come, one timer fires; a third call gives up. -/
def demo : List Act :=
  [.call 0 0 1 0 0, .call 1 0 2 10 10, .send (some 7) (some 1), .sendSys 3 (some 0), .send (some 8) none,
   .run 0 500, .run 1 600, .call 2 0 0 700 700, .call 0 0 1 800 900, .wake 0, .run 0 1000, .wake 0, .run 0 1800]

example : ∃ s, Reach 3 demo s ∧ s.log =
    [.called 0 1 0, .called 1 2 10, .accepted (some 7), .accepted (some 8), .got 0 (some 7), .got 1 (some 8),
     .called 2 0 700, .gaveUp 2 700, .called 0 1 800, .gaveUp 0 1800] :=
  ⟨_, reach_of_run demo [] .init rfl, by decide⟩

/-- A sleeping thread, a message and an awake thread at once. -/
example : ∃ s, Reach 2 [.call 0 0 1 0 0, .call 1 0 2 10 10, .send (some 7) (some 1)] s ∧
    s.rcv[0]? = some (.waiting 1000) ∧ s.usr = [some 7] ∧ openCall 0 s.log = some (1, 0) :=
  ⟨_, reach_of_run _ [] .init rfl, by decide, by decide, by decide⟩

/-- Messages are lost only by destroying the inbox. -/
example : ∃ s, Reach 1 [.send (some 7) none, .send (some 8) none, .call 0 0 0 0 0, .move 0 4, .destroy 4, .send (some 9) none] s ∧
    handedOut s.log = [some 7] ∧ s.dropped = [some 8] ∧ accepted s.log = [some 7, some 8] :=
  ⟨_, reach_of_run _ [] .init rfl, by decide, by decide, by decide⟩

/-- Destroying the inbox under a `receive` is undefined. -/
example : ∃ s, Reach 1 [.call 0 0 1 0 0] s ∧ step s (.destroy 0) = .ub :=
  ⟨_, reach_of_run _ [] .init rfl, by decide⟩

end Verif.Inbox
