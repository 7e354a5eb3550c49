/-!
Model of `yato::actors::scheduler` (`/repo/modules/actors/yato/actors/private/scheduler.h`).

Time points are natural numbers; `now` is the value of the clock, which only moves forward.  The scheduler thread is a
single thread; its atomic pieces are the parts between releasing and re-acquiring `m_mutex`.  Spurious wake-ups are allowed.

Simplifications: tasks are identified by numbers; exceptions of tasks are swallowed (l.87-95; the logger is created in the
constructor, `std::packaged_task` stores the exception anyway).
-/
set_option autoImplicit false

namespace Verif.Scheduler

/-- An event (l.39-43). -/
structure Event where
  time : Nat
  id : Nat
deriving DecidableEq, Repr

/-- Position of the scheduler thread (l.56-98). -/
inductive Th where
  | active                 -- holds or is about to take the lock and evaluate the conditions
  | waitEmpty              -- blocked in m_condition.wait (l.69)
  | waitUntil (t : Nat)    -- blocked in m_condition.wait_until (l.77)
  | exec (e : Event)       -- running the task (l.86-96)
  | exited
deriving DecidableEq, Repr

structure St where
  events : List Event       -- m_events
  now : Nat
  soft : Bool               -- m_soft_stop
  force : Bool              -- m_force_stop
  th : Th
  notifies : Nat            -- threads between releasing the lock and `notify_one`
  enqueued : List Event     -- ghost: arguments of enqueue, in order
  started : List Event      -- ghost: events popped for execution, in order
deriving DecidableEq, Repr

/-- Constructor (l.101-105). -/
def init (now : Nat) : St :=
  { events := [], now := now, soft := false, force := false, th := .active, notifies := 0, enqueued := [], started := [] }

/-- `std::upper_bound` with `comp(e1, e2) = e1.time > e2.time` followed by `insert` (l.144-145).  The first element for
which `comp(evt, element)` holds; for a vector that is partitioned by the comparison binary and linear search agree. -/
def insertEvent (e : Event) : List Event → List Event
  | [] => [e]
  | x :: xs => if e.time > x.time then e :: x :: xs else x :: insertEvent e xs

/-- `m_condition.notify_one()` (l.113, 126, 147): the only possible waiter is the scheduler thread. -/
def notify (th : Th) : Th :=
  match th with
  | .waitEmpty => .active
  | .waitUntil _ => .active
  | th => th

inductive Act where
  | enqueue (e : Event)     -- enqueue (l.132-150)
  | tick (d : Nat)          -- the clock advances
  | softStop                -- destructor (l.107-115)
  | forceStop               -- stop() (l.120-127)
  | notify                  -- the notify_one that follows one of the three above
  | thread                  -- the scheduler thread makes its next step
  | wake                    -- time-out of wait_until or a spurious wake-up
deriving DecidableEq, Repr

/-- One locked piece of `thread_function` (l.61-85). -/
def threadStep (s : St) : St :=
  if s.force then { s with th := .exited }                                        -- l.62-64, 70-72, 78-80
  else
    match s.events.getLast? with
    | none => if s.soft then { s with th := .exited } else { s with th := .waitEmpty }  -- l.65-73
    | some e =>
      if e.time > s.now then { s with th := .waitUntil e.time }                    -- l.74-82
      else { s with events := s.events.dropLast, th := .exec e, started := s.started ++ [e] }  -- l.83-84

/-- `none`: the action is not enabled. -/
def step (s : St) : Act → Option St
  | .enqueue e =>
    some { s with events := insertEvent e s.events, notifies := s.notifies + 1, enqueued := s.enqueued ++ [e] }
  | .tick d => some { s with now := s.now + d }
  | .softStop => some { s with soft := true, notifies := s.notifies + 1 }
  | .forceStop => some { s with force := true, notifies := s.notifies + 1 }
  | .notify => if s.notifies = 0 then none else some { s with notifies := s.notifies - 1, th := notify s.th }
  | .thread =>
    match s.th with
    | .active => some (threadStep s)
    | .exec _ => some { s with th := .active }
    | _ => none
  | .wake =>
    match s.th with
    | .waitEmpty => some { s with th := .active }
    | .waitUntil _ => some { s with th := .active }
    | _ => none

inductive Reach (now : Nat) : List Act → St → Prop
  | init : Reach now [] (init now)
  | step {acts s a s'} : Reach now acts s → step s a = some s' → Reach now (acts ++ [a]) s'

def run (s : St) : List Act → Option St
  | [] => some s
  | a :: as => (step s a).bind fun s => run s as

end Verif.Scheduler
