/-!
Model of `yato::actors::thread_pool` (`/repo/modules/actors/yato/actors/private/thread_pool.h`).

A transition system whose atomic actions are the critical sections under `m_mutex`.  A worker blocked in
`m_cvar.wait` (l.47) is `wait`; a worker that will next evaluate the predicate under the lock is `check`.
`notify_one` wakes an arbitrary blocked worker, `notify_all` wakes all of them; spurious wake-ups are allowed.
`m_log` is never assigned (l.38, 41-74), so every use of it dereferences a null pointer: outcome `ub`.

Simplifications: tasks are identified by numbers; an empty `std::function` is not enqueued.  The destructor is split into
setting the flag (`stop`, l.77-81) and the joins (l.82-84), which return when every worker is `done`.
-/
set_option autoImplicit false

namespace Verif.ThreadPool

/-- Position of a worker in `thread_function` (l.42-69). -/
inductive W where
  | check            -- about to lock and evaluate the predicate (l.46-47)
  | wait             -- blocked in m_cvar.wait
  | exec (t : Nat)   -- running `task()` (l.57-68)
  | done             -- left the loop (l.48-50)
deriving DecidableEq, Repr

structure St where
  queue : List Nat       -- m_tasks
  stop : Bool            -- m_stop
  workers : List W       -- m_threads
  accepted : List Nat    -- ghost: tasks for which enqueue pushed
  started : List Nat     -- ghost: tasks taken from the queue, in order
  finished : List Nat    -- ghost: tasks that returned
deriving DecidableEq, Repr

/-- Constructor (l.41-74). -/
def init (threads : Nat) : St :=
  { queue := [], stop := false, workers := List.replicate threads .check, accepted := [], started := [], finished := [] }

inductive Act where
  | enqueue (t : Nat) (wake : Option Nat)
  | stop
  | check (i : Nat)
  | finish (i : Nat) (throws : Bool)
  | spurious (i : Nat)
deriving DecidableEq, Repr

inductive Res where
  | disabled
  | ub
  | ok (s : St)
deriving DecidableEq

/-- `notify_one`: `some i` wakes the blocked worker `i`; `none` is only possible if no worker is blocked. -/
def notifyOne (ws : List W) : Option Nat → Option (List W)
  | some i => if ws[i]? = some .wait then some (ws.set i .check) else none
  | none => if W.wait ∈ ws then none else some ws

/-- `notify_all`. -/
def notifyAll (ws : List W) : List W := ws.map fun w => if w = .wait then .check else w

def step (s : St) : Act → Res
  -- `enqueue` (l.91-100)
  | .enqueue t wake =>
    if s.stop then .ub
    else
      match notifyOne s.workers wake with
      | none => .disabled
      | some ws => .ok { s with queue := s.queue ++ [t], accepted := s.accepted ++ [t], workers := ws }
  -- destructor, first part (l.77-81)
  | .stop => if s.stop then .disabled else .ok { s with stop := true, workers := notifyAll s.workers }
  -- predicate and queue access (l.46-55)
  | .check i =>
    if s.workers[i]? = some .check then
      match s.queue with
      | [] =>
        if s.stop then .ok { s with workers := s.workers.set i .done }
        else .ok { s with workers := s.workers.set i .wait }
      | t :: q => .ok { s with queue := q, workers := s.workers.set i (.exec t), started := s.started ++ [t] }
    else .disabled
  -- end of `task()` (l.58-66)
  | .finish i throws =>
    match s.workers[i]? with
    | some (.exec t) =>
      if throws then .ub else .ok { s with workers := s.workers.set i .check, finished := s.finished ++ [t] }
    | _ => .disabled
  | .spurious i => if s.workers[i]? = some .wait then .ok { s with workers := s.workers.set i .check } else .disabled

/-- States reachable without undefined behaviour by the interleaving `acts`. -/
inductive Reach (threads : Nat) : List Act → St → Prop
  | init : Reach threads [] (init threads)
  | step {acts s a s'} : Reach threads acts s → step s a = .ok s' → Reach threads (acts ++ [a]) s'

/-- Runs a list of actions. -/
def run (s : St) : List Act → Res
  | [] => .ok s
  | a :: as =>
    match step s a with
    | .ok s' => run s' as
    | r => r

/-- The destructor's joins return (l.82-84): the flag is set and every worker has left its loop. -/
def destroyed (s : St) : Prop := s.stop = true ∧ ∀ w ∈ s.workers, w = W.done

end Verif.ThreadPool
