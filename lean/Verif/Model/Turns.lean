import Verif.Model.Mailbox
/-!
Model of several mailboxes served by the thread pool of one `dynamic_executor`:
`/repo/modules/actors/yato/actors/private/dynamic_executor.cpp` (l.22-70) and `private/thread_pool.h` (l.28-101), on top of
the model of one mailbox (`Verif.Mailbox`).

Simplifications: the boxes are given by their numbers and their set does not change; a box's `queued` counts its tasks in
the pool, the queue here says in which order they stand; the pool is not being destroyed (`m_stop` is false); waking up
(`m_cvar`) is the subject of the `ThreadPool` model, here an idle thread may take the front task at any time.
-/
set_option autoImplicit false

namespace Verif.Turns

open Verif.Mailbox (St Act)

/-- The mailboxes of the actors on one dispatcher and the pool's `m_tasks` (thread_pool.h l.31): the boxes the waiting
`mailbox_function` tasks are bound to, front first. -/
structure Pool where
  boxes : List St
  queue : List Nat
deriving DecidableEq

/-- Fresh mailboxes and an empty pool (dynamic_executor.cpp l.55-59). -/
def init (n : Nat) : Pool := { boxes := List.replicate n Mailbox.init, queue := [] }

/-- Threads that are inside `task()` (thread_pool.h l.57-59). -/
def busy (s : Pool) : Nat := (s.boxes.map fun x => x.running.length).sum

inductive PAct where
  /-- a sender, the actor's own task or its parent acts on box `b` (any action of the mailbox model but `pick`) -/
  | act (b : Nat) (a : Act)
  /-- an idle pool thread takes the front task (thread_pool.h l.46-55) and starts `mailbox_function` -/
  | take
deriving DecidableEq

inductive Res where
  | disabled
  | ub
  | ok (s : Pool)
deriving DecidableEq

/-- An action of box `b`; the tasks it hands to `execute` (dynamic_executor.cpp l.65-70) go to the back of the queue
(thread_pool.h l.92-100). -/
def boxStep (throughput : Nat) (s : Pool) (b : Nat) (a : Act) : Res :=
  match s.boxes[b]? with
  | none => .disabled
  | some x =>
    match Mailbox.step throughput x a with
    | .disabled => .disabled
    | .ub => .ub
    | .ok y => .ok { boxes := s.boxes.set b y, queue := s.queue ++ List.replicate (y.queued - x.queued) b }

/-- One action; `threads` is the number of pool threads (thread_pool.h l.71-73). -/
def step (threads throughput : Nat) (s : Pool) : PAct → Res
  | .act b a => if a = .pick then .disabled else boxStep throughput s b a
  | .take =>
    match s.queue with
    | [] => .disabled
    | b :: rest => if busy s < threads then boxStep throughput { s with queue := rest } b .pick else .disabled

/-- Runs a list of actions. -/
def run (threads throughput : Nat) (s : Pool) : List PAct → Res
  | [] => .ok s
  | a :: as =>
    match step threads throughput s a with
    | .ok s' => run threads throughput s' as
    | r => r

/-- States reachable without undefined behaviour from `n` fresh mailboxes. -/
inductive Reach (threads throughput n : Nat) : List PAct → Pool → Prop
  | init : Reach threads throughput n [] (init n)
  | step {acts s a s'} : Reach threads throughput n acts s → step threads throughput s a = .ok s' →
      Reach threads throughput n (acts ++ [a]) s'

end Verif.Turns
