/-!
Model of one actor mailbox, its senders and the dynamic executor:
`/repo/modules/actors/yato/actors/private/mailbox.cpp`, `private/dynamic_executor.cpp`,
`private/actor_system.cpp` (`send_user_impl_`, `send_system_impl_`, `stop_impl_`, `watch`).

A state holds the mailbox fields and the position of every thread that is inside mailbox code.  The atomic actions are the
critical sections under `m_mutex` and the unlocked pieces between them:

* `enqUsr m` / `enqSys m` : `enqueue_user_message` / `enqueue_system_message` (mailbox.cpp l.32-67) by some sender;
* `sched`                 : a sender whose enqueue returned `true` calls `schedule_for_execution()`
                            (actor_system.cpp l.269-271, 290-292, 321-323);
* `pick`                  : a pool thread takes the queued mailbox task and starts `mailbox_function`
                            (dynamic_executor.cpp l.22-25);
* `task i o`              : the next piece of the `i`-th running `mailbox_function`; `o` is what the actor's code does
                            when a system message is processed;
* `destroy`               : the parent processes `detach_child` and destroys the cell (actor.cpp l.234-235,
                            actor_cell.cpp l.53-60).  Possible as soon as `stop_impl` has sent `detach_child`.

Simplifications: messages are identified by numbers and are not null (mailbox.cpp l.34, 53); exceptions of actor code are
swallowed by the actor (actor.cpp l.86-95); `notify_on_stop` does not touch the cell; condition variables are only used by
the pinned executor and `inbox` and are not modelled here.  The pool's `enqueue` always succeeds (thread_pool.h, pool not
stopped).  `acc*`, `pop*` are ghost histories: messages accepted by `enqueue_*` and handed out by `pop_*`.
-/
set_option autoImplicit false

namespace Verif.Mailbox

/-- Position of a thread inside `dynamic_executor::mailbox_function` (dynamic_executor.cpp l.22-52). -/
inductive PC where
  /-- about to call `pop_prioritized_message` (l.28); `count` user messages done in this batch -/
  | pop (count : Nat)
  /-- inside `receive_system_message_` (l.35) -/
  | sysMsg (m : Nat) (count : Nat)
  /-- inside `receive_message_` (l.43) -/
  | usrMsg (m : Nat) (count : Nat)
  /-- about to call `schedule_for_execution(true)` (l.51) -/
  | resched
  /-- `request_stop` was returned, about to call `close()` (l.37) -/
  | closing
  /-- after `close()`, inside `notify_on_stop` (l.38) -/
  | notify
deriving DecidableEq, Repr

/-- What processing a system message does (actor.cpp l.161-271). -/
inductive Outcome where
  /-- any message returning `keep_running` other than a successful `start` -/
  | keep
  /-- `start`, `pre_start` succeeded: `set_started(true)`, `keep_running` (l.166-185) -/
  | startOk
  /-- `start`, `pre_start` threw: `set_started(false)`, `request_stop` (l.179-183) -/
  | startFail
  /-- `stop_impl()` and `request_stop` (l.186-190, 199-203, 237-240): `set_started(false)`, `detach_child` sent -/
  | stopped
deriving DecidableEq, Repr

structure St where
  usr : List Nat          -- m_usr_queue (mailbox.h l.30)
  sys : List Nat          -- m_sys_queue (l.31)
  isOpen : Bool           -- m_is_open (l.39)
  scheduled : Bool        -- m_is_scheduled (l.40)
  started : Bool          -- actor_cell::m_started (actor_cell.h l.54)
  alive : Bool            -- the cell behind m_owner_node exists
  detached : Bool         -- stop_impl has sent detach_child
  pending : Nat           -- senders between a `true` enqueue and their schedule call
  queued : Nat            -- mailbox tasks waiting in the pool
  running : List PC       -- threads inside mailbox_function
  accUsr : List Nat
  accSys : List Nat
  popUsr : List Nat
  popSys : List Nat
deriving DecidableEq, Repr

/-- A fresh mailbox (mailbox.h l.39-40, actor_cell.cpp l.20-36). -/
def init : St :=
  { usr := [], sys := [], isOpen := true, scheduled := false, started := false, alive := true, detached := false,
    pending := 0, queued := 0, running := [], accUsr := [], accSys := [], popUsr := [], popSys := [] }

inductive Act where
  | enqUsr (m : Nat)
  | enqSys (m : Nat)
  | sched
  | pick
  | task (i : Nat) (o : Outcome)
  | destroy
deriving DecidableEq, Repr

/-- Result of an action: not enabled, undefined behaviour (the destroyed cell is accessed), or a new state. -/
inductive Res where
  | disabled
  | ub
  | ok (s : St)
deriving DecidableEq

/-- `enqueue_user_message` (mailbox.cpp l.32-48). -/
def enqUsr (s : St) (m : Nat) : St :=
  if s.isOpen then
    { s with usr := s.usr ++ [m], accUsr := s.accUsr ++ [m], pending := if s.scheduled then s.pending else s.pending + 1 }
  else s

/-- `enqueue_system_message` (mailbox.cpp l.51-67). -/
def enqSys (s : St) (m : Nat) : St :=
  if s.isOpen then
    { s with sys := s.sys ++ [m], accSys := s.accSys ++ [m], pending := if s.scheduled then s.pending else s.pending + 1 }
  else s

/-- `has_something_to_process` (mailbox.cpp l.77-79). -/
def hasWork (s : St) : Bool :=
  if s.started then (!s.usr.isEmpty && s.isOpen) || !s.sys.isEmpty else !s.sys.isEmpty

/-- `schedule_for_execution(reschedule)` (mailbox.cpp l.70-88) with `dynamic_executor::execute` (dynamic_executor.cpp
l.65-70). -/
def schedule (s : St) (reschedule : Bool) : Res :=
  if !s.scheduled || reschedule then
    if s.alive then
      if hasWork s then .ok { s with queued := s.queued + 1, scheduled := true }
      else .ok { s with scheduled := false }
    else .ub
  else .ok s

/-- `close` (mailbox.cpp l.125-130). -/
def close (s : St) : St := { s with isOpen := false, scheduled := false }

/-- `dynamic_executor` throughput and replacement of the position of task `i`. -/
def setPC (s : St) (i : Nat) (pc : PC) : St := { s with running := s.running.set i pc }

def Res.map (r : Res) (f : St → St) : Res :=
  match r with
  | .disabled => .disabled
  | .ub => .ub
  | .ok s => .ok (f s)

/-- One piece of `mailbox_function` (dynamic_executor.cpp l.22-52) of the `i`-th running task. -/
def taskStep (throughput : Nat) (s : St) (i : Nat) (o : Outcome) : Res :=
  match s.running[i]? with
  | none => .disabled
  | some (.pop c) =>
    -- pop_prioritized_message, mailbox.cpp l.133-163
    match s.sys with
    | m :: rest => .ok (setPC { s with sys := rest, popSys := s.popSys ++ [m] } i (.sysMsg m c))
    | [] =>
      if s.alive then
        if s.started then
          match s.usr with
          | m :: rest => .ok (setPC { s with usr := rest, popUsr := s.popUsr ++ [m] } i (.usrMsg m c))
          | [] => .ok (setPC s i .resched)
        else .ok (setPC s i .resched)
      else .ub
  | some (.sysMsg _ c) =>
    if s.alive then
      match o with
      | .keep => .ok (setPC s i (.pop c))
      | .startOk => .ok (setPC { s with started := true } i (.pop c))
      | .startFail => .ok (setPC { s with started := false } i .closing)
      | .stopped => .ok (setPC { s with started := false, detached := true } i .closing)
    else .ub
  | some (.usrMsg _ c) =>
    if s.alive then
      .ok (setPC s i (if c + 1 ≥ throughput then .resched else .pop (c + 1)))      -- l.43-47
    else .ub
  | some .resched => (schedule s true).map (fun s => { s with running := s.running.eraseIdx i })  -- l.51
  | some .closing => .ok (setPC (close s) i .notify)                                   -- l.37
  | some .notify => .ok { s with running := s.running.eraseIdx i }                      -- l.38-39

def step (throughput : Nat) (s : St) : Act → Res
  | .enqUsr m => .ok (enqUsr s m)
  | .enqSys m => .ok (enqSys s m)
  | .sched => if s.pending = 0 then .disabled else schedule { s with pending := s.pending - 1 } false
  | .pick =>
    if s.queued = 0 then .disabled
    else if s.alive then .ok { s with queued := s.queued - 1, running := s.running ++ [.pop 0] }
    else .ub                                                       -- l.25 reads the actor
  | .task i o => taskStep throughput s i o
  | .destroy => if s.detached ∧ s.alive then .ok { s with alive := false } else .disabled

/-- States reachable by an execution `acts` (in order) that ran without undefined behaviour. -/
inductive Reach (throughput : Nat) : List Act → St → Prop
  | init : Reach throughput [] init
  | step {acts s a s'} : Reach throughput acts s → step throughput s a = .ok s' → Reach throughput (acts ++ [a]) s'

/-- Runs a list of actions. -/
def run (throughput : Nat) (s : St) : List Act → Res
  | [] => .ok s
  | a :: as =>
    match step throughput s a with
    | .ok s' => run throughput s' as
    | r => r

end Verif.Mailbox
