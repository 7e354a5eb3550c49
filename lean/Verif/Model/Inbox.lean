/-!
Model of `yato::actors::inbox`: `/repo/modules/actors/yato/actors/inbox.h`, `private/inbox.cpp`, and the parts of
`private/mailbox.cpp` an inbox uses (`mailbox` constructor in manual mode, `enqueue_*`, `pop_user_message_sync`), with the
senders of `private/actor_system.cpp` (`send_user_impl_`, `send_system_impl_`).

Any number of threads send to the inbox and a fixed number of threads call `receive`.  The atomic actions are the critical
sections under `m_mutex`, cut where `wait_until` releases the mutex:

* `send m w` / `sendSys k w` : a message is enqueued; `w` is the waiting thread `notify_one` wakes (any waiting thread, none
  only when nobody waits);
* `call r h timeout t1 t2`   : thread `r` calls `receive(timeout)` on the object `h`; `t1`, `t2` are the two clock readings of
  l.111 and l.112.  Readings are arbitrary numbers: nothing is assumed about the clock;
* `wake r`                   : `wait_until` of thread `r` returns because the time is up or for no reason;
* `run r t`                  : a woken thread has the mutex again and evaluates the loop condition with the reading `t`;
* `move h h'`                : `inbox h'(std::move(h))`;
* `destroy h`                : `~inbox` of the object `h`.

Simplifications: a message is its payload, `none` is an empty `yato::any`; messages are not null (mailbox.cpp l.34, 53);
`make_shared`/`queue::push` do not throw; a sender's `weak_ptr::lock` and its enqueue are one action (a message enqueued to a
mailbox only kept by the sender is lost like one sent later); the clock counts 64 bit nanoseconds and `timeout_type` is 64 bit
microseconds (actor_common.h), so `now() + timeout` multiplies by 1000; the moment of a call is the moment its thread gets the
mutex.  `log` and `dropped` are ghost histories.
-/
set_option autoImplicit false

namespace Verif.Inbox

/-- Payload of a message (message.h): `none` is an empty `yato::any`. -/
abbrev Payload := Option Nat

/-- Position of a receiving thread in `pop_user_message_sync` (mailbox.cpp l.106-121). -/
inductive PC where
  /-- not inside `receive` -/
  | idle
  /-- inside `wait_until` (l.113), not notified -/
  | waiting (due : Int)
  /-- `wait_until` was notified or timed out, the mutex is not yet taken again -/
  | woken (due : Int)
deriving DecidableEq, Repr

/-- What an observer sees. -/
inductive Ev where
  | accepted (m : Payload)
  | called (r : Nat) (timeout t1 : Int)
  | got (r : Nat) (m : Payload)
  | gaveUp (r : Nat) (t : Int)
deriving DecidableEq, Repr

structure St where
  holder : Option Nat      -- the inbox object whose m_mailbox is not null (inbox.h l.31)
  usr : List Payload       -- m_usr_queue (mailbox.h l.30)
  sys : List Nat           -- m_sys_queue (l.31)
  isOpen : Bool            -- m_is_open (l.39)
  scheduled : Bool         -- m_is_scheduled (l.40)
  rcv : List PC            -- receiving threads
  log : List Ev
  dropped : List Payload   -- messages destroyed with the mailbox
deriving DecidableEq, Repr

/-- `mailbox(node, manual_mode)` (mailbox.cpp l.16-26) without a node: the pair `m_is_open`, `m_is_scheduled`. -/
def mailboxFlags (manual : Bool) : Bool × Bool :=
  if manual then (true, true) else (true, false)

/-- `inbox::inbox(system, name)` (inbox.cpp l.18-24), object number 0, `n` threads which may call `receive`. -/
def init (n : Nat) : St :=
  { holder := some 0, usr := [], sys := [], isOpen := (mailboxFlags true).1, scheduled := (mailboxFlags true).2,
    rcv := List.replicate n .idle, log := [], dropped := [] }

inductive Act where
  | send (m : Payload) (w : Option Nat)
  | sendSys (k : Nat) (w : Option Nat)
  | call (r h : Nat) (timeout t1 t2 : Int)
  | wake (r : Nat)
  | run (r : Nat) (t : Int)
  | move (h h' : Nat)
  | destroy (h : Nat)
deriving DecidableEq, Repr

/-- Result of an action: not enabled, undefined behaviour, or a new state. -/
inductive Res where
  | disabled
  | ub
  | ok (s : St)
deriving DecidableEq

def PC.isWaiting : PC → Bool
  | .waiting _ => true
  | _ => false

def PC.isWoken : PC → Bool
  | .woken _ => true
  | _ => false

/-- `m_condition.notify_one()` (mailbox.cpp l.43, 62): wakes the waiting thread `w`. -/
def notifyOne (s : St) : Option Nat → Option St
  | none => if s.rcv.any PC.isWaiting then none else some s
  | some r =>
    match s.rcv[r]? with
    | some (.waiting due) => some { s with rcv := s.rcv.set r (.woken due) }
    | _ => none

/-- After an enqueue: `schedule_for_execution` is called iff `need_process` (actor_system.cpp l.269-271, 290-292), and it
dereferences the null owner node of an inbox (mailbox.cpp l.77). -/
def afterEnqueue (s : St) : Res := if s.scheduled then .ok s else .ub

/-- `send_user_impl_` to `ref()` (actor_system.cpp l.254-272), `enqueue_user_message` (mailbox.cpp l.32-48). -/
def send (s : St) (m : Payload) (w : Option Nat) : Res :=
  if s.holder.isNone then .ok s                          -- the weak pointer has expired
  else if s.isOpen then
    match notifyOne { s with usr := s.usr ++ [m], log := s.log ++ [.accepted m] } w with
    | none => .disabled
    | some s' => afterEnqueue s'
  else .ok s

/-- `send_system_impl_` and the other system messages (actor_system.cpp l.275-294), `enqueue_system_message` (mailbox.cpp
l.51-67). -/
def sendSys (s : St) (k : Nat) (w : Option Nat) : Res :=
  if s.holder.isNone then .ok s
  else if s.isOpen then
    match notifyOne { s with sys := s.sys ++ [k] } w with
    | none => .disabled
    | some s' => afterEnqueue s'
  else .ok s

def inInt64 (x : Int) : Bool := -9223372036854775808 ≤ x && x ≤ 9223372036854775807

/-- `now() + timeout` (mailbox.cpp l.111), `none` for a signed overflow. -/
def dueTime (t1 timeout : Int) : Option Int :=
  if inInt64 (timeout * 1000) && inInt64 (t1 + timeout * 1000) then some (t1 + timeout * 1000) else none

/-- Taking the front message (mailbox.cpp l.116-120) or the end of the call without one. -/
def finish (s : St) (r : Nat) (t : Int) : St :=
  match s.usr with
  | m :: rest => { s with usr := rest, rcv := s.rcv.set r .idle, log := s.log ++ [.got r m] }
  | [] => { s with rcv := s.rcv.set r .idle, log := s.log ++ [.gaveUp r t] }

/-- The condition of the loop and what follows (mailbox.cpp l.112-120), the clock reading being `t`. -/
def loopHead (s : St) (r : Nat) (due t : Int) : St :=
  if s.usr.isEmpty && t < due then { s with rcv := s.rcv.set r (.waiting due) } else finish s r t

/-- `inbox::receive` (inbox.h l.62-72, inbox.cpp l.27-31), `pop_user_message_sync` (mailbox.cpp l.106-121) up to the first
wait. -/
def call (s : St) (r h : Nat) (timeout t1 t2 : Int) : Res :=
  match s.rcv[r]? with
  | some .idle =>
    if s.holder = some h then
      let s := { s with log := s.log ++ [.called r timeout t1] }
      if s.usr.isEmpty then
        match dueTime t1 timeout with
        | none => .ub
        | some due => .ok (loopHead s r due t2)
      else .ok (finish s r t1)
    else .ub                                             -- m_mailbox is null, inbox.cpp l.29
  | _ => .disabled

/-- `wait_until` returns without a notification (mailbox.cpp l.113). -/
def wake (s : St) (r : Nat) : Res :=
  match s.rcv[r]? with
  | some (.waiting due) => .ok { s with rcv := s.rcv.set r (.woken due) }
  | _ => .disabled

/-- The woken thread goes on with the loop (mailbox.cpp l.112). -/
def runWoken (s : St) (r : Nat) (t : Int) : Res :=
  match s.rcv[r]? with
  | some (.woken due) => .ok (loopHead s r due t)
  | _ => .disabled

/-- `inbox(inbox&&) = default` (inbox.h l.47): the shared pointer moves to the new object. -/
def move (s : St) (h h' : Nat) : Res :=
  if s.holder = some h then .ok { s with holder := some h' } else .ok s

/-- `~inbox` (inbox.h l.44): the mailbox dies with the object which holds it.  A thread inside `receive` then uses a destroyed
mutex. -/
def destroy (s : St) (h : Nat) : Res :=
  if s.holder = some h then
    if s.rcv.all (· = .idle) then .ok { s with holder := none, usr := [], sys := [], dropped := s.usr } else .ub
  else .ok s

def step (s : St) : Act → Res
  | .send m w => send s m w
  | .sendSys k w => sendSys s k w
  | .call r h timeout t1 t2 => call s r h timeout t1 t2
  | .wake r => wake s r
  | .run r t => runWoken s r t
  | .move h h' => move s h h'
  | .destroy h => destroy s h

/-- States reachable by an execution `acts` (in order) that ran without undefined behaviour. -/
inductive Reach (n : Nat) : List Act → St → Prop
  | init : Reach n [] (init n)
  | step {acts : List Act} {s s' : St} {a : Act} : Reach n acts s → step s a = .ok s' → Reach n (acts ++ [a]) s'

/-- Runs a list of actions. -/
def run (s : St) : List Act → Res
  | [] => .ok s
  | a :: as =>
    match step s a with
    | .ok s' => run s' as
    | r => r

/-- What `receive` returns to its caller for an event (inbox.cpp l.30): the payload, or `nullany`. -/
def answer : Ev → Option Payload
  | .got _ m => some m
  | .gaveUp _ _ => some none
  | _ => none

end Verif.Inbox
