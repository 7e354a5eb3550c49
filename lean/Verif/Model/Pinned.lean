import Verif.Model.Mailbox

/-!
# Model of `pinned_executor`: one thread for each mailbox

`/repo/modules/actors/yato/actors/private/pinned_executor.cpp` with `private/mailbox.cpp`, for any number of mailboxes on one executor.

The atomic actions are the critical sections under the mutex of a mailbox and the pieces between them, as in `Verif.Mailbox`; but `execute` (pinned_executor.cpp l.69-79), which a sender calls inside
`schedule_for_execution` with the mutex of *its* mailbox locked, takes two actions, `schedBegin` and `schedEnd`, because it has no lock of its own: calls for two mailboxes can overlap. Overlapping calls
are a data race on `m_threads`, which is undefined behaviour.

* Messages are numbers; what a system message does to the actor is an `Outcome`, as in `Verif.Mailbox`.
* A thread that waits on the condition variable is woken by `notify_one` of `enqueue_*`, or for no reason; only threads of the same mailbox wait on it.
* A thread that has ended stays in `m_threads`: `made` is the size of that vector.
* Starting a thread always succeeds. Exceptions of actor code are caught by the actor (actor.cpp l.86-95).
* `acc*`, `pop*` are ghost histories: messages accepted, and messages handed out.
-/
set_option autoImplicit false

namespace Verif.Pinned
open Verif.Mailbox (Outcome)

/-- Position of a thread inside `pinned_thread_function` (pinned_executor.cpp l.24-52). -/
inductive PC where
  /-- a new thread, about to copy the reference to the actor (l.27) -/
  | start
  /-- about to try to pop (mailbox.cpp l.171) -/
  | top
  /-- asleep in `m_condition.wait` (mailbox.cpp l.175) -/
  | wait
  /-- inside `receive_system_message_` (l.34) -/
  | sysMsg (m : Nat)
  /-- inside `receive_message_` (l.40) -/
  | usrMsg (m : Nat)
  /-- out of the loop, about to call `close` (l.43) -/
  | closing
  /-- after `close`, inside `notify_on_stop` (l.44) -/
  | notify
deriving DecidableEq, Repr

/-- a mailbox with its cell and its threads -/
structure Box where
  usr : List Nat
  sys : List Nat
  isOpen : Bool
  scheduled : Bool
  started : Bool
  alive : Bool
  detached : Bool
  pending : Nat
  thr : List PC
  accUsr : List Nat
  accSys : List Nat
  popUsr : List Nat
  popSys : List Nat
deriving DecidableEq, Repr

/-- mailbox.h l.39-40, actor_cell.cpp l.20-36 -/
def Box.init : Box :=
  { usr := [], sys := [], isOpen := true, scheduled := false, started := false, alive := true, detached := false, pending := 0, thr := [], accUsr := [], accSys := [], popUsr := [], popSys := [] }

structure St where
  /-- `m_threads.size()` -/
  made : Nat
  /-- the mailbox for which `execute` is running; its mutex is locked -/
  busy : Option Nat
  box : Nat → Box

def St.init : St := ⟨0, none, fun _ => Box.init⟩

def St.set (s : St) (b : Nat) (x : Box) : St := { s with box := fun c => if c = b then x else s.box c }

inductive Act where
  | enqUsr (b m : Nat)
  | enqSys (b m : Nat)
  | schedBegin (b : Nat)
  | schedEnd (b : Nat)
  | task (b i : Nat) (o : Outcome)
  | destroy (b : Nat)
deriving DecidableEq, Repr

inductive Res where
  | disabled
  | ub
  | ok (s : St)

/-- `m_condition.notify_one()`: the first thread that waits is woken -/
def wake : List PC → List PC
  | [] => []
  | .wait :: l => .top :: l
  | pc :: l => pc :: wake l

/-- `enqueue_user_message` (mailbox.cpp l.32-48) -/
def Box.enqUsr (x : Box) (m : Nat) : Box :=
  if x.isOpen then { x with usr := x.usr ++ [m], accUsr := x.accUsr ++ [m], thr := wake x.thr, pending := if x.scheduled then x.pending else x.pending + 1 } else x

/-- `enqueue_system_message` (mailbox.cpp l.51-67) -/
def Box.enqSys (x : Box) (m : Nat) : Box :=
  if x.isOpen then { x with sys := x.sys ++ [m], accSys := x.accSys ++ [m], thr := wake x.thr, pending := if x.scheduled then x.pending else x.pending + 1 } else x

/-- `has_something_to_process` (mailbox.cpp l.77-79) -/
def Box.hasWork (x : Box) : Bool := if x.started then (!x.usr.isEmpty && x.isOpen) || !x.sys.isEmpty else !x.sys.isEmpty

/-- One piece of `pinned_thread_function` of thread `i` of a mailbox; `none` is undefined behaviour. -/
def Box.task (x : Box) (i : Nat) (o : Outcome) : PC → Option Box
  | .start => if x.alive then some { x with thr := x.thr.set i .top } else none
  | .top =>
    -- try_pop_prioritized_message_, mailbox.cpp l.133-156
    match x.sys with
    | m :: rest => some { x with sys := rest, popSys := x.popSys ++ [m], thr := x.thr.set i (.sysMsg m) }
    | [] =>
      if x.alive then
        if x.started then
          match x.usr with
          | m :: rest => some { x with usr := rest, popUsr := x.popUsr ++ [m], thr := x.thr.set i (.usrMsg m) }
          | [] => some { x with thr := x.thr.set i .wait }
        else some { x with thr := x.thr.set i .wait }
      else none
  | .wait => some { x with thr := x.thr.set i .top }
  | .sysMsg _ =>
    if x.alive then
      match o with
      | .keep => some { x with thr := x.thr.set i .top }
      | .startOk => some { x with started := true, thr := x.thr.set i .top }
      | .startFail => some { x with started := false, thr := x.thr.set i .closing }
      | .stopped => some { x with started := false, detached := true, thr := x.thr.set i .closing }
    else none
  | .usrMsg _ => if x.alive then some { x with thr := x.thr.set i .top } else none
  | .closing => some { x with isOpen := false, scheduled := false, thr := x.thr.set i .notify }
  | .notify => some { x with thr := x.thr.eraseIdx i }

/-- the pieces that lock the mutex of the mailbox -/
def PC.locks : PC → Bool
  | .top => true
  | .wait => true
  | .closing => true
  | _ => false

/-- the part of `schedule_for_execution` before `execute` (mailbox.cpp l.72-81) and the start of `execute` -/
def schedBegin (s : St) (b : Nat) : Res :=
  let x := s.box b
  if x.pending = 0 ∨ s.busy = some b then .disabled
  else
    let y := { x with pending := x.pending - 1 }
    if x.scheduled then .ok (s.set b y)
    else if !x.alive then .ub
    else if !x.hasWork then .ok (s.set b { y with scheduled := false })
    else if s.busy.isSome then .ub
    else .ok { (s.set b y) with busy := some b }

/-- the end of `execute` (pinned_executor.cpp l.69-79) and of `schedule_for_execution` -/
def schedEnd (limit : Nat) (s : St) (b : Nat) : Res :=
  if s.busy ≠ some b then .disabled
  else if s.made ≥ limit then .ok { (s.set b { s.box b with scheduled := false }) with busy := none }
  else .ok { (s.set b { s.box b with scheduled := true, thr := (s.box b).thr ++ [.start] }) with busy := none, made := s.made + 1 }

def step (limit : Nat) (s : St) : Act → Res
  | .enqUsr b m => if s.busy = some b then .disabled else .ok (s.set b ((s.box b).enqUsr m))
  | .enqSys b m => if s.busy = some b then .disabled else .ok (s.set b ((s.box b).enqSys m))
  | .schedBegin b => schedBegin s b
  | .schedEnd b => schedEnd limit s b
  | .task b i o =>
    match (s.box b).thr[i]? with
    | none => .disabled
    | some pc =>
      if pc.locks && s.busy = some b then .disabled
      else
        match (s.box b).task i o pc with
        | none => .ub
        | some y => .ok (s.set b y)
  | .destroy b => if (s.box b).detached ∧ (s.box b).alive then .ok (s.set b { s.box b with alive := false }) else .disabled

/-- States reachable by an execution without undefined behaviour. -/
inductive Reach (limit : Nat) : List Act → St → Prop
  | init : Reach limit [] St.init
  | step {acts : List Act} {s s' : St} {a : Act} : Reach limit acts s → step limit s a = .ok s' → Reach limit (acts ++ [a]) s'

def run (limit : Nat) (s : St) : List Act → Res
  | [] => .ok s
  | a :: as =>
    match step limit s a with
    | .ok s' => run limit s' as
    | r => r

end Verif.Pinned
