import Verif.Model.ActorTree

/-!
Model of a tree of actors in which every message is sent separately: `/repo/modules/actors/yato/actors/private/actor.cpp`,
`private/actor_cell.cpp`, `private/dynamic_executor.cpp`, `private/actor_system.cpp`.

`Verif.Model.ActorTree` sends all messages caused by one processed message in one step. Here an actor that has taken a message from its
mailbox goes through what the message makes it do one piece at a time: each call of the user's functions, each message sent and
the closing of the mailbox is a step of its own, and anything may happen between two of them.

Simplifications:
* an actor is a number in the order of creation; a reference is that number (it holds the mailbox) and the path;
* a mailbox is its two queues and the flag `m_is_open`; it hands out the head of the system queue first and user messages only when the
  system queue is empty and the actor is started, one at a time (proved of the mailbox in C37 and C38);
* what changes only the cell of the actor itself (`set_started`, `set_stop`, `m_watchers`, `m_children`) happens in the step that takes the
  message; so does the destruction of a child by `remove_child`, and setting the parent of a child by `add_child`, both of which happen
  before anything is sent;
* a destroyed mailbox is a closed one; it is destroyed with the cell unless the executor is still about to close it
  (dynamic_executor.cpp l.22 holds a `shared_ptr`);
* creating actors and sending messages from the user's functions are steps of their own, which may happen at any time between the start
  and the closing of the mailbox of the parent;
* the detour of top level actors through `root_add` is not modelled.
-/
set_option autoImplicit false

namespace Verif.ActorSteps
open Verif.ActorCell
open Verif.ActorTree (terminatedMsg plainMsg carries)

/-- One actor: cell, mailbox, the message it is working on, and constants. -/
structure Act where
  cell : Cell
  sys : List Msg         -- mailbox::m_sys_queue
  usr : List Msg         -- mailbox::m_usr_queue
  isOpen : Bool          -- mailbox::m_is_open
  alive : Bool           -- the cell exists
  out : List Eff         -- what is left to be done for the message taken last
  stop : Bool            -- `request_stop` is or will be returned, dynamic_executor.cpp l.35
  begun : Bool           -- ghost: `start` was taken
  parent : Option Nat    -- where `attach_child` was sent
  path : Nat
  ok : Bool              -- whether `pre_start` returns normally
  told : Bool            -- ghost: a `stop` was taken while there were children
  log : List Eff         -- ghost: what was done so far
deriving DecidableEq, Repr

structure St where
  n : Nat                -- number of actors created so far
  act : Nat → Act
  ub : Bool

/-- A new actor (actor_cell.cpp l.20-36, actor_system.cpp l.240-241). -/
def Act.new (parent path : Nat) (ok : Bool) : Act :=
  ⟨Cell.fresh false, [], [], true, true, [], false, false, some parent, path, ok, false, []⟩

/-- The root actor, already started. -/
def Act.root : Act :=
  ⟨{ Cell.fresh false with started := true }, [], [], true, true, [], false, true, none, 0, true, false, [.preStart true]⟩

def St.init : St := ⟨1, fun _ => Act.root, false⟩

def St.upd (s : St) (i : Nat) (a : Act) : St := { s with act := fun k => if k = i then a else s.act k }

/-- `enqueue_system_message` (mailbox.cpp l.51-67): refused when closed. -/
def Act.pushSys (a : Act) (m : Msg) : Act := if a.isOpen then { a with sys := a.sys ++ [m] } else a
/-- `enqueue_user_message` (mailbox.cpp l.32-48): refused when closed. -/
def Act.pushUsr (a : Act) (m : Msg) : Act := if a.isOpen then { a with usr := a.usr ++ [m] } else a

/-- `start`, system_message.h -/
def isStartMsg : Msg → Bool
  | .start _ => true
  | _ => false

def isDestroy : Eff → Bool
  | .destroy _ => true
  | _ => false

/-- The actor that an effect destroys. -/
def victim : Eff → Option Nat
  | .destroy c => some c.id
  | _ => none

/-- The child that `add_child` makes one of this actor (actor.cpp l.223-229, actor_cell.cpp l.42-50). -/
def adoptee (c : Cell) : Msg → Option Nat
  | .attach ch => if c.stopping then none else some ch.id
  | _ => none

/-- `add_child` sets the parent of the child (actor_cell.cpp l.46). -/
def Act.adopted (a : Act) : Act := { a with cell := { a.cell with hasParent := true } }

/-- The cell is gone. -/
def Act.dead (a : Act) : Act := { a with alive := false, isOpen := a.isOpen && a.stop }

/-- It is undefined behaviour to destroy an actor that runs, that is in the middle of a message, or that has children. -/
def Act.busy (a : Act) : Bool := (a.isOpen && a.cell.started) || !a.out.isEmpty || !a.cell.children.isEmpty

/-- The cell of actor `k` is destroyed, and so are the cells in the messages of its mailbox. -/
def St.kill (s : St) (k : Nat) : St :=
  { s with act := fun j => if j = k ∨ (s.act k).sys.any (carries j) = true then (s.act j).dead else s.act j, ub := s.ub || (s.act k).busy }

/-- Actor `i` takes the message `m` from its mailbox, `sys` and `usr` are what is left (dynamic_executor.cpp l.28-43): the change of the cell,
and what is left to be done. -/
def takeMsg (s : St) (i : Nat) (m : Msg) (sys usr : List Msg) : St :=
  let a := s.act i
  let r := process a.cell m
  let s1 := s.upd i { a with cell := r.1, sys := sys, usr := usr, out := r.2.1.filter (fun e => !isDestroy e), stop := r.2.2, begun := a.begun || isStartMsg m, told := a.told || (m == .stop && !r.2.2) }
  let s2 := match adoptee a.cell m with
    | some k => s1.upd k (s1.act k).adopted
    | none => s1
  match r.2.1.findSome? victim with
  | some k => s2.kill k
  | none => s2

/-- What the environment sees of one effect of actor `i`: a message is sent (actor.cpp l.82, 152-157, 193-195, 230). -/
def send (s : St) (i : Nat) : Eff → St
  | .startTo c => s.upd c.id ((s.act c.id).pushSys (.start (s.act c.id).ok))
  | .detachToParent =>
    match (s.act i).parent with
    | some p => s.upd p ((s.act p).pushSys (.detach (s.act i).path))
    | none => s
  | .stopSelf => s.upd i ((s.act i).pushSys .stop)
  | .pillTo c => s.upd c.id ((s.act c.id).pushUsr .pill)
  | .tellTerminated w => s.upd w ((s.act w).pushUsr (terminatedMsg i))
  | .preStart _ => s
  | .postStop => s
  | .receive _ => s
  | .destroy _ => s

/-- Messages that can be sent from outside or by user code. -/
inductive Ext where
  | stop
  | stopAfterChildren
  | unwatch (w : Nat)
  | pill
  | user (m : Nat)
deriving DecidableEq, Repr

inductive Action where
  | create (parent path : Nat) (ok : Bool)  -- create_actor_impl_ (actor_system.cpp l.229-251)
  | send (i : Nat) (m : Ext)                -- send_user_impl_, send_system_impl_ (l.254-295), stop_impl_ (l.316-324)
  | watch (w i : Nat)                       -- watch (l.357-374)
  | takeSys (i : Nat)                       -- the mailbox hands out a system message
  | takeUsr (i : Nat)                       -- the mailbox hands out a user message
  | emit (i : Nat)                          -- the next piece of what the message makes the actor do
  | close (i : Nat)                         -- `request_stop`: the executor closes the mailbox (dynamic_executor.cpp l.37)
deriving DecidableEq, Repr

/-- One action; `none` if it is not possible. -/
def step (s : St) : Action → Option St
  | .create p path ok =>
    if p < s.n && (s.act p).isOpen && (s.act p).begun then
      let s1 := s.upd p ((s.act p).pushSys (.attach ⟨s.n, path⟩))
      some { s1.upd s.n (Act.new p path ok) with n := s.n + 1 }
    else none
  | .send i m =>
    if i < s.n then
      some (s.upd i (match m with
        | .stop => (s.act i).pushSys .stop
        | .stopAfterChildren => (s.act i).pushSys .stopAfterChildren
        | .unwatch w => (s.act i).pushSys (.unwatch w)
        | .pill => (s.act i).pushUsr .pill
        | .user m => (s.act i).pushUsr (plainMsg m)))
    else none
  | .watch w i =>
    if w < s.n && i < s.n then
      if (s.act i).alive then some (s.upd i ((s.act i).pushSys (.watch w)))
      else some (s.upd w ((s.act w).pushUsr (terminatedMsg i)))
    else none
  | .takeSys i =>
    if i < s.n && (s.act i).isOpen && (s.act i).out.isEmpty && !(s.act i).stop then
      match (s.act i).sys with
      | [] => none
      | m :: ms => some (takeMsg s i m ms (s.act i).usr)
    else none
  | .takeUsr i =>
    if i < s.n && (s.act i).isOpen && (s.act i).out.isEmpty && !(s.act i).stop && (s.act i).cell.started && (s.act i).sys.isEmpty then
      match (s.act i).usr with
      | [] => none
      | m :: ms => some (takeMsg s i m [] ms)
    else none
  | .emit i =>
    if i < s.n then
      match (s.act i).out with
      | [] => none
      | e :: es => some (send (s.upd i { s.act i with out := es, log := (s.act i).log ++ [e] }) i e)
    else none
  | .close i =>
    if i < s.n && (s.act i).isOpen && (s.act i).out.isEmpty && (s.act i).stop then some (s.upd i { s.act i with isOpen := false })
    else none

def run (s : St) : List Action → Option St
  | [] => some s
  | a :: as => (step s a).bind fun s' => run s' as

/-! ### Well-behaved environments -/

/-- What the environment must respect (as in `Verif.Model.ActorTree`): `pre_start` does not fail, an actor is created under a name that no
living actor of the same parent has, and an actor is told to stop only after its parent has attached it. -/
def Good (s : St) : Action → Prop
  | .create p path ok => ok = true ∧ ∀ j < s.n, (s.act j).alive = true → (s.act j).parent = some p → (s.act j).path ≠ path
  | .send i .stop => i = 0 ∨ (s.act i).cell.hasParent = true
  | .send i .stopAfterChildren => i = 0 ∨ (s.act i).cell.hasParent = true
  | .send i .pill => i = 0 ∨ (s.act i).cell.hasParent = true
  | _ => True

/-- Executions in which every action is good. -/
inductive GoodRun : St → List Action → St → Prop
  | nil (s : St) : GoodRun s [] s
  | cons {s s1 s' : St} {a : Action} {as : List Action} : Good s a → step s a = some s1 → GoodRun s1 as s' → GoodRun s (a :: as) s'

/-- Steps of the executors, as opposed to requests of users. -/
def isInternal : Action → Bool
  | .takeSys _ => true
  | .takeUsr _ => true
  | .emit _ => true
  | .close _ => true
  | _ => false

/-- No actor can go on. -/
def Quiescent (s : St) : Prop := ∀ i, step s (.takeSys i) = none ∧ step s (.takeUsr i) = none ∧ step s (.emit i) = none ∧ step s (.close i) = none

end Verif.ActorSteps
