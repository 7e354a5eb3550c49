import Verif.Model.ActorCell

/-!
Model of a whole tree of actors exchanging system messages: `/repo/modules/actors/yato/actors/private/actor_system.cpp`
together with the reactions of one actor (`Verif.Model.ActorCell`).

An execution is a sequence of actions chosen by an arbitrary scheduler: an actor is created, a message is sent from
outside or from user code, one mailbox hands out one message.

Simplifications:
* an actor is identified by a number in order of creation; a reference is that number (it holds the mailbox) and the path;
* a mailbox is its two queues and the `open` flag; it hands out the head of the system queue first and user
  messages only when the system queue is empty and the actor is started (proved of the mailbox itself in C37, together with
  the mutual exclusion C38);
* an actor is created below a given parent by sending `attach_child` to it (actor_system.cpp l.229-251); the detour of
  top level actors through `root_add` (private/actors/root.cpp) is not modelled;
* all messages caused by one processed message are sent in one step, except that the scheduler may interleave them with
  anything afterwards;
* messages whose processing creates actors or sends messages are `create`/`send` actions of their own, right after the step
  that runs the user's function;
* destroying the cell of an actor which is started and not closed is undefined behaviour (the executor may be running it):
  it sets `ub`.
-/
set_option autoImplicit false

namespace Verif.ActorTree
open Verif.ActorCell

/-- One actor: cell, mailbox and constants. -/
structure Act where
  cell : Cell
  sys : List Msg
  usr : List Msg
  isOpen : Bool          -- mailbox::m_is_open
  alive : Bool           -- the cell exists
  parent : Option Nat    -- where `attach_child` was sent
  path : Nat
  ok : Bool              -- whether `pre_start` returns normally
  told : Bool            -- ghost: a `stop` was processed while there were children
  log : List Eff         -- ghost: effects so far
deriving DecidableEq, Repr

structure St where
  n : Nat                -- number of actors created so far
  act : Nat → Act
  ub : Bool

/-- A new actor (actor_cell.cpp l.20-36, actor_system.cpp l.240-241). -/
def Act.new (parent path : Nat) (ok : Bool) : Act :=
  { cell := Cell.fresh false, sys := [], usr := [], isOpen := true, alive := true, parent := some parent, path := path, ok := ok,
    told := false, log := [] }

/-- The root actor, already started. -/
def Act.root : Act :=
  { cell := { Cell.fresh false with started := true }, sys := [], usr := [], isOpen := true, alive := true, parent := none, path := 0,
    ok := true, told := false, log := [.preStart true] }

def St.init : St := { n := 1, act := fun _ => Act.root, ub := false }

def St.upd (s : St) (i : Nat) (a : Act) : St := { s with act := fun k => if k = i then a else s.act k }

/-- The user message `terminated(i)` (actors.h); other user messages are even. -/
def terminatedMsg (i : Nat) : Msg := .user (2 * i + 1)
def plainMsg (m : Nat) : Msg := .user (2 * m)

/-- `enqueue_system_message` (mailbox.cpp l.51-67): refused when closed. -/
def Act.pushSys (a : Act) (ms : List Msg) : Act := if a.isOpen then { a with sys := a.sys ++ ms } else a
/-- `enqueue_user_message` (mailbox.cpp l.32-48): refused when closed. -/
def Act.pushUsr (a : Act) (ms : List Msg) : Act := if a.isOpen then { a with usr := a.usr ++ ms } else a

/-- `true` if the message carries the cell of actor `k`. -/
def carries (k : Nat) : Msg → Bool
  | .attach c => c.id == k
  | _ => false

/-- Destroying cell `c` destroys actor `c.id` and the cells inside messages still queued in its mailbox. -/
def kills (s : St) (k : Nat) : Eff → Bool
  | .destroy c => c.id == k || (s.act c.id).sys.any (carries k)
  | _ => false

/-- `add_child` sets the parent of the attached child (actor_cell.cpp l.46). -/
def adopts (k : Nat) : Eff → Bool
  | .startTo c => c.id == k
  | _ => false

/-- System messages that an effect of actor `i` sends to actor `k` (actor.cpp l.155-157, 230, 81). -/
def sysTo (s : St) (i k : Nat) : Eff → Option Msg
  | .startTo c => if c.id = k then some (.start (s.act k).ok) else none
  | .detachToParent => if (s.act i).parent = some k then some (.detach (s.act i).path) else none
  | .stopSelf => if i = k then some .stop else none
  | _ => none

/-- User messages that an effect of actor `i` sends to actor `k` (actor.cpp l.150-153, 193-195). -/
def usrTo (i k : Nat) : Eff → Option Msg
  | .pillTo c => if c.id = k then some .pill else none
  | .tellTerminated w => if w = k then some (terminatedMsg i) else none
  | _ => none

/-- Actor `k` after the effects of actor `i`. -/
def deliver (s : St) (i : Nat) (es : List Eff) (k : Nat) : Act :=
  let a := s.act k
  if es.any (kills s k) then { a with alive := false, isOpen := false }
  else
    let b := (a.pushSys (es.filterMap (sysTo s i k))).pushUsr (es.filterMap (usrTo i k))
    { b with cell := { b.cell with hasParent := b.cell.hasParent || es.any (adopts k) } }

/-- An effect destroys the cell of a running actor. -/
def breaks (s : St) : Eff → Bool
  | .destroy c => (s.act c.id).isOpen && (s.act c.id).cell.started
  | _ => false

/-- Actor `i` processes message `m`, which has been taken from its mailbox (`sys`, `usr` are what is left): dynamic_executor.cpp
l.27-41, with `mailbox::close` if the result is `request_stop`. -/
def procMsg (s : St) (i : Nat) (m : Msg) (sys usr : List Msg) : St :=
  let a := s.act i
  let r := process a.cell m
  let a' := { a with cell := r.1, sys := sys, usr := usr, isOpen := !r.2.2, log := a.log ++ r.2.1, told := a.told || (m == .stop && !r.2.2) }
  let s1 := s.upd i a'
  { n := s.n, act := deliver s1 i r.2.1, ub := s.ub || r.2.1.any (breaks s1) }

/-- Messages that can be sent from outside or by user code. -/
inductive Ext where
  | stop
  | stopAfterChildren
  | unwatch (w : Nat)
  | pill
  | user (m : Nat)
deriving DecidableEq, Repr

inductive Action where
  | create (parent path : Nat) (ok : Bool)  -- create_actor_impl_ (actor_system.cpp l.229-251)
  | send (i : Nat) (m : Ext)                -- send_user_impl_, send_system_impl_ (l.254-295), stop_impl_ (l.316-324)
  | watch (w i : Nat)                       -- watch (l.357-374)
  | runSys (i : Nat)                        -- mailbox hands out a system message
  | runUsr (i : Nat)                        -- mailbox hands out a user message
deriving DecidableEq, Repr

/-- One action; `none` if it is not possible. -/
def step (s : St) : Action → Option St
  | .create p path ok =>
    if p < s.n && (s.act p).isOpen && (s.act p).cell.started then
      let s1 := s.upd p ((s.act p).pushSys [.attach ⟨s.n, path⟩])
      some { s1.upd s.n (Act.new p path ok) with n := s.n + 1 }
    else none
  | .send i m =>
    if i < s.n then
      some (s.upd i (match m with
        | .stop => (s.act i).pushSys [.stop]
        | .stopAfterChildren => (s.act i).pushSys [.stopAfterChildren]
        | .unwatch w => (s.act i).pushSys [.unwatch w]
        | .pill => (s.act i).pushUsr [.pill]
        | .user m => (s.act i).pushUsr [plainMsg m]))
    else none
  | .watch w i =>
    if w < s.n && i < s.n then
      if (s.act i).alive then some (s.upd i ((s.act i).pushSys [.watch w]))
      else some (s.upd w ((s.act w).pushUsr [terminatedMsg i]))
    else none
  | .runSys i =>
    if i < s.n && (s.act i).isOpen then
      match (s.act i).sys with
      | [] => none
      | m :: ms => some (procMsg s i m ms (s.act i).usr)
    else none
  | .runUsr i =>
    if i < s.n && (s.act i).isOpen && (s.act i).cell.started && (s.act i).sys.isEmpty then
      match (s.act i).usr with
      | [] => none
      | m :: ms => some (procMsg s i m [] ms)
    else none

def run (s : St) : List Action → Option St
  | [] => some s
  | a :: as => (step s a).bind fun s' => run s' as

/-! ### Well-behaved environments -/

/-- What the environment must respect for the tree to behave (each condition is necessary, see the `_violated` theorems of
`Verif.Props.C45_ActorTree`): `pre_start` does not fail, an actor is created under a name that no living actor of the same parent
has, and an actor is told to stop only after its parent has attached it. -/
def Good (s : St) : Action → Prop
  | .create p path ok => ok = true ∧ ∀ j < s.n, (s.act j).alive = true → (s.act j).parent = some p → (s.act j).path ≠ path
  | .send i .stop => i = 0 ∨ (s.act i).cell.hasParent = true
  | .send i .stopAfterChildren => i = 0 ∨ (s.act i).cell.hasParent = true
  | .send i .pill => i = 0 ∨ (s.act i).cell.hasParent = true
  | _ => True

/-- Executions in which every action is good. -/
inductive GoodRun : St → List Action → St → Prop
  | nil (s : St) : GoodRun s [] s
  | cons {s s1 s' : St} {a : Action} {as : List Action} : Good s a → step s a = some s1 → GoodRun s1 as s' → GoodRun s (a :: as) s'

/-- No mailbox has a message it could hand out. -/
def Quiescent (s : St) : Prop := ∀ i, step s (.runSys i) = none ∧ step s (.runUsr i) = none

end Verif.ActorTree
