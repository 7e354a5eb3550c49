import Verif.Model.ActorPath
/-!
# Model of actor systems and references: `actor_system`, `actor_ref`, `cell_builder`

`/repo/modules/actors/yato/actors/actor_system.h`, `private/actor_system.cpp`, `actor_ref.h`, `private/actor_ref.cpp`,
`private/cell_builder.cpp`, `private/actor_cell.cpp`, and the parts of `private/mailbox.cpp`, `private/actor.cpp` they use.

A program has any number of system objects and of variables that hold references. An object, a `system_context`, an actor and a variable is its number in
a list; a `system_context` has its own number, as objects can be moved. `ub` is undefined behaviour (a null or dangling pointer is dereferenced).

Simplifications:
* An actor is its cell with its mailbox. What an executor does is split into the actions `handle`, `close` and `free` of the environment: a message is
  handled (C37-C39), the actor stops (C43-C45), the cell is destroyed (C40, C46). Each API call is one action. `watch` and `unwatch` act when they are called:
  the system messages are put in order into a queue that is handled before any user message (C37).
* The guardians between the root and the actors of the program are left out: a cell sent to the root (`root_add`) is there until `free`, as a cell sent to its
  parent (`attach_child`). A cell is freed at once if the message that owns it is dropped.
* `shutdown` is the moment it returns; that it does, and that the actors are stopped then, is C66. The execution contexts are not modelled (C48), nor `ask`, `find`
  (C67, C68), `inbox` (C79).
* A moved-from path is empty (the standard leaves it unspecified). What the actors of a moved system do with the old object, besides `tell` and
  `create_child`, is not modelled.
-/
set_option autoImplicit false

namespace Verif.Facade

open ActorPath (Str Scope isValidSystemName isValidActorName build parce join)

/-- actor_ref.h l.46-49: `m_system`, `m_mailbox` (the number of the actor), `m_path` -/
structure Ref where
  sys : Option Nat
  box : Option Nat
  path : Str
deriving DecidableEq, Repr

/-- what is told: a message of the program, or `terminated` (actor_ref.h l.146-154) -/
inductive Body (ρ : Type) | user (n : Nat) | terminated (who : ρ)
deriving DecidableEq, Repr

/-- message.h -/
structure Msg (ρ : Type) where
  body : Body ρ
  sender : ρ
deriving DecidableEq, Repr

/-- The mailbox is open; closed; destroyed with the cell. -/
inductive Phase | accepting | closed | gone
deriving DecidableEq, Repr

/-- actor_cell.h l.32-64, mailbox.h l.30-40. `handled` is a ghost: the messages handled. -/
structure Box where
  path : Str
  /-- `m_system`, an address -/
  sys : Nat
  phase : Phase
  queue : List (Msg Ref)
  handled : List (Msg Ref)
  watchers : List Ref
deriving DecidableEq, Repr

/-- actor_system.cpp l.42-59: `name`, whether the root is running, `dead_letters` -/
structure Ctx where
  name : Str
  rootOpen : Bool
  freed : Bool
  dead : Ref
deriving DecidableEq, Repr

/-- an `actor_system`: destroyed, or with its `m_context` (actor_system.h l.33) -/
inductive Obj | ended | live (ctx : Option Nat)
deriving DecidableEq, Repr

structure St where
  objs : List Obj
  ctxs : List Ctx
  boxes : List Box
  refs : List Ref
deriving DecidableEq, Repr

def St.init : St := ⟨[], [], [], []⟩

inductive Out | ok (s : St) | threw (s : St) | ub | blocked
deriving DecidableEq, Repr

/-- `m_context->...` in a member function of the object `i` -/
def St.ctx (s : St) (i : Nat) : Option (Nat × Ctx) :=
  match s.objs[i]? with
  | some (.live (some c)) =>
    match s.ctxs[c]? with
    | some x => if x.freed then none else some (c, x)
    | none => none
  | _ => none

/-- actor_cell.cpp l.20-36: `m_self` -/
def Box.self (b : Box) (k : Nat) : Ref := ⟨some b.sys, some k, b.path⟩

/-- actor_ref.cpp l.19-21: an empty reference -/
def Ref.empty : Ref := ⟨none, none, []⟩

/-- actor_ref.h l.124-128: equality compares paths -/
def Ref.same (a b : Ref) : Bool := decide (a.path = b.path)

/-- `get_mailbox().lock()` -/
def St.lock (s : St) (r : Ref) : Option (Nat × Box) :=
  match r.box with
  | none => none
  | some k =>
    match s.boxes[k]? with
    | some b => if b.phase = .gone then none else some (k, b)
    | none => none

/-- mailbox.cpp l.32-48 `enqueue_user_message` -/
def Box.enqueue (b : Box) (m : Msg Ref) : Box :=
  if b.phase = .accepting then { b with queue := b.queue ++ [m] } else b

def St.setBox (s : St) (k : Nat) (b : Box) : St := { s with boxes := s.boxes.set k b }

/-- actor_system.cpp l.254-272 `send_user_impl_` of the object `i` -/
def sendUser (s : St) (i : Nat) (to : Ref) (m : Msg Ref) : Out :=
  match s.ctx i with
  | none => .ub
  | some (_, c) =>
    if to.sys.isNone || to.same c.dead then .ok s
    else
      match s.lock to with
      | none => .ok s
      | some (k, b) => .ok (s.setBox k (b.enqueue m))

/-- the sender of a message sent without one: actor_system.h l.145-148 -/
def senderOf (c : Ctx) (from_ : Option Ref) : Ref :=
  match from_ with
  | some f => f
  | none => c.dead

/-- actor_system.h l.145-153 `send_message` of the object `i` -/
def send (s : St) (i : Nat) (to : Ref) (body : Body Ref) (from_ : Option Ref) : Out :=
  match s.ctx i with
  | none => .ub
  | some (_, c) => sendUser s i to ⟨body, senderOf c from_⟩

/-- actor_system.h l.212-224 `tell` -/
def tell (s : St) (r : Ref) (body : Body Ref) (from_ : Option Ref) : Out :=
  match r.sys with
  | none => .ub
  | some i => send s i r body from_

/-- actor_system.cpp l.357-374 `watch` of the object `i`, with actor.cpp l.207-214 -/
def watch (s : St) (i : Nat) (watchee watcher : Ref) : Out :=
  match s.ctx i with
  | none => .ub
  | some (_, c) =>
    if watchee.same c.dead || watcher.same c.dead then .ok s
    else
      match s.lock watchee with
      | none => tell s watcher (.terminated watchee) none
      | some (k, b) =>
        if b.phase = .accepting then
          .ok (s.setBox k { b with watchers := if b.watchers.any (fun w => w.same watcher) then b.watchers else b.watchers ++ [watcher] })
        else .ok s

/-- actor_system.cpp l.377-393 `unwatch`, with actor.cpp l.215-222 -/
def unwatch (s : St) (i : Nat) (watchee watcher : Ref) : Out :=
  match s.ctx i with
  | none => .ub
  | some (_, c) =>
    if watchee.same c.dead || watcher.same c.dead then .ok s
    else
      match s.lock watchee with
      | none => .ok s
      | some (k, b) =>
        if b.phase = .accepting then .ok (s.setBox k { b with watchers := b.watchers.eraseP (fun w => w.same watcher) })
        else .ok s

/-- actor.cpp l.150-154: tell the watchers -/
def notify (s : St) (self : Ref) : List Ref → Out
  | [] => .ok s
  | w :: ws =>
    match tell s w (.terminated self) (some self) with
    | .ok s' => notify s' self ws
    | o => o

/-- the scope that `create_actor_impl_` reads (actor_system.cpp l.233-238): `none` if it was never assigned or parsing the path is undefined -/
def scopeOf (path : Str) : Option Scope :=
  match parce path ⟨[], none, []⟩ false with
  | none => none
  | some (_, e) => e.scope

/-- actor_system.cpp l.229-251 `create_actor_impl_` of the object `i`; `accepts` says whether the message that owns the cell is accepted by the root or by the
parent. The constructor of the actor throws (`fails`): `cell_builder` gives null (cell_builder.cpp l.21-35) and `cell->ref()` dereferences it. -/
def createImpl (s : St) (i : Nat) (path : Str) (fails accepts : Bool) : Out :=
  match scopeOf path with
  | none => .ub
  | some scope =>
    if scope = .unknown then .threw s
    else if fails then .ub
    else
      let b : Box := ⟨path, i, if accepts then .accepting else .gone, [], [], []⟩
      .ok { s with boxes := s.boxes ++ [b], refs := s.refs ++ [b.self s.boxes.length] }

/-- actor_system.h l.126-132 `create_actor` -/
def create (s : St) (i : Nat) (name : Str) (fails : Bool) : Out :=
  if !isValidActorName name then .threw s
  else
    match s.ctx i with
    | none => .ub
    | some (_, c) =>
      match build c.name .user name with
      | none => .threw s
      | some path => createImpl s i path fails c.rootOpen

/-- `create_child` of the actor `k`: actor.cpp l.128-131, actor_system.h l.74-81 -/
def createChild (s : St) (k : Nat) (name : Str) (fails : Bool) : Out :=
  match s.boxes[k]? with
  | none => .ub
  | some b =>
    if b.phase = .gone then .ub
    else if !isValidActorName name then .threw s
    else
      match s.ctx b.sys with
      | none => .ub
      | some _ => createImpl s b.sys (join b.path name) fails (decide (b.phase = .accepting))

/-- actor_system.cpp l.33, l.127 -/
def deadPath (name : Str) : Option Str := build name .dead ['_', 'd', 'e', 'a', 'd', '_']

/-- actor_system.cpp l.120-150, the constructor; the executors are not modelled -/
def newSystem (s : St) (name : Str) : Out :=
  if !isValidSystemName name then .threw s
  else
    match deadPath name with
    | none => .threw s
    | some p =>
      .ok { s with objs := s.objs ++ [.live (some s.ctxs.length)], ctxs := s.ctxs ++ [⟨name, true, false, ⟨some s.objs.length, none, p⟩⟩] }

/-- actor_system.cpp l.169: `actor_system(actor_system&&) = default` moves `m_context` -/
def moveSystem (s : St) (i : Nat) : Out :=
  match s.objs[i]? with
  | some (.live c) => .ok { s with objs := s.objs.set i (.live none) ++ [.live c] }
  | _ => .ub

/-- Is the actor one of the context `c`? Its `m_system` is the address at which the context was made (`c.dead.sys`). -/
def Ctx.has (c : Ctx) (b : Box) : Bool := decide (c.dead.sys = some b.sys)

/-- actor_system.cpp l.173-190 `shutdown` of the object `i`: it returns when the root has stopped -/
def shutdown (s : St) (i : Nat) : Out :=
  match s.ctx i with
  | none => .ub
  | some (j, c) =>
    if s.boxes.any (fun b => c.has b && decide (b.phase = .accepting)) then .blocked
    else .ok { s with ctxs := s.ctxs.set j { c with rootOpen := false } }

/-- actor_system.cpp l.158-166, the destructor: `shutdown_impl_`, then the context with all its cells is destroyed -/
def endSystem (s : St) (i : Nat) : Out :=
  match shutdown s i with
  | .ok s1 =>
    match s1.ctx i with
    | none => .ub
    | some (j, c) =>
      .ok { s1 with
        objs := s1.objs.set i .ended
        ctxs := s1.ctxs.set j { c with freed := true }
        boxes := s1.boxes.map (fun b => if c.has b then { b with phase := .gone, queue := [] } else b) }
  | o => o

/-- What a program and its environment do. References are named by the variables that hold them. -/
inductive Op
  /-- `actor_system x(name);` -/
  | system (name : Str)
  /-- `actor_system x(std::move(y));` -/
  | moveSystem (i : Nat)
  | shutdown (i : Nat)
  /-- the object `i` is destroyed -/
  | endSystem (i : Nat)
  /-- `auto r = x.create_actor<A>(name);` `fails`: the constructor of `A` throws -/
  | create (i : Nat) (name : Str) (fails : Bool)
  /-- the actor `k` does `auto r = create_child<A>(name);` -/
  | createChild (k : Nat) (name : Str) (fails : Bool)
  /-- `actor_ref r;` -/
  | empty
  /-- `actor_ref q(r);` -/
  | copy (r : Nat)
  /-- `actor_ref q(std::move(r));` -/
  | move (r : Nat)
  /-- the actor `k` stores `self()` -/
  | self (k : Nat)
  /-- the actor `k` stores `sender()` of the message it handled last -/
  | sender (k : Nat)
  /-- `r.tell(n)` or `r.tell(n, q)` -/
  | tell (r : Nat) (n : Nat) (from_ : Option Nat)
  /-- `x.send_message(r, n)` or `x.send_message(r, n, q)` -/
  | send (i : Nat) (r : Nat) (n : Nat) (from_ : Option Nat)
  /-- `x.watch(r, q)` -/
  | watch (i : Nat) (r q : Nat)
  /-- `x.unwatch(r, q)` -/
  | unwatch (i : Nat) (r q : Nat)
  /-- the actor `k` handles the first message in its queue -/
  | handle (k : Nat)
  /-- the actor `k` stops -/
  | close (k : Nat)
  /-- the cell of the actor `k` is destroyed -/
  | free (k : Nat)
deriving DecidableEq, Repr

/-- the variable of an optional sender; `none` if there is no such variable -/
def St.from_ (s : St) : Option Nat → Option (Option Ref)
  | none => some none
  | some q => (s.refs[q]?).map some

def step (s : St) : Op → Out
  | .system name => newSystem s name
  | .moveSystem i => moveSystem s i
  | .shutdown i => shutdown s i
  | .endSystem i => endSystem s i
  | .create i name fails => create s i name fails
  | .createChild k name fails => createChild s k name fails
  | .empty => .ok { s with refs := s.refs ++ [Ref.empty] }
  | .copy r =>
    match s.refs[r]? with
    | some x => .ok { s with refs := s.refs ++ [x] }
    | none => .ub
  -- actor_ref.h l.70: the raw pointer is copied, the weak pointer and the path are moved
  | .move r =>
    match s.refs[r]? with
    | some x => .ok { s with refs := s.refs.set r ⟨x.sys, none, []⟩ ++ [x] }
    | none => .ub
  | .self k =>
    match s.boxes[k]? with
    | some b => if b.phase = .gone then .ub else .ok { s with refs := s.refs ++ [b.self k] }
    | none => .ub
  | .sender k =>
    match s.boxes[k]? with
    | some b =>
      if b.phase = .gone then .ub
      else
        match b.handled.getLast? with
        | some m => .ok { s with refs := s.refs ++ [m.sender] }
        | none => .ub
    | none => .ub
  | .tell r n from_ =>
    match s.refs[r]?, s.from_ from_ with
    | some x, some f => tell s x (.user n) f
    | _, _ => .ub
  | .send i r n from_ =>
    match s.refs[r]?, s.from_ from_ with
    | some x, some f => send s i x (.user n) f
    | _, _ => .ub
  | .watch i r q =>
    match s.refs[r]?, s.refs[q]? with
    | some x, some y => watch s i x y
    | _, _ => .ub
  | .unwatch i r q =>
    match s.refs[r]?, s.refs[q]? with
    | some x, some y => unwatch s i x y
    | _, _ => .ub
  | .handle k =>
    match s.boxes[k]? with
    | some b =>
      match b.phase, b.queue with
      | .accepting, m :: ms => .ok (s.setBox k { b with queue := ms, handled := b.handled ++ [m] })
      | _, _ => .blocked
    | none => .blocked
  -- actor.cpp l.134-159, then `mailbox::close` (mailbox.cpp l.125-130)
  | .close k =>
    match s.boxes[k]? with
    | some b =>
      if b.phase = .accepting then
        match notify s (b.self k) b.watchers with
        | .ok s1 =>
          match s1.boxes[k]? with
          | some b1 => .ok (s1.setBox k { b1 with phase := .closed })
          | none => .ub
        | o => o
      else .blocked
    | none => .blocked
  | .free k =>
    match s.boxes[k]? with
    | some b => .ok (s.setBox k { b with phase := .gone, queue := [] })
    | none => .blocked

/-- A program goes on after an exception (it is caught). -/
def run (s : St) : List Op → Out
  | [] => .ok s
  | o :: os =>
    match step s o with
    | .ok s' => run s' os
    | .threw s' => run s' os
    | x => x

end Verif.Facade
