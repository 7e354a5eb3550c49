import Verif.Model.ActorPath

/-!
# Model of the search for an actor by its path

`actor_system::find_impl_` (`/repo/modules/actors/yato/actors/private/actor_system.cpp` l.340-354), `selector::pre_start` (`private/actors/selector.cpp` l.18-32), the handlers of `selection`, `attach_child`
and `detach_child` (`private/actor.cpp` l.223-264), and the way of a new actor into the tree (`create_actor_impl_`, actor_system.cpp l.229-251; `root::receive`, `private/actors/root.cpp` l.45-72).

* An actor is a number, the root is 0. `path i` is the path of actor `i`, fixed when it is created; its name is `getName` of it (actor_ref.h l.75-78).
* All system queues are one list of (addressee, message) in the order of sending: an actor takes the first message that is addressed to it, so each queue is first in, first out (C37).
* One step handles one message, and sends all that it sends. An execution is any sequence of such steps, creations, stops and searches.
* The mailbox of an actor can be closed at any time (it stopped): its messages are lost, and so are later ones.
* The user queue of the root has the new top level actors, among them the selectors of `find`. How a selector gets from the root to its `pre_start` (by the guardian of temporary actors) is one step.
* Replies are collected; what the selector does with them is `Verif.Ask` (C67).
* Searches are numbered: `some k` is a reference to the selector of search `k`. A `selection` whose sender has been moved from (`none`) is answered to an expired mailbox: the answer is lost (actor_ref.h, `send_user_impl_` l.262-266).
-/
set_option autoImplicit false

namespace Verif.Selection
open Verif.ActorPath (Str Scope Elems scopeToStr parce getName)

abbrev Id := Nat
def root : Id := 0

inductive Msg
  | attach (c : Id)
  | detach (c : Id)
  | sel (rest : List Str) (sender : Option Nat)
deriving DecidableEq, Repr

inductive Reply
  | success (a : Id)
  | failure
deriving DecidableEq, Repr

/-- user messages of the root -/
inductive Add
  /-- `root_add` of an actor, whose scope is that of guardian `g` -/
  | actor (g c : Id)
  /-- `root_add` of selector `k` for a search path -/
  | selector (k : Nat) (search : List Str)
deriving DecidableEq, Repr

structure St where
  kids : Id → List Id
  queue : List (Id × Msg)
  rootUsr : List Add
  /-- selectors that are not started yet -/
  starting : List (Nat × List Str)
  /-- what was told to the selectors -/
  replies : List (Nat × Reply)
  closed : Id → Bool
  stopping : Id → Bool

/-- no messages and no searches -/
def St.idle (kids : Id → List Id) : St := ⟨kids, [], [], [], [], fun _ => false, fun _ => false⟩

/-- `enqueue_system_message` (mailbox.cpp l.51-67) -/
def St.send (s : St) (a : Id) (m : Msg) : St := if s.closed a then s else { s with queue := s.queue ++ [(a, m)] }

/-- the first message for `a` and the messages that are left -/
def pop (a : Id) : List (Id × Msg) → Option (Msg × List (Id × Msg))
  | [] => none
  | (b, m) :: q => if b = a then some (m, q) else (pop a q).map fun (m', q') => (m', (b, m) :: q')

/-- the loop over the children, actor.cpp l.254-259: the message is moved to each child with the right name; what is left of it after the first time is an empty path and a dead sender -/
def forward (path : Id → Str) (next : Str) : List Id → List Str → Option Nat → List (Id × Msg)
  | [], _, _ => []
  | c :: cs, rest, sender => if next = getName (path c) then (c, .sel rest sender) :: forward path next cs [] none else forward path next cs rest sender

def sendAll : List (Id × Msg) → St → St
  | [], s => s
  | (a, m) :: ms, s => sendAll ms (s.send a m)

/-- `select.sender.tell(...)` -/
def St.tell (s : St) (sender : Option Nat) (r : Reply) : St :=
  match sender with
  | some k => { s with replies := s.replies ++ [(k, r)] }
  | none => s

/-- the handler of `selection` in actor `a`, actor.cpp l.243-264 -/
def select (path : Id → Str) (s : St) (a : Id) (rest : List Str) (sender : Option Nat) : St :=
  match rest.getLast? with
  | none => s.tell sender (.success a)
  | some next =>
    match forward path next (s.kids a) rest.dropLast sender with
    | [] => s.tell sender .failure
    | ms => sendAll ms s

def setKids (kids : Id → List Id) (a : Id) (l : List Id) : Id → List Id := fun b => if b = a then l else kids b

/-- what actor `a` does with a message, actor.cpp l.223-264; `remove_child` (actor_cell.cpp l.53-60) looks for the path -/
def handle (path : Id → Str) (s : St) (a : Id) : Msg → St
  | .attach c => if s.stopping a then s else { s with kids := setKids s.kids a (s.kids a ++ [c]) }
  | .detach c => { s with kids := setKids s.kids a ((s.kids a).eraseP fun d => path d = path c) }
  | .sel rest sender => select path s a rest sender

/-- `selector::pre_start`: the search path is the names in reverse order, and then the scope (selector.cpp l.26-29) -/
def searchPath (scope : Scope) (names : List Str) : List Str := names.reverse ++ [scopeToStr scope]

inductive Ev
  /-- `create_actor` with a parent: `attach_child` is sent to it -/
  | createChild (p c : Id)
  /-- `create_actor` without a parent: `root_add` -/
  | createTop (g c : Id)
  /-- an actor stopped: it tells its parent -/
  | gone (p c : Id)
  /-- `find`: a selector is created -/
  | find (k : Nat) (search : List Str)
  /-- the root takes a user message (root.cpp l.45-72) -/
  | rootUser
  /-- selector `k` is started: it sends `selection` to the root -/
  | start (k : Nat)
  /-- an actor takes a system message -/
  | sys (a : Id)
  /-- an actor begins to stop: it takes no more children -/
  | stopping (a : Id)
  /-- an actor has stopped: its mailbox is closed -/
  | close (a : Id)
deriving DecidableEq, Repr

def step (path : Id → Str) (s : St) : Ev → St
  | .createChild p c => s.send p (.attach c)
  | .createTop g c => { s with rootUsr := s.rootUsr ++ [.actor g c] }
  | .gone p c => s.send p (.detach c)
  | .find k search => { s with rootUsr := s.rootUsr ++ [.selector k search] }
  | .rootUser =>
    match s.rootUsr with
    | [] => s
    | .actor g c :: u => { s with rootUsr := u }.send g (.attach c)
    | .selector k search :: u => { s with rootUsr := u, starting := s.starting ++ [(k, search)] }
  | .start k =>
    match s.starting.find? (fun e => e.1 = k) with
    | none => s
    | some (_, search) => { s with starting := s.starting.eraseP fun e => e.1 = k }.send root (.sel search (some k))
  | .sys a =>
    match pop a s.queue with
    | none => s
    | some (m, q) => handle path { s with queue := q } a m
  | .stopping a => { s with stopping := fun b => if b = a then true else s.stopping b }
  | .close a => { s with closed := fun b => if b = a then true else s.closed b, queue := s.queue.filter fun e => e.1 ≠ a }

/-- `find` with a path, actor_system.cpp l.340-354 and selector.cpp l.20-29. `none` is undefined behaviour in `parce`; an invalid path is answered by the selector itself (l.22-25). -/
def findPath (path : Id → Str) (s : St) (k : Nat) (target : Str) : Option St :=
  match parce target ⟨[], none, []⟩ false with
  | none => none
  | some (true, e) => some (step path s (.find k (searchPath (e.scope.getD .unknown) e.names)))
  | some (false, _) => some { s with replies := s.replies ++ [(k, .failure)] }

end Verif.Selection
