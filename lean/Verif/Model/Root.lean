/-!
# Model of the root actor and of the shutdown of an actor system

`/repo/modules/actors/yato/actors/private/actors/root.cpp`, `actors/guardian.h`, and `shutdown_impl_`, `notify_on_stop_` of `actor_system.cpp` (l.173-184, l.396-414).

* A guardian and everything below it is one state: running, told to stop after its children, told to stop, or stopped. That an actor told to stop does so, after its children, and then tells its watchers and its
  parent once, is proved of the tree of actors (C44, C45). `busy` says whether the guardian has children.
* The system messages that the root sends to a guardian act at once. They are put into the guardian's system queue in that order, and nobody else sends it any, except for `ext`.
* The root's own queue of user messages is explicit. Its system message `stop_after_children` to itself acts at once.
* The guardians are created by `pre_start` before any message (l.21-38): `start` is the first system message.
-/
set_option autoImplicit false

namespace Verif.Root

/-- the guardians `system`, `temp`, `user`, `remote` -/
inductive Guard | sys | tmp | usr | rmt
deriving DecidableEq, Repr

inductive Stage | running | after | now | stopped
deriving DecidableEq, Repr

/-- a guardian with the actors below it -/
structure G where
  stage : Stage
  busy : Bool
deriving DecidableEq, Repr

/-- user messages of the root -/
inductive Msg
  /-- `root_add` with the scope of the path; `none` for a path with another scope, or that is not valid -/
  | add (scope : Option Guard)
  /-- `root_terminate` -/
  | terminate (stopUser : Bool)
  /-- `terminated` -/
  | died (g : Guard)
deriving DecidableEq, Repr

structure St where
  g : Guard → G
  /-- `m_sys_stopped`, ... -/
  flag : Guard → Bool
  queue : List Msg
  /-- the root has got `stop_after_children` -/
  asked : Bool
  /-- the root is stopped: `root_stopped` -/
  closed : Bool

/-- after `pre_start` (l.21-38) -/
def St.init : St := ⟨fun _ => ⟨.running, false⟩, fun _ => false, [], false, false⟩

def St.setG (s : St) (x : Guard) (a : G) : St := { s with g := fun y => if y = x then a else s.g y }

/-- system message `stop` (actor.cpp l.186-198) -/
def G.stop (a : G) : G :=
  match a.stage with
  | .stopped => a
  | _ => { a with stage := .now }

/-- system message `stop_after_children` (actor.cpp l.199-206) -/
def G.stopAfter (a : G) : G :=
  match a.stage with
  | .running => { a with stage := .after }
  | _ => a

/-- system message `attach_child` (actor.cpp l.223-233): refused by an actor that is going to stop -/
def G.attach (a : G) : G :=
  match a.stage with
  | .running => { a with busy := true }
  | _ => a

/-- what the root does once the flag of a stopped guardian is set (root.cpp l.98-108) -/
def afterFlag (s : St) : St :=
  if s.flag .sys && s.flag .tmp then { s with asked := true }
  else if s.flag .usr && s.flag .rmt then
    let s1 := if s.flag .sys then s else s.setG .sys (s.g .sys).stop
    if s.flag .tmp then s1 else s1.setG .tmp (s1.g .tmp).stop
  else s

/-- `root::receive` (root.cpp l.42-115) -/
def receive (s : St) : Msg → St
  | .add (some x) => s.setG x (s.g x).attach -- l.55-67
  | .add none => s -- l.48-51, l.68-70
  | .terminate stopUser => -- l.73-82
    if stopUser then (s.setG .usr (s.g .usr).stop).setG .rmt (s.g .rmt).stop
    else (s.setG .usr (s.g .usr).stopAfter).setG .rmt (s.g .rmt).stopAfter
  | .died x => -- l.83-109
    afterFlag { s with flag := fun y => if y = x then true else s.flag y }

inductive Act
  /-- a message is sent to the root: `create_actor` (actor_system.cpp l.229-251), `shutdown` and the destructor (l.173-190) -/
  | post (m : Msg)
  /-- the root takes the next message -/
  | process
  /-- a guardian stops (actor.cpp l.134-159) -/
  | guardEnd (x : Guard)
  /-- the root stops, and `shutdown_impl_` returns -/
  | rootEnd
  /-- the last actor below a guardian stops on its own -/
  | idle (x : Guard)
  /-- somebody stops a guardian by its reference -/
  | ext (x : Guard)
deriving DecidableEq, Repr

/-- A guardian that was told to stop and may. -/
def G.ready (a : G) : Bool :=
  match a.stage with
  | .now => true
  | .after => !a.busy
  | _ => false

def step (s : St) : Act → Option St
  | .post m =>
    match m with
    | .died _ => none
    | m => if s.closed then some s else some { s with queue := s.queue ++ [m] }
  | .process =>
    if s.closed then none
    else
      match s.queue with
      | [] => none
      | m :: r => some (receive { s with queue := r } m)
  | .guardEnd x =>
    if (s.g x).ready then
      let s1 := s.setG x ⟨.stopped, false⟩
      some (if s.closed then s1 else { s1 with queue := s1.queue ++ [.died x] })
    else none
  | .rootEnd =>
    if s.asked && !s.closed && decide ((s.g .sys).stage = .stopped) && decide ((s.g .tmp).stage = .stopped) && decide ((s.g .usr).stage = .stopped) && decide ((s.g .rmt).stage = .stopped) then
      some { s with closed := true }
    else none
  | .idle x => some (s.setG x { s.g x with busy := false })
  | .ext x => some (s.setG x (s.g x).stop)

def run (s : St) : List Act → Option St
  | [] => some s
  | a :: as =>
    match step s a with
    | none => none
    | some s' => run s' as

end Verif.Root
