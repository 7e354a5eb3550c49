import Verif.Model.ActorCell

/-!
# Model of the actors behind `ask` and `find`

`/repo/modules/actors/yato/actors/private/actors/asking_actor.h` and `actors/selector.cpp`: an actor that owns a `std::promise`, created by `ask_impl_` (actor_system.cpp l.298-313) or `find_impl_` (l.340-354).

* The life of the actor is that of `Verif.ActorCell`: these definitions say what its `receive` and `post_stop` do to the promise.
* User messages are numbers, as in `Verif.ActorCell`; what is in a message is a parameter.
* `pre_start` of the selector (selector.cpp l.18-32) only sends a message; that search is modelled in `Verif.Selection`.
-/
set_option autoImplicit false

namespace Verif.Ask
open Verif.ActorCell

/-- a `std::promise` and the member `m_satisfied`; `twice` records that `set_value` was called on a promise that has a value, which throws -/
structure St (V : Type) where
  value : Option V
  satisfied : Bool
  twice : Bool
deriving DecidableEq, Repr

/-- the constructors (asking_actor.h l.44-46, selector.h l.79-81) -/
def St.init {V : Type} : St V := ⟨none, false, false⟩

/-- `m_promise.set_value(v); m_satisfied = true;` -/
def St.setValue {V : Type} (s : St V) (v : V) : St V :=
  match s.value with
  | none => { s with value := some v, satisfied := true }
  | some _ => { s with twice := true } -- the exception leaves `receive` or `post_stop`

/-- `asking_actor`: `receive` (l.26-33) and `post_stop` (l.35-41). `copy m` is the copy of the payload of message `m`, `none` if copying it throws `any_copy_error`. The answer `none` is `nullany`. -/
def askEff {P : Type} (copy : Nat → Option P) (s : St (Option P)) : Eff → St (Option P)
  | .receive m =>
    if !s.satisfied then
      match copy m with
      | some p => s.setValue (some p)
      | none => s
    else s
  | .postStop => if !s.satisfied then s.setValue none else s
  | _ => s

/-- the messages of a selector (selector.h l.33-55) -/
inductive Sel (R : Type)
  | success (r : R)
  | failure
  | other

/-- `selector`: `receive` (selector.cpp l.35-57) and `post_stop` (l.60-67). The answer `none` is an empty reference. -/
def findEff {R : Type} (kind : Nat → Sel R) (s : St (Option R)) : Eff → St (Option R)
  | .receive m =>
    match kind m with
    | .success r => if !s.satisfied then s.setValue (some r) else s
    | .failure => if !s.satisfied then s.setValue none else s
    | .other => s
  | .postStop => if !s.satisfied then s.setValue none else s
  | _ => s

/-- the promise after what the actor went through -/
def ask {P : Type} (copy : Nat → Option P) (es : List Eff) : St (Option P) := es.foldl (askEff copy) St.init
def find {R : Type} (kind : Nat → Sel R) (es : List Eff) : St (Option R) := es.foldl (findEff kind) St.init

/-- what the caller sees in the `std::future` when the actor has been destroyed -/
inductive Seen (V : Type)
  | ready (v : V)
  /-- `get` throws `std::future_error(broken_promise)` -/
  | broken
deriving DecidableEq, Repr

def St.destroyed {V : Type} (s : St V) : Seen V :=
  match s.value with
  | some v => .ready v
  | none => .broken

end Verif.Ask
