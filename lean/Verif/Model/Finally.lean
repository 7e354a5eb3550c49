/-!
# Model of `finally` (`include/yato/finally.h`)

Guards are variables named by numbers. Every guard is made for a new action; actions are numbered in the order of their creation. The
log has the actions in the order in which they are run. An action is said to have run also if it ends with an exception: the destructor
drops it (l.31-36).

A parameter `keeps` says which actions still work after having been moved from. This is so for lambdas that capture only references or
numbers; a `std::function` that was moved from is empty (as in the known implementations), calling it throws, and the destructor drops
this exception, too.
-/
set_option autoImplicit false

namespace Verif.Finally

/-- finally.h l.20: `m_action`, whether calling it runs the action, `m_invoke` -/
structure Guard where
  action : Nat
  works : Bool
  invoke : Bool
deriving DecidableEq, Repr

structure St where
  vars : Nat → Option Guard
  next : Nat
  log : List Nat

/-- Statements: `auto x = make_finally(action)`, `finally x(std::move(y))`, `x = std::move(y)`, and the end of the scope of `x`. -/
inductive Op | make (x : Nat) | move (x y : Nat) | assign (x y : Nat) | del (x : Nat)
deriving DecidableEq, Repr

def init : St := ⟨fun _ => none, 0, []⟩

def set (vars : Nat → Option Guard) (x : Nat) (g : Option Guard) : Nat → Option Guard := fun y => if y = x then g else vars y

/-- One statement; `none` is undefined behaviour. Statements on variables out of scope, or declarations of those in scope, are not
programs, and do nothing here. -/
def step (keeps : Nat → Bool) (s : St) : Op → Option St
  | .make x => -- l.25-27, l.58-68; the result of `make_finally` is initialized in place
    match s.vars x with
    | none => some { s with vars := set s.vars x (some ⟨s.next, true, true⟩), next := s.next + 1 }
    | some _ => some s
  | .move x y => -- l.42-46: `m_invoke` of the new guard is the default `true`
    match s.vars x, s.vars y with
    | none, some g => some { s with vars := set (set s.vars x (some ⟨g.action, g.works, true⟩)) y (some ⟨g.action, g.works && keeps g.action, false⟩) }
    | _, _ => some s
  | .assign x y => -- l.50-54: there is no return statement
    match s.vars x, s.vars y with
    | some _, some _ => none
    | _, _ => some s
  | .del x => -- l.29-38
    match s.vars x with
    | some g => some { s with vars := set s.vars x none, log := if g.invoke && g.works then s.log ++ [g.action] else s.log }
    | none => some s

def run (keeps : Nat → Bool) : St → List Op → Option St
  | s, [] => some s
  | s, op :: ops =>
    match step keeps s op with
    | none => none
    | some s' => run keeps s' ops

/-! ## Which calls of `make_finally` compile

The argument is an expression of a class type `F` (an object, not the name of a function). -/

/-- The argument of `make_finally`: is it a named object, is it `const`, and can its class be copied. -/
structure Arg where
  lvalue : Bool
  isConst : Bool
  copyable : Bool
deriving DecidableEq, Repr

/-- The two overloads l.58-62, `const ActionTy_ &`, and l.64-68, `ActionTy_ &&`. -/
inductive Overload | byConst | forwarding
deriving DecidableEq, Repr

/-- The overload that is called. Both can bind to every argument. For a named object that is not `const` the first would add `const`, for
a temporary it would bind an lvalue reference to it, so the second is better; for a named `const` object both bind in the same way, and
`const ActionTy_ &` is the more specialized template. -/
def Arg.overload (a : Arg) : Overload :=
  if a.lvalue && a.isConst then .byConst else .forwarding

/-- The parameter `ActionTy_ action` of the constructor l.25 for the deduced `ActionTy_`: an object, or a reference if the forwarding
overload was given a named object. -/
def Arg.paramIsRef (a : Arg) : Bool :=
  match a.overload with
  | .byConst => false
  | .forwarding => a.lvalue

/-- Does `finally<ActionTy_>(a)` (l.61) or `finally<ActionTy_>(std::move(a))` (l.67) compile? An lvalue reference that is not to `const`
does not bind to `std::move(a)`. An object is initialized from `a`: copied if `a` is `const`, else moved (a class that cannot be copied
is supposed to have a moving constructor). Then l.26 copies the parameter, which is a named object, into `m_action`. -/
def Arg.compiles (a : Arg) : Bool :=
  if a.paramIsRef && !a.isConst then false
  else a.copyable

end Verif.Finally
