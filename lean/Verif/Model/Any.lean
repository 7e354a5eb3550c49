/-!
Model of `any` (`/repo/include/yato/any.h`).

A type is a number: 0 is `void`, 1 is `any` itself. What a holder contains is a value of some other type, or an `any`. The content of
an `any` is owned by a `unique_ptr`, so it is modelled by an optional value.

Each statement may fail: the allocation of a holder or the constructor of a value throws. This is chosen by the environment.

Simplifications:
 * Overloads that differ only in constness are not modelled separately; `get_unsafe` is not modelled.
 * Statements on variables that are not in scope, and declarations of variables that are, do nothing (`skipped`).
-/
set_option autoImplicit false

namespace Verif.Any

variable {α : Type}

/-- What a holder contains (l.76, l.118, l.160 `m_payload`). -/
inductive Content (α : Type) where
  /-- a value of the type `T`, which is neither `void` nor `any` -/
  | plain (T : Nat) (a : α)
  /-- an empty `any` -/
  | emptyAny
  /-- an `any` that is not empty -/
  | anyOf (c : Content α)
deriving DecidableEq, Repr

/-- l.96-99 `any_holder::type` -/
def Content.type : Content α → Nat
  | .plain T _ => T
  | .emptyAny => 1
  | .anyOf _ => 1

/-- An `any` as the content of a holder. -/
def box : Option (Content α) → Content α
  | none => .emptyAny
  | some c => .anyOf c

inductive Res (α : Type) where
  | skipped
  | done
  /-- an allocation or the constructor of a value threw -/
  | threw
  /-- `any_copy_error` -/
  | copyError
  /-- `bad_any_cast` -/
  | badCast
  | got (c : Content α)
  | none
  | bool (b : Bool)
  | type (T : Nat)
deriving DecidableEq, Repr

/-- l.101-104, l.141-146, l.182-187 `clone`: only types that can be assigned by copy can be cloned; the copy of a nested `any` is made
by its copy constructor. -/
def clone (copyable : Nat → Bool) (fail : Bool) : Content α → Except (Res α) (Content α)
  | .plain T a => if copyable T then (if fail then .error .threw else .ok (.plain T a)) else .error .copyError
  | .emptyAny => if fail then .error .threw else .ok .emptyAny
  | .anyOf c =>
    if fail then .error .threw
    else
      match clone copyable fail c with
      | .ok c' => .ok (.anyOf c')
      | .error e => .error e

/-- l.208-212, the copy constructor -/
def copyCtor (copyable : Nat → Bool) (fail : Bool) : Option (Content α) → Except (Res α) (Option (Content α))
  | none => .ok none
  | some c => (clone copyable fail c).map some

/-- l.201-206, the constructor from any value, for an argument of type `any&` or `const any&&`: a holder of an `any`, which is copied
from the argument. -/
def wrapCtor (copyable : Nat → Bool) (fail : Bool) (c : Option (Content α)) : Except (Res α) (Option (Content α)) :=
  if fail then .error .threw
  else
    match copyCtor copyable fail c with
    | .ok c' => .ok (some (box c'))
    | .error e => .error e

/-- l.201-206 with a value, and l.214-218, `make_any` l.410-414: in place. -/
def valueCtor (fail : Bool) (T : Nat) (a : α) : Except (Res α) (Option (Content α)) :=
  if fail then .error .threw else .ok (some (.plain T a))

/-- How the source of a copy is named. -/
inductive Src where
  /-- `any x(y)` with `y` const, `any x = y`, or an argument passed by value; `x = y` with `y` const -/
  | asConst
  /-- `any x(y)` or `x = y` with `y` not const, or `std::move(y)` with `y` const: the template is a better match for these (l.201-206,
  l.246-251) than the copying members -/
  | other
deriving DecidableEq, Repr

/-- The variables. -/
abbrev Vars (α : Type) := Nat → Option (Option (Content α))

def Vars.set (σ : Vars α) (x : Nat) (v : Option (Option (Content α))) : Vars α := fun y => if y = x then v else σ y

inductive Op (α : Type) where
  /-- `any x;`, `any x(nullany);` -/
  | new (x : Nat)
  /-- `any x(a);` with a value of type `T`, or in place -/
  | newVal (x T : Nat) (a : α)
  | newCopy (x y : Nat) (src : Src)
  /-- `any x(std::move(y));` -/
  | newMove (x y : Nat)
  | del (x : Nat)
  | copyAssign (x y : Nat) (src : Src)
  /-- `x = std::move(y);` -/
  | moveAssign (x y : Nat)
  /-- `x = a;` -/
  | assignVal (x T : Nat) (a : α)
  /-- `x.emplace<T>(a);` -/
  | emplace (x T : Nat) (a : α)
  | swap (x y : Nat)
  | clear (x : Nat)
  /-- `x.get<T>()` and `any_cast<T>(x)` -/
  | get (x T : Nat)
  /-- `x.get<T>() = a;` -/
  | put (x T : Nat) (a : α)
  /-- `x.get_or<T>(d)` -/
  | getOr (x T : Nat) (d : α)
  /-- `x.get_opt<T>()` -/
  | getOpt (x T : Nat)
  | isType (x T : Nat)
  | type (x : Nat)
  /-- `x.empty()` and `!x` -/
  | isEmpty (x : Nat)

/-- l.269-272 `type` -/
def typeOf : Option (Content α) → Nat
  | none => 0
  | some c => c.type

/-- l.287-307 `get` -/
def getAs (v : Option (Content α)) (T : Nat) : Option (Content α) :=
  if T = typeOf v then v else none

/-- l.227-231 `swap` of the contents of two variables -/
def swapVars (σ : Vars α) (x y : Nat) : Vars α := (σ.set x (σ y)).set y (σ x)

/-- One statement. Types of values are neither `void` nor `any`, otherwise the statement is not one of these (`skipped`). -/
def step (copyable : Nat → Bool) (fail : Bool) (σ : Vars α) : Op α → Res α × Vars α
  | .new x =>
    match σ x with
    | none => (.done, σ.set x (some none))
    | some _ => (.skipped, σ)
  | .newVal x T a =>
    match σ x with
    | none =>
      if T < 2 then (.skipped, σ)
      else
        match valueCtor fail T a with
        | .ok v => (.done, σ.set x (some v))
        | .error e => (e, σ)
    | some _ => (.skipped, σ)
  | .newCopy x y src =>
    match σ x, σ y with
    | none, some c =>
      match (match src with | .asConst => copyCtor copyable fail c | .other => wrapCtor copyable fail c) with
      | .ok v => (.done, σ.set x (some v))
      | .error e => (e, σ)
    | _, _ => (.skipped, σ)
  | .newMove x y => -- l.223
    match σ x, σ y with
    | none, some c => (.done, (σ.set x (some c)).set y (some none))
    | _, _ => (.skipped, σ)
  | .del x =>
    match σ x with
    | some _ => (.done, σ.set x none)
    | none => (.skipped, σ)
  | .copyAssign x y src => -- l.233-237, l.246-251: a temporary is swapped with `x`
    match σ x, σ y with
    | some _, some c =>
      match (match src with | .asConst => copyCtor copyable fail c | .other => wrapCtor copyable fail c) with
      | .ok v => (.done, σ.set x (some v))
      | .error e => (e, σ)
    | _, _ => (.skipped, σ)
  | .moveAssign x y => -- l.239-244: `y` is swapped with `x`, then with an empty temporary
    match σ x, σ y with
    | some _, some _ => (.done, (swapVars σ y x).set y (some none))
    | _, _ => (.skipped, σ)
  | .assignVal x T a => -- l.246-251
    match σ x with
    | some _ =>
      if T < 2 then (.skipped, σ)
      else
        match valueCtor fail T a with
        | .ok v => (.done, σ.set x (some v))
        | .error e => (e, σ)
    | none => (.skipped, σ)
  | .emplace x T a => -- l.280-285
    match σ x with
    | some _ =>
      if T < 2 then (.skipped, σ)
      else
        match valueCtor fail T a with
        | .ok v => (.done, σ.set x (some v))
        | .error e => (e, σ)
    | none => (.skipped, σ)
  | .swap x y =>
    match σ x, σ y with
    | some _, some _ => (.done, swapVars σ x y)
    | _, _ => (.skipped, σ)
  | .clear x => -- l.264-267
    match σ x with
    | some _ => (.done, σ.set x (some none))
    | none => (.skipped, σ)
  | .get x T =>
    match σ x with
    | some v =>
      match getAs v T with
      | some c => (.got c, σ)
      | none => (.badCast, σ)
    | none => (.skipped, σ)
  | .put x T a =>
    match σ x with
    | some v =>
      if T < 2 then (.skipped, σ)
      else
        match getAs v T with
        | some _ => if fail then (.threw, σ) else (.done, σ.set x (some (some (.plain T a))))
        | none => (.badCast, σ)
    | none => (.skipped, σ)
  | .getOr x T d => -- l.309-329
    match σ x with
    | some v =>
      if T < 2 then (.skipped, σ)
      else
        match getAs v T with
        | some c => (.got c, σ)
        | none => (.got (.plain T d), σ)
    | none => (.skipped, σ)
  | .getOpt x T => -- l.376-390
    match σ x with
    | some v =>
      if T < 2 then (.skipped, σ)
      else if typeOf v = T then
        match v with
        | some c => if fail then (.threw, σ) else (.got c, σ)
        | none => (.none, σ)
      else (.none, σ)
    | none => (.skipped, σ)
  | .isType x T => -- l.274-278
    match σ x with
    | some v => (.bool (typeOf v == T), σ)
    | none => (.skipped, σ)
  | .type x =>
    match σ x with
    | some v => (.type (typeOf v), σ)
    | none => (.skipped, σ)
  | .isEmpty x => -- l.253-262
    match σ x with
    | some v => (.bool v.isNone, σ)
    | none => (.skipped, σ)

/-- A program; each statement comes with whether what it calls throws. -/
def run (copyable : Nat → Bool) (σ : Vars α) : List (Op α × Bool) → List (Res α) × Vars α
  | [] => ([], σ)
  | (op, fail) :: ops =>
    let (r, σ1) := step copyable fail σ op
    let (rs, σ2) := run copyable σ1 ops
    (r :: rs, σ2)

end Verif.Any
