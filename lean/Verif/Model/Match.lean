import Verif.Model.Any
import Verif.Model.Variant

/-!
# Model of `any_match` and `variant_match` (`include/yato/case_dispatcher.h`, `any_match.h`, `variant_match.h`)

Types are numbers as in the models of `any` and `variant`: `void` is 0 (and `any` is 1); the tags `match_default_t` and `match_empty_t`
are 2 and 3. A case is described by the type of its only parameter. What handlers do, and the conversions of their results to a common
type, is not modelled: the outcome says which handler is called and with what.
-/
set_option autoImplicit false

namespace Verif.Match

/-- `match_default_t`, case_dispatcher.h l.19 -/
def defaultTag : Nat := 2
/-- `match_empty_t`, case_dispatcher.h l.24 -/
def emptyTag : Nat := 3

/-- How a parameter is declared: `T`, `T&`, `const T&`, `T&&`, `const T&&`. -/
inductive Pass | value | lref | clref | rref | crref
deriving DecidableEq, Repr

/-- A handler: `remove_cvref_t` of its parameter, and the rest of the declaration of this (l.98-100) -/
structure Case where
  type : Nat
  pass : Pass
deriving DecidableEq, Repr

/-- The argument of the matcher: `const any&`, `any&`, `const any&&`, `any&&` (l.148-170; any_match.h l.42-60; variant_match.h l.39-65);
also the type of the result of `get_unsafe` (any.h l.335-373, variant.h l.878-916) -/
inductive Cat | clref | lref | crref | rref
deriving DecidableEq, Repr

/-- `std::is_convertible<Val_, Arg_>` for references to the same type -/
def binds : Cat → Pass → Bool
  | _, .clref => true
  | .lref, .lref => true
  | .rref, .rref => true
  | .rref, .crref => true
  | .crref, .crref => true
  | _, _ => false

/-- l.78-88 `case_is_callable`. A parameter by value needs a copy or move constructor (`copyable`, `movable`). -/
def callable (copyable movable : Nat → Bool) (cat : Cat) (c : Case) : Bool :=
  match c.pass with
  | .value =>
    match cat with
    | .rref => copyable c.type || movable c.type
    | _ => copyable c.type
  | p => binds cat p

/-- l.49-65 `find_match_case`: the cases `0 .. len - 1` are searched from the last one; `none` is `match_case_npos`. -/
def findCase (cases : List Case) (T : Nat) : Nat → Option Nat
  | 0 => none
  | len + 1 => if (cases[len]?).map (·.type) = some T then some len else findCase cases T len

/-- The outcome of a call of a matcher: the handler `i` is called with a tag or with a value, `bad_match_error` is thrown, or undefined
behaviour. -/
inductive Out (β : Type) | tag (i : Nat) | handler (i : Nat) (arg : β) | badMatch | ub
deriving DecidableEq, Repr

variable {β : Type}

/-- l.173-189 `on_default_` -/
def onDefault (cases : List Case) : Out β :=
  match findCase cases defaultTag cases.length with
  | some i => .tag i
  | none => .badMatch

/-- l.91-132 `invoke_case`, for the cases from `i` on; `getUnsafe T` is the value read as a `T`, `none` if there is no object of this type. -/
def invokeCase (ok : Case → Bool) (cases : List Case) (getUnsafe : Nat → Option β) (stored : Nat) : List Case → Nat → Out β
  | [], _ => onDefault cases
  | c :: rest, i =>
    if ok c then
      if c.type = stored then
        match getUnsafe c.type with
        | some a => .handler i a
        | none => .ub
      else invokeCase ok cases getUnsafe stored rest (i + 1)
    else invokeCase ok cases getUnsafe stored rest (i + 1)

/-- l.192-210 `match_impl_` -/
def dispatch (ok : Case → Bool) (cases : List Case) (getUnsafe : Nat → Option β) (stored : Nat) : Out β :=
  match findCase cases emptyTag cases.length with
  | some i => if stored = 0 then .tag i else invokeCase ok cases getUnsafe stored cases 0
  | none => if stored = 0 then onDefault cases else invokeCase ok cases getUnsafe stored cases 0

/-- any_match.h l.42-60; any.h l.335-373 `get_unsafe`: the content is read as a holder of `T` without a check. -/
def anyMatch {α : Type} (copyable movable : Nat → Bool) (cat : Cat) (cases : List Case) (v : Option (Any.Content α)) : Out (Any.Content α) :=
  dispatch (callable copyable movable cat) cases (fun T => match v with | some c => if c.type = T then some c else none | none => none) (Any.typeOf v)

/-- variant_match.h l.39-65; variant.h l.636-640 `type`: the index is used in the table of the alternatives unchecked; l.878-916
`get_unsafe`. The variant is given by its alternatives, the index of the current one, and the object in its memory with its type. -/
def variantMatch {α : Type} (copyable movable : Nat → Bool) (cat : Cat) (cases : List Case) (alts : List Nat) (idx : Nat) (mem : Option (Nat × α)) : Out α :=
  match alts[idx]? with
  | none => .ub
  | some stored => dispatch (callable copyable movable cat) cases (fun T => match mem with | some (U, a) => if U = T then some a else none | none => none) stored

end Verif.Match
