import Verif.Model.Tokens

/-!
# Model of `actor_path` (`modules/actors/yato/actors/actor_path.h`, `modules/actors/yato/actors/private/actor_path.cpp`)

A string is a list of characters, and an iterator a position in it. `none` is undefined behaviour: reading at the end of the string.
-/
set_option autoImplicit false

namespace Verif.ActorPath

open Tokens (moveIter)

abbrev Str := List Char

/-- actor_path.cpp l.19 -/
def root : Str := ['y', 'a', 't', 'o', ':', '/', '/']

/-- actor_path.h l.25-34 -/
inductive Scope | user | system | temp | remote | dead | unknown
deriving DecidableEq, Repr

/-- actor_path.cpp l.24-31, in the order of the array -/
def scopeNames : List (Scope × Str) :=
  [(.unknown, ['u', 'n', 'k', 'n', 'o', 'w', 'n']), (.user, ['u', 's', 'e', 'r']), (.system, ['s', 'y', 's', 't', 'e', 'm']), (.temp, ['t', 'e', 'm', 'p']),
    (.remote, ['r', 'e', 'm', 'o', 't', 'e']), (.dead, ['d', 'e', 'a', 'd'])]

/-- l.36-42 `scope_to_str` -/
def scopeToStr (s : Scope) : Str :=
  match scopeNames.find? (fun e => decide (e.1 = s)) with
  | some e => e.2
  | none => ['u', 'n', 'k', 'n', 'o', 'w', 'n']

/-- l.45-51 `str_to_scope` -/
def strToScope (name : Str) : Scope :=
  match scopeNames.find? (fun e => decide (e.2 = name)) with
  | some e => e.1
  | none => .unknown

/-- `std::isalnum` in the "C" locale -/
def isalnum (c : Char) : Bool := ('0'.toNat ≤ c.toNat && c.toNat ≤ '9'.toNat) || ('A'.toNat ≤ c.toNat && c.toNat ≤ 'Z'.toNat) || ('a'.toNat ≤ c.toNat && c.toNat ≤ 'z'.toNat)
/-- `std::isgraph` in the "C" locale -/
def isgraph (c : Char) : Bool := 33 ≤ c.toNat && c.toNat ≤ 126

/-- l.75-78 with l.55-58 -/
def isValidSystemName (name : Str) : Bool := !name.isEmpty && name.all (fun c => isalnum c || c = '_')
/-- l.81-84 with l.62-65 -/
def isValidActorName (name : Str) : Bool := !name.isEmpty && name.all (fun c => isgraph c && c ≠ '/')
/-- l.87-90 with l.69-72 -/
def isValidActorPath (name : Str) : Bool := !name.isEmpty && name.all isgraph

/-- l.93-103, the constructor; `none` if `argument_error` is thrown. The assertion on the scope is not there in release builds. -/
def build (system : Str) (scope : Scope) (name : Str) : Option Str :=
  if !isValidSystemName system then none
  else if !isValidActorPath name then none
  else some (root ++ system ++ ['/'] ++ scopeToStr scope ++ ['/'] ++ name)

/-- actor_path.h l.37-42; `none` for a scope that was never assigned -/
structure Elems where
  system : Str
  scope : Option Scope
  names : List Str
deriving DecidableEq, Repr

/-- `std::equal(first1, last1, first2)`: reads as many characters of the second string as there are in the first, or up to a difference. -/
def equalRange : Str → Str → Option Bool
  | [], _ => some true
  | _ :: _, [] => none
  | a :: as, b :: bs => if a = b then equalRange as bs else some false

def slash (c : Char) : Bool := decide (c = '/')

/-- `std::string(begin, end)` -/
def sub (m : Str) (b e : Nat) : Str := (m.take e).drop b

/-- l.146-152, the loop over the names; `e` is the variable `end` -/
def namesFrom (m : Str) (e : Nat) : Option (List Str) :=
  if _h1 : e = m.length then some []
  else if _h2 : m.length < e then none
  else
    match _h : moveIter slash m (e + 1) with
    | none => none
    | some e' =>
      match namesFrom m e' with
      | none => none
      | some rest => some (if e + 1 ≠ e' then sub m (e + 1) e' :: rest else rest)
termination_by m.length - e
decreasing_by
  have := Tokens.moveIter_ge _h
  omega

/-- l.117-158 `parce`: the result and `elems` afterwards -/
def parce (m : Str) (elems : Elems) (headerOnly : Bool) : Option (Bool × Elems) :=
  match equalRange root m with
  | none => none
  | some false => some (false, elems)
  | some true =>
    match moveIter slash m root.length with
    | none => none
    | some e =>
      if e = m.length then some (false, elems)
      else
        match moveIter slash m (e + 1) with
        | none => none
        | some e2 =>
          if strToScope (sub m (e + 1) e2) = .unknown then some (false, { elems with system := sub m root.length e, scope := some .unknown })
          else if headerOnly then some (true, { elems with system := sub m root.length e, scope := some (strToScope (sub m (e + 1) e2)) })
          else
            match namesFrom m e2 with
            | none => none
            | some names => some (!names.isEmpty, ⟨sub m root.length e, some (strToScope (sub m (e + 1) e2)), names⟩)

/-- actor_path.h l.109-120 `get_name`: what follows the last `/` -/
def getName : Str → Str
  | [] => []
  | c :: m => if m.any slash then getName m else if c = '/' then m else []

/-- actor_path.h l.153-155 `join` -/
def join (path name : Str) : Str := path ++ ['/'] ++ name

end Verif.ActorPath
