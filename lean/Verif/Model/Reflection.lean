import Mathlib.Order.Defs.LinearOrder
import Verif.Model.Meta
/-!
# Model of the reflection of classes (`include/yato/reflection.h`, `include/yato/singleton.h`)

A class with reflection is the sequence of the macros `YATO_REFLECT_VAR` and `YATO_REFLECT_METHOD` in its body after `YATO_REFLECT_CLASS`.
Every macro declares overloads of some static functions, which differ in the type of the parameter, `meta::number<I>`; later
macros, and the manager, find their answers by overload resolution. `none` is a class that does not compile.

Simplifications. Names of members are elements of a linear order (the order of `std::string`), types are elements of `T`. The inline
forms of the macros (l.350-356) are declaration plus `YATO_REFLECT_VAR`. One class is modelled, the tags of different classes
differ (l.307). Deriving from a reflected class, the trait `is_reflected` and managers that are not made by
`reflection_manager<C>::instance()` are not modelled. The manager is used by one thread: it has no lock.
-/
set_option autoImplicit false

namespace Verif.Reflection
open Verif

variable {N T β : Type}

/-- section of the class in which a macro is written -/
inductive Access where
  | pub | prot | priv
  deriving DecidableEq, Repr

inductive Kind where
  | data | function
  deriving DecidableEq, Repr

/-- one use of `YATO_REFLECT_VAR(name)` (`data`) or `YATO_REFLECT_METHOD(name)` (`function`) -/
structure Use (N T : Type) where
  kind : Kind
  name : N
  type : T
  access : Access
  deriving DecidableEq, Repr

/-- reflection.h l.82-113 `data_member_info<Class, Type, Idx>`, l.120-152 `member_function_info<Class, Type, Idx>` as types -/
structure Entry (T : Type) where
  kind : Kind
  type : T
  index : Nat
  deriving DecidableEq, Repr

/-- reflection.h l.93-100 objects of `data_member_info`: `m_name`, and the member `m_ptr` points to, with its type -/
structure Info (N T : Type) where
  name : N
  target : N
  type : T
  deriving DecidableEq, Repr

/-- overloads of one static function: the number in the type of the parameter, and what the declaration says -/
abbrev Overloads (β : Type) : Type := List (Nat × β)

/-- C++: a call with an argument of type `meta::number<n>`. `number<n>` is derived from `number<n - 1>` (meta.h l.40-51), so the overload
for the nearest base class wins. -/
def resolve (l : Overloads β) : Nat → Option β
  | 0 => l.lookup 0
  | n + 1 => match l.lookup (n + 1) with
    | some b => some b
    | none => resolve l n

/-- C++: a second declaration of a member with the same parameters is an error -/
def declare (l : Overloads β) (n : Nat) (b : β) : Option (Overloads β) :=
  if (l.lookup n).isSome then none else some (l ++ [(n, b)])

/-- reflection.h l.32 `MAX_COUNTER_VALUE` -/
def maxCounter : Nat := 255

/-- the static members the macros have declared so far -/
structure Class (N T : Type) where
  /-- names of reflected members: the macros declare variables and types named after them (l.330, l.334, l.364, l.370), and so does the class -/
  names : List N
  /-- `_yato_cs_meta_counter(_yato_reflection_tag, number)` with the number in its result, l.295-299 -/
  counters : Overloads Nat
  /-- `_yato_data_members_list_getter(number)` with its result -/
  dataGetter : Overloads (List (Entry T))
  /-- `_yato_member_functions_list_getter(number)` with its result -/
  functionsGetter : Overloads (List (Entry T))
  /-- `_yato_runtime_register(number)` with the member its body registers -/
  registers : Overloads (Option (Info N T))
  /-- `_yato_access_tag<Idx>()` with the section it is in -/
  tags : Overloads Access

/-- reflection.h l.304-323 `YATO_REFLECT_CLASS` -/
def Class.base : Class N T where
  names := []
  counters := [(1, 1)]
  dataGetter := [(0, [])]
  functionsGetter := [(0, [])]
  registers := [(0, none)]
  tags := []

/-- reflection.h l.328-347 `YATO_REFLECT_VAR` -/
def Class.reflectVar (c : Class N T) (u : Use N T) : Option (Class N T) := do
  let idx ← resolve c.counters maxCounter
  let counters ← declare c.counters (idx + 1) (idx + 1)
  let before ← resolve c.dataGetter (idx - 1)
  let dataGetter ← declare c.dataGetter idx (Meta.pushBack ⟨.data, u.type, idx⟩ before [])
  let registers ← declare c.registers idx (some ⟨u.name, u.name, u.type⟩)
  let tags ← declare c.tags idx u.access
  return { c with names := c.names ++ [u.name], counters := counters, dataGetter := dataGetter, registers := registers, tags := tags }

/-- reflection.h l.362-372 `YATO_REFLECT_METHOD`. The list is the one of the *data members* (l.372), not of the functions, with the
function at the end. -/
def Class.reflectMethod (c : Class N T) (u : Use N T) : Option (Class N T) := do
  let idx ← resolve c.counters maxCounter
  let counters ← declare c.counters (idx + 1) (idx + 1)
  let before ← resolve c.dataGetter (idx - 1)
  let functionsGetter ← declare c.functionsGetter idx (Meta.pushBack ⟨.function, u.type, idx⟩ before [])
  return { c with names := c.names ++ [u.name], counters := counters, functionsGetter := functionsGetter }

/-- one macro in the body of the class; members with the same name do not compile -/
def Class.reflect [DecidableEq N] (c : Class N T) (u : Use N T) : Option (Class N T) :=
  if u.name ∈ c.names then none
  else match u.kind with
    | .data => c.reflectVar u
    | .function => c.reflectMethod u

/-- the whole body -/
def compileFrom [DecidableEq N] (c : Class N T) : List (Use N T) → Option (Class N T)
  | [] => some c
  | u :: us => do
    let c' ← c.reflect u
    compileFrom c' us

def compile [DecidableEq N] (us : List (Use N T)) : Option (Class N T) := compileFrom .base us

/-- reflection.h l.165 `reflection_manager_impl<C>::data_members_list` -/
def Class.dataMembersList (c : Class N T) : Option (List (Entry T)) := resolve c.dataGetter maxCounter

/-- reflection.h l.166 `reflection_manager_impl<C>::member_functions_list` -/
def Class.memberFunctionsList (c : Class N T) : Option (List (Entry T)) := resolve c.functionsGetter maxCounter

/-- reflection.h l.268-276 `is_public<C, idx>`: the call of `_yato_access_tag<idx>()` from outside of the class compiles -/
def Class.isPublic (c : Class N T) (idx : Nat) : Bool :=
  match c.tags.lookup idx with
  | some a => a == .pub
  | none => false

/-! ### The manager at run time -/

/-- reflection.h l.170-174 `m_members`, a `std::map` (nodes in the order of the keys), and `m_inited` -/
structure Manager (N T : Type) where
  members : List (N × Info N T)
  inited : Bool
  deriving DecidableEq, Repr

/-- the static variable `ms_instance` (singleton.h l.48, l.80-81), and the number of attempts to allocate memory so far; `fail` of the
functions below says which attempts throw `std::bad_alloc` -/
structure World (N T : Type) where
  instance? : Option (Manager N T)
  time : Nat
  deriving DecidableEq, Repr

def World.init : World N T := ⟨none, 0⟩

/-- how a call ends -/
inductive Out (β : Type) where
  | val (b : β)
  | badAlloc
  /-- `yato::runtime_error`, l.234 -/
  | sameName
  deriving DecidableEq, Repr

/-- `std::map::operator[]` with a key that is not there, and the assignment of the value -/
def insertNode [LinearOrder N] (e : N × Info N T) : List (N × Info N T) → List (N × Info N T)
  | [] => [e]
  | x :: xs => if e.1 < x.1 then e :: x :: xs else x :: insertNode e xs

/-- reflection.h l.231-237 `_register_member`, with the `make_unique` of the call at l.342-343. Simplified: the allocations of one
registration (the info, its name, the node of the map) are one attempt, which throws before the map is changed. -/
def registerMember [LinearOrder N] (fail : Nat → Bool) (i : Info N T) (m : Manager N T) (t : Nat) : Out Unit × Manager N T × Nat :=
  if fail t then (.badAlloc, m, t + 1)
  else if (m.members.find? fun e => e.1 == i.name).isSome then (.sameName, m, t + 1)
  else (.val (), { m with members := insertNode (i.name, i) m.members }, t + 1)

/-- reflection.h l.339-344 `_yato_runtime_register(number<n>{})`: overload resolution as in `resolve`; the body for `n` calls the one for
`n - 1` first. l.311: the overload for 0 does nothing. -/
def runtimeRegister [LinearOrder N] (fail : Nat → Bool) (l : Overloads (Option (Info N T))) :
    Nat → Manager N T → Nat → Out Unit × Manager N T × Nat
  | 0, m, t => (.val (), m, t)
  | n + 1, m, t =>
    match l.lookup (n + 1) with
    | some (some i) =>
      match runtimeRegister fail l n m t with
      | (.val (), m', t') => registerMember fail i m' t'
      | r => r
    | _ => runtimeRegister fail l n m t

/-- reflection.h l.177-183 `_check_inited`: an exception leaves `m_inited` false -/
def checkInited [LinearOrder N] (fail : Nat → Bool) (c : Class N T) (m : Manager N T) (t : Nat) : Out Unit × Manager N T × Nat :=
  if m.inited then (.val (), m, t)
  else match runtimeRegister fail c.registers maxCounter m t with
    | (.val (), m', t') => (.val (), { m' with inited := true }, t')
    | r => r

/-- singleton.h l.54-58 `instance`, l.72-77 `touch`, and l.22-25 `create_using_new::create` -/
def getInstance (fail : Nat → Bool) (w : World N T) : Out (Manager N T) × World N T :=
  match w.instance? with
  | some m => (.val m, w)
  | none =>
    if fail w.time then (.badAlloc, { w with time := w.time + 1 })
    else (.val ⟨[], false⟩, ⟨some ⟨[], false⟩, w.time + 1⟩)

/-- `reflection_manager<C>::instance()->` followed by a function that begins with `_check_inited` and then answers from the map -/
def ask [LinearOrder N] (fail : Nat → Bool) (c : Class N T) (answer : List (N × Info N T) → β) (w : World N T) : Out β × World N T :=
  match getInstance fail w with
  | (.val m, w) =>
    match checkInited fail c m w.time with
    | (.val (), m', t') => (.val (answer m'.members), ⟨some m', t'⟩)
    | (.badAlloc, m', t') => (.badAlloc, ⟨some m', t'⟩)
    | (.sameName, m', t') => (.sameName, ⟨some m', t'⟩)
  | (.badAlloc, w) => (.badAlloc, w)
  | (.sameName, w) => (.sameName, w)

/-- reflection.h l.209-213 `members()`: the range of all nodes of the map -/
def members [LinearOrder N] (fail : Nat → Bool) (c : Class N T) (w : World N T) : Out (List (N × Info N T)) × World N T :=
  ask fail c (fun ms => ms) w

/-- reflection.h l.218-225 `get_by_name(name)` -/
def getByName [LinearOrder N] (fail : Nat → Bool) (c : Class N T) (name : N) (w : World N T) : Out (Option (Info N T)) × World N T :=
  ask fail c (fun ms => (ms.find? fun e => e.1 == name).map Prod.snd) w

/-- address of a member of an object -/
structure Address (N : Type) where
  object : Nat
  member : N
  deriving DecidableEq, Repr

/-- reflection.h l.109-112 `data_member_info::ptr(obj)` -/
def Info.ptr (i : Info N T) (obj : Nat) : Address N := ⟨obj, i.target⟩

/-- reflection.h l.54-76 `as_ptr<T>(obj)`. With a class `T` it does not compile: `dynamic_cast` from `void*`. Otherwise it is a
`static_cast` of `ptr(obj)`: nothing is checked. -/
def Info.asPtr (i : Info N T) (isClass : T → Bool) (t : T) (obj : Nat) : Option (Address N × T) :=
  if isClass t then none else some (i.ptr obj, t)

end Verif.Reflection
