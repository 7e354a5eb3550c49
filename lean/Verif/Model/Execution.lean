/-!
# Model of the choice of an execution context (`modules/actors/yato/actors/private/actor_system.cpp`, `.../private/execution_context.h`)

A string is a list of characters. `none` as the result of a function that may throw stands for a thrown `config_error`.
-/
set_option autoImplicit false

namespace Verif.Execution

abbrev Str := List Char

/-- the executor of a context, with the settings of its constructor -/
inductive Executor | dynamic (threads throughput : Nat) | pinned (limit : Nat)
deriving DecidableEq, Repr

/-- execution_context.h l.24 -/
structure Ctx where
  name : Str
  executor : Executor
deriving DecidableEq, Repr

/-- execution_context.h l.28-34 -/
def Ctx.default (name : Str) : Ctx := ⟨name, .dynamic 4 5⟩

/-- What the configuration of one context has: the values of its keys, where there are any. -/
structure CtxConf where
  name : Option Str
  type : Option Str
  threadsNum : Option Nat
  throughput : Option Nat
  threadsLimit : Option Nat

def thread_pool : Str := "thread_pool".toList
def pinned : Str := "pinned".toList

def getOr (v : Option Nat) (d : Nat) : Nat :=
  match v with
  | some n => n
  | none => d

/-- execution_context.h l.50-77, the converter -/
def convert (c : CtxConf) : Option Ctx :=
  match c.name, c.type with
  | some name, some type =>
    if type = thread_pool then some ⟨name, .dynamic (getOr c.threadsNum 4) (getOr c.throughput 5)⟩
    else if type = pinned then some ⟨name, .pinned (getOr c.threadsLimit 16)⟩
    else none
  | _, _ => none

/-- `std::find_if` over the elements of a range given by two positions -/
def findIf {α : Type} (xs : List α) (first last : Nat) (p : α → Bool) : Nat :=
  if first < last then
    match xs[first]? with
    | none => first
    | some x => if p x then first else findIf xs (first + 1) last p
  else first
termination_by last - first

/-- actor_system.cpp l.63-70 `find_execution_`: the search goes from `begin()` to `begin()`; the position of the context, `none` for the null pointer -/
def findExecution (executions : List Ctx) (name : Str) : Option Nat :=
  let it := findIf executions 0 0 (fun c => decide (c.name = name))
  if it ≠ executions.length then some it else none

structure System where
  executions : List Ctx
  defaultName : Str
deriving DecidableEq, Repr

/-- The configuration of the system: the name of the default executor, and the contexts, if the keys are there. -/
structure Conf where
  defaultExecutor : Option Str
  contexts : Option (List CtxConf)

def convertAll : List CtxConf → Option (List Ctx)
  | [] => some []
  | c :: cs =>
    match convert c with
    | none => none
    | some x =>
      match convertAll cs with
      | none => none
      | some xs => some (x :: xs)

def defaultStr : Str := "default".toList

/-- l.91-117 `init_executors_` -/
def initExecutors (conf : Conf) : Option System :=
  let start : System :=
    match conf.defaultExecutor with
    | some n => ⟨[], n⟩
    | none => ⟨[Ctx.default defaultStr], defaultStr⟩
  match convertAll (match conf.contexts with | some cs => cs | none => []) with
  | none => none
  | some xs =>
    match findExecution (start.executions ++ xs) start.defaultName with
    | none => none
    | some _ => some ⟨start.executions ++ xs, start.defaultName⟩

/-- l.240 with `resolve_props_` (l.73-79) and `default_properties_` (l.82-88): the context of a new actor; its properties give a name or not -/
def execution (s : System) (props : Option Str) : Option Nat :=
  match props with
  | some name => findExecution s.executions name
  | none => findExecution s.executions s.defaultName

end Verif.Execution
