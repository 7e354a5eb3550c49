import Verif.Model.AtomicAttributes

/-!
# Model of threads that share an object `atomic_attributes` (`include/yato/atomic_attributes.h`)

Each thread runs a list of calls on one object. The scheduler picks the thread that goes on. A call begins in one turn; in another one it
does its single access to an atomic, or its effect on the table, and ends. The copy constructor loads one attribute in each of its turns.
Two calls that overlap and access the same place, one of them writing, and not as an atomic, are a data race: undefined behaviour. A
program has a data race if there is one in some order of the turns.

Simplifications:
 * The effects are those of `Verif.AtomicAttributes` (C34).
 * Only the default memory order, `memory_order_seq_cst` (l.85), is modelled: atomic accesses happen one after another.
 * A copy is given by the list of its attributes; it is no object that others use.
-/
set_option autoImplicit false

namespace Verif.AtomicThreads

open AtomicAttributes (Map Op Entry find fromAtomic)

variable {K β : Type} [DecidableEq K]

/-- A place that is accessed: the table of the `unordered_map`, or the `any` of a key (l.109; the atomic it holds is not meant). -/
structure Acc (K : Type) where
  key : Option K
  write : Bool
deriving DecidableEq, Repr

/-- `find` (reads the table), then the `any` if there is one -/
def lookup (m : Map K β) (k : K) (write : Bool) : List (Acc K) :=
  ⟨none, false⟩ :: if (find k m).isSome then [⟨some k, write⟩] else []

/-- What a call accesses. -/
def accesses (m : Map K β) : Op K β → List (Acc K)
  | .register k _ _ => [⟨none, true⟩, ⟨some k, true⟩] -- l.157-158: `emplace`, and a new content of the `any`
  | .set k _ => lookup m k false -- l.138-140, l.47: the atomic is stored to, the `any` only read
  | .clear k => lookup m k true -- l.177-180: the content is deleted
  | .has _ => [⟨none, false⟩] -- l.186
  | .getAs k _ => lookup m k false -- l.235-243
  | .getOr k _ _ => lookup m k false -- l.253-261
  | .getOpt k _ => lookup m k false -- l.271-279
  | .copy => ⟨none, false⟩ :: m.map fun p => ⟨some p.1, false⟩ -- l.197-201

def clash (a b : Acc K) : Bool := decide (a.key = b.key) && (a.write || b.write)

inductive Res (K β : Type) where
  | answer (r : AtomicAttributes.Res β)
  /-- the attributes of a copy: keys, types, values -/
  | copied (l : List (K × Nat × β))
deriving DecidableEq, Repr

inductive Phase (K β : Type) where
  /-- before the next call -/
  | idle
  /-- the call has begun, when the log had this length -/
  | began (start : Nat)
  /-- the call is the copy constructor: when it began, the keys that are left, what was loaded -/
  | copying (start : Nat) (todo : List K) (got : List (K × Nat × β))
deriving DecidableEq, Repr

structure Thread (K β : Type) where
  prog : List (Op K β)
  phase : Phase K β

/-- A call that has ended. `start`: how many calls had ended when it began. -/
structure Event (K β : Type) where
  thread : Nat
  op : Op K β
  res : Res K β
  start : Nat

structure St (K β : Type) where
  map : Map K β
  threads : List (Thread K β)
  log : List (Event K β)

inductive Out (σ : Type) where
  | ok (s : σ)
  /-- undefined behaviour -/
  | ub

/-- Does the call of another thread access what the call of thread `t` accesses? -/
def races (m : Map K β) (ts : List (Thread K β)) (t : Nat) (x : Op K β) : Bool :=
  ts.zipIdx.any fun p => p.2 != t && (match p.1.phase with | .idle => false | _ => true) && match p.1.prog with
    | [] => false
    | y :: _ => (accesses m x).any fun a => (accesses m y).any fun b => clash a b

def finish (s : St K β) (t : Nat) (x : Op K β) (rest : List (Op K β)) (m : Map K β) (r : Res K β) (start : Nat) : St K β :=
  ⟨m, s.threads.set t ⟨rest, .idle⟩, s.log ++ [⟨t, x, r, start⟩]⟩

/-- The call begins. The loop l.197 of the copy constructor goes through the entries that are there. -/
def begin_ (s : St K β) (t : Nat) (x : Op K β) (rest : List (Op K β)) : Out (St K β) :=
  if races s.map s.threads t x then .ub
  else
    match x with
    | .copy => .ok { s with threads := s.threads.set t ⟨x :: rest, .copying s.log.length (s.map.map (·.1)) []⟩ }
    | _ => .ok { s with threads := s.threads.set t ⟨x :: rest, .began s.log.length⟩ }

/-- l.197-203: one round of the loop, `from_atomic` (l.40-43) of the entry; or the end of it. -/
def copyStep (s : St K β) (t : Nat) (rest : List (Op K β)) (start : Nat) (got : List (K × Nat × β)) : List K → St K β
  | [] => finish s t .copy rest s.map (.copied got) start
  | k :: todo =>
    match find k s.map with
    | some e =>
      match fromAtomic e.assigner e.value with
      | some (some (T, a)) => { s with threads := s.threads.set t ⟨.copy :: rest, .copying start todo (got ++ [(k, T, a)])⟩ }
      | _ => finish s t .copy rest s.map (.answer .badCast) start
    | none => finish s t .copy rest s.map (.answer .badCast) start

/-- Thread `t` has its turn. -/
def step (s : St K β) (t : Nat) : Out (St K β) :=
  match s.threads[t]? with
  | none => .ok s
  | some ⟨[], _⟩ => .ok s
  | some ⟨x :: rest, .idle⟩ => begin_ s t x rest
  | some ⟨x :: rest, .began start⟩ => .ok (finish s t x rest (AtomicAttributes.step s.map x).2 (.answer (AtomicAttributes.step s.map x).1) start)
  | some ⟨_ :: rest, .copying start todo got⟩ => .ok (copyStep s t rest start got todo)

def steps (s : St K β) : List Nat → Out (St K β)
  | [] => .ok s
  | t :: ts =>
    match step s t with
    | .ok s' => steps s' ts
    | .ub => .ub

/-- The object at the beginning, one list of calls for each thread, and the order of the turns. -/
def run (m : Map K β) (progs : List (List (Op K β))) (sched : List Nat) : Out (St K β) :=
  steps ⟨m, progs.map (⟨·, .idle⟩), []⟩ sched

end Verif.AtomicThreads
