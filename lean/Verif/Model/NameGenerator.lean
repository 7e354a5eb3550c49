/-!
# Model of `name_generator` (`modules/actors/yato/actors/private/name_generator.h`)

A string is a list of characters. The map from prefixes to counters is a function giving `none` for keys that are not there.
-/
set_option autoImplicit false

namespace Verif.NameGenerator

abbrev Str := List Char

/-- the values of `size_t` -/
def sizeMod : Nat := 2 ^ 64

/-- `std::to_string` of an unsigned number: its decimal digits -/
def toStr (n : Nat) : Str := Nat.toDigits 10 n

/-- name_generator.h l.23 -/
abbrev Gen := Str → Option Nat

def Gen.empty : Gen := fun _ => none
def Gen.put (g : Gen) (p : Str) (n : Nat) : Gen := fun q => if q = p then some n else g q

/-- l.40-43, the counter of a prefix: found, or inserted as 0 -/
def counter (g : Gen) (p : Str) : Nat :=
  match g p with
  | some n => n
  | none => 0

/-- l.38-45 `next_indexed` -/
def nextIndexed (g : Gen) (p : Str) : Str × Gen := (p ++ toStr (counter g p), g.put p ((counter g p + 1) % sizeMod))

/-- the names returned by a sequence of calls -/
def run (g : Gen) : List Str → List Str
  | [] => []
  | p :: ps => (nextIndexed g p).1 :: run (nextIndexed g p).2 ps

/-! ## Concurrent callers

Nothing synchronizes the callers (`actor_system.cpp` l.305 and l.347 run on the threads calling `ask` and `find`). The increment of l.44 is modelled as
two steps of its thread: reading the counter, and then writing it back. By the C++ standard such a race is undefined behaviour; this is its mildest outcome.
-/

inductive Ev | read (thread : Nat) (p : Str) | write (thread : Nat)
deriving DecidableEq, Repr

structure Sys where
  gen : Gen
  /-- what every thread has read and not yet written back -/
  pending : Nat → Option (Str × Nat)
  /-- the names returned, latest first -/
  names : List Str

def Sys.init : Sys := ⟨Gen.empty, fun _ => none, []⟩

/-- `none`: not possible in this state -/
def step (s : Sys) : Ev → Option Sys
  | .read t p =>
    match s.pending t with
    | some _ => none
    | none => some { s with pending := fun u => if u = t then some (p, counter s.gen p) else s.pending u }
  | .write t =>
    match s.pending t with
    | none => none
    | some (p, n) => some ⟨s.gen.put p ((n + 1) % sizeMod), fun u => if u = t then none else s.pending u, (p ++ toStr n) :: s.names⟩

def runEvs (s : Sys) : List Ev → Option Sys
  | [] => some s
  | e :: es =>
    match step s e with
    | none => none
    | some s' => runEvs s' es

end Verif.NameGenerator
