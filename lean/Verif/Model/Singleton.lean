/-!
Model of `singleton_holder` (`/repo/include/yato/singleton.h`) used by several threads.

The threads interleave between the accesses to the static pointer and the calls of the creator. Objects are numbered in the order of their creation.

Simplifications:
 * Accesses of two threads to the same static pointer without synchronisation are undefined in C++; here each access is one step, so that the model shows what happens even if this is ignored.
 * The end of the program, which destroys the object, is not modelled; nor is a constructor of the object that uses the singleton itself.
-/
set_option autoImplicit false

namespace Verif.Singleton

/-- Where a thread is in `instance` or `instance_ref`. -/
inductive PC where
  | idle
  /-- l.74: the pointer was null; `create` is called next -/
  | creating
  /-- l.75: the object was created; `reset` is called next -/
  | resetting (obj : Nat)
  /-- l.57, l.66: after `touch` -/
  | reading
deriving DecidableEq, Repr

/-- The static pointer, the number of objects created so far, those that were destroyed, the threads, and what the calls returned, with the newest first. -/
structure St where
  inst : Option Nat
  made : Nat
  dead : List Nat
  pc : Nat → PC
  returned : List (Nat × Option Nat)

def init : St := ⟨none, 0, [], fun _ => .idle, []⟩

def St.goto (s : St) (t : Nat) (p : PC) : St := { s with pc := fun u => if u = t then p else s.pc u }

inductive Act where
  /-- thread `t` calls `instance` or `instance_ref` and compares the pointer (l.74) -/
  | call (t : Nat)
  /-- the creator is called (l.22-25); it may throw -/
  | create (t : Nat) (throws : Bool)
  /-- `unique_ptr::reset` (l.75): the object is stored, the previous one is destroyed (l.42-45, l.27-30) -/
  | reset (t : Nat)
  /-- the pointer is read and returned (l.57, l.66) -/
  | read (t : Nat)

/-- `none`: the thread is not there. -/
def step (s : St) : Act → Option St
  | .call t =>
    match s.pc t with
    | .idle => some (s.goto t (if s.inst = none then .creating else .reading))
    | _ => none
  | .create t throws =>
    match s.pc t with
    | .creating => if throws then some (s.goto t .idle) else some ({ s with made := s.made + 1 }.goto t (.resetting s.made))
    | _ => none
  | .reset t =>
    match s.pc t with
    | .resetting o => some ({ s with inst := some o, dead := s.dead ++ s.inst.toList }.goto t .reading)
    | _ => none
  | .read t =>
    match s.pc t with
    | .reading => some ({ s with returned := (t, s.inst) :: s.returned }.goto t .idle)
    | _ => none

end Verif.Singleton
