/-!
Model of the assertions that can be made to throw in tests (`/repo/include/yato/assertion.h` l.114-176), with `YATO_ENABLE_TESTED_ASSERTIONS`.

Simplification: statements of all threads are listed in one order; locks are objects with a scope, of which only the number is kept.
-/
set_option autoImplicit false

namespace Verif.AssertLock

/-- l.118-132: the two callbacks -/
inductive Callback where
  | default_
  | throwing
deriving DecidableEq, Repr

/-- l.134-141: the callback that is set, and the number of locks whose scope has not ended. -/
structure St where
  callback : Callback
  locks : Nat
deriving DecidableEq, Repr

/-- l.138 -/
def init : St := ⟨.default_, 0⟩

inductive Op where
  /-- `YATO_THROWING_ASSERT_LOCK` (l.145-147, l.170) -/
  | lock
  /-- the end of the scope of a lock (l.149-151) -/
  | unlock
  /-- one of `YATO_REQUIRES_TESTED`, `YATO_ENSURES_TESTED`, `YATO_ASSERT_TESTED` (l.167-169) -/
  | check (condition : Bool)
deriving DecidableEq, Repr

inductive Res where
  | passed
  /-- `assertion_error` -/
  | threw
  /-- `assert` ends the program -/
  | aborted
  /-- no such lock -/
  | skipped
deriving DecidableEq, Repr

/-- l.120-132; in a release build `YATO_ASSERT` does nothing (l.103-111) -/
def call (debug : Bool) : Callback → Bool → Res
  | .default_, c => if debug && !c then .aborted else .passed
  | .throwing, c => if !c then .threw else .passed

def step (debug : Bool) (s : St) : Op → Res × St
  | .lock => (.passed, ⟨.throwing, s.locks + 1⟩)
  | .unlock => if s.locks = 0 then (.skipped, s) else (.passed, ⟨.default_, s.locks - 1⟩)
  | .check c => (call debug s.callback c, s)

/-- the state after a program that was not ended by an assertion; exceptions are caught -/
def run (debug : Bool) : St → List Op → Option St
  | s, [] => some s
  | s, op :: ops => if (step debug s op).1 = .aborted then none else run debug (step debug s op).2 ops

end Verif.AssertLock
