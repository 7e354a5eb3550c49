import Verif.Model.Attributes

/-!
# Model of threads that share attribute maps (`include/yato/attributes_interface.h` l.127-337)

Each thread runs a list of statements over numbered variables of one class `attributes_map<KeyType, Validator, LockProvider>`. The
scheduler picks the thread that goes on. A call takes two turns, its begin and its end, so that calls of different threads overlap; two
overlapping calls that access the same member of one map, one of them changing it, are a data race, which is undefined behaviour.

Simplifications:
 * The entries are those of `Verif.Attributes` (C33): values can be copied, allocations succeed.
 * `lock_attributes` and the destruction of the lock it returned take one turn. A thread that has to wait does nothing in its turn.
 * A map that was moved from is empty.
 * The validator is a function; copying and calling it has no effects.
 * An exception ends the statement that threw it, and the thread goes on.
-/
set_option autoImplicit false

namespace Verif.AttrThreads

variable {K α : Type}

/-- The arguments of the template, l.164-167. -/
structure Cls where
  /-- `Validator` is not `accept_any<KeyType>` (l.102-110, the default) -/
  custom : Bool
  /-- `LockProvider` is `mutex_lock` (l.130-141, the default); otherwise `no_lock` (l.146-156) -/
  mutex : Bool
deriving DecidableEq, Repr

/-- l.171 `this_type` is `attributes_map<KeyType>`, which has the default arguments: is it the class itself? -/
def Cls.isThis (c : Cls) : Bool := !c.custom && c.mutex

/-- An object of the class, l.181-183. -/
structure Obj (K α : Type) where
  /-- `m_attributes` -/
  entries : Attributes.Map K α
  /-- `m_validator` -/
  validator : K → Bool
  /-- the thread that owns the mutex of `m_lock_provider` -/
  owner : Option Nat

/-- The variables; `none`: there is no object. -/
abbrev Objs (K α : Type) := Nat → Option (Obj K α)

def put (os : Objs K α) (v : Nat) (o : Option (Obj K α)) : Objs K α := fun w => if w = v then o else os w

inductive Stmt (K α : Type) where
  /-- `attributes_map d;` or `attributes_map d(f);` -/
  | new (d : Nat) (f : K → Bool)
  /-- `attributes_map d(s);` -/
  | copyNew (d s : Nat)
  /-- `attributes_map d(std::move(s));` -/
  | moveNew (d s : Nat)
  /-- `d = s;` -/
  | assign (d s : Nat)
  /-- `d = std::move(s);` -/
  | moveAssign (d s : Nat)
  /-- `a.swap(b);` -/
  | swap (a b : Nat)
  /-- the end of the lifetime of `d` -/
  | destroy (d : Nat)
  /-- a call of another member function -/
  | call (v : Nat) (op : Attributes.Op K α)
  /-- `auto lock = v.lock_attributes();` -/
  | lock (v : Nat)
  /-- the end of the lifetime of that lock -/
  | unlock (v : Nat)

/-- Does the statement compile? For a class other than `this_type` the members l.233-259 take an object of another class and are no
copying and moving members: the compiler adds a copy constructor and a copy assignment (the destructor of l.231 is declared, so no
moving ones), which are deleted if there is a mutex. -/
def compiles (c : Cls) : Stmt K α → Bool
  | .copyNew _ _ | .moveNew _ _ | .assign _ _ | .moveAssign _ _ => c.isThis || !c.mutex
  | .swap _ _ => c.isThis
  | _ => true

inductive Part where
  | entries
  | validator
deriving DecidableEq, Repr

/-- An access to a member of an object. -/
structure Acc where
  obj : Nat
  part : Part
  write : Bool
deriving DecidableEq, Repr

def whole (v : Nat) (write : Bool) : List Acc := [⟨v, .entries, write⟩, ⟨v, .validator, write⟩]

/-- Does a call change the entries? -/
def changes : Attributes.Op K α → Bool
  | .set _ _ | .clear _ => true
  | _ => false

/-- Which members a statement accesses. -/
def accesses (c : Cls) : Stmt K α → List Acc
  | .new d _ => whole d true
  | .copyNew d s => whole d true ++ (if c.isThis then [⟨s, .entries, false⟩] else whole s false) -- l.233-235
  | .moveNew d s => whole d true ++ (if c.isThis then [⟨s, .entries, true⟩] else whole s false) -- l.244-246
  | .assign d s => if c.isThis then [⟨d, .entries, true⟩, ⟨s, .entries, false⟩] else whole d true ++ whole s false -- l.237-242
  | .moveAssign d s => if c.isThis then [⟨d, .entries, true⟩, ⟨s, .entries, true⟩] else whole d true ++ whole s false -- l.248-253
  | .swap a b => [⟨a, .entries, true⟩, ⟨b, .entries, true⟩] -- l.255-259
  | .destroy d => whole d true
  | .call v (.valid _) => [⟨v, .validator, false⟩] -- l.217-220
  | .call v op => [⟨v, .entries, changes op⟩]
  | .lock _ | .unlock _ => []

def clash (a b : Acc) : Bool := a.obj == b.obj && a.part == b.part && (a.write || b.write)

inductive Res (α : Type) where
  | done
  /-- `bad_lock` is thrown, l.154 -/
  | badLock
  | answer (r : Attributes.Res α)
deriving DecidableEq, Repr

inductive Out (σ : Type) where
  | ok (s : σ)
  /-- undefined behaviour -/
  | ub
  /-- the program does not compile -/
  | refused
  /-- a requirement of the code is violated, for example l.239 -/
  | contract

/-- The effect of a statement that is no locking. -/
def exec (c : Cls) (lt : K → K → Bool) (os : Objs K α) : Stmt K α → Out (Objs K α × Res α)
  | .new d f => -- l.224-229
    match os d with
    | some _ => .ub
    | none => .ok (put os d (some ⟨[], if c.custom then f else fun _ => true, none⟩), .done)
  | .copyNew d s => -- l.233-235; the validator is the default one. Otherwise memberwise.
    match os d, os s with
    | none, some o => .ok (put os d (some ⟨o.entries, if c.isThis then fun _ => true else o.validator, none⟩), .done)
    | _, _ => .ub
  | .moveNew d s => -- l.244-246; otherwise it is the copy constructor that is called
    match os d, os s with
    | none, some o =>
      if c.isThis then .ok (put (put os s (some { o with entries := [] })) d (some ⟨o.entries, fun _ => true, none⟩), .done)
      else .ok (put os d (some ⟨o.entries, o.validator, none⟩), .done)
    | _, _ => .ub
  | .assign d s => -- l.237-242; otherwise memberwise
    match os d, os s with
    | some x, some o =>
      if c.isThis then if d = s then .contract else .ok (put os d (some { x with entries := o.entries }), .done)
      else .ok (put os d (some { x with entries := o.entries, validator := o.validator }), .done)
    | _, _ => .ub
  | .moveAssign d s => -- l.248-253; otherwise it is the copy assignment that is called
    match os d, os s with
    | some x, some o =>
      if c.isThis then
        if d = s then .contract else .ok (put (put os s (some { o with entries := [] })) d (some { x with entries := o.entries }), .done)
      else .ok (put os d (some { x with entries := o.entries, validator := o.validator }), .done)
    | _, _ => .ub
  | .swap a b => -- l.255-259
    match os a, os b with
    | some x, some y =>
      if a = b then .contract else .ok (put (put os a (some { x with entries := y.entries })) b (some { y with entries := x.entries }), .done)
    | _, _ => .ub
  | .destroy d => -- l.231; a mutex must not be destroyed while it is owned
    match os d with
    | some ⟨_, _, none⟩ => .ok (put os d none, .done)
    | _ => .ub
  | .call v op =>
    match os v with
    | some o => .ok (put os v (some { o with entries := (Attributes.step lt o.validator o.entries op).2 }), .answer (Attributes.step lt o.validator o.entries op).1)
    | none => .ub
  | .lock _ | .unlock _ => .ub

structure Thread (K α : Type) where
  /-- what is left to do -/
  prog : List (Stmt K α)
  /-- the first statement has begun -/
  inside : Bool

structure St (K α : Type) where
  objs : Objs K α
  threads : List (Thread K α)
  /-- the statements that have ended, in this order, with their threads and results -/
  log : List (Nat × Stmt K α × Res α)

/-- Does another thread that is inside a call access what the statement of thread `t` accesses? -/
def races (c : Cls) (ts : List (Thread K α)) (t : Nat) (x : Stmt K α) : Bool :=
  ts.zipIdx.any fun p => p.2 != t && p.1.inside && match p.1.prog with
    | [] => false
    | y :: _ => (accesses c x).any fun a => (accesses c y).any fun b => clash a b

/-- A statement of thread `t` ends. -/
def finish (s : St K α) (t : Nat) (x : Stmt K α) (rest : List (Stmt K α)) (os : Objs K α) (r : Res α) : St K α :=
  ⟨os, s.threads.set t ⟨rest, false⟩, s.log ++ [(t, x, r)]⟩

/-- l.333-336, l.137-140: `std::unique_lock` waits for the mutex; locking a mutex one owns is undefined. l.151-155: `no_lock` throws. -/
def lockStep (c : Cls) (s : St K α) (t v : Nat) (rest : List (Stmt K α)) : Out (St K α) :=
  match s.objs v with
  | none => .ub
  | some o =>
    if c.mutex then
      match o.owner with
      | none => .ok (finish s t (.lock v) rest (put s.objs v (some { o with owner := some t })) .done)
      | some u => if u = t then .ub else .ok s
    else .ok (finish s t (.lock v) rest s.objs .badLock)

/-- The destructor of `std::unique_lock`. -/
def unlockStep (s : St K α) (t v : Nat) (rest : List (Stmt K α)) : Out (St K α) :=
  match s.objs v with
  | none => .ub
  | some o => if o.owner = some t then .ok (finish s t (.unlock v) rest (put s.objs v (some { o with owner := none })) .done) else .ub

/-- The begin or the end of a call. -/
def callStep (c : Cls) (lt : K → K → Bool) (s : St K α) (t : Nat) (inside : Bool) (x : Stmt K α) (rest : List (Stmt K α)) : Out (St K α) :=
  if inside then
    match exec c lt s.objs x with
    | .ok (os, r) => .ok (finish s t x rest os r)
    | .ub => .ub
    | .refused => .refused
    | .contract => .contract
  else if races c s.threads t x then .ub
  else .ok { s with threads := s.threads.set t ⟨x :: rest, true⟩ }

/-- Thread `t` has its turn. -/
def step (c : Cls) (lt : K → K → Bool) (s : St K α) (t : Nat) : Out (St K α) :=
  match s.threads[t]? with
  | none => .ok s
  | some ⟨[], _⟩ => .ok s
  | some ⟨.lock v :: rest, _⟩ => lockStep c s t v rest
  | some ⟨.unlock v :: rest, _⟩ => unlockStep s t v rest
  | some ⟨x :: rest, inside⟩ => callStep c lt s t inside x rest

def steps (c : Cls) (lt : K → K → Bool) (s : St K α) : List Nat → Out (St K α)
  | [] => .ok s
  | t :: ts =>
    match step c lt s t with
    | .ok s' => steps c lt s' ts
    | .ub => .ub
    | .refused => .refused
    | .contract => .contract

/-- The program: maps that exist at the beginning, one list of statements for each thread, and the order of the turns. -/
def run (c : Cls) (lt : K → K → Bool) (os : Objs K α) (progs : List (List (Stmt K α))) (sched : List Nat) : Out (St K α) :=
  if progs.all fun p => p.all (compiles c) then steps c lt ⟨os, progs.map (⟨·, false⟩), []⟩ sched else .refused

end Verif.AttrThreads
