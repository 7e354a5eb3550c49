import Verif.Model.Ranges
/-!
# Model of programs with filter iterators

`/repo/include/yato/filter_iterator.h`: both classes, with an end (l.127-448) and without (l.453-775), both dereference policies, over a sequence that the program may change. A program has any number of iterator variables.

Simplifications. The predicate is a pure function, and copies of it are equal. The end is the end of the sequence. The elements are of one type; `Verif.Ranges.Cache` tells where a cached value of this type is. Variables are not
assigned or destroyed. Comparisons are with an iterator of the sequence (l.424-427, 440-443, 751-754, 767-770).
-/
set_option autoImplicit false

namespace Verif.FilterVars

open Verif.Ranges (Cache)

variable {α : Type}

/-- The type of a variable: does it have an end, and is the policy the caching one? (`_HasEnd` and `_DereferencePolicy`, l.127.) -/
structure Kind where
  hasEnd : Bool
  caching : Bool
  deriving DecidableEq, Repr

/-- An iterator: `m_iterator` as a position, `m_cached` (l.71, 173, 499); `none` is a storage without an object. -/
structure Var (α : Type) where
  kind : Kind
  pos : Nat
  cache : Option α
  deriving DecidableEq, Repr

/-- The sequence and the variables of a program. -/
structure St (α : Type) where
  xs : List α
  vars : List (Var α)
  deriving DecidableEq, Repr

/-- `_save_cache(*m_iterator)` for the caching policy (l.114-117, 182, 507); nothing for the other one. -/
def save (k : Cache) (v : Var α) (x : α) : Option (Var α) :=
  if v.kind.caching then (k.save v.cache x).map fun c => { v with cache := c } else some v

/-- `_skip_forward`, l.177-197 with an end, l.502-522 without: the caching ones save each element they look at. Without an end the loop goes on until there is a match; past the end it dereferences the end. At most `fuel` rounds. -/
def skipForward (k : Cache) (p : α → Bool) (xs : List α) : Nat → Var α → Option (Var α)
  | 0, _ => none
  | fuel + 1, v =>
    if v.kind.hasEnd && v.pos == xs.length then some v
    else
      match xs[v.pos]? with
      | none => none
      | some x =>
        match save k v x with
        | none => none
        | some v' => if p x then some v' else skipForward k p xs fuel { v' with pos := v'.pos + 1 }

/-- `_skip_backward`, l.199-219 and l.524-544: no test for the begin, before which the iterator must not go. -/
def skipBackward (k : Cache) (p : α → Bool) (xs : List α) : Nat → Var α → Option (Var α)
  | 0, _ => none
  | fuel + 1, v =>
    match xs[v.pos]? with
    | none => none
    | some x =>
      match save k v x with
      | none => none
      | some v' => if p x then some v' else if v'.pos = 0 then none else skipBackward k p xs fuel { v' with pos := v'.pos - 1 }

/-- The constructor from an iterator, l.228-234 and l.553-559: the cache is empty at first. -/
def make (k : Cache) (p : α → Bool) (xs : List α) (kind : Kind) (i : Nat) : Option (Var α) :=
  if i ≤ xs.length then skipForward k p xs (xs.length + 1) ⟨kind, i, none⟩ else none

/-- `++it`, l.372-377 and l.699-704. -/
def inc (k : Cache) (p : α → Bool) (xs : List α) (v : Var α) : Option (Var α) :=
  if v.pos < xs.length then skipForward k p xs (xs.length + 1) { v with pos := v.pos + 1 } else none

/-- `--it`, l.392-399 and l.719-726. -/
def dec (k : Cache) (p : α → Bool) (xs : List α) (v : Var α) : Option (Var α) :=
  if v.pos = 0 then none else skipBackward k p xs (xs.length + 1) { v with pos := v.pos - 1 }

/-- The copy constructor, l.239-241 and l.564-567: the cache is copied, if there is one. -/
def clone (k : Cache) (v : Var α) : Option (Var α) :=
  if v.kind.caching then (k.copy v.cache).map fun c => { v with cache := c } else some v

/-- The converting copy constructor, l.246-250 and l.572-577, from an iterator with an end: a cache is copied from a cache (l.80-83); made from an iterator without one it stays empty (l.76-78). -/
def convert (k : Cache) (v : Var α) (to : Kind) : Option (Var α) :=
  if to.caching && v.kind.caching then (k.copy v.cache).map fun c => ⟨to, v.pos, c⟩ else some ⟨to, v.pos, none⟩

/-- Is there a constructor of `to` from `from`? The copy constructor for the same type; the converting ones take iterators with an end only, since the parameter `_HasEnd` of `filter_iterator<…>` is not given there (l.247, 573). -/
def convertible (from_ to : Kind) : Bool := from_ == to || from_.hasEnd

/-- Statements. -/
inductive Op (α : Type) where
  /-- a new variable of the type, from position `i` of the sequence -/
  | make (kind : Kind) (i : Nat)
  /-- a new variable of the type, from another one -/
  | copy (x : Nat) (to : Kind)
  /-- `++x` -/
  | inc (x : Nat)
  /-- `--x` -/
  | dec (x : Nat)
  /-- the value of `*x` -/
  | read (x : Nat)
  /-- the value of `*x` for `x` as a const reference -/
  | readConst (x : Nat)
  /-- `*x = v` -/
  | write (x : Nat) (v : α)
  /-- `seq[i] = v` -/
  | poke (i : Nat) (v : α)
  /-- `x == seq.begin() + i` -/
  | isAt (x : Nat) (i : Nat)
  deriving DecidableEq, Repr

/-- What a statement gives. -/
inductive Out (α : Type) where
  | done
  | value (x : α)
  | bool (b : Bool)
  deriving DecidableEq, Repr

/-- The outcome of a statement: the result and the new state, a statement that does not compile, undefined behaviour. -/
inductive Res (σ β : Type) where
  | ok (o : β) (s : σ)
  | refused
  | ub
  deriving DecidableEq, Repr

/-- the state with a new variable -/
def added (s : St α) : Option (Var α) → Res (St α) (Out α)
  | some v => .ok .done { s with vars := s.vars ++ [v] }
  | none => .ub

/-- the state with variable `x` replaced -/
def replaced (s : St α) (x : Nat) : Option (Var α) → Res (St α) (Out α)
  | some v => .ok .done { s with vars := s.vars.set x v }
  | none => .ub

/-- the value of `*it`, l.344-359 and l.671-686: what is cached (nothing: a null pointer, or an indeterminate value), or the element -/
def readVar (s : St α) (v : Var α) : Res (St α) (Out α) :=
  match (if v.kind.caching then v.cache else s.xs[v.pos]?) with
  | some a => .ok (.value a) s
  | none => .ub

/-- `*it = a`: the reference is to the cached value or to the element. A plain value may be stored in an empty buffer. -/
def writeVar (k : Cache) (s : St α) (x : Nat) (v : Var α) (a : α) : Res (St α) (Out α) :=
  if v.kind.caching then
    if v.cache.isSome || k == .plain then .ok .done { s with vars := s.vars.set x { v with cache := some a } } else .ub
  else if v.pos < s.xs.length then .ok .done { s with xs := s.xs.set v.pos a } else .ub

/-- One statement. The const `operator*` of the class without an end returns `*(const_cast<my_type*>(this))`, the iterator itself, which is no reference to an element: it does not compile (l.691-694; compare l.364-367).
A variable that does not exist: does not compile. -/
def step (k : Cache) (p : α → Bool) (s : St α) : Op α → Res (St α) (Out α)
  | .make kind i => added s (make k p s.xs kind i)
  | .copy x to =>
    match s.vars[x]? with
    | none => .refused
    | some v => if convertible v.kind to then (if v.kind = to then added s (clone k v) else added s (convert k v to)) else .refused
  | .inc x =>
    match s.vars[x]? with
    | none => .refused
    | some v => replaced s x (inc k p s.xs v)
  | .dec x =>
    match s.vars[x]? with
    | none => .refused
    | some v => replaced s x (dec k p s.xs v)
  | .read x =>
    match s.vars[x]? with
    | none => .refused
    | some v => readVar s v
  | .readConst x =>
    match s.vars[x]? with
    | none => .refused
    | some v => if v.kind.hasEnd then readVar s v else .refused
  | .write x a =>
    match s.vars[x]? with
    | none => .refused
    | some v => writeVar k s x v a
  | .poke i a => if i < s.xs.length then .ok .done { s with xs := s.xs.set i a } else .ub
  | .isAt x i =>
    match s.vars[x]? with
    | none => .refused
    | some v => .ok (.bool (decide (v.pos = i))) s

/-- A program: the results of its statements and the final state. (A statement that does not compile is found where it is reached; in C++ the whole program is rejected.) -/
def run (k : Cache) (p : α → Bool) : List (Op α) → St α → Res (St α) (List (Out α))
  | [], s => .ok [] s
  | op :: ops, s =>
    match step k p s op with
    | .refused => .refused
    | .ub => .ub
    | .ok o s' =>
      match run k p ops s' with
      | .ok os s'' => .ok (o :: os) s''
      | .refused => .refused
      | .ub => .ub

end Verif.FilterVars
