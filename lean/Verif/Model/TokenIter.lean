import Verif.Model.Tokens

/-!
Model of the iterator interface of `yato::token_iterator` (`/repo/include/yato/token_iterator.h`): programs that keep any
number of token iterators over any number of sequences, copy them, increment them, dereference them and compare them.

The splitting itself (`moveIter`, `nextToken`, `peek`) is that of `Verif/Model/Tokens.lean`.  Sequences and separators
are referred to by numbers.  `Option.none` is undefined behaviour: use of an uninitialized iterator, of an iterator into a
sequence that was destroyed, comparison of iterators into different sequences, and reading through a reference to a local
variable that has gone out of scope.
-/
set_option autoImplicit false

namespace Verif.TokenIter

open Verif.Tokens (State moveIter nextToken peek hasNext next)

variable {α : Type}

/-- What is given from outside: the predicates by number, and the position that an underlying iterator denotes after it
has been moved from (`none`: none, using it is undefined).  For pointers and the iterators of the standard containers a
move is a copy, in general the moved-from state is not specified. -/
structure Env (α : Type) where
  sep : Nat → α → Bool
  moved : Nat → Option Nat

/-- A token iterator: the sequence it runs over, `m_predicate`, `m_skip_empty`, `m_token_begin` and `m_token_end`
(token_iterator.h l.98-102).  `m_end` is the end of the sequence. -/
structure Iter where
  text : Nat
  sep : Nat
  skip : Bool
  st : State
deriving DecidableEq

/-- Living sequences and iterator variables. -/
structure World (α : Type) where
  texts : Nat → Option (List α)
  vars : Nat → Option Iter

/-- Assignment to one entry of a table. -/
def put {β : Type} (f : Nat → β) (i : Nat) (b : β) : Nat → β := fun j => if j = i then b else f j

/-- The constructors (l.139-151).  Both members are initialized from `std::move(first)`: the second one takes what the
first move has left.  `YATO_ASSERT` (l.142, 149) is a no-op in release builds. -/
def construct (e : Env α) (xs : List α) (p : Nat) (skip : Bool) : Option State :=
  (e.moved 0).bind fun first =>
    (moveIter (e.sep p) xs first).bind fun te =>
      if skip ∧ 0 = te then nextToken (e.sep p) xs skip te else some ⟨0, te⟩

/-- Statements of a program. -/
inductive Cmd where
  /-- `v = tokenize_if(text t, sep p, skip)` -/
  | make (v t p : Nat) (skip : Bool)
  /-- `w = v` -/
  | copy (v w : Nat)
  /-- `++v` -/
  | inc (v : Nat)
  /-- `w = v++` -/
  | postInc (v w : Nat)
  /-- `*v` -/
  | deref (v : Nat)
  /-- `*(v.operator->())` -/
  | arrow (v : Nat)
  /-- `v.next()` -/
  | next (v : Nat)
  /-- `v.has_next()` -/
  | hasNext (v : Nat)
  /-- `v.empty()` -/
  | empty (v : Nat)
  /-- `v == w` -/
  | eq (v w : Nat)
  /-- `v != w` -/
  | ne (v w : Nat)
  /-- `v == tokens_end` and `tokens_end == v` -/
  | eqEnd (v : Nat)
  /-- `v != tokens_end` and `tokens_end != v` -/
  | neEnd (v : Nat)
  /-- The sequence `t` is destroyed. -/
  | drop (t : Nat)
deriving DecidableEq

/-- What a statement yields. -/
inductive Obs (α : Type) where
  | unit
  | token (t : List α)
  | bool (b : Bool)
deriving DecidableEq

/-- An iterator variable and the sequence it runs over. -/
def look (w : World α) (v : Nat) : Option (Iter × List α) :=
  (w.vars v).bind fun it => (w.texts it.text).map fun xs => (it, xs)

/-- One statement.
* `inc`: l.194-199; `YATO_REQUIRES(has_next())` (l.196) is a no-op in release builds; the token is dropped.
* `postInc`: l.201-207 increments and returns a reference to the local copy `tmp`; `w = v++` reads it after its end.
* `deref`: l.184-187, `arrow`: l.189-192 (a pointer to a new copy), `next`: l.176-182, `hasNext`: l.161-164,
  `empty`: l.166-169.
* `eq`: l.209-213, `ne`: l.227-231; `eqEnd`: l.215-225, `neEnd`: l.233-243.
* `copy`: the defaulted copy constructor and assignment (l.153-157).
* `make`: l.246-253. -/
def step (e : Env α) (w : World α) : Cmd → Option (World α × Obs α)
  | .make v t p skip =>
    (w.texts t).bind fun xs =>
      (construct e xs p skip).map fun s => ({ w with vars := put w.vars v (some ⟨t, p, skip, s⟩) }, .unit)
  | .copy v u => (look w v).map fun (it, _) => ({ w with vars := put w.vars u (some it) }, .unit)
  | .inc v =>
    (look w v).bind fun (it, xs) =>
      (Tokens.next (e.sep it.sep) xs it.skip it.st).map fun (_, s) =>
        ({ w with vars := put w.vars v (some { it with st := s }) }, .unit)
  | .postInc _ _ => none
  | .deref v => (look w v).bind fun (it, xs) => (peek xs it.st).map fun t => (w, .token t)
  | .arrow v => (look w v).bind fun (it, xs) => (peek xs it.st).map fun t => (w, .token t)
  | .next v =>
    (look w v).bind fun (it, xs) =>
      (Tokens.next (e.sep it.sep) xs it.skip it.st).map fun (t, s) =>
        ({ w with vars := put w.vars v (some { it with st := s }) }, .token t)
  | .hasNext v => (look w v).map fun (it, xs) => (w, .bool (Tokens.hasNext xs it.st))
  | .empty v => (look w v).map fun (it, xs) => (w, .bool (!Tokens.hasNext xs it.st))
  | .eq v u =>
    (look w v).bind fun (it, _) => (look w u).bind fun (jt, _) =>
      if it.text = jt.text then
        some (w, .bool (it.st.tokBegin == jt.st.tokBegin && it.st.tokEnd == jt.st.tokEnd))
      else none
  | .ne v u =>
    (look w v).bind fun (it, _) => (look w u).bind fun (jt, _) =>
      if it.text = jt.text then
        some (w, .bool (it.st.tokBegin != jt.st.tokBegin || it.st.tokEnd != jt.st.tokEnd))
      else none
  | .eqEnd v => (look w v).map fun (it, xs) => (w, .bool (!Tokens.hasNext xs it.st))
  | .neEnd v => (look w v).map fun (it, xs) => (w, .bool (Tokens.hasNext xs it.st))
  | .drop t => some ({ w with texts := put w.texts t none }, .unit)

/-- A program: the values it yields, or undefined behaviour. -/
def run (e : Env α) : World α → List Cmd → Option (List (Obs α))
  | _, [] => some []
  | w, c :: cs => (step e w c).bind fun (w', o) => (run e w' cs).map fun os => o :: os

/-- `for (auto && token : tokens_range_if(text, sep, skip)) out.push_back(token);` (l.335-339): the range holds a token
iterator and `tokens_end`.  At most `fuel` rounds; `none` if the loop is not finished then. -/
def forLoop (e : Env α) (xs : List α) (p : Nat) (skip : Bool) : Nat → State → Option (List (List α))
  | 0, s => if Tokens.hasNext xs s then none else some []
  | fuel + 1, s =>
    if Tokens.hasNext xs s then
      (peek xs s).bind fun t =>
        (Tokens.next (e.sep p) xs skip s).bind fun (_, s') =>
          (forLoop e xs p skip fuel s').map fun ts => t :: ts
    else some []

/-- The whole loop, with the construction of the range. -/
def rangeFor (e : Env α) (xs : List α) (p : Nat) (skip : Bool) (fuel : Nat) : Option (List (List α)) :=
  (construct e xs p skip).bind (forLoop e xs p skip fuel)

end Verif.TokenIter
