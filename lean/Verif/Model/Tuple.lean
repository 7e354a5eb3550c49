/-!
# Model of the tuple algorithms

`/repo/include/yato/tuple.h`. A tuple is a list of elements (of one type here; the functors of the library are overloaded or generic, and the model's functor may look at the element to tell types apart). A functor has
a state `σ`: calling it may change the state. `std::get<I>` with an index out of range does not compile: `none`.

The extra arguments `args` are forwarded to every call (l.25, 36-37, 107-108 …). One argument is modelled, given as an lvalue, or as an rvalue the functor may take over: then what it leaves behind is a moved-from value.
-/
set_option autoImplicit false

namespace Verif.Tuple

variable {α β γ δ σ : Type}

/-- The pack of indices: `tuple_transform_impl<Length - 1, Length - 1, Idxs...>` until the length is zero (l.20-41). -/
def pack : Nat → List Nat → List Nat
  | 0, idxs => idxs
  | n + 1, idxs => pack n (n :: idxs)

/-- The calls `functor(std::get<Idxs>(tuple), args...)...` in a given order. The order of evaluation of the arguments of a constructor is unspecified in C++. Result: what each call returned. -/
def calls (f : σ → α → σ × β) (t : List α) : List Nat → σ → Option (List (Nat × β) × σ)
  | [], s => some ([], s)
  | i :: is, s =>
    match t[i]? with
    | none => none
    | some a =>
      match calls f t is (f s a).1 with
      | none => none
      | some (rs, s') => some ((i, (f s a).2) :: rs, s')

/-- the result of the call for index `i` -/
def pick (rs : List (Nat × β)) (i : Nat) : Option β := (rs.find? fun r => r.1 == i).map Prod.snd

/-- the tuple of the results, in the order of the pack -/
def collect (rs : List (Nat × β)) : List Nat → Option (List β)
  | [] => some []
  | i :: is =>
    match pick rs i, collect rs is with
    | some b, some bs => some (b :: bs)
    | _, _ => none

/-- `tuple_transform(tuple, functor)` (l.31-53); `order` is the order the compiler chose, a permutation of the pack. -/
def transform (order : List Nat) (f : σ → α → σ × β) (t : List α) (s : σ) : Option (List β × σ) :=
  match calls f t order s with
  | none => none
  | some (rs, s') =>
    match collect rs (pack t.length []) with
    | none => none
    | some bs => some (bs, s')

/-- `tuple_transform(tuple1, tuple2, functor)` (l.58-95): only if the sizes are equal. -/
def transform2 (order : List Nat) (f : σ → α × β → σ × γ) (t : List α) (u : List β) (s : σ) : Option (List γ × σ) :=
  if t.length = u.length then transform order f (t.zip u) s else none

/-- `tuple_for_each_impl<Length, Idx>` (l.100-135): first the call, then the rest, then the functor is returned. -/
def forEachFrom (f : σ → α → σ) (t : List α) (len idx : Nat) (s : σ) : Option σ :=
  if idx = len then some s
  else if _h : len < idx then none
  else
    match t[idx]? with
    | none => none
    | some a => forEachFrom f t len (idx + 1) (f s a)
termination_by len - idx

def forEach (f : σ → α → σ) (t : List α) (s : σ) : Option σ := forEachFrom f t t.length 0 s

/-- `tuple_all_of_impl<Length, Idx>` (l.140-172): `&&` does not evaluate the rest after a failure. -/
def allFrom (p : σ → α → σ × Bool) (t : List α) (len idx : Nat) (s : σ) : Option (Bool × σ) :=
  if idx = len then some (true, s)
  else if _h : len < idx then none
  else
    match t[idx]? with
    | none => none
    | some a =>
      match p s a with
      | (s', true) => allFrom p t len (idx + 1) s'
      | (s', false) => some (false, s')
termination_by len - idx

def allOf (p : σ → α → σ × Bool) (t : List α) (s : σ) : Option (Bool × σ) := allFrom p t t.length 0 s

/-- the version for two tuples (l.177-213) -/
def allOf2 (p : σ → α × β → σ × Bool) (t : List α) (u : List β) (s : σ) : Option (Bool × σ) := if t.length = u.length then allOf p (t.zip u) s else none

/-- `tuple_any_of_impl<Length, Idx>` (l.218-250). -/
def anyFrom (p : σ → α → σ × Bool) (t : List α) (len idx : Nat) (s : σ) : Option (Bool × σ) :=
  if idx = len then some (false, s)
  else if _h : len < idx then none
  else
    match t[idx]? with
    | none => none
    | some a =>
      match p s a with
      | (s', true) => some (true, s')
      | (s', false) => anyFrom p t len (idx + 1) s'
termination_by len - idx

def anyOf (p : σ → α → σ × Bool) (t : List α) (s : σ) : Option (Bool × σ) := anyFrom p t t.length 0 s

/-- the version for two tuples (l.255-291) -/
def anyOf2 (p : σ → α × β → σ × Bool) (t : List α) (u : List β) (s : σ) : Option (Bool × σ) := if t.length = u.length then anyOf p (t.zip u) s else none

/-- A functor with an extra argument, `g`, as the algorithms call it. The argument is part of the state: for an lvalue it stays; for an rvalue the functor may take it, and leaves `moved` behind. -/
def withArg (g : σ → α → δ → σ × β) (moved : δ) (rvalue : Bool) : σ × δ → α → (σ × δ) × β :=
  fun s a => (((g s.1 a s.2).1, if rvalue then moved else s.2), (g s.1 a s.2).2)

/-- `tuple_dup<Ty, Num, Elems...>` (l.324-340), a computation on types: `ty` is the name of a type. -/
def dup (ty : α) : Nat → List α → List α
  | 0, elems => elems
  | n + 1, elems => dup ty n (ty :: elems)

/-- `tuple_split` (l.346-357): no members for the empty tuple. -/
def split : List α → Option (α × List α)
  | [] => none
  | h :: t => some (h, t)

end Verif.Tuple
