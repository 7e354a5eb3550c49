import Verif.Model.VectorNd

/-!
Model of `dynamic_array` (`/repo/include/yato/dynamic_array.h`), on the heap of `Verif.Model.VectorNd`: constructing an object over
another one, destroying or reading a slot without an object, and freeing a block twice, with a wrong size or with live objects in
it are the outcome `bad` (`none`).

A program has variables, numbered by naturals. A variable is dead (`none`) or holds an array. A call on a variable that is not in
scope, or a declaration of one that is, is rejected by a compiler: here it does nothing (`skipped`).

Simplifications:
 * `allocate(0)` returns a pointer that is not null and is later given back (the standard leaves the value unspecified).
 * `_destroy` computes `m_data - 1` (l.73), which no array contains; the pointer is only compared, and is not counted as bad.
 * The allocator has no state, so `_move_assign` never throws. `swap` exists only for allocators with
   `propagate_on_container_swap` (not `std::allocator`).
 * `assign(size, initializer_list)` (l.282-287) constructs each element from a *pointer* to the first value, which does not compile for
   most element types; it is not modelled.
 * `operator[]`, `front`, `back`, `begin` and `end` are unchecked accesses to the same slots as `at` and are not modelled.
-/
set_option autoImplicit false

namespace Verif.DynArray
open Verif.VectorNd (Heap M Src construct destroyAt deallocate copyLoop bad)

/-- l.42-43 the members `m_size` and `m_data`. -/
structure DA where
  size : Nat
  data : Option Nat
deriving DecidableEq, Repr

/-- l.42-43 default member initializers. -/
def DA.null : DA := ⟨0, none⟩

variable {α : Type}

/-- `allocator_traits::allocate`; a block of no slots is a block. `none`: it threw. -/
def alloc (n : Nat) : M α (Option Nat) := fun h =>
  if h.failA h.tick then some (none, { h with tick := h.tick + 1 })
  else some (some h.next, { h.put h.next (some (List.replicate n none)) with next := h.next + 1, tick := h.tick + 1 })

/-- l.46-52 `_allocate` on an object whose `m_data` is null: `m_size` is set first and stays set if the allocator throws. -/
def allocate (n : Nat) : M α (Bool × DA) := do
  match ← alloc n with
  | none => pure (false, ⟨n, none⟩)
  | some b => pure (true, ⟨n, some b⟩)

/-- l.55-60 `_construct(args...)` and l.63-68 `_copy_construct(src)`: no element is destroyed if a constructor throws. The number
of sources is `m_size`. -/
def constructAll (d : DA) (ss : List (Src α)) : M α Bool := do
  match d.data with
  | none => bad
  | some b =>
    let (_, ok) ← copyLoop b 0 ss
    pure ok

/-- l.73-75 the loop of `_destroy`, from the last element to the first one. -/
def destroyRev (b : Nat) : Nat → M α Unit
  | 0 => pure ()
  | n + 1 => do
    destroyAt b n
    destroyRev b n

/-- l.70-80 `_destroy`. If `m_data` is null, `m_size` stays as it is. -/
def destroy (d : DA) : M α DA := do
  match d.data with
  | none => pure d
  | some b =>
    destroyRev b d.size
    deallocate b d.size
    pure ⟨0, none⟩

/-- l.108-127 the constructors: `none` means that the constructor threw, so that there is no object (and no destructor call). -/
def create (ss : List (Src α)) : M α (Option DA) := do
  let (ok, d) ← allocate ss.length
  if ok then
    let ok ← constructAll d ss
    pure (if ok then some d else none)
  else pure none

/-- l.272-277 `assign(size, value)` and l.292-297 `resize(size)`. -/
def reassign (d : DA) (ss : List (Src α)) : M α (Bool × DA) := do
  let _ ← destroy d
  let (ok, d') ← allocate ss.length
  if ok then
    let ok ← constructAll d' ss
    pure (ok, d')
  else pure (false, d')

/-- l.162-167 `operator=(initializer_list)`: the function has no return statement, flowing off its end is undefined behaviour. -/
def assignList (d : DA) (l : List α) : M α (Bool × DA) := do
  let (ok, d') ← reassign d (l.map Src.val)
  if ok then bad else pure (false, d')

/-! ### Programs -/

/-- What a value argument is bound to. -/
inductive Arg (α : Type) where
  | val (a : α)
  /-- `x[k]` for the variable `x` -/
  | elem (x k : Nat)
deriving DecidableEq, Repr

inductive Op (α : Type) where
  /-- `dynamic_array<T> x;` -/
  | new (x : Nat)
  /-- `dynamic_array<T> x(n);` -/
  | newN (x n : Nat)
  /-- `dynamic_array<T> x(n, a);` -/
  | newVal (x n : Nat) (a : Arg α)
  /-- `dynamic_array<T> x{...};` -/
  | newList (x : Nat) (l : List α)
  /-- `dynamic_array<T> x(std::move(y));` -/
  | newMove (x y : Nat)
  /-- the end of `x`'s scope -/
  | del (x : Nat)
  /-- `x = std::move(y);` -/
  | moveAssign (x y : Nat)
  /-- `x.swap(y);` -/
  | swap (x y : Nat)
  /-- `x.assign(n, a);` -/
  | assign (x n : Nat) (a : Arg α)
  /-- `x.resize(n);` -/
  | resize (x n : Nat)
  /-- `x.clear();` -/
  | clear (x : Nat)
  /-- `x = {...};` -/
  | assignList (x : Nat) (l : List α)
  /-- `x.size()` -/
  | size (x : Nat)
  /-- `x.at(k)` -/
  | at (x k : Nat)
deriving DecidableEq, Repr

inductive Res (α : Type) where
  | skipped
  | done
  | threw
  | value (a : α)
  | num (n : Nat)
deriving DecidableEq, Repr

/-- The variables. -/
abbrev Env := Nat → Option DA

def Env.set (e : Env) (x : Nat) (d : Option DA) : Env := fun y => if y = x then d else e y

/-- The object an argument is bound to; binding to an element of an array without memory is bad (`none`), a dead variable cannot
be named (`some none`). -/
def Arg.src (e : Env) : Arg α → Option (Option (Src α))
  | .val a => some (some (.val a))
  | .elem x k =>
    match e x with
    | none => some none
    | some d =>
      match d.data with
      | none => none
      | some b => some (some (.ref b k))

/-- l.181-187 `at`. -/
def at' (d : DA) (k : Nat) : M α (Res α) := fun h =>
  if k ≥ d.size then some (.threw, h)
  else
    match d.data with
    | none => none
    | some b =>
      match h.read (.ref b k) with
      | some a => some (.value a, h)
      | none => none

/-- Declaration of `x` with a constructor that copies the sources. -/
def declare (e : Env) (x : Nat) (ss : List (Src α)) : M α (Res α × Env) :=
  match e x with
  | some _ => pure (.skipped, e)
  | none => do
    match ← create ss with
    | some d => pure (.done, e.set x (some d))
    | none => pure (.threw, e)

def reassignVar (e : Env) (x : Nat) (ss : List (Src α)) : M α (Res α × Env) :=
  match e x with
  | none => pure (.skipped, e)
  | some d => do
    let (ok, d') ← reassign d ss
    pure (if ok then .done else .threw, e.set x (some d'))

/-- One statement. `dflt` is the default-constructed element. -/
def step (dflt : α) (e : Env) : Op α → M α (Res α × Env)
  | .new x =>
    match e x with
    | some _ => pure (.skipped, e)
    | none => pure (.done, e.set x (some DA.null))
  | .newN x n => declare e x (List.replicate n (.val dflt))
  | .newVal x n a =>
    match a.src e with
    | none => bad
    | some none => pure (.skipped, e)
    | some (some s) => declare e x (List.replicate n s)
  | .newList x l => declare e x (l.map .val)
  | .newMove x y => -- l.136-139 and l.84-96
    match e x, e y with
    | none, some dy => pure (.done, (e.set x (some dy)).set y (some DA.null))
    | _, _ => pure (.skipped, e)
  | .del x => -- l.129-132
    match e x with
    | none => pure (.skipped, e)
    | some d => do
      let _ ← destroy d
      pure (.done, e.set x none)
  | .moveAssign x y => -- l.154-160 and l.84-96: what `x` held is not destroyed
    match e x, e y with
    | some _, some dy =>
      if x = y then pure (.done, e)
      else pure (.done, (e.set x (some dy)).set y (some DA.null))
    | _, _ => pure (.skipped, e)
  | .swap x y => -- l.142-150
    match e x, e y with
    | some dx, some dy =>
      if x = y then pure (.done, e)
      else pure (.done, (e.set x (some dy)).set y (some dx))
    | _, _ => pure (.skipped, e)
  | .assign x n a =>
    match a.src e with
    | none => bad
    | some none => pure (.skipped, e)
    | some (some s) => reassignVar e x (List.replicate n s)
  | .resize x n => reassignVar e x (List.replicate n (.val dflt))
  | .clear x => -- l.264-267
    match e x with
    | none => pure (.skipped, e)
    | some d => do
      let d' ← destroy d
      pure (.done, e.set x (some d'))
  | .assignList x l =>
    match e x with
    | none => pure (.skipped, e)
    | some d => do
      let (ok, d') ← assignList d l
      pure (if ok then .done else .threw, e.set x (some d'))
  | .size x => -- l.202-205
    match e x with
    | none => pure (.skipped, e)
    | some d => pure (.num d.size, e)
  | .at x k =>
    match e x with
    | none => pure (.skipped, e)
    | some d => do
      let r ← at' d k
      pure (r, e)

def run (dflt : α) (e : Env) : List (Op α) → M α (List (Res α) × Env)
  | [] => pure ([], e)
  | op :: ops => do
    let (r, e') ← step dflt e op
    let (rs, e'') ← run dflt e' ops
    pure (r :: rs, e'')

end Verif.DynArray
