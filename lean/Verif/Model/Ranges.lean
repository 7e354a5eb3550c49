/-!
Model of the iterator adaptors and of `yato::range`: `/repo/include/yato/filter_iterator.h`, `transform_iterator.h`,
`zip_iterator.h`, `range.h`, and `std::reverse_iterator` as `range::reverse` uses it.

An iterator type is a record of its operations over a state; `none` is undefined behaviour (dereferencing the end, stepping out
of the sequence, using a dangling reference) or a loop that has not ended within the given number of rounds.

Simplifications: values instead of references; the mapped function returns by value; iterators are copied where a loop begins, where a
filter is built and where a reverse iterator is dereferenced, but not where `map`, `zip` and `reverse` build a range (a loop over the
result copies them); the destruction of iterators is not modelled;
`zip` is modelled for two ranges (more are nested pairs: all component operations are applied position-wise).
-/
set_option autoImplicit false

namespace Verif.Ranges

/-- The operations of a (bidirectional) iterator type.  `stash`: `operator*` returns a reference into the iterator itself.
`copy`: the copy constructor. -/
structure Iter (σ α : Type) where
  deref : σ → Option α
  next : σ → Option σ
  prev : σ → Option σ
  ne : σ → σ → Bool
  stash : Bool
  copy : σ → Option σ

/-- Iterators (or pointers) into an array holding `l`: the state is the position. -/
def vecIter {α : Type} (l : List α) : Iter Nat α :=
  { deref := fun i => l[i]?
    next := fun i => if i < l.length then some (i + 1) else none
    prev := fun i => match i with | 0 => none | i + 1 => some i
    ne := fun i j => i != j
    stash := false
    copy := fun i => some i }

/-- `transform_iterator` (transform_iterator.h l.190-232, 291-304): `operator*` applies the function, the rest delegates. -/
def mapIter {σ α β : Type} (f : α → β) (it : Iter σ α) : Iter σ β :=
  { deref := fun s => (it.deref s).map f, next := it.next, prev := it.prev, ne := it.ne, stash := false, copy := it.copy }

/-- `std::reverse_iterator`: `operator*` is `{ It tmp = current; return *--tmp; }`, so a reference into the iterator dangles. -/
def revIter {σ α : Type} (it : Iter σ α) : Iter σ α :=
  { deref := fun s => if it.stash then none else (it.copy s).bind fun s' => (it.prev s').bind it.deref
    next := it.prev, prev := it.next, ne := it.ne, stash := false, copy := it.copy }

/-- `zip_iterator` (zip_iterator.h l.227-260, 322-334): all operations on both; `!=` if any component differs. -/
def zipIter {σ τ α β : Type} (a : Iter σ α) (b : Iter τ β) : Iter (σ × τ) (α × β) :=
  { deref := fun s => (a.deref s.1).bind fun x => (b.deref s.2).map fun y => (x, y)
    next := fun s => (a.next s.1).bind fun x => (b.next s.2).map fun y => (x, y)
    prev := fun s => (a.prev s.1).bind fun x => (b.prev s.2).map fun y => (x, y)
    ne := fun s t => a.ne s.1 t.1 || b.ne s.2 t.2
    stash := a.stash || b.stash
    copy := fun s => (a.copy s.1).bind fun x => (b.copy s.2).map fun y => (x, y) }

/-- `_skip_forward` without cache (filter_iterator.h l.190-196); at most `n` rounds. -/
def skipFwd {σ α : Type} (it : Iter σ α) (p : α → Bool) (e : σ) : Nat → σ → Option σ
  | 0, _ => none
  | n + 1, s =>
    if it.ne s e then
      match it.deref s with
      | none => none
      | some x => if p x then some s else (it.next s).bind (skipFwd it p e n)
    else some s

/-- `_skip_backward` without cache (l.212-218): no test for the begin. -/
def skipBwd {σ α : Type} (it : Iter σ α) (p : α → Bool) : Nat → σ → Option σ
  | 0, _ => none
  | n + 1, s =>
    match it.deref s with
    | none => none
    | some x => if p x then some s else (it.prev s).bind (skipBwd it p n)

/-- `filter_iterator`, default policy, with end `e` (l.354-359 `operator*`, l.372-377 `++`, l.392-399 `--`, l.416-443 comparison). -/
def filterIter {σ α : Type} (fuel : Nat) (it : Iter σ α) (p : α → Bool) (e : σ) : Iter σ α :=
  { deref := it.deref
    next := fun s => (it.next s).bind (skipFwd it p e fuel)
    prev := fun s => (it.prev s).bind (skipBwd it p fuel)
    ne := it.ne
    stash := it.stash
    copy := fun s => (it.copy s).bind fun s' => (it.copy e).map fun _ => s' }

/-- The constructor of a filter iterator copies both iterators and skips to the first match (l.228-234). -/
def filterMk {σ α : Type} (fuel : Nat) (it : Iter σ α) (p : α → Bool) (e s : σ) : Option σ :=
  (it.copy s).bind fun s' => (it.copy e).bind fun _ => skipFwd it p e fuel s'

/-! The cache of a filter iterator with the caching policy is a `storage` (filter_iterator.h l.66-124, storage.h), which is default
constructed, that is without an object (filter_iterator.h l.73-74). -/

/-- Where the cached value is, by its type: `big` is larger than 64 bytes (l.18-20, 70-71; storage.h l.256-257) and on the heap; `small`
is in the iterator; `plain` is small and trivially copyable.  For `plain` the operations on a buffer without an object are taken as
harmless although reading an indeterminate value is undefined by the letter of the standard. -/
inductive Cache where
  | big
  | small
  | plain
deriving DecidableEq, Repr

/-- `m_cached = obj` (l.114-117) is an assignment from a temporary storage: on the heap the pointer is replaced (storage.h l.77-83);
in the iterator the old object is destroyed first, whether there is one or not (l.202-209). -/
def Cache.save {α : Type} (k : Cache) (c : Option α) (x : α) : Option (Option α) :=
  match k, c with
  | .small, none => none
  | _, _ => some (some x)

/-- The copy constructor of the storage (storage.h l.47-50, 167-170): both dereference what is stored. -/
def Cache.copy {α : Type} (k : Cache) (c : Option α) : Option (Option α) :=
  match k, c with
  | .plain, c => some c
  | _, none => none
  | _, some x => some (some x)

/-- The move constructor of the storage (storage.h l.52-55, 172-175): in the iterator it is a copy. -/
def Cache.move {α : Type} (k : Cache) (c : Option α) : Option (Option α) :=
  match k, c with
  | .small, none => none
  | _, c => some c

/-- `_skip_forward` with cache (l.177-187): the state also holds the cached value, empty at first. -/
def skipFwdC {σ α : Type} (k : Cache) (it : Iter σ α) (p : α → Bool) (e : σ) : Nat → σ × Option α → Option (σ × Option α)
  | 0, _ => none
  | n + 1, (s, c) =>
    if it.ne s e then
      (it.deref s).bind fun x => (k.save c x).bind fun c' =>
        if p x then some (s, c') else (it.next s).bind fun s' => skipFwdC k it p e n (s', c')
    else some (s, c)

/-- `_skip_backward` with cache (l.199-209). -/
def skipBwdC {σ α : Type} (k : Cache) (it : Iter σ α) (p : α → Bool) : Nat → σ × Option α → Option (σ × Option α)
  | 0, _ => none
  | n + 1, (s, c) =>
    (it.deref s).bind fun x => (k.save c x).bind fun c' =>
      if p x then some (s, c') else (it.prev s).bind fun s' => skipBwdC k it p n (s', c')

/-- `filter_iterator`, caching policy: `operator*` returns a reference to the cached copy (l.344-349); the copy constructor (l.239-241)
copies the cache, too. -/
def filterIterC {σ α : Type} (k : Cache) (fuel : Nat) (it : Iter σ α) (p : α → Bool) (e : σ) : Iter (σ × Option α) α :=
  { deref := fun s => s.2
    next := fun s => (it.next s.1).bind fun s' => skipFwdC k it p e fuel (s', s.2)
    prev := fun s => (it.prev s.1).bind fun s' => skipBwdC k it p fuel (s', s.2)
    ne := fun s t => it.ne s.1 t.1
    stash := true
    copy := fun s => (it.copy s.1).bind fun s' => (it.copy e).bind fun _ => (k.copy s.2).map fun c => (s', c) }

def filterMkC {σ α : Type} (k : Cache) (fuel : Nat) (it : Iter σ α) (p : α → Bool) (e s : σ) : Option (σ × Option α) :=
  (it.copy s).bind fun s' => (it.copy e).bind fun _ => skipFwdC k it p e fuel (s', none)

/-- The constructor of the range moves the iterators it is given (range.h l.50-53; filter_iterator.h l.255-257). -/
def moveC {σ α : Type} (k : Cache) (s : σ × Option α) : Option (σ × Option α) := (k.move s.2).map fun c => (s.1, c)

/-- `std::accumulate(begin, end, acc, f)`, at most `n` rounds: `range::fold_left` (range.h l.162-167). -/
def accumulate {σ α γ : Type} (it : Iter σ α) (f : γ → α → γ) (e : σ) : Nat → σ → γ → Option γ
  | 0, _, _ => none
  | n + 1, s, acc =>
    if it.ne s e then
      (it.deref s).bind fun x => (it.next s).bind fun s' => accumulate it f e n s' (f acc x)
    else some acc

/-- An algorithm takes copies of both iterators, and so does a range-for loop. -/
def copies {σ α β : Type} (it : Iter σ α) (b e : σ) (f : σ → σ → Option β) : Option β :=
  (it.copy b).bind fun b' => (it.copy e).bind fun e' => f b' e'

/-- A range-for loop, and `to_vector`, `to_list` (range.h l.182-197): the visited values in order. -/
def toList {σ α : Type} (it : Iter σ α) (fuel : Nat) (b e : σ) : Option (List α) :=
  copies it b e fun b e => accumulate it (fun acc x => acc ++ [x]) e fuel b []

/-- `range::fold_right` (range.h l.172-177): `accumulate(rbegin, rend)`. -/
def foldRight {σ α γ : Type} (it : Iter σ α) (f : γ → α → γ) (fuel : Nat) (b e : σ) (init : γ) : Option γ :=
  copies (revIter it) e b fun e b => accumulate (revIter it) f b fuel e init

/-- `range::distance` for iterators that are not random access, `range::empty` (range.h l.99-109). -/
def distance {σ α : Type} (it : Iter σ α) (e : σ) : Nat → σ → Option Nat
  | 0, _ => none
  | n + 1, s => if it.ne s e then (it.next s).bind fun s' => (distance it e n s').map (· + 1) else some 0

/-! ### `yato::range` -/

/-- `yato::range` (range.h l.29-73): an iterator type, a begin and an end. -/
structure Rng (α : Type) where
  σ : Type
  it : Iter σ α
  b : σ
  e : σ

/-- `make_range(container)` (range.h l.223-228). -/
def Rng.ofList {α : Type} (l : List α) : Rng α := ⟨Nat, vecIter l, 0, l.length⟩
/-- `range::map` (l.126-133). -/
def Rng.map {α β : Type} (r : Rng α) (f : α → β) : Rng β := ⟨r.σ, mapIter f r.it, r.b, r.e⟩
/-- `range::reverse`, `rbegin`, `rend` (l.75-97). -/
def Rng.reverse {α : Type} (r : Rng α) : Rng α := ⟨r.σ, revIter r.it, r.e, r.b⟩
/-- `range::zip` (l.150-157). -/
def Rng.zip {α β : Type} (r : Rng α) (q : Rng β) : Rng (α × β) := ⟨r.σ × q.σ, zipIter r.it q.it, (r.b, q.b), (r.e, q.e)⟩
/-- `range::filter` (l.138-145): both ends are built as filter iterators. -/
def Rng.filter {α : Type} (fuel : Nat) (r : Rng α) (p : α → Bool) : Option (Rng α) :=
  (filterMk fuel r.it p r.e r.b).bind fun b => (filterMk fuel r.it p r.e r.e).map fun e => ⟨r.σ, filterIter fuel r.it p r.e, b, e⟩
/-- `range::filter<dereference_policy_caching>`. -/
def Rng.filterCaching {α : Type} (k : Cache) (fuel : Nat) (r : Rng α) (p : α → Bool) : Option (Rng α) :=
  ((filterMkC k fuel r.it p r.e r.b).bind (moveC k)).bind fun b => ((filterMkC k fuel r.it p r.e r.e).bind (moveC k)).map fun e =>
    ⟨r.σ × Option α, filterIterC k fuel r.it p r.e, b, e⟩
/-- `range::tail` (l.117-121). -/
def Rng.tail {α : Type} (r : Rng α) : Option (Rng α) :=
  (copies r.it r.b r.e fun b e => (r.it.next b).map fun b => (b, e)).map fun s => ⟨r.σ, r.it, s.1, s.2⟩
/-- `range::empty` (l.105-109). -/
def Rng.empty {α : Type} (r : Rng α) : Bool := !(r.it.ne r.b r.e)
/-- `to_vector`, `to_list`, range-for. -/
def Rng.toList {α : Type} (fuel : Nat) (r : Rng α) : Option (List α) := Ranges.toList r.it fuel r.b r.e
/-- `fold_left`, `fold_right` (l.162-177), `distance` (l.99-103). -/
def Rng.foldLeft {α γ : Type} (fuel : Nat) (r : Rng α) (f : γ → α → γ) (init : γ) : Option γ :=
  copies r.it r.b r.e fun b e => accumulate r.it f e fuel b init
def Rng.foldRight {α γ : Type} (fuel : Nat) (r : Rng α) (f : γ → α → γ) (init : γ) : Option γ := Ranges.foldRight r.it f fuel r.b r.e init
def Rng.distance {α : Type} (fuel : Nat) (r : Rng α) : Option Nat :=
  copies r.it r.b r.e fun b e => Ranges.distance r.it e fuel b

end Verif.Ranges
