import Verif.Model.Numeric
/-!
# Model of `config_iterator`

`/repo/modules/config/yato/config/config.h` l.401-602, 853-965. A program has any number of iterator variables over any number of configs.

Simplifications:
* A backend is a number; `env` gives its entries, which never change, each with a key (empty in arrays) and a value that is not null. A null config is `none`.
* Looking up by name is by a path of one name (`config_iterator(backend, path, size)`; longer paths are C57), among the entries in order, as the first one found.
* `size_t` and `std::ptrdiff_t` have 64 bits. `assert` is a failed assertion (debug builds), `ub` is overflow of a signed number.
* `operator->` is as `operator*`. Memory is not modelled (C82).
-/
set_option autoImplicit false

namespace Verif.ConfigIter

open Numeric (i64 u64 narrowCast IntTy.arith IntTy.conv)

abbrev Str := List Char

/-- config.h l.597-599 -/
structure It where
  back : Option Nat
  idx : Int
  size : Int
deriving DecidableEq, Repr

inductive Out (β : Type) | ok (b : β) | assert | ub | reject
deriving DecidableEq, Repr

def Out.bind {β γ : Type} (o : Out β) (f : β → Out γ) : Out γ :=
  match o with
  | .ok b => f b
  | .assert => .assert
  | .ub => .ub
  | .reject => .reject

/-- a variable -/
def get (s : List It) (v : Nat) : Out It :=
  match s[v]? with
  | some it => .ok it
  | none => .reject

/-- arithmetic of `std::ptrdiff_t` -/
def arith (x : Int) : Out Int :=
  match i64.arith x with
  | some y => .ok y
  | none => .ub

def maxIdx : Int := 2 ^ 63 - 1
def minIdx : Int := -2 ^ 63

/-- `YATO_REQUIRES`, assertion.h l.103-111: the condition is computed only in debug builds -/
def require (dbg : Bool) (c : Out Bool) : Out Unit :=
  if dbg then c.bind fun b => if b then .ok () else .assert else .ok ()

/-- `yato::narrow_cast<std::ptrdiff_t>` of a `size_t` (types.h l.48-59) -/
def narrow (dbg : Bool) (n : Nat) : Out Int :=
  if dbg then
    match narrowCast u64 i64 n with
    | some x => .ok x
    | none => .assert
  else .ok (i64.conv n)

section
variable {α : Type} (env : Nat → List (Str × α))

/-- `config::size` (config.h l.702-705) -/
def sizeOf (c : Option Nat) : Nat :=
  match c with
  | some b => (env b).length
  | none => 0

/-- an entry: its index, key and value; `none` is the null entry. The constructor from an index: config.h l.259-261, config_backend.h l.337-350, `do_find(index)` -/
def entryAt (c : Option Nat) (i : Nat) : Option (Nat × Str × α) :=
  match c with
  | none => none
  | some b =>
    match (env b)[i]? with
    | some (k, x) => some (i, k, x)
    | none => none

/-- the index `do_find(name)` gives -/
def indexOf (es : List (Str × α)) (name : Str) : Option Nat :=
  match es with
  | [] => none
  | (k, _) :: r => if k = name then some 0 else (indexOf r name).map (· + 1)

/-- config.h l.574-578 -/
def make (dbg : Bool) (c : Option Nat) (pos : Nat) (size : Nat) : Out It :=
  (narrow dbg pos).bind fun i => (narrow dbg size).bind fun n => .ok ⟨c, i, n⟩

/-- config.h l.580-589 -/
def makeFind (dbg : Bool) (c : Option Nat) (name : Str) : Out It :=
  (narrow dbg (sizeOf env c)).bind fun n =>
    match c with
    | none => .ok ⟨c, n, n⟩
    | some b =>
      match indexOf (env b) name with
      | none => .ok ⟨c, n, n⟩
      | some k => (narrow dbg k).bind fun i => .ok ⟨c, i, n⟩

/-- l.436-441 -/
def inc (dbg : Bool) (it : It) : Out It :=
  (require dbg (.ok (decide (it.idx < maxIdx)))).bind fun _ => (arith (it.idx + 1)).bind fun i => .ok { it with idx := i }

/-- l.451-456 -/
def dec (dbg : Bool) (it : It) : Out It :=
  (require dbg (.ok (decide (it.idx > minIdx)))).bind fun _ => (arith (it.idx - 1)).bind fun i => .ok { it with idx := i }

/-- l.466-471 -/
def addAssign (dbg : Bool) (it : It) (d : Int) : Out It :=
  (require dbg ((arith (maxIdx - d)).bind fun m => .ok (decide (it.idx ≤ m)))).bind fun _ =>
    (arith (it.idx + d)).bind fun i => .ok { it with idx := i }

/-- l.473-478 -/
def subAssign (dbg : Bool) (it : It) (d : Int) : Out It :=
  (require dbg ((arith (minIdx + d)).bind fun m => .ok (decide (it.idx ≥ m)))).bind fun _ =>
    (arith (it.idx - d)).bind fun i => .ok { it with idx := i }

/-- l.512-517 -/
def diff (dbg : Bool) (a b : It) : Out Int :=
  (require dbg (.ok (decide (a.back = b.back)))).bind fun _ => arith (a.idx - b.idx)

inductive Cmp | eq | ne | lt | gt | le | ge
deriving DecidableEq, Repr

/-- l.519-559 -/
def compare (dbg : Bool) (k : Cmp) (a b : It) : Out Bool :=
  (require dbg (.ok (decide (a.back = b.back)))).bind fun _ => .ok
    (match k with
    | .eq => decide (a.idx = b.idx)
    | .ne => decide (a.idx ≠ b.idx)
    | .lt => decide (a.idx < b.idx)
    | .gt => decide (a.idx > b.idx)
    | .le => decide (a.idx ≤ b.idx)
    | .ge => decide (a.idx ≥ b.idx))

/-- l.422-434, with l.591-595; the index is converted to `size_t` -/
def deref (dbg : Bool) (it : It) : Out (Option (Nat × Str × α)) :=
  (require dbg (.ok (it.back.isSome && decide (it.idx ≥ 0) && decide (it.idx < it.size)))).bind fun _ =>
    .ok (entryAt env it.back (u64.conv it.idx).toNat)

/-- l.561-565 -/
def hasNext (it : It) : Bool := decide (it.idx < it.size)

/-- l.567-571 -/
def next (dbg : Bool) (it : It) : Out (It × Option (Nat × Str × α)) :=
  (require dbg (.ok (hasNext it))).bind fun _ =>
    (arith (it.idx + 1)).bind fun i => .ok ({ it with idx := i }, entryAt env it.back (u64.conv it.idx).toNat)

/-- The statements. Those that make an iterator store it in a new variable. -/
inductive Op
  /-- `begin()` l.934-947, `end()` l.952-966 -/
  | begin (c : Option Nat)
  | end_ (c : Option Nat)
  /-- `find(i)` l.865-869 -/
  | findAt (c : Option Nat) (i : Nat)
  /-- `find(name)` l.856-860 -/
  | find (c : Option Nat) (name : Str)
  | copy (v : Nat)
  | assign (v w : Nat)
  | inc (v : Nat)
  | dec (v : Nat)
  /-- `auto x = v++;` l.443-449 -/
  | postInc (v : Nat)
  /-- `auto x = v--;` l.458-464 -/
  | postDec (v : Nat)
  | addAssign (v : Nat) (d : Int)
  | subAssign (v : Nat) (d : Int)
  /-- `auto x = v + d;` or `d + v` l.480-494 -/
  | plus (v : Nat) (d : Int)
  /-- `auto x = v - d;` l.496-502 -/
  | minus (v : Nat) (d : Int)
  /-- `auto x = d - v;` l.504-510 -/
  | minusLeft (d : Int) (v : Nat)
  | diff (v w : Nat)
  | compare (k : Cmp) (v w : Nat)
  | deref (v : Nat)
  | hasNext (v : Nat)
  | next (v : Nat)
deriving DecidableEq, Repr

inductive Res (α : Type) | unit | int (d : Int) | bool (b : Bool) | entry (e : Option (Nat × Str × α))
deriving DecidableEq, Repr

/-- a new variable -/
def push (s : List It) (o : Out It) : Out (List It × Res α) := o.bind fun it => .ok (s ++ [it], .unit)

/-- a changed variable -/
def put (s : List It) (v : Nat) (o : Out It) : Out (List It × Res α) := o.bind fun it => .ok (s.set v it, .unit)

def step (dbg : Bool) (s : List It) : Op → Out (List It × Res α)
  | .begin c => push s (make dbg c 0 (sizeOf env c))
  | .end_ c => push s (make dbg c (sizeOf env c) (sizeOf env c))
  | .findAt c i => push s (make dbg c i (sizeOf env c))
  | .find c name => push s (makeFind env dbg c name)
  | .copy v => push s (get s v)
  | .assign v w => (get s v).bind fun _ => put s v (get s w)
  | .inc v => put s v ((get s v).bind fun it => inc dbg it)
  | .dec v => put s v ((get s v).bind fun it => dec dbg it)
  | .postInc v => (get s v).bind fun it => (inc dbg it).bind fun it' => .ok (s.set v it' ++ [it], .unit)
  | .postDec v => (get s v).bind fun it => (dec dbg it).bind fun it' => .ok (s.set v it' ++ [it], .unit)
  | .addAssign v d => put s v ((get s v).bind fun it => addAssign dbg it d)
  | .subAssign v d => put s v ((get s v).bind fun it => subAssign dbg it d)
  | .plus v d => push s ((get s v).bind fun it => addAssign dbg it d)
  | .minus v d => push s ((get s v).bind fun it => subAssign dbg it d)
  | .minusLeft d v => push s ((get s v).bind fun it => subAssign dbg it d)
  | .diff v w => (get s v).bind fun a => (get s w).bind fun b => (diff dbg a b).bind fun d => .ok (s, .int d)
  | .compare k v w => (get s v).bind fun a => (get s w).bind fun b => (compare dbg k a b).bind fun d => .ok (s, .bool d)
  | .deref v => (get s v).bind fun it => (deref env dbg it).bind fun e => .ok (s, .entry e)
  | .hasNext v => (get s v).bind fun it => .ok (s, .bool (hasNext it))
  | .next v => (get s v).bind fun it => (next env dbg it).bind fun (it', e) => .ok (s.set v it', .entry e)

/-- a program without loops: the results of its statements -/
def run (dbg : Bool) (s : List It) : List Op → Out (List It × List (Res α))
  | [] => .ok (s, [])
  | o :: os => (step env dbg s o).bind fun (s', r) => (run dbg s' os).bind fun (s'', rs) => .ok (s'', r :: rs)

/-! ## Loops; `none`: not finished after `n` rounds -/

/-- `for (auto it = first; it != last; ++it) { *it }`, and the loop over a config -/
def forLoop (dbg : Bool) (last : It) : Nat → It → Out (Option (List (Option (Nat × Str × α))))
  | 0, _ => .ok none
  | n + 1, it => (compare dbg .ne it last).bind fun go =>
    if go then
      (deref env dbg it).bind fun e => (inc dbg it).bind fun it' => (forLoop dbg last n it').bind fun r => .ok (r.map (e :: ·))
    else .ok (some [])

/-- `while (it.has_next()) { it.next() }` -/
def nextLoop (dbg : Bool) : Nat → It → Out (Option (List (Option (Nat × Str × α))))
  | 0, _ => .ok none
  | n + 1, it =>
    if hasNext it then (next env dbg it).bind fun (it', e) => (nextLoop dbg n it').bind fun r => .ok (r.map (e :: ·))
    else .ok (some [])

/-- `while (it != first) { *--it }` -/
def backLoop (dbg : Bool) (first : It) : Nat → It → Out (Option (List (Option (Nat × Str × α))))
  | 0, _ => .ok none
  | n + 1, it => (compare dbg .ne it first).bind fun go =>
    if go then
      (dec dbg it).bind fun it' => (deref env dbg it').bind fun e => (backLoop dbg first n it').bind fun r => .ok (r.map (e :: ·))
    else .ok (some [])

end

end Verif.ConfigIter
