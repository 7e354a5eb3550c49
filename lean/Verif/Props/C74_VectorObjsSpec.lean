import Verif.Model.VectorObjs
import Verif.Props.C19_VectorSpec
import Verif.Lemmas.VectorNd8

/-!
Specification used by property C74: programs with any number of vector variables. A variable holds a value: a list of elements (one
dimension), or a shape and a list of rows of this shape (more dimensions). The calls of member functions are those of C19.
-/
set_option autoImplicit false

namespace Verif.VectorNd
variable {α : Type}

/-- The value of a vector. -/
inductive AVal (α : Type) where
  | list (l : List α)
  | tab (s : Tab α)
deriving DecidableEq, Repr

/-- Sizes of all dimensions. -/
def AVal.dims : AVal α → List Nat
  | .list l => [l.length]
  | .tab s => s.rows.length :: s.sub

/-- All elements in order. -/
def AVal.elems : AVal α → List α
  | .list l => l
  | .tab s => s.rows.flatten

/-- The value with the given sizes and elements. -/
def AVal.ofElems (dims : List Nat) (l : List α) : AVal α :=
  match dims with
  | n :: k :: sub => .tab ⟨k :: sub, chunks (prodL (k :: sub)) n l⟩
  | _ => .list l

/-- What is left of a vector that was moved from: no rows, the shape of a row is kept. -/
def AVal.emptied : AVal α → AVal α
  | .list _ => .list []
  | .tab s => .tab ⟨s.sub, []⟩

/-- Statements. -/
inductive Stmt (α : Type) where
  /-- `vector_nd<T, N> x(dims, first, last);` -/
  | make (x : Nat) (dims : List Nat) (l : List α)
  /-- `vector_nd<T, N> x(dims, a);` -/
  | fill (x : Nat) (dims : List Nat) (a : α)
  /-- `auto x = y;` -/
  | copy (x y : Nat)
  /-- `auto x = std::move(y);` -/
  | move (x y : Nat)
  /-- `x = y;` -/
  | assign (x y : Nat)
  /-- `x = std::move(y);` -/
  | moveAssign (x y : Nat)
  /-- `x.swap(y);` -/
  | swap (x y : Nat)
  /-- `auto x = y.reshape(dims);` -/
  | reshape (x : Nat) (dims : List Nat) (y : Nat)
  /-- `auto x = std::move(y).reshape(dims);` -/
  | moveReshape (x : Nat) (dims : List Nat) (y : Nat)
  /-- a call of a member function of C19 -/
  | call1 (x : Nat) (op : Op1 α)
  | callN (x : Nat) (op : OpN α)
  /-- the end of the scope of `x` -/
  | del (x : Nat)
deriving DecidableEq, Repr

/-- The variables. -/
def Vars (β : Type) := Nat → Option β
def Vars.set {β : Type} (e : Vars β) (x : Nat) (o : Option β) : Vars β := fun y => if y = x then o else e y
def Vars.none {β : Type} : Vars β := fun _ => Option.none

/-- The sizes a call brings along have the number of dimensions of a row. -/
def OpN.ranked (d : Nat) : OpN α → Bool
  | .pushBack shape _ => decide (shape.length = d)
  | .insertCount _ _ shape _ => decide (shape.length = d)
  | .insertRange _ shape _ => decide (shape.length = d)
  | .resizeAll _ sub _ => decide (sub.length = d)
  | .assign _ sub _ => decide (sub.length = d)
  | _ => true

/-- A vector of one dimension is not created empty from a range or as a copy: this violates a contract (see
`C19_assign_nothing_violated`). -/
def startable : List Nat → Bool
  | [] => false
  | [n] => decide (n ≠ 0)
  | _ => true

/-- The statement is well formed, given the sizes of the existing variables, and keeps the preconditions: variables that are used
exist, new ones do not exist yet, the types fit, and an object is not assigned to or swapped with itself. -/
def Stmt.valid (e : Nat → Option (List Nat)) : Stmt α → Bool
  | .make x dims l => (e x).isNone && startable dims && (decide (2 ≤ dims.length) || decide (dims = [l.length]))
  | .fill x dims _ => (e x).isNone && startable dims
  | .copy x y => (e x).isNone && match e y with | some d => startable d | none => false
  | .move x y => (e x).isNone && (e y).isSome
  | .assign x y => decide (x ≠ y) && match e x, e y with | some d, some d' => startable d' && decide (d.length = d'.length) | _, _ => false
  | .moveAssign x y => decide (x ≠ y) && match e x, e y with | some d, some d' => decide (d.length = d'.length) | _, _ => false
  | .swap x y => decide (x ≠ y) && match e x, e y with | some d, some d' => decide (d.length = d'.length) | _, _ => false
  | .reshape x dims y => (e x).isNone && (e y).isSome && startable dims
  | .moveReshape x dims y => (e x).isNone && (e y).isSome && !dims.isEmpty
  | .call1 x op => match e x with | some [n] => valid1 n op | _ => false
  | .callN x op => match e x with | some (n :: k :: sub) => validN n (k :: sub) op && op.ranked (sub.length + 1) | _ => false
  | .del x => (e x).isSome

/-- What the statement does to the values. -/
def Stmt.spec (e : Vars (AVal α)) : Stmt α → Out × Vars (AVal α)
  | .make x dims l => if prodL dims = l.length then (.ok, e.set x (some (.ofElems dims l))) else (.argumentError, e)
  | .fill x dims a => (.ok, e.set x (some (.ofElems dims (List.replicate (prodL dims) a))))
  | .copy x y => (.ok, e.set x (e y))
  | .move x y => (.ok, (e.set x (e y)).set y ((e y).map AVal.emptied))
  | .assign x y => (.ok, e.set x (e y))
  | .moveAssign x y => (.ok, (e.set x (e y)).set y ((e y).map AVal.emptied))
  | .swap x y => (.ok, (e.set x (e y)).set y (e x))
  | .reshape x dims y =>
    match e y with
    | none => (.ok, e)
    | some v => if prodL dims = v.elems.length then (.ok, e.set x (some (.ofElems dims v.elems))) else (.argumentError, e)
  | .moveReshape x dims y =>
    match e y with
    | none => (.ok, e)
    | some v =>
      if prodL dims = v.elems.length then (.ok, (e.set x (some (.ofElems dims v.elems))).set y (some v.emptied)) else (.argumentError, e)
  | .call1 x op =>
    match e x with
    | some (.list l) => ((spec1 l op).1, e.set x (some (.list (spec1 l op).2)))
    | _ => (.ok, e)
  | .callN x op =>
    match e x with
    | some (.tab s) => ((specN s op).1, e.set x (some (.tab (specN s op).2)))
    | _ => (.ok, e)
  | .del x => (.ok, e.set x none)

/-- What may be left when an element copy or an allocation throws: a call leaves its vector as C21 says, every other statement
changes nothing. -/
def Stmt.left (e e' : Vars (AVal α)) : Stmt α → Prop
  | .call1 x op => ∃ l l', e x = some (.list l) ∧ left1 l l' op ∧ e' = e.set x (some (.list l'))
  | .callN x op => ∃ s s', e x = some (.tab s) ∧ leftN s s' op ∧ e' = e.set x (some (.tab s'))
  | _ => e' = e

/-- The statement in the model. -/
def Stmt.exec (e : Vars Vec) : Stmt α → M α (Out × Vars Vec)
  | .make x dims l => do
    let r ← Vec.ctor dims (l.map Src.val)
    pure (r.1, e.set x r.2)
  | .fill x dims a => do
    let r ← Vec.ctor dims (List.replicate (prodL dims) (Src.val a))
    pure (r.1, e.set x r.2)
  | .copy x y =>
    match e y with
    | none => bad
    | some v => do
      let r ← v.copyCtor
      pure (r.1, e.set x r.2)
  | .move x y =>
    match e y with
    | none => bad
    | some v => pure (.ok, (e.set x (some v.moveCtor.1)).set y (some v.moveCtor.2))
  | .assign x y =>
    match e x, e y with
    | some v, some w => do
      let r ← v.copyAssign w
      pure (r.1, e.set x (some r.2))
    | _, _ => bad
  | .moveAssign x y =>
    match e x, e y with
    | some v, some w => do
      let r ← v.moveAssign w
      pure (.ok, (e.set x (some r.1)).set y (some r.2))
    | _, _ => bad
  | .swap x y =>
    match e x, e y with
    | some v, some w => pure (.ok, (e.set x (some (v.swap w).1)).set y (some (v.swap w).2))
    | _, _ => bad
  | .reshape x dims y =>
    match e y with
    | none => bad
    | some v => do
      let r ← v.reshape dims
      pure (r.1, e.set x r.2)
  | .moveReshape x dims y =>
    match e y with
    | none => bad
    | some v => pure ((v.moveReshape dims).1, (e.set x (v.moveReshape dims).2.1).set y (some (v.moveReshape dims).2.2))
  | .call1 x op =>
    match e x with
    | some (.one v) => do
      let r ← exec1 v op
      pure (r.1, e.set x (some (.one r.2)))
    | _ => bad
  | .callN x op =>
    match e x with
    | some (.many v) => do
      let r ← execN v op
      pure (r.1, e.set x (some (.many r.2)))
    | _ => bad
  | .del x =>
    match e x with
    | none => bad
    | some v => do
      v.dtor
      pure (.ok, e.set x none)

/-- Sizes of the variables. -/
def shapes (e : Vars Vec) : Nat → Option (List Nat) := fun x => (e x).map Vec.dims
def ashapes (e : Vars (AVal α)) : Nat → Option (List Nat) := fun x => (e x).map AVal.dims

/-- A program; a statement whose precondition does not hold is left out. -/
def runS : Vars Vec → List (Stmt α) → M α (List Out × Vars Vec)
  | e, [] => pure ([], e)
  | e, st :: sts =>
    if st.valid (shapes e) then do
      let r ← st.exec e
      let q ← runS r.2 sts
      pure (r.1 :: q.1, q.2)
    else runS e sts

def specRunS : Vars (AVal α) → List (Stmt α) → List Out × Vars (AVal α)
  | e, [] => ([], e)
  | e, st :: sts =>
    if st.valid (ashapes e) then
      ((st.spec e).1 :: (specRunS (st.spec e).2 sts).1, (specRunS (st.spec e).2 sts).2)
    else specRunS e sts

/-- The same with exceptions from outside: each statement does what it should, or throws and leaves what `left` says. -/
inductive MayRun : Vars (AVal α) → List (Stmt α) → List Out → Vars (AVal α) → Prop
  | nil (e : Vars (AVal α)) : MayRun e [] [] e
  | skip (e e' : Vars (AVal α)) (st : Stmt α) (sts : List (Stmt α)) (outs : List Out) :
    st.valid (ashapes e) = false → MayRun e sts outs e' → MayRun e (st :: sts) outs e'
  | good (e e' : Vars (AVal α)) (st : Stmt α) (sts : List (Stmt α)) (outs : List Out) :
    st.valid (ashapes e) = true → MayRun (st.spec e).2 sts outs e' → MayRun e (st :: sts) ((st.spec e).1 :: outs) e'
  | threw (e e1 e' : Vars (AVal α)) (st : Stmt α) (sts : List (Stmt α)) (outs : List Out) :
    st.valid (ashapes e) = true → st.left e e1 → MayRun e1 sts outs e' → MayRun e (st :: sts) (.threw :: outs) e'

/-- What the user sees of a vector: its sizes and its elements. -/
def viewV (h : Heap α) (v : Vec) : List Nat × List (Option α) :=
  (v.dims, (List.range v.total).map fun i =>
    match v.rv.ptr with
    | none => none
    | some b => h.read (.ref b i))

end Verif.VectorNd
