import Verif.Model.VectorRows
import Verif.Props.C74_VectorObjsSpec

/-!
Specification used by property C102: programs with vectors (as in C74) that also keep rows, iterators and pointers to elements in
variables of their own. What such a handle stands for is described by two vectors: the one that *holds* its elements now, and the one
whose sizes it *shows*.
-/
set_option autoImplicit false

namespace Verif.VectorNd
variable {α : Type}

/-- Where a handle looks up its sizes: it is a pointer to one element, or it shows the sizes of vector `x` from dimension `lvl` on, or
that vector is gone. -/
inductive Home where
  | elem
  | of (x lvl : Nat)
  | gone
deriving DecidableEq, Repr

/-- A handle: the vector that holds its elements now (none: they are gone), the plain position of the first of them in this vector, and
where the sizes come from. -/
structure SRow where
  holder : Option Nat
  off : Nat
  home : Home
deriving DecidableEq, Repr

/-- Statements: those of C74, and statements about handles `k`. -/
inductive RStmt (α : Type) where
  | stmt (st : Stmt α)
  /-- `auto k = x.proxy();` -/
  | proxy (k x : Nat)
  /-- `auto k = x.begin() + i;` or, if there is a row `i`, `auto k = x[i];` -/
  | iter (k x i : Nat)
  /-- `auto k = x.plain_begin() + i;` or, if there is an element `i`, `auto k = &x[...]` -/
  | elem (k x i : Nat)
  /-- `auto k = k'[i];`, or `auto k = &k'[i];` if `k'` has one dimension -/
  | sub (k k' i : Nat)
  /-- `k += n;` -/
  | advance (k : Nat) (n : Int)
  /-- `auto k = k';` -/
  | dup (k k' : Nat)
  /-- `*k = a;` for a pointer to an element -/
  | write (k : Nat) (a : α)
deriving DecidableEq, Repr

/-! ### What the statements mean -/

/-- The sizes a handle shows. -/
def Home.shape (dims : Nat → Option (List Nat)) : Home → Option (List Nat)
  | .elem => some []
  | .of x lvl => (dims x).map fun d => d.drop lvl
  | .gone => none

/-- What can be read through a handle: the sizes, and as many elements from its position on; nothing (undefined behaviour) if the sizes
or one of the elements are not there. -/
def SRow.value (vals : Vars (AVal α)) (r : SRow) : Option (List Nat × List α) :=
  match r.home.shape (ashapes vals) with
  | none => none
  | some s =>
    if prodL s = 0 then some (s, [])
    else
      match r.holder.bind vals with
      | none => none
      | some a => if r.off + prodL s ≤ a.elems.length then some (s, (a.elems.drop r.off).take (prodL s)) else none

/-- Which vector holds, after the statement, the elements that vector `y` held before (`none`: they were destroyed or copied
elsewhere). `caps` and `caps'` are what `capacity()` says before and after. Moving and swapping take the elements along; a member
function of a vector keeps the elements in place unless it changes the capacity. -/
def Stmt.holds (caps caps' : Nat → Nat) (out : Out) (y : Nat) : Stmt α → Option Nat
  | .move x z => if y = z then some x else some y
  | .assign x _ => if y = x ∧ out = .ok then none else some y
  | .moveAssign x z => if y = x then none else if y = z then some x else some y
  | .swap x z => if y = x then some z else if y = z then some x else some y
  | .moveReshape x _ z => if y = z ∧ out = .ok then some x else some y
  | .call1 x _ => if y = x ∧ caps' x ≠ caps x then none else some y
  | .callN x _ => if y = x ∧ caps' x ≠ caps x then none else some y
  | .del x => if y = x then none else some y
  | _ => some y

/-- How many elements the call needs room for, in a vector of `n` elements. -/
def Op1.needs (n : Nat) : Op1 α → Nat
  | .pushBack _ => n + 1
  | .insert _ as => n + as.length
  | .resize m _ => m
  | .assign m _ => m
  | .reserve m => m
  | _ => 0

/-- The same for a vector with the given sizes of a row. -/
def OpN.needs (n : Nat) (sub : List Nat) : OpN α → Nat
  | .pushBack _ row => n + row.length
  | .insertCount _ count shape _ => n + count * prodL shape
  | .insertRange _ shape rows => n + rows.length * prodL shape
  | .resizeTop m _ => m * prodL sub
  | .resizeAll top s _ => top * prodL s
  | .assign top s _ => top * prodL s
  | .reserve m => m
  | _ => 0

/-- When the capacity of the vector may change from `c` to `c'`: to the number of elements by `shrink_to_fit`; by the other calls only
if it is too small, and then it is large enough. -/
def Op1.recaps (n c c' : Nat) (op : Op1 α) : Prop :=
  match op with
  | .shrink => c' = n
  | op => c < op.needs n ∧ op.needs n ≤ c'

def OpN.recaps (n : Nat) (sub : List Nat) (c c' : Nat) (op : OpN α) : Prop :=
  match op with
  | .shrink => c' = n
  | op => c < op.needs n sub ∧ op.needs n sub ≤ c'

/-- What `capacity()` may be after a statement. Where the elements stay in place, or are taken along, so is the capacity. -/
def Stmt.capsMay (dims : Nat → Option (List Nat)) (caps caps' : Nat → Nat) (out : Out) (st : Stmt α) : Prop :=
  (∀ y y', (dims y).isSome = true → st.holds caps caps' out y = some y' → caps' y' = caps y) ∧
  match st with
  | .call1 x op => caps' x = caps x ∨ op.recaps (prodL ((dims x).getD [])) (caps x) (caps' x)
  | .callN x op => caps' x = caps x ∨ op.recaps (prodL ((dims x).getD [])) (((dims x).getD []).drop 1) (caps x) (caps' x)
  | _ => True

def RStmt.capsMay (dims : Nat → Option (List Nat)) (caps caps' : Nat → Nat) (out : Out) : RStmt α → Prop
  | .stmt st => st.capsMay dims caps caps' out
  | _ => caps' = caps

/-- A handle shows the sizes of the vector it was taken from, as long as this vector exists. -/
def Home.after (st : Stmt α) (hm : Home) : Home :=
  match st, hm with
  | .del x, .of y lvl => if y = x then .gone else .of y lvl
  | _, hm => hm

def SRow.after (caps caps' : Nat → Nat) (out : Out) (st : Stmt α) (r : SRow) : SRow :=
  ⟨r.holder.bind fun y => st.holds caps caps' out y, r.off, r.home.after st⟩

/-- The handle `n` sub-rows further, where a sub-row has the sizes `s`. -/
def Home.inner : Home → List Nat → Home
  | .of x lvl, _ :: _ => .of x (lvl + 1)
  | _, _ => .elem

/-- What happens to the handles; `dims` are the sizes of the vectors before the statement. -/
def RStmt.track (dims : Nat → Option (List Nat)) (caps caps' : Nat → Nat) (out : Out) (R : Vars SRow) : RStmt α → Vars SRow
  | .stmt st => fun k => (R k).map (SRow.after caps caps' out st)
  | .proxy k x => R.set k (some ⟨some x, 0, .of x 0⟩)
  | .iter k x i => R.set k (some ⟨some x, i * prodL (((dims x).getD []).drop 1), .of x 1⟩)
  | .elem k x i => R.set k (some ⟨some x, i, .elem⟩)
  | .sub k k' i =>
    match R k' with
    | none => R
    | some r => R.set k (some ⟨r.holder, r.off + i * prodL (((r.home.shape dims).getD []).drop 1), r.home.inner (((r.home.shape dims).getD []).drop 1)⟩)
  | .advance k n =>
    match R k with
    | none => R
    | some r => R.set k (some { r with off := ((r.off : Int) + n * prodL ((r.home.shape dims).getD [])).toNat })
  | .dup k k' => R.set k (R k')
  | .write _ _ => R

/-- A position inside the storage of the handle's vector, or just behind it. -/
def SRow.reaches (caps : Nat → Nat) (r : SRow) (pos : Nat) : Bool :=
  match r.holder with
  | none => false
  | some y => decide (pos ≤ caps y)

/-- Preconditions: the vectors and handles exist and have the right type, indices are in range, handles stay inside the storage, only
an existing element is written. -/
def RStmt.valid (dims : Nat → Option (List Nat)) (caps : Nat → Nat) (R : Vars SRow) : RStmt α → Bool
  | .stmt st => st.valid dims
  | .proxy _ x => match dims x with | some (_ :: _ :: _) => true | _ => false
  | .iter _ x i => match dims x with | some (n :: _ :: _) => decide (i ≤ n) | _ => false
  | .elem _ x i => match dims x with | some d => decide (i ≤ prodL d) | none => false
  | .sub _ k' i =>
    match R k' with
    | none => false
    | some r => match r.home.shape dims with | some (n :: s) => decide (i < n) && r.reaches caps (r.off + i * prodL s) | _ => false
  | .advance k n =>
    match R k with
    | none => false
    | some r =>
      match r.home.shape dims with
      | some s => decide (0 ≤ (r.off : Int) + n * prodL s) && r.reaches caps ((r.off : Int) + n * prodL s).toNat
      | none => false
  | .dup _ k' => (R k').isSome
  | .write k _ =>
    match R k with
    | some ⟨some y, off, .elem⟩ => match dims y with | some d => decide (off < prodL d) | none => false
    | _ => false

/-- The value with the element at plain position `i` replaced. -/
def AVal.put (i : Nat) (a : α) (v : AVal α) : AVal α :=
  match v with
  | .list l => .list (l.set i a)
  | .tab s => .tab ⟨s.sub, chunks (prodL s.sub) s.rows.length (s.rows.flatten.set i a)⟩

/-- What happens to the values of the vectors. -/
def RStmt.vals (R : Vars SRow) (E : Vars (AVal α)) : RStmt α → Out × Vars (AVal α)
  | .stmt st => st.spec E
  | .write k a =>
    match R k with
    | some ⟨some y, off, _⟩ => (.ok, E.set y ((E y).map (AVal.put off a)))
    | _ => (.ok, E)
  | _ => (.ok, E)

/-- What may be left of the values when an element copy or an allocation throws. -/
def RStmt.left (E E' : Vars (AVal α)) : RStmt α → Prop
  | .stmt st => st.left E E'
  | _ => False

/-- The state of the specification: the values, the capacities, the handles. -/
structure SSt (α : Type) where
  vals : Vars (AVal α)
  caps : Nat → Nat
  rows : Vars SRow

def SSt.init : SSt α := ⟨Vars.none, fun _ => 0, Vars.none⟩

/-- Every row of every vector has as many elements as its shape says. -/
def SSt.rect (g : SSt α) : Prop := ∀ x s, g.vals x = some (.tab s) → ∀ r ∈ s.rows, r.length = prodL s.sub

/-- The call leaves the storage alone: there is enough room, or none to give back. -/
def OpN.stays (n : Nat) (sub : List Nat) (c : Nat) : OpN α → Bool
  | .shrink => decide (c = n)
  | op => decide (op.needs n sub ≤ c)

/-- The first of the `n` rows which the call may touch. -/
def OpN.first (n : Nat) : OpN α → Nat
  | .pushBack _ _ => n
  | .popBack => n - 1
  | .insertCount p _ _ _ => p
  | .insertRange p _ _ => p
  | .erase p => p
  | .eraseRange p _ => min n p
  | .resizeTop m _ => min n m
  | .reserve _ => n
  | .shrink => n
  | _ => 0

/-- The programs of the specification. Each statement that is made reports how it ended and the capacities of the vectors after it. -/
inductive MayRunR : SSt α → List (RStmt α) → List (Out × (Nat → Nat)) → SSt α → Prop
  | nil (g : SSt α) : MayRunR g [] [] g
  | skip (g g' : SSt α) (st : RStmt α) (sts : List (RStmt α)) (outs : List (Out × (Nat → Nat))) :
    st.valid (ashapes g.vals) g.caps g.rows = false → MayRunR g sts outs g' → MayRunR g (st :: sts) outs g'
  | good (g g' : SSt α) (st : RStmt α) (sts : List (RStmt α)) (caps' : Nat → Nat) (outs : List (Out × (Nat → Nat))) :
    st.valid (ashapes g.vals) g.caps g.rows = true → st.capsMay (ashapes g.vals) g.caps caps' (st.vals g.rows g.vals).1 →
    MayRunR ⟨(st.vals g.rows g.vals).2, caps', st.track (ashapes g.vals) g.caps caps' (st.vals g.rows g.vals).1 g.rows⟩ sts outs g' →
    MayRunR g (st :: sts) (((st.vals g.rows g.vals).1, caps') :: outs) g'
  | threw (g g' : SSt α) (E : Vars (AVal α)) (st : RStmt α) (sts : List (RStmt α)) (caps' : Nat → Nat) (outs : List (Out × (Nat → Nat))) :
    st.valid (ashapes g.vals) g.caps g.rows = true → st.left g.vals E → st.capsMay (ashapes g.vals) g.caps caps' .threw →
    MayRunR ⟨E, caps', st.track (ashapes g.vals) g.caps caps' .threw g.rows⟩ sts outs g' →
    MayRunR g (st :: sts) ((.threw, caps') :: outs) g'

/-! ### The programs in the model -/

/-- The state: the vector objects and the handles. -/
structure RSt where
  objs : Objs
  rows : Vars Row

def RSt.init : RSt := ⟨⟨Vars.none, fun _ => 0⟩, Vars.none⟩

/-- The end of an object's lifetime. -/
def Stmt.bury (deaths : Nat → Nat) : Stmt α → Nat → Nat
  | .del x => fun y => if y = x then deaths y + 1 else deaths y
  | _ => deaths

/-- A handle is made. -/
def RSt.setRow (s : RSt) (k : Nat) (f : Heap α → Option Row) : M α (Out × RSt) := fun h =>
  match f h with
  | none => none
  | some r => some ((.ok, { s with rows := s.rows.set k (some r) }), h)

def RStmt.exec (s : RSt) : RStmt α → M α (Out × RSt)
  | .stmt st => do
    let r ← st.exec s.objs.vars
    pure (r.1, { s with objs := ⟨r.2, st.bury s.objs.deaths⟩ })
  | .proxy k x => s.setRow k fun _ => s.objs.proxy x
  | .iter k x i => s.setRow k fun h => s.objs.iter h x i
  | .elem k x i => s.setRow k fun _ => s.objs.elem x i
  | .sub k k' i => s.setRow k fun h => (s.rows k').bind fun r => r.sub s.objs h i
  | .advance k n => s.setRow k fun h => (s.rows k).bind fun r => r.advance s.objs h n
  | .dup k k' => s.setRow k fun _ => s.rows k'
  | .write k a =>
    match s.rows k with
    | none => bad
    | some r => do
      r.write a
      pure (.ok, s)

/-- `capacity()`: vector_nd.h l.1539-1542, 2790-2793. -/
def capsOf (e : Vars Vec) (x : Nat) : Nat :=
  match e x with
  | none => 0
  | some v => v.rv.cap

/-- A program; a statement whose precondition does not hold is left out. The handles of the specification (`R`) are only used to decide
this. -/
def runR : RSt → Vars SRow → List (RStmt α) → M α (List (Out × (Nat → Nat)) × RSt)
  | s, _, [] => pure ([], s)
  | s, R, st :: sts =>
    if st.valid (shapes s.objs.vars) (capsOf s.objs.vars) R then do
      let r ← st.exec s
      let q ← runR r.2 (st.track (shapes s.objs.vars) (capsOf s.objs.vars) (capsOf r.2.objs.vars) r.1 R) sts
      pure ((r.1, capsOf r.2.objs.vars) :: q.1, q.2)
    else runR s R sts

end Verif.VectorNd
