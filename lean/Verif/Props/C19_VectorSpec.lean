import Verif.Lemmas.VectorNd4

/-!
Specification used by properties C19-C23: the operations of `vector_nd` as operations on a list of elements (one dimension) or
on a list of equally shaped rows (more dimensions).
-/
set_option autoImplicit false

namespace Verif.VectorNd
variable {α : Type}

/-! ### One dimension -/

/-- A call of a member function of the one-dimensional vector. Values come from outside the vector. -/
inductive Op1 (α : Type) where
  | pushBack (a : α)
  | popBack
  | insert (p : Nat) (as : List α)
  | erase (p : Nat)
  | eraseRange (p q : Nat)
  | resize (n : Nat) (a : α)
  | assign (n : Nat) (a : α)
  | clear
  | reserve (n : Nat)
  | shrink
deriving DecidableEq, Repr

/-- The call in the model. -/
def exec1 (v : Vec1) : Op1 α → M α (Out × Vec1)
  | .pushBack a => v.pushBack (.val a)
  | .popBack => v.popBack
  | .insert p as => v.insert p (as.map Src.val)
  | .erase p => v.erase p
  | .eraseRange p q => v.eraseRange p q
  | .resize n a => v.resize n (.val a)
  | .assign n a => v.assign n (.val a)
  | .clear => v.clear
  | .reserve n => v.reserve n
  | .shrink => v.shrink

/-- Preconditions on the caller's side: iterators point into the vector (`erase` takes an iterator to an element), and `assign`
does not replace nothing by nothing (see `C19_assign_nothing_violated`). -/
def valid1 (size : Nat) : Op1 α → Bool
  | .insert p _ => decide (p ≤ size)
  | .erase p => decide (size = 0 ∨ p < size)
  | .eraseRange p q => decide (q < p ∨ q ≤ size)
  | .assign n _ => decide (n ≠ 0 ∨ size ≠ 0)
  | _ => true

/-- What the call does to a list. -/
def spec1 (l : List α) : Op1 α → Out × List α
  | .pushBack a => (.ok, l ++ [a])
  | .popBack => if l.isEmpty then (.outOfRange, l) else (.ok, l.dropLast)
  | .insert p as => (.ok, l.take p ++ as ++ l.drop p)
  | .erase p => if l.isEmpty then (.argumentError, l) else (.ok, l.eraseIdx p)
  | .eraseRange p q => if q < p then (.argumentError, l) else (.ok, l.take p ++ l.drop q)
  | .resize n a => (.ok, l.take n ++ List.replicate (n - l.length) a)
  | .assign n a => (.ok, List.replicate n a)
  | .clear => (.ok, [])
  | .reserve _ => (.ok, l)
  | .shrink => (.ok, l)

/-- What may be left when an element copy or an allocation throws. -/
def left1 (l l' : List α) : Op1 α → Prop
  | .insert p as => (∃ m, p ≤ m ∧ l' = l.take m) ∨ ∃ k, l' = l.take p ++ as.take k
  | .erase p => ∃ m, p ≤ m ∧ l' = (l.eraseIdx p).take m
  | .eraseRange p q => ∃ m, p ≤ m ∧ l' = (l.take p ++ l.drop q).take m
  | .assign _ _ => l' = l ∨ l' = []
  | _ => l' = l

/-- A program: calls in sequence; a call whose precondition does not hold is not made. -/
def run1 : Vec1 → List (Op1 α) → M α (List Out × Vec1)
  | v, [] => pure ([], v)
  | v, op :: ops =>
    if valid1 v.size op then do
      let r ← exec1 v op
      let q ← run1 r.2 ops
      pure (r.1 :: q.1, q.2)
    else run1 v ops

def specRun1 : List α → List (Op1 α) → List Out × List α
  | l, [] => ([], l)
  | l, op :: ops =>
    if valid1 l.length op then
      ((spec1 l op).1 :: (specRun1 (spec1 l op).2 ops).1, (specRun1 (spec1 l op).2 ops).2)
    else specRun1 l ops

/-- What the user sees: the objects in the first `size` slots. -/
def view1 (h : Heap α) (v : Vec1) : List (Option α) :=
  (List.range v.size).map fun i =>
    match v.rv.ptr with
    | none => none
    | some b => h.read (.ref b i)

/-- The vector's block has exactly the objects of `l`, in its first `size` slots; all its other slots are dead. -/
def Rep1 (h : Heap α) (v : Vec1) (l : List α) : Prop := WfH h ∧ HasList h v.rv l ∧ v.size = l.length

/-! ### More dimensions -/

/-- A call of a member function of the vector with more dimensions; `shape` are the sizes of a sub-vector. -/
inductive OpN (α : Type) where
  | pushBack (shape : List Nat) (row : List α)
  | popBack
  | insertCount (p count : Nat) (shape : List Nat) (row : List α)
  | insertRange (p : Nat) (shape : List Nat) (rows : List (List α))
  | erase (p : Nat)
  | eraseRange (p q : Nat)
  | resizeTop (n : Nat) (a : α)
  | resizeAll (top : Nat) (sub : List Nat) (a : α)
  | assign (top : Nat) (sub : List Nat) (a : α)
  | clear (a : α)
  | reserve (n : Nat)
  | shrink
deriving DecidableEq, Repr

def execN (v : VecN) : OpN α → M α (Out × VecN)
  | .pushBack shape row => v.pushBack shape (row.map Src.val)
  | .popBack => v.popBack
  | .insertCount p count shape row => v.insertCount p count shape (row.map Src.val)
  | .insertRange p shape rows => v.insertRange p rows.length shape (rows.flatten.map Src.val)
  | .erase p => v.erase p
  | .eraseRange p q => v.eraseRange p q
  | .resizeTop n a => v.resizeTop n (.val a)
  | .resizeAll top sub a => v.resizeAll top sub (.val a)
  | .assign top sub a => v.assign top sub (.val a)
  | .clear a => v.clear (.val a)
  | .reserve n => v.reserve n
  | .shrink => v.shrink

/-- Preconditions: iterators point into the vector; an inserted sub-vector has the elements its shape says, at least one; the
rows of a non-empty vector have at least one element when rows are added, removed or moved; `pop_back` needs a row. -/
def validN (top : Nat) (sub : List Nat) : OpN α → Bool
  | .pushBack shape row => decide (row.length = prodL shape ∧ 0 < prodL shape ∧ (top = 0 ∨ 0 < prodL sub))
  | .popBack => decide (0 < top ∧ 0 < prodL sub)
  | .insertCount p _ shape row => decide (p ≤ top ∧ row.length = prodL shape ∧ 0 < prodL shape ∧ (top = 0 ∨ 0 < prodL sub))
  | .insertRange p shape rows =>
    decide (p ≤ top ∧ 0 < prodL shape ∧ (top = 0 ∨ 0 < prodL sub)) && rows.all fun r => decide (r.length = prodL shape)
  | .erase p => decide (top = 0 ∨ (p < top ∧ 0 < prodL sub))
  | .eraseRange p q => decide (q < p ∨ (q ≤ top ∧ 0 < prodL sub))
  | .assign t s _ => decide (0 < t * prodL s ∨ 0 < top * prodL sub)
  | _ => true

/-- The abstract vector: the shape of a row, and the rows. -/
structure Tab (α : Type) where
  sub : List Nat
  rows : List (List α)
deriving DecidableEq, Repr

/-- A row can be added: it has the right number of dimensions and, unless the vector is empty, the right shape. -/
def Tab.fits (s : Tab α) (shape : List Nat) : Bool :=
  decide (shape.length = s.sub.length) && (s.rows.isEmpty || decide (shape = s.sub))

/-- The first `n` rows of `m` elements in a plain sequence. -/
def chunks (m : Nat) : Nat → List α → List (List α)
  | 0, _ => []
  | n + 1, l => l.take m :: chunks m n (l.drop m)

/-- What the call does to the list of rows. -/
def specN (s : Tab α) : OpN α → Out × Tab α
  | .pushBack shape row => if s.fits shape then (.ok, ⟨shape, s.rows ++ [row]⟩) else (.argumentError, s)
  | .popBack => (.ok, ⟨s.sub, s.rows.dropLast⟩)
  | .insertCount p count shape row =>
    if count = 0 then (.ok, s)
    else if s.fits shape then (.ok, ⟨shape, s.rows.take p ++ List.replicate count row ++ s.rows.drop p⟩) else (.argumentError, s)
  | .insertRange p shape rows =>
    if rows.isEmpty then (.ok, s)
    else if s.fits shape then (.ok, ⟨shape, s.rows.take p ++ rows ++ s.rows.drop p⟩) else (.argumentError, s)
  | .erase p => if s.rows.isEmpty then (.argumentError, s) else (.ok, ⟨s.sub, s.rows.eraseIdx p⟩)
  | .eraseRange p q => if q < p then (.argumentError, s) else (.ok, ⟨s.sub, s.rows.take p ++ s.rows.drop q⟩)
  | .resizeTop n a => (.ok, ⟨s.sub, s.rows.take n ++ List.replicate (n - s.rows.length) (List.replicate (prodL s.sub) a)⟩)
  -- the elements keep their plain positions
  | .resizeAll top sub a =>
    (.ok, ⟨sub, chunks (prodL sub) top (s.rows.flatten ++ List.replicate (top * prodL sub - s.rows.flatten.length) a)⟩)
  | .assign top sub a => (.ok, ⟨sub, List.replicate top (List.replicate (prodL sub) a)⟩)
  | .clear _ => (.ok, ⟨s.sub, []⟩)
  | .reserve _ => (.ok, s)
  | .shrink => (.ok, s)

/-- What may be left when an element copy or an allocation throws. An empty vector may have taken over the new shape. -/
def leftN (s s' : Tab α) : OpN α → Prop
  | .pushBack shape _ => s'.rows = s.rows ∧ (s'.sub = s.sub ∨ s.rows = [] ∧ s'.sub = shape)
  | .insertCount p count shape row =>
    ((∃ m, p ≤ m ∧ s'.rows = s.rows.take m) ∨ ∃ k, s'.rows = s.rows.take p ++ (List.replicate count row).take k) ∧
      (s'.sub = s.sub ∨ s.rows = [] ∧ s'.sub = shape)
  | .insertRange p shape rows =>
    ((∃ m, p ≤ m ∧ s'.rows = s.rows.take m) ∨ ∃ k, s'.rows = s.rows.take p ++ rows.take k) ∧
      (s'.sub = s.sub ∨ s.rows = [] ∧ s'.sub = shape)
  | .erase p => s'.sub = s.sub ∧ ∃ m, p ≤ m ∧ s'.rows = (s.rows.eraseIdx p).take m
  | .eraseRange p q => s'.sub = s.sub ∧ ∃ m, p ≤ m ∧ s'.rows = (s.rows.take p ++ s.rows.drop q).take m
  | .assign _ _ _ => s'.sub = s.sub ∧ (s'.rows = s.rows ∨ s'.rows = [])
  | _ => s' = s

def runN : VecN → List (OpN α) → M α (List Out × VecN)
  | v, [] => pure ([], v)
  | v, op :: ops =>
    if validN v.top v.sub op then do
      let r ← execN v op
      let q ← runN r.2 ops
      pure (r.1 :: q.1, q.2)
    else runN v ops

def specRunN : Tab α → List (OpN α) → List Out × Tab α
  | s, [] => ([], s)
  | s, op :: ops =>
    if validN s.rows.length s.sub op then
      ((specN s op).1 :: (specRunN (specN s op).2 ops).1, (specRunN (specN s op).2 ops).2)
    else specRunN s ops

/-- What the user sees: row `i` consists of the objects in the slots `i * es .. (i + 1) * es`. -/
def viewN (h : Heap α) (v : VecN) : List (List (Option α)) :=
  (List.range v.top).map fun i => (List.range v.es).map fun j =>
    match v.rv.ptr with
    | none => none
    | some b => h.read (.ref b (i * v.es + j))

/-- The vector's block has exactly the objects of the rows, one row after the other; all its other slots are dead; the stored
sizes are right. -/
structure RepN (h : Heap α) (v : VecN) (s : Tab α) : Prop where
  wf : WfH h
  list : HasList h v.rv s.rows.flatten
  top : v.top = s.rows.length
  total : v.total = s.rows.flatten.length
  sub : v.sub = s.sub
  es : v.es = prodL s.sub
  rows : ∀ r ∈ s.rows, r.length = prodL s.sub

end Verif.VectorNd
