/-!
Model of `yato::vector_view` (/repo/include/yato/vector_view.h): a vector over memory it does not own.

Simplifications: the iterator is a pointer, the elements are plain values in one memory (a list of cells); a view is the position of
its first cell, its current size and its maximal size. `none` is undefined behaviour: an access outside the memory, or a call of a
standard algorithm with overlapping ranges it does not allow. The checks `YATO_REQUIRES` exist in debug builds only and are not
modelled; the theorems state them as preconditions.
-/
set_option autoImplicit false

namespace Verif.VectorView
variable {α : Type}

/-- vector_view.h l.37-39. -/
structure View where
  base : Nat
  size : Nat
  max : Nat
deriving DecidableEq, Repr

/-- Copy the `n` cells from `s` on to the cells from `d` on, as if through a buffer. -/
def memmove (m : List α) (s n d : Nat) : Option (List α) :=
  if s + n ≤ m.length ∧ d + n ≤ m.length then some (m.take d ++ (m.drop s).take n ++ m.drop (d + n)) else none

/-- How the library moves cells: the standard allows only some overlaps (`strict`), many implementations use `memmove` for trivially
copyable elements (`lax`). -/
inductive Mode where
  | strict | lax
deriving DecidableEq, Repr

/-- `std::move(first, last, d_first)` with `first = s`, `last = s + n`: undefined if `d_first` is in `[first, last)`. -/
def stdMove (k : Mode) (m : List α) (s n d : Nat) : Option (List α) :=
  if k = .strict ∧ s ≤ d ∧ d < s + n then none else memmove m s n d

/-- `std::move_backward(first, last, d_last)` with `first = s`, `last = s + n`: undefined if `d_last` is in `(first, last]`. -/
def stdMoveBackward (k : Mode) (m : List α) (s n dLast : Nat) : Option (List α) :=
  if k = .strict ∧ s < dLast ∧ dLast ≤ s + n then none
  else if dLast < n then none
  else memmove m s n (dLast - n)

/-- Write one cell. -/
def write (m : List α) (i : Nat) (a : α) : Option (List α) := if i < m.length then some (m.set i a) else none

/-- `std::fill` / `std::copy` from outside the memory: write the values from cell `i` on. -/
def writeAll (m : List α) (i : Nat) : List α → Option (List α)
  | [] => some m
  | a :: as => (write m i a).bind fun m => writeAll m (i + 1) as

/-- vector_view.h l.48-58 `_prepare_insert`: the view is enlarged first, so `end()` is the new end. -/
def prepareInsert (k : Mode) (m : List α) (v : View) (p count : Nat) : Option (List α × View) :=
  if count > 0 then
    let v' := { v with size := v.size + count }
    (stdMove k m (v.base + p) (v'.size - p) (v.base + p + count)).map fun m => (m, v')
  else some (m, v)

/-- vector_view.h l.60-69 `_erase_n`. -/
def eraseN (k : Mode) (m : List α) (v : View) (p count : Nat) : Option (List α × View) :=
  if count > 0 then
    (stdMoveBackward k m (v.base + p + count) (v.size - (p + count)) (v.base + v.size - count)).map fun m =>
      (m, { v with size := v.size - count })
  else some (m, v)

/-- vector_view.h l.311-350 `insert` of one value, of a range or of a list of values from outside the memory. -/
def insert (k : Mode) (m : List α) (v : View) (p : Nat) (as : List α) : Option (List α × View) :=
  (prepareInsert k m v p as.length).bind fun r => (writeAll r.1 (v.base + p) as).map fun m => (m, r.2)

/-- vector_view.h l.356-360 `erase(pos)` and l.366-372 `erase(first, last)`. -/
def erase (k : Mode) (m : List α) (v : View) (p : Nat) : Option (List α × View) := eraseN k m v p 1
def eraseRange (k : Mode) (m : List α) (v : View) (p q : Nat) : Option (List α × View) := eraseN k m v p (q - p)

/-- vector_view.h l.286-296 `push_back`. -/
def pushBack (m : List α) (v : View) (a : α) : Option (List α × View) :=
  (write m (v.base + v.size) a).map fun m => (m, { v with size := v.size + 1 })

/-- vector_view.h l.301-305 `pop_back`, l.281-284 `clear`. -/
def popBack (v : View) : View := { v with size := v.size - 1 }
def clear (v : View) : View := { v with size := 0 }

/-- vector_view.h l.171-175 `assign`. -/
def assign (m : List α) (v : View) (count : Nat) (a : α) : Option (List α × View) :=
  (writeAll m v.base (List.replicate count a)).map fun m => (m, { v with size := count })

/-- vector_view.h l.190-202 `resize(count, value)`. -/
def resize (m : List α) (v : View) (count : Nat) (a : α) : Option (List α × View) :=
  if count < v.size then some (m, { v with size := count })
  else if count > v.size then
    (writeAll m (v.base + v.size) (List.replicate (count - v.size) a)).map fun m => (m, { v with size := count })
  else some (m, v)

/-- vector_view.h l.248-254 `at`: `none` is the exception. -/
def at' (m : List α) (v : View) (i : Nat) : Option α := if i ≥ v.size then none else m[v.base + i]?

end Verif.VectorView
