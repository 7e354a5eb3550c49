/-!
# Model of the functions on raw memory (`/repo/include/yato/memory_utility.h` l.25-441)

The functions that copy, move and destroy ranges of elements, each with a loop for general types and a shortcut for trivial ones. A type may be trivial
and still be handled by the loop (the type of the iterator decides, l.75-77), so both are modelled for the same values.
Simplifications: the ends of blocks are not checked (Model/VectorNd.lean does), so pointers before a block (l.220) are not undefined here; no pointer is
null; ranges have a length; nothing throws; moving a value leaves it, as it does for trivial types; `std::memcpy` and `std::memmove` copy whole
elements; an element that was not constructed may be copied by them but not by a constructor.
-/
set_option autoImplicit false

namespace Verif.RawMemory

/-- A pointer: the block and the offset in it. -/
structure Addr where
  block : Nat
  off : Int
deriving DecidableEq, Repr

/-- `p + k` -/
def Addr.plus (p : Addr) (k : Int) : Addr := ⟨p.block, p.off + k⟩

/-- The objects in the memory; `none` where no object is alive. -/
abbrev Mem (α : Type) := Addr → Option α

/-- The memory and the pointer that is passed by reference; undefined behaviour; a failed assertion. -/
inductive Out (α : Type)
  | ub
  | failed
  | ok (m : Mem α) (p : Addr)

variable {α : Type}

/-- An object is constructed or destroyed. -/
def Mem.set (m : Mem α) (p : Addr) (x : Option α) : Mem α := fun a => if a = p then x else m a

/-- `YATO_REQUIRES` (assertion.h l.104, 108): the condition is computed in debug builds only; `none`: its computation is undefined. -/
def require (dbg : Bool) (c : Option Bool) (o : Out α) : Out α :=
  if dbg then match c with
    | none => .ub
    | some true => o
    | some false => .failed
  else o

/-- `p - q`, undefined for different blocks. -/
def minus (p q : Addr) : Option Int := if p.block = q.block then some (p.off - q.off) else none

/-- `(dst - src_last >= 0) || (src - (dst + count) >= 0)` (l.37, 50, 395), where the second difference is computed only if the first is negative. -/
def apart (src dst : Addr) (n : Nat) : Option Bool :=
  (minus dst (src.plus n)).bind fun d => if d ≥ 0 then some true else (minus src (dst.plus n)).map fun e => decide (e ≥ 0)

/-- `std::memmove`. -/
def memmove (m : Mem α) (src dst : Addr) (n : Nat) : Mem α :=
  fun a => if a.block = dst.block ∧ dst.off ≤ a.off ∧ a.off < dst.off + n then m ⟨src.block, src.off + (a.off - dst.off)⟩ else m a

/-- `trivial_copy_n` (l.45-53): `std::memcpy`, undefined for ranges that overlap. -/
def trivialCopyN (dbg : Bool) (m : Mem α) (src dst : Addr) (n : Nat) : Out α :=
  require dbg (apart src dst n)
    (if src.block = dst.block ∧ src.off < dst.off + n ∧ dst.off < src.off + n then .ub else .ok (memmove m src dst n) (dst.plus n))

/-- The loops of `copy_operation`, `move_operation` and `transfer_operation` (l.59-70, 93-104, 152-163). -/
def copyLoop (m : Mem α) (src dst : Addr) : Nat → Out α
  | 0 => .ok m dst
  | n + 1 => match m src with
    | none => .ub
    | some x => copyLoop (m.set dst (some x)) (src.plus 1) (dst.plus 1) n

/-- The loop of `transfer_left_operation` (l.182-195). -/
def leftLoop (m : Mem α) (src dst : Addr) : Nat → Out α
  | 0 => .ok m dst
  | n + 1 => match m dst with
    | none => .ub
    | some _ => match (m.set dst none) src with
      | none => .ub
      | some x => leftLoop ((m.set dst none).set dst (some x)) (src.plus 1) (dst.plus 1) n

/-- The loop of `transfer_right_operation` (l.214-229): from the last element to the first. -/
def rightLoop (m : Mem α) (src dst : Addr) : Nat → Out α
  | 0 => .ok m dst
  | n + 1 => match m dst with
    | none => .ub
    | some _ => match (m.set dst none) (src.plus n) with
      | none => .ub
      | some x => rightLoop ((m.set dst none).set dst (some x)) src (dst.plus (-1)) n

/-- The loop of `destroy_operation` (l.127-137). -/
def destroyLoop (m : Mem α) (p : Addr) : Nat → Out α
  | 0 => .ok m p
  | n + 1 => match m p with
    | none => .ub
    | some _ => destroyLoop (m.set p none) (p.plus 1) n

/-- `fill_uninitialized` (l.274-286), for all types. -/
def fillLoop (m : Mem α) (p : Addr) (x : α) : Nat → Out α
  | 0 => .ok m p
  | n + 1 => fillLoop (m.set p (some x)) (p.plus 1) x n

/-- The functions, with the length of the range. -/
inductive Op (α : Type)
  /-- `fill_uninitialized` (l.274-286) -/
  | fill (p : Addr) (n : Nat) (x : α)
  /-- `copy_to_uninitialized`, `move_to_uninitialized` (l.293-300, 359-366) -/
  | copy (src dst : Addr) (n : Nat)
  /-- `transfer_to_uninitialized` (l.388-398) -/
  | transfer (src dst : Addr) (n : Nat)
  /-- `transfer_to_left` (l.408-418) -/
  | left (src dst : Addr) (n : Nat)
  /-- `transfer_to_right` (l.430-440); `dst` is the last element of the target -/
  | right (src dst : Addr) (n : Nat)
  /-- `destroy` (l.373-381) -/
  | destroy (p : Addr) (n : Nat)

/-- The functions for general types. -/
def general (dbg : Bool) (m : Mem α) : Op α → Out α
  | .fill p n x => fillLoop m p x n
  | .copy src dst n => copyLoop m src dst n
  | .transfer src dst n => require dbg (apart src dst n) (copyLoop m src dst n)
  | .left src dst n => require dbg ((minus src dst).map fun d => decide (d > 0)) (leftLoop m src dst n)
  | .right src dst n => require dbg ((minus dst src).map fun d => decide (d > 0)) (rightLoop m src dst n)
  | .destroy p n => match destroyLoop m p n with
    | .ok m' _ => .ok m' p
    | o => o

/-- The functions for trivial types (l.72-88, 106-122, 139-147, 165-177, 197-209, 231-243). -/
def trivial (dbg : Bool) (m : Mem α) : Op α → Out α
  | .fill p n x => fillLoop m p x n
  | .copy src dst n => trivialCopyN dbg m src dst n
  | .transfer src dst n => require dbg (apart src dst n) (trivialCopyN dbg m src dst n)
  | .left src dst n => require dbg ((minus src dst).map fun d => decide (d > 0)) (.ok (memmove m src dst n) (dst.plus n))
  | .right src dst n => require dbg ((minus dst src).map fun d => decide (d > 0))
      (.ok (memmove m src (dst.plus (1 - n)) n) (dst.plus (-n)))
  | .destroy p _ => .ok m p

/-- A sequence of calls; the pointers that were passed by reference are collected. -/
def run (f : Mem α → Op α → Out α) (m : Mem α) : List (Op α) → Option (Mem α × List Addr)
  | [] => some (m, [])
  | op :: ops => match f m op with
    | .ok m' p => (run f m' ops).map fun r => (r.1, p :: r.2)
    | _ => none

/-- The calls of `prepare_insert` (vector_nd.h l.370-461): a gap of `ins` elements before element `off` of `old`, in block `b`; into the new block `c`, if
there is one. -/
def insertCalls (b : Nat) (c : Option Nat) (old off ins : Nat) : List (Op α) :=
  match c with
  | some c => [.transfer ⟨b, 0⟩ ⟨c, 0⟩ off, .transfer ⟨b, off⟩ ⟨c, off + ins⟩ (old - off), .destroy ⟨b, 0⟩ old]
  | none =>
    if ins ≥ old - off then [.transfer ⟨b, off⟩ ⟨b, off + ins⟩ (old - off), .destroy ⟨b, off⟩ (old - off)]
    else [.transfer ⟨b, (old - ins : Nat)⟩ ⟨b, old⟩ ins, .right ⟨b, off⟩ ⟨b, old - 1⟩ (old - ins - off), .destroy ⟨b, off⟩ ins]

/-- The calls of `erase` (vector_nd.h l.466-495): `n` elements from element `off` on. -/
def eraseCalls (b old off n : Nat) : List (Op α) :=
  [.left ⟨b, (off + n : Nat)⟩ ⟨b, off⟩ (old - off - n), .destroy ⟨b, (old - n : Nat)⟩ n]

end Verif.RawMemory
