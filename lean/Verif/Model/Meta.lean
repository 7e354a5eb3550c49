/-!
# Model of the compile-time type lists (`include/yato/meta.h`)

A type list is a `List T`, where the elements of `T` stand for types; `null_list` is `[]` and `list<A, B, ...>` is `A :: B :: ...`
(meta.h l.74, l.85-100). Computations of the compiler are functions into `Option`: `none` is a program that does not compile, because
a member does not exist (`null_list` has no `head` and no `tail`), a template argument is missing (`list<>`) or no partial
specialization is more specialized than the others. The pack `Elems_...` that the templates carry is the last argument.

`size_t` values are natural numbers: lists are assumed to have less than 2^64 elements.
-/
set_option autoImplicit false

namespace Verif.Meta

variable {T : Type}

/-- meta.h l.126-139 `list_dup` -/
def dup (t : T) : Nat → List T → List T
  | 0, es => es
  | n + 1, es => dup t n (t :: es)

/-- meta.h l.144-154 `reverse_list`. The end of the recursion writes `list<Elems_...>`, which needs at least one element. -/
def reverse : List T → List T → Option (List T)
  | [], [] => none
  | [], e :: es => some (e :: es)
  | h :: t, es => reverse t (h :: es)

/-- meta.h l.159-169 `list_push_front` -/
def pushFront (t : T) : List T → List T → List T
  | [], es => t :: es
  | h :: l, es => pushFront t l (es ++ [h])

/-- meta.h l.174-184 `list_push_back` -/
def pushBack (t : T) : List T → List T → List T
  | [], es => es ++ [t]
  | h :: l, es => pushBack t l (es ++ [h])

/-- meta.h l.195-205 `list_cat` with an exhausted first list -/
def catSecond : List T → List T → List T
  | [], es => es
  | h :: l, es => catSecond l (es ++ [h])

/-- meta.h l.189-205 `list_cat` -/
def cat : List T → List T → List T → List T
  | [], l2, es => catSecond l2 es
  | h :: l, l2, es => cat l l2 (es ++ [h])

/-- meta.h l.210-220 `list_at` -/
def at? : List T → Nat → Option T
  | [], _ => none
  | h :: _, 0 => some h
  | _ :: l, i + 1 => at? l i

/-- meta.h l.228-238 `list_to_tuple`: the elements of the tuple -/
def toTuple : List T → List T → List T
  | [], es => es
  | h :: l, es => toTuple l (es ++ [h])

/-- meta.h l.80 `list_npos` -/
def npos : Nat := 2 ^ 64 - 1

/-- meta.h l.244-255 `list_find` -/
def find [DecidableEq T] : List T → T → Nat → Nat
  | [], _, _ => npos
  | h :: l, t, idx => if h = t then idx else find l t (idx + 1)

/-- meta.h l.260-269 `list_length` -/
def length : List T → Nat
  | [] => 0
  | _ :: l => 1 + length l

/-- meta.h l.275-285 `list_split` -/
def split : List T → Nat → List T → Option (List T × List T)
  | l, 0, es => some (es, l)
  | [], _ + 1, _ => none
  | h :: l, p + 1, es => split l p (es ++ [h])

/-- meta.h l.290-309 `list_merge`. `Less` is a template too and may fail to compile. `std::conditional` is given the results of both
branches, so that both are instantiated. Two empty lists match both partial specializations equally well. -/
def merge (less : T → T → Option Bool) : List T → List T → Option (List T)
  | [], [] => none
  | l1@(_ :: _), [] => some l1
  | [], l2@(_ :: _) => some l2
  | a :: l1, b :: l2 => do
    let c ← less a b
    let x ← merge less l1 (b :: l2)
    let y ← merge less (a :: l1) l2
    pure (if c then pushFront a x [] else pushFront b y [])
termination_by l1 l2 => l1.length + l2.length

theorem length_split : ∀ (l : List T) (p : Nat) (es a b : List T), split l p es = some (a, b) → a.length = es.length + p ∧ b.length + p = l.length
  | l, 0, es, a, b, h => by simp only [split, Option.some.injEq, Prod.mk.injEq] at h; simp [← h.1, ← h.2]
  | [], p + 1, es, a, b, h => by simp [split] at h
  | x :: l, p + 1, es, a, b, h => by
    simp only [split] at h
    have := length_split l p _ a b h
    simp at this ⊢; omega

theorem length_eq (l : List T) : length l = l.length := by
  induction l with
  | nil => rfl
  | cons h l ih => simp only [length, ih, List.length_cons]; omega

/-- meta.h l.315-332 `list_sort` -/
def sort (less : T → T → Option Bool) (l : List T) : Option (List T) :=
  if _hl : length l < 2 then some l
  else
    match _h : split l (length l / 2) [] with
    | none => none
    | some (a, b) => do
      let x ← sort less a
      let y ← sort less b
      merge less x y
termination_by l.length
decreasing_by
  · have := length_split _ _ _ _ _ _h; rw [length_eq] at this _hl; simp at this; omega
  · have := length_split _ _ _ _ _ _h; rw [length_eq] at this _hl; simp at this; omega

/-- meta.h l.337-350 `list_unique`. Both branches are instantiated; they never fail, so only the selected one is kept. -/
def unique [DecidableEq T] : List T → List T → List T
  | [], es => es
  | h :: l, es => if find es h 0 ≠ npos then unique l es else unique l (es ++ [h])

/-- meta.h l.356-369 `type_less_sizeof`, for types given by their `sizeof`, and `none` for `void`. Comparing `void` with itself is
ambiguous between the two partial specializations. -/
def lessSizeof : Option Nat → Option Nat → Option Bool
  | none, none => none
  | none, some _ => some true
  | some _, none => some false
  | some a, some b => some (decide (a < b))

end Verif.Meta
