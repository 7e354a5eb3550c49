import Verif.Model.Cells

/-!
Model of `variant` (`/repo/include/yato/variant.h`) on the storage cells of `Verif.Model.Cells`; an object is its type with its value.

A type is a number, `void` is 0. Each variable has its own list of alternatives; the further members of a variable are this list, the
index `m_type_idx` (l.399) and whether its scope has ended. After the end of its scope a variable's name is not used again, so that an
object that is still in its storage then, and can never be destroyed, stays visible in the state.

Each statement calls at most one operation of an element type that may throw (a constructor or an assignment). Whether it throws is
chosen by the environment, for each statement.

Simplifications:
 * The element types are described by what a move leaves behind (`moved`) and by what an assignment that throws leaves in its target
   (`torn`); a constructor that throws leaves its argument as it was. Destructors do not throw.
 * A violated `YATO_REQUIRES`, a dispatch table read behind its end and an access to an object of another type are bad; so is an
   exception in a function that is `noexcept`.
 * All alternatives can be copied, moved and assigned (l.384-387 remove the copying and moving members otherwise; the compiler then may
   generate its own, which are not modelled).
 * Statements that do not compile or name variables that are not in scope, and declarations of names already used, do nothing (`skipped`).
 * Overloads that differ only in constness, and access by index instead of type, are not modelled separately; `get_unsafe` is not
   modelled but in `variant_cast`.
-/
set_option autoImplicit false

namespace Verif.Variant
open Verif.Cells

/-- The element types. -/
structure Ty (α : Type) where
  /-- value of an object after it was moved from -/
  moved : α → α
  /-- value of the target after an assignment of the second argument that threw -/
  torn : α → α → α

structure Info where
  alts : List Nat
  idx : Nat
  ended : Bool
deriving DecidableEq, Repr

variable {α : Type}

/-- A computation on variants. -/
abbrev MV (α : Type) := M Info (Nat × α)

/-- l.27 `variant_no_index`, with the index type `uint8_t` -/
def noIndex : Nat := 255

/-- `meta::list_find`, `/repo/include/yato/meta.h` l.241-255; `none` for `list_npos` -/
def listFind : List Nat → Nat → Option Nat
  | [], _ => none
  | T :: Ts, U => if T = U then some 0 else (listFind Ts U).map (· + 1)

/-- The static assertions l.370-372. -/
def validAlts (A : List Nat) : Bool := decide (A ≠ [] ∧ A.length ≤ 254 ∧ A.Nodup)

/-- Is the variable in scope? -/
def inScope (x : Nat) : MV α Bool := fun s =>
  match s.vars x with
  | some c => some (!c.info.ended, s)
  | none => some (false, s)

def getIdx (x : Nat) : MV α Nat := do
  let i ← info x
  pure i.idx

def setIdx (x k : Nat) : MV α Unit := do
  let i ← info x
  setInfo x { i with idx := k }

def getAlts (x : Nat) : MV α (List Nat) := do
  let i ← info x
  pure i.alts

/-- The type at an index of a dispatch table (l.331-350). -/
def tableAt (x k : Nat) : MV α Nat := do
  let A ← getAlts x
  match A[k]? with
  | some T => pure T
  | none => bad

/-- The object in `x`, seen as one of type `T`. -/
def valueAs (x T : Nat) : MV α α := do
  let v ← value x
  if v.1 = T then pure v.2 else bad

/-- l.189-207 `variant_create`; `false`: the constructor threw. -/
def createAs (x T : Nat) (a : α) (fail : Bool) : MV α Bool :=
  if T = 0 then pure true else construct x (T, a) fail

/-- l.210-226 `variant_destroy` -/
def destroyAt (x k : Nat) : MV α Unit := do
  let T ← tableAt x k
  if T = 0 then pure ()
  else
    let _ ← valueAs x T
    destroy x

/-- l.229-248 `variant_copy_construct` -/
def copyConstructAt (k y x : Nat) (fail : Bool) : MV α Bool := do
  let T ← tableAt x k
  if T = 0 then pure true
  else
    let a ← valueAs y T
    createAs x T a fail

/-- l.251-271 `variant_copy_assign` -/
def copyAssignAt (t : Ty α) (k y x : Nat) (fail : Bool) : MV α Bool := do
  let T ← tableAt x k
  if T = 0 then pure true
  else
    let a ← valueAs x T
    let b ← valueAs y T
    if fail then
      store x (T, t.torn a b)
      pure false
    else
      store x (T, b)
      pure true

/-- l.274-293 `variant_move_construct` -/
def moveConstructAt (t : Ty α) (k y x : Nat) (fail : Bool) : MV α Bool := do
  let T ← tableAt x k
  if T = 0 then pure true
  else
    let a ← valueAs y T
    if ← createAs x T a fail then
      store y (T, t.moved a)
      pure true
    else pure false

/-- l.296-316 `variant_move_assign` -/
def moveAssignAt (t : Ty α) (k y x : Nat) (fail : Bool) : MV α Bool := do
  let T ← tableAt x k
  if T = 0 then pure true
  else
    let a ← valueAs x T
    let b ← valueAs y T
    if fail then
      store x (T, t.torn a b)
      pure false
    else
      store x (T, b)
      store y (T, t.moved b)
      pure true

/-- l.425-429 `copy_construct_` -/
def copyConstruct (x y : Nat) (fail : Bool) : MV α Bool := do
  let k ← getIdx y
  if ← copyConstructAt k y x fail then
    setIdx x k
    pure true
  else pure false

/-- l.456-461 `move_construct_` -/
def moveConstruct (t : Ty α) (x y : Nat) (fail : Bool) : MV α Bool := do
  let k ← getIdx y
  if ← moveConstructAt t k y x fail then
    setIdx x k
    setIdx y noIndex
    pure true
  else pure false

/-- l.436-449 `copy_assign_` -/
def copyAssign (t : Ty α) (x y : Nat) (fail : Bool) : MV α Bool := do
  if x = y then bad
  else
    let i ← getIdx x
    let k ← getIdx y
    if i = k then copyAssignAt t i y x fail
    else
      destroyAt x i
      setIdx x noIndex
      if ← copyConstructAt k y x fail then
        setIdx x k
        pure true
      else pure false

/-- l.468-482 `move_assign_` -/
def moveAssign (t : Ty α) (x y : Nat) (fail : Bool) : MV α Bool := do
  if x = y then bad
  else
    let i ← getIdx x
    let k ← getIdx y
    if i = k then
      if ← moveAssignAt t i y x fail then
        setIdx y noIndex
        pure true
      else pure false
    else
      destroyAt x i
      setIdx x noIndex
      if ← moveConstructAt t k y x fail then
        setIdx x k
        setIdx y noIndex
        pure true
      else pure false

/-- l.617-630 `emplace`; `k` is the index of `T` -/
def emplace (x T k : Nat) (a : α) (fail : Bool) : MV α Bool := do
  let i ← getIdx x
  destroyAt x i
  setIdx x noIndex
  if ← createAs x T a fail then
    setIdx x k
    pure true
  else pure false

/-- l.976-1000 `variant_cast_impl`: the alternative the source holds; `none`: the end of the list is reached -/
def castType (idx : Nat) : List Nat → Nat → Option Nat
  | [], _ => none
  | T :: Ts, k => if idx = k then some T else castType idx Ts (k + 1)

inductive Op (α : Type) where
  /-- `variant<A...> x;` or from `nullvar`, or in place with `void` -/
  | newNull (x : Nat) (A : List Nat)
  /-- `variant<A...> x(a);` with `a` of type `T`, or in place -/
  | newVal (x : Nat) (A : List Nat) (T : Nat) (a : α)
  /-- `variant<A...> x(y);` -/
  | newCopy (x y : Nat)
  /-- `variant<A...> x(std::move(y));` -/
  | newMove (x y : Nat)
  /-- `variant<A...> x(variant_cast<list<A...>>(y));` or with `std::move(y)` -/
  | newCast (x : Nat) (A : List Nat) (y : Nat) (move : Bool)
  /-- the end of `x`'s scope -/
  | del (x : Nat)
  /-- `x = y;` -/
  | copyAssign (x y : Nat)
  /-- `x = std::move(y);` -/
  | moveAssign (x y : Nat)
  /-- `x.emplace<T>(a);` -/
  | emplace (x T : Nat) (a : α)
  /-- `x.get<T>()` -/
  | get (x T : Nat)
  /-- `T v(std::move(x).get<T>());` -/
  | getMove (x T : Nat)
  /-- `x.get_or<T>(d)` -/
  | getOr (x T : Nat) (d : α)
  /-- `x.get_opt<T>()` -/
  | getOpt (x T : Nat)
  /-- `x.is_type<T>()` -/
  | isType (x T : Nat)
  /-- `x.type_index()` -/
  | typeIndex (x : Nat)
  /-- `x.type()` -/
  | type (x : Nat)
  /-- `x.empty()` and `!static_cast<bool>(x)` -/
  | isEmpty (x : Nat)

inductive Res (α : Type) where
  | skipped
  | done
  | threw
  /-- `bad_variant_access` -/
  | badAccess
  /-- `bad_variant_cast` -/
  | badCast
  | value (a : α)
  | none
  | bool (b : Bool)
  | nat (n : Nat)
deriving DecidableEq, Repr

/-- The constructor of `x` succeeds, or there is no `x`. -/
def finish (x : Nat) (ok : Bool) : MV α (Res α) := do
  if ok then pure .done
  else
    undeclare x
    pure .threw

/-- A declaration of `x`, with a first value for the index. -/
def declaring (x : Nat) (A : List Nat) (k : Nat) (body : MV α (Res α)) : MV α (Res α) := do
  if ← alive x then pure .skipped
  else
    declare x ⟨A, k, false⟩
    body

/-- One statement. -/
def step (t : Ty α) (fail : Bool) : Op α → MV α (Res α)
  | .newNull x A => -- l.514-520, l.538-547
      match validAlts A, listFind A 0 with
      | true, some k => declaring x A k (pure .done)
      | _, _ => pure .skipped
  | .newVal x A T a => -- l.525-561
      match validAlts A, listFind A T with
      | true, some k =>
        if T = 0 then pure .skipped
        else declaring x A k do finish x (← createAs x T a fail)
      | _, _ => pure .skipped
  | .newCopy x y => do -- l.563-567
      if ← inScope y then
        let A ← getAlts y
        declaring x A noIndex do finish x (← copyConstruct x y fail)
      else pure .skipped
  | .newMove x y => do -- l.569-573
      if ← inScope y then
        let A ← getAlts y
        declaring x A noIndex do finish x (← moveConstruct t x y fail)
      else pure .skipped
  | .newCast x A y move => do -- l.932-1000, l.1033-1044
      if (← inScope y) && validAlts A then
        if ← alive x then pure .skipped
        else
          let B ← getAlts y
          let k ← getIdx y
          match castType k B 0 with
          | none => pure .badCast
          | some T =>
            match listFind A T with
            | none => pure .badCast
            | some j =>
              if T = 0 then declaring x A j (pure .done)
              else
                let a ← valueAs y T
                declaring x A j do
                  if ← createAs x T a fail then
                    if move then
                      store y (T, t.moved a)
                      pure .done
                    else pure .done
                  else finish x false
      else pure .skipped
  | .del x => do -- l.575-580
      if ← inScope x then
        let k ← getIdx x
        if k = noIndex then
          let i ← info x
          setInfo x { i with ended := true }
          pure .done
        else
          destroyAt x k
          let i ← info x
          setInfo x { i with ended := true }
          pure .done
      else pure .skipped
  | .copyAssign x y => do -- l.586-591
      if (← inScope x) && (← inScope y) then
        if (← getAlts x) = (← getAlts y) then
          if ← copyAssign t x y fail then pure .done else pure .threw
        else pure .skipped
      else pure .skipped
  | .moveAssign x y => do -- l.597-602
      if (← inScope x) && (← inScope y) then
        if (← getAlts x) = (← getAlts y) then
          if ← moveAssign t x y fail then pure .done else pure .threw
        else pure .skipped
      else pure .skipped
  | .emplace x T a => do
      if ← inScope x then
        match listFind (← getAlts x) T with
        | none => pure .skipped
        | some k =>
          if T = 0 then pure .skipped
          else if ← emplace x T k a fail then pure .done else pure .threw
      else pure .skipped
  | .get x T => do -- l.674-702, l.743-759
      if ← inScope x then
        match listFind (← getAlts x) T with
        | none => pure .skipped
        | some k =>
          if T = 0 then pure .skipped
          else if (← getIdx x) = k then
            let a ← valueAs x T
            pure (.value a)
          else pure .badAccess
      else pure .skipped
  | .getMove x T => do -- l.708-736, l.765-781
      if ← inScope x then
        match listFind (← getAlts x) T with
        | none => pure .skipped
        | some k =>
          if T = 0 then pure .skipped
          else if (← getIdx x) = k then
            let a ← valueAs x T
            if fail then pure .threw
            else
              store x (T, t.moved a)
              pure (.value a)
          else pure .badAccess
      else pure .skipped
  | .getOr x T d => do -- l.788-838
      if ← inScope x then
        match listFind (← getAlts x) T with
        | none => pure .skipped
        | some k =>
          if T = 0 then pure .skipped
          else if fail then bad
          else if (← getIdx x) = k then
            let a ← valueAs x T
            pure (.value a)
          else pure (.value d)
      else pure .skipped
  | .getOpt x T => do -- l.845-871
      if ← inScope x then
        match listFind (← getAlts x) T with
        | none => pure .skipped
        | some k =>
          if T = 0 then pure .skipped
          else if fail then bad
          else if k = (← getIdx x) then
            let a ← valueAs x T
            pure (.value a)
          else pure .none
      else pure .skipped
  | .isType x T => do -- l.654-659
      if ← inScope x then
        match listFind (← getAlts x) T with
        | none => pure (.bool false)
        | some k => pure (.bool (k == (← getIdx x)))
      else pure .skipped
  | .typeIndex x => do -- l.645-649
      if ← inScope x then pure (.nat (← getIdx x))
      else pure .skipped
  | .type x => do -- l.636-640
      if ← inScope x then pure (.nat (← tableAt x (← getIdx x)))
      else pure .skipped
  | .isEmpty x => do -- l.489-505, l.607-611, l.664-668
      if ← inScope x then
        match listFind (← getAlts x) 0 with
        | none => pure (.bool false)
        | some k => pure (.bool ((← getIdx x) == k))
      else pure .skipped

/-- A program; each statement comes with whether what it calls throws. -/
def run (t : Ty α) : List (Op α × Bool) → MV α (List (Res α))
  | [] => pure []
  | (op, fail) :: ops => do
    let r ← step t fail op
    let rs ← run t ops
    pure (r :: rs)

end Verif.Variant
