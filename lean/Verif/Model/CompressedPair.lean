/-!
Model of `compressed_pair` (`/repo/include/yato/compressed_pair.h`): its layout and its operations.

Simplifications:
 * Layout as in the Itanium C++ ABI, for a first type whose empty parts are all at its beginning.
 * Values are numbers. A class without members has one value, the one it is value-initialized with.
 * A copy of an object with an indeterminate member is undefined behaviour, which holds for members of other types than bytes.
 * Overloads that differ only in const and volatile are not modelled separately. Exceptions of constructors are not modelled.
-/
set_option autoImplicit false

namespace Verif.CompressedPair

/-- What matters of a type: `empties` are the classes without members of which an object of this type has a part at its beginning, itself included; `indet` says that an object declared without
initializer has no determinate value (as for numbers); `dflt` is the value after value-initialization. -/
structure Ty where
  name : Nat
  size : Nat
  align : Nat
  empty : Bool
  final : Bool
  empties : List Nat
  indet : Bool
  dflt : Nat
deriving DecidableEq, Repr

/-- l.228-230: which of the two implementations is used -/
def compressed (F _S : Ty) : Bool := F.empty && !F.final

/-! ## Layout -/

/-- C++: the next multiple of the alignment -/
def roundUp (n a : Nat) : Nat := (n + a - 1) / a * a

structure Layout where
  first : Nat
  second : Nat
  size : Nat
deriving DecidableEq, Repr

/-- l.72-73: two members -/
def layoutPlain (F S : Ty) : Layout :=
  let o := roundUp F.size S.align
  ⟨0, o, roundUp (o + S.size) (max F.align S.align)⟩

/-- l.231, l.242: a base class without members and a member; the member starts where the base does unless two objects of the same class would be at the same place -/
def layoutCompressed (F S : Ty) : Layout :=
  let o := if F.empties.any (fun e => S.empties.contains e) then S.align else 0
  ⟨0, o, roundUp (max F.size (o + S.size)) (max F.align S.align)⟩

def layout (F S : Ty) : Layout := if compressed F S then layoutCompressed F S else layoutPlain F S

/-! ## Values -/

/-- the members; `none` is an indeterminate value. In the compressed implementation there is no first member. -/
structure Obj where
  first : Option Nat
  second : Option Nat
deriving DecidableEq, Repr

inductive Op where
  /-- `compressed_pair<F, S> x;` in a function -/
  | newDefault (x : Nat)
  /-- `compressed_pair<F, S> x{};` -/
  | newValue (x : Nat)
  /-- with `zero_arg_then_variadic_t` and no or one argument -/
  | newZero (x : Nat) (b : Option Nat)
  /-- with `one_arg_then_variadic_t`, an argument for the first and no or one for the second -/
  | newOne (x a : Nat) (b : Option Nat)
  /-- a copy, by construction or assignment -/
  | copy (x y : Nat)
  /-- `x.first()`, `get<0>(x)` of an lvalue -/
  | first (x : Nat)
  | second (x : Nat)
  /-- `x.first() = a;` -/
  | setFirst (x a : Nat)
  | setSecond (x b : Nat)
  /-- `x.get_as<T>()`, `get<T>(x)` -/
  | getAs (x T : Nat)
  /-- `get<0>(std::move(x))` or `get<1>(std::move(x))` -/
  | moveOut (x : Nat) (isFirst : Bool)
  /-- the conversions to `std::pair` and `std::tuple` -/
  | toPair (x : Nat)
deriving DecidableEq, Repr

inductive Res where
  | done
  | skipped
  | got (v : Nat)
  | pair (a b : Nat)
  /-- the statement does not compile -/
  | refused
  /-- an indeterminate value is read -/
  | ub
deriving DecidableEq, Repr

abbrev Vars := Nat → Option Obj

def Vars.set (σ : Vars) (x : Nat) (o : Obj) : Vars := fun y => if y = x then some o else σ y

/-- l.77-78, l.246-247: the defaulted constructor, for a variable without initializer. The members of the plain implementation are default-initialized; `m_second` of the compressed one has an
initializer (l.242). -/
def default_ (F S : Ty) : Obj :=
  if compressed F S then ⟨some F.dflt, some S.dflt⟩
  else ⟨if F.indet then none else some F.dflt, if S.indet then none else some S.dflt⟩

/-- reading a value -/
def readVal : Option Nat → Res
  | none => .ub
  | some v => .got v

/-- l.106-133, l.275-302 `first`: the member, or the object itself as its base, which has the only value of its class -/
def firstOf (F S : Ty) (o : Obj) : Option Nat := if compressed F S then some F.dflt else o.first

/-- l.138-165, l.307-334 `second` -/
def secondOf (o : Obj) : Option Nat := o.second

def step (F S : Ty) (σ : Vars) : Op → Res × Vars
  | .newDefault x => (.done, σ.set x (default_ F S))
  | .newValue x => (.done, σ.set x ⟨some F.dflt, some S.dflt⟩)
  | .newZero x b => (.done, σ.set x ⟨some F.dflt, some (b.getD S.dflt)⟩) -- l.80-84, l.249-253
  | .newOne x a b => (.done, σ.set x ⟨some a, some (b.getD S.dflt)⟩) -- l.86-90, l.255-259
  | .copy x y => -- l.92-98, l.261-267
    match σ y with
    | none => (.skipped, σ)
    | some o =>
      match o.first, o.second with
      | some _, some _ => (.done, σ.set x o)
      | _, _ => (.ub, σ)
  | .first x =>
    match σ x with
    | none => (.skipped, σ)
    | some o => (readVal (firstOf F S o), σ)
  | .second x =>
    match σ x with
    | none => (.skipped, σ)
    | some o => (readVal (secondOf o), σ)
  | .setFirst x a =>
    match σ x with
    | none => (.skipped, σ)
    | some o => (.done, σ.set x { o with first := some a })
  | .setSecond x b =>
    match σ x with
    | none => (.skipped, σ)
    | some o => (.done, σ.set x { o with second := some b })
  | .getAs x T => -- l.20-53, l.170-205, l.339-374
    match σ x with
    | none => (.skipped, σ)
    | some o =>
      if T = F.name ∧ T ≠ S.name then (readVal (firstOf F S o), σ)
      else if T = S.name ∧ T ≠ F.name then (readVal (secondOf o), σ)
      else (.refused, σ)
  | .moveOut _ _ => (.refused, σ) -- l.425-439: an rvalue reference is initialized with an lvalue
  | .toPair x => -- l.210-221, l.379-390
    match σ x with
    | none => (.skipped, σ)
    | some o =>
      match firstOf F S o, secondOf o with
      | some a, some b => (.pair a b, σ)
      | _, _ => (.ub, σ)

def run (F S : Ty) (σ : Vars) : List Op → List Res × Vars
  | [] => ([], σ)
  | op :: ops => ((step F S σ op).1 :: (run F S (step F S σ op).2 ops).1, (run F S (step F S σ op).2 ops).2)

end Verif.CompressedPair
