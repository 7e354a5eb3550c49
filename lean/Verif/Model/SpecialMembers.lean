/-!
Model of the special member functions of `variant` (`/repo/include/yato/variant.h`) and `basic_optional`
(`/repo/include/yato/optional.h`): which of them the class declares, depending on what its element types can do, which the compiler adds
then, and what a copy, a move and an assignment of a whole variant do.

`disable_if_not_t<cond, this_type>` (`/repo/include/yato/type_traits.h` l.96-102) is `this_type` if the condition is met and the class
`disabled_t` (l.83-94) otherwise. So `basic_variant(const disable_if_not_t<cond, this_type>&)` is the copy constructor in the first case
and some converting constructor in the second.

Simplifications:
 * An element type is described by the four standard traits that the code asks for; `void` has none of them.
 * An operation of an element type does not throw (`Verif.Model.Variant` has the exceptions).
 * An object is a number; its value is not modelled. Copying the bytes of the storage makes two variants hold the same object, which is
   how the program sees it: the destructor of both variants runs the object's destructor.
 * A moved-from object that its variant gives up (l.456-482) is never destroyed. A statement on a variant without any index violates
   `YATO_REQUIRES` (l.439, 471) or reads behind the dispatch table (l.427, 458; property C28) and does nothing here.
-/
set_option autoImplicit false

namespace Verif.Special

/-- What the standard traits say about an element type: `std::is_copy_constructible`, `std::is_move_constructible`,
`std::is_copy_assignable`, `std::is_move_assignable`. -/
structure Caps where
  cc : Bool
  mc : Bool
  ca : Bool
  ma : Bool
deriving DecidableEq, Repr

/-- How the author of a class declares a special member: not at all, with a body, as deleted. -/
inductive Decl | absent | body | deleted
deriving DecidableEq, Repr

/-- The declarations of copy constructor, move constructor, copy assignment and move assignment. The destructor is always declared
(variant.h l.575-580, optional.h l.370-373). -/
structure Decls where
  cc : Decl
  mc : Decl
  ca : Decl
  ma : Decl
deriving DecidableEq, Repr

/-- `all_copy_constructible`, variant.h l.88-99. An alternative `none` is `void`. -/
def allCC : List (Option Caps) → Bool
  | [] => true
  | none :: t => allCC t
  | some c :: t => c.cc && allCC t

/-- `all_copy_assignable`, variant.h l.102-113. -/
def allCA : List (Option Caps) → Bool
  | [] => true
  | none :: t => allCA t
  | some c :: t => c.ca && allCA t

/-- `all_move_constructible`, variant.h l.120-131. -/
def allMC : List (Option Caps) → Bool
  | [] => true
  | none :: t => allMC t
  | some c :: t => c.mc && allMC t

/-- `all_move_assignable`, variant.h l.148-159. -/
def allMA : List (Option Caps) → Bool
  | [] => true
  | none :: t => allMA t
  | some c :: t => c.ma && allMA t

/-- A member whose parameter is `disable_if_not_t<cond, this_type>` and that has a body. -/
def enabled (cond : Bool) : Decl := if cond then .body else .absent

/-- variant.h l.563-573 and l.586-602, with the constants of l.384-387. -/
def variantDecls (alts : List (Option Caps)) : Decls where
  cc := enabled (allCC alts)
  mc := enabled (allMC alts)
  ca := enabled (allCC alts && allCA alts)
  ma := enabled (allMC alts && allMA alts)

/-- A pair of members, one with a body for the condition (optional.h l.293, 303, 390, 400) and one deleted for its negation
(l.892-896). -/
def enabledOrDeleted (cond : Bool) : Decl := if cond then .body else .deleted

/-- optional.h l.292-306, l.390-404 and l.892-896, with the constants of l.215-218. -/
def optionalDecls (c : Caps) : Decls where
  cc := enabledOrDeleted c.cc
  mc := enabledOrDeleted c.mc
  ca := enabledOrDeleted (c.cc && c.ca)
  ma := enabledOrDeleted (c.mc && c.ma)

/-- What a statement that copies, moves or assigns does. -/
inductive Way
  /-- the class's own copying member, which copies the element -/
  | copies
  /-- the class's own moving member, which moves the element -/
  | moves
  /-- the compiler's member: it copies the storage byte by byte, and the index -/
  | bytes
  /-- it does not compile -/
  | ill
deriving DecidableEq, Repr

/-- The copying member that overload resolution finds, C++14 12.8: a copying member that is not declared is implicitly declared; it is
deleted if the class declares a move constructor or a move assignment, and defaulted otherwise. The storage of a variant is an
`aligned_storage` (variant.h l.398) and can always be copied. -/
def copying (own mc ma : Decl) : Way :=
  match own with
  | .body => .copies
  | .deleted => .ill
  | .absent => if mc = .absent ∧ ma = .absent then .bytes else .ill

/-- The member for an argument that may be moved: the class's moving member or, if it has none, the copying member. With a declared
destructor no moving member is added by the compiler. -/
def moving (own : Decl) (fallback : Way) : Way :=
  match own with
  | .body => .moves
  | .deleted => .ill
  | .absent => fallback

/-- `V x(y)` -/
def Decls.copyInit (d : Decls) : Way := copying d.cc d.mc d.ma
/-- `V x(std::move(y))` -/
def Decls.moveInit (d : Decls) : Way := moving d.mc d.copyInit
/-- `x = y` -/
def Decls.copyAssign (d : Decls) : Way := copying d.ca d.mc d.ma
/-- `x = std::move(y)` -/
def Decls.moveAssign (d : Decls) : Way := moving d.ma d.copyAssign

/-! ### Programs with variants of one list of alternatives -/

/-- A variant that has been declared: the index of its alternative and the object in its storage (`none` for `void`), or no index
after it was moved from. -/
inductive Var
  | noIndex
  | holds (idx : Nat) (obj : Option Nat)
deriving DecidableEq, Repr

structure State where
  vars : Nat → Option Var
  /-- number of the next object -/
  next : Nat
  /-- the runs of destructors of elements, newest first -/
  destroyed : List Nat

def init : State := ⟨fun _ => none, 0, []⟩

def State.set (s : State) (x : Nat) (v : Option Var) : State := { s with vars := fun z => if z = x then v else s.vars z }

/-- The object of a variant. -/
def Var.obj : Var → Option Nat
  | .noIndex => none
  | .holds _ o => o

/-- Runs a destructor, if there is something to destroy: `variant_destroy`, variant.h l.210-226. -/
def State.destroy (s : State) : Option Nat → State
  | none => s
  | some o => { s with destroyed := o :: s.destroyed }

/-- Constructs an element from another: a new object, unless the alternative is `void`. -/
def State.create (s : State) : Option Nat → State × Option Nat
  | none => (s, none)
  | some _ => ({ s with next := s.next + 1 }, some s.next)

inductive Stmt
  /-- `V x(in_place_index_t<k>{}, …)` -/
  | make (x k : Nat)
  /-- `V x(y)` -/
  | copyInit (x y : Nat)
  /-- `V x(std::move(y))` -/
  | moveInit (x y : Nat)
  /-- `x = y` -/
  | copyAssign (x y : Nat)
  /-- `x = std::move(y)` -/
  | moveAssign (x y : Nat)
  /-- the end of the scope of `x` -/
  | del (x : Nat)
deriving DecidableEq, Repr

/-- A new variable `x` from the variant `v` in `y`, in the given way: `copy_construct_` l.425-429, `move_construct_` l.456-461, or the bytes. -/
def State.fresh (s : State) (x y : Nat) : Way → Var → State
  | .ill, _ => s
  | .bytes, v => s.set x (some v)
  | _, .noIndex => s
  | .copies, .holds k o =>
    let r := s.create o
    r.1.set x (some (.holds k r.2))
  | .moves, .holds k o =>
    let r := s.create o
    (r.1.set x (some (.holds k r.2))).set y (some .noIndex)

/-- Assigns the variant `w` in `y` to the variant `v` in `x`, in the given way: `copy_assign_` l.436-449, `move_assign_` l.468-482, or
the bytes. Equal indices assign the element, which stays the object it is. -/
def State.assign (s : State) (x y : Nat) : Way → Var → Var → State
  | .ill, _, _ => s
  | .bytes, _, w => s.set x (some w)
  | _, .noIndex, _ => s
  | _, _, .noIndex => s
  | .copies, .holds k o, .holds l p =>
    if k = l then s
    else
      let r := (s.destroy o).create p
      r.1.set x (some (.holds l r.2))
  | .moves, .holds k o, .holds l p =>
    if k = l then s.set y (some .noIndex)
    else
      let r := (s.destroy o).create p
      (r.1.set x (some (.holds l r.2))).set y (some .noIndex)

/-- One statement on variants of the alternatives `alts`. A declaration of a name in scope, and a use of one that is not, do nothing; so
does assigning a variant to itself, which violates `YATO_REQUIRES` (l.438, 470) or changes nothing. -/
def step (alts : List (Option Caps)) (s : State) : Stmt → State
  | .make x k =>
    match s.vars x, alts[k]? with
    | none, some none => s.set x (some (.holds k none))
    | none, some (some _) => ({ s with next := s.next + 1 }).set x (some (.holds k (some s.next)))
    | _, _ => s
  | .copyInit x y =>
    match s.vars x, s.vars y with
    | none, some v => s.fresh x y (variantDecls alts).copyInit v
    | _, _ => s
  | .moveInit x y =>
    match s.vars x, s.vars y with
    | none, some v => s.fresh x y (variantDecls alts).moveInit v
    | _, _ => s
  | .copyAssign x y =>
    match s.vars x, s.vars y with
    | some v, some w => if x = y then s else s.assign x y (variantDecls alts).copyAssign v w
    | _, _ => s
  | .moveAssign x y =>
    match s.vars x, s.vars y with
    | some v, some w => if x = y then s else s.assign x y (variantDecls alts).moveAssign v w
    | _, _ => s
  | .del x =>
    match s.vars x with
    | some v => (s.destroy v.obj).set x none
    | none => s

def run (alts : List (Option Caps)) (s : State) (ops : List Stmt) : State := ops.foldl (step alts) s

end Verif.Special
