/-!
Model of the checked pointers: `instance_of` (`/repo/include/yato/instance_of.h`), `not_null` (`/repo/include/yato/not_null.h`) and `any_ptr` (`/repo/include/yato/any_ptr.h`).

Simplifications:
 * Classes inherit publicly and not virtually. The pointers that `instance_of` takes are not to const objects (for these `dynamic_cast` to a pointer to non-const is refused by the compiler).
 * Overloads that differ only in constness are not modelled separately.
-/
set_option autoImplicit false

namespace Verif.CheckedPtr

/-! ## Classes and `dynamic_cast` -/

/-- A class: its name, whether it declares a virtual function, and its bases. -/
inductive Cls where
  | mk (name : Nat) (virt : Bool) (bases : List Cls)

def Cls.name : Cls → Nat
  | .mk n _ _ => n

def Cls.bases : Cls → List Cls
  | .mk _ _ bs => bs

/-- The class of the subobject that is reached by going to a base, to a base of it and so on; each is given by its position. -/
def Cls.sub : Cls → List Nat → Option Cls
  | c, [] => some c
  | c, i :: p => (c.bases[i]?).bind (fun b => b.sub p)

mutual
/-- All subobjects of an object of the class, itself included. -/
def Cls.paths : Cls → List (List Nat)
  | .mk _ _ bs => [] :: pathsFrom 0 bs
def pathsFrom : Nat → List Cls → List (List Nat)
  | _, [] => []
  | i, b :: bs => b.paths.map (fun p => i :: p) ++ pathsFrom (i + 1) bs
end

mutual
/-- C++: the class declares or inherits a virtual function. -/
def Cls.polymorphic : Cls → Bool
  | .mk _ v bs => v || anyPolymorphic bs
def anyPolymorphic : List Cls → Bool
  | [] => false
  | b :: bs => b.polymorphic || anyPolymorphic bs
end

/-- the subobjects of class `T` of an object of class `c` -/
def named (c : Cls) (T : Nat) : List (List Nat) := c.paths.filter (fun p => (c.sub p).any (fun s => s.name == T))

/-- What becomes of a `dynamic_cast`. -/
inductive Cast where
  /-- the compiler refuses it -/
  | refused
  | null
  | to (p : List Nat)
deriving DecidableEq, Repr

/-- the subobjects of class `T` of which the subobject `p` is a part: the beginnings of the path -/
def around (c : Cls) (p : List Nat) (T : Nat) : List (List Nat) := ((List.range (p.length + 1)).map (fun k => p.take k)).filter (fun q => (c.sub q).any (fun s => s.name == T))

/-- C++, [expr.dynamic.cast]: `dynamic_cast<T*>(ptr)` for a pointer to the subobject `p` of an object of class `c`, whose class there is `s`. To a base of `s`, or `s` itself, the conversion is made
by the compiler and has to be unambiguous. Otherwise `s` has to be polymorphic, and at run time the `T` around the subobject is taken, or else the only `T` of the whole object. -/
def dynCast (c : Cls) (p : List Nat) (s : Cls) (T : Nat) : Cast :=
  match named s T with
  | [u] => .to (p ++ u)
  | _ :: _ :: _ => .refused
  | [] =>
    if s.polymorphic then
      match around c p T with
      | [q] => .to q
      | _ =>
        match named c T with
        | [q] => .to q
        | _ => .null
    else .refused

/-! ## `instance_of` -/

/-- A pointer to a subobject of an object. -/
structure Ptr where
  obj : Nat
  path : List Nat
deriving DecidableEq, Repr

/-- The objects with their classes, and which of them are alive; the variables of type `instance_of<T>` with their types. -/
structure St where
  objs : List (Cls × Bool)
  vars : Nat → Option (Nat × Ptr)

def St.set (s : St) (x : Nat) (v : Option (Nat × Ptr)) : St := { s with vars := fun y => if y = x then v else s.vars y }

inductive Res where
  | done (s : St)
  /-- `yato::runtime_error` -/
  | threw (s : St)
  | got (p : Ptr) (s : St)
  /-- the statement does not compile -/
  | refused
  /-- there is no such variable or object -/
  | skipped
  | ub

inductive Op where
  /-- an object of the class is made -/
  | make (c : Cls)
  /-- an object is destroyed -/
  | kill (i : Nat)
  /-- `instance_of<T> x(ptr);` -/
  | wrap (x T : Nat) (p : Option Ptr)
  /-- `instance_of<T> x(*ptr);` -/
  | wrapRef (x T : Nat) (p : Option Ptr)
  /-- `instance_of<T> x(y);`; `isConst` says whether `y` is const or a temporary -/
  | copy (x y : Nat) (isConst : Bool)
  /-- `x = y;` -/
  | assign (x y : Nat)
  /-- `x.get()`, `x.operator->()` -/
  | get (x : Nat)
  /-- a member of `x.ref()` or `*x.get()` is used -/
  | use (x : Nat)

/-- instance_of.h l.28-38 and l.40-50: the constructors, after the argument was evaluated. `dynamic_cast` of a pointer to an object that was destroyed is undefined (as is making such a
reference). A null pointer is cast to a null pointer. -/
def construct (s : St) (x T : Nat) : Option Ptr → Res
  | none => .threw s
  | some p =>
    match s.objs[p.obj]? with
    | none => .skipped
    | some (_, false) => .ub
    | some (c, true) =>
      match c.sub p.path with
      | none => .skipped
      | some st =>
        match dynCast c p.path st T with
        | .refused => .refused
        | .null => .threw s
        | .to q => .done (s.set x (some (T, ⟨p.obj, q⟩)))

def step (s : St) : Op → Res
  | .make c => .done { s with objs := s.objs ++ [(c, true)] }
  | .kill i =>
    match s.objs[i]? with
    | some (c, true) => .done { s with objs := s.objs.set i (c, false) }
    | _ => .skipped
  | .wrap x T p => construct s x T p
  | .wrapRef x T p =>
    match p with
    | none => .ub
    | some p => construct s x T (some p)
  | .copy x y isConst =>
    match s.vars y with
    | none => .skipped
    | some v =>
      -- for a variable that is not const the template of l.40-50 is a better match than the copy constructor: `dynamic_cast<T*>(&y)` of a pointer to an `instance_of`, which is not polymorphic
      if isConst then .done (s.set x (some v)) else .refused
  | .assign x y =>
    match s.vars x, s.vars y with
    | some (T, _), some (U, p) => if T = U then .done (s.set x (some (U, p))) else .skipped
    | _, _ => .skipped
  | .get x => -- l.52-73
    match s.vars x with
    | none => .skipped
    | some (_, p) => .got p s
  | .use x => -- l.75-84
    match s.vars x with
    | none => .skipped
    | some (_, p) =>
      match s.objs[p.obj]? with
      | some (_, true) => .got p s
      | _ => .ub

/-- The state after a statement that has one. -/
def Res.state : Res → Option St
  | .done s => some s
  | .threw s => some s
  | .got _ s => some s
  | _ => none

def init : St := ⟨[], fun _ => none⟩

/-- The states that a program reaches. Exceptions are caught. -/
inductive Reach : St → Prop
  | init : Reach init
  | step {s s' : St} (op : Op) : Reach s → (step s op).state = some s' → Reach s'

/-! ## `not_null` -/

namespace NotNull

/-- Raw pointers are addresses, 0 is null. The variables: `not_null<T*>`, smart pointers, and `not_null` of smart pointers, which keep a reference to a smart pointer (not_null.h l.85). -/
structure St where
  raw : Nat → Option Nat
  smart : Nat → Option Nat
  wrapped : Nat → Option Nat

def upd (f : Nat → Option Nat) (x : Nat) (v : Option Nat) : Nat → Option Nat := fun y => if y = x then v else f y

inductive Op where
  /-- `not_null<T*> x(p);` -/
  | make (x p : Nat)
  /-- a copy of `y`, by construction or assignment -/
  | copy (x y : Nat)
  /-- `x.get()`, `x.operator->()`, the conversion to `T*` -/
  | get (x : Nat)
  /-- `*x` -/
  | deref (x : Nat)
  /-- a smart pointer is made, assigned or reset -/
  | setSmart (s p : Nat)
  /-- the end of the scope of a smart pointer, which may be a temporary -/
  | endSmart (s : Nat)
  /-- `not_null<smart> x(s);` -/
  | wrap (x s : Nat)
  /-- `not_null<smart> x(y);` -/
  | wrapCopy (x y : Nat)
  | wrapGet (x : Nat)
  | wrapDeref (x : Nat)

inductive Res where
  | done (s : St)
  | got (p : Nat) (s : St)
  /-- the assertion of `YATO_REQUIRES` in a debug build -/
  | aborted
  | skipped
  | ub

/-- `debug` says whether it is a debug build: otherwise `YATO_REQUIRES` does nothing (assertion.h l.103-111). -/
def step (debug : Bool) (s : St) : Op → Res
  | .make x p => -- l.36-40
    if debug && p == 0 then .aborted else .done { s with raw := upd s.raw x (some p) }
  | .copy x y => -- l.44-45
    match s.raw y with
    | none => .skipped
    | some p => .done { s with raw := upd s.raw x (some p) }
  | .get x => -- l.49-65
    match s.raw x with
    | none => .skipped
    | some p => .got p s
  | .deref x => -- l.67-76
    match s.raw x with
    | none => .skipped
    | some p => if p = 0 then .ub else .got p s
  | .setSmart v p => .done { s with smart := upd s.smart v (some p) }
  | .endSmart v =>
    match s.smart v with
    | none => .skipped
    | some _ => .done { s with smart := upd s.smart v none }
  | .wrap x v => -- l.90-94
    match s.smart v with
    | none => .skipped
    | some p => if debug && p == 0 then .aborted else .done { s with wrapped := upd s.wrapped x (some v) }
  | .wrapCopy x y => -- l.98
    match s.wrapped y with
    | none => .skipped
    | some v => .done { s with wrapped := upd s.wrapped x (some v) }
  | .wrapGet x => -- l.108-128
    match s.wrapped x with
    | none => .skipped
    | some v =>
      match s.smart v with
      | none => .ub
      | some p => .got p s
  | .wrapDeref x => -- l.130-139
    match s.wrapped x with
    | none => .skipped
    | some v =>
      match s.smart v with
      | none => .ub
      | some p => if p = 0 then .ub else .got p s

def Res.state : Res → Option St
  | .done s => some s
  | .got _ s => some s
  | _ => none

def init : St := ⟨fun _ => none, fun _ => none, fun _ => none⟩

/-- A program up to the first statement that does not complete. -/
def run (debug : Bool) (s : St) : List Op → Res
  | [] => .done s
  | [op] => step debug s op
  | op :: ops =>
    match (step debug s op).state with
    | some s' => run debug s' ops
    | none => step debug s op

end NotNull

/-! ## `any_ptr` -/

namespace AnyPtr

/-- The types of pointers: to a type which may be const and volatile, and `nullptr_t`. -/
inductive Ty where
  | nullptr
  | ptr (pointee : Nat) (isConst isVolatile : Bool)
deriving DecidableEq, Repr

/-- any_ptr.h l.33-34 -/
structure Any where
  pointer : Nat
  type : Ty
deriving DecidableEq, Repr

abbrev Vars := Nat → Option Any

def Vars.set (σ : Vars) (x : Nat) (v : Any) : Vars := fun y => if y = x then some v else σ y

inductive Op where
  /-- `any_ptr x(p);` or `x = p;` with a pointer to a type -/
  | put (x p pointee : Nat) (isConst isVolatile : Bool)
  /-- `any_ptr x(nullptr);` or `x = nullptr;` -/
  | putNull (x : Nat)
  /-- a copy, by construction or assignment -/
  | copy (x y : Nat)
  /-- `x.get_or<T*>(d)` -/
  | getOr (x pointee : Nat) (isConst isVolatile : Bool) (d : Nat)
  /-- `x.get<T*>()` -/
  | get (x pointee : Nat) (isConst isVolatile : Bool)
  /-- `if(x)` -/
  | bool (x : Nat)
  /-- `x == y` -/
  | eq (x y : Nat)
  /-- `x.type()` -/
  | type (x : Nat)

inductive Res where
  | done
  | skipped
  | got (p : Nat)
  | is (b : Bool)
  | type (t : Ty)
deriving DecidableEq, Repr

/-- l.62-71 `get_or` -/
def getOr (a : Any) (t : Ty) (d : Nat) : Nat := if t = a.type then a.pointer else d

def step (σ : Vars) : Op → Res × Vars
  | .put x p t c v => (.done, σ.set x ⟨p, .ptr t c v⟩) -- l.37-40
  | .putNull x => (.done, σ.set x ⟨0, .nullptr⟩) -- l.42-44
  | .copy x y => -- l.46-48
    match σ y with
    | none => (.skipped, σ)
    | some a => (.done, σ.set x a)
  | .getOr x t c v d =>
    match σ x with
    | none => (.skipped, σ)
    | some a => (.got (getOr a (.ptr t c v) d), σ)
  | .get x t c v => -- l.73-77
    match σ x with
    | none => (.skipped, σ)
    | some a => (.got (getOr a (.ptr t c v) 0), σ)
  | .bool x => -- l.57-60
    match σ x with
    | none => (.skipped, σ)
    | some a => (.is (a.pointer != 0), σ)
  | .eq x y => -- there is no operator for it: both are converted to `bool` by l.57-60
    match σ x, σ y with
    | some a, some b => (.is ((a.pointer != 0) == (b.pointer != 0)), σ)
    | _, _ => (.skipped, σ)
  | .type x => -- l.52-55
    match σ x with
    | none => (.skipped, σ)
    | some a => (.type a.type, σ)

/-- the variables after a program -/
def run (σ : Vars) (ops : List Op) : Vars := ops.foldl (fun σ op => (step σ op).2) σ

end AnyPtr

end Verif.CheckedPtr
