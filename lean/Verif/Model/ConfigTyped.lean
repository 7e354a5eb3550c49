import Verif.Model.Config
import Verif.Model.ScalarText

/-!
# Model of storing values of C++ types in configs

`modules/config/yato/config/containers.h`, `smart_pointers.h`, the converters of `config_backend.h` l.89-145, `config.h` l.178-206 and l.315-341, and the templates `put` and `add` of
`config_builder.h`.

* The types are integers of any width, `double`, `bool`, `std::string`, `std::vector`, `std::map` with strings as keys, optionals (of the standard library and of yato), and smart pointers (`std::unique_ptr` and
  `std::shared_ptr`, as the value they point to). `float` and `long double` are in `Model/Reals.lean`.
* A release build: `narrow_cast` wraps. An integer is represented by its value; `Typed` in the properties says that it is in the range of its type.
* `Res.error` is an exception (`std::bad_optional_access`, or `config_error`, which `value<T>` turns into an empty optional). `Res.ub` is undefined behaviour.
* A `double` is represented by a number that stands for it; `ops` is what is needed of it for converting from and to other types, see `ScalarText`.
-/
set_option autoImplicit false

namespace Verif.Config

/-- the C++ types -/
inductive CTy
  | int (signed : Bool) (bits : Nat)
  | double
  | bool
  | str
  | vec (t : CTy)
  | map (t : CTy)
  | opt (t : CTy)
  | ptr (t : CTy)

/-- the values of a type; the elements of a `std::map` in the order of its keys -/
def CTy.Val : CTy → Type
  | .int _ _ => Int
  | .double => Nat
  | .bool => Bool
  | .str => Str
  | .vec t => List t.Val
  | .map t => List (Str × t.Val)
  | .opt t => Option t.Val
  | .ptr t => Option t.Val

/-- `narrow_cast` to a type in a release build -/
def narrow (signed : Bool) (bits : Nat) (n : Int) : Int :=
  let m := n % (2 ^ bits : Int)
  if signed && decide ((2 ^ bits : Int) ≤ 2 * m) then m - 2 ^ bits else m

/-- `skip` (containers.h l.82-85, l.103-106; smart_pointers.h l.34-37, l.55-58); the other converters have none (config.h l.118-122) -/
def skip : (t : CTy) → t.Val → Bool
  | .opt _, v => Option.isNone v
  | .ptr _, v => Option.isNone v
  | _, _ => false

def Res.bind {α β : Type} (r : Res α) (f : α → Res β) : Res β :=
  match r with
  | .ok a => f a
  | .error => .error
  | .ub => .ub

/-- an operation of a builder that throws for `none` -/
def Res.ofOption {α : Type} : Option α → Res α
  | some a => .ok a
  | none => .error

/-- containers.h l.41-43: `b.add(v)` for each element (config_builder.h l.319-326) -/
def addAll {α : Type} (skip : α → Bool) (store : α → Res Value) : List α → Node → Res Node
  | [], acc => .ok acc
  | x :: xs, acc => if skip x then addAll skip store xs acc else (store x).bind (fun v => (Res.ofOption (acc.add v)).bind (addAll skip store xs))

/-- containers.h l.66-68: `b.put(k, v)` for each element (config_builder.h l.150-160) -/
def putAll {α : Type} (skip : α → Bool) (store : α → Res Value) : List (Str × α) → Node → Res Node
  | [], acc => .ok acc
  | (k, x) :: xs, acc => if skip x then putAll skip store xs acc else (store x).bind (fun v => (Res.ofOption (acc.put k v)).bind (putAll skip store xs))

/-- the config of a builder as a value -/
def Node.toValue (n : Node) : Value := .conf n.kind n.entries

/-- `store`: `narrow_converter` (config_backend.h l.123-126), `identity_converter` (l.104-112), containers.h l.38-45, l.63-70, l.87-91, l.108-112, smart_pointers.h l.39-43, l.60-64 -/
def store : (t : CTy) → t.Val → Res Value
  | .int _ _, n => .ok (.scalar (.int (narrow true 64 n)))
  | .double, r => .ok (.scalar (.real r))
  | .bool, b => .ok (.scalar (.bool b))
  | .str, s => .ok (.scalar (.str s))
  | .vec t, xs => (addAll (skip t) (store t) xs ⟨.array, []⟩).bind (fun n => .ok n.toValue)
  | .map t, ms => (putAll (skip t) (store t) ms ⟨.map, []⟩).bind (fun n => .ok n.toValue)
  | .opt t, v => match v with | some x => store t x | none => .error
  | .ptr t, v => match v with | some x => store t x | none => .ub

/-- `config_builder::put(name, value)` (config_builder.h l.150-160) on the config that is being built -/
def putTyped (n : Node) (key : Str) (t : CTy) (v : t.Val) : Res Node :=
  if skip t v then .ok n else (store t v).bind (fun x => Res.ofOption (n.put key x))

/-- a stored scalar -/
def Scalar.stored : Scalar → ScalarText.Stored Nat
  | .int n => .integer n
  | .real r => .real r
  | .bool b => .boolean b
  | .str s => .string s

/-- `get<return_type>(fetch_type)` for a scalar type (config.h l.340): a config cannot be converted to a scalar -/
def fetch (ops : ScalarText.Real Nat) (ty : ScalarText.Ty) (v : Value) : Res (ScalarText.Stored Nat) :=
  match v with
  | .scalar s =>
    match ScalarText.get ops ty s.stored with
    | none => .ub
    | some .empty => .error
    | some x => .ok x
  | _ => .error

/-- containers.h l.30-36: the elements, or an exception if one cannot be loaded -/
def loadAll {α : Type} (load : Value → Res α) : Entries → Res (List α)
  | [] => .ok []
  | (_, v) :: r => (load v).bind (fun x => (loadAll load r).bind (fun xs => .ok (x :: xs)))

/-- `std::map::emplace` -/
def emplaceKey {α : Type} : List (Str × α) → Str → α → List (Str × α)
  | [], key, v => [(key, v)]
  | (k, x) :: r, key, v => if strLt k key then (k, x) :: emplaceKey r key v else if strLt key k then (key, v) :: (k, x) :: r else (k, x) :: r

/-- containers.h l.52-61 -/
def loadMap {α : Type} (load : Value → Res α) : Entries → List (Str × α) → Res (List (Str × α))
  | [], acc => .ok acc
  | (k, v) :: r, acc => (load v).bind (fun x => loadMap load r (emplaceKey acc k x))

/-- `entry.value<T>()` (config.h l.313-341): an empty optional is `error`. A value that is a null config is loaded as a config without entries that is not associative. -/
def load (ops : ScalarText.Real Nat) : (t : CTy) → Value → Res t.Val
  | .int s b, v => (fetch ops .integer v).bind (fun x => match x with | .integer n => .ok (narrow s b n) | _ => .error)
  | .double, v => (fetch ops .real v).bind (fun x => match x with | .real r => .ok r | _ => .error)
  | .bool, v => (fetch ops .boolean v).bind (fun x => match x with | .boolean b => .ok b | _ => .error)
  | .str, v => (fetch ops .string v).bind (fun x => match x with | .string s => .ok s | _ => .error)
  | .vec t, v =>
    match v with
    | .conf _ es => loadAll (load ops t) es
    | .null => .ok []
    | _ => .error
  | .map t, v =>
    match v with
    | .conf k es => if k.assoc then loadMap (load ops t) es [] else .error
    | _ => .error
  | .opt t, v => (load ops t v).bind (fun x => .ok (some x))
  | .ptr t, v => (load ops t v).bind (fun x => .ok (some x))

/-- `c.value<T>(name)` for a single name -/
def valueTyped (ops : ScalarText.Real Nat) (t : CTy) (n : Node) (key : Str) : Res t.Val :=
  match n.find key with
  | some (_, v) => load ops t v
  | none => .error

end Verif.Config
