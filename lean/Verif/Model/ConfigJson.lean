import Verif.Model.Backend

/-!
# Model of reading and writing JSON configs

`modules/config/yato/config/json/json.cpp`, `json/private/json_config.cpp`, `json/private/json_value.cpp`.

* The library nlohmann::json is trusted: `Json` is its tree; parsing a text and printing a tree are parameters. Its default class keeps the members of an object in a `std::map`, the class
  `ordered_json` in a vector; `emplace` of both does nothing if there is a member with this name.
* `ord` says which of the two classes is used.
* A release build: `narrow_cast` from an unsigned to a signed 64-bit number wraps.
* Reals are opaque.
-/
set_option autoImplicit false

namespace Verif.Config

/-- a value of nlohmann::json; the members of an object in the order of iteration -/
inductive Json
  | null
  | bool (b : Bool)
  | int (n : Int)
  | uint (n : Nat)
  | real (bits : Nat)
  | str (s : Str)
  | arr (xs : List Json)
  | obj (ms : List (Str × Json))

abbrev Members := List (Str × Json)

/-- `std::map::emplace` -/
def mapEmplace : Members → Str → Json → Members
  | [], key, v => [(key, v)]
  | (k, x) :: r, key, v => if strLt k key then (k, x) :: mapEmplace r key v else if strLt key k then (key, v) :: (k, x) :: r else (k, x) :: r

/-- `nlohmann::ordered_map::emplace` -/
def vecEmplace : Members → Str → Json → Members
  | [], key, v => [(key, v)]
  | (k, x) :: r, key, v => if k = key then (k, x) :: r else (k, x) :: vecEmplace r key v

def emplace (ord : Bool) (ms : Members) (key : Str) (v : Json) : Members := if ord then vecEmplace ms key v else mapEmplace ms key v

/-- json.cpp l.81-92 -/
def scalarJson : Scalar → Json
  | .int n => .int n
  | .real r => .real r
  | .bool b => .bool b
  | .str s => .str s

mutual
/-- json.cpp l.77-101: the value put for an entry -/
def valueJson (ord : Bool) : Value → Json
  | .hole => .null
  | .scalar s => scalarJson s
  | .null => .null
  | .conf k es => if k.assoc then .obj (objectJson ord es []) else .arr (arrayJson ord es)
/-- the loop for an object -/
def objectJson (ord : Bool) : Entries → Members → Members
  | [], ms => ms
  | (key, v) :: r, ms => objectJson ord r (emplace ord ms key (valueJson ord v))
/-- the loop for an array -/
def arrayJson (ord : Bool) : Entries → List Json
  | [] => []
  | (_, v) :: r => valueJson ord v :: arrayJson ord r
end

/-- `to_json_` (l.71-103) -/
def toJson (ord : Bool) (c : Config) : Json :=
  match c with
  | none => .null
  | some n => valueJson ord (.conf n.kind n.entries)

/-- `is_associative() && is_ordered()` of the root (l.109) -/
def defaultOrder (c : Config) : Bool :=
  match c with
  | none => false
  | some n => n.kind.assoc && n.kind.keepsOrder

/-- `write` (l.107-115): `ordered` is the optional argument; `dump` prints a tree of the class -/
def writeJson (dump : Bool → Json → Str) (c : Config) (ordered : Option Bool) : Str :=
  dump (ordered.getD (defaultOrder c)) (toJson (ordered.getD (defaultOrder c)) c)

/-- `read` (l.19-56): `parse` gives `none` for a discarded value; then the config is null -/
def readJson (parse : Bool → Str → Option Json) (text : Str) (ordered : Bool) : Option Json := parse ordered text

/-- `narrow_cast<int64_t>` of an `uint64_t` in a release build -/
def wrapSigned (n : Nat) : Int := if n % 2 ^ 64 < 2 ^ 63 then ((n % 2 ^ 64 : Nat) : Int) else ((n % 2 ^ 64 : Nat) : Int) - 2 ^ 64

/-- json_value.cpp l.44-78 `get` -/
def Json.got : Json → Got Json
  | .null => .empty
  | .bool b => .scalar (.bool b)
  | .int n => .scalar (.int n)
  | .uint n => .scalar (.int (wrapSigned n))
  | .real r => .scalar (.real r)
  | .str s => .scalar (.str s)
  | .arr xs => .conf (.arr xs)
  | .obj ms => .conf (.obj ms)

/-- `basic_json::size`: 0 for null, 1 for a primitive value -/
def Json.size : Json → Nat
  | .null => 0
  | .arr xs => xs.length
  | .obj ms => ms.length
  | _ => 1

/-- the member that `find` of the library points to, with its distance from the beginning -/
def memberAt : Members → Str → Option (Nat × Json)
  | [], _ => none
  | (k, x) :: r, key => if k = key then some (0, x) else (memberAt r key).map (fun e => (e.1 + 1, e.2))

/-- json_config.cpp l.60-72 `do_find(name)` -/
def Json.findKey : Json → Str → Option (Nat × Got Json)
  | .obj ms, key => (memberAt ms key).map (fun e => (e.1, e.2.got))
  | _, _ => none

/-- l.74-87 `do_find(index)`; the iterator of a primitive value gives the value itself -/
def Json.findIndex : Json → Nat → Option (Str × Got Json)
  | .null, _ => none
  | .arr xs, i => (xs[i]?).map (fun x => ([], x.got))
  | .obj ms, i => (ms[i]?).map (fun e => (e.1, e.2.got))
  | j, i => if i < 1 then some ([], j.got) else none

/-- `get_().is_object()` -/
def Json.isObj : Json → Bool
  | .obj _ => true
  | _ => false
/-- `get_().is_array()` -/
def Json.isArr : Json → Bool
  | .arr _ => true
  | _ => false

/-- the class `json_config` (l.41-87) -/
def jsonConfig (ord : Bool) : Iface Json where
  size := Json.size
  assoc := Json.isObj
  multi _ := false
  order j := ord || j.isArr
  byIndex := Json.findIndex
  byKey := Json.findKey

end Verif.Config
