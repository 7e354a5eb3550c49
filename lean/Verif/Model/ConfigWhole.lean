import Verif.Model.ConfigProps
import Verif.Model.ConfigTyped

/-!
# Model of reading configs as a whole, by paths and by indices

`modules/config/yato/config/config.h`: `value(index)`, `value(path)`, `cvt`, `object`, `flag`, `to_vector`, `to_map` and `to_multimap`.

* `read` is what `entry.value<T>()` gives for the value of an entry (l.313-341): `ok`, `error` for an empty optional, or `ub`. The functions on `Shown` are the same for every backend.
* For `to_vector`, `to_map` and `to_multimap`, `error` is an exception (`get()` of an empty optional throws, as does a config that is not associative). For the others it is an empty optional.
* Keys are compared as strings: the comparator of the map is `std::less<std::string>`. What the default argument of the template is, is in `lessCompiles`.
* `result.reserve` and memory are left out.
-/
set_option autoImplicit false

namespace Verif.Config

/-- `config::value<T>(idx)` (config.h l.744-749): the entry with the index (l.259-261), an entry without value gives an empty optional (l.336-338) -/
def readIndex {V α : Type} (read : V → Res α) (s : Shown V) (i : Nat) : Res α :=
  match s.byIndex i with
  | some (_, v) => read v
  | none => .error

/-- `config::value<T>(name)` for a single name (config.h l.730-737 with l.374-392) -/
def readKey {V α : Type} (read : V → Res α) (s : Shown V) (key : Str) : Res α :=
  match s.byKey key with
  | some (_, v) => read v
  | none => .error

/-- the loop of `to_vector` (config.h l.1184-1186) from an index, with the number of turns that are left -/
def vectorLoop {V α : Type} (read : V → Res α) (s : Shown V) : Nat → Nat → List α → Res (List α)
  | 0, _, acc => .ok acc
  | left + 1, i, acc => (readIndex read s i).bind fun x => vectorLoop read s left (i + 1) (acc ++ [x])

/-- `to_vector` (config.h l.1177-1188) -/
def toVector {V α : Type} (read : V → Res α) (s : Shown V) : Res (List α) := vectorLoop read s s.size 0 []

/-- `std::multimap::emplace`: after all the elements with keys that are not greater -/
def emplaceMulti {α : Type} : List (Str × α) → Str → α → List (Str × α)
  | [], key, v => [(key, v)]
  | (k, x) :: r, key, v => if strLt key k then (key, v) :: (k, x) :: r else (k, x) :: emplaceMulti r key v

/-- the loop of `to_map_impl_` (config.h l.1245-1248); `emplace` is the function of the map -/
def mapLoop {V α : Type} (emplace : List (Str × α) → Str → α → List (Str × α)) (read : V → Res α) (s : Shown V) : Nat → Nat → List (Str × α) → Res (List (Str × α))
  | 0, _, acc => .ok acc
  | left + 1, i, acc =>
    match s.byIndex i with
    | some (key, v) => (read v).bind fun x => mapLoop emplace read s left (i + 1) (emplace acc key x)
    | none => .error

/-- `to_map_impl_` (config.h l.1237-1250) -/
def toMapImpl {V α : Type} (emplace : List (Str × α) → Str → α → List (Str × α)) (read : V → Res α) (s : Shown V) : Res (List (Str × α)) :=
  if s.isAssociative then mapLoop emplace read s s.size 0 [] else .error

/-- `to_map` (config.h l.1193-1198) -/
def toMap {V α : Type} (read : V → Res α) (s : Shown V) : Res (List (Str × α)) := toMapImpl emplaceKey read s
/-- `to_multimap` (config.h l.1203-1208) -/
def toMultimap {V α : Type} (read : V → Res α) (s : Shown V) : Res (List (Str × α)) := toMapImpl emplaceMulti read s

/-! ## Configs made in the program -/

/-- a config of the manual backend, with its values as they are stored -/
def Node.seen (n : Node) : Shown Value := ⟨n.kind.has, n.size, n.findIndex, n.findKey⟩

/-- `cvt<T>()` (config.h l.811-832 with l.222-246): a config is given to the converter of the type, a converter of scalars does not take it -/
def cvt (ops : ScalarText.Real Nat) (t : CTy) (c : Config) : Res t.Val :=
  match c with
  | some n => load ops t n.toValue
  | none => .error

/-- `value<T>(path)` (config.h l.730-737) -/
def readPath (ops : ScalarText.Real Nat) (t : CTy) (c : Config) (path : Str) : Res t.Val :=
  if Tokens.isRoot '.' path then cvt ops t c
  else
    match at_ c path with
    | some (_, v) => load ops t v
    | none => .error

/-- `object(path)`, `array(path)` (config.h l.876-879, l.896-899); `cvt<config>()` is the config itself -/
def objectPath (c : Config) (path : Str) : Config :=
  if Tokens.isRoot '.' path then c
  else
    match at_ c path with
    | some (_, v) => v.asConfig
    | none => none

/-- `get_or` of an optional -/
def Res.getOr {α : Type} (r : Res α) (d : α) : Res α :=
  match r with
  | .error => .ok d
  | r => r

/-- `flag(path)` (config.h l.916-919) -/
def flagPath (ops : ScalarText.Real Nat) (c : Config) (path : Str) : Res Bool := (readPath ops .bool c path).getOr false
/-- `flag(idx)` (config.h l.926-929) -/
def flagIndex (ops : ScalarText.Real Nat) (n : Node) (i : Nat) : Res Bool := (readIndex (load ops .bool) n.seen i).getOr false

/-- Whether `to_map<T>()` and `to_multimap<T>()` compile with the default comparator `std::less<Ty_>` (config.h l.1193, l.1203), which is to compare keys, that are strings: only a type that strings
convert to. Of the types here these are strings, and optionals of them. -/
def lessCompiles : CTy → Bool
  | .str => true
  | .opt t => lessCompiles t
  | _ => false

end Verif.Config
