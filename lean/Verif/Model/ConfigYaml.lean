import Verif.Model.Backend
import Verif.Model.ScalarText

/-!
# Model of reading and writing YAML configs

`modules/config/yato/config/yaml/yaml.cpp`, `yaml/private/yaml_config.cpp`, `yaml/private/yaml_value.cpp`.

* The library yaml-cpp is trusted: `Yaml` is its tree, where scalars are texts; parsing a text and printing a tree are parameters. Assigning to `node[key]` replaces the value of the first pair
  with this key or appends a pair. Integers are encoded in decimal, booleans as `true` and `false`; the encoding of reals is a parameter.
* Keys that are not scalars, aliases and undefined nodes are not modelled.
-/
set_option autoImplicit false

namespace Verif.Config

/-- a node of yaml-cpp; the pairs of a map in the order of iteration -/
inductive Yaml
  | null
  | scalar (s : Str)
  | seq (xs : List Yaml)
  | map (ms : List (Str × Yaml))

/-- `node[key] = val` (yaml.cpp l.52) -/
def yamlAssign : List (Str × Yaml) → Str → Yaml → List (Str × Yaml)
  | [], key, v => [(key, v)]
  | (k, x) :: r, key, v => if k = key then (k, v) :: r else (k, x) :: yamlAssign r key v

/-- `YAML::convert<T>::encode` of what l.69-78 pass -/
def scalarYaml (realText : Nat → Str) : Scalar → Str
  | .int n => ScalarText.encodeInt n
  | .real r => realText r
  | .bool b => if b then ['t', 'r', 'u', 'e'] else ['f', 'a', 'l', 's', 'e']
  | .str s => s

mutual
/-- yaml.cpp l.66-86: the value put for an entry -/
def valueYaml (realText : Nat → Str) : Value → Yaml
  | .hole => .null
  | .scalar s => .scalar (scalarYaml realText s)
  | .null => .null
  | .conf k es => if k.assoc then .map (objectYaml realText es []) else .seq (arrayYaml realText es)
/-- the loop for an object -/
def objectYaml (realText : Nat → Str) : Entries → List (Str × Yaml) → List (Str × Yaml)
  | [], ms => ms
  | (key, v) :: r, ms => objectYaml realText r (yamlAssign ms key (valueYaml realText v))
/-- the loop for an array -/
def arrayYaml (realText : Nat → Str) : Entries → List Yaml
  | [] => []
  | (_, v) :: r => valueYaml realText v :: arrayYaml realText r
end

/-- `to_yaml_` (l.59-90) -/
def toYaml (realText : Nat → Str) (c : Config) : Yaml :=
  match c with
  | none => .null
  | some n => valueYaml realText (.conf n.kind n.entries)

/-- `write` (l.92-98) -/
def writeYaml (realText : Nat → Str) (emit : Yaml → Str) (c : Config) : Str := emit (toYaml realText c)

/-- `read_yaml_` (l.18-27): the config is null unless the root is a map or a sequence -/
def readYaml (load : Str → Yaml) (text : Str) : Option Yaml :=
  match load text with
  | .map ms => some (.map ms)
  | .seq xs => some (.seq xs)
  | _ => none

/-- yaml_value.cpp l.31-63 `get` -/
def Yaml.got : Yaml → Got Yaml
  | .null => .conf (.map [])
  | .scalar s => .scalar (.str s)
  | .seq xs => .conf (.seq xs)
  | .map ms => .conf (.map ms)

/-- yaml_config.cpp l.25-34 `do_size` -/
def Yaml.size : Yaml → Nat
  | .seq xs => xs.length
  | .map ms => ms.length
  | _ => 0

/-- the pair that `std::find_if` finds (l.73), with its distance from the beginning -/
def pairAt : List (Str × Yaml) → Str → Option (Nat × Yaml)
  | [], _ => none
  | (k, x) :: r, key => if k = key then some (0, x) else (pairAt r key).map (fun e => (e.1 + 1, e.2))

/-- l.68-79 `do_find(name)` -/
def Yaml.findKey : Yaml → Str → Option (Nat × Got Yaml)
  | .map ms, key => (pairAt ms key).map (fun e => (e.1, e.2.got))
  | _, _ => none

/-- l.48-66 `do_find(index)` -/
def Yaml.findIndex : Yaml → Nat → Option (Str × Got Yaml)
  | .seq xs, i => (xs[i]?).map (fun x => ([], x.got))
  | .map ms, i => (ms[i]?).map (fun e => (e.1, e.2.got))
  | _, _ => none

/-- the class `yaml_config` (l.25-79) -/
def yamlConfig : Iface Yaml where
  size := Yaml.size
  assoc y := match y with | .map _ => true | _ => false
  multi _ := false
  order y := match y with | .seq _ => true | _ => false
  byIndex := Yaml.findIndex
  byKey := Yaml.findKey

end Verif.Config
