import Verif.Model.Backend
import Verif.Model.ConfigJson
import Verif.Model.ConfigYaml
import Verif.Model.ConfigXml
import Verif.Model.Ini
import Verif.Model.Cmd

/-!
# What configs say about themselves

`modules/config/yato/config/config_backend.h` l.260-278: `config_property` and its operators; `has_property` of `config.h` and of every backend in the repository.

A property is the number under the enumeration; `operator|` gives numbers that have no enumerator. `assert_valid_` (config_backend.h l.472-476) checks something in debug builds only and is left out.
-/
set_option autoImplicit false

namespace Verif.Config

/-- `config_property` (config_backend.h l.260-266) -/
abbrev Property := Nat
/-- l.263 -/
def Property.associative : Property := 0x1
/-- l.264 -/
def Property.multiAssociative : Property := 0x2 ||| Property.associative
/-- l.265 -/
def Property.keepsOrder : Property := 0x4
/-- `operator|` (l.268-272) -/
def Property.or (a b : Property) : Property := a ||| b
/-- `operator&` (l.274-278) -/
def Property.and (a b : Property) : Property := a &&& b

/-- `do_has_property` of the manual backend: manual_map.h l.63-71, manual_multimap.h l.63-72, manual_ordered_map.h l.74-83, manual_array.h l.64-72 -/
def Kind.has (k : Kind) (p : Property) : Bool :=
  match k with
  | .map => if p = Property.associative then true else false
  | .multimap => if p = Property.associative then true else if p = Property.multiAssociative then true else false
  | .ordered => if p = Property.associative then true else if p = Property.keepsOrder then true else false
  | .array => if p = Property.keepsOrder then true else false

/-- json_config.cpp l.47-58; `ord` is `std::is_same_v<njson, nlohmann::ordered_json>` -/
def Json.has (ord : Bool) (j : Json) (p : Property) : Bool :=
  if p = Property.associative then j.isObj else if p = Property.keepsOrder then ord || j.isArr else false

/-- `m_node.Type() == YAML::NodeType::Map` -/
def Yaml.isMap : Yaml → Bool
  | .map _ => true
  | _ => false
/-- `m_node.Type() == YAML::NodeType::Sequence` -/
def Yaml.isSeq : Yaml → Bool
  | .seq _ => true
  | _ => false
/-- yaml_config.cpp l.36-46 -/
def Yaml.has (y : Yaml) (p : Property) : Bool :=
  if p = Property.associative then y.isMap else if p = Property.keepsOrder then y.isSeq else false

/-- xml_config.cpp l.58-68 -/
def Xml.has (p : Property) : Bool :=
  if p = Property.associative then true else if p = Property.multiAssociative then true else if p = Property.keepsOrder then true else false

/-- ini_config.cpp l.107-116 -/
def iniHas (p : Property) : Bool := if p = Property.associative then true else if p = Property.multiAssociative then true else false

/-- cmd_config.h l.155-163 -/
def cmdHas (p : Property) : Bool := if p = Property.associative then true else false

/-- What a user sees of one config: `has_property` and the functions `size`, `find(index)`, `find(name)` of its backend (config_backend.h l.463-476, 542-565). `V` is what a value holds. -/
structure Shown (V : Type) where
  has : Property → Bool
  size : Nat
  byIndex : Nat → Option (Str × V)
  byKey : Str → Option (Nat × V)

/-- what is seen of a config through `config.h`: `has_property` (l.656-659), `size` (l.702-705); a null config has no property and no entry -/
def Shown.config {V : Type} : Option (Shown V) → Shown V
  | some s => s
  | none => ⟨fun _ => false, 0, fun _ => none, fun _ => none⟩

/-- `is_object` (config.h l.664-668), `is_associative` (l.673-677) -/
def Shown.isAssociative {V : Type} (s : Shown V) : Bool := s.has Property.associative
/-- `is_ordered` (config.h l.683-686) -/
def Shown.isOrdered {V : Type} (s : Shown V) : Bool := s.has Property.keepsOrder
/-- `is_multi_associative` (config.h l.692-695) -/
def Shown.isMulti {V : Type} (s : Shown V) : Bool := s.has Property.multiAssociative

/-- the manual backend (Model/Backend.lean) -/
def Node.shown (n : Node) : Shown (Got Node) := ⟨n.kind.has, manual.size n, manual.byIndex n, manual.byKey n⟩
/-- json_config.cpp l.41-87 -/
def Json.shown (ord : Bool) (j : Json) : Shown (Got Json) := ⟨j.has ord, (jsonConfig ord).size j, (jsonConfig ord).byIndex j, (jsonConfig ord).byKey j⟩
/-- yaml_config.cpp l.25-79 -/
def Yaml.shown (y : Yaml) : Shown (Got Yaml) := ⟨y.has, yamlConfig.size y, yamlConfig.byIndex y, yamlConfig.byKey y⟩
/-- xml_config.cpp l.53-90 -/
def Xml.shown (x : Xml) : Shown (Got Xml) := ⟨Xml.has, xmlConfig.size x, xmlConfig.byIndex x, xmlConfig.byKey x⟩
/-- ini_config.cpp l.33-116 -/
def iniShown (c : Ini.Cfg) : Shown Ini.Item := ⟨iniHas, c.size, c.findIndex, c.findKey⟩
/-- cmd_config.h l.125-163 -/
def cmdShown {R : Type} (c : Cmd.Cfg R) : Shown (Cmd.Entry R) := ⟨cmdHas, Cmd.size c, Cmd.findIndex c, Cmd.findKey c⟩

end Verif.Config
