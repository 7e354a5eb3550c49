import Verif.Model.Backend
import Verif.Model.ScalarText

/-!
# Model of reading and writing XML configs

`modules/config/yato/config/xml/xml.cpp`, `xml/private/xml_config.cpp`, `xml/private/xml_value.cpp`.

* The library tinyxml2 is trusted: an `Xml` is an element with its name, its attribute `value`, the text at its beginning and its child elements; other attributes, comments and texts are left out.
  Parsing a text and printing a document are parameters. Integers are encoded in decimal, booleans as `true` and `false`; the encoding of reals is a parameter.
* Strings are passed to the library by `c_str()`, so that they end at a zero byte.
-/
set_option autoImplicit false

namespace Verif.Config

/-- an element of tinyxml2 -/
inductive Xml | elem (name : Str) (value text : Option Str) (kids : List Xml)

def Xml.name : Xml → Str
  | .elem n _ _ _ => n
def Xml.value : Xml → Option Str
  | .elem _ v _ _ => v
def Xml.text : Xml → Option Str
  | .elem _ _ t _ => t
def Xml.kids : Xml → List Xml
  | .elem _ _ _ ks => ks

/-- what the library sees of `s.c_str()` -/
def cstr (s : Str) : Str := s.takeWhile (fun c => decide (c.toNat ≠ 0))

/-- `to_xml_key_` (xml.cpp l.54-58) -/
def xmlKey (assoc : Bool) (key : Str) : Str := if assoc then cstr key else ['i']

/-- the text of a scalar (l.81-93) -/
def scalarXml (realText : Nat → Str) : Scalar → Str
  | .int n => ScalarText.encodeInt n
  | .real r => realText r
  | .bool b => if b then ['t', 'r', 'u', 'e'] else ['f', 'a', 'l', 's', 'e']
  | .str s => cstr s

mutual
/-- xml.cpp l.61-72 and l.79-105: the element of an entry, with its name -/
def valueXml (realText : Nat → Str) (textValue : Bool) (name : Str) : Value → Xml
  | .hole => .elem name none none []
  | .scalar s => if textValue then .elem name none (some (scalarXml realText s)) [] else .elem name (some (scalarXml realText s)) none []
  | .null => .elem name none none []
  | .conf k es => .elem name none none (entriesXml realText textValue k.assoc es)
/-- the loop (l.79) -/
def entriesXml (realText : Nat → Str) (textValue : Bool) (assoc : Bool) : Entries → List Xml
  | [] => []
  | (key, v) :: r => valueXml realText textValue (xmlKey assoc key) v :: entriesXml realText textValue assoc r
end

/-- `fill_xml_element_` (l.75-107) with the root element of `write` (l.112-114) -/
def toXml (realText : Nat → Str) (textValue : Bool) (root : Str) (c : Config) : Xml :=
  match c with
  | none => .elem (cstr root) none none []
  | some n => valueXml realText textValue (cstr root) (.conf n.kind n.entries)

/-- `write` (l.109-118) -/
def writeXml (realText : Nat → Str) (print : Xml → Str) (textValue : Bool) (root : Str) (c : Config) : Str := print (toXml realText textValue root c)

/-- a parsed document: an error, or the root element, which may be missing -/
inductive XmlDoc | error | root (e : Option Xml)

/-- `read` and `build_xml_config` (l.19-42): `none` for an exception; the config has the root element -/
def readXml (parse : Str → XmlDoc) (text : Str) : Option (Option Xml) :=
  match parse text with
  | .error => none
  | .root e => some e

/-- xml_value.cpp l.15-63: an element with children is a config; another one is a text if it has the attribute or a text, and else a config -/
def Xml.got (x : Xml) : Got Xml :=
  if x.kids.isEmpty then
    match x.value with
    | some t => .scalar (.str t)
    | none =>
      match x.text with
      | some t => .scalar (.str t)
      | none => .conf x
  else .conf x

/-- xml_config.cpp l.80-90: the loop over the children -/
def kidAt : List Xml → Str → Nat → Option (Nat × Got Xml)
  | [], _, _ => none
  | x :: r, key, i => if x.name = key then some (i, x.got) else kidAt r key (i + 1)

/-- the class `xml_config` (l.53-90) with an element -/
def xmlConfig : Iface Xml where
  size x := x.kids.length
  assoc _ := true
  multi _ := true
  order _ := true
  byIndex x i := (x.kids[i]?).map (fun k => (k.name, k.got))
  byKey x key := kidAt x.kids key 0

/-- `do_find(name)` (l.80-90) of a config whose document has no root element dereferences a null pointer -/
def xmlFind (root : Option Xml) (key : Str) : Res (Option (Nat × Got Xml)) :=
  match root with
  | none => .ub
  | some x => .ok (xmlConfig.byKey x key)

end Verif.Config
