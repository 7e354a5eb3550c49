import Verif.Model.Config

/-!
# Model of configs read from ini

`modules/config/yato/config/ini/private/ini_parser.h`, `ini_parser.cpp`, `ini_config.cpp`.

* The parsing itself is done by the library inih, which is not part of the repository. The model begins with its calls of `on_value_parsed_`.
* A `std::multimap` or `std::map` is the list of its entries in their order. `multimap::find` gives the first of the entries with an equal key, as `lower_bound` does (the standard leaves open which one).
-/
set_option autoImplicit false

namespace Verif.Ini

open Verif.Config (Str strLt)

/-- `ini_parser::kv_multimap` (ini_parser.h l.22) -/
abbrev Kv := List (Str × Str)

/-- `multimap::emplace`: after the entries with an equal key -/
def Kv.emplace (m : Kv) (name value : Str) : Kv :=
  match m with
  | [] => [(name, value)]
  | e :: r => if strLt name e.1 then (name, value) :: e :: r else e :: Kv.emplace r name value

/-- `ini_parser` (ini_parser.h l.20-34) -/
structure Parser where
  globals : Kv
  sections : List (Str × Kv)

/-- `sections[section].emplace(name, value)` (ini_parser.cpp l.24): `operator[]` inserts an empty multimap if there is none -/
def putSection (ss : List (Str × Kv)) (section_ name value : Str) : List (Str × Kv) :=
  match ss with
  | [] => [(section_, Kv.emplace [] name value)]
  | (s, m) :: r =>
    if strLt s section_ then (s, m) :: putSection r section_ name value
    else if strLt section_ s then (section_, Kv.emplace [] name value) :: (s, m) :: r
    else (s, m.emplace name value) :: r

/-- A call of `on_value_parsed_`; a null name or value is `none` (inih gives a null value for a name without one, if configured so). -/
structure Event where
  section_ : Str
  name : Option Str
  value : Option Str
deriving DecidableEq, Repr

/-- `on_value_parsed_` (ini_parser.cpp l.16-30) -/
def Parser.event (p : Parser) (e : Event) : Parser :=
  match e.name, e.value with
  | some n, some v => if e.section_ ≠ [] then { p with sections := putSection p.sections e.section_ n v } else { p with globals := p.globals.emplace n v }
  | _, _ => p

/-- `parse_c_string`, `parse_file` (l.33-49) with the calls that inih makes -/
def parse (es : List Event) : Parser := es.foldl Parser.event ⟨[], []⟩

/-- `ini_config` (ini_config.h): a parser, the values, and whether it is the global one -/
structure Cfg where
  parser : Parser
  values : Kv
  global : Bool

/-- the constructors (ini_config.cpp l.19-29) -/
def Parser.root (p : Parser) : Cfg := ⟨p, p.globals, true⟩
def Parser.nested (p : Parser) (m : Kv) : Cfg := ⟨p, m, false⟩

/-- the values that an `ini_section` or an `ini_value` holds -/
inductive Item | section_ (m : Kv) | value (s : Str)
deriving DecidableEq, Repr

/-- `do_size` (l.33-41) -/
def Cfg.size (c : Cfg) : Nat := if c.global then c.parser.sections.length + c.values.length else c.values.length

/-- `do_enumerate_keys` (l.43-57) -/
def Cfg.keys (c : Cfg) : List Str := (if c.global then c.parser.sections.map (·.1) else []) ++ c.values.map (·.1)

/-- `do_find(size_t)` (l.59-76) -/
def Cfg.findIndex (c : Cfg) (i : Nat) : Option (Str × Item) :=
  let count := if c.global then c.parser.sections.length else 0
  if i < count then
    match c.parser.sections[i]? with
    | some (s, m) => some (s, .section_ m)
    | none => none
  else if i < count + c.values.length then
    match c.values[i - count]? with
    | some (n, v) => some (n, .value v)
    | none => none
  else none

/-- `find` of a map or multimap: the position of the first entry with the key -/
def position {α : Type} (name : Str) : List (Str × α) → Option (Nat × α)
  | [] => none
  | (k, v) :: r => if k = name then some (0, v) else (position name r).map (fun x => (x.1 + 1, x.2))

/-- `do_find(const std::string&)` (l.78-100) -/
def Cfg.findKey (c : Cfg) (name : Str) : Option (Nat × Item) :=
  let value :=
    match position name c.values with
    | some (i, v) => some ((if c.global then c.parser.sections.length else 0) + i, .value v)
    | none => none
  if c.global then
    match position name c.parser.sections with
    | some (i, m) => some (i, .section_ m)
    | none => value
  else value

end Verif.Ini
