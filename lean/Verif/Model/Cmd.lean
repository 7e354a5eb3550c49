import Verif.Model.ScalarText

/-!
# Model of command line configs and of the dispatcher

`/repo/modules/config/yato/config/cmd/cmd.cpp`, `cmd/private/cmd_config.h`, `cmd/private/cmd_value.h`.

The parser itself is TCLAP 1.2.5 (cmake/dependency.tclap.cmake), which is not part of /repo. It is a parameter: a function from the arguments that were added, and the words of the command line, to what was found: for each
name the text that was given, or none. On an error, and for `--help` and `--version`, `TCLAP::CmdLine::parse` calls `exit`, since `setExceptionHandling(false)` is never called: the program ends. That is an assumption on
TCLAP, as is that `CmdLine::add` throws if the name or the (not empty) flag is taken, by another argument or by `help`, `version` and `ignore_rest` with the flags `h`, `v` and `-`.

Descriptions and what is printed are not modelled. A handler of the dispatcher is a number and gives an integer for a config.
-/
set_option autoImplicit false

namespace Verif.Cmd

open Verif.Config (Str strLt)
open Verif.ScalarText (Ty Stored Real Out decodeInt)

/-- `argument_type` (cmd.h l.24-41) -/
inductive Kind | positional | required | optional
deriving DecidableEq, Repr

/-- `cmd_value` (cmd_value.h): type and default; the default is `m_default`, an empty variant is `none`. -/
structure Spec (R : Type) where
  kind : Kind
  ty : Ty
  flag : Str
  name : Str
  dflt : Option (Stored R)

/-- the constructor of `cmd_value` (cmd_value.h l.30-58): only optional arguments have a default; a boolean is always optional, and false -/
def mkSpec {R : Type} (kind : Kind) (ty : Ty) (flag name : Str) (dflt : Option (Stored R)) : Spec R :=
  match ty with
  | .boolean => ⟨.optional, .boolean, flag, name, some (.boolean false)⟩
  | t =>
    match kind with
    | .optional => ⟨.optional, t, flag, name, dflt⟩
    | k => ⟨k, t, flag, name, none⟩

/-- `m_args[name] = …` of a `std::map` -/
def assign {α : Type} (m : List (Str × α)) (key : Str) (v : α) : List (Str × α) :=
  match m with
  | [] => [(key, v)]
  | (k, x) :: r => if strLt k key then (k, x) :: assign r key v else if strLt key k then (key, v) :: (k, x) :: r else (k, v) :: r

/-- `cmd_config` before parsing: the list of TCLAP in the order of adding, and `m_args` -/
structure Builder (R : Type) where
  list : List (Spec R)
  args : List (Str × Spec R)

def builtin : List (Str × Str) := [(['-'], "ignore_rest".toList), (['v'], "version".toList), (['h'], "help".toList)]

/-- `Arg::operator==` of TCLAP -/
def clash (flag name flag' name' : Str) : Bool := (!flag.isEmpty && flag == flag') || name == name'

/-- outcomes of an operation -/
inductive Res (α : Type)
  | ok (a : α)
  | throws
  | ub
  /-- the program ends -/
  | exits (code : Int)

/-- `cmd_builder`: null after `parse` -/
abbrev Handle (R : Type) := Option (Builder R)

/-- the constructors (cmd.cpp l.27-35) -/
def Handle.new {R : Type} : Handle R := some ⟨[], []⟩

/-- `integer`, `floating`, `string`, `boolean` (cmd.cpp l.43-97) with `cmd_config::add` (cmd_config.h l.98-102) -/
def Handle.add {R : Type} (h : Handle R) (s : Spec R) : Res (Handle R) :=
  match h with
  | none => .throws
  | some b =>
    if b.list.any (fun x => clash s.flag s.name x.flag x.name) || builtin.any (fun x => clash s.flag s.name x.1 x.2) then .throws
    else .ok (some ⟨b.list ++ [s], assign b.args s.name s⟩)

/-- `set_ostream` (cmd.cpp l.99-108): no check -/
def Handle.setOstream {R : Type} (h : Handle R) : Res (Handle R) :=
  match h with
  | none => .ub
  | some b => .ok (some b)

/-- what TCLAP finds -/
inductive Found
  | exit (code : Int)
  | parsed (vals : Str → Option Str)

abbrev Tclap (R : Type) := List (Spec R) → List Str → Found

/-- a value of the config: its declaration, and the text that was given -/
abbrev Entry (R : Type) := Spec R × Option Str

abbrev Cfg (R : Type) := List (Str × Entry R)

/-- `valid` (cmd_value.h l.99-102) -/
def valid {R : Type} (e : Entry R) : Bool := e.2.isSome || e.1.dflt.isSome

/-- `prune_` (cmd_config.h l.165-174) -/
def prune {R : Type} (args : List (Str × Spec R)) (vals : Str → Option Str) : Cfg R := (args.map fun a => (a.1, (a.2, vals a.2.name))).filter fun a => valid a.2

/-- `parse` (cmd.cpp l.110-143) -/
def Handle.parse {R : Type} (T : Tclap R) (h : Handle R) (words : List Str) : Res (Handle R × Cfg R) :=
  match h with
  | none => .throws
  | some b =>
    match T b.list words with
    | .exit c => .exits c
    | .parsed vals => .ok (none, prune b.args vals)

/-- `do_size` (cmd_config.h l.125-128) -/
def size {R : Type} (c : Cfg R) : Nat := c.length

/-- `do_find(index)` (l.130-138) -/
def findIndex {R : Type} (c : Cfg R) (i : Nat) : Option (Str × Entry R) := if i < c.length then c[i]? else none

/-- `do_find(name)` (l.140-148): position and value -/
def findKey {R : Type} (c : Cfg R) (name : Str) : Option (Nat × Entry R) :=
  match c with
  | [] => none
  | (k, e) :: r => if k = name then some (0, e) else (findKey r name).map fun p => (p.1 + 1, p.2)

/-- `cmd_value::get` (cmd_value.h l.67-94); undefined behaviour of the conversion is `none`. A switch that was given is true. -/
def value {R : Type} (ops : Real R) (e : Entry R) : Option (Stored R) :=
  match e.2 with
  | some text =>
    match e.1.ty with
    | .integer => match decodeInt text with | .ub => none | .fail => some .empty | .ok v => some (.integer v)
    | .real => match ops.parse text with | .ub => none | .fail => some .empty | .ok v => some (.real v)
    | .string => some (.string text)
    | .boolean => some (.boolean true)
  | none => some (e.1.dflt.getD .empty)

/-! ## The dispatcher -/

/-- `cmd_dispatcher_impl` (cmd.cpp l.147-152): handler and builder of each alternative, whether there is a stream, and the error code -/
structure Disp (R : Type) where
  alts : List (Str × (Nat × Handle R))
  stream : Bool
  code : Int

def Disp.new {R : Type} : Disp R := ⟨[], true, 1⟩

/-- `add_alternative` (l.248-253): `insert_or_assign` -/
def Disp.add {R : Type} (d : Disp R) (key : Str) (handler : Nat) (cmd : Handle R) : Disp R := { d with alts := assign d.alts key (handler, cmd) }

/-- `alternatives.find` -/
def Disp.find {R : Type} (d : Disp R) (key : Str) : Option (Nat × Handle R) := (d.alts.find? fun a => a.1 == key).map Prod.snd

/-- `select_the_rest` (l.173-198) -/
def rest (words : List Str) : List Str := words.take 1 ++ words.drop 2

/-- `handle_error` (l.200-209) -/
def Disp.error {R : Type} (d : Disp R) : Res Int := if d.stream then .ok d.code else .throws

/-- `parse_impl` (l.211-231): the result, the calls of handlers, and the new state -/
def Disp.parse {R : Type} (T : Tclap R) (H : Nat → Cfg R → Int) (d : Disp R) (words : List Str) : Res Int × List (Nat × Cfg R) × Disp R :=
  match words[1]? with
  | none => (d.error, [], d)
  | some key =>
    match d.find key with
    | none => (d.error, [], d)
    | some (h, cmd) =>
      match cmd.setOstream with
      | .ok cmd =>
        match cmd.parse T (rest words) with
        | .ok (cmd', cfg) => (.ok (H h cfg), [(h, cfg)], { d with alts := assign d.alts key (h, cmd') })
        | .throws => (.throws, [], d)
        | .ub => (.ub, [], d)
        | .exits c => (.exits c, [], d)
      | .throws => (.throws, [], d)
      | .ub => (.ub, [], d)
      | .exits c => (.exits c, [], d)

end Verif.Cmd
