/-!
Model of who keeps what alive in configs: `/repo/modules/config/yato/config/config_backend.h`, `config.h`, and the backends
`json/private`, `xml/private`, `yaml/private`, `ini/private` and `private/manual_*.h`.

The heap holds objects owned through `std::shared_ptr` with their reference counts, and the value objects that `do_find` of most
backends allocates with `new`, with the count 1 until `do_release` deletes them.  Using an object whose count is zero is undefined
behaviour.

Simplifications:
 * A parsed document is a tree; it does not change.  A position in it is the list of the indices that lead there.
 * Three sorts of backends: `back` looks into a document and shares its ownership, with values that do the same (json, xml, yaml: there
   the shared node of the YAML library is the document) ; with `eager` documents the values hold a copy of the text or a backend of
   the section (ini); `resident` keeps its values itself, which may own nested backends (the manual backends; the values of command
   line configs are kept in the same way and hold no backends).
 * Elements of arrays have the empty key.  A path never contains an empty name (path.h l.54, 81), so no search finds them by name.
 * A null in YAML, which reads as an empty config with a document of its own (yaml_value.cpp l.47-52), is not modelled; an empty
   value here is a null in JSON.  A document whose root is not an object or an array is not modelled.
 * Values are whole numbers, which stand for all scalars, nested configs, or empty.  Conversions, and the order of keys of a resident
   config, are in `Model/Config.lean` and `Model/ConfigTyped.lean`.
 * Single thread.  No allocation fails.
 * Every variable (a `config` or a `config_entry`) has a number; it ends when it is dropped.  An iterator holds what a `config` holds
   and an index (config.h l.597-599); dereferencing is `at` with that index (l.423-427).
 * The index and the key of an entry that is null are not modelled.
-/
set_option autoImplicit false

namespace Verif.Lifetimes

inductive Tree where
  | leaf (n : Int)
  | nil
  | node (kids : List (String × Tree))

/-- What is at a position of a document. -/
def sub : Tree → List Nat → Option Tree
  | t, [] => some t
  | .node kids, k :: ks =>
    match kids[k]? with
    | some e => sub e.2 ks
    | none => none
  | _, _ :: _ => none

/-- A value of a resident config (private/manual_value.h l.55): a scalar, or the pointer to a config. -/
inductive Item where
  | scalar (n : Int)
  | conf (b : Nat)
deriving DecidableEq, Repr

inductive Body where
  /-- a parsed document -/
  | doc (eager : Bool) (t : Tree)
  /-- json_config.h l.64-65, xml_config.h l.50-52, yaml_config.h l.47, ini_config.h l.58-60: the document and the place in it -/
  | back (d : Nat) (pos : List Nat)
  /-- json_value.h l.53-54, xml_value.h l.39-41, yaml_value.h l.37: a value that looks into the document -/
  | value (d : Nat) (pos : List Nat)
  /-- ini_value.h l.45: a value that holds a copy -/
  | copied (t : Tree)
  /-- ini_section.h l.40: a value that holds a backend -/
  | section (b : Nat)
  /-- manual_map.h l.99, manual_array.h l.94: the values and their keys -/
  | resident (items : List (String × Item))

/-- The objects a value of a resident config shares. -/
def Item.outs : Item → List Nat
  | .conf b => [b]
  | _ => []

/-- The objects an object shares. -/
def Body.outs : Body → List Nat
  | .doc _ _ => []
  | .back d _ => [d]
  | .value d _ => [d]
  | .copied _ => []
  | .section b => [b]
  | .resident items => items.flatMap fun e => e.2.outs

structure Obj where
  cnt : Nat
  body : Body

abbrev Heap := List Obj

/-- Outcome of an operation. -/
inductive Out (β : Type) where
  | ok (b : β)
  /-- undefined behaviour -/
  | ub
  /-- the program names a variable that does not exist or is of another type -/
  | reject

def Out.bind {β γ : Type} (x : Out β) (f : β → Out γ) : Out γ :=
  match x with
  | .ok b => f b
  | .ub => .ub
  | .reject => .reject

/-- An object that is alive. -/
def obj (h : Heap) (i : Nat) : Out Body :=
  match h[i]? with
  | some o => if o.cnt = 0 then .ub else .ok o.body
  | none => .ub

/-- Copying a `std::shared_ptr`. -/
def inc (i : Nat) (h : Heap) : Out Heap :=
  match h[i]? with
  | some o => if o.cnt = 0 then .ub else .ok (h.set i { o with cnt := o.cnt + 1 })
  | none => .ub

def incAll : List Nat → Heap → Out Heap
  | [], h => .ok h
  | i :: is, h => (inc i h).bind fun h => incAll is h

/-- Destroying `std::shared_ptr`s one after the other; the last owner destroys the object, and with it the pointers it holds. -/
def dropLoop : Nat → List Nat → Heap → Out Heap
  | _, [], h => .ok h
  | 0, _ :: _, _ => .ub
  | f + 1, i :: is, h =>
    match h[i]? with
    | none => .ub
    | some o =>
      match o.cnt with
      | 0 => .ub
      | 1 => dropLoop f (o.body.outs ++ is) (h.set i { o with cnt := 0 })
      | c + 2 => dropLoop f is (h.set i { o with cnt := c + 1 })

/-- The number of pointers there are: each step of `dropLoop` destroys one of them. -/
def total (h : Heap) : Nat := (h.map Obj.cnt).sum

def drop (is : List Nat) (h : Heap) : Out Heap := dropLoop (total h) is h

/-- `new` or `std::make_shared`: the object copies the pointers it is given. -/
def alloc (b : Body) (h : Heap) : Out (Heap × Nat) :=
  (incAll b.outs h).bind fun h => .ok (h ++ [⟨1, b⟩], h.length)

/-- `config_value*`: an object on the heap, or a value of the resident config it comes from. -/
inductive Handle where
  | heap (i : Nat)
  | inside (k : Nat)
deriving DecidableEq, Repr

/-- How an entry is looked for. -/
inductive Key where
  | index (k : Nat)
  | name (s : String)
deriving DecidableEq, Repr

/-- The index of the entry in a list with keys, if there is one. -/
def place {β : Type} (kids : List (String × β)) : Key → Option Nat
  | .index k => if k < kids.length then some k else none
  | .name s => if s = "" then none else kids.findIdx? fun e => e.1 == s

/-- The entries a document backend shows: those of an object or array; anything else has none. -/
def kidsOf : Option Tree → List (String × Tree)
  | some (.node kids) => kids
  | _ => []

/-- The values of ini configs: ini_config.cpp l.63-74, 82-97. -/
def eagerValue (d : Nat) (pos : List Nat) (t : Tree) (h : Heap) : Out (Heap × Nat) :=
  match t with
  | .node _ => (alloc (.back d pos) h).bind fun (h, b) =>
      (alloc (.section b) h).bind fun (h, i) =>
        -- the pointer has been moved into the section
        (drop [b] h).bind fun h => .ok (h, i)
  | t => alloc (.copied t) h

/-- `do_find`: json_config.cpp l.60-87, xml_config.cpp l.70-90, yaml_config.cpp l.48-79, ini_config.cpp l.59-100, manual_array.h l.74-86,
manual_map.h l.73-91.  The index, the key and the value. -/
def find (b : Nat) (key : Key) (h : Heap) : Out (Heap × Option (Nat × String × Handle)) :=
  (obj h b).bind fun
    | .back d pos => (obj h d).bind fun
        | .doc eager t =>
          let kids := kidsOf (sub t pos)
          match place kids key with
          | none => .ok (h, none)
          | some k =>
            match kids[k]? with
            | none => .ok (h, none)
            | some e =>
              (if eager then eagerValue d (pos ++ [k]) e.2 h else alloc (.value d (pos ++ [k])) h).bind fun (h, i) =>
                .ok (h, some (k, e.1, .heap i))
        | _ => .ub
    | .resident items =>
      match place items key with
      | none => .ok (h, none)
      | some k =>
        match items[k]? with
        | none => .ok (h, none)
        | some e => .ok (h, some (k, e.1, .inside k))
    | _ => .ub

/-- `do_release` of the backend `b`: json_config.cpp l.89-94, xml_config.cpp l.92-95, yaml_config.cpp l.81-84, ini_config.cpp l.102-105 delete
the value; manual_array.h l.88-91, manual_map.h l.93-96 do nothing. -/
def release (b : Nat) (v : Handle) (h : Heap) : Out Heap :=
  (obj h b).bind fun _ =>
    match v with
    | .heap i => drop [i] h
    | .inside _ => .ok h

/-- What `config_value::get` gives: a backend pointer is a new owner. -/
inductive Got where
  | empty
  | scalar (n : Int)
  | conf (b : Nat)

/-- `get()`: json_value.cpp l.44-78, xml_value.cpp l.41-63, yaml_value.cpp l.31-61, ini_section.cpp l.26-29, ini_value.h l.39-42, manual_value.h
l.49-52. -/
def getValue (b : Nat) (v : Handle) (h : Heap) : Out (Heap × Got) :=
  match v with
  | .heap i => (obj h i).bind fun
      | .value d pos => (obj h d).bind fun
          | .doc _ t =>
            match sub t pos with
            | some (.leaf n) => .ok (h, .scalar n)
            | some (.node _) => (alloc (.back d pos) h).bind fun (h, b) => .ok (h, .conf b)
            | _ => .ok (h, .empty)
          | _ => .ub
      | .copied (.leaf n) => .ok (h, .scalar n)
      | .copied _ => .ok (h, .empty)
      | .section b => (inc b h).bind fun h => .ok (h, .conf b)
      | _ => .ub
  | .inside k => (obj h b).bind fun
      | .resident items =>
        match items[k]? with
        | some (_, .scalar n) => .ok (h, .scalar n)
        | some (_, .conf c) => (inc c h).bind fun h => .ok (h, .conf c)
        | none => .ub
      | _ => .ub

/-- config_backend.h l.331-444 `find_result`, the only member of `config_entry` (config.h l.394). -/
structure Entry where
  parent : Option Nat
  idx : Nat
  key : String
  val : Option Handle

def Entry.null : Entry := ⟨none, 0, "", none⟩

/-- config_backend.h l.337-365: the constructors take over an owner of the backend. -/
def makeEntry (b : Nat) (key : Key) (h : Heap) : Out (Heap × Entry) :=
  (find b key h).bind fun (h, r) =>
    match r with
    | some (k, s, v) => .ok (h, ⟨some b, k, s, some v⟩)
    | none => .ok (h, ⟨some b, 0, "", none⟩)

/-- config_backend.h l.378-383: the destructor, and then that of the pointer to the backend. -/
def dropEntry (e : Entry) (h : Heap) : Out Heap :=
  match e.parent, e.val with
  | some b, some v => (release b v h).bind fun h => drop [b] h
  | some b, none => drop [b] h
  | none, some _ => .ub
  | none, none => .ok h

/-- config_backend.h l.369-376: what is left of an entry that was moved from. -/
def Entry.moved (e : Entry) : Entry := { e with parent := none, key := "", val := none }

/-- config_backend.h l.387-399: the move assignment, to `e` from another entry: what happens to the heap. -/
def giveUp (e : Entry) (h : Heap) : Out Heap :=
  (match e.parent, e.val with
    | some b, some v => release b v h
    | none, some _ => .ub
    | _, none => .ok h).bind fun h =>
  match e.parent with
  | some b => drop [b] h
  | none => .ok h

/-- config_backend.h l.528-535 `value_as<backend_ptr_t>(name)`: the nested config, with a new owner. -/
def valueAs (b : Nat) (s : String) (h : Heap) : Out (Heap × Option Nat) :=
  -- l.490-494: the entry gets an owner from `shared_from_this`
  (inc b h).bind fun h => (makeEntry b (.name s) h).bind fun (h, e) =>
    match e.val with
    | none => (dropEntry e h).bind fun h => .ok (h, none)
    | some v => (getValue b v h).bind fun (h, g) => (dropEntry e h).bind fun h =>
      match g with
      | .conf c => .ok (h, some c)
      | _ => .ok (h, none)

/-- config.h l.374-392 `resolve_path_`; `b` is the parameter `backend`, an owner of its own. -/
def resolve : List String → Option Nat → Heap → Out (Heap × Entry)
  | [], some b, h => (drop [b] h).bind fun h => .ok (h, .null)
  | _, none, h => .ok (h, .null)
  | [s], some b, h =>
    (inc b h).bind fun h => (makeEntry b (.name s) h).bind fun (h, e) => (drop [b] h).bind fun h => .ok (h, e)
  | s :: ss, some b, h =>
    (valueAs b s h).bind fun (h, c) => (drop [b] h).bind fun h => resolve ss c h

/-- A variable. -/
inductive Slot where
  | dead
  | conf (b : Option Nat)
  | entry (e : Entry)

structure St where
  heap : Heap
  slots : List Slot

/-- What is given to a builder for a value. -/
inductive Arg where
  | scalar (n : Int)
  /-- the config in a variable -/
  | conf (c : Nat)

/-- What a statement returns. -/
inductive Res where
  | unit
  | size (n : Nat)
  /-- an entry that is null -/
  | null
  /-- index and key of an entry, and the number in it if it holds one -/
  | entry (idx : Nat) (key : String) (val : Option Int)

inductive Op where
  /-- a config read from a text; the flag: as an ini file -/
  | read (eager : Bool) (kids : List (String × Tree))
  /-- a config made by a builder -/
  | build (items : List (String × Arg))
  /-- copy construction of a config -/
  | copy (c : Nat)
  /-- assignment of configs -/
  | assign (c c' : Nat)
  /-- a variable ends -/
  | drop (v : Nat)
  /-- `size()` -/
  | size (c : Nat)
  /-- `at(index)`: a new entry -/
  | at_ (c : Nat) (k : Nat)
  /-- `at(path)` -/
  | path (c : Nat) (ss : List String)
  /-- move construction of an entry -/
  | move (e : Nat)
  /-- move assignment of entries -/
  | moveAssign (e e' : Nat)
  /-- `is_null`, `index`, `key`, `value` -/
  | look (e : Nat)
  /-- `object()`: a new config -/
  | object (e : Nat)

/-- The config in a variable. -/
def conf (s : St) (c : Nat) : Out (Option Nat) :=
  match s.slots[c]? with
  | some (.conf b) => .ok b
  | _ => .reject

/-- The entry in a variable. -/
def entry (s : St) (e : Nat) : Out Entry :=
  match s.slots[e]? with
  | some (.entry x) => .ok x
  | _ => .reject

/-- Copy of a `backend_ptr_t`. -/
def incOpt (b : Option Nat) (h : Heap) : Out Heap :=
  match b with
  | some b => inc b h
  | none => .ok h

def dropOpt (b : Option Nat) (h : Heap) : Out Heap :=
  match b with
  | some b => drop [b] h
  | none => .ok h

/-- The values of a builder (manual_map.h l.38-41, manual_array.h l.49-52; config_builder.cpp l.177-183, 272-278: a null config is left out). -/
def toItems (s : St) : List (String × Arg) → Out (List (String × Item))
  | [] => .ok []
  | (k, .scalar n) :: r => (toItems s r).bind fun r => .ok ((k, .scalar n) :: r)
  | (k, .conf c) :: r => (conf s c).bind fun b => (toItems s r).bind fun r =>
      match b with
      | some b => .ok ((k, .conf b) :: r)
      | none => .ok r

def add (s : St) (h : Heap) (x : Slot) : Out (St × Res) := .ok (⟨h, s.slots ++ [x]⟩, .unit)

/-- The number of entries (json_config.cpp l.41-45, xml_config.cpp l.53-56, manual_array.h l.59-62). -/
def sizeOf (b : Nat) (h : Heap) : Out Nat :=
  (obj h b).bind fun
    | .back d pos => (obj h d).bind fun
        | .doc _ t => .ok (kidsOf (sub t pos)).length
        | _ => .ub
    | .resident items => .ok items.length
    | _ => .ub

/-- config_backend.h l.387-399 with `this == &other`, in a release build: the value is released; the self-move of the pointer to the
backend leaves it as it is, that of the key may clear it; then the value is set to null. -/
def moveSelf (e : Entry) (h : Heap) : Out (Heap × Entry) :=
  match e.parent, e.val with
  | some b, some v => (release b v h).bind fun h => .ok (h, { e with val := none })
  | none, some _ => .ub
  | _, none => .ok (h, e)

/-- One statement. -/
def step (s : St) : Op → Out (St × Res)
  | .read eager kids =>
    -- json.cpp l.22-27: the document, then the backend; the pointer to the document has been moved into it
    (alloc (.doc eager (.node kids)) s.heap).bind fun (h, d) => (alloc (.back d []) h).bind fun (h, b) =>
      (drop [d] h).bind fun h => add s h (.conf (some b))
  | .build items => (toItems s items).bind fun is => (alloc (.resident is) s.heap).bind fun (h, b) => add s h (.conf (some b))
  | .copy c => (conf s c).bind fun b => (incOpt b s.heap).bind fun h => add s h (.conf b)
  | .assign c c' => (conf s c).bind fun b => (conf s c').bind fun b' =>
      -- `shared_ptr(r).swap(*this)`
      (incOpt b' s.heap).bind fun h => (dropOpt b h).bind fun h => .ok (⟨h, s.slots.set c (.conf b')⟩, .unit)
  | .drop v =>
    match s.slots[v]? with
    | some (.conf b) => (dropOpt b s.heap).bind fun h => .ok (⟨h, s.slots.set v .dead⟩, .unit)
    | some (.entry e) => (dropEntry e s.heap).bind fun h => .ok (⟨h, s.slots.set v .dead⟩, .unit)
    | _ => .reject
  | .size c => (conf s c).bind fun b =>
      -- config.h l.702-705
      match b with
      | none => .ok (s, .size 0)
      | some b => (sizeOf b s.heap).bind fun n => .ok (s, .size n)
  | .at_ c k => (conf s c).bind fun b =>
      match b with
      | none => add s s.heap (.entry .null)
      | some b => (inc b s.heap).bind fun h => (makeEntry b (.index k) h).bind fun (h, e) => add s h (.entry e)
  | .path c ss => (conf s c).bind fun b => (incOpt b s.heap).bind fun h => (resolve ss b h).bind fun (h, e) => add s h (.entry e)
  | .move e => (entry s e).bind fun x => .ok (⟨s.heap, s.slots.set e (.entry x.moved) ++ [.entry x]⟩, .unit)
  | .moveAssign e e' => (entry s e).bind fun x => (entry s e').bind fun y =>
      if e = e' then (moveSelf x s.heap).bind fun (h, x) => .ok (⟨h, s.slots.set e (.entry x)⟩, .unit)
      else (giveUp x s.heap).bind fun h => .ok (⟨h, (s.slots.set e (.entry y)).set e' (.entry y.moved)⟩, .unit)
  | .look e => (entry s e).bind fun x =>
      match x.val with
      | none => .ok (s, .null)
      | some v => (getValue (x.parent.getD 0) v s.heap).bind fun (h, g) =>
        match g with
        | .empty => .ok (⟨h, s.slots⟩, .entry x.idx x.key none)
        | .scalar n => .ok (⟨h, s.slots⟩, .entry x.idx x.key (some n))
        | .conf b => (drop [b] h).bind fun h => .ok (⟨h, s.slots⟩, .entry x.idx x.key none)
  | .object e => (entry s e).bind fun x =>
      match x.val with
      | none => add s s.heap (.conf none)
      | some v => (getValue (x.parent.getD 0) v s.heap).bind fun (h, g) =>
        match g with
        | .conf b => add s h (.conf (some b))
        | _ => add s h (.conf none)

/-- A program: the statements one after the other, with what each returns. -/
def run (s : St) : List Op → Out (St × List Res)
  | [] => .ok (s, [])
  | op :: ops => (step s op).bind fun r => (run r.1 ops).bind fun q => .ok (q.1, r.2 :: q.2)

end Verif.Lifetimes
