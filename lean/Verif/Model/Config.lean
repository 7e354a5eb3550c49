import Verif.Model.Tokens

/-!
# Model of configs of the manual backend

`modules/config/yato/config/config.h`, `config_builder.cpp`, `private/manual_map.h`, `private/manual_multimap.h`, `private/manual_ordered_map.h`, `private/manual_array.h`,
`private/manual_config_base.cpp`.

* A string is a list of characters compared by their codes.
* Backends are never changed after `config_builder::create`, so that sharing a nested backend (`shared_ptr`) is modelled as having an equal one.
* Numbers of type `double` are opaque (their bit patterns).
* `none` as the result of an operation stands for a thrown `config_error`. Running out of memory is not modelled.
* A `path_tokenizer` is the list of the names it has not yet given: `next()` takes the first one, or gives the empty name if there are none left (release builds), and `has_next()` says whether
  there are any. That the real tokenizer behaves like this is `Verif.Config.tokenizer_ok`.
* The other backends (ini, json, xml, yaml, cmd) are not part of this model.
-/
set_option autoImplicit false

namespace Verif.Config

abbrev Str := List Char

/-- `std::less<std::string>` -/
def strLt : Str → Str → Bool
  | _, [] => false
  | [], _ :: _ => true
  | a :: as, b :: bs => a.toNat < b.toNat || (a = b && strLt as bs)

/-- `stored_variant` without configs (config_backend.h, `stored_type`) -/
inductive Scalar | int (n : Int) | real (bits : Nat) | bool (b : Bool) | str (s : Str)
deriving DecidableEq, Repr

/-- the four classes of the manual backend -/
inductive Kind | map | multimap | ordered | array
deriving DecidableEq, Repr

/-- A `std::unique_ptr<config_value>`: null; a scalar; a config that is null; or the config with these entries. The entries are in the order of their indices; those of an array have empty keys. -/
inductive Value
  | hole
  | scalar (s : Scalar)
  | null
  | conf (kind : Kind) (entries : List (Str × Value))

abbrev Entries := List (Str × Value)

/-- a backend -/
structure Node where
  kind : Kind
  entries : Entries

/-- `yato::config`: a pointer to a backend that may be null -/
abbrev Config := Option Node

/-- `do_has_property(associative)` -/
def Kind.assoc : Kind → Bool
  | .map => true | .multimap => true | .ordered => true | .array => false
/-- `do_has_property(multi_associative)` -/
def Kind.multi : Kind → Bool
  | .map => false | .multimap => true | .ordered => false | .array => false
/-- `do_has_property(keeps_order)` -/
def Kind.keepsOrder : Kind → Bool
  | .map => false | .multimap => false | .ordered => true | .array => true

/-! ## The containers -/

/-- `std::map::insert_or_assign` (manual_map.h l.38-41) -/
def mapPut (es : Entries) (key : Str) (v : Value) : Entries :=
  match es with
  | [] => [(key, v)]
  | (k, x) :: r => if strLt k key then (k, x) :: mapPut r key v else if strLt key k then (key, v) :: (k, x) :: r else (k, v) :: r

/-- `std::multimap::emplace` (manual_multimap.h l.38-41): after the entries with an equal key -/
def multiPut (es : Entries) (key : Str) (v : Value) : Entries :=
  match es with
  | [] => [(key, v)]
  | (k, x) :: r => if strLt key k then (key, v) :: (k, x) :: r else (k, x) :: multiPut r key v

/-- manual_ordered_map.h l.40-49 -/
def orderedPut (es : Entries) (key : Str) (v : Value) : Entries :=
  match es with
  | [] => [(key, v)]
  | (k, x) :: r => if k = key then (k, v) :: r else (k, x) :: orderedPut r key v

/-- `put`: manual_map.h l.38, manual_multimap.h l.38, manual_ordered_map.h l.40, manual_array.h l.39 -/
def Node.put (n : Node) (key : Str) (v : Value) : Option Node :=
  match n.kind with
  | .map => some ⟨.map, mapPut n.entries key v⟩
  | .multimap => some ⟨.multimap, multiPut n.entries key v⟩
  | .ordered => some ⟨.ordered, orderedPut n.entries key v⟩
  | .array => none

/-- manual_ordered_map.h l.51-57 -/
def orderedRemove (es : Entries) (key : Str) : Entries :=
  match es with
  | [] => []
  | (k, x) :: r => if k = key then r else (k, x) :: orderedRemove r key

/-- `remove`: `std::map::erase(key)` and `std::multimap::erase(key)` (manual_map.h l.43, manual_multimap.h l.43), manual_ordered_map.h l.51, manual_array.h l.44 -/
def Node.remove (n : Node) (key : Str) : Option Node :=
  match n.kind with
  | .map => some ⟨.map, n.entries.filter (fun e => decide (e.1 ≠ key))⟩
  | .multimap => some ⟨.multimap, n.entries.filter (fun e => decide (e.1 ≠ key))⟩
  | .ordered => some ⟨.ordered, orderedRemove n.entries key⟩
  | .array => none

/-- `add`: manual_array.h l.49-52; the others throw -/
def Node.add (n : Node) (v : Value) : Option Node :=
  match n.kind with
  | .array => some ⟨.array, n.entries ++ [([], v)]⟩
  | _ => none

/-- The result of an operation that may have undefined behaviour. -/
inductive Res (α : Type) | ok (a : α) | error | ub

/-- `pop`: manual_array.h l.54-57, undefined for an empty vector; the others throw -/
def Node.pop (n : Node) : Res Node :=
  match n.kind with
  | .array => if n.entries.isEmpty then .ub else .ok ⟨.array, n.entries.dropLast⟩
  | _ => .error

/-- the index `std::map::lower_bound` points to -/
def lowerBound (es : Entries) (key : Str) : Nat :=
  match es with
  | [] => 0
  | (k, _) :: r => if strLt k key then lowerBound r key + 1 else 0

/-- the index `std::find_if` points to (manual_ordered_map.h l.98) -/
def firstIndex (es : Entries) (key : Str) : Nat :=
  match es with
  | [] => 0
  | (k, _) :: r => if k = key then 0 else firstIndex r key + 1

/-- an index and the value there, if the key there is the wanted one -/
def keyAt (es : Entries) (key : Str) (i : Nat) : Option (Nat × Value) :=
  match es[i]? with
  | some (k, v) => if k = key then some (i, v) else none
  | none => none

/-- `do_find(name)`: manual_map.h l.83-91 (`std::map::find` gives the entry at the lower bound if its key is equal), manual_multimap.h l.84-92, manual_ordered_map.h l.95-103, manual_array.h l.83-86 -/
def Node.findKey (n : Node) (key : Str) : Option (Nat × Value) :=
  match n.kind with
  | .map => keyAt n.entries key (lowerBound n.entries key)
  | .multimap => keyAt n.entries key (lowerBound n.entries key)
  | .ordered => keyAt n.entries key (firstIndex n.entries key)
  | .array => none

/-- `do_size` -/
def Node.size (n : Node) : Nat := n.entries.length

/-- `do_find(index)`: manual_map.h l.73-81, manual_multimap.h l.74-82, manual_ordered_map.h l.85-93, manual_array.h l.74-81: the key and the value -/
def Node.findIndex (n : Node) (i : Nat) : Option (Str × Value) := n.entries[i]?

/-- config_backend.cpp `do_enumerate_keys` with config.h l.720-723 -/
def keys (c : Config) : List Str :=
  match c with
  | none => []
  | some n => if n.kind.assoc then n.entries.map (fun e => e.1) else []

/-! ## Entries and paths -/

/-- a `find_result` that converts to true: the index and the value -/
def Node.find (n : Node) (key : Str) : Option (Nat × Value) :=
  match n.findKey key with
  | some (_, .hole) => none
  | some (i, v) => some (i, v)
  | none => none

/-- `value<config>().get_or(config{})` of an entry (config.h l.347, conversions of scalars to configs do not exist) -/
def Value.asConfig : Value → Config
  | .conf k es => some ⟨k, es⟩
  | _ => none

/-- `manual_value<stored_type::config>` of a backend pointer (`wrap_config_`, manual_config_base.cpp l.45-49) -/
def ofConfig : Config → Value
  | some n => .conf n.kind n.entries
  | none => .null

/-- config.h l.374-392 `resolve_path_`: the index inside the last config on the path and the value, `none` if the entry is null -/
def resolve (c : Config) : List Str → Option (Nat × Value)
  | [] => none
  | [t] =>
    match c with
    | none => none
    | some n => n.find t
  | t :: ts =>
    match c with
    | none => none
    | some n =>
      match n.find t with
      | none => none
      | some (_, v) => resolve v.asConfig ts

/-- the separator of paths (path.h) -/
def dot (c : Char) : Bool := decide (c = '.')

/-- the names given by a tokenizer of a path -/
def names (path : Str) : List Str :=
  match Tokens.pathNames '.' path path.length with
  | some ts => ts
  | none => []

/-- `config::at(path)` (config.h l.839-842 with l.263-268) -/
def at_ (c : Config) (path : Str) : Option (Nat × Value) := resolve c (names path)

/-- The iterator of `config::find(path)` (l.857-860 with l.580-589): its position; `size` is the end. -/
def findPos (c : Config) (path : Str) : Nat :=
  match at_ c path with
  | some (i, _) => i
  | none => match c with | some n => n.size | none => 0

/-- dereferencing an iterator (l.423-427 with l.257-259): the key and the value of the entry of the config itself -/
def deref (c : Config) (pos : Nat) : Option (Str × Value) :=
  match c with
  | none => none
  | some n => n.findIndex pos

/-! ## Copies -/

/-- manual_config_base.cpp l.51-68 `create_empty_copy_` -/
def emptyCopy (c : Config) : Node :=
  match c with
  | none => ⟨.map, []⟩
  | some n => if n.kind.multi then ⟨.multimap, []⟩ else if n.kind.assoc then (if n.kind.keepsOrder then ⟨.ordered, []⟩ else ⟨.map, []⟩) else ⟨.array, []⟩

/-- the step of the loop l.78-98 that stores a copied value -/
def storeCopy (assoc : Bool) (acc : Node) (key : Str) (v : Value) : Option Node := if assoc then acc.put key v else acc.add v

mutual
/-- l.80-92: the copy of one value with `deep_copy` -/
def copyValue : Value → Option Value
  | .hole => some .hole
  | .scalar s => some (.scalar s)
  | .null => some .null
  | .conf k es => (copyEntries k.assoc es (emptyCopy (some ⟨k, es⟩))).map (fun n => Value.conf n.kind n.entries)
/-- l.78-98: the loop over the entries -/
def copyEntries (assoc : Bool) : Entries → Node → Option Node
  | [], acc => some acc
  | (key, v) :: r, acc =>
    match copyValue v with
    | none => none
    | some v' =>
      match storeCopy assoc acc key v' with
      | none => none
      | some acc' => copyEntries assoc r acc'
end

/-- l.78-98 without `deep_copy`: nested configs are shared -/
def shallowEntries (assoc : Bool) : Entries → Node → Option Node
  | [], acc => some acc
  | (key, v) :: r, acc =>
    match storeCopy assoc acc key v with
    | none => none
    | some acc' => shallowEntries assoc r acc'

/-- l.70-101 `copy_impl_`; `config::clone` is the deep copy -/
def copyConfig (c : Config) (deep : Bool) : Option Config :=
  match c with
  | none => some none
  | some n => (if deep then copyEntries n.kind.assoc n.entries (emptyCopy c) else shallowEntries n.kind.assoc n.entries (emptyCopy c)).map some

def clone (c : Config) : Option Config := copyConfig c true

/-- l.205-224, the loop of `copy_with_path_impl_` for the name `t`; `f old v` makes the new value of an entry from the old one and the value to be set. The value is moved from by its first use and
then is null. The result has the copy, the value, and `key_replaced`. -/
def withLoop (t : Str) (f : Value → Value → Option Value) : Entries → Node → Value → Bool → Option (Node × Value × Bool)
  | [], acc, v, replaced => some (acc, v, replaced)
  | (_, .hole) :: r, acc, v, replaced => withLoop t f r acc v replaced
  | (k, x) :: r, acc, v, replaced =>
    if k = t then
      match f x v with
      | none => none
      | some y =>
        match acc.put t y with
        | none => none
        | some acc' => withLoop t f r acc' .hole true
    else
      match acc.put k x with
      | none => none
      | some acc' => withLoop t f r acc' v replaced

/-- the entries of a config -/
def Config.entries (c : Config) : Entries :=
  match c with
  | none => []
  | some n => n.entries

/-- `is_null() || is_associative()` -/
def Config.nullOrAssoc (c : Config) : Bool :=
  match c with
  | none => true
  | some n => n.kind.assoc

/-- l.202-236 -/
def withStep (t : Str) (f : Value → Value → Option Value) (c : Config) (v : Value) : Option Node :=
  if c.nullOrAssoc then
    match withLoop t f c.entries (emptyCopy c) v false with
    | none => none
    | some (acc, _, true) => some acc
    | some (acc, v', false) =>
      match f .null v' with
      | none => none
      | some y => acc.put t y
  else none

/-- l.197-238 `copy_with_path_impl_`, with the first name of the path and the others -/
def withNames : Str → List Str → Config → Value → Option Node
  | t, [], c, v => withStep t (fun _ v => some v) c v
  | t, t' :: ts, c, v => withStep t (fun old v => (withNames t' ts old.asConfig v).map (fun n => ofConfig (some n))) c v

/-- the name `next()` gives, and the names left -/
def nextName : List Str → Str × List Str
  | [] => ([], [])
  | t :: ts => (t, ts)

/-- `config::with_value` (config.cpp `with_value_`, manual_config_base.cpp l.357-360) -/
def withValue (c : Config) (path : Str) (v : Value) : Option Config := (withNames (nextName (names path)).1 (nextName (names path)).2 c v).map some

/-- l.249-273: the loop of `copy_only_path_impl_`, up to the first entry of the name; `f` is what is copied of its value, `none` for nothing -/
def onlyLoop (t : Str) (empty : Node) (f : Value → Option (Option Value)) : Entries → Option Config
  | [] => some none
  | (_, .hole) :: r => onlyLoop t empty f r
  | (k, x) :: r =>
    if k = t then
      match f x with
      | none => none
      | some none => some none
      | some (some y) => (empty.put t y).map some
    else onlyLoop t empty f r

/-- l.240-277 `copy_only_path_impl_` -/
def onlyNames : Str → List Str → Config → Option Config
  | _, _, none => some none
  | t, [], some n => if n.kind.assoc then onlyLoop t (emptyCopy (some n)) (fun x => some (some x)) n.entries else none
  | t, t' :: ts, some n =>
    if n.kind.assoc then
      onlyLoop t (emptyCopy (some n)) (fun x =>
        match onlyNames t' ts x.asConfig with
        | none => none
        | some none => some none
        | some (some m) => some (some (ofConfig (some m)))) n.entries
    else none

/-- `config::with_only_path` -/
def withOnlyPath (c : Config) (path : Str) : Option Config := onlyNames (nextName (names path)).1 (nextName (names path)).2 c

/-- l.288-306: the loop of `copy_without_path_impl_`; `f` is what an entry of the name is replaced by, `none` for nothing -/
def withoutLoop (t : Str) (f : Value → Option (Option Value)) : Entries → Node → Option Node
  | [], acc => some acc
  | (_, .hole) :: r, acc => withoutLoop t f r acc
  | (k, x) :: r, acc =>
    if k = t then
      match f x with
      | none => none
      | some none => withoutLoop t f r acc
      | some (some y) =>
        match acc.put t y with
        | none => none
        | some acc' => withoutLoop t f r acc'
    else
      match acc.put k x with
      | none => none
      | some acc' => withoutLoop t f r acc'

/-- l.279-310 `copy_without_path_impl_`. The requirement of `wrap_config_` that the new config is not null is not checked in release builds. -/
def withoutNames : Str → List Str → Config → Option Config
  | _, _, none => some none
  | t, [], some n => if n.kind.assoc then (withoutLoop t (fun _ => some none) n.entries (emptyCopy (some n))).map some else none
  | t, t' :: ts, some n =>
    if n.kind.assoc then (withoutLoop t (fun x => (withoutNames t' ts x.asConfig).map (fun m => some (ofConfig m))) n.entries (emptyCopy (some n))).map some
    else none

/-- `config::without_path` -/
def withoutPath (c : Config) (path : Str) : Option Config := withoutNames (nextName (names path)).1 (nextName (names path)).2 c

/-- l.320-334: the loop of `copy_with_filter_`; the set of names is only searched -/
def filterLoop (names : List Str) (whitelist : Bool) : Entries → Node → Option Node
  | [], acc => some acc
  | (_, .hole) :: r, acc => filterLoop names whitelist r acc
  | (k, x) :: r, acc =>
    if whitelist = names.contains k then
      match acc.put k x with
      | none => none
      | some acc' => filterLoop names whitelist r acc'
    else filterLoop names whitelist r acc

/-- l.312-339 `copy_with_filter_` -/
def withFilter (c : Config) (names : List Str) (whitelist : Bool) : Option Config :=
  match c with
  | none => some none
  | some n => if n.kind.assoc then (filterLoop names whitelist n.entries (emptyCopy c)).map some else none

/-! ## Merging -/

/-- `std::sort` of strings -/
def insertKey (k : Str) : List Str → List Str
  | [] => [k]
  | a :: r => if strLt a k then a :: insertKey k r else k :: a :: r

def sortKeys : List Str → List Str
  | [] => []
  | k :: r => insertKey k (sortKeys r)

/-- `std::set_intersection` of sorted ranges -/
def intersect : List Str → List Str → List Str
  | [], _ => []
  | _ :: _, [] => []
  | a :: as, b :: bs => if strLt a b then intersect as (b :: bs) else if strLt b a then intersect (a :: as) bs else a :: intersect as bs
termination_by as bs => as.length + bs.length

/-- l.121-124 `is_common_key`: `std::lower_bound` and a comparison -/
def isCommon (common : List Str) (key : Str) : Bool :=
  match common with
  | [] => false
  | a :: r => if strLt a key then isCommon r key else decide (key = a)

/-- `type() == stored_type::config` and `is_object()` -/
def Value.asObject : Value → Option Node
  | .conf k es => if k.assoc then some ⟨k, es⟩ else none
  | _ => none

/-- l.126-157 `process_common_key`; `m` merges nested configs -/
def commonKey (m : Config → Config → Option Node) (l r : Config) (joint : Node) (key : Str) : Option Node :=
  match at_ l key, at_ r key with
  | some (_, x), some (_, y) =>
    match x.asObject, y.asObject with
    | some a, some b =>
      match m (some a) (some b) with
      | none => none
      | some n => joint.put key (ofConfig (some n))
    | _, _ => joint.put key x
  | _, _ => none

/-- l.159-174 and l.176-191: the loop over the sorted keys of one side, `c` -/
def mergeLoop (m : Config → Config → Option Node) (l r c : Config) (common : List Str) : List Str → Node → Option Node
  | [], joint => some joint
  | key :: ks, joint =>
    if isCommon common key then
      match commonKey m l r joint key with
      | none => none
      | some joint' => mergeLoop m l r c common ks joint'
    else
      match at_ c key with
      | none => mergeLoop m l r c common ks joint
      | some (_, x) =>
        match joint.put key x with
        | none => none
        | some joint' => mergeLoop m l r c common ks joint'

def Config.multi (c : Config) : Bool :=
  match c with
  | none => false
  | some n => n.kind.multi

/-- l.103-194 `merge_impl_`. The recursion is bounded by `fuel`, which must exceed the depth of the left config. -/
def mergeFuel : Nat → Config → Config → Option Node
  | 0, _, _ => none
  | fuel + 1, l, r =>
    if l.nullOrAssoc && r.nullOrAssoc then
      let lk := sortKeys (keys l)
      let rk := sortKeys (keys r)
      let common := intersect lk rk
      match mergeLoop (mergeFuel fuel) l r l common lk ⟨if l.multi || r.multi then .multimap else .map, []⟩ with
      | none => none
      | some joint => mergeLoop (mergeFuel fuel) l r r common rk joint
    else none

mutual
/-- how deep configs are nested -/
def Value.depth : Value → Nat
  | .conf _ es => entriesDepth es + 1
  | _ => 0
def entriesDepth : Entries → Nat
  | [] => 0
  | (_, v) :: r => Nat.max v.depth (entriesDepth r)
end

def Config.depth (c : Config) : Nat := entriesDepth c.entries

inductive Priority | left | right

/-- `config::merged_with` (manual_config_base.cpp l.382-393) -/
def merge (l r : Config) (p : Priority) : Option Config :=
  match p with
  | .left => (mergeFuel (l.depth + 1) l r).map some
  | .right => (mergeFuel (r.depth + 1) r l).map some

end Verif.Config
