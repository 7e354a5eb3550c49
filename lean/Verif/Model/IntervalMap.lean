import Mathlib.Order.Defs.LinearOrder

/-!
Model of `yato::interval_map` (`/repo/include/yato/interval_map.h`).

`std::map<K,V>` (l.30) is modelled by the list of its `(key, value)` nodes in key order.  An iterator is modelled by
the key of the node it points to (`none` = `end()`): node iterators of `std::map` stay valid under insertion, and so
does this representation.  `Option.none` as *result* of an operation is undefined behaviour (decrementing `begin()`,
dereferencing or incrementing `end()`, erasing a range whose end is not reachable from its begin).

Simplifications: keys are totally ordered (`LinearOrder`), i.e. `operator<` of the key type is a strict total order
(no NaN keys); value copies do not throw; the custom comparator/allocator constructors (l.62-75) are not modelled.
-/
namespace Verif.IntervalMap

variable {K V : Type} [LinearOrder K] [DecidableEq V]

/-- `std::map<K,V>`: nodes in ascending key order (interval_map.h l.30). -/
abbrev Nodes (K V : Type) := List (K × V)

/-- A map iterator: the key of the node, `none` = `end()`. -/
abbrev Iter (K : Type) := Option K

/-- `m_map.begin()`. -/
def begin (m : Nodes K V) : Iter K := m.head?.map Prod.fst

/-- `m_map.lower_bound(k)`: first node whose key is not less than `k`. -/
def lowerBound (m : Nodes K V) (k : K) : Iter K :=
  (m.find? (fun e => decide (¬ e.1 < k))).map Prod.fst

/-- `m_map.upper_bound(k)`: first node whose key is greater than `k`. -/
def upperBound (m : Nodes K V) (k : K) : Iter K :=
  (m.find? (fun e => decide (k < e.1))).map Prod.fst

/-- `*it` ; `none` (UB) for `end()` or a dangling iterator. -/
def deref (m : Nodes K V) (it : Iter K) : Option (K × V) :=
  match it with
  | none => none
  | some k => m.find? (fun e => decide (e.1 = k))

/-- The node `--it` points to; `none` (UB) if `it` is `begin()`. -/
def prev (m : Nodes K V) (it : Iter K) : Option (K × V) :=
  match it with
  | none => m.getLast?
  | some k => (m.takeWhile (fun e => decide (e.1 ≠ k))).getLast?

/-- `++it`; `none` (UB) when `it` is `end()` or dangling. -/
def next (m : Nodes K V) (it : Iter K) : Option (Iter K) :=
  match it with
  | none => none
  | some k =>
    match m.dropWhile (fun e => decide (e.1 ≠ k)) with
    | [] => none
    | _ :: r => some (r.head?.map Prod.fst)

/-- `m_map.emplace_hint(hint, k, v)`: inserts a node unless the key is present.  The hint has no influence on the
result; the returned iterator points to the node with key `k`. -/
def emplace (m : Nodes K V) (k : K) (v : V) : Nodes K V :=
  match m with
  | [] => [(k, v)]
  | e :: r => if k < e.1 then (k, v) :: e :: r else if e.1 < k then e :: emplace r k v else e :: r

/-- `it->second = v` for an iterator to an existing node. -/
def setValue (m : Nodes K V) (k : K) (v : V) : Nodes K V :=
  m.map (fun e => if e.1 = k then (e.1, v) else e)

/-- `m_map.erase(first, last)`; `none` (UB) if `last` is not reachable from `first`. -/
def erase (m : Nodes K V) (first last : Iter K) : Option (Nodes K V) :=
  match first, last with
  | none, none => some m
  | none, some _ => none
  | some a, none =>
    match m.dropWhile (fun e => decide (e.1 ≠ a)) with
    | [] => none
    | _ => some (m.takeWhile (fun e => decide (e.1 ≠ a)))
  | some a, some b =>
    match (m.dropWhile (fun e => decide (e.1 ≠ a))).dropWhile (fun e => decide (e.1 ≠ b)) with
    | [] => none
    | r => some (m.takeWhile (fun e => decide (e.1 ≠ a)) ++ r)

/-- Constructor (l.33-37, 44-57): the whole key range holds `val`; `lowest` is `std::numeric_limits<K>::lowest()`. -/
def init (lowest : K) (val : V) : Nodes K V := [(lowest, val)]

/-- First part of `assign`, l.87-117: finds / creates the end point.  Returns the map and `endIt`. -/
def assignEnd (m : Nodes K V) (ke : K) (val : V) : Option (Nodes K V × Iter K) :=
  let endIt := lowerBound m ke                                              -- l.88
  -- l.89-105
  (match endIt with
    | some _ =>
      match deref m endIt with
      | none => none
      | some e =>
        if ¬ (e.1 < ke ∨ ke < e.1) ∧ e.2 = val then
          (next m endIt).map (fun it => (it, true))                         -- l.94-97
        else some (endIt, false)
    | none =>
      match prev m endIt with                                               -- l.101-104
      | none => none
      | some e => if e.2 = val then some (endIt, true) else some (endIt, false)).bind fun (endIt, endFound) =>
  if endFound then some (m, endIt)
  else
    match prev m endIt with                                                 -- l.108-109
    | none => none
    | some t =>
      let sameKey : Bool := match deref m endIt with                        -- l.114, left operand of ||
        | none => false
        | some e => decide (¬ (e.1 < ke ∨ ke < e.1))
      if ¬ (sameKey = true ∨ t.2 = val) then
        some (emplace m ke t.2, some ke)                                    -- l.115
      else some (m, endIt)

/-- Second part of `assign`, l.118-142: finds / creates the begin point.  Returns the map and `beginIt`. -/
def assignBegin (m : Nodes K V) (kb : K) (val : V) : Option (Nodes K V × Iter K) :=
  let beginIt := lowerBound m kb                                            -- l.119
  (if beginIt ≠ begin m then                                                -- l.122
      match prev m beginIt with
      | none => none
      | some p => if p.2 = val then some (some p.1, true) else some (beginIt, false)
    else some (beginIt, false)).bind fun (beginIt, beginFound) =>
  if beginFound then some (m, beginIt)
  else
    match beginIt with
    | none => some (emplace m kb val, some kb)                              -- l.140
    | some k =>
      if ¬ (k < kb ∨ kb < k) then some (setValue m k val, some k)           -- l.136
      else some (emplace m kb val, some kb)                                 -- l.140

/-- `assign(keyBegin, keyEnd, val)` (l.84-146).  `none` is undefined behaviour. -/
def assign (m : Nodes K V) (kb ke : K) (val : V) : Option (Nodes K V) :=
  if kb < ke then
    (assignEnd m ke val).bind fun (m1, endIt) =>
    (assignBegin m1 kb val).bind fun (m2, beginIt) =>
    (next m2 beginIt).bind fun first => erase m2 first endIt                -- l.144
  else some m

/-- `operator[]` (l.151-154): `(--m_map.upper_bound(key))->second`; `none` is undefined behaviour. -/
def lookup (m : Nodes K V) (key : K) : Option V :=
  (prev m (upperBound m key)).map Prod.snd

/-- A sequence of `assign` calls on a freshly constructed map. -/
def run (lowest : K) (val : V) (ops : List (K × K × V)) : Option (Nodes K V) :=
  ops.foldl (fun m op => m.bind fun m => assign m op.1 op.2.1 op.2.2) (some (init lowest val))

end Verif.IntervalMap
