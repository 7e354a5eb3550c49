/-!
# Model of `atomic_attributes` (`include/yato/atomic_attributes.h`)

Types of attributes are numbers. The `any` in an entry is empty or holds a `std::atomic<T>` with a value; the `any` that
`set_attribute` passes on is empty or holds a value of some type (attributes_interface.h l.52). The `std::unordered_map` is the list of
its entries in some order. Loads and stores are single steps, in the order of the calls: the memory order is not modelled, neither are
failing allocations, and conversions of a value to the type of the attribute are left to the caller.
-/
set_option autoImplicit false

namespace Verif.AtomicAttributes

variable {K β : Type}

/-- l.107-127 `attribute_info`: the type and the value of the atomic in `value`, and the type of the `any_atomic_assigner` -/
structure Entry (β : Type) where
  value : Option (Nat × β)
  assigner : Nat
deriving DecidableEq, Repr

abbrev Map (K β : Type) := List (K × Entry β)

variable [DecidableEq K]

/-- `std::unordered_map::find` -/
def find (k : K) : Map K β → Option (Entry β)
  | [] => none
  | p :: m => if p.1 = k then some p.2 else find k m

/-- Replaces the value in the entry of a key. -/
def setValue (k : K) (v : Option (Nat × β)) : Map K β → Map K β
  | [] => []
  | p :: m => if p.1 = k then (p.1, { p.2 with value := v }) :: m else p :: setValue k v m

inductive Op (K β : Type) where
  /-- `register_attribute<T>(k, a)` -/
  | register (k : K) (T : Nat) (a : β)
  /-- `set_attribute(k, v)`; `none` is an empty `any` -/
  | set (k : K) (v : Option (Nat × β))
  | clear (k : K)
  /-- `is_valide_attribute` and `has_attribute` -/
  | has (k : K)
  | getAs (k : K) (T : Nat)
  | getOr (k : K) (T : Nat) (d : β)
  | getOpt (k : K) (T : Nat)
  /-- the object is replaced by a copy of itself, as in `b = a` when `b` is used further -/
  | copy

inductive Res (β : Type) where
  | done
  | bool (b : Bool)
  | got (a : β)
  | none
  | badAttribute
  | badCast
deriving DecidableEq, Repr

/-- l.40-43 `from_atomic`: the value of the copy, or `none` for `bad_any_cast` -/
def fromAtomic (T : Nat) : Option (Nat × β) → Option (Option (Nat × β))
  | some (U, a) => if U = T then some (some (T, a)) else none
  | Option.none => none

/-- l.45-48 `from_value`: the new value of `dst`, or `none` for `bad_any_cast` from one of the two reads -/
def fromValue (T : Nat) : Option (Nat × β) → Option (Nat × β) → Option (Option (Nat × β))
  | some (U, _), some (V, a) => if U = T ∧ V = T then some (some (T, a)) else none
  | _, _ => none

/-- l.195-204, the copy constructor. The keys of the source are all different, so that every one is new in the copy. -/
def copyAll : Map K β → Option (Map K β)
  | [] => some []
  | p :: m =>
    match fromAtomic p.2.assigner p.2.value with
    | Option.none => none
    | some v =>
      match copyAll m with
      | Option.none => none
      | some m' => some ((p.1, ⟨v, p.2.assigner⟩) :: m')

def step (m : Map K β) : Op K β → Res β × Map K β
  | .register k T a => -- l.153-160: `emplace` does nothing if the key exists; the value is replaced in any case
    match find k m with
    | Option.none => (.bool true, m ++ [(k, ⟨some (T, a), T⟩)])
    | some _ => (.bool false, setValue k (some (T, a)) m)
  | .set k v => -- l.136-144, l.163-172
    match find k m with
    | Option.none => (.bool false, m)
    | some e =>
      match fromValue e.assigner e.value v with
      | Option.none => (.badCast, m)
      | some v' => (.bool true, setValue k v' m)
  | .clear k => (.done, setValue k none m) -- l.175-181
  | .has k => (.bool (find k m).isSome, m) -- l.184-187, l.223-226
  | .getAs k T => -- l.233-244
    match find k m with
    | some ⟨some (U, a), _⟩ => if U = T then (.got a, m) else (.badAttribute, m)
    | _ => (.badAttribute, m)
  | .getOr k T d => -- l.251-262
    match find k m with
    | some ⟨some (U, a), _⟩ => if U = T then (.got a, m) else (.got d, m)
    | _ => (.got d, m)
  | .getOpt k T => -- l.269-280
    match find k m with
    | some ⟨some (U, a), _⟩ => if U = T then (.got a, m) else (.none, m)
    | _ => (.none, m)
  | .copy => -- l.195-204, l.211-216
    match copyAll m with
    | Option.none => (.badCast, m)
    | some m' => (.done, m')

def run : Map K β → List (Op K β) → List (Res β) × Map K β
  | m, [] => ([], m)
  | m, op :: ops => ((step m op).1 :: (run (step m op).2 ops).1, (run (step m op).2 ops).2)

end Verif.AtomicAttributes
