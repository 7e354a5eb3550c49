import Verif.Model.Config

/-!
# Model of `config_builder`

`modules/config/yato/config/config_builder.cpp`. The many overloads of `put` and `add` only differ in the conversion of the value to the stored type; `Value` is the stored value, where
`hole` stands for a null `const char*`, `nullptr` or `nullopt` and `null` for a null config. That a `uint64_t` above the greatest `int64_t` throws (`narrow_cast`) is not part of this model.
A thrown `config_error` leaves the builder as it was, and the caller may go on.
-/
set_option autoImplicit false

namespace Verif.Config

/-- `m_impl` (null after `create`) with the `conf` in it (null if made from a null config) -/
abbrev Builder := Option Config

inductive Op
  | put (key : Str) (v : Value)
  | remove (key : Str)
  | add (v : Value)
  | pop
  | create

inductive Out
  | done
  | error
  | config (c : Config)

/-- config_builder.cpp l.24-47: `none` is the thrown `runtime_error` -/
def Builder.object (multi ordered : Bool) : Option Builder :=
  if multi then (if ordered then none else some (some (some ⟨.multimap, []⟩))) else (if ordered then some (some (some ⟨.ordered, []⟩)) else some (some (some ⟨.map, []⟩)))

/-- l.43-47 -/
def Builder.array : Builder := some (some ⟨.array, []⟩)

/-- l.49-53 -/
def Builder.ofConfig (c : Config) (deep : Bool) : Option Builder := (copyConfig c deep).map some

/-- l.89-95 `checked_handle_` -/
def Builder.handle (b : Builder) : Option Node :=
  match b with
  | some (some n) => some n
  | _ => none

/-- l.55-61 (and l.71-79 for an assignment to a builder that still has its state): undefined (null dereference) for a builder after `create` -/
def Builder.copy (b : Builder) : Res Builder :=
  match b with
  | none => .ub
  | some none => .ok (some none)
  | some (some n) =>
    match copyConfig (some n) false with
    | none => .error
    | some c => .ok (some c)

/-- values that `put` and `add` do not store -/
def Value.ignored : Value → Bool
  | .hole => true
  | .null => true
  | _ => false

/-- the state and the outcome of a change that may have thrown -/
def Builder.after (b : Builder) (n : Option Node) : Option (Builder × Out) :=
  match n with
  | none => some (b, .error)
  | some n => some (some (some n), .done)

/-- l.97-292; `none` is undefined behaviour -/
def Builder.step (b : Builder) (op : Op) : Option (Builder × Out) :=
  match op with
  | .put key v => if v.ignored then some (b, .done) else b.after (b.handle.bind (fun n => n.put key v))
  | .remove key => b.after (b.handle.bind (fun n => n.remove key))
  | .add v => if v.ignored then some (b, .done) else b.after (b.handle.bind (fun n => n.add v))
  | .pop =>
    match b.handle with
    | none => some (b, .error)
    | some n =>
      match n.pop with
      | .ok n' => some (some (some n'), .done)
      | .error => some (b, .error)
      | .ub => none
  | .create =>
    match b.handle with
    | none => some (b, .error)
    | some n => some (none, .config (some n))

def Builder.run (b : Builder) : List Op → Option (Builder × List Out)
  | [] => some (b, [])
  | op :: ops =>
    match b.step op with
    | none => none
    | some (b', o) =>
      match Builder.run b' ops with
      | none => none
      | some (b'', os) => some (b'', o :: os)

end Verif.Config
