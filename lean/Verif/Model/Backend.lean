import Verif.Model.Config

/-!
# The interface of the backends of configs

`modules/config/yato/config/config_backend.h` and `config.h`: everything a user sees of a config goes through the virtual functions of `config_backend` and `config_value`, which are `Iface` here.

* `config_value::get()` gives an empty variant, a scalar or a backend. A null backend is modelled as an empty variant: `entry.object()` is a null config for both, and no other type can be read
  from them.
* An entry whose value is a null pointer (`is_null()`) is also modelled as an empty variant.
-/
set_option autoImplicit false

namespace Verif.Config

/-- what `config_value::get()` gives (config_backend.h l.298) -/
inductive Got (B : Type) | empty | scalar (s : Scalar) | conf (b : B)

/-- the virtual functions of `config_backend` (config_backend.h l.542-565: `do_size`, `do_has_property`, `do_find`) -/
structure Iface (B : Type) where
  size : B → Nat
  assoc : B → Bool
  multi : B → Bool
  order : B → Bool
  byIndex : B → Nat → Option (Str × Got B)
  byKey : B → Str → Option (Nat × Got B)

/-- `manual_value::get` (private/manual_value.h) -/
def Value.got : Value → Got Node
  | .hole => .empty
  | .scalar s => .scalar s
  | .null => .empty
  | .conf k es => .conf ⟨k, es⟩

/-- the four classes of the manual backend -/
def manual : Iface Node where
  size := Node.size
  assoc n := n.kind.assoc
  multi n := n.kind.multi
  order n := n.kind.keepsOrder
  byIndex n i := (n.findIndex i).map (fun e => (e.1, e.2.got))
  byKey n key := (n.findKey key).map (fun e => (e.1, e.2.got))

/-- a step of a user from a config to one of its entries: `c.at(name)` with a single name (config.h l.839-842), or `c.at(index)` (l.847-851) -/
inductive Step | name (key : Str) | index (i : Nat)
deriving DecidableEq, Repr

/-- an entry of a config: its index, and its value -/
def enter {B : Type} (I : Iface B) (b : B) : Step → Option (Nat × Got B)
  | .name key => I.byKey b key
  | .index i => (I.byIndex b i).map (fun e => (i, e.2))

/-- a chain of steps through nested configs (`entry.object()`, config.h l.347; a path of names is resolved in the same way, l.374-392) -/
def follow {B : Type} (I : Iface B) (b : B) : List Step → Option (Nat × Got B)
  | [] => none
  | [s] => enter I b s
  | s :: r =>
    match enter I b s with
    | some (_, .conf b') => follow I b' r
    | _ => none

end Verif.Config
