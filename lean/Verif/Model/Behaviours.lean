/-!
# Model of the behaviour stack of an actor (`modules/actors/yato/actors/private/actor.cpp`)

A behaviour is a pointer to a `message_consumer`; `none` is the null pointer. The stack is a list, its top first.
-/
set_option autoImplicit false

namespace Verif.Behaviours

variable {B : Type}

/-- actor.cpp l.25-30 `set_context_` pushes the actor itself -/
def setContext (self : B) : List B := [self]

/-- l.100-113 `become`: what it returns and the stack. Outer `none`: undefined behaviour, the top of an empty stack. -/
def become (st : List B) (behaviour : Option B) (discardOld : Bool) : Option (Option B × List B) :=
  match behaviour with
  | none => some (none, st)
  | some b =>
    if discardOld then
      match st with
      | [] => none
      | top :: rest => some (some top, b :: rest)
    else some (none, b :: st)

/-- l.116-125 `unbecome` -/
def unbecome (st : List B) : Option (Option B × List B) :=
  if st.length ≤ 1 then some (none, st)
  else
    match st with
    | [] => none
    | top :: rest => some (some top, rest)

/-- l.78-97 `receive_message_`: the behaviour the message is given to -/
def handler (st : List B) : Option B := st.head?

inductive Op (B : Type) | become (behaviour : Option B) (discardOld : Bool) | unbecome

def step (st : List B) : Op B → Option (Option B × List B)
  | .become b d => become st b d
  | .unbecome => unbecome st

/-- the results of a sequence of calls and the last stack -/
def run (st : List B) : List (Op B) → Option (List (Option B) × List B)
  | [] => some ([], st)
  | o :: os =>
    match step st o with
    | none => none
    | some (r, st') =>
      match run st' os with
      | none => none
      | some (rs, st'') => some (r :: rs, st'')

end Verif.Behaviours
