/-!
Model of how one actor processes messages: `/repo/modules/actors/yato/actors/private/actor.cpp`,
`private/actor_cell.cpp`.

The model is the reaction of a cell to the messages its mailbox hands out one at a time (C38): a new cell state, a list of
externally visible effects, and whether `request_stop` is returned, after which the executor closes the mailbox and hands
out nothing more (dynamic_executor.cpp l.35-39).

Simplifications: actor references are identified with their paths (`actor_ref::operator==` compares only paths, actor_ref.h
l.125-128), paths are natural numbers; a child cell is its path together with an identity that distinguishes cells
of equal path.  `selection` is not modelled here.  Exceptions of `receive` and `post_stop` are swallowed
(actor.cpp l.86-95, 138-146), so they have no effect on the cell.
-/
set_option autoImplicit false

namespace Verif.ActorCell

/-- A child cell: identity of the object and path of its reference. -/
structure Child where
  id : Nat
  path : Nat
deriving DecidableEq, Repr

/-- Fields of `actor_cell` (actor_cell.h) that the reactions use. -/
structure Cell where
  started : Bool           -- m_started
  stopping : Bool          -- m_stop
  hasParent : Bool         -- m_parent != nullptr
  children : List Child    -- m_children
  watchers : List Nat      -- m_watchers
deriving DecidableEq, Repr

/-- `actor_cell` constructor (actor_cell.cpp l.20-36). -/
def Cell.fresh (hasParent : Bool) : Cell :=
  { started := false, stopping := false, hasParent := hasParent, children := [], watchers := [] }

/-- Messages handed out by the mailbox: system messages (system_message.h l.23-108) and user messages.  `start ok`: `ok`
tells whether the user's `pre_start` returns normally. -/
inductive Msg where
  | start (ok : Bool)
  | stop
  | stopAfterChildren
  | watch (w : Nat)
  | unwatch (w : Nat)
  | attach (c : Child)
  | detach (path : Nat)
  | user (m : Nat)
  | pill
deriving DecidableEq, Repr

/-- Visible effects, in order. -/
inductive Eff where
  | preStart (ok : Bool)        -- user's pre_start ran; whether it returned normally
  | postStop                    -- user's post_stop ran
  | receive (m : Nat)           -- user's receive ran with message m
  | tellTerminated (w : Nat)    -- `terminated(self)` sent to watcher w
  | detachToParent              -- `detach_child(self)` sent to the parent
  | pillTo (c : Child)          -- poison pill sent to a child
  | startTo (c : Child)         -- `start` sent to a child
  | destroy (c : Child)         -- a child cell is destroyed
  | stopSelf                    -- `stop` sent to the own mailbox
deriving DecidableEq, Repr

/-- `stop_impl` (actor.cpp l.134-159). -/
def stopImpl (c : Cell) : Cell × List Eff :=
  ({ c with started := false },
   (if c.started then [.postStop] else []) ++ c.watchers.map .tellTerminated ++
     (if c.hasParent then [.detachToParent] else []))

/-- `actor_cell::remove_child` (actor_cell.cpp l.53-60): erases the FIRST child with that path; erasing destroys the cell. -/
def removeChild (c : Cell) (path : Nat) : Cell × List Eff :=
  match c.children.find? (fun x => decide (x.path = path)) with
  | none => (c, [])
  | some x => ({ c with children := c.children.eraseP (fun x => decide (x.path = path)) }, [.destroy x])

/-- `receive_message_` (actor.cpp l.78-97) and `receive_system_message_` (l.161-271).  The Boolean is
`request_stop`. -/
def process (c : Cell) : Msg → Cell × List Eff × Bool
  | .start ok => ({ c with started := ok }, [.preStart ok], !ok)                            -- l.166-185
  | .stop =>                                                                                -- l.186-198
    if c.children.isEmpty then ((stopImpl c).1, (stopImpl c).2, true)
    else ({ c with stopping := true }, c.children.map .pillTo, false)
  | .stopAfterChildren =>                                                                   -- l.199-206
    if c.children.isEmpty then ((stopImpl c).1, (stopImpl c).2, true)
    else ({ c with stopping := true }, [], false)
  | .watch w => if w ∈ c.watchers then (c, [], false) else ({ c with watchers := c.watchers ++ [w] }, [], false)  -- l.207-214
  | .unwatch w => ({ c with watchers := c.watchers.erase w }, [], false)                     -- l.215-222
  | .attach ch =>                                                                           -- l.223-233
    -- a refused cell dies together with the message
    if c.stopping then (c, [.destroy ch], false)
    else ({ c with children := c.children ++ [ch] }, [.startTo ch], false)
  | .detach p =>                                                                            -- l.234-242
    let r := removeChild c p
    if r.1.stopping && r.1.children.isEmpty then ((stopImpl r.1).1, r.2 ++ (stopImpl r.1).2, true)
    else (r.1, r.2, false)
  | .user m => (c, [.receive m], false)                                                     -- l.84-97
  | .pill => (c, [.stopSelf], false)                                                        -- l.79-82

/-- User messages are handed out only to a started actor (mailbox.cpp l.140-150; proved as `C37`). -/
def Msg.allowed (c : Cell) : Msg → Bool
  | .user _ => c.started
  | .pill => c.started
  | _ => true

/-- The executor's loop over the messages handed out: all effects, the final cell, and whether the mailbox was closed.
Messages after `request_stop` are not processed.  `none`: the sequence is not one a mailbox can hand out. -/
def runCell (c : Cell) : List Msg → Option (Cell × List Eff × Bool)
  | [] => some (c, [], false)
  | m :: ms =>
    if m.allowed c then
      match process c m with
      | (c', es, true) => some (c', es, true)
      | (c', es, false) => (runCell c' ms).map fun r => (r.1, es ++ r.2.1, r.2.2)
    else none

end Verif.ActorCell
