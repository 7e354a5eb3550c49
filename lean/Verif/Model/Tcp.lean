/-!
# Model of a TCP connection: `tcp_remote`, `tcp_receiver` and the manager

`/repo/modules/actors/yato/actors/io/private/tcp_remote.h`, `tcp_receiver.h`, `tcp_listener.h`, `tcp.cpp`.

One connection: the socket in the kernel, the receiver that runs on the io thread, the actor `tcp_remote` with its mailbox, and the handlers. All of them interleave freely; the kernel chooses how many bytes are
available, how many a read gives and how many a send takes.

* Handlers are numbers. `seen` lists what was told to them while they could still process messages; that the mailbox of a handler keeps this order is `C37`. A handler that has died processes nothing any more, so
  what is told to it later is not recorded.
* `pre_start` (which tells `connected` to the server) is over when the model begins; the log is left out.
* The poison pill stops the actor when it is handled (actor.cpp l.80-83: it sends `stop`, a system message, which is handled before any other; a `tcp_remote` has no children). Stopping and destroying the actor are
  separate steps, and the receiver lives until the latter.
* A callback of the io thread is one step: it holds the receiver by `weak_self.lock()`.
* Exceptions of the throwing overloads (`available`, `remote_endpoint`) are not modelled, nor is the use of one socket by two threads, which asio does not allow for but which does no harm on common systems.
-/
set_option autoImplicit false

namespace Verif.Tcp

abbrev Bytes := List UInt8

/-- user messages of `tcp_remote` -/
inductive Msg where
  | write (d : Bytes)
  | assign (h : Nat)
  | error
  | peerClosed
  | terminated
  | pill
deriving DecidableEq, Repr

/-- what a handler is told -/
inductive Ev where
  | received (d : Bytes)
  | peerClosed
deriving DecidableEq, Repr

/-- has the handler learned that `tcp_remote` watches it? -/
inductive Watch where
  | none
  | requested (h : Nat)
  | registered (h : Nat)
deriving DecidableEq, Repr

structure St where
  /-- bytes in the kernel, not read yet -/
  inb : Bytes
  /-- the peer will send no more -/
  eof : Bool
  /-- everything the peer has sent (ghost) -/
  sent : Bytes
  /-- everything the kernel has taken for the peer (ghost) -/
  out : Bytes
  /-- `m_receiver`: its handler, and whether an operation is under way -/
  recv : Option (Nat × Bool)
  box : List Msg
  run : Bool
  watch : Watch
  dead : Nat → Bool
  seen : List (Nat × Ev)
  /-- messages handled by `tcp_remote` (ghost) -/
  handled : List Msg

def St.init : St := ⟨[], false, [], [], none, [], true, .none, fun _ => false, [], []⟩

/-- `tell` to a handler -/
def St.tell (s : St) (h : Nat) (e : Ev) : St := if s.dead h then s else { s with seen := s.seen ++ [(h, e)] }

/-- `tell` to `tcp_remote` -/
def St.post (s : St) (m : Msg) : St := if s.run then { s with box := s.box ++ [m] } else s

/-- what users of the connection send to it -/
inductive User where
  | write (d : Bytes)
  | assign (h : Nat)
  | pill
deriving DecidableEq, Repr

def User.msg : User → Msg
  | .write d => .write d
  | .assign h => .assign h
  | .pill => .pill

inductive Act where
  | peerSend (d : Bytes)
  | peerClose
  /-- the peer resets the connection: what was not read is gone -/
  | peerReset
  | user (u : User)
  /-- the io thread: the socket is readable, `available()` gives `a`, `read_some` gives `k` bytes -/
  | ready (a k : Nat)
  /-- the io thread: `eof` or `connection_reset` -/
  | ended
  /-- the io thread: another error -/
  | fault
  /-- `tcp_remote` handles a message; if it is a `write`, the kernel takes `n` bytes; if it assigns a handler that has died, `gone` says whether its mailbox was destroyed yet -/
  | handle (n : Nat) (gone : Bool)
  /-- the handler handles the system message `watch` -/
  | watchSeen
  | die (h : Nat)
  /-- the stopped actor is destroyed, and with it the receiver and the socket -/
  | destroy
deriving DecidableEq, Repr

/-- `receive` of `tcp_remote` (tcp_remote.h l.41-76) -/
def receive (s : St) (n : Nat) (gone : Bool) : Msg → St
  | .write d =>
    -- tcp_receiver.h l.107-111: `send` of a non-blocking socket; what it does not take is dropped
    match s.recv with
    | some _ => { s with out := s.out ++ d.take n }
    | none => s
  | .assign h =>
    match s.recv with
    | some _ => s
    | none =>
      -- `watch`, actor_system.cpp l.357-374: if the mailbox of the handler is gone, `terminated` is told at once; if it is closed, nothing happens
      if s.dead h then (if gone then { s with recv := some (h, true) }.post .terminated else { s with recv := some (h, true) })
      else { s with recv := some (h, true), watch := .requested h }
  | .error => s
  | .peerClosed =>
    match s.recv with
    | some (h, _) => (s.tell h .peerClosed).post .pill
    | none => s.post .pill
  | .terminated => s.post .peerClosed
  | .pill => { s with run := false }

def step (s : St) : Act → Option St
  | .peerSend d => if s.eof then none else some { s with inb := s.inb ++ d, sent := s.sent ++ d }
  | .peerClose => some { s with eof := true }
  | .peerReset => some { s with eof := true, inb := [] }
  | .user u => some (s.post u.msg)
  | .ready a k =>
    -- tcp_receiver.h l.44-57
    match s.recv with
    | some (h, true) =>
      if a ≤ s.inb.length ∧ k ≤ a then
        let buf := s.inb.take k ++ List.replicate (a - k) 0
        let s := { s with inb := s.inb.drop k }
        if k = 0 then some ({ s with recv := some (h, false) }.post .peerClosed)
        else some (s.tell h (.received buf))
      else none
    | _ => none
  | .ended =>
    -- tcp_receiver.h l.39-43
    match s.recv with
    | some (h, true) => if s.eof ∧ s.inb = [] then some ({ s with recv := some (h, false) }.post .peerClosed) else none
    | _ => none
  | .fault =>
    -- tcp_receiver.h l.58-61
    match s.recv with
    | some (_, true) => some (s.post .error)
    | _ => none
  | .handle n gone =>
    match s.run, s.box with
    | true, m :: rest => some (receive { s with box := rest, handled := s.handled ++ [m] } n gone m)
    | _, _ => none
  | .watchSeen =>
    match s.watch with
    | .requested h => if s.dead h then none else some { s with watch := .registered h }
    | _ => none
  | .die h =>
    -- actor.cpp l.147-150: watchers are told
    if s.dead h then none
    else
      let s1 := { s with dead := fun i => i == h || s.dead i }
      some (if s.watch = .registered h then s1.post .terminated else s1)
  | .destroy => if s.run then none else some { s with recv := none }

/-- Executions in which the kernel behaves as `ok` says. -/
inductive Reach (ok : St → Act → Prop) : List Act → St → Prop
  | init : Reach ok [] St.init
  | step {acts : List Act} {s s' : St} {a : Act} : Reach ok acts s → ok s a → step s a = some s' → Reach ok (acts ++ [a]) s'

/-! ## The manager -/

/-- what the manager tells to the handler -/
inductive Answer where
  | bound
  | fail
  | connected
deriving DecidableEq, Repr

/-- `*resolver.resolve(query, err)` (tcp.cpp l.56, l.79): the first of the endpoints found, and whether there was an error. A failed resolution is an error and an empty range (asio), which must not be dereferenced:
`none` is undefined behaviour. -/
def resolve (found : List Nat) : Option (Nat × Bool) :=
  match found with
  | [] => none
  | e :: _ => some (e, found.isEmpty)

/-- `bind` (tcp.cpp l.48-67): what the handler is told, and whether an endpoint is listened to in the end. The endpoint is opened by the listener in its `pre_start` (tcp_listener.h l.106-110), later and in another
thread. -/
def bind (found : List Nat) (opens : Nat → Bool) : Option (List Answer × Option Nat) :=
  match resolve found with
  | none => none
  | some (_, true) => some ([.fail], none)
  | some (e, false) => some ([.bound], if opens e then some e else none)

/-- `connect` (tcp.cpp l.68-96) with a handler that is not empty; then `tcp_remote` tells `connected` (tcp_remote.h l.33-38) -/
def connect (found : List Nat) (connects : Nat → Bool) : Option (List Answer × Option Nat) :=
  match resolve found with
  | none => none
  | some (_, true) => some ([.fail], none)
  | some (e, false) => if connects e then some ([.connected], some e) else some ([.fail], none)

end Verif.Tcp
