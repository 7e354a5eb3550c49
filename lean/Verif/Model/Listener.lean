/-!
# Model of a TCP server: `tcp_listener` and the connections it accepts

`/repo/modules/actors/yato/actors/io/private/tcp_listener.h`, `tcp_remote.h`, `tcp.cpp`, and what `actor.cpp`, `mailbox.cpp` and `actor_cell.cpp` do with the actors.

One listener with its acceptor on the io thread, the peers that connect, the actors `tcp_remote` made for them (children of the listener), and the server, the actor that has bound the address. All of them interleave
freely, message by message.

* A connection is a number (its place in the order in which the peers connected) and the address of the peer. Addresses stand for the names "host:port" that the actors get; how these are printed is left out.
* The listener begins when the manager has attached it: `start` is in its mailbox (actor.cpp l.228-230). What the manager answers to `bind` is `C69`.
* What a connection does between its start and its end is `C69`; here it may end at any time after it has started, and it ends when it is told to.
* A callback of the io thread is one step: it holds the acceptor by `weak_self.lock()`. There is always one accept operation under way while the acceptor lives.
* The queues of a mailbox that is closed are emptied at once and the connections in them are closed; in the program this happens when the mailbox is destroyed.
* Closing a listening socket also ends the connections that were not accepted yet.
* The log is left out. `remote_endpoint` throws if the peer has reset the connection (getpeername fails).
-/
set_option autoImplicit false

namespace Verif.Listener

/-- a connection: its number and the address of its peer -/
structure Conn where
  id : Nat
  addr : Nat
deriving DecidableEq, Repr

/-- user messages of the listener; `accept` is tcp_listener.h l.29-37 -/
inductive Msg where
  | accept (c : Conn)
  | error
  | terminated
  | pill
deriving DecidableEq, Repr

/-- system messages of the listener. `detach` carries a reference, and references are compared by their paths (actor_ref.h l.124-128), so the address stands for it. -/
inductive Sys where
  | start
  | stop
  | attach (c : Conn)
  | detach (addr : Nat)
deriving DecidableEq, Repr

/-- a connection's actor -/
inductive Phase where
  /-- `start` is in its mailbox -/
  | waiting
  | running
  /-- `pre_start` has thrown: its mailbox is closed, its parent is not told (actor.cpp l.179-183, dynamic_executor.cpp l.35-40) -/
  | failed
  /-- stopped, `detach_child` was sent (actor.cpp l.155-158) -/
  | stopped
deriving DecidableEq, Repr

/-- a child of the listener; `pill`: a poison pill is in its mailbox -/
structure Child where
  conn : Conn
  phase : Phase
  pill : Bool
deriving DecidableEq, Repr

inductive Mode where
  | created
  | listening
  /-- `m_stop`: waits for its children (actor.cpp l.191-196) -/
  | stopping
  | done
deriving DecidableEq, Repr

/-- has the server learned that the listener watches it? -/
inductive Watch where
  | lost
  | requested
  | registered
deriving DecidableEq, Repr

structure St where
  /-- connected, not accepted yet -/
  backlog : List Conn
  /-- `m_acceptor` -/
  acceptor : Bool
  usr : List Msg
  sys : List Sys
  mode : Mode
  children : List Child
  watch : Watch
  dead : Bool
  /-- the server was told `connected` with this address, by this connection -/
  told : List (Conn × Nat)
  /-- connections that were reset by their peers -/
  gone : List Conn
  /-- connections whose sockets were closed (ghost) -/
  closed : List Conn
  /-- all connections (ghost) -/
  all : List Conn
deriving DecidableEq, Repr

/-- the server when the manager calls `system().watch(bind.handler, listener)` (tcp.cpp l.64; actor_system.cpp l.357-374) -/
inductive Server where
  | alive
  /-- it has stopped and its mailbox is closed: the request is dropped (mailbox.cpp l.60) -/
  | closed
  /-- its mailbox is destroyed: `terminated` is told at once (actor_system.cpp l.366-369) -/
  | destroyed
deriving DecidableEq, Repr

def St.init (v : Server) : St where
  backlog := []
  acceptor := false
  usr := if v = .destroyed then [.terminated] else []
  sys := [.start]
  mode := .created
  children := []
  watch := if v = .alive then .requested else .lost
  dead := v != .alive
  told := []
  gone := []
  closed := []
  all := []

/-- `enqueue_user_message` (mailbox.cpp l.32-48) -/
def St.post (s : St) (m : Msg) : St := if s.mode = .done then s else { s with usr := s.usr ++ [m] }

/-- `enqueue_system_message` (mailbox.cpp l.51-67) -/
def St.postSys (s : St) (m : Sys) : St := if s.mode = .done then s else { s with sys := s.sys ++ [m] }

def Msg.conn : Msg → Option Conn
  | .accept c => some c
  | _ => none

def Sys.conn : Sys → Option Conn
  | .attach c => some c
  | _ => none

/-- The listener ends: its acceptor is reset by `post_stop` (tcp_listener.h l.135-139, actor.cpp l.134-159) and its mailbox is closed (dynamic_executor.cpp l.35-40). -/
def St.finish (s : St) : St :=
  { s with mode := .done, acceptor := false, backlog := [], usr := [], sys := [], closed := s.closed ++ s.backlog ++ s.usr.filterMap Msg.conn ++ s.sys.filterMap Sys.conn }

/-- `remove_child` (actor_cell.cpp l.53-60): the first child with that path is destroyed, and its connection with it. A missing child is an assertion; without assertions nothing happens. -/
def St.remove (s : St) (addr : Nat) : St :=
  match s.children.find? (fun ch => ch.conn.addr == addr) with
  | none => s
  | some ch => { s with children := s.children.eraseP (fun ch => ch.conn.addr == addr), closed := s.closed ++ [ch.conn] }

/-- `receive_system_message_` (actor.cpp l.161-242). `ok`: does the socket open (tcp_listener.h l.78-80, l.106-110)? If not, `pre_start` throws and the actor ends without `post_stop`. -/
def onSys (s : St) (ok : Bool) : Sys → St
  | .start => if ok then { s with mode := .listening, acceptor := true } else s.finish
  | .stop =>
    if s.children = [] then s.finish
    else { s with mode := .stopping, children := s.children.map fun ch => { ch with pill := true } }
  | .attach c =>
    if s.mode = .stopping then { s with closed := s.closed ++ [c] }
    else { s with children := s.children ++ [⟨c, .waiting, false⟩] }
  | .detach a =>
    let s := s.remove a
    if s.mode = .stopping ∧ s.children = [] then s.finish else s

/-- `receive` of the listener (tcp_listener.h l.112-133) and the poison pill (actor.cpp l.81-84). An exception of `remote_endpoint` is caught (actor.cpp l.86-95); the connection dies with the message. -/
def onUser (s : St) : Msg → St
  | .accept c => if c ∈ s.gone then { s with closed := s.closed ++ [c] } else s.postSys (.attach c)
  | .error => s
  | .terminated => s.post .pill
  | .pill => s.postSys .stop

inductive Act where
  /-- a peer with this address connects to the listening socket -/
  | connects (addr : Nat)
  /-- the peer resets the connection -/
  | resets (c : Conn)
  /-- the io thread: a connection is accepted -/
  | accept
  /-- the io thread: an accept operation fails -/
  | acceptError
  /-- the server handles the system message `watch` -/
  | watchSeen
  | serverDies
  /-- somebody tells the listener a poison pill, or stops it -/
  | pill
  | stop
  /-- the listener handles a message; `ok`: if it is `start`, does the socket open? -/
  | listen (ok : Bool)
  /-- the actor of a connection handles `start` -/
  | childStart (c : Conn)
  /-- the actor of a connection stops -/
  | childStop (c : Conn)
deriving DecidableEq, Repr

/-- an update of the child with the connection `c` -/
def setPhase (l : List Child) (c : Conn) (p : Phase) : List Child := l.map fun ch => if ch.conn = c then { ch with phase := p } else ch

/-- the child with the connection `c` is in phase `p` -/
def St.has (s : St) (c : Conn) (p : Phase) : Bool := s.children.any fun ch => ch.conn == c && ch.phase == p

def step (s : St) : Act → Option St
  | .connects a =>
    if s.acceptor then some { s with backlog := s.backlog ++ [⟨s.all.length, a⟩], all := s.all ++ [⟨s.all.length, a⟩] } else none
  | .resets c => if c ∈ s.all then some { s with gone := s.gone ++ [c] } else none
  | .accept =>
    -- `handle_accept_` and `start_accept_` (tcp_listener.h l.52-60, l.71-76)
    match s.acceptor, s.backlog with
    | true, c :: rest => some ({ s with backlog := rest }.post (.accept c))
    | _, _ => none
  | .acceptError => if s.acceptor then some (s.post .error) else none
  | .watchSeen => if s.watch = .requested ∧ s.dead = false then some { s with watch := .registered } else none
  | .serverDies =>
    -- actor.cpp l.150-154
    if s.dead then none
    else if s.watch = .registered then some ({ s with dead := true }.post .terminated)
    else some { s with dead := true, watch := .lost }
  | .pill => some (s.post .pill)
  | .stop => some (s.postSys .stop)
  | .listen ok =>
    -- `try_pop_prioritized_message_` (mailbox.cpp l.133-156): system messages first, user messages only after the start
    match s.mode, s.sys, s.usr with
    | .done, _, _ => none
    | _, m :: rest, _ => some (onSys { s with sys := rest } ok m)
    | .created, [], _ => none
    | _, [], m :: rest => some (onUser { s with usr := rest } m)
    | _, [], [] => none
  | .childStart c =>
    -- `pre_start` (tcp_remote.h l.33-39): `connected` is told to the server
    if s.has c .waiting then
      if c ∈ s.gone then some { s with children := setPhase s.children c .failed }
      else some { s with children := setPhase s.children c .running, told := if s.dead then s.told else s.told ++ [(c, c.addr)] }
    else none
  | .childStop c =>
    -- actor.cpp l.134-159
    if s.has c .running then some ({ s with children := setPhase s.children c .stopped }.postSys (.detach c.addr)) else none

/-- Executions, in which `ok` restricts the environment. -/
inductive Reach (v : Server) (ok : St → Act → Prop) : List Act → St → Prop
  | init : Reach v ok [] (St.init v)
  | step {acts : List Act} {s s' : St} {a : Act} : Reach v ok acts s → ok s a → step s a = some s' → Reach v ok (acts ++ [a]) s'

/-- The steps the program takes by itself: the listener handles a message, the actor of a connection starts, or stops because it was told to. -/
def own (s : St) : Act → Bool
  | .listen _ => true
  | .childStart _ => true
  | .childStop c => s.children.any fun ch => ch.conn == c && ch.pill
  | _ => false

end Verif.Listener
