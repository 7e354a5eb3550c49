/-!
# Model of a UDP binding: `udp_remote`, `udp_receiver` and the manager

`/repo/modules/actors/yato/actors/io/private/udp_remote.h`, `udp_receiver.h`, `udp_connection.h`, `udp.cpp`.

One binding: the socket in the kernel, the receiver on the io thread, the actor `udp_remote` with its mailbox, and its handler. They interleave freely.

* A receive operation has two steps, as in asio: the reactor fills the buffer and the endpoint of the sender (`fill`), and later the callback runs (`call`), holding the receiver by `weak_self.lock()`. The buffer is
  kept alive by the operation (l.85-86), the endpoint is a member of the receiver (l.35).
* The actor is destroyed in two steps: `m_receiver` first, then `m_connection` (udp_remote.h l.32-33, members are destroyed in reverse order), which closes the socket, since the receiver's share in it is gone
  already.
* A datagram that the kernel drops never arrives. `size` is the size of the buffer (l.30: 65536).
* The poison pill stops the actor when it is handled, as in `Verif.Tcp`. Sending is not modelled beyond the fact that its result is ignored.
-/
set_option autoImplicit false

namespace Verif.Udp

abbrev Bytes := List UInt8

inductive Msg where
  | error
  | peerClosed
  | pill
deriving DecidableEq, Repr

/-- what the handler is told -/
inductive Ev where
  | received (d : Bytes) (sender : Nat)
  | peerClosed
deriving DecidableEq, Repr

/-- the receive operation -/
inductive Op where
  | idle
  | waiting
  /-- filled with so many bytes; the callback has not run yet -/
  | filled (n : Nat)
deriving DecidableEq, Repr

structure St where
  /-- datagrams in the kernel, with their senders -/
  queue : List (Bytes × Nat)
  /-- all datagrams that have arrived (ghost) -/
  arrived : List (Bytes × Nat)
  /-- `*m_message_buffer` -/
  buf : Bytes
  /-- `m_remote_endpoint` -/
  endpoint : Nat
  op : Op
  /-- does the receiver exist? -/
  recv : Bool
  /-- is the socket open? -/
  sock : Bool
  box : List Msg
  run : Bool
  dead : Bool
  seen : List Ev
deriving DecidableEq, Repr

/-- after `pre_start` (udp_remote.h l.36-43) and `create` (udp_receiver.h l.123-130); `b` is what is in the buffer, `e` what is in the endpoint -/
def St.init (b : Bytes) (e : Nat) : St := ⟨[], [], b, e, .waiting, true, true, [], true, false, []⟩

def St.tell (s : St) (e : Ev) : St := if s.dead then s else { s with seen := s.seen ++ [e] }

def St.post (s : St) (m : Msg) : St := if s.run then { s with box := s.box ++ [m] } else s

inductive Act where
  | arrive (d : Bytes) (sender : Nat)
  /-- the reactor does the receive -/
  | fill
  /-- the callback without error -/
  | call
  /-- the operation fails with `eof` or `connection_reset` -/
  | ended
  /-- the operation fails with another error -/
  | fault
  | pill
  | handle
  | die
  /-- the stopped actor is destroyed: its receiver -/
  | freeReceiver
  /-- … and its connection: the socket is closed and the operation cancelled -/
  | freeConnection
deriving DecidableEq, Repr

inductive Res where
  | disabled
  | ub
  | ok (s : St)
deriving DecidableEq, Repr

/-- `recvfrom` into the buffer: the first bytes are overwritten, what does not fit is cut off -/
def overwrite (buf d : Bytes) : Bytes := d.take buf.length ++ buf.drop d.length

def step (s : St) : Act → Res
  | .arrive d e => if s.sock then .ok { s with queue := s.queue ++ [(d, e)], arrived := s.arrived ++ [(d, e)] } else .disabled
  | .fill =>
    -- udp_receiver.h l.85-86: buffer and endpoint are arguments of the operation
    match s.op, s.queue with
    | .waiting, (d, e) :: rest =>
      if s.recv then .ok { s with queue := rest, buf := overwrite s.buf d, endpoint := e, op := .filled (min d.length s.buf.length) } else .ub
    | _, _ => .disabled
  | .call =>
    -- udp_receiver.h l.43-69
    match s.op with
    | .filled n => if s.recv then .ok { s.tell (.received (s.buf.take n) s.endpoint) with op := .waiting } else .ok { s with op := .idle }
    | _ => .disabled
  | .ended =>
    -- l.47-51
    match s.op with
    | .waiting => if s.recv then .ok ({ s with op := .idle }.post .peerClosed) else .ok { s with op := .idle }
    | _ => .disabled
  | .fault =>
    -- l.64-67
    match s.op with
    | .waiting => if s.recv then .ok (s.post .error) else .ok { s with op := .idle }
    | _ => .disabled
  | .pill => .ok (s.post .pill)
  | .handle =>
    -- udp_remote.h l.46-70
    match s.run, s.box with
    | true, .error :: rest => .ok { s with box := rest }
    | true, .peerClosed :: rest => .ok (({ s with box := rest }.tell .peerClosed).post .pill)
    | true, .pill :: rest => .ok { s with box := rest, run := false }
    | _, _ => .disabled
  | .die => if s.dead then .disabled else .ok { s with dead := true }
  | .freeReceiver => if s.run then .disabled else if s.recv then .ok { s with recv := false } else .disabled
  | .freeConnection =>
    if s.recv then .disabled
    else if s.sock then .ok { s with sock := false, queue := [], op := match s.op with | .waiting => .idle | o => o }
    else .disabled

inductive Reach (b : Bytes) (e : Nat) : List Act → St → Prop
  | init : Reach b e [] (St.init b e)
  | step {acts : List Act} {s s' : St} {a : Act} : Reach b e acts s → step s a = .ok s' → Reach b e (acts ++ [a]) s'

def run (s : St) : List Act → Res
  | [] => .ok s
  | a :: as =>
    match step s a with
    | .ok s' => run s' as
    | r => r

/-! ## The manager -/

/-- an address: host and port; host 0 stands for "any" -/
abbrev Addr := Nat × Nat

/-- `udp_manager::receive` (udp.cpp l.42-54): the constructor of the connection opens a socket on the port of the address, on all hosts (udp_connection.h l.30-32), or throws; then nothing is told to the handler, and
the exception is logged (actor.cpp l.86-95). Result: is `bound` told, or `command_fail`, and where is the socket? -/
def bind (free : Nat → Bool) (a : Addr) : List Bool × Option Addr :=
  let (_, port) := a
  if free port then ([true], some (0, port)) else ([], none)

end Verif.Udp
