import Verif.Model.Udp

/-!
# C70: UDP bindings deliver datagrams

The handler of a UDP binding is told every datagram the socket has received, whole, each with its own sender, in order of arrival, once, and nothing else; no byte of an earlier datagram shows up in a later one.
When the binding ends it stops using its memory; it ends with its handler; and a request to bind is answered with the truth.

* `C70_received`: what a living handler was told, and what is still under way, is exactly what has arrived.
* `C70_whole`: if the datagrams fit in the buffer, the data are whole.
* `C70_prefix`: in any case the handler was told a prefix.
* `C70_next`: a binding that runs delivers the next datagram in two steps of the io thread, unless the operation has ended.
* `C70_safe_partial`: no step of a binding whose actor has not been destroyed is undefined. Missing: the destruction itself.
* `C70_ends`: a binding that was told to stop closes its socket.
* `C70_closed_once`, `C70_stops`, `C70_pill`: the end of the socket is told once, last, and stops the binding; so does a pill.
* `C70_bind_partial`: what is true of bind.
* `C70_freed_violated`: the sender is written into a receiver that has been freed.
* `C70_orphan_violated`: the end of the handler is not noticed.
* `C70_bind_violated`: a bind that fails is not answered, and one that works listens on all hosts.
-/
set_option autoImplicit false

namespace Verif.Udp

/-! ## Specification -/

/-- the data of the events of the handler -/
def data : List Ev → List (Bytes × Nat)
  | [] => []
  | .received d e :: r => (d, e) :: data r
  | _ :: r => data r

/-- a datagram cut off after `n` bytes -/
def cut (n : Nat) (l : List (Bytes × Nat)) : List (Bytes × Nat) := l.map fun d => (d.1.take n, d.2)

/-- the datagram in the buffer, if the operation is done and the callback has not run -/
def inHand (s : St) : List (Bytes × Nat) :=
  match s.op with
  | .filled n => [(s.buf.take n, s.endpoint)]
  | _ => []

/-! ## Lemmas -/

theorem data_append (a b : List Ev) : data (a ++ b) = data a ++ data b := by
  induction a with
  | nil => rfl
  | cons e a ih => cases e <;> simp [data, ih]

theorem length_overwrite (buf d : Bytes) : (overwrite buf d).length = buf.length := by
  simp only [overwrite, List.length_append, List.length_take, List.length_drop]
  omega

theorem take_overwrite (buf d : Bytes) : (overwrite buf d).take (min d.length buf.length) = d.take buf.length := by
  unfold overwrite
  have h : (d.take buf.length).length = min d.length buf.length := by rw [List.length_take, Nat.min_comm]
  rw [← h, List.take_left]

theorem cut_append (n : Nat) (a b : List (Bytes × Nat)) : cut n (a ++ b) = cut n a ++ cut n b := List.map_append

theorem tell_dead {s : St} (h : s.dead = true) (e : Ev) : s.tell e = s := by unfold St.tell; rw [if_pos h]
theorem tell_live {s : St} (h : s.dead = false) (e : Ev) : s.tell e = { s with seen := s.seen ++ [e] } := by unfold St.tell; rw [if_neg (by rw [h]; decide)]
theorem post_run {s : St} (h : s.run = true) (m : Msg) : s.post m = { s with box := s.box ++ [m] } := by unfold St.post; rw [if_pos h]
theorem post_stopped {s : St} (h : s.run = false) (m : Msg) : s.post m = s := by unfold St.post; rw [if_neg (by rw [h]; decide)]

/-- the invariant -/
structure Inv (n : Nat) (s : St) : Prop where
  buf : s.buf.length = n
  recv : s.run = true → s.recv = true
  sock : s.recv = true → s.sock = true
  closed : s.sock = false → s.queue = []
  all : s.recv = true → s.dead = false → data s.seen ++ inHand s ++ cut n s.queue = cut n s.arrived
  pre : data s.seen <+: cut n s.arrived
  alone : s.op = .idle → s.recv = true → s.run = true → Msg.peerClosed ∈ s.box ∨ Msg.pill ∈ s.box

theorem Inv.init (b : Bytes) (e : Nat) : Inv b.length (St.init b e) where
  buf := rfl
  recv := fun _ => rfl
  sock := fun _ => rfl
  closed := fun h => by cases h
  all := fun _ _ => rfl
  pre := List.nil_prefix
  alone := by intro h; cases h

theorem pre_of {n : Nat} {s : St} (h : data s.seen ++ inHand s ++ cut n s.queue = cut n s.arrived) : data s.seen <+: cut n s.arrived := ⟨_, by rw [← h, List.append_assoc]⟩

theorem bool_cases : ∀ b : Bool, b = true ∨ b = false := by decide

theorem Inv.step {n : Nat} {s s' : St} {a : Act} (I : Inv n s) (h : Udp.step s a = .ok s') : Inv n s' := by
  cases a with
  | arrive d e =>
    simp only [Udp.step] at h
    split at h
    · cases h
      rename_i hk
      refine ⟨I.buf, I.recv, I.sock, fun hk' => absurd hk (by rw [show s.sock = false from hk']; decide), fun hr hd => ?_, ?_, I.alone⟩
      · have := I.all hr hd
        show data s.seen ++ inHand s ++ cut n (s.queue ++ [(d, e)]) = cut n (s.arrived ++ [(d, e)])
        rw [cut_append, cut_append, ← List.append_assoc, this]
      · show data s.seen <+: cut n (s.arrived ++ [(d, e)])
        rw [cut_append]
        exact I.pre.trans (List.prefix_append _ _)
    · cases h
  | fill =>
    simp only [Udp.step] at h
    split at h
    · rename_i d e rest ho hq
      split at h
      · rename_i hr
        cases h
        have hall : s.dead = false → data s.seen ++ [((overwrite s.buf d).take (min d.length s.buf.length), e)] ++ cut n rest = cut n s.arrived := by
          intro hd
          have := I.all hr hd
          rw [hq] at this
          simp only [inHand, ho] at this
          rw [take_overwrite, I.buf]
          simpa [cut] using this
        refine ⟨by rw [← I.buf]; exact length_overwrite _ _, I.recv, I.sock, fun hk => (by have := I.closed hk; rw [hq] at this; cases this), fun _ hd => hall hd, I.pre, fun hi => (by cases hi)⟩
      · cases h
    · cases h
  | call =>
    simp only [Udp.step] at h
    split at h
    · rename_i k ho
      split at h
      · rename_i hr
        cases h
        rcases bool_cases s.dead with hd | hd
        · skip
          rw [tell_dead hd]
          refine ⟨I.buf, I.recv, I.sock, I.closed, fun _ hd' => ?_, I.pre, fun hi => (by cases hi)⟩
          exact absurd (show s.dead = false from hd') (by rw [hd]; decide)
        · skip
          have hall := I.all hr hd
          simp only [inHand, ho] at hall
          rw [tell_live hd]
          have hd2 : data (s.seen ++ [Ev.received (s.buf.take k) s.endpoint]) = data s.seen ++ [(s.buf.take k, s.endpoint)] := by rw [data_append]; rfl
          refine ⟨I.buf, I.recv, I.sock, I.closed, fun _ _ => ?_, ?_, fun hi => (by cases hi)⟩
          · show data (s.seen ++ [Ev.received (s.buf.take k) s.endpoint]) ++ [] ++ cut n s.queue = cut n s.arrived
            rw [hd2, List.append_nil, hall]
          · show data (s.seen ++ [Ev.received (s.buf.take k) s.endpoint]) <+: cut n s.arrived
            rw [hd2]
            exact ⟨_, hall⟩
      · rename_i hr
        cases h
        refine ⟨I.buf, I.recv, I.sock, I.closed, fun hr' => absurd hr' hr, I.pre, fun _ hr' => absurd hr' hr⟩
    · cases h
  | ended =>
    simp only [Udp.step] at h
    split at h
    · rename_i ho
      split at h
      · rename_i hr
        cases h
        rcases bool_cases s.run with hrun | hrun
        · skip
          rw [post_run (s := { s with op := .idle }) hrun]
          refine ⟨I.buf, I.recv, I.sock, I.closed, fun hr hd => ?_, I.pre, fun _ _ _ => .inl (by simp)⟩
          have := I.all hr hd
          simp only [inHand, ho] at this
          exact this
        · skip
          rw [post_stopped (s := { s with op := .idle }) hrun]
          refine ⟨I.buf, I.recv, I.sock, I.closed, fun hr hd => ?_, I.pre, fun _ _ hr' => ?_⟩
          · have := I.all hr hd
            simp only [inHand, ho] at this
            exact this
          · exact absurd (show s.run = true from hr') (by rw [hrun]; decide)
      · rename_i hr
        cases h
        exact ⟨I.buf, I.recv, I.sock, I.closed, fun hr' => absurd hr' hr, I.pre, fun _ hr' => absurd hr' hr⟩
    · cases h
  | fault =>
    simp only [Udp.step] at h
    split at h
    · rename_i ho
      split at h
      · rename_i hr
        cases h
        unfold St.post
        split
        · exact ⟨I.buf, I.recv, I.sock, I.closed, I.all, I.pre, fun hi => by rw [show s.op = .idle from hi] at ho; cases ho⟩
        · exact I
      · rename_i hr
        cases h
        exact ⟨I.buf, I.recv, I.sock, I.closed, fun hr' => absurd hr' hr, I.pre, fun _ hr' => absurd hr' hr⟩
    · cases h
  | pill =>
    simp only [Udp.step] at h
    cases h
    unfold St.post
    split
    · exact ⟨I.buf, I.recv, I.sock, I.closed, I.all, I.pre, fun hi hr hrun => (I.alone hi hr hrun).imp (List.mem_append_left _) (List.mem_append_left _)⟩
    · exact I
  | handle =>
    simp only [Udp.step] at h
    split at h
    · rename_i rest hrun hb
      cases h
      refine ⟨I.buf, I.recv, I.sock, I.closed, I.all, I.pre, fun hi hr hrun => ?_⟩
      have := I.alone hi hr hrun
      rw [hb] at this
      simpa using this
    · rename_i rest hrun hb
      cases h
      rcases bool_cases s.dead with hd | hd
      · skip
        rw [tell_dead (s := { s with box := rest }) hd, post_run (s := { s with box := rest }) hrun]
        exact ⟨I.buf, I.recv, I.sock, I.closed, fun _ hd' => absurd (show s.dead = false from hd') (by rw [hd]; decide), I.pre, fun _ _ _ => .inr (by simp)⟩
      · skip
        rw [tell_live (s := { s with box := rest }) hd, post_run (s := { s with box := rest, seen := s.seen ++ [Ev.peerClosed] }) hrun]
        have hd2 : data (s.seen ++ [Ev.peerClosed]) = data s.seen := by rw [data_append]; simp [data]
        refine ⟨I.buf, I.recv, I.sock, I.closed, fun hr _ => ?_, ?_, fun _ _ _ => .inr (by simp)⟩
        · show data (s.seen ++ [Ev.peerClosed]) ++ inHand s ++ cut n s.queue = cut n s.arrived
          rw [hd2]
          exact I.all hr hd
        · show data (s.seen ++ [Ev.peerClosed]) <+: cut n s.arrived
          rw [hd2]
          exact I.pre
    · rename_i rest hrun hb
      cases h
      exact ⟨I.buf, fun hr => (by cases hr), I.sock, I.closed, I.all, I.pre, fun _ _ hr => (by cases hr)⟩
    · cases h
  | die =>
    simp only [Udp.step] at h
    split at h
    · cases h
    · cases h
      exact ⟨I.buf, I.recv, I.sock, I.closed, fun _ hd => (by cases hd), I.pre, I.alone⟩
  | freeReceiver =>
    simp only [Udp.step] at h
    split at h
    · cases h
    · rename_i hrun
      split at h
      · cases h
        exact ⟨I.buf, fun hr => absurd hr hrun, fun hr => (by cases hr), I.closed, fun hr => (by cases hr), I.pre, fun _ hr => (by cases hr)⟩
      · cases h
  | freeConnection =>
    simp only [Udp.step] at h
    split at h
    · cases h
    · rename_i hr
      split at h
      · cases h
        exact ⟨I.buf, I.recv, fun hr' => absurd hr' hr, fun _ => rfl, fun hr' => absurd hr' hr, I.pre, fun _ hr' => absurd hr' hr⟩
      · cases h

theorem Reach.inv {b : Bytes} {e : Nat} {acts : List Act} {s : St} (r : Reach b e acts s) : Inv b.length s := by
  induction r with
  | init => exact .init b e
  | step _ h ih => exact ih.step h

/-- the datagrams that have arrived, read off the history -/
def arrivals : List Act → List (Bytes × Nat)
  | [] => []
  | .arrive d e :: r => (d, e) :: arrivals r
  | _ :: r => arrivals r

theorem arrivals_append (a b : List Act) : arrivals (a ++ b) = arrivals a ++ arrivals b := by
  induction a with
  | nil => rfl
  | cons x a ih => cases x <;> simp [arrivals, ih]

theorem tell_arrived (s : St) (e : Ev) : (s.tell e).arrived = s.arrived := by unfold St.tell; split <;> rfl
theorem post_arrived (s : St) (m : Msg) : (s.post m).arrived = s.arrived := by unfold St.post; split <;> rfl

theorem step_arrived {s s' : St} {a : Act} (h : step s a = .ok s') : s'.arrived = s.arrived ++ arrivals [a] := by
  cases a <;> simp only [step] at h <;> (repeat' split at h) <;> cases h <;> simp [arrivals, tell_arrived, post_arrived]

theorem Reach.arrived {b : Bytes} {e : Nat} {acts : List Act} {s : St} (r : Reach b e acts s) : s.arrived = arrivals acts := by
  induction r with
  | init => rfl
  | step _ h ih => rw [step_arrived h, ih, arrivals_append]

theorem tell_recv (s : St) (e : Ev) : (s.tell e).recv = s.recv := by unfold St.tell; split <;> rfl
theorem post_recv (s : St) (m : Msg) : (s.post m).recv = s.recv := by unfold St.post; split <;> rfl

theorem step_recv {s s' : St} {a : Act} (h : step s a = .ok s') (ha : a ≠ .freeReceiver) : s'.recv = s.recv := by
  cases a <;> simp only [step] at h <;> (repeat' split at h) <;> cases h <;> first | exact absurd rfl ha | rfl | simp only [tell_recv, post_recv]

theorem Reach.recv {b : Bytes} {e : Nat} {acts : List Act} {s : St} (r : Reach b e acts s) (h : Act.freeReceiver ∉ acts) : s.recv = true := by
  induction r with
  | init => rfl
  | step _ hs ih => rw [step_recv hs (fun he => h (by simp [he])), ih (fun hm => h (List.mem_append_left _ hm))]

theorem step_dead {s s' : St} {a : Act} (h : step s a = .ok s') : s'.dead = true ↔ s.dead = true ∨ a = .die := by
  have tell : ∀ (t : St) (e : Ev), (t.tell e).dead = t.dead := by intro t e; unfold St.tell; split <;> rfl
  have post : ∀ (t : St) (m : Msg), (t.post m).dead = t.dead := by intro t m; unfold St.post; split <;> rfl
  cases a <;> simp only [step] at h <;> (repeat' split at h) <;> cases h <;> simp [tell, post]

/-- the handler is dead exactly if it has died -/
theorem Reach.died {b : Bytes} {e : Nat} {acts : List Act} {s : St} (r : Reach b e acts s) : s.dead = true ↔ .die ∈ acts := by
  induction r with
  | init => simp [St.init]
  | @step acts s s' a _ h ih =>
    rw [step_dead h, ih]
    simp [eq_comm]

theorem Reach.alive {b : Bytes} {e : Nat} {acts : List Act} {s : St} (r : Reach b e acts s) (h : .die ∉ acts) : s.dead = false := by
  rw [Bool.eq_false_iff]
  exact fun hd => h (r.died.1 hd)

/-! ## The property -/

/-- What a living handler was told is, in order and each with its own sender, what has arrived, up to the datagram in hand and those still in the kernel; each cut off at the size of the buffer. Nothing is lost,
repeated, reordered or mixed, whatever was in the buffer before. -/
theorem C70_received {b : Bytes} {e : Nat} {acts : List Act} {s : St} (r : Reach b e acts s) (hr : .freeReceiver ∉ acts) (hd : .die ∉ acts) :
    data s.seen ++ inHand s ++ cut b.length s.queue = cut b.length (arrivals acts) := by
  rw [← r.arrived]
  exact r.inv.all (r.recv hr) (r.alive hd)

/-- Whatever happens, also after the handler has died or the binding has stopped: the handler was told a prefix of what has arrived. -/
theorem C70_prefix {b : Bytes} {e : Nat} {acts : List Act} {s : St} (r : Reach b e acts s) : data s.seen <+: cut b.length (arrivals acts) := by
  rw [← r.arrived]
  exact r.inv.pre

theorem cut_whole {n : Nat} {l : List (Bytes × Nat)} (h : ∀ d ∈ l, d.1.length ≤ n) : cut n l = l := by
  unfold cut
  rw [List.map_congr_left (g := id) (fun d hd => by rw [List.take_of_length_le (h d hd)]; rfl), List.map_id]

/-- With a buffer larger than every datagram the data are whole: the buffer has 65536 bytes, and a UDP datagram carries at most 65507. -/
theorem C70_whole {b : Bytes} {e : Nat} {acts : List Act} {s : St} (r : Reach b e acts s) (hb : b.length = 65536) (hu : ∀ d ∈ arrivals acts, d.1.length ≤ 65507) :
    data s.seen <+: arrivals acts ∧ (.freeReceiver ∉ acts → .die ∉ acts → s.queue = [] → inHand s = [] → data s.seen = arrivals acts) := by
  have hc : cut b.length (arrivals acts) = arrivals acts := cut_whole fun d hd => by have := hu d hd; omega
  refine ⟨by have := C70_prefix r; rwa [hc] at this, fun hr hd hq hi => ?_⟩
  have := C70_received r hr hd
  rw [hc, hq, hi] at this
  simpa [cut] using this

/-- A binding that runs, with no end reported to it, delivers the next datagram in two steps of the io thread, and then waits for the next one. -/
theorem C70_next {b : Bytes} {e : Nat} {acts : List Act} {s : St} (r : Reach b e acts s) (hrun : s.run = true) (hdie : .die ∉ acts) (hc : Msg.peerClosed ∉ s.box) (hp : Msg.pill ∉ s.box) :
    (∀ d x rest, inHand s = [] → s.queue = (d, x) :: rest →
      ∃ t, run s [.fill, .call] = .ok t ∧ t.seen = s.seen ++ [.received (d.take b.length) x] ∧ t.queue = rest ∧ inHand t = []) ∧
    (∀ d x, inHand s = [(d, x)] → ∃ t, step s .call = .ok t ∧ t.seen = s.seen ++ [.received d x] ∧ t.queue = s.queue ∧ inHand t = []) := by
  have I := r.inv
  have hd := r.alive hdie
  have hr := I.recv hrun
  constructor
  · intro d x rest hi hq
    cases ho : s.op with
    | idle => exact ((I.alone ho hr hrun).elim hc hp).elim
    | filled k => simp [inHand, ho] at hi
    | waiting =>
      refine ⟨_, by simp only [run, step, ho, hq, hr, if_true]; rfl, ?_, ?_, ?_⟩
      · simp only [St.tell, hd]
        rw [take_overwrite, I.buf]
        rfl
      · simp only [St.tell, hd]; rfl
      · simp only [inHand]
  · intro d x hi
    cases ho : s.op with
    | idle => simp [inHand, ho] at hi
    | waiting => simp [inHand, ho] at hi
    | filled k =>
      simp only [inHand, ho, List.cons.injEq, Prod.mk.injEq, and_true] at hi
      refine ⟨_, by simp only [step, ho, hr, if_true]; rfl, ?_, ?_, ?_⟩
      · simp only [St.tell, hd]
        rw [hi.1, hi.2]
        rfl
      · simp only [St.tell, hd]; rfl
      · simp only [inHand]

theorem tell_sock (s : St) (e : Ev) : (s.tell e).sock = s.sock := by unfold St.tell; split <;> rfl
theorem post_sock (s : St) (m : Msg) : (s.post m).sock = s.sock := by unfold St.post; split <;> rfl

theorem step_sock {s s' : St} {a : Act} (h : step s a = .ok s') (ha : a ≠ .freeConnection) : s'.sock = s.sock := by
  cases a <;> simp only [step] at h <;> (repeat' split at h) <;> cases h <;> first | exact absurd rfl ha | rfl | simp only [tell_sock, post_sock]

theorem step_close {s s' : St} (h : step s .freeConnection = .ok s') : s'.sock = false := by
  simp only [step] at h
  (repeat' split at h) <;> cases h <;> rfl

theorem Reach.closed {b : Bytes} {e : Nat} {acts : List Act} {s : St} (r : Reach b e acts s) (h : Act.freeConnection ∈ acts) : s.sock = false := by
  induction r with
  | init => cases h
  | @step acts s s' a _ hs ih =>
    by_cases ha : a = .freeConnection
    · rw [ha] at hs
      exact step_close hs
    · rw [step_sock hs ha]
      refine ih ?_
      rw [List.mem_append, List.mem_singleton] at h
      exact h.resolve_right fun he => ha he.symm

/-- No step is undefined as long as the receiver has not been destroyed, or once the socket is closed. Missing: the steps between the two, see `C70_freed_violated`. -/
theorem C70_safe_partial {b : Bytes} {e : Nat} {acts : List Act} {s : St} (r : Reach b e acts s) (h : Act.freeReceiver ∉ acts ∨ Act.freeConnection ∈ acts) (a : Act) : step s a ≠ .ub := by
  intro hu
  cases a <;> simp only [step] at hu <;> (repeat' split at hu) <;> try cases hu
  rename_i hq hr
  rcases h with h | h
  · exact hr (r.recv h)
  · rw [r.inv.closed (r.closed h)] at hq
    cases hq

/-- at most one end is on its way or told, none while the operation goes on, and it is the last event -/
structure Ends (s : St) : Prop where
  going : s.recv = true → s.op ≠ .idle → Msg.peerClosed ∉ s.box ∧ Ev.peerClosed ∉ s.seen
  one : s.box.count .peerClosed + s.seen.count .peerClosed ≤ 1
  last : Ev.peerClosed ∈ s.seen → ∃ l, s.seen = l ++ [.peerClosed]

theorem Ends.step {s s' : St} {a : Act} (E : Ends s) (h : Udp.step s a = .ok s') : Ends s' := by
  cases a with
  | arrive d e =>
    simp only [Udp.step] at h
    split at h <;> cases h
    exact ⟨E.going, E.one, E.last⟩
  | fill =>
    simp only [Udp.step] at h
    split at h
    · rename_i d e rest ho hq
      split at h <;> cases h
      exact ⟨fun hr _ => E.going hr (by rw [ho]; decide), E.one, E.last⟩
    · cases h
  | call =>
    simp only [Udp.step] at h
    split at h
    · rename_i k ho
      split at h
      · rename_i hr
        cases h
        have hg := E.going hr (by rw [ho]; intro hc; cases hc)
        rcases bool_cases s.dead with hd | hd
        · rw [tell_dead hd]
          exact ⟨fun _ _ => hg, E.one, E.last⟩
        · rw [tell_live hd]
          refine ⟨fun _ _ => ⟨hg.1, ?_⟩, ?_, fun hm => ?_⟩
          · show Ev.peerClosed ∉ s.seen ++ [_]
            simpa using hg.2
          · show s.box.count .peerClosed + (s.seen ++ [_]).count Ev.peerClosed ≤ 1
            have := E.one
            rw [List.count_append]
            simpa using this
          · have hm : Ev.peerClosed ∈ s.seen ++ [_] := hm
            simp [hg.2] at hm
      · rename_i hr
        cases h
        exact ⟨fun hr' => absurd hr' hr, E.one, E.last⟩
    · cases h
  | ended =>
    simp only [Udp.step] at h
    split at h
    · rename_i ho
      split at h
      · rename_i hr
        cases h
        have hg := E.going hr (by rw [ho]; decide)
        rcases bool_cases s.run with hrun | hrun
        · rw [post_run (s := { s with op := .idle }) hrun]
          refine ⟨fun _ hi => absurd rfl hi, ?_, E.last⟩
          show (s.box ++ [_]).count Msg.peerClosed + s.seen.count .peerClosed ≤ 1
          rw [List.count_append, List.count_eq_zero.2 hg.1, List.count_eq_zero.2 hg.2]
          decide
        · rw [post_stopped (s := { s with op := .idle }) hrun]
          exact ⟨fun _ hi => absurd rfl hi, E.one, E.last⟩
      · cases h
        exact ⟨fun _ hi => absurd rfl hi, E.one, E.last⟩
    · cases h
  | fault =>
    simp only [Udp.step] at h
    split at h
    · rename_i ho
      split at h
      · cases h
        unfold St.post
        split
        · refine ⟨fun hr hi => ?_, ?_, E.last⟩
          · have := E.going hr hi
            exact ⟨by simpa using this.1, this.2⟩
          · have := E.one
            simpa [List.count_append] using this
        · exact E
      · cases h
        exact ⟨fun _ hi => absurd rfl hi, E.one, E.last⟩
    · cases h
  | pill =>
    simp only [Udp.step] at h
    cases h
    unfold St.post
    split
    · refine ⟨fun hr hi => ?_, ?_, E.last⟩
      · have := E.going hr hi
        exact ⟨by simpa using this.1, this.2⟩
      · have := E.one
        simpa [List.count_append] using this
    · exact E
  | handle =>
    simp only [Udp.step] at h
    split at h
    · rename_i rest hrun hb
      cases h
      have h1 := E.one
      rw [hb] at h1
      refine ⟨fun hr hi => ?_, by simpa [List.count_cons] using h1, E.last⟩
      have := E.going hr hi
      rw [hb] at this
      exact ⟨fun hm => this.1 (List.mem_cons_of_mem _ hm), this.2⟩
    · rename_i rest hrun hb
      cases h
      have h1 := E.one
      rw [hb, List.count_cons_self] at h1
      have hs0 : Ev.peerClosed ∉ s.seen := List.count_eq_zero.1 (by omega)
      have hr0 : rest.count .peerClosed = 0 := by omega
      have hg : s.recv = true → s.op ≠ .idle → False := fun hr hi => (E.going hr hi).1 (by rw [hb]; exact List.mem_cons_self ..)
      have hrp : (rest ++ [Msg.pill]).count .peerClosed = 0 := by rw [List.count_append, hr0]; decide
      rcases bool_cases s.dead with hd | hd
      · rw [tell_dead (s := { s with box := rest }) hd, post_run (s := { s with box := rest }) hrun]
        refine ⟨fun hr hi => (hg hr hi).elim, ?_, E.last⟩
        show (rest ++ [Msg.pill]).count .peerClosed + s.seen.count .peerClosed ≤ 1
        omega
      · rw [tell_live (s := { s with box := rest }) hd, post_run (s := { s with box := rest, seen := s.seen ++ [Ev.peerClosed] }) hrun]
        refine ⟨fun hr hi => (hg hr hi).elim, ?_, fun _ => ⟨s.seen, rfl⟩⟩
        show (rest ++ [Msg.pill]).count .peerClosed + (s.seen ++ [Ev.peerClosed]).count .peerClosed ≤ 1
        rw [hrp, List.count_append, List.count_eq_zero.2 hs0]
        decide
    · rename_i rest hrun hb
      cases h
      have h1 := E.one
      rw [hb] at h1
      refine ⟨fun hr hi => ?_, by simpa [List.count_cons] using h1, E.last⟩
      have := E.going hr hi
      rw [hb] at this
      exact ⟨fun hm => this.1 (List.mem_cons_of_mem _ hm), this.2⟩
    · cases h
  | die =>
    simp only [Udp.step] at h
    split at h <;> cases h
    exact ⟨E.going, E.one, E.last⟩
  | freeReceiver =>
    simp only [Udp.step] at h
    (repeat' split at h) <;> cases h
    exact ⟨fun hr => (by cases hr), E.one, E.last⟩
  | freeConnection =>
    simp only [Udp.step] at h
    split at h
    · cases h
    · rename_i hr
      split at h
      · cases h
        exact ⟨fun hr' => absurd hr' hr, E.one, E.last⟩
      · cases h

theorem Reach.ends {b : Bytes} {e : Nat} {acts : List Act} {s : St} (r : Reach b e acts s) : Ends s := by
  induction r with
  | init => exact ⟨fun _ _ => ⟨by simp [St.init], by simp [St.init]⟩, Nat.zero_le _, fun h => by simp [St.init] at h⟩
  | step _ h ih => exact ih.step h

/-- The handler is told at most once that the binding has ended, and nothing after it. -/
theorem C70_closed_once {b : Bytes} {e : Nat} {acts : List Act} {s : St} (r : Reach b e acts s) (h : Ev.peerClosed ∈ s.seen) : ∃ l, s.seen = l ++ [.peerClosed] ∧ Ev.peerClosed ∉ l := by
  obtain ⟨l, hl⟩ := r.ends.last h
  refine ⟨l, hl, fun hm => ?_⟩
  have h1 := r.ends.one
  rw [hl, List.count_append] at h1
  have : 0 < l.count .peerClosed := List.count_pos_iff.2 hm
  have h2 : List.count Ev.peerClosed [Ev.peerClosed] = 1 := by decide
  omega

/-- with a pill in the mailbox the actor stops -/
theorem drive_pill : ∀ (pre post : List Msg) (s : St), s.run = true → s.box = pre ++ .pill :: post → ∃ k t, run s (List.replicate k .handle) = .ok t ∧ t.run = false ∧ s.seen <+: t.seen
  | [], post, s, hr, hb => ⟨1, { s with box := post, run := false }, by simp only [List.replicate, run, step, hr, hb, List.nil_append], rfl, List.prefix_refl _⟩
  | .pill :: pre, post, s, hr, hb => ⟨1, { s with box := pre ++ Msg.pill :: post, run := false }, by simp only [List.replicate, run, step, hr, hb, List.cons_append], rfl, List.prefix_refl _⟩
  | .error :: pre, post, s, hr, hb => by
    obtain ⟨k, t, h1, h2, h3⟩ := drive_pill pre post { s with box := pre ++ Msg.pill :: post } hr rfl
    exact ⟨k + 1, t, by simp only [List.replicate, run, step, hr, hb, List.cons_append]; rw [hr] at h1; exact h1, h2, h3⟩
  | .peerClosed :: pre, post, s, hr, hb => by
    have hs : step s .handle = .ok (({ s with box := pre ++ Msg.pill :: post }.tell .peerClosed).post .pill) := by simp only [step, hr, hb, List.cons_append]
    rcases bool_cases s.dead with hd | hd
    · rw [tell_dead (s := { s with box := pre ++ Msg.pill :: post }) hd, post_run (s := { s with box := pre ++ Msg.pill :: post }) hr] at hs
      obtain ⟨k, t, h1, h2, h3⟩ := drive_pill pre (post ++ [Msg.pill]) { s with box := pre ++ Msg.pill :: post ++ [Msg.pill] } hr (by simp)
      exact ⟨k + 1, t, by simp only [List.replicate, run, hs]; exact h1, h2, h3⟩
    · rw [tell_live (s := { s with box := pre ++ Msg.pill :: post }) hd, post_run (s := { s with box := pre ++ Msg.pill :: post, seen := s.seen ++ [Ev.peerClosed] }) hr] at hs
      obtain ⟨k, t, h1, h2, h3⟩ := drive_pill pre (post ++ [Msg.pill]) { s with box := pre ++ Msg.pill :: post ++ [Msg.pill], seen := s.seen ++ [Ev.peerClosed] } hr (by simp)
      exact ⟨k + 1, t, by simp only [List.replicate, run, hs]; exact h1, h2, (List.prefix_append _ _).trans h3⟩

/-- with an end in the mailbox the actor stops, and tells a living handler, if no pill is before it -/
theorem drive_end : ∀ (pre post : List Msg) (s : St), s.run = true → s.box = pre ++ .peerClosed :: post → ∃ k t, run s (List.replicate k .handle) = .ok t ∧ t.run = false ∧ (s.dead = false → Msg.pill ∉ pre → Ev.peerClosed ∈ t.seen)
  | .pill :: pre, post, s, hr, hb => ⟨1, { s with box := pre ++ Msg.peerClosed :: post, run := false }, by simp only [List.replicate, run, step, hr, hb, List.cons_append], rfl, fun _ h => absurd (List.mem_cons_self ..) h⟩
  | .error :: pre, post, s, hr, hb => by
    obtain ⟨k, t, h1, h2, h3⟩ := drive_end pre post { s with box := pre ++ Msg.peerClosed :: post } hr rfl
    exact ⟨k + 1, t, by simp only [List.replicate, run, step, hr, hb, List.cons_append]; rw [hr] at h1; exact h1, h2, fun hd hp => h3 hd fun hm => hp (List.mem_cons_of_mem _ hm)⟩
  | .peerClosed :: pre, post, s, hr, hb => drive_first (pre ++ Msg.peerClosed :: post) s hr hb
  | [], post, s, hr, hb => drive_first post s hr hb
where
  drive_first {p : Prop} (rest : List Msg) (s : St) (hr : s.run = true) (hb : s.box = .peerClosed :: rest) : ∃ k t, run s (List.replicate k .handle) = .ok t ∧ t.run = false ∧ (s.dead = false → p → Ev.peerClosed ∈ t.seen) := by
    have hs : step s .handle = .ok (({ s with box := rest }.tell .peerClosed).post .pill) := by simp only [step, hr, hb]
    rcases bool_cases s.dead with hd | hd
    · rw [tell_dead (s := { s with box := rest }) hd, post_run (s := { s with box := rest }) hr] at hs
      obtain ⟨k, t, h1, h2, h3⟩ := drive_pill rest [] { s with box := rest ++ [Msg.pill] } hr rfl
      exact ⟨k + 1, t, by simp only [List.replicate, run, hs]; exact h1, h2, fun hd' => by rw [hd] at hd'; cases hd'⟩
    · rw [tell_live (s := { s with box := rest }) hd, post_run (s := { s with box := rest, seen := s.seen ++ [Ev.peerClosed] }) hr] at hs
      obtain ⟨k, t, h1, h2, h3⟩ := drive_pill rest [] { s with box := rest ++ [Msg.pill], seen := s.seen ++ [Ev.peerClosed] } hr rfl
      exact ⟨k + 1, t, by simp only [List.replicate, run, hs]; exact h1, h2, fun _ _ => h3.subset (List.mem_append_right _ (List.mem_cons_self ..))⟩

/-- When the operation has ended, the actor stops by handling its mailbox, and tells a living handler, unless it was told to stop before. -/
theorem C70_stops {b : Bytes} {e : Nat} {acts : List Act} {s : St} (r : Reach b e acts s) (hi : s.op = .idle) (hrun : s.run = true) :
    ∃ k t, run s (List.replicate k .handle) = .ok t ∧ t.run = false ∧ (s.dead = false → Msg.pill ∉ s.box → Ev.peerClosed ∈ t.seen) := by
  rcases r.inv.alone hi (r.inv.recv hrun) hrun with h | h
  · obtain ⟨pre, post, hb⟩ := List.append_of_mem h
    obtain ⟨k, t, h1, h2, h3⟩ := drive_end pre post s hrun hb
    exact ⟨k, t, h1, h2, fun hd hp => h3 hd fun hm => hp (by rw [hb]; exact List.mem_append_left _ hm)⟩
  · obtain ⟨pre, post, hb⟩ := List.append_of_mem h
    obtain ⟨k, t, h1, h2, _⟩ := drive_pill pre post s hrun hb
    exact ⟨k, t, h1, h2, fun _ hp => absurd h hp⟩

/-- A pill stops the actor. -/
theorem C70_pill {s : St} (hp : Msg.pill ∈ s.box) (hrun : s.run = true) : ∃ k t, run s (List.replicate k .handle) = .ok t ∧ t.run = false := by
  obtain ⟨pre, post, hb⟩ := List.append_of_mem hp
  obtain ⟨k, t, h1, h2, _⟩ := drive_pill pre post s hrun hb
  exact ⟨k, t, h1, h2⟩

/-- The socket is closed in the end: a binding that has been told to stop is destroyed by its own steps. -/
theorem C70_ends {b : Bytes} {e : Nat} {acts : List Act} {s : St} (r : Reach b e acts s) (hr : s.run = false) (hs : s.sock = true) :
    ∃ fin t, run s fin = .ok t ∧ t.sock = false ∧ (∀ a, a ≠ .call → a ≠ .pill → a ≠ .die → step t a = .disabled) := by
  have _ := r
  cases hv : s.recv with
  | true =>
    refine ⟨[.freeReceiver, .freeConnection], _, by simp only [run, step, hr, hv, hs]; rfl, rfl, ?_⟩
    intro a h1 h2 h3
    cases a <;> first | contradiction | rfl | skip
    all_goals simp only [step, hr]
    all_goals cases s.op <;> rfl
  | false =>
    refine ⟨[.freeConnection], _, by simp only [run, step, hv, hs]; rfl, rfl, ?_⟩
    intro a h1 h2 h3
    cases a <;> first | contradiction | rfl | skip
    all_goals simp only [step, hr]
    all_goals cases s.op <;> rfl

/-! ## Violations -/

/-- The full property: no reachable step is undefined. -/
def Safe : Prop := ∀ (b : Bytes) (e : Nat) (acts : List Act) (s : St), Reach b e acts s → ∀ a, step s a ≠ .ub

theorem reach_run {b : Bytes} {e : Nat} {acts : List Act} {s t : St} (r : Reach b e acts s) (more : List Act) (h : run s more = .ok t) : Reach b e (acts ++ more) t := by
  induction more generalizing acts s with
  | nil => cases h; rw [List.append_nil]; exact r
  | cons a as ih =>
    simp only [run] at h
    split at h
    · rename_i s' hs
      have := ih (r.step hs) h
      rwa [List.append_assoc] at this
    · rename_i r' hne
      exact (hne _ h).elim

/-- A datagram arrives between the destruction of the receiver and the closing of the socket: the reactor writes the address of the sender into freed memory. -/
theorem C70_freed_violated : ¬ Safe := by
  intro h
  have r := reach_run (b := [0, 0]) (e := 0) .init [.pill, .handle, .arrive [1] 7, .freeReceiver] (t := { St.init [0, 0] 0 with queue := [([1], 7)], arrived := [([1], 7)], recv := false, run := false }) (by decide)
  exact h _ _ _ _ r .fill (by decide)

/-- The full property: a binding ends with its handler, that is, once the handler has died, letting the actors run closes the socket (no datagrams, no errors, no orders from outside). -/
def EndsWithHandler : Prop := ∀ (b : Bytes) (e : Nat) (acts : List Act) (s : St), Reach b e acts s → s.dead = true →
  ∃ fin t, run s fin = .ok t ∧ t.sock = false ∧ ∀ a ∈ fin, a = .handle ∨ a = .freeReceiver ∨ a = .freeConnection

theorem stuck : ∀ (fin : List Act) (s t : St), s.run = true → s.recv = true → s.sock = true → s.box = [] → (∀ a ∈ fin, a = Act.handle ∨ a = .freeReceiver ∨ a = .freeConnection) → run s fin = .ok t → t.sock = true
  | [], s, t, _, _, h3, _, _, hr => by cases hr; exact h3
  | a :: fin, s, t, h1, h2, h3, h4, ha, hr => by
    have hd : step s a = .disabled := by
      rcases ha a (List.mem_cons_self ..) with rfl | rfl | rfl
      · simp only [step, h1, h4]
      · simp only [step, h1]; rfl
      · simp only [step, h2]; rfl
    simp only [run, hd] at hr
    cases hr

/-- Nobody watches the handler of a UDP binding: after its death the socket stays open and the port taken. -/
theorem C70_orphan_violated : ¬ EndsWithHandler := by
  intro h
  have r := reach_run (b := [0, 0]) (e := 0) .init [.die] (t := { St.init [0, 0] 0 with dead := true }) (by decide)
  obtain ⟨fin, t, hr, ht, ha⟩ := h _ _ _ _ r rfl
  rw [stuck fin _ t rfl rfl rfl rfl ha hr] at ht
  cases ht

/-- The full property: every request is answered, with `bound` (`true`) if and only if there is a socket, and the socket is bound to the address asked for. -/
def BindAnswers : Prop := ∀ (free : Nat → Bool) (a : Addr), ∃ ok, (bind free a).1 = [ok] ∧ (ok = true ↔ (bind free a).2.isSome = true) ∧ ∀ x, (bind free a).2 = some x → x = a

/-- What does hold: `bound` is told at most once, only if there is a socket, which is so just if the port is free; its port is the one asked for, on all hosts. -/
theorem C70_bind_partial (free : Nat → Bool) (a : Addr) :
    (bind free a).1 = (bind free a).2.toList.map (fun _ => true) ∧ ((bind free a).2.isSome = true ↔ free a.2 = true) ∧ ∀ x, (bind free a).2 = some x → x = (0, a.2) := by
  obtain ⟨host, port⟩ := a
  simp only [bind]
  split
  · rename_i h
    refine ⟨rfl, by simp [h], fun x hx => by cases hx; rfl⟩
  · rename_i h
    refine ⟨rfl, by simp [h], fun x hx => by cases hx⟩

/-- A port in use: no answer. (And a free one: the socket accepts datagrams on every interface, not on the host asked for.) -/
theorem C70_bind_violated : ¬ BindAnswers ∧ ¬ (∀ a x, (bind (fun _ => true) a).2 = some x → x = a) := by
  constructor
  · intro h
    obtain ⟨ok, h, _⟩ := h (fun _ => false) (0, 80)
    simp [bind] at h
  · intro h
    have := h (1, 80) (0, 80) (by decide)
    simp at this

/-! ## The hypotheses can be met -/

/-- two datagrams, a long one and a short one: no byte of the first shows up in the second -/
example : ∃ s, Reach [0, 0, 0] 0 [.arrive [1, 2, 3] 7, .arrive [4] 8, .fill, .call, .fill, .call] s ∧ s.seen = [.received [1, 2, 3] 7, .received [4] 8] ∧ s.buf = [4, 2, 3] ∧ s.recv = true ∧ s.dead = false :=
  ⟨_, reach_run .init [.arrive [1, 2, 3] 7, .arrive [4] 8, .fill, .call, .fill, .call] (t := { St.init [4, 2, 3] 8 with arrived := [([1, 2, 3], 7), ([4], 8)], seen := [.received [1, 2, 3] 7, .received [4] 8] }) (by decide), by decide⟩

/-- a datagram in hand, and one that is cut off -/
example : ∃ s, Reach [0, 0, 0] 0 [.arrive [1, 2, 3, 4] 7, .arrive [5] 9, .fill] s ∧ inHand s = [([1, 2, 3], 7)] ∧ s.run = true ∧ s.box = [] ∧ s.queue = [([5], 9)] :=
  ⟨_, reach_run .init [.arrive [1, 2, 3, 4] 7, .arrive [5] 9, .fill] (t := { St.init [1, 2, 3] 7 with queue := [([5], 9)], arrived := [([1, 2, 3, 4], 7), ([5], 9)], op := .filled 3 }) (by decide), by decide⟩

/-- the end is reported, between errors -/
example : ∃ s, Reach [0] 0 [.fault, .fault, .ended] s ∧ s.op = .idle ∧ s.run = true ∧ s.dead = false ∧ s.box = [.error, .error, .peerClosed] :=
  ⟨_, reach_run .init [.fault, .fault, .ended] (t := { St.init [0] 0 with op := .idle, box := [.error, .error, .peerClosed] }) (by decide), by decide⟩

/-- … and told -/
example : ∃ s, Reach [0] 0 [.arrive [1] 2, .fill, .call, .fault, .ended, .handle, .handle, .handle] s ∧ s.run = false ∧ s.sock = true ∧ s.seen = [.received [1] 2, .peerClosed] :=
  ⟨_, reach_run .init [.arrive [1] 2, .fill, .call, .fault, .ended, .handle, .handle, .handle]
    (t := { St.init [1] 2 with arrived := [([1], 2)], op := .idle, run := false, seen := [.received [1] 2, .peerClosed] }) (by decide), by decide⟩

/-- a binding that ends while a datagram is in hand: the callback does nothing -/
example : ∃ s, Reach [0] 0 [.arrive [1] 7, .fill, .pill, .handle, .freeReceiver, .freeConnection, .call] s ∧ s.seen = [] ∧ s.sock = false :=
  ⟨_, reach_run .init [.arrive [1] 7, .fill, .pill, .handle, .freeReceiver, .freeConnection, .call]
    (t := { St.init [1] 7 with arrived := [([1], 7)], op := .idle, run := false, recv := false, sock := false }) (by decide), by decide⟩

end Verif.Udp
