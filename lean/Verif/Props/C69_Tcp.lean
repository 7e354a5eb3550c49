import Verif.Model.Tcp

/-!
# C69: TCP connections

`Reach ok acts s`: the interleaving `acts` of peer, kernel, io thread, actors and users leads to `s`, and the kernel behaves as `ok` says.
-/
set_option autoImplicit false

namespace Verif.Tcp

/-! ## Specification -/

/-- a read gives all the bytes that were said to be available -/
def FullRead (_ : St) (a : Act) : Prop := ∀ x k, a = .ready x k → k = x

/-- the socket is said to be readable only if there are bytes, or the peer has closed the connection -/
def NoSpurious (s : St) (a : Act) : Prop := ∀ x k, a = .ready x k → k = 0 → s.eof = true ∧ s.inb = []

/-- a send takes all the bytes -/
def FullSend (s : St) (a : Act) : Prop := ∀ n g d rest, a = .handle n g → s.box = .write d :: rest → d.length ≤ n

/-- the handler of the connection: the first that was assigned -/
def owner : List Msg → Option Nat
  | [] => none
  | .assign h :: _ => some h
  | _ :: l => owner l

/-- the bytes of all writes -/
def writes : List Msg → Bytes
  | [] => []
  | .write d :: l => d ++ writes l
  | _ :: l => writes l

/-- the bytes of the writes that come after the first handler was assigned -/
def written : List Msg → Bytes
  | [] => []
  | .assign _ :: l => writes l
  | _ :: l => written l

/-- the bytes that handlers were told -/
def bytes (l : List (Nat × Ev)) : Bytes := (l.map fun | (_, .received d) => d | (_, .peerClosed) => []).flatten

/-- what a handler is told: data, then possibly that the peer has closed -/
def Shape (l : List (Nat × Ev)) : Prop := ∃ (h : Nat) (ds : List Bytes) (c : Bool), l = ds.map (fun d => (h, Ev.received d)) ++ (if c then [(h, .peerClosed)] else [])

/-- messages of users -/
def Msg.isUser : Msg → Bool
  | .write _ => true
  | .assign _ => true
  | _ => false

def userMsgs (acts : List Act) : List Msg := acts.filterMap fun | .user (.write d) => some (.write d) | .user (.assign h) => some (.assign h) | _ => none

/-- a message that makes the actor stop sooner or later -/
def Msg.ends : Msg → Bool
  | .peerClosed => true
  | .terminated => true
  | .pill => true
  | _ => false

/-! ## Proofs -/

theorem owner_append (l : List Msg) (m : Msg) : owner (l ++ [m]) = match owner l with | some h => some h | none => owner [m] := by
  induction l with
  | nil => cases m <;> rfl
  | cons x l ih => cases x <;> simp only [List.cons_append, owner, ih]

theorem writes_append (l l' : List Msg) : writes (l ++ l') = writes l ++ writes l' := by
  induction l with
  | nil => rfl
  | cons x l ih => cases x <;> simp [writes, ih]

theorem written_none {l : List Msg} (h : owner l = none) : written l = [] := by
  induction l with
  | nil => rfl
  | cons x l ih => cases x <;> simp_all [owner, written]

theorem written_append (l : List Msg) (m : Msg) : written (l ++ [m]) = match owner l with | some _ => written l ++ writes [m] | none => [] := by
  induction l with
  | nil => cases m <;> rfl
  | cons x l ih =>
    cases x <;> simp only [List.cons_append, owner, written, ih]
    exact writes_append _ _

theorem bytes_append (l : List (Nat × Ev)) (h : Nat) (e : Ev) : bytes (l ++ [(h, e)]) = bytes l ++ match e with | .received d => d | .peerClosed => [] := by
  cases e <;> simp [bytes]

/-- the part of the invariant that holds in the middle of a message, too -/
structure Core (s : St) : Prop where
  rcv : ∀ h b, s.recv = some (h, b) → owner s.handled = some h
  noOwner : owner s.handled = none → s.seen = [] ∧ .terminated ∉ s.box ∧ .peerClosed ∉ s.box ∧ s.watch = .none
  watch : ∀ h, s.watch = .requested h ∨ s.watch = .registered h → owner s.handled = some h
  live : ∀ h, owner s.handled = some h → s.dead h = false → .terminated ∉ s.box
  armed : ∀ h, s.recv = some (h, true) → s.dead h = false → .peerClosed ∉ s.box ∧ (h, Ev.peerClosed) ∉ s.seen
  once : ∀ h, owner s.handled = some h → s.dead h = false → s.box.count .peerClosed + s.seen.count (h, .peerClosed) ≤ 1
  shape : ∃ (h : Nat) (ds : List Bytes) (c : Bool), (s.seen = [] ∨ owner s.handled = some h) ∧ s.seen = ds.map (fun d => (h, Ev.received d)) ++ (if c then [(h, .peerClosed)] else [])

structure Inv (s : St) : Prop extends Core s where
  rcvNone : s.recv = none → s.run = true → owner s.handled = none
  off : ∀ h, s.run = true → s.recv = some (h, false) → .peerClosed ∈ s.box ∨ .pill ∈ s.box
  left : ∀ h, s.run = true → s.watch = .registered h → s.dead h = true → ∃ m ∈ s.box, m.ends = true

theorem Core.init : Core St.init :=
  ⟨by simp [St.init], by simp [St.init], by simp [St.init], by simp [St.init], by simp [St.init], by simp [St.init], ⟨0, [], false, Or.inl rfl, rfl⟩⟩

theorem Inv.init : Inv St.init := ⟨Core.init, fun _ _ => rfl, by simp [St.init], by simp [St.init]⟩

theorem Core.post {s : St} {m : Msg} (c : Core s) (ht : m = .terminated → ∃ h, owner s.handled = some h ∧ s.dead h = true)
    (hp : m = .peerClosed → ∃ h, owner s.handled = some h ∧ (s.dead h = false → s.recv ≠ some (h, true) ∧ .peerClosed ∉ s.box ∧ (h, Ev.peerClosed) ∉ s.seen)) : Core (s.post m) := by
  unfold St.post
  split
  · refine ⟨c.rcv, ?_, c.watch, ?_, ?_, ?_, c.shape⟩
    · intro ho
      have ho : owner s.handled = none := ho
      obtain ⟨h1, h2, h3, h4⟩ := c.noOwner ho
      refine ⟨h1, ?_, ?_, h4⟩
      · intro hm
        rcases List.mem_append.1 hm with hm | hm
        · exact h2 hm
        · obtain ⟨h, hh, -⟩ := ht (by simpa using (List.mem_singleton.1 hm).symm)
          rw [ho] at hh; cases hh
      · intro hm
        rcases List.mem_append.1 hm with hm | hm
        · exact h3 hm
        · obtain ⟨h, hh, -⟩ := hp (by simpa using (List.mem_singleton.1 hm).symm)
          rw [ho] at hh; cases hh
    · intro h ho hd hm
      rcases List.mem_append.1 hm with hm | hm
      · exact c.live h ho hd hm
      · obtain ⟨h', hh, hd'⟩ := ht (by simpa using (List.mem_singleton.1 hm).symm)
        have ho : owner s.handled = some h := ho
        rw [ho] at hh; cases hh
        have hd : s.dead h = false := hd
        rw [hd] at hd'; cases hd'
    · intro h hr hd
      obtain ⟨h1, h2⟩ := c.armed h hr hd
      refine ⟨fun hm => ?_, h2⟩
      rcases List.mem_append.1 hm with hm | hm
      · exact h1 hm
      · obtain ⟨h', hh, hd'⟩ := hp (by simpa using (List.mem_singleton.1 hm).symm)
        have := c.rcv h true hr
        rw [this] at hh; cases hh
        exact (hd' hd).1 hr
    · intro h ho hd
      have ho : owner s.handled = some h := ho
      have h1 := c.once h ho hd
      simp only [List.count_append, List.count_singleton]
      split
      · rename_i hm
        obtain ⟨h', hh, hd'⟩ := hp (by simpa using hm)
        rw [ho] at hh; cases hh
        obtain ⟨-, h2, h3⟩ := hd' hd
        rw [List.count_eq_zero.2 h2, List.count_eq_zero.2 h3]
        decide
      · simpa using h1
  · exact c

theorem Inv.post {s : St} {m : Msg} (c : Inv s) (ht : m = .terminated → ∃ h, owner s.handled = some h ∧ s.dead h = true)
    (hp : m = .peerClosed → ∃ h, owner s.handled = some h ∧ (s.dead h = false → s.recv ≠ some (h, true) ∧ .peerClosed ∉ s.box ∧ (h, Ev.peerClosed) ∉ s.seen)) : Inv (s.post m) := by
  refine ⟨c.toCore.post ht hp, ?_, ?_, ?_⟩
  · unfold St.post; split
    · exact c.rcvNone
    · exact c.rcvNone
  · unfold St.post; split
    · intro h hr hs
      rcases c.off h hr hs with h | h
      · exact Or.inl (List.mem_append_left _ h)
      · exact Or.inr (List.mem_append_left _ h)
    · exact c.off
  · unfold St.post; split
    · intro h hr hw hd
      obtain ⟨m', hm, he⟩ := c.left h hr hw hd
      exact ⟨m', List.mem_append_left _ hm, he⟩
    · exact c.left

theorem mem_seen {s : St} (c : Core s) {h : Nat} {e : Ev} (hm : (h, e) ∈ s.seen) : owner s.handled = some h := by
  obtain ⟨h', ds, k, ho, hs⟩ := c.shape
  rcases ho with ho | ho
  · rw [ho] at hm; simp at hm
  · rw [hs] at hm
    rcases List.mem_append.1 hm with hm | hm
    · obtain ⟨d, -, hd⟩ := List.mem_map.1 hm
      rw [ho]; injection hd with h1 _; rw [h1]
    · split at hm
      · simp at hm; rw [ho, hm.1]
      · simp at hm

/-- telling data to the handler -/
theorem Core.tellReceived {s : St} (c : Core s) {h : Nat} {d : Bytes} (hr : s.recv = some (h, true)) : Core (s.tell h (.received d)) := by
  unfold St.tell
  split
  · exact c
  · rename_i hd
    have hd : s.dead h = false := by simpa using hd
    have ho := c.rcv h true hr
    refine ⟨c.rcv, ?_, c.watch, c.live, ?_, ?_, ?_⟩
    · intro hn
      have hn : owner s.handled = none := hn
      rw [ho] at hn; cases hn
    · intro h' hr' hd'
      obtain ⟨h1, h2⟩ := c.armed h' hr' hd'
      exact ⟨h1, by simpa using h2⟩
    · intro h' ho' hd'
      have := c.once h' ho' hd'
      simpa [List.count_append, List.count_singleton] using this
    · obtain ⟨h', ds, k, hh, hs⟩ := c.shape
      obtain ⟨-, h2⟩ := c.armed h hr hd
      have hk : k = false := by
        cases k with
        | false => rfl
        | true =>
          exfalso
          rcases hh with hh | hh
          · rw [hh] at hs; simp at hs
          · rw [ho] at hh; cases hh
            apply h2; rw [hs]; simp
      subst hk
      refine ⟨h, ds ++ [d], false, Or.inr ho, ?_⟩
      simp only [List.map_append, List.map_cons, List.map_nil, Bool.false_eq_true, if_false, List.append_nil]
      rw [hs]
      rcases hh with hh | hh
      · rw [hh] at hs
        have : ds = [] := by
          cases ds with
          | nil => rfl
          | cons _ _ => simp at hs
        subst this
        simp
      · rw [ho] at hh; cases hh; simp

/-- telling the end to the handler -/
theorem Core.tellClosed {s : St} (c : Core s) {h : Nat} {b : Bool} (hr : s.recv = some (h, b)) (hn : s.dead h = false → b = false ∧ .peerClosed ∉ s.box ∧ (h, Ev.peerClosed) ∉ s.seen) : Core (s.tell h .peerClosed) := by
  unfold St.tell
  split
  · exact c
  · rename_i hd
    have hd : s.dead h = false := by simpa using hd
    obtain ⟨hb, h1, h2⟩ := hn hd
    subst hb
    have ho := c.rcv h false hr
    refine ⟨c.rcv, ?_, c.watch, c.live, ?_, ?_, ?_⟩
    · intro hn
      have hn : owner s.handled = none := hn
      rw [ho] at hn; cases hn
    · intro h' hr' hd'
      have hr' : s.recv = some (h', true) := hr'
      rw [hr] at hr'; simp at hr'
    · intro h' ho' hd'
      have ho' : owner s.handled = some h' := ho'
      rw [ho] at ho'; cases ho'
      simp only [List.count_append, List.count_singleton]
      rw [List.count_eq_zero.2 h1, List.count_eq_zero.2 h2]
      simp
    · obtain ⟨h', ds, k, hh, hs⟩ := c.shape
      have hk : k = false := by
        cases k with
        | false => rfl
        | true =>
          exfalso
          rcases hh with hh | hh
          · rw [hh] at hs; simp at hs
          · rw [ho] at hh; cases hh
            apply h2; rw [hs]; simp
      subst hk
      refine ⟨h, ds, true, Or.inr ho, ?_⟩
      simp only [if_true]
      rw [hs]
      rcases hh with hh | hh
      · rw [hh] at hs
        have : ds = [] := by
          cases ds with
          | nil => rfl
          | cons _ _ => simp at hs
        subst this
        simp
      · rw [ho] at hh; cases hh; simp

/-- a message is taken from the mailbox -/
theorem Core.pop {s : St} (c : Core s) {m : Msg} {rest : List Msg} (hb : s.box = m :: rest) (hm : ∀ h, m = .assign h → owner s.handled ≠ none) : Core { s with box := rest, handled := s.handled ++ [m] } := by
  have ho : owner (s.handled ++ [m]) = owner s.handled := by
    rw [owner_append]
    cases e : owner s.handled with
    | some h => rfl
    | none => cases m <;> first | rfl | exact absurd e (hm _ rfl)
  have hsub : ∀ x, x ∈ rest → x ∈ s.box := fun x hx => by rw [hb]; exact List.mem_cons_of_mem _ hx
  refine ⟨?_, ?_, ?_, ?_, ?_, ?_, ?_⟩
  · intro h b hr; simp only [ho]; exact c.rcv h b hr
  · intro hn
    simp only [ho] at hn
    obtain ⟨h1, h2, h3, h4⟩ := c.noOwner hn
    exact ⟨h1, fun h => h2 (hsub _ h), fun h => h3 (hsub _ h), h4⟩
  · intro h hw; simp only [ho]; exact c.watch h hw
  · intro h hh hd hx; simp only [ho] at hh; exact c.live h hh hd (hsub _ hx)
  · intro h hr hd
    obtain ⟨h1, h2⟩ := c.armed h hr hd
    exact ⟨fun h => h1 (hsub _ h), h2⟩
  · intro h hh hd
    simp only [ho] at hh
    have := c.once h hh hd
    rw [hb, List.count_cons] at this
    simp only
    omega
  · simp only [ho]; exact c.shape

theorem Core.congr {s s' : St} (c : Core s) (h1 : s'.recv = s.recv) (h2 : s'.handled = s.handled) (h3 : s'.seen = s.seen) (h4 : s'.box = s.box) (h5 : s'.watch = s.watch) (h6 : s'.dead = s.dead) : Core s' := by
  obtain ⟨a1, a2, a3, a4, a5, a6, a7⟩ := c
  constructor
  · rw [h1, h2]; exact a1
  · rw [h2, h3, h4, h5]; exact a2
  · rw [h2, h5]; exact a3
  · rw [h2, h4, h6]; exact a4
  · rw [h1, h3, h4, h6]; exact a5
  · rw [h2, h3, h4, h6]; exact a6
  · rw [h2, h3]; exact a7

theorem Inv.congr {s s' : St} (c : Inv s) (h1 : s'.recv = s.recv) (h2 : s'.handled = s.handled) (h3 : s'.seen = s.seen) (h4 : s'.box = s.box) (h5 : s'.watch = s.watch) (h6 : s'.dead = s.dead) (h7 : s'.run = s.run) : Inv s' := by
  refine ⟨c.toCore.congr h1 h2 h3 h4 h5 h6, ?_, ?_, ?_⟩
  · rw [h1, h2, h7]; exact c.rcvNone
  · rw [h1, h4, h7]; exact c.off
  · rw [h4, h5, h6, h7]; exact c.left

theorem post_recv (s : St) (m : Msg) : (s.post m).recv = s.recv ∧ (s.post m).handled = s.handled ∧ (s.post m).seen = s.seen ∧ (s.post m).watch = s.watch ∧ (s.post m).dead = s.dead ∧ (s.post m).run = s.run := by
  unfold St.post; split <;> simp

theorem tell_recv (s : St) (h : Nat) (e : Ev) : (s.tell h e).recv = s.recv ∧ (s.tell h e).handled = s.handled ∧ (s.tell h e).box = s.box ∧ (s.tell h e).watch = s.watch ∧ (s.tell h e).dead = s.dead ∧ (s.tell h e).run = s.run := by
  unfold St.tell; split <;> simp

/-- the receiver ends and tells it to the actor -/
theorem Inv.shut {s : St} (c : Inv s) {h : Nat} (hr : s.recv = some (h, true)) (x : Bytes) : Inv ({ s with inb := x, recv := some (h, false) }.post .peerClosed) := by
  have ho := c.rcv h true hr
  have c1 : Core { s with inb := x, recv := some (h, false) } := by
    refine ⟨?_, c.noOwner, c.watch, c.live, ?_, c.once, c.shape⟩
    · intro h' b hb; simp at hb; rw [← hb.1]; exact ho
    · intro h' hb; simp at hb
  have c2 : Core ({ s with inb := x, recv := some (h, false) }.post .peerClosed) := by
    refine c1.post (by simp) (fun _ => ⟨h, ho, fun hd => ⟨by simp, c.armed h hr hd⟩⟩)
  refine ⟨c2, ?_, ?_, ?_⟩
  · intro hn; rw [(post_recv _ _).1] at hn; simp at hn
  · intro h' hrun _
    rw [(post_recv _ _).2.2.2.2.2] at hrun
    left
    have hrun : s.run = true := hrun
    simp [St.post, hrun]
  · intro h' hrun _ _
    rw [(post_recv _ _).2.2.2.2.2] at hrun
    have hrun : s.run = true := hrun
    exact ⟨.peerClosed, by simp [St.post, hrun], rfl⟩

theorem Inv.pop {s : St} (c : Inv s) {m : Msg} {rest : List Msg} (hb : s.box = m :: rest) (hm : ∀ h, m = .assign h → owner s.handled ≠ none) (he : m.ends = false) : Inv { s with box := rest, handled := s.handled ++ [m] } := by
  refine ⟨c.toCore.pop hb hm, ?_, ?_, ?_⟩
  · intro hr hrun
    have h1 := c.rcvNone hr hrun
    simp only
    rw [owner_append, h1]
    cases m <;> first | rfl | exact absurd h1 (hm _ rfl)
  · intro h hrun hr
    have := c.off h hrun hr
    rw [hb] at this
    rcases this with h | h
    · rcases List.mem_cons.1 h with h | h
      · subst h; cases he
      · exact Or.inl h
    · rcases List.mem_cons.1 h with h | h
      · subst h; cases he
      · exact Or.inr h
  · intro h hrun hw hd
    obtain ⟨m', hm', he'⟩ := c.left h hrun hw hd
    rw [hb] at hm'
    rcases List.mem_cons.1 hm' with h | h
    · subst h; rw [he] at he'; cases he'
    · exact ⟨m', h, he'⟩

theorem owner_of_closed {s : St} (c : Inv s) {m : Msg} (hrun : s.run = true) (hm : m ∈ s.box) (he : m = .peerClosed ∨ m = .terminated) : ∃ h b, s.recv = some (h, b) ∧ owner s.handled = some h := by
  cases hr : s.recv with
  | some p => exact ⟨p.1, p.2, rfl, c.rcv p.1 p.2 hr⟩
  | none =>
    obtain ⟨-, h2, h3, -⟩ := c.noOwner (c.rcvNone hr hrun)
    rcases he with he | he <;> subst he <;> contradiction

theorem Inv.receive {s : St} (c : Inv s) (n : Nat) (gone : Bool) {m : Msg} {rest : List Msg} (hrun : s.run = true) (hb : s.box = m :: rest) :
    Inv (Tcp.receive { s with box := rest, handled := s.handled ++ [m] } n gone m) := by
  cases m with
  | write d =>
    have c1 := c.pop hb (by simp) rfl
    simp only [Tcp.receive]
    split
    · exact c1.congr rfl rfl rfl rfl rfl rfl rfl
    · exact c1
  | error => exact c.pop hb (by simp) rfl
  | assign h =>
    simp only [Tcp.receive]
    cases hr : s.recv with
    | some p =>
      have := c.pop hb (fun h' _ => by rw [c.rcv p.1 p.2 hr]; simp) rfl
      simpa [hr] using this
    | none =>
      have hn := c.rcvNone hr hrun
      obtain ⟨h1, h2, h3, h4⟩ := c.noOwner hn
      have ho : owner (s.handled ++ [.assign h]) = some h := by rw [owner_append, hn]; rfl
      have hsub : ∀ x, x ∈ rest → x ∈ s.box := fun x hx => by rw [hb]; exact List.mem_cons_of_mem _ hx
      have h2' : .terminated ∉ rest := fun h => h2 (hsub _ h)
      have h3' : .peerClosed ∉ rest := fun h => h3 (hsub _ h)
      have key : ∀ w, (∀ h', w = .requested h' ∨ w = .registered h' → h' = h) → w ≠ .registered h → Inv { s with box := rest, handled := s.handled ++ [.assign h], recv := some (h, true), watch := w } := by
        intro w hw hw'
        refine ⟨⟨?_, ?_, ?_, ?_, ?_, ?_, ?_⟩, ?_, ?_, ?_⟩
        · intro h' b hb; simp at hb; simp only [ho]; rw [hb.1]
        · intro hn; simp only [ho] at hn; cases hn
        · intro h' hh; simp only [ho]; rw [hw h' hh]
        · intro h' _ _; exact h2'
        · intro h' _ _; exact ⟨h3', by simp [h1]⟩
        · intro h' _ _; simp [List.count_eq_zero.2 h3', h1]
        · exact ⟨0, [], false, Or.inl h1, h1⟩
        · intro hx; simp at hx
        · intro h' _ hx; simp at hx
        · intro h' _ hx _
          have hx : w = .registered h' := hx
          rw [hw h' (Or.inr hx)] at hx
          exact absurd hx hw'
      simp only
      split
      · rename_i hd
        have := key s.watch (by simp [h4]) (by simp [h4])
        split
        · exact this.post (fun _ => ⟨h, ho, hd⟩) (by simp)
        · exact this
      · exact key (.requested h) (by simp) (by simp)
  | peerClosed =>
    have hmem : .peerClosed ∈ s.box := by rw [hb]; simp
    obtain ⟨h, b, hr, ho⟩ := owner_of_closed c hrun hmem (Or.inl rfl)
    have hb' : s.dead h = false → b = false ∧ .peerClosed ∉ rest ∧ (h, Ev.peerClosed) ∉ s.seen := by
      intro hd
      refine ⟨?_, ?_⟩
      · cases b with
        | false => rfl
        | true => exact absurd hmem (c.armed h hr hd).1
      · have := c.once h ho hd
        rw [hb, List.count_cons_self] at this
        exact ⟨List.count_eq_zero.1 (by omega), List.count_eq_zero.1 (by omega)⟩
    have c1 := c.toCore.pop hb (by simp)
    simp only [Tcp.receive, hr]
    have c2 := Core.tellClosed c1 (h := h) (b := b) (by simp [hr]) hb'
    have c3 := c2.post (m := .pill) (by simp) (by simp)
    have hbox : .pill ∈ ((({ s with box := rest, handled := s.handled ++ [.peerClosed] } : St).tell h .peerClosed).post .pill).box := by
      simp [St.post, (tell_recv _ _ _).2.2.2.2.2, hrun]
    rw [← hr]
    refine ⟨c3, ?_, fun _ _ _ => Or.inr hbox, fun _ _ _ _ => ⟨.pill, hbox, rfl⟩⟩
    intro hn
    rw [(post_recv _ _).1, (tell_recv _ _ _).1] at hn
    have hn : s.recv = none := hn
    rw [hr] at hn; cases hn
  | terminated =>
    have hmem : .terminated ∈ s.box := by rw [hb]; simp
    obtain ⟨h, b, hr, ho⟩ := owner_of_closed c hrun hmem (Or.inr rfl)
    have hd : s.dead h = true := by
      cases hd : s.dead h with
      | true => rfl
      | false => exact absurd hmem (c.live h ho hd)
    have c1 := c.toCore.pop hb (by simp)
    have ho1 : owner (s.handled ++ [.terminated]) = some h := by rw [owner_append, ho]
    have c2 := c1.post (m := .peerClosed) (by simp) (fun _ => ⟨h, ho1, fun hd' => by simp [hd] at hd'⟩)
    have hbox : .peerClosed ∈ (({ s with box := rest, handled := s.handled ++ [.terminated] } : St).post .peerClosed).box := by
      simp [St.post, hrun]
    simp only [Tcp.receive]
    refine ⟨c2, ?_, fun _ _ _ => Or.inl hbox, fun _ _ _ _ => ⟨.peerClosed, hbox, rfl⟩⟩
    intro hn
    rw [(post_recv _ _).1] at hn
    have hn : s.recv = none := hn
    rw [hr] at hn; cases hn
  | pill =>
    have c1 := c.toCore.pop hb (by simp)
    simp only [Tcp.receive]
    exact ⟨c1.congr rfl rfl rfl rfl rfl rfl, by simp, by simp, by simp⟩

theorem Inv.step {s s' : St} {a : Act} (c : Inv s) (hs : step s a = some s') : Inv s' := by
  cases a with
  | peerSend d =>
    simp only [Tcp.step] at hs
    split at hs
    · cases hs
    · cases hs; exact c.congr rfl rfl rfl rfl rfl rfl rfl
  | peerClose => simp only [Tcp.step, Option.some.injEq] at hs; subst hs; exact c.congr rfl rfl rfl rfl rfl rfl rfl
  | peerReset => simp only [Tcp.step, Option.some.injEq] at hs; subst hs; exact c.congr rfl rfl rfl rfl rfl rfl rfl
  | user u =>
    simp only [Tcp.step, Option.some.injEq] at hs
    subst hs
    exact c.post (by cases u <;> simp [User.msg]) (by cases u <;> simp [User.msg])
  | ready a k =>
    simp only [Tcp.step] at hs
    split at hs
    · rename_i h hr
      split at hs
      · split at hs
        · cases hs; exact c.shut hr _
        · cases hs
          have c1 : Inv { s with inb := s.inb.drop k } := c.congr rfl rfl rfl rfl rfl rfl rfl
          have t := tell_recv { s with inb := s.inb.drop k } h (.received (s.inb.take k ++ List.replicate (a - k) 0))
          refine ⟨c1.toCore.tellReceived hr, ?_, ?_, ?_⟩
          · rw [t.1, t.2.1, t.2.2.2.2.2]; exact c1.rcvNone
          · rw [t.1, t.2.2.1, t.2.2.2.2.2]; exact c1.off
          · rw [t.2.2.1, t.2.2.2.1, t.2.2.2.2.1, t.2.2.2.2.2]; exact c1.left
      · cases hs
    · cases hs
  | ended =>
    simp only [Tcp.step] at hs
    split at hs
    · rename_i h hr
      split at hs
      · cases hs; exact c.shut hr _
      · cases hs
    · cases hs
  | fault =>
    simp only [Tcp.step] at hs
    split at hs
    · cases hs; exact c.post (by simp) (by simp)
    · cases hs
  | handle n gone =>
    simp only [Tcp.step] at hs
    split at hs
    · rename_i m rest hrun hb
      cases hs
      exact c.receive n gone hrun hb
    · cases hs
  | watchSeen =>
    simp only [Tcp.step] at hs
    split at hs
    · rename_i h hw
      split at hs
      · cases hs
      · rename_i hd
        cases hs
        have ho := c.watch h (Or.inl hw)
        refine ⟨⟨c.rcv, ?_, ?_, c.live, c.armed, c.once, c.shape⟩, c.rcvNone, c.off, ?_⟩
        · intro hn
          have hn : owner s.handled = none := hn
          rw [ho] at hn; cases hn
        · intro h' hh; simp at hh; subst hh; exact ho
        · intro h' _ hh hd'; simp at hh; subst hh; exact absurd hd' hd
    · cases hs
  | die h =>
    simp only [Tcp.step] at hs
    split at hs
    · cases hs
    · have hdead : ∀ i, (i == h || s.dead i) = false → s.dead i = false := fun i hi => by simp at hi; exact hi.2
      have c1 : Core { s with dead := fun i => i == h || s.dead i } :=
        ⟨c.rcv, c.noOwner, c.watch, fun i ho hd => c.live i ho (hdead i hd), fun i hr hd => c.armed i hr (hdead i hd), fun i ho hd => c.once i ho (hdead i hd), c.shape⟩
      cases hs
      split
      · rename_i hw
        have t := post_recv { s with dead := fun i => i == h || s.dead i } .terminated
        refine ⟨c1.post (fun _ => ⟨h, c.watch h (Or.inr hw), by simp⟩) (by simp), ?_, ?_, ?_⟩
        · rw [t.1, t.2.1, t.2.2.2.2.2]; exact c.rcvNone
        · intro h' hrun hr
          rw [t.1] at hr; rw [t.2.2.2.2.2] at hrun
          have hrun : s.run = true := hrun
          have := c.off h' hrun hr
          simp only [St.post, hrun, if_true, List.mem_append]
          rcases this with h | h
          · exact Or.inl (Or.inl h)
          · exact Or.inr (Or.inl h)
        · intro h' hrun _ _
          rw [t.2.2.2.2.2] at hrun
          have hrun : s.run = true := hrun
          exact ⟨.terminated, by simp [St.post, hrun], rfl⟩
      · rename_i hw
        refine ⟨c1, c.rcvNone, c.off, ?_⟩
        intro h' hrun hw' hd
        have hw' : s.watch = .registered h' := hw'
        refine c.left h' hrun hw' ?_
        simp at hd
        rcases hd with hd | hd
        · subst hd; exact absurd hw' hw
        · exact hd
  | destroy =>
    simp only [Tcp.step] at hs
    split at hs
    · cases hs
    · rename_i hrun
      cases hs
      refine ⟨⟨by simp, c.noOwner, c.watch, c.live, by simp, c.once, c.shape⟩, ?_, by simp, ?_⟩
      · intro _ h; exact absurd h hrun
      · intro _ h; exact absurd h hrun

theorem Inv.reach {ok : St → Act → Prop} {acts : List Act} {s : St} (h : Reach ok acts s) : Inv s := by
  induction h with
  | init => exact Inv.init
  | step _ _ hs ih => exact ih.step hs

/-! ### The data -/

/-- how a step changes the data -/
inductive Moves (s s' : St) (a : Act) : Prop
  | same (h : s'.seen = s.seen ∧ s'.inb = s.inb ∧ s'.sent = s.sent ∧ s'.eof = s.eof)
  | send (d : Bytes) (he : s.eof = false) (h : s'.seen = s.seen ∧ s'.inb = s.inb ++ d ∧ s'.sent = s.sent ++ d ∧ s'.eof = false)
  | close (h : s'.seen = s.seen ∧ s'.inb = s.inb ∧ s'.sent = s.sent ∧ s'.eof = true)
  | reset (ha : a = .peerReset) (h : s'.seen = s.seen ∧ s'.inb = [] ∧ s'.sent = s.sent ∧ s'.eof = true)
  | read (h x k : Nat) (ha : a = .ready x k) (hk : 0 < k) (hx : k ≤ x ∧ x ≤ s.inb.length) (hr : s.recv = some (h, true))
      (e : s'.seen = (if s.dead h then s.seen else s.seen ++ [(h, .received (s.inb.take k ++ List.replicate (x - k) 0))]) ∧ s'.inb = s.inb.drop k ∧ s'.sent = s.sent ∧ s'.eof = s.eof)
  | shut (h : Nat) (hd : s.dead h = false) (hr : s.recv = some (h, false)) (e : s'.seen = s.seen ++ [(h, .peerClosed)] ∧ s'.inb = s.inb ∧ s'.sent = s.sent ∧ s'.eof = s.eof)

theorem post_data (s : St) (m : Msg) : (s.post m).seen = s.seen ∧ (s.post m).inb = s.inb ∧ (s.post m).sent = s.sent ∧ (s.post m).eof = s.eof ∧ (s.post m).out = s.out := by
  unfold St.post; split <;> simp

theorem moves {s s' : St} {a : Act} (c : Inv s) (hs : step s a = some s') : Moves s s' a := by
  cases a with
  | peerSend d =>
    simp only [Tcp.step] at hs
    split at hs
    · cases hs
    · rename_i he
      cases hs; exact .send d (by simpa using he) ⟨rfl, rfl, rfl, by simpa using he⟩
  | peerClose => simp only [Tcp.step, Option.some.injEq] at hs; subst hs; exact .close ⟨rfl, rfl, rfl, rfl⟩
  | peerReset => simp only [Tcp.step, Option.some.injEq] at hs; subst hs; exact .reset rfl ⟨rfl, rfl, rfl, rfl⟩
  | user u =>
    simp only [Tcp.step, Option.some.injEq] at hs
    subst hs
    have t := post_data s u.msg
    exact .same ⟨t.1, t.2.1, t.2.2.1, t.2.2.2.1⟩
  | ready a k =>
    simp only [Tcp.step] at hs
    split at hs
    · rename_i h hr
      split at hs
      · rename_i hx
        split at hs
        · rename_i hk
          subst hk
          cases hs
          have t := post_data { s with inb := s.inb.drop 0, recv := some (h, false) } .peerClosed
          exact .same ⟨t.1, t.2.1, t.2.2.1, t.2.2.2.1⟩
        · rename_i hk
          cases hs
          refine .read h a k rfl (Nat.pos_of_ne_zero hk) ⟨hx.2, hx.1⟩ hr ?_
          unfold St.tell
          simp only
          split <;> simp
      · cases hs
    · cases hs
  | ended =>
    simp only [Tcp.step] at hs
    split at hs
    · rename_i h hr
      split at hs
      · cases hs
        have t := post_data { s with recv := some (h, false) } .peerClosed
        exact .same ⟨t.1, t.2.1, t.2.2.1, t.2.2.2.1⟩
      · cases hs
    · cases hs
  | fault =>
    simp only [Tcp.step] at hs
    split at hs
    · cases hs
      have t := post_data s .error
      exact .same ⟨t.1, t.2.1, t.2.2.1, t.2.2.2.1⟩
    · cases hs
  | handle n gone =>
    simp only [Tcp.step] at hs
    split at hs
    · rename_i m rest hrun hb
      cases hs
      cases m with
      | write d => simp only [Tcp.receive]; split <;> exact .same ⟨rfl, rfl, rfl, rfl⟩
      | error => exact .same ⟨rfl, rfl, rfl, rfl⟩
      | pill => exact .same ⟨rfl, rfl, rfl, rfl⟩
      | terminated =>
        have t := post_data { s with box := rest, handled := s.handled ++ [.terminated] } .peerClosed
        exact .same ⟨t.1, t.2.1, t.2.2.1, t.2.2.2.1⟩
      | assign h =>
        simp only [Tcp.receive]
        split
        · exact .same ⟨rfl, rfl, rfl, rfl⟩
        · split
          · split
            · have t := post_data { s with box := rest, handled := s.handled ++ [.assign h], recv := some (h, true) } .terminated
              exact .same ⟨t.1, t.2.1, t.2.2.1, t.2.2.2.1⟩
            · exact .same ⟨rfl, rfl, rfl, rfl⟩
          · exact .same ⟨rfl, rfl, rfl, rfl⟩
      | peerClosed =>
        have hmem : .peerClosed ∈ s.box := by rw [hb]; simp
        obtain ⟨h, b, hr, ho⟩ := owner_of_closed c hrun hmem (Or.inl rfl)
        simp only [Tcp.receive, hr]
        cases hd : s.dead h with
        | true =>
          have t := post_data (({ s with box := rest, handled := s.handled ++ [.peerClosed] } : St).tell h .peerClosed) .pill
          rw [hr] at t
          refine .same ?_
          rw [t.1, t.2.1, t.2.2.1, t.2.2.2.1]
          simp [St.tell, hd]
        | false =>
          cases b with
          | true => exact absurd hmem (c.armed h hr hd).1
          | false =>
            have t := post_data (({ s with box := rest, handled := s.handled ++ [.peerClosed] } : St).tell h .peerClosed) .pill
            rw [hr] at t
            refine .shut h hd hr ?_
            rw [t.1, t.2.1, t.2.2.1, t.2.2.2.1]
            simp [St.tell, hd]
    · cases hs
  | watchSeen =>
    simp only [Tcp.step] at hs
    split at hs
    · split at hs
      · cases hs
      · cases hs; exact .same ⟨rfl, rfl, rfl, rfl⟩
    · cases hs
  | die h =>
    simp only [Tcp.step] at hs
    split at hs
    · cases hs
    · cases hs
      split
      · have t := post_data { s with dead := fun i => i == h || s.dead i } .terminated
        exact .same ⟨t.1, t.2.1, t.2.2.1, t.2.2.2.1⟩
      · exact .same ⟨rfl, rfl, rfl, rfl⟩
  | destroy =>
    simp only [Tcp.step] at hs
    split at hs
    · cases hs
    · cases hs; exact .same ⟨rfl, rfl, rfl, rfl⟩

/-- handlers do not come back to life -/
theorem dead_mono {s s' : St} {a : Act} (hs : step s a = some s') (h : Nat) (hd : s'.dead h = false) : s.dead h = false := by
  have key : ∀ t : St, t.dead = s.dead → s' = t → s.dead h = false := fun t h1 h2 => by rw [h2, h1] at hd; exact hd
  cases a with
  | peerSend d => simp only [Tcp.step] at hs; split at hs <;> cases hs; exact hd
  | peerClose => simp only [Tcp.step, Option.some.injEq] at hs; subst hs; exact hd
  | peerReset => simp only [Tcp.step, Option.some.injEq] at hs; subst hs; exact hd
  | user u => simp only [Tcp.step, Option.some.injEq] at hs; subst hs; rwa [(post_recv _ _).2.2.2.2.1] at hd
  | ready a k =>
    simp only [Tcp.step] at hs
    split at hs
    · split at hs
      · split at hs <;> cases hs
        · rwa [(post_recv _ _).2.2.2.2.1] at hd
        · rwa [(tell_recv _ _ _).2.2.2.2.1] at hd
      · cases hs
    · cases hs
  | ended =>
    simp only [Tcp.step] at hs
    split at hs
    · split at hs <;> cases hs
      rwa [(post_recv _ _).2.2.2.2.1] at hd
    · cases hs
  | fault =>
    simp only [Tcp.step] at hs
    split at hs <;> cases hs
    rwa [(post_recv _ _).2.2.2.2.1] at hd
  | handle n gone =>
    simp only [Tcp.step] at hs
    split at hs
    · rename_i m rest hrun hb
      cases hs
      cases m with
      | write d => simp only [Tcp.receive] at hd; split at hd <;> exact hd
      | error => exact hd
      | pill => exact hd
      | terminated => simp only [Tcp.receive] at hd; rwa [(post_recv _ _).2.2.2.2.1] at hd
      | assign h' =>
        simp only [Tcp.receive] at hd
        split at hd
        · exact hd
        · split at hd
          · split at hd
            · rwa [(post_recv _ _).2.2.2.2.1] at hd
            · exact hd
          · exact hd
      | peerClosed =>
        simp only [Tcp.receive] at hd
        split at hd
        · rwa [(post_recv _ _).2.2.2.2.1, (tell_recv _ _ _).2.2.2.2.1] at hd
        · rwa [(post_recv _ _).2.2.2.2.1] at hd
    · cases hs
  | watchSeen =>
    simp only [Tcp.step] at hs
    split at hs
    · split at hs <;> cases hs; exact hd
    · cases hs
  | die h' =>
    simp only [Tcp.step] at hs
    split at hs
    · cases hs
    · cases hs
      split at hd
      · rw [(post_recv _ _).2.2.2.2.1] at hd
        simp at hd; exact hd.2
      · simp at hd; exact hd.2
  | destroy => simp only [Tcp.step] at hs; split at hs <;> cases hs; exact hd

/-- messages that are handled stay handled -/
theorem handled_step {s s' : St} {a : Act} (hs : step s a = some s') : s'.handled = s.handled ∨ ∃ n gone m rest, a = .handle n gone ∧ s.run = true ∧ s.box = m :: rest ∧ s'.handled = s.handled ++ [m] := by
  cases a with
  | peerSend d => simp only [Tcp.step] at hs; split at hs <;> cases hs; exact Or.inl rfl
  | peerClose => simp only [Tcp.step, Option.some.injEq] at hs; subst hs; exact Or.inl rfl
  | peerReset => simp only [Tcp.step, Option.some.injEq] at hs; subst hs; exact Or.inl rfl
  | user u => simp only [Tcp.step, Option.some.injEq] at hs; subst hs; exact Or.inl (post_recv _ _).2.1
  | ready a k =>
    simp only [Tcp.step] at hs
    split at hs
    · split at hs
      · split at hs <;> cases hs
        · exact Or.inl (post_recv _ _).2.1
        · exact Or.inl (tell_recv _ _ _).2.1
      · cases hs
    · cases hs
  | ended =>
    simp only [Tcp.step] at hs
    split at hs
    · split at hs <;> cases hs
      exact Or.inl (post_recv _ _).2.1
    · cases hs
  | fault =>
    simp only [Tcp.step] at hs
    split at hs <;> cases hs
    exact Or.inl (post_recv _ _).2.1
  | handle n gone =>
    simp only [Tcp.step] at hs
    split at hs
    · rename_i m rest hrun hb
      cases hs
      refine Or.inr ⟨n, gone, m, rest, rfl, hrun, hb, ?_⟩
      cases m with
      | write d => simp only [Tcp.receive]; split <;> rfl
      | error => rfl
      | pill => rfl
      | terminated => exact (post_recv _ _).2.1
      | assign h' =>
        simp only [Tcp.receive]
        split
        · rfl
        · split
          · split
            · exact (post_recv _ _).2.1
            · rfl
          · rfl
      | peerClosed =>
        simp only [Tcp.receive]
        split
        · rw [(post_recv _ _).2.1]; exact (tell_recv _ _ _).2.1
        · exact (post_recv _ _).2.1
    · cases hs
  | watchSeen =>
    simp only [Tcp.step] at hs
    split at hs
    · split at hs <;> cases hs; exact Or.inl rfl
    · cases hs
  | die h' =>
    simp only [Tcp.step] at hs
    split at hs
    · cases hs
    · cases hs
      split
      · exact Or.inl (post_recv _ _).2.1
      · exact Or.inl rfl
  | destroy => simp only [Tcp.step] at hs; split at hs <;> cases hs; exact Or.inl rfl

/-- the handler, if there is one, is alive -/
def Live (s : St) : Prop := ∀ h, owner s.handled = some h → s.dead h = false

theorem live_back {s s' : St} {a : Act} (hs : step s a = some s') (hl : Live s') : Live s := by
  intro h ho
  refine dead_mono hs h (hl h ?_)
  rcases handled_step hs with e | ⟨-, -, m, -, -, -, -, e⟩
  · rw [e]; exact ho
  · rw [e, owner_append, ho]

theorem take_fill {l : Bytes} {k : Nat} : l.take k ++ List.replicate (k - k) 0 = l.take k := by simp

theorem data_read {ok : St → Act → Prop} (hok : ∀ s a, ok s a → FullRead s a) {acts : List Act} {s : St} (h : Reach ok acts s) :
    bytes s.seen <+: s.sent ∧ (Live s → bytes s.seen ++ s.inb <+: s.sent ∧ (.peerReset ∉ acts ∨ s.eof = false → bytes s.seen ++ s.inb = s.sent)) := by
  induction h with
  | init => exact ⟨List.prefix_rfl, fun _ => ⟨List.prefix_rfl, fun _ => rfl⟩⟩
  | @step acts s s' a hr ha hs ih =>
    have c := Inv.reach hr
    obtain ⟨h1, h2⟩ := ih
    have hlb := live_back hs
    have hno : .peerReset ∉ acts ++ [a] → .peerReset ∉ acts := fun h h' => h (List.mem_append_left _ h')
    rcases moves c hs with ⟨e1, e2, e3, e4⟩ | ⟨d, he, e1, e2, e3, e4⟩ | ⟨e1, e2, e3, e4⟩ | ⟨ha', e1, e2, e3, e4⟩ | ⟨h, x, k, ha', hk, hx, hrr, e1, e2, e3, e4⟩ | ⟨h, hd, hrr, e1, e2, e3, e4⟩
    · rw [e1, e2, e3, e4]; exact ⟨h1, fun hl => ⟨(h2 (hlb hl)).1, fun hn => (h2 (hlb hl)).2 (hn.imp hno id)⟩⟩
    · rw [e1, e2, e3]
      refine ⟨h1.trans (List.prefix_append _ _), fun hl => ?_⟩
      have : bytes s.seen ++ (s.inb ++ d) = s.sent ++ d := by rw [← (h2 (hlb hl)).2 (Or.inr he)]; simp
      rw [this]
      exact ⟨List.prefix_rfl, fun _ => rfl⟩
    · rw [e1, e2, e3, e4]; exact ⟨h1, fun hl => ⟨(h2 (hlb hl)).1, fun hn => (h2 (hlb hl)).2 (hn.imp hno (by simp))⟩⟩
    · rw [e1, e2, e3, e4]
      refine ⟨h1, fun _ => ⟨by simpa using h1, fun hn => ?_⟩⟩
      rcases hn with hn | hn
      · exact absurd (by rw [ha']; simp) hn
      · cases hn
    · have hkx := hok _ _ ha x k ha'
      subst hkx
      rw [e1, e2, e3, e4]
      cases hd : s.dead h with
      | true =>
        simp only [if_true]
        refine ⟨h1, fun hl => ?_⟩
        have := hlb hl h (c.rcv h true hrr)
        rw [hd] at this; cases this
      | false =>
        have hl : Live s := fun h' ho => by
          rw [c.rcv h true hrr] at ho; cases ho; exact hd
        obtain ⟨h3, h4⟩ := h2 hl
        simp only [Bool.false_eq_true, if_false, bytes_append, take_fill]
        have e : bytes s.seen ++ List.take k s.inb ++ List.drop k s.inb = bytes s.seen ++ s.inb := by rw [List.append_assoc, List.take_append_drop]
        refine ⟨List.IsPrefix.trans ⟨List.drop k s.inb, e⟩ h3, fun _ => ?_⟩
        rw [e]
        exact ⟨h3, fun hn => h4 (hn.imp hno id)⟩
    · rw [e1, e2, e3, e4, bytes_append]
      simp only [List.append_nil]
      exact ⟨h1, fun hl => ⟨(h2 (hlb hl)).1, fun hn => (h2 (hlb hl)).2 (hn.imp hno id)⟩⟩

/-- the receiver is switched off only by itself -/
theorem off_step {s s' : St} {a : Act} (c : Inv s) (hs : step s a = some s') (h : Nat) (hr : s'.recv = some (h, false)) :
    s.recv = some (h, false) ∨ (s'.inb = s.inb ∧ s'.eof = s.eof ∧ ((∃ x, a = .ready x 0) ∨ (s.eof = true ∧ s.inb = []))) := by
  cases a with
  | peerSend d => simp only [Tcp.step] at hs; split at hs <;> cases hs; exact Or.inl hr
  | peerClose => simp only [Tcp.step, Option.some.injEq] at hs; subst hs; exact Or.inl hr
  | peerReset => simp only [Tcp.step, Option.some.injEq] at hs; subst hs; exact Or.inl hr
  | user u => simp only [Tcp.step, Option.some.injEq] at hs; subst hs; rw [(post_recv _ _).1] at hr; exact Or.inl hr
  | ready a k =>
    simp only [Tcp.step] at hs
    split at hs
    · rename_i h' hrr
      split at hs
      · split at hs <;> cases hs
        · rename_i hk
          subst hk
          right
          have t := post_data { s with inb := s.inb.drop 0, recv := some (h', false) } .peerClosed
          exact ⟨t.2.1, t.2.2.2.1, Or.inl ⟨_, rfl⟩⟩
        · rw [(tell_recv _ _ _).1] at hr
          exact Or.inl hr
      · cases hs
    · cases hs
  | ended =>
    simp only [Tcp.step] at hs
    split at hs
    · rename_i h' hrr
      split at hs <;> cases hs
      rename_i he
      right
      have t := post_data { s with recv := some (h', false) } .peerClosed
      exact ⟨t.2.1, t.2.2.2.1, Or.inr he⟩
    · cases hs
  | fault =>
    simp only [Tcp.step] at hs
    split at hs <;> cases hs
    rw [(post_recv _ _).1] at hr; exact Or.inl hr
  | handle n gone =>
    simp only [Tcp.step] at hs
    split at hs
    · rename_i m rest hrun hb
      cases hs
      left
      cases m with
      | write d => simp only [Tcp.receive] at hr; split at hr <;> exact hr
      | error => exact hr
      | pill => exact hr
      | terminated => simp only [Tcp.receive] at hr; rwa [(post_recv _ _).1] at hr
      | assign h' =>
        simp only [Tcp.receive] at hr
        split at hr
        · exact hr
        · split at hr
          · split at hr
            · rw [(post_recv _ _).1] at hr; simp at hr
            · simp at hr
          · simp at hr
      | peerClosed =>
        simp only [Tcp.receive] at hr
        split at hr
        · rwa [(post_recv _ _).1, (tell_recv _ _ _).1] at hr
        · rwa [(post_recv _ _).1] at hr
    · cases hs
  | watchSeen =>
    simp only [Tcp.step] at hs
    split at hs
    · split at hs <;> cases hs; exact Or.inl hr
    · cases hs
  | die h' =>
    simp only [Tcp.step] at hs
    split at hs
    · cases hs
    · cases hs
      split at hr
      · rw [(post_recv _ _).1] at hr; exact Or.inl hr
      · exact Or.inl hr
  | destroy => simp only [Tcp.step] at hs; split at hs <;> cases hs; simp at hr

theorem data_closed {ok : St → Act → Prop} (hok : ∀ s a, ok s a → FullRead s a ∧ NoSpurious s a) {acts : List Act} {s : St} (h : Reach ok acts s) :
    (∀ h, s.recv = some (h, false) → s.eof = true ∧ s.inb = []) ∧ (∀ h, (h, Ev.peerClosed) ∈ s.seen → s.eof = true ∧ s.inb = [] ∧ (.peerReset ∉ acts → bytes s.seen = s.sent)) := by
  induction h with
  | init => exact ⟨by simp [St.init], by simp [St.init]⟩
  | @step acts s s' a hr ha hs ih =>
    have c := Inv.reach hr
    obtain ⟨h1, h2⟩ := ih
    have hno : .peerReset ∉ acts ++ [a] → .peerReset ∉ acts := fun h h' => h (List.mem_append_left _ h')
    have hrd := data_read (fun s a h => (hok s a h).1) hr
    have hmv := moves c hs
    have hkeep : s.eof = true ∧ s.inb = [] → s'.eof = true ∧ s'.inb = [] := by
      intro ⟨g1, g2⟩
      rcases hmv with ⟨e1, e2, e3, e4⟩ | ⟨d, he, e1, e2, e3, e4⟩ | ⟨e1, e2, e3, e4⟩ | ⟨ha', e1, e2, e3, e4⟩ | ⟨h, x, k, ha', hk, hx, hrr, e1, e2, e3, e4⟩ | ⟨h, hd, hrr, e1, e2, e3, e4⟩
      · rw [e2, e4]; exact ⟨g1, g2⟩
      · rw [g1] at he; cases he
      · rw [e2, e4]; exact ⟨rfl, g2⟩
      · rw [e2, e4]; exact ⟨rfl, rfl⟩
      · rw [g2] at hx; simp at hx; omega
      · rw [e2, e4]; exact ⟨g1, g2⟩
    refine ⟨fun h hrr => ?_, fun h hm => ?_⟩
    · rcases off_step c hs h hrr with g | ⟨g1, g2, g3⟩
      · exact hkeep (h1 h g)
      · rw [g1, g2]
        rcases g3 with ⟨x, rfl⟩ | g3
        · exact (hok _ _ ha).2 x 0 rfl rfl
        · exact g3
    · rcases hmv with ⟨e1, e2, e3, e4⟩ | ⟨d, he, e1, e2, e3, e4⟩ | ⟨e1, e2, e3, e4⟩ | ⟨ha', e1, e2, e3, e4⟩ | ⟨h', x, k, ha', hk, hx, hrr, e1, e2, e3, e4⟩ | ⟨h', hd, hrr, e1, e2, e3, e4⟩
      · rw [e1] at hm; obtain ⟨g1, g2, g3⟩ := h2 h hm
        rw [e1, e2, e3, e4]; exact ⟨g1, g2, fun hn => g3 (hno hn)⟩
      · rw [e1] at hm; obtain ⟨g1, g2, g3⟩ := h2 h hm
        rw [g1] at he; cases he
      · rw [e1] at hm; obtain ⟨g1, g2, g3⟩ := h2 h hm
        rw [e1, e2, e3, e4]; exact ⟨rfl, g2, fun hn => g3 (hno hn)⟩
      · rw [e1] at hm; obtain ⟨g1, g2, g3⟩ := h2 h hm
        rw [e1, e2, e3, e4]; exact ⟨rfl, rfl, fun hn => g3 (hno hn)⟩
      · have hm' : (h, Ev.peerClosed) ∈ s.seen := by
          rw [e1] at hm
          split at hm
          · exact hm
          · simpa using hm
        obtain ⟨g1, g2, g3⟩ := h2 h hm'
        rw [g2] at hx; simp at hx; omega
      · obtain ⟨g1, g2⟩ := h1 h' hrr
        rw [e1, e2, e3, e4, bytes_append]
        refine ⟨g1, g2, fun hn => ?_⟩
        have hl : Live s := fun i ho => by rw [c.rcv h' false hrr] at ho; cases ho; exact hd
        have := (hrd.2 hl).2 (Or.inl (hno hn))
        rw [g2, List.append_nil] at this
        simpa using this

theorem out_written {ok : St → Act → Prop} (hok : ∀ s a, ok s a → FullSend s a) {acts : List Act} {s : St} (h : Reach ok acts s) : s.out = written s.handled := by
  induction h with
  | init => rfl
  | @step acts s s' a hr ha hs ih =>
    have c := Inv.reach hr
    cases a with
    | peerSend d => simp only [Tcp.step] at hs; split at hs <;> cases hs; exact ih
    | peerClose => simp only [Tcp.step, Option.some.injEq] at hs; subst hs; exact ih
    | peerReset => simp only [Tcp.step, Option.some.injEq] at hs; subst hs; exact ih
    | user u => simp only [Tcp.step, Option.some.injEq] at hs; subst hs; rw [(post_data _ _).2.2.2.2, (post_recv _ _).2.1]; exact ih
    | ready a k =>
      simp only [Tcp.step] at hs
      split at hs
      · split at hs
        · split at hs <;> cases hs
          · rw [(post_data _ _).2.2.2.2, (post_recv _ _).2.1]; exact ih
          · rw [(tell_recv _ _ _).2.1]; unfold St.tell; split <;> exact ih
        · cases hs
      · cases hs
    | ended =>
      simp only [Tcp.step] at hs
      split at hs
      · split at hs <;> cases hs
        rw [(post_data _ _).2.2.2.2, (post_recv _ _).2.1]; exact ih
      · cases hs
    | fault =>
      simp only [Tcp.step] at hs
      split at hs <;> cases hs
      rw [(post_data _ _).2.2.2.2, (post_recv _ _).2.1]; exact ih
    | handle n gone =>
      simp only [Tcp.step] at hs
      split at hs
      · rename_i m rest hrun hb
        cases hs
        have hw : ∀ m', writes [m'] = [] → s.out = written (s.handled ++ [m']) := by
          intro m' hm'
          rw [written_append]
          cases e : owner s.handled with
          | some h => simp only; rw [hm', List.append_nil]; exact ih
          | none => rw [ih]; exact written_none e
        cases m with
        | write d =>
          simp only [Tcp.receive]
          cases hrr : s.recv with
          | some p =>
            simp only
            rw [written_append, c.rcv p.1 p.2 hrr, List.take_of_length_le (hok _ _ ha n gone d rest rfl hb)]
            simp [writes, ih]
          | none =>
            simp only
            rw [written_append, c.rcvNone hrr hrun, ih]
            exact written_none (c.rcvNone hrr hrun)
        | error => exact hw _ rfl
        | pill => exact hw _ rfl
        | terminated => simp only [Tcp.receive]; rw [(post_data _ _).2.2.2.2, (post_recv _ _).2.1]; exact hw _ rfl
        | assign h' =>
          simp only [Tcp.receive]
          split
          · exact hw _ rfl
          · split
            · split
              · rw [(post_data _ _).2.2.2.2, (post_recv _ _).2.1]; exact hw _ rfl
              · exact hw _ rfl
            · exact hw _ rfl
        | peerClosed =>
          simp only [Tcp.receive]
          split
          · rw [(post_data _ _).2.2.2.2, (post_recv _ _).2.1, (tell_recv _ _ _).2.1]
            unfold St.tell
            split <;> exact hw _ rfl
          · rw [(post_data _ _).2.2.2.2, (post_recv _ _).2.1]; exact hw _ rfl
      · cases hs
    | watchSeen =>
      simp only [Tcp.step] at hs
      split at hs
      · split at hs <;> cases hs; exact ih
      · cases hs
    | die h' =>
      simp only [Tcp.step] at hs
      split at hs
      · cases hs
      · cases hs
        split
        · rw [(post_data _ _).2.2.2.2, (post_recv _ _).2.1]; exact ih
        · exact ih
    | destroy => simp only [Tcp.step] at hs; split at hs <;> cases hs; exact ih

/-! ### The mailbox -/

theorem post_box (s : St) (m : Msg) : (s.post m).box = if s.run then s.box ++ [m] else s.box := by
  unfold St.post; split <;> rfl

/-- what a step does to the messages of users, and to the others -/
theorem box_step {s s' : St} {a : Act} (hs : step s a = some s') :
    ((s'.handled ++ s'.box).filter Msg.isUser = (s.handled ++ s.box).filter Msg.isUser ++ (if s.run then userMsgs [a] else [])) ∧ (s'.run = true → s.run = true) := by
  have post : ∀ (t : St) (m : Msg), t.handled = s.handled → t.box = s.box → t.run = s.run → userMsgs [a] = [m].filter Msg.isUser →
      (((t.post m).handled ++ (t.post m).box).filter Msg.isUser = (s.handled ++ s.box).filter Msg.isUser ++ (if s.run then userMsgs [a] else [])) ∧ ((t.post m).run = true → s.run = true) := by
    intro t m h1 h2 h3 h4
    rw [(post_recv t m).2.1, post_box, (post_recv t m).2.2.2.2.2, h1, h2, h3, h4]
    refine ⟨?_, id⟩
    split <;> simp
  have same : ∀ t : St, t.handled = s.handled → t.box = s.box → t.run = s.run → userMsgs [a] = [] →
      ((t.handled ++ t.box).filter Msg.isUser = (s.handled ++ s.box).filter Msg.isUser ++ (if s.run then userMsgs [a] else [])) ∧ (t.run = true → s.run = true) := by
    intro t h1 h2 h3 h4
    rw [h1, h2, h3, h4]
    exact ⟨by simp, id⟩
  cases a with
  | peerSend d => simp only [Tcp.step] at hs; split at hs <;> cases hs; exact same _ rfl rfl rfl rfl
  | peerClose => simp only [Tcp.step, Option.some.injEq] at hs; subst hs; exact same _ rfl rfl rfl rfl
  | peerReset => simp only [Tcp.step, Option.some.injEq] at hs; subst hs; exact same _ rfl rfl rfl rfl
  | user u => simp only [Tcp.step, Option.some.injEq] at hs; subst hs; exact post s u.msg rfl rfl rfl (by cases u <;> rfl)
  | ready a k =>
    simp only [Tcp.step] at hs
    split at hs
    · split at hs
      · split at hs <;> cases hs
        · exact post _ _ rfl rfl rfl rfl
        · exact same _ (tell_recv _ _ _).2.1 (tell_recv _ _ _).2.2.1 (tell_recv _ _ _).2.2.2.2.2 rfl
      · cases hs
    · cases hs
  | ended =>
    simp only [Tcp.step] at hs
    split at hs
    · split at hs <;> cases hs
      exact post _ _ rfl rfl rfl rfl
    · cases hs
  | fault =>
    simp only [Tcp.step] at hs
    split at hs <;> cases hs
    exact post _ _ rfl rfl rfl rfl
  | handle n gone =>
    simp only [Tcp.step] at hs
    split at hs
    · rename_i m rest hrun hb
      cases hs
      refine ⟨?_, fun _ => hrun⟩
      have e : (s.handled ++ [m] ++ rest) = s.handled ++ s.box := by rw [hb]; simp
      have hu : (if s.run = true then userMsgs [.handle n gone] else []) = [] := by split <;> rfl
      rw [hu, List.append_nil]
      have hp : ∀ (t : St) (m' : Msg), t.handled = s.handled ++ [m] → t.box = rest → m'.isUser = false → ((t.post m').handled ++ (t.post m').box).filter Msg.isUser = (s.handled ++ s.box).filter Msg.isUser := by
        intro t m' h1 h2 h3
        rw [(post_recv t m').2.1, post_box, h1, h2, ← e]
        split
        · rw [← List.append_assoc, List.filter_append]; simp [h3]
        · rfl
      have hq : ((s.handled ++ [m]) ++ rest).filter Msg.isUser = (s.handled ++ s.box).filter Msg.isUser := by rw [e]
      cases m with
      | write d => simp only [Tcp.receive]; split <;> exact hq
      | error => exact hq
      | pill => exact hq
      | terminated => exact hp _ _ rfl rfl rfl
      | assign h' =>
        simp only [Tcp.receive]
        split
        · exact hq
        · split
          · split
            · exact hp _ _ rfl rfl rfl
            · exact hq
          · exact hq
      | peerClosed =>
        simp only [Tcp.receive]
        split
        · exact hp _ _ (tell_recv _ _ _).2.1 (tell_recv _ _ _).2.2.1 rfl
        · exact hp _ _ rfl rfl rfl
    · cases hs
  | watchSeen =>
    simp only [Tcp.step] at hs
    split at hs
    · split at hs <;> cases hs; exact same _ rfl rfl rfl rfl
    · cases hs
  | die h' =>
    simp only [Tcp.step] at hs
    split at hs
    · cases hs
    · cases hs
      split
      · exact post _ _ rfl rfl rfl rfl
      · exact same _ rfl rfl rfl rfl
  | destroy => simp only [Tcp.step] at hs; split at hs <;> cases hs; exact same _ rfl rfl rfl rfl

/-- `tcp_remote` handles messages for a while; `f` is what the kernel does -/
def drive (f : Nat → Nat × Bool) : Nat → St → St
  | 0, s => s
  | n + 1, s => drive (fun i => f (i + 1)) n ((step s (.handle (f 0).1 (f 0).2)).getD s)

theorem drive_stopped (f : Nat → Nat × Bool) (n : Nat) (s : St) (h : s.run = false) : (drive f n s).run = false := by
  induction n generalizing f s with
  | zero => exact h
  | succ n ih =>
    simp only [drive]
    apply ih
    simp [Tcp.step, h]

theorem handle_eq {s : St} {n : Nat} {gone : Bool} {m : Msg} {rest : List Msg} (hrun : s.run = true) (hb : s.box = m :: rest) :
    (step s (.handle n gone)).getD s = Tcp.receive { s with box := rest, handled := s.handled ++ [m] } n gone m := by
  simp only [Tcp.step, hrun, hb, Option.getD_some]

/-- handling a message only appends to the mailbox, or stops -/
theorem receive_box {s : St} (n : Nat) (gone : Bool) (m : Msg) (hrun : s.run = true) : (Tcp.receive s n gone m).run = false ∨ ((Tcp.receive s n gone m).run = true ∧ ∃ l, (Tcp.receive s n gone m).box = s.box ++ l) := by
  have hp : ∀ (t : St) (m' : Msg), t.run = true → t.box = s.box → (t.post m').run = true ∧ ∃ l, (t.post m').box = s.box ++ l := by
    intro t m' h1 h2
    rw [(post_recv t m').2.2.2.2.2, post_box, h1, h2]
    exact ⟨rfl, _, rfl⟩
  cases m with
  | write d => simp only [Tcp.receive]; split <;> exact Or.inr ⟨hrun, [], by simp⟩
  | error => exact Or.inr ⟨hrun, [], by simp [Tcp.receive]⟩
  | pill => exact Or.inl rfl
  | terminated => exact Or.inr (hp _ _ hrun rfl)
  | assign h' =>
    simp only [Tcp.receive]
    split
    · exact Or.inr ⟨hrun, [], by simp⟩
    · split
      · split
        · exact Or.inr (hp _ _ hrun rfl)
        · exact Or.inr ⟨hrun, [], by simp⟩
      · exact Or.inr ⟨hrun, [], by simp⟩
  | peerClosed =>
    simp only [Tcp.receive]
    split
    · exact Or.inr (hp _ _ (by rw [(tell_recv _ _ _).2.2.2.2.2]; exact hrun) (tell_recv _ _ _).2.2.1)
    · exact Or.inr (hp _ _ hrun rfl)

/-- every message is reached, unless the actor stops before -/
theorem reaches {m : Msg} (k : Nat) : ∀ (f : Nat → Nat × Bool) (s : St) (pre post : List Msg), pre.length = k → s.run = true → s.box = pre ++ m :: post →
    (drive f k s).run = false ∨ ((drive f k s).run = true ∧ ∃ post', (drive f k s).box = m :: post') := by
  induction k with
  | zero =>
    intro f s pre post hk hrun hb
    cases pre with
    | nil => exact Or.inr ⟨hrun, post, hb⟩
    | cons _ _ => simp at hk
  | succ k ih =>
    intro f s pre post hk hrun hb
    cases pre with
    | nil => simp at hk
    | cons x pre =>
      simp only [drive]
      rw [handle_eq (rest := pre ++ m :: post) hrun (by rw [hb]; rfl)]
      rcases receive_box (s := { s with box := pre ++ m :: post, handled := s.handled ++ [x] }) (f 0).1 (f 0).2 x hrun with h | ⟨h, l, hl⟩
      · exact Or.inl (drive_stopped _ _ _ h)
      · exact ih _ _ pre (post ++ l) (by simpa using hk) h (by rw [hl]; simp)

theorem drive_add (f : Nat → Nat × Bool) (a b : Nat) (s : St) : drive f (a + b) s = drive (fun i => f (a + i)) b (drive f a s) := by
  induction a generalizing f s with
  | zero => simp [drive]
  | succ a ih =>
    rw [Nat.succ_add]
    simp only [drive]
    rw [ih]
    congr 1
    funext i
    congr 1
    omega

theorem stops_pill (f : Nat → Nat × Bool) (s : St) (h : .pill ∈ s.box) (hrun : s.run = true) : ∃ n, (drive f n s).run = false := by
  obtain ⟨pre, post, hb⟩ := List.append_of_mem h
  rcases reaches _ f s pre post rfl hrun hb with h | ⟨h, post', hp⟩
  · exact ⟨_, h⟩
  · refine ⟨pre.length + 1, ?_⟩
    rw [drive_add]
    simp only [drive]
    rw [handle_eq h hp]
    rfl

theorem stops_closed (f : Nat → Nat × Bool) (s : St) (h : .peerClosed ∈ s.box) (hrun : s.run = true) : ∃ n, (drive f n s).run = false := by
  obtain ⟨pre, post, hb⟩ := List.append_of_mem h
  rcases reaches _ f s pre post rfl hrun hb with h | ⟨h, post', hp⟩
  · exact ⟨_, h⟩
  · have : ∀ n gone, let t := (step (drive f pre.length s) (.handle n gone)).getD (drive f pre.length s); t.run = true ∧ .pill ∈ t.box := by
      intro n gone
      simp only
      rw [handle_eq h hp]
      simp only [Tcp.receive]
      split
      · rw [(post_recv _ _).2.2.2.2.2, post_box, (tell_recv _ _ _).2.2.2.2.2, h]; simp
      · rw [(post_recv _ _).2.2.2.2.2, post_box, h]; simp
    obtain ⟨h1, h2⟩ := this (f (pre.length + 0)).1 (f (pre.length + 0)).2
    obtain ⟨n, hn⟩ := stops_pill (fun i => f (pre.length + (i + 1))) _ h2 h1
    refine ⟨pre.length + (n + 1), ?_⟩
    rw [drive_add]
    exact hn

theorem stops_terminated (f : Nat → Nat × Bool) (s : St) (h : .terminated ∈ s.box) (hrun : s.run = true) : ∃ n, (drive f n s).run = false := by
  obtain ⟨pre, post, hb⟩ := List.append_of_mem h
  rcases reaches _ f s pre post rfl hrun hb with h | ⟨h, post', hp⟩
  · exact ⟨_, h⟩
  · have : ∀ n gone, let t := (step (drive f pre.length s) (.handle n gone)).getD (drive f pre.length s); t.run = true ∧ .peerClosed ∈ t.box := by
      intro n gone
      simp only
      rw [handle_eq h hp]
      simp only [Tcp.receive]
      rw [(post_recv _ _).2.2.2.2.2, post_box, h]; simp
    obtain ⟨h1, h2⟩ := this (f (pre.length + 0)).1 (f (pre.length + 0)).2
    obtain ⟨n, hn⟩ := stops_closed (fun i => f (pre.length + (i + 1))) _ h2 h1
    refine ⟨pre.length + (n + 1), ?_⟩
    rw [drive_add]
    exact hn

/-- what a running connection owes to a handler that lives -/
def Owes (s : St) : Prop := ∀ h b, s.recv = some (h, b) → s.dead h = false → (s.watch = .requested h ∨ s.watch = .registered h) ∧ (b = false → .peerClosed ∈ s.box ∨ (h, Ev.peerClosed) ∈ s.seen)

theorem Owes.post {s : St} (w : Owes s) (m : Msg) : Owes (s.post m) := by
  have t := post_recv s m
  intro h b hr hd
  rw [t.1] at hr; rw [t.2.2.2.2.1] at hd
  obtain ⟨h1, h2⟩ := w h b hr hd
  rw [t.2.2.2.1, t.2.2.1, post_box]
  refine ⟨h1, fun hb => (h2 hb).imp (fun h => ?_) id⟩
  split
  · exact List.mem_append_left _ h
  · exact h

theorem Owes.tell {s : St} (w : Owes s) (x : Nat) (e : Ev) : Owes (s.tell x e) := by
  have t := tell_recv s x e
  intro h b hr hd
  rw [t.1] at hr; rw [t.2.2.2.2.1] at hd
  obtain ⟨h1, h2⟩ := w h b hr hd
  rw [t.2.2.2.1, t.2.2.1]
  refine ⟨h1, fun hb => (h2 hb).imp id (fun h => ?_)⟩
  unfold St.tell
  split
  · exact h
  · exact List.mem_append_left _ h

/-- the message at the front is taken -/
theorem Owes.pop {s : St} (w : Owes s) {m : Msg} {rest : List Msg} (hb : s.box = m :: rest) (hm : m ≠ .peerClosed) (o : Bytes) : Owes { s with box := rest, handled := s.handled ++ [m], out := o } := by
  intro h b hr hd
  obtain ⟨h1, h2⟩ := w h b hr hd
  refine ⟨h1, fun hb' => (h2 hb').imp (fun h => ?_) id⟩
  rw [hb] at h
  rcases List.mem_cons.1 h with h | h
  · exact absurd h.symm hm
  · exact h

theorem Owes.step {s s' : St} {a : Act} (c : Inv s) (w : s.run = true → Owes s) (hs : step s a = some s') (hrun' : s'.run = true) : Owes s' := by
  have hrun : s.run = true := (box_step hs).2 hrun'
  have w := w hrun
  cases a with
  | peerSend d => simp only [Tcp.step] at hs; split at hs <;> cases hs; exact w
  | peerClose => simp only [Tcp.step, Option.some.injEq] at hs; subst hs; exact w
  | peerReset => simp only [Tcp.step, Option.some.injEq] at hs; subst hs; exact w
  | user u => simp only [Tcp.step, Option.some.injEq] at hs; subst hs; exact w.post _
  | ready a k =>
    simp only [Tcp.step] at hs
    split at hs
    · rename_i h hr
      split at hs
      · split at hs <;> cases hs
        · intro h' b hr' hd
          have t := post_recv { s with inb := s.inb.drop k, recv := some (h, false) } .peerClosed
          rw [t.1] at hr'; rw [t.2.2.2.2.1] at hd
          cases hr'
          rw [t.2.2.2.1, post_box]
          exact ⟨(w h true hr hd).1, fun _ => Or.inl (by simp [hrun])⟩
        · exact Owes.tell (s := { s with inb := s.inb.drop k }) w _ _
      · cases hs
    · cases hs
  | ended =>
    simp only [Tcp.step] at hs
    split at hs
    · rename_i h hr
      split at hs <;> cases hs
      intro h' b hr' hd
      have t := post_recv { s with recv := some (h, false) } .peerClosed
      rw [t.1] at hr'; rw [t.2.2.2.2.1] at hd
      cases hr'
      rw [t.2.2.2.1, post_box]
      exact ⟨(w h true hr hd).1, fun _ => Or.inl (by simp [hrun])⟩
    · cases hs
  | fault =>
    simp only [Tcp.step] at hs
    split at hs <;> cases hs
    exact w.post _
  | handle n gone =>
    simp only [Tcp.step] at hs
    split at hs
    · rename_i m rest hrun hb
      cases hs
      cases m with
      | write d => simp only [Tcp.receive]; split <;> exact w.pop hb (by simp) _
      | error => exact w.pop hb (by simp) _
      | pill => exact w.pop hb (by simp) s.out
      | terminated => exact (w.pop hb (by simp) _).post _
      | assign h =>
        simp only [Tcp.receive]
        cases hr : s.recv with
        | some p => simpa [hr] using w.pop hb (by simp) s.out
        | none =>
          simp only
          have key : s.dead h = true → Owes { s with box := rest, handled := s.handled ++ [.assign h], recv := some (h, true) } := by
            intro hd h' b hr' hd'
            cases hr'
            have hd' : s.dead h = false := hd'
            rw [hd] at hd'; cases hd'
          split
          · rename_i hd
            split
            · exact (key hd).post _
            · exact key hd
          · intro h' b hr' _
            cases hr'
            exact ⟨Or.inl rfl, by simp⟩
      | peerClosed =>
        simp only [Tcp.receive]
        split
        · rename_i h b hr
          have hr : s.recv = some (h, b) := hr
          refine Owes.post ?_ _
          intro h' b' hr' hd
          have t := tell_recv { s with box := rest, handled := s.handled ++ [.peerClosed] } h .peerClosed
          rw [t.1] at hr'; rw [t.2.2.2.2.1] at hd
          have hr' : s.recv = some (h', b') := hr'
          have hd : s.dead h' = false := hd
          rw [hr] at hr'; cases hr'
          rw [t.2.2.2.1]
          exact ⟨(w h b hr hd).1, fun _ => Or.inr (by simp [St.tell, hd])⟩
        · rename_i hr
          have hr : s.recv = none := hr
          refine Owes.post ?_ _
          intro h' b' hr'
          have hr' : s.recv = some (h', b') := hr'
          rw [hr] at hr'; cases hr'
    · cases hs
  | watchSeen =>
    simp only [Tcp.step] at hs
    split at hs
    · rename_i h hw
      split at hs <;> cases hs
      intro h' b hr hd
      obtain ⟨h1, h2⟩ := w h' b hr hd
      refine ⟨Or.inr ?_, h2⟩
      rw [hw] at h1
      simp only [Watch.requested.injEq, reduceCtorEq, or_false] at h1
      rw [h1]
    · cases hs
  | die h =>
    simp only [Tcp.step] at hs
    split at hs
    · cases hs
    · cases hs
      have key : Owes { s with dead := fun i => i == h || s.dead i } := by
        intro h' b hr hd
        simp at hd
        exact w h' b hr hd.2
      split
      · exact key.post _
      · exact key
  | destroy =>
    simp only [Tcp.step] at hs
    split at hs <;> cases hs

theorem Owes.reach {ok : St → Act → Prop} {acts : List Act} {s : St} (h : Reach ok acts s) : s.run = true → Owes s := by
  induction h with
  | init => intro _ h b hr; simp [St.init] at hr
  | step hr _ hs ih => exact Owes.step (Inv.reach hr) ih hs

/-! ## Theorems -/

/-- **What a handler is told.** Only the first assigned handler is told anything; it is told data, and after that at most once that the peer has closed the connection. -/
theorem C69_told {ok : St → Act → Prop} (acts : List Act) (s : St) (h : Reach ok acts s) : Shape s.seen ∧ ∀ h e, (h, e) ∈ s.seen → owner s.handled = some h := by
  have c := Inv.reach h
  obtain ⟨h', ds, k, -, hs⟩ := c.shape
  exact ⟨⟨h', ds, k, hs⟩, fun h e hm => mem_seen c.toCore hm⟩

/-! ### The history -/

/-- the bytes the peer has sent, read off the history -/
def peerBytes : List Act → Bytes
  | [] => []
  | .peerSend d :: r => d ++ peerBytes r
  | _ :: r => peerBytes r

theorem peerBytes_append (a b : List Act) : peerBytes (a ++ b) = peerBytes a ++ peerBytes b := by
  induction a with
  | nil => rfl
  | cons x a ih => cases x <;> simp [peerBytes, ih]

/-- the parts of the state that only the outside changes -/
def St.outside (s : St) : Bytes × Bool × (Nat → Bool) := (s.sent, s.eof, s.dead)

theorem outside_tell (s : St) (h : Nat) (e : Ev) : (s.tell h e).outside = s.outside := by unfold St.tell St.outside; split <;> rfl

theorem outside_post (s : St) (m : Msg) : (s.post m).outside = s.outside := by unfold St.post St.outside; split <;> rfl

theorem outside_receive (s : St) (n : Nat) (g : Bool) (m : Msg) : (receive s n g m).outside = s.outside := by
  cases m <;> simp only [receive] <;> repeat' split
  all_goals first
    | rfl
    | (simp only [outside_post, outside_tell]; done)
    | (simp only [outside_post, outside_tell]; rfl)

theorem outside_step {s s' : St} {a : Act} (hs : step s a = some s') :
    s'.sent = s.sent ++ peerBytes [a] ∧ (s'.eof = true ↔ s.eof = true ∨ a = .peerClose ∨ a = .peerReset) ∧ ∀ h : Nat, s'.dead h = true ↔ s.dead h = true ∨ a = .die h := by
  have key : ∀ t : St, t.outside = s.outside → a ≠ .peerClose → a ≠ .peerReset → (∀ h, a ≠ .die h) → peerBytes [a] = [] →
      t.sent = s.sent ++ peerBytes [a] ∧ (t.eof = true ↔ s.eof = true ∨ a = .peerClose ∨ a = .peerReset) ∧ ∀ h : Nat, t.dead h = true ↔ s.dead h = true ∨ a = .die h := by
    intro t ht h1 h2 h3 h4
    simp only [St.outside, Prod.mk.injEq] at ht
    rw [h4, ht.1, ht.2.1, ht.2.2]
    exact ⟨by simp, by simp [h1, h2], fun h => by simp [h3 h]⟩
  cases a with
  | peerSend d =>
    simp only [step] at hs
    split at hs <;> cases hs
    exact ⟨by simp [peerBytes], by simp, by simp⟩
  | peerClose => cases hs; exact ⟨by simp [peerBytes], by simp, by simp⟩
  | peerReset => cases hs; exact ⟨by simp [peerBytes], by simp, by simp⟩
  | user u => cases hs; exact key _ (outside_post _ _) (by simp) (by simp) (by simp) rfl
  | ready x k =>
    simp only [step] at hs
    repeat' split at hs
    all_goals first
      | (cases hs; done)
      | (cases hs; refine key _ ?_ (by simp) (by simp) (by simp) rfl; simp only [outside_post, outside_tell]; rfl)
  | ended =>
    simp only [step] at hs
    repeat' split at hs
    all_goals first
      | (cases hs; done)
      | (cases hs; refine key _ ?_ (by simp) (by simp) (by simp) rfl; simp only [outside_post, outside_tell]; rfl)
  | fault =>
    simp only [step] at hs
    repeat' split at hs
    all_goals first
      | (cases hs; done)
      | (cases hs; exact key _ (outside_post _ _) (by simp) (by simp) (by simp) rfl)
  | handle n g =>
    simp only [step] at hs
    repeat' split at hs
    all_goals first
      | (cases hs; done)
      | (cases hs; refine key _ ?_ (by simp) (by simp) (by simp) rfl; rw [outside_receive]; rfl)
  | watchSeen =>
    simp only [step] at hs
    repeat' split at hs
    all_goals first
      | (cases hs; done)
      | (cases hs; exact key _ rfl (by simp) (by simp) (by simp) rfl)
  | die h =>
    simp only [step] at hs
    split at hs
    · cases hs
    · cases hs
      have e : ∀ (t u : St), t.outside = u.outside → t.sent = u.sent ∧ t.eof = u.eof ∧ t.dead = u.dead := by
        intro t u he
        simpa [St.outside] using he
      have hx : ∀ (c : Prop) [Decidable c] (u : St) (m : Msg), (if c then u.post m else u).outside = u.outside := by
        intro c _ u m
        split
        · exact outside_post u m
        · rfl
      obtain ⟨e1, e2, e3⟩ := e _ _ (hx (s.watch = .registered h) { s with dead := fun i => i == h || s.dead i } .terminated)
      rw [e1, e2, e3]
      refine ⟨by simp [peerBytes], by simp, fun i => ?_⟩
      simp only [Bool.or_eq_true, beq_iff_eq, Act.die.injEq]
      constructor
      · rintro (h | h)
        · exact Or.inr h.symm
        · exact Or.inl h
      · rintro (h | h)
        · exact Or.inr h
        · exact Or.inl h.symm
  | destroy =>
    simp only [step] at hs
    split at hs
    · cases hs
    · cases hs; exact key _ rfl (by simp) (by simp) (by simp) rfl

/-- what the state says about the outside is what happened -/
theorem history {ok : St → Act → Prop} {acts : List Act} {s : St} (h : Reach ok acts s) :
    s.sent = peerBytes acts ∧ (s.eof = true ↔ .peerClose ∈ acts ∨ .peerReset ∈ acts) ∧ ∀ x : Nat, s.dead x = true ↔ .die x ∈ acts := by
  induction h with
  | init => exact ⟨rfl, by simp [St.init], fun x => by simp [St.init]⟩
  | @step acts s s' a _ _ hs ih =>
    obtain ⟨h1, h2, h3⟩ := outside_step hs
    obtain ⟨i1, i2, i3⟩ := ih
    refine ⟨by rw [h1, i1, peerBytes_append], ?_, fun x => ?_⟩
    · rw [h2, i2]
      simp only [List.mem_append, List.mem_singleton, eq_comm (a := a)]
      constructor
      · rintro ((h | h) | h | h)
        · exact Or.inl (Or.inl h)
        · exact Or.inr (Or.inl h)
        · exact Or.inl (Or.inr h)
        · exact Or.inr (Or.inr h)
      · rintro ((h | h) | h | h)
        · exact Or.inl (Or.inl h)
        · exact Or.inr (Or.inl h)
        · exact Or.inl (Or.inr h)
        · exact Or.inr (Or.inr h)
    · rw [h3, i3]
      simp only [List.mem_append, List.mem_singleton, eq_comm (a := a)]

/-- **The stream.** If reads are complete, the bytes told to the handler are, in order and without a gap, what the peer has sent; as long as the handler lives and the peer did not reset the connection, all that is
missing is still in the kernel. -/
theorem C69_received {ok : St → Act → Prop} (hok : ∀ s a, ok s a → FullRead s a) (acts : List Act) (s : St) (h : Reach ok acts s) :
    bytes s.seen <+: peerBytes acts ∧ ((∀ h, owner s.handled = some h → .die h ∉ acts) → .peerReset ∉ acts → bytes s.seen ++ s.inb = peerBytes acts) := by
  obtain ⟨h1, h2⟩ := data_read hok h
  obtain ⟨e1, -, e3⟩ := history h
  rw [← e1]
  exact ⟨h1, fun hl hn => (h2 (fun x hx => by rw [Bool.eq_false_iff]; exact fun hd => hl x hx ((e3 x).1 hd))).2 (Or.inl hn)⟩

/-- **The end of the stream.** If, besides, the kernel never reports an idle socket as readable, the handler is told `peer_closed` only after the peer has closed the connection, and after all the bytes. -/
theorem C69_closed {ok : St → Act → Prop} (hok : ∀ s a, ok s a → FullRead s a ∧ NoSpurious s a) (acts : List Act) (s : St) (h : Reach ok acts s) (x : Nat) (hm : (x, Ev.peerClosed) ∈ s.seen) :
    (.peerClose ∈ acts ∨ .peerReset ∈ acts) ∧ (.peerReset ∉ acts → bytes s.seen = peerBytes acts) := by
  obtain ⟨h1, -, h3⟩ := (data_closed hok h).2 x hm
  obtain ⟨e1, e2, -⟩ := history h
  rw [← e1]
  exact ⟨e2.1 h1, h3⟩

/-- **Writing.** If sends are complete, the peer is sent the bytes of all writes that the connection has handled since it has a handler, in order. -/
theorem C69_written {ok : St → Act → Prop} (hok : ∀ s a, ok s a → FullSend s a) (acts : List Act) (s : St) (h : Reach ok acts s) : s.out = written s.handled := out_written hok h

/-- **Requests are handled in order,** none is lost while the connection exists. -/
theorem C69_order {ok : St → Act → Prop} (acts : List Act) (s : St) (h : Reach ok acts s) :
    (s.handled ++ s.box).filter Msg.isUser <+: userMsgs acts ∧ (s.run = true → (s.handled ++ s.box).filter Msg.isUser = userMsgs acts) := by
  induction h with
  | init => exact ⟨List.prefix_rfl, fun _ => rfl⟩
  | @step acts s s' a hr ha hs ih =>
    obtain ⟨h1, h2⟩ := box_step hs
    have e : userMsgs (acts ++ [a]) = userMsgs acts ++ userMsgs [a] := by simp only [userMsgs, List.filterMap_append]
    rw [h1, e]
    cases hrun : s.run with
    | true => rw [ih.2 hrun]; exact ⟨List.prefix_rfl, fun _ => rfl⟩
    | false =>
      refine ⟨?_, fun h => ?_⟩
      · simp only [Bool.false_eq_true, if_false, List.append_nil]
        exact ih.1.trans (List.prefix_append _ _)
      · have := h2 h; rw [hrun] at this; cases this

/-- **The end of the connection.** When the receiver has noticed the end of the stream, or a handler that knows to be watched has died, then `tcp_remote` only has to handle the messages it has got to stop,
whatever the kernel does. -/
theorem C69_stops {ok : St → Act → Prop} (acts : List Act) (s : St) (h : Reach ok acts s) (x : Nat) (hx : s.recv = some (x, false) ∨ (s.watch = .registered x ∧ s.dead x = true)) (f : Nat → Nat × Bool) :
    ∃ n, (drive f n s).run = false := by
  have c := Inv.reach h
  cases hrun : s.run with
  | false => exact ⟨0, hrun⟩
  | true =>
    rcases hx with hx | ⟨hx, hd⟩
    · rcases c.off x hrun hx with h | h
      · exact stops_closed f s h hrun
      · exact stops_pill f s h hrun
    · obtain ⟨m, hm, he⟩ := c.left x hrun hx hd
      cases m <;> first | cases he | skip
      · exact stops_closed f s hm hrun
      · exact stops_terminated f s hm hrun
      · exact stops_pill f s hm hrun

/-- **Assigning a handler that is gone.** If the first handler to be assigned has died and its mailbox was destroyed, the connection only has to handle the messages it has got to stop. -/
theorem C69_assign_gone (s s' : St) (n x : Nat) (rest : List Msg) (hrun : s.run = true) (hb : s.box = .assign x :: rest) (hr : s.recv = none) (hd : s.dead x = true)
    (hs : step s (.handle n true) = some s') (f : Nat → Nat × Bool) : ∃ k, (drive f k s').run = false := by
  simp only [step, hrun, hb, receive, hr, hd, if_true, Option.some.injEq, St.post] at hs
  subst hs
  exact stops_terminated f _ (by simp) (by simpa using hrun)

/-- **A handler that lives is watched, and told the end.** As long as the connection exists, its handler is watched or about to be, and if the receiver has noticed the end of the stream, the handler was told or the
message is in the mailbox. -/
theorem C69_end_told {ok : St → Act → Prop} (acts : List Act) (s : St) (h : Reach ok acts s) (x : Nat) (b : Bool) (hrun : s.run = true) (hr : s.recv = some (x, b)) (hd : .die x ∉ acts) :
    (s.watch = .requested x ∨ s.watch = .registered x) ∧ (b = false → .peerClosed ∈ s.box ∨ (x, Ev.peerClosed) ∈ s.seen) :=
  Owes.reach h hrun x b hr (by rw [Bool.eq_false_iff]; exact fun h' => hd (((history h).2.2 x).1 h'))

/-- **Binding and connecting.** If the address resolves, the handler gets one answer; for `connect` it says whether the connection exists, and for `bind` it says `bound` if the endpoint is open. -/
theorem C69_manager_partial (found : List Nat) (ok : Nat → Bool) (hf : found ≠ []) :
    (∃ a e, connect found ok = some ([a], e) ∧ (a = .connected ↔ ∃ i ∈ found, ok i = true ∧ e = some i)) ∧ (∃ a e, bind found ok = some ([a], e) ∧ ((∃ i ∈ found, e = some i) → a = .bound)) := by
  cases found with
  | nil => exact absurd rfl hf
  | cons i l =>
    simp only [connect, bind, resolve, List.isEmpty_cons]
    cases h : ok i
    · exact ⟨⟨.fail, none, by simp, by simp⟩, ⟨.bound, none, by simp, by simp⟩⟩
    · refine ⟨⟨.connected, some i, by simp, ?_⟩, ⟨.bound, some i, by simp, by simp⟩⟩
      simp only [true_iff]
      exact ⟨i, by simp, h, rfl⟩

/-! ## The hypotheses can be met -/

/-- the kernel behaves well -/
def good : St → Act → Prop := fun s a => FullRead s a ∧ NoSpurious s a ∧ FullSend s a

def goodB (s : St) : Act → Bool
  | .ready x k => k == x && (k != 0 || (s.eof && s.inb.isEmpty))
  | .handle n _ => match s.box with | .write d :: _ => decide (d.length ≤ n) | _ => true
  | _ => true

theorem good_of {s : St} {a : Act} (h : goodB s a = true) : good s a := by
  refine ⟨?_, ?_, ?_⟩
  · rintro x k rfl; simp [goodB] at h; exact h.1
  · rintro x k rfl hk; simp [goodB, hk] at h; exact h.2
  · rintro n g d rest rfl hb; simpa [goodB, hb] using h

/-- an execution, checked step by step -/
def run (ok : St → Act → Bool) (s : St) : List Act → Option St
  | [] => some s
  | a :: as => if ok s a then (match step s a with | some s' => run ok s' as | none => none) else none

theorem reach_run {ok : St → Act → Prop} {okB : St → Act → Bool} (hok : ∀ s a, okB s a = true → ok s a) {acts0 acts : List Act} {s0 s : St} (h0 : Reach ok acts0 s0) (h : run okB s0 acts = some s) : Reach ok (acts0 ++ acts) s := by
  induction acts generalizing acts0 s0 with
  | nil => simp only [run, Option.some.injEq] at h; subst h; simpa using h0
  | cons a as ih =>
    simp only [run] at h
    split at h
    · rename_i ha
      split at h
      · rename_i s' hs
        have := ih (h0.step (hok _ _ ha) hs) h
        simpa using this
      · cases h
    · cases h

theorem good_run {acts : List Act} {s : St} (h : run goodB St.init acts = some s) : Reach good acts s := by
  simpa using reach_run (fun _ _ => good_of) .init h

theorem any_run {ok : St → Act → Bool} {acts : List Act} {s : St} (h : run ok St.init acts = some s) : Reach (fun s a => ok s a = true) acts s := by
  simpa using reach_run (fun _ _ h => h) .init h

def exTrace : List Act :=
  [.user (.write [9]), .user (.assign 1), .user (.write [5, 6]), .handle 1 false, .handle 0 false, .watchSeen, .handle 2 false, .peerSend [1, 2, 3], .ready 2 2, .peerSend [4], .peerClose, .ready 2 2, .ended, .handle 0 false]

example : ∃ s, Reach good exTrace s ∧ s.seen = [(1, .received [1, 2]), (1, .received [3, 4]), (1, .peerClosed)] ∧ s.out = [5, 6] ∧ s.run = true ∧ s.box = [.pill] ∧ s.recv = some (1, false) :=
  ⟨_, good_run (s := (run goodB St.init exTrace).get rfl) rfl, by decide +kernel⟩

/-- a handler that knows to be watched dies -/
example : ∃ s, Reach good [.user (.assign 1), .handle 0 false, .watchSeen, .die 1] s ∧ s.watch = .registered 1 ∧ s.dead 1 = true ∧ s.run = true ∧ s.box = [.terminated] :=
  ⟨_, good_run (s := (run goodB St.init [.user (.assign 1), .handle 0 false, .watchSeen, .die 1]).get rfl) rfl, by decide +kernel⟩

/-! ## What is false -/

/-- reads may be short; the rest is as it should be -/
def shortB (s : St) : Act → Bool
  | .ready _ k => k != 0 || (s.eof && s.inb.isEmpty)
  | a => goodB s a

/-- **Short reads.** The buffer is told as it was allocated, not as it was filled: if a read gives fewer bytes than were available, as POSIX allows, the handler is told bytes that nobody has sent. -/
theorem C69_short_read_violated : ∃ acts s, Reach (fun s a => shortB s a = true) acts s ∧ s.sent = [1, 2] ∧ bytes s.seen = [1, 0, 2] ∧ ¬ bytes s.seen <+: s.sent :=
  ⟨[.user (.assign 1), .handle 0 false, .peerSend [1, 2], .ready 2 1, .ready 1 1], _, any_run (s := (run shortB St.init [.user (.assign 1), .handle 0 false, .peerSend [1, 2], .ready 2 1, .ready 1 1]).get rfl) rfl, by decide +kernel⟩

/-- the kernel may say that an idle socket is readable; the rest is as it should be -/
def spuriousB (s : St) : Act → Bool
  | .ready x k => k == x
  | a => goodB s a

/-- **Spurious readiness.** A socket that is reported readable without having data ends the connection: the handler is told that the peer has closed it, though the peer has not. -/
theorem C69_spurious_violated : ∃ acts s, Reach (fun s a => spuriousB s a = true) acts s ∧ s.eof = false ∧ s.seen = [(1, .peerClosed)] ∧ s.run = false :=
  ⟨[.user (.assign 1), .handle 0 false, .ready 0 0, .handle 0 false, .handle 0 false], _, any_run (s := (run spuriousB St.init [.user (.assign 1), .handle 0 false, .ready 0 0, .handle 0 false, .handle 0 false]).get rfl) rfl, by decide +kernel⟩

/-- sends may be short; the rest is as it should be -/
def partB (s : St) : Act → Bool
  | .handle _ _ => true
  | a => goodB s a

/-- **Short sends.** The socket does not block, so that a send may take only the beginning of the data; the rest is dropped, and the next write goes on after the gap. -/
theorem C69_short_send_violated : ∃ acts s, Reach (fun s a => partB s a = true) acts s ∧ s.run = true ∧ s.box = [] ∧ writes s.handled = [1, 2, 3, 4, 5] ∧ s.out = [1, 4, 5] :=
  ⟨[.user (.assign 1), .user (.write [1, 2, 3]), .user (.write [4, 5]), .handle 0 false, .handle 1 false, .handle 2 false], _, any_run (s := (run partB St.init [.user (.assign 1), .user (.write [1, 2, 3]), .user (.write [4, 5]), .handle 0 false, .handle 1 false, .handle 2 false]).get rfl) rfl, by decide +kernel⟩

/-- **A handler that dies early.** If the handler has died but its mailbox still exists when it is assigned, or if it dies before it has handled the request to be watched, nobody tells `tcp_remote`: the connection
stays open without a handler, and no message is on its way that would close it. -/
theorem C69_orphan_violated :
    (∃ acts s, Reach good acts s ∧ s.dead 1 = true ∧ s.recv = some (1, true) ∧ s.run = true ∧ s.box = [] ∧ s.watch = .none) ∧
    (∃ acts s, Reach good acts s ∧ s.dead 1 = true ∧ s.recv = some (1, true) ∧ s.run = true ∧ s.box = [] ∧ step s .watchSeen = none) :=
  ⟨⟨[.die 1, .user (.assign 1), .handle 0 false], _, good_run (s := (run goodB St.init [.die 1, .user (.assign 1), .handle 0 false]).get rfl) rfl, by decide +kernel⟩,
   ⟨[.user (.assign 1), .handle 0 false, .die 1], _, good_run (s := (run goodB St.init [.user (.assign 1), .handle 0 false, .die 1]).get rfl) rfl, rfl, rfl, rfl, rfl, rfl⟩⟩

/-- **A failed bind.** An address that does not resolve is undefined behaviour instead of `command_fail`; an endpoint that cannot be opened, for instance because it is in use, is reported as bound. -/
theorem C69_bind_violated : (∀ ok, bind [] ok = none ∧ connect [] ok = none) ∧ ∀ e l (ok : Nat → Bool), ok e = false → bind (e :: l) ok = some ([.bound], none) :=
  ⟨fun _ => ⟨rfl, rfl⟩, fun e l ok h => by simp [bind, resolve, h]⟩

example : ∃ s, Reach good [.die 1, .user (.assign 1)] s ∧ s.run = true ∧ s.box = [.assign 1] ∧ s.recv = none ∧ s.dead 1 = true ∧ (step s (.handle 0 true)).isSome = true :=
  ⟨_, good_run (s := (run goodB St.init [.die 1, .user (.assign 1)]).get rfl) rfl, by decide +kernel⟩

end Verif.Tcp
