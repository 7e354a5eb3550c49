import Verif.Model.Listener

/-!
# C106: a TCP server is told of its peers

`Conn`, `Act`, `Reach` and the fields of `St` are described in `Verif/Model/Listener.lean`.
-/
set_option autoImplicit false

namespace Verif.Listener

/-! ## Specification -/

/-- the addresses of the peers that connected -/
def dialled : List Act → List Nat
  | [] => []
  | .connects a :: l => a :: dialled l
  | _ :: l => dialled l

/-- the connections: the peers in the order in which they connected, numbered from `i` -/
def number (i : Nat) : List Nat → List Conn
  | [] => []
  | a :: l => ⟨i, a⟩ :: number (i + 1) l

def peers (acts : List Act) : List Conn := number 0 (dialled acts)

/-- accepted or not, not told to the server yet: in the backlog, in a message, or with an actor that has not started -/
def St.inFlight (s : St) (c : Conn) : Prop :=
  c ∈ s.backlog ∨ Msg.accept c ∈ s.usr ∨ Sys.attach c ∈ s.sys ∨ ∃ ch ∈ s.children, ch.conn = c ∧ ch.phase = .waiting

/-- all connections of the listener that are not closed -/
def St.held (s : St) : List Conn := s.backlog ++ s.usr.filterMap Msg.conn ++ s.sys.filterMap Sys.conn ++ s.children.map Child.conn

/-- A peer does not connect from an address from which a connection is still held. -/
def Fresh (s : St) (a : Act) : Prop := ∀ x, a = .connects x → ∀ c ∈ s.held, c.addr ≠ x

/-- No peer resets a connection in the time from the acceptance to the start of its actor. -/
def InTime (s : St) (a : Act) : Prop := ∀ c, a = .childStart c → c ∉ s.gone

/-- the program has nothing left to do -/
def Quiet (s : St) : Prop := ∀ a, own s a = true → step s a = none

/-- the listener was asked to end -/
def Asked (v : Server) (acts : List Act) : Prop := .pill ∈ acts ∨ .stop ∈ acts ∨ .serverDies ∈ acts ∨ v ≠ .alive

/-- the listener was asked to end and could hear it: the server died after it had learned that it is watched, or it was gone before -/
def Heard (v : Server) (acts : List Act) : Prop := .pill ∈ acts ∨ .stop ∈ acts ∨ (.watchSeen ∈ acts ∧ .serverDies ∈ acts) ∨ v = .destroyed

/-- a run of the program by itself -/
inductive OwnRun : St → List Act → St → Prop
  | nil {s : St} : OwnRun s [] s
  | cons {s t s' : St} {a : Act} {l : List Act} : own s a = true → step s a = some t → OwnRun t l s' → OwnRun s (a :: l) s'

/-! ## Transitions -/

/-- the transitions, one for each path through the code -/
inductive Next (s : St) : Act → St → Prop
  | connects (a : Nat) : s.acceptor = true → Next s (.connects a) { s with backlog := s.backlog ++ [⟨s.all.length, a⟩], all := s.all ++ [⟨s.all.length, a⟩] }
  | resets (c : Conn) : c ∈ s.all → Next s (.resets c) { s with gone := s.gone ++ [c] }
  | accept (c : Conn) (rest : List Conn) : s.acceptor = true → s.backlog = c :: rest → Next s .accept ({ s with backlog := rest }.post (.accept c))
  | acceptError : s.acceptor = true → Next s .acceptError (s.post .error)
  | watchSeen : s.watch = .requested → s.dead = false → Next s .watchSeen { s with watch := .registered }
  | diesWatched : s.dead = false → s.watch = .registered → Next s .serverDies ({ s with dead := true }.post .terminated)
  | diesAlone : s.dead = false → s.watch ≠ .registered → Next s .serverDies { s with dead := true, watch := .lost }
  | pill : Next s .pill (s.post .pill)
  | stop : Next s .stop (s.postSys .stop)
  | sys (ok : Bool) (m : Sys) (rest : List Sys) : s.mode ≠ .done → s.sys = m :: rest → Next s (.listen ok) (onSys { s with sys := rest } ok m)
  | user (ok : Bool) (m : Msg) (rest : List Msg) : s.mode ≠ .done → s.mode ≠ .created → s.sys = [] → s.usr = m :: rest → Next s (.listen ok) (onUser { s with usr := rest } m)
  | childFail (c : Conn) : s.has c .waiting = true → c ∈ s.gone → Next s (.childStart c) { s with children := setPhase s.children c .failed }
  | childRun (c : Conn) : s.has c .waiting = true → c ∉ s.gone → Next s (.childStart c) { s with children := setPhase s.children c .running, told := if s.dead then s.told else s.told ++ [(c, c.addr)] }
  | childStop (c : Conn) : s.has c .running = true → Next s (.childStop c) ({ s with children := setPhase s.children c .stopped }.postSys (.detach c.addr))

theorem next {s s' : St} {a : Act} (h : step s a = some s') : Next s a s' := by
  cases a with
  | connects a =>
    simp only [step] at h
    split at h
    · cases h; exact .connects a (by assumption)
    · cases h
  | resets c =>
    simp only [step] at h
    split at h
    · cases h; exact .resets c (by assumption)
    · cases h
  | accept =>
    simp only [step] at h
    split at h
    · cases h; exact .accept _ _ (by assumption) (by assumption)
    · cases h
  | acceptError =>
    simp only [step] at h
    split at h
    · cases h; exact .acceptError (by assumption)
    · cases h
  | watchSeen =>
    simp only [step] at h
    split at h
    · rename_i hw; cases h; exact .watchSeen hw.1 hw.2
    · cases h
  | serverDies =>
    simp only [step] at h
    split at h
    · cases h
    · rename_i hd
      have hd : s.dead = false := by simpa using hd
      split at h
      · cases h; exact .diesWatched hd (by assumption)
      · cases h; exact .diesAlone hd (by assumption)
  | pill => cases h; exact .pill
  | stop => cases h; exact .stop
  | listen ok =>
    have hm : s.mode ≠ .done := by
      intro hm
      simp only [step, hm] at h
      cases h
    cases hs : s.sys with
    | cons m rest =>
      have h1 : step s (.listen ok) = some (onSys { s with sys := rest } ok m) := by simp only [step, hs]
      obtain rfl := Option.some.inj (h1.symm.trans h)
      exact .sys ok _ _ hm hs
    | nil =>
      have hc : s.mode ≠ .created := by
        intro hm
        simp only [step, hm, hs] at h
        cases h
      cases hu : s.usr with
      | nil =>
        simp only [step, hs, hu] at h
        cases h' : s.mode <;> simp [h'] at h
      | cons m rest =>
        have h1 : step s (.listen ok) = some (onUser { s with usr := rest } m) := by simp only [step, hs, hu]
        obtain rfl := Option.some.inj (h1.symm.trans h)
        exact .user ok _ _ hm hc hs hu
  | childStart c =>
    simp only [step] at h
    split at h
    · split at h
      · cases h; exact .childFail c (by assumption) (by assumption)
      · cases h; exact .childRun c (by assumption) (by assumption)
    · cases h
  | childStop c =>
    simp only [step] at h
    split at h
    · cases h; exact .childStop c (by assumption)
    · cases h

theorem enabled_sys {s : St} (hm : s.mode ≠ .done) {m : Sys} {rest : List Sys} (hs : s.sys = m :: rest) (ok : Bool) : step s (.listen ok) = some (onSys { s with sys := rest } ok m) := by
  simp only [step, hs]

theorem enabled_user {s : St} (hm : s.mode ≠ .done) (hc : s.mode ≠ .created) (hs : s.sys = []) {m : Msg} {rest : List Msg} (hu : s.usr = m :: rest) (ok : Bool) :
    step s (.listen ok) = some (onUser { s with usr := rest } m) := by
  simp only [step, hs, hu]

/-! ## Every connection is in one place -/

theorem post_eq {s : St} (h : s.mode ≠ .done) (m : Msg) : s.post m = { s with usr := s.usr ++ [m] } := by simp [St.post, h]

theorem postSys_eq {s : St} (h : s.mode ≠ .done) (m : Sys) : s.postSys m = { s with sys := s.sys ++ [m] } := by simp [St.postSys, h]

theorem post_done {s : St} (h : s.mode = .done) (m : Msg) : s.post m = s := by simp [St.post, h]

theorem postSys_done {s : St} (h : s.mode = .done) (m : Sys) : s.postSys m = s := by simp [St.postSys, h]

theorem setPhase_conn (l : List Child) (c : Conn) (p : Phase) : (setPhase l c p).map Child.conn = l.map Child.conn := by
  induction l with
  | nil => rfl
  | cons ch l ih =>
    simp only [setPhase, List.map_cons] at ih ⊢
    rw [ih]
    split <;> rfl

theorem count_remove {l : List Child} {q : Child → Bool} {ch : Child} (h : l.find? q = some ch) (c : Conn) :
    ((l.eraseP q).map Child.conn).count c + [ch.conn].count c = (l.map Child.conn).count c := by
  induction l with
  | nil => simp at h
  | cons x l ih =>
    by_cases hx : q x = true
    · simp only [List.find?_cons, hx] at h
      obtain rfl := Option.some.inj h
      simp only [List.eraseP_cons, hx, cond_true, List.map_cons, List.count_cons, List.count_nil]
      omega
    · have hx : q x = false := by simpa using hx
      simp only [List.find?_cons, hx] at h
      have := ih h
      simp only [List.eraseP_cons, hx, cond_false, List.map_cons, List.count_cons, List.count_nil] at this ⊢
      omega

/-- how often a connection is somewhere -/
def St.places (s : St) (c : Conn) : Nat :=
  s.backlog.count c + (s.usr.filterMap Msg.conn).count c + (s.sys.filterMap Sys.conn).count c + (s.children.map Child.conn).count c + s.closed.count c

theorem places_held (s : St) (c : Conn) : s.places c = s.held.count c + s.closed.count c := by
  simp only [St.places, St.held, List.count_append]

theorem places_finish (s : St) (c : Conn) : s.finish.places c = s.places c := by
  simp only [St.places, St.finish, List.count_append, List.count_nil, List.filterMap_nil]
  omega

theorem places_remove (s : St) (a : Nat) (c : Conn) : (s.remove a).places c = s.places c := by
  unfold St.remove
  split
  · rfl
  · rename_i ch h
    have := count_remove h c
    simp only [St.places, List.count_append] at this ⊢
    omega

theorem places_post {s : St} (h : s.mode ≠ .done) (m : Msg) (c : Conn) : (s.post m).places c = s.places c + (m.conn.toList).count c := by
  rw [post_eq h]
  cases m <;> simp [St.places, Msg.conn, List.filterMap_append, List.filterMap_cons, List.count_append] <;> omega

theorem places_postSys {s : St} (h : s.mode ≠ .done) (m : Sys) (c : Conn) : (s.postSys m).places c = s.places c + (m.conn.toList).count c := by
  rw [postSys_eq h]
  cases m <;> simp [St.places, Sys.conn, List.filterMap_append, List.filterMap_cons, List.count_append] <;> omega

theorem places_onSys {s : St} (ok : Bool) (m : Sys) (c : Conn) : (onSys s ok m).places c = s.places c + (m.conn.toList).count c := by
  cases m with
  | start =>
    simp only [onSys]
    split
    · simp [Sys.conn, St.places]
    · simp [places_finish, Sys.conn]
  | stop =>
    simp only [onSys]
    split
    · simp [places_finish, Sys.conn]
    · simp [Sys.conn, St.places, Function.comp_def]
  | attach d =>
    simp only [onSys]
    split <;> simp [Sys.conn, St.places, List.count_append] <;> omega
  | detach a =>
    simp only [onSys]
    split <;> simp [places_finish, places_remove, Sys.conn]

theorem places_onUser {s : St} (hm : s.mode ≠ .done) (m : Msg) (c : Conn) : (onUser s m).places c = s.places c + (m.conn.toList).count c := by
  cases m with
  | accept d =>
    simp only [onUser]
    split
    · simp [Msg.conn, St.places, List.count_append]; omega
    · rw [places_postSys hm]; rfl
  | error => simp [onUser, Msg.conn]
  | terminated => simp only [onUser]; rw [places_post hm]; rfl
  | pill => simp only [onUser]; rw [places_postSys hm]; rfl

theorem onSys_all (s : St) (ok : Bool) (m : Sys) : (onSys s ok m).all = s.all ∧ (onSys s ok m).gone = s.gone ∧ (onSys s ok m).told = s.told ∧ (onSys s ok m).dead = s.dead ∧ (onSys s ok m).watch = s.watch := by
  have hr : ∀ a, (s.remove a).all = s.all ∧ (s.remove a).gone = s.gone ∧ (s.remove a).told = s.told ∧ (s.remove a).dead = s.dead ∧ (s.remove a).watch = s.watch := by
    intro a; unfold St.remove; split <;> simp
  cases m <;> simp only [onSys] <;> split <;> simp [St.finish, hr]

theorem post_all (s : St) (m : Msg) : (s.post m).all = s.all ∧ (s.post m).gone = s.gone ∧ (s.post m).told = s.told ∧ (s.post m).dead = s.dead ∧ (s.post m).watch = s.watch := by
  unfold St.post; split <;> simp

theorem postSys_all (s : St) (m : Sys) : (s.postSys m).all = s.all ∧ (s.postSys m).gone = s.gone ∧ (s.postSys m).told = s.told ∧ (s.postSys m).dead = s.dead ∧ (s.postSys m).watch = s.watch := by
  unfold St.postSys; split <;> simp

theorem onUser_all (s : St) (m : Msg) : (onUser s m).all = s.all ∧ (onUser s m).gone = s.gone ∧ (onUser s m).told = s.told ∧ (onUser s m).dead = s.dead ∧ (onUser s m).watch = s.watch := by
  cases m with
  | accept d =>
    simp only [onUser]
    split
    · simp
    · exact postSys_all s _
  | error => simp [onUser]
  | terminated => exact post_all s _
  | pill => exact postSys_all s _

/-- the life of the listener and what its queues may contain -/
structure Shape (s : St) : Prop where
  created : s.mode = .created → s.children = [] ∧ s.acceptor = false ∧ s.backlog = [] ∧ (∃ k, s.sys = .start :: List.replicate k .stop) ∧ ∀ c, .accept c ∉ s.usr
  started : s.mode ≠ .created → .start ∉ s.sys
  open_ : s.mode = .listening ∨ s.mode = .stopping → s.acceptor = true
  listening : s.mode = .listening → ∀ ch ∈ s.children, ch.pill = false
  stopping : s.mode = .stopping → s.children ≠ [] ∧ ∀ ch ∈ s.children, ch.pill = true
  done : s.mode = .done → s.acceptor = false ∧ s.children = [] ∧ s.backlog = [] ∧ s.usr = [] ∧ s.sys = []

theorem Shape.init (v : Server) : Shape (St.init v) := by
  refine ⟨fun _ => ⟨rfl, rfl, rfl, ⟨0, rfl⟩, ?_⟩, ?_, ?_, ?_, ?_, ?_⟩
  · intro c; cases v <;> simp [St.init]
  all_goals simp [St.init]

theorem Shape.post {s : St} (w : Shape s) (m : Msg) (hm : s.mode = .created → ∀ c, m ≠ .accept c) : Shape (s.post m) := by
  by_cases hd : s.mode = .done
  · rwa [post_done hd]
  · rw [post_eq hd]
    refine ⟨fun h => ?_, w.started, w.open_, w.listening, w.stopping, fun h => absurd h hd⟩
    obtain ⟨h1, h2, h3, h4, h5⟩ := w.created h
    refine ⟨h1, h2, h3, h4, fun c hc => ?_⟩
    rcases List.mem_append.1 hc with hc | hc
    · exact h5 c hc
    · exact hm h c (by simpa using (List.mem_singleton.1 hc).symm)

theorem Shape.postSys {s : St} (w : Shape s) (m : Sys) (hs : m ≠ .start) (hm : s.mode = .created → m = .stop) : Shape (s.postSys m) := by
  by_cases hd : s.mode = .done
  · rwa [postSys_done hd]
  · rw [postSys_eq hd]
    refine ⟨fun h => ?_, fun h => ?_, w.open_, w.listening, w.stopping, fun h => absurd h hd⟩
    · obtain ⟨h1, h2, h3, ⟨k, h4⟩, h5⟩ := w.created h
      refine ⟨h1, h2, h3, ⟨k + 1, ?_⟩, h5⟩
      show s.sys ++ [m] = _
      rw [h4, hm h, List.replicate_succ']
      rfl
    · have := w.started h
      simp only [List.mem_append, List.mem_singleton, not_or]
      exact ⟨this, fun h => hs h.symm⟩

theorem Shape.finish {s : St} (h : s.children = []) : Shape s.finish := by
  refine ⟨?_, ?_, ?_, ?_, ?_, ?_⟩ <;> simp [St.finish, h]

theorem remove_sub (s : St) (a : Nat) : ∀ ch ∈ (s.remove a).children, ch ∈ s.children := by
  unfold St.remove
  split
  · exact fun _ h => h
  · intro ch h; exact List.mem_of_mem_eraseP h

theorem remove_rest (s : St) (a : Nat) : (s.remove a).mode = s.mode ∧ (s.remove a).sys = s.sys ∧ (s.remove a).usr = s.usr ∧ (s.remove a).acceptor = s.acceptor ∧ (s.remove a).backlog = s.backlog := by
  unfold St.remove
  split <;> simp

theorem mem_setPhase {l : List Child} {c : Conn} {p : Phase} {x : Child} (h : x ∈ setPhase l c p) : ∃ y ∈ l, x.conn = y.conn ∧ x.pill = y.pill ∧ ((y.conn = c ∧ x.phase = p) ∨ (y.conn ≠ c ∧ x = y)) := by
  obtain ⟨y, hy, rfl⟩ := List.mem_map.1 h
  refine ⟨y, hy, ?_⟩
  split
  · rename_i hc; exact ⟨rfl, rfl, .inl ⟨hc, rfl⟩⟩
  · rename_i hc; exact ⟨rfl, rfl, .inr ⟨hc, rfl⟩⟩

theorem Shape.setPhase {s : St} (w : Shape s) (c : Conn) (p : Phase) (t : List (Conn × Nat)) : Shape { s with children := setPhase s.children c p, told := t } := by
  refine ⟨fun h => ?_, w.started, w.open_, fun h ch hc => ?_, fun h => ⟨?_, fun ch hc => ?_⟩, fun h => ?_⟩
  · obtain ⟨h1, h2⟩ := w.created h
    exact ⟨by show Listener.setPhase s.children c p = []; rw [h1]; rfl, h2⟩
  · obtain ⟨y, hy, _, h2, _⟩ := mem_setPhase hc
    rw [h2]; exact w.listening h y hy
  · have := (w.stopping h).1
    simpa [Listener.setPhase] using this
  · obtain ⟨y, hy, _, h2, _⟩ := mem_setPhase hc
    rw [h2]; exact (w.stopping h).2 y hy
  · obtain ⟨h1, h2, h3⟩ := w.done h
    exact ⟨h1, by show Listener.setPhase s.children c p = []; rw [h2]; rfl, h3⟩

theorem Shape.next {s s' : St} {a : Act} (w : Shape s) (h : Next s a s') : Shape s' := by
  cases h with
  | connects a ha =>
    refine ⟨fun h => ?_, w.started, w.open_, w.listening, w.stopping, fun h => ?_⟩
    · have h := (w.created h).2.1
      rw [ha] at h; cases h
    · have h := (w.done h).1
      rw [ha] at h; cases h
  | resets c _ => exact ⟨w.created, w.started, w.open_, w.listening, w.stopping, w.done⟩
  | accept c rest ha hb =>
    have hc : s.mode ≠ .created := fun h => by have := (w.created h).2.1; rw [ha] at this; cases this
    have hd : s.mode ≠ .done := fun h => by have := (w.done h).1; rw [ha] at this; cases this
    exact Shape.post (s := { s with backlog := rest }) ⟨fun h => absurd h hc, w.started, w.open_, w.listening, w.stopping, fun h => absurd h hd⟩ _ (fun h => absurd h hc)
  | acceptError _ => exact w.post _ (by simp)
  | watchSeen _ _ => exact ⟨w.created, w.started, w.open_, w.listening, w.stopping, w.done⟩
  | diesWatched _ _ => exact Shape.post (s := { s with dead := true }) ⟨w.created, w.started, w.open_, w.listening, w.stopping, w.done⟩ _ (by simp)
  | diesAlone _ _ => exact ⟨w.created, w.started, w.open_, w.listening, w.stopping, w.done⟩
  | pill => exact w.post _ (by simp)
  | stop => exact w.postSys _ (by simp) (by simp)
  | sys ok m rest hd hs =>
    by_cases hc : s.mode = .created
    · obtain ⟨h1, h2, h3, ⟨k, h4⟩, h5⟩ := w.created hc
      rw [hs] at h4
      obtain ⟨rfl, rfl⟩ := List.cons.inj h4
      simp only [onSys]
      split
      · refine ⟨by simp, by simp, by simp, fun _ => ?_, by simp, by simp⟩
        show ∀ ch ∈ s.children, _
        rw [h1]; simp
      · exact Shape.finish h1
    · have hn : m ≠ .start := fun h => w.started hc (by rw [hs, h]; exact List.mem_cons_self)
      have w' : Shape { s with sys := rest } := ⟨fun h => absurd h hc, fun h hm => w.started h (by rw [hs]; exact List.mem_cons_of_mem _ hm), w.open_, w.listening, w.stopping, fun h => absurd h hd⟩
      cases m with
      | start => exact absurd rfl hn
      | stop =>
        simp only [onSys]
        split
        · exact Shape.finish (by assumption)
        · rename_i hne
          refine ⟨by simp, fun _ => w'.started hc, fun _ => ?_, by simp, fun _ => ⟨by simpa using hne, by simp⟩, by simp⟩
          cases hm : s.mode with
          | created => exact absurd hm hc
          | done => exact absurd hm hd
          | listening => exact w.open_ (.inl hm)
          | stopping => exact w.open_ (.inr hm)
      | attach d =>
        simp only [onSys]
        split
        · exact ⟨w'.created, w'.started, w'.open_, w'.listening, w'.stopping, w'.done⟩
        · rename_i hne
          refine ⟨fun h => absurd h hc, w'.started, w'.open_, fun h ch hch => ?_, fun h => absurd h hne, fun h => absurd h hd⟩
          rcases List.mem_append.1 hch with h' | h'
          · exact w'.listening h ch h'
          · rw [List.mem_singleton.1 h']
      | detach x =>
        simp only [onSys]
        obtain ⟨r1, r2, r3, r4, r5⟩ := remove_rest { s with sys := rest } x
        split
        · exact Shape.finish (by rename_i h; exact h.2)
        · rename_i hne
          refine ⟨fun h => absurd (r1.symm.trans h) hc, ?_, ?_, ?_, ?_, fun h => absurd (r1.symm.trans h) hd⟩
          · rw [r1, r2]; exact w'.started
          · rw [r1, r4]; exact w'.open_
          · rw [r1]; exact fun h ch hch => w'.listening h ch (remove_sub _ _ ch hch)
          · exact fun h => ⟨fun h' => hne ⟨h, h'⟩, fun ch hch => (w'.stopping (r1.symm.trans h)).2 ch (remove_sub _ _ ch hch)⟩
  | user ok m rest hd hc hs hu =>
    have w' : Shape { s with usr := rest } := ⟨fun h => absurd h hc, w.started, w.open_, w.listening, w.stopping, fun h => absurd h hd⟩
    cases m with
    | accept d =>
      simp only [onUser]
      split
      · exact ⟨w'.created, w'.started, w'.open_, w'.listening, w'.stopping, w'.done⟩
      · exact w'.postSys _ (by simp) (fun h => absurd h hc)
    | error => exact w'
    | terminated => exact w'.post _ (by simp)
    | pill => exact w'.postSys _ (by simp) (by simp)
  | childFail c _ _ => exact w.setPhase c .failed s.told
  | childRun c _ _ => exact w.setPhase c .running _
  | childStop c hh =>
    have hc : s.mode ≠ .created := fun h => by
      have := (w.created h).1
      simp [St.has, this] at hh
    exact (w.setPhase c .stopped s.told).postSys _ (by simp) (fun h => absurd h hc)

theorem Reach.shape {v : Server} {ok : St → Act → Prop} {acts : List Act} {s : St} (h : Reach v ok acts s) : Shape s := by
  induction h with
  | init => exact Shape.init v
  | step _ _ hs ih => exact ih.next (next hs)

theorem places_next {s s' : St} {a : Act} (w : Shape s) (hi : ∀ c, s.places c = s.all.count c) (h : Next s a s') (c : Conn) : s'.places c = s'.all.count c := by
  have hic := hi c
  cases h with
  | connects a ha => simp only [St.places, List.count_append] at hic ⊢; omega
  | resets d _ => exact hic
  | accept d rest ha hb =>
    have hd : s.mode ≠ .done := fun h => by have := (w.done h).1; rw [ha] at this; cases this
    rw [places_post (s := { s with backlog := rest }) hd, (post_all _ _).1]
    simp only [St.places, hb, List.count_cons, Msg.conn, Option.toList, List.count_nil] at hic ⊢
    omega
  | acceptError ha =>
    have hd : s.mode ≠ .done := fun h => by have := (w.done h).1; rw [ha] at this; cases this
    rw [places_post hd, (post_all _ _).1]; exact hic
  | watchSeen _ _ => exact hic
  | diesWatched _ _ =>
    by_cases hd : s.mode = .done
    · rw [post_done (s := { s with dead := true }) hd]; exact hic
    · rw [places_post (s := { s with dead := true }) hd, (post_all _ _).1]; exact hic
  | diesAlone _ _ => exact hic
  | pill =>
    by_cases hd : s.mode = .done
    · rw [post_done hd]; exact hic
    · rw [places_post hd, (post_all _ _).1]; exact hic
  | stop =>
    by_cases hd : s.mode = .done
    · rw [postSys_done hd]; exact hic
    · rw [places_postSys hd, (postSys_all _ _).1]; exact hic
  | sys ok m rest hd hs =>
    rw [places_onSys, (onSys_all _ _ _).1]
    simp only [St.places, hs] at hic ⊢
    cases m <;> simp [Sys.conn, List.filterMap_cons, List.count_cons] at hic ⊢ <;> omega
  | user ok m rest hd hc hs hu =>
    rw [places_onUser (s := { s with usr := rest }) hd, (onUser_all _ _).1]
    simp only [St.places, hu] at hic ⊢
    cases m <;> simp [Msg.conn, List.filterMap_cons, List.count_cons] at hic ⊢ <;> omega
  | childFail d _ _ => simpa only [St.places, setPhase_conn] using hic
  | childRun d _ _ => simpa only [St.places, setPhase_conn] using hic
  | childStop d _ =>
    by_cases hd : s.mode = .done
    · rw [postSys_done (s := { s with children := setPhase s.children d .stopped }) hd]; simpa only [St.places, setPhase_conn] using hic
    · rw [places_postSys (s := { s with children := setPhase s.children d .stopped }) hd, (postSys_all _ _).1]
      simpa only [St.places, setPhase_conn, Sys.conn, Option.toList, List.count_nil, Nat.add_zero] using hic

theorem Reach.places {v : Server} {ok : St → Act → Prop} {acts : List Act} {s : St} (h : Reach v ok acts s) : ∀ c, s.places c = s.all.count c := by
  induction h with
  | init => intro c; cases v <;> simp [St.places, St.init, Msg.conn, Sys.conn, List.filterMap_cons]
  | step h _ hs ih => exact places_next h.shape ih (next hs)

/-! ## History -/

theorem dialled_append (l l' : List Act) : dialled (l ++ l') = dialled l ++ dialled l' := by
  induction l with
  | nil => rfl
  | cons a l ih => cases a <;> simp [dialled, ih]

theorem number_append (i : Nat) (l l' : List Nat) : number i (l ++ l') = number i l ++ number (i + l.length) l' := by
  induction l generalizing i with
  | nil => rfl
  | cons a l ih => simp [number, ih, Nat.add_assoc, Nat.add_comm 1]

theorem number_length (i : Nat) (l : List Nat) : (number i l).length = l.length := by
  induction l generalizing i with
  | nil => rfl
  | cons a l ih => simp [number, ih]

theorem number_id {i : Nat} {l : List Nat} {c : Conn} (h : c ∈ number i l) : i ≤ c.id := by
  induction l generalizing i with
  | nil => simp [number] at h
  | cons a l ih =>
    rcases List.mem_cons.1 h with rfl | h
    · exact Nat.le_refl _
    · have := ih h; omega

theorem number_nodup (i : Nat) (l : List Nat) : (number i l).Nodup := by
  induction l generalizing i with
  | nil => exact List.nodup_nil
  | cons a l ih =>
    refine List.nodup_cons.2 ⟨fun h => ?_, ih _⟩
    have := number_id h
    simp only at this
    omega

/-- the connection that a step adds -/
def added (s : St) : Act → List Conn
  | .connects x => [⟨s.all.length, x⟩]
  | _ => []

theorem all_next {s s' : St} {a : Act} (h : Next s a s') : s'.all = s.all ++ added s a := by
  cases h <;> simp [added, (post_all _ _).1, (postSys_all _ _).1, (onSys_all _ _ _).1, (onUser_all _ _).1]

theorem Reach.all {v : Server} {ok : St → Act → Prop} {acts : List Act} {s : St} (h : Reach v ok acts s) : s.all = peers acts := by
  induction h with
  | init => rfl
  | @step acts s s' a h _ hs ih =>
    rw [all_next (next hs), peers, dialled_append, number_append, ih]
    cases a <;> simp [added, ih, dialled, number, peers, number_length]

theorem Reach.gone {v : Server} {ok : St → Act → Prop} {acts : List Act} {s : St} (h : Reach v ok acts s) (c : Conn) : c ∈ s.gone ↔ .resets c ∈ acts := by
  induction h with
  | init => simp [St.init]
  | @step acts s s' a h _ hs ih =>
    cases next hs <;> simp [(post_all _ _).2.1, (postSys_all _ _).2.1, (onSys_all _ _ _).2.1, (onUser_all _ _).2.1, ih]

theorem Reach.dead {v : Server} {ok : St → Act → Prop} {acts : List Act} {s : St} (h : Reach v ok acts s) : s.dead = true ↔ v ≠ .alive ∨ .serverDies ∈ acts := by
  induction h with
  | init => cases v <;> simp [St.init]
  | @step acts s s' a h _ hs ih =>
    cases next hs <;> simp [(post_all _ _).2.2.2.1, (postSys_all _ _).2.2.2.1, (onSys_all _ _ _).2.2.2.1, (onUser_all _ _).2.2.2.1, ih]

theorem held_nodup {v : Server} {ok : St → Act → Prop} {acts : List Act} {s : St} (h : Reach v ok acts s) : (s.held ++ s.closed).Nodup := by
  rw [List.nodup_iff_count]
  intro c
  rw [List.count_append, ← places_held, h.places, h.all]
  exact List.nodup_iff_count.1 (number_nodup _ _) c

/-! ## What the server is told -/

theorem mem_eraseP_or {l : List Child} {q : Child → Bool} {ch : Child} (h : ch ∈ l) : ch ∈ l.eraseP q ∨ l.find? q = some ch := by
  induction l with
  | nil => simp at h
  | cons x l ih =>
    by_cases hx : q x = true
    · simp only [List.eraseP_cons, hx, cond_true, List.find?_cons]
      rcases List.mem_cons.1 h with rfl | h
      · exact .inr rfl
      · exact .inl h
    · have hx : q x = false := by simpa using hx
      simp only [List.eraseP_cons, hx, cond_false, List.find?_cons]
      rcases List.mem_cons.1 h with rfl | h
      · exact .inl List.mem_cons_self
      · rcases ih h with h | h
        · exact .inl (List.mem_cons_of_mem _ h)
        · exact .inr h

theorem remove_keep (s : St) (a : Nat) {ch : Child} (h : ch ∈ s.children) : ch.conn ∈ (s.remove a).closed ∨ ch ∈ (s.remove a).children := by
  unfold St.remove
  split
  · exact .inr h
  · rename_i x hx
    rcases mem_eraseP_or (q := fun ch => ch.conn.addr == a) h with h | h
    · exact .inr h
    · obtain rfl := Option.some.inj (h.symm.trans hx)
      exact .inl (by simp)

theorem remove_closed (s : St) (a : Nat) : ∃ l, (s.remove a).closed = s.closed ++ l := by
  unfold St.remove
  split
  · exact ⟨[], by simp⟩
  · exact ⟨_, rfl⟩

theorem onSys_closed (s : St) (ok : Bool) (m : Sys) : ∃ l, (onSys s ok m).closed = s.closed ++ l := by
  cases m with
  | start =>
    simp only [onSys]; split
    · exact ⟨[], by simp⟩
    · exact ⟨_, by simp only [St.finish, List.append_assoc]; rfl⟩
  | stop =>
    simp only [onSys]; split
    · exact ⟨_, by simp only [St.finish, List.append_assoc]; rfl⟩
    · exact ⟨[], by simp⟩
  | attach c =>
    simp only [onSys]; split
    · exact ⟨_, rfl⟩
    · exact ⟨[], by simp⟩
  | detach a =>
    obtain ⟨l, h⟩ := remove_closed s a
    simp only [onSys]; split
    · exact ⟨_, by simp only [St.finish, h, List.append_assoc]; rfl⟩
    · exact ⟨l, h⟩

theorem post_rest (s : St) (m : Msg) : (s.post m).closed = s.closed ∧ (s.post m).children = s.children ∧ (s.post m).sys = s.sys ∧ (s.post m).mode = s.mode ∧ (s.post m).backlog = s.backlog ∧ (s.post m).acceptor = s.acceptor := by
  unfold St.post; split <;> simp

theorem postSys_rest (s : St) (m : Sys) : (s.postSys m).closed = s.closed ∧ (s.postSys m).children = s.children ∧ (s.postSys m).usr = s.usr ∧ (s.postSys m).mode = s.mode ∧ (s.postSys m).backlog = s.backlog ∧ (s.postSys m).acceptor = s.acceptor := by
  unfold St.postSys; split <;> simp

theorem onUser_closed (s : St) (m : Msg) : ∃ l, (onUser s m).closed = s.closed ++ l := by
  cases m with
  | accept c =>
    simp only [onUser]; split
    · exact ⟨_, rfl⟩
    · exact ⟨[], by simp [(postSys_rest _ _).1]⟩
  | error => exact ⟨[], by simp [onUser]⟩
  | terminated => exact ⟨[], by simp [onUser, (post_rest _ _).1]⟩
  | pill => exact ⟨[], by simp [onUser, (postSys_rest _ _).1]⟩

theorem closed_next {s s' : St} {a : Act} (h : Next s a s') : ∃ l, s'.closed = s.closed ++ l := by
  cases h with
  | sys ok m rest _ _ => exact onSys_closed { s with sys := rest } ok m
  | user ok m rest _ _ _ _ => exact onUser_closed { s with usr := rest } m
  | _ => exact ⟨[], by simp [(post_rest _ _).1, (postSys_rest _ _).1]⟩

theorem onUser_children (s : St) (m : Msg) : (onUser s m).children = s.children := by
  cases m with
  | accept c => simp only [onUser]; split <;> simp [(postSys_rest _ _).2.1]
  | error => rfl
  | terminated => exact (post_rest _ _).2.1
  | pill => exact (postSys_rest _ _).2.1

theorem onSys_keep (s : St) (ok : Bool) (m : Sys) {ch : Child} (h : ch ∈ s.children) :
    ch.conn ∈ (onSys s ok m).closed ∨ ∃ ch' ∈ (onSys s ok m).children, ch'.conn = ch.conn ∧ ch'.phase = ch.phase := by
  cases m with
  | start => simp only [onSys]; split <;> exact .inr ⟨ch, h, rfl, rfl⟩
  | stop =>
    simp only [onSys]; split
    · exact .inr ⟨ch, h, rfl, rfl⟩
    · exact .inr ⟨_, List.mem_map.2 ⟨ch, h, rfl⟩, rfl, rfl⟩
  | attach c =>
    simp only [onSys]; split
    · exact .inr ⟨ch, h, rfl, rfl⟩
    · exact .inr ⟨ch, List.mem_append_left _ h, rfl, rfl⟩
  | detach a =>
    simp only [onSys]
    have := remove_keep s a h
    split
    · refine this.imp (fun h => ?_) (fun h => ⟨ch, h, rfl, rfl⟩)
      simp only [St.finish, List.append_assoc]
      exact List.mem_append_left _ h
    · exact this.imp id (fun h => ⟨ch, h, rfl, rfl⟩)

/-- where the children of the next state come from -/
theorem onSys_from (s : St) (ok : Bool) (m : Sys) {ch : Child} (h : ch ∈ (onSys s ok m).children) :
    (∃ c, m = .attach c ∧ ch = ⟨c, .waiting, false⟩) ∨ ∃ x ∈ s.children, ch.conn = x.conn ∧ ch.phase = x.phase := by
  cases m with
  | start => simp only [onSys] at h; split at h <;> exact .inr ⟨ch, h, rfl, rfl⟩
  | stop =>
    simp only [onSys] at h; split at h
    · exact .inr ⟨ch, h, rfl, rfl⟩
    · obtain ⟨x, hx, rfl⟩ := List.mem_map.1 h
      exact .inr ⟨x, hx, rfl, rfl⟩
  | attach c =>
    simp only [onSys] at h; split at h
    · exact .inr ⟨ch, h, rfl, rfl⟩
    · rcases List.mem_append.1 h with h | h
      · exact .inr ⟨ch, h, rfl, rfl⟩
      · exact .inl ⟨c, rfl, List.mem_singleton.1 h⟩
  | detach a =>
    simp only [onSys] at h
    split at h
    · exact .inr ⟨ch, remove_sub s a ch h, rfl, rfl⟩
    · exact .inr ⟨ch, remove_sub s a ch h, rfl, rfl⟩

theorem uniq {l : List Child} (hn : (l.map Child.conn).Nodup) {x y : Child} (hx : x ∈ l) (hy : y ∈ l) (h : x.conn = y.conn) : x = y := by
  induction l with
  | nil => simp at hx
  | cons z l ih =>
    obtain ⟨h1, h2⟩ := List.nodup_cons.1 hn
    rcases List.mem_cons.1 hx with rfl | hx'
    · rcases List.mem_cons.1 hy with rfl | hy'
      · rfl
      · exact absurd (List.mem_map.2 ⟨y, hy', h.symm⟩) h1
    · rcases List.mem_cons.1 hy with rfl | hy'
      · exact absurd (List.mem_map.2 ⟨x, hx', h⟩) h1
      · exact ih h2 hx' hy'

theorem children_nodup {v : Server} {ok : St → Act → Prop} {acts : List Act} {s : St} (h : Reach v ok acts s) : (s.children.map Child.conn).Nodup := by
  have := held_nodup h
  rw [St.held] at this
  exact (List.nodup_append.1 (List.nodup_append.1 this).1).2.1

theorem child_not_closed {v : Server} {ok : St → Act → Prop} {acts : List Act} {s : St} (h : Reach v ok acts s) {ch : Child} (hc : ch ∈ s.children) : ch.conn ∉ s.closed := by
  intro hm
  have := (List.nodup_append.1 (held_nodup h)).2.2 ch.conn (by rw [St.held]; exact List.mem_append_right _ (List.mem_map.2 ⟨ch, hc, rfl⟩)) ch.conn hm
  exact this rfl

theorem has_mem {s : St} {c : Conn} {p : Phase} (h : s.has c p = true) : ∃ ch ∈ s.children, ch.conn = c ∧ ch.phase = p := by
  simpa [St.has] using h

theorem mem_setPhase_of {l : List Child} {c : Conn} {p : Phase} {x : Child} (h : x ∈ l) : (if x.conn = c then { x with phase := p } else x) ∈ setPhase l c p :=
  List.mem_map.2 ⟨x, h, rfl⟩

/-- what was told is true -/
structure Told (s : St) : Prop where
  addr : ∀ p ∈ s.told, p.2 = p.1.addr
  once : (s.told.map Prod.fst).Nodup
  place : ∀ p ∈ s.told, p.1 ∈ s.closed ∨ ∃ ch ∈ s.children, ch.conn = p.1 ∧ (ch.phase = .running ∨ ch.phase = .stopped)

theorem Told.next {v : Server} {ok : St → Act → Prop} {acts : List Act} {s s' : St} {a : Act} (r : Reach v ok acts s) (w : Told s) (h : Next s a s') : Told s' := by
  cases h with
  | sys ok m rest _ _ =>
    refine ⟨?_, ?_, ?_⟩
    · rw [(onSys_all _ _ _).2.2.1]; exact w.addr
    · rw [(onSys_all _ _ _).2.2.1]; exact w.once
    · rw [(onSys_all _ _ _).2.2.1]
      intro p hp
      rcases w.place p hp with h | ⟨ch, h1, h2, h3⟩
      · obtain ⟨l, hl⟩ := onSys_closed { s with sys := rest } ok m
        rw [hl]; exact .inl (List.mem_append_left _ h)
      · refine (onSys_keep { s with sys := rest } ok m h1).imp (fun h => h2 ▸ h) ?_
        rintro ⟨ch', h4, h5, h6⟩
        exact ⟨ch', h4, h5.trans h2, h6 ▸ h3⟩
  | user ok m rest _ _ _ _ =>
    refine ⟨?_, ?_, ?_⟩
    · rw [(onUser_all _ _).2.2.1]; exact w.addr
    · rw [(onUser_all _ _).2.2.1]; exact w.once
    · rw [(onUser_all _ _).2.2.1, onUser_children]
      intro p hp
      obtain ⟨l, hl⟩ := onUser_closed { s with usr := rest } m
      rw [hl]
      exact (w.place p hp).imp (List.mem_append_left _) id
  | childFail c hh _ =>
    obtain ⟨y, hy, hy1, hy2⟩ := has_mem hh
    refine ⟨w.addr, w.once, fun p hp => (w.place p hp).imp id ?_⟩
    rintro ⟨ch, h1, h2, h3⟩
    refine ⟨_, mem_setPhase_of (c := c) (p := .failed) h1, ?_⟩
    split
    · rename_i hc
      obtain rfl := uniq (children_nodup r) h1 hy (hc.trans hy1.symm)
      rw [hy2] at h3; simp at h3
    · exact ⟨h2, h3⟩
  | childRun c hh _ =>
    obtain ⟨y, hy, hy1, hy2⟩ := has_mem hh
    have hold : ∀ p ∈ s.told, p.1 ≠ c ∧ (p.1 ∈ s.closed ∨ ∃ ch ∈ setPhase s.children c .running, ch.conn = p.1 ∧ (ch.phase = .running ∨ ch.phase = .stopped)) := by
      intro p hp
      rcases w.place p hp with h | ⟨ch, h1, h2, h3⟩
      · exact ⟨fun hc => child_not_closed r hy (hy1.trans hc.symm ▸ h), .inl h⟩
      · have hne : ch.conn ≠ c := by
          intro hc
          obtain rfl := uniq (children_nodup r) h1 hy (hc.trans hy1.symm)
          rw [hy2] at h3; simp at h3
        refine ⟨h2 ▸ hne, .inr ⟨_, mem_setPhase_of (c := c) (p := .running) h1, ?_⟩⟩
        rw [if_neg hne]; exact ⟨h2, h3⟩
    by_cases hd : s.dead = true
    · simp only [hd, if_true]
      exact ⟨w.addr, w.once, fun p hp => (hold p hp).2⟩
    · simp only [hd, Bool.false_eq_true, if_false]
      refine ⟨fun p hp => ?_, ?_, fun p hp => ?_⟩
      · rcases List.mem_append.1 hp with hp | hp
        · exact w.addr p hp
        · rw [List.mem_singleton.1 hp]
      · simp only [List.map_append, List.map_cons, List.map_nil]
        refine List.nodup_append.2 ⟨w.once, by simp, ?_⟩
        intro x hx z hz
        obtain ⟨p, hp, rfl⟩ := List.mem_map.1 hx
        rw [List.mem_singleton.1 hz]
        exact (hold p hp).1
      · rcases List.mem_append.1 hp with hp | hp
        · exact (hold p hp).2
        · rw [List.mem_singleton.1 hp]
          refine .inr ⟨_, mem_setPhase_of (c := c) (p := .running) hy, ?_⟩
          rw [if_pos hy1]; exact ⟨hy1, .inl rfl⟩
  | childStop c hh =>
    refine ⟨?_, ?_, ?_⟩
    · rw [(postSys_all _ _).2.2.1]; exact w.addr
    · rw [(postSys_all _ _).2.2.1]; exact w.once
    · rw [(postSys_all _ _).2.2.1, (postSys_rest _ _).1, (postSys_rest _ _).2.1]
      intro p hp
      refine (w.place p hp).imp id ?_
      rintro ⟨ch, h1, h2, h3⟩
      refine ⟨_, mem_setPhase_of (c := c) (p := .stopped) h1, ?_⟩
      split
      · exact ⟨h2, .inr rfl⟩
      · exact ⟨h2, h3⟩
  | _ =>
    refine ⟨?_, ?_, ?_⟩
    · simpa [(post_all _ _).2.2.1, (postSys_all _ _).2.2.1] using w.addr
    · simpa [(post_all _ _).2.2.1, (postSys_all _ _).2.2.1] using w.once
    · simpa [(post_all _ _).2.2.1, (postSys_all _ _).2.2.1, (post_rest _ _).1, (post_rest _ _).2.1, (postSys_rest _ _).1, (postSys_rest _ _).2.1] using w.place

theorem Reach.told {v : Server} {ok : St → Act → Prop} {acts : List Act} {s : St} (h : Reach v ok acts s) : Told s := by
  induction h with
  | init => exact ⟨by simp [St.init], by simp [St.init], by simp [St.init]⟩
  | step h _ hs ih => exact ih.next h (next hs)

/-- why an actor is in its phase -/
structure Why (s : St) : Prop where
  running : ∀ ch ∈ s.children, ch.phase = .running ∨ ch.phase = .stopped → s.dead = true ∨ (ch.conn, ch.conn.addr) ∈ s.told
  failed : ∀ ch ∈ s.children, ch.phase = .failed → ch.conn ∈ s.gone

theorem Why.next {s s' : St} {a : Act} (w : Why s) (h : Next s a s') : Why s' := by
  cases h with
  | sys ok m rest _ _ =>
    obtain ⟨_, a2, a3, a4, _⟩ := onSys_all { s with sys := rest } ok m
    refine ⟨fun ch hc hp => ?_, fun ch hc hp => ?_⟩
    · rw [a3, a4]
      rcases onSys_from _ ok m hc with ⟨c, _, rfl⟩ | ⟨x, hx, h1, h2⟩
      · simp at hp
      · rw [h1]; exact w.running x hx (h2 ▸ hp)
    · rw [a2]
      rcases onSys_from _ ok m hc with ⟨c, _, rfl⟩ | ⟨x, hx, h1, h2⟩
      · simp at hp
      · rw [h1]; exact w.failed x hx (h2 ▸ hp)
  | user ok m rest _ _ _ _ =>
    obtain ⟨_, a2, a3, a4, _⟩ := onUser_all { s with usr := rest } m
    refine ⟨?_, ?_⟩
    · rw [a3, a4, onUser_children]; exact w.running
    · rw [a2, onUser_children]; exact w.failed
  | childFail c hh hg =>
    refine ⟨fun ch hc hp => ?_, fun ch hc hp => ?_⟩ <;> obtain ⟨y, hy, h1, _, h3⟩ := mem_setPhase hc
    · rcases h3 with ⟨_, h3⟩ | ⟨_, h3⟩
      · rw [h3] at hp; simp at hp
      · rw [h3] at hp ⊢; exact w.running y hy hp
    · rcases h3 with ⟨h3, _⟩ | ⟨_, h3⟩
      · rw [h1, h3]; exact hg
      · rw [h3] at hp ⊢; exact w.failed y hy hp
  | childRun c hh hg =>
    refine ⟨fun ch hc hp => ?_, fun ch hc hp => ?_⟩ <;> obtain ⟨y, hy, h1, _, h3⟩ := mem_setPhase hc
    · show s.dead = true ∨ _ ∈ (if s.dead = true then s.told else s.told ++ [(c, c.addr)])
      by_cases hd : s.dead = true
      · exact .inl hd
      · rw [if_neg hd]
        rcases h3 with ⟨h3, _⟩ | ⟨_, h3⟩
        · rw [h1, h3]; exact .inr (by simp)
        · rw [h3] at hp ⊢
          exact (w.running y hy hp).imp id (List.mem_append_left _)
    · rcases h3 with ⟨_, h3⟩ | ⟨_, h3⟩
      · rw [h3] at hp; simp at hp
      · rw [h3] at hp ⊢; exact w.failed y hy hp
  | childStop c hh =>
    refine ⟨?_, ?_⟩
    · rw [(postSys_all _ _).2.2.1, (postSys_all _ _).2.2.2.1, (postSys_rest _ _).2.1]
      intro ch hc hp
      obtain ⟨y, hy, h1, _, h3⟩ := mem_setPhase hc
      rcases h3 with ⟨h3, _⟩ | ⟨_, h3⟩
      · obtain ⟨z, hz, hz1, hz2⟩ := has_mem hh
        rw [h1, h3, ← hz1]; exact w.running z hz (.inl hz2)
      · rw [h3] at hp ⊢; exact w.running y hy hp
    · rw [(postSys_all _ _).2.1, (postSys_rest _ _).2.1]
      intro ch hc hp
      obtain ⟨y, hy, h1, _, h3⟩ := mem_setPhase hc
      rcases h3 with ⟨_, h3⟩ | ⟨_, h3⟩
      · rw [h3] at hp; simp at hp
      · rw [h3] at hp ⊢; exact w.failed y hy hp
  | resets c _ => exact ⟨w.running, fun ch hc hp => List.mem_append_left _ (w.failed ch hc hp)⟩
  | diesWatched _ _ =>
    refine ⟨fun ch _ _ => .inl (by rw [(post_all _ _).2.2.2.1]), ?_⟩
    rw [(post_all _ _).2.1, (post_rest _ _).2.1]; exact w.failed
  | diesAlone _ _ => exact ⟨fun ch _ _ => .inl rfl, w.failed⟩
  | _ =>
    refine ⟨?_, ?_⟩
    · simpa [(post_all _ _).2.2.1, (post_all _ _).2.2.2.1, (postSys_all _ _).2.2.1, (postSys_all _ _).2.2.2.1, (post_rest _ _).2.1, (postSys_rest _ _).2.1] using w.running
    · simpa [(post_all _ _).2.1, (postSys_all _ _).2.1, (post_rest _ _).2.1, (postSys_rest _ _).2.1] using w.failed

theorem Reach.why {v : Server} {ok : St → Act → Prop} {acts : List Act} {s : St} (h : Reach v ok acts s) : Why s := by
  induction h with
  | init => exact ⟨by simp [St.init], by simp [St.init]⟩
  | step _ _ hs ih => exact ih.next (next hs)

/-! ## Peers with different addresses -/

theorem held_sub {v : Server} {ok : St → Act → Prop} {acts : List Act} {s s' : St} {a : Act} (r : Reach v ok acts s) (h : Next s a s') {c : Conn} (hc : c ∈ s'.held) :
    c ∈ s.held ∨ ∃ x, a = .connects x ∧ c.addr = x := by
  obtain ⟨l, hl⟩ := closed_next h
  have h1 := places_next r.shape r.places h c
  have h2 := r.places c
  rw [places_held, hl, List.count_append, all_next h, List.count_append] at h1
  rw [places_held] at h2
  have h3 := List.count_pos_iff.2 hc
  by_cases hs : 0 < s.held.count c
  · exact .inl (List.count_pos_iff.1 hs)
  · right
    have h4 : 0 < (added s a).count c := by omega
    have h4 := List.count_pos_iff.1 h4
    cases a with
    | connects x => exact ⟨x, rfl, by rw [List.mem_singleton.1 h4]⟩
    | _ => simp [added] at h4

/-- connections that are held have different addresses -/
def Apart (s : St) : Prop := ∀ c ∈ s.held, ∀ d ∈ s.held, c.addr = d.addr → c = d

theorem Reach.apart {v : Server} {ok : St → Act → Prop} (hok : ∀ s a, ok s a → Fresh s a) {acts : List Act} {s : St} (h : Reach v ok acts s) : Apart s := by
  induction h with
  | init => intro c hc; cases v <;> simp [St.init, St.held, List.filterMap_cons, Msg.conn, Sys.conn] at hc
  | @step acts s s' a r ha hs ih =>
    have hn := next hs
    have r' : Reach v ok (acts ++ [a]) s' := r.step ha hs
    intro c hc d hd hcd
    rcases held_sub r hn hc with h1 | ⟨x, rfl, hx⟩
    · rcases held_sub r hn hd with h2 | ⟨y, rfl, hy⟩
      · exact ih c h1 d h2 hcd
      · exact absurd (hcd.trans hy) (hok _ _ ha y rfl c h1)
    · rcases held_sub r hn hd with h2 | ⟨y, h3, hy⟩
      · exact absurd (hcd.symm.trans hx) (hok _ _ ha x rfl d h2)
      · cases hn with
        | connects _ hacc =>
          have fresh : ∀ z ∈ s.held, z.addr ≠ x := hok _ _ ha x rfl
          have key : ∀ z : Conn, z.addr = x → z ∈ ({ s with backlog := s.backlog ++ [⟨s.all.length, x⟩], all := s.all ++ [⟨s.all.length, x⟩] } : St).held → z = ⟨s.all.length, x⟩ := by
            intro z hz hm
            have : z ∈ s.held ∨ z = ⟨s.all.length, x⟩ := by
              simp only [St.held, List.mem_append, List.mem_singleton] at hm ⊢
              rcases hm with ((((h | h) | h) | h) | h)
              · exact .inl (.inl (.inl (.inl h)))
              · exact .inr h
              · exact .inl (.inl (.inl (.inr h)))
              · exact .inl (.inl (.inr h))
              · exact .inl (.inr h)
            rcases this with h | h
            · exact absurd hz (fresh z h)
            · exact h
          rw [key c hx hc, key d (hcd.symm.trans hx) hd]

theorem child_held {s : St} {ch : Child} (h : ch ∈ s.children) : ch.conn ∈ s.held := by
  rw [St.held]; exact List.mem_append_right _ (List.mem_map.2 ⟨ch, h, rfl⟩)

/-- the actors that have stopped are those whose `detach` is under way -/
structure Leaving (s : St) : Prop where
  sent : ∀ ch ∈ s.children, ch.phase = .stopped → .detach ch.conn.addr ∈ s.sys
  from_ : ∀ a, .detach a ∈ s.sys → ∃ ch ∈ s.children, ch.phase = .stopped ∧ ch.conn.addr = a
  once : ∀ a, s.sys.count (.detach a) ≤ 1

theorem Leaving.congr {s s' : St} (w : Leaving s) (hs : ∀ a, s'.sys.count (.detach a) = s.sys.count (.detach a)) (hc : s'.children = s.children) : Leaving s' := by
  have hm : ∀ a, Sys.detach a ∈ s'.sys ↔ Sys.detach a ∈ s.sys := fun a => by rw [← List.count_pos_iff, ← List.count_pos_iff, hs a]
  refine ⟨?_, ?_, fun a => hs a ▸ w.once a⟩
  · rw [hc]; exact fun ch h1 h2 => (hm _).2 (w.sent ch h1 h2)
  · rw [hc]; exact fun a h => w.from_ a ((hm a).1 h)

theorem Leaving.post {s : St} (w : Leaving s) (m : Msg) : Leaving (s.post m) := w.congr (fun a => by rw [(post_rest _ _).2.2.1]) (post_rest _ _).2.1

theorem Leaving.postSys {s : St} (w : Leaving s) (m : Sys) (hm : ∀ a, m ≠ .detach a) : Leaving (s.postSys m) := by
  refine w.congr (fun a => ?_) (postSys_rest _ _).2.1
  unfold St.postSys
  split
  · rfl
  · simp [List.count_append, List.count_cons, hm a]

theorem Leaving.finish {s : St} (h : s.children = []) : Leaving s.finish := by
  refine ⟨?_, ?_, ?_⟩ <;> simp [St.finish, h]

theorem find_addr {l : List Child} {a : Nat} {x : Child} (h : l.find? (fun ch => ch.conn.addr == a) = some x) : x ∈ l ∧ x.conn.addr = a :=
  ⟨List.mem_of_find?_eq_some h, by simpa using List.find?_some h⟩

/-- handling `detach` removes the actor that has stopped -/
theorem remove_stopped {v : Server} {ok : St → Act → Prop} {acts : List Act} {s : St} (r : Reach v ok acts s) (ha : Apart s) (w : Leaving s) {a : Nat} {rest : List Sys} (hs : s.sys = .detach a :: rest) :
    ∃ x ∈ s.children, x.phase = .stopped ∧ x.conn.addr = a ∧
      ({ s with sys := rest } : St).remove a = { s with sys := rest, children := s.children.eraseP (fun ch => ch.conn.addr == a), closed := s.closed ++ [x.conn] } ∧
      ∀ y ∈ s.children, y ∈ s.children.eraseP (fun ch => ch.conn.addr == a) ↔ y.conn.addr ≠ a := by
  obtain ⟨x, hx, hp, hxa⟩ := w.from_ a (by rw [hs]; exact List.mem_cons_self)
  have huniq : ∀ y ∈ s.children, y.conn.addr = a → y = x := fun y hy hya =>
    uniq (children_nodup r) hy hx (ha _ (child_held hy) _ (child_held hx) (hya.trans hxa.symm))
  have hf : s.children.find? (fun ch => ch.conn.addr == a) = some x := by
    cases hf : s.children.find? (fun ch => ch.conn.addr == a) with
    | none => exact absurd (by simpa using hxa) (List.find?_eq_none.1 hf x hx)
    | some y =>
      obtain ⟨h1, h2⟩ := find_addr hf
      rw [huniq y h1 h2]
  refine ⟨x, hx, hp, hxa, ?_, ?_⟩
  · unfold St.remove
    dsimp only
    rw [hf]
  · intro y hy
    refine ⟨fun hm hya => ?_, fun hya => ?_⟩
    · have h1 := count_remove hf x.conn
      have h2 := List.nodup_iff_count.1 (children_nodup r) x.conn
      have h3 : 0 < ((s.children.eraseP (fun ch => ch.conn.addr == a)).map Child.conn).count x.conn := by
        rw [List.count_pos_iff]
        exact List.mem_map.2 ⟨y, hm, by rw [huniq y hy hya]⟩
      simp only [List.count_cons, List.count_nil, beq_self_eq_true, if_true] at h1
      omega
    · rcases mem_eraseP_or (q := fun ch => ch.conn.addr == a) hy with h | h
      · exact h
      · exact absurd (find_addr h).2 hya

theorem Leaving.setPhase {v : Server} {ok : St → Act → Prop} {acts : List Act} {s : St} (r : Reach v ok acts s) (w : Leaving s) {c : Conn} (hh : s.has c .waiting = true) {p : Phase} (hp : p ≠ .stopped) (t : List (Conn × Nat)) :
    Leaving { s with children := setPhase s.children c p, told := t } := by
  obtain ⟨z, hz, hz1, hz2⟩ := has_mem hh
  refine ⟨fun ch hc hp' => ?_, fun a ha => ?_, w.once⟩
  · obtain ⟨y, hy, h1, _, h3⟩ := mem_setPhase hc
    rcases h3 with ⟨_, h3⟩ | ⟨_, h3⟩
    · exact absurd (h3.symm.trans hp') hp
    · rw [h3] at hp' ⊢; exact w.sent y hy hp'
  · obtain ⟨ch, h1, h2, h3⟩ := w.from_ a ha
    have hne : ch.conn ≠ c := by
      intro hc
      obtain rfl := uniq (children_nodup r) h1 hz (hc.trans hz1.symm)
      rw [hz2] at h2; cases h2
    have := mem_setPhase_of (c := c) (p := p) h1
    rw [if_neg hne] at this
    exact ⟨ch, this, h2, h3⟩

theorem Leaving.next {v : Server} {ok : St → Act → Prop} {acts : List Act} {s s' : St} {a : Act} (r : Reach v ok acts s) (ha : Apart s) (w : Leaving s) (h : Next s a s') : Leaving s' := by
  cases h with
  | connects a _ => exact w.congr (fun _ => rfl) rfl
  | resets c _ => exact w.congr (fun _ => rfl) rfl
  | accept c rest _ _ => exact Leaving.post (s := { s with backlog := rest }) (w.congr (fun _ => rfl) rfl) _
  | acceptError _ => exact w.post _
  | watchSeen _ _ => exact w.congr (fun _ => rfl) rfl
  | diesWatched _ _ => exact Leaving.post (s := { s with dead := true }) (w.congr (fun _ => rfl) rfl) _
  | diesAlone _ _ => exact w.congr (fun _ => rfl) rfl
  | pill => exact w.post _
  | stop => exact w.postSys _ (by simp)
  | sys ok m rest hd hs =>
    cases m with
    | start =>
      have hm : s.mode = .created := by
        cases hm : s.mode with
        | created => rfl
        | _ => exact absurd (by rw [hs]; exact List.mem_cons_self) (r.shape.started (by simp [hm]))
      simp only [onSys]
      split
      · exact w.congr (fun a => by simp [hs, List.count_cons]) rfl
      · exact Leaving.finish (r.shape.created hm).1
    | stop =>
      have w' : Leaving { s with sys := rest } := w.congr (fun a => by simp [hs, List.count_cons]) rfl
      simp only [onSys]
      split
      · exact Leaving.finish (by assumption)
      · refine ⟨fun ch hc hp => ?_, fun a ha => ?_, w'.once⟩
        · obtain ⟨y, hy, rfl⟩ := List.mem_map.1 hc
          exact w'.sent y hy hp
        · obtain ⟨ch, h1, h2, h3⟩ := w'.from_ a ha
          exact ⟨_, List.mem_map.2 ⟨ch, h1, rfl⟩, h2, h3⟩
    | attach c =>
      have w' : Leaving { s with sys := rest } := w.congr (fun a => by simp [hs, List.count_cons]) rfl
      simp only [onSys]
      split
      · exact w'.congr (fun _ => rfl) rfl
      · refine ⟨fun ch hc hp => ?_, fun a ha => ?_, w'.once⟩
        · rcases List.mem_append.1 hc with hc | hc
          · exact w'.sent ch hc hp
          · rw [List.mem_singleton.1 hc] at hp; cases hp
        · obtain ⟨ch, h1, h2, h3⟩ := w'.from_ a ha
          exact ⟨ch, List.mem_append_left _ h1, h2, h3⟩
    | detach x =>
      obtain ⟨z, hz, hzp, hza, hr, hmem⟩ := remove_stopped r ha w hs
      simp only [onSys]
      split
      · exact Leaving.finish (by rename_i h; exact h.2)
      · rw [hr]
        have hcount := w.once x
        rw [hs, List.count_cons_self] at hcount
        have hnot : Sys.detach x ∉ rest := fun h => by have := List.count_pos_iff.2 h; omega
        refine ⟨fun ch hc hp => ?_, fun b hb => ?_, fun b => ?_⟩
        · have hch := List.mem_of_mem_eraseP hc
          have hne := (hmem ch hch).1 hc
          have := w.sent ch hch hp
          rw [hs] at this
          rcases List.mem_cons.1 this with h | h
          · exact absurd (Sys.detach.inj h) hne
          · exact h
        · have hbx : b ≠ x := fun h => hnot (h ▸ hb)
          obtain ⟨ch, h1, h2, h3⟩ := w.from_ b (by rw [hs]; exact List.mem_cons_of_mem _ hb)
          exact ⟨ch, (hmem ch h1).2 (h3 ▸ hbx), h2, h3⟩
        · have := w.once b
          rw [hs, List.count_cons] at this
          show rest.count _ ≤ 1
          omega
  | user ok m rest _ _ hs hu =>
    have w' : Leaving { s with usr := rest } := w.congr (fun _ => rfl) rfl
    cases m with
    | accept d =>
      simp only [onUser]
      split
      · exact w'.congr (fun _ => rfl) rfl
      · exact w'.postSys _ (by simp)
    | error => exact w'
    | terminated => exact w'.post _
    | pill => exact w'.postSys _ (by simp)
  | childFail c hh _ => exact w.setPhase r hh (by simp) s.told
  | childRun c hh _ => exact w.setPhase r hh (by simp) _
  | childStop c hh =>
    obtain ⟨z, hz, hz1, hz2⟩ := has_mem hh
    have hd : s.mode ≠ .done := fun h => by rw [(r.shape.done h).2.1] at hz; cases hz
    rw [postSys_eq (s := { s with children := Listener.setPhase s.children c .stopped }) hd]
    have hnot : Sys.detach c.addr ∉ s.sys := by
      intro hm
      obtain ⟨ch, h1, h2, h3⟩ := w.from_ _ hm
      obtain rfl := uniq (children_nodup r) h1 hz (ha _ (child_held h1) _ (child_held hz) (h3.trans (by rw [hz1])))
      rw [hz2] at h2; cases h2
    refine ⟨fun ch hc hp => ?_, fun b hb => ?_, fun b => ?_⟩
    · obtain ⟨y, hy, h1, _, h3⟩ := mem_setPhase hc
      rcases h3 with ⟨h3, _⟩ | ⟨_, h3⟩
      · rw [h1, h3]; exact List.mem_append_right _ (by simp)
      · rw [h3] at hp ⊢; exact List.mem_append_left _ (w.sent y hy hp)
    · rcases List.mem_append.1 hb with hb | hb
      · obtain ⟨ch, h1, h2, h3⟩ := w.from_ b hb
        refine ⟨_, mem_setPhase_of (c := c) (p := .stopped) h1, ?_⟩
        split
        · exact ⟨rfl, h3⟩
        · exact ⟨h2, h3⟩
      · refine ⟨_, mem_setPhase_of (c := c) (p := .stopped) hz, ?_⟩
        rw [if_pos hz1]
        exact ⟨rfl, by rw [hz1]; exact (Sys.detach.inj (List.mem_singleton.1 hb)).symm⟩
    · show (s.sys ++ [Sys.detach c.addr]).count (.detach b) ≤ 1
      have h1 := w.once b
      rw [List.count_append]
      by_cases hb : c.addr = b
      · have := List.count_eq_zero.2 hnot
        rw [← hb, this, List.count_singleton_self]
        exact Nat.le_refl _
      · have : ([Sys.detach c.addr]).count (Sys.detach b) = 0 := by
          rw [List.count_eq_zero]; intro h; exact hb (Sys.detach.inj (List.mem_singleton.1 h)).symm
        omega

theorem Reach.leaving {v : Server} {ok : St → Act → Prop} (hok : ∀ s a, ok s a → Fresh s a) {acts : List Act} {s : St} (h : Reach v ok acts s) : Leaving s := by
  induction h with
  | init => exact ⟨by simp [St.init], by simp [St.init], by simp [St.init, List.count_cons]⟩
  | step r _ hs ih => exact ih.next r (r.apart hok) (next hs)

/-- While the listener listens, a connection is closed only after it was told, or because it was reset. -/
def Served (s : St) : Prop := s.dead = true ∨ s.mode = .stopping ∨ s.mode = .done ∨ ∀ c ∈ s.closed, (c, c.addr) ∈ s.told ∨ c ∈ s.gone

theorem Reach.served {v : Server} {ok : St → Act → Prop} (hok : ∀ s a, ok s a → Fresh s a) {acts : List Act} {s : St} (h : Reach v ok acts s) : Served s := by
  induction h with
  | init => exact .inr (.inr (.inr (by simp [St.init])))
  | @step acts s s' a r _ hs ih =>
    cases next hs with
    | sys ok' m rest hd hsys =>
      obtain ⟨_, a2, a3, a4, _⟩ := onSys_all { s with sys := rest } ok' m
      unfold Served
      rw [a2, a3, a4]
      rcases ih with h | h | h | h
      · exact .inl h
      · -- a listener that is stopping goes on stopping
        right
        cases m with
        | start => exact absurd (by rw [hsys]; exact List.mem_cons_self) (r.shape.started (by simp [h]))
        | stop => simp only [onSys]; split <;> simp [St.finish]
        | attach c => simp [onSys, h]
        | detach x =>
          simp only [onSys]
          split
          · simp [St.finish]
          · rw [(remove_rest _ _).1]; exact .inl h
      · exact absurd h hd
      · by_cases hdead : s.dead = true
        · exact .inl hdead
        right
        cases m with
        | start => simp only [onSys]; split <;> simp [St.finish]; exact h
        | stop => simp only [onSys]; split <;> simp [St.finish]
        | attach c =>
          simp only [onSys]
          split
          · rename_i hm; exact .inl hm
          · exact .inr (.inr h)
        | detach x =>
          obtain ⟨z, hz, hzp, hza, hr, _⟩ := remove_stopped r (r.apart hok) (r.leaving hok) hsys
          simp only [onSys]
          split
          · simp [St.finish]
          · rw [hr]
            right; right
            intro c hc
            rcases List.mem_append.1 hc with hc | hc
            · exact h c hc
            · rw [List.mem_singleton.1 hc]
              exact .inl ((r.why.running z hz (.inr hzp)).resolve_left hdead)
    | user ok' m rest hd _ hsys hu =>
      obtain ⟨_, a2, a3, a4, _⟩ := onUser_all { s with usr := rest } m
      unfold Served
      rw [a2, a3, a4]
      have hmode : (onUser { s with usr := rest } m).mode = s.mode := by
        cases m with
        | accept c => simp only [onUser]; split <;> simp [(postSys_rest _ _).2.2.2.1]
        | error => rfl
        | terminated => exact (post_rest _ _).2.2.2.1
        | pill => exact (postSys_rest _ _).2.2.2.1
      rw [hmode]
      refine ih.imp id (Or.imp id (Or.imp id fun h => ?_))
      cases m with
      | accept c =>
        simp only [onUser]
        split
        · rename_i hg
          intro d hd
          rcases List.mem_append.1 hd with hd | hd
          · exact h d hd
          · rw [List.mem_singleton.1 hd]; exact .inr hg
        · rw [(postSys_rest _ _).1]; exact h
      | error => exact h
      | terminated => simp only [onUser]; rw [(post_rest _ _).1]; exact h
      | pill => simp only [onUser]; rw [(postSys_rest _ _).1]; exact h
    | childRun c hh _ =>
      refine ih.imp id (Or.imp id (Or.imp id fun h d hd => ?_))
      refine (h d hd).imp (fun h => ?_) id
      show _ ∈ (if s.dead = true then s.told else s.told ++ [(c, c.addr)])
      split
      · exact h
      · exact List.mem_append_left _ h
    | resets c _ => exact ih.imp id (Or.imp id (Or.imp id fun h d hd => (h d hd).imp id (List.mem_append_left _)))
    | diesWatched _ _ => exact .inl (by rw [(post_all _ _).2.2.2.1])
    | diesAlone _ _ => exact .inl rfl
    | _ =>
      unfold Served at ih ⊢
      simpa [(post_all _ _).2.1, (post_all _ _).2.2.1, (post_all _ _).2.2.2.1, (postSys_all _ _).2.1, (postSys_all _ _).2.2.1, (postSys_all _ _).2.2.2.1, (post_rest _ _).1, (post_rest _ _).2.2.2.1, (postSys_rest _ _).1, (postSys_rest _ _).2.2.2.1] using ih

/-! ## Ending -/

/-- the request to end is under way -/
def Ending (s : St) : Prop := s.mode = .stopping ∨ s.mode = .done ∨ .pill ∈ s.usr ∨ .stop ∈ s.sys ∨ .terminated ∈ s.usr

theorem onUser_mode (s : St) (m : Msg) : (onUser s m).mode = s.mode := by
  cases m with
  | accept c => simp only [onUser]; split <;> simp [(postSys_rest _ _).2.2.2.1]
  | error => rfl
  | terminated => exact (post_rest _ _).2.2.2.1
  | pill => exact (postSys_rest _ _).2.2.2.1

theorem ending_post {s : St} (h : Ending s) (m : Msg) : Ending (s.post m) := by
  by_cases hd : s.mode = .done
  · rwa [post_done hd]
  · rw [post_eq hd]
    rcases h with h | h | h | h | h
    · exact .inl h
    · exact .inr (.inl h)
    · exact .inr (.inr (.inl (List.mem_append_left _ h)))
    · exact .inr (.inr (.inr (.inl h)))
    · exact .inr (.inr (.inr (.inr (List.mem_append_left _ h))))

theorem ending_postSys {s : St} (h : Ending s) (m : Sys) : Ending (s.postSys m) := by
  by_cases hd : s.mode = .done
  · rwa [postSys_done hd]
  · rw [postSys_eq hd]
    rcases h with h | h | h | h | h
    · exact .inl h
    · exact .inr (.inl h)
    · exact .inr (.inr (.inl h))
    · exact .inr (.inr (.inr (.inl (List.mem_append_left _ h))))
    · exact .inr (.inr (.inr (.inr h)))

theorem ending_of_post {s : St} (m : Msg) (hm : m = .pill ∨ m = .terminated) : Ending (s.post m) := by
  by_cases hd : s.mode = .done
  · rw [post_done hd]; exact .inr (.inl hd)
  · rw [post_eq hd]
    rcases hm with rfl | rfl
    · exact .inr (.inr (.inl (by simp)))
    · exact .inr (.inr (.inr (.inr (by simp))))

theorem ending_of_postSys (s : St) : Ending (s.postSys .stop) := by
  by_cases hd : s.mode = .done
  · rw [postSys_done hd]; exact .inr (.inl hd)
  · rw [postSys_eq hd]; exact .inr (.inr (.inr (.inl (by simp))))

/-- a request to end is not lost -/
theorem ending_next {s s' : St} {a : Act} (w : Shape s) (he : Ending s) (h : Next s a s') : Ending s' := by
  cases h with
  | connects _ _ => exact he
  | resets _ _ => exact he
  | accept c rest _ _ => exact ending_post (s := { s with backlog := rest }) he _
  | acceptError _ => exact ending_post he _
  | watchSeen _ _ => exact he
  | diesWatched _ _ => exact ending_of_post _ (.inr rfl)
  | diesAlone _ _ => exact he
  | pill => exact ending_post he _
  | stop => exact ending_postSys he _
  | childFail _ _ _ => exact he
  | childRun _ _ _ => exact he
  | childStop c _ => exact ending_postSys (s := { s with children := setPhase s.children c .stopped }) he _
  | sys ok m rest hd hs =>
    cases m with
    | start =>
      simp only [onSys]
      split
      · rcases he with h | h | h | h | h
        · exact absurd (by rw [hs]; exact List.mem_cons_self) (w.started (by simp [h]))
        · exact absurd h hd
        · exact .inr (.inr (.inl h))
        · rw [hs] at h; exact .inr (.inr (.inr (.inl (by simpa using h))))
        · exact .inr (.inr (.inr (.inr h)))
      · exact .inr (.inl rfl)
    | stop =>
      simp only [onSys]
      split
      · exact .inr (.inl rfl)
      · exact .inl rfl
    | attach c =>
      have : Ending { s with sys := rest } := by
        rcases he with h | h | h | h | h
        · exact .inl h
        · exact .inr (.inl h)
        · exact .inr (.inr (.inl h))
        · rw [hs] at h; exact .inr (.inr (.inr (.inl (by simpa using h))))
        · exact .inr (.inr (.inr (.inr h)))
      simp only [onSys]
      split <;> exact this
    | detach x =>
      obtain ⟨r1, r2, r3, _⟩ := remove_rest { s with sys := rest } x
      simp only [onSys]
      split
      · exact .inr (.inl rfl)
      · unfold Ending
        rw [r1, r2, r3]
        rcases he with h | h | h | h | h
        · exact .inl h
        · exact .inr (.inl h)
        · exact .inr (.inr (.inl h))
        · rw [hs] at h; exact .inr (.inr (.inr (.inl (by simpa using h))))
        · exact .inr (.inr (.inr (.inr h)))
  | user ok m rest hd hc hs hu =>
    have key : m ≠ .pill → m ≠ .terminated → Ending { s with usr := rest } := by
      intro h1 h2
      rcases he with h | h | h | h | h
      · exact .inl h
      · exact .inr (.inl h)
      · rw [hu] at h
        exact .inr (.inr (.inl ((List.mem_cons.1 h).resolve_left (fun h => h1 h.symm))))
      · exact .inr (.inr (.inr (.inl h)))
      · rw [hu] at h
        exact .inr (.inr (.inr (.inr ((List.mem_cons.1 h).resolve_left (fun h => h2 h.symm)))))
    cases m with
    | accept c =>
      have := key (by simp) (by simp)
      simp only [onUser]
      split
      · exact this
      · exact ending_postSys this _
    | error => exact key (by simp) (by simp)
    | terminated => exact ending_of_post _ (.inl rfl)
    | pill => exact ending_of_postSys _

theorem watch_next {s s' : St} {a : Act} (h : Next s a s') (ha : a ≠ .watchSeen) (ha' : a ≠ .serverDies) : s'.watch = s.watch := by
  cases h <;> first | exact absurd rfl ha | exact absurd rfl ha' | simp [(post_all _ _).2.2.2.2, (postSys_all _ _).2.2.2.2, (onSys_all _ _ _).2.2.2.2, (onUser_all _ _).2.2.2.2]

theorem Reach.watched {v : Server} {ok : St → Act → Prop} {acts : List Act} {s : St} (h : Reach v ok acts s) (hw : .watchSeen ∈ acts) : (s.dead = false ∧ s.watch = .registered) ∨ Ending s := by
  induction h with
  | init => simp at hw
  | @step acts s s' a r _ hs ih =>
    have hn := next hs
    by_cases hold : .watchSeen ∈ acts
    · rcases ih hold with ⟨h1, h2⟩ | h
      · cases hn with
        | diesWatched _ _ => exact .inr (ending_of_post _ (.inr rfl))
        | diesAlone _ h => exact absurd h2 h
        | watchSeen h _ => rw [h2] at h; cases h
        | _ => exact .inl (by simp [(post_all _ _).2.2.2, (postSys_all _ _).2.2.2, (onSys_all _ _ _).2.2.2, (onUser_all _ _).2.2.2, h1, h2])
      · exact .inr (ending_next r.shape h hn)
    · have : a = .watchSeen := by
        rcases List.mem_append.1 hw with h | h
        · exact absurd h hold
        · exact (List.mem_singleton.1 h).symm
      subst this
      cases hn with
      | watchSeen _ hd => exact .inl ⟨hd, rfl⟩

theorem Reach.asked {v : Server} {ok : St → Act → Prop} {acts : List Act} {s : St} (h : Reach v ok acts s) (hh : .pill ∈ acts ∨ .stop ∈ acts ∨ v = .destroyed) : Ending s := by
  induction h with
  | init =>
    rcases hh with h | h | rfl
    · simp at h
    · simp at h
    · exact .inr (.inr (.inr (.inr (by simp [St.init]))))
  | @step acts s s' a r _ hs ih =>
    have hn := next hs
    by_cases hold : .pill ∈ acts ∨ .stop ∈ acts ∨ v = .destroyed
    · exact ending_next r.shape (ih hold) hn
    · have : a = .pill ∨ a = .stop := by
        rcases hh with h | h | h
        · rcases List.mem_append.1 h with h | h
          · exact absurd (.inl h) hold
          · exact .inl (List.mem_singleton.1 h).symm
        · rcases List.mem_append.1 h with h | h
          · exact absurd (.inr (.inl h)) hold
          · exact .inr (List.mem_singleton.1 h).symm
        · exact absurd (.inr (.inr h)) hold
      rcases this with rfl | rfl
      · cases hn; exact ending_of_post _ (.inl rfl)
      · cases hn; exact ending_of_postSys _

theorem Reach.heard {v : Server} {ok : St → Act → Prop} {acts : List Act} {s : St} (h : Reach v ok acts s) (hh : Heard v acts) : Ending s := by
  rcases hh with hp | hp | ⟨h1, h2⟩ | hp
  · exact h.asked (.inl hp)
  · exact h.asked (.inr (.inl hp))
  · rcases h.watched h1 with ⟨h3, _⟩ | h3
    · rw [h.dead.2 (.inr h2)] at h3; cases h3
    · exact h3
  · exact h.asked (.inr (.inr hp))

/-- nobody asked, so nothing ends -/
theorem Reach.unasked {v : Server} {ok : St → Act → Prop} {acts : List Act} {s : St} (h : Reach v ok acts s) (hn : ¬ Asked v acts) :
    .pill ∉ s.usr ∧ .stop ∉ s.sys ∧ .terminated ∉ s.usr ∧ s.mode ≠ .stopping ∧ (s.mode = .done ∨ s.mode = .created → s.all = []) := by
  induction h with
  | init =>
    have hv : v = .alive := Classical.byContradiction fun h => hn (.inr (.inr (.inr h)))
    subst hv
    simp [St.init]
  | @step acts s s' a r _ hs ih =>
    obtain ⟨h1, h2, h3, h4, h5⟩ := ih (fun h => hn (h.imp (List.mem_append_left _) (Or.imp (List.mem_append_left _) (Or.imp (List.mem_append_left _) id))))
    have hx := next hs
    have hacc : s.acceptor = true → s.mode ≠ .done ∧ s.mode ≠ .created := fun ha =>
      ⟨fun h => (by have := (r.shape.done h).1; rw [ha] at this; cases this), fun h => (by have := (r.shape.created h).2.1; rw [ha] at this; cases this)⟩
    cases hx with
    | connects x ha =>
      refine ⟨h1, h2, h3, h4, fun h => ?_⟩
      rcases h with h | h
      · exact absurd h (hacc ha).1
      · exact absurd h (hacc ha).2
    | resets c _ => exact ⟨h1, h2, h3, h4, h5⟩
    | accept c rest ha hb =>
      rw [post_eq (s := { s with backlog := rest }) (hacc ha).1]
      exact ⟨by simpa using h1, h2, by simpa using h3, h4, h5⟩
    | acceptError ha =>
      rw [post_eq (hacc ha).1]
      exact ⟨by simpa using h1, h2, by simpa using h3, h4, h5⟩
    | watchSeen _ _ => exact ⟨h1, h2, h3, h4, h5⟩
    | diesWatched _ _ => exact absurd (.inr (.inr (.inl (by simp)))) hn
    | diesAlone _ _ => exact absurd (.inr (.inr (.inl (by simp)))) hn
    | pill => exact absurd (.inl (by simp)) hn
    | stop => exact absurd (.inr (.inl (by simp))) hn
    | childFail c _ _ => exact ⟨h1, h2, h3, h4, h5⟩
    | childRun c _ _ => exact ⟨h1, h2, h3, h4, h5⟩
    | childStop c hh =>
      have hd : s.mode ≠ .done := fun h => by
        obtain ⟨z, hz, _⟩ := has_mem hh
        rw [(r.shape.done h).2.1] at hz; cases hz
      rw [postSys_eq (s := { s with children := setPhase s.children c .stopped }) hd]
      exact ⟨h1, by simpa using h2, h3, h4, h5⟩
    | user ok' m rest hd hc hsys hu =>
      rw [hu] at h1 h3
      cases m with
      | accept c =>
        simp only [onUser]
        split
        · exact ⟨fun h => h1 (List.mem_cons_of_mem _ h), h2, fun h => h3 (List.mem_cons_of_mem _ h), h4, h5⟩
        · rw [postSys_eq (s := { s with usr := rest }) hd]
          exact ⟨fun h => h1 (List.mem_cons_of_mem _ h), by simpa using h2, fun h => h3 (List.mem_cons_of_mem _ h), h4, h5⟩
      | error => exact ⟨fun h => h1 (List.mem_cons_of_mem _ h), h2, fun h => h3 (List.mem_cons_of_mem _ h), h4, h5⟩
      | terminated => exact absurd List.mem_cons_self h3
      | pill => exact absurd List.mem_cons_self h1
    | sys ok' m rest hd hsys =>
      rw [hsys] at h2
      have h2' : Sys.stop ∉ rest := fun h => h2 (List.mem_cons_of_mem _ h)
      cases m with
      | start =>
        have hm : s.mode = .created := by
          cases hm : s.mode with
          | created => rfl
          | _ => exact absurd (by rw [hsys]; exact List.mem_cons_self) (r.shape.started (by simp [hm]))
        simp only [onSys]
        split
        · exact ⟨h1, h2', h3, by simp, by simp⟩
        · refine ⟨by simp [St.finish], by simp [St.finish], by simp [St.finish], by simp [St.finish], fun _ => h5 (.inr hm)⟩
      | stop => exact absurd List.mem_cons_self h2
      | attach c =>
        simp only [onSys]
        split
        · exact ⟨h1, h2', h3, h4, h5⟩
        · exact ⟨h1, h2', h3, h4, h5⟩
      | detach x =>
        obtain ⟨r1, r2, r3, _⟩ := remove_rest { s with sys := rest } x
        simp only [onSys]
        split
        · rename_i h; exact absurd (r1.symm.trans h.1) h4
        · rw [r1, r2, r3]
          refine ⟨h1, h2', h3, h4, fun h => ?_⟩
          have : (({ s with sys := rest } : St).remove x).all = s.all := by unfold St.remove; split <;> rfl
          rw [this]; exact h5 h

theorem Reach.inTime {v : Server} {ok : St → Act → Prop} (hok : ∀ s a, ok s a → InTime s a) {acts : List Act} {s : St} (h : Reach v ok acts s) : ∀ ch ∈ s.children, ch.phase ≠ .failed := by
  induction h with
  | init => simp [St.init]
  | @step acts s s' a r ha hs ih =>
    cases next hs with
    | sys ok' m rest _ _ =>
      intro ch hc hp
      rcases onSys_from _ ok' m hc with ⟨c, _, rfl⟩ | ⟨x, hx, _, h2⟩
      · cases hp
      · exact ih x hx (h2 ▸ hp)
    | user ok' m rest _ _ _ _ => rw [onUser_children]; exact ih
    | childFail c _ hg => exact absurd hg (hok _ _ ha c rfl)
    | childRun c _ _ =>
      intro ch hc hp
      obtain ⟨y, hy, _, _, h3⟩ := mem_setPhase hc
      rcases h3 with ⟨_, h3⟩ | ⟨_, h3⟩
      · rw [h3] at hp; cases hp
      · exact ih y hy (h3 ▸ hp)
    | childStop c _ =>
      rw [(postSys_rest _ _).2.1]
      intro ch hc hp
      obtain ⟨y, hy, _, _, h3⟩ := mem_setPhase hc
      rcases h3 with ⟨_, h3⟩ | ⟨_, h3⟩
      · rw [h3] at hp; cases hp
      · exact ih y hy (h3 ▸ hp)
    | _ => simpa [(post_rest _ _).2.1, (postSys_rest _ _).2.1] using ih

/-! ## The work that is left -/

def Msg.work : Msg → Nat
  | .accept _ => 10
  | .error => 1
  | .terminated => 12
  | .pill => 8

def Sys.work : Sys → Nat
  | .start => 1
  | .stop => 5
  | .attach _ => 6
  | .detach _ => 1

def Phase.work : Phase → Nat
  | .waiting => 5
  | .running => 4
  | .failed => 0
  | .stopped => 0

def childWork (l : List Child) : Nat := (l.map fun ch => ch.phase.work).sum

/-- a bound of the steps that the program has left to do -/
def St.work (s : St) : Nat := (s.usr.map Msg.work).sum + (s.sys.map Sys.work).sum + childWork s.children

theorem work_post {s : St} (h : s.mode ≠ .done) (m : Msg) : (s.post m).work = s.work + m.work := by
  rw [post_eq h]; simp [St.work]; omega

theorem work_postSys {s : St} (h : s.mode ≠ .done) (m : Sys) : (s.postSys m).work = s.work + m.work := by
  rw [postSys_eq h]; simp [St.work]; omega

theorem work_finish (s : St) : s.finish.work ≤ s.work := by
  simp [St.work, St.finish]

theorem childWork_erase (l : List Child) (q : Child → Bool) : childWork (l.eraseP q) ≤ childWork l := by
  induction l with
  | nil => exact Nat.le_refl _
  | cons x l ih =>
    cases hx : q x with
    | true => simp only [List.eraseP_cons, hx, cond_true, childWork, List.map_cons, List.sum_cons]; omega
    | false =>
      simp only [List.eraseP_cons, hx, cond_false, childWork, List.map_cons, List.sum_cons] at ih ⊢
      omega

theorem work_remove (s : St) (a : Nat) : (s.remove a).work ≤ s.work := by
  unfold St.remove
  split
  · exact Nat.le_refl _
  · have := childWork_erase s.children (fun ch => ch.conn.addr == a)
    simp only [St.work]
    omega

theorem setPhase_absent {l : List Child} {c : Conn} (h : c ∉ l.map Child.conn) (p : Phase) : setPhase l c p = l := by
  induction l with
  | nil => rfl
  | cons x l ih =>
    simp only [List.map_cons, List.mem_cons, not_or] at h
    simp only [setPhase, List.map_cons] at ih ⊢
    rw [ih h.2, if_neg (fun hx => h.1 hx.symm)]

theorem childWork_set {l : List Child} (hn : (l.map Child.conn).Nodup) {x : Child} (hx : x ∈ l) (p : Phase) : childWork (setPhase l x.conn p) + x.phase.work = childWork l + p.work := by
  induction l with
  | nil => simp at hx
  | cons y l ih =>
    obtain ⟨h1, h2⟩ := List.nodup_cons.1 hn
    rcases List.mem_cons.1 hx with rfl | hx
    · have := setPhase_absent h1 p
      have e : setPhase (x :: l) x.conn p = { x with phase := p } :: l := by
        show (if x.conn = x.conn then { x with phase := p } else x) :: setPhase l x.conn p = _
        rw [if_pos rfl, this]
      rw [e]
      simp only [childWork, List.map_cons, List.sum_cons]
      omega
    · have hne : y.conn ≠ x.conn := fun h => h1 (List.mem_map.2 ⟨x, hx, h.symm⟩)
      have e : setPhase (y :: l) x.conn p = y :: setPhase l x.conn p := by
        show (if y.conn = x.conn then { y with phase := p } else y) :: setPhase l x.conn p = _
        rw [if_neg hne]
      have := ih h2 hx
      rw [e]
      simp only [childWork, List.map_cons, List.sum_cons] at this ⊢
      omega

theorem work_next {v : Server} {ok : St → Act → Prop} {acts : List Act} {s s' : St} {a : Act} (r : Reach v ok acts s) (ho : own s a = true) (h : Next s a s') : s'.work < s.work := by
  cases h with
  | sys ok' m rest hd hs =>
    have hw : s.work = ({ s with sys := rest } : St).work + m.work := by simp only [St.work, hs, List.map_cons, List.sum_cons]; omega
    rw [hw]
    cases m with
    | start =>
      simp only [onSys]
      split
      · simp only [St.work, Sys.work]; omega
      · have := work_finish { s with sys := rest }
        simp only [Sys.work]; omega
    | stop =>
      simp only [onSys]
      split
      · have := work_finish { s with sys := rest }
        simp only [Sys.work]; omega
      · simp only [St.work, Sys.work, childWork, List.map_map, Function.comp_def]; omega
    | attach c =>
      simp only [onSys]
      split
      · simp only [St.work, Sys.work]; omega
      · simp only [St.work, Sys.work, childWork, List.map_append, List.sum_append, List.map_cons, List.map_nil, List.sum_cons, List.sum_nil, Phase.work]; omega
    | detach x =>
      have h1 := work_remove { s with sys := rest } x
      simp only [onSys]
      split
      · have := work_finish (({ s with sys := rest } : St).remove x)
        simp only [Sys.work]; omega
      · simp only [Sys.work]; omega
  | user ok' m rest hd _ hs hu =>
    have hw : s.work = ({ s with usr := rest } : St).work + m.work := by simp only [St.work, hu, List.map_cons, List.sum_cons]; omega
    rw [hw]
    cases m with
    | accept c =>
      simp only [onUser]
      split
      · simp only [St.work, Msg.work]; omega
      · rw [work_postSys (s := { s with usr := rest }) hd]; simp only [Sys.work, Msg.work]; omega
    | error => simp only [onUser, Msg.work]; omega
    | terminated => simp only [onUser]; rw [work_post (s := { s with usr := rest }) hd]; simp only [Msg.work]; omega
    | pill => simp only [onUser]; rw [work_postSys (s := { s with usr := rest }) hd]; simp only [Sys.work, Msg.work]; omega
  | childFail c hh _ =>
    obtain ⟨x, hx, rfl, hp⟩ := has_mem hh
    have := childWork_set (children_nodup r) hx .failed
    rw [hp] at this
    simp only [St.work, Phase.work] at this ⊢
    omega
  | childRun c hh _ =>
    obtain ⟨x, hx, rfl, hp⟩ := has_mem hh
    have := childWork_set (children_nodup r) hx .running
    rw [hp] at this
    simp only [St.work, Phase.work] at this ⊢
    omega
  | childStop c hh =>
    obtain ⟨x, hx, rfl, hp⟩ := has_mem hh
    have := childWork_set (children_nodup r) hx .stopped
    have hd : s.mode ≠ .done := fun h => by rw [(r.shape.done h).2.1] at hx; cases hx
    rw [hp] at this
    rw [work_postSys (s := { s with children := setPhase s.children x.conn .stopped }) hd]
    simp only [St.work, Phase.work, Sys.work] at this ⊢
    omega
  | _ => simp [own] at ho

theorem quiet_empty {v : Server} {ok : St → Act → Prop} {acts : List Act} {s : St} (r : Reach v ok acts s) (hq : Quiet s) :
    s.usr = [] ∧ s.sys = [] ∧ s.mode ≠ .created ∧ (∀ ch ∈ s.children, ch.phase ≠ .waiting) ∧ ∀ ch ∈ s.children, ch.pill = true → ch.phase ≠ .running := by
  have hw : ∀ ch ∈ s.children, ch.phase ≠ .waiting := by
    intro ch hc hp
    have hh : s.has ch.conn .waiting = true := by
      simp only [St.has, List.any_eq_true]
      exact ⟨ch, hc, by simp [hp]⟩
    have := hq (.childStart ch.conn) rfl
    simp only [step, hh, if_true] at this
    split at this <;> cases this
  have hr : ∀ ch ∈ s.children, ch.pill = true → ch.phase ≠ .running := by
    intro ch hc hpill hp
    have hh : s.has ch.conn .running = true := by
      simp only [St.has, List.any_eq_true]
      exact ⟨ch, hc, by simp [hp]⟩
    have := hq (.childStop ch.conn) (by simp only [own, List.any_eq_true]; exact ⟨ch, hc, by simp [hpill]⟩)
    simp [step, hh] at this
  by_cases hd : s.mode = .done
  · obtain ⟨_, _, _, h4, h5⟩ := r.shape.done hd
    exact ⟨h4, h5, by simp [hd], hw, hr⟩
  · have hs : s.sys = [] := by
      cases hs : s.sys with
      | nil => rfl
      | cons m rest =>
        have := hq (.listen true) rfl
        rw [enabled_sys hd hs] at this; cases this
    have hc : s.mode ≠ .created := by
      intro h
      obtain ⟨k, hk⟩ := (r.shape.created h).2.2.2.1
      rw [hs] at hk; cases hk
    refine ⟨?_, hs, hc, hw, hr⟩
    cases hu : s.usr with
    | nil => rfl
    | cons m rest =>
      have := hq (.listen true) rfl
      rw [enabled_user hd hc hs hu] at this; cases this

theorem mem_accept {l : List Msg} {c : Conn} : c ∈ l.filterMap Msg.conn ↔ Msg.accept c ∈ l := by
  simp only [List.mem_filterMap]
  constructor
  · rintro ⟨m, hm, he⟩
    cases m <;> simp [Msg.conn] at he
    exact he ▸ hm
  · exact fun h => ⟨_, h, rfl⟩

theorem mem_attach {l : List Sys} {c : Conn} : c ∈ l.filterMap Sys.conn ↔ Sys.attach c ∈ l := by
  simp only [List.mem_filterMap]
  constructor
  · rintro ⟨m, hm, he⟩
    cases m <;> simp [Sys.conn] at he
    exact he ▸ hm
  · exact fun h => ⟨_, h, rfl⟩

theorem place {v : Server} {ok : St → Act → Prop} {acts : List Act} {s : St} (r : Reach v ok acts s) {c : Conn} (hc : c ∈ peers acts) :
    c ∈ s.backlog ∨ Msg.accept c ∈ s.usr ∨ Sys.attach c ∈ s.sys ∨ (∃ ch ∈ s.children, ch.conn = c) ∨ c ∈ s.closed := by
  have h := r.places c
  rw [r.all] at h
  have : 0 < s.places c := by rw [h]; exact List.count_pos_iff.2 hc
  rw [places_held, ← List.count_append, List.count_pos_iff, St.held] at this
  simp only [List.mem_append, mem_accept, mem_attach, List.mem_map] at this
  rcases this with (((h | h) | h) | h) | h
  · exact .inl h
  · exact .inr (.inl h)
  · exact .inr (.inr (.inl h))
  · exact .inr (.inr (.inr (.inl h)))
  · exact .inr (.inr (.inr (.inr h)))

/-! ## Theorems -/

/-- What the server is told is true and is told once: a connection is told by its own actor with the address of its peer, which has connected; and no connection is told twice. It was accepted, so it is not in flight any more. -/
theorem C106_told {v : Server} {ok : St → Act → Prop} (acts : List Act) (s : St) (h : Reach v ok acts s) :
    (∀ c a, (c, a) ∈ s.told → c ∈ peers acts ∧ a = c.addr ∧ ¬ s.inFlight c) ∧ (s.told.map Prod.fst).Nodup := by
  refine ⟨fun c a hm => ?_, h.told.once⟩
  have hp := h.told.place _ hm
  have hne : 0 < (s.children.map Child.conn).count c + s.closed.count c := by
    rcases hp with hp | ⟨ch, h1, h2, _⟩
    · have := List.count_pos_iff.2 hp; dsimp only at this; omega
    · have : 0 < (s.children.map Child.conn).count c := List.count_pos_iff.2 (List.mem_map.2 ⟨ch, h1, h2⟩)
      omega
  have hpl := h.places c
  have hle : s.places c ≤ 1 := by rw [hpl, h.all]; exact List.nodup_iff_count.1 (number_nodup _ _) c
  refine ⟨?_, h.told.addr _ hm, ?_⟩
  · rw [← h.all, ← List.count_pos_iff, ← hpl]; simp only [St.places]; omega
  · rintro (hf | hf | hf | ⟨x, hx, hx1, hx2⟩)
    · have := List.count_pos_iff.2 hf; simp only [St.places] at hle; omega
    · have := List.count_pos_iff.2 (mem_accept.2 hf); simp only [St.places] at hle; omega
    · have := List.count_pos_iff.2 (mem_attach.2 hf); simp only [St.places] at hle; omega
    · rcases hp with hp | ⟨ch, h1, h2, h3⟩
      · exact child_not_closed h hx (hx1 ▸ hp)
      · obtain rfl := uniq (children_nodup h) h1 hx (h2.trans hx1.symm)
        rw [hx2] at h3; simp at h3

/-- No connection is lost or duplicated: every connection that a peer has made is in exactly one place, among those that are held or among those that were closed, and there are no others. -/
theorem C106_accounted {v : Server} {ok : St → Act → Prop} (acts : List Act) (s : St) (h : Reach v ok acts s) : (s.held ++ s.closed).Perm (peers acts) := by
  rw [List.perm_iff_count]
  intro c
  rw [List.count_append, ← places_held, h.places, h.all]

/-- A peer that has connected is told to the server or is still on its way to it, unless the peer resets the connection, as long as nobody ends the listener; if peers do not connect from addresses in use. -/
theorem C106_served_partial {v : Server} {ok : St → Act → Prop} (hok : ∀ s a, ok s a → Fresh s a) (acts : List Act) (s : St) (h : Reach v ok acts s) (hn : ¬ Asked v acts) :
    ∀ c ∈ peers acts, s.inFlight c ∨ (c, c.addr) ∈ s.told ∨ .resets c ∈ acts := by
  intro c hc
  obtain ⟨_, _, _, h4, h5⟩ := h.unasked hn
  have hdead : s.dead ≠ true := fun hd => hn ((h.dead.1 hd).elim (fun h => .inr (.inr (.inr h))) (fun h => .inr (.inr (.inl h))))
  have hdone : s.mode ≠ .done := fun hd => by
    have := h5 (.inl hd)
    rw [h.all] at this
    rw [this] at hc; cases hc
  rcases place h hc with hp | hp | hp | ⟨ch, h1, h2⟩ | hp
  · exact .inl (.inl hp)
  · exact .inl (.inr (.inl hp))
  · exact .inl (.inr (.inr (.inl hp)))
  · cases hph : ch.phase with
    | waiting => exact .inl (.inr (.inr (.inr ⟨ch, h1, h2, hph⟩)))
    | failed => exact .inr (.inr ((h.gone c).1 (h2 ▸ h.why.failed ch h1 hph)))
    | running => exact .inr (.inl (h2 ▸ (h.why.running ch h1 (.inl hph)).resolve_left hdead))
    | stopped => exact .inr (.inl (h2 ▸ (h.why.running ch h1 (.inr hph)).resolve_left hdead))
  · rcases h.served hok with hs | hs | hs | hs
    · exact absurd hs hdead
    · exact absurd hs h4
    · exact absurd hs hdone
    · exact .inr ((hs c hp).imp id (h.gone c).1)

/-- The program's own steps come to an end: there are at most `work` of them, in every order, as long as nothing new happens. -/
theorem C106_settles {v : Server} {ok : St → Act → Prop} (hok : ∀ s a, own s a = true → ok s a) (acts : List Act) (s s' : St) (l : List Act) (h : Reach v ok acts s) (hl : OwnRun s l s') : l.length ≤ s.work := by
  induction hl generalizing acts with
  | nil => exact Nat.zero_le _
  | @cons s t s' a l ho hs _ ih =>
    have := ih (acts ++ [a]) (h.step (hok _ _ ho) hs)
    have := work_next h ho (next hs)
    simp only [List.length_cons]
    omega

/-- When the program has nothing left to do, every peer that was accepted has been told to the server, unless it reset the connection; if nobody ends the listener and peers do not connect from addresses in use. -/
theorem C106_announced_partial {v : Server} {ok : St → Act → Prop} (hok : ∀ s a, ok s a → Fresh s a) (acts : List Act) (s : St) (h : Reach v ok acts s) (hn : ¬ Asked v acts) (hq : Quiet s) :
    ∀ c ∈ peers acts, c ∉ s.backlog → (c, c.addr) ∈ s.told ∨ .resets c ∈ acts := by
  intro c hc hb
  obtain ⟨q1, q2, _, q4, _⟩ := quiet_empty h hq
  rcases C106_served_partial hok acts s h hn c hc with (hp | hp | hp | ⟨ch, h1, _, h3⟩) | hp
  · exact absurd hp hb
  · rw [q1] at hp; cases hp
  · rw [q2] at hp; cases hp
  · exact absurd h3 (q4 ch h1)
  · exact hp

/-- A listener that was asked to end, and could hear it, has ended when the program has nothing left to do: it listens no more, and all connections are closed; if peers do not connect from addresses in use and do not reset
connections before their actors have started. -/
theorem C106_ends_partial {v : Server} {ok : St → Act → Prop} (hok : ∀ s a, ok s a → Fresh s a ∧ InTime s a) (acts : List Act) (s : St) (h : Reach v ok acts s) (hh : Heard v acts) (hq : Quiet s) :
    s.mode = .done ∧ s.acceptor = false ∧ s.children = [] ∧ ∀ c ∈ peers acts, c ∈ s.closed := by
  obtain ⟨q1, q2, q3, q4, q5⟩ := quiet_empty h hq
  have hd : s.mode = .done := by
    rcases h.heard hh with he | he | he | he | he
    · obtain ⟨h1, h2⟩ := h.shape.stopping he
      exfalso
      cases hc : s.children with
      | nil => exact h1 hc
      | cons ch l =>
        have hm : ch ∈ s.children := by rw [hc]; exact List.mem_cons_self
        cases hp : ch.phase with
        | waiting => exact q4 ch hm hp
        | running => exact q5 ch hm (h2 ch hm) hp
        | failed => exact h.inTime (fun s a h => (hok s a h).2) ch hm hp
        | stopped =>
          have := (h.leaving (fun s a h => (hok s a h).1)).sent ch hm hp
          rw [q2] at this; cases this
    · exact he
    · rw [q1] at he; cases he
    · rw [q2] at he; cases he
    · rw [q1] at he; cases he
  obtain ⟨h1, h2, h3, h4, h5⟩ := h.shape.done hd
  refine ⟨hd, h1, h2, fun c hc => ?_⟩
  rcases place h hc with hp | hp | hp | ⟨ch, hp, _⟩ | hp
  · rw [h3] at hp; cases hp
  · rw [h4] at hp; cases hp
  · rw [h5] at hp; cases hp
  · rw [h2] at hp; cases hp
  · exact hp

theorem OwnRun.trans {s t u : St} {l l' : List Act} (h : OwnRun s l t) (h' : OwnRun t l' u) : OwnRun s (l ++ l') u := by
  induction h with
  | nil => exact h'
  | cons ho hs _ ih => exact .cons ho hs (ih h')

/-- From every state the program gets by itself to one in which it has nothing left to do. -/
theorem C106_quiet {v : Server} {ok : St → Act → Prop} (hok : ∀ s a, own s a = true → ok s a) (acts : List Act) (s : St) (h : Reach v ok acts s) : ∃ l s', OwnRun s l s' ∧ Quiet s' ∧ Reach v ok (acts ++ l) s' := by
  generalize hn : s.work = n
  induction n using Nat.strongRecOn generalizing acts s with
  | _ n ih =>
    by_cases hq : Quiet s
    · exact ⟨[], s, .nil, hq, by simpa using h⟩
    · simp only [Quiet, Classical.not_forall] at hq
      obtain ⟨a, ho, hs⟩ := hq
      cases hs' : step s a with
      | none => exact absurd hs' hs
      | some t =>
        have r := h.step (hok _ _ ho) hs'
        have hw := work_next h ho (next hs')
        obtain ⟨l, s', h1, h2, h3⟩ := ih t.work (hn ▸ hw) (acts ++ [a]) t r rfl
        exact ⟨a :: l, s', .cons ho hs' h1, h2, by simpa using h3⟩

/-! ## Examples and violations -/

def runs (s : St) : List Act → Option St
  | [] => some s
  | a :: l => match step s a with
    | none => none
    | some s' => runs s' l

/-- a test for `Fresh` and `InTime` -/
def goodB (s : St) : Act → Bool
  | .connects x => s.held.all fun c => c.addr != x
  | .childStart c => !s.gone.contains c
  | _ => true

def freshB (s : St) : Act → Bool
  | .connects x => s.held.all fun c => c.addr != x
  | _ => true

def checked (ok : St → Act → Bool) (s : St) : List Act → Option St
  | [] => some s
  | a :: l => if ok s a then match step s a with
    | none => none
    | some s' => checked ok s' l
    else none

theorem reach_checked {v : Server} {okB : St → Act → Bool} {ok : St → Act → Prop} (hok : ∀ s a, okB s a = true → ok s a) {l acts : List Act} {s s' : St} (h0 : Reach v ok acts s) (h : checked okB s l = some s') :
    Reach v ok (acts ++ l) s' := by
  induction l generalizing acts s with
  | nil => simp only [checked, Option.some.injEq] at h; subst h; simpa using h0
  | cons a l ih =>
    simp only [checked] at h
    split at h
    · rename_i ha
      split at h
      · cases h
      · rename_i t ht
        have := ih (h0.step (hok _ _ ha) ht) h
        simpa using this
    · cases h

theorem fresh_of {s : St} {a : Act} (h : freshB s a = true) : Fresh s a := by
  rintro x rfl c hc hx
  have := List.all_eq_true.1 h c hc
  simp [hx] at this

theorem good_of {s : St} {a : Act} (h : goodB s a = true) : Fresh s a ∧ InTime s a := by
  refine ⟨fresh_of ?_, ?_⟩
  · cases a <;> first | rfl | exact h
  · rintro c rfl hc
    simp [goodB, hc] at h

theorem quiet_of {s : St} (h1 : s.usr = []) (h2 : s.sys = []) (h3 : s.children.all (fun ch => ch.phase != .waiting && (ch.phase != .running || !ch.pill)) = true) (hn : (s.children.map Child.conn).Nodup) : Quiet s := by
  have h3 := List.all_eq_true.1 h3
  intro a ho
  cases a with
  | listen ok => simp only [step, h1, h2]; cases s.mode <;> rfl
  | childStart c =>
    have : s.has c .waiting = false := by
      cases hh : s.has c .waiting with
      | false => rfl
      | true =>
        obtain ⟨ch, hc, _, hp⟩ := has_mem hh
        have := h3 ch hc
        simp [hp] at this
    simp [step, this]
  | childStop c =>
    have : s.has c .running = false := by
      cases hh : s.has c .running with
      | false => rfl
      | true =>
        obtain ⟨ch, hc, hcc, hp⟩ := has_mem hh
        simp only [own, List.any_eq_true, Bool.and_eq_true, beq_iff_eq] at ho
        obtain ⟨y, hy, hyc, hyp⟩ := ho
        obtain rfl := uniq hn hc hy (hcc.trans hyc.symm)
        have := h3 ch hc
        simp [hp, hyp] at this
    simp [step, this]
  | _ => simp [own] at ho

/-- two peers, the second of which resets its connection before it is accepted; then a third -/
def exServe : List Act :=
  [.listen true, .watchSeen, .connects 7, .connects 8, .accept, .accept, .resets ⟨1, 8⟩, .acceptError, .connects 9, .listen true, .listen true, .listen true, .listen true, .childStart ⟨0, 7⟩, .accept, .listen true,
   .listen true, .childStart ⟨2, 9⟩, .childStop ⟨0, 7⟩, .listen true]

def exServed : St :=
  { backlog := [], acceptor := true, usr := [], sys := [], mode := .listening, children := [⟨⟨2, 9⟩, .running, false⟩], watch := .registered, dead := false, told := [(⟨0, 7⟩, 7), (⟨2, 9⟩, 9)], gone := [⟨1, 8⟩],
    closed := [⟨1, 8⟩, ⟨0, 7⟩], all := [⟨0, 7⟩, ⟨1, 8⟩, ⟨2, 9⟩] }

theorem exServe_reach : Reach .alive (fun s a => Fresh s a ∧ InTime s a) exServe exServed := by
  have h : checked goodB (St.init .alive) exServe = some exServed := by decide
  exact reach_checked (fun _ _ => good_of) .init h

example : Quiet exServed ∧ ¬ Asked .alive exServe ∧ peers exServe = [⟨0, 7⟩, ⟨1, 8⟩, ⟨2, 9⟩] :=
  ⟨quiet_of rfl rfl (by decide) (by decide), by unfold Asked; decide, by decide⟩

/-- the same server dies: the listener and all connections end -/
def exTail : List Act :=
  [.serverDies, .connects 10, .accept, .listen true, .listen true, .listen true, .listen true, .listen true, .childStop ⟨2, 9⟩, .connects 11, .accept, .listen true, .listen true, .listen true, .childStart ⟨3, 10⟩,
   .childStop ⟨3, 10⟩, .listen true]

def exEnd : List Act := exServe ++ exTail

def exEnded : St :=
  { exServed with acceptor := false, mode := .done, children := [], dead := true, closed := [⟨1, 8⟩, ⟨0, 7⟩, ⟨2, 9⟩, ⟨4, 11⟩, ⟨3, 10⟩], all := [⟨0, 7⟩, ⟨1, 8⟩, ⟨2, 9⟩, ⟨3, 10⟩, ⟨4, 11⟩] }

example : Reach .alive (fun s a => Fresh s a ∧ InTime s a) exEnd exEnded ∧ Heard .alive exEnd ∧ Quiet exEnded := by
  have h : checked goodB exServed exTail = some exEnded := by decide
  refine ⟨reach_checked (fun _ _ => good_of) exServe_reach h, .inr (.inr (.inl ⟨by decide, by decide⟩)), quiet_of rfl rfl (by decide) (by decide)⟩

/-- own steps are allowed by `Fresh` -/
example : ∀ s a, own s a = true → Fresh s a := by
  rintro s a h x rfl
  simp [own] at h

def exHang : List Act :=
  [.listen true, .watchSeen, .connects 7, .accept, .listen true, .listen true, .resets ⟨0, 7⟩, .childStart ⟨0, 7⟩, .serverDies, .listen true, .listen true, .listen true]

def exHung : St :=
  { backlog := [], acceptor := true, usr := [], sys := [], mode := .stopping, children := [⟨⟨0, 7⟩, .failed, true⟩], watch := .registered, dead := true, told := [], gone := [⟨0, 7⟩], closed := [], all := [⟨0, 7⟩] }

/-- a listener that waits for an actor that is gone -/
structure Hung (s : St) : Prop where
  mode : s.mode = .stopping
  acceptor : s.acceptor = true
  children : s.children = [⟨⟨0, 7⟩, .failed, true⟩]
  detach : ∀ a, .detach a ∉ s.sys
  start : .start ∉ s.sys
  told : s.told = []

theorem Hung.congr {s s' : St} (w : Hung s) (h1 : s'.mode = s.mode) (h2 : s'.acceptor = s.acceptor) (h3 : s'.children = s.children) (h4 : ∀ m, m ∈ s'.sys → m ∈ s.sys ∨ m = .stop ∨ ∃ c, m = .attach c) (h5 : s'.told = s.told) : Hung s' := by
  refine ⟨h1.trans w.mode, h2.trans w.acceptor, h3.trans w.children, fun a h => ?_, fun h => ?_, h5.trans w.told⟩
  · rcases h4 _ h with h | h | ⟨c, h⟩
    · exact w.detach a h
    · cases h
    · cases h
  · rcases h4 _ h with h | h | ⟨c, h⟩
    · exact w.start h
    · cases h
    · cases h

theorem Hung.post {s : St} (w : Hung s) (m : Msg) : Hung (s.post m) := by
  obtain ⟨_, p2, p3, p4, _, p6⟩ := post_rest s m
  exact w.congr p4 p6 p2 (fun _ h => .inl (p3 ▸ h)) (post_all s m).2.2.1

theorem Hung.postSys {s : St} (w : Hung s) (m : Sys) (hm : m = .stop ∨ ∃ c, m = .attach c) : Hung (s.postSys m) := by
  obtain ⟨_, p2, _, p4, _, p6⟩ := postSys_rest s m
  refine w.congr p4 p6 p2 (fun x h => ?_) (postSys_all s m).2.2.1
  rw [postSys_eq (by simp [w.mode])] at h
  rcases List.mem_append.1 h with h | h
  · exact .inl h
  · rw [List.mem_singleton.1 h]; exact .inr hm

theorem Hung.next {s s' : St} {a : Act} (w : Hung s) (h : Next s a s') : Hung s' := by
  have nohas : ∀ c p, s.has c p = true → p = .failed := by
    intro c p h
    obtain ⟨ch, hc, _, hp⟩ := has_mem h
    rw [w.children] at hc
    rw [List.mem_singleton.1 hc] at hp
    exact hp.symm
  cases h with
  | connects _ _ => exact w.congr rfl rfl rfl (fun _ h => .inl h) rfl
  | resets _ _ => exact w.congr rfl rfl rfl (fun _ h => .inl h) rfl
  | accept c rest _ _ => exact Hung.post (s := { s with backlog := rest }) (w.congr rfl rfl rfl (fun _ h => .inl h) rfl) _
  | acceptError _ => exact w.post _
  | watchSeen _ _ => exact w.congr rfl rfl rfl (fun _ h => .inl h) rfl
  | diesWatched _ _ => exact Hung.post (s := { s with dead := true }) (w.congr rfl rfl rfl (fun _ h => .inl h) rfl) _
  | diesAlone _ _ => exact w.congr rfl rfl rfl (fun _ h => .inl h) rfl
  | pill => exact w.post _
  | stop => exact w.postSys _ (.inl rfl)
  | childFail c hh _ => exact absurd (nohas _ _ hh) (by simp)
  | childRun c hh _ => exact absurd (nohas _ _ hh) (by simp)
  | childStop c hh => exact absurd (nohas _ _ hh) (by simp)
  | user ok m rest _ _ _ _ =>
    have w' : Hung { s with usr := rest } := w.congr rfl rfl rfl (fun _ h => .inl h) rfl
    cases m with
    | accept c =>
      simp only [onUser]
      split
      · exact w'.congr rfl rfl rfl (fun _ h => .inl h) rfl
      · exact w'.postSys _ (.inr ⟨c, rfl⟩)
    | error => exact w'
    | terminated => exact w'.post _
    | pill => exact w'.postSys _ (.inl rfl)
  | sys ok m rest _ hs =>
    have w' : Hung { s with sys := rest } := w.congr rfl rfl rfl (fun _ h => .inl (by rw [hs]; exact List.mem_cons_of_mem _ h)) rfl
    cases m with
    | start => exact absurd (by rw [hs]; exact List.mem_cons_self) w.start
    | stop =>
      have hc : (onSys { s with sys := rest } ok .stop) = { s with sys := rest, mode := .stopping, children := s.children.map fun ch => { ch with pill := true } } := by simp [onSys, w.children]
      rw [hc]
      exact w'.congr w.mode.symm rfl (by simp [w.children]) (fun _ h => .inl h) rfl
    | attach c =>
      have hc : (onSys { s with sys := rest } ok (.attach c)) = { s with sys := rest, closed := s.closed ++ [c] } := by simp [onSys, w.mode]
      rw [hc]
      exact w'.congr rfl rfl rfl (fun _ h => .inl h) rfl
    | detach x => exact absurd (by rw [hs]; exact List.mem_cons_self) (w.detach x)

/-- A peer that resets its connection after it was accepted and before its actor starts keeps the listener from ending for ever: the server has terminated, the listener has learned it, and the program has nothing left to do; but
the socket goes on listening whatever happens later. No address is used twice. -/
theorem C106_hangs_violated : ∃ acts s, Reach .alive Fresh acts s ∧ Heard .alive acts ∧ Quiet s ∧ ∀ l s', runs s l = some s' → s'.acceptor = true ∧ s'.mode = .stopping ∧ s'.told = [] := by
  have h : checked freshB (St.init .alive) exHang = some exHung := by decide
  refine ⟨exHang, exHung, reach_checked (fun _ _ => fresh_of) .init h, .inr (.inr (.inl ⟨by decide, by decide⟩)), quiet_of rfl rfl (by decide) (by decide), ?_⟩
  have w : Hung exHung := ⟨rfl, rfl, rfl, by simp [exHung], by simp [exHung], rfl⟩
  intro l
  generalize exHung = s at w
  induction l generalizing s with
  | nil => intro s' h; obtain rfl := Option.some.inj h; exact ⟨w.acceptor, w.mode, w.told⟩
  | cons a l ih =>
    intro s' h
    simp only [runs] at h
    split at h
    · cases h
    · rename_i t ht
      exact ih t (w.next (next ht)) s' h

/-- A peer connects from the address of a connection whose actor has not started yet. When the second connection ends, the first one is closed instead: its peer was accepted and did not reset it, but the server is never told of it;
the second one stays open. -/
theorem C106_untold_violated : ∃ acts s, Reach .alive (fun _ _ => True) acts s ∧ ¬ Asked .alive acts ∧ Quiet s ∧ ⟨0, 7⟩ ∈ peers acts ∧ ⟨0, 7⟩ ∈ s.closed ∧ (⟨0, 7⟩, 7) ∉ s.told ∧ .resets ⟨0, 7⟩ ∉ acts ∧
    .childStop ⟨1, 7⟩ ∈ acts ∧ ⟨1, 7⟩ ∉ s.closed := by
  let acts : List Act := [.listen true, .connects 7, .accept, .connects 7, .accept, .listen true, .listen true, .listen true, .listen true, .childStart ⟨1, 7⟩, .childStop ⟨1, 7⟩, .listen true]
  let s : St := { backlog := [], acceptor := true, usr := [], sys := [], mode := .listening, children := [⟨⟨1, 7⟩, .stopped, false⟩], watch := .requested, dead := false, told := [(⟨1, 7⟩, 7)], gone := [], closed := [⟨0, 7⟩], all := [⟨0, 7⟩, ⟨1, 7⟩] }
  have h : checked (fun _ _ => true) (St.init .alive) acts = some s := by decide
  exact ⟨acts, s, reach_checked (fun _ _ _ => trivial) .init h, by unfold Asked; decide, quiet_of rfl rfl (by decide) (by decide), by decide, by decide, by decide, by decide, by decide, by decide⟩

/-- A server that dies before it has handled the message that it is watched leaves the listener behind: it goes on listening, and nobody is told. -/
theorem C106_orphan_violated : ∃ acts s, Reach .alive (fun s a => Fresh s a ∧ InTime s a) acts s ∧ .serverDies ∈ acts ∧ Quiet s ∧ s.acceptor = true ∧ s.mode = .listening ∧ s.told = [] ∧ peers acts = [⟨0, 7⟩] ∧
    s.children = [⟨⟨0, 7⟩, .running, false⟩] := by
  let acts : List Act := [.listen true, .serverDies, .connects 7, .accept, .listen true, .listen true, .childStart ⟨0, 7⟩]
  let s : St := { backlog := [], acceptor := true, usr := [], sys := [], mode := .listening, children := [⟨⟨0, 7⟩, .running, false⟩], watch := .lost, dead := true, told := [], gone := [], closed := [], all := [⟨0, 7⟩] }
  have h : checked goodB (St.init .alive) acts = some s := by decide
  exact ⟨acts, s, reach_checked (fun _ _ => good_of) .init h, by decide, quiet_of rfl rfl (by decide) (by decide), rfl, rfl, rfl, by decide, rfl⟩

/-- The server may be told of the peers in another order than that in which they connected. -/
theorem C106_order_violated : ∃ acts s, Reach .alive (fun s a => Fresh s a ∧ InTime s a) acts s ∧ peers acts = [⟨0, 7⟩, ⟨1, 8⟩] ∧ s.told = [(⟨1, 8⟩, 8), (⟨0, 7⟩, 7)] := by
  let acts : List Act := [.listen true, .connects 7, .connects 8, .accept, .accept, .listen true, .listen true, .listen true, .listen true, .childStart ⟨1, 8⟩, .childStart ⟨0, 7⟩]
  let s : St := { backlog := [], acceptor := true, usr := [], sys := [], mode := .listening, children := [⟨⟨0, 7⟩, .running, false⟩, ⟨⟨1, 8⟩, .running, false⟩], watch := .requested, dead := false, told := [(⟨1, 8⟩, 8), (⟨0, 7⟩, 7)], gone := [], closed := [], all := [⟨0, 7⟩, ⟨1, 8⟩] }
  have h : checked goodB (St.init .alive) acts = some s := by decide
  exact ⟨acts, s, reach_checked (fun _ _ => good_of) .init h, by decide, rfl⟩

end Verif.Listener
