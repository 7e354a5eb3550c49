import Verif.Lemmas.Facade
/-!
C83: a reference stands for the actor it was made for. A message told through it, or through any copy of it, is put into the queue of that actor
and of no other, once, with the sender that was given, as long as the actor takes messages; watchers are told through their references.
-/
set_option autoImplicit false

namespace Verif.Facade

open ActorPath (Str isValidSystemName isValidActorName)

/-! ## Specification: systems, actors, and variables that name actors -/

/-- what a reference says: its system, and the actor it names -/
structure Who where
  sys : Option Nat
  actor : Option Nat
deriving DecidableEq, Repr

structure Actor where
  path : Str
  sys : Nat
  phase : Phase
  queue : List (Msg Who)
  handled : List (Msg Who)
  watchers : List Who
deriving DecidableEq, Repr

structure Sys where
  name : Str
  /-- not shut down -/
  up : Bool
  ended : Bool
deriving DecidableEq, Repr

structure World where
  systems : List Sys
  actors : List Actor
  vars : List Who
deriving DecidableEq, Repr

def World.init : World := ⟨[], [], []⟩

/-- change the actor `k` -/
def World.upd (p : World) (k : Nat) (f : Actor → Actor) : World :=
  match p.actors[k]? with
  | some a => { p with actors := p.actors.set k (f a) }
  | none => p

def Actor.get (m : Msg Who) (a : Actor) : Actor := if a.phase = .accepting then { a with queue := a.queue ++ [m] } else a

/-- the actor that `to` names gets `m` -/
def World.deliver (p : World) (to : Who) (m : Msg Who) : World :=
  match to.actor with
  | some k => p.upd k (Actor.get m)
  | none => p

def World.present (p : World) (i : Nat) : Bool :=
  match p.systems[i]? with
  | some x => !x.ended
  | none => false

def World.add (p : World) (path : Str) (i : Nat) (accepts : Bool) : World :=
  { p with actors := p.actors ++ [⟨path, i, if accepts then .accepting else .gone, [], [], []⟩], vars := p.vars ++ [⟨some i, some p.actors.length⟩] }

/-- the sender that is used if none is given: nobody, in the system `i` -/
def World.sender (p : World) (i : Nat) : Option Nat → Who
  | some q => (p.vars[q]?).getD ⟨none, none⟩
  | none => ⟨some i, none⟩

/-- Does the statement throw? Only for names that are not allowed. -/
def World.throws (_ : World) : Op → Bool
  | .system name => !isValidSystemName name
  | .create _ name _ => !isValidActorName name
  | .createChild _ name _ => !isValidActorName name
  | _ => false

/-- What a statement that does not throw does. -/
def World.step (p : World) : Op → World
  | .system name => { p with systems := p.systems ++ [⟨name, true, false⟩] }
  | .moveSystem _ => p
  | .shutdown i =>
    match p.systems[i]? with
    | some x => { p with systems := p.systems.set i { x with up := false } }
    | none => p
  | .endSystem i =>
    match p.systems[i]? with
    | some x =>
      { p with
        systems := p.systems.set i { x with up := false, ended := true }
        actors := p.actors.map (fun a => if a.sys = i then { a with phase := .gone, queue := [] } else a) }
    | none => p
  | .create i name _ =>
    match p.systems[i]? with
    | some x => p.add ("yato://".toList ++ x.name ++ "/user/".toList ++ name) i x.up
    | none => p
  | .createChild k name _ =>
    match p.actors[k]? with
    | some a => p.add (a.path ++ '/' :: name) a.sys (decide (a.phase = .accepting))
    | none => p
  | .empty => { p with vars := p.vars ++ [⟨none, none⟩] }
  | .copy r =>
    match p.vars[r]? with
    | some w => { p with vars := p.vars ++ [w] }
    | none => p
  | .move r =>
    match p.vars[r]? with
    | some w => { p with vars := p.vars.set r { w with actor := none } ++ [w] }
    | none => p
  | .self k =>
    match p.actors[k]? with
    | some a => { p with vars := p.vars ++ [⟨some a.sys, some k⟩] }
    | none => p
  | .sender k =>
    match p.actors[k]? with
    | some a =>
      match a.handled.getLast? with
      | some m => { p with vars := p.vars ++ [m.sender] }
      | none => p
    | none => p
  | .tell r n f =>
    match p.vars[r]? with
    | some w =>
      match w.sys with
      | some i => p.deliver w ⟨.user n, p.sender i f⟩
      | none => p
    | none => p
  | .send i r n f =>
    match p.vars[r]? with
    | some w => p.deliver w ⟨.user n, p.sender i f⟩
    | none => p
  | .watch _ r q =>
    match p.vars[r]?, p.vars[q]? with
    | some w, some v =>
      match w.actor with
      | some k =>
        match p.actors[k]? with
        | some a =>
          match a.phase with
          | .accepting => p.upd k (fun a => { a with watchers := if v ∈ a.watchers then a.watchers else a.watchers ++ [v] })
          | .closed => p
          | .gone => p.deliver v ⟨.terminated w, ⟨v.sys, none⟩⟩
        | none => p
      | none => p
    | _, _ => p
  | .unwatch _ r q =>
    match p.vars[r]?, p.vars[q]? with
    | some w, some v =>
      match w.actor with
      | some k => p.upd k (fun a => if a.phase = .accepting then { a with watchers := a.watchers.erase v } else a)
      | none => p
    | _, _ => p
  | .handle k => p.upd k (fun a => { a with queue := a.queue.drop 1, handled := a.handled ++ a.queue.take 1 })
  | .close k =>
    match p.actors[k]? with
    | some a =>
      (a.watchers.foldl (fun p w => p.deliver w ⟨.terminated ⟨some a.sys, some k⟩, ⟨some a.sys, some k⟩⟩) p).upd k (fun a => { a with phase := .closed })
    | none => p
  | .free k => p.upd k (fun a => { a with phase := .gone, queue := [] })

/-- the path of the actor that is named -/
def World.pathOf (p : World) (w : Who) : Option Str :=
  match w.actor with
  | some k => (p.actors[k]?).map (·.path)
  | none => none

/-- the reference names an actor, and its system is there -/
def World.names (p : World) (w : Who) : Prop := (∃ k, w.actor = some k) ∧ ∃ i, w.sys = some i ∧ p.present i = true

/-- no other actor with the path of `v` watches the actor that `w` names -/
def World.distinct (p : World) (w v : Who) : Prop :=
  ∀ k a, w.actor = some k → p.actors[k]? = some a → ∀ x ∈ a.watchers, p.pathOf x = p.pathOf v → x = v

/-- What a program may do: it does not move systems, constructors of actors do not throw, references are not used after their system has ended or if they
are empty; and when the environment acts. -/
def World.allowed (p : World) : Op → Prop
  | .system _ => True
  | .moveSystem _ => False
  | .shutdown i => p.present i = true ∧ ∀ a ∈ p.actors, a.sys = i → a.phase ≠ .accepting
  | .endSystem i => p.present i = true ∧ (∀ a ∈ p.actors, a.sys = i → a.phase ≠ .accepting) ∧ ∀ a ∈ p.actors, a.phase = .accepting → ∀ w ∈ a.watchers, w.sys ≠ some i
  | .create i _ fails => p.present i = true ∧ fails = false
  | .createChild k _ fails => (∃ a, p.actors[k]? = some a ∧ a.phase ≠ .gone) ∧ fails = false
  | .empty => True
  | .copy r => r < p.vars.length
  | .move r => r < p.vars.length
  | .self k => ∃ a, p.actors[k]? = some a ∧ a.phase ≠ .gone
  | .sender k => ∃ a, p.actors[k]? = some a ∧ a.phase ≠ .gone ∧ a.handled ≠ []
  | .tell r _ f => (∃ w i, p.vars[r]? = some w ∧ w.sys = some i ∧ p.present i = true) ∧ ∀ q, f = some q → q < p.vars.length
  | .send i r _ f => p.present i = true ∧ r < p.vars.length ∧ ∀ q, f = some q → q < p.vars.length
  | .watch i r q => p.present i = true ∧ ∃ w v k, p.vars[r]? = some w ∧ p.vars[q]? = some v ∧ w.actor = some k ∧ p.names v ∧ p.distinct w v
  | .unwatch i r q => p.present i = true ∧ ∃ w v k, p.vars[r]? = some w ∧ p.vars[q]? = some v ∧ w.actor = some k ∧ p.names v ∧ p.distinct w v
  | .handle k => ∃ a, p.actors[k]? = some a ∧ a.phase = .accepting ∧ a.queue ≠ []
  | .close k => ∃ a, p.actors[k]? = some a ∧ a.phase = .accepting
  | .free k => k < p.actors.length

/-- the next state of the specification -/
def World.next (p : World) (o : Op) : World := if p.throws o then p else p.step o

def World.Allowed (p : World) : List Op → Prop
  | [] => True
  | o :: os => p.allowed o ∧ (p.next o).Allowed os

def World.run (p : World) (os : List Op) : World := os.foldl World.next p

/-! ## What the model's state means -/

def Ref.who (r : Ref) : Who := ⟨r.sys, r.box⟩

def Body.who : Body Ref → Body Who
  | .user n => .user n
  | .terminated r => .terminated r.who

def Msg.who (m : Msg Ref) : Msg Who := ⟨m.body.who, m.sender.who⟩

def Box.actor (b : Box) : Actor := ⟨b.path, b.sys, b.phase, b.queue.map Msg.who, b.handled.map Msg.who, b.watchers.map Ref.who⟩

def Ctx.sys (c : Ctx) : Sys := ⟨c.name, c.rootOpen, c.freed⟩

def St.world (s : St) : World := ⟨s.ctxs.map Ctx.sys, s.boxes.map Box.actor, s.refs.map Ref.who⟩

/-! ## Invariant -/

/-- the paths and systems of the actors -/
def St.shape (s : St) : List (Str × Nat) := s.boxes.map (fun b => (b.path, b.sys))

def RefOk (sh : List (Str × Nat)) (r : Ref) : Prop := ∀ k, r.box = some k → ∃ q, sh[k]? = some q ∧ r.sys = some q.2 ∧ r.path = q.1

def BodyOk (sh : List (Str × Nat)) : Body Ref → Prop
  | .user _ => True
  | .terminated r => RefOk sh r

def MsgOk (sh : List (Str × Nat)) (m : Msg Ref) : Prop := BodyOk sh m.body ∧ RefOk sh m.sender

structure BoxOk (sh : List (Str × Nat)) (ctxs : List Ctx) (b : Box) : Prop where
  path : UserPath b.path
  ctx : ∃ c, ctxs[b.sys]? = some c ∧ (b.phase ≠ .gone → c.freed = false)
  queue : ∀ m ∈ b.queue, MsgOk sh m
  handled : ∀ m ∈ b.handled, MsgOk sh m
  watchers : ∀ w ∈ b.watchers, RefOk sh w ∧ ∃ k, w.box = some k
  present : b.phase = .accepting → ∀ w ∈ b.watchers, ∃ i c, w.sys = some i ∧ ctxs[i]? = some c ∧ c.freed = false

structure CtxOk (i : Nat) (c : Ctx) : Prop where
  name : isValidSystemName c.name = true
  dead : deadPath c.name = some c.dead.path
  sys : c.dead.sys = some i
  box : c.dead.box = none

structure Inv (s : St) : Prop where
  len : s.objs.length = s.ctxs.length
  obj : ∀ (i : Nat) (c : Ctx), s.ctxs[i]? = some c → s.objs[i]? = some (if c.freed then Obj.ended else Obj.live (some i))
  ctxs : ∀ (i : Nat) (c : Ctx), s.ctxs[i]? = some c → CtxOk i c
  boxes : ∀ b ∈ s.boxes, BoxOk s.shape s.ctxs b
  refs : ∀ r ∈ s.refs, RefOk s.shape r

/-! ## Lemmas -/

theorem Inv.init : Inv St.init := ⟨rfl, by simp [St.init], by simp [St.init], by simp [St.init], by simp [St.init]⟩

theorem Inv.ctx {s : St} (h : Inv s) {i : Nat} {c : Ctx} (hc : s.ctxs[i]? = some c) (hf : c.freed = false) : s.ctx i = some (i, c) := by
  have := h.obj i c hc
  rw [hf] at this
  unfold St.ctx
  rw [this]
  simp [hc, hf]

theorem present_iff {s : St} {i : Nat} : s.world.present i = true ↔ ∃ c, s.ctxs[i]? = some c ∧ c.freed = false := by
  unfold World.present St.world
  rw [List.getElem?_map]
  cases h : s.ctxs[i]? with
  | none => simp
  | some c => simp [Ctx.sys]

theorem RefOk.mono {sh : List (Str × Nat)} {r : Ref} (h : RefOk sh r) (ext : List (Str × Nat)) : RefOk (sh ++ ext) r := by
  intro k hk
  obtain ⟨q, h1, h2⟩ := h k hk
  have hl := (List.getElem?_eq_some_iff.1 h1).1
  exact ⟨q, by rw [List.getElem?_append_left hl]; exact h1, h2⟩

theorem MsgOk.mono {sh : List (Str × Nat)} {m : Msg Ref} (h : MsgOk sh m) (ext : List (Str × Nat)) : MsgOk (sh ++ ext) m := by
  refine ⟨?_, h.2.mono ext⟩
  have := h.1
  revert this
  cases m.body with
  | user n => intro _; trivial
  | terminated r => intro hr; exact RefOk.mono hr ext

theorem BoxOk.mono {sh : List (Str × Nat)} {cs : List Ctx} {b : Box} (h : BoxOk sh cs b) (ext : List (Str × Nat)) : BoxOk (sh ++ ext) cs b :=
  ⟨h.path, h.ctx, fun m hm => (h.queue m hm).mono ext, fun m hm => (h.handled m hm).mono ext,
    fun w hw => ⟨(h.watchers w hw).1.mono ext, (h.watchers w hw).2⟩, h.present⟩

theorem shape_get {s : St} {k : Nat} {b : Box} (h : s.boxes[k]? = some b) : s.shape[k]? = some (b.path, b.sys) := by
  unfold St.shape; rw [List.getElem?_map, h]; rfl

theorem set_eq {α : Type} {l : List α} {k : Nat} {a : α} (h : l[k]? = some a) : l.set k a = l := by
  apply List.ext_getElem?
  intro i
  by_cases e : k = i
  · subst e
    have := (List.getElem?_eq_some_iff.1 h).1
    rw [List.getElem?_set_self this, h]
  · rw [List.getElem?_set_ne e]

theorem shape_set {s : St} {k : Nat} {b b' : Box} (h : s.boxes[k]? = some b) (h1 : b'.path = b.path) (h2 : b'.sys = b.sys) : (s.setBox k b').shape = s.shape := by
  unfold St.shape St.setBox
  dsimp only
  rw [List.map_set, h1, h2]
  exact set_eq (shape_get h)

theorem world_set {s : St} {k : Nat} {b b' : Box} (f : Actor → Actor) (h : s.boxes[k]? = some b) (hf : b'.actor = f b.actor) : (s.setBox k b').world = s.world.upd k f := by
  unfold World.upd St.world St.setBox
  dsimp only
  rw [List.getElem?_map, h]
  simp [List.map_set, hf]

theorem Inv.set {s : St} (h : Inv s) {k : Nat} {b b' : Box} (hb : s.boxes[k]? = some b) (h1 : b'.path = b.path) (h2 : b'.sys = b.sys)
    (ok : BoxOk s.shape s.ctxs b') : Inv (s.setBox k b') := by
  have e := shape_set hb h1 h2
  refine ⟨h.len, h.obj, h.ctxs, ?_, ?_⟩
  · intro x hx
    rw [e]
    rcases List.mem_or_eq_of_mem_set hx with hx | rfl
    · exact h.boxes x hx
    · exact ok
  · intro r hr
    rw [e]
    exact h.refs r hr

theorem who_box {r : Ref} : r.who.actor = r.box := rfl

theorem upd_same {p : World} {k : Nat} {f : Actor → Actor} (h : ∀ a, p.actors[k]? = some a → f a = a) : p.upd k f = p := by
  unfold World.upd
  cases e : p.actors[k]? with
  | none => rfl
  | some a =>
    dsimp only
    rw [h a e, set_eq e]

theorem world_box {s : St} {k : Nat} : s.world.actors[k]? = (s.boxes[k]?).map Box.actor := by
  unfold St.world; rw [List.getElem?_map]

/-- what does not change when messages are sent -/
structure Same (s s' : St) : Prop where
  objs : s'.objs = s.objs
  ctxs : s'.ctxs = s.ctxs
  refs : s'.refs = s.refs
  shape : s'.shape = s.shape

theorem Same.rfl' (s : St) : Same s s := ⟨rfl, rfl, rfl, rfl⟩

theorem Same.trans {s t u : St} (h : Same s t) (g : Same t u) : Same s u :=
  ⟨g.objs.trans h.objs, g.ctxs.trans h.ctxs, g.refs.trans h.refs, g.shape.trans h.shape⟩

theorem not_same_dead {s : St} (h : Inv s) {i k : Nat} {c : Ctx} {r : Ref} (hc : s.ctxs[i]? = some c) (hr : RefOk s.shape r) (hk : r.box = some k) :
    r.same c.dead = false := by
  obtain ⟨q, h1, h2, h3⟩ := hr k hk
  unfold St.shape at h1
  rw [List.getElem?_map, Option.map_eq_some_iff] at h1
  obtain ⟨b, hb, rfl⟩ := h1
  have := (h.boxes b (List.mem_of_getElem? hb)).path.not_dead (h.ctxs i c hc).dead
  simp only [Ref.same, decide_eq_false_iff_not, h3]
  exact this

theorem BoxOk.enqueue {sh : List (Str × Nat)} {cs : List Ctx} {b : Box} {m : Msg Ref} (h : BoxOk sh cs b) (hm : MsgOk sh m) : BoxOk sh cs (b.enqueue m) := by
  unfold Box.enqueue
  split
  · refine ⟨h.path, h.ctx, ?_, h.handled, h.watchers, h.present⟩
    intro x hx
    rcases List.mem_append.1 hx with hx | hx
    · exact h.queue x hx
    · rw [List.mem_singleton.1 hx]; exact hm
  · exact h

theorem actor_enqueue (b : Box) (m : Msg Ref) : (b.enqueue m).actor = Actor.get m.who b.actor := by
  unfold Box.enqueue Actor.get
  by_cases e : b.phase = .accepting
  · rw [if_pos e, if_pos (show b.actor.phase = .accepting from e)]
    simp [Box.actor]
  · rw [if_neg e, if_neg (show ¬ b.actor.phase = .accepting from e)]

theorem enqueue_path (b : Box) (m : Msg Ref) : (b.enqueue m).path = b.path ∧ (b.enqueue m).sys = b.sys := by
  unfold Box.enqueue; split <;> exact ⟨rfl, rfl⟩

/-- sending a message through a reference delivers it to the actor the reference names -/
theorem sendUser_ok {s : St} (h : Inv s) {i : Nat} {c : Ctx} (hc : s.ctxs[i]? = some c) (hf : c.freed = false) {to : Ref} (ht : RefOk s.shape to) {m : Msg Ref}
    (hm : MsgOk s.shape m) : ∃ s', sendUser s i to m = .ok s' ∧ Inv s' ∧ Same s s' ∧ s'.world = s.world.deliver to.who m.who := by
  unfold sendUser
  rw [h.ctx hc hf]
  dsimp only
  cases hk : to.box with
  | none =>
    have e : s.lock to = none := by unfold St.lock; rw [hk]
    refine ⟨s, ?_, h, .rfl' s, ?_⟩
    · rw [e]; split <;> rfl
    · unfold World.deliver; rw [who_box, hk]
  | some k =>
    obtain ⟨q, h1, h2, h3⟩ := ht k hk
    rw [not_same_dead h hc ht hk, h2]
    dsimp only [Option.isNone, Bool.or_false]
    unfold St.shape at h1
    rw [List.getElem?_map, Option.map_eq_some_iff] at h1
    obtain ⟨b, hb, -⟩ := h1
    unfold St.lock
    rw [hk]
    dsimp only
    rw [hb]
    dsimp only
    by_cases hg : b.phase = .gone
    · rw [if_pos hg]
      refine ⟨s, rfl, h, .rfl' s, ?_⟩
      unfold World.deliver
      rw [who_box, hk]
      dsimp only
      rw [upd_same]
      intro a ha
      rw [world_box, hb] at ha
      cases ha
      unfold Actor.get
      rw [if_neg (show ¬ b.actor.phase = .accepting by rw [show b.actor.phase = b.phase from rfl, hg]; decide)]
    · rw [if_neg hg]
      obtain ⟨e1, e2⟩ := enqueue_path b m
      refine ⟨_, rfl, h.set hb e1 e2 ((h.boxes b (List.mem_of_getElem? hb)).enqueue hm), ⟨rfl, rfl, rfl, shape_set hb e1 e2⟩, ?_⟩
      rw [world_set (Actor.get m.who) hb (actor_enqueue b m)]
      unfold World.deliver
      rw [who_box, hk]

theorem refOk_dead {s : St} (h : Inv s) {i : Nat} {c : Ctx} (hc : s.ctxs[i]? = some c) : RefOk s.shape c.dead := by
  intro k hk
  rw [(h.ctxs i c hc).box] at hk
  cases hk

/-- the sender of a message -/
def fromWho (i : Nat) : Option Ref → Who
  | some f => f.who
  | none => ⟨some i, none⟩

theorem who_sender {s : St} (h : Inv s) {i : Nat} {c : Ctx} (hc : s.ctxs[i]? = some c) (f : Option Ref) : (senderOf c f).who = fromWho i f := by
  cases f with
  | some f => rfl
  | none =>
    unfold senderOf fromWho Ref.who
    rw [(h.ctxs i c hc).sys, (h.ctxs i c hc).box]

theorem send_ok {s : St} (h : Inv s) {i : Nat} {c : Ctx} (hc : s.ctxs[i]? = some c) (hf : c.freed = false) {to : Ref} (ht : RefOk s.shape to) {body : Body Ref}
    (hm : BodyOk s.shape body) {f : Option Ref} (hs : ∀ x, f = some x → RefOk s.shape x) :
    ∃ s', send s i to body f = .ok s' ∧ Inv s' ∧ Same s s' ∧ s'.world = s.world.deliver to.who ⟨body.who, fromWho i f⟩ := by
  unfold send
  rw [h.ctx hc hf]
  dsimp only
  have ok : MsgOk s.shape ⟨body, senderOf c f⟩ := by
    refine ⟨hm, ?_⟩
    cases f with
    | none => exact refOk_dead h hc
    | some x => exact hs x rfl
  obtain ⟨s', h1, h2, h3, h4⟩ := sendUser_ok h hc hf ht ok
  refine ⟨s', h1, h2, h3, ?_⟩
  rw [h4]
  unfold Msg.who
  rw [who_sender h hc]

theorem tell_ok {s : St} (h : Inv s) {r : Ref} {i : Nat} {c : Ctx} (hr : r.sys = some i) (hc : s.ctxs[i]? = some c) (hf : c.freed = false) (ht : RefOk s.shape r)
    {body : Body Ref} (hm : BodyOk s.shape body) {f : Option Ref} (hs : ∀ x, f = some x → RefOk s.shape x) :
    ∃ s', tell s r body f = .ok s' ∧ Inv s' ∧ Same s s' ∧ s'.world = s.world.deliver r.who ⟨body.who, fromWho i f⟩ := by
  unfold tell
  rw [hr]
  exact send_ok h hc hf ht hm hs

theorem notify_ok {self : Ref} {ws : List Ref} : ∀ {s : St}, Inv s → RefOk s.shape self →
    (∀ w ∈ ws, RefOk s.shape w ∧ ∃ i c, w.sys = some i ∧ s.ctxs[i]? = some c ∧ c.freed = false) →
    ∃ s', notify s self ws = .ok s' ∧ Inv s' ∧ Same s s' ∧
      s'.world = (ws.map Ref.who).foldl (fun p w => p.deliver w ⟨.terminated self.who, self.who⟩) s.world := by
  induction ws with
  | nil => intro s h _ _; exact ⟨s, rfl, h, .rfl' s, rfl⟩
  | cons w ws ih =>
    intro s h hself hw
    obtain ⟨h1, i, c, h2, h3, h4⟩ := hw w (List.mem_cons_self ..)
    obtain ⟨s1, e1, i1, same1, w1⟩ := tell_ok h h2 h3 h4 h1 (body := .terminated self) hself (f := some self) (fun x hx => by cases hx; exact hself)
    obtain ⟨s2, e2, i2, same2, w2⟩ := ih i1 (by rw [same1.shape]; exact hself) (fun x hx => by
      rw [same1.shape, same1.ctxs]; exact hw x (List.mem_cons_of_mem _ hx))
    refine ⟨s2, ?_, i2, same1.trans same2, ?_⟩
    · unfold notify; rw [e1]; exact e2
    · rw [w2, w1]; rfl

/-- outcome of a statement: what the specification says -/
def Fits (s : St) (o : Op) : Prop := ∃ s', step s o = (if s.world.throws o then .threw s' else .ok s') ∧ Inv s' ∧ s'.world = s.world.next o

theorem Fits.ok {s s' : St} {o : Op} (h1 : step s o = .ok s') (ht : s.world.throws o = false) (hi : Inv s') (hw : s'.world = s.world.step o) : Fits s o :=
  ⟨s', by rw [h1, ht]; rfl, hi, by rw [hw]; unfold World.next; rw [ht]; rfl⟩

theorem Fits.threw {s : St} {o : Op} (h : Inv s) (h1 : step s o = .threw s) (ht : s.world.throws o = true) : Fits s o :=
  ⟨s, by rw [h1, ht]; rfl, h, by unfold World.next; rw [ht]; rfl⟩

/-! a new system -/

theorem fits_system {s : St} (h : Inv s) (name : Str) : Fits s (.system name) := by
  cases hv : isValidSystemName name with
  | false => exact .threw h (by show newSystem s name = _; unfold newSystem; rw [hv]; rfl) (by show (!isValidSystemName name) = true; rw [hv]; rfl)
  | true =>
    obtain ⟨q, hq⟩ := deadPath_some hv
    refine .ok (by show newSystem s name = _; unfold newSystem; rw [hv, hq]; rfl) (by show (!isValidSystemName name) = false; rw [hv]; rfl) ?_ ?_
    · refine ⟨by simp [h.len], ?_, ?_, ?_, h.refs⟩
      · intro i c hc
        dsimp only at hc ⊢
        rw [List.getElem?_append] at hc
        rw [List.getElem?_append, h.len]
        split at hc
        · rename_i hl
          rw [if_pos hl]
          exact h.obj i c hc
        · rename_i hl
          rw [if_neg hl]
          have : i - s.ctxs.length = 0 := by
            have := (List.getElem?_eq_some_iff.1 hc).1
            simpa using this
          rw [this] at hc ⊢
          simp only [List.getElem?_cons_zero, Option.some.injEq] at hc ⊢
          subst hc
          have : i = s.ctxs.length := by omega
          rw [this]
          rfl
      · intro i c hc
        dsimp only at hc
        rw [List.getElem?_append] at hc
        split at hc
        · exact h.ctxs i c hc
        · rename_i hl
          have e : i - s.ctxs.length = 0 := by
            have := (List.getElem?_eq_some_iff.1 hc).1
            simpa using this
          rw [e] at hc
          simp only [List.getElem?_cons_zero, Option.some.injEq] at hc
          subst hc
          have e : i = s.ctxs.length := by omega
          exact ⟨hv, hq, by rw [e, h.len], rfl⟩
      · intro b hb
        have ok := h.boxes b hb
        have up : ∀ (i : Nat) (c : Ctx), s.ctxs[i]? = some c → (s.ctxs ++ [(⟨name, true, false, ⟨some s.objs.length, none, q⟩⟩ : Ctx)])[i]? = some c := by
          intro i c hc
          rw [List.getElem?_append_left (List.getElem?_eq_some_iff.1 hc).1]; exact hc
        refine ⟨ok.path, ?_, ok.queue, ok.handled, ok.watchers, ?_⟩
        · obtain ⟨c, h1, h2⟩ := ok.ctx
          exact ⟨c, up _ _ h1, h2⟩
        · intro hp w hw
          obtain ⟨i, c, h1, h2, h3⟩ := ok.present hp w hw
          exact ⟨i, c, h1, up _ _ h2, h3⟩
    · simp [St.world, World.step, Ctx.sys]

/-! variables -/

theorem Inv.push {s : St} (h : Inv s) {r : Ref} (hr : RefOk s.shape r) : Inv { s with refs := s.refs ++ [r] } :=
  ⟨h.len, h.obj, h.ctxs, h.boxes, fun x hx => by
    rcases List.mem_append.1 hx with hx | hx
    · exact h.refs x hx
    · rw [List.mem_singleton.1 hx]; exact hr⟩

theorem world_push (s : St) (r : Ref) : ({ s with refs := s.refs ++ [r] } : St).world = { s.world with vars := s.world.vars ++ [r.who] } := by
  simp [St.world]

theorem world_vars {s : St} {r : Nat} : s.world.vars[r]? = (s.refs[r]?).map Ref.who := by
  unfold St.world; rw [List.getElem?_map]

theorem vars_lt {s : St} {r : Nat} (h : r < s.world.vars.length) : ∃ x, s.refs[r]? = some x := by
  have : r < s.refs.length := by simpa [St.world] using h
  exact ⟨_, List.getElem?_eq_getElem this⟩

theorem refOk_self {s : St} {k : Nat} {b : Box} (hb : s.boxes[k]? = some b) : RefOk s.shape (b.self k) := by
  intro j hj
  cases hj
  exact ⟨_, shape_get hb, rfl, rfl⟩

theorem fits_empty {s : St} (h : Inv s) : Fits s .empty :=
  .ok rfl rfl (h.push (fun k hk => by cases hk)) (world_push s Ref.empty)

theorem fits_copy {s : St} (h : Inv s) (r : Nat) (ha : s.world.allowed (.copy r)) : Fits s (.copy r) := by
  obtain ⟨x, hx⟩ := vars_lt ha
  refine .ok (s' := { s with refs := s.refs ++ [x] }) (by dsimp only [step]; rw [hx]) rfl (h.push (h.refs x (List.mem_of_getElem? hx))) ?_
  rw [world_push]; dsimp only [World.step]; rw [world_vars, hx]; rfl

theorem fits_move {s : St} (h : Inv s) (r : Nat) (ha : s.world.allowed (.move r)) : Fits s (.move r) := by
  obtain ⟨x, hx⟩ := vars_lt ha
  refine .ok (s' := { s with refs := s.refs.set r ⟨x.sys, none, []⟩ ++ [x] }) (by dsimp only [step]; rw [hx]) rfl ⟨h.len, h.obj, h.ctxs, h.boxes, ?_⟩ ?_
  · intro y hy
    rcases List.mem_append.1 hy with hy | hy
    · rcases List.mem_or_eq_of_mem_set hy with hy | rfl
      · exact h.refs y hy
      · intro k hk; cases hk
    · rw [List.mem_singleton.1 hy]; exact h.refs x (List.mem_of_getElem? hx)
  · dsimp only [World.step]; rw [world_vars, hx]
    simp [St.world, List.map_set, Ref.who]

theorem world_actor {s : St} {k : Nat} {a : Actor} (h : s.world.actors[k]? = some a) : ∃ b, s.boxes[k]? = some b ∧ a = b.actor := by
  rw [world_box, Option.map_eq_some_iff] at h
  obtain ⟨b, h1, h2⟩ := h
  exact ⟨b, h1, h2.symm⟩

theorem world_actor' {s : St} {k : Nat} {b : Box} (h : s.boxes[k]? = some b) : s.world.actors[k]? = some b.actor := by
  rw [world_box, h]; rfl

theorem fits_self {s : St} (h : Inv s) (k : Nat) (ha : s.world.allowed (.self k)) : Fits s (.self k) := by
  obtain ⟨a, h1, h2⟩ := ha
  obtain ⟨b, hb, rfl⟩ := world_actor h1
  refine .ok (s' := { s with refs := s.refs ++ [b.self k] }) ?_ rfl (h.push (refOk_self hb)) ?_
  · dsimp only [step]; rw [hb]; exact if_neg h2
  · rw [world_push]; dsimp only [World.step]; rw [h1]; rfl

theorem fits_sender {s : St} (h : Inv s) (k : Nat) (ha : s.world.allowed (.sender k)) : Fits s (.sender k) := by
  obtain ⟨a, h1, h2, h3⟩ := ha
  obtain ⟨b, hb, rfl⟩ := world_actor h1
  have hne : b.handled ≠ [] := by
    intro e; apply h3; simp [Box.actor, e]
  cases hl : b.handled.getLast? with
  | none => exact absurd (List.getLast?_eq_none_iff.1 hl) hne
  | some m =>
    have hm : m ∈ b.handled := List.mem_of_getLast? hl
    refine .ok (s' := { s with refs := s.refs ++ [m.sender] }) ?_ rfl (h.push ((h.boxes b (List.mem_of_getElem? hb)).handled m hm).2) ?_
    · dsimp only [step]; rw [hb]; dsimp only; rw [if_neg (show ¬ b.phase = .gone from h2), hl]
    · rw [world_push]; dsimp only [World.step]; rw [h1]
      have : b.actor.handled.getLast? = some m.who := by
        show (b.handled.map Msg.who).getLast? = _
        rw [List.getLast?_map, hl]; rfl
      dsimp only
      rw [this]; rfl

/-! messages -/

theorem from_ok {s : St} (h : Inv s) {f : Option Nat} (hf : ∀ q, f = some q → q < s.world.vars.length) (i : Nat) :
    ∃ x, s.from_ f = some x ∧ (∀ y, x = some y → RefOk s.shape y) ∧ fromWho i x = s.world.sender i f := by
  cases f with
  | none => exact ⟨none, rfl, fun y hy => (by cases hy), rfl⟩
  | some q =>
    obtain ⟨x, hx⟩ := vars_lt (hf q rfl)
    refine ⟨some x, by dsimp only [St.from_]; rw [hx]; rfl, fun y hy => by cases hy; exact h.refs x (List.mem_of_getElem? hx), ?_⟩
    dsimp only [World.sender]
    rw [world_vars, hx]; rfl

theorem fits_tell {s : St} (h : Inv s) (r n : Nat) (f : Option Nat) (ha : s.world.allowed (.tell r n f)) : Fits s (.tell r n f) := by
  obtain ⟨⟨w, i, h1, h2, h3⟩, h4⟩ := ha
  rw [world_vars, Option.map_eq_some_iff] at h1
  obtain ⟨x, hx, rfl⟩ := h1
  obtain ⟨c, hc, hf⟩ := present_iff.1 h3
  obtain ⟨y, hy, hy1, hy2⟩ := from_ok h h4 i
  obtain ⟨s', e, hi, -, hw⟩ := tell_ok h h2 hc hf (h.refs x (List.mem_of_getElem? hx)) (body := .user n) trivial hy1
  refine .ok (s' := s') ?_ rfl hi ?_
  · dsimp only [step]; rw [hx, hy]; exact e
  · rw [hw, hy2]; dsimp only [World.step]; rw [world_vars, hx]
    dsimp only [Option.map]
    rw [show x.who.sys = some i from h2]; rfl

theorem fits_send {s : St} (h : Inv s) (i r n : Nat) (f : Option Nat) (ha : s.world.allowed (.send i r n f)) : Fits s (.send i r n f) := by
  obtain ⟨h3, hr, h4⟩ := ha
  obtain ⟨x, hx⟩ := vars_lt hr
  obtain ⟨c, hc, hf⟩ := present_iff.1 h3
  obtain ⟨y, hy, hy1, hy2⟩ := from_ok h h4 i
  obtain ⟨s', e, hi, -, hw⟩ := send_ok h hc hf (h.refs x (List.mem_of_getElem? hx)) (body := .user n) trivial hy1
  refine .ok (s' := s') ?_ rfl hi ?_
  · dsimp only [step]; rw [hx, hy]; exact e
  · rw [hw, hy2]; dsimp only [World.step]; rw [world_vars, hx]; rfl

/-! watching -/

theorem pathOf_who {s : St} {r : Ref} {k : Nat} (hr : RefOk s.shape r) (hk : r.box = some k) : s.world.pathOf r.who = some r.path := by
  obtain ⟨q, h1, -, h3⟩ := hr k hk
  unfold St.shape at h1
  rw [List.getElem?_map, Option.map_eq_some_iff] at h1
  obtain ⟨b, hb, rfl⟩ := h1
  unfold World.pathOf
  rw [who_box, hk]
  dsimp only
  rw [world_actor' hb, h3]; rfl

/-- references with the same actor have the same path -/
theorem same_of_who {s : St} {x y : Ref} (hx : RefOk s.shape x) (hy : RefOk s.shape y) {k : Nat} (hk : x.box = some k) (e : x.who = y.who) : x.same y = true := by
  have e2 : x.box = y.box := congrArg Who.actor e
  obtain ⟨q, h1, -, h3⟩ := hx k hk
  obtain ⟨q', h1', -, h3'⟩ := hy k (e2 ▸ hk)
  rw [h1] at h1'
  cases h1'
  simp [Ref.same, h3, h3']

theorem same_iff {s : St} {b : Box} {k j : Nat} {w v : Ref} (hb : s.boxes[k]? = some b) (hbw : ∀ x ∈ b.watchers, RefOk s.shape x ∧ ∃ k, x.box = some k)
    (hv : RefOk s.shape v) (hvb : v.box = some j) (hk : w.box = some k) (hd : s.world.distinct w.who v.who) {x : Ref} (hx : x ∈ b.watchers) :
    x.same v = true ↔ x.who = v.who := by
  obtain ⟨hx1, l, hx2⟩ := hbw x hx
  constructor
  · intro e
    apply hd k b.actor (by rw [who_box]; exact hk) (world_actor' hb) x.who (List.mem_map_of_mem hx)
    rw [pathOf_who hx1 hx2, pathOf_who hv hvb]
    simp only [Ref.same, decide_eq_true_eq] at e
    rw [e]
  · intro e
    exact same_of_who hx1 hv hx2 e

theorem any_same {s : St} {b : Box} {k j : Nat} {w v : Ref} (hb : s.boxes[k]? = some b) (hbw : ∀ x ∈ b.watchers, RefOk s.shape x ∧ ∃ k, x.box = some k)
    (hv : RefOk s.shape v) (hvb : v.box = some j) (hk : w.box = some k) (hd : s.world.distinct w.who v.who) :
    b.watchers.any (fun x => x.same v) = true ↔ v.who ∈ b.watchers.map Ref.who := by
  rw [List.any_eq_true, List.mem_map]
  constructor
  · rintro ⟨x, h1, h2⟩
    exact ⟨x, h1, (same_iff hb hbw hv hvb hk hd h1).1 h2⟩
  · rintro ⟨x, h1, h2⟩
    exact ⟨x, h1, (same_iff hb hbw hv hvb hk hd h1).2 h2⟩

theorem erase_same (v : Ref) : ∀ (l : List Ref), (∀ x ∈ l, x.same v = true ↔ x.who = v.who) → (l.eraseP (fun x => x.same v)).map Ref.who = (l.map Ref.who).erase v.who := by
  intro l
  induction l with
  | nil => intro _; rfl
  | cons x l ih =>
    intro h
    have hx := h x (List.mem_cons_self ..)
    by_cases e : x.who = v.who
    · rw [List.eraseP_cons_of_pos (p := fun x : Ref => x.same v) (hx.2 e), List.map_cons, e, List.erase_cons_head]
    · have : ¬ x.same v = true := fun q => e (hx.1 q)
      rw [List.eraseP_cons_of_neg (p := fun x : Ref => x.same v) this, List.map_cons, List.map_cons, List.erase_cons_tail (by simpa using e),
        ih (fun y hy => h y (List.mem_cons_of_mem _ hy))]

theorem actor_watch {b : Box} {v : Ref} (h : b.watchers.any (fun x => x.same v) = true ↔ v.who ∈ b.watchers.map Ref.who) :
    ({ b with watchers := if b.watchers.any (fun x => x.same v) then b.watchers else b.watchers ++ [v] } : Box).actor =
      { b.actor with watchers := if v.who ∈ b.actor.watchers then b.actor.watchers else b.actor.watchers ++ [v.who] } := by
  have : (if b.watchers.any (fun x => x.same v) then b.watchers else b.watchers ++ [v]).map Ref.who =
      if v.who ∈ b.actor.watchers then b.actor.watchers else b.actor.watchers ++ [v.who] := by
    by_cases e : v.who ∈ b.actor.watchers
    · rw [if_pos e, if_pos (h.2 e)]; rfl
    · rw [if_neg e, if_neg (fun q => e (h.1 q))]; simp [Box.actor]
  rw [← this]
  rfl

theorem fits_watch {s : St} (h : Inv s) (i r q : Nat) (ha : s.world.allowed (.watch i r q)) : Fits s (.watch i r q) := by
  obtain ⟨hp, w, v, k, hw, hv, hk, ⟨⟨j, hj⟩, i2, hs2, hp2⟩, hd⟩ := ha
  have hw' := hw
  have hv' := hv
  rw [world_vars, Option.map_eq_some_iff] at hw hv
  obtain ⟨w, hw, rfl⟩ := hw
  obtain ⟨v, hv, rfl⟩ := hv
  obtain ⟨c, hc, hf⟩ := present_iff.1 hp
  obtain ⟨c2, hc2, hf2⟩ := present_iff.1 hp2
  have okw := h.refs w (List.mem_of_getElem? hw)
  have okv := h.refs v (List.mem_of_getElem? hv)
  have hk : w.box = some k := hk
  have hj : v.box = some j := hj
  obtain ⟨p, hs, -, -⟩ := okw k hk
  unfold St.shape at hs
  rw [List.getElem?_map, Option.map_eq_some_iff] at hs
  obtain ⟨b, hb, -⟩ := hs
  have okb := h.boxes b (List.mem_of_getElem? hb)
  have e0 : step s (.watch i r q) = watch s i w v := by dsimp only [step]; rw [hw, hv]
  have spec : s.world.step (.watch i r q) = match b.phase with
      | .accepting => s.world.upd k (fun a => { a with watchers := if v.who ∈ a.watchers then a.watchers else a.watchers ++ [v.who] })
      | .closed => s.world
      | .gone => s.world.deliver v.who ⟨.terminated w.who, ⟨v.who.sys, none⟩⟩ := by
    dsimp only [World.step]
    rw [hw', hv']
    dsimp only
    rw [show w.who.actor = some k from hk]
    dsimp only
    rw [world_actor' hb]
    rfl
  have e1 : watch s i w v = match s.lock w with
      | none => tell s v (.terminated w) none
      | some (k, b) =>
        if b.phase = .accepting then
          .ok (s.setBox k { b with watchers := if b.watchers.any (fun w => w.same v) then b.watchers else b.watchers ++ [v] })
        else .ok s := by
    unfold watch
    rw [h.ctx hc hf]
    dsimp only
    rw [not_same_dead h hc okw hk, not_same_dead h hc okv hj]
    rfl
  have el : s.lock w = if b.phase = .gone then none else some (k, b) := by
    unfold St.lock; rw [hk]; dsimp only; rw [hb]
  cases hph : b.phase with
  | gone =>
    rw [el, if_pos hph] at e1
    obtain ⟨s', e, hi, -, hw2⟩ := tell_ok h hs2 hc2 hf2 okv (body := .terminated w) okw (f := none) (fun _ hx => by cases hx)
    refine .ok (s' := s') (by rw [e0, e1]; exact e) rfl hi ?_
    rw [spec, hph, hw2]
    dsimp only
    rw [show v.who.sys = some i2 from hs2]; rfl
  | closed =>
    rw [el, if_neg (by rw [hph]; decide)] at e1
    dsimp only at e1
    rw [if_neg (by rw [hph]; decide)] at e1
    exact .ok (s' := s) (by rw [e0, e1]) rfl h (by rw [spec, hph])
  | accepting =>
    rw [el, if_neg (by rw [hph]; decide)] at e1
    dsimp only at e1
    rw [if_pos hph] at e1
    refine .ok (e0.trans e1) rfl (h.set hb rfl rfl ⟨okb.path, okb.ctx, okb.queue, okb.handled, ?_, ?_⟩) ?_
    · intro x hx
      split at hx
      · exact okb.watchers x hx
      · rcases List.mem_append.1 hx with hx | hx
        · exact okb.watchers x hx
        · rw [List.mem_singleton.1 hx]; exact ⟨okv, j, hj⟩
    · intro _ x hx
      split at hx
      · exact okb.present hph x hx
      · rcases List.mem_append.1 hx with hx | hx
        · exact okb.present hph x hx
        · rw [List.mem_singleton.1 hx]; exact ⟨i2, c2, hs2, hc2, hf2⟩
    · have spec' : s.world.step (.watch i r q) = s.world.upd k (fun a => { a with watchers := if v.who ∈ a.watchers then a.watchers else a.watchers ++ [v.who] }) := by
        rw [spec, hph]
      rw [spec']
      exact world_set _ hb (actor_watch (any_same hb okb.watchers okv hj hk hd))

theorem fits_unwatch {s : St} (h : Inv s) (i r q : Nat) (ha : s.world.allowed (.unwatch i r q)) : Fits s (.unwatch i r q) := by
  obtain ⟨hp, w, v, k, hw, hv, hk, ⟨⟨j, hj⟩, i2, hs2, hp2⟩, hd⟩ := ha
  have hw' := hw
  have hv' := hv
  rw [world_vars, Option.map_eq_some_iff] at hw hv
  obtain ⟨w, hw, rfl⟩ := hw
  obtain ⟨v, hv, rfl⟩ := hv
  obtain ⟨c, hc, hf⟩ := present_iff.1 hp
  have okw := h.refs w (List.mem_of_getElem? hw)
  have okv := h.refs v (List.mem_of_getElem? hv)
  have hk : w.box = some k := hk
  have hj : v.box = some j := hj
  obtain ⟨p, hs, -, -⟩ := okw k hk
  unfold St.shape at hs
  rw [List.getElem?_map, Option.map_eq_some_iff] at hs
  obtain ⟨b, hb, -⟩ := hs
  have okb := h.boxes b (List.mem_of_getElem? hb)
  have e0 : step s (.unwatch i r q) = unwatch s i w v := by dsimp only [step]; rw [hw, hv]
  have spec : s.world.step (.unwatch i r q) = s.world.upd k (fun a => if a.phase = .accepting then { a with watchers := a.watchers.erase v.who } else a) := by
    dsimp only [World.step]
    rw [hw', hv']
    dsimp only
    rw [show w.who.actor = some k from hk]
  have e1 : unwatch s i w v = match s.lock w with
      | none => .ok s
      | some (k, b) => if b.phase = .accepting then .ok (s.setBox k { b with watchers := b.watchers.eraseP (fun w => w.same v) }) else .ok s := by
    unfold unwatch
    rw [h.ctx hc hf]
    dsimp only
    rw [not_same_dead h hc okw hk, not_same_dead h hc okv hj]
    rfl
  have el : s.lock w = if b.phase = .gone then none else some (k, b) := by
    unfold St.lock; rw [hk]; dsimp only; rw [hb]
  have hno : b.phase ≠ .accepting → s.world = s.world.upd k (fun a => if a.phase = .accepting then { a with watchers := a.watchers.erase v.who } else a) := by
    intro hne
    rw [upd_same]
    intro a ha
    rw [world_actor' hb] at ha
    cases ha
    exact if_neg hne
  by_cases hph : b.phase = .accepting
  · rw [el, if_neg (by rw [hph]; decide)] at e1
    dsimp only at e1
    rw [if_pos hph] at e1
    refine .ok (e0.trans e1) rfl (h.set hb rfl rfl ⟨okb.path, okb.ctx, okb.queue, okb.handled, ?_, ?_⟩) ?_
    · intro x hx; exact okb.watchers x (List.mem_of_mem_eraseP hx)
    · intro _ x hx; exact okb.present hph x (List.mem_of_mem_eraseP hx)
    · rw [spec]
      apply world_set _ hb
      rw [if_pos (show b.actor.phase = .accepting from hph)]
      simp only [Box.actor]
      rw [erase_same v b.watchers (fun x hx => same_iff hb okb.watchers okv hj hk hd hx)]
  · refine .ok (s' := s) ?_ rfl h (by rw [spec]; exact hno hph)
    rw [e0, e1, el]
    by_cases hg : b.phase = .gone
    · rw [if_pos hg]
    · rw [if_neg hg]; dsimp only; rw [if_neg hph]

/-! the environment -/

theorem fits_handle {s : St} (h : Inv s) (k : Nat) (ha : s.world.allowed (.handle k)) : Fits s (.handle k) := by
  obtain ⟨a, h1, h2, h3⟩ := ha
  obtain ⟨b, hb, rfl⟩ := world_actor h1
  have h2 : b.phase = .accepting := h2
  have okb := h.boxes b (List.mem_of_getElem? hb)
  cases hq : b.queue with
  | nil => exact absurd (by simp [Box.actor, hq]) h3
  | cons m ms =>
    refine .ok (s' := s.setBox k { b with queue := ms, handled := b.handled ++ [m] }) ?_ rfl (h.set hb rfl rfl ⟨okb.path, okb.ctx, ?_, ?_, okb.watchers, okb.present⟩) ?_
    · dsimp only [step]; rw [hb]; dsimp only; rw [h2, hq]
    · intro x hx; exact okb.queue x (by rw [hq]; exact List.mem_cons_of_mem _ hx)
    · intro x hx
      rcases List.mem_append.1 hx with hx | hx
      · exact okb.handled x hx
      · rw [List.mem_singleton.1 hx]; exact okb.queue m (by rw [hq]; exact List.mem_cons_self ..)
    · apply world_set _ hb
      simp [Box.actor, hq]

theorem fits_free {s : St} (h : Inv s) (k : Nat) (ha : s.world.allowed (.free k)) : Fits s (.free k) := by
  have : k < s.boxes.length := by simpa [St.world, World.allowed] using ha
  have hb := List.getElem?_eq_getElem this
  generalize s.boxes[k] = b at hb
  have okb := h.boxes b (List.mem_of_getElem? hb)
  refine .ok (s' := s.setBox k { b with phase := .gone, queue := [] }) (by dsimp only [step]; rw [hb]) rfl (h.set hb rfl rfl ⟨okb.path, ?_, ?_, okb.handled, okb.watchers, ?_⟩) ?_
  · obtain ⟨c, hc, -⟩ := okb.ctx
    exact ⟨c, hc, fun q => absurd rfl q⟩
  · intro m hm; cases hm
  · intro q; cases q
  · apply world_set _ hb; rfl

theorem fits_close {s : St} (h : Inv s) (k : Nat) (ha : s.world.allowed (.close k)) : Fits s (.close k) := by
  obtain ⟨a, h1, h2⟩ := ha
  obtain ⟨b, hb, rfl⟩ := world_actor h1
  have h2 : b.phase = .accepting := h2
  have okb := h.boxes b (List.mem_of_getElem? hb)
  obtain ⟨s1, e1, i1, same1, w1⟩ := notify_ok (ws := b.watchers) h (refOk_self hb) (fun w hw => ⟨(okb.watchers w hw).1, okb.present h2 w hw⟩)
  have hsh : s1.shape[k]? = some (b.path, b.sys) := by rw [same1.shape]; exact shape_get hb
  unfold St.shape at hsh
  rw [List.getElem?_map, Option.map_eq_some_iff] at hsh
  obtain ⟨b1, hb1, -⟩ := hsh
  have okb1 := i1.boxes b1 (List.mem_of_getElem? hb1)
  have hctx : ∃ c, s1.ctxs[b1.sys]? = some c ∧ c.freed = false := by
    have : (b1.path, b1.sys) = (b.path, b.sys) := by
      have e1 := shape_get hb1
      rw [same1.shape, shape_get hb] at e1
      exact (Option.some.inj e1).symm
    obtain ⟨c, hc, hf⟩ := okb.ctx
    refine ⟨c, ?_, hf (by rw [h2]; decide)⟩
    rw [same1.ctxs, (Prod.mk.inj this).2]; exact hc
  refine .ok (s' := s1.setBox k { b1 with phase := .closed }) ?_ rfl (i1.set hb1 rfl rfl ⟨okb1.path, ?_, okb1.queue, okb1.handled, okb1.watchers, fun q => by cases q⟩) ?_
  · dsimp only [step]; rw [hb]; dsimp only; rw [if_pos h2, e1]; dsimp only; rw [hb1]
  · obtain ⟨c, hc, hf⟩ := hctx
    exact ⟨c, hc, fun _ => hf⟩
  · rw [world_set (fun a => { a with phase := .closed }) hb1 rfl, w1]
    dsimp only [World.step]
    rw [h1]
    rfl

/-! creation -/

theorem createImpl_ok {s : St} (h : Inv s) {i : Nat} {c : Ctx} (hc : s.ctxs[i]? = some c) (hf : c.freed = false) {path : Str} (hp : UserPath path) (accepts : Bool) :
    ∃ s', createImpl s i path false accepts = .ok s' ∧ Inv s' ∧ s'.world = s.world.add path i accepts := by
  refine ⟨_, by unfold createImpl; rw [hp.scopeOf]; rfl, ?_, ?_⟩
  · refine ⟨h.len, h.obj, h.ctxs, ?_, ?_⟩
    · intro b hb
      have e : ({ s with boxes := s.boxes ++ [(⟨path, i, if accepts then .accepting else .gone, [], [], []⟩ : Box)], refs := s.refs ++ [(⟨path, i, if accepts then .accepting else .gone, [], [], []⟩ : Box).self s.boxes.length] } : St).shape = s.shape ++ [(path, i)] := by
        simp [St.shape]
      rw [e]
      rcases List.mem_append.1 hb with hb | hb
      · exact (h.boxes b hb).mono _
      · rw [List.mem_singleton.1 hb]
        exact ⟨hp, ⟨c, hc, fun _ => hf⟩, fun _ hm => (by cases hm), fun _ hm => (by cases hm), fun _ hm => (by cases hm), fun _ _ hm => (by cases hm)⟩
    · intro r hr
      have e : ({ s with boxes := s.boxes ++ [(⟨path, i, if accepts then .accepting else .gone, [], [], []⟩ : Box)], refs := s.refs ++ [(⟨path, i, if accepts then .accepting else .gone, [], [], []⟩ : Box).self s.boxes.length] } : St).shape = s.shape ++ [(path, i)] := by
        simp [St.shape]
      rw [e]
      rcases List.mem_append.1 hr with hr | hr
      · exact (h.refs r hr).mono _
      · rw [List.mem_singleton.1 hr]
        intro k hk
        cases hk
        exact ⟨(path, i), by simp [St.shape], rfl, rfl⟩
  · unfold World.add
    simp [St.world, Box.actor, Box.self, Ref.who]

theorem fits_create {s : St} (h : Inv s) (i : Nat) (name : Str) (fails : Bool) (ha : s.world.allowed (.create i name fails)) : Fits s (.create i name fails) := by
  obtain ⟨hp, rfl⟩ := ha
  obtain ⟨c, hc, hf⟩ := present_iff.1 hp
  cases hv : isValidActorName name with
  | false => exact .threw h (by show create s i name false = _; unfold create; rw [hv]; rfl) (by show (!isValidActorName name) = true; rw [hv]; rfl)
  | true =>
    have hbuild := build_user (h.ctxs i c hc).name hv
    obtain ⟨s', e, hi, hw⟩ := createImpl_ok h hc hf (userPath_build hbuild) c.rootOpen
    refine .ok (s' := s') ?_ (by show (!isValidActorName name) = false; rw [hv]; rfl) hi ?_
    · show create s i name false = _
      unfold create
      rw [hv, h.ctx hc hf]
      dsimp only
      rw [hbuild]
      exact e
    · rw [hw]
      dsimp only [World.step]
      have : s.world.systems[i]? = some c.sys := by unfold St.world; rw [List.getElem?_map, hc]; rfl
      rw [this]
      dsimp only
      have e2 : ActorPath.root ++ c.name ++ ['/'] ++ ActorPath.scopeToStr .user ++ ['/'] ++ name = "yato://".toList ++ c.sys.name ++ "/user/".toList ++ name := by
        have e3 : ActorPath.scopeToStr .user = ['u', 's', 'e', 'r'] := by decide +kernel
        rw [e3]
        simp [ActorPath.root, Ctx.sys]
      rw [e2]; rfl

theorem fits_createChild {s : St} (h : Inv s) (k : Nat) (name : Str) (fails : Bool) (ha : s.world.allowed (.createChild k name fails)) : Fits s (.createChild k name fails) := by
  obtain ⟨⟨a, h1, h2⟩, rfl⟩ := ha
  obtain ⟨b, hb, rfl⟩ := world_actor h1
  have h2 : b.phase ≠ .gone := h2
  have okb := h.boxes b (List.mem_of_getElem? hb)
  obtain ⟨c, hc, hf⟩ := okb.ctx
  have hf := hf h2
  cases hv : isValidActorName name with
  | false =>
    refine .threw h ?_ (by show (!isValidActorName name) = true; rw [hv]; rfl)
    show createChild s k name false = _
    unfold createChild
    rw [hb]; dsimp only; rw [if_neg h2, hv]; rfl
  | true =>
    obtain ⟨s', e, hi, hw⟩ := createImpl_ok h hc hf (okb.path.join name) (decide (b.phase = .accepting))
    refine .ok (s' := s') ?_ (by show (!isValidActorName name) = false; rw [hv]; rfl) hi ?_
    · show createChild s k name false = _
      unfold createChild
      rw [hb]; dsimp only; rw [if_neg h2, hv, h.ctx hc hf]
      exact e
    · rw [hw]; dsimp only [World.step]; rw [h1]
      dsimp only
      rw [show ActorPath.join b.path name = b.actor.path ++ '/' :: name by simp [ActorPath.join, Box.actor]]
      rfl

/-! the end of a system -/

theorem Inv.setCtx {s : St} (h : Inv s) {i : Nat} {c : Ctx} (hc : s.ctxs[i]? = some c) : Inv { s with ctxs := s.ctxs.set i { c with rootOpen := false } } := by
  have hl := (List.getElem?_eq_some_iff.1 hc).1
  have get : ∀ (j : Nat) (x : Ctx), (s.ctxs.set i { c with rootOpen := false })[j]? = some x → ∃ y, s.ctxs[j]? = some y ∧ x.freed = y.freed ∧ x.name = y.name ∧ x.dead = y.dead := by
    intro j x hx
    by_cases e : i = j
    · subst e
      rw [List.getElem?_set_self hl] at hx
      cases hx
      exact ⟨c, hc, rfl, rfl, rfl⟩
    · rw [List.getElem?_set_ne e] at hx
      exact ⟨x, hx, rfl, rfl, rfl⟩
  have get' : ∀ (j : Nat) (y : Ctx), s.ctxs[j]? = some y → ∃ x, (s.ctxs.set i { c with rootOpen := false })[j]? = some x ∧ x.freed = y.freed := by
    intro j y hy
    by_cases e : i = j
    · subst e
      rw [hc] at hy
      cases hy
      exact ⟨_, List.getElem?_set_self hl, rfl⟩
    · exact ⟨y, by rw [List.getElem?_set_ne e]; exact hy, rfl⟩
  refine ⟨by simp [h.len], ?_, ?_, ?_, h.refs⟩
  · intro j x hx
    obtain ⟨y, h1, h2, -, -⟩ := get j x hx
    rw [h2]; exact h.obj j y h1
  · intro j x hx
    obtain ⟨y, h1, h2, h3, h4⟩ := get j x hx
    have := h.ctxs j y h1
    exact ⟨by rw [h3]; exact this.name, by rw [h3, h4]; exact this.dead, by rw [h4]; exact this.sys, by rw [h4]; exact this.box⟩
  · intro b hb
    have ok := h.boxes b hb
    refine ⟨ok.path, ?_, ok.queue, ok.handled, ok.watchers, ?_⟩
    · obtain ⟨y, h1, h2⟩ := ok.ctx
      obtain ⟨x, h3, h4⟩ := get' _ y h1
      exact ⟨x, h3, fun q => by rw [h4]; exact h2 q⟩
    · intro hp w hw
      obtain ⟨j, y, h1, h2, h3⟩ := ok.present hp w hw
      obtain ⟨x, h4, h5⟩ := get' _ y h2
      exact ⟨j, x, h1, h4, by rw [h5]; exact h3⟩

theorem has_iff {s : St} (h : Inv s) {i : Nat} {c : Ctx} (hc : s.ctxs[i]? = some c) (b : Box) : c.has b = decide (b.sys = i) := by
  unfold Ctx.has
  rw [(h.ctxs i c hc).sys]
  apply decide_eq_decide.2
  simp [eq_comm]

theorem shutdown_ok {s : St} (h : Inv s) {i : Nat} {c : Ctx} (hc : s.ctxs[i]? = some c) (hf : c.freed = false)
    (hp : ∀ a ∈ s.world.actors, a.sys = i → a.phase ≠ .accepting) : shutdown s i = .ok { s with ctxs := s.ctxs.set i { c with rootOpen := false } } := by
  unfold shutdown
  rw [h.ctx hc hf]
  dsimp only
  rw [if_neg]
  intro e
  rw [List.any_eq_true] at e
  obtain ⟨b, hb, e⟩ := e
  rw [has_iff h hc, Bool.and_eq_true, decide_eq_true_eq, decide_eq_true_eq] at e
  exact hp b.actor (List.mem_map_of_mem hb) e.1 e.2

theorem world_sys {s : St} {i : Nat} {c : Ctx} (hc : s.ctxs[i]? = some c) : s.world.systems[i]? = some c.sys := by
  unfold St.world; rw [List.getElem?_map, hc]; rfl

theorem fits_shutdown {s : St} (h : Inv s) (i : Nat) (ha : s.world.allowed (.shutdown i)) : Fits s (.shutdown i) := by
  obtain ⟨hp, h2⟩ := ha
  obtain ⟨c, hc, hf⟩ := present_iff.1 hp
  refine .ok (shutdown_ok h hc hf h2) rfl (h.setCtx hc) ?_
  dsimp only [World.step]
  rw [world_sys hc]
  simp [St.world, List.map_set, Ctx.sys]

theorem fits_endSystem {s : St} (h : Inv s) (i : Nat) (ha : s.world.allowed (.endSystem i)) : Fits s (.endSystem i) := by
  obtain ⟨hp, h2, h3⟩ := ha
  obtain ⟨c, hc, hf⟩ := present_iff.1 hp
  have hl := (List.getElem?_eq_some_iff.1 hc).1
  have e1 := shutdown_ok h hc hf h2
  have i1 := h.setCtx hc
  have hc1 : ({ s with ctxs := s.ctxs.set i { c with rootOpen := false } } : St).ctxs[i]? = some { c with rootOpen := false } := List.getElem?_set_self hl
  have e2 := i1.ctx hc1 hf
  have hhas : ∀ b, ({ c with rootOpen := false } : Ctx).has b = decide (b.sys = i) := fun b => has_iff i1 hc1 b
  generalize hs' : ({ s with objs := s.objs.set i .ended, ctxs := s.ctxs.set i { c with rootOpen := false, freed := true }, boxes := s.boxes.map (fun b => if b.sys = i then { b with phase := .gone, queue := [] } else b) } : St) = s'
  have hstep : step s (.endSystem i) = .ok s' := by
    show endSystem s i = _
    unfold endSystem
    rw [e1]
    dsimp only
    rw [e2]
    dsimp only
    rw [List.set_set, ← hs']
    simp only [hhas, decide_eq_true_eq]
  have hshape : s'.shape = s.shape := by
    rw [← hs']
    unfold St.shape
    dsimp only
    rw [List.map_map]
    apply List.map_congr_left
    intro b _
    dsimp only [Function.comp]
    split <;> rfl
  refine .ok hstep rfl ?_ ?_
  · have hne : ∀ (j : Nat) (x : Ctx), s'.ctxs[j]? = some x → (j = i ∧ x = { c with rootOpen := false, freed := true }) ∨ (j ≠ i ∧ s.ctxs[j]? = some x) := by
      intro j x hx
      rw [← hs'] at hx
      dsimp only at hx
      by_cases e : i = j
      · subst e
        rw [List.getElem?_set_self hl] at hx
        cases hx
        exact .inl ⟨rfl, rfl⟩
      · rw [List.getElem?_set_ne e] at hx
        exact .inr ⟨fun q => e q.symm, hx⟩
    have keep : ∀ (j : Nat) (x : Ctx), j ≠ i → s.ctxs[j]? = some x → s'.ctxs[j]? = some x := by
      intro j x hj hx
      rw [← hs']
      dsimp only
      rw [List.getElem?_set_ne (fun q => hj q.symm)]; exact hx
    refine ⟨by rw [← hs']; simp [h.len], ?_, ?_, ?_, ?_⟩
    · intro j x hx
      rcases hne j x hx with ⟨rfl, rfl⟩ | ⟨hj, hx⟩
      · rw [← hs']
        dsimp only
        rw [List.getElem?_set_self (by rw [h.len]; exact hl)]
        rfl
      · rw [← hs']
        dsimp only
        rw [List.getElem?_set_ne (fun q => hj q.symm)]
        exact h.obj j x hx
    · intro j x hx
      rcases hne j x hx with ⟨rfl, rfl⟩ | ⟨hj, hx⟩
      · have := h.ctxs j c hc
        exact ⟨this.name, this.dead, this.sys, this.box⟩
      · exact h.ctxs j x hx
    · intro b' hb'
      rw [hshape]
      rw [← hs'] at hb'
      dsimp only at hb'
      obtain ⟨b, hb, rfl⟩ := List.mem_map.1 hb'
      have ok := h.boxes b hb
      split
      · rename_i e
        refine ⟨ok.path, ?_, fun _ hm => (by cases hm), ok.handled, ok.watchers, fun q => (by cases q)⟩
        refine ⟨{ c with rootOpen := false, freed := true }, ?_, fun q => absurd rfl q⟩
        rw [← hs']
        dsimp only
        rw [e, List.getElem?_set_self hl]
      · rename_i e
        refine ⟨ok.path, ?_, ok.queue, ok.handled, ok.watchers, ?_⟩
        · obtain ⟨x, h4, h5⟩ := ok.ctx
          exact ⟨x, keep _ _ e h4, h5⟩
        · intro hph w hw
          obtain ⟨j, x, h4, h5, h6⟩ := ok.present hph w hw
          have hj : j ≠ i := by
            intro q
            subst q
            exact h3 b.actor (List.mem_map_of_mem hb) hph w.who (List.mem_map_of_mem hw) h4
          exact ⟨j, x, h4, keep j x hj h5, h6⟩
    · intro r hr
      rw [hshape]
      rw [← hs'] at hr
      exact h.refs r hr
  · dsimp only [World.step]
    rw [world_sys hc, ← hs']
    simp only [St.world, List.map_set, Ctx.sys, List.map_map]
    congr 1
    apply List.map_congr_left
    intro b _
    dsimp only [Function.comp]
    by_cases e : b.sys = i
    · rw [if_pos e, if_pos (show b.actor.sys = i from e)]; rfl
    · rw [if_neg e, if_neg (show ¬ b.actor.sys = i from e)]

/-- Every allowed statement does what the specification says. -/
theorem step_ok {s : St} (h : Inv s) {o : Op} (ha : s.world.allowed o) : Fits s o := by
  cases o with
  | system name => exact fits_system h name
  | moveSystem i => exact ha.elim
  | shutdown i => exact fits_shutdown h i ha
  | endSystem i => exact fits_endSystem h i ha
  | create i name fails => exact fits_create h i name fails ha
  | createChild k name fails => exact fits_createChild h k name fails ha
  | empty => exact fits_empty h
  | copy r => exact fits_copy h r ha
  | move r => exact fits_move h r ha
  | self k => exact fits_self h k ha
  | sender k => exact fits_sender h k ha
  | tell r n f => exact fits_tell h r n f ha
  | send i r n f => exact fits_send h i r n f ha
  | watch i r q => exact fits_watch h i r q ha
  | unwatch i r q => exact fits_unwatch h i r q ha
  | handle k => exact fits_handle h k ha
  | close k => exact fits_close h k ha
  | free k => exact fits_free h k ha

theorem run_ok : ∀ (os : List Op) {s : St}, Inv s → s.world.Allowed os → ∃ s', run s os = .ok s' ∧ Inv s' ∧ s'.world = s.world.run os := by
  intro os
  induction os with
  | nil => intro s h _; exact ⟨s, rfl, h, rfl⟩
  | cons o os ih =>
    intro s h ha
    obtain ⟨s1, e1, i1, w1⟩ := step_ok h ha.1
    obtain ⟨s2, e2, i2, w2⟩ := ih i1 (by rw [w1]; exact ha.2)
    refine ⟨s2, ?_, i2, ?_⟩
    · unfold run
      rw [e1]
      cases s.world.throws o <;> exact e2
    · rw [w2, w1]; rfl

/-! ## Property -/

/-- Every program that moves no system, whose actors' constructors do not throw, and which uses references only while their system is there, has no undefined
behaviour, throws exactly for names that are not allowed, and does what the specification says. The full property is false of the code, see below. -/
theorem C83_programs_partial (os : List Op) (h : World.init.Allowed os) : ∃ s, run St.init os = .ok s ∧ s.world = World.init.run os := by
  obtain ⟨s, h1, -, h2⟩ := run_ok os Inv.init h
  exact ⟨s, h1, h2⟩

theorem run_inv {os : List Op} (h : World.init.Allowed os) {s : St} (hs : run St.init os = .ok s) : Inv s := by
  obtain ⟨s', h1, h2, -⟩ := run_ok os Inv.init h
  rw [hs] at h1
  cases h1
  exact h2

theorem get_upd {p : World} {k j : Nat} {f : Actor → Actor} {a : Actor} (ha : p.actors[j]? = some a) :
    (p.upd k f).actors[j]? = some (if j = k then f a else a) := by
  unfold World.upd
  cases e : p.actors[k]? with
  | none =>
    dsimp only
    rw [if_neg, ha]
    intro q; subst q; rw [ha] at e; cases e
  | some x =>
    dsimp only
    by_cases q : j = k
    · subst q
      rw [ha] at e
      cases e
      rw [if_pos rfl, List.getElem?_set_self (List.getElem?_eq_some_iff.1 ha).1]
    · rw [if_neg q, List.getElem?_set_ne (fun t => q t.symm), ha]

/-- Telling through a reference whose system is there: the actor that the reference names gets the message, behind those it has, if it takes messages; every
other actor stays as it is. -/
theorem C83_tell (os : List Op) (h : World.init.Allowed os) (s : St) (hs : run St.init os = .ok s) (r n i : Nat) (x : Ref) (hx : s.refs[r]? = some x)
    (hi : x.sys = some i) (hp : s.world.present i = true) :
    ∃ s', step s (.tell r n none) = .ok s' ∧ ∀ j a, s.world.actors[j]? = some a →
      s'.world.actors[j]? = some (if x.box = some j ∧ a.phase = .accepting then { a with queue := a.queue ++ [⟨.user n, ⟨some i, none⟩⟩] } else a) := by
  obtain ⟨s', h1, -, h2⟩ := fits_tell (run_inv h hs) r n none ⟨⟨x.who, i, by rw [world_vars, hx]; rfl, hi, hp⟩, fun q hq => by cases hq⟩
  refine ⟨s', h1, ?_⟩
  intro j a ha
  rw [h2]
  have e : s.world.next (.tell r n none) = s.world.deliver x.who ⟨.user n, ⟨some i, none⟩⟩ := by
    show s.world.step (.tell r n none) = _
    dsimp only [World.step]
    rw [world_vars, hx]
    dsimp only [Option.map]
    rw [show x.who.sys = some i from hi]; rfl
  rw [e]
  unfold World.deliver
  rw [who_box]
  cases hb : x.box with
  | none =>
    dsimp only
    rw [ha, if_neg (fun q => by cases q.1)]
  | some k =>
    dsimp only
    rw [get_upd ha]
    by_cases q : j = k
    · subst q
      rw [if_pos rfl]
      unfold Actor.get
      by_cases t : a.phase = .accepting
      · rw [if_pos t, if_pos ⟨rfl, t⟩]
      · rw [if_neg t, if_neg (fun u => t u.2)]
    · rw [if_neg q, if_neg (fun u => q (Option.some.inj u.1).symm)]

/-- Each actor handles its messages in the order in which it got them, and none is lost while its cell is there: what it has handled and what waits only grows
at the end. -/
def Grows (a b : Actor) : Prop := a.handled <+: b.handled ∧ (b.phase ≠ .gone → a.phase ≠ .gone ∧ a.handled ++ a.queue <+: b.handled ++ b.queue)

theorem Grows.rfl' (a : Actor) : Grows a a := ⟨List.prefix_rfl, fun h => ⟨h, List.prefix_rfl⟩⟩

theorem Grows.trans {a b c : Actor} (h : Grows a b) (g : Grows b c) : Grows a c :=
  ⟨h.1.trans g.1, fun hc => ⟨(h.2 (g.2 hc).1).1, (h.2 (g.2 hc).1).2.trans (g.2 hc).2⟩⟩

def GrowsAll (p q : World) : Prop := ∀ (k : Nat) (a : Actor), p.actors[k]? = some a → ∃ b, q.actors[k]? = some b ∧ Grows a b

theorem GrowsAll.of_eq {p q : World} (h : q.actors = p.actors) : GrowsAll p q := fun k a ha => ⟨a, by rw [h]; exact ha, .rfl' a⟩

theorem GrowsAll.trans {p q r : World} (h : GrowsAll p q) (g : GrowsAll q r) : GrowsAll p r := by
  intro k a ha
  obtain ⟨b, h1, h2⟩ := h k a ha
  obtain ⟨c, h3, h4⟩ := g k b h1
  exact ⟨c, h3, h2.trans h4⟩

theorem GrowsAll.upd {p : World} {k : Nat} {f : Actor → Actor} (h : ∀ a, p.actors[k]? = some a → Grows a (f a)) : GrowsAll p (p.upd k f) := by
  intro j a ha
  rw [get_upd ha]
  refine ⟨_, rfl, ?_⟩
  by_cases q : j = k
  · subst q; rw [if_pos rfl]; exact h a ha
  · rw [if_neg q]; exact .rfl' a

theorem GrowsAll.deliver (p : World) (w : Who) (m : Msg Who) : GrowsAll p (p.deliver w m) := by
  unfold World.deliver
  cases w.actor with
  | none => exact .of_eq rfl
  | some k =>
    apply GrowsAll.upd
    intro a _
    unfold Actor.get
    split
    · refine ⟨List.prefix_rfl, fun h => ⟨h, ?_⟩⟩
      exact ⟨[m], by simp⟩
    · exact .rfl' a

theorem GrowsAll.fold (m : Msg Who) : ∀ (ws : List Who) (p : World), GrowsAll p (ws.foldl (fun p w => p.deliver w m) p) := by
  intro ws
  induction ws with
  | nil => intro p; exact .of_eq rfl
  | cons w ws ih => intro p; exact (GrowsAll.deliver p w m).trans (ih _)

theorem GrowsAll.add (p : World) (path : Str) (i : Nat) (b : Bool) : GrowsAll p (p.add path i b) := by
  intro k a ha
  refine ⟨a, ?_, .rfl' a⟩
  unfold World.add
  dsimp only
  rw [List.getElem?_append_left (List.getElem?_eq_some_iff.1 ha).1]; exact ha

theorem phase_deliver {p : World} {w : Who} {m : Msg Who} {k : Nat} {a : Actor} (h : p.actors[k]? = some a) (hp : a.phase = .accepting) :
    ∃ b, (p.deliver w m).actors[k]? = some b ∧ b.phase = .accepting := by
  unfold World.deliver
  cases w.actor with
  | none => exact ⟨a, h, hp⟩
  | some j =>
    dsimp only
    rw [get_upd h]
    refine ⟨_, rfl, ?_⟩
    by_cases e : k = j
    · rw [if_pos e]; unfold Actor.get; rw [if_pos hp]; exact hp
    · rw [if_neg e]; exact hp

theorem phase_fold (m : Msg Who) {k : Nat} : ∀ (ws : List Who) {p : World} {a : Actor}, p.actors[k]? = some a → a.phase = .accepting →
    ∃ b, (ws.foldl (fun p w => p.deliver w m) p).actors[k]? = some b ∧ b.phase = .accepting := by
  intro ws
  induction ws with
  | nil => intro p a h hp; exact ⟨a, h, hp⟩
  | cons w ws ih =>
    intro p a h hp
    obtain ⟨b, h1, h2⟩ := phase_deliver (w := w) (m := m) h hp
    exact ih h1 h2

theorem next_grows {p : World} {o : Op} (ha : p.allowed o) : GrowsAll p (p.next o) := by
  unfold World.next
  split
  · exact .of_eq rfl
  · cases o with
    | system name => exact .of_eq rfl
    | moveSystem i => exact .of_eq rfl
    | shutdown i =>
      dsimp only [World.step]
      split <;> exact .of_eq rfl
    | endSystem i =>
      dsimp only [World.step]
      split
      · intro k a hk
        dsimp only
        rw [List.getElem?_map, hk]
        refine ⟨_, rfl, ?_⟩
        dsimp only
        split
        · exact ⟨List.prefix_rfl, fun q => absurd rfl q⟩
        · exact .rfl' a
      · exact .of_eq rfl
    | create i name fails =>
      dsimp only [World.step]
      split
      · exact .add _ _ _ _
      · exact .of_eq rfl
    | createChild k name fails =>
      dsimp only [World.step]
      split
      · exact .add _ _ _ _
      · exact .of_eq rfl
    | empty => exact .of_eq rfl
    | copy r => dsimp only [World.step]; split <;> exact .of_eq rfl
    | move r => dsimp only [World.step]; split <;> exact .of_eq rfl
    | self k => dsimp only [World.step]; split <;> exact .of_eq rfl
    | sender k =>
      dsimp only [World.step]
      split
      · split <;> exact .of_eq rfl
      · exact .of_eq rfl
    | tell r n f =>
      dsimp only [World.step]
      split
      · split
        · exact .deliver _ _ _
        · exact .of_eq rfl
      · exact .of_eq rfl
    | send i r n f =>
      dsimp only [World.step]
      split
      · exact .deliver _ _ _
      · exact .of_eq rfl
    | watch i r q =>
      dsimp only [World.step]
      split
      · split
        · split
          · split
            · exact .upd (fun a _ => ⟨List.prefix_rfl, fun h => ⟨h, List.prefix_rfl⟩⟩)
            · exact .of_eq rfl
            · exact .deliver _ _ _
          · exact .of_eq rfl
        · exact .of_eq rfl
      · exact .of_eq rfl
    | unwatch i r q =>
      dsimp only [World.step]
      split
      · split
        · apply GrowsAll.upd
          intro a _
          split
          · exact ⟨List.prefix_rfl, fun h => ⟨h, List.prefix_rfl⟩⟩
          · exact .rfl' a
        · exact .of_eq rfl
      · exact .of_eq rfl
    | handle k =>
      apply GrowsAll.upd
      intro a _
      refine ⟨List.prefix_append .., fun h => ⟨h, ?_⟩⟩
      dsimp only
      rw [List.append_assoc, List.take_append_drop]
      exact List.prefix_rfl
    | close k =>
      dsimp only [World.step]
      obtain ⟨a, h1, h2⟩ := ha
      rw [h1]
      dsimp only
      refine (GrowsAll.fold _ _ p).trans (.upd ?_)
      intro b hb
      obtain ⟨b', h3, h4⟩ := phase_fold ⟨.terminated ⟨some a.sys, some k⟩, ⟨some a.sys, some k⟩⟩ a.watchers h1 h2
      rw [hb] at h3
      cases h3
      exact ⟨List.prefix_rfl, fun _ => ⟨by rw [h4]; decide, List.prefix_rfl⟩⟩
    | free k =>
      apply GrowsAll.upd
      intro a _
      exact ⟨List.prefix_rfl, fun q => absurd rfl q⟩

theorem run_grows : ∀ (os : List Op) {p : World}, p.Allowed os → GrowsAll p (p.run os) := by
  intro os
  induction os with
  | nil => intro p _; exact .of_eq rfl
  | cons o os ih => intro p h; exact (next_grows h.1).trans (ih h.2)

theorem allowed_append : ∀ (os os' : List Op) {p : World}, p.Allowed (os ++ os') → p.Allowed os ∧ (p.run os).Allowed os' := by
  intro os
  induction os with
  | nil => intro os' p h; exact ⟨trivial, h⟩
  | cons o os ih =>
    intro os' p h
    obtain ⟨h1, h2⟩ := ih os' h.2
    exact ⟨⟨h.1, h1⟩, h2⟩

/-- In every program, what an actor has handled only grows at the end, and so does what it has handled followed by what waits, as long as its cell is there:
messages are handled in the order in which they were told, each once. -/
theorem C83_order (os os' : List Op) (h : World.init.Allowed (os ++ os')) (s s' : St) (hs : run St.init os = .ok s) (hs' : run St.init (os ++ os') = .ok s')
    (k : Nat) (b : Box) (hb : s.boxes[k]? = some b) : ∃ b', s'.boxes[k]? = some b' ∧ Grows b.actor b'.actor := by
  obtain ⟨h1, h2⟩ := allowed_append os os' h
  obtain ⟨t, e1, -, w1⟩ := run_ok os Inv.init h1
  rw [hs] at e1
  cases e1
  obtain ⟨t', e2, -, w2⟩ := run_ok (os ++ os') Inv.init h
  rw [hs'] at e2
  cases e2
  have hg := run_grows os' h2
  obtain ⟨b', h3, h4⟩ := hg k b.actor (by rw [← show s.world = World.init.run os from w1]; exact world_actor' hb)
  have e3 : s'.world = (World.init.run os).run os' := by
    rw [w2]
    exact List.foldl_append ..
  rw [← e3] at h3
  obtain ⟨b2, h5, rfl⟩ := world_actor h3
  exact ⟨b2, h5, h4⟩

/-! ## A program: two systems, actors with equal names, a reply to the sender, a watcher -/

/-- Two systems, each with an actor `a`; the second one has a child. The first is told a message by the second and stores the sender, to which it
replies through a copy; a moved-from reference tells nobody; the child stops, and its watcher is told. -/
def demo : List Op :=
  [.system ['s'], .system ['t'], .create 0 ['a'] false, .create 1 ['a'] false, .create 0 ['/'] false, .createChild 1 ['b'] false,
   .tell 0 7 (some 1), .handle 0, .sender 0, .copy 3, .send 0 4 8 none, .move 4, .tell 4 9 none, .watch 1 2 0, .watch 0 2 1, .unwatch 1 2 1, .close 2, .free 2,
   .tell 2 1 none, .close 0, .shutdown 0, .create 0 ['c'] false]

theorem demo_allowed : World.init.Allowed demo := by
  refine ⟨trivial, trivial, ⟨rfl, rfl⟩, ⟨rfl, rfl⟩, ⟨rfl, rfl⟩, ⟨⟨_, rfl, by decide⟩, rfl⟩, ⟨⟨_, _, rfl, rfl, rfl⟩, fun q hq => by cases hq; decide⟩,
    ⟨_, rfl, rfl, by decide⟩, ⟨_, rfl, by decide, by decide⟩, (show (3 : Nat) < _ by decide), ⟨rfl, by decide, fun q hq => by cases hq⟩, (show (4 : Nat) < _ by decide),
    ⟨⟨_, _, rfl, rfl, rfl⟩, fun q hq => by cases hq⟩, ⟨rfl, _, _, _, rfl, rfl, rfl, ⟨⟨_, rfl⟩, _, rfl, rfl⟩, ?_⟩,
    ⟨rfl, _, _, _, rfl, rfl, rfl, ⟨⟨_, rfl⟩, _, rfl, rfl⟩, ?_⟩, ⟨rfl, _, _, _, rfl, rfl, rfl, ⟨⟨_, rfl⟩, _, rfl, rfl⟩, ?_⟩, ⟨_, rfl, rfl⟩, (show (2 : Nat) < _ by decide),
    ⟨⟨_, _, rfl, rfl, rfl⟩, fun q hq => by cases hq⟩, ⟨_, rfl, rfl⟩, ⟨rfl, by decide⟩, ⟨rfl, rfl⟩, trivial⟩
  · intro k a hk ha x hx
    cases hk; cases ha; cases hx
  · intro k a hk ha x hx hp
    cases hk; cases ha
    cases List.mem_singleton.1 hx
    exact absurd hp (by decide +kernel)
  · intro k a hk ha x hx hp
    cases hk; cases ha
    rcases List.mem_cons.1 hx with e | e
    · subst e; exact absurd hp (by decide +kernel)
    · exact List.mem_singleton.1 e

/-- what the actors have handled and what waits for them, with the senders, at the end of the program -/
def summary (s : St) : List (Phase × List (Msg Who) × List (Msg Who)) := s.world.actors.map (fun a => (a.phase, a.handled, a.queue))

example : (match run St.init demo with | .ok s => summary s | _ => []) =
    [(.closed, [⟨.user 7, ⟨some 1, some 1⟩⟩], [⟨.terminated ⟨some 1, some 2⟩, ⟨some 1, some 2⟩⟩]), (.accepting, [], [⟨.user 8, ⟨some 0, none⟩⟩]), (.gone, [], []), (.gone, [], [])] := by
  decide +kernel

/-! ## Where the property is false of the code -/

/-- If the constructor of an actor throws, `create_actor` dereferences a null pointer. -/
theorem C83_constructor_throws_violated : ∃ name, isValidActorName name = true ∧ run St.init [.system ['s'], .create 0 name true] = .ub :=
  ⟨['a'], by decide, by decide +kernel⟩

/-- An actor system that was moved from cannot be destroyed. -/
theorem C83_moved_system_violated : run St.init [.system ['s'], .moveSystem 0, .endSystem 0] = .ub := by decide +kernel

/-- After an actor system is moved, the references to its actors cannot be used. -/
theorem C83_moved_ref_violated : run St.init [.system ['s'], .create 0 ['a'] false, .moveSystem 0, .tell 0 7 none] = .ub := by decide +kernel

/-- Two actors of one name watch a third; only the first is told that it stopped: what the specification says does not hold. -/
theorem C83_same_name_violated :
    let os : List Op := [.system ['s'], .create 0 ['a'] false, .create 0 ['a'] false, .create 0 ['b'] false, .watch 0 2 0, .watch 0 2 1, .close 2]
    (match run St.init os with | .ok s => s.world.actors.map (fun a => a.queue.length) | _ => []) = [1, 0, 0] ∧
      (World.init.run os).actors.map (fun a => a.queue.length) = [1, 1, 0] := by
  decide +kernel

/-- `unwatch` through a reference to an actor of the same name takes away the other's watch. -/
theorem C83_unwatch_same_name_violated :
    let os : List Op := [.system ['s'], .create 0 ['a'] false, .create 0 ['a'] false, .create 0 ['b'] false, .watch 0 2 0, .unwatch 0 2 1, .close 2]
    (match run St.init os with | .ok s => s.world.actors.map (fun a => a.queue.length) | _ => []) = [0, 0, 0] ∧
      (World.init.run os).actors.map (fun a => a.queue.length) = [1, 0, 0] := by
  decide +kernel

end Verif.Facade
