import Verif.Model.ActorSteps
import Verif.Lemmas.ActorCell

set_option autoImplicit false

namespace Verif.ActorSteps
open Verif.ActorCell
open Verif.ActorTree (terminatedMsg plainMsg carries)

def isPlain : Msg → Bool
  | .user _ => true
  | .pill => true
  | _ => false

/-- Messages that any actor may have in its mailbox at any time. -/
def Harmless : Msg → Bool
  | .watch _ => true
  | .unwatch _ => true
  | .user _ => true
  | _ => false

/-- An actor that is not attached to its parent yet. -/
structure Fresh (a : Act) : Prop where
  begun : a.begun = false
  started : a.cell.started = false
  stopping : a.cell.stopping = false
  children : a.cell.children = []
  out : a.out = []
  stop : a.stop = false
  told : a.told = false
  log : a.log = []
  sys : ∀ m ∈ a.sys, Harmless m = true
  usr : ∀ m ∈ a.usr, Harmless m = true

/-- The calls of the user's functions, made and to be made. -/
def life (a : Act) : List Eff := (a.log ++ a.out).filter Eff.isLife

/-- What holds of each actor by itself. -/
structure Loc (a : Act) : Prop where
  stopped : a.stop = true → a.cell.children = [] ∧ a.cell.started = false
  openn : a.alive = true → a.stop = false → a.isOpen = true
  shut : a.alive = false → a.stop = false → a.isOpen = false
  begun : a.cell.started = true → a.begun = true
  started : a.begun = true → a.stop = false → a.cell.started = true
  waits : a.cell.stopping = true → a.stop = false → a.cell.children ≠ []
  told : a.told = true → a.cell.stopping = true
  start : ∀ ok, .start ok ∈ a.sys → ok = true
  detach : .detachToParent ∈ a.out → a.stop = true ∧ a.cell.hasParent = true ∧ ∃ l, a.out = l ++ [.detachToParent] ∧ .detachToParent ∉ l
  dead : a.alive = false → (a.stop = true ∧ a.out = []) ∨ a.cell.hasParent = false
  sys : ∀ m ∈ a.sys, isPlain m = false
  usr : ∀ m ∈ a.usr, isPlain m = true
  life0 : a.begun = false → life a = []
  life1 : a.begun = true → a.stop = false → ∃ rs : List Eff, (∀ e ∈ rs, e.isReceive = true) ∧ life a = .preStart true :: rs
  life2 : a.begun = true → a.stop = true → ∃ rs : List Eff, (∀ e ∈ rs, e.isReceive = true) ∧ life a = .preStart true :: rs ++ [.postStop]

/-- The actor was told to stop. -/
def Told (a : Act) : Prop := .stop ∈ a.sys ∨ .pill ∈ a.usr ∨ .stopSelf ∈ a.out ∨ a.told = true ∨ a.stop = true

def one (b : Bool) : Nat := if b then 1 else 0

/-- What holds in every good execution. -/
structure Inv (s : St) : Prop where
  pos : 0 < s.n
  root : (s.act 0).parent = none ∧ (s.act 0).cell.hasParent = false ∧ (s.act 0).begun = true ∧ (s.act 0).alive = true
  par : ∀ j < s.n, 0 < j → ∃ p, p < j ∧ (s.act j).parent = some p
  okk : ∀ j < s.n, (s.act j).ok = true
  chd : ∀ p < s.n, ∀ ch ∈ (s.act p).cell.children, 0 < ch.id ∧ ch.id < s.n ∧ (s.act ch.id).parent = some p ∧ (s.act ch.id).path = ch.path ∧
    (s.act ch.id).alive = true ∧ (s.act ch.id).cell.hasParent = true
  nodup : ∀ p < s.n, ((s.act p).cell.children.map Child.id).Nodup
  own : ∀ j < s.n, ∀ p, (s.act j).parent = some p → (s.act j).alive = true → (s.act j).cell.hasParent = true →
    ⟨j, (s.act j).path⟩ ∈ (s.act p).cell.children
  uniq : ∀ j < s.n, ∀ k < s.n, 0 < j → 0 < k → (s.act j).alive = true → (s.act k).alive = true → (s.act j).parent = (s.act k).parent →
    (s.act j).path = (s.act k).path → j = k
  att : ∀ p < s.n, ∀ ch, .attach ch ∈ (s.act p).sys → 0 < ch.id ∧ ch.id < s.n ∧ (s.act ch.id).parent = some p ∧
    (s.act ch.id).path = ch.path ∧ (s.act ch.id).cell.hasParent = false ∧ ((s.act p).alive = true → (s.act ch.id).alive = true)
  attc : ∀ p < s.n, ∀ j, (s.act p).sys.countP (carries j) ≤ 1
  fresh : ∀ j < s.n, 0 < j → (s.act j).cell.hasParent = false → Fresh (s.act j)
  loc : ∀ j < s.n, Loc (s.act j)
  det : ∀ p < s.n, ∀ q, .detach q ∈ (s.act p).sys → ∃ j < s.n, 0 < j ∧ (s.act j).parent = some p ∧ (s.act j).path = q ∧
    (s.act j).cell.hasParent = true ∧ (s.act j).alive = true ∧ (s.act j).stop = true ∧ (s.act j).out = []
  detc : ∀ p < s.n, ∀ q, (s.act p).sys.count (.detach q) ≤ 1
  pend : ∀ j < s.n, ∀ p, (s.act j).parent = some p → (s.act j).alive = true → (s.act j).cell.hasParent = true → (s.act j).stop = true →
    (.detachToParent ∈ (s.act j).out ∧ .detach (s.act j).path ∉ (s.act p).sys) ∨ ((s.act j).out = [] ∧ .detach (s.act j).path ∈ (s.act p).sys)
  startp : ∀ j < s.n, ∀ p, (s.act j).parent = some p → (s.act j).alive = true → (s.act j).cell.hasParent = true → (s.act j).begun = false →
    (s.act j).stop = false → .startTo ⟨j, (s.act j).path⟩ ∈ (s.act p).out ∨ .start true ∈ (s.act j).sys
  once : ∀ j < s.n, ∀ p, (s.act j).parent = some p →
    (s.act p).out.count (.startTo ⟨j, (s.act j).path⟩) + (s.act j).sys.countP isStartMsg + one (s.act j).begun ≤ 1
  outst : ∀ p < s.n, ∀ ch, .startTo ch ∈ (s.act p).out → 0 < ch.id ∧ ch.id < s.n ∧ (s.act ch.id).parent = some p ∧
    (s.act ch.id).path = ch.path ∧ (s.act ch.id).cell.hasParent = true ∧ (s.act ch.id).alive = true
  rootst : (s.act 0).sys.countP isStartMsg = 0
  pills : ∀ p < s.n, ∀ ch, .pillTo ch ∈ (s.act p).out → ch ∈ (s.act p).cell.children
  toldk : ∀ p < s.n, (s.act p).told = true → ∀ ch ∈ (s.act p).cell.children, Told (s.act ch.id) ∨ .pillTo ch ∈ (s.act p).out
  nub : s.ub = false

/-- Nothing but queues, what is left to be done and the log has changed. -/
structure Frame (s s' : St) : Prop where
  n : s'.n = s.n
  ub : s'.ub = s.ub
  act : ∀ j, s'.act j = { s.act j with sys := (s'.act j).sys, usr := (s'.act j).usr, out := (s'.act j).out, log := (s'.act j).log }

section
variable {s s' : St} (f : Frame s s') (j : Nat)
include f
theorem Frame.cell : (s'.act j).cell = (s.act j).cell := by rw [f.act j]
theorem Frame.isOpen : (s'.act j).isOpen = (s.act j).isOpen := by rw [f.act j]
theorem Frame.alive : (s'.act j).alive = (s.act j).alive := by rw [f.act j]
theorem Frame.stop : (s'.act j).stop = (s.act j).stop := by rw [f.act j]
theorem Frame.begun : (s'.act j).begun = (s.act j).begun := by rw [f.act j]
theorem Frame.parent : (s'.act j).parent = (s.act j).parent := by rw [f.act j]
theorem Frame.path : (s'.act j).path = (s.act j).path := by rw [f.act j]
theorem Frame.okk : (s'.act j).ok = (s.act j).ok := by rw [f.act j]
theorem Frame.told : (s'.act j).told = (s.act j).told := by rw [f.act j]
end

theorem upd_act (s : St) (i k : Nat) (a : Act) : (s.upd i a).act k = if k = i then a else s.act k := rfl
@[simp] theorem upd_self (s : St) (i : Nat) (a : Act) : (s.upd i a).act i = a := by simp [St.upd]
theorem upd_ne (s : St) {i k : Nat} (a : Act) (h : k ≠ i) : (s.upd i a).act k = s.act k := by simp [St.upd, h]
@[simp] theorem upd_n (s : St) (i : Nat) (a : Act) : (s.upd i a).n = s.n := rfl
@[simp] theorem upd_ub (s : St) (i : Nat) (a : Act) : (s.upd i a).ub = s.ub := rfl

/-- The fields of `Inv` that depend on queues and pending work are what is left to be proved after such a change. -/
theorem Inv.frame {s s' : St} (h : Inv s) (f : Frame s s')
    (att : ∀ p < s.n, ∀ ch, .attach ch ∈ (s'.act p).sys → .attach ch ∈ (s.act p).sys)
    (attc : ∀ p < s.n, ∀ j, (s'.act p).sys.countP (carries j) ≤ 1)
    (fresh : ∀ j < s.n, 0 < j → (s.act j).cell.hasParent = false → Fresh (s'.act j))
    (loc : ∀ j < s.n, Loc (s'.act j))
    (det : ∀ p < s.n, ∀ q, .detach q ∈ (s'.act p).sys → ∃ j < s.n, 0 < j ∧ (s.act j).parent = some p ∧ (s.act j).path = q ∧
      (s.act j).cell.hasParent = true ∧ (s.act j).alive = true ∧ (s.act j).stop = true ∧ (s'.act j).out = [])
    (detc : ∀ p < s.n, ∀ q, (s'.act p).sys.count (.detach q) ≤ 1)
    (pend : ∀ j < s.n, ∀ p, (s.act j).parent = some p → (s.act j).alive = true → (s.act j).cell.hasParent = true → (s.act j).stop = true →
      (.detachToParent ∈ (s'.act j).out ∧ .detach (s.act j).path ∉ (s'.act p).sys) ∨ ((s'.act j).out = [] ∧ .detach (s.act j).path ∈ (s'.act p).sys))
    (startp : ∀ j < s.n, ∀ p, (s.act j).parent = some p → (s.act j).alive = true → (s.act j).cell.hasParent = true → (s.act j).begun = false →
      (s.act j).stop = false → .startTo ⟨j, (s.act j).path⟩ ∈ (s'.act p).out ∨ .start true ∈ (s'.act j).sys)
    (once : ∀ j < s.n, ∀ p, (s.act j).parent = some p →
      (s'.act p).out.count (.startTo ⟨j, (s.act j).path⟩) + (s'.act j).sys.countP isStartMsg + one (s.act j).begun ≤ 1)
    (outst : ∀ p < s.n, ∀ ch, .startTo ch ∈ (s'.act p).out → .startTo ch ∈ (s.act p).out)
    (rootst : (s'.act 0).sys.countP isStartMsg = 0)
    (pills : ∀ p < s.n, ∀ ch, .pillTo ch ∈ (s'.act p).out → .pillTo ch ∈ (s.act p).out)
    (toldk : ∀ p < s.n, (s.act p).told = true → ∀ ch ∈ (s.act p).cell.children, Told (s'.act ch.id) ∨ .pillTo ch ∈ (s'.act p).out) : Inv s' where
  pos := by rw [f.n]; exact h.pos
  root := by rw [f.parent, f.cell, f.begun, f.alive]; exact h.root
  par := by simp only [f.n, f.parent]; exact h.par
  okk := by simp only [f.n, f.okk]; exact h.okk
  chd := by simp only [f.n, f.cell, f.parent, f.path, f.alive]; exact h.chd
  nodup := by simp only [f.n, f.cell]; exact h.nodup
  own := by simp only [f.n, f.cell, f.parent, f.path, f.alive]; exact h.own
  uniq := by simp only [f.n, f.parent, f.path, f.alive]; exact h.uniq
  att := by simp only [f.n, f.cell, f.parent, f.path, f.alive]; exact fun p hp ch hc => h.att p hp ch (att p hp ch hc)
  attc := by simp only [f.n]; exact attc
  fresh := by simp only [f.n, f.cell]; exact fresh
  loc := by simp only [f.n]; exact loc
  det := by simp only [f.n, f.cell, f.parent, f.path, f.alive, f.stop]; exact det
  detc := by simp only [f.n]; exact detc
  pend := by simp only [f.n, f.cell, f.parent, f.path, f.alive, f.stop]; exact pend
  startp := by simp only [f.n, f.cell, f.parent, f.path, f.alive, f.stop, f.begun]; exact startp
  once := by simp only [f.n, f.parent, f.path, f.begun]; exact once
  outst := by simp only [f.n, f.cell, f.parent, f.path, f.alive]; exact fun p hp ch hc => h.outst p hp ch (outst p hp ch hc)
  rootst := rootst
  pills := by simp only [f.n, f.cell]; exact fun p hp ch hc => h.pills p hp ch (pills p hp ch hc)
  toldk := by simp only [f.n, f.cell, f.told]; exact toldk
  nub := by rw [f.ub]; exact h.nub

theorem Inv.init : Inv St.init where
  pos := by decide
  root := by decide
  par := by intro j hj h0; simp [St.init] at hj; omega
  okk := by intro j _; rfl
  chd := by intro p _ ch hc; simp [St.init, Act.root, Cell.fresh] at hc
  nodup := by intro p _; simp [St.init, Act.root, Cell.fresh]
  own := by intro j _ p hp; simp [St.init, Act.root] at hp
  uniq := by intro j hj k _ h0; simp [St.init] at hj; omega
  att := by intro p _ ch hc; simp [St.init, Act.root] at hc
  attc := by intro p _ j; simp [St.init, Act.root]
  fresh := by intro j hj h0; simp [St.init] at hj; omega
  loc := by
    intro j _
    constructor <;> simp [St.init, Act.root, Cell.fresh, life, Eff.isLife]
    exact ⟨[], by simp, rfl⟩
  det := by intro p _ q hq; simp [St.init, Act.root] at hq
  detc := by intro p _ q; simp [St.init, Act.root]
  pend := by intro j _ p hp; simp [St.init, Act.root] at hp
  startp := by intro j _ p hp; simp [St.init, Act.root] at hp
  once := by intro j _ p hp; simp [St.init, Act.root] at hp
  outst := by intro p _ ch hc; simp [St.init, Act.root] at hc
  rootst := by simp [St.init, Act.root]
  pills := by intro p _ ch hc; simp [St.init, Act.root] at hc
  toldk := by intro p _ hc; simp [St.init, Act.root] at hc
  nub := rfl

/-! ### Messages from outside -/

theorem pushSys_eq (a : Act) (m : Msg) : a.pushSys m = { a with sys := if a.isOpen then a.sys ++ [m] else a.sys } := by
  unfold Act.pushSys; split <;> rfl
theorem pushUsr_eq (a : Act) (m : Msg) : a.pushUsr m = { a with usr := if a.isOpen then a.usr ++ [m] else a.usr } := by
  unfold Act.pushUsr; split <;> rfl

/-- System messages that anybody may send, `stop` only to actors that are attached. -/
def Sendable (a : Act) (k : Nat) : Msg → Prop
  | .watch _ => True
  | .unwatch _ => True
  | .stop => k = 0 ∨ a.cell.hasParent = true
  | .stopAfterChildren => k = 0 ∨ a.cell.hasParent = true
  | _ => False

theorem frame_pushSys (s : St) (k : Nat) (m : Msg) : Frame s (s.upd k ((s.act k).pushSys m)) where
  n := rfl
  ub := rfl
  act := by
    intro j
    rw [upd_act]
    split
    · rename_i h; subst h; rw [pushSys_eq]
    · rfl

theorem frame_pushUsr (s : St) (k : Nat) (m : Msg) : Frame s (s.upd k ((s.act k).pushUsr m)) where
  n := rfl
  ub := rfl
  act := by
    intro j
    rw [upd_act]
    split
    · rename_i h; subst h; rw [pushUsr_eq]
    · rfl

theorem out_pushSys (s : St) (k j : Nat) (m : Msg) : ((s.upd k ((s.act k).pushSys m)).act j).out = (s.act j).out := by
  rw [upd_act, pushSys_eq]; split <;> simp_all
theorem usr_pushSys (s : St) (k j : Nat) (m : Msg) : ((s.upd k ((s.act k).pushSys m)).act j).usr = (s.act j).usr := by
  rw [upd_act, pushSys_eq]; split <;> simp_all
theorem log_pushSys (s : St) (k j : Nat) (m : Msg) : ((s.upd k ((s.act k).pushSys m)).act j).log = (s.act j).log := by
  rw [upd_act, pushSys_eq]; split <;> simp_all
theorem sys_pushSys (s : St) (k j : Nat) (m : Msg) : ((s.upd k ((s.act k).pushSys m)).act j).sys =
    if j = k ∧ (s.act k).isOpen = true then (s.act j).sys ++ [m] else (s.act j).sys := by
  rw [upd_act, pushSys_eq]
  by_cases h : j = k
  · subst h; cases (s.act j).isOpen <;> simp
  · simp [h]
theorem out_pushUsr (s : St) (k j : Nat) (m : Msg) : ((s.upd k ((s.act k).pushUsr m)).act j).out = (s.act j).out := by
  rw [upd_act, pushUsr_eq]; split <;> simp_all
theorem sys_pushUsr (s : St) (k j : Nat) (m : Msg) : ((s.upd k ((s.act k).pushUsr m)).act j).sys = (s.act j).sys := by
  rw [upd_act, pushUsr_eq]; split <;> simp_all
theorem log_pushUsr (s : St) (k j : Nat) (m : Msg) : ((s.upd k ((s.act k).pushUsr m)).act j).log = (s.act j).log := by
  rw [upd_act, pushUsr_eq]; split <;> simp_all
theorem usr_pushUsr (s : St) (k j : Nat) (m : Msg) : ((s.upd k ((s.act k).pushUsr m)).act j).usr =
    if j = k ∧ (s.act k).isOpen = true then (s.act j).usr ++ [m] else (s.act j).usr := by
  rw [upd_act, pushUsr_eq]
  by_cases h : j = k
  · subst h; cases (s.act j).isOpen <;> simp
  · simp [h]

/-- More in the queues does not harm an actor. -/
theorem Loc.sysMore {a b : Act} (h : Loc a) (hb : b = { a with sys := b.sys }) (hs : ∀ m ∈ b.sys, m ∈ a.sys ∨ (isPlain m = false ∧ (isStartMsg m = true → m = .start true))) :
    Loc b where
  stopped := by rw [hb]; exact h.stopped
  openn := by rw [hb]; exact h.openn
  shut := by rw [hb]; exact h.shut
  begun := by rw [hb]; exact h.begun
  started := by rw [hb]; exact h.started
  waits := by rw [hb]; exact h.waits
  told := by rw [hb]; exact h.told
  start := by
    intro ok hm
    rcases hs _ hm with h1 | h1
    · exact h.start ok h1
    · have := h1.2 rfl
      simpa using this
  detach := by rw [hb]; exact h.detach
  dead := by rw [hb]; exact h.dead
  sys := by
    intro m hm
    rcases hs _ hm with h1 | h1
    · exact h.sys m h1
    · exact h1.1
  usr := by rw [hb]; exact h.usr
  life0 := by rw [hb]; exact h.life0
  life1 := by rw [hb]; exact h.life1
  life2 := by rw [hb]; exact h.life2

theorem Loc.usrMore {a b : Act} (h : Loc a) (hb : b = { a with usr := b.usr }) (hs : ∀ m ∈ b.usr, m ∈ a.usr ∨ isPlain m = true) :
    Loc b where
  stopped := by rw [hb]; exact h.stopped
  openn := by rw [hb]; exact h.openn
  shut := by rw [hb]; exact h.shut
  begun := by rw [hb]; exact h.begun
  started := by rw [hb]; exact h.started
  waits := by rw [hb]; exact h.waits
  told := by rw [hb]; exact h.told
  start := by rw [hb]; exact h.start
  detach := by rw [hb]; exact h.detach
  dead := by rw [hb]; exact h.dead
  sys := by rw [hb]; exact h.sys
  usr := by
    intro m hm
    rcases hs _ hm with h1 | h1
    · exact h.usr m h1
    · exact h1
  life0 := by rw [hb]; exact h.life0
  life1 := by rw [hb]; exact h.life1
  life2 := by rw [hb]; exact h.life2

theorem Told.pushSys {a : Act} (h : Told a) (m : Msg) : Told (a.pushSys m) := by
  rw [pushSys_eq]
  rcases h with h | h | h | h | h
  · left; dsimp only; split <;> simp [h]
  · exact .inr (.inl h)
  · exact .inr (.inr (.inl h))
  · exact .inr (.inr (.inr (.inl h)))
  · exact .inr (.inr (.inr (.inr h)))

theorem Told.pushUsr {a : Act} (h : Told a) (m : Msg) : Told (a.pushUsr m) := by
  rw [pushUsr_eq]
  rcases h with h | h | h | h | h
  · exact .inl h
  · right; left; dsimp only; split <;> simp [h]
  · exact .inr (.inr (.inl h))
  · exact .inr (.inr (.inr (.inl h)))
  · exact .inr (.inr (.inr (.inr h)))

theorem Told.upd {s : St} {k j : Nat} {a : Act} (h : Told (s.act j)) (ha : Told (s.act k) → Told a) : Told ((s.upd k a).act j) := by
  rw [upd_act]; split
  · rename_i e; subst e; exact ha h
  · exact h

theorem Inv.sendSys {s : St} (h : Inv s) {k : Nat} {m : Msg} (hm : Sendable (s.act k) k m) : Inv (s.upd k ((s.act k).pushSys m)) := by
  have hmem : ∀ j x, x ∈ ((s.upd k ((s.act k).pushSys m)).act j).sys → x ∈ (s.act j).sys ∨ (j = k ∧ x = m) := by
    intro j x hx
    rw [sys_pushSys] at hx
    split at hx
    · rename_i e; simp at hx; rcases hx with hx | hx
      · exact .inl hx
      · exact .inr ⟨e.1, hx⟩
    · exact .inl hx
  have hcnt : ∀ (p : Msg → Bool) (j : Nat), p m = false → ((s.upd k ((s.act k).pushSys m)).act j).sys.countP p = (s.act j).sys.countP p := by
    intro p j hp
    rw [sys_pushSys]
    split <;> simp [hp]
  have hin : ∀ j x, x ∈ (s.act j).sys → x ∈ ((s.upd k ((s.act k).pushSys m)).act j).sys := by
    intro j x hx
    rw [sys_pushSys]
    split <;> simp [hx]
  refine h.frame (frame_pushSys s k m) ?_ ?_ ?_ ?_ ?_ ?_ ?_ ?_ ?_ ?_ ?_ ?_ ?_
  · intro p _ ch hc
    rcases hmem _ _ hc with h1 | ⟨-, h1⟩
    · exact h1
    · subst h1; simp [Sendable] at hm
  · intro p hp j
    rw [hcnt _ _ (by cases m <;> simp_all [Sendable, carries])]
    exact h.attc p hp j
  · intro j hj h0 hpar
    have hf := h.fresh j hj h0 hpar
    by_cases e : j = k
    · subst e
      rw [upd_self, pushSys_eq]
      refine ⟨hf.begun, hf.started, hf.stopping, hf.children, hf.out, hf.stop, hf.told, hf.log, ?_, hf.usr⟩
      intro x hx
      dsimp only at hx
      split at hx
      · simp at hx
        rcases hx with hx | hx
        · exact hf.sys x hx
        · subst hx
          cases x <;> simp_all [Sendable, Harmless] <;> omega
      · exact hf.sys x hx
    · rw [upd_ne _ _ e]; exact hf
  · intro j hj
    rw [upd_act]
    split
    · rename_i e; subst e
      rw [pushSys_eq]
      refine (h.loc j hj).sysMore rfl ?_
      intro x hx
      dsimp only at hx
      split at hx
      · simp at hx
        rcases hx with hx | hx
        · exact .inl hx
        · subst hx; right; cases x <;> simp_all [Sendable, isPlain, isStartMsg]
      · exact .inl hx
    · exact h.loc j hj
  · intro p hp q hq
    rcases hmem _ _ hq with h1 | ⟨-, h1⟩
    · obtain ⟨j, hj, a⟩ := h.det p hp q h1
      exact ⟨j, hj, by rw [out_pushSys]; exact a⟩
    · subst h1; simp [Sendable] at hm
  · intro p hp q
    rw [List.count, hcnt _ _ (by cases m <;> simp_all [Sendable])]
    exact h.detc p hp q
  · intro j hj p h1 h2 h3 h4
    rw [out_pushSys]
    rcases h.pend j hj p h1 h2 h3 h4 with h5 | h5
    · refine .inl ⟨h5.1, fun hx => ?_⟩
      rcases hmem _ _ hx with h6 | ⟨-, h6⟩
      · exact h5.2 h6
      · subst h6; simp [Sendable] at hm
    · exact .inr ⟨h5.1, hin _ _ h5.2⟩
  · intro j hj p h1 h2 h3 h4 h5
    rw [out_pushSys]
    exact (h.startp j hj p h1 h2 h3 h4 h5).imp id (hin _ _)
  · intro j hj p h1
    rw [out_pushSys, hcnt _ _ (by cases m <;> simp_all [Sendable, isStartMsg])]
    exact h.once j hj p h1
  · intro p _ ch hc; rwa [out_pushSys] at hc
  · rw [hcnt _ _ (by cases m <;> simp_all [Sendable, isStartMsg])]; exact h.rootst
  · intro p _ ch hc; rwa [out_pushSys] at hc
  · intro p hp ht ch hc
    rw [out_pushSys]
    refine (h.toldk p hp ht ch hc).imp (fun h1 => ?_) id
    exact h1.upd fun h => h.pushSys m

/-- A user message, `pill` only to an actor that is attached. -/
theorem Inv.sendUsr {s : St} (h : Inv s) {k : Nat} {m : Msg} (hp : isPlain m = true) (hm : m = .pill → k = 0 ∨ (s.act k).cell.hasParent = true) :
    Inv (s.upd k ((s.act k).pushUsr m)) := by
  refine h.frame (frame_pushUsr s k m) ?_ ?_ ?_ ?_ ?_ ?_ ?_ ?_ ?_ ?_ ?_ ?_ ?_
  · intro p _ ch hc; rwa [sys_pushUsr] at hc
  · intro p hp j; rw [sys_pushUsr]; exact h.attc p hp j
  · intro j hj h0 hpar
    have hf := h.fresh j hj h0 hpar
    by_cases e : j = k
    · subst e
      rw [upd_self, pushUsr_eq]
      refine ⟨hf.begun, hf.started, hf.stopping, hf.children, hf.out, hf.stop, hf.told, hf.log, hf.sys, ?_⟩
      intro x hx
      dsimp only at hx
      split at hx
      · simp at hx
        rcases hx with hx | hx
        · exact hf.usr x hx
        · subst hx
          cases x <;> simp_all [isPlain, Harmless] <;> omega
      · exact hf.usr x hx
    · rw [upd_ne _ _ e]; exact hf
  · intro j hj
    rw [upd_act]
    split
    · rename_i e; subst e
      rw [pushUsr_eq]
      refine (h.loc j hj).usrMore rfl ?_
      intro x hx
      dsimp only at hx
      split at hx
      · simp at hx
        rcases hx with hx | hx
        · exact .inl hx
        · subst hx; exact .inr hp
      · exact .inl hx
    · exact h.loc j hj
  · intro p hp q hq
    rw [sys_pushUsr] at hq
    obtain ⟨j, hj, a⟩ := h.det p hp q hq
    exact ⟨j, hj, by rw [out_pushUsr]; exact a⟩
  · intro p hp q; rw [sys_pushUsr]; exact h.detc p hp q
  · intro j hj p h1 h2 h3 h4
    rw [out_pushUsr, sys_pushUsr]; exact h.pend j hj p h1 h2 h3 h4
  · intro j hj p h1 h2 h3 h4 h5
    rw [out_pushUsr, sys_pushUsr]; exact h.startp j hj p h1 h2 h3 h4 h5
  · intro j hj p h1
    rw [out_pushUsr, sys_pushUsr]; exact h.once j hj p h1
  · intro p _ ch hc; rwa [out_pushUsr] at hc
  · rw [sys_pushUsr]; exact h.rootst
  · intro p _ ch hc; rwa [out_pushUsr] at hc
  · intro p hp ht ch hc
    rw [out_pushUsr]
    refine (h.toldk p hp ht ch hc).imp (fun h1 => ?_) id
    exact h1.upd fun h => h.pushUsr m

/-! ### The next piece of work -/

/-- `e` is done, `es` is left. -/
def pop (s : St) (i : Nat) (e : Eff) (es : List Eff) : St := s.upd i { s.act i with out := es, log := (s.act i).log ++ [e] }

theorem Loc.pop {a : Act} (h : Loc a) {e : Eff} {es : List Eff} (ho : a.out = e :: es) : Loc { a with out := es, log := a.log ++ [e] } := by
  have hl : life { a with out := es, log := a.log ++ [e] } = life a := by
    unfold life; rw [ho]; simp
  refine ⟨h.stopped, h.openn, h.shut, h.begun, h.started, h.waits, h.told, h.start, ?_, ?_, h.sys, h.usr, ?_, ?_, ?_⟩
  · intro hd
    dsimp only at hd ⊢
    obtain ⟨h1, h1', l, h2, h3⟩ := h.detach (by rw [ho]; exact List.mem_cons_of_mem _ hd)
    refine ⟨h1, h1', ?_⟩
    rw [ho] at h2
    cases l with
    | nil => simp at h2; rw [h2.2] at hd; simp at hd
    | cons x l =>
      simp at h2
      exact ⟨l, h2.2, fun hx => h3 (List.mem_cons_of_mem _ hx)⟩
  · intro hd
    rcases h.dead hd with h1 | h1
    · rw [ho] at h1; simp at h1
    · exact .inr h1
  · intro hb; rw [hl]; exact h.life0 hb
  · intro hb; rw [hl]; exact h.life1 hb
  · intro hb; rw [hl]; exact h.life2 hb

theorem frame_pop (s : St) (i : Nat) (e : Eff) (es : List Eff) : Frame s (pop s i e es) where
  n := rfl
  ub := rfl
  act := by
    intro j
    unfold pop
    rw [upd_act]
    split
    · rename_i h; subst h; rfl
    · rfl

theorem sys_pop (s : St) (i j : Nat) (e : Eff) (es : List Eff) : ((pop s i e es).act j).sys = (s.act j).sys := by
  unfold pop; rw [upd_act]; split <;> simp_all
theorem usr_pop (s : St) (i j : Nat) (e : Eff) (es : List Eff) : ((pop s i e es).act j).usr = (s.act j).usr := by
  unfold pop; rw [upd_act]; split <;> simp_all
theorem out_pop (s : St) (i j : Nat) (e : Eff) (es : List Eff) : ((pop s i e es).act j).out = if j = i then es else (s.act j).out := by
  unfold pop; rw [upd_act]; split <;> simp_all

theorem Inv.pop {s : St} (h : Inv s) {i : Nat} {e : Eff} {es : List Eff} (hi : i < s.n) (ho : (s.act i).out = e :: es)
    (h1 : ∀ ch, e ≠ .startTo ch) (h2 : e ≠ .detachToParent) (h3 : ∀ ch, e = .pillTo ch → Told (s.act ch.id))
    (h4 : e = .stopSelf → .stop ∈ (s.act i).sys ∨ (s.act i).stop = true) : Inv (pop s i e es) := by
  have hin : ∀ j x, x ∈ ((ActorSteps.pop s i e es).act j).out → x ∈ (s.act j).out := by
    intro j x hx
    rw [out_pop] at hx
    split at hx
    · rename_i e; subst e; rw [ho]; exact List.mem_cons_of_mem _ hx
    · exact hx
  have hout : ∀ j x, x ≠ e → x ∈ (s.act j).out → x ∈ ((ActorSteps.pop s i e es).act j).out := by
    intro j x hx hm
    rw [out_pop]
    split
    · rename_i e; subst e; rw [ho] at hm; simpa [hx] using hm
    · exact hm
  have hT : ∀ j, Told (s.act j) → Told ((ActorSteps.pop s i e es).act j) := by
    intro j hj
    unfold Told
    rw [sys_pop, usr_pop, (frame_pop s i e es).told, (frame_pop s i e es).stop]
    rcases hj with hj | hj | hj | hj | hj
    · exact .inl hj
    · exact .inr (.inl hj)
    · by_cases he : e = .stopSelf
      · by_cases hji : j = i
        · subst hji
          rcases h4 he with h | h
          · exact .inl h
          · exact .inr (.inr (.inr (.inr h)))
        · refine .inr (.inr (.inl ?_))
          rw [out_pop, if_neg hji]; exact hj
      · exact .inr (.inr (.inl (hout _ _ (Ne.symm he) hj)))
    · exact .inr (.inr (.inr (.inl hj)))
    · exact .inr (.inr (.inr (.inr hj)))
  refine h.frame (frame_pop s i e es) ?_ ?_ ?_ ?_ ?_ ?_ ?_ ?_ ?_ ?_ ?_ ?_ ?_
  · intro p _ ch hc; rwa [sys_pop] at hc
  · intro p hp j; rw [sys_pop]; exact h.attc p hp j
  · intro j hj h0 hpar
    have hf := h.fresh j hj h0 hpar
    by_cases e : j = i
    · subst e; rw [hf.out] at ho; simp at ho
    · unfold ActorSteps.pop; rw [upd_ne _ _ e]; exact hf
  · intro j hj
    unfold ActorSteps.pop
    rw [upd_act]
    split
    · rename_i e; subst e; exact (h.loc j hj).pop ho
    · exact h.loc j hj
  · intro p hp q hq
    rw [sys_pop] at hq
    obtain ⟨j, hj, a1, a2, a3, a4, a5, a6, a7⟩ := h.det p hp q hq
    refine ⟨j, hj, a1, a2, a3, a4, a5, a6, ?_⟩
    rw [out_pop]
    split
    · rename_i e; subst e; rw [ho] at a7; simp at a7
    · exact a7
  · intro p hp q; rw [sys_pop]; exact h.detc p hp q
  · intro j hj p a1 a2 a3 a4
    rw [sys_pop]
    rcases h.pend j hj p a1 a2 a3 a4 with b | b
    · exact .inl ⟨hout _ _ (Ne.symm h2) b.1, b.2⟩
    · refine .inr ⟨?_, b.2⟩
      rw [out_pop]
      split
      · rename_i e; subst e; rw [ho] at b; simp at b
      · exact b.1
  · intro j hj p a1 a2 a3 a4 a5
    rw [sys_pop]
    exact (h.startp j hj p a1 a2 a3 a4 a5).imp (hout _ _ (Ne.symm (h1 _))) id
  · intro j hj p a1
    rw [sys_pop, out_pop]
    have := h.once j hj p a1
    split
    · rename_i e; subst e
      rw [ho, List.count_cons_of_ne (h1 _)] at this
      exact this
    · exact this
  · intro p _ ch hc; exact hin _ _ hc
  · rw [sys_pop]; exact h.rootst
  · intro p _ ch hc; exact hin _ _ hc
  · intro p hp ht ch hc
    rcases h.toldk p hp ht ch hc with b | b
    · exact .inl (hT _ b)
    · by_cases he : e = .pillTo ch
      · exact .inl (hT _ (h3 ch he))
      · exact .inr (hout _ _ (Ne.symm he) b)

theorem St.ext' {s t : St} (h1 : s.n = t.n) (h2 : ∀ j, s.act j = t.act j) (h3 : s.ub = t.ub) : s = t := by
  cases s; cases t; simp at *; exact ⟨h1, funext h2, h3⟩

theorem pop_pushSys (s : St) (i k : Nat) (e : Eff) (es : List Eff) (m : Msg) :
    (pop s i e es).upd k (((pop s i e es).act k).pushSys m) = pop (s.upd k ((s.act k).pushSys m)) i e es := by
  refine St.ext' rfl (fun j => ?_) rfl
  simp only [pop, upd_act]
  by_cases h1 : j = k
  · subst h1
    by_cases h2 : j = i
    · subst h2; simp [pushSys_eq]
    · simp [h2, pushSys_eq]
  · by_cases h2 : j = i
    · subst h2; simp [h1]
    · simp [h1, h2]

theorem pop_pushUsr (s : St) (i k : Nat) (e : Eff) (es : List Eff) (m : Msg) :
    (pop s i e es).upd k (((pop s i e es).act k).pushUsr m) = pop (s.upd k ((s.act k).pushUsr m)) i e es := by
  refine St.ext' rfl (fun j => ?_) rfl
  simp only [pop, upd_act]
  by_cases h1 : j = k
  · subst h1
    by_cases h2 : j = i
    · subst h2; simp [pushUsr_eq]
    · simp [h2, pushUsr_eq]
  · by_cases h2 : j = i
    · subst h2; simp [h1]
    · simp [h1, h2]

/-- An actor that is working on a message is attached. -/
theorem Inv.attached {s : St} (h : Inv s) {i : Nat} (hi : i < s.n) (ho : (s.act i).out ≠ []) : i = 0 ∨ (s.act i).cell.hasParent = true := by
  rcases Nat.eq_zero_or_pos i with h0 | h0
  · exact .inl h0
  · right
    cases hp : (s.act i).cell.hasParent with
    | true => rfl
    | false => exact absurd (h.fresh i hi h0 hp).out ho

/-- An actor that exists and has not stopped has an open mailbox. -/
theorem Inv.opened {s : St} (h : Inv s) {i : Nat} (hi : i < s.n) (hc : (s.act i).cell.children ≠ []) : (s.act i).isOpen = true ∧ (s.act i).stop = false ∧ (s.act i).alive = true ∧
    (i = 0 ∨ (s.act i).cell.hasParent = true) := by
  have hs : (s.act i).stop = false := by
    cases hs : (s.act i).stop with
    | false => rfl
    | true => exact absurd ((h.loc i hi).stopped hs).1 hc
  have hf : i = 0 ∨ (s.act i).cell.hasParent = true := by
    rcases Nat.eq_zero_or_pos i with h0 | h0
    · exact .inl h0
    · right
      cases hp : (s.act i).cell.hasParent with
      | true => rfl
      | false => exact absurd (h.fresh i hi h0 hp).children hc
  have ha : (s.act i).alive = true := by
    cases ha : (s.act i).alive with
    | true => rfl
    | false =>
      rcases (h.loc i hi).dead ha with h1 | h1
      · rw [hs] at h1; simp at h1
      · rcases hf with h2 | h2
        · subst h2; rw [h.root.2.2.2] at ha; simp at ha
        · rw [h2] at h1; simp at h1
  exact ⟨(h.loc i hi).openn ha hs, hs, ha, hf⟩

theorem Frame.trans {s t u : St} (f : Frame s t) (g : Frame t u) : Frame s u where
  n := by rw [g.n, f.n]
  ub := by rw [g.ub, f.ub]
  act := by intro j; conv => lhs; rw [g.act j, f.act j]

theorem sys_popPush (s : St) (i k j : Nat) (e : Eff) (es : List Eff) (m : Msg) :
    (((pop s i e es).upd k (((pop s i e es).act k).pushSys m)).act j).sys = if j = k ∧ (s.act k).isOpen = true then (s.act j).sys ++ [m] else (s.act j).sys := by
  rw [pop_pushSys, sys_pop, sys_pushSys]
theorem out_popPush (s : St) (i k j : Nat) (e : Eff) (es : List Eff) (m : Msg) :
    (((pop s i e es).upd k (((pop s i e es).act k).pushSys m)).act j).out = if j = i then es else (s.act j).out := by
  rw [out_pushSys, out_pop]
theorem usr_popPush (s : St) (i k j : Nat) (e : Eff) (es : List Eff) (m : Msg) :
    (((pop s i e es).upd k (((pop s i e es).act k).pushSys m)).act j).usr = (s.act j).usr := by
  rw [usr_pushSys, usr_pop]
theorem frame_popPush (s : St) (i k : Nat) (e : Eff) (es : List Eff) (m : Msg) : Frame s ((pop s i e es).upd k (((pop s i e es).act k).pushSys m)) :=
  (frame_pop s i e es).trans (frame_pushSys _ _ _)

theorem Loc.popPush {s : St} {i j k : Nat} {e : Eff} {es : List Eff} {m : Msg} (h : Loc (s.act j)) (ho : (s.act i).out = e :: es) (hp : isPlain m = false) (hm : isStartMsg m = true → m = .start true) :
    Loc (((ActorSteps.pop s i e es).upd k (((ActorSteps.pop s i e es).act k).pushSys m)).act j) := by
  have h1 : Loc ((ActorSteps.pop s i e es).act j) := by
    unfold ActorSteps.pop
    rw [upd_act]
    split
    · rename_i e; subst e; exact h.pop ho
    · exact h
  rw [upd_act]
  split
  · rename_i e; subst e
    rw [pushSys_eq]
    refine h1.sysMore rfl ?_
    intro x hx
    dsimp only at hx
    split at hx
    · simp at hx
      rcases hx with hx | hx
      · exact .inl hx
      · subst hx; exact .inr ⟨hp, hm⟩
    · exact .inl hx
  · exact h1

theorem Told.popPush {s : St} {i j k : Nat} {e : Eff} {es : List Eff} {m : Msg} (h : Told (s.act j)) (ho : (s.act i).out = e :: es) (he : e ≠ .stopSelf) :
    Told (((ActorSteps.pop s i e es).upd k (((ActorSteps.pop s i e es).act k).pushSys m)).act j) := by
  unfold Told
  rw [usr_popPush, out_popPush, sys_popPush, (frame_popPush s i k e es m).told, (frame_popPush s i k e es m).stop]
  rcases h with h | h | h | h | h
  · left; split <;> simp [h]
  · exact .inr (.inl h)
  · refine .inr (.inr (.inl ?_))
    split
    · rename_i e; subst e; rw [ho] at h; simpa [Ne.symm he] using h
    · exact h
  · exact .inr (.inr (.inr (.inl h)))
  · exact .inr (.inr (.inr (.inr h)))

theorem Inv.emitStart {s : St} (h : Inv s) {i : Nat} {ch : Child} {es : List Eff} (hi : i < s.n) (ho : (s.act i).out = .startTo ch :: es) :
    Inv ((ActorSteps.pop s i (.startTo ch) es).upd ch.id (((ActorSteps.pop s i (.startTo ch) es).act ch.id).pushSys (.start true))) := by
  obtain ⟨c1, c2, c3, c4, c5, c6⟩ := h.outst i hi ch (by rw [ho]; exact List.mem_cons_self)
  have hch : ch = ⟨ch.id, (s.act ch.id).path⟩ := by rw [c4]
  have hne : ∀ j, j ≠ ch.id → Eff.startTo ⟨j, (s.act j).path⟩ ≠ .startTo ch := by
    intro j hj he
    rw [hch] at he
    simp at he
    exact hj he.1
  have hmem : ∀ j x, x ∈ ((((ActorSteps.pop s i (.startTo ch) es).upd ch.id (((ActorSteps.pop s i (.startTo ch) es).act ch.id).pushSys (.start true)))).act j).sys →
      x ∈ (s.act j).sys ∨ (j = ch.id ∧ x = .start true) := by
    intro j x hx
    rw [sys_popPush] at hx
    split at hx
    · rename_i e; simp at hx; rcases hx with hx | hx
      · exact .inl hx
      · exact .inr ⟨e.1, hx⟩
    · exact .inl hx
  have hin : ∀ j x, x ∈ (s.act j).sys → x ∈ ((((ActorSteps.pop s i (.startTo ch) es).upd ch.id (((ActorSteps.pop s i (.startTo ch) es).act ch.id).pushSys (.start true)))).act j).sys := by
    intro j x hx
    rw [sys_popPush]
    split <;> simp [hx]
  have hout : ∀ j x, x ≠ .startTo ch → x ∈ (s.act j).out → x ∈ ((((ActorSteps.pop s i (.startTo ch) es).upd ch.id (((ActorSteps.pop s i (.startTo ch) es).act ch.id).pushSys (.start true)))).act j).out := by
    intro j x hx hm
    rw [out_popPush]
    split
    · rename_i e; subst e; rw [ho] at hm; simpa [hx] using hm
    · exact hm
  have hout' : ∀ j x, x ∈ ((((ActorSteps.pop s i (.startTo ch) es).upd ch.id (((ActorSteps.pop s i (.startTo ch) es).act ch.id).pushSys (.start true)))).act j).out → x ∈ (s.act j).out := by
    intro j x hx
    rw [out_popPush] at hx
    split at hx
    · rename_i e; subst e; rw [ho]; exact List.mem_cons_of_mem _ hx
    · exact hx
  refine h.frame (frame_popPush s i ch.id _ es _) ?_ ?_ ?_ ?_ ?_ ?_ ?_ ?_ ?_ ?_ ?_ ?_ ?_
  · intro p _ c hc
    rcases hmem _ _ hc with h1 | ⟨-, h1⟩
    · exact h1
    · simp at h1
  · intro p hp j
    rw [sys_popPush]
    have := h.attc p hp j
    split <;> simp [carries, this]
  · intro j hj h0 hpar
    have hf := h.fresh j hj h0 hpar
    have e1 : j ≠ i := by intro e; subst e; rw [hf.out] at ho; simp at ho
    have e2 : j ≠ ch.id := by intro e; subst e; rw [c5] at hpar; simp at hpar
    rw [upd_ne _ _ e2]
    unfold ActorSteps.pop
    rw [upd_ne _ _ e1]
    exact hf
  · intro j hj; exact (h.loc j hj).popPush ho rfl (fun _ => rfl)
  · intro p hp q hq
    rcases hmem _ _ hq with h1 | ⟨-, h1⟩
    · obtain ⟨j, hj, a1, a2, a3, a4, a5, a6, a7⟩ := h.det p hp q h1
      refine ⟨j, hj, a1, a2, a3, a4, a5, a6, ?_⟩
      rw [out_popPush]
      split
      · rename_i e; subst e; rw [ho] at a7; simp at a7
      · exact a7
    · simp at h1
  · intro p hp q
    rw [sys_popPush]
    have := h.detc p hp q
    split
    · rw [List.count_append, List.count_cons_of_ne (by simp)]; simpa using this
    · exact this
  · intro j hj p a1 a2 a3 a4
    rcases h.pend j hj p a1 a2 a3 a4 with b | b
    · refine .inl ⟨hout _ _ (by simp) b.1, fun hx => ?_⟩
      rcases hmem _ _ hx with h1 | ⟨-, h1⟩
      · exact b.2 h1
      · simp at h1
    · refine .inr ⟨?_, hin _ _ b.2⟩
      rw [out_popPush]
      split
      · rename_i e; subst e; rw [ho] at b; simp at b
      · exact b.1
  · intro j hj p a1 a2 a3 a4 a5
    by_cases hjc : j = ch.id
    · right
      rw [sys_popPush, if_pos ⟨hjc, by rw [← hjc]; exact (h.loc j hj).openn a2 a5⟩]
      simp
    · exact (h.startp j hj p a1 a2 a3 a4 a5).imp (hout _ _ (hne j hjc)) (hin _ _)
  · intro j hj p a1
    have h1 := h.once j hj p a1
    by_cases hjc : j = ch.id
    · subst hjc
      rw [c3] at a1
      simp at a1
      subst a1
      rw [ho, ← hch, List.count_cons_self] at h1
      rw [out_popPush, if_pos rfl, sys_popPush, ← hch]
      split <;> simp [isStartMsg] <;> omega
    · have e1 : ((((ActorSteps.pop s i (.startTo ch) es).upd ch.id (((ActorSteps.pop s i (.startTo ch) es).act ch.id).pushSys (.start true)))).act j).sys = (s.act j).sys := by
        rw [sys_popPush, if_neg (fun h => hjc h.1)]
      rw [e1, out_popPush]
      split
      · rename_i e; subst e
        rw [ho, List.count_cons_of_ne (hne j hjc).symm] at h1
        exact h1
      · exact h1
  · intro p _ c hc; exact hout' _ _ hc
  · rw [sys_popPush, if_neg (by omega)]; exact h.rootst
  · intro p _ c hc; exact hout' _ _ hc
  · intro p hp ht c hc
    rcases h.toldk p hp ht c hc with b | b
    · exact .inl (b.popPush ho (by simp))
    · exact .inr (hout _ _ (by simp) b)

theorem Inv.emitDetach {s : St} (h : Inv s) {i : Nat} {es : List Eff} (hi : i < s.n) (ho : (s.act i).out = .detachToParent :: es) :
    Inv (ActorSteps.send (ActorSteps.pop s i .detachToParent es) i .detachToParent) := by
  obtain ⟨d1, d2, l, d3, d4⟩ := (h.loc i hi).detach (by rw [ho]; exact List.mem_cons_self)
  have hes : es = [] := by
    rw [ho] at d3
    cases l with
    | nil => simpa using d3
    | cons x l => simp at d3; rw [← d3.1] at d4; simp at d4
  subst hes
  have h0 : 0 < i := by
    rcases Nat.eq_zero_or_pos i with h0 | h0
    · subst h0; rw [h.root.2.1] at d2; simp at d2
    · exact h0
  obtain ⟨p, hpi, hpar⟩ := h.par i hi h0
  have hal : (s.act i).alive = true := by
    cases ha : (s.act i).alive with
    | true => rfl
    | false =>
      rcases (h.loc i hi).dead ha with b | b
      · rw [ho] at b; simp at b
      · rw [d2] at b; simp at b
  have hown := h.own i hi p hpar hal d2
  obtain ⟨po, ps, pa, pf⟩ := h.opened (i := p) (by omega) (List.ne_nil_of_mem hown)
  have hnot : .detach (s.act i).path ∉ (s.act p).sys := by
    rcases h.pend i hi p hpar hal d2 d1 with b | b
    · exact b.2
    · rw [ho] at b; simp at b
  have hsend : ActorSteps.send (ActorSteps.pop s i .detachToParent []) i .detachToParent =
      (ActorSteps.pop s i .detachToParent []).upd p (((ActorSteps.pop s i .detachToParent []).act p).pushSys (.detach (s.act i).path)) := by
    unfold ActorSteps.send
    rw [(frame_pop s i _ _).parent, hpar, (frame_pop s i _ _).path]
  rw [hsend]
  have hmem : ∀ j x, x ∈ (((ActorSteps.pop s i .detachToParent []).upd p (((ActorSteps.pop s i .detachToParent []).act p).pushSys (.detach (s.act i).path))).act j).sys →
      x ∈ (s.act j).sys ∨ (j = p ∧ x = .detach (s.act i).path) := by
    intro j x hx
    rw [sys_popPush] at hx
    split at hx
    · rename_i e; simp at hx; rcases hx with hx | hx
      · exact .inl hx
      · exact .inr ⟨e.1, hx⟩
    · exact .inl hx
  have hin : ∀ j x, x ∈ (s.act j).sys → x ∈ (((ActorSteps.pop s i .detachToParent []).upd p (((ActorSteps.pop s i .detachToParent []).act p).pushSys (.detach (s.act i).path))).act j).sys := by
    intro j x hx
    rw [sys_popPush]
    split <;> simp [hx]
  have hout : ∀ j x, x ≠ .detachToParent → x ∈ (s.act j).out → x ∈ (((ActorSteps.pop s i .detachToParent []).upd p (((ActorSteps.pop s i .detachToParent []).act p).pushSys (.detach (s.act i).path))).act j).out := by
    intro j x hx hm
    rw [out_popPush]
    split
    · rename_i e; subst e; rw [ho] at hm; simpa [hx] using hm
    · exact hm
  have hout' : ∀ j x, x ∈ (((ActorSteps.pop s i .detachToParent []).upd p (((ActorSteps.pop s i .detachToParent []).act p).pushSys (.detach (s.act i).path))).act j).out → x ∈ (s.act j).out := by
    intro j x hx
    rw [out_popPush] at hx
    split at hx
    · simp at hx
    · exact hx
  refine h.frame (frame_popPush s i p _ [] _) ?_ ?_ ?_ ?_ ?_ ?_ ?_ ?_ ?_ ?_ ?_ ?_ ?_
  · intro p _ c hc
    rcases hmem _ _ hc with h1 | ⟨-, h1⟩
    · exact h1
    · simp at h1
  · intro p' hp j
    rw [sys_popPush]
    have := h.attc p' hp j
    split <;> simp [carries, this]
  · intro j hj j0 hjp
    have hf := h.fresh j hj j0 hjp
    have e1 : j ≠ i := by intro e; subst e; rw [hf.out] at ho; simp at ho
    have e2 : j ≠ p := by intro e; subst e; rw [hf.children] at hown; simp at hown
    rw [upd_ne _ _ e2]
    unfold ActorSteps.pop
    rw [upd_ne _ _ e1]
    exact hf
  · intro j hj; exact (h.loc j hj).popPush ho rfl (fun h => by simp [isStartMsg] at h)
  · intro p' hp' q hq
    rcases hmem _ _ hq with h1 | ⟨h1, h2⟩
    · obtain ⟨j, hj, a1, a2, a3, a4, a5, a6, a7⟩ := h.det p' hp' q h1
      refine ⟨j, hj, a1, a2, a3, a4, a5, a6, ?_⟩
      rw [out_popPush]
      split
      · rfl
      · exact a7
    · simp at h2
      exact ⟨i, hi, h0, by rw [h1]; exact hpar, h2.symm, d2, hal, d1, by rw [out_popPush, if_pos rfl]⟩
  · intro p' hp' q
    rw [sys_popPush]
    have := h.detc p' hp' q
    split
    · rename_i e
      rw [List.count_append]
      by_cases hq : q = (s.act i).path
      · subst hq
        rw [e.1, List.count_eq_zero_of_not_mem hnot]
        simp
      · rw [List.count_cons_of_ne (by simp [Ne.symm hq])]
        simpa using this
    · exact this
  · intro j hj p' a1 a2 a3 a4
    by_cases hji : j = i
    · subst hji
      rw [hpar] at a1
      simp at a1
      subst a1
      right
      rw [out_popPush, if_pos rfl, sys_popPush, if_pos ⟨rfl, po⟩]
      simp
    · rcases h.pend j hj p' a1 a2 a3 a4 with b | b
      · refine .inl ⟨by rw [out_popPush, if_neg hji]; exact b.1, fun hx => ?_⟩
        rcases hmem _ _ hx with h1 | ⟨h1, h2⟩
        · exact b.2 h1
        · simp at h2
          have j0 : 0 < j := by
            rcases Nat.eq_zero_or_pos j with j0 | j0
            · subst j0; rw [h.root.1] at a1; simp at a1
            · exact j0
          exact hji (h.uniq j hj i hi j0 h0 a2 hal (by rw [a1, hpar, h1]) h2)
      · exact .inr ⟨by rw [out_popPush, if_neg hji]; exact b.1, hin _ _ b.2⟩
  · intro j hj p' a1 a2 a3 a4 a5
    exact (h.startp j hj p' a1 a2 a3 a4 a5).imp (hout _ _ (by simp)) (hin _ _)
  · intro j hj p' a1
    have h1 := h.once j hj p' a1
    have e1 : ((((ActorSteps.pop s i .detachToParent []).upd p (((ActorSteps.pop s i .detachToParent []).act p).pushSys (.detach (s.act i).path))).act j).sys).countP isStartMsg = (s.act j).sys.countP isStartMsg := by
      rw [sys_popPush]; split <;> simp [isStartMsg]
    rw [e1, out_popPush]
    split
    · rename_i e; subst e
      rw [ho, List.count_cons_of_ne (by simp)] at h1
      exact h1
    · exact h1
  · intro p _ c hc; exact hout' _ _ hc
  · have := h.rootst
    rw [sys_popPush]; split <;> simp [isStartMsg, this]
  · intro p _ c hc; exact hout' _ _ hc
  · intro p hp ht c hc
    rcases h.toldk p hp ht c hc with b | b
    · exact .inl (b.popPush ho (by simp))
    · exact .inr (hout _ _ (by simp) b)

theorem Inv.emit {s : St} (h : Inv s) {i : Nat} {e : Eff} {es : List Eff} (hi : i < s.n) (ho : (s.act i).out = e :: es) :
    Inv (ActorSteps.send (ActorSteps.pop s i e es) i e) := by
  cases e with
  | preStart b => exact h.pop hi ho (by simp) (by simp) (by simp) (by simp)
  | postStop => exact h.pop hi ho (by simp) (by simp) (by simp) (by simp)
  | receive m => exact h.pop hi ho (by simp) (by simp) (by simp) (by simp)
  | destroy c => exact h.pop hi ho (by simp) (by simp) (by simp) (by simp)
  | tellTerminated w =>
    unfold ActorSteps.send
    dsimp only
    rw [pop_pushUsr]
    have h1 : Inv (s.upd w ((s.act w).pushUsr (terminatedMsg i))) := h.sendUsr rfl (by simp [terminatedMsg])
    exact h1.pop hi (by rw [out_pushUsr]; exact ho) (by simp) (by simp) (by simp) (by simp)
  | detachToParent => exact h.emitDetach hi ho
  | pillTo c =>
    unfold ActorSteps.send
    dsimp only
    rw [pop_pushUsr]
    have hc := h.pills i hi c (by rw [ho]; exact List.mem_cons_self)
    obtain ⟨a1, a2, a3, a4, a5, a6⟩ := h.chd i hi c hc
    have h1 : Inv (s.upd c.id ((s.act c.id).pushUsr .pill)) := h.sendUsr rfl (fun _ => .inr a6)
    refine h1.pop hi (by rw [out_pushUsr]; exact ho) (by simp) (by simp) ?_ (by simp)
    intro ch hch
    simp at hch
    subst hch
    cases hs : (s.act c.id).stop with
    | true => right; right; right; right; rw [(frame_pushUsr s c.id .pill).stop]; exact hs
    | false =>
      right; left
      rw [usr_pushUsr, if_pos ⟨rfl, (h.loc c.id a2).openn a5 hs⟩]
      simp
  | startTo c =>
    obtain ⟨c1, c2, c3, c4, c5, c6⟩ := h.outst i hi c (by rw [ho]; exact List.mem_cons_self)
    have : ((ActorSteps.pop s i (.startTo c) es).act c.id).ok = true := by rw [(frame_pop s i _ es).okk]; exact h.okk c.id c2
    unfold ActorSteps.send
    dsimp only
    rw [this]
    exact h.emitStart hi ho
  | stopSelf =>
    unfold ActorSteps.send
    dsimp only
    rw [pop_pushSys]
    have h1 : Inv (s.upd i ((s.act i).pushSys .stop)) := h.sendSys (h.attached hi (by rw [ho]; simp))
    refine h1.pop hi (by rw [out_pushSys]; exact ho) (by simp) (by simp) (by simp) ?_
    intro _
    rw [sys_pushSys, (frame_pushSys s i .stop).stop]
    cases hs : (s.act i).stop with
    | true => exact .inr rfl
    | false =>
      left
      have hal : (s.act i).alive = true := by
        cases ha : (s.act i).alive with
        | true => rfl
        | false =>
          rcases (h.loc i hi).dead ha with b | b
          · rw [ho] at b; simp at b
          · rcases h.attached hi (by rw [ho]; simp) with c | c
            · subst c; rw [h.root.2.2.2] at ha; simp at ha
            · rw [b] at c; simp at c
      rw [if_pos ⟨rfl, (h.loc i hi).openn hal hs⟩]
      simp

/-! ### Closing the mailbox -/

theorem Inv.close {s : St} (h : Inv s) {i : Nat} (hs : (s.act i).stop = true) : Inv (s.upd i { s.act i with isOpen := false }) := by
  have hj : ∀ j, ∃ b, (s.upd i { s.act i with isOpen := false }).act j = { s.act j with isOpen := b } := by
    intro j
    rw [upd_act]
    split
    · rename_i e; subst e; exact ⟨_, rfl⟩
    · exact ⟨_, rfl⟩
  generalize he : s.upd i { s.act i with isOpen := false } = s' at *
  have hn : s'.n = s.n := by rw [← he]; rfl
  have hu : s'.ub = s.ub := by rw [← he]; rfl
  have e1 : ∀ j, (s'.act j).cell = (s.act j).cell := fun j => by obtain ⟨b, hb⟩ := hj j; rw [hb]
  have e2 : ∀ j, (s'.act j).sys = (s.act j).sys := fun j => by obtain ⟨b, hb⟩ := hj j; rw [hb]
  have e3 : ∀ j, (s'.act j).usr = (s.act j).usr := fun j => by obtain ⟨b, hb⟩ := hj j; rw [hb]
  have e4 : ∀ j, (s'.act j).alive = (s.act j).alive := fun j => by obtain ⟨b, hb⟩ := hj j; rw [hb]
  have e5 : ∀ j, (s'.act j).out = (s.act j).out := fun j => by obtain ⟨b, hb⟩ := hj j; rw [hb]
  have e6 : ∀ j, (s'.act j).stop = (s.act j).stop := fun j => by obtain ⟨b, hb⟩ := hj j; rw [hb]
  have e7 : ∀ j, (s'.act j).begun = (s.act j).begun := fun j => by obtain ⟨b, hb⟩ := hj j; rw [hb]
  have e8 : ∀ j, (s'.act j).parent = (s.act j).parent := fun j => by obtain ⟨b, hb⟩ := hj j; rw [hb]
  have e9 : ∀ j, (s'.act j).path = (s.act j).path := fun j => by obtain ⟨b, hb⟩ := hj j; rw [hb]
  have e10 : ∀ j, (s'.act j).ok = (s.act j).ok := fun j => by obtain ⟨b, hb⟩ := hj j; rw [hb]
  have e11 : ∀ j, (s'.act j).told = (s.act j).told := fun j => by obtain ⟨b, hb⟩ := hj j; rw [hb]
  have e12 : ∀ j, Told (s'.act j) = Told (s.act j) := fun j => by obtain ⟨b, hb⟩ := hj j; rw [hb]; rfl
  constructor
  · rw [hn]; exact h.pos
  · simp only [e8, e1, e7, e4]; exact h.root
  · simp only [hn, e8]; exact h.par
  · simp only [hn, e10]; exact h.okk
  · simp only [hn, e1, e8, e9, e4]; exact h.chd
  · simp only [hn, e1]; exact h.nodup
  · simp only [hn, e1, e8, e9, e4]; exact h.own
  · simp only [hn, e8, e9, e4]; exact h.uniq
  · simp only [hn, e2, e1, e8, e9, e4]; exact h.att
  · simp only [hn, e2]; exact h.attc
  · intro j hjn h0 hp
    rw [hn] at hjn
    rw [e1] at hp
    have hf := h.fresh j hjn h0 hp
    obtain ⟨b, hb⟩ := hj j
    rw [hb]
    exact ⟨hf.begun, hf.started, hf.stopping, hf.children, hf.out, hf.stop, hf.told, hf.log, hf.sys, hf.usr⟩
  · intro j hjn
    rw [hn] at hjn
    have hl := h.loc j hjn
    rw [← he, upd_act]
    split
    · rename_i e; subst e
      exact ⟨hl.stopped, fun _ hs' => by dsimp only at hs'; rw [hs] at hs'; simp at hs', fun _ _ => rfl, hl.begun, hl.started, hl.waits, hl.told, hl.start, hl.detach, hl.dead, hl.sys, hl.usr,
        hl.life0, hl.life1, hl.life2⟩
    · exact hl
  · simp only [hn, e2, e1, e8, e9, e4, e6, e5]; exact h.det
  · simp only [hn, e2]; exact h.detc
  · simp only [hn, e2, e1, e8, e9, e4, e6, e5]; exact h.pend
  · simp only [hn, e2, e1, e8, e9, e4, e6, e5, e7]; exact h.startp
  · simp only [hn, e2, e8, e9, e5, e7]; exact h.once
  · simp only [hn, e1, e8, e9, e4, e5]; exact h.outst
  · rw [e2]; exact h.rootst
  · simp only [hn, e1, e5]; exact h.pills
  · simp only [hn, e1, e5, e11, e12]; exact h.toldk
  · rw [hu]; exact h.nub

/-! ### Taking a message -/

/-- Actor `i` becomes `a'`, and the actors in `D` are destroyed. -/
def change (s : St) (i : Nat) (a' : Act) (D : Nat → Bool) : St :=
  ⟨s.n, fun j => if j = i then a' else if D j then (s.act j).dead else s.act j, false⟩

theorem Told.dead {a : Act} (h : Told a) : Told a.dead := h

theorem Loc.dead' {a : Act} (h : Loc a) (hd : (a.stop = true ∧ a.out = []) ∨ a.cell.hasParent = false) : Loc a.dead :=
  ⟨h.stopped, fun ha => by simp [Act.dead] at ha, fun _ hs => by have : a.stop = false := hs; simp [Act.dead, this], h.begun, h.started, h.waits, h.told, h.start, h.detach, fun _ => hd, h.sys, h.usr,
    h.life0, h.life1, h.life2⟩

theorem Fresh.dead {a : Act} (h : Fresh a) : Fresh a.dead :=
  ⟨h.begun, h.started, h.stopping, h.children, h.out, h.stop, h.told, h.log, h.sys, h.usr⟩

theorem Inv.change {s : St} (h : Inv s) {i : Nat} (hi : i < s.n) (a' : Act) (D : Nat → Bool)
    (hal : (s.act i).alive = true) (hout : (s.act i).out = []) (hstop : (s.act i).stop = false)
    (hpar : a'.parent = (s.act i).parent) (hpath : a'.path = (s.act i).path) (hok : a'.ok = (s.act i).ok) (halive : a'.alive = true)
    (hhp : a'.cell.hasParent = (s.act i).cell.hasParent) (hloc : Loc a')
    (hfresh : 0 < i → a'.cell.hasParent = false → Fresh a')
    (hsub : a'.sys.Sublist (s.act i).sys)
    (hbegun : (s.act i).begun = true → a'.begun = true)
    (honce : a'.sys.countP isStartMsg + one a'.begun ≤ (s.act i).sys.countP isStartMsg + one (s.act i).begun)
    (hstart : a'.begun = false → a'.stop = false → .start true ∈ (s.act i).sys → .start true ∈ a'.sys)
    (hnost : ∀ ch, .startTo ch ∉ a'.out)
    (hpills : ∀ ch, .pillTo ch ∈ a'.out → ch ∈ a'.cell.children)
    (hdet : a'.stop = true → a'.cell.hasParent = true → .detachToParent ∈ a'.out)
    (htold : Told (s.act i) → Told a')
    (htoldk : a'.told = true → (s.act i).told = true ∨ ∀ ch ∈ a'.cell.children, .pillTo ch ∈ a'.out)
    (hsubc : a'.cell.children.Sublist (s.act i).cell.children)
    (hdead : ∀ ch ∈ a'.cell.children, D ch.id = false)
    (hkeep : ∀ ch ∈ (s.act i).cell.children, D ch.id = false → ch ∈ a'.cell.children)
    (hkept : ∀ q, .detach q ∈ (s.act i).sys → .detach q ∈ a'.sys ∨ ∀ j < s.n, 0 < j → (s.act j).alive = true → (s.act j).parent = some i → (s.act j).path = q →
      (s.act j).cell.hasParent = true → D j = true)
    (hD : ∀ j < s.n, D j = true → j ≠ i ∧ 0 < j ∧ (s.act j).cell.children = [] ∧
      (((s.act j).stop = true ∧ (s.act j).cell.hasParent = true ∧ (s.act j).out = [] ∧ (s.act j).parent = some i ∧ .detach (s.act j).path ∉ a'.sys) ∨
       ((s.act j).cell.hasParent = false ∧ (((s.act j).parent = some i ∧ ∀ ch : Child, ch.id = j → .attach ch ∉ a'.sys) ∨ ∃ p, (s.act j).parent = some p ∧ p ≠ i ∧ D p = true)))) :
    Inv (ActorSteps.change s i a' D) := by
  generalize he : ActorSteps.change s i a' D = s'
  have hn : s'.n = s.n := by rw [← he]; rfl
  have hact : ∀ j, s'.act j = if j = i then a' else if D j then (s.act j).dead else s.act j := by intro j; rw [← he]; rfl
  have hoth : ∀ j, j ≠ i → s'.act j = s.act j ∨ (D j = true ∧ s'.act j = (s.act j).dead) := by
    intro j hj; rw [hact, if_neg hj]; split <;> simp_all
  have hself : s'.act i = a' := by rw [hact, if_pos rfl]
  have hDi : D i = false := by
    cases hd : D i with
    | false => rfl
    | true => exact absurd rfl (hD i hi hd).1
  have eparent : ∀ j, (s'.act j).parent = (s.act j).parent := by
    intro j
    by_cases hji : j = i
    · subst hji; rw [hself, hpar]
    · rcases hoth j hji with e | ⟨-, e⟩ <;> rw [e]; rfl
  have epath : ∀ j, (s'.act j).path = (s.act j).path := by
    intro j
    by_cases hji : j = i
    · subst hji; rw [hself, hpath]
    · rcases hoth j hji with e | ⟨-, e⟩ <;> rw [e]; rfl
  have eok : ∀ j, (s'.act j).ok = (s.act j).ok := by
    intro j
    by_cases hji : j = i
    · subst hji; rw [hself, hok]
    · rcases hoth j hji with e | ⟨-, e⟩ <;> rw [e]; rfl
  have ehp : ∀ j, (s'.act j).cell.hasParent = (s.act j).cell.hasParent := by
    intro j
    by_cases hji : j = i
    · subst hji; rw [hself, hhp]
    · rcases hoth j hji with e | ⟨-, e⟩ <;> rw [e]; rfl
  have ealive : ∀ j, (s'.act j).alive = true ↔ (s.act j).alive = true ∧ D j = false := by
    intro j
    by_cases hji : j = i
    · subst hji; rw [hself, halive, hal, hDi]; simp
    · rw [hact, if_neg hji]; cases D j <;> simp [Act.dead]
  have ecell : ∀ j, j ≠ i → (s'.act j).cell = (s.act j).cell := by
    intro j hji; rcases hoth j hji with e | ⟨-, e⟩ <;> rw [e]; rfl
  have esys : ∀ j, j ≠ i → (s'.act j).sys = (s.act j).sys := by
    intro j hji; rcases hoth j hji with e | ⟨-, e⟩ <;> rw [e]; rfl
  have eout : ∀ j, j ≠ i → (s'.act j).out = (s.act j).out := by
    intro j hji; rcases hoth j hji with e | ⟨-, e⟩ <;> rw [e]; rfl
  have estop : ∀ j, j ≠ i → (s'.act j).stop = (s.act j).stop := by
    intro j hji; rcases hoth j hji with e | ⟨-, e⟩ <;> rw [e]; rfl
  have ebegun : ∀ j, j ≠ i → (s'.act j).begun = (s.act j).begun := by
    intro j hji; rcases hoth j hji with e | ⟨-, e⟩ <;> rw [e]; rfl
  have etold : ∀ j, j ≠ i → (s'.act j).told = (s.act j).told := by
    intro j hji; rcases hoth j hji with e | ⟨-, e⟩ <;> rw [e]; rfl
  have eTold : ∀ j, Told (s.act j) → Told (s'.act j) := by
    intro j hj
    by_cases hji : j = i
    · subst hji; rw [hself]; exact htold hj
    · rcases hoth j hji with e | ⟨-, e⟩ <;> rw [e]
      · exact hj
      · exact hj.dead
  have hsm : ∀ p x, x ∈ (s'.act p).sys → x ∈ (s.act p).sys := by
    intro p x hx
    by_cases hpi : p = i
    · subst hpi; rw [hself] at hx; exact hsub.subset hx
    · rwa [esys p hpi] at hx
  have hcm : ∀ p c, c ∈ (s'.act p).cell.children → c ∈ (s.act p).cell.children := by
    intro p x hx
    by_cases hpi : p = i
    · subst hpi; rw [hself] at hx; exact hsubc.subset hx
    · rwa [ecell p hpi] at hx
  have hDp : ∀ j < s.n, D j = true → (s.act j).cell.hasParent = true → (s.act j).parent = some i := by
    intro j hj hd hp
    rcases (hD j hj hd).2.2.2 with b | b
    · exact b.2.2.2.1
    · rw [hp] at b; simp at b
  have hDc : ∀ p < s.n, ∀ c ∈ (s'.act p).cell.children, D c.id = false := by
    intro p hp c hc
    by_cases hpi : p = i
    · subst hpi; rw [hself] at hc; exact hdead c hc
    · obtain ⟨a1, a2, a3, a4, a5, a6⟩ := h.chd p hp c (hcm p c hc)
      cases hd : D c.id with
      | false => rfl
      | true => have := hDp _ a2 hd a6; rw [a3] at this; simp at this; exact absurd this hpi
  constructor
  · rw [hn]; exact h.pos
  · rw [eparent, ehp]
    refine ⟨h.root.1, h.root.2.1, ?_, ?_⟩
    · by_cases h0 : 0 = i
      · subst h0; rw [hself]; exact hbegun h.root.2.2.1
      · rw [ebegun 0 h0]; exact h.root.2.2.1
    · rw [ealive]
      refine ⟨h.root.2.2.2, ?_⟩
      cases hd : D 0 with
      | false => rfl
      | true => exact absurd (hD 0 h.pos hd).2.1 (by omega)
  · simp only [hn, eparent]; exact h.par
  · simp only [hn, eok]; exact h.okk
  · intro p hp c hc
    rw [hn] at hp
    obtain ⟨a1, a2, a3, a4, a5, a6⟩ := h.chd p hp c (hcm p c hc)
    rw [eparent, epath, ehp, ealive, hn]
    exact ⟨a1, a2, a3, a4, ⟨a5, hDc p hp c hc⟩, a6⟩
  · intro p hp
    rw [hn] at hp
    by_cases hpi : p = i
    · subst hpi; rw [hself]; exact (hsubc.map _).nodup (h.nodup p hp)
    · rw [ecell p hpi]; exact h.nodup p hp
  · intro j hj p a1 a2 a3
    rw [hn] at hj
    rw [eparent] at a1
    rw [ealive] at a2
    rw [ehp] at a3
    rw [epath]
    have := h.own j hj p a1 a2.1 a3
    by_cases hpi : p = i
    · subst hpi; rw [hself]; exact hkeep _ this a2.2
    · rw [ecell p hpi]; exact this
  · intro j hj k hk j0 k0 a1 a2 a3 a4
    rw [hn] at hj hk
    rw [ealive] at a1 a2
    rw [eparent, eparent] at a3
    rw [epath, epath] at a4
    exact h.uniq j hj k hk j0 k0 a1.1 a2.1 a3 a4
  · intro p hp c hc
    rw [hn] at hp
    obtain ⟨a1, a2, a3, a4, a5, a6⟩ := h.att p hp c (hsm p _ hc)
    rw [eparent, epath, ehp, hn]
    refine ⟨a1, a2, a3, a4, a5, fun hpa => ?_⟩
    rw [ealive] at hpa ⊢
    refine ⟨a6 hpa.1, ?_⟩
    cases hd : D c.id with
    | false => rfl
    | true =>
      rcases (hD _ a2 hd).2.2.2 with b | ⟨-, b | ⟨p', b1, b2, b3⟩⟩
      · rw [a5] at b; simp at b
      · rw [a3] at b
        have hpi : p = i := by simpa using b.1
        subst hpi
        rw [hself] at hc
        exact absurd hc (b.2 c rfl)
      · rw [a3] at b1
        have : p = p' := by simpa using b1
        subst this
        rw [hpa.2] at b3; simp at b3
  · intro p hp j
    rw [hn] at hp
    by_cases hpi : p = i
    · subst hpi; rw [hself]; exact Nat.le_trans (hsub.countP_le) (h.attc p hp j)
    · rw [esys p hpi]; exact h.attc p hp j
  · intro j hj j0 hp
    rw [hn] at hj
    rw [ehp] at hp
    by_cases hji : j = i
    · subst hji; rw [hself]; exact hfresh j0 (by rw [hhp]; exact hp)
    · rcases hoth j hji with e | ⟨-, e⟩ <;> rw [e]
      · exact h.fresh j hj j0 hp
      · exact (h.fresh j hj j0 hp).dead
  · intro j hj
    rw [hn] at hj
    by_cases hji : j = i
    · subst hji; rw [hself]; exact hloc
    · rcases hoth j hji with e | ⟨hd, e⟩ <;> rw [e]
      · exact h.loc j hj
      · refine (h.loc j hj).dead' ?_
        rcases (hD j hj hd).2.2.2 with b | b
        · exact .inl ⟨b.1, b.2.2.1⟩
        · exact .inr b.1
  · intro p hp q hq
    rw [hn] at hp
    obtain ⟨j, hj, a1, a2, a3, a4, a5, a6, a7⟩ := h.det p hp q (hsm p _ hq)
    have hji : j ≠ i := by intro e; subst e; rw [hstop] at a6; simp at a6
    refine ⟨j, by rw [hn]; exact hj, a1, by rw [eparent]; exact a2, by rw [epath]; exact a3, by rw [ehp]; exact a4, ?_, by rw [estop j hji]; exact a6,
      by rw [eout j hji]; exact a7⟩
    rw [ealive]
    refine ⟨a5, ?_⟩
    cases hd : D j with
    | false => rfl
    | true =>
      rcases (hD j hj hd).2.2.2 with b | b
      · rw [a2] at b
        have hpi : p = i := by simpa using b.2.2.2.1
        subst hpi
        rw [hself] at hq
        rw [a3] at b
        exact absurd hq b.2.2.2.2
      · rw [a4] at b; simp at b
  · intro p hp q
    rw [hn] at hp
    by_cases hpi : p = i
    · subst hpi; rw [hself]; exact Nat.le_trans (hsub.count_le _) (h.detc p hp q)
    · rw [esys p hpi]; exact h.detc p hp q
  · intro j hj p a1 a2 a3 a4
    rw [hn] at hj
    rw [eparent] at a1
    rw [ealive] at a2
    rw [ehp] at a3
    rw [epath]
    have j0 : 0 < j := by
      rcases Nat.eq_zero_or_pos j with j0 | j0
      · subst j0; rw [h.root.1] at a1; simp at a1
      · exact j0
    obtain ⟨p', hp', hpe⟩ := h.par j hj j0
    rw [a1] at hpe
    have hpj : p < j := by have : p = p' := by simpa using hpe
                           omega
    by_cases hji : j = i
    · subst hji
      rw [hself] at a4
      left
      rw [hself]
      refine ⟨hdet a4 (by rw [hhp]; exact a3), fun hx => ?_⟩
      have hx' := hsm _ _ hx
      obtain ⟨k, hk, b1, b2, b3, b4, b5, b6, b7⟩ := h.det p (by omega) _ hx'
      have := h.uniq k hk j hj b1 j0 b5 hal (by rw [b2, a1]) b3
      subst this
      rw [hstop] at b6; simp at b6
    · rw [estop j hji] at a4
      rw [eout j hji]
      rcases h.pend j hj p a1 a2.1 a3 a4 with b | b
      · exact .inl ⟨b.1, fun hx => b.2 (hsm _ _ hx)⟩
      · refine .inr ⟨b.1, ?_⟩
        by_cases hpi : p = i
        · subst hpi
          rw [hself]
          rcases hkept _ b.2 with c | c
          · exact c
          · have := c j hj j0 a2.1 a1 rfl a3
            rw [a2.2] at this; simp at this
        · rw [esys p hpi]; exact b.2
  · intro j hj p a1 a2 a3 a4 a5
    rw [hn] at hj
    rw [eparent] at a1
    rw [ealive] at a2
    rw [ehp] at a3
    rw [epath]
    have key : (s.act j).begun = false → (s.act j).stop = false → .startTo ⟨j, (s.act j).path⟩ ∈ (s'.act p).out ∨ .start true ∈ (s.act j).sys := by
      intro b1 b2
      refine (h.startp j hj p a1 a2.1 a3 b1 b2).imp (fun hx => ?_) id
      by_cases hpi : p = i
      · subst hpi; rw [hout] at hx; simp at hx
      · rw [eout p hpi]; exact hx
    by_cases hji : j = i
    · subst hji
      rw [hself] at a4 a5 ⊢
      have hb : (s.act j).begun = false := by
        cases hb : (s.act j).begun with
        | false => rfl
        | true => rw [hbegun hb] at a4; simp at a4
      exact (key hb hstop).imp id (hstart a4 a5)
    · rw [ebegun j hji] at a4
      rw [estop j hji] at a5
      rw [esys j hji]
      exact key a4 a5
  · intro j hj p a1
    rw [hn] at hj
    rw [eparent] at a1
    rw [epath]
    have h1 := h.once j hj p a1
    have h2 : (s'.act p).out.count (.startTo ⟨j, (s.act j).path⟩) ≤ (s.act p).out.count (.startTo ⟨j, (s.act j).path⟩) := by
      by_cases hpi : p = i
      · subst hpi; rw [hself, List.count_eq_zero_of_not_mem (hnost _)]; omega
      · rw [eout p hpi]; omega
    have h3 : (s'.act j).sys.countP isStartMsg + one (s'.act j).begun ≤ (s.act j).sys.countP isStartMsg + one (s.act j).begun := by
      by_cases hji : j = i
      · subst hji; rw [hself]; exact honce
      · rw [esys j hji, ebegun j hji]; omega
    omega
  · intro p hp c hc
    rw [hn] at hp
    by_cases hpi : p = i
    · subst hpi; rw [hself] at hc; exact absurd hc (hnost c)
    · rw [eout p hpi] at hc
      obtain ⟨a1, a2, a3, a4, a5, a6⟩ := h.outst p hp c hc
      rw [eparent, epath, ehp, hn, ealive]
      refine ⟨a1, a2, a3, a4, a5, a6, ?_⟩
      cases hd : D c.id with
      | false => rfl
      | true => have := hDp _ a2 hd a5; rw [a3] at this; simp at this; exact absurd this hpi
  · by_cases h0 : 0 = i
    · subst h0; rw [hself]
      have := h.rootst
      have := hsub.countP_le (p := isStartMsg)
      omega
    · rw [esys 0 h0]; exact h.rootst
  · intro p hp c hc
    rw [hn] at hp
    by_cases hpi : p = i
    · subst hpi; rw [hself] at hc ⊢; exact hpills c hc
    · rw [eout p hpi] at hc; rw [ecell p hpi]; exact h.pills p hp c hc
  · intro p hp ht c hc
    rw [hn] at hp
    by_cases hpi : p = i
    · subst hpi
      rw [hself] at hc ht ⊢
      rcases htoldk ht with b | b
      · rcases h.toldk p hp b c (hsubc.subset hc) with d | d
        · exact .inl (eTold _ d)
        · rw [hout] at d; simp at d
      · exact .inr (b c hc)
    · rw [ecell p hpi] at hc
      rw [etold p hpi] at ht
      rw [eout p hpi]
      exact (h.toldk p hp ht c hc).imp (eTold _) id
  · rw [← he]; rfl

/-- Actor `i` accepts the child `ch`. -/
def adopt (s : St) (i : Nat) (ch : Child) (rest : List Msg) : St :=
  ⟨s.n, fun j => if j = ch.id then (s.act j).adopted else if j = i then { s.act i with cell := { (s.act i).cell with children := (s.act i).cell.children ++ [ch] }, sys := rest, out := [.startTo ch] } else s.act j, false⟩

theorem Inv.adopt {s : St} (h : Inv s) {i : Nat} (hi : i < s.n) {ch : Child} {rest : List Msg} (hsys : (s.act i).sys = .attach ch :: rest)
    (hal : (s.act i).alive = true) (hout : (s.act i).out = []) (hstop : (s.act i).stop = false) (hns : (s.act i).cell.stopping = false) :
    Inv (ActorSteps.adopt s i ch rest) := by
  obtain ⟨c1, c2, c3, c4, c5, c6⟩ := h.att i hi ch (by rw [hsys]; exact List.mem_cons_self)
  have c7 := c6 hal
  have hF := h.fresh ch.id c2 c1 c5
  have hik : i < ch.id := by
    obtain ⟨p, hp, hpe⟩ := h.par ch.id c2 c1
    rw [c3] at hpe
    have : i = p := by simpa using hpe
    omega
  have hch : ch = ⟨ch.id, (s.act ch.id).path⟩ := by rw [c4]
  have hrest : ∀ c : Child, c.id = ch.id → .attach c ∉ rest := by
    intro c hc hm
    have h1 := h.attc i hi ch.id
    rw [hsys, List.countP_cons] at h1
    have h2 : 0 < rest.countP (carries ch.id) := by
      rw [List.countP_pos_iff]
      exact ⟨_, hm, by simp [carries, hc]⟩
    rw [if_pos (by simp [carries])] at h1
    omega
  have hnf : 0 < i → (s.act i).cell.hasParent = true := by
    intro h0
    cases hp : (s.act i).cell.hasParent with
    | true => rfl
    | false =>
      have := (h.fresh i hi h0 hp).sys (.attach ch) (by rw [hsys]; exact List.mem_cons_self)
      simp [Harmless] at this
  generalize he : ActorSteps.adopt s i ch rest = s'
  have hn : s'.n = s.n := by rw [← he]; rfl
  have hk : s'.act ch.id = (s.act ch.id).adopted := by rw [← he]; simp [ActorSteps.adopt]
  have hi' : s'.act i = { s.act i with cell := { (s.act i).cell with children := (s.act i).cell.children ++ [ch] }, sys := rest, out := [.startTo ch] } := by
    rw [← he]; simp [ActorSteps.adopt, show i ≠ ch.id by omega]
  have hoth : ∀ j, j ≠ ch.id → j ≠ i → s'.act j = s.act j := by
    intro j h1 h2; rw [← he]; simp [ActorSteps.adopt, h1, h2]
  have eparent : ∀ j, (s'.act j).parent = (s.act j).parent := by
    intro j
    by_cases h1 : j = ch.id
    · subst h1; rw [hk]; rfl
    · by_cases h2 : j = i
      · subst h2; rw [hi']
      · rw [hoth j h1 h2]
  have epath : ∀ j, (s'.act j).path = (s.act j).path := by
    intro j
    by_cases h1 : j = ch.id
    · subst h1; rw [hk]; rfl
    · by_cases h2 : j = i
      · subst h2; rw [hi']
      · rw [hoth j h1 h2]
  have eok : ∀ j, (s'.act j).ok = (s.act j).ok := by
    intro j
    by_cases h1 : j = ch.id
    · subst h1; rw [hk]; rfl
    · by_cases h2 : j = i
      · subst h2; rw [hi']
      · rw [hoth j h1 h2]
  have ealive : ∀ j, (s'.act j).alive = (s.act j).alive := by
    intro j
    by_cases h1 : j = ch.id
    · subst h1; rw [hk]; rfl
    · by_cases h2 : j = i
      · subst h2; rw [hi']
      · rw [hoth j h1 h2]
  have ebegun : ∀ j, (s'.act j).begun = (s.act j).begun := by
    intro j
    by_cases h1 : j = ch.id
    · subst h1; rw [hk]; rfl
    · by_cases h2 : j = i
      · subst h2; rw [hi']
      · rw [hoth j h1 h2]
  have estop : ∀ j, (s'.act j).stop = (s.act j).stop := by
    intro j
    by_cases h1 : j = ch.id
    · subst h1; rw [hk]; rfl
    · by_cases h2 : j = i
      · subst h2; rw [hi']
      · rw [hoth j h1 h2]
  have etold : ∀ j, (s'.act j).told = (s.act j).told := by
    intro j
    by_cases h1 : j = ch.id
    · subst h1; rw [hk]; rfl
    · by_cases h2 : j = i
      · subst h2; rw [hi']
      · rw [hoth j h1 h2]
  have ehp : ∀ j, j ≠ ch.id → (s'.act j).cell.hasParent = (s.act j).cell.hasParent := by
    intro j h1
    by_cases h2 : j = i
    · subst h2; rw [hi']
    · rw [hoth j h1 h2]
  have ehp' : ∀ j, (s.act j).cell.hasParent = true → (s'.act j).cell.hasParent = true := by
    intro j h1
    by_cases h2 : j = ch.id
    · subst h2; rw [hk]; rfl
    · rw [ehp j h2]; exact h1
  have echildren : ∀ j, j ≠ i → (s'.act j).cell.children = (s.act j).cell.children := by
    intro j h2
    by_cases h1 : j = ch.id
    · subst h1; rw [hk]; rfl
    · rw [hoth j h1 h2]
  have esys : ∀ j, j ≠ i → (s'.act j).sys = (s.act j).sys := by
    intro j h2
    by_cases h1 : j = ch.id
    · subst h1; rw [hk]; rfl
    · rw [hoth j h1 h2]
  have eusr : ∀ j, (s'.act j).usr = (s.act j).usr := by
    intro j
    by_cases h1 : j = ch.id
    · subst h1; rw [hk]; rfl
    · by_cases h2 : j = i
      · subst h2; rw [hi']
      · rw [hoth j h1 h2]
  have eout : ∀ j, j ≠ i → (s'.act j).out = (s.act j).out := by
    intro j h2
    by_cases h1 : j = ch.id
    · subst h1; rw [hk]; rfl
    · rw [hoth j h1 h2]
  have hsysi : (s'.act i).sys = rest := by rw [hi']
  have houti : (s'.act i).out = [.startTo ch] := by rw [hi']
  have hchi : (s'.act i).cell.children = (s.act i).cell.children ++ [ch] := by rw [hi']
  have hin : ∀ j x, x ≠ .attach ch → (x ∈ (s'.act j).sys ↔ x ∈ (s.act j).sys) := by
    intro j x hx
    by_cases h2 : j = i
    · subst h2; rw [hsysi, hsys]; simp [hx]
    · rw [esys j h2]
  have hsm : ∀ j x, x ∈ (s'.act j).sys → x ∈ (s.act j).sys := by
    intro j x hx
    by_cases h2 : j = i
    · subst h2; rw [hsysi] at hx; rw [hsys]; exact List.mem_cons_of_mem _ hx
    · rwa [esys j h2] at hx
  have hcp : ∀ (q : Msg → Bool) j, (s'.act j).sys.countP q ≤ (s.act j).sys.countP q := by
    intro q j
    by_cases h2 : j = i
    · subst h2; rw [hsysi, hsys, List.countP_cons]; omega
    · rw [esys j h2]; omega
  have hnew : ch ∉ (s.act i).cell.children := by
    intro hm
    have := (h.chd i hi ch hm).2.2.2.2.2
    rw [c5] at this; simp at this
  have eTold : ∀ j, Told (s.act j) → Told (s'.act j) := by
    intro j ht
    unfold Told
    rw [hin _ _ (by simp), eusr, etold, estop]
    rcases ht with ht | ht | ht | ht | ht
    · exact .inl ht
    · exact .inr (.inl ht)
    · by_cases h2 : j = i
      · subst h2; rw [hout] at ht; simp at ht
      · rw [eout j h2]; exact .inr (.inr (.inl ht))
    · exact .inr (.inr (.inr (.inl ht)))
    · exact .inr (.inr (.inr (.inr ht)))
  constructor
  · rw [hn]; exact h.pos
  · rw [eparent, ehp 0 (by omega), ebegun, ealive]; exact h.root
  · simp only [hn, eparent]; exact h.par
  · simp only [hn, eok]; exact h.okk
  · intro p hp c hc
    rw [hn] at hp ⊢
    have key : c ∈ (s.act p).cell.children → 0 < c.id ∧ c.id < s.n ∧ (s'.act c.id).parent = some p ∧ (s'.act c.id).path = c.path ∧ (s'.act c.id).alive = true ∧ (s'.act c.id).cell.hasParent = true := by
      intro hc
      obtain ⟨a1, a2, a3, a4, a5, a6⟩ := h.chd p hp c hc
      exact ⟨a1, a2, by rw [eparent]; exact a3, by rw [epath]; exact a4, by rw [ealive]; exact a5, ehp' _ a6⟩
    by_cases hpi : p = i
    · subst hpi
      rw [hchi] at hc
      simp at hc
      rcases hc with hc | hc
      · exact key hc
      · subst hc
        exact ⟨c1, c2, by rw [eparent]; exact c3, by rw [epath]; exact c4, by rw [ealive]; exact c7, by rw [hk]; rfl⟩
    · rw [echildren p hpi] at hc; exact key hc
  · intro p hp
    rw [hn] at hp
    by_cases hpi : p = i
    · subst hpi
      rw [hchi, List.map_append, List.nodup_append]
      refine ⟨h.nodup p hp, by simp, ?_⟩
      intro a ha b hb hab
      simp at hb
      subst hb
      subst hab
      simp at ha
      obtain ⟨c, hc, hce⟩ := ha
      have := (h.chd p hp c hc).2.2.2.2.2
      rw [hce, c5] at this; simp at this
    · rw [echildren p hpi]; exact h.nodup p hp
  · intro j hj p a1 a2 a3
    rw [hn] at hj
    rw [eparent] at a1
    rw [ealive] at a2
    rw [epath]
    by_cases hjc : j = ch.id
    · subst hjc
      rw [c3] at a1
      have : i = p := by simpa using a1
      subst this
      rw [hchi, ← hch]; simp
    · rw [ehp j hjc] at a3
      have := h.own j hj p a1 a2 a3
      by_cases hpi : p = i
      · subst hpi; rw [hchi]; simp [this]
      · rw [echildren p hpi]; exact this
  · simp only [hn, eparent, epath, ealive]; exact h.uniq
  · intro p hp c hc
    rw [hn] at hp ⊢
    obtain ⟨a1, a2, a3, a4, a5, a6⟩ := h.att p hp c (hsm p _ hc)
    have hne : c.id ≠ ch.id := by
      intro e
      rw [e, c3] at a3
      have : i = p := by simpa using a3
      subst this
      rw [hsysi] at hc
      exact hrest c e hc
    exact ⟨a1, a2, by rw [eparent]; exact a3, by rw [epath]; exact a4, by rw [ehp _ hne]; exact a5, by rw [ealive, ealive]; exact a6⟩
  · intro p hp j
    rw [hn] at hp
    exact Nat.le_trans (hcp _ _) (h.attc p hp j)
  · intro j hj j0 hp
    rw [hn] at hj
    have h1 : j ≠ ch.id := by intro e; subst e; rw [hk] at hp; simp [Act.adopted] at hp
    rw [ehp j h1] at hp
    have h2 : j ≠ i := by intro e; subst e; rw [hnf j0] at hp; simp at hp
    rw [hoth j h1 h2]
    exact h.fresh j hj j0 hp
  · intro j hj
    rw [hn] at hj
    have hl := h.loc j hj
    by_cases h1 : j = ch.id
    · subst h1
      rw [hk]
      exact ⟨hl.stopped, hl.openn, hl.shut, hl.begun, hl.started, hl.waits, hl.told, hl.start, fun hd => by simp [Act.adopted, hF.out] at hd, fun hd => by simp [Act.adopted, c7] at hd,
        hl.sys, hl.usr, hl.life0, hl.life1, hl.life2⟩
    · by_cases h2 : j = i
      · subst h2
        have hlife : life (s'.act j) = life (s.act j) := by rw [hi']; simp [life, hout, Eff.isLife]
        constructor
        · rw [estop, hstop]; simp
        · rw [ealive, estop, hi']; exact hl.openn
        · rw [ealive, estop, hi']; exact hl.shut
        · rw [ebegun, hi']; exact hl.begun
        · rw [ebegun, estop, hi']; exact hl.started
        · intro _ _; rw [hchi]; simp
        · rw [etold, hi']; exact hl.told
        · intro ok hx; exact hl.start ok (hsm _ _ hx)
        · rw [houti]; simp
        · rw [ealive, hal]; simp
        · intro m hm; exact hl.sys m (hsm _ _ hm)
        · rw [eusr]; exact hl.usr
        · rw [ebegun, hlife]; exact hl.life0
        · rw [ebegun, estop, hlife]; exact hl.life1
        · rw [ebegun, estop, hlife]; exact hl.life2
      · rw [hoth j h1 h2]; exact hl
  · intro p hp q hq
    rw [hn] at hp
    obtain ⟨j, hj, a1, a2, a3, a4, a5, a6, a7⟩ := h.det p hp q (hsm p _ hq)
    refine ⟨j, by rw [hn]; exact hj, a1, by rw [eparent]; exact a2, by rw [epath]; exact a3, ehp' _ a4, by rw [ealive]; exact a5, by rw [estop]; exact a6, ?_⟩
    rw [eout j (by intro e; subst e; rw [hstop] at a6; simp at a6)]
    exact a7
  · intro p hp q
    rw [hn] at hp
    exact Nat.le_trans (hcp _ _) (h.detc p hp q)
  · intro j hj p a1 a2 a3 a4
    rw [hn] at hj
    rw [eparent] at a1
    rw [ealive] at a2
    rw [estop] at a4
    have h1 : j ≠ ch.id := by intro e; subst e; rw [hF.stop] at a4; simp at a4
    have h2 : j ≠ i := by intro e; subst e; rw [hstop] at a4; simp at a4
    rw [ehp j h1] at a3
    rw [epath, eout j h2, hin _ _ (by simp)]
    exact h.pend j hj p a1 a2 a3 a4
  · intro j hj p a1 a2 a3 a4 a5
    rw [hn] at hj
    rw [eparent] at a1
    rw [ealive] at a2
    rw [ebegun] at a4
    rw [estop] at a5
    rw [epath, hin _ _ (by simp)]
    by_cases h1 : j = ch.id
    · subst h1
      rw [c3] at a1
      have : i = p := by simpa using a1
      subst this
      left
      rw [houti, ← hch]; simp
    · rw [ehp j h1] at a3
      refine (h.startp j hj p a1 a2 a3 a4 a5).imp (fun hx => ?_) id
      by_cases hpi : p = i
      · subst hpi; rw [hout] at hx; simp at hx
      · rw [eout p hpi]; exact hx
  · intro j hj p a1
    rw [hn] at hj
    rw [eparent] at a1
    rw [epath, ebegun]
    have b := h.once j hj p a1
    have b2 := hcp isStartMsg j
    by_cases h1 : j = ch.id
    · subst h1
      have b3 : (s.act ch.id).sys.countP isStartMsg = 0 := by
        rw [List.countP_eq_zero]
        intro m hm
        have := hF.sys m hm
        cases m <;> simp [Harmless] at this <;> simp [isStartMsg]
      rw [c3] at a1
      have : i = p := by simpa using a1
      subst this
      rw [houti, hF.begun, ← hch]
      simp [one]
      omega
    · by_cases hpi : p = i
      · subst hpi
        have b4 : Eff.startTo ch ≠ .startTo ⟨j, (s.act j).path⟩ := by
          intro e
          have : ch = ⟨j, (s.act j).path⟩ := by simpa using e
          exact h1 (by rw [this])
        rw [houti, List.count_cons_of_ne b4]
        simp
        omega
      · rw [eout p hpi]; omega
  · intro p hp c hc
    rw [hn] at hp ⊢
    by_cases hpi : p = i
    · subst hpi
      rw [houti] at hc
      simp at hc
      subst hc
      exact ⟨c1, c2, by rw [eparent]; exact c3, by rw [epath]; exact c4, by rw [hk]; rfl, by rw [ealive]; exact c7⟩
    · rw [eout p hpi] at hc
      obtain ⟨a1, a2, a3, a4, a5, a6⟩ := h.outst p hp c hc
      exact ⟨a1, a2, by rw [eparent]; exact a3, by rw [epath]; exact a4, ehp' _ a5, by rw [ealive]; exact a6⟩
  · have := hcp isStartMsg 0
    have := h.rootst
    omega
  · intro p hp c hc
    rw [hn] at hp
    by_cases hpi : p = i
    · subst hpi; rw [houti] at hc; simp at hc
    · rw [eout p hpi] at hc; rw [echildren p hpi]; exact h.pills p hp c hc
  · intro p hp ht c hc
    rw [hn] at hp
    rw [etold] at ht
    by_cases hpi : p = i
    · subst hpi; rw [(h.loc p hp).told ht] at hns; simp at hns
    · rw [echildren p hpi] at hc
      rw [eout p hpi]
      exact (h.toldk p hp ht c hc).imp (eTold _) id
  · rw [← he]; rfl

/-! ### A new actor -/

theorem Inv.create {s : St} (h : Inv s) {p path : Nat} (hp : p < s.n) (hop : (s.act p).isOpen = true) (hb : (s.act p).begun = true)
    (hu : ∀ j < s.n, (s.act j).alive = true → (s.act j).parent = some p → (s.act j).path ≠ path) :
    Inv { (s.upd p ((s.act p).pushSys (.attach ⟨s.n, path⟩))).upd s.n (Act.new p path true) with n := s.n + 1 } := by
  have hF : Frame s (s.upd p ((s.act p).pushSys (.attach ⟨s.n, path⟩))) := frame_pushSys _ _ _
  generalize he : { (s.upd p ((s.act p).pushSys (.attach ⟨s.n, path⟩))).upd s.n (Act.new p path true) with n := s.n + 1 } = s'
  have hn : s'.n = s.n + 1 := by rw [← he]
  have hnew : s'.act s.n = Act.new p path true := by rw [← he]; simp [St.upd]
  have hact : ∀ j < s.n, s'.act j = (s.upd p ((s.act p).pushSys (.attach ⟨s.n, path⟩))).act j := by
    intro j hj; rw [← he]; exact upd_ne _ _ (by omega)
  have hlt : ∀ j, j < s.n + 1 → j < s.n ∨ j = s.n := by intro j hj; omega
  have ecell : ∀ j < s.n, (s'.act j).cell = (s.act j).cell := fun j hj => by rw [hact j hj, hF.cell]
  have ealive : ∀ j < s.n, (s'.act j).alive = (s.act j).alive := fun j hj => by rw [hact j hj, hF.alive]
  have estop : ∀ j < s.n, (s'.act j).stop = (s.act j).stop := fun j hj => by rw [hact j hj, hF.stop]
  have ebegun : ∀ j < s.n, (s'.act j).begun = (s.act j).begun := fun j hj => by rw [hact j hj, hF.begun]
  have eparent : ∀ j < s.n, (s'.act j).parent = (s.act j).parent := fun j hj => by rw [hact j hj, hF.parent]
  have epath : ∀ j < s.n, (s'.act j).path = (s.act j).path := fun j hj => by rw [hact j hj, hF.path]
  have eok : ∀ j < s.n, (s'.act j).ok = (s.act j).ok := fun j hj => by rw [hact j hj, hF.okk]
  have etold : ∀ j < s.n, (s'.act j).told = (s.act j).told := fun j hj => by rw [hact j hj, hF.told]
  have eout : ∀ j < s.n, (s'.act j).out = (s.act j).out := fun j hj => by rw [hact j hj, out_pushSys]
  have esys : ∀ j < s.n, (s'.act j).sys = if j = p ∧ (s.act p).isOpen = true then (s.act j).sys ++ [.attach ⟨s.n, path⟩] else (s.act j).sys :=
    fun j hj => by rw [hact j hj, sys_pushSys]
  have eTold : ∀ j < s.n, Told (s.act j) → Told (s'.act j) := by
    intro j hj ht
    rw [hact j hj]
    exact ht.upd fun h => h.pushSys _
  have hmem : ∀ j < s.n, ∀ x, x ∈ (s'.act j).sys → x ∈ (s.act j).sys ∨ (j = p ∧ x = .attach ⟨s.n, path⟩) := by
    intro j hj x hx
    rw [esys j hj] at hx
    split at hx
    · rename_i e; simp at hx; rcases hx with hx | hx
      · exact .inl hx
      · exact .inr ⟨e.1, hx⟩
    · exact .inl hx
  have hin : ∀ j < s.n, ∀ x, x ∈ (s.act j).sys → x ∈ (s'.act j).sys := by
    intro j hj x hx
    rw [esys j hj]; split <;> simp [hx]
  have hcnt : ∀ (q : Msg → Bool) j, j < s.n → q (.attach ⟨s.n, path⟩) = false → (s'.act j).sys.countP q = (s.act j).sys.countP q := by
    intro q j hj hq
    rw [esys j hj]; split <;> simp [hq]
  have hpar : ∀ j < s.n, ∀ q, (s.act j).parent = some q → q < s.n := by
    intro j hj q hq
    rcases Nat.eq_zero_or_pos j with j0 | j0
    · subst j0; rw [h.root.1] at hq; simp at hq
    · obtain ⟨p', h1, h2⟩ := h.par j hj j0
      rw [hq] at h2
      have : q = p' := by simpa using h2
      omega
  have hnp : (s'.act s.n).parent = some p := by rw [hnew]; rfl
  have hnoc : ∀ q < s.n, ∀ c : Child, c.id = s.n → c ∉ (s.act q).cell.children := by
    intro q hq c hc hm
    have := (h.chd q hq c hm).2.1
    omega
  constructor
  · rw [hn]; omega
  · have h0 := h.pos
    rw [eparent 0 h0, ecell 0 h0, ebegun 0 h0, ealive 0 h0]; exact h.root
  · intro j hj j0
    rw [hn] at hj
    rcases hlt j hj with hj | hj
    · rw [eparent j hj]; exact h.par j hj j0
    · subst hj; exact ⟨p, hp, hnp⟩
  · intro j hj
    rw [hn] at hj
    rcases hlt j hj with hj | hj
    · rw [eok j hj]; exact h.okk j hj
    · subst hj; rw [hnew]; rfl
  · intro q hq c hc
    rw [hn] at hq ⊢
    rcases hlt q hq with hq | hq
    · rw [ecell q hq] at hc
      obtain ⟨a1, a2, a3, a4, a5, a6⟩ := h.chd q hq c hc
      rw [eparent _ a2, epath _ a2, ealive _ a2, ecell _ a2]
      exact ⟨a1, by omega, a3, a4, a5, a6⟩
    · subst hq; rw [hnew] at hc; simp [Act.new, Cell.fresh] at hc
  · intro q hq
    rw [hn] at hq
    rcases hlt q hq with hq | hq
    · rw [ecell q hq]; exact h.nodup q hq
    · subst hq; rw [hnew]; simp [Act.new, Cell.fresh]
  · intro j hj q a1 a2 a3
    rw [hn] at hj
    rcases hlt j hj with hj | hj
    · rw [eparent j hj] at a1
      rw [ealive j hj] at a2
      rw [ecell j hj] at a3
      rw [epath j hj, ecell q (hpar j hj q a1)]
      exact h.own j hj q a1 a2 a3
    · subst hj; rw [hnew] at a3; simp [Act.new, Cell.fresh] at a3
  · intro j hj k hk j0 k0 a1 a2 a3 a4
    rw [hn] at hj hk
    rcases hlt j hj with hj | hj <;> rcases hlt k hk with hk | hk
    · rw [ealive j hj] at a1
      rw [ealive k hk] at a2
      rw [eparent j hj, eparent k hk] at a3
      rw [epath j hj, epath k hk] at a4
      exact h.uniq j hj k hk j0 k0 a1 a2 a3 a4
    · subst hk
      rw [ealive j hj] at a1
      rw [eparent j hj, hnp] at a3
      rw [epath j hj, hnew] at a4
      exact absurd a4 (hu j hj a1 a3)
    · subst hj
      rw [ealive k hk] at a2
      rw [eparent k hk, hnp] at a3
      rw [epath k hk, hnew] at a4
      exact absurd a4.symm (hu k hk a2 a3.symm)
    · omega
  · intro q hq c hc
    rw [hn] at hq ⊢
    rcases hlt q hq with hq | hq
    · rcases hmem q hq _ hc with b | ⟨b1, b2⟩
      · obtain ⟨a1, a2, a3, a4, a5, a6⟩ := h.att q hq c b
        rw [eparent _ a2, epath _ a2, ealive _ a2, ecell _ a2, ealive _ hq]
        exact ⟨a1, by omega, a3, a4, a5, a6⟩
      · subst b1
        simp at b2
        subst b2
        dsimp only
        rw [hnew]
        exact ⟨by have := h.pos; omega, by omega, rfl, rfl, rfl, fun _ => rfl⟩
    · subst hq; rw [hnew] at hc; simp [Act.new] at hc
  · intro q hq j
    rw [hn] at hq
    rcases hlt q hq with hq | hq
    · by_cases hj : j = s.n
      · subst hj
        have : (s.act q).sys.countP (carries s.n) = 0 := by
          rw [List.countP_eq_zero]
          intro m hm hc
          cases m <;> simp [carries] at hc
          rename_i c
          have := (h.att q hq c hm).2.1
          omega
        rw [esys q hq]
        split
        · rw [List.countP_append, this]; simp [carries]
        · omega
      · rw [hcnt _ q hq (by simp [carries]; omega)]; exact h.attc q hq j
    · subst hq; rw [hnew]; simp [Act.new]
  · intro j hj j0 a1
    rw [hn] at hj
    rcases hlt j hj with hj | hj
    · rw [ecell j hj] at a1
      have hf := h.fresh j hj j0 a1
      have : j ≠ p := by intro e; subst e; rw [hf.begun] at hb; simp at hb
      rw [hact j hj, upd_ne _ _ this]
      exact hf
    · subst hj; rw [hnew]; constructor <;> simp [Act.new, Cell.fresh]
  · intro j hj
    rw [hn] at hj
    rcases hlt j hj with hj | hj
    · rw [hact j hj, upd_act]
      split
      · rename_i e; subst e
        rw [pushSys_eq]
        refine (h.loc j hj).sysMore rfl ?_
        intro x hx
        dsimp only at hx
        rw [if_pos hop] at hx
        simp at hx
        rcases hx with hx | hx
        · exact .inl hx
        · subst hx; exact .inr ⟨rfl, by simp [isStartMsg]⟩
      · exact h.loc j hj
    · subst hj; rw [hnew]; constructor <;> simp [Act.new, Cell.fresh, life]
  · intro q hq x hx
    rw [hn] at hq
    rcases hlt q hq with hq | hq
    · rcases hmem q hq _ hx with b | ⟨-, b⟩
      · obtain ⟨j, hj, a⟩ := h.det q hq x b
        refine ⟨j, by omega, ?_⟩
        rw [eparent j hj, epath j hj, ecell j hj, ealive j hj, estop j hj, eout j hj]
        exact a
      · simp at b
    · subst hq; rw [hnew] at hx; simp [Act.new] at hx
  · intro q hq x
    rw [hn] at hq
    rcases hlt q hq with hq | hq
    · rw [List.count, hcnt _ q hq (by simp)]; exact h.detc q hq x
    · subst hq; rw [hnew]; simp [Act.new]
  · intro j hj q a1 a2 a3 a4
    rw [hn] at hj
    rcases hlt j hj with hj | hj
    · rw [eparent j hj] at a1
      rw [ealive j hj] at a2
      rw [ecell j hj] at a3
      rw [estop j hj] at a4
      have hq := hpar j hj q a1
      rw [epath j hj, eout j hj]
      rcases h.pend j hj q a1 a2 a3 a4 with b | b
      · refine .inl ⟨b.1, fun hx => ?_⟩
        rcases hmem q hq _ hx with c | ⟨-, c⟩
        · exact b.2 c
        · simp at c
      · exact .inr ⟨b.1, hin q hq _ b.2⟩
    · subst hj; rw [hnew] at a3; simp [Act.new, Cell.fresh] at a3
  · intro j hj q a1 a2 a3 a4 a5
    rw [hn] at hj
    rcases hlt j hj with hj | hj
    · rw [eparent j hj] at a1
      rw [ealive j hj] at a2
      rw [ecell j hj] at a3
      rw [ebegun j hj] at a4
      rw [estop j hj] at a5
      rw [epath j hj, eout q (hpar j hj q a1)]
      exact (h.startp j hj q a1 a2 a3 a4 a5).imp id (hin j hj _)
    · subst hj; rw [hnew] at a3; simp [Act.new, Cell.fresh] at a3
  · intro j hj q a1
    rw [hn] at hj
    rcases hlt j hj with hj | hj
    · rw [eparent j hj] at a1
      rw [epath j hj, eout q (hpar j hj q a1), ebegun j hj, hcnt _ j hj (by simp [isStartMsg])]
      exact h.once j hj q a1
    · subst hj
      rw [hnp] at a1
      have : p = q := by simpa using a1
      subst this
      rw [eout p hp, hnew, List.count_eq_zero_of_not_mem]
      · simp [Act.new, one]
      · intro hm
        have := (h.outst p hp _ hm).2.1
        simp at this
  · intro q hq c hc
    rw [hn] at hq ⊢
    rcases hlt q hq with hq | hq
    · rw [eout q hq] at hc
      obtain ⟨a1, a2, a3, a4, a5, a6⟩ := h.outst q hq c hc
      rw [eparent _ a2, epath _ a2, ealive _ a2, ecell _ a2]
      exact ⟨a1, by omega, a3, a4, a5, a6⟩
    · subst hq; rw [hnew] at hc; simp [Act.new] at hc
  · rw [hcnt _ 0 h.pos (by simp [isStartMsg])]; exact h.rootst
  · intro q hq c hc
    rw [hn] at hq
    rcases hlt q hq with hq | hq
    · rw [eout q hq] at hc; rw [ecell q hq]; exact h.pills q hq c hc
    · subst hq; rw [hnew] at hc; simp [Act.new] at hc
  · intro q hq ht c hc
    rw [hn] at hq
    rcases hlt q hq with hq | hq
    · rw [ecell q hq] at hc
      rw [etold q hq] at ht
      rw [eout q hq]
      exact (h.toldk q hq ht c hc).imp (eTold _ (h.chd q hq c hc).2.1) id
    · subst hq; rw [hnew] at hc; simp [Act.new, Cell.fresh] at hc
  · rw [← he]; exact h.nub

/-! ### One message -/

/-- The actor after taking a message. -/
def taken (a : Act) (m : Msg) (sys usr : List Msg) : Act :=
  { a with cell := (process a.cell m).1, sys := sys, usr := usr, out := (process a.cell m).2.1.filter (fun e => !isDestroy e), stop := (process a.cell m).2.2, begun := a.begun || isStartMsg m, told := a.told || (m == .stop && !(process a.cell m).2.2) }

theorem stopImpl_nodestroy (c : Cell) : (stopImpl c).2.filter (fun e => !isDestroy e) = (stopImpl c).2 := by
  rw [List.filter_eq_self]
  intro e he
  unfold stopImpl at he
  simp only [List.mem_append, List.mem_map] at he
  rcases he with (he | ⟨w, -, he⟩) | he
  · split at he <;> simp at he; subst he; rfl
  · subst he; rfl
  · split at he <;> simp at he; subst he; rfl

theorem stopImpl_novictim (c : Cell) : (stopImpl c).2.findSome? victim = none := by
  rw [List.findSome?_eq_none_iff]
  intro e he
  unfold stopImpl at he
  simp only [List.mem_append, List.mem_map] at he
  rcases he with (he | ⟨w, -, he⟩) | he
  · split at he <;> simp at he; subst he; rfl
  · subst he; rfl
  · split at he <;> simp at he; subst he; rfl

theorem stopImpl_kinds (c : Cell) : (∀ ch, .startTo ch ∉ (stopImpl c).2) ∧ (∀ ch, .pillTo ch ∉ (stopImpl c).2) ∧ (c.hasParent = true → .detachToParent ∈ (stopImpl c).2) := by
  refine ⟨fun ch he => ?_, fun ch he => ?_, fun hp => ?_⟩
  · unfold stopImpl at he
    simp only [List.mem_append, List.mem_map] at he
    rcases he with (he | ⟨w, -, he⟩) | he
    · split at he <;> simp at he
    · simp at he
    · split at he <;> simp at he
  · unfold stopImpl at he
    simp only [List.mem_append, List.mem_map] at he
    rcases he with (he | ⟨w, -, he⟩) | he
    · split at he <;> simp at he
    · simp at he
    · split at he <;> simp at he
  · simp [stopImpl, hp]

/-- An actor that has no children any more stops. -/
theorem Loc.stops {a : Act} (h : Loc a) (hout : a.out = []) (hstop : a.stop = false) (hal : a.alive = true) (c : Cell) (hc : c.children = [])
    (hst : c.started = a.cell.started) (hng : c.stopping = a.cell.stopping) (rest usr : List Msg) (hrest : ∀ m ∈ rest, m ∈ a.sys) (husr : usr = a.usr) :
    Loc { a with cell := (stopImpl c).1, sys := rest, usr := usr, out := (stopImpl c).2, stop := true } := by
  have hl : life a = a.log.filter Eff.isLife := by simp [life, hout]
  have hl' : life { a with cell := (stopImpl c).1, sys := rest, usr := usr, out := (stopImpl c).2, stop := true } = life a ++ if c.started then [.postStop] else [] := by
    rw [hl]; simp only [life, List.filter_append, life_stopImpl]
  subst husr
  constructor
  · intro _; exact ⟨hc, rfl⟩
  · intro _ hs; simp at hs
  · intro hd; rw [hal] at hd; simp at hd
  · intro hs; simp [stopImpl] at hs
  · intro _ hs; simp at hs
  · intro _ hs; simp at hs
  · intro ht
    show c.stopping = true
    rw [hng]; exact h.told ht
  · intro ok hm; exact h.start ok (hrest _ hm)
  · intro hd
    dsimp only at hd ⊢
    have hp : c.hasParent = true := by
      cases hp : c.hasParent with
      | true => rfl
      | false =>
        unfold stopImpl at hd
        simp only [List.mem_append, List.mem_map, hp] at hd
        rcases hd with (hd | ⟨w, -, hd⟩) | hd
        · split at hd <;> simp at hd
        · simp at hd
        · simp at hd
    refine ⟨rfl, hp, (if c.started then [.postStop] else []) ++ c.watchers.map .tellTerminated, by simp [stopImpl, hp], ?_⟩
    intro hx
    simp only [List.mem_append, List.mem_map] at hx
    rcases hx with hx | ⟨w, -, hx⟩
    · split at hx <;> simp at hx
    · simp at hx
  · intro hd; rw [hal] at hd; simp at hd
  · intro m hm; exact h.sys m (hrest _ hm)
  · exact h.usr
  · intro hb
    rw [hl', h.life0 hb]
    have : c.started = false := by
      rw [hst]
      cases hs : a.cell.started with
      | false => rfl
      | true => have := h.begun hs; dsimp only at hb; rw [this] at hb; simp at hb
    simp [this]
  · intro _ hs; simp at hs
  · intro hb _
    obtain ⟨rs, h1, h2⟩ := h.life1 hb hstop
    refine ⟨rs, h1, ?_⟩
    rw [hl', h2, hst, h.started hb hstop]
    simp

/-- Conditions under which actor `i` takes a message. -/
structure Ready (s : St) (i : Nat) : Prop where
  lt : i < s.n
  opn : (s.act i).isOpen = true
  out : (s.act i).out = []
  stop : (s.act i).stop = false

theorem Ready.alive {s : St} {i : Nat} (h : Inv s) (r : Ready s i) : (s.act i).alive = true := by
  cases ha : (s.act i).alive with
  | true => rfl
  | false => have := (h.loc i r.lt).shut ha r.stop; rw [r.opn] at this; simp at this

theorem takeMsg_plain (s : St) (i : Nat) (m : Msg) (sys usr : List Msg) (h1 : adoptee (s.act i).cell m = none) (h2 : (process (s.act i).cell m).2.1.findSome? victim = none)
    (hu : s.ub = false) : takeMsg s i m sys usr = change s i (taken (s.act i) m sys usr) (fun _ => false) := by
  unfold takeMsg
  dsimp only
  rw [h1, h2]
  exact St.ext' rfl (fun j => by simp [change, upd_act, taken]) (by simp [change, hu])

/-- A message that changes neither the children nor destroys anything. -/
theorem Inv.plain {s : St} (h : Inv s) {i : Nat} (r : Ready s i) (m : Msg) (sys usr : List Msg)
    (h1 : adoptee (s.act i).cell m = none) (h2 : (process (s.act i).cell m).2.1.findSome? victim = none)
    (hc : (process (s.act i).cell m).1.children = (s.act i).cell.children) (hp : (process (s.act i).cell m).1.hasParent = (s.act i).cell.hasParent)
    (hloc : Loc (taken (s.act i) m sys usr)) (hfresh : 0 < i → (s.act i).cell.hasParent = false → Fresh (taken (s.act i) m sys usr))
    (hsub : sys.Sublist (s.act i).sys)
    (honce : sys.countP isStartMsg + one ((s.act i).begun || isStartMsg m) ≤ (s.act i).sys.countP isStartMsg + one (s.act i).begun)
    (hstart : isStartMsg m = false → .start true ∈ (s.act i).sys → .start true ∈ sys)
    (hnost : ∀ ch, .startTo ch ∉ (process (s.act i).cell m).2.1)
    (hpills : ∀ ch, .pillTo ch ∈ (process (s.act i).cell m).2.1 → ch ∈ (s.act i).cell.children)
    (hdet : (process (s.act i).cell m).2.2 = true → (s.act i).cell.hasParent = true → .detachToParent ∈ (process (s.act i).cell m).2.1)
    (htold : Told (s.act i) → Told (taken (s.act i) m sys usr))
    (htoldk : m = .stop → (process (s.act i).cell m).2.2 = false → ∀ ch ∈ (s.act i).cell.children, .pillTo ch ∈ (process (s.act i).cell m).2.1)
    (hkept : ∀ q, .detach q ∈ (s.act i).sys → .detach q ∈ sys) : Inv (takeMsg s i m sys usr) := by
  rw [takeMsg_plain s i m sys usr h1 h2 h.nub]
  have hal := r.alive h
  refine h.change r.lt _ _ hal r.out r.stop rfl rfl rfl hal hp hloc (fun h0 hp' => hfresh h0 (by rw [← hp]; exact hp')) hsub ?_ honce ?_ ?_ ?_ ?_ htold ?_ ?_ ?_ ?_ ?_ ?_
  · intro hb; simp [taken, hb]
  · intro hb _; simp only [taken, Bool.or_eq_false_iff] at hb; exact hstart hb.2
  · intro ch hx; simp only [taken, List.mem_filter] at hx; exact hnost ch hx.1
  · intro ch hx; simp only [taken, List.mem_filter] at hx; show ch ∈ (process (s.act i).cell m).1.children; rw [hc]; exact hpills ch hx.1
  · intro hs hp'
    simp only [taken, List.mem_filter]
    exact ⟨hdet hs (by rw [← hp]; exact hp'), rfl⟩
  · intro ht
    simp only [taken, Bool.or_eq_true, Bool.and_eq_true, beq_iff_eq, Bool.not_eq_true'] at ht
    rcases ht with ht | ⟨ht1, ht2⟩
    · exact .inl ht
    · right
      intro ch hch
      simp only [taken, List.mem_filter]
      refine ⟨htoldk ht1 ht2 ch ?_, rfl⟩
      rw [← hc]; exact hch
  · show (process (s.act i).cell m).1.children.Sublist _
    rw [hc]; exact List.Sublist.refl _
  · intros; rfl
  · intro ch hch _; show ch ∈ (process (s.act i).cell m).1.children; rw [hc]; exact hch
  · intro q hq; exact .inl (hkept q hq)
  · intro j _ hd; simp at hd

theorem Told.skip {a b : Act} {m : Msg} (h : Told a) (hout : a.out = []) (hsys : a.sys = m :: b.sys) (hm : m ≠ .stop) (husr : b.usr = a.usr) (htold : a.told = true → b.told = true)
    (hstop : a.stop = true → b.stop = true) : Told b := by
  rcases h with h | h | h | h | h
  · left; rw [hsys] at h; simpa [Ne.symm hm] using h
  · right; left; rw [husr]; exact h
  · rw [hout] at h; simp at h
  · exact .inr (.inr (.inr (.inl (htold h))))
  · exact .inr (.inr (.inr (.inr (hstop h))))

theorem Inv.notFresh {s : St} (h : Inv s) {i : Nat} (hi : i < s.n) {m : Msg} (hm : m ∈ (s.act i).sys) (hh : Harmless m = false) : 0 < i → (s.act i).cell.hasParent = true := by
  intro h0
  cases hp : (s.act i).cell.hasParent with
  | true => rfl
  | false => have := (h.fresh i hi h0 hp).sys m hm; rw [hh] at this; simp at this

/-- `Loc` of an actor that has taken a message and goes on. -/
theorem Loc.goes {a b : Act} (h : Loc a) (hout : a.out = []) (hstop : a.stop = false) (hal : a.alive = true)
    (hopn : a.isOpen = true) (bal : b.alive = true) (bopn : b.isOpen = true) (bstop : b.stop = false) (bbegun : b.begun = a.begun) (bst : b.cell.started = a.cell.started)
    (bwaits : b.cell.stopping = true → b.cell.children ≠ []) (btold : b.told = true → b.cell.stopping = true)
    (bsys : ∀ m ∈ b.sys, m ∈ a.sys) (busr : ∀ m ∈ b.usr, m ∈ a.usr) (blog : b.log = a.log) (bdet : .detachToParent ∉ b.out)
    (bout : b.out.filter Eff.isLife = [] ∨ (b.begun = true ∧ ∃ m, b.out.filter Eff.isLife = [.receive m])) : Loc b := by
  have hl : life a = a.log.filter Eff.isLife := by simp [life, hout]
  have hl' : life b = life a ++ b.out.filter Eff.isLife := by rw [hl]; simp [life, blog]
  constructor
  · intro hs; rw [bstop] at hs; simp at hs
  · intro _ _; exact bopn
  · intro hd; rw [bal] at hd; simp at hd
  · rw [bbegun, bst]; exact h.begun
  · rw [bbegun, bst]; intro hb _; exact h.started hb hstop
  · intro hs _; exact bwaits hs
  · exact btold
  · intro ok hm; exact h.start ok (bsys _ hm)
  · intro hd; exact absurd hd bdet
  · intro hd; rw [bal] at hd; simp at hd
  · intro m hm; exact h.sys m (bsys _ hm)
  · intro m hm; exact h.usr m (busr _ hm)
  · intro hb
    rcases bout with bo | ⟨bo, -⟩
    · rw [hl', bo, h.life0 (by rw [← bbegun]; exact hb)]; rfl
    · rw [hb] at bo; simp at bo
  · intro hb _
    obtain ⟨rs, r1, r2⟩ := h.life1 (by rw [← bbegun]; exact hb) hstop
    rcases bout with bo | ⟨-, m, bo⟩
    · exact ⟨rs, r1, by rw [hl', bo, r2]; simp⟩
    · refine ⟨rs ++ [.receive m], ?_, by rw [hl', bo, r2]; simp⟩
      intro e he
      simp at he
      rcases he with he | he
      · exact r1 e he
      · subst he; rfl
  · intro _ hs; rw [bstop] at hs; simp at hs

end Verif.ActorSteps
