import Verif.Model.ActorTree
import Verif.Lemmas.ActorCell
import Mathlib.Tactic.Set
set_option autoImplicit false

namespace Verif.ActorTree
open Verif.ActorCell

/-! ### Fields after a step -/

def killed (s : St) (es : List Eff) (k : Nat) : Bool := es.any (kills s k)

section push
variable (a : Act) (ms : List Msg)
@[simp] theorem pushSys_parent : (a.pushSys ms).parent = a.parent := by unfold Act.pushSys; split <;> rfl
@[simp] theorem pushUsr_parent : (a.pushUsr ms).parent = a.parent := by unfold Act.pushUsr; split <;> rfl
@[simp] theorem pushSys_path : (a.pushSys ms).path = a.path := by unfold Act.pushSys; split <;> rfl
@[simp] theorem pushUsr_path : (a.pushUsr ms).path = a.path := by unfold Act.pushUsr; split <;> rfl
@[simp] theorem pushSys_ok : (a.pushSys ms).ok = a.ok := by unfold Act.pushSys; split <;> rfl
@[simp] theorem pushUsr_ok : (a.pushUsr ms).ok = a.ok := by unfold Act.pushUsr; split <;> rfl
@[simp] theorem pushSys_told : (a.pushSys ms).told = a.told := by unfold Act.pushSys; split <;> rfl
@[simp] theorem pushUsr_told : (a.pushUsr ms).told = a.told := by unfold Act.pushUsr; split <;> rfl
@[simp] theorem pushSys_log : (a.pushSys ms).log = a.log := by unfold Act.pushSys; split <;> rfl
@[simp] theorem pushUsr_log : (a.pushUsr ms).log = a.log := by unfold Act.pushUsr; split <;> rfl
@[simp] theorem pushSys_isOpen : (a.pushSys ms).isOpen = a.isOpen := by unfold Act.pushSys; split <;> rfl
@[simp] theorem pushUsr_isOpen : (a.pushUsr ms).isOpen = a.isOpen := by unfold Act.pushUsr; split <;> rfl
@[simp] theorem pushSys_alive : (a.pushSys ms).alive = a.alive := by unfold Act.pushSys; split <;> rfl
@[simp] theorem pushUsr_alive : (a.pushUsr ms).alive = a.alive := by unfold Act.pushUsr; split <;> rfl
@[simp] theorem pushSys_cell : (a.pushSys ms).cell = a.cell := by unfold Act.pushSys; split <;> rfl
@[simp] theorem pushUsr_cell : (a.pushUsr ms).cell = a.cell := by unfold Act.pushUsr; split <;> rfl
@[simp] theorem pushSys_usr : (a.pushSys ms).usr = a.usr := by unfold Act.pushSys; split <;> rfl
@[simp] theorem pushUsr_sys : (a.pushUsr ms).sys = a.sys := by unfold Act.pushUsr; split <;> rfl
theorem pushSys_sys : (a.pushSys ms).sys = if a.isOpen then a.sys ++ ms else a.sys := by unfold Act.pushSys; split <;> rfl
theorem pushUsr_usr : (a.pushUsr ms).usr = if a.isOpen then a.usr ++ ms else a.usr := by unfold Act.pushUsr; split <;> rfl
end push

section deliver
variable (s : St) (i : Nat) (es : List Eff) (k : Nat)

@[simp] theorem deliver_parent : (deliver s i es k).parent = (s.act k).parent := by
  simp only [deliver]; split <;> simp
@[simp] theorem deliver_path : (deliver s i es k).path = (s.act k).path := by
  simp only [deliver]; split <;> simp
@[simp] theorem deliver_ok : (deliver s i es k).ok = (s.act k).ok := by
  simp only [deliver]; split <;> simp
@[simp] theorem deliver_told : (deliver s i es k).told = (s.act k).told := by
  simp only [deliver]; split <;> simp
@[simp] theorem deliver_log : (deliver s i es k).log = (s.act k).log := by
  simp only [deliver]; split <;> simp
@[simp] theorem deliver_isOpen : (deliver s i es k).isOpen = ((s.act k).isOpen && !killed s es k) := by
  rcases Bool.eq_false_or_eq_true (es.any (kills s k)) with h | h <;> simp only [deliver, killed, h] <;> simp
@[simp] theorem deliver_alive : (deliver s i es k).alive = ((s.act k).alive && !killed s es k) := by
  rcases Bool.eq_false_or_eq_true (es.any (kills s k)) with h | h <;> simp only [deliver, killed, h] <;> simp
@[simp] theorem deliver_started : (deliver s i es k).cell.started = (s.act k).cell.started := by
  simp only [deliver]; split <;> simp
@[simp] theorem deliver_stopping : (deliver s i es k).cell.stopping = (s.act k).cell.stopping := by
  simp only [deliver]; split <;> simp
@[simp] theorem deliver_children : (deliver s i es k).cell.children = (s.act k).cell.children := by
  simp only [deliver]; split <;> simp
@[simp] theorem deliver_watchers : (deliver s i es k).cell.watchers = (s.act k).cell.watchers := by
  simp only [deliver]; split <;> simp
theorem deliver_hasParent : (deliver s i es k).cell.hasParent =
    ((s.act k).cell.hasParent || (!killed s es k && es.any (adopts k))) := by
  rcases Bool.eq_false_or_eq_true (es.any (kills s k)) with h | h <;> simp only [deliver, killed, h] <;> simp
theorem deliver_sys : (deliver s i es k).sys =
    if (s.act k).isOpen && !killed s es k then (s.act k).sys ++ es.filterMap (sysTo s i k) else (s.act k).sys := by
  rcases Bool.eq_false_or_eq_true (es.any (kills s k)) with h | h <;> simp only [deliver, killed, h] <;> simp [pushSys_sys]
theorem deliver_usr : (deliver s i es k).usr =
    if (s.act k).isOpen && !killed s es k then (s.act k).usr ++ es.filterMap (usrTo i k) else (s.act k).usr := by
  rcases Bool.eq_false_or_eq_true (es.any (kills s k)) with h | h <;> simp only [deliver, killed, h] <;> simp [pushUsr_usr]
end deliver

@[simp] theorem upd_n (s : St) (i : Nat) (a : Act) : (s.upd i a).n = s.n := rfl
@[simp] theorem upd_self (s : St) (i : Nat) (a : Act) : (s.upd i a).act i = a := by simp [St.upd]
theorem upd_ne (s : St) {i k : Nat} (a : Act) (h : k ≠ i) : (s.upd i a).act k = s.act k := by simp [St.upd, h]
theorem upd_act (s : St) (i k : Nat) (a : Act) : (s.upd i a).act k = if k = i then a else s.act k := rfl

/-! ### Lifecycle: holds in every execution -/

def isPreStart : Eff → Bool
  | .preStart _ => true
  | _ => false

def isPlain : Msg → Bool
  | .user _ => true
  | .pill => true
  | _ => false

structure LInv (s : St) : Prop where
  pos : 0 < s.n
  par : ∀ j < s.n, ∀ p, (s.act j).parent = some p → p < j
  att : ∀ p < s.n, ∀ ch, .attach ch ∈ (s.act p).sys → 0 < ch.id ∧ ch.id < s.n ∧
    (s.act ch.id).cell.hasParent = false ∧ (s.act ch.id).parent = some p
  cnt : ∀ p < s.n, ∀ j, (s.act p).sys.countP (carries j) ≤ 1
  orphan : ∀ j < s.n, 0 < j → (s.act j).cell.hasParent = false →
    (s.act j).sys.countP Msg.isStart = 0 ∧ (s.act j).log.filter Eff.isLife = [] ∧ (s.act j).cell.started = false
  once : ∀ j < s.n, (s.act j).sys.countP Msg.isStart + (s.act j).log.countP isPreStart ≤ 1
  running : ∀ j < s.n, (s.act j).isOpen = true →
    ((s.act j).cell.started = true ∧
      ∃ rs : List Eff, (∀ e ∈ rs, e.isReceive = true) ∧ (s.act j).log.filter Eff.isLife = .preStart true :: rs) ∨
    ((s.act j).cell.started = false ∧ (s.act j).log.filter Eff.isLife = [])
  ended : ∀ j < s.n, (s.act j).isOpen = false →
    (s.act j).log.filter Eff.isLife = [] ∨ (s.act j).log.filter Eff.isLife = [.preStart false] ∨
    ∃ rs : List Eff, (∀ e ∈ rs, e.isReceive = true) ∧
      ((s.act j).log.filter Eff.isLife = .preStart true :: rs ++ [.postStop] ∨
       ((s.act j).alive = false ∧ (s.act j).log.filter Eff.isLife = .preStart true :: rs))
  usr : ∀ j < s.n, ∀ m ∈ (s.act j).usr, isPlain m = true

theorem removeChild_eff (c : Cell) (p : Nat) (e : Eff) (h : e ∈ (removeChild c p).2) :
    ∃ x ∈ c.children, x.path = p ∧ e = .destroy x := by
  unfold removeChild at h
  split at h
  · simp at h
  · rename_i x hx
    simp at h
    exact ⟨x, List.mem_of_find?_eq_some hx, by simpa using List.find?_some hx, h⟩

/-- Only an accepted `attach` sends a `start`. -/
theorem process_startTo (c : Cell) (m : Msg) (ch : Child) (h : .startTo ch ∈ (process c m).2.1) :
    m = .attach ch ∧ c.stopping = false := by
  cases m with
  | start ok => simp [process] at h
  | stop => simp only [process] at h; split at h <;> simp [stopImpl] at h
  | stopAfterChildren => simp only [process] at h; split at h <;> simp [stopImpl] at h
  | watch w => simp only [process] at h; split at h <;> simp at h
  | unwatch w => simp [process] at h
  | attach ch' => simp only [process] at h; split at h <;> simp_all
  | detach p =>
    simp only [process] at h
    have hr : Eff.startTo ch ∉ (removeChild c p).2 := fun h => by
      obtain ⟨x, _, _, hx⟩ := removeChild_eff c p _ h
      simp at hx
    split at h
    · simp [stopImpl, hr] at h
    · exact absurd h hr
  | user m => simp [process] at h
  | pill => simp [process] at h

theorem process_preStart (c : Cell) (m : Msg) : (process c m).2.1.countP isPreStart = if m.isStart then 1 else 0 := by
  have hz : ∀ c : Cell, (stopImpl c).2.countP isPreStart = 0 := by
    intro c; rw [List.countP_eq_zero]; intro e he
    simp [stopImpl] at he
    rcases he with ⟨_, rfl⟩ | ⟨w, _, rfl⟩ | ⟨_, rfl⟩ <;> simp [isPreStart]
  cases m with
  | start ok => simp [process, isPreStart, Msg.isStart]
  | stop =>
    simp only [process]; split
    · simp [hz, Msg.isStart]
    · simp [Msg.isStart, List.countP_eq_zero, isPreStart]
  | stopAfterChildren => simp only [process]; split <;> simp [hz, Msg.isStart]
  | watch w => simp only [process]; split <;> simp [Msg.isStart]
  | unwatch w => simp [process, Msg.isStart]
  | attach ch' => simp only [process]; split <;> simp [isPreStart, Msg.isStart]
  | detach p =>
    simp only [process]
    have hr : (removeChild c p).2.countP isPreStart = 0 := by
      rw [List.countP_eq_zero]
      intro e he
      obtain ⟨x, _, _, rfl⟩ := removeChild_eff c p _ he
      simp [isPreStart]
    split <;> simp [hz, hr, Msg.isStart, List.countP_append]
  | user m => simp [process, isPreStart, Msg.isStart]
  | pill => simp [process, isPreStart, Msg.isStart]

theorem sysTo_attach (s : St) (i k : Nat) (es : List Eff) (ch : Child) : .attach ch ∉ es.filterMap (sysTo s i k) := by
  rw [List.mem_filterMap]
  rintro ⟨e, _, he⟩
  cases e <;> simp [sysTo] at he

theorem sysTo_carries (s : St) (i k j : Nat) (es : List Eff) : (es.filterMap (sysTo s i k)).countP (carries j) = 0 := by
  rw [List.countP_eq_zero]
  intro m hm
  cases m with
  | attach ch => exact absurd hm (sysTo_attach s i k es ch)
  | _ => simp [carries]

theorem sysTo_start (s : St) (i k : Nat) (es : List Eff) (h : es.any (adopts k) = false) :
    (es.filterMap (sysTo s i k)).countP Msg.isStart = 0 := by
  rw [List.countP_eq_zero]
  intro m hm
  rw [List.mem_filterMap] at hm
  obtain ⟨e, he, hm⟩ := hm
  cases e with
  | startTo c =>
    simp only [sysTo] at hm
    split at hm
    · rename_i hc
      have : es.any (adopts k) = true := List.any_eq_true.2 ⟨_, he, by simp [adopts, hc]⟩
      rw [h] at this; simp at this
    · simp at hm
  | detachToParent => simp only [sysTo] at hm; split at hm <;> simp at hm; subst hm; simp [Msg.isStart]
  | stopSelf => simp only [sysTo] at hm; split at hm <;> simp at hm; subst hm; simp [Msg.isStart]
  | _ => simp [sysTo] at hm

theorem usrTo_plain (i k : Nat) (es : List Eff) (m : Msg) (h : m ∈ es.filterMap (usrTo i k)) : isPlain m = true := by
  rw [List.mem_filterMap] at h
  obtain ⟨e, he, hm⟩ := h
  cases e with
  | pillTo c => simp only [usrTo] at hm; split at hm <;> simp at hm; subst hm; rfl
  | tellTerminated w => simp only [usrTo] at hm; split at hm <;> simp at hm; subst hm; rfl
  | _ => simp [usrTo] at hm

theorem process_hasParent (c : Cell) (m : Msg) : (process c m).1.hasParent = c.hasParent := by
  cases m with
  | detach p =>
    have := (removeChild_started c p).2.2.1
    simp only [process]; split <;> simp [stopImpl, this]
  | start ok => simp [process]
  | unwatch w => simp [process]
  | user m => simp [process]
  | pill => simp [process]
  | _ => simp only [process]; split <;> simp [stopImpl]

/-- The message was taken from one of the queues, leaving `sys'`, `usr'`. -/
structure Taken (a : Act) (m : Msg) (sys' usr' : List Msg) : Prop where
  allowed : m.allowed a.cell = true
  sub : ∀ x ∈ sys', x ∈ a.sys
  cnt : ∀ q : Msg → Bool, q m = true → isPlain m = false → sys'.countP q + 1 = a.sys.countP q
  cnt' : ∀ q : Msg → Bool, sys'.countP q ≤ a.sys.countP q
  mem : isPlain m = false → m ∈ a.sys
  usub : ∀ x ∈ usr', x ∈ a.usr

theorem adopts_any {es : List Eff} {k : Nat} (h : es.any (adopts k) = true) : ∃ ch, .startTo ch ∈ es ∧ ch.id = k := by
  rw [List.any_eq_true] at h
  obtain ⟨e, he, hk⟩ := h
  cases e with
  | startTo ch => exact ⟨ch, he, by simpa [adopts] using hk⟩
  | _ => simp [adopts] at hk

theorem filter_prestart (l : List Eff) : (l.filter Eff.isLife).countP isPreStart = l.countP isPreStart := by
  rw [List.countP_filter]
  congr 1
  funext e
  cases e <;> rfl

theorem LInv_procMsg (s : St) (i : Nat) (m : Msg) (sys' usr' : List Msg) (h : LInv s) (hi : i < s.n)
    (ho : (s.act i).isOpen = true) (ht : Taken (s.act i) m sys' usr') : LInv (procMsg s i m sys' usr') := by
  set r := process (s.act i).cell m with hr
  set s1 := s.upd i { s.act i with cell := r.1, sys := sys', usr := usr', isOpen := !r.2.2, log := (s.act i).log ++ r.2.1, told := (s.act i).told || (m == .stop && !r.2.2) } with hs1
  have hact : ∀ k, (procMsg s i m sys' usr').act k = deliver s1 i r.2.1 k := fun k => rfl
  have hn : (procMsg s i m sys' usr').n = s.n := rfl
  have h1 : ∀ k, k ≠ i → s1.act k = s.act k := fun k hk => upd_ne _ _ hk
  have h1i : s1.act i = { s.act i with cell := r.1, sys := sys', usr := usr', isOpen := !r.2.2, log := (s.act i).log ++ r.2.1, told := (s.act i).told || (m == .stop && !r.2.2) } := upd_self _ _ _
  -- whoever is adopted was attached to `i`
  have hadopt : ∀ k, r.2.1.any (adopts k) = true → ∃ ch, m = .attach ch ∧ ch.id = k ∧ .attach ch ∈ (s.act i).sys := by
    intro k hk
    obtain ⟨ch, hch, hck⟩ := adopts_any hk
    obtain ⟨rfl, _⟩ := process_startTo _ _ _ hch
    exact ⟨ch, rfl, hck, ht.mem rfl⟩
  have hpar1 : ∀ k, (s1.act k).cell.hasParent = (s.act k).cell.hasParent := by
    intro k
    by_cases hk : k = i
    · subst hk; rw [h1i]; exact process_hasParent _ _
    · rw [h1 k hk]
  have hsub1 : ∀ k, ∀ x ∈ (s1.act k).sys, x ∈ (s.act k).sys := by
    intro k x hx
    by_cases hk : k = i
    · subst hk; rw [h1i] at hx; exact ht.sub x hx
    · rwa [h1 k hk] at hx
  have hcnt1 : ∀ k q, (s1.act k).sys.countP q ≤ (s.act k).sys.countP q := by
    intro k q
    by_cases hk : k = i
    · subst hk; rw [h1i]; exact ht.cnt' q
    · rw [h1 k hk]; exact Nat.le_refl _
  have hpar0 : ∀ k, (s1.act k).parent = (s.act k).parent := by
    intro k
    by_cases hk : k = i
    · subst hk; rw [h1i]
    · rw [h1 k hk]
  have hstart1 : ∀ k, k ≠ i ∨ m.isStart = false →
      (s1.act k).log.filter Eff.isLife = (s.act k).log.filter Eff.isLife ++ (if k = i then r.2.1.filter Eff.isLife else []) := by
    intro k _
    by_cases hk : k = i
    · subst hk; rw [h1i]; simp
    · rw [h1 k hk]; simp [hk]
  -- number of starts
  have hso : ∀ k < s.n, (deliver s1 i r.2.1 k).sys.countP Msg.isStart + (s1.act k).log.countP isPreStart ≤ 1 ∧
      ((deliver s1 i r.2.1 k).cell.hasParent = false → (deliver s1 i r.2.1 k).sys.countP Msg.isStart ≤ (s.act k).sys.countP Msg.isStart) := by
    intro k hk
    have hlog : (s1.act k).log.countP isPreStart = (s.act k).log.countP isPreStart + (if k = i ∧ m.isStart = true then 1 else 0) := by
      by_cases hki : k = i
      · subst hki; rw [h1i]; simp [List.countP_append, process_preStart, hr]
      · rw [h1 k hki]; simp [hki]
    have hold : (s1.act k).sys.countP Msg.isStart + (if k = i ∧ m.isStart = true then 1 else 0) ≤ (s.act k).sys.countP Msg.isStart := by
      by_cases hki : k = i
      · subst hki
        rw [h1i]
        by_cases hms : m.isStart = true
        · have := ht.cnt Msg.isStart hms (by cases m <;> simp_all [Msg.isStart, isPlain])
          simp [hms]; omega
        · have := ht.cnt' Msg.isStart
          simp [hms]; omega
      · rw [h1 k hki]; simp [hki]
    have honce := h.once k hk
    by_cases ha : r.2.1.any (adopts k) = true
    · obtain ⟨ch, hmc, hck, hmem⟩ := hadopt k ha
      obtain ⟨q1, q2, q3, q4⟩ := h.att i hi ch hmem
      rw [hck] at q1 q2 q3 q4
      obtain ⟨o1, o2, -⟩ := h.orphan k hk q1 q3
      have o3 : (s.act k).log.countP isPreStart = 0 := by rw [← filter_prestart, o2]; rfl
      have hes : r.2.1 = [.startTo ch] := by
        obtain ⟨ch', hch', _⟩ := adopts_any ha
        obtain ⟨rfl', hst⟩ := process_startTo _ _ _ hch'
        rw [hr, hmc]
        simp [process, hst]
      rw [deliver_sys, deliver_hasParent]
      have hnk : killed s1 r.2.1 k = false := by simp [killed, hes, kills]
      have hms : m.isStart = false := by rw [hmc]; rfl
      simp only [hms] at hlog hold
      constructor
      · split
        · rw [List.countP_append, hes]
          have : ([Eff.startTo ch].filterMap (sysTo s1 i k)).countP Msg.isStart ≤ 1 := by
            refine Nat.le_trans (List.countP_le_length) ?_
            exact Nat.le_trans (List.length_filterMap_le _ _) (by simp)
          simp at hlog hold
          omega
        · simp at hlog hold; omega
      · rw [hnk, ha]; simp
    · have ha' : r.2.1.any (adopts k) = false := by simpa using ha
      have hz := sysTo_start s1 i k r.2.1 ha'
      rw [deliver_sys]
      constructor
      · split
        · rw [List.countP_append, hz]; omega
        · omega
      · intro _
        split
        · rw [List.countP_append, hz]; omega
        · omega
  have hlife : (process (s.act i).cell m).2.1.filter Eff.isLife = r.2.1.filter Eff.isLife := rfl
  constructor
  case pos => exact h.pos
  case par =>
    intro j hj p hp
    rw [hact, deliver_parent, hpar0] at hp
    exact h.par j hj p hp
  case att =>
    intro p hp ch hch
    rw [hact, deliver_sys] at hch
    have hch0 : .attach ch ∈ (s1.act p).sys := by
      split at hch
      · rcases List.mem_append.1 hch with hc | hc
        · exact hc
        · exact absurd hc (sysTo_attach _ _ _ _ _)
      · exact hch
    obtain ⟨q1, q2, q3, q4⟩ := h.att p hp ch (hsub1 p _ hch0)
    refine ⟨q1, q2, ?_, by rw [hact, deliver_parent, hpar0]; exact q4⟩
    rw [hact, deliver_hasParent, hpar1, q3]
    by_cases ha : r.2.1.any (adopts ch.id) = true
    · exfalso
      obtain ⟨ch', hmc, hck, hmem⟩ := hadopt _ ha
      obtain ⟨-, -, -, q4'⟩ := h.att i hi ch' hmem
      rw [hck, q4] at q4'
      simp at q4'
      subst q4'
      have c1 := ht.cnt (carries ch.id) (by rw [hmc]; simp [carries, hck]) (by rw [hmc]; rfl)
      have c2 := h.cnt p hi ch.id
      have c3 : 0 < sys'.countP (carries ch.id) := by
        rw [List.countP_pos_iff]
        rw [h1i] at hch0
        exact ⟨_, hch0, by simp [carries]⟩
      omega
    · simp at ha
      simpa using fun _ => ha
  case cnt =>
    intro p hp j
    rw [hact, deliver_sys]
    have := h.cnt p hp j
    have := hcnt1 p (carries j)
    split
    · rw [List.countP_append, sysTo_carries]; omega
    · omega
  case orphan =>
    intro j hj hj0 hp
    rw [hact] at hp ⊢
    have hp' := hp
    rw [deliver_hasParent, hpar1] at hp
    have hp0 : (s.act j).cell.hasParent = false := by
      cases hx : (s.act j).cell.hasParent <;> simp [hx] at hp ⊢
    obtain ⟨o1, o2, o3⟩ := h.orphan j hj hj0 hp0
    have hms : j = i → m.isStart = false := by
      rintro rfl
      cases hms : m.isStart with
      | false => rfl
      | true =>
        have := ht.cnt Msg.isStart hms (by cases m <;> simp_all [Msg.isStart, isPlain])
        omega
    refine ⟨?_, ?_, ?_⟩
    · have := (hso j hj).2 hp'
      omega
    · rw [deliver_log, hstart1 j (by by_cases hk : j = i; exact .inr (hms hk); exact .inl hk), o2]
      by_cases hk : j = i
      · subst hk
        obtain ⟨p1, p2⟩ := process_life (s.act j).cell m (hms rfl)
        cases hb : (process (s.act j).cell m).2.2 with
        | false => simp [hr, (p1 hb).2.2 ht.allowed o3]
        | true => simp [hr, p2 hb, o3]
      · simp [hk]
    · rw [deliver_started]
      by_cases hk : j = i
      · subst hk
        rw [h1i]
        obtain ⟨p1, p2⟩ := process_life (s.act j).cell m (hms rfl)
        cases hb : (process (s.act j).cell m).2.2 with
        | false => simp [hr, (p1 hb).1, o3]
        | true =>
          have hms := hms rfl
          simp only [hr]
          cases m with
          | start ok => simp [Msg.isStart] at hms
          | stop => simp only [process] at hb ⊢; split <;> simp_all [stopImpl]
          | stopAfterChildren => simp only [process] at hb ⊢; split <;> simp_all [stopImpl]
          | watch w => simp only [process] at hb; split at hb <;> simp at hb
          | unwatch w => simp [process] at hb
          | attach x => simp only [process] at hb; split at hb <;> simp at hb
          | detach p => simp only [process] at hb ⊢; split <;> simp_all [stopImpl]
          | user m => simp [process] at hb
          | pill => simp [process] at hb
      · rw [h1 j hk]; exact o3
  case once =>
    intro j hj
    rw [hact, deliver_log]
    exact (hso j hj).1
  case running =>
    intro j hj hopen
    rw [hact] at hopen ⊢
    rw [deliver_isOpen] at hopen
    rw [deliver_started, deliver_log]
    by_cases hk : j = i
    · subst hk
      rw [h1i] at hopen ⊢
      have hb : (process (s.act j).cell m).2.2 = false := by simp [hr] at hopen; exact hopen.1
      simp only [List.filter_append]
      by_cases hms : m.isStart = true
      · have hlf : (s.act j).log.filter Eff.isLife = [] := by
          have c1 := h.once j hj
          have c2 := ht.cnt Msg.isStart hms (by cases m <;> simp_all [Msg.isStart, isPlain])
          rcases h.running j hj ho with ⟨-, rs, -, hl⟩ | ⟨-, hl⟩
          · rw [← filter_prestart, hl] at c1
            simp [isPreStart, List.countP_cons] at c1
            omega
          · exact hl
        cases m with
        | start ok =>
          cases ok with
          | false => simp [process] at hb
          | true =>
            left
            exact ⟨rfl, [], by simp, by rw [hlf]; rfl⟩
        | _ => simp [Msg.isStart] at hms
      · have hms' : m.isStart = false := by simpa using hms
        obtain ⟨p1, -⟩ := process_life (s.act j).cell m hms'
        obtain ⟨p2, p3, p4⟩ := p1 hb
        rw [show r.1.started = _ from p2]
        rcases h.running j hj ho with ⟨hst, rs, hrs, hl⟩ | ⟨hst, hl⟩
        · left
          refine ⟨hst, rs ++ (process (s.act j).cell m).2.1.filter Eff.isLife, ?_, ?_⟩
          · intro e he
            rcases List.mem_append.1 he with he | he
            · exact hrs e he
            · exact p3 e he
          · rw [hl]; rfl
        · right
          exact ⟨hst, by rw [hl, p4 ht.allowed hst]; rfl⟩
    · rw [h1 j hk] at hopen ⊢
      exact h.running j hj (by simp at hopen; exact hopen.1)
  case ended =>
    intro j hj hopen
    rw [hact] at hopen ⊢
    rw [deliver_isOpen] at hopen
    rw [deliver_alive, deliver_log]
    by_cases hk : j = i
    · subst hk
      rw [h1i] at hopen ⊢
      simp only [List.filter_append]
      have hlf : m.isStart = true → (s.act j).log.filter Eff.isLife = [] := by
        intro hms
        have c1 := h.once j hj
        have c2 := ht.cnt Msg.isStart hms (by cases m <;> simp_all [Msg.isStart, isPlain])
        rcases h.running j hj ho with ⟨-, rs, -, hl⟩ | ⟨-, hl⟩
        · rw [← filter_prestart, hl] at c1
          simp [isPreStart, List.countP_cons] at c1
          omega
        · exact hl
      cases hb : (process (s.act j).cell m).2.2 with
      | true =>
        by_cases hms : m.isStart = true
        · cases m with
          | start ok =>
            right; left
            cases ok with
            | false => rw [hlf hms]; rfl
            | true => simp [process] at hb
          | _ => simp [Msg.isStart] at hms
        · have hms' : m.isStart = false := by simpa using hms
          obtain ⟨-, p2⟩ := process_life (s.act j).cell m hms'
          rw [show r.2.1.filter Eff.isLife = _ from p2 hb]
          rcases h.running j hj ho with ⟨hst, rs, hrs, hl⟩ | ⟨hst, hl⟩
          · right; right
            exact ⟨rs, hrs, .inl (by rw [hl, hst]; rfl)⟩
          · left; rw [hl, hst]; rfl
      | false =>
        -- `i` destroys itself
        have hkd : killed s1 r.2.1 j = true := by
          simp [hr, hb] at hopen ⊢; exact hopen
        by_cases hms : m.isStart = true
        · cases m with
          | start ok => simp [killed, hr, process, kills] at hkd
          | _ => simp [Msg.isStart] at hms
        · have hms' : m.isStart = false := by simpa using hms
          obtain ⟨p1, -⟩ := process_life (s.act j).cell m hms'
          obtain ⟨p2, p3, p4⟩ := p1 hb
          rcases h.running j hj ho with ⟨hst, rs, hrs, hl⟩ | ⟨hst, hl⟩
          · right; right
            refine ⟨rs ++ (process (s.act j).cell m).2.1.filter Eff.isLife, ?_, .inr ⟨by simp [hkd], by rw [hl]; rfl⟩⟩
            intro e he
            rcases List.mem_append.1 he with he | he
            · exact hrs e he
            · exact p3 e he
          · left; rw [hl]; exact p4 ht.allowed hst
    · rw [h1 j hk] at hopen ⊢
      cases hx : (s.act j).isOpen with
      | false =>
        rcases h.ended j hj hx with h0 | h0 | ⟨rs, hrs, h0 | ⟨h0, h00⟩⟩
        · exact .inl h0
        · exact .inr (.inl h0)
        · exact .inr (.inr ⟨rs, hrs, .inl h0⟩)
        · exact .inr (.inr ⟨rs, hrs, .inr ⟨by simp [h0], h00⟩⟩)
      | true =>
        have hkd : killed s1 r.2.1 j = true := by simpa [hx] using hopen
        rcases h.running j hj hx with ⟨hst, rs, hrs, hl⟩ | ⟨hst, hl⟩
        · exact .inr (.inr ⟨rs, hrs, .inr ⟨by simp [hkd], hl⟩⟩)
        · exact .inl hl
  case usr =>
    intro j hj x hx
    rw [hact, deliver_usr] at hx
    have hu : ∀ x ∈ (s1.act j).usr, isPlain x = true := by
      intro x hx
      by_cases hk : j = i
      · subst hk; rw [h1i] at hx; exact h.usr j hj x (ht.usub x hx)
      · rw [h1 j hk] at hx; exact h.usr j hj x hx
    split at hx
    · rcases List.mem_append.1 hx with hx | hx
      · exact hu x hx
      · exact usrTo_plain _ _ _ _ hx
    · exact hu x hx

theorem LInv_init : LInv St.init := by
  constructor <;> simp [St.init, Act.root, Cell.fresh, isPreStart, Eff.isLife, List.countP_cons]
  exact ⟨[], by simp, rfl⟩

/-- Receiving messages other than `start` and `attach_child`. -/
theorem LInv_push (s : St) (i : Nat) (b : Act) (h : LInv s) (us ms : List Msg)
    (hus : ∀ m ∈ us, isPlain m = true) (hms : ∀ m ∈ ms, m.isStart = false ∧ ∀ j, carries j m = false)
    (hb : b = (s.act i).pushUsr us ∨ b = (s.act i).pushSys ms) : LInv (s.upd i b) := by
  have hst : ms.countP Msg.isStart = 0 := by
    rw [List.countP_eq_zero]; intro m hm; simp [(hms m hm).1]
  have hca : ∀ j, ms.countP (carries j) = 0 := by
    intro j; rw [List.countP_eq_zero]; intro m hm; simp [(hms m hm).2 j]
  have hat : ∀ ch, .attach ch ∉ ms := fun ch hch => by simpa [carries] using (hms _ hch).2 ch.id
  have key : ∀ k, ((s.upd i b).act k).cell = (s.act k).cell ∧ ((s.upd i b).act k).isOpen = (s.act k).isOpen ∧
      ((s.upd i b).act k).alive = (s.act k).alive ∧ ((s.upd i b).act k).parent = (s.act k).parent ∧
      ((s.upd i b).act k).log = (s.act k).log ∧
      (((s.upd i b).act k).sys = (s.act k).sys ∨ ((s.upd i b).act k).sys = (s.act k).sys ++ ms) ∧
      (((s.upd i b).act k).usr = (s.act k).usr ∨ ((s.upd i b).act k).usr = (s.act k).usr ++ us) := by
    intro k
    by_cases hk : k = i
    · subst hk
      rw [upd_self]
      rcases hb with rfl | rfl
      · simp [pushUsr_usr]
        cases (s.act k).isOpen <;> simp
      · simp [pushSys_sys]
        cases (s.act k).isOpen <;> simp
    · rw [upd_ne _ _ hk]; simp
  constructor
  case pos => exact h.pos
  case par => intro j hj p hp; rw [(key j).2.2.2.1] at hp; exact h.par j hj p hp
  case att =>
    intro p hp ch hch
    have : .attach ch ∈ (s.act p).sys := by
      rcases (key p).2.2.2.2.2.1 with h0 | h0 <;> rw [h0] at hch
      · exact hch
      · rcases List.mem_append.1 hch with hc | hc
        · exact hc
        · exact absurd hc (hat ch)
    rw [(key ch.id).1, (key ch.id).2.2.2.1]
    exact h.att p hp ch this
  case cnt =>
    intro p hp j
    have := h.cnt p hp j
    rcases (key p).2.2.2.2.2.1 with h0 | h0 <;> rw [h0]
    · exact this
    · rw [List.countP_append, hca]; omega
  case orphan =>
    intro j hj hj0 hp
    rw [(key j).1] at hp ⊢
    rw [(key j).2.2.2.2.1]
    obtain ⟨h1, h2, h3⟩ := h.orphan j hj hj0 hp
    refine ⟨?_, h2, h3⟩
    rcases (key j).2.2.2.2.2.1 with h0 | h0 <;> rw [h0]
    · exact h1
    · rw [List.countP_append, hst]; omega
  case once =>
    intro j hj
    have := h.once j hj
    rw [(key j).2.2.2.2.1]
    rcases (key j).2.2.2.2.2.1 with h0 | h0 <;> rw [h0]
    · exact this
    · rw [List.countP_append, hst]; omega
  case running =>
    intro j hj ho
    rw [(key j).2.1] at ho
    rw [(key j).1, (key j).2.2.2.2.1]
    exact h.running j hj ho
  case ended =>
    intro j hj ho
    rw [(key j).2.1] at ho
    rw [(key j).2.2.1, (key j).2.2.2.2.1]
    exact h.ended j hj ho
  case usr =>
    intro j hj m hm
    rcases (key j).2.2.2.2.2.2 with h0 | h0 <;> rw [h0] at hm
    · exact h.usr j hj m hm
    · rcases List.mem_append.1 hm with hm | hm
      · exact h.usr j hj m hm
      · exact hus m hm

theorem LInv_create (s : St) (p path : Nat) (ok : Bool) (h : LInv s) (hp : p < s.n) :
    LInv { (s.upd p ((s.act p).pushSys [.attach ⟨s.n, path⟩])).upd s.n (Act.new p path ok) with n := s.n + 1 } := by
  set s' : St := { (s.upd p ((s.act p).pushSys [.attach ⟨s.n, path⟩])).upd s.n (Act.new p path ok) with n := s.n + 1 } with hs'
  have hnew : s'.act s.n = Act.new p path ok := by simp [hs', St.upd]
  have hold : ∀ k < s.n, (s'.act k).cell = (s.act k).cell ∧ (s'.act k).isOpen = (s.act k).isOpen ∧
      (s'.act k).alive = (s.act k).alive ∧ (s'.act k).parent = (s.act k).parent ∧
      (s'.act k).log = (s.act k).log ∧ (s'.act k).usr = (s.act k).usr ∧
      ((s'.act k).sys = (s.act k).sys ∨ (k = p ∧ (s'.act k).sys = (s.act k).sys ++ [.attach ⟨s.n, path⟩])) := by
    intro k hk
    have : s'.act k = if k = p then (s.act p).pushSys [.attach ⟨s.n, path⟩] else s.act k := by
      simp [hs', St.upd, Nat.ne_of_lt hk]
    rw [this]
    split
    · rename_i hkp; subst hkp
      cases ho : (s.act k).isOpen <;> simp [pushSys_sys, ho]
    · simp
  have hlt : ∀ {j}, j < s'.n → j < s.n ∨ j = s.n := by
    intro j hj
    have : s'.n = s.n + 1 := rfl
    omega
  have hz : ∀ k < s.n, (s.act k).sys.countP (carries s.n) = 0 := by
    intro k hk
    rw [List.countP_eq_zero]
    intro m hm
    cases m with
    | attach ch =>
      have := (h.att k hk ch hm).2.1
      simp [carries]; omega
    | _ => simp [carries]
  constructor
  case pos => exact Nat.succ_pos _
  case par =>
    intro j hj q hq
    rcases hlt hj with hj | rfl
    · rw [(hold j hj).2.2.2.1] at hq; exact h.par j hj q hq
    · rw [hnew] at hq; simp [Act.new] at hq; omega
  case att =>
    intro q hq ch hch
    rcases hlt hq with hq | rfl
    · rcases (hold q hq).2.2.2.2.2.2 with h0 | ⟨hqp, h0⟩ <;> rw [h0] at hch
      · obtain ⟨q1, q2, q3, q4⟩ := h.att q hq ch hch
        rw [(hold _ q2).1, (hold _ q2).2.2.2.1]
        exact ⟨q1, Nat.lt_succ_of_lt q2, q3, q4⟩
      · rcases List.mem_append.1 hch with hch | hch
        · obtain ⟨q1, q2, q3, q4⟩ := h.att q hq ch hch
          rw [(hold _ q2).1, (hold _ q2).2.2.2.1]
          exact ⟨q1, Nat.lt_succ_of_lt q2, q3, q4⟩
        · simp at hch
          subst hch
          rw [hnew]
          exact ⟨h.pos, Nat.lt_succ_self _, rfl, by rw [hqp]; rfl⟩
    · rw [hnew] at hch; simp [Act.new] at hch
  case cnt =>
    intro q hq j
    rcases hlt hq with hq | rfl
    · rcases (hold q hq).2.2.2.2.2.2 with h0 | ⟨hqp, h0⟩ <;> rw [h0]
      · exact h.cnt q hq j
      · rw [List.countP_append]
        by_cases hj : j = s.n
        · subst hj
          have := hz q hq
          have : [Msg.attach ⟨s.n, path⟩].countP (carries s.n) ≤ 1 := List.countP_le_length
          omega
        · have h1 := h.cnt q hq j
          have : [Msg.attach ⟨s.n, path⟩].countP (carries j) = 0 := by
            simp [List.countP_cons, carries]; omega
          omega
    · rw [hnew]; simp [Act.new]
  case orphan =>
    intro j hj hj0 hpar
    rcases hlt hj with hj | rfl
    · rw [(hold j hj).1] at hpar ⊢
      rw [(hold j hj).2.2.2.2.1]
      obtain ⟨h1, h2, h3⟩ := h.orphan j hj hj0 hpar
      refine ⟨?_, h2, h3⟩
      rcases (hold j hj).2.2.2.2.2.2 with h0 | ⟨hqp, h0⟩ <;> rw [h0]
      · exact h1
      · rw [List.countP_append, h1]; rfl
    · rw [hnew]; simp [Act.new, Cell.fresh]
  case once =>
    intro j hj
    rcases hlt hj with hj | rfl
    · rw [(hold j hj).2.2.2.2.1]
      have := h.once j hj
      rcases (hold j hj).2.2.2.2.2.2 with h0 | ⟨hqp, h0⟩ <;> rw [h0]
      · exact this
      · rw [List.countP_append]
        have h2 : [Msg.attach ⟨s.n, path⟩].countP Msg.isStart = 0 := rfl
        omega
    · rw [hnew]; simp [Act.new]
  case running =>
    intro j hj ho
    rcases hlt hj with hj | rfl
    · rw [(hold j hj).2.1] at ho
      rw [(hold j hj).1, (hold j hj).2.2.2.2.1]
      exact h.running j hj ho
    · rw [hnew]; simp [Act.new, Cell.fresh]
  case ended =>
    intro j hj ho
    rcases hlt hj with hj | rfl
    · rw [(hold j hj).2.1] at ho
      rw [(hold j hj).2.2.1, (hold j hj).2.2.2.2.1]
      exact h.ended j hj ho
    · rw [hnew] at ho; simp [Act.new] at ho
  case usr =>
    intro j hj m hm
    rcases hlt hj with hj | rfl
    · rw [(hold j hj).2.2.2.2.2.1] at hm; exact h.usr j hj m hm
    · rw [hnew] at hm; simp [Act.new] at hm

theorem taken_sys {a : Act} {m : Msg} {ms : List Msg} (hm : a.sys = m :: ms) (hp : isPlain m = false) : Taken a m ms a.usr where
  allowed := by cases m <;> simp [isPlain] at hp <;> rfl
  sub := by rw [hm]; intro x hx; simp [hx]
  cnt := by intro q hq _; rw [hm, List.countP_cons, hq]; simp
  cnt' := by intro q; rw [hm, List.countP_cons]; omega
  mem := by intro _; rw [hm]; simp
  usub := fun _ hx => hx

theorem taken_usr {a : Act} {m : Msg} {ms : List Msg} (hm : a.usr = m :: ms) (hp : isPlain m = true) (hs : a.sys = [])
    (hst : a.cell.started = true) : Taken a m [] ms where
  allowed := by cases m <;> simp [isPlain] at hp <;> exact hst
  sub := by simp
  cnt := by intro q _ h; rw [hp] at h; simp at h
  cnt' := by intro q; simp
  mem := by intro h; rw [hp] at h; simp at h
  usub := by rw [hm]; intro x hx; simp [hx]

/-- System queues hold no user messages. -/
def SInv (s : St) : Prop := ∀ j, ∀ m ∈ (s.act j).sys, isPlain m = false

theorem sysTo_plain (s : St) (i k : Nat) (es : List Eff) (m : Msg) (h : m ∈ es.filterMap (sysTo s i k)) : isPlain m = false := by
  rw [List.mem_filterMap] at h
  obtain ⟨e, he, hm⟩ := h
  cases e with
  | startTo c => simp only [sysTo] at hm; split at hm <;> simp at hm; subst hm; rfl
  | detachToParent => simp only [sysTo] at hm; split at hm <;> simp at hm; subst hm; rfl
  | stopSelf => simp only [sysTo] at hm; split at hm <;> simp at hm; subst hm; rfl
  | _ => simp [sysTo] at hm

theorem SInv_upd (s : St) (i : Nat) (a : Act) (h : SInv s) (ha : ∀ m ∈ a.sys, isPlain m = false) : SInv (s.upd i a) := by
  intro j m hm
  rw [upd_act] at hm
  split at hm
  · exact ha m hm
  · exact h j m hm

theorem pushSys_mem {a : Act} {ms : List Msg} {m : Msg} (h : m ∈ (a.pushSys ms).sys) : m ∈ a.sys ∨ m ∈ ms := by
  rw [pushSys_sys] at h
  split at h
  · exact List.mem_append.1 h
  · exact .inl h

theorem SInv_procMsg (s : St) (i : Nat) (m : Msg) (sys' usr' : List Msg) (h : SInv s) (hs : ∀ x ∈ sys', isPlain x = false) :
    SInv (procMsg s i m sys' usr') := by
  intro j x hx
  have h1 : ∀ y ∈ ((s.upd i { s.act i with cell := (process (s.act i).cell m).1, sys := sys', usr := usr', isOpen := !(process (s.act i).cell m).2.2, log := (s.act i).log ++ (process (s.act i).cell m).2.1, told := (s.act i).told || (m == .stop && !(process (s.act i).cell m).2.2) }).act j).sys, isPlain y = false :=
    SInv_upd s i _ h hs j
  simp only [procMsg] at hx
  rw [deliver_sys] at hx
  split at hx
  · rcases List.mem_append.1 hx with hx | hx
    · exact h1 x hx
    · exact sysTo_plain _ _ _ _ _ hx
  · exact h1 x hx

theorem inv_step (s : St) (a : Action) (s' : St) (h : LInv s) (hS : SInv s) (hstep : step s a = some s') : LInv s' ∧ SInv s' := by
  cases a with
  | create p path ok =>
    simp only [step] at hstep
    split at hstep
    · rename_i hc
      simp at hc
      simp only [Option.some.injEq] at hstep
      subst hstep
      refine ⟨LInv_create s p path ok h hc.1.1, ?_⟩
      intro j m hm
      have := SInv_upd _ s.n (Act.new p path ok) (SInv_upd s p ((s.act p).pushSys [.attach ⟨s.n, path⟩]) hS (by
        intro m hm
        rcases pushSys_mem hm with hm | hm
        · exact hS p m hm
        · simp at hm; subst hm; rfl)) (by simp [Act.new])
      exact this j m hm
    · simp at hstep
  | send i m =>
    simp only [step] at hstep
    split at hstep
    · simp only [Option.some.injEq] at hstep
      subst hstep
      cases m with
      | stop =>
        exact ⟨LInv_push s i _ h [] [.stop] (by simp) (by simp [Msg.isStart, carries]) (.inr rfl),
          SInv_upd _ _ _ hS (fun m hm => by rcases pushSys_mem hm with hm | hm; exact hS i m hm; simp at hm; subst hm; rfl)⟩
      | stopAfterChildren =>
        exact ⟨LInv_push s i _ h [] [.stopAfterChildren] (by simp) (by simp [Msg.isStart, carries]) (.inr rfl),
          SInv_upd _ _ _ hS (fun m hm => by rcases pushSys_mem hm with hm | hm; exact hS i m hm; simp at hm; subst hm; rfl)⟩
      | unwatch w =>
        exact ⟨LInv_push s i _ h [] [.unwatch w] (by simp) (by simp [Msg.isStart, carries]) (.inr rfl),
          SInv_upd _ _ _ hS (fun m hm => by rcases pushSys_mem hm with hm | hm; exact hS i m hm; simp at hm; subst hm; rfl)⟩
      | pill =>
        exact ⟨LInv_push s i _ h [.pill] [] (by simp [isPlain]) (by simp) (.inl rfl),
          SInv_upd _ _ _ hS (by simpa using hS i)⟩
      | user m =>
        exact ⟨LInv_push s i _ h [plainMsg m] [] (by simp [isPlain, plainMsg]) (by simp) (.inl rfl),
          SInv_upd _ _ _ hS (by simpa using hS i)⟩
    · simp at hstep
  | watch w i =>
    simp only [step] at hstep
    split at hstep
    · split at hstep
      · simp only [Option.some.injEq] at hstep
        subst hstep
        exact ⟨LInv_push s i _ h [] [.watch w] (by simp) (by simp [Msg.isStart, carries]) (.inr rfl),
          SInv_upd _ _ _ hS (fun m hm => by rcases pushSys_mem hm with hm | hm; exact hS i m hm; simp at hm; subst hm; rfl)⟩
      · simp only [Option.some.injEq] at hstep
        subst hstep
        exact ⟨LInv_push s w _ h [terminatedMsg i] [] (by simp [isPlain, terminatedMsg]) (by simp) (.inl rfl),
          SInv_upd _ _ _ hS (by simpa using hS w)⟩
    · simp at hstep
  | runSys i =>
    simp only [step] at hstep
    split at hstep
    · rename_i hc
      simp at hc
      split at hstep
      · simp at hstep
      · rename_i m ms hms
        simp only [Option.some.injEq] at hstep
        subst hstep
        exact ⟨LInv_procMsg s i m ms _ h hc.1 hc.2 (taken_sys hms (hS i m (by rw [hms]; simp))),
          SInv_procMsg s i m ms _ hS (fun x hx => hS i x (by rw [hms]; simp [hx]))⟩
    · simp at hstep
  | runUsr i =>
    simp only [step] at hstep
    split at hstep
    · rename_i hc
      simp at hc
      split at hstep
      · simp at hstep
      · rename_i m ms hms
        simp only [Option.some.injEq] at hstep
        subst hstep
        exact ⟨LInv_procMsg s i m [] ms h hc.1.1.1 hc.1.1.2
            (taken_usr hms (h.usr i hc.1.1.1 m (by rw [hms]; simp)) hc.2 hc.1.2),
          SInv_procMsg s i m [] ms hS (by simp)⟩
    · simp at hstep

theorem inv_run (as : List Action) : ∀ s s' : St, LInv s → SInv s → run s as = some s' → LInv s' ∧ SInv s' := by
  induction as with
  | nil => intro s s' h hS hr; simp [run] at hr; subst hr; exact ⟨h, hS⟩
  | cons a as ih =>
    intro s s' h hS hr
    simp only [run] at hr
    cases hst : step s a with
    | none => simp [hst] at hr
    | some s1 =>
      rw [hst] at hr
      obtain ⟨h1, h2⟩ := inv_step s a s1 h hS hst
      exact ih s1 s' h1 h2 hr

theorem SInv_init : SInv St.init := by intro j m hm; simp [St.init, Act.root] at hm

end Verif.ActorTree
