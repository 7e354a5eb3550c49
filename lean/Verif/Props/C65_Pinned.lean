import Verif.Model.Pinned

/-!
# C65: the executor with a thread for each actor

`Reach limit acts s`: the interleaving `acts` of any number of senders, mailboxes and threads leads to `s`.
-/
set_option autoImplicit false

namespace Verif.Pinned
open Verif.Mailbox (Outcome)

/-! ## Specification -/

/-- the thread can still run the actor -/
def PC.active : PC → Bool
  | .notify => false
  | _ => true

/-- the thread is inside the code of the actor -/
def PC.inside : PC → Bool
  | .sysMsg _ => true
  | .usrMsg _ => true
  | _ => false

/-- there is a message that the actor may process -/
def Processable (x : Box) : Prop := x.sys ≠ [] ∨ (x.started = true ∧ x.usr ≠ [])

/-- some thread of the mailbox is awake -/
def Awake (x : Box) : Prop := ∃ pc ∈ x.thr, pc.active = true ∧ pc ≠ .wait

def sentUsr (b : Nat) (acts : List Act) : List Nat := acts.filterMap fun | .enqUsr c m => if c = b then some m else none | _ => none
def sentSys (b : Nat) (acts : List Act) : List Nat := acts.filterMap fun | .enqSys c m => if c = b then some m else none | _ => none

/-! ## Proofs -/

theorem wake_count (p : PC → Bool) (h : p .wait = p .top) (l : List PC) : (wake l).countP p = l.countP p := by
  induction l with
  | nil => rfl
  | cons pc l ih =>
    cases pc <;> simp [wake, List.countP_cons, ih, h]

theorem wake_length (l : List PC) : (wake l).length = l.length := by
  induction l with
  | nil => rfl
  | cons pc l ih => cases pc <;> simp [wake, ih]

theorem mem_wake {l : List PC} {pc : PC} (h : pc ∈ wake l) : pc ∈ l ∨ (pc = .top ∧ .wait ∈ l) := by
  induction l with
  | nil => simp [wake] at h
  | cons q l ih =>
    cases q <;> simp only [wake, List.mem_cons] at h <;> rcases h with h | h <;> try (subst h; simp; done)
    all_goals first
      | (left; simp [h]; done)
      | (rcases ih h with h | ⟨h1, h2⟩
         · left; simp [h]
         · right; exact ⟨h1, by simp [h2]⟩)

theorem wake_noWait {l : List PC} (h : l.countP PC.active ≤ 1) : .wait ∉ wake l := by
  induction l with
  | nil => simp [wake]
  | cons q l ih =>
    have key : ∀ (hq : q.active = true), .wait ∉ l := by
      intro hq hm
      have : 0 < l.countP PC.active := List.countP_pos_iff.2 ⟨_, hm, rfl⟩
      rw [List.countP_cons, if_pos hq] at h
      omega
    have hl : l.countP PC.active ≤ 1 := by rw [List.countP_cons] at h; omega
    cases q <;> simp only [wake, List.mem_cons, not_or]
    all_goals first
      | exact ⟨by simp, key rfl⟩
      | exact ⟨by simp, ih hl⟩

theorem countP_set' {l : List PC} {i : Nat} {pc q : PC} (h : l[i]? = some pc) (p : PC → Bool) : (l.set i q).countP p + (p pc).toNat = l.countP p + (p q).toNat := by
  induction l generalizing i with
  | nil => simp at h
  | cons x l ih =>
    cases i with
    | zero =>
      simp only [List.getElem?_cons_zero, Option.some.injEq] at h
      subst h
      simp only [List.set_cons_zero, List.countP_cons]
      cases p x <;> cases p q <;> simp <;> omega
    | succ i =>
      simp only [List.getElem?_cons_succ] at h
      have := ih h
      simp only [List.set_cons_succ, List.countP_cons]
      omega

theorem countP_eraseIdx' {l : List PC} {i : Nat} {pc : PC} (h : l[i]? = some pc) (p : PC → Bool) : (l.eraseIdx i).countP p + (p pc).toNat = l.countP p := by
  induction l generalizing i with
  | nil => simp at h
  | cons x l ih =>
    cases i with
    | zero =>
      simp only [List.getElem?_cons_zero, Option.some.injEq] at h
      subst h
      simp only [List.eraseIdx_cons_zero, List.countP_cons]
      cases p x <;> simp
    | succ i =>
      simp only [List.getElem?_cons_succ] at h
      have := ih h
      simp only [List.eraseIdx_cons_succ, List.countP_cons]
      omega

theorem mem_set' {l : List PC} {i : Nat} {q x : PC} (h : x ∈ l.set i q) : x = q ∨ x ∈ l := (List.mem_or_eq_of_mem_set h).symm

/-- the only active thread -/
theorem only {l : List PC} {i : Nat} {pc : PC} (h : l[i]? = some pc) (hp : pc.active = true) (h1 : l.countP PC.active ≤ 1) {q : PC} (hq : q ∈ l.set i .notify) : q.active = false := by
  have := countP_set' (q := .notify) h PC.active
  rw [hp, show PC.active .notify = false from rfl] at this
  simp only [Bool.toNat_true, Bool.toNat_false] at this
  have h0 : (l.set i .notify).countP PC.active = 0 := by omega
  simpa using List.countP_eq_zero.1 h0 q hq

theorem mem_set_other {l : List PC} {i : Nat} {pc q x : PC} (h : l[i]? = some pc) (hp : pc.active = true) (h1 : l.countP PC.active ≤ 1) (hx : x ∈ l.set i q) : x = q ∨ x.active = false := by
  obtain ⟨j, hj, hxj⟩ := List.getElem_of_mem hx
  by_cases hij : i = j
  · subst hij
    left
    rw [← hxj]; simp
  · right
    refine only h hp h1 (q := x) ?_
    have hj' : j < l.length := by simpa using hj
    have : (l.set i PC.notify)[j]'(by simpa using hj') = x := by
      rw [← hxj]
      simp [List.getElem_set, hij]
    rw [← this]
    exact List.getElem_mem _

structure Inv (limit : Nat) (made : Nat) (busy : Bool) (x : Box) : Prop where
  fifoU : x.accUsr = x.popUsr ++ x.usr
  fifoS : x.accSys = x.popSys ++ x.sys
  excl : x.thr.countP PC.active = x.scheduled.toNat
  locked : busy = true → x.scheduled = false
  asleep : .wait ∈ x.thr → x.sys = [] ∧ (x.started = true → x.usr = [])
  work : x.isOpen = true → Processable x → x.scheduled = true ∨ 0 < x.pending ∨ busy = true ∨ limit ≤ made
  dead : x.alive = false → x.detached = true
  closing : x.isOpen = true → x.detached = true → ∀ pc ∈ x.thr, pc.active = true → pc = .closing
  stop : x.isOpen = true → x.detached = true → x.scheduled = true

theorem Inv.excl' {limit made : Nat} {busy : Bool} {x : Box} (h : Inv limit made busy x) : x.thr.countP PC.active ≤ 1 := by
  rw [h.excl]; cases x.scheduled <;> simp

theorem Inv.grow {limit made made' : Nat} {busy : Bool} {x : Box} (h : Inv limit made busy x) (hm : made ≤ made') : Inv limit made' busy x :=
  ⟨h.fifoU, h.fifoS, h.excl, h.locked, h.asleep, fun h1 h2 => by
    rcases h.work h1 h2 with h | h | h | h
    · exact Or.inl h
    · exact Or.inr (Or.inl h)
    · exact Or.inr (Or.inr (Or.inl h))
    · exact Or.inr (Or.inr (Or.inr (Nat.le_trans h hm))), h.dead, h.closing, h.stop⟩

theorem inv_enqUsr {limit made : Nat} {x : Box} (m : Nat) (h : Inv limit made false x) : Inv limit made false (x.enqUsr m) := by
  unfold Box.enqUsr
  split
  · refine ⟨by simp [h.fifoU], h.fifoS, ?_, by simp, fun hw => absurd hw (wake_noWait h.excl'), ?_, h.dead, ?_, h.stop⟩
    · simp only; rw [wake_count _ rfl, h.excl]
    · intro _ _
      cases hs : x.scheduled with
      | true => simp
      | false => simp
    · intro h1 h2 pc hpc hact
      rcases mem_wake hpc with hpc | ⟨-, hw⟩
      · exact h.closing h1 h2 pc hpc hact
      · exact absurd (h.closing h1 h2 .wait hw rfl) (by simp)
  · exact h

theorem inv_enqSys {limit made : Nat} {x : Box} (m : Nat) (h : Inv limit made false x) : Inv limit made false (x.enqSys m) := by
  unfold Box.enqSys
  split
  · refine ⟨h.fifoU, by simp [h.fifoS], ?_, by simp, fun hw => absurd hw (wake_noWait h.excl'), ?_, h.dead, ?_, h.stop⟩
    · simp only; rw [wake_count _ rfl, h.excl]
    · intro _ _
      cases hs : x.scheduled with
      | true => simp
      | false => simp
    · intro h1 h2 pc hpc hact
      rcases mem_wake hpc with hpc | ⟨-, hw⟩
      · exact h.closing h1 h2 pc hpc hact
      · exact absurd (h.closing h1 h2 .wait hw rfl) (by simp)
  · exact h

/-- a step of a thread that stays active -/
theorem inv_move {limit made : Nat} {busy : Bool} {x y : Box} {i : Nat} {pc q : PC} (h : Inv limit made busy x) (hi : x.thr[i]? = some pc) (hp : pc.active = true) (hq : q.active = true)
    (ht : y.thr = x.thr.set i q) (hs : y.scheduled = x.scheduled) (hfU : y.accUsr = y.popUsr ++ y.usr) (hfS : y.accSys = y.popSys ++ y.sys) (hal : y.alive = x.alive) (hde : x.detached = true → y.detached = true)
    (hw : q = .wait → y.sys = [] ∧ (y.started = true → y.usr = [])) (hc : y.isOpen = true → y.detached = true → q = .closing) : Inv limit made busy y := by
  have hsch : x.scheduled = true := by
    have h1 : 0 < x.thr.countP PC.active := List.countP_pos_iff.2 ⟨pc, List.mem_of_getElem? hi, hp⟩
    rw [h.excl] at h1
    cases hx : x.scheduled with
    | true => rfl
    | false => rw [hx] at h1; simp at h1
  refine ⟨hfU, hfS, ?_, fun hb => by rw [hs]; exact h.locked hb, ?_, fun _ _ => Or.inl (by rw [hs]; exact hsch), fun ha => hde (h.dead (hal ▸ ha)), ?_, fun _ _ => by rw [hs]; exact hsch⟩
  · rw [ht, hs, ← h.excl]
    have := countP_set' (q := q) hi PC.active
    rw [hp, hq] at this
    omega
  · intro hm
    rw [ht] at hm
    rcases mem_set_other hi hp h.excl' hm with hm | hm
    · exact hw hm.symm
    · simp [PC.active] at hm
  · intro h1 h2 r hr hact
    rw [ht] at hr
    rcases mem_set_other hi hp h.excl' hr with hr | hr
    · rw [hr]; exact hc h1 h2
    · rw [hr] at hact; cases hact

theorem inv_task {limit made : Nat} {busy : Bool} {x y : Box} {i : Nat} {pc : PC} {o : Outcome} (h : Inv limit made busy x) (hi : x.thr[i]? = some pc) (hy : x.task i o pc = some y) : Inv limit made busy y := by
  have hmem : pc ∈ x.thr := List.mem_of_getElem? hi
  have hcl : pc.active = true → pc ≠ .closing → ¬ (x.isOpen = true ∧ x.detached = true) := fun h1 h2 h3 => h2 (h.closing h3.1 h3.2 pc hmem h1)
  cases pc with
  | start =>
    simp only [Box.task] at hy
    split at hy
    · simp only [Option.some.injEq] at hy
      subst hy
      exact inv_move (q := .top) h hi rfl rfl rfl rfl h.fifoU h.fifoS rfl id (by simp) (fun h1 h2 => absurd ⟨h1, h2⟩ (hcl rfl (by simp)))
    · simp at hy
  | top =>
    simp only [Box.task] at hy
    split at hy
    · rename_i m rest hsys
      simp only [Option.some.injEq] at hy
      subst hy
      exact inv_move (q := .sysMsg m) h hi rfl rfl rfl rfl h.fifoU (by simp [h.fifoS, hsys]) rfl id (by simp) (fun h1 h2 => absurd ⟨h1, h2⟩ (hcl rfl (by simp)))
    · rename_i hsys
      split at hy
      · split at hy
        · split at hy
          · rename_i m rest husr
            simp only [Option.some.injEq] at hy
            subst hy
            exact inv_move (q := .usrMsg m) h hi rfl rfl rfl rfl (by simp [h.fifoU, husr]) h.fifoS rfl id (by simp) (fun h1 h2 => absurd ⟨h1, h2⟩ (hcl rfl (by simp)))
          · rename_i husr
            simp only [Option.some.injEq] at hy
            subst hy
            exact inv_move (q := .wait) h hi rfl rfl rfl rfl h.fifoU h.fifoS rfl id (fun _ => ⟨hsys, fun _ => husr⟩) (fun h1 h2 => absurd ⟨h1, h2⟩ (hcl rfl (by simp)))
        · rename_i hst
          simp only [Option.some.injEq] at hy
          subst hy
          exact inv_move (q := .wait) h hi rfl rfl rfl rfl h.fifoU h.fifoS rfl id (fun _ => ⟨hsys, fun h => absurd h hst⟩) (fun h1 h2 => absurd ⟨h1, h2⟩ (hcl rfl (by simp)))
      · simp at hy
  | wait =>
    simp only [Box.task, Option.some.injEq] at hy
    subst hy
    exact inv_move (q := .top) h hi rfl rfl rfl rfl h.fifoU h.fifoS rfl id (by simp) (fun h1 h2 => absurd ⟨h1, h2⟩ (hcl rfl (by simp)))
  | sysMsg m =>
    simp only [Box.task] at hy
    split at hy
    · split at hy <;> simp only [Option.some.injEq] at hy <;> subst hy
      · exact inv_move (q := .top) h hi rfl rfl rfl rfl h.fifoU h.fifoS rfl id (by simp) (fun h1 h2 => absurd ⟨h1, h2⟩ (hcl rfl (by simp)))
      · exact inv_move (q := .top) h hi rfl rfl rfl rfl h.fifoU h.fifoS rfl id (by simp) (fun h1 h2 => absurd ⟨h1, h2⟩ (hcl rfl (by simp)))
      · exact inv_move (q := .closing) h hi rfl rfl rfl rfl h.fifoU h.fifoS rfl id (by simp) (fun _ _ => rfl)
      · exact inv_move (q := .closing) h hi rfl rfl rfl rfl h.fifoU h.fifoS rfl (fun _ => rfl) (by simp) (fun _ _ => rfl)
    · simp at hy
  | usrMsg m =>
    simp only [Box.task] at hy
    split at hy
    · simp only [Option.some.injEq] at hy
      subst hy
      exact inv_move (q := .top) h hi rfl rfl rfl rfl h.fifoU h.fifoS rfl id (by simp) (fun h1 h2 => absurd ⟨h1, h2⟩ (hcl rfl (by simp)))
    · simp at hy
  | closing =>
    simp only [Box.task, Option.some.injEq] at hy
    subst hy
    have h0 : (x.thr.set i .notify).countP PC.active = 0 := by
      rw [List.countP_eq_zero]
      intro q hq
      simp [only hi rfl h.excl' hq]
    refine ⟨h.fifoU, h.fifoS, by simpa using h0, fun _ => rfl, ?_, by simp, h.dead, by simp, by simp⟩
    intro hm
    have := List.countP_eq_zero.1 h0 _ hm
    simp [PC.active] at this
  | notify =>
    simp only [Box.task, Option.some.injEq] at hy
    subst hy
    have hc := countP_eraseIdx' hi PC.active
    simp only [PC.active, Bool.toNat_false, Nat.add_zero] at hc
    refine ⟨h.fifoU, h.fifoS, by simp only; rw [← h.excl]; exact hc, h.locked, fun hm => h.asleep (List.mem_of_mem_eraseIdx hm), h.work, h.dead, fun h1 h2 pc hpc => h.closing h1 h2 pc (List.mem_of_mem_eraseIdx hpc), h.stop⟩

structure SInv (limit : Nat) (s : St) : Prop where
  made : s.made ≤ limit
  box : ∀ b, Inv limit s.made (decide (s.busy = some b)) (s.box b)

theorem SInv.init (limit : Nat) : SInv limit St.init := by
  refine ⟨Nat.zero_le _, fun b => ⟨rfl, rfl, rfl, by simp [St.init], by simp [St.init, Box.init], ?_, by simp [St.init, Box.init], by simp [St.init, Box.init], by simp [St.init, Box.init]⟩⟩
  intro _ h
  simp [Processable, St.init, Box.init] at h

theorem SInv.set {limit : Nat} {s : St} (h : SInv limit s) {b : Nat} {x : Box} (hx : Inv limit s.made (decide (s.busy = some b)) x) : SInv limit (s.set b x) := by
  refine ⟨h.made, fun c => ?_⟩
  simp only [St.set]
  split
  · rename_i hc; subst hc; exact hx
  · exact h.box c

theorem hasWork_of {x : Box} (ho : x.isOpen = true) (h : Processable x) : x.hasWork = true := by
  unfold Box.hasWork
  rcases h with h | ⟨h1, h2⟩
  · split <;> simp [h]
  · simp [h1, h2, ho]

theorem SInv.step {limit : Nat} {s s' : St} {a : Act} (h : SInv limit s) (hs : step limit s a = .ok s') : SInv limit s' := by
  cases a with
  | enqUsr b m =>
    simp only [Pinned.step] at hs
    split at hs
    · cases hs
    · rename_i hb
      cases hs
      have hx := h.box b
      rw [decide_eq_false hb] at hx
      exact h.set (by rw [decide_eq_false hb]; exact inv_enqUsr m hx)
  | enqSys b m =>
    simp only [Pinned.step] at hs
    split at hs
    · cases hs
    · rename_i hb
      cases hs
      have hx := h.box b
      rw [decide_eq_false hb] at hx
      exact h.set (by rw [decide_eq_false hb]; exact inv_enqSys m hx)
  | schedBegin b =>
    simp only [Pinned.step, schedBegin] at hs
    split at hs
    · cases hs
    · rename_i hb
      have hb : (s.box b).pending ≠ 0 ∧ s.busy ≠ some b := by
        constructor
        · exact fun e => hb (Or.inl e)
        · exact fun e => hb (Or.inr e)
      have hx := h.box b
      rw [decide_eq_false hb.2] at hx
      split at hs
      · rename_i hsch
        cases hs
        refine h.set ?_
        rw [decide_eq_false hb.2]
        exact ⟨hx.fifoU, hx.fifoS, hx.excl, by simp, hx.asleep, fun _ _ => Or.inl hsch, hx.dead, hx.closing, hx.stop⟩
      · rename_i hsch
        split at hs
        · cases hs
        · split at hs
          · rename_i hw
            cases hs
            refine h.set ?_
            rw [decide_eq_false hb.2]
            have hf : (s.box b).scheduled = false := by simpa using hsch
            refine ⟨hx.fifoU, hx.fifoS, by simp only; rw [hx.excl, hf], by simp, hx.asleep, ?_, hx.dead, hx.closing, fun h1 h2 => by have := hx.stop h1 h2; rw [hf] at this; cases this⟩
            intro h1 h2
            rw [show (s.box b).hasWork = true from hasWork_of h1 h2] at hw
            simp at hw
          · split at hs
            · cases hs
            · cases hs
              rename_i hn
              have hn : s.busy = none := by simpa using hn
              refine ⟨h.made, fun c => ?_⟩
              simp only [St.set]
              by_cases hc : c = b
              · subst hc
                rw [if_pos rfl]
                have hf : (s.box c).scheduled = false := by simpa using hsch
                refine ⟨hx.fifoU, hx.fifoS, hx.excl, fun _ => hf, hx.asleep, fun _ _ => Or.inr (Or.inr (Or.inl (by simp))), hx.dead, hx.closing, hx.stop⟩
              · rw [if_neg hc]
                have := h.box c
                rw [hn] at this
                simpa [Ne.symm hc] using this
  | schedEnd b =>
    simp only [Pinned.step, schedEnd] at hs
    split at hs
    · cases hs
    · rename_i hb
      have hb : s.busy = some b := by simpa using hb
      have hx := h.box b
      rw [decide_eq_true hb] at hx
      have hf := hx.locked rfl
      split at hs
      · rename_i hm
        cases hs
        refine ⟨h.made, fun c => ?_⟩
        simp only [St.set]
        by_cases hc : c = b
        · subst hc
          rw [if_pos rfl]
          exact ⟨hx.fifoU, hx.fifoS, by simp only; rw [hx.excl, hf], by simp, hx.asleep, fun _ _ => Or.inr (Or.inr (Or.inr hm)), hx.dead, hx.closing, fun h1 h2 => by have := hx.stop h1 h2; rw [hf] at this; cases this⟩
        · rw [if_neg hc]
          have := h.box c
          rw [hb] at this
          simpa [Ne.symm hc] using this
      · rename_i hm
        cases hs
        refine ⟨by simp only [St.set]; omega, fun c => ?_⟩
        simp only [St.set]
        by_cases hc : c = b
        · subst hc
          rw [if_pos rfl]
          have h0 : (s.box c).thr.countP PC.active = 0 := by rw [hx.excl, hf]; rfl
          have hno : ∀ pc ∈ (s.box c).thr, pc.active = false := fun pc hpc => by simpa using List.countP_eq_zero.1 h0 pc hpc
          refine ⟨hx.fifoU, hx.fifoS, by simp [List.countP_append, h0, PC.active], by simp, ?_, fun _ _ => Or.inl rfl, hx.dead, ?_, fun _ _ => rfl⟩
          · intro hw
            rcases List.mem_append.1 hw with hw | hw
            · have := hno _ hw; simp [PC.active] at this
            · simp at hw
          · intro h1 h2
            have := hx.stop h1 h2
            rw [hf] at this
            simp at this
        · rw [if_neg hc]
          have := (h.box c).grow (Nat.le_succ s.made)
          rw [hb] at this
          simpa [Ne.symm hc] using this
  | task b i o =>
    simp only [Pinned.step] at hs
    split at hs
    · cases hs
    · rename_i pc hi
      split at hs
      · cases hs
      · split at hs
        · cases hs
        · rename_i y hy
          cases hs
          exact h.set (inv_task (h.box b) hi hy)
  | destroy b =>
    simp only [Pinned.step] at hs
    split at hs
    · rename_i hd
      cases hs
      have hx := h.box b
      exact h.set ⟨hx.fifoU, hx.fifoS, hx.excl, hx.locked, hx.asleep, hx.work, fun _ => hd.1, hx.closing, hx.stop⟩
    · cases hs

theorem SInv.reach {limit : Nat} {acts : List Act} {s : St} (h : Reach limit acts s) : SInv limit s := by
  induction h with
  | init => exact SInv.init limit
  | step _ hs ih => exact ih.step hs

/-- what an action can do to the messages that a mailbox has accepted -/
theorem acc_step {limit : Nat} {s s' : St} {a : Act} (b : Nat) (hs : step limit s a = .ok s') :
    ((s'.box b).isOpen = true → (s.box b).isOpen = true) ∧
    (s'.box b).accUsr = (s.box b).accUsr ++ (if (s.box b).isOpen then sentUsr b [a] else []) ∧
    (s'.box b).accSys = (s.box b).accSys ++ (if (s.box b).isOpen then sentSys b [a] else []) := by
  have key : ∀ (c : Nat) (y : Box), ((y.isOpen = true → (s.box c).isOpen = true) ∧ y.accUsr = (s.box c).accUsr ++ (if (s.box c).isOpen then sentUsr c [a] else []) ∧ y.accSys = (s.box c).accSys ++ (if (s.box c).isOpen then sentSys c [a] else [])) →
      (∀ d, d ≠ c → sentUsr d [a] = [] ∧ sentSys d [a] = []) →
      (((s.set c y).box b).isOpen = true → (s.box b).isOpen = true) ∧
      ((s.set c y).box b).accUsr = (s.box b).accUsr ++ (if (s.box b).isOpen then sentUsr b [a] else []) ∧
      ((s.set c y).box b).accSys = (s.box b).accSys ++ (if (s.box b).isOpen then sentSys b [a] else []) := by
    intro c y hy hd
    simp only [St.set]
    by_cases hb : b = c
    · subst hb; simpa using hy
    · rw [if_neg hb]
      simp [hd b hb]
  cases a with
  | enqUsr c m =>
    simp only [Pinned.step] at hs
    split at hs
    · cases hs
    · cases hs
      refine key c _ ?_ (fun d hd => by simp [sentUsr, sentSys, Ne.symm hd])
      unfold Box.enqUsr
      split <;> rename_i ho <;> simp [sentUsr, sentSys, ho]
  | enqSys c m =>
    simp only [Pinned.step] at hs
    split at hs
    · cases hs
    · cases hs
      refine key c _ ?_ (fun d hd => by simp [sentUsr, sentSys, Ne.symm hd])
      unfold Box.enqSys
      split <;> rename_i ho <;> simp [sentUsr, sentSys, ho]
  | schedBegin c =>
    simp only [Pinned.step, schedBegin] at hs
    split at hs
    · cases hs
    · split at hs
      · cases hs
        exact key c _ (by simp [sentUsr, sentSys]) (fun d hd => by simp [sentUsr, sentSys])
      · split at hs
        · cases hs
        · split at hs
          · cases hs
            exact key c _ (by simp [sentUsr, sentSys]) (fun d hd => by simp [sentUsr, sentSys])
          · split at hs
            · cases hs
            · cases hs
              exact key c _ (by simp [sentUsr, sentSys]) (fun d hd => by simp [sentUsr, sentSys])
  | schedEnd c =>
    simp only [Pinned.step, schedEnd] at hs
    split at hs
    · cases hs
    · split at hs
      · cases hs
        exact key c _ (by simp [sentUsr, sentSys]) (fun d hd => by simp [sentUsr, sentSys])
      · cases hs
        exact key c _ (by simp [sentUsr, sentSys]) (fun d hd => by simp [sentUsr, sentSys])
  | task c i o =>
    simp only [Pinned.step] at hs
    split at hs
    · cases hs
    · rename_i pc hi
      split at hs
      · cases hs
      · split at hs
        · cases hs
        · rename_i y hy
          cases hs
          refine key c _ ?_ (fun d hd => by simp [sentUsr, sentSys])
          have : (y.isOpen = true → (s.box c).isOpen = true) ∧ y.accUsr = (s.box c).accUsr ∧ y.accSys = (s.box c).accSys := by
            cases pc <;> simp only [Box.task] at hy
            case top =>
              split at hy
              · cases hy; simp
              · split at hy
                · split at hy
                  · split at hy <;> cases hy <;> simp
                  · cases hy; simp
                · cases hy
            case start => split at hy <;> cases hy; simp
            case sysMsg =>
              split at hy
              · split at hy <;> cases hy <;> simp
              · cases hy
            case usrMsg => split at hy <;> cases hy; simp
            all_goals (cases hy; simp)
          simpa [sentUsr, sentSys] using this
  | destroy c =>
    simp only [Pinned.step] at hs
    split at hs
    · cases hs
      exact key c _ (by simp [sentUsr, sentSys]) (fun d hd => by simp [sentUsr, sentSys])
    · cases hs

theorem acc_reach {limit : Nat} {acts : List Act} {s : St} (b : Nat) (h : Reach limit acts s) :
    ∃ k l, (s.box b).accUsr = (sentUsr b acts).take k ∧ (s.box b).accSys = (sentSys b acts).take l ∧
      ((s.box b).isOpen = true → k = (sentUsr b acts).length ∧ l = (sentSys b acts).length) ∧ k ≤ (sentUsr b acts).length ∧ l ≤ (sentSys b acts).length := by
  induction h with
  | init => exact ⟨0, 0, rfl, rfl, fun _ => ⟨rfl, rfl⟩, Nat.le_refl _, Nat.le_refl _⟩
  | @step acts s s' a _ hs ih =>
    obtain ⟨k, l, h1, h2, h3, h4, h5⟩ := ih
    obtain ⟨g1, g2, g3⟩ := acc_step b hs
    have e1 : sentUsr b (acts ++ [a]) = sentUsr b acts ++ sentUsr b [a] := by simp only [sentUsr, List.filterMap_append]
    have e2 : sentSys b (acts ++ [a]) = sentSys b acts ++ sentSys b [a] := by simp only [sentSys, List.filterMap_append]
    rw [g2, g3, e1, e2]
    cases ho : (s.box b).isOpen with
    | true =>
      obtain ⟨hk, hl⟩ := h3 ho
      subst hk hl
      rw [List.take_length] at h1 h2
      refine ⟨(sentUsr b acts ++ sentUsr b [a]).length, (sentSys b acts ++ sentSys b [a]).length, ?_, ?_, fun _ => ⟨rfl, rfl⟩, Nat.le_refl _, Nat.le_refl _⟩
      · rw [List.take_length, h1]; simp
      · rw [List.take_length, h2]; simp
    | false =>
      refine ⟨k, l, ?_, ?_, ?_, by simp; omega, by simp; omega⟩
      · rw [List.take_append_of_le_length h4, h1]; simp
      · rw [List.take_append_of_le_length h5, h2]; simp
      · intro ho'; have := g1 ho'; rw [ho] at this; cases this

/-- the threads that exist now, of some mailboxes -/
def threads (s : St) (bs : List Nat) : Nat := (bs.map fun b => (s.box b).thr.length).sum

theorem threads_set {s : St} {c : Nat} {y : Box} {bs : List Nat} (hn : bs.Nodup) (k : Nat) (h : y.thr.length ≤ (s.box c).thr.length + k) : threads (s.set c y) bs ≤ threads s bs + k := by
  have hout : ∀ l : List Nat, c ∉ l → threads (s.set c y) l = threads s l := by
    intro l
    induction l with
    | nil => intro _; rfl
    | cons b l ih =>
      intro hc
      simp only [List.mem_cons, not_or] at hc
      have := ih hc.2
      simp only [threads, St.set] at this ⊢
      simp only [List.map_cons, List.sum_cons, this, if_neg (Ne.symm hc.1)]
  induction bs with
  | nil => simp [threads]
  | cons b l ih =>
    rw [List.nodup_cons] at hn
    by_cases hb : b = c
    · subst hb
      have := hout l hn.1
      simp only [threads, St.set] at this ⊢
      simp only [List.map_cons, List.sum_cons, this, if_pos]
      omega
    · have := ih hn.2
      simp only [threads, St.set] at this ⊢
      simp only [List.map_cons, List.sum_cons, if_neg hb]
      omega

theorem task_length {x y : Box} {i : Nat} {o : Outcome} {pc : PC} (hy : x.task i o pc = some y) : y.thr.length ≤ x.thr.length := by
  cases pc <;> simp only [Box.task] at hy
  case top =>
    split at hy
    · cases hy; simp
    · split at hy
      · split at hy
        · split at hy <;> cases hy <;> simp
        · cases hy; simp
      · cases hy
  case start => split at hy <;> cases hy; simp
  case sysMsg =>
    split at hy
    · split at hy <;> cases hy <;> simp
    · cases hy
  case usrMsg => split at hy <;> cases hy; simp
  case notify => cases hy; exact List.length_eraseIdx_le _ _
  all_goals (cases hy; simp)

theorem threads_made {limit : Nat} {acts : List Act} {s : St} (h : Reach limit acts s) {bs : List Nat} (hn : bs.Nodup) : threads s bs ≤ s.made := by
  induction h with
  | init =>
    have : threads St.init bs = 0 := by
      clear hn
      induction bs with
      | nil => rfl
      | cons b l ih => simp only [threads, List.map_cons, List.sum_cons] at ih ⊢; rw [ih]; rfl
    rw [this]; exact Nat.zero_le _
  | @step acts s s' a _ hs ih =>
    cases a with
    | enqUsr b m =>
      simp only [Pinned.step] at hs
      split at hs <;> cases hs
      refine Nat.le_trans (threads_set hn 0 ?_) ih
      unfold Box.enqUsr
      split <;> simp [wake_length]
    | enqSys b m =>
      simp only [Pinned.step] at hs
      split at hs <;> cases hs
      refine Nat.le_trans (threads_set hn 0 ?_) ih
      unfold Box.enqSys
      split <;> simp [wake_length]
    | schedBegin b =>
      simp only [Pinned.step, schedBegin] at hs
      split at hs
      · cases hs
      · split at hs
        · cases hs
          exact Nat.le_trans (threads_set hn 0 (Nat.le_refl _)) ih
        · split at hs
          · cases hs
          · split at hs
            · cases hs
              exact Nat.le_trans (threads_set hn 0 (Nat.le_refl _)) ih
            · split at hs <;> cases hs
              exact Nat.le_trans (threads_set (s := s) hn 0 (Nat.le_refl _)) ih
    | schedEnd b =>
      simp only [Pinned.step, schedEnd] at hs
      split at hs
      · cases hs
      · split at hs <;> cases hs
        · exact Nat.le_trans (threads_set (s := s) hn 0 (Nat.le_refl _)) ih
        · have := threads_set (s := s) (c := b) (y := { s.box b with scheduled := true, thr := (s.box b).thr ++ [.start] }) hn 1 (by simp)
          exact Nat.le_trans this (Nat.succ_le_succ ih)
    | task b i o =>
      simp only [Pinned.step] at hs
      split at hs
      · cases hs
      · split at hs
        · cases hs
        · split at hs
          · cases hs
          · rename_i hy
            cases hs
            exact Nat.le_trans (threads_set hn 0 (task_length hy)) ih
    | destroy b =>
      simp only [Pinned.step] at hs
      split at hs <;> cases hs
      exact Nat.le_trans (threads_set hn 0 (Nat.le_refl _)) ih

/-! ## Theorems -/

/-- **Order, and nothing lost.** What the actor gets, followed by what still waits, is a prefix of what was sent, in the order of sending, separately for user and system messages; and all that was sent as long as
the mailbox is open. -/
theorem C65_fifo (limit : Nat) (acts : List Act) (s : St) (b : Nat) (h : Reach limit acts s) :
    (s.box b).popUsr ++ (s.box b).usr <+: sentUsr b acts ∧ (s.box b).popSys ++ (s.box b).sys <+: sentSys b acts ∧
    ((s.box b).isOpen = true → (s.box b).popUsr ++ (s.box b).usr = sentUsr b acts ∧ (s.box b).popSys ++ (s.box b).sys = sentSys b acts) := by
  have hx := (SInv.reach h).box b
  obtain ⟨k, l, h1, h2, h3, -, -⟩ := acc_reach b h
  rw [← hx.fifoU, ← hx.fifoS, h1, h2]
  refine ⟨List.take_prefix _ _, List.take_prefix _ _, fun ho => ?_⟩
  obtain ⟨hk, hl⟩ := h3 ho
  subst hk hl
  simp

/-- **One thread for each actor.** However many senders there are, at most one thread of a mailbox can run the actor, even after the mailbox is closed; so two threads are never inside its code. -/
theorem C65_exclusive (limit : Nat) (acts : List Act) (s : St) (b : Nat) (h : Reach limit acts s) :
    (s.box b).thr.countP PC.active ≤ 1 ∧ (s.box b).thr.countP PC.inside ≤ 1 := by
  have h1 := ((SInv.reach h).box b).excl'
  refine ⟨h1, Nat.le_trans (List.countP_mono_left fun pc _ hp => ?_) h1⟩
  cases pc <;> simp_all [PC.inside, PC.active]

/-- One piece of a thread by which no system message stops the actor. -/
theorem open_task {x y : Box} {i : Nat} {o : Outcome} {pc : PC} (ho : o ≠ .startFail ∧ o ≠ .stopped) (hx : x.isOpen = true ∧ PC.closing ∉ x.thr) (hi : x.thr[i]? = some pc)
    (h : x.task i o pc = some y) : y.isOpen = true ∧ PC.closing ∉ y.thr := by
  have setp : ∀ pc : PC, pc ≠ .closing → PC.closing ∉ x.thr.set i pc := by
    intro pc hne hm
    rcases List.mem_or_eq_of_mem_set hm with hm | hm
    · exact hx.2 hm
    · exact hne hm.symm
  cases pc with
  | closing => exact absurd (List.mem_of_getElem? hi) hx.2
  | notify =>
    cases h
    exact ⟨hx.1, fun hm => hx.2 (List.mem_of_mem_eraseIdx hm)⟩
  | sysMsg m =>
    simp only [Box.task] at h
    split at h
    · cases o with
      | keep => cases h; exact ⟨hx.1, setp _ (by simp)⟩
      | startOk => cases h; exact ⟨hx.1, setp _ (by simp)⟩
      | startFail => exact absurd rfl ho.1
      | stopped => exact absurd rfl ho.2
    · cases h
  | start =>
    simp only [Box.task] at h
    split at h <;> cases h
    exact ⟨hx.1, setp _ (by simp)⟩
  | top =>
    simp only [Box.task] at h
    repeat' split at h
    all_goals first
      | (cases h; done)
      | (cases h; exact ⟨hx.1, setp _ (by simp)⟩)
  | wait =>
    cases h
    exact ⟨hx.1, setp _ (by simp)⟩
  | usrMsg m =>
    simp only [Box.task] at h
    split at h <;> cases h
    exact ⟨hx.1, setp _ (by simp)⟩

/-- **The mailbox stays open.** As long as no system message stops the actor, its mailbox accepts messages. -/
theorem C65_stays_open (limit : Nat) (acts : List Act) (s : St) (b : Nat) (h : Reach limit acts s) (ha : ∀ j, Act.task b j .startFail ∉ acts ∧ Act.task b j .stopped ∉ acts) :
    (s.box b).isOpen = true := by
  have key : (s.box b).isOpen = true ∧ PC.closing ∉ (s.box b).thr := by
    induction h with
    | init => exact ⟨rfl, by simp [St.init, Box.init]⟩
    | @step acts s s' a _ hs ih =>
      have ih := ih fun j => ⟨fun hm => (ha j).1 (List.mem_append_left _ hm), fun hm => (ha j).2 (List.mem_append_left _ hm)⟩
      have hset : ∀ (c : Nat) (x : Box), (c = b → x.isOpen = true ∧ PC.closing ∉ x.thr) → ((s.set c x).box b).isOpen = true ∧ PC.closing ∉ ((s.set c x).box b).thr := by
        intro c x hx
        simp only [St.set]
        split
        · rename_i e; exact hx e.symm
        · exact ih
      cases a with
      | enqUsr c m =>
        simp only [step] at hs
        split at hs <;> cases hs
        refine hset c _ fun e => ?_
        subst e
        simp only [Box.enqUsr]
        split
        · exact ⟨ih.1, fun hm => (mem_wake hm).elim ih.2 (fun e => nomatch e.1)⟩
        · exact ih
      | enqSys c m =>
        simp only [step] at hs
        split at hs <;> cases hs
        refine hset c _ fun e => ?_
        subst e
        simp only [Box.enqSys]
        split
        · exact ⟨ih.1, fun hm => (mem_wake hm).elim ih.2 (fun e => nomatch e.1)⟩
        · exact ih
      | schedBegin c =>
        simp only [step, schedBegin] at hs
        repeat' split at hs
        all_goals first
          | (cases hs; done)
          | (cases hs; exact hset c _ fun e => by subst e; exact ih)
      | schedEnd c =>
        simp only [step, schedEnd] at hs
        repeat' split at hs
        all_goals first
          | (cases hs; done)
          | (cases hs; exact hset c _ fun e => by subst e; exact ih)
          | (cases hs; exact hset c _ fun e => by subst e; exact ⟨ih.1, by simp [ih.2]⟩)
      | destroy c =>
        simp only [step] at hs
        split at hs <;> cases hs
        exact hset c _ fun e => by subst e; exact ih
      | task c i o =>
        simp only [step] at hs
        split at hs
        · cases hs
        · rename_i pc hpc
          split at hs
          · cases hs
          · split at hs
            · cases hs
            · rename_i y hy
              cases hs
              refine hset c _ fun e => ?_
              subst e
              refine open_task ⟨fun he => ?_, fun he => ?_⟩ ih hpc hy
              · exact (ha i).1 (by simp [he])
              · exact (ha i).2 (by simp [he])
  exact key.1

/-- **No lost wake-up.** A message that the actor of an open mailbox may process is never left to lie: a thread is awake, or a sender is about to start one, unless the limit of threads was reached. -/
theorem C65_work (limit : Nat) (acts : List Act) (s : St) (b : Nat) (h : Reach limit acts s) (ho : (s.box b).isOpen = true) (hp : Processable (s.box b)) :
    Awake (s.box b) ∨ 0 < (s.box b).pending ∨ s.busy = some b ∨ limit ≤ s.made := by
  have hx := (SInv.reach h).box b
  rcases hx.work ho hp with h | h | h | h
  · left
    have h1 : 0 < (s.box b).thr.countP PC.active := by rw [hx.excl, h]; decide
    obtain ⟨pc, hpc, hact⟩ := List.countP_pos_iff.1 h1
    refine ⟨pc, hpc, hact, fun e => ?_⟩
    subst e
    obtain ⟨h1, h2⟩ := hx.asleep hpc
    rcases hp with hp | ⟨hp1, hp2⟩
    · exact hp h1
    · exact hp2 (h2 hp1)
  · exact Or.inr (Or.inl h)
  · exact Or.inr (Or.inr (Or.inl (by simpa using h)))
  · exact Or.inr (Or.inr (Or.inr h))

/-- **The limit.** However many mailboxes there are, together they never have more threads than the executor was given. -/
theorem C65_limit (limit : Nat) (acts : List Act) (s : St) (h : Reach limit acts s) (bs : List Nat) (hn : bs.Nodup) : (bs.map fun b => (s.box b).thr.length).sum ≤ limit :=
  Nat.le_trans (threads_made h hn) (SInv.reach h).made

/-- the mailbox an action is about -/
def Act.of : Act → Nat
  | .enqUsr b _ | .enqSys b _ | .schedBegin b | .schedEnd b | .task b _ _ | .destroy b => b

/-- **Safety while open.** For a mailbox that is open the only way to undefined behaviour is a sender that starts a thread while another sender is starting one for another mailbox. In particular the threads
themselves never touch a destroyed actor. -/
theorem C65_safe_partial (limit : Nat) (acts : List Act) (s : St) (a : Act) (h : Reach limit acts s) (ho : (s.box a.of).isOpen = true) (hu : step limit s a = .ub) :
    a = .schedBegin a.of ∧ ∃ c, c ≠ a.of ∧ s.busy = some c := by
  have hx := (SInv.reach h).box a.of
  cases a with
  | enqUsr b m => simp only [step] at hu; split at hu <;> cases hu
  | enqSys b m => simp only [step] at hu; split at hu <;> cases hu
  | destroy b => simp only [step] at hu; split at hu <;> cases hu
  | schedEnd b =>
    simp only [step, schedEnd] at hu
    split at hu
    · cases hu
    · split at hu <;> cases hu
  | schedBegin b =>
    refine ⟨rfl, ?_⟩
    simp only [step, schedBegin] at hu
    split at hu
    · cases hu
    · rename_i hb
      split at hu
      · cases hu
      · rename_i hsch
        split at hu
        · rename_i ha
          have := hx.stop ho (hx.dead (show (s.box b).alive = false by simpa using ha))
          exact absurd this hsch
        · split at hu
          · cases hu
          · split at hu
            · rename_i hbusy
              obtain ⟨c, hc⟩ := Option.isSome_iff_exists.1 hbusy
              exact ⟨c, fun e => hb (Or.inr (by rw [hc, e]; rfl)), hc⟩
            · cases hu
  | task b i o =>
    exfalso
    simp only [step] at hu
    split at hu
    · cases hu
    · rename_i pc hi
      split at hu
      · cases hu
      · split at hu
        · rename_i hy
          have hal : pc.active = true → pc ≠ .closing → (s.box b).alive = true := by
            intro h1 h2
            cases ha : (s.box b).alive with
            | true => rfl
            | false => exact absurd (hx.closing ho (hx.dead ha) pc (List.mem_of_getElem? hi) h1) h2
          cases pc <;> simp only [Box.task] at hy
          case start => rw [hal rfl (by simp)] at hy; simp at hy
          case top =>
            split at hy
            · simp at hy
            · rw [hal rfl (by simp)] at hy
              simp only [if_pos] at hy
              split at hy
              · split at hy <;> simp at hy
              · simp at hy
          case sysMsg =>
            rw [hal rfl (by simp)] at hy
            simp only [if_pos] at hy
            split at hy <;> simp at hy
          case usrMsg => rw [hal rfl (by simp)] at hy; simp at hy
          all_goals simp at hy
        · cases hu

/-! ## The hypotheses can be met -/

theorem Reach.run {limit : Nat} {acts0 acts : List Act} {s0 s : St} (h0 : Reach limit acts0 s0) (h : run limit s0 acts = .ok s) : Reach limit (acts0 ++ acts) s := by
  induction acts generalizing acts0 s0 with
  | nil => simp only [Pinned.run] at h; cases h; simpa using h0
  | cons a as ih =>
    simp only [Pinned.run] at h
    cases hs : Pinned.step limit s0 a with
    | ok s' =>
      rw [hs] at h
      have := ih (h0.step hs) h
      simpa using this
    | ub => rw [hs] at h; cases h
    | disabled => rw [hs] at h; cases h

/-- the state after a list of actions, for the examples -/
def after (limit : Nat) (acts : List Act) : Option St := match run limit St.init acts with | .ok s => some s | _ => none

theorem after_reach {limit : Nat} {acts : List Act} {s : St} (h : after limit acts = some s) : Reach limit acts s := by
  unfold after at h
  split at h
  · rename_i s' hs; cases h; simpa using Reach.run .init hs
  · cases h

/-- two actors, each with its thread: both are started, get a message and go to sleep; then the first gets one more -/
def exTrace : List Act :=
  [.enqSys 0 0, .enqSys 1 0, .enqUsr 0 7, .schedBegin 0, .schedEnd 0, .schedBegin 1, .schedEnd 1, .task 0 0 .keep, .task 0 0 .keep, .task 0 0 .startOk, .task 0 0 .keep, .task 0 0 .keep, .task 0 0 .keep,
   .task 1 0 .keep, .task 1 0 .keep, .task 1 0 .startOk, .task 1 0 .keep, .enqUsr 0 8, .enqUsr 0 9]

example : ∃ s, Reach 4 exTrace s ∧ s.made = 2 ∧ (s.box 0).isOpen = true ∧ (s.box 0).popUsr = [7] ∧ (s.box 0).usr = [8, 9] ∧ (s.box 0).started = true ∧ (s.box 0).thr = [.top] ∧ (s.box 1).thr = [.wait] :=
  ⟨_, after_reach (s := (after 4 exTrace).get rfl) rfl, by decide +kernel⟩

/-- no action of it stops the first actor -/
example : ∀ j, Act.task 0 j .startFail ∉ exTrace ∧ Act.task 0 j .stopped ∉ exTrace := by
  intro j
  simp [exTrace]

/-! ## What is false -/

/-- **Starting two threads races.** `execute` has no lock of its own, so two senders that start the threads of two different actors at the same time modify the executor's vector of threads at the same time. -/
theorem C65_race_violated (limit m m' : Nat) : run limit St.init [.enqSys 0 m, .enqSys 1 m', .schedBegin 0, .schedBegin 1] = .ub := by
  simp [run, step, schedBegin, St.init, St.set, Box.init, Box.enqSys, Box.hasWork, wake]

/-- the first actor is started and stopped, and its thread ends; then a message is sent to the second -/
def limitTrace : List Act :=
  [.enqSys 0 0, .schedBegin 0, .schedEnd 0, .task 0 0 .keep, .task 0 0 .keep, .task 0 0 .startOk, .enqSys 0 1, .task 0 0 .keep, .task 0 0 .stopped, .task 0 0 .keep, .task 0 0 .keep, .destroy 0,
   .enqSys 1 0, .schedBegin 1, .schedEnd 1]

/-- **Threads that ended still count.** With a limit of one thread, the thread of an actor that has stopped and gone is not replaced: the next actor gets no thread, and its message stays in the mailbox, with no
thread and no sender that would ever look at it. -/
theorem C65_limit_violated : ∃ s, Reach 1 limitTrace s ∧ (s.box 0).thr = [] ∧ (s.box 1).isOpen = true ∧ (s.box 1).sys = [0] ∧ (s.box 1).thr = [] ∧ (s.box 1).pending = 0 ∧ s.busy = none :=
  ⟨_, after_reach (s := (after 1 limitTrace).get rfl) rfl, by decide +kernel⟩

/-- two senders; the second one is slow: it looks at the mailbox when the actor has stopped and closed it, with one more system message in it -/
def joinTrace : List Act :=
  [.enqSys 0 0, .enqSys 0 1, .schedBegin 0, .schedEnd 0, .task 0 0 .keep, .task 0 0 .keep, .task 0 0 .startOk, .task 0 0 .keep, .task 0 0 .stopped, .enqSys 0 2, .task 0 0 .keep, .task 0 0 .keep,
   .schedBegin 0, .schedEnd 0, .task 0 0 .keep, .task 0 0 .keep, .task 0 0 .keep, .task 0 0 .keep]

theorem hang_step {limit : Nat} {s s' : St} {a : Act}
    (h : (s.box 0).isOpen = false ∧ (s.box 0).sys = [] ∧ (s.box 0).started = false ∧ (s.box 0).scheduled = true ∧ s.busy ≠ some 0 ∧ ((s.box 0).thr = [.wait] ∨ (s.box 0).thr = [.top])) (hs : step limit s a = .ok s') :
    (s'.box 0).isOpen = false ∧ (s'.box 0).sys = [] ∧ (s'.box 0).started = false ∧ (s'.box 0).scheduled = true ∧ s'.busy ≠ some 0 ∧ ((s'.box 0).thr = [.wait] ∨ (s'.box 0).thr = [.top]) := by
  obtain ⟨h1, h2, h3, h4, h5, h6⟩ := h
  by_cases ha : a.of = 0
  · cases a with
    | enqUsr b m =>
      simp only [Act.of] at ha; subst ha
      simp only [step, if_neg h5] at hs
      cases hs
      simp [St.set, Box.enqUsr, h1, h2, h3, h4, h5, h6]
    | enqSys b m =>
      simp only [Act.of] at ha; subst ha
      simp only [step, if_neg h5] at hs
      cases hs
      simp [St.set, Box.enqSys, h1, h2, h3, h4, h5, h6]
    | schedBegin b =>
      simp only [Act.of] at ha; subst ha
      simp only [step, schedBegin, h4] at hs
      split at hs
      · cases hs
      · simp only [if_pos] at hs
        cases hs
        simp [St.set, h1, h2, h3, h5, h6]
    | schedEnd b =>
      simp only [Act.of] at ha; subst ha
      simp only [step, schedEnd, ne_eq, h5, not_false_eq_true, if_pos] at hs
      cases hs
    | task b i o =>
      simp only [Act.of] at ha; subst ha
      simp only [step] at hs
      cases i with
      | succ i => rcases h6 with h6 | h6 <;> simp [h6] at hs
      | zero =>
        rcases h6 with h6 | h6
        · simp only [h6, List.getElem?_cons_zero, PC.locks, h5, Box.task] at hs
          simp at hs
          subst hs
          simp [St.set, h1, h2, h3, h4, h5, h6]
        · simp only [h6, List.getElem?_cons_zero, PC.locks, h5, Box.task, h2, h3] at hs
          cases hal : (s.box 0).alive with
          | false => simp [hal] at hs
          | true =>
            simp [hal] at hs
            subst hs
            simp [St.set, h1, h2, h3, h4, h5, h6]
    | destroy b =>
      simp only [Act.of] at ha; subst ha
      simp only [step] at hs
      split at hs
      · cases hs
        simp [St.set, h1, h2, h3, h4, h5, h6]
      · cases hs
  · have hbox : s'.box 0 = s.box 0 ∧ s'.busy ≠ some 0 := by
      have ha' : ¬ 0 = a.of := fun e => ha e.symm
      cases a with
      | enqUsr b m => simp only [Act.of] at ha'; simp only [step] at hs; split at hs <;> cases hs; simp [St.set, ha', h5]
      | enqSys b m => simp only [Act.of] at ha'; simp only [step] at hs; split at hs <;> cases hs; simp [St.set, ha', h5]
      | schedBegin b =>
        simp only [Act.of] at ha'
        simp only [step, schedBegin] at hs
        split at hs
        · cases hs
        · split at hs
          · cases hs; simp [St.set, ha', h5]
          · split at hs
            · cases hs
            · split at hs
              · cases hs; simp [St.set, ha', h5]
              · split at hs <;> cases hs
                simp [St.set, ha', Ne.symm ha']
      | schedEnd b =>
        simp only [Act.of] at ha'
        simp only [step, schedEnd] at hs
        split at hs
        · cases hs
        · split at hs <;> cases hs <;> simp [St.set, ha']
      | task b i o =>
        simp only [Act.of] at ha'
        simp only [step] at hs
        split at hs
        · cases hs
        · split at hs
          · cases hs
          · split at hs <;> cases hs
            simp [St.set, ha', h5]
      | destroy b => simp only [Act.of] at ha'; simp only [step] at hs; split at hs <;> cases hs; simp [St.set, ha', h5]
    rw [hbox.1]
    exact ⟨h1, h2, h3, h4, hbox.2, h6⟩

/-- **A late sender.** Without the hypothesis that the mailbox is open, `C65_safe_partial` is false: a slow sender may look for work through an actor that was destroyed. -/
theorem C65_late_sender_violated (limit : Nat) (hl : 0 < limit) : run limit St.init
    [.enqSys 0 0, .enqSys 0 1, .schedBegin 0, .schedEnd 0, .task 0 0 .keep, .task 0 0 .keep, .task 0 0 .startOk, .task 0 0 .keep, .task 0 0 .stopped, .task 0 0 .keep, .task 0 0 .keep, .destroy 0, .schedBegin 0] = .ub := by
  have : ¬ limit = 0 := by omega
  simp [run, step, schedBegin, schedEnd, St.init, St.set, Box.init, Box.enqSys, Box.hasWork, Box.task, PC.locks, wake, this]

/-- **The executor may never be destroyed.** A sender that is late starts a second thread for an actor that has stopped; the thread handles the left-over message and waits for more, but the mailbox is closed. In
every continuation the thread is still there, so that the destructor of the executor, which joins its threads, does not return. -/
theorem C65_join_violated : ∃ s, Reach 8 joinTrace s ∧ (s.box 0).isOpen = false ∧ (s.box 0).detached = true ∧ ∀ acts s', run 8 s acts = .ok s' → (s'.box 0).thr ≠ [] := by
  refine ⟨_, after_reach (s := (after 8 joinTrace).get rfl) rfl, by decide +kernel, by decide +kernel, ?_⟩
  have h0 : let s := (after 8 joinTrace).get rfl
      (s.box 0).isOpen = false ∧ (s.box 0).sys = [] ∧ (s.box 0).started = false ∧ (s.box 0).scheduled = true ∧ s.busy ≠ some 0 ∧ ((s.box 0).thr = [.wait] ∨ (s.box 0).thr = [.top]) := by decide +kernel
  intro acts s' hs
  generalize (after 8 joinTrace).get rfl = s at h0 hs
  induction acts generalizing s with
  | nil =>
    simp only [run] at hs
    cases hs
    rcases h0.2.2.2.2.2 with h | h <;> simp [h]
  | cons a as ih =>
    simp only [run] at hs
    cases hst : step 8 s a with
    | ok s1 => rw [hst] at hs; exact ih s1 (hang_step h0 hst) hs
    | ub => rw [hst] at hs; cases hs
    | disabled => rw [hst] at hs; cases hs

/-! ### After the end -/

theorem unstarted_task {x y : Box} {i : Nat} {o : Outcome} {pc : PC} (hs : x.task i o pc = some y) (h : x.started = false) (ho : o ≠ .startOk) :
    y.started = false ∧ y.popUsr = x.popUsr := by
  cases pc with
  | start => simp only [Box.task] at hs; split at hs <;> simp at hs; subst hs; simp [h]
  | top =>
    simp only [Box.task] at hs
    split at hs
    · simp at hs; subst hs; simp [h]
    · split at hs
      · rw [if_neg (by simp [h])] at hs; simp at hs; subst hs; simp [h]
      · simp at hs
  | wait => simp only [Box.task] at hs; simp at hs; subst hs; simp [h]
  | sysMsg m =>
    simp only [Box.task] at hs
    split at hs
    · split at hs
      · simp at hs; subst hs; simp [h]
      · exact absurd rfl ho
      · simp at hs; subst hs; simp
      · simp at hs; subst hs; simp
    · simp at hs
  | usrMsg m => simp only [Box.task] at hs; split at hs <;> simp at hs; subst hs; simp [h]
  | closing => simp only [Box.task] at hs; simp at hs; subst hs; simp [h]
  | notify => simp only [Box.task] at hs; simp at hs; subst hs; simp [h]

theorem unstarted_step {limit : Nat} {s s' : St} {a : Act} (b : Nat) (hs : step limit s a = .ok s') (h : (s.box b).started = false)
    (ha : ∀ i, a ≠ .task b i .startOk) : (s'.box b).started = false ∧ (s'.box b).popUsr = (s.box b).popUsr := by
  have set_ : ∀ (t : St) (c : Nat) (x : Box), t.box = s.box → (c = b → x.started = false ∧ x.popUsr = (s.box b).popUsr) →
      ((t.set c x).box b).started = false ∧ ((t.set c x).box b).popUsr = (s.box b).popUsr := by
    intro t c x ht hx
    simp only [St.set]
    split
    · rename_i e; exact hx e.symm
    · rw [ht]; exact ⟨h, rfl⟩
  cases a with
  | enqUsr c m =>
    simp only [step] at hs; split at hs
    · simp at hs
    · simp at hs; subst hs
      refine set_ s c _ rfl ?_
      rintro rfl; unfold Box.enqUsr; split <;> simp [h]
  | enqSys c m =>
    simp only [step] at hs; split at hs
    · simp at hs
    · simp at hs; subst hs
      refine set_ s c _ rfl ?_
      rintro rfl; unfold Box.enqSys; split <;> simp [h]
  | schedBegin c =>
    simp only [step, schedBegin] at hs
    split at hs
    · simp at hs
    · split at hs
      · simp at hs; subst hs; exact set_ s c _ rfl (by rintro rfl; simp [h])
      · split at hs
        · simp at hs
        · split at hs
          · simp at hs; subst hs; exact set_ s c _ rfl (by rintro rfl; simp [h])
          · split at hs
            · simp at hs
            · simp at hs; subst hs; exact set_ s c _ rfl (by rintro rfl; simp [h])
  | schedEnd c =>
    simp only [step, schedEnd] at hs
    split at hs
    · simp at hs
    · split at hs
      · simp at hs; subst hs; exact set_ s c _ rfl (by rintro rfl; simp [h])
      · simp at hs; subst hs; exact set_ s c _ rfl (by rintro rfl; simp [h])
  | task c i o =>
    simp only [step] at hs
    split at hs
    · simp at hs
    · split at hs
      · simp at hs
      · split at hs
        · simp at hs
        · rename_i y hy
          simp at hs; subst hs
          refine set_ s c _ rfl ?_
          rintro rfl
          exact unstarted_task hy h (fun e => ha i (by rw [e]))
  | destroy c =>
    simp only [step] at hs; split at hs
    · simp at hs; subst hs; exact set_ s c _ rfl (by rintro rfl; simp [h])
    · simp at hs

/-- **C65**, after the end: when the actor's start has failed or it has stopped, it is handed no further user message
(unless it were started again), whatever happens to it and to other actors. -/
theorem C65_nothing_after_stop (limit : Nat) (acts : List Act) (s s₀ s' : St) (b i m : Nat) (o : Outcome)
    (hi : (s.box b).thr[i]? = some (.sysMsg m)) (ho : o = .startFail ∨ o = .stopped) (hs : step limit s (.task b i o) = .ok s₀)
    (hr : run limit s₀ acts = .ok s') (ha : ∀ j, Act.task b j .startOk ∉ acts) : (s'.box b).popUsr = (s.box b).popUsr := by
  have h0 : (s₀.box b).started = false ∧ (s₀.box b).popUsr = (s.box b).popUsr := by
    simp only [step, hi, PC.locks, Bool.false_and, Bool.false_eq_true, if_false, Box.task] at hs
    split at hs
    · simp at hs
    · rename_i y hy
      simp at hs; subst hs
      split at hy
      · rcases ho with rfl | rfl <;> (simp at hy; subst hy; simp [St.set])
      · simp at hy
  have key : ∀ (acts : List Act) (x y : St), (x.box b).started = false → run limit x acts = .ok y → (∀ j, Act.task b j .startOk ∉ acts) →
      (y.box b).popUsr = (x.box b).popUsr := by
    intro acts
    induction acts with
    | nil => intro x y _ hr _; simp [run] at hr; rw [hr]
    | cons a as ih =>
      intro x y hx hr ha
      simp only [run] at hr
      split at hr
      · rename_i z hz
        have hne : ∀ j, a ≠ .task b j .startOk := fun j e => ha j (by rw [e]; simp)
        obtain ⟨h1, h2⟩ := unstarted_step b hz hx hne
        rw [ih z y h1 hr (fun j hj => ha j (List.mem_cons_of_mem _ hj)), h2]
      · rename_i hne; exact absurd hr (hne y)
  rw [key acts s₀ s' h0.1 hr ha, h0.2]

example : (match run 5 St.init [.enqSys 0 0, .enqUsr 0 7, .schedBegin 0, .schedEnd 0, .task 0 0 .keep, .task 0 0 .keep, .task 0 0 .startFail, .enqSys 0 1, .task 0 0 .keep,
      .schedBegin 0, .schedEnd 0, .task 0 1 .keep, .task 0 1 .keep, .task 0 1 .keep, .task 0 1 .keep] with
    | .ok s => ((s.box 0).popUsr, (s.box 0).usr, (s.box 0).thr) | _ => ([], [], [])) = ([], [7], [.notify, .wait]) := by decide +kernel

/-- An actor that has started stays so until its start fails or it stops. -/
theorem started_step {limit : Nat} {s s' : St} {a : Act} (b : Nat) (hs : step limit s a = .ok s') (h : (s.box b).started = true)
    (ha : ∀ j, a ≠ .task b j .startFail ∧ a ≠ .task b j .stopped) : (s'.box b).started = true := by
  have set_ : ∀ (c : Nat) (x : Box), (c = b → x.started = true) → ((s.set c x).box b).started = true := by
    intro c x hx
    simp only [St.set]
    split
    · rename_i e; exact hx e.symm
    · exact h
  cases a with
  | enqUsr c m =>
    simp only [step] at hs; split at hs
    · simp at hs
    · simp at hs; subst hs
      refine set_ c _ ?_
      rintro rfl; unfold Box.enqUsr; split <;> exact h
  | enqSys c m =>
    simp only [step] at hs; split at hs
    · simp at hs
    · simp at hs; subst hs
      refine set_ c _ ?_
      rintro rfl; unfold Box.enqSys; split <;> exact h
  | schedBegin c =>
    simp only [step, schedBegin] at hs
    repeat' split at hs
    all_goals first
      | (simp at hs; done)
      | (simp at hs; subst hs; exact set_ c _ (by rintro rfl; exact h))
  | schedEnd c =>
    simp only [step, schedEnd] at hs
    repeat' split at hs
    all_goals first
      | (simp at hs; done)
      | (simp at hs; subst hs; exact set_ c _ (by rintro rfl; exact h))
  | task c i o =>
    simp only [step] at hs
    split at hs
    · simp at hs
    · split at hs
      · simp at hs
      · split at hs
        · simp at hs
        · rename_i pc _ _ y hy
          simp at hs; subst hs
          refine set_ c _ ?_
          rintro rfl
          have h1 := (ha i).1
          have h2 := (ha i).2
          unfold Box.task at hy
          repeat' split at hy
          all_goals first
            | (simp at hy; done)
            | (simp at hy; subst hy; first | exact h | rfl)
            | exact absurd rfl h1
            | exact absurd rfl h2
  | destroy c =>
    simp only [step] at hs; split at hs
    · simp at hs; subst hs; exact set_ c _ (by rintro rfl; exact h)
    · simp at hs

theorem started_run {limit : Nat} (b : Nat) : ∀ (acts : List Act) {s s' : St}, run limit s acts = .ok s' → (s.box b).started = true →
    (∀ j, Act.task b j .startFail ∉ acts ∧ Act.task b j .stopped ∉ acts) → (s'.box b).started = true
  | [], s, s', hr, h, _ => by simp [run] at hr; rw [← hr]; exact h
  | a :: as, s, s', hr, h, ha => by
    simp only [run] at hr
    split at hr
    · rename_i z hz
      refine started_run b as hr (started_step b hz h fun j => ⟨fun e => (ha j).1 (by rw [e]; simp), fun e => (ha j).2 (by rw [e]; simp)⟩)
        fun j => ⟨fun e => (ha j).1 (List.mem_cons_of_mem _ e), fun e => (ha j).2 (List.mem_cons_of_mem _ e)⟩
    · rename_i hne; exact absurd hr (hne s')

/-- **C65**, delivery: if the actor processed a successful start and did not stop since, its mailbox is open, its threads all wait, no
sender is on its way and the limit of threads was not reached, then every message ever sent to it, before or after the start, was
handed to it, in the order of sending. -/
theorem C65_delivered (limit : Nat) (acts bs : List Act) (s s₀ s' : St) (b i m : Nat) (h : Reach limit acts s)
    (hi : (s.box b).thr[i]? = some (.sysMsg m)) (hs : step limit s (.task b i .startOk) = .ok s₀) (hr : run limit s₀ bs = .ok s')
    (hb : ∀ j, Act.task b j .startFail ∉ bs ∧ Act.task b j .stopped ∉ bs) (ho : (s'.box b).isOpen = true) (hw : ¬ Awake (s'.box b))
    (hp : (s'.box b).pending = 0) (hbusy : s'.busy ≠ some b) (hl : s'.made < limit) :
    (s'.box b).popUsr = sentUsr b (acts ++ bs) ∧ (s'.box b).popSys = sentSys b (acts ++ bs) := by
  have h0 : (s₀.box b).started = true := by
    simp only [step, hi, PC.locks, Bool.false_and, Bool.false_eq_true, if_false, Box.task] at hs
    split at hs
    · simp at hs
    · rename_i y hy
      simp at hs; subst hs
      split at hy
      · simp at hy; subst hy; simp [St.set]
      · simp at hy
  have hst := started_run b bs hr h0 hb
  have hr' := Reach.run (.step h hs) hr
  have hnp : ¬ Processable (s'.box b) := by
    intro hpr
    rcases C65_work limit _ s' b hr' ho hpr with h | h | h | h
    · exact hw h
    · omega
    · exact hbusy h
    · omega
  have h1 : (s'.box b).sys = [] := Classical.byContradiction fun hn => hnp (Or.inl hn)
  have h2 : (s'.box b).usr = [] := Classical.byContradiction fun hn => hnp (Or.inr ⟨hst, hn⟩)
  obtain ⟨-, -, hf⟩ := C65_fifo limit _ s' b hr'
  obtain ⟨f1, f2⟩ := hf ho
  rw [h1, List.append_nil] at f2
  rw [h2, List.append_nil] at f1
  rw [f1, f2]
  constructor <;> simp [sentUsr, sentSys]

/-- **C65**, progress: while a message that the actor may process waits in an open mailbox, the limit of threads was not reached and
no thread is being started for another mailbox, a thread of this mailbox or a sender can make a step. -/
theorem C65_progress (limit : Nat) (acts : List Act) (s : St) (b : Nat) (h : Reach limit acts s) (ho : (s.box b).isOpen = true)
    (hp : Processable (s.box b)) (hl : s.made < limit) (hb : s.busy = none ∨ s.busy = some b) :
    ∃ a s', (a = .schedBegin b ∨ a = .schedEnd b ∨ ∃ i, a = .task b i .keep) ∧ step limit s a = .ok s' := by
  have fin : ∀ a : Act, (a = .schedBegin b ∨ a = .schedEnd b ∨ ∃ i, a = .task b i .keep) → step limit s a ≠ .disabled →
      ∃ a s', (a = .schedBegin b ∨ a = .schedEnd b ∨ ∃ i, a = .task b i .keep) ∧ step limit s a = .ok s' := by
    intro a ha hd
    cases hs : step limit s a with
    | disabled => exact absurd hs hd
    | ok s' => exact ⟨a, s', ha, hs⟩
    | ub =>
      have hof : a.of = b := by rcases ha with rfl | rfl | ⟨i, rfl⟩ <;> rfl
      obtain ⟨-, c, hc, hcb⟩ := C65_safe_partial limit acts s a h (by rw [hof]; exact ho) hs
      rw [hof] at hc
      rcases hb with hb | hb <;> rw [hb] at hcb
      · cases hcb
      · exact absurd (by simpa using hcb.symm) hc
  by_cases hbb : s.busy = some b
  · refine fin (.schedEnd b) (Or.inr (Or.inl rfl)) ?_
    simp only [step, schedEnd, hbb]
    split <;> simp_all
    split <;> simp
  · rcases C65_work limit acts s b h ho hp with ⟨pc, hpc, -, -⟩ | h1 | h1 | h1
    · obtain ⟨i, hil, hi⟩ := List.mem_iff_getElem.1 hpc
      refine fin (.task b i .keep) (Or.inr (Or.inr ⟨i, rfl⟩)) ?_
      have hget : (s.box b).thr[i]? = some pc := by rw [List.getElem?_eq_getElem hil, hi]
      simp only [step, hget, hbb, decide_false, Bool.and_false, Bool.false_eq_true, if_false]
      split <;> simp
    · refine fin (.schedBegin b) (Or.inl rfl) ?_
      simp only [step, schedBegin]
      rw [if_neg (by rintro (h | h); omega; exact hbb h)]
      repeat' split
      all_goals simp
    · exact absurd h1 hbb
    · omega

/-- A user message sent before the start and one sent after it are both handed out; the thread then waits. -/
example : ∃ s s₀ s', Reach 3 [.enqUsr 0 7, .schedBegin 0, .enqSys 0 5, .schedBegin 0, .schedEnd 0, .task 0 0 .keep, .task 0 0 .keep] s ∧
    (s.box 0).thr[0]? = some (.sysMsg 5) ∧ step 3 s (.task 0 0 .startOk) = .ok s₀ ∧
    run 3 s₀ [.task 0 0 .keep, .enqUsr 0 8, .task 0 0 .keep, .task 0 0 .keep, .task 0 0 .keep, .task 0 0 .keep] = .ok s' ∧
    (s'.box 0).thr = [.wait] ∧ (s'.box 0).pending = 0 ∧ s'.busy = none ∧ s'.made = 1 ∧ (s'.box 0).popUsr = [7, 8] := by
  refine ⟨_, _, _, after_reach (s := (after 3 [.enqUsr 0 7, .schedBegin 0, .enqSys 0 5, .schedBegin 0, .schedEnd 0, .task 0 0 .keep, .task 0 0 .keep]).get rfl) rfl, ?_, rfl, rfl, ?_⟩ <;> decide +kernel

end Verif.Pinned
