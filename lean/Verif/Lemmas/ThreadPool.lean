import Verif.Model.ThreadPool
set_option autoImplicit false

namespace Verif.ThreadPool

def nCheck (s : St) : Nat := s.workers.countP (· = .check)
def nWait (s : St) : Nat := s.workers.countP (· = .wait)
def nExec (s : St) (t : Nat) : Nat := s.workers.countP (· = .exec t)

structure Inv (threads : Nat) (s : St) : Prop where
  fifo : s.accepted = s.started ++ s.queue
  once : ∀ t, s.started.count t = s.finished.count t + nExec s t
  conserve : 0 < nWait s → s.queue.length ≤ nCheck s
  doneStop : W.done ∈ s.workers → s.stop = true ∧ s.queue = []
  stopWait : s.stop = true → W.wait ∉ s.workers
  len : s.workers.length = threads

theorem init_inv (threads : Nat) : Inv threads (init threads) := by
  refine ⟨rfl, ?_, ?_, ?_, ?_, ?_⟩ <;> simp [init, nExec, nWait, List.countP_replicate, List.mem_replicate]

theorem getElem_of {ws : List W} {i : Nat} {w : W} (h : ws[i]? = some w) : ∃ hl : i < ws.length, ws[i] = w :=
  List.getElem?_eq_some_iff.1 h

theorem countP_change {ws : List W} {i : Nat} {w w' : W} (h : ws[i]? = some w) (p : W → Bool) :
    (ws.set i w').countP p + (if p w then 1 else 0) = ws.countP p + (if p w' then 1 else 0) := by
  obtain ⟨hl, hw⟩ := getElem_of h
  rw [List.countP_set hl, hw]
  have : p w = true → 0 < ws.countP p := by
    intro hp
    exact List.countP_pos_iff.2 ⟨w, hw ▸ List.getElem_mem hl, hp⟩
  by_cases hp : p w = true
  · have := this hp
    simp only [hp, if_true]
    split <;> omega
  · simp [hp]

theorem mem_set_ne {ws : List W} {i : Nat} {w w' x : W} (h : ws[i]? = some w) (hx : x ≠ w') :
    x ∈ ws.set i w' → x ∈ ws := by
  intro hm
  rcases List.mem_or_eq_of_mem_set hm with hm | hm
  · exact hm
  · exact absurd hm hx

theorem nWait_pos {s : St} : 0 < nWait s ↔ W.wait ∈ s.workers := by
  simp [nWait, List.countP_pos_iff]

theorem notifyAll_countP_exec (ws : List W) (t : Nat) :
    (notifyAll ws).countP (· = .exec t) = ws.countP (· = .exec t) := by
  induction ws with
  | nil => rfl
  | cons w ws ih =>
    simp only [notifyAll, List.map_cons, List.countP_cons] at *
    rw [ih]
    cases w <;> simp

theorem wait_notMem_notifyAll (ws : List W) : W.wait ∉ notifyAll ws := by
  simp only [notifyAll, List.mem_map, not_exists, not_and]
  intro w _
  split <;> simp_all

theorem done_mem_notifyAll {ws : List W} (h : W.done ∈ notifyAll ws) : W.done ∈ ws := by
  simp only [notifyAll, List.mem_map] at h
  obtain ⟨w, hw, he⟩ := h
  split at he
  · simp at he
  · exact he ▸ hw

theorem step_inv {threads : Nat} {s s' : St} {a : Act} (h : Inv threads s) (hs : step s a = .ok s') :
    Inv threads s' := by
  cases a with
  | enqueue t wake =>
    simp only [step] at hs
    split at hs
    · simp at hs
    · rename_i hst
      split at hs
      · simp at hs
      · rename_i ws hw
        simp at hs; subst hs
        cases wake with
        | none =>
          simp only [notifyOne] at hw
          split at hw
          · simp at hw
          · rename_i hnw
            simp at hw; subst hw
            refine ⟨by simp [h.fifo], h.once, ?_, ?_, ?_, h.len⟩
            · intro hp; exact absurd (nWait_pos.1 hp) hnw
            · intro hd; exact absurd (h.doneStop hd).1 hst
            · intro hst'; exact absurd hst' hst
        | some i =>
          simp only [notifyOne] at hw
          split at hw
          · rename_i hi
            simp at hw; subst hw
            refine ⟨by simp [h.fifo], ?_, ?_, ?_, ?_, ?_⟩
            · intro t'
              have := countP_change (w' := .check) hi (· = .exec t')
              simp at this
              simp only [nExec] at *
              rw [this]; exact h.once t'
            · intro _
              have h1 := countP_change (w' := .check) hi (· = .check)
              have h2 := h.conserve (nWait_pos.2 (List.mem_of_getElem? hi))
              simp at h1
              simp only [nCheck, List.length_append, List.length_singleton] at *
              omega
            · intro hd
              have := mem_set_ne hi (by simp) hd
              exact absurd (h.doneStop this).1 hst
            · intro hst'; exact absurd hst' hst
            · simpa using h.len
          · simp at hw
  | stop =>
    simp only [step] at hs
    split at hs
    · simp at hs
    · rename_i hst
      simp at hs; subst hs
      refine ⟨h.fifo, ?_, ?_, ?_, ?_, ?_⟩
      · intro t
        simp only [nExec, notifyAll_countP_exec]
        exact h.once t
      · intro hp; exact absurd (nWait_pos.1 hp) (wait_notMem_notifyAll _)
      · intro hd
        exact absurd (h.doneStop (done_mem_notifyAll hd)).1 hst
      · intro _; exact wait_notMem_notifyAll _
      · simpa [notifyAll] using h.len
  | check i =>
    simp only [step] at hs
    split at hs
    · rename_i hi
      split at hs
      · rename_i hq
        split at hs
        · rename_i hst
          simp at hs; subst hs
          refine ⟨h.fifo, ?_, ?_, ?_, ?_, by simpa using h.len⟩
          · intro t
            have := countP_change (w' := .done) hi (· = .exec t)
            simp at this
            simp only [nExec] at *
            rw [this]; exact h.once t
          · intro _; simp [hq]
          · intro _; exact ⟨hst, hq⟩
          · intro _ hw
            exact h.stopWait hst (mem_set_ne hi (by simp) hw)
        · rename_i hst
          simp at hs; subst hs
          refine ⟨h.fifo, ?_, ?_, ?_, ?_, by simpa using h.len⟩
          · intro t
            have := countP_change (w' := .wait) hi (· = .exec t)
            simp at this
            simp only [nExec] at *
            rw [this]; exact h.once t
          · intro _; simp [hq]
          · intro hd; exact h.doneStop (mem_set_ne hi (by simp) hd)
          · intro hst'; exact absurd hst' hst
      · rename_i t q hq
        simp at hs; subst hs
        refine ⟨by simp [h.fifo, hq], ?_, ?_, ?_, ?_, by simpa using h.len⟩
        · intro t'
          have h1 := countP_change (w' := .exec t) hi (· = .exec t')
          simp at h1
          have h2 := h.once t'
          simp only [nExec, List.count_append, List.count_singleton, beq_iff_eq] at *
          rw [h1, h2]
          omega
        · intro hp
          have h1 := countP_change (w' := .exec t) hi (· = .check)
          have h3 := countP_change (w' := .exec t) hi (· = .wait)
          simp at h1 h3
          simp only [nWait] at hp
          have h2 := h.conserve (by simp only [nWait]; omega)
          rw [hq] at h2
          simp only [nCheck, List.length_cons] at *
          omega
        · intro hd
          have := (h.doneStop (mem_set_ne hi (by simp) hd)).2
          rw [hq] at this; simp at this
        · intro hst hw
          exact h.stopWait hst (mem_set_ne hi (by simp) hw)
    · simp at hs
  | finish i throws =>
    simp only [step] at hs
    split at hs
    · rename_i t hi
      split at hs
      · simp at hs
      · simp at hs; subst hs
        refine ⟨h.fifo, ?_, ?_, ?_, ?_, by simpa using h.len⟩
        · intro t'
          have h1 := countP_change (w' := .check) hi (· = .exec t')
          simp at h1
          have h2 := h.once t'
          simp only [nExec, List.count_append, List.count_singleton, beq_iff_eq] at *
          omega
        · intro hp
          have h1 := countP_change (w' := .check) hi (· = .check)
          have h3 := countP_change (w' := .check) hi (· = .wait)
          simp at h1 h3
          simp only [nWait] at hp
          have h2 := h.conserve (by simp only [nWait]; omega)
          simp only [nCheck] at *
          omega
        · intro hd; exact h.doneStop (mem_set_ne hi (by simp) hd)
        · intro hst hw
          exact h.stopWait hst (mem_set_ne hi (by simp) hw)
    · simp at hs
  | spurious i =>
    simp only [step] at hs
    split at hs
    · rename_i hi
      simp at hs; subst hs
      refine ⟨h.fifo, ?_, ?_, ?_, ?_, by simpa using h.len⟩
      · intro t
        have := countP_change (w' := .check) hi (· = .exec t)
        simp at this
        simp only [nExec] at *
        rw [this]; exact h.once t
      · intro _
        have h1 := countP_change (w' := .check) hi (· = .check)
        have h2 := h.conserve (nWait_pos.2 (List.mem_of_getElem? hi))
        simp at h1
        simp only [nCheck] at *
        omega
      · intro hd; exact h.doneStop (mem_set_ne hi (by simp) hd)
      · intro hst hw
        exact h.stopWait hst (mem_set_ne hi (by simp) hw)
    · simp at hs

theorem reach_inv {threads : Nat} {acts : List Act} {s : St} (h : Reach threads acts s) : Inv threads s := by
  induction h with
  | init => exact init_inv threads
  | step _ hs ih => exact step_inv ih hs

end Verif.ThreadPool
