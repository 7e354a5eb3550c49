import Verif.Lemmas.ActorStepsStop

set_option autoImplicit false

namespace Verif.ActorSteps
open Verif.ActorCell
open Verif.ActorTree (terminatedMsg plainMsg carries)

theorem takeMsg_view (s : St) (i j : Nat) (m : Msg) (sys usr : List Msg) :
    ((takeMsg s i m sys usr).act j).log = ((s.upd i (taken (s.act i) m sys usr)).act j).log ∧
    ((takeMsg s i m sys usr).act j).out = ((s.upd i (taken (s.act i) m sys usr)).act j).out ∧
    ((takeMsg s i m sys usr).act j).stop = ((s.upd i (taken (s.act i) m sys usr)).act j).stop ∧
    ((takeMsg s i m sys usr).act j).cell.watchers = ((s.upd i (taken (s.act i) m sys usr)).act j).cell.watchers := by
  have h2 : ∀ (t : St) (k : Nat), ((t.upd k (t.act k).adopted).act j).log = (t.act j).log ∧ ((t.upd k (t.act k).adopted).act j).out = (t.act j).out ∧
      ((t.upd k (t.act k).adopted).act j).stop = (t.act j).stop ∧ ((t.upd k (t.act k).adopted).act j).cell.watchers = (t.act j).cell.watchers := by
    intro t k
    rw [upd_act]
    split
    · rename_i e; subst e; exact ⟨rfl, rfl, rfl, rfl⟩
    · exact ⟨rfl, rfl, rfl, rfl⟩
  have h3 : ∀ (t : St) (k : Nat), ((t.kill k).act j).log = (t.act j).log ∧ ((t.kill k).act j).out = (t.act j).out ∧
      ((t.kill k).act j).stop = (t.act j).stop ∧ ((t.kill k).act j).cell.watchers = (t.act j).cell.watchers := by
    intro t k
    simp only [St.kill]
    split
    · exact ⟨rfl, rfl, rfl, rfl⟩
    · exact ⟨rfl, rfl, rfl, rfl⟩
  unfold takeMsg
  dsimp only
  cases adoptee (s.act i).cell m with
  | none =>
    cases (process (s.act i).cell m).2.1.findSome? victim with
    | none => exact ⟨rfl, rfl, rfl, rfl⟩
    | some k => exact h3 _ k
  | some k' =>
    have a := h2 (s.upd i (taken (s.act i) m sys usr)) k'
    cases (process (s.act i).cell m).2.1.findSome? victim with
    | none => exact a
    | some k =>
      have b := h3 ((s.upd i (taken (s.act i) m sys usr)).upd k' ((s.upd i (taken (s.act i) m sys usr)).act k').adopted) k
      exact ⟨b.1.trans a.1, b.2.1.trans a.2.1, b.2.2.1.trans a.2.2.1, b.2.2.2.trans a.2.2.2⟩

theorem upd_view (s : St) (k j : Nat) (a : Act) (h1 : a.log = (s.act k).log) (h2 : a.out = (s.act k).out) (h3 : a.stop = (s.act k).stop)
    (h4 : a.cell.watchers = (s.act k).cell.watchers) : ((s.upd k a).act j).log = (s.act j).log ∧ ((s.upd k a).act j).out = (s.act j).out ∧
      ((s.upd k a).act j).stop = (s.act j).stop ∧ ((s.upd k a).act j).cell.watchers = (s.act j).cell.watchers := by
  rw [upd_act]
  split
  · rename_i e; subst e; exact ⟨h1, h2, h3, h4⟩
  · exact ⟨rfl, rfl, rfl, rfl⟩

theorem push_view (s : St) (k j : Nat) (m : Msg) (b : Bool) :
    let a := if b then (s.act k).pushSys m else (s.act k).pushUsr m
    ((s.upd k a).act j).log = (s.act j).log ∧ ((s.upd k a).act j).out = (s.act j).out ∧
      ((s.upd k a).act j).stop = (s.act j).stop ∧ ((s.upd k a).act j).cell.watchers = (s.act j).cell.watchers := by
  cases b
  · exact upd_view s k j _ (by rw [if_neg (by simp), pushUsr_eq]) (by rw [if_neg (by simp), pushUsr_eq]) (by rw [if_neg (by simp), pushUsr_eq]) (by rw [if_neg (by simp), pushUsr_eq])
  · exact upd_view s k j _ (by rw [if_pos rfl, pushSys_eq]) (by rw [if_pos rfl, pushSys_eq]) (by rw [if_pos rfl, pushSys_eq]) (by rw [if_pos rfl, pushSys_eq])

/-- What a step does to one actor: nothing, it takes a message, or it is created. -/
theorem step_view {s s' : St} {a : Action} (hs : step s a = some s') (j : Nat) (hj : j < s'.n) :
    (j < s.n ∧ (s'.act j).log ++ (s'.act j).out = (s.act j).log ++ (s.act j).out ∧ (s'.act j).stop = (s.act j).stop ∧ (s'.act j).cell.watchers = (s.act j).cell.watchers) ∨
    (j < s.n ∧ (s.act j).out = [] ∧ (s.act j).stop = false ∧ ∃ m, (m ∈ (s.act j).sys ∨ m ∈ (s.act j).usr) ∧ (s'.act j).log = (s.act j).log ∧
      (s'.act j).out = (process (s.act j).cell m).2.1.filter (fun e => !isDestroy e) ∧ (s'.act j).stop = (process (s.act j).cell m).2.2 ∧
      (s'.act j).cell.watchers = (process (s.act j).cell m).1.watchers) ∨
    (j = s.n ∧ (s'.act j).log = [] ∧ (s'.act j).out = [] ∧ (s'.act j).stop = false ∧ (s'.act j).cell.watchers = []) := by
  have take : ∀ (i : Nat) (m : Msg) (sys usr : List Msg), (m ∈ (s.act i).sys ∨ m ∈ (s.act i).usr) → (s.act i).out = [] → (s.act i).stop = false → s' = takeMsg s i m sys usr → j < s.n →
      (j < s.n ∧ (s'.act j).log ++ (s'.act j).out = (s.act j).log ++ (s.act j).out ∧ (s'.act j).stop = (s.act j).stop ∧ (s'.act j).cell.watchers = (s.act j).cell.watchers) ∨
      (j < s.n ∧ (s.act j).out = [] ∧ (s.act j).stop = false ∧ ∃ m, (m ∈ (s.act j).sys ∨ m ∈ (s.act j).usr) ∧ (s'.act j).log = (s.act j).log ∧
        (s'.act j).out = (process (s.act j).cell m).2.1.filter (fun e => !isDestroy e) ∧ (s'.act j).stop = (process (s.act j).cell m).2.2 ∧
        (s'.act j).cell.watchers = (process (s.act j).cell m).1.watchers) := by
    intro i m sys usr hm ho hst he hjn
    obtain ⟨v1, v2, v3, v4⟩ := takeMsg_view s i j m sys usr
    subst he
    by_cases hji : j = i
    · subst hji
      rw [upd_self] at v1 v2 v3 v4
      exact .inr ⟨hjn, ho, hst, m, hm, v1, v2, v3, v4⟩
    · rw [upd_ne _ _ hji] at v1 v2 v3 v4
      exact .inl ⟨hjn, by rw [v1, v2], v3, v4⟩
  cases a with
  | create p path ok =>
    simp only [step] at hs
    split at hs
    · simp only [Option.some.injEq] at hs
      subst hs
      have hj' : j < s.n + 1 := hj
      by_cases hjn : j = s.n
      · right; right
        refine ⟨hjn, ?_⟩
        dsimp only
        rw [hjn, upd_self]
        exact ⟨rfl, rfl, rfl, rfl⟩
      · left
        dsimp only
        rw [upd_ne _ _ hjn]
        have := push_view s p j (.attach ⟨s.n, path⟩) true
        dsimp only at this
        rw [if_pos rfl] at this
        exact ⟨by omega, by rw [this.1, this.2.1], this.2.2.1, this.2.2.2⟩
    · simp at hs
  | send i m =>
    simp only [step] at hs
    split at hs
    · simp only [Option.some.injEq] at hs
      subst hs
      left
      refine ⟨hj, ?_⟩
      have key : ∀ (x : Msg) (b : Bool), let a := if b then (s.act i).pushSys x else (s.act i).pushUsr x
          ((s.upd i a).act j).log ++ ((s.upd i a).act j).out = (s.act j).log ++ (s.act j).out ∧ ((s.upd i a).act j).stop = (s.act j).stop ∧ ((s.upd i a).act j).cell.watchers = (s.act j).cell.watchers := by
        intro x b
        have := push_view s i j x b
        dsimp only at this ⊢
        exact ⟨by rw [this.1, this.2.1], this.2.2.1, this.2.2.2⟩
      cases m with
      | stop => exact key .stop true
      | stopAfterChildren => exact key .stopAfterChildren true
      | unwatch w => exact key (.unwatch w) true
      | pill => exact key .pill false
      | user m => exact key (plainMsg m) false
    · simp at hs
  | watch w i =>
    simp only [step] at hs
    split at hs
    · split at hs <;> simp only [Option.some.injEq] at hs <;> subst hs
      · have := push_view s i j (.watch w) true
        dsimp only at this
        rw [if_pos rfl] at this
        exact .inl ⟨hj, by rw [this.1, this.2.1], this.2.2.1, this.2.2.2⟩
      · have := push_view s w j (terminatedMsg i) false
        dsimp only at this
        rw [if_neg (by simp)] at this
        exact .inl ⟨hj, by rw [this.1, this.2.1], this.2.2.1, this.2.2.2⟩
    · simp at hs
  | takeSys i =>
    have hn : s'.n = s.n := by
      simp only [step] at hs
      split at hs
      · split at hs <;> simp at hs
        subst hs
        simp only [takeMsg]
        split <;> split <;> simp [St.kill]
      · simp at hs
    simp only [step] at hs
    split at hs
    · rename_i hc
      simp only [Bool.and_eq_true, decide_eq_true_eq, List.isEmpty_iff, Bool.not_eq_true'] at hc
      split at hs
      · simp at hs
      · rename_i m ms hm
        simp only [Option.some.injEq] at hs
        have := take i m ms _ (.inl (by rw [hm]; exact List.mem_cons_self)) hc.1.2 hc.2 hs.symm (by omega)
        exact this.imp id .inl
    · simp at hs
  | takeUsr i =>
    have hn : s'.n = s.n := by
      simp only [step] at hs
      split at hs
      · split at hs <;> simp at hs
        subst hs
        simp only [takeMsg]
        split <;> split <;> simp [St.kill]
      · simp at hs
    simp only [step] at hs
    split at hs
    · rename_i hc
      simp only [Bool.and_eq_true, decide_eq_true_eq, List.isEmpty_iff, Bool.not_eq_true'] at hc
      split at hs
      · simp at hs
      · rename_i m ms hm
        simp only [Option.some.injEq] at hs
        have := take i m [] ms (.inr (by rw [hm]; exact List.mem_cons_self)) hc.1.1.1.2 hc.1.1.2 hs.symm (by omega)
        exact this.imp id .inl
    · simp at hs
  | emit i =>
    simp only [step] at hs
    split at hs
    · split at hs
      · simp at hs
      · rename_i e es he
        simp only [Option.some.injEq] at hs
        left
        have hs' : s' = send (pop s i e es) i e := hs.symm
        have hp : ((pop s i e es).act j).log ++ ((pop s i e es).act j).out = (s.act j).log ++ (s.act j).out := by
          unfold pop
          rw [upd_act]
          split
          · rename_i e'; subst e'; rw [he]; simp
          · rfl
        have hsend : s'.n = s.n ∧ (s'.act j).log = ((pop s i e es).act j).log ∧ (s'.act j).out = ((pop s i e es).act j).out ∧ (s'.act j).stop = ((pop s i e es).act j).stop ∧
            (s'.act j).cell.watchers = ((pop s i e es).act j).cell.watchers := by
          rw [hs']
          cases e with
          | preStart b => exact ⟨rfl, rfl, rfl, rfl, rfl⟩
          | postStop => exact ⟨rfl, rfl, rfl, rfl, rfl⟩
          | receive m => exact ⟨rfl, rfl, rfl, rfl, rfl⟩
          | destroy c => exact ⟨rfl, rfl, rfl, rfl, rfl⟩
          | tellTerminated w => exact ⟨rfl, push_view (pop s i _ es) w j (terminatedMsg i) false⟩
          | pillTo c => exact ⟨rfl, push_view (pop s i _ es) c.id j .pill false⟩
          | startTo c => exact ⟨rfl, push_view (pop s i _ es) c.id j (.start ((pop s i _ es).act c.id).ok) true⟩
          | stopSelf => exact ⟨rfl, push_view (pop s i _ es) i j .stop true⟩
          | detachToParent =>
            unfold send
            dsimp only
            split
            · rename_i p hp'; exact ⟨rfl, push_view (pop s i _ es) p j (.detach ((pop s i _ es).act i).path) true⟩
            · exact ⟨rfl, rfl, rfl, rfl, rfl⟩
        obtain ⟨v0, v1, v2, v3, v4⟩ := hsend
        exact ⟨by omega, by rw [v1, v2]; exact hp, by rw [v3, (frame_pop s i e es).stop], by rw [v4, (frame_pop s i e es).cell]⟩
    · simp at hs
  | close i =>
    simp only [step] at hs
    split at hs
    · simp only [Option.some.injEq] at hs
      subst hs
      left
      have := upd_view s i j { s.act i with isOpen := false } rfl rfl rfl rfl
      exact ⟨hj, by rw [this.1, this.2.1], this.2.2.1, this.2.2.2⟩
    · simp at hs

/-- Notices: none before the stop, afterwards one for each watcher. -/
def Notices (s : St) : Prop := ∀ i < s.n, (s.act i).cell.watchers.Nodup ∧ ∀ w,
  ((s.act i).log ++ (s.act i).out).count (.tellTerminated w) = if (s.act i).stop = true ∧ w ∈ (s.act i).cell.watchers then 1 else 0

theorem Notices.init : Notices St.init := by
  intro i _
  refine ⟨by simp [St.init, Act.root, Cell.fresh], fun w => ?_⟩
  simp [St.init, Act.root]

theorem Notices.step {s s' : St} {a : Action} (h : Inv s) (hN : Notices s) (hs : ActorSteps.step s a = some s') : Notices s' := by
  intro j hj
  rcases step_view hs j hj with ⟨h1, h2, h3, h4⟩ | ⟨h1, h2, h3, m, hm, v1, v2, v3, v4⟩ | ⟨h1, v1, v2, v3, v4⟩
  · rw [h2, h3, h4]; exact hN j h1
  · obtain ⟨hnd, hcnt⟩ := hN j h1
    obtain ⟨w1, w2⟩ := process_watchers (s.act j).cell m hnd
    rw [v1, v2, v3, v4]
    refine ⟨w1, fun w => ?_⟩
    have h0 := hcnt w
    rw [h2, h3] at h0
    simp at h0
    obtain ⟨t1, t2⟩ := process_terminated (s.act j).cell m hnd w
    have hf : ((process (s.act j).cell m).2.1.filter (fun e => !isDestroy e)).count (.tellTerminated w) = (process (s.act j).cell m).2.1.count (.tellTerminated w) := by
      rw [List.count_filter]; rfl
    rw [List.count_append, hf, h0]
    cases hst : (process (s.act j).cell m).2.2 with
    | false => rw [t1 hst]; simp
    | true =>
      have hm' : m ≠ .start false := by
        intro e
        subst e
        rcases hm with hm | hm
        · have := (h.loc j h1).start false hm; simp at this
        · have := (h.loc j h1).usr _ hm; simp [isPlain] at this
      rw [t2 hst hm']
      have : w ∈ (process (s.act j).cell m).1.watchers ↔ w ∈ (s.act j).cell.watchers := by
        rw [w2]
        cases m <;> simp [watchUpd]
        · simp [process] at hst; split at hst <;> simp at hst
        · simp [process] at hst
      simp [this]
  · rw [v1, v2, v3, v4]
    simp

theorem Notices.goodRun {s s' : St} {as : List Action} (h : Inv s) (hN : Notices s) (hr : GoodRun s as s') : Notices s' := by
  induction hr with
  | nil => exact hN
  | cons hg hs _ ih => exact ih (h.step hg hs) (hN.step h hs)

end Verif.ActorSteps
