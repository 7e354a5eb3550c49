import Verif.Lemmas.ActorStepsView

/-!
C86: the guarantees of a tree of actors hold when every message is sent separately.

The specification is stated over what can be seen: the calls of an actor's functions in order (`calls`), whether its mailbox takes
messages (`isOpen`), whether its cell exists (`alive`).
-/
set_option autoImplicit false

namespace Verif.ActorSteps
open Verif.ActorCell
open Verif.ActorTree (terminatedMsg plainMsg)

/-- The calls of the user's functions of an actor so far. -/
def calls (a : Act) : List Eff :=
  a.log.filter fun e => match e with
    | .preStart _ => true
    | .postStop => true
    | .receive _ => true
    | _ => false

/-- `pre_start`, then messages, then `post_stop`, or a beginning of that. -/
inductive Proper : List Eff → Prop
  | none : Proper []
  | running (ms : List Nat) : Proper (.preStart true :: ms.map .receive)
  | stopped (ms : List Nat) : Proper (.preStart true :: ms.map .receive ++ [.postStop])

/-- `post_stop` has returned. -/
def Finished (a : Act) : Prop := ∃ ms : List Nat, calls a = .preStart true :: ms.map .receive ++ [.postStop]

theorem calls_eq (a : Act) : calls a = a.log.filter Eff.isLife := by
  unfold calls
  congr 1

theorem receives_map {rs : List Eff} (h : ∀ e ∈ rs, e.isReceive = true) : ∃ ms : List Nat, rs = ms.map .receive := by
  induction rs with
  | nil => exact ⟨[], rfl⟩
  | cons e rs ih =>
    obtain ⟨ms, hms⟩ := ih fun x hx => h x (List.mem_cons_of_mem _ hx)
    have he := h e List.mem_cons_self
    cases e <;> simp [Eff.isReceive] at he
    rename_i m
    exact ⟨m :: ms, by rw [hms]; rfl⟩

theorem proper_prefix {l l1 l2 : List Eff} (h : Proper l) (hl : l = l1 ++ l2) : Proper l1 := by
  have hm : ∀ (ms : List Nat) (a b : List Eff), ms.map Eff.receive = a ++ b → ∃ ns : List Nat, a = ns.map .receive := by
    intro ms a b hab
    exact ⟨ms.take a.length, by rw [List.map_take, hab]; simp⟩
  cases h with
  | none => have : l1 = [] := by simpa using congrArg (List.take l1.length) hl.symm
            rw [this]; exact .none
  | running ms =>
    cases l1 with
    | nil => exact .none
    | cons x l1 =>
      simp only [List.cons_append, List.cons.injEq] at hl
      obtain ⟨rfl, hl⟩ := hl
      obtain ⟨ns, rfl⟩ := hm _ _ _ hl
      exact .running ns
  | stopped ms =>
    cases l1 with
    | nil => exact .none
    | cons x l1 =>
      simp only [List.cons_append, List.cons.injEq] at hl
      obtain ⟨rfl, hl⟩ := hl
      rcases List.eq_nil_or_concat l2 with rfl | ⟨l3, y, rfl⟩
      · rw [List.append_nil] at hl
        rw [← hl]
        exact .stopped ms
      · rw [List.concat_eq_append, ← List.append_assoc] at hl
        have := List.append_inj_left' hl (by simp)
        obtain ⟨ns, rfl⟩ := hm _ _ _ this
        exact .running ns

theorem good_inv {as : List Action} {s : St} (h : GoodRun St.init as s) : Inv s := Inv.init.goodRun h

/-- **C86**, life cycle: in every execution, however the sends of different actors are interleaved, `pre_start` of an actor comes first and at most
once, then messages one at a time, then `post_stop`, at most once and last. -/
theorem C86_lifecycle_partial (as : List Action) (s : St) (h : GoodRun St.init as s) (i : Nat) (hi : i < s.n) : Proper (calls (s.act i)) := by
  have hl := (good_inv h).loc i hi
  rw [calls_eq]
  have hp : Proper (life (s.act i)) := by
    cases hb : (s.act i).begun with
    | false => rw [hl.life0 hb]; exact .none
    | true =>
      cases hs : (s.act i).stop with
      | false =>
        obtain ⟨rs, h1, h2⟩ := hl.life1 hb hs
        obtain ⟨ms, rfl⟩ := receives_map h1
        rw [h2]; exact .running ms
      | true =>
        obtain ⟨rs, h1, h2⟩ := hl.life2 hb hs
        obtain ⟨ms, rfl⟩ := receives_map h1
        rw [h2]; exact .stopped ms
  exact proper_prefix hp (l2 := (s.act i).out.filter Eff.isLife) (by simp [life])

/-- An actor that has run and is destroyed has finished. -/
theorem finished_of_stop {s : St} (h : Inv s) {j : Nat} (hj : j < s.n) (hs : (s.act j).stop = true) (ho : (s.act j).out = []) (hb : (s.act j).begun = true) : Finished (s.act j) := by
  obtain ⟨rs, h1, h2⟩ := (h.loc j hj).life2 hb hs
  obtain ⟨ms, rfl⟩ := receives_map h1
  refine ⟨ms, ?_⟩
  rw [calls_eq, ← h2]
  simp [life, ho]

theorem begun_of_calls {s : St} (h : Inv s) {j : Nat} (hj : j < s.n) (hc : calls (s.act j) ≠ []) : (s.act j).begun = true := by
  cases hb : (s.act j).begun with
  | true => rfl
  | false =>
    have := (h.loc j hj).life0 hb
    rw [calls_eq] at hc
    simp only [life, List.filter_append, List.append_eq_nil_iff] at this
    exact absurd this.1 hc

/-- **C86**, order of stopping: once `post_stop` of a parent is called, every child of it that was ever started has returned from its own
`post_stop`. -/
theorem C86_children_first_partial (as : List Action) (s : St) (h : GoodRun St.init as s) (p j : Nat) (hp : p < s.n) (hj : j < s.n)
    (hpar : (s.act j).parent = some p) (hstop : .postStop ∈ calls (s.act p)) : calls (s.act j) = [] ∨ Finished (s.act j) := by
  have hI := good_inv h
  have hl := hI.loc p hp
  have hb : (s.act p).begun = true := begun_of_calls hI hp (List.ne_nil_of_mem hstop)
  have hps : (s.act p).stop = true := by
    cases hs : (s.act p).stop with
    | true => rfl
    | false =>
      obtain ⟨rs, h1, h2⟩ := hl.life1 hb hs
      have h3 : Eff.postStop ∈ life (s.act p) := by
        rw [calls_eq] at hstop
        simp only [life, List.filter_append, List.mem_append]
        exact .inl hstop
      rw [h2] at h3
      simp at h3
      have := h1 _ h3
      simp [Eff.isReceive] at this
  by_cases hc : calls (s.act j) = []
  · exact .inl hc
  · right
    have hbj := begun_of_calls hI hj hc
    have hj0 := (hI.parentLt hj hpar).1
    have hhp : (s.act j).cell.hasParent = true := by
      cases hx : (s.act j).cell.hasParent with
      | true => rfl
      | false => have := (hI.fresh j hj hj0 hx).begun; rw [hbj] at this; simp at this
    have hdead : (s.act j).alive = false := by
      cases ha : (s.act j).alive with
      | false => rfl
      | true =>
        have := hI.own j hj p hpar ha hhp
        rw [(hl.stopped hps).1] at this
        simp at this
    rcases (hI.loc j hj).dead hdead with b | b
    · exact finished_of_stop hI hj b.1 b.2 hbj
    · rw [hhp] at b; simp at b

/-- **C86**, destruction: no actor is ever destroyed while it runs, in the middle of a message, or while it has children. -/
theorem C86_no_ub_partial (as : List Action) (s : St) (h : GoodRun St.init as s) : s.ub = false := (good_inv h).nub

/-- **C86**, destruction: an actor that was started and whose cell is gone has returned from `post_stop`. -/
theorem C86_destroyed_finished_partial (as : List Action) (s : St) (h : GoodRun St.init as s) (i : Nat) (hi : i < s.n) (hd : (s.act i).alive = false) :
    calls (s.act i) = [] ∨ Finished (s.act i) := by
  have hI := good_inv h
  by_cases hc : calls (s.act i) = []
  · exact .inl hc
  · right
    have hb := begun_of_calls hI hi hc
    rcases (hI.loc i hi).dead hd with b | b
    · exact finished_of_stop hI hi b.1 b.2 hb
    · have h0 : 0 < i := by
        rcases Nat.eq_zero_or_pos i with h0 | h0
        · subst h0; rw [hI.root.2.2.2] at hd; simp at hd
        · exact h0
      have := (hI.fresh i hi h0 b).begun
      rw [hb] at this; simp at this

theorem told_of_send {s s' : St} {i : Nat} {m : Ext} (h : Inv s) (hm : m = .stop ∨ m = .pill) (hg : Good s (.send i m)) (hs : step s (.send i m) = some s') :
    i < s.n ∧ (Told (s'.act i) ∨ (s'.act i).isOpen = false) := by
  simp only [step] at hs
  split at hs
  · rename_i hi
    refine ⟨hi, ?_⟩
    simp only [Option.some.injEq] at hs
    subst hs
    rw [upd_self]
    cases ho : (s.act i).isOpen with
    | false =>
      right
      rcases hm with rfl | rfl
      · dsimp only; rw [pushSys_eq]; exact ho
      · dsimp only; rw [pushUsr_eq]; exact ho
    | true =>
      left
      rcases hm with rfl | rfl
      · left; dsimp only; rw [pushSys_eq]; simp [ho]
      · right; left; dsimp only; rw [pushUsr_eq]; simp [ho]
  · simp at hs

/-- Closed for good. -/
theorem closed_step {s s' : St} {a : Action} {i : Nat} (hi : i < s.n) (ho : (s.act i).isOpen = false) (hs : step s a = some s') :
    (s'.act i).isOpen = false ∧ (s'.act i).sys = (s.act i).sys ∧ (s'.act i).usr = (s.act i).usr := by
  have hpushS : ∀ (t : St) (k : Nat) (m : Msg), (t.act i).isOpen = false → ((t.upd k ((t.act k).pushSys m)).act i).isOpen = false ∧ ((t.upd k ((t.act k).pushSys m)).act i).sys = (t.act i).sys ∧
      ((t.upd k ((t.act k).pushSys m)).act i).usr = (t.act i).usr := by
    intro t k m ht
    rw [(frame_pushSys t k m).isOpen, usr_pushSys, sys_pushSys]
    refine ⟨ht, ?_, rfl⟩
    rw [if_neg]
    intro e
    rw [e.1, e.2] at ht; simp at ht
  have hpushU : ∀ (t : St) (k : Nat) (m : Msg), (t.act i).isOpen = false → ((t.upd k ((t.act k).pushUsr m)).act i).isOpen = false ∧ ((t.upd k ((t.act k).pushUsr m)).act i).sys = (t.act i).sys ∧
      ((t.upd k ((t.act k).pushUsr m)).act i).usr = (t.act i).usr := by
    intro t k m ht
    rw [(frame_pushUsr t k m).isOpen, usr_pushUsr, sys_pushUsr]
    refine ⟨ht, rfl, ?_⟩
    rw [if_neg]
    intro e
    rw [e.1, e.2] at ht; simp at ht
  have htake : ∀ (k : Nat) (m : Msg) (sys usr : List Msg), k ≠ i → ((takeMsg s k m sys usr).act i).isOpen = false ∧ ((takeMsg s k m sys usr).act i).sys = (s.act i).sys ∧
      ((takeMsg s k m sys usr).act i).usr = (s.act i).usr := by
    intro k m sys usr hk
    have h1 : ((s.upd k (taken (s.act k) m sys usr)).act i) = s.act i := upd_ne _ _ (Ne.symm hk)
    have h2 : ∀ (t : St) (k : Nat), ((t.upd k (t.act k).adopted).act i).isOpen = (t.act i).isOpen ∧ ((t.upd k (t.act k).adopted).act i).sys = (t.act i).sys ∧
        ((t.upd k (t.act k).adopted).act i).usr = (t.act i).usr := by
      intro t k
      rw [upd_act]
      split
      · rename_i e; subst e; exact ⟨rfl, rfl, rfl⟩
      · exact ⟨rfl, rfl, rfl⟩
    have h3 : ∀ (t : St) (k : Nat), (t.act i).isOpen = false → ((t.kill k).act i).isOpen = false ∧ ((t.kill k).act i).sys = (t.act i).sys ∧
        ((t.kill k).act i).usr = (t.act i).usr := by
      intro t k ht
      simp only [St.kill]
      split
      · exact ⟨by simp [Act.dead, ht], rfl, rfl⟩
      · exact ⟨ht, rfl, rfl⟩
    unfold takeMsg
    dsimp only
    cases adoptee (s.act k).cell m with
    | none =>
      cases (process (s.act k).cell m).2.1.findSome? victim with
      | none =>
        show ((s.upd k (taken (s.act k) m sys usr)).act i).isOpen = false ∧ ((s.upd k (taken (s.act k) m sys usr)).act i).sys = _ ∧ ((s.upd k (taken (s.act k) m sys usr)).act i).usr = _
        rw [h1]; exact ⟨ho, rfl, rfl⟩
      | some v =>
        have := h3 (s.upd k (taken (s.act k) m sys usr)) v (by rw [h1]; exact ho)
        rw [h1] at this
        exact this
    | some k' =>
      have a := h2 (s.upd k (taken (s.act k) m sys usr)) k'
      rw [h1] at a
      cases (process (s.act k).cell m).2.1.findSome? victim with
      | none => exact ⟨a.1.trans ho, a.2.1, a.2.2⟩
      | some v =>
        have b := h3 ((s.upd k (taken (s.act k) m sys usr)).upd k' ((s.upd k (taken (s.act k) m sys usr)).act k').adopted) v (a.1.trans ho)
        exact ⟨b.1, b.2.1.trans a.2.1, b.2.2.trans a.2.2⟩
  cases a with
  | create p path ok =>
    simp only [step] at hs
    split at hs
    · simp only [Option.some.injEq] at hs
      subst hs
      dsimp only
      rw [upd_ne _ _ (by omega)]
      exact hpushS s p _ ho
    · simp at hs
  | send k m =>
    simp only [step] at hs
    split at hs
    · simp only [Option.some.injEq] at hs
      subst hs
      cases m
      · exact hpushS s k _ ho
      · exact hpushS s k _ ho
      · exact hpushS s k _ ho
      · exact hpushU s k _ ho
      · exact hpushU s k _ ho
    · simp at hs
  | watch w k =>
    simp only [step] at hs
    split at hs
    · split at hs <;> simp only [Option.some.injEq] at hs <;> subst hs
      · exact hpushS s k _ ho
      · exact hpushU s w _ ho
    · simp at hs
  | takeSys k =>
    simp only [step] at hs
    split at hs
    · rename_i hc
      simp only [Bool.and_eq_true] at hc
      split at hs
      · simp at hs
      · simp only [Option.some.injEq] at hs
        subst hs
        exact htake k _ _ _ (by intro e; subst e; rw [ho] at hc; simp at hc)
    · simp at hs
  | takeUsr k =>
    simp only [step] at hs
    split at hs
    · rename_i hc
      simp only [Bool.and_eq_true] at hc
      split at hs
      · simp at hs
      · simp only [Option.some.injEq] at hs
        subst hs
        exact htake k _ _ _ (by intro e; subst e; rw [ho] at hc; simp at hc)
    · simp at hs
  | emit k =>
    simp only [step] at hs
    split at hs
    · split at hs
      · simp at hs
      · rename_i e es he
        simp only [Option.some.injEq] at hs
        have hs' : s' = send (pop s k e es) k e := hs.symm
        rw [hs']
        have hp : ((pop s k e es).act i).isOpen = false := by rw [(frame_pop s k e es).isOpen]; exact ho
        have e1 := sys_pop s k i e es
        have e2 := usr_pop s k i e es
        rw [← e1, ← e2]
        cases e with
        | preStart b => exact ⟨hp, rfl, rfl⟩
        | postStop => exact ⟨hp, rfl, rfl⟩
        | receive m => exact ⟨hp, rfl, rfl⟩
        | destroy c => exact ⟨hp, rfl, rfl⟩
        | tellTerminated w => exact hpushU _ w _ hp
        | pillTo c => exact hpushU _ c.id _ hp
        | startTo c => exact hpushS _ c.id _ hp
        | stopSelf => exact hpushS _ k _ hp
        | detachToParent =>
          unfold send
          dsimp only
          split
          · exact hpushS _ _ _ hp
          · exact ⟨hp, rfl, rfl⟩
    · simp at hs
  | close k =>
    simp only [step] at hs
    split at hs
    · simp only [Option.some.injEq] at hs
      subst hs
      rw [upd_act]
      split
      · rename_i e; subst e; exact ⟨rfl, rfl, rfl⟩
      · exact ⟨ho, rfl, rfl⟩
    · simp at hs

/-- **C86**, closed mailboxes: in any execution whatever, a mailbox that is closed stays closed and nothing is put into it or taken from it any more. -/
theorem C86_closed_for_good (as : List Action) (s s' : St) (h : run s as = some s') (i : Nat) (hi : i < s.n) (ho : (s.act i).isOpen = false) :
    (s'.act i).isOpen = false ∧ (s'.act i).sys = (s.act i).sys ∧ (s'.act i).usr = (s.act i).usr := by
  induction as generalizing s with
  | nil => simp [run] at h; subst h; exact ⟨ho, rfl, rfl⟩
  | cons a as ih =>
    simp only [run] at h
    cases hs : step s a with
    | none => rw [hs] at h; simp at h
    | some s1 =>
      rw [hs] at h
      obtain ⟨h1, h2, h3⟩ := closed_step hi ho hs
      have := ih s1 h (Nat.lt_of_lt_of_le hi (step_n hs)) h1
      rw [h2, h3] at this
      exact this

theorem goodRun_run {s s' : St} {as : List Action} (h : GoodRun s as s') : run s as = some s' := by
  induction h with
  | nil => rfl
  | cons _ hs _ ih => simp [run, hs, ih]

theorem goodRun_n {s s' : St} {as : List Action} (h : GoodRun s as s') : s.n ≤ s'.n := by
  induction h with
  | nil => exact Nat.le_refl _
  | cons _ hs _ ih => exact Nat.le_trans (step_n hs) ih

/-- **C86**, stopping: when nothing is left to do, every actor that was told to stop, by `stop` or by a poison pill, has stopped, and if it
was started it has returned from `post_stop`. -/
theorem C86_stop_completes_partial (as bs : List Action) (s1 s2 s : St) (i : Nat) (m : Ext) (hm : m = .stop ∨ m = .pill)
    (h1 : GoodRun St.init as s1) (hg : Good s1 (.send i m)) (hsend : step s1 (.send i m) = some s2) (h2 : GoodRun s2 bs s) (hq : Quiescent s) :
    (s.act i).isOpen = false ∧ (calls (s.act i) = [] ∨ Finished (s.act i)) := by
  have hI1 := good_inv h1
  have hI2 := hI1.step hg hsend
  have hI := hI2.goodRun h2
  obtain ⟨hi, ht⟩ := told_of_send hI1 hm hg hsend
  have hi2 : i < s2.n := Nat.lt_of_lt_of_le hi (step_n hsend)
  have hin : i < s.n := Nat.lt_of_lt_of_le hi2 (goodRun_n h2)
  have fin : (s.act i).stop = true → calls (s.act i) = [] ∨ Finished (s.act i) := by
    intro hs
    by_cases hc : calls (s.act i) = []
    · exact .inl hc
    · exact .inr (finished_of_stop hI hin hs (hq.out hin) (begun_of_calls hI hin hc))
  rcases ht with ht | ht
  · have hs := hI.rest hq (s.n - i) i (Nat.le_refl _) hin (ht.goodRun hI2 hi2 h2)
    exact ⟨hq.stopped hin hs, fin hs⟩
  · have hcl := (C86_closed_for_good bs s2 s (goodRun_run h2) i hi2 ht).1
    refine ⟨hcl, ?_⟩
    cases ha : (s.act i).alive with
    | true =>
      cases hs : (s.act i).stop with
      | true => exact fin hs
      | false => have := (hI.loc i hin).openn ha hs; rw [hcl] at this; simp at this
    | false =>
      rcases (hI.loc i hin).dead ha with b | b
      · exact fin b.1
      · have h0 : 0 < i := by
          rcases Nat.eq_zero_or_pos i with h0 | h0
          · subst h0; rw [hI.root.2.2.2] at ha; simp at ha
          · exact h0
        left
        have hf := hI.fresh i hin h0 b
        simp [calls, hf.log]

theorem attached_stop {s : St} (h : Inv s) (h0 : (s.act 0).stop = true) : ∀ j, j < s.n → (j = 0 ∨ (s.act j).cell.hasParent = true) → (s.act j).stop = true := by
  intro j
  induction j using Nat.strongRecOn with
  | ind j ih =>
    intro hj hatt
    rcases Nat.eq_zero_or_pos j with e | hpos
    · subst e; exact h0
    · have hhp : (s.act j).cell.hasParent = true := by
        rcases hatt with e | e
        · omega
        · exact e
      obtain ⟨p, hpj, hpar⟩ := h.par j hj hpos
      cases ha : (s.act j).alive with
      | false =>
        rcases (h.loc j hj).dead ha with b | b
        · exact b.1
        · rw [hhp] at b; simp at b
      | true =>
        exfalso
        have hc := h.own j hj p hpar ha hhp
        have hp : p < s.n := by omega
        have hatt' : p = 0 ∨ (s.act p).cell.hasParent = true := by
          rcases Nat.eq_zero_or_pos p with e | hp0
          · exact .inl e
          · right
            cases hx : (s.act p).cell.hasParent with
            | true => rfl
            | false => rw [(h.fresh p hp hp0 hx).children] at hc; simp at hc
        have := ((h.loc p hp).stopped (ih p hpj hp hatt')).1
        rw [this] at hc
        simp at hc

/-- **C86**, shutting down: after the root is told to stop, when nothing is left to do, every actor that was ever started has returned
from `post_stop`. -/
theorem C86_shutdown_partial (as bs : List Action) (s1 s2 s : St) (h1 : GoodRun St.init as s1) (hsend : step s1 (.send 0 .stop) = some s2)
    (h2 : GoodRun s2 bs s) (hq : Quiescent s) (j : Nat) (hj : j < s.n) : calls (s.act j) = [] ∨ Finished (s.act j) := by
  have hI1 := good_inv h1
  have hg : Good s1 (.send 0 .stop) := .inl rfl
  have hI2 := hI1.step hg hsend
  have hI := hI2.goodRun h2
  have hcl := (C86_stop_completes_partial as bs s1 s2 s 0 .stop (.inl rfl) h1 hg hsend h2 hq).1
  have h0 : (s.act 0).stop = true := by
    cases hs : (s.act 0).stop with
    | true => rfl
    | false => have := (hI.loc 0 hI.pos).openn hI.root.2.2.2 hs; rw [hcl] at this; simp at this
  by_cases hc : calls (s.act j) = []
  · exact .inl hc
  · right
    have hb := begun_of_calls hI hj hc
    refine finished_of_stop hI hj (attached_stop hI h0 j hj ?_) (hq.out hj) hb
    rcases Nat.eq_zero_or_pos j with e | hp0
    · exact .inl e
    · right
      cases hx : (s.act j).cell.hasParent with
      | true => rfl
      | false => have := (hI.fresh j hj hp0 hx).begun; rw [hb] at this; simp at this

/-- **C86**, progress: left alone, the actors come to rest, whatever the order of their steps; there is a bound on the number of steps, and every
execution can be continued until nothing is left to do. -/
theorem C86_comes_to_rest_partial (as : List Action) (s : St) (h : GoodRun St.init as s) :
    (∃ N, ∀ (bs : List Action) (s' : St), (∀ b ∈ bs, isInternal b = true) → run s bs = some s' → bs.length ≤ N) ∧
    ∃ (bs : List Action) (s' : St), (∀ b ∈ bs, isInternal b = true) ∧ GoodRun s bs s' ∧ Quiescent s' := by
  have hI := good_inv h
  refine ⟨⟨work s, fun bs s' hb hr => ?_⟩, ?_⟩
  · have := (work_run hI hb hr).1
    omega
  · obtain ⟨bs, s', hb, hr, hq⟩ := exists_rest (work s) s hI (Nat.le_refl _)
    exact ⟨bs, s', hb, (work_run hI hb hr).2, hq⟩

/-- **C86**, stopping succeeds: once an actor is told to stop, its mailbox is closed after finitely many steps: there is a number that bounds how long the
actors can go on by themselves, and every execution of theirs can only end with the mailbox closed. -/
theorem C86_stop_succeeds_partial (as : List Action) (s1 s2 : St) (i : Nat) (m : Ext) (hm : m = .stop ∨ m = .pill)
    (h1 : GoodRun St.init as s1) (hg : Good s1 (.send i m)) (hsend : step s1 (.send i m) = some s2) :
    ∃ N, ∀ (bs : List Action) (s : St), (∀ b ∈ bs, isInternal b = true) → run s2 bs = some s →
      bs.length ≤ N ∧ ((s.act i).isOpen = false ∨ ∃ (b : Action) (s' : St), isInternal b = true ∧ step s b = some s') := by
  have hI2 := (good_inv h1).step hg hsend
  refine ⟨work s2, fun bs s hb hr => ?_⟩
  obtain ⟨w1, w2⟩ := work_run hI2 hb hr
  refine ⟨by omega, ?_⟩
  by_cases hq : Quiescent s
  · exact .inl (C86_stop_completes_partial as bs s1 s2 s i m hm h1 hg hsend w2 hq).1
  · right
    simp only [Quiescent, Classical.not_forall, not_and_or] at hq
    obtain ⟨k, hk⟩ := hq
    rcases hk with hk | hk | hk | hk
    all_goals obtain ⟨s', hs'⟩ := Option.ne_none_iff_exists'.1 hk
    · exact ⟨_, s', rfl, hs'⟩
    · exact ⟨_, s', rfl, hs'⟩
    · exact ⟨_, s', rfl, hs'⟩
    · exact ⟨_, s', rfl, hs'⟩

/-- A closed mailbox belongs to an actor with nothing left to do. -/
def Idle (s : St) : Prop := ∀ i < s.n, (s.act i).alive = true → (s.act i).isOpen = false → (s.act i).out = []

theorem Idle.same {s s' : St} (h : Idle s) (hn : s'.n = s.n) (ho : ∀ j < s.n, (s'.act j).out = (s.act j).out ∨ (s.act j).out ≠ [] ∨ (s'.act j).alive = false ∨ (s'.act j).isOpen = true)
    (ha : ∀ j < s.n, (s'.act j).alive = true → (s.act j).alive = true) (hp : ∀ j < s.n, (s'.act j).alive = true → (s'.act j).isOpen = (s.act j).isOpen) : Idle s' := by
  intro i hi h1 h2
  rw [hn] at hi
  have h3 := h i hi (ha i hi h1) (by rw [← hp i hi h1]; exact h2)
  rcases ho i hi with e | e | e | e
  · rw [e, h3]
  · exact absurd h3 e
  · rw [e] at h1; simp at h1
  · rw [e] at h2; simp at h2

theorem Idle.step {s s' : St} {a : Action} (h : Idle s) (hs : ActorSteps.step s a = some s') : Idle s' := by
  have hpushS : ∀ (t : St), Idle t → ∀ (k : Nat) (m : Msg), Idle (t.upd k ((t.act k).pushSys m)) := by
    intro t ht k m
    have f := frame_pushSys t k m
    exact ht.same rfl (fun j _ => .inl (out_pushSys t k j m)) (fun j _ => by rw [f.alive]; exact id) (fun j _ _ => f.isOpen j)
  have hpushU : ∀ (t : St), Idle t → ∀ (k : Nat) (m : Msg), Idle (t.upd k ((t.act k).pushUsr m)) := by
    intro t ht k m
    have f := frame_pushUsr t k m
    exact ht.same rfl (fun j _ => .inl (out_pushUsr t k j m)) (fun j _ => by rw [f.alive]; exact id) (fun j _ _ => f.isOpen j)
  have hkill : ∀ (t : St), Idle t → ∀ (k : Nat), Idle (t.kill k) := by
    intro t ht k j hj
    simp only [St.kill]
    split
    · intro h1; simp [Act.dead] at h1
    · exact ht j hj
  have hadopt : ∀ (t : St), Idle t → ∀ (k : Nat), Idle (t.upd k (t.act k).adopted) := by
    intro t ht k j hj
    rw [upd_act]
    split
    · rename_i e; subst e; exact ht j hj
    · exact ht j hj
  have htake : ∀ (k : Nat) (m : Msg) (sys usr : List Msg), (s.act k).isOpen = true → Idle (takeMsg s k m sys usr) := by
    intro k m sys usr hk
    have h1 : Idle (s.upd k (taken (s.act k) m sys usr)) := by
      intro j hj
      rw [upd_act]
      split
      · intro _ h2
        have : (s.act k).isOpen = false := h2
        rw [hk] at this; simp at this
      · exact h j hj
    unfold takeMsg
    dsimp only
    cases adoptee (s.act k).cell m with
    | none =>
      cases (process (s.act k).cell m).2.1.findSome? victim with
      | none => exact h1
      | some v => exact hkill _ h1 v
    | some k' =>
      have h2 := hadopt _ h1 k'
      cases (process (s.act k).cell m).2.1.findSome? victim with
      | none => exact h2
      | some v => exact hkill _ h2 v
  cases a with
  | create p path ok =>
    simp only [ActorSteps.step] at hs
    split at hs
    · simp only [Option.some.injEq] at hs
      subst hs
      intro j hj
      have hj' : j < s.n + 1 := hj
      dsimp only
      by_cases hjn : j = s.n
      · rw [hjn, upd_self]; intro _ _; rfl
      · rw [upd_ne _ _ hjn]; exact hpushS s h p _ j (by rw [upd_n]; omega)
    · simp at hs
  | send k m =>
    simp only [ActorSteps.step] at hs
    split at hs
    · simp only [Option.some.injEq] at hs
      subst hs
      cases m
      · exact hpushS s h k _
      · exact hpushS s h k _
      · exact hpushS s h k _
      · exact hpushU s h k _
      · exact hpushU s h k _
    · simp at hs
  | watch w k =>
    simp only [ActorSteps.step] at hs
    split at hs
    · split at hs <;> simp only [Option.some.injEq] at hs <;> subst hs
      · exact hpushS s h k _
      · exact hpushU s h w _
    · simp at hs
  | takeSys k =>
    simp only [ActorSteps.step] at hs
    split at hs
    · rename_i hc
      simp only [Bool.and_eq_true] at hc
      split at hs
      · simp at hs
      · simp only [Option.some.injEq] at hs
        subst hs
        exact htake k _ _ _ hc.1.1.2
    · simp at hs
  | takeUsr k =>
    simp only [ActorSteps.step] at hs
    split at hs
    · rename_i hc
      simp only [Bool.and_eq_true] at hc
      split at hs
      · simp at hs
      · simp only [Option.some.injEq] at hs
        subst hs
        exact htake k _ _ _ hc.1.1.1.1.2
    · simp at hs
  | emit k =>
    simp only [ActorSteps.step] at hs
    split at hs
    · split at hs
      · simp at hs
      · rename_i e es he
        simp only [Option.some.injEq] at hs
        have hs' : s' = send (pop s k e es) k e := hs.symm
        rw [hs']
        have hp : Idle (pop s k e es) := by
          have f := frame_pop s k e es
          refine h.same rfl (fun j _ => ?_) (fun j _ => by rw [f.alive]; exact id) (fun j _ _ => f.isOpen j)
          unfold pop
          rw [upd_act]
          split
          · rename_i e'; subst e'; right; left; rw [he]; simp
          · exact .inl rfl
        cases e with
        | preStart b => exact hp
        | postStop => exact hp
        | receive m => exact hp
        | destroy c => exact hp
        | tellTerminated w => exact hpushU _ hp w _
        | pillTo c => exact hpushU _ hp c.id _
        | startTo c => exact hpushS _ hp c.id _
        | stopSelf => exact hpushS _ hp k _
        | detachToParent =>
          unfold send
          dsimp only
          split
          · exact hpushS _ hp _ _
          · exact hp
    · simp at hs
  | close k =>
    simp only [ActorSteps.step] at hs
    split at hs
    · rename_i hc
      simp only [Bool.and_eq_true, List.isEmpty_iff] at hc
      simp only [Option.some.injEq] at hs
      subst hs
      intro j hj
      rw [upd_act]
      split
      · intro _ _; exact hc.1.2
      · exact h j hj
    · simp at hs

theorem Idle.goodRun {s s' : St} {as : List Action} (h : Idle s) (hr : GoodRun s as s') : Idle s' := by
  induction hr with
  | nil => exact h
  | cons _ hs _ ih => exact ih (h.step hs)

/-- **C86**, notices: an actor tells every watcher of its end at most once and nobody before its last call; when it was started and its mailbox is
closed, it has told exactly the actors that watched it. -/
theorem C86_notices_partial (as : List Action) (s : St) (h : GoodRun St.init as s) (i : Nat) (hi : i < s.n) (w : Nat) :
    (s.act i).log.count (.tellTerminated w) ≤ 1 ∧
    (calls (s.act i) ≠ [] → (s.act i).isOpen = false → (s.act i).log.count (.tellTerminated w) = if w ∈ (s.act i).cell.watchers then 1 else 0) := by
  have hI := good_inv h
  have hN := (Notices.goodRun Inv.init Notices.init h i hi).2 w
  rw [List.count_append] at hN
  constructor
  · split at hN <;> omega
  · intro hc ho
    have hb := begun_of_calls hI hi hc
    have hso : (s.act i).stop = true ∧ (s.act i).out = [] := by
      cases ha : (s.act i).alive with
      | true =>
        refine ⟨?_, Idle.goodRun (s := St.init) (by intro j _ _ _; rfl) h i hi ha ho⟩
        cases hs : (s.act i).stop with
        | true => rfl
        | false => have := (hI.loc i hi).openn ha hs; rw [ho] at this; simp at this
      | false =>
        rcases (hI.loc i hi).dead ha with b | b
        · exact b
        · rcases Nat.eq_zero_or_pos i with h0 | h0
          · subst h0; rw [hI.root.2.2.2] at ha; simp at ha
          · have := (hI.fresh i hi h0 b).begun
            rw [hb] at this; simp at this
    rw [hso.2, hso.1] at hN
    simpa using hN

/-- **C86**, notices arrive: the step in which a watcher is told puts one message about this actor into its mailbox if that is open, and changes no other
mailbox. -/
theorem C86_notice_arrives (s s' : St) (i w : Nat) (es : List Eff) (ho : (s.act i).out = .tellTerminated w :: es) (hs : step s (.emit i) = some s') :
    (s'.act w).usr = (s.act w).usr ++ (if (s.act w).isOpen then [terminatedMsg i] else []) ∧
    (∀ k, k ≠ w → (s'.act k).usr = (s.act k).usr) ∧ ∀ k, (s'.act k).sys = (s.act k).sys := by
  simp only [step] at hs
  split at hs
  · rw [ho] at hs
    simp only [Option.some.injEq] at hs
    have hs' : s' = (pop s i (.tellTerminated w) es).upd w (((pop s i (.tellTerminated w) es).act w).pushUsr (terminatedMsg i)) := hs.symm
    rw [hs']
    refine ⟨?_, fun k hk => ?_, fun k => ?_⟩
    · rw [upd_self, pushUsr_eq]
      dsimp only
      rw [usr_pop, (frame_pop s i _ es).isOpen]
      split <;> simp
    · rw [upd_ne _ _ hk, usr_pop]
    · rw [sys_pushUsr, sys_pop]
  · simp at hs

/-! ### Watching -/

theorem takeMsg_sys (s : St) (i j : Nat) (m : Msg) (sys usr : List Msg) :
    ((takeMsg s i m sys usr).act j).sys = if j = i then sys else (s.act j).sys := by
  have h1 : ((s.upd i (taken (s.act i) m sys usr)).act j).sys = if j = i then sys else (s.act j).sys := by
    rw [upd_act]; split <;> rfl
  have h2 : ∀ (t : St) (k : Nat), ((t.upd k (t.act k).adopted).act j).sys = (t.act j).sys := by
    intro t k
    rw [upd_act]
    split
    · rename_i e; subst e; rfl
    · rfl
  have h3 : ∀ (t : St) (k : Nat), ((t.kill k).act j).sys = (t.act j).sys := by
    intro t k
    simp only [St.kill]
    split <;> rfl
  rw [← h1]
  unfold takeMsg
  dsimp only
  cases adoptee (s.act i).cell m with
  | none =>
    cases (process (s.act i).cell m).2.1.findSome? victim with
    | none => rfl
    | some k => exact h3 _ k
  | some k' =>
    have a := h2 (s.upd i (taken (s.act i) m sys usr)) k'
    cases (process (s.act i).cell m).2.1.findSome? victim with
    | none => exact a
    | some k => exact (h3 _ k).trans a

/-- What a step does to the system queue and the watchers of one actor. -/
theorem step_watch {s s' : St} {a : Action} (hs : step s a = some s') (j : Nat) (hj : j < s.n) :
    (∃ l, (s'.act j).sys = (s.act j).sys ++ l ∧ (s'.act j).cell.watchers = (s.act j).cell.watchers ∧ ∀ w, .unwatch w ∈ l → a = .send j (.unwatch w)) ∨
    (∃ m, (s.act j).sys = m :: (s'.act j).sys ∧ (s'.act j).cell.watchers = (process (s.act j).cell m).1.watchers) ∨
    (∃ m, m ∈ (s.act j).usr ∧ (s'.act j).sys = [] ∧ (s.act j).sys = [] ∧ (s'.act j).cell.watchers = (process (s.act j).cell m).1.watchers) := by
  have same : ∀ (t : St), (t.act j).sys = (s.act j).sys → (t.act j).cell.watchers = (s.act j).cell.watchers →
      (∃ l, (t.act j).sys = (s.act j).sys ++ l ∧ (t.act j).cell.watchers = (s.act j).cell.watchers ∧ ∀ w, .unwatch w ∈ l → a = .send j (.unwatch w)) :=
    fun t h1 h2 => ⟨[], by rw [h1]; simp, h2, by simp⟩
  have push : ∀ (t : St) (k : Nat) (m : Msg), (t.act j).sys = (s.act j).sys → (t.act j).cell.watchers = (s.act j).cell.watchers → (∀ w, m = .unwatch w → k = j → a = .send j (.unwatch w)) →
      (∃ l, ((t.upd k ((t.act k).pushSys m)).act j).sys = (s.act j).sys ++ l ∧ ((t.upd k ((t.act k).pushSys m)).act j).cell.watchers = (s.act j).cell.watchers ∧
        ∀ w, .unwatch w ∈ l → a = .send j (.unwatch w)) := by
    intro t k m h1 h2 h3
    have f := frame_pushSys t k m
    rw [f.cell, sys_pushSys, h2]
    by_cases hc : j = k ∧ (t.act k).isOpen = true
    · refine ⟨[m], by rw [if_pos hc, h1], rfl, fun w hw => ?_⟩
      rw [List.mem_singleton] at hw
      exact h3 w hw.symm hc.1.symm
    · exact ⟨[], by rw [if_neg hc, h1]; simp, rfl, by simp⟩
  have pushU : ∀ (t : St) (k : Nat) (m : Msg), (t.act j).sys = (s.act j).sys → (t.act j).cell.watchers = (s.act j).cell.watchers →
      (∃ l, ((t.upd k ((t.act k).pushUsr m)).act j).sys = (s.act j).sys ++ l ∧ ((t.upd k ((t.act k).pushUsr m)).act j).cell.watchers = (s.act j).cell.watchers ∧
        ∀ w, .unwatch w ∈ l → a = .send j (.unwatch w)) := by
    intro t k m h1 h2
    exact same _ (by rw [sys_pushUsr, h1]) (by rw [(frame_pushUsr t k m).cell, h2])
  cases a with
  | create p path ok =>
    simp only [step] at hs
    split at hs
    · simp only [Option.some.injEq] at hs
      subst hs
      dsimp only
      rw [upd_ne _ _ (by omega)]
      exact .inl (push s p _ rfl rfl (by intro w hw; simp at hw))
    · simp at hs
  | send k m =>
    simp only [step] at hs
    split at hs
    · simp only [Option.some.injEq] at hs
      subst hs
      left
      cases m with
      | stop => exact push s k _ rfl rfl (by intro w hw; simp at hw)
      | stopAfterChildren => exact push s k _ rfl rfl (by intro w hw; simp at hw)
      | unwatch w => exact push s k (.unwatch w) rfl rfl (by intro w' hw hk; simp at hw; rw [hw, hk])
      | pill => exact pushU s k _ rfl rfl
      | user m => exact pushU s k _ rfl rfl
    · simp at hs
  | watch w k =>
    simp only [step] at hs
    split at hs
    · split at hs <;> simp only [Option.some.injEq] at hs <;> subst hs
      · exact .inl (push s k _ rfl rfl (by intro w hw; simp at hw))
      · exact .inl (pushU s w _ rfl rfl)
    · simp at hs
  | takeSys k =>
    simp only [step] at hs
    split at hs
    · split at hs
      · simp at hs
      · rename_i m ms hm
        simp only [Option.some.injEq] at hs
        subst hs
        obtain ⟨-, -, -, v⟩ := takeMsg_view s k j m ms (s.act k).usr
        rw [v, takeMsg_sys]
        by_cases hjk : j = k
        · subst hjk
          rw [upd_self, if_pos rfl]
          exact .inr (.inl ⟨m, hm, rfl⟩)
        · rw [upd_ne _ _ hjk, if_neg hjk]
          exact .inl ⟨[], by simp, rfl, by simp⟩
    · simp at hs
  | takeUsr k =>
    simp only [step] at hs
    split at hs
    · rename_i hc
      simp only [Bool.and_eq_true, List.isEmpty_iff] at hc
      split at hs
      · simp at hs
      · rename_i m ms hm
        simp only [Option.some.injEq] at hs
        subst hs
        obtain ⟨-, -, -, v⟩ := takeMsg_view s k j m [] ms
        rw [v, takeMsg_sys]
        by_cases hjk : j = k
        · subst hjk
          rw [upd_self, if_pos rfl]
          exact .inr (.inr ⟨m, by rw [hm]; exact List.mem_cons_self, rfl, hc.2, rfl⟩)
        · rw [upd_ne _ _ hjk, if_neg hjk]
          exact .inl ⟨[], by simp, rfl, by simp⟩
    · simp at hs
  | emit k =>
    simp only [step] at hs
    split at hs
    · split at hs
      · simp at hs
      · rename_i e es he
        simp only [Option.some.injEq] at hs
        have hs' : s' = send (pop s k e es) k e := hs.symm
        rw [hs']
        left
        have e1 := sys_pop s k j e es
        have e2 : ((pop s k e es).act j).cell.watchers = (s.act j).cell.watchers := by rw [(frame_pop s k e es).cell]
        cases e with
        | preStart b => exact same _ e1 e2
        | postStop => exact same _ e1 e2
        | receive m => exact same _ e1 e2
        | destroy c => exact same _ e1 e2
        | tellTerminated w => exact pushU _ w _ e1 e2
        | pillTo c => exact pushU _ c.id _ e1 e2
        | startTo c => exact push _ c.id _ e1 e2 (by intro w hw; simp at hw)
        | stopSelf => exact push _ k _ e1 e2 (by intro w hw; simp at hw)
        | detachToParent =>
          unfold send
          dsimp only
          split
          · exact push _ _ _ e1 e2 (by intro w hw; simp at hw)
          · exact same _ e1 e2
    · simp at hs
  | close k =>
    simp only [step] at hs
    split at hs
    · simp only [Option.some.injEq] at hs
      subst hs
      left
      apply same
      · rw [upd_act]; split
        · rename_i e; subst e; rfl
        · rfl
      · rw [upd_act]; split
        · rename_i e; subst e; rfl
        · rfl
    · simp at hs

/-- The request of `w` is on its way or has been registered, and nobody takes it back. -/
def Asked (s : St) (w i : Nat) : Prop := Msg.watch w ∈ (s.act i).sys ∨ w ∈ (s.act i).cell.watchers

theorem noUnwatch_step {s s' : St} {a : Action} {w i : Nat} (hi : i < s.n) (h : Msg.unwatch w ∉ (s.act i).sys) (ha : a ≠ .send i (.unwatch w)) (hs : step s a = some s') :
    Msg.unwatch w ∉ (s'.act i).sys := by
  rcases step_watch hs i hi with ⟨l, h1, -, h3⟩ | ⟨m, h1, -⟩ | ⟨m, -, h1, -⟩
  · rw [h1]
    intro e
    rcases List.mem_append.1 e with e | e
    · exact h e
    · exact ha (h3 w e)
  · intro e; exact h (by rw [h1]; exact List.mem_cons_of_mem _ e)
  · rw [h1]; simp

theorem asked_step {s s' : St} {a : Action} {w i : Nat} (hI : Inv s) (hN : Notices s) (hi : i < s.n) (h : Msg.unwatch w ∉ (s.act i).sys) (hr : Asked s w i) (hs : step s a = some s') :
    Asked s' w i := by
  rcases step_watch hs i hi with ⟨l, h1, h2, -⟩ | ⟨m, h1, h2⟩ | ⟨m, hm, h1, h0, h2⟩
  · unfold Asked
    rw [h1, h2]
    rcases hr with hr | hr
    · exact .inl (List.mem_append_left _ hr)
    · exact .inr hr
  · have hw := (process_watchers (s.act i).cell m (hN i hi).1).2 w
    unfold Asked
    rw [h2, hw]
    rcases hr with hr | hr
    · rw [h1] at hr
      rcases List.mem_cons.1 hr with hr | hr
      · subst hr; right; simp [watchUpd]
      · exact .inl hr
    · right
      cases m <;> simp [watchUpd, hr]
      rename_i w'
      intro e
      subst e
      exact h (by rw [h1]; exact List.mem_cons_self)
  · have hw := (process_watchers (s.act i).cell m (hN i hi).1).2 w
    unfold Asked
    rw [h2, hw]
    rcases hr with hr | hr
    · rw [h0] at hr; simp at hr
    · right
      have := (hI.loc i hi).usr m hm
      cases m <;> simp [isPlain] at this <;> simp [watchUpd, hr]

theorem new_noUnwatch {s s' : St} {a : Action} (hs : step s a = some s') {i w : Nat} (hi : i < s'.n) (hn : ¬ i < s.n) : Msg.unwatch w ∉ (s'.act i).sys := by
  cases a with
  | create p path ok =>
    simp only [step] at hs
    split at hs
    · simp only [Option.some.injEq] at hs
      subst hs
      have hi' : i < s.n + 1 := hi
      have : i = s.n := by omega
      subst this
      dsimp only
      rw [upd_self]
      simp [Act.new]
    · simp at hs
  | _ =>
    exfalso
    rcases step_view hs i hi with h | h | h
    · exact hn h.1
    · exact hn h.1
    · have := step_n hs
      have h2 : s'.n = s.n := by
        simp only [step] at hs
        repeat' split at hs
        all_goals first
          | (simp at hs; done)
          | (simp only [Option.some.injEq] at hs; subst hs; first | rfl | (simp only [takeMsg]; split <;> split <;> rfl) | (unfold send; split <;> first | rfl | (split <;> rfl)))
      omega

theorem noUnwatch_run {s s' : St} {as : List Action} {w i : Nat} (hi : i < s.n → Msg.unwatch w ∉ (s.act i).sys) (ha : .send i (.unwatch w) ∉ as) (hr : GoodRun s as s') (hi' : i < s'.n) :
    Msg.unwatch w ∉ (s'.act i).sys := by
  induction hr with
  | nil => exact hi hi'
  | @cons s s1 s' a as _ hs _ ih =>
    simp only [List.mem_cons, not_or] at ha
    refine ih (fun h1 => ?_) ha.2 hi'
    by_cases h0 : i < s.n
    · exact noUnwatch_step h0 (hi h0) (fun e => ha.1 e.symm) hs
    · exact new_noUnwatch hs h1 h0

theorem asked_run {s s' : St} {as : List Action} {w i : Nat} (hI : Inv s) (hN : Notices s) (hi : i < s.n) (h : Msg.unwatch w ∉ (s.act i).sys) (ha : .send i (.unwatch w) ∉ as)
    (hr : GoodRun s as s') (hq : Asked s w i) : Asked s' w i := by
  induction hr with
  | nil => exact hq
  | @cons s s1 s' a as hg hs _ ih =>
    simp only [List.mem_cons, not_or] at ha
    exact ih (hI.step hg hs) (hN.step hI hs) (Nat.lt_of_lt_of_le hi (step_n hs)) (noUnwatch_step hi h (fun e => ha.1 e.symm) hs) ha.2 (asked_step hI hN hi h hq hs)

theorem watch_asks {s s' : St} {w i : Nat} (hI : Inv s) (hi : i < s.n) (ho : (s.act i).isOpen = true) (hs : step s (.watch w i) = some s') :
    Asked s' w i ∨ ((s.act i).alive = false ∧ ((s.act w).isOpen = true → (s'.act w).usr = (s.act w).usr ++ [terminatedMsg i])) := by
  simp only [step] at hs
  split at hs
  · split at hs <;> simp only [Option.some.injEq] at hs <;> subst hs
    · left; left
      rw [sys_pushSys, if_pos ⟨rfl, ho⟩]; simp
    · rename_i ha
      right
      refine ⟨by simpa using ha, fun hw => ?_⟩
      rw [usr_pushUsr, if_pos ⟨rfl, hw⟩]
  · simp at hs

/-- **C86**, watching: if `w` watches `i`, nobody takes the request back, `i` was started and ends with its mailbox empty of the request, then `w` is told
exactly once; if the cell of `i` is gone already when `w` asks, `w` is told at once. -/
theorem C86_watcher_is_told_partial (as bs : List Action) (s1 s2 s : St) (w i : Nat) (h1 : GoodRun St.init as s1) (hw : w < s1.n) (hi : i < s1.n)
    (ho : (s1.act i).isOpen = true) (hs : step s1 (.watch w i) = some s2) (h2 : GoodRun s2 bs s) (hu : .send i (.unwatch w) ∉ as ++ bs) :
    ((s1.act i).alive = false ∧ ((s1.act w).isOpen = true → (s2.act w).usr = (s1.act w).usr ++ [terminatedMsg i])) ∨
    Msg.watch w ∈ (s.act i).sys ∨
    (w ∈ (s.act i).cell.watchers ∧ (calls (s.act i) ≠ [] → (s.act i).isOpen = false → (s.act i).log.count (.tellTerminated w) = 1)) := by
  have hI1 := good_inv h1
  have hg : Good s1 (.watch w i) := trivial
  have hI2 := hI1.step hg hs
  have hN1 := Notices.goodRun Inv.init Notices.init h1
  simp only [List.mem_append, not_or] at hu
  have hu1 := noUnwatch_run (s := St.init) (w := w) (i := i) (by intro _; simp [St.init, Act.root]) hu.1 h1 hi
  have hu2 := noUnwatch_step hi hu1 (by simp) hs
  rcases watch_asks hI1 hi ho hs with h | h
  · right
    have hi2 := Nat.lt_of_lt_of_le hi (step_n hs)
    rcases asked_run hI2 (hN1.step hI1 hs) hi2 hu2 hu.2 h2 h with h | h
    · exact .inl h
    · right
      refine ⟨h, fun hc hcl => ?_⟩
      have hr : GoodRun St.init (as ++ .watch w i :: bs) s := by
        have happ : ∀ {t t1 t2 : St} {xs ys : List Action}, GoodRun t xs t1 → GoodRun t1 ys t2 → GoodRun t (xs ++ ys) t2 := by
          intro t t1 t2 xs ys hx hy
          induction hx with
          | nil => exact hy
          | cons g st _ ih => exact .cons g st (ih hy)
        exact happ h1 (.cons hg hs h2)
      have hin := Nat.lt_of_lt_of_le hi2 (goodRun_n h2)
      rw [(C86_notices_partial _ s hr i hin w).2 hc hcl, if_pos h]
  · exact .inl h

/-! ### Non-vacuity -/

instance decGood (s : St) (a : Action) : Decidable (Good s a) := by
  cases a with
  | create p path ok => unfold Good; infer_instance
  | send i m => cases m <;> unfold Good <;> infer_instance
  | watch w i => exact isTrue trivial
  | takeSys i => exact isTrue trivial
  | takeUsr i => exact isTrue trivial
  | emit i => exact isTrue trivial
  | close i => exact isTrue trivial

def goodRun? (s : St) : List Action → Option St
  | [] => some s
  | a :: as => if Good s a then (step s a).bind fun s' => goodRun? s' as else none

theorem goodRun?_sound (as : List Action) : ∀ s s', goodRun? s as = some s' → GoodRun s as s' := by
  induction as with
  | nil => intro s s' h; simp [goodRun?] at h; subst h; exact .nil _
  | cons a as ih =>
    intro s s' h
    simp only [goodRun?] at h
    split at h
    · rename_i hg
      cases hst : step s a with
      | none => rw [hst] at h; simp at h
      | some s1 => rw [hst] at h; exact .cons hg hst (ih _ _ h)
    · simp at h

/-- Executable check of `Quiescent`. -/
def quiescent? (s : St) : Bool :=
  (List.range s.n).all fun i => (step s (.takeSys i)).isNone && (step s (.takeUsr i)).isNone && (step s (.emit i)).isNone && (step s (.close i)).isNone

theorem quiescent_of (s : St) (h : quiescent? s = true) : Quiescent s := by
  intro i
  by_cases hi : i < s.n
  · simp only [quiescent?, List.all_eq_true, List.mem_range, Bool.and_eq_true, Option.isNone_iff_eq_none] at h
    obtain ⟨⟨⟨h1, h2⟩, h3⟩, h4⟩ := h i hi
    exact ⟨h1, h2, h3, h4⟩
  · simp [step, hi]

/-- Actors `1` and `2` below the root; `2` watches `1`. -/
def two : List Action :=
  [.create 0 10 true, .create 0 11 true, .takeSys 0, .emit 0, .takeSys 0, .takeSys 1, .emit 0, .emit 1, .takeSys 2, .watch 2 1, .emit 2, .takeSys 1]

/-- The root stops them; `2` takes its pill while `1` is between `post_stop` and its notice. -/
def twoStop : List Action :=
  [.takeSys 0, .emit 0, .takeUsr 1, .emit 1, .takeSys 1, .emit 1, .emit 0, .takeUsr 2, .emit 1, .emit 2, .emit 1, .takeSys 0, .close 1, .takeSys 2, .emit 2, .emit 2,
   .takeSys 0, .close 2, .emit 0, .close 0]

example : ((goodRun? St.init (two ++ [.send 0 .stop] ++ twoStop)).map fun s =>
    (s.ub, (List.range 3).map fun i => ((s.act i).isOpen, (s.act i).alive, calls (s.act i)))) =
    some (false, [(false, true, [.preStart true, .postStop]), (false, false, [.preStart true, .postStop]), (false, false, [.preStart true, .postStop])]) := by decide +kernel

example : ((goodRun? St.init (two ++ [.send 0 .stop] ++ twoStop)).map quiescent?) = some true := by decide +kernel

/-- Actor `1` has told its watcher once. -/
example : ((goodRun? St.init (two ++ [.send 0 .stop] ++ twoStop)).map fun s =>
    ((s.act 1).cell.watchers, (s.act 1).log.count (.tellTerminated 2), (s.act 2).usr)) = some ([2], 1, [terminatedMsg 1]) := by decide +kernel

/-! ### Violations -/

/-- **C86 is violated** when `pre_start` fails: the root, told to stop, waits for ever for an actor that has ended. -/
theorem C86_failed_start_hangs_violated :
    ∃ s, run St.init [.create 0 10 false, .takeSys 0, .emit 0, .takeSys 1, .emit 1, .close 1, .send 0 .stop, .takeSys 0, .emit 0] = some s ∧
      Quiescent s ∧ (s.act 0).isOpen = true ∧ (s.act 1).isOpen = false ∧ calls (s.act 0) = [.preStart true] := by
  refine ⟨_, rfl, quiescent_of _ ?_, ?_⟩ <;> decide +kernel

/-- **C86 is violated** when an actor is told to stop before its parent has attached it: the root, told to stop, waits for ever. -/
theorem C86_stop_before_attach_hangs_violated :
    ∃ s, run St.init [.create 0 10 true, .send 1 .stop, .takeSys 1, .close 1, .takeSys 0, .emit 0, .send 0 .stop, .takeSys 0, .emit 0] = some s ∧
      Quiescent s ∧ (s.act 0).isOpen = true ∧ (s.act 1).isOpen = false ∧ calls (s.act 0) = [.preStart true] := by
  refine ⟨_, rfl, quiescent_of _ ?_, ?_⟩ <;> decide +kernel

/-- **C86 is violated** for two actors of the same name: the end of the second destroys the first in the middle of a message. -/
theorem C86_same_name_violated :
    ∃ s, run St.init [.create 0 10 true, .create 0 10 true, .takeSys 0, .emit 0, .takeSys 0, .emit 0, .takeSys 1, .emit 1, .takeSys 2, .emit 2,
        .send 1 (.user 5), .takeUsr 1, .send 2 .stop, .takeSys 2, .emit 2, .emit 2, .takeSys 0] = some s ∧
      s.ub = true ∧ (s.act 1).alive = false ∧ (s.act 1).out = [.receive 10] := by
  refine ⟨_, rfl, ?_⟩
  decide +kernel

/-- **C86 is violated** for what a notice means: actor `2` has received the notice that actor `1` has ended, and after that the mailbox of `1` still
takes a message, which is lost although nobody is told. -/
theorem C86_message_after_notice_violated :
    ∃ s1 s2 s, GoodRun St.init (two ++ [.send 1 .stop, .takeSys 1, .emit 1, .emit 1, .takeUsr 2, .emit 2]) s1 ∧
      terminatedMsg 1 = .user 3 ∧ .receive 3 ∈ calls (s1.act 2) ∧ step s1 (.send 1 (.user 7)) = some s2 ∧ (s2.act 1).usr = [plainMsg 7] ∧
      GoodRun s2 [.emit 1, .takeSys 0, .close 1] s ∧ Quiescent s ∧ (s.act 1).usr = [plainMsg 7] ∧ (s.act 1).alive = false ∧
      calls (s.act 1) = [.preStart true, .postStop] := by
  refine ⟨_, _, _, goodRun?_sound _ _ _ rfl, rfl, ?_, rfl, ?_, goodRun?_sound _ _ _ rfl, quiescent_of _ ?_, ?_, ?_, ?_⟩ <;> decide +kernel

/-- **C86 is violated** for a `watch` of a living actor that has just taken its last message: actor `0` asks after actor `2` has returned from `post_stop` and
before its mailbox is closed; when all is at rest, `0` runs and was never told. -/
theorem C86_lost_watch_violated :
    ∃ s, GoodRun St.init (two ++ [.send 2 .stop, .takeSys 2, .emit 2, .watch 0 2, .emit 2, .takeSys 0, .close 2]) s ∧ Quiescent s ∧
      (s.act 0).isOpen = true ∧ (s.act 2).alive = false ∧ Msg.watch 0 ∈ (s.act 2).sys ∧ (s.act 2).log.count (.tellTerminated 0) = 0 ∧
      calls (s.act 0) = [.preStart true] ∧ (s.act 0).usr = [] := by
  refine ⟨_, goodRun?_sound _ _ _ rfl, quiescent_of _ ?_, ?_⟩ <;> decide +kernel

end Verif.ActorSteps
