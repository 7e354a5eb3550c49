import Verif.Lemmas.ActorStepsTake
import Mathlib.Data.List.Perm.Subperm
import Mathlib.Data.List.Nodup

set_option autoImplicit false

namespace Verif.ActorSteps
open Verif.ActorCell
open Verif.ActorTree (terminatedMsg plainMsg carries)

/-! ### Being told to stop is not forgotten -/

theorem process_stop_told (c : Cell) : (process c .stop).2.2 = true ∨ (process c .stop).2.2 = false := by
  cases (process c .stop).2.2 <;> simp

theorem Told.taken {a : Act} {m : Msg} {sys usr : List Msg} (h : Told a) (hout : a.out = []) (hstop : a.stop = false)
    (hq : (a.sys = m :: sys ∧ a.usr = usr ∧ isPlain m = false) ∨ (a.sys = sys ∧ a.usr = m :: usr ∧ isPlain m = true)) : Told (taken a m sys usr) := by
  rcases h with h | h | h | h | h
  · rcases hq with ⟨h1, h2, h3⟩ | ⟨h1, h2, h3⟩
    · rw [h1] at h
      rcases List.mem_cons.mp h with h | h
      · subst h
        rcases process_stop_told a.cell with hp | hp
        · right; right; right; right; exact hp
        · right; right; right; left; simp [ActorSteps.taken, hp]
      · exact .inl h
    · left; rw [h1] at h; exact h
  · rcases hq with ⟨h1, h2, h3⟩ | ⟨h1, h2, h3⟩
    · right; left; rw [h2] at h; exact h
    · rw [h2] at h
      rcases List.mem_cons.mp h with h | h
      · subst h
        right; right; left; simp [ActorSteps.taken, process, isDestroy]
      · exact .inr (.inl h)
  · rw [hout] at h; simp at h
  · right; right; right; left; simp [ActorSteps.taken, h]
  · rw [hstop] at h; simp at h

theorem Told.takeMsg {s : St} {i j : Nat} {m : Msg} {sys usr : List Msg} (h : Told (s.act j)) (h' : j = i → Told (ActorSteps.taken (s.act i) m sys usr)) :
    Told ((takeMsg s i m sys usr).act j) := by
  have h1 : Told ((s.upd i (ActorSteps.taken (s.act i) m sys usr)).act j) := by
    rw [upd_act]; split
    · rename_i e; exact h' e
    · exact h
  have h2 : ∀ k, Told ((((s.upd i (ActorSteps.taken (s.act i) m sys usr)).upd k ((s.upd i (ActorSteps.taken (s.act i) m sys usr)).act k).adopted)).act j) := by
    intro k
    rw [upd_act]; split
    · rename_i e; subst e; exact h1
    · exact h1
  have h3 : ∀ (t : St) k, Told (t.act j) → Told ((t.kill k).act j) := by
    intro t k ht
    simp only [St.kill]
    split
    · exact ht.dead
    · exact ht
  unfold ActorSteps.takeMsg
  dsimp only
  cases adoptee (s.act i).cell m with
  | none =>
    cases (process (s.act i).cell m).2.1.findSome? victim with
    | none => exact h1
    | some k => exact h3 _ k h1
  | some k' =>
    cases (process (s.act i).cell m).2.1.findSome? victim with
    | none => exact h2 k'
    | some k => exact h3 _ k (h2 k')

theorem Told.step {s s' : St} {a : Action} {j : Nat} (h : Inv s) (hj : j < s.n) (ht : Told (s.act j)) (hs : ActorSteps.step s a = some s') : Told (s'.act j) := by
  cases a with
  | create p path ok =>
    simp only [ActorSteps.step] at hs
    split at hs
    · simp only [Option.some.injEq] at hs
      subst hs
      show Told (((s.upd p ((s.act p).pushSys (.attach ⟨s.n, path⟩))).upd s.n (Act.new p path ok)).act j)
      rw [upd_ne _ _ (by omega)]
      exact ht.upd fun h => h.pushSys _
    · simp at hs
  | send i m =>
    simp only [ActorSteps.step] at hs
    split at hs
    · simp only [Option.some.injEq] at hs
      subst hs
      refine ht.upd fun h => ?_
      cases m
      · exact h.pushSys _
      · exact h.pushSys _
      · exact h.pushSys _
      · exact h.pushUsr _
      · exact h.pushUsr _
    · simp at hs
  | watch w i =>
    simp only [ActorSteps.step] at hs
    split at hs
    · split at hs <;> simp only [Option.some.injEq] at hs <;> subst hs
      · exact ht.upd fun h => h.pushSys _
      · exact ht.upd fun h => h.pushUsr _
    · simp at hs
  | takeSys i =>
    simp only [ActorSteps.step] at hs
    split at hs
    · rename_i hc
      simp only [Bool.and_eq_true, decide_eq_true_eq, List.isEmpty_iff, Bool.not_eq_true'] at hc
      split at hs
      · simp at hs
      · rename_i m ms hm
        simp only [Option.some.injEq] at hs
        subst hs
        refine ht.takeMsg fun e => ?_
        subst e
        exact ht.taken hc.1.2 hc.2 (.inl ⟨hm, rfl, (h.loc j hj).sys m (by rw [hm]; exact List.mem_cons_self)⟩)
    · simp at hs
  | takeUsr i =>
    simp only [ActorSteps.step] at hs
    split at hs
    · rename_i hc
      simp only [Bool.and_eq_true, decide_eq_true_eq, List.isEmpty_iff, Bool.not_eq_true'] at hc
      split at hs
      · simp at hs
      · rename_i m ms hm
        simp only [Option.some.injEq] at hs
        subst hs
        refine ht.takeMsg fun e => ?_
        subst e
        exact ht.taken hc.1.1.1.2 hc.1.1.2 (.inr ⟨hc.2, hm, (h.loc j hj).usr m (by rw [hm]; exact List.mem_cons_self)⟩)
    · simp at hs
  | emit i =>
    simp only [ActorSteps.step] at hs
    split at hs
    · rename_i hi
      split at hs
      · simp at hs
      · rename_i e es he
        simp only [Option.some.injEq] at hs
        subst hs
        show Told ((send (pop s i e es) i e).act j)
        have hpop : e ≠ .stopSelf ∨ j ≠ i → Told ((pop s i e es).act j) := by
          intro hne
          unfold Told
          rw [sys_pop, usr_pop, out_pop, (frame_pop s i e es).told, (frame_pop s i e es).stop]
          rcases ht with ht | ht | ht | ht | ht
          · exact .inl ht
          · exact .inr (.inl ht)
          · refine .inr (.inr (.inl ?_))
            split
            · rename_i hji
              subst hji
              rw [he] at ht
              rcases hne with hne | hne
              · simpa [Ne.symm hne] using ht
              · exact absurd rfl hne
            · exact ht
          · exact .inr (.inr (.inr (.inl ht)))
          · exact .inr (.inr (.inr (.inr ht)))
        cases e with
        | preStart b => exact hpop (by simp)
        | postStop => exact hpop (by simp)
        | receive m => exact hpop (by simp)
        | destroy c => exact hpop (by simp)
        | tellTerminated w => exact (hpop (by simp)).upd fun h => h.pushUsr _
        | pillTo c => exact (hpop (by simp)).upd fun h => h.pushUsr _
        | startTo c => exact (hpop (by simp)).upd fun h => h.pushSys _
        | detachToParent =>
          unfold send
          dsimp only
          split
          · exact (hpop (by simp)).upd fun h => h.pushSys _
          · exact hpop (by simp)
        | stopSelf =>
          by_cases hji : j = i
          · subst hji
            unfold send
            dsimp only
            rw [upd_self]
            cases hst : (s.act j).stop with
            | true =>
              right; right; right; right
              rw [pushSys_eq]
              show ((pop s j _ es).act j).stop = true
              rw [(frame_pop s j _ es).stop]; exact hst
            | false =>
              have hal : (s.act j).alive = true := by
                cases ha : (s.act j).alive with
                | true => rfl
                | false =>
                  rcases (h.loc j hj).dead ha with b | b
                  · rw [he] at b; simp at b
                  · rcases h.attached hj (by rw [he]; simp) with c | c
                    · subst c; rw [h.root.2.2.2] at ha; simp at ha
                    · rw [b] at c; simp at c
              have hop := (h.loc j hj).openn hal hst
              left
              rw [pushSys_eq]
              dsimp only
              rw [(frame_pop s j _ es).isOpen, if_pos hop]
              simp
          · exact (hpop (.inr hji)).upd fun h => h.pushSys _
    · simp at hs
  | close i =>
    simp only [ActorSteps.step] at hs
    split at hs
    · simp only [Option.some.injEq] at hs
      subst hs
      exact ht.upd fun h => h
    · simp at hs

theorem step_n {s s' : St} {a : Action} (hs : step s a = some s') : s.n ≤ s'.n := by
  cases a <;> simp only [step] at hs
  case create => split at hs <;> simp at hs; subst hs; simp
  case send => split at hs <;> simp at hs; subst hs; simp
  case watch =>
    split at hs
    · split at hs <;> simp at hs <;> subst hs <;> simp
    · simp at hs
  case takeSys =>
    split at hs
    · split at hs <;> simp at hs
      subst hs
      simp only [takeMsg]
      split <;> split <;> simp [St.kill]
    · simp at hs
  case takeUsr =>
    split at hs
    · split at hs <;> simp at hs
      subst hs
      simp only [takeMsg]
      split <;> split <;> simp [St.kill]
    · simp at hs
  case emit =>
    split at hs
    · split at hs <;> simp at hs
      subst hs
      rename_i e _ _
      cases e <;> simp only [send] <;> try simp
      split <;> simp
    · simp at hs
  case close => split at hs <;> simp at hs; subst hs; simp

theorem Told.goodRun {s s' : St} {as : List Action} {j : Nat} (h : Inv s) (hj : j < s.n) (ht : Told (s.act j)) (hr : GoodRun s as s') : Told (s'.act j) := by
  induction hr with
  | nil => exact ht
  | cons hg hs _ ih => exact ih (h.step hg hs) (Nat.lt_of_lt_of_le hj (step_n hs)) (ht.step h hj hs)

/-! ### At rest -/

theorem Quiescent.out {s : St} (hq : Quiescent s) {i : Nat} (hi : i < s.n) : (s.act i).out = [] := by
  have := (hq i).2.2.1
  simp only [ActorSteps.step, if_pos hi] at this
  split at this
  · rename_i h; exact h
  · simp at this

theorem Quiescent.stopped {s : St} (hq : Quiescent s) {i : Nat} (hi : i < s.n) (hs : (s.act i).stop = true) : (s.act i).isOpen = false := by
  have := (hq i).2.2.2
  simp only [ActorSteps.step] at this
  split at this
  · simp at this
  · rename_i h
    simpa [hi, hq.out hi, hs] using h

theorem Quiescent.sys {s : St} (hq : Quiescent s) {i : Nat} (hi : i < s.n) (ho : (s.act i).isOpen = true) (hs : (s.act i).stop = false) : (s.act i).sys = [] := by
  have := (hq i).1
  simp only [ActorSteps.step] at this
  split at this
  · split at this
    · rename_i h; exact h
    · simp at this
  · rename_i h
    simp [hi, hq.out hi, hs, ho] at h

theorem Quiescent.usr {s : St} (hq : Quiescent s) {i : Nat} (hi : i < s.n) (ho : (s.act i).isOpen = true) (hs : (s.act i).stop = false) (hst : (s.act i).cell.started = true) :
    (s.act i).usr = [] := by
  have := (hq i).2.1
  simp only [ActorSteps.step] at this
  split at this
  · split at this
    · rename_i h; exact h
    · simp at this
  · rename_i h
    simp [hi, hq.out hi, hs, ho, hst, hq.sys hi ho hs] at h

/-- At rest, everybody who was told to stop has stopped. -/
theorem Inv.rest {s : St} (h : Inv s) (hq : Quiescent s) : ∀ (d i : Nat), s.n - i ≤ d → i < s.n → Told (s.act i) → (s.act i).stop = true := by
  intro d
  induction d with
  | zero => intro i hd hi; omega
  | succ d ih =>
    intro i hd hi ht
    have hl := h.loc i hi
    cases hs : (s.act i).stop with
    | true => rfl
    | false =>
      exfalso
      have hatt : i = 0 ∨ (s.act i).cell.hasParent = true := by
        rcases Nat.eq_zero_or_pos i with h0 | h0
        · exact .inl h0
        · right
          cases hp : (s.act i).cell.hasParent with
          | true => rfl
          | false =>
            have hf := h.fresh i hi h0 hp
            rcases ht with ht | ht | ht | ht | ht
            · have := hf.sys _ ht; simp [Harmless] at this
            · have := hf.usr _ ht; simp [Harmless] at this
            · rw [hf.out] at ht; simp at ht
            · rw [hf.told] at ht; simp at ht
            · rw [hs] at ht; simp at ht
      have hal : (s.act i).alive = true := by
        cases ha : (s.act i).alive with
        | true => rfl
        | false =>
          rcases hl.dead ha with b | b
          · rw [hs] at b; simp at b
          · rcases hatt with c | c
            · subst c; rw [h.root.2.2.2] at ha; simp at ha
            · rw [b] at c; simp at c
      have ho := hl.openn hal hs
      have hsys := hq.sys hi ho hs
      have hbeg : (s.act i).begun = true := by
        cases hb : (s.act i).begun with
        | true => rfl
        | false =>
          rcases hatt with c | c
          · subst c; rw [h.root.2.2.1] at hb; simp at hb
          · have h0 : 0 < i := by
              rcases Nat.eq_zero_or_pos i with h0 | h0
              · subst h0; rw [h.root.2.1] at c; simp at c
              · exact h0
            obtain ⟨p, hp, hpar⟩ := h.par i hi h0
            rcases h.startp i hi p hpar hal c hb hs with b | b
            · rw [hq.out (by omega)] at b; simp at b
            · rw [hsys] at b; simp at b
      have hst := hl.started hbeg hs
      have husr := hq.usr hi ho hs hst
      have htold : (s.act i).told = true := by
        rcases ht with ht | ht | ht | ht | ht
        · rw [hsys] at ht; simp at ht
        · rw [husr] at ht; simp at ht
        · rw [hq.out hi] at ht; simp at ht
        · exact ht
        · rw [hs] at ht; simp at ht
      obtain ⟨c, hc⟩ := List.exists_mem_of_ne_nil _ (hl.waits (hl.told htold) hs)
      obtain ⟨c1, c2, c3, c4, c5, c6⟩ := h.chd i hi c hc
      have hic := (h.parentLt c2 c3).2
      have hct : Told (s.act c.id) := by
        rcases h.toldk i hi htold c hc with b | b
        · exact b
        · rw [hq.out hi] at b; simp at b
      have hcs := ih c.id (by omega) c2 hct
      rcases h.pend c.id c2 i c3 c5 c6 hcs with b | b
      · rw [hq.out c2] at b; simp at b
      · rw [hsys] at b; simp at b

/-! ### The actors come to rest -/

/-- The work that a `stop` can cause in an actor that is `d` levels above the last one, at most `n` children each. -/
def stopWork (n : Nat) : Nat → Nat
  | 0 => 1
  | d + 1 => 1 + n * (3 + stopWork n d)

theorem stopWork_pos (n d : Nat) : 1 ≤ stopWork n d := by
  cases d <;> simp [stopWork]

theorem stopWork_mono (n : Nat) : ∀ {d d' : Nat}, d ≤ d' → stopWork n d ≤ stopWork n d' := by
  intro d
  induction d with
  | zero => intro d' _; exact stopWork_pos n d'
  | succ d ih =>
    intro d' hd
    cases d' with
    | zero => omega
    | succ d' =>
      simp only [stopWork]
      have := Nat.mul_le_mul_left n (show 3 + stopWork n d ≤ 3 + stopWork n d' by have := ih (d' := d') (by omega); omega)
      omega

/-- The number of steps that a message in the mailbox of actor `i` can cause. -/
def msgWork (n i : Nat) : Msg → Nat
  | .start _ => 2
  | .stop => stopWork n (n - i)
  | .stopAfterChildren => 1
  | .watch _ => 4
  | .unwatch _ => 1
  | .attach _ => 4
  | .detach _ => 1
  | .user _ => 2
  | .pill => 2 + stopWork n (n - i)

/-- The number of steps that a piece of work of actor `i` can cause. -/
def effWork (n i : Nat) : Eff → Nat
  | .preStart _ => 1
  | .postStop => 1
  | .receive _ => 1
  | .destroy _ => 1
  | .tellTerminated _ => 3
  | .detachToParent => 2
  | .pillTo c => 3 + stopWork n (n - c.id)
  | .startTo _ => 3
  | .stopSelf => 1 + stopWork n (n - i)

def actWork (n i : Nat) (a : Act) : Nat :=
  (a.sys.map (msgWork n i)).sum + (a.usr.map (msgWork n i)).sum + (a.out.map (effWork n i)).sum +
    (if a.stop then (if a.isOpen then 1 else 0) else 3 * a.cell.watchers.length + 4)

def sumTo (f : Nat → Nat) : Nat → Nat
  | 0 => 0
  | n + 1 => sumTo f n + f n

theorem sumTo_le {f g : Nat → Nat} : ∀ {n : Nat}, (∀ i < n, f i ≤ g i) → sumTo f n ≤ sumTo g n := by
  intro n
  induction n with
  | zero => intro _; exact Nat.le_refl _
  | succ n ih =>
    intro h
    have := ih fun i hi => h i (by omega)
    have := h n (by omega)
    simp only [sumTo]
    omega

/-- Changing the summand `i` only. -/
theorem sumTo_one {f g : Nat → Nat} {i : Nat} : ∀ {n : Nat}, (∀ j < n, j ≠ i → f j = g j) → i < n → sumTo f n + g i = sumTo g n + f i := by
  intro n
  induction n with
  | zero => intro _ hi; omega
  | succ n ih =>
    intro h hi
    simp only [sumTo]
    by_cases hin : i = n
    · subst hin
      have h1 : sumTo f i ≤ sumTo g i := sumTo_le fun j hj => by rw [h j (by omega) (by omega)]; exact Nat.le_refl _
      have h2 : sumTo g i ≤ sumTo f i := sumTo_le fun j hj => by rw [h j (by omega) (by omega)]; exact Nat.le_refl _
      omega
    · have := ih (fun j hj => h j (by omega)) (by omega)
      have := h n (by omega) (by omega)
      omega

/-- The work that is left. -/
def work (s : St) : Nat := sumTo (fun i => actWork s.n i (s.act i)) s.n

theorem work_upd (s : St) {i : Nat} (a : Act) (hi : i < s.n) : work (s.upd i a) + actWork s.n i (s.act i) = work s + actWork s.n i a := by
  unfold work
  have := sumTo_one (f := fun j => actWork s.n j ((s.upd i a).act j)) (g := fun j => actWork s.n j (s.act j)) (i := i) (n := s.n)
    (fun j _ hj => by rw [upd_ne _ _ hj]) hi
  rw [upd_self] at this
  exact this

theorem work_out (s : St) {i : Nat} (a : Act) (hi : ¬ i < s.n) : work (s.upd i a) = work s := by
  unfold work
  apply Nat.le_antisymm <;> exact sumTo_le fun j hj => by rw [show (s.upd i a).n = s.n from rfl] at *; rw [upd_ne _ _ (by omega)]; exact Nat.le_refl _

theorem actWork_pushSys (n i : Nat) (a : Act) (m : Msg) : actWork n i (a.pushSys m) ≤ actWork n i a + msgWork n i m := by
  rw [pushSys_eq]
  unfold actWork
  dsimp only
  split <;> simp <;> omega

theorem actWork_pushUsr (n i : Nat) (a : Act) (m : Msg) : actWork n i (a.pushUsr m) ≤ actWork n i a + msgWork n i m := by
  rw [pushUsr_eq]
  unfold actWork
  dsimp only
  split <;> simp <;> omega

theorem work_pushSys (s : St) (k : Nat) (m : Msg) : work (s.upd k ((s.act k).pushSys m)) ≤ work s + msgWork s.n k m := by
  by_cases hk : k < s.n
  · have := work_upd s ((s.act k).pushSys m) hk
    have := actWork_pushSys s.n k (s.act k) m
    omega
  · rw [work_out s _ hk]; omega

theorem work_pushUsr (s : St) (k : Nat) (m : Msg) : work (s.upd k ((s.act k).pushUsr m)) ≤ work s + msgWork s.n k m := by
  by_cases hk : k < s.n
  · have := work_upd s ((s.act k).pushUsr m) hk
    have := actWork_pushUsr s.n k (s.act k) m
    omega
  · rw [work_out s _ hk]; omega

theorem work_pop (s : St) {i : Nat} {e : Eff} {es : List Eff} (hi : i < s.n) (ho : (s.act i).out = e :: es) : work (pop s i e es) + effWork s.n i e = work s := by
  have h1 := work_upd s { s.act i with out := es, log := (s.act i).log ++ [e] } hi
  have h2 : actWork s.n i (s.act i) = actWork s.n i { s.act i with out := es, log := (s.act i).log ++ [e] } + effWork s.n i e := by
    unfold actWork
    rw [ho]
    simp
    omega
  unfold pop
  omega

theorem work_emit (s : St) {i : Nat} {e : Eff} {es : List Eff} (hi : i < s.n) (ho : (s.act i).out = e :: es) : work (send (pop s i e es) i e) < work s := by
  have h1 := work_pop s hi ho
  have hn : (pop s i e es).n = s.n := rfl
  cases e with
  | preStart b => simp only [send, effWork] at *; omega
  | postStop => simp only [send, effWork] at *; omega
  | receive m => simp only [send, effWork] at *; omega
  | destroy c => simp only [send, effWork] at *; omega
  | tellTerminated w =>
    have := work_pushUsr (pop s i (.tellTerminated w) es) w (terminatedMsg i)
    simp only [send, effWork, terminatedMsg, msgWork] at *; omega
  | pillTo c =>
    have := work_pushUsr (pop s i (.pillTo c) es) c.id .pill
    rw [hn] at this
    simp only [send, effWork, msgWork] at *; omega
  | startTo c =>
    have := work_pushSys (pop s i (.startTo c) es) c.id (.start ((pop s i (.startTo c) es).act c.id).ok)
    simp only [send, effWork, msgWork] at *; omega
  | stopSelf =>
    have := work_pushSys (pop s i .stopSelf es) i .stop
    rw [hn] at this
    simp only [send, effWork, msgWork] at *; omega
  | detachToParent =>
    simp only [send, effWork] at *
    split
    · rename_i p hp
      have := work_pushSys (pop s i .detachToParent es) p (.detach ((pop s i .detachToParent es).act i).path)
      simp only [msgWork] at this
      omega
    · omega

/-- What an actor leaves behind when it stops. -/
theorem stopImpl_work (n i : Nat) (c : Cell) : (((stopImpl c).2).map (effWork n i)).sum ≤ 3 * c.watchers.length + 3 := by
  have h1 : ((if c.started then [Eff.postStop] else []).map (effWork n i)).sum ≤ 1 := by split <;> simp [effWork]
  have h2 : ((c.watchers.map Eff.tellTerminated).map (effWork n i)).sum = 3 * c.watchers.length := by
    induction c.watchers with
    | nil => rfl
    | cons w ws ih => simp [effWork] at ih ⊢; omega
  have h3 : ((if c.hasParent then [Eff.detachToParent] else []).map (effWork n i)).sum ≤ 2 := by split <;> simp [effWork]
  unfold stopImpl
  dsimp only
  rw [List.map_append, List.map_append, List.sum_append, List.sum_append]
  omega

theorem sum_le_length {α : Type} (f : α → Nat) (b : Nat) : ∀ (l : List α), (∀ x ∈ l, f x ≤ b) → (l.map f).sum ≤ l.length * b := by
  intro l
  induction l with
  | nil => intro _; simp
  | cons x l ih =>
    intro h
    have h1 := h x List.mem_cons_self
    have h2 := ih fun y hy => h y (List.mem_cons_of_mem _ hy)
    rw [List.length_cons, Nat.add_mul]
    simp
    omega

theorem length_le_of_nodup_lt {n : Nat} : ∀ {l : List Nat}, l.Nodup → (∀ x ∈ l, x < n) → l.length ≤ n := by
  intro l hnd h
  have : l.length ≤ (List.range n).length := by
    apply List.Subperm.length_le
    apply List.Nodup.subperm hnd
    intro x hx
    exact List.mem_range.mpr (h x hx)
  simpa using this

/-- Taking a message uses up work. -/
theorem actWork_taken {n i : Nat} {a : Act} {m : Msg} {sys usr : List Msg} (hi : i < n) (hout : a.out = []) (hstop : a.stop = false)
    (hch : ∀ c ∈ a.cell.children, i < c.id ∧ c.id < n) (hnd : (a.cell.children.map Child.id).Nodup)
    (hq : (a.sys = m :: sys ∧ a.usr = usr) ∨ (a.sys = sys ∧ a.usr = m :: usr)) : actWork n i (taken a m sys usr) < actWork n i a := by
  have h0 : actWork n i a = msgWork n i m + (sys.map (msgWork n i)).sum + (usr.map (msgWork n i)).sum + (3 * a.cell.watchers.length + 4) := by
    unfold actWork
    rw [hout, hstop]
    rcases hq with ⟨h1, h2⟩ | ⟨h1, h2⟩ <;> rw [h1, h2] <;> simp <;> omega
  have h1 : actWork n i (taken a m sys usr) = (sys.map (msgWork n i)).sum + (usr.map (msgWork n i)).sum + (((process a.cell m).2.1.filter (fun e => !isDestroy e)).map (effWork n i)).sum +
      (if (process a.cell m).2.2 then (if a.isOpen then 1 else 0) else 3 * (process a.cell m).1.watchers.length + 4) := rfl
  have hone : (if a.isOpen then 1 else 0) ≤ 1 := by split <;> omega
  have hlast : ∀ (c : Cell), c.watchers = a.cell.watchers → (((stopImpl c).2.filter (fun e => !isDestroy e)).map (effWork n i)).sum ≤ 3 * a.cell.watchers.length + 3 := by
    intro c hc
    rw [stopImpl_nodestroy, ← hc]
    exact stopImpl_work n i c
  have hpos := stopWork_pos n (n - i)
  rw [h0, h1]
  cases m with
  | start ok => cases ok <;> simp [process, isDestroy, msgWork, effWork] <;> omega
  | stop =>
    unfold process
    dsimp only
    split
    · have := hlast a.cell rfl
      simp only [msgWork]
      rw [if_pos trivial]
      omega
    · have h2 : ((a.cell.children.map Eff.pillTo).filter (fun e => !isDestroy e)) = a.cell.children.map Eff.pillTo := by
        rw [List.filter_eq_self]
        intro e he
        simp only [List.mem_map] at he
        obtain ⟨x, -, rfl⟩ := he
        rfl
      have h3 : ((a.cell.children.map Eff.pillTo).map (effWork n i)).sum ≤ a.cell.children.length * (3 + stopWork n (n - i - 1)) := by
        rw [List.map_map]
        refine sum_le_length _ _ _ fun c hc => ?_
        have := stopWork_mono n (d := n - c.id) (d' := n - i - 1) (by have := hch c hc; omega)
        simp only [Function.comp, effWork]
        omega
      have h4 : a.cell.children.length ≤ n := by
        rw [← List.length_map (f := Child.id)]
        refine length_le_of_nodup_lt hnd fun x hx => ?_
        simp only [List.mem_map] at hx
        obtain ⟨c, hc, rfl⟩ := hx
        exact (hch c hc).2
      have h5 : stopWork n (n - i) = 1 + n * (3 + stopWork n (n - i - 1)) := by
        have : n - i = (n - i - 1) + 1 := by omega
        rw [this]; rfl
      have h6 := Nat.mul_le_mul_right (3 + stopWork n (n - i - 1)) h4
      simp only [msgWork]
      rw [h2, h5]
      simp only [Bool.false_eq_true, if_false]
      omega
  | stopAfterChildren =>
    unfold process
    dsimp only
    split
    · have := hlast a.cell rfl
      simp only [msgWork]
      rw [if_pos trivial]
      omega
    · simp [msgWork]
  | watch w =>
    unfold process
    dsimp only
    split <;> simp [msgWork] <;> omega
  | unwatch w =>
    have : (a.cell.watchers.erase w).length ≤ a.cell.watchers.length := List.length_erase_le
    simp [process, msgWork]
    omega
  | attach c =>
    unfold process
    dsimp only
    split <;> simp [msgWork, isDestroy, effWork] <;> omega
  | detach q =>
    have hr : ((removeChild a.cell q).2.filter (fun e => !isDestroy e)) = [] ∧ (removeChild a.cell q).1.watchers = a.cell.watchers := by
      unfold removeChild; split <;> simp [isDestroy]
    unfold process
    dsimp only
    split
    · have := hlast _ hr.2
      simp only [msgWork]
      rw [if_pos trivial, List.filter_append, hr.1, List.nil_append]
      omega
    · simp only [msgWork]
      rw [hr.1, hr.2]
      simp
  | user m => simp [process, isDestroy, msgWork, effWork]; omega
  | pill => simp [process, isDestroy, msgWork, effWork]; omega

theorem actWork_dead (n i : Nat) (a : Act) : actWork n i a.dead ≤ actWork n i a := by
  unfold actWork Act.dead
  dsimp only
  cases a.isOpen <;> cases a.stop <;> simp

theorem work_le {s t : St} (hn : t.n = s.n) (h : ∀ j < s.n, actWork s.n j (t.act j) ≤ actWork s.n j (s.act j)) : work t ≤ work s := by
  unfold work; rw [hn]; exact sumTo_le h

theorem work_takeMsg {s : St} {i : Nat} {m : Msg} {sys usr : List Msg} (hi : i < s.n) (h : actWork s.n i (taken (s.act i) m sys usr) < actWork s.n i (s.act i)) :
    work (takeMsg s i m sys usr) < work s := by
  have h1 : work (s.upd i (taken (s.act i) m sys usr)) < work s := by
    have := work_upd s (taken (s.act i) m sys usr) hi
    omega
  have h2 : ∀ k, work ((s.upd i (taken (s.act i) m sys usr)).upd k ((s.upd i (taken (s.act i) m sys usr)).act k).adopted) ≤ work (s.upd i (taken (s.act i) m sys usr)) := by
    intro k
    refine work_le rfl fun j _ => ?_
    rw [upd_act]
    split
    · rename_i e; subst e; exact Nat.le_refl _
    · exact Nat.le_refl _
  have h3 : ∀ (t : St) k, work (t.kill k) ≤ work t := by
    intro t k
    refine work_le rfl fun j _ => ?_
    simp only [St.kill]
    split
    · exact actWork_dead _ _ _
    · exact Nat.le_refl _
  unfold takeMsg
  dsimp only
  cases adoptee (s.act i).cell m with
  | none =>
    cases (process (s.act i).cell m).2.1.findSome? victim with
    | none => exact h1
    | some k => exact Nat.lt_of_le_of_lt (h3 _ k) h1
  | some k' =>
    cases (process (s.act i).cell m).2.1.findSome? victim with
    | none => exact Nat.lt_of_le_of_lt (h2 k') h1
    | some k => exact Nat.lt_of_le_of_lt (h3 _ k) (Nat.lt_of_le_of_lt (h2 k') h1)

theorem good_internal {s : St} {a : Action} (h : isInternal a = true) : Good s a := by cases a <;> simp_all [isInternal, Good]

theorem work_step {s s' : St} {a : Action} (h : Inv s) (ha : isInternal a = true) (hs : step s a = some s') : work s' < work s := by
  have hch : ∀ i < s.n, ∀ c ∈ (s.act i).cell.children, i < c.id ∧ c.id < s.n := by
    intro i hi c hc
    obtain ⟨c1, c2, c3, -⟩ := h.chd i hi c hc
    exact ⟨(h.parentLt c2 c3).2, c2⟩
  cases a with
  | create => simp [isInternal] at ha
  | send => simp [isInternal] at ha
  | watch => simp [isInternal] at ha
  | takeSys i =>
    simp only [step] at hs
    split at hs
    · rename_i hc
      simp only [Bool.and_eq_true, decide_eq_true_eq, List.isEmpty_iff, Bool.not_eq_true'] at hc
      split at hs
      · simp at hs
      · rename_i m ms hm
        simp only [Option.some.injEq] at hs
        subst hs
        exact work_takeMsg hc.1.1.1 (actWork_taken hc.1.1.1 hc.1.2 hc.2 (hch i hc.1.1.1) (h.nodup i hc.1.1.1) (.inl ⟨hm, rfl⟩))
    · simp at hs
  | takeUsr i =>
    simp only [step] at hs
    split at hs
    · rename_i hc
      simp only [Bool.and_eq_true, decide_eq_true_eq, List.isEmpty_iff, Bool.not_eq_true'] at hc
      split at hs
      · simp at hs
      · rename_i m ms hm
        simp only [Option.some.injEq] at hs
        subst hs
        exact work_takeMsg hc.1.1.1.1.1 (actWork_taken hc.1.1.1.1.1 hc.1.1.1.2 hc.1.1.2 (hch i hc.1.1.1.1.1) (h.nodup i hc.1.1.1.1.1) (.inr ⟨hc.2, hm⟩))
    · simp at hs
  | emit i =>
    simp only [step] at hs
    split at hs
    · rename_i hi
      split at hs
      · simp at hs
      · rename_i e es he
        simp only [Option.some.injEq] at hs
        subst hs
        exact work_emit s hi he
    · simp at hs
  | close i =>
    simp only [step] at hs
    split at hs
    · rename_i hc
      simp only [Bool.and_eq_true, decide_eq_true_eq, List.isEmpty_iff] at hc
      simp only [Option.some.injEq] at hs
      subst hs
      have h1 := work_upd s { s.act i with isOpen := false } hc.1.1.1
      have h2 : actWork s.n i { s.act i with isOpen := false } < actWork s.n i (s.act i) := by
        unfold actWork
        dsimp only
        rw [hc.2, hc.1.1.2]
        simp
      have h3 : work (s.upd i { s.act i with isOpen := false }) < work s := by omega
      exact h3
    · simp at hs

/-- Runs of internal steps are bounded by the work there is. -/
theorem work_run {s s' : St} {as : List Action} (h : Inv s) (ha : ∀ a ∈ as, isInternal a = true) (hr : run s as = some s') : as.length + work s' ≤ work s ∧ GoodRun s as s' := by
  induction as generalizing s with
  | nil => simp [run] at hr; subst hr; exact ⟨by simp, .nil _⟩
  | cons a as ih =>
    simp only [run] at hr
    cases hs : step s a with
    | none => rw [hs] at hr; simp at hr
    | some s1 =>
      rw [hs] at hr
      simp only [Option.bind_some] at hr
      have hi := ha a List.mem_cons_self
      have h1 := work_step h hi hs
      obtain ⟨h2, h3⟩ := ih (h.step (good_internal hi) hs) (fun b hb => ha b (List.mem_cons_of_mem _ hb)) hr
      exact ⟨by simp; omega, .cons (good_internal hi) hs h3⟩

/-- From every state the actors can come to rest. -/
theorem exists_rest : ∀ (k : Nat) (s : St), Inv s → work s ≤ k → ∃ (as : List Action) (s' : St), (∀ a ∈ as, isInternal a = true) ∧ run s as = some s' ∧ Quiescent s' := by
  intro k
  induction k with
  | zero =>
    intro s h hk
    refine ⟨[], s, by simp, rfl, fun i => ?_⟩
    have key : ∀ a, isInternal a = true → step s a = none := by
      intro a ha
      cases hs : step s a with
      | none => rfl
      | some s1 => have := work_step h ha hs; omega
    exact ⟨key _ rfl, key _ rfl, key _ rfl, key _ rfl⟩
  | succ k ih =>
    intro s h hk
    by_cases hq : ∃ a s1, isInternal a = true ∧ step s a = some s1
    · obtain ⟨a, s1, ha, hs⟩ := hq
      have h1 := work_step h ha hs
      obtain ⟨as, s', h2, h3, h4⟩ := ih s1 (h.step (good_internal ha) hs) (by omega)
      refine ⟨a :: as, s', ?_, by simp [run, hs, h3], h4⟩
      intro b hb
      rcases List.mem_cons.mp hb with hb | hb
      · subst hb; exact ha
      · exact h2 b hb
    · refine ⟨[], s, by simp, rfl, fun i => ?_⟩
      have key : ∀ a, isInternal a = true → step s a = none := by
        intro a ha
        cases hs : step s a with
        | none => rfl
        | some s1 => exact absurd ⟨a, s1, ha, hs⟩ hq
      exact ⟨key _ rfl, key _ rfl, key _ rfl, key _ rfl⟩

end Verif.ActorSteps
