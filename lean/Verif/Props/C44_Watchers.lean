import Verif.Props.C45_ActorTree

/-!
C44 for whole trees of actors: how many `terminated(i)` messages an actor `w` gets, over every execution.
-/
set_option autoImplicit false

namespace Verif.ActorTree
open Verif.ActorCell

/-- Number of `terminated(i)` messages actor `w` has got so far: those waiting in its mailbox and those its `receive` was called with. -/
def got (s : St) (w i : Nat) : Nat :=
  (s.act w).usr.count (terminatedMsg i) + (s.act w).log.count (.receive (2 * i + 1))

/-- Number of actions in the execution by which `w`, running, started to watch `i` after `i`'s cell had been destroyed. -/
def lateWatches (w i : Nat) : St → List Action → Nat
  | _, [] => 0
  | s, a :: as =>
    (if a = .watch w i ∧ (s.act i).alive = false ∧ (s.act w).isOpen = true then 1 else 0) +
      match step s a with
      | some s' => lateWatches w i s' as
      | none => 0

theorem count_usrTo (i j w : Nat) (es : List Eff) :
    (es.filterMap (usrTo j w)).count (terminatedMsg i) = if j = i then es.count (.tellTerminated w) else 0 := by
  induction es with
  | nil => simp
  | cons e es ih =>
    rw [List.filterMap_cons]
    have hd : ∀ (m : Msg) (l : List Msg), (m :: l).count (terminatedMsg i) = l.count (terminatedMsg i) + if m = terminatedMsg i then 1 else 0 := by
      intro m l
      rw [List.count_cons]
      congr 1
      by_cases h : m = terminatedMsg i <;> simp [h]
    have he : ∀ (e' : Eff) (l : List Eff), (e' :: l).count (.tellTerminated w) = l.count (.tellTerminated w) + if e' = .tellTerminated w then 1 else 0 := by
      intro m l
      rw [List.count_cons]
      congr 1
      by_cases h : m = .tellTerminated w <;> simp [h]
    cases e with
    | pillTo c =>
      simp only [usrTo]
      split
      · rename_i h
        split at h
        · simp at h
        · rw [ih, he]; simp
      · rename_i h
        split at h
        · simp at h; subst h
          rw [hd, ih, he]; simp [terminatedMsg]
        · simp at h
    | tellTerminated v =>
      simp only [usrTo]
      by_cases hv : v = w
      · subst hv
        simp only [if_true]
        rw [hd, ih, he]
        by_cases hji : j = i
        · subst hji; simp
        · have hne : terminatedMsg j ≠ terminatedMsg i := by
            simp only [terminatedMsg, ne_eq, Msg.user.injEq]; omega
          rw [if_neg hji, if_neg hji, if_neg hne]
      · simp only [if_neg hv]
        rw [ih, he]; simp [hv]
    | preStart ok => simp only [usrTo]; rw [ih, he]; simp
    | postStop => simp only [usrTo]; rw [ih, he]; simp
    | receive m => simp only [usrTo]; rw [ih, he]; simp
    | detachToParent => simp only [usrTo]; rw [ih, he]; simp
    | startTo c => simp only [usrTo]; rw [ih, he]; simp
    | destroy c => simp only [usrTo]; rw [ih, he]; simp
    | stopSelf => simp only [usrTo]; rw [ih, he]; simp

/-- Only a user message calls `receive`. -/
theorem process_receive (c : Cell) (m : Msg) (x : Nat) : (process c m).2.1.count (.receive x) = if m = .user x then 1 else 0 := by
  have hst : ∀ c : Cell, (stopImpl c).2.count (.receive x) = 0 := by
    intro c
    rw [List.count_eq_zero]
    simp only [stopImpl]
    split <;> split <;> simp
  have hrm : ∀ p, (removeChild c p).2.count (.receive x) = 0 := by
    intro p
    rw [List.count_eq_zero]
    intro h
    obtain ⟨y, -, -, h⟩ := removeChild_eff c p _ h
    simp at h
  cases m with
  | start ok => simp [process]
  | stop =>
    simp only [process]; split
    · simp [hst]
    · simp [List.count_eq_zero]
  | stopAfterChildren =>
    simp only [process]; split
    · simp [hst]
    · simp
  | watch w => simp only [process]; split <;> simp
  | unwatch w => simp [process]
  | attach ch => simp only [process]; split <;> simp
  | detach p =>
    simp only [process]; split
    · simp [hst, hrm]
    · simp [hrm]
  | user y =>
    simp only [process]
    by_cases h : y = x <;> simp [h]
  | pill => simp [process]

/-- The `terminated` messages after actor `j` has processed `m`. -/
theorem got_procMsg (s : St) (j : Nat) (m : Msg) (sys usr : List Msg) (w i : Nat) (hnd : (s.act j).cell.watchers.Nodup)
    (hu : (s.act j).usr.count (terminatedMsg i) = usr.count (terminatedMsg i) + if m = terminatedMsg i then 1 else 0) :
    got (procMsg s j m sys usr) w i = got s w i +
      if j = i ∧ w ≠ j ∧ (process (s.act j).cell m).2.2 = true ∧ m ≠ .start false ∧ w ∈ (s.act j).cell.watchers ∧
        ((procMsg s j m sys usr).act w).isOpen = true then 1 else 0 := by
  have hp := process_terminated (s.act j).cell m hnd w
  have hr : (process (s.act j).cell m).2.1.count (.receive (2 * i + 1)) = if m = terminatedMsg i then 1 else 0 := process_receive _ m _
  have hfs : m = .start false → (process (s.act j).cell m).2.1.count (.tellTerminated w) = 0 := by rintro rfl; simp [process]
  by_cases hwj : w = j
  · rw [if_neg (fun h => h.2.1 hwj)]
    subst hwj
    simp only [got, procMsg, deliver_usr, deliver_log, upd_self]
    rw [List.count_append, hr, hu]
    generalize (if m = terminatedMsg i then 1 else 0) = d
    split
    · rename_i ho
      rw [Bool.and_eq_true] at ho
      rw [List.count_append, count_usrTo, hp.1 (by simpa using ho.1), ite_self]
      omega
    · omega
  · have hgot : got (procMsg s j m sys usr) w i = got s w i +
        if ((procMsg s j m sys usr).act w).isOpen = true then (if j = i then (process (s.act j).cell m).2.1.count (.tellTerminated w) else 0) else 0 := by
      simp only [got, procMsg, deliver_usr, deliver_log, deliver_isOpen, upd_ne s _ hwj]
      split
      · rw [List.count_append, count_usrTo]; omega
      · omega
    rw [hgot]
    congr 1
    by_cases ho : ((procMsg s j m sys usr).act w).isOpen = true
    · rw [if_pos ho]
      by_cases hji : j = i
      · rw [if_pos hji]
        cases hc : (process (s.act j).cell m).2.2 with
        | false => rw [hp.1 hc]; simp
        | true =>
          by_cases hs : m = .start false
          · rw [hfs hs]; simp [hs]
          · rw [hp.2 hc hs]
            by_cases hmem : w ∈ (s.act j).cell.watchers
            · rw [if_pos hmem, if_pos ⟨hji, hwj, rfl, hs, hmem, ho⟩]
            · rw [if_neg hmem, if_neg (fun h => hmem h.2.2.2.2.1)]
      · rw [if_neg hji, if_neg (fun h => hji h.1)]
    · rw [if_neg ho, if_neg (fun h => ho h.2.2.2.2.2)]

def NInv (s : St) : Prop := ∀ k < s.n, (s.act k).cell.watchers.Nodup

theorem NInv_upd (s : St) (i : Nat) (a : Act) (h : NInv s) (h1 : a.cell = (s.act i).cell) : NInv (s.upd i a) := by
  intro k hk
  simp only [upd_act]
  split
  · rename_i h2; subst h2; rw [h1]; exact h _ hk
  · exact h _ hk

theorem NInv_procMsg (s : St) (i : Nat) (m : Msg) (sys usr : List Msg) (h : NInv s) (hi : i < s.n) : NInv (procMsg s i m sys usr) := by
  intro k hk
  simp only [procMsg, deliver_watchers, upd_act]
  split
  · exact (process_watchers _ m (h i hi)).1
  · exact h _ hk

theorem got_upd (s : St) (k : Nat) (a : Act) (w i : Nat) (h1 : a.usr.count (terminatedMsg i) = (s.act k).usr.count (terminatedMsg i))
    (h2 : a.log = (s.act k).log) : got (s.upd k a) w i = got s w i := by
  simp only [got, upd_act]
  split
  · rename_i h; subst h; rw [h1, h2]
  · rfl

/-- The invariant: at most the late watches, plus one if `i` has ended. -/
structure WInv (s : St) (w i late : Nat) : Prop where
  nodup : NInv s
  bound : w < s.n → got s w i ≤ late + 1
  running : w < s.n → (i < s.n → (s.act i).isOpen = true) → got s w i ≤ late

theorem WInv_upd (s : St) (k : Nat) (a : Act) (w i late late' : Nat) (h : WInv s w i late) (hl : late ≤ late') (h0 : a.cell = (s.act k).cell)
    (h1 : a.usr.count (terminatedMsg i) = (s.act k).usr.count (terminatedMsg i)) (h2 : a.log = (s.act k).log)
    (h3 : a.isOpen = (s.act k).isOpen) : WInv (s.upd k a) w i late' := by
  have ho : ((s.upd k a).act i).isOpen = (s.act i).isOpen := by
    simp only [upd_act]; split
    · rename_i h; subst h; exact h3
    · rfl
  refine ⟨NInv_upd s k a h.nodup h0, fun hw => ?_, fun hw hi => ?_⟩ <;> rw [got_upd s k a w i h1 h2]
  · have := h.bound hw
    omega
  · rw [ho] at hi
    have := h.running hw hi
    omega

theorem WInv_procMsg (s : St) (j : Nat) (m : Msg) (sys usr : List Msg) (w i late : Nat) (hj : j < s.n) (ho : (s.act j).isOpen = true)
    (hu : (s.act j).usr.count (terminatedMsg i) = usr.count (terminatedMsg i) + if m = terminatedMsg i then 1 else 0)
    (h : WInv s w i late) : WInv (procMsg s j m sys usr) w i late := by
  have hg := got_procMsg s j m sys usr w i (h.nodup j hj) hu
  refine ⟨NInv_procMsg _ _ _ _ _ h.nodup hj, fun hw => ?_, fun hw hi => ?_⟩ <;> rw [hg]
  · split
    · rename_i hc
      obtain ⟨rfl, -⟩ := hc
      have := h.running hw (fun _ => ho)
      omega
    · have := h.bound hw
      omega
  · have hi' : i < s.n → (if i = j then !(process (s.act j).cell m).2.2 else (s.act i).isOpen) = true := by
      intro hin
      have h1 := hi hin
      simp only [procMsg, deliver_isOpen, upd_act, Bool.and_eq_true] at h1
      have h2 := h1.1
      by_cases hij : i = j
      · rw [if_pos hij] at h2 ⊢; exact h2
      · rw [if_neg hij] at h2 ⊢; exact h2
    rw [if_neg]
    · refine h.running hw (fun hin => ?_)
      have := hi' hin
      by_cases hij : i = j
      · rw [hij]; exact ho
      · rw [if_neg hij] at this; exact this
    · rintro ⟨rfl, -, h1, -⟩
      have := hi' hj
      rw [if_pos rfl, h1] at this
      simp at this

theorem WInv_step (s : St) (a : Action) (s' : St) (w i late : Nat) (h : WInv s w i late) (hS : SInv s) (hs : step s a = some s') :
    WInv s' w i (late + if a = .watch w i ∧ (s.act i).alive = false ∧ (s.act w).isOpen = true then 1 else 0) := by
  cases a with
  | create p path ok =>
    rw [if_neg (by simp), Nat.add_zero]
    simp only [step] at hs
    split at hs
    · simp only [Option.some.injEq] at hs
      subst hs
      have h1 := WInv_upd s p ((s.act p).pushSys [.attach ⟨s.n, path⟩]) w i late late h (Nat.le_refl _) (by simp) (by simp) (by simp) (by simp)
      have hn : (s.upd p ((s.act p).pushSys [.attach ⟨s.n, path⟩])).n = s.n := rfl
      generalize s.upd p ((s.act p).pushSys [.attach ⟨s.n, path⟩]) = t at *
      have hg : w ≠ s.n → got { t.upd s.n (Act.new p path ok) with n := s.n + 1 } w i = got t w i := by
        intro hws
        simp only [got, upd_ne t _ hws]
      have hg0 : w = s.n → got { t.upd s.n (Act.new p path ok) with n := s.n + 1 } w i = 0 := by
        intro hws
        simp [got, hws, Act.new]
      refine ⟨?_, ?_, ?_⟩
      · intro k hk
        simp only [St.upd] at hk ⊢
        split
        · simp [Act.new, Cell.fresh]
        · exact h1.nodup k (by rw [hn]; omega)
      · intro hw
        have hw' : w < s.n + 1 := hw
        by_cases hws : w = s.n
        · rw [hg0 hws]; omega
        · rw [hg hws]; exact h1.bound (by rw [hn]; omega)
      · intro hw hi
        have hw' : w < s.n + 1 := hw
        by_cases hws : w = s.n
        · rw [hg0 hws]; omega
        · rw [hg hws]
          refine h1.running (by rw [hn]; omega) (fun hin => ?_)
          rw [hn] at hin
          have := hi (show i < s.n + 1 by omega)
          simp only [upd_ne t _ (show i ≠ s.n by omega)] at this
          exact this
    · simp at hs
  | send k m =>
    simp only [step] at hs
    split at hs
    · simp only [Option.some.injEq] at hs
      subst hs
      refine WInv_upd s k _ w i late _ h (by omega) ?_ ?_ ?_ ?_ <;> cases m <;> simp [pushUsr_usr, terminatedMsg, plainMsg]
      · split <;> simp
      · split <;> simp [List.count_append, List.count_cons]; omega
    · simp at hs
  | watch v k =>
    simp only [step] at hs
    split at hs
    · rename_i hvk
      simp at hvk
      split at hs <;> simp only [Option.some.injEq] at hs <;> subst hs
      · exact WInv_upd s k _ w i late _ h (by omega) (by simp) (by simp) (by simp) (by simp)
      · rename_i hal
        by_cases hik : k = i
        · subst hik
          have hop : ((s.upd v ((s.act v).pushUsr [terminatedMsg k])).act k).isOpen = (s.act k).isOpen := by
            simp only [upd_act]; split
            · rename_i h; subst h; simp
            · rfl
          have hg : got (s.upd v ((s.act v).pushUsr [terminatedMsg k])) w k ≤ got s w k +
              if Action.watch v k = Action.watch w k ∧ (s.act k).alive = false ∧ (s.act w).isOpen = true then 1 else 0 := by
            by_cases hvw : w = v
            · subst hvw
              simp only [got, upd_self, pushUsr_usr, pushUsr_log]
              cases hov : (s.act w).isOpen with
              | false => simp only [Bool.false_eq_true, if_false]; omega
              | true =>
                have hal' : (s.act k).alive = false := by simpa using hal
                rw [if_pos rfl, hal', List.count_append]
                simp
                omega
            · simp only [got, upd_ne s _ hvw]; omega
          refine ⟨NInv_upd _ _ _ h.nodup (by simp), fun hw => ?_, fun hw hi => ?_⟩
          · have := h.bound hw
            omega
          · rw [hop] at hi
            have := h.running hw hi
            omega
        · refine WInv_upd s v _ w i late _ h (by omega) (by simp) ?_ (by simp) (by simp)
          rw [pushUsr_usr]
          split
          · rw [List.count_append, List.count_cons, if_neg (by simp [terminatedMsg]; omega)]; simp
          · rfl
    · simp at hs
  | runSys j =>
    simp only [step] at hs
    split at hs
    · rename_i hc
      simp at hc
      split at hs
      · simp at hs
      · rename_i m ms hms
        simp only [Option.some.injEq] at hs
        subst hs
        have hpl := hS j m (by rw [hms]; simp)
        have hne : m ≠ terminatedMsg i := by rintro rfl; simp [isPlain, terminatedMsg] at hpl
        have := WInv_procMsg s j m ms (s.act j).usr w i late hc.1 hc.2 (by rw [if_neg hne]; rfl) h
        simpa using this
    · simp at hs
  | runUsr j =>
    simp only [step] at hs
    split at hs
    · rename_i hc
      simp at hc
      split at hs
      · simp at hs
      · rename_i m ms hms
        simp only [Option.some.injEq] at hs
        subst hs
        have := WInv_procMsg s j m [] ms w i late hc.1.1.1 hc.1.1.2 (by rw [hms, List.count_cons]; congr 1; by_cases h : m = terminatedMsg i <;> simp [h]) h
        simpa using this
    · simp at hs

theorem WInv_run (as : List Action) : ∀ (s s' : St) (w i late : Nat), LInv s → SInv s → WInv s w i late → run s as = some s' →
    WInv s' w i (late + lateWatches w i s as) := by
  induction as with
  | nil => intro s s' w i late _ _ h hr; simp [run] at hr; subst hr; exact h
  | cons a as ih =>
    intro s s' w i late hL hS h hr
    simp only [run] at hr
    cases hst : step s a with
    | none => rw [hst] at hr; simp at hr
    | some s1 =>
      rw [hst, Option.bind_some] at hr
      obtain ⟨hL1, hS1⟩ := inv_step s a s1 hL hS hst
      have := ih s1 s' w i _ hL1 hS1 (WInv_step s a s1 w i late h hS hst) hr
      simp only [lateWatches, hst]
      rw [Nat.add_assoc] at this
      exact this

theorem reachW {as : List Action} {s : St} (h : run St.init as = some s) (w i : Nat) : WInv s w i (lateWatches w i St.init as) := by
  have := WInv_run as St.init s w i 0 LInv_init SInv_init ⟨fun k _ => by simp [St.init, Act.root, Cell.fresh], fun _ => by simp [got, St.init, Act.root],
    fun _ _ => by simp [got, St.init, Act.root]⟩ h
  simpa using this

/-- **C44**, every execution: when an actor's mailbox is closed by the message it processes (and this is not a failing `pre_start`),
every other running actor gets exactly one `terminated` message naming it if it is among the watchers at that time, else none. -/
theorem C44_stop_tells_watchers_partial (as : List Action) (s s' : St) (i w : Nat) (a : Action) (h : run St.init as = some s)
    (ha : a = .runSys i ∨ a = .runUsr i) (hs : step s a = some s') (hal : (s'.act i).alive = true) (hcl : (s'.act i).isOpen = false)
    (hst : .preStart false ∉ (s'.act i).log) (hwi : w ≠ i) (hw : (s'.act w).isOpen = true) :
    got s' w i = got s w i + if w ∈ (s.act i).cell.watchers then 1 else 0 := by
  have hS := (reach h).2
  have hN := (reachW h w i).nodup
  have main : ∀ (m : Msg) (sys usr : List Msg), i < s.n → 
      (s.act i).usr.count (terminatedMsg i) = usr.count (terminatedMsg i) + (if m = terminatedMsg i then 1 else 0) →
      s' = procMsg s i m sys usr → got s' w i = got s w i + if w ∈ (s.act i).cell.watchers then 1 else 0 := by
    intro m sys usr hi hu he
    subst he
    rw [got_procMsg s i m sys usr w i (hN i hi) hu]
    have hcls : (process (s.act i).cell m).2.2 = true := by
      simp only [procMsg, deliver_isOpen, deliver_alive, upd_self] at hcl hal
      rw [Bool.and_eq_true] at hal
      rw [hal.2] at hcl
      simpa using hcl
    have hnf : m ≠ .start false := by
      rintro rfl
      simp only [procMsg, deliver_log, upd_self, process] at hst
      simp at hst
    congr 1
    by_cases hm : w ∈ (s.act i).cell.watchers
    · rw [if_pos hm, if_pos ⟨rfl, hwi, hcls, hnf, hm, hw⟩]
    · rw [if_neg hm, if_neg (fun h => hm h.2.2.2.2.1)]
  rcases ha with rfl | rfl
  · simp only [step] at hs
    split at hs
    · rename_i hc
      simp at hc
      split at hs
      · simp at hs
      · rename_i m ms hms
        simp only [Option.some.injEq] at hs
        have hpl := hS i m (by rw [hms]; simp)
        refine main m ms (s.act i).usr hc.1 ?_ hs.symm
        rw [if_neg]
        · rfl
        · rintro rfl; simp [isPlain, terminatedMsg] at hpl
    · simp at hs
  · simp only [step] at hs
    split at hs
    · rename_i hc
      simp at hc
      split at hs
      · simp at hs
      · rename_i m ms hms
        simp only [Option.some.injEq] at hs
        refine main m [] ms hc.1.1.1 ?_ hs.symm
        rw [hms, List.count_cons]
        congr 1
        by_cases h : m = terminatedMsg i <;> simp [h]
    · simp at hs

/-- **C44**, every execution: over its whole life an actor gets at most one `terminated(i)` message, and none while `i` is running; one
more for each time it started to watch `i` when `i`'s cell was already gone. -/
theorem C44_told_at_most_once (as : List Action) (s : St) (i w : Nat) (h : run St.init as = some s) (hw : w < s.n) :
    got s w i ≤ lateWatches w i St.init as + if (s.act i).isOpen then 0 else 1 := by
  have hb := (reachW h w i).bound hw
  have hr := (reachW h w i).running hw
  cases ho : (s.act i).isOpen with
  | false => simpa using hb
  | true => simpa using hr (fun _ => ho)

/-- Actor 2 watches actor 1, which then stops; actor 2 watches it once more when it is gone. -/
def watchRun : List Action :=
  [.create 0 10 true, .create 0 11 true, .runSys 0, .runSys 0, .runSys 1, .runSys 2, .watch 2 1, .watch 2 1, .runSys 1, .runSys 1, .send 1 .stop]

example : ∃ s s', run St.init watchRun = some s ∧ step s (.runSys 1) = some s' ∧ (s'.act 1).alive = true ∧ (s'.act 1).isOpen = false ∧
    .preStart false ∉ (s'.act 1).log ∧ (s'.act 2).isOpen = true ∧ 2 ∈ (s.act 1).cell.watchers ∧ got s 2 1 = 0 ∧ got s' 2 1 = 1 ∧ got s' 0 1 = 0 := by
  refine ⟨_, _, rfl, rfl, ?_⟩
  decide +kernel

example : lateWatches 2 1 St.init (watchRun ++ [.runSys 1, .runUsr 2, .runSys 0, .watch 2 1]) = 1 ∧
    ((run St.init (watchRun ++ [.runSys 1, .runUsr 2, .runSys 0, .watch 2 1])).map fun s => got s 2 1) = some 2 := by
  decide +kernel

/-! ### Registration -/

/-- `i`'s mailbox has no request to forget `w`; while it is open its cell exists and, if `reg`, `w` is registered or about to be. -/
structure RInv (reg : Bool) (s : St) (w i : Nat) : Prop where
  unw : Msg.unwatch w ∉ (s.act i).sys
  known : (s.act i).isOpen = true → (s.act i).alive = true
  here : reg = true → i < s.n ∧ ((s.act i).isOpen = true → Msg.watch w ∈ (s.act i).sys ∨ w ∈ (s.act i).cell.watchers)

theorem sysTo_mem (s : St) (i k : Nat) (es : List Eff) (m : Msg) (h : m ∈ es.filterMap (sysTo s i k)) : ∀ w, m ≠ .unwatch w := by
  rw [List.mem_filterMap] at h
  obtain ⟨e, -, hm⟩ := h
  intro w hw
  subst hw
  cases e <;> simp only [sysTo] at hm <;> repeat' split at hm
  all_goals simp at hm

theorem RInv_upd (reg : Bool) (s : St) (k : Nat) (a : Act) (w i : Nat) (h : RInv reg s w i) (h0 : a.cell = (s.act k).cell)
    (h1 : a.isOpen = (s.act k).isOpen) (h2 : a.alive = (s.act k).alive) (h3 : ∀ m ∈ (s.act k).sys, m ∈ a.sys)
    (h4 : k = i → ∀ m ∈ a.sys, m ∈ (s.act k).sys ∨ m ≠ .unwatch w) : RInv reg (s.upd k a) w i := by
  by_cases hk : i = k
  · subst hk
    refine ⟨?_, ?_, fun hr => ⟨(h.here hr).1, ?_⟩⟩ <;> rw [upd_self]
    · intro hm
      rcases h4 rfl _ hm with hm | hm
      · exact h.unw hm
      · exact hm rfl
    · rw [h1, h2]; exact h.known
    · rw [h1, h0]
      intro ho
      rcases (h.here hr).2 ho with hm | hm
      · exact Or.inl (h3 _ hm)
      · exact Or.inr hm
  · refine ⟨?_, ?_, fun hr => ⟨(h.here hr).1, ?_⟩⟩ <;> rw [upd_ne s _ hk]
    · exact h.unw
    · exact h.known
    · exact (h.here hr).2

theorem process_keeps (c : Cell) (m : Msg) (w : Nat) (hm : m ≠ .unwatch w) (h : m = .watch w ∨ w ∈ c.watchers)
    : w ∈ (process c m).1.watchers := by
  have hrm : ∀ p, (removeChild c p).1.watchers = c.watchers := by intro p; unfold removeChild; split <;> rfl
  cases m with
  | watch v =>
    simp only [process]
    split
    · rename_i hv
      rcases h with h | h
      · simp at h; subst h; exact hv
      · exact h
    · rcases h with h | h
      · simp at h; subst h; simp
      · simp [h]
  | unwatch v =>
    rcases h with h | h
    · simp at h
    · simp only [process]
      exact (List.mem_erase_of_ne (fun hv => hm (by rw [hv]))).2 h
  | detach p =>
    rcases h with h | h
    · simp at h
    · simp only [process]
      split <;> simp [stopImpl, hrm, h]
  | _ =>
    rcases h with h | h
    · simp at h
    · simp only [process]
      repeat' split
      all_goals simp [stopImpl, h]

theorem RInv_procMsg (reg : Bool) (s : St) (j : Nat) (m : Msg) (sys usr : List Msg) (w i : Nat) (h : RInv reg s w i) (ho : (s.act j).isOpen = true)
    (hm : m ≠ .unwatch w ∨ j ≠ i) (hsub : ∀ x ∈ sys, x ∈ (s.act j).sys) (hin : ∀ x ∈ (s.act j).sys, x = m ∨ x ∈ sys) :
    RInv reg (procMsg s j m sys usr) w i := by
  by_cases hij : i = j
  · subst hij
    have hm := hm.resolve_right (by simp)
    refine ⟨?_, ?_, fun hr => ⟨(h.here hr).1, ?_⟩⟩
    · simp only [procMsg, deliver_sys, upd_self]
      split
      · rw [List.mem_append]
        rintro (hx | hx)
        · exact h.unw (hsub _ hx)
        · exact sysTo_mem _ _ _ _ _ hx w rfl
      · exact fun hx => h.unw (hsub _ hx)
    · simp only [procMsg, deliver_isOpen, deliver_alive, upd_self, Bool.and_eq_true]
      exact fun hx => ⟨h.known ho, hx.2⟩
    · simp only [procMsg, deliver_isOpen, deliver_watchers, upd_self, deliver_sys]
      intro hx
      rw [if_pos hx]
      rcases (h.here hr).2 ho with hw | hw
      · rcases hin _ hw with hw | hw
        · exact Or.inr (process_keeps _ _ _ hm (Or.inl hw.symm))
        · exact Or.inl (List.mem_append_left _ hw)
      · exact Or.inr (process_keeps _ _ _ hm (Or.inr hw))
  · refine ⟨?_, ?_, fun hr => ⟨(h.here hr).1, ?_⟩⟩
    · simp only [procMsg, deliver_sys, upd_ne s _ hij]
      split
      · rw [List.mem_append]
        rintro (hx | hx)
        · exact h.unw hx
        · exact sysTo_mem _ _ _ _ _ hx w rfl
      · exact h.unw
    · simp only [procMsg, deliver_isOpen, deliver_alive, upd_ne s _ hij, Bool.and_eq_true]
      exact fun hx => ⟨h.known hx.1, hx.2⟩
    · simp only [procMsg, deliver_isOpen, deliver_watchers, upd_ne s _ hij, deliver_sys]
      intro hx
      rw [if_pos hx]
      rw [Bool.and_eq_true] at hx
      rcases (h.here hr).2 hx.1 with hw | hw
      · exact Or.inl (List.mem_append_left _ hw)
      · exact Or.inr hw

theorem RInv_step (reg : Bool) (s : St) (a : Action) (s' : St) (w i : Nat) (h : RInv reg s w i) (hL : LInv s) (hs : step s a = some s')
    (ha : a ≠ .send i (.unwatch w)) : RInv reg s' w i := by
  cases a with
  | create p path ok =>
    simp only [step] at hs
    split at hs
    · simp only [Option.some.injEq] at hs
      subst hs
      have h1 := RInv_upd reg s p ((s.act p).pushSys [.attach ⟨s.n, path⟩]) w i h (by simp) (by simp) (by simp) (pushSys_sub _ _)
        (fun _ m hm => by
          rcases pushSys_mem hm with hm | hm
          · exact Or.inl hm
          · simp at hm; subst hm; exact Or.inr (by simp))
      have hn : (s.upd p ((s.act p).pushSys [.attach ⟨s.n, path⟩])).n = s.n := rfl
      generalize s.upd p ((s.act p).pushSys [.attach ⟨s.n, path⟩]) = t at *
      by_cases hi : i = s.n
      · subst hi
        refine ⟨?_, ?_, fun hr => absurd (hn ▸ (h1.here hr).1) (Nat.lt_irrefl _)⟩ <;> simp [Act.new]
      · refine ⟨?_, ?_, fun hr => ⟨Nat.lt_succ_of_lt (hn ▸ (h1.here hr).1), ?_⟩⟩ <;> simp only [upd_ne t _ hi]
        · exact h1.unw
        · exact h1.known
        · exact (h1.here hr).2
    · simp at hs
  | send k m =>
    simp only [step] at hs
    split at hs
    · simp only [Option.some.injEq] at hs
      subst hs
      refine RInv_upd reg s k _ w i h (by cases m <;> simp) (by cases m <;> simp) (by cases m <;> simp) ?_ ?_
      · intro x hx
        cases m <;> first | exact pushSys_sub _ _ _ hx | (rw [pushUsr_sys]; exact hx)
      · intro hki x hx
        subst hki
        have main : ∀ y : Msg, x ∈ ((s.act k).pushSys [y]).sys → y ≠ .unwatch w → x ∈ (s.act k).sys ∨ x ≠ .unwatch w := by
          intro y hx hy
          rcases pushSys_mem hx with hx | hx
          · exact Or.inl hx
          · simp at hx; subst hx; exact Or.inr hy
        cases m with
        | stop => exact main _ hx (by simp)
        | stopAfterChildren => exact main _ hx (by simp)
        | unwatch v => exact main _ hx (fun hv => ha (by simp at hv; rw [hv]))
        | pill => simp only [pushUsr_sys] at hx; exact Or.inl hx
        | user m => simp only [pushUsr_sys] at hx; exact Or.inl hx
    · simp at hs
  | watch v k =>
    simp only [step] at hs
    split at hs
    · split at hs <;> simp only [Option.some.injEq] at hs <;> subst hs
      · refine RInv_upd reg s k _ w i h (by simp) (by simp) (by simp) (pushSys_sub _ _) ?_
        intro _ m hm
        rcases pushSys_mem hm with hm | hm
        · exact Or.inl hm
        · simp at hm; subst hm; exact Or.inr (by simp)
      · exact RInv_upd reg s v _ w i h (by simp) (by simp) (by simp) (by simp) (fun _ m hm => Or.inl (by simpa using hm))
    · simp at hs
  | runSys j =>
    simp only [step] at hs
    split at hs
    · rename_i hc
      simp at hc
      split at hs
      · simp at hs
      · rename_i m ms hms
        simp only [Option.some.injEq] at hs
        subst hs
        refine RInv_procMsg reg s j m ms _ w i h hc.2 ?_ (fun x hx => by rw [hms]; simp [hx]) (fun x hx => by rw [hms] at hx; simpa using hx)
        by_cases hji : j = i
        · subst hji
          exact Or.inl (fun hm => h.unw (by rw [hms, hm]; simp))
        · exact Or.inr hji
    · simp at hs
  | runUsr j =>
    simp only [step] at hs
    split at hs
    · rename_i hc
      simp at hc
      split at hs
      · simp at hs
      · rename_i m ms hms
        simp only [Option.some.injEq] at hs
        subst hs
        have hpl := hL.usr j hc.1.1.1 m (by rw [hms]; simp)
        have hem : (s.act j).sys = [] := by simpa using hc.2
        refine RInv_procMsg reg s j m [] ms w i h hc.1.1.2 (Or.inl ?_) (by simp) (by rw [hem]; simp)
        rintro rfl
        simp [isPlain] at hpl
    · simp at hs

theorem RInv_run (reg : Bool) (as : List Action) : ∀ (s s' : St) (w i : Nat), LInv s → SInv s → RInv reg s w i → run s as = some s' →
    .send i (.unwatch w) ∉ as → RInv reg s' w i := by
  induction as with
  | nil => intro s s' w i _ _ h hr _; simp [run] at hr; subst hr; exact h
  | cons a as ih =>
    intro s s' w i hL hS h hr hu
    simp only [run] at hr
    cases hst : step s a with
    | none => rw [hst] at hr; simp at hr
    | some s1 =>
      rw [hst, Option.bind_some] at hr
      obtain ⟨hL1, hS1⟩ := inv_step s a s1 hL hS hst
      simp only [List.mem_cons, not_or] at hu
      exact ih s1 s' w i hL1 hS1 (RInv_step reg s a s1 w i h hL hst (fun h => hu.1 h.symm)) hr hu.2

theorem watch_registers (as bs : List Action) (s s1 s' : St) (w i : Nat) (h : run St.init as = some s) (ho : (s.act i).isOpen = true)
    (hs : step s (.watch w i) = some s1) (hr : run s1 bs = some s') (hu : .send i (.unwatch w) ∉ as ++ bs) (ho' : (s'.act i).isOpen = true) :
    Msg.watch w ∈ (s'.act i).sys ∨ w ∈ (s'.act i).cell.watchers := by
  simp only [List.mem_append, not_or] at hu
  have h0 : RInv false s w i := RInv_run false as St.init s w i LInv_init SInv_init
    ⟨by simp [St.init, Act.root], fun _ => rfl, by simp⟩ h hu.1
  obtain ⟨hL, hS⟩ := reach h
  have h1 : RInv true s1 w i := by
    have := RInv_step false s _ s1 w i h0 hL hs (by simp)
    refine ⟨this.unw, this.known, fun _ => ?_⟩
    simp only [step, h0.known ho, if_true] at hs
    split at hs
    · rename_i hc
      simp at hc
      simp only [Option.some.injEq] at hs
      subst hs
      refine ⟨hc.2, fun _ => Or.inl ?_⟩
      rw [upd_self, pushSys_sys, if_pos ho]
      simp
    · simp at hs
  obtain ⟨hL1, hS1⟩ := inv_step s _ s1 hL hS hs
  exact ((RInv_run true bs s1 s' w i hL1 hS1 h1 hr hu.2).here rfl).2 ho'

/-- **C44**, every execution: a `watch` of a running actor takes effect.  An actor `w` can always watch an actor `i`; if it does so while
`i` runs and nobody ever takes that back, then as long as `i` runs `w` is registered with `i`, or the request is waiting in `i`'s mailbox. -/
theorem C44_watch_registers (as : List Action) (s : St) (w i : Nat) (h : run St.init as = some s) (hw : w < s.n) (hi : i < s.n)
    (ho : (s.act i).isOpen = true) :
    ∃ s1, step s (.watch w i) = some s1 ∧ ∀ (bs : List Action) (s' : St), run s1 bs = some s' → .send i (.unwatch w) ∉ as ++ bs →
      (s'.act i).isOpen = true → Msg.watch w ∈ (s'.act i).sys ∨ w ∈ (s'.act i).cell.watchers := by
  have he : ∃ s1, step s (.watch w i) = some s1 := by
    simp only [step, hw, hi, decide_true, Bool.and_self, if_true]
    split <;> exact ⟨_, rfl⟩
  obtain ⟨s1, h1⟩ := he
  exact ⟨s1, h1, fun bs s' hr hu ho' => watch_registers as bs s s1 s' w i h ho h1 hr hu ho'⟩

/-- **C44**, every execution: if `w` watches `i` while `i` runs, the request has been processed when `i` stops, nobody takes it
back and `w` is running, then `w` gets exactly one `terminated` message when `i` stops. -/
theorem C44_watcher_is_told_partial (as bs : List Action) (s s1 s2 s' : St) (w i : Nat) (a : Action) (h : run St.init as = some s)
    (ho : (s.act i).isOpen = true) (hs : step s (.watch w i) = some s1) (hr : run s1 bs = some s2)
    (hu : .send i (.unwatch w) ∉ as ++ bs) (ho2 : (s2.act i).isOpen = true) (hpr : Msg.watch w ∉ (s2.act i).sys)
    (ha : a = .runSys i ∨ a = .runUsr i) (hs' : step s2 a = some s') (hal : (s'.act i).alive = true) (hcl : (s'.act i).isOpen = false)
    (hst : .preStart false ∉ (s'.act i).log) (hwi : w ≠ i) (hw : (s'.act w).isOpen = true) : got s' w i = got s2 w i + 1 := by
  have h1 := (watch_registers as bs s s1 s2 w i h ho hs hr hu ho2).resolve_left hpr
  have hrun : run St.init (as ++ .watch w i :: bs) = some s2 := by
    have happ : ∀ (as bs : List Action) (s t : St), run s as = some t → run s (as ++ bs) = run t bs := by
      intro as
      induction as with
      | nil => intro bs s t h; simp [run] at h; subst h; rfl
      | cons a as ih =>
        intro bs s t h
        simp only [run, List.cons_append] at h ⊢
        cases hst : step s a with
        | none => rw [hst] at h; simp at h
        | some u => rw [hst, Option.bind_some] at h; rw [Option.bind_some]; exact ih bs u t h
    rw [happ _ _ _ _ h]
    simp only [run, hs, Option.bind_some]
    exact hr
  have := C44_stop_tells_watchers_partial _ s2 s' i w a hrun ha hs' hal hcl hst hwi hw
  rwa [if_pos h1] at this

/-- Actor 2 watches the running actor 1; the request is processed; actor 1 then stops while actor 2 runs. -/
example : ∃ s s1 s2 s', run St.init [.create 0 10 true, .create 0 11 true, .runSys 0, .runSys 0, .runSys 1, .runSys 2] = some s ∧
    (s.act 1).isOpen = true ∧ step s (.watch 2 1) = some s1 ∧ run s1 [.send 2 (.user 4), .runSys 1, .send 1 .stop] = some s2 ∧
    (s2.act 1).isOpen = true ∧ Msg.watch 2 ∉ (s2.act 1).sys ∧ step s2 (.runSys 1) = some s' ∧ (s'.act 1).alive = true ∧
    (s'.act 1).isOpen = false ∧ .preStart false ∉ (s'.act 1).log ∧ (s'.act 2).isOpen = true := by
  refine ⟨_, _, _, _, rfl, rfl, rfl, rfl, rfl, ?_, rfl, ?_⟩ <;> decide +kernel

end Verif.ActorTree
