import Verif.Lemmas.ActorTree5
import Verif.Props.C43_ActorCell

/-!
C43–C46 for whole trees of actors: every execution of `Verif.Model.ActorTree` from the initial state, i.e. every
creation and message, in every order in which the mailboxes may hand the messages out.
-/
set_option autoImplicit false

namespace Verif.ActorTree
open Verif.ActorCell

theorem reach {as : List Action} {s : St} (h : run St.init as = some s) : LInv s ∧ SInv s :=
  inv_run _ _ _ LInv_init SInv_init h

/-! ### C43 -/

/-- **C43**: in every execution no actor's `pre_start` is called twice. -/
theorem C43_started_at_most_once (as : List Action) (s : St) (h : run St.init as = some s) (i : Nat) (hi : i < s.n) :
    ((s.act i).log.filter fun | .preStart _ => true | _ => false).length ≤ 1 := by
  have := (reach h).1.once i hi
  rw [List.countP_eq_length_filter (p := isPreStart)] at this
  refine Nat.le_trans (Nat.le_of_eq ?_) (Nat.le_trans (Nat.le_add_left _ _) this)
  congr 2

theorem life_of (s : St) (hL : LInv s) (i : Nat) (hi : i < s.n) :
    ValidLife (lifecycle (s.act i).log) (!(s.act i).isOpen) ∨
      ((s.act i).alive = false ∧ ∃ rs : List Eff, (s.act i).log.filter Eff.isLife = .preStart true :: rs ∧ .postStop ∉ rs) := by
  rw [lifecycle_eq]
  cases ho : (s.act i).isOpen with
  | true =>
    left
    rcases hL.running i hi ho with ⟨-, rs, h1, h2⟩ | ⟨-, h2⟩
    · obtain ⟨ms, rfl⟩ := receives_eq rs h1
      rw [h2]; exact .running ms
    · rw [h2]; exact .nothing _
  | false =>
    rcases hL.ended i hi ho with h2 | h2 | ⟨rs, h1, h2 | ⟨h2, h3⟩⟩
    · rw [h2]; exact .inl (.nothing _)
    · rw [h2]; exact .inl .failed
    · obtain ⟨ms, rfl⟩ := receives_eq rs h1
      rw [h2]; exact .inl (.stopped ms)
    · obtain ⟨ms, rfl⟩ := receives_eq rs h1
      exact .inr ⟨h2, _, h3, by simp⟩

/-- **C43**, every execution, every actor whose cell exists: the user's functions have been called in an allowed order, with
`post_stop` called exactly if the mailbox of a started actor was closed. -/
theorem C43_lifecycle_in_tree (as : List Action) (s : St) (h : run St.init as = some s) (i : Nat) (hi : i < s.n)
    (ha : (s.act i).alive = true) : ValidLife (lifecycle (s.act i).log) (!(s.act i).isOpen) := by
  rcases life_of s (reach h).1 i hi with h | ⟨h, -⟩
  · exact h
  · rw [ha] at h; simp at h

/-! ### Good executions -/

/-- A destroyed cell is not one of a running actor. -/
def VInv (s : St) : Prop := ∀ j < s.n, (s.act j).alive = false → ∀ rs : List Eff, .postStop ∉ rs → (s.act j).log.filter Eff.isLife ≠ .preStart true :: rs

theorem V_upd (s : St) (i : Nat) (a : Act) (h : VInv s) (h1 : a.alive = (s.act i).alive) (h2 : a.log = (s.act i).log) : VInv (s.upd i a) := by
  intro p
  rw [upd_act]
  split
  · rename_i hp; subst hp; rw [h1, h2]; exact h p
  · exact h p

theorem process_destroy (s : St) (hG : GInv s) (hL : LInv s) (i : Nat) (hi : i < s.n) (m : Msg) (hm : m ∈ (s.act i).sys ∨ isPlain m = true) (c : Child)
    (h : .destroy c ∈ (process (s.act i).cell m).2.1) : i < c.id ∧ c.id < s.n := by
  have key : (s.act c.id).parent = some i ∧ c.id < s.n := by
    cases m with
    | attach ch =>
      simp only [process] at h
      split at h
      · simp at h
        subst h
        rcases hm with hm | hm
        · exact ⟨(hL.att i hi c hm).2.2.2, (hL.att i hi c hm).2.1⟩
        · simp [isPlain] at hm
      · simp at h
    | detach p =>
      have : .destroy c ∈ (removeChild (s.act i).cell p).2 := by
        simp only [process] at h
        split at h
        · simp [stopImpl] at h
          exact h
        · exact h
      obtain ⟨x, hx, -, he⟩ := removeChild_eff _ _ _ this
      simp at he
      subst he
      exact ⟨(hG.chd i hi c hx).2.2.1, (hG.chd i hi c hx).2.1⟩
    | start ok => simp [process] at h
    | stop => simp only [process] at h; split at h <;> simp [stopImpl] at h
    | stopAfterChildren => simp only [process] at h; split at h <;> simp [stopImpl] at h
    | watch w => simp only [process] at h; split at h <;> simp at h
    | unwatch w => simp [process] at h
    | user m => simp [process] at h
    | pill => simp [process] at h
  exact ⟨hL.par _ key.2 _ key.1, key.2⟩

theorem V_procMsg (s : St) (i : Nat) (m : Msg) (sys' usr' : List Msg) (h : VInv s) (hG : GInv s) (hL : LInv s) (hi : i < s.n) (ho : (s.act i).isOpen = true)
    (hm : m ∈ (s.act i).sys ∨ isPlain m = true) (hu : (procMsg s i m sys' usr').ub = false) :
    VInv (procMsg s i m sys' usr') := by
  intro j hj ha rs hrs
  have hia := alive_of_open hG hi ho
  have hj' : j < s.n := hj
  rw [procMsg_act] at ha ⊢
  rw [deliver_alive] at ha
  rw [deliver_log]
  simp only [Bool.and_eq_false_iff, Bool.not_eq_false'] at ha
  by_cases hji : j = i
  · exfalso
    subst hji
    rcases ha with ha | ha
    · simp [mid_self, hia] at ha
    · simp only [killed, List.any_eq_true] at ha
      obtain ⟨e, he, hk⟩ := ha
      cases e with
      | destroy c =>
        have hlt := process_destroy s hG hL j hi m hm c he
        simp only [kills, Bool.or_eq_true, beq_iff_eq] at hk
        rcases hk with hk | hk
        · omega
        · obtain ⟨a, ha, hc⟩ := List.any_eq_true.1 hk
          rw [mid_ne _ _ _ _ _ _ (by omega)] at ha
          cases a with
          | attach ch =>
            simp [carries] at hc
            subst hc
            have h2 := hL.att _ hlt.2 ch ha
            have := hL.par _ hi _ h2.2.2.2
            omega
          | _ => simp [carries] at hc
      | _ => simp [kills] at hk
  · rw [mid_ne _ _ _ _ _ _ hji] at ha ⊢
    rcases ha with ha | ha
    · exact h j hj' ha rs hrs
    · simp only [killed, List.any_eq_true] at ha
      obtain ⟨e, he, hk⟩ := ha
      cases e with
      | destroy c =>
        have hlt := process_destroy s hG hL i hi m hm c he
        have hci : c.id ≠ i := by omega
        simp only [kills, Bool.or_eq_true, beq_iff_eq] at hk
        rcases hk with hk | hk
        · subst hk
          have hb : breaks (mid s i m sys' usr') (.destroy c) = false := by
            have : (s.ub || (process (s.act i).cell m).2.1.any (breaks (mid s i m sys' usr'))) = false := hu
            rw [Bool.or_eq_false_iff] at this
            have := List.any_eq_false.1 this.2 _ he
            simpa using this
          simp only [breaks, mid_ne _ _ _ _ _ _ hci] at hb
          cases hco : (s.act c.id).isOpen with
          | true =>
            rw [hco] at hb
            rcases hL.running _ hj' hco with ⟨h1, -⟩ | ⟨-, h1⟩
            · rw [h1] at hb; simp at hb
            · rw [h1]; simp
          | false =>
            rcases hL.ended _ hj' hco with h2 | h2 | ⟨rs', h1, h2 | ⟨h2, h3⟩⟩
            · rw [h2]; simp
            · rw [h2]; simp
            · rw [h2]; intro hx; simp at hx; rw [← hx] at hrs; simp at hrs
            · exact h _ hj' h2 rs hrs
        · obtain ⟨a, ha, hc⟩ := List.any_eq_true.1 hk
          rw [mid_ne _ _ _ _ _ _ hci] at ha
          cases a with
          | attach ch =>
            simp [carries] at hc
            subst hc
            have h2 := hL.att _ hlt.2 ch ha
            rw [(hL.orphan _ hj' h2.1 h2.2.2.1).2.1]
            simp
          | _ => simp [carries] at hc
      | _ => simp [kills] at hk

theorem V_step (s : St) (a : Action) (s' : St) (h : VInv s) (hG : GInv s) (hL : LInv s) (hstep : step s a = some s') (hu : s'.ub = false) : VInv s' := by
  cases a with
  | create p path ok =>
    simp only [step] at hstep
    split at hstep
    · rename_i hc
      simp only [Option.some.injEq] at hstep
      subst hstep
      intro k hk
      simp at hc
      have := V_upd s p ((s.act p).pushSys [.attach ⟨s.n, path⟩]) h (by simp) (by simp) k
      simp only [St.upd] at this hk ⊢
      split
      · simp [Act.new]
      · exact this (by omega)
    · simp at hstep
  | send i m =>
    simp only [step] at hstep
    split at hstep
    · simp only [Option.some.injEq] at hstep
      subst hstep
      cases m <;> exact V_upd _ _ _ h (by simp) (by simp)
    · simp at hstep
  | watch w i =>
    simp only [step] at hstep
    split at hstep
    · split at hstep <;> simp only [Option.some.injEq] at hstep <;> subst hstep <;> exact V_upd _ _ _ h (by simp) (by simp)
    · simp at hstep
  | runSys i =>
    simp only [step] at hstep
    split at hstep
    · rename_i hc
      simp at hc
      split at hstep
      · simp at hstep
      · rename_i m ms hms
        simp only [Option.some.injEq] at hstep
        subst hstep
        exact V_procMsg _ _ _ _ _ h hG hL hc.1 hc.2 (.inl (by rw [hms]; simp)) hu
    · simp at hstep
  | runUsr i =>
    simp only [step] at hstep
    split at hstep
    · rename_i hc
      simp at hc
      split at hstep
      · simp at hstep
      · rename_i m ms hms
        simp only [Option.some.injEq] at hstep
        subst hstep
        exact V_procMsg _ _ _ _ _ h hG hL hc.1.1.1 hc.1.1.2 (.inr (hL.usr i hc.1.1.1 m (by rw [hms]; simp))) hu
    · simp at hstep

theorem goodRun_V {s s' : St} {as : List Action} (h : GoodRun s as s') (hG : GInv s) (hL : LInv s) (hS : SInv s) (hu : s.ub = false) (hV : VInv s) : VInv s' := by
  induction h with
  | nil => exact hV
  | cons hg hst _ ih =>
    obtain ⟨g1, g2⟩ := G_step _ _ _ hG hL hS hu hg hst
    obtain ⟨l1, l2⟩ := inv_step _ _ _ hL hS hst
    exact ih g1 l1 l2 g2 (V_step _ _ _ hV hG hL hst g2)

theorem good {as : List Action} {s : St} (h : GoodRun St.init as s) : GInv s ∧ LInv s ∧ SInv s ∧ QInv s ∧ s.ub = false :=
  goodRun_inv h GInv_init LInv_init SInv_init QInv_init rfl

/-- **C43** with destroyed actors included: in an execution of a well-behaved environment every actor's user functions have been
called in an allowed order, in particular every started actor that is gone has run its `post_stop`. -/
theorem C43_lifecycle_good (as : List Action) (s : St) (h : GoodRun St.init as s) (i : Nat) (hi : i < s.n) :
    ValidLife (lifecycle (s.act i).log) (!(s.act i).isOpen) := by
  have hV : VInv s := goodRun_V h GInv_init LInv_init SInv_init rfl (by intro j hj ha; simp [St.init, Act.root] at ha)
  rcases life_of s (good h).2.1 i hi with h | ⟨h1, rs, h2, h3⟩
  · exact h
  · exact absurd h2 (hV i hi h1 rs h3)

/-! ### C45 -/

/-- **C45**, safety, for the whole tree: when an actor has stopped, every actor created below it has stopped as well, or is one
whose `pre_start` was never called (it was refused because its parent was stopping). -/
theorem C45_parent_after_children_partial (as : List Action) (s : St) (h : GoodRun St.init as s) (p j : Nat)
    (hp : p < s.n) (hj : j < s.n) (hpar : (s.act j).parent = some p) (hclosed : (s.act p).isOpen = false) :
    (s.act j).isOpen = false ∨ lifecycle (s.act j).log = [] := by
  obtain ⟨hG, hL, -⟩ := good h
  rw [lifecycle_eq]
  have h0 : 0 < j := Nat.lt_of_le_of_lt (Nat.zero_le _) (hL.par j hj p hpar)
  cases hhp : (s.act j).cell.hasParent with
  | false => exact .inr (hL.orphan j hj h0 hhp).2.1
  | true =>
    left
    cases ha : (s.act j).alive with
    | false => exact hG.dead j hj ha
    | true =>
      have := hG.attd j hj hhp ha p hpar
      rw [hG.closed p hp hclosed] at this
      simp at this

theorem quiescent_empty (s : St) (hq : Quiescent s) (i : Nat) (hi : i < s.n) (ho : (s.act i).isOpen = true) :
    (s.act i).sys = [] ∧ ((s.act i).cell.started = true → (s.act i).usr = []) := by
  obtain ⟨h1, h2⟩ := hq i
  have hs : (s.act i).sys = [] := by
    simp only [step, hi, ho] at h1
    simp at h1
    split at h1
    · assumption
    · simp at h1
  refine ⟨hs, fun hst => ?_⟩
  simp only [step, hi, ho, hst, hs] at h2
  simp at h2
  split at h2
  · assumption
  · simp at h2

/-- `i` has been told to stop: the message is on its way, it is being carried out, or it is done. -/
def Told (s : St) (i : Nat) : Prop :=
  .stop ∈ (s.act i).sys ∨ .pill ∈ (s.act i).usr ∨ (s.act i).told = true ∨ (s.act i).isOpen = false

theorem Told_procMsg (s : St) (i k : Nat) (m : Msg) (sys' usr' : List Msg) (h : Told s k)
    (hsub : (∀ x ∈ (s.act i).sys, x = m ∨ x ∈ sys') ∧ (∀ x ∈ (s.act i).usr, x = m ∨ x ∈ usr')) (ho : (s.act i).isOpen = true) :
    Told (procMsg s i m sys' usr') k := by
  simp only [Told, procMsg_act]
  rw [deliver_isOpen, deliver_told, deliver_sys, deliver_usr]
  cases hkl : killed (mid s i m sys' usr') (process (s.act i).cell m).2.1 k with
  | true => simp
  | false =>
    by_cases hk : k = i
    · subst hk
      simp only [mid_self]
      cases hc : (process (s.act k).cell m).2.2 with
      | true => simp
      | false =>
        simp only [Bool.not_false, Bool.not_true, Bool.or_false, Bool.and_true, Bool.false_eq_true, if_false, List.mem_append]
        rcases h with h | h | h | h
        · rcases hsub.1 _ h with hx | hx
          · subst hx; simp
          · simp [hx]
        · rcases hsub.2 _ h with hx | hx
          · subst hx; left; simp [process, sysTo]
          · simp [hx]
        · simp [h]
        · rw [ho] at h; simp at h
    · simp only [mid_ne _ _ _ _ _ _ hk]
      cases hko : (s.act k).isOpen with
      | false => simp
      | true =>
        rcases h with h | h | h | h
        · simp [h]
        · simp [h]
        · simp [h]
        · rw [hko] at h; simp at h

theorem Told_upd (s : St) (i k : Nat) (a : Act) (h : Told s k) (h1 : a.told = (s.act i).told) (h2 : a.isOpen = (s.act i).isOpen)
    (h3 : ∀ m ∈ (s.act i).sys, m ∈ a.sys) (h4 : ∀ m ∈ (s.act i).usr, m ∈ a.usr) : Told (s.upd i a) k := by
  simp only [Told, upd_act] at h ⊢
  split
  · rename_i hp; subst hp; rw [h1, h2]
    rcases h with h | h | h | h
    · exact .inl (h3 _ h)
    · exact .inr (.inl (h4 _ h))
    · exact .inr (.inr (.inl h))
    · exact .inr (.inr (.inr h))
  · exact h

theorem pushSys_sub (a : Act) (ms : List Msg) : ∀ m ∈ a.sys, m ∈ (a.pushSys ms).sys := by
  intro m hm; unfold Act.pushSys; split <;> simp [hm]
theorem pushUsr_sub (a : Act) (ms : List Msg) : ∀ m ∈ a.usr, m ∈ (a.pushUsr ms).usr := by
  intro m hm; unfold Act.pushUsr; split <;> simp [hm]

theorem Told_step (s : St) (a : Action) (s' : St) (k : Nat) (hk : k < s.n) (h : Told s k) (hstep : step s a = some s') : Told s' k ∧ k < s'.n := by
  cases a with
  | create p path ok =>
    simp only [step] at hstep
    split at hstep
    · simp only [Option.some.injEq] at hstep
      subst hstep
      refine ⟨?_, by simp; omega⟩
      have := Told_upd s p k ((s.act p).pushSys [.attach ⟨s.n, path⟩]) h (by simp) (by simp) (pushSys_sub _ _) (by simp)
      simp only [Told, St.upd] at this ⊢
      rw [if_neg (show ¬ k = s.n by omega)]
      exact this
    · simp at hstep
  | send i m =>
    simp only [step] at hstep
    split at hstep
    · simp only [Option.some.injEq] at hstep
      subst hstep
      refine ⟨?_, hk⟩
      cases m
      case stop => exact Told_upd _ _ _ _ h (by simp) (by simp) (pushSys_sub _ _) (by simp)
      case stopAfterChildren => exact Told_upd _ _ _ _ h (by simp) (by simp) (pushSys_sub _ _) (by simp)
      case unwatch => exact Told_upd _ _ _ _ h (by simp) (by simp) (pushSys_sub _ _) (by simp)
      case pill => exact Told_upd _ _ _ _ h (by simp) (by simp) (by simp) (pushUsr_sub _ _)
      case user => exact Told_upd _ _ _ _ h (by simp) (by simp) (by simp) (pushUsr_sub _ _)
    · simp at hstep
  | watch w i =>
    simp only [step] at hstep
    split at hstep
    · split at hstep <;> simp only [Option.some.injEq] at hstep <;> subst hstep
      · exact ⟨Told_upd _ _ _ _ h (by simp) (by simp) (pushSys_sub _ _) (by simp), hk⟩
      · exact ⟨Told_upd _ _ _ _ h (by simp) (by simp) (by simp) (pushUsr_sub _ _), hk⟩
    · simp at hstep
  | runSys i =>
    simp only [step] at hstep
    split at hstep
    · rename_i hc
      simp at hc
      split at hstep
      · simp at hstep
      · rename_i m ms hms
        simp only [Option.some.injEq] at hstep
        subst hstep
        exact ⟨Told_procMsg _ _ _ _ _ _ h ⟨by rw [hms]; simp, fun _ h => .inr h⟩ hc.2, hk⟩
    · simp at hstep
  | runUsr i =>
    simp only [step] at hstep
    split at hstep
    · rename_i hc
      simp at hc
      split at hstep
      · simp at hstep
      · rename_i m ms hms
        simp only [Option.some.injEq] at hstep
        subst hstep
        exact ⟨Told_procMsg _ _ _ _ _ _ h ⟨by rw [hc.2]; simp, by rw [hms]; simp⟩ hc.1.1.2, hk⟩
    · simp at hstep

theorem Told_run {s s' : St} {as : List Action} (h : GoodRun s as s') (k : Nat) (hk : k < s.n) (ht : Told s k) : Told s' k ∧ k < s'.n := by
  induction h with
  | nil => exact ⟨ht, hk⟩
  | cons _ hst _ ih =>
    obtain ⟨h1, h2⟩ := Told_step _ _ _ k hk ht hst
    exact ih h2 h1

/-- **C45**, liveness: an actor which was told to stop (by `stop` or a poison pill, whatever its subtree looks like and
whatever else happens before or after) has stopped whenever the system comes to rest. -/
theorem C45_stop_completes_partial (as bs : List Action) (s1 s2 s : St) (i : Nat) (m : Ext) (hm : m = .stop ∨ m = .pill)
    (h1 : GoodRun St.init as s1) (hg : Good s1 (.send i m)) (hsend : step s1 (.send i m) = some s2) (h2 : GoodRun s2 bs s)
    (hq : Quiescent s) : (s.act i).isOpen = false := by
  obtain ⟨g1, g2, g3, g4, g5⟩ := good h1
  obtain ⟨k1, k2⟩ := G_step _ _ _ g1 g2 g3 g5 hg hsend
  obtain ⟨k3, k4⟩ := inv_step _ _ _ g2 g3 hsend
  obtain ⟨hG, hL, hS, hQ, -⟩ := goodRun_inv h2 k1 k3 k4 (Q_step _ _ _ g4 hsend) k2
  have ht : Told s2 i ∧ i < s2.n := by
    simp only [step] at hsend
    split at hsend
    · simp only [Option.some.injEq] at hsend
      subst hsend
      refine ⟨?_, by simpa using (by assumption)⟩
      rcases hm with rfl | rfl
      · simp only [Told, upd_act, if_true]
        cases ho : (s1.act i).isOpen <;> simp [Act.pushSys, ho]
      · simp only [Told, upd_act, if_true]
        cases ho : (s1.act i).isOpen <;> simp [Act.pushUsr, ho]
    · simp at hsend
  obtain ⟨t, hi⟩ := Told_run h2 i ht.2 ht.1
  cases ho : (s.act i).isOpen with
  | false => rfl
  | true =>
    obtain ⟨q1, q2⟩ := quiescent_empty s hq i hi ho
    rcases t with t | t | t | t
    · rw [q1] at t; simp at t
    · have hst : (s.act i).cell.started = true := by
        rcases Nat.eq_zero_or_pos i with h0 | h0
        · subst h0; exact hG.rootS ho
        · cases hp : (s.act i).cell.hasParent with
          | true =>
            rcases hG.startd i hi hp ho with h | h
            · exact h
            · rw [q1] at h; simp at h
          | false =>
            obtain ⟨p, hpp⟩ := hG.parS i hi h0
            exact absurd t (hG.pend i hi h0 hp (alive_of_open hG hi ho) p hpp).2.2.2.2.2.2.1
      rw [q2 hst] at t; simp at t
    · rw [← ho]
      exact (quiescent_told s hG hL hQ (fun i hi ho => quiescent_empty s hq i hi ho) (s.n - i) i (Nat.le_refl _) hi t)
    · rw [ho] at t; simp at t

/-- **C45**, liveness of `stop_after_children` (and of every other way of stopping): when the system is at rest, an actor that is
still waiting to stop has a child that is still running. -/
theorem C45_waits_only_for_running_children_partial (as : List Action) (s : St) (h : GoodRun St.init as s) (hq : Quiescent s)
    (i : Nat) (hi : i < s.n) (ho : (s.act i).isOpen = true) (hs : (s.act i).cell.stopping = true) :
    ∃ j, j < s.n ∧ (s.act j).parent = some i ∧ (s.act j).isOpen = true := by
  obtain ⟨hG, hL, hS, hQ, -⟩ := good h
  obtain ⟨ch, hch⟩ := List.exists_mem_of_ne_nil _ (hQ i ho hs)
  obtain ⟨c0, cn, cpar, -⟩ := hG.chd i hi ch hch
  refine ⟨ch.id, cn, cpar, ?_⟩
  cases hco : (s.act ch.id).isOpen with
  | true => rfl
  | false =>
    have := hG.det i hi ho ch.path
    rw [(quiescent_empty s hq i hi ho).1] at this
    have hp : 0 < (s.act i).cell.children.countP (fun x => decide (x.path = ch.path) && !(s.act x.id).isOpen) :=
      List.countP_pos_iff.2 ⟨ch, hch, by simp [hco]⟩
    simp only [List.count_nil] at this
    omega

/-! ### C46 -/

/-- **C46**, whole tree: in a well-behaved environment the cell of a running actor is never destroyed. -/
theorem C46_no_running_actor_destroyed_partial (as : List Action) (s : St) (h : GoodRun St.init as s) : s.ub = false :=
  (good h).2.2.2.2

/-! ### C44, `watch` after the stop -/

/-- **C44**: watching an actor whose cell is gone puts exactly one `terminated` message into the watcher's mailbox at once. -/
theorem C44_watch_destroyed_partial (s s' : St) (w i : Nat) (ha : (s.act i).alive = false) (ho : (s.act w).isOpen = true)
    (h : step s (.watch w i) = some s') :
    (s'.act w).usr = (s.act w).usr ++ [terminatedMsg i] ∧ ∀ k, k ≠ w → s'.act k = s.act k := by
  simp only [step, ha] at h
  split at h
  · simp only [Bool.false_eq_true, if_false, Option.some.injEq] at h
    subst h
    refine ⟨by simp [upd_act, Act.pushUsr, ho], fun k hk => by simp [upd_act, hk]⟩
  · simp at h

/-! ### Non-vacuity -/

/-- Two levels: `1` below the root, `2` and `3` below `1`. -/
def sampleTree : List Action :=
  [.create 0 10 true, .runSys 0, .runSys 1, .create 1 20 true, .create 1 21 true, .runSys 1, .runSys 1, .runSys 2, .runSys 3]

/-- Stopping the root of the sample tree. -/
def sampleStop : List Action :=
  [.runSys 0, .runUsr 1, .runSys 1, .runUsr 3, .runSys 3, .runUsr 2, .runSys 2, .runSys 1, .runSys 1, .runSys 0]

theorem goodRun_append {s s1 s' : St} {as bs : List Action} (h : GoodRun s as s1) (h' : GoodRun s1 bs s') : GoodRun s (as ++ bs) s' := by
  induction h with
  | nil => exact h'
  | cons h1 h2 _ ih => exact .cons h1 h2 (ih h')

instance (s : St) (a : Action) : Decidable (Good s a) := by
  cases a with
  | create p path ok => unfold Good; infer_instance
  | send i m => cases m <;> unfold Good <;> infer_instance
  | watch w i => exact isTrue trivial
  | runSys i => exact isTrue trivial
  | runUsr i => exact isTrue trivial

def goodRun? (s : St) : List Action → Option St
  | [] => some s
  | a :: as => if Good s a then (step s a).bind fun s' => goodRun? s' as else none

theorem goodRun?_sound (as : List Action) : ∀ s s', goodRun? s as = some s' → GoodRun s as s' := by
  induction as with
  | nil => intro s s' h; simp [goodRun?] at h; subst h; exact .nil _
  | cons a as ih =>
    intro s s' h
    simp only [goodRun?] at h
    split at h
    · rename_i hg
      cases hst : step s a with
      | none => rw [hst] at h; simp at h
      | some s1 => rw [hst] at h; exact .cons hg hst (ih _ _ h)
    · simp at h

example : ((goodRun? St.init sampleTree).map fun s => (s.n, (List.range 4).map fun i => ((s.act i).isOpen, (s.act i).cell.started))) =
    some (4, [(true, true), (true, true), (true, true), (true, true)]) := by decide +kernel

/-- After the stop everything is closed, `post_stop` of `1` came after those of `2` and `3`, and the system is at rest. -/
example : ((goodRun? St.init (sampleTree ++ [.send 0 .stop] ++ sampleStop)).map fun s =>
    (s.ub, (List.range 4).map fun i => ((s.act i).isOpen, (s.act i).alive, lifecycle (s.act i).log))) =
    some (false, [(false, true, [.preStart true, .postStop]), (false, false, [.preStart true, .postStop]),
      (false, false, [.preStart true, .postStop]), (false, false, [.preStart true, .postStop])]) := by decide +kernel

example : ((goodRun? St.init (sampleTree ++ [.send 0 .stop] ++ sampleStop)).map fun s =>
    (List.range s.n).all (fun i => (step s (.runSys i)).isNone && (step s (.runUsr i)).isNone)) = some true := by decide +kernel

/-! ### Violations -/

/-- At rest, for the finitely many actors that exist. -/
theorem quiescent_of (s : St) (h : ∀ i < s.n, step s (.runSys i) = none ∧ step s (.runUsr i) = none) : Quiescent s := by
  intro i
  by_cases hi : i < s.n
  · exact h i hi
  · simp [step, hi]

theorem quiescent_of' (s : St)
    (h : (List.range s.n).all (fun i => (step s (.runSys i)).isNone && (step s (.runUsr i)).isNone) = true) : Quiescent s := by
  refine quiescent_of s fun i hi => ?_
  simpa using List.all_eq_true.1 h i (List.mem_range.2 hi)

/-- The system is at rest although the root was told to stop and has not stopped. -/
def Hangs (s : St) : Prop :=
  (s.act 0).cell.stopping = true ∧ (s.act 0).isOpen = true ∧ Quiescent s ∧ ∀ j, 0 < j → j < s.n → (s.act j).isOpen = false

/-- Executable check of `Hangs`. -/
def hangs? (s : St) : Bool :=
  (s.act 0).cell.stopping && (s.act 0).isOpen &&
  (List.range s.n).all (fun i => (step s (.runSys i)).isNone && (step s (.runUsr i)).isNone) &&
  (List.range s.n).all (fun i => i == 0 || !(s.act i).isOpen)

theorem hangs_of (s : St) (h : hangs? s = true) : Hangs s := by
  simp only [hangs?, Bool.and_eq_true, List.all_eq_true, List.mem_range, Option.isNone_iff_eq_none, Bool.or_eq_true, beq_iff_eq,
    Bool.not_eq_true'] at h
  obtain ⟨⟨⟨h1, h2⟩, h3⟩, h4⟩ := h
  refine ⟨h1, h2, quiescent_of s h3, fun j h0 hj => ?_⟩
  rcases h4 j hj with h | h
  · omega
  · exact h

/-- **C45 is violated** when a child's `pre_start` fails: the child closes without telling its parent, and a parent told to stop
waits for ever although it has no running child. -/
theorem C45_failed_start_hangs_violated :
    ∃ s, run St.init [.create 0 10 false, .runSys 0, .runSys 1, .send 0 .stop, .runSys 0] = some s ∧ Hangs s := by
  refine ⟨_, rfl, hangs_of _ ?_⟩
  decide +kernel

/-- **C45 is violated** when an actor is stopped right after its creation, before its parent has attached it. -/
theorem C45_stop_before_attach_hangs_violated :
    ∃ s, run St.init [.create 0 10 true, .send 1 .stop, .runSys 1, .runSys 0, .send 0 .stop, .runSys 0] = some s ∧ Hangs s := by
  refine ⟨_, rfl, hangs_of _ ?_⟩
  decide +kernel

/-- **C46 is violated** for two actors of the same name: stopping the second one destroys the first, which is running. -/
theorem C46_same_name_destroys_running_violated :
    ∃ s, run St.init [.create 0 10 true, .create 0 10 true, .runSys 0, .runSys 0, .runSys 1, .runSys 2, .send 2 .stop, .runSys 2, .runSys 0] =
      some s ∧ s.ub = true ∧ (s.act 1).alive = false ∧ .postStop ∉ (s.act 1).log ∧ (s.act 2).alive = true := by
  refine ⟨_, rfl, ?_⟩
  decide +kernel

/-- **C44 is violated** for a `watch` between the end of an actor and the destruction of its cell: actor `2` watches actor `1`
after `1` has run its `post_stop`; when everything has come to rest, `2` is running and was never told. -/
theorem C44_lost_watch_violated :
    ∃ s, run St.init [.create 0 10 true, .create 0 11 true, .runSys 0, .runSys 0, .runSys 1, .runSys 2, .send 1 .stop, .runSys 1,
        .watch 2 1, .runSys 0] = some s ∧ Quiescent s ∧ (s.act 2).isOpen = true ∧ (s.act 1).alive = false ∧
      lifecycle (s.act 2).log = [.preStart true] ∧ (s.act 2).usr = [] := by
  refine ⟨_, rfl, quiescent_of' _ ?_, ?_⟩ <;> decide +kernel

end Verif.ActorTree
