import Verif.Lemmas.ActorTree4
set_option autoImplicit false

namespace Verif.ActorTree
open Verif.ActorCell

theorem alive_of_open {s : St} (h : GInv s) {i : Nat} (hi : i < s.n) (ho : (s.act i).isOpen = true) : (s.act i).alive = true := by
  cases hx : (s.act i).alive with
  | true => rfl
  | false => have := h.dead i hi hx; rw [ho] at this; simp at this

theorem not_mem_tail (s : St) (i : Nat) (c : Child) (ms : List Msg) (hL : LInv s) (hi : i < s.n)
    (hm : (s.act i).sys = .attach c :: ms) (ch : Child) (hid : ch.id = c.id) : .attach ch ∉ ms := by
  intro hx
  have := hL.cnt i hi c.id
  rw [hm, List.countP_cons] at this
  have hp : 0 < ms.countP (carries c.id) := List.countP_pos_iff.2 ⟨_, hx, by simp [carries, hid]⟩
  rw [if_pos (by simp [carries])] at this
  omega

theorem GInv_attach (s : St) (i : Nat) (c : Child) (ms : List Msg) (h : GInv s) (hL : LInv s) (hi : i < s.n)
    (ho : (s.act i).isOpen = true) (hm : (s.act i).sys = .attach c :: ms) :
    GInv (procMsg s i (.attach c) ms (s.act i).usr) ∧
      (s.ub = false → (procMsg s i (.attach c) ms (s.act i).usr).ub = false) := by
  have hia := alive_of_open h hi ho
  have hcm : .attach c ∈ (s.act i).sys := by rw [hm]; simp
  obtain ⟨c0, cn, chp, cpar⟩ := hL.att i hi c hcm
  obtain ⟨cpath, cal⟩ := h.attP i hi c hcm hia
  obtain ⟨t1, t2, t3, t4, t5, t6, t7, t8⟩ := h.pend c.id cn c0 chp cal i cpar
  have hic : i < c.id := hL.par _ cn _ cpar
  have hne : c.id ≠ i := by omega
  cases hst : (s.act i).cell.stopping with
  | false =>
    have hpr : process (s.act i).cell (.attach c) = ({ (s.act i).cell with children := (s.act i).cell.children ++ [c] }, [.startTo c], false) := by
      simp [process, hst]
    have hkl : ∀ k, killed (mid s i (.attach c) ms (s.act i).usr) [.startTo c] k = false := fun k => by simp [killed, kills]
    have had : ∀ k, ([Eff.startTo c]).any (adopts k) = decide (k = c.id) := by
      intro k; simp [adopts]; rw [Bool.eq_iff_iff]; simp; exact eq_comm
    have hus : ∀ k, ([Eff.startTo c]).filterMap (usrTo i k) = [] := fun k => by simp [usrTo]
    have hsy : ∀ k, ([Eff.startTo c]).filterMap (sysTo (mid s i (.attach c) ms (s.act i).usr) i k) =
        if k = c.id then [.start true] else [] := by
      intro k
      by_cases hk : k = c.id
      · subst hk
        have := h.ok c.id cn
        simp [sysTo, mid_ne _ _ _ _ _ _ hne, this]
      · have hk' : ¬ c.id = k := fun h => hk h.symm
        simp [sysTo, hk, hk']
    refine ⟨?_, fun hu => ?_⟩
    · refine GInv_accepts (i := i) (c := c) h hL ?_
      constructor
      case n => rfl
      case hi => exact hi
      case hne => exact hne
      case hc => exact hcm
      case io => exact ho
      case ns => exact hst
      case cpar => exact cpar
      case chp => exact chp
      case c0 => exact c0
      case cn => exact cn
      case same =>
        intro k
        rw [procMsg_act]
        simp only [deliver_isOpen, deliver_alive, deliver_parent, deliver_path, deliver_ok, deliver_stopping, deliver_told,
          deliver_started, deliver_usr, hpr, hkl, hus]
        by_cases hk : k = i
        · subst hk; simp [mid_self, hpr, ho]
        · simp [mid_ne _ _ _ _ _ _ hk]
      case hp =>
        intro k
        rw [procMsg_act, deliver_hasParent]
        simp only [hpr, hkl, had]
        by_cases hk : k = i
        · subst hk; simp [mid_self, hpr]
        · simp [mid_ne _ _ _ _ _ _ hk]
      case ch =>
        intro k
        rw [procMsg_act, deliver_children]
        by_cases hk : k = i
        · subst hk; simp [mid_self, hpr]
        · simp [mid_ne _ _ _ _ _ _ hk, hk]
      case sysI =>
        intro m
        rw [procMsg_act, deliver_sys]
        simp only [hpr, hkl, hsy, if_neg hne.symm, List.append_nil]
        simp only [mid_self, ite_self, hm]
        constructor
        · intro hx
          refine ⟨by simp [hx], ?_⟩
          rintro rfl
          exact not_mem_tail s i c ms hL hi hm c rfl hx
        · rintro ⟨hx, hx'⟩
          rcases List.mem_cons.1 hx with hx | hx
          · exact absurd hx hx'
          · exact hx
      case cntI =>
        intro d
        rw [procMsg_act, deliver_sys]
        simp only [hpr, hkl, hsy, if_neg hne.symm, List.append_nil]
        simp only [mid_self, ite_self, hm, List.count_cons]
        simp
      case sysC =>
        rw [procMsg_act, deliver_sys]
        simp only [hpr, hkl, hsy, mid_ne _ _ _ _ _ _ hne, t3]
        simp
      case sys =>
        intro k hk hkc
        rw [procMsg_act, deliver_sys]
        simp only [hpr, hkl, hsy, mid_ne _ _ _ _ _ _ hk, if_neg hkc]
        simp
    · show (s.ub || _) = false
      rw [hu, hpr]
      simp [breaks]
  | true =>
    have hpr : process (s.act i).cell (.attach c) = ((s.act i).cell, [.destroy c], false) := by
      simp [process, hst]
    have hkl : ∀ k, killed (mid s i (.attach c) ms (s.act i).usr) [.destroy c] k = decide (k = c.id) := by
      intro k
      simp only [killed, List.any_cons, List.any_nil, Bool.or_false, kills, mid_ne _ _ _ _ _ _ hne]
      have : (s.act c.id).sys.any (carries k) = false := by
        rw [List.any_eq_false]
        intro m hmm
        have := t8 m hmm
        cases m <;> simp_all [isWatchMsg, carries]
      rw [this, Bool.or_false, Bool.eq_iff_iff]
      simp
      exact eq_comm
    have hus : ∀ k, ([Eff.destroy c]).filterMap (usrTo i k) = [] := fun k => by simp [usrTo]
    have had : ∀ k, ([Eff.destroy c]).any (adopts k) = false := fun k => by simp [adopts]
    have hsy : ∀ k, ([Eff.destroy c]).filterMap (sysTo (mid s i (.attach c) ms (s.act i).usr) i k) = [] := fun k => by simp [sysTo]
    have hsysI : ((procMsg s i (.attach c) ms (s.act i).usr).act i).sys = ms := by
      rw [procMsg_act, deliver_sys]
      simp only [hpr, hsy, List.append_nil, ite_self, mid_self]
    have hchs : ∀ k, ((procMsg s i (.attach c) ms (s.act i).usr).act k).cell.children = (s.act k).cell.children := by
      intro k
      rw [procMsg_act, deliver_children]
      by_cases hk : k = i
      · subst hk; simp [mid_self, hpr]
      · simp [mid_ne _ _ _ _ _ _ hk]
    have hother : ∀ k, k ≠ i → ((procMsg s i (.attach c) ms (s.act i).usr).act k).sys = (s.act k).sys := by
      intro k hk
      rw [procMsg_act, deliver_sys]
      simp only [hpr, hsy, List.append_nil, ite_self, mid_ne _ _ _ _ _ _ hk]
    have halive : ∀ k, ((procMsg s i (.attach c) ms (s.act i).usr).act k).alive = ((s.act k).alive && !decide (k = c.id)) := by
      intro k
      rw [procMsg_act, deliver_alive]
      simp only [hpr, hkl]
      by_cases hk : k = i
      · subst hk; simp [mid_self]
      · simp [mid_ne _ _ _ _ _ _ hk]
    refine ⟨?_, fun hu => ?_⟩
    · refine GInv_kills (i := i) (kd := fun k => decide (k = c.id)) h ?_
      constructor
      case n => rfl
      case same =>
        intro k
        rw [procMsg_act]
        simp only [deliver_hasParent, deliver_parent, deliver_path, deliver_ok, deliver_stopping, deliver_told,
          deliver_started, deliver_usr, hpr, had, hus]
        by_cases hk : k = i
        · subst hk; simp [mid_self, hpr]
        · simp [mid_ne _ _ _ _ _ _ hk]
      case opn =>
        intro k
        rw [procMsg_act, deliver_isOpen]
        simp only [hpr, hkl]
        by_cases hk : k = i
        · subst hk; simp [mid_self, hpr, ho]
        · simp [mid_ne _ _ _ _ _ _ hk]
      case alive => exact halive
      case other => intro k hk; exact ⟨hother k hk, hchs k⟩
      case sys =>
        intro m hmd hma
        rw [hsysI, hm]
        have : m ≠ .attach c := by
          rintro rfl
          have := hma c rfl
          simp at this
        simp [this]
      case attsub => intro m hx; rw [hsysI] at hx; rw [hm]; simp [hx]
      case chsub => intro ch hx; rwa [hchs] at hx
      case chNd => rw [hchs]; exact h.chNd i hi
      case chkd =>
        intro p hp ch hx
        rw [hchs] at hx
        have := (h.chd p hp ch hx).2.2.2.2.1
        simp
        intro hid
        rw [hid, chp] at this; simp at this
      case chkeep => intro ch hx _; rwa [hchs]
      case att =>
        intro p hp ch hx hal
        simp
        intro hid
        by_cases hpi : p = i
        · subst hpi
          rw [hsysI] at hx
          exact not_mem_tail s p c ms hL hi hm ch hid hx
        · rw [hother p hpi] at hx
          have := (hL.att p hp ch hx).2.2.2
          rw [hid, cpar] at this
          simp at this
          exact hpi this.symm
      case pend =>
        intro j hj h0 hp ha hk p hpp
        obtain ⟨u1, u2, u3, u4, u5, u6, u7, u8⟩ := h.pend j hj h0 hp ha p hpp
        simp
        rintro rfl
        have := t8 _ u1
        simp [isWatchMsg] at this
      case nokill => simp; exact hne.symm
      case leaf =>
        intro k hk hkd _
        simp at hkd
        subst hkd
        rw [hchs]; exact t5
      case det =>
        intro _ q
        rw [hsysI, hchs, ← h.det i hi ho q, hm, List.count_cons]
        simp
    · show (s.ub || _) = false
      rw [hu, hpr]
      simp [breaks, upd_act, hne, t4]

/-- `stop`, `stop_after_children` without children. -/
theorem GInv_stop (s : St) (i : Nat) (m : Msg) (ms : List Msg) (h : GInv s) (hi : i < s.n)
    (ho : (s.act i).isOpen = true) (hm : (s.act i).sys = m :: ms) (hms : m = .stop ∨ m = .stopAfterChildren)
    (hch : (s.act i).cell.children = []) :
    GInv (procMsg s i m ms (s.act i).usr) ∧
      (s.ub = false → (procMsg s i m ms (s.act i).usr).ub = false) := by
  have hia := alive_of_open h hi ho
  have hpr : process (s.act i).cell m = ((stopImpl (s.act i).cell).1, [] ++ (stopImpl (s.act i).cell).2, true) := by
    rcases hms with rfl | rfl <;> simp [process, hch]
  refine ⟨GInv_closes h (closes_procMsg s s i m ms (s.act i).usr [] _ hi ho (.inr rfl) hpr (by simp) (by simp [killed]) hch
    ?_ hia ?_ rfl ?_ ?_ ?_ ?_), ?_⟩
  · intro h0
    cases hp : (s.act i).cell.hasParent with
    | true => rfl
    | false =>
      obtain ⟨p, hpp⟩ := h.parS i hi h0
      have := (h.pend i hi h0 hp hia p hpp).2.2.2.2.2.2.2 m (by rw [hm]; simp)
      rcases hms with rfl | rfl <;> simp [isWatchMsg] at this
  · intro h0; subst h0; exact h.root
  · simp [ho]
  · intro ch; rw [hm]; rcases hms with rfl | rfl <;> simp
  · intro x hx; rw [hm]; simp [hx]
  · intro k hk; simp [killed]
  · intro hu
    show (s.ub || _) = false
    rw [hu, hpr]
    simp only [Bool.false_or, List.nil_append]
    rw [List.any_eq_false]
    intro e he
    simp [stopImpl] at he
    rcases he with ⟨_, rfl⟩ | ⟨w, _, rfl⟩ | ⟨_, rfl⟩ <;> simp [breaks]

theorem quiet_ub (s : St) (i : Nat) (m : Msg) (sys' usr' : List Msg) (hq : quietMsg (s.act i).cell m = true) (hu : s.ub = false) :
    (procMsg s i m sys' usr').ub = false := by
  obtain ⟨-, hl, -⟩ := quietMsg_process _ _ hq
  show (s.ub || _) = false
  rw [hu, Bool.false_or, List.any_eq_false]
  intro e he
  have := hl e he
  cases e <;> simp_all [Eff.light, breaks]

theorem G_step (s : St) (a : Action) (s' : St) (h : GInv s) (hL : LInv s) (hS : SInv s) (hu : s.ub = false) (hg : Good s a)
    (hstep : step s a = some s') : GInv s' ∧ s'.ub = false := by
  cases a with
  | create p path ok =>
    simp only [step] at hstep
    split at hstep
    · rename_i hc
      simp at hc
      simp only [Option.some.injEq] at hstep
      subst hstep
      obtain ⟨rfl, hun⟩ := hg
      exact ⟨GInv_create s p path h hL hc.1.1 hc.1.2 hun hc.2, hu⟩
    · simp at hstep
  | send i m =>
    simp only [step] at hstep
    split at hstep
    · simp only [Option.some.injEq] at hstep
      subst hstep
      refine ⟨GInv_quiet (i := i) h ?_, hu⟩
      cases m with
      | stop =>
        refine quiet_push s i _ [] [.stop] (by simp) (by simp) ?_ (.inr rfl)
        intro m hm h0 hp
        rcases hg with hg | hg
        · omega
        · rw [hp] at hg; simp at hg
      | stopAfterChildren =>
        refine quiet_push s i _ [] [.stopAfterChildren] (by simp) (by simp) ?_ (.inr rfl)
        intro m hm h0 hp
        rcases hg with hg | hg
        · omega
        · rw [hp] at hg; simp at hg
      | unwatch w => exact quiet_push s i _ [] [.unwatch w] (by simp) (by simp [isWatchMsg]) (by simp [isWatchMsg]) (.inr rfl)
      | pill =>
        refine quiet_push s i _ [.pill] [] ?_ (by simp) (by simp) (.inl rfl)
        intro m hm _ h0
        rcases hg with hg | hg
        · omega
        · exact hg
      | user m => exact quiet_push s i _ [plainMsg m] [] (by simp [plainMsg]) (by simp) (by simp) (.inl rfl)
    · simp at hstep
  | watch w i =>
    simp only [step] at hstep
    split at hstep
    · split at hstep
      · simp only [Option.some.injEq] at hstep
        subst hstep
        exact ⟨GInv_quiet (i := i) h (quiet_push s i _ [] [.watch w] (by simp) (by simp [isWatchMsg]) (by simp [isWatchMsg]) (.inr rfl)), hu⟩
      · simp only [Option.some.injEq] at hstep
        subst hstep
        exact ⟨GInv_quiet (i := w) h (quiet_push s w _ [terminatedMsg i] [] (by simp [terminatedMsg]) (by simp) (by simp) (.inl rfl)), hu⟩
    · simp at hstep
  | runSys i =>
    simp only [step] at hstep
    split at hstep
    · rename_i hc
      simp at hc
      split at hstep
      · simp at hstep
      · rename_i m ms hms
        simp only [Option.some.injEq] at hstep
        subst hstep
        have hp : isPlain m = false := hS i m (by rw [hms]; simp)
        have quiet : quietMsg (s.act i).cell m = true → GInv (procMsg s i m ms (s.act i).usr) ∧ (procMsg s i m ms (s.act i).usr).ub = false :=
          fun hq => ⟨GInv_quiet h (quiet_sys s i m ms hc.1 h hc.2 hms hq hp), quiet_ub s i m ms _ hq hu⟩
        cases m with
        | start ok =>
          have : ok = true := h.okst i hc.1 ok (by rw [hms]; simp)
          exact quiet this
        | stop =>
          by_cases hch : (s.act i).cell.children = []
          · obtain ⟨g1, g2⟩ := GInv_stop s i _ ms h hc.1 hc.2 hms (.inl rfl) hch
            exact ⟨g1, g2 hu⟩
          · exact quiet (by simp [quietMsg, hch])
        | stopAfterChildren =>
          by_cases hch : (s.act i).cell.children = []
          · obtain ⟨g1, g2⟩ := GInv_stop s i _ ms h hc.1 hc.2 hms (.inr rfl) hch
            exact ⟨g1, g2 hu⟩
          · exact quiet (by simp [quietMsg, hch])
        | watch w => exact quiet rfl
        | unwatch w => exact quiet rfl
        | attach c =>
          obtain ⟨g1, g2⟩ := GInv_attach s i c ms h hL hc.1 hc.2 hms
          exact ⟨g1, g2 hu⟩
        | detach d =>
          obtain ⟨g1, g2⟩ := GInv_detach s i d ms h hL hc.1 hc.2 hms
          exact ⟨g1, g2 hu⟩
        | user m => simp [isPlain] at hp
        | pill => simp [isPlain] at hp
    · simp at hstep
  | runUsr i =>
    simp only [step] at hstep
    split at hstep
    · rename_i hc
      simp at hc
      split at hstep
      · simp at hstep
      · rename_i m ms hms
        simp only [Option.some.injEq] at hstep
        subst hstep
        have hp : isPlain m = true := hL.usr i hc.1.1.1 m (by rw [hms]; simp)
        refine ⟨GInv_quiet h (quiet_usr s i m ms hc.1.1.2 hp hc.2 hc.1.2 hms), quiet_ub s i m _ _ ?_ hu⟩
        cases m <;> simp_all [isPlain, quietMsg]
    · simp at hstep

/-! ### A stopping actor has a child -/

theorem removeChild_Q (c : Cell) (m : Msg) (h : c.stopping = true → c.children ≠ []) (hc : (process c m).2.2 = false) :
    (process c m).1.stopping = true → (process c m).1.children ≠ [] := by
  cases m with
  | start ok => simpa [process] using h
  | stop => simp only [process] at hc ⊢; split <;> simp_all
  | stopAfterChildren => simp only [process] at hc ⊢; split <;> simp_all
  | watch w => simp only [process] at hc ⊢; split <;> simp_all
  | unwatch w => simpa [process] using h
  | attach ch => simp only [process] at hc ⊢; split <;> simp_all
  | detach p =>
    simp only [process] at hc ⊢
    split
    · rename_i hx; simp [hx] at hc
    · rename_i hx; simpa using hx
  | user m => simpa [process] using h
  | pill => simpa [process] using h

def QInv (s : St) : Prop := ∀ p, (s.act p).isOpen = true → (s.act p).cell.stopping = true → (s.act p).cell.children ≠ []

theorem Q_procMsg (s : St) (i : Nat) (m : Msg) (sys' usr' : List Msg) (h : QInv s) (ho : (s.act i).isOpen = true) : QInv (procMsg s i m sys' usr') := by
  intro p hpo hps
  rw [procMsg_act] at hpo hps ⊢
  rw [deliver_isOpen] at hpo
  rw [deliver_stopping] at hps
  rw [deliver_children]
  simp at hpo
  by_cases hp : p = i
  · subst hp
    rw [mid_self] at hpo hps ⊢
    simp at hpo
    exact removeChild_Q _ _ (h p ho) hpo.1 hps
  · rw [mid_ne _ _ _ _ _ _ hp] at hpo hps ⊢
    exact h p hpo.1 hps

theorem Q_upd (s : St) (i : Nat) (a : Act) (h : QInv s) (h1 : a.cell = (s.act i).cell) (h2 : a.isOpen = (s.act i).isOpen) : QInv (s.upd i a) := by
  intro p
  rw [upd_act]
  split
  · rename_i hp; subst hp; rw [h1, h2]; exact h p
  · exact h p

theorem Q_step (s : St) (a : Action) (s' : St) (h : QInv s) (hstep : step s a = some s') : QInv s' := by
  cases a with
  | create p path ok =>
    simp only [step] at hstep
    split at hstep
    · simp only [Option.some.injEq] at hstep
      subst hstep
      intro k
      have := Q_upd s p ((s.act p).pushSys [.attach ⟨s.n, path⟩]) h (by simp) (by simp) k
      simp only [St.upd] at this ⊢
      split
      · simp [Act.new, Cell.fresh]
      · exact this
    · simp at hstep
  | send i m =>
    simp only [step] at hstep
    split at hstep
    · simp only [Option.some.injEq] at hstep
      subst hstep
      cases m <;> exact Q_upd _ _ _ h (by simp) (by simp)
    · simp at hstep
  | watch w i =>
    simp only [step] at hstep
    split at hstep
    · split at hstep <;> simp only [Option.some.injEq] at hstep <;> subst hstep <;> exact Q_upd _ _ _ h (by simp) (by simp)
    · simp at hstep
  | runSys i =>
    simp only [step] at hstep
    split at hstep
    · rename_i hc
      simp at hc
      split at hstep
      · simp at hstep
      · simp only [Option.some.injEq] at hstep
        subst hstep
        exact Q_procMsg _ _ _ _ _ h hc.2
    · simp at hstep
  | runUsr i =>
    simp only [step] at hstep
    split at hstep
    · rename_i hc
      simp at hc
      split at hstep
      · simp at hstep
      · simp only [Option.some.injEq] at hstep
        subst hstep
        exact Q_procMsg _ _ _ _ _ h hc.1.1.2
    · simp at hstep

theorem goodRun_inv {s s' : St} {as : List Action} (h : GoodRun s as s') (hG : GInv s) (hL : LInv s) (hS : SInv s) (hQ : QInv s) (hu : s.ub = false) :
    GInv s' ∧ LInv s' ∧ SInv s' ∧ QInv s' ∧ s'.ub = false := by
  induction h with
  | nil => exact ⟨hG, hL, hS, hQ, hu⟩
  | cons hg hst _ ih =>
    obtain ⟨g1, g2⟩ := G_step _ _ _ hG hL hS hu hg hst
    obtain ⟨l1, l2⟩ := inv_step _ _ _ hL hS hst
    exact ih g1 l1 l2 (Q_step _ _ _ hQ hst) g2

theorem QInv_init : QInv St.init := by intro p _ h; simp [St.init, Act.root, Cell.fresh] at h

/-- In a quiescent state a told actor is closed. -/
theorem quiescent_told (s : St) (hG : GInv s) (hL : LInv s) (hQ : QInv s)
    (hq : ∀ i < s.n, (s.act i).isOpen = true → (s.act i).sys = [] ∧ ((s.act i).cell.started = true → (s.act i).usr = [])) :
    ∀ k i, s.n - i ≤ k → i < s.n → (s.act i).told = true → (s.act i).isOpen = false := by
  intro k
  induction k with
  | zero => intro i h1 h2; omega
  | succ k ih =>
    intro i hk hi ht
    cases ho : (s.act i).isOpen with
    | false => rfl
    | true =>
      exfalso
      have hne := hQ i ho (hG.told i hi ht)
      obtain ⟨ch, hch⟩ := List.exists_mem_of_ne_nil _ hne
      obtain ⟨c0, cn, cpar, cpath, chp, cal⟩ := hG.chd i hi ch hch
      have hlt := hL.par _ cn _ cpar
      cases hco : (s.act ch.id).isOpen with
      | false =>
        have := hG.det i hi ho ch.path
        rw [(hq i hi ho).1] at this
        have hp : 0 < (s.act i).cell.children.countP (fun x => decide (x.path = ch.path) && !(s.act x.id).isOpen) :=
          List.countP_pos_iff.2 ⟨ch, hch, by simp [hco]⟩
        simp only [List.count_nil] at this
        omega
      | true =>
        obtain ⟨q1, q2⟩ := hq ch.id cn hco
        rcases hG.pills i hi ho ht ch hch hco with hx | hx | hx
        · rcases hG.startd ch.id cn chp hco with hs | hs
          · rw [q2 hs] at hx; simp at hx
          · rw [q1] at hs; simp at hs
        · rw [q1] at hx; simp at hx
        · have := ih ch.id (by omega) cn hx
          rw [hco] at this; simp at this

end Verif.ActorTree
