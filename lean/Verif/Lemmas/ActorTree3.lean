import Verif.Lemmas.ActorTree2
set_option autoImplicit false

namespace Verif.ActorTree
open Verif.ActorCell

/-- The state between the update of actor `i` and the delivery of its effects. -/
def mid (s : St) (i : Nat) (m : Msg) (sys' usr' : List Msg) : St :=
  s.upd i { s.act i with cell := (process (s.act i).cell m).1, sys := sys', usr := usr', isOpen := !(process (s.act i).cell m).2.2, log := (s.act i).log ++ (process (s.act i).cell m).2.1, told := (s.act i).told || (m == .stop && !(process (s.act i).cell m).2.2) }

theorem procMsg_act (s : St) (i : Nat) (m : Msg) (sys' usr' : List Msg) (k : Nat) :
    (procMsg s i m sys' usr').act k = deliver (mid s i m sys' usr') i (process (s.act i).cell m).2.1 k := rfl

theorem mid_ne (s : St) (i : Nat) (m : Msg) (sys' usr' : List Msg) (k : Nat) (h : k ≠ i) :
    (mid s i m sys' usr').act k = s.act k := upd_ne _ _ h

theorem mid_self (s : St) (i : Nat) (m : Msg) (sys' usr' : List Msg) : (mid s i m sys' usr').act i =
    { s.act i with cell := (process (s.act i).cell m).1, sys := sys', usr := usr', isOpen := !(process (s.act i).cell m).2.2, log := (s.act i).log ++ (process (s.act i).cell m).2.1, told := (s.act i).told || (m == .stop && !(process (s.act i).cell m).2.2) } :=
  upd_self _ _ _

/-- Effects that only touch user queues, or send `stop` to the actor itself. -/
def Eff.light : Eff → Bool
  | .destroy _ => false
  | .startTo _ => false
  | .detachToParent => false
  | _ => true

theorem light_killed {s : St} {es : List Eff} (h : ∀ e ∈ es, Eff.light e = true) (k : Nat) : killed s es k = false := by
  unfold killed
  rw [List.any_eq_false]
  intro e he
  have := h e he
  cases e <;> simp_all [kills, Eff.light]

theorem light_adopts {es : List Eff} (h : ∀ e ∈ es, Eff.light e = true) (k : Nat) : es.any (adopts k) = false := by
  rw [List.any_eq_false]
  intro e he
  have := h e he
  cases e <;> simp_all [adopts, Eff.light]

theorem light_sysTo {s : St} {es : List Eff} {i k : Nat} (h : ∀ e ∈ es, Eff.light e = true) (hk : k ≠ i) :
    es.filterMap (sysTo s i k) = [] := by
  rw [List.filterMap_eq_nil_iff]
  intro e he
  have := h e he
  cases e <;> simp_all [sysTo, Eff.light]
  exact fun h => hk h.symm

/-- Fields after a step with light effects that does not close the actor. -/
theorem light_fields (s : St) (i : Nat) (m : Msg) (sys' usr' : List Msg) (ho : (s.act i).isOpen = true)
    (hc : (process (s.act i).cell m).2.2 = false) (hl : ∀ e ∈ (process (s.act i).cell m).2.1, Eff.light e = true) :
    let s' := procMsg s i m sys' usr'
    (∀ k, (s'.act k).isOpen = (s.act k).isOpen ∧ (s'.act k).alive = (s.act k).alive ∧
      (s'.act k).cell.hasParent = (s.act k).cell.hasParent ∧
      (s'.act k).parent = (s.act k).parent ∧ (s'.act k).path = (s.act k).path ∧ (s'.act k).ok = (s.act k).ok) ∧
    (∀ k, k ≠ i → (s'.act k).cell.started = (s.act k).cell.started ∧ (s'.act k).cell.children = (s.act k).cell.children ∧
      (s'.act k).cell.stopping = (s.act k).cell.stopping ∧ (s'.act k).told = (s.act k).told ∧ (s'.act k).sys = (s.act k).sys) ∧
    ((s'.act i).cell.started = (process (s.act i).cell m).1.started ∧
      (s'.act i).cell.children = (process (s.act i).cell m).1.children ∧
      (s'.act i).cell.stopping = (process (s.act i).cell m).1.stopping ∧
      (s'.act i).told = ((s.act i).told || (m == .stop)) ∧
      (s'.act i).sys = sys' ++ (process (s.act i).cell m).2.1.filterMap (sysTo (mid s i m sys' usr') i i)) ∧
    (∀ k, (s'.act k).usr = if (s.act k).isOpen then
      (if k = i then usr' else (s.act k).usr) ++ (process (s.act i).cell m).2.1.filterMap (usrTo i k) else (s.act k).usr) := by
  intro s'
  have hact : ∀ k, s'.act k = deliver (mid s i m sys' usr') i (process (s.act i).cell m).2.1 k := fun k => rfl
  have hkl := fun k => light_killed (s := mid s i m sys' usr') hl k
  refine ⟨?_, ?_, ?_, ?_⟩
  · intro k
    rw [hact]
    simp only [deliver_isOpen, deliver_alive, deliver_hasParent, deliver_parent, deliver_path, deliver_ok, hkl, light_adopts hl]
    by_cases hk : k = i
    · subst hk; simp [mid_self, hc, ho, process_hasParent]
    · simp [mid_ne _ _ _ _ _ _ hk]
  · intro k hk
    rw [hact]
    simp [deliver_sys, light_sysTo hl hk, mid_ne _ _ _ _ _ _ hk]
  · rw [hact]
    simp [deliver_sys, mid_self, hkl, hc]
  · intro k
    rw [hact, deliver_usr, hkl]
    by_cases hk : k = i
    · subst hk; simp [mid_self, hc, ho]
    · simp [mid_ne _ _ _ _ _ _ hk, hk]

/-- The messages that do not close, destroy or attach. -/
def quietMsg (c : Cell) : Msg → Bool
  | .start ok => ok
  | .stop => !c.children.isEmpty
  | .stopAfterChildren => !c.children.isEmpty
  | .watch _ => true
  | .unwatch _ => true
  | .user _ => true
  | .pill => true
  | _ => false

theorem quietMsg_process (c : Cell) (m : Msg) (h : quietMsg c m = true) :
    (process c m).2.2 = false ∧ (∀ e ∈ (process c m).2.1, Eff.light e = true) ∧ (process c m).1.children = c.children ∧
    ((process c m).1.started = (c.started || m.isStart)) ∧
    ((process c m).1.stopping = (c.stopping || decide (m = .stop) || decide (m = .stopAfterChildren))) := by
  cases m with
  | start ok => cases ok <;> simp_all [quietMsg, process, Eff.light, Msg.isStart]
  | stop => simp [quietMsg] at h; simp [process, h, Eff.light, Msg.isStart]
  | stopAfterChildren => simp [quietMsg] at h; simp [process, h, Msg.isStart]
  | watch w => simp only [process]; split <;> simp [Msg.isStart]
  | unwatch w => simp [process, Msg.isStart]
  | attach ch => simp [quietMsg] at h
  | detach p => simp [quietMsg] at h
  | user m => simp [process, Eff.light, Msg.isStart]
  | pill => simp [process, Eff.light, Msg.isStart]

theorem mem_pillTo (i k : Nat) (chs : List Child) : .pill ∈ (chs.map Eff.pillTo).filterMap (usrTo i k) ↔ ∃ ch ∈ chs, ch.id = k := by
  rw [List.mem_filterMap]
  constructor
  · rintro ⟨e, he, hk⟩
    rw [List.mem_map] at he
    obtain ⟨ch, hch, rfl⟩ := he
    simp only [usrTo] at hk
    split at hk
    · exact ⟨ch, hch, by assumption⟩
    · simp at hk
  · rintro ⟨ch, hch, hk⟩
    exact ⟨.pillTo ch, List.mem_map.2 ⟨ch, hch, rfl⟩, by simp [usrTo, hk]⟩

theorem quiet_sys (s : St) (i : Nat) (m : Msg) (ms : List Msg) (hi : i < s.n) (h : GInv s) (ho : (s.act i).isOpen = true)
    (hm : (s.act i).sys = m :: ms) (hq : quietMsg (s.act i).cell m = true) (hp : isPlain m = false) :
    Quiet s (procMsg s i m ms (s.act i).usr) i := by
  obtain ⟨q1, q2, q3, q4, q5⟩ := quietMsg_process _ _ hq
  obtain ⟨f1, f2, ⟨f3, f4, f5, f6, f7⟩, f8⟩ := light_fields s i m ms (s.act i).usr ho q1 q2
  have hself : (process (s.act i).cell m).2.1.filterMap (sysTo (mid s i m ms (s.act i).usr) i i) = [] := by
    cases m with
    | start ok => simp [process, sysTo]
    | stop => simp [quietMsg] at hq; simp [process, hq, sysTo]
    | stopAfterChildren => simp [quietMsg] at hq; simp [process, hq]
    | watch w => simp only [process]; split <;> simp
    | unwatch w => simp [process]
    | attach ch => simp [quietMsg] at hq
    | detach p => simp [quietMsg] at hq
    | user m => simp [isPlain] at hp
    | pill => simp [isPlain] at hp
  rw [hself, List.append_nil] at f7
  have hmono : ∀ k, .pill ∈ (s.act k).usr → .pill ∈ ((procMsg s i m ms (s.act i).usr).act k).usr := by
    intro k hk
    rw [f8]
    split
    · by_cases hki : k = i
      · subst hki; simp [hk]
      · simp [hki, hk]
    · exact hk
  constructor
  case n => rfl
  case same =>
    intro k
    obtain ⟨a1, a2, a3, a4, a5, a6⟩ := f1 k
    refine ⟨a1, a2, a3, ?_, a4, a5, a6⟩
    by_cases hk : k = i
    · subst hk; rw [f4, q3]
    · exact (f2 k hk).2.1
  case other =>
    intro k hk
    obtain ⟨b1, b2, b3, b4, b5⟩ := f2 k hk
    exact ⟨b1, b3, b4, b5⟩
  case det =>
    intro d
    rw [f7, hm, List.count_cons]
    have : (m == Msg.detach d) = false := by cases m <;> simp_all [quietMsg]
    simp [this]
  case att =>
    intro ch
    rw [f7, hm]
    have : m ≠ .attach ch := by cases m <;> simp_all [quietMsg]
    simp [this.symm]
  case okst => intro b hb; rw [f7] at hb; rw [hm]; simp [hb]
  case start =>
    intro hs
    rw [hm] at hs
    rw [f7, f3, q4]
    rcases List.mem_cons.1 hs with rfl | hs
    · exact .inr (by simp [Msg.isStart])
    · exact .inl hs
  case started => intro hs; rw [f3, q4, hs]; rfl
  case stop =>
    intro hs
    rw [hm] at hs
    rw [f7, f6]
    rcases List.mem_cons.1 hs with rfl | hs
    · exact .inr (by simp)
    · exact .inl hs
  case pill => intro k hk; exact .inl (hmono k hk)
  case pill' =>
    intro k hk
    rw [f8] at hk
    split at hk
    · rcases List.mem_append.1 hk with hk | hk
      · by_cases hki : k = i
        · subst hki; simp at hk; exact .inl hk
        · simp [hki] at hk; exact .inl hk
      · cases m with
        | start ok => simp [process, usrTo] at hk
        | stop =>
          simp [quietMsg] at hq
          simp only [process, List.isEmpty_iff, hq] at hk
          simp only [if_false] at hk
          rw [mem_pillTo] at hk
          obtain ⟨ch, hch, rfl⟩ := hk
          exact .inr (.inl (h.chd i hi ch hch).2.2.2.2.1)
        | stopAfterChildren => simp [quietMsg] at hq; simp [process, hq] at hk
        | watch w => simp only [process] at hk; split at hk <;> simp at hk
        | unwatch w => simp [process] at hk
        | attach ch => simp [quietMsg] at hq
        | detach p => simp [quietMsg] at hq
        | user m => simp [isPlain] at hp
        | pill => simp [isPlain] at hp
    · exact .inl hk
  case told => intro ht; rw [f6, ht]; rfl
  case toldS =>
    intro ht
    rw [f6] at ht
    simp at ht
    rcases ht with ht | ht
    · exact .inl ht
    · subst ht
      right
      refine ⟨by rw [f5, q5]; simp, ?_⟩
      intro ch hch hco
      rw [f8, hco]
      have : .pill ∈ (process (s.act i).cell .stop).2.1.filterMap (usrTo i ch.id) := by
        simp [quietMsg] at hq
        simp only [process, List.isEmpty_iff, hq, if_false]
        rw [mem_pillTo]
        exact ⟨ch, hch, rfl⟩
      simp only [if_true]
      exact List.mem_append_right _ this
  case stopping => intro hs; rw [f5, q5, hs]; rfl
  case pend =>
    intro h0 hpar hw hst hs
    have hmw := hw m (by rw [hm]; simp)
    rw [f3, q4, f5, q5, f7, hs, hst]
    refine ⟨?_, ?_, fun x hx => hw x (by rw [hm]; simp [hx])⟩
    · cases m <;> simp_all [isWatchMsg, Msg.isStart]
    · cases m <;> simp_all [isWatchMsg]

theorem quiet_usr (s : St) (i : Nat) (m : Msg) (ms : List Msg) (ho : (s.act i).isOpen = true) (hp : isPlain m = true)
    (hs : (s.act i).sys = []) (hst : (s.act i).cell.started = true) (hm : (s.act i).usr = m :: ms) :
    Quiet s (procMsg s i m [] ms) i := by
  have hq : quietMsg (s.act i).cell m = true := by cases m <;> simp_all [isPlain, quietMsg]
  obtain ⟨q1, q2, q3, q4, q5⟩ := quietMsg_process _ _ hq
  obtain ⟨f1, f2, ⟨f3, f4, f5, f6, f7⟩, f8⟩ := light_fields s i m [] ms ho q1 q2
  have hself : (process (s.act i).cell m).2.1.filterMap (sysTo (mid s i m [] ms) i i) = if m = .pill then [.stop] else [] := by
    cases m with
    | user m => simp [process, sysTo]
    | pill => simp [process, sysTo]
    | _ => simp [isPlain] at hp
  have husr : ∀ k, (process (s.act i).cell m).2.1.filterMap (usrTo i k) = [] := by
    intro k
    cases m with
    | user m => simp [process, usrTo]
    | pill => simp [process, usrTo]
    | _ => simp [isPlain] at hp
  rw [hself, List.nil_append] at f7
  have hmst : (m == Msg.stop) = false := by cases m <;> simp_all [isPlain]
  have hmsa : (m == Msg.stopAfterChildren) = false := by cases m <;> simp_all [isPlain]
  have hmis : m.isStart = false := by cases m <;> simp_all [isPlain, Msg.isStart]
  have hno : ∀ x ∈ (if m = Msg.pill then [Msg.stop] else []), x = .stop := by
    intro x hx; split at hx <;> simp at hx; exact hx
  constructor
  case n => rfl
  case same =>
    intro k
    obtain ⟨a1, a2, a3, a4, a5, a6⟩ := f1 k
    refine ⟨a1, a2, a3, ?_, a4, a5, a6⟩
    by_cases hk : k = i
    · subst hk; rw [f4, q3]
    · exact (f2 k hk).2.1
  case other =>
    intro k hk
    obtain ⟨b1, b2, b3, b4, b5⟩ := f2 k hk
    exact ⟨b1, b3, b4, b5⟩
  case det =>
    intro d
    rw [f7, hs]
    simp only [List.count_nil]
    rw [List.count_eq_zero]
    intro hx; have := hno _ hx; simp at this
  case att =>
    intro ch
    rw [f7, hs]
    constructor
    · intro hx; have := hno _ hx; simp at this
    · simp
  case okst => intro b hb; rw [f7] at hb; have := hno _ hb; simp at this
  case start => rw [hs]; simp
  case started => intro hx; rw [f3, q4, hx]; rfl
  case stop => rw [hs]; simp
  case pill =>
    intro k hk
    rw [f8, husr, List.append_nil, f7]
    by_cases hki : k = i
    · subst hki
      rw [hm] at hk
      rw [ho]
      rcases List.mem_cons.1 hk with hk | hk
      · exact .inr ⟨rfl, by rw [← hk]; simp⟩
      · exact .inl (by simpa using hk)
    · simp [hki, hk]
  case pill' =>
    intro k hk
    rw [f8, husr, List.append_nil] at hk
    by_cases hki : k = i
    · subst hki
      rw [ho] at hk
      simp at hk
      exact .inl (by rw [hm]; simp [hk])
    · simp [hki] at hk; exact .inl hk
  case told => intro ht; rw [f6, ht]; rfl
  case toldS => intro ht; rw [f6, hmst] at ht; simp at ht; exact .inl ht
  case stopping => intro hx; rw [f5, q5, hx]; rfl
  case pend => intro _ _ _ _ hx; rw [hst] at hx; simp at hx

/-- Receiving from outside. -/
theorem quiet_push (s : St) (i : Nat) (b : Act) (us ms : List Msg)
    (hus : ∀ m ∈ us, m = .pill → 0 < i → (s.act i).cell.hasParent = true)
    (hms : ∀ m ∈ ms, m = .stop ∨ m = .stopAfterChildren ∨ isWatchMsg m = true)
    (hms' : ∀ m ∈ ms, 0 < i → (s.act i).cell.hasParent = false → isWatchMsg m = true)
    (hb : b = (s.act i).pushUsr us ∨ b = (s.act i).pushSys ms) : Quiet s (s.upd i b) i := by
  have hbf : b.cell = (s.act i).cell ∧ b.isOpen = (s.act i).isOpen ∧ b.alive = (s.act i).alive ∧ b.parent = (s.act i).parent ∧
      b.path = (s.act i).path ∧ b.ok = (s.act i).ok ∧ b.told = (s.act i).told ∧
      ((b.sys = (s.act i).sys ∨ b.sys = (s.act i).sys ++ ms)) ∧ ((b.usr = (s.act i).usr ∨ b.usr = (s.act i).usr ++ us)) := by
    rcases hb with rfl | rfl
    · simp [pushUsr_usr]
      cases (s.act i).isOpen <;> simp
    · simp [pushSys_sys]
      cases (s.act i).isOpen <;> simp
  obtain ⟨b1, b2, b3, b4, b5, b6, b7, b8, b9⟩ := hbf
  have hself : (s.upd i b).act i = b := upd_self _ _ _
  have hsame : ∀ k, ((s.upd i b).act k).cell = (s.act k).cell ∧ ((s.upd i b).act k).isOpen = (s.act k).isOpen ∧
      ((s.upd i b).act k).alive = (s.act k).alive ∧ ((s.upd i b).act k).parent = (s.act k).parent ∧
      ((s.upd i b).act k).path = (s.act k).path ∧ ((s.upd i b).act k).ok = (s.act k).ok ∧ ((s.upd i b).act k).told = (s.act k).told := by
    intro k
    by_cases hk : k = i
    · subst hk; rw [hself]; exact ⟨b1, b2, b3, b4, b5, b6, b7⟩
    · rw [upd_ne _ _ hk]; simp
  have hnot : ∀ m, (∀ w, m ≠ .watch w) → (∀ w, m ≠ .unwatch w) → m ≠ .stop → m ≠ .stopAfterChildren → m ∉ ms := by
    intro m h1 h2 h3 h4 hm
    rcases hms m hm with h | h | h
    · exact h3 h
    · exact h4 h
    · cases m <;> simp_all [isWatchMsg]
  constructor
  case n => rfl
  case same =>
    intro k
    obtain ⟨c1, c2, c3, c4, c5, c6, c7⟩ := hsame k
    exact ⟨c2, c3, by rw [c1], by rw [c1], c4, c5, c6⟩
  case other => intro k hk; rw [upd_ne _ _ hk]; simp
  case det =>
    intro d
    rw [hself]
    rcases b8 with h | h <;> rw [h]
    rw [List.count_append, List.count_eq_zero.2 (hnot _ (by simp) (by simp) (by simp) (by simp))]; rfl
  case att =>
    intro ch
    rw [hself]
    have := hnot (.attach ch) (by simp) (by simp) (by simp) (by simp)
    rcases b8 with h | h <;> rw [h]
    simp [this]
  case okst =>
    intro x hx
    rw [hself] at hx
    have := hnot (.start x) (by simp) (by simp) (by simp) (by simp)
    rcases b8 with h | h <;> rw [h] at hx
    · exact hx
    · simpa [this] using hx
  case start =>
    intro hx
    rw [hself]
    rcases b8 with h | h <;> rw [h]
    · exact .inl hx
    · exact .inl (by simp [hx])
  case started => rw [hself, b1]; exact id
  case stop =>
    intro hx
    rw [hself]
    rcases b8 with h | h <;> rw [h]
    · exact .inl hx
    · exact .inl (by simp [hx])
  case pill =>
    intro k hk
    by_cases hki : k = i
    · subst hki
      rw [hself]
      rcases b9 with h | h <;> rw [h]
      · exact .inl hk
      · exact .inl (by simp [hk])
    · rw [upd_ne _ _ hki]; exact .inl hk
  case pill' =>
    intro k hk
    by_cases hki : k = i
    · subst hki
      rw [hself] at hk
      rcases b9 with h | h <;> rw [h] at hk
      · exact .inl hk
      · rcases List.mem_append.1 hk with hk | hk
        · exact .inl hk
        · rcases Nat.eq_zero_or_pos k with h0 | h0
          · exact .inr (.inr h0)
          · exact .inr (.inl (hus _ hk rfl h0))
    · rw [upd_ne _ _ hki] at hk; exact .inl hk
  case told => rw [hself, b7]; exact id
  case toldS => rw [hself, b7]; exact .inl
  case stopping => rw [hself, b1]; exact id
  case pend =>
    intro h0 hp hw h1 h2
    rw [hself, b1]
    refine ⟨h2, h1, ?_⟩
    intro m hm
    rcases b8 with h | h <;> rw [h] at hm
    · exact hw m hm
    · rcases List.mem_append.1 hm with hm | hm
      · exact hw m hm
      · exact hms' m hm h0 hp

end Verif.ActorTree
