import Verif.Lemmas.ActorSteps

set_option autoImplicit false

namespace Verif.ActorSteps
open Verif.ActorCell
open Verif.ActorTree (terminatedMsg plainMsg carries)

theorem Inv.takeStart {s : St} (h : Inv s) {i : Nat} (r : Ready s i) {ok : Bool} {ms : List Msg} (hs : (s.act i).sys = .start ok :: ms) :
    Inv (takeMsg s i (.start ok) ms (s.act i).usr) := by
  have hl := h.loc i r.lt
  have hok : ok = true := hl.start ok (by rw [hs]; exact List.mem_cons_self)
  subst hok
  have hal := r.alive h
  have hc1 : (s.act i).sys.countP isStartMsg = ms.countP isStartMsg + 1 := by rw [hs, List.countP_cons]; rfl
  have hi0 : 0 < i := by
    rcases Nat.eq_zero_or_pos i with h0 | h0
    · subst h0; have := h.rootst; omega
    · exact h0
  obtain ⟨p, -, hpar⟩ := h.par i r.lt hi0
  have honce := h.once i r.lt p hpar
  have hb : (s.act i).begun = false := by
    cases hb : (s.act i).begun with
    | false => rfl
    | true => rw [hb, hc1, show one true = 1 from rfl] at honce; omega
  have hnf := h.notFresh r.lt (m := .start true) (by rw [hs]; exact List.mem_cons_self) rfl
  have hl0 : (s.act i).log.filter Eff.isLife = [] := by
    have := hl.life0 hb
    simpa [life, r.out] using this
  refine h.plain r (.start true) ms _ rfl rfl rfl rfl ?_ ?_ ?_ ?_ ?_ ?_ ?_ ?_ ?_ ?_ ?_
  · constructor
    · intro hx; simp [taken, process] at hx
    · intro _ _; exact r.opn
    · intro hd; rw [show (taken (s.act i) (.start true) ms (s.act i).usr).alive = (s.act i).alive from rfl, hal] at hd; simp at hd
    · intro _; simp [taken, isStartMsg]
    · intro _ _; rfl
    · intro hst _; exact hl.waits hst r.stop
    · intro ht; exact hl.told (by simpa [taken] using ht)
    · intro ok hm; exact hl.start ok (by rw [hs]; exact List.mem_cons_of_mem _ hm)
    · intro hd; simp [taken, process, isDestroy] at hd
    · intro hd; rw [show (taken (s.act i) (.start true) ms (s.act i).usr).alive = (s.act i).alive from rfl, hal] at hd; simp at hd
    · intro m hm; exact hl.sys m (by rw [hs]; exact List.mem_cons_of_mem _ hm)
    · exact hl.usr
    · intro hb'; simp [taken, isStartMsg] at hb'
    · intro _ _
      refine ⟨[], by simp, ?_⟩
      simp only [life, taken, process, List.filter_append, hl0]
      rfl
    · intro _ hx; simp [taken, process] at hx
  · intro h0 hp; rw [hnf h0] at hp; simp at hp
  · rw [hs]; exact List.sublist_cons_self _ _
  · rw [hc1, hb]; simp [one, isStartMsg]
  · intro hx; simp [isStartMsg] at hx
  · intro ch hx; simp [process] at hx
  · intro ch hx; simp [process] at hx
  · intro hx; simp [process] at hx
  · intro ht; exact ht.skip r.out hs (by simp) rfl (by intro hx; simp [taken, hx]) (by rw [r.stop]; simp)
  · intro hx; simp at hx
  · intro q hq; rw [hs] at hq; simpa using hq

/-- The message stops the actor. -/
theorem Inv.takeLast {s : St} (h : Inv s) {i : Nat} (r : Ready s i) {m : Msg} {ms : List Msg} (hs : (s.act i).sys = m :: ms) (hm : m = .stop ∨ m = .stopAfterChildren)
    (hc : (s.act i).cell.children = []) : Inv (takeMsg s i m ms (s.act i).usr) := by
  have hl := h.loc i r.lt
  have hal := r.alive h
  have hpr : process (s.act i).cell m = ((stopImpl (s.act i).cell).1, (stopImpl (s.act i).cell).2, true) := by
    rcases hm with e | e <;> subst e <;> simp [process, hc]
  have hnf : 0 < i → (s.act i).cell.hasParent = true := by
    rcases hm with e | e <;> subst e <;> exact h.notFresh r.lt (by rw [hs]; exact List.mem_cons_self) rfl
  have hst : isStartMsg m = false := by rcases hm with e | e <;> subst e <;> rfl
  have htk : taken (s.act i) m ms (s.act i).usr = { s.act i with cell := (stopImpl (s.act i).cell).1, sys := ms, usr := (s.act i).usr, out := (stopImpl (s.act i).cell).2, stop := true } := by
    unfold taken
    rw [hpr, hst, stopImpl_nodestroy]
    simp
  refine h.plain r m ms _ ?_ ?_ ?_ ?_ ?_ ?_ ?_ ?_ ?_ ?_ ?_ ?_ ?_ ?_ ?_
  · rcases hm with e | e <;> subst e <;> rfl
  · rw [hpr]; exact stopImpl_novictim _
  · rw [hpr]; rfl
  · rw [hpr]; rfl
  · rw [htk]
    exact hl.stops r.out r.stop hal _ hc rfl rfl ms _ (fun x hx => by rw [hs]; exact List.mem_cons_of_mem _ hx) rfl
  · intro h0 hp; rw [hnf h0] at hp; simp at hp
  · rw [hs]; exact List.sublist_cons_self _ _
  · rw [hs, hst]; simp [hst]
  · intro _ hx; rw [hs] at hx; rcases hm with e | e <;> subst e <;> simpa using hx
  · rw [hpr]; exact (stopImpl_kinds _).1
  · intro ch hx; rw [hpr] at hx; exact absurd hx ((stopImpl_kinds _).2.1 ch)
  · rw [hpr]; intro _ hp; exact (stopImpl_kinds _).2.2 hp
  · intro _; rw [htk]; exact .inr (.inr (.inr (.inr rfl)))
  · rw [hpr]; intro _ hx; simp at hx
  · intro q hq; rw [hs] at hq; rcases hm with e | e <;> subst e <;> simpa using hq

theorem Inv.takeStop {s : St} (h : Inv s) {i : Nat} (r : Ready s i) {ms : List Msg} (hs : (s.act i).sys = .stop :: ms) : Inv (takeMsg s i .stop ms (s.act i).usr) := by
  cases hc : (s.act i).cell.children with
  | nil => exact h.takeLast r hs (.inl rfl) hc
  | cons c cs =>
    have hl := h.loc i r.lt
    have hpr : process (s.act i).cell .stop = ({ (s.act i).cell with stopping := true }, (s.act i).cell.children.map .pillTo, false) := by simp [process, hc]
    have hnf := h.notFresh r.lt (m := .stop) (by rw [hs]; exact List.mem_cons_self) rfl
    have hflt : (process (s.act i).cell .stop).2.1.filter (fun e => !isDestroy e) = (s.act i).cell.children.map .pillTo := by
      rw [hpr, List.filter_eq_self]
      intro e he
      simp only [List.mem_map] at he
      obtain ⟨x, -, rfl⟩ := he
      rfl
    have htk : taken (s.act i) .stop ms (s.act i).usr = { s.act i with cell := { (s.act i).cell with stopping := true }, sys := ms, out := (s.act i).cell.children.map .pillTo, stop := false, told := true } := by
      unfold taken
      rw [hflt, hpr]
      simp [isStartMsg]
    refine h.plain r .stop ms _ rfl ?_ (by rw [hpr]) (by rw [hpr]) ?_ ?_ ?_ ?_ ?_ ?_ ?_ ?_ ?_ ?_ ?_
    · rw [hpr, List.findSome?_eq_none_iff]
      intro e he
      simp only [List.mem_map] at he
      obtain ⟨x, -, rfl⟩ := he
      rfl
    · rw [htk]
      refine hl.goes r.out r.stop (r.alive h) r.opn (r.alive h) r.opn rfl rfl rfl (fun _ => by dsimp only; rw [hc]; simp) (fun _ => rfl) (fun x hx => by rw [hs]; exact List.mem_cons_of_mem _ hx) (fun _ hx => hx) rfl ?_ (.inl ?_)
      · intro hx; simp at hx
      · rw [List.filter_eq_nil_iff]
        intro e he
        simp only [List.mem_map] at he
        obtain ⟨x, -, rfl⟩ := he
        simp [Eff.isLife]
    · intro h0 hp; rw [hnf h0] at hp; simp at hp
    · rw [hs]; exact List.sublist_cons_self _ _
    · rw [hs]; simp [isStartMsg]
    · intro _ hx; rw [hs] at hx; simpa using hx
    · intro ch hx; rw [hpr] at hx; simp at hx
    · intro ch hx; rw [hpr] at hx; simpa using hx
    · rw [hpr]; intro hx; simp at hx
    · intro _; rw [htk]; exact .inr (.inr (.inr (.inl rfl)))
    · rw [hpr]; intro _ _ ch hch; simpa using hch
    · intro q hq; rw [hs] at hq; simpa using hq

theorem Inv.takeSac {s : St} (h : Inv s) {i : Nat} (r : Ready s i) {ms : List Msg} (hs : (s.act i).sys = .stopAfterChildren :: ms) : Inv (takeMsg s i .stopAfterChildren ms (s.act i).usr) := by
  cases hc : (s.act i).cell.children with
  | nil => exact h.takeLast r hs (.inr rfl) hc
  | cons c cs =>
    have hl := h.loc i r.lt
    have hpr : process (s.act i).cell .stopAfterChildren = ({ (s.act i).cell with stopping := true }, [], false) := by simp [process, hc]
    have hnf := h.notFresh r.lt (m := .stopAfterChildren) (by rw [hs]; exact List.mem_cons_self) rfl
    have htk : taken (s.act i) .stopAfterChildren ms (s.act i).usr = { s.act i with cell := { (s.act i).cell with stopping := true }, sys := ms, out := [], stop := false } := by
      unfold taken
      rw [hpr]
      simp [isStartMsg]
    refine h.plain r .stopAfterChildren ms _ rfl (by rw [hpr]; rfl) (by rw [hpr]) (by rw [hpr]) ?_ ?_ ?_ ?_ ?_ ?_ ?_ ?_ ?_ ?_ ?_
    · rw [htk]
      exact hl.goes r.out r.stop (r.alive h) r.opn (r.alive h) r.opn rfl rfl rfl (fun _ => by dsimp only; rw [hc]; simp) (fun _ => rfl) (fun x hx => by rw [hs]; exact List.mem_cons_of_mem _ hx) (fun _ hx => hx) rfl (by simp) (.inl rfl)
    · intro h0 hp; rw [hnf h0] at hp; simp at hp
    · rw [hs]; exact List.sublist_cons_self _ _
    · rw [hs]; simp [isStartMsg]
    · intro _ hx; rw [hs] at hx; simpa using hx
    · intro ch hx; rw [hpr] at hx; simp at hx
    · intro ch hx; rw [hpr] at hx; simp at hx
    · rw [hpr]; intro hx; simp at hx
    · intro ht; exact ht.skip r.out hs (by simp) rfl (by intro hx; simp [taken, hx]) (by rw [r.stop]; simp)
    · intro hx; simp at hx
    · intro q hq; rw [hs] at hq; simpa using hq

/-- `watch` and `unwatch`. -/
theorem Inv.takeWatch {s : St} (h : Inv s) {i : Nat} (r : Ready s i) {m : Msg} {ms : List Msg} (hs : (s.act i).sys = m :: ms) (hm : (∃ w, m = .watch w) ∨ ∃ w, m = .unwatch w) :
    Inv (takeMsg s i m ms (s.act i).usr) := by
  have hl := h.loc i r.lt
  obtain ⟨ws, hpr⟩ : ∃ ws, process (s.act i).cell m = ({ (s.act i).cell with watchers := ws }, [], false) := by
    rcases hm with ⟨w, e⟩ | ⟨w, e⟩ <;> subst e
    · unfold process
      dsimp only
      split
      · exact ⟨_, rfl⟩
      · exact ⟨_, rfl⟩
    · exact ⟨_, rfl⟩
  have hst : isStartMsg m = false := by rcases hm with ⟨w, e⟩ | ⟨w, e⟩ <;> subst e <;> rfl
  have hns : m ≠ .stop := by rcases hm with ⟨w, e⟩ | ⟨w, e⟩ <;> subst e <;> simp
  have htk : taken (s.act i) m ms (s.act i).usr = { s.act i with cell := { (s.act i).cell with watchers := ws }, sys := ms, out := [], stop := false } := by
    unfold taken
    rw [hpr, hst]
    simp [hns]
  refine h.plain r m ms _ ?_ (by rw [hpr]; rfl) (by rw [hpr]) (by rw [hpr]) ?_ ?_ ?_ ?_ ?_ ?_ ?_ ?_ ?_ ?_ ?_
  · rcases hm with ⟨w, e⟩ | ⟨w, e⟩ <;> subst e <;> rfl
  · rw [htk]
    exact hl.goes r.out r.stop (r.alive h) r.opn (r.alive h) r.opn rfl rfl rfl (fun hx => hl.waits hx r.stop) hl.told (fun x hx => by rw [hs]; exact List.mem_cons_of_mem _ hx) (fun _ hx => hx) rfl (by simp) (.inl rfl)
  · intro h0 hp
    rw [htk]
    have hf := h.fresh i r.lt h0 hp
    exact ⟨hf.begun, hf.started, hf.stopping, hf.children, rfl, rfl, hf.told, hf.log, fun x hx => hf.sys x (by rw [hs]; exact List.mem_cons_of_mem _ hx), hf.usr⟩
  · rw [hs]; exact List.sublist_cons_self _ _
  · rw [hs, hst]; simp [hst]
  · intro _ hx; rw [hs] at hx; rcases hm with ⟨w, e⟩ | ⟨w, e⟩ <;> subst e <;> simpa using hx
  · intro ch hx; rw [hpr] at hx; simp at hx
  · intro ch hx; rw [hpr] at hx; simp at hx
  · rw [hpr]; intro hx; simp at hx
  · intro ht; exact ht.skip r.out hs hns rfl (by intro hx; simp [taken, hx]) (by rw [r.stop]; simp)
  · intro hx; exact absurd hx hns
  · intro q hq; rw [hs] at hq; rcases hm with ⟨w, e⟩ | ⟨w, e⟩ <;> subst e <;> simpa using hq

/-- A message of the user. -/
theorem Inv.takeUser {s : St} (h : Inv s) {i : Nat} (r : Ready s i) {m : Msg} {ms : List Msg} (hstart : (s.act i).cell.started = true) (hs : (s.act i).sys = []) (hu : (s.act i).usr = m :: ms) :
    Inv (takeMsg s i m [] ms) := by
  have hl := h.loc i r.lt
  have hpl := hl.usr m (by rw [hu]; exact List.mem_cons_self)
  have hb := hl.begun hstart
  have hnf : 0 < i → (s.act i).cell.hasParent = true := by
    intro h0
    cases hp : (s.act i).cell.hasParent with
    | true => rfl
    | false => have := (h.fresh i r.lt h0 hp).started; rw [hstart] at this; simp at this
  obtain ⟨e, hpr, he⟩ : ∃ e, process (s.act i).cell m = ((s.act i).cell, [e], false) ∧ ((e = .stopSelf ∧ m = .pill) ∨ (∃ x, e = .receive x ∧ m = .user x)) := by
    cases m with
    | user x => exact ⟨.receive x, rfl, .inr ⟨x, rfl, rfl⟩⟩
    | pill => exact ⟨.stopSelf, rfl, .inl ⟨rfl, rfl⟩⟩
    | _ => simp [isPlain] at hpl
  have hst : isStartMsg m = false := by cases m <;> simp_all [isPlain, isStartMsg]
  have hns : m ≠ .stop := by intro e; subst e; simp [isPlain] at hpl
  have htk : taken (s.act i) m [] ms = { s.act i with sys := [], usr := ms, out := [e], stop := false } := by
    unfold taken
    rw [hpr, hst]
    have : isDestroy e = false := by rcases he with ⟨rfl, -⟩ | ⟨x, rfl, -⟩ <;> rfl
    simp [hns, this]
  refine h.plain r m [] ms ?_ ?_ (by rw [hpr]) (by rw [hpr]) ?_ ?_ ?_ ?_ ?_ ?_ ?_ ?_ ?_ ?_ ?_
  · rcases he with ⟨-, rfl⟩ | ⟨x, -, rfl⟩ <;> rfl
  · rw [hpr]; rcases he with ⟨rfl, -⟩ | ⟨x, rfl, -⟩ <;> rfl
  · rw [htk]
    refine hl.goes r.out r.stop (r.alive h) r.opn (r.alive h) r.opn rfl rfl rfl (fun hx => hl.waits hx r.stop) hl.told (by simp) (fun x hx => by rw [hu]; exact List.mem_cons_of_mem _ hx) rfl ?_ ?_
    · rcases he with ⟨rfl, -⟩ | ⟨x, rfl, -⟩ <;> simp
    · rcases he with ⟨rfl, -⟩ | ⟨x, rfl, -⟩
      · exact .inl rfl
      · exact .inr ⟨hb, x, rfl⟩
  · intro h0 hp; rw [hnf h0] at hp; simp at hp
  · rw [hs]; exact List.Sublist.refl _
  · rw [hs, hst]; simp
  · intro _ hx; rw [hs] at hx; exact hx
  · intro ch hx; rw [hpr] at hx; rcases he with ⟨rfl, -⟩ | ⟨x, rfl, -⟩ <;> simp at hx
  · intro ch hx; rw [hpr] at hx; rcases he with ⟨rfl, -⟩ | ⟨x, rfl, -⟩ <;> simp at hx
  · rw [hpr]; intro hx; simp at hx
  · intro ht
    rw [htk]
    rcases ht with ht | ht | ht | ht | ht
    · rw [hs] at ht; simp at ht
    · rcases he with ⟨rfl, -⟩ | ⟨x, -, rfl⟩
      · exact .inr (.inr (.inl List.mem_cons_self))
      · rw [hu] at ht; right; left; simpa using ht
    · rw [r.out] at ht; simp at ht
    · exact .inr (.inr (.inr (.inl ht)))
    · rw [r.stop] at ht; simp at ht
  · intro hx; exact absurd hx hns
  · intro q hq; rw [hs] at hq; exact hq

/-! ### Children -/

theorem takeMsg_kill (s : St) (i k : Nat) (m : Msg) (sys usr : List Msg) (h1 : adoptee (s.act i).cell m = none) (h2 : (process (s.act i).cell m).2.1.findSome? victim = some k)
    (hk : k ≠ i) (hni : (s.act k).sys.any (carries i) = false) (hb : (s.act k).busy = false) (hu : s.ub = false) :
    takeMsg s i m sys usr = change s i (taken (s.act i) m sys usr) (fun j => decide (j = k) || (s.act k).sys.any (carries j)) := by
  unfold takeMsg
  dsimp only
  rw [h1, h2]
  dsimp only
  refine St.ext' rfl (fun j => ?_) ?_
  · simp only [St.kill, change, upd_ne _ _ hk]
    by_cases hji : j = i
    · subst hji
      rw [if_neg (by rw [hni]; simp; exact fun e => hk e.symm), if_pos rfl, upd_self]; rfl
    · rw [if_neg hji, upd_ne _ _ hji]
      by_cases hj : j = k
      · simp [hj]
      · simp [hj]
  · simp only [St.kill, change, upd_ne _ _ hk, hb, upd_ub, hu]; rfl

theorem takeMsg_adopt (s : St) (i : Nat) (ch : Child) (ms : List Msg) (hk : ch.id ≠ i) (hst : (s.act i).cell.stopping = false) (hstop : (s.act i).stop = false) (hu : s.ub = false) :
    takeMsg s i (.attach ch) ms (s.act i).usr = adopt s i ch ms := by
  have hpr : process (s.act i).cell (.attach ch) = ({ (s.act i).cell with children := (s.act i).cell.children ++ [ch] }, [.startTo ch], false) := by
    simp [process, hst]
  have had : adoptee (s.act i).cell (.attach ch) = some ch.id := by simp [adoptee, hst]
  unfold takeMsg
  dsimp only
  rw [had, hpr]
  dsimp only [List.findSome?, victim]
  refine St.ext' rfl (fun j => ?_) (by simp [adopt, hu])
  simp only [adopt]
  by_cases hj : j = ch.id
  · subst hj
    rw [upd_self, if_pos rfl, upd_ne _ _ hk]
  · rw [upd_ne _ _ hj, if_neg hj]
    by_cases hji : j = i
    · subst hji
      rw [upd_self, if_pos rfl]
      simp [isStartMsg, isDestroy, hstop]
    · rw [upd_ne _ _ hji, if_neg hji]

theorem Fresh.notCarry {a : Act} (h : Fresh a) (j : Nat) : a.sys.any (carries j) = false := by
  rw [List.any_eq_false]
  intro m hm hc
  have := h.sys m hm
  cases m <;> simp_all [carries, Harmless]

theorem Fresh.notBusy {a : Act} (h : Fresh a) : a.busy = false := by simp [Act.busy, h.started, h.out, h.children]

theorem Inv.parentLt {s : St} (h : Inv s) {j p : Nat} (hj : j < s.n) (hp : (s.act j).parent = some p) : 0 < j ∧ p < j := by
  rcases Nat.eq_zero_or_pos j with j0 | j0
  · subst j0; rw [h.root.1] at hp; simp at hp
  · obtain ⟨q, h1, h2⟩ := h.par j hj j0
    rw [hp] at h2
    have : p = q := by simpa using h2
    exact ⟨j0, by omega⟩

theorem Inv.takeAttach {s : St} (h : Inv s) {i : Nat} (r : Ready s i) {ch : Child} {ms : List Msg} (hs : (s.act i).sys = .attach ch :: ms) :
    Inv (takeMsg s i (.attach ch) ms (s.act i).usr) := by
  obtain ⟨c1, c2, c3, c4, c5, c6⟩ := h.att i r.lt ch (by rw [hs]; exact List.mem_cons_self)
  have hik := (h.parentLt c2 c3).2
  have hal := r.alive h
  have hl := h.loc i r.lt
  have hF := h.fresh ch.id c2 c1 c5
  have hnf := h.notFresh r.lt (m := .attach ch) (by rw [hs]; exact List.mem_cons_self) rfl
  cases hst : (s.act i).cell.stopping with
  | false =>
    rw [takeMsg_adopt s i ch ms (by omega) hst r.stop h.nub]
    exact h.adopt r.lt hs hal r.out r.stop hst
  | true =>
    have hpr : process (s.act i).cell (.attach ch) = ((s.act i).cell, [.destroy ch], false) := by simp [process, hst]
    have had : adoptee (s.act i).cell (.attach ch) = none := by simp [adoptee, hst]
    have hD : ∀ j, (decide (j = ch.id) || (s.act ch.id).sys.any (carries j)) = decide (j = ch.id) := by intro j; rw [hF.notCarry j]; simp
    have hrest : ∀ c : Child, c.id = ch.id → .attach c ∉ ms := by
      intro c hc hm
      have h1 := h.attc i r.lt ch.id
      rw [hs, List.countP_cons] at h1
      have h2 : 0 < ms.countP (carries ch.id) := by
        rw [List.countP_pos_iff]
        exact ⟨_, hm, by simp [carries, hc]⟩
      rw [if_pos (by simp [carries])] at h1
      omega
    rw [takeMsg_kill s i ch.id _ ms _ had (by rw [hpr]; rfl) (by omega) (hF.notCarry i) hF.notBusy h.nub]
    have htk : taken (s.act i) (.attach ch) ms (s.act i).usr = { s.act i with sys := ms, out := [], stop := false } := by
      unfold taken
      rw [hpr]
      simp [isStartMsg, isDestroy]
    rw [htk]
    refine h.change r.lt _ _ hal r.out r.stop rfl rfl rfl hal rfl ?_ ?_ ?_ (fun hb => hb) ?_ ?_ ?_ ?_ ?_ ?_ (fun ht => .inl ht) (List.Sublist.refl _) ?_ (fun c hc _ => hc) ?_ ?_
    · exact hl.goes r.out r.stop hal r.opn hal r.opn rfl rfl rfl (fun hx => hl.waits hx r.stop) hl.told (fun x hx => by rw [hs]; exact List.mem_cons_of_mem _ hx) (fun _ hx => hx) rfl (by simp) (.inl rfl)
    · intro h0 hp; dsimp only at hp; rw [hnf h0] at hp; simp at hp
    · rw [hs]; exact List.sublist_cons_self _ _
    · rw [hs]; simp [isStartMsg]
    · intro _ _ hx; rw [hs] at hx; simpa using hx
    · intro c hx; simp at hx
    · intro c hx; simp at hx
    · intro hx; simp at hx
    · intro ht; exact ht.skip (m := .attach ch) r.out hs (by simp) rfl (fun hx => hx) (by rw [r.stop]; simp)
    · intro c hc
      rw [hD]
      obtain ⟨a1, a2, a3, a4, a5, a6⟩ := h.chd i r.lt c hc
      simp only [decide_eq_false_iff_not]
      intro e
      rw [e, c5] at a6; simp at a6
    · intro q hq; left; rw [hs] at hq; simpa using hq
    · intro j hj hd
      rw [hD] at hd
      simp only [decide_eq_true_eq] at hd
      subst hd
      exact ⟨by omega, c1, hF.children, .inr ⟨c5, .inl ⟨c3, fun c hc => hrest c hc⟩⟩⟩

theorem Inv.takeDetach {s : St} (h : Inv s) {i : Nat} (r : Ready s i) {q : Nat} {ms : List Msg} (hs : (s.act i).sys = .detach q :: ms) :
    Inv (takeMsg s i (.detach q) ms (s.act i).usr) := by
  have hal := r.alive h
  have hl := h.loc i r.lt
  have hnf := h.notFresh r.lt (m := .detach q) (by rw [hs]; exact List.mem_cons_self) rfl
  obtain ⟨k, k1, k2, k3, k4, k5, k6, k7, k8⟩ := h.det i r.lt q (by rw [hs]; exact List.mem_cons_self)
  have hik := (h.parentLt k1 k3).2
  have hown := h.own k k1 i k3 k6 k5
  have hlk := h.loc k k1
  have hkid : ∀ c ∈ (s.act i).cell.children, c.path = q → c.id = k := by
    intro c hc hq
    obtain ⟨a1, a2, a3, a4, a5, a6⟩ := h.chd i r.lt c hc
    exact h.uniq c.id a2 k k1 a1 k2 a5 k6 (by rw [a3, k3]) (by rw [a4, k4, hq])
  obtain ⟨x, hf, hxm, hxq⟩ : ∃ x, (s.act i).cell.children.find? (fun x => decide (x.path = q)) = some x ∧ x ∈ (s.act i).cell.children ∧ x.path = q := by
    cases hf : (s.act i).cell.children.find? (fun x => decide (x.path = q)) with
    | none =>
      rw [List.find?_eq_none] at hf
      have := hf _ hown
      simp [k4] at this
    | some x => exact ⟨x, rfl, List.mem_of_find?_eq_some hf, by simpa using List.find?_some hf⟩
  have hxk := hkid x hxm hxq
  have hrm : removeChild (s.act i).cell q = ({ (s.act i).cell with children := (s.act i).cell.children.eraseP (fun x => decide (x.path = q)) }, [.destroy x]) := by
    unfold removeChild
    rw [hf]
  have hkch : (s.act k).cell.children = [] := (hlk.stopped k7).1
  have hbusy : (s.act k).busy = false := by simp [Act.busy, (hlk.stopped k7).2, k8, hkch]
  have hcar : ∀ j, (s.act k).sys.any (carries j) = true → k < j ∧ j < s.n ∧ (s.act j).parent = some k ∧ (s.act j).cell.hasParent = false := by
    intro j hj
    rw [List.any_eq_true] at hj
    obtain ⟨m, hm, hc⟩ := hj
    cases m <;> simp [carries] at hc
    rename_i c
    subst hc
    obtain ⟨a1, a2, a3, a4, a5, a6⟩ := h.att k k1 c hm
    exact ⟨(h.parentLt a2 a3).2, a2, a3, a5⟩
  have hni : (s.act k).sys.any (carries i) = false := by
    cases hc : (s.act k).sys.any (carries i) with
    | false => rfl
    | true => have := (hcar i hc).1; omega
  have hnot : .detach q ∉ ms := by
    intro hm
    have h1 := h.detc i r.lt q
    rw [hs, List.count_cons_self] at h1
    have h2 := List.count_pos_iff.mpr hm
    omega
  have hsub : ((s.act i).cell.children.eraseP (fun x => decide (x.path = q))).Sublist (s.act i).cell.children := List.eraseP_sublist
  have hgone : ∀ c ∈ (s.act i).cell.children.eraseP (fun x => decide (x.path = q)), c.id ≠ k := by
    intro c hc hck
    obtain ⟨a, l1, l2, g1, g2, g3, g4⟩ := List.exists_of_eraseP (p := fun x : Child => decide (x.path = q)) hxm (by simpa using hxq)
    have ha : a.id = k := hkid a (by rw [g3]; simp) (by simpa using g2)
    have hnd := h.nodup i r.lt
    rw [g3] at hnd
    rw [g4] at hc
    simp only [List.map_append, List.map_cons, List.nodup_append, List.nodup_cons] at hnd
    rcases List.mem_append.mp hc with hc | hc
    · exact hnd.2.2 c.id (List.mem_map.mpr ⟨c, hc, rfl⟩) a.id List.mem_cons_self (by rw [hck, ha])
    · exact hnd.2.1.1 (List.mem_map.mpr ⟨c, hc, by rw [hck, ha]⟩)
  have hDc : ∀ c ∈ (s.act i).cell.children, (decide (c.id = k) || (s.act k).sys.any (carries c.id)) = decide (c.id = k) := by
    intro c hc
    cases hx : (s.act k).sys.any (carries c.id) with
    | false => simp
    | true => have := (hcar _ hx).2.2.2; rw [(h.chd i r.lt c hc).2.2.2.2.2] at this; simp at this
  have had : adoptee (s.act i).cell (.detach q) = none := rfl
  -- what both outcomes have in common
  have key : ∀ (c' : Cell) (o : List Eff) (st : Bool), c'.children = (s.act i).cell.children.eraseP (fun x => decide (x.path = q)) → c'.hasParent = (s.act i).cell.hasParent →
      Loc { s.act i with cell := c', sys := ms, out := o, stop := st } → (∀ c, .startTo c ∉ o) → (∀ c, .pillTo c ∉ o) → (st = true → c'.hasParent = true → .detachToParent ∈ o) →
      Inv (ActorSteps.change s i { s.act i with cell := c', sys := ms, out := o, stop := st } (fun j => decide (j = k) || (s.act k).sys.any (carries j))) := by
    intro c' o st hc' hp' hloc hno1 hno2 hdet
    refine h.change r.lt _ _ hal r.out r.stop rfl rfl rfl hal hp' hloc ?_ ?_ (fun hb => hb) ?_ ?_ hno1 ?_ hdet ?_ (fun ht => .inl ht) ?_ ?_ ?_ ?_ ?_
    · intro h0 hp; dsimp only at hp; rw [hp', hnf h0] at hp; simp at hp
    · rw [hs]; exact List.sublist_cons_self _ _
    · rw [hs]; simp [isStartMsg]
    · intro _ _ hx; rw [hs] at hx; simpa using hx
    · intro c hx; exact absurd hx (hno2 c)
    · intro ht; exact ht.skip (m := .detach q) r.out hs (by simp) rfl (fun hx => hx) (by rw [r.stop]; simp)
    · dsimp only; rw [hc']; exact hsub
    · intro c hc
      dsimp only at hc
      rw [hc'] at hc
      rw [hDc c (hsub.subset hc)]
      simpa using hgone c hc
    · intro c hc hd
      rw [hDc c hc] at hd
      dsimp only
      rw [hc']
      have hne : c.path ≠ q := by intro e; simp [hkid c hc e] at hd
      exact (List.mem_eraseP_of_neg (by simpa using hne)).mpr hc
    · intro q' hq
      rw [hs] at hq
      simp at hq
      rcases hq with hq | hq
      · right
        intro j hj j0 b1 b2 b3 b4
        have : j = k := h.uniq j hj k k1 j0 k2 b1 k6 (by rw [b2, k3]) (by rw [b3, k4, hq])
        simp [this]
      · exact .inl hq
    · intro j hj hd
      by_cases hjk : j = k
      · subst hjk
        exact ⟨by omega, k2, hkch, .inl ⟨k7, k5, k8, k3, by rw [k4]; exact hnot⟩⟩
      · simp [hjk] at hd
        have hd' : (s.act k).sys.any (carries j) = true := by simpa using hd
        obtain ⟨b1, b2, b3, b4⟩ := hcar j hd'
        exact ⟨by omega, by omega, (h.fresh j hj (by omega) b4).children, .inr ⟨b4, .inr ⟨k, b3, by omega, by simp⟩⟩⟩
  cases hst : (s.act i).cell.stopping && ((s.act i).cell.children.eraseP (fun x => decide (x.path = q))).isEmpty with
  | true =>
    simp only [Bool.and_eq_true, List.isEmpty_iff] at hst
    have hpr : process (s.act i).cell (.detach q) = ((stopImpl { (s.act i).cell with children := (s.act i).cell.children.eraseP (fun x => decide (x.path = q)) }).1,
        [.destroy x] ++ (stopImpl { (s.act i).cell with children := (s.act i).cell.children.eraseP (fun x => decide (x.path = q)) }).2, true) := by
      simp [process, hrm, hst]
    rw [takeMsg_kill s i k _ ms _ had (by rw [hpr]; simp [victim, hxk]) (by omega) hni hbusy h.nub]
    have htk : taken (s.act i) (.detach q) ms (s.act i).usr = { s.act i with cell := (stopImpl { (s.act i).cell with children := (s.act i).cell.children.eraseP (fun x => decide (x.path = q)) }).1, sys := ms, out := (stopImpl { (s.act i).cell with children := (s.act i).cell.children.eraseP (fun x => decide (x.path = q)) }).2, stop := true } := by
      unfold taken
      rw [hpr]
      dsimp only
      rw [List.filter_append, stopImpl_nodestroy]
      simp [isStartMsg, isDestroy]
    rw [htk]
    refine key _ _ _ rfl rfl ?_ (stopImpl_kinds _).1 (stopImpl_kinds _).2.1 (fun _ hp => (stopImpl_kinds _).2.2 hp)
    exact hl.stops r.out r.stop hal { (s.act i).cell with children := (s.act i).cell.children.eraseP (fun x => decide (x.path = q)) } hst.2 rfl rfl ms _ (fun x hx => by rw [hs]; exact List.mem_cons_of_mem _ hx) rfl
  | false =>
    have hpr : process (s.act i).cell (.detach q) = ({ (s.act i).cell with children := (s.act i).cell.children.eraseP (fun x => decide (x.path = q)) }, [.destroy x], false) := by
      simp only [process, hrm, hst]; rfl
    rw [takeMsg_kill s i k _ ms _ had (by rw [hpr]; simp [victim, hxk]) (by omega) hni hbusy h.nub]
    have htk : taken (s.act i) (.detach q) ms (s.act i).usr = { s.act i with cell := { (s.act i).cell with children := (s.act i).cell.children.eraseP (fun x => decide (x.path = q)) }, sys := ms, out := [], stop := false } := by
      unfold taken
      rw [hpr]
      simp [isStartMsg, isDestroy]
    rw [htk]
    refine key _ _ _ rfl rfl ?_ (by simp) (by simp) (by simp)
    refine hl.goes r.out r.stop hal r.opn hal r.opn rfl rfl rfl ?_ hl.told (fun x hx => by rw [hs]; exact List.mem_cons_of_mem _ hx) (fun _ hx => hx) rfl (by simp) (.inl rfl)
    intro hx he
    dsimp only at hx he
    rw [hx, he] at hst
    simp at hst

/-! ### All steps -/

theorem Inv.step {s s' : St} {a : Action} (h : Inv s) (hg : Good s a) (hs : ActorSteps.step s a = some s') : Inv s' := by
  cases a with
  | create p path ok =>
    simp only [ActorSteps.step] at hs
    split at hs
    · rename_i hc
      simp only [Bool.and_eq_true, decide_eq_true_eq] at hc
      obtain ⟨rfl, hu⟩ := hg
      simp only [Option.some.injEq] at hs
      subst hs
      exact h.create hc.1.1 hc.1.2 hc.2 hu
    · simp at hs
  | send i m =>
    simp only [ActorSteps.step] at hs
    split at hs
    · simp only [Option.some.injEq] at hs
      subst hs
      cases m with
      | stop => exact h.sendSys (m := .stop) hg
      | stopAfterChildren => exact h.sendSys (m := .stopAfterChildren) hg
      | unwatch w => exact h.sendSys (m := .unwatch w) trivial
      | pill => exact h.sendUsr (m := .pill) rfl (fun _ => hg)
      | user m => exact h.sendUsr (m := plainMsg m) rfl (by simp [plainMsg])
    · simp at hs
  | watch w i =>
    simp only [ActorSteps.step] at hs
    split at hs
    · split at hs <;> simp only [Option.some.injEq] at hs <;> subst hs
      · exact h.sendSys (m := .watch w) trivial
      · exact h.sendUsr (m := terminatedMsg i) rfl (by simp [terminatedMsg])
    · simp at hs
  | takeSys i =>
    simp only [ActorSteps.step] at hs
    split at hs
    · rename_i hc
      simp only [Bool.and_eq_true, decide_eq_true_eq, List.isEmpty_iff, Bool.not_eq_true'] at hc
      have r : Ready s i := ⟨hc.1.1.1, hc.1.1.2, hc.1.2, hc.2⟩
      split at hs
      · simp at hs
      · rename_i m ms hm
        simp only [Option.some.injEq] at hs
        subst hs
        have hpl := (h.loc i r.lt).sys m (by rw [hm]; exact List.mem_cons_self)
        cases m with
        | start ok => exact h.takeStart r hm
        | stop => exact h.takeStop r hm
        | stopAfterChildren => exact h.takeSac r hm
        | watch w => exact h.takeWatch r hm (.inl ⟨w, rfl⟩)
        | unwatch w => exact h.takeWatch r hm (.inr ⟨w, rfl⟩)
        | attach c => exact h.takeAttach r hm
        | detach q => exact h.takeDetach r hm
        | user x => simp [isPlain] at hpl
        | pill => simp [isPlain] at hpl
    · simp at hs
  | takeUsr i =>
    simp only [ActorSteps.step] at hs
    split at hs
    · rename_i hc
      simp only [Bool.and_eq_true, decide_eq_true_eq, List.isEmpty_iff, Bool.not_eq_true'] at hc
      have r : Ready s i := ⟨hc.1.1.1.1.1, hc.1.1.1.1.2, hc.1.1.1.2, hc.1.1.2⟩
      split at hs
      · simp at hs
      · rename_i m ms hm
        simp only [Option.some.injEq] at hs
        subst hs
        exact h.takeUser r hc.1.2 hc.2 hm
    · simp at hs
  | emit i =>
    simp only [ActorSteps.step] at hs
    split at hs
    · rename_i hi
      split at hs
      · simp at hs
      · rename_i e es he
        simp only [Option.some.injEq] at hs
        subst hs
        exact h.emit hi he
    · simp at hs
  | close i =>
    simp only [ActorSteps.step] at hs
    split at hs
    · rename_i hc
      simp only [Bool.and_eq_true] at hc
      simp only [Option.some.injEq] at hs
      subst hs
      exact h.close hc.2
    · simp at hs

theorem Inv.goodRun {s s' : St} {as : List Action} (h : Inv s) (hr : GoodRun s as s') : Inv s' := by
  induction hr with
  | nil => exact h
  | cons hg hs _ ih => exact ih (h.step hg hs)

end Verif.ActorSteps
