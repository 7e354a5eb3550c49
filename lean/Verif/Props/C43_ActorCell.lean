import Verif.Lemmas.ActorCell

/-!
C43, C44, C46 and the single-actor half of C45: how one actor reacts to the messages its mailbox hands out, for every
sequence of messages.  The whole tree of actors is treated in `Verif.Props.C45_ActorTree`.
-/
set_option autoImplicit false

namespace Verif.ActorCell

/-! ### C43 -/

/-- The calls of the user's `pre_start`, `receive` and `post_stop` among the effects, in order. -/
def lifecycle (es : List Eff) : List Eff :=
  es.filter fun | .preStart _ => true | .postStop => true | .receive _ => true | _ => false

/-- The allowed lifecycles: nothing; a failed `pre_start`; a successful `pre_start`, then messages, then possibly `post_stop`,
exactly if the actor was closed. -/
inductive ValidLife : List Eff → Bool → Prop
  | nothing (closed : Bool) : ValidLife [] closed
  | failed : ValidLife [.preStart false] true
  | running (ms : List Nat) : ValidLife (.preStart true :: ms.map .receive) false
  | stopped (ms : List Nat) : ValidLife (.preStart true :: ms.map .receive ++ [.postStop]) true

theorem receives_eq (rs : List Eff) (h : ∀ e ∈ rs, e.isReceive = true) : ∃ ms : List Nat, rs = ms.map .receive := by
  induction rs with
  | nil => exact ⟨[], rfl⟩
  | cons e rs ih =>
    obtain ⟨ms, rfl⟩ := ih (fun x hx => h x (by simp [hx]))
    have he := h e (by simp)
    cases e with
    | receive m => exact ⟨m :: ms, rfl⟩
    | _ => simp [Eff.isReceive] at he

theorem lifecycle_eq (es : List Eff) : lifecycle es = es.filter Eff.isLife := by
  unfold lifecycle
  congr 1

/-- **C43.** Whatever messages an actor gets, as long as it is started at most once (proved for all actors of a system as
`ActorTree.C43_started_at_most_once`), the user's functions are called in an allowed order: `pre_start` first and once, `post_stop` last,
at most once, only after a successful `pre_start`, and always when a started actor stops. -/
theorem C43_lifecycle (hasParent : Bool) (ms : List Msg) (c : Cell) (es : List Eff) (closed : Bool)
    (hstart : (ms.filter fun | .start _ => true | _ => false).length ≤ 1)
    (h : runCell (Cell.fresh hasParent) ms = some (c, es, closed)) : ValidLife (lifecycle es) closed := by
  have hcnt : ms.countP Msg.isStart ≤ 1 := by
    rw [List.countP_eq_length_filter]
    refine Nat.le_trans (Nat.le_of_eq ?_) hstart
    congr 2
  rw [lifecycle_eq]
  rcases life_before ms _ _ rfl hcnt h with h0 | ⟨h0, h1⟩ | ⟨rs, h0, h1⟩
  · simp only at h0; rw [h0]; exact .nothing closed
  · simp only at h0 h1; rw [h0, h1]; exact .failed
  · obtain ⟨ms, rfl⟩ := receives_eq rs h0
    simp only at h1
    rw [h1]
    cases closed with
    | true => exact .stopped ms
    | false => simpa using ValidLife.running ms

example : runCell (Cell.fresh true) [.watch 3, .start true, .user 1, .user 2, .pill, .stop] =
    some ({ started := false, stopping := false, hasParent := true, children := [], watchers := [3] },
      [.preStart true, .receive 1, .receive 2, .stopSelf, .postStop, .tellTerminated 3, .detachToParent], true) := by decide

/-! ### C44 -/

/-- Whether the last `watch`/`unwatch` message naming `w` is a `watch`. -/
def watching (ms : List Msg) (w : Nat) : Bool :=
  ms.foldl (fun b m => match m with
    | .watch w' => if w' = w then true else b
    | .unwatch w' => if w' = w then false else b
    | _ => b) false

theorem watching_eq (ms : List Msg) (w : Nat) : watching ms w = ms.foldl (watchUpd w) false := by
  unfold watching
  congr 1

/-- **C44**, for every history: when processing message `m` after the messages `ms` stops the actor, and the stop is not a
failing `pre_start`, each actor watching at that time is told exactly once, nobody else is told, and nobody was told before.
Missing: a failing `pre_start` tells nobody (`C44_failed_start_violated`), and a `watch` sent between the close of the mailbox
and the destruction of the cell is lost (`ActorTree.C44_lost_watch_violated`). -/
theorem C44_watchers_told_once_partial (hasParent : Bool) (ms : List Msg) (m : Msg) (c1 c2 : Cell) (es1 es2 : List Eff)
    (hm : m ≠ .start false) (h1 : runCell (Cell.fresh hasParent) ms = some (c1, es1, false))
    (h2 : runCell (Cell.fresh hasParent) (ms ++ [m]) = some (c2, es2, true)) (w : Nat) :
    es1.count (.tellTerminated w) = 0 ∧ es2.count (.tellTerminated w) = if watching ms w then 1 else 0 := by
  obtain ⟨hnd, hz, hw⟩ := runCell_watchers ms _ _ _ (by simp [Cell.fresh]) h1
  refine ⟨hz w, ?_⟩
  rw [runCell_append, h1] at h2
  simp only [Option.bind_some, Bool.false_eq_true, if_false] at h2
  cases hr : runCell c1 [m] with
  | none => rw [hr] at h2; simp at h2
  | some r =>
    rw [hr] at h2
    simp only [Option.map_some, Option.some.injEq, Prod.mk.injEq] at h2
    obtain ⟨-, hes, hb⟩ := h2
    obtain ⟨-, hcase⟩ := runCell_cons hr
    rcases hcase with ⟨hc, rfl⟩ | ⟨hc, r', hr', rfl⟩
    · rw [← hes, List.count_append, hz w, (process_terminated c1 m hnd w).2 hc hm, watching_eq]
      have := hw w
      simp only [Cell.fresh, List.not_mem_nil, decide_false] at this
      simp only [this, Nat.zero_add]
    · simp [runCell] at hr'
      subst hr'
      simp at hb

/-- **C44 is violated** by a failing `pre_start`: the watcher is never told. -/
theorem C44_failed_start_violated :
    runCell (Cell.fresh true) [.watch 3, .start false] =
      some ({ started := false, stopping := false, hasParent := true, children := [], watchers := [3] },
        [.preStart false], true) := by decide

example : ∃ c1 es1 c2 es2, runCell (Cell.fresh true) [.start true, .watch 3, .watch 4, .watch 3, .unwatch 4] = some (c1, es1, false) ∧
    runCell (Cell.fresh true) ([.start true, .watch 3, .watch 4, .watch 3, .unwatch 4] ++ [.stop]) = some (c2, es2, true) ∧
    watching [.start true, .watch 3, .watch 4, .watch 3, .unwatch 4] 3 = true ∧
    watching [.start true, .watch 3, .watch 4, .watch 3, .unwatch 4] 4 = false := ⟨_, _, _, _, rfl, rfl, rfl, rfl⟩

/-! ### C45, single actor -/

theorem runCell_children (ms : List Msg) : ∀ (c c' : Cell) (es : List Eff), runCell c ms = some (c', es, false) →
    ∀ ch, es.count (.destroy ch) + c'.children.count ch = c.children.count ch + ms.count (.attach ch) := by
  induction ms with
  | nil => intro c c' es h ch; simp [runCell] at h; obtain ⟨rfl, rfl⟩ := h; simp
  | cons m ms ih =>
    intro c c' es h ch
    obtain ⟨ha, h⟩ := runCell_cons h
    rcases h with ⟨hc, he⟩ | ⟨hc, ⟨c1, es1, b1⟩, hr', he⟩
    · rw [← he] at hc; simp at hc
    · simp only [Prod.mk.injEq] at he
      obtain ⟨rfl, rfl, rfl⟩ := he
      have h1 := ih _ _ _ hr' ch
      have h2 := process_children c m ch
      rw [List.count_append, List.count_cons]
      have : (m == Msg.attach ch) = decide (m = .attach ch) := by rw [Bool.eq_iff_iff]; simp
      rw [this]
      simp only [decide_eq_true_eq]
      omega

/-- **C45**, safety: when processing `m` stops an actor (and `m` is not a failing `pre_start`), it has no children left, and
every child cell that was ever handed to it has been destroyed. -/
theorem C45_children_gone_when_stopped (hasParent : Bool) (ms : List Msg) (m : Msg) (c1 c2 : Cell) (es1 es2 : List Eff)
    (hm : m ≠ .start false) (h1 : runCell (Cell.fresh hasParent) ms = some (c1, es1, false))
    (h2 : runCell (Cell.fresh hasParent) (ms ++ [m]) = some (c2, es2, true)) :
    c2.children = [] ∧ ∀ ch, es2.count (.destroy ch) = ms.count (.attach ch) := by
  rw [runCell_append, h1] at h2
  simp only [Option.bind_some, Bool.false_eq_true, if_false] at h2
  cases hr : runCell c1 [m] with
  | none => rw [hr] at h2; simp at h2
  | some r =>
    rw [hr] at h2
    simp only [Option.map_some, Option.some.injEq, Prod.mk.injEq] at h2
    obtain ⟨hc2, hes, hb⟩ := h2
    obtain ⟨-, hcase⟩ := runCell_cons hr
    rcases hcase with ⟨hc, rfl⟩ | ⟨hc, r', hr', rfl⟩
    · have h0 := process_closed_children c1 m hm hc
      refine ⟨hc2 ▸ h0, fun ch => ?_⟩
      have h3 := runCell_children ms _ _ _ h1 ch
      have h4 := process_children c1 m ch
      have h5 : m ≠ .attach ch := by
        rintro rfl
        simp only [process] at hc
        split at hc <;> simp at hc
      rw [← hes, List.count_append]
      simp [h0, h5, Cell.fresh] at h3 h4
      omega
    · simp [runCell] at hr'
      subst hr'
      simp at hb

theorem removeChild_paths (c : Cell) (p q : Nat) :
    (removeChild c p).1.children.countP (fun x => decide (x.path = q)) + (if p = q then 1 else 0) ≥
      c.children.countP (fun x => decide (x.path = q)) ∧
    (removeChild c p).1.children.countP (fun x => decide (x.path = q)) ≤
      c.children.countP (fun x => decide (x.path = q)) - (if p = q then 1 else 0) := by
  unfold removeChild
  split
  · rename_i hx
    rw [List.find?_eq_none] at hx
    by_cases hpq : p = q
    · subst hpq
      have : c.children.countP (fun x => decide (x.path = p)) = 0 := by
        rw [List.countP_eq_zero]; exact hx
      simp [this]
    · simp [hpq]
  · rename_i x hx
    obtain ⟨hpx, as, bs, hl, has⟩ := List.find?_eq_some_iff_append.1 hx
    simp only [decide_eq_true_eq] at hpx
    have he : c.children.eraseP (fun x => decide (x.path = p)) = as ++ bs := by
      rw [hl, List.eraseP_append_right _ (by simpa using has)]
      simp [hpx]
    simp only [he]
    simp only [hl, List.countP_append, List.countP_cons, decide_eq_true_eq, hpx]
    split <;> omega

/-- A stopping actor that gets a `detach_child` for each of its children (counted by path) stops. -/
theorem stops_of_detached (ms : List Msg) : ∀ (c : Cell) (r : Cell × List Eff × Bool), c.stopping = true →
    c.children ≠ [] →
    (∀ p, c.children.countP (fun x => decide (x.path = p)) ≤ ms.count (.detach p)) → runCell c ms = some r →
    r.2.2 = true ∧ ((∀ m ∈ ms, m ≠ .start false) → c.hasParent = true → .detachToParent ∈ r.2.1) := by
  induction ms with
  | nil =>
    intro c r _ hne hcnt _
    exfalso
    cases hch : c.children with
    | nil => exact hne hch
    | cons x xs =>
      have := hcnt x.path
      rw [hch] at this
      simp at this
  | cons m ms ih =>
    intro c r hstop hne hcnt h
    obtain ⟨ha, h⟩ := runCell_cons h
    rcases h with ⟨hc, rfl⟩ | ⟨hc, r', hr', rfl⟩
    · refine ⟨hc, fun hns hpar => ?_⟩
      have hm := hns m (by simp)
      cases m with
      | start ok => cases ok <;> simp_all [process]
      | stop => simp [process, hne] at hc
      | stopAfterChildren => simp [process, hne] at hc
      | watch w => simp only [process] at hc; split at hc <;> simp at hc
      | unwatch w => simp [process] at hc
      | attach x => simp only [process] at hc; split at hc <;> simp at hc
      | detach p =>
        simp only [process] at hc ⊢
        split
        · have := (removeChild_started c p).2.2.1
          simp [stopImpl, this, hpar]
        · rename_i h; simp [h] at hc
      | user m => simp [process] at hc
      | pill => simp [process] at hc
    · have key : (process c m).1.stopping = true ∧ (process c m).1.children ≠ [] ∧
          (process c m).1.hasParent = c.hasParent ∧
          ∀ p, (process c m).1.children.countP (fun x => decide (x.path = p)) ≤ ms.count (.detach p) := by
        have hcnt' : (∀ p, m ≠ .detach p) →
            ∀ p, c.children.countP (fun x => decide (x.path = p)) ≤ ms.count (.detach p) := by
          intro hmd p
          have := hcnt p
          rw [List.count_cons] at this
          have hb : (m == Msg.detach p) = false := by simpa using hmd p
          simpa [hb] using this
        cases m with
        | start ok => simpa [process, hstop, hne] using hcnt' (by simp)
        | stop => simp only [process] at hc ⊢; split <;> simp_all
        | stopAfterChildren => simp only [process] at hc ⊢; split <;> simp_all
        | watch w => simp only [process] at hc ⊢; split <;> simp_all
        | unwatch w => simpa [process, hstop, hne] using hcnt' (by simp)
        | attach x => simpa [process, hstop, hne] using hcnt' (by simp)
        | detach p =>
          obtain ⟨h1, h2, h3, -, -⟩ := removeChild_started c p
          simp only [process] at hc ⊢
          split
          · rename_i h; simp [h] at hc
          · rename_i hcond
            refine ⟨by simp [h2, hstop], ?_, h3, ?_⟩
            · intro h0
              apply hcond
              have h0' : (removeChild c p).1.children = [] := h0
              simp [h2, hstop, h0']
            · intro q
              show (removeChild c p).1.children.countP (fun x => decide (x.path = q)) ≤ _
              have h4 := (removeChild_paths c p q).2
              have h5 := hcnt q
              rw [List.count_cons] at h5
              by_cases hpq : p = q
              · subst hpq
                simp at h4 h5
                exact Nat.le_trans h4 (by omega)
              · have hb : (Msg.detach p == Msg.detach q) = false := by simpa using hpq
                simp only [hb] at h5
                simp only [hpq] at h4
                simp at h4 h5
                omega
        | user m => simpa [process, hstop, hne] using hcnt' (by simp)
        | pill => simpa [process, hstop, hne] using hcnt' (by simp)
      obtain ⟨k1, k2, k3, k4⟩ := key
      obtain ⟨i1, i2⟩ := ih _ _ k1 k2 k4 hr'
      refine ⟨i1, fun hns hpar => ?_⟩
      exact List.mem_append_right _ (i2 (fun m hm => hns m (by simp [hm])) (by rw [k3]; exact hpar))

/-- **C45**, single actor liveness: an actor that was told to stop while it has children does stop, and tells its own
parent, once it has received as many `detach_child` messages as it has children (of each path). -/
theorem C45_stops_when_children_detached (c : Cell) (ms : List Msg) (r : Cell × List Eff × Bool)
    (hstop : c.stopping = true) (hch : c.children ≠ [])
    (hdet : ∀ p, (c.children.filter fun x => decide (x.path = p)).length ≤ ms.count (.detach p))
    (hrun : runCell c ms = some r) :
    r.2.2 = true ∧ ((∀ m ∈ ms, m ≠ .start false) → c.hasParent = true → .detachToParent ∈ r.2.1) :=
  stops_of_detached ms c r hstop hch (fun p => by rw [List.countP_eq_length_filter]; exact hdet p) hrun

example : runCell { started := true, stopping := true, hasParent := true, children := [⟨1, 5⟩, ⟨2, 6⟩], watchers := [] }
    [.detach 6, .user 9, .detach 5] =
    some ({ started := false, stopping := true, hasParent := true, children := [], watchers := [] },
      [.destroy ⟨2, 6⟩, .receive 9, .destroy ⟨1, 5⟩, .postStop, .detachToParent], true) := by decide

/-- **C45 is violated**: a failing `pre_start` closes the actor without `detach_child` to its parent, so the parent keeps
the child for ever and can never stop. -/
theorem C45_failed_start_violated :
    ∃ c es, runCell (Cell.fresh true) [.start false] = some (c, es, true) ∧ .detachToParent ∉ es :=
  ⟨_, _, rfl, by decide⟩

/-- **C45 is violated**: an actor that is stopped before its parent has attached it (`m_parent` is still null) closes
without `detach_child` as well; the parent attaches the dead cell afterwards and keeps it for ever. -/
theorem C45_stop_before_attach_violated :
    ∃ c es, runCell (Cell.fresh false) [.stop] = some (c, es, true) ∧ .detachToParent ∉ es :=
  ⟨_, _, rfl, by decide⟩

/-! ### C46 -/

/-- **C46**, for children with different paths: `detach_child` for a child destroys exactly that child's cell. Missing: children
with equal paths, where the claim is false (`C46_same_name_violated`). -/
theorem C46_detach_removes_that_child_partial (c : Cell) (x : Child) (hx : x ∈ c.children)
    (hpath : c.children.Pairwise (fun a b => a.path ≠ b.path)) :
    (removeChild c x.path).2 = [.destroy x] ∧
    (removeChild c x.path).1.children = c.children.filter (fun y => decide (y ≠ x)) := by
  obtain ⟨as, bs, hl⟩ := List.append_of_mem hx
  rw [hl, List.pairwise_append, List.pairwise_cons] at hpath
  obtain ⟨-, ⟨hb, -⟩, hab⟩ := hpath
  have has : ∀ y ∈ as, y.path ≠ x.path := fun y hy => hab y hy x (by simp)
  have hbs : ∀ y ∈ bs, y.path ≠ x.path := fun y hy => (hb y hy).symm
  have hf : c.children.find? (fun y => decide (y.path = x.path)) = some x := by
    rw [hl, List.find?_eq_some_iff_append]
    exact ⟨by simp, as, bs, rfl, by simpa using has⟩
  unfold removeChild
  rw [hf]
  refine ⟨rfl, ?_⟩
  simp only
  rw [hl, List.eraseP_append_right _ (by simpa using has)]
  simp only [decide_true, List.eraseP_cons_of_pos, List.filter_append, List.filter_cons]
  have h1 : as.filter (fun y => decide (y ≠ x)) = as := by
    rw [List.filter_eq_self]; intro y hy; simp; rintro rfl; exact has y hy rfl
  have h2 : bs.filter (fun y => decide (y ≠ x)) = bs := by
    rw [List.filter_eq_self]; intro y hy; simp; rintro rfl; exact hbs y hy rfl
  rw [h1, h2]
  simp

/-- **C46 is violated** for two children of the same name: the second child (cell 2) stops and its `detach_child`
destroys the first one (cell 1), which is still running. -/
theorem C46_same_name_violated :
    removeChild { started := true, stopping := false, hasParent := true, children := [⟨1, 5⟩, ⟨2, 5⟩], watchers := [] } 5 =
      ({ started := true, stopping := false, hasParent := true, children := [⟨2, 5⟩], watchers := [] },
        [.destroy ⟨1, 5⟩]) := by decide

example : (⟨2, 6⟩ : Child) ∈ [⟨1, 5⟩, ⟨2, 6⟩, ⟨3, 7⟩] ∧
    [(⟨1, 5⟩ : Child), ⟨2, 6⟩, ⟨3, 7⟩].Pairwise (fun a b => a.path ≠ b.path) := by decide

end Verif.ActorCell
