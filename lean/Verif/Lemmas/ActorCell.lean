import Verif.Model.ActorCell
set_option autoImplicit false

namespace Verif.ActorCell

def Eff.isLife : Eff → Bool
  | .preStart _ => true
  | .postStop => true
  | .receive _ => true
  | _ => false

def Eff.isReceive : Eff → Bool
  | .receive _ => true
  | _ => false

def Msg.isStart : Msg → Bool
  | .start _ => true
  | _ => false

theorem runCell_cons {c : Cell} {m : Msg} {ms : List Msg} {r : Cell × List Eff × Bool}
    (h : runCell c (m :: ms) = some r) :
    m.allowed c = true ∧
      (((process c m).2.2 = true ∧ r = process c m) ∨
       ((process c m).2.2 = false ∧ ∃ r', runCell (process c m).1 ms = some r' ∧
          r = (r'.1, (process c m).2.1 ++ r'.2.1, r'.2.2))) := by
  unfold runCell at h
  split at h
  · rename_i ha
    refine ⟨ha, ?_⟩
    rcases hp : process c m with ⟨c', es, b⟩
    simp only [hp] at h
    cases b with
    | true => simp at h; left; simp [← h]
    | false =>
      right
      refine ⟨rfl, ?_⟩
      cases hr : runCell c' ms with
      | none => simp [hr] at h
      | some r' => simp [hr] at h; exact ⟨r', rfl, h.symm⟩
  · simp at h

theorem life_stopImpl (c : Cell) : (stopImpl c).2.filter Eff.isLife = if c.started then [.postStop] else [] := by
  unfold stopImpl
  simp only [List.filter_append]
  have h1 : (c.watchers.map Eff.tellTerminated).filter Eff.isLife = [] := by
    rw [List.filter_eq_nil_iff]; simp [Eff.isLife]
  rw [h1]
  cases c.started <;> cases c.hasParent <;> rfl

theorem removeChild_started (c : Cell) (p : Nat) :
    (removeChild c p).1.started = c.started ∧ (removeChild c p).1.stopping = c.stopping ∧
    (removeChild c p).1.hasParent = c.hasParent ∧ (removeChild c p).1.watchers = c.watchers ∧
    (removeChild c p).2.filter Eff.isLife = [] := by
  unfold removeChild; split <;> simp [Eff.isLife]

/-- A message other than `start` changes `started` only by closing, and its lifecycle effects. -/
theorem process_life (c : Cell) (m : Msg) (hm : m.isStart = false) :
    ((process c m).2.2 = false → (process c m).1.started = c.started ∧
      (∀ e ∈ (process c m).2.1.filter Eff.isLife, e.isReceive = true) ∧
      (m.allowed c = true → c.started = false → (process c m).2.1.filter Eff.isLife = [])) ∧
    ((process c m).2.2 = true → (process c m).2.1.filter Eff.isLife = if c.started then [.postStop] else []) := by
  cases m with
  | start ok => simp [Msg.isStart] at hm
  | stop =>
    simp only [process]; split
    · simp [life_stopImpl]
    · have : (c.children.map Eff.pillTo).filter Eff.isLife = [] := by
        rw [List.filter_eq_nil_iff]; simp [Eff.isLife]
      simp [this]
  | stopAfterChildren => simp only [process]; split <;> simp [life_stopImpl]
  | watch w => simp only [process]; split <;> simp
  | unwatch w => simp [process]
  | attach ch => simp only [process]; split <;> simp [Eff.isLife]
  | detach p =>
    obtain ⟨h1, h2, h3, h4, h5⟩ := removeChild_started c p
    simp only [process]
    split
    · simp [life_stopImpl, h5, h1]
    · simp [h5, h1]
  | user m => simp [process, Eff.isLife, Eff.isReceive, Msg.allowed]
  | pill => simp [process, Eff.isLife]

/-- Phase after the only `start`. -/
theorem life_after (ms : List Msg) : ∀ (c : Cell) (r : Cell × List Eff × Bool), (∀ m ∈ ms, m.isStart = false) →
    runCell c ms = some r →
    ∃ rs : List Eff, (∀ e ∈ rs, e.isReceive = true) ∧ (c.started = false → rs = []) ∧
      r.2.1.filter Eff.isLife = rs ++ (if r.2.2 && c.started then [.postStop] else []) := by
  induction ms with
  | nil => intro c r _ h; simp [runCell] at h; subst h; exact ⟨[], by simp⟩
  | cons m ms ih =>
    intro c r hns h
    obtain ⟨ha, h⟩ := runCell_cons h
    obtain ⟨hp1, hp2⟩ := process_life c m (hns m (by simp))
    rcases h with ⟨hc, rfl⟩ | ⟨hc, r', hr', rfl⟩
    · refine ⟨[], by simp, by simp, ?_⟩
      rw [hp2 hc, hc]; simp
    · obtain ⟨hst, hrec, hnil⟩ := hp1 hc
      obtain ⟨rs, h1, h2, h3⟩ := ih _ _ (fun m hm => hns m (by simp [hm])) hr'
      refine ⟨(process c m).2.1.filter Eff.isLife ++ rs, ?_, ?_, ?_⟩
      · intro e he
        rcases List.mem_append.1 he with he | he
        · exact hrec e he
        · exact h1 e he
      · intro hs
        rw [hnil ha hs, h2 (by rw [hst, hs])]; rfl
      · simp only [List.filter_append, h3, hst, List.append_assoc]

/-- Phase before the only `start`. -/
theorem life_before (ms : List Msg) : ∀ (c : Cell) (r : Cell × List Eff × Bool), c.started = false →
    ms.countP Msg.isStart ≤ 1 → runCell c ms = some r →
    r.2.1.filter Eff.isLife = [] ∨ (r.2.1.filter Eff.isLife = [.preStart false] ∧ r.2.2 = true) ∨
    ∃ rs : List Eff, (∀ e ∈ rs, e.isReceive = true) ∧
      r.2.1.filter Eff.isLife = .preStart true :: rs ++ (if r.2.2 then [.postStop] else []) := by
  induction ms with
  | nil => intro c r _ _ h; simp [runCell] at h; subst h; simp
  | cons m ms ih =>
    intro c r hs hcnt h
    obtain ⟨ha, h⟩ := runCell_cons h
    by_cases hm : m.isStart = true
    · have hrest : ∀ m ∈ ms, m.isStart = false := by
        rw [List.countP_cons, hm] at hcnt
        simp only [if_true] at hcnt
        have h0 : ms.countP Msg.isStart = 0 := by omega
        intro x hx
        simpa using List.countP_eq_zero.1 h0 x hx
      cases m with
      | start ok =>
        cases ok with
        | false =>
          rcases h with ⟨hc, rfl⟩ | ⟨hc, _⟩
          · right; left; simp [process, Eff.isLife]
          · simp [process] at hc
        | true =>
          rcases h with ⟨hc, _⟩ | ⟨hc, r', hr', rfl⟩
          · simp [process] at hc
          · right; right
            obtain ⟨rs, h1, -, h3⟩ := life_after ms _ _ hrest hr'
            refine ⟨rs, h1, ?_⟩
            simp only [List.filter_append, h3]
            simp [process]
            rfl
      | _ => simp [Msg.isStart] at hm
    · have hm' : m.isStart = false := by simpa using hm
      obtain ⟨hp1, hp2⟩ := process_life c m hm'
      rcases h with ⟨hc, rfl⟩ | ⟨hc, r', hr', rfl⟩
      · left; rw [hp2 hc]; simp [hs]
      · obtain ⟨hst, hrec, hnil⟩ := hp1 hc
        have := ih _ r' (by rw [hst, hs]) (by rw [List.countP_cons] at hcnt; omega) hr'
        simp only [List.filter_append, hnil ha hs, List.nil_append]
        exact this

/-! Watchers. -/

/-- Effect of one message on "w is a watcher". -/
def watchUpd (w : Nat) (b : Bool) : Msg → Bool
  | .watch w' => if w' = w then true else b
  | .unwatch w' => if w' = w then false else b
  | _ => b

theorem process_watchers (c : Cell) (m : Msg) (hnd : c.watchers.Nodup) :
    (process c m).1.watchers.Nodup ∧
    ∀ w, (w ∈ (process c m).1.watchers ↔ watchUpd w (decide (w ∈ c.watchers)) m = true) := by
  cases m with
  | start ok => simp [process, watchUpd, hnd]
  | stop => simp only [process]; split <;> simp [watchUpd, stopImpl, hnd]
  | stopAfterChildren => simp only [process]; split <;> simp [watchUpd, stopImpl, hnd]
  | watch w =>
    simp only [process]; split
    · rename_i hw
      refine ⟨hnd, fun w' => ?_⟩
      simp only [watchUpd]
      split
      · rename_i he; subst he; simp [hw]
      · simp
    · rename_i hw
      refine ⟨?_, fun w' => ?_⟩
      · simp only [List.nodup_append]
        refine ⟨hnd, by simp, ?_⟩
        intro a ha b hb hab
        simp at hb; subst hb; subst hab; exact hw ha
      · simp only [watchUpd, List.mem_append, List.mem_singleton]
        split
        · rename_i he; simp [he]
        · rename_i he
          have : ¬ w' = w := fun h => he h.symm
          simp [this]
  | unwatch w =>
    refine ⟨hnd.erase w, fun w' => ?_⟩
    simp only [process, watchUpd]
    rw [hnd.mem_erase_iff]
    split
    · rename_i he; subst he; simp
    · rename_i he
      have : w' ≠ w := fun h => he h.symm
      simp [this]
  | attach ch => simp only [process]; split <;> simp [watchUpd, hnd]
  | detach p =>
    obtain ⟨h1, h2, h3, h4, h5⟩ := removeChild_started c p
    simp only [process]; split <;> simp [watchUpd, stopImpl, h4, hnd]
  | user m => simp [process, watchUpd, hnd]
  | pill => simp [process, watchUpd, hnd]

/-- Effects of closing: exactly one notification per watcher. -/
theorem terminated_count_stopImpl (c : Cell) (hnd : c.watchers.Nodup) (w : Nat) :
    (stopImpl c).2.count (.tellTerminated w) = if w ∈ c.watchers then 1 else 0 := by
  have h2 : (c.watchers.map Eff.tellTerminated).count (Eff.tellTerminated w) = c.watchers.count w := by
    induction c.watchers with
    | nil => rfl
    | cons x xs ih => simp only [List.map_cons, List.count_cons, ih]; simp
  unfold stopImpl
  simp only [List.count_append, h2]
  rw [hnd.count]
  cases c.started <;> cases c.hasParent <;> simp

theorem terminated_count_removeChild (c : Cell) (p w : Nat) :
    (removeChild c p).2.count (.tellTerminated w) = 0 := by
  unfold removeChild; split <;> simp

theorem process_terminated (c : Cell) (m : Msg) (hnd : c.watchers.Nodup) (w : Nat) :
    ((process c m).2.2 = false → (process c m).2.1.count (.tellTerminated w) = 0) ∧
    ((process c m).2.2 = true → m ≠ .start false →
      (process c m).2.1.count (.tellTerminated w) = if w ∈ c.watchers then 1 else 0) := by
  have hpill : ∀ l : List Child, (l.map Eff.pillTo).count (.tellTerminated w) = 0 := by
    intro l; rw [List.count_eq_zero]; simp
  cases m with
  | start ok => cases ok <;> simp [process]
  | stop =>
    simp only [process]; split
    · simp only [terminated_count_stopImpl c hnd]; simp
    · simp [hpill]
  | stopAfterChildren =>
    simp only [process]; split
    · simp only [terminated_count_stopImpl c hnd]; simp
    · simp
  | watch w' => simp only [process]; split <;> simp
  | unwatch w' => simp [process]
  | attach ch => simp only [process]; split <;> simp
  | detach p =>
    obtain ⟨h1, h2, h3, h4, h5⟩ := removeChild_started c p
    simp only [process]
    split
    · simp only [List.count_append, terminated_count_removeChild, terminated_count_stopImpl _ (h4 ▸ hnd), h4]
      simp
    · simp [terminated_count_removeChild]
  | user m => simp [process]
  | pill => simp [process]

theorem runCell_watchers (ms : List Msg) : ∀ (c c' : Cell) (es : List Eff), c.watchers.Nodup →
    runCell c ms = some (c', es, false) →
    c'.watchers.Nodup ∧ (∀ w, es.count (.tellTerminated w) = 0) ∧
    ∀ w, (w ∈ c'.watchers ↔ ms.foldl (watchUpd w) (decide (w ∈ c.watchers)) = true) := by
  induction ms with
  | nil => intro c c' es hnd h; simp [runCell] at h; obtain ⟨rfl, rfl⟩ := h; simp [hnd]
  | cons m ms ih =>
    intro c c' es hnd h
    obtain ⟨ha, h⟩ := runCell_cons h
    rcases h with ⟨hc, he⟩ | ⟨hc, ⟨c1, es1, b1⟩, hr', he⟩
    · rw [← he] at hc; simp at hc
    · simp only [Prod.mk.injEq] at he
      obtain ⟨rfl, rfl, rfl⟩ := he
      obtain ⟨hw1, hw2⟩ := process_watchers c m hnd
      obtain ⟨h1, h2, h3⟩ := ih _ _ _ hw1 hr'
      refine ⟨h1, ?_, ?_⟩
      · intro w
        rw [List.count_append, h2 w, (process_terminated c m hnd w).1 hc]
      · intro w
        rw [h3 w, List.foldl_cons]
        have : decide (w ∈ (process c m).1.watchers) = watchUpd w (decide (w ∈ c.watchers)) m := by
          rw [Bool.eq_iff_iff, decide_eq_true_iff, hw2 w]
        rw [this]

theorem runCell_append (ms : List Msg) : ∀ (ns : List Msg) (c : Cell),
    runCell c (ms ++ ns) = (runCell c ms).bind fun r =>
      if r.2.2 then some r else (runCell r.1 ns).map fun r' => (r'.1, r.2.1 ++ r'.2.1, r'.2.2) := by
  induction ms with
  | nil => intro ns c; simp [runCell]
  | cons m ms ih =>
    intro ns c
    simp only [List.cons_append, runCell]
    split
    · rcases hp : process c m with ⟨c', es, b⟩
      cases b with
      | true => simp
      | false =>
        simp only
        rw [ih ns c']
        cases hr : runCell c' ms with
        | none => simp
        | some r =>
          rcases r with ⟨c1, es1, b1⟩
          cases b1 <;> simp
          cases runCell c1 ns <;> simp
    · simp

/-! Children. -/

theorem removeChild_count (c : Cell) (p : Nat) (ch : Child) :
    (removeChild c p).2.count (.destroy ch) + (removeChild c p).1.children.count ch = c.children.count ch := by
  unfold removeChild
  split
  · simp
  · rename_i x hx
    obtain ⟨hpx, as, bs, hl, has⟩ := List.find?_eq_some_iff_append.1 hx
    have he : c.children.eraseP (fun x => decide (x.path = p)) = as ++ bs := by
      rw [hl, List.eraseP_append_right _ (by simpa using has)]
      simp only [decide_eq_true_eq] at hpx
      simp [hpx]
    simp only [he]
    simp only [List.count_singleton, hl, List.count_append, List.count_cons]
    have : (Eff.destroy x == Eff.destroy ch) = (x == ch) := by
      rw [Bool.eq_iff_iff]; simp
    rw [this]
    cases x == ch <;> simp <;> omega

theorem destroy_count_stopImpl (c : Cell) (ch : Child) : (stopImpl c).2.count (.destroy ch) = 0 := by
  unfold stopImpl
  rw [List.count_eq_zero]
  cases c.started <;> cases c.hasParent <;> simp

theorem process_children (c : Cell) (m : Msg) (ch : Child) :
    (process c m).2.1.count (.destroy ch) + (process c m).1.children.count ch =
      c.children.count ch + (if m = .attach ch then 1 else 0) := by
  have hpill : ∀ l : List Child, (l.map Eff.pillTo).count (.destroy ch) = 0 := by
    intro l; rw [List.count_eq_zero]; simp
  cases m with
  | start ok => simp [process]
  | stop => simp only [process]; split <;> simp [destroy_count_stopImpl, hpill]; simp [stopImpl]
  | stopAfterChildren => simp only [process]; split <;> simp [destroy_count_stopImpl]; simp [stopImpl]
  | watch w' => simp only [process]; split <;> simp
  | unwatch w' => simp [process]
  | attach x =>
    simp only [process]; split
    · simp only [List.count_singleton]
      have : (Eff.destroy x == Eff.destroy ch) = (x == ch) := by
        rw [Bool.eq_iff_iff]; simp
      rw [this]; simp; omega
    · simp [List.count_singleton]
  | detach p =>
    have := removeChild_count c p ch
    simp only [process]
    split
    · simp only [List.count_append, destroy_count_stopImpl]
      simp only [stopImpl]
      simpa using this
    · simpa using this
  | user m => simp [process]
  | pill => simp [process]

theorem process_closed_children (c : Cell) (m : Msg) (hm : m ≠ .start false) (hc : (process c m).2.2 = true) :
    (process c m).1.children = [] := by
  cases m with
  | start ok => cases ok <;> simp_all [process]
  | stop =>
    simp only [process] at *; split
    · rename_i h; simpa [stopImpl] using h
    · simp_all
  | stopAfterChildren =>
    simp only [process] at *; split
    · rename_i h; simpa [stopImpl] using h
    · simp_all
  | watch w' => simp only [process] at hc; split at hc <;> simp at hc
  | unwatch w' => simp [process] at hc
  | attach x => simp only [process] at hc; split at hc <;> simp at hc
  | detach p =>
    simp only [process] at *
    split
    · rename_i h; simp at h; simpa [stopImpl] using h.2
    · rename_i h; simp [h] at hc
  | user m => simp [process] at hc
  | pill => simp [process] at hc

end Verif.ActorCell
