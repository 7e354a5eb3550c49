import Verif.Model.Root

/-!
# C66: shutdown of an actor system
-/
set_option autoImplicit false

namespace Verif.Root

/-! ## Specification -/

/-- No guardian is stopped from outside. -/
def Act.NotExt : Act → Prop
  | .ext _ => False
  | _ => True

/-- Somebody called `shutdown`, or the destructor. -/
def Requested (as : List Act) : Prop := ∃ b, Act.post (.terminate b) ∈ as

/-- Steps that the system itself makes. -/
def Act.Internal : Act → Prop
  | .process | .guardEnd _ | .rootEnd => True
  | _ => False

/-- The system has nothing to do. -/
def Quiet (s : St) : Prop := ∀ a, a.Internal → step s a = none

/-! ## Invariants -/

/-- The invariant; `ext`: a guardian may have been stopped from outside, `req`: a shutdown was requested, `forced`: with `shutdown`. -/
structure Inv (ext req forced : Prop) (s : St) : Prop where
  flagStopped : ∀ x, s.flag x = true → (s.g x).stage = .stopped
  diedStopped : ∀ x, Msg.died x ∈ s.queue → (s.g x).stage = .stopped
  told : s.closed = false → ∀ x, (s.g x).stage = .stopped → s.flag x = true ∨ Msg.died x ∈ s.queue
  order : ¬ ext → ∀ x, (x = .sys ∨ x = .tmp) → (s.g x).stage ≠ .running → s.flag .usr = true ∧ s.flag .rmt = true
  asked : s.asked = true ↔ s.flag .sys = true ∧ s.flag .tmp = true
  next : s.flag .usr = true → s.flag .rmt = true → ∀ x, (x = .sys ∨ x = .tmp) → (s.g x).stage = .now ∨ (s.g x).stage = .stopped
  closedAll : s.closed = true → ∀ x, (s.g x).stage = .stopped
  started : req → (∃ b, Msg.terminate b ∈ s.queue) ∨ s.closed = true ∨ ∀ x, (x = .usr ∨ x = .rmt) → (s.g x).stage ≠ .running
  forced : forced → Msg.terminate true ∈ s.queue ∨ s.closed = true ∨ ∀ x, (x = .usr ∨ x = .rmt) → (s.g x).stage = .now ∨ (s.g x).stage = .stopped
  why : ¬ ext → ∀ x, (s.g x).stage ≠ .running → req
  whyQ : ∀ b, Msg.terminate b ∈ s.queue → req
  busyStopped : ∀ x, (s.g x).stage = .stopped → (s.g x).busy = false

variable {ext req forced : Prop} {s : St}

theorem inv_init : Inv False False False St.init where
  flagStopped := by simp [St.init]
  diedStopped := by simp [St.init]
  told := by simp [St.init]
  order := by simp [St.init]
  asked := by simp [St.init]
  next := by simp [St.init]
  closedAll := by simp [St.init]
  started := by simp
  forced := by simp
  why := by simp [St.init]
  whyQ := by simp [St.init]
  busyStopped := by simp [St.init]

theorem stop_stage (a : G) : a.stop.stage = if a.stage = .stopped then .stopped else .now := by
  obtain ⟨st, b⟩ := a; cases st <;> rfl
theorem stopAfter_stage (a : G) : a.stopAfter.stage = if a.stage = .running then .after else a.stage := by
  obtain ⟨st, b⟩ := a; cases st <;> rfl
theorem attach_stage (a : G) : a.attach.stage = a.stage := by
  obtain ⟨st, b⟩ := a; cases st <;> rfl
theorem stop_busy (a : G) : a.stop.busy = a.busy := by
  obtain ⟨st, b⟩ := a; cases st <;> rfl
theorem stopAfter_busy (a : G) : a.stopAfter.busy = a.busy := by
  obtain ⟨st, b⟩ := a; cases st <;> rfl

theorem setG_g (s : St) (x y : Guard) (a : G) : (s.setG x a).g y = if y = x then a else s.g y := rfl

/-- A change of guardians that keeps all that the root knows. -/
theorem Inv.guards (h : Inv ext req forced s) {ext' : Prop} (he : ext → ext') (g' : Guard → G)
    (hs : ∀ x, (g' x).stage = .stopped ↔ (s.g x).stage = .stopped) (hb : ∀ x, (s.g x).stage = .stopped → (g' x).busy = false)
    (hr : ∀ x, (s.g x).stage ≠ .running → (g' x).stage ≠ .running) (hn : ∀ x, (s.g x).stage = .now → (g' x).stage = .now)
    (hext : ¬ ext' → ∀ x, (g' x).stage ≠ .running → (s.g x).stage ≠ .running ∨ (req ∧ (x = .usr ∨ x = .rmt)) ∨ (s.flag .usr = true ∧ s.flag .rmt = true)) : Inv ext' req forced { s with g := g' } where
  flagStopped x hx := (hs x).2 (h.flagStopped x hx)
  diedStopped x hx := (hs x).2 (h.diedStopped x hx)
  told hc x hx := h.told hc x ((hs x).1 hx)
  order hx x hxx hne := by
    rcases hext hx x hne with h1 | ⟨-, h1⟩ | h1
    · exact h.order (fun e => hx (he e)) x hxx h1
    · rcases hxx with rfl | rfl <;> simp at h1
    · exact h1
  asked := h.asked
  next h1 h2 x hx := (h.next h1 h2 x hx).imp (hn x) (hs x).2
  closedAll hc x := (hs x).2 (h.closedAll hc x)
  started hr' := (h.started hr').imp_right (Or.imp_right fun h1 x hx => hr x (h1 x hx))
  forced hf := (h.forced hf).imp_right (Or.imp_right fun h1 x hx => (h1 x hx).imp (hn x) (hs x).2)
  why hx x hne := by
    rcases hext hx x hne with h1 | ⟨h1, -⟩ | h1
    · exact h.why (fun e => hx (he e)) x h1
    · exact h1
    · exact h.why (fun e => hx (he e)) .usr (by rw [h.flagStopped _ h1.1]; simp)
  whyQ := h.whyQ
  busyStopped x hx := hb x ((hs x).1 hx)

/-- The first message is taken away. -/
theorem Inv.tail (h : Inv ext req forced s) {m : Msg} {r : List Msg} (hq : s.queue = m :: r) (hm : ∀ x, m = .died x → s.flag x = true)
    (ht : ∀ b, m = .terminate b → (∀ x, (x = .usr ∨ x = .rmt) → (s.g x).stage ≠ .running) ∧ (b = true → ∀ x, (x = .usr ∨ x = .rmt) → (s.g x).stage = .now ∨ (s.g x).stage = .stopped)) :
    Inv ext req forced { s with queue := r } where
  flagStopped := h.flagStopped
  diedStopped x hx := h.diedStopped x (by rw [hq]; exact List.mem_cons_of_mem _ hx)
  told hc x hx := by
    rcases h.told hc x hx with h1 | h1
    · exact Or.inl h1
    · rw [hq] at h1
      rcases List.mem_cons.1 h1 with h1 | h1
      · exact Or.inl (hm x h1.symm)
      · exact Or.inr h1
  order := h.order
  asked := h.asked
  next := h.next
  closedAll := h.closedAll
  started hr := by
    rcases h.started hr with ⟨b, h1⟩ | h1
    · rw [hq] at h1
      rcases List.mem_cons.1 h1 with h1 | h1
      · exact Or.inr (Or.inr (ht b h1.symm).1)
      · exact Or.inl ⟨b, h1⟩
    · exact Or.inr h1
  forced hf := by
    rcases h.forced hf with h1 | h1
    · rw [hq] at h1
      rcases List.mem_cons.1 h1 with h1 | h1
      · exact Or.inr (Or.inr ((ht true h1.symm).2 rfl))
      · exact Or.inl h1
    · exact Or.inr h1
  why := h.why
  whyQ b hb := h.whyQ b (by rw [hq]; exact List.mem_cons_of_mem _ hb)
  busyStopped := h.busyStopped

theorem inv_receive (h : Inv ext req forced s) {m : Msg} {r : List Msg} (hq : s.queue = m :: r) (hc : s.closed = false) : Inv ext req forced (receive { s with queue := r } m) := by
  cases m with
  | add o =>
    have h0 : Inv ext req forced { s with queue := r } := h.tail hq (by simp) (by simp)
    cases o with
    | none => exact h0
    | some x =>
      refine h0.guards id _ (fun y => ?_) (fun y hy => ?_) (fun y hy => ?_) (fun y hy => ?_) (fun _ y hy => ?_)
      · dsimp only; split
        · next e => rw [attach_stage, e]
        · rfl
      · dsimp only at hy ⊢; split
        · next e => subst e; have := h.busyStopped y hy; simp only [G.attach, hy, this]
        · exact h.busyStopped y hy
      · dsimp only at hy ⊢; split
        · next e => rw [attach_stage, ← e]; exact hy
        · exact hy
      · dsimp only at hy ⊢; split
        · next e => rw [attach_stage, ← e]; exact hy
        · exact hy
      · left; dsimp only at hy ⊢; split at hy
        · next e => rw [attach_stage, ← e] at hy; exact hy
        · exact hy
  | terminate b =>
    have hreq : req := h.whyQ b (by rw [hq]; simp)
    cases b with
    | true =>
      have h1 : Inv ext req forced { s with g := (receive s (.terminate true)).g } := by
        refine h.guards id _ (fun y => ?_) (fun y hy => ?_) (fun y hy => ?_) (fun y hy => ?_) (fun _ y hy => ?_)
        · cases y <;> simp [receive, setG_g, stop_stage]
        · have := h.busyStopped y hy
          cases y <;> simp [receive, setG_g, stop_busy, this]
        · cases y <;> simp [receive, setG_g, stop_stage, hy] <;> split <;> simp
        · cases y <;> simp [receive, setG_g, stop_stage, hy]
        · cases y
          · left; simpa [receive, setG_g] using hy
          · left; simpa [receive, setG_g] using hy
          · exact Or.inr (Or.inl ⟨hreq, by simp⟩)
          · exact Or.inr (Or.inl ⟨hreq, by simp⟩)
      have h2 := h1.tail (r := r) hq (by simp) (fun b hb => by
        have : ∀ x, (x = .usr ∨ x = .rmt) → ((receive s (.terminate true)).g x).stage = .now ∨ ((receive s (.terminate true)).g x).stage = .stopped := by
          intro x hx
          have : ∀ a : G, a.stop.stage = .now ∨ a.stop.stage = .stopped := by intro a; rw [stop_stage]; split <;> simp
          rcases hx with rfl | rfl <;> simpa [receive, setG_g] using this _
        refine ⟨fun x hx => ?_, fun _ => this⟩
        rcases this x hx with h | h <;> dsimp only <;> rw [h] <;> simp)
      exact h2
    | false =>
      have h1 : Inv ext req forced { s with g := (receive s (.terminate false)).g } := by
        refine h.guards id _ (fun y => ?_) (fun y hy => ?_) (fun y hy => ?_) (fun y hy => ?_) (fun _ y hy => ?_)
        · cases y <;> simp [receive, setG_g, stopAfter_stage] <;> split <;> simp_all
        · have := h.busyStopped y hy
          cases y <;> simp [receive, setG_g, stopAfter_busy, this]
        · cases y <;> simp [receive, setG_g, stopAfter_stage, hy]
        · cases y <;> simp [receive, setG_g, stopAfter_stage, hy]
        · cases y
          · left; simpa [receive, setG_g] using hy
          · left; simpa [receive, setG_g] using hy
          · exact Or.inr (Or.inl ⟨hreq, by simp⟩)
          · exact Or.inr (Or.inl ⟨hreq, by simp⟩)
      exact h1.tail (r := r) hq (by simp) (fun b hb => by
        refine ⟨fun x hx => ?_, fun hb' => ?_⟩
        · rcases hx with rfl | rfl <;> simp [receive, setG_g, stopAfter_stage] <;> split <;> simp_all
        · subst hb'; simp at hb)
  | died x =>
    have hx : (s.g x).stage = .stopped := h.diedStopped x (by rw [hq]; simp)
    -- the flag is set
    have key : ∀ (fl : Guard → Bool), (∀ y, fl y = if y = x then true else s.flag y) → Inv ext req forced (receive { s with queue := r } (.died x)) := by
      intro fl hfl
      have hmono : ∀ y, s.flag y = true → fl y = true := by intro y hy; rw [hfl]; split <;> simp [hy]
      have hst : ∀ y, fl y = true → (s.g y).stage = .stopped := by
        intro y hy
        rw [hfl] at hy
        split at hy
        · next e => rw [e]; exact hx
        · exact h.flagStopped y hy
      have hfe : (fun y => if y = x then true else s.flag y) = fl := by funext y; exact (hfl y).symm
      have told : s.closed = false → ∀ y, (s.g y).stage = .stopped → fl y = true ∨ Msg.died y ∈ r := by
        intro _ y hy
        rcases h.told hc y hy with h1 | h1
        · exact Or.inl (hmono y h1)
        · rw [hq] at h1
          rcases List.mem_cons.1 h1 with h1 | h1
          · left; rw [hfl]; simp only [Msg.died.injEq] at h1; simp [h1]
          · exact Or.inr h1
      have started : req → (∃ b, Msg.terminate b ∈ r) ∨ s.closed = true ∨ ∀ x, (x = .usr ∨ x = .rmt) → (s.g x).stage ≠ .running := by
        intro hr
        rcases h.started hr with ⟨b, h1⟩ | h1
        · rw [hq] at h1; exact Or.inl ⟨b, by simpa using h1⟩
        · exact Or.inr h1
      have hforced : forced → Msg.terminate true ∈ r ∨ s.closed = true ∨ ∀ x, (x = .usr ∨ x = .rmt) → (s.g x).stage = .now ∨ (s.g x).stage = .stopped := by
        intro hf
        rcases h.forced hf with h1 | h1
        · rw [hq] at h1; exact Or.inl (by simpa using h1)
        · exact Or.inr h1
      have died : ∀ y, Msg.died y ∈ r → (s.g y).stage = .stopped := fun y hy => h.diedStopped y (by rw [hq]; simp [hy])
      have whyQ : ∀ b, Msg.terminate b ∈ r → req := fun b hb => h.whyQ b (by rw [hq]; simp [hb])
      by_cases c1 : fl .sys = true ∧ fl .tmp = true
      · have e : receive { s with queue := r } (.died x) = { s with queue := r, flag := fl, asked := true } := by
          simp only [receive, hfe]; simp only [afterFlag, c1.1, c1.2, Bool.and_self, if_true]
        rw [e]
        exact ⟨hst, died, told, fun a b c d => (h.order a b c d).imp (hmono _) (hmono _), by simp [c1], fun _ _ y hy => hy.elim (fun e => e ▸ Or.inr (hst _ c1.1)) (fun e => e ▸ Or.inr (hst _ c1.2)),
          h.closedAll, started, hforced, h.why, whyQ, h.busyStopped⟩
      · have hna : s.asked = false := by
          cases ha : s.asked with
          | false => rfl
          | true => exact absurd ((h.asked.1 ha).imp (hmono _) (hmono _)) c1
        have hb1 : (fl .sys && fl .tmp) = false := by cases e1 : fl .sys <;> cases e2 : fl .tmp <;> simp_all
        have asked : s.asked = true ↔ fl .sys = true ∧ fl .tmp = true := by rw [hna]; simp [c1]
        by_cases c2 : fl .usr = true ∧ fl .rmt = true
        · have e : receive { s with queue := r } (.died x) = { s with queue := r, flag := fl, g := fun y => if (y = .sys ∨ y = .tmp) then (if fl y = true then s.g y else (s.g y).stop) else s.g y } := by
            simp only [receive, hfe]; simp only [afterFlag, hb1, c2.1, c2.2, Bool.and_self, if_true, Bool.false_eq_true, if_false]
            cases e1 : fl .sys <;> cases e2 : fl .tmp <;> simp [St.setG, e1, e2] <;> funext y <;> cases y <;> simp [e1, e2]
          have hs : ∀ y, ((if (y = .sys ∨ y = .tmp) then (if fl y = true then s.g y else (s.g y).stop) else s.g y : G).stage = .stopped) ↔ (s.g y).stage = .stopped := by
            intro y; split
            · split
              · rfl
              · rw [stop_stage]; split <;> simp_all
            · rfl
          have hn : ∀ y, (y = Guard.sys ∨ y = .tmp) → (if (y = .sys ∨ y = .tmp) then (if fl y = true then s.g y else (s.g y).stop) else s.g y : G).stage = .now ∨
              (if (y = .sys ∨ y = .tmp) then (if fl y = true then s.g y else (s.g y).stop) else s.g y : G).stage = .stopped := by
            intro y hy
            rw [if_pos hy]
            split
            · next e => exact Or.inr (hst y e)
            · rw [stop_stage]; split <;> simp
          have hu : ∀ y, (y = Guard.usr ∨ y = .rmt) → (if (y = .sys ∨ y = .tmp) then (if fl y = true then s.g y else (s.g y).stop) else s.g y : G) = s.g y := by
            intro y hy; rcases hy with rfl | rfl <;> simp
          rw [e]
          refine ⟨fun y hy => (hs y).2 (hst y hy), fun y hy => (hs y).2 (died y hy), fun a y hy => told a y ((hs y).1 hy), fun _ _ _ _ => c2, asked, fun _ _ => hn, fun a y => (hs y).2 (h.closedAll a y), ?_, ?_, ?_, whyQ, ?_⟩
          · intro hr
            refine (started hr).imp_right (Or.imp_right fun h2 y hy => ?_)
            dsimp only; rw [hu y hy]; exact h2 y hy
          · intro hr
            refine (hforced hr).imp_right (Or.imp_right fun h2 y hy => ?_)
            dsimp only; rw [hu y hy]; exact h2 y hy
          · intro he _ _
            exact h.why he .usr (by rw [hst _ c2.1]; simp)
          · intro y hy
            have h2 := h.busyStopped y ((hs y).1 hy)
            dsimp only
            split
            · split
              · exact h2
              · rw [stop_busy]; exact h2
            · exact h2
        · have hb2 : (fl .usr && fl .rmt) = false := by cases e1 : fl .usr <;> cases e2 : fl .rmt <;> simp_all
          have e : receive { s with queue := r } (.died x) = { s with queue := r, flag := fl } := by
            simp only [receive, hfe]; simp only [afterFlag, hb1, hb2, Bool.false_eq_true, if_false]
          rw [e]
          exact ⟨hst, died, told, fun a b c d => (h.order a b c d).imp (hmono _) (hmono _), asked, fun a b => absurd ⟨a, b⟩ c2, h.closedAll, started, hforced, h.why, whyQ, h.busyStopped⟩
    exact key _ (fun _ => rfl)

theorem Inv.weaken (h : Inv ext req forced s) {ext' req' forced' : Prop} (he : ext → ext') (hr : req → req') (hr' : req' → req) (hf : forced' → forced) : Inv ext' req' forced' s :=
  ⟨h.flagStopped, h.diedStopped, h.told, fun hx => h.order (fun e => hx (he e)), h.asked, h.next, h.closedAll, fun hq => h.started (hr' hq), fun hq => h.forced (hf hq),
    fun hx x hne => hr (h.why (fun e => hx (he e)) x hne), fun b hb => hr (h.whyQ b hb), h.busyStopped⟩

def Act.IsExt : Act → Prop
  | .ext _ => True
  | _ => False

theorem inv_post (h : Inv ext req forced s) (m : Msg) (hm : ∀ x, m ≠ .died x) (hc : s.closed = false) :
    Inv ext (req ∨ ∃ b, m = .terminate b) (forced ∨ m = .terminate true) { s with queue := s.queue ++ [m] } where
  flagStopped := h.flagStopped
  diedStopped x hx := by
    rcases List.mem_append.1 hx with h1 | h1
    · exact h.diedStopped x h1
    · exact absurd (List.mem_singleton.1 h1).symm (hm x)
  told hc x hx := (h.told hc x hx).imp_right (fun h1 => List.mem_append_left _ h1)
  order := h.order
  asked := h.asked
  next := h.next
  closedAll := h.closedAll
  started hr := by
    rcases hr with hr | ⟨b, rfl⟩
    · exact (h.started hr).imp (fun ⟨b, hb⟩ => ⟨b, List.mem_append_left _ hb⟩) id
    · exact Or.inl ⟨b, by simp⟩
  forced hr := by
    rcases hr with hr | rfl
    · exact (h.forced hr).imp (fun hb => List.mem_append_left _ hb) id
    · exact Or.inl (by simp)
  why hx x hne := Or.inl (h.why hx x hne)
  whyQ b hb := by
    rcases List.mem_append.1 hb with h1 | h1
    · exact Or.inl (h.whyQ b h1)
    · exact Or.inr ⟨b, (List.mem_singleton.1 h1).symm⟩
  busyStopped := h.busyStopped

theorem ready_ne {a : G} (h : a.ready = true) : a.stage ≠ .running ∧ a.stage ≠ .stopped := by
  obtain ⟨st, b⟩ := a; cases st <;> simp_all [G.ready]

theorem inv_guardEnd (h : Inv ext req forced s) (x : Guard) (hx : (s.g x).ready = true) (hc : s.closed = false) :
    Inv ext req forced { s.setG x ⟨.stopped, false⟩ with queue := s.queue ++ [.died x] } := by
  obtain ⟨h1, h2⟩ := ready_ne hx
  have hg : ∀ y, (s.g y).stage = .stopped → ((s.setG x ⟨.stopped, false⟩).g y).stage = .stopped := by
    intro y hy; rw [setG_g]; split
    · rfl
    · exact hy
  have hg' : ∀ y, ((s.setG x ⟨.stopped, false⟩).g y).stage ≠ .running → (s.g y).stage ≠ .running := by
    intro y hy; rw [setG_g] at hy; split at hy
    · next e => rw [e]; exact h1
    · exact hy
  have hr : ∀ y, (s.g y).stage ≠ .running → ((s.setG x ⟨.stopped, false⟩).g y).stage ≠ .running := by
    intro y hy; rw [setG_g]; split
    · simp
    · exact hy
  have hn : ∀ y, (s.g y).stage = .now ∨ (s.g y).stage = .stopped → ((s.setG x ⟨.stopped, false⟩).g y).stage = .now ∨ ((s.setG x ⟨.stopped, false⟩).g y).stage = .stopped := by
    intro y hy; rw [setG_g]; split
    · exact Or.inr rfl
    · exact hy
  refine ⟨fun y hy => hg y (h.flagStopped y hy), ?_, ?_, fun a b c d => h.order a b c (hg' b d), h.asked, fun a b y hy => hn y (h.next a b y hy), fun a => ?_, ?_, ?_, fun a y hy => h.why a y (hg' y hy), ?_, ?_⟩
  · intro y hy
    rcases List.mem_append.1 hy with h3 | h3
    · exact hg y (h.diedStopped y h3)
    · have : y = x := by simpa using h3
      subst this; dsimp only; rw [setG_g, if_pos rfl]
  · intro _ y hy
    dsimp only at hy
    rw [setG_g] at hy
    split at hy
    · next e => right; simp [e]
    · exact (h.told hc y hy).imp_right (fun h1 => List.mem_append_left _ h1)
  · exact absurd a (by simp [St.setG, hc])
  · intro hq
    rcases h.started hq with ⟨b, hb⟩ | hb | hb
    · exact Or.inl ⟨b, List.mem_append_left _ hb⟩
    · exact Or.inr (Or.inl hb)
    · exact Or.inr (Or.inr fun y hy => hr y (hb y hy))
  · intro hq
    rcases h.forced hq with hb | hb | hb
    · exact Or.inl (List.mem_append_left _ hb)
    · exact Or.inr (Or.inl hb)
    · exact Or.inr (Or.inr fun y hy => hn y (hb y hy))
  · intro b hb
    exact h.whyQ b (by simpa using hb)
  · intro y hy
    dsimp only at hy ⊢
    rw [setG_g] at hy ⊢
    split
    · rfl
    · next e => rw [if_neg e] at hy; exact h.busyStopped y hy

/-- Every step keeps the invariant. -/
theorem inv_step (h : Inv ext req forced s) (a : Act) {s' : St} (hs : step s a = some s') :
    Inv (ext ∨ a.IsExt) (req ∨ ∃ b, a = .post (.terminate b)) (forced ∨ a = .post (.terminate true)) s' := by
  cases a with
  | post m =>
    have hm : ∀ x, m ≠ .died x := by rintro x rfl; simp [step] at hs
    have hs' : (if s.closed then some s else some { s with queue := s.queue ++ [m] }) = some s' := by cases m <;> first | exact hs | simp [step] at hs
    cases hc : s.closed with
    | true =>
      rw [hc] at hs'
      simp only [if_true, Option.some.injEq] at hs'
      subst hs'
      refine ⟨h.flagStopped, h.diedStopped, h.told, fun hx => h.order (fun e => hx (Or.inl e)), h.asked, h.next, h.closedAll, fun _ => Or.inr (Or.inl hc), fun _ => Or.inr (Or.inl hc), fun hx x hne => Or.inl (h.why (fun e => hx (Or.inl e)) x hne),
        fun b hb => Or.inl (h.whyQ b hb), h.busyStopped⟩
    | false =>
      rw [hc] at hs'
      simp only [Bool.false_eq_true, if_false, Option.some.injEq] at hs'
      subst hs'
      have := inv_post h m hm hc
      rw [hc] at this
      refine this.weaken Or.inl ?_ ?_ ?_
      · exact Or.imp_right fun ⟨b, hb⟩ => ⟨b, by rw [hb]⟩
      · exact Or.imp_right fun ⟨b, hb⟩ => ⟨b, by simpa using hb⟩
      · exact Or.imp_right fun hb => by simpa using hb
  | process =>
    simp only [step] at hs
    cases hc : s.closed with
    | true => simp [hc] at hs
    | false =>
      simp only [hc, Bool.false_eq_true, if_false] at hs
      cases hq : s.queue with
      | nil => simp [hq] at hs
      | cons m r =>
        simp only [hq, Option.some.injEq] at hs
        subst hs
        have := inv_receive h hq hc
        rw [hc] at this
        exact this.weaken Or.inl Or.inl (by simp) (by simp)
  | guardEnd x =>
    simp only [step] at hs
    by_cases hr : (s.g x).ready = true
    · have hc : s.closed = false := by
        cases hc : s.closed with
        | false => rfl
        | true => exact absurd (h.closedAll hc x) (ready_ne hr).2
      simp only [if_pos hr, hc, Bool.false_eq_true, if_false, Option.some.injEq] at hs
      subst hs
      exact (inv_guardEnd h x hr hc).weaken Or.inl Or.inl (by simp) (by simp)
    · simp [if_neg hr] at hs
  | rootEnd =>
    simp only [step] at hs
    split at hs
    · next hc =>
      simp only [Bool.and_eq_true, Bool.not_eq_true', decide_eq_true_eq] at hc
      simp only [Option.some.injEq] at hs
      subst hs
      obtain ⟨⟨⟨⟨⟨-, -⟩, c1⟩, c2⟩, c3⟩, c4⟩ := hc
      have h1 : Inv ext req forced { s with closed := true } := by
        refine ⟨h.flagStopped, h.diedStopped, by simp, h.order, h.asked, h.next, fun _ y => ?_, fun _ => Or.inr (Or.inl rfl), fun _ => Or.inr (Or.inl rfl), h.why, h.whyQ, h.busyStopped⟩
        cases y <;> assumption
      exact h1.weaken Or.inl Or.inl (by simp) (by simp)
    · simp at hs
  | idle x =>
    simp only [step, Option.some.injEq] at hs
    subst hs
    have hg : ∀ y, ((if y = x then { s.g x with busy := false } else s.g y : G)).stage = (s.g y).stage := by
      intro y; split
      · next e => rw [e]
      · rfl
    refine (h.guards (ext' := ext) id _ (fun y => by rw [hg]) (fun y hy => ?_) (fun y hy => by rw [hg]; exact hy) (fun y hy => by rw [hg]; exact hy) (fun _ y hy => Or.inl (by rw [hg] at hy; exact hy))).weaken Or.inl Or.inl (by simp) (by simp)
    split
    · rfl
    · exact h.busyStopped y hy
  | ext x =>
    simp only [step, Option.some.injEq] at hs
    subst hs
    refine (h.guards (ext' := True) (fun _ => trivial) _ (fun y => ?_) (fun y hy => ?_) (fun y hy => ?_) (fun y hy => ?_) (fun hf => absurd trivial hf)).weaken (fun _ => Or.inr trivial) Or.inl (by simp) (by simp)
    · split
      · next e => rw [stop_stage, e]; split <;> simp_all
      · rfl
    · split
      · next e => rw [stop_busy, ← e]; exact h.busyStopped y hy
      · exact h.busyStopped y hy
    · split
      · rw [stop_stage]; split <;> simp
      · exact hy
    · split
      · next e => rw [stop_stage, ← e, hy]; simp
      · exact hy

theorem inv_run : ∀ (as : List Act) {ext req forced : Prop} {s s' : St}, Inv ext req forced s → run s as = some s' →
    Inv (ext ∨ ∃ a ∈ as, a.IsExt) (req ∨ Requested as) (forced ∨ Act.post (.terminate true) ∈ as) s' := by
  intro as
  induction as with
  | nil =>
    intro ext req forced s s' h hs
    simp only [run, Option.some.injEq] at hs
    subst hs
    exact h.weaken Or.inl Or.inl (by simp [Requested]) (by simp)
  | cons a as ih =>
    intro ext req forced s s' h hs
    simp only [run] at hs
    cases h1 : step s a with
    | none => rw [h1] at hs; simp at hs
    | some s1 =>
      rw [h1] at hs
      simp only at hs
      refine (ih (inv_step h a h1) hs).weaken ?_ ?_ ?_ ?_
      · rintro ((h2 | h2) | ⟨b, hb, h2⟩)
        · exact Or.inl h2
        · exact Or.inr ⟨a, by simp, h2⟩
        · exact Or.inr ⟨b, by simp [hb], h2⟩
      · rintro ((h2 | ⟨b, h2⟩) | ⟨b, h2⟩)
        · exact Or.inl h2
        · exact Or.inr ⟨b, by simp [h2]⟩
        · exact Or.inr ⟨b, by simp [h2]⟩
      · rintro (h2 | ⟨b, h2⟩)
        · exact Or.inl (Or.inl h2)
        · rcases List.mem_cons.1 h2 with h2 | h2
          · exact Or.inl (Or.inr ⟨b, h2.symm⟩)
          · exact Or.inr ⟨b, h2⟩
      · rintro (h2 | h2)
        · exact Or.inl (Or.inl h2)
        · rcases List.mem_cons.1 h2 with h2 | h2
          · exact Or.inl (Or.inr h2.symm)
          · exact Or.inr h2

/-- the invariant of all states that can be reached -/
theorem inv_reach {as : List Act} (hr : run St.init as = some s) : Inv (∃ a ∈ as, a.IsExt) (Requested as) (Act.post (.terminate true) ∈ as) s :=
  (inv_run as inv_init hr).weaken (by simp) (by simp) (by simp) (by simp)

theorem notExt {as : List Act} (h : ∀ a ∈ as, a.NotExt) : ¬ ∃ a ∈ as, a.IsExt := by
  rintro ⟨a, ha, h1⟩
  have := h a ha
  cases a <;> first | exact h1 | exact this

/-! ## Theorems -/

/-- Order: as long as nobody stops a guardian from outside, nothing stops before a shutdown is requested, the actors of the system and the temporary ones are told to stop only when all user and remote actors have stopped,
and the root stops after all others. -/
theorem C66_order_partial {as : List Act} {s : St} (h : run St.init as = some s) (hn : ∀ a ∈ as, a.NotExt) :
    (¬ Requested as → ∀ x, (s.g x).stage = .running) ∧
    (∀ x, (x = .sys ∨ x = .tmp) → (s.g x).stage ≠ .running → (s.g .usr).stage = .stopped ∧ (s.g .rmt).stage = .stopped) ∧
    (s.closed = true → Requested as ∧ ∀ x, (s.g x).stage = .stopped) := by
  have i := inv_reach h
  have hx := notExt hn
  refine ⟨fun hr x => ?_, fun x hxx hne => ?_, fun hc => ⟨i.why hx .usr (by rw [i.closedAll hc]; simp), i.closedAll hc⟩⟩
  · cases e : (s.g x).stage with
    | running => rfl
    | _ => exact absurd (i.why hx x (by rw [e]; simp)) hr
  · have := i.order hx x hxx hne
    exact ⟨i.flagStopped _ this.1, i.flagStopped _ this.2⟩

/-- what is left to do -/
def work (s : St) : Nat :=
  s.queue.length + (!s.closed).toNat +
    ((if (s.g .sys).stage = .stopped then 0 else 2) + (if (s.g .tmp).stage = .stopped then 0 else 2) + (if (s.g .usr).stage = .stopped then 0 else 2) + (if (s.g .rmt).stage = .stopped then 0 else 2))

theorem receive_work (s : St) (m : Msg) : work (receive s m) = work s := by
  have hs : ∀ (s : St) (x : Guard) (a : G), (a.stage = .stopped ↔ (s.g x).stage = .stopped) → work (s.setG x a) = work s := by
    intro s x a h
    cases x <;> simp [work, St.setG, h]
  have st : ∀ a : G, a.stop.stage = .stopped ↔ a.stage = .stopped := by intro a; rw [stop_stage]; split <;> simp_all
  have sa : ∀ a : G, a.stopAfter.stage = .stopped ↔ a.stage = .stopped := by intro a; rw [stopAfter_stage]; split <;> simp_all
  cases m with
  | add o =>
    cases o with
    | none => rfl
    | some x => exact hs _ _ _ (by rw [attach_stage])
  | terminate b =>
    cases b with
    | true => simp only [receive, if_true]; rw [hs _ _ _ (by rw [st]; rfl), hs _ _ _ (st _)]
    | false => simp only [receive, Bool.false_eq_true, if_false]; rw [hs _ _ _ (by rw [sa]; rfl), hs _ _ _ (sa _)]
  | died x =>
    have : ∀ s1 : St, work (afterFlag s1) = work s1 := by
      intro s1
      simp only [afterFlag]
      split
      · rfl
      · split
        · split <;> split
          · rfl
          · exact hs _ _ _ (st _)
          · exact hs _ _ _ (st _)
          · rw [hs _ _ _ (st _), hs _ _ _ (st _)]
        · rfl
    exact this _

/-- Every step that the system makes leaves less to do. -/
theorem internal_work {a : Act} (ha : a.Internal) {s' : St} (h : step s a = some s') : work s' < work s := by
  cases a with
  | process =>
    simp only [step] at h
    split at h
    · simp at h
    · cases hq : s.queue with
      | nil => simp [hq] at h
      | cons m r =>
        simp only [hq, Option.some.injEq] at h
        subst h
        rw [receive_work]
        simp only [work, hq, List.length_cons]
        omega
  | guardEnd x =>
    simp only [step] at h
    by_cases hr : (s.g x).ready = true
    · have h2 := (ready_ne hr).2
      simp only [if_pos hr, Option.some.injEq] at h
      subst h
      cases hc : s.closed <;> cases x <;> simp [work, St.setG, hc, h2] <;> omega
    · simp [if_neg hr] at h
  | rootEnd =>
    simp only [step] at h
    split at h
    · next hc =>
      simp only [Bool.and_eq_true, Bool.not_eq_true'] at hc
      simp only [Option.some.injEq] at h
      subst h
      simp [work, hc.1.1.1.1.2]
    · simp at h
  | post m => exact ha.elim
  | idle x => exact ha.elim
  | ext x => exact ha.elim

/-- The system makes only as many steps of its own as there is work: with no further calls it comes to rest. -/
theorem C66_bounded : ∀ (as : List Act) {s s' : St}, (∀ a ∈ as, a.Internal) → run s as = some s' → as.length + work s' ≤ work s := by
  intro as
  induction as with
  | nil => intro s s' _ h; simp only [run, Option.some.injEq] at h; subst h; simp
  | cons a as ih =>
    intro s s' ha h
    simp only [run] at h
    cases h1 : step s a with
    | none => rw [h1] at h; simp at h
    | some s1 =>
      rw [h1] at h
      have := ih (fun b hb => ha b (by simp [hb])) h
      have := internal_work (ha a (by simp)) h1
      simp only [List.length_cons]
      omega

theorem quiet_queue (hq : Quiet s) (hc : s.closed = false) : s.queue = [] := by
  have := hq .process trivial
  cases e : s.queue with
  | nil => rfl
  | cons m r => simp [step, hc, e] at this

theorem quiet_ready (hq : Quiet s) (x : Guard) : (s.g x).ready = false := by
  have := hq (.guardEnd x) trivial
  cases e : (s.g x).ready with
  | false => rfl
  | true => simp [step, e] at this

/-- No deadlock: when the system has come to rest after a request to shut down, the root has stopped, unless the request was to wait for the user's actors and some of them, or remote ones, still run.
This holds whatever else happened, also if guardians were stopped from outside. -/
theorem C66_completes {as : List Act} {s : St} (h : run St.init as = some s) (hr : Requested as) (hq : Quiet s) :
    s.closed = true ∨ (Act.post (.terminate true) ∉ as ∧ ∃ x, (x = .usr ∨ x = .rmt) ∧ (s.g x).stage = .after ∧ (s.g x).busy = true) := by
  have i := inv_reach h
  cases hc : s.closed with
  | true => exact Or.inl rfl
  | false =>
    right
    have q := quiet_queue hq hc
    have r := quiet_ready hq
    have nn : ∀ x, (s.g x).stage ≠ .now := fun x e => by have := r x; simp [G.ready, e] at this
    have flag : ∀ x, (s.g x).stage = .stopped → s.flag x = true := by
      intro x hx
      rcases i.told hc x hx with h1 | h1
      · exact h1
      · rw [q] at h1; simp at h1
    -- not both have stopped
    have hns : ¬ ((s.g .usr).stage = .stopped ∧ (s.g .rmt).stage = .stopped) := by
      rintro ⟨h1, h2⟩
      have h3 := (i.next (flag _ h1) (flag _ h2) .sys (Or.inl rfl)).resolve_left (nn _)
      have h4 := (i.next (flag _ h1) (flag _ h2) .tmp (Or.inr rfl)).resolve_left (nn _)
      have ha := i.asked.2 ⟨flag _ h3, flag _ h4⟩
      have := hq .rootEnd trivial
      simp [step, ha, hc, h1, h2, h3, h4] at this
    have hex : ∃ x, (x = Guard.usr ∨ x = .rmt) ∧ (s.g x).stage ≠ .stopped := by
      by_cases h1 : (s.g .usr).stage = .stopped
      · exact ⟨.rmt, Or.inr rfl, fun h2 => hns ⟨h1, h2⟩⟩
      · exact ⟨.usr, Or.inl rfl, h1⟩
    obtain ⟨x, hx, hx2⟩ := hex
    refine ⟨fun hf => ?_, x, hx, ?_⟩
    · rcases i.forced hf with h1 | h1 | h1
      · rw [q] at h1; simp at h1
      · rw [hc] at h1; simp at h1
      · exact (h1 x hx).elim (nn x) hx2
    · rcases i.started hr with ⟨b, h1⟩ | h1 | h1
      · rw [q] at h1; simp at h1
      · rw [hc] at h1; simp at h1
      · have h2 := h1 x hx
        have h3 := r x
        have h4 := nn x
        generalize s.g x = gx at *
        obtain ⟨st, b⟩ := gx
        cases st <;> simp_all [G.ready]

/-- `shutdown` always completes: from every state in which it was called, the system's own steps, in any order, end, and then the root has stopped. -/
theorem C66_shutdown {as bs : List Act} {s s' : St} (h : run St.init as = some s) (hf : Act.post (.terminate true) ∈ as) (hi : ∀ b ∈ bs, b.Internal) (h' : run s bs = some s') :
    bs.length ≤ work s ∧ (Quiet s' → s'.closed = true ∧ ∀ x, (s'.g x).stage = .stopped) := by
  refine ⟨Nat.le_trans (Nat.le_add_right _ _) (C66_bounded bs hi h'), fun hq => ?_⟩
  have happ : ∀ (as bs : List Act) (s0 s1 s2 : St), run s0 as = some s1 → run s1 bs = some s2 → run s0 (as ++ bs) = some s2 := by
    intro as
    induction as with
    | nil => intro bs s0 s1 s2 h1 h2; simp only [run, Option.some.injEq] at h1; subst h1; exact h2
    | cons a as ih =>
      intro bs s0 s1 s2 h1 h2
      simp only [run, List.cons_append] at h1 ⊢
      cases e : step s0 a with
      | none => rw [e] at h1; simp at h1
      | some s3 => rw [e] at h1; exact ih bs s3 s1 s2 h1 h2
  have hr := happ as bs _ _ _ h h'
  have hm : Act.post (.terminate true) ∈ as ++ bs := List.mem_append_left _ hf
  rcases C66_completes hr ⟨true, hm⟩ hq with hc | ⟨hn, -⟩
  · exact ⟨hc, (inv_reach hr).closedAll hc⟩
  · exact absurd hm hn

/-- The root gives a new actor to the guardian of its scope, and to no other. -/
theorem C66_add (s : St) (x : Guard) (hx : (s.g x).stage = .running) : ((receive s (.add (some x))).g x).busy = true ∧ ∀ y, y ≠ x → (receive s (.add (some x))).g y = s.g y := by
  constructor
  · simp [receive, setG_g, G.attach, hx]
  · intro y hy; simp [receive, setG_g, hy]

/-- After a guardian was told to stop, new actors are not attached to it. -/
theorem C66_add_refused (s : St) (o : Option Guard) (h : ∀ x, o = some x → (s.g x).stage ≠ .running) : (receive s (.add o)).g = s.g := by
  cases o with
  | none => rfl
  | some x =>
    funext y
    simp only [receive, setG_g]
    split
    · next e =>
      subst e
      have := h y rfl
      generalize s.g y = gy at *
      obtain ⟨st, b⟩ := gy
      cases st <;> first | rfl | exact absurd rfl this
    · rfl

/-- non-vacuity: a forced shutdown with a running user actor -/
def sample : List Act := [.post (.add (some .usr)), .process, .post (.terminate true), .process, .guardEnd .rmt, .guardEnd .usr, .process, .process, .guardEnd .tmp, .process, .guardEnd .sys, .process, .rootEnd]

example : (run St.init sample).map (fun s => s.closed) = some true := by decide +kernel
example : ∀ a ∈ sample, a.NotExt := by
  intro a ha
  simp only [sample, List.mem_cons, List.not_mem_nil, or_false] at ha
  rcases ha with rfl | rfl | rfl | rfl | rfl | rfl | rfl | rfl | rfl | rfl | rfl | rfl | rfl <;> trivial
/-- a shutdown that waits for the user's actor -/
example : (run St.init [.post (.add (some .usr)), .process, .post (.terminate false), .process, .guardEnd .rmt, .process]).map (fun s => (s.closed, (s.g .usr).ready, s.queue)) = some (false, false, []) := by decide +kernel

/-- Who stops the guardians `user` and `remote` by their references shuts the whole system down, though nobody requested it. -/
theorem C66_ext_violated : ∃ as s, run St.init as = some s ∧ ¬ Requested as ∧ s.closed = true := by
  refine ⟨[.ext .usr, .guardEnd .usr, .process, .ext .rmt, .guardEnd .rmt, .process, .guardEnd .sys, .guardEnd .tmp, .process, .process, .rootEnd], _, rfl, ?_, ?_⟩
  · rintro ⟨b, hb⟩; simp at hb
  · decide +kernel

/-- If somebody stops the guardian `system` by its reference, it stops while user actors run. -/
theorem C66_order_violated : ∃ as s, run St.init as = some s ∧ (s.g .sys).stage = .stopped ∧ (s.g .usr).stage = .running ∧ (s.g .usr).busy = true := by
  refine ⟨[.post (.add (some .usr)), .process, .ext .sys, .guardEnd .sys], _, rfl, ?_, ?_, ?_⟩ <;> decide +kernel

end Verif.Root
