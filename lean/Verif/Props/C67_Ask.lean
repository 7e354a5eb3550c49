import Verif.Model.Ask
import Verif.Props.C43_ActorCell

/-!
# C67: the futures of `ask` and `find` get exactly one answer
-/
set_option autoImplicit false

namespace Verif.Ask
open Verif.ActorCell

variable {P R V : Type}

/-! ## Specification -/

/-- the messages that the actor received, in order -/
def received (es : List Eff) : List Nat := es.filterMap fun | .receive m => some m | _ => none

/-- The mailbox hands out `start` at most once (proved for every actor of a system as `ActorTree.C43_started_at_most_once`). -/
def OneStart (ms : List Msg) : Prop := (ms.filter fun | .start _ => true | _ => false).length ≤ 1

/-- The actor has been started and is stopped by a `stop`, with any messages between. Nobody gives it children. -/
def StartedAndStopped (ms : List Msg) : Prop :=
  ∃ pre mid post, ms = pre ++ .start true :: mid ++ .stop :: post ∧ (∀ m ∈ pre, m ≠ .stop ∧ m ≠ .stopAfterChildren) ∧ (∀ m ∈ ms, ∀ c, m ≠ .attach c)

/-- The answer of a future: that of the first message that has one, or the default when the actor stopped. -/
def answer (f : Nat → Option V) (dflt : V) (got : List Nat) (stopped : Bool) : Option V :=
  match got.findSome? f with
  | some v => some v
  | none => if stopped then some dflt else none

/-! ## Proofs -/

/-- the effects that matter to the promise -/
theorem fold_life {S : Type} (f : S → Eff → S) (hf : ∀ s e, e.isLife = false → f s e = s) : ∀ (es : List Eff) (s : S), es.foldl f s = (es.filter Eff.isLife).foldl f s := by
  intro es
  induction es with
  | nil => intro s; rfl
  | cons e es ih =>
    intro s
    cases he : e.isLife with
    | true => rw [List.filter_cons_of_pos he]; exact ih _
    | false => rw [List.filter_cons_of_neg (by simp [he]), List.foldl_cons, hf s e he]; exact ih _

theorem received_life (es : List Eff) : received es = received (es.filter Eff.isLife) := by
  induction es with
  | nil => rfl
  | cons e es ih =>
    cases e <;> simp_all [received, Eff.isLife, List.filter_cons]

theorem received_map (ms : List Nat) : received (ms.map .receive) = ms := by
  induction ms with
  | nil => rfl
  | cons m ms ih => simp_all [received]

/-- a state of the promise that agrees with the answer -/
structure Agrees (s : St V) (a : Option V) : Prop where
  value : s.value = a
  satisfied : s.satisfied = a.isSome
  twice : s.twice = false

theorem Agrees.set {s : St V} (h : Agrees s none) (v : V) : Agrees (s.setValue v) (some v) := by
  obtain ⟨h1, h2, h3⟩ := h
  simp only [St.setValue, h1]
  exact ⟨rfl, rfl, h3⟩

/-- An actor that on each message with an answer sets it, if there is none, and when it stops the default. -/
theorem fold_agrees {step : St V → Eff → St V} {f : Nat → Option V} {dflt : V}
    (hr : ∀ (s : St V) (a : Option V) (m : Nat), Agrees s a → Agrees (step s (.receive m)) (a.or (f m)))
    (hp : ∀ (s : St V) (a : Option V), Agrees s a → Agrees (step s .postStop) (a.or (some dflt)))
    (hs : ∀ (s : St V) (b : Bool), step s (.preStart b) = s) {es : List Eff} {closed : Bool} (h : ValidLife es closed) :
    Agrees (es.foldl step St.init) (answer f dflt (received es) (decide (Eff.postStop ∈ es))) := by
  have h0 : Agrees (St.init : St V) none := ⟨rfl, rfl, rfl⟩
  have hm : ∀ (ms : List Nat) (s : St V) (a : Option V), Agrees s a → Agrees ((ms.map Eff.receive).foldl step s) (a.or (ms.findSome? f)) := by
    intro ms
    induction ms with
    | nil => intro s a h; simpa using h
    | cons m ms ih =>
      intro s a h
      have := ih _ _ (hr s a m h)
      simp only [List.map_cons, List.foldl_cons]
      cases a with
      | some v => simpa using this
      | none =>
        cases hfm : f m with
        | some v => simpa [hfm, List.findSome?_cons] using this
        | none => simpa [hfm, List.findSome?_cons] using this
  cases h with
  | nothing => simpa [answer, received] using h0
  | failed => simpa [answer, received, hs] using h0
  | running ms =>
    have := hm ms St.init none h0
    have hrec : received (Eff.preStart true :: ms.map .receive) = ms := by
      rw [show received (Eff.preStart true :: ms.map .receive) = received (ms.map .receive) from rfl, received_map]
    rw [hrec, List.foldl_cons, hs]
    simp only [Option.none_or] at this
    have hn : decide (Eff.postStop ∈ (Eff.preStart true :: ms.map Eff.receive)) = false := by simp
    rw [hn]
    simp only [answer]
    cases e : ms.findSome? f with
    | some v => rw [e] at this; simpa using this
    | none => rw [e] at this; simpa using this
  | stopped ms =>
    have := hm ms St.init none h0
    have hrec : received (Eff.preStart true :: ms.map .receive ++ [.postStop]) = ms := by
      rw [show received (Eff.preStart true :: ms.map .receive ++ [.postStop]) = received (ms.map .receive ++ [.postStop]) from rfl]
      simp only [received, List.filterMap_append]
      have := received_map ms
      simp only [received] at this
      rw [this]; simp
    rw [hrec, List.cons_append, List.foldl_cons, hs, List.foldl_append, List.foldl_cons, List.foldl_nil]
    simp only [Option.none_or] at this
    have := hp _ _ this
    have hn : decide (Eff.postStop ∈ (Eff.preStart true :: (ms.map Eff.receive ++ [.postStop]))) = true := by simp
    rw [hn]
    simp only [answer]
    cases e : ms.findSome? f with
    | some v => rw [e] at this; simpa using this
    | none => rw [e] at this; simpa using this

theorem postStop_life (es : List Eff) : Eff.postStop ∈ es ↔ Eff.postStop ∈ es.filter Eff.isLife := by
  simp [List.mem_filter, Eff.isLife]

theorem agrees_of_run {step : St V → Eff → St V} {f : Nat → Option V} {dflt : V}
    (hr : ∀ (s : St V) (a : Option V) (m : Nat), Agrees s a → Agrees (step s (.receive m)) (a.or (f m)))
    (hp : ∀ (s : St V) (a : Option V), Agrees s a → Agrees (step s .postStop) (a.or (some dflt)))
    (hs : ∀ (s : St V) (b : Bool), step s (.preStart b) = s) (hf : ∀ s e, e.isLife = false → step s e = s) {b : Bool} {ms : List Msg} {c : Cell} {es : List Eff} {closed : Bool}
    (h1 : OneStart ms) (h : runCell (Cell.fresh b) ms = some (c, es, closed)) : Agrees (es.foldl step St.init) (answer f dflt (received es) (decide (Eff.postStop ∈ es))) := by
  have hv := C43_lifecycle b ms c es closed h1 h
  rw [lifecycle_eq] at hv
  rw [fold_life step hf, received_life, decide_eq_decide.2 (postStop_life es)]
  exact fold_agrees hr hp hs hv

/-! ## `ask` -/

theorem ask_agrees (copy : Nat → Option P) {b : Bool} {ms : List Msg} {c : Cell} {es : List Eff} {closed : Bool} (h1 : OneStart ms) (h : runCell (Cell.fresh b) ms = some (c, es, closed)) :
    Agrees (ask copy es) (answer (fun m => (copy m).map some) none (received es) (decide (Eff.postStop ∈ es))) := by
  refine agrees_of_run (step := askEff copy) ?_ ?_ (fun _ _ => rfl) ?_ h1 h
  · intro s a m h
    cases a with
    | some v => have := h.satisfied; simpa [askEff, this] using h
    | none =>
      have := h.satisfied
      cases hm : copy m with
      | some p => simpa [askEff, this, hm] using h.set (some p)
      | none => simpa [askEff, this, hm] using h
  · intro s a h
    cases a with
    | some v => have := h.satisfied; simpa [askEff, this] using h
    | none => have := h.satisfied; simpa [askEff, this] using h.set none
  · intro s e he
    cases e <;> first | rfl | simp [Eff.isLife] at he

theorem find_agrees (kind : Nat → Sel R) {b : Bool} {ms : List Msg} {c : Cell} {es : List Eff} {closed : Bool} (h1 : OneStart ms) (h : runCell (Cell.fresh b) ms = some (c, es, closed)) :
    Agrees (find kind es) (answer (fun m => match kind m with | .success r => some (some r) | .failure => some none | .other => none) none (received es) (decide (Eff.postStop ∈ es))) := by
  refine agrees_of_run (step := findEff kind) ?_ ?_ (fun _ _ => rfl) ?_ h1 h
  · intro s a m h
    cases a with
    | some v => have := h.satisfied; cases hm : kind m <;> simpa [findEff, this, hm] using h
    | none =>
      have := h.satisfied
      cases hm : kind m with
      | success r => simpa [findEff, this, hm] using h.set (some r)
      | failure => simpa [findEff, this, hm] using h.set none
      | other => simpa [findEff, this, hm] using h
  · intro s a h
    cases a with
    | some v => have := h.satisfied; simpa [findEff, this] using h
    | none => have := h.satisfied; simpa [findEff, this] using h.set none
  · intro s e he
    cases e <;> first | rfl | simp [Eff.isLife] at he

theorem postStop_of_stopped : ∀ (mid : List Msg) (post : List Msg) (c c' : Cell) (es : List Eff) (closed : Bool), c.children = [] → c.started = true →
    (∀ m ∈ mid, (∀ ch, m ≠ .attach ch) ∧ m.isStart = false) → runCell c (mid ++ .stop :: post) = some (c', es, closed) → Eff.postStop ∈ es ∧ closed = true := by
  intro mid
  induction mid with
  | nil =>
    intro post c c' es closed hc hs _ h
    obtain ⟨-, h⟩ := runCell_cons h
    have hp : process c .stop = ((stopImpl c).1, (stopImpl c).2, true) := by simp [process, hc]
    rcases h with ⟨h1, h2⟩ | ⟨h1, -⟩
    · rw [hp] at h2
      obtain ⟨rfl, rfl, rfl⟩ := Prod.mk.injEq .. ▸ (by simpa using h2 : c' = (stopImpl c).1 ∧ es = (stopImpl c).2 ∧ closed = true)
      simp [stopImpl, hs]
    · rw [hp] at h1; simp at h1
  | cons m mid ih =>
    intro post c c' es closed hc hs hm h
    obtain ⟨-, h⟩ := runCell_cons h
    obtain ⟨hm1, hm2⟩ := hm m (by simp)
    obtain ⟨p1, p2⟩ := process_life c m hm2
    rcases h with ⟨h1, h2⟩ | ⟨h1, r', h2, h3⟩
    · have h4 := p2 h1
      rw [hs, if_pos rfl] at h4
      have h5 : Eff.postStop ∈ (process c m).2.1 := (postStop_life _).2 (by rw [h4]; simp)
      have : es = (process c m).2.1 ∧ closed = (process c m).2.2 := by rw [← h2]; exact ⟨rfl, rfl⟩
      rw [this.1, this.2]
      exact ⟨h5, h1⟩
    · have hch : (process c m).1.children = [] := by
        cases m with
        | attach ch => exact absurd rfl (hm1 ch)
        | detach p => simp only [process, removeChild, hc]; simp; split <;> simp [stopImpl, hc]
        | _ => simp [process, hc] <;> (try split) <;> simp [stopImpl, hc]
      obtain ⟨q1, q2⟩ := ih post _ r'.1 r'.2.1 r'.2.2 hch (by rw [(p1 h1).1, hs]) (fun x hx => hm x (by simp [hx])) h2
      have : es = (process c m).2.1 ++ r'.2.1 ∧ closed = r'.2.2 := by
        simp only [Prod.mk.injEq] at h3; exact ⟨h3.2.1, h3.2.2⟩
      rw [this.1, this.2]
      exact ⟨List.mem_append_right _ q1, q2⟩

theorem stopped_postStop {b : Bool} {ms : List Msg} {c : Cell} {es : List Eff} {closed : Bool} (h1 : OneStart ms) (hs : StartedAndStopped ms) (h : runCell (Cell.fresh b) ms = some (c, es, closed)) :
    Eff.postStop ∈ es ∧ closed = true := by
  obtain ⟨pre, mid, post, rfl, hpre, hatt⟩ := hs
  have hcnt : (pre ++ .start true :: mid ++ .stop :: post).countP Msg.isStart ≤ 1 := by
    rw [List.countP_eq_length_filter]
    refine Nat.le_trans (Nat.le_of_eq ?_) h1
    congr 2
  have hp0 : ∀ m ∈ pre ++ mid, m.isStart = false := by
    simp only [List.countP_append, List.countP_cons, Msg.isStart, if_true] at hcnt
    have e1 : pre.countP Msg.isStart = 0 := by omega
    have e2 : mid.countP Msg.isStart = 0 := by omega
    intro m hm
    rcases List.mem_append.1 hm with hm | hm
    · simpa using List.countP_eq_zero.1 e1 m hm
    · simpa using List.countP_eq_zero.1 e2 m hm
  -- the messages before `start`
  have gen : ∀ (pre : List Msg) (c0 c' : Cell) (es : List Eff) (closed : Bool), c0.children = [] → c0.stopping = false → (∀ m ∈ pre, m ≠ .stop ∧ m ≠ .stopAfterChildren) → (∀ m ∈ pre, ∀ c, m ≠ .attach c) → (∀ m ∈ pre, m.isStart = false) →
      runCell c0 (pre ++ (.start true :: mid ++ .stop :: post)) = some (c', es, closed) → Eff.postStop ∈ es ∧ closed = true := by
    intro pre
    induction pre with
    | nil =>
      intro c0 c' es closed hc _ _ _ _ h
      simp only [List.nil_append, List.cons_append] at h
      obtain ⟨-, h⟩ := runCell_cons h
      rcases h with ⟨h1, -⟩ | ⟨-, r', h2, h3⟩
      · simp [process] at h1
      · obtain ⟨q1, q2⟩ := postStop_of_stopped mid post _ r'.1 r'.2.1 r'.2.2 (by simp [process, hc]) (by simp [process]) (fun m hm => ⟨fun ch => hatt m (by simp [hm]) ch, hp0 m (by simp [hm])⟩) h2
        have : es = (process c0 (.start true)).2.1 ++ r'.2.1 ∧ closed = r'.2.2 := by
          simp only [Prod.mk.injEq] at h3; exact ⟨h3.2.1, h3.2.2⟩
        rw [this.1, this.2]
        exact ⟨List.mem_append_right _ q1, q2⟩
    | cons m pre ih =>
      intro c0 c' es closed hc hst hp ha hi h
      simp only [List.cons_append] at h
      obtain ⟨-, h⟩ := runCell_cons h
      have hm := hp m (by simp)
      have ham := ha m (by simp)
      have him := hi m (by simp)
      have hproc : (process c0 m).2.2 = false ∧ (process c0 m).1.children = [] ∧ (process c0 m).1.stopping = false := by
        cases m with
        | stop => simp at hm
        | stopAfterChildren => simp at hm
        | start ok => simp [Msg.isStart] at him
        | attach ch => exact absurd rfl (ham ch)
        | watch w => simp only [process]; split <;> simp [hc, hst]
        | unwatch w => simp [process, hc, hst]
        | detach p => simp [process, removeChild, hc, hst]
        | user k => simp [process, hc, hst]
        | pill => simp [process, hc, hst]
      rcases h with ⟨h1, -⟩ | ⟨-, r', h2, h3⟩
      · rw [hproc.1] at h1; simp at h1
      · obtain ⟨q1, q2⟩ := ih _ r'.1 r'.2.1 r'.2.2 hproc.2.1 hproc.2.2 (fun x hx => hp x (by simp [hx])) (fun x hx => ha x (by simp [hx])) (fun x hx => hi x (by simp [hx])) h2
        have : es = (process c0 m).2.1 ++ r'.2.1 ∧ closed = r'.2.2 := by
          simp only [Prod.mk.injEq] at h3; exact ⟨h3.2.1, h3.2.2⟩
        rw [this.1, this.2]
        exact ⟨List.mem_append_right _ q1, q2⟩
  refine gen pre (Cell.fresh b) c es closed rfl rfl hpre (fun m hm => hatt m (by simp [hm])) (fun m hm => hp0 m (by simp [hm])) ?_
  rw [← h]; simp

/-! ## Theorems -/

/-- `ask`: whatever messages the asking actor gets, the future has the first reply that can be copied; if there is none, the null value when the actor stops. It is never set twice. -/
theorem C67_ask_partial (copy : Nat → Option P) {b : Bool} {ms : List Msg} {c : Cell} {es : List Eff} {closed : Bool} (h1 : OneStart ms) (h : runCell (Cell.fresh b) ms = some (c, es, closed)) :
    (ask copy es).value = answer (fun m => (copy m).map some) none (received es) (decide (Eff.postStop ∈ es)) ∧ (ask copy es).twice = false :=
  have := ask_agrees copy h1 h
  ⟨this.value, this.twice⟩

/-- `ask`: when the actor was started, the stop that the timeout sends makes the future ready. -/
theorem C67_ask_ready_partial (copy : Nat → Option P) {b : Bool} {ms : List Msg} {c : Cell} {es : List Eff} {closed : Bool} (h1 : OneStart ms) (hs : StartedAndStopped ms)
    (h : runCell (Cell.fresh b) ms = some (c, es, closed)) : closed = true ∧ (ask copy es).destroyed = .ready ((received es).findSome? copy) := by
  obtain ⟨hp, hc⟩ := stopped_postStop h1 hs h
  refine ⟨hc, ?_⟩
  have := (C67_ask_partial copy h1 h).1
  simp only [St.destroyed, this, answer, decide_eq_true hp, if_true]
  have e : ∀ l : List Nat, l.findSome? (fun m => (copy m).map some) = (l.findSome? copy).map some := by
    intro l
    induction l with
    | nil => rfl
    | cons m l ih => simp only [List.findSome?_cons]; cases copy m <;> simp [ih]
  rw [e]
  cases (received es).findSome? copy <;> rfl

/-- `find`: the future has the first result that the search reports, the empty reference if that is a failure or if the actor stops before; it is never set twice. -/
theorem C67_find (kind : Nat → Sel R) {b : Bool} {ms : List Msg} {c : Cell} {es : List Eff} {closed : Bool} (h1 : OneStart ms) (h : runCell (Cell.fresh b) ms = some (c, es, closed)) :
    (find kind es).value = answer (fun m => match kind m with | .success r => some (some r) | .failure => some none | .other => none) none (received es) (decide (Eff.postStop ∈ es)) ∧
    (find kind es).twice = false :=
  have := find_agrees kind h1 h
  ⟨this.value, this.twice⟩

/-- `find`: when the actor was started, the stop that the timeout sends makes the future ready: with the actor if the first result was a success, else with the empty reference. -/
theorem C67_find_ready_partial (kind : Nat → Sel R) {b : Bool} {ms : List Msg} {c : Cell} {es : List Eff} {closed : Bool} (h1 : OneStart ms) (hs : StartedAndStopped ms)
    (h : runCell (Cell.fresh b) ms = some (c, es, closed)) :
    closed = true ∧ (find kind es).destroyed = .ready ((received es).findSome? fun m => match kind m with | .success r => some (some r) | .failure => some none | .other => none).join := by
  obtain ⟨hp, hc⟩ := stopped_postStop h1 hs h
  refine ⟨hc, ?_⟩
  have := (C67_find kind h1 h).1
  simp only [St.destroyed, this, answer, decide_eq_true hp, if_true]
  cases (received es).findSome? fun m => match kind m with | .success r => some (some r) | .failure => some none | .other => none <;> rfl

/-- non-vacuity: two replies, the second is ignored -/
example : OneStart [.start true, .user 7, .user 8, .stop] ∧ StartedAndStopped [.start true, .user 7, .user 8, .stop] ∧
    runCell (Cell.fresh true) [.start true, .user 7, .user 8, .stop] = some ({ Cell.fresh true with started := false }, [.preStart true, .receive 7, .receive 8, .postStop, .detachToParent], true) ∧
    (ask some [.preStart true, .receive 7, .receive 8, .postStop, .detachToParent]).destroyed = .ready (some 7) := by
  refine ⟨by unfold OneStart; decide, ⟨[], [.user 7, .user 8], [], rfl, by simp, ?_⟩, by decide, by decide⟩
  intro m hm c
  simp only [List.mem_cons, List.not_mem_nil, or_false] at hm
  rcases hm with rfl | rfl | rfl | rfl <;> simp
/-- the timeout -/
example : (ask some [.preStart true, .postStop, .detachToParent]).destroyed = .ready none := by decide

/-- If the timeout ends before the asking actor was started, its future is broken: `get` throws. -/
theorem C67_early_timeout_violated (copy : Nat → Option P) (b : Bool) : ∃ c es, runCell (Cell.fresh b) [.stop, .start true] = some (c, es, true) ∧ (ask copy es).destroyed = .broken := by
  cases b
  · exact ⟨_, _, rfl, rfl⟩
  · exact ⟨_, _, rfl, rfl⟩

/-- The same for `find`. -/
theorem C67_early_timeout_find_violated (kind : Nat → Sel R) (b : Bool) : ∃ c es, runCell (Cell.fresh b) [.stop, .start true] = some (c, es, true) ∧ (find kind es).destroyed = .broken := by
  cases b
  · exact ⟨_, _, rfl, rfl⟩
  · exact ⟨_, _, rfl, rfl⟩

/-- When the guardian of temporary actors is stopping, the cell of a new asking actor is destroyed at once (C66, `G.attach`; actor.cpp l.224-227), without any message: its future is broken, and not null. -/
theorem C67_shutdown_violated (copy : Nat → Option P) (c : Cell) (ch : Child) (hc : c.stopping = true) : (process c (.attach ch)).2.1 = [.destroy ch] ∧ (ask copy []).destroyed = .broken := by
  constructor
  · simp [process, hc]
  · rfl

/-- A reply that cannot be copied is lost: the caller gets the null value, though there was a reply. -/
theorem C67_uncopyable_violated : ∃ c es, runCell (Cell.fresh true) [.start true, .user 7, .stop] = some (c, es, true) ∧ received es = [7] ∧ (ask (fun _ => (none : Option Nat)) es).destroyed = .ready none :=
  ⟨_, _, rfl, rfl, rfl⟩

end Verif.Ask
