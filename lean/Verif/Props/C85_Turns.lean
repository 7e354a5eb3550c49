import Verif.Lemmas.Turns
/-!
**C85.** Actors on one dispatcher share its threads fairly: a turn of an actor on a pool thread hands out at most
`throughput` user messages (one if `throughput` is 0), it ends earlier only when the mailbox had nothing to hand out or the
actor stopped, an actor with messages left is queued behind the actors already waiting, and therefore an actor waiting at
position `p` of a pool with `w` threads gets its turn after at most `(w + p) * throughput` user messages of other turns.

False in the code for system messages: they are not counted, a turn that keeps receiving them never ends
(`C85_system_messages_uncounted_violated`).
-/
set_option autoImplicit false

namespace Verif.Turns

open Verif.Mailbox (St Act PC)

/-! ### Specification -/

/-- User messages a turn may hand out. -/
def perTurn (throughput : Nat) : Nat := max 1 throughput

/-- User messages handed out to all actors of the dispatcher so far. -/
def handled (s : Pool) : Nat := (s.boxes.map fun x => x.popUsr.length).sum

/-- Turns started by a list of actions. -/
def turns (acts : List PAct) : Nat := acts.count .take

/-- The mailbox would hand out nothing now. -/
def nothingToDo (x : St) : Prop := x.sys = [] ∧ (x.usr = [] ∨ x.started = false)

instance (x : St) : Decidable (nothingToDo x) := inferInstanceAs (Decidable (_ ∧ _))

/-! ### One mailbox -/

/-- **C85**, exclusion: at any time, also after the mailbox was closed, at most one task is queued for an actor or runs its
code; any other thread that is in the executor for it has only its end to announce. -/
theorem C85_one_worker {n : Nat} {acts : List Act} {x : St} (h : Mailbox.Reach n acts x) :
    (x.running.filter fun pc => pc ≠ .notify).length + x.queued ≤ 1 := by
  have h1 := (one_reach h).le
  unfold act at h1
  rw [List.countP_eq_length_filter] at h1
  exact h1

/-- **C85**, bound: from the moment a pool thread takes the actor's task to the next such moment at most `perTurn` user
messages are handed out, whatever senders, the actor and its parent do meanwhile. -/
theorem C85_turn_at_most {n : Nat} {acts acts' : List Act} {x x₀ y : St} (h : Mailbox.Reach n acts x)
    (hp : Mailbox.step n x .pick = .ok x₀) (hr : Mailbox.run n x₀ acts' = .ok y) (ht : Act.pick ∉ acts') :
    y.popUsr.length ≤ x.popUsr.length + perTurn n :=
  (turn_run (turn_pick (one_reach h) hp) ht hr).le

/-- **C85**, no early end: when the turn decides to end, it has handed out exactly `perTurn` user messages or it has just
found nothing to do. -/
theorem C85_turn_full {n : Nat} {acts acts' : List Act} {x x₀ y z : St} {a : Act}
    (h : Mailbox.Reach n acts x) (hp : Mailbox.step n x .pick = .ok x₀) (hr : Mailbox.run n x₀ acts' = .ok y)
    (ht : Act.pick ∉ acts') (hs : Mailbox.step n y a = .ok z) (hy : PC.resched ∉ y.running)
    (hz : PC.resched ∈ z.running) :
    z.popUsr.length = x.popUsr.length + perTurn n ∨ (nothingToDo y ∧ z.popUsr = y.popUsr) := by
  have ht := turn_run (turn_pick (one_reach h) hp) ht hr
  have same : ∀ {q : PC} {i : Nat}, q ≠ .resched → z.running = y.running.set i q → False := by
    intro q i hq hr
    rw [hr] at hz
    rcases List.mem_or_eq_of_mem_set hz with hz | hz
    · exact hy hz
    · exact hq hz.symm
  by_cases htk : ∃ i o, a = .task i o
  · obtain ⟨i, o, rfl⟩ := htk
    have at_ : ∀ {p : PC}, y.running[i]? = some p → p ∈ y.running := fun hi => List.mem_iff_getElem?.2 ⟨i, hi⟩
    cases task_move hs with
    | sys m c hi hr hu hq hs => exact (same (by simp) hr).elim
    | usr m c hi hr hu hq hs => exact (same (by simp) hr).elim
    | empty c hi hr hu hq hs he => exact Or.inr ⟨he, hu⟩
    | keep m c hi hr hu hq hs => exact (same (by simp) hr).elim
    | stop m c hi hr hu hq hs => exact (same (by simp) hr).elim
    | next m c hi hr hu hq hs hc => exact (same (by simp) hr).elim
    | yield m c hi hr hu hq hs hc =>
      have t := ht.pcs _ (at_ hi)
      simp only [tok, lim] at t
      refine Or.inl ?_
      rw [hu]
      show _ = _ + max 1 n
      omega
    | requeue hi hr hu hw hq hs => exact absurd (at_ hi) hy
    | rest hi hr hu hw hq hs => exact absurd (at_ hi) hy
    | close hi hr hu hq hs => exact (same (by simp) hr).elim
    | done hi hr hu hq hs => rw [hr] at hz; exact absurd (List.mem_of_mem_eraseIdx hz) hy
  · exfalso
    by_cases hpk : a = .pick
    · subst hpk
      obtain ⟨hr, _, _, _⟩ := pick_move hs
      rw [hr] at hz; simp at hz; exact hy hz
    · obtain ⟨hr, _, _⟩ := other_move hs (fun i o e => htk ⟨i, o, e⟩) hpk
      rw [hr] at hz; exact hy hz

/-- **C85**, end of a turn: the thread leaves, nothing more is handed out, and the actor is queued again exactly when it has
a message it may process. -/
theorem C85_turn_end {n : Nat} {x y : St} {i : Nat} {o : Mailbox.Outcome} (hi : x.running[i]? = some .resched)
    (hs : Mailbox.step n x (.task i o) = .ok y) :
    y.running = x.running.eraseIdx i ∧ y.popUsr = x.popUsr ∧ y.usr = x.usr ∧ y.sys = x.sys ∧
      y.queued = x.queued + if x.sys ≠ [] ∨ (x.started = true ∧ x.isOpen = true ∧ x.usr ≠ []) then 1 else 0 := by
  simp only [Mailbox.step, Mailbox.taskStep, hi, Mailbox.schedule, Bool.or_true, if_true] at hs
  split at hs
  · split at hs <;> simp only [Mailbox.Res.map, Mailbox.Res.ok.injEq] at hs <;> subst hs
    · rename_i hw
      refine ⟨rfl, rfl, rfl, rfl, ?_⟩
      rw [if_pos]
      unfold Mailbox.hasWork at hw
      split at hw <;> simp_all
      rcases hw with hw | hw
      · exact Or.inr hw.symm
      · exact Or.inl hw
    · rename_i hw
      refine ⟨rfl, rfl, rfl, rfl, ?_⟩
      rw [if_neg]
      · rfl
      · unfold Mailbox.hasWork at hw
        split at hw <;> simp_all
        rcases hw with ⟨hw, _⟩
        intro ho
        cases hu : x.usr with
        | nil => rfl
        | cons m l => rw [hw (by simp [hu])] at ho; simp at ho
  · simp [Mailbox.Res.map] at hs

/-! ### All actors of a dispatcher -/

/-- Every mailbox of the pool is in a state the model of one mailbox reaches: what is proved there holds here. -/
theorem C85_boxes {threads throughput n : Nat} {acts : List PAct} {s : Pool} (h : Reach threads throughput n acts s) :
    ∀ x ∈ s.boxes, ∃ acts', Mailbox.Reach throughput acts' x := (pinv_reach h).reach

/-- **C85**, the queue: an actor stands in it at most once, once exactly when it has a queued task; no more than `threads`
turns run at once. -/
theorem C85_queue {threads throughput n : Nat} {acts : List PAct} {s : Pool} (h : Reach threads throughput n acts s) :
    s.queue.Nodup ∧ (∀ b ∈ s.queue, b < n) ∧ (∀ b x, s.boxes[b]? = some x → (b ∈ s.queue ↔ x.queued = 1)) ∧
      busy s ≤ threads := by
  have hi := pinv_reach h
  have one : ∀ (b : Nat) (x : St), s.boxes[b]? = some x → x.queued ≤ 1 := by
    intro b x hx
    obtain ⟨acts', hr⟩ := hi.reach x (List.mem_of_getElem? hx)
    have := C85_one_worker hr
    omega
  refine ⟨?_, hi.inside, ?_, hi.busy⟩
  · rw [List.nodup_iff_count]
    intro b
    by_cases hb : b < n
    · have hb' : b < s.boxes.length := by rw [hi.size]; exact hb
      have hx := List.getElem?_eq_getElem hb'
      rw [hi.count b _ hx]
      exact one b _ hx
    · rw [List.count_eq_zero.2 (fun hm => hb (hi.inside b hm))]
      omega
  · intro b x hx
    have h1 := hi.count b x hx
    have h2 := one b x hx
    rw [← List.count_pos_iff]
    omega

/-- **C85**, bounded waiting: an actor at position `p` of the queue moves forward with every turn that starts, and until
its own turn all actors together are handed at most `(threads + p) * perTurn` user messages. -/
theorem C85_wait_bounded {threads throughput n p b : Nat} {acts acts' : List PAct} {s s' : Pool}
    (h : Reach threads throughput n acts s) (hq : s.queue[p]? = some b) (hr : run threads throughput s acts' = .ok s')
    (ht : turns acts' ≤ p) :
    s'.queue[p - turns acts']? = some b ∧ handled s' ≤ handled s + (threads + turns acts') * perTurn throughput := by
  have hi := pinv_reach h
  obtain ⟨_, h1, h2⟩ := total_run hi hr
  refine ⟨h2 p b hq ht, ?_⟩
  have b1 := (total_bounds throughput s').1
  have b2 := (total_bounds throughput s).2
  have b3 : busy s * lim throughput ≤ threads * lim throughput := Nat.mul_le_mul_right _ hi.busy
  show (s'.boxes.map fun x => x.popUsr.length).sum ≤ (s.boxes.map fun x => x.popUsr.length).sum +
    (threads + acts'.count .take) * lim throughput
  rw [Nat.add_mul]
  omega

/-- **C85**, the turn: the next turn that starts belongs to the actor at the front. -/
theorem C85_front_is_served {threads throughput n b : Nat} {acts : List PAct} {s s' : Pool} {x : St}
    (_h : Reach threads throughput n acts s) (hq : s.queue[0]? = some b) (hx : s.boxes[b]? = some x)
    (hs : step threads throughput s .take = .ok s') :
    ∃ y, s'.boxes = s.boxes.set b y ∧ y.running = x.running ++ [.pop 0] ∧ y.queued + 1 = x.queued ∧ s'.queue = s.queue.tail := by
  simp only [step] at hs
  split at hs
  · rename_i hn; rw [hn] at hq; simp at hq
  · rename_i c rest hqu
    rw [hqu] at hq
    simp at hq; subst hq
    split at hs
    · obtain ⟨x', y, hx', hy, hb, hq'⟩ := boxStep_ok hs
      dsimp only at hx' hb hq'
      rw [hx] at hx'; simp at hx'; subst hx'
      obtain ⟨hr, _, hqd, _⟩ := pick_move hy
      refine ⟨y, hb, hr, by omega, ?_⟩
      rw [hq', hqu, show y.queued - x.queued = 0 by omega]; simp
    · simp at hs

/-! ### Where the code breaks the bound -/

/-- A turn that finds a system message goes back to looking for the next one. -/
structure Serving (x : St) (k : Nat) : Prop where
  run : x.running = [.pop 0]
  sys : x.sys = []
  opn : x.isOpen = true
  alive : x.alive = true
  usr : x.usr = [7]
  popU : x.popUsr = []
  started : x.started = true
  popS : x.popSys.length = k

theorem serving_more {n k : Nat} {x : St} (h : Serving x k) :
    ∃ y, Mailbox.run n x [.enqSys 1, .task 0 .keep, .task 0 .keep] = .ok y ∧ Serving y (k + 1) := by
  obtain ⟨h1, h2, h3, h4, h5, h6, h7, h8⟩ := h
  simp only [Mailbox.run, Mailbox.step, Mailbox.enqSys, h3, if_true, Mailbox.taskStep, h1, List.getElem?_cons_zero, h2,
    List.nil_append, Mailbox.setPC, List.set_cons_zero, h4]
  exact ⟨_, rfl, rfl, rfl, rfl, rfl, h5, h6, h7, by simp [h8]⟩

theorem run_append {n : Nat} {as bs : List Act} : ∀ {x y z : St}, Mailbox.run n x as = .ok y → Mailbox.run n y bs = .ok z →
    Mailbox.run n x (as ++ bs) = .ok z := by
  induction as with
  | nil => intro x y z h1 h2; simp [Mailbox.run] at h1; subst h1; simpa using h2
  | cons a as ih =>
    intro x y z h1 h2
    simp only [Mailbox.run, List.cons_append] at h1 ⊢
    split at h1
    · rename_i w hw; exact ih h1 h2
    · rename_i hne; exact absurd h1 (hne y)

theorem serving_many (n : Nat) {x : St} (h : Serving x 1) (k : Nat) :
    ∃ acts y, Mailbox.run n x acts = .ok y ∧ Act.pick ∉ acts ∧ Serving y (k + 1) := by
  induction k with
  | zero => exact ⟨[], x, rfl, by simp, h⟩
  | succ k ih =>
    obtain ⟨acts, y, hr, hp, hy⟩ := ih
    obtain ⟨z, hz, hz'⟩ := serving_more (n := n) hy
    exact ⟨_, z, run_append hr hz, by simp [hp], hz'⟩

/-- The mailbox when its first task is taken: `start` and the user message 7 wait. -/
def busyBox : St :=
  { Mailbox.init with usr := [7], sys := [0], scheduled := true, pending := 1, queued := 1, accUsr := [7], accSys := [0] }

theorem busyBox_reach (n : Nat) : Mailbox.Reach n [.enqSys 0, .enqUsr 7, .sched] busyBox :=
  .step (acts := [.enqSys 0, .enqUsr 7]) (.step (acts := [.enqSys 0]) (.step (acts := []) .init rfl) rfl) rfl

/-- **C85 is false for system messages**: however many there are, one turn may go on handing them out; the user message
that waits is not handed out and the thread serves nobody else. -/
theorem C85_system_messages_uncounted_violated (n k : Nat) : ∃ acts x x₀ acts' y, Mailbox.Reach n acts x ∧
    Mailbox.step n x .pick = .ok x₀ ∧ Mailbox.run n x₀ acts' = .ok y ∧ Act.pick ∉ acts' ∧
    y.popSys.length = x.popSys.length + (k + 1) ∧ y.popUsr = [] ∧ y.usr = [7] ∧ y.started = true ∧ y.running = [.pop 0] := by
  have h1 : Mailbox.step n busyBox .pick = .ok { busyBox with queued := 0, running := [.pop 0] } := rfl
  have h2 : ∃ y, Mailbox.run n { busyBox with queued := 0, running := [.pop 0] } [.task 0 .keep, .task 0 .startOk] = .ok y ∧
      Serving y 1 := ⟨_, rfl, rfl, rfl, rfl, rfl, rfl, rfl, rfl, rfl⟩
  obtain ⟨y, hy, hs⟩ := h2
  obtain ⟨acts, z, hr, hp, hz⟩ := serving_many n hs k
  exact ⟨_, _, _, _, z, busyBox_reach n, h1, run_append hy hr, by simp [hp], by rw [hz.popS]; simp [busyBox, Mailbox.init],
    hz.popU, hz.usr, hz.started, hz.run⟩

/-! ### Non-vacuity -/

/-- Two actors on one thread with throughput 2: actor 0 has four messages, actor 1 waits behind it. -/
def demo : List PAct :=
  [.act 0 (.enqSys 0), .act 0 .sched, .take, .act 0 (.task 0 .keep), .act 0 (.task 0 .startOk), .act 0 (.enqUsr 1),
   .act 0 (.enqUsr 2), .act 0 (.enqUsr 3), .act 1 (.enqSys 0), .act 1 .sched]

/-- Its first turn handles two messages and goes to the back, the second actor is served, then the first again. -/
def demoRest : List PAct :=
  [.act 0 (.task 0 .keep), .act 0 (.task 0 .keep), .act 0 (.task 0 .keep), .act 0 (.task 0 .keep), .act 0 (.task 0 .keep)]

def got : Res → Option (List Nat × List (List Nat) × Nat)
  | .ok s => some (s.queue, s.boxes.map (·.popUsr), busy s)
  | _ => none

theorem reach_run {threads throughput n : Nat} {as : List PAct} : ∀ {acts : List PAct} {s s' : Pool},
    Reach threads throughput n acts s → run threads throughput s as = .ok s' → Reach threads throughput n (acts ++ as) s' := by
  induction as with
  | nil => intro acts s s' h hr; simp [run] at hr; subst hr; simpa using h
  | cons a as ih =>
    intro acts s s' h hr
    simp only [run] at hr
    split at hr
    · rename_i z hz
      have := ih (.step h hz) hr
      simpa using this
    · rename_i hne; exact absurd hr (hne s')

/-- The hypotheses of the pool theorems are met: actor 1 waits at position 0 while actor 0 handles its two messages. -/
example : got (run 1 2 (init 2) demo) = some ([1], [[], []], 1) := by decide +kernel
example : got (run 1 2 (init 2) (demo ++ demoRest)) = some ([1, 0], [[1, 2], []], 0) := by decide +kernel
example : got (run 1 2 (init 2) (demo ++ demoRest ++ [.take])) = some ([0], [[1, 2], []], 1) := by decide +kernel

/-- One mailbox: a turn with two messages out of three. -/
def turn : List Act := [.task 0 .keep, .task 0 .startOk, .task 0 .keep, .task 0 .keep, .task 0 .keep]

def three : List Act := [.enqSys 0, .enqUsr 1, .enqUsr 2, .enqUsr 3, .sched]

def shows : Mailbox.Res → Option (List Nat × List Nat × List PC)
  | .ok x => some (x.popUsr, x.usr, x.running)
  | _ => none

example : shows (Mailbox.run 2 Mailbox.init (three ++ [.pick] ++ turn)) = some ([1, 2], [3], [.usrMsg 2 1]) := by
  decide +kernel
example : shows (Mailbox.run 2 Mailbox.init (three ++ [.pick] ++ turn ++ [.task 0 .keep])) =
    some ([1, 2], [3], [.resched]) := by decide +kernel
example : shows (Mailbox.run 2 Mailbox.init (three ++ [.pick] ++ turn ++ [.task 0 .keep, .task 0 .keep])) =
    some ([1, 2], [3], []) := by decide +kernel

end Verif.Turns
