import Verif.Model.Turns
import Verif.Lemmas.Mailbox
set_option autoImplicit false

namespace Verif.Turns

open Verif.Mailbox (St Act PC)

/-! ### One mailbox: at most one task that still works -/

/-- Tasks that are not merely finishing `notify_on_stop`. -/
def works (pc : PC) : Bool := decide (pc ≠ .notify)

/-- The number of working tasks, queued or running. -/
def act (x : St) : Nat := x.running.countP works + x.queued

structure One (x : St) : Prop where
  le : act x ≤ 1
  off : x.scheduled = false → act x = 0

theorem countP_set {l : List PC} {i : Nat} {p q : PC} (h : l[i]? = some p) :
    (l.set i q).countP works + (if works p then 1 else 0) = l.countP works + (if works q then 1 else 0) := by
  induction l generalizing i with
  | nil => simp at h
  | cons a l ih =>
    cases i with
    | zero => simp at h; subst h; simp [List.countP_cons]; omega
    | succ i => simp at h; simp only [List.set_cons_succ, List.countP_cons]; have := ih h; omega

theorem countP_erase {l : List PC} {i : Nat} {p : PC} (h : l[i]? = some p) :
    (l.eraseIdx i).countP works + (if works p then 1 else 0) = l.countP works := by
  induction l generalizing i with
  | nil => simp at h
  | cons a l ih =>
    cases i with
    | zero => simp at h; subst h; simp [List.countP_cons]
    | succ i => simp at h; simp only [List.eraseIdx_cons_succ, List.countP_cons]; have := ih h; omega

theorem countP_move {l : List PC} {i : Nat} {p q : PC} (h : l[i]? = some p) (hp : works p = true) (hq : works q = true) :
    (l.set i q).countP works = l.countP works := by
  have := countP_set (q := q) h
  rw [hp, hq] at this
  simp only [if_true] at this
  omega

theorem countP_drop {l : List PC} {i : Nat} {p : PC} (h : l[i]? = some p) (hp : works p = true) :
    (l.eraseIdx i).countP works + 1 = l.countP works := by
  have := countP_erase h
  rw [hp] at this
  simpa using this

/-- How one piece of `mailbox_function` moves its task. -/
inductive Move (n : Nat) (x y : St) (i : Nat) : Prop
  | sys (m c : Nat) (hi : x.running[i]? = some (.pop c)) (hr : y.running = x.running.set i (.sysMsg m c))
      (hu : y.popUsr = x.popUsr) (hq : y.queued = x.queued) (hs : y.scheduled = x.scheduled)
  | usr (m c : Nat) (hi : x.running[i]? = some (.pop c)) (hr : y.running = x.running.set i (.usrMsg m c))
      (hu : y.popUsr = x.popUsr ++ [m]) (hq : y.queued = x.queued) (hs : y.scheduled = x.scheduled)
  | empty (c : Nat) (hi : x.running[i]? = some (.pop c)) (hr : y.running = x.running.set i .resched)
      (hu : y.popUsr = x.popUsr) (hq : y.queued = x.queued) (hs : y.scheduled = x.scheduled)
      (he : x.sys = [] ∧ (x.usr = [] ∨ x.started = false))
  | keep (m c : Nat) (hi : x.running[i]? = some (.sysMsg m c)) (hr : y.running = x.running.set i (.pop c))
      (hu : y.popUsr = x.popUsr) (hq : y.queued = x.queued) (hs : y.scheduled = x.scheduled)
  | stop (m c : Nat) (hi : x.running[i]? = some (.sysMsg m c)) (hr : y.running = x.running.set i .closing)
      (hu : y.popUsr = x.popUsr) (hq : y.queued = x.queued) (hs : y.scheduled = x.scheduled)
  | next (m c : Nat) (hi : x.running[i]? = some (.usrMsg m c)) (hr : y.running = x.running.set i (.pop (c + 1)))
      (hu : y.popUsr = x.popUsr) (hq : y.queued = x.queued) (hs : y.scheduled = x.scheduled) (hc : c + 1 < n)
  | yield (m c : Nat) (hi : x.running[i]? = some (.usrMsg m c)) (hr : y.running = x.running.set i .resched)
      (hu : y.popUsr = x.popUsr) (hq : y.queued = x.queued) (hs : y.scheduled = x.scheduled) (hc : n ≤ c + 1)
  | requeue (hi : x.running[i]? = some .resched) (hr : y.running = x.running.eraseIdx i)
      (hu : y.popUsr = x.popUsr) (hw : Mailbox.hasWork x = true) (hq : y.queued = x.queued + 1) (hs : y.scheduled = true)
  | rest (hi : x.running[i]? = some .resched) (hr : y.running = x.running.eraseIdx i)
      (hu : y.popUsr = x.popUsr) (hw : Mailbox.hasWork x = false) (hq : y.queued = x.queued) (hs : y.scheduled = false)
  | close (hi : x.running[i]? = some .closing) (hr : y.running = x.running.set i .notify)
      (hu : y.popUsr = x.popUsr) (hq : y.queued = x.queued) (hs : y.scheduled = false)
  | done (hi : x.running[i]? = some .notify) (hr : y.running = x.running.eraseIdx i)
      (hu : y.popUsr = x.popUsr) (hq : y.queued = x.queued) (hs : y.scheduled = x.scheduled)

theorem task_move {n : Nat} {x y : St} {i : Nat} {o : Mailbox.Outcome} (hs : Mailbox.step n x (.task i o) = .ok y) :
    Move n x y i := by
  simp only [Mailbox.step] at hs
  unfold Mailbox.taskStep at hs
  split at hs
  · simp at hs
  · rename_i c hi
    split at hs
    · rename_i m rest hsys
      simp at hs; subst hs
      exact .sys m c hi rfl rfl rfl rfl
    · rename_i hsys
      split at hs
      · split at hs
        · split at hs
          · rename_i m rest husr
            simp at hs; subst hs
            exact .usr m c hi rfl rfl rfl rfl
          · rename_i husr
            simp at hs; subst hs
            exact .empty c hi rfl rfl rfl rfl ⟨hsys, Or.inl husr⟩
        · rename_i hst
          simp at hs; subst hs
          exact .empty c hi rfl rfl rfl rfl ⟨hsys, Or.inr (by simpa using hst)⟩
      · simp at hs
  · rename_i m c hi
    split at hs
    · split at hs <;> (simp at hs; subst hs)
      · exact .keep m c hi rfl rfl rfl rfl
      · exact .keep m c hi rfl rfl rfl rfl
      · exact .stop m c hi rfl rfl rfl rfl
      · exact .stop m c hi rfl rfl rfl rfl
    · simp at hs
  · rename_i m c hi
    split at hs
    · simp at hs; subst hs
      by_cases hc : n ≤ c + 1
      · exact .yield m c hi (by simp [Mailbox.setPC, hc]) rfl rfl rfl hc
      · exact .next m c hi (by simp [Mailbox.setPC, hc]) rfl rfl rfl (by omega)
    · simp at hs
  · rename_i hi
    unfold Mailbox.schedule at hs
    simp only [Bool.or_true, if_true] at hs
    split at hs
    · split at hs
      · rename_i hw
        simp only [Mailbox.Res.map, Mailbox.Res.ok.injEq] at hs; subst hs
        exact .requeue hi rfl rfl hw rfl rfl
      · rename_i hw
        simp only [Mailbox.Res.map, Mailbox.Res.ok.injEq] at hs; subst hs
        exact .rest hi rfl rfl (by simpa using hw) rfl rfl
    · simp [Mailbox.Res.map] at hs
  · rename_i hi
    simp at hs; subst hs
    exact .close hi rfl rfl rfl rfl
  · rename_i hi
    simp at hs; subst hs
    exact .done hi rfl rfl rfl rfl

/-- How the other actions but `pick` change what matters here. -/
theorem other_move {n : Nat} {x y : St} {a : Act} (hs : Mailbox.step n x a = .ok y) (ht : ∀ i o, a ≠ .task i o)
    (hp : a ≠ .pick) : y.running = x.running ∧ y.popUsr = x.popUsr ∧
      ((y.queued = x.queued ∧ (y.scheduled = x.scheduled ∨ x.scheduled = false)) ∨
       (x.scheduled = false ∧ y.queued = x.queued + 1 ∧ y.scheduled = true)) := by
  cases a with
  | enqUsr m =>
    simp only [Mailbox.step, Mailbox.enqUsr, Mailbox.Res.ok.injEq] at hs
    split at hs <;> (subst hs; simp)
  | enqSys m =>
    simp only [Mailbox.step, Mailbox.enqSys, Mailbox.Res.ok.injEq] at hs
    split at hs <;> (subst hs; simp)
  | sched =>
    simp only [Mailbox.step] at hs
    split at hs
    · simp at hs
    · unfold Mailbox.schedule at hs
      split at hs
      · rename_i hsch
        have hsch' : x.scheduled = false := by simpa using hsch
        split at hs
        · split at hs <;> (simp only [Mailbox.Res.ok.injEq] at hs; subst hs; simp [hsch'])
        · simp at hs
      · simp only [Mailbox.Res.ok.injEq] at hs; subst hs; simp
  | pick => exact absurd rfl hp
  | task i o => exact absurd rfl (ht i o)
  | destroy =>
    simp only [Mailbox.step] at hs
    split at hs
    · simp at hs; subst hs; simp
    · simp at hs

theorem pick_move {n : Nat} {x y : St} (hs : Mailbox.step n x .pick = .ok y) :
    y.running = x.running ++ [.pop 0] ∧ y.popUsr = x.popUsr ∧ x.queued = y.queued + 1 ∧ y.scheduled = x.scheduled := by
  simp only [Mailbox.step] at hs
  split at hs
  · simp at hs
  · split at hs
    · simp at hs; subst hs; refine ⟨rfl, rfl, ?_, rfl⟩; dsimp only; omega
    · simp at hs

theorem one_step {n : Nat} {x y : St} {a : Act} (h : One x) (hs : Mailbox.step n x a = .ok y) : One y := by
  have h1 := h.le
  have h2 := h.off
  unfold act at h1 h2
  by_cases ht : ∃ i o, a = .task i o
  · obtain ⟨i, o, rfl⟩ := ht
    have hm := task_move hs
    suffices hh : act y ≤ 1 ∧ (y.scheduled = false → act y = 0) from ⟨hh.1, hh.2⟩
    unfold act
    cases hm with
    | sys m c hi hr hu hq hs => rw [hr, hq, hs, countP_move (q := .sysMsg m c) hi rfl rfl]; exact ⟨h1, h2⟩
    | usr m c hi hr hu hq hs => rw [hr, hq, hs, countP_move (q := .usrMsg m c) hi rfl rfl]; exact ⟨h1, h2⟩
    | empty c hi hr hu hq hs he => rw [hr, hq, hs, countP_move (q := .resched) hi rfl rfl]; exact ⟨h1, h2⟩
    | keep m c hi hr hu hq hs => rw [hr, hq, hs, countP_move (q := .pop c) hi rfl rfl]; exact ⟨h1, h2⟩
    | stop m c hi hr hu hq hs => rw [hr, hq, hs, countP_move (q := .closing) hi rfl rfl]; exact ⟨h1, h2⟩
    | next m c hi hr hu hq hs hc => rw [hr, hq, hs, countP_move (q := .pop (c + 1)) hi rfl rfl]; exact ⟨h1, h2⟩
    | yield m c hi hr hu hq hs hc => rw [hr, hq, hs, countP_move (q := .resched) hi rfl rfl]; exact ⟨h1, h2⟩
    | requeue hi hr hu hw hq hs =>
      rw [hr, hq, hs]; have := countP_drop hi rfl
      exact ⟨by omega, by simp⟩
    | rest hi hr hu hw hq hs =>
      rw [hr, hq]; have := countP_drop hi rfl
      exact ⟨by omega, fun _ => by omega⟩
    | close hi hr hu hq hs =>
      rw [hr, hq]; have := countP_set (q := .notify) hi
      rw [show works .closing = true from rfl, show works .notify = false from rfl] at this
      simp only [if_true, Bool.false_eq_true, if_false] at this
      exact ⟨by omega, fun _ => by omega⟩
    | done hi hr hu hq hs =>
      have e := countP_erase hi
      rw [show works .notify = false from rfl] at e
      simp only [Bool.false_eq_true, if_false, Nat.add_zero] at e
      rw [hr, hq, hs, e]; exact ⟨h1, h2⟩
  · by_cases hp : a = .pick
    · subst hp
      obtain ⟨hr, _, hq, hsch⟩ := pick_move hs
      refine ⟨?_, fun hf => ?_⟩
      · unfold act; rw [hr, List.countP_append, show [PC.pop 0].countP works = 1 from rfl]; omega
      · have := h2 (by rw [← hsch]; exact hf); omega
    · obtain ⟨hr, _, hc⟩ := other_move hs (fun i o e => ht ⟨i, o, e⟩) hp
      refine ⟨?_, fun hf => ?_⟩
      · unfold act; rw [hr]
        rcases hc with ⟨hq, _⟩ | ⟨ho, hq, _⟩
        · omega
        · have := h2 ho; omega
      · unfold act; rw [hr]
        rcases hc with ⟨hq, ho | ho⟩ | ⟨_, _, ht⟩
        · have := h2 (by rw [← ho]; exact hf); omega
        · have := h2 ho; omega
        · rw [hf] at ht; simp at ht

theorem one_init : One Mailbox.init := by
  constructor <;> simp [act, Mailbox.init]

theorem one_reach {n : Nat} {acts : List Act} {x : St} (h : Mailbox.Reach n acts x) : One x := by
  induction h with
  | init => exact one_init
  | step _ hs ih => exact one_step ih hs

theorem one_run {n : Nat} {acts : List Act} : ∀ {x y : St}, One x → Mailbox.run n x acts = .ok y → One y := by
  induction acts with
  | nil => intro x y h hr; simp [Mailbox.run] at hr; subst hr; exact h
  | cons a as ih =>
    intro x y h hr
    simp only [Mailbox.run] at hr
    split at hr
    · rename_i z hz; exact ih (one_step h hz) hr
    · rename_i hne; exact absurd hr (hne y)

/-! ### One turn -/

/-- Messages a turn may handle. -/
def lim (n : Nat) : Nat := max 1 n

/-- What the position of the working task says about the number `l` of user messages handed out, `k` before the turn. -/
def tok (n k l : Nat) : PC → Prop
  | .pop c => c < lim n ∧ l = k + c
  | .sysMsg _ c => c < lim n ∧ l = k + c
  | .usrMsg _ c => c < lim n ∧ l = k + c + 1
  | .resched => l ≤ k + lim n
  | .closing => l ≤ k + lim n
  | .notify => True

structure Turn (n k : Nat) (x : St) : Prop where
  one : One x
  le : x.popUsr.length ≤ k + lim n
  pcs : ∀ pc ∈ x.running, tok n k x.popUsr.length pc

/-- The only working task is task `i`. -/
theorem others {x : St} (h : One x) {i : Nat} {p : PC} (hi : x.running[i]? = some p) (hw : works p = true) :
    ∀ j q, j ≠ i → x.running[j]? = some q → q = .notify := by
  intro j q hj hq
  by_cases hn : q = .notify
  · exact hn
  · exfalso
    have h1 := h.le
    unfold act at h1
    have e1 := countP_set (q := .notify) hi
    have hq' : (x.running.set i .notify)[j]? = some q := by rw [List.getElem?_set_ne (Ne.symm hj)]; exact hq
    have e2 := countP_set (q := .notify) hq'
    have w : works .notify = false := by decide
    have wq : works q = true := by simp [works, hn]
    rw [w, hw] at e1
    rw [w, wq] at e2
    simp at e1 e2
    omega

theorem pcs_set {n k l : Nat} {x : St} (h : One x) {i : Nat} {p q : PC} (hi : x.running[i]? = some p)
    (hw : works p = true) (hq : tok n k l q) : ∀ pc ∈ x.running.set i q, tok n k l pc := by
  intro pc hm
  obtain ⟨j, hj⟩ := List.mem_iff_getElem?.1 hm
  by_cases hij : j = i
  · subst hij
    obtain ⟨hlt, _⟩ := List.getElem?_eq_some_iff.1 hi
    rw [List.getElem?_set_self hlt] at hj
    simp at hj; subst hj; exact hq
  · rw [List.getElem?_set_ne (Ne.symm hij)] at hj
    have := others h hi hw j pc hij hj
    subst this; trivial

theorem turn_step {n k : Nat} {x y : St} {a : Act} (h : Turn n k x) (hs : Mailbox.step n x a = .ok y) (hp : a ≠ .pick) :
    Turn n k y := by
  have ho := one_step h.one hs
  have hle := h.le
  have hl : 1 ≤ lim n := by unfold lim; omega
  have hl2 : n ≤ lim n := by unfold lim; omega
  by_cases ht : ∃ i o, a = .task i o
  · obtain ⟨i, o, rfl⟩ := ht
    have at_ : ∀ p, x.running[i]? = some p → tok n k x.popUsr.length p := fun p hi =>
      h.pcs p (List.mem_iff_getElem?.2 ⟨i, hi⟩)
    cases task_move hs with
    | sys m c hi hr hu hq hs =>
      have := at_ _ hi
      exact ⟨ho, by rw [hu]; exact hle, by rw [hr, hu]; exact pcs_set h.one hi rfl this⟩
    | usr m c hi hr hu hq hs =>
      have := at_ _ hi
      simp only [tok] at this
      refine ⟨ho, by rw [hu, List.length_append, List.length_singleton]; omega, ?_⟩
      rw [hr, hu, List.length_append, List.length_singleton]
      exact pcs_set h.one hi rfl (by simp only [tok]; omega)
    | empty c hi hr hu hq hs he =>
      exact ⟨ho, by rw [hu]; exact hle, by rw [hr, hu]; exact pcs_set h.one hi rfl hle⟩
    | keep m c hi hr hu hq hs =>
      have := at_ _ hi
      exact ⟨ho, by rw [hu]; exact hle, by rw [hr, hu]; exact pcs_set h.one hi rfl this⟩
    | stop m c hi hr hu hq hs =>
      exact ⟨ho, by rw [hu]; exact hle, by rw [hr, hu]; exact pcs_set h.one hi rfl hle⟩
    | next m c hi hr hu hq hs hc =>
      have := at_ _ hi
      simp only [tok] at this
      exact ⟨ho, by rw [hu]; exact hle, by rw [hr, hu]; exact pcs_set h.one hi rfl (by simp only [tok]; omega)⟩
    | yield m c hi hr hu hq hs hc =>
      exact ⟨ho, by rw [hu]; exact hle, by rw [hr, hu]; exact pcs_set h.one hi rfl hle⟩
    | requeue hi hr hu hw hq hs =>
      exact ⟨ho, by rw [hu]; exact hle, by rw [hr, hu]; exact fun pc hm => h.pcs pc (List.mem_of_mem_eraseIdx hm)⟩
    | rest hi hr hu hw hq hs =>
      exact ⟨ho, by rw [hu]; exact hle, by rw [hr, hu]; exact fun pc hm => h.pcs pc (List.mem_of_mem_eraseIdx hm)⟩
    | close hi hr hu hq hs =>
      exact ⟨ho, by rw [hu]; exact hle, by rw [hr, hu]; exact pcs_set h.one hi rfl trivial⟩
    | done hi hr hu hq hs =>
      exact ⟨ho, by rw [hu]; exact hle, by rw [hr, hu]; exact fun pc hm => h.pcs pc (List.mem_of_mem_eraseIdx hm)⟩
  · obtain ⟨hr, hu, _⟩ := other_move hs (fun i o e => ht ⟨i, o, e⟩) hp
    exact ⟨ho, by rw [hu]; exact hle, by rw [hr, hu]; exact h.pcs⟩

theorem turn_pick {n : Nat} {x y : St} (h : One x) (hs : Mailbox.step n x .pick = .ok y) :
    Turn n x.popUsr.length y := by
  have hl : 1 ≤ lim n := by unfold lim; omega
  obtain ⟨hr, hu, hq, _⟩ := pick_move hs
  refine ⟨one_step h hs, by rw [hu]; omega, ?_⟩
  rw [hr, hu]
  intro pc hm
  rcases List.mem_append.1 hm with hm | hm
  · have h1 := h.le
    unfold act at h1
    have h0 : x.running.countP works = 0 := by omega
    have := List.countP_eq_zero.1 h0 pc hm
    have hn : pc = .notify := by simpa [works] using this
    subst hn; trivial
  · simp at hm; subst hm; exact ⟨by omega, rfl⟩

theorem turn_run {n k : Nat} {acts : List Act} : ∀ {x y : St}, Turn n k x → Act.pick ∉ acts →
    Mailbox.run n x acts = .ok y → Turn n k y := by
  induction acts with
  | nil => intro x y h _ hr; simp [Mailbox.run] at hr; subst hr; exact h
  | cons a as ih =>
    intro x y h hp hr
    simp only [List.mem_cons, not_or] at hp
    simp only [Mailbox.run] at hr
    split at hr
    · rename_i z hz; exact ih (turn_step h hz (Ne.symm hp.1)) hp.2 hr
    · rename_i hne; exact absurd hr (hne y)

/-! ### Potential: user messages the running turns may still hand out -/

def rem (n : Nat) : PC → Nat
  | .pop c => lim n - c
  | .sysMsg _ c => lim n - c
  | .usrMsg _ c => lim n - c - 1
  | _ => 0

def pot (n : Nat) (x : St) : Nat := (x.running.map (rem n)).sum

theorem sum_set {l : List PC} {n i : Nat} {p q : PC} (h : l[i]? = some p) :
    ((l.set i q).map (rem n)).sum + rem n p = (l.map (rem n)).sum + rem n q := by
  induction l generalizing i with
  | nil => simp at h
  | cons a l ih =>
    cases i with
    | zero => simp at h; subst h; simp only [List.set_cons_zero, List.map_cons, List.sum_cons]; omega
    | succ i => simp at h; have := ih h; simp only [List.set_cons_succ, List.map_cons, List.sum_cons]; omega

theorem sum_erase {l : List PC} {n i : Nat} {p : PC} (h : l[i]? = some p) :
    ((l.eraseIdx i).map (rem n)).sum + rem n p = (l.map (rem n)).sum := by
  induction l generalizing i with
  | nil => simp at h
  | cons a l ih =>
    cases i with
    | zero => simp at h; subst h; simp; omega
    | succ i => simp at h; have := ih h; simp; omega

theorem rem_le (n : Nat) (pc : PC) : rem n pc ≤ lim n := by
  cases pc <;> simp only [rem] <;> omega

theorem pot_le (n : Nat) (x : St) : pot n x ≤ x.running.length * lim n := by
  unfold pot
  induction x.running with
  | nil => simp
  | cons a l ih =>
    simp only [List.map_cons, List.sum_cons, List.length_cons, Nat.add_mul, Nat.one_mul]
    have := rem_le n a; omega

/-- Counters stay below the limit. -/
def small (n : Nat) : PC → Prop
  | .pop c => c < lim n
  | .sysMsg _ c => c < lim n
  | _ => True

def Small (n : Nat) (x : St) : Prop := ∀ pc ∈ x.running, small n pc

theorem small_set {n : Nat} {x : St} (h : Small n x) {i : Nat} {q : PC} (hq : small n q) :
    ∀ pc ∈ x.running.set i q, small n pc := by
  intro pc hm
  rcases List.mem_or_eq_of_mem_set hm with hm | rfl
  · exact h pc hm
  · exact hq

theorem small_step {n : Nat} {x y : St} {a : Act} (h : Small n x) (hs : Mailbox.step n x a = .ok y) : Small n y := by
  have hl : 1 ≤ lim n := by unfold lim; omega
  have hl2 : n ≤ lim n := by unfold lim; omega
  unfold Small
  by_cases ht : ∃ i o, a = .task i o
  · obtain ⟨i, o, rfl⟩ := ht
    have at_ : ∀ p, x.running[i]? = some p → small n p := fun p hi => h p (List.mem_iff_getElem?.2 ⟨i, hi⟩)
    cases task_move hs with
    | sys m c hi hr hu hq hs => rw [hr]; have := at_ _ hi; exact small_set h this
    | usr m c hi hr hu hq hs => rw [hr]; exact small_set h trivial
    | empty c hi hr hu hq hs he => rw [hr]; exact small_set h trivial
    | keep m c hi hr hu hq hs => rw [hr]; have := at_ _ hi; exact small_set h this
    | stop m c hi hr hu hq hs => rw [hr]; exact small_set h trivial
    | next m c hi hr hu hq hs hc => rw [hr]; exact small_set h (by simp only [small]; omega)
    | yield m c hi hr hu hq hs hc => rw [hr]; exact small_set h trivial
    | requeue hi hr hu hw hq hs => rw [hr]; exact fun pc hm => h pc (List.mem_of_mem_eraseIdx hm)
    | rest hi hr hu hw hq hs => rw [hr]; exact fun pc hm => h pc (List.mem_of_mem_eraseIdx hm)
    | close hi hr hu hq hs => rw [hr]; exact small_set h trivial
    | done hi hr hu hq hs => rw [hr]; exact fun pc hm => h pc (List.mem_of_mem_eraseIdx hm)
  · by_cases hp : a = .pick
    · subst hp
      obtain ⟨hr, _, _, _⟩ := pick_move hs
      rw [hr]
      intro pc hm
      rcases List.mem_append.1 hm with hm | hm
      · exact h pc hm
      · simp at hm; subst hm; exact hl
    · obtain ⟨hr, _, _⟩ := other_move hs (fun i o e => ht ⟨i, o, e⟩) hp
      rw [hr]; exact h

/-- User messages handed out plus those the running turns may still hand out. -/
def level (n : Nat) (x : St) : Nat := x.popUsr.length + pot n x

theorem level_step {n : Nat} {x y : St} {a : Act} (h : Small n x) (hs : Mailbox.step n x a = .ok y) :
    level n y ≤ level n x + if a = .pick then lim n else 0 := by
  by_cases ht : ∃ i o, a = .task i o
  · obtain ⟨i, o, rfl⟩ := ht
    have at_ : ∀ p, x.running[i]? = some p → small n p := fun p hi => h p (List.mem_iff_getElem?.2 ⟨i, hi⟩)
    simp only [reduceCtorEq, if_false, Nat.add_zero]
    unfold level pot
    cases task_move hs with
    | sys m c hi hr hu hq hs =>
      rw [hr, hu]; have := sum_set (n := n) (q := .sysMsg m c) hi; simp only [rem] at this; omega
    | usr m c hi hr hu hq hs =>
      have hc := at_ _ hi
      simp only [small] at hc
      rw [hr, hu, List.length_append, List.length_singleton]
      have := sum_set (n := n) (q := .usrMsg m c) hi; simp only [rem] at this; omega
    | empty c hi hr hu hq hs he =>
      rw [hr, hu]; have := sum_set (n := n) (q := .resched) hi; simp only [rem] at this; omega
    | keep m c hi hr hu hq hs =>
      rw [hr, hu]; have := sum_set (n := n) (q := .pop c) hi; simp only [rem] at this; omega
    | stop m c hi hr hu hq hs =>
      rw [hr, hu]; have := sum_set (n := n) (q := .closing) hi; simp only [rem] at this; omega
    | next m c hi hr hu hq hs hc =>
      rw [hr, hu]; have := sum_set (n := n) (q := .pop (c + 1)) hi; simp only [rem] at this; omega
    | yield m c hi hr hu hq hs hc =>
      rw [hr, hu]; have := sum_set (n := n) (q := .resched) hi; simp only [rem] at this; omega
    | requeue hi hr hu hw hq hs => rw [hr, hu]; have := sum_erase (n := n) hi; omega
    | rest hi hr hu hw hq hs => rw [hr, hu]; have := sum_erase (n := n) hi; omega
    | close hi hr hu hq hs =>
      rw [hr, hu]; have := sum_set (n := n) (q := .notify) hi; simp only [rem] at this; omega
    | done hi hr hu hq hs => rw [hr, hu]; have := sum_erase (n := n) hi; omega
  · by_cases hp : a = .pick
    · subst hp
      obtain ⟨hr, hu, _, _⟩ := pick_move hs
      simp only [if_true]
      unfold level pot
      rw [hr, hu]; simp [rem]; omega
    · obtain ⟨hr, hu, _⟩ := other_move hs (fun i o e => ht ⟨i, o, e⟩) hp
      unfold level pot
      rw [hr, hu, if_neg hp]; omega

end Verif.Turns

namespace Verif.Turns

open Verif.Mailbox (St Act PC)

/-! ### The pool -/

structure PInv (threads throughput n : Nat) (s : Pool) : Prop where
  size : s.boxes.length = n
  reach : ∀ x ∈ s.boxes, ∃ acts, Mailbox.Reach throughput acts x
  small : ∀ x ∈ s.boxes, Small throughput x
  count : ∀ b x, s.boxes[b]? = some x → s.queue.count b = x.queued
  inside : ∀ b ∈ s.queue, b < n
  busy : busy s ≤ threads

theorem boxStep_ok {throughput b : Nat} {a : Act} {s s' : Pool} (h : boxStep throughput s b a = .ok s') :
    ∃ x y, s.boxes[b]? = some x ∧ Mailbox.step throughput x a = .ok y ∧ s'.boxes = s.boxes.set b y ∧
      s'.queue = s.queue ++ List.replicate (y.queued - x.queued) b := by
  unfold boxStep at h
  split at h
  · simp at h
  · rename_i x hx
    split at h
    · simp at h
    · simp at h
    · rename_i y hy
      simp at h; subst h
      exact ⟨x, y, hx, hy, rfl, rfl⟩

theorem sum_set_map {α : Type} (f : α → Nat) {l : List α} {i : Nat} {p q : α} (h : l[i]? = some p) :
    ((l.set i q).map f).sum + f p = (l.map f).sum + f q := by
  induction l generalizing i with
  | nil => simp at h
  | cons a l ih =>
    cases i with
    | zero => simp at h; subst h; simp only [List.set_cons_zero, List.map_cons, List.sum_cons]; omega
    | succ i => simp at h; have := ih h; simp only [List.set_cons_succ, List.map_cons, List.sum_cons]; omega

/-- Only `pick` starts a task, and it starts one. -/
theorem running_step {n : Nat} {x y : St} {a : Act} (hs : Mailbox.step n x a = .ok y) :
    y.running.length ≤ x.running.length + if a = .pick then 1 else 0 := by
  by_cases ht : ∃ i o, a = .task i o
  · obtain ⟨i, o, rfl⟩ := ht
    have := @List.length_eraseIdx_le PC x.running i
    cases task_move hs <;> (rename_i hr _ _ _; try rw [hr]; try simp) <;> skip
    all_goals first | omega | (simp_all <;> omega)
  · by_cases hp : a = .pick
    · subst hp
      obtain ⟨hr, _, _, _⟩ := pick_move hs
      rw [hr]; simp
    · obtain ⟨hr, _, _⟩ := other_move hs (fun i o e => ht ⟨i, o, e⟩) hp
      rw [hr]; omega

theorem queued_step {n : Nat} {x y : St} {a : Act} (hs : Mailbox.step n x a = .ok y) (hp : a ≠ .pick) :
    x.queued ≤ y.queued := by
  by_cases ht : ∃ i o, a = .task i o
  · obtain ⟨i, o, rfl⟩ := ht
    cases task_move hs <;> omega
  · obtain ⟨_, _, hc⟩ := other_move hs (fun i o e => ht ⟨i, o, e⟩) hp
    omega

theorem box_mem {s : Pool} {b : Nat} {y : St} {P : St → Prop} (h : ∀ z ∈ s.boxes, P z) (hy : P y) :
    ∀ z ∈ s.boxes.set b y, P z := by
  intro z hz
  rcases List.mem_or_eq_of_mem_set hz with hz | rfl
  · exact h z hz
  · exact hy

theorem pinv_init (threads throughput n : Nat) : PInv threads throughput n (init n) := by
  refine ⟨by simp [init], ?_, ?_, ?_, by simp [init], ?_⟩
  · intro x hx
    have := List.eq_of_mem_replicate hx
    subst this; exact ⟨[], .init⟩
  · intro x hx
    have := List.eq_of_mem_replicate hx
    subst this; intro pc hm; simp [Mailbox.init] at hm
  · intro b x hx
    have := List.eq_of_mem_replicate (List.mem_of_getElem? hx)
    subst this; simp [init, Mailbox.init]
  · simp [busy, init, Mailbox.init, List.map_replicate]

theorem pinv_step {threads throughput n : Nat} {s s' : Pool} {a : PAct} (h : PInv threads throughput n s)
    (hs : step threads throughput s a = .ok s') : PInv threads throughput n s' := by
  cases a with
  | act b a =>
    simp only [step] at hs
    split at hs
    · simp at hs
    · rename_i hp
      obtain ⟨x, y, hx, hy, hb, hq⟩ := boxStep_ok hs
      have hbl : b < n := by rw [← h.size]; exact (List.getElem?_eq_some_iff.1 hx).1
      have hxm := List.mem_of_getElem? hx
      refine ⟨by rw [hb, List.length_set]; exact h.size, ?_, ?_, ?_, ?_, ?_⟩
      · rw [hb]; refine box_mem h.reach ?_
        obtain ⟨acts, hr⟩ := h.reach x hxm
        exact ⟨_, .step hr hy⟩
      · rw [hb]; exact box_mem h.small (small_step (h.small x hxm) hy)
      · intro c z hz
        rw [hq, List.count_append, List.count_replicate]
        rw [hb] at hz
        by_cases hcb : c = b
        · subst hcb
          rw [List.getElem?_set_self (by rw [h.size]; exact hbl)] at hz
          simp at hz; subst hz
          have := h.count c x hx
          have := queued_step hy hp
          simp; omega
        · rw [List.getElem?_set_ne (Ne.symm hcb)] at hz
          have := h.count c z hz
          have hbc : (b == c) = false := by simpa using Ne.symm hcb
          rw [hbc]; simp; omega
      · intro c hc
        rw [hq] at hc
        rcases List.mem_append.1 hc with hc | hc
        · exact h.inside c hc
        · have := List.eq_of_mem_replicate hc; omega
      · have hbu := h.busy
        unfold Turns.busy at hbu ⊢
        rw [hb]
        have e := sum_set_map (fun z : St => z.running.length) (q := y) hx
        have r := running_step hy
        rw [if_neg hp] at r
        omega
  | take =>
    simp only [step] at hs
    split at hs
    · simp at hs
    · rename_i b rest hqu
      split at hs
      · rename_i hbusy
        obtain ⟨x, y, hx, hy, hb, hq⟩ := boxStep_ok hs
        dsimp only at hx hb hq
        have hpm := pick_move hy
        have hz0 : y.queued - x.queued = 0 := by omega
        rw [hz0] at hq
        simp at hq
        have hbl : b < n := by rw [← h.size]; exact (List.getElem?_eq_some_iff.1 hx).1
        have hxm := List.mem_of_getElem? hx
        refine ⟨by rw [hb, List.length_set]; exact h.size, ?_, ?_, ?_, ?_, ?_⟩
        · rw [hb]; refine box_mem h.reach ?_
          obtain ⟨acts, hr⟩ := h.reach x hxm
          exact ⟨_, .step hr hy⟩
        · rw [hb]; exact box_mem h.small (small_step (h.small x hxm) hy)
        · intro c z hz
          rw [hq]
          rw [hb] at hz
          by_cases hcb : c = b
          · subst hcb
            rw [List.getElem?_set_self (by rw [h.size]; exact hbl)] at hz
            simp at hz; subst hz
            have := h.count c x hx
            rw [hqu, List.count_cons_self] at this
            omega
          · rw [List.getElem?_set_ne (Ne.symm hcb)] at hz
            have := h.count c z hz
            rw [hqu, List.count_cons_of_ne (by simpa using Ne.symm hcb)] at this
            exact this
        · intro c hc
          rw [hq] at hc
          exact h.inside c (by rw [hqu]; exact List.mem_cons_of_mem _ hc)
        · have hbu := h.busy
          unfold Turns.busy at hbu hbusy ⊢
          rw [hb]
          have e := sum_set_map (fun z : St => z.running.length) (q := y) hx
          have r := running_step hy
          simp only [if_true] at r
          omega
      · simp at hs

theorem pinv_reach {threads throughput n : Nat} {acts : List PAct} {s : Pool} (h : Reach threads throughput n acts s) :
    PInv threads throughput n s := by
  induction h with
  | init => exact pinv_init ..
  | step _ hs ih => exact pinv_step ih hs

/-- Potential of the whole pool. -/
def total (throughput : Nat) (s : Pool) : Nat := (s.boxes.map (level throughput)).sum

theorem total_step {threads throughput n : Nat} {s s' : Pool} {a : PAct} (h : PInv threads throughput n s)
    (hs : step threads throughput s a = .ok s') :
    total throughput s' ≤ total throughput s + (if a = .take then lim throughput else 0) ∧
    (∀ p b, s.queue[p]? = some b → (if a = .take then 1 else 0) ≤ p →
      s'.queue[p - (if a = .take then 1 else 0)]? = some b) := by
  cases a with
  | act b a =>
    simp only [step] at hs
    split at hs
    · simp at hs
    · rename_i hp
      obtain ⟨x, y, hx, hy, hb, hq⟩ := boxStep_ok hs
      simp only [reduceCtorEq, if_false]
      refine ⟨?_, ?_⟩
      · unfold total
        rw [hb]
        have e := sum_set_map (level throughput) (q := y) hx
        have l := level_step (h.small x (List.mem_of_getElem? hx)) hy
        rw [if_neg hp] at l
        omega
      · intro p c hc _
        rw [hq, Nat.sub_zero, List.getElem?_append_left (List.getElem?_eq_some_iff.1 hc).1]
        exact hc
  | take =>
    simp only [step] at hs
    split at hs
    · simp at hs
    · rename_i b rest hqu
      split at hs
      · obtain ⟨x, y, hx, hy, hb, hq⟩ := boxStep_ok hs
        dsimp only at hx hb hq
        have hpm := pick_move hy
        have hz0 : y.queued - x.queued = 0 := by omega
        rw [hz0] at hq
        simp at hq
        simp only [if_true]
        refine ⟨?_, ?_⟩
        · unfold total
          rw [hb]
          have e := sum_set_map (level throughput) (q := y) hx
          have l := level_step (h.small x (List.mem_of_getElem? hx)) hy
          simp only [if_true] at l
          omega
        · intro p c hc hp
          rw [hq]
          rw [hqu] at hc
          obtain ⟨p, rfl⟩ : ∃ q, p = q + 1 := ⟨p - 1, by omega⟩
          simpa using hc
      · simp at hs

theorem total_run {threads throughput n : Nat} {acts : List PAct} : ∀ {s s' : Pool}, PInv threads throughput n s →
    run threads throughput s acts = .ok s' →
    PInv threads throughput n s' ∧
    total throughput s' ≤ total throughput s + acts.count .take * lim throughput ∧
    (∀ p b, s.queue[p]? = some b → acts.count .take ≤ p → s'.queue[p - acts.count .take]? = some b) := by
  induction acts with
  | nil =>
    intro s s' h hr
    simp [run] at hr; subst hr
    exact ⟨h, by simp, fun p b hp _ => by simpa using hp⟩
  | cons a as ih =>
    intro s s' h hr
    simp only [run] at hr
    split at hr
    · rename_i z hz
      obtain ⟨h1, h2⟩ := total_step h hz
      obtain ⟨i0, i1, i2⟩ := ih (pinv_step h hz) hr
      refine ⟨i0, ?_, ?_⟩
      · rw [List.count_cons, Nat.add_mul]
        by_cases ha : a = .take
        · subst ha; simp at h1 ⊢; omega
        · have : (a == PAct.take) = false := by simpa using ha
          rw [this]; rw [if_neg ha] at h1; simp; omega
      · intro p b hp hc
        rw [List.count_cons] at hc ⊢
        by_cases ha : a = .take
        · subst ha
          simp only [beq_self_eq_true, if_true] at hc ⊢
          have e := h2 p b hp (by simp only [if_true]; omega)
          simp only [if_true] at e
          have := i2 (p - 1) b e (by omega)
          rw [show p - (List.count PAct.take as + 1) = p - 1 - List.count PAct.take as by omega]
          exact this
        · have hb : (a == PAct.take) = false := by simpa using ha
          rw [hb] at hc ⊢
          simp only [Bool.false_eq_true, if_false, Nat.add_zero] at hc ⊢
          have e := h2 p b hp (by rw [if_neg ha]; omega)
          rw [if_neg ha, Nat.sub_zero] at e
          exact i2 p b e hc
    · rename_i hne; exact absurd hr (hne s')

/-- All messages handed out, and the bound of the potential by the number of busy threads. -/
theorem total_bounds (throughput : Nat) (s : Pool) :
    (s.boxes.map fun x => x.popUsr.length).sum ≤ total throughput s ∧
    total throughput s ≤ (s.boxes.map fun x => x.popUsr.length).sum + busy s * lim throughput := by
  unfold total busy
  induction s.boxes with
  | nil => simp
  | cons x l ih =>
    simp only [List.map_cons, List.sum_cons, Nat.add_mul]
    have := pot_le throughput x
    unfold level
    unfold level at ih
    omega

end Verif.Turns
