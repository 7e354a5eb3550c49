import Verif.Model.Singleton

/-!
# C88: a singleton is created once and every call returns it
-/
set_option autoImplicit false

namespace Verif.Singleton

/-! ## Specification -/

/-- The executions, as lists of what happened. -/
inductive Run : St → Prop
  | init : Run init
  | step {s s' : St} (a : Act) : Run s → step s a = some s' → Run s'

/-- As long as the object does not exist, a call starts only when no other thread is in a call. So do the calls of a single thread; and so do those of many if the first is finished before the others begin. -/
def Alone (s : St) : Act → Prop
  | .call t => s.inst = none → ∀ u, u ≠ t → s.pc u = .idle
  | _ => True

inductive SafeRun : St → Prop
  | init : SafeRun init
  | step {s s' : St} (a : Act) : SafeRun s → Alone s a → step s a = some s' → SafeRun s'

/-- A call is about to create the object, or has created it. -/
def Making (s : St) (t : Nat) : Prop := s.pc t = .creating ∨ ∃ o, s.pc t = .resetting o

/-! ## One creator -/

structure Inv (s : St) : Prop where
  dead : s.dead = []
  one : ∀ t, Making s t → s.inst = none ∧ ∀ u, u ≠ t → s.pc u = .idle
  none_ : s.inst = none → s.returned = [] ∧ (∀ t, s.pc t ≠ .reading) ∧ (s.made = 0 ∨ ∃ t, s.made = 1 ∧ s.pc t = .resetting 0)
  fresh : s.inst = none → ∀ t o, s.pc t = .resetting o → s.made = 1 ∧ o = 0
  some_ : ∀ o, s.inst = some o → o = 0 ∧ s.made = 1
  ret : ∀ r ∈ s.returned, r.2 = some 0

theorem Inv.ready {s : St} (h : Inv s) {t : Nat} (ht : s.pc t = .reading) : s.inst = some 0 := by
  cases hi : s.inst with
  | none => exact absurd ht ((h.none_ hi).2.1 t)
  | some o => rw [(h.some_ o hi).1]

theorem Inv.init : Inv Singleton.init := by
  constructor <;> simp [Singleton.init, Making]

theorem Inv.step {s s' : St} {a : Act} (h : Inv s) (ha : Alone s a) (hs : Singleton.step s a = some s') : Inv s' := by
  cases a with
  | call t =>
    simp only [Singleton.step] at hs
    split at hs
    · rename_i hpc
      simp only [Option.some.injEq] at hs; subst hs
      by_cases hi : s.inst = none
      · have hidle : ∀ u, s.pc u = .idle := fun u => by
          by_cases hu : u = t
          · rw [hu]; exact hpc
          · exact ha hi u hu
        rw [if_pos hi]
        have hm := (h.none_ hi)
        have h0 : s.made = 0 := by
          rcases hm.2.2 with h | ⟨u, _, hu⟩
          · exact h
          · rw [hidle u] at hu; cases hu
        refine ⟨h.dead, fun u hu => ⟨hi, fun v hv => ?_⟩, fun _ => ⟨hm.1, fun u => ?_, .inl h0⟩, fun _ u o hu => ?_, fun o ho => ?_, h.ret⟩
        · simp only [St.goto]
          by_cases hvt : v = t
          · exfalso
            rcases hu with hu | ⟨o, hu⟩ <;> (simp only [St.goto] at hu; rw [if_neg (by rintro rfl; exact hv hvt), hidle u] at hu; cases hu)
          · rw [if_neg hvt]; exact hidle v
        · simp only [St.goto]; split
          · simp
          · rw [hidle u]; simp
        · simp only [St.goto] at hu; split at hu
          · cases hu
          · rw [hidle u] at hu; cases hu
        · simp only [St.goto] at ho; rw [hi] at ho; cases ho
      · rw [if_neg hi]
        refine ⟨h.dead, fun u hu => ?_, fun hn => absurd hn hi, fun hn => absurd hn hi, h.some_, h.ret⟩
        exfalso
        rcases hu with hu | ⟨o, hu⟩
        · simp only [St.goto] at hu; split at hu
          · cases hu
          · exact hi (h.one u (.inl hu)).1
        · simp only [St.goto] at hu; split at hu
          · cases hu
          · exact hi (h.one u (.inr ⟨o, hu⟩)).1
    · cases hs
  | create t throws =>
    simp only [Singleton.step] at hs
    split at hs
    · rename_i hpc
      obtain ⟨hi, hoth⟩ := h.one t (.inl hpc)
      have hm := h.none_ hi
      have h0 : s.made = 0 := by
        rcases hm.2.2 with h | ⟨u, _, hu⟩
        · exact h
        · by_cases hut : u = t
          · rw [hut, hpc] at hu; cases hu
          · rw [hoth u hut] at hu; cases hu
      split at hs
      · simp only [Option.some.injEq] at hs; subst hs
        have hidle : ∀ u, (s.goto t .idle).pc u = .idle := fun u => by
          simp only [St.goto]; split
          · rfl
          · exact hoth u (by assumption)
        refine ⟨h.dead, fun u hu => ?_, fun _ => ⟨hm.1, fun u => by rw [hidle u]; simp, .inl h0⟩, fun _ u o hu => ?_, h.some_, h.ret⟩
        · rcases hu with hu | ⟨o, hu⟩ <;> (rw [hidle u] at hu; cases hu)
        · rw [hidle u] at hu; cases hu
      · simp only [Option.some.injEq] at hs; subst hs
        have hpc' : ∀ u, ({ s with made := s.made + 1 }.goto t (.resetting s.made)).pc u = if u = t then .resetting 0 else .idle := fun u => by
          simp only [St.goto]; split
          · rw [h0]
          · exact hoth u (by assumption)
        refine ⟨h.dead, fun u hu => ⟨hi, fun v hv => ?_⟩, fun _ => ⟨hm.1, fun u => ?_, .inr ⟨t, by simp [St.goto, h0], by rw [hpc' t, if_pos rfl]⟩⟩, fun _ u o hu => ?_, fun o ho => ?_, h.ret⟩
        · rw [hpc' v]
          rw [if_neg]
          intro hvt
          have : u ≠ t := fun e => hv (hvt.trans e.symm)
          rcases hu with hu | ⟨o, hu⟩ <;> (rw [hpc' u, if_neg this] at hu; cases hu)
        · rw [hpc' u]; split <;> simp
        · rw [hpc' u] at hu; split at hu
          · cases hu; exact ⟨by simp [St.goto, h0], rfl⟩
          · cases hu
        · simp only [St.goto] at ho; rw [hi] at ho; cases ho
    · cases hs
  | reset t =>
    simp only [Singleton.step] at hs
    split at hs
    · rename_i o hpc
      obtain ⟨hi, hoth⟩ := h.one t (.inr ⟨o, hpc⟩)
      have hm := h.none_ hi
      obtain ⟨h1, rfl⟩ := h.fresh hi t o hpc
      simp only [Option.some.injEq] at hs; subst hs
      have hpc' : ∀ u, ({ s with inst := some 0, dead := s.dead ++ s.inst.toList }.goto t .reading).pc u = if u = t then .reading else .idle := fun u => by
        simp only [St.goto]; split
        · rfl
        · exact hoth u (by assumption)
      refine ⟨by simp [St.goto, h.dead, hi], fun u hu => ?_, fun hn => by simp [St.goto] at hn, fun hn => by simp [St.goto] at hn, fun o ho => ?_, h.ret⟩
      · exfalso
        rcases hu with hu | ⟨o, hu⟩ <;> (rw [hpc' u] at hu; split at hu <;> cases hu)
      · simp only [St.goto, Option.some.injEq] at ho ⊢; exact ⟨ho.symm, h1⟩
    · cases hs
  | read t =>
    simp only [Singleton.step] at hs
    split at hs
    · rename_i hpc
      have hr := h.ready hpc
      simp only [Option.some.injEq] at hs; subst hs
      refine ⟨h.dead, fun u hu => ?_, fun hn => ?_, fun hn => ?_, h.some_, fun r hr' => ?_⟩
      · exfalso
        have : Making s u := by
          rcases hu with hu | ⟨o, hu⟩
          · simp only [St.goto] at hu; split at hu
            · cases hu
            · exact .inl hu
          · simp only [St.goto] at hu; split at hu
            · cases hu
            · exact .inr ⟨o, hu⟩
        have := (h.one u this).1
        rw [hr] at this; cases this
      · simp only [St.goto] at hn; rw [hr] at hn; cases hn
      · simp only [St.goto] at hn; rw [hr] at hn; cases hn
      · simp only [St.goto, List.mem_cons] at hr'
        rcases hr' with rfl | hr'
        · exact hr
        · exact h.ret r hr'
    · cases hs

theorem SafeRun.inv {s : St} (h : SafeRun s) : Inv s := by
  induction h with
  | init => exact Inv.init
  | step a _ ha hs ih => exact ih.step ha hs

/-- If the first call is finished before others start, at most one object is ever created, it is never destroyed, and every call that returns gives it; it exists once a call has returned. Missing: calls that start
while the first one is not finished (`C88_race_violated`). -/
theorem C88_once_partial {s : St} (h : SafeRun s) : s.made ≤ 1 ∧ s.dead = [] ∧ (∀ r ∈ s.returned, r.2 = some 0) ∧ (s.returned ≠ [] → s.made = 1 ∧ s.inst = some 0) := by
  have hi := h.inv
  refine ⟨?_, hi.dead, hi.ret, fun hr => ?_⟩
  · cases e : s.inst with
    | none =>
      rcases (hi.none_ e).2.2 with h | ⟨_, h, _⟩ <;> omega
    | some o => have := (hi.some_ o e).2; omega
  · cases e : s.inst with
    | none => exact absurd (hi.none_ e).1 hr
    | some o => exact ⟨(hi.some_ o e).2, by rw [(hi.some_ o e).1]⟩

/-- A call never hangs and never returns null: it always has a next step, and if it reaches the end it returns the object. -/
theorem C88_returns_partial {s : St} (h : SafeRun s) (t : Nat) :
    (s.pc t = .idle → ∃ s', step s (.call t) = some s') ∧ (s.pc t = .creating → ∃ s', step s (.create t false) = some s') ∧ (∀ o, s.pc t = .resetting o → ∃ s', step s (.reset t) = some s') ∧
    (s.pc t = .reading → ∃ s', step s (.read t) = some s' ∧ s'.returned = (t, some 0) :: s.returned) := by
  refine ⟨fun e => by simp [step, e], fun e => by simp [step, e], fun o e => by simp [step, e], fun e => ?_⟩
  refine ⟨_, by simp only [step, e]; rfl, ?_⟩
  simp only [St.goto]; rw [h.inv.ready e]

/-- If the constructor throws, nothing has changed and a later call tries again. -/
theorem C88_throwing (s : St) (t : Nat) (h : s.pc t = .creating) : ∃ s', step s (.create t true) = some s' ∧ s'.inst = s.inst ∧ s'.made = s.made ∧ s'.dead = s.dead ∧ s'.pc t = .idle := by
  simp [step, h, St.goto]

def runAll (s : St) : List Act → Option St
  | [] => some s
  | a :: as => (step s a).bind (fun s' => runAll s' as)

theorem run_all {s s' : St} {as : List Act} (hs : Run s) (h : runAll s as = some s') : Run s' := by
  induction as generalizing s with
  | nil => simp [runAll] at h; subst h; exact hs
  | cons a as ih =>
    simp only [runAll, Option.bind_eq_some_iff] at h
    obtain ⟨m, hm, h⟩ := h
    exact ih (.step a hs hm) h

/-- Two threads, the second starts when the first is done; before that the constructor threw once. -/
example : ∃ s, SafeRun s ∧ s.returned = [(1, some 0), (0, some 0)] := by
  have a1 : SafeRun _ := .step (.call 0) .init (fun _ u hu => rfl) rfl
  have a2 : SafeRun _ := .step (.create 0 true) a1 trivial rfl
  have a3 : SafeRun _ := .step (.call 0) a2 (fun _ u hu => by simp [St.goto, init, hu]) rfl
  have a4 : SafeRun _ := .step (.create 0 false) a3 trivial rfl
  have a5 : SafeRun _ := .step (.reset 0) a4 trivial rfl
  have a6 : SafeRun _ := .step (.read 0) a5 trivial rfl
  have a7 : SafeRun _ := .step (.call 1) a6 (fun h => by simp [St.goto] at h) rfl
  have a8 : SafeRun _ := .step (.read 1) a7 trivial rfl
  exact ⟨_, a8, rfl⟩

/-- Two first calls at the same time: two objects are created, and the one that the first call returned is destroyed. -/
theorem C88_race_violated : ∃ s, Run s ∧ s.made = 2 ∧ (0, some 0) ∈ s.returned ∧ 0 ∈ s.dead ∧ (1, some 1) ∈ s.returned := by
  have h : ∃ s, runAll init [.call 0, .call 1, .create 0 false, .create 1 false, .reset 0, .read 0, .reset 1, .read 1] = some s ∧ s.made = 2 ∧ (0, some 0) ∈ s.returned ∧ 0 ∈ s.dead ∧ (1, some 1) ∈ s.returned :=
    ⟨_, rfl, by decide, by decide, by decide, by decide⟩
  obtain ⟨s, hs, h⟩ := h
  exact ⟨s, run_all .init hs, h⟩

end Verif.Singleton
