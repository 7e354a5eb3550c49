import Verif.Model.Behaviours

/-!
# C49: the behaviour stack of an actor
-/
set_option autoImplicit false

namespace Verif.Behaviours

variable {B : Type}

/-! ## Specification

The behaviours that are put over the original one, and the one at the bottom. -/

structure Spec (B : Type) where
  bottom : B
  /-- latest first -/
  over : List B

def Spec.top (s : Spec B) : B :=
  match s.over with
  | [] => s.bottom
  | b :: _ => b

/-- Pushing puts a behaviour over the others; replacing gives back the one that was on top; popping gives back the latest one. -/
def Spec.step (s : Spec B) : Op B → Option B × Spec B
  | .become none _ => (none, s)
  | .become (some b) false => (none, ⟨s.bottom, b :: s.over⟩)
  | .become (some b) true =>
    match s.over with
    | [] => (some s.bottom, ⟨b, []⟩)
    | t :: r => (some t, ⟨s.bottom, b :: r⟩)
  | .unbecome =>
    match s.over with
    | [] => (none, s)
    | t :: r => (some t, ⟨s.bottom, r⟩)

def Spec.run (s : Spec B) : List (Op B) → List (Option B) × Spec B
  | [] => ([], s)
  | o :: os => ((s.step o).1 :: ((s.step o).2.run os).1, ((s.step o).2.run os).2)

/-- The stack of the actor that stands for a state of the specification. -/
def Spec.stack (s : Spec B) : List B := s.over ++ [s.bottom]

/-! ## Proof -/

theorem step_ok (s : Spec B) (o : Op B) : step s.stack o = some ((s.step o).1, (s.step o).2.stack) := by
  obtain ⟨bot, over⟩ := s
  cases o with
  | become b d => cases b <;> cases d <;> cases over <;> simp [step, become, Spec.step, Spec.stack]
  | unbecome => cases over <;> simp [step, unbecome, Spec.step, Spec.stack]

/-- Any sequence of calls gives what the specification says, and never touches an empty stack. -/
theorem C49 (self : B) (ops : List (Op B)) :
    run (setContext self) ops = some (((⟨self, []⟩ : Spec B).run ops).1, ((⟨self, []⟩ : Spec B).run ops).2.stack) := by
  have key : ∀ (s : Spec B), run s.stack ops = some ((s.run ops).1, (s.run ops).2.stack) := by
    induction ops with
    | nil => intro s; rfl
    | cons o os ih => intro s; simp only [run, step_ok, ih, Spec.run]
  exact key ⟨self, []⟩

/-- At every moment there is a behaviour to give a message to: the top of the specification's stack. -/
theorem C49_handler (self : B) (ops : List (Op B)) :
    ∃ rs st, run (setContext self) ops = some (rs, st) ∧ handler st = some (((⟨self, []⟩ : Spec B).run ops).2.top) := by
  refine ⟨_, _, C49 self ops, ?_⟩
  generalize (((⟨self, []⟩ : Spec B).run ops).2) = s
  obtain ⟨bot, over⟩ := s
  cases over <;> rfl

/-- A pushed behaviour is what the matching pop gives back, whatever balanced calls were made in between: each `unbecome` undoes the latest `become`. -/
inductive Balanced : List (Op B) → Prop
  | nil : Balanced []
  | nest (b : B) (as bs : List (Op B)) : Balanced as → Balanced bs → Balanced (Op.become (some b) false :: (as ++ Op.unbecome :: bs))

theorem run_append (s : Spec B) (as bs : List (Op B)) : s.run (as ++ bs) = ((s.run as).1 ++ ((s.run as).2.run bs).1, ((s.run as).2.run bs).2) := by
  induction as generalizing s with
  | nil => rfl
  | cons o os ih => simp only [List.cons_append, Spec.run, ih]

theorem balanced_id (s : Spec B) {ops : List (Op B)} (h : Balanced ops) : (s.run ops).2 = s := by
  induction h generalizing s with
  | nil => rfl
  | nest b as bs _ _ iha ihb =>
    simp only [Spec.run, Spec.step, run_append, iha]
    exact ihb s

theorem run_stack (s : Spec B) (ops : List (Op B)) : run s.stack ops = some ((s.run ops).1, (s.run ops).2.stack) := by
  induction ops generalizing s with
  | nil => rfl
  | cons o os ih => simp only [run, step_ok, ih, Spec.run]

/-- In any state an actor can be in, pushing a behaviour, making balanced calls and popping gives back this behaviour and the former stack. -/
theorem C49_lifo (self : B) (before mid : List (Op B)) (b : B) (hm : Balanced mid) :
    ∃ rs st rs', run (setContext self) before = some (rs, st) ∧
      run st (Op.become (some b) false :: (mid ++ [Op.unbecome])) = some (none :: (rs' ++ [some b]), st) := by
  refine ⟨_, _, ((⟨((⟨self, []⟩ : Spec B).run before).2.bottom, b :: ((⟨self, []⟩ : Spec B).run before).2.over⟩ : Spec B).run mid).1, C49 self before, ?_⟩
  rw [run_stack]
  simp only [Spec.run, Spec.step, run_append, balanced_id _ hm]

/-- Without replacing, the original behaviour stays at the bottom for ever and is never returned by a pop. -/
theorem C49_bottom (self : B) (ops : List (Op B)) (h : ∀ b, Op.become b true ∉ ops) :
    ∃ rs over, run (setContext self) ops = some (rs, over ++ [self]) ∧ ∀ b, some b ∈ rs → Op.become (some b) false ∈ ops := by
  have key : ∀ (s : Spec B), (s.run ops).2.bottom = s.bottom ∧ ∀ b, some b ∈ (s.run ops).1 → b ∈ s.over ∨ Op.become (some b) false ∈ ops := by
    induction ops with
    | nil => intro s; exact ⟨rfl, fun b hb => absurd hb (by simp [Spec.run])⟩
    | cons o os ih =>
      intro s
      obtain ⟨bot, over⟩ := s
      have hos : ∀ b, Op.become b true ∉ os := fun b hb => h b (List.mem_cons_of_mem _ hb)
      cases o with
      | become b d =>
        cases d with
        | true => exact absurd (List.mem_cons_self ..) (h b)
        | false =>
          cases b with
          | none =>
            obtain ⟨i1, i2⟩ := ih hos ⟨bot, over⟩
            refine ⟨i1, fun c hc => ?_⟩
            simp only [Spec.run, Spec.step, List.mem_cons, reduceCtorEq, false_or] at hc
            rcases i2 c hc with k | k
            · exact Or.inl k
            · exact Or.inr (List.mem_cons_of_mem _ k)
          | some b =>
            obtain ⟨i1, i2⟩ := ih hos ⟨bot, b :: over⟩
            refine ⟨i1, fun c hc => ?_⟩
            simp only [Spec.run, Spec.step, List.mem_cons, reduceCtorEq, false_or] at hc
            rcases i2 c hc with k | k
            · rcases List.mem_cons.1 k with rfl | k
              · exact Or.inr (List.mem_cons_self ..)
              · exact Or.inl k
            · exact Or.inr (List.mem_cons_of_mem _ k)
      | unbecome =>
        cases over with
        | nil =>
          obtain ⟨i1, i2⟩ := ih hos ⟨bot, []⟩
          refine ⟨i1, fun c hc => ?_⟩
          simp only [Spec.run, Spec.step, List.mem_cons, reduceCtorEq, false_or] at hc
          rcases i2 c hc with k | k
          · exact Or.inl k
          · exact Or.inr (List.mem_cons_of_mem _ k)
        | cons t r =>
          obtain ⟨i1, i2⟩ := ih hos ⟨bot, r⟩
          refine ⟨i1, fun c hc => ?_⟩
          simp only [Spec.run, Spec.step, List.mem_cons, Option.some.injEq] at hc
          rcases hc with rfl | hc
          · exact Or.inl (List.mem_cons_self ..)
          · rcases i2 c hc with k | k
            · exact Or.inl (List.mem_cons_of_mem _ k)
            · exact Or.inr (List.mem_cons_of_mem _ k)
  obtain ⟨k1, k2⟩ := key ⟨self, []⟩
  refine ⟨((⟨self, []⟩ : Spec B).run ops).1, ((⟨self, []⟩ : Spec B).run ops).2.over, ?_, fun b hb => ?_⟩
  · rw [C49]; simp only [Spec.stack, k1]
  · rcases k2 b hb with k | k
    · simp at k
    · exact k

example : run (setContext 0) [.become (some 1) false, .become (some 2) true, .unbecome, .unbecome, .become none true] = some ([none, some 1, some 2, none, none], [0]) := by decide

example : Balanced [Op.become (some 1) false, Op.become (some 2) false, Op.unbecome, Op.unbecome] :=
  .nest 1 [Op.become (some 2) false, Op.unbecome] [] (.nest 2 [] [] .nil .nil) .nil

end Verif.Behaviours
