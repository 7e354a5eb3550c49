import Verif.Model.Finally

/-!
# C32: the action of a guard runs exactly once
-/
set_option autoImplicit false

namespace Verif.Finally

/-! ## Specification: every variable in scope owns an action or none; the destructor of the owner runs it -/

structure Spec where
  owns : Nat → Option (Option Nat)
  next : Nat
  log : List Nat

def Spec.set (owns : Nat → Option (Option Nat)) (x : Nat) (v : Option (Option Nat)) : Nat → Option (Option Nat) := fun y => if y = x then v else owns y

def Spec.init : Spec := ⟨fun _ => none, 0, []⟩

def Spec.step (s : Spec) : Op → Spec
  | .make x => if (s.owns x).isSome then s else { s with owns := Spec.set s.owns x (some (some s.next)), next := s.next + 1 }
  | .move x y =>
    match s.owns x, s.owns y with
    | none, some v => { s with owns := Spec.set (Spec.set s.owns x (some v)) y (some none) }
    | _, _ => s
  | .assign _ _ => s
  | .del x =>
    match s.owns x with
    | none => s
    | some none => { s with owns := Spec.set s.owns x none }
    | some (some a) => { s with owns := Spec.set s.owns x none, log := s.log ++ [a] }

def Spec.run : Spec → List Op → Spec
  | s, [] => s
  | s, op :: ops => Spec.run (s.step op) ops

/-- No assignments between variables in scope, and guards are moved only from owners or if their action does not work after a move. -/
def Fine (keeps : Nat → Bool) (s : St) : Op → Prop
  | .move _ y => ∀ g, s.vars y = some g → g.invoke = true ∨ keeps g.action = false
  | .assign x y => s.vars x = none ∨ s.vars y = none
  | _ => True

/-- Every statement of the program is of this kind when it is reached. -/
def AllFine (keeps : Nat → Bool) : St → List Op → Prop
  | _, [] => True
  | s, op :: ops => Fine keeps s op ∧ ∀ s', step keeps s op = some s' → AllFine keeps s' ops

/-! ## Exactly once, in the specification -/

structure Once (s : Spec) : Prop where
  nodup : s.log.Nodup
  logged : ∀ a ∈ s.log, a < s.next
  owned : ∀ x a, s.owns x = some (some a) → a < s.next ∧ a ∉ s.log
  single : ∀ x y a, s.owns x = some (some a) → s.owns y = some (some a) → x = y
  cover : ∀ a < s.next, a ∈ s.log ∨ ∃ x, s.owns x = some (some a)

theorem Once.step {s : Spec} (h : Once s) (op : Op) : Once (s.step op) := by
  cases op with
  | make x =>
    simp only [Spec.step]
    cases hx : s.owns x with
    | some v => simpa using h
    | none =>
      simp only [Option.isSome_none, Bool.false_eq_true, if_false]
      refine ⟨h.nodup, fun a ha => Nat.lt_succ_of_lt (h.logged a ha), ?_, ?_, ?_⟩
      · intro y a; simp only [Spec.set]; split
        · intro e; simp at e; subst e; exact ⟨Nat.lt_succ_self _, fun k => Nat.lt_irrefl _ (h.logged _ k)⟩
        · intro e; exact ⟨Nat.lt_succ_of_lt (h.owned y a e).1, (h.owned y a e).2⟩
      · intro y z a; simp only [Spec.set]; split <;> split
        · rename_i h1 h2; intros; exact h1.trans h2.symm
        · intro e e'; simp at e; subst e; exact absurd (h.owned z _ e').1 (Nat.lt_irrefl _)
        · intro e e'; simp at e'; subst e'; exact absurd (h.owned y _ e).1 (Nat.lt_irrefl _)
        · exact h.single y z a
      · intro a ha
        rcases Nat.lt_succ_iff_lt_or_eq.1 ha with k | k
        · rcases h.cover a k with c | ⟨y, c⟩
          · exact Or.inl c
          · refine Or.inr ⟨y, ?_⟩
            have : y ≠ x := fun e => by rw [e, hx] at c; simp at c
            simp [Spec.set, this, c]
        · exact Or.inr ⟨x, by simp [Spec.set, k]⟩
  | move x y =>
    simp only [Spec.step]
    cases hx : s.owns x with
    | some v => simpa using h
    | none =>
      cases hy : s.owns y with
      | none => simpa using h
      | some v =>
        have hxy : x ≠ y := fun e => by rw [e, hy] at hx; simp at hx
        have key : ∀ z a, Spec.set (Spec.set s.owns x (some v)) y (some none) z = some (some a) → (z = x ∧ v = some a) ∨ (z ≠ x ∧ z ≠ y ∧ s.owns z = some (some a)) := by
          intro z a; simp only [Spec.set]; split
          · intro e; simp at e
          · split
            · rename_i h1 h2; intro e; simp at e; exact Or.inl ⟨h2, e⟩
            · rename_i h1 h2; intro e; exact Or.inr ⟨h2, h1, e⟩
        refine ⟨h.nodup, h.logged, ?_, ?_, ?_⟩
        · intro z a e
          rcases key z a e with ⟨rfl, rfl⟩ | ⟨-, -, e⟩
          · exact h.owned y a hy
          · exact h.owned z a e
        · intro z w a e e'
          rcases key z a e with ⟨h1, h2⟩ | ⟨h1, h2, k⟩ <;> rcases key w a e' with ⟨h4, h5⟩ | ⟨h4, h5, k'⟩
          · exact h1.trans h4.symm
          · subst h2; exact absurd (h.single y w a hy k').symm h5
          · subst h5; exact absurd (h.single y z a hy k).symm h2
          · exact h.single z w a k k'
        · intro a ha
          rcases h.cover a ha with c | ⟨z, c⟩
          · exact Or.inl c
          · by_cases hz : z = y
            · subst hz; rw [hy] at c; simp at c; subst c
              exact Or.inr ⟨x, by simp [Spec.set, hxy]⟩
            · have : z ≠ x := fun e => by rw [e, hx] at c; simp at c
              exact Or.inr ⟨z, by simp [Spec.set, hz, this, c]⟩
  | assign x y => exact h
  | del x =>
    simp only [Spec.step]
    have key : ∀ z a, Spec.set s.owns x none z = some (some a) → z ≠ x ∧ s.owns z = some (some a) := by
      intro z a; simp only [Spec.set]; split
      · intro e; simp at e
      · rename_i h1; exact fun e => ⟨h1, e⟩
    cases hx : s.owns x with
    | none => simpa using h
    | some v =>
      cases v with
      | none =>
        refine ⟨h.nodup, h.logged, fun z a e => h.owned z a (key z a e).2, fun z w a e e' => h.single z w a (key z a e).2 (key w a e').2, ?_⟩
        intro a ha
        rcases h.cover a ha with c | ⟨z, c⟩
        · exact Or.inl c
        · have : z ≠ x := fun e => by rw [e, hx] at c; simp at c
          exact Or.inr ⟨z, by simp [Spec.set, this, c]⟩
      | some b =>
        have hb := h.owned x b hx
        refine ⟨?_, ?_, ?_, fun z w a e e' => h.single z w a (key z a e).2 (key w a e').2, ?_⟩
        · show (s.log ++ [b]).Nodup
          rw [List.nodup_append]; refine ⟨h.nodup, by simp, ?_⟩
          intro a ha c hc e; simp at hc; subst hc; subst e; exact hb.2 ha
        · intro a ha
          rcases List.mem_append.1 ha with k | k
          · exact h.logged a k
          · simp at k; subst k; exact hb.1
        · intro z a e
          refine ⟨(h.owned z a (key z a e).2).1, ?_⟩
          intro k
          rcases List.mem_append.1 k with k | k
          · exact (h.owned z a (key z a e).2).2 k
          · simp at k; subst k; exact (key z a e).1 (h.single z x a (key z a e).2 hx)
        · intro a ha
          rcases h.cover a ha with c | ⟨z, c⟩
          · exact Or.inl (List.mem_append_left _ c)
          · by_cases hz : z = x
            · subst hz; rw [hx] at c; simp at c; subst c; exact Or.inl (by simp)
            · exact Or.inr ⟨z, by simp [Spec.set, hz, c]⟩

theorem Once.run : ∀ (ops : List Op) {s : Spec}, Once s → Once (s.run ops)
  | [], _, h => h
  | op :: ops, _, h => Once.run ops (h.step op)

/-! ## Refinement -/

def absG (g : Guard) : Option Nat := if g.invoke && g.works then some g.action else none

structure Rel (keeps : Nat → Bool) (s : St) (t : Spec) : Prop where
  vars : ∀ x, t.owns x = (s.vars x).map absG
  next : t.next = s.next
  log : t.log = s.log
  moved : ∀ x g, s.vars x = some g → g.invoke = false → g.works = true → keeps g.action = true

theorem step_ok {keeps : Nat → Bool} {s : St} {t : Spec} (h : Rel keeps s t) (op : Op) (hf : Fine keeps s op) : ∃ s', step keeps s op = some s' ∧ Rel keeps s' (t.step op) := by
  cases op with
  | make x =>
    simp only [step, Spec.step, h.vars x]
    cases hx : s.vars x with
    | some g => exact ⟨s, rfl, by simpa using h⟩
    | none =>
      refine ⟨_, rfl, ?_, by simp [h.next], h.log, ?_⟩
      · intro y; simp only [set, Spec.set, Option.map_none, Option.isSome_none, Bool.false_eq_true, if_false]; split
        · simp [absG, h.next]
        · exact h.vars y
      · intro y g; simp only [set]; split
        · intro e; simp at e; subst e; simp
        · exact h.moved y g
  | move x y =>
    simp only [step, Spec.step, h.vars x, h.vars y]
    cases hx : s.vars x with
    | some g => exact ⟨s, rfl, by simpa using h⟩
    | none =>
      cases hy : s.vars y with
      | none => exact ⟨s, rfl, by simpa using h⟩
      | some g =>
        have hg := hf g hy
        have hm := h.moved y g hy
        refine ⟨_, rfl, ?_⟩
        simp only [Option.map_some, Option.map_none]
        refine ⟨?_, h.next, h.log, ?_⟩
        · intro z; simp only [set, Spec.set]; split
          · simp [absG]
          · split
            · simp only [Option.map_some, Option.some.injEq, absG, Bool.true_and]
              cases h1 : g.invoke <;> cases h2 : g.works <;> simp
              rcases hg with k | k
              · rw [h1] at k; simp at k
              · have := hm h1 h2; rw [k] at this; simp at this
            · exact h.vars z
        · intro z g'; simp only [set]; split
          · intro e; simp at e; subst e; simp
          · split
            · intro e; simp at e; subst e; simp
            · exact h.moved z g'
  | assign x y =>
    simp only [step, Spec.step]
    rcases hf with k | k
    · rw [k]; exact ⟨s, rfl, h⟩
    · rw [k]
      cases s.vars x with
      | none => exact ⟨s, rfl, h⟩
      | some _ => exact ⟨s, rfl, h⟩
  | del x =>
    simp only [step, Spec.step, h.vars x]
    cases hx : s.vars x with
    | none => exact ⟨s, rfl, by simpa using h⟩
    | some g =>
      have hv : ∀ z, Spec.set t.owns x none z = (set s.vars x none z).map absG := by
        intro z; simp only [set, Spec.set]; split
        · rfl
        · exact h.vars z
      have hm : ∀ z g, set s.vars x none z = some g → g.invoke = false → g.works = true → keeps g.action = true := by
        intro z g'; simp only [set]; split
        · intro e; simp at e
        · exact h.moved z g'
      refine ⟨_, rfl, ?_⟩
      cases hc : (g.invoke && g.works)
      · simp only [Option.map_some, absG, hc, Bool.false_eq_true, if_false]
        exact ⟨hv, h.next, h.log, hm⟩
      · simp only [Option.map_some, absG, hc, if_true]
        exact ⟨hv, h.next, by simp [h.log], hm⟩

theorem run_ok {keeps : Nat → Bool} : ∀ (ops : List Op) {s : St} {t : Spec}, Rel keeps s t → AllFine keeps s ops → ∃ s', run keeps s ops = some s' ∧ Rel keeps s' (t.run ops)
  | [], s, _, h, _ => ⟨s, rfl, h⟩
  | op :: ops, s, t, h, hf => by
    obtain ⟨s1, e, h1⟩ := step_ok h op hf.1
    obtain ⟨s2, e2, h2⟩ := run_ok ops h1 (hf.2 s1 e)
    exact ⟨s2, by simp [run, e, e2], h2⟩

/-- The actions that are run, and when, are those of the specification, in which an action has exactly one owner until the destructor of
the owner runs it: no action runs twice, and when all guards are gone all actions have run. -/
theorem C32_partial (keeps : Nat → Bool) (ops : List Op) (hf : AllFine keeps init ops) :
    ∃ s, run keeps init ops = some s ∧ s.log = (Spec.init.run ops).log ∧ s.log.Nodup ∧
      (∀ a < s.next, a ∉ s.log → ∃ x, (Spec.init.run ops).owns x = some (some a) ∧ s.vars x ≠ none) ∧
      ((∀ x, s.vars x = none) → s.log.Perm (List.range s.next)) := by
  have h0 : Rel keeps init Spec.init := ⟨fun _ => rfl, rfl, rfl, fun _ _ e => by simp [init] at e⟩
  have o0 : Once Spec.init := ⟨by simp [Spec.init], by simp [Spec.init], by simp [Spec.init], by simp [Spec.init], by simp [Spec.init]⟩
  obtain ⟨s, e, h⟩ := run_ok ops h0 hf
  have ho := Once.run ops o0
  have hown : ∀ a < s.next, a ∉ s.log → ∃ x, (Spec.init.run ops).owns x = some (some a) ∧ s.vars x ≠ none := by
    intro a ha hn
    rcases ho.cover a (by rw [h.next]; exact ha) with c | ⟨x, c⟩
    · rw [h.log] at c; exact absurd c hn
    · refine ⟨x, c, fun k => ?_⟩
      rw [h.vars x, k] at c; simp at c
  have hnd : s.log.Nodup := h.log ▸ ho.nodup
  refine ⟨s, e, h.log.symm, hnd, hown, ?_⟩
  intro hall
  rw [List.perm_ext_iff_of_nodup hnd List.nodup_range]
  intro a
  rw [List.mem_range]
  constructor
  · intro ha; rw [← h.next]; exact ho.logged a (h.log ▸ ha)
  · intro ha
    apply Classical.byContradiction
    intro hn
    obtain ⟨x, -, hx⟩ := hown a ha hn
    exact hx (hall x)

/-- A moved-from guard that is moved again gives an owner of the action, if this still works: it runs twice. -/
theorem C32_twice_violated : (run (fun _ => true) init [.make 0, .move 1 0, .move 2 0, .del 2, .del 1, .del 0]).map St.log = some [0, 0] := by
  rfl

/-- Every move assignment between guards that compiles is undefined (for a lambda, which cannot be assigned, it does not compile). -/
theorem C32_assign_violated (keeps : Nat → Bool) (s : St) (x y : Nat) (g g' : Guard) (hx : s.vars x = some g) (hy : s.vars y = some g') : step keeps s (.assign x y) = none := by
  simp [step, hx, hy]

/-- `make_finally` compiles exactly for actions that can be copied and are a temporary or `const`. -/
theorem C32_compiles_partial (a : Arg) : a.compiles = true ↔ a.copyable = true ∧ (a.lvalue = true → a.isConst = true) := by
  rcases a with ⟨l, c, k⟩
  cases l <;> cases c <;> cases k <;> decide

/-- No guard can be made from a variable that holds the action: `auto f = [...]{...}; auto g = make_finally(f);` does not compile, whatever
the class of `f`. -/
theorem C32_named_violated (k : Bool) : (Arg.mk true false k).compiles = false := rfl

/-- No guard can be made for an action that cannot be copied, such as a lambda with a `std::unique_ptr`, though it is moved in. -/
theorem C32_move_only_violated (l c : Bool) : (Arg.mk l c false).compiles = false := by
  cases l <;> cases c <;> rfl

example : (Arg.mk false false true).compiles = true ∧ (Arg.mk true true true).compiles = true := by decide

def sample : List Op := [.make 0, .move 1 0, .make 2, .move 3 1, .del 0, .move 0 3, .del 2, .del 1, .del 3, .del 0]

example : (run (fun _ => true) init sample).map St.log = some [1, 0] := rfl

example : AllFine (fun _ => true) init sample := by
  simp [sample, AllFine, Fine, step, init, set]

/-- Also with moves from guards that have no action any more, if actions do not work after a move. -/
example : AllFine (fun _ => false) init [.make 0, .move 1 0, .move 2 0, .del 2, .del 1, .del 0] := by
  simp [AllFine, Fine, step, init, set]

end Verif.Finally
