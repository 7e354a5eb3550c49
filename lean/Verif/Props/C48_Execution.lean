import Verif.Model.Execution
import Mathlib.Data.List.Forall2

/-!
# C48: actors run on the execution context they ask for
-/
set_option autoImplicit false

namespace Verif.Execution

/-! ## Specification -/

/-- The answer that is right for a name: a context of this name, and nothing if there is none. -/
def Right (executions : List Ctx) (name : Str) (answer : Option Nat) : Prop :=
  match answer with
  | some i => ∃ c, executions[i]? = some c ∧ c.name = name
  | none => ∀ c ∈ executions, c.name ≠ name

/-- The contexts a configuration describes. -/
def Described (conf : Conf) (executions : List Ctx) (defaultName : Str) : Prop :=
  ∃ xs, convertAll (match conf.contexts with | some cs => cs | none => []) = some xs ∧
    ((conf.defaultExecutor = none ∧ defaultName = defaultStr ∧ executions = Ctx.default defaultStr :: xs) ∨
      (conf.defaultExecutor = some defaultName ∧ executions = xs))

/-- What an entry of the configuration says: a name, a type, and the settings of this type, with their defaults. -/
def Meaning (c : CtxConf) (x : Ctx) : Prop :=
  c.name = some x.name ∧
    ((c.type = some "thread_pool".toList ∧ x.executor = .dynamic (c.threadsNum.getD 4) (c.throughput.getD 5)) ∨
      (c.type = some "pinned".toList ∧ x.executor = .pinned (c.threadsLimit.getD 16)))

/-! ## Proof -/

theorem getOr_eq (v : Option Nat) (d : Nat) : getOr v d = v.getD d := by cases v <;> rfl

theorem convert_eq (c : CtxConf) (x : Ctx) : convert c = some x ↔ Meaning c x := by
  obtain ⟨n, t, a, b, d⟩ := c
  obtain ⟨xn, xe⟩ := x
  have hne : thread_pool ≠ pinned := by decide +kernel
  have h1 : "thread_pool".toList = thread_pool := rfl
  have h2 : "pinned".toList = pinned := rfl
  simp only [convert, Meaning, h1, h2, getOr_eq]
  cases n with
  | none => simp
  | some n =>
    cases t with
    | none => simp
    | some t =>
      simp only
      by_cases ht : t = thread_pool
      · subst ht
        simp [hne, eq_comm]
        intro _ h
        exact absurd h hne.symm
      · by_cases hp : t = pinned
        · subst hp
          simp [hne.symm, eq_comm]
        · simp [ht, hp]

/-- Every entry of the configuration becomes a context with its name and settings, in the same order; an entry that has no meaning (a missing name, an
unknown type) is an error. -/
theorem C48_contexts (cs : List CtxConf) (xs : List Ctx) : convertAll cs = some xs ↔ List.Forall₂ Meaning cs xs := by
  induction cs generalizing xs with
  | nil => cases xs <;> simp [convertAll]
  | cons c cs ih =>
    simp only [convertAll]
    cases xs with
    | nil =>
      cases h1 : convert c <;> simp only
      · simp
      · cases h2 : convertAll cs <;> simp
    | cons x xs =>
      rw [List.forall₂_cons, ← ih, ← convert_eq]
      cases h1 : convert c <;> simp only
      · simp
      · cases h2 : convertAll cs <;> simp

example : convertAll [⟨some ['x'], some pinned, none, none, some 3⟩] = some [⟨['x'], .pinned 3⟩] ∧ convertAll [⟨some ['x'], some ['q'], none, none, some 3⟩] = none := by
  decide +kernel

theorem findExecution_eq (executions : List Ctx) (name : Str) : findExecution executions name = if executions = [] then none else some 0 := by
  have h : findIf executions 0 0 (fun c => decide (c.name = name)) = 0 := by rw [findIf]; simp
  unfold findExecution
  cases executions <;> simp [h]

/-- What holds: the answer is right exactly if there are no contexts at all, or the name is that of the first one. -/
theorem C48_partial (executions : List Ctx) (name : Str) :
    Right executions name (findExecution executions name) ↔ (executions = [] ∨ ∃ c rest, executions = c :: rest ∧ c.name = name) := by
  rw [findExecution_eq]
  cases executions with
  | nil => simp [Right]
  | cons c rest => simp [Right]

/-- A system is created from the contexts its configuration describes; there is at least one. -/
theorem C48_init (conf : Conf) (s : System) : initExecutors conf = some s ↔ (Described conf s.executions s.defaultName ∧ s.executions ≠ []) := by
  obtain ⟨ex, dn⟩ := s
  obtain ⟨d, cs⟩ := conf
  simp only [initExecutors, findExecution_eq, Described]
  generalize convertAll _ = r
  cases r with
  | none => simp
  | some xs =>
    cases d with
    | none =>
      simp
      constructor
      · rintro ⟨rfl, rfl⟩; simp
      · rintro ⟨⟨rfl, rfl⟩, -⟩; simp
    | some n =>
      by_cases hx : xs = []
      · subst hx; simp
      · simp [hx]
        constructor
        · rintro ⟨rfl, rfl⟩; exact ⟨⟨rfl, rfl⟩, hx⟩
        · rintro ⟨⟨rfl, rfl⟩, -⟩; exact ⟨rfl, rfl⟩

/-- In every system an actor is given some context, also if none has the name it asks for: the first one. -/
theorem C48_first (conf : Conf) (s : System) (h : initExecutors conf = some s) (props : Option Str) : execution s props = some 0 := by
  have hne := ((C48_init conf s).1 h).2
  cases props <;> simp [execution, findExecution_eq, hne]

/-- Without a configuration, actors run on the default context. -/
theorem C48_default (s : System) (conf : Conf) (hc : conf.defaultExecutor = none) (h : initExecutors conf = some s) :
    Right s.executions s.defaultName (execution s none) := by
  rw [C48_first conf s h]
  obtain ⟨⟨xs, -, ⟨-, h1, h2⟩ | ⟨h1, -⟩⟩, -⟩ := (C48_init conf s).1 h
  · exact ⟨Ctx.default defaultStr, by rw [h2]; rfl, by rw [h1]; rfl⟩
  · rw [hc] at h1; simp at h1

/-- A second context is never used, although an actor asks for it. -/
theorem C48_second_violated : ∃ conf s, initExecutors conf = some s ∧ (∃ c ∈ s.executions, c.name = ['x']) ∧ ¬ Right s.executions ['x'] (execution s (some ['x'])) := by
  refine ⟨⟨none, some [⟨some ['x'], some pinned, none, none, none⟩]⟩, ⟨[Ctx.default defaultStr, ⟨['x'], .pinned 16⟩], defaultStr⟩, by decide +kernel, ⟨_, by simp; exact Or.inr rfl, rfl⟩, ?_⟩
  have h : execution ⟨[Ctx.default defaultStr, ⟨['x'], .pinned 16⟩], defaultStr⟩ (some ['x']) = some 0 := by decide +kernel
  rw [h]
  rintro ⟨c, h1, h2⟩
  simp at h1
  subst h1
  exact absurd h2 (by decide)

/-- An unknown name is not reported, and neither is an unknown default context. -/
theorem C48_unknown_violated : (∃ conf s, initExecutors conf = some s ∧ ¬ Right s.executions ['y'] (execution s (some ['y']))) ∧
    ∃ conf s, initExecutors conf = some s ∧ ∀ c ∈ s.executions, c.name ≠ s.defaultName := by
  constructor
  · refine ⟨⟨none, none⟩, ⟨[Ctx.default defaultStr], defaultStr⟩, by decide +kernel, ?_⟩
    have h : execution ⟨[Ctx.default defaultStr], defaultStr⟩ (some ['y']) = some 0 := by decide +kernel
    rw [h]
    rintro ⟨c, h1, h2⟩
    simp at h1
    subst h1
    exact absurd h2 (by decide)
  · exact ⟨⟨some ['d'], some [⟨some ['x'], some pinned, none, none, none⟩]⟩, ⟨[⟨['x'], .pinned 16⟩], ['d']⟩, by decide +kernel, by decide⟩

example : ∃ s, initExecutors ⟨none, some [⟨some ['x'], some thread_pool, some 2, none, none⟩]⟩ = some s ∧ s.executions.length = 2 ∧ execution s none = some 0 :=
  ⟨⟨[Ctx.default defaultStr, ⟨['x'], .dynamic 2 5⟩], defaultStr⟩, by decide +kernel, rfl, by decide +kernel⟩

end Verif.Execution
