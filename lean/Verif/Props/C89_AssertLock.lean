import Verif.Model.AssertLock

/-!
# C89: assertions throw while a lock is in scope
-/
set_option autoImplicit false

namespace Verif.AssertLock

/-! ## Specification -/

/-- the number of locks whose scope has not ended after the statements -/
def locksIn (ops : List Op) : Nat := ops.foldl (fun n op => match op with | .lock => n + 1 | .unlock => n - 1 | .check _ => n) 0

/-- No lock is made while another one is in scope. -/
def NotNested (ops : List Op) : Prop := ∀ before after, ops = before ++ .lock :: after → locksIn before = 0

/-! ## Proofs -/

theorem run_append (debug : Bool) (s : St) (a b : List Op) : run debug s (a ++ b) = (run debug s a).bind (fun s' => run debug s' b) := by
  induction a generalizing s with
  | nil => rfl
  | cons op a ih =>
    simp only [List.cons_append, run]
    split
    · rfl
    · exact ih _

theorem locksIn_append (a : List Op) (op : Op) : locksIn (a ++ [op]) = match op with | .lock => locksIn a + 1 | .unlock => locksIn a - 1 | .check _ => locksIn a := by
  simp [locksIn]

theorem snoc_induction {P : List Op → Prop} (h0 : P []) (h1 : ∀ a op, P a → P (a ++ [op])) (l : List Op) : P l := by
  have : ∀ r : List Op, P r.reverse := by
    intro r
    induction r with
    | nil => exact h0
    | cons x r ih => rw [List.reverse_cons]; exact h1 _ _ ih
  have h := this l.reverse
  rwa [List.reverse_reverse] at h

/-- The state: the locks are counted, the callback is the one of the last lock or end of a lock. -/
theorem run_state (debug : Bool) (ops : List Op) : ∀ s, run debug init ops = some s → s.locks = locksIn ops ∧ (s.locks = 0 → s.callback = .default_) := by
  induction ops using snoc_induction with
  | h0 => intro s h; simp [run] at h; subst h; simp [init, locksIn]
  | h1 a op ih =>
    intro s h
    rw [run_append, Option.bind_eq_some_iff] at h
    obtain ⟨m, hm, h⟩ := h
    obtain ⟨ih1, ih2⟩ := ih m hm
    simp only [run] at h
    split at h
    · cases h
    · simp only [Option.some.injEq] at h; subst h
      rw [locksIn_append]
      cases op with
      | lock => simp [step, ih1]
      | unlock =>
        simp only [step]
        split
        · rename_i h0; exact ⟨by dsimp only; omega, ih2⟩
        · exact ⟨by dsimp only; omega, fun _ => rfl⟩
      | check c => exact ⟨ih1, ih2⟩

theorem not_nested_prefix {a b : List Op} (h : NotNested (a ++ b)) : NotNested a := fun x y e => h x (y ++ b) (by simp [e])

theorem run_locked (debug : Bool) (ops : List Op) (hn : NotNested ops) : ∀ s, run debug init ops = some s → s.locks ≤ 1 ∧ (s.locks = 1 → s.callback = .throwing) := by
  induction ops using snoc_induction with
  | h0 => intro s h; simp [run] at h; subst h; simp [init]
  | h1 a op ih =>
    intro s h
    rw [run_append, Option.bind_eq_some_iff] at h
    obtain ⟨m, hm, h⟩ := h
    obtain ⟨ih1, ih2⟩ := ih (not_nested_prefix hn) m hm
    have hl := (run_state debug a m hm).1
    simp only [run] at h
    split at h
    · cases h
    · simp only [Option.some.injEq] at h; subst h
      cases op with
      | lock =>
        have := hn a [] rfl
        simp only [step]
        exact ⟨by omega, by simp⟩
      | unlock =>
        simp only [step]
        split
        · exact ⟨ih1, ih2⟩
        · exact ⟨by dsimp only; omega, fun e => by dsimp only at e; omega⟩
      | check c => exact ⟨ih1, ih2⟩

/-- After every program: if no lock is in scope, a failed assertion ends a debug build and is passed over by a release build; one that holds always passes. -/
theorem C89_unlocked (debug : Bool) (ops : List Op) (s : St) (h : run debug init ops = some s) (h0 : locksIn ops = 0) (c : Bool) :
    step debug s (.check c) = (if c then .passed else if debug then .aborted else .passed, s) := by
  obtain ⟨h1, h2⟩ := run_state debug ops s h
  have := h2 (by omega)
  cases c <;> cases debug <;> simp [step, call, this]

/-- After a program without nested locks: if a lock is in scope, a failed assertion throws. Missing: locks made while another one is in scope, also by another thread (`C89_nested_violated`). -/
theorem C89_locked_partial (debug : Bool) (ops : List Op) (hn : NotNested ops) (s : St) (h : run debug init ops = some s) (h0 : 0 < locksIn ops) (c : Bool) :
    step debug s (.check c) = (if c then .passed else .threw, s) := by
  obtain ⟨h1, _⟩ := run_state debug ops s h
  obtain ⟨h3, h4⟩ := run_locked debug ops hn s h
  have := h4 (by omega)
  cases c <;> simp [step, call, this]

def sample : List Op := [.check true, .lock, .check false, .unlock, .lock]

example : run true init sample = some ⟨.throwing, 1⟩ ∧ 0 < locksIn sample := by decide

example : NotNested sample := by
  intro b a h
  match b, h with
  | [], h => simp [sample] at h
  | [_], h => simp [sample] at h; obtain ⟨rfl, _⟩ := h; rfl
  | [_, _], h => simp [sample] at h
  | [_, _, _], h => simp [sample] at h
  | [_, _, _, _], h => simp [sample] at h; obtain ⟨rfl, rfl, rfl, rfl, _⟩ := h; rfl
  | _ :: _ :: _ :: _ :: _ :: b, h => simp [sample] at h

example : run true init [.lock, .unlock] = some ⟨.default_, 0⟩ ∧ locksIn [.lock, .unlock] = 0 := by decide

/-- The end of an inner lock sets the default callback although the outer lock is in scope: the next failed assertion ends the program. -/
theorem C89_nested_violated : ∃ s, run true init [.lock, .lock, .unlock] = some s ∧ locksIn [.lock, .lock, .unlock] = 1 ∧ (step true s (.check false)).1 = .aborted := ⟨_, rfl, by decide, by decide⟩

end Verif.AssertLock
