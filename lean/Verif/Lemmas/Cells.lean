import Verif.Model.Cells

/-!
Every computation on cells keeps the books: each constructed object is destroyed once or is alive in one variable.
-/
set_option autoImplicit false
set_option linter.unusedSectionVars false

namespace Verif.Cells
variable {μ β γ δ : Type}

theorem bind_some {m : M μ β γ} {f : γ → M μ β δ} {s s' : St μ β} {x : γ} (e : m s = some (x, s')) : (m >>= f) s = f x s' := by
  show M.bind m f s = _
  simp only [M.bind, e]

theorem bind_none {m : M μ β γ} {f : γ → M μ β δ} {s : St μ β} (e : m s = none) : (m >>= f) s = none := by
  show M.bind m f s = _
  simp only [M.bind, e]

theorem pure_run (x : γ) (s : St μ β) : (pure x : M μ β γ) s = some (x, s) := rfl

/-- Number of the object in a variable. -/
def held (s : St μ β) (x : Nat) : Option Nat :=
  match s.vars x with
  | some ⟨some (id, _), _⟩ => some id
  | _ => none

/-- Each object constructed so far has been destroyed exactly once, or is alive in exactly one variable. -/
structure Ledger (s : St μ β) : Prop where
  /-- no object was destroyed twice -/
  once : s.dead.Nodup
  /-- only constructed objects were destroyed -/
  born : ∀ id ∈ s.dead, id < s.next
  /-- no object in a variable was destroyed -/
  live : ∀ x id, held s x = some id → id < s.next ∧ id ∉ s.dead
  /-- no object is in two variables -/
  inj : ∀ x y id, held s x = some id → held s y = some id → x = y
  /-- no object is lost -/
  cover : ∀ id, id < s.next → id ∈ s.dead ∨ ∃ x, held s x = some id

theorem ledger_init : Ledger (St.init : St μ β) :=
  ⟨List.nodup_nil, fun _ h => (by cases h), fun _ _ h => by simp [held, St.init] at h, fun _ _ _ h => by simp [held, St.init] at h, fun _ h => by simp [St.init] at h⟩

/-- The objects are the same. -/
theorem Ledger.same {s s' : St μ β} (l : Ledger s) (hn : s'.next = s.next) (hd : s'.dead = s.dead) (hh : ∀ x, held s' x = held s x) : Ledger s' := by
  refine ⟨by rw [hd]; exact l.once, by rw [hn, hd]; exact l.born, ?_, ?_, ?_⟩
  · intro x id h; rw [hh] at h; rw [hn, hd]; exact l.live x id h
  · intro x y id h1 h2; rw [hh] at h1 h2; exact l.inj x y id h1 h2
  · intro id h; rw [hn] at h; rw [hd]
    rcases l.cover id h with h | ⟨x, h⟩
    · exact .inl h
    · exact .inr ⟨x, by rw [hh]; exact h⟩

theorem held_set (s : St μ β) (x : Nat) (c : Option (Cell μ β)) (y : Nat) :
    held (s.set x c) y = if y = x then (c.bind Cell.mem).map Prod.fst else held s y := by
  simp only [held, St.set]
  by_cases h : y = x
  · simp only [if_pos h]
    cases c with
    | none => rfl
    | some c => obtain ⟨m, i⟩ := c; cases m <;> rfl
  · simp only [if_neg h]

/-- A computation that keeps the books. -/
def Keeps (m : M μ β γ) : Prop := ∀ s x s', Ledger s → m s = some (x, s') → Ledger s'

theorem Keeps.pure (x : γ) : Keeps (Pure.pure x : M μ β γ) := by
  intro s y s' l e
  have : s = s' := by simpa [Pure.pure, M.pure] using congrArg (Option.map Prod.snd) e
  exact this ▸ l

theorem Keeps.bad : Keeps (Cells.bad : M μ β γ) := by
  intro s y s' l e; cases e

theorem Keeps.bind {m : M μ β γ} {f : γ → M μ β δ} (hm : Keeps m) (hf : ∀ x, Keeps (f x)) : Keeps (m >>= f) := by
  intro s y s' l e
  cases h : m s with
  | none => rw [bind_none h] at e; cases e
  | some p =>
    obtain ⟨x, s1⟩ := p
    rw [bind_some h] at e
    exact hf x s1 y s' (hm s x s1 l h) e

theorem Keeps.ite {c : Prop} [Decidable c] {m n : M μ β γ} (hm : Keeps m) (hn : Keeps n) : Keeps (if c then m else n) := by
  split
  · exact hm
  · exact hn

theorem Keeps.alive (x : Nat) : Keeps (Cells.alive x : M μ β Bool) := by
  intro s y s' l e
  have : s = s' := by simpa [Cells.alive] using congrArg (Option.map Prod.snd) e
  exact this ▸ l

theorem Keeps.info (x : Nat) : Keeps (Cells.info x : M μ β μ) := by
  intro s y s' l e
  simp only [Cells.info] at e
  split at e
  · simp at e; exact e.2 ▸ l
  · cases e

theorem Keeps.value (x : Nat) : Keeps (Cells.value x : M μ β β) := by
  intro s y s' l e
  simp only [Cells.value] at e
  split at e
  · simp at e; exact e.2 ▸ l
  · cases e

theorem held_of {s : St μ β} {x : Nat} {c : Option (Cell μ β)} (h : s.vars x = c) : held s x = (c.bind Cell.mem).map Prod.fst := by
  subst h
  simp only [held]
  split
  · next h => rw [h]; rfl
  · next h1 =>
    cases h : s.vars x with
    | none => rfl
    | some c =>
      obtain ⟨m, i⟩ := c
      cases m with
      | none => rfl
      | some p => exact absurd h (h1 p.1 p.2 i)

theorem Keeps.declare (x : Nat) (i : μ) : Keeps (Cells.declare x i : M μ β Unit) := by
  intro s y s' l e
  simp only [Cells.declare] at e
  split at e
  · cases e
  · next h =>
    simp at e; subst e
    refine l.same rfl rfl fun z => ?_
    rw [held_set]; split
    · next hz => rw [hz, held_of h]; rfl
    · rfl

theorem Keeps.undeclare (x : Nat) : Keeps (Cells.undeclare x : M μ β Unit) := by
  intro s y s' l e
  simp only [Cells.undeclare] at e
  split at e
  · next i h =>
    simp at e; subst e
    refine l.same rfl rfl fun z => ?_
    rw [held_set]; split
    · next hz => rw [hz, held_of h]; rfl
    · rfl
  · cases e

theorem Keeps.setInfo (x : Nat) (i : μ) : Keeps (Cells.setInfo x i : M μ β Unit) := by
  intro s y s' l e
  simp only [Cells.setInfo] at e
  split at e
  · next c h =>
    simp at e; subst e
    refine l.same rfl rfl fun z => ?_
    rw [held_set]; split
    · next hz => rw [hz, held_of h]; rfl
    · rfl
  · cases e

theorem Keeps.store (x : Nat) (b : β) : Keeps (Cells.store x b : M μ β Unit) := by
  intro s y s' l e
  simp only [Cells.store] at e
  split at e
  · next id _ i h =>
    simp at e; subst e
    refine l.same rfl rfl fun z => ?_
    rw [held_set]; split
    · next hz => rw [hz, held_of h]; rfl
    · rfl
  · cases e

theorem Keeps.construct (x : Nat) (b : β) (fail : Bool) : Keeps (Cells.construct x b fail : M μ β Bool) := by
  intro s y s' l e
  simp only [Cells.construct] at e
  split at e
  · next i h =>
    split at e
    · simp at e; exact e.2 ▸ l
    · simp at e
      obtain ⟨_, rfl⟩ := e
      have hh : ∀ z, held { s.set x (some ⟨some (s.next, b), i⟩) with next := s.next + 1 } z = if z = x then some s.next else held s z := by
        intro z; exact held_set s x (some ⟨some (s.next, b), i⟩) z
      have hx : held s x = none := by rw [held_of h]; rfl
      refine ⟨l.once, fun id hid => Nat.lt_succ_of_lt (l.born id hid), ?_, ?_, ?_⟩
      · intro z id hz
        rw [hh] at hz
        split at hz
        · simp at hz; subst hz
          exact ⟨Nat.lt_succ_self _, fun hd => Nat.lt_irrefl _ (l.born _ hd)⟩
        · exact ⟨Nat.lt_succ_of_lt (l.live z id hz).1, (l.live z id hz).2⟩
      · intro z w id hz hw
        rw [hh] at hz hw
        split at hz <;> split at hw
        · next a b => rw [a, b]
        · simp at hz; subst hz; exact absurd (l.live _ _ hw).1 (Nat.lt_irrefl _)
        · simp at hw; subst hw; exact absurd (l.live _ _ hz).1 (Nat.lt_irrefl _)
        · exact l.inj z w id hz hw
      · intro id hid
        rcases Nat.lt_succ_iff_lt_or_eq.mp hid with hlt | heq
        · rcases l.cover id hlt with hd | ⟨z, hz⟩
          · exact .inl hd
          · refine .inr ⟨z, ?_⟩
            rw [hh, if_neg (fun c => by rw [c, hx] at hz; cases hz)]
            exact hz
        · exact .inr ⟨x, by rw [hh, if_pos rfl, heq]⟩
  · cases e

theorem Keeps.destroy (x : Nat) : Keeps (Cells.destroy x : M μ β Unit) := by
  intro s y s' l e
  simp only [Cells.destroy] at e
  split at e
  · next id b i h =>
    simp at e; subst e
    have hh : ∀ z, held { s.set x (some ⟨none, i⟩) with dead := id :: s.dead } z = if z = x then none else held s z := by
      intro z; exact held_set s x (some ⟨none, i⟩) z
    have hx : held s x = some id := by rw [held_of h]; rfl
    refine ⟨List.nodup_cons.mpr ⟨(l.live x id hx).2, l.once⟩, ?_, ?_, ?_, ?_⟩
    · intro j hj
      rcases List.mem_cons.mp hj with rfl | hj
      · exact (l.live x _ hx).1
      · exact l.born j hj
    · intro z j hz
      rw [hh] at hz
      split at hz
      · cases hz
      · next hne =>
        refine ⟨(l.live z j hz).1, fun hm => ?_⟩
        rcases List.mem_cons.mp hm with rfl | hm
        · exact hne (l.inj z x _ hz hx)
        · exact (l.live z j hz).2 hm
    · intro z w j hz hw
      rw [hh] at hz hw
      split at hz
      · cases hz
      · split at hw
        · cases hw
        · exact l.inj z w j hz hw
    · intro j hj
      rcases l.cover j hj with hd | ⟨z, hz⟩
      · exact .inl (List.mem_cons_of_mem _ hd)
      · by_cases c : z = x
        · rw [c, hx] at hz
          simp at hz; subst hz
          exact .inl (List.mem_cons_self ..)
        · exact .inr ⟨z, by rw [hh, if_neg c]; exact hz⟩
  · cases e

/-- When no variable is in scope any more, the objects destroyed are exactly the objects constructed, each once. -/
theorem Ledger.all {s : St μ β} (l : Ledger s) (h : ∀ x, s.vars x = none) : s.dead.Nodup ∧ ∀ id, id ∈ s.dead ↔ id < s.next := by
  refine ⟨l.once, fun id => ⟨l.born id, fun hid => ?_⟩⟩
  rcases l.cover id hid with hd | ⟨x, hx⟩
  · exact hd
  · rw [held_of (h x)] at hx; cases hx

end Verif.Cells
