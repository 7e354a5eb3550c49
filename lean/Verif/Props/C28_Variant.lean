import Verif.Model.Variant
import Verif.Lemmas.Cells

/-!
# C28: a variant holds one live value of the reported type; every value is destroyed exactly once
-/
set_option autoImplicit false
set_option linter.unusedSectionVars false

namespace Verif.Variant
open Verif.Cells

variable {α : Type}

/-! ## Specification -/

/-- What a variant holds. -/
inductive V (α : Type) where
  /-- a value of type `T`, which is not `void` -/
  | val (T : Nat) (a : α)
  /-- `void` -/
  | empty
  /-- no alternative at all; `leak`: its storage still has an object in it, which will not be destroyed -/
  | valueless (leak : Bool)
deriving DecidableEq, Repr

inductive Slot (α : Type) where
  /-- not declared yet -/
  | fresh
  /-- in scope, with these alternatives -/
  | here (A : List Nat) (v : V α)
  /-- its scope has ended, with or without an object left in its storage -/
  | ended (leak : Bool)
deriving DecidableEq, Repr

abbrev Vars (α : Type) := Nat → Slot α

def Vars.set (σ : Vars α) (x : Nat) (v : Slot α) : Vars α := fun y => if y = x then v else σ y

/-- Lists of alternatives that are allowed. -/
def AltsOk (A : List Nat) : Prop := A ≠ [] ∧ A.length ≤ 254 ∧ A.Nodup

instance (A : List Nat) : Decidable (AltsOk A) := inferInstanceAs (Decidable (_ ∧ _ ∧ _))

/-- Did it hold a value, which is now a moved-from one? -/
def V.full : V α → Bool
  | .val _ _ => true
  | _ => false

/-- What each statement should do; `fail`: what it calls throws. `none`: no answer. This is so for the assignment of a variant to
itself, which the code excludes by a contract, an exception in `get_or` or `get_opt`, which are `noexcept`, and for most statements on
valueless variants, on which the code is undefined. -/
def spec (t : Ty α) (σ : Vars α) (fail : Bool) : Op α → Option (Res α × Vars α)
  | .newNull x A =>
    match σ x with
    | .fresh => if AltsOk A ∧ 0 ∈ A then some (.done, σ.set x (.here A .empty)) else some (.skipped, σ)
    | _ => some (.skipped, σ)
  | .newVal x A T a =>
    match σ x with
    | .fresh =>
      if AltsOk A ∧ T ∈ A ∧ T ≠ 0 then
        if fail then some (.threw, σ) else some (.done, σ.set x (.here A (.val T a)))
      else some (.skipped, σ)
    | _ => some (.skipped, σ)
  | .newCopy x y =>
    match σ y, σ x with
    | .here A (.val T a), .fresh => if fail then some (.threw, σ) else some (.done, σ.set x (.here A (.val T a)))
    | .here A .empty, .fresh => some (.done, σ.set x (.here A .empty))
    | .here _ (.valueless _), .fresh => none
    | _, _ => some (.skipped, σ)
  | .newMove x y =>
    match σ y, σ x with
    | .here A (.val T a), .fresh =>
      if fail then some (.threw, σ) else some (.done, (σ.set x (.here A (.val T a))).set y (.here A (.valueless true)))
    | .here A .empty, .fresh => some (.done, (σ.set x (.here A .empty)).set y (.here A (.valueless false)))
    | .here _ (.valueless _), .fresh => none
    | _, _ => some (.skipped, σ)
  | .newCast x A y move =>
    match σ y, σ x with
    | .here B v, .fresh =>
      if AltsOk A then
        match v with
        | .valueless _ => some (.badCast, σ)
        | .empty => if 0 ∈ A then some (.done, σ.set x (.here A .empty)) else some (.badCast, σ)
        | .val T a =>
          if T ∈ A then
            if fail then some (.threw, σ)
            else if move then some (.done, (σ.set x (.here A (.val T a))).set y (.here B (.val T (t.moved a))))
            else some (.done, σ.set x (.here A (.val T a)))
          else some (.badCast, σ)
      else some (.skipped, σ)
    | _, _ => some (.skipped, σ)
  | .del x =>
    match σ x with
    | .here _ (.valueless leak) => some (.done, σ.set x (.ended leak))
    | .here _ _ => some (.done, σ.set x (.ended false))
    | _ => some (.skipped, σ)
  | .copyAssign x y =>
    match σ x, σ y with
    | .here A v, .here B w =>
      if A = B then
        if x = y then none
        else
          match v, w with
          | .valueless _, _ => none
          | _, .valueless _ => none
          | _, .empty => some (.done, σ.set x (.here A .empty))
          | .empty, .val U b => if fail then some (.threw, σ.set x (.here A (.valueless false))) else some (.done, σ.set x (.here A (.val U b)))
          | .val T a, .val U b =>
            if fail then some (.threw, σ.set x (.here A (if T = U then .val T (t.torn a b) else .valueless false)))
            else some (.done, σ.set x (.here A (.val U b)))
      else some (.skipped, σ)
    | _, _ => some (.skipped, σ)
  | .moveAssign x y =>
    match σ x, σ y with
    | .here A v, .here B w =>
      if A = B then
        if x = y then none
        else
          match v, w with
          | .valueless _, _ => none
          | _, .valueless _ => none
          | _, .empty => some (.done, (σ.set x (.here A .empty)).set y (.here A (.valueless false)))
          | .empty, .val U b =>
            if fail then some (.threw, σ.set x (.here A (.valueless false)))
            else some (.done, (σ.set x (.here A (.val U b))).set y (.here A (.valueless true)))
          | .val T a, .val U b =>
            if fail then some (.threw, σ.set x (.here A (if T = U then .val T (t.torn a b) else .valueless false)))
            else some (.done, (σ.set x (.here A (.val U b))).set y (.here A (.valueless true)))
      else some (.skipped, σ)
    | _, _ => some (.skipped, σ)
  | .emplace x T a =>
    match σ x with
    | .here A v =>
      if T ∈ A ∧ T ≠ 0 then
        match v with
        | .valueless _ => none
        | _ => if fail then some (.threw, σ.set x (.here A (.valueless false))) else some (.done, σ.set x (.here A (.val T a)))
      else some (.skipped, σ)
    | _ => some (.skipped, σ)
  | .get x T =>
    match σ x with
    | .here A v =>
      if T ∈ A ∧ T ≠ 0 then
        match v with
        | .val U a => if U = T then some (.value a, σ) else some (.badAccess, σ)
        | _ => some (.badAccess, σ)
      else some (.skipped, σ)
    | _ => some (.skipped, σ)
  | .getMove x T =>
    match σ x with
    | .here A v =>
      if T ∈ A ∧ T ≠ 0 then
        match v with
        | .val U a =>
          if U = T then
            if fail then some (.threw, σ) else some (.value a, σ.set x (.here A (.val T (t.moved a))))
          else some (.badAccess, σ)
        | _ => some (.badAccess, σ)
      else some (.skipped, σ)
    | _ => some (.skipped, σ)
  | .getOr x T d =>
    match σ x with
    | .here A v =>
      if T ∈ A ∧ T ≠ 0 then
        if fail then none
        else
          match v with
          | .val U a => if U = T then some (.value a, σ) else some (.value d, σ)
          | _ => some (.value d, σ)
      else some (.skipped, σ)
    | _ => some (.skipped, σ)
  | .getOpt x T =>
    match σ x with
    | .here A v =>
      if T ∈ A ∧ T ≠ 0 then
        if fail then none
        else
          match v with
          | .val U a => if U = T then some (.value a, σ) else some (.none, σ)
          | _ => some (.none, σ)
      else some (.skipped, σ)
    | _ => some (.skipped, σ)
  | .isType x T =>
    match σ x with
    | .here _ (.val U _) => some (.bool (decide (U = T)), σ)
    | .here _ .empty => some (.bool (decide (T = 0)), σ)
    | .here _ (.valueless _) => some (.bool false, σ)
    | _ => some (.skipped, σ)
  | .typeIndex x =>
    match σ x with
    | .here A (.val T _) => some (.nat (A.idxOf T), σ)
    | .here A .empty => some (.nat (A.idxOf 0), σ)
    | .here _ (.valueless _) => some (.nat 255, σ)
    | _ => some (.skipped, σ)
  | .type x =>
    match σ x with
    | .here _ (.val T _) => some (.nat T, σ)
    | .here _ .empty => some (.nat 0, σ)
    | .here _ (.valueless _) => none
    | _ => some (.skipped, σ)
  | .isEmpty x =>
    match σ x with
    | .here _ .empty => some (.bool true, σ)
    | .here _ _ => some (.bool false, σ)
    | _ => some (.skipped, σ)

def specRun (t : Ty α) (σ : Vars α) : List (Op α × Bool) → Option (List (Res α) × Vars α)
  | [] => some ([], σ)
  | (op, fail) :: ops =>
    match spec t σ fail op with
    | none => none
    | some (r, σ') =>
      match specRun t σ' ops with
      | none => none
      | some (rs, σ'') => some (r :: rs, σ'')

/-! ## Simulation -/

theorem listFind_of_mem : ∀ {A : List Nat} {T : Nat}, T ∈ A → listFind A T = some (A.idxOf T)
  | U :: A, T, h => by
    simp only [listFind, List.idxOf_cons]
    by_cases e : U = T
    · simp [e]
    · have hm : T ∈ A := by rcases List.mem_cons.mp h with h | h; exact absurd h.symm e; exact h
      have hb : (U == T) = false := by simpa using e
      simp [e, hb, listFind_of_mem hm]

theorem listFind_none : ∀ {A : List Nat} {T : Nat}, T ∉ A → listFind A T = none
  | [], _, _ => rfl
  | U :: A, T, h => by
    simp only [List.mem_cons, not_or] at h
    simp [listFind, Ne.symm h.1, listFind_none h.2]

theorem at_idxOf : ∀ {A : List Nat} {T : Nat}, T ∈ A → A[A.idxOf T]? = some T
  | U :: A, T, h => by
    by_cases e : U = T
    · simp [List.idxOf_cons, e]
    · have hm : T ∈ A := by rcases List.mem_cons.mp h with h | h; exact absurd h.symm e; exact h
      have hb : (U == T) = false := by simpa using e
      simp [List.idxOf_cons, hb, at_idxOf hm]

theorem idxOf_inj {A : List Nat} {T U : Nat} (hT : T ∈ A) (hU : U ∈ A) : A.idxOf T = A.idxOf U ↔ T = U :=
  ⟨fun h => by have := at_idxOf hT; rw [h, at_idxOf hU] at this; simpa using this.symm, fun h => h ▸ rfl⟩

theorem idxOf_lt {A : List Nat} {T : Nat} (hT : T ∈ A) : A.idxOf T < A.length := List.idxOf_lt_length_of_mem hT

theorem castType_eq (A : List Nat) : ∀ (B : List Nat) (k j : Nat), castType (k + j) B k = B[j]?
  | [], _, _ => rfl
  | T :: B, k, j => by
    simp only [castType]
    cases j with
    | zero => simp
    | succ j =>
      rw [if_neg (by omega)]
      have := castType_eq A B (k + 1) j
      rw [show k + 1 + j = k + (j + 1) from by omega] at this
      rw [this]; rfl

theorem castType_zero (B : List Nat) (j : Nat) : castType j B 0 = B[j]? := by
  have := castType_eq [] B 0 j
  rwa [Nat.zero_add] at this

def vIdx (A : List Nat) : V α → Nat
  | .val T _ => A.idxOf T
  | .empty => A.idxOf 0
  | .valueless _ => 255

def MemOk (A : List Nat) (mem : Option (Nat × (Nat × α))) : V α → Prop
  | .val T a => T ∈ A ∧ T ≠ 0 ∧ mem.map Prod.snd = some (T, a)
  | .empty => 0 ∈ A ∧ mem = none
  | .valueless l => mem.isSome = l

/-- A variable of the model and what it should hold. -/
def CellOk : Option (Cell Info (Nat × α)) → Slot α → Prop
  | none, .fresh => True
  | some c, .here A v => AltsOk A ∧ c.info = ⟨A, vIdx A v, false⟩ ∧ MemOk A c.mem v
  | some c, .ended l => c.info.ended = true ∧ c.mem.isSome = l
  | _, _ => False

def Sim (s : St Info (Nat × α)) (σ : Vars α) : Prop := ∀ x, CellOk (s.vars x) (σ x)

section
variable {s : St Info (Nat × α)} {σ : Vars α} {x y : Nat}

theorem Sim.fresh (m : Sim s σ) (h : σ x = .fresh) : s.vars x = none := by
  have := m x
  rw [h] at this
  cases hc : s.vars x with
  | none => rfl
  | some c => rw [hc] at this; exact this.elim

theorem Sim.ended (m : Sim s σ) {l : Bool} (h : σ x = .ended l) : ∃ c, s.vars x = some c ∧ c.info.ended = true := by
  have := m x
  rw [h] at this
  cases hc : s.vars x with
  | none => rw [hc] at this; exact this.elim
  | some c => rw [hc] at this; exact ⟨c, rfl, this.1⟩

theorem Sim.val (m : Sim s σ) {A : List Nat} {T : Nat} {a : α} (h : σ x = .here A (.val T a)) :
    ∃ id, s.vars x = some ⟨some (id, (T, a)), ⟨A, A.idxOf T, false⟩⟩ ∧ AltsOk A ∧ T ∈ A ∧ T ≠ 0 := by
  have := m x
  rw [h] at this
  cases hc : s.vars x with
  | none => rw [hc] at this; exact this.elim
  | some c =>
    rw [hc] at this
    obtain ⟨mem, i⟩ := c
    obtain ⟨h1, h2, h3, h4, h5⟩ := this
    cases mem with
    | none => simp at h5
    | some p =>
      obtain ⟨id, b⟩ := p
      have h5 : b = (T, a) := by simpa using h5
      have h2 : i = ⟨A, A.idxOf T, false⟩ := h2
      exact ⟨id, by rw [h5, h2], h1, h3, h4⟩

theorem Sim.empty (m : Sim s σ) {A : List Nat} (h : σ x = .here A .empty) :
    s.vars x = some ⟨none, ⟨A, A.idxOf 0, false⟩⟩ ∧ AltsOk A ∧ 0 ∈ A := by
  have := m x
  rw [h] at this
  cases hc : s.vars x with
  | none => rw [hc] at this; exact this.elim
  | some c =>
    rw [hc] at this
    obtain ⟨mem, i⟩ := c
    obtain ⟨h1, h2, h3, h4⟩ := this
    have h4 : mem = none := h4
    have h2 : i = ⟨A, A.idxOf 0, false⟩ := h2
    exact ⟨by rw [h4, h2], h1, h3⟩

theorem Sim.valueless (m : Sim s σ) {A : List Nat} {l : Bool} (h : σ x = .here A (.valueless l)) :
    ∃ mem, s.vars x = some ⟨mem, ⟨A, 255, false⟩⟩ ∧ AltsOk A ∧ mem.isSome = l := by
  have := m x
  rw [h] at this
  cases hc : s.vars x with
  | none => rw [hc] at this; exact this.elim
  | some c =>
    rw [hc] at this
    obtain ⟨mem, i⟩ := c
    obtain ⟨h1, h2, h3⟩ := this
    have h2 : i = ⟨A, 255, false⟩ := h2
    exact ⟨mem, by rw [h2], h1, h3⟩

end

theorem Sim.one {s s' : St Info (Nat × α)} {σ : Vars α} {x : Nat} {v : Slot α} (m : Sim s σ) (hx : CellOk (s'.vars x) v)
    (ho : ∀ z, z ≠ x → s'.vars z = s.vars z) : Sim s' (σ.set x v) := by
  intro z
  simp only [Vars.set]
  split
  · next h => rw [h]; exact hx
  · next h => rw [ho z h]; exact m z

theorem Sim.same {s s' : St Info (Nat × α)} {σ : Vars α} (m : Sim s σ) (ho : ∀ z, s'.vars z = s.vars z) : Sim s' σ := by
  intro z; rw [ho z]; exact m z

theorem Sim.two {s s' : St Info (Nat × α)} {σ : Vars α} {x y : Nat} {v w : Slot α} (m : Sim s σ) (hxy : y ≠ x) (hx : CellOk (s'.vars x) v)
    (hy : CellOk (s'.vars y) w) (ho : ∀ z, z ≠ x → z ≠ y → s'.vars z = s.vars z) : Sim s' ((σ.set x v).set y w) := by
  intro z
  simp only [Vars.set]
  split
  · next h => rw [h]; exact hy
  · next h =>
    split
    · next h2 => rw [h2]; exact hx
    · next h2 => rw [ho z h2 h]; exact m z

theorem inScope_eq {s : St Info (Nat × α)} {σ : Vars α} (m : Sim s σ) (x : Nat) :
    inScope x s = some (match σ x with | .here _ _ => true | _ => false, s) := by
  have := m x
  simp only [inScope]
  cases hc : s.vars x with
  | none =>
    rw [hc] at this
    cases hs : σ x <;> rw [hs] at this <;> first | rfl | exact this.elim
  | some c =>
    rw [hc] at this
    cases hs : σ x <;> rw [hs] at this
    · exact this.elim
    · simp [this.2.1]
    · simp [this.1]

theorem alive_eq {s : St Info (Nat × α)} {σ : Vars α} (m : Sim s σ) (x : Nat) :
    alive x s = some (match σ x with | .fresh => false | _ => true, s) := by
  have := m x
  simp only [alive]
  cases hc : s.vars x with
  | none =>
    rw [hc] at this
    cases hs : σ x <;> rw [hs] at this <;> first | rfl | exact this.elim
  | some c =>
    rw [hc] at this
    cases hs : σ x <;> rw [hs] at this <;> first | rfl | exact this.elim

/-- The value of the statement is as specified and the states agree. -/
def Good (m : MV α (Res α)) (s : St Info (Nat × α)) (r : Res α) (σ' : Vars α) : Prop := ∃ s', m s = some (r, s') ∧ Sim s' σ'

syntax "evalv" "[" Lean.Parser.Tactic.simpLemma,* "]" : tactic
macro_rules
  | `(tactic| evalv [$ls,*]) => `(tactic| simp [step, declaring, bind, M.bind, pure, M.pure, bad, finish, undeclare, declare, createAs, construct,
      copyConstruct, copyConstructAt, moveConstruct, moveConstructAt, copyAssign, copyAssignAt, moveAssign, moveAssignAt, emplace, destroyAt, destroy, tableAt, getAlts, getIdx,
      setIdx, info, setInfo, valueAs, value, store, St.set, noIndex, $ls,*])

section
variable (t : Ty α) {s : St Info (Nat × α)} {σ : Vars α} (m : Sim s σ) (fail : Bool) {r : Res α} {σ' : Vars α}
include m

theorem newNull_ok (x : Nat) (A : List Nat) (h : spec t σ fail (.newNull x A) = some (r, σ')) : Good (step t fail (.newNull x A)) s r σ' := by
  have ea := alive_eq m x
  cases hx : σ x with
  | fresh =>
    rw [hx] at ea
    simp only [spec, hx] at h
    split at h
    · next hA =>
      simp at h; obtain ⟨rfl, rfl⟩ := h
      refine ⟨_, by evalv [ea, m.fresh hx, listFind_of_mem hA.2, validAlts, hA.1.1, hA.1.2.1, hA.1.2.2]; rfl, m.one ?_ ?_⟩
      · simp [CellOk, hA.1, MemOk, hA.2, vIdx]
      · intro z hz; simp [hz]
    · next hA =>
      simp at h; obtain ⟨rfl, rfl⟩ := h
      refine ⟨s, ?_, m⟩
      cases e1 : validAlts A <;> cases e2 : listFind A 0
      · evalv [e1, e2]
      · evalv [e1, e2]
      · evalv [e1, e2]
      · refine absurd ⟨?_, ?_⟩ hA
        · simpa [validAlts, AltsOk] using e1
        · apply Classical.byContradiction; intro hn; rw [listFind_none hn] at e2; cases e2
  | _ =>
    rw [hx] at ea
    simp [spec, hx] at h; obtain ⟨rfl, rfl⟩ := h
    refine ⟨s, ?_, m⟩
    cases e1 : validAlts A <;> cases e2 : listFind A 0 <;> evalv [ea, e1, e2]

theorem newVal_ok (x : Nat) (A : List Nat) (T : Nat) (a : α) (h : spec t σ fail (.newVal x A T a) = some (r, σ')) :
    Good (step t fail (.newVal x A T a)) s r σ' := by
  have ea := alive_eq m x
  cases hx : σ x with
  | fresh =>
    rw [hx] at ea
    simp only [spec, hx] at h
    split at h
    · next hA =>
      cases fail with
      | true =>
        simp at h; obtain ⟨rfl, rfl⟩ := h
        refine ⟨_, by evalv [ea, m.fresh hx, listFind_of_mem hA.2.1, validAlts, hA.1.1, hA.1.2.1, hA.1.2.2, hA.2.2]; rfl, m.same ?_⟩
        intro z; by_cases hz : z = x
        · simp [hz, m.fresh hx]
        · simp [hz]
      | false =>
        simp at h; obtain ⟨rfl, rfl⟩ := h
        refine ⟨_, by evalv [ea, m.fresh hx, listFind_of_mem hA.2.1, validAlts, hA.1.1, hA.1.2.1, hA.1.2.2, hA.2.2]; rfl, m.one ?_ ?_⟩
        · simp [CellOk, hA.1, MemOk, hA.2, vIdx]
        · intro z hz; simp [hz]
    · next hA =>
      simp at h; obtain ⟨rfl, rfl⟩ := h
      refine ⟨s, ?_, m⟩
      cases e1 : validAlts A <;> cases e2 : listFind A T
      · evalv [e1, e2]
      · evalv [e1, e2]
      · evalv [e1, e2]
      · by_cases hT : T = 0
        · subst hT; evalv [e1, e2]
        refine absurd ⟨?_, ?_, hT⟩ hA
        · simpa [validAlts, AltsOk] using e1
        · apply Classical.byContradiction; intro hn; rw [listFind_none hn] at e2; cases e2
  | _ =>
    rw [hx] at ea
    simp [spec, hx] at h; obtain ⟨rfl, rfl⟩ := h
    refine ⟨s, ?_, m⟩
    by_cases hT : T = 0
    · subst hT; cases e1 : validAlts A <;> cases e2 : listFind A 0 <;> evalv [ea, e1, e2]
    · cases e1 : validAlts A <;> cases e2 : listFind A T <;> evalv [ea, e1, e2, hT]

theorem newCopy_ok (x y : Nat) (h : spec t σ fail (.newCopy x y) = some (r, σ')) : Good (step t fail (.newCopy x y)) s r σ' := by
  have ea := alive_eq m x
  have ey := inScope_eq m y
  cases hy : σ y with
  | here A v =>
    rw [hy] at ey
    have hA : ∃ c, s.vars y = some c ∧ c.info.alts = A := by
      have := m y
      rw [hy] at this
      cases hc : s.vars y with
      | none => rw [hc] at this; exact this.elim
      | some c => rw [hc] at this; exact ⟨c, rfl, by rw [this.2.1]⟩
    cases hx : σ x with
    | fresh =>
      rw [hx] at ea
      have hxy : y ≠ x := fun c => by rw [c, hx] at hy; cases hy
      cases v with
      | val T a =>
        obtain ⟨id, e, hok, hT, h0⟩ := m.val hy
        cases fail with
        | true =>
          simp [spec, hx, hy] at h; obtain ⟨rfl, rfl⟩ := h
          refine ⟨_, by evalv [ey, ea, e, m.fresh hx, hxy, at_idxOf hT, h0]; rfl, m.same ?_⟩
          intro z; by_cases hz : z = x
          · simp [hz, m.fresh hx]
          · simp [hz]
        | false =>
          simp [spec, hx, hy] at h; obtain ⟨rfl, rfl⟩ := h
          refine ⟨_, by evalv [ey, ea, e, m.fresh hx, hxy, at_idxOf hT, h0]; rfl, m.one ?_ ?_⟩
          · simp [CellOk, hok, MemOk, hT, h0, vIdx]
          · intro z hz; simp [hz]
      | empty =>
        obtain ⟨e, hok, hT⟩ := m.empty hy
        simp [spec, hx, hy] at h; obtain ⟨rfl, rfl⟩ := h
        refine ⟨_, by evalv [ey, ea, e, m.fresh hx, hxy, at_idxOf hT]; rfl, m.one ?_ ?_⟩
        · simp [CellOk, hok, MemOk, hT, vIdx]
        · intro z hz; simp [hz]
      | valueless l => simp [spec, hx, hy] at h
    | _ =>
      rw [hx] at ea
      obtain ⟨c, hc, -⟩ := hA
      cases v <;> (simp [spec, hx, hy] at h; obtain ⟨rfl, rfl⟩ := h; exact ⟨s, by evalv [ey, ea, hc], m⟩)
  | _ =>
    rw [hy] at ey
    simp [spec, hy] at h; obtain ⟨rfl, rfl⟩ := h
    exact ⟨s, by evalv [ey], m⟩

theorem newMove_ok (x y : Nat) (h : spec t σ fail (.newMove x y) = some (r, σ')) : Good (step t fail (.newMove x y)) s r σ' := by
  have ea := alive_eq m x
  have ey := inScope_eq m y
  cases hy : σ y with
  | here A v =>
    rw [hy] at ey
    have hA : ∃ c, s.vars y = some c ∧ c.info.alts = A := by
      have := m y
      rw [hy] at this
      cases hc : s.vars y with
      | none => rw [hc] at this; exact this.elim
      | some c => rw [hc] at this; exact ⟨c, rfl, by rw [this.2.1]⟩
    cases hx : σ x with
    | fresh =>
      rw [hx] at ea
      have hxy : y ≠ x := fun c => by rw [c, hx] at hy; cases hy
      cases v with
      | val T a =>
        obtain ⟨id, e, hok, hT, h0⟩ := m.val hy
        cases fail with
        | true =>
          simp [spec, hx, hy] at h; obtain ⟨rfl, rfl⟩ := h
          refine ⟨_, by evalv [ey, ea, e, m.fresh hx, hxy, Ne.symm hxy, at_idxOf hT, h0]; rfl, m.same ?_⟩
          intro z; by_cases hz : z = x
          · simp [hz, m.fresh hx]
          · simp [hz]
        | false =>
          simp [spec, hx, hy] at h; obtain ⟨rfl, rfl⟩ := h
          refine ⟨_, by evalv [ey, ea, e, m.fresh hx, hxy, Ne.symm hxy, at_idxOf hT, h0]; rfl, m.two hxy ?_ ?_ ?_⟩
          · simp [CellOk, hok, MemOk, hT, h0, vIdx, Ne.symm hxy]
          · simp [CellOk, hok, MemOk, vIdx]
          · intro z hz hz2; simp [hz, hz2]
      | empty =>
        obtain ⟨e, hok, hT⟩ := m.empty hy
        simp [spec, hx, hy] at h; obtain ⟨rfl, rfl⟩ := h
        refine ⟨_, by evalv [ey, ea, e, m.fresh hx, hxy, Ne.symm hxy, at_idxOf hT]; rfl, m.two hxy ?_ ?_ ?_⟩
        · simp [CellOk, hok, MemOk, hT, vIdx, Ne.symm hxy]
        · simp [CellOk, hok, MemOk, vIdx]
        · intro z hz hz2; simp [hz, hz2]
      | valueless l => simp [spec, hx, hy] at h
    | _ =>
      rw [hx] at ea
      obtain ⟨c, hc, -⟩ := hA
      cases v <;> (simp [spec, hx, hy] at h; obtain ⟨rfl, rfl⟩ := h; exact ⟨s, by evalv [ey, ea, hc], m⟩)
  | _ =>
    rw [hy] at ey
    simp [spec, hy] at h; obtain ⟨rfl, rfl⟩ := h
    exact ⟨s, by evalv [ey], m⟩

theorem del_ok (x : Nat) (h : spec t σ fail (.del x) = some (r, σ')) : Good (step t fail (.del x)) s r σ' := by
  have ex := inScope_eq m x
  cases hx : σ x with
  | here A v =>
    rw [hx] at ex
    cases v with
    | val T a =>
      obtain ⟨id, e, hok, hT, h0⟩ := m.val hx
      have hlt := idxOf_lt hT
      have hne : A.idxOf T ≠ 255 := by have := hok.2.1; omega
      simp [spec, hx] at h; obtain ⟨rfl, rfl⟩ := h
      refine ⟨_, by evalv [ex, e, at_idxOf hT, h0, hne]; rfl, m.one ?_ ?_⟩
      · simp [CellOk]
      · intro z hz; simp [hz]
    | empty =>
      obtain ⟨e, hok, hT⟩ := m.empty hx
      have hlt := idxOf_lt hT
      have hne : A.idxOf 0 ≠ 255 := by have := hok.2.1; omega
      simp [spec, hx] at h; obtain ⟨rfl, rfl⟩ := h
      refine ⟨_, by evalv [ex, e, at_idxOf hT, hne]; rfl, m.one ?_ ?_⟩
      · simp [CellOk]
      · intro z hz; simp [hz]
    | valueless l =>
      obtain ⟨mem, e, hok, hl⟩ := m.valueless hx
      simp [spec, hx] at h; obtain ⟨rfl, rfl⟩ := h
      refine ⟨_, by evalv [ex, e]; rfl, m.one ?_ ?_⟩
      · simp [CellOk, hl]
      · intro z hz; simp [hz]
  | _ =>
    rw [hx] at ex
    simp [spec, hx] at h; obtain ⟨rfl, rfl⟩ := h
    exact ⟨s, by evalv [ex], m⟩

theorem newCast_ok (x : Nat) (A : List Nat) (y : Nat) (move : Bool) (h : spec t σ fail (.newCast x A y move) = some (r, σ')) :
    Good (step t fail (.newCast x A y move)) s r σ' := by
  have ea := alive_eq m x
  have ey := inScope_eq m y
  cases hy : σ y with
  | here B v =>
    rw [hy] at ey
    by_cases hA : AltsOk A
    · have hv : validAlts A = true := by simpa [validAlts, AltsOk] using hA
      cases hx : σ x with
      | fresh =>
        rw [hx] at ea
        have hxy : y ≠ x := fun c => by rw [c, hx] at hy; cases hy
        cases v with
        | val T a =>
          obtain ⟨id, e, hok, hT, h0⟩ := m.val hy
          have hc := castType_zero B (B.idxOf T)
          rw [at_idxOf hT] at hc
          by_cases hTA : T ∈ A
          · cases fail with
            | true =>
              simp [spec, hx, hy, hA, hTA] at h; obtain ⟨rfl, rfl⟩ := h
              refine ⟨_, by evalv [ey, ea, hv, e, m.fresh hx, hxy, Ne.symm hxy, hc, h0, listFind_of_mem hTA]; rfl, m.same ?_⟩
              intro z; by_cases hz : z = x
              · simp [hz, m.fresh hx]
              · simp [hz]
            | false =>
              cases move with
              | true =>
                simp [spec, hx, hy, hA, hTA] at h; obtain ⟨rfl, rfl⟩ := h
                refine ⟨_, by evalv [ey, ea, hv, e, m.fresh hx, hxy, Ne.symm hxy, hc, h0, listFind_of_mem hTA]; rfl, m.two hxy ?_ ?_ ?_⟩
                · simp [CellOk, hA, MemOk, hTA, h0, vIdx, Ne.symm hxy]
                · simp [CellOk, hok, MemOk, hT, h0, vIdx]
                · intro z hz hz2; simp [hz, hz2]
              | false =>
                simp [spec, hx, hy, hA, hTA] at h; obtain ⟨rfl, rfl⟩ := h
                refine ⟨_, by evalv [ey, ea, hv, e, m.fresh hx, hxy, Ne.symm hxy, hc, h0, listFind_of_mem hTA]; rfl, m.one ?_ ?_⟩
                · simp [CellOk, hA, MemOk, hTA, h0, vIdx]
                · intro z hz; simp [hz]
          · simp [spec, hx, hy, hA, hTA] at h; obtain ⟨rfl, rfl⟩ := h
            exact ⟨s, by evalv [ey, ea, hv, e, hc, listFind_none hTA], m⟩
        | empty =>
          obtain ⟨e, hok, hT⟩ := m.empty hy
          have hc := castType_zero B (B.idxOf 0)
          rw [at_idxOf hT] at hc
          by_cases hTA : 0 ∈ A
          · simp [spec, hx, hy, hA, hTA] at h; obtain ⟨rfl, rfl⟩ := h
            refine ⟨_, by evalv [ey, ea, hv, e, m.fresh hx, hxy, hc, listFind_of_mem hTA]; rfl, m.one ?_ ?_⟩
            · simp [CellOk, hA, MemOk, hTA, vIdx]
            · intro z hz; simp [hz]
          · simp [spec, hx, hy, hA, hTA] at h; obtain ⟨rfl, rfl⟩ := h
            exact ⟨s, by evalv [ey, ea, hv, e, hc, listFind_none hTA], m⟩
        | valueless l =>
          obtain ⟨mem, e, hok, hl⟩ := m.valueless hy
          have hc := castType_zero B 255
          rw [List.getElem?_eq_none (by have := hok.2.1; omega)] at hc
          simp [spec, hx, hy, hA] at h; obtain ⟨rfl, rfl⟩ := h
          exact ⟨s, by evalv [ey, ea, hv, e, hc], m⟩
      | _ =>
        rw [hx] at ea
        simp [spec, hx, hy, hA] at h; obtain ⟨rfl, rfl⟩ := h
        exact ⟨s, by evalv [ey, ea, hv], m⟩
    · have hv : validAlts A = false := by
        cases e : validAlts A with
        | false => rfl
        | true => exact absurd (by simpa [validAlts, AltsOk] using e) hA
      cases hx : σ x <;> (simp [spec, hx, hy, hA] at h; obtain ⟨rfl, rfl⟩ := h; exact ⟨s, by evalv [ey, hv], m⟩)
  | _ =>
    rw [hy] at ey
    simp [spec, hy] at h; obtain ⟨rfl, rfl⟩ := h
    exact ⟨s, by evalv [ey], m⟩

theorem emplace_ok (x T : Nat) (a : α) (h : spec t σ fail (.emplace x T a) = some (r, σ')) : Good (step t fail (.emplace x T a)) s r σ' := by
  have ex := inScope_eq m x
  cases hx : σ x with
  | here A v =>
    rw [hx] at ex
    by_cases hT : T ∈ A
    · by_cases h0 : T = 0
      · cases v with
        | val U b =>
          obtain ⟨id, e, hok, hU, hU0⟩ := m.val hx
          simp [spec, hx, h0] at h; obtain ⟨rfl, rfl⟩ := h
          exact ⟨s, by evalv [ex, e, h0, listFind_of_mem (h0 ▸ hT)], m⟩
        | empty =>
          obtain ⟨e, hok, hU⟩ := m.empty hx
          simp [spec, hx, h0] at h; obtain ⟨rfl, rfl⟩ := h
          exact ⟨s, by evalv [ex, e, h0, listFind_of_mem (h0 ▸ hT)], m⟩
        | valueless l =>
          obtain ⟨mem, e, hok, hl⟩ := m.valueless hx
          simp [spec, hx, h0] at h; obtain ⟨rfl, rfl⟩ := h
          exact ⟨s, by evalv [ex, e, h0, listFind_of_mem (h0 ▸ hT)], m⟩
      · cases v with
        | val U b =>
          obtain ⟨id, e, hok, hU, hU0⟩ := m.val hx
          cases fail <;>
          · simp [spec, hx, h0, hT] at h; obtain ⟨rfl, rfl⟩ := h
            refine ⟨_, by evalv [ex, e, h0, hU0, listFind_of_mem hT, at_idxOf hU]; rfl, m.one ?_ ?_⟩
            · simp [CellOk, hok, MemOk, hT, h0, vIdx]
            · intro z hz; simp [hz]
        | empty =>
          obtain ⟨e, hok, hU⟩ := m.empty hx
          cases fail <;>
          · simp [spec, hx, h0, hT] at h; obtain ⟨rfl, rfl⟩ := h
            refine ⟨_, by evalv [ex, e, h0, listFind_of_mem hT, at_idxOf hU]; rfl, m.one ?_ ?_⟩
            · simp [CellOk, hok, MemOk, hT, h0, vIdx]
            · intro z hz; simp [hz]
        | valueless l => simp [spec, hx, h0, hT] at h
    · obtain ⟨c, hc, hcA⟩ : ∃ c, s.vars x = some c ∧ c.info.alts = A := by
        have := m x
        rw [hx] at this
        cases hc : s.vars x with
        | none => rw [hc] at this; exact this.elim
        | some c => rw [hc] at this; exact ⟨c, rfl, by rw [this.2.1]⟩
      simp [spec, hx, hT] at h; obtain ⟨rfl, rfl⟩ := h
      exact ⟨s, by evalv [ex, hc, hcA, listFind_none hT], m⟩
  | _ =>
    rw [hx] at ex
    simp [spec, hx] at h; obtain ⟨rfl, rfl⟩ := h
    exact ⟨s, by evalv [ex], m⟩

theorem copyAssign_ok (x y : Nat) (h : spec t σ fail (.copyAssign x y) = some (r, σ')) : Good (step t fail (.copyAssign x y)) s r σ' := by
  have ex := inScope_eq m x
  have ey := inScope_eq m y
  cases hx : σ x with
  | here A v =>
    rw [hx] at ex
    cases hy : σ y with
    | here B w =>
      rw [hy] at ey
      by_cases hAB : A = B
      · subst hAB
        by_cases hxy : x = y
        · simp [spec, hx, hy, hxy] at h
        · have hyx := Ne.symm hxy
          cases v with
          | valueless l => simp [spec, hx, hy, hxy] at h
          | empty =>
            obtain ⟨e, hok, hT⟩ := m.empty hx
            cases w with
            | valueless l => simp [spec, hx, hy, hxy] at h
            | empty =>
              obtain ⟨e', hok', hT'⟩ := m.empty hy
              simp [spec, hx, hy, hxy] at h; obtain ⟨rfl, rfl⟩ := h
              refine ⟨s, by evalv [ex, ey, e, e', hxy, hyx, at_idxOf hT], m.one ?_ (fun _ _ => rfl)⟩
              rw [e]; simp [CellOk, hok, MemOk, hT, vIdx]
            | val U b =>
              obtain ⟨id', e', hok', hU, hU0⟩ := m.val hy
              have hne : A.idxOf 0 ≠ A.idxOf U := fun c => hU0 ((idxOf_inj hT hU).1 c).symm
              cases fail <;>
              · simp [spec, hx, hy, hxy] at h; obtain ⟨rfl, rfl⟩ := h
                refine ⟨_, by evalv [ex, ey, e, e', hxy, hyx, at_idxOf hT, at_idxOf hU, hne, hU0]; rfl, m.one ?_ ?_⟩
                · simp [CellOk, hok, MemOk, hU, hU0, vIdx]
                · intro z hz; simp [hz]
          | val T a =>
            obtain ⟨id, e, hok, hT, hT0⟩ := m.val hx
            cases w with
            | valueless l => simp [spec, hx, hy, hxy] at h
            | empty =>
              obtain ⟨e', hok', hT'⟩ := m.empty hy
              have hne : A.idxOf T ≠ A.idxOf 0 := fun c => hT0 ((idxOf_inj hT hT').1 c)
              simp [spec, hx, hy, hxy] at h; obtain ⟨rfl, rfl⟩ := h
              refine ⟨_, by evalv [ex, ey, e, e', hxy, hyx, at_idxOf hT, at_idxOf hT', hne, hT0]; rfl, m.one ?_ ?_⟩
              · simp [CellOk, hok, MemOk, hT', vIdx]
              · intro z hz; simp [hz]
            | val U b =>
              obtain ⟨id', e', hok', hU, hU0⟩ := m.val hy
              by_cases hTU : T = U
              · subst hTU
                cases fail <;>
                · simp [spec, hx, hy, hxy] at h; obtain ⟨rfl, rfl⟩ := h
                  refine ⟨_, by evalv [ex, ey, e, e', hxy, hyx, at_idxOf hT, hT0]; rfl, m.one ?_ ?_⟩
                  · simp [CellOk, hok, MemOk, hU, hU0, vIdx]
                  · intro z hz; simp [hz]
              · have hne : A.idxOf T ≠ A.idxOf U := fun c => hTU ((idxOf_inj hT hU).1 c)
                cases fail <;>
                · simp [spec, hx, hy, hxy, hTU] at h; obtain ⟨rfl, rfl⟩ := h
                  refine ⟨_, by evalv [ex, ey, e, e', hxy, hyx, at_idxOf hT, at_idxOf hU, hT0, hU0, hne]; rfl, m.one ?_ ?_⟩
                  · simp [CellOk, hok, MemOk, hU, hU0, vIdx]
                  · intro z hz; simp [hz]
      · have := m x
        rw [hx] at this
        have h2 := m y
        rw [hy] at h2
        cases hc : s.vars x with
        | none => rw [hc] at this; exact this.elim
        | some c =>
          rw [hc] at this
          cases hd : s.vars y with
          | none => rw [hd] at h2; exact h2.elim
          | some d =>
            rw [hd] at h2
            simp [spec, hx, hy, hAB] at h; obtain ⟨rfl, rfl⟩ := h
            exact ⟨s, by evalv [ex, ey, hc, hd, this.2.1, h2.2.1, hAB], m⟩
    | _ =>
      rw [hy] at ey
      simp [spec, hx, hy] at h; obtain ⟨rfl, rfl⟩ := h
      exact ⟨s, by evalv [ex, ey], m⟩
  | _ =>
    rw [hx] at ex
    simp [spec, hx] at h; obtain ⟨rfl, rfl⟩ := h
    exact ⟨s, by evalv [ex, ey], m⟩

theorem moveAssign_ok (x y : Nat) (h : spec t σ fail (.moveAssign x y) = some (r, σ')) : Good (step t fail (.moveAssign x y)) s r σ' := by
  have ex := inScope_eq m x
  have ey := inScope_eq m y
  cases hx : σ x with
  | here A v =>
    rw [hx] at ex
    cases hy : σ y with
    | here B w =>
      rw [hy] at ey
      by_cases hAB : A = B
      · subst hAB
        by_cases hxy : x = y
        · simp [spec, hx, hy, hxy] at h
        · have hyx : y ≠ x := Ne.symm hxy
          cases v with
          | valueless l => simp [spec, hx, hy, hxy] at h
          | empty =>
            obtain ⟨e, hok, hT⟩ := m.empty hx
            cases w with
            | valueless l => simp [spec, hx, hy, hxy] at h
            | empty =>
              obtain ⟨e', hok', hT'⟩ := m.empty hy
              simp [spec, hx, hy, hxy] at h; obtain ⟨rfl, rfl⟩ := h
              refine ⟨_, by evalv [ex, ey, e, e', hxy, hyx, at_idxOf hT]; rfl, m.two hyx ?_ ?_ ?_⟩
              · simp [CellOk, hok, MemOk, hT, vIdx, hxy, e]
              · simp [CellOk, hok, MemOk, vIdx]
              · intro z hz hz2; simp [hz, hz2]
            | val U b =>
              obtain ⟨id', e', hok', hU, hU0⟩ := m.val hy
              have hne : A.idxOf 0 ≠ A.idxOf U := fun c => hU0 ((idxOf_inj hT hU).1 c).symm
              cases fail with
              | true =>
                simp [spec, hx, hy, hxy] at h; obtain ⟨rfl, rfl⟩ := h
                refine ⟨_, by evalv [ex, ey, e, e', hxy, hyx, at_idxOf hT, at_idxOf hU, hne, hU0]; rfl, m.one ?_ ?_⟩
                · simp [CellOk, hok, MemOk, vIdx]
                · intro z hz; simp [hz]
              | false =>
                simp [spec, hx, hy, hxy] at h; obtain ⟨rfl, rfl⟩ := h
                refine ⟨_, by evalv [ex, ey, e, e', hxy, hyx, at_idxOf hT, at_idxOf hU, hne, hU0]; rfl, m.two hyx ?_ ?_ ?_⟩
                · simp [CellOk, hok, MemOk, hU, hU0, vIdx, hxy]
                · simp [CellOk, hok, MemOk, vIdx]
                · intro z hz hz2; simp [hz, hz2]
          | val T a =>
            obtain ⟨id, e, hok, hT, hT0⟩ := m.val hx
            cases w with
            | valueless l => simp [spec, hx, hy, hxy] at h
            | empty =>
              obtain ⟨e', hok', hT'⟩ := m.empty hy
              have hne : A.idxOf T ≠ A.idxOf 0 := fun c => hT0 ((idxOf_inj hT hT').1 c)
              simp [spec, hx, hy, hxy] at h; obtain ⟨rfl, rfl⟩ := h
              refine ⟨_, by evalv [ex, ey, e, e', hxy, hyx, at_idxOf hT, at_idxOf hT', hne, hT0]; rfl, m.two hyx ?_ ?_ ?_⟩
              · simp [CellOk, hok, MemOk, hT', vIdx, hxy]
              · simp [CellOk, hok, MemOk, vIdx]
              · intro z hz hz2; simp [hz, hz2]
            | val U b =>
              obtain ⟨id', e', hok', hU, hU0⟩ := m.val hy
              by_cases hTU : T = U
              · subst hTU
                cases fail with
                | true =>
                  simp [spec, hx, hy, hxy] at h; obtain ⟨rfl, rfl⟩ := h
                  refine ⟨_, by evalv [ex, ey, e, e', hxy, hyx, at_idxOf hT, hT0]; rfl, m.one ?_ ?_⟩
                  · simp [CellOk, hok, MemOk, hU, hU0, vIdx]
                  · intro z hz; simp [hz]
                | false =>
                  simp [spec, hx, hy, hxy] at h; obtain ⟨rfl, rfl⟩ := h
                  refine ⟨_, by evalv [ex, ey, e, e', hxy, hyx, at_idxOf hT, hT0]; rfl, m.two hyx ?_ ?_ ?_⟩
                  · simp [CellOk, hok, MemOk, hU, hU0, vIdx, hxy]
                  · simp [CellOk, hok, MemOk, vIdx]
                  · intro z hz hz2; simp [hz, hz2]
              · have hne : A.idxOf T ≠ A.idxOf U := fun c => hTU ((idxOf_inj hT hU).1 c)
                cases fail with
                | true =>
                  simp [spec, hx, hy, hxy, hTU] at h; obtain ⟨rfl, rfl⟩ := h
                  refine ⟨_, by evalv [ex, ey, e, e', hxy, hyx, at_idxOf hT, at_idxOf hU, hT0, hU0, hne]; rfl, m.one ?_ ?_⟩
                  · simp [CellOk, hok, MemOk, vIdx]
                  · intro z hz; simp [hz]
                | false =>
                  simp [spec, hx, hy, hxy, hTU] at h; obtain ⟨rfl, rfl⟩ := h
                  refine ⟨_, by evalv [ex, ey, e, e', hxy, hyx, at_idxOf hT, at_idxOf hU, hT0, hU0, hne]; rfl, m.two hyx ?_ ?_ ?_⟩
                  · simp [CellOk, hok, MemOk, hU, hU0, vIdx, hxy]
                  · simp [CellOk, hok, MemOk, vIdx]
                  · intro z hz hz2; simp [hz, hz2]
      · have := m x
        rw [hx] at this
        have h2 := m y
        rw [hy] at h2
        cases hc : s.vars x with
        | none => rw [hc] at this; exact this.elim
        | some c =>
          rw [hc] at this
          cases hd : s.vars y with
          | none => rw [hd] at h2; exact h2.elim
          | some d =>
            rw [hd] at h2
            simp [spec, hx, hy, hAB] at h; obtain ⟨rfl, rfl⟩ := h
            exact ⟨s, by evalv [ex, ey, hc, hd, this.2.1, h2.2.1, hAB], m⟩
    | _ =>
      rw [hy] at ey
      simp [spec, hx, hy] at h; obtain ⟨rfl, rfl⟩ := h
      exact ⟨s, by evalv [ex, ey], m⟩
  | _ =>
    rw [hx] at ex
    simp [spec, hx] at h; obtain ⟨rfl, rfl⟩ := h
    exact ⟨s, by evalv [ex, ey], m⟩

/-- The statements that only ask. -/
def asks (x : Nat) : Op α → Prop
  | .get y _ => y = x
  | .getMove y _ => y = x
  | .getOr y _ _ => y = x
  | .getOpt y _ => y = x
  | .isType y _ => y = x
  | .typeIndex y => y = x
  | .type y => y = x
  | .isEmpty y => y = x
  | _ => False

theorem asks_ok (x : Nat) (op : Op α) (ho : asks x op) (h : spec t σ fail op = some (r, σ')) : Good (step t fail op) s r σ' := by
  have ex := inScope_eq m x
  cases hx : σ x with
  | here A v =>
    rw [hx] at ex
    cases v with
    | val U b =>
      obtain ⟨id, e, hok, hU, hU0⟩ := m.val hx
      have key : ∀ T, (T ∈ A ∧ T ≠ 0 ∧ (U = T ∨ U ≠ T ∧ A.idxOf U ≠ A.idxOf T ∧ A.idxOf T ≠ A.idxOf U)) ∨ (T ∉ A ∧ U ≠ T) ∨ (T ∈ A ∧ T = 0 ∧ A.idxOf T ≠ A.idxOf U) := by
        intro T
        by_cases hT : T ∈ A
        · by_cases h0 : T = 0
          · exact .inr (.inr ⟨hT, h0, fun c => hU0 (((idxOf_inj hT hU).1 c).symm.trans h0)⟩)
          · refine .inl ⟨hT, h0, ?_⟩
            by_cases hUT : U = T
            · exact .inl hUT
            · exact .inr ⟨hUT, fun c => hUT ((idxOf_inj hU hT).1 c), fun c => hUT ((idxOf_inj hT hU).1 c).symm⟩
        · exact .inr (.inl ⟨hT, fun c => hT (c ▸ hU)⟩)
      cases op with
      | get y T =>
        cases ho
        rcases key T with ⟨hT, h0, rfl | ⟨hne, h1, h2⟩⟩ | ⟨hT, hne⟩ | ⟨hT, rfl, h1⟩
        · simp [spec, hx, hT, h0] at h; obtain ⟨rfl, rfl⟩ := h
          exact ⟨s, by evalv [ex, e, listFind_of_mem hT, h0], m⟩
        · simp [spec, hx, hT, h0, hne] at h; obtain ⟨rfl, rfl⟩ := h
          exact ⟨s, by evalv [ex, e, listFind_of_mem hT, h0, h1], m⟩
        · simp [spec, hx, hT] at h; obtain ⟨rfl, rfl⟩ := h
          exact ⟨s, by evalv [ex, e, listFind_none hT], m⟩
        · simp [spec, hx] at h; obtain ⟨rfl, rfl⟩ := h
          exact ⟨s, by evalv [ex, e, listFind_of_mem hT], m⟩
      | getMove y T =>
        cases ho
        rcases key T with ⟨hT, h0, rfl | ⟨hne, h1, h2⟩⟩ | ⟨hT, hne⟩ | ⟨hT, rfl, h1⟩
        · cases fail with
          | true =>
            simp [spec, hx, hT, h0] at h; obtain ⟨rfl, rfl⟩ := h
            exact ⟨s, by evalv [ex, e, listFind_of_mem hT, h0], m⟩
          | false =>
            simp [spec, hx, hT, h0] at h; obtain ⟨rfl, rfl⟩ := h
            refine ⟨_, by evalv [ex, e, listFind_of_mem hT, h0]; rfl, m.one ?_ ?_⟩
            · simp [CellOk, hok, MemOk, hU, hU0, vIdx]
            · intro z hz; simp [hz]
        · simp [spec, hx, hT, h0, hne] at h; obtain ⟨rfl, rfl⟩ := h
          exact ⟨s, by evalv [ex, e, listFind_of_mem hT, h0, h1], m⟩
        · simp [spec, hx, hT] at h; obtain ⟨rfl, rfl⟩ := h
          exact ⟨s, by evalv [ex, e, listFind_none hT], m⟩
        · simp [spec, hx] at h; obtain ⟨rfl, rfl⟩ := h
          exact ⟨s, by evalv [ex, e, listFind_of_mem hT], m⟩
      | getOr y T d =>
        cases ho
        rcases key T with ⟨hT, h0, rfl | ⟨hne, h1, h2⟩⟩ | ⟨hT, hne⟩ | ⟨hT, rfl, h1⟩
        · cases fail <;> simp [spec, hx, hT, h0] at h
          obtain ⟨rfl, rfl⟩ := h
          exact ⟨s, by evalv [ex, e, listFind_of_mem hT, h0], m⟩
        · cases fail <;> simp [spec, hx, hT, h0, hne] at h
          obtain ⟨rfl, rfl⟩ := h
          exact ⟨s, by evalv [ex, e, listFind_of_mem hT, h0, h1], m⟩
        · simp [spec, hx, hT] at h; obtain ⟨rfl, rfl⟩ := h
          exact ⟨s, by evalv [ex, e, listFind_none hT], m⟩
        · simp [spec, hx] at h; obtain ⟨rfl, rfl⟩ := h
          exact ⟨s, by evalv [ex, e, listFind_of_mem hT], m⟩
      | getOpt y T =>
        cases ho
        rcases key T with ⟨hT, h0, rfl | ⟨hne, h1, h2⟩⟩ | ⟨hT, hne⟩ | ⟨hT, rfl, h1⟩
        · cases fail <;> simp [spec, hx, hT, h0] at h
          obtain ⟨rfl, rfl⟩ := h
          exact ⟨s, by evalv [ex, e, listFind_of_mem hT, h0], m⟩
        · cases fail <;> simp [spec, hx, hT, h0, hne] at h
          obtain ⟨rfl, rfl⟩ := h
          exact ⟨s, by evalv [ex, e, listFind_of_mem hT, h0, h2], m⟩
        · simp [spec, hx, hT] at h; obtain ⟨rfl, rfl⟩ := h
          exact ⟨s, by evalv [ex, e, listFind_none hT], m⟩
        · simp [spec, hx] at h; obtain ⟨rfl, rfl⟩ := h
          exact ⟨s, by evalv [ex, e, listFind_of_mem hT], m⟩
      | isType y T =>
        cases ho
        rcases key T with ⟨hT, h0, rfl | ⟨hne, h1, h2⟩⟩ | ⟨hT, hne⟩ | ⟨hT, rfl, h1⟩
        · simp [spec, hx] at h; obtain ⟨rfl, rfl⟩ := h
          exact ⟨s, by evalv [ex, e, listFind_of_mem hT, h0], m⟩
        · simp [spec, hx, hne] at h; obtain ⟨rfl, rfl⟩ := h
          exact ⟨s, by evalv [ex, e, listFind_of_mem hT, h0, h2], m⟩
        · simp [spec, hx, hne] at h; obtain ⟨rfl, rfl⟩ := h
          exact ⟨s, by evalv [ex, e, listFind_none hT], m⟩
        · simp [spec, hx, hU0] at h; obtain ⟨rfl, rfl⟩ := h
          exact ⟨s, by evalv [ex, e, listFind_of_mem hT, h1], m⟩
      | typeIndex y =>
        cases ho
        simp [spec, hx] at h; obtain ⟨rfl, rfl⟩ := h
        exact ⟨s, by evalv [ex, e], m⟩
      | type y =>
        cases ho
        simp [spec, hx] at h; obtain ⟨rfl, rfl⟩ := h
        exact ⟨s, by evalv [ex, e, at_idxOf hU], m⟩
      | isEmpty y =>
        cases ho
        simp [spec, hx] at h; obtain ⟨rfl, rfl⟩ := h
        by_cases hT : 0 ∈ A
        · have h1 : A.idxOf U ≠ A.idxOf 0 := fun c => hU0 ((idxOf_inj hU hT).1 c)
          exact ⟨s, by evalv [ex, e, listFind_of_mem hT, h1], m⟩
        · exact ⟨s, by evalv [ex, e, listFind_none hT], m⟩
      | _ => exact ho.elim
    | empty =>
      obtain ⟨e, hok, hU⟩ := m.empty hx
      have key : ∀ T, (T ∈ A ∧ T ≠ 0 ∧ A.idxOf 0 ≠ A.idxOf T ∧ A.idxOf T ≠ A.idxOf 0) ∨ (T ∉ A ∧ T ≠ 0) ∨ T = 0 := by
        intro T
        by_cases h0 : T = 0
        · exact .inr (.inr h0)
        · by_cases hT : T ∈ A
          · exact .inl ⟨hT, h0, fun c => h0 ((idxOf_inj hU hT).1 c).symm, fun c => h0 ((idxOf_inj hT hU).1 c)⟩
          · exact .inr (.inl ⟨hT, h0⟩)
      cases op with
      | typeIndex y =>
        cases ho
        simp [spec, hx] at h; obtain ⟨rfl, rfl⟩ := h
        exact ⟨s, by evalv [ex, e], m⟩
      | type y =>
        cases ho
        simp [spec, hx] at h; obtain ⟨rfl, rfl⟩ := h
        exact ⟨s, by evalv [ex, e, at_idxOf hU], m⟩
      | isEmpty y =>
        cases ho
        simp [spec, hx] at h; obtain ⟨rfl, rfl⟩ := h
        exact ⟨s, by evalv [ex, e, listFind_of_mem hU], m⟩
      | isType y T =>
        cases ho
        rcases key T with ⟨hT, h0, h1, h2⟩ | ⟨hT, h0⟩ | rfl
        · simp [spec, hx, h0] at h; obtain ⟨rfl, rfl⟩ := h
          exact ⟨s, by evalv [ex, e, listFind_of_mem hT, h0, h2], m⟩
        · simp [spec, hx, h0] at h; obtain ⟨rfl, rfl⟩ := h
          exact ⟨s, by evalv [ex, e, listFind_none hT], m⟩
        · simp [spec, hx] at h; obtain ⟨rfl, rfl⟩ := h
          exact ⟨s, by evalv [ex, e, listFind_of_mem hU], m⟩
      | get y T =>
        cases ho
        rcases key T with ⟨hT, h0, h1, h2⟩ | ⟨hT, h0⟩ | rfl
        · simp [spec, hx, h0, hT] at h; obtain ⟨rfl, rfl⟩ := h
          exact ⟨s, by evalv [ex, e, listFind_of_mem hT, h0, h1], m⟩
        · simp [spec, hx, hT] at h; obtain ⟨rfl, rfl⟩ := h
          exact ⟨s, by evalv [ex, e, listFind_none hT], m⟩
        · simp [spec, hx] at h; obtain ⟨rfl, rfl⟩ := h
          exact ⟨s, by evalv [ex, e, listFind_of_mem hU], m⟩
      | getMove y T =>
        cases ho
        rcases key T with ⟨hT, h0, h1, h2⟩ | ⟨hT, h0⟩ | rfl
        · simp [spec, hx, h0, hT] at h; obtain ⟨rfl, rfl⟩ := h
          exact ⟨s, by evalv [ex, e, listFind_of_mem hT, h0, h1], m⟩
        · simp [spec, hx, hT] at h; obtain ⟨rfl, rfl⟩ := h
          exact ⟨s, by evalv [ex, e, listFind_none hT], m⟩
        · simp [spec, hx] at h; obtain ⟨rfl, rfl⟩ := h
          exact ⟨s, by evalv [ex, e, listFind_of_mem hU], m⟩
      | getOr y T d =>
        cases ho
        rcases key T with ⟨hT, h0, h1, h2⟩ | ⟨hT, h0⟩ | rfl
        · cases fail <;> simp [spec, hx, h0, hT] at h
          obtain ⟨rfl, rfl⟩ := h
          exact ⟨s, by evalv [ex, e, listFind_of_mem hT, h0, h1], m⟩
        · simp [spec, hx, hT] at h; obtain ⟨rfl, rfl⟩ := h
          exact ⟨s, by evalv [ex, e, listFind_none hT], m⟩
        · simp [spec, hx] at h; obtain ⟨rfl, rfl⟩ := h
          exact ⟨s, by evalv [ex, e, listFind_of_mem hU], m⟩
      | getOpt y T =>
        cases ho
        rcases key T with ⟨hT, h0, h1, h2⟩ | ⟨hT, h0⟩ | rfl
        · cases fail <;> simp [spec, hx, h0, hT] at h
          obtain ⟨rfl, rfl⟩ := h
          exact ⟨s, by evalv [ex, e, listFind_of_mem hT, h0, h2], m⟩
        · simp [spec, hx, hT] at h; obtain ⟨rfl, rfl⟩ := h
          exact ⟨s, by evalv [ex, e, listFind_none hT], m⟩
        · simp [spec, hx] at h; obtain ⟨rfl, rfl⟩ := h
          exact ⟨s, by evalv [ex, e, listFind_of_mem hU], m⟩
      | _ => exact ho.elim
    | valueless l =>
      obtain ⟨mem, e, hok, hl⟩ := m.valueless hx
      have key : ∀ T, (T ∈ A ∧ ¬ (255 = A.idxOf T) ∧ ¬ (A.idxOf T = 255)) ∨ T ∉ A := by
        intro T
        by_cases hT : T ∈ A
        · have := idxOf_lt hT
          have := hok.2.1
          exact .inl ⟨hT, by omega, by omega⟩
        · exact .inr hT
      cases op with
      | typeIndex y =>
        cases ho
        simp [spec, hx] at h; obtain ⟨rfl, rfl⟩ := h
        exact ⟨s, by evalv [ex, e], m⟩
      | type y => cases ho; simp [spec, hx] at h
      | isEmpty y =>
        cases ho
        simp [spec, hx] at h; obtain ⟨rfl, rfl⟩ := h
        rcases key 0 with ⟨hT, h1, h2⟩ | hT
        · exact ⟨s, by evalv [ex, e, listFind_of_mem hT, h1], m⟩
        · exact ⟨s, by evalv [ex, e, listFind_none hT], m⟩
      | isType y T =>
        cases ho
        simp [spec, hx] at h; obtain ⟨rfl, rfl⟩ := h
        rcases key T with ⟨hT, h1, h2⟩ | hT
        · exact ⟨s, by evalv [ex, e, listFind_of_mem hT, h2], m⟩
        · exact ⟨s, by evalv [ex, e, listFind_none hT], m⟩
      | get y T =>
        cases ho
        rcases key T with ⟨hT, h1, h2⟩ | hT
        · by_cases h0 : T = 0
          · subst h0; simp [spec, hx] at h; obtain ⟨rfl, rfl⟩ := h
            exact ⟨s, by evalv [ex, e, listFind_of_mem hT], m⟩
          · simp [spec, hx, h0, hT] at h; obtain ⟨rfl, rfl⟩ := h
            exact ⟨s, by evalv [ex, e, listFind_of_mem hT, h0, h1], m⟩
        · simp [spec, hx, hT] at h; obtain ⟨rfl, rfl⟩ := h
          exact ⟨s, by evalv [ex, e, listFind_none hT], m⟩
      | getMove y T =>
        cases ho
        rcases key T with ⟨hT, h1, h2⟩ | hT
        · by_cases h0 : T = 0
          · subst h0; simp [spec, hx] at h; obtain ⟨rfl, rfl⟩ := h
            exact ⟨s, by evalv [ex, e, listFind_of_mem hT], m⟩
          · simp [spec, hx, h0, hT] at h; obtain ⟨rfl, rfl⟩ := h
            exact ⟨s, by evalv [ex, e, listFind_of_mem hT, h0, h1], m⟩
        · simp [spec, hx, hT] at h; obtain ⟨rfl, rfl⟩ := h
          exact ⟨s, by evalv [ex, e, listFind_none hT], m⟩
      | getOr y T d =>
        cases ho
        rcases key T with ⟨hT, h1, h2⟩ | hT
        · by_cases h0 : T = 0
          · subst h0; simp [spec, hx] at h; obtain ⟨rfl, rfl⟩ := h
            exact ⟨s, by evalv [ex, e, listFind_of_mem hT], m⟩
          · cases fail <;> simp [spec, hx, h0, hT] at h
            obtain ⟨rfl, rfl⟩ := h
            exact ⟨s, by evalv [ex, e, listFind_of_mem hT, h0, h1], m⟩
        · simp [spec, hx, hT] at h; obtain ⟨rfl, rfl⟩ := h
          exact ⟨s, by evalv [ex, e, listFind_none hT], m⟩
      | getOpt y T =>
        cases ho
        rcases key T with ⟨hT, h1, h2⟩ | hT
        · by_cases h0 : T = 0
          · subst h0; simp [spec, hx] at h; obtain ⟨rfl, rfl⟩ := h
            exact ⟨s, by evalv [ex, e, listFind_of_mem hT], m⟩
          · cases fail <;> simp [spec, hx, h0, hT] at h
            obtain ⟨rfl, rfl⟩ := h
            exact ⟨s, by evalv [ex, e, listFind_of_mem hT, h0, h2], m⟩
        · simp [spec, hx, hT] at h; obtain ⟨rfl, rfl⟩ := h
          exact ⟨s, by evalv [ex, e, listFind_none hT], m⟩
      | _ => exact ho.elim
  | _ =>
    rw [hx] at ex
    cases op <;> first
      | exact ho.elim
      | (cases ho; simp [spec, hx] at h; obtain ⟨rfl, rfl⟩ := h; exact ⟨s, by evalv [ex], m⟩)

end

theorem step_ok (t : Ty α) {s : St Info (Nat × α)} {σ : Vars α} (m : Sim s σ) (fail : Bool) (op : Op α) {r : Res α} {σ' : Vars α}
    (h : spec t σ fail op = some (r, σ')) : ∃ s', step t fail op s = some (r, s') ∧ Sim s' σ' := by
  cases op with
  | newNull x A => exact newNull_ok t m fail x A h
  | newVal x A T a => exact newVal_ok t m fail x A T a h
  | newCopy x y => exact newCopy_ok t m fail x y h
  | newMove x y => exact newMove_ok t m fail x y h
  | newCast x A y mv => exact newCast_ok t m fail x A y mv h
  | del x => exact del_ok t m fail x h
  | copyAssign x y => exact copyAssign_ok t m fail x y h
  | moveAssign x y => exact moveAssign_ok t m fail x y h
  | emplace x T a => exact emplace_ok t m fail x T a h
  | get x T => exact asks_ok t m fail x _ rfl h
  | getMove x T => exact asks_ok t m fail x _ rfl h
  | getOr x T d => exact asks_ok t m fail x _ rfl h
  | getOpt x T => exact asks_ok t m fail x _ rfl h
  | isType x T => exact asks_ok t m fail x _ rfl h
  | typeIndex x => exact asks_ok t m fail x _ rfl h
  | type x => exact asks_ok t m fail x _ rfl h
  | isEmpty x => exact asks_ok t m fail x _ rfl h

/-! ## Lifetimes -/

theorem keeps_inScope (x : Nat) : Keeps (inScope x : MV α Bool) := by
  intro s y s' l e
  simp only [inScope] at e
  split at e <;> (simp at e; exact e.2 ▸ l)

macro "keepsv" : tactic => `(tactic| repeat' first
  | exact Keeps.pure _ | exact Keeps.bad | exact Keeps.alive _ | exact keeps_inScope _ | exact Keeps.info _ | exact Keeps.value _ | exact Keeps.declare _ _
  | exact Keeps.undeclare _ | exact Keeps.setInfo _ _ | exact Keeps.store _ _ | exact Keeps.construct _ _ _ | exact Keeps.destroy _
  | assumption | apply Keeps.ite | refine Keeps.bind ?_ (fun _ => ?_) | split)

theorem step_keeps (t : Ty α) (fail : Bool) (op : Op α) : Keeps (step t fail op) := by
  cases op <;> simp only [step, declaring, finish, createAs, copyConstruct, copyConstructAt, moveConstruct, moveConstructAt, copyAssign, copyAssignAt, moveAssign, moveAssignAt,
    emplace, destroyAt, tableAt, getAlts, getIdx, setIdx, valueAs] <;> keepsv

theorem run_ok (t : Ty α) : ∀ (ops : List (Op α × Bool)) {s : St Info (Nat × α)} {σ : Vars α} {rs : List (Res α)} {σ' : Vars α}, Sim s σ → Ledger s →
    specRun t σ ops = some (rs, σ') → ∃ s', run t ops s = some (rs, s') ∧ Sim s' σ' ∧ Ledger s'
  | [], s, σ, rs, σ', m, l, h => by
    simp [specRun] at h; obtain ⟨rfl, rfl⟩ := h
    exact ⟨s, rfl, m, l⟩
  | (op, fail) :: ops, s, σ, rs, σ', m, l, h => by
    simp only [specRun] at h
    cases h1 : spec t σ fail op with
    | none => rw [h1] at h; cases h
    | some p =>
      obtain ⟨r, σ1⟩ := p
      rw [h1] at h
      simp only at h
      cases h2 : specRun t σ1 ops with
      | none => rw [h2] at h; cases h
      | some q =>
        obtain ⟨rs1, σ2⟩ := q
        rw [h2] at h
        simp at h; obtain ⟨rfl, rfl⟩ := h
        obtain ⟨s1, e1, m1⟩ := step_ok t m fail op h1
        obtain ⟨s2, e2, m2, l2⟩ := run_ok t ops m1 (step_keeps t fail op s r s1 l e1) h2
        exact ⟨s2, by rw [run, bind_some e1, bind_some e2]; rfl, m2, l2⟩

/-! ## The property -/

/-- Has the storage of the variable an object in it? -/
def occupied : Slot α → Bool
  | .fresh => false
  | .here _ (.val _ _) => true
  | .here _ .empty => false
  | .here _ (.valueless leak) => leak
  | .ended leak => leak

theorem held_of_sim {s : St Info (Nat × α)} {σ : Vars α} (m : Sim s σ) (x : Nat) : (held s x).isSome = occupied (σ x) := by
  have := m x
  rw [held_of rfl]
  cases hc : s.vars x with
  | none =>
    rw [hc] at this
    cases hs : σ x <;> rw [hs] at this <;> first | rfl | exact this.elim
  | some c =>
    rw [hc] at this
    cases hs : σ x with
    | fresh => rw [hs] at this; exact this.elim
    | ended l => rw [hs] at this; obtain ⟨-, rfl⟩ := this; simp [occupied]
    | here A v =>
      rw [hs] at this
      obtain ⟨-, -, h⟩ := this
      obtain ⟨mem, i⟩ := c
      cases v with
      | val T a =>
        obtain ⟨-, -, h⟩ := h
        cases mem with
        | none => simp at h
        | some p => rfl
      | empty => obtain ⟨-, h⟩ := h; have h : mem = none := h; subst h; rfl
      | valueless l => have h : mem.isSome = l := h; subst h; simp [occupied]

/-- Any sequence of statements, on any number of variants with any lists of alternatives, with exceptions anywhere, that does not use
a valueless variant where the code does not allow it: every answer is the specified one; each variant that should hold a value of type
`T` holds exactly one live object, of type `T`, and reports the index of `T`; no object is destroyed twice, and the objects not
destroyed yet are exactly those in the variants that should be occupied, one in each. -/
theorem C28_partial (t : Ty α) (ops : List (Op α × Bool)) {rs : List (Res α)} {σ' : Vars α} (h : specRun t (fun _ => .fresh) ops = some (rs, σ')) :
    ∃ s', run t ops St.init = some (rs, s') ∧
      (∀ x A T a, σ' x = .here A (.val T a) → T ∈ A ∧ T ≠ 0 ∧ ∃ id, s'.vars x = some ⟨some (id, (T, a)), ⟨A, A.idxOf T, false⟩⟩) ∧
      (∀ x A, σ' x = .here A .empty → 0 ∈ A ∧ s'.vars x = some ⟨none, ⟨A, A.idxOf 0, false⟩⟩) ∧
      s'.dead.Nodup ∧ (∀ id ∈ s'.dead, id < s'.next) ∧ (∀ id, id < s'.next → (id ∉ s'.dead ↔ ∃ x, held s' x = some id)) ∧
      (∀ x, (held s' x).isSome = occupied (σ' x)) ∧ (∀ x y id, held s' x = some id → held s' y = some id → x = y) := by
  obtain ⟨s', e, m, l⟩ := run_ok t ops (s := St.init) (σ := fun _ => .fresh) (fun _ => trivial) ledger_init h
  refine ⟨s', e, fun x A T a hx => ?_, fun x A hx => ?_, l.once, l.born, fun id hid => ⟨fun hd => ?_, fun ⟨x, hx⟩ => (l.live x id hx).2⟩, held_of_sim m, l.inj⟩
  · obtain ⟨id, e, -, h1, h2⟩ := m.val hx
    exact ⟨h1, h2, id, e⟩
  · obtain ⟨e, -, h1⟩ := m.empty hx
    exact ⟨h1, e⟩
  · exact (l.cover id hid).resolve_left hd

/-- Does the statement move a whole variant? -/
def moves : Op α → Bool
  | .newMove _ _ => true
  | .moveAssign _ _ => true
  | _ => false

def NoLeak (σ : Vars α) : Prop := ∀ x, σ x ≠ .ended true ∧ ∀ A, σ x ≠ .here A (.valueless true)

theorem NoLeak.set {σ : Vars α} (n : NoLeak σ) {x : Nat} {v : Slot α} (h : v ≠ .ended true ∧ ∀ A, v ≠ .here A (.valueless true)) : NoLeak (σ.set x v) := by
  intro y
  simp only [Vars.set]
  split
  · exact h
  · exact n y

theorem spec_noLeak (t : Ty α) {σ : Vars α} (n : NoLeak σ) (fail : Bool) (op : Op α) (hm : moves op = false) {r : Res α} {σ' : Vars α}
    (h : spec t σ fail op = some (r, σ')) : NoLeak σ' := by
  cases op <;> simp only [moves, Bool.true_eq_false] at hm <;> simp only [spec] at h <;> (repeat' split at h) <;> first
    | (cases h; done)
    | (simp at h; obtain ⟨-, rfl⟩ := h; exact n)
    | (simp at h; obtain ⟨-, rfl⟩ := h; refine n.set ?_; simp; done)
    | (simp at h; obtain ⟨-, rfl⟩ := h; refine (n.set ?_).set ?_ <;> simp; done)
    | (simp at h; obtain ⟨-, rfl⟩ := h; refine n.set ?_; split <;> simp; done)
    | skip
  case h_1 x _ _ leak hx =>
    simp at h; obtain ⟨-, rfl⟩ := h
    refine n.set ⟨?_, by simp⟩
    intro c; simp at c; subst c; exact (n x).2 _ hx

theorem specRun_noLeak (t : Ty α) : ∀ (ops : List (Op α × Bool)) {σ : Vars α}, NoLeak σ → (∀ p ∈ ops, moves p.1 = false) →
    ∀ {rs : List (Res α)} {σ' : Vars α}, specRun t σ ops = some (rs, σ') → NoLeak σ'
  | [], σ, n, _, rs, σ', h => by simp [specRun] at h; obtain ⟨-, rfl⟩ := h; exact n
  | (op, fail) :: ops, σ, n, hm, rs, σ', h => by
    simp only [specRun] at h
    cases h1 : spec t σ fail op with
    | none => rw [h1] at h; cases h
    | some p =>
      obtain ⟨r, σ1⟩ := p
      rw [h1] at h
      simp only at h
      cases h2 : specRun t σ1 ops with
      | none => rw [h2] at h; cases h
      | some q =>
        obtain ⟨rs1, σ2⟩ := q
        rw [h2] at h
        simp at h; obtain ⟨-, rfl⟩ := h
        exact specRun_noLeak t ops (spec_noLeak t n fail op (hm (op, fail) (List.mem_cons_self ..)) h1) (fun p hp => hm p (List.mem_cons_of_mem _ hp)) h2

/-- Without moves of whole variants, once all variants have gone out of scope every object was destroyed, exactly once. -/
theorem C28_no_moves_partial (t : Ty α) (ops : List (Op α × Bool)) (hm : ∀ p ∈ ops, moves p.1 = false) {rs : List (Res α)} {σ' : Vars α}
    (h : specRun t (fun _ => .fresh) ops = some (rs, σ')) (hend : ∀ x A v, σ' x ≠ .here A v) :
    ∃ s', run t ops St.init = some (rs, s') ∧ s'.dead.Nodup ∧ ∀ id, id ∈ s'.dead ↔ id < s'.next := by
  obtain ⟨s', e, m, l⟩ := run_ok t ops (s := St.init) (σ := fun _ => .fresh) (fun _ => trivial) ledger_init h
  have n := specRun_noLeak t ops (σ := fun _ => .fresh) (fun x => ⟨by simp, by simp⟩) hm h
  refine ⟨s', e, l.once, fun id => ⟨l.born id, fun hid => (l.cover id hid).resolve_right ?_⟩⟩
  rintro ⟨x, hx⟩
  have ho := held_of_sim m x
  rw [hx] at ho
  cases hs : σ' x with
  | fresh => rw [hs] at ho; simp [occupied] at ho
  | here A v => exact hend x A v hs
  | ended b =>
    rw [hs] at ho
    have : b = true := by simpa [occupied] using ho.symm
    subst this
    exact (n x).1 hs

/-! ## What goes wrong -/

/-- Two objects are constructed: the one of the source (0), and the one moved into the target (1). The source reports the index 255
after the move although its object is alive, and only the second object is ever destroyed. -/
theorem C28_move_violated (t : Ty α) (A : List Nat) (hA : AltsOk A) (T : Nat) (hT : T ∈ A) (h0 : T ≠ 0) (a : α) :
    ∃ s', run t [(.newVal 0 A T a, false), (.newMove 1 0, false), (.typeIndex 0, false), (.del 0, false), (.del 1, false)] St.init =
      some ([.done, .done, .nat 255, .done, .done], s') ∧ s'.next = 2 ∧ s'.dead = [1] := by
  have hlt := idxOf_lt hT
  have hne : A.idxOf T ≠ 255 := by have := hA.2.1; omega
  have hv : validAlts A = true := by simpa [validAlts, AltsOk] using hA
  refine ⟨_, by simp only [run]; evalv [inScope, alive, St.init, hv, listFind_of_mem hT, at_idxOf hT, h0, hne]; rfl, rfl, rfl⟩

/-- The same for a move assignment: of the objects 0 and 1, the object 1 of the source is never destroyed. -/
theorem C28_move_assign_violated (t : Ty α) (A : List Nat) (hA : AltsOk A) (T : Nat) (hT : T ∈ A) (h0 : T ≠ 0) (a b : α) :
    ∃ s', run t [(.newVal 0 A T a, false), (.newVal 1 A T b, false), (.moveAssign 0 1, false), (.del 0, false), (.del 1, false)] St.init =
      some ([.done, .done, .done, .done, .done], s') ∧ s'.next = 2 ∧ s'.dead = [0] := by
  have hlt := idxOf_lt hT
  have hne : A.idxOf T ≠ 255 := by have := hA.2.1; omega
  have hv : validAlts A = true := by simpa [validAlts, AltsOk] using hA
  refine ⟨_, by simp only [run]; evalv [inScope, alive, St.init, hv, listFind_of_mem hT, at_idxOf hT, h0, hne]; rfl, rfl, rfl⟩

/-- A variant that has become valueless, by a move or by an exception, cannot be assigned to, emplaced into, copied, moved or asked
for its type: each of these is undefined. -/
theorem C28_valueless_violated (t : Ty α) (fail : Bool) {s : St Info (Nat × α)} {σ : Vars α} (m : Sim s σ) {x y : Nat} {A : List Nat} {l : Bool} {T : Nat} {a b : α}
    (hx : σ x = .here A (.valueless l)) (hy : σ y = .here A (.val T a)) :
    step t fail (.copyAssign x y) s = none ∧ step t fail (.moveAssign x y) s = none ∧ step t fail (.emplace x T b) s = none ∧
      step t fail (.copyAssign y x) s = none ∧ step t fail (.type x) s = none ∧
      ∀ z, σ z = .fresh → step t fail (.newCopy z x) s = none ∧ step t fail (.newMove z x) s = none := by
  have hxy : x ≠ y := fun c => by rw [c, hy] at hx; cases hx
  have ex := inScope_eq m x
  have ey := inScope_eq m y
  rw [hx] at ex; rw [hy] at ey
  obtain ⟨mem, e, hok, hl⟩ := m.valueless hx
  obtain ⟨id, e', -, hT, h0⟩ := m.val hy
  have hlt := idxOf_lt hT
  have hlen := hok.2.1
  have hne : A.idxOf T ≠ 255 := by omega
  have hne' : ¬ (255 = A.idxOf T) := by omega
  have hn : A[255]? = none := List.getElem?_eq_none (by omega)
  refine ⟨by evalv [ex, ey, e, e', hxy, hne', hn], by evalv [ex, ey, e, e', hxy, hne', hn], by evalv [ex, e, listFind_of_mem hT, h0, hn],
    by evalv [ex, ey, e, e', hxy, Ne.symm hxy, hne, hn, at_idxOf hT, h0], by evalv [ex, e, hn], fun z hz => ?_⟩
  have ez := alive_eq m z
  rw [hz] at ez
  have hzx : x ≠ z := fun c => by rw [c, hz] at hx; cases hx
  exact ⟨by evalv [ex, e, ez, m.fresh hz, hzx, hn], by evalv [ex, e, ez, m.fresh hz, hzx, hn]⟩

/-- An exception in `emplace` makes a variant valueless. -/
theorem C28_throw_valueless (t : Ty α) {s : St Info (Nat × α)} {σ : Vars α} (m : Sim s σ) {x : Nat} {A : List Nat} {T : Nat} {a b : α} (hx : σ x = .here A (.val T a)) :
    ∃ s', step t true (.emplace x T b) s = some (.threw, s') ∧ Sim s' (σ.set x (.here A (.valueless false))) := by
  obtain ⟨id, e, hok, hT, h0⟩ := m.val hx
  exact step_ok t m true (.emplace x T b) (by simp [spec, hx, hT, h0])

/-- Types: 0 is `void`, 1 and 2 two others. -/
def sample : List (Op Nat × Bool) := [(.newVal 0 [2, 0, 1] 1 5, false), (.newCopy 1 0, false), (.newCopy 2 0, true), (.emplace 0 2 8, false), (.get 0 1, false), (.get 0 2, false), (.copyAssign 1 0, false),
  (.type 1, false), (.newNull 3 [2, 0, 1], false), (.copyAssign 0 3, false), (.isEmpty 0, false), (.newCast 4 [1, 2] 1 true, false), (.get 1 2, false), (.typeIndex 4, false), (.newCast 5 [1, 2] 0 false, false),
  (.getMove 4 2, false), (.emplace 1 1 3, true), (.typeIndex 1, false), (.get 1 1, false), (.copyAssign 0 3, true), (.del 0, false), (.del 1, false), (.del 3, false), (.del 4, false)]

/-- The hypotheses of `C28_partial` and `C28_no_moves_partial`, and the answers, on a concrete program with four objects. -/
example : (run ⟨fun _ => 0, fun _ _ => 99⟩ sample St.init).map (fun r => (r.1, r.2.next, r.2.dead)) =
    some ([.done, .done, .threw, .done, .badAccess, .value 8, .done, .nat 2, .done, .done, .bool true, .done, .value 0, .nat 1, .badCast, .value 8, .threw, .nat 255, .badAccess, .done, .done, .done, .done, .done],
      5, [4, 3, 2, 1, 0]) := by
  decide +kernel

example : (specRun ⟨fun _ => 0, fun _ _ => 99⟩ (fun _ => .fresh) sample).map (fun r => (r.1.length, (List.range 6).map r.2)) =
    some (24, [.ended false, .ended false, .fresh, .ended false, .ended false, .fresh]) := by
  decide +kernel

example : ∀ p ∈ sample, moves p.1 = false := by
  decide +kernel

end Verif.Variant
