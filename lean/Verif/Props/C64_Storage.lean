import Verif.Model.Storage
import Verif.Lemmas.Cells

/-!
# C64: `storage` behaves as a value, and the choice between stack and heap is not visible
-/
set_option autoImplicit false
set_option linter.unusedSectionVars false

namespace Verif.Storage
open Verif.Cells

variable {α : Type}

/-! ## Specification -/

/-- What the variables hold: `none` for a variable that is not in scope, `some none` for an empty storage. -/
abbrev Vars (α : Type) := Nat → Option (Option α)

def Vars.set (σ : Vars α) (x : Nat) (v : Option (Option α)) : Vars α := fun y => if y = x then v else σ y

/-- The variables that a statement uses are in scope, the one that it declares is not. -/
def scopeOk (σ : Vars α) : Op α → Bool
  | .new x | .newVal x _ => !(σ x).isSome
  | .newCopy x y | .newMove x y => !(σ x).isSome && (σ y).isSome
  | .del x | .get x | .set x _ | .isNull x => (σ x).isSome
  | .copyAssign x y | .moveAssign x y | .swap x y => (σ x).isSome && (σ y).isSome

/-- a new variable with a copy of `a` -/
def specNew (σ : Vars α) (fail : Option Nat) (x : Nat) (a : α) : Option (Res α × Vars α) :=
  if fail = some 0 then some (.threw, σ) else some (.done, σ.set x (some (some a)))

/-- `x = b`; on the stack there is no answer if the copy throws -/
def specAssign (heap : Bool) (σ : Vars α) (fail : Option Nat) (x : Nat) (b : α) : Option (Res α × Vars α) :=
  if fail = some 0 then (if heap then some (.threw, σ) else none) else some (.done, σ.set x (some (some b)))

/-- What each statement should do. `none`: no answer. This is so for copying and dereferencing an empty storage, and in the cases in which the code on the stack is wrong:
default construction, and exceptions in assignment and swap. -/
def spec (heap : Bool) (σ : Vars α) (fail : Option Nat) (op : Op α) : Option (Res α × Vars α) :=
  if scopeOk σ op then
    match op with
    | .new x => if heap then some (.done, σ.set x (some none)) else none
    | .newVal x a => specNew σ fail x a
    | .newCopy x y =>
      match σ y with
      | some (some a) => specNew σ fail x a
      | _ => none
    | .newMove x y =>
      if heap then some (.done, (σ.set x (σ y)).set y (some none))
      else
        match σ y with
        | some (some a) => specNew σ fail x a
        | _ => none
    | .del x => some (.done, σ.set x none)
    | .copyAssign x y =>
      if x = y then some (.done, σ)
      else
        match σ y with
        | some (some b) => specAssign heap σ fail x b
        | _ => none
    | .moveAssign x y =>
      if x = y then some (.done, σ)
      else if heap then some (.done, (σ.set x (σ y)).set y (some none))
      else
        match σ y with
        | some (some b) => specAssign heap σ fail x b
        | _ => none
    | .swap x y =>
      if x = y then some (.done, σ)
      else if heap then some (.done, (σ.set x (σ y)).set y (σ x))
      else if fail = some 0 then some (.threw, σ)
      else if fail = some 1 ∨ fail = some 2 then none
      else some (.done, (σ.set x (σ y)).set y (σ x))
    | .get x =>
      match σ x with
      | some (some a) => some (.value a, σ)
      | _ => none
    | .set x a =>
      match σ x with
      | some (some _) => some (.done, σ.set x (some (some a)))
      | _ => none
    | .isNull x =>
      match σ x with
      | some v => some (.bool v.isNone, σ)
      | none => none
  else some (.skipped, σ)

def specRun (heap : Bool) (σ : Vars α) : List (Op α × Option Nat) → Option (List (Res α) × Vars α)
  | [] => some ([], σ)
  | (op, fail) :: ops =>
    match spec heap σ fail op with
    | none => none
    | some (r, σ') =>
      match specRun heap σ' ops with
      | none => none
      | some (rs, σ'') => some (r :: rs, σ'')

/-! ## Simulation -/

def CellOk : Option (Cell Unit α) → Option (Option α) → Prop
  | none, none => True
  | some ⟨m, _⟩, some v => m.map Prod.snd = v
  | _, _ => False

structure Sim (heap : Bool) (s : St Unit α) (σ : Vars α) : Prop where
  tmp : s.vars 0 = none
  cell : ∀ x, CellOk (s.vars (x + 1)) (σ x)
  full : heap = false → ∀ x, σ x ≠ some none

variable {heap : Bool} {s : St Unit α} {σ : Vars α}

theorem Sim.gone (m : Sim heap s σ) {x : Nat} (h : σ x = none) : s.vars (x + 1) = none := by
  have := m.cell x
  rw [h] at this
  cases e : s.vars (x + 1) with
  | none => rfl
  | some c => rw [e] at this; cases this

theorem Sim.here (m : Sim heap s σ) {x : Nat} {v : Option α} (h : σ x = some v) : ∃ p : Option (Nat × α), s.vars (x + 1) = some ⟨p, ()⟩ ∧ p.map Prod.snd = v := by
  have := m.cell x
  rw [h] at this
  cases e : s.vars (x + 1) with
  | none => rw [e] at this; cases this
  | some c => obtain ⟨p, u⟩ := c; cases u; rw [e] at this; exact ⟨p, rfl, this⟩

theorem Sim.here' (m : Sim heap s σ) {x : Nat} {a : α} (h : σ x = some (some a)) : ∃ id, s.vars (x + 1) = some ⟨some (id, a), ()⟩ := by
  obtain ⟨p, h1, h2⟩ := m.here h
  cases p with
  | none => simp at h2
  | some p => obtain ⟨id, b⟩ := p; simp at h2; subst h2; exact ⟨id, h1⟩

theorem Sim.alive (m : Sim heap s σ) (x : Nat) : alive (x + 1) s = some ((σ x).isSome, s) := by
  cases h : σ x with
  | none => simp [Cells.alive, m.gone h]
  | some v => obtain ⟨p, h1, -⟩ := m.here h; simp [Cells.alive, h1]

theorem Sim.inScope (m : Sim heap s σ) (op : Op α) : inScope op s = some (scopeOk σ op, s) := by
  cases op <;> simp [Storage.inScope, scopeOk, Bind.bind, M.bind, Pure.pure, M.pure, m.alive]

/-- a state that agrees with new contents of some variables -/
theorem Sim.change (m : Sim heap s σ) {s' : St Unit α} {σ' : Vars α} (h0 : s'.vars 0 = none) (hf : heap = false → ∀ x, σ' x ≠ some none)
    (h : ∀ x, (s'.vars (x + 1) = s.vars (x + 1) ∧ σ' x = σ x) ∨ CellOk (s'.vars (x + 1)) (σ' x)) : Sim heap s' σ' :=
  ⟨h0, fun x => by
    rcases h x with ⟨h1, h2⟩ | h
    · rw [h1, h2]; exact m.cell x
    · exact h, hf⟩

theorem stackNew_ok (m : Sim heap s σ) (fail : Option Nat) (x : Nat) (a : α) (hx : σ x = none) {r : Res α} {σ' : Vars α} (h : specNew σ fail x a = some (r, σ')) :
    ∃ s', stackNew x a fail s = some (r, s') ∧ Sim heap s' σ' := by
  have e := m.gone hx
  simp only [specNew] at h
  by_cases hf : fail = some 0
  · simp only [if_pos hf, Option.some.injEq, Prod.mk.injEq] at h
    obtain ⟨rfl, rfl⟩ := h
    refine ⟨(s.set (x + 1) (some ⟨none, ()⟩)).set (x + 1) none, ?_, ?_⟩
    · simp [stackNew, Bind.bind, M.bind, Pure.pure, M.pure, declare, e, construct, undeclare, St.set, hf]
    · refine m.change ?_ m.full fun y => ?_
      · simp [St.set, m.tmp]
      · by_cases hy : y = x
        · subst hy; right; simp [St.set, hx, CellOk]
        · left; simp [St.set, hy]
  · simp only [if_neg hf, Option.some.injEq, Prod.mk.injEq] at h
    obtain ⟨rfl, rfl⟩ := h
    have hf' : (fail == some 0) = false := by simpa using hf
    refine ⟨{ (s.set (x + 1) (some ⟨none, ()⟩)).set (x + 1) (some ⟨some (s.next, a), ()⟩) with next := s.next + 1 }, ?_, ?_⟩
    · simp [stackNew, Bind.bind, M.bind, Pure.pure, M.pure, declare, e, construct, St.set, hf']
    · refine m.change ?_ ?_ fun y => ?_
      · simp [St.set, m.tmp]
      · intro h y; simp only [Vars.set]; split
        · simp
        · exact m.full h y
      · by_cases hy : y = x
        · subst hy; right; simp [St.set, Vars.set, CellOk]
        · left; simp [St.set, Vars.set, hy]

theorem set_full {v : Option (Option α)} (hf : heap = false → ∀ x, σ x ≠ some none) (x : Nat) (hv : heap = false → v ≠ some none) :
    heap = false → ∀ y, (σ.set x v) y ≠ some none := by
  intro h y
  simp only [Vars.set]
  split
  · exact hv h
  · exact hf h y

theorem stackAssign_ok (m : Sim false s σ) (fail : Option Nat) (x y : Nat) (hxy : x ≠ y) {v : Option α} (hx : σ x = some v) {b : α} (hy : σ y = some (some b)) {r : Res α} {σ' : Vars α}
    (h : specAssign false σ fail x b = some (r, σ')) : ∃ s', ((do let ok ← stackAssign x y fail; pure (toRes ok) : MS α (Res α)) s) = some (r, s') ∧ Sim false s' σ' := by
  have hv : ∃ a, v = some a := by
    cases v with
    | none => exact absurd hx (m.full rfl x)
    | some a => exact ⟨a, rfl⟩
  obtain ⟨a, rfl⟩ := hv
  obtain ⟨i, ex⟩ := m.here' hx
  obtain ⟨j, ey⟩ := m.here' hy
  simp only [specAssign] at h
  by_cases hf : fail = some 0
  · simp [hf] at h
  · simp only [if_neg hf, Option.some.injEq, Prod.mk.injEq] at h
    obtain ⟨rfl, rfl⟩ := h
    have hf' : (fail == some 0) = false := by simpa using hf
    have hyx : ¬ y = x := fun e => hxy e.symm
    refine ⟨{ (s.set (x + 1) (some ⟨none, ()⟩)).set (x + 1) (some ⟨some (s.next, b), ()⟩) with next := s.next + 1, dead := i :: s.dead }, ?_, ?_⟩
    · simp [stackAssign, hxy, hyx, toRes, Bind.bind, M.bind, Pure.pure, M.pure, destroy, ex, ey, value, construct, St.set, hf']
    · refine m.change ?_ (set_full m.full x (by simp)) fun z => ?_
      · simp [St.set, m.tmp]
      · by_cases hz : z = x
        · subst hz; right; simp [St.set, Vars.set, CellOk]
        · left; simp [St.set, Vars.set, hz]

theorem stackSwap_ok (m : Sim false s σ) (fail : Option Nat) (x y : Nat) (hxy : x ≠ y) {v w : Option α} (hx : σ x = some v) (hy : σ y = some w) (h1 : fail ≠ some 1) (h2 : fail ≠ some 2) :
    ∃ s', ((do let ok ← stackSwap x y fail; pure (toRes ok) : MS α (Res α)) s) = some (if fail = some 0 then .threw else .done, s') ∧
      Sim false s' (if fail = some 0 then σ else (σ.set x (σ y)).set y (σ x)) := by
  have hv : ∃ a, v = some a := by
    cases v with
    | none => exact absurd hx (m.full rfl x)
    | some a => exact ⟨a, rfl⟩
  obtain ⟨a, rfl⟩ := hv
  have hw : ∃ a, w = some a := by
    cases w with
    | none => exact absurd hy (m.full rfl y)
    | some a => exact ⟨a, rfl⟩
  obtain ⟨b, rfl⟩ := hw
  obtain ⟨i, ex⟩ := m.here' hx
  obtain ⟨j, ey⟩ := m.here' hy
  have hyx : ¬ y = x := fun e => hxy e.symm
  have e0 := m.tmp
  by_cases hf : fail = some 0
  · simp only [if_pos hf]
    refine ⟨(s.set 0 (some ⟨none, ()⟩)).set 0 none, ?_, ?_⟩
    · simp [stackSwap, hxy, toRes, Bind.bind, M.bind, Pure.pure, M.pure, declare, undeclare, ex, e0, value, construct, St.set, hf]
    · refine m.change ?_ m.full fun z => ?_
      · simp [St.set]
      · left; simp [St.set]
  · simp only [if_neg hf]
    have hf0 : (fail == some 0) = false := by simpa using hf
    have hf1 : (fail == some 1) = false := by simpa using h1
    have hf2 : (fail == some 2) = false := by simpa using h2
    refine ⟨⟨fun z => if z = 0 then none else if z = y + 1 then some ⟨some (s.next + 2, a), ()⟩ else if z = x + 1 then some ⟨some (s.next + 1, b), ()⟩ else s.vars z, s.next + 3, s.next :: j :: i :: s.dead⟩, ?_, ?_⟩
    · simp [stackSwap, hxy, hyx, toRes, Bind.bind, M.bind, Pure.pure, M.pure, declare, undeclare, destroy, ex, ey, e0, value, construct, St.set, hf0, hf1, hf2]
      funext z
      by_cases z0 : z = 0
      · simp [z0]
      · by_cases zy : z = y + 1
        · simp [zy]
        · by_cases zx : z = x + 1
          · simp [zx, hxy]
          · simp [z0, zy, zx]
    · refine m.change ?_ (set_full (set_full m.full x (fun h => m.full h y)) y (fun h => m.full h x)) fun z => ?_
      · simp
      · by_cases zy : z = y
        · subst zy; right; simp [Vars.set, CellOk, hx]
        · by_cases zx : z = x
          · subst zx; right; simp [Vars.set, CellOk, hy, zy]
          · left; simp [Vars.set, zx, zy]

theorem heapCopyAssign_ok (m : Sim true s σ) (fail : Option Nat) (x y : Nat) (hxy : x ≠ y) {v : Option α} (hx : σ x = some v) {b : α} (hy : σ y = some (some b)) {r : Res α} {σ' : Vars α}
    (h : specAssign true σ fail x b = some (r, σ')) : ∃ s', ((do let ok ← heapCopyAssign x y fail; pure (toRes ok) : MS α (Res α)) s) = some (r, s') ∧ Sim true s' σ' := by
  obtain ⟨p, ex, hp⟩ := m.here hx
  obtain ⟨j, ey⟩ := m.here' hy
  have hyx : ¬ y = x := fun e => hxy e.symm
  have e0 := m.tmp
  simp only [specAssign, if_true] at h
  by_cases hf : fail = some 0
  · simp only [if_pos hf, Option.some.injEq, Prod.mk.injEq] at h
    obtain ⟨rfl, rfl⟩ := h
    refine ⟨(s.set 0 (some ⟨none, ()⟩)).set 0 none, ?_, ?_⟩
    · simp [heapCopyAssign, hxy, toRes, Bind.bind, M.bind, Pure.pure, M.pure, declare, undeclare, ey, e0, value, construct, St.set, hf]
    · refine m.change ?_ (by simp) fun z => ?_
      · simp [St.set]
      · left; simp [St.set]
  · simp only [if_neg hf, Option.some.injEq, Prod.mk.injEq] at h
    obtain ⟨rfl, rfl⟩ := h
    have hf0 : (fail == some 0) = false := by simpa using hf
    refine ⟨⟨fun z => if z = 0 then none else if z = x + 1 then some ⟨some (s.next, b), ()⟩ else s.vars z, s.next + 1, match p with | some (id, _) => id :: s.dead | none => s.dead⟩, ?_, ?_⟩
    · cases p with
      | none =>
        simp [heapCopyAssign, swapMem, release, owns, hxy, toRes, Bind.bind, M.bind, Pure.pure, M.pure, declare, undeclare, ex, ey, e0, value, construct, St.set, hf0]
        funext z
        by_cases z0 : z = 0
        · simp [z0]
        · by_cases zx : z = x + 1
          · simp [zx]
          · simp [z0, zx]
      | some q =>
        simp [heapCopyAssign, swapMem, release, owns, hxy, toRes, Bind.bind, M.bind, Pure.pure, M.pure, declare, undeclare, destroy, ex, ey, e0, value, construct, St.set, hf0]
        funext z
        by_cases z0 : z = 0
        · simp [z0]
        · by_cases zx : z = x + 1
          · simp [zx]
          · simp [z0, zx]
    · refine m.change ?_ (by simp) fun z => ?_
      · simp
      · by_cases zx : z = x
        · subst zx; right; simp [Vars.set, CellOk]
        · left; simp [Vars.set, zx]

theorem release_ok (m : Sim true s σ) (x : Nat) {v : Option α} (hx : σ x = some v) : ∃ s', release (x + 1) s = some ((), s') ∧ Sim true s' (σ.set x (some none)) := by
  obtain ⟨p, ex, hp⟩ := m.here hx
  cases p with
  | none =>
    refine ⟨s, by simp [release, owns, Bind.bind, M.bind, Pure.pure, M.pure, ex], m.change m.tmp (by simp) fun z => ?_⟩
    by_cases zx : z = x
    · subst zx; right; simp [Vars.set, CellOk, ex]
    · left; simp [Vars.set, zx]
  | some q =>
    refine ⟨{ s.set (x + 1) (some ⟨none, ()⟩) with dead := q.1 :: s.dead }, by simp [release, owns, Bind.bind, M.bind, Pure.pure, M.pure, destroy, ex], m.change (by simp [St.set, m.tmp]) (by simp) fun z => ?_⟩
    by_cases zx : z = x
    · subst zx; right; simp [Vars.set, CellOk, St.set]
    · left; simp [Vars.set, St.set, zx]

theorem transfer_ok (m : Sim true s σ) (x y : Nat) (hxy : x ≠ y) (hx : σ x = some none) {w : Option α} (hy : σ y = some w) :
    ∃ s', transfer (y + 1) (x + 1) s = some ((), s') ∧ Sim true s' ((σ.set x (σ y)).set y (some none)) := by
  obtain ⟨p, ex, hp⟩ := m.here hx
  obtain ⟨q, ey, hq⟩ := m.here hy
  have : p = none := by cases p <;> simp_all
  subst this
  refine ⟨(s.set (x + 1) (some ⟨q, ()⟩)).set (y + 1) (some ⟨none, ()⟩), by simp only [transfer, ex, ey], m.change (by simp [St.set, m.tmp]) (by simp) fun z => ?_⟩
  by_cases zy : z = y
  · subst zy; right; simp [Vars.set, CellOk, St.set]
  · by_cases zx : z = x
    · subst zx; right; simp [Vars.set, CellOk, St.set, zy, hy, hq]
    · left; simp [Vars.set, St.set, zx, zy]

theorem swapMem_ok (m : Sim true s σ) (x y : Nat) (hxy : x ≠ y) {v w : Option α} (hx : σ x = some v) (hy : σ y = some w) :
    ∃ s', swapMem (x + 1) (y + 1) s = some ((), s') ∧ Sim true s' ((σ.set x (σ y)).set y (σ x)) := by
  obtain ⟨p, ex, hp⟩ := m.here hx
  obtain ⟨q, ey, hq⟩ := m.here hy
  refine ⟨(s.set (x + 1) (some ⟨q, ()⟩)).set (y + 1) (some ⟨p, ()⟩), by simp only [swapMem, ex, ey], m.change (by simp [St.set, m.tmp]) (by simp) fun z => ?_⟩
  by_cases zy : z = y
  · subst zy; right; simp [Vars.set, CellOk, St.set, hx, hp]
  · by_cases zx : z = x
    · subst zx; right; simp [Vars.set, CellOk, St.set, zy, hy, hq]
    · left; simp [Vars.set, St.set, zx, zy]

theorem undeclare_ok (m : Sim heap s σ) (x : Nat) (ex : s.vars (x + 1) = some ⟨none, ()⟩) : ∃ s', undeclare (x + 1) s = some ((), s') ∧ Sim heap s' (σ.set x none) := by
  refine ⟨s.set (x + 1) none, by simp only [undeclare, ex], m.change (by simp [St.set, m.tmp]) (set_full m.full x (by simp)) fun z => ?_⟩
  by_cases zx : z = x
  · subst zx; right; simp [Vars.set, CellOk, St.set]
  · left; simp [Vars.set, St.set, zx]

theorem set_set (σ : Vars α) (x : Nat) (v w : Option (Option α)) : (σ.set x v).set x w = σ.set x w := by
  funext y; simp only [Vars.set]; split <;> rfl

theorem set_self {x : Nat} {v : Option (Option α)} (h : σ x = v) : σ.set x v = σ := by
  funext y; simp only [Vars.set]; split
  · next e => rw [e, h]
  · rfl

theorem declare_ok (m : Sim true s σ) (x : Nat) (hx : σ x = none) : ∃ s', declare (x + 1) () s = some ((), s') ∧ Sim true s' (σ.set x (some none)) := by
  refine ⟨s.set (x + 1) (some ⟨none, ()⟩), by simp only [declare, m.gone hx], m.change (by simp [St.set, m.tmp]) (by simp) fun z => ?_⟩
  by_cases zx : z = x
  · subst zx; right; simp [Vars.set, CellOk, St.set]
  · left; simp [Vars.set, St.set, zx]

theorem isSome_iff {β : Type} {o : Option β} (h : o.isSome = true) : ∃ v, o = some v := Option.isSome_iff_exists.1 h

/-- Every statement does what the specification says. -/
theorem step_ok (m : Sim heap s σ) (fail : Option Nat) (op : Op α) {r : Res α} {σ' : Vars α} (h : spec heap σ fail op = some (r, σ')) :
    ∃ s', step heap fail op s = some (r, s') ∧ Sim heap s' σ' := by
  simp only [spec] at h
  have hstep : step heap fail op s = if scopeOk σ op then (if heap then heapStep fail op else stackStep fail op) s else some (.skipped, s) := by
    simp only [step]
    rw [bind_some (m.inScope op)]
    by_cases hs : scopeOk σ op = true
    · rw [if_pos hs, if_pos hs]
    · rw [if_neg hs, if_neg hs]; rfl
  rw [hstep]
  by_cases hs : scopeOk σ op = true
  · rw [if_pos hs] at h ⊢
    cases op with
    | new x =>
      simp only [scopeOk, Bool.not_eq_true', Option.isSome_eq_false_iff, Option.isNone_iff_eq_none] at hs
      cases heap with
      | false => simp at h
      | true =>
        simp only [if_true, Option.some.injEq, Prod.mk.injEq] at h
        obtain ⟨rfl, rfl⟩ := h
        obtain ⟨s', h1, h2⟩ := declare_ok m x hs
        exact ⟨s', by simp only [if_true, heapStep]; rw [bind_some h1]; rfl, h2⟩
    | newVal x a =>
      simp only [scopeOk, Bool.not_eq_true', Option.isSome_eq_false_iff, Option.isNone_iff_eq_none] at hs
      obtain ⟨s', h1, h2⟩ := stackNew_ok m fail x a hs h
      refine ⟨s', ?_, h2⟩
      cases heap <;> exact h1
    | newCopy x y =>
      simp only [scopeOk, Bool.and_eq_true, Bool.not_eq_true', Option.isSome_eq_false_iff, Option.isNone_iff_eq_none] at hs
      obtain ⟨w, hw⟩ := isSome_iff hs.2
      simp only [hw] at h
      cases w with
      | none => simp at h
      | some a =>
        obtain ⟨s', h1, h2⟩ := stackNew_ok m fail x a hs.1 h
        obtain ⟨j, ey⟩ := m.here' hw
        have hv : value (y + 1) s = some (a, s) := by simp only [value, ey]
        refine ⟨s', ?_, h2⟩
        cases heap
        · simp only [Bool.false_eq_true, if_false, stackStep]; rw [bind_some hv]; exact h1
        · simp only [if_true, heapStep]; rw [bind_some hv]; exact h1
    | newMove x y =>
      simp only [scopeOk, Bool.and_eq_true, Bool.not_eq_true', Option.isSome_eq_false_iff, Option.isNone_iff_eq_none] at hs
      obtain ⟨w, hw⟩ := isSome_iff hs.2
      have hxy : x ≠ y := fun e => by subst e; rw [hs.1] at hw; simp at hw
      cases heap with
      | false =>
        simp only [Bool.false_eq_true, if_false, hw] at h
        cases w with
        | none => simp at h
        | some a =>
          obtain ⟨s', h1, h2⟩ := stackNew_ok m fail x a hs.1 h
          obtain ⟨j, ey⟩ := m.here' hw
          have hv : value (y + 1) s = some (a, s) := by simp only [value, ey]
          exact ⟨s', by simp only [Bool.false_eq_true, if_false, stackStep]; rw [bind_some hv]; exact h1, h2⟩
      | true =>
        simp only [if_true, Option.some.injEq, Prod.mk.injEq] at h
        obtain ⟨rfl, rfl⟩ := h
        obtain ⟨s1, h1, m1⟩ := declare_ok m x hs.1
        have hyx : ¬ y = x := fun e => hxy e.symm
        obtain ⟨s2, h2, m2⟩ := transfer_ok m1 x y hxy (by simp [Vars.set]) (by simp only [Vars.set, hyx, if_false]; exact hw)
        refine ⟨s2, by simp only [if_true, heapStep]; rw [bind_some h1, bind_some h2]; rfl, ?_⟩
        have hy' : (σ.set x (some none)) y = σ y := by simp [Vars.set, hyx]
        rw [hy', set_set] at m2
        exact m2
    | del x =>
      simp only [scopeOk] at hs
      obtain ⟨v, hv⟩ := isSome_iff hs
      simp only [Option.some.injEq, Prod.mk.injEq] at h
      obtain ⟨rfl, rfl⟩ := h
      cases heap with
      | false =>
        cases v with
        | none => exact absurd hv (m.full rfl x)
        | some a =>
          obtain ⟨i, ex⟩ := m.here' hv
          refine ⟨⟨fun z => if z = x + 1 then none else s.vars z, s.next, i :: s.dead⟩, ?_, m.change (by simp [m.tmp]) (set_full m.full x (by simp)) fun z => ?_⟩
          · simp [stackStep, destroy, undeclare, Bind.bind, M.bind, Pure.pure, M.pure, ex, St.set]
            funext z; split <;> rfl
          · by_cases zx : z = x
            · subst zx; right; simp [Vars.set, CellOk]
            · left; simp [Vars.set, zx]
      | true =>
        obtain ⟨s1, h1, m1⟩ := release_ok m x hv
        obtain ⟨p, ex, hp⟩ := m1.here (x := x) (v := none) (by simp [Vars.set])
        have : p = none := by cases p <;> simp_all
        subst this
        obtain ⟨s2, h2, m2⟩ := undeclare_ok m1 x ex
        refine ⟨s2, by simp only [if_true, heapStep]; rw [bind_some h1, bind_some h2]; rfl, ?_⟩
        rw [set_set] at m2
        exact m2
    | copyAssign x y =>
      simp only [scopeOk, Bool.and_eq_true] at hs
      obtain ⟨v, hv⟩ := isSome_iff hs.1
      obtain ⟨w, hw⟩ := isSome_iff hs.2
      by_cases hxy : x = y
      · simp only [if_pos hxy, Option.some.injEq, Prod.mk.injEq] at h
        obtain ⟨rfl, rfl⟩ := h
        refine ⟨s, ?_, m⟩
        cases heap <;> simp [heapStep, stackStep, heapCopyAssign, stackAssign, toRes, hxy, Bind.bind, M.bind, Pure.pure, M.pure]
      · simp only [if_neg hxy, hw] at h
        cases w with
        | none => simp at h
        | some b =>
          cases heap with
          | false => exact stackAssign_ok m fail x y hxy hv hw h
          | true => exact heapCopyAssign_ok m fail x y hxy hv hw h
    | moveAssign x y =>
      simp only [scopeOk, Bool.and_eq_true] at hs
      obtain ⟨v, hv⟩ := isSome_iff hs.1
      obtain ⟨w, hw⟩ := isSome_iff hs.2
      by_cases hxy : x = y
      · simp only [if_pos hxy, Option.some.injEq, Prod.mk.injEq] at h
        obtain ⟨rfl, rfl⟩ := h
        refine ⟨s, ?_, m⟩
        cases heap <;> simp [heapStep, stackStep, stackAssign, toRes, hxy, Bind.bind, M.bind, Pure.pure, M.pure]
      · simp only [if_neg hxy] at h
        cases heap with
        | false =>
          simp only [Bool.false_eq_true, if_false, hw] at h
          cases w with
          | none => simp at h
          | some b => exact stackAssign_ok m fail x y hxy hv hw h
        | true =>
          simp only [if_true, Option.some.injEq, Prod.mk.injEq] at h
          obtain ⟨rfl, rfl⟩ := h
          obtain ⟨s1, h1, m1⟩ := release_ok m x hv
          have hyx : ¬ y = x := fun e => hxy e.symm
          obtain ⟨s2, h2, m2⟩ := transfer_ok m1 x y hxy (by simp [Vars.set]) (by simp only [Vars.set, hyx, if_false]; exact hw)
          refine ⟨s2, by simp only [if_true, heapStep, if_neg hxy]; rw [bind_some h1, bind_some h2]; rfl, ?_⟩
          have hy' : (σ.set x (some none)) y = σ y := by simp [Vars.set, hyx]
          rw [hy', set_set] at m2
          exact m2
    | swap x y =>
      simp only [scopeOk, Bool.and_eq_true] at hs
      obtain ⟨v, hv⟩ := isSome_iff hs.1
      obtain ⟨w, hw⟩ := isSome_iff hs.2
      by_cases hxy : x = y
      · simp only [if_pos hxy, Option.some.injEq, Prod.mk.injEq] at h
        obtain ⟨rfl, rfl⟩ := h
        refine ⟨s, ?_, m⟩
        cases heap <;> simp [heapStep, stackStep, stackSwap, toRes, hxy, Bind.bind, M.bind, Pure.pure, M.pure]
      · simp only [if_neg hxy] at h
        cases heap with
        | false =>
          simp only [Bool.false_eq_true, if_false] at h
          by_cases h12 : fail = some 1 ∨ fail = some 2
          · exfalso
            have : ¬ fail = some 0 := by rcases h12 with h | h <;> simp [h]
            simp [this, h12] at h
          · rw [not_or] at h12
            obtain ⟨s', h1, h2⟩ := stackSwap_ok m fail x y hxy hv hw h12.1 h12.2
            by_cases h0 : fail = some 0
            · simp only [if_pos h0, Option.some.injEq, Prod.mk.injEq] at h
              obtain ⟨rfl, rfl⟩ := h
              simp only [if_pos h0] at h1 h2
              exact ⟨s', h1, h2⟩
            · simp only [if_neg h0, h12.1, h12.2, or_self, if_false, Option.some.injEq, Prod.mk.injEq] at h
              obtain ⟨rfl, rfl⟩ := h
              simp only [if_neg h0] at h1 h2
              exact ⟨s', h1, h2⟩
        | true =>
          simp only [if_true, Option.some.injEq, Prod.mk.injEq] at h
          obtain ⟨rfl, rfl⟩ := h
          obtain ⟨s1, h1, m1⟩ := swapMem_ok m x y hxy hv hw
          exact ⟨s1, by simp only [if_true, heapStep, if_neg hxy]; rw [bind_some h1]; rfl, m1⟩
    | get x =>
      simp only [scopeOk] at hs
      obtain ⟨v, hv⟩ := isSome_iff hs
      simp only [hv] at h
      cases v with
      | none => simp at h
      | some a =>
        simp only [Option.some.injEq, Prod.mk.injEq] at h
        obtain ⟨rfl, rfl⟩ := h
        obtain ⟨i, ex⟩ := m.here' hv
        have hv : value (x + 1) s = some (a, s) := by simp only [value, ex]
        refine ⟨s, ?_, m⟩
        cases heap
        · simp only [Bool.false_eq_true, if_false, stackStep]; rw [bind_some hv]; rfl
        · simp only [if_true, heapStep]; rw [bind_some hv]; rfl
    | set x a =>
      simp only [scopeOk] at hs
      obtain ⟨v, hv⟩ := isSome_iff hs
      simp only [hv] at h
      cases v with
      | none => simp at h
      | some b =>
        simp only [Option.some.injEq, Prod.mk.injEq] at h
        obtain ⟨rfl, rfl⟩ := h
        obtain ⟨i, ex⟩ := m.here' hv
        have hv : Cells.store (x + 1) a s = some ((), s.set (x + 1) (some ⟨some (i, a), ()⟩)) := by simp only [Cells.store, ex]
        refine ⟨s.set (x + 1) (some ⟨some (i, a), ()⟩), ?_, m.change (by simp [St.set, m.tmp]) (set_full m.full x (by simp)) fun z => ?_⟩
        · cases heap
          · simp only [Bool.false_eq_true, if_false, stackStep]; rw [bind_some hv]; rfl
          · simp only [if_true, heapStep]; rw [bind_some hv]; rfl
        · by_cases zx : z = x
          · subst zx; right; simp [Vars.set, CellOk, St.set]
          · left; simp [Vars.set, St.set, zx]
    | isNull x =>
      simp only [scopeOk] at hs
      obtain ⟨v, hv⟩ := isSome_iff hs
      simp only [hv, Option.some.injEq, Prod.mk.injEq] at h
      obtain ⟨rfl, rfl⟩ := h
      cases heap with
      | false =>
        cases v with
        | none => exact absurd hv (m.full rfl x)
        | some a => exact ⟨s, rfl, m⟩
      | true =>
        obtain ⟨p, ex, hp⟩ := m.here hv
        refine ⟨s, ?_, m⟩
        have ho : owns (x + 1) s = some (p.isSome, s) := by simp only [owns, ex]
        simp only [if_true, heapStep]
        rw [bind_some ho, ← hp]
        cases p <;> rfl
  · rw [if_neg hs] at h ⊢
    simp only [Option.some.injEq, Prod.mk.injEq] at h
    obtain ⟨rfl, rfl⟩ := h
    exact ⟨s, rfl, m⟩

theorem run_ok : ∀ (ops : List (Op α × Option Nat)) {s : St Unit α} {σ : Vars α} {rs : List (Res α)} {σ' : Vars α}, Sim heap s σ → specRun heap σ ops = some (rs, σ') →
    ∃ s', run heap ops s = some (rs, s') ∧ Sim heap s' σ'
  | [], s, σ, rs, σ', m, h => by
    simp only [specRun, Option.some.injEq, Prod.mk.injEq] at h
    obtain ⟨rfl, rfl⟩ := h
    exact ⟨s, rfl, m⟩
  | (op, fail) :: ops, s, σ, rs, σ', m, h => by
    simp only [specRun] at h
    cases h1 : spec heap σ fail op with
    | none => rw [h1] at h; simp at h
    | some p =>
      obtain ⟨r, σ1⟩ := p
      rw [h1] at h
      simp only at h
      cases h2 : specRun heap σ1 ops with
      | none => rw [h2] at h; simp at h
      | some q =>
        obtain ⟨rs1, σ2⟩ := q
        rw [h2] at h
        simp only [Option.some.injEq, Prod.mk.injEq] at h
        obtain ⟨rfl, rfl⟩ := h
        obtain ⟨s1, e1, m1⟩ := step_ok m fail op h1
        obtain ⟨s2, e2, m2⟩ := run_ok ops m1 h2
        refine ⟨s2, ?_, m2⟩
        simp only [run]
        rw [bind_some e1, bind_some e2]
        rfl

/-! ## Lifetimes -/

theorem Ledger.perm {s s' : St Unit α} (l : Ledger s) (f : Nat → Nat) (hf : ∀ x, f (f x) = x) (hn : s'.next = s.next) (hd : s'.dead = s.dead) (hh : ∀ x, held s' x = held s (f x)) : Ledger s' := by
  refine ⟨by rw [hd]; exact l.once, by rw [hn, hd]; exact l.born, ?_, ?_, ?_⟩
  · intro x id h; rw [hh] at h; rw [hn, hd]; exact l.live _ id h
  · intro x y id h1 h2; rw [hh] at h1 h2
    have := congrArg f (l.inj _ _ id h1 h2)
    rwa [hf, hf] at this
  · intro id h; rw [hn] at h; rw [hd]
    rcases l.cover id h with h | ⟨x, h⟩
    · exact .inl h
    · exact .inr ⟨f x, by rw [hh, hf]; exact h⟩

theorem Keeps.swapMem (x y : Nat) : Keeps (swapMem x y : MS α Unit) := by
  intro s u s' l e
  simp only [Storage.swapMem] at e
  split at e
  · next m i k j hx hy =>
    simp only [Option.some.injEq, Prod.mk.injEq, true_and] at e
    subst e
    refine Ledger.perm l (fun z => if z = y then x else if z = x then y else z) ?_ rfl rfl fun z => ?_
    · intro z
      by_cases zy : z = y
      · by_cases xy : x = y <;> simp [zy, xy]
      · by_cases zx : z = x
        · subst zx; simp [zy]
        · simp [zy, zx]
    · rw [held_set]
      by_cases zy : z = y
      · simp only [if_pos zy]; rw [held_of hx]
      · simp only [if_neg zy]
        rw [held_set]
        by_cases zx : z = x
        · simp only [if_pos zx]; rw [held_of hy]
        · simp only [if_neg zx]
  · cases e

theorem Keeps.transfer (y x : Nat) : Keeps (transfer y x : MS α Unit) := by
  intro s u s' l e
  refine Keeps.swapMem x y s u s' l ?_
  simp only [Storage.transfer] at e
  split at e
  · next i m j hx hy => simp only [Storage.swapMem, hx, hy]; exact e
  · cases e

theorem Keeps.owns (x : Nat) : Keeps (owns x : MS α Bool) := by
  intro s u s' l e
  simp only [Storage.owns] at e
  split at e
  · simp at e; exact e.2 ▸ l
  · cases e

theorem Keeps.release (x : Nat) : Keeps (release x : MS α Unit) :=
  (Keeps.owns x).bind fun _ => (Keeps.destroy x).ite (Keeps.pure ())

theorem Keeps.stackNew (x : Nat) (a : α) (fail : Option Nat) : Keeps (stackNew x a fail) :=
  (Keeps.declare _ _).bind fun _ => (Keeps.construct _ _ _).bind fun _ => (Keeps.pure _).ite ((Keeps.undeclare _).bind fun _ => Keeps.pure _)

theorem Keeps.stackAssign (x y : Nat) (fail : Option Nat) : Keeps (stackAssign x y fail : MS α Bool) :=
  (Keeps.pure _).ite ((Keeps.destroy _).bind fun _ => (Keeps.value _).bind fun _ => Keeps.construct _ _ _)

theorem Keeps.stackSwap (x y : Nat) (fail : Option Nat) : Keeps (stackSwap x y fail : MS α Bool) :=
  (Keeps.pure _).ite ((Keeps.value _).bind fun _ => (Keeps.declare _ _).bind fun _ => (Keeps.construct _ _ _).bind fun _ =>
    ((Keeps.destroy _).bind fun _ => (Keeps.value _).bind fun _ => (Keeps.construct _ _ _).bind fun _ =>
      ((Keeps.destroy _).bind fun _ => (Keeps.value _).bind fun _ => (Keeps.construct _ _ _).bind fun _ => (Keeps.destroy _).bind fun _ => (Keeps.undeclare _).bind fun _ => Keeps.pure _).ite
      ((Keeps.destroy _).bind fun _ => (Keeps.undeclare _).bind fun _ => Keeps.pure _)).ite
    ((Keeps.undeclare _).bind fun _ => Keeps.pure _))

theorem Keeps.heapCopyAssign (x y : Nat) (fail : Option Nat) : Keeps (heapCopyAssign x y fail : MS α Bool) :=
  (Keeps.pure _).ite ((Keeps.value _).bind fun _ => (Keeps.declare _ _).bind fun _ => (Keeps.construct _ _ _).bind fun _ =>
    ((Keeps.swapMem _ _).bind fun _ => (Keeps.release _).bind fun _ => (Keeps.undeclare _).bind fun _ => Keeps.pure _).ite
    ((Keeps.undeclare _).bind fun _ => Keeps.pure _))

theorem step_keeps (heap : Bool) (fail : Option Nat) (op : Op α) : Keeps (step heap fail op) := by
  have hs : Keeps (inScope op) := by
    cases op <;> first
      | exact (Keeps.alive _).bind fun _ => Keeps.pure _
      | exact (Keeps.alive _).bind fun _ => (Keeps.alive _).bind fun _ => Keeps.pure _
      | exact Keeps.alive _
  refine hs.bind fun _ => Keeps.ite (Keeps.ite ?_ ?_) (Keeps.pure _)
  · cases op with
    | new x => exact (Keeps.declare _ _).bind fun _ => Keeps.pure _
    | newVal x a => exact Keeps.stackNew _ _ _
    | newCopy x y => exact (Keeps.value _).bind fun _ => Keeps.stackNew _ _ _
    | newMove x y => exact (Keeps.declare _ _).bind fun _ => (Keeps.transfer _ _).bind fun _ => Keeps.pure _
    | del x => exact (Keeps.release _).bind fun _ => (Keeps.undeclare _).bind fun _ => Keeps.pure _
    | copyAssign x y => exact (Keeps.heapCopyAssign _ _ _).bind fun _ => Keeps.pure _
    | moveAssign x y => exact (Keeps.pure _).ite ((Keeps.release _).bind fun _ => (Keeps.transfer _ _).bind fun _ => Keeps.pure _)
    | swap x y => exact (Keeps.pure _).ite ((Keeps.swapMem _ _).bind fun _ => Keeps.pure _)
    | get x => exact (Keeps.value _).bind fun _ => Keeps.pure _
    | set x a => exact (Keeps.store _ _).bind fun _ => Keeps.pure _
    | isNull x => exact (Keeps.owns _).bind fun _ => Keeps.pure _
  · cases op with
    | new x => exact (Keeps.declare _ _).bind fun _ => Keeps.pure _
    | newVal x a => exact Keeps.stackNew _ _ _
    | newCopy x y => exact (Keeps.value _).bind fun _ => Keeps.stackNew _ _ _
    | newMove x y => exact (Keeps.value _).bind fun _ => Keeps.stackNew _ _ _
    | del x => exact (Keeps.destroy _).bind fun _ => (Keeps.undeclare _).bind fun _ => Keeps.pure _
    | copyAssign x y => exact (Keeps.stackAssign _ _ _).bind fun _ => Keeps.pure _
    | moveAssign x y => exact (Keeps.stackAssign _ _ _).bind fun _ => Keeps.pure _
    | swap x y => exact (Keeps.stackSwap _ _ _).bind fun _ => Keeps.pure _
    | get x => exact (Keeps.value _).bind fun _ => Keeps.pure _
    | set x a => exact (Keeps.store _ _).bind fun _ => Keeps.pure _
    | isNull x => exact Keeps.pure _

theorem run_keeps (heap : Bool) : ∀ ops : List (Op α × Option Nat), Keeps (run heap ops)
  | [] => Keeps.pure _
  | (_, _) :: ops => (step_keeps heap _ _).bind fun _ => (run_keeps heap ops).bind fun _ => Keeps.pure _

/-! ## C64 -/

/-- the initial contents: no variable is in scope -/
def nothing : Vars α := fun _ => none

theorem sim_init : Sim heap (St.init : St Unit α) nothing := ⟨rfl, fun _ => trivial, fun _ _ h => by simp [nothing] at h⟩

/-- A program behaves as the specification says, wherever that has an answer: it has no undefined behaviour, its results are those of the specification, and after it every variable in scope holds
what the specification says; an object was destroyed exactly once, or is alive in exactly one variable. -/
theorem C64_partial (heap : Bool) (ops : List (Op α × Option Nat)) {rs : List (Res α)} {σ : Vars α} (h : specRun heap nothing ops = some (rs, σ)) :
    ∃ s, run heap ops St.init = some (rs, s) ∧ (∀ x, ((s.vars (x + 1)).map (fun c => c.mem.map Prod.snd)) = σ x) ∧ Ledger s := by
  obtain ⟨s, h1, m⟩ := run_ok ops sim_init h
  refine ⟨s, h1, fun x => ?_, run_keeps heap ops _ _ _ ledger_init h1⟩
  have := m.cell x
  cases e : s.vars (x + 1) with
  | none =>
    rw [e] at this
    cases hx : σ x with
    | none => rfl
    | some v => rw [hx] at this; cases this
  | some c =>
    rw [e] at this
    cases hx : σ x with
    | none => rw [hx] at this; cases this
    | some v => rw [hx] at this; exact congrArg some this

/-- On the heap there is an answer for every program that does not copy or dereference an empty storage; it is not affected by exceptions, which leave all variables as they were. -/
theorem C64_heap_answer (σ : Vars α) (fail : Option Nat) (op : Op α)
    (h : ∀ x, (op = .get x ∨ (∃ a, op = .set x a) ∨ (∃ y, op = .newCopy y x) ∨ (∃ y, op = .copyAssign y x ∧ y ≠ x)) → σ x ≠ some none) :
    ∃ r σ', spec true σ fail op = some (r, σ') ∧ (r = .threw → σ' = σ) := by
  simp only [spec]
  by_cases hs : scopeOk σ op = true
  · rw [if_pos hs]
    have get : ∀ x, (σ x).isSome = true → σ x ≠ some none → ∃ a, σ x = some (some a) := by
      intro x h1 h2
      cases e : σ x with
      | none => rw [e] at h1; simp at h1
      | some v =>
        cases v with
        | none => exact absurd e h2
        | some a => exact ⟨a, rfl⟩
    cases op with
    | new x => exact ⟨_, _, rfl, by simp⟩
    | newVal x a => simp only [specNew]; split <;> exact ⟨_, _, rfl, by simp⟩
    | newCopy x y =>
      simp only [scopeOk, Bool.and_eq_true] at hs
      obtain ⟨a, ha⟩ := get y hs.2 (h y (by simp))
      simp only [ha, specNew]; split <;> exact ⟨_, _, rfl, by simp⟩
    | newMove x y => exact ⟨_, _, rfl, by simp⟩
    | del x => exact ⟨_, _, rfl, by simp⟩
    | copyAssign x y =>
      simp only [scopeOk, Bool.and_eq_true] at hs
      by_cases hxy : x = y
      · simp only [if_pos hxy]; exact ⟨_, _, rfl, by simp⟩
      · simp only [if_neg hxy]
        obtain ⟨a, ha⟩ := get y hs.2 (h y (by simp [hxy]))
        simp only [ha, specAssign]; split <;> exact ⟨_, _, rfl, by simp⟩
    | moveAssign x y => simp only; split <;> exact ⟨_, _, rfl, by simp⟩
    | swap x y => simp only; split <;> exact ⟨_, _, rfl, by simp⟩
    | get x =>
      obtain ⟨a, ha⟩ := get x hs (h x (by simp))
      simp only [ha]; exact ⟨_, _, rfl, by simp⟩
    | set x a =>
      obtain ⟨a, ha⟩ := get x hs (h x (by simp))
      simp only [ha]; exact ⟨_, _, rfl, by simp⟩
    | isNull x =>
      obtain ⟨v, hv⟩ := isSome_iff (show (σ x).isSome = true from hs)
      simp only [hv]; exact ⟨_, _, rfl, by simp⟩
  · rw [if_neg hs]; exact ⟨_, _, rfl, by simp⟩

/-- The statements that look the same on stack and heap: no default construction, no test for null, no exception. -/
def Common : Op α × Option Nat → Prop
  | (.new _, _) => False
  | (.isNull _, _) => False
  | (_, fail) => fail = none

/-- What is known of the stack from the heap: the same values, and any value instead of nothing. -/
def Covers (σ τ : Vars α) : Prop := ∀ x, match σ x with | none => τ x = none | some none => ∃ b, τ x = some (some b) | some (some a) => τ x = some (some a)

theorem Covers.scope {σ τ : Vars α} (c : Covers σ τ) (op : Op α) : scopeOk τ op = scopeOk σ op := by
  have : ∀ x, (τ x).isSome = (σ x).isSome := by
    intro x
    have := c x
    cases e : σ x with
    | none => rw [e] at this; simp only at this; rw [this]
    | some v =>
      rw [e] at this
      cases v with
      | none => simp only at this; obtain ⟨b, hb⟩ := this; rw [hb]; rfl
      | some a => simp only at this; rw [this]
  cases op <;> simp only [scopeOk, this]

theorem Covers.here {σ τ : Vars α} (c : Covers σ τ) {x : Nat} {v : Option α} (h : σ x = some v) : ∃ b, τ x = some (some b) ∧ ∀ a, v = some a → b = a := by
  have := c x
  rw [h] at this
  cases v with
  | none => obtain ⟨b, hb⟩ := this; exact ⟨b, hb, by simp⟩
  | some a => exact ⟨a, this, by simp⟩

theorem Covers.set {σ τ : Vars α} (c : Covers σ τ) (x : Nat) (a : α) {v : Option α} (hv : ∀ b, v = some b → a = b) : Covers (σ.set x (some v)) (τ.set x (some (some a))) := by
  intro y
  by_cases h : y = x
  · simp only [Vars.set, if_pos h]
    cases v with
    | none => exact ⟨a, rfl⟩
    | some b => simp only; rw [hv b rfl]
  · simp only [Vars.set, if_neg h]; exact c y

theorem Covers.unset {σ τ : Vars α} (c : Covers σ τ) (x : Nat) : Covers (σ.set x none) (τ.set x none) := by
  intro y
  by_cases h : y = x
  · simp only [Vars.set, if_pos h]
  · simp only [Vars.set, if_neg h]; exact c y

theorem common_step {σ τ : Vars α} (c : Covers σ τ) (op : Op α) (fail : Option Nat) (hc : Common (op, fail)) {r : Res α} {σ' : Vars α} (h : spec true σ fail op = some (r, σ')) :
    ∃ τ', spec false τ fail op = some (r, τ') ∧ Covers σ' τ' := by
  have hf : fail = none := by cases op <;> first | exact hc | exact hc.elim
  subst hf
  simp only [spec, c.scope op] at h ⊢
  by_cases hs : scopeOk σ op = true
  · rw [if_pos hs] at h ⊢
    cases op with
    | new x => exact hc.elim
    | isNull x => exact hc.elim
    | newVal x a =>
      simp only [specNew, reduceCtorEq, if_false, Option.some.injEq, Prod.mk.injEq] at h ⊢
      obtain ⟨rfl, rfl⟩ := h
      exact ⟨_, ⟨rfl, rfl⟩, c.set x a (by simp)⟩
    | newCopy x y =>
      simp only [scopeOk, Bool.and_eq_true] at hs
      obtain ⟨w, hw⟩ := isSome_iff hs.2
      obtain ⟨b, hb, hb'⟩ := c.here hw
      simp only [hw, hb, specNew, reduceCtorEq, if_false, Option.some.injEq, Prod.mk.injEq] at h ⊢
      cases w with
      | none => simp at h
      | some a =>
        simp only [Option.some.injEq, Prod.mk.injEq] at h
        obtain ⟨rfl, rfl⟩ := h
        exact ⟨_, ⟨rfl, rfl⟩, c.set x b (by simpa using hb')⟩
    | newMove x y =>
      simp only [scopeOk, Bool.and_eq_true] at hs
      obtain ⟨w, hw⟩ := isSome_iff hs.2
      obtain ⟨b, hb, hb'⟩ := c.here hw
      simp only [hw, hb, specNew, reduceCtorEq, if_true, if_false, Bool.false_eq_true, Option.some.injEq, Prod.mk.injEq] at h ⊢
      obtain ⟨rfl, rfl⟩ := h
      refine ⟨_, ⟨rfl, rfl⟩, ?_⟩
      have h1 := (c.set x b hb').set y b (v := none) (by simp)
      have hxy : ¬ y = x := fun e => by subst e; rw [hw] at hs; simp at hs
      rwa [set_self (x := y) (v := some (some b)) (by simp [Vars.set, hxy, hb])] at h1
    | del x =>
      simp only [Option.some.injEq, Prod.mk.injEq] at h ⊢
      obtain ⟨rfl, rfl⟩ := h
      exact ⟨_, ⟨rfl, rfl⟩, c.unset x⟩
    | copyAssign x y =>
      simp only [scopeOk, Bool.and_eq_true] at hs
      by_cases hxy : x = y
      · simp only [if_pos hxy, Option.some.injEq, Prod.mk.injEq] at h ⊢
        obtain ⟨rfl, rfl⟩ := h
        exact ⟨_, ⟨rfl, rfl⟩, c⟩
      · obtain ⟨w, hw⟩ := isSome_iff hs.2
        obtain ⟨b, hb, hb'⟩ := c.here hw
        simp only [if_neg hxy, hw, hb, specAssign, reduceCtorEq, if_false, Option.some.injEq, Prod.mk.injEq] at h ⊢
        cases w with
        | none => simp at h
        | some a =>
          simp only [Option.some.injEq, Prod.mk.injEq] at h
          obtain ⟨rfl, rfl⟩ := h
          exact ⟨_, ⟨rfl, rfl⟩, c.set x b (by simpa using hb')⟩
    | moveAssign x y =>
      simp only [scopeOk, Bool.and_eq_true] at hs
      by_cases hxy : x = y
      · simp only [if_pos hxy, Option.some.injEq, Prod.mk.injEq] at h ⊢
        obtain ⟨rfl, rfl⟩ := h
        exact ⟨_, ⟨rfl, rfl⟩, c⟩
      · obtain ⟨w, hw⟩ := isSome_iff hs.2
        obtain ⟨b, hb, hb'⟩ := c.here hw
        simp only [if_neg hxy, hw, hb, specAssign, reduceCtorEq, if_true, if_false, Bool.false_eq_true, Option.some.injEq, Prod.mk.injEq] at h ⊢
        obtain ⟨rfl, rfl⟩ := h
        refine ⟨_, ⟨rfl, rfl⟩, ?_⟩
        have h1 := (c.set x b hb').set y b (v := none) (by simp)
        have hxy' : ¬ y = x := fun e => hxy e.symm
        rwa [set_self (x := y) (v := some (some b)) (by simp [Vars.set, hxy', hb])] at h1
    | swap x y =>
      simp only [scopeOk, Bool.and_eq_true] at hs
      by_cases hxy : x = y
      · simp only [if_pos hxy, Option.some.injEq, Prod.mk.injEq] at h ⊢
        obtain ⟨rfl, rfl⟩ := h
        exact ⟨_, ⟨rfl, rfl⟩, c⟩
      · obtain ⟨w, hw⟩ := isSome_iff hs.2
        obtain ⟨b, hb, hb'⟩ := c.here hw
        obtain ⟨v, hv⟩ := isSome_iff hs.1
        obtain ⟨a, ha, ha'⟩ := c.here hv
        simp only [if_neg hxy, hw, hb, hv, ha, reduceCtorEq, or_self, if_true, if_false, Bool.false_eq_true, Option.some.injEq, Prod.mk.injEq] at h ⊢
        obtain ⟨rfl, rfl⟩ := h
        exact ⟨_, ⟨rfl, rfl⟩, (c.set x b hb').set y a ha'⟩
    | get x =>
      obtain ⟨v, hv⟩ := isSome_iff (show (σ x).isSome = true from hs)
      obtain ⟨a, ha, ha'⟩ := c.here hv
      simp only [hv, ha] at h ⊢
      cases v with
      | none => simp at h
      | some a' =>
        simp only [Option.some.injEq, Prod.mk.injEq] at h ⊢
        obtain ⟨rfl, rfl⟩ := h
        exact ⟨_, ⟨by rw [ha' _ rfl], rfl⟩, c⟩
    | set x a =>
      obtain ⟨v, hv⟩ := isSome_iff (show (σ x).isSome = true from hs)
      obtain ⟨a0, ha, ha'⟩ := c.here hv
      simp only [hv, ha] at h ⊢
      cases v with
      | none => simp at h
      | some a' =>
        simp only [Option.some.injEq, Prod.mk.injEq] at h ⊢
        obtain ⟨rfl, rfl⟩ := h
        exact ⟨_, ⟨rfl, rfl⟩, c.set x a (by simp)⟩
  · rw [if_neg hs] at h ⊢
    simp only [Option.some.injEq, Prod.mk.injEq] at h
    obtain ⟨rfl, rfl⟩ := h
    exact ⟨τ, rfl, c⟩

/-- A program of statements common to both that is answered for the heap gives the same results on stack and heap: growing or shrinking the type over the limit changes nothing. -/
theorem C64_interchangeable (ops : List (Op α × Option Nat)) (hc : ∀ o ∈ ops, Common o) {rs : List (Res α)} {σ : Vars α} (h : specRun true nothing ops = some (rs, σ)) :
    ∃ s t, run true ops St.init = some (rs, s) ∧ run false ops St.init = some (rs, t) := by
  have gen : ∀ (ops : List (Op α × Option Nat)) (σ0 τ0 : Vars α) (rs : List (Res α)) (σ : Vars α), (∀ o ∈ ops, Common o) → Covers σ0 τ0 → specRun true σ0 ops = some (rs, σ) →
      ∃ τ, specRun false τ0 ops = some (rs, τ) := by
    intro ops
    induction ops with
    | nil => intro σ0 τ0 rs σ _ _ h; simp only [specRun, Option.some.injEq, Prod.mk.injEq] at h; exact ⟨τ0, by rw [← h.1]; rfl⟩
    | cons o ops ih =>
      obtain ⟨op, fail⟩ := o
      intro σ0 τ0 rs σ hc c h
      simp only [specRun] at h ⊢
      cases h1 : spec true σ0 fail op with
      | none => rw [h1] at h; simp at h
      | some p =>
        obtain ⟨r, σ1⟩ := p
        rw [h1] at h
        simp only at h
        obtain ⟨τ1, h2, c1⟩ := common_step c op fail (hc _ (by simp)) h1
        rw [h2]
        simp only
        cases h3 : specRun true σ1 ops with
        | none => rw [h3] at h; simp at h
        | some q =>
          obtain ⟨rs1, σ2⟩ := q
          rw [h3] at h
          simp only [Option.some.injEq, Prod.mk.injEq] at h
          obtain ⟨τ2, h4⟩ := ih σ1 τ1 rs1 σ2 (fun o ho => hc o (by simp [ho])) c1 h3
          rw [h4]
          exact ⟨τ2, by rw [← h.1]⟩
  obtain ⟨τ, h1⟩ := gen ops nothing nothing rs σ hc (fun _ => rfl) h
  obtain ⟨s, hs, -⟩ := C64_partial true ops h
  obtain ⟨t, ht, -⟩ := C64_partial false ops h1
  exact ⟨s, t, hs, ht⟩

/-- When all variables are out of scope, all objects have been destroyed, each once, whatever the program did short of undefined behaviour. -/
theorem C64_lifetimes (heap : Bool) (ops : List (Op α × Option Nat)) {rs : List (Res α)} {s : St Unit α} (h : run heap ops St.init = some (rs, s)) (hs : ∀ x, s.vars x = none) :
    s.dead.Nodup ∧ ∀ id, id ∈ s.dead ↔ id < s.next :=
  (run_keeps heap ops _ _ _ ledger_init h).all hs

/-- non-vacuity -/
def sample : List (Op Nat × Option Nat) := [(.newVal 0 5, none), (.newVal 1 6, none), (.swap 0 1, none), (.get 0, none), (.newMove 2 0, none), (.copyAssign 1 2, none), (.get 1, none), (.del 0, none), (.get 0, none),
  (.moveAssign 1 2, none), (.set 1 9, none), (.newCopy 3 1, none), (.get 3, none)]

example : (∀ o ∈ sample, Common o) ∧ (specRun true nothing sample).map Prod.fst = some [.done, .done, .done, .value 6, .done, .done, .value 6, .done, .skipped, .done, .done, .done, .value 9] := by
  refine ⟨fun o ho => ?_, rfl⟩
  simp only [sample, List.mem_cons, List.not_mem_nil, or_false] at ho
  rcases ho with rfl | rfl | rfl | rfl | rfl | rfl | rfl | rfl | rfl | rfl | rfl | rfl | rfl <;> rfl

/-- A default-constructed storage can be destroyed on the heap, but destroying it on the stack has undefined behaviour. -/
theorem C64_default_violated (x : Nat) : (run true [(.new x, none), (.del x, none)] (St.init : St Unit α)).map Prod.fst = some [.done, .done] ∧
    run false [(.new x, none), (.del x, none)] (St.init : St Unit α) = none := by
  constructor <;> simp [run, step, inScope, heapStep, stackStep, Bind.bind, M.bind, Pure.pure, M.pure, alive, declare, release, owns, undeclare, destroy, St.set, St.init]

/-- On the stack an assignment whose copy throws leaves the variable without an object; its destructor has undefined behaviour. -/
theorem C64_assign_violated : (run false [(.newVal 0 (5 : Nat), none), (.newVal 1 6, none), (.copyAssign 0 1, some 0)] St.init).map Prod.fst = some [.done, .done, .threw] ∧
    run false [(.newVal 0 (5 : Nat), none), (.newVal 1 6, none), (.copyAssign 0 1, some 0), (.del 0, none)] St.init = none := by
  constructor <;> rfl

/-- The same for `swap`. -/
theorem C64_swap_violated : (run false [(.newVal 0 (5 : Nat), none), (.newVal 1 6, none), (.swap 0 1, some 1)] St.init).map Prod.fst = some [.done, .done, .threw] ∧
    run false [(.newVal 0 (5 : Nat), none), (.newVal 1 6, none), (.swap 0 1, some 1), (.del 0, none)] St.init = none := by
  constructor <;> rfl

/-- Copying an empty storage on the heap, one that was moved from or default-constructed, dereferences a null pointer. -/
theorem C64_copy_violated : run true [(.newVal 0 (5 : Nat), none), (.newMove 1 0, none), (.newCopy 2 0, none)] St.init = none ∧
    (run false [(.newVal 0 (5 : Nat), none), (.newMove 1 0, none), (.newCopy 2 0, none)] St.init).map Prod.fst = some [.done, .done, .done] := by
  constructor <;> rfl

end Verif.Storage
