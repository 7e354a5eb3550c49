import Verif.Model.Optional
import Verif.Lemmas.Cells

/-!
# C27: `optional` behaves as an option type; its object is constructed and destroyed exactly once per engagement
-/
set_option autoImplicit false
set_option linter.unusedSectionVars false

namespace Verif.Optional
open Verif.Cells

variable {α : Type}

/-! ## Specification -/

/-- What the variables hold: `none` for a variable that is not in scope. -/
abbrev Vars (α : Type) := Nat → Option (Option α)

def Vars.set (σ : Vars α) (x : Nat) (v : Option (Option α)) : Vars α := fun y => if y = x then v else σ y

/-- What each statement should do; `fail`: what it calls throws. `none`: no answer. This is so for the assignment of an optional to
itself, which the code excludes by a contract, and for one case of `swap` in which the code is wrong. -/
def spec (t : Ty α) (σ : Vars α) (fail : Bool) : Op α → Option (Res α × Vars α)
  | .new x =>
    match σ x with
    | some _ => some (.skipped, σ)
    | none => some (.done, σ.set x (some none))
  | .newVal x a =>
    match σ x with
    | some _ => some (.skipped, σ)
    | none => if fail then some (.threw, σ) else some (.done, σ.set x (some (some a)))
  | .newCopy x y =>
    match σ y, σ x with
    | some none, none => some (.done, σ.set x (some none))
    | some (some a), none => if fail then some (.threw, σ) else some (.done, σ.set x (some (some a)))
    | _, _ => some (.skipped, σ)
  | .newMove x y =>
    match σ y, σ x with
    | some none, none => some (.done, σ.set x (some none))
    | some (some a), none => if fail then some (.threw, σ) else some (.done, (σ.set x (some (some a))).set y (some none))
    | _, _ => some (.skipped, σ)
  | .newMap x y f =>
    match σ y, σ x with
    | some none, none => some (.done, σ.set x (some none))
    | some (some a), none =>
      match (f a).1 with
      | none => some (.threw, σ.set y (some (some (f a).2)))
      | some b =>
        if fail then some (.threw, σ.set y (some (some (f a).2)))
        else some (.done, (σ.set y (some (some (f a).2))).set x (some (some b)))
    | _, _ => some (.skipped, σ)
  | .newFilter x y move p =>
    match σ y, σ x with
    | some none, none => some (.done, σ.set x (some none))
    | some (some a), none =>
      if p a then
        if fail then some (.threw, σ)
        else if move then some (.done, (σ.set x (some (some a))).set y (some none))
        else some (.done, σ.set x (some (some a)))
      else some (.done, σ.set x (some none))
    | _, _ => some (.skipped, σ)
  | .del x =>
    match σ x with
    | none => some (.skipped, σ)
    | some _ => some (.done, σ.set x none)
  | .emplace x a =>
    match σ x with
    | none => some (.skipped, σ)
    | some _ => if fail then some (.threw, σ.set x (some none)) else some (.done, σ.set x (some (some a)))
  | .reset x =>
    match σ x with
    | none => some (.skipped, σ)
    | some _ => some (.done, σ.set x (some none))
  | .copyAssign x y =>
    match σ x, σ y with
    | some v, some w =>
      if x = y then none
      else
        match v, w with
        | _, none => some (.done, σ.set x (some none))
        | none, some b => if fail then some (.threw, σ.set x (some none)) else some (.done, σ.set x (some (some b)))
        | some a, some b => if fail then some (.threw, σ.set x (some (some (t.torn a b)))) else some (.done, σ.set x (some (some b)))
    | _, _ => some (.skipped, σ)
  | .moveAssign x y =>
    match σ x, σ y with
    | some v, some w =>
      if x = y then none
      else
        match v, w with
        | _, none => some (.done, σ.set x (some none))
        | none, some b =>
          if fail then some (.threw, σ.set x (some none)) else some (.done, (σ.set x (some (some b))).set y (some (some (t.moved b))))
        | some a, some b =>
          if fail then some (.threw, σ.set x (some (some (t.torn a b))))
          else some (.done, (σ.set x (some (some b))).set y (some (some (t.moved b))))
    | _, _ => some (.skipped, σ)
  | .swap x y =>
    match σ x, σ y with
    | some none, some none => some (.done, σ)
    | some none, some (some b) => if fail then some (.threw, σ) else some (.done, (σ.set x (some (some b))).set y (some none))
    | some (some _), some none => none
    | some (some a), some (some b) =>
      if fail then some (.threw, (σ.set x (some (some (t.torn a b)))).set y (some (some (t.torn b a))))
      else some (.done, (σ.set x (some (some b))).set y (some (some a)))
    | _, _ => some (.skipped, σ)
  | .get x =>
    match σ x with
    | none => some (.skipped, σ)
    | some none => some (.noValue, σ)
    | some (some a) => some (.value a, σ)
  | .getMove x =>
    match σ x with
    | none => some (.skipped, σ)
    | some none => some (.noValue, σ)
    | some (some a) => if fail then some (.threw, σ) else some (.value a, σ.set x (some (some (t.moved a))))
  | .getOr x d =>
    match σ x with
    | none => some (.skipped, σ)
    | some v => if fail then some (.threw, σ) else some (.value (v.getD d), σ)
  | .getOrMove x d =>
    match σ x with
    | none => some (.skipped, σ)
    | some none => if fail then some (.threw, σ) else some (.value d, σ)
    | some (some a) => if fail then some (.threw, σ) else some (.value a, σ.set x (some (some (t.moved a))))
  | .isEmpty x =>
    match σ x with
    | none => some (.skipped, σ)
    | some v => some (.bool v.isNone, σ)
  | .exists x p =>
    match σ x with
    | none => some (.skipped, σ)
    | some v => some (.bool (v.any p), σ)
  | .visit x f =>
    match σ x with
    | none => some (.skipped, σ)
    | some none => some (.done, σ)
    | some (some a) => some (if fail then .threw else .done, σ.set x (some (some (f a))))

def specRun (t : Ty α) (σ : Vars α) : List (Op α × Bool) → Option (List (Res α) × Vars α)
  | [] => some ([], σ)
  | (op, fail) :: ops =>
    match spec t σ fail op with
    | none => none
    | some (r, σ') =>
      match specRun t σ' ops with
      | none => none
      | some (rs, σ'') => some (r :: rs, σ'')

/-! ## Simulation -/

/-- A variable of the model and what it should hold. -/
def CellOk : Option (Cell Bool α) → Option (Option α) → Prop
  | none, none => True
  | some c, some v => c.info = v.isSome ∧ c.mem.map Prod.snd = v
  | _, _ => False

def Sim (s : St Bool α) (σ : Vars α) : Prop := ∀ x, CellOk (s.vars x) (σ x)

theorem set_self {σ : Vars α} {x : Nat} {v : Option (Option α)} (h : σ x = v) : σ.set x v = σ := by
  funext y; simp only [Vars.set]; split
  · next hy => rw [hy, h]
  · rfl

theorem set_set (σ : Vars α) (x : Nat) (v w : Option (Option α)) : (σ.set x v).set x w = σ.set x w := by
  funext y; simp only [Vars.set]; split <;> rfl

theorem get_same (σ : Vars α) (x : Nat) (v : Option (Option α)) : (σ.set x v) x = v := if_pos rfl

theorem get_other (σ : Vars α) {x y : Nat} (h : y ≠ x) (v : Option (Option α)) : (σ.set x v) y = σ y := if_neg h

theorem set_comm (σ : Vars α) {x y : Nat} (h : y ≠ x) (v w : Option (Option α)) : (σ.set x v).set y w = (σ.set y w).set x v := by
  funext z; simp only [Vars.set]
  by_cases c1 : z = y <;> by_cases c2 : z = x <;> simp_all

section
variable {s : St Bool α} {σ : Vars α} {x : Nat}

theorem Sim.set (m : Sim s σ) {c : Option (Cell Bool α)} {v : Option (Option α)} (h : CellOk c v) {n : Nat} {d : List Nat} :
    Sim ⟨(s.set x c).vars, n, d⟩ (σ.set x v) := by
  intro y
  simp only [St.set, Vars.set]
  split
  · exact h
  · exact m y

theorem Sim.dead (m : Sim s σ) (h : σ x = none) : s.vars x = none := by
  have := m x
  rw [h] at this
  cases hc : s.vars x with
  | none => rfl
  | some c => rw [hc] at this; exact this.elim

theorem Sim.empty (m : Sim s σ) (h : σ x = some none) : s.vars x = some ⟨none, false⟩ := by
  have := m x
  rw [h] at this
  cases hc : s.vars x with
  | none => rw [hc] at this; exact this.elim
  | some c =>
    rw [hc] at this
    obtain ⟨mem, i⟩ := c
    obtain ⟨h1, h2⟩ := this
    have h1 : i = false := h1
    have h2 : mem = none := by simpa using h2
    rw [h1, h2]

theorem Sim.full (m : Sim s σ) {a : α} (h : σ x = some (some a)) : ∃ id, s.vars x = some ⟨some (id, a), true⟩ := by
  have := m x
  rw [h] at this
  cases hc : s.vars x with
  | none => rw [hc] at this; exact this.elim
  | some c =>
    rw [hc] at this
    obtain ⟨mem, i⟩ := c
    obtain ⟨h1, h2⟩ := this
    have h1 : i = true := h1
    cases mem with
    | none => simp at h2
    | some p =>
      obtain ⟨id, b⟩ := p
      have h2 : b = a := by simpa using h2
      exact ⟨id, by subst h2; rw [‹i = true›]⟩

theorem Sim.alive (m : Sim s σ) : alive x s = some ((σ x).isSome, s) := by
  have := m x
  simp only [Cells.alive]
  cases hc : s.vars x <;> cases hs : σ x <;> rw [hc, hs] at this <;> first | rfl | exact this.elim

theorem Sim.info (m : Sim s σ) {v : Option α} (h : σ x = some v) : info x s = some (v.isSome, s) := by
  cases v with
  | none => simp only [Cells.info, m.empty h]; rfl
  | some a => obtain ⟨id, e⟩ := m.full h; simp only [Cells.info, e]; rfl

theorem Sim.value (m : Sim s σ) {a : α} (h : σ x = some (some a)) : value x s = some (a, s) := by
  obtain ⟨id, e⟩ := m.full h; simp only [Cells.value, e]

theorem Sim.store (m : Sim s σ) {a : α} (h : σ x = some (some a)) (b : α) : ∃ s', store x b s = some ((), s') ∧ Sim s' (σ.set x (some (some b))) := by
  obtain ⟨id, e⟩ := m.full h
  exact ⟨_, by simp only [Cells.store, e]; rfl, m.set (c := some ⟨some (id, b), true⟩) (v := some (some b)) ⟨rfl, rfl⟩⟩

theorem Sim.declare (m : Sim s σ) (h : σ x = none) : ∃ s', declare x false s = some ((), s') ∧ Sim s' (σ.set x (some none)) :=
  ⟨_, by simp only [Cells.declare, m.dead h]; rfl, m.set (c := some ⟨none, false⟩) (v := some none) ⟨rfl, rfl⟩⟩

theorem Sim.undeclare (m : Sim s σ) (h : σ x = some none) : ∃ s', undeclare x s = some ((), s') ∧ Sim s' (σ.set x none) :=
  ⟨_, by simp only [Cells.undeclare, m.empty h]; rfl, m.set (c := none) (v := none) trivial⟩

theorem Sim.construct (m : Sim s σ) (h : σ x = some none) (a : α) (fail : Bool) :
    ∃ s', construct_ x a fail s = some (!fail, s') ∧ Sim s' (if fail then σ else σ.set x (some (some a))) := by
  have e0 := m.info h
  have e := m.empty h
  cases fail with
  | true =>
    refine ⟨s, ?_, m⟩
    rw [construct_, bind_some e0]
    simp only [Option.isSome_none, Bool.false_eq_true, if_false]
    rw [bind_some (x := false) (s' := s) (by simp only [Cells.construct, e]; rfl)]; rfl
  | false =>
    refine ⟨⟨fun y => if y = x then some ⟨some (s.next, a), true⟩ else s.vars y, s.next + 1, s.dead⟩, ?_, ?_⟩
    · rw [construct_, bind_some e0]
      simp only [Option.isSome_none, Bool.false_eq_true, if_false]
      rw [bind_some (x := true) (by simp only [Cells.construct, e]; rfl)]
      simp only [if_true]
      rw [bind_some (x := ()) (by simp only [Cells.setInfo, St.set, if_pos]; rfl)]
      simp only [pure_run, Bool.not_false]
      congr 3
      funext y; split <;> rfl
    · exact m.set (c := some ⟨some (s.next, a), true⟩) (v := some (some a)) ⟨rfl, rfl⟩

theorem Sim.destroy (m : Sim s σ) {v : Option α} (h : σ x = some v) : ∃ s', destroy_ x s = some ((), s') ∧ Sim s' (σ.set x (some none)) := by
  have e0 := m.info h
  cases v with
  | none =>
    refine ⟨s, ?_, by rw [set_self h]; exact m⟩
    rw [destroy_, bind_some e0]; rfl
  | some a =>
    obtain ⟨id, e⟩ := m.full h
    refine ⟨⟨fun y => if y = x then some ⟨none, false⟩ else s.vars y, s.next, id :: s.dead⟩, ?_, ?_⟩
    · rw [destroy_, bind_some e0]
      simp only [Option.isSome_some, if_true]
      rw [bind_some (x := ()) (by simp only [Cells.destroy, e]; rfl)]
      simp only [Cells.setInfo, St.set, if_pos]
      congr 3
      funext y; split <;> rfl
    · exact m.set (c := some ⟨none, false⟩) (v := some none) ⟨rfl, rfl⟩

theorem Sim.finish (m : Sim s σ) {v : Option α} (ok : Bool) (h : σ x = some v) (hf : ok = false → v = none) :
    ∃ s', finish x ok s = some (if ok then .done else .threw, s') ∧ Sim s' (if ok then σ else σ.set x none) := by
  cases ok with
  | true => exact ⟨s, rfl, m⟩
  | false =>
    rw [hf rfl] at h
    obtain ⟨s', e, m'⟩ := m.undeclare h
    exact ⟨s', by rw [Optional.finish]; simp only [Bool.false_eq_true, if_false]; rw [bind_some e]; rfl, m'⟩

theorem Sim.assignVal (m : Sim s σ) (t : Ty α) {a : α} (h : σ x = some (some a)) (b : α) (fail : Bool) :
    ∃ s', assignVal t x b fail s = some (!fail, s') ∧ Sim s' (σ.set x (some (some (if fail then t.torn a b else b)))) := by
  cases fail with
  | true =>
    obtain ⟨s', e, m'⟩ := m.store h (t.torn a b)
    exact ⟨s', by rw [Optional.assignVal, bind_some (m.value h)]; simp only [if_true]; rw [bind_some e]; rfl, m'⟩
  | false =>
    obtain ⟨s', e, m'⟩ := m.store h b
    exact ⟨s', by rw [Optional.assignVal, bind_some (m.value h)]; simp only [Bool.false_eq_true, if_false]; rw [bind_some e]; rfl, m'⟩

theorem Sim.copyConstructor (m : Sim s σ) {y : Nat} (hx : σ x = some none) {v : Option α} (hy : σ y = some v) (fail : Bool) :
    ∃ s', copyConstructor x y fail s = some (v.isNone || !fail, s') ∧ Sim s' (if v.isSome && fail then σ else σ.set x (some v)) := by
  cases v with
  | none =>
    obtain ⟨s', e, m'⟩ : ∃ s', setInfo x false s = some ((), s') ∧ Sim s' (σ.set x (some none)) :=
      ⟨_, by simp only [Cells.setInfo, m.empty hx]; rfl, m.set (c := some ⟨none, false⟩) (v := some none) ⟨rfl, rfl⟩⟩
    exact ⟨s', by rw [Optional.copyConstructor, bind_some (m.info hy)]; simp only [Option.isSome_none, Bool.false_eq_true, if_false]; rw [bind_some e]; rfl, m'⟩
  | some a =>
    obtain ⟨s', e, m'⟩ := m.construct hx a fail
    refine ⟨s', ?_, by simpa using m'⟩
    rw [Optional.copyConstructor, bind_some (m.info hy)]
    simp only [Option.isSome_some, if_true]
    rw [bind_some (m.value hy), e]; simp

theorem Sim.moveConstructor (m : Sim s σ) (t : Ty α) {y : Nat} (hx : σ x = some none) {v : Option α} (hy : σ y = some v) (fail : Bool) :
    ∃ s', moveConstructor t x y fail s = some (v.isNone || !fail, s') ∧
      Sim s' (if v.isSome && fail then σ else (σ.set x (some v)).set y (some none)) := by
  cases v with
  | none =>
    obtain ⟨s', e, m'⟩ : ∃ s', setInfo x false s = some ((), s') ∧ Sim s' (σ.set x (some none)) :=
      ⟨_, by simp only [Cells.setInfo, m.empty hx]; rfl, m.set (c := some ⟨none, false⟩) (v := some none) ⟨rfl, rfl⟩⟩
    refine ⟨s', by rw [Optional.moveConstructor, bind_some (m.info hy)]; simp only [Option.isSome_none, Bool.false_eq_true, if_false]; rw [bind_some e]; rfl, ?_⟩
    rw [set_self hx] at m'
    simp only [Option.isSome_none, Bool.false_and, Bool.false_eq_true, if_false]
    rw [set_self hx, set_self hy]; exact m'
  | some a =>
    have hxy : y ≠ x := fun c => by rw [c, hx] at hy; simp at hy
    obtain ⟨s', e, m'⟩ := m.construct hx a fail
    cases fail with
    | true =>
      refine ⟨s', ?_, by simpa using m'⟩
      rw [Optional.moveConstructor, bind_some (m.info hy)]
      simp only [Option.isSome_some, if_true]
      rw [bind_some (m.value hy), bind_some e]; rfl
    | false =>
      simp only [Bool.false_eq_true, if_false] at m'
      have hy' : (σ.set x (some (some a))) y = some (some a) := by rw [get_other _ hxy]; exact hy
      obtain ⟨s2, e2, m2⟩ := m'.store hy' (t.moved a)
      obtain ⟨s3, e3, m3⟩ := m2.destroy (get_same _ _ _)
      rw [set_set] at m3
      refine ⟨s3, ?_, by simpa using m3⟩
      rw [Optional.moveConstructor, bind_some (m.info hy)]
      simp only [Option.isSome_some, if_true]
      rw [bind_some (m.value hy), bind_some e]
      simp only [Bool.not_false, if_true]
      rw [bind_some e2, bind_some e3]; rfl

end

/-- One statement, when the specification gives an answer. -/
theorem step_ok (t : Ty α) {s : St Bool α} {σ : Vars α} (m : Sim s σ) (fail : Bool) (op : Op α) {r : Res α} {σ' : Vars α}
    (hs : spec t σ fail op = some (r, σ')) : ∃ s', step t fail op s = some (r, s') ∧ Sim s' σ' := by
  have al : ∀ x, alive x s = some ((σ x).isSome, s) := fun x => m.alive
  cases op with
  | new x =>
    simp only [spec] at hs
    cases hx : σ x with
    | some v =>
      simp [hx] at hs; obtain ⟨rfl, rfl⟩ := hs
      exact ⟨s, by simp [step, declaring, bind, M.bind, pure, M.pure, al, hx], m⟩
    | none =>
      simp [hx] at hs; obtain ⟨rfl, rfl⟩ := hs
      obtain ⟨s1, e1, m1⟩ := m.declare hx
      exact ⟨s1, by simp [step, declaring, bind, M.bind, pure, M.pure, al, hx, e1], m1⟩
  | newVal x a =>
    simp only [spec] at hs
    cases hx : σ x with
    | some v =>
      simp [hx] at hs; obtain ⟨rfl, rfl⟩ := hs
      exact ⟨s, by simp [step, declaring, bind, M.bind, pure, M.pure, al, hx], m⟩
    | none =>
      obtain ⟨s1, e1, m1⟩ := m.declare hx
      obtain ⟨s2, e2, m2⟩ := m1.construct (get_same _ _ _) a fail
      cases fail with
      | true =>
        simp [hx] at hs; obtain ⟨rfl, rfl⟩ := hs
        obtain ⟨s3, e3, m3⟩ := m2.finish false (get_same _ _ _) (fun _ => rfl)
        refine ⟨s3, by simpa [step, declaring, bind, M.bind, al, hx, e1, e2] using e3, ?_⟩
        have : (σ.set x (some none)).set x none = σ := by rw [set_set, set_self hx]
        simpa [this] using m3
      | false =>
        simp [hx] at hs; obtain ⟨rfl, rfl⟩ := hs
        refine ⟨s2, by simp [step, declaring, bind, M.bind, al, hx, e1, e2]; rfl, by simpa [set_set] using m2⟩
  | newCopy x y =>
    simp only [spec] at hs
    cases hy : σ y with
    | none =>
      simp [hy] at hs; obtain ⟨rfl, rfl⟩ := hs
      exact ⟨s, by simp [step, bind, M.bind, pure, M.pure, al, hy], m⟩
    | some v =>
      cases hx : σ x with
      | some w =>
        simp [hy, hx] at hs; obtain ⟨rfl, rfl⟩ := hs
        exact ⟨s, by simp [step, declaring, bind, M.bind, pure, M.pure, al, hx, hy], m⟩
      | none =>
        have hxy : y ≠ x := fun c => by rw [c, hx] at hy; cases hy
        obtain ⟨s1, e1, m1⟩ := m.declare hx
        obtain ⟨s2, e2, m2⟩ := m1.copyConstructor (get_same _ _ _) (y := y) (v := v) (by rw [get_other _ hxy, hy]) fail
        by_cases hv : v.isSome = true ∧ fail = true
        · obtain ⟨a, rfl⟩ := Option.isSome_iff_exists.mp hv.1
          obtain rfl := hv.2
          simp [hx, hy] at hs; obtain ⟨rfl, rfl⟩ := hs
          simp only [Option.isSome_some, Bool.and_true, if_true] at m2
          obtain ⟨s3, e3, m3⟩ := m2.finish false (get_same _ _ _) (fun _ => rfl)
          refine ⟨s3, by simpa [step, declaring, bind, M.bind, al, hx, hy, e1, e2] using e3, ?_⟩
          have : (σ.set x (some none)).set x none = σ := by rw [set_set, set_self hx]
          simpa [this] using m3
        · have hok : (v.isNone || !fail) = true := by cases v <;> cases fail <;> simp at hv ⊢
          have hok' : (v.isSome && fail) = false := by cases v <;> cases fail <;> simp at hv ⊢
          rw [hok] at e2
          simp only [hok', Bool.false_eq_true, if_false, set_set] at m2
          have hr : r = .done ∧ σ' = σ.set x (some v) := by
            cases v <;> cases fail <;> simp [hx, hy] at hs hv <;> exact ⟨hs.1.symm, hs.2.symm⟩
          obtain ⟨rfl, rfl⟩ := hr
          exact ⟨s2, by simp [step, declaring, bind, M.bind, al, hx, hy, e1, e2]; rfl, m2⟩
  | newMove x y =>
    simp only [spec] at hs
    cases hy : σ y with
    | none =>
      simp [hy] at hs; obtain ⟨rfl, rfl⟩ := hs
      exact ⟨s, by simp [step, bind, M.bind, pure, M.pure, al, hy], m⟩
    | some v =>
      cases hx : σ x with
      | some w =>
        simp [hy, hx] at hs; obtain ⟨rfl, rfl⟩ := hs
        exact ⟨s, by simp [step, declaring, bind, M.bind, pure, M.pure, al, hx, hy], m⟩
      | none =>
        have hxy : y ≠ x := fun c => by rw [c, hx] at hy; cases hy
        obtain ⟨s1, e1, m1⟩ := m.declare hx
        obtain ⟨s2, e2, m2⟩ := m1.moveConstructor t (get_same _ _ _) (y := y) (v := v) (by rw [get_other _ hxy, hy]) fail
        by_cases hv : v.isSome = true ∧ fail = true
        · obtain ⟨a, rfl⟩ := Option.isSome_iff_exists.mp hv.1
          obtain rfl := hv.2
          simp [hx, hy] at hs; obtain ⟨rfl, rfl⟩ := hs
          simp only [Option.isSome_some, Bool.and_true, if_true] at m2
          obtain ⟨s3, e3, m3⟩ := m2.finish false (get_same _ _ _) (fun _ => rfl)
          refine ⟨s3, by simpa [step, declaring, bind, M.bind, al, hx, hy, e1, e2] using e3, ?_⟩
          have : (σ.set x (some none)).set x none = σ := by rw [set_set, set_self hx]
          simpa [this] using m3
        · have hok : (v.isNone || !fail) = true := by cases v <;> cases fail <;> simp at hv ⊢
          have hok' : (v.isSome && fail) = false := by cases v <;> cases fail <;> simp at hv ⊢
          rw [hok] at e2
          simp only [hok', Bool.false_eq_true, if_false, set_set] at m2
          have hr : r = .done ∧ σ' = (σ.set x (some v)).set y (some none) := by
            have h0 : v = none → (σ.set x (some v)).set y (some none) = σ.set x (some none) := by
              rintro rfl
              exact set_self (by rw [get_other _ hxy, hy])
            cases v <;> cases fail <;> simp [hx, hy] at hs hv h0 ⊢ <;> exact ⟨hs.1.symm, by first | rw [h0, hs.2] | rw [hs.2]⟩
          obtain ⟨rfl, rfl⟩ := hr
          exact ⟨s2, by simp [step, declaring, bind, M.bind, al, hx, hy, e1, e2]; rfl, m2⟩
  | newMap x y f =>
    simp only [spec] at hs
    cases hy : σ y with
    | none =>
      simp [hy] at hs; obtain ⟨rfl, rfl⟩ := hs
      exact ⟨s, by simp [step, bind, M.bind, pure, M.pure, al, hy], m⟩
    | some v =>
      cases hx : σ x with
      | some w =>
        simp [hy, hx] at hs; obtain ⟨rfl, rfl⟩ := hs
        exact ⟨s, by simp [step, declaring, bind, M.bind, pure, M.pure, al, hx, hy], m⟩
      | none =>
        have hxy : y ≠ x := fun c => by rw [c, hx] at hy; cases hy
        obtain ⟨s1, e1, m1⟩ := m.declare hx
        have hy1 : (σ.set x (some none)) y = some v := by rw [get_other _ hxy, hy]
        have i1 := m1.info hy1
        cases v with
        | none =>
          simp [hx, hy] at hs; obtain ⟨rfl, rfl⟩ := hs
          exact ⟨s1, by simp [step, declaring, bind, M.bind, al, hx, hy, e1, i1]; rfl, m1⟩
        | some a =>
          have v1 := m1.value hy1
          obtain ⟨s2, e2, m2⟩ := m1.store hy1 (f a).2
          have hx2 : ((σ.set x (some none)).set y (some (some (f a).2))) x = some none := by rw [get_other _ (Ne.symm hxy), get_same]
          have hun : (((σ.set x (some none)).set y (some (some (f a).2))).set x none) = σ.set y (some (some (f a).2)) := by
            rw [set_comm _ hxy, set_set, set_self]; rw [get_other _ (Ne.symm hxy), hx]
          cases hf : (f a).1 with
          | none =>
            simp [hx, hy, hf] at hs; obtain ⟨rfl, rfl⟩ := hs
            obtain ⟨s3, e3, m3⟩ := m2.finish false hx2 (fun _ => rfl)
            refine ⟨s3, by simpa [step, declaring, bind, M.bind, al, hx, hy, e1, i1, v1, e2, hf] using e3, ?_⟩
            simpa [hun] using m3
          | some b =>
            obtain ⟨s3, e3, m3⟩ := m2.construct hx2 b fail
            cases fail with
            | true =>
              simp [hx, hy, hf] at hs; obtain ⟨rfl, rfl⟩ := hs
              obtain ⟨s4, e4, m4⟩ := m3.finish false hx2 (fun _ => rfl)
              refine ⟨s4, by simpa [step, declaring, bind, M.bind, al, hx, hy, e1, i1, v1, e2, hf, e3] using e4, ?_⟩
              simpa [hun] using m4
            | false =>
              simp [hx, hy, hf] at hs; obtain ⟨rfl, rfl⟩ := hs
              refine ⟨s3, by simp [step, declaring, bind, M.bind, al, hx, hy, e1, i1, v1, e2, hf, e3]; rfl, ?_⟩
              have : ((σ.set x (some none)).set y (some (some (f a).2))).set x (some (some b)) = (σ.set y (some (some (f a).2))).set x (some (some b)) := by
                rw [set_comm _ hxy, set_set]
              simpa [this] using m3
  | newFilter x y mv p =>
    simp only [spec] at hs
    cases hy : σ y with
    | none =>
      simp [hy] at hs; obtain ⟨rfl, rfl⟩ := hs
      exact ⟨s, by simp [step, bind, M.bind, pure, M.pure, al, hy], m⟩
    | some v =>
      cases hx : σ x with
      | some w =>
        simp [hy, hx] at hs; obtain ⟨rfl, rfl⟩ := hs
        exact ⟨s, by simp [step, declaring, bind, M.bind, pure, M.pure, al, hx, hy], m⟩
      | none =>
        have hxy : y ≠ x := fun c => by rw [c, hx] at hy; cases hy
        obtain ⟨s1, e1, m1⟩ := m.declare hx
        have hy1 : (σ.set x (some none)) y = some v := by rw [get_other _ hxy, hy]
        have i1 := m1.info hy1
        cases v with
        | none =>
          simp [hx, hy] at hs; obtain ⟨rfl, rfl⟩ := hs
          exact ⟨s1, by simp [step, declaring, bind, M.bind, al, hx, hy, e1, i1]; rfl, m1⟩
        | some a =>
          have v1 := m1.value hy1
          cases hp : p a with
          | false =>
            simp [hx, hy, hp] at hs; obtain ⟨rfl, rfl⟩ := hs
            exact ⟨s1, by simp [step, declaring, bind, M.bind, al, hx, hy, e1, i1, v1, hp]; rfl, m1⟩
          | true =>
            have hun : (σ.set x (some none)).set x none = σ := by rw [set_set, set_self hx]
            cases mv with
            | true =>
              obtain ⟨s2, e2, m2⟩ := m1.moveConstructor t (get_same _ _ _) hy1 fail
              cases fail with
              | true =>
                simp [hx, hy, hp] at hs; obtain ⟨rfl, rfl⟩ := hs
                obtain ⟨s3, e3, m3⟩ := m2.finish false (get_same _ _ _) (fun _ => rfl)
                refine ⟨s3, by simpa [step, declaring, bind, M.bind, al, hx, hy, e1, i1, v1, hp, e2] using e3, by simpa [hun] using m3⟩
              | false =>
                simp [hx, hy, hp] at hs; obtain ⟨rfl, rfl⟩ := hs
                exact ⟨s2, by simp [step, declaring, bind, M.bind, al, hx, hy, e1, i1, v1, hp, e2]; rfl, by simpa [set_set] using m2⟩
            | false =>
              obtain ⟨s2, e2, m2⟩ := m1.copyConstructor (get_same _ _ _) hy1 fail
              cases fail with
              | true =>
                simp [hx, hy, hp] at hs; obtain ⟨rfl, rfl⟩ := hs
                obtain ⟨s3, e3, m3⟩ := m2.finish false (get_same _ _ _) (fun _ => rfl)
                refine ⟨s3, by simpa [step, declaring, bind, M.bind, al, hx, hy, e1, i1, v1, hp, e2] using e3, by simpa [hun] using m3⟩
              | false =>
                simp [hx, hy, hp] at hs; obtain ⟨rfl, rfl⟩ := hs
                exact ⟨s2, by simp [step, declaring, bind, M.bind, al, hx, hy, e1, i1, v1, hp, e2]; rfl, by simpa [set_set] using m2⟩
  | del x =>
    simp only [spec] at hs
    cases hx : σ x with
    | none =>
      simp [hx] at hs; obtain ⟨rfl, rfl⟩ := hs
      exact ⟨s, by simp [step, bind, M.bind, pure, M.pure, al, hx], m⟩
    | some v =>
      simp [hx] at hs; obtain ⟨rfl, rfl⟩ := hs
      obtain ⟨s1, e1, m1⟩ := m.destroy hx
      obtain ⟨s2, e2, m2⟩ := m1.undeclare (get_same _ _ _)
      exact ⟨s2, by simp [step, bind, M.bind, pure, M.pure, al, hx, e1, e2], by simpa [set_set] using m2⟩
  | emplace x a =>
    simp only [spec] at hs
    cases hx : σ x with
    | none =>
      simp [hx] at hs; obtain ⟨rfl, rfl⟩ := hs
      exact ⟨s, by simp [step, bind, M.bind, pure, M.pure, al, hx], m⟩
    | some v =>
      obtain ⟨s1, e1, m1⟩ := m.destroy hx
      obtain ⟨s2, e2, m2⟩ := m1.construct (get_same _ _ _) a fail
      cases fail with
      | true =>
        simp [hx] at hs; obtain ⟨rfl, rfl⟩ := hs
        exact ⟨s2, by simp [step, emplace, bind, M.bind, pure, M.pure, al, hx, e1, e2], by simpa using m2⟩
      | false =>
        simp [hx] at hs; obtain ⟨rfl, rfl⟩ := hs
        exact ⟨s2, by simp [step, emplace, bind, M.bind, pure, M.pure, al, hx, e1, e2], by simpa [set_set] using m2⟩
  | reset x =>
    simp only [spec] at hs
    cases hx : σ x with
    | none =>
      simp [hx] at hs; obtain ⟨rfl, rfl⟩ := hs
      exact ⟨s, by simp [step, bind, M.bind, pure, M.pure, al, hx], m⟩
    | some v =>
      simp [hx] at hs; obtain ⟨rfl, rfl⟩ := hs
      obtain ⟨s1, e1, m1⟩ := m.destroy hx
      exact ⟨s1, by simp [step, bind, M.bind, pure, M.pure, al, hx, e1], m1⟩
  | copyAssign x y =>
    simp only [spec] at hs
    cases hx : σ x with
    | none =>
      simp [hx] at hs; obtain ⟨rfl, rfl⟩ := hs
      exact ⟨s, by simp [step, bind, M.bind, pure, M.pure, al, hx], m⟩
    | some v =>
      cases hy : σ y with
      | none =>
        simp [hx, hy] at hs; obtain ⟨rfl, rfl⟩ := hs
        exact ⟨s, by simp [step, bind, M.bind, pure, M.pure, al, hx, hy], m⟩
      | some w =>
        by_cases hxy : x = y
        · simp [hx, hy, hxy] at hs
        · have ix := m.info hx
          have iy := m.info hy
          obtain ⟨s1, e1, m1⟩ := m.destroy hx
          have hy1 : (σ.set x (some none)) y = some w := by rw [get_other _ (Ne.symm hxy), hy]
          have iy1 := m1.info hy1
          cases w with
          | none =>
            simp [hx, hy, hxy] at hs; obtain ⟨rfl, rfl⟩ := hs
            exact ⟨s1, by simp [step, copyAssign, bind, M.bind, pure, M.pure, al, hx, hy, hxy, ix, iy, e1, iy1], m1⟩
          | some b =>
            cases v with
            | none =>
              have vy1 := m1.value hy1
              obtain ⟨s2, e2, m2⟩ := m1.construct (get_same _ _ _) b fail
              cases fail with
              | true =>
                simp [hx, hy, hxy] at hs; obtain ⟨rfl, rfl⟩ := hs
                exact ⟨s2, by simp [step, copyAssign, bind, M.bind, pure, M.pure, al, hx, hy, hxy, ix, iy, e1, iy1, vy1, e2], by simpa using m2⟩
              | false =>
                simp [hx, hy, hxy] at hs; obtain ⟨rfl, rfl⟩ := hs
                exact ⟨s2, by simp [step, copyAssign, bind, M.bind, pure, M.pure, al, hx, hy, hxy, ix, iy, e1, iy1, vy1, e2], by simpa [set_set] using m2⟩
            | some a =>
              have vy := m.value hy
              obtain ⟨s2, e2, m2⟩ := m.assignVal t hx b fail
              cases fail with
              | true =>
                simp [hx, hy, hxy] at hs; obtain ⟨rfl, rfl⟩ := hs
                exact ⟨s2, by simp [step, copyAssign, bind, M.bind, pure, M.pure, al, hx, hy, hxy, ix, iy, vy, e2], by simpa using m2⟩
              | false =>
                simp [hx, hy, hxy] at hs; obtain ⟨rfl, rfl⟩ := hs
                exact ⟨s2, by simp [step, copyAssign, bind, M.bind, pure, M.pure, al, hx, hy, hxy, ix, iy, vy, e2], by simpa using m2⟩
  | moveAssign x y =>
    simp only [spec] at hs
    cases hx : σ x with
    | none =>
      simp [hx] at hs; obtain ⟨rfl, rfl⟩ := hs
      exact ⟨s, by simp [step, bind, M.bind, pure, M.pure, al, hx], m⟩
    | some v =>
      cases hy : σ y with
      | none =>
        simp [hx, hy] at hs; obtain ⟨rfl, rfl⟩ := hs
        exact ⟨s, by simp [step, bind, M.bind, pure, M.pure, al, hx, hy], m⟩
      | some w =>
        by_cases hxy : x = y
        · simp [hx, hy, hxy] at hs
        · have ix := m.info hx
          have iy := m.info hy
          obtain ⟨s1, e1, m1⟩ := m.destroy hx
          have hy1 : (σ.set x (some none)) y = some w := by rw [get_other _ (Ne.symm hxy), hy]
          have iy1 := m1.info hy1
          cases w with
          | none =>
            simp [hx, hy, hxy] at hs; obtain ⟨rfl, rfl⟩ := hs
            exact ⟨s1, by simp [step, moveAssign, bind, M.bind, pure, M.pure, al, hx, hy, hxy, ix, iy, e1, iy1], m1⟩
          | some b =>
            cases v with
            | none =>
              have vy1 := m1.value hy1
              obtain ⟨s2, e2, m2⟩ := m1.construct (get_same _ _ _) b fail
              cases fail with
              | true =>
                simp [hx, hy, hxy] at hs; obtain ⟨rfl, rfl⟩ := hs
                exact ⟨s2, by simp [step, moveAssign, bind, M.bind, pure, M.pure, al, hx, hy, hxy, ix, iy, e1, iy1, vy1, e2], by simpa using m2⟩
              | false =>
                simp [hx, hy, hxy] at hs; obtain ⟨rfl, rfl⟩ := hs
                simp only [Bool.false_eq_true, if_false, set_set] at m2
                obtain ⟨s3, e3, m3⟩ := m2.store (x := y) (a := b) (by rw [get_other _ (Ne.symm hxy), hy]) (t.moved b)
                exact ⟨s3, by simp [step, moveAssign, bind, M.bind, pure, M.pure, al, hx, hy, hxy, ix, iy, e1, iy1, vy1, e2, e3], m3⟩
            | some a =>
              have vy := m.value hy
              obtain ⟨s2, e2, m2⟩ := m.assignVal t hx b fail
              cases fail with
              | true =>
                simp [hx, hy, hxy] at hs; obtain ⟨rfl, rfl⟩ := hs
                exact ⟨s2, by simp [step, moveAssign, bind, M.bind, pure, M.pure, al, hx, hy, hxy, ix, iy, vy, e2], by simpa using m2⟩
              | false =>
                simp [hx, hy, hxy] at hs; obtain ⟨rfl, rfl⟩ := hs
                simp only [Bool.false_eq_true, if_false] at m2
                obtain ⟨s3, e3, m3⟩ := m2.store (x := y) (a := b) (by rw [get_other _ (Ne.symm hxy), hy]) (t.moved b)
                exact ⟨s3, by simp [step, moveAssign, bind, M.bind, pure, M.pure, al, hx, hy, hxy, ix, iy, vy, e2, e3], m3⟩
  | swap x y =>
    simp only [spec] at hs
    cases hx : σ x with
    | none =>
      simp [hx] at hs; obtain ⟨rfl, rfl⟩ := hs
      exact ⟨s, by simp [step, bind, M.bind, pure, M.pure, al, hx], m⟩
    | some v =>
      have ix := m.info hx
      cases hy : σ y with
      | none =>
        simp [hx, hy] at hs; obtain ⟨rfl, rfl⟩ := hs
        exact ⟨s, by simp [step, bind, M.bind, pure, M.pure, al, hx, hy], m⟩
      | some w =>
        have iy := m.info hy
        cases v with
        | none =>
          cases w with
          | none =>
            simp [hx, hy] at hs; obtain ⟨rfl, rfl⟩ := hs
            obtain ⟨s1, e1, m1⟩ := m.destroy hx
            rw [set_self hx] at m1
            exact ⟨s1, by simp [step, swap_, bind, M.bind, pure, M.pure, al, hx, hy, ix, iy, e1], m1⟩
          | some b =>
            obtain ⟨s1, e1, m1⟩ := m.moveConstructor t hx hy fail
            cases fail with
            | true =>
              simp [hx, hy] at hs; obtain ⟨rfl, rfl⟩ := hs
              exact ⟨s1, by simp [step, swap_, bind, M.bind, pure, M.pure, al, hx, hy, ix, iy, e1], by simpa using m1⟩
            | false =>
              simp [hx, hy] at hs; obtain ⟨rfl, rfl⟩ := hs
              exact ⟨s1, by simp [step, swap_, bind, M.bind, pure, M.pure, al, hx, hy, ix, iy, e1], by simpa using m1⟩
        | some a =>
          cases w with
          | none => simp [hx, hy] at hs
          | some b =>
            have vx := m.value hx
            have vy := m.value hy
            have hstore : ∀ p q : α, ∃ s1 s2, store x p s = some ((), s1) ∧ store y q s1 = some ((), s2) ∧
                Sim s2 ((σ.set x (some (some p))).set y (some (some q))) := by
              intro p q
              obtain ⟨s1, e1, m1⟩ := m.store hx p
              have : ∃ c, (σ.set x (some (some p))) y = some (some c) := by
                by_cases c : y = x
                · exact ⟨p, by rw [c, get_same]⟩
                · exact ⟨b, by rw [get_other _ c, hy]⟩
              obtain ⟨c, hc⟩ := this
              obtain ⟨s2, e2, m2⟩ := m1.store hc q
              exact ⟨s1, s2, e1, e2, m2⟩
            cases fail with
            | true =>
              simp [hx, hy] at hs; obtain ⟨rfl, rfl⟩ := hs
              obtain ⟨s1, s2, e1, e2, m2⟩ := hstore (t.torn a b) (t.torn b a)
              exact ⟨s2, by simp [step, swap_, bind, M.bind, pure, M.pure, al, hx, hy, ix, iy, vx, vy, e1, e2], m2⟩
            | false =>
              simp [hx, hy] at hs; obtain ⟨rfl, rfl⟩ := hs
              obtain ⟨s1, s2, e1, e2, m2⟩ := hstore b a
              exact ⟨s2, by simp [step, swap_, bind, M.bind, pure, M.pure, al, hx, hy, ix, iy, vx, vy, e1, e2], m2⟩
  | get x =>
    simp only [spec] at hs
    cases hx : σ x with
    | none =>
      simp [hx] at hs; obtain ⟨rfl, rfl⟩ := hs
      exact ⟨s, by simp [step, bind, M.bind, pure, M.pure, al, hx], m⟩
    | some v =>
      have ix := m.info hx
      cases v with
      | none =>
        simp [hx] at hs; obtain ⟨rfl, rfl⟩ := hs
        exact ⟨s, by simp [step, bind, M.bind, pure, M.pure, al, hx, ix], m⟩
      | some a =>
        simp [hx] at hs; obtain ⟨rfl, rfl⟩ := hs
        exact ⟨s, by simp [step, bind, M.bind, pure, M.pure, al, hx, ix, m.value hx], m⟩
  | getMove x =>
    simp only [spec] at hs
    cases hx : σ x with
    | none =>
      simp [hx] at hs; obtain ⟨rfl, rfl⟩ := hs
      exact ⟨s, by simp [step, bind, M.bind, pure, M.pure, al, hx], m⟩
    | some v =>
      have ix := m.info hx
      cases v with
      | none =>
        simp [hx] at hs; obtain ⟨rfl, rfl⟩ := hs
        exact ⟨s, by simp [step, bind, M.bind, pure, M.pure, al, hx, ix], m⟩
      | some a =>
        cases fail with
        | true =>
          simp [hx] at hs; obtain ⟨rfl, rfl⟩ := hs
          exact ⟨s, by simp [step, takeOut, bind, M.bind, pure, M.pure, al, hx, ix, m.value hx], m⟩
        | false =>
          simp [hx] at hs; obtain ⟨rfl, rfl⟩ := hs
          obtain ⟨s1, e1, m1⟩ := m.store hx (t.moved a)
          exact ⟨s1, by simp [step, takeOut, bind, M.bind, pure, M.pure, al, hx, ix, m.value hx, e1], m1⟩
  | getOr x d =>
    simp only [spec] at hs
    cases hx : σ x with
    | none =>
      simp [hx] at hs; obtain ⟨rfl, rfl⟩ := hs
      exact ⟨s, by simp [step, bind, M.bind, pure, M.pure, al, hx], m⟩
    | some v =>
      have ix := m.info hx
      cases v with
      | none =>
        cases fail <;> (simp [hx] at hs; obtain ⟨rfl, rfl⟩ := hs)
        all_goals exact ⟨s, by simp [step, bind, M.bind, pure, M.pure, al, hx, ix], m⟩
      | some a =>
        cases fail <;> (simp [hx] at hs; obtain ⟨rfl, rfl⟩ := hs)
        all_goals exact ⟨s, by simp [step, bind, M.bind, pure, M.pure, al, hx, ix, m.value hx], m⟩
  | getOrMove x d =>
    simp only [spec] at hs
    cases hx : σ x with
    | none =>
      simp [hx] at hs; obtain ⟨rfl, rfl⟩ := hs
      exact ⟨s, by simp [step, bind, M.bind, pure, M.pure, al, hx], m⟩
    | some v =>
      have ix := m.info hx
      cases v with
      | none =>
        cases fail <;> (simp [hx] at hs; obtain ⟨rfl, rfl⟩ := hs)
        all_goals exact ⟨s, by simp [step, bind, M.bind, pure, M.pure, al, hx, ix], m⟩
      | some a =>
        cases fail with
        | true =>
          simp [hx] at hs; obtain ⟨rfl, rfl⟩ := hs
          exact ⟨s, by simp [step, takeOut, bind, M.bind, pure, M.pure, al, hx, ix, m.value hx], m⟩
        | false =>
          simp [hx] at hs; obtain ⟨rfl, rfl⟩ := hs
          obtain ⟨s1, e1, m1⟩ := m.store hx (t.moved a)
          exact ⟨s1, by simp [step, takeOut, bind, M.bind, pure, M.pure, al, hx, ix, m.value hx, e1], m1⟩
  | isEmpty x =>
    simp only [spec] at hs
    cases hx : σ x with
    | none =>
      simp [hx] at hs; obtain ⟨rfl, rfl⟩ := hs
      exact ⟨s, by simp [step, bind, M.bind, pure, M.pure, al, hx], m⟩
    | some v =>
      have ix := m.info hx
      simp [hx] at hs; obtain ⟨rfl, rfl⟩ := hs
      exact ⟨s, by cases v <;> simp [step, bind, M.bind, pure, M.pure, al, hx, ix], m⟩
  | «exists» x p =>
    simp only [spec] at hs
    cases hx : σ x with
    | none =>
      simp [hx] at hs; obtain ⟨rfl, rfl⟩ := hs
      exact ⟨s, by simp [step, bind, M.bind, pure, M.pure, al, hx], m⟩
    | some v =>
      have ix := m.info hx
      simp [hx] at hs; obtain ⟨rfl, rfl⟩ := hs
      cases v with
      | none => exact ⟨s, by simp [step, bind, M.bind, pure, M.pure, al, hx, ix], m⟩
      | some a => exact ⟨s, by simp [step, bind, M.bind, pure, M.pure, al, hx, ix, m.value hx], m⟩
  | visit x f =>
    simp only [spec] at hs
    cases hx : σ x with
    | none =>
      simp [hx] at hs; obtain ⟨rfl, rfl⟩ := hs
      exact ⟨s, by simp [step, bind, M.bind, pure, M.pure, al, hx], m⟩
    | some v =>
      have ix := m.info hx
      cases v with
      | none =>
        simp [hx] at hs; obtain ⟨rfl, rfl⟩ := hs
        exact ⟨s, by simp [step, bind, M.bind, pure, M.pure, al, hx, ix], m⟩
      | some a =>
        simp [hx] at hs; obtain ⟨rfl, rfl⟩ := hs
        obtain ⟨s1, e1, m1⟩ := m.store hx (f a)
        exact ⟨s1, by cases fail <;> simp [step, bind, M.bind, pure, M.pure, al, hx, ix, m.value hx, e1], m1⟩

/-! ## The books -/

macro "keeps" : tactic => `(tactic| repeat' first
  | exact Keeps.pure _ | exact Keeps.bad | exact Keeps.alive _ | exact Keeps.info _ | exact Keeps.value _ | exact Keeps.declare _ _
  | exact Keeps.undeclare _ | exact Keeps.setInfo _ _ | exact Keeps.store _ _ | exact Keeps.construct _ _ _ | exact Keeps.destroy _
  | assumption | apply Keeps.ite | refine Keeps.bind ?_ (fun _ => ?_) | split)

theorem step_keeps (t : Ty α) (fail : Bool) (op : Op α) : Keeps (step t fail op) := by
  have kc : ∀ x (a : α), Keeps (construct_ x a fail) := by intro x a; unfold construct_; keeps
  have kd : ∀ x, Keeps (destroy_ x : MO α Unit) := by intro x; unfold destroy_; keeps
  have kcc : ∀ x y, Keeps (copyConstructor x y fail : MO α Bool) := by intro x y; unfold copyConstructor; keeps
  have kmc : ∀ x y, Keeps (moveConstructor t x y fail : MO α Bool) := by intro x y; unfold moveConstructor; keeps
  have kav : ∀ x b, Keeps (assignVal t x b fail : MO α Bool) := by intro x b; unfold assignVal; keeps
  have kf : ∀ x ok, Keeps (finish x ok : MO α (Res α)) := by intro x b; unfold finish; keeps
  have kt : ∀ x, Keeps (takeOut t x fail : MO α (Res α)) := by intro x; unfold takeOut; keeps
  cases op <;> simp only [step, declaring, emplace, copyAssign, moveAssign, swap_] <;> keeps
  all_goals first | exact kc _ _ | exact kd _ | exact kcc _ _ | exact kmc _ _ | exact kav _ _ | exact kf _ _ | exact kt _

theorem run_ok (t : Ty α) : ∀ (ops : List (Op α × Bool)) {s : St Bool α} {σ : Vars α} {rs : List (Res α)} {σ' : Vars α}, Sim s σ → Ledger s →
    specRun t σ ops = some (rs, σ') → ∃ s', run t ops s = some (rs, s') ∧ Sim s' σ' ∧ Ledger s'
  | [], s, σ, rs, σ', m, l, h => by
    simp [specRun] at h; obtain ⟨rfl, rfl⟩ := h
    exact ⟨s, rfl, m, l⟩
  | (op, fail) :: ops, s, σ, rs, σ', m, l, h => by
    simp only [specRun] at h
    cases h1 : spec t σ fail op with
    | none => rw [h1] at h; cases h
    | some p =>
      obtain ⟨r, σ1⟩ := p
      rw [h1] at h
      simp only at h
      cases h2 : specRun t σ1 ops with
      | none => rw [h2] at h; cases h
      | some q =>
        obtain ⟨rs1, σ2⟩ := q
        rw [h2] at h
        simp at h; obtain ⟨rfl, rfl⟩ := h
        obtain ⟨s1, e1, m1⟩ := step_ok t m fail op h1
        obtain ⟨s2, e2, m2, l2⟩ := run_ok t ops m1 (step_keeps t fail op s r s1 l e1) h2
        exact ⟨s2, by rw [run, bind_some e1, bind_some e2]; rfl, m2, l2⟩

/-! ## Theorems -/

/-- **C27, what holds.** Take any program on any number of optionals, with throwing operations of the element type at any places,
which does not assign an optional to itself and does not `swap` an optional holding a value with an empty one given as the
argument. All its results and the values in all variables at its end are those of the specification on option types. Moreover no
object was destroyed twice, every object constructed was destroyed or is alive in exactly one variable, and once all variables have
gone out of scope the objects destroyed are exactly the objects constructed. -/
theorem C27_partial (t : Ty α) (ops : List (Op α × Bool)) {rs : List (Res α)} {σ' : Vars α}
    (h : specRun t (fun _ => none) ops = some (rs, σ')) :
    ∃ s', run t ops St.init = some (rs, s') ∧ (∀ x, (s'.vars x).map (fun c => c.mem.map Prod.snd) = σ' x) ∧
      s'.dead.Nodup ∧ (∀ id, id < s'.next ↔ (id ∈ s'.dead ∨ ∃ x, held s' x = some id)) ∧
      ((∀ x, σ' x = none) → ∀ id, id ∈ s'.dead ↔ id < s'.next) := by
  obtain ⟨s', e, m, l⟩ := run_ok t ops (s := St.init) (σ := fun _ => none) (fun _ => trivial) ledger_init h
  refine ⟨s', e, fun x => ?_, l.once, fun id => ⟨l.cover id, ?_⟩, fun hn id => (l.all fun x => m.dead (hn x)).2 id⟩
  · have := m x
    cases hc : s'.vars x <;> cases hs : σ' x <;> rw [hc, hs] at this
    · rfl
    · exact this.elim
    · exact this.elim
    · simpa using this.2
  · rintro (hd | ⟨x, hx⟩)
    · exact l.born id hd
    · exact (l.live x id hx).1

/-- Nothing is destroyed twice or lost in *any* program that does not break a contract, whatever `swap` does to the values. -/
theorem C27_lifetimes (t : Ty α) : ∀ (ops : List (Op α × Bool)) (s : St Bool α) (rs : List (Res α)) (s' : St Bool α), Ledger s →
    run t ops s = some (rs, s') → Ledger s'
  | [], s, rs, s', l, e => by
    have : s = s' := by simpa [run, pure, M.pure] using congrArg (Option.map Prod.snd) e
    exact this ▸ l
  | (op, fail) :: ops, s, rs, s', l, e => by
    cases h1 : step t fail op s with
    | none => rw [run, bind_none h1] at e; cases e
    | some p =>
      obtain ⟨r, s1⟩ := p
      rw [run, bind_some h1] at e
      cases h2 : run t ops s1 with
      | none => rw [bind_none h2] at e; cases e
      | some q =>
        obtain ⟨rs1, s2⟩ := q
        rw [bind_some h2] at e
        have : s2 = s' := by simpa [pure, M.pure] using congrArg (Option.map Prod.snd) e
        exact this ▸ C27_lifetimes t ops s1 rs1 s2 (step_keeps t fail op s r s1 l h1) h2

/-- **C27 fails for `swap`**: exchanging any optional that holds a value with any empty one loses the value; both are empty afterwards. -/
theorem C27_swap_violated (t : Ty α) {s : St Bool α} {σ : Vars α} (m : Sim s σ) (fail : Bool) {x y : Nat} {a : α} (hx : σ x = some (some a))
    (hy : σ y = some none) : ∃ s', step t fail (.swap x y) s = some (.done, s') ∧ Sim s' (σ.set x (some none)) ∧ (σ.set x (some none)) y = some none := by
  have hxy : y ≠ x := fun c => by rw [c, hx] at hy; simp at hy
  obtain ⟨s1, e1, m1⟩ := m.destroy hx
  exact ⟨s1, by simp [step, swap_, bind, M.bind, pure, M.pure, m.alive, hx, hy, m.info hx, m.info hy, e1], m1, by rw [get_other _ hxy, hy]⟩

/-- A program with several throws: objects 0 to 4 are constructed, all five are destroyed. -/
def sample : List (Op Nat × Bool) := [(.newVal 0 5, false), (.new 1, false), (.newVal 2 9, true), (.swap 1 0, false), (.get 0, false), (.get 1, false), (.newMap 2 1 (fun a => (some (a + 1), a)), false),
  (.emplace 1 7, true), (.getOr 1 3, false), (.copyAssign 1 2, false), (.moveAssign 2 1, true), (.newFilter 3 1 true (fun a => a == 6), false), (.isEmpty 1, false), (.get 2, false), (.get 3, false),
  (.del 0, false), (.del 1, false), (.del 2, false), (.del 3, false)]

example : (run ⟨fun _ => 0, fun _ _ => 99⟩ sample St.init).map (fun r => (r.1, r.2.next, r.2.dead)) =
    some ([.done, .done, .threw, .done, .noValue, .value 5, .done, .threw, .value 3, .done, .threw, .done, .bool true, .value 99, .value 6, .done, .done, .done, .done], 5, [4, 2, 3, 1, 0]) := by
  decide +kernel

example : ∃ rs σ', specRun ⟨fun _ => 0, fun _ _ => 99⟩ (fun _ => none) sample = some (rs, σ') ∧ (List.range 5).all (fun x => (σ' x).isNone) := by
  refine ⟨_, _, rfl, ?_⟩; decide +kernel

end Verif.Optional
