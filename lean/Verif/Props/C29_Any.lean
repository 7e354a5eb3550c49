import Verif.Model.Any

/-!
# C29: an `any` stores and returns exactly what was put in
-/
set_option autoImplicit false

namespace Verif.Any

variable {α : Type}

/-! ## Specification: a variable out of scope, or empty, or with a value of some type -/

abbrev SVars (α : Type) := Nat → Option (Option (Nat × α))

def SVars.set (σ : SVars α) (x : Nat) (v : Option (Option (Nat × α))) : SVars α := fun y => if y = x then v else σ y

/-- Storing a value that is made from something else, with the strong exception guarantee: if this throws, nothing changes. -/
def storing (σ : SVars α) (x : Nat) (v : Option (Nat × α)) (fail : Bool) : Res α × SVars α :=
  if fail then (.threw, σ) else (.done, σ.set x (some v))

/-- Storing a copy of what another `any` holds. -/
def copying (copyable : Nat → Bool) (σ : SVars α) (x : Nat) (v : Option (Nat × α)) (fail : Bool) : Res α × SVars α :=
  match v with
  | none => (.done, σ.set x (some none))
  | some (T, a) => if copyable T then storing σ x (some (T, a)) fail else (.copyError, σ)

/-- What each statement should do; `copyable`: which types can be copied; `fail`: an allocation or the constructor of a value throws. -/
def spec (copyable : Nat → Bool) (fail : Bool) (σ : SVars α) : Op α → Res α × SVars α
  | .new x => if (σ x).isSome then (.skipped, σ) else (.done, σ.set x (some none))
  | .newVal x T a => if (σ x).isSome ∨ T < 2 then (.skipped, σ) else storing σ x (some (T, a)) fail
  | .newCopy x y _ =>
    match σ x, σ y with
    | none, some v => copying copyable σ x v fail
    | _, _ => (.skipped, σ)
  | .newMove x y =>
    match σ x, σ y with
    | none, some v => (.done, (σ.set x (some v)).set y (some none))
    | _, _ => (.skipped, σ)
  | .del x => if (σ x).isSome then (.done, σ.set x none) else (.skipped, σ)
  | .copyAssign x y _ =>
    match σ x, σ y with
    | some _, some v => copying copyable σ x v fail
    | _, _ => (.skipped, σ)
  | .moveAssign x y =>
    match σ x, σ y with
    | some _, some v => (.done, (σ.set x (some v)).set y (some none))
    | _, _ => (.skipped, σ)
  | .assignVal x T a => if (σ x).isNone ∨ T < 2 then (.skipped, σ) else storing σ x (some (T, a)) fail
  | .emplace x T a => if (σ x).isNone ∨ T < 2 then (.skipped, σ) else storing σ x (some (T, a)) fail
  | .swap x y =>
    match σ x, σ y with
    | some v, some w => (.done, fun z => if z = x then some w else if z = y then some v else σ z)
    | _, _ => (.skipped, σ)
  | .clear x => if (σ x).isSome then (.done, σ.set x (some none)) else (.skipped, σ)
  | .get x T =>
    match σ x with
    | none => (.skipped, σ)
    | some none => (.badCast, σ)
    | some (some (U, a)) => if U = T then (.got (.plain T a), σ) else (.badCast, σ)
  | .put x T a =>
    match σ x with
    | none => (.skipped, σ)
    | some v =>
      if T < 2 then (.skipped, σ)
      else
        match v with
        | none => (.badCast, σ)
        | some (U, _) => if U = T then (if fail then (.threw, σ) else (.done, σ.set x (some (some (T, a))))) else (.badCast, σ)
  | .getOr x T d =>
    match σ x with
    | none => (.skipped, σ)
    | some v =>
      if T < 2 then (.skipped, σ)
      else
        match v with
        | none => (.got (.plain T d), σ)
        | some (U, a) => (.got (.plain T (if U = T then a else d)), σ)
  | .getOpt x T =>
    match σ x with
    | none => (.skipped, σ)
    | some v =>
      if T < 2 then (.skipped, σ)
      else
        match v with
        | none => (.none, σ)
        | some (U, a) => if U = T then (if fail then (.threw, σ) else (.got (.plain T a), σ)) else (.none, σ)
  | .isType x T =>
    match σ x with
    | none => (.skipped, σ)
    | some none => (.bool (decide (T = 0)), σ)
    | some (some (U, _)) => (.bool (decide (T = U)), σ)
  | .type x =>
    match σ x with
    | none => (.skipped, σ)
    | some none => (.type 0, σ)
    | some (some (U, _)) => (.type U, σ)
  | .isEmpty x =>
    match σ x with
    | none => (.skipped, σ)
    | some v => (.bool v.isNone, σ)

def specRun (copyable : Nat → Bool) (σ : SVars α) : List (Op α × Bool) → List (Res α) × SVars α
  | [] => ([], σ)
  | (op, fail) :: ops => ((spec copyable fail σ op).1 :: (specRun copyable (spec copyable fail σ op).2 ops).1, (specRun copyable (spec copyable fail σ op).2 ops).2)

/-- Copies are made from sources that are const, or by copy initialization. -/
def constSource : Op α → Bool
  | .newCopy _ _ .other => false
  | .copyAssign _ _ .other => false
  | _ => true

/-! ## Refinement -/

def conc : Option (Nat × α) → Option (Content α)
  | none => none
  | some (T, a) => some (.plain T a)

/-- Types stored are neither `void` nor `any`. -/
def OkVars (σ : SVars α) : Prop := ∀ x T a, σ x = some (some (T, a)) → 2 ≤ T

def Rel (σ : Vars α) (τ : SVars α) : Prop := (∀ x, σ x = (τ x).map conc) ∧ OkVars τ

theorem Rel.set {σ : Vars α} {τ : SVars α} (h : Rel σ τ) (x : Nat) (v : Option (Option (Nat × α))) (hv : ∀ T a, v = some (some (T, a)) → 2 ≤ T) :
    Rel (σ.set x (v.map conc)) (τ.set x v) := by
  constructor
  · intro y; simp only [Vars.set, SVars.set]; split
    · rfl
    · exact h.1 y
  · intro y T a; simp only [SVars.set]; split
    · exact hv T a
    · exact h.2 y T a

theorem Rel.val {σ : Vars α} {τ : SVars α} (h : Rel σ τ) (x T : Nat) (a : α) (hT : 2 ≤ T) : Rel (σ.set x (some (some (.plain T a)))) (τ.set x (some (some (T, a)))) :=
  h.set x (Option.some (Option.some (T, a))) (fun U b e => by simp at e; omega)

theorem Rel.empty {σ : Vars α} {τ : SVars α} (h : Rel σ τ) (x : Nat) : Rel (σ.set x (some none)) (τ.set x (some none)) :=
  h.set x (Option.some none) (fun U b e => by simp at e)

theorem Rel.gone {σ : Vars α} {τ : SVars α} (h : Rel σ τ) (x : Nat) : Rel (σ.set x none) (τ.set x none) :=
  h.set x none (fun U b e => by simp at e)

theorem Rel.copy {σ : Vars α} {τ : SVars α} (h : Rel σ τ) (x y : Nat) (v : Option (Nat × α)) (hy : τ y = Option.some v) :
    Rel (σ.set x (Option.some (conc v))) (τ.set x (Option.some v)) :=
  h.set x (Option.some v) (fun U b e => h.2 y U b (by rw [hy]; exact e))

theorem step_ok (copyable : Nat → Bool) (fail : Bool) {σ : Vars α} {τ : SVars α} (h : Rel σ τ) (op : Op α) (hc : constSource op = true) :
    (step copyable fail σ op).1 = (spec copyable fail τ op).1 ∧ Rel (step copyable fail σ op).2 (spec copyable fail τ op).2 := by
  have hval : ∀ (x T : Nat) (a : α), 2 ≤ T → let p := (match valueCtor fail T a with | .ok v => (Res.done, σ.set x (Option.some v)) | .error e => (e, σ));
      p.1 = (storing τ x (Option.some (T, a)) fail).1 ∧ Rel p.2 (storing τ x (Option.some (T, a)) fail).2 := by
    intro x T a hT
    cases fail
    · exact ⟨rfl, h.val x T a hT⟩
    · exact ⟨rfl, h⟩
  have hcopy : ∀ (x y : Nat) (v : Option (Nat × α)), τ y = Option.some v → let p := (match copyCtor copyable fail (conc v) with | .ok v => (Res.done, σ.set x (Option.some v)) | .error e => (e, σ));
      p.1 = (copying copyable τ x v fail).1 ∧ Rel p.2 (copying copyable τ x v fail).2 := by
    intro x y v hy
    cases v with
    | none => exact ⟨rfl, h.empty x⟩
    | some p =>
      obtain ⟨T, a⟩ := p
      simp only [conc, copyCtor, clone, copying, storing]
      cases hT : copyable T
      · exact ⟨rfl, h⟩
      · cases fail
        · exact ⟨rfl, h.copy x y _ hy⟩
        · exact ⟨rfl, h⟩
  cases op with
  | new x =>
    simp only [step, spec, h.1 x]
    cases hx : τ x with
    | none => exact ⟨rfl, h.empty x⟩
    | some v => exact ⟨rfl, h⟩
  | newVal x T a =>
    simp only [step, spec, h.1 x]
    cases hx : τ x with
    | none =>
      by_cases hT : T < 2
      · simp [hT]; exact h
      · simp [hT]; exact hval x T a (by omega)
    | some v => simp; exact h
  | newCopy x y src =>
    cases src with
    | other => cases hc
    | asConst =>
      simp only [step, spec, h.1 x, h.1 y]
      cases hx : τ x with
      | none =>
        cases hy : τ y with
        | none => exact ⟨rfl, h⟩
        | some v => exact hcopy x y v hy
      | some w => exact ⟨rfl, h⟩
  | newMove x y =>
    simp only [step, spec, h.1 x, h.1 y]
    cases hx : τ x with
    | none =>
      cases hy : τ y with
      | none => exact ⟨rfl, h⟩
      | some v => exact ⟨rfl, (h.copy x y v hy).empty y⟩
    | some w => exact ⟨rfl, h⟩
  | del x =>
    simp only [step, spec, h.1 x]
    cases hx : τ x with
    | none => exact ⟨rfl, h⟩
    | some v => exact ⟨rfl, h.gone x⟩
  | copyAssign x y src =>
    cases src with
    | other => cases hc
    | asConst =>
      simp only [step, spec, h.1 x, h.1 y]
      cases hx : τ x with
      | none => exact ⟨rfl, h⟩
      | some w =>
        cases hy : τ y with
        | none => exact ⟨rfl, h⟩
        | some v => exact hcopy x y v hy
  | moveAssign x y =>
    simp only [step, spec, h.1 x, h.1 y]
    cases hx : τ x with
    | none => exact ⟨rfl, h⟩
    | some w =>
      cases hy : τ y with
      | none => exact ⟨rfl, h⟩
      | some v =>
        refine ⟨rfl, ?_⟩
        have e : (swapVars σ y x).set y (some none) = (σ.set x (some (conc v))).set y (some none) := by
          funext z
          simp only [swapVars, Vars.set, h.1 x, h.1 y, hx, hy, Option.map_some]
          by_cases c1 : z = y
          · simp [c1]
          · by_cases c2 : z = x
            · simp [c1, c2]
            · simp [c1, c2]
        show Rel ((swapVars σ y x).set y (some none)) _
        rw [e]
        exact (h.copy x y v hy).empty y
  | assignVal x T a =>
    simp only [step, spec, h.1 x]
    cases hx : τ x with
    | none => simp; exact h
    | some v =>
      by_cases hT : T < 2
      · simp [hT]; exact h
      · simp [hT]; exact hval x T a (by omega)
  | emplace x T a =>
    simp only [step, spec, h.1 x]
    cases hx : τ x with
    | none => simp; exact h
    | some v =>
      by_cases hT : T < 2
      · simp [hT]; exact h
      · simp [hT]; exact hval x T a (by omega)
  | swap x y =>
    simp only [step, spec, h.1 x, h.1 y]
    cases hx : τ x with
    | none => exact ⟨rfl, h⟩
    | some w =>
      cases hy : τ y with
      | none => exact ⟨rfl, h⟩
      | some v =>
        refine ⟨rfl, ?_, ?_⟩
        · intro z
          simp only [swapVars, Vars.set, h.1 x, h.1 y, hx, hy]
          by_cases c2 : z = x
          · by_cases c1 : z = y
            · have : v = w := by rw [← c1, c2, hx] at hy; simpa using hy.symm
              simp [Vars.set, c1, this]
            · have c3 : x ≠ y := fun c => c1 (c2.trans c)
              simp [Vars.set, c2, c3]
          · by_cases c1 : z = y
            · subst c1; simp [Vars.set, c2]
            · simp [Vars.set, c1, c2]; exact h.1 z
        · intro z T a
          by_cases c2 : z = x
          · simp only [c2, if_true]; intro e; exact h.2 y T a (by rw [hy, e])
          · by_cases c1 : z = y
            · simp only [c2, c1, if_false, if_true]
              split
              · intro e; exact h.2 y T a (by rw [hy, e])
              · intro e; exact h.2 x T a (by rw [hx, e])
            · simp only [c1, c2, if_false]; exact h.2 z T a
  | clear x =>
    simp only [step, spec, h.1 x]
    cases hx : τ x with
    | none => exact ⟨rfl, h⟩
    | some v => exact ⟨rfl, h.empty x⟩
  | get x T =>
    simp only [step, spec, h.1 x]
    cases hx : τ x with
    | none => exact ⟨rfl, h⟩
    | some v =>
      cases v with
      | none => by_cases hT : T = 0 <;> simp [getAs, typeOf, conc, hT] <;> exact h
      | some p =>
        obtain ⟨U, a⟩ := p
        by_cases hT : U = T
        · subst hT; simp [getAs, typeOf, conc, Content.type]; exact h
        · simp [getAs, typeOf, conc, Content.type, hT, Ne.symm hT]; exact h
  | put x T a =>
    simp only [step, spec, h.1 x]
    cases hx : τ x with
    | none => exact ⟨rfl, h⟩
    | some v =>
      by_cases h2 : T < 2
      · simp [h2]; exact h
      · cases v with
        | none => have h0 : T ≠ 0 := by omega
                  simp [getAs, typeOf, conc, h2, h0]; exact h
        | some p =>
          obtain ⟨U, b⟩ := p
          by_cases hT : U = T
          · subst hT; cases fail <;> simp [getAs, typeOf, conc, Content.type, h2]
            · exact h.val x U a (by omega)
            · exact h
          · simp [getAs, typeOf, conc, Content.type, hT, Ne.symm hT, h2]; exact h
  | getOr x T d =>
    simp only [step, spec, h.1 x]
    cases hx : τ x with
    | none => exact ⟨rfl, h⟩
    | some v =>
      by_cases h2 : T < 2
      · simp [h2]; exact h
      · cases v with
        | none => have h0 : T ≠ 0 := by omega
                  simp [getAs, typeOf, conc, h2, h0]; exact h
        | some p =>
          obtain ⟨U, b⟩ := p
          by_cases hT : U = T
          · subst hT; simp [getAs, typeOf, conc, Content.type, h2]; exact h
          · simp [getAs, typeOf, conc, Content.type, hT, Ne.symm hT, h2]; exact h
  | getOpt x T =>
    simp only [step, spec, h.1 x]
    cases hx : τ x with
    | none => exact ⟨rfl, h⟩
    | some v =>
      by_cases h2 : T < 2
      · simp [h2]; exact h
      · cases v with
        | none => have h0 : 0 ≠ T := by omega
                  simp [typeOf, conc, h2, h0]; exact h
        | some p =>
          obtain ⟨U, b⟩ := p
          by_cases hT : U = T
          · subst hT; cases fail <;> simp [typeOf, conc, Content.type, h2] <;> exact h
          · simp [typeOf, conc, Content.type, hT, h2]; exact h
  | isType x T =>
    simp only [step, spec, h.1 x]
    cases hx : τ x with
    | none => exact ⟨rfl, h⟩
    | some v =>
      refine ⟨?_, by cases v <;> exact h⟩
      cases v with
      | none => simp [typeOf, conc]; exact decide_eq_decide.2 ⟨Eq.symm, Eq.symm⟩
      | some p => simp [typeOf, conc, Content.type]; exact decide_eq_decide.2 ⟨Eq.symm, Eq.symm⟩
  | type x =>
    simp only [step, spec, h.1 x]
    cases hx : τ x with
    | none => exact ⟨rfl, h⟩
    | some v => cases v <;> exact ⟨rfl, h⟩
  | isEmpty x =>
    simp only [step, spec, h.1 x]
    cases hx : τ x with
    | none => exact ⟨rfl, h⟩
    | some v => cases v <;> exact ⟨rfl, h⟩

theorem run_ok (copyable : Nat → Bool) : ∀ (ops : List (Op α × Bool)), (∀ p ∈ ops, constSource p.1 = true) → ∀ {σ : Vars α} {τ : SVars α}, Rel σ τ →
    (run copyable σ ops).1 = (specRun copyable τ ops).1 ∧ Rel (run copyable σ ops).2 (specRun copyable τ ops).2
  | [], _, _, _, h => ⟨rfl, h⟩
  | (op, fail) :: ops, hc, σ, τ, h => by
    obtain ⟨e, h1⟩ := step_ok copyable fail h op (hc (op, fail) (List.mem_cons_self ..))
    obtain ⟨e2, h2⟩ := run_ok copyable ops (fun p hp => hc p (List.mem_cons_of_mem _ hp)) h1
    simp only [run, specRun]
    exact ⟨by rw [e, e2], h2⟩

/-- Whatever the statements, types and exceptions, as long as copies are made from const sources: every answer is the specified one, and
each variable holds exactly what it should. -/
theorem C29_partial (copyable : Nat → Bool) (ops : List (Op α × Bool)) (hc : ∀ p ∈ ops, constSource p.1 = true) :
    (run copyable (fun _ => none) ops).1 = (specRun copyable (fun _ => none) ops).1 ∧
      ∀ x, (run copyable (fun _ => none) ops).2 x = ((specRun copyable (fun _ => none) ops).2 x).map (Option.map fun p => .plain p.1 p.2) := by
  have h0 : Rel (fun _ => none : Vars α) (fun _ => none) := ⟨fun _ => rfl, fun _ _ _ e => by simp at e⟩
  obtain ⟨e, h, -⟩ := run_ok copyable ops hc h0
  refine ⟨e, fun x => ?_⟩
  rw [h x]
  congr 1
  funext v
  cases v <;> rfl

/-- In every state, an exception leaves all variables as they were. -/
theorem C29_strong_guarantee (copyable : Nat → Bool) (fail : Bool) (σ : Vars α) (op : Op α)
    (h : (step copyable fail σ op).1 = .threw ∨ (step copyable fail σ op).1 = .copyError ∨ (step copyable fail σ op).1 = .badCast) :
    (step copyable fail σ op).2 = σ := by
  cases op <;> simp only [step] at h ⊢ <;> (repeat' split at h) <;> simp_all <;> split <;> rfl

/-- Moving, by construction or assignment, empties the source and gives the target what it held. -/
theorem C29_move (copyable : Nat → Bool) (fail : Bool) (σ : Vars α) (x y : Nat) (hxy : x ≠ y) (v : Option (Content α)) (hy : σ y = some v) :
    (σ x = none → (step copyable fail σ (.newMove x y)).2 x = some v ∧ (step copyable fail σ (.newMove x y)).2 y = some none) ∧
      (σ x ≠ none → (step copyable fail σ (.moveAssign x y)).2 x = some v ∧ (step copyable fail σ (.moveAssign x y)).2 y = some none) := by
  constructor
  · intro hx; simp [step, hx, hy, Vars.set, hxy]
  · intro hx
    cases hv : σ x with
    | none => exact absurd hv hx
    | some w => simp [step, hv, hy, swapVars, Vars.set, hxy]

/-- A copy of a variable that is not const, by `any x(y)` or `x = y`, does not hold a value equal to the one of `y`: it holds an `any`
with such a value, and `get` for the type of the value throws. -/
theorem C29_copy_violated (copyable : Nat → Bool) (σ : Vars α) (x y : Nat) (T : Nat) (a : α) (hT : 2 ≤ T) (hcp : copyable T = true)
    (hy : σ y = some (some (.plain T a))) :
    (σ x = none → ∃ σ', step copyable false σ (.newCopy x y .other) = (.done, σ') ∧ (step copyable false σ' (.get x T)).1 = .badCast ∧
      (step copyable false σ' (.get x 1)).1 = .got (.anyOf (.plain T a))) ∧
    (σ x ≠ none → ∃ σ', step copyable false σ (.copyAssign x y .other) = (.done, σ') ∧ (step copyable false σ' (.get x T)).1 = .badCast ∧
      (step copyable false σ' (.get x 1)).1 = .got (.anyOf (.plain T a))) := by
  have hT1 : T ≠ 1 := by omega
  constructor
  · intro hx
    refine ⟨σ.set x (some (some (.anyOf (.plain T a)))), ?_, ?_, ?_⟩
    · simp [step, hx, hy, wrapCtor, copyCtor, clone, hcp, box, Except.map]
    · simp [step, Vars.set, getAs, typeOf, Content.type, hT1]
    · simp [step, Vars.set, getAs, typeOf, Content.type]
  · intro hx
    cases hv : σ x with
    | none => exact absurd hv hx
    | some w =>
      refine ⟨σ.set x (some (some (.anyOf (.plain T a)))), ?_, ?_, ?_⟩
      · simp [step, hv, hy, wrapCtor, copyCtor, clone, hcp, box, Except.map]
      · simp [step, Vars.set, getAs, typeOf, Content.type, hT1]
      · simp [step, Vars.set, getAs, typeOf, Content.type]

/-- What an `any` holds in the end, if it holds an `any` that holds an `any` and so on: nothing, or a value of a type. -/
def Innermost : Content α → Option Nat → Prop
  | .plain T _, o => o = some T
  | .emptyAny, o => o = none
  | .anyOf c, o => Innermost c o

/-- Copies from const sources also copy what is nested: the copy holds the same, at every depth, if the innermost value can be copied, and the copy fails and changes nothing
otherwise. -/
theorem C29_nested_copy (copyable : Nat → Bool) (σ : Vars α) (x y : Nat) (hx : σ x = none) (c : Content α) (hy : σ y = some (some c)) :
    ((∀ T, Innermost c (some T) → copyable T = true) → step copyable false σ (.newCopy x y .asConst) = (.done, σ.set x (some (some c)))) ∧
    ((∃ T, Innermost c (some T) ∧ copyable T = false) → step copyable false σ (.newCopy x y .asConst) = (.copyError, σ)) ∧
    ((∀ T, Innermost c (some T) → copyable T = true) → step copyable true σ (.newCopy x y .asConst) = (.threw, σ)) := by
  have h1 : ∀ c : Content α, (∀ T, Innermost c (some T) → copyable T = true) → clone copyable false c = .ok c := by
    intro c
    induction c with
    | plain T a => intro h; simp [clone, h T rfl]
    | emptyAny => intro _; simp [clone]
    | anyOf c ih => intro h; simp [clone, ih h]
  have h2 : ∀ c : Content α, (∃ T, Innermost c (some T) ∧ copyable T = false) → clone copyable false c = .error .copyError := by
    intro c
    induction c with
    | plain T a => rintro ⟨U, hU, h⟩; simp only [Innermost, Option.some.injEq] at hU; subst hU; simp [clone, h]
    | emptyAny => rintro ⟨U, hU, _⟩; simp [Innermost] at hU
    | anyOf c ih => intro h; simp [clone, ih h]
  have h3 : ∀ c : Content α, (∀ T, Innermost c (some T) → copyable T = true) → clone copyable true c = .error .threw := by
    intro c h
    cases c with
    | plain T a => simp [clone, h T rfl]
    | emptyAny => simp [clone]
    | anyOf c => simp [clone]
  refine ⟨fun h => ?_, fun h => ?_, fun h => ?_⟩
  · simp [step, hx, hy, copyCtor, h1 c h, Except.map]
  · simp [step, hx, hy, copyCtor, h2 c h, Except.map]
  · simp [step, hx, hy, copyCtor, h3 c h, Except.map]

/-- A copy of a copy made by `any x(y)` from an empty `y`: the outer one holds an `any`, which is empty. -/
example : (run (fun T => T == 2) (fun _ => (none : Option (Option (Content Nat)))) [(.new 0, false), (.newCopy 1 0 .other, false), (.newCopy 2 1 .asConst, false), (.get 2 1, false)]).1 =
    [.done, .done, .done, .got .emptyAny] := by decide +kernel

def sample : List (Op Nat × Bool) := [(.newVal 0 2 7, false), (.newCopy 1 0 .asConst, false), (.emplace 0 3 8, true), (.get 0 2, false), (.emplace 0 3 8, false), (.get 0 2, false), (.get 1 2, false),
  (.newCopy 2 0 .asConst, false), (.moveAssign 1 0, false), (.isEmpty 0, false), (.get 1 3, false), (.swap 0 1, false), (.type 1, false), (.moveAssign 0 0, false), (.isEmpty 0, false)]

/-- The types 2 and 3, of which only 2 can be copied. -/
example : (run (fun T => T == 2) (fun _ => none) sample).1 =
    [.done, .done, .threw, .got (.plain 2 7), .done, .badCast, .got (.plain 2 7), .copyError, .done, .bool true, .got (.plain 3 8), .done, .type 0, .done, .bool true] := by
  decide +kernel

example : ∀ p ∈ sample, constSource p.1 = true := by
  decide +kernel

end Verif.Any
