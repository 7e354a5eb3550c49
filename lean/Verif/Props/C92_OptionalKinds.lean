import Verif.Model.OptionalKinds

/-!
# C92: optionals of pointers, booleans and numbers convert and copy as values; a null pointer is nothing
-/
set_option autoImplicit false

namespace Verif.OptionalKinds

/-! ## Specification -/

/-- A value of type `K'` as a value of type `K`, where C++ converts it. -/
def asKind (K' K : Kind) (v : Nat) : Option Nat :=
  if K' = K then some v
  else if K = .bool then some (if v = 0 then 0 else 1)
  else if K' = .bool ∧ K = .int then some v
  else none

/-- What an optional given the value `v` holds: a null pointer is nothing. -/
def holding (K : Kind) (v : Nat) : Option Nat := if K = .ptr ∧ v = 0 then none else some v

/-- What an optional of type `K` made from an optional of type `K'` with content `o` holds; `none` if there is no conversion. -/
def converted (K' K : Kind) (o : Option Nat) : Option (Option Nat) :=
  match o with
  | none => (asKind K' K 0).map fun _ => none
  | some v => (asKind K' K v).map (holding K)

/-- What the variables hold. -/
abbrev Abs := Nat → Option (Kind × Option Nat)

def Abs.set (σ : Abs) (x : Nat) (v : Option (Kind × Option Nat)) : Abs := fun y => if y = x then v else σ y

/-- What each statement should do. `none`, no answer: `emplace` of a null pointer, the assignment of an optional to itself and
`get_unsafe` of an empty optional, which the code excludes by contracts, and the cases in which the code is wrong: copies of variables
that are not `const` to optionals of `bool`, and `swap` of an optional that has a value with one that has none. -/
def spec (σ : Abs) : Op → Option (Res × Abs)
  | .new x K =>
    match σ x with
    | some _ => some (.skipped, σ)
    | none => some (.done, σ.set x (some (K, none)))
  | .newVal x K K' v =>
    match σ x, asKind K' K v with
    | none, some v => some (.done, σ.set x (some (K, holding K v)))
    | _, _ => some (.skipped, σ)
  | .newFrom x K y src =>
    match σ x, σ y with
    | none, some (K', o) =>
      match converted K' K o with
      | none => some (.skipped, σ)
      | some o' =>
        if src = .var ∧ K = .bool then none
        else if src = .move then some (.done, (σ.set x (some (K, o'))).set y (some (K', none)))
        else some (.done, σ.set x (some (K, o')))
    | _, _ => some (.skipped, σ)
  | .newStd x K K' o =>
    match σ x, converted K' K o with
    | none, some o' => some (.done, σ.set x (some (K, o')))
    | _, _ => some (.skipped, σ)
  | .newMap x K y f =>
    match σ x, σ y with
    | none, some (_, o) => some (.done, σ.set x (some (K, o.bind fun v => holding K (f v))))
    | _, _ => some (.skipped, σ)
  | .newFilter x y src p =>
    match σ x, σ y with
    | none, some (K, o) =>
      if o.any p then
        if src = .var ∧ K = .bool then none
        else if src = .move then some (.done, (σ.set x (some (K, o))).set y (some (K, none)))
        else some (.done, σ.set x (some (K, o)))
      else some (.done, σ.set x (some (K, none)))
    | _, _ => some (.skipped, σ)
  | .del x =>
    match σ x with
    | some _ => some (.done, σ.set x none)
    | none => some (.skipped, σ)
  | .emplace x K' v =>
    match σ x with
    | some (K, _) =>
      match asKind K' K v with
      | none => some (.skipped, σ)
      | some v => if K = .ptr ∧ v = 0 then none else some (.done, σ.set x (some (K, some v)))
    | none => some (.skipped, σ)
  | .reset x =>
    match σ x with
    | some (K, _) => some (.done, σ.set x (some (K, none)))
    | none => some (.skipped, σ)
  | .assign x y =>
    match σ x, σ y with
    | some (K, _), some (K', o) =>
      match converted K' K o with
      | none => some (.skipped, σ)
      | some o' => if x = y then none else some (.done, σ.set x (some (K, o')))
    | _, _ => some (.skipped, σ)
  | .assignVal x K' v =>
    match σ x with
    | some (K, _) =>
      match asKind K' K v with
      | none => some (.skipped, σ)
      | some v => some (.done, σ.set x (some (K, holding K v)))
    | none => some (.skipped, σ)
  | .assignNull x =>
    match σ x with
    | some (K, _) => some (.done, σ.set x (some (K, none)))
    | none => some (.skipped, σ)
  | .swap x y =>
    match σ x, σ y with
    | some (K, o), some (K', o') =>
      if K ≠ K' then some (.skipped, σ)
      else if o.isSome ∧ o' = none then none
      else some (.done, (σ.set x (some (K, o'))).set y (some (K, o)))
    | _, _ => some (.skipped, σ)
  | .get x =>
    match σ x with
    | some (_, none) => some (.noValue, σ)
    | some (_, some v) => some (.value v, σ)
    | none => some (.skipped, σ)
  | .setVal x v =>
    match σ x with
    | some (_, none) => some (.noValue, σ)
    | some (K, some _) => some (.done, σ.set x (some (K, holding K v)))
    | none => some (.skipped, σ)
  | .getUnsafe x =>
    match σ x with
    | some (_, none) => none
    | some (_, some v) => some (.value v, σ)
    | none => some (.skipped, σ)
  | .getOr x d =>
    match σ x with
    | some (_, o) => some (.value (o.getD d), σ)
    | none => some (.skipped, σ)
  | .isEmpty x =>
    match σ x with
    | some (_, o) => some (.bool o.isNone, σ)
    | none => some (.skipped, σ)
  | .exists x p =>
    match σ x with
    | some (_, o) => some (.bool (o.any p), σ)
    | none => some (.skipped, σ)
  | .visit x f =>
    match σ x with
    | some (_, none) => some (.done, σ)
    | some (K, some v) => some (.done, σ.set x (some (K, holding K (f v))))
    | none => some (.skipped, σ)
  | .toStd x =>
    match σ x with
    | some (_, o) => some (.std o, σ)
    | none => some (.skipped, σ)

def specRun (σ : Abs) : List Op → Option (List Res × Abs)
  | [] => some ([], σ)
  | op :: ops =>
    match spec σ op with
    | none => none
    | some (r, σ) =>
      match specRun σ ops with
      | none => none
      | some (rs, σ') => some (r :: rs, σ')

/-! ## Proof -/

/-- What an optional holds. -/
def Sto.content (K : Kind) (t : Sto) : Option Nat := if t.isStored K then some t.val else none

/-- What the variables hold. -/
def St.abs (s : St) : Abs := fun x => (s x).map fun v => (v.1, v.2.content v.1)

theorem abs_set (s : St) (x : Nat) (v : Option (Kind × Sto)) : (s.set x v).abs = s.abs.set x (v.map fun v => (v.1, v.2.content v.1)) := by
  funext y
  simp only [St.abs, St.set, Abs.set]
  split <;> rfl

theorem set_self {σ : Abs} {x y : Nat} {v w : Option (Kind × Option Nat)} (hxy : y ≠ x) (h : σ y = w) : (σ.set x v).set y w = σ.set x v := by
  funext z
  simp only [Abs.set]
  by_cases hz : z = y
  · subst hz; simp [hxy, h]
  · simp [hz]

theorem set_same {σ : Abs} {x : Nat} {w : Option (Kind × Option Nat)} (h : σ x = w) : σ.set x w = σ := by
  funext z
  simp only [Abs.set]
  split
  · rename_i e; rw [e, h]
  · rfl

theorem set_twice (σ : Abs) (x : Nat) (v w : Option (Kind × Option Nat)) : (σ.set x v).set x w = σ.set x w := by
  funext z
  simp only [Abs.set]
  split <;> rfl

theorem content_blank (K : Kind) : Sto.blank.content K = none := by cases K <;> rfl

theorem content_isStored {K : Kind} {t : Sto} : (t.content K).isSome = t.isStored K := by
  unfold Sto.content
  split <;> simp_all

theorem content_some {K : Kind} {t : Sto} {v : Nat} (h : t.content K = some v) : t.isStored K = true ∧ t.val = v := by
  unfold Sto.content at h
  split at h <;> simp_all

theorem content_none {K : Kind} {t : Sto} (h : t.content K = none) : t.isStored K = false := by
  unfold Sto.content at h
  split at h <;> simp_all

theorem content_put {K : Kind} {t : Sto} (v : Nat) (h : t.isStored K = true) : (t.put v).content K = holding K v := by
  cases K <;> simp_all [Sto.content, Sto.isStored, Sto.put, holding]

theorem construct_ok {K : Kind} {t : Sto} (v : Nat) (h : t.isStored K = false) : ∃ u, construct_ K t v = some u ∧ u.content K = holding K v := by
  refine ⟨_, by simp only [construct_, h]; rfl, ?_⟩
  cases K <;> simp_all [Sto.content, Sto.isStored, Sto.put, Sto.setStored, holding]

theorem content_destroy (K : Kind) (t : Sto) : (destroy_ K t).content K = none := by
  unfold destroy_
  cases K <;> cases h : t.flag <;> simp [Sto.content, Sto.isStored, Sto.setStored, Sto.drop, h] <;> split <;> simp_all

theorem blank_isStored (K : Kind) : Sto.blank.isStored K = false := by cases K <;> rfl

theorem destroy_isStored (K : Kind) (t : Sto) : (destroy_ K t).isStored K = false := content_none (content_destroy K t)

theorem holding_some {K : Kind} {t : Sto} {v : Nat} (h : t.content K = some v) : holding K v = some v := by
  obtain ⟨h1, h2⟩ := content_some h
  cases K <;> simp_all [Sto.isStored, holding]

theorem conv_spec (K' K : Kind) : (∀ v, (conv K' K).map (fun c => c v) = asKind K' K v) := by
  intro v
  cases K' <;> cases K <;> simp [conv, asKind]

theorem conv_none {K' K : Kind} (h : conv K' K = none) (v : Nat) : asKind K' K v = none := by rw [← conv_spec, h]; rfl

theorem conv_some {K' K : Kind} {c : Nat → Nat} (h : conv K' K = some c) (v : Nat) : asKind K' K v = some (c v) := by rw [← conv_spec, h]; rfl

theorem converted_none {K' K : Kind} (h : conv K' K = none) (o : Option Nat) : converted K' K o = none := by
  cases o <;> simp [converted, conv_none h]

theorem converted_some {K' K : Kind} {c : Nat → Nat} (h : conv K' K = some c) (o : Option Nat) :
    converted K' K o = some (o.bind fun v => holding K (c v)) := by
  cases o <;> simp [converted, conv_some h]

theorem copyConstructor_ok {K K' : Kind} {c : Nat → Nat} {t t' : Sto} (h : t.isStored K = false) :
    ∃ u, copyConstructor K K' c t t' = some u ∧ u.content K = (t'.content K').bind fun v => holding K (c v) := by
  unfold copyConstructor Sto.content
  split
  · obtain ⟨u, h1, h2⟩ := construct_ok (c t'.val) h
    exact ⟨u, h1, h2⟩
  · refine ⟨_, rfl, ?_⟩
    cases K <;> simp_all [Sto.isStored, Sto.setStored]

theorem moveConstructor_ok {K K' : Kind} {c : Nat → Nat} {t t' : Sto} (h : t.isStored K = false) :
    ∃ u, moveConstructor K K' c t t' = some u ∧ u.1.content K = ((t'.content K').bind fun v => holding K (c v)) ∧ u.2.content K' = none := by
  unfold moveConstructor
  split
  · rename_i hs
    obtain ⟨u, h1, h2⟩ := construct_ok (c t'.val) h
    rw [h1]
    exact ⟨_, rfl, by simp [Sto.content, hs]; exact h2, content_destroy _ _⟩
  · rename_i hs
    refine ⟨_, rfl, ?_, by simp [Sto.content, hs]⟩
    cases K <;> simp_all [Sto.content, Sto.isStored, Sto.setStored]

theorem assign_ok {K K' : Kind} {c : Nat → Nat} {t t' : Sto} :
    ∃ u, assign K K' c t t' = some u ∧ u.content K = (t'.content K').bind fun v => holding K (c v) := by
  unfold assign
  split
  · rename_i hs
    simp only [Bool.and_eq_true] at hs
    exact ⟨_, rfl, by rw [content_put _ hs.1]; simp [Sto.content, hs.2]⟩
  · split
    · rename_i hs
      obtain ⟨u, h1, h2⟩ := construct_ok (c t'.val) (destroy_isStored K t)
      exact ⟨u, h1, by rw [h2]; simp [Sto.content, hs]⟩
    · rename_i hs
      exact ⟨_, rfl, by rw [content_destroy]; simp [Sto.content, hs]⟩

theorem newFrom_ok {K K' : Kind} {c : Nat → Nat} {src : Src} {t' : Sto} (h : ¬ (src = .var ∧ K = .bool)) :
    ∃ u, newFrom K K' c src t' = some u ∧ u.1.content K = ((t'.content K').bind fun v => holding K (c v)) ∧
      u.2.content K' = if src = .move then none else t'.content K' := by
  obtain ⟨u, h1, h2⟩ := copyConstructor_ok (K := K) (K' := K') (c := c) (t' := t') (blank_isStored K)
  cases src with
  | move =>
    obtain ⟨u, h1, h2, h3⟩ := moveConstructor_ok (K := K) (K' := K') (c := c) (t' := t') (blank_isStored K)
    exact ⟨u, h1, h2, h3⟩
  | const => exact ⟨_, by simp only [newFrom, h1]; rfl, h2, rfl⟩
  | var =>
    have hK : K ≠ .bool := fun e => h ⟨rfl, e⟩
    exact ⟨_, by simp only [newFrom, hK, h1]; rfl, h2, rfl⟩

theorem self_bind {K : Kind} {t : Sto} : ((t.content K).bind fun v => holding K (id v)) = t.content K := by
  cases h : t.content K with
  | none => rfl
  | some v => exact holding_some h

theorem swap_ok {K : Kind} {t t' : Sto} (h : ¬ ((t.content K).isSome ∧ t'.content K = none)) :
    ∃ u, swap_ K t t' = some u ∧ u.1.content K = t'.content K ∧ u.2.content K = t.content K := by
  unfold swap_
  split
  · rename_i hs
    simp only [Bool.and_eq_true] at hs
    refine ⟨_, rfl, ?_, ?_⟩
    · have : t'.content K = some t'.val := by simp [Sto.content, hs.2]
      rw [content_put _ hs.1, holding_some this, this]
    · have : t.content K = some t.val := by simp [Sto.content, hs.1]
      rw [content_put _ hs.2, holding_some this, this]
  · rename_i hn
    split
    · rename_i hs
      have h0 : t.isStored K = false := by simpa [hs] using hn
      obtain ⟨u, h1, h2, h3⟩ := moveConstructor_ok (K := K) (K' := K) (c := id) (t := t) (t' := t') h0
      exact ⟨u, h1, by rw [h2, self_bind], by rw [h3]; simp [Sto.content, h0]⟩
    · rename_i hs
      have h' : t'.content K = none := by simp [Sto.content, hs]
      have h0 : t.content K = none := by
        cases e : t.content K with
        | none => rfl
        | some v => exact absurd ⟨by simp [e], h'⟩ h
      exact ⟨_, rfl, by rw [content_destroy, h'], by rw [h', h0]⟩

theorem abs_some {s : St} {x : Nat} {K : Kind} {t : Sto} (h : s x = some (K, t)) : s.abs x = some (K, t.content K) := by simp [St.abs, h]

theorem abs_none {s : St} {x : Nat} (h : s x = none) : s.abs x = none := by simp [St.abs, h]

/-- One statement does what it should. -/
theorem step_ok {s : St} {op : Op} {r : Res} {σ' : Abs} (h : spec s.abs op = some (r, σ')) : ∃ s', step s op = some (r, s') ∧ s'.abs = σ' := by
  cases op with
  | new x K =>
    cases hx : s x with
    | none =>
      simp only [spec, abs_none hx, Option.some.injEq, Prod.mk.injEq] at h
      obtain ⟨rfl, rfl⟩ := h
      exact ⟨_, by simp only [step, hx] <;> rfl, by rw [abs_set]; simp [content_blank]⟩
    | some v =>
      simp only [spec, abs_some hx, Option.some.injEq, Prod.mk.injEq] at h
      obtain ⟨rfl, rfl⟩ := h
      exact ⟨_, by simp only [step, hx] <;> rfl, rfl⟩
  | newVal x K K' v =>
    cases hx : s x with
    | some v =>
      simp only [spec, abs_some hx, Option.some.injEq, Prod.mk.injEq] at h
      obtain ⟨rfl, rfl⟩ := h
      exact ⟨_, by simp only [step, hx] <;> rfl, rfl⟩
    | none =>
      cases hc : conv K' K with
      | none =>
        simp only [spec, abs_none hx, conv_none hc, Option.some.injEq, Prod.mk.injEq] at h
        obtain ⟨rfl, rfl⟩ := h
        exact ⟨_, by simp only [step, hx, hc] <;> rfl, rfl⟩
      | some c =>
        simp only [spec, abs_none hx, conv_some hc, Option.some.injEq, Prod.mk.injEq] at h
        obtain ⟨rfl, rfl⟩ := h
        obtain ⟨u, h1, h2⟩ := construct_ok (c v) (blank_isStored K)
        exact ⟨_, by simp only [step, hx, hc, h1] <;> rfl, by rw [abs_set]; simp [h2]⟩
  | newFrom x K y src =>
    cases hx : s x with
    | some v =>
      simp only [spec, abs_some hx, Option.some.injEq, Prod.mk.injEq] at h
      obtain ⟨rfl, rfl⟩ := h
      exact ⟨_, by simp only [step, hx] <;> rfl, rfl⟩
    | none =>
      cases hy : s y with
      | none =>
        simp only [spec, abs_none hx, abs_none hy, Option.some.injEq, Prod.mk.injEq] at h
        obtain ⟨rfl, rfl⟩ := h
        exact ⟨_, by simp only [step, hx, hy] <;> rfl, rfl⟩
      | some w =>
        obtain ⟨K', t'⟩ := w
        have hyx : y ≠ x := fun e => by rw [e, hx] at hy; cases hy
        cases hc : conv K' K with
        | none =>
          simp only [spec, abs_none hx, abs_some hy, converted_none hc, Option.some.injEq, Prod.mk.injEq] at h
          obtain ⟨rfl, rfl⟩ := h
          exact ⟨_, by simp only [step, hx, hy, hc] <;> rfl, rfl⟩
        | some c =>
          simp only [spec, abs_none hx, abs_some hy, converted_some hc] at h
          split at h
          · cases h
          · rename_i hn
            obtain ⟨u, h1, h2, h3⟩ := newFrom_ok (K' := K') (c := c) (t' := t') hn
            refine ⟨((s.set x (some (K, u.1))).set y (some (K', u.2))), ?_, ?_⟩
            · simp only [step, hx, hy, hc, h1]
              split at h <;> (cases h; rfl)
            · rw [abs_set, abs_set]
              simp only [Option.map_some, h2, h3]
              split at h
              · rename_i hm; cases h; simp [hm]
              · rename_i hm
                cases h
                simp only [hm]
                exact set_self hyx (abs_some hy)
  | newStd x K K' o =>
    cases hx : s x with
    | some v =>
      simp only [spec, abs_some hx, Option.some.injEq, Prod.mk.injEq] at h
      obtain ⟨rfl, rfl⟩ := h
      exact ⟨_, by simp only [step, hx] <;> rfl, rfl⟩
    | none =>
      cases hc : conv K' K with
      | none =>
        simp only [spec, abs_none hx, converted_none hc, Option.some.injEq, Prod.mk.injEq] at h
        obtain ⟨rfl, rfl⟩ := h
        exact ⟨_, by simp only [step, hx, hc] <;> rfl, rfl⟩
      | some c =>
        simp only [spec, abs_none hx, converted_some hc, Option.some.injEq, Prod.mk.injEq] at h
        obtain ⟨rfl, rfl⟩ := h
        cases o with
        | none => exact ⟨_, by simp only [step, hx, hc] <;> rfl, by rw [abs_set]; simp [content_blank]⟩
        | some v =>
          obtain ⟨u, h1, h2⟩ := construct_ok (c v) (blank_isStored K)
          exact ⟨_, by simp only [step, hx, hc, h1] <;> rfl, by rw [abs_set]; simp [h2]⟩
  | newMap x K y f =>
    cases hx : s x with
    | some v =>
      simp only [spec, abs_some hx, Option.some.injEq, Prod.mk.injEq] at h
      obtain ⟨rfl, rfl⟩ := h
      exact ⟨_, by simp only [step, hx] <;> rfl, rfl⟩
    | none =>
      cases hy : s y with
      | none =>
        simp only [spec, abs_none hx, abs_none hy, Option.some.injEq, Prod.mk.injEq] at h
        obtain ⟨rfl, rfl⟩ := h
        exact ⟨_, by simp only [step, hx, hy] <;> rfl, rfl⟩
      | some w =>
        obtain ⟨K', t'⟩ := w
        simp only [spec, abs_none hx, abs_some hy, Option.some.injEq, Prod.mk.injEq] at h
        obtain ⟨rfl, rfl⟩ := h
        cases hs : t'.isStored K' with
        | false => exact ⟨_, by simp only [step, hx, hy, hs] <;> rfl, by rw [abs_set]; simp [content_blank, Sto.content, hs]; cases K <;> rfl⟩
        | true =>
          obtain ⟨u, h1, h2⟩ := construct_ok (f t'.val) (blank_isStored K)
          exact ⟨_, by simp only [step, hx, hy, hs, h1] <;> rfl, by rw [abs_set]; simp only [Option.map_some, h2]; simp [Sto.content, hs]⟩
  | newFilter x y src p =>
    cases hx : s x with
    | some v =>
      simp only [spec, abs_some hx, Option.some.injEq, Prod.mk.injEq] at h
      obtain ⟨rfl, rfl⟩ := h
      exact ⟨_, by simp only [step, hx] <;> rfl, rfl⟩
    | none =>
      cases hy : s y with
      | none =>
        simp only [spec, abs_none hx, abs_none hy, Option.some.injEq, Prod.mk.injEq] at h
        obtain ⟨rfl, rfl⟩ := h
        exact ⟨_, by simp only [step, hx, hy] <;> rfl, rfl⟩
      | some w =>
        obtain ⟨K, t'⟩ := w
        have hyx : y ≠ x := fun e => by rw [e, hx] at hy; cases hy
        have hp : (t'.content K).any p = (t'.isStored K && p t'.val) := by
          unfold Sto.content; split <;> simp_all
        simp only [spec, abs_none hx, abs_some hy, hp] at h
        split at h
        · rename_i hb
          split at h
          · cases h
          · rename_i hn
            obtain ⟨u, h1, h2, h3⟩ := newFrom_ok (K := K) (K' := K) (c := id) (t' := t') hn
            rw [self_bind] at h2
            refine ⟨((s.set x (some (K, u.1))).set y (some (K, u.2))), ?_, ?_⟩
            · simp only [step, hx, hy, hb, h1]
              split at h <;> (cases h; rfl)
            · rw [abs_set, abs_set]
              simp only [Option.map_some, h2, h3]
              split at h
              · rename_i hm; cases h; simp [hm]
              · rename_i hm
                cases h
                simp only [hm]
                exact set_self hyx (abs_some hy)
        · rename_i hb
          cases h
          exact ⟨_, by simp only [step, hx, hy, hb] <;> rfl, by rw [abs_set]; simp [content_blank]⟩
  | del x =>
    cases hx : s x with
    | none =>
      simp only [spec, abs_none hx, Option.some.injEq, Prod.mk.injEq] at h
      obtain ⟨rfl, rfl⟩ := h
      exact ⟨_, by simp only [step, hx] <;> rfl, rfl⟩
    | some v =>
      simp only [spec, abs_some hx, Option.some.injEq, Prod.mk.injEq] at h
      obtain ⟨rfl, rfl⟩ := h
      exact ⟨_, by simp only [step, hx] <;> rfl, by rw [abs_set]; rfl⟩
  | emplace x K' v =>
    cases hx : s x with
    | none =>
      simp only [spec, abs_none hx, Option.some.injEq, Prod.mk.injEq] at h
      obtain ⟨rfl, rfl⟩ := h
      exact ⟨_, by simp only [step, hx] <;> rfl, rfl⟩
    | some w =>
      obtain ⟨K, t⟩ := w
      cases hc : conv K' K with
      | none =>
        simp only [spec, abs_some hx, conv_none hc, Option.some.injEq, Prod.mk.injEq] at h
        obtain ⟨rfl, rfl⟩ := h
        exact ⟨_, by simp only [step, hx, hc] <;> rfl, rfl⟩
      | some c =>
        simp only [spec, abs_some hx, conv_some hc] at h
        split at h
        · cases h
        · rename_i hn
          cases h
          obtain ⟨u, h1, h2⟩ := construct_ok (c v) (destroy_isStored K t)
          rw [holding, if_neg hn] at h2
          exact ⟨_, by simp only [step, hx, hc, h1, (content_some h2).1] <;> rfl, by rw [abs_set]; simp [h2]⟩
  | reset x =>
    cases hx : s x with
    | none =>
      simp only [spec, abs_none hx, Option.some.injEq, Prod.mk.injEq] at h
      obtain ⟨rfl, rfl⟩ := h
      exact ⟨_, by simp only [step, hx] <;> rfl, rfl⟩
    | some v =>
      simp only [spec, abs_some hx, Option.some.injEq, Prod.mk.injEq] at h
      obtain ⟨rfl, rfl⟩ := h
      exact ⟨_, by simp only [step, hx] <;> rfl, by rw [abs_set]; simp [content_destroy]⟩
  | assign x y =>
    cases hx : s x with
    | none =>
      simp only [spec, abs_none hx, Option.some.injEq, Prod.mk.injEq] at h
      obtain ⟨rfl, rfl⟩ := h
      exact ⟨_, by simp only [step, hx] <;> rfl, rfl⟩
    | some v =>
      obtain ⟨K, t⟩ := v
      cases hy : s y with
      | none =>
        simp only [spec, abs_some hx, abs_none hy, Option.some.injEq, Prod.mk.injEq] at h
        obtain ⟨rfl, rfl⟩ := h
        exact ⟨_, by simp only [step, hx, hy] <;> rfl, rfl⟩
      | some w =>
        obtain ⟨K', t'⟩ := w
        cases hc : conv K' K with
        | none =>
          simp only [spec, abs_some hx, abs_some hy, converted_none hc, Option.some.injEq, Prod.mk.injEq] at h
          obtain ⟨rfl, rfl⟩ := h
          exact ⟨_, by simp only [step, hx, hy, hc] <;> rfl, rfl⟩
        | some c =>
          simp only [spec, abs_some hx, abs_some hy, converted_some hc] at h
          split at h
          · cases h
          · rename_i hn
            cases h
            obtain ⟨u, h1, h2⟩ := assign_ok (K := K) (K' := K') (c := c) (t := t) (t' := t')
            exact ⟨_, by simp only [step, hx, hy, hc, hn, h1] <;> rfl, by rw [abs_set]; simp [h2]⟩
  | assignVal x K' v =>
    cases hx : s x with
    | none =>
      simp only [spec, abs_none hx, Option.some.injEq, Prod.mk.injEq] at h
      obtain ⟨rfl, rfl⟩ := h
      exact ⟨_, by simp only [step, hx] <;> rfl, rfl⟩
    | some w =>
      obtain ⟨K, t⟩ := w
      cases hc : conv K' K with
      | none =>
        simp only [spec, abs_some hx, conv_none hc, Option.some.injEq, Prod.mk.injEq] at h
        obtain ⟨rfl, rfl⟩ := h
        exact ⟨_, by simp only [step, hx, hc] <;> rfl, rfl⟩
      | some c =>
        simp only [spec, abs_some hx, conv_some hc, Option.some.injEq, Prod.mk.injEq] at h
        obtain ⟨rfl, rfl⟩ := h
        obtain ⟨u, h1, h2⟩ := construct_ok (c v) (blank_isStored K)
        obtain ⟨w, h3, h4⟩ := assign_ok (K := K) (K' := K) (c := id) (t := t) (t' := u)
        rw [self_bind] at h4
        exact ⟨_, by simp only [step, hx, hc, h1, Option.bind_some, h3] <;> rfl, by rw [abs_set]; simp [h4, h2]⟩
  | assignNull x =>
    cases hx : s x with
    | none =>
      simp only [spec, abs_none hx, Option.some.injEq, Prod.mk.injEq] at h
      obtain ⟨rfl, rfl⟩ := h
      exact ⟨_, by simp only [step, hx] <;> rfl, rfl⟩
    | some w =>
      obtain ⟨K, t⟩ := w
      simp only [spec, abs_some hx, Option.some.injEq, Prod.mk.injEq] at h
      obtain ⟨rfl, rfl⟩ := h
      obtain ⟨w, h3, h4⟩ := assign_ok (K := K) (K' := K) (c := id) (t := t) (t' := .blank)
      rw [self_bind, content_blank] at h4
      exact ⟨_, by simp only [step, hx, h3] <;> rfl, by rw [abs_set]; simp [h4]⟩
  | swap x y =>
    cases hx : s x with
    | none =>
      simp only [spec, abs_none hx, Option.some.injEq, Prod.mk.injEq] at h
      obtain ⟨rfl, rfl⟩ := h
      exact ⟨_, by simp only [step, hx] <;> rfl, rfl⟩
    | some v =>
      obtain ⟨K, t⟩ := v
      cases hy : s y with
      | none =>
        simp only [spec, abs_some hx, abs_none hy, Option.some.injEq, Prod.mk.injEq] at h
        obtain ⟨rfl, rfl⟩ := h
        exact ⟨_, by simp only [step, hx, hy] <;> rfl, rfl⟩
      | some w =>
        obtain ⟨K', t'⟩ := w
        simp only [spec, abs_some hx, abs_some hy] at h
        by_cases hK : K = K'
        · subst hK
          simp only [ne_eq, not_true_eq_false, if_false] at h
          split at h
          · cases h
          · rename_i hn
            cases h
            obtain ⟨u, h1, h2, h3⟩ := swap_ok hn
            by_cases hxy : x = y
            · subst hxy
              rw [hx] at hy
              cases hy
              exact ⟨s.set x (some (K, t)), by simp [step, hx, h1], by rw [abs_set]; simp only [Option.map_some]; rw [set_twice]⟩
            · exact ⟨(s.set x (some (K, u.1))).set y (some (K, u.2)), by simp [step, hx, hy, h1, hxy], by rw [abs_set, abs_set]; simp [h2, h3]⟩
        · simp only [ne_eq, hK, not_false_eq_true, if_true] at h
          cases h
          exact ⟨_, by simp only [step, hx, hy, if_neg hK] <;> rfl, rfl⟩
  | get x =>
    cases hx : s x with
    | none => simp only [spec, abs_none hx] at h; cases h; exact ⟨_, by simp only [step, hx] <;> rfl, rfl⟩
    | some w =>
      obtain ⟨K, t⟩ := w
      cases hs : t.isStored K <;> simp [spec, abs_some hx, Sto.content, hs] at h <;> obtain ⟨rfl, rfl⟩ := h <;> exact ⟨_, by simp only [step, hx, hs] <;> rfl, rfl⟩
  | setVal x v =>
    cases hx : s x with
    | none => simp only [spec, abs_none hx] at h; cases h; exact ⟨_, by simp only [step, hx] <;> rfl, rfl⟩
    | some w =>
      obtain ⟨K, t⟩ := w
      cases hs : t.isStored K with
      | false => simp [spec, abs_some hx, Sto.content, hs] at h; obtain ⟨rfl, rfl⟩ := h; exact ⟨_, by simp only [step, hx, hs] <;> rfl, rfl⟩
      | true =>
        simp [spec, abs_some hx, Sto.content, hs] at h
        obtain ⟨rfl, rfl⟩ := h
        exact ⟨_, by simp only [step, hx, hs] <;> rfl, by rw [abs_set]; simp [content_put _ hs]⟩
  | getUnsafe x =>
    cases hx : s x with
    | none => simp only [spec, abs_none hx] at h; cases h; exact ⟨_, by simp only [step, hx] <;> rfl, rfl⟩
    | some w =>
      obtain ⟨K, t⟩ := w
      cases hs : t.isStored K with
      | false => simp [spec, abs_some hx, Sto.content, hs] at h
      | true => simp [spec, abs_some hx, Sto.content, hs] at h; obtain ⟨rfl, rfl⟩ := h; exact ⟨_, by simp only [step, hx, hs] <;> rfl, rfl⟩
  | getOr x d =>
    cases hx : s x with
    | none => simp only [spec, abs_none hx] at h; cases h; exact ⟨_, by simp only [step, hx] <;> rfl, rfl⟩
    | some w =>
      obtain ⟨K, t⟩ := w
      cases hs : t.isStored K <;> simp [spec, abs_some hx, Sto.content, hs] at h <;> obtain ⟨rfl, rfl⟩ := h <;> exact ⟨_, by simp only [step, hx, hs] <;> rfl, rfl⟩
  | isEmpty x =>
    cases hx : s x with
    | none => simp only [spec, abs_none hx] at h; cases h; exact ⟨_, by simp only [step, hx] <;> rfl, rfl⟩
    | some w =>
      obtain ⟨K, t⟩ := w
      cases hs : t.isStored K <;> simp [spec, abs_some hx, Sto.content, hs] at h <;> obtain ⟨rfl, rfl⟩ := h <;> exact ⟨_, by simp only [step, hx, hs] <;> rfl, rfl⟩
  | «exists» x p =>
    cases hx : s x with
    | none => simp only [spec, abs_none hx] at h; cases h; exact ⟨_, by simp only [step, hx] <;> rfl, rfl⟩
    | some w =>
      obtain ⟨K, t⟩ := w
      cases hs : t.isStored K <;> simp [spec, abs_some hx, Sto.content, hs] at h <;> obtain ⟨rfl, rfl⟩ := h <;> exact ⟨_, by simp only [step, hx, hs] <;> rfl, rfl⟩
  | visit x f =>
    cases hx : s x with
    | none => simp only [spec, abs_none hx] at h; cases h; exact ⟨_, by simp only [step, hx] <;> rfl, rfl⟩
    | some w =>
      obtain ⟨K, t⟩ := w
      cases hs : t.isStored K with
      | false => simp [spec, abs_some hx, Sto.content, hs] at h; obtain ⟨rfl, rfl⟩ := h; exact ⟨_, by simp only [step, hx, hs] <;> rfl, rfl⟩
      | true =>
        simp [spec, abs_some hx, Sto.content, hs] at h
        obtain ⟨rfl, rfl⟩ := h
        exact ⟨_, by simp only [step, hx, hs] <;> rfl, by rw [abs_set]; simp [content_put _ hs]⟩
  | toStd x =>
    cases hx : s x with
    | none => simp only [spec, abs_none hx] at h; cases h; exact ⟨_, by simp only [step, hx] <;> rfl, rfl⟩
    | some w =>
      obtain ⟨K, t⟩ := w
      cases hs : t.isStored K <;> simp [spec, abs_some hx, Sto.content, hs] at h <;> obtain ⟨rfl, rfl⟩ := h <;> exact ⟨_, by simp only [step, hx, hs] <;> rfl, rfl⟩

theorem run_ok : ∀ {ops : List Op} {s : St} {rs : List Res} {σ' : Abs}, specRun s.abs ops = some (rs, σ') → ∃ s', run s ops = some (rs, s') ∧ s'.abs = σ'
  | [], s, rs, σ', h => by
    simp only [specRun, Option.some.injEq, Prod.mk.injEq] at h
    exact ⟨s, by simp [run, h.1], h.2⟩
  | op :: ops, s, rs, σ', h => by
    simp only [specRun] at h
    split at h
    · cases h
    · rename_i r σ1 h1
      split at h
      · cases h
      · rename_i rs' σ2 h2
        cases h
        obtain ⟨s1, e1, rfl⟩ := step_ok h1
        obtain ⟨s2, e2, a2⟩ := run_ok h2
        exact ⟨s2, by simp [run, e1, e2], a2⟩

/-! ## The property -/

/-- **C92.** A program on optionals of pointers, booleans and numbers, and conversions between them, does what it should: every result
is that of values or nothing, where a null pointer is nothing, and after it the variables hold what they should.

*Partial.* The statement asked for every program. What is missing are the statements for which `spec` gives no answer: those that the
code excludes by contracts, copies of variables that are not `const` to an optional of `bool` (`C92_copy_bool_violated`,
`C92_filter_violated`), and `swap` of an optional that has a value with one that has none (`C92_swap_violated`). -/
theorem C92_partial (ops : List Op) (rs : List Res) (σ' : Abs) (h : specRun (fun _ => none) ops = some (rs, σ')) :
    ∃ s', run (fun _ => none) ops = some (rs, s') ∧
      ∀ x, σ' x = (s' x).map fun v => (v.1, if v.1 = .ptr then (if v.2.val = 0 then none else some v.2.val) else if v.2.flag then some v.2.val else none) := by
  obtain ⟨s', h1, h2⟩ := run_ok (s := fun _ => none) h
  refine ⟨s', h1, fun x => ?_⟩
  rw [← h2, St.abs]
  cases hx : s' x with
  | none => rfl
  | some w =>
    obtain ⟨K, t⟩ := w
    cases K <;> simp [Sto.content, Sto.isStored] <;> split <;> simp_all

/-- **C92**, pointers: no optional pointer gives out a null pointer, whatever was done to it. -/
theorem C92_not_null (s : St) (x v : Nat) (t : Sto) (s' : St) (hx : s x = some (.ptr, t)) :
    (step s (.get x) = some (.value v, s') → v ≠ 0) ∧ (step s (.getUnsafe x) = some (.value v, s') → v ≠ 0) ∧ (step s (.toStd x) = some (.std (some v), s') → v ≠ 0) := by
  have hs : t.isStored .ptr = (t.val != 0) := rfl
  cases hv : t.val with
  | zero => simp [step, hx, hs, hv]
  | succ n => simp [step, hx, hs, hv]; omega

/-- **C92**, `std::optional`: a value that goes through an optional is the same after that, but for null pointers. -/
theorem C92_std (K : Kind) (o : Option Nat) (ho : K = .ptr → o ≠ some 0) : ∃ s', run (fun _ => none) [.newStd 0 K K o, .toStd 0] = some ([.done, .std o], s') := by
  have : specRun (fun _ => none) [.newStd 0 K K o, .toStd 0] = some ([.done, .std o], Abs.set (fun _ => none) 0 (some (K, o))) := by
    have hc : converted K K o = some o := by
      cases o with
      | none => simp [converted, asKind]
      | some v =>
        simp only [converted, asKind, if_true, Option.map_some, holding]
        rw [if_neg]
        rintro ⟨h1, rfl⟩
        exact ho h1 rfl
    simp [specRun, spec, hc, Abs.set]
  obtain ⟨s', h1, _⟩ := C92_partial _ _ _ this
  exact ⟨s', h1⟩

/-! ### Nested optionals -/

/-- Every level holds something, and the innermost holds `a`. -/
inductive Holds {α : Type} : Nested α → α → Prop where
  | inner (a : α) : Holds (.inner (some a)) a
  | outer (n : Nested α) (a : α) : Holds n a → Holds (.outer (some n)) a

/-- **C92**, `flatten`: the result holds `a` exactly if every level holds something and the innermost holds `a`; of an rvalue the same,
and after that there is nothing in it. -/
theorem C92_flatten {α : Type} : ∀ (n : Nested α) (a : α), (flatten n = some a ↔ Holds n a) ∧ ((flattenMove n).1 = some a ↔ Holds n a) ∧ ¬ Holds (flattenMove n).2 a
  | .inner o, a => by
    have h : o = some a ↔ Holds (.inner o) a := ⟨fun h => h ▸ .inner a, fun h => by cases h; rfl⟩
    exact ⟨h, h, fun h => nomatch h⟩
  | .outer none, a => ⟨⟨fun h => (nomatch h), fun h => nomatch h⟩, ⟨fun h => (nomatch h), fun h => nomatch h⟩, fun h => nomatch h⟩
  | .outer (some n), a => by
    obtain ⟨h1, h2, h3⟩ := C92_flatten n a
    have h : Holds n a ↔ Holds (.outer (some n)) a := ⟨.outer n a, fun h => by cases h; assumption⟩
    exact ⟨by simp only [flatten]; exact h1.trans h, by simp only [flattenMove]; exact h2.trans h, fun h => by
      simp only [flattenMove] at h
      cases h
      rename_i h
      exact h3 h⟩

/-- A program on an optional pointer, one of `bool` made from it, and more. -/
example : (specRun (fun _ => none) [.newVal 0 .ptr .ptr 7, .newFrom 1 .bool 0 .const, .get 1, .setVal 0 0, .isEmpty 0, .assign 1 0, .isEmpty 1, .newStd 2 .int .bool (some 1), .swap 2 2, .getOr 2 5,
    .newMap 3 .ptr 2 (fun v => v - 1), .get 3, .newFilter 4 2 .move (fun v => v == 1), .isEmpty 2, .toStd 4]).map Prod.fst =
    some [.done, .done, .value 1, .done, .bool true, .done, .bool true, .done, .done, .value 1, .done, .noValue, .done, .bool true, .std (some 1)] := by decide

example : Holds (.outer (some (.outer (some (.inner (some 5)))))) 5 := .outer _ _ (.outer _ _ (.inner 5))

/-! ## What is false -/

/-- **The full property is false**: an optional of `bool` copied from a variable that is not `const` holds whether that variable holds
something. The copy of an empty one is not empty, and the copy of one that holds `false` holds `true`. -/
theorem C92_copy_bool_violated (s : St) (x y : Nat) (K : Kind) (t : Sto) (hx : s x = none) (hy : s y = some (K, t)) :
    ∃ s', step s (.newFrom x .bool y .var) = some (.done, s') ∧ step s' (.isEmpty x) = some (.bool false, s') ∧
      step s' (.get x) = some (.value (if t.isStored K then 1 else 0), s') := by
  have hyx : y ≠ x := fun e => by rw [e, hx] at hy; cases hy
  have hc : (conv K .bool).isSome := by cases K <;> rfl
  obtain ⟨c, hc⟩ := Option.isSome_iff_exists.mp hc
  refine ⟨_, by simp only [step, hx, hy, hc, newFrom, if_true]; rfl, ?_⟩
  have : (x = y) = False := by simp [Ne.symm hyx]
  constructor <;> simp [step, St.set, this, Sto.isStored, Sto.setStored, Sto.put]

/-- The same happens in `filter` of a variable that is not `const`: of an optional with `false` the values that are `false` are `true`. -/
theorem C92_filter_violated : ∃ s', run (fun _ => none) [.newVal 0 .bool .bool 0, .newFilter 1 0 .var (fun v => v == 0), .get 1] = some ([.done, .done, .value 1], s') := ⟨_, rfl⟩

/-- `emplace` of a null pointer violates a requirement. -/
theorem C92_emplace_violated : run (fun _ => none) [.new 0 .ptr, .emplace 0 .ptr 0] = none := rfl

/-- `swap` of an optional that has a value with an empty one loses the value. -/
theorem C92_swap_violated : ∃ s', run (fun _ => none) [.newVal 0 .ptr .ptr 7, .new 1 .ptr, .swap 0 1, .isEmpty 0, .isEmpty 1] = some ([.done, .done, .done, .bool true, .bool true], s') := ⟨_, rfl⟩

end Verif.OptionalKinds
