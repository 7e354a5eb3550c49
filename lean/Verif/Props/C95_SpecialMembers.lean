import Verif.Model.SpecialMembers

/-!
C95: a variant or an optional can be copied, moved or assigned exactly if its types can; a copy never shares an object with its original,
so that every object is destroyed at most once.

True of `optional`. Of `variant` it is true, in all programs, exactly for the lists of alternatives that are all move constructible, or
all copy constructible and copy assignable. Otherwise the class has neither copying nor moving members of its own, nothing tells the
compiler not to add a copying one, and that one copies the bytes: a variant of `std::unique_ptr` and `std::mutex` can be copied, and both
copies delete the pointer. (The comment at variant.h l.355 asks for alternatives that are CopyConstructible, but the constants at l.384-387
and the members that depend on them exist for the others; nothing rejects them.)
-/
set_option autoImplicit false

namespace Verif.Special

/-! ### Specification -/

/-- All alternatives but `void` have a property. -/
def All (p : Caps → Bool) (alts : List (Option Caps)) : Prop := ∀ c, some c ∈ alts → p c = true

/-- What the statement may do, given that the elements can do the thing itself (`can`). -/
def Honest (w : Way) (can : Prop) : Prop := (can → w = .copies ∨ w = .moves) ∧ (¬ can → w = .ill)

/-- No destructor runs twice for the same object, whatever the program does with variants of these alternatives. -/
def DestroysOnce (alts : List (Option Caps)) : Prop := ∀ ops : List Stmt, (run alts init ops).destroyed.Nodup

/-! ### The members -/

theorem allCC_iff : ∀ alts : List (Option Caps), allCC alts = true ↔ All Caps.cc alts
  | [] => by simp [allCC, All]
  | none :: t => by simpa [allCC, All] using allCC_iff t
  | some c :: t => by
    have := allCC_iff t
    simp only [All] at this
    simp [allCC, All, this]

theorem allCA_iff : ∀ alts : List (Option Caps), allCA alts = true ↔ All Caps.ca alts
  | [] => by simp [allCA, All]
  | none :: t => by simpa [allCA, All] using allCA_iff t
  | some c :: t => by
    have := allCA_iff t
    simp only [All] at this
    simp [allCA, All, this]

theorem allMC_iff : ∀ alts : List (Option Caps), allMC alts = true ↔ All Caps.mc alts
  | [] => by simp [allMC, All]
  | none :: t => by simpa [allMC, All] using allMC_iff t
  | some c :: t => by
    have := allMC_iff t
    simp only [All] at this
    simp [allMC, All, this]

theorem allMA_iff : ∀ alts : List (Option Caps), allMA alts = true ↔ All Caps.ma alts
  | [] => by simp [allMA, All]
  | none :: t => by simpa [allMA, All] using allMA_iff t
  | some c :: t => by
    have := allMA_iff t
    simp only [All] at this
    simp [allMA, All, this]

/-- An optional has exactly the members that its element has; each of them uses the element's own. -/
theorem C95_optional (c : Caps) :
    ((optionalDecls c).copyInit = if c.cc then .copies else .ill) ∧
    ((optionalDecls c).moveInit = if c.mc then .moves else .ill) ∧
    ((optionalDecls c).copyAssign = if c.cc ∧ c.ca then .copies else .ill) ∧
    ((optionalDecls c).moveAssign = if c.mc ∧ c.ma then .moves else .ill) := by
  obtain ⟨cc, mc, ca, ma⟩ := c
  cases cc <;> cases mc <;> cases ca <;> cases ma <;> decide

/-- `unique_ptr`: moved, not copied. -/
example : (optionalDecls ⟨false, true, false, true⟩).copyInit = .ill ∧ (optionalDecls ⟨false, true, false, true⟩).moveInit = .moves := by decide

/-- What the four statements do with a variant. -/
theorem C95_variant_members (alts : List (Option Caps)) [Decidable (All Caps.cc alts)] [Decidable (All Caps.mc alts)]
    [Decidable (All Caps.ca alts)] [Decidable (All Caps.ma alts)] :
    ((variantDecls alts).copyInit = if All Caps.cc alts then .copies else if All Caps.mc alts then .ill else .bytes) ∧
    ((variantDecls alts).moveInit = if All Caps.mc alts then .moves else if All Caps.cc alts then .copies else .bytes) ∧
    ((variantDecls alts).copyAssign =
      if All Caps.cc alts ∧ All Caps.ca alts then .copies else if All Caps.mc alts then .ill else .bytes) ∧
    ((variantDecls alts).moveAssign =
      if All Caps.mc alts ∧ All Caps.ma alts then .moves
      else if All Caps.cc alts ∧ All Caps.ca alts then .copies else if All Caps.mc alts then .ill else .bytes) := by
  simp only [← allCC_iff, ← allMC_iff, ← allCA_iff, ← allMA_iff]
  simp only [Decls.copyInit, Decls.moveInit, Decls.copyAssign, Decls.moveAssign, variantDecls]
  cases allCC alts <;> cases allMC alts <;> cases allCA alts <;> cases allMA alts <;> simp [enabled, copying, moving]

/-- A variant whose alternatives can all be moved is as able as they are: it can be copied exactly if they all can, and so on; moving it
is always possible, and so is assigning a variant that may be moved, if the alternatives can be assigned in one of the two ways. -/
theorem C95_variant_partial (alts : List (Option Caps)) (hm : All Caps.mc alts) :
    Honest (variantDecls alts).copyInit (All Caps.cc alts) ∧
    Honest (variantDecls alts).moveInit True ∧
    Honest (variantDecls alts).copyAssign (All Caps.cc alts ∧ All Caps.ca alts) ∧
    Honest (variantDecls alts).moveAssign (All Caps.ma alts ∨ (All Caps.cc alts ∧ All Caps.ca alts)) := by
  classical
  obtain ⟨h1, h2, h3, h4⟩ := C95_variant_members alts
  rw [h1, h2, h3, h4]
  simp only [hm, true_and, if_true]
  by_cases a : All Caps.cc alts <;> by_cases b : All Caps.ca alts <;> by_cases c : All Caps.ma alts <;> simp [Honest, a, b, c]

example : All Caps.mc [none, some ⟨true, true, true, true⟩, some ⟨false, true, false, true⟩] := by simp [All]

/-! ### Programs -/

/-- Objects belong to one variable each, and are not destroyed yet. -/
structure Own (s : State) : Prop where
  once : s.destroyed.Nodup
  old : ∀ o ∈ s.destroyed, o < s.next
  bound : ∀ x v o, s.vars x = some v → v.obj = some o → o < s.next ∧ o ∉ s.destroyed
  alone : ∀ x y v w o, s.vars x = some v → s.vars y = some w → v.obj = some o → w.obj = some o → x = y

theorem Own.init : Own init where
  once := by simp [Special.init]
  old := by simp [Special.init]
  bound := by simp [Special.init]
  alone := by simp [Special.init]

/-- A variable loses its object or is taken away, without a destructor. -/
theorem Own.drop {s : State} (h : Own s) (x : Nat) {v : Option Var} (hv : ∀ w, v = some w → w.obj = none) : Own (s.set x v) where
  once := h.once
  old := h.old
  bound := by
    intro y w o hy ho
    simp only [State.set] at hy
    split at hy
    · rw [hv w hy] at ho; cases ho
    · exact h.bound y w o hy ho
  alone := by
    intro y z w u o hy hz ho hp
    simp only [State.set] at hy hz
    split at hy
    · rw [hv w hy] at ho; cases ho
    · split at hz
      · rw [hv u hz] at hp; cases hp
      · exact h.alone y z w u o hy hz ho hp

/-- A variable is destroyed or about to be overwritten: its object is destroyed. -/
theorem Own.kill {s : State} (h : Own s) {x : Nat} {v : Var} (hx : s.vars x = some v) {u : Option Var}
    (hu : ∀ w, u = some w → w.obj = none) : Own ((s.destroy v.obj).set x u) := by
  cases ho : v.obj with
  | none => exact h.drop x hu
  | some o =>
    have hb := h.bound x v o hx ho
    refine ⟨?_, ?_, ?_, ?_⟩
    · show (o :: s.destroyed).Nodup
      exact List.nodup_cons.2 ⟨hb.2, h.once⟩
    · intro p hp
      rcases List.mem_cons.1 hp with rfl | hp
      · exact hb.1
      · exact h.old p hp
    · intro y w p hy hp
      simp only [State.set, State.destroy] at hy
      split at hy
      · rw [hu w hy] at hp; cases hp
      · rename_i hne
        have hb' := h.bound y w p hy hp
        refine ⟨hb'.1, fun hm => ?_⟩
        rcases List.mem_cons.1 hm with rfl | hm
        · exact hne (h.alone y x w v p hy hx hp ho)
        · exact hb'.2 hm
    · intro y z w w' p hy hz hp hp'
      simp only [State.set, State.destroy] at hy hz
      split at hy
      · rw [hu w hy] at hp; cases hp
      · split at hz
        · rw [hu w' hz] at hp'; cases hp'
        · exact h.alone y z w w' p hy hz hp hp'

/-- A variable that holds nothing gets a new object. -/
theorem Own.put {s : State} (h : Own s) (x k : Nat) (p : Option Nat) :
    Own ((s.create p).1.set x (some (.holds k (s.create p).2))) := by
  cases p with
  | none => exact h.drop x (by intro w hw; cases hw; rfl)
  | some q =>
    refine ⟨h.once, fun o ho => Nat.lt_succ_of_lt (h.old o ho), ?_, ?_⟩
    · intro y w o hy ho
      simp only [State.set, State.create] at hy
      split at hy
      · cases hy
        simp only [Var.obj] at ho
        cases ho
        exact ⟨Nat.lt_succ_self _, fun hm => Nat.lt_irrefl _ (h.old _ hm)⟩
      · have := h.bound y w o hy ho
        exact ⟨Nat.lt_succ_of_lt this.1, this.2⟩
    · intro y z w u o hy hz ho hp
      simp only [State.set, State.create] at hy hz
      split at hy
      · rename_i e1
        cases hy
        simp only [Var.obj] at ho
        cases ho
        split at hz
        · rename_i e2
          rw [e1, e2]
        · exact absurd (h.bound z u _ hz hp).1 (Nat.lt_irrefl _)
      · split at hz
        · cases hz
          simp only [Var.obj] at hp
          cases hp
          exact absurd (h.bound y w _ hy ho).1 (Nat.lt_irrefl _)
        · exact h.alone y z w u o hy hz ho hp

theorem Own.fresh {s : State} (h : Own s) (x y : Nat) (way : Way) (hw : way ≠ .bytes) (v : Var) : Own (s.fresh x y way v) := by
  cases way with
  | bytes => exact absurd rfl hw
  | ill => cases v <;> exact h
  | copies =>
    cases v with
    | noIndex => exact h
    | holds k o => exact h.put x k o
  | moves =>
    cases v with
    | noIndex => exact h
    | holds k o => exact (h.put x k o).drop y (by intro w hw; cases hw; rfl)

theorem set_set (s : State) (x : Nat) (u v : Option Var) : (s.set x u).set x v = s.set x v := by
  simp only [State.set, State.mk.injEq, and_true]
  funext z
  split <;> rfl

theorem create_set (s : State) (x : Nat) (u : Option Var) (p : Option Nat) :
    ((s.set x u).create p).1 = (s.create p).1.set x u ∧ ((s.set x u).create p).2 = (s.create p).2 := by
  cases p <;> exact ⟨rfl, rfl⟩

/-- The object of a variable is destroyed and a new one takes its place. -/
theorem Own.replace {s : State} (h : Own s) {x k : Nat} {o : Option Nat} (hx : s.vars x = some (.holds k o)) (l : Nat) (p : Option Nat) :
    Own (((s.destroy o).create p).1.set x (some (.holds l ((s.destroy o).create p).2))) := by
  have h1 : Own ((s.destroy o).set x none) := h.kill hx (by intro w hw; cases hw)
  have h2 := h1.put x l p
  rw [(create_set _ _ _ _).1, (create_set _ _ _ _).2, set_set] at h2
  exact h2

theorem Own.assign {s : State} (h : Own s) {x y : Nat} (way : Way) (hw : way ≠ .bytes) {v : Var} (hx : s.vars x = some v) (w : Var) :
    Own (s.assign x y way v w) := by
  cases way with
  | bytes => exact absurd rfl hw
  | ill => cases v <;> exact h
  | copies =>
    cases v with
    | noIndex => exact h
    | holds k o =>
      cases w with
      | noIndex => exact h
      | holds l p =>
        simp only [State.assign]
        split
        · exact h
        · exact h.replace hx l p
  | moves =>
    cases v with
    | noIndex => exact h
    | holds k o =>
      cases w with
      | noIndex => exact h
      | holds l p =>
        simp only [State.assign]
        split
        · exact h.drop y (by intro w hw; cases hw; rfl)
        · exact (h.replace hx l p).drop y (by intro w hw; cases hw; rfl)

theorem Own.step {s : State} (h : Own s) (alts : List (Option Caps)) (hi : (variantDecls alts).copyInit ≠ .bytes)
    (hm : (variantDecls alts).moveInit ≠ .bytes) (ha : (variantDecls alts).copyAssign ≠ .bytes)
    (hn : (variantDecls alts).moveAssign ≠ .bytes) (op : Stmt) : Own (step alts s op) := by
  cases op with
  | make x k =>
    simp only [Special.step]
    split
    · exact h.drop x (by intro w hw; cases hw; rfl)
    · exact h.put x k (some 0)
    · exact h
  | copyInit x y =>
    simp only [Special.step]
    split
    · exact h.fresh x y _ hi _
    · exact h
  | moveInit x y =>
    simp only [Special.step]
    split
    · exact h.fresh x y _ hm _
    · exact h
  | copyAssign x y =>
    simp only [Special.step]
    split
    · split
      · exact h
      · exact h.assign _ ha (by assumption) _
    · exact h
  | moveAssign x y =>
    simp only [Special.step]
    split
    · split
      · exact h
      · exact h.assign _ hn (by assumption) _
    · exact h
  | del x =>
    simp only [Special.step]
    split
    · exact h.kill (by assumption) (by intro w hw; cases hw)
    · exact h

theorem Own.run (alts : List (Option Caps)) (hi : (variantDecls alts).copyInit ≠ .bytes)
    (hm : (variantDecls alts).moveInit ≠ .bytes) (ha : (variantDecls alts).copyAssign ≠ .bytes)
    (hn : (variantDecls alts).moveAssign ≠ .bytes) : ∀ (ops : List Stmt) {s : State}, Own s → Own (run alts s ops)
  | [], _, h => h
  | op :: ops, _, h => Own.run alts hi hm ha hn ops (h.step alts hi hm ha hn op)

/-- The alternative that cannot be moved. -/
theorem not_all {p : Caps → Bool} {alts : List (Option Caps)} (h : ¬ All p alts) : ∃ (k : Nat) (c : Caps), alts[k]? = some (some c) ∧ p c = false := by
  simp only [All] at h
  classical
  have : ∃ c, some c ∈ alts ∧ p c = false := by
    apply Classical.byContradiction
    intro hn
    apply h
    intro c hc
    cases hp : p c with
    | true => rfl
    | false => exact absurd ⟨c, hc, hp⟩ hn
  obtain ⟨c, hc, hp⟩ := this
  obtain ⟨k, hk, he⟩ := List.getElem_of_mem hc
  exact ⟨k, c, by rw [List.getElem?_eq_getElem hk, he], hp⟩

/-- Every program destroys every object at most once exactly for the lists of alternatives that are all move constructible, or all copy
constructible and copy assignable. -/
theorem C95_destroys_once_partial (alts : List (Option Caps)) :
    DestroysOnce alts ↔ All Caps.mc alts ∨ (All Caps.cc alts ∧ All Caps.ca alts) := by
  classical
  obtain ⟨h1, h2, h3, h4⟩ := C95_variant_members alts
  constructor
  · intro h
    apply Classical.byContradiction
    intro hn
    have hm : ¬ All Caps.mc alts := fun e => hn (.inl e)
    obtain ⟨k, c, hk, -⟩ := not_all hm
    by_cases hc : All Caps.cc alts
    · have ha : ¬ All Caps.ca alts := fun e => hn (.inr ⟨hc, e⟩)
      have hw : (variantDecls alts).copyAssign = .bytes := by rw [h3]; simp [hm, ha]
      have := h [.make 0 k, .make 1 k, .copyAssign 0 1, .del 0, .del 1]
      simp [run, step, init, hk, hw, State.set, State.assign, State.destroy, Var.obj] at this
    · have hw : (variantDecls alts).copyInit = .bytes := by rw [h1]; simp [hm, hc]
      have := h [.make 0 k, .copyInit 1 0, .del 0, .del 1]
      simp [run, step, init, hk, hw, State.set, State.fresh, State.destroy, Var.obj] at this
  · intro h ops
    refine (Own.run alts ?_ ?_ ?_ ?_ ops Own.init).once
    · rw [h1]; rcases h with h | h <;> simp [h] <;> split <;> simp
    · rw [h2]; rcases h with h | h <;> simp [h] <;> split <;> simp
    · rw [h3]; rcases h with h | h <;> simp [h] <;> split <;> simp
    · rw [h4]
      rcases h with h | h
      · simp [h]; split <;> (try split) <;> simp
      · simp [h]; split <;> simp

/-- What a variable holds: the index of its alternative, if it has one. -/
def Index (s : State) (x k : Nat) : Prop := ∃ o, s.vars x = some (.holds k o)

/-- Making a variant from another and assigning a variant give the target the alternative of the source; the source keeps its
own, unless it is moved from. -/
theorem C95_index (alts : List (Option Caps)) (s : State) (x y l : Nat) (hxy : x ≠ y) (hy : Index s y l) :
    (s.vars x = none → (variantDecls alts).copyInit = .copies →
      Index (step alts s (.copyInit x y)) x l ∧ Index (step alts s (.copyInit x y)) y l) ∧
    (s.vars x = none → (variantDecls alts).moveInit = .moves →
      Index (step alts s (.moveInit x y)) x l ∧ (step alts s (.moveInit x y)).vars y = some .noIndex) ∧
    (∀ k, Index s x k → (variantDecls alts).copyAssign = .copies →
      Index (step alts s (.copyAssign x y)) x l ∧ Index (step alts s (.copyAssign x y)) y l) ∧
    (∀ k, Index s x k → (variantDecls alts).moveAssign = .moves →
      Index (step alts s (.moveAssign x y)) x l ∧ (step alts s (.moveAssign x y)).vars y = some .noIndex) := by
  obtain ⟨p, hp⟩ := hy
  have hc : ∀ (r : State) (o : Option Nat), (r.create o).1.vars = r.vars := by intro r o; cases o <;> rfl
  have hd : ∀ (r : State) (o : Option Nat), (r.destroy o).vars = r.vars := by intro r o; cases o <;> rfl
  have hyx : ¬ y = x := fun e => hxy e.symm
  refine ⟨fun hx hw => ?_, fun hx hw => ?_, fun k ⟨o, hx⟩ hw => ?_, fun k ⟨o, hx⟩ hw => ?_⟩
  · simp [step, hx, hp, hw, State.fresh, Index, State.set, hc, hyx]
  · simp [step, hx, hp, hw, State.fresh, Index, State.set, hxy]
  · by_cases e : k = l
    · subst e
      simp [step, hx, hp, hw, State.assign, Index, hxy]
    · simp [step, hx, hp, hw, State.assign, Index, hxy, State.set, hc, hd, hyx, e]
  · by_cases e : k = l
    · subst e
      simp [step, hx, hp, hw, State.assign, Index, hxy, State.set]
    · simp [step, hx, hp, hw, State.assign, Index, hxy, State.set, e]

/-- Nothing is moved. -/
def Copying : Stmt → Prop
  | .moveInit _ _ | .moveAssign _ _ => False
  | _ => True

/-- Every object that was made is destroyed or in a variable. -/
def NoLeak (s : State) : Prop := ∀ i, i < s.next → i ∈ s.destroyed ∨ ∃ x v, s.vars x = some v ∧ v.obj = some i

theorem NoLeak.put {s : State} (h : NoLeak s) {x : Nat} (hx : s.vars x = none) (v : Var) : NoLeak (s.set x (some v)) := by
  intro i hi
  rcases h i hi with hd | ⟨z, w, hz, hw⟩
  · exact .inl hd
  · refine .inr ⟨z, w, ?_, hw⟩
    have : z ≠ x := fun e => by rw [e, hx] at hz; cases hz
    simp [State.set, this, hz]

theorem NoLeak.make {s : State} (h : NoLeak s) {x : Nat} (hx : s.vars x = none) (k : Nat) (o : Option Nat) :
    NoLeak ((s.create o).1.set x (some (.holds k (s.create o).2))) := by
  cases o with
  | none => exact h.put hx _
  | some o =>
    intro i hi
    have hi' : i < s.next + 1 := hi
    by_cases e : i = s.next
    · exact .inr ⟨x, .holds k (some s.next), by simp [State.set, State.create], by rw [e]; rfl⟩
    · exact h.put hx (.holds k (some s.next)) i (show i < s.next by omega)

theorem NoLeak.kill {s : State} (h : NoLeak s) {x : Nat} {v : Var} (hx : s.vars x = some v) :
    NoLeak ((s.destroy v.obj).set x none) := by
  intro i hi
  cases ho : v.obj with
  | none =>
    rw [ho] at hi
    rcases h i hi with hd | ⟨z, w, hz, hw⟩
    · exact .inl hd
    · refine .inr ⟨z, w, ?_, hw⟩
      have : z ≠ x := fun e => by
        rw [e, hx] at hz
        cases hz
        rw [ho] at hw; cases hw
      simp [State.set, State.destroy, this, hz]
  | some o =>
    rw [ho] at hi
    rcases h i hi with hd | ⟨z, w, hz, hw⟩
    · exact .inl (List.mem_cons_of_mem _ hd)
    · by_cases e : z = x
      · rw [e, hx] at hz
        cases hz
        rw [ho] at hw
        cases hw
        exact .inl (List.mem_cons_self ..)
      · exact .inr ⟨z, w, by simp [State.set, State.destroy, e, hz], hw⟩

theorem NoLeak.step {s : State} (h : NoLeak s) (alts : List (Option Caps)) (hi : (variantDecls alts).copyInit = .copies)
    (ha : (variantDecls alts).copyAssign = .copies) {op : Stmt} (hop : Copying op) : NoLeak (step alts s op) := by
  cases op with
  | make x k =>
    simp only [Special.step]
    split
    · exact h.put (by assumption) _
    · exact h.make (by assumption) k (some 0)
    · exact h
  | copyInit x y =>
    simp only [Special.step, hi]
    split
    · rename_i v hx hy
      cases v with
      | noIndex => exact h
      | holds k o => exact h.make hx k o
    · exact h
  | moveInit x y => exact absurd hop id
  | copyAssign x y =>
    simp only [Special.step, ha]
    split
    · rename_i v w hx hy
      split
      · exact h
      · cases v with
        | noIndex => exact h
        | holds k o =>
          cases w with
          | noIndex => exact h
          | holds l p =>
            simp only [State.assign]
            split
            · exact h
            · have hk := (h.kill hx).make (x := x) (by simp [State.set]) l p
              intro i hlt
              have hlt' : i < (((((s.destroy o).set x none).create p).1.set x (some (.holds l (((s.destroy o).set x none).create p).2)))).next := by
                cases p <;> exact hlt
              rcases hk i hlt' with hd | ⟨z, u, hz, hu⟩
              · left; cases p <;> exact hd
              · refine .inr ⟨z, u, ?_, hu⟩
                cases p <;> (simp only [State.set, State.create, Var.obj] at hz ⊢; split at hz <;> simp_all)
    · exact h
  | moveAssign x y => exact absurd hop id
  | del x =>
    simp only [Special.step]
    split
    · exact h.kill (by assumption)
    · exact h

/-- Nothing is lost: of alternatives that can be copied and assigned, a program that does not move them destroys every object that it
does not keep in a variable.  (What is lost by moves is the subject of C28.) -/
theorem C95_no_leak_partial (alts : List (Option Caps)) (h : All Caps.cc alts ∧ All Caps.ca alts) (ops : List Stmt)
    (hops : ∀ op ∈ ops, Copying op) (i : Nat) (hi : i < (run alts init ops).next)
    (hk : ∀ x v, (run alts init ops).vars x = some v → v.obj ≠ some i) : i ∈ (run alts init ops).destroyed := by
  classical
  obtain ⟨h1, -, h3, -⟩ := C95_variant_members alts
  rw [if_pos h.1] at h1
  rw [if_pos h] at h3
  have key : ∀ (ops : List Stmt) (s : State), (∀ op ∈ ops, Copying op) → NoLeak s → NoLeak (run alts s ops) := by
    intro ops
    induction ops with
    | nil => intro s _ hs; exact hs
    | cons op ops ih =>
      intro s ho hs
      exact ih (step alts s op) (fun o m => ho o (List.mem_cons_of_mem _ m)) (hs.step alts h1 h3 (ho op (List.mem_cons_self ..)))
  rcases key ops init hops (fun i hi => by cases hi) i hi with hd | ⟨x, v, hx, hv⟩
  · exact hd
  · exact absurd hv (hk x v hx)

/-- Copies of strings and numbers, with assignments between them. -/
def strings : List (Option Caps) := [some ⟨true, true, true, true⟩, some ⟨true, true, true, true⟩]

def exCopies : List Stmt := [.make 0 0, .make 1 1, .copyInit 2 0, .copyAssign 2 1, .copyAssign 1 0, .del 0, .del 1, .del 2]

example : (∀ op ∈ exCopies, Copying op) ∧ (run strings init exCopies).next = 5 ∧
    (run strings init exCopies).destroyed = [3, 4, 0, 1, 2] := by
  refine ⟨?_, by decide, by decide⟩
  simp [exCopies, Copying]

example : Index (run strings init [.make 0 0, .make 1 1]) 1 1 ∧ Index (run strings init [.make 0 0, .make 1 1]) 0 0 ∧
    (variantDecls strings).copyAssign = .copies := ⟨⟨some 1, by decide⟩, ⟨some 0, by decide⟩, by decide⟩

/-- `std::unique_ptr` and `std::mutex` -/
def pinned : List (Option Caps) := [some ⟨false, true, false, true⟩, some ⟨false, false, false, false⟩]

/-- Copying a variant that holds the pointer compiles, and the pointer is deleted twice. -/
theorem C95_variant_violated :
    (variantDecls pinned).copyInit = .bytes ∧ (run pinned init [.make 0 0, .copyInit 1 0, .del 1, .del 0]).destroyed = [0, 0] ∧
    ¬ DestroysOnce pinned := by
  refine ⟨by decide, by decide, fun h => ?_⟩
  exact absurd (h [.make 0 0, .copyInit 1 0, .del 1, .del 0]) (by decide)

/-- An alternative that can be copied but neither assigned nor moved: assigning the variant shares the object of the source and gives up
that of the target. -/
theorem C95_assign_violated :
    let alts : List (Option Caps) := [some ⟨true, false, false, false⟩]
    (variantDecls alts).copyAssign = .bytes ∧
    (run alts init [.make 0 0, .make 1 0, .copyAssign 0 1, .del 1, .del 0]).destroyed = [1, 1] := by decide

/-- For alternatives that can be moved: -/
example : (run [none, some ⟨false, true, false, true⟩] init [.make 0 1, .copyInit 1 0, .make 2 0, .moveAssign 2 0, .del 2]).destroyed = [1] := by
  decide

end Verif.Special
