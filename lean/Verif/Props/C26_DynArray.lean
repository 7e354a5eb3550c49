import Verif.Lemmas.DynArray

/-!
# C26: `dynamic_array`
-/
set_option autoImplicit false
set_option linter.unusedSectionVars false

namespace Verif.DynArray
open Verif.VectorNd (Heap M Src bad WfH Reads bind_some pure_run)

variable {α : Type}

/-! ## Specification -/

/-- What a variable in scope holds: its elements, whether it owns a block (it does after every successful constructor with a size,
`assign` and `resize`, even of size 0), and whether its last `assign` or `resize` failed to allocate. -/
structure Val (α : Type) where
  elems : List α
  owns : Bool
  torn : Bool
deriving DecidableEq, Repr

abbrev Vars (α : Type) := Nat → Option (Val α)

def Vars.set (σ : Vars α) (x : Nat) (v : Option (Val α)) : Vars α := fun y => if y = x then v else σ y

def Val.empty : Val α := ⟨[], false, false⟩

/-- The value of an argument: `none` if it names an element that does not exist, `some none` if it names a variable that is not in scope. -/
def Arg.value (σ : Vars α) : Arg α → Option (Option α)
  | .val a => some (some a)
  | .elem x k =>
    match σ x with
    | none => some none
    | some v =>
      match v.elems[k]? with
      | none => none
      | some a => some (some a)

/-- The variable an argument refers into. -/
def Arg.refersTo : Arg α → Nat → Bool
  | .val _, _ => false
  | .elem y _, x => y == x

def specDeclare (σ : Vars α) (x : Nat) (l : List α) (full : Bool) : Res α × Vars α :=
  match σ x with
  | some _ => (.skipped, σ)
  | none => if full then (.threw, σ) else (.done, σ.set x (some ⟨l, true, false⟩))

def specAssign (σ : Vars α) (x : Nat) (l : List α) (full : Bool) : Res α × Vars α :=
  match σ x with
  | none => (.skipped, σ)
  | some _ => if full then (.threw, σ.set x (some ⟨[], false, true⟩)) else (.done, σ.set x (some ⟨l, true, false⟩))

/-- What each statement should do; `full` says whether the memory is exhausted. `none`: the statement is outside what is proved:
 * the caller's errors: an argument that names a missing element;
 * where the property fails: move assignment to an array that owns a block, assignment from an initializer list, `assign` with an
   element of the array itself, `size` and `at` after an `assign` or `resize` that failed to allocate. -/
def spec (dflt : α) (σ : Vars α) (full : Bool) : Op α → Option (Res α × Vars α)
  | .new x =>
    match σ x with
    | some _ => some (.skipped, σ)
    | none => some (.done, σ.set x (some .empty))
  | .newN x n => some (specDeclare σ x (List.replicate n dflt) full)
  | .newVal x n a =>
    match a.value σ with
    | none => none
    | some none => some (.skipped, σ)
    | some (some v) => some (specDeclare σ x (List.replicate n v) full)
  | .newList x l => some (specDeclare σ x l full)
  | .newMove x y =>
    match σ x, σ y with
    | none, some v => some (.done, (σ.set x (some v)).set y (some .empty))
    | _, _ => some (.skipped, σ)
  | .del x =>
    match σ x with
    | none => some (.skipped, σ)
    | some _ => some (.done, σ.set x none)
  | .moveAssign x y =>
    match σ x, σ y with
    | some v, some w =>
      if x = y then some (.done, σ)
      else if v.owns then none
      else some (.done, (σ.set x (some w)).set y (some .empty))
    | _, _ => some (.skipped, σ)
  | .swap x y =>
    match σ x, σ y with
    | some v, some w =>
      if x = y then some (.done, σ)
      else some (.done, (σ.set x (some w)).set y (some v))
    | _, _ => some (.skipped, σ)
  | .assign x n a =>
    match a.value σ with
    | none => none
    | some none => some (.skipped, σ)
    | some (some v) => if a.refersTo x then none else some (specAssign σ x (List.replicate n v) full)
  | .resize x n => some (specAssign σ x (List.replicate n dflt) full)
  | .clear x =>
    match σ x with
    | none => some (.skipped, σ)
    | some v => some (.done, σ.set x (some ⟨[], false, v.torn⟩))
  | .assignList x _ =>
    match σ x with
    | none => some (.skipped, σ)
    | some _ => none
  | .size x =>
    match σ x with
    | none => some (.skipped, σ)
    | some v => if v.torn then none else some (.num v.elems.length, σ)
  | .at x k =>
    match σ x with
    | none => some (.skipped, σ)
    | some v =>
      if v.torn then none else
      match v.elems[k]? with
      | some a => some (.value a, σ)
      | none => some (.threw, σ)

/-- A whole program; each statement comes with whether memory is exhausted at that point. -/
def specRun (dflt : α) (σ : Vars α) : List (Op α × Bool) → Option (List (Res α) × Vars α)
  | [] => some ([], σ)
  | (op, full) :: ops =>
    match spec dflt σ full op with
    | none => none
    | some (r, σ') =>
      match specRun dflt σ' ops with
      | none => none
      | some (rs, σ'') => some (r :: rs, σ'')

/-! ## The invariant -/

def ptr (e : Env) (x : Nat) : Option Nat := (e x).bind DA.data

/-- A variable of the model and what it should hold. -/
def VarOk (h : Heap α) : Option DA → Option (Val α) → Prop
  | none, none => True
  | some d, some v => Has h d v.elems ∧ v.owns = d.data.isSome ∧ (d.data.isSome → v.torn = false) ∧ (v.torn = false → d.size = v.elems.length)
  | _, _ => False

structure Inv (h : Heap α) (e : Env) (σ : Vars α) : Prop where
  wf : WfH h
  noFail : ∀ t, h.failC t = false
  vars : ∀ x, VarOk h (e x) (σ x)
  sep : ∀ x y b, ptr e x = some b → ptr e y = some b → x = y
  own : ∀ b, h.blk b ≠ none → ∃ x, ptr e x = some b

theorem Inv.dead {h : Heap α} {e : Env} {σ : Vars α} (i : Inv h e σ) {x : Nat} : e x = none ↔ σ x = none := by
  have := i.vars x
  cases h1 : e x <;> cases h2 : σ x <;> simp only [h1, h2, VarOk] at this <;> simp

theorem Inv.live {h : Heap α} {e : Env} {σ : Vars α} (i : Inv h e σ) {x : Nat} {v : Val α} (hx : σ x = some v) :
    ∃ d, e x = some d ∧ Has h d v.elems ∧ v.owns = d.data.isSome ∧ (d.data.isSome → v.torn = false) ∧ (v.torn = false → d.size = v.elems.length) := by
  have := i.vars x
  rw [hx] at this
  cases h1 : e x with
  | none => rw [h1] at this; exact this.elim
  | some d => rw [h1] at this; exact ⟨d, rfl, this⟩

theorem Inv.blk {h : Heap α} {e : Env} {σ : Vars α} (i : Inv h e σ) {x b : Nat} (hx : ptr e x = some b) : h.blk b ≠ none := by
  cases h1 : e x with
  | none => simp [ptr, h1] at hx
  | some d =>
    have hb : d.data = some b := by simpa [ptr, h1] using hx
    have := i.vars x
    cases h2 : σ x with
    | none => rw [h1, h2] at this; exact this.elim
    | some v =>
      rw [h1, h2] at this
      rw [(this.1.some' hb).1]; simp

theorem VarOk.frame {h h' : Heap α} {d : Option DA} {v : Option (Val α)} (o : VarOk h d v) (hb : ∀ b, d.bind DA.data = some b → h'.blk b = h.blk b) :
    VarOk h' d v := by
  cases d with
  | none => cases v with
    | none => trivial
    | some v => exact o.elim
  | some d => cases v with
    | none => exact o.elim
    | some v => exact ⟨o.1.frame (fun b e => hb b e), o.2⟩

/-- One variable changes. -/
theorem Inv.set {h h' : Heap α} {e : Env} {σ : Vars α} (i : Inv h e σ) {x : Nat} {d' : Option DA} {v' : Option (Val α)}
    (c : Chg h (ptr e x) h' (d'.bind DA.data)) (o : VarOk h' d' v') : Inv h' (e.set x d') (σ.set x v') := by
  have pset : ∀ y, ptr (e.set x d') y = if y = x then d'.bind DA.data else ptr e y := by
    intro y; simp only [ptr, Env.set]; split <;> rfl
  -- another variable's block is neither the old nor the new block of `x`
  have other : ∀ y b, y ≠ x → ptr e y = some b → ptr e x ≠ some b ∧ d'.bind DA.data ≠ some b := by
    intro y b hy hb
    have h1 : ptr e x ≠ some b := fun hx => hy (i.sep y x b hb hx)
    exact ⟨h1, fun hd => i.blk hb (c.fresh b hd h1)⟩
  refine ⟨c.wf, fun t => by rw [c.failC]; exact i.noFail t, ?_, ?_, ?_⟩
  · intro y
    simp only [Env.set, Vars.set]
    by_cases hy : y = x
    · rw [if_pos hy, if_pos hy]; exact o
    · rw [if_neg hy, if_neg hy]
      exact (i.vars y).frame fun b hb => c.frame b (other y b hy hb).1 (other y b hy hb).2
  · intro y z b hy hz
    rw [pset] at hy hz
    by_cases cy : y = x <;> by_cases cz : z = x
    · rw [cy, cz]
    · rw [if_pos cy] at hy; rw [if_neg cz] at hz
      exact absurd hy (other z b cz hz).2
    · rw [if_neg cy] at hy; rw [if_pos cz] at hz
      exact absurd hz (other y b cy hy).2
    · rw [if_neg cy] at hy; rw [if_neg cz] at hz
      exact i.sep y z b hy hz
  · intro b hb
    by_cases hd : d'.bind DA.data = some b
    · exact ⟨x, by rw [pset, if_pos rfl]; exact hd⟩
    · by_cases hx : ptr e x = some b
      · exact absurd (c.freed b hx hd) hb
      · rw [c.frame b hx hd] at hb
        obtain ⟨y, hy⟩ := i.own b hb
        have : y ≠ x := fun hh => hx (by rw [← hh]; exact hy)
        exact ⟨y, by rw [pset, if_neg this]; exact hy⟩

/-- Two variables exchange what they hold, or one is handed to another that owns nothing. -/
theorem Inv.hand {h : Heap α} {e : Env} {σ : Vars α} (i : Inv h e σ) {x y : Nat} (hxy : x ≠ y) {dx' dy' : Option DA} {vx' vy' : Option (Val α)}
    (ox : VarOk h dx' vx') (oy : VarOk h dy' vy')
    (hb : ((dx'.bind DA.data = ptr e x ∧ dy'.bind DA.data = ptr e y) ∨ (dx'.bind DA.data = ptr e y ∧ dy'.bind DA.data = ptr e x))) :
    Inv h ((e.set x dx').set y dy') ((σ.set x vx').set y vy') := by
  have pset : ∀ z, ptr ((e.set x dx').set y dy') z = if z = y then dy'.bind DA.data else if z = x then dx'.bind DA.data else ptr e z := by
    intro z; simp only [ptr, Env.set]; split
    · rfl
    · split <;> rfl
  -- the owner of a block afterwards, in terms of the owner before
  have key : ∃ f : Nat → Nat, (∀ z w, f z = f w → z = w) ∧ (∀ w, ∃ z, f z = w) ∧ ∀ z, ptr ((e.set x dx').set y dy') z = ptr e (f z) := by
    rcases hb with ⟨h1, h2⟩ | ⟨h1, h2⟩
    · refine ⟨id, fun _ _ h => h, fun w => ⟨w, rfl⟩, fun z => ?_⟩
      rw [pset]
      by_cases c1 : z = y
      · rw [if_pos c1, h2, c1]; rfl
      · by_cases c2 : z = x
        · rw [if_neg c1, if_pos c2, h1, c2]; rfl
        · rw [if_neg c1, if_neg c2]; rfl
    · refine ⟨fun z => if z = y then x else if z = x then y else z, ?_, ?_, ?_⟩
      · intro z w hh
        dsimp only at hh
        repeat' split at hh
        all_goals omega
      · intro w
        by_cases c1 : w = y
        · exact ⟨x, by dsimp only; rw [if_neg hxy, if_pos rfl, c1]⟩
        · by_cases c2 : w = x
          · exact ⟨y, by dsimp only; rw [if_pos rfl, c2]⟩
          · exact ⟨w, by dsimp only; rw [if_neg c1, if_neg c2]⟩
      · intro z
        rw [pset]
        by_cases c1 : z = y
        · simp only [if_pos c1, h2]
        · by_cases c2 : z = x
          · simp only [if_neg c1, if_pos c2, h1]
          · simp only [if_neg c1, if_neg c2]
  obtain ⟨f, finj, fsurj, hf⟩ := key
  refine ⟨i.wf, i.noFail, ?_, ?_, ?_⟩
  · intro z
    simp only [Env.set, Vars.set]
    split
    · exact oy
    · split
      · exact ox
      · exact i.vars z
  · intro z w b h1 h2
    rw [hf] at h1 h2
    exact finj _ _ (i.sep _ _ b h1 h2)
  · intro b h1
    obtain ⟨w, hw⟩ := i.own b h1
    obtain ⟨z, rfl⟩ := fsurj w
    exact ⟨z, by rw [hf]; exact hw⟩

/-- Arguments. -/
theorem Inv.arg {h : Heap α} {e : Env} {σ : Vars α} (i : Inv h e σ) {a : Arg α} {v : α} (ha : a.value σ = some (some v)) :
    ∃ s, a.src e = some (some s) ∧ h.read s = some v ∧
      ∀ x, a.refersTo x = false → ∀ h1 : Heap α, (∀ b, ptr e x ≠ some b → h1.blk b = h.blk b) → h1.read s = some v := by
  cases a with
  | val a =>
    have : a = v := by simpa [Arg.value] using ha
    subst this
    exact ⟨.val a, rfl, rfl, fun _ _ _ _ => rfl⟩
  | elem y k =>
    simp only [Arg.value] at ha
    cases hy : σ y with
    | none => rw [hy] at ha; simp at ha
    | some w =>
      rw [hy] at ha
      simp only at ha
      cases hk : w.elems[k]? with
      | none => rw [hk] at ha; simp at ha
      | some a' =>
        rw [hk] at ha
        have : a' = v := by simpa using ha
        subst this
        obtain ⟨d, hd, o, _⟩ := i.live hy
        cases hb : d.data with
        | none => rw [o.none' hb] at hk; simp at hk
        | some b =>
          have hblk := (o.some' hb).1
          refine ⟨.ref b k, by simp only [Arg.src, hd, hb], ?_, ?_⟩
          · simp [Heap.read, Heap.slot, hblk, hk]
          · intro x hx h1 hh
            have hxy : y ≠ x := by simpa [Arg.refersTo] using hx
            have hpy : ptr e y = some b := by simp [ptr, hd, hb]
            have := hh b (fun hp => hxy (i.sep y x b hpy hp))
            simp [Heap.read, Heap.slot, this, hblk, hk]

theorem Inv.arg_dead {h : Heap α} {e : Env} {σ : Vars α} (i : Inv h e σ) {a : Arg α} (ha : a.value σ = some none) : a.src e = some none := by
  cases a with
  | val a => simp [Arg.value] at ha
  | elem y k =>
    simp only [Arg.value] at ha
    cases hy : σ y with
    | none => simp only [Arg.src, i.dead.mpr hy]
    | some w =>
      rw [hy] at ha
      simp only at ha
      split at ha <;> simp at ha

theorem declare_ok {h : Heap α} {e : Env} {σ : Vars α} (i : Inv h e σ) (x : Nat) {ss : List (Src α)} {vs : List α} (hr : Reads h ss vs) :
    ∃ full r e' h' σ', declare e x ss h = some ((r, e'), h') ∧ specDeclare σ x vs full = (r, σ') ∧ Inv h' e' σ' ∧
      h'.failA = h.failA ∧ (full = true → ∃ t, h.failA t = true) := by
  cases hx : σ x with
  | some v =>
    obtain ⟨d, hd, _⟩ := i.live hx
    exact ⟨false, _, _, _, _, by rw [declare, hd]; rfl, by rw [specDeclare, hx], i, rfl, fun hh => by cases hh⟩
  | none =>
    have hd := i.dead.mpr hx
    have hp : ptr e x = none := by simp [ptr, hd]
    rcases create_spec i.wf i.noFail hr with ⟨d, h', e1, c, o, hs, _⟩ | ⟨h', e1, c, hf⟩
    · refine ⟨false, _, _, h', _, by rw [declare, hd]; simp only; rw [bind_some e1]; rfl, by rw [specDeclare, hx]; rfl, ?_, c.failA, fun hh => by cases hh⟩
      refine i.set (by rw [hp]; exact c) ⟨o, hs.symm, fun _ => rfl, fun _ => ?_⟩
      obtain ⟨b, hb⟩ := Option.isSome_iff_exists.mp hs
      exact (o.some' hb).2
    · refine ⟨true, _, _, h', _, by rw [declare, hd]; simp only; rw [bind_some e1]; rfl, by rw [specDeclare, hx]; rfl, ?_, c.failA, fun _ => ⟨_, hf⟩⟩
      have := i.set (x := x) (d' := none) (v' := none) (by rw [hp]; exact c) trivial
      have e1 : e.set x none = e := by funext y; simp only [Env.set]; split <;> simp_all
      have e2 : σ.set x none = σ := by funext y; simp only [Vars.set]; split <;> simp_all
      rwa [e1, e2] at this

theorem reassign_ok {h : Heap α} {e : Env} {σ : Vars α} (i : Inv h e σ) (x : Nat) {ss : List (Src α)} {vs : List α}
    (hr : ∀ h1 : Heap α, (∀ b, ptr e x ≠ some b → h1.blk b = h.blk b) → Reads h1 ss vs) :
    ∃ full r e' h' σ', reassignVar e x ss h = some ((r, e'), h') ∧ specAssign σ x vs full = (r, σ') ∧ Inv h' e' σ' ∧
      h'.failA = h.failA ∧ (full = true → ∃ t, h.failA t = true) := by
  cases hx : σ x with
  | none =>
    have hd := i.dead.mpr hx
    exact ⟨false, _, _, _, _, by rw [reassignVar, hd]; rfl, by rw [specAssign, hx], i, rfl, fun hh => by cases hh⟩
  | some v =>
    obtain ⟨d, hd, o, _⟩ := i.live hx
    have hp : ptr e x = d.data := by simp [ptr, hd]
    rw [hp] at hr
    rcases reassign_spec i.wf i.noFail o hr with ⟨d', h', e1, c, o', hs⟩ | ⟨d', h', e1, c, hn, ht⟩
    · refine ⟨false, _, _, h', _, by rw [reassignVar, hd]; simp only; rw [bind_some e1]; rfl, by rw [specAssign, hx]; rfl, ?_, c.failA, fun hh => by cases hh⟩
      refine i.set (by rw [hp]; exact c) ⟨o', hs.symm, fun _ => rfl, fun _ => ?_⟩
      obtain ⟨b, hb⟩ := Option.isSome_iff_exists.mp hs
      exact (o'.some' hb).2
    · refine ⟨true, _, _, h', _, by rw [reassignVar, hd]; simp only; rw [bind_some e1]; rfl, by rw [specAssign, hx]; rfl, ?_, c.failA, fun _ => ht⟩
      refine i.set (by rw [hp]; show Chg h d.data h' d'.data; rw [hn]; exact c) ⟨?_, by simp [hn], by simp [hn], by simp⟩
      simp only [Has, hn]

/-- One statement. -/
theorem step_ok (dflt : α) {h : Heap α} {e : Env} {σ : Vars α} (i : Inv h e σ) (op : Op α) (hs : ∀ full, spec dflt σ full op ≠ none) :
    ∃ full r e' h' σ', step dflt e op h = some ((r, e'), h') ∧ spec dflt σ full op = some (r, σ') ∧ Inv h' e' σ' ∧
      h'.failA = h.failA ∧ (full = true → ∃ t, h.failA t = true) := by
  have nf : ∀ {P : Prop}, (false = true → P) := fun hh => by cases hh
  cases op with
  | new x =>
    cases hx : σ x with
    | some v =>
      obtain ⟨d, hd, _⟩ := i.live hx
      exact ⟨false, _, _, _, _, by simp only [step, hd]; rfl, by simp only [spec, hx], i, rfl, nf⟩
    | none =>
      have hd := i.dead.mpr hx
      refine ⟨false, _, _, _, _, by simp only [step, hd]; rfl, by simp only [spec, hx]; rfl, ?_, rfl, nf⟩
      exact i.set (by rw [show ptr e x = none by simp [ptr, hd]]; exact Chg.refl i.wf _) ⟨rfl, rfl, fun _ => rfl, fun _ => rfl⟩
  | newN x n =>
    obtain ⟨full, r, e', h', σ', h1, h2, h3⟩ := declare_ok i x (Reads.replicate (h := h) (s := .val dflt) (a := dflt) rfl n)
    exact ⟨full, r, e', h', σ', h1, by rw [spec, h2], h3⟩
  | newVal x n a =>
    cases ha : a.value σ with
    | none => exact absurd (by simp only [spec, ha]) (hs false)
    | some o =>
      cases o with
      | none => exact ⟨false, _, _, _, _, by simp only [step, i.arg_dead ha]; rfl, by simp only [spec, ha], i, rfl, nf⟩
      | some v =>
        obtain ⟨s, hsrc, hrd, _⟩ := i.arg ha
        obtain ⟨full, r, e', h', σ', h1, h2, h3⟩ := declare_ok i x (Reads.replicate hrd n)
        exact ⟨full, r, e', h', σ', by simp only [step, hsrc]; exact h1, by simp only [spec, ha, h2], h3⟩
  | newList x l =>
    obtain ⟨full, r, e', h', σ', h1, h2, h3⟩ := declare_ok i x (Reads.vals (h := h) l)
    exact ⟨full, r, e', h', σ', h1, by rw [spec, h2], h3⟩
  | newMove x y =>
    cases hx : σ x with
    | some v =>
      obtain ⟨d, hd, _⟩ := i.live hx
      exact ⟨false, _, _, _, _, by simp only [step, hd]; rfl, by simp only [spec, hx], i, rfl, nf⟩
    | none =>
      have hd := i.dead.mpr hx
      cases hy : σ y with
      | none => exact ⟨false, _, _, _, _, by simp only [step, hd, i.dead.mpr hy]; rfl, by simp only [spec, hx, hy], i, rfl, nf⟩
      | some w =>
        obtain ⟨d, hd', o⟩ := i.live hy
        have hxy : x ≠ y := fun c => by rw [c, hd'] at hd; cases hd
        refine ⟨false, _, _, _, _, by simp only [step, hd, hd']; rfl, by simp only [spec, hx, hy]; rfl, ?_, rfl, nf⟩
        exact i.hand hxy (dx' := some d) (vx' := some w) o ⟨rfl, rfl, fun _ => rfl, fun _ => rfl⟩ (.inr ⟨by simp [ptr, hd'], by simp [ptr, hd, DA.null]⟩)
  | del x =>
    cases hx : σ x with
    | none => exact ⟨false, _, _, _, _, by simp only [step, i.dead.mpr hx]; rfl, by simp only [spec, hx], i, rfl, nf⟩
    | some v =>
      obtain ⟨d, hd, o, _⟩ := i.live hx
      obtain ⟨d', h', e1, _, _, c⟩ := destroy_spec i.wf o
      refine ⟨false, _, _, h', _, by simp only [step, hd]; rw [bind_some e1]; rfl, by simp only [spec, hx]; rfl, ?_, c.failA, nf⟩
      exact i.set (by rw [show ptr e x = d.data by simp [ptr, hd]]; exact c) trivial
  | moveAssign x y =>
    cases hx : σ x with
    | none => exact ⟨false, _, _, _, _, by simp only [step, i.dead.mpr hx]; rfl, by simp only [spec, hx], i, rfl, nf⟩
    | some v =>
      obtain ⟨dx, hdx, ox⟩ := i.live hx
      cases hy : σ y with
      | none => exact ⟨false, _, _, _, _, by simp only [step, hdx, i.dead.mpr hy]; rfl, by simp only [spec, hx, hy], i, rfl, nf⟩
      | some w =>
        obtain ⟨dy, hdy, oy⟩ := i.live hy
        by_cases hxy : x = y
        · exact ⟨false, _, _, _, _, by simp only [step, hdx, hdy, if_pos hxy]; rfl, by simp only [spec, hx, hy, if_pos hxy], i, rfl, nf⟩
        · cases hown : v.owns with
          | true => exact absurd (by simp [spec, hx, hy, hxy, hown]) (hs false)
          | false =>
            refine ⟨false, _, _, _, _, by simp only [step, hdx, hdy, if_neg hxy]; rfl, by simp only [spec, hx, hy, if_neg hxy, hown]; rfl, ?_, rfl, nf⟩
            have hn : dx.data = none := by
              have := ox.2.1
              rw [hown] at this
              simpa using this
            exact i.hand hxy (dx' := some dy) (vx' := some w) oy ⟨rfl, rfl, fun _ => rfl, fun _ => rfl⟩ (.inr ⟨by simp [ptr, hdy], by simp [ptr, hdx, DA.null, hn]⟩)
  | swap x y =>
    cases hx : σ x with
    | none => exact ⟨false, _, _, _, _, by simp only [step, i.dead.mpr hx]; rfl, by simp only [spec, hx], i, rfl, nf⟩
    | some v =>
      obtain ⟨dx, hdx, ox⟩ := i.live hx
      cases hy : σ y with
      | none => exact ⟨false, _, _, _, _, by simp only [step, hdx, i.dead.mpr hy]; rfl, by simp only [spec, hx, hy], i, rfl, nf⟩
      | some w =>
        obtain ⟨dy, hdy, oy⟩ := i.live hy
        by_cases hxy : x = y
        · exact ⟨false, _, _, _, _, by simp only [step, hdx, hdy, if_pos hxy]; rfl, by simp only [spec, hx, hy, if_pos hxy], i, rfl, nf⟩
        · refine ⟨false, _, _, _, _, by simp only [step, hdx, hdy, if_neg hxy]; rfl, by simp only [spec, hx, hy, if_neg hxy]; rfl, ?_, rfl, nf⟩
          exact i.hand hxy (dx' := some dy) (vx' := some w) (dy' := some dx) (vy' := some v) oy ox (.inr ⟨by simp [ptr, hdy], by simp [ptr, hdx]⟩)
  | assign x n a =>
    cases ha : a.value σ with
    | none => exact absurd (by simp only [spec, ha]) (hs false)
    | some o =>
      cases o with
      | none => exact ⟨false, _, _, _, _, by simp only [step, i.arg_dead ha]; rfl, by simp only [spec, ha], i, rfl, nf⟩
      | some v =>
        obtain ⟨s, hsrc, hrd, hkeep⟩ := i.arg ha
        cases hal : a.refersTo x with
        | true => exact absurd (by simp [spec, ha, hal]) (hs false)
        | false =>
          obtain ⟨full, r, e', h', σ', h1, h2, h3⟩ := reassign_ok i x (ss := List.replicate n s) (vs := List.replicate n v)
            (fun h1 hh => Reads.replicate (hkeep x hal h1 hh) n)
          exact ⟨full, r, e', h', σ', by simp only [step, hsrc]; exact h1, by simp only [spec, ha, hal, h2]; rfl, h3⟩
  | resize x n =>
    obtain ⟨full, r, e', h', σ', h1, h2, h3⟩ := reassign_ok i x (ss := List.replicate n (.val dflt)) (vs := List.replicate n dflt)
      (fun h1 _ => Reads.replicate (h := h1) (s := .val dflt) (a := dflt) rfl n)
    exact ⟨full, r, e', h', σ', h1, by rw [spec, h2], h3⟩
  | clear x =>
    cases hx : σ x with
    | none => exact ⟨false, _, _, _, _, by simp only [step, i.dead.mpr hx]; rfl, by simp only [spec, hx], i, rfl, nf⟩
    | some v =>
      obtain ⟨d, hd, o, _, ht, hsz⟩ := i.live hx
      obtain ⟨d', h', e1, hn, hd', c⟩ := destroy_spec i.wf o
      refine ⟨false, _, _, h', _, by simp only [step, hd]; rw [bind_some e1]; rfl, by simp only [spec, hx]; rfl, ?_, c.failA, nf⟩
      refine i.set (by rw [show ptr e x = d.data by simp [ptr, hd]]; show Chg h d.data h' d'.data; rw [hn]; exact c) ⟨?_, by simp [hn], by simp [hn], ?_⟩
      · simp only [Has, hn]
      · intro htn
        rcases hd' with rfl | h0
        · rw [hsz htn, o.none' hn]
        · exact h0
  | assignList x l =>
    cases hx : σ x with
    | none => exact ⟨false, _, _, _, _, by simp only [step, i.dead.mpr hx]; rfl, by simp only [spec, hx], i, rfl, nf⟩
    | some v => exact absurd (by simp only [spec, hx]) (hs false)
  | size x =>
    cases hx : σ x with
    | none => exact ⟨false, _, _, _, _, by simp only [step, i.dead.mpr hx]; rfl, by simp only [spec, hx], i, rfl, nf⟩
    | some v =>
      obtain ⟨d, hd, o, _, ht, hsz⟩ := i.live hx
      cases htn : v.torn with
      | true => exact absurd (by simp [spec, hx, htn]) (hs false)
      | false => exact ⟨false, _, _, _, _, by simp only [step, hd]; rfl, by simp only [spec, hx, htn, hsz htn]; rfl, i, rfl, nf⟩
  | «at» x k =>
    cases hx : σ x with
    | none => exact ⟨false, _, _, _, _, by simp only [step, i.dead.mpr hx]; rfl, by simp only [spec, hx], i, rfl, nf⟩
    | some v =>
      obtain ⟨d, hd, o, _, ht, hsz⟩ := i.live hx
      cases htn : v.torn with
      | true => exact absurd (by simp [spec, hx, htn]) (hs false)
      | false =>
        have hsz := hsz htn
        cases hk : v.elems[k]? with
        | none =>
          have : k ≥ d.size := by rw [hsz]; simpa using hk
          refine ⟨false, .threw, e, h, σ, ?_, by simp [spec, hx, htn, hk], i, rfl, nf⟩
          have e1 : (at' d k : M α (Res α)) h = some (.threw, h) := by rw [at', if_pos this]
          simp only [step, hd]; rw [bind_some e1]; rfl
        | some a =>
          have hlt : k < v.elems.length := (List.getElem?_eq_some_iff.mp hk).1
          refine ⟨false, .value a, e, h, σ, ?_, by simp [spec, hx, htn, hk], i, rfl, nf⟩
          cases hb : d.data with
          | none => rw [o.none' hb] at hk; simp at hk
          | some b =>
            have e1 : (at' d k : M α (Res α)) h = some (.value a, h) := by
              rw [at', if_neg (by omega), hb]
              simp [Heap.read, Heap.slot, (o.some' hb).1, hk]
            simp only [step, hd]; rw [bind_some e1]; rfl

theorem inv_init (failA : Nat → Bool) : Inv (Heap.empty (α := α) (fun _ => false) failA) (fun _ => none) (fun _ => none) :=
  ⟨fun _ _ => rfl, fun _ => rfl, fun _ => trivial, fun _ _ _ e => by simp [ptr] at e, fun _ hb => absurd rfl hb⟩

theorem run_ok (dflt : α) : ∀ (ops : List (Op α)) {h : Heap α} {e : Env} {σ : Vars α}, Inv h e σ →
    (∀ fs : List Bool, fs.length = ops.length → specRun dflt σ (ops.zip fs) ≠ none) →
    ∃ fs rs e' h' σ', fs.length = ops.length ∧ run dflt e ops h = some ((rs, e'), h') ∧ specRun dflt σ (ops.zip fs) = some (rs, σ') ∧
      Inv h' e' σ' ∧ ((∀ t, h.failA t = false) → ∀ f ∈ fs, f = false)
  | [], h, e, σ, i, _ => ⟨[], [], e, h, σ, rfl, rfl, rfl, i, fun _ _ hf => by cases hf⟩
  | op :: ops, h, e, σ, i, hs => by
    obtain ⟨full, r, e1, h1, σ1, a1, a2, i1, hA, hfull⟩ := step_ok dflt i op (fun full hn => by
      refine hs (full :: List.replicate ops.length false) (by simp) ?_
      simp only [List.zip_cons_cons, specRun, hn])
    obtain ⟨fs, rs, e2, h2, σ2, hl, b1, b2, i2, hf⟩ := run_ok dflt ops i1 (fun fs hl hn => by
      refine hs (full :: fs) (by simp [hl]) ?_
      simp only [List.zip_cons_cons, specRun, a2, hn])
    refine ⟨full :: fs, r :: rs, e2, h2, σ2, by simp [hl], ?_, ?_, i2, ?_⟩
    · rw [run, bind_some a1]
      simp only
      rw [bind_some b1]; rfl
    · simp only [List.zip_cons_cons, specRun, a2, b2]
    · intro hno f hfm
      rcases List.mem_cons.mp hfm with rfl | hfm
      · cases f with
        | false => rfl
        | true => obtain ⟨t, ht⟩ := hfull rfl; rw [hno] at ht; cases ht
      · exact hf (by rw [hA]; exact hno) f hfm

/-! ## Theorems -/

/-- **C26, what holds.** Take any program on any number of arrays whose element constructors do not throw, whatever allocations
fail, and which never does one of the things for which `spec` gives no answer. Then nothing bad happens: no element is destroyed
twice or without having been constructed, no block is freed twice or with live elements. All results are those of the
specification (for the allocations that failed). And as soon as every array has gone out of scope, no block is left: every
element has been destroyed, every block freed. -/
theorem C26_partial (dflt : α) (failA : Nat → Bool) (ops : List (Op α))
    (hsafe : ∀ fs : List Bool, fs.length = ops.length → specRun dflt (fun _ => none) (ops.zip fs) ≠ none) :
    ∃ fs rs e' h' σ', fs.length = ops.length ∧
      run dflt (fun _ => none) ops (Heap.empty (fun _ => false) failA) = some ((rs, e'), h') ∧
      specRun dflt (fun _ => none) (ops.zip fs) = some (rs, σ') ∧
      ((∀ x, e' x = none) → ∀ b, h'.blk b = none) ∧
      ((∀ t, failA t = false) → ∀ f ∈ fs, f = false) := by
  obtain ⟨fs, rs, e', h', σ', hl, h1, h2, i, hf⟩ := run_ok dflt ops (inv_init failA) hsafe
  refine ⟨fs, rs, e', h', σ', hl, h1, h2, ?_, hf⟩
  intro hall b
  by_cases hb : h'.blk b = none
  · exact hb
  · obtain ⟨x, hx⟩ := i.own b hb
    simp [ptr, hall x] at hx

/-- A program: declare, fill, move, swap, resize, read, leave the scopes. -/
def sample : List (Op Nat) := [.newVal 0 3 (.val 7), .new 1, .moveAssign 1 0, .assign 0 2 (.elem 1 0), .swap 0 1, .at 0 2, .at 1 5, .resize 0 1, .at 0 0, .del 0, .del 1]

example : (run 0 (fun _ => none) sample (Heap.empty (fun _ => false) (fun _ => false))).map (fun r => (r.1.1, (List.range 9).map r.2.blk)) =
    some ([.done, .done, .done, .done, .done, .value 7, .threw, .done, .value 0, .done, .done], List.replicate 9 none) := by decide +kernel

/-- The premise of `C26_partial` for a program in which every allocation may fail. -/
example : ∀ fs : List Bool, fs.length = 5 →
    specRun 0 (fun _ => none) (([.newVal 0 3 (.val 7), .new 1, .assign 1 2 (.val 8), .del 0, .del 1] : List (Op Nat)).zip fs) ≠ none := by
  intro fs h
  match fs, h with
  | [a, b, c, d, e], _ => cases a <;> cases b <;> cases c <;> cases d <;> cases e <;> decide +kernel

/-- **C26 fails: move assignment leaks.** The elements of the target are never destroyed, its block never freed: after both arrays
are gone, block 0 still holds a live 7. -/
theorem C26_move_assign_violated :
    ∃ e' h', run 0 (fun _ => none) [.newVal 0 1 (.val 7), .newVal 1 1 (.val 8), .moveAssign 0 1, .del 0, .del 1] (Heap.empty (fun _ => false) (fun _ => false)) =
      some (([.done, .done, .done, .done, .done], e'), h') ∧ e' 0 = none ∧ e' 1 = none ∧ h'.blk 0 = some [some 7] := by
  refine ⟨_, _, rfl, ?_⟩; decide +kernel

/-- **C26 fails: `x.assign(n, x[k])`** destroys the element before copying it, for every array and every `n > 0`. -/
theorem C26_assign_alias_violated (dflt : α) {h : Heap α} {e : Env} {σ : Vars α} (i : Inv h e σ) {x n k : Nat} {v : Val α} (hx : σ x = some v)
    (hk : k < v.elems.length) (hn : 0 < n) (hA : ∀ t, h.failA t = false) : step dflt e (.assign x n (.elem x k)) h = none := by
  obtain ⟨d, hd, o, _⟩ := i.live hx
  cases hb : d.data with
  | none => rw [o.none' hb] at hk; simp at hk
  | some b =>
    obtain ⟨m, rfl⟩ : ∃ m, n = m + 1 := ⟨n - 1, by omega⟩
    obtain ⟨d1, h1, e1, _, _, c1⟩ := destroy_spec i.wf o
    rw [hb] at c1
    have hfree := c1.freed b rfl (by simp)
    have hbn : b < h.next := Verif.VectorNd.lt_next i.wf (o.some' hb).1
    have hnx : h1.next = h.next := by
      simp only [destroy, hb] at e1
      obtain ⟨h2, e2, u2⟩ := destroyRev_spec b d.size v.elems h [] (o.some' hb).2.symm (by simpa using (o.some' hb).1)
      obtain ⟨h3, e3, f3⟩ := Verif.VectorNd.deallocate_spec (h := h2) (b := b) (n := d.size) (by simpa using u2.here)
      rw [bind_some e2, bind_some e3] at e1
      have : h3 = h1 := by simpa [pure, M.pure] using congrArg (Option.map Prod.snd) e1
      rw [← this, f3.next, u2.next]
    have hA1 : h1.failA h1.tick = false := by rw [c1.failA]; exact hA _
    simp only [step, Arg.src, hd, hb, reassignVar]
    have key : reassign d (List.replicate (m + 1) (Src.ref b k)) h = none := by
      rw [reassign, bind_some e1]
      have e2 : allocate (List.replicate (m + 1) (Src.ref b k : Src α)).length h1 = some ((true, ⟨(List.replicate (m + 1) (Src.ref b k : Src α)).length, some h1.next⟩),
          { h1.put h1.next (some (List.replicate (List.replicate (m + 1) (Src.ref b k : Src α)).length none)) with next := h1.next + 1, tick := h1.tick + 1 }) := by
        simp [allocate, bind, M.bind, alloc, hA1, pure, M.pure]
      rw [bind_some e2]
      have hne : b ≠ h1.next := by omega
      simp only [if_true]
      simp [bind, M.bind, constructAll, List.replicate_succ, Verif.VectorNd.copyLoop, Verif.VectorNd.construct, Heap.read, Heap.slot, Heap.put, hne, hfree]
    simp [bind, M.bind, key]

/-- **C26 fails: `x = {...}`** always ends in undefined behaviour, if it does not throw. -/
theorem C26_assign_list_violated (dflt : α) {h : Heap α} {e : Env} {σ : Vars α} (i : Inv h e σ) {x : Nat} (hx : σ x ≠ none) (l : List α)
    (hA : ∀ t, h.failA t = false) : step dflt e (.assignList x l) h = none := by
  cases hv : σ x with
  | none => exact absurd hv hx
  | some v =>
    obtain ⟨d, hd, o, _⟩ := i.live hv
    have key : assignList d l h = none := by
      rcases reassign_spec i.wf i.noFail o (fun h1 _ => Reads.vals (h := h1) l) with ⟨d', h', e1, _⟩ | ⟨_, _, _, _, _, t, ht⟩
      · rw [assignList, bind_some e1]; rfl
      · rw [hA] at ht; cases ht
    simp [step, hd, bind, M.bind, key]

/-- **C26 fails when an element constructor throws in `assign`**: the destructor of the array then destroys elements that were never
constructed. -/
theorem C26_throw_assign_violated :
    run 0 (fun _ => none) [.new 0, .assign 0 2 (.val 7), .del 0] (Heap.empty (fun t => decide (t = 2)) (fun _ => false)) = none := by decide +kernel

/-- **C26 fails when an element constructor throws in a constructor**: what was constructed is never destroyed, the block never freed. -/
theorem C26_throw_ctor_violated :
    ∃ e' h', run 0 (fun _ => none) [.newVal 0 2 (.val 7)] (Heap.empty (fun t => decide (t = 2)) (fun _ => false)) = some (([.threw], e'), h') ∧
      e' 0 = none ∧ h'.blk 0 = some [some 7, none] := by
  refine ⟨_, _, rfl, ?_⟩; decide +kernel

/-- After an `assign` that failed to allocate, `size` reports elements that do not exist, `at` reads through a null pointer, and
`clear` does not help. -/
theorem C26_size_violated :
    (run 0 (fun _ => none) [.new 0, .assign 0 2 (.val 7), .clear 0, .size 0] (Heap.empty (fun _ => false) (fun _ => true))).map (fun r => r.1.1) =
      some [.done, .threw, .done, .num 2] ∧
    run 0 (fun _ => none) [.new 0, .assign 0 2 (.val 7), .at 0 0] (Heap.empty (fun _ => false) (fun _ => true)) = none := by
  constructor <;> decide +kernel

/-- If its allocation fails, `x = {...}` throws like `assign`; the array is left empty of elements. -/
theorem C26_assign_list_throws (dflt : α) {h : Heap α} {e : Env} {σ : Vars α} (i : Inv h e σ) {x : Nat} (hx : σ x ≠ none) (l : List α)
    (hA : ∀ t, h.failA t = true) : ∃ e' h', step dflt e (.assignList x l) h = some ((.threw, e'), h') ∧ ptr e' x = none := by
  cases hv : σ x with
  | none => exact absurd hv hx
  | some v =>
    obtain ⟨d, hd, o, _⟩ := i.live hv
    obtain ⟨d1, h1, e1, _, _, c1⟩ := destroy_spec i.wf o
    have hA1 : h1.failA h1.tick = true := by rw [c1.failA]; exact hA _
    have e2 : allocate (l.map Src.val).length h1 = some ((false, ⟨(l.map (Src.val (α := α))).length, none⟩), { h1 with tick := h1.tick + 1 }) := by
      simp [allocate, bind, M.bind, alloc, hA1, pure, M.pure]
    have key : assignList d l h = some ((false, ⟨(l.map (Src.val (α := α))).length, none⟩), { h1 with tick := h1.tick + 1 }) := by
      rw [assignList]
      have : reassign d (l.map Src.val) h = some ((false, ⟨(l.map (Src.val (α := α))).length, none⟩), { h1 with tick := h1.tick + 1 }) := by
        rw [reassign, bind_some e1, bind_some e2]; rfl
      rw [bind_some this]; rfl
    refine ⟨_, _, by simp only [step, hd]; rw [bind_some key]; rfl, ?_⟩
    simp [ptr, Env.set]

example : (run 0 (fun _ => none) [.new 0, .assignList 0 [7]] (Heap.empty (fun _ => false) (fun _ => true))).map (fun r => r.1.1) = some [.done, .threw] := by
  decide +kernel

end Verif.DynArray
