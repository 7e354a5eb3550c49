import Verif.Model.SamplerMembers
import Verif.Lemmas.Numeric
import Verif.Props.C11_Views

/-!
# C112: the members of a sampler are used as documented
-/
set_option autoImplicit false

namespace Verif.SamplerMembers

open Verif.Numeric (IntTy conv_id conv_congr)
open Verif.Views (InRangeZ)

/-! ### Specification -/

/-- a member declared in the documented form (container_nd.h l.863-867): a template, const, with exactly the documented return type -/
def Documented (m : Decl) : Prop := m.isTemplate = true ∧ m.isConst = true ∧ m.ref = .no ∧ m.exact = true

/-- all members of the class are declared in the documented form -/
structure AllDocumented (c : Cls) : Prop where
  check : ∀ m f, c.check = some (m, f) → Documented m
  transform : ∀ m f, c.transform = some (m, f) → Documented m
  value : ∀ m r, c.value = some (m, r) → Documented m
  boundary : ∀ m r, c.boundary = some (m, r) → Documented m

/-- the member can be called on the sampler as it is given: `s.member<...>(...)` compiles -/
def CanBeCalled (m : Decl) (g : Given) : Prop :=
  m.isTemplate = true ∧ m.ref ≠ .rvalue ∧ (m.isConst = true ∨ g = .lvalue)

/-- the functions of the sampler, or what is documented in their place: whether the index is in range, and the index itself -/
def docCheck (c : Cls) (d : Nat) (i : Int) (n : Nat) : Bool :=
  match c.check with
  | some (_, f) => f d i n
  | none => decide (0 ≤ i ∧ i < n)

def docTransform (c : Cls) (d : Nat) (i : Int) (n : Nat) : Nat :=
  match c.transform with
  | some (_, f) => f d i n
  | none => i.toNat

/-! ### Lemmas -/

theorem Documented.foundIndex {m : Decl} (h : Documented m) : m.foundIndex = true := by
  obtain ⟨h1, h2, h3, h4⟩ := h; simp [Decl.foundIndex, Decl.onDeclval, h1, h3, h4]

theorem Documented.foundBoundary {m : Decl} (h : Documented m) : m.foundBoundary = true := by
  obtain ⟨h1, h2, h3, h4⟩ := h; simp [Decl.foundBoundary, Decl.onDeclval, h1, h3]

theorem Documented.foundValue {m : Decl} (h : Documented m) : m.foundValue = true := by
  obtain ⟨h1, h2, h3, h4⟩ := h; simp [Decl.foundValue, Decl.onDeclval, h3]

theorem Documented.onNamed {m : Decl} (h : Documented m) (b : Bool) : m.onNamed b = true := by
  obtain ⟨h1, h2, h3, h4⟩ := h; simp [Decl.onNamed, h2, h3]

theorem u64_id {i : Int} (h0 : 0 ≤ i) (h : i < 2 ^ 64) : Numeric.u64.conv i = i := conv_id Numeric.u64 (by decide) i ⟨h0, h⟩

theorem u64_neg {i : Int} (h0 : i < 0) (h : -2 ^ 63 ≤ i) : Numeric.u64.conv i = i + 2 ^ 64 := by
  rw [conv_congr Numeric.u64 i (i + 2 ^ 64) ⟨-1, by rw [show Numeric.u64.bits = 64 from rfl]; omega⟩]
  exact u64_id (by omega) (by omega)

theorem below_iff {i : Int} {n : Nat} (h1 : -2 ^ 63 ≤ i) (h2 : i < 2 ^ 64) (hn : n ≤ 2 ^ 63) :
    decide (Numeric.u64.conv i < (n : Int)) = decide (0 ≤ i ∧ i < n) := by
  apply decide_eq_decide.2
  by_cases h0 : 0 ≤ i
  · rw [u64_id h0 h2]; constructor
    · intro h; exact ⟨h0, h⟩
    · intro h; exact h.2
  · rw [u64_neg (by omega) h1]
    constructor
    · intro h; omega
    · intro h; omega

/-! ### Documented members are used -/

/-- Every member in the documented form is used, however the sampler is given, and `at` uses the same ones; for a missing one the documented default
is used. Indices are converted to the `index_type` of the class, and kept if it has none. -/
theorem C112_documented (c : Cls) (h : AllDocumented c) (g : Given) :
    ∃ s, c.sampler g = some s ∧ c.samplerAt g = some { s with boundary := false } ∧ (∀ t, c.indexTy = some t → s.conv = t.conv) ∧
      (c.indexTy = none → ∀ i, 0 ≤ i → i < 2 ^ 64 → s.conv i = i) ∧ s.boundary = c.boundary.isSome ∧
      (∀ d i n, -2 ^ 63 ≤ i → i < 2 ^ 64 → n ≤ 2 ^ 63 → s.check d i n = docCheck c d i n) ∧
      (∀ d i n, 0 ≤ i → i < 2 ^ 64 → s.transform d i n = docTransform c d i n) ∧
      (∀ m f, c.transform = some (m, f) → s.transform = f) ∧ (∀ m f, c.check = some (m, f) → s.check = f) := by
  have hcheck : ∃ f, c.checkFn g = some f ∧ (∀ d i n, -2 ^ 63 ≤ i → i < 2 ^ 64 → n ≤ 2 ^ 63 → f d i n = docCheck c d i n) ∧
      (∀ m f', c.check = some (m, f') → f = f') := by
    unfold Cls.checkFn docCheck
    cases hc : c.check with
    | none => exact ⟨_, rfl, fun d i n h1 h2 h3 => below_iff h1 h2 h3, by intro m f' h'; cases h'⟩
    | some mf =>
      obtain ⟨m, f⟩ := mf
      have hd := h.check m f hc
      refine ⟨f, ?_, fun _ _ _ _ _ _ => rfl, ?_⟩
      · simp [hd.foundIndex, hd.onNamed]
      · intro m' f' h'; cases h'; rfl
  have htr : ∃ f, c.transformFn g = some f ∧ (∀ d i n, 0 ≤ i → i < 2 ^ 64 → f d i n = docTransform c d i n) ∧
      (∀ m f', c.transform = some (m, f') → f = f') := by
    unfold Cls.transformFn docTransform
    cases hc : c.transform with
    | none => exact ⟨_, rfl, fun d i n h1 h2 => by dsimp only; rw [u64_id h1 h2], by intro m f' h'; cases h'⟩
    | some mf =>
      obtain ⟨m, f⟩ := mf
      have hd := h.transform m f hc
      refine ⟨f, ?_, fun _ _ _ _ _ => rfl, ?_⟩
      · simp [hd.foundIndex, hd.onNamed]
      · intro m' f' h'; cases h'; rfl
  have hb : ∃ b, c.boundaryUse g = some b ∧ b.isSome = c.boundary.isSome := by
    unfold Cls.boundaryUse
    cases hc : c.boundary with
    | none => exact ⟨_, rfl, rfl⟩
    | some mr =>
      obtain ⟨m, r⟩ := mr
      have hd := h.boundary m r hc
      exact ⟨some r, by simp [hd.foundBoundary, hd.onNamed], rfl⟩
  have hv : ∃ b, c.valueUse g = some b := by
    unfold Cls.valueUse
    cases hc : c.value with
    | none => exact ⟨_, rfl⟩
    | some mr =>
      obtain ⟨m, r⟩ := mr
      have hd := h.value m r hc
      exact ⟨some r, by simp [hd.foundValue, hd.onNamed]⟩
  obtain ⟨f, hf, hf1, hf2⟩ := hcheck
  obtain ⟨t, ht, ht1, ht2⟩ := htr
  obtain ⟨b, hb, hb1⟩ := hb
  obtain ⟨v, hv⟩ := hv
  refine ⟨{ conv := c.index.conv, check := f, transform := t, boundary := b.isSome }, ?_, ?_, ?_, ?_, hb1, hf1, ht1, ht2, hf2⟩
  · simp only [Cls.sampler, hf, ht, hb, hv]
  · simp only [Cls.samplerAt, hf, ht]
  · intro t ht; simp only [Cls.index, ht]
  · intro ht i h0 h1; simp only [Cls.index, ht]; exact u64_id h0 h1

/-- The declaration of the members in the documented form. -/
def doc : Decl := ⟨true, true, .no, true⟩

/-- A sampler that reverses the indices. -/
def reversing (m : Decl) : Cls :=
  { indexTy := none, check := none, transform := some (m, fun _ i n => n - 1 - i.toNat), value := none, boundary := none, returnTy := none }

theorem reversing_doc : AllDocumented (reversing doc) where
  check := by intro m f h; cases h
  transform := by intro m f h; cases h; exact ⟨rfl, rfl, rfl, rfl⟩
  value := by intro m f h; cases h
  boundary := by intro m f h; cases h

example : AllDocumented (reversing doc) ∧
    ((reversing doc).sampler .rvalue).bind (fun s => Views.loadDense s 4 100 [5] [1]) = some (.elem 112) := ⟨reversing_doc, by decide⟩

/-- A class without functions, whatever its type of indices: the elements in range are read, and every other index is refused. -/
theorem C112_plain (t : IntTy) (ht : 1 ≤ t.bits) (ht' : t.bits ≤ 64) (g : Given) (sz p : Nat) (ext : List Nat) (idx : List Int) (h : ext ≠ [])
    (hl : idx.length = ext.length) (hi : ∀ i ∈ idx, t.Mem i) (he : ∀ e ∈ ext, e ≤ 2 ^ 63) :
    ∃ s, Cls.sampler { indexTy := some t, check := none, transform := none, value := none, boundary := none, returnTy := none } g = some s ∧
    (InRangeZ idx ext → Views.loadDense s sz p ext idx = (Views.elem sz p (Views.denseDescs sz ext) (idx.map Int.toNat)).map .elem) ∧
    (¬ InRangeZ idx ext → Views.loadDense s sz p ext idx = some .throws) := by
  have hrange : ∀ i ∈ idx, -2 ^ 63 ≤ i ∧ i < 2 ^ 64 := by
    intro i hi'
    have hm := hi i hi'
    have h1 := Numeric.two_pow_mono ht'
    have h2 := Numeric.two_pow_mono (show t.bits - 1 ≤ 63 by omega)
    unfold IntTy.Mem IntTy.lo IntTy.hi at hm
    split at hm <;> constructor <;> omega
  refine ⟨{ conv := t.conv, check := fun _ i n => decide (Numeric.u64.conv i < n), transform := fun _ i _ => (Numeric.u64.conv i).toNat, boundary := false }, rfl, ?_⟩
  generalize hs : ({ conv := t.conv, check := fun _ i n => decide (Numeric.u64.conv i < n), transform := fun _ i _ => (Numeric.u64.conv i).toNat, boundary := false } : Views.Sampler) = s
  have hc : Views.checkBounds s 0 ext idx = true ↔ InRangeZ idx ext := by
    rw [Views.checkBounds_iff s (by subst hs; intros; rfl) ext 0 idx hl]
    clear hl h
    induction idx generalizing ext with
    | nil => cases ext <;> simp [InRangeZ]
    | cons i is ih =>
      cases ext with
      | nil => simp [InRangeZ]
      | cons e es =>
        simp only [InRangeZ, List.forall₂_cons]
        have h1 := ih es (fun i h => hi i (by simp [h])) (fun e h => he e (by simp [h])) (fun i h => hrange i (by simp [h]))
        simp only [InRangeZ] at h1
        rw [h1]
        have h2 : s.check 0 (s.conv i) e = decide (0 ≤ i ∧ i < (e : Int)) := by
          subst hs
          dsimp only
          rw [conv_id t ht i (hi i (by simp))]
          exact below_iff (hrange i (by simp)).1 (hrange i (by simp)).2 (he e (by simp))
        rw [h2, decide_eq_true_iff]
  constructor
  · intro hr
    rw [Views.loadDense, if_pos (hc.2 hr), Views.fetchCont_default s (by subst hs; intro _ _ _; rfl) sz p ext idx h hl]
    rw [Views.effective_inRange s (fun _ _ => True) idx _ hr]
    intro i hi' e _ h0 _
    subst hs
    dsimp only
    rw [conv_id t ht i (hi i hi'), u64_id h0 (hrange i hi').2]
  · intro hr
    rw [Views.loadDense, if_neg (fun h => hr (hc.1 h))]
    subst hs; rfl

example : Numeric.i32.Mem (-1) ∧ InRangeZ [2] [3] ∧ ¬ InRangeZ [-1] [3] := by
  refine ⟨⟨by decide, by decide⟩, .cons ⟨by decide, by decide⟩ .nil, ?_⟩
  simp [InRangeZ]

/-! ### Other declarations -/

/-- A member that can be called on the sampler is called: if it is declared for rvalues too and has the exact type. Missing: others (see below). -/
theorem C112_called_partial (c : Cls) (g : Given) (m : Decl) (f : Nat → Int → Nat → Nat) (h : c.transform = some (m, f)) (hc : CanBeCalled m g)
    (hr : m.ref = .lvalue → m.isConst = true) (he : m.exact = true) : c.transformFn g = some f := by
  obtain ⟨h1, h2, h3⟩ := hc
  have hf : m.foundIndex = true := by
    simp only [Decl.foundIndex, Decl.onDeclval, h1, he]
    cases hm : m.ref <;> simp
    exact hr hm
  have hn : m.onNamed g.isConst = true := by
    unfold Decl.onNamed
    cases hm : m.ref
    · rcases h3 with h3 | rfl
      · simp [h3]
      · simp [Given.isConst]
    · rcases h3 with h3 | rfl
      · simp [h3]
      · simp [Given.isConst]
    · exact absurd hm h2
  unfold Cls.transformFn
  rw [h]
  simp [hf, hn]

example : CanBeCalled ⟨true, false, .no, true⟩ .lvalue ∧ ((reversing ⟨true, false, .no, true⟩).sampler .lvalue).isSome = true :=
  ⟨⟨rfl, by decide, .inr rfl⟩, by decide⟩

/-- A function that returns another integer type than `size_t` is passed over without a word: the element read is not the one it says. -/
theorem C112_other_type_violated : CanBeCalled ⟨true, true, .no, false⟩ .lvalue ∧
    ((reversing ⟨true, true, .no, false⟩).sampler .lvalue).bind (fun s => Views.loadDense s 4 100 [5] [1]) = some (.elem 104) :=
  ⟨⟨rfl, by decide, .inl rfl⟩, by decide⟩

/-- Likewise one that is declared for lvalues only, on an lvalue. -/
theorem C112_lvalue_violated : CanBeCalled ⟨true, false, .lvalue, true⟩ .lvalue ∧
    ((reversing ⟨true, false, .lvalue, true⟩).sampler .lvalue).bind (fun s => Views.loadDense s 4 100 [5] [1]) = some (.elem 104) :=
  ⟨⟨rfl, by decide, .inr rfl⟩, by decide⟩

/-- Likewise one that is not a template over the dimension. -/
theorem C112_not_template_violated :
    ((reversing ⟨false, true, .no, true⟩).sampler .lvalue).bind (fun s => Views.loadDense s 4 100 [5] [1]) = some (.elem 104) := by decide

/-- A function that is not const works with a sampler that is an lvalue, and does not compile with one that is made by `load` or is an rvalue,
although that is not const either. -/
theorem C112_not_const_violated (g : Given) : ((reversing ⟨true, false, .no, true⟩).sampler g).isSome = decide (g = .lvalue) := by
  cases g <;> rfl

/-! ### What `load` gives -/

/-- A value, or a reference to something that is there: if the class returns values, or if neither its functions nor the container do. -/
theorem C112_result_partial (c : Cls) (g : Given) (elem : Ret)
    (h : c.returnTy = some .value ∨ (elem = .ref ∧ (∀ m r, c.value = some (m, r) → r = .ref) ∧ ∀ m r, c.boundary = some (m, r) → r = .ref)) :
    c.loadInRange g elem ≠ some .dangling ∧ c.loadOutside g ≠ some (some .dangling) := by
  rcases h with h | ⟨h1, h2, h3⟩
  · constructor
    · unfold Cls.loadInRange Cls.give; rw [h]; split <;> simp
    · unfold Cls.loadOutside Cls.give; rw [h]; split <;> simp
  · have hg : ∀ src, src ≠ Result.dangling → c.give .ref src ≠ .dangling := by
      intro src hs; unfold Cls.give; split
      · simp
      · exact hs
    constructor
    · unfold Cls.loadInRange
      split
      · simp
      · subst h1
        intro h; exact hg _ (by decide) (Option.some.inj h)
      · rename_i r hr
        have : r = .ref := by
          unfold Cls.valueUse at hr
          split at hr
          · rename_i m r' hv
            split at hr
            · split at hr
              · cases hr; exact h2 _ _ hv
              · cases hr
            · cases hr
          · cases hr
        subst this
        intro h; exact hg _ (by decide) (Option.some.inj h)
    · unfold Cls.loadOutside
      split
      · simp
      · simp
      · rename_i r hr
        have : r = .ref := by
          unfold Cls.boundaryUse at hr
          split at hr
          · rename_i m r' hv
            split at hr
            · split at hr
              · cases hr; exact h3 _ _ hv
              · cases hr
            · cases hr
          · cases hr
        subst this
        intro h; exact hg _ (by decide) (Option.some.inj (Option.some.inj h))

/-- `sampler_default`, and `sampler_zero` (container_nd.h l.1110-1113, 1133-1155), as classes. -/
def defaultCls : Cls := { indexTy := some Numeric.u64, check := none, transform := none, value := none, boundary := none, returnTy := none }
def zeroCls : Cls :=
  { indexTy := some Numeric.i32, check := some (doc, fun _ i n => decide (0 ≤ i ∧ i < n)), transform := none, value := none, boundary := some (doc, .value),
    returnTy := some .value }

example : defaultCls.loadInRange .made .ref = some .element ∧ zeroCls.loadInRange .made .ref = some .value ∧
    zeroCls.loadOutside .made = some (some .value) := by decide

/-- The model of reading (Model/Views.lean) has the functions of `sampler_zero` that come from its declaration. -/
theorem C112_zero (g : Given) : ∃ s, zeroCls.sampler g = some s ∧ s.check = Views.samplerZero.check ∧ s.boundary = Views.samplerZero.boundary ∧
    (∀ i, s.conv i = Views.samplerZero.conv i) ∧ ∀ d i n, s.check d i n = true → n ≤ 2 ^ 64 → s.transform d i n = Views.samplerZero.transform d i n := by
  refine ⟨{ conv := Numeric.i32.conv, check := fun _ i n => decide (0 ≤ i ∧ i < n), transform := fun _ i _ => (Numeric.u64.conv i).toNat, boundary := true },
    by cases g <;> rfl, rfl, rfl, ?_, ?_⟩
  · intro i
    show (i - -2 ^ 31) % 2 ^ 32 + -2 ^ 31 = (i + 2 ^ 31) % 2 ^ 32 - 2 ^ 31
    omega
  · intro d i n h hn
    simp only [decide_eq_true_eq] at h
    show (Numeric.u64.conv i).toNat = i.toNat
    rw [u64_id h.1 (by omega)]

/-- A function for values that returns a value, in a class without `return_type`: `load` gives a reference to what is gone. -/
theorem C112_dangling_violated (g : Given) :
    let c : Cls := { defaultCls with value := some (doc, .value) }
    AllDocumented c ∧ c.loadInRange g .ref = some .dangling := by
  refine ⟨⟨?_, ?_, ?_, ?_⟩, by cases g <;> rfl⟩
  · intro m f h; cases h
  · intro m f h; cases h
  · intro m f h; cases h; exact ⟨rfl, rfl, rfl, rfl⟩
  · intro m f h; cases h

/-- The same with `sampler_default` and a container that gives its elements as values (one of the generic category, which is read by its subscripts,
container_nd.h l.996-1014). -/
theorem C112_values_violated (g : Given) : defaultCls.loadInRange g .value = some .dangling := by cases g <;> rfl

end Verif.SamplerMembers
