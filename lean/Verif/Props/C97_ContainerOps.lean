import Verif.Model.ContainerOps

/-!
**C97** The generic interface of containers reports the shape of the container: for every container, whichever of the methods it has,
every operation of the generic interface that compiles answers what the shape says, and every operation compiles for every container.
-/
set_option autoImplicit false

namespace Verif.ContOps

/-! ### Specification -/

/-- The product of the extents. -/
def cells (ext : List Nat) : Nat := ext.foldr (· * ·) 1

/-- A container with these extents and strides (in bytes, all dimensions but the last), whose elements do or do not follow each other in
memory: every method it has tells the truth. -/
structure Truthful (ext strides : List Nat) (contiguous : Bool) (c : Cont) : Prop where
  num : c.num = ext.length
  pos : 0 < ext.length
  len : strides.length + 1 = ext.length
  size0 : ∀ n, c.size0 = some n → ext[0]? = some n
  size1 : ∀ f, c.size1 = some f → ∀ d, d < ext.length → ext[d]? = some (f d)
  stride : ∀ f, c.stride = some f → ∀ d, d < strides.length → strides[d]? = some (f d)
  continuous : ∀ b, c.continuous = some b → b = contiguous
  dimensions : ∀ ds, c.dimensions = some ds → ds = ext
  dimsRange : ∀ ds, c.dimsRange = some ds → ds = ext
  strides : ∀ ss, c.strides = some ss → ss = strides
  total : ∀ n, c.total = some n → n = cells ext
  stdSize : ∀ n, c.stdSize = some n → ext[0]? = some n

/-! ### Lemmas -/

theorem totalFrom_zero : ∀ (ext : List Nat), ext ≠ [] → totalFrom ext 0 = cells ext
  | [], h => absurd rfl h
  | [e], _ => by simp [totalFrom, cells]
  | e :: e' :: es, _ => by
    rw [totalFrom, totalFrom_zero (e' :: es) (by simp)]; rfl

theorem map_range_eq (f : Nat → Nat) (l : List Nat) (h : ∀ d, d < l.length → l[d]? = some (f d)) : (List.range l.length).map f = l := by
  refine List.ext_getElem? fun i => ?_
  rw [List.getElem?_map]
  by_cases hi : i < l.length
  · rw [List.getElem?_range hi, h i hi]; rfl
  · rw [List.getElem?_eq_none (by simpa using hi), List.getElem?_eq_none (Nat.le_of_not_lt hi)]; rfl

theorem mapM_some (f : Nat → Nat) : ∀ (l : List Nat), l.mapM (fun d => some (f d)) = some (l.map f)
  | [] => rfl
  | x :: xs => by rw [List.mapM_cons, mapM_some f xs]; rfl

variable {ext strides : List Nat} {contiguous : Bool} {c : Cont}

theorem Truthful.opSize_eq (h : Truthful ext strides contiguous c) (n : Nat) (hn : c.opSize = some n) : ext[0]? = some n := by
  unfold Cont.opSize at hn
  split at hn
  · next heq => cases hn; exact h.size0 _ heq
  · next heq => cases hn; exact h.size1 _ heq 0 h.pos
  · exact h.stdSize _ hn

theorem Truthful.dims_eq (h : Truthful ext strides contiguous c) (ds : List Nat) (hd : c.opDimensions = some ds) : ds = ext := by
  unfold Cont.opDimensions at hd
  split at hd
  · next heq => cases hd; exact h.dimensions _ heq
  · unfold Cont.dimsFromSize at hd
    split at hd
    · next hn =>
      rw [Option.map_eq_some_iff] at hd
      obtain ⟨n, h0, rfl⟩ := hd
      have h1 := h.size0 n h0
      have h2 : ext.length = 1 := h.num ▸ hn
      match ext, h1, h2 with
      | [e], h1, _ => simp only [List.getElem?_cons_zero, Option.some.injEq] at h1; rw [h1]
    · rw [Option.map_eq_some_iff] at hd
      obtain ⟨f, h0, rfl⟩ := hd
      rw [h.num]; exact map_range_eq f ext (h.size1 f h0)

/-! ### Properties -/

/-- **C97**, answers: whatever compiles answers what the shape says. `size(c, dim)` is asked for dimensions that exist. -/
theorem C97_answers (h : Truthful ext strides contiguous c) :
    (∀ n, c.opSize = some n → ext[0]? = some n) ∧
    (∀ d n, d < ext.length → c.opSizeDim d = some n → ext[d]? = some n) ∧
    (∀ ds, c.opDimensions = some ds → ds = ext) ∧ (∀ ds, c.opDimsRange = some ds → ds = ext) ∧
    (∀ n, c.opTotal = some n → n = cells ext) ∧
    (∀ d n, d < strides.length → c.opStride d = some n → strides[d]? = some n) ∧
    (∀ ss, c.opStrides = some ss → ss = strides) := by
  have hne : ext ≠ [] := fun h0 => by have := h.pos; rw [h0] at this; exact Nat.lt_irrefl 0 this
  refine ⟨h.opSize_eq, ?_, h.dims_eq, ?_, ?_, ?_, ?_⟩
  · intro d n hd hn
    unfold Cont.opSizeDim at hn
    split at hn
    · next heq => cases hn; exact h.size1 _ heq d hd
    · split at hn
      · next h1 =>
        have : d = 0 := by have := h.num; omega
        rw [this]; exact h.opSize_eq n hn
      · cases hn
  · intro ds hd
    unfold Cont.opDimsRange at hd
    split at hd
    · next heq => cases hd; exact h.dimsRange _ heq
    · split at hd
      · next h1 =>
        cases hs : c.size1 with
        | none =>
          simp only [Cont.hasSize1, hs, Option.isSome_none, Bool.or_false, Bool.and_eq_true, decide_eq_true_eq] at h1
          have := h.num; have := h.pos; omega
        | some f =>
          have : c.opSizeDim = fun d => some (f d) := by funext d; simp only [Cont.opSizeDim, hs]
          rw [this, mapM_some, h.num, map_range_eq f ext (h.size1 f hs)] at hd
          cases hd; rfl
      · cases hd
  · intro n hn
    unfold Cont.opTotal at hn
    split at hn
    · next heq => cases hn; exact h.total _ heq
    · rw [Option.map_eq_some_iff] at hn
      obtain ⟨ds, hd, rfl⟩ := hn
      rw [h.dims_eq ds hd]; exact totalFrom_zero ext hne
  · intro d n hd hn
    simp only [Cont.opStride, Option.map_eq_some_iff] at hn
    obtain ⟨f, hf, rfl⟩ := hn
    exact h.stride f hf d hd
  · intro ss hs
    unfold Cont.opStrides at hs
    split at hs
    · next heq => cases hs; exact h.strides _ heq
    · next f _ hf =>
      split at hs
      · cases hs
      · cases hs
        have : c.num - 1 = strides.length := by have := h.num; have := h.len; omega
        rw [this]; exact map_range_eq f strides (h.stride f hf)
    · cases hs

/-- A 3-D container with `size(dim)` and `stride(dim)` only. -/
def sample : Cont :=
  ⟨3, none, some (fun d => [4, 3, 5].getD d 0), some (fun d => [80, 20].getD d 0), none, none, none, none, none, none⟩

example : Truthful [4, 3, 5] [80, 20] true sample ∧ sample.opDimensions = some [4, 3, 5] ∧ sample.opTotal = some 60 ∧ sample.opStrides = some [80, 20] := by
  refine ⟨⟨rfl, by decide, rfl, ?_, ?_, ?_, ?_, ?_, ?_, ?_, ?_, ?_⟩, by decide, by decide, by decide⟩
  · intro n h; cases h
  · intro f h d hd; cases h
    match d, hd with
    | 0, _ => rfl
    | 1, _ => rfl
    | 2, _ => rfl
  · intro f h d hd; cases h
    match d, hd with
    | 0, _ => rfl
    | 1, _ => rfl
  all_goals (intro b h; cases h)

/-- **C97**, what compiles, in terms of the methods of a class: `size(c)` if `std::size` or a size method is there; `size(c, dim)` if
`size(dim)` is, or the container has one dimension and `size(c)` compiles; and so on. Not proved, because false (`C97_c_array_violated`,
`C97_dimensions_range_violated`, `C97_strides_violated`): that they compile for every container of which the sizes are known. -/
theorem C97_compiles_partial (h : Truthful ext strides contiguous c) :
    (c.opSize.isSome = true ↔ c.size0.isSome = true ∨ c.size1.isSome = true ∨ c.stdSize.isSome = true) ∧
    (∀ d, (c.opSizeDim d).isSome = true ↔ c.size1.isSome = true ∨ (ext.length = 1 ∧ c.opSize.isSome = true)) ∧
    (c.opDimensions.isSome = true ↔ c.dimensions.isSome = true ∨ (ext.length = 1 ∧ c.size0.isSome = true) ∨
      (1 < ext.length ∧ c.size1.isSome = true)) ∧
    (c.opDimsRange.isSome = true ↔ c.dimsRange.isSome = true ∨ c.size1.isSome = true) ∧
    (c.opTotal.isSome = true ↔ c.total.isSome = true ∨ c.opDimensions.isSome = true) ∧
    (c.opStrides.isSome = true ↔ c.strides.isSome = true ∨ (1 < ext.length ∧ c.stride.isSome = true)) := by
  have hnum := h.num
  have hpos := h.pos
  have h1 : c.num = 1 ↔ ext.length = 1 := by rw [hnum]
  refine ⟨?_, ?_, ?_, ?_, ?_, ?_⟩
  · unfold Cont.opSize
    cases c.size0 <;> cases c.size1 <;> simp
  · intro d
    unfold Cont.opSizeDim
    cases c.size1 with
    | some f => simp
    | none =>
      by_cases h2 : c.num = 1
      · simp [h2, h1.1 h2]
      · have h3 : ¬ ext.length = 1 := fun e => h2 (h1.2 e)
        simp [h2, h3]
  · unfold Cont.opDimensions Cont.dimsFromSize
    cases c.dimensions with
    | some ds => simp
    | none =>
      by_cases h2 : c.num = 1
      · have h3 := h1.1 h2
        simp [h2, h3]
      · have h3 : ¬ ext.length = 1 := fun e => h2 (h1.2 e)
        have h4 : 1 < ext.length := by omega
        simp [h2, h3, h4]
  · unfold Cont.opDimsRange
    cases c.dimsRange with
    | some ds => simp
    | none =>
      have h5 : ¬ c.num < 1 := by omega
      cases hs : c.size1 with
      | none => simp [Cont.hasSize1, hs, h5]
      | some f =>
        have : c.opSizeDim = fun d => some (f d) := by funext d; simp only [Cont.opSizeDim, hs]
        simp [Cont.hasSize1, hs, this, mapM_some]
  · unfold Cont.opTotal
    cases c.total <;> simp
  · unfold Cont.opStrides
    cases c.strides with
    | some ss => simp
    | none =>
      cases c.stride with
      | none => simp
      | some f =>
        by_cases h6 : c.num - 1 = 0
        · have : ¬ 1 < ext.length := by omega
          simp [h6, this]
        · have : 1 < ext.length := by omega
          simp [h6, this]

/-- **C97**, what is promised: the flags of the generic interface say what compiles, but for the strides of 1-D containers
(`C97_strides_violated`). -/
theorem C97_flags_partial (h : Truthful ext strides contiguous c) :
    (c.hasSize0 = true → c.opSize.isSome = true) ∧ (∀ d, c.hasSize1 = true → (c.opSizeDim d).isSome = true) ∧
    (c.hasDimsRange = true ↔ c.opDimsRange.isSome = true) ∧ (1 < ext.length → (c.hasStrides = true ↔ c.opStrides.isSome = true)) := by
  obtain ⟨a1, a2, -, a4, -, a6⟩ := C97_compiles_partial h
  have h5 : ¬ c.num < 1 := by have := h.num; have := h.pos; omega
  have hs1 : c.hasSize1 = c.size1.isSome := by simp [Cont.hasSize1, h5]
  refine ⟨fun h0 => a1.2 ?_, fun d h0 => (a2 d).2 (Or.inl (hs1 ▸ h0)), ?_, fun hl => ?_⟩
  · simp only [Cont.hasSize0, Bool.or_eq_true] at h0
    rcases h0 with h0 | h0
    · exact Or.inl h0
    · exact Or.inr (Or.inl h0)
  · rw [a4, Cont.hasDimsRange, Bool.or_eq_true, hs1]
  · rw [a6, Cont.hasStrides, Bool.or_eq_true]
    exact ⟨fun h0 => h0.elim (fun h1 => Or.inr ⟨hl, h1⟩) Or.inl, fun h0 => h0.elim Or.inr fun h1 => Or.inl h1.2⟩

theorem truthful_cArray (n : Nat) : Truthful [n] [] true (cArray n) := by
  refine ⟨rfl, Nat.one_pos, rfl, ?_, ?_, ?_, ?_, ?_, ?_, ?_, ?_, ?_⟩
  all_goals (intro x h; cases h; try rfl)

theorem truthful_stdVector (n : Nat) : Truthful [n] [] true (stdVector n) := by
  refine ⟨rfl, Nat.one_pos, rfl, ?_, ?_, ?_, ?_, ?_, ?_, ?_, ?_, ?_⟩
  all_goals (intro x h; cases h; try rfl)

/-- C arrays: the sizes are known, but neither `dimensions` nor `total_size` compiles: they call the method `size()`. -/
theorem C97_c_array_violated (n : Nat) : Truthful [n] [] true (cArray n) ∧ (cArray n).opSize = some n ∧ (cArray n).opSizeDim 0 = some n ∧
    (cArray n).opDimensions = none ∧ (cArray n).opTotal = none :=
  ⟨truthful_cArray n, rfl, rfl, rfl, rfl⟩

/-- `std::vector`, `std::array`: `size(c, 0)` compiles, and so does `dimensions`, but `dimensions_range`, which would call `size(c, dim)`,
does not: the condition asks for less than one dimension. -/
theorem C97_dimensions_range_violated (n : Nat) : Truthful [n] [] true (stdVector n) ∧ (stdVector n).opSizeDim 0 = some n ∧
    (stdVector n).opDimensions = some [n] ∧ (stdVector n).opTotal = some n ∧ (stdVector n).hasDimsRange = false ∧ (stdVector n).opDimsRange = none :=
  ⟨truthful_stdVector n, rfl, rfl, rfl, rfl, rfl⟩

/-- A 1-D container with `stride(dim)` and without `strides()`: the flag promises `strides(c)`, which does not compile. -/
theorem C97_strides_violated : ∃ c, Truthful [7] [] true c ∧ c.hasStrides = true ∧ c.opStrides = none := by
  refine ⟨⟨1, some 7, none, some (fun _ => 4), none, none, none, none, none, some 7⟩, ⟨rfl, by decide, rfl, ?_, ?_, ?_, ?_, ?_, ?_, ?_, ?_, ?_⟩, rfl, rfl⟩
  · intro n h; cases h; rfl
  · intro f h; cases h
  · intro f _ d hd; exact absurd hd (Nat.not_lt_zero d)
  all_goals (intro x h; cases h; try rfl)

/-- **C97**, `continuous(c)`: if it answers true, the elements follow each other, provided that the container says so itself or has more
than one dimension. Not proved, because false (`C97_continuous_violated`): for 1-D containers that do not say. -/
theorem C97_continuous_partial (h : Truthful ext strides contiguous c) (h1 : c.continuous.isSome = true ∨ 1 < ext.length)
    (hc : c.opContinuous = true) : contiguous = true := by
  unfold Cont.opContinuous at hc
  split at hc
  · next b hb => rw [← h.continuous b hb]; exact hc
  · next hb =>
    rw [hb] at h1
    have hl : 1 < ext.length := h1.elim (fun h0 => by cases h0) id
    have := of_decide_eq_true hc
    have := h.num
    omega

example : sample.opContinuous = false := rfl

/-- A list with one dimension that does not say whether it is continuous, is taken to be. -/
theorem C97_continuous_violated : ∃ c, Truthful [3] [] false c ∧ c.opContinuous = true := by
  refine ⟨stdVector 3, ⟨rfl, by decide, rfl, ?_, ?_, ?_, ?_, ?_, ?_, ?_, ?_, ?_⟩, rfl⟩
  all_goals (intro x h; cases h; try rfl)

/-- **C97** for the named extents: the width is the last extent, the height the one before it, then the depth and the layers; `length` is
that of one dimension. They compile exactly for the containers with `size(dim)` and up to four dimensions that have such an extent. -/
theorem C97_named (h : Truthful ext strides contiguous c) :
    (∀ n, c.length = some n → ext = [n]) ∧
    (∀ n, c.width = some n → ext.reverse[0]? = some n) ∧ (∀ n, c.height = some n → ext.reverse[1]? = some n) ∧
    (∀ n, c.depth = some n → ext.reverse[2]? = some n) ∧ (∀ n, c.layers = some n → ext.reverse[3]? = some n) ∧
    (c.length.isSome = true ↔ c.size1.isSome = true ∧ ext.length = 1) ∧
    (c.width.isSome = true ↔ c.size1.isSome = true ∧ 2 ≤ ext.length ∧ ext.length ≤ 4) ∧
    (c.height.isSome = true ↔ c.size1.isSome = true ∧ 2 ≤ ext.length ∧ ext.length ≤ 4) ∧
    (c.depth.isSome = true ↔ c.size1.isSome = true ∧ 3 ≤ ext.length ∧ ext.length ≤ 4) ∧
    (c.layers.isSome = true ↔ c.size1.isSome = true ∧ ext.length = 4) := by
  have hnum := h.num
  cases hs : c.size1 with
  | none =>
    simp only [Cont.length, Cont.width, Cont.height, Cont.depth, Cont.layers, hs, Option.map_none, ite_self]
    simp
  | some f =>
    have hf := h.size1 f hs
    simp only [Cont.length, Cont.width, Cont.height, Cont.depth, Cont.layers, hs, Option.map_some, hnum]
    match ext, hf, h.pos with
    | [a], hf, _ =>
      have h0 := hf 0 (by simp)
      simp at h0; simp [h0]
    | [a, b], hf, _ =>
      have h0 := hf 0 (by simp); have h1 := hf 1 (by simp)
      simp at h0 h1; simp [h0, h1]
    | [a, b, d], hf, _ =>
      have h0 := hf 0 (by simp); have h1 := hf 1 (by simp); have h2 := hf 2 (by simp)
      simp at h0 h1 h2; simp [h0, h1, h2]
    | [a, b, d, e], hf, _ =>
      have h0 := hf 0 (by simp); have h1 := hf 1 (by simp); have h2 := hf 2 (by simp); have h3 := hf 3 (by simp)
      simp at h0 h1 h2 h3; simp [h0, h1, h2, h3]
    | a :: b :: d :: e :: g :: l, _, _ =>
      simp

example : sample.width = some 5 ∧ sample.height = some 3 ∧ sample.depth = some 4 ∧ sample.layers = none := by decide

/-- **C97** for `dimensionality::total_size(start)`: the number of cells of the dimensions from `start` on, which exist; so also for
`sub_dims()`. Not proved, because false (`C97_total_size_violated`): for no dimensions the number is 1. -/
theorem C97_total_size_partial : ∀ (ext : List Nat) (start : Nat), start < ext.length →
    totalSize ext start = cells (ext.drop start) ∧ (start + 1 < ext.length → totalSize (subDims ext) start = totalSize ext (start + 1)) := by
  have key : ∀ (ext : List Nat) (start : Nat), start < ext.length → totalFrom ext start = cells (ext.drop start) := by
    intro ext
    induction ext with
    | nil => intro start h; exact absurd h (Nat.not_lt_zero _)
    | cons e es ih =>
      intro start h
      match start, es, h, ih with
      | 0, es, _, _ => rw [totalFrom_zero _ (by simp)]; rfl
      | k + 1, [], h, _ => simp at h
      | k + 1, e' :: es, h, ih => rw [totalFrom, ih k (by simpa using h)]; rfl
  intro ext start h
  refine ⟨key ext start h, fun h2 => ?_⟩
  rw [totalSize, totalSize, subDims, key _ _ h2, key _ _ (by rw [List.length_tail]; omega), List.drop_tail]

example : totalSize [4, 3, 5] 1 = 15 ∧ totalSize (subDims [4, 3, 5]) 0 = 15 := by decide

/-- From past the last dimension on, `total_size` answers the last extent, and `sub_dims()` of one dimension has no cells. -/
theorem C97_total_size_violated : ∃ ext, totalSize ext ext.length ≠ cells (ext.drop ext.length) ∧
    totalSize (subDims [7]) 0 ≠ totalSize [7] 1 ∧ totalSize (subDims [7]) 0 ≠ cells (subDims [7]) :=
  ⟨[4, 3], by decide, by decide, by decide⟩

end Verif.ContOps
