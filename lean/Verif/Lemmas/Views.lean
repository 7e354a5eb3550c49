import Verif.Model.Views
import Mathlib.Data.List.Forall2
import Mathlib.Tactic.Ring
import Mathlib.Tactic.Linarith

set_option autoImplicit false

namespace Verif.Views

/-- Product of a list. -/
def prod : List Nat → Nat
  | [] => 1
  | e :: es => e * prod es

theorem totalSize_prod : ∀ (ext : List Nat), ext ≠ [] → totalSize ext = prod ext
  | [], h => absurd rfl h
  | [e], _ => by simp [totalSize, prod]
  | e :: e' :: es, _ => by simp only [totalSize, prod]; rw [totalSize_prod (e' :: es) (by simp)]; rfl

/-- Rows of each dimension fit into the offset of that dimension. -/
def Rows (sz : Nat) : List Desc → Prop
  | [] => True
  | [d] => d.size * sz ≤ d.offset
  | d :: d' :: ds => d.size * d'.offset ≤ d.offset ∧ Rows sz (d' :: ds)

/-- Totals are products of the sizes. -/
def Shape : List Desc → Prop
  | [] => True
  | [d] => d.total = d.size
  | d :: d' :: ds => d.total = d.size * d'.total ∧ Shape (d' :: ds)

/-- Offsets of all dimensions but the first are tight. -/
def Tight (sz : Nat) (ds : List Desc) : Prop := ∀ d ∈ ds.tail, d.offset = d.total * sz

theorem shape_prod : ∀ (d : Desc) (ds : List Desc), Shape (d :: ds) → d.total = prod ((d :: ds).map Desc.size)
  | d, [], h => by simpa [Shape, prod] using h
  | d, d' :: ds, h => by
    have := shape_prod d' ds h.2
    rw [h.1, this]; rfl

theorem elem_some (sz : Nat) : ∀ (ds : List Desc) (p : Nat) (idx : List Nat), ds ≠ [] → idx.length = ds.length →
    ∃ a, elem sz p ds idx = some a
  | [], _, _, h, _ => absurd rfl h
  | [d], p, [i], _, _ => ⟨_, rfl⟩
  | [d], p, [], _, h => by simp at h
  | [d], p, _ :: _ :: _, _, h => by simp at h
  | d :: d' :: ds, p, [], _, h => by simp at h
  | d :: d' :: ds, p, i :: is, _, h => by
    simp only [elem]
    exact elem_some sz (d' :: ds) _ is (by simp) (by simpa using h)

theorem elem_bounds (sz : Nat) : ∀ (d : Desc) (ds : List Desc) (p a : Nat) (idx : List Nat), Rows sz (d :: ds) →
    List.Forall₂ (· < ·) idx ((d :: ds).map Desc.size) → elem sz p (d :: ds) idx = some a → p ≤ a ∧ a + sz ≤ p + d.offset
  | d, [], p, a, idx, hr, hi, ha => by
    cases hi with
    | cons h1 h2 =>
      cases h2
      rename_i i
      simp only [elem, Option.some.injEq] at ha
      subst ha
      simp only [Rows] at hr
      have := Nat.mul_le_mul_right sz (show i + 1 ≤ d.size from h1)
      rw [Nat.add_mul] at this
      omega
  | d, d' :: ds, p, a, idx, hr, hi, ha => by
    cases hi with
    | cons h1 h2 =>
      rename_i i is
      simp only [elem] at ha
      obtain ⟨b1, b2⟩ := elem_bounds sz d' ds _ a is hr.2 h2 ha
      have := Nat.mul_le_mul_right d'.offset (show i + 1 ≤ d.size from h1)
      rw [Nat.add_mul] at this
      have := hr.1
      omega

theorem elem_lex (sz : Nat) : ∀ (d : Desc) (ds : List Desc) (p a b : Nat) (idx jdx : List Nat), Rows sz (d :: ds) →
    List.Forall₂ (· < ·) idx ((d :: ds).map Desc.size) → List.Forall₂ (· < ·) jdx ((d :: ds).map Desc.size) →
    elem sz p (d :: ds) idx = some a → elem sz p (d :: ds) jdx = some b → List.Lex (· < ·) idx jdx → a + sz ≤ b
  | d, [], p, a, b, idx, jdx, hr, hi, hj, ha, hb, hl => by
    cases hi with
    | cons h1 h2 =>
      cases h2
      cases hj with
      | cons h3 h4 =>
        cases h4
        rename_i i j
        simp only [elem, Option.some.injEq] at ha hb
        subst ha hb
        cases hl with
        | rel h =>
          have := Nat.mul_le_mul_right sz (show i + 1 ≤ j from h)
          rw [Nat.add_mul] at this
          omega
        | cons h => cases h
  | d, d' :: ds, p, a, b, idx, jdx, hr, hi, hj, ha, hb, hl => by
    cases hi with
    | cons h1 h2 =>
      cases hj with
      | cons h3 h4 =>
        rename_i i is j js
        simp only [elem] at ha hb
        cases hl with
        | rel h =>
          have b1 := (elem_bounds sz d' ds _ a is hr.2 h2 ha).2
          have b2 := (elem_bounds sz d' ds _ b js hr.2 h4 hb).1
          have := Nat.mul_le_mul_right d'.offset (show i + 1 ≤ j from h)
          rw [Nat.add_mul] at this
          omega
        | cons h => exact elem_lex sz d' ds _ a b is js hr.2 h2 h4 ha hb h

/-- All multi-indices below `ext`, in lexicographic order. -/
def allIdx : List Nat → List (List Nat)
  | [] => [[]]
  | e :: es => (List.range e).flatMap fun i => (allIdx es).map (i :: ·)

theorem mem_allIdx : ∀ (ext idx : List Nat), idx ∈ allIdx ext ↔ List.Forall₂ (· < ·) idx ext
  | [], idx => by simp [allIdx]
  | e :: es, idx => by
    simp only [allIdx, List.mem_flatMap, List.mem_range, List.mem_map]
    constructor
    · rintro ⟨i, hi, js, hjs, rfl⟩
      exact .cons hi ((mem_allIdx es js).1 hjs)
    · intro h
      cases h with
      | cons h1 h2 => exact ⟨_, h1, _, (mem_allIdx es _).2 h2, rfl⟩

theorem range_mul (m : Nat) (f : Nat → Nat) : ∀ n, (List.range n).flatMap (fun i => (List.range m).map fun j => f (i * m + j)) = (List.range (n * m)).map f := by
  intro n
  induction n with
  | zero => simp
  | succ n ih =>
    rw [List.range_succ, List.flatMap_append, ih, Nat.add_mul, Nat.one_mul, List.range_add, List.map_append]
    simp

theorem elem_tight (sz : Nat) : ∀ (d : Desc) (ds : List Desc) (p : Nat), Shape (d :: ds) → Tight sz (d :: ds) →
    (allIdx ((d :: ds).map Desc.size)).map (elem sz p (d :: ds)) = (List.range d.total).map fun k => some (p + k * sz)
  | d, [], p, hs, ht => by
    simp only [Shape] at hs
    simp [allIdx, List.map_flatMap, elem, hs, ← List.map_eq_flatMap]
  | d, d' :: ds, p, hs, ht => by
    have ih := fun q => elem_tight sz d' ds q hs.2 (fun x hx => ht x (by simp [List.mem_of_mem_tail hx]))
    have ho : d'.offset = d'.total * sz := ht d' (by simp)
    rw [List.map_cons, allIdx, List.map_flatMap]
    simp only [List.map_map]
    have : ∀ i, List.map (elem sz p (d :: d' :: ds) ∘ (fun x => i :: x)) (allIdx ((d' :: ds).map Desc.size)) =
        (List.range d'.total).map fun j => some (p + (i * d'.total + j) * sz) := by
      intro i
      have h1 : (elem sz p (d :: d' :: ds) ∘ (fun x => i :: x)) = elem sz (p + i * d'.offset) (d' :: ds) := by
        funext x; simp [elem]
      rw [h1, ih]
      congr 1
      funext j
      rw [ho]
      congr 1
      ring
    simp only [this]
    rw [hs.1]
    have := range_mul d'.total (fun k => p + k * sz) d.size
    have h2 := congrArg (List.map some) this
    rw [List.map_flatMap] at h2
    simpa [Function.comp_def] using h2

/-! ### The builders -/

theorem dense_head (sz : Nat) (e : Nat) (es : List Nat) : ∃ d ds, denseDescs sz (e :: es) = d :: ds := by
  simp only [denseDescs]; split <;> simp

theorem dense_props (sz : Nat) : ∀ (ext : List Nat), (denseDescs sz ext).map Desc.size = ext ∧ Shape (denseDescs sz ext) ∧
    (∀ d ∈ denseDescs sz ext, d.offset = d.total * sz) ∧ Rows sz (denseDescs sz ext)
  | [] => by simp [denseDescs, Shape, Rows]
  | [e] => by simp [denseDescs, Shape, Rows]
  | e :: e' :: es => by
    obtain ⟨h1, h2, h3, h4⟩ := dense_props sz (e' :: es)
    obtain ⟨d, ds, hd⟩ := dense_head sz e' es
    rw [denseDescs]
    rw [hd] at h1 h2 h3 h4 ⊢
    refine ⟨by simpa using h1, ⟨rfl, h2⟩, ?_, ?_, h4⟩
    · intro x hx
      rcases List.mem_cons.1 hx with rfl | hx
      · rfl
      · exact h3 x hx
    · have := h3 d (by simp)
      simp only [this]
      rw [Nat.mul_assoc]

theorem arrElem_eq (sz : Nat) : ∀ (ext : List Nat) (p : Nat) (idx : List Nat), arrElem sz p ext idx = elem sz p (denseDescs sz ext) idx
  | [], p, idx => by simp [arrElem, denseDescs, elem]
  | [e], p, [] => by simp [arrElem, denseDescs, elem]
  | [e], p, [i] => by simp [arrElem, denseDescs, elem]
  | [e], p, _ :: _ :: _ => by simp [arrElem, denseDescs, elem]
  | e :: e' :: es, p, [] => by
    obtain ⟨d, ds, hd⟩ := dense_head sz e' es
    rw [denseDescs, hd]
    simp [arrElem, elem]
  | e :: e' :: es, p, i :: is => by
    obtain ⟨d, ds, hd⟩ := dense_head sz e' es
    obtain ⟨h1, h2, h3, -⟩ := dense_props sz (e' :: es)
    have ih := arrElem_eq sz (e' :: es) (p + i * totalSize (e' :: es) * sz) is
    rw [denseDescs, hd]
    simp only [arrElem, elem]
    rw [ih, hd]
    rw [hd] at h1 h2 h3
    have := shape_prod d ds h2
    rw [h1] at this
    rw [totalSize_prod _ (by simp), ← this, h3 d (by simp), Nat.mul_assoc]

theorem elemLoop_head (sz : Nat) (x : Nat × Nat) (es : List (Nat × Nat)) : ∃ d ds, elemLoop sz (x :: es) = d :: ds := by
  simp only [elemLoop]; split <;> simp

theorem elemLoop_props (sz : Nat) : ∀ (l : List (Nat × Nat)), (∀ x ∈ l, x.1 ≤ x.2) →
    (elemLoop sz l).map Desc.size = l.map Prod.fst ∧ Shape (elemLoop sz l) ∧ Rows sz (elemLoop sz l)
  | [], _ => by simp [elemLoop, Shape, Rows]
  | [(e, s)], h => by
    have := h (e, s) (by simp)
    exact ⟨by simp [elemLoop], rfl, Nat.mul_le_mul_right sz this⟩
  | (e, s) :: x :: l, h => by
    obtain ⟨h1, h2, h3⟩ := elemLoop_props sz (x :: l) (fun y hy => h y (by simp [hy]))
    obtain ⟨d, ds, hd⟩ := elemLoop_head sz x l
    rw [elemLoop]
    rw [hd] at h1 h2 h3 ⊢
    exact ⟨by simpa using h1, ⟨rfl, h2⟩, Nat.mul_le_mul_right _ (h (e, s) (by simp)), h3⟩

theorem byteLoop_head (x : Nat × Nat) (es : List (Nat × Nat)) : ∃ d ds, byteLoop (x :: es) = d :: ds := by
  simp only [byteLoop]; split <;> simp

/-- Byte strides that leave room for the rows below. -/
def BytesOk (sz : Nat) : List (Nat × Nat) → Prop
  | [] => True
  | [(e, s)] => e * sz ≤ s
  | (e, s) :: (e', s') :: l => e * s' ≤ s ∧ BytesOk sz ((e', s') :: l)

theorem byteLoop_offset (e s : Nat) (l : List (Nat × Nat)) : ∃ d ds, byteLoop ((e, s) :: l) = d :: ds ∧ d.offset = s ∧ d.size = e := by
  simp only [byteLoop]; split <;> simp

theorem byteLoop_props (sz : Nat) : ∀ (l : List (Nat × Nat)), BytesOk sz l →
    (byteLoop l).map Desc.size = l.map Prod.fst ∧ Shape (byteLoop l) ∧ Rows sz (byteLoop l)
  | [], _ => by simp [byteLoop, Shape, Rows]
  | [(e, s)], h => ⟨by simp [byteLoop], rfl, h⟩
  | (e, s) :: (e', s') :: l, h => by
    obtain ⟨h1, h2, h3⟩ := byteLoop_props sz _ h.2
    obtain ⟨d, ds, hd, ho, -⟩ := byteLoop_offset e' s' l
    rw [byteLoop]
    rw [hd] at h1 h2 h3 ⊢
    refine ⟨by simpa using h1, ⟨rfl, h2⟩, ?_, h3⟩
    simp only [ho]
    exact h.1

/-! ### `continuous` -/

theorem rows_total (sz : Nat) : ∀ (d : Desc) (ds : List Desc), Shape (d :: ds) → Rows sz (d :: ds) → d.total * sz ≤ d.offset
  | d, [], hs, hr => by simp only [Shape] at hs; rw [hs]; exact hr
  | d, d' :: ds, hs, hr => by
    have := rows_total sz d' ds hs.2 hr.2
    rw [hs.1, Nat.mul_assoc]
    exact Nat.le_trans (Nat.mul_le_mul_left _ this) hr.1

theorem tight_of (sz : Nat) : ∀ (d : Desc) (ds : List Desc), Shape (d :: ds) → Rows sz (d :: ds) → (∀ x ∈ (d :: ds), 0 < x.size) →
    d.offset = d.total * sz → ∀ x ∈ d :: ds, x.offset = x.total * sz
  | d, [], _, _, _, h => by simpa using h
  | d, d' :: ds, hs, hr, hp, h => by
    intro x hx
    rcases List.mem_cons.1 hx with rfl | hx
    · exact h
    · refine tight_of sz d' ds hs.2 hr.2 (fun y hy => hp y (by simp [List.mem_cons.1 hy])) ?_ x hx
      have h1 := rows_total sz d' ds hs.2 hr.2
      have h2 := hr.1
      rw [h, hs.1, Nat.mul_assoc] at h2
      have := Nat.le_of_mul_le_mul_left h2 (hp d (by simp))
      omega

theorem elem_dense_flat (sz : Nat) : ∀ (ds : List Desc) (p q : Nat) (idx : List Nat), ds ≠ [] →
    elem sz (p + q) ds idx = (elem sz p ds idx).map (· + q)
  | [], p, q, idx, h => absurd rfl h
  | [d], p, q, [], _ => rfl
  | [d], p, q, [i], _ => by simp [elem]; omega
  | [d], p, q, _ :: _ :: _, _ => rfl
  | d :: d' :: ds, p, q, [], _ => rfl
  | d :: d' :: ds, p, q, i :: is, _ => by
    simp only [elem]
    rw [show p + q + i * d'.offset = (p + i * d'.offset) + q by omega]
    exact elem_dense_flat sz (d' :: ds) _ q is (by simp)

/-! ### Samplers -/

/-- The indices actually used, for samplers that treat all dimensions alike. -/
def effective (s : Sampler) : List Int → List Nat → List Nat := List.zipWith fun i e => s.transform 0 (s.conv i) e

def DimFree (s : Sampler) : Prop := ∀ d i e, s.transform d i e = s.transform 0 i e

theorem fetchCont_eq (s : Sampler) (hs : DimFree s) (sz p : Nat) : ∀ (ext : List Nat) (off d : Nat) (idx : List Int), ext ≠ [] →
    idx.length = ext.length →
    fetchCont s sz p off d ext idx = elem sz (p + off * prod ext.tail * sz) (denseDescs sz ext) (effective s idx ext)
  | [], off, d, idx, h, _ => absurd rfl h
  | [e], off, d, [], _, hl => by simp at hl
  | [e], off, d, [i], _, _ => by
    simp only [fetchCont, denseDescs, effective, elem, List.zipWith, hs d, List.tail, prod]
    congr 1; ring
  | [e], off, d, _ :: _ :: _, _, hl => by simp at hl
  | e :: e' :: es, off, d, [], _, hl => by simp at hl
  | e :: e' :: es, off, d, i :: is, _, hl => by
    have hl' : is.length = (e' :: es).length := by simpa using hl
    obtain ⟨d0, ds, hd⟩ := dense_head sz e' es
    obtain ⟨h1, h2, h3, -⟩ := dense_props sz (e' :: es)
    rw [hd] at h1 h2 h3
    have ht := shape_prod d0 ds h2
    rw [h1] at ht
    simp only [fetchCont]
    rw [fetchCont_eq s hs sz p (e' :: es) _ (d + 1) is (by simp) hl', hd,
      show denseDescs sz (e :: e' :: es) = ⟨e, e * d0.total, e * d0.total * sz⟩ :: d0 :: ds by rw [denseDescs, hd]]
    simp only [effective, List.zipWith, elem]
    congr 1
    rw [h3 d0 (by simp), ht, hs d]
    simp only [List.tail, prod]
    ring

theorem fetchStrided_eq (s : Sampler) (hs : DimFree s) (sz : Nat) : ∀ (ds : List Desc) (p dim : Nat) (idx : List Int), ds ≠ [] →
    idx.length = ds.length → fetchStrided s sz p dim ds idx = elem sz p ds (effective s idx (ds.map Desc.size))
  | [], p, dim, idx, h, _ => absurd rfl h
  | [d], p, dim, [], _, hl => by simp at hl
  | [d], p, dim, [i], _, _ => by simp [fetchStrided, effective, elem, hs dim]
  | [d], p, dim, _ :: _ :: _, _, hl => by simp at hl
  | d :: d' :: ds, p, dim, [], _, hl => by simp at hl
  | d :: d' :: ds, p, dim, i :: is, _, hl => by
    simp only [fetchStrided]
    rw [fetchStrided_eq s hs sz (d' :: ds) _ (dim + 1) is (by simp) (by simpa using hl)]
    simp only [effective, List.map_cons, List.zipWith, elem, hs dim]

theorem toSize_range (i : Int) (e : Nat) (h1 : -2 ^ 63 ≤ i) (h2 : i < 2 ^ 64) (he : e ≤ 2 ^ 63) :
    (toSize i < e ↔ 0 ≤ i ∧ i < e) ∧ (0 ≤ i → (toSize i : Int) = i) := by
  unfold toSize
  omega

theorem toInt32_id (i : Int) (h1 : -2 ^ 31 ≤ i) (h2 : i < 2 ^ 31) : toInt32 i = i := by
  unfold toInt32; omega

theorem checkBounds_iff (s : Sampler) (hs : ∀ d i e, s.check d i e = s.check 0 i e) : ∀ (ext : List Nat) (d : Nat) (idx : List Int),
    idx.length = ext.length → (checkBounds s d ext idx = true ↔ List.Forall₂ (fun i e => s.check 0 (s.conv i) e = true) idx ext)
  | [], d, [], _ => by simp [checkBounds]
  | [], d, _ :: _, h => by simp at h
  | [e], d, [], h => by simp at h
  | [e], d, [i], _ => by simp [checkBounds, hs d]
  | [e], d, _ :: _ :: _, h => by simp at h
  | e :: e' :: es, d, [], h => by simp at h
  | e :: e' :: es, d, i :: is, h => by
    have ih := checkBounds_iff s hs (e' :: es) (d + 1) is (by simpa using h)
    simp only [checkBounds, Bool.and_eq_true, ih, List.forall₂_cons_left_iff, hs d]
    constructor
    · rintro ⟨h1, h2⟩; exact ⟨_, _, h1, h2, rfl⟩
    · rintro ⟨_, _, h1, h2, h3⟩; simp at h3; obtain ⟨rfl, rfl⟩ := h3; exact ⟨h1, h2⟩

end Verif.Views
