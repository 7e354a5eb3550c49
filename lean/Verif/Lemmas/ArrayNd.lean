import Verif.Model.ArrayNd
import Verif.Lemmas.Views
/-!
Lemmas for C81: addresses in bytes against positions in elements, loops, and the element-wise operations.
-/
set_option autoImplicit false
set_option linter.unusedSectionVars false

namespace Verif.ArrayNd
open Verif.Views
variable {α : Type}

/-! ### Layouts (part of the specification of C81) -/

/-- `steps [s1, .., sn]`: how many elements the index of each dimension counts for, the rows being padded to `s1, .., sn`. -/
def steps : List Nat → List Nat
  | [] => [1]
  | s :: ss => s * prod ss :: steps ss

/-- A layout: for each dimension its extent and its step, in elements. -/
def layout (ext strides : List Nat) : List (Nat × Nat) := ext.zip (steps strides)

/-- The layout of an array. -/
def rowMajor (ext : List Nat) : List (Nat × Nat) := layout ext ext.tail

/-- The position of an element. -/
def pos : Nat → List (Nat × Nat) → List Nat → Nat
  | start, d :: ds, i :: is => pos (start + i * d.2) ds is
  | start, _, _ => start

/-- One index for each dimension, each below the extent. -/
def inRange : List Nat → List (Nat × Nat) → Bool
  | [], [] => true
  | i :: is, d :: ds => decide (i < d.1) && inRange is ds
  | _, _ => false

/-- How far the last element is from the first. -/
def far : List (Nat × Nat) → Nat
  | [] => 0
  | d :: ds => (d.1 - 1) * d.2 + far ds

/-! ### Positions -/

theorem inRange_length : ∀ (idx : List Nat) (dims : List (Nat × Nat)), inRange idx dims = true → idx.length = dims.length
  | [], [], _ => rfl
  | i :: is, d :: ds, h => by
    simp only [inRange, Bool.and_eq_true] at h
    simp [inRange_length is ds h.2]

theorem inRange_iff : ∀ (idx : List Nat) (dims : List (Nat × Nat)), inRange idx dims = true ↔
    List.Forall₂ (· < ·) idx (dims.map Prod.fst)
  | [], [] => by simp [inRange]
  | [], d :: ds => by simp [inRange]
  | i :: is, [] => by simp [inRange]
  | i :: is, d :: ds => by simp [inRange, inRange_iff is ds]

theorem pos_add : ∀ (dims : List (Nat × Nat)) (idx : List Nat) (a b : Nat), pos (a + b) dims idx = pos a dims idx + b
  | [], _, _, _ => by simp [pos]
  | d :: ds, [], _, _ => by simp [pos]
  | d :: ds, i :: is, a, b => by
    simp only [pos]
    rw [show a + b + i * d.2 = (a + i * d.2) + b by omega]
    exact pos_add ds is _ _

theorem pos_le : ∀ (dims : List (Nat × Nat)) (idx : List Nat) (start : Nat), inRange idx dims = true →
    pos start dims idx ≤ start + far dims
  | [], [], start, _ => by simp [pos, far]
  | d :: ds, i :: is, start, h => by
    simp only [inRange, Bool.and_eq_true, decide_eq_true_eq] at h
    have := pos_le ds is (start + i * d.2) h.2
    have h2 := Nat.mul_le_mul_right d.2 (show i ≤ d.1 - 1 by omega)
    simp only [pos, far]
    omega

theorem steps_length : ∀ (ss : List Nat), (steps ss).length = ss.length + 1
  | [] => rfl
  | s :: ss => by simp [steps, steps_length ss]

theorem layout_fst (ext strides : List Nat) (h : strides.length + 1 = ext.length) : (layout ext strides).map Prod.fst = ext := by
  simp only [layout]
  rw [List.map_fst_zip]
  rw [steps_length]; omega

theorem layout_length (ext strides : List Nat) (h : strides.length + 1 = ext.length) : (layout ext strides).length = ext.length := by
  simp only [layout, List.length_zip, steps_length]; omega

theorem prod_pos : ∀ (l : List Nat), (∀ x ∈ l, 0 < x) → 0 < prod l
  | [], _ => by simp [prod]
  | x :: l, h => by
    simp only [prod]
    exact Nat.mul_pos (h x (by simp)) (prod_pos l (fun y hy => h y (by simp [hy])))

theorem rowMajor_cons (e e' : Nat) (es : List Nat) : rowMajor (e :: e' :: es) = (e, prod (e' :: es)) :: rowMajor (e' :: es) := rfl

theorem rowMajor_ne (ext : List Nat) (h : ext ≠ []) : rowMajor ext ≠ [] := by
  cases ext with
  | nil => exact absurd rfl h
  | cons e es => cases es <;> simp [rowMajor, layout, steps]

theorem rowMajor_fst (ext : List Nat) (h : ext ≠ []) : (rowMajor ext).map Prod.fst = ext := by
  apply layout_fst
  cases ext with
  | nil => exact absurd rfl h
  | cons e es => simp

theorem rowMajor_far : ∀ (ext : List Nat), ext ≠ [] → (∀ e ∈ ext, 0 < e) → far (rowMajor ext) + 1 = prod ext
  | [], h, _ => absurd rfl h
  | [e], _, h => by
    have := h e (by simp)
    simp only [rowMajor, layout, steps, List.tail, List.zip_cons_cons, List.zip_nil_left, far, prod]; omega
  | e :: e' :: es, _, h => by
    have ih := rowMajor_far (e' :: es) (by simp) (fun x hx => h x (by simp [List.mem_cons.1 hx]))
    have h0 := h e (by simp)
    rw [rowMajor_cons]
    simp only [far]
    rw [show prod (e :: e' :: es) = e * prod (e' :: es) from rfl, Nat.add_assoc, ih]
    obtain ⟨k, rfl⟩ : ∃ k, e = k + 1 := ⟨e - 1, by omega⟩
    rw [Nat.add_sub_cancel, Nat.add_mul, Nat.one_mul]

/-! ### Descriptors and layouts -/

/-- The descriptors describe the layout. -/
def RelD (sz : Nat) : List Desc → List (Nat × Nat) → Prop
  | [d], [x] => d.size = x.1 ∧ x.2 = 1
  | d :: d' :: ds, x :: xs => d.size = x.1 ∧ d'.offset = x.2 * sz ∧ RelD sz (d' :: ds) xs
  | _, _ => False

theorem RelD.length {sz : Nat} : ∀ {ds : List Desc} {xs : List (Nat × Nat)}, RelD sz ds xs → ds.length = xs.length
  | [d], [x], _ => rfl
  | d :: d' :: ds, x :: xs, h => by simp [RelD.length h.2.2]
  | [], _, h => by simp [RelD] at h
  | [d], [], h => by simp [RelD] at h
  | [d], _ :: _ :: _, h => by simp [RelD] at h
  | d :: d' :: ds, [], h => by simp [RelD] at h

theorem RelD.ne {sz : Nat} {ds : List Desc} {xs : List (Nat × Nat)} (h : RelD sz ds xs) : ds ≠ [] := by
  rintro rfl; simp [RelD] at h

theorem RelD.sizes {sz : Nat} : ∀ {ds : List Desc} {xs : List (Nat × Nat)}, RelD sz ds xs → ds.map Desc.size = xs.map Prod.fst
  | [d], [x], h => by simp [h.1]
  | d :: d' :: ds, x :: xs, h => by
    have := RelD.sizes h.2.2
    simp only [List.map_cons] at this ⊢
    rw [this, h.1]
  | [], _, h => by simp [RelD] at h
  | [d], [], h => by simp [RelD] at h
  | [d], _ :: _ :: _, h => by simp [RelD] at h
  | d :: d' :: ds, [], h => by simp [RelD] at h

theorem RelD.offsets {sz : Nat} : ∀ {ds : List Desc} {xs : List (Nat × Nat)}, RelD sz ds xs →
    ds.tail.map Desc.offset = xs.dropLast.map fun x => x.2 * sz
  | [d], [x], h => by simp
  | d :: d' :: ds, x :: xs, h => by
    have := RelD.offsets h.2.2
    obtain ⟨y, ys, rfl⟩ : ∃ y ys, xs = y :: ys := by
      cases xs with
      | nil => have := h.2.2.length; simp at this
      | cons y ys => exact ⟨y, ys, rfl⟩
    simp only [List.tail_cons, List.map_cons, List.dropLast_cons₂] at this ⊢
    rw [this, h.2.1]
  | [], _, h => by simp [RelD] at h
  | [d], [], h => by simp [RelD] at h
  | [d], _ :: _ :: _, h => by simp [RelD] at h
  | d :: d' :: ds, [], h => by simp [RelD] at h

theorem elem_pos {sz : Nat} : ∀ {ds : List Desc} {xs : List (Nat × Nat)}, RelD sz ds xs → ∀ (idx : List Nat) (start : Nat),
    idx.length = xs.length → elem sz (start * sz) ds idx = some (pos start xs idx * sz)
  | [d], [x], h, [i], start, _ => by
    simp only [elem, pos, h.2, Nat.mul_one]; rw [Nat.add_mul]
  | d :: d' :: ds, x :: xs, h, i :: is, start, hl => by
    simp only [elem, pos]
    rw [h.2.1, ← Nat.mul_assoc, ← Nat.add_mul]
    exact elem_pos h.2.2 is _ (by simpa using hl)
  | [], _, h, _, _, _ => by simp [RelD] at h
  | [d], [], h, _, _, _ => by simp [RelD] at h
  | [d], _ :: _ :: _, h, _, _, _ => by simp [RelD] at h
  | d :: d' :: ds, [], h, _, _, _ => by simp [RelD] at h
  | [d], [x], h, [], _, hl => by simp at hl
  | [d], [x], h, _ :: _ :: _, _, hl => by simp at hl
  | d :: d' :: ds, x :: xs, h, [], _, hl => by simp at hl

theorem elem_length {sz : Nat} : ∀ {ds : List Desc} {idx : List Nat} {p a : Nat}, elem sz p ds idx = some a → idx.length = ds.length
  | [d], [i], _, _, _ => rfl
  | d :: d' :: ds, i :: is, _, _, h => by
    simp only [elem] at h
    simp [elem_length h]
  | [], [], _, _, h => by simp [elem] at h
  | [], _ :: _, _, _, h => by simp [elem] at h
  | [d], [], _, _, h => by simp [elem] at h
  | [d], _ :: _ :: _, _, _, h => by simp [elem] at h
  | d :: d' :: ds, [], _, _, h => by simp [elem] at h

theorem relD_dense (sz : Nat) : ∀ (ext : List Nat), ext ≠ [] → RelD sz (denseDescs sz ext) (rowMajor ext)
  | [], h => absurd rfl h
  | [e], _ => ⟨rfl, rfl⟩
  | e :: e' :: es, _ => by
    obtain ⟨d, ds, hd⟩ := dense_head sz e' es
    obtain ⟨h1, h2, h3, -⟩ := dense_props sz (e' :: es)
    have ih := relD_dense sz (e' :: es) (by simp)
    rw [rowMajor_cons, denseDescs]
    rw [hd] at h1 h2 h3 ih ⊢
    refine ⟨rfl, ?_, ih⟩
    rw [h3 d (by simp), shape_prod d ds h2, h1]

theorem elemLoop_offset (sz : Nat) : ∀ (e s : Nat) (l : List (Nat × Nat)), ∃ d ds, elemLoop sz ((e, s) :: l) = d :: ds ∧ d.size = e ∧
    d.offset = s * prod (l.map Prod.snd) * sz
  | e, s, [] => ⟨_, _, rfl, rfl, by simp [prod]⟩
  | e, s, (e', s') :: l => by
    obtain ⟨d, ds, hd, -, ho⟩ := elemLoop_offset sz e' s' l
    refine ⟨⟨e, e * d.total, s * d.offset⟩, d :: ds, by rw [elemLoop, hd], rfl, ?_⟩
    simp only [ho, List.map_cons, prod]
    rw [Nat.mul_assoc, Nat.mul_assoc, Nat.mul_assoc]

theorem relD_elemLoop (sz : Nat) : ∀ (es ss : List Nat) (e s : Nat), ss.length = es.length →
    RelD sz (elemLoop sz ((e, s) :: es.zip ss)) ((e :: es).zip (steps ss))
  | [], [], e, s, _ => ⟨rfl, rfl⟩
  | e' :: es, s' :: ss, e, s, h => by
    have hl : ss.length = es.length := by simpa using h
    have ih := relD_elemLoop sz es ss e' s' hl
    obtain ⟨d, ds, hd, -, ho⟩ := elemLoop_offset sz e' s' (es.zip ss)
    simp only [List.zip_cons_cons] at ih ⊢
    rw [elemLoop]
    rw [hd] at ih ⊢
    refine ⟨rfl, ?_, ih⟩
    rw [ho, List.map_snd_zip (by omega)]
  | [], _ :: _, _, _, h => by simp at h
  | _ :: _, [], _, _, h => by simp at h

theorem relD_elem (sz : Nat) (ext strides : List Nat) (h : strides.length + 1 = ext.length) :
    RelD sz (descsElem sz ext strides) (layout ext strides) := by
  cases ext with
  | nil => simp at h
  | cons e es =>
    simp only [descsElem, elemDescs, layout, List.zip_cons_cons]
    exact relD_elemLoop sz es strides e e (by simpa using h)

/-- Byte strides taken from descriptors describe the same layout. -/
theorem relD_byteLoop {sz : Nat} : ∀ {ds : List Desc} {x : Nat × Nat} {xs : List (Nat × Nat)} {d : Desc}, RelD sz (d :: ds) (x :: xs) →
    xs ≠ [] → RelD sz (⟨d.size, 0, 0⟩ :: byteLoop (ds.map fun d => (d.size, d.offset))) (x :: xs)
  | [], x, [], d, h, hne => absurd rfl hne
  | [d'], x, [y], d, h, _ => by
    obtain ⟨h1, h2, h3, h4⟩ := h
    exact ⟨h1, h2, h3, h4⟩
  | d' :: d'' :: ds, x, y :: z :: zs, d, h, _ => by
    obtain ⟨h1, h2, h3⟩ := h
    have ih := relD_byteLoop h3 (by simp)
    obtain ⟨b, bs, hb, ho, hs⟩ := byteLoop_offset d''.size d''.offset (ds.map fun d => (d.size, d.offset))
    simp only [List.map_cons] at ih ⊢
    rw [byteLoop]
    rw [hb] at ih ⊢
    obtain ⟨i1, i2, i3⟩ := ih
    exact ⟨h1, h2, i1, i2, i3⟩
  | [], x, _ :: _, d, h, _ => by simp [RelD] at h
  | [d'], x, _ :: _ :: _, d, h, _ => by simp [RelD] at h
  | [d'], x, [], d, h, hne => absurd rfl hne
  | d' :: d'' :: ds, x, [], d, h, hne => absurd rfl hne
  | d' :: d'' :: ds, x, [y], d, h, _ => by simp [RelD] at h

theorem zip_map_map {β : Type} (f g : β → Nat) : ∀ (l : List β), (l.map f).zip (l.map g) = l.map fun x => (f x, g x)
  | [] => rfl
  | x :: l => by simp [zip_map_map f g l]

theorem relD_byte {sz : Nat} {ds : List Desc} {xs : List (Nat × Nat)} (h : RelD sz ds xs) :
    RelD sz (descsByte sz (ds.map Desc.size) (ds.tail.map Desc.offset)) xs := by
  cases ds with
  | nil => exact absurd rfl h.ne
  | cons d ds =>
    cases ds with
    | nil =>
      cases xs with
      | nil => simp [RelD] at h
      | cons x xs =>
        cases xs with
        | nil => exact h
        | cons y ys => simp [RelD] at h
    | cons d' ds =>
      obtain ⟨x, xs, rfl⟩ : ∃ x xs', xs = x :: xs' := by
        cases xs with
        | nil => simp [RelD] at h
        | cons x xs => exact ⟨x, xs, rfl⟩
      have hne : xs ≠ [] := by
        rintro rfl
        have := h.length; simp at this
      have := relD_byteLoop h hne
      simp only [descsByte, List.map_cons, List.tail_cons, byteDescs, List.zip_cons_cons, zip_map_map]
      obtain ⟨b, bs, hb, ho, hs⟩ := byteLoop_offset d'.size d'.offset (ds.map fun d => (d.size, d.offset))
      simp only [List.map_cons] at this
      rw [hb] at this ⊢
      exact ⟨this.1, this.2.1, this.2.2⟩

theorem byteDescs_props {sz : Nat} {d d' : Desc} {ds : List Desc} (hr : Rows sz (d :: d' :: ds)) :
    Shape (descsByte sz ((d :: d' :: ds).map Desc.size) ((d :: d' :: ds).tail.map Desc.offset)) ∧
    Rows sz (descsByte sz ((d :: d' :: ds).map Desc.size) ((d :: d' :: ds).tail.map Desc.offset)) := by
  have hb : ∀ (d' : Desc) (ds : List Desc), Rows sz (d' :: ds) → BytesOk sz ((d' :: ds).map fun d => (d.size, d.offset)) := by
    intro d' ds
    induction ds generalizing d' with
    | nil => intro h; exact h
    | cons d'' ds ih => intro h; exact ⟨h.1, ih d'' h.2⟩
  obtain ⟨-, h2, h3⟩ := byteLoop_props sz _ (hb d' ds hr.2)
  simp only [descsByte, List.map_cons, List.tail_cons, byteDescs, List.zip_cons_cons, zip_map_map]
  obtain ⟨b, bs, hbl, ho, hs⟩ := byteLoop_offset d'.size d'.offset (ds.map fun d => (d.size, d.offset))
  simp only [List.map_cons] at h2 h3
  rw [hbl] at h2 h3 ⊢
  exact ⟨⟨rfl, h2⟩, Nat.le_refl _, h3⟩

theorem elemDescs_props (sz : Nat) (e : Nat) (es strides : List Nat) (hl : strides.length = es.length)
    (h : ∀ x ∈ es.zip strides, x.1 ≤ x.2) :
    Shape (descsElem sz (e :: es) strides) ∧ Rows sz (descsElem sz (e :: es) strides) := by
  have := elemLoop_props sz ((e :: es).zip (e :: strides)) (by
    intro x hx
    rw [List.zip_cons_cons] at hx
    rcases List.mem_cons.1 hx with rfl | hx
    · exact Nat.le_refl _
    · exact h x hx)
  exact this.2

theorem zip_self_le (l : List Nat) : ∀ x ∈ l.zip l, x.1 ≤ x.2 := by
  induction l with
  | nil => simp
  | cons a l ih =>
    intro x hx
    rw [List.zip_cons_cons] at hx
    rcases List.mem_cons.1 hx with rfl | hx
    · exact Nat.le_refl _
    · exact ih x hx

theorem plainStrides_dense (sz : Nat) : ∀ (ext : List Nat), plainStrides sz ext = (denseDescs sz ext).map Desc.offset
  | [] => rfl
  | [e] => by simp [plainStrides, denseDescs, totalSize]
  | e :: e' :: es => by
    obtain ⟨d, ds, hd⟩ := dense_head sz e' es
    obtain ⟨h1, h2, h3, -⟩ := dense_props sz (e' :: es)
    have ih := plainStrides_dense sz (e' :: es)
    rw [plainStrides, ih, show denseDescs sz (e :: e' :: es) = ⟨e, e * d.total, e * d.total * sz⟩ :: d :: ds by rw [denseDescs, hd]]
    rw [hd] at h1 h2 h3 ⊢
    have ht := shape_prod d ds h2
    rw [h1] at ht
    simp only [List.map_cons]
    rw [totalSize_prod _ (by simp), show prod (e :: e' :: es) = e * prod (e' :: es) from rfl, ← ht]

theorem descsOfArr_eq (sz : Nat) (ext : List Nat) (h : ext ≠ []) :
    descsOfArr sz ext = descsByte sz ((denseDescs sz ext).map Desc.size) ((denseDescs sz ext).tail.map Desc.offset) := by
  obtain ⟨h1, -⟩ := dense_props sz ext
  rw [descsOfArr, plainStrides_dense, h1, List.map_tail]

theorem relD_arr (sz : Nat) (ext : List Nat) (h : ext ≠ []) : RelD sz (descsOfArr sz ext) (rowMajor ext) := by
  rw [descsOfArr_eq sz ext h]
  exact relD_byte (relD_dense sz ext h)

theorem descsOfArr_props (sz : Nat) (ext : List Nat) (h : ext ≠ []) : Shape (descsOfArr sz ext) ∧ Rows sz (descsOfArr sz ext) := by
  match ext, h with
  | [e], _ => exact ⟨rfl, Nat.le_refl _⟩
  | e :: e' :: es, h =>
    rw [descsOfArr_eq sz _ h]
    obtain ⟨d, ds, hd⟩ := dense_head sz e' es
    obtain ⟨-, -, -, h4⟩ := dense_props sz (e :: e' :: es)
    have : denseDescs sz (e :: e' :: es) = ⟨e, e * d.total, e * d.total * sz⟩ :: d :: ds := by rw [denseDescs, hd]
    rw [this] at h4 ⊢
    exact byteDescs_props h4

theorem RelD.drop {sz : Nat} : ∀ {k : Nat} {ds : List Desc} {xs : List (Nat × Nat)}, RelD sz ds xs → k < ds.length →
    RelD sz (ds.drop k) (xs.drop k)
  | 0, ds, xs, h, _ => by simpa using h
  | k + 1, [d], _, _, hk => by simp at hk
  | k + 1, d :: d' :: ds, x :: xs, h, hk => by
    simp only [List.drop_succ_cons]
    exact RelD.drop h.2.2 (by simpa using hk)
  | _ + 1, d :: d' :: ds, [], h, _ => by simp [RelD] at h
  | _ + 1, [], _, h, _ => by simp [RelD] at h

/-! ### Accesses -/

theorem cellAt_ok {sz n k : Nat} (hsz : 0 < sz) (hk : k < n) : cellAt sz n (k * sz) = .ok k := by
  have h1 : k * sz % sz = 0 := Nat.mul_mod_left k sz
  have h2 : k * sz / sz = k := Nat.mul_div_cancel k hsz
  simp only [cellAt, h1, h2, hk, and_self, if_true]

theorem load_ok {sz k : Nat} (hsz : 0 < sz) {cells : List α} {x : α} (h : cells[k]? = some x) : load sz cells (k * sz) = .ok x := by
  have hk : k < cells.length := (List.getElem?_eq_some_iff.1 h).1
  simp only [load, cellAt_ok hsz hk, Out.bind, h]

theorem store_ok {sz k : Nat} (hsz : 0 < sz) {cells : List α} (x : α) (hk : k < cells.length) :
    store sz cells (k * sz) x = .ok (cells.set k x) := by
  simp only [store, cellAt_ok hsz hk, Out.bind]

theorem loadAll_ok {sz : Nat} (hsz : 0 < sz) {cells : List α} : ∀ {ks : List Nat} {xs : List α},
    ks.map (fun k => cells[k]?) = xs.map some → loadAll sz cells (ks.map (· * sz)) = .ok xs
  | [], [], _ => rfl
  | k :: ks, x :: xs, h => by
    simp only [List.map_cons, List.cons.injEq] at h
    simp only [List.map_cons, loadAll, load_ok hsz h.1, Out.bind, loadAll_ok hsz h.2]
  | [], _ :: _, h => by simp at h
  | _ :: _, [], h => by simp at h

/-! ### Loops -/

theorem walk_eq (off : Nat) (hoff : 0 < off) : ∀ (n p : Nat), walk off (p + n * off) n p = (List.range n).map fun k => p + k * off
  | 0, _ => rfl
  | n + 1, p => by
    have hne : p ≠ p + (n + 1) * off := by
      have := Nat.mul_pos (Nat.succ_pos n) hoff
      have e : (n + 1) * off = n.succ * off := rfl
      omega
    simp only [walk, if_neg hne]
    rw [show p + (n + 1) * off = (p + off) + n * off by rw [Nat.add_mul]; omega, walk_eq off hoff n (p + off),
      List.range_succ_eq_map, List.map_cons, List.map_map]
    congr 1
    · simp
    · apply List.map_congr_left
      intro k _
      simp only [Function.comp, Nat.succ_eq_add_one, Nat.add_mul]
      omega

theorem offset_pos {sz : Nat} (hsz : 0 < sz) : ∀ (d : Desc) (ds : List Desc), Shape (d :: ds) → Rows sz (d :: ds) →
    (∀ x ∈ (d :: ds), 0 < x.size) → 0 < d.offset := by
  intro d ds hs hr hp
  have h1 := rows_total sz d ds hs hr
  have h2 : 0 < d.total := by
    rw [shape_prod d ds hs]
    apply prod_pos
    intro x hx
    obtain ⟨y, hy, rfl⟩ := List.mem_map.1 hx
    exact hp y hy
  exact Nat.lt_of_lt_of_le (Nat.mul_pos h2 hsz) h1

theorem iterOffs_eq {sz : Nat} (hsz : 0 < sz) : ∀ {ds : List Desc} {xs : List (Nat × Nat)}, RelD sz ds xs → Shape ds → Rows sz ds →
    (∀ d ∈ ds, 0 < d.size) → ∀ (start : Nat),
    iterOffs sz ds (start * sz) = (allIdx (xs.map Prod.fst)).map fun idx => pos start xs idx * sz
  | [d], [x], h, _, _, hp, start => by
    simp only [iterOffs, List.map_cons, List.map_nil, allIdx, h.1]
    rw [walk_eq sz hsz, ← List.map_eq_flatMap, List.map_map]
    apply List.map_congr_left
    intro k _
    simp only [Function.comp, pos, h.2, Nat.mul_one, Nat.add_mul]
  | d :: d' :: ds, x :: xs, h, hs, hr, hp, start => by
    have ho := offset_pos hsz d' ds hs.2 hr.2 (fun y hy => hp y (by simp [List.mem_cons.1 hy]))
    have ih := fun st => iterOffs_eq hsz h.2.2 hs.2 hr.2 (fun y hy => hp y (by simp [List.mem_cons.1 hy])) st
    simp only [iterOffs]
    rw [walk_eq d'.offset ho, h.1, List.map_cons, allIdx, List.map_flatMap, List.flatMap_map]
    congr 1
    funext i
    rw [h.2.1, ← Nat.mul_assoc, ← Nat.add_mul, ih, List.map_map]
    rfl
  | [], _, h, _, _, _, _ => by simp [RelD] at h
  | [d], [], h, _, _, _, _ => by simp [RelD] at h
  | [d], _ :: _ :: _, h, _, _, _, _ => by simp [RelD] at h
  | d :: d' :: ds, [], h, _, _, _, _ => by simp [RelD] at h

theorem arrIterOffs_eq (sz : Nat) : ∀ (ext : List Nat), ext ≠ [] → ∀ (p : Nat), arrIterOffs sz ext p = iterOffs sz (denseDescs sz ext) p
  | [], h, _ => absurd rfl h
  | [e], _, p => by simp [arrIterOffs, iterOffs, denseDescs]
  | e :: e' :: es, _, p => by
    obtain ⟨d, ds, hd⟩ := dense_head sz e' es
    obtain ⟨h1, h2, h3, -⟩ := dense_props sz (e' :: es)
    have ih := arrIterOffs_eq sz (e' :: es) (by simp)
    rw [denseDescs]
    rw [hd] at h1 h2 h3 ih ⊢
    have ht := shape_prod d ds h2
    rw [h1] at ht
    simp only [arrIterOffs, iterOffs]
    rw [totalSize_prod _ (by simp), ← ht, ← h3 d (by simp)]
    congr 1
    funext q
    exact ih q

/-! ### Element-wise operations -/

theorem fillLoop_eq (x : α) : ∀ (n k : Nat) (cells : List α), cells.length = k + n →
    fillLoop x n k cells = cells.take k ++ List.replicate n x
  | 0, k, cells, h => by simp [fillLoop, List.take_of_length_le (show cells.length ≤ k by omega)]
  | n + 1, k, cells, h => by
    have hk : k < cells.length := by omega
    simp only [fillLoop]
    rw [fillLoop_eq x n (k + 1) _ (by simp; omega), List.take_add_one]
    rw [List.take_set_of_le (Nat.le_refl k), List.getElem?_set_self hk, List.replicate_succ]
    simp

theorem fillOwnLoop_eq (x : α) (src : Nat) : ∀ (n k : Nat) (cells : List α), cells.length = k + n → cells[src]? = some x →
    fillOwnLoop src n k cells = fillLoop x n k cells
  | 0, _, _, _, _ => rfl
  | n + 1, k, cells, h, hx => by
    simp only [fillOwnLoop, hx, fillLoop]
    refine fillOwnLoop_eq x src n (k + 1) _ (by simp; omega) ?_
    by_cases e : k = src
    · subst e
      rw [List.getElem?_set_self (by omega)]
    · rw [List.getElem?_set_ne e, hx]

theorem putCells_get (arrs : List (Arr α)) (a : Nat) (c : List α) (b : Nat) :
    (putCells arrs a c)[b]? = (arrs[b]?).map fun A => if a = b then { A with cells := c } else A := by
  simp only [putCells, List.getElem?_modify]
  by_cases h : a = b <;> simp [h]

theorem putCells_length (arrs : List (Arr α)) (a : Nat) (c : List α) : (putCells arrs a c).length = arrs.length := by
  simp [putCells]

theorem cellsOf_some {arrs : List (Arr α)} {a : Nat} {A : Arr α} (h : arrs[a]? = some A) : cellsOf arrs a = A.cells := by
  simp [cellsOf, h]

theorem putCells_self {arrs : List (Arr α)} {a : Nat} {A : Arr α} (h : arrs[a]? = some A) : putCells arrs a A.cells = arrs := by
  apply List.ext_getElem?
  intro b
  rw [putCells_get]
  by_cases e : a = b
  · subst e; simp [h]
  · simp [e]

theorem putCells_put (arrs : List (Arr α)) (a : Nat) (c c' : List α) : putCells (putCells arrs a c) a c' = putCells arrs a c' := by
  apply List.ext_getElem?
  intro b
  simp only [putCells_get, Option.map_map]
  congr 1
  funext A
  by_cases e : a = b <;> simp [e]

theorem putCells_comm (arrs : List (Arr α)) {a b : Nat} (h : a ≠ b) (c c' : List α) :
    putCells (putCells arrs a c) b c' = putCells (putCells arrs b c') a c := by
  apply List.ext_getElem?
  intro k
  simp only [putCells_get, Option.map_map]
  congr 1
  funext A
  by_cases e : a = k <;> by_cases e' : b = k <;> simp [e, e']
  omega

theorem copyLoop_eq {a b : Nat} (hab : a ≠ b) : ∀ (n k : Nat) (arrs : List (Arr α)) (A B : Arr α), arrs[a]? = some A →
    arrs[b]? = some B → A.cells.length = k + n → B.cells.length = k + n →
    copyLoop a b n k arrs = putCells arrs a (A.cells.take k ++ B.cells.drop k)
  | 0, k, arrs, A, B, hA, hB, lA, lB => by
    rw [List.take_of_length_le (show A.cells.length ≤ k by omega), List.drop_of_length_le (show B.cells.length ≤ k by omega)]
    simp only [copyLoop, List.append_nil]
    exact (putCells_self hA).symm
  | n + 1, k, arrs, A, B, hA, hB, lA, lB => by
    have hk : k < B.cells.length := by omega
    simp only [copyLoop, cellsOf_some hB, cellsOf_some hA, List.getElem?_eq_getElem hk]
    rw [copyLoop_eq hab n (k + 1) _ { A with cells := A.cells.set k B.cells[k] } B (by rw [putCells_get, hA]; simp)
      (by rw [putCells_get, hB]; simp [hab]) (by simp; omega) (by omega), putCells_put]
    congr 1
    simp only
    rw [List.take_add_one, List.take_set_of_le (Nat.le_refl k), List.getElem?_set_self (by omega), List.drop_eq_getElem_cons hk]
    simp

theorem copyLoop_self {a : Nat} : ∀ (n k : Nat) (arrs : List (Arr α)), copyLoop a a n k arrs = arrs
  | 0, _, _ => rfl
  | n + 1, k, arrs => by
    simp only [copyLoop]
    split
    · rename_i y hy
      have hs : (cellsOf arrs a).set k y = cellsOf arrs a := by
        obtain ⟨h1, h2⟩ := List.getElem?_eq_some_iff.1 hy
        rw [← h2]; simp
      rw [hs]
      have : putCells arrs a (cellsOf arrs a) = arrs := by
        cases h : arrs[a]? with
        | none => simp [cellsOf, h] at hy
        | some A => rw [cellsOf_some h]; exact putCells_self h
      rw [this]
      exact copyLoop_self n (k + 1) arrs
    · rfl

theorem swapLoop_eq {a b : Nat} (hab : a ≠ b) : ∀ (n k : Nat) (arrs : List (Arr α)) (A B : Arr α), arrs[a]? = some A →
    arrs[b]? = some B → A.cells.length = k + n → B.cells.length = k + n →
    swapLoop a b n k arrs = putCells (putCells arrs a (A.cells.take k ++ B.cells.drop k)) b (B.cells.take k ++ A.cells.drop k)
  | 0, k, arrs, A, B, hA, hB, lA, lB => by
    rw [List.take_of_length_le (show A.cells.length ≤ k by omega), List.drop_of_length_le (show B.cells.length ≤ k by omega),
      List.take_of_length_le (show B.cells.length ≤ k by omega), List.drop_of_length_le (show A.cells.length ≤ k by omega)]
    simp only [swapLoop, List.append_nil]
    rw [putCells_self hA, putCells_self hB]
  | n + 1, k, arrs, A, B, hA, hB, lA, lB => by
    have hkB : k < B.cells.length := by omega
    have hkA : k < A.cells.length := by omega
    simp only [swapLoop, cellsOf_some hB, cellsOf_some hA, List.getElem?_eq_getElem hkB, List.getElem?_eq_getElem hkA]
    have hB' : (putCells arrs a (A.cells.set k B.cells[k]))[b]? = some B := by rw [putCells_get, hB]; simp [hab]
    rw [cellsOf_some hB']
    rw [swapLoop_eq hab n (k + 1) _ { A with cells := A.cells.set k B.cells[k] } { B with cells := B.cells.set k A.cells[k] }
      (by rw [putCells_get, putCells_get, hA]; simp; intro e; exact absurd e.symm hab) (by rw [putCells_get, hB']; simp)
      (by simp; omega) (by simp; omega)]
    simp only
    rw [putCells_comm _ (Ne.symm hab) (B.cells.set k A.cells[k]), putCells_put, putCells_put]
    have e1 : (A.cells.set k B.cells[k]).take (k + 1) ++ (B.cells.set k A.cells[k]).drop (k + 1) = A.cells.take k ++ B.cells.drop k := by
      rw [List.take_add_one, List.take_set_of_le (Nat.le_refl k), List.getElem?_set_self hkA, List.drop_set_of_lt (by omega),
        List.drop_eq_getElem_cons hkB]
      simp
    have e2 : (B.cells.set k A.cells[k]).take (k + 1) ++ (A.cells.set k B.cells[k]).drop (k + 1) = B.cells.take k ++ A.cells.drop k := by
      rw [List.take_add_one, List.take_set_of_le (Nat.le_refl k), List.getElem?_set_self hkB, List.drop_set_of_lt (by omega),
        List.drop_eq_getElem_cons hkA]
      simp
    rw [e1, e2]

theorem swapLoop_self {a : Nat} : ∀ (n k : Nat) (arrs : List (Arr α)), swapLoop a a n k arrs = arrs
  | 0, _, _ => rfl
  | n + 1, k, arrs => by
    simp only [swapLoop]
    split
    · rename_i x y hx hy
      have hxy : x = y := by rw [hx] at hy; exact Option.some.inj hy
      subst hxy
      have hs : (cellsOf arrs a).set k x = cellsOf arrs a := by
        obtain ⟨h1, h2⟩ := List.getElem?_eq_some_iff.1 hy
        rw [← h2]; simp
      have : putCells arrs a (cellsOf arrs a) = arrs := by
        cases h : arrs[a]? with
        | none => simp [cellsOf, h] at hy
        | some A => rw [cellsOf_some h]; exact putCells_self h
      simp only [hs, this]
      exact swapLoop_self n (k + 1) arrs
    · rfl

end Verif.ArrayNd
