import Verif.Lemmas.Views

/-!
C11–C16: addressing of multi-dimensional arrays and views.
-/
set_option autoImplicit false

namespace Verif.Views

/-! ### Specification -/

/-- A multi-index is in range if each index is below its extent. -/
def InRange (idx ext : List Nat) : Prop := List.Forall₂ (· < ·) idx ext

/-- The same for signed arguments. -/
def InRangeZ (idx : List Int) (ext : List Nat) : Prop := List.Forall₂ (fun (i : Int) (e : Nat) => 0 ≤ i ∧ i < (e : Int)) idx ext

/-- `allIdx ext` lists the multi-indices in range, each once, in lexicographic order. -/
theorem allIdx_spec (ext : List Nat) :
    (∀ idx, idx ∈ allIdx ext ↔ InRange idx ext) ∧ (allIdx ext).Pairwise (List.Lex (· < ·)) := by
  refine ⟨mem_allIdx ext, ?_⟩
  induction ext with
  | nil => simp [allIdx]
  | cons e es ih =>
    simp only [allIdx, List.pairwise_flatMap, List.pairwise_map]
    refine ⟨fun i _ => ih.imp (fun h => .cons h), ?_⟩
    refine List.Pairwise.imp ?_ List.pairwise_lt_range
    intro i j hij x hx y hy
    simp only [List.mem_map] at hx hy
    obtain ⟨_, _, rfl⟩ := hx
    obtain ⟨_, _, rfl⟩ := hy
    exact .rel hij

example : allIdx [2, 3] = [[0, 0], [0, 1], [0, 2], [1, 0], [1, 1], [1, 2]] := by decide

/-! ### C11 -/

/-- Moving an iterator by `n` rows, `n` of either sign, moves the pointer by `n` row sizes. -/
theorem C11_move (stored : Nat) (p n : Int) (h0 : 0 ≤ p + n * stored) (h1 : p + n * stored < 2 ^ 64) (hn : -2 ^ 63 ≤ n * stored)
    (hn' : n * stored < 2 ^ 63) :
    itAdd stored p n = p + n * stored ∧ itSub stored (p + n * stored) n = wrap p := by
  unfold itAdd itSub wrap signed
  rw [Int.neg_mul]
  generalize n * (stored : Int) = x at *
  omega

/-- `++` and `--` move the pointer by one row and undo each other; `n` times `++` is `+= n`, `n` times `--` is `-= n`. -/
theorem C11_steps (stored : Nat) (p : Int) (h0 : 0 ≤ p) (h1 : p < 2 ^ 64) (hs : stored < 2 ^ 63) :
    (p + stored < 2 ^ 64 → itInc stored p = p + stored) ∧ (stored ≤ p → itDec stored p = p - stored) ∧
    itDec stored (itInc stored p) = p ∧ itInc stored (itDec stored p) = p ∧
    ∀ n : Nat, Nat.repeat (itInc stored) n p = itAdd stored p n ∧ Nat.repeat (itDec stored) n p = itSub stored p n := by
  have hd : ∀ q : Int, itDec stored q = wrap (q - stored) := by
    intro q; unfold itDec wrap signed; omega
  refine ⟨fun h => ?_, fun h => ?_, ?_, ?_, fun n => ?_⟩
  · unfold itInc wrap; omega
  · rw [hd]; unfold wrap; omega
  · rw [hd]; unfold itInc wrap; omega
  · rw [hd]; unfold itInc wrap; omega
  · induction n with
    | zero => simp only [Nat.repeat, itAdd, itSub, wrap, signed, Int.natCast_zero, Int.neg_zero, Int.zero_mul]; omega
    | succ n ih =>
      have e : ((n + 1 : Nat) : Int) * (stored : Int) = n * stored + stored := by rw [Int.natCast_add, Int.add_mul]; simp
      constructor
      · rw [Nat.repeat, ih.1]
        unfold itAdd itInc wrap
        rw [e]
        generalize (n : Int) * (stored : Int) = x
        omega
      · rw [Nat.repeat, ih.2, hd]
        unfold itSub wrap signed
        rw [Int.neg_mul, Int.neg_mul, e]
        generalize (n : Int) * (stored : Int) = x
        omega

example : itInc 24 4096 = 4120 ∧ itDec 24 4120 = 4096 ∧ Nat.repeat (itDec 24) 3 4096 = 4024 := by decide

/-- **C11**, forward distances: `(it + n) - it = n` for `n ≥ 0`. Missing: negative `n`, where it is false
(`C11_backward_violated`). -/
theorem C11_forward_partial (stored : Nat) (p n : Int) (hs : 0 < stored) (hp : 0 ≤ p) (hn : 0 ≤ n) (h1 : p + n * stored < 2 ^ 64)
    (h2 : n * stored < 2 ^ 63) : itDist stored (itAdd stored p n) p = some n := by
  have hns : 0 ≤ n * (stored : Int) := Int.mul_nonneg hn (Int.natCast_nonneg _)
  rw [(C11_move stored p n (by omega) h1 (by omega) h2).1]
  unfold itDist
  rw [if_neg (by omega)]
  have h3 : wrap (signed (p + n * stored - p)) = n * stored := by
    unfold wrap signed
    generalize n * (stored : Int) = x at *
    omega
  rw [h3, Int.mul_ediv_cancel _ (by omega)]
  have h4 : n ≤ n * stored := by
    have : n * 1 ≤ n * (stored : Int) := Int.mul_le_mul_of_nonneg_left (by omega) hn
    omega
  congr 1
  unfold signed
  generalize n * (stored : Int) = x at *
  omega

example : itDist 24 (itAdd 24 4096 5) 4096 = some 5 := by decide

/-- **C11**: for rows of one byte it also holds backwards. -/
theorem C11_one_byte_rows (p n : Int) (h0 : 0 ≤ p + n) (h1 : p + n < 2 ^ 64) (hn : -2 ^ 63 ≤ n) (hn' : n < 2 ^ 63) :
    itDist 1 (itAdd 1 p n) p = some n := by
  have h := (C11_move 1 p n (by omega) (by omega) (by omega) (by omega)).1
  rw [h]
  unfold itDist wrap signed
  rw [if_neg (by omega)]
  congr 1
  omega

/-- **C11 is violated** for every backward distance over rows of at least two bytes: the result is never negative. -/
theorem C11_backward_violated (stored : Nat) (p n : Int) (hs : 2 ≤ stored) (hn : n < 0) (h0 : 0 ≤ p + n * stored)
    (h1 : p + n * stored < 2 ^ 64) (h2 : -2 ^ 63 ≤ n * stored) :
    ∃ r, itDist stored (itAdd stored p n) p = some r ∧ 0 ≤ r ∧ r ≠ n := by
  have hns : n * (stored : Int) < 0 := Int.mul_neg_of_neg_of_pos hn (by omega)
  rw [(C11_move stored p n h0 h1 h2 (by omega)).1]
  unfold itDist
  rw [if_neg (by omega)]
  have h3 : wrap (signed (p + n * stored - p)) = 2 ^ 64 + n * stored := by
    unfold wrap signed
    generalize n * (stored : Int) = x at *
    omega
  rw [h3]
  have h4 : 0 ≤ (2 ^ 64 + n * (stored : Int)) / stored := Int.ediv_nonneg (by omega) (by omega)
  have h5 : (2 ^ 64 + n * (stored : Int)) / stored < 2 ^ 63 := by
    apply Int.ediv_lt_of_lt_mul (by omega)
    have : (2 ^ 63 : Int) * 2 ≤ 2 ^ 63 * stored := Int.mul_le_mul_of_nonneg_left (by omega) (by decide)
    omega
  refine ⟨_, rfl, ?_, ?_⟩ <;> unfold signed <;> generalize (2 ^ 64 + n * (stored : Int)) / stored = y at * <;> omega

example : itDist 24 (itAdd 24 4096 (-1)) 4096 = some 768614336404564649 := by decide

/-- The distance of iterators over empty rows divides by zero. -/
theorem C11_empty_rows_violated (p q : Int) : itDist 0 p q = none := by simp [itDist]

/-! ### C12 -/

/-- **C12** for `vector_nd` (and proxies of it): the elements designated by the multi-indices in range, taken in lexicographic
order, are exactly the elements visited by plain iteration, in that order: `total_size` consecutive elements from the
base pointer.  In particular the correspondence is one to one. -/
theorem C12_vector_row_major (sz p : Nat) (ext : List Nat) (h : ext ≠ []) :
    (allIdx ext).map (elem sz p (denseDescs sz ext)) = (List.range (totalSize ext)).map (fun k => some (p + k * sz)) ∧
    (plainAddrs sz p (denseDescs sz ext)).map some = (List.range (totalSize ext)).map (fun k => some (p + k * sz)) := by
  obtain ⟨e, es, rfl⟩ := List.exists_cons_of_ne_nil h
  obtain ⟨d, ds, hd⟩ := dense_head sz e es
  obtain ⟨h1, h2, h3, -⟩ := dense_props sz (e :: es)
  rw [hd] at h1 h2 h3 ⊢
  have ht := shape_prod d ds h2
  rw [h1] at ht
  rw [totalSize_prod _ (by simp), ← ht]
  constructor
  · have := elem_tight sz d ds p h2 (fun x hx => h3 x (List.mem_of_mem_tail hx))
    rwa [h1] at this
  · simp [plainAddrs]

/-- **C12** for `array_nd`. -/
theorem C12_array_row_major (sz p : Nat) (ext : List Nat) (h : ext ≠ []) :
    (allIdx ext).map (arrElem sz p ext) = (List.range (totalSize ext)).map (fun k => some (p + k * sz)) := by
  have : arrElem sz p ext = elem sz p (denseDescs sz ext) := by funext idx; exact arrElem_eq sz ext p idx
  rw [this]
  exact (C12_vector_row_major sz p ext h).1

/-- The number of elements is the product of the extents. -/
theorem C12_total_size (ext : List Nat) (h : ext ≠ []) : totalSize ext = ext.foldr (· * ·) 1 := by
  rw [totalSize_prod ext h]
  clear h
  induction ext with
  | nil => rfl
  | cons e es ih => simp [prod, ih]

example : (allIdx [2, 3]).map (arrElem 4 100 [2, 3]) = [some 100, some 104, some 108, some 112, some 116, some 120] := by decide

/-! ### C13 -/

/-- The arguments are values of some integer type of at most 64 bits. -/
def Int64Args (idx : List Int) : Prop := ∀ i ∈ idx, -2 ^ 63 ≤ i ∧ i < 2 ^ 64

theorem effective_inRange (s : Sampler) (f : Int → Int → Prop) : ∀ (idx : List Int) (ext : List Nat), InRangeZ idx ext →
    (∀ i ∈ idx, ∀ e ∈ ext, 0 ≤ i → i < e → s.transform 0 (s.conv i) e = i.toNat) → effective s idx ext = idx.map Int.toNat
  | [], [], _, _ => rfl
  | i :: is, e :: es, h, ht => by
    cases h with
    | cons h1 h2 =>
      simp only [effective, List.zipWith, List.map_cons]
      rw [ht i (by simp) e (by simp) h1.1 h1.2]
      congr 1
      exact effective_inRange s f is es h2 (fun i hi e he => ht i (by simp [hi]) e (by simp [he]))
  | [], _ :: _, h, _ => by cases h
  | _ :: _, [], h, _ => by cases h

theorem default_transform (idx : List Int) (ext : List Nat) (h : InRangeZ idx ext) (hi : Int64Args idx) (he : ∀ e ∈ ext, e ≤ 2 ^ 63) :
    effective samplerDefault idx ext = idx.map Int.toNat := by
  refine effective_inRange _ (fun _ _ => True) idx ext h ?_
  intro i hi' e he' h0 _
  have := (toSize_range i e (hi i hi').1 (hi i hi').2 (he e he')).2 h0
  simp only [samplerDefault]
  omega

theorem default_check (idx : List Int) (ext : List Nat) (hl : idx.length = ext.length) (hi : Int64Args idx) (he : ∀ e ∈ ext, e ≤ 2 ^ 63) :
    checkBounds samplerDefault 0 ext idx = true ↔ InRangeZ idx ext := by
  rw [checkBounds_iff _ (fun _ _ _ => rfl) ext 0 idx hl]
  clear hl
  induction idx generalizing ext with
  | nil => cases ext <;> simp [InRangeZ]
  | cons i is ih =>
    cases ext with
    | nil => simp [InRangeZ]
    | cons e es =>
      simp only [InRangeZ, List.forall₂_cons]
      have h1 := ih es (fun i h => hi i (by simp [h])) (fun e h => he e (by simp [h]))
      simp only [InRangeZ] at h1
      rw [h1]
      have h2 := (toSize_range i e (hi i (by simp)).1 (hi i (by simp)).2 (he e (by simp))).1
      have h3 : samplerDefault.check 0 (samplerDefault.conv i) e = true ↔ 0 ≤ i ∧ i < (e : Int) := by
        rw [← h2]; simp [samplerDefault]
      rw [h3]

/-- **C13** for `array_nd::at`: throws if some index is out of range, otherwise designates the element of `operator[]`. -/
theorem C13_array_at (sz : Nat) : ∀ (ext : List Nat) (p : Nat) (idx : List Int), ext ≠ [] → idx.length = ext.length → Int64Args idx →
    (∀ e ∈ ext, e ≤ 2 ^ 63) →
    (InRangeZ idx ext → arrAt sz p ext idx = (arrElem sz p ext (idx.map Int.toNat)).map .elem) ∧
    (¬ InRangeZ idx ext → arrAt sz p ext idx = some .throws)
  | [], p, idx, h, _, _, _ => absurd rfl h
  | [e], p, [], _, hl, _, _ => by simp at hl
  | [e], p, _ :: _ :: _, _, hl, _, _ => by simp at hl
  | [e], p, [i], _, _, hi, he => by
    have h2 := toSize_range i e (hi i (by simp)).1 (hi i (by simp)).2 (he e (by simp))
    simp only [InRangeZ, List.forall₂_cons, List.forall₂_nil_left_iff, and_true]
    rw [← h2.1]
    simp only [arrAt, List.map_cons, List.map_nil, arrElem, Option.map_some]
    constructor
    · intro h
      rw [if_neg (by omega)]
      have := h2.2 (h2.1.1 h).1
      rw [show i.toNat = toSize i by omega]
    · intro h
      rw [if_pos (by omega)]
  | e :: e' :: es, p, [], _, hl, _, _ => by simp at hl
  | e :: e' :: es, p, i :: is, _, hl, hi, he => by
    have h2 := toSize_range i e (hi i (by simp)).1 (hi i (by simp)).2 (he e (by simp))
    have ih := C13_array_at sz (e' :: es) (p + toSize i * totalSize (e' :: es) * sz) is (by simp) (by simpa using hl)
      (fun i h => hi i (by simp [h])) (fun x h => he x (by simp [List.mem_cons.1 h]))
    simp only [InRangeZ] at ih ⊢
    rw [List.forall₂_cons, ← h2.1]
    simp only [arrAt, List.map_cons, arrElem]
    constructor
    · rintro ⟨h, h'⟩
      rw [if_neg (by omega), ih.1 h']
      have := h2.2 (h2.1.1 h).1
      rw [show i.toNat = toSize i by omega]
    · intro h
      by_cases hx : toSize i < e
      · rw [if_neg (by omega)]
        exact ih.2 (fun h' => h ⟨hx, h'⟩)
      · rw [if_pos (by omega)]

theorem fetchCont_default (s : Sampler) (hs : DimFree s) (sz p : Nat) (ext : List Nat) (idx : List Int) (h : ext ≠ []) (hl : idx.length = ext.length) :
    fetchCont s sz p 0 0 ext idx = elem sz p (denseDescs sz ext) (effective s idx ext) := by
  rw [fetchCont_eq s hs sz p ext 0 0 idx h hl]
  simp

/-- **C13** for `vector_nd::at`. -/
theorem C13_vector_at (sz p : Nat) (ext : List Nat) (idx : List Int) (h : ext ≠ []) (hl : idx.length = ext.length) (hi : Int64Args idx)
    (he : ∀ e ∈ ext, e ≤ 2 ^ 63) :
    (InRangeZ idx ext → vecAt sz p ext idx = (elem sz p (denseDescs sz ext) (idx.map Int.toNat)).map .elem) ∧
    (¬ InRangeZ idx ext → vecAt sz p ext idx = some .throws) := by
  have hc := default_check idx ext hl hi he
  constructor
  · intro hr
    rw [vecAt, loadDense, if_pos (hc.2 hr), fetchCont_default _ (fun _ _ _ => rfl) sz p ext idx h hl, default_transform idx ext hr hi he]
  · intro hr
    rw [vecAt, loadDense, if_neg (fun h => hr (hc.1 h))]
    rfl

/-- **C13** for `array_view_nd::at`, whatever its strides. -/
theorem C13_view_at (sz p : Nat) (ds : List Desc) (idx : List Int) (h : ds ≠ []) (hl : idx.length = ds.length) (hi : Int64Args idx)
    (he : ∀ d ∈ ds, d.size ≤ 2 ^ 63) :
    (InRangeZ idx (ds.map Desc.size) → viewAt sz p ds idx = (elem sz p ds (idx.map Int.toNat)).map .elem) ∧
    (¬ InRangeZ idx (ds.map Desc.size) → viewAt sz p ds idx = some .throws) := by
  have he' : ∀ e ∈ ds.map Desc.size, e ≤ 2 ^ 63 := by simpa using he
  have hc := default_check idx (ds.map Desc.size) (by simpa using hl) hi he'
  constructor
  · intro hr
    rw [viewAt, loadStrided, if_pos (hc.2 hr), fetchStrided_eq _ (fun _ _ _ => rfl) sz ds p 0 idx h hl, default_transform idx _ hr hi he']
  · intro hr
    rw [viewAt, loadStrided, if_neg (fun h => hr (hc.1 h))]
    rfl

example : arrAt 4 100 [2, 3] [1, 2] = some (.elem 120) ∧ arrAt 4 100 [2, 3] [1, 3] = some .throws ∧
    arrAt 4 100 [2, 3] [-1, 0] = some .throws ∧ vecAt 4 100 [2, 3] [1, 2] = some (.elem 120) ∧
    viewAt 4 100 (elemDescs 4 [2, 3] [5]) [1, 2] = some (.elem 128) := by decide

/-! ### C14 -/

/-- What the property says of a view: elements in range lie in the buffer of `bytes` bytes at `p`, and different multi-indices
designate disjoint elements, in the order of the multi-indices. -/
def GoodView (sz p bytes : Nat) (ds : List Desc) (ext : List Nat) : Prop :=
  (∀ idx, InRange idx ext → ∃ a, elem sz p ds idx = some a ∧ p ≤ a ∧ a + sz ≤ p + bytes) ∧
  ∀ idx jdx a b, InRange idx ext → InRange jdx ext → elem sz p ds idx = some a → elem sz p ds jdx = some b →
    (List.Lex (· < ·) idx jdx → a + sz ≤ b) ∧ (idx ≠ jdx → a + sz ≤ b ∨ b + sz ≤ a)

theorem lex_trichotomy : ∀ (xs ys : List Nat), xs.length = ys.length → xs ≠ ys → List.Lex (· < ·) xs ys ∨ List.Lex (· < ·) ys xs
  | [], [], _, h => absurd rfl h
  | [], _ :: _, h, _ => by simp at h
  | _ :: _, [], h, _ => by simp at h
  | x :: xs, y :: ys, hl, h => by
    rcases Nat.lt_trichotomy x y with hxy | rfl | hxy
    · exact .inl (.rel hxy)
    · rcases lex_trichotomy xs ys (by simpa using hl) (fun h' => h (by rw [h'])) with h | h
      · exact .inl (.cons h)
      · exact .inr (.cons h)
    · exact .inr (.rel hxy)

theorem goodView_of (sz p : Nat) (d : Desc) (ds : List Desc) (h : Rows sz (d :: ds)) :
    GoodView sz p d.offset (d :: ds) ((d :: ds).map Desc.size) := by
  constructor
  · intro idx hi
    obtain ⟨a, ha⟩ := elem_some sz (d :: ds) p idx (by simp) (by simpa using List.Forall₂.length_eq hi)
    exact ⟨a, ha, elem_bounds sz d ds p a idx h hi ha⟩
  · intro idx jdx a b hi hj ha hb
    refine ⟨elem_lex sz d ds p a b idx jdx h hi hj ha hb, fun hne => ?_⟩
    have hl : idx.length = jdx.length := by rw [List.Forall₂.length_eq hi, List.Forall₂.length_eq hj]
    rcases lex_trichotomy idx jdx hl hne with h' | h'
    · exact .inl (elem_lex sz d ds p a b idx jdx h hi hj ha hb h')
    · exact .inr (elem_lex sz d ds p b a jdx idx h hj hi hb ha h')

/-- The buffer size reported by the view (`print_size`). -/
def printSize (ds : List Desc) : Nat := (ds.head?.map Desc.offset).getD 0

/-- **C14** for a view built from extents and element strides not smaller than the extents. -/
theorem C14_element_strides (sz p e0 : Nat) (es strides : List Nat) (hlen : strides.length = es.length)
    (hs : List.Forall₂ (· ≤ ·) es strides) :
    (elemDescs sz (e0 :: es) strides).map Desc.size = e0 :: es ∧
    GoodView sz p (printSize (elemDescs sz (e0 :: es) strides)) (elemDescs sz (e0 :: es) strides) (e0 :: es) := by
  have hle : ∀ x ∈ (e0 :: es).zip (e0 :: strides), x.1 ≤ x.2 := by
    intro x hx
    simp only [List.zip_cons_cons, List.mem_cons] at hx
    rcases hx with rfl | hx
    · exact Nat.le_refl _
    · clear hlen
      induction hs with
      | nil => simp at hx
      | cons h1 _ ih =>
        simp only [List.zip_cons_cons, List.mem_cons] at hx
        rcases hx with rfl | hx
        · exact h1
        · exact ih hx
  obtain ⟨h1, -, h3⟩ := elemLoop_props sz _ hle
  obtain ⟨d, ds, hd⟩ := elemLoop_head sz (e0, e0) (es.zip strides)
  have hm : ((e0 :: es).zip (e0 :: strides)).map Prod.fst = e0 :: es := by
    rw [List.map_fst_zip]; simp [hlen]
  rw [hm] at h1
  simp only [elemDescs]
  refine ⟨h1, ?_⟩
  simp only [List.zip_cons_cons] at h1 h3 ⊢
  rw [hd] at h1 h3 ⊢
  have := goodView_of sz p d ds h3
  rw [h1] at this
  exact this

/-- **C14** for a view built from byte strides, each at least the size of one row of that dimension. -/
theorem C14_byte_strides (sz p e0 : Nat) (es strides : List Nat) (hlen : strides.length = es.length) (hne : es ≠ [])
    (hs : BytesOk sz (es.zip strides)) :
    (byteDescs (e0 :: es) strides).map Desc.size = e0 :: es ∧
    GoodView sz p (printSize (byteDescs (e0 :: es) strides)) (byteDescs (e0 :: es) strides) (e0 :: es) := by
  obtain ⟨e1, es', rfl⟩ := List.exists_cons_of_ne_nil hne
  cases strides with
  | nil => simp at hlen
  | cons s1 ss =>
    obtain ⟨h1, h2, h3⟩ := byteLoop_props sz _ hs
    obtain ⟨d, ds, hd⟩ := byteLoop_head (e1, s1) (es'.zip ss)
    have hm : ((e1 :: es').zip (s1 :: ss)).map Prod.fst = e1 :: es' := by
      rw [List.map_fst_zip]; simpa using Nat.le_of_eq hlen.symm
    rw [hm] at h1
    simp only [byteDescs]
    simp only [List.zip_cons_cons] at h1 h2 h3 ⊢
    rw [hd] at h1 h2 h3 ⊢
    have hsz : (({ size := e0, total := e0 * d.total, offset := e0 * d.offset } : Desc) :: d :: ds).map Desc.size = e0 :: e1 :: es' := by
      simpa using h1
    refine ⟨hsz, ?_⟩
    have hr : Rows sz (⟨e0, e0 * d.total, e0 * d.offset⟩ :: d :: ds) := ⟨Nat.le_refl _, h3⟩
    have := goodView_of sz p _ _ hr
    rw [hsz] at this
    exact this

example : List.Forall₂ (· ≤ ·) [3, 4] [5, 4] ∧ BytesOk 4 ([3, 4].zip [60, 16]) := by simp [BytesOk]

/-- The check of the byte stride constructor (`extents[i] <= strides[i-1]`, array_view.h l.77, 80) compares a number of
elements with a number of bytes: it accepts strides with which different elements overlap. -/
theorem C14_byte_stride_check_violated :
    List.Forall₂ (· ≤ ·) [4] [4] ∧ ∃ a, elem 4 100 (byteDescs [2, 4] [4]) [0, 1] = some a ∧
      elem 4 100 (byteDescs [2, 4] [4]) [1, 0] = some a := by
  refine ⟨by simp, 104, rfl, rfl⟩

/-! ### C15 -/

/-- `continuous()` of a proxy is sound: plain iteration visits exactly the designated elements in lexicographic order. -/
theorem C15_proxy_continuous (sz p : Nat) (ds : List Desc) (h : ds ≠ []) (hshape : Shape ds) (hrows : Rows sz ds)
    (hpos : ∀ d ∈ ds, 0 < d.size) (hc : proxyContinuous sz ds = true) :
    (allIdx (ds.map Desc.size)).map (elem sz p ds) = (plainAddrs sz p ds).map some := by
  obtain ⟨d, ds, rfl⟩ := List.exists_cons_of_ne_nil h
  have ht : Tight sz (d :: ds) := by
    cases ds with
    | nil => simp [Tight]
    | cons d' ds =>
      simp only [proxyContinuous, beq_iff_eq] at hc
      exact tight_of sz d' ds hshape.2 hrows.2 (fun x hx => hpos x (by simp [List.mem_cons.1 hx])) hc
  rw [elem_tight sz d ds p hshape ht]
  simp [plainAddrs]

/-- `continuous()` of a view is sound. -/
theorem C15_view_continuous (sz p : Nat) (ds : List Desc) (h : ds ≠ []) (hshape : Shape ds) (hrows : Rows sz ds)
    (hpos : ∀ d ∈ ds, 0 < d.size) (hc : viewContinuous sz ds = true) :
    (allIdx (ds.map Desc.size)).map (elem sz p ds) = (plainAddrs sz p ds).map some := by
  obtain ⟨d, ds, rfl⟩ := List.exists_cons_of_ne_nil h
  have ht : Tight sz (d :: ds) := by
    cases ds with
    | nil => simp [Tight]
    | cons d' ds =>
      simp only [viewContinuous, beq_iff_eq] at hc
      intro x hx
      exact tight_of sz d _ hshape hrows hpos hc.symm x (List.mem_of_mem_tail hx)
  rw [elem_tight sz d ds p hshape ht]
  simp [plainAddrs]

/-- **C15** for views built from element strides: if `continuous()` (of the view or of the proxy it converts to) answers true and no
extent is zero, plain iteration visits exactly the elements of the view, in lexicographic order of their multi-index. -/
theorem C15_element_strides (sz p e0 : Nat) (es strides : List Nat) (hlen : strides.length = es.length)
    (hs : List.Forall₂ (· ≤ ·) es strides) (hpos : ∀ e ∈ e0 :: es, 0 < e)
    (hc : viewContinuous sz (elemDescs sz (e0 :: es) strides) = true ∨ proxyContinuous sz (elemDescs sz (e0 :: es) strides) = true) :
    (allIdx (e0 :: es)).map (elem sz p (elemDescs sz (e0 :: es) strides)) = (plainAddrs sz p (elemDescs sz (e0 :: es) strides)).map some := by
  have hle : ∀ x ∈ (e0 :: es).zip (e0 :: strides), x.1 ≤ x.2 := by
    intro x hx
    simp only [List.zip_cons_cons, List.mem_cons] at hx
    rcases hx with rfl | hx
    · exact Nat.le_refl _
    · clear hlen hpos hc
      induction hs with
      | nil => simp at hx
      | cons h1 _ ih =>
        simp only [List.zip_cons_cons, List.mem_cons] at hx
        rcases hx with rfl | hx
        · exact h1
        · exact ih hx
  obtain ⟨h1, h2, h3⟩ := elemLoop_props sz _ hle
  have hm := (C14_element_strides sz p e0 es strides hlen hs).1
  simp only [elemDescs] at hm hc ⊢
  have hne : elemLoop sz ((e0 :: es).zip (e0 :: strides)) ≠ [] := by
    intro h0; rw [h0] at hm; simp at hm
  have hp : ∀ d ∈ elemLoop sz ((e0 :: es).zip (e0 :: strides)), 0 < d.size := by
    intro d hd
    refine hpos _ ?_
    rw [← hm]
    exact List.mem_map_of_mem hd
  rcases hc with hc | hc
  · have := C15_view_continuous sz p _ hne h2 h3 hp hc
    rwa [hm] at this
  · have := C15_proxy_continuous sz p _ hne h2 h3 hp hc
    rwa [hm] at this

/-- **C15** for views built from byte strides that are large enough. -/
theorem C15_byte_strides (sz p e0 : Nat) (es strides : List Nat) (hlen : strides.length = es.length) (hne : es ≠ [])
    (hs : BytesOk sz (es.zip strides)) (hpos : ∀ e ∈ e0 :: es, 0 < e)
    (hc : viewContinuous sz (byteDescs (e0 :: es) strides) = true ∨ proxyContinuous sz (byteDescs (e0 :: es) strides) = true) :
    (allIdx (e0 :: es)).map (elem sz p (byteDescs (e0 :: es) strides)) = (plainAddrs sz p (byteDescs (e0 :: es) strides)).map some := by
  have hm := (C14_byte_strides sz p e0 es strides hlen hne hs).1
  have hp : ∀ d ∈ byteDescs (e0 :: es) strides, 0 < d.size := by
    intro d hd
    refine hpos _ ?_
    rw [← hm]
    exact List.mem_map_of_mem hd
  have hnn : byteDescs (e0 :: es) strides ≠ [] := by
    intro h0; rw [h0] at hm; simp at hm
  have hrs : Shape (byteDescs (e0 :: es) strides) ∧ Rows sz (byteDescs (e0 :: es) strides) := by
    obtain ⟨e1, es', rfl⟩ := List.exists_cons_of_ne_nil hne
    cases strides with
    | nil => simp at hlen
    | cons s1 ss =>
      obtain ⟨-, h2, h3⟩ := byteLoop_props sz _ hs
      obtain ⟨d, ds, hd⟩ := byteLoop_head (e1, s1) (es'.zip ss)
      simp only [byteDescs]
      simp only [List.zip_cons_cons] at h2 h3 ⊢
      rw [hd] at h2 h3 ⊢
      exact ⟨⟨rfl, h2⟩, ⟨Nat.le_refl _, h3⟩⟩
  rcases hc with hc | hc
  · have := C15_view_continuous sz p _ hnn hrs.1 hrs.2 hp hc
    rwa [hm] at this
  · have := C15_proxy_continuous sz p _ hnn hrs.1 hrs.2 hp hc
    rwa [hm] at this

/-- **C15**, the other direction: a view without gaps answers true. -/
theorem C15_dense_is_continuous (sz : Nat) (ext : List Nat) :
    viewContinuous sz (denseDescs sz ext) = true ∧ proxyContinuous sz (denseDescs sz ext) = true := by
  obtain ⟨-, -, h3, -⟩ := dense_props sz ext
  generalize denseDescs sz ext = ds at *
  cases ds with
  | nil => exact ⟨rfl, rfl⟩
  | cons d ds =>
    cases ds with
    | nil => exact ⟨rfl, rfl⟩
    | cons d' ds => simp [viewContinuous, proxyContinuous, h3]

/-- Without the hypothesis on the rows the answer may be wrong: three dimensions, byte strides whose inner rows overlap the next. -/
theorem C15_overlapping_rows_violated :
    viewContinuous 4 (byteDescs [2, 2, 2] [16, 12]) = true ∧
    (allIdx [2, 2, 2]).map (elem 4 0 (byteDescs [2, 2, 2] [16, 12])) ≠ (plainAddrs 4 0 (byteDescs [2, 2, 2] [16, 12])).map some := by
  decide

example : viewContinuous 4 (elemDescs 4 [2, 3] [3]) = true ∧ viewContinuous 4 (elemDescs 4 [2, 3] [4]) = false := by decide

/-! ### C16 -/

/-- The default sampler: throws exactly on indices out of range, otherwise reads the designated element; for containers with dense
storage and for strided views (`C13_vector_at`, `C13_view_at` are the same statement for `at`). -/
theorem C16_default (sz p : Nat) (ext : List Nat) (idx : List Int) (h : ext ≠ []) (hl : idx.length = ext.length) (hi : Int64Args idx)
    (he : ∀ e ∈ ext, e ≤ 2 ^ 63) (hr : InRangeZ idx ext) :
    loadDense samplerDefault sz p ext idx = (elem sz p (denseDescs sz ext) (idx.map Int.toNat)).map .elem ∧
    ∀ idx', idx'.length = ext.length → Int64Args idx' → ¬ InRangeZ idx' ext → loadDense samplerDefault sz p ext idx' = some .throws :=
  ⟨(C13_vector_at sz p ext idx h hl hi he).1 hr, fun idx' hl' hi' => (C13_vector_at sz p ext idx' h hl' hi' he).2⟩

/-- Arguments that fit the sampler's 32 bit index type. -/
def Int32Args (idx : List Int) : Prop := ∀ i ∈ idx, -2 ^ 31 ≤ i ∧ i < 2 ^ 31

theorem zero_check (idx : List Int) (ext : List Nat) (hl : idx.length = ext.length) (hi : Int32Args idx) :
    checkBounds samplerZero 0 ext idx = true ↔ InRangeZ idx ext := by
  rw [checkBounds_iff _ (fun _ _ _ => rfl) ext 0 idx hl]
  clear hl
  induction idx generalizing ext with
  | nil => cases ext <;> simp [InRangeZ]
  | cons i is ih =>
    cases ext with
    | nil => simp [InRangeZ]
    | cons e es =>
      simp only [InRangeZ, List.forall₂_cons]
      have h1 := ih es (fun i h => hi i (by simp [h]))
      simp only [InRangeZ] at h1
      rw [h1]
      simp [samplerZero, toInt32_id i (hi i (by simp)).1 (hi i (by simp)).2]

/-- **C16**, zero sampler, for every strided view and hence every dense one: the element in range, the boundary value (zero)
outside.  Missing: arguments that do not fit 32 bits (`C16_wide_index_violated`). -/
theorem C16_zero_partial (sz p : Nat) (ds : List Desc) (idx : List Int) (h : ds ≠ []) (hl : idx.length = ds.length) (hi : Int32Args idx) :
    (InRangeZ idx (ds.map Desc.size) → loadStrided samplerZero sz p ds idx = (elem sz p ds (idx.map Int.toNat)).map .elem) ∧
    (¬ InRangeZ idx (ds.map Desc.size) → loadStrided samplerZero sz p ds idx = some .boundary) := by
  have hc := zero_check idx (ds.map Desc.size) (by simpa using hl) hi
  constructor
  · intro hr
    rw [loadStrided, if_pos (hc.2 hr), fetchStrided_eq _ (fun _ _ _ => rfl) sz ds p 0 idx h hl]
    rw [effective_inRange samplerZero (fun _ _ => True) idx _ hr]
    intro i hi' e _ _ _
    simp [samplerZero, toInt32_id i (hi i hi').1 (hi i hi').2]
  · intro hr
    rw [loadStrided, if_neg (fun h => hr (hc.1 h))]
    rfl

theorem C16_zero_dense_partial (sz p : Nat) (ext : List Nat) (idx : List Int) (h : ext ≠ []) (hl : idx.length = ext.length) (hi : Int32Args idx) :
    (InRangeZ idx ext → loadDense samplerZero sz p ext idx = (elem sz p (denseDescs sz ext) (idx.map Int.toNat)).map .elem) ∧
    (¬ InRangeZ idx ext → loadDense samplerZero sz p ext idx = some .boundary) := by
  have hc := zero_check idx ext hl hi
  constructor
  · intro hr
    rw [loadDense, if_pos (hc.2 hr), fetchCont_default _ (fun _ _ _ => rfl) sz p ext idx h hl]
    rw [effective_inRange samplerZero (fun _ _ => True) idx _ hr]
    intro i hi' e _ _ _
    simp [samplerZero, toInt32_id i (hi i hi').1 (hi i hi').2]
  · intro hr
    rw [loadDense, if_neg (fun h => hr (hc.1 h))]
    rfl

/-- The index of the nearest element along one dimension. -/
def nearest (i : Int) (e : Nat) : Nat := if i < 0 then 0 else if i < e then i.toNat else e - 1

theorem clamp_transform (i : Int) (e : Nat) (h1 : toInt32 i = i) (h3 : sizePred e = e - 1) (h2 : 0 < e) :
    samplerClamp.transform 0 (samplerClamp.conv i) e = nearest i e := by
  have h : samplerClamp.transform 0 (samplerClamp.conv i) e = min (max 0 (toInt32 i)).toNat (sizePred e) := rfl
  rw [h, h3, h1, nearest]
  split
  · omega
  · split <;> omega

theorem clamp_effective (idx : List Int) (ext : List Nat) (hi : Int32Args idx) (he : ∀ e ∈ ext, 0 < e ∧ e ≤ 2 ^ 63) :
    effective samplerClamp idx ext = List.zipWith nearest idx ext := by
  unfold effective
  induction idx generalizing ext with
  | nil => rw [List.zipWith_nil_left, List.zipWith_nil_left]
  | cons i is ih =>
    cases ext with
    | nil => rw [List.zipWith_nil_right, List.zipWith_nil_right]
    | cons e es =>
      have h1 := hi i (by simp)
      have h2 := he e (by simp)
      have h3 := sizePred_eq e h2.1 (by omega)
      rw [List.zipWith_cons_cons, List.zipWith_cons_cons, ih es (fun i h => hi i (by simp [h])) (fun e h => he e (by simp [h])),
        clamp_transform i e (toInt32_id i h1.1 h1.2) h3 h2.1]

theorem clamp_check (ext : List Nat) : ∀ (d : Nat) (idx : List Int), checkBounds samplerClamp d ext idx = true := by
  induction ext with
  | nil => intro d idx; cases idx <;> rfl
  | cons e es ih =>
    intro d idx
    cases idx with
    | nil => cases es <;> rfl
    | cons i is => cases es <;> cases is <;> simp [checkBounds, samplerClamp] <;> exact ih _ _

theorem nearest_inRange : ∀ (idx : List Int) (ext : List Nat), idx.length = ext.length → (∀ e ∈ ext, 0 < e) →
    InRange (List.zipWith nearest idx ext) ext
  | [], [], _, _ => .nil
  | [], _ :: _, h, _ => by simp at h
  | _ :: _, [], h, _ => by simp at h
  | i :: is, e :: es, h, he => by
    refine .cons ?_ (nearest_inRange is es (by simpa using h) (fun e h => he e (by simp [h])))
    have := he e (by simp)
    unfold nearest
    split
    · exact this
    · split <;> omega

/-- **C16**, clamp sampler: reads the element whose index is, in each dimension, the nearest one in range.  Missing: empty
dimensions (`C16_clamp_empty_violated`) and arguments that do not fit 32 bits (`C16_wide_index_violated`). -/
theorem C16_clamp_partial (sz p : Nat) (ds : List Desc) (idx : List Int) (h : ds ≠ []) (hl : idx.length = ds.length) (hi : Int32Args idx)
    (he : ∀ d ∈ ds, 0 < d.size ∧ d.size ≤ 2 ^ 63) :
    loadStrided samplerClamp sz p ds idx = (elem sz p ds (List.zipWith nearest idx (ds.map Desc.size))).map .elem ∧
    InRange (List.zipWith nearest idx (ds.map Desc.size)) (ds.map Desc.size) := by
  refine ⟨?_, nearest_inRange _ _ (by simpa using hl) (by simpa using fun d hd => (he d hd).1)⟩
  rw [loadStrided, if_pos (clamp_check _ _ _), fetchStrided_eq _ (fun _ _ _ => rfl) sz ds p 0 idx h hl,
    clamp_effective _ _ hi (by simpa using he)]

theorem C16_clamp_dense_partial (sz p : Nat) (ext : List Nat) (idx : List Int) (h : ext ≠ []) (hl : idx.length = ext.length) (hi : Int32Args idx)
    (he : ∀ e ∈ ext, 0 < e ∧ e ≤ 2 ^ 63) :
    loadDense samplerClamp sz p ext idx = (elem sz p (denseDescs sz ext) (List.zipWith nearest idx ext)).map .elem := by
  rw [loadDense, if_pos (clamp_check _ _ _), fetchCont_default _ (fun _ _ _ => rfl) sz p ext idx h hl, clamp_effective _ _ hi he]

example : loadDense samplerClamp 4 100 [2, 3] [-5, 7] = some (.elem 108) ∧ loadDense samplerZero 4 100 [2, 3] [-5, 7] = some .boundary ∧
    loadDense samplerZero 4 100 [2, 3] [1, 1] = some (.elem 116) := by decide

/-- **C16 is violated** for an index of 2^32 passed as a 64 bit integer: it is narrowed to 0, so the zero sampler reads element 0
and the clamp sampler the first instead of the last element. -/
theorem C16_wide_index_violated :
    loadDense samplerZero 4 100 [8] [4294967296] = some (.elem 100) ∧ loadDense samplerClamp 4 100 [8] [4294967296] = some (.elem 100) ∧
    ¬ InRangeZ [4294967296] [8] := by
  refine ⟨by decide, by decide, ?_⟩
  simp [InRangeZ]

/-- **C16 is violated** for an empty dimension: the clamp sampler reads outside the (empty) container. -/
theorem C16_clamp_empty_violated : loadDense samplerClamp 4 100 [0] [7] = some (.elem 128) := by decide

/-- A user's sampler that reverses only the second dimension. -/
def samplerFlip1 : Sampler :=
  { conv := toInt32, check := fun _ i n => decide (0 ≤ i ∧ i < n),
    transform := fun d i n => if d = 1 then n - 1 - i.toNat else i.toNat, boundary := false }

/-- The indices a sampler uses: the index of dimension `k` is transformed as an index of dimension `k`. -/
def sampled (s : Sampler) (idx : List Int) (ext : List Nat) : List Nat :=
  (List.zip idx ext).mapIdx fun k ie => s.transform k (s.conv ie.1) ie.2

/-- Every index passes the sampler's test for its dimension. -/
def Accepted (s : Sampler) (idx : List Int) (ext : List Nat) : Prop :=
  ∀ (k : Nat) (i : Int) (e : Nat), idx[k]? = some i → ext[k]? = some e → s.check k (s.conv i) e = true

theorem checkBounds_accepted (s : Sampler) : ∀ (ext : List Nat) (d : Nat) (idx : List Int), idx.length = ext.length →
    (checkBounds s d ext idx = true ↔
      ∀ (k : Nat) (i : Int) (e : Nat), idx[k]? = some i → ext[k]? = some e → s.check (d + k) (s.conv i) e = true)
  | [], d, [], _ => by simp [checkBounds]
  | [], d, _ :: _, h => by simp at h
  | _ :: _, d, [], h => by simp at h
  | [e], d, [i], _ => by
    simp only [checkBounds]
    constructor
    · intro h k i' e' h1 h2
      cases k with
      | zero => simp at h1 h2; subst h1 h2; exact h
      | succ k => simp at h1
    · intro h; exact h 0 i e rfl rfl
  | [e], d, _ :: _ :: _, h => by simp at h
  | e :: e' :: es, d, [i], h => by simp at h
  | e :: e' :: es, d, i :: i' :: is, h => by
    have ih := checkBounds_accepted s (e' :: es) (d + 1) (i' :: is) (by simpa using h)
    simp only [checkBounds] at ih ⊢
    rw [Bool.and_eq_true, ih]
    constructor
    · rintro ⟨h1, h2⟩ k x y hx hy
      cases k with
      | zero => simp at hx hy; subst hx hy; exact h1
      | succ k =>
        have := h2 k x y (by simpa using hx) (by simpa using hy)
        rwa [show d + (k + 1) = d + 1 + k by omega]
    · intro h
      refine ⟨h 0 i e rfl rfl, fun k x y hx hy => ?_⟩
      have := h (k + 1) x y (by simpa using hx) (by simpa using hy)
      rwa [show d + (k + 1) = d + 1 + k by omega] at this

/-- `sampled` starting at dimension `d`. -/
def sampledFrom (s : Sampler) (d : Nat) (idx : List Int) (ext : List Nat) : List Nat :=
  (List.zip idx ext).mapIdx fun k ie => s.transform (d + k) (s.conv ie.1) ie.2

theorem sampledFrom_cons (s : Sampler) (d : Nat) (i : Int) (is : List Int) (e : Nat) (es : List Nat) :
    sampledFrom s d (i :: is) (e :: es) = s.transform d (s.conv i) e :: sampledFrom s (d + 1) is es := by
  simp only [sampledFrom, List.zip_cons_cons, List.mapIdx_cons, Nat.add_zero]
  congr 1
  apply List.mapIdx_eq_mapIdx_iff.2
  intro k _
  rw [show d + (k + 1) = d + 1 + k by omega]

theorem fetchCont_sampled (s : Sampler) (sz p : Nat) : ∀ (ext : List Nat) (off d : Nat) (idx : List Int), ext ≠ [] →
    idx.length = ext.length →
    fetchCont s sz p off d ext idx = elem sz (p + off * prod ext.tail * sz) (denseDescs sz ext) (sampledFrom s d idx ext)
  | [], off, d, idx, h, _ => absurd rfl h
  | [e], off, d, [], _, hl => by simp at hl
  | [e], off, d, [i], _, _ => by
    rw [sampledFrom_cons, show sampledFrom s (d + 1) [] [] = [] from rfl]
    simp only [fetchCont, denseDescs, elem, List.tail, prod]
    congr 1; ring
  | [e], off, d, _ :: _ :: _, _, hl => by simp at hl
  | e :: e' :: es, off, d, [], _, hl => by simp at hl
  | e :: e' :: es, off, d, i :: is, _, hl => by
    have hl' : is.length = (e' :: es).length := by simpa using hl
    obtain ⟨d0, ds, hd⟩ := dense_head sz e' es
    obtain ⟨h1, h2, h3, -⟩ := dense_props sz (e' :: es)
    rw [hd] at h1 h2 h3
    have ht := shape_prod d0 ds h2
    rw [h1] at ht
    simp only [fetchCont]
    rw [fetchCont_sampled s sz p (e' :: es) _ (d + 1) is (by simp) hl', hd,
      show denseDescs sz (e :: e' :: es) = ⟨e, e * d0.total, e * d0.total * sz⟩ :: d0 :: ds by rw [denseDescs, hd]]
    rw [sampledFrom_cons]
    simp only [elem]
    congr 1
    rw [h3 d0 (by simp), ht]
    simp only [List.tail, prod]
    ring

theorem fetchStrided_sampled (s : Sampler) (sz : Nat) : ∀ (ds : List Desc) (p dim : Nat) (idx : List Int), ds ≠ [] →
    idx.length = ds.length → fetchStrided s sz p dim ds idx = elem sz p ds (sampledFrom s dim idx (ds.map Desc.size))
  | [], p, dim, idx, h, _ => absurd rfl h
  | [d], p, dim, [], _, hl => by simp at hl
  | [d], p, dim, [i], _, _ => by simp [fetchStrided, sampledFrom, elem]
  | [d], p, dim, _ :: _ :: _, _, hl => by simp at hl
  | d :: d' :: ds, p, dim, [], _, hl => by simp at hl
  | d :: d' :: ds, p, dim, i :: is, _, hl => by
    simp only [fetchStrided]
    rw [fetchStrided_sampled s sz (d' :: ds) _ (dim + 1) is (by simp) (by simpa using hl)]
    simp only [List.map_cons, sampledFrom_cons, elem]

theorem sampledFrom_zero (s : Sampler) (idx : List Int) (ext : List Nat) : sampledFrom s 0 idx ext = sampled s idx ext := by
  simp [sampledFrom, sampled]

/-- **C16**, any sampler, also a user's one that treats the dimensions differently, on strided views: when each index passes the
sampler's test of its own dimension, the element read is the one at the indices transformed by their own dimension; otherwise the
sampler's boundary value, or `out_of_range_error` when it has none. -/
theorem C16_sampler_view (s : Sampler) (sz p : Nat) (ds : List Desc) (idx : List Int) (h : ds ≠ []) (hl : idx.length = ds.length) :
    (Accepted s idx (ds.map Desc.size) →
      loadStrided s sz p ds idx = (elem sz p ds (sampled s idx (ds.map Desc.size))).map .elem) ∧
    (¬ Accepted s idx (ds.map Desc.size) → loadStrided s sz p ds idx = some (if s.boundary then .boundary else .throws)) := by
  have hc : checkBounds s 0 (ds.map Desc.size) idx = true ↔ Accepted s idx (ds.map Desc.size) := by
    rw [checkBounds_accepted s _ 0 idx (by simpa using hl)]
    simp [Accepted]
  constructor
  · intro ha
    rw [loadStrided, if_pos (hc.2 ha), fetchStrided_sampled s sz ds p 0 idx h hl, sampledFrom_zero]
  · intro ha
    rw [loadStrided, if_neg (fun x => ha (hc.1 x))]

/-- **C16**, any sampler on containers with dense storage: the same elements as on the view of the container. -/
theorem C16_sampler_dense (s : Sampler) (sz p : Nat) (ext : List Nat) (idx : List Int) (h : ext ≠ []) (hl : idx.length = ext.length) :
    (Accepted s idx ext → loadDense s sz p ext idx = (elem sz p (denseDescs sz ext) (sampled s idx ext)).map .elem) ∧
    (¬ Accepted s idx ext → loadDense s sz p ext idx = some (if s.boundary then .boundary else .throws)) := by
  have hc : checkBounds s 0 ext idx = true ↔ Accepted s idx ext := by
    rw [checkBounds_accepted s _ 0 idx hl]
    simp [Accepted]
  constructor
  · intro ha
    rw [loadDense, if_pos (hc.2 ha), fetchCont_sampled s sz p ext 0 0 idx h hl, sampledFrom_zero]
    simp
  · intro ha
    rw [loadDense, if_neg (fun x => ha (hc.1 x))]

example : Accepted samplerFlip1 [1, 0] [2, 3] ∧ ¬ Accepted samplerFlip1 [1, 3] [2, 3] := by
  constructor
  · intro k i e h1 h2
    match k with
    | 0 => simp at h1 h2; subst h1 h2; decide
    | 1 => simp at h1 h2; subst h1 h2; decide
    | k + 2 => simp at h1
  · intro h; exact absurd (h 1 3 3 rfl rfl) (by decide)

example : sampled samplerFlip1 [1, 0] [2, 3] = [1, 2] ∧
    loadDense samplerFlip1 4 100 [2, 3] [1, 0] = some (.elem 120) ∧
    loadStrided samplerFlip1 4 100 (elemDescs 4 [2, 3] [4]) [1, 0] = some (.elem 124) ∧
    loadDense samplerFlip1 4 100 [2, 3] [1, 3] = some .throws := by decide

end Verif.Views
