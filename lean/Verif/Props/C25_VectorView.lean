import Verif.Model.VectorView

/-!
# C25: `vector_view` insert and erase
-/
set_option autoImplicit false

namespace Verif.VectorView
variable {α : Type}

/-! ## Specification -/

/-- The elements of the view. -/
def contents (m : List α) (v : View) : List α := (m.drop v.base).take v.size

/-- The view's buffer lies in the memory and its elements in its buffer. -/
def Ok (m : List α) (v : View) : Prop := v.size ≤ v.max ∧ v.base + v.max ≤ m.length

/-- A call did what it should: the elements are `l`, the buffer is the same, and no cell outside the buffer has changed. -/
structure Done (m : List α) (v : View) (l : List α) (r : List α × View) : Prop where
  elems : contents r.1 r.2 = l
  ok : Ok r.1 r.2
  base : r.2.base = v.base
  max : r.2.max = v.max
  length : r.1.length = m.length
  outside : ∀ i, (i < v.base ∨ v.base + v.max ≤ i) → r.1[i]? = m[i]?

/-! ## Cells -/

theorem memmove_spec {m : List α} {s n d : Nat} (hs : s + n ≤ m.length) (hd : d + n ≤ m.length) :
    ∃ m', memmove m s n d = some m' ∧ m'.length = m.length ∧
      ∀ i, m'[i]? = if d ≤ i ∧ i < d + n then m[s + (i - d)]? else m[i]? := by
  refine ⟨_, if_pos ⟨hs, hd⟩, ?_, ?_⟩
  · simp only [List.length_append, List.length_take, List.length_drop]; omega
  · intro i
    have h1 : (m.take d).length = d := by rw [List.length_take]; omega
    have h2 : ((m.drop s).take n).length = n := by rw [List.length_take, List.length_drop]; omega
    by_cases c1 : i < d
    · rw [if_neg (by omega), List.append_assoc, List.getElem?_append_left (by omega), List.getElem?_take_of_lt c1]
    · by_cases c2 : i < d + n
      · rw [if_pos ⟨by omega, c2⟩, List.getElem?_append_left (by rw [List.length_append]; omega), List.getElem?_append_right (by omega), h1,
          List.getElem?_take_of_lt (by omega), List.getElem?_drop]
      · rw [if_neg (by omega), List.getElem?_append_right (by rw [List.length_append]; omega), List.length_append, h1, h2, List.getElem?_drop]
        congr 1; omega

theorem memmove_none {m : List α} {s n d : Nat} (h : m.length < d + n) : memmove m s n d = none := if_neg (by omega)

theorem writeAll_spec : ∀ (as : List α) {m : List α} {j : Nat}, j + as.length ≤ m.length →
    ∃ m', writeAll m j as = some m' ∧ m'.length = m.length ∧
      ∀ i, m'[i]? = if j ≤ i ∧ i < j + as.length then as[i - j]? else m[i]?
  | [], m, j, _ => ⟨m, rfl, rfl, fun i => by rw [if_neg (by rw [List.length_nil]; omega)]⟩
  | a :: as, m, j, h => by
    simp only [List.length_cons] at h
    obtain ⟨m', e, hl, hm⟩ := writeAll_spec as (m := m.set j a) (j := j + 1) (by simp; omega)
    refine ⟨m', ?_, by simpa using hl, fun i => ?_⟩
    · rw [writeAll, write, if_pos (by omega)]; exact e
    · rw [hm]
      by_cases c1 : i = j
      · subst c1
        rw [if_neg (by omega), if_pos (by simp), Nat.sub_self]
        rw [List.getElem?_set_self (by omega)]; rfl
      · by_cases c2 : j + 1 ≤ i ∧ i < j + 1 + as.length
        · rw [if_pos c2, if_pos (by simp; omega), show i - j = (i - (j + 1)) + 1 by omega]
          simp
        · rw [if_neg c2, if_neg (by simp; omega), List.getElem?_set_ne (by omega)]

theorem contents_get (m : List α) (v : View) (i : Nat) : (contents m v)[i]? = if i < v.size then m[v.base + i]? else none := by
  rw [contents, List.getElem?_take, List.getElem?_drop]

theorem contents_length {m : List α} {v : View} (h : Ok m v) : (contents m v).length = v.size := by
  have := h.1; have := h.2
  rw [contents, List.length_take, List.length_drop]; omega

/-- Elements of a list with a gap filled. -/
theorem get_insert (l as : List α) {p : Nat} (hp : p ≤ l.length) (i : Nat) :
    (l.take p ++ as ++ l.drop p)[i]? = if i < p then l[i]? else if i < p + as.length then as[i - p]? else l[i - as.length]? := by
  have h1 : (l.take p).length = p := by rw [List.length_take]; omega
  by_cases c1 : i < p
  · rw [if_pos c1, List.append_assoc, List.getElem?_append_left (by omega), List.getElem?_take_of_lt c1]
  · rw [if_neg c1]
    by_cases c2 : i < p + as.length
    · rw [if_pos c2, List.getElem?_append_left (by rw [List.length_append]; omega), List.getElem?_append_right (by omega), h1]
    · rw [if_neg c2, List.getElem?_append_right (by rw [List.length_append]; omega), List.length_append, h1, List.getElem?_drop]
      congr 1; omega

theorem get_erase (l : List α) {p c : Nat} (hp : p ≤ l.length) (i : Nat) :
    (l.take p ++ l.drop (p + c))[i]? = if i < p then l[i]? else l[i + c]? := by
  have h1 : (l.take p).length = p := by rw [List.length_take]; omega
  by_cases c1 : i < p
  · rw [if_pos c1, List.getElem?_append_left (by omega), List.getElem?_take_of_lt c1]
  · rw [if_neg c1, List.getElem?_append_right (by omega), h1, List.getElem?_drop]
    congr 1; omega

/-! ## insert -/

/-- **C25, insert, what holds.** With room for *twice* the new elements, insertion at the end works, and insertion anywhere works if
the moves behave like `memmove`. -/
theorem C25_insert_partial (k : Mode) {m : List α} {v : View} (h : Ok m v) {p : Nat} (hp : p ≤ v.size) (as : List α)
    (hroom : v.size + 2 * as.length ≤ v.max) (hk : k = .lax ∨ p = v.size) :
    ∃ r, insert k m v p as = some r ∧ Done m v ((contents m v).take p ++ as ++ (contents m v).drop p) r := by
  have h1 := h.1; have h2 := h.2
  have hcl := contents_length h
  by_cases h0 : as = []
  · subst h0
    refine ⟨(m, v), rfl, by simp, h, rfl, rfl, rfl, fun _ _ => rfl⟩
  have hlen : 0 < as.length := List.length_pos_iff.mpr h0
  obtain ⟨m1, e1, l1, g1⟩ := memmove_spec (m := m) (s := v.base + p) (n := v.size + as.length - p) (d := v.base + p + as.length) (by omega) (by omega)
  obtain ⟨m2, e2, l2, g2⟩ := writeAll_spec as (m := m1) (j := v.base + p) (by omega)
  have es : stdMove k m (v.base + p) (v.size + as.length - p) (v.base + p + as.length) = some m1 := by
    rw [stdMove, if_neg ?_, e1]
    rintro ⟨hks, _, hlt⟩
    rcases hk with hk | hk
    · rw [hk] at hks; cases hks
    · omega
  refine ⟨(m2, { v with size := v.size + as.length }), ?_, ?_, ⟨by dsimp only; omega, by dsimp only; omega⟩, rfl, rfl, by dsimp only; omega, fun i hi => ?_⟩
  · rw [insert, prepareInsert, if_pos hlen]; simp only [es]; simp only [Option.map_some, Option.bind_some, e2]
  · apply List.ext_getElem?
    intro i
    rw [contents_get, get_insert _ _ (by omega)]
    dsimp only
    rw [g2, g1]
    by_cases c0 : i < v.size + as.length
    · rw [if_pos c0]
      by_cases c1 : i < p
      · rw [if_neg (by omega), if_neg (by omega), if_pos c1, contents_get, if_pos (by omega)]
      · by_cases c2 : i < p + as.length
        · rw [if_pos (by omega), if_neg c1, if_pos c2]; congr 1; omega
        · rw [if_neg (by omega), if_pos (by omega), if_neg c1, if_neg c2, contents_get, if_pos (by omega)]; congr 1; omega
    · rw [if_neg c0, if_neg (by omega), if_neg (by omega), contents_get, if_neg (by omega)]
  · dsimp only
    rw [g2, g1, if_neg (by omega), if_neg (by omega)]

example : insert .strict [0, 1, 2, 8, 8, 8, 8, 9] ⟨1, 2, 6⟩ 2 [5, 6] = some ([0, 1, 2, 5, 6, 8, 8, 9], ⟨1, 4, 6⟩) := by decide
example : insert .lax [0, 1, 2, 8, 8, 9] ⟨1, 2, 4⟩ 0 [5] = some ([0, 5, 1, 2, 8, 9], ⟨1, 3, 4⟩) := by decide

/-- **C25 fails for every insertion before the end**: the ranges given to `std::move` overlap in the way the standard forbids. -/
theorem C25_insert_middle_violated (m : List α) (v : View) {p : Nat} (hp : p < v.size) {as : List α} (h0 : as ≠ []) :
    insert .strict m v p as = none := by
  have hlen : 0 < as.length := List.length_pos_iff.mpr h0
  rw [insert, prepareInsert, if_pos hlen]
  have : stdMove .strict m (v.base + p) ({ v with size := v.size + as.length }.size - p) (v.base + p + as.length) = none :=
    if_pos ⟨rfl, by omega, by dsimp only; omega⟩
  simp only [this]; rfl

/-- **C25 fails when there is room for the new elements but not for twice as many**: cells behind the buffer are overwritten. Here
the buffer has four cells, three are used, one is inserted; the cell behind the buffer holds 99 before and 8 afterwards. -/
theorem C25_insert_overrun_violated :
    insert .lax [1, 2, 3, 8, 99] ⟨0, 3, 4⟩ 0 [7] = some ([7, 1, 2, 3, 8], ⟨0, 4, 4⟩) := by decide

/-- If the memory ends with the buffer, the access is outside. -/
theorem C25_insert_outside_violated (k : Mode) {m : List α} {v : View} {p : Nat} (hp : p ≤ v.size) {as : List α} (h0 : as ≠ [])
    (hroom : m.length < v.base + v.size + 2 * as.length) : insert k m v p as = none := by
  have hlen : 0 < as.length := List.length_pos_iff.mpr h0
  rw [insert, prepareInsert, if_pos hlen]
  have : stdMove k m (v.base + p) ({ v with size := v.size + as.length }.size - p) (v.base + p + as.length) = none := by
    rw [stdMove]
    split
    · rfl
    · exact memmove_none (by dsimp only; omega)
  simp only [this]; rfl

/-! ## erase -/

/-- **C25, erase, what holds**: if the tail is not longer than what is erased, or the moves behave like `memmove`. -/
theorem C25_erase_partial (k : Mode) {m : List α} {v : View} (h : Ok m v) {p q : Nat} (hpq : p ≤ q) (hq : q ≤ v.size)
    (hk : k = .lax ∨ v.size - q ≤ q - p) :
    ∃ r, eraseRange k m v p q = some r ∧ Done m v ((contents m v).take p ++ (contents m v).drop q) r := by
  have h1 := h.1; have h2 := h.2
  have hcl := contents_length h
  by_cases h0 : q = p
  · subst h0
    refine ⟨(m, v), ?_, by simp, h, rfl, rfl, rfl, fun _ _ => rfl⟩
    rw [eraseRange, eraseN, if_neg (by omega)]
  obtain ⟨m1, e1, l1, g1⟩ := memmove_spec (m := m) (s := v.base + q) (n := v.size - q) (d := v.base + v.size - (q - p) - (v.size - q)) (by omega) (by omega)
  have es : stdMoveBackward k m (v.base + p + (q - p)) (v.size - (p + (q - p))) (v.base + v.size - (q - p)) = some m1 := by
    rw [show v.base + p + (q - p) = v.base + q by omega, show p + (q - p) = q by omega, stdMoveBackward, if_neg ?_, if_neg (by omega), e1]
    rintro ⟨hks, hlt, _⟩
    rcases hk with hk | hk
    · rw [hk] at hks; cases hks
    · omega
  refine ⟨(m1, { v with size := v.size - (q - p) }), ?_, ?_, ⟨by dsimp only; omega, by dsimp only; omega⟩, rfl, rfl, by dsimp only; omega, fun i hi => ?_⟩
  · rw [eraseRange, eraseN, if_pos (by omega), es]; rfl
  · apply List.ext_getElem?
    intro i
    have hg := get_erase (contents m v) (p := p) (c := q - p) (by omega) i
    rw [show p + (q - p) = q by omega] at hg
    rw [contents_get, hg]
    dsimp only
    rw [g1]
    by_cases c0 : i < v.size - (q - p)
    · rw [if_pos c0]
      by_cases c1 : i < p
      · rw [if_neg (by omega), if_pos c1, contents_get, if_pos (by omega)]
      · rw [if_pos (by omega), if_neg c1, contents_get, if_pos (by omega)]; congr 1; omega
    · rw [if_neg c0, if_neg (by omega), contents_get, if_neg (by omega)]
  · dsimp only
    rw [g1, if_neg (by omega)]

example : eraseRange .strict [0, 1, 2, 3, 4, 9] ⟨1, 4, 4⟩ 0 2 = some ([0, 3, 4, 3, 4, 9], ⟨1, 2, 4⟩) := by decide

/-- **C25 fails for every erasure with a tail longer than what is erased** (in particular for erasing one element before the last
two): the ranges given to `std::move_backward` overlap in the way the standard forbids. -/
theorem C25_erase_violated (m : List α) (v : View) {p q : Nat} (hpq : p < q) (htail : q - p < v.size - q) :
    eraseRange .strict m v p q = none := by
  rw [eraseRange, eraseN, if_pos (by omega)]
  have : stdMoveBackward .strict m (v.base + p + (q - p)) (v.size - (p + (q - p))) (v.base + v.size - (q - p)) = none :=
    if_pos ⟨rfl, by omega, by omega⟩
  rw [this]; rfl

/-! ## The other members -/

/-- `push_back` below the maximal size, `pop_back` of a view that is not empty, `assign` and `resize` up to the maximal size. -/
theorem C25_others {m : List α} {v : View} (h : Ok m v) (a : α) :
    (v.size < v.max → ∃ r, pushBack m v a = some r ∧ Done m v (contents m v ++ [a]) r) ∧
    (0 < v.size → Done m v (contents m v).dropLast (m, popBack v)) ∧
    Done m v [] (m, clear v) ∧
    (∀ n, n ≤ v.max → ∃ r, assign m v n a = some r ∧ Done m v (List.replicate n a) r) ∧
    (∀ n, n ≤ v.max → ∃ r, resize m v n a = some r ∧ Done m v ((contents m v).take n ++ List.replicate (n - v.size) a) r) := by
  have h1 := h.1; have h2 := h.2
  have hcl := contents_length h
  refine ⟨fun hs => ?_, fun hs => ?_, ?_, fun n hn => ?_, fun n hn => ?_⟩
  · refine ⟨(m.set (v.base + v.size) a, { v with size := v.size + 1 }), ?_, ?_, ⟨by dsimp only; omega, by dsimp only; simp; omega⟩, rfl, rfl, by simp, fun i hi => ?_⟩
    · rw [pushBack, write, if_pos (by omega)]; rfl
    · apply List.ext_getElem?
      intro i
      rw [contents_get]
      dsimp only
      by_cases c1 : i < v.size
      · rw [if_pos (by omega), List.getElem?_append_left (by omega), contents_get, if_pos c1, List.getElem?_set_ne (by omega)]
      · rw [List.getElem?_append_right (by omega), hcl]
        by_cases c2 : i = v.size
        · subst c2
          rw [if_pos (by omega), List.getElem?_set_self (by omega)]; simp
        · rw [if_neg (by omega)]
          symm; apply List.getElem?_eq_none; simp; omega
    · dsimp only; rw [List.getElem?_set_ne (by omega)]
  · refine ⟨?_, ⟨by simp only [popBack]; omega, h2⟩, rfl, rfl, rfl, fun _ _ => rfl⟩
    rw [List.dropLast_eq_take, hcl]
    simp only [contents, popBack, List.take_take]
    congr 1; omega
  · refine ⟨by simp [contents, clear], ⟨by simp [clear], h2⟩, rfl, rfl, rfl, fun _ _ => rfl⟩
  · obtain ⟨m', e, hl, g⟩ := writeAll_spec (List.replicate n a) (m := m) (j := v.base) (by simp; omega)
    refine ⟨(m', { v with size := n }), by rw [assign, e]; rfl, ?_, ⟨hn, by dsimp only; omega⟩, rfl, rfl, hl, fun i hi => ?_⟩
    · apply List.ext_getElem?
      intro i
      rw [contents_get]
      dsimp only
      rw [g, List.length_replicate]
      by_cases c : i < n
      · rw [if_pos c, if_pos (by omega), Nat.add_sub_cancel_left]
      · rw [if_neg c]; symm; apply List.getElem?_eq_none; simp; omega
    · dsimp only; rw [g, if_neg (by simp; omega)]
  · rw [resize]
    by_cases c1 : n < v.size
    · refine ⟨(m, { v with size := n }), if_pos c1, ?_, ⟨hn, h2⟩, rfl, rfl, rfl, fun _ _ => rfl⟩
      rw [show n - v.size = 0 by omega]
      simp only [contents, List.take_take, List.replicate_zero, List.append_nil]
      congr 1; omega
    · rw [if_neg c1]
      by_cases c2 : n > v.size
      · rw [if_pos c2]
        obtain ⟨m', e, hl, g⟩ := writeAll_spec (List.replicate (n - v.size) a) (m := m) (j := v.base + v.size) (by simp; omega)
        refine ⟨(m', { v with size := n }), by rw [e]; rfl, ?_, ⟨hn, by dsimp only; omega⟩, rfl, rfl, hl, fun i hi => ?_⟩
        · apply List.ext_getElem?
          intro i
          rw [List.take_of_length_le (by omega), contents_get]
          dsimp only
          rw [g, List.length_replicate]
          by_cases c : i < v.size
          · rw [if_pos (by omega), if_neg (by omega), List.getElem?_append_left (by omega), contents_get, if_pos c]
          · rw [List.getElem?_append_right (by omega), hcl]
            by_cases c3 : i < n
            · rw [if_pos c3, if_pos (by omega)]; congr 1; omega
            · rw [if_neg c3]; symm; apply List.getElem?_eq_none; simp; omega
        · dsimp only; rw [g, if_neg (by simp; omega)]
      · rw [if_neg c2]
        refine ⟨(m, v), rfl, ?_, h, rfl, rfl, rfl, fun _ _ => rfl⟩
        rw [show n = v.size by omega, Nat.sub_self, List.take_of_length_le (by omega)]; simp

/-- `at` returns the element or throws. -/
theorem C25_at {m : List α} {v : View} (i : Nat) : at' m v i = (contents m v)[i]? := by
  rw [at', contents_get]
  by_cases c : i < v.size
  · rw [if_neg (by omega), if_pos c]
  · rw [if_pos (by omega), if_neg c]

example : Ok [0, 1, 2, 3, 4, 9] ⟨1, 2, 4⟩ ∧ contents [0, 1, 2, 3, 4, 9] ⟨1, 2, 4⟩ = [1, 2] := ⟨⟨by decide, by decide⟩, by decide⟩

end Verif.VectorView
