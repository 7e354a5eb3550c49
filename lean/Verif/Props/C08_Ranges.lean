import Verif.Lemmas.Ranges

/-!
C08, C09: filtered, mapped, zipped and reversed ranges and folds over them.
-/
set_option autoImplicit false

namespace Verif.Ranges

/-! ### Specification -/

/-- `Rep r xs`: the range `r` is a sequence of the values `xs`: there is one iterator position per index `0..n`, dereferencing position
`i < n` gives `xs[i]`, `++` and `--` move between neighbouring positions, `!=` compares positions, a copy has the same position, begin
is position 0 and end position `n`. -/
def Rep {α : Type} (r : Rng α) (xs : List α) : Prop :=
  ∃ R : Nat → r.σ → Prop, R 0 r.b ∧ R xs.length r.e ∧
    (∀ i s, R i s → i < xs.length → r.it.deref s = xs[i]?) ∧
    (∀ i s, R i s → i < xs.length → ∃ s', r.it.next s = some s' ∧ R (i + 1) s') ∧
    (∀ i s, R (i + 1) s → i < xs.length → ∃ s', r.it.prev s = some s' ∧ R i s') ∧
    (∀ i j s t, R i s → R j t → i ≤ xs.length → j ≤ xs.length → r.it.ne s t = decide (i ≠ j)) ∧
    (∀ i s, R i s → i ≤ xs.length → ∃ s', r.it.copy s = some s' ∧ R i s')

theorem rep_iff {α : Type} (r : Rng α) (xs : List α) : Rep r xs ↔ ∃ R, Seq r.it R xs ∧ R 0 r.b ∧ R xs.length r.e :=
  ⟨fun ⟨R, h1, h2, h3, h4, h5, h6, h7⟩ => ⟨R, ⟨h3, h4, h5, h6, h7⟩, h1, h2⟩,
   fun ⟨R, h, h1, h2⟩ => ⟨R, h1, h2, h.deref, h.next, h.prev, h.ne, h.copy⟩⟩

/-- A container is a sequence of its elements. -/
theorem rep_ofList {α : Type} (l : List α) : Rep (Rng.ofList l) l := by
  rw [rep_iff]; exact ⟨_, vec_seq l, rfl, rfl⟩

/-- What a sequence gives to a loop: exactly its values in order, its length, and it is empty iff it has no values. -/
theorem C09_loop {α : Type} (r : Rng α) (xs : List α) (h : Rep r xs) (fuel : Nat) (hf : xs.length < fuel) :
    r.toList fuel = some xs ∧ r.distance fuel = some xs.length ∧ r.empty = xs.isEmpty := by
  rw [rep_iff] at h
  obtain ⟨R, hs, hb, he⟩ := h
  obtain ⟨b', h1, hb'⟩ := hs.copy _ _ hb (Nat.zero_le _)
  obtain ⟨e', h2, he'⟩ := hs.copy _ _ he (Nat.le_refl _)
  refine ⟨toList_seq hs _ hb he fuel hf, ?_, ?_⟩
  · simp only [Rng.distance, copies, h1, h2, Option.bind_some]
    exact distance_from hs he' _ 0 fuel _ (by simp) (Nat.zero_le _) hb' hf
  rw [Rng.empty, hs.ne _ _ _ _ hb he (Nat.zero_le _) (Nat.le_refl _)]
  cases xs <;> simp

/-! ### C08 -/

/-- **C08**: filtering any sequence gives the sequence of the matching elements in order, in both directions (the position
relation of `Rep` includes stepping back), without reading outside the underlying range (no outcome is `none`). -/
theorem C08_filter {α : Type} (r : Rng α) (xs : List α) (p : α → Bool) (h : Rep r xs) (fuel : Nat) (hf : xs.length < fuel) :
    ∃ r', r.filter fuel p = some r' ∧ Rep r' (xs.filter p) ∧ (r.it.stash = false → r'.it.stash = false) := by
  rw [rep_iff] at h
  obtain ⟨R, hs, hb, he⟩ := h
  obtain ⟨b, h1, h2⟩ := filter_begin (p := p) hs he fuel hf _ hb
  obtain ⟨e, h3, h4⟩ := filter_end (p := p) hs he fuel hf
  refine ⟨⟨r.σ, filterIter fuel r.it p r.e, b, e⟩, by simp [Rng.filter, h1, h3], ?_, fun h => h⟩
  rw [rep_iff]
  exact ⟨_, filter_seq hs he fuel hf, h2, h4⟩

/-- **C08** for the caching policy and types that are small and trivially copyable.  Missing: all other types, for which it is false
(`C08_caching_small_violated`, `C08_caching_big_violated`). -/
theorem C08_caching_partial {α : Type} (r : Rng α) (xs : List α) (p : α → Bool) (h : Rep r xs) (fuel : Nat) (hf : xs.length < fuel) :
    ∃ r', r.filterCaching .plain fuel p = some r' ∧ Rep r' (xs.filter p) := by
  rw [rep_iff] at h
  obtain ⟨R, hs, hb, he⟩ := h
  obtain ⟨b, h1, h2⟩ := filterC_begin (p := p) hs he fuel hf _ hb
  obtain ⟨e, h3, h4⟩ := filterC_end (p := p) hs he fuel hf
  refine ⟨⟨r.σ × Option α, filterIterC .plain fuel r.it p r.e, b, e⟩, by simp [Rng.filterCaching, h1, h3, moveC], ?_⟩
  rw [rep_iff]
  exact ⟨_, filterC_seq hs he fuel hf, h2, h4⟩

/-- The end iterator of a range filtered with caching has nothing in its cache. -/
theorem filterMkC_end {α : Type} (k : Cache) (r : Rng α) (xs : List α) (p : α → Bool) (h : Rep r xs) (fuel : Nat) :
    ∃ s, filterMkC k (fuel + 1) r.it p r.e r.e = some (s, none) := by
  rw [rep_iff] at h
  obtain ⟨R, hs, -, he⟩ := h
  obtain ⟨e', g, he'⟩ := hs.copy _ _ he (Nat.le_refl _)
  refine ⟨e', ?_⟩
  have hne := hs.ne _ _ e' r.e he' he (Nat.le_refl _) (Nat.le_refl _)
  simp [filterMkC, g, skipFwdC, hne]

/-- Building a range filtered with caching is defined for every type on the heap. -/
theorem C08_caching_big_builds {α : Type} (r : Rng α) (xs : List α) (p : α → Bool) (h : Rep r xs) (fuel : Nat) (hf : xs.length < fuel) :
    ∃ r', r.filterCaching .big fuel p = some r' := by
  have h0 := h
  rw [rep_iff] at h
  obtain ⟨R, hs, hb, he⟩ := h
  obtain ⟨b', g1, hb'⟩ := hs.copy _ _ hb (Nat.zero_le _)
  obtain ⟨e', g2, -⟩ := hs.copy _ _ he (Nat.le_refl _)
  obtain ⟨s, c, h1, -⟩ := skipFwdC_eq (p := p) (k := .big) (by decide) hs he _ (kth_le p xs 0) (kth_match p xs 0 (Nat.zero_le _)) _ 0 fuel b' none rfl
    (Nat.zero_le _) hb' (fun i x _ h3 h4 => kth_gap0 p xs i x h3 h4) (by have := kth_le p xs 0; omega)
  obtain ⟨n, rfl⟩ : ∃ n, fuel = n + 1 := ⟨fuel - 1, by omega⟩
  obtain ⟨t, ht⟩ := filterMkC_end .big r xs p h0 n
  have hb : filterMkC .big (n + 1) r.it p r.e r.b = some (s, c) := by simp only [filterMkC, g1, g2, Option.bind_some]; exact h1
  refine ⟨_, by simp only [Rng.filterCaching, hb, ht, moveC, Cache.move, Option.bind_some, Option.map_some]; rfl⟩

/-- **C08 is violated** by the caching policy for every small type that is not trivially copyable (a string, a shared pointer): the range
cannot even be built without moving a cache that holds no object, whatever the elements and the predicate. -/
theorem C08_caching_small_violated {α : Type} (r : Rng α) (xs : List α) (p : α → Bool) (h : Rep r xs) (fuel : Nat) :
    r.filterCaching .small fuel p = none := by
  cases fuel with
  | zero =>
    have : filterMkC .small 0 r.it p r.e r.b = none := by
      simp only [filterMkC, skipFwdC]
      cases r.it.copy r.b <;> cases r.it.copy r.e <;> rfl
    simp [Rng.filterCaching, this]
  | succ n =>
    obtain ⟨s, hs⟩ := filterMkC_end .small r xs p h n
    simp only [Rng.filterCaching, hs, moveC, Cache.move, Option.bind_some, Option.map_none]
    cases (filterMkC .small (n + 1) r.it p r.e r.b).bind _ <;> rfl

/-- **C08 is violated** by the caching policy for every type larger than 64 bytes: the range can be built, but every loop over it
copies the end iterator, whose cache is a null pointer. -/
theorem C08_caching_big_violated {α : Type} (r : Rng α) (xs : List α) (p : α → Bool) (h : Rep r xs) (fuel : Nat) :
    (r.filterCaching .big fuel p).bind (Rng.toList fuel) = none := by
  cases fuel with
  | zero =>
    have : filterMkC .big 0 r.it p r.e r.b = none := by
      simp only [filterMkC, skipFwdC]
      cases r.it.copy r.b <;> cases r.it.copy r.e <;> rfl
    simp [Rng.filterCaching, this]
  | succ n =>
    obtain ⟨s, hs⟩ := filterMkC_end .big r xs p h n
    simp only [Rng.filterCaching, hs, moveC, Cache.move, Option.bind_some, Option.map_some]
    cases (filterMkC .big (n + 1) r.it p r.e r.b).bind _ with
    | none => rfl
    | some b =>
      have hc : (filterIterC .big (n + 1) r.it p r.e).copy (s, none) = none := by
        simp only [filterIterC, Cache.copy, Option.map_none]
        cases r.it.copy s <;> cases r.it.copy r.e <;> rfl
      simp only [Option.map_some, Option.bind_some, Rng.toList, toList, copies, hc, Option.bind_none]
      cases (filterIterC .big (n + 1) r.it p r.e).copy b <;> rfl

example : ((Rng.ofList [1, 2, 3, 4]).filterCaching .big 7 (fun x => x % 2 == 0)).isSome = true := by decide
example : ((Rng.ofList [1, 2, 3, 4]).filterCaching .plain 7 (fun x => x % 2 == 0)).bind (Rng.toList 7) = some [2, 4] := by decide

/-- **C08** read off for a container: a loop over `make_range(l).filter(p)` yields `l.filter p`, also reversed, and also with the
caching policy if the elements are small and trivially copyable. -/
theorem C08_filter_list {α : Type} (l : List α) (p : α → Bool) (fuel : Nat) (hf : l.length < fuel) :
    ((Rng.ofList l).filter fuel p).bind (Rng.toList fuel) = some (l.filter p) ∧
    ((Rng.ofList l).filterCaching .plain fuel p).bind (Rng.toList fuel) = some (l.filter p) ∧
    ((Rng.ofList l).filter fuel p).bind (fun r => r.reverse.toList fuel) = some (l.filter p).reverse := by
  have hlen : (l.filter p).length < fuel := Nat.lt_of_le_of_lt (List.length_filter_le p l) hf
  obtain ⟨r1, h1, h1', h1s⟩ := C08_filter _ l p (rep_ofList l) fuel hf
  obtain ⟨r2, h2, h2'⟩ := C08_caching_partial _ l p (rep_ofList l) fuel hf
  refine ⟨by rw [h1]; exact (C09_loop r1 _ h1' fuel hlen).1, by rw [h2]; exact (C09_loop r2 _ h2' fuel hlen).1, ?_⟩
  rw [h1]
  rw [rep_iff] at h1'
  obtain ⟨R, hs, hb, he⟩ := h1'
  have hr := rev_seq _ _ _ hs (h1s rfl)
  exact toList_seq hr _ ⟨Nat.zero_le _, by rw [Nat.sub_zero]; exact he⟩ ⟨by simp, by rw [List.length_reverse, Nat.sub_self]; exact hb⟩ fuel (by simpa using hlen)

example : ((Rng.ofList [1, 2, 3, 4, 5, 6]).filter 7 (fun x => x % 2 == 0)).bind (Rng.toList 7) = some [2, 4, 6] := by decide

/-- Stepping back from the first match is undefined, as for any begin iterator: the code has no test for the begin. -/
theorem C08_before_first_match {α : Type} (l : List α) (p : α → Bool) (fuel i : Nat) (h : ∀ x ∈ l.take i, p x = false) :
    (filterIter fuel (vecIter l) p l.length).prev i = none := by
  cases i with
  | zero => rfl
  | succ i =>
    simp only [filterIter, vecIter, Option.bind_some]
    induction fuel generalizing i with
    | zero => rfl
    | succ n ih =>
      simp only [skipBwd]
      cases hx : l[i]? with
      | none => rfl
      | some x =>
        have hi : i < l.length := (List.getElem?_eq_some_iff.1 hx).1
        have : x ∈ l.take (i + 1) := List.mem_take_iff_getElem.2 ⟨i, by omega, (List.getElem?_eq_some_iff.1 hx).2⟩
        simp only [h x this]
        cases i with
        | zero => rfl
        | succ i => exact ih i (fun y hy => h y (List.mem_of_mem_take (i := i + 1) (by rwa [List.take_take, Nat.min_eq_left (by omega)])))

/-- Reversing a range filtered with the caching policy dereferences a dangling reference. -/
theorem C08_caching_reverse_violated : ∃ l : List Nat, ((Rng.ofList l).filterCaching .plain 5 (fun _ => true)).bind (fun r => r.reverse.toList 5) = none :=
  ⟨[1, 2], by decide⟩

/-! ### C09 -/

/-- **C09**, map: a sequence of the mapped values. -/
theorem C09_map {α β : Type} (r : Rng α) (xs : List α) (f : α → β) (h : Rep r xs) : Rep (r.map f) (xs.map f) := by
  rw [rep_iff] at h ⊢
  obtain ⟨R, hs, hb, he⟩ := h
  exact ⟨R, map_seq f _ R xs hs, hb, by rw [List.length_map]; exact he⟩

/-- Map applies the function once per element in order: the calls made by a loop, when the function records its argument. -/
theorem C09_map_calls {α β : Type} (r : Rng α) (xs : List α) (f : α → β) (h : Rep r xs) (fuel : Nat) (hf : xs.length < fuel) :
    (r.map (fun x => (x, f x))).toList fuel = some (xs.map fun x => (x, f x)) :=
  (C09_loop _ _ (C09_map r xs _ h) fuel (by simpa using hf)).1

/-- **C09**, reverse: a sequence of the values in reverse (for iterators that do not refer into themselves). -/
theorem C09_reverse {α : Type} (r : Rng α) (xs : List α) (h : Rep r xs) (hs : r.it.stash = false) : Rep r.reverse xs.reverse := by
  rw [rep_iff] at h ⊢
  obtain ⟨R, h1, hb, he⟩ := h
  exact ⟨_, rev_seq _ _ _ h1 hs, ⟨Nat.zero_le _, by rw [Nat.sub_zero]; exact he⟩, ⟨by simp, by rw [List.length_reverse, Nat.sub_self]; exact hb⟩⟩

/-- **C09**, zip of ranges of equal length: a sequence of the pairs by position.  Missing: ranges of different lengths, where it is
false (`C09_zip_unequal_violated`). -/
theorem C09_zip_partial {α β : Type} (r : Rng α) (q : Rng β) (xs : List α) (ys : List β) (h : Rep r xs) (h' : Rep q ys)
    (hl : xs.length = ys.length) : Rep (r.zip q) (xs.zip ys) := by
  rw [rep_iff] at h h' ⊢
  obtain ⟨R, hs, hb, he⟩ := h
  obtain ⟨Q, hs', hb', he'⟩ := h'
  refine ⟨_, zip_seq _ _ _ _ _ _ hs hs' hl, ⟨hb, hb'⟩, ?_⟩
  simp only [List.length_zip, hl, Nat.min_self]
  exact ⟨hl ▸ he, he'⟩

/-- **C09**, folds: left to right and right to left. -/
theorem C09_fold_left {α γ : Type} (r : Rng α) (xs : List α) (f : γ → α → γ) (init : γ) (h : Rep r xs) (fuel : Nat) (hf : xs.length < fuel) :
    r.foldLeft fuel f init = some (xs.foldl f init) := by
  rw [rep_iff] at h
  obtain ⟨R, hs, hb, he⟩ := h
  obtain ⟨b', h1, hb'⟩ := hs.copy _ _ hb (Nat.zero_le _)
  obtain ⟨e', h2, he'⟩ := hs.copy _ _ he (Nat.le_refl _)
  simp only [Rng.foldLeft, copies, h1, h2, Option.bind_some]
  rw [accumulate_from hs he' f _ 0 fuel _ init rfl (Nat.zero_le _) hb' hf]
  rfl

theorem C09_fold_right {α γ : Type} (r : Rng α) (xs : List α) (f : γ → α → γ) (init : γ) (h : Rep r xs) (hst : r.it.stash = false) (fuel : Nat)
    (hf : xs.length < fuel) : r.foldRight fuel f init = some (xs.foldr (fun x acc => f acc x) init) := by
  have h1 := C09_fold_left r.reverse xs.reverse f init (C09_reverse r xs h hst) fuel (by simpa using hf)
  rw [Rng.foldLeft] at h1
  rw [Rng.foldRight, foldRight]
  rw [List.foldl_reverse] at h1
  exact h1

/-- **C09**, tail of a non-empty sequence. -/
theorem C09_tail {α : Type} (r : Rng α) (x : α) (xs : List α) (h : Rep r (x :: xs)) : ∃ r', r.tail = some r' ∧ Rep r' xs := by
  rw [rep_iff] at h
  obtain ⟨R, hs, hb, he⟩ := h
  obtain ⟨b', g1, hb'⟩ := hs.copy _ _ hb (Nat.zero_le _)
  obtain ⟨e', g2, he'⟩ := hs.copy _ _ he (Nat.le_refl _)
  obtain ⟨s', h1, h2⟩ := hs.next 0 _ hb' (by simp)
  refine ⟨⟨r.σ, r.it, s', e'⟩, by simp [Rng.tail, copies, g1, g2, h1], ?_⟩
  rw [rep_iff]
  refine ⟨fun i => R (i + 1), ⟨?_, ?_, ?_, ?_, ?_⟩, h2, he'⟩
  · intro i s hr hi; simpa using hs.deref (i + 1) s hr (by simpa using hi)
  · intro i s hr hi; exact hs.next (i + 1) s hr (by simpa using hi)
  · intro i s hr hi; exact hs.prev (i + 1) s hr (by simpa using hi)
  · intro i j s t hi hj h3 h4
    have := hs.ne _ _ s t hi hj (by simpa using h3) (by simpa using h4)
    rw [this]; simp
  · intro i s hr hi; exact hs.copy (i + 1) s hr (by simpa using hi)

/-- **C09**, reversing is safe to compose: mapped and reversed ranges can be reversed, whatever is below them, and twice reversed is
the range itself; a zipped range can be reversed if both its parts can. -/
theorem C09_reverse_composes {α β : Type} (r : Rng α) (q : Rng β) (xs : List α) (ys : List β) (h : Rep r xs) (h' : Rep q ys) :
    (∀ f : α → β, Rep (r.map f).reverse (xs.map f).reverse) ∧
    (r.it.stash = false → Rep r.reverse.reverse xs) ∧
    (r.it.stash = false → q.it.stash = false → xs.length = ys.length → Rep (r.zip q).reverse (xs.zip ys).reverse) := by
  refine ⟨fun f => C09_reverse _ _ (C09_map r xs f h) rfl, fun hs => ?_, fun hs hs' hl => ?_⟩
  · have := C09_reverse _ _ (C09_reverse r xs h hs) rfl
    rwa [List.reverse_reverse] at this
  · exact C09_reverse _ _ (C09_zip_partial r q xs ys h h' hl) (by simp [Rng.zip, zipIter, hs, hs'])

/-- A longer pipeline, to show that the statements compose. -/
theorem C09_pipeline {α β γ : Type} (l : List α) (p : α → Bool) (f : α → β) (ys : List γ) (hl : (l.filter p).length = ys.length) :
    ∃ r, (Rng.ofList l).filter (l.length + 1) p = some r ∧
      ((r.map f).reverse.zip (Rng.ofList ys)).toList (l.length + 1) = some (((l.filter p).map f).reverse.zip ys) := by
  obtain ⟨r, h1, h2, -⟩ := C08_filter _ l p (rep_ofList l) (l.length + 1) (by omega)
  refine ⟨r, h1, (C09_loop _ _ (C09_zip_partial _ _ _ _ (C09_reverse _ _ (C09_map r _ f h2) rfl) (rep_ofList ys) (by simpa using hl)) _ ?_).1⟩
  have := List.length_filter_le p l
  simp
  omega

example : ((Rng.ofList [1, 2, 3]).zip (Rng.ofList [4, 5, 6])).toList 4 = some [(1, 4), (2, 5), (3, 6)] := by decide
example : (Rng.ofList [1, 2, 3]).foldRight 4 (fun acc x => acc ++ [x]) [] = some [3, 2, 1] := by decide

theorem zip_unequal {α β : Type} (xs : List α) (ys : List β) (hl : xs.length ≠ ys.length) :
    ∀ (fuel i : Nat) (acc : List (α × β)), i ≤ min xs.length ys.length →
    accumulate (zipIter (vecIter xs) (vecIter ys)) (fun acc x => acc ++ [x]) (xs.length, ys.length) fuel (i, i) acc = none := by
  intro fuel
  induction fuel with
  | zero => intros; rfl
  | succ n ih =>
    intro i acc hi
    simp only [accumulate]
    have hne : (zipIter (vecIter xs) (vecIter ys)).ne (i, i) (xs.length, ys.length) = true := by
      simp only [zipIter, vecIter, Bool.or_eq_true, bne_iff_ne, ne_eq]; omega
    rw [if_pos hne]
    by_cases h : i < min xs.length ys.length
    · have hx : i < xs.length := by omega
      have hy : i < ys.length := by omega
      simp only [zipIter, vecIter, List.getElem?_eq_getElem hx, List.getElem?_eq_getElem hy, Option.bind_some, Option.map_some, hx, hy, if_true]
      exact ih (i + 1) _ (by omega)
    · rcases Nat.lt_or_ge xs.length ys.length with h' | h'
      · have : xs[i]? = none := by simp; omega
        simp [zipIter, vecIter, this]
      · have : ys[i]? = none := by simp; omega
        simp only [zipIter, vecIter, this]
        cases xs[i]? <;> rfl

/-- **C09 is violated** for ranges of different lengths: no loop over the zipped range ends; it reads past the shorter one. -/
theorem C09_zip_unequal_violated {α β : Type} (xs : List α) (ys : List β) (hl : xs.length ≠ ys.length) (fuel : Nat) :
    ((Rng.ofList xs).zip (Rng.ofList ys)).toList fuel = none :=
  zip_unequal xs ys hl fuel 0 [] (Nat.zero_le _)

end Verif.Ranges
