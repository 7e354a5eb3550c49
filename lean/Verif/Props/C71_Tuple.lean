import Verif.Model.Tuple

/-!
# C71: tuple algorithms

`tuple_for_each` calls the functor on each element, first to last, once; `tuple_all_of` and `tuple_any_of` answer the question in their name and do not call the predicate after the answer is known;
`tuple_transform` gives the tuple of the results; extra arguments reach every call.

* `C71_for_each`: it is the fold, for every functor and every state.
* `C71_all_of`, `C71_any_of`: the answer, and the elements the predicate was called on.
* `C71_all_of_state`, `C71_any_of_state`: also for predicates with a state.
* `C71_transform_partial`: whatever order the compiler chooses, each element is used once, and the result is the image if the functor's answer does not depend on its state. Missing: functors with state.
* `C71_transform_in_order`: with state, if the compiler evaluates left to right.
* `C71_two`: the versions for two tuples are the versions for one, on the pairs.
* `C71_lvalue_arg`: an extra argument given as lvalue reaches every call.
* `C71_dup`, `C71_split`: the types.
* `C71_transform_violated`: with a state, the result depends on the compiler.
* `C71_rvalue_arg_violated`: an extra argument given as rvalue reaches the first call only.
-/
set_option autoImplicit false

namespace Verif.Tuple

variable {α β γ δ σ : Type}

/-! ## Specification -/

/-- a predicate without state, with a log of the elements it was called on -/
def logged (p : α → Bool) : List α → α → List α × Bool := fun log a => (log ++ [a], p a)

/-- all elements satisfy the predicate; stop at the first that does not -/
def allSpec (p : σ → α → σ × Bool) : List α → σ → Bool × σ
  | [], s => (true, s)
  | a :: t, s => if (p s a).2 then allSpec p t (p s a).1 else (false, (p s a).1)

/-- some element satisfies the predicate; stop at the first that does -/
def anySpec (p : σ → α → σ × Bool) : List α → σ → Bool × σ
  | [], s => (false, s)
  | a :: t, s => if (p s a).2 then (true, (p s a).1) else anySpec p t (p s a).1

/-- map from the first to the last element, with a state -/
def mapSpec (f : σ → α → σ × β) : List α → σ → List β × σ
  | [], s => ([], s)
  | a :: t, s => ((f s a).2 :: (mapSpec f t (f s a).1).1, (mapSpec f t (f s a).1).2)

/-- an order of evaluation of the `n` calls -/
def Order (n : Nat) (order : List Nat) : Prop := order.Perm (List.range n)

/-! ## Lemmas -/

theorem pack_eq (n : Nat) (idxs : List Nat) : pack n idxs = List.range n ++ idxs := by
  induction n generalizing idxs with
  | zero => rfl
  | succ n ih => rw [pack, ih, List.range_succ, List.append_assoc]; rfl

theorem forEachFrom_eq (f : σ → α → σ) (t : List α) (idx : Nat) (h : idx ≤ t.length) (s : σ) : forEachFrom f t t.length idx s = some ((t.drop idx).foldl f s) := by
  induction hk : t.length - idx generalizing idx s with
  | zero =>
    have : idx = t.length := by omega
    subst this
    unfold forEachFrom
    rw [if_pos rfl, List.drop_length]
    rfl
  | succ k ih =>
    have hlt : idx < t.length := by omega
    unfold forEachFrom
    rw [if_neg (by omega), dif_neg (by omega), List.getElem?_eq_getElem hlt]
    rw [List.drop_eq_getElem_cons hlt]
    exact ih (idx + 1) (by omega) _ (by omega)

theorem allFrom_eq (p : σ → α → σ × Bool) (t : List α) (idx : Nat) (h : idx ≤ t.length) (s : σ) : allFrom p t t.length idx s = some (allSpec p (t.drop idx) s) := by
  induction hk : t.length - idx generalizing idx s with
  | zero =>
    have : idx = t.length := by omega
    subst this
    unfold allFrom
    rw [if_pos rfl, List.drop_length]
    rfl
  | succ k ih =>
    have hlt : idx < t.length := by omega
    unfold allFrom
    rw [if_neg (by omega), dif_neg (by omega), List.getElem?_eq_getElem hlt, List.drop_eq_getElem_cons hlt]
    simp only [allSpec]
    rcases hp : p s t[idx] with ⟨s', b⟩
    cases b
    · rfl
    · simp only [if_true]
      exact ih (idx + 1) (by omega) _ (by omega)

theorem anyFrom_eq (p : σ → α → σ × Bool) (t : List α) (idx : Nat) (h : idx ≤ t.length) (s : σ) : anyFrom p t t.length idx s = some (anySpec p (t.drop idx) s) := by
  induction hk : t.length - idx generalizing idx s with
  | zero =>
    have : idx = t.length := by omega
    subst this
    unfold anyFrom
    rw [if_pos rfl, List.drop_length]
    rfl
  | succ k ih =>
    have hlt : idx < t.length := by omega
    unfold anyFrom
    rw [if_neg (by omega), dif_neg (by omega), List.getElem?_eq_getElem hlt, List.drop_eq_getElem_cons hlt]
    simp only [anySpec]
    rcases hp : p s t[idx] with ⟨s', b⟩
    cases b
    · simp only [Bool.false_eq_true, if_false]
      exact ih (idx + 1) (by omega) _ (by omega)
    · rfl

/-! ## The property -/

/-- `tuple_for_each` calls the functor on each element, from the first to the last, once, and returns the functor as the last call left it. -/
theorem C71_for_each (f : σ → α → σ) (t : List α) (s : σ) : forEach f t s = some (t.foldl f s) := forEachFrom_eq f t 0 (Nat.zero_le _) s

theorem C71_all_of_state (p : σ → α → σ × Bool) (t : List α) (s : σ) : allOf p t s = some (allSpec p t s) := allFrom_eq p t 0 (Nat.zero_le _) s

theorem C71_any_of_state (p : σ → α → σ × Bool) (t : List α) (s : σ) : anyOf p t s = some (anySpec p t s) := anyFrom_eq p t 0 (Nat.zero_le _) s

/-- `tuple_all_of` is true if and only if every element satisfies the predicate. The predicate is called on the elements up to the first that does not, in order, and on no other. -/
theorem C71_all_of (p : α → Bool) (t : List α) : ∃ ok log, allOf (logged p) t [] = some (ok, log) ∧ (ok = true ↔ ∀ a ∈ t, p a = true) ∧
    (ok = true → log = t) ∧ (ok = false → ∃ pre a post, t = pre ++ a :: post ∧ (∀ x ∈ pre, p x = true) ∧ p a = false ∧ log = pre ++ [a]) := by
  rw [C71_all_of_state]
  suffices H : ∀ log0, ∃ ok log, allSpec (logged p) t log0 = (ok, log0 ++ log) ∧ (ok = true ↔ ∀ a ∈ t, p a = true) ∧
      (ok = true → log = t) ∧ (ok = false → ∃ pre a post, t = pre ++ a :: post ∧ (∀ x ∈ pre, p x = true) ∧ p a = false ∧ log = pre ++ [a]) by
    obtain ⟨ok, log, h⟩ := H []
    exact ⟨ok, log, by rw [h.1]; rfl, h.2⟩
  induction t with
  | nil => exact fun log0 => ⟨true, [], by simp [allSpec], by simp, fun _ => rfl, fun h => by cases h⟩
  | cons a t ih =>
    intro log0
    cases hp : p a with
    | false => exact ⟨false, [a], by simp [allSpec, logged, hp], by simp [hp], fun h => (by cases h), fun _ => ⟨[], a, t, rfl, by simp, hp, rfl⟩⟩
    | true =>
      obtain ⟨ok, log, h1, h2, h3, h4⟩ := ih (log0 ++ [a])
      refine ⟨ok, a :: log, by simp [allSpec, logged, hp] at h1 ⊢; exact h1, by simp [h2, hp], fun h => by rw [h3 h], fun h => ?_⟩
      obtain ⟨pre, x, post, e1, e2, e3, e4⟩ := h4 h
      refine ⟨a :: pre, x, post, by rw [e1]; rfl, ?_, e3, by rw [e4]; rfl⟩
      intro y hy
      rcases List.mem_cons.1 hy with rfl | hy
      · exact hp
      · exact e2 y hy

/-- `tuple_any_of` is true if and only if some element satisfies the predicate. The predicate is called on the elements up to the first that does, in order, and on no other. -/
theorem C71_any_of (p : α → Bool) (t : List α) : ∃ ok log, anyOf (logged p) t [] = some (ok, log) ∧ (ok = true ↔ ∃ a ∈ t, p a = true) ∧
    (ok = false → log = t) ∧ (ok = true → ∃ pre a post, t = pre ++ a :: post ∧ (∀ x ∈ pre, p x = false) ∧ p a = true ∧ log = pre ++ [a]) := by
  rw [C71_any_of_state]
  suffices H : ∀ log0, ∃ ok log, anySpec (logged p) t log0 = (ok, log0 ++ log) ∧ (ok = true ↔ ∃ a ∈ t, p a = true) ∧
      (ok = false → log = t) ∧ (ok = true → ∃ pre a post, t = pre ++ a :: post ∧ (∀ x ∈ pre, p x = false) ∧ p a = true ∧ log = pre ++ [a]) by
    obtain ⟨ok, log, h⟩ := H []
    exact ⟨ok, log, by rw [h.1]; rfl, h.2⟩
  induction t with
  | nil => exact fun log0 => ⟨false, [], by simp [anySpec], by simp, fun _ => rfl, fun h => by cases h⟩
  | cons a t ih =>
    intro log0
    cases hp : p a with
    | true => exact ⟨true, [a], by simp [anySpec, logged, hp], by simp [hp], fun h => (by cases h), fun _ => ⟨[], a, t, rfl, by simp, hp, rfl⟩⟩
    | false =>
      obtain ⟨ok, log, h1, h2, h3, h4⟩ := ih (log0 ++ [a])
      refine ⟨ok, a :: log, by simp [anySpec, logged, hp] at h1 ⊢; exact h1, by simp [h2, hp], fun h => by rw [h3 h], fun h => ?_⟩
      obtain ⟨pre, x, post, e1, e2, e3, e4⟩ := h4 h
      refine ⟨a :: pre, x, post, by rw [e1]; rfl, ?_, e3, by rw [e4]; rfl⟩
      intro y hy
      rcases List.mem_cons.1 hy with rfl | hy
      · exact hp
      · exact e2 y hy

theorem calls_pure (f : σ → α → σ × β) (g : α → β) (hg : ∀ s a, (f s a).2 = g a) (t : List α) (is : List Nat) (hi : ∀ i ∈ is, i < t.length) (s : σ) :
    ∃ rs s', calls f t is s = some (rs, s') ∧ (∀ i ∈ is, ∃ a, t[i]? = some a ∧ pick rs i = some (g a)) ∧ s' = (is.filterMap fun i => t[i]?).foldl (fun s a => (f s a).1) s := by
  induction is generalizing s with
  | nil => exact ⟨[], s, rfl, by simp, rfl⟩
  | cons i is ih =>
    have hlt := hi i (List.mem_cons_self ..)
    obtain ⟨rs, s', h1, h2, h3⟩ := ih (fun j hj => hi j (List.mem_cons_of_mem _ hj)) (f s t[i]).1
    refine ⟨(i, (f s t[i]).2) :: rs, s', by simp only [calls, List.getElem?_eq_getElem hlt, h1], fun j hj => ?_, ?_⟩
    · by_cases he : i = j
      · subst he
        exact ⟨t[i], List.getElem?_eq_getElem hlt, by simp [pick, hg]⟩
      · obtain ⟨a, e1, e2⟩ := h2 j ((List.mem_cons.1 hj).resolve_left fun h => he h.symm)
        refine ⟨a, e1, ?_⟩
        have : (i == j) = false := by simpa using he
        simpa [pick, List.find?, this] using e2
    · rw [h3, List.filterMap_cons, List.getElem?_eq_getElem hlt]
      rfl

theorem collect_range (rs : List (Nat × β)) (g : α → β) (t : List α) (k : Nat) (hk : k ≤ t.length) (h : ∀ i, i < t.length → ∃ a, t[i]? = some a ∧ pick rs i = some (g a)) :
    collect rs ((List.range t.length).drop k) = some ((t.drop k).map g) := by
  induction hm : t.length - k generalizing k with
  | zero =>
    have : k = t.length := by omega
    subst this
    rw [List.drop_length, List.drop_eq_nil_of_le (by simp)]
    rfl
  | succ m ih =>
    have hlt : k < t.length := by omega
    obtain ⟨a, e1, e2⟩ := h k hlt
    rw [List.drop_eq_getElem_cons (by simpa using hlt), List.getElem_range, List.drop_eq_getElem_cons hlt]
    simp only [collect, e2, ih (k + 1) (by omega) (by omega), List.map_cons]
    rw [List.getElem?_eq_getElem hlt] at e1
    cases e1
    rfl

theorem filterMap_range (t : List α) (k : Nat) (hk : k ≤ t.length) : ((List.range t.length).drop k).filterMap (fun i => t[i]?) = t.drop k := by
  induction hm : t.length - k generalizing k with
  | zero =>
    have : k = t.length := by omega
    subst this
    rw [List.drop_length, List.drop_eq_nil_of_le (by simp)]
    rfl
  | succ m ih =>
    have hlt : k < t.length := by omega
    rw [List.drop_eq_getElem_cons (by simpa using hlt), List.getElem_range, List.drop_eq_getElem_cons hlt, List.filterMap_cons, List.getElem?_eq_getElem hlt, ih (k + 1) (by omega) (by omega)]

/-- Whatever order of evaluation the compiler chooses: `tuple_transform` gives the tuple of the results, if what the functor returns does not depend on its state; and the functor is called on each element once, in some
order. Missing: functors whose answer depends on their state, see `C71_transform_in_order` and `C71_transform_violated`. -/
theorem C71_transform_partial (order : List Nat) (f : σ → α → σ × β) (g : α → β) (hg : ∀ s a, (f s a).2 = g a) (t : List α) (ho : Order t.length order) (s : σ) :
    ∃ t' : List α, t'.Perm t ∧ transform order f t s = some (t.map g, t'.foldl (fun s a => (f s a).1) s) := by
  have hi : ∀ i ∈ order, i < t.length := fun i h => List.mem_range.1 (ho.mem_iff.1 h)
  obtain ⟨rs, s', h1, h2, h3⟩ := calls_pure f g hg t order hi s
  refine ⟨order.filterMap fun i => t[i]?, ?_, ?_⟩
  · have := ho.filterMap fun i => t[i]?
    have e := filterMap_range t 0 (Nat.zero_le _)
    rw [List.drop_zero, List.drop_zero] at e
    rwa [e] at this
  · have hc := collect_range rs g t 0 (Nat.zero_le _) fun i hi => h2 i (ho.mem_iff.2 (List.mem_range.2 hi))
    rw [List.drop_zero, List.drop_zero] at hc
    simp only [transform, h1, pack_eq, List.append_nil, hc, h3]

theorem length_mapSpec (f : σ → α → σ × β) (t : List α) (s : σ) : (mapSpec f t s).1.length = t.length := by
  induction t generalizing s with
  | nil => rfl
  | cons a t ih => simp [mapSpec, ih]

theorem transform_seq (f : σ → α → σ × β) (t : List α) (k : Nat) (hk : k ≤ t.length) (s : σ) :
    ∃ rs, calls f t ((List.range t.length).drop k) s = some (rs, (mapSpec f (t.drop k) s).2) ∧ collect rs ((List.range t.length).drop k) = some (mapSpec f (t.drop k) s).1 ∧ ∀ r ∈ rs, k ≤ r.1 := by
  induction hm : t.length - k generalizing k s with
  | zero =>
    have : k = t.length := by omega
    subst this
    refine ⟨[], ?_⟩
    rw [List.drop_length, List.drop_eq_nil_of_le (by simp)]
    exact ⟨rfl, rfl, by simp⟩
  | succ m ih =>
    have hlt : k < t.length := by omega
    obtain ⟨rs, h1, h2, h3⟩ := ih (k + 1) (by omega) (f s t[k]).1 (by omega)
    refine ⟨(k, (f s t[k]).2) :: rs, ?_⟩
    rw [List.drop_eq_getElem_cons (i := k) (l := List.range t.length) (by simpa using hlt), List.getElem_range, List.drop_eq_getElem_cons hlt]
    refine ⟨by simp only [calls, List.getElem?_eq_getElem hlt, h1, mapSpec], ?_, ?_⟩
    · have hc : ∀ is : List Nat, (∀ i ∈ is, k < i) → collect ((k, (f s t[k]).2) :: rs) is = collect rs is := by
        intro is his
        induction is with
        | nil => rfl
        | cons i is ih2 =>
          have hne : (k == i) = false := by
            have := his i (List.mem_cons_self ..)
            simp only [beq_eq_false_iff_ne]
            omega
          simp only [collect, ih2 fun j hj => his j (List.mem_cons_of_mem _ hj)]
          simp only [pick, List.find?, hne]
      have hgt : ∀ i ∈ (List.range t.length).drop (k + 1), k < i := by
        intro i hi
        obtain ⟨j, hj, rfl⟩ := List.getElem_of_mem hi
        rw [List.getElem_drop, List.getElem_range]
        omega
      have hp : pick ((k, (f s t[k]).2) :: rs) k = some (f s t[k]).2 := by simp [pick]
      simp only [collect, hp, hc _ hgt, h2, mapSpec]
    · intro r hr
      rcases List.mem_cons.1 hr with rfl | hr
      · exact Nat.le_refl _
      · have := h3 r hr
        omega

/-- With a compiler that evaluates from left to right, `tuple_transform` is the map from the first element to the last, also for functors with a state. -/
theorem C71_transform_in_order (f : σ → α → σ × β) (t : List α) (s : σ) : transform (List.range t.length) f t s = some (mapSpec f t s) := by
  obtain ⟨rs, h1, h2, _⟩ := transform_seq f t 0 (Nat.zero_le _) s
  rw [List.drop_zero] at h1 h2
  simp only [transform, h1, pack_eq, List.append_nil, h2, List.drop_zero]

/-- The versions for two tuples of the same size are those for one, on the pairs of elements at the same place; for different sizes they do not compile. -/
theorem C71_two (t : List α) (u : List β) (s : σ) :
    (∀ (p : σ → α × β → σ × Bool), t.length = u.length → allOf2 p t u s = some (allSpec p (t.zip u) s) ∧ anyOf2 p t u s = some (anySpec p (t.zip u) s)) ∧
    (∀ (f : σ → α × β → σ × γ), t.length = u.length → transform2 (List.range t.length) f t u s = some (mapSpec f (t.zip u) s)) ∧
    (∀ (p : σ → α × β → σ × Bool) (f : σ → α × β → σ × γ) order, t.length ≠ u.length → allOf2 p t u s = none ∧ anyOf2 p t u s = none ∧ transform2 order f t u s = none) := by
  refine ⟨fun p h => ?_, fun f h => ?_, fun p f order h => ?_⟩
  · unfold allOf2 anyOf2
    rw [if_pos h, if_pos h]
    exact ⟨C71_all_of_state p _ s, C71_any_of_state p _ s⟩
  · unfold transform2
    rw [if_pos h]
    have := C71_transform_in_order f (t.zip u) s
    rwa [List.length_zip, ← h, Nat.min_self] at this
  · unfold allOf2 anyOf2 transform2
    rw [if_neg h, if_neg h, if_neg h]
    exact ⟨rfl, rfl, rfl⟩

/-- An extra argument given as lvalue reaches every call: the result is that of the functor with the argument built in. -/
theorem C71_lvalue_arg (g : σ → α → δ → σ × β) (moved arg : δ) (t : List α) (s : σ) :
    transform (List.range t.length) (withArg g moved false) t (s, arg) = (transform (List.range t.length) (fun s a => g s a arg) t s).map fun r => (r.1, (r.2, arg)) := by
  rw [C71_transform_in_order, C71_transform_in_order]
  suffices H : ∀ s, mapSpec (withArg g moved false) t (s, arg) = ((mapSpec (fun s a => g s a arg) t s).1, ((mapSpec (fun s a => g s a arg) t s).2, arg)) by
    rw [H]
    rfl
  induction t with
  | nil => exact fun s => rfl
  | cons a t ih =>
    intro s
    have : withArg g moved false (s, arg) a = (((g s a arg).1, arg), (g s a arg).2) := rfl
    simp only [mapSpec, this, ih]

/-- `tuple_dup_t<Ty, N>` is the tuple of `N` times `Ty`. -/
theorem C71_dup (ty : α) (n : Nat) : dup ty n [] = List.replicate n ty := by
  suffices H : ∀ l, dup ty n l = List.replicate n ty ++ l by rw [H, List.append_nil]
  induction n with
  | zero => exact fun l => rfl
  | succ n ih =>
    intro l
    rw [dup, ih, List.replicate_succ', List.append_assoc]
    rfl

/-- `tuple_split` takes a tuple apart, if it is not empty. -/
theorem C71_split (t : List α) : (∀ h r, split t = some (h, r) ↔ t = h :: r) ∧ (split t = none ↔ t = []) := by
  cases t with
  | nil => exact ⟨fun h r => by simp [split], by simp [split]⟩
  | cons a t => exact ⟨fun h r => by simp [split], by simp [split]⟩

/-! ## Violations -/

/-- The full property: the result of `tuple_transform` is that of the calls from the first element to the last. -/
def TransformSpec : Prop := ∀ (f : Nat → Nat → Nat × Nat) (t : List Nat) (s : Nat) (order : List Nat), Order t.length order → transform order f t s = some (mapSpec f t s)

/-- A functor that numbers the elements: with a compiler that evaluates from right to left (as gcc and msvc do in many cases) the numbers are reversed. -/
theorem C71_transform_violated : ¬ TransformSpec := by
  intro h
  have := h (fun s _ => (s + 1, s)) [5, 6] 0 [1, 0] (by unfold Order; decide)
  revert this
  decide

/-- The full property: an extra argument given as rvalue reaches every call, as if it were built in. -/
def RvalueArg : Prop := ∀ (g : Unit → Nat → List Nat → Unit × List Nat) (moved arg : List Nat) (t : List Nat),
  (transform (List.range t.length) (withArg g moved true) t ((), arg)).map Prod.fst = (transform (List.range t.length) (fun s a => g s a arg) t ()).map Prod.fst

/-- `tuple_transform(tuple, functor, std::vector<int>{1, 2})` with a functor that takes the vector by value: the first call moves it away, and the second gets an empty one. -/
theorem C71_rvalue_arg_violated : ¬ RvalueArg := by
  intro h
  have := h (fun _ a v => ((), a :: v)) [] [1, 2] [5, 6]
  revert this
  decide

/-! ## The hypotheses can be met -/

example : allOf (logged fun n => decide (n < 3)) [1, 2, 5, 1] [] = some (false, [1, 2, 5]) := by decide +kernel
example : anyOf (logged fun n => decide (3 < n)) [1, 2, 5, 1] [] = some (true, [1, 2, 5]) := by decide +kernel
example : forEach (fun log n => log ++ [n * n]) [1, 2, 3] [] = some [1, 4, 9] := by decide +kernel
example : transform [2, 0, 1] (fun log n => (log ++ [n], n * n)) [1, 2, 3] [] = some ([1, 4, 9], [3, 1, 2]) := by decide
example : Order 3 [2, 0, 1] := by unfold Order; decide
example : transform2 [0, 1] (fun (_ : Unit) (p : Nat × Nat) => ((), p.1 + p.2)) [1, 2] [10, 20] () = some ([11, 22], ()) := by decide

end Verif.Tuple
