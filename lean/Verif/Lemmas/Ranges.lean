import Verif.Model.Ranges

/-! Lemmas for C08, C09. -/
set_option autoImplicit false

namespace Verif.Ranges

/-- `R i s`: the state `s` is an iterator to index `i` of the sequence `xs`; all operations behave as they should. -/
structure Seq {σ α : Type} (it : Iter σ α) (R : Nat → σ → Prop) (xs : List α) : Prop where
  deref : ∀ i s, R i s → i < xs.length → it.deref s = xs[i]?
  next : ∀ i s, R i s → i < xs.length → ∃ s', it.next s = some s' ∧ R (i + 1) s'
  prev : ∀ i s, R (i + 1) s → i < xs.length → ∃ s', it.prev s = some s' ∧ R i s'
  ne : ∀ i j s t, R i s → R j t → i ≤ xs.length → j ≤ xs.length → it.ne s t = decide (i ≠ j)
  copy : ∀ i s, R i s → i ≤ xs.length → ∃ s', it.copy s = some s' ∧ R i s'

theorem vec_seq {α : Type} (l : List α) : Seq (vecIter l) (fun i s => s = i) l where
  deref := by rintro i s rfl _; rfl
  next := by rintro i s rfl h; exact ⟨_, by simp [vecIter, h], rfl⟩
  prev := by rintro i s rfl h; exact ⟨i, rfl, rfl⟩
  ne := by
    rintro i j s t rfl rfl _ _
    simp only [vecIter]
    by_cases h : s = t <;> simp [h]
  copy := by rintro i s rfl _; exact ⟨_, rfl, rfl⟩

theorem map_seq {σ α β : Type} (f : α → β) (it : Iter σ α) (R : Nat → σ → Prop) (xs : List α) (h : Seq it R xs) :
    Seq (mapIter f it) R (xs.map f) where
  deref := by
    intro i s hr hi
    simp only [List.length_map] at hi
    simp [mapIter, h.deref i s hr hi]
  next := by intro i s hr hi; exact h.next i s hr (by simpa using hi)
  prev := by intro i s hr hi; exact h.prev i s hr (by simpa using hi)
  ne := by intro i j s t hi hj h1 h2; exact h.ne i j s t hi hj (by simpa using h1) (by simpa using h2)
  copy := by intro i s hr hi; exact h.copy i s hr (by simpa using hi)

theorem rev_seq {σ α : Type} (it : Iter σ α) (R : Nat → σ → Prop) (xs : List α) (h : Seq it R xs) (hs : it.stash = false) :
    Seq (revIter it) (fun i s => i ≤ xs.length ∧ R (xs.length - i) s) xs.reverse where
  deref := by
    rintro i s ⟨_, hr⟩ hi
    simp only [List.length_reverse] at hi
    have hk : xs.length - i = (xs.length - 1 - i) + 1 := by omega
    rw [hk] at hr
    obtain ⟨s0, h0, hr⟩ := h.copy _ s hr (by omega)
    obtain ⟨s', h1, h2⟩ := h.prev _ s0 hr (by omega)
    simp only [revIter, hs, h0, h1, Option.bind_some]
    rw [List.getElem?_reverse hi]
    simpa using h.deref _ s' h2 (by omega)
  next := by
    rintro i s ⟨_, hr⟩ hi
    simp only [List.length_reverse] at hi
    have hk : xs.length - i = (xs.length - 1 - i) + 1 := by omega
    rw [hk] at hr
    obtain ⟨s', h1, h2⟩ := h.prev _ s hr (by omega)
    exact ⟨s', h1, by omega, by rw [show xs.length - (i + 1) = xs.length - 1 - i by omega]; exact h2⟩
  prev := by
    rintro i s ⟨_, hr⟩ hi
    simp only [List.length_reverse] at hi
    obtain ⟨s', h1, h2⟩ := h.next _ s hr (by omega)
    exact ⟨s', h1, by omega, by rw [show xs.length - i = xs.length - (i + 1) + 1 by omega]; exact h2⟩
  ne := by
    rintro i j s t ⟨_, hi⟩ ⟨_, hj⟩ h1 h2
    simp only [List.length_reverse] at h1 h2
    have := h.ne _ _ s t hi hj (by omega) (by omega)
    rw [show (revIter it).ne s t = it.ne s t from rfl, this]
    by_cases hij : i = j
    · simp [hij]
    · simp only [ne_eq, hij, not_false_eq_true, decide_true, decide_eq_true_eq]; omega
  copy := by
    rintro i s ⟨hi', hr⟩ _
    obtain ⟨s', h1, h2⟩ := h.copy _ s hr (by omega)
    exact ⟨s', h1, hi', h2⟩

theorem zip_seq {σ τ α β : Type} (a : Iter σ α) (b : Iter τ β) (R : Nat → σ → Prop) (Q : Nat → τ → Prop) (xs : List α) (ys : List β)
    (ha : Seq a R xs) (hb : Seq b Q ys) (hl : xs.length = ys.length) :
    Seq (zipIter a b) (fun i s => R i s.1 ∧ Q i s.2) (xs.zip ys) where
  deref := by
    rintro i s ⟨h1, h2⟩ hi
    simp only [List.length_zip] at hi
    have hx : i < xs.length := by omega
    have hy : i < ys.length := by omega
    rw [List.getElem?_eq_getElem (by simp; omega)]
    simp [zipIter, ha.deref i _ h1 hx, hb.deref i _ h2 hy, hx, hy]
  next := by
    rintro i s ⟨h1, h2⟩ hi
    simp only [List.length_zip] at hi
    obtain ⟨s1, e1, r1⟩ := ha.next i _ h1 (by omega)
    obtain ⟨s2, e2, r2⟩ := hb.next i _ h2 (by omega)
    exact ⟨(s1, s2), by simp [zipIter, e1, e2], r1, r2⟩
  prev := by
    rintro i s ⟨h1, h2⟩ hi
    simp only [List.length_zip] at hi
    obtain ⟨s1, e1, r1⟩ := ha.prev i _ h1 (by omega)
    obtain ⟨s2, e2, r2⟩ := hb.prev i _ h2 (by omega)
    exact ⟨(s1, s2), by simp [zipIter, e1, e2], r1, r2⟩
  ne := by
    rintro i j s t ⟨h1, h2⟩ ⟨h3, h4⟩ hi hj
    simp only [List.length_zip] at hi hj
    simp [zipIter, ha.ne i j _ _ h1 h3 (by omega) (by omega), hb.ne i j _ _ h2 h4 (by omega) (by omega)]
  copy := by
    rintro i s ⟨h1, h2⟩ hi
    simp only [List.length_zip] at hi
    obtain ⟨s1, e1, r1⟩ := ha.copy i _ h1 (by omega)
    obtain ⟨s2, e2, r2⟩ := hb.copy i _ h2 (by omega)
    exact ⟨(s1, s2), by simp [zipIter, e1, e2], r1, r2⟩

/-! ### Filter -/

/-- The index of the `k`-th match, or the length. -/
def kth {α : Type} (p : α → Bool) : List α → Nat → Nat
  | [], _ => 0
  | x :: xs, k =>
    if p x then
      match k with
      | 0 => 0
      | k + 1 => kth p xs k + 1
    else kth p xs k + 1

theorem kth_le {α : Type} (p : α → Bool) (xs : List α) (k : Nat) : kth p xs k ≤ xs.length := by
  induction xs generalizing k with
  | nil => simp [kth]
  | cons x xs ih =>
    simp only [kth, List.length_cons]
    split
    · cases k with
      | zero => simp
      | succ k => have := ih k; simp only; omega
    · have := ih k; omega

theorem kth_get {α : Type} (p : α → Bool) (xs : List α) (k : Nat) (h : k < (xs.filter p).length) :
    kth p xs k < xs.length ∧ xs[kth p xs k]? = (xs.filter p)[k]? := by
  induction xs generalizing k with
  | nil => simp at h
  | cons x xs ih =>
    by_cases hp : p x
    · simp only [List.filter_cons, hp, if_true] at h ⊢
      cases k with
      | zero => simp [kth, hp]
      | succ k =>
        obtain ⟨h1, h2⟩ := ih k (by simpa using h)
        simp only [kth, hp, if_true, List.length_cons, List.getElem?_cons_succ]
        exact ⟨by omega, h2⟩
    · simp only [List.filter_cons, hp] at h ⊢
      obtain ⟨h1, h2⟩ := ih k h
      simp only [kth, hp, List.length_cons]
      exact ⟨by simpa using h1, by simpa using h2⟩

theorem kth_end {α : Type} (p : α → Bool) (xs : List α) : kth p xs (xs.filter p).length = xs.length := by
  induction xs with
  | nil => rfl
  | cons x xs ih =>
    by_cases hp : p x
    · simp [kth, hp, ih]
    · simp [kth, hp, ih]

theorem kth_mono {α : Type} (p : α → Bool) (xs : List α) (k : Nat) (h : k < (xs.filter p).length) :
    kth p xs k < kth p xs (k + 1) := by
  induction xs generalizing k with
  | nil => simp at h
  | cons x xs ih =>
    by_cases hp : p x
    · simp only [List.filter_cons, hp, if_true] at h
      cases k with
      | zero => simp [kth, hp]
      | succ k =>
        have := ih k (by simpa using h)
        simp [kth, hp, this]
    · simp only [List.filter_cons, hp] at h
      have := ih k h
      simp [kth, hp, this]

theorem kth_lt {α : Type} (p : α → Bool) (xs : List α) (i j : Nat) (h : i < j) (hj : j ≤ (xs.filter p).length) :
    kth p xs i < kth p xs j := by
  induction j with
  | zero => omega
  | succ j ih =>
    have h1 := kth_mono p xs j (by omega)
    rcases Nat.lt_or_ge i j with h' | h'
    · have := ih h' (by omega); omega
    · rw [show i = j by omega]; exact h1

/-- Between two consecutive matches nothing matches. -/
theorem kth_gap {α : Type} (p : α → Bool) (xs : List α) (k i : Nat) (x : α) (h : k < (xs.filter p).length) (h1 : kth p xs k < i)
    (h2 : i < kth p xs (k + 1)) (hx : xs[i]? = some x) : p x = false := by
  induction xs generalizing k i with
  | nil => simp at h
  | cons y ys ih =>
    by_cases hp : p y
    · simp only [List.filter_cons, hp, if_true] at h
      cases k with
      | zero =>
        simp only [kth, hp, if_true] at h1 h2
        cases i with
        | zero => omega
        | succ i =>
          have hx' : ys[i]? = some x := by simpa using hx
          clear h h1 ih
          induction ys generalizing i with
          | nil => simp at hx'
          | cons z zs ihz =>
            simp only [kth] at h2
            by_cases hz : p z
            · simp [hz] at h2
            · cases i with
              | zero => simp at hx'; subst hx'; simpa using hz
              | succ i => exact ihz i (by simpa using hx') (by simp only [hz] at h2; simpa using h2) (by simpa using hx')
      | succ k =>
        simp only [kth, hp, if_true] at h1 h2
        cases i with
        | zero => omega
        | succ i => exact ih k i (by simpa using h) (by omega) (by omega) (by simpa using hx)
    · simp only [List.filter_cons, hp] at h
      simp only [kth, hp] at h1 h2
      cases i with
      | zero => simp at h1
      | succ i => exact ih k i h (by simpa using h1) (by simpa using h2) (by simpa using hx)

theorem kth_gap0 {α : Type} (p : α → Bool) (xs : List α) (i : Nat) (x : α) (h : i < kth p xs 0) (hx : xs[i]? = some x) : p x = false := by
  induction xs generalizing i with
  | nil => simp at hx
  | cons z zs ih =>
    simp only [kth] at h
    by_cases hz : p z
    · simp [hz] at h
    · cases i with
      | zero => simp at hx; subst hx; simpa using hz
      | succ i => exact ih i (by simp only [hz] at h; simpa using h) (by simpa using hx)

variable {σ α : Type} {it : Iter σ α} {R : Nat → σ → Prop} {xs : List α} {p : α → Bool} {e : σ}

/-- Skipping forward over non-matching elements up to the end or a match at `j`. -/
theorem skipFwd_to (h : Seq it R xs) (he : R xs.length e) (j : Nat) (hj : j ≤ xs.length)
    (hm : ∀ x, xs[j]? = some x → p x = true) :
    ∀ (d i n : Nat) (s : σ), j - i = d → i ≤ j → R i s → (∀ k x, i ≤ k → k < j → xs[k]? = some x → p x = false) → d < n →
      ∃ s', skipFwd it p e n s = some s' ∧ R j s' := by
  intro d
  induction d with
  | zero =>
    intro i n s hd hij hr _ hn
    obtain ⟨n, rfl⟩ : ∃ m, n = m + 1 := ⟨n - 1, by omega⟩
    have : i = j := by omega
    subst this
    simp only [skipFwd, h.ne i _ s e hr he hj (Nat.le_refl _)]
    by_cases hl : i = xs.length
    · simp only [hl, ne_eq, not_true_eq_false, decide_false]
      exact ⟨s, rfl, hl ▸ hr⟩
    · simp only [ne_eq, hl, not_false_eq_true, decide_true, if_true]
      have hlt : i < xs.length := by omega
      rw [h.deref i s hr hlt]
      have hx : xs[i]? = some xs[i] := List.getElem?_eq_getElem hlt
      rw [hx]
      simp only [hm _ hx, if_true]
      exact ⟨s, rfl, hr⟩
  | succ d ih =>
    intro i n s hd hij hr hg hn
    obtain ⟨n, rfl⟩ : ∃ m, n = m + 1 := ⟨n - 1, by omega⟩
    have hlt : i < xs.length := by omega
    have hx : xs[i]? = some xs[i] := List.getElem?_eq_getElem hlt
    obtain ⟨s', hs', hr'⟩ := h.next i s hr hlt
    obtain ⟨s'', h1, h2⟩ := ih (i + 1) n s' (by omega) (by omega) hr' (fun k x hk => hg k x (by omega)) (by omega)
    refine ⟨s'', ?_, h2⟩
    simp only [skipFwd, h.ne i _ s e hr he (by omega) (Nat.le_refl _), h.deref i s hr hlt, hx, hg i _ (Nat.le_refl _) (by omega) hx, hs']
    rw [if_pos (by simp; omega)]
    simpa using h1

theorem skipBwd_to (h : Seq it R xs) (j : Nat) (x : α) (hx : xs[j]? = some x) (hp : p x = true) :
    ∀ (d i n : Nat) (s : σ), i - j = d → j ≤ i → i < xs.length → R i s →
      (∀ k x, j < k → k ≤ i → xs[k]? = some x → p x = false) → d < n → ∃ s', skipBwd it p n s = some s' ∧ R j s' := by
  intro d
  induction d with
  | zero =>
    intro i n s hd hij hl hr _ hn
    obtain ⟨n, rfl⟩ : ∃ m, n = m + 1 := ⟨n - 1, by omega⟩
    have : i = j := by omega
    subst this
    simp only [skipBwd, h.deref i s hr hl, hx, hp, if_true]
    exact ⟨s, rfl, hr⟩
  | succ d ih =>
    intro i n s hd hij hl hr hg hn
    obtain ⟨n, rfl⟩ : ∃ m, n = m + 1 := ⟨n - 1, by omega⟩
    have hxi : xs[i]? = some xs[i] := List.getElem?_eq_getElem hl
    obtain ⟨i', rfl⟩ : ∃ m, i = m + 1 := ⟨i - 1, by omega⟩
    obtain ⟨s', hs', hr'⟩ := h.prev i' s hr (by omega)
    obtain ⟨s'', h1, h2⟩ := ih i' n s' (by omega) (by omega) (by omega) hr' (fun k x hk hk' => hg k x hk (by omega)) (by omega)
    refine ⟨s'', ?_, h2⟩
    simp only [skipBwd, h.deref _ s hr hl, hxi, hg _ _ (by omega) (Nat.le_refl _) hxi, hs']
    simpa using h1

theorem kth_match {α : Type} (p : α → Bool) (xs : List α) (k : Nat) (h : k ≤ (xs.filter p).length) (x : α)
    (hx : xs[kth p xs k]? = some x) : p x = true := by
  rcases Nat.lt_or_ge k (xs.filter p).length with h' | h'
  · have := (kth_get p xs k h').2
    rw [hx] at this
    have := List.mem_of_getElem? this.symm
    exact (List.mem_filter.1 this).2
  · rw [show k = (xs.filter p).length by omega, kth_end] at hx
    simp at hx

theorem filter_seq (h : Seq it R xs) (he : R xs.length e) (fuel : Nat) (hf : xs.length < fuel) :
    Seq (filterIter fuel it p e) (fun k s => R (kth p xs k) s) (xs.filter p) where
  deref := by
    intro k s hr hk
    obtain ⟨h1, h2⟩ := kth_get p xs k hk
    rw [← h2]
    exact h.deref _ s hr h1
  next := by
    intro k s hr hk
    obtain ⟨h1, -⟩ := kth_get p xs k hk
    obtain ⟨s1, e1, r1⟩ := h.next _ s hr h1
    obtain ⟨s2, e2, r2⟩ := skipFwd_to (p := p) h he (kth p xs (k + 1)) (kth_le _ _ _) (kth_match p xs (k + 1) hk) _ _ fuel s1 rfl
      (kth_mono p xs k hk) r1 (fun i x h3 h4 h5 => kth_gap p xs k i x hk h3 h4 h5) (by have := kth_le p xs (k+1); omega)
    exact ⟨s2, by simp [filterIter, e1, e2], r2⟩
  prev := by
    intro k s hr hk
    have hm := kth_mono p xs k hk
    have hle := kth_le p xs (k + 1)
    obtain ⟨j, hj⟩ : ∃ j, kth p xs (k + 1) = j + 1 := ⟨kth p xs (k + 1) - 1, by omega⟩
    have hr' : R (j + 1) s := hj ▸ hr
    obtain ⟨s1, e1, r1⟩ := h.prev j s hr' (by omega)
    obtain ⟨h1, h2⟩ := kth_get p xs k hk
    have hx : xs[kth p xs k]? = some xs[kth p xs k] := List.getElem?_eq_getElem h1
    obtain ⟨s2, e2, r2⟩ := skipBwd_to (p := p) h _ _ hx (kth_match p xs k (by omega) _ hx) _ j fuel s1 rfl (by omega) (by omega) r1
      (fun i x h3 h4 h5 => kth_gap p xs k i x hk h3 (by omega) h5) (by omega)
    exact ⟨s2, by simp [filterIter, e1, e2], r2⟩
  ne := by
    intro i j s t hi hj h1 h2
    rw [show (filterIter fuel it p e).ne s t = it.ne s t from rfl, h.ne _ _ s t hi hj (kth_le _ _ _) (kth_le _ _ _)]
    rcases Nat.lt_trichotomy i j with hij | hij | hij
    · have := kth_lt p xs i j hij h2
      rw [decide_eq_true (by omega), decide_eq_true (by omega)]
    · subst hij; simp
    · have := kth_lt p xs j i hij h1
      rw [decide_eq_true (by omega), decide_eq_true (by omega)]
  copy := by
    intro k s hr hk
    obtain ⟨s1, e1, r1⟩ := h.copy _ s hr (kth_le _ _ _)
    obtain ⟨s2, e2, -⟩ := h.copy _ e he (Nat.le_refl _)
    exact ⟨s1, by simp [filterIter, e1, e2], r1⟩

theorem filter_begin (h : Seq it R xs) (he : R xs.length e) (fuel : Nat) (hf : xs.length < fuel) (b : σ) (hb : R 0 b) :
    ∃ s, filterMk fuel it p e b = some s ∧ R (kth p xs 0) s := by
  obtain ⟨b', h1, hb'⟩ := h.copy _ b hb (Nat.zero_le _)
  obtain ⟨e', h2, -⟩ := h.copy _ e he (Nat.le_refl _)
  simp only [filterMk, h1, h2, Option.bind_some]
  refine skipFwd_to h he _ (kth_le _ _ _) (kth_match p xs 0 (Nat.zero_le _)) _ 0 fuel b' rfl (Nat.zero_le _) hb'
    (fun i x _ h3 h4 => kth_gap0 p xs i x h3 h4) (by have := kth_le p xs 0; omega)

theorem filter_end (h : Seq it R xs) (he : R xs.length e) (fuel : Nat) (hf : xs.length < fuel) :
    ∃ s, filterMk fuel it p e e = some s ∧ R (kth p xs (xs.filter p).length) s := by
  rw [kth_end]
  obtain ⟨e', h2, he'⟩ := h.copy _ e he (Nat.le_refl _)
  simp only [filterMk, h2, Option.bind_some]
  exact skipFwd_to h he xs.length (Nat.le_refl _) (by simp) _ xs.length fuel e' rfl (Nat.le_refl _) he' (by omega) (by omega)

/-! Caching policy -/

@[simp] theorem save_plain {α : Type} (c : Option α) (x : α) : Cache.plain.save c x = some (some x) := by cases c <;> rfl
theorem save_ok {α : Type} {k : Cache} (hk : k ≠ .small) (c : Option α) (x : α) : k.save c x = some (some x) := by
  cases k <;> cases c <;> first | rfl | exact absurd rfl hk
@[simp] theorem copy_plain {α : Type} (c : Option α) : Cache.plain.copy c = some c := by cases c <;> rfl
@[simp] theorem move_plain {α : Type} (c : Option α) : Cache.plain.move c = some c := by cases c <;> rfl

theorem skipFwdC_eq {k : Cache} (hk : k ≠ .small) (h : Seq it R xs) (he : R xs.length e) (j : Nat) (hj : j ≤ xs.length)
    (hm : ∀ x, xs[j]? = some x → p x = true) :
    ∀ (d i n : Nat) (s : σ) (c : Option α), j - i = d → i ≤ j → R i s → (∀ q x, i ≤ q → q < j → xs[q]? = some x → p x = false) → d < n →
      ∃ s' c', skipFwdC k it p e n (s, c) = some (s', c') ∧ R j s' ∧ (j < xs.length → c' = xs[j]?) := by
  intro d
  induction d with
  | zero =>
    intro i n s c hd hij hr _ hn
    obtain ⟨n, rfl⟩ : ∃ m, n = m + 1 := ⟨n - 1, by omega⟩
    have : i = j := by omega
    subst this
    simp only [skipFwdC, h.ne i _ s e hr he hj (Nat.le_refl _)]
    by_cases hl : i = xs.length
    · simp only [hl, ne_eq, not_true_eq_false, decide_false]
      exact ⟨s, c, rfl, hl ▸ hr, by omega⟩
    · simp only [ne_eq, hl, not_false_eq_true, decide_true, if_true]
      have hlt : i < xs.length := by omega
      rw [h.deref i s hr hlt]
      have hx : xs[i]? = some xs[i] := List.getElem?_eq_getElem hlt
      rw [hx]
      simp only [Option.bind_some, save_ok hk, hm _ hx, if_true]
      exact ⟨s, _, rfl, hr, fun _ => rfl⟩
  | succ d ih =>
    intro i n s c hd hij hr hg hn
    obtain ⟨n, rfl⟩ : ∃ m, n = m + 1 := ⟨n - 1, by omega⟩
    have hlt : i < xs.length := by omega
    have hx : xs[i]? = some xs[i] := List.getElem?_eq_getElem hlt
    obtain ⟨s', hs', hr'⟩ := h.next i s hr hlt
    obtain ⟨s'', c', h1, h2⟩ := ih (i + 1) n s' (some xs[i]) (by omega) (by omega) hr' (fun q x hq => hg q x (by omega)) (by omega)
    refine ⟨s'', c', ?_, h2⟩
    simp only [skipFwdC, h.ne i _ s e hr he (by omega) (Nat.le_refl _), h.deref i s hr hlt, hx, Option.bind_some, save_ok hk,
      hg i _ (Nat.le_refl _) (by omega) hx, hs']
    rw [if_pos (by simp; omega)]
    simpa using h1

theorem skipBwdC_eq (n : Nat) (s : σ) (c : Option α) :
    ∀ s', skipBwd it p n s = some s' → ∃ x, it.deref s' = some x ∧ skipBwdC .plain it p n (s, c) = some (s', some x) := by
  induction n generalizing s c with
  | zero => simp [skipBwd]
  | succ n ih =>
    intro s' hs
    simp only [skipBwd] at hs
    simp only [skipBwdC]
    cases hd : it.deref s with
    | none => simp [hd] at hs
    | some x =>
      simp only [hd, Option.bind_some, save_plain] at hs ⊢
      by_cases hp : p x
      · simp only [hp, if_true, Option.some.injEq] at hs ⊢
        subst hs
        exact ⟨x, hd, rfl⟩
      · simp only [hp] at hs ⊢
        cases hpv : it.prev s with
        | none => simp [hpv] at hs
        | some t =>
          simp only [hpv] at hs ⊢
          exact ih t _ s' (by simpa using hs)

/-- States of a caching filter iterator at the `k`-th match. -/
def RC (R : Nat → σ → Prop) (p : α → Bool) (xs : List α) (k : Nat) (s : σ × Option α) : Prop :=
  R (kth p xs k) s.1 ∧ (k < (xs.filter p).length → s.2 = (xs.filter p)[k]?)

theorem filterC_seq (h : Seq it R xs) (he : R xs.length e) (fuel : Nat) (hf : xs.length < fuel) :
    Seq (filterIterC .plain fuel it p e) (RC R p xs) (xs.filter p) where
  deref := by
    intro k s hr hk
    exact hr.2 hk
  next := by
    rintro k ⟨s, c⟩ hr hk
    obtain ⟨h1, -⟩ := kth_get p xs k hk
    obtain ⟨s1, e1, r1⟩ := h.next _ s hr.1 h1
    obtain ⟨s2, c2, e2, r2, hc⟩ := skipFwdC_eq (p := p) (k := .plain) (by decide) h he (kth p xs (k + 1)) (kth_le _ _ _) (kth_match p xs (k + 1) hk) _ _ fuel s1 c rfl
      (kth_mono p xs k hk) r1 (fun i x h3 h4 h5 => kth_gap p xs k i x hk h3 h4 h5) (by have := kth_le p xs (k+1); omega)
    refine ⟨(s2, c2), by simp [filterIterC, e1, e2], r2, fun hk' => ?_⟩
    obtain ⟨h3, h4⟩ := kth_get p xs (k + 1) hk'
    rw [← h4]
    exact hc h3
  prev := by
    rintro k ⟨s, c⟩ hr hk
    obtain ⟨s', h1, h2⟩ := (filter_seq (p := p) h he fuel hf).prev k s hr.1 hk
    simp only [filterIter] at h1
    cases hp : it.prev s with
    | none => simp [hp] at h1
    | some t =>
      simp only [hp, Option.bind_some] at h1
      obtain ⟨x, hx, h3⟩ := skipBwdC_eq fuel t c s' h1
      refine ⟨(s', some x), by simp [filterIterC, hp, h3], h2, fun _ => ?_⟩
      have := (filter_seq (p := p) h he fuel hf).deref k s' h2 hk
      rw [← this]
      exact hx.symm
  ne := by
    intro i j s t hi hj h1 h2
    exact (filter_seq (p := p) h he fuel hf).ne i j s.1 t.1 hi.1 hj.1 h1 h2
  copy := by
    rintro k ⟨s, c⟩ hr hk
    obtain ⟨s1, e1, r1⟩ := h.copy _ s hr.1 (kth_le _ _ _)
    obtain ⟨s2, e2, -⟩ := h.copy _ e he (Nat.le_refl _)
    exact ⟨(s1, c), by simp [filterIterC, e1, e2], r1, hr.2⟩

theorem filterC_begin (h : Seq it R xs) (he : R xs.length e) (fuel : Nat) (hf : xs.length < fuel) (b : σ) (hb : R 0 b) :
    ∃ s, filterMkC .plain fuel it p e b = some s ∧ RC R p xs 0 s := by
  obtain ⟨b', g1, hb'⟩ := h.copy _ b hb (Nat.zero_le _)
  obtain ⟨e', g2, -⟩ := h.copy _ e he (Nat.le_refl _)
  obtain ⟨s, c, h1, h2, h3⟩ := skipFwdC_eq (p := p) (k := .plain) (by decide) h he _ (kth_le p xs 0) (kth_match p xs 0 (Nat.zero_le _)) _ 0 fuel b' none rfl (Nat.zero_le _) hb'
    (fun i x _ h3 h4 => kth_gap0 p xs i x h3 h4) (by have := kth_le p xs 0; omega)
  refine ⟨(s, c), by simp only [filterMkC, g1, g2, Option.bind_some]; exact h1, h2, fun hk => ?_⟩
  obtain ⟨h4, h5⟩ := kth_get p xs 0 hk
  rw [← h5]
  exact h3 h4

theorem filterC_end (h : Seq it R xs) (he : R xs.length e) (fuel : Nat) (hf : xs.length < fuel) :
    ∃ s, filterMkC .plain fuel it p e e = some s ∧ RC R p xs (xs.filter p).length s := by
  obtain ⟨e', g2, he'⟩ := h.copy _ e he (Nat.le_refl _)
  obtain ⟨s, c, h1, h2, -⟩ := skipFwdC_eq (p := p) (k := .plain) (by decide) h he xs.length (Nat.le_refl _) (by simp) _ xs.length fuel e' none rfl (Nat.le_refl _) he'
    (by omega) (by omega)
  exact ⟨(s, c), by simp only [filterMkC, g2, Option.bind_some]; exact h1, by rw [kth_end]; exact h2, fun hk => by omega⟩

/-! ### Loops -/

theorem accumulate_from {γ : Type} (h : Seq it R xs) (he : R xs.length e) (f : γ → α → γ) :
    ∀ (d i n : Nat) (s : σ) (acc : γ), xs.length - i = d → i ≤ xs.length → R i s → d < n →
      accumulate it f e n s acc = some ((xs.drop i).foldl f acc) := by
  intro d
  induction d with
  | zero =>
    intro i n s acc hd hi hr hn
    obtain ⟨n, rfl⟩ : ∃ m, n = m + 1 := ⟨n - 1, by omega⟩
    have : i = xs.length := by omega
    subst this
    simp [accumulate, h.ne _ _ s e hr he (Nat.le_refl _) (Nat.le_refl _)]
  | succ d ih =>
    intro i n s acc hd hi hr hn
    obtain ⟨n, rfl⟩ : ∃ m, n = m + 1 := ⟨n - 1, by omega⟩
    have hlt : i < xs.length := by omega
    obtain ⟨s', hs', hr'⟩ := h.next i s hr hlt
    have hx : xs[i]? = some xs[i] := List.getElem?_eq_getElem hlt
    simp only [accumulate, h.ne _ _ s e hr he hi (Nat.le_refl _), h.deref i s hr hlt, hx, hs', Option.bind_some]
    rw [if_pos (by simp; omega), ih (i + 1) n s' _ (by omega) (by omega) hr' (by omega), List.drop_eq_getElem_cons hlt]
    rfl

theorem foldl_append (ys acc : List α) : ys.foldl (fun acc x => acc ++ [x]) acc = acc ++ ys := by
  induction ys generalizing acc with
  | nil => simp
  | cons y ys ih => simp [ih]

/-- A loop over a well-behaved range visits exactly its values. -/
theorem toList_seq (h : Seq it R xs) (b : σ) (hb : R 0 b) (he : R xs.length e) (fuel : Nat) (hf : xs.length < fuel) :
    toList it fuel b e = some xs := by
  obtain ⟨b', h1, hb'⟩ := h.copy _ b hb (Nat.zero_le _)
  obtain ⟨e', h2, he'⟩ := h.copy _ e he (Nat.le_refl _)
  simp only [toList, copies, h1, h2, Option.bind_some]
  rw [accumulate_from h he' _ _ 0 fuel b' [] rfl (Nat.zero_le _) hb' hf, foldl_append]
  rfl

theorem distance_from (h : Seq it R xs) (he : R xs.length e) : ∀ (d i n : Nat) (s : σ), xs.length - i = d → i ≤ xs.length → R i s → d < n →
      distance it e n s = some d := by
  intro d
  induction d with
  | zero =>
    intro i n s hd hi hr hn
    obtain ⟨n, rfl⟩ : ∃ m, n = m + 1 := ⟨n - 1, by omega⟩
    have : i = xs.length := by omega
    subst this
    simp [distance, h.ne _ _ s e hr he (Nat.le_refl _) (Nat.le_refl _)]
  | succ d ih =>
    intro i n s hd hi hr hn
    obtain ⟨n, rfl⟩ : ∃ m, n = m + 1 := ⟨n - 1, by omega⟩
    obtain ⟨s', hs', hr'⟩ := h.next i s hr (by omega)
    simp only [distance, h.ne _ _ s e hr he hi (Nat.le_refl _), hs', Option.bind_some]
    rw [if_pos (by simp; omega), ih (i + 1) n s' (by omega) (by omega) hr' (by omega)]
    rfl

end Verif.Ranges
