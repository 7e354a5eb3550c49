import Verif.Model.TypeMatch
/-!
# C91: `match` calls the case that fits the type of the argument best

Specification: cases are numbered in the order they are given; the type of case `i` is `cases[i]`. `rank a t` is how well an argument of type `a` converts to `t` (smaller is better, `none`: not at all).
-/
set_option autoImplicit false

namespace Verif.TypeMatch

/-! ## Specification -/

/-- No later case has the same type as case `i`. -/
def Last (cases : List Nat) (i t : Nat) : Prop := cases[i]? = some t ∧ ∀ j : Nat, i < j → cases[j]? ≠ some t

/-- Case `i` accepts the argument, and every case of another type accepts it less well or not at all. -/
def Fits (rank : Nat → Nat → Option Nat) (cases : List Nat) (a i : Nat) : Prop :=
  ∃ t n : Nat, cases[i]? = some t ∧ rank a t = some n ∧ ∀ (j u m : Nat), cases[j]? = some u → u ≠ t → rank a u = some m → n < m

/-- The full statement: the call compiles exactly if there is one case that fits best, and that case is called, wherever it is given. False of the code (`C91_same_type_violated`). -/
def BestCase (rank : Nat → Nat → Option Nat) (cases : List Nat) (a : Nat) : Prop :=
  ∀ i : Nat, call rank cases a = some i ↔ Fits rank cases a i ∧ ∀ j : Nat, Fits rank cases a j → j = i

/-! ## Proofs -/

theorem mem_visible (ts : List Nat) (k : Nat) (p : Nat × Nat) : p ∈ visible ts k ↔ ∃ i : Nat, p.2 = k + i ∧ Last ts i p.1 := by
  induction ts generalizing k with
  | nil => simp [visible, Last]
  | cons t ts ih =>
    simp only [visible, List.mem_append, ih]
    constructor
    · rintro (⟨i, h1, h2, h3⟩ | h)
      · refine ⟨i + 1, by omega, by simpa using h2, ?_⟩
        intro j hj
        cases j with
        | zero => omega
        | succ j => simpa using h3 j (by omega)
      · split at h
        · cases h
        · rename_i hn
          simp only [List.mem_singleton] at h
          subst h
          refine ⟨0, rfl, rfl, ?_⟩
          intro j hj
          cases j with
          | zero => omega
          | succ j =>
            intro hc
            apply hn
            simp only [List.getElem?_cons_succ] at hc
            simpa using List.mem_of_getElem? hc
    · rintro ⟨i, h1, h2, h3⟩
      cases i with
      | zero =>
        right
        simp only [List.getElem?_cons_zero, Option.some.injEq] at h2
        have : ts.contains t = false := by
          rw [Bool.eq_false_iff]
          intro hc
          have hc : t ∈ ts := by simpa using hc
          obtain ⟨j, hj⟩ := List.getElem?_of_mem hc
          exact h3 (j + 1) (by omega) (by simpa [h2] using hj)
        rw [this]
        simp only [Bool.false_eq_true, if_false, List.mem_singleton]
        obtain ⟨p1, p2⟩ := p
        simp only at h1 h2
        simp [h1, h2]
      | succ i =>
        left
        refine ⟨i, by omega, by simpa using h2, ?_⟩
        intro j hj
        simpa using h3 (j + 1) (by omega)

theorem last_exists (ts : List Nat) (i t : Nat) (h : ts[i]? = some t) : ∃ j : Nat, i ≤ j ∧ Last ts j t := by
  induction ts generalizing i with
  | nil => simp at h
  | cons u us ih =>
    by_cases hm : t ∈ us
    · obtain ⟨k, hk⟩ := List.getElem?_of_mem hm
      have hk2 : ∃ k' : Nat, us[k']? = some t ∧ i ≤ k' + 1 := by
        cases i with
        | zero => exact ⟨k, hk, by omega⟩
        | succ i => exact ⟨i, by simpa using h, by omega⟩
      obtain ⟨k', hk', hle⟩ := hk2
      obtain ⟨j, hj, hl, hl2⟩ := ih k' hk'
      refine ⟨j + 1, by omega, by simpa using hl, ?_⟩
      intro l hlt
      cases l with
      | zero => omega
      | succ l => simpa using hl2 l (by omega)
    · cases i with
      | succ i => exact absurd (List.mem_of_getElem? (by simpa using h)) hm
      | zero =>
        refine ⟨0, Nat.le_refl _, h, ?_⟩
        intro l hl hc
        cases l with
        | zero => omega
        | succ l => exact hm (List.mem_of_getElem? (by simpa using hc))

/-- the visible members have different types -/
theorem visible_distinct (ts : List Nat) (k : Nat) : (visible ts k).Pairwise (fun p q => p.1 ≠ q.1) := by
  induction ts generalizing k with
  | nil => exact List.Pairwise.nil
  | cons t ts ih =>
    simp only [visible]
    rw [List.pairwise_append]
    refine ⟨ih (k + 1), ?_, ?_⟩
    · split <;> simp
    · intro p hp q hq
      split at hq
      · cases hq
      · rename_i hn
        simp only [List.mem_singleton] at hq
        subst hq
        obtain ⟨i, _, hi, _⟩ := (mem_visible ts (k + 1) p).mp hp
        intro hc
        apply hn
        have hc : p.1 = t := hc
        simpa [← hc] using List.mem_of_getElem? hi

/-- what `best` finds -/
theorem best_spec (rank : Nat → Option Nat) (fs : List (Nat × Nat)) :
    match best rank fs with
    | none => ∀ p ∈ fs, rank p.1 = none
    | some (n, k, tie) => (∃ t : Nat, (t, k) ∈ fs ∧ rank t = some n) ∧ (∀ p ∈ fs, ∀ m : Nat, rank p.1 = some m → n ≤ m) ∧
        (tie = false → ∃ l r t, fs = l ++ (t, k) :: r ∧ rank t = some n ∧ ∀ p ∈ l ++ r, ∀ m : Nat, rank p.1 = some m → n < m) ∧
        (tie = true → ∃ l mid r p q, fs = l ++ p :: (mid ++ q :: r) ∧ rank p.1 = some n ∧ rank q.1 = some n) := by
  induction fs with
  | nil => simp [best]
  | cons f fs ih =>
    obtain ⟨t, k⟩ := f
    simp only [best]
    cases hr : rank t with
    | none =>
      dsimp only
      cases hb : best rank fs with
      | none =>
        rw [hb] at ih
        dsimp only at ih ⊢
        intro p hp
        rcases List.mem_cons.mp hp with rfl | hp
        · exact hr
        · exact ih p hp
      | some b =>
        obtain ⟨n, j, tie⟩ := b
        rw [hb] at ih
        dsimp only at ih ⊢
        obtain ⟨⟨u, hu, hu2⟩, h2, h3, h4⟩ := ih
        refine ⟨⟨u, List.mem_cons_of_mem _ hu, hu2⟩, ?_, ?_, ?_⟩
        · intro p hp m hm
          rcases List.mem_cons.mp hp with rfl | hp
          · rw [hr] at hm; cases hm
          · exact h2 p hp m hm
        · intro ht
          obtain ⟨l, r, v, e1, e2, e3⟩ := h3 ht
          refine ⟨(t, k) :: l, r, v, by rw [e1]; rfl, e2, ?_⟩
          intro p hp m hm
          rcases List.mem_cons.mp hp with rfl | hp
          · rw [hr] at hm; cases hm
          · exact e3 p hp m hm
        · intro ht
          obtain ⟨l, mid, r, p, q, e1, e2, e3⟩ := h4 ht
          exact ⟨(t, k) :: l, mid, r, p, q, by rw [e1]; rfl, e2, e3⟩
    | some n =>
      cases hb : best rank fs with
      | none =>
        rw [hb] at ih
        dsimp only at ih ⊢
        refine ⟨⟨t, by simp, hr⟩, ?_, ?_, by simp⟩
        · intro p hp m hm
          rcases List.mem_cons.mp hp with rfl | hp
          · rw [hr] at hm; cases hm; exact Nat.le_refl _
          · rw [ih p hp] at hm; cases hm
        · intro _
          refine ⟨[], fs, t, rfl, hr, ?_⟩
          intro p hp m hm
          rw [ih p hp] at hm; cases hm
      | some b =>
        obtain ⟨m, j, tie⟩ := b
        rw [hb] at ih
        dsimp only at ih ⊢
        obtain ⟨⟨u, hu, hu2⟩, h2, h3, h4⟩ := ih
        by_cases h : n < m
        · rw [if_pos h]
          dsimp only
          refine ⟨⟨t, by simp, hr⟩, ?_, ?_, by simp⟩
          · intro p hp l hl
            rcases List.mem_cons.mp hp with rfl | hp
            · rw [hr] at hl; cases hl; exact Nat.le_refl _
            · have := h2 p hp l hl; omega
          · intro _
            refine ⟨[], fs, t, rfl, hr, ?_⟩
            intro p hp l hl
            have := h2 p hp l hl
            omega
        · rw [if_neg h]
          by_cases h' : m < n
          · rw [if_pos h']
            dsimp only
            refine ⟨⟨u, List.mem_cons_of_mem _ hu, hu2⟩, ?_, ?_, ?_⟩
            · intro p hp l hl
              rcases List.mem_cons.mp hp with rfl | hp
              · rw [hr] at hl; cases hl; omega
              · exact h2 p hp l hl
            · intro ht
              obtain ⟨l, r, v, e1, e2, e3⟩ := h3 ht
              refine ⟨(t, k) :: l, r, v, by rw [e1]; rfl, e2, ?_⟩
              intro p hp x hx
              rcases List.mem_cons.mp hp with rfl | hp
              · rw [hr] at hx; cases hx; exact h'
              · exact e3 p hp x hx
            · intro ht
              obtain ⟨l, mid, r, p, q, e1, e2, e3⟩ := h4 ht
              exact ⟨(t, k) :: l, mid, r, p, q, by rw [e1]; rfl, e2, e3⟩
          · rw [if_neg h']
            have : m = n := by omega
            subst this
            dsimp only
            refine ⟨⟨t, by simp, hr⟩, ?_, by simp, ?_⟩
            · intro p hp l hl
              rcases List.mem_cons.mp hp with rfl | hp
              · rw [hr] at hl; cases hl; exact Nat.le_refl _
              · exact h2 p hp l hl
            · intro _
              obtain ⟨l, r, e⟩ := List.append_of_mem hu
              exact ⟨[], l, r, (t, k), (u, j), by rw [e]; rfl, hr, hu2⟩

/-- C91. The case that is called fits the argument best, and it is the last one of its type. Conversely, the last case of a type that fits best is called. -/
theorem C91_best_partial (rank : Nat → Nat → Option Nat) (cases : List Nat) (a i : Nat) :
    call rank cases a = some i ↔ Fits rank cases a i ∧ ∀ j : Nat, i < j → cases[j]? ≠ cases[i]? := by
  have hs := best_spec (rank a) (visible cases 0)
  have hd := visible_distinct cases 0
  unfold call
  constructor
  · intro h
    split at h
    · rename_i n k hb
      cases h
      rw [hb] at hs
      dsimp only at hs
      obtain ⟨_, _, h3, _⟩ := hs
      obtain ⟨l, r, t, e1, e2, e3⟩ := h3 rfl
      have hm : (t, i) ∈ visible cases 0 := by rw [e1]; simp
      obtain ⟨i', hi', hl⟩ := (mem_visible cases 0 (t, i)).mp hm
      have : i' = i := by simp only at hi'; omega
      subst this
      refine ⟨⟨t, n, hl.1, e2, ?_⟩, ?_⟩
      · intro j u m hj hu hr
        obtain ⟨j', _, hj'⟩ := last_exists cases j u hj
        have hv : (u, j') ∈ visible cases 0 := (mem_visible cases 0 (u, j')).mpr ⟨j', by simp, hj'⟩
        rw [e1] at hv
        refine e3 (u, j') ?_ m hr
        simp only [List.mem_append, List.mem_cons, Prod.mk.injEq] at hv ⊢
        rcases hv with hv | ⟨hv, _⟩ | hv
        · exact Or.inl hv
        · exact absurd hv hu
        · exact Or.inr hv
      · intro j hj
        rw [hl.1]
        exact hl.2 j hj
    · cases h
  · rintro ⟨⟨t, n, h1, h2, h3⟩, h4⟩
    have hl : Last cases i t := ⟨h1, fun j hj => by rw [← h1]; exact h4 j hj⟩
    have hv : (t, i) ∈ visible cases 0 := (mem_visible cases 0 (t, i)).mpr ⟨i, by simp, hl⟩
    have hother : ∀ p ∈ visible cases 0, p.1 ≠ t → ∀ m : Nat, rank a p.1 = some m → n < m := by
      intro p hp hne m hm
      obtain ⟨j, _, hj⟩ := (mem_visible cases 0 p).mp hp
      exact h3 j p.1 m hj.1 hne hm
    cases hb : best (rank a) (visible cases 0) with
    | none =>
      rw [hb] at hs
      have := hs (t, i) hv
      simp only at this
      rw [h2] at this
      cases this
    | some b =>
      obtain ⟨m, k, tie⟩ := b
      rw [hb] at hs
      dsimp only at hs
      obtain ⟨⟨u, hu, hu2⟩, hmin, h3', h4'⟩ := hs
      have hmn := hmin (t, i) hv n h2
      have hut : u = t := by
        apply Decidable.byContradiction
        intro hne
        have := hother (u, k) hu hne m hu2
        omega
      subst hut
      have hki : k = i := by
        obtain ⟨x, hx, hx2⟩ := (mem_visible cases 0 (u, k)).mp hu
        simp only at hx hx2
        have : x = k := by omega
        subst this
        rcases Nat.lt_trichotomy x i with hlt | heq | hgt
        · exact absurd h1 (hx2.2 i hlt)
        · exact heq
        · exact absurd hx2.1 (hl.2 x hgt)
      subst hki
      have hmn2 : m = n := by
        rw [h2] at hu2
        cases hu2
        rfl
      subst hmn2
      cases tie with
      | false => rfl
      | true =>
        exfalso
        obtain ⟨l, mid, r, p, q, e1, e2, e3⟩ := h4' rfl
        have hp : p ∈ visible cases 0 := by rw [e1]; simp
        have hq : q ∈ visible cases 0 := by rw [e1]; simp
        have hpt : p.1 = u := by
          apply Decidable.byContradiction
          intro hne
          have := hother p hp hne m e2
          omega
        have hqt : q.1 = u := by
          apply Decidable.byContradiction
          intro hne
          have := hother q hq hne m e3
          omega
        rw [e1] at hd
        rw [List.pairwise_append] at hd
        have hd2 := hd.2.1
        rw [List.pairwise_cons] at hd2
        exact hd2.1 q (by simp) (by rw [hpt, hqt])

/-- a number type and its conversions: types 0, 1, 2 are `char`, `int`, `double` -/
def numRank (a t : Nat) : Option Nat := if a = t then some 0 else if a = 0 ∧ t = 1 then some 1 else if a < 3 ∧ t < 3 then some 2 else none

/-- a promotion is better than a conversion, an equal type is better than both -/
example : call numRank [2, 1] 0 = some 1 ∧ call numRank [1, 0, 2] 2 = some 2 ∧ call numRank [1, 0] 2 = none ∧ call numRank [1, 0] 3 = none ∧ call numRank [] 0 = none := by decide

/-- C91. If a case has the type of the argument and nothing else converts as well, the last such case is called. -/
theorem C91_exact (rank : Nat → Nat → Option Nat) (cases : List Nat) (a : Nat) (h0 : rank a a = some 0) (h1 : ∀ t : Nat, t ≠ a → rank a t ≠ some 0) (ha : a ∈ cases) :
    ∃ i : Nat, call rank cases a = some i ∧ cases[i]? = some a ∧ ∀ j : Nat, i < j → cases[j]? ≠ some a := by
  obtain ⟨k, hk⟩ := List.getElem?_of_mem ha
  obtain ⟨i, _, hi⟩ := last_exists cases k a hk
  refine ⟨i, (C91_best_partial rank cases a i).mpr ⟨⟨a, 0, hi.1, h0, ?_⟩, ?_⟩, hi.1, hi.2⟩
  · intro j u m _ hu hm
    have := h1 u hu
    rw [hm] at this
    have : m ≠ 0 := fun hc => this (by rw [hc])
    omega
  · intro j hj
    rw [hi.1]
    exact hi.2 j hj

example : numRank 1 1 = some 0 ∧ (∀ t : Nat, t ≠ 1 → numRank 1 t ≠ some 0) ∧ 1 ∈ [0, 1, 2, 1] ∧ call numRank [0, 1, 2, 1] 1 = some 3 := by
  refine ⟨by decide, ?_, by decide, by decide⟩
  intro t ht
  unfold numRank
  rw [if_neg (fun h => ht h.symm), if_neg (by omega)]
  split <;> simp

/-- C91. A call compiles exactly if one type among the cases is better than all the others. -/
theorem C91_refused (rank : Nat → Nat → Option Nat) (cases : List Nat) (a : Nat) : call rank cases a = none ↔ ¬ ∃ i : Nat, Fits rank cases a i := by
  constructor
  · rintro h ⟨i, t, n, h1, h2, h3⟩
    obtain ⟨j, _, hj⟩ := last_exists cases i t h1
    have := (C91_best_partial rank cases a j).mpr ⟨⟨t, n, hj.1, h2, h3⟩, fun l hl => by rw [hj.1]; exact hj.2 l hl⟩
    rw [h] at this
    cases this
  · intro h
    cases hc : call rank cases a with
    | none => rfl
    | some i => exact absurd ⟨i, ((C91_best_partial rank cases a i).mp hc).1⟩ h

example : ¬ ∃ i : Nat, Fits numRank [1, 0] 2 i := (C91_refused numRank [1, 0] 2).mp (by decide)
example : Fits numRank [2, 1] 0 1 := ((C91_best_partial numRank [2, 1] 0 1).mp (by decide)).1

/-- C91. With cases of different types the property holds. -/
theorem C91_distinct (rank : Nat → Nat → Option Nat) (cases : List Nat) (a : Nat) (hn : cases.Nodup) : BestCase rank cases a := by
  have key : ∀ i j : Nat, Fits rank cases a i → Fits rank cases a j → j = i := by
    rintro i j ⟨t, n, h1, h2, h3⟩ ⟨u, m, g1, g2, g3⟩
    by_cases htu : u = t
    · subst htu
      obtain ⟨hj, ej⟩ := List.getElem?_eq_some_iff.mp g1
      obtain ⟨hi, ei⟩ := List.getElem?_eq_some_iff.mp h1
      exact (List.getElem_inj hn).mp (ej.trans ei.symm)
    · have e1 := h3 j u m g1 htu g2
      have e2 := g3 i t n h1 (fun hc => htu hc.symm) h2
      omega
  intro i
  rw [C91_best_partial]
  constructor
  · rintro ⟨h1, _⟩
    exact ⟨h1, fun j hj => key i j h1 hj⟩
  · rintro ⟨h1, _⟩
    refine ⟨h1, ?_⟩
    obtain ⟨t, n, g1, _, _⟩ := h1
    intro j hj hc
    rw [g1] at hc
    obtain ⟨hj', ej⟩ := List.getElem?_eq_some_iff.mp hc
    obtain ⟨hi', ei⟩ := List.getElem?_eq_some_iff.mp g1
    have := (List.getElem_inj hn).mp (ej.trans ei.symm)
    omega

/-- C91. With cases of different types the order of the cases does not matter: the case of the same type is called. -/
theorem C91_order (rank : Nat → Nat → Option Nat) (cases cases' : List Nat) (a : Nat) (hp : cases.Perm cases') (hn : cases.Nodup) :
    (call rank cases a).bind (fun i => cases[i]?) = (call rank cases' a).bind (fun i => cases'[i]?) := by
  have hn' : cases'.Nodup := hp.nodup_iff.mp hn
  have one : ∀ (c d : List Nat), c.Perm d → d.Nodup → ∀ i : Nat, call rank c a = some i → ∃ j : Nat, call rank d a = some j ∧ d[j]? = c[i]? := by
    intro c d hcd hd i h
    obtain ⟨⟨t, n, h1, h2, h3⟩, _⟩ := (C91_best_partial rank c a i).mp h
    obtain ⟨j, hj⟩ := List.getElem?_of_mem (hcd.mem_iff.mp (List.mem_of_getElem? h1))
    refine ⟨j, ?_, by rw [hj, h1]⟩
    refine (C91_best_partial rank d a j).mpr ⟨⟨t, n, hj, h2, ?_⟩, ?_⟩
    · intro l u m hl hu hm
      obtain ⟨l', hl'⟩ := List.getElem?_of_mem (hcd.mem_iff.mpr (List.mem_of_getElem? hl))
      exact h3 l' u m hl' hu hm
    · intro l hl hc
      rw [hj] at hc
      obtain ⟨hj', ej⟩ := List.getElem?_eq_some_iff.mp hj
      obtain ⟨hl', el⟩ := List.getElem?_eq_some_iff.mp hc
      have := (List.getElem_inj hd).mp (el.trans ej.symm)
      omega
  cases hc : call rank cases a with
  | some i =>
    obtain ⟨j, hj, hij⟩ := one cases cases' hp hn' i hc
    rw [hj]
    exact hij.symm
  | none =>
    cases hc' : call rank cases' a with
    | none => rfl
    | some j =>
      obtain ⟨i, hi, _⟩ := one cases' cases hp.symm hn j hc'
      rw [hc] at hi
      cases hi

example : [2, 1, 0].Perm [0, 2, 1] ∧ [2, 1, 0].Nodup ∧ call numRank [2, 1, 0] 1 = some 1 ∧ call numRank [0, 2, 1] 1 = some 2 := by decide

/-- C91. Two cases of the same type do not make the call ambiguous: the first of them is silently never called. -/
theorem C91_same_type_violated : ¬ BestCase numRank [1, 1] 1 ∧ call numRank [1, 1] 1 = some 1 := by
  refine ⟨fun h => ?_, by decide⟩
  have h1 := ((h 1).mp (by decide)).2 0 ?_
  · omega
  · refine ⟨1, 0, rfl, by decide, ?_⟩
    intro j u m hj hu hm
    exfalso
    apply hu
    have := List.mem_of_getElem? hj
    simp at this
    exact this

end Verif.TypeMatch
