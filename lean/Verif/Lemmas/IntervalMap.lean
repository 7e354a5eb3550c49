import Verif.Model.IntervalMap
import Mathlib.Order.Basic
import Mathlib.Tactic.Set
import Mathlib.Data.List.Chain
import Mathlib.Data.List.Perm.Subperm

set_option linter.unusedSectionVars false
set_option autoImplicit false

namespace Verif.IntervalMap

variable {K V : Type} [LinearOrder K] [DecidableEq V]

/-- Keys strictly ascending. -/
def Sorted (m : Nodes K V) : Prop := m.Pairwise (fun a b => a.1 < b.1)

/-- Iterator to the first node of a suffix. -/
abbrev it (R : Nodes K V) : Iter K := R.head?.map Prod.fst

theorem find?_append_none {p : K × V → Bool} {L R : Nodes K V} (h : ∀ e ∈ L, p e = false) :
    (L ++ R).find? p = R.find? p := by
  induction L with
  | nil => rfl
  | cons a L ih =>
    have := h a (by simp)
    simp only [List.cons_append, List.find?_cons, this]
    exact ih (fun e he => h e (by simp [he]))

theorem find?_head {p : K × V → Bool} {R : Nodes K V} (h : ∀ e ∈ R, p e = true) :
    R.find? p = R.head? := by
  cases R with
  | nil => rfl
  | cons a R => simp [h a (by simp)]

theorem lowerBound_split {L R : Nodes K V} {k : K} (hL : ∀ e ∈ L, e.1 < k) (hR : ∀ e ∈ R, k ≤ e.1) :
    lowerBound (L ++ R) k = it R := by
  unfold lowerBound
  rw [find?_append_none (by simpa using hL), find?_head (by simpa using hR)]

theorem upperBound_split {L R : Nodes K V} {k : K} (hL : ∀ e ∈ L, e.1 ≤ k) (hR : ∀ e ∈ R, k < e.1) :
    upperBound (L ++ R) k = it R := by
  unfold upperBound
  rw [find?_append_none (by simpa using hL), find?_head (by simpa using hR)]

theorem takeWhile_ne {L R : Nodes K V} {e : K × V} (h : ∀ x ∈ L, x.1 ≠ e.1) :
    (L ++ e :: R).takeWhile (fun x => decide (x.1 ≠ e.1)) = L := by
  induction L with
  | nil => simp
  | cons a L ih =>
    have := h a (by simp)
    simp only [List.cons_append, List.takeWhile_cons, this, ne_eq, not_false_eq_true, decide_true, if_true]
    congr 1
    simpa using ih (fun x hx => h x (by simp [hx]))

theorem dropWhile_ne {L R : Nodes K V} {e : K × V} (h : ∀ x ∈ L, x.1 ≠ e.1) :
    (L ++ e :: R).dropWhile (fun x => decide (x.1 ≠ e.1)) = e :: R := by
  induction L with
  | nil => simp
  | cons a L ih =>
    have := h a (by simp)
    simp only [List.cons_append, List.dropWhile_cons, this, ne_eq, not_false_eq_true, decide_true, if_true]
    simpa using ih (fun x hx => h x (by simp [hx]))

theorem Sorted.left_lt {L R : Nodes K V} (h : Sorted (L ++ R)) : ∀ x ∈ L, ∀ y ∈ R, x.1 < y.1 :=
  (List.pairwise_append.1 h).2.2

theorem Sorted.left {L R : Nodes K V} (h : Sorted (L ++ R)) : Sorted L := (List.pairwise_append.1 h).1

theorem Sorted.right {L R : Nodes K V} (h : Sorted (L ++ R)) : Sorted R := (List.pairwise_append.1 h).2.1

theorem sorted_append {L R : Nodes K V} (hL : Sorted L) (hR : Sorted R) (h : ∀ x ∈ L, ∀ y ∈ R, x.1 < y.1) :
    Sorted (L ++ R) := List.pairwise_append.2 ⟨hL, hR, h⟩

theorem prev_split {L R : Nodes K V} (h : Sorted (L ++ R)) : prev (L ++ R) (it R) = L.getLast? := by
  cases R with
  | nil => simp [prev, it]
  | cons e R =>
    simp only [prev, it, List.head?_cons, Option.map_some]
    rw [takeWhile_ne (fun x hx => ne_of_lt (h.left_lt x hx e (by simp)))]

theorem deref_split {L R : Nodes K V} (h : Sorted (L ++ R)) : deref (L ++ R) (it R) = R.head? := by
  cases R with
  | nil => simp [deref, it]
  | cons e R =>
    simp only [deref, it, List.head?_cons, Option.map_some]
    rw [find?_append_none (fun x hx => by simpa using ne_of_lt (h.left_lt x hx e (by simp)))]
    simp

theorem next_split {L R : Nodes K V} {e : K × V} (h : Sorted (L ++ e :: R)) :
    next (L ++ e :: R) (some e.1) = some (it R) := by
  simp only [next]
  rw [dropWhile_ne (fun x hx => ne_of_lt (h.left_lt x hx e (by simp)))]

theorem emplace_split {L R : Nodes K V} {k : K} {v : V} (hL : ∀ e ∈ L, e.1 < k) (hR : ∀ e ∈ R, k < e.1) :
    emplace (L ++ R) k v = L ++ (k, v) :: R := by
  induction L with
  | nil =>
    cases R with
    | nil => simp [emplace]
    | cons e R => simp [emplace, hR e (by simp)]
  | cons a L ih =>
    have ha := hL a (by simp)
    simp only [List.cons_append, emplace, not_lt_of_gt ha, if_false, ha, if_true]
    rw [ih (fun e he => hL e (by simp [he]))]

theorem setValue_none {L : Nodes K V} {k : K} {v : V} (h : ∀ e ∈ L, e.1 ≠ k) : setValue L k v = L := by
  induction L with
  | nil => rfl
  | cons a L ih =>
    simp only [setValue, List.map_cons, h a (by simp), if_false]
    congr 1
    exact ih (fun e he => h e (by simp [he]))

theorem setValue_split {L R : Nodes K V} {k : K} {v w : V} (h : Sorted (L ++ (k, w) :: R)) :
    setValue (L ++ (k, w) :: R) k v = L ++ (k, v) :: R := by
  have h1 := setValue_none (v := v) (fun e he => ne_of_lt (h.left_lt e he (k, w) (by simp)))
  have h2 : setValue R k v = R := setValue_none (fun e he =>
    (ne_of_gt ((List.pairwise_cons.1 h.right).1 e he)))
  unfold setValue at *
  rw [List.map_append, List.map_cons, h1, h2]
  simp

theorem erase_split {P M R : Nodes K V} (h : Sorted (P ++ (M ++ R))) :
    erase (P ++ (M ++ R)) (it (M ++ R)) (it R) = some (P ++ R) := by
  cases M with
  | nil =>
    cases R with
    | nil => simp [erase, it]
    | cons e R =>
      simp only [List.nil_append, it, List.head?_cons, Option.map_some, erase] at *
      have hne : ∀ x ∈ P, x.1 ≠ e.1 := fun x hx => ne_of_lt (h.left_lt x hx e (by simp))
      rw [dropWhile_ne hne, takeWhile_ne hne]
      simp
  | cons a M =>
    have hne : ∀ x ∈ P, x.1 ≠ a.1 := fun x hx => ne_of_lt (h.left_lt x hx a (by simp))
    cases R with
    | nil =>
      simp only [List.cons_append, it, List.head?_cons, Option.map_some, erase, List.head?_nil, Option.map_none]
      rw [dropWhile_ne hne, takeWhile_ne hne]
      simp
    | cons e R =>
      simp only [List.cons_append, it, List.head?_cons, Option.map_some, erase]
      rw [dropWhile_ne hne, takeWhile_ne hne]
      have h2 := h.right
      have h3 := Sorted.left_lt (L := a :: M) (R := e :: R) h2
      rw [← List.cons_append, dropWhile_ne (fun x hx => ne_of_lt (h3 x hx e (by simp)))]

theorem lookup_split {L R : Nodes K V} {k : K} (h : Sorted (L ++ R)) (hL : ∀ e ∈ L, e.1 ≤ k)
    (hR : ∀ e ∈ R, k < e.1) : lookup (L ++ R) k = L.getLast?.map Prod.snd := by
  unfold lookup
  rw [upperBound_split hL hR, prev_split h]

/-- Splitting a sorted map at a key (strictly below / not below). -/
theorem exists_split_lt {m : Nodes K V} (h : Sorted m) (k : K) :
    ∃ L R, m = L ++ R ∧ (∀ e ∈ L, e.1 < k) ∧ (∀ e ∈ R, k ≤ e.1) := by
  induction m with
  | nil => exact ⟨[], [], rfl, by simp, by simp⟩
  | cons a m ih =>
    obtain ⟨L, R, rfl, hL, hR⟩ := ih (List.pairwise_cons.1 h).2
    have ha := (List.pairwise_cons.1 h).1
    by_cases hk : a.1 < k
    · exact ⟨a :: L, R, rfl, by simpa [hk] using hL, hR⟩
    · refine ⟨[], a :: (L ++ R), rfl, by simp, ?_⟩
      intro e he
      rcases List.mem_cons.1 he with rfl | he
      · exact le_of_not_gt hk
      · exact le_of_lt (lt_of_le_of_lt (le_of_not_gt hk) (ha e he))

/-- Splitting a sorted map at a key (not above / above). -/
theorem exists_split_le {m : Nodes K V} (h : Sorted m) (k : K) :
    ∃ L R, m = L ++ R ∧ (∀ e ∈ L, e.1 ≤ k) ∧ (∀ e ∈ R, k < e.1) := by
  induction m with
  | nil => exact ⟨[], [], rfl, by simp, by simp⟩
  | cons a m ih =>
    obtain ⟨L, R, rfl, hL, hR⟩ := ih (List.pairwise_cons.1 h).2
    have ha := (List.pairwise_cons.1 h).1
    by_cases hk : a.1 ≤ k
    · exact ⟨a :: L, R, rfl, by simpa [hk] using hL, hR⟩
    · refine ⟨[], a :: (L ++ R), rfl, by simp, ?_⟩
      intro e he
      rcases List.mem_cons.1 he with rfl | he
      · exact lt_of_not_ge hk
      · exact lt_trans (lt_of_not_ge hk) (ha e he)

/-- What `assign` leaves of the part at and above `ke`; `L` is the part below `ke`. -/
def finR (L R : Nodes K V) (ke : K) (v : V) : Nodes K V :=
  match R with
  | [] =>
    match L.getLast? with
    | none => []
    | some t => if t.2 = v then [] else [(ke, t.2)]
  | (k, w) :: R' =>
    if k = ke then (if w = v then R' else (k, w) :: R')
    else
      match L.getLast? with
      | none => (k, w) :: R'
      | some t => if t.2 = v then (k, w) :: R' else (ke, t.2) :: (k, w) :: R'

/-- Node to be dropped between the part below `ke` and `finR`. -/
def finE (R : Nodes K V) (ke : K) (v : V) : Nodes K V :=
  match R with
  | [] => []
  | (k, w) :: _ => if k = ke ∧ w = v then [(k, w)] else []

/-- What `assign` leaves of the part below `kb`, together with the new node. -/
def normA (A : Nodes K V) (kb : K) (v : V) : Nodes K V :=
  match A.getLast? with
  | none => [(kb, v)]
  | some t => if t.2 = v then A else A ++ [(kb, v)]

theorem finR_ge {L R : Nodes K V} {ke : K} {v : V} (hR : ∀ e ∈ R, ke ≤ e.1) :
    ∀ e ∈ finE R ke v ++ finR L R ke v, ke ≤ e.1 := by
  intro e he
  unfold finE finR at he
  rcases R with _ | ⟨⟨k, w⟩, R⟩
  · cases hl : L.getLast? with
    | none => simp [hl] at he
    | some t =>
      simp only [hl] at he
      split_ifs at he <;> simp at he
      subst he; exact le_refl _
  · have hk : ke ≤ k := hR (k, w) (by simp)
    have hR' : ∀ e ∈ R, ke ≤ e.1 := fun e he => hR e (by simp [he])
    have fin : ∀ (P : Prop), e ∈ (k, w) :: R → ke ≤ e.1 := by
      intro _ he
      rcases List.mem_cons.1 he with rfl | he
      · exact hk
      · exact hR' _ he
    cases hl : L.getLast? with
    | none =>
      simp only [hl] at he
      by_cases h1 : k = ke <;> by_cases h2 : w = v <;> simp [h1, h2] at he <;> grind
    | some t =>
      simp only [hl] at he
      by_cases h1 : k = ke <;> by_cases h2 : w = v <;> by_cases h3 : t.2 = v <;> simp [h1, h2, h3] at he <;> grind

theorem finR_sorted {L R : Nodes K V} {ke : K} {v : V} (hs : Sorted R) (hR : ∀ e ∈ R, ke ≤ e.1) :
    Sorted (finE R ke v ++ finR L R ke v) := by
  unfold finE finR
  rcases R with _ | ⟨⟨k, w⟩, R⟩
  · cases hl : L.getLast? with
    | none => simp [Sorted]
    | some t => simp only; split_ifs <;> simp [Sorted]
  · have hk : ke ≤ k := hR (k, w) (by simp)
    have h1 := List.pairwise_cons.1 hs
    have key : k ≠ ke → ∀ t : V, Sorted ((ke, t) :: (k, w) :: R) := by
      intro hne t
      have hlt : ke < k := lt_of_le_of_ne hk (Ne.symm hne)
      refine List.pairwise_cons.2 ⟨?_, hs⟩
      intro e he
      rcases List.mem_cons.1 he with rfl | he
      · exact hlt
      · exact lt_trans hlt (h1.1 e he)
    cases hl : L.getLast? with
    | none =>
      simp only
      split_ifs <;> first | exact hs | (simp_all; done) | simpa using hs
    | some t =>
      simp only
      split_ifs with a b c d e f
      all_goals first
        | exact hs
        | (exfalso; simp_all; done)
        | (simp only [List.nil_append]; exact key (by assumption) _)
        | (simp only [List.nil_append]; exact hs)

theorem assignEnd_split {L R : Nodes K V} {ke : K} {v : V} (hs : Sorted (L ++ R)) (hne : L ≠ [])
    (hL : ∀ e ∈ L, e.1 < ke) (hR : ∀ e ∈ R, ke ≤ e.1) :
    assignEnd (L ++ R) ke v = some (L ++ (finE R ke v ++ finR L R ke v), it (finR L R ke v)) := by
  obtain ⟨t, ht⟩ : ∃ t, L.getLast? = some t := by
    cases hl : L.getLast? with
    | none => exact absurd (List.getLast?_eq_none_iff.1 hl) hne
    | some t => exact ⟨t, rfl⟩
  unfold assignEnd
  rw [lowerBound_split hL hR]
  have hprev := prev_split hs
  have hder := deref_split hs
  rcases R with _ | ⟨⟨k, w⟩, R⟩
  · simp only [it, List.head?_nil, Option.map_none] at hprev hder ⊢
    simp only [hprev, hder, ht]
    by_cases htv : t.2 = v
    · simp [htv, finE, finR, ht]
    · have := emplace_split (v := t.2) (R := []) hL (by simp)
      rw [List.append_nil] at this hprev hder
      simp [htv, finE, finR, ht, this, hprev, hder]
  · simp only [it, List.head?_cons, Option.map_some] at hprev hder ⊢
    have hk : ke ≤ k := hR (k, w) (by simp)
    have hR' : ∀ e ∈ R, k < e.1 := (List.pairwise_cons.1 hs.right).1
    have hnext := next_split hs
    simp only at hnext
    simp only [hder]
    have hkk : (¬ (k < ke ∨ ke < k)) ↔ k = ke := by
      constructor
      · intro h; rw [not_or] at h
        exact le_antisymm (le_of_not_gt h.2) hk
      · rintro rfl; simp
    simp only [hkk]
    by_cases h1 : k = ke
    · subst h1
      by_cases h2 : w = v
      · subst h2
        simp [hnext, finE, finR, it]
      · simp [h2, hprev, ht, finE, finR, hder]
    · have hlt : ke < k := lt_of_le_of_ne hk (Ne.symm h1)
      by_cases h2 : t.2 = v
      · simp [h1, hprev, ht, h2, finE, finR]
      · have hemp := emplace_split (v := t.2) (k := ke) (L := L) (R := (k, w) :: R) hL
          (by intro e he; rcases List.mem_cons.1 he with rfl | he
              · exact hlt
              · exact lt_trans hlt (hR' e he))
        simp [h1, hprev, ht, h2, finE, finR, hder, hemp]

theorem assignBegin_split {A Q : Nodes K V} {kb : K} {v : V} (hs : Sorted (A ++ Q))
    (hA : ∀ e ∈ A, e.1 < kb) (hQ : ∀ e ∈ Q, kb ≤ e.1) :
    ∃ P x D Q', Q = D ++ Q' ∧ (∀ e ∈ D, e.1 = kb) ∧ normA A kb v = P ++ [x] ∧ x.2 = v ∧
      (∀ e ∈ Q', x.1 < e.1) ∧ x.1 ≤ kb ∧ (D = [] ∨ x.1 = kb) ∧ 
      assignBegin (A ++ Q) kb v = some (P ++ x :: Q', some x.1) ∧ Sorted (P ++ x :: Q') := by
  have hprev := prev_split hs
  unfold assignBegin
  rw [lowerBound_split hA hQ]
  -- the part shared by the cases where the value before `kb` is not `v`
  have main : ∀ (b : Bool), b = false → normA A kb v = A ++ [(kb, v)] →
      ∃ P x D Q', Q = D ++ Q' ∧ (∀ e ∈ D, e.1 = kb) ∧ normA A kb v = P ++ [x] ∧ x.2 = v ∧
      (∀ e ∈ Q', x.1 < e.1) ∧ x.1 ≤ kb ∧ (D = [] ∨ x.1 = kb) ∧ 
      (if b = true then some (A ++ Q, it Q) else
        match it Q with
        | none => some (emplace (A ++ Q) kb v, some kb)
        | some k =>
          if ¬ (k < kb ∨ kb < k) then some (setValue (A ++ Q) k v, some k)
          else some (emplace (A ++ Q) kb v, some kb)) = some (P ++ x :: Q', some x.1) ∧ Sorted (P ++ x :: Q') := by
    intro b hb hn
    subst hb
    have sA := hs.left
    rcases Q with _ | ⟨⟨k, w⟩, Q⟩
    · have hemp := emplace_split (v := v) (L := A) (R := []) hA (by simp)
      rw [List.append_nil] at hemp
      refine ⟨A, (kb, v), [], [], rfl, by simp, hn, rfl, by simp, le_refl _, Or.inl rfl, by simp [it, hemp], ?_⟩
      exact sorted_append sA (by simp [Sorted]) (by simpa using hA)
    · have hk : kb ≤ k := hQ (k, w) (by simp)
      have hQ' : ∀ e ∈ Q, k < e.1 := (List.pairwise_cons.1 hs.right).1
      have sQ : Sorted Q := (List.pairwise_cons.1 hs.right).2
      by_cases h1 : k = kb
      · subst h1
        have hset := setValue_split (v := v) hs
        refine ⟨A, (k, v), [(k, w)], Q, rfl, by simp, hn, rfl, hQ', le_refl _, Or.inr rfl, by simp [it, hset], ?_⟩
        refine sorted_append sA (List.pairwise_cons.2 ⟨hQ', sQ⟩) ?_
        intro x hx y hy
        rcases List.mem_cons.1 hy with rfl | hy
        · exact hA x hx
        · exact lt_trans (hA x hx) (hQ' y hy)
      · have hlt : kb < k := lt_of_le_of_ne hk (Ne.symm h1)
        have hgt : ∀ e ∈ (k, w) :: Q, kb < e.1 := by
          intro e he
          rcases List.mem_cons.1 he with rfl | he
          · exact hlt
          · exact lt_trans hlt (hQ' e he)
        have hemp := emplace_split (v := v) (L := A) (R := (k, w) :: Q) hA hgt
        refine ⟨A, (kb, v), [], (k, w) :: Q, rfl, by simp, hn, rfl, hgt, le_refl _, Or.inl rfl,
          by simp [it, hlt, hemp], ?_⟩
        refine sorted_append sA (List.pairwise_cons.2 ⟨hgt, hs.right⟩) ?_
        intro x hx y hy
        rcases List.mem_cons.1 hy with rfl | hy
        · exact hA x hx
        · exact lt_trans (hA x hx) (hgt y hy)
  by_cases hAe : A = []
  · subst hAe
    have : begin ([] ++ Q) = it Q := rfl
    simp only [this, ne_eq, not_true_eq_false, if_false, Option.bind_some]
    exact main false rfl (by simp [normA])
  · have hb : it Q ≠ begin (A ++ Q) := by
      obtain ⟨a, A, rfl⟩ := List.exists_cons_of_ne_nil hAe
      simp only [begin, List.cons_append, List.head?_cons, Option.map_some]
      cases Q with
      | nil => simp [it]
      | cons q Q =>
        simp only [it, List.head?_cons, Option.map_some, ne_eq, Option.some.injEq]
        exact ne_of_gt (lt_of_lt_of_le (hA a (by simp)) (hQ q (by simp)))
    obtain ⟨t, ht⟩ : ∃ t, A.getLast? = some t := by
      cases hl : A.getLast? with
      | none => exact absurd (List.getLast?_eq_none_iff.1 hl) hAe
      | some t => exact ⟨t, rfl⟩
    simp only [hb, ne_eq, not_false_eq_true, if_true, hprev, ht]
    by_cases htv : t.2 = v
    · obtain ⟨P, rfl⟩ : ∃ P, A = P ++ [t] := by
        obtain ⟨P, hP⟩ := List.getLast?_eq_some_iff.1 ht
        exact ⟨P, hP⟩
      have htk : t.1 < kb := hA t (by simp)
      refine ⟨P, t, [], Q, rfl, by simp, by simp [normA, htv], htv, ?_, le_of_lt htk, Or.inl rfl,
        by simp [htv], by simpa using hs⟩
      exact fun e he => lt_of_lt_of_le htk (hQ e he)
    · simp only [htv, if_false, Option.bind_some]
      exact main false rfl (by simp [normA, ht, htv])

theorem assign_split {A M R : Nodes K V} {kb ke : K} {v : V} (hs : Sorted (A ++ (M ++ R))) (hlt : kb < ke)
    (hA : ∀ e ∈ A, e.1 < kb) (hM : ∀ e ∈ M, kb ≤ e.1 ∧ e.1 < ke) (hR : ∀ e ∈ R, ke ≤ e.1)
    (hne : A ++ M ≠ []) :
    assign (A ++ (M ++ R)) kb ke v = some (normA A kb v ++ finR (A ++ M) R ke v) ∧
      Sorted (normA A kb v ++ finR (A ++ M) R ke v) := by
  have hL : ∀ e ∈ A ++ M, e.1 < ke := by
    intro e he
    rcases List.mem_append.1 he with he | he
    · exact lt_trans (hA e he) hlt
    · exact (hM e he).2
  have hs' : Sorted ((A ++ M) ++ R) := by simpa using hs
  have h1 := assignEnd_split (v := v) hs' hne hL hR
  set E := finE R ke v with hE
  set F := finR (A ++ M) R ke v with hF
  have hge : ∀ e ∈ E ++ F, ke ≤ e.1 := finR_ge hR
  have hs1 : Sorted ((A ++ M) ++ (E ++ F)) :=
    sorted_append hs'.left (finR_sorted hs'.right hR) (fun x hx y hy => lt_of_lt_of_le (hL x hx) (hge y hy))
  have hs2 : Sorted (A ++ (M ++ (E ++ F))) := by simpa using hs1
  have hQ : ∀ e ∈ M ++ (E ++ F), kb ≤ e.1 := by
    intro e he
    rcases List.mem_append.1 he with he | he
    · exact (hM e he).1
    · exact le_trans (le_of_lt hlt) (hge e he)
  obtain ⟨P, x, D, Q', hDQ, hD, hn, hxv, hx, hxk, hDx, hb, hsx⟩ := assignBegin_split (v := v) hs2 hA hQ
  -- `Q' = M' ++ F`
  obtain ⟨M', hM'⟩ : ∃ M', Q' = M' ++ F := by
    have hD2 : ∃ M2, M ++ E = D ++ M2 := by
      have : D <+: M ++ E := by
        have h3 : D <+: M ++ (E ++ F) := ⟨Q', hDQ.symm⟩
        have h4 : M ++ E <+: M ++ (E ++ F) := ⟨F, by simp⟩
        rcases List.prefix_or_prefix_of_prefix h3 h4 with h | h
        · exact h
        · -- D longer than M ++ E: its extra elements are in F, impossible
          obtain ⟨X, hX⟩ := h
          have : X = [] := by
            rcases X with _ | ⟨y, X⟩
            · rfl
            · exfalso
              have hyD : y ∈ D := by rw [← hX]; simp
              have hyk := hD y hyD
              have : (M ++ E) ++ F = (M ++ E) ++ ((y :: X) ++ Q') := by
                rw [← List.append_assoc, hX, ← hDQ, List.append_assoc]
              have hyF : y ∈ F := by
                have := List.append_cancel_left this
                rw [this]; simp
              have := hge y (by simp [hyF])
              rw [hyk] at this
              exact absurd hlt (not_lt_of_ge this)
          subst this
          rw [List.append_nil] at hX
          exact ⟨[], by rw [hX, List.append_nil]⟩
      obtain ⟨M2, h⟩ := this
      exact ⟨M2, h.symm⟩
    obtain ⟨M2, hM2⟩ := hD2
    refine ⟨M2, ?_⟩
    have : D ++ Q' = D ++ (M2 ++ F) := by
      rw [← hDQ, ← List.append_assoc, hM2, List.append_assoc]
    exact List.append_cancel_left this
  subst hM'
  have hs3 : Sorted ((P ++ [x]) ++ (M' ++ F)) := by simpa using hsx
  have her := erase_split hs3
  have hnx := next_split hsx
  refine ⟨?_, ?_⟩
  · unfold assign
    rw [if_pos hlt, ← List.append_assoc, h1]
    simp only [Option.bind_some]
    rw [List.append_assoc, hb]
    simp only [Option.bind_some]
    rw [hnx]
    simp only [Option.bind_some]
    rw [hn]
    rw [← her]
    simp
  · rw [hn]
    have h5 := hs3
    exact sorted_append h5.left (Sorted.right h5.right)
      (fun a ha b hb => h5.left_lt a ha b (by simp [hb]))

/-- Sorted, begins at the lowest key, adjacent values differ. -/
structure WF (lowest : K) (m : Nodes K V) : Prop where
  sorted : Sorted m
  head : (m.head?).map Prod.fst = some lowest
  chain : m.IsChain (fun a b => a.2 ≠ b.2)

theorem WF.lowest_le {lowest : K} {m : Nodes K V} (h : WF lowest m) : ∀ e ∈ m, lowest ≤ e.1 := by
  obtain ⟨hs, hh, -⟩ := h
  cases m with
  | nil => simp at hh
  | cons a m =>
    simp at hh
    intro e he
    rcases List.mem_cons.1 he with rfl | he
    · exact le_of_eq hh.symm
    · rw [← hh]; exact le_of_lt ((List.pairwise_cons.1 hs).1 e he)

theorem init_wf (lowest : K) (v : V) : WF lowest (init lowest v) :=
  ⟨by simp [init, Sorted], by simp [init], by simp [init]⟩

/-- Decomposition of a well-formed map around an interval. -/
theorem WF.split {lowest kb ke : K} {m : Nodes K V} (h : WF lowest m) (hb : lowest ≤ kb) (hlt : kb < ke) :
    ∃ A M R, m = A ++ (M ++ R) ∧ (∀ e ∈ A, e.1 < kb) ∧ (∀ e ∈ M, kb ≤ e.1 ∧ e.1 < ke) ∧ (∀ e ∈ R, ke ≤ e.1) ∧
      A ++ M ≠ [] := by
  obtain ⟨A, Q, rfl, hA, hQ⟩ := exists_split_lt h.sorted kb
  obtain ⟨M, R, rfl, hM, hR⟩ := exists_split_lt h.sorted.right ke
  refine ⟨A, M, R, rfl, hA, fun e he => ⟨hQ e (by simp [he]), hM e he⟩, hR, ?_⟩
  intro he
  obtain ⟨rfl, rfl⟩ := List.append_eq_nil_iff.1 he
  have hh := h.head
  cases R with
  | nil => simp at hh
  | cons a R =>
    simp at hh
    have := hR a (by simp)
    rw [hh] at this
    exact absurd (lt_of_le_of_lt hb hlt) (not_lt_of_ge this)

theorem normA_last (A : Nodes K V) (kb : K) (v : V) : (normA A kb v).getLast?.map Prod.snd = some v := by
  unfold normA
  cases hl : A.getLast? with
  | none => simp
  | some t => simp only; split_ifs with h <;> simp [hl, h]

theorem normA_le {A : Nodes K V} {kb : K} {v : V} (hA : ∀ e ∈ A, e.1 < kb) : ∀ e ∈ normA A kb v, e.1 ≤ kb := by
  unfold normA
  cases hl : A.getLast? with
  | none => simp
  | some t =>
    simp only
    split_ifs with h
    · exact fun e he => le_of_lt (hA e he)
    · intro e he
      rcases List.mem_append.1 he with he | he
      · exact le_of_lt (hA e he)
      · simp at he; subst he; exact le_refl _

theorem getLast?_append_ne {α : Type} {L R : List α} (h : R ≠ []) : (L ++ R).getLast? = R.getLast? := by
  rw [List.getLast?_append]
  cases hR : R.getLast? with
  | none => exact absurd (List.getLast?_eq_none_iff.1 hR) h
  | some x => rfl

/-- The effect of `assign` on lookups. -/
theorem assign_lookup {lowest kb ke : K} {v : V} {m : Nodes K V} (h : WF lowest m) (hb : lowest ≤ kb)
    (hlt : kb < ke) :
    ∃ m', assign m kb ke v = some m' ∧ WF lowest m' ∧
      ∀ k, lowest ≤ k → lookup m' k = if kb ≤ k ∧ k < ke then some v else lookup m k := by
  obtain ⟨A, M, R, rfl, hA, hM, hR, hne⟩ := h.split hb hlt
  obtain ⟨heq, hs⟩ := assign_split (v := v) h.sorted hlt hA hM hR hne
  have hnormle := normA_le (v := v) hA
  have hRs : Sorted R := Sorted.right (Sorted.right h.sorted)
  have hLs : Sorted ((A ++ M) ++ R) := by simpa using h.sorted
  have hL : ∀ e ∈ A ++ M, e.1 < ke := by
    intro e he
    rcases List.mem_append.1 he with he | he
    · exact lt_trans (hA e he) hlt
    · exact (hM e he).2
  obtain ⟨t, ht⟩ : ∃ t, (A ++ M).getLast? = some t := by
    cases hl : (A ++ M).getLast? with
    | none => exact absurd (List.getLast?_eq_none_iff.1 hl) hne
    | some t => exact ⟨t, rfl⟩
  have hFge : ∀ e ∈ finR (A ++ M) R ke v, ke ≤ e.1 := fun e he =>
    finR_ge (v := v) hR e (List.mem_append_right _ he)
  refine ⟨_, heq, ⟨hs, ?_, ?_⟩, ?_⟩
  · -- head
    have hh := h.head
    unfold normA
    cases A with
    | nil =>
      have : kb = lowest := by
        cases M with
        | nil => exact absurd rfl hne
        | cons a M =>
          simp at hh
          have := (hM a (by simp)).1
          rw [hh] at this
          exact le_antisymm this hb
      simp [this]
    | cons a A =>
      cases hl : (a :: A).getLast? with
      | none => simp at hl
      | some t =>
        simp only
        split_ifs <;> simpa using hh
  · -- chain
    have hc := h.chain
    have hcA : A.IsChain (fun a b => a.2 ≠ b.2) := List.IsChain.left_of_append hc
    have hcMR := List.IsChain.right_of_append hc
    have hcR : R.IsChain (fun a b => a.2 ≠ b.2) := List.IsChain.right_of_append hcMR
    have hcLR : ((A ++ M) ++ R).IsChain (fun a b => a.2 ≠ b.2) := by simpa using hc
    rw [List.isChain_append]
    refine ⟨?_, ?_, ?_⟩
    · unfold normA
      cases hl : A.getLast? with
      | none => simp
      | some t =>
        simp only
        split_ifs with htv
        · exact hcA
        · rw [List.isChain_append]
          refine ⟨hcA, by simp, ?_⟩
          simp [hl, htv]
    · unfold finR
      rcases R with _ | ⟨⟨k, w⟩, R⟩
      · simp only [ht]; split_ifs <;> simp
      · simp only [ht]
        split_ifs with h1 h2 h3
        · exact hcR.tail
        · exact hcR
        · exact hcR
        · refine List.isChain_cons_cons.2 ⟨?_, hcR⟩
          have := (List.isChain_append.1 hcLR).2.2 t (by simp [ht]) (k, w) (by simp)
          exact this
    · intro x hx y hy
      have hxv : x.2 = v := by
        have := normA_last A kb v
        rw [Option.mem_def] at hx
        rw [hx] at this; simpa using this
      rw [hxv]
      intro hvy
      rw [Option.mem_def] at hy
      unfold finR at hy
      rcases R with _ | ⟨⟨k, w⟩, R⟩
      · simp only [ht] at hy
        split_ifs at hy with h1
        · simp at hy
        · simp at hy; subst hy; exact h1 hvy.symm
      · simp only [ht] at hy
        split_ifs at hy with h1 h2 h3
        · cases R with
          | nil => simp at hy
          | cons r R =>
            simp at hy; subst hy
            have := (List.isChain_cons_cons.1 hcR).1
            exact this (h2.trans hvy)
        · simp at hy; subst hy; exact h2 hvy.symm
        · -- `ke` lies inside an interval with value `v`
          simp at hy; subst hy
          have := (List.isChain_append.1 hcLR).2.2 t (by simp [ht]) (k, w) (by simp)
          exact this (h3.trans hvy)
        · simp at hy; subst hy; exact h3 hvy.symm
  · -- lookup
    intro k hk
    by_cases h1 : k < kb
    · -- below the interval
      rw [if_neg (fun h => absurd h1 (not_lt_of_ge h.1))]
      obtain ⟨A1, A2, rfl, hA1, hA2⟩ := exists_split_le h.sorted.left k
      have hA1ne : A1 ≠ [] := by
        rintro rfl
        have hh := h.head
        cases A2 with
        | nil =>
          cases M with
          | nil => exact absurd rfl hne
          | cons a M =>
            simp at hh
            have := (hM a (by simp)).1
            rw [hh] at this
            exact absurd h1 (not_lt_of_ge (le_trans this hk))
        | cons a A2 =>
          simp at hh
          have := hA2 a (by simp)
          rw [hh] at this
          exact absurd this (not_lt_of_ge hk)
      have e1 : lookup (A1 ++ A2 ++ (M ++ R)) k = A1.getLast?.map Prod.snd := by
        rw [List.append_assoc]
        refine lookup_split (by simpa using h.sorted) hA1 ?_
        intro e he
        rcases List.mem_append.1 he with he | he
        · exact hA2 e he
        · rcases List.mem_append.1 he with he | he
          · exact lt_of_lt_of_le h1 (hM e he).1
          · exact lt_of_lt_of_le (lt_trans h1 hlt) (hR e he)
      rw [e1]
      obtain ⟨B, hB, hBk⟩ : ∃ B, normA (A1 ++ A2) kb v = A1 ++ B ∧ ∀ e ∈ B, k < e.1 := by
        unfold normA
        cases hl : (A1 ++ A2).getLast? with
        | none => 
          have := List.getLast?_eq_none_iff.1 hl
          exact absurd (List.append_eq_nil_iff.1 this).1 hA1ne
        | some t =>
          simp only
          split_ifs
          · exact ⟨A2, rfl, hA2⟩
          · refine ⟨A2 ++ [(kb, v)], by simp, ?_⟩
            intro e he
            rcases List.mem_append.1 he with he | he
            · exact hA2 e he
            · simp at he; subst he; exact h1
      rw [hB] at hs ⊢
      rw [List.append_assoc] at hs ⊢
      refine lookup_split hs hA1 ?_
      intro e he
      rcases List.mem_append.1 he with he | he
      · exact hBk e he
      · exact lt_of_lt_of_le (lt_trans h1 hlt) (hFge e he)
    · have h1' : kb ≤ k := le_of_not_gt h1
      have hnk : ∀ e ∈ normA A kb v, e.1 ≤ k := fun e he => le_trans (hnormle e he) h1'
      by_cases h2 : k < ke
      · rw [if_pos ⟨h1', h2⟩, lookup_split hs hnk (fun e he => lt_of_lt_of_le h2 (hFge e he)), normA_last]
      · rw [if_neg (fun h => h2 h.2)]
        have h2' : ke ≤ k := le_of_not_gt h2
        obtain ⟨R1, R2, rfl, hR1, hR2⟩ := exists_split_le hRs k
        have e1 : lookup (A ++ (M ++ (R1 ++ R2))) k = ((A ++ M) ++ R1).getLast?.map Prod.snd := by
          have := lookup_split (L := (A ++ M) ++ R1) (R := R2) (k := k) (by simpa using h.sorted)
            (by
              intro e he
              rcases List.mem_append.1 he with he | he
              · exact le_of_lt (lt_of_lt_of_le (hL e he) h2')
              · exact hR1 e he) hR2
          simpa using this
        rw [e1]
        -- split of finR
        obtain ⟨F1, hF, hF1, hlast⟩ : ∃ F1, finR (A ++ M) (R1 ++ R2) ke v = F1 ++ R2 ∧ (∀ e ∈ F1, e.1 ≤ k) ∧
            (normA A kb v ++ F1).getLast?.map Prod.snd = ((A ++ M) ++ R1).getLast?.map Prod.snd := by
          have hnl := normA_last A kb v
          rcases R1 with _ | ⟨⟨k1, w⟩, R1⟩
          · -- no old node in [ke, k]
            have hcase : ∀ F, (F = if t.2 = v then R2 else (ke, t.2) :: R2) → ∃ F1, F = F1 ++ R2 ∧ (∀ e ∈ F1, e.1 ≤ k) ∧
                (normA A kb v ++ F1).getLast?.map Prod.snd = ((A ++ M) ++ []).getLast?.map Prod.snd := by
              rintro F rfl
              split_ifs with htv
              · exact ⟨[], rfl, by simp, by simp [hnl, ht, htv]⟩
              · refine ⟨[(ke, t.2)], rfl, by simpa using h2', ?_⟩
                rw [getLast?_append_ne (by simp)]
                simp [ht]
            apply hcase
            unfold finR
            rcases R2 with _ | ⟨⟨k2, w2⟩, R2⟩
            · simp [ht]
            · have : ke < k2 := lt_of_le_of_lt h2' (hR2 (k2, w2) (by simp))
              simp [ht, (ne_of_gt this)]
          · have hk1 : k1 ≤ k := hR1 (k1, w) (by simp)
            have hR1' : ∀ e ∈ R1, e.1 ≤ k := fun e he => hR1 e (by simp [he])
            have hwhole : ∀ F0 : Nodes K V,
                (normA A kb v ++ (F0 ++ (k1, w) :: R1)).getLast?.map Prod.snd
                  = ((A ++ M) ++ (k1, w) :: R1).getLast?.map Prod.snd := by
              intro F0
              rw [getLast?_append_ne (by simp), getLast?_append_ne (by simp), getLast?_append_ne (by simp)]
            have hmem : ∀ e ∈ (k1, w) :: R1, e.1 ≤ k := hR1
            unfold finR
            simp only [List.cons_append, ht]
            split_ifs with c1 c2 c3
            · refine ⟨R1, rfl, hR1', ?_⟩
              rw [getLast?_append_ne (L := A ++ M) (by simp)]
              rcases R1 with _ | ⟨r, R1⟩
              · simp [hnl, c2]
              · rw [getLast?_append_ne (by simp)]; simp
            · exact ⟨(k1, w) :: R1, rfl, hmem, hwhole []⟩
            · exact ⟨(k1, w) :: R1, rfl, hmem, hwhole []⟩
            · refine ⟨(ke, t.2) :: (k1, w) :: R1, rfl, ?_, hwhole [(ke, t.2)]⟩
              intro e he
              rcases List.mem_cons.1 he with rfl | he
              · exact h2'
              · exact hmem e he
        rw [hF] at hs ⊢
        rw [← List.append_assoc] at hs ⊢
        rw [lookup_split hs _ hR2, hlast]
        intro e he
        rcases List.mem_append.1 he with he | he
        · exact hnk e he
        · exact hF1 e he

/-- A well-formed map uses only keys that every other sorted representation of the same function needs. -/
theorem WF.keys_subset {lowest : K} {m m' : Nodes K V} (h : WF lowest m) (hs' : Sorted m')
    (hh' : m'.head?.map Prod.fst = some lowest)
    (heq : ∀ k, lowest ≤ k → lookup m k = lookup m' k) : ∀ e ∈ m, e.1 ∈ m'.map Prod.fst := by
  intro e he
  obtain ⟨L, R, rfl⟩ := List.append_of_mem he
  have hle : lowest ≤ e.1 := h.lowest_le e he
  rcases List.eq_nil_or_concat L with rfl | ⟨L, p, rfl⟩
  · have := h.head
    simp at this
    rw [this]
    cases m' with
    | nil => simp at hh'
    | cons a m' => simp at hh'; simp [hh']
  · rw [List.concat_eq_append] at *
    have hpe : p.1 < e.1 := h.sorted.left_lt p (by simp) e (by simp)
    have hple : lowest ≤ p.1 := h.lowest_le p (by simp)
    have hne : p.2 ≠ e.2 := by
      have := (List.isChain_append.1 h.chain).2.2 p (by simp) e (by simp)
      exact this
    -- lookups in `m`
    have hR : ∀ x ∈ R, e.1 < x.1 := (List.pairwise_cons.1 h.sorted.right).1
    have l1 : ∀ j, p.1 ≤ j → j < e.1 → lookup (L ++ [p] ++ e :: R) j = some p.2 := by
      intro j h1 h2
      rw [lookup_split h.sorted]
      · simp
      · intro x hx
        rcases List.mem_append.1 hx with hx | hx
        · exact le_trans (le_of_lt (Sorted.left_lt h.sorted.left x hx p (by simp))) h1
        · simp at hx; subst hx; exact h1
      · intro x hx
        rcases List.mem_cons.1 hx with rfl | hx
        · exact h2
        · exact lt_trans h2 (hR x hx)
    have l2 : lookup (L ++ [p] ++ e :: R) e.1 = some e.2 := by
      have : lookup ((L ++ [p] ++ [e]) ++ R) e.1 = (L ++ [p] ++ [e]).getLast?.map Prod.snd := by
        refine lookup_split (by simpa using h.sorted) ?_ hR
        intro x hx
        rcases List.mem_append.1 hx with hx | hx
        · exact le_of_lt (h.sorted.left_lt x hx e (by simp))
        · simp at hx; subst hx; exact le_refl _
      simpa using this
    obtain ⟨L', R', rfl, hL', hR'⟩ := exists_split_le hs' e.1
    have l3 := lookup_split hs' hL' hR'
    have l4 := heq e.1 hle
    rw [l2, l3] at l4
    cases hlast : L'.getLast? with
    | none => rw [hlast] at l4; simp at l4
    | some q =>
      rw [hlast] at l4
      simp at l4
      obtain ⟨L2, rfl⟩ := List.getLast?_eq_some_iff.1 hlast
      have hqe : q.1 ≤ e.1 := hL' q (by simp)
      rcases lt_or_eq_of_le hqe with hlt | heq1
      · exfalso
        let j := max q.1 p.1
        have hj : j < e.1 := max_lt hlt hpe
        have l5 := heq j (le_trans hple (le_max_right _ _))
        rw [l1 j (le_max_right _ _) hj] at l5
        have l6 : lookup (L2 ++ [q] ++ R') j = (L2 ++ [q]).getLast?.map Prod.snd := by
          refine lookup_split hs' ?_ (fun x hx => lt_trans hj (hR' x hx))
          intro x hx
          rcases List.mem_append.1 hx with hx | hx
          · exact le_trans (le_of_lt (Sorted.left_lt hs'.left x hx q (by simp))) (le_max_left _ _)
          · simp at hx; subst hx; exact le_max_left _ _
        rw [l6] at l5
        simp at l5
        exact hne (l5.trans l4.symm)
      · rw [← heq1]; simp

theorem Sorted.nodup_keys {m : Nodes K V} (h : Sorted m) : (m.map Prod.fst).Nodup := by
  rw [List.Nodup, List.pairwise_map]
  exact h.imp (fun hab => ne_of_lt hab)

end Verif.IntervalMap
