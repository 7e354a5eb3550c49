import Verif.Lemmas.VectorFrom
import Verif.Props.C75_VectorFromSpec

/-!
Lemmas that connect the meaning of a nested list (`Props/C75_VectorFromSpec.lean`) with what is copied.
-/
set_option autoImplicit false
set_option linter.unusedSectionVars false

namespace Verif.VectorNd
open Verif.Views (Desc allIdx elem Rows Shape Tight)
variable {α : Type}

/-! ### Sizes -/

theorem largest_cons (n : Nat) (l : List Nat) : largest (n :: l) = max n (largest l) := rfl
theorem largest_append (l r : List Nat) : largest (l ++ r) = max (largest l) (largest r) := by
  induction l with
  | nil => simp [largest]
  | cons n l ih => rw [List.cons_append, largest_cons, largest_cons, ih]; omega
theorem le_largest {n : Nat} {l : List Nat} (h : n ∈ l) : n ≤ largest l := by
  induction l with
  | nil => simp at h
  | cons m l ih =>
    rw [largest_cons]
    rcases List.mem_cons.mp h with rfl | h
    · omega
    · have := ih h; omega
theorem largest_mem {l : List Nat} (h : largest l ≠ 0) : largest l ∈ l := by
  induction l with
  | nil => simp [largest] at h
  | cons m l ih =>
    rw [largest_cons] at h ⊢
    by_cases hm : largest l ≤ m
    · rw [Nat.max_eq_left hm]; simp
    · rw [Nat.max_eq_right (by omega)]
      exact List.mem_cons_of_mem _ (ih (by omega))

/-- Sizes raised to at least the given ones. -/
def raise (s w : List Nat) : List Nat := List.zipWith max s w

theorem wanted_length (d : Nat) (l : NL α d) : (wanted d l).length = d + 1 := by simp [wanted]

theorem wanted_zero (l : List α) : wanted 0 (l : NL α 0) = [l.length] := by
  simp [wanted, lens, largest]

/-- The sizes wanted by a list of lists: its length, and what the parts want together. -/
def together (d : Nat) (l : List (NL α d)) : List Nat := (List.range (d + 1)).map fun i => largest (l.flatMap fun x => lens d x i)

theorem wanted_succ (d : Nat) (l : List (NL α d)) : wanted (d + 1) (l : NL α (d + 1)) = l.length :: together d l := by
  show (List.range (d + 1 + 1)).map (fun i => largest (lens (d + 1) (l : NL α (d + 1)) i)) = _
  rw [List.range_succ_eq_map, List.map_cons, List.map_map]
  have h0 : largest (lens (d + 1) (l : NL α (d + 1)) 0) = l.length := by simp [lens, largest]
  rw [h0]; rfl

theorem together_length (d : Nat) (l : List (NL α d)) : (together d l).length = d + 1 := by simp [together]

theorem together_cons (d : Nat) (x : NL α d) (l : List (NL α d)) : together d (x :: l) = raise (wanted d x) (together d l) := by
  simp only [together, wanted, raise, List.flatMap_cons, largest_append]
  rw [List.zipWith_map, List.zipWith_self]

theorem raise_assoc : ∀ (a b c : List Nat), raise (raise a b) c = raise a (raise b c)
  | [], _, _ => rfl
  | _ :: _, [], _ => rfl
  | _ :: _, _ :: _, [] => rfl
  | a :: as, b :: bs, c :: cs => by
    show max (max a b) c :: raise (raise as bs) cs = max a (max b c) :: raise as (raise bs cs)
    rw [raise_assoc, Nat.max_assoc]

theorem raise_zeros : ∀ (w : List Nat), raise (List.replicate w.length 0) w = w
  | [] => rfl
  | n :: w => by
    show max 0 n :: raise (List.replicate w.length 0) w = n :: w
    rw [raise_zeros w, Nat.zero_max]

theorem raise_zeros' : ∀ (s : List Nat) , raise s (List.replicate s.length 0) = s
  | [] => rfl
  | n :: w => by
    show max n 0 :: raise w (List.replicate w.length 0) = n :: w
    rw [raise_zeros' w, Nat.max_zero]

theorem raise_length {a b : List Nat} (h : a.length = b.length) : (raise a b).length = a.length := by simp [raise, h]

theorem together_nil (d : Nat) : together d ([] : List (NL α d)) = List.replicate (d + 1) 0 := by
  simp [together, largest, List.map_const']

theorem deduce_eq : ∀ (d : Nat) (s : List Nat) (l : NL α d), s.length = d + 1 → deduce d s l = raise s (wanted d l)
  | _, [], _, h => by simp at h
  | 0, n :: ns, l, h => by
    have : ns = [] := List.length_eq_zero_iff.mp (by simpa using h)
    subst this
    have key : ∀ l : List α, deduce 0 [n] (l : NL α 0) = raise [n] (wanted 0 (l : NL α 0)) := by
      intro l; rw [wanted_zero]; rfl
    exact key l
  | d + 1, n :: ns, l, h => by
    have hns : ns.length = d + 1 := by simpa using h
    have fold : ∀ (l : List (NL α d)) (s : List Nat), s.length = d + 1 → l.foldl (fun s x => deduce d s x) s = raise s (together d l) := by
      intro l
      induction l with
      | nil => intro s hs; rw [together_nil, ← hs, raise_zeros']; rfl
      | cons x l ih =>
        intro s hs
        rw [List.foldl_cons, deduce_eq d s x hs, ih _ (by rw [raise_length (by rw [hs, wanted_length])]; exact hs), together_cons, raise_assoc]
    have key : ∀ l : List (NL α d), deduce (d + 1) (n :: ns) l = raise (n :: ns) (wanted (d + 1) l) := by
      intro l
      rw [wanted_succ]
      show max n l.length :: l.foldl (fun s x => deduce d s x) ns = max n l.length :: raise ns (together d l)
      rw [fold l ns hns]
    exact key l

theorem sizesOf_eq (d : Nat) (l : NL α d) : sizesOf d l = wanted d l := by
  rw [sizesOf, deduce_eq d _ l (by simp)]
  have := raise_zeros (wanted d l)
  rw [wanted_length] at this
  exact this

/-- One list of sizes bounds another one. -/
def Below (a b : List Nat) : Prop := List.Forall₂ (· ≤ ·) a b

theorem fits_of : ∀ (d : Nat) (ns : List Nat) (l : NL α d), Below (wanted d l) ns → Fits d ns l
  | d, [], l, h => by
    have := List.Forall₂.length_eq h
    rw [wanted_length] at this; simp at this
  | 0, n :: ns, l, h => by
    have key : ∀ l : List α, Below (wanted 0 (l : NL α 0)) (n :: ns) → l.length ≤ n := by
      intro l h
      rw [wanted_zero] at h
      cases h with
      | cons h1 _ => exact h1
    exact key l h
  | d + 1, n :: ns, l, h => by
    have mono : ∀ (l : List (NL α d)) (ns : List Nat), Below (together d l) ns → ∀ x ∈ l, Below (wanted d x) ns := by
      intro l ns hb x hx
      unfold Below at hb ⊢
      rw [List.forall₂_iff_get] at hb ⊢
      refine ⟨by rw [wanted_length, ← together_length d l]; exact hb.1, ?_⟩
      intro i h1 h2
      have h1' : i < d + 1 := by simpa [wanted_length] using h1
      refine Nat.le_trans ?_ (hb.2 i (by rw [together_length]; exact h1') h2)
      simp only [wanted, together, List.get_eq_getElem, List.getElem_map, List.getElem_range]
      by_cases hz : largest (lens d x i) = 0
      · omega
      · exact le_largest (List.mem_flatMap.mpr ⟨x, hx, largest_mem hz⟩)
    have key : ∀ l : List (NL α d), Below (wanted (d + 1) (l : NL α (d + 1))) (n :: ns) → ns ≠ [] ∧ ∀ x ∈ l, Fits d ns x := by
      intro l h
      rw [wanted_succ] at h
      cases h with
      | cons _ h2 =>
        refine ⟨?_, fun x hx => fits_of d ns x (mono l ns h2 x hx)⟩
        intro e
        have := List.Forall₂.length_eq h2
        rw [together_length, e] at this; simp at this
    exact key l h

theorem below_refl (a : List Nat) : Below a a := by
  unfold Below
  rw [List.forall₂_same]; intro x _; exact Nat.le_refl x

/-! ### Which lists are taken -/

/-- The same as `Uniform`, level by level, for given sizes. -/
def UniformS : (d : Nat) → List Nat → NL α d → Prop
  | _, [], _ => False
  | 0, _ :: _, (l : List α) => l ≠ []
  | d + 1, n :: ns, (l : List (NL α d)) => l.length = n ∧ ∀ x ∈ l, UniformS d ns x

theorem prodL_ne {ns : List Nat} (h : prodL ns ≠ 0) : ∀ n ∈ ns, n ≠ 0 := by
  induction ns with
  | nil => simp
  | cons m ns ih =>
    intro n hn e
    rcases List.mem_cons.mp hn with rfl | hn
    · apply h; rw [prodL_cons, e, Nat.zero_mul]
    · refine ih ?_ n hn e
      intro hz; apply h; rw [prodL_cons, hz, Nat.mul_zero]

theorem uniformS_iff : ∀ (d : Nat) (ns : List Nat) (l : NL α d), ns.length = d + 1 →
    (UniformS d ns l ↔ (∀ i, i < d → ∀ m ∈ lens d l i, ns[i]? = some m) ∧ ∀ m ∈ lens d l d, m ≠ 0)
  | _, [], _, h => by simp at h
  | 0, n :: ns, l, h => by
    have key : ∀ l : List α, (l ≠ [] ↔ (∀ i, i < 0 → ∀ m ∈ lens 0 (l : NL α 0) i, (n :: ns)[i]? = some m) ∧ ∀ m ∈ lens 0 (l : NL α 0) 0, m ≠ 0) := by
      intro l
      simp [lens]
    exact key l
  | d + 1, n :: ns, l, h => by
    have hns : ns.length = d + 1 := by simpa using h
    have key : ∀ l : List (NL α d), ((l.length = n ∧ ∀ x ∈ l, UniformS d ns x) ↔
        (∀ i, i < d + 1 → ∀ m ∈ lens (d + 1) (l : NL α (d + 1)) i, (n :: ns)[i]? = some m) ∧ ∀ m ∈ lens (d + 1) (l : NL α (d + 1)) (d + 1), m ≠ 0) := by
      intro l
      constructor
      · rintro ⟨h1, h2⟩
        refine ⟨?_, ?_⟩
        · intro i hi m hm
          cases i with
          | zero => simp only [lens, List.mem_singleton] at hm; simp [hm, h1]
          | succ i =>
            simp only [lens, List.mem_flatMap] at hm
            obtain ⟨x, hx, hm⟩ := hm
            simpa using ((uniformS_iff d ns x hns).mp (h2 x hx)).1 i (by omega) m hm
        · intro m hm
          simp only [lens, List.mem_flatMap] at hm
          obtain ⟨x, hx, hm⟩ := hm
          exact ((uniformS_iff d ns x hns).mp (h2 x hx)).2 m hm
      · rintro ⟨h1, h2⟩
        refine ⟨?_, ?_⟩
        · have := h1 0 (by omega) l.length (by simp [lens])
          simpa using this.symm
        · intro x hx
          refine (uniformS_iff d ns x hns).mpr ⟨?_, ?_⟩
          · intro i hi m hm
            have := h1 (i + 1) (by omega) m (by simp only [lens, List.mem_flatMap]; exact ⟨x, hx, hm⟩)
            simpa using this
          · intro m hm
            exact h2 m (by simp only [lens, List.mem_flatMap]; exact ⟨x, hx, hm⟩)
    exact key l

theorem uniform_iff (d : Nat) (l : NL α d) (h : prodL (wanted d l) ≠ 0) : Uniform d l ↔ UniformS d (wanted d l) l := by
  rw [uniformS_iff d _ l (wanted_length d l), Uniform]
  have hget : ∀ i, i < d → (wanted d l)[i]? = some (largest (lens d l i)) := by
    intro i hi
    rw [wanted, List.getElem?_map, List.getElem?_range (by omega)]; rfl
  have hne : ∀ i, i < d → largest (lens d l i) ≠ 0 := by
    intro i hi
    exact prodL_ne h _ (List.mem_of_getElem? (hget i hi))
  constructor
  · rintro ⟨h1, h2⟩
    refine ⟨fun i hi m hm => ?_, h2⟩
    rw [hget i hi, h1 i hi m hm _ (largest_mem (hne i hi))]
  · rintro ⟨h1, h2⟩
    refine ⟨fun i hi m hm n hn => ?_, h2⟩
    have := (h1 i hi m hm).symm.trans (h1 i hi n hn)
    exact Option.some.inj this

theorem rowPlan_ok {n : Nat} (hn : n ≠ 0) {l : List α} (hl : l.length ≤ n) : (rowPlan n l).2 = .ok ↔ l ≠ [] := by
  rw [rowPlan]
  cases hg : l.getLast? with
  | none =>
    have : l = [] := List.getLast?_eq_none_iff.mp hg
    subst this
    simp [hn]
  | some a =>
    have : l ≠ [] := by intro e; subst e; simp at hg
    simp only [this, ne_eq, not_false_iff, iff_true]
    split <;> rfl

theorem nlPlan_ok : ∀ (d : Nat) (ns : List Nat) (l : NL α d), ns.length = d + 1 → Fits d ns l → prodL ns ≠ 0 →
    ((nlPlan d ns l).2 = .ok ↔ UniformS d ns l)
  | _, [], _, h, _, _ => by simp at h
  | 0, n :: ns, l, h, hf, hp => rowPlan_ok (prodL_ne hp n (by simp)) hf
  | d + 1, n :: ns, l, h, hf, hp => by
    have hns : ns.length = d + 1 := by simpa using h
    have hp' : prodL ns ≠ 0 := by intro e; apply hp; rw [prodL_cons, e, Nat.mul_zero]
    have key : ∀ l : List (NL α d), (∀ x ∈ l, Fits d ns x) → ((nlPlan (d + 1) (n :: ns) (l : NL α (d + 1))).2 = .ok ↔ (l.length = n ∧ ∀ x ∈ l, UniformS d ns x)) := by
      intro l hf
      simp only [nlPlan]
      by_cases hn : n ≠ l.length
      · rw [if_pos hn]; simp; intro e; exact absurd e.symm hn
      · rw [if_neg hn, seqPlan_ok]
        have hn' : l.length = n := by simpa using (Decidable.not_not.mp hn).symm
        simp only [hn', true_and, List.mem_map, forall_exists_index, and_imp, forall_apply_eq_imp_iff₂]
        constructor
        · intro hh x hx; exact (nlPlan_ok d ns x hns (hf x hx) hp').mp (hh x hx)
        · intro hh x hx; exact (nlPlan_ok d ns x hns (hf x hx) hp').mpr (hh x hx)
    exact key l hf.2

/-! ### The elements -/

theorem flatMap_range {β γ : Type} (f : β → List γ) (g : Nat → List γ) : ∀ (l : List β), (∀ i (hi : i < l.length), g i = f l[i]) →
    (List.range l.length).flatMap g = l.flatMap f := by
  intro l
  induction l generalizing g with
  | nil => intro _; rfl
  | cons x l ih =>
    intro h
    rw [List.length_cons, List.range_succ_eq_map, List.flatMap_cons, List.flatMap_map, List.flatMap_cons]
    rw [h 0 (by simp)]
    rw [ih (fun i => g i.succ) (fun i hi => by have := h (i + 1) (by simpa using hi); simpa using this)]
    rfl

theorem allIdx_one (n : Nat) : allIdx [n] = (List.range n).map fun i => [i] := by
  simp [allIdx, ← List.map_eq_flatMap]

theorem allIdx_length : ∀ (ns : List Nat), (allIdx ns).length = prodL ns
  | [] => rfl
  | n :: ns => by
    have : ∀ m, ((List.range m).flatMap fun i => (allIdx ns).map (i :: ·)).length = m * (allIdx ns).length := by
      intro m
      induction m with
      | zero => simp
      | succ m ih => rw [List.range_succ, List.flatMap_append, List.length_append, ih, Nat.succ_mul]; simp
    rw [allIdx, this, allIdx_length ns, prodL_cons]

theorem rowPlan_items {n : Nat} {l : List α} (hl : l.length ≤ n) (hne : l ≠ []) :
    (rowPlan n l).1.map some = (allIdx [n]).map (item 0 (l : NL α 0)) := by
  rw [allIdx_one, List.map_map]
  have hg : ∃ a, l.getLast? = some a := ⟨_, List.getLast?_eq_some_getLast hne⟩
  obtain ⟨a, ha⟩ := hg
  have hv : (rowPlan n l).1 = l ++ List.replicate (n - l.length) a := by
    rw [rowPlan, ha]
    by_cases hn : n - l.length ≠ 0
    · rw [if_pos hn]
    · rw [if_neg hn]
      have : n - l.length = 0 := by simpa using hn
      rw [this]; simp
  rw [hv]
  refine List.ext_getElem (by simp; omega) ?_
  intro i h1 h2
  simp only [List.getElem_map, List.getElem_range, Function.comp_apply, item]
  by_cases hi : i < l.length
  · rw [if_pos hi, List.getElem_append_left hi]; simp
  · rw [if_neg hi, List.getElem_append_right (by omega), ha]; simp

theorem nlPlan_items : ∀ (d : Nat) (ns : List Nat) (l : NL α d), ns.length = d + 1 → Fits d ns l → UniformS d ns l → prodL ns ≠ 0 →
    (nlPlan d ns l).1.map some = (allIdx ns).map (item d l)
  | _, [], _, h, _, _, _ => by simp at h
  | 0, n :: ns, l, h, hf, hu, _ => by
    have : ns = [] := List.length_eq_zero_iff.mp (by simpa using h)
    subst this
    exact rowPlan_items hf hu
  | d + 1, n :: ns, l, h, hf, hu, hp => by
    have hns : ns.length = d + 1 := by simpa using h
    have hp' : prodL ns ≠ 0 := by intro e; apply hp; rw [prodL_cons, e, Nat.mul_zero]
    have key : ∀ l : List (NL α d), (∀ x ∈ l, Fits d ns x) → l.length = n → (∀ x ∈ l, UniformS d ns x) →
        (nlPlan (d + 1) (n :: ns) (l : NL α (d + 1))).1.map some = (allIdx (n :: ns)).map (item (d + 1) (l : NL α (d + 1))) := by
      intro l hf hl hu
      have hok : ∀ q ∈ l.map (nlPlan d ns), q.2 = .ok := by
        intro q hq
        obtain ⟨x, hx, rfl⟩ := List.mem_map.mp hq
        exact (nlPlan_ok d ns x hns (hf x hx) hp').mpr (hu x hx)
      simp only [nlPlan]
      rw [if_neg (by rw [hl]; simp), seqPlan_vals _ hok, List.flatMap_map, List.map_flatMap, allIdx, List.map_flatMap, ← hl]
      symm
      refine flatMap_range (fun x => ((nlPlan d ns x).1).map some) _ l ?_
      intro i hi
      have hx : l[i] ∈ l := List.getElem_mem hi
      rw [nlPlan_items d ns l[i] hns (hf _ hx) (hu _ hx) hp', List.map_map]
      refine List.map_congr_left ?_
      intro js _
      simp [item, List.getElem?_eq_getElem hi]
    exact key l hf.2 hu.1 hu.2

end Verif.VectorNd
