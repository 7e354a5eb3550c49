import Verif.Model.Extents
import Verif.Model.Views
import Verif.Lemmas.Numeric
import Verif.Props.C10_Numeric
import Mathlib.Data.List.Forall2

/-!
# C111: extents and the storage sized by them

The specification: the size of a container is the product of its extents, as a mathematical number; the elements are numbered in row-major order.
-/
set_option autoImplicit false
set_option linter.unusedSectionVars false

namespace Verif.Extents

open Verif.Numeric

/-! ### Specification -/

/-- the product of the extents -/
def prod : List Int → Int
  | [] => 1
  | e :: es => e * prod es

/-- each index is in the range of its dimension -/
def InRange (es is : List Int) : Prop := List.Forall₂ (fun e i => 0 ≤ i ∧ i < e) es is

/-- the number of the element in row-major order -/
def flat : List Int → List Int → Int
  | _ :: es, i :: is => i * prod es + flat es is
  | _, _ => 0

/-- the values are values of the type -/
def Are (t : IntTy) (es : List Int) : Prop := ∀ e ∈ es, t.Mem e

/-! ### Lemmas -/

theorem prod_pos : ∀ {es : List Int}, (∀ e ∈ es, 0 < e) → 0 < prod es
  | [], _ => by decide
  | e :: es, h => by
    have h1 := h e (by simp)
    have h2 := prod_pos (fun x hx => h x (List.mem_cons_of_mem _ hx) : ∀ x ∈ es, 0 < x)
    simp only [prod]; nlinarith

theorem prod_nonneg : ∀ {es : List Int}, (∀ e ∈ es, 0 ≤ e) → 0 ≤ prod es
  | [], _ => by decide
  | e :: es, h => by
    have h1 := h e (by simp)
    have h2 := prod_nonneg (fun x hx => h x (List.mem_cons_of_mem _ hx) : ∀ x ∈ es, 0 ≤ x)
    simp only [prod]; exact Int.mul_nonneg h1 h2

theorem lo_nonpos (t : IntTy) : t.lo ≤ 0 := by
  unfold IntTy.lo
  have := two_pow_pos (t.bits - 1)
  split <;> omega

theorem hi_promote (t : IntTy) (h : 1 ≤ t.bits) : t.hi ≤ t.promote.hi := by
  unfold IntTy.promote
  split
  · rename_i hb
    have h1 := two_pow_mono (show t.bits ≤ 31 by omega)
    have h2 := two_pow_mono (show t.bits - 1 ≤ 31 by omega)
    unfold IntTy.hi i32
    simp only [if_true]
    split <;> simpa using (by assumption)
  · exact Int.le_refl _

theorem promote_bits (t : IntTy) (h : 1 ≤ t.bits) : 1 ≤ t.promote.bits := by
  unfold IntTy.promote; split
  · decide
  · exact h

theorem arith_fits (t : IntTy) (h : 1 ≤ t.bits) {x : Int} (hx : 0 ≤ x) (hh : x < t.hi) : t.arith x = some x := by
  have hl := lo_nonpos t
  have hm : t.Mem x := ⟨by omega, hh⟩
  unfold IntTy.arith
  split
  · rw [if_pos (show t.lo ≤ x ∧ x < t.hi from hm)]
  · rw [conv_id t h x hm]

theorem mul_fits (t : IntTy) (h : 1 ≤ t.bits) {a b : Int} (hx : 0 ≤ a * b) (hh : a * b < t.hi) : mul t a b = some (a * b) := by
  have hl := lo_nonpos t
  have hp := hi_promote t h
  unfold mul
  rw [arith_fits t.promote (promote_bits t h) hx (by omega)]
  simp only [Option.map]
  rw [conv_id t h _ ⟨by omega, hh⟩]

theorem totalImpl_fits (t : IntTy) (h : 1 ≤ t.bits) : ∀ (es : List Int), es ≠ [] → (∀ e ∈ es, 0 < e) → prod es < t.hi →
    totalImpl t es = some (prod es)
  | [], hn, _, _ => absurd rfl hn
  | [e], _, _, _ => by simp [totalImpl, prod]
  | e :: e' :: es, _, hp, hh => by
    have hp' : ∀ x ∈ e' :: es, 0 < x := fun x hx => hp x (List.mem_cons_of_mem _ hx)
    have h1 := hp e (by simp)
    have h2 := prod_pos hp'
    have hh' : prod (e' :: es) < t.hi := by
      have : prod (e :: e' :: es) = e * prod (e' :: es) := rfl
      nlinarith
    rw [totalImpl, totalImpl_fits t h (e' :: es) (by simp) hp' hh']
    exact mul_fits t h (by nlinarith) hh

theorem conv_unsigned (t : IntTy) (h : t.signed = false) (x : Int) : t.conv x = x % 2 ^ t.bits := by
  simp [IntTy.conv, IntTy.lo, h]

theorem totalImpl_unsigned (t : IntTy) (hs : t.signed = false) (hb : 32 ≤ t.bits) : ∀ (es : List Int), es ≠ [] → Are t es →
    totalImpl t es = some (prod es % 2 ^ t.bits)
  | [], hn, _ => absurd rfl hn
  | [e], _, ha => by
    have h1 := ha e (by simp)
    have := conv_id t (by omega) e h1
    rw [conv_unsigned t hs] at this
    simp [totalImpl, prod, this]
  | e :: e' :: es, _, ha => by
    rw [totalImpl, totalImpl_unsigned t hs hb (e' :: es) (by simp) (fun x hx => ha x (List.mem_cons_of_mem _ hx))]
    have hp : t.promote = t := by unfold IntTy.promote; rw [if_neg (by omega)]
    simp only [mul, hp, IntTy.arith, hs, Bool.false_eq_true, if_false, Option.map, conv_unsigned t hs]
    rw [show prod (e :: e' :: es) = e * prod (e' :: es) from rfl, Int.emod_emod, Int.mul_emod, Int.emod_emod, ← Int.mul_emod]

theorem u64_hi : u64.hi = 2 ^ 64 := rfl

theorem u64_conv (x : Int) (h0 : 0 ≤ x) (h : x < 2 ^ 64) : u64.conv x = x :=
  conv_id u64 (by decide) x ⟨h0, h⟩

/-- the descriptors with the true products -/
def exactDescr : List Int → List (Int × Int)
  | [] => []
  | e :: es => (e, prod (e :: es)) :: exactDescr es

theorem descriptors_fits : ∀ (es : List Int), (∀ e ∈ es, 0 < e) → prod es < 2 ^ 64 → descriptors es = exactDescr es
  | [], _, _ => rfl
  | [e], _, _ => by simp [descriptors, exactDescr, prod]
  | e :: e' :: es, hp, hh => by
    have hp' : ∀ x ∈ e' :: es, 0 < x := fun x hx => hp x (List.mem_cons_of_mem _ hx)
    have h1 := hp e (by simp)
    have h2 := prod_pos hp'
    have h3 : prod (e :: e' :: es) = e * prod (e' :: es) := rfl
    have hh' : prod (e' :: es) < 2 ^ 64 := by nlinarith
    rw [descriptors, descriptors_fits (e' :: es) hp' hh']
    simp only [exactDescr]
    rw [u64_conv _ (by nlinarith) (by rw [h3] at hh; exact hh), h3]

theorem descriptors_total : ∀ (es : List Int), es ≠ [] → Are u64 es → ∃ e ds, descriptors es = (e, prod es % 2 ^ 64) :: ds
  | [], hn, _ => absurd rfl hn
  | [e], _, ha => by
    have h1 := ha e (by simp)
    refine ⟨e, [], ?_⟩
    simp only [descriptors, prod, Int.mul_one]
    rw [Int.emod_eq_of_lt h1.1 (show e < 2 ^ 64 from h1.2)]
  | e :: e' :: es, _, ha => by
    obtain ⟨d, ds, hd⟩ := descriptors_total (e' :: es) (by simp) (fun x hx => ha x (List.mem_cons_of_mem _ hx))
    refine ⟨e, (d, prod (e' :: es) % 2 ^ 64) :: ds, ?_⟩
    rw [descriptors, hd]
    simp only [conv_unsigned u64 rfl]
    rw [show prod (e :: e' :: es) = e * prod (e' :: es) from rfl, show u64.bits = 64 from rfl, Int.mul_emod, Int.emod_emod, ← Int.mul_emod]

theorem access_fits (store : Int) : ∀ (es is : List Int) (base : Int), es ≠ [] → InRange es is → prod es < 2 ^ 64 → 0 ≤ base → base + prod es ≤ store →
    access store (exactDescr es) is base = .val (base + flat es is)
  | [], _, _, hn, _, _, _, _ => absurd rfl hn
  | [e], is, base, _, hr, hh, hb, hs => by
    cases hr with
    | cons h1 h2 =>
      cases h2
      simp only [prod] at hs
      simp only [exactDescr, access, flat, prod, Int.mul_one, Int.add_zero]
      rw [if_pos h1.2, if_pos ⟨by omega, by omega⟩]
  | e :: e' :: es, is, base, _, hr, hh, hb, hs => by
    cases hr with
    | @cons _ i _ is' h1 h2 =>
      have hpos : ∀ x ∈ e' :: es, 0 < x := by
        have : ∀ (xs ys : List Int), InRange xs ys → ∀ x ∈ xs, 0 < x := by
          intro xs ys h
          induction h with
          | nil => simp
          | cons h _ ih =>
            intro x hx
            rcases List.mem_cons.1 hx with rfl | hx
            · omega
            · exact ih x hx
        exact this _ _ h2
      have hP := prod_pos hpos
      have h3 : prod (e :: e' :: es) = e * prod (e' :: es) := rfl
      have hi0 : 0 ≤ i * prod (e' :: es) := Int.mul_nonneg h1.1 (by omega)
      have hi1 : i * prod (e' :: es) + prod (e' :: es) ≤ e * prod (e' :: es) := by nlinarith [h1.2]
      have hconv : u64.conv (i * prod (e' :: es)) = i * prod (e' :: es) := u64_conv _ hi0 (by omega)
      have hrec := access_fits store (e' :: es) is' (base + i * prod (e' :: es)) (by simp) h2 (by omega) (by omega) (by omega)
      rw [exactDescr] at hrec ⊢
      rw [exactDescr, access, if_pos h1.2]
      simp only [hconv]
      rw [if_pos ⟨by omega, by omega⟩, hrec, flat, Int.add_assoc]

theorem InRange.pos {es is : List Int} (h : InRange es is) : ∀ e ∈ es, 0 < e := by
  induction h with
  | nil => simp
  | cons h _ ih =>
    intro x hx
    rcases List.mem_cons.1 hx with rfl | hx
    · omega
    · exact ih x hx

theorem mem_promote (t : IntTy) (h : 1 ≤ t.bits) {x : Int} (hx : t.Mem x) : t.promote.Mem x := by
  unfold IntTy.promote
  split
  · rename_i hb
    have h1 := two_pow_mono (show t.bits ≤ 31 by omega)
    have h2 := two_pow_mono (show t.bits - 1 ≤ 31 by omega)
    have h3 : i32.lo = -2 ^ 31 := rfl
    have h4 : i32.hi = 2 ^ 31 := rfl
    unfold IntTy.Mem at *
    rw [h3, h4]
    unfold IntTy.lo IntTy.hi at hx
    split at hx <;> omega
  · exact hx

/-- a value of the type, not negative, is one of a type that is wider, or as wide and unsigned -/
theorem mem_wider {t u : IntTy} (ht : 1 ≤ t.bits) {x : Int} (hx : t.Mem x) (h0 : 0 ≤ x)
    (h : (t.signed = u.signed ∧ t.bits ≤ u.bits) ∨ (u.signed = false ∧ t.bits ≤ u.bits) ∨ t.bits < u.bits) : u.Mem x := by
  refine ⟨by have := lo_nonpos u; omega, ?_⟩
  have hx2 := hx.2
  have key : t.hi ≤ u.hi := by
    unfold IntTy.hi
    have hp := two_pow_mono (show t.bits - 1 ≤ t.bits by omega)
    have hle : t.bits ≤ u.bits := by omega
    have h1 := two_pow_mono hle
    have h2 := two_pow_mono (show t.bits - 1 ≤ u.bits - 1 by omega)
    rcases h with ⟨h, _⟩ | ⟨h, _⟩ | h
    · rw [h]; split <;> assumption
    · rw [h]; simp only [Bool.false_eq_true, if_false]; split <;> omega
    · have h3 := two_pow_mono (show t.bits ≤ u.bits - 1 by omega)
      split <;> split <;> omega
  omega

theorem common_comm (t u : IntTy) : common t u = common u t := by
  unfold common
  rcases t.promote with ⟨s, b⟩
  rcases u.promote with ⟨s', b'⟩
  cases s <;> cases s' <;> simp <;> split <;> split <;> first | rfl | (congr; omega) | omega

theorem common_bits (t u : IntTy) (h : 1 ≤ t.bits) (h' : 1 ≤ u.bits) : 1 ≤ (common t u).bits := by
  have h1 := promote_bits t h
  have h2 := promote_bits u h'
  unfold common
  dsimp only
  split
  · split <;> assumption
  · split <;> split <;> assumption

theorem mem_common_left {t u : IntTy} (ht : 1 ≤ t.bits) {x : Int} (hx : t.Mem x) (h : t.signed = u.signed ∨ 0 ≤ x) :
    (common t u).Mem x := by
  have hp := mem_promote t ht hx
  have hpb := promote_bits t ht
  by_cases h0 : 0 ≤ x
  · have key : (t.promote.signed = (common t u).signed ∧ t.promote.bits ≤ (common t u).bits) ∨
        ((common t u).signed = false ∧ t.promote.bits ≤ (common t u).bits) ∨ t.promote.bits < (common t u).bits := by
      unfold common
      dsimp only
      split
      · rename_i hs
        split
        · right; right; assumption
        · left; exact ⟨rfl, Nat.le_refl _⟩
      · split
        · split
          · left; exact ⟨rfl, Nat.le_refl _⟩
          · rename_i hs1 hs2 hb
            right; left
            refine ⟨?_, by omega⟩
            cases hu : u.promote.signed
            · rfl
            · rw [hs2, hu] at hs1; exact absurd rfl hs1
        · split
          · right; right; assumption
          · left; exact ⟨rfl, Nat.le_refl _⟩
    exact mem_wider hpb hp h0 key
  · have hs : t.signed = true := by
      cases hts : t.signed
      · have := hx.1; simp [IntTy.lo, hts] at this; omega
      · rfl
    have hsu : u.signed = true := by
      rcases h with h | h
      · rw [← h, hs]
      · exact absurd h h0
    have h1 : t.promote.signed = true := by unfold IntTy.promote; split <;> first | rfl | assumption
    have h2 : u.promote.signed = true := by unfold IntTy.promote; split <;> first | rfl | assumption
    have hc : common t u = if t.promote.bits < u.promote.bits then u.promote else t.promote := by
      unfold common; dsimp only; rw [if_pos (h1.trans h2.symm)]
    rw [hc]
    split
    · exact mem_sub (h1.trans h2.symm) (by omega) x hp
    · exact hp

/-! ### Making extents -/

/-- `dims` gives the numbers that were passed, if the size type has them all. -/
theorem C111_dims (t : IntTy) (ht : 1 ≤ t.bits) : ∀ (args : List Arg), (∀ a ∈ args, 1 ≤ a.ty.bits ∧ a.ty.Mem a.val) →
    (∀ a ∈ args, t.Mem a.val) → dims t args = .val (args.map (·.val))
  | [], _, _ => rfl
  | a :: as, h, hv => by
    obtain ⟨hb, hm⟩ := h a (by simp)
    have hd := C111_dims t ht as (fun x hx => h x (List.mem_cons_of_mem _ hx)) (fun x hx => hv x (List.mem_cons_of_mem _ hx))
    have hc := C31_narrow_cast a.ty t hb ht a.val hm
    rw [if_pos (show t.lo ≤ a.val ∧ a.val < t.hi from hv a (by simp))] at hc
    simp [dims, hc, hd]

/-- Otherwise the assertion fails: no other number is taken in its place. -/
theorem C111_dims_refused (t : IntTy) (ht : 1 ≤ t.bits) : ∀ (args : List Arg), (∀ a ∈ args, 1 ≤ a.ty.bits ∧ a.ty.Mem a.val) →
    (∃ a ∈ args, ¬ t.Mem a.val) → dims t args = .assert
  | [], _, h => by obtain ⟨a, ha, _⟩ := h; cases ha
  | a :: as, h, hv => by
    obtain ⟨hb, hm⟩ := h a (by simp)
    have hc := C31_narrow_cast a.ty t hb ht a.val hm
    by_cases ha : t.Mem a.val
    · rw [if_pos (show t.lo ≤ a.val ∧ a.val < t.hi from ha)] at hc
      have hd := C111_dims_refused t ht as (fun x hx => h x (List.mem_cons_of_mem _ hx)) (by
        obtain ⟨b, hb, hn⟩ := hv
        rcases List.mem_cons.1 hb with rfl | hb
        · exact absurd ha hn
        · exact ⟨b, hb, hn⟩)
      simp [dims, hc, hd]
    · rw [if_neg (show ¬ (t.lo ≤ a.val ∧ a.val < t.hi) from ha)] at hc
      simp [dims, hc]

example : dims u64 [⟨i32, 3⟩, ⟨⟨false, 8⟩, 200⟩] = .val [3, 200] ∧ dims u64 [⟨i32, 3⟩, ⟨i32, -1⟩] = .assert := by decide

/-- The extents without the first are the other extents. -/
theorem C111_sub (t : IntTy) (ht : 1 ≤ t.bits) (es : List Int) (h : Are t es) : subDims t es = .val es.tail := by
  unfold subDims ofRange
  split
  · rename_i hn
    cases es with
    | nil => rfl
    | cons e es => cases es with
      | nil => rfl
      | cons _ _ => simp at hn
  · rw [if_pos (by simp)]
    congr 1
    have : es.tail.map t.conv = es.tail.map id := List.map_congr_left (fun x hx => conv_id t ht x (h x (List.mem_of_mem_tail hx)))
    simpa using this

example : Are u64 [2, 3, 4] ∧ subDims u64 [2, 3, 4] = .val [3, 4] := by
  refine ⟨?_, by decide⟩
  intro e he; simp at he; rcases he with rfl | rfl | rfl <;> exact ⟨by decide, by decide⟩

/-- Each extent is read back by its number, the first by `front` and the last by `back`; a number that is too large makes `at` throw. -/
theorem C111_read (es : List Int) (i : Nat) :
    (∀ h : i < es.length, get es i = .val es[i] ∧ at' es i = .val es[i]) ∧ (es.length ≤ i → at' es i = .throws) ∧
    (∀ h : 0 < es.length, front es = .val es[0] ∧ back es = .val (es[es.length - 1]'(by omega))) ∧ (es = [] → get es i = .throws ∧ front es = .throws ∧ back es = .throws) := by
  refine ⟨fun h => ?_, fun h => ?_, fun h => ?_, fun h => ?_⟩
  · constructor
    · cases es with
      | nil => simp at h
      | cons e es => simp only [get]; rw [List.getElem?_eq_getElem h]
    · simp only [at']; rw [List.getElem?_eq_getElem h]
  · simp only [at']; rw [List.getElem?_eq_none h]
  · constructor
    · cases es with
      | nil => simp at h
      | cons e es => simp [front]
    · simp only [back]; rw [List.getLast?_eq_getElem?, List.getElem?_eq_getElem (by omega)]
  · subst h; simp [get, front, back]

example : get [2, 3, 4] 1 = .val 3 ∧ at' [2, 3, 4] 3 = .throws ∧ back [2, 3, 4] = .val 4 := by decide

/-! ### The total size -/

/-- The total size from a dimension on is the product of the extents from it on: if it is a number of the size type and no extent
is zero. Missing: extents of which one is zero, small size types, and a dimension past the last (see below). -/
theorem C111_total_partial (t : IntTy) (ht : 1 ≤ t.bits) (es : List Int) (k : Nat) (hk : k < es.length) (hp : ∀ e ∈ es, 0 < e)
    (hh : prod (es.drop k) < t.hi) : total t es k = .val (prod (es.drop k)) := by
  unfold total
  have : (if k ≥ es.length - 1 then es.length - 1 else k) = k := by split <;> omega
  rw [this, totalImpl_fits t ht _ (by intro h; have := congrArg List.length h; simp at this; omega)
    (fun e he => hp e (List.mem_of_mem_drop he)) hh]

example : total i32 [2, 3, 4] 1 = .val 12 ∧ prod ([2, 3, 4].drop 1) = 12 := by decide

/-- In an unsigned type as wide as `int` or wider it is the product modulo the power of two, always defined. -/
theorem C111_total_unsigned (t : IntTy) (hs : t.signed = false) (hb : 32 ≤ t.bits) (es : List Int) (k : Nat) (hk : k < es.length)
    (ha : Are t es) : total t es k = .val (prod (es.drop k) % 2 ^ t.bits) := by
  unfold total
  have : (if k ≥ es.length - 1 then es.length - 1 else k) = k := by split <;> omega
  rw [this, totalImpl_unsigned t hs hb _ (by intro h; have := congrArg List.length h; simp at this; omega)
    (fun e he => ha e (List.mem_of_mem_drop he))]

/-- The total is a number of the type, namely zero, but computing it overflows. -/
theorem C111_total_zero_violated : Are i32 [0, 65536, 65536] ∧ prod [0, 65536, 65536] = 0 ∧ total i32 [0, 65536, 65536] = .ub := by
  refine ⟨?_, by decide, by decide⟩
  intro e he; simp at he; rcases he with rfl | rfl | rfl <;> exact ⟨by decide, by decide⟩

/-- An unsigned type narrower than `int` does not wrap: the product is computed in `int` and overflows. -/
theorem C111_total_small_violated : Are ⟨false, 16⟩ [65535, 65535] ∧ total ⟨false, 16⟩ [65535, 65535] = .ub := by
  refine ⟨?_, by decide⟩
  intro e he; simp at he; subst he; exact ⟨by decide, by decide⟩

/-- From the dimension past the last on there are no extents, the product is 1; what is given is the last extent. -/
theorem C111_total_start_violated (t : IntTy) (es : List Int) (h : es ≠ []) : total t es es.length = .val (es.getLast h) ∧ prod (es.drop es.length) = 1 := by
  constructor
  · unfold total
    have hd : es.drop (es.length - 1) = [es.getLast h] := by
      conv => lhs; arg 2; rw [← List.dropLast_append_getLast h]
      rw [List.drop_append_of_le_length (by simp)]
      simp
    rw [if_pos (by omega), hd]
    rfl
  · simp [prod]

example : total u64 [2, 3] 2 = .val 3 := (C111_total_start_violated u64 [2, 3] (by decide)).1

/-- The total size of no dimensions is 0, so the total size is not the first extent times the total size of the others if there is one
dimension. -/
theorem C111_total_none_violated : total u64 [7] = .val 7 ∧ subDims u64 [7] = .val [] ∧ total u64 [] = .val 0 ∧ prod [] = 1 := by decide

/-! ### Comparison -/

/-- Extents with the same number of dimensions compare equal exactly if they are the same numbers: if the size types have the same
signedness or no extent is negative. Missing: other extents (see below). -/
theorem C111_equal_partial (t u : IntTy) (ht : 1 ≤ t.bits) (hu : 1 ≤ u.bits) : ∀ (xs ys : List Int), xs.length = ys.length → Are t xs → Are u ys →
    (t.signed = u.signed ∨ ((∀ x ∈ xs, 0 ≤ x) ∧ ∀ y ∈ ys, 0 ≤ y)) → (equal t u xs ys = true ↔ xs = ys)
  | [], [], _, _, _, _ => by simp [equal]
  | [], _ :: _, hl, _, _, _ => by simp at hl
  | _ :: _, [], hl, _, _, _ => by simp at hl
  | x :: xs, y :: ys, hl, hx, hy, h => by
    have ih := C111_equal_partial t u ht hu xs ys (by simpa using hl) (fun e he => hx e (List.mem_cons_of_mem _ he))
      (fun e he => hy e (List.mem_cons_of_mem _ he)) (h.imp_right fun h => ⟨fun e he => h.1 e (List.mem_cons_of_mem _ he), fun e he => h.2 e (List.mem_cons_of_mem _ he)⟩)
    have hb := common_bits t u ht hu
    have h1 : (common t u).conv x = x := conv_id _ hb x (mem_common_left ht (hx x (by simp)) (h.imp_right fun h => h.1 x (by simp)))
    have h2 : (common t u).conv y = y := by
      refine conv_id _ hb y ?_
      rw [common_comm]
      exact mem_common_left hu (hy y (by simp)) ((h.imp_left Eq.symm).imp_right fun h => h.2 y (by simp))
    simp [equal, h1, h2, ih]

example : equal i32 u64 [2, 3] [2, 3] = true ∧ equal ⟨true, 8⟩ i64 [-2, 3] [-2, 4] = false := by decide

/-- Different extents that compare equal. -/
theorem C111_equal_violated : i32.Mem (-1) ∧ u32.Mem 4294967295 ∧ equal i32 u32 [-1] [4294967295] = true :=
  ⟨⟨by decide, by decide⟩, ⟨by decide, by decide⟩, by decide⟩

/-- Two extents equal to a third are not equal to each other. -/
theorem C111_transitive_violated : equal i64 i32 [-1] [-1] = true ∧ equal i32 u32 [-1] [4294967295] = true ∧ equal i64 u32 [-1] [4294967295] = false := by decide

/-- The comparison does not depend on the order. -/
theorem C111_equal_symm (t u : IntTy) : ∀ (xs ys : List Int), equal t u xs ys = equal u t ys xs
  | [], [] => rfl
  | [], _ :: _ => rfl
  | _ :: _, [] => rfl
  | x :: xs, y :: ys => by
    simp only [equal]
    rw [C111_equal_symm t u xs ys, common_comm u t]
    congr 1
    exact decide_eq_decide.2 ⟨Eq.symm, Eq.symm⟩

/-! ### Vectors -/

/-- Every index in the range of the extents names an element of the vector, in row-major order: if the product of the extents is a
value of `size_t`. Missing: larger products (see below). -/
theorem C111_vector_partial (es is : List Int) (hn : es ≠ []) (hr : InRange es is) (hh : prod es < 2 ^ 64) :
    (construct es).store = prod es ∧ (construct es).get is = .val (flat es is) := by
  have hd := descriptors_fits es hr.pos hh
  have hs : (construct es).store = prod es := by
    simp only [construct, hd]
    cases es with
    | nil => exact absurd rfl hn
    | cons e es => simp [exactDescr, Vec.total]
  refine ⟨hs, ?_⟩
  have := access_fits (prod es) es is 0 hn hr hh (by omega) (by omega)
  rw [Int.zero_add] at this
  unfold Vec.get
  rw [hs, show (construct es).descr = exactDescr es from hd, this]

/-- The number of an element in row-major order is less than the product. -/
theorem flat_lt : ∀ (es is : List Int), InRange es is → 0 ≤ flat es is ∧ flat es is < prod es
  | _, _, .nil => by simp [flat, prod]
  | _, _, @List.Forall₂.cons _ _ _ e i es is h hs => by
    have ih := flat_lt es is hs
    have hp := prod_pos (InRange.pos hs)
    simp only [flat, prod]
    constructor
    · have := Int.mul_nonneg h.1 (Int.le_of_lt hp); omega
    · nlinarith [h.2]

example : InRange [2, 3] [1, 2] ∧ (construct [2, 3]).get [1, 2] = .val 5 := by
  refine ⟨.cons ⟨by decide, by decide⟩ (.cons ⟨by decide, by decide⟩ .nil), by decide⟩

/-- A vector of 2^32 times 2^32 elements is made with storage for none. Its indices are in range and no assertion fails, but there is no element. -/
theorem C111_vector_violated : Are u64 [2 ^ 32, 2 ^ 32] ∧ InRange [2 ^ 32, 2 ^ 32] [0, 0] ∧ (construct [2 ^ 32, 2 ^ 32]).store = 0 ∧
    (construct [2 ^ 32, 2 ^ 32]).get [0, 0] = .ub := by
  refine ⟨?_, .cons ⟨by decide, by decide⟩ (.cons ⟨by decide, by decide⟩ .nil), by decide, by decide⟩
  intro e he; simp at he; subst he; exact ⟨by decide, by decide⟩

/-- A vector is reshaped exactly if the number of elements is the same: if the products are values of `size_t`. Missing: larger products
(see below). -/
theorem C111_reshape_partial (es fs : List Int) (hn : es ≠ []) (hm : fs ≠ []) (ha : Are u64 es) (hb : Are u64 fs) (hes : prod es < 2 ^ 64) (hfs : prod fs < 2 ^ 64) :
    ((reshape (construct es) fs).isSome ↔ prod fs = prod es) := by
  have h0 : 0 ≤ prod es := prod_nonneg fun e he => (ha e he).1
  have h1 : 0 ≤ prod fs := prod_nonneg fun e he => (hb e he).1
  obtain ⟨e, ds, hd⟩ := descriptors_total es hn ha
  have ht : (construct es).total = prod es := by
    simp only [construct, Vec.total, hd]
    exact Int.emod_eq_of_lt h0 hes
  unfold reshape
  rw [totalImpl_unsigned u64 rfl (by decide) fs hm hb, ht]
  simp only [show u64.bits = 64 from rfl]
  rw [Int.emod_eq_of_lt h1 hfs]
  by_cases h : prod fs = prod es <;> simp [h]

/-- The indices of the new extents name the elements, in the same order as before. -/
theorem C111_reshape_elements (es fs is : List Int) (v : Vec) (hn : es ≠ []) (hm : fs ≠ []) (ha : Are u64 es) (hb : Are u64 fs) (hes : prod es < 2 ^ 64) (hfs : prod fs < 2 ^ 64)
    (h : reshape (construct es) fs = some v) (hr : InRange fs is) : v.store = prod es ∧ v.get is = .val (flat fs is) := by
  have heq := (C111_reshape_partial es fs hn hm ha hb hes hfs).1 (by rw [h]; rfl)
  have h0 : 0 ≤ prod es := prod_nonneg fun e he => (ha e he).1
  obtain ⟨e, ds, hd⟩ := descriptors_total es hn ha
  have hst : (construct es).store = prod es := by
    simp only [construct, Vec.total, hd]
    exact Int.emod_eq_of_lt h0 hes
  have hv : v = ⟨descriptors fs, (construct es).store⟩ := by
    unfold reshape at h
    split at h
    · cases h
    · split at h
      · exact (Option.some.inj h).symm
      · cases h
  subst hv
  refine ⟨hst, ?_⟩
  unfold Vec.get
  simp only []
  rw [hst, descriptors_fits fs hr.pos hfs, access_fits (prod es) fs is 0 hm hr hfs (by omega) (by omega), Int.zero_add]

example : (reshape (construct [2, 6]) [3, 4]).isSome = true ∧ (reshape (construct [2, 6]) [3, 5]).isSome = false ∧ InRange [3, 4] [2, 3] := by
  refine ⟨by decide, by decide, .cons ⟨by decide, by decide⟩ (.cons ⟨by decide, by decide⟩ .nil)⟩

/-- A vector without elements is reshaped to one of 2^32 times 2^32. -/
theorem C111_reshape_violated : ∃ v, reshape (construct [0, 5]) [2 ^ 32, 2 ^ 32] = some v ∧ v.store = 0 ∧ v.get [0, 0] = .ub ∧ prod [2 ^ 32, 2 ^ 32] ≠ prod [0, 5] :=
  ⟨⟨descriptors [2 ^ 32, 2 ^ 32], 0⟩, by decide, by decide, by decide, by decide⟩

/-! ### The model with natural numbers

Model/Views.lean takes extents and products as natural numbers. It says the same as the arithmetic in `size_t` if the product fits. -/

theorem exactDescr_dense : ∀ (es : List Nat), exactDescr (es.map Int.ofNat) = (Views.denseDescs 1 es).map (fun d => ((d.size : Int), (d.total : Int)))
  | [] => rfl
  | e :: es => by
    have ih := exactDescr_dense es
    cases es with
    | nil => simp [exactDescr, Views.denseDescs, prod]
    | cons e' es =>
      cases hd : Views.denseDescs 1 (e' :: es) with
      | nil => rw [hd] at ih; simp [exactDescr] at ih
      | cons d ds =>
        rw [hd] at ih
        rw [Views.denseDescs, hd]
        simp only [List.map_cons] at ih ⊢
        rw [exactDescr, ih]
        simp only [exactDescr, List.cons.injEq, Prod.mk.injEq] at ih
        rw [List.cons.injEq]
        refine ⟨?_, rfl⟩
        rw [Prod.mk.injEq]
        refine ⟨rfl, ?_⟩
        rw [prod, ih.1.2]
        simp

theorem elem_dense : ∀ (es is : List Nat) (p : Nat), es ≠ [] → is.length = es.length →
    ∃ n : Nat, Views.elem 1 p (Views.denseDescs 1 es) is = some n ∧ (n : Int) = p + flat (es.map Int.ofNat) (is.map Int.ofNat)
  | [], _, _, hn, _ => absurd rfl hn
  | [e], is, p, _, hl => by
    match is, hl with
    | [i], _ => exact ⟨p + i * 1, by simp [Views.denseDescs, Views.elem], by simp [flat, prod]⟩
  | e :: e' :: es, is, p, _, hl => by
    match is, hl with
    | i :: is, hl =>
      have hx := exactDescr_dense (e' :: es)
      cases hd : Views.denseDescs 1 (e' :: es) with
      | nil => rw [hd] at hx; simp [exactDescr] at hx
      | cons d ds =>
        have hoff : d.offset = d.total := by
          rw [Views.denseDescs] at hd
          split at hd <;> (obtain ⟨rfl, _⟩ := List.cons.inj hd; simp)
        rw [hd] at hx
        simp only [List.map_cons, exactDescr, List.cons.injEq, Prod.mk.injEq] at hx
        obtain ⟨n, hn, he⟩ := elem_dense (e' :: es) is (p + i * d.offset) (by simp) (by simpa using hl)
        refine ⟨n, ?_, ?_⟩
        · rw [Views.denseDescs, hd]
          simp only [Views.elem]
          rw [← hd]; exact hn
        · rw [he]
          simp only [List.map_cons, flat]
          have h1 : prod (Int.ofNat e' :: es.map Int.ofNat) = (d.total : Int) := hx.1.2
          rw [h1, hoff]
          simp [Int.add_assoc]

/-- An element of a vector whose product of extents fits is where the model with natural numbers has it. -/
theorem C111_agrees (es is : List Nat) (hn : es ≠ []) (hr : InRange (es.map Int.ofNat) (is.map Int.ofNat)) (hh : prod (es.map Int.ofNat) < 2 ^ 64) :
    ∃ n : Nat, (construct (es.map Int.ofNat)).get (is.map Int.ofNat) = .val n ∧ Views.elem 1 0 (Views.denseDescs 1 es) is = some n := by
  have hl : is.length = es.length := by have := hr.length_eq; simpa using this.symm
  obtain ⟨n, h1, h2⟩ := elem_dense es is 0 hn hl
  refine ⟨n, ?_, h1⟩
  rw [(C111_vector_partial _ _ (by simpa using hn) hr hh).2, h2]
  simp

example : (construct [2, 3, 4]).get [1, 2, 3] = .val 23 ∧ Views.elem 1 0 (Views.denseDescs 1 [2, 3, 4]) [1, 2, 3] = some 23 := by decide

/-- If the product does not fit, the model with natural numbers has an element where there is none. -/
theorem C111_agrees_limit : (construct [2 ^ 32, 2 ^ 32]).get [0, 0] = .ub ∧ Views.elem 1 0 (Views.denseDescs 1 [2 ^ 32, 2 ^ 32]) [0, 0] = some 0 := by decide

end Verif.Extents
