import Verif.Lemmas.Numeric
import Verif.Props.C08_Ranges

/-!
C10 (numeric ranges), C31 (narrow_cast).
-/
set_option autoImplicit false

namespace Verif.Numeric

/-! ### C31 -/

/-- **C31**: for every pair of integer types (any widths, any signedness) and every value of the source type, the checked cast
succeeds exactly when the target type can represent the value, and then returns it. -/
theorem C31_narrow_cast (src dst : IntTy) (hs : 1 ≤ src.bits) (hd : 1 ≤ dst.bits) (v : Int) (hv : src.Mem v) :
    narrowCast src dst v = if dst.lo ≤ v ∧ v < dst.hi then some v else none := by
  have hcd := conv_mem dst hd v
  by_cases hm : dst.lo ≤ v ∧ v < dst.hi
  · have h1 : dst.conv v = v := conv_id dst hd v hm
    have h2 : src.conv v = v := conv_id src hs v hv
    rw [if_pos hm]
    simp [narrowCast, narrowOk, h1, h2]
  · rw [if_neg hm, narrowCast, if_neg]
    intro hok
    simp only [narrowOk, Bool.and_eq_true, decide_eq_true_eq, Bool.or_eq_true, beq_iff_eq, decide_eq_decide] at hok
    obtain ⟨h1, h2⟩ := hok
    apply hm
    -- if the converted value is also a value of the source type, it is the value itself
    have key : src.Mem (dst.conv v) → dst.lo ≤ v ∧ v < dst.hi := by
      intro h
      rw [conv_id src hs _ h] at h1
      rw [h1]
      exact hcd
    by_cases hsig : src.signed = dst.signed
    · rcases Nat.le_total src.bits dst.bits with hb | hb
      · exact mem_sub hsig hb v hv
      · exact key (mem_sub hsig.symm hb _ hcd)
    · have h3 : dst.conv v < 0 ↔ v < 0 := by
        rcases h2 with h2 | h2
        · exact absurd h2 hsig
        · exact h2
      have p1 := two_pow_half hs
      have p2 := two_pow_half hd
      have p3 := two_pow_pos (src.bits - 1)
      have p4 := two_pow_pos (dst.bits - 1)
      cases hss : src.signed
      · have hds : dst.signed = true := by cases h : dst.signed <;> first | rfl | (exact absurd (hss.trans h.symm) hsig)
        simp only [IntTy.Mem, IntTy.lo, IntTy.hi, hss, hds] at hv hcd key ⊢
        simp only [Bool.false_eq_true, if_false, if_true] at hv hcd key ⊢
        rcases Nat.le_total src.bits (dst.bits - 1) with hb | hb
        · have := two_pow_mono hb
          exact ⟨by omega, by omega⟩
        · have := two_pow_mono hb
          exact key ⟨by omega, by omega⟩
      · have hds : dst.signed = false := by cases h : dst.signed <;> first | rfl | (exact absurd (hss.trans h.symm) hsig)
        simp only [IntTy.Mem, IntTy.lo, IntTy.hi, hss, hds] at hv hcd key ⊢
        simp only [Bool.false_eq_true, if_false, if_true] at hv hcd key ⊢
        rcases Nat.le_total (src.bits - 1) dst.bits with hb | hb
        · have := two_pow_mono hb
          exact ⟨by omega, by omega⟩
        · have := two_pow_mono hb
          exact key ⟨by omega, by omega⟩

example : narrowCast i64 u32 4294967295 = some 4294967295 ∧ narrowCast i64 u32 (-1) = none ∧ narrowCast u32 i32 4294967295 = none ∧
    narrowCast i32 ⟨true, 8⟩ 128 = none ∧ narrowCast i32 ⟨true, 8⟩ (-128) = some (-128) := by decide

/-! ### C10 -/

/-- The integers from `a` up to but excluding `b`. -/
def interval (a b : Int) : List Int := (List.range (b - a).toNat).map fun (i : Nat) => a + (i : Int)

/-- **C10**, enumeration: for every integer type, `numeric_range(a, b)` with `a ≤ b` is the sequence `a, a+1, ..., b-1`; no step
fails an assertion or overflows. -/
theorem C10_enumerates (t : IntTy) (a b : Int) (ha : t.Mem a) (hb : t.Mem b) (h : a ≤ b) : Ranges.Rep (numericRange t a b) (interval a b) := by
  have hl : (interval a b).length = (b - a).toNat := by simp [interval]
  unfold IntTy.Mem at ha hb
  refine ⟨fun (i : Nat) (v : Int) => v = a + (i : Int), by simp [numericRange], by rw [hl]; show b = _; omega, ?_, ?_, ?_, ?_, ?_⟩
  · rintro i v rfl hi
    rw [hl] at hi
    simp [numericRange, numIter, interval, hi]
  · rintro i v rfl hi
    rw [hl] at hi
    refine ⟨(a + (i : Int) + 1 : Int), ?_, by push_cast; omega⟩
    simp only [numericRange, numIter]
    rw [if_pos (by omega)]
  · rintro i v rfl hi
    refine ⟨(a + ((i + 1 : Nat) : Int) - 1 : Int), ?_, by push_cast; omega⟩
    simp only [numericRange, numIter]
    rw [if_pos (by push_cast; omega)]
  · rintro i j v w rfl rfl _ _
    simp only [numericRange, numIter]
    by_cases hij : i = j
    · simp [hij]
    · rw [decide_eq_true hij, bne_iff_ne]; omega
  · intro i v hv _
    exact ⟨v, rfl, hv⟩

/-- A loop over `numeric_range(a, b)`. -/
theorem C10_loop (t : IntTy) (a b : Int) (ha : t.Mem a) (hb : t.Mem b) (h : a ≤ b) (fuel : Nat) (hf : (b - a).toNat < fuel) :
    (numericRange t a b).toList fuel = some (interval a b) :=
  (Ranges.C09_loop _ _ (C10_enumerates t a b ha hb h) fuel (by simpa [interval] using hf)).1

example : (numericRange i32 3 6).toList 10 = some [3, 4, 5] := by decide

/-- **C10 is violated** for reversed numeric ranges: a reverse iterator returns a reference into a temporary numeric iterator, for
every non-empty range (also through `fold_right`). -/
theorem C10_reverse_violated (t : IntTy) (a b : Int) (hab : a ≠ b) (fuel : Nat) : (numericRange t a b).reverse.toList fuel = none := by
  cases fuel with
  | zero => rfl
  | succ n =>
    have this' : ¬b = a := fun h => hab h.symm
    simp [Ranges.Rng.toList, Ranges.toList, Ranges.accumulate, Ranges.Rng.reverse, numericRange, Ranges.revIter, numIter, Ranges.copies, this']

/-- **C10 is violated** for a reversed zip of a numeric range with any other range: the tuple of references points into a temporary. -/
theorem C10_reverse_zip_violated {α : Type} (t : IntTy) (a b : Int) (hab : a ≠ b) (q : Ranges.Rng α) (fuel : Nat) :
    ((numericRange t a b).zip q).reverse.toList fuel = none ∧ (q.zip (numericRange t a b)).reverse.toList fuel = none := by
  cases fuel with
  | zero => exact ⟨by simp [Ranges.Rng.toList, Ranges.toList, Ranges.accumulate, Ranges.copies], by simp [Ranges.Rng.toList, Ranges.toList, Ranges.accumulate, Ranges.copies]⟩
  | succ n =>
    have this' : ¬b = a := fun h => hab h.symm
    have hc : ∀ (o : Option q.σ) (b : Int) (u : q.σ) (v : Int), (o.bind fun x => some (x, b)) = some (u, v) → v = b := by
      intro o b u v h
      cases o with
      | none => cases h
      | some x => cases h; rfl
    constructor
    · simp [Ranges.Rng.toList, Ranges.toList, Ranges.accumulate, Ranges.Rng.reverse, Ranges.Rng.zip, Ranges.zipIter, numericRange, Ranges.revIter, numIter, Ranges.copies, this']
    · simp [Ranges.Rng.toList, Ranges.toList, Ranges.accumulate, Ranges.Rng.reverse, Ranges.Rng.zip, Ranges.zipIter, numericRange, Ranges.revIter, numIter, Ranges.copies]
      intro u v h1 w z h2 _ hvz
      rw [hc _ _ _ _ h1, hc _ _ _ _ h2] at hvz
      exact this' hvz

theorem promote_mem (t : IntTy) (hb : 1 ≤ t.bits) (x : Int) (hx : t.Mem x) : t.promote.Mem x := by
  unfold IntTy.promote
  split
  · rename_i h
    unfold IntTy.Mem IntTy.lo IntTy.hi at *
    have h1 := two_pow_mono (show t.bits ≤ 31 by omega)
    have h2 := two_pow_mono (show t.bits - 1 ≤ 31 by omega)
    simp only [i32]
    split at hx <;> simp_all <;> omega
  · exact hx

theorem i64_conv_dvd (x : Int) (n : Nat) (h : n ≤ 64) : (2 : Int) ^ n ∣ i64.conv x - x :=
  Int.dvd_trans (two_pow_dvd h) (conv_dvd i64 x)

/-- The integer types of C++. -/
def Width (t : IntTy) : Prop := t.bits = 8 ∨ t.bits = 16 ∨ t.bits = 32 ∨ t.bits = 64

/-- **C10**, `i + (j - i) = j` in a release build, for every integer type of 8 to 64 bits and all values, also for `j < i`; for
signed types as long as the difference itself does not overflow the type it is computed in (int for narrower types). -/
theorem C10_plus_difference (t : IntTy) (hw : Width t) (i j : Int) (hi : t.Mem i) (hj : t.Mem j)
    (hd : t.signed = true → t.promote.Mem (j - i)) :
    (dist t j i).bind (plus t i) = some j := by
  have hb : 1 ≤ t.bits := by unfold Width at hw; omega
  have hb' : t.bits ≤ 64 := by unfold Width at hw; omega
  by_cases hp : t.promote.signed = true
  · -- the difference is computed in a signed type
    have hmem : t.promote.Mem (j - i) := by
      by_cases hs : t.signed = true
      · exact hd hs
      · by_cases h32 : t.bits < 32
        · have h1 := two_pow_mono (show t.bits ≤ 31 by omega)
          simp only [IntTy.promote, h32, if_true]
          unfold IntTy.Mem IntTy.lo IntTy.hi at *
          simp only [i32, hs] at *
          simp at *
          omega
        · simp [IntTy.promote, h32] at hp; exact absurd hp hs
    have hdist : dist t j i = some (i64.conv (j - i)) := by
      unfold dist IntTy.arith
      rw [if_pos hp, if_pos (show t.promote.lo ≤ j - i ∧ j - i < t.promote.hi from hmem)]
      rfl
    rw [hdist, Option.bind_some]
    have hcd : (2 : Int) ^ t.bits ∣ (i + t.conv (i64.conv (j - i))) - j := by
      have h1 := Int.dvd_add (conv_dvd t (i64.conv (j - i))) (i64_conv_dvd (j - i) t.bits hb')
      rwa [show t.conv (i64.conv (j - i)) - i64.conv (j - i) + (i64.conv (j - i) - (j - i)) = i + t.conv (i64.conv (j - i)) - j by omega] at h1
    have hsum : t.promote.Mem (i + t.conv (i64.conv (j - i))) := by
      by_cases h32 : t.bits < 32
      · have h1 := conv_mem t hb (i64.conv (j - i))
        have h2 := two_pow_mono (show t.bits ≤ 31 by omega)
        have h3 := two_pow_mono (show t.bits - 1 ≤ 30 by omega)
        simp only [IntTy.promote, h32, if_true] at hmem ⊢
        have h4 := two_pow_mono (show t.bits ≤ 16 by unfold Width at hw; omega)
        by_cases h31 : t.signed = true
        · unfold IntTy.Mem IntTy.lo IntTy.hi at *
          simp only [i32, h31] at *
          simp at *
          omega
        · unfold IntTy.Mem IntTy.lo IntTy.hi at *
          simp only [i32, h31] at *
          simp at *
          omega
      · have hpt : t.promote = t := by simp [IntTy.promote, h32]
        rw [hpt] at hp hmem ⊢
        have h64 : i64.Mem (j - i) := by
          refine mem_sub (s := t) ?_ hb' _ hmem
          rw [hp]; rfl
        rw [conv_id i64 (by decide) _ h64, conv_id t hb _ hmem, show i + (j - i) = j by omega]
        exact hj
    unfold plus IntTy.arith
    rw [if_pos hp, if_pos (show t.promote.lo ≤ _ ∧ _ < t.promote.hi from hsum), Option.map_some, conv_unique t hb _ j hj hcd]
  · -- unsigned of at least 32 bits: everything wraps
    have hpt : t.promote = t := by
      unfold IntTy.promote at hp ⊢
      split at hp
      · simp [i32] at hp
      · rename_i h; rw [if_neg h]
    rw [hpt] at hp
    have hdist : dist t j i = some (i64.conv (t.conv (j - i))) := by
      unfold dist IntTy.arith
      rw [hpt, if_neg hp]
      rfl
    rw [hdist, Option.bind_some]
    unfold plus IntTy.arith
    rw [hpt, if_neg hp, Option.map_some]
    congr 1
    refine conv_unique t hb _ j hj ?_
    have h1 := conv_dvd t (i + t.conv (i64.conv (t.conv (j - i))))
    have h2 := conv_dvd t (i64.conv (t.conv (j - i)))
    have h3 := i64_conv_dvd (t.conv (j - i)) t.bits hb'
    have h4 := conv_dvd t (j - i)
    have h5 := Int.dvd_add (Int.dvd_add h1 h2) (Int.dvd_add h3 h4)
    generalize t.conv (i + t.conv (i64.conv (t.conv (j - i)))) = A at *
    generalize t.conv (i64.conv (t.conv (j - i))) = B at *
    generalize i64.conv (t.conv (j - i)) = C at *
    generalize t.conv (j - i) = D at *
    rwa [show A - (i + B) + (B - C) + (C - D + (D - (j - i))) = A - j by omega] at h5

/-- **C10**, the difference is the number of steps.  Missing: signed types whose difference overflows (undefined), unsigned
32 bit iterators with `j < i` (`C10_unsigned_distance_violated`), unsigned 64 bit ones further than 2^63 apart. -/
theorem C10_distance_partial (t : IntTy) (hw : Width t) (i j : Int) (hi : t.Mem i) (hj : t.Mem j)
    (h : (t.signed = true ∧ t.promote.Mem (j - i)) ∨ (t.signed = false ∧ (t.bits < 32 ∨ (i ≤ j ∧ j - i < 2 ^ 63)))) :
    dist t j i = some (j - i) := by
  have h64 : t.promote.signed = true → t.promote.Mem (j - i) → dist t j i = some (j - i) := by
    intro hp hm
    unfold dist IntTy.arith
    rw [if_pos hp, if_pos (show t.promote.lo ≤ j - i ∧ j - i < t.promote.hi from hm), Option.map_some, conv_id i64 (by decide)]
    refine mem_sub (s := t.promote) ?_ ?_ _ hm
    · rw [hp]; rfl
    · show t.promote.bits ≤ 64
      unfold IntTy.promote Width at *
      split
      · decide
      · omega
  rcases h with ⟨h1, h2⟩ | ⟨h1, h2 | ⟨h2, h3⟩⟩
  · refine h64 ?_ h2
    unfold IntTy.promote; split
    · rfl
    · exact h1
  · refine h64 (by unfold IntTy.promote; rw [if_pos h2]; rfl) ?_
    have h4 := two_pow_mono (show t.bits ≤ 16 by unfold Width at hw; omega)
    unfold IntTy.promote
    rw [if_pos h2]
    unfold IntTy.Mem IntTy.lo IntTy.hi at *
    simp only [i32, h1] at *
    simp at *
    omega
  · by_cases h32 : t.bits < 32
    · refine h64 (by unfold IntTy.promote; rw [if_pos h32]; rfl) ?_
      have h4 := two_pow_mono (show t.bits ≤ 16 by unfold Width at hw; omega)
      unfold IntTy.promote
      rw [if_pos h32]
      unfold IntTy.Mem IntTy.lo IntTy.hi at *
      simp only [i32, h1] at *
      simp at *
      omega
    · unfold dist IntTy.arith
      have hpt : t.promote = t := by unfold IntTy.promote; rw [if_neg h32]
      rw [hpt, h1]
      simp only [Bool.false_eq_true, if_false, Option.map_some]
      have hm : t.Mem (j - i) := by
        unfold IntTy.Mem IntTy.lo IntTy.hi at *
        simp only [h1] at *
        simp at *
        omega
      rw [conv_id t (by unfold Width at hw; omega) _ hm, conv_id i64 (by decide)]
      unfold IntTy.Mem IntTy.lo IntTy.hi
      simp only [i64]
      simp
      omega

example : dist ⟨false, 8⟩ 3 7 = some (-4) ∧ dist i32 (-5) 7 = some (-12) ∧ dist u64 3 7 = some (-4) := by decide

/-- **C10 is violated**: the difference of 32 bit unsigned iterators is never negative. -/
theorem C10_unsigned_distance_violated (i j : Int) (hi : u32.Mem i) (hj : u32.Mem j) (h : j < i) :
    dist u32 j i = some (j - i + 2 ^ 32) ∧ j - i + 2 ^ 32 ≠ j - i := by
  refine ⟨?_, by omega⟩
  have hm : u32.Mem (j - i + 2 ^ 32) := by
    unfold IntTy.Mem IntTy.lo IntTy.hi at *
    simp only [u32] at *
    simp at *
    omega
  have h1 : u32.conv (j - i) = j - i + 2 ^ 32 := by
    refine conv_unique u32 (by decide) _ _ hm ?_
    refine ⟨-1, ?_⟩
    show j - i - (j - i + 2 ^ 32) = 2 ^ 32 * -1
    omega
  unfold dist IntTy.arith
  show Option.map i64.conv (if u32.promote.signed = true then _ else some (u32.promote.conv (j - i))) = _
  rw [show u32.promote = u32 from rfl, if_neg (by decide), Option.map_some, h1, conv_id i64 (by decide)]
  unfold IntTy.Mem IntTy.lo IntTy.hi at *
  simp only [i64, u32] at *
  simp at *
  omega

/-- In a checked build adding a negative offset to an `int` iterator overflows inside the assertion (undefined behaviour), for every
position. -/
theorem C10_checked_negative_offset_violated (a off : Int) (h : off < 0) (h' : -2 ^ 31 ≤ off) : plusChecked i32 a off = .ub := by
  have h1 : narrowCast i64 i32 off = some off := by
    rw [C31_narrow_cast i64 i32 (by decide) (by decide) off]
    · rw [if_pos]
      unfold IntTy.lo IntTy.hi
      simp only [i32]
      simp
      omega
    · unfold IntTy.Mem IntTy.lo IntTy.hi
      simp only [i64]
      simp
      omega
  unfold plusChecked
  rw [h1]
  have h2 : i32.promote.arith (i32.hi - 1 - off) = none := by
    unfold IntTy.arith
    rw [show i32.promote = i32 from rfl, if_pos (by decide), if_neg]
    unfold IntTy.lo IntTy.hi
    simp only [i32]
    simp
    omega
  simp only [h2]

/-- In a checked build `i + (j - i)` with `j < i` fails an assertion for 32 bit unsigned iterators. -/
theorem C10_checked_unsigned_violated : (dist u32 3 5).map (plusChecked u32 5) = some .assert := by decide

/-- Forward movement in a checked build works for every type, for offsets the type can represent. -/
theorem C10_checked_forward (t : IntTy) (hw : Width t) (a off : Int) (ha : t.Mem a) (ho : t.Mem off) (ho' : i64.Mem off) (h0 : 0 ≤ off)
    (hs : t.Mem (a + off)) : plusChecked t a off = .val (a + off) := by
  have hb : 1 ≤ t.bits := by unfold Width at hw; omega
  have h1 : narrowCast i64 t off = some off := by
    rw [C31_narrow_cast i64 t (by decide) hb off ho', if_pos (show t.lo ≤ off ∧ off < t.hi from ho)]
  have har : ∀ x, t.Mem x → t.promote.arith x = some x := by
    intro x hx
    have hx' := promote_mem t hb x hx
    unfold IntTy.arith
    split
    · rw [if_pos (show t.promote.lo ≤ x ∧ x < t.promote.hi from hx')]
    · rw [conv_id]
      · unfold IntTy.promote; split
        · decide
        · exact hb
      · exact hx'
  have hm : t.Mem (t.hi - 1 - off) := by
    unfold IntTy.Mem at *; omega
  unfold plusChecked
  rw [h1]
  simp only [har _ hm, har _ hs]
  rw [if_pos (by unfold IntTy.Mem at hs; omega), conv_id t hb _ hs]

/-- Conversions to the type and back make no difference to a value computed in the promoted type. -/
theorem arith_mem (t : IntTy) (hb : 1 ≤ t.bits) (x : Int) (hx : t.Mem x) : t.promote.arith x = some x := by
  have hx' := promote_mem t hb x hx
  unfold IntTy.arith
  split
  · rw [if_pos (show t.promote.lo ≤ x ∧ x < t.promote.hi from hx')]
  · rw [conv_id]
    · unfold IntTy.promote; split
      · decide
      · exact hb
    · exact hx'

instance (t : IntTy) (x : Int) : Decidable (t.Mem x) := inferInstanceAs (Decidable (_ ∧ _))

/-- Backward movement in a checked build works for every type, for offsets the type can represent, and stops with an
assertion when it would leave the type. -/
theorem C10_checked_backward (t : IntTy) (hw : Width t) (a off : Int) (ha : t.Mem a) (ho : t.Mem off) (ho' : i64.Mem off)
    (h0 : 0 ≤ off) : minusChecked t a off = if t.Mem (a - off) then .val (a - off) else .assert := by
  have hb : 1 ≤ t.bits := by unfold Width at hw; omega
  have h1 : narrowCast i64 t off = some off := by
    rw [C31_narrow_cast i64 t (by decide) hb off ho', if_pos (show t.lo ≤ off ∧ off < t.hi from ho)]
  have hl : t.lo ≤ 0 := by
    unfold IntTy.lo
    have := two_pow_pos (t.bits - 1)
    split <;> omega
  have hm : t.Mem (t.lo + off) := by
    unfold IntTy.Mem at *; omega
  unfold minusChecked
  rw [h1]
  simp only [arith_mem t hb _ hm]
  by_cases hs : t.Mem (a - off)
  · rw [if_pos (by unfold IntTy.Mem at hs; omega), if_pos hs]
    simp only [arith_mem t hb _ hs]
    rw [conv_id t hb _ hs]
  · rw [if_neg (by unfold IntTy.Mem at hs ha; omega), if_neg hs]

example : minusChecked ⟨false, 8⟩ 5 3 = .val 2 ∧ minusChecked ⟨false, 8⟩ 2 3 = .assert := by decide
example : minusChecked i32 (-2 ^ 31 + 1) 1 = .val (-2 ^ 31) ∧ minusChecked i32 (-2 ^ 31) 1 = .assert := by decide

/-- In a checked build subtracting a negative offset from an `int` iterator overflows inside the assertion, for every
position. -/
theorem C10_checked_minus_negative_violated (a off : Int) (h : off < 0) (h' : -2 ^ 31 ≤ off) : minusChecked i32 a off = .ub := by
  have h1 : narrowCast i64 i32 off = some off := by
    rw [C31_narrow_cast i64 i32 (by decide) (by decide) off]
    · rw [if_pos]
      unfold IntTy.lo IntTy.hi
      simp only [i32]
      simp
      omega
    · unfold IntTy.Mem IntTy.lo IntTy.hi
      simp only [i64]
      simp
      omega
  unfold minusChecked
  rw [h1]
  have h2 : i32.promote.arith (i32.lo + off) = none := by
    unfold IntTy.arith
    rw [show i32.promote = i32 from rfl, if_pos (by decide), if_neg]
    unfold IntTy.lo IntTy.hi
    simp only [i32]
    simp
    omega
  simp only [h2]

/-- **C10**, steps in a checked build: `++` and `--` give the next and the previous number, and an assertion exactly where
the type ends. -/
theorem C10_steps (t : IntTy) (v : Int) (hv : t.Mem v) :
    inc t v = (if t.Mem (v + 1) then .val (v + 1) else .assert) ∧
    dec t v = (if t.Mem (v - 1) then .val (v - 1) else .assert) := by
  unfold inc dec
  constructor
  · by_cases h : v < t.hi - 1
    · rw [if_pos h, if_pos (by unfold IntTy.Mem at *; omega)]
    · rw [if_neg h, if_neg (by unfold IntTy.Mem at *; omega)]
  · by_cases h : v > t.lo
    · rw [if_pos h, if_pos (by unfold IntTy.Mem at *; omega)]
    · rw [if_neg h, if_neg (by unfold IntTy.Mem at *; omega)]

/-- The iterator the range theorems are about moves by these steps. -/
theorem C10_iterator_steps (t : IntTy) (v w : Int) :
    ((numIter t).next v = some w ↔ inc t v = .val w) ∧ ((numIter t).prev v = some w ↔ dec t v = .val w) := by
  unfold numIter inc dec
  dsimp only
  constructor <;> split <;> simp

example : inc ⟨true, 8⟩ 127 = .assert ∧ inc ⟨true, 8⟩ 126 = .val 127 ∧ dec u32 0 = .assert ∧ dec u32 1 = .val 0 := by decide

/-- The range of the promoted type holds every sum and difference of two values of a narrow type. -/
theorem narrow_sums (t : IntTy) (hw : Width t) (h32 : t.bits < 32) (x y : Int) (hx : t.Mem x) (hy : t.Mem y) :
    i32.Mem (x + y) ∧ i32.Mem (x - y) := by
  have h4 := two_pow_mono (show t.bits ≤ 16 by unfold Width at hw; omega)
  have h3 := two_pow_mono (show t.bits - 1 ≤ 16 by unfold Width at hw; omega)
  unfold IntTy.Mem IntTy.lo IntTy.hi at *
  by_cases h31 : t.signed = true
  · simp only [i32, h31] at *; simp at *; omega
  · simp only [i32, h31] at *; simp at *; omega

/-- **C10**, `(i + n) - n = i` in a release build for every type, position and offset, also when the sum wraps around, as
long as `i + n` itself is defined. -/
theorem C10_minus_undoes_plus (t : IntTy) (hw : Width t) (a off b : Int) (ha : t.Mem a) (h : plus t a off = some b) :
    minusOff t b off = some a := by
  have hb : 1 ≤ t.bits := by unfold Width at hw; omega
  have hc := conv_mem t hb off
  unfold plus at h
  unfold minusOff
  generalize t.conv off = c at *
  by_cases h32 : t.bits < 32
  · have hp : t.promote = i32 := by simp [IntTy.promote, h32]
    rw [hp] at h ⊢
    have h1 := (narrow_sums t hw h32 a c ha hc).1
    have e : i32.arith (a + c) = some (a + c) := by
      unfold IntTy.arith; rw [if_pos (by decide), if_pos (show i32.lo ≤ _ ∧ _ < i32.hi from h1)]
    rw [e, Option.map_some, Option.some_inj] at h
    have hbm : t.Mem b := by rw [← h]; exact conv_mem t hb _
    have h2 := (narrow_sums t hw h32 b c hbm hc).2
    have e2 : i32.arith (b - c) = some (b - c) := by
      unfold IntTy.arith; rw [if_pos (by decide), if_pos (show i32.lo ≤ _ ∧ _ < i32.hi from h2)]
    rw [e2, Option.map_some]
    congr 1
    refine conv_unique t hb _ a ha ?_
    have := conv_dvd t (a + c)
    rw [h] at this
    rwa [show b - c - a = b - (a + c) by omega]
  · have hp : t.promote = t := by simp [IntTy.promote, h32]
    rw [hp] at h ⊢
    unfold IntTy.arith at h ⊢
    by_cases hs : t.signed = true
    · rw [if_pos hs] at h ⊢
      split at h
      · rename_i hm
        rw [Option.map_some, Option.some_inj, conv_id t hb _ hm] at h
        subst h
        rw [show a + c - c = a by omega, if_pos (show t.lo ≤ a ∧ a < t.hi from ha), Option.map_some, conv_id t hb _ ha]
      · simp at h
    · rw [if_neg hs] at h ⊢
      rw [Option.map_some, Option.some_inj] at h
      rw [Option.map_some]
      congr 1
      refine conv_unique t hb _ a ha ?_
      have h1 := conv_dvd t (b - c)
      have h2 := conv_dvd t (t.conv (a + c))
      have h3 := conv_dvd t (a + c)
      rw [h] at h2
      have h4 := Int.dvd_add (Int.dvd_add h1 h2) h3
      rwa [show t.conv (b - c) - (b - c) + (b - t.conv (a + c)) + (t.conv (a + c) - (a + c)) = t.conv (b - c) - a by omega] at h4

example : plus ⟨false, 8⟩ 250 10 = some 4 ∧ minusOff ⟨false, 8⟩ 4 10 = some 250 := by decide
example : plus i32 5 (-7) = some (-2) ∧ minusOff i32 (-2) (-7) = some 5 := by decide
example : plus ⟨true, 8⟩ 120 10 = some (-126) ∧ minusOff ⟨true, 8⟩ (-126) 10 = some 120 := by decide

end Verif.Numeric
