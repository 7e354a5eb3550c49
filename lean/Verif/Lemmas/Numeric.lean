import Verif.Model.Numeric
import Mathlib.Tactic.Ring
import Mathlib.Tactic.Linarith
import Mathlib.Algebra.Order.Ring.Int

/-! Lemmas for C10, C17, C18, C31. -/
set_option autoImplicit false

namespace Verif.Numeric

theorem two_pow_pos (n : Nat) : (0 : Int) < 2 ^ n := Int.pow_pos (by decide)

theorem two_pow_mono {m n : Nat} (h : m ≤ n) : (2 : Int) ^ m ≤ 2 ^ n := by
  obtain ⟨k, rfl⟩ := Nat.exists_eq_add_of_le h
  rw [Int.pow_add]
  have h1 := two_pow_pos m
  have h2 := two_pow_pos k
  nlinarith

theorem two_pow_half {n : Nat} (h : 1 ≤ n) : (2 : Int) ^ n = 2 * 2 ^ (n - 1) := by
  obtain ⟨k, rfl⟩ := Nat.exists_eq_add_of_le h
  rw [Nat.add_sub_cancel_left, Nat.add_comm, Int.pow_succ]; ring

variable (t : IntTy)

theorem hi_lo (h : 1 ≤ t.bits) : t.hi = t.lo + 2 ^ t.bits := by
  have := two_pow_half h
  unfold IntTy.hi IntTy.lo
  split <;> omega

theorem conv_mem (h : 1 ≤ t.bits) (x : Int) : t.Mem (t.conv x) := by
  have h1 := Int.emod_nonneg (x - t.lo) (Int.ne_of_gt (two_pow_pos t.bits))
  have h2 := Int.emod_lt_of_pos (x - t.lo) (two_pow_pos t.bits)
  unfold IntTy.Mem IntTy.conv
  rw [hi_lo t h]
  omega

theorem conv_id (h : 1 ≤ t.bits) (x : Int) (hx : t.Mem x) : t.conv x = x := by
  unfold IntTy.Mem at hx
  rw [hi_lo t h] at hx
  unfold IntTy.conv
  rw [Int.emod_eq_of_lt (by omega) (by omega)]
  omega

theorem conv_dvd (x : Int) : (2 : Int) ^ t.bits ∣ t.conv x - x := by
  unfold IntTy.conv
  refine ⟨-((x - t.lo) / 2 ^ t.bits), ?_⟩
  have := Int.mul_ediv_add_emod (x - t.lo) (2 ^ t.bits)
  rw [Int.mul_neg]
  omega

theorem conv_congr (x y : Int) (h : (2 : Int) ^ t.bits ∣ x - y) : t.conv x = t.conv y := by
  unfold IntTy.conv
  rw [Int.emod_eq_emod_iff_emod_sub_eq_zero.2 (Int.emod_eq_zero_of_dvd (show (2 : Int) ^ t.bits ∣ (x - t.lo) - (y - t.lo) by
    rwa [show x - t.lo - (y - t.lo) = x - y by omega]))]

/-- In the range of `t` and congruent to `x`: it is the conversion of `x`. -/
theorem conv_unique (h : 1 ≤ t.bits) (x y : Int) (hy : t.Mem y) (hd : (2 : Int) ^ t.bits ∣ x - y) : t.conv x = y := by
  rw [conv_congr t x y hd, conv_id t h y hy]

theorem two_pow_dvd {m n : Nat} (h : m ≤ n) : (2 : Int) ^ m ∣ 2 ^ n := by
  obtain ⟨k, rfl⟩ := Nat.exists_eq_add_of_le h
  exact ⟨2 ^ k, Int.pow_add 2 m k⟩

/-- The width ordering of ranges, in terms usable below. -/
theorem mem_sub {s t : IntTy} (hs : s.signed = t.signed) (hb : s.bits ≤ t.bits) (x : Int) (hx : s.Mem x) : t.Mem x := by
  unfold IntTy.Mem IntTy.lo IntTy.hi at *
  have h1 := two_pow_mono hb
  have h2 := two_pow_mono (show s.bits - 1 ≤ t.bits - 1 by omega)
  rw [hs] at hx
  split at hx <;> simp_all <;> omega

end Verif.Numeric
