import Verif.Lemmas.Reals
import Verif.Props.C103_RealsSpec
import Mathlib.Tactic.FieldSimp
import Mathlib.Tactic.Positivity

/-! # Rounding, in terms of rational numbers -/
set_option autoImplicit false

namespace Verif.Reals

/-- The numbers of a format whose unit is `2 ^ -u`. -/
def Fmt.set (f : Fmt) (u : Nat) : ℚ → Prop := IsBinary f.p (f.low - u) (f.top - f.p - u)

theorem zpow_shift (j u : Nat) : (2 : ℚ) ^ ((j : Int) - u) = 2 ^ j / 2 ^ u := by
  rw [zpow_sub₀ two_ne_zero, zpow_natCast, zpow_natCast]

theorem pow_pos_q (u : Nat) : (0 : ℚ) < 2 ^ u := by positivity

/-- The numbers of a format that are not negative. -/
theorem set_nonneg (f : Fmt) (hf : f.low + f.p ≤ f.top) (u : Nat) {y : ℚ} (hy : f.set u y) (h0 : 0 ≤ y) : ∃ z : Nat, y = z / 2 ^ u ∧ f.fits z ∧ z < 2 ^ f.top := by
  obtain ⟨m, e, hm, hlo, hhi, rfl⟩ := hy
  have he : e = ((e + u).toNat : Int) - u := by omega
  generalize hj : (e + u).toNat = j at he
  subst he
  rw [zpow_shift] at h0 ⊢
  have hpos : (0 : ℚ) < 2 ^ j / 2 ^ u := div_pos (pow_pos_q j) (pow_pos_q u)
  have hm0 : 0 ≤ m := by
    have : (0 : ℚ) ≤ (m : ℚ) := nonneg_of_mul_nonneg_left h0 hpos
    exact_mod_cast this
  obtain ⟨a, rfl⟩ := Int.eq_ofNat_of_zero_le hm0
  rw [abs_of_nonneg hm0] at hm
  have ha : a < 2 ^ f.p := by exact_mod_cast hm
  refine ⟨a * 2 ^ j, ?_, fits_of f a j ha (by omega), ?_⟩
  · push_cast; ring
  · have h1 : a * 2 ^ j < 2 ^ f.p * 2 ^ j := Nat.mul_lt_mul_of_pos_right ha (Nat.pow_pos (by omega))
    rw [← Nat.pow_add] at h1
    exact lt_of_lt_of_le h1 (Nat.pow_le_pow_right (by omega) (by omega))

theorem mem_set (f : Fmt) (hp : 0 < f.p) (hf : f.low + f.p ≤ f.top) (u : Nat) {k : Nat} (hk : f.fits k) (ht : k < 2 ^ f.top) : f.set u (k / 2 ^ u) := by
  obtain ⟨m, hm, hk'⟩ := of_fits f hk
  refine ⟨m, (f.spacing k : Int) - u, ?_, ?_, ?_, ?_⟩
  · rw [abs_of_nonneg (by omega)]; exact_mod_cast hm
  · unfold Fmt.spacing; omega
  · have : k.log2 + 1 ≤ f.top := by
      by_cases h : k = 0
      · subst h; rw [Nat.log2_zero]; omega
      · exact (Nat.log2_lt h).2 ht
    unfold Fmt.spacing; omega
  · rw [zpow_shift]
    conv => lhs; rw [hk']
    push_cast; ring

theorem set_iff (f : Fmt) (hp : 0 < f.p) (hf : f.low + f.p ≤ f.top) (u k : Nat) : f.set u (k / 2 ^ u) ↔ f.fits k ∧ k < 2 ^ f.top := by
  refine ⟨fun h => ?_, fun h => mem_set f hp hf u h.1 h.2⟩
  obtain ⟨z, hz, h1, h2⟩ := set_nonneg f hf u h (div_nonneg (by exact_mod_cast Nat.zero_le k) (pow_pos_q u).le)
  have : (k : ℚ) = z := by
    have := pow_pos_q u
    field_simp at hz
    exact hz
  have : k = z := by exact_mod_cast this
  subst this
  exact ⟨h1, h2⟩

theorem set_neg (f : Fmt) (u : Nat) {y : ℚ} : f.set u (-y) ↔ f.set u y := by
  have aux : ∀ y : ℚ, f.set u y → f.set u (-y) := by
    rintro y ⟨m, e, h1, h2, h3, rfl⟩
    exact ⟨-m, e, by rwa [abs_neg], h2, h3, by push_cast; ring⟩
  exact ⟨fun h => by have := aux _ h; rwa [neg_neg] at this, aux y⟩

/-- Int distances as rational ones. -/
theorem dist_q (a n d u : Nat) (hd : 0 < d) : |(a : ℚ) / 2 ^ u - n / d / 2 ^ u| = |((a * d : Int) - n : Int)| / (d * 2 ^ u) := by
  have hd' : (0 : ℚ) < d := by exact_mod_cast hd
  have hu := pow_pos_q u
  have : (a : ℚ) / 2 ^ u - n / d / 2 ^ u = (((a * d : Int) - n : Int) : ℚ) / (d * 2 ^ u) := by
    push_cast
    field_simp
  rw [this, abs_div, abs_of_pos (mul_pos hd' hu)]
  congr 1
  push_cast
  rfl

/-- `near` in rational numbers, for all numbers of the format that are not negative. -/
theorem near_q (f : Fmt) (hp : 0 < f.p) (n d z u : Nat) (hd : 0 < d) (hz : f.fits z) : |(f.near n d : ℚ) / 2 ^ u - n / d / 2 ^ u| ≤ |(z : ℚ) / 2 ^ u - n / d / 2 ^ u| := by
  rw [dist_q _ _ _ _ hd, dist_q _ _ _ _ hd]
  have hd' : (0 : ℚ) < d := by exact_mod_cast hd
  refine div_le_div_of_nonneg_right ?_ (mul_pos hd' (pow_pos_q u)).le
  exact_mod_cast near_nearest f hp n d z hd hz

theorem fits_zero (f : Fmt) : f.fits 0 := Nat.dvd_zero _

/-- Rounding gives a nearest number. -/
theorem near_nearest_q (f : Fmt) (hp : 0 < f.p) (hf : f.low + f.p ≤ f.top) (n d u : Nat) (hd : 0 < d) (ht : f.near n d < 2 ^ f.top) :
    Nearest (f.set u) (n / d / 2 ^ u) ((f.near n d : ℚ) / 2 ^ u) := by
  refine ⟨mem_set f hp hf u (near_fits f hp n d hd) ht, fun y hy => ?_⟩
  by_cases h0 : 0 ≤ y
  · obtain ⟨z, rfl, hz, -⟩ := set_nonneg f hf u hy h0
    exact near_q f hp n d z u hd hz
  · refine le_trans (near_q f hp n d 0 u hd (fits_zero f)) ?_
    have hq : (0 : ℚ) ≤ n / d / 2 ^ u := by positivity
    have hy' : y < 0 := not_le.1 h0
    simp only [Nat.cast_zero, zero_div, zero_sub, abs_neg]
    rw [abs_of_nonneg hq, abs_of_nonpos (by linarith)]
    linarith

/-- Nothing is between the largest number of the format and the next power of two. -/
theorem near_top (f : Fmt) (hp : 0 < f.p) (hf : f.low + f.p < f.top) (n d u : Nat) (hd : 0 < d) :
    (f.near n d < 2 ^ f.top → (n : ℚ) / d / 2 ^ u ≤ (2 ^ f.top - 2 ^ (f.top - f.p - 1)) / 2 ^ u) ∧
    (¬ f.near n d < 2 ^ f.top → (2 ^ f.top - 2 ^ (f.top - f.p - 1)) / 2 ^ u ≤ (n : ℚ) / d / 2 ^ u) := by
  obtain ⟨s, hs⟩ : ∃ s, f.top = f.p + 1 + s := ⟨f.top - f.p - 1, by omega⟩
  have hU := pow_pos_q u
  have hS := pow_pos_q s
  have htop : f.top - f.p - 1 = s := by omega
  have hmaxf : f.fits ((2 ^ f.p - 1) * 2 ^ (s + 1)) := fits_of f _ _ (by have := Nat.pow_pos (n := f.p) (show 0 < 2 by omega); omega) (by omega)
  have htopf : f.fits (2 ^ f.top) := by
    have := fits_of f 1 f.top (Nat.one_lt_pow (by omega) (by omega)) (by omega)
    rwa [one_mul] at this
  have hP : (1 : ℚ) ≤ 2 ^ f.p := one_le_pow₀ (by norm_num)
  have emax : (((2 ^ f.p - 1) * 2 ^ (s + 1) : Nat) : ℚ) = 2 ^ f.top - 2 * 2 ^ s := by
    rw [Nat.cast_mul, Nat.cast_sub (Nat.one_le_two_pow)]
    push_cast
    rw [hs]
    ring
  rw [htop]
  have hnf := near_fits f hp n d hd
  generalize hq : (n : ℚ) / d / 2 ^ u = q
  constructor
  · intro ht
    by_contra hc
    have hc := not_le.1 hc
    -- the result is at most the largest number
    have hle : f.near n d ≤ (2 ^ f.p - 1) * 2 ^ (s + 1) := by
      generalize f.near n d = r at ht hnf
      by_cases hl : f.top - 1 ≤ r.log2
      · have hsp : s + 1 ≤ f.spacing r := by unfold Fmt.spacing; omega
        obtain ⟨j, rfl⟩ := Nat.dvd_trans (Nat.pow_dvd_pow 2 hsp) hnf
        rw [show f.top = (s + 1) + f.p by omega, Nat.pow_add 2 (s + 1) f.p] at ht
        have hj : j < 2 ^ f.p := Nat.lt_of_mul_lt_mul_left ht
        rw [Nat.mul_comm]
        exact Nat.mul_le_mul_right _ (by omega)
      · have h1 : r < 2 ^ (r.log2 + 1) := lt_pow_log2 r
        have h2 : 2 ^ (r.log2 + 1) ≤ 2 ^ ((f.p - 1) + (s + 1)) := Nat.pow_le_pow_right (by omega) (by omega)
        have h3 : 2 ^ (f.p - 1) ≤ 2 ^ f.p - 1 := by
          have : 2 ^ (f.p - 1) < 2 ^ f.p := Nat.pow_lt_pow_right (by omega) (by omega)
          omega
        rw [Nat.pow_add 2 (f.p - 1) (s + 1)] at h2
        have h4 := Nat.mul_le_mul_right (2 ^ (s + 1)) h3
        exact le_trans (le_of_lt (lt_of_lt_of_le h1 h2)) h4
    have h1 := near_q f hp n d (2 ^ f.top) u hd htopf
    have hle' : (f.near n d : ℚ) / 2 ^ u ≤ (2 ^ f.top - 2 * 2 ^ s) / 2 ^ u := by
      rw [← emax]
      exact div_le_div_of_nonneg_right (by exact_mod_cast hle) hU.le
    rw [hq] at h1
    push_cast at h1
    rw [sub_div] at hc hle'
    rw [mul_div_assoc] at hle'
    have hSU : (0 : ℚ) < 2 ^ s / 2 ^ u := div_pos hS hU
    generalize (f.near n d : ℚ) / 2 ^ u = r at *
    generalize (2 : ℚ) ^ f.top / 2 ^ u = T at *
    generalize (2 : ℚ) ^ s / 2 ^ u = S at *
    rw [abs_of_nonpos (by linarith)] at h1
    rcases le_total q T with h | h
    · rw [abs_of_nonneg (by linarith)] at h1; linarith
    · rw [abs_of_nonpos (by linarith)] at h1; linarith
  · intro ht
    by_contra hc
    have hc := not_le.1 hc
    have h1 := near_q f hp n d ((2 ^ f.p - 1) * 2 ^ (s + 1)) u hd hmaxf
    have hge : (2 : ℚ) ^ f.top / 2 ^ u ≤ (f.near n d : ℚ) / 2 ^ u := div_le_div_of_nonneg_right (by exact_mod_cast not_lt.1 ht) hU.le
    rw [hq, emax, sub_div, mul_div_assoc] at h1
    rw [sub_div] at hc
    have hSU : (0 : ℚ) < 2 ^ s / 2 ^ u := div_pos hS hU
    generalize (f.near n d : ℚ) / 2 ^ u = r at *
    generalize (2 : ℚ) ^ f.top / 2 ^ u = T at *
    generalize (2 : ℚ) ^ s / 2 ^ u = S at *
    rw [abs_of_nonneg (by linarith)] at h1
    rcases le_total q (T - 2 * S) with h | h
    · rw [abs_of_nonneg (by linarith)] at h1; linarith
    · rw [abs_of_nonpos (by linarith)] at h1; linarith

end Verif.Reals
