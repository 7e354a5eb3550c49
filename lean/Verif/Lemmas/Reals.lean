import Verif.Model.Reals
import Mathlib.Tactic.Linarith
import Mathlib.Algebra.Order.Ring.Int
import Mathlib.Algebra.Order.Ring.Abs
import Mathlib.Tactic.Ring

/-! # Rounding -/
set_option autoImplicit false

namespace Verif.Reals

/-- `halfEven` gives an integer nearest to `n / d`. -/
theorem halfEven_near (n d : Nat) (hd : 0 < d) (j : Nat) : |(halfEven n d * d : Int) - n| ≤ |(j * d : Int) - n| ∧ 2 * |(halfEven n d * d : Int) - n| ≤ d := by
  have hn : (n : Int) = d * (n / d : Nat) + (n % d : Nat) := by exact_mod_cast (Nat.div_add_mod n d).symm
  have hr : n % d < d := Nat.mod_lt _ hd
  generalize hq : n / d = q at hn
  generalize hm : n % d = r at hn hr
  have hr' : (r : Int) < d := by exact_mod_cast hr
  have hr0 : (0 : Int) ≤ r := by exact_mod_cast Nat.zero_le r
  have hd' : (0 : Int) < d := by exact_mod_cast hd
  have e0 : ((q : Int) * d - n) = -r := by rw [hn]; ring
  have e1 : (((q + 1 : Nat) : Int) * d - n) = d - r := by rw [hn]; push_cast; ring
  have lowj : j ≤ q → r ≤ |(j * d : Int) - n| := by
    intro h
    have h' : (j : Int) ≤ q := by exact_mod_cast h
    rw [abs_sub_comm]
    refine le_trans ?_ (le_abs_self _)
    nlinarith
  have highj : q + 1 ≤ j → d - r ≤ |(j * d : Int) - n| := by
    intro h
    have h' : (q : Int) + 1 ≤ j := by exact_mod_cast h
    refine le_trans ?_ (le_abs_self _)
    nlinarith
  have a0 : |((q : Int) * d - n)| = r := by rw [e0, abs_neg, abs_of_nonneg hr0]
  have a1 : |(((q + 1 : Nat) : Int) * d - n)| = d - r := by rw [e1, abs_of_nonneg (by linarith)]
  have hj : j ≤ q ∨ q + 1 ≤ j := by omega
  unfold halfEven
  rw [hq, hm]
  have down : 2 * (r : Int) ≤ d → |((q : Int) * d - n)| ≤ |(j * d : Int) - n| ∧ 2 * |((q : Int) * d - n)| ≤ d := by
    intro h
    rw [a0]
    refine ⟨?_, h⟩
    rcases hj with hj | hj
    · exact lowj hj
    · have := highj hj; linarith
  have up : (d : Int) ≤ 2 * r → |(((q + 1 : Nat) : Int) * d - n)| ≤ |(j * d : Int) - n| ∧ 2 * |(((q + 1 : Nat) : Int) * d - n)| ≤ d := by
    intro h
    rw [a1]
    refine ⟨?_, by linarith⟩
    rcases hj with hj | hj
    · have := lowj hj; linarith
    · exact highj hj
  by_cases h1 : 2 * r < d
  · rw [if_pos h1]; exact down (by exact_mod_cast h1.le)
  · rw [if_neg h1]
    by_cases h2 : d < 2 * r
    · rw [if_pos h2]; exact up (by exact_mod_cast h2.le)
    · rw [if_neg h2]
      have he : d = 2 * r := by omega
      split
      · exact down (by exact_mod_cast he.ge)
      · exact up (by exact_mod_cast he.le)

theorem halfEven_exact (j d : Nat) (hd : 0 < d) : halfEven (j * d) d = j := by
  unfold halfEven
  rw [Nat.mul_mod_left, Nat.mul_div_cancel _ hd, if_pos (by omega)]

/-- The numbers that a format without a largest number has. -/
def Fmt.fits (f : Fmt) (k : Nat) : Prop := 2 ^ f.spacing k ∣ k

theorem pow_log2_le {k : Nat} (h : k ≠ 0) : 2 ^ k.log2 ≤ k := Nat.log2_self_le h

theorem lt_pow_log2 (k : Nat) : k < 2 ^ (k.log2 + 1) := Nat.lt_log2_self

theorem log2_mono {a b : Nat} (h : a ≤ b) : a.log2 ≤ b.log2 := by
  by_cases ha : a = 0
  · subst ha; simp
  · exact (Nat.le_log2 (by omega)).2 (le_trans (pow_log2_le ha) h)

theorem spacing_mono (f : Fmt) {a b : Nat} (h : a ≤ b) : f.spacing a ≤ f.spacing b := by
  have := log2_mono h
  unfold Fmt.spacing
  omega

/-- A multiple of a power of two with few enough digits fits. -/
theorem fits_of (f : Fmt) (m j : Nat) (hm : m < 2 ^ f.p) (hj : f.low ≤ j) : f.fits (m * 2 ^ j) := by
  by_cases h0 : m * 2 ^ j = 0
  · unfold Fmt.fits; rw [h0]; exact Nat.dvd_zero _
  · have hlt : m * 2 ^ j < 2 ^ (f.p + j) := by
      rw [Nat.pow_add]
      exact Nat.mul_lt_mul_of_pos_right hm (Nat.pow_pos (by omega))
    have hl : (m * 2 ^ j).log2 < f.p + j := (Nat.log2_lt h0).2 hlt
    have hs : f.spacing (m * 2 ^ j) ≤ j := by unfold Fmt.spacing; omega
    exact Nat.dvd_trans (Nat.pow_dvd_pow 2 hs) (Nat.dvd_mul_left _ _)

/-- Conversely. -/
theorem of_fits (f : Fmt) {k : Nat} (h : f.fits k) : ∃ m, m < 2 ^ f.p ∧ k = m * 2 ^ f.spacing k := by
  obtain ⟨m, hm⟩ := h
  refine ⟨m, ?_, by rw [Nat.mul_comm]; exact hm⟩
  have h1 : k < 2 ^ (k.log2 + 1) := lt_pow_log2 k
  have h2 : k.log2 + 1 ≤ f.p + f.spacing k := by unfold Fmt.spacing; omega
  have h3 : 2 ^ f.spacing k * m < 2 ^ f.spacing k * 2 ^ f.p := by
    rw [← hm, ← Nat.pow_add, Nat.add_comm]
    exact lt_of_lt_of_le h1 (Nat.pow_le_pow_right (by omega) h2)
  exact Nat.lt_of_mul_lt_mul_left h3

/-- Below the binade of `q` are the multiples of smaller powers of two. -/
theorem fits_cases (f : Fmt) (hp : 0 < f.p) {y q : Nat} (hy : f.fits y) : 2 ^ f.spacing q ∣ y ∨ (y < 2 ^ q.log2 ∧ 2 ^ f.spacing q ∣ 2 ^ q.log2 ∧ 2 ^ q.log2 ≤ q) := by
  by_cases hs : f.spacing q ≤ f.spacing y
  · exact Or.inl (Nat.dvd_trans (Nat.pow_dvd_pow 2 hs) hy)
  · right
    have h1 : f.spacing q = q.log2 + 1 - f.p := by unfold Fmt.spacing at hs ⊢; omega
    have h2 : y.log2 < q.log2 := by unfold Fmt.spacing at hs; omega
    have hq : q ≠ 0 := by rintro rfl; simp at h2
    refine ⟨?_, Nat.pow_dvd_pow 2 (by omega), pow_log2_le hq⟩
    exact lt_of_lt_of_le (lt_pow_log2 y) (Nat.pow_le_pow_right (by omega) h2)

/-- `near` gives a number of the format that is nearest. -/
theorem near_nearest (f : Fmt) (hp : 0 < f.p) (n d y : Nat) (hd : 0 < d) (hy : f.fits y) : |(f.near n d * d : Int) - n| ≤ |(y * d : Int) - n| := by
  have hD : 0 < d * 2 ^ f.spacing (n / d) := Nat.mul_pos hd (Nat.pow_pos (by omega))
  have key : ∀ z : Nat, 2 ^ f.spacing (n / d) ∣ z → |(f.near n d * d : Int) - n| ≤ |(z * d : Int) - n| := by
    rintro z ⟨j, rfl⟩
    have := (halfEven_near n _ hD j).1
    unfold Fmt.near
    push_cast at this ⊢
    calc |(halfEven n (d * 2 ^ f.spacing (n / d)) : Int) * 2 ^ f.spacing (n / d) * d - n| = |(halfEven n (d * 2 ^ f.spacing (n / d)) : Int) * (d * 2 ^ f.spacing (n / d)) - n| := by ring_nf
      _ ≤ |(j : Int) * (d * 2 ^ f.spacing (n / d)) - n| := this
      _ = |(2 ^ f.spacing (n / d) * j : Int) * d - n| := by ring_nf
  rcases fits_cases f hp (q := n / d) hy with h | ⟨h1, h2, h3⟩
  · exact key y h
  · refine le_trans (key _ h2) ?_
    have hle : 2 ^ (n / d).log2 * d ≤ n := le_trans (Nat.mul_le_mul_right d h3) (Nat.div_mul_le_self n d)
    have hlt : y * d ≤ 2 ^ (n / d).log2 * d := Nat.mul_le_mul_right d h1.le
    have a : ((2 ^ (n / d).log2 : Nat) * d : Int) ≤ n := by exact_mod_cast hle
    have b : (y * d : Int) ≤ ((2 ^ (n / d).log2 : Nat) * d : Int) := by exact_mod_cast hlt
    rw [abs_of_nonpos (by linarith), abs_of_nonpos (by linarith)]
    linarith

/-- `near` gives a number of the format. -/
theorem near_fits (f : Fmt) (hp : 0 < f.p) (n d : Nat) (hd : 0 < d) : f.fits (f.near n d) := by
  generalize hs : f.spacing (n / d) = s
  have hl : f.low ≤ s := by rw [← hs]; unfold Fmt.spacing; omega
  have hD : 0 < d * 2 ^ s := Nat.mul_pos hd (Nat.pow_pos (by omega))
  have hnear : f.near n d = halfEven n (d * 2 ^ s) * 2 ^ s := by unfold Fmt.near; rw [hs]
  have hq : n / (d * 2 ^ s) < 2 ^ f.p := by
    rw [← Nat.div_div_eq_div_mul, Nat.div_lt_iff_lt_mul (Nat.pow_pos (by omega)), ← Nat.pow_add]
    refine lt_of_lt_of_le (lt_pow_log2 (n / d)) (Nat.pow_le_pow_right (by omega) ?_)
    rw [← hs]; unfold Fmt.spacing; omega
  have hle : halfEven n (d * 2 ^ s) ≤ n / (d * 2 ^ s) + 1 := by unfold halfEven; split <;> (try split) <;> (try split) <;> omega
  rw [hnear]
  by_cases h : halfEven n (d * 2 ^ s) < 2 ^ f.p
  · exact fits_of f _ _ h hl
  · have he : halfEven n (d * 2 ^ s) = 2 ^ f.p := by omega
    rw [he]
    obtain ⟨p', hp'⟩ : ∃ p', f.p = p' + 1 := ⟨f.p - 1, by omega⟩
    rw [show 2 ^ f.p * 2 ^ s = 2 ^ p' * 2 ^ (s + 1) by rw [hp', Nat.pow_succ, Nat.pow_succ]; ring]
    exact fits_of f _ _ (by rw [hp']; exact Nat.pow_lt_pow_right (by omega) (by omega)) (by omega)

/-- Numbers of the format are not rounded. -/
theorem near_exact (f : Fmt) (hp : 0 < f.p) (k d : Nat) (hd : 0 < d) (hk : f.fits k) : f.near (k * d) d = k := by
  have h := near_nearest f hp (k * d) d k hd hk
  have h0 : |((k : Int) * d - (k * d : Nat))| = 0 := by push_cast; simp
  rw [h0] at h
  have h1 : ((f.near (k * d) d : Int) * d - (k * d : Nat)) = 0 := abs_eq_zero.1 (le_antisymm h (abs_nonneg _))
  push_cast at h1
  have h2 : (f.near (k * d) d * d : Int) = k * d := by linarith
  have h3 : f.near (k * d) d * d = k * d := by exact_mod_cast h2
  exact Nat.eq_of_mul_eq_mul_right hd h3

/-- Different numbers of a format are half a spacing apart at least. -/
theorem fits_gap (f : Fmt) (hp : 0 < f.p) {k y : Nat} (hk : f.fits k) (hy : f.fits y) (hne : y ≠ k) : (2 ^ f.spacing k : Int) ≤ 2 * |(y : Int) - k| := by
  have step : ∀ s a b : Nat, 2 ^ s ∣ a → 2 ^ s ∣ b → a ≠ b → (2 ^ s : Int) ≤ |(a : Int) - b| := by
    rintro s a b ⟨i, rfl⟩ ⟨j, rfl⟩ hab
    have hij : i ≠ j := fun h => hab (by rw [h])
    have h1 : (1 : Int) ≤ |(i : Int) - j| := by
      have : (i : Int) - j ≠ 0 := by omega
      exact Int.one_le_abs this
    push_cast
    rw [← mul_sub, abs_mul, abs_of_nonneg (by positivity)]
    nlinarith [show (0 : Int) < 2 ^ s by positivity]
  by_cases h1 : f.spacing k ≤ f.spacing y
  · have := step _ y k (Nat.dvd_trans (Nat.pow_dvd_pow 2 h1) hy) hk hne
    have h0 := abs_nonneg ((y : Int) - k)
    linarith
  · have e : f.spacing k = k.log2 + 1 - f.p := by unfold Fmt.spacing at h1 ⊢; omega
    have hkl : k.log2 ≥ f.p := by unfold Fmt.spacing at h1; omega
    by_cases h2 : f.spacing k ≤ f.spacing y + 1
    · obtain ⟨s, hs⟩ : ∃ s, f.spacing k = s + 1 := ⟨f.spacing k - 1, by omega⟩
      have := step s y k (Nat.dvd_trans (Nat.pow_dvd_pow 2 (by omega)) hy) (Nat.dvd_trans (Nat.pow_dvd_pow 2 (by omega)) hk) hne
      rw [hs, pow_succ]
      linarith
    · have hyl : y.log2 + 2 ≤ k.log2 := by unfold Fmt.spacing at h2; omega
      have a : y < 2 ^ (y.log2 + 1) := lt_pow_log2 y
      have b : 2 ^ (y.log2 + 1) ≤ 2 ^ (k.log2 - 1) := Nat.pow_le_pow_right (by omega) (by omega)
      have c : 2 ^ k.log2 ≤ k := pow_log2_le (by rintro rfl; simp at hyl)
      have d : 2 ^ k.log2 = 2 * 2 ^ (k.log2 - 1) := by rw [← Nat.pow_succ', Nat.succ_eq_add_one, show k.log2 - 1 + 1 = k.log2 by omega]
      have e2 : 2 ^ f.spacing k ≤ 2 ^ k.log2 := Nat.pow_le_pow_right (by omega) (by omega)
      have g : 2 ^ f.spacing k + 2 * y ≤ 2 * k := by omega
      have g' : (2 ^ f.spacing k : Int) + 2 * y ≤ 2 * k := by exact_mod_cast g
      rw [abs_sub_comm]
      have := le_abs_self ((k : Int) - y)
      linarith

/-- What is close enough to a number of the format is rounded to it. -/
theorem near_of_close (f : Fmt) (hp : 0 < f.p) (n d k : Nat) (hd : 0 < d) (hk : f.fits k) (hc : 4 * |((k : Int) * d - n)| < 2 ^ f.spacing k * d) : f.near n d = k := by
  by_contra hne
  have h1 := near_nearest f hp n d k hd hk
  have h2 := fits_gap f hp hk (near_fits f hp n d hd) hne
  have h3 : |((f.near n d : Int) - k) * d| ≤ |(f.near n d * d : Int) - n| + |((k : Int) * d - n)| := by
    have := abs_sub (f.near n d * d - (n : Int)) (k * d - n)
    rwa [show (f.near n d * d - (n : Int)) - (k * d - n) = ((f.near n d : Int) - k) * d by ring] at this
  have hd' : (0 : Int) < d := by exact_mod_cast hd
  rw [abs_mul, abs_of_pos hd'] at h3
  have h4 : (2 ^ f.spacing k : Int) * d ≤ 2 * |(f.near n d : Int) - k| * d := by nlinarith
  linarith

end Verif.Reals
