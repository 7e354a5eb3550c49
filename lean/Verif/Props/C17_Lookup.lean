import Verif.Lemmas.Numeric
import Mathlib.Algebra.Order.Ring.Abs

/-!
C17, C18: lookup_table with integer arguments.
-/
set_option autoImplicit false

namespace Verif.Numeric

theorem u64_id (x : Int) (h0 : 0 ≤ x) (h1 : x < 2 ^ 64) : u64.conv x = x := by
  refine conv_id u64 (by decide) x ?_
  unfold IntTy.Mem IntTy.lo IntTy.hi; simp only [u64]; simp; omega
theorem i64_id (x : Int) (h0 : -2 ^ 63 ≤ x) (h1 : x < 2 ^ 63) : i64.conv x = x := by
  refine conv_id i64 (by decide) x ?_
  unfold IntTy.Mem IntTy.lo IntTy.hi; simp only [i64]; simp; omega
theorem i32_id (x : Int) (h0 : -2 ^ 31 ≤ x) (h1 : x < 2 ^ 31) : i32.conv x = x := by
  refine conv_id i32 (by decide) x ?_
  unfold IntTy.Mem IntTy.lo IntTy.hi; simp only [i32]; simp; omega
theorem u32_id (x : Int) (h0 : 0 ≤ x) (h1 : x < 2 ^ 32) : u32.conv x = x := by
  refine conv_id u32 (by decide) x ?_
  unfold IntTy.Mem IntTy.lo IntTy.hi; simp only [u32]; simp; omega
theorem i32_arith (x : Int) (h0 : -2 ^ 31 ≤ x) (h1 : x < 2 ^ 31) : i32.arith x = some x := by
  unfold IntTy.arith
  rw [if_pos (by decide), if_pos]
  unfold IntTy.lo IntTy.hi; simp only [i32]; simp; omega
theorem i32_arith_some (x y : Int) (h : i32.arith x = some y) : y = x ∧ -2 ^ 31 ≤ x ∧ x < 2 ^ 31 := by
  unfold IntTy.arith at h
  rw [if_pos (by decide)] at h
  split at h
  · rename_i hx
    unfold IntTy.lo IntTy.hi at hx; simp only [i32] at hx; simp at hx h
    omega
  · simp at h

/-- The argument of sample `k` of a table over `[first, first + L]` with `m` steps, as the code rounds it. -/
def arg (first L m : Int) (k : Int) : Int := first + k * L / m

/-- The samples are taken at `first + ⌊k·(last-first)/(N-1)⌋`, for non-negative `first`. -/
theorem sampleArg_eq (n : Nat) (first last : Int) (k : Nat) (hn : 2 ≤ n) (hn' : n ≤ 2 ^ 31) (hf : 0 ≤ first) (hl : first ≤ last) (hl' : last < 2 ^ 31)
    (hk : k < n) : sampleArg n first last k = arg first (last - first) (n - 1 : Nat) k := by
  unfold sampleArg arg
  have hm : (0 : Int) < ((n - 1 : Nat) : Int) := by omega
  have hm' : ((n - 1 : Nat) : Int) < 2 ^ 31 := by omega
  have hk' : (k : Int) ≤ ((n - 1 : Nat) : Int) := by omega
  generalize ((n - 1 : Nat) : Int) = m at *
  have h1 : 0 ≤ first * m := Int.mul_nonneg hf (by omega)
  have h2 : 0 ≤ (k : Int) * (last - first) := Int.mul_nonneg (by omega) (by omega)
  have h3 : (k : Int) * (last - first) ≤ m * (last - first) := Int.mul_le_mul_of_nonneg_right hk' (by omega)
  have h4 : first * m + m * (last - first) = m * last := by ring
  have h5 : m * last ≤ 2 ^ 31 * last := Int.mul_le_mul_of_nonneg_right (by omega) (by omega)
  rw [u64_id _ (by omega) (by omega), Int.add_comm, Int.add_mul_ediv_right _ _ (by omega), Int.add_comm]
  refine i32_id _ ?_ ?_
  · have := Int.ediv_nonneg h2 (show 0 ≤ m by omega)
    omega
  · have : k * (last - first) / m ≤ last - first := by
      apply Int.ediv_le_of_le_mul hm
      rw [Int.mul_comm (last - first)]; exact h3
    omega

/-! ### C17 -/

/-- **C17**, tables starting at 0: the query is defined, reads a sample of the table, and the exact position `x·(N-1)/L` of the
argument is within half a step of the sample. -/
theorem C17_nearest_index_partial (n : Nat) (L x : Int) (hn : 2 ≤ n) (hn' : n ≤ 2 ^ 31) (hL : 0 < L) (hL' : L < 2 ^ 30) (hx : 0 ≤ x) (hx' : x ≤ L) :
    ∃ k : Nat, (lutInit n 0 L).bind (fetch1 · x) = some k ∧ k < n ∧
      2 * |x * (n - 1 : Nat) - k * L| ≤ L := by
  have hinit : lutInit n 0 L = some ⟨n, 0, L, L, 2 * L⟩ := by
    unfold lutInit
    rw [Int.sub_zero, i32_arith _ (by omega) (by omega), Option.bind_some, Int.mul_zero, u64_id _ (by omega) (by omega), i32_id _ (by omega) (by omega),
      Int.sub_zero, i32_arith _ (by omega) (by omega), Option.bind_some, i32_arith _ (by omega) (by omega)]
    rfl
  have hm : (0 : Int) < ((n - 1 : Nat) : Int) := by omega
  have hm' : ((n - 1 : Nat) : Int) < 2 ^ 31 := by omega
  have hn1 : (n : Int) = ((n - 1 : Nat) : Int) + 1 := by omega
  rw [hinit, Option.bind_some]
  simp only [fetch1, index1]
  rw [u64_id (2 * L) (by omega) (by omega), if_neg (by omega)]
  generalize ((n - 1 : Nat) : Int) = m at *
  have h1 : 0 ≤ m * x := Int.mul_nonneg (by omega) hx
  have h2 : m * x ≤ m * L := Int.mul_le_mul_of_nonneg_left hx' (by omega)
  have h3 : m * L ≤ 2 ^ 31 * L := Int.mul_le_mul_of_nonneg_right (by omega) (by omega)
  have h4 : 2 * m * x = 2 * (m * x) := by ring
  rw [h4, u64_id _ (by omega) (by omega)]
  set q := (2 * (m * x) + L) / (2 * L) with hq
  have hq0 : 0 ≤ q := Int.ediv_nonneg (by omega) (by omega)
  have hqm : q ≤ m := by
    have : q < m + 1 := by
      apply Int.ediv_lt_of_lt_mul (by omega)
      rw [show (m + 1) * (2 * L) = 2 * (m * L) + 2 * L by ring]
      omega
    omega
  have hdiv := Int.mul_ediv_add_emod (2 * (m * x) + L) (2 * L)
  have hmod := Int.emod_nonneg (2 * (m * x) + L) (show 2 * L ≠ 0 by omega)
  have hmod' := Int.emod_lt_of_pos (2 * (m * x) + L) (show 0 < 2 * L by omega)
  rw [← hq] at hdiv
  rw [i32_id q (by omega) (by omega), Option.bind_some, if_pos (by omega)]
  refine ⟨q.toNat, rfl, by omega, ?_⟩
  rw [Int.toNat_of_nonneg hq0]
  have h5 : 2 * L * q = 2 * (q * L) := by ring
  rw [show x * m = m * x by ring]
  rw [h5] at hdiv
  have : |m * x - q * L| * 2 ≤ L := by
    rcases abs_cases (m * x - q * L) with ⟨h, _⟩ | ⟨h, _⟩ <;> rw [h] <;> omega
  omega

/-- Distance of `x` to the argument at which sample `k` was taken. -/
def distTo (first L m k x : Int) : Int := |x - arg first L m k|

/-- **C17**, consequence: the sample's argument is the closest one up to one unit, and exactly the closest if `N-1` divides the length.
Missing: the closest in all cases (`C17_rounded_samples_violated`), and tables that do not start at 0 (`C17_nonzero_first_violated`). -/
theorem C17_nearest_sample_partial (n : Nat) (L x : Int) (hn : 2 ≤ n) (hn' : n ≤ 2 ^ 31) (hL : 0 < L) (hL' : L < 2 ^ 30) (hx : 0 ≤ x) (hx' : x ≤ L) :
    ∃ k : Nat, (lutInit n 0 L).bind (fetch1 · x) = some k ∧ k < n ∧
      (∀ j : Nat, j < n → distTo 0 L (n - 1 : Nat) k x ≤ distTo 0 L (n - 1 : Nat) j x + 1) ∧
      (((n - 1 : Nat) : Int) ∣ L → ∀ j : Nat, j < n → distTo 0 L (n - 1 : Nat) k x ≤ distTo 0 L (n - 1 : Nat) j x) := by
  obtain ⟨k, h1, h2, h3⟩ := C17_nearest_index_partial n L x hn hn' hL hL' hx hx'
  refine ⟨k, h1, h2, ?_, ?_⟩
  all_goals
    have hm : (0 : Int) < ((n - 1 : Nat) : Int) := by omega
    generalize ((n - 1 : Nat) : Int) = m at *
    have hbest : ∀ j : Nat, |x * m - k * L| ≤ |x * m - j * L| := by
      intro j
      by_cases hjk : j = k
      · rw [hjk]
      · have hd : L ≤ |(j : Int) * L - k * L| := by
          rw [← Int.sub_mul, abs_mul, abs_of_pos hL]
          have : 1 ≤ |(j : Int) - k| := by
            rcases abs_cases ((j : Int) - k) with ⟨h, _⟩ | ⟨h, _⟩ <;> omega
          nlinarith
        rcases abs_cases ((j : Int) * L - k * L) with ⟨ha, _⟩ | ⟨ha, _⟩ <;> rcases abs_cases (x * m - k * L) with ⟨hb, _⟩ | ⟨hb, _⟩ <;>
          rcases abs_cases (x * m - j * L) with ⟨hc, _⟩ | ⟨hc, _⟩ <;> omega
  · intro j _
    have hb := hbest j
    simp only [distTo, arg, Int.zero_add]
    have d1 := Int.mul_ediv_add_emod (k * L) m
    have d2 := Int.mul_ediv_add_emod (j * L) m
    have e1 := Int.emod_nonneg (k * L) (show m ≠ 0 by omega)
    have e2 := Int.emod_nonneg (j * L) (show m ≠ 0 by omega)
    have e3 := Int.emod_lt_of_pos (k * L) hm
    have e4 := Int.emod_lt_of_pos (j * L) hm
    generalize (k : Int) * L / m = a at *
    generalize (j : Int) * L / m = b at *
    generalize (k : Int) * L % m = r at *
    generalize (j : Int) * L % m = s at *
    generalize (k : Int) * L = kL at *
    generalize (j : Int) * L = jL at *
    have key : m * |x - a| < m * (|x - b| + 2) := by
      rw [Int.mul_add]
      have ea : m * |x - a| = |m * x - m * a| := by rw [← Int.mul_sub, abs_mul, abs_of_pos hm]
      have eb : m * |x - b| = |m * x - m * b| := by rw [← Int.mul_sub, abs_mul, abs_of_pos hm]
      rw [ea, eb, Int.mul_comm x m] at *
      rcases abs_cases (m * x - m * a) with ⟨h, _⟩ | ⟨h, _⟩ <;> rcases abs_cases (m * x - m * b) with ⟨h', _⟩ | ⟨h', _⟩ <;>
        rcases abs_cases (m * x - kL) with ⟨h'', _⟩ | ⟨h'', _⟩ <;> rcases abs_cases (m * x - jL) with ⟨h3, _⟩ | ⟨h3, _⟩ <;> omega
    have := lt_of_mul_lt_mul_left key (by omega)
    omega
  · rintro ⟨c, rfl⟩ j _
    have hb := hbest j
    simp only [distTo, arg, Int.zero_add]
    rw [show (k : Int) * (m * c) = k * c * m by ring, show (j : Int) * (m * c) = j * c * m by ring] at *
    rw [Int.mul_ediv_cancel _ (by omega), Int.mul_ediv_cancel _ (by omega)]
    rw [← Int.sub_mul, ← Int.sub_mul, abs_mul, abs_mul, abs_of_pos hm] at hb
    exact le_of_mul_le_mul_right hb hm

example : (lutInit 6 0 10).bind (fetch1 · 7) = some 4 ∧ sampleArg 6 0 10 4 = 8 := by decide

/-- **C17 is violated** even for tables starting at 0, because sample arguments are rounded down but the query is not: argument 7 in a
table of 7 samples over [0, 17] gets the sample taken at 5 although another was taken at 8. -/
theorem C17_rounded_samples_violated :
    (lutInit 7 0 17).bind (fetch1 · 7) = some 2 ∧ sampleArg 7 0 17 2 = 5 ∧ sampleArg 7 0 17 3 = 8 := by decide

/-- **C17 is violated** for tables that do not start at 0: a valid query reads outside the table. -/
theorem C17_nonzero_first_violated :
    (lutInit 11 10 20).isSome = true ∧ (lutInit 11 10 20).bind (fetch1 · 10) = none := by decide

/-! ### C18 -/

theorem lutInit_some (n : Nat) (first last : Int) (t : Lut) (h : lutInit n first last = some t) :
    t.n = n ∧ t.first = first ∧ t.length = last - first := by
  unfold lutInit at h
  cases h1 : i32.arith (last - first) with
  | none => simp [h1] at h
  | some len =>
    rw [h1, Option.bind_some] at h
    have := (i32_arith_some _ _ h1).1
    subst this
    cases h2 : i32.arith (last - first - i32.conv (u64.conv (2 * n * first))) with
    | none => simp [h2] at h
    | some c0 =>
      rw [h2, Option.bind_some] at h
      cases h3 : i32.arith (2 * (last - first)) with
      | none => simp [h3] at h
      | some c1 =>
        rw [h3, Option.map_some, Option.some.injEq] at h
        subst h
        exact ⟨rfl, rfl, rfl⟩

/-- The two numbers the linear query computes, in exact arithmetic. -/
theorem index2_eq (t : Lut) (x : Int) (hn : 2 ≤ t.n) (hn' : t.n ≤ 2 ^ 20) (hL : 0 < t.length) (hL' : t.length < 2 ^ 31)
    (hx : t.first ≤ x) (hx' : x ≤ t.first + t.length) :
    let m : Int := ((t.n - 1 : Nat) : Int)
    let tmp := 1024 * (m * (x - t.first)) / t.length
    let idx := min (m * (x - t.first) / t.length) (m - 1)
    index2 t x = some (idx, tmp - idx * 1024) ∧ 0 ≤ idx ∧ idx ≤ m - 1 ∧ 0 ≤ tmp - idx * 1024 ∧ tmp - idx * 1024 ≤ 1024 := by
  have hm : (0 : Int) < ((t.n - 1 : Nat) : Int) := by omega
  have hm' : ((t.n - 1 : Nat) : Int) < 2 ^ 20 := by omega
  have hn1 : (t.n : Int) = ((t.n - 1 : Nat) : Int) + 1 := by omega
  intro m tmp idx
  have hmm : ((t.n - 1 : Nat) : Int) = m := rfl
  rw [hmm] at hm hm' hn1
  have h1 : 0 ≤ m * (x - t.first) := Int.mul_nonneg (by omega) (by omega)
  have h2 : m * (x - t.first) ≤ m * t.length := Int.mul_le_mul_of_nonneg_left (by omega) (by omega)
  have h3 : m * t.length ≤ 2 ^ 20 * t.length := Int.mul_le_mul_of_nonneg_right (by omega) (by omega)
  have ht0 : 0 ≤ tmp := Int.ediv_nonneg (by omega) (by omega)
  have htm : tmp ≤ 1024 * m := by
    apply Int.ediv_le_of_le_mul hL
    rw [Int.mul_assoc]; omega
  have hdd : tmp / 1024 = m * (x - t.first) / t.length := by
    show 1024 * (m * (x - t.first)) / t.length / 1024 = _
    rw [Int.ediv_ediv_of_nonneg (by omega : (0 : Int) ≤ t.length), Int.mul_comm t.length, Int.mul_ediv_mul_of_pos _ _ (by omega)]
  have hidx : min (i32.conv (tmp / 1024)) ((t.n : Int) - 2) = idx := by
    rw [i32_id _ (by omega) (by omega), hdd]
    show min _ _ = min _ (m - 1)
    congr 1
    omega
  have hidx0 : 0 ≤ idx ∧ idx ≤ m - 1 := by
    have : 0 ≤ m * (x - t.first) / t.length := Int.ediv_nonneg h1 (by omega)
    show 0 ≤ min _ _ ∧ min _ _ ≤ _
    omega
  have hal : 0 ≤ tmp - idx * 1024 ∧ tmp - idx * 1024 ≤ 1024 := by
    show 0 ≤ tmp - min _ _ * 1024 ∧ tmp - min _ _ * 1024 ≤ 1024
    rw [← hdd]
    omega
  refine ⟨?_, hidx0.1, hidx0.2, hal.1, hal.2⟩
  unfold index2
  rw [i32_arith _ (by omega) (by omega), Option.bind_some, u64_id t.length (by omega) (by omega), if_neg (by omega), hmm,
    show 1024 * m * (x - t.first) = 1024 * (m * (x - t.first)) by ring, u64_id _ (by omega) (by omega)]
  have htmp : i64.conv (1024 * (m * (x - t.first)) / t.length) = tmp := i64_id _ (by show _ ≤ tmp; omega) (by show tmp < _; omega)
  simp only [htmp, hidx]
  rw [i32_id _ (by omega) (by omega), u32_id _ (by omega) (by omega)]

/-- **C18**, for `0 ≤ first`: the query picks two neighbouring samples of the table whose arguments enclose `x`, and weights `1024 - a`
and `a` between 0 and 1024.  Missing: negative `first` (`C18_negative_first_violated`). -/
theorem C18_encloses_partial (n : Nat) (first last x : Int) (t : Lut) (ht : lutInit n first last = some t) (hn : 2 ≤ n) (hn' : n ≤ 2 ^ 20)
    (hf : 0 ≤ first) (hl : first < last) (hl' : last < 2 ^ 31) (hx : first ≤ x) (hx' : x ≤ last) :
    ∃ (k : Nat) (a : Int), index2 t x = some ((k : Int), a) ∧ k + 1 < n ∧ 0 ≤ a ∧ a ≤ 1024 ∧
      sampleArg n first last k ≤ x ∧ x ≤ sampleArg n first last (k + 1) := by
  obtain ⟨e1, e2, e3⟩ := lutInit_some n first last t ht
  have hi := index2_eq t x (by omega) (by omega) (by omega) (by omega) (by omega) (by omega)
  rw [e1, e2, e3] at hi
  obtain ⟨h1, h2, h3, h4, h5⟩ := hi
  have hm : (0 : Int) < ((n - 1 : Nat) : Int) := by omega
  have hn1 : (n : Int) = ((n - 1 : Nat) : Int) + 1 := by omega
  refine ⟨(min (((n - 1 : Nat) : Int) * (x - first) / (last - first)) (((n - 1 : Nat) : Int) - 1)).toNat, _, ?_, by omega, h4, h5, ?_, ?_⟩
  · rw [Int.toNat_of_nonneg h2]; exact h1
  · rw [sampleArg_eq n first last _ hn (by omega) hf (by omega) hl' (by omega), arg, Int.toNat_of_nonneg h2]
    generalize ((n - 1 : Nat) : Int) = m at *
    set idx := min (m * (x - first) / (last - first)) (m - 1) with hidx
    have : idx * (last - first) ≤ m * (x - first) := by
      have h6 : idx ≤ m * (x - first) / (last - first) := by rw [hidx]; exact min_le_left _ _
      calc idx * (last - first) ≤ m * (x - first) / (last - first) * (last - first) := Int.mul_le_mul_of_nonneg_right h6 (by omega)
        _ ≤ m * (x - first) := Int.ediv_mul_le _ (by omega)
    have : idx * (last - first) / m ≤ x - first := by
      apply Int.ediv_le_of_le_mul hm
      rw [Int.mul_comm (x - first)]; exact this
    omega
  · rw [sampleArg_eq n first last _ hn (by omega) hf (by omega) hl' (by omega), arg]
    rw [Nat.cast_add, Int.toNat_of_nonneg h2]
    generalize ((n - 1 : Nat) : Int) = m at *
    set idx := min (m * (x - first) / (last - first)) (m - 1) with hidx
    have key : (x - first) * m ≤ (idx + 1) * (last - first) := by
      by_cases hlast : m * (x - first) / (last - first) ≤ m - 1
      · have h6 : idx = m * (x - first) / (last - first) := by rw [hidx]; exact min_eq_left hlast
        have h7 := Int.lt_ediv_add_one_mul_self (m * (x - first)) (show 0 < last - first by omega)
        rw [← h6] at h7
        rw [Int.mul_comm (x - first)]
        omega
      · have h6 : idx = m - 1 := by rw [hidx]; exact min_eq_right (by omega)
        rw [h6, show m - 1 + 1 = m by omega, Int.mul_comm]
        exact Int.mul_le_mul_of_nonneg_left (by omega) (by omega)
    have : x - first ≤ (idx + 1) * (last - first) / m := Int.le_ediv_of_mul_le hm key
    show x ≤ first + (idx + 1) * (last - first) / m
    omega

/-- The interpolation between samples that are small non-negative numbers: a weighted mean, rounded down; it lies between them and is
the sample itself at weight 0 or 1024. -/
theorem C18_linear (a s0 s1 : Int) (ha : 0 ≤ a) (ha' : a ≤ 1024) (h0 : 0 ≤ s0) (h0' : s0 < 2 ^ 21) (h1 : 0 ≤ s1) (h1' : s1 < 2 ^ 21) :
    linear a s0 s1 = ((1024 - a) * s0 + a * s1) / 1024 ∧ min s0 s1 ≤ linear a s0 s1 ∧ linear a s0 s1 ≤ max s0 s1 := by
  have p1 : 0 ≤ (1024 - a) * s0 := Int.mul_nonneg (by omega) h0
  have p2 : 0 ≤ a * s1 := Int.mul_nonneg ha h1
  have q1 : (1024 - a) * min s0 s1 ≤ (1024 - a) * s0 := Int.mul_le_mul_of_nonneg_left (by omega) (by omega)
  have q2 : a * min s0 s1 ≤ a * s1 := Int.mul_le_mul_of_nonneg_left (by omega) (by omega)
  have q3 : (1024 - a) * s0 ≤ (1024 - a) * max s0 s1 := Int.mul_le_mul_of_nonneg_left (by omega) (by omega)
  have q4 : a * s1 ≤ a * max s0 s1 := Int.mul_le_mul_of_nonneg_left (by omega) (by omega)
  have r1 : (1024 - a) * min s0 s1 + a * min s0 s1 = 1024 * min s0 s1 := by ring
  have r2 : (1024 - a) * max s0 s1 + a * max s0 s1 = 1024 * max s0 s1 := by ring
  have e : linear a s0 s1 = ((1024 - a) * s0 + a * s1) / 1024 := by
    unfold linear
    rw [u32_id (1024 - a) (by omega) (by omega), u32_id s0 h0 (by omega), u32_id s1 h1 (by omega)]
    rw [u32_id _ (by omega) (by omega), i32_id _ (by omega) (by omega)]
  rw [e]
  refine ⟨rfl, ?_, ?_⟩ <;> omega

/-- **C18**, at a sample: if the argument of sample `k` was not rounded, the query at it returns that sample.  Missing: rounded arguments
(`C18_rounded_sample_violated`). -/
theorem C18_at_sample_partial (n : Nat) (first last : Int) (f : Int → Int) (k : Nat) (t : Lut) (ht : lutInit n first last = some t) (hn : 2 ≤ n)
    (hn' : n ≤ 2 ^ 20) (hf : 0 ≤ first) (hl : first < last) (hl' : last < 2 ^ 31) (hk : k < n) (hv : ∀ y, 0 ≤ f y ∧ f y < 2 ^ 21)
    (hd : ((n - 1 : Nat) : Int) ∣ k * (last - first)) :
    getLinear n first last f (sampleArg n first last k) = some (f (sampleArg n first last k)) := by
  obtain ⟨e1, e2, e3⟩ := lutInit_some n first last t ht
  have hm : (0 : Int) < ((n - 1 : Nat) : Int) := by omega
  have hn1 : (n : Int) = ((n - 1 : Nat) : Int) + 1 := by omega
  have hsa := sampleArg_eq n first last k hn (by omega) hf (by omega) hl' hk
  have hrange : first ≤ sampleArg n first last k ∧ sampleArg n first last k ≤ last ∧
      ((n - 1 : Nat) : Int) * (sampleArg n first last k - first) = k * (last - first) := by
    rw [hsa, arg]
    obtain ⟨c, hc⟩ := hd
    have hkm : (k : Int) ≤ ((n - 1 : Nat) : Int) := by omega
    generalize ((n - 1 : Nat) : Int) = m at *
    rw [hc, Int.mul_ediv_cancel_left _ (by omega)]
    have h0 : 0 ≤ m * c := by rw [← hc]; exact Int.mul_nonneg (by omega) (by omega)
    have h0' : 0 ≤ c := by
      by_contra h
      have := Int.mul_neg_of_pos_of_neg hm (by omega : c < 0)
      omega
    have h1 : m * c ≤ m * (last - first) := by rw [← hc]; exact Int.mul_le_mul_of_nonneg_right hkm (by omega)
    have h2 := le_of_mul_le_mul_left h1 hm
    refine ⟨by omega, by omega, ?_⟩
    congr 1
    omega
  generalize hxe : sampleArg n first last k = x at *
  obtain ⟨hx1, hx2, hx3⟩ := hrange
  have hi := index2_eq t x (by omega) (by omega) (by omega) (by omega) (by omega) (by omega)
  rw [e1, e2, e3] at hi
  obtain ⟨h1, h2, h3, h4, h5⟩ := hi
  rw [hx3] at h1 h2 h3 h4 h5
  have hdiv : (k : Int) * (last - first) / (last - first) = k := Int.mul_ediv_cancel _ (by omega)
  have hdiv2 : 1024 * ((k : Int) * (last - first)) / (last - first) = 1024 * k := by
    rw [← Int.mul_assoc]; exact Int.mul_ediv_cancel _ (by omega)
  rw [hdiv, hdiv2] at h1
  unfold getLinear
  rw [ht, Option.bind_some, h1, Option.bind_some, e1]
  by_cases hkl : k < n - 1
  · rw [show min (k : Int) (((n - 1 : Nat) : Int) - 1) = k by omega]
    simp only
    rw [if_pos (by omega), show 1024 * (k : Int) - k * 1024 = 0 by omega, Int.toNat_natCast, hxe]
    rw [(C18_linear 0 (f x) (f (sampleArg n first last (k + 1))) (by omega) (by omega) (hv _).1 (hv _).2 (hv _).1 (hv _).2).1]
    congr 1
    omega
  · rw [show min (k : Int) (((n - 1 : Nat) : Int) - 1) = ((k - 1 : Nat) : Int) by omega]
    simp only
    rw [if_pos (by omega), show 1024 * (k : Int) - ((k - 1 : Nat) : Int) * 1024 = 1024 by omega, Int.toNat_natCast, show k - 1 + 1 = k by omega, hxe]
    rw [(C18_linear 1024 (f (sampleArg n first last (k - 1))) (f x) (by omega) (by omega) (hv _).1 (hv _).2 (hv _).1 (hv _).2).1]
    congr 1
    omega

example : getLinear 3 0 10 (fun y => y * y) 5 = some 25 ∧ getLinear 3 0 10 (fun y => y * y) 7 = some 54 := by decide

/-- **C18 is violated** at samples whose argument was rounded: the table of 4 samples over [0, 10] has a sample at 3 but the query at 3
does not return it. -/
theorem C18_rounded_sample_violated :
    sampleArg 4 0 10 1 = 3 ∧ getLinear 4 0 10 (fun y => 1000 * y) 3 = some 2698 := by decide

/-- **C18 is violated** for negative `first` when `N - 1` is not a power of two: the samples are taken at wrong arguments. -/
theorem C18_negative_first_violated : sampleArg 4 (-3) 0 0 = 1431655762 ∧ (lutInit 4 (-3) 0).isSome = true := by decide

/-- **C18 is violated** for negative values: the mean is computed with unsigned numbers. -/
theorem C18_negative_values_violated : linear 0 (-1024) (-1024) = 4193280 := by decide

end Verif.Numeric
