import Verif.Model.FloatCast
import Verif.Lemmas.Reals2
import Verif.Props.C10_Numeric

/-!
# C109: casts between floating-point types, and literals, give the number that is meant or are refused

`include/yato/types.h` l.62-72 and l.102-175.
-/
set_option autoImplicit false
set_option exponentiation.threshold 40000

namespace Verif.FloatCast

open Verif.Reals (Fmt Num IsBinary Nearest)
open Verif.Numeric (IntTy)

/-! ### Specification -/

/-- The rational number that a finite number is. -/
def value (neg : Bool) (k : Nat) : ℚ := (if neg then -1 else 1) * ((k : ℚ) / 2 ^ 16494)

/-- The finite numbers of a type: so many bits times a power of two within limits. -/
def Numbers (ld : LongDouble) : FTy → ℚ → Prop
  | .float32 => IsBinary 24 (-149) 104
  | .float64 => IsBinary 53 (-1074) 971
  | .float80 =>
    match ld with
    | .binary64 => IsBinary 53 (-1074) 971
    | .x87 => IsBinary 64 (-16445) 16320
    | .binary128 => IsBinary 113 (-16494) 16271

/-- The values of a type: finite numbers, infinities and NaN. -/
def Of (ld : LongDouble) (t : FTy) : Num → Prop
  | .fin neg k => Numbers ld t (value neg k)
  | _ => True

/-- A number is farther from zero than all finite numbers of the type. -/
def Beyond (ld : LongDouble) (t : FTy) (q : ℚ) : Prop := ∀ y, Numbers ld t y → |y| < |q|

/-! ### Lemmas -/

theorem numbers_eq (ld : LongDouble) (t : FTy) : Numbers ld t = (fmt ld t).set 16494 := by
  cases t <;> cases ld <;> (unfold Numbers Fmt.set fmt; rfl)

theorem fmt_p (ld : LongDouble) (t : FTy) : 0 < (fmt ld t).p := by cases t <;> cases ld <;> decide

theorem fmt_low (ld : LongDouble) (t : FTy) : (fmt ld t).low + (fmt ld t).p ≤ (fmt ld t).top := by cases t <;> cases ld <;> decide

/-- A format all of whose numbers are in another one. -/
def Sub (f g : Fmt) : Prop := f.p ≤ g.p ∧ g.low ≤ f.low ∧ f.top ≤ g.top

theorem sub_total (ld : LongDouble) (s t : FTy) : Sub (fmt ld s) (fmt ld t) ∨ Sub (fmt ld t) (fmt ld s) := by
  unfold Sub
  cases s <;> cases t <;> cases ld <;> decide

theorem sub_fits {f g : Fmt} (h : Sub f g) {k : Nat} (hk : f.fits k) : g.fits k := by
  obtain ⟨m, hm, e⟩ := Reals.of_fits f hk
  rw [e]
  exact Reals.fits_of g m _ (lt_of_lt_of_le hm (Nat.pow_le_pow_right (by omega) h.1)) (le_trans h.2.1 (le_max_left _ _))

theorem value_false (k : Nat) : value false k = (k : ℚ) / 2 ^ 16494 := one_mul _

theorem value_true (k : Nat) : value true k = -((k : ℚ) / 2 ^ 16494) := by
  show -1 * _ = _
  rw [neg_one_mul]

theorem abs_value (neg : Bool) (k : Nat) : |value neg k| = (k : ℚ) / 2 ^ 16494 := by
  have h : (0 : ℚ) ≤ (k : ℚ) / 2 ^ 16494 := div_nonneg (by exact_mod_cast Nat.zero_le k) (Reals.pow_pos_q _).le
  cases neg
  · rw [value_false, abs_of_nonneg h]
  · rw [value_true, abs_neg, abs_of_nonneg h]

theorem numbers_neg (ld : LongDouble) (t : FTy) {y : ℚ} : Numbers ld t (-y) ↔ Numbers ld t y := by
  rw [numbers_eq]
  exact Reals.set_neg _ _

theorem numbers_iff (ld : LongDouble) (t : FTy) (neg : Bool) (k : Nat) : Numbers ld t (value neg k) ↔ (fmt ld t).fits k ∧ k < 2 ^ (fmt ld t).top := by
  cases neg
  · rw [value_false, numbers_eq]
    exact Reals.set_iff _ (fmt_p ld t) (fmt_low ld t) _ _
  · rw [value_true, numbers_neg, numbers_eq]
    exact Reals.set_iff _ (fmt_p ld t) (fmt_low ld t) _ _

/-- Numbers of a format are at most the largest one. -/
theorem le_max {f : Fmt} (hf : f.low + f.p ≤ f.top) {k : Nat} (hk : f.fits k) (ht : k < 2 ^ f.top) : k ≤ maxUnits f := by
  by_cases h0 : k = 0
  · subst h0
    exact Nat.zero_le _
  obtain ⟨m, hm, e⟩ := Reals.of_fits f hk
  have hs : f.spacing k ≤ f.top - f.p := by
    unfold Fmt.spacing
    have := (Nat.log2_lt h0).2 ht
    omega
  have h1 : k ≤ m * 2 ^ (f.top - f.p) := by
    rw [e]
    exact Nat.mul_le_mul_left m (Nat.pow_le_pow_right (by omega) hs)
  have h2 : m * 2 ^ (f.top - f.p) ≤ (2 ^ f.p - 1) * 2 ^ (f.top - f.p) := Nat.mul_le_mul_right _ (by omega)
  have h3 : (2 ^ f.p - 1) * 2 ^ (f.top - f.p) = maxUnits f := by
    unfold maxUnits
    rw [Nat.sub_mul, ← Nat.pow_add, one_mul]
    congr 2
    omega
  omega

theorem max_fits {f : Fmt} (hf : f.low + f.p ≤ f.top) : f.fits (maxUnits f) := by
  have h3 : (2 ^ f.p - 1) * 2 ^ (f.top - f.p) = maxUnits f := by
    unfold maxUnits
    rw [Nat.sub_mul, ← Nat.pow_add, one_mul]
    congr 2
    omega
  rw [← h3]
  exact Reals.fits_of f _ _ (by have := Nat.pow_pos (n := f.p) (show 0 < 2 by omega); omega) (by omega)

theorem max_lt (f : Fmt) : maxUnits f < 2 ^ f.top := by
  unfold maxUnits
  have h1 := Nat.pow_pos (n := f.top) (show 0 < 2 by omega)
  have h2 := Nat.pow_pos (n := f.top - f.p) (show 0 < 2 by omega)
  omega

theorem div_lt_div {a b : Nat} : (a : ℚ) / 2 ^ 16494 < (b : ℚ) / 2 ^ 16494 ↔ a < b := by
  rw [div_lt_div_iff_of_pos_right (Reals.pow_pos_q _)]
  exact Nat.cast_lt

theorem beyond_iff (ld : LongDouble) (t : FTy) (neg : Bool) (k : Nat) : Beyond ld t (value neg k) ↔ maxUnits (fmt ld t) < k := by
  constructor
  · intro h
    have := h (value false (maxUnits (fmt ld t))) ((numbers_iff ld t _ _).2 ⟨max_fits (fmt_low ld t), max_lt _⟩)
    rw [abs_value, abs_value] at this
    exact div_lt_div.1 this
  · intro h y hy
    have hy' : Numbers ld t |y| := by
      rcases abs_choice y with e | e <;> rw [e]
      · exact hy
      · exact (numbers_neg ld t).2 hy
    rw [numbers_eq] at hy'
    obtain ⟨z, ez, hz, hzt⟩ := Reals.set_nonneg _ (fmt_low ld t) 16494 hy' (abs_nonneg y)
    rw [ez, abs_value]
    exact div_lt_div.2 (lt_of_le_of_lt (le_max (fmt_low ld t) hz hzt) h)

/-- Rounding does not pass the largest number. -/
theorem near_le_max (ld : LongDouble) (t : FTy) {n d : Nat} (hd : 0 < d) (h : n ≤ maxUnits (fmt ld t) * d) : (fmt ld t).near n d ≤ maxUnits (fmt ld t) := by
  have := Reals.near_nearest (fmt ld t) (fmt_p ld t) n d (maxUnits (fmt ld t)) hd (max_fits (fmt_low ld t))
  generalize maxUnits (fmt ld t) = M at *
  generalize (fmt ld t).near n d = N at *
  by_contra hc
  have h1 : M * d < N * d := Nat.mul_lt_mul_of_pos_right (by omega) hd
  have h2 : (M : Int) * d < N * d := by exact_mod_cast h1
  have h3 : (n : Int) ≤ M * d := by exact_mod_cast h
  rw [abs_of_nonneg (by omega), abs_of_nonneg (by omega)] at this
  omega

theorem round_fin (ld : LongDouble) (t : FTy) (neg : Bool) {k : Nat} (h : k ≤ maxUnits (fmt ld t)) :
    (fmt ld t).round neg k 1 = .fin neg ((fmt ld t).near k 1) := by
  unfold Fmt.round
  rw [if_pos (lt_of_le_of_lt (near_le_max ld t (by omega) (by omega)) (max_lt _))]

theorem round_same (ld : LongDouble) (t : FTy) (neg : Bool) {k : Nat} (h : (fmt ld t).fits k) (ht : k < 2 ^ (fmt ld t).top) :
    (fmt ld t).round neg k 1 = .fin neg k := by
  rw [round_fin ld t neg (le_max (fmt_low ld t) h ht)]
  have := Reals.near_exact (fmt ld t) (fmt_p ld t) k 1 (by omega) h
  rw [mul_one] at this
  rw [this]

theorem cast_fin (e : Env) (t : FTy) (neg : Bool) (k : Nat) :
    cast e t (.fin neg k) = if k ≤ maxUnits (fmt e.ld t) || e.iec then .ok ((fmt e.ld t).round neg k 1) else .ub := rfl

theorem cast_same (e : Env) (t : FTy) (x : Num) (h : Of e.ld t x) : cast e t x = .ok x := by
  cases x with
  | nan => rfl
  | inf neg => rfl
  | fin neg k =>
    obtain ⟨h1, h2⟩ := (numbers_iff e.ld t neg k).1 h
    have h3 := le_max (fmt_low e.ld t) h1 h2
    rw [cast_fin]
    rw [if_pos (by simp [h3]), round_same e.ld t neg h1 h2]

theorem eq_refl {x : Num} (h : x ≠ .nan) : Reals.eq x x = true := by
  cases x with
  | nan => exact absurd rfl h
  | inf neg => simp [Reals.eq]
  | fin neg k => simp [Reals.eq]

theorem round_cases (ld : LongDouble) (t : FTy) (neg : Bool) (k : Nat) :
    (∃ j, (fmt ld t).round neg k 1 = .fin neg j ∧ Numbers ld t (value neg j)) ∨ (fmt ld t).round neg k 1 = .inf neg := by
  unfold Fmt.round
  by_cases h : (fmt ld t).near k 1 < 2 ^ (fmt ld t).top
  · rw [if_pos h]
    exact Or.inl ⟨_, rfl, (numbers_iff ld t neg _).2 ⟨Reals.near_fits _ (fmt_p ld t) _ _ (by omega), h⟩⟩
  · rw [if_neg h]
    exact Or.inr rfl

theorem nearest_signed (ld : LongDouble) (t : FTy) (neg : Bool) {q : ℚ} {j : Nat} (h : Nearest (Numbers ld t) q (value false j)) :
    Nearest (Numbers ld t) ((if neg then -1 else 1) * q) (value neg j) := by
  cases neg
  · simpa using h
  · refine ⟨?_, fun y hy => ?_⟩
    · rw [value_true, numbers_neg, ← value_false]
      exact h.1
    · have := h.2 (-y) ((numbers_neg ld t).2 hy)
      rw [value_false] at this
      rw [value_true, if_pos rfl, neg_one_mul]
      rw [← abs_neg (_ - _), ← abs_neg (y - _)]
      have e1 : -(-((j : ℚ) / 2 ^ 16494) - -q) = j / 2 ^ 16494 - q := by ring
      have e2 : -(y - -q) = -y - q := by ring
      rw [e1, e2]
      exact this

theorem near_is_nearest (ld : LongDouble) (t : FTy) {n d : Nat} (hd : 0 < d) (h : (fmt ld t).near n d < 2 ^ (fmt ld t).top) :
    Nearest (Numbers ld t) ((n : ℚ) / d / 2 ^ 16494) (value false ((fmt ld t).near n d)) := by
  rw [numbers_eq, value_false]
  exact Reals.near_nearest_q _ (fmt_p ld t) (fmt_low ld t) n d 16494 hd h

/-! ### float_cast -/

/-- **C109**: the cast of a number, or of an infinity, that the other type has gives the same. -/
theorem C109_exact (e : Env) (src dst : FTy) (x : Num) (hs : Of e.ld src x) (hd : Of e.ld dst x) (hn : x ≠ .nan) : floatCast e src dst x = .ok x := by
  unfold floatCast
  rw [cast_same e dst x hd]
  cases e.checked
  · rfl
  · simp only [cast_same e src x hs, eq_refl hn, if_true]

/-- **C109**: if a checked cast gives a value, then it is the one that was cast. -/
theorem C109_checked (e : Env) (hc : e.checked = true) (src dst : FTy) (x y : Num) (hs : Of e.ld src x) (h : floatCast e src dst x = .ok y) :
    y = x ∧ Of e.ld dst y := by
  cases x with
  | nan =>
    simp [floatCast, hc, cast, Reals.eq] at h
  | inf neg =>
    simp [floatCast, hc, cast, Reals.eq] at h
    subst h
    exact ⟨rfl, trivial⟩
  | fin neg k =>
    obtain ⟨h1, h2⟩ := (numbers_iff e.ld src neg k).1 hs
    by_cases hd : Of e.ld dst (.fin neg k)
    · rw [C109_exact e src dst _ hs hd (by simp)] at h
      obtain rfl := Out.ok.inj h
      exact ⟨rfl, hd⟩
    · exfalso
      -- the other type is smaller, so that the result is converted back to itself
      have hsub : Sub (fmt e.ld dst) (fmt e.ld src) := by
        rcases sub_total e.ld src dst with hb | hb
        · exact absurd ((numbers_iff e.ld dst neg k).2 ⟨sub_fits hb h1, lt_of_lt_of_le h2 (Nat.pow_le_pow_right (by omega) hb.2.2)⟩) hd
        · exact hb
      unfold floatCast at h
      rw [if_pos hc] at h
      by_cases hk : (decide (k ≤ maxUnits (fmt e.ld dst)) || e.iec) = true
      · have hcast : cast e dst (.fin neg k) = .ok ((fmt e.ld dst).round neg k 1) := by
          rw [cast_fin]
          rw [if_pos hk]
        rw [hcast] at h
        rcases round_cases e.ld dst neg k with ⟨j, hj, hj'⟩ | hj
        · rw [hj] at h
          obtain ⟨f1, f2⟩ := (numbers_iff e.ld dst neg j).1 hj'
          have hback : cast e src (.fin neg j) = .ok (.fin neg j) :=
            cast_same e src _ ((numbers_iff e.ld src neg j).2 ⟨sub_fits hsub f1, lt_of_lt_of_le f2 (Nat.pow_le_pow_right (by omega) hsub.2.2)⟩)
          simp only [hback] at h
          by_cases he : Reals.eq (.fin neg k) (.fin neg j) = true
          · have : k = j := by
              simp [Reals.eq] at he
              exact he
            subst this
            exact hd hj'
          · rw [if_neg he] at h
            cases h
        · rw [hj] at h
          simp [cast, Reals.eq] at h
      · have hcast : cast e dst (.fin neg k) = .ub := by
          rw [cast_fin]
          rw [if_neg hk]
        rw [hcast] at h
        cases h

/-- **C109**, in part: a checked cast refuses a number that the other type does not have. The full statement is without the condition that the number is not beyond all numbers of the type, or that the
conversion of such numbers is defined; see `C109_beyond_violated`. -/
theorem C109_refused_partial (e : Env) (hc : e.checked = true) (src dst : FTy) (neg : Bool) (k : Nat) (hs : Of e.ld src (.fin neg k)) (hd : ¬ Numbers e.ld dst (value neg k))
    (hb : e.iec = true ∨ ¬ Beyond e.ld dst (value neg k)) : floatCast e src dst (.fin neg k) = .assert := by
  have hk : (decide (k ≤ maxUnits (fmt e.ld dst)) || e.iec) = true := by
    rcases hb with hb | hb
    · simp [hb]
    · rw [beyond_iff] at hb
      simp [Nat.le_of_not_lt hb]
  have hcast : cast e dst (.fin neg k) = .ok ((fmt e.ld dst).round neg k 1) := by
    rw [cast_fin]
    rw [if_pos hk]
  cases hf : floatCast e src dst (.fin neg k) with
  | ok y =>
    obtain ⟨rfl, h⟩ := C109_checked e hc src dst _ y hs hf
    exact absurd h hd
  | assert => rfl
  | ub =>
    exfalso
    unfold floatCast at hf
    rw [if_pos hc, hcast] at hf
    obtain ⟨h1, h2⟩ := (numbers_iff e.ld src neg k).1 hs
    have hsub : Sub (fmt e.ld dst) (fmt e.ld src) := by
      rcases sub_total e.ld src dst with hb | hb
      · exact absurd ((numbers_iff e.ld dst neg k).2 ⟨sub_fits hb h1, lt_of_lt_of_le h2 (Nat.pow_le_pow_right (by omega) hb.2.2)⟩) hd
      · exact hb
    rcases round_cases e.ld dst neg k with ⟨j, hj, hj'⟩ | hj
    · rw [hj] at hf
      obtain ⟨f1, f2⟩ := (numbers_iff e.ld dst neg j).1 hj'
      have hback : cast e src (.fin neg j) = .ok (.fin neg j) :=
        cast_same e src _ ((numbers_iff e.ld src neg j).2 ⟨sub_fits hsub f1, lt_of_lt_of_le f2 (Nat.pow_le_pow_right (by omega) hsub.2.2)⟩)
      simp only [hback] at hf
      by_cases he : Reals.eq (.fin neg k) (.fin neg j) = true
      · rw [if_pos he] at hf
        cases hf
      · rw [if_neg he] at hf
        cases hf
    · rw [hj] at hf
      simp [cast, Reals.eq] at hf

/-- **C109**: without checks, the cast gives a nearest number of the other type if there are larger ones; infinities and NaN are kept. -/
theorem C109_unchecked (e : Env) (hc : e.checked = false) (src dst : FTy) :
    (∀ neg k, ¬ Beyond e.ld dst (value neg k) → ∃ j, floatCast e src dst (.fin neg k) = .ok (.fin neg j) ∧ Nearest (Numbers e.ld dst) (value neg k) (value neg j)) ∧
    (∀ neg, floatCast e src dst (.inf neg) = .ok (.inf neg)) ∧ floatCast e src dst .nan = .ok .nan := by
  refine ⟨fun neg k hb => ?_, fun neg => by simp [floatCast, hc, cast], by simp [floatCast, hc, cast]⟩
  rw [beyond_iff] at hb
  have hk := Nat.le_of_not_lt hb
  refine ⟨(fmt e.ld dst).near k 1, ?_, ?_⟩
  · unfold floatCast
    rw [if_neg (by simp [hc])]
    rw [cast_fin]
    rw [if_pos (by simp [hk]), round_fin e.ld dst neg hk]
  · have := near_is_nearest e.ld dst (n := k) (d := 1) (by omega) (lt_of_le_of_lt (near_le_max e.ld dst (by omega) (by omega)) (max_lt _))
    have h2 := nearest_signed e.ld dst neg this
    rw [Nat.cast_one, div_one] at h2
    exact h2

/-- NaN is a value of all types, yet a checked cast refuses it: NaN is not equal to itself (types.h l.70). -/
theorem C109_nan_violated (e : Env) (hc : e.checked = true) (src dst : FTy) : Of e.ld src .nan ∧ Of e.ld dst .nan ∧ floatCast e src dst .nan = .assert := by
  refine ⟨trivial, trivial, ?_⟩
  simp [floatCast, hc, cast, Reals.eq]

/-- A number that is beyond all numbers of the other type is not refused: to find out, it is converted (types.h l.70), which is undefined. -/
theorem C109_beyond_violated (e : Env) (hi : e.iec = false) (src dst : FTy) (neg : Bool) (k : Nat) (h : Beyond e.ld dst (value neg k)) :
    floatCast e src dst (.fin neg k) = .ub := by
  rw [beyond_iff] at h
  have hcast : cast e dst (.fin neg k) = .ub := by
    rw [cast_fin]
    rw [if_neg (by simp [hi]; omega)]
  unfold floatCast
  rw [hcast]
  cases e.checked <;> rfl

/-! ### Literals of integer types -/

/-- **C109**: a literal gives the number if the type has it, and otherwise is refused by checked builds. -/
theorem C109_integer (e : Env) (t : IntTy) (ht : 1 ≤ t.bits) (n : Nat) (hn : n < 2 ^ 64) :
    (t.lo ≤ (n : Int) ∧ (n : Int) < t.hi → intLiteral e t n = .ok n) ∧ (e.checked = true → ¬ (t.lo ≤ (n : Int) ∧ (n : Int) < t.hi) → intLiteral e t n = .assert) := by
  have hm : Numeric.u64.Mem (n : Int) := by
    constructor
    · show (0 : Int) ≤ n
      omega
    · show (n : Int) < 2 ^ 64
      exact_mod_cast hn
  have key := Numeric.C31_narrow_cast Numeric.u64 t (by decide) ht (n : Int) hm
  constructor
  · intro h
    rw [if_pos h] at key
    unfold intLiteral
    rw [key, Numeric.conv_id t ht _ h]
    cases e.checked <;> rfl
  · intro hc h
    rw [if_neg h] at key
    unfold intLiteral
    rw [key, if_pos hc]

/-- **C109**, in part: with a minus, a literal gives the negative number. The full statement is for all numbers of the type; see `C109_least_violated`. -/
theorem C109_minus_partial (e : Env) (t : IntTy) (hs : t.signed = true) (ht : 1 ≤ t.bits) (n : Nat) (hn : n < 2 ^ 64) (h : (n : Int) < t.hi) :
    minus t (intLiteral e t n) = .ok (-(n : Int)) := by
  have hlo : t.lo ≤ 0 := by
    unfold IntTy.lo
    rw [if_pos hs]
    have := Numeric.two_pow_pos (t.bits - 1)
    omega
  rw [(C109_integer e t ht n hn).1 ⟨by omega, h⟩]
  have hm : t.Mem (-(n : Int)) := by
    unfold IntTy.Mem
    unfold IntTy.hi at h ⊢
    unfold IntTy.lo
    rw [if_pos hs] at h ⊢
    rw [if_pos hs]
    have := Numeric.two_pow_pos (t.bits - 1)
    omega
  unfold minus
  simp only [Numeric.arith_mem t ht _ hm]

/-- The least number of a signed type cannot be written: the digits alone are too large. With checks, this is refused; without, the result is another number or is undefined. -/
theorem C109_least_violated (e : Env) (t : IntTy) (hs : t.signed = true) (ht : t.bits = 8 ∨ t.bits = 16 ∨ t.bits = 32 ∨ t.bits = 64) :
    (e.checked = true → minus t (intLiteral e t (2 ^ (t.bits - 1))) = .assert) ∧ minus t (intLiteral e t (2 ^ (t.bits - 1))) ≠ .ok t.lo := by
  obtain ⟨s, b⟩ := t
  obtain ⟨c, ld, iec⟩ := e
  subst hs
  rcases ht with h | h | h | h <;> (dsimp only at h; subst h; cases c <;> cases ld <;> cases iec <;> decide)

/-! ### Literals of floating-point types -/

theorem unit_eq : unit = 16494 := rfl

theorem scaled_of (n d u : Nat) : ((n * 2 ^ u : Nat) : ℚ) / d / 2 ^ u = n / d := by
  have := (Reals.pow_pos_q u).ne'
  rw [Nat.cast_mul, Nat.cast_pow, Nat.cast_ofNat, mul_div_right_comm, mul_div_assoc, div_self this, mul_one]

theorem scaled (n d : Nat) : ((n * 2 ^ unit : Nat) : ℚ) / d / 2 ^ 16494 = n / d := by
  rw [unit_eq]
  exact scaled_of n d 16494

theorem mul_of_div (n d z u : Nat) (hd : 0 < d) (h : (n : ℚ) / d = z / 2 ^ u) : n * 2 ^ u = z * d := by
  have hd' : (d : ℚ) ≠ 0 := by exact_mod_cast hd.ne'
  have hu := (Reals.pow_pos_q u).ne'
  rw [div_eq_div_iff hd' hu] at h
  exact_mod_cast h

theorem lt_of_mul (n d z u : Nat) (hd : 0 < d) (h : z * d < n * 2 ^ u) : (z : ℚ) / 2 ^ u < n / d := by
  have hd' : (0 : ℚ) < d := by exact_mod_cast hd
  rw [div_lt_div_iff₀ (Reals.pow_pos_q u) hd']
  exact_mod_cast h

theorem one_of (u : Nat) : (((2 ^ u : Nat) : ℚ)) / 2 ^ u = 1 := by
  rw [Nat.cast_pow, Nat.cast_ofNat]
  exact div_self (Reals.pow_pos_q u).ne'

theorem round_eq (f : Fmt) (neg : Bool) (n d : Nat) : f.round neg n d = if f.near n d < 2 ^ f.top then .fin neg (f.near n d) else .inf neg := rfl

theorem finite_round (f : Fmt) (n d : Nat) : finite (f.round false n d) = if f.near n d < 2 ^ f.top then some (.fin false (f.near n d)) else none := by
  rw [round_eq]
  by_cases ht : f.near n d < 2 ^ f.top
  · rw [if_pos ht, if_pos ht]
    rfl
  · rw [if_neg ht, if_neg ht]
    rfl

theorem digits_eq (ld : LongDouble) (n d : Nat) :
    digits ld n d = if (fmt ld .float80).near (n * 2 ^ unit) d < 2 ^ (fmt ld .float80).top then some (.fin false ((fmt ld .float80).near (n * 2 ^ unit) d)) else none := by
  unfold digits
  exact finite_round _ _ _

theorem of_if {P : Prop} [Decidable P] {α : Type} {a x : α} (h : (if P then some a else none) = some x) : P ∧ x = a := by
  by_cases hp : P
  · rw [if_pos hp] at h
    exact ⟨hp, (Option.some.inj h).symm⟩
  · rw [if_neg hp] at h
    cases h

/-- The digits of a literal are read as the nearest `long double`. -/
theorem digits_nearest {ld : LongDouble} {n d : Nat} (hd : 0 < d) {x : Num} (h : digits ld n d = some x) :
    ∃ j, x = .fin false j ∧ Nearest (Numbers ld .float80) (n / d) (value false j) ∧ (fmt ld .float80).fits j ∧ j < 2 ^ (fmt ld .float80).top := by
  rw [digits_eq] at h
  obtain ⟨ht, hx⟩ := of_if h
  have hn := near_is_nearest ld .float80 hd ht
  have hf := Reals.near_fits (fmt ld .float80) (fmt_p _ _) (n * 2 ^ unit) d hd
  rw [scaled] at hn
  clear h
  generalize (fmt ld .float80).near (n * 2 ^ unit) d = j at ht hx hn hf
  exact ⟨j, hx, hn, hf, ht⟩

/-- The call of a literal with a finite `long double`. -/
theorem real_call (e : Env) (dst : FTy) (j : Nat) :
    (¬ Beyond e.ld dst (value false j) → ∃ k, realLiteral e dst (.fin false j) = .ok (.fin false k) ∧ Nearest (Numbers e.ld dst) (value false j) (value false k)) ∧
    (Beyond e.ld dst (value false j) → (e.checked = true → realLiteral e dst (.fin false j) = .assert) ∧ (e.checked = false → e.iec = false → realLiteral e dst (.fin false j) = .ub)) := by
  rw [beyond_iff]
  constructor
  · intro hb
    have hk := Nat.le_of_not_lt hb
    refine ⟨(fmt e.ld dst).near j 1, ?_, ?_⟩
    · unfold realLiteral cast inRange
      simp only [hk, decide_true, Bool.not_true, Bool.and_false, Bool.true_or, if_true, Bool.false_eq_true, if_false]
      rw [round_fin e.ld dst false hk]
    · have := near_is_nearest e.ld dst (n := j) (d := 1) (by omega) (lt_of_le_of_lt (near_le_max e.ld dst (by omega) (by omega)) (max_lt _))
      rw [Nat.cast_one, div_one, ← value_false] at this
      exact this
  · intro hb
    have hk : ¬ j ≤ maxUnits (fmt e.ld dst) := by omega
    constructor
    · intro hc
      simp [realLiteral, inRange, hc, hk]
    · intro hc hi
      simp [realLiteral, cast, hc, hi, hk]

/-- **C109**, in part: a literal gives a number of the type that is as near to what is written as any other, but for twice the error of the nearest `long double`. The full statement is that no number of
the type is nearer to what is written; see `C109_nearest_violated`. If the `long double` is beyond all numbers of the type, then the literal is refused by checked builds. -/
theorem C109_real_partial (e : Env) (dst : FTy) (n d : Nat) (hd : 0 < d) (o : Out Num) (h : realWritten e dst n d = some o) :
    ∃ j, Nearest (Numbers e.ld .float80) (n / d) (value false j) ∧
      (¬ Beyond e.ld dst (value false j) → ∃ k, o = .ok (.fin false k) ∧ Numbers e.ld dst (value false k) ∧
        ∀ y, Numbers e.ld dst y → |value false k - n / d| ≤ |y - n / d| + 2 * |value false j - n / d|) ∧
      (Beyond e.ld dst (value false j) → (e.checked = true → o = .assert) ∧ (e.checked = false → e.iec = false → o = .ub)) := by
  unfold realWritten at h
  cases hx : digits e.ld n d with
  | none => rw [hx] at h; cases h
  | some x =>
    rw [hx] at h
    obtain ⟨j, rfl, hj, -⟩ := digits_nearest hd hx
    obtain rfl := Option.some.inj h
    refine ⟨j, hj, fun hb => ?_, (real_call e dst j).2⟩
    obtain ⟨k, hk, hk1, hk2⟩ := (real_call e dst j).1 hb
    refine ⟨k, hk, hk1, fun y hy => ?_⟩
    have h1 := hk2 y hy
    have h2 : |value false k - n / d| ≤ |value false k - value false j| + |value false j - n / d| := by
      have := abs_add_le (value false k - value false j) (value false j - n / d)
      rwa [sub_add_sub_cancel] at this
    have h3 : |y - value false j| ≤ |y - n / d| + |value false j - n / d| := by
      have := abs_add_le (y - n / d) ((n : ℚ) / d - value false j)
      rw [sub_add_sub_cancel, abs_sub_comm ((n : ℚ) / d)] at this
      exact this
    linarith

/-- **C109**: a number of the type is given exactly. -/
theorem C109_real_exact (e : Env) (dst : FTy) (n d : Nat) (hd : 0 < d) (h : Numbers e.ld dst (n / d)) :
    ∃ k, realWritten e dst n d = some (.ok (.fin false k)) ∧ value false k = n / d := by
  have h' := h
  rw [numbers_eq] at h'
  obtain ⟨z, ez, hz, hzt⟩ := Reals.set_nonneg _ (fmt_low e.ld dst) 16494 h' (div_nonneg (by exact_mod_cast Nat.zero_le n) (by exact_mod_cast Nat.zero_le d))
  have hsub : Sub (fmt e.ld dst) (fmt e.ld .float80) := by
    unfold Sub
    cases dst <;> cases e.ld <;> decide
  have hzl := sub_fits hsub hz
  have hztl : z < 2 ^ (fmt e.ld .float80).top := lt_of_lt_of_le hzt (Nat.pow_le_pow_right (by omega) hsub.2.2)
  have hnd : n * 2 ^ unit = z * d := by
    rw [unit_eq]
    exact mul_of_div n d z 16494 hd ez
  have hdig : digits e.ld n d = some (.fin false z) := by
    rw [digits_eq, hnd, Reals.near_exact _ (fmt_p _ _) _ _ hd hzl, if_pos hztl]
  refine ⟨z, ?_, ?_⟩
  · unfold realWritten
    rw [hdig, Option.map_some]
    have hmax := le_max (fmt_low e.ld dst) hz hzt
    unfold realLiteral
    rw [if_neg (by simp [inRange, hmax]), cast_same e dst (.fin false z) ((numbers_iff e.ld dst false z).2 ⟨hz, hzt⟩)]
  · rw [value_false, ez]

/-- **C109**: a literal of a type that has the numbers of `long double` gives a nearest number. -/
theorem C109_real_long (e : Env) (dst : FTy) (ht : dst = .float80 ∨ (dst = .float64 ∧ e.ld = .binary64)) (n d : Nat) (hd : 0 < d) (o : Out Num) (h : realWritten e dst n d = some o) :
    ∃ k, o = .ok (.fin false k) ∧ Nearest (Numbers e.ld dst) (n / d) (value false k) := by
  have hf : fmt e.ld dst = fmt e.ld .float80 ∧ Numbers e.ld dst = Numbers e.ld .float80 := by
    rcases ht with rfl | ⟨rfl, hl⟩
    · exact ⟨rfl, rfl⟩
    · rw [hl]
      exact ⟨rfl, rfl⟩
  unfold realWritten at h
  cases hx : digits e.ld n d with
  | none => rw [hx] at h; cases h
  | some x =>
    rw [hx] at h
    obtain ⟨j, rfl, hj, h1, h2⟩ := digits_nearest hd hx
    obtain rfl := Option.some.inj h
    have hm := le_max (fmt_low e.ld .float80) h1 h2
    refine ⟨j, ?_, hf.2 ▸ hj⟩
    unfold realLiteral
    rw [if_neg (by simp [inRange, hf.1, hm]), cast_same e dst _ (by show Numbers _ _ _; rw [hf.2]; exact hj.1)]

/-- **C109**: digits are accepted by the compiler if they are not beyond all numbers of `long double`. -/
theorem C109_accepted (e : Env) (dst : FTy) (n d : Nat) (hd : 0 < d) (h : ¬ Beyond e.ld .float80 (n / d)) : ∃ o, realWritten e dst n d = some o := by
  have hle : n * 2 ^ unit ≤ maxUnits (fmt e.ld .float80) * d := by
    by_contra hc
    apply h
    intro y hy
    have hy' : Numbers e.ld .float80 |y| := by
      rcases abs_choice y with e' | e' <;> rw [e']
      · exact hy
      · exact (numbers_neg _ _).2 hy
    rw [numbers_eq] at hy'
    obtain ⟨z, ez, hz, hzt⟩ := Reals.set_nonneg _ (fmt_low e.ld .float80) 16494 hy' (abs_nonneg y)
    have hzm := le_max (fmt_low e.ld .float80) hz hzt
    have hlt : z * d < n * 2 ^ unit := lt_of_le_of_lt (Nat.mul_le_mul_right d hzm) (Nat.lt_of_not_le hc)
    have hd' : (0 : ℚ) < d := by exact_mod_cast hd
    rw [ez, abs_of_nonneg (div_nonneg (by exact_mod_cast Nat.zero_le n) hd'.le)]
    rw [unit_eq] at hlt
    exact lt_of_mul n d z 16494 hd hlt
  have hnear := lt_of_le_of_lt (near_le_max e.ld .float80 hd hle) (max_lt _)
  unfold realWritten
  rw [digits_eq, if_pos hnear, Option.map_some]
  exact ⟨_, rfl⟩

/-- What is written in the next theorem: a little more than the middle of 1 and the next `float`. -/
def tie : LongDouble → Nat
  | .binary64 => 2 ^ 60 + 2 ^ 36 + 1
  | .x87 => 2 ^ 70 + 2 ^ 46 + 1
  | .binary128 => 2 ^ 120 + 2 ^ 96 + 1

def tieDen : LongDouble → Nat
  | .binary64 => 2 ^ 60
  | .x87 => 2 ^ 70
  | .binary128 => 2 ^ 120

/-- The literal `_f32` does not always give the nearest number, because it is rounded twice: to `long double`, which here is just the middle of two numbers, and then to `float`. -/
theorem C109_nearest_violated (e : Env) : realWritten e .float32 (tie e.ld) (tieDen e.ld) = some (.ok (.fin false (2 ^ 16494))) ∧
    ¬ Nearest (Numbers e.ld .float32) (tie e.ld / tieDen e.ld) (value false (2 ^ 16494)) := by
  constructor
  · obtain ⟨c, ld, iec⟩ := e
    cases c <;> cases ld <;> cases iec <;> decide +kernel
  · intro h
    have hy : Numbers e.ld .float32 ((2 ^ 23 + 1) * 2 ^ (-23 : Int)) := ⟨2 ^ 23 + 1, -23, by norm_num, by norm_num, by norm_num, by norm_num⟩
    have := h.2 _ hy
    have e1 : value false (2 ^ 16494) = 1 := by
      rw [value_false]
      exact one_of 16494
    rw [e1] at this
    cases hl : e.ld <;> rw [hl] at this <;> norm_num [tie, tieDen, abs_le, abs_div] at this

/-! ### Examples -/

/-- 1.5 -/
def oneHalf : Num := .fin false (3 * 2 ^ 16493)

theorem oneHalf_of (ld : LongDouble) (t : FTy) : Of ld t oneHalf := by
  refine (numbers_iff ld t false _).2 ⟨Reals.fits_of _ 3 16493 ?_ ?_, ?_⟩
  · cases t <;> cases ld <;> decide
  · cases t <;> cases ld <;> decide
  · cases t <;> cases ld <;> decide +kernel

example (e : Env) : floatCast e .float64 .float32 oneHalf = .ok oneHalf := C109_exact e _ _ _ (oneHalf_of _ _) (oneHalf_of _ _) (by simp [oneHalf])

/-- The number of type `double` next to 1. -/
def next : Nat := (2 ^ 52 + 1) * 2 ^ 16442

theorem next_of (ld : LongDouble) : Of ld .float64 (.fin false next) ∧ ¬ Numbers ld .float32 (value false next) := by
  constructor
  · refine (numbers_iff ld .float64 false _).2 ⟨Reals.fits_of _ (2 ^ 52 + 1) 16442 ?_ ?_, ?_⟩
    · cases ld <;> decide
    · cases ld <;> decide
    · cases ld <;> decide +kernel
  · rw [numbers_iff]
    intro h
    have h1 := h.1
    unfold Fmt.fits at h1
    revert h1
    cases ld <;> decide +kernel

example (ld : LongDouble) : floatCast ⟨true, ld, true⟩ .float64 .float32 (.fin false next) = .assert :=
  C109_refused_partial _ rfl _ _ _ _ (next_of ld).1 (next_of ld).2 (Or.inl rfl)

/-- 2 ^ 200 is a `double` beyond all numbers of type `float`. -/
theorem big_beyond (ld : LongDouble) : Beyond ld .float32 (value false (2 ^ 16694)) ∧ Of ld .float64 (.fin false (2 ^ 16694)) := by
  constructor
  · rw [beyond_iff]
    cases ld <;> decide +kernel
  · refine (numbers_iff ld .float64 false _).2 ⟨?_, ?_⟩
    · have := Reals.fits_of (fmt ld .float64) 1 16694 (by cases ld <;> decide) (by cases ld <;> decide)
      rwa [one_mul] at this
    · cases ld <;> decide +kernel

example (c : Bool) (ld : LongDouble) : floatCast ⟨c, ld, false⟩ .float64 .float32 (.fin false (2 ^ 16694)) = .ub := C109_beyond_violated _ rfl _ _ _ _ (big_beyond ld).1

example (e : Env) : intLiteral e ⟨true, 8⟩ 127 = .ok 127 := (C109_integer e ⟨true, 8⟩ (by decide) 127 (by decide)).1 (by decide)

example : intLiteral ⟨true, .x87, true⟩ ⟨false, 16⟩ 65536 = .assert := (C109_integer _ ⟨false, 16⟩ (by decide) 65536 (by decide)).2 rfl (by decide)

example (e : Env) : minus ⟨true, 8⟩ (intLiteral e ⟨true, 8⟩ 127) = .ok (-127) := C109_minus_partial e ⟨true, 8⟩ rfl (by decide) 127 (by decide) (by decide)

/-- 1.5, written with digits -/
example (e : Env) : ∃ k, realWritten e .float32 15 10 = some (.ok (.fin false k)) ∧ value false k = (15 : Nat) / (10 : Nat) :=
  C109_real_exact e .float32 15 10 (by omega) ⟨3, -1, by norm_num, by norm_num, by norm_num, by norm_num⟩

/-- One tenth is in no type; the nearest `double` is given. -/
example : ∃ k, realWritten ⟨true, .binary64, false⟩ .float64 1 10 = some (.ok (.fin false k)) ∧ Nearest (Numbers .binary64 .float64) ((1 : Nat) / (10 : Nat)) (value false k) := by
  obtain ⟨o, ho⟩ := C109_accepted ⟨true, .binary64, false⟩ .float64 1 10 (by omega) (fun h => by
    have := h 1 ⟨1, 0, by norm_num, by norm_num, by norm_num, by norm_num⟩
    norm_num at this)
  obtain ⟨k, rfl, hk⟩ := C109_real_long ⟨true, .binary64, false⟩ .float64 (Or.inr ⟨rfl, rfl⟩) 1 10 (by omega) o ho
  exact ⟨k, ho, hk⟩

end Verif.FloatCast
