import Verif.Lemmas.Reals5

/-!
# C103: real numbers in configs

Real numbers that are put into a config are read back unchanged; conversions between real numbers, integers and text give the nearest value there is. The specification is in `C103_RealsSpec`.
-/
set_option autoImplicit false
set_option exponentiation.threshold 3000

namespace Verif.Reals

open Verif.Config (Str)
open Verif.ScalarText (Out Stored Ty Number Blank Ascii Between Int64 get decodeInt decode_ok)

/-! ## Reading what was put -/

theorem toFloat_fin (debug neg : Bool) (k : Nat) : toFloat debug (.fin neg k) = if k ≤ floatMax then .ok (binary32.round neg k 1) else if debug then .abort else .ub := by
  unfold toFloat; rfl

theorem eq_fin (a b : Bool) (k l : Nat) : eq (.fin a k) (.fin b l) = (decide (k = l) && (decide (a = b) || decide (k = 0))) := by
  unfold eq; rfl

section
attribute [local irreducible] ofInt toInt text decodeReal toFloat eq

theorem get_real (x : Num) : get ops .real (.real x) = some (.real x) := rfl

theorem get_integer (n : Int) : get ops .real (.integer n) = some (.real (ofInt n)) := rfl

theorem get_text (x : Num) : get ops .string (.real x) = some (.string (text x)) := rfl

theorem get_toInt (x : Num) : get ops .integer (.real x) = (match toInt x with | none => none | some n => if eq x (ofInt n) then some (.integer n) else some .empty) := by
  show Option.map (fun v : Stored Num => v.asType .integer) (match toInt x with | none => none | some n => if eq x (ofInt n) then some (Stored.integer n) else some Stored.empty) = _
  cases toInt x with
  | none => rfl
  | some n =>
    show Option.map (fun v : Stored Num => v.asType .integer) (if eq x (ofInt n) then some (Stored.integer n) else some Stored.empty) = if eq x (ofInt n) then some (Stored.integer n) else some Stored.empty
    split <;> rfl

theorem get_string (s : Str) : get ops .real (.string s) = (match decodeReal s with | .ub => none | .fail => some .empty | .ok x => some (.real x)) := by
  show Option.map (fun v : Stored Num => v.asType .real) (ScalarText.fromString .real s (decodeReal s)) = _
  cases decodeReal s <;> rfl

theorem load_float (debug : Bool) (x : Num) : load debug .float x = toFloat debug x := rfl
end

theorem value_of (debug : Bool) (t : RTy) (v : Stored Num) (x : Num) (h : get ops .real v = some (.real x)) :
    value debug t v = (match load debug t x with | .ok y => .ok (some y) | .ub => .ub | .abort => .abort | .error => .error) := by
  unfold value
  rw [h]
  rfl

theorem le_sub_of {a b c : Nat} (h : a + b ≤ c) : a ≤ c - b := by omega

theorem load_store (debug : Bool) : ∀ (t : RTy) (v : t.Val), t.long = false → Holds t v → ∃ x, store t v = .ok x ∧ load debug t x = .ok v ∧ skip t v = false
  | .float, v, _, h => by
    obtain ⟨neg, k, rfl, hf⟩ := h
    obtain ⟨h1, h2⟩ := (float_iff neg k).1 hf
    have hm := fits_max binary32 (by decide) h1 h2
    have e := round_exact binary32 (by decide) neg 1 (by omega) h1 h2
    rw [Nat.mul_one] at e
    have hle : k ≤ floatMax := by
      unfold floatMax
      exact le_sub_of hm
    refine ⟨.fin neg k, rfl, ?_, rfl⟩
    rw [load_float, toFloat_fin, if_pos hle, e]
    rfl
  | .double, v, _, _ => ⟨v, rfl, rfl, rfl⟩
  | .ldouble, v, h, _ => by cases h
  | .opt t, v, hl, h => by
    obtain ⟨x, rfl, hx⟩ := h
    obtain ⟨y, h1, h2, -⟩ := load_store debug t x hl hx
    exact ⟨y, h1, by simp only [load, h2], rfl⟩
  | .ptr t, v, hl, h => by
    obtain ⟨x, rfl, hx⟩ := h
    obtain ⟨y, h1, h2, -⟩ := load_store debug t x hl hx
    exact ⟨y, h1, by simp only [load, h2], rfl⟩

/-- A `float`, a `double`, or an optional or a smart pointer with a `double` that is put into a config is stored as a real number, and is read back unchanged with the same type, in debug and in
release builds.

Missing: `long double`, for which both calls are undefined (`C103_long_double_violated`), infinities and NaN of type `float` in debug builds (`C103_float_inf_violated`), and optionals with a `float`,
for which there is no `put` (`C103_optional_float_violated`). -/
theorem C103_put_partial (debug : Bool) (t : RTy) (v : t.Val) (_hput : puts t = true) (hl : t.long = false) (hv : Holds t v) :
    ∃ x, put t v = .ok (some x) ∧ value debug t (.real x) = .ok (some v) := by
  obtain ⟨x, h1, h2, h3⟩ := load_store debug t v hl hv
  refine ⟨x, ?_, ?_⟩
  · unfold put; rw [h3, h1]; rfl
  · rw [value_of debug t _ x (get_real x), h2]

/-- Nothing is stored for an empty optional and for a null pointer. -/
theorem C103_put_empty (t : RTy) : put (.opt t) (none : Option t.Val) = .ok none ∧ put (.ptr t) (none : Option t.Val) = .ok none := ⟨rfl, rfl⟩

/-- A `double` that is read as a `float` is a nearest `float`, if it is no larger than the largest `float`, 2^128 - 2^104. -/
theorem C103_float_nearest (debug : Bool) (neg : Bool) (k : Nat) (h : |val neg k| ≤ 2 ^ 128 - 2 ^ 104) :
    ∃ j, value debug .float (.real (.fin neg k)) = .ok (some (.fin neg j : Num)) ∧ Nearest IsFloat (val neg k) (val neg j) := by
  have hU := pow_pos_q 1074
  have habs : |val neg k| = (k : ℚ) / 2 ^ 1074 := by
    have : (0 : ℚ) ≤ (k : ℚ) / 2 ^ 1074 := div_nonneg (by exact_mod_cast Nat.zero_le k) hU.le
    cases neg with
    | false => rw [val_false, abs_of_nonneg this]
    | true => rw [val_true, abs_neg, abs_of_nonneg this]
  have hq : (k : ℚ) ≤ 2 ^ 1202 - 2 ^ 1178 := by
    rw [habs, div_le_iff₀ hU, sub_mul, ← pow_split 128 1074 1202 rfl, ← pow_split 104 1074 1178 rfl] at h
    exact h
  have hk : k ≤ floatMax := by
    unfold floatMax
    refine le_sub_of ?_
    have : ((k + 2 ^ 1178 : Nat) : ℚ) ≤ ((2 ^ 1202 : Nat) : ℚ) := by
      rw [Nat.cast_add, Nat.cast_pow, Nat.cast_pow, Nat.cast_two]
      exact le_sub_iff_add_le.1 hq
    exact Nat.cast_le.1 this
  have ht : binary32.near k 1 < 2 ^ binary32.top := by
    by_contra hn
    have h2 := (near_top binary32 (by decide) (by decide) k 1 0 (by omega)).2 hn
    rw [pow_zero, div_one, Nat.cast_one, div_one, div_one] at h2
    have h2 : (2 : ℚ) ^ 1202 - 2 ^ 1177 ≤ k := h2
    have h3 : (2 : ℚ) ^ 1177 < 2 ^ 1178 := pow_lt_pow_right₀ (by norm_num) (by omega)
    exact absurd (le_trans h2 hq) (not_le.2 (sub_lt_sub_left h3 _))
  refine ⟨binary32.near k 1, ?_, ?_⟩
  · rw [value_of debug .float _ _ (get_real _), load_float, toFloat_fin, if_pos hk]
    unfold Fmt.round
    rw [if_pos ht]
  · have := near_nearest_q binary32 (by decide) (by decide) k 1 1074 (by omega) ht
    rw [Nat.cast_one, div_one, ← val_false (binary32.near k 1)] at this
    rw [isFloat_eq]
    exact nearest_sign this

/-! ## Integers -/

theorem ofInt_rounded (n : Int) : Rounded (decide (n < 0)) (n.natAbs : ℚ) (ofInt n) := by
  have := round64 (decide (n < 0)) (n.natAbs * 2 ^ 1074) 1 (by omega)
  rw [Nat.cast_one, div_one, Nat.cast_mul, Nat.cast_pow, Nat.cast_two, mul_div_assoc, div_self (pow_pos_q 1074).ne', mul_one] at this
  exact this

theorem sign_abs (n : Int) : (if decide (n < 0) = true then -1 else 1) * (n.natAbs : ℚ) = n := by
  have : ((n.natAbs : Int) : ℚ) = |(n : ℚ)| := by rw [← Int.abs_eq_natAbs, Int.cast_abs]
  rw [Int.cast_natCast] at this
  rw [this]
  by_cases h : n < 0
  · rw [if_pos (by simpa using h), abs_of_neg (by exact_mod_cast h)]; ring
  · rw [if_neg (by simpa using h), abs_of_nonneg (by exact_mod_cast (not_lt.1 h))]; ring

/-- An integer that is read as a real number is a number of type `double` nearest to it. -/
theorem C103_integer_as_real (debug : Bool) (n : Int) (hn : Int64 n) :
    ∃ neg k, value debug .double (.integer n) = .ok (some (.fin neg k : Num)) ∧ Nearest IsDouble n (val neg k) := by
  rcases ofInt_rounded n with ⟨k, h1, h2, -⟩ | ⟨-, h⟩
  · refine ⟨decide (n < 0), k, ?_, ?_⟩
    · rw [value_of debug .double _ _ (get_integer n), h1]; rfl
    · rw [isDouble_eq] at h2 ⊢
      have := nearest_sign (neg := decide (n < 0)) h2
      rwa [sign_abs] at this
  · exfalso
    obtain ⟨a, b⟩ := hn
    have h1 : (n.natAbs : ℚ) ≤ 2 ^ 63 := by
      have : n.natAbs ≤ 2 ^ 63 := by omega
      exact_mod_cast this
    have h2 : (2 : ℚ) * 2 ^ 970 ≤ 2 ^ 1024 := by
      rw [show (2 : ℚ) * 2 ^ 970 = 2 ^ 971 by rw [pow_succ' (2 : ℚ) 970]]
      exact pow_le_pow_right₀ (by norm_num) (by omega)
    have h3 : (2 : ℚ) ^ 63 < 2 ^ 970 := pow_lt_pow_right₀ (by norm_num) (by omega)
    have h4 : (2 : ℚ) ^ 970 ≤ 2 ^ 1024 - 2 ^ 970 := by rw [le_sub_iff_add_le, ← two_mul]; exact h2
    exact absurd (le_trans h4 (le_trans h h1)) (not_le.2 h3)

/-- It is exactly the integer up to 2^53. -/
theorem C103_integer_exact (debug : Bool) (n : Int) (hn : -(2 ^ 53) ≤ n ∧ n ≤ 2 ^ 53) :
    ∃ neg k, value debug .double (.integer n) = .ok (some (.fin neg k : Num)) ∧ val neg k = n := by
  obtain ⟨neg, k, h1, h2⟩ := C103_integer_as_real debug n ⟨by omega, by omega⟩
  refine ⟨neg, k, h1, nearest_self h2 ?_⟩
  by_cases h : n = 2 ^ 53
  · subst h; exact ⟨1, 53, by norm_num, by norm_num, by norm_num, by norm_num⟩
  · by_cases h' : n = -(2 ^ 53)
    · subst h'; exact ⟨-1, 53, by norm_num, by norm_num, by norm_num, by norm_num⟩
    · exact ⟨n, 0, abs_lt.2 ⟨by omega, by omega⟩, by norm_num, by norm_num, by norm_num⟩

/-- There is an integer that is read as another number. -/
theorem C103_integer_violated : Int64 (2 ^ 53 + 1) ∧ value false .double (.integer (2 ^ 53 + 1)) = value false .double (.integer (2 ^ 53)) := by
  refine ⟨⟨by norm_num, by norm_num⟩, ?_⟩
  have : ofInt (2 ^ 53 + 1) = ofInt (2 ^ 53) := by decide +kernel
  rw [value_of _ _ _ _ (get_integer _), value_of _ _ _ _ (get_integer _), this]

theorem toInt_in {neg : Bool} {k : Nat} (h1 : -(2 ^ 63) ≤ val neg k) (h2 : val neg k < 2 ^ 63) :
    toInt (.fin neg k) = some (if neg then -((k / 2 ^ 1074 : Nat) : Int) else ((k / 2 ^ 1074 : Nat) : Int)) := by
  have hU := pow_pos_q 1074
  have hle : ((k / 2 ^ 1074 : Nat) : ℚ) ≤ (k : ℚ) / 2 ^ 1074 := by
    rw [le_div_iff₀ hU]
    have := Nat.div_mul_le_self k (2 ^ 1074)
    have h : ((k / 2 ^ 1074 * 2 ^ 1074 : Nat) : ℚ) ≤ (k : ℚ) := Nat.cast_le.2 this
    rw [Nat.cast_mul, Nat.cast_pow 2, Nat.cast_two] at h
    exact h
  unfold toInt
  show (if _ then _ else _) = _
  rw [if_pos]
  · rfl
  show -(2 ^ 63) ≤ (if neg = true then -((k / 2 ^ 1074 : Nat) : Int) else ((k / 2 ^ 1074 : Nat) : Int)) ∧ (if neg = true then -((k / 2 ^ 1074 : Nat) : Int) else ((k / 2 ^ 1074 : Nat) : Int)) < 2 ^ 63
  generalize k / 2 ^ 1074 = t at hle
  cases neg with
  | false =>
    rw [val_false] at h2
    have : (t : ℚ) < 2 ^ 63 := lt_of_le_of_lt hle h2
    have : t < 2 ^ 63 := by exact_mod_cast this
    simp; omega
  | true =>
    rw [val_true] at h1
    have : (t : ℚ) ≤ 2 ^ 63 := by linarith
    have : t ≤ 2 ^ 63 := by exact_mod_cast this
    simp; omega

/-- A real number within 64 bits is read as an integer exactly if it is one, and then as this integer. Otherwise there is no value.

Missing: numbers out of this range (`C103_range_violated`). -/
theorem C103_real_as_integer_partial (neg : Bool) (k : Nat) (hd : IsDouble (val neg k)) (h1 : -(2 ^ 63) ≤ val neg k) (h2 : val neg k < 2 ^ 63) :
    (∀ n : Int, val neg k = n → get ops .integer (.real (.fin neg k)) = some (.integer n)) ∧
    ((∀ n : Int, val neg k ≠ n) → get ops .integer (.real (.fin neg k)) = some .empty) := by
  obtain ⟨hf, ht⟩ := (double_iff neg k).1 hd
  have hti := toInt_in h1 h2
  have hget : ∀ n : Int, toInt (.fin neg k) = some n → get ops .integer (.real (.fin neg k)) = if eq (.fin neg k) (ofInt n) then some (.integer n) else some .empty := by
    intro n hn
    rw [get_toInt, hn]
  rw [hget _ hti]
  have hpos : 0 < 2 ^ 1074 := Nat.pow_pos (by omega)
  constructor
  · intro n hn
    have hk := val_int hn
    have hq : k / 2 ^ 1074 = n.natAbs := by rw [hk]; exact Nat.mul_div_cancel _ hpos
    have hsg : (if neg = true then -((n.natAbs : Nat) : Int) else ((n.natAbs : Nat) : Int)) = n := by
      have : val neg k = (if neg then -1 else 1) * (n.natAbs : ℚ) := by rw [hk]; exact val_mul neg _
      rw [hn] at this
      cases neg with
      | false => simp only [Bool.false_eq_true, if_false, one_mul] at this ⊢; exact (Int.cast_injective (α := ℚ) (by rw [Int.cast_natCast]; exact this)).symm
      | true =>
        simp only [if_true] at this ⊢
        have : ((-(n.natAbs : Int) : Int) : ℚ) = (n : ℚ) := by rw [this, Int.cast_neg, Int.cast_natCast]; ring
        exact_mod_cast this
    rw [hq, hsg]
    have ho : ofInt n = .fin (decide (n < 0)) k := by
      have := round_exact binary64 (by decide) (decide (n < 0)) 1 (by omega) hf ht
      rw [Nat.mul_one] at this
      unfold ofInt
      rw [show n.natAbs * 2 ^ unit = k from hk.symm]
      exact this
    rw [ho]
    have : eq (.fin neg k) (.fin (decide (n < 0)) k) = true := by
      rw [eq_fin]
      by_cases h0 : n = 0
      · subst h0
        have : k = 0 := by rw [hk]; exact Nat.zero_mul _
        rw [decide_eq_true this, decide_eq_true rfl, Bool.or_true]; rfl
      · have : neg = decide (n < 0) := by
          cases neg with
          | false => rw [if_neg (by simp)] at hsg; exact (decide_eq_false (by omega)).symm
          | true => rw [if_pos rfl] at hsg; exact (decide_eq_true (by omega)).symm
        rw [← this, decide_eq_true rfl, decide_eq_true rfl]; rfl
    rw [if_pos this]
  · intro hn
    have hnd : ¬ 2 ^ 1074 ∣ k := by
      rintro ⟨t, ht'⟩
      rw [Nat.mul_comm] at ht'
      have hv : val neg k = (if neg then -1 else 1) * (t : ℚ) := by rw [ht']; exact val_mul neg t
      refine hn (if neg then -(t : Int) else (t : Int)) ?_
      rw [hv]
      cases neg with
      | false => simp
      | true => simp
    have hs : binary64.spacing k < 1074 := by
      by_contra h
      exact hnd (Nat.dvd_trans (Nat.pow_dvd_pow 2 (by omega)) hf)
    have hlt : k / 2 ^ 1074 < 2 ^ binary64.p := by
      rw [Nat.div_lt_iff_lt_mul hpos, ← Nat.pow_add]
      refine lt_of_lt_of_le (lt_pow_log2 k) (Nat.pow_le_pow_right (by omega) ?_)
      unfold Fmt.spacing at hs
      omega
    have hfit := fits_of binary64 (k / 2 ^ 1074) 1074 hlt (Nat.zero_le _)
    have hle : k / 2 ^ 1074 * 2 ^ 1074 ≤ k := Nat.div_mul_le_self _ _
    generalize hT : k / 2 ^ 1074 = t at hfit hle hlt
    have hne : t * 2 ^ 1074 ≠ k := fun e => hnd ⟨t, by rw [← e, Nat.mul_comm]⟩
    have ho : ∃ g, ofInt (if neg = true then -(t : Int) else (t : Int)) = .fin g (t * 2 ^ 1074) := by
      generalize hm : (if neg = true then -(t : Int) else (t : Int)) = m
      have ha : m.natAbs = t := by rw [← hm]; cases neg <;> simp
      have := round_exact binary64 (by decide) (decide (m < 0)) 1 (by omega) hfit (lt_of_le_of_lt hle ht)
      rw [Nat.mul_one] at this
      refine ⟨decide (m < 0), ?_⟩
      unfold ofInt
      rw [ha]
      exact this
    obtain ⟨g, ho⟩ := ho
    rw [ho]
    have : eq (.fin neg k) (.fin g (t * 2 ^ 1074)) = false := by
      rw [eq_fin, decide_eq_false hne.symm]; rfl
    rw [this]; rfl

theorem toInt_out {k : Nat} (h : 2 ^ 63 ≤ val false k) : toInt (.fin false k) = none := by
  have hU := pow_pos_q 1074
  have hk : 2 ^ 63 ≤ k / 2 ^ 1074 := by
    rw [Nat.le_div_iff_mul_le (Nat.pow_pos (by omega))]
    rw [val_false, le_div_iff₀ hU] at h
    have : ((2 ^ 63 * 2 ^ 1074 : Nat) : ℚ) ≤ (k : ℚ) := by
      rw [Nat.cast_mul, Nat.cast_pow, Nat.cast_pow, Nat.cast_two]
      exact h
    exact Nat.cast_le.1 this
  unfold toInt
  show (if _ then _ else _) = _
  rw [if_neg]
  show ¬ (-(2 ^ 63) ≤ (if false = true then -((k / 2 ^ 1074 : Nat) : Int) else ((k / 2 ^ 1074 : Nat) : Int)) ∧ (if false = true then -((k / 2 ^ 1074 : Nat) : Int) else ((k / 2 ^ 1074 : Nat) : Int)) < 2 ^ 63)
  generalize k / 2 ^ 1074 = t at hk
  simp only [Bool.false_eq_true, if_false]
  omega

/-- Reading infinity, NaN, or a number from 2^63 on as an integer is undefined behaviour. -/
theorem C103_range_violated : get ops .integer (.real (.inf false)) = none ∧ get ops .integer (.real .nan) = none ∧ ∀ k, 2 ^ 63 ≤ val false k → get ops .integer (.real (.fin false k)) = none := by
  refine ⟨by rw [get_toInt]; rfl, by rw [get_toInt]; rfl, fun k hk => ?_⟩
  rw [get_toInt, toInt_out hk]

/-! ## Text -/

theorem text_fin (neg : Bool) (k : Nat) : text (.fin neg k) = (if neg then ['-'] else []) ++ decimals (halfEven (k * 10 ^ 6) (2 ^ unit)) := by
  unfold text decimals; rfl

theorem text_error_of (k n u d : Nat) (hd : 0 < d) (h : 2 * |(n * (2 ^ u : Nat) : Int) - (k * d : Nat)| ≤ (2 ^ u : Nat)) : |(n : ℚ) / d - (k : ℚ) / 2 ^ u| ≤ 1 / (2 * d) := by
  have hU := pow_pos_q u
  have hd' : (0 : ℚ) < d := by exact_mod_cast hd
  have h' : 2 * |(n : ℚ) * 2 ^ u - k * d| ≤ 2 ^ u := by exact_mod_cast h
  have e : (n : ℚ) / d - (k : ℚ) / 2 ^ u = (n * 2 ^ u - k * d) / (d * 2 ^ u) := by
    field_simp
  rw [e, abs_div, abs_of_pos (show (0 : ℚ) < d * 2 ^ u by positivity), div_le_div_iff₀ (by positivity) (by positivity)]
  calc |(n : ℚ) * 2 ^ u - k * d| * (2 * d) = (2 * |(n : ℚ) * 2 ^ u - k * d|) * d := by ring
    _ ≤ 2 ^ u * d := mul_le_mul_of_nonneg_right h' hd'.le
    _ = 1 * (d * 2 ^ u) := by ring

theorem text_error (k n u : Nat) (h : 2 * |(n * (2 ^ u : Nat) : Int) - (k * 10 ^ 6 : Nat)| ≤ (2 ^ u : Nat)) : |(n : ℚ) / 10 ^ 6 - (k : ℚ) / 2 ^ u| ≤ 1 / (2 * 10 ^ 6) := by
  have := text_error_of k n u (10 ^ 6) (by omega) h
  rwa [Nat.cast_pow, Nat.cast_ofNat] at this

/-- A real number that is read as text is written with six decimals, and with an error of at most half a millionth. -/
theorem C103_text (neg : Bool) (k : Nat) :
    ∃ s n, get ops .string (.real (.fin neg k)) = some (.string s) ∧ SixDecimals s neg n ∧ |(n : ℚ) / 10 ^ 6 - val false k| ≤ 1 / (2 * 10 ^ 6) := by
  refine ⟨_, halfEven (k * 10 ^ 6) (2 ^ unit), get_text _, by rw [text_fin]; exact decimals_six neg _, ?_⟩
  have h := (halfEven_near (k * 10 ^ 6) (2 ^ unit) (Nat.pow_pos (by omega)) 0).2
  generalize halfEven (k * 10 ^ 6) (2 ^ unit) = n at h ⊢
  have := text_error k n unit h
  rw [show unit = 1074 from rfl] at this
  rw [val_false]
  exact this

/-- Infinities and NaN are written as words. -/
theorem C103_text_special : get ops .string (.real (.inf false)) = some (.string ['i', 'n', 'f']) ∧ get ops .string (.real (.inf true)) = some (.string ['-', 'i', 'n', 'f']) ∧
    get ops .string (.real .nan) = some (.string ['n', 'a', 'n']) := ⟨rfl, rfl, rfl⟩

/-- If text is read as a real number, then it spells this number between blanks, or it has only blanks and the number is zero. -/
theorem C103_decode_only_partial (s : Str) (hs : Ascii s) (x : Num) (h : get ops .real (.string s) = some (.real x)) :
    (∃ lit, Between s lit ∧ RealLit lit x) ∨ (s ≠ [] ∧ Blank s ∧ x = .fin false 0) := by
  have hd : decodeReal s = .ok x := by
    rw [get_string] at h
    cases hd : decodeReal s with
    | ub => rw [hd] at h; cases h
    | fail => rw [hd] at h; cases h
    | ok y => rw [hd] at h; cases h; rfl
  unfold decodeReal at hd
  rw [decode_ok hs x strtod_len] at hd
  obtain ⟨hn, pre, rest, e, h1, h2, h3, h4, h5⟩ := hd
  simp only [Option.some.injEq, Prod.mk.injEq] at h4
  rcases strtod_some h3 with h | ⟨lit, r, y, g1, g2, g3⟩
  · rw [h] at h4
    obtain ⟨rfl, rfl⟩ := h4
    right
    rw [List.drop_zero] at h5
    refine ⟨hn, ?_, rfl⟩
    rw [h1]
    intro c hc
    rcases List.mem_append.1 hc with hc | hc
    · exact h2 c hc
    · exact h5 c hc
  · rw [g3] at h4
    obtain ⟨rfl, rfl⟩ := h4
    left
    rw [g1, List.drop_left] at h5
    exact ⟨lit, ⟨pre, r, by rw [h1, g1, List.append_assoc], h2, h5⟩, g2⟩

theorem ascii_of_between {s lit : Str} (h : Between s lit) (hl : Ascii lit) : Ascii s := by
  obtain ⟨pre, post, rfl, h1, h2⟩ := h
  intro c hc
  rcases List.mem_append.1 hc with hc | hc
  · rcases List.mem_append.1 hc with hc | hc
    · have := h1 c hc; omega
    · exact hl c hc
  · have := h2 c hc; omega

/-- Text that spells a number between blanks is read as a number that it spells. -/
theorem C103_decode_all (s lit : Str) (x : Num) (hs : Ascii s) (hb : Between s lit) (hl : RealLit lit x) :
    ∃ y, get ops .real (.string s) = some (.real y) ∧ RealLit lit y := by
  obtain ⟨pre, post, rfl, h1, h2⟩ := hb
  obtain ⟨y, hy, hy'⟩ := strtod_lit hl h2
  obtain ⟨c, r, hc, hsp⟩ := lit_first hl
  refine ⟨y, ?_, hy'⟩
  have hd : decodeReal (pre ++ lit ++ post) = .ok y := by
    unfold decodeReal
    rw [decode_ok hs y strtod_len]
    refine ⟨by rw [hc]; simp, pre, lit ++ post, lit.length, by rw [List.append_assoc], h1, ?_, by rw [hy], by rw [List.drop_left]; exact h2⟩
    intro c' r' hr
    rw [hc, List.cons_append, List.cons.injEq] at hr
    rw [← hr.1]; exact hsp
  rw [get_string, hd]

/-- So a decimal or hexadecimal number, with a sign or without, is read as the nearest `double`. -/
theorem C103_decode_magnitude (s g lit : Str) (neg : Bool) (a : ℚ) (hs : Ascii s) (hb : Between s (g ++ lit)) (hg : (g = [] ∧ neg = false) ∨ (g = ['+'] ∧ neg = false) ∨ (g = ['-'] ∧ neg = true))
    (hm : Magnitude lit a) : ∃ y, get ops .real (.string s) = some (.real y) ∧ Rounded neg a y := by
  obtain ⟨pre, post, rfl, h1, h2⟩ := hb
  obtain ⟨y, hu, hy⟩ := unsigned_mag (neg := neg) hm h2
  have hst := strtod_sign hg (mag_first hm) hu
  have hns : ∃ c r, g ++ lit = c :: r ∧ ScalarText.isSpace c = false := by
    obtain ⟨c, r, hl, hc, -, -⟩ := mag_first hm
    rcases hg with ⟨rfl, -⟩ | ⟨rfl, -⟩ | ⟨rfl, -⟩
    · exact ⟨c, r, by rw [hl]; rfl, hc⟩
    · exact ⟨'+', lit, rfl, by decide⟩
    · exact ⟨'-', lit, rfl, by decide⟩
  obtain ⟨c, r, hc, hsp⟩ := hns
  refine ⟨y, ?_, hy⟩
  have hd : decodeReal (pre ++ (g ++ lit) ++ post) = .ok y := by
    unfold decodeReal
    rw [decode_ok hs y strtod_len]
    refine ⟨by rw [hc]; simp, pre, g ++ lit ++ post, (g ++ lit).length, by simp only [List.append_assoc], h1, ?_, by rw [hst], by rw [List.drop_left]; exact h2⟩
    intro c' r' hr
    rw [hc, List.cons_append, List.cons.injEq] at hr
    rw [← hr.1]; exact hsp
  rw [get_string, hd]

/-- Text of blanks is read as zero. -/
theorem C103_blank_violated : get ops .real (.string [' ']) = some (.real (.fin false 0)) ∧ ∀ lit x, Between [' '] lit → ¬ RealLit lit x := by
  refine ⟨by rw [get_string]; rfl, ?_⟩
  rintro lit x ⟨pre, post, h, -, -⟩ hl
  obtain ⟨c, r, hc, hs⟩ := lit_first hl
  have : c ∈ [' '] := by rw [h, hc]; simp
  rw [List.mem_singleton.1 this] at hs
  exact absurd hs (by decide)

/-! ## Text and back -/

theorem decode_decimals (neg : Bool) (n : Nat) : decodeReal ((if neg then ['-'] else []) ++ decimals n) = .ok (scaled neg n 10 (-6)) := by
  have ha : Ascii ((if neg then ['-'] else []) ++ decimals n) := by
    intro c hc
    rcases List.mem_append.1 hc with hc | hc
    · cases neg with
      | false => cases hc
      | true => rw [List.mem_singleton.1 hc]; exact Or.inl (by decide)
    · exact decimals_ascii n c hc
  obtain ⟨c, r, hc, hd⟩ := mantissa_first (by omega) (decimals_mantissa n)
  obtain ⟨-, h3, -, -⟩ := small_of hd
  unfold decodeReal
  rw [decode_ok ha _ strtod_len]
  refine ⟨by rw [hc]; simp, [], (if neg then ['-'] else []) ++ decimals n, ((if neg then ['-'] else []) ++ decimals n).length, rfl, by simp [Blank], ?_, by rw [strtod_decimals], by rw [List.drop_length]; simp [Blank]⟩
  intro c' r' e
  cases neg with
  | false =>
    rw [if_neg (by simp), List.nil_append, hc] at e
    rw [← (List.cons.inj e).1]; exact h3
  | true =>
    rw [if_pos rfl] at e
    rw [← (List.cons.inj e).1]; decide

theorem scaled_six (neg : Bool) (n : Nat) : scaled neg n 10 (-6) = binary64.round neg (n * 2 ^ unit) (10 ^ 6) := by
  unfold scaled
  rw [if_neg (by omega)]
  rfl

/-- The numbers for which six decimals are enough: at least 2^34, or a multiple of 1/64. -/
def Enough : Num → Prop
  | .fin neg k => 2 ^ 34 ≤ |val neg k| ∨ ∃ m : Int, val neg k * 64 = m
  | _ => True

/-- A real number that is read as text, which is then read as a real number, is unchanged if it has no more than six binary digits after the point or is at least 2^34, or is infinite or NaN.

Missing: other numbers (`C103_text_violated`). -/
theorem C103_roundtrip_partial (x : Num) (hx : x.Double) (he : Enough x) : ∃ s, get ops .string (.real x) = some (.string s) ∧ get ops .real (.string s) = some (.real x) := by
  refine ⟨text x, get_text x, ?_⟩
  cases x with
  | nan => rw [get_string]; rfl
  | inf neg => rw [get_string]; cases neg <;> rfl
  | fin neg k =>
    obtain ⟨hf, ht⟩ := (double_iff neg k).1 hx
    rw [get_string, text_fin, decode_decimals, scaled_six]
    have key : binary64.near (halfEven (k * 10 ^ 6) (2 ^ unit) * 2 ^ unit) (10 ^ 6) = k := by
      have hU := pow_pos_q 1074
      rcases he with he | ⟨m, hm⟩
      · refine near_decimals (by decide) unit k hf ?_
        have habs : |val neg k| = (k : ℚ) / 2 ^ 1074 := by
          have : (0 : ℚ) ≤ (k : ℚ) / 2 ^ 1074 := div_nonneg (by exact_mod_cast Nat.zero_le k) hU.le
          cases neg with
          | false => rw [val_false, abs_of_nonneg this]
          | true => rw [val_true, abs_neg, abs_of_nonneg this]
        rw [habs, le_div_iff₀ hU, ← pow_split 34 1074 1108 rfl] at he
        have hk : 2 ^ 1108 ≤ k := by
          have : ((2 ^ 1108 : Nat) : ℚ) ≤ (k : ℚ) := by rw [Nat.cast_pow, Nat.cast_two]; exact he
          exact Nat.cast_le.1 this
        have h0 : k ≠ 0 := fun h => by
          rw [h] at hk
          exact absurd hk (not_le.2 (Nat.pow_pos (by omega)))
        have : 1108 ≤ k.log2 := (Nat.le_log2 h0).2 hk
        unfold unit Fmt.spacing binary64
        simp only
        omega
      · have hv : val neg (k * 64) = m := by
          rw [← hm]; unfold val; rw [Nat.cast_mul]; push_cast; ring
        have hk := val_int hv
        refine near_decimals_exact (by decide) unit k (m.natAbs * 15625) hf ?_
        show k * 10 ^ 6 = m.natAbs * 15625 * 2 ^ 1074
        generalize 2 ^ 1074 = U at hk
        have : k * 10 ^ 6 = (k * 64) * 15625 := by ring
        rw [this, hk]; ring
    unfold Fmt.round
    rw [key, if_pos ht]

/-- 2^-30 is written as `0.000000`, which is read as zero. -/
theorem C103_text_violated : (Num.fin false (2 ^ 1044)).Double ∧ get ops .string (.real (.fin false (2 ^ 1044))) = some (.string ['0', '.', '0', '0', '0', '0', '0', '0']) ∧
    get ops .real (.string ['0', '.', '0', '0', '0', '0', '0', '0']) = some (.real (.fin false 0)) := by
  refine ⟨?_, ?_, ?_⟩
  · show IsDouble (val false (2 ^ 1044))
    refine ⟨1, -30, by norm_num, by norm_num, by norm_num, ?_⟩
    rw [val_false, Nat.cast_pow, Nat.cast_two, pow_split 1044 30 1074 rfl, div_mul_eq_div_div, div_self (pow_pos_q 1044).ne']
    norm_num
  · have : halfEven (2 ^ 1044 * 10 ^ 6) (2 ^ unit) = 0 := by decide +kernel
    rw [get_text, text_fin, this]
    unfold decimals ScalarText.decDigits
    rfl
  · rw [get_string]
    have : decodeReal ['0', '.', '0', '0', '0', '0', '0', '0'] = .ok (.fin false 0) := by decide +kernel
    rw [this]

/-! ## Types that do not work -/

/-- Putting and reading a `long double` is undefined: the converter returns a reference to a temporary. -/
theorem C103_long_double_violated (debug : Bool) (x : Num) : put .ldouble x = .ub ∧ value debug .ldouble (.real x) = .ub := ⟨rfl, rfl⟩

/-- An infinite `float` and a NaN can be put, but reading them fails an assertion in debug builds. -/
theorem C103_float_inf_violated : (∀ neg, put .float (.inf neg : Num) = .ok (some (.inf neg)) ∧ value true .float (.real (.inf neg)) = .abort) ∧
    put .float (.nan : Num) = .ok (some .nan) ∧ value true .float (.real .nan) = .abort := ⟨fun _ => ⟨rfl, rfl⟩, rfl, rfl⟩

/-- In release builds they are read back. -/
theorem C103_float_inf_partial (neg : Bool) : value false .float (.real (.inf neg)) = .ok (some (.inf neg : Num)) ∧ value false .float (.real .nan) = .ok (some (.nan : Num)) := ⟨rfl, rfl⟩

/-- The type inside optionals and pointers. -/
def inside : RTy → RTy
  | .opt t => inside t
  | .ptr t => inside t
  | t => t

/-- What `put` accepts: `float` itself, and everything that has another type than `float` inside. -/
theorem C103_accepted (t : RTy) : puts t = true ↔ t = .float ∨ inside t ≠ .float := by
  have key : ∀ t : RTy, stores t = true ↔ inside t ≠ .float := by
    intro t
    induction t with
    | opt t ih => exact ih
    | ptr t ih => exact ih
    | float => simp [stores, inside]
    | double => simp [stores, inside]
    | ldouble => simp [stores, inside]
  cases t with
  | float => simp [puts]
  | double => simp [puts, stores, inside]
  | ldouble => simp [puts, stores, inside]
  | opt t => simpa [puts] using key (.opt t)
  | ptr t => simpa [puts] using key (.ptr t)

/-- A `float` can be put, an optional `float` cannot: the call does not compile. -/
theorem C103_optional_float_violated : puts .float = true ∧ puts (.opt .float) = false ∧ puts (.ptr .float) = false := by decide

/-! ## Examples -/

/-- 0.1 as a `float` -/
def tenth : Num := .fin false (13421773 * 2 ^ 1047)

example : Holds .float tenth ∧ puts .float = true ∧ RTy.float.long = false :=
  ⟨⟨false, _, rfl, (float_iff _ _).2 ⟨by unfold Fmt.fits; decide +kernel, by decide +kernel⟩⟩, rfl, rfl⟩

example : Holds (.opt (.ptr .double)) (some (some tenth) : Option (Option Num)) ∧ puts (.opt (.ptr .double)) = true := ⟨⟨_, rfl, _, rfl, trivial⟩, rfl⟩

/-- 0.1 as a `double` is read as 0.1 as a `float`. -/
example : toFloat true (.fin false (3602879701896397 * 2 ^ 1019)) = .ok tenth := by decide +kernel

example : get ops .integer (.real (.fin true (7 * 2 ^ 1074))) = some (.integer (-7)) := by
  have h : toInt (.fin true (7 * 2 ^ 1074)) = some (-7) := by decide +kernel
  have h' : eq (.fin true (7 * 2 ^ 1074)) (ofInt (-7)) = true := by decide +kernel
  rw [get_toInt, h]
  exact if_pos h'

/-- 0.1 is read as the nearest double. -/
example : decodeReal [' ', '1', 'e', '-', '1', ' '] = .ok (.fin false (3602879701896397 * 2 ^ 1019)) := by decide +kernel

example : decodeReal ['0', 'x', '1', '.', '8', 'P', '+', '1'] = .ok (.fin false (3 * 2 ^ 1074)) := by decide +kernel

example : decodeReal ['-', 'I', 'n', 'F'] = .ok (.inf true) := by decide +kernel

example : decodeReal ['n', 'a', 'n', '(', '1', '_', ')'] = .ok .nan := by decide +kernel

example : decodeReal ['1', 'e', '3', '0', '9'] = .ok (.inf false) := by decide +kernel

example : decodeReal ['1', '.', '5', 'x'] = .fail := by decide +kernel

example : Between [' ', '.', '5'] ['.', '5'] ∧ Magnitude ['.', '5'] (5 / 10) := by
  refine ⟨⟨[' '], [], rfl, by simp [Blank], by simp [Blank]⟩, ?_⟩
  have h : Number 10 ['5'] 5 := .snoc [] 0 '5' 5 .nil ⟨by omega, Or.inl ⟨by omega, rfl⟩⟩
  have := Magnitude.dec ['.', '5'] [] 5 1 0 (.point [] ['5'] 5 (by simp) h) .none
  norm_num at this ⊢
  exact this

example : (Num.fin true (3 * 2 ^ 1073)).Double ∧ Enough (.fin true (3 * 2 ^ 1073)) := by
  refine ⟨(double_iff _ _).2 ⟨by unfold Fmt.fits; decide +kernel, by decide +kernel⟩, Or.inr ⟨-96, ?_⟩⟩
  rw [val_true, Nat.cast_mul, Nat.cast_pow, Nat.cast_two, pow_split 1073 1 1074 rfl]
  have := (pow_pos_q 1073).ne'
  field_simp
  norm_num

end Verif.Reals
