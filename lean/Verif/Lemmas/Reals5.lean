import Verif.Lemmas.Reals4

/-! # Rounding, spelling and reading whole numbers -/
set_option autoImplicit false

namespace Verif.Reals

open Verif.Config (Str)
open Verif.ScalarText (Number Blank Ascii Between isSpace digitVal valueIn signOf number_iff decDigits digitChar decDigits_spec decDigits_head digitChar_val digit_iff decode_ok)

/-! ## `strtod` -/

theorem strtod_eq {s : Str} (h : ∀ c r, s = c :: r → isSpace c = false) :
    strtod s = (match unsigned (signOf s).1 (s.drop (signOf s).2) with | some (x, l) => (x, (signOf s).2 + l) | none => (.fin false 0, 0)) := by
  have : s.takeWhile isSpace = [] := by
    cases s with
    | nil => rfl
    | cons c r => simp [h c r rfl]
  unfold strtod
  simp only [this, List.length_nil, List.drop_zero, Nat.zero_add]
  rfl

theorem spelled_first {neg : Bool} {s : Str} {x : Num} (h : Spelled neg s x) : ∃ c r, s = c :: r ∧ isSpace c = false ∧ c ≠ '-' ∧ c ≠ '+' := by
  have word : ∀ (s : Str) (a : Char) (w : Str), s.map Char.toLower = a :: w → (a = 'i' ∨ a = 'n') → ∃ c r, s = c :: r ∧ isSpace c = false ∧ c ≠ '-' ∧ c ≠ '+' := by
    intro s a w hs ha
    cases s with
    | nil => cases hs
    | cons c r =>
      have hc : c.toLower = a := (List.cons.inj hs).1
      have h65 : ¬ c.toNat < 65 := by
        intro h
        rw [toLower_small h] at hc
        rw [hc] at h
        rcases ha with rfl | rfl <;> exact absurd h (by decide)
      refine ⟨c, r, rfl, ?_, ?_, ?_⟩
      · unfold isSpace; simp; omega
      · rintro rfl; exact h65 (by decide)
      · rintro rfl; exact h65 (by decide)
  cases h with
  | number s a x hm hr =>
    cases hm with
    | dec m x v f e h1 h2 =>
      obtain ⟨c, r, rfl, hc⟩ := mantissa_first (by omega) h1
      obtain ⟨-, h3, h4, h5⟩ := small_of hc
      exact ⟨c, r ++ x, rfl, h3, h4, h5⟩
    | hex c m x v f e hc h1 h2 => exact ⟨'0', _, rfl, by decide, by decide, by decide⟩
  | inf s hs => rcases hs with hs | hs <;> exact word _ _ _ hs (by simp)
  | nan s hs => exact word _ _ _ hs (by simp)
  | nanOf s cs hs hc =>
    obtain ⟨c, r, rfl, h⟩ := word _ _ _ hs (by simp)
    exact ⟨c, _, rfl, h⟩

theorem lit_first {s : Str} {x : Num} (h : RealLit s x) : ∃ c r, s = c :: r ∧ isSpace c = false := by
  cases h with
  | plain s x h => obtain ⟨c, r, h1, h2, -⟩ := spelled_first h; exact ⟨c, r, h1, h2⟩
  | plus s x h => exact ⟨'+', s, rfl, by decide⟩
  | minus s x h => exact ⟨'-', s, rfl, by decide⟩

theorem strtod_lit {lit post : Str} {x : Num} (h : RealLit lit x) (hp : Blank post) : ∃ y, strtod (lit ++ post) = (y, lit.length) ∧ RealLit lit y := by
  have hns : ∀ c r, lit ++ post = c :: r → isSpace c = false := by
    obtain ⟨c, r, rfl, hc⟩ := lit_first h
    intro c' r' e
    rw [← (List.cons.inj e).1]; exact hc
  rw [strtod_eq hns]
  cases h with
  | plain s x h =>
    obtain ⟨c, r, rfl, -, h1, h2⟩ := spelled_first h
    have hg : signOf (c :: r ++ post) = (false, 0) := by simp [signOf, h1, h2]
    obtain ⟨y, hy, hy'⟩ := unsigned_lit h hp
    rw [hg]
    simp only [List.drop_zero, hy]
    exact ⟨y, by simp, .plain _ _ hy'⟩
  | plus s x h =>
    obtain ⟨y, hy, hy'⟩ := unsigned_lit h hp
    have hg : signOf ('+' :: s ++ post) = (false, 1) := by simp [signOf]
    rw [hg]
    simp only [List.cons_append, List.drop_succ_cons, List.drop_zero, hy]
    exact ⟨y, by simp; omega, .plus _ _ hy'⟩
  | minus s x h =>
    obtain ⟨y, hy, hy'⟩ := unsigned_lit h hp
    have hg : signOf ('-' :: s ++ post) = (true, 1) := by simp [signOf]
    rw [hg]
    simp only [List.cons_append, List.drop_succ_cons, List.drop_zero, hy]
    exact ⟨y, by simp; omega, .minus _ _ hy'⟩

/-- `strtod` of a number with a sign or without. -/
theorem strtod_sign {neg : Bool} {g lit post : Str} {x : Num} (hg : (g = [] ∧ neg = false) ∨ (g = ['+'] ∧ neg = false) ∨ (g = ['-'] ∧ neg = true))
    (hf : ∃ c r, lit = c :: r ∧ isSpace c = false ∧ c ≠ '-' ∧ c ≠ '+') (hu : unsigned neg (lit ++ post) = some (x, lit.length)) : strtod (g ++ lit ++ post) = (x, (g ++ lit).length) := by
  obtain ⟨c, r, hl, h1, h2, h3⟩ := hf
  rcases hg with ⟨rfl, rfl⟩ | ⟨rfl, rfl⟩ | ⟨rfl, rfl⟩
  · rw [List.nil_append, strtod_eq (fun c' r' e => by rw [hl] at e; rw [← (List.cons.inj e).1]; exact h1)]
    have : signOf (lit ++ post) = (false, 0) := by rw [hl]; simp [signOf, h2, h3]
    rw [this]; simp only [List.drop_zero, hu, Nat.zero_add]
  · rw [strtod_eq (fun c' r' e => by rw [← (List.cons.inj e).1]; decide)]
    have : signOf (['+'] ++ lit ++ post) = (false, 1) := by simp [signOf]
    rw [this]; simp only [List.cons_append, List.nil_append, List.drop_succ_cons, List.drop_zero, hu, List.length_cons]; simp; omega
  · rw [strtod_eq (fun c' r' e => by rw [← (List.cons.inj e).1]; decide)]
    have : signOf (['-'] ++ lit ++ post) = (true, 1) := by simp [signOf]
    rw [this]; simp only [List.cons_append, List.nil_append, List.drop_succ_cons, List.drop_zero, hu, List.length_cons]; simp; omega

theorem mag_first {s : Str} {a : ℚ} (h : Magnitude s a) : ∃ c r, s = c :: r ∧ isSpace c = false ∧ c ≠ '-' ∧ c ≠ '+' := by
  cases h with
  | dec m x v f e h1 h2 =>
    obtain ⟨c, r, rfl, hc⟩ := mantissa_first (by omega) h1
    obtain ⟨-, h3, h4, h5⟩ := small_of hc
    exact ⟨c, r ++ x, rfl, h3, h4, h5⟩
  | hex c m x v f e hc h1 h2 => exact ⟨'0', _, rfl, by decide, by decide, by decide⟩

theorem strtod_some {s : Str} (h : ∀ c r, s = c :: r → isSpace c = false) : strtod s = (.fin false 0, 0) ∨ ∃ lit r x, s = lit ++ r ∧ RealLit lit x ∧ strtod s = (x, lit.length) := by
  rw [strtod_eq h]
  cases hu : unsigned (signOf s).1 (s.drop (signOf s).2) with
  | none => exact Or.inl rfl
  | some p =>
    obtain ⟨x, l⟩ := p
    right
    obtain ⟨lit, r, h1, h2, h3⟩ := unsigned_some hu
    rcases signOf_cases s with ⟨t, rfl, hg⟩ | ⟨t, rfl, hg⟩ | hg
    · rw [hg] at h1 h3 ⊢
      simp only [List.drop_succ_cons, List.drop_zero] at h1
      exact ⟨'-' :: lit, r, x, by rw [h1]; rfl, .minus _ _ h3, by simp [h2]; omega⟩
    · rw [hg] at h1 h3 ⊢
      simp only [List.drop_succ_cons, List.drop_zero] at h1
      exact ⟨'+' :: lit, r, x, by rw [h1]; rfl, .plus _ _ h3, by simp [h2]; omega⟩
    · rw [hg] at h1 h3 ⊢
      simp only [List.drop_zero] at h1
      exact ⟨lit, r, x, h1, .plain _ _ h3, by simp [h2]⟩

theorem strtod_len (t : Str) (w : Num) (e : Nat) (h : some ((strtod t).1, some (strtod t).2) = some (w, some e)) : e ≤ t.length := by
  simp only [Option.some.injEq, Prod.mk.injEq] at h
  rw [← h.2]
  have hw : (t.takeWhile isSpace).length ≤ t.length := (List.takeWhile_prefix _).length_le
  unfold strtod
  simp only
  cases hu : unsigned (signOf (t.drop (t.takeWhile isSpace).length)).1 ((t.drop (t.takeWhile isSpace).length).drop (signOf (t.drop (t.takeWhile isSpace).length)).2) with
  | none => exact Nat.zero_le _
  | some p =>
    obtain ⟨x, l⟩ := p
    obtain ⟨lit, r, h1, h2, h3⟩ := unsigned_some hu
    obtain ⟨c, q, hl, -⟩ := spelled_first h3
    have := congrArg List.length h1
    rw [List.length_append, List.length_drop, List.length_drop, h2] at this
    have : 0 < l := by rw [← h2, hl]; simp
    simp only
    omega

/-! ## Text -/

theorem snoc10 {ds : Str} {n d : Nat} (h : Number 10 ds n) (hd : d < 10) : Number 10 (ds ++ [digitChar d]) (n * 10 + d) :=
  .snoc ds n _ d h ((digit_iff (by omega)).2 ⟨(digitChar_val hd).1, hd⟩)

theorem number_six {ds : Str} {a b : Nat} (h : Number 10 ds a) (hb : b < 10 ^ 6) : Number 10 (ds ++ sixDigits b) (a * 10 ^ 6 + b) := by
  have m : ∀ x, x % 10 < 10 := fun x => Nat.mod_lt _ (by omega)
  have := snoc10 (snoc10 (snoc10 (snoc10 (snoc10 (snoc10 h (m (b / 100000))) (m (b / 10000))) (m (b / 1000))) (m (b / 100))) (m (b / 10))) (m b)
  have e : (((((a * 10 + b / 100000 % 10) * 10 + b / 10000 % 10) * 10 + b / 1000 % 10) * 10 + b / 100 % 10) * 10 + b / 10 % 10) * 10 + b % 10 = a * 10 ^ 6 + b := by omega
  rw [e] at this
  simpa [sixDigits] using this

/-- What `%f` writes for a number of `n` millionths. -/
def decimals (n : Nat) : Str := decDigits (n / 10 ^ 6) ++ '.' :: sixDigits (n % 10 ^ 6)

theorem decimals_number (n : Nat) : Number 10 (decDigits (n / 10 ^ 6) ++ sixDigits (n % 10 ^ 6)) n := by
  have := number_six (decDigits_spec (n / 10 ^ 6)).1 (Nat.mod_lt n (show 0 < 10 ^ 6 by omega))
  rwa [show n / 10 ^ 6 * 10 ^ 6 + n % 10 ^ 6 = n by omega] at this

theorem decimals_mantissa (n : Nat) : Mantissa 10 (decimals n) n 6 := by
  have := Mantissa.point (base := 10) (decDigits (n / 10 ^ 6)) (sixDigits (n % 10 ^ 6)) n (by simp [sixDigits]) (decimals_number n)
  exact this

theorem decimals_ascii (n : Nat) : Ascii (decimals n) := by
  intro c hc
  have h1 := ((number_iff (by omega)).1 (decimals_number n)).1
  unfold decimals at hc
  have : digitVal c < 10 ∨ c = '.' := by
    rcases List.mem_append.1 hc with hc | hc
    · exact Or.inl (h1 c (List.mem_append_left _ hc))
    · rcases List.mem_cons.1 hc with rfl | hc
      · exact Or.inr rfl
      · exact Or.inl (h1 c (List.mem_append_right _ hc))
  rcases this with h | rfl
  · have := digit10_code h; omega
  · exact Or.inl (by decide)

theorem decimals_six (neg : Bool) (n : Nat) : SixDecimals ((if neg then ['-'] else []) ++ decimals n) neg n := by
  refine ⟨decDigits (n / 10 ^ 6), sixDigits (n % 10 ^ 6), by unfold decimals; rw [List.append_assoc], rfl, decimals_number n, ?_⟩
  by_cases h : n / 10 ^ 6 = 0
  · left; rw [h]; unfold decDigits; rfl
  · right; exact (decDigits_spec (n / 10 ^ 6)).2.1 h

/-- `strtod` reads it. -/
theorem strtod_decimals (neg : Bool) (n : Nat) : strtod ((if neg then ['-'] else []) ++ decimals n) = (scaled neg n 10 (-6), ((if neg then ['-'] else []) ++ decimals n).length) := by
  have hu : ∀ g, unsigned g (decimals n) = some (scaled g n 10 (-6), (decimals n).length) := by
    intro g
    have := unsigned_dec (neg := g) (post := []) (decimals_mantissa n) .none (by simp [Blank])
    simpa using this
  obtain ⟨c, r, hc, hd⟩ := mantissa_first (by omega) (decimals_mantissa n)
  obtain ⟨-, h3, h4, h5⟩ := small_of hd
  cases neg with
  | false =>
    simp only [Bool.false_eq_true, if_false, List.nil_append]
    rw [strtod_eq (fun c' r' e => by rw [hc] at e; rw [← (List.cons.inj e).1]; exact h3)]
    have hg : signOf (decimals n) = (false, 0) := by rw [hc]; simp [signOf, h4, h5]
    rw [hg]; simp only [List.drop_zero, hu]; simp
  | true =>
    simp only [if_true, List.cons_append, List.nil_append]
    rw [strtod_eq (fun c' r' e => by rw [← (List.cons.inj e).1]; decide)]
    have hg : signOf ('-' :: decimals n) = (true, 1) := by simp [signOf]
    rw [hg]; simp only [List.drop_succ_cons, List.drop_zero, hu]; simp; omega

/-! ## Rounding -/

/-- What is written with six decimals is read back if it is large. -/
theorem near_decimals {f : Fmt} (hp : 0 < f.p) (u k : Nat) (hk : f.fits k) (hs : u ≤ f.spacing k + 18) : f.near (halfEven (k * 10 ^ 6) (2 ^ u) * 2 ^ u) (10 ^ 6) = k := by
  refine near_of_close f hp _ _ k (by omega) hk ?_
  have h := (halfEven_near (k * 10 ^ 6) (2 ^ u) (Nat.pow_pos (by omega)) 0).2
  generalize halfEven (k * 10 ^ 6) (2 ^ u) = n at h
  push_cast at h ⊢
  rw [abs_sub_comm] at h
  have h1 : (2 : Int) ^ u ≤ 2 ^ f.spacing k * 2 ^ 18 := by
    rw [← pow_add]
    exact pow_le_pow_right₀ (by omega) hs
  have h2 : (0 : Int) < 2 ^ f.spacing k := by positivity
  have : 4 * |(k : Int) * 10 ^ 6 - n * 2 ^ u| ≤ 2 * 2 ^ u := by norm_num; linarith
  calc 4 * |(k : Int) * 10 ^ 6 - n * 2 ^ u| ≤ 2 * 2 ^ u := this
    _ ≤ 2 * (2 ^ f.spacing k * 2 ^ 18) := by linarith
    _ < 2 ^ f.spacing k * 10 ^ 6 := by linarith

/-- It is read back if it has at most six binary digits after the point. -/
theorem near_decimals_exact {f : Fmt} (hp : 0 < f.p) (u k m : Nat) (hk : f.fits k) (hm : k * 10 ^ 6 = m * 2 ^ u) : f.near (halfEven (k * 10 ^ 6) (2 ^ u) * 2 ^ u) (10 ^ 6) = k := by
  rw [hm, halfEven_exact _ _ (Nat.pow_pos (by omega)), ← hm]
  exact near_exact f hp k _ (by omega) hk

theorem fits_max (f : Fmt) (hf : f.p ≤ f.top) {k : Nat} (hk : f.fits k) (ht : k < 2 ^ f.top) : k + 2 ^ (f.top - f.p) ≤ 2 ^ f.top := by
  obtain ⟨m, hm, hk'⟩ := of_fits f hk
  generalize f.spacing k = s at hk'
  obtain ⟨t, e⟩ : ∃ t, f.top = f.p + t := ⟨f.top - f.p, by omega⟩
  rw [e, Nat.add_sub_cancel_left]
  rw [e] at ht
  have key : ∀ j : Nat, k = j * 2 ^ t → k + 2 ^ t ≤ 2 ^ (f.p + t) := by
    intro j hj
    have : j < 2 ^ f.p := by
      rw [hj, Nat.pow_add] at ht
      exact Nat.lt_of_mul_lt_mul_right ht
    rw [Nat.pow_add 2 f.p t, hj]
    calc j * 2 ^ t + 2 ^ t = (j + 1) * 2 ^ t := by ring
      _ ≤ 2 ^ f.p * 2 ^ t := Nat.mul_le_mul_right _ this
  by_cases h : s ≤ t
  · have h1 : k ≤ m * 2 ^ t := by rw [hk']; exact Nat.mul_le_mul_left _ (Nat.pow_le_pow_right (by omega) h)
    have h2 : (m + 1) * 2 ^ t ≤ 2 ^ f.p * 2 ^ t := Nat.mul_le_mul_right _ hm
    rw [Nat.pow_add 2 f.p t]
    have : (m + 1) * 2 ^ t = m * 2 ^ t + 2 ^ t := by ring
    omega
  · obtain ⟨d, rfl⟩ : ∃ d, s = t + d := ⟨s - t, by omega⟩
    exact key (m * 2 ^ d) (by rw [hk', Nat.pow_add]; ring)

theorem val_set (f : Fmt) (neg : Bool) (k : Nat) : f.set 1074 (val neg k) ↔ f.set 1074 ((k : ℚ) / 2 ^ 1074) := by
  cases neg with
  | false => rw [val_false]
  | true => rw [val_true]; exact set_neg f 1074

theorem double_iff (neg : Bool) (k : Nat) : IsDouble (val neg k) ↔ binary64.fits k ∧ k < 2 ^ binary64.top := by
  rw [isDouble_eq, val_set]
  exact set_iff binary64 (by decide) (by decide) 1074 k

theorem float_iff (neg : Bool) (k : Nat) : IsFloat (val neg k) ↔ binary32.fits k ∧ k < 2 ^ binary32.top := by
  rw [isFloat_eq, val_set]
  exact set_iff binary32 (by decide) (by decide) 1074 k

theorem nearest_neg {f : Fmt} {a x : ℚ} (h : Nearest (f.set 1074) a x) : Nearest (f.set 1074) (-a) (-x) := by
  refine ⟨(set_neg f 1074).2 h.1, fun y hy => ?_⟩
  have := h.2 (-y) ((set_neg f 1074).2 hy)
  rw [show -x - -a = -(x - a) by ring, abs_neg]
  rw [show -y - a = -(y - -a) by ring, abs_neg] at this
  exact this

theorem nearest_sign {f : Fmt} {neg : Bool} {a : ℚ} {k : Nat} (h : Nearest (f.set 1074) a (val false k)) : Nearest (f.set 1074) ((if neg then -1 else 1) * a) (val neg k) := by
  cases neg with
  | false => simpa using h
  | true =>
    have := nearest_neg h
    rw [val_false] at this
    rw [val_true]
    simpa using this

theorem nearest_self {S : ℚ → Prop} {q x : ℚ} (h : Nearest S q x) (hq : S q) : x = q := by
  have := h.2 q hq
  rw [sub_self, abs_zero] at this
  exact sub_eq_zero.1 (abs_eq_zero.1 (le_antisymm this (abs_nonneg _)))

theorem round_exact (f : Fmt) (hp : 0 < f.p) (neg : Bool) {k : Nat} (d : Nat) (hd : 0 < d) (hk : f.fits k) (ht : k < 2 ^ f.top) : f.round neg (k * d) d = .fin neg k := by
  unfold Fmt.round
  rw [near_exact f hp k d hd hk, if_pos ht]

/-- The exact value of a product with a power. -/
theorem val_mul (neg : Bool) (t : Nat) : val neg (t * 2 ^ 1074) = (if neg then -1 else 1) * t := by
  unfold val
  rw [Nat.cast_mul, Nat.cast_pow, Nat.cast_two, mul_div_assoc, div_self (pow_pos_q 1074).ne', mul_one]

theorem val_int {neg : Bool} {k : Nat} {m : Int} (h : val neg k = m) : k = m.natAbs * 2 ^ 1074 := by
  have h1 : |val neg k| = (k : ℚ) / 2 ^ 1074 := by
    have : (0 : ℚ) ≤ (k : ℚ) / 2 ^ 1074 := div_nonneg (by exact_mod_cast Nat.zero_le k) (pow_pos_q 1074).le
    cases neg with
    | false => rw [val_false, abs_of_nonneg this]
    | true => rw [val_true, abs_neg, abs_of_nonneg this]
  rw [h, ← Int.cast_abs, eq_div_iff (pow_pos_q 1074).ne', Int.abs_eq_natAbs] at h1
  have : ((m.natAbs * 2 ^ 1074 : Nat) : ℚ) = (k : ℚ) := by
    rw [Nat.cast_mul, Nat.cast_pow, Nat.cast_two]
    rw [← h1, Int.cast_natCast]
  exact (Nat.cast_injective this).symm

end Verif.Reals
