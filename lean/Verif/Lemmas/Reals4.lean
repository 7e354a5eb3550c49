import Verif.Lemmas.Reals3

/-! # Reading real literals -/
set_option autoImplicit false

namespace Verif.Reals

open Verif.Config (Str)
open Verif.ScalarText (Number Blank Ascii isSpace digitVal valueIn signOf number_iff takeWhile_append_stop blank_notDigit isSpace_iff)

theorem mantissa_first {base : Nat} (hb : base ≤ 16) {m : Str} {v f : Nat} (h : Mantissa base m v f) : ∃ c r, m = c :: r ∧ (digitVal c < base ∨ c = '.') := by
  cases h with
  | whole ds v hne hn =>
    obtain ⟨h1, -⟩ := (number_iff hb).1 hn
    cases m with
    | nil => exact absurd rfl hne
    | cons c r => exact ⟨c, r, rfl, Or.inl (h1 c (by simp))⟩
  | point ds fs v hne hn =>
    obtain ⟨h1, -⟩ := (number_iff hb).1 hn
    cases ds with
    | nil => exact ⟨'.', fs, rfl, Or.inr rfl⟩
    | cons c r => exact ⟨c, r ++ '.' :: fs, rfl, Or.inl (h1 c (by simp))⟩

theorem small_of {c : Char} (h : digitVal c < 10 ∨ c = '.') : c.toNat < 65 ∧ isSpace c = false ∧ c ≠ '-' ∧ c ≠ '+' := by
  rcases h with h | rfl
  · have := digit10_code h
    refine ⟨by omega, ?_, ?_, ?_⟩
    · unfold isSpace; simp; omega
    · rintro rfl; exact absurd this.1 (by decide)
    · rintro rfl; exact absurd this.1 (by decide)
  · decide

/-- What may come after the mantissa of a literal. -/
theorem after_mantissa {base : Nat} (hb : base ≤ 16) {lo up : Char} (h1 : ¬ digitVal lo < base) (h2 : ¬ digitVal up < base) (h3 : lo ≠ '.') (h4 : up ≠ '.') {x post : Str} {e : Int}
    (h : Exponent lo up x e) (hp : Blank post) : ∀ c t, x ++ post = c :: t → decide (digitVal c < base) = false ∧ c ≠ '.' := by
  intro c t hc
  have key : ∀ d : Char, d = lo ∨ d = up → decide (digitVal d < base) = false ∧ d ≠ '.' := by
    rintro d (rfl | rfl)
    · exact ⟨by simpa using h1, h3⟩
    · exact ⟨by simpa using h2, h4⟩
  cases h with
  | none =>
    refine ⟨blank_notDigit hb hp c t hc, ?_⟩
    rintro rfl
    have := hp '.' (by rw [List.nil_append] at hc; rw [hc]; simp)
    exact absurd this (by decide)
  | plain d ds n hd _ _ => rw [← (List.cons.inj hc).1]; exact key d hd
  | plus d ds n hd _ _ => rw [← (List.cons.inj hc).1]; exact key d hd
  | minus d ds n hd _ _ => rw [← (List.cons.inj hc).1]; exact key d hd

theorem not_begins {c : Char} {r : Str} (hc : c.toNat < 65) : begins ['i', 'n', 'f', 'i', 'n', 'i', 't', 'y'] (c :: r) = false ∧ begins ['i', 'n', 'f'] (c :: r) = false ∧ begins ['n', 'a', 'n'] (c :: r) = false :=
  ⟨begins_small rfl hc rfl (by decide), begins_small rfl hc rfl (by decide), begins_small rfl hc rfl (by decide)⟩

theorem unsigned_small {neg : Bool} {s : Str} {c : Char} {r : Str} (hs : s = c :: r) (hc : c.toNat < 65) : unsigned neg s = (match hexNumber neg s with | some r => some r | none => decNumber neg s) := by
  subst hs
  obtain ⟨h1, h2, h3⟩ := not_begins (r := r) hc
  unfold unsigned
  rw [h1, h2, h3]
  rfl

/-- A decimal literal is no hexadecimal one. -/
theorem hexTail_dec {m x post : Str} {v f : Nat} {e : Int} (hm : Mantissa 10 m v f) (hx : Exponent 'e' 'E' x e) (hp : Blank post) : hexTail (m ++ (x ++ post)) = none := by
  have hafter := after_mantissa (base := 10) (by omega) (by decide) (by decide) (by decide) (by decide) hx hp
  have hx' : ∀ c t, x ++ post = c :: t → c ≠ 'x' ∧ c ≠ 'X' := by
    intro c t hc
    cases hx with
    | none =>
      have := hp c (by rw [List.nil_append] at hc; rw [hc]; simp)
      exact ⟨by rintro rfl; exact absurd this (by decide), by rintro rfl; exact absurd this (by decide)⟩
    | plain d ds n hd _ _ => rw [← (List.cons.inj hc).1]; rcases hd with rfl | rfl <;> decide
    | plus d ds n hd _ _ => rw [← (List.cons.inj hc).1]; rcases hd with rfl | rfl <;> decide
    | minus d ds n hd _ _ => rw [← (List.cons.inj hc).1]; rcases hd with rfl | rfl <;> decide
  have hmem : ∀ c ∈ m, c ≠ 'x' ∧ c ≠ 'X' := by
    intro c hc
    have hd : digitVal c < 10 ∨ c = '.' := by
      cases hm with
      | whole ds v hne hn => exact Or.inl (((number_iff (by omega)).1 hn).1 c hc)
      | point ds fs v hne hn =>
        have h1 := ((number_iff (by omega)).1 hn).1
        rcases List.mem_append.1 hc with hc | hc
        · exact Or.inl (h1 c (List.mem_append_left _ hc))
        · rcases List.mem_cons.1 hc with rfl | hc
          · exact Or.inr rfl
          · exact Or.inl (h1 c (List.mem_append_right _ hc))
    rcases hd with hd | rfl
    · have := digit10_code hd
      exact ⟨by rintro rfl; exact absurd this.2 (by decide), by rintro rfl; exact absurd this.2 (by decide)⟩
    · decide
  obtain ⟨c, r, rfl, -⟩ := mantissa_first (by omega) hm
  have second : ∀ c' t, r ++ (x ++ post) = c' :: t → c' ≠ 'x' ∧ c' ≠ 'X' := by
    intro c' t h
    cases r with
    | nil => exact hx' c' t h
    | cons d r' =>
      rw [← (List.cons.inj h).1]
      exact hmem d (by simp)
  cases h : r ++ (x ++ post) with
  | nil => rw [List.cons_append, h]; rfl
  | cons c' t =>
    rw [List.cons_append, h]
    have := second c' t h
    simp [hexTail, this.1, this.2]

theorem unsigned_dec {neg : Bool} {m x post : Str} {v f : Nat} {e : Int} (hm : Mantissa 10 m v f) (hx : Exponent 'e' 'E' x e) (hp : Blank post) :
    unsigned neg (m ++ x ++ post) = some (scaled neg v 10 (e - f), (m ++ x).length) := by
  obtain ⟨c, r, hmc, hc⟩ := mantissa_first (by omega) hm
  have hml := mantissa_lit (base := 10) (by omega) hm (after_mantissa (by omega) (by decide) (by decide) (by decide) (by decide) hx hp)
  have hxl := exponent_lit (lo := 'e') (up := 'E') (by decide) (by decide) hx hp
  rw [List.append_assoc, unsigned_small (c := c) (r := r ++ (x ++ post)) (by rw [hmc]; rfl) (small_of hc).1]
  have hh : hexNumber neg (m ++ (x ++ post)) = none := by unfold hexNumber; rw [hexTail_dec hm hx hp]; rfl
  rw [hh]
  show decNumber neg (m ++ (x ++ post)) = _
  unfold decNumber
  rw [hml]
  simp only [Option.map_some, List.drop_left, hxl, List.length_append]

theorem unsigned_hex {neg : Bool} {ch : Char} {m x post : Str} {v f : Nat} {e : Int} (hc : ch = 'x' ∨ ch = 'X') (hm : Mantissa 16 m v f) (hx : Exponent 'p' 'P' x e) (hp : Blank post) :
    unsigned neg ('0' :: ch :: (m ++ x) ++ post) = some (scaled neg v 2 (e - 4 * f), ('0' :: ch :: (m ++ x)).length) := by
  have hml := mantissa_lit (base := 16) (by omega) hm (after_mantissa (by omega) (by decide) (by decide) (by decide) (by decide) hx hp)
  have hxl := exponent_lit (lo := 'p') (up := 'P') (by decide) (by decide) hx hp
  have ht : hexTail ('0' :: ch :: (m ++ x) ++ post) = some (m ++ (x ++ post)) := by
    simp [hexTail, hc]
  rw [unsigned_small (s := '0' :: ch :: (m ++ x) ++ post) (c := '0') (r := ch :: (m ++ x) ++ post) rfl (by decide)]
  unfold hexNumber
  rw [ht]
  simp only [Option.bind_some, hml, Option.map_some, List.drop_left, hxl, List.length_append, List.length_cons]
  simp only [Option.some.injEq, Prod.mk.injEq, true_and]
  omega

theorem begins_word {w w' s post : Str} (hs : s.map Char.toLower = w') (hp : Blank post) : begins w (s ++ post) = true ↔ (w' ++ post).take w.length = w := by
  rw [begins_iff, List.map_append, hs, blank_toLower hp]

theorem unsigned_inf {neg : Bool} {s post : Str} (hs : s.map Char.toLower = ['i', 'n', 'f'] ∨ s.map Char.toLower = ['i', 'n', 'f', 'i', 'n', 'i', 't', 'y']) (hp : Blank post) :
    unsigned neg (s ++ post) = some (.inf neg, s.length) := by
  unfold unsigned
  rcases hs with hs | hs
  · have hl : s.length = 3 := by rw [← List.length_map, hs]; rfl
    have h1 : begins ['i', 'n', 'f', 'i', 'n', 'i', 't', 'y'] (s ++ post) = false := by
      by_contra h
      have h := (begins_word hs hp).1 (by simpa using h)
      cases post with
      | nil => exact absurd h (by decide)
      | cons c r =>
        simp only [List.cons_append, List.nil_append, List.length_cons, List.length_nil, List.take_succ_cons, List.cons.injEq, true_and] at h
        have := hp c (by simp)
        rw [h.1] at this
        exact absurd this (by decide)
    have h2 : begins ['i', 'n', 'f'] (s ++ post) = true := (begins_word hs hp).2 rfl
    rw [h1, h2, hl]; rfl
  · have hl : s.length = 8 := by rw [← List.length_map, hs]; rfl
    have h1 : begins ['i', 'n', 'f', 'i', 'n', 'i', 't', 'y'] (s ++ post) = true := (begins_word hs hp).2 rfl
    rw [h1, hl]; rfl

theorem nan_head {neg : Bool} {s t : Str} (hs : s.map Char.toLower = ['n', 'a', 'n']) : unsigned neg (s ++ t) = some (.nan, 3 + nanTail t) := by
  have hl : s.length = 3 := by rw [← List.length_map, hs]; rfl
  have b : ∀ (a : Char) (w : Str), a ≠ 'n' → begins (a :: w) (s ++ t) = false := by
    intro a w ha
    by_contra h
    have h := begins_iff.1 (by simpa using h)
    rw [List.map_append, hs] at h
    simp only [List.cons_append, List.length_cons, List.take_succ_cons, List.cons.injEq] at h
    exact ha h.1.symm
  have h3 : begins ['n', 'a', 'n'] (s ++ t) = true := by rw [begins_iff, List.map_append, hs]; rfl
  unfold unsigned
  rw [b 'i' _ (by decide), b 'i' _ (by decide), h3]
  have : (s ++ t).drop 3 = t := by rw [← hl, List.drop_left]
  rw [this]; rfl

theorem alnum_iff {c : Char} : (decide (digitVal c < 36) || decide (c = '_')) = true ↔ (c.isAlphanum = true ∨ c = '_') := by
  have e : c.val.toNat = c.toNat := rfl
  have le : ∀ a b : Char, (a.val ≤ b.val) ↔ a.toNat ≤ b.toNat := fun a b => Iff.rfl
  have : digitVal c < 36 ↔ c.isAlphanum = true := by
    unfold digitVal Char.isAlphanum Char.isAlpha Char.isUpper Char.isLower Char.isDigit
    simp only [Bool.or_eq_true, Bool.and_eq_true, decide_eq_true_eq, UInt32.le_iff_toNat_le, ge_iff_le]
    have k : 'A'.val.toNat = 65 ∧ 'Z'.val.toNat = 90 ∧ 'a'.val.toNat = 97 ∧ 'z'.val.toNat = 122 ∧ '0'.val.toNat = 48 ∧ '9'.val.toNat = 57 := by decide
    obtain ⟨k1, k2, k3, k4, k5, k6⟩ := k
    rw [e, k1, k2, k3, k4, k5, k6]
    split
    · omega
    · split
      · omega
      · split <;> omega
  simp [this]

theorem unsigned_nan {neg : Bool} {s post : Str} (hs : s.map Char.toLower = ['n', 'a', 'n']) (hp : Blank post) : unsigned neg (s ++ post) = some (.nan, s.length) := by
  have hl : s.length = 3 := by rw [← List.length_map, hs]; rfl
  rw [nan_head hs, hl]
  cases post with
  | nil => rfl
  | cons c r =>
    have hc : c ≠ '(' := by rintro rfl; exact absurd (hp '(' (by simp)) (by decide)
    unfold nanTail
    split
    · rename_i h; exact absurd (List.cons.inj h).1 hc
    · rfl

theorem unsigned_nanOf {neg : Bool} {s cs post : Str} (hs : s.map Char.toLower = ['n', 'a', 'n']) (hc : ∀ c ∈ cs, c.isAlphanum = true ∨ c = '_') :
    unsigned neg (s ++ '(' :: (cs ++ [')']) ++ post) = some (.nan, (s ++ '(' :: (cs ++ [')'])).length) := by
  have hl : s.length = 3 := by rw [← List.length_map, hs]; rfl
  rw [List.append_assoc, nan_head hs]
  have ht := takeWhile_append_stop (p := fun c => decide (digitVal c < 36) || decide (c = '_')) (ds := cs) (post := ')' :: post) (fun c h => alnum_iff.2 (hc c h))
    (fun c r h => by rw [← (List.cons.inj h).1]; decide)
  have : '(' :: (cs ++ [')']) ++ post = '(' :: (cs ++ ')' :: post) := by simp
  rw [this]
  unfold nanTail
  simp only [ht, List.drop_left]
  simp [hl]

/-- Decimal and hexadecimal numbers are read, completely, and rounded. -/
theorem unsigned_mag {neg : Bool} {lit post : Str} {a : ℚ} (h : Magnitude lit a) (hp : Blank post) : ∃ y, unsigned neg (lit ++ post) = some (y, lit.length) ∧ Rounded neg a y := by
  cases h with
  | dec m x v f e h1 h2 =>
    refine ⟨_, unsigned_dec h1 h2 hp, ?_⟩
    have := scaled_rounded neg v 10 (e - f) (by omega)
    rwa [show (v * ((10 : Nat) : ℚ) ^ (e - f)) = v / 10 ^ f * 10 ^ e by
      push_cast
      rw [zpow_sub₀ (by norm_num), zpow_natCast]
      ring] at this
  | hex c m x v f e hc h1 h2 =>
    refine ⟨_, unsigned_hex hc h1 h2 hp, ?_⟩
    have := scaled_rounded neg v 2 (e - 4 * f) (by omega)
    rwa [show (v * ((2 : Nat) : ℚ) ^ (e - 4 * f : Int)) = v / 16 ^ f * 2 ^ e by
      push_cast
      rw [zpow_sub₀ (by norm_num), show (4 * (f : Int)) = ((4 * f : Nat) : Int) by push_cast; ring, zpow_natCast, pow_mul]
      norm_num
      ring] at this

/-- Whatever is spelled is read, completely. -/
theorem unsigned_lit {neg : Bool} {lit post : Str} {x : Num} (h : Spelled neg lit x) (hp : Blank post) : ∃ y, unsigned neg (lit ++ post) = some (y, lit.length) ∧ Spelled neg lit y := by
  cases h with
  | number s a x hm hr =>
    obtain ⟨y, h1, h2⟩ := unsigned_mag hm hp
    exact ⟨y, h1, .number _ _ _ hm h2⟩
  | inf s hs => exact ⟨_, unsigned_inf hs hp, .inf _ hs⟩
  | nan s hs => exact ⟨_, unsigned_nan hs hp, .nan _ hs⟩
  | nanOf s cs hs hc => exact ⟨_, unsigned_nanOf hs hc, .nanOf s cs hs hc⟩

theorem begins_split {w s : Str} (h : begins w s = true) (hw : w ≠ []) : ∃ lit r, s = lit ++ r ∧ lit.length = w.length ∧ lit.map Char.toLower = w := by
  have h1 := begins_iff.1 h
  rw [← List.map_take] at h1
  exact ⟨s.take w.length, s.drop w.length, (List.take_append_drop _ _).symm, by rw [← List.length_map (f := Char.toLower), h1], h1⟩

theorem nanTail_some (t : Str) : nanTail t = 0 ∨ ∃ cs r, t = '(' :: (cs ++ [')']) ++ r ∧ (∀ c ∈ cs, c.isAlphanum = true ∨ c = '_') ∧ nanTail t = cs.length + 2 := by
  unfold nanTail
  split
  · rename_i r
    simp only
    generalize hcs : r.takeWhile (fun c => decide (digitVal c < 36) || decide (c = '_')) = cs
    split
    · rename_i q hq
      right
      obtain ⟨u, hu⟩ := List.takeWhile_prefix (l := r) (fun c => decide (digitVal c < 36) || decide (c = '_'))
      rw [hcs] at hu
      refine ⟨cs, q, ?_, fun c hc => alnum_iff.1 (of_takeWhile (by rw [hcs]; exact hc)), rfl⟩
      rw [← hu, List.drop_left] at hq
      rw [← hu, hq]; simp
    · exact Or.inl rfl
  · exact Or.inl rfl

/-- Only what is spelled is read. -/
theorem unsigned_some {neg : Bool} {s : Str} {x : Num} {l : Nat} (h : unsigned neg s = some (x, l)) : ∃ lit r, s = lit ++ r ∧ lit.length = l ∧ Spelled neg lit x := by
  unfold unsigned at h
  by_cases h1 : begins ['i', 'n', 'f', 'i', 'n', 'i', 't', 'y'] s = true
  · rw [if_pos h1] at h
    cases h
    obtain ⟨lit, r, e1, e2, e3⟩ := begins_split h1 (by simp)
    exact ⟨lit, r, e1, e2, .inf lit (Or.inr e3)⟩
  rw [if_neg h1] at h
  by_cases h2 : begins ['i', 'n', 'f'] s = true
  · rw [if_pos h2] at h
    cases h
    obtain ⟨lit, r, e1, e2, e3⟩ := begins_split h2 (by simp)
    exact ⟨lit, r, e1, e2, .inf lit (Or.inl e3)⟩
  rw [if_neg h2] at h
  by_cases h3 : begins ['n', 'a', 'n'] s = true
  · rw [if_pos h3] at h
    cases h
    obtain ⟨lit, r, e1, e2, e3⟩ := begins_split h3 (by simp)
    have e2 : lit.length = 3 := e2
    have hd : s.drop 3 = r := by rw [e1, ← e2, List.drop_left]
    rw [hd]
    rcases nanTail_some r with hn | ⟨cs, q, hr, hcs, hn⟩
    · rw [hn]; exact ⟨lit, r, e1, e2, .nan lit e3⟩
    · rw [hn]
      exact ⟨lit ++ '(' :: (cs ++ [')']), q, by rw [e1, hr]; simp, by simp [e2], .nanOf lit cs e3 hcs⟩
  rw [if_neg h3] at h
  cases hx : hexNumber neg s with
  | some p =>
    rw [hx] at h
    obtain rfl : p = (x, l) := Option.some.inj h
    unfold hexNumber at hx
    obtain ⟨t, ht, hx⟩ := Option.bind_eq_some_iff.1 hx
    obtain ⟨⟨v, f, k⟩, hm, hx⟩ := Option.map_eq_some_iff.1 hx
    cases hx
    obtain ⟨m, r, rfl, hk, hM⟩ := mantissa_some (by omega) hm
    simp only
    subst hk
    rw [List.drop_left]
    obtain ⟨y, q, rfl, hy, hE⟩ := exponent_some (lo := 'p') (up := 'P') r
    obtain ⟨ch, hch, hs⟩ : ∃ ch, (ch = 'x' ∨ ch = 'X') ∧ s = '0' :: ch :: (m ++ (y ++ q)) := by
      unfold hexTail at ht
      split at ht
      · rename_i c x r
        split at ht
        · rename_i hc
          cases ht
          exact ⟨x, hc.2, by rw [hc.1]⟩
        · cases ht
      · cases ht
    refine ⟨'0' :: ch :: (m ++ y), q, by rw [hs]; simp, by simp [hy]; omega, .number _ _ _ (.hex ch m y v f _ hch hM hE) ?_⟩
    have := scaled_rounded neg v 2 ((exponent 'p' 'P' (y ++ q)).1 - 4 * f) (by omega)
    rwa [show (v * ((2 : Nat) : ℚ) ^ ((exponent 'p' 'P' (y ++ q)).1 - 4 * f : Int)) = v / 16 ^ f * 2 ^ (exponent 'p' 'P' (y ++ q)).1 by
      push_cast
      rw [zpow_sub₀ (by norm_num), show (4 * (f : Int)) = ((4 * f : Nat) : Int) by push_cast; ring, zpow_natCast, pow_mul]
      norm_num
      ring] at this
  | none =>
    rw [hx] at h
    replace h : decNumber neg s = some (x, l) := h
    unfold decNumber at h
    obtain ⟨⟨v, f, k⟩, hm, hx⟩ := Option.map_eq_some_iff.1 h
    cases hx
    obtain ⟨m, r, rfl, hk, hM⟩ := mantissa_some (by omega) hm
    simp only
    subst hk
    rw [List.drop_left]
    obtain ⟨y, q, rfl, hy, hE⟩ := exponent_some (lo := 'e') (up := 'E') r
    refine ⟨m ++ y, q, by simp, by simp [hy], .number _ _ _ (.dec m y v f _ hM hE) ?_⟩
    have := scaled_rounded neg v 10 ((exponent 'e' 'E' (y ++ q)).1 - f) (by omega)
    rwa [show (v * ((10 : Nat) : ℚ) ^ ((exponent 'e' 'E' (y ++ q)).1 - f : Int)) = v / 10 ^ f * 10 ^ (exponent 'e' 'E' (y ++ q)).1 by
      push_cast
      rw [zpow_sub₀ (by norm_num), zpow_natCast]
      ring] at this

end Verif.Reals
