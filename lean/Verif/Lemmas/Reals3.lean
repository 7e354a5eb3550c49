import Verif.Lemmas.Reals2

/-! # Reading numbers -/
set_option autoImplicit false

namespace Verif.Reals

open Verif.Config (Str)
open Verif.ScalarText (Number Blank Ascii isSpace digitVal valueIn signOf number_iff takeWhile_append_stop blank_notDigit toLower_blank isSpace_iff)

theorem isDouble_eq : IsDouble = binary64.set 1074 := by
  unfold IsDouble Fmt.set binary64
  rfl

theorem isFloat_eq : IsFloat = binary32.set 1074 := by
  unfold IsFloat Fmt.set binary32
  rfl

theorem pow_split (a b c : Nat) (h : c = a + b) : (2 : ℚ) ^ c = 2 ^ a * 2 ^ b := by rw [h, pow_add]

theorem limit_eq : ((2 : ℚ) ^ 2098 - 2 ^ 2044) / 2 ^ 1074 = 2 ^ 1024 - 2 ^ 970 := by
  rw [pow_split 1024 1074 2098 rfl, pow_split 970 1074 2044 rfl, ← sub_mul, mul_div_assoc, div_self (pow_pos_q 1074).ne', mul_one]

theorem val_false (k : Nat) : val false k = (k : ℚ) / 2 ^ 1074 := one_mul _

theorem val_true (k : Nat) : val true k = -((k : ℚ) / 2 ^ 1074) := by
  show -1 * _ = _
  rw [neg_one_mul]

/-- What the conversion to `double` gives. -/
theorem round64 (neg : Bool) (n d : Nat) (hd : 0 < d) : Rounded neg (n / d / 2 ^ 1074) (binary64.round neg n d) := by
  have hp : 0 < binary64.p := by decide
  have ht := near_top binary64 hp (by decide) n d 1074 hd
  have e : ((2 : ℚ) ^ binary64.top - 2 ^ (binary64.top - binary64.p - 1)) / 2 ^ 1074 = 2 ^ 1024 - 2 ^ 970 := limit_eq
  rw [e] at ht
  unfold Fmt.round
  by_cases h : binary64.near n d < 2 ^ binary64.top
  · rw [if_pos h]
    refine Or.inl ⟨_, rfl, ?_, ht.1 h⟩
    rw [val_false, isDouble_eq]
    exact near_nearest_q binary64 hp (by decide) n d 1074 hd h
  · rw [if_neg h]
    exact Or.inr ⟨rfl, ht.2 h⟩

theorem scaled_rounded (neg : Bool) (v base : Nat) (e : Int) (hb : 0 < base) : Rounded neg (v * (base : ℚ) ^ e) (scaled neg v base e) := by
  have hb' : (base : ℚ) ≠ 0 := by exact_mod_cast hb.ne'
  have hU := (pow_pos_q 1074).ne'
  unfold scaled
  by_cases h : 0 ≤ e
  · rw [if_pos h]
    have := round64 neg (v * base ^ e.toNat * 2 ^ unit) 1 (by omega)
    rw [show (((v * base ^ e.toNat * 2 ^ unit : Nat) : ℚ) / (1 : Nat) / 2 ^ 1074) = v * (base : ℚ) ^ e by
      conv => rhs; rw [← Int.toNat_of_nonneg h]
      rw [zpow_natCast]
      push_cast
      rw [div_one]
      exact mul_div_cancel_right₀ _ hU] at this
    exact this
  · rw [if_neg h]
    have := round64 neg (v * 2 ^ unit) (base ^ (-e).toNat) (Nat.pow_pos hb)
    rw [show (((v * 2 ^ unit : Nat) : ℚ) / (base ^ (-e).toNat : Nat) / 2 ^ 1074) = v * (base : ℚ) ^ e by
      have he : e = -((-e).toNat : Int) := by omega
      conv => rhs; rw [he]
      rw [zpow_neg, zpow_natCast]
      push_cast
      rw [div_right_comm, ← div_eq_mul_inv]
      congr 1
      exact mul_div_cancel_right₀ _ hU] at this
    exact this

/-! ## Characters -/

theorem toLower_small {c : Char} (h : c.toNat < 65) : c.toLower = c := by
  unfold Char.toLower
  split
  · rename_i h1
    have e : c.val.toNat = c.toNat := rfl
    have h2 : 'A'.val ≤ c.val := by simpa using h1.1
    have : 'A'.val.toNat ≤ c.val.toNat := h2
    have : 'A'.val.toNat = 65 := rfl
    omega
  · rfl

theorem blank_toLower {post : Str} (h : Blank post) : post.map Char.toLower = post := by
  conv => rhs; rw [← List.map_id post]
  exact List.map_congr_left fun c hc => toLower_blank (isSpace_iff.2 (h c hc))

theorem digit10_code {c : Char} (h : digitVal c < 10) : 48 ≤ c.toNat ∧ c.toNat ≤ 57 := by
  unfold digitVal at h
  split at h
  · assumption
  · split at h
    · omega
    · split at h <;> omega

theorem begins_iff {w s : Str} : begins w s = true ↔ (s.map Char.toLower).take w.length = w := by
  unfold begins
  rw [decide_eq_true_iff, List.map_take]

/-- No word begins with a character below the letters. -/
theorem begins_small {w s : Str} {c : Char} {r : Str} (hs : s = c :: r) (hc : c.toNat < 65) {a : Char} {w' : Str} (hw : w = a :: w') (ha : 65 ≤ a.toNat) : begins w s = false := by
  by_contra h
  have h := begins_iff.1 (by simpa using h)
  subst hs; subst hw
  rw [List.map_cons, List.length_cons, List.take_succ_cons, List.cons.injEq, toLower_small hc] at h
  rw [h.1] at hc
  omega

/-! ## Mantissas -/

theorem of_takeWhile {p : Char → Bool} {l : Str} {c : Char} (h : c ∈ l.takeWhile p) : p c = true := by
  induction l with
  | nil => cases h
  | cons a l ih =>
    by_cases ha : p a = true
    · rw [List.takeWhile_cons_of_pos ha] at h
      rcases List.mem_cons.1 h with rfl | h
      · exact ha
      · exact ih h
    · rw [List.takeWhile_cons_of_neg ha] at h; cases h

theorem mantissa_lit {base : Nat} (hb : base ≤ 16) {m r : Str} {v f : Nat} (h : Mantissa base m v f) (hr : ∀ c t, r = c :: t → decide (digitVal c < base) = false ∧ c ≠ '.') :
    mantissa base (m ++ r) = some (v, f, m.length) := by
  cases h with
  | whole ds v hne hn =>
    obtain ⟨h1, rfl⟩ := (number_iff hb).1 hn
    have ht := takeWhile_append_stop (p := fun c => decide (digitVal c < base)) (ds := m) (post := r) (by simpa using h1) (fun c t h => (hr c t h).1)
    unfold mantissa
    simp only [ht, List.drop_left]
    cases r with
    | nil => simp [hne]
    | cons c t =>
      have hc := (hr c t rfl).2
      split
      · rename_i h; exact absurd (List.cons.inj h).1 hc
      · simp [hne]
  | point ds fs v hne hn =>
    obtain ⟨h1, rfl⟩ := (number_iff hb).1 hn
    have hdot : decide (digitVal '.' < base) = false := by
      have : digitVal '.' = 99 := by decide
      rw [this]; simp; omega
    have ht := takeWhile_append_stop (p := fun c => decide (digitVal c < base)) (ds := ds) (post := '.' :: (fs ++ r)) (by simpa using fun c hc => h1 c (List.mem_append_left _ hc))
      (fun c t h => by rw [← (List.cons.inj h).1]; exact hdot)
    have hf := takeWhile_append_stop (p := fun c => decide (digitVal c < base)) (ds := fs) (post := r) (by simpa using fun c hc => h1 c (List.mem_append_right _ hc)) (fun c t h => (hr c t h).1)
    have e : ds ++ '.' :: fs ++ r = ds ++ '.' :: (fs ++ r) := by simp
    unfold mantissa
    rw [e]
    simp only [ht, List.drop_left, hf]
    rw [if_neg (fun h => hne (by rw [h.1, h.2]; rfl))]
    simp; omega

theorem mantissa_some {base : Nat} (hb : base ≤ 16) {s : Str} {v f l : Nat} (h : mantissa base s = some (v, f, l)) : ∃ m r, s = m ++ r ∧ m.length = l ∧ Mantissa base m v f := by
  have hdig : ∀ (t : Str) (c : Char), c ∈ t.takeWhile (fun c => decide (digitVal c < base)) → digitVal c < base := fun t c hc => by simpa using of_takeWhile hc
  have hsplit : s = s.takeWhile (fun c => decide (digitVal c < base)) ++ s.drop (s.takeWhile (fun c => decide (digitVal c < base))).length := by
    obtain ⟨t, ht⟩ := List.takeWhile_prefix (l := s) (fun c => decide (digitVal c < base))
    conv => rhs; rhs; rhs; rw [← ht]
    rw [List.drop_left, ht]
  unfold mantissa at h
  generalize hd : s.takeWhile (fun c => decide (digitVal c < base)) = ds at h hsplit
  have hds : ∀ c ∈ ds, digitVal c < base := fun c hc => hdig s c (by rw [hd]; exact hc)
  simp only at h
  split at h
  · rename_i r hr
    rw [hr] at hsplit
    split at h
    · cases h
    · rename_i hne
      cases h
      obtain ⟨t, ht⟩ := List.takeWhile_prefix (l := r) (fun c => decide (digitVal c < base))
      refine ⟨ds ++ '.' :: r.takeWhile (fun c => decide (digitVal c < base)), t, ?_, ?_, .point _ _ _ ?_ ?_⟩
      · rw [List.append_assoc, List.cons_append, ht]; exact hsplit
      · simp; omega
      · intro hh
        exact hne ⟨(List.append_eq_nil_iff.1 hh).1, (List.append_eq_nil_iff.1 hh).2⟩
      · refine (number_iff hb).2 ⟨fun c hc => ?_, rfl⟩
        rcases List.mem_append.1 hc with hc | hc
        · exact hds c hc
        · exact hdig r c hc
  · split at h
    · cases h
    · rename_i hne
      cases h
      exact ⟨ds, _, hsplit, rfl, .whole ds _ hne ((number_iff hb).2 ⟨hds, rfl⟩)⟩

/-! ## Exponents -/

theorem signOf_digit {ds post : Str} (hne : ds ≠ []) (h : ∀ c ∈ ds, digitVal c < 10) : signOf (ds ++ post) = (false, 0) := by
  cases ds with
  | nil => exact absurd rfl hne
  | cons c r =>
    have := digit10_code (h c (by simp))
    have h1 : c ≠ '-' := by rintro rfl; exact absurd this.1 (by decide)
    have h2 : c ≠ '+' := by rintro rfl; exact absurd this.1 (by decide)
    simp [signOf, h1, h2]

theorem exponent_lit {lo up : Char} (hlo : isSpace lo = false) (hup : isSpace up = false) {x post : Str} {e : Int} (h : Exponent lo up x e) (hp : Blank post) : exponent lo up (x ++ post) = (e, x.length) := by
  have dig : ∀ (ds : Str) (n : Nat), ds ≠ [] → Number 10 ds n → (ds ++ post).takeWhile (fun c => decide (digitVal c < 10)) = ds ∧ n = valueIn 10 ds ∧ signOf (ds ++ post) = (false, 0) := by
    intro ds n hne hn
    obtain ⟨h1, h2⟩ := (number_iff (by omega)).1 hn
    exact ⟨takeWhile_append_stop (by simpa using h1) (blank_notDigit (by omega) hp), h2, signOf_digit hne h1⟩
  cases h with
  | none =>
    cases post with
    | nil => rfl
    | cons c r =>
      have hc : isSpace c = true := isSpace_iff.2 (hp c (by simp))
      have h1 : ¬ (c = lo ∨ c = up) := by rintro (rfl | rfl) <;> simp_all
      simp [exponent, h1]
  | plain c ds n hc hne hn =>
    obtain ⟨h1, rfl, h3⟩ := dig ds n hne hn
    simp only [exponent, List.cons_append, if_pos hc, h3, List.drop_zero, h1, if_neg hne]
    simp [Nat.add_comm]
  | plus c ds n hc hne hn =>
    obtain ⟨h1, rfl, h3⟩ := dig ds n hne hn
    have hg : signOf ('+' :: (ds ++ post)) = (false, 1) := rfl
    simp only [exponent, List.cons_append, if_pos hc, hg, List.drop_succ_cons, List.drop_zero, h1, if_neg hne]
    simp; omega
  | minus c ds n hc hne hn =>
    obtain ⟨h1, rfl, h3⟩ := dig ds n hne hn
    have hg : signOf ('-' :: (ds ++ post)) = (true, 1) := rfl
    simp only [exponent, List.cons_append, if_pos hc, hg, List.drop_succ_cons, List.drop_zero, h1, if_neg hne]
    simp; omega

theorem signOf_cases (s : Str) : (∃ r, s = '-' :: r ∧ signOf s = (true, 1)) ∨ (∃ r, s = '+' :: r ∧ signOf s = (false, 1)) ∨ signOf s = (false, 0) := by
  cases s with
  | nil => exact Or.inr (Or.inr rfl)
  | cons c r =>
    by_cases h1 : c = '-'
    · exact Or.inl ⟨r, by rw [h1], by rw [h1]; rfl⟩
    · by_cases h2 : c = '+'
      · exact Or.inr (Or.inl ⟨r, by rw [h2], by rw [h2]; rfl⟩)
      · exact Or.inr (Or.inr (by simp [signOf, h1, h2]))

theorem exponent_some {lo up : Char} (s : Str) : ∃ x r, s = x ++ r ∧ x.length = (exponent lo up s).2 ∧ Exponent lo up x (exponent lo up s).1 := by
  cases s with
  | nil => exact ⟨[], [], rfl, rfl, .none⟩
  | cons c r =>
    by_cases hc : c = lo ∨ c = up
    · simp only [exponent, if_pos hc]
      generalize hds : (r.drop (signOf r).2).takeWhile (fun c => decide (digitVal c < 10)) = ds
      by_cases hne : ds = []
      · rw [if_pos hne]; exact ⟨[], c :: r, rfl, rfl, .none⟩
      · rw [if_neg hne]
        have hn : Number 10 ds (valueIn 10 ds) := (number_iff (by omega)).2 ⟨fun d hd => by rw [← hds] at hd; simpa using of_takeWhile hd, rfl⟩
        obtain ⟨t, ht⟩ := List.takeWhile_prefix (l := r.drop (signOf r).2) (fun c => decide (digitVal c < 10))
        rw [hds] at ht
        rcases signOf_cases r with ⟨r', rfl, hg⟩ | ⟨r', rfl, hg⟩ | hg
        · rw [hg] at ht ⊢
          simp only [List.drop_succ_cons, List.drop_zero] at ht
          exact ⟨c :: '-' :: ds, t, by rw [← ht]; rfl, by simp; omega, .minus c ds _ hc hne hn⟩
        · rw [hg] at ht ⊢
          simp only [List.drop_succ_cons, List.drop_zero] at ht
          exact ⟨c :: '+' :: ds, t, by rw [← ht]; rfl, by simp; omega, .plus c ds _ hc hne hn⟩
        · rw [hg] at ht ⊢
          simp only [List.drop_zero] at ht
          exact ⟨c :: ds, t, by rw [← ht]; rfl, by simp; omega, .plain c ds _ hc hne hn⟩
    · simp only [exponent, if_neg hc]
      exact ⟨[], c :: r, rfl, rfl, .none⟩

end Verif.Reals
