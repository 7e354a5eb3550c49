import Verif.Model.ScalarText

/-!
# C56 and C59: scalars and text
-/
set_option autoImplicit false

namespace Verif.ScalarText

open Verif.Config (Str)

/-! ## Specification -/

/-- the blank characters: space, tab, line feed, vertical tab, form feed, carriage return -/
def Blank (s : Str) : Prop := ∀ c ∈ s, c.toNat = 32 ∨ 9 ≤ c.toNat ∧ c.toNat ≤ 13

/-- `c` is the digit `d` of base `base` -/
def Digit (base : Nat) (c : Char) (d : Nat) : Prop := d < base ∧ (d < 10 ∧ c.toNat = 48 + d ∨ 10 ≤ d ∧ d < 16 ∧ (c.toNat = 97 + (d - 10) ∨ c.toNat = 65 + (d - 10)))

/-- the digits spell the number `n` -/
inductive Number (base : Nat) : Str → Nat → Prop
  | nil : Number base [] 0
  | snoc (ds : Str) (n : Nat) (c : Char) (d : Nat) : Number base ds n → Digit base c d → Number base (ds ++ [c]) (n * base + d)

/-- literals without a sign: decimal, octal (with a leading zero) and hexadecimal (with `0x`), as in C -/
inductive Unsigned : Str → Nat → Prop
  | dec (c : Char) (ds : Str) (n : Nat) : c ≠ '0' → Number 10 (c :: ds) n → Unsigned (c :: ds) n
  | oct (ds : Str) (n : Nat) : Number 8 ds n → Unsigned ('0' :: ds) n
  | hex (x : Char) (ds : Str) (n : Nat) : x = 'x' ∨ x = 'X' → ds ≠ [] → Number 16 ds n → Unsigned ('0' :: x :: ds) n

/-- integer literals -/
inductive Literal : Str → Int → Prop
  | plain (s : Str) (n : Nat) : Unsigned s n → Literal s n
  | plus (s : Str) (n : Nat) : Unsigned s n → Literal ('+' :: s) n
  | minus (s : Str) (n : Nat) : Unsigned s n → Literal ('-' :: s) (-n)

/-- the numbers of 64 bits -/
def Int64 (n : Int) : Prop := -(2 ^ 63) ≤ n ∧ n < 2 ^ 63

/-- the documented words -/
def words : Bool → List Str
  | true => [['1'], ['y', 'e', 's'], ['y'], ['t', 'r', 'u', 'e'], ['t'], ['o', 'n']]
  | false => [['0'], ['n', 'o'], ['n'], ['f', 'a', 'l', 's', 'e'], ['f'], ['o', 'f', 'f']]

/-- `s` is `w` between blanks -/
def Between (s w : Str) : Prop := ∃ pre post, s = pre ++ w ++ post ∧ Blank pre ∧ Blank post

/-- the bytes of 7 bits (and the byte 255) -/
def Ascii (s : Str) : Prop := ∀ c ∈ s, c.toNat < 128 ∨ c.toNat = 255

/-! ## Blanks -/

theorem isSpace_iff {c : Char} : isSpace c = true ↔ (c.toNat = 32 ∨ 9 ≤ c.toNat ∧ c.toNat ≤ 13) := by simp [isSpace]

theorem classified_iff {c : Char} : classified c = true ↔ (c.toNat < 128 ∨ c.toNat = 255) := by simp [classified]

theorem blank_cons {c : Char} {s : Str} : Blank (c :: s) ↔ isSpace c = true ∧ Blank s := by simp [Blank, isSpace_iff]

theorem blank_ascii {s : Str} (h : Blank s) : Ascii s := by
  intro c hc
  have := h c hc
  omega

/-- What `skipSpaces` skips. -/
theorem skip_spec {s : Str} (h : Ascii s) : ∃ pre rest, s = pre ++ rest ∧ skipSpaces s = some pre.length ∧ Blank pre ∧ ∀ c r, rest = c :: r → isSpace c = false := by
  induction s with
  | nil => exact ⟨[], [], rfl, rfl, by simp [Blank], by simp⟩
  | cons c s ih =>
    have hc := classified_iff.2 (h c (by simp))
    obtain ⟨pre, rest, h1, h2, h3, h4⟩ := ih (fun d hd => h d (List.mem_cons_of_mem _ hd))
    cases e : isSpace c with
    | true => exact ⟨c :: pre, rest, by rw [h1]; rfl, by simp [skipSpaces, hc, e, h2], blank_cons.2 ⟨e, h3⟩, h4⟩
    | false =>
      refine ⟨[], c :: s, rfl, by simp [skipSpaces, hc, e], by simp [Blank], fun c' r hr => ?_⟩
      rw [List.cons.injEq] at hr
      rw [← hr.1]; exact e

theorem skip_append {pre rest : Str} (h : Blank pre) (hr : ∀ c r, rest = c :: r → isSpace c = false ∧ classified c = true) : skipSpaces (pre ++ rest) = some pre.length := by
  induction pre with
  | nil =>
    cases rest with
    | nil => rfl
    | cons c r => obtain ⟨h1, h2⟩ := hr c r rfl; simp [skipSpaces, h1, h2]
  | cons c pre ih =>
    obtain ⟨h1, h2⟩ := blank_cons.1 h
    have : classified c = true := classified_iff.2 (blank_ascii h c (by simp))
    simp [skipSpaces, this, h1, ih h2]

theorem skip_le {s : Str} {k : Nat} (h : skipSpaces s = some k) : k ≤ s.length ∧ Blank (s.take k) := by
  induction s generalizing k with
  | nil => simp [skipSpaces] at h; subst h; simp [Blank]
  | cons c s ih =>
    simp only [skipSpaces] at h
    split at h
    · split at h
      · rename_i hs
        cases e : skipSpaces s with
        | none => rw [e] at h; simp at h
        | some j =>
          rw [e] at h
          simp only [Option.map_some, Option.some.injEq] at h
          subst h
          obtain ⟨h1, h2⟩ := ih e
          exact ⟨by simp; exact h1, by rw [List.take_succ_cons]; exact blank_cons.2 ⟨hs, h2⟩⟩
      · simp at h; subst h; simp [Blank]
    · simp at h

theorem skip_ascii {s : Str} (h : Ascii s) : ∃ k, skipSpaces s = some k := by
  obtain ⟨pre, rest, -, h2, -⟩ := skip_spec h
  exact ⟨_, h2⟩

/-- `decode` succeeds exactly if the decoder stops where only blanks follow. -/
theorem decode_ok {α : Type} {decoder : Str → Option (α × Option Nat)} {s : Str} (hs : Ascii s) (v : α) (hle : ∀ t w e, decoder t = some (w, some e) → e ≤ t.length) :
    decode decoder s = .ok v ↔ s ≠ [] ∧ ∃ pre rest e, s = pre ++ rest ∧ Blank pre ∧ (∀ c r, rest = c :: r → isSpace c = false) ∧ decoder rest = some (v, some e) ∧ Blank (rest.drop e) := by
  obtain ⟨pre, rest, h1, h2, h3, h4⟩ := skip_spec hs
  have huniq : ∀ pre' rest', s = pre' ++ rest' → Blank pre' → (∀ c r, rest' = c :: r → isSpace c = false) → rest' = rest := by
    intro pre' rest' e1 e2 e3
    have hr : ∀ c r, rest' = c :: r → isSpace c = false ∧ classified c = true := fun c r hr => ⟨e3 c r hr, classified_iff.2 (hs c (by rw [e1, hr]; simp))⟩
    have := skip_append e2 hr
    rw [← e1, h2] at this
    have hl := Option.some.inj this
    rw [h1] at e1
    exact (List.append_inj e1 hl).2.symm
  have hd : s.drop pre.length = rest := by rw [h1, List.drop_left]
  unfold decode
  by_cases hn : s = []
  · simp [hn]
  · rw [if_neg hn, h2]
    simp only [hd]
    have main : ∀ e, e ≤ rest.length → ((if e = rest.length then Out.ok v else match skipSpaces (rest.drop e) with
        | none => .ub
        | some k => if e + k = rest.length then .ok v else .fail) = .ok v ↔ Blank (rest.drop e)) := by
      intro e he
      by_cases hl : e = rest.length
      · rw [if_pos hl, hl]; simp [Blank]
      · rw [if_neg hl]
        have ha : Ascii (rest.drop e) := fun c hc => hs c (by rw [h1]; exact List.mem_append_right _ (List.mem_of_mem_drop hc))
        constructor
        · intro h
          cases ek : skipSpaces (rest.drop e) with
          | none => rw [ek] at h; simp at h
          | some k =>
            rw [ek] at h
            simp only at h
            split at h
            · obtain ⟨g1, g2⟩ := skip_le ek
              rename_i hk
              have : (rest.drop e).take k = rest.drop e := List.take_of_length_le (by rw [List.length_drop]; omega)
              rw [this] at g2
              exact g2
            · simp at h
        · intro h
          have := skip_append (rest := []) h (by simp)
          rw [List.append_nil] at this
          rw [this]
          simp only [List.length_drop]
          rw [if_pos (by omega)]
    constructor
    · intro h
      cases ed : decoder rest with
      | none => rw [ed] at h; simp at h
      | some p =>
        obtain ⟨w, oe⟩ := p
        rw [ed] at h
        cases oe with
        | none => simp at h
        | some e =>
          simp only at h
          have hle' := hle _ _ _ ed
          have hw : w = v := by
            split at h
            · exact Out.ok.inj h
            · split at h
              · simp at h
              · split at h
                · exact Out.ok.inj h
                · simp at h
          subst hw
          exact ⟨hn, pre, rest, e, h1, h3, h4, ed, (main e hle').1 h⟩
    · rintro ⟨-, pre', rest', e, e1, e2, e3, e4, e5⟩
      have := huniq pre' rest' e1 e2 e3
      subst this
      rw [e4]
      exact (main e (hle _ _ _ e4)).2 e5

/-! ## Digits -/

theorem digit_iff {base : Nat} (hb : base ≤ 16) {c : Char} {d : Nat} : Digit base c d ↔ digitVal c = d ∧ d < base := by
  unfold Digit digitVal
  split
  · omega
  · split
    · omega
    · split <;> omega

theorem number_iff {base : Nat} (hb : base ≤ 16) {ds : Str} {n : Nat} : Number base ds n ↔ (∀ c ∈ ds, digitVal c < base) ∧ n = valueIn base ds := by
  constructor
  · intro h
    induction h with
    | nil => simp [valueIn]
    | snoc ds n c d _ hd ih =>
      obtain ⟨h1, h2⟩ := (digit_iff hb).1 hd
      obtain ⟨i1, i2⟩ := ih
      refine ⟨fun x hx => ?_, ?_⟩
      · rcases List.mem_append.1 hx with hx | hx
        · exact i1 x hx
        · simp at hx; subst hx; omega
      · simp [valueIn, List.foldl_append] at i2 ⊢
        rw [← i2, h1]
  · rintro ⟨h1, rfl⟩
    have key : ∀ (rs : Str), (∀ c ∈ rs, digitVal c < base) → Number base rs.reverse (valueIn base rs.reverse) := by
      intro rs
      induction rs with
      | nil => intro _; exact .nil
      | cons c rs ih =>
        intro h
        have := Number.snoc rs.reverse _ c (digitVal c) (ih (fun x hx => h x (List.mem_cons_of_mem _ hx))) ((digit_iff hb).2 ⟨rfl, h c (by simp)⟩)
        simpa [valueIn, List.foldl_append] using this
    have := key ds.reverse (fun c hc => h1 c (List.mem_reverse.1 hc))
    rwa [List.reverse_reverse] at this

theorem takeWhile_append_stop {p : Char → Bool} {ds post : Str} (h1 : ∀ c ∈ ds, p c = true) (h2 : ∀ c r, post = c :: r → p c = false) : (ds ++ post).takeWhile p = ds := by
  induction ds with
  | nil =>
    cases post with
    | nil => rfl
    | cons c r => simp [List.takeWhile, h2 c r rfl]
  | cons d ds ih => simp [List.takeWhile, h1 d (by simp)]; exact ih (fun c hc => h1 c (List.mem_cons_of_mem _ hc))

/-- the digits and the number without the sign -/
def body (u : Str) : Nat × Nat :=
  let b := baseOf u
  let ds := (u.drop b.2).takeWhile (fun c => decide (digitVal c < b.1))
  if ds = [] then (0, 0) else (valueIn b.1 ds, b.2 + ds.length)

theorem strtoll_eq {s : Str} (h : ∀ c r, s = c :: r → isSpace c = false) :
    strtoll s = if (body (s.drop (signOf s).2)).2 = 0 then (0, 0)
      else (clamp (if (signOf s).1 then -((body (s.drop (signOf s).2)).1 : Int) else ((body (s.drop (signOf s).2)).1 : Int)), (signOf s).2 + (body (s.drop (signOf s).2)).2) := by
  have hw : s.takeWhile isSpace = [] := by
    cases s with
    | nil => rfl
    | cons c r => simp [List.takeWhile, h c r rfl]
  unfold strtoll body
  simp only [hw, List.length_nil, List.drop_zero]
  split
  · simp
  · rename_i hne
    have : List.length (List.takeWhile (fun c => decide (digitVal c < (baseOf (s.drop (signOf s).2)).1)) ((s.drop (signOf s).2).drop (baseOf (s.drop (signOf s).2)).2)) ≠ 0 := by
      intro e; exact hne (List.length_eq_zero_iff.1 e)
    have h2 : (baseOf (s.drop (signOf s).2)).2 + List.length (List.takeWhile (fun c => decide (digitVal c < (baseOf (s.drop (signOf s).2)).1)) ((s.drop (signOf s).2).drop (baseOf (s.drop (signOf s).2)).2)) ≠ 0 := by omega
    rw [if_neg h2]
    simp only [Nat.zero_add, Nat.add_assoc]

theorem blank_notDigit {base : Nat} (hb : base ≤ 16) {post : Str} (h : Blank post) : ∀ c r, post = c :: r → decide (digitVal c < base) = false := by
  rintro c r rfl
  have := h c (by simp)
  simp only [decide_eq_false_iff_not, Nat.not_lt]
  unfold digitVal
  split
  · omega
  · split
    · omega
    · split <;> omega

theorem body_literal {u post : Str} {n : Nat} (h : Unsigned u n) (hp : Blank post) : body (u ++ post) = (n, u.length) := by
  cases h with
  | dec c ds n hc hn =>
    obtain ⟨h1, h2⟩ := (number_iff (by omega)).1 hn
    have ht := takeWhile_append_stop (p := fun c => decide (digitVal c < 10)) (ds := c :: ds) (post := post) (by simpa using h1) (blank_notDigit (by omega) hp)
    have hb : baseOf (c :: ds ++ post) = (10, 0) := by simp [baseOf, hc]
    unfold body
    rw [hb]
    simp only [List.drop_zero, ht]
    rw [if_neg (by simp), h2]
    simp
  | oct ds n hn =>
    obtain ⟨h1, h2⟩ := (number_iff (by omega)).1 hn
    have h0 : digitVal '0' = 0 := rfl
    have ht := takeWhile_append_stop (p := fun c => decide (digitVal c < 8)) (ds := '0' :: ds) (post := post)
      (by intro c hc; rcases List.mem_cons.1 hc with rfl | hc; · rfl
          · simpa using h1 c hc) (blank_notDigit (by omega) hp)
    have hb : baseOf ('0' :: ds ++ post) = (8, 0) := by
      have hx : ∀ x r, ds ++ post = x :: r → ¬ (x = 'x' ∨ x = 'X') := by
        intro x r hr
        cases ds with
        | nil =>
          rw [List.nil_append] at hr
          have := hp x (by rw [hr]; simp)
          rintro (rfl | rfl)
          · exact absurd this (by decide)
          · exact absurd this (by decide)
        | cons d ds =>
          rw [List.cons_append, List.cons.injEq] at hr
          have := h1 d (by simp)
          rw [hr.1] at this
          rintro (rfl | rfl)
          · exact absurd this (by decide)
          · exact absurd this (by decide)
      simp only [baseOf, List.cons_append, if_true]
      split
      · rename_i x d r hr
        rw [if_neg]
        rintro ⟨h, -⟩
        exact hx _ _ hr h
      · rfl
    unfold body
    rw [hb]
    simp only [List.drop_zero, ht]
    rw [if_neg (by simp), h2]
    simp [valueIn, h0]
  | hex x ds n hx hne hn =>
    obtain ⟨h1, h2⟩ := (number_iff (by omega)).1 hn
    have ht := takeWhile_append_stop (p := fun c => decide (digitVal c < 16)) (ds := ds) (post := post) (by simpa using h1) (blank_notDigit (by omega) hp)
    have hb : baseOf ('0' :: x :: ds ++ post) = (16, 2) := by
      cases ds with
      | nil => exact absurd rfl hne
      | cons d ds => simp [baseOf, hx, h1 d (by simp)]
    unfold body
    rw [hb]
    simp only [List.cons_append, List.drop_succ_cons, List.drop_zero, ht]
    rw [if_neg hne, h2]
    simp
    omega

theorem takeWhile_split (p : Char → Bool) (s : Str) : ∃ r, s = s.takeWhile p ++ r := ⟨s.dropWhile p, (List.takeWhile_append_dropWhile).symm⟩

theorem body_some {u : Str} (h : (body u).2 ≠ 0) : ∃ lit r, u = lit ++ r ∧ Unsigned lit (body u).1 ∧ lit.length = (body u).2 := by
  unfold body at h ⊢
  simp only at h ⊢
  split
  · rename_i e; rw [if_pos e] at h; simp at h
  · rename_i hne
    have hall : ∀ c ∈ List.takeWhile (fun c => decide (digitVal c < (baseOf u).1)) (u.drop (baseOf u).2), digitVal c < (baseOf u).1 := by
      intro c hc
      have := List.all_takeWhile (p := fun c => decide (digitVal c < (baseOf u).1)) (l := u.drop (baseOf u).2)
      rw [List.all_eq_true] at this
      simpa using this c hc
    obtain ⟨r, hr⟩ := takeWhile_split (fun c => decide (digitVal c < (baseOf u).1)) (u.drop (baseOf u).2)
    revert hne hall hr
    generalize hds : List.takeWhile (fun c => decide (digitVal c < (baseOf u).1)) (u.drop (baseOf u).2) = ds
    intro hne hall hr
    cases u with
    | nil => simp [baseOf] at hr; exact absurd hr.1 hne
    | cons c u =>
      by_cases hc : c = '0'
      · subst hc
        by_cases hx : ∃ x d v, u = x :: d :: v ∧ (x = 'x' ∨ x = 'X') ∧ digitVal d < 16
        · obtain ⟨x, d, v, rfl, h1, h2⟩ := hx
          have hb : baseOf ('0' :: x :: d :: v) = (16, 2) := by simp [baseOf, h1, h2]
          rw [hb] at hr hall ⊢
          simp only [List.drop_succ_cons, List.drop_zero] at hr
          refine ⟨'0' :: x :: ds, r, by rw [hr]; rfl, .hex x ds _ h1 hne ((number_iff (by omega)).2 ⟨hall, rfl⟩), by simp; omega⟩
        · have hb : baseOf ('0' :: u) = (8, 0) := by
            simp only [baseOf, if_true]
            split
            · rename_i x d v
              rw [if_neg]
              rintro ⟨h1, h2⟩
              exact hx ⟨x, d, v, rfl, h1, h2⟩
            · rfl
          rw [hb] at hr hall ⊢
          simp only [List.drop_zero] at hr
          cases ds with
          | nil => exact absurd rfl hne
          | cons z ds =>
            rw [List.cons_append, List.cons.injEq] at hr
            obtain ⟨rfl, hr⟩ := hr
            refine ⟨'0' :: ds, r, by rw [hr]; rfl, ?_, by simp⟩
            have := Unsigned.oct ds _ ((number_iff (base := 8) (by omega)).2 ⟨fun c hc => hall c (List.mem_cons_of_mem _ hc), rfl⟩)
            have hv : valueIn 8 ('0' :: ds) = valueIn 8 ds := by simp [valueIn, show digitVal '0' = 0 from rfl]
            show Unsigned ('0' :: ds) (valueIn 8 ('0' :: ds))
            rw [hv]
            exact this
      · have hb : baseOf (c :: u) = (10, 0) := by simp [baseOf, hc]
        rw [hb] at hr hall ⊢
        simp only [List.drop_zero] at hr
        cases ds with
        | nil => exact absurd rfl hne
        | cons z ds =>
          rw [List.cons_append, List.cons.injEq] at hr
          obtain ⟨rfl, hr⟩ := hr
          exact ⟨c :: ds, r, by rw [hr]; rfl, .dec c ds _ hc ((number_iff (by omega)).2 ⟨hall, rfl⟩), by simp⟩

theorem unsigned_first {u : Str} {n : Nat} (h : Unsigned u n) : ∃ c r, u = c :: r ∧ digitVal c < 10 := by
  cases h with
  | dec c ds n _ hn => exact ⟨c, ds, rfl, ((number_iff (by omega)).1 hn).1 c (by simp)⟩
  | oct ds n _ => exact ⟨'0', ds, rfl, by decide⟩
  | hex x ds n _ _ _ => exact ⟨'0', x :: ds, rfl, by decide⟩

theorem digit_facts {c : Char} (h : digitVal c < 10) : c ≠ '-' ∧ c ≠ '+' ∧ isSpace c = false ∧ classified c = true := by
  have h1 : 48 ≤ c.toNat ∧ c.toNat ≤ 57 := by
    unfold digitVal at h
    split at h
    · assumption
    · split at h
      · omega
      · split at h <;> omega
  refine ⟨?_, ?_, ?_, ?_⟩
  · rintro rfl; exact absurd h1 (by decide)
  · rintro rfl; exact absurd h1 (by decide)
  · cases e : isSpace c with
    | false => rfl
    | true => rw [isSpace_iff] at e; omega
  · rw [classified_iff]; omega

theorem literal_first {lit : Str} {n : Int} (h : Literal lit n) : ∃ c r, lit = c :: r ∧ isSpace c = false ∧ classified c = true := by
  cases h with
  | plain s n hu =>
    obtain ⟨c, r, rfl, hc⟩ := unsigned_first hu
    exact ⟨c, r, rfl, (digit_facts hc).2.2.1, (digit_facts hc).2.2.2⟩
  | plus s n hu => exact ⟨'+', s, rfl, by decide, by decide⟩
  | minus s n hu => exact ⟨'-', s, rfl, by decide, by decide⟩

theorem strtoll_literal {lit post : Str} {n : Int} (h : Literal lit n) (hp : Blank post) : strtoll (lit ++ post) = (clamp n, lit.length) := by
  have hsp : ∀ c r, lit ++ post = c :: r → isSpace c = false := by
    intro c r hr
    obtain ⟨c', r', rfl, h1, -⟩ := literal_first h
    rw [List.cons_append, List.cons.injEq] at hr
    rw [← hr.1]; exact h1
  rw [strtoll_eq hsp]
  cases h with
  | plain s n hu =>
    obtain ⟨c, r, rfl, hc⟩ := unsigned_first hu
    have hg : signOf (c :: r ++ post) = (false, 0) := by simp [signOf, (digit_facts hc).1, (digit_facts hc).2.1]
    rw [hg]
    simp only [List.drop_zero, body_literal hu hp]
    rw [if_neg (by simp)]
    simp
  | plus s n hu =>
    have hg : signOf ('+' :: s ++ post) = (false, 1) := by simp [signOf]
    obtain ⟨c, r, hs, hc⟩ := unsigned_first hu
    rw [hg]
    simp only [List.cons_append, List.drop_succ_cons, List.drop_zero, body_literal hu hp]
    rw [if_neg (by rw [hs]; simp)]
    simp
    omega
  | minus s n hu =>
    have hg : signOf ('-' :: s ++ post) = (true, 1) := by simp [signOf]
    obtain ⟨c, r, hs, hc⟩ := unsigned_first hu
    rw [hg]
    simp only [List.cons_append, List.drop_succ_cons, List.drop_zero, body_literal hu hp]
    rw [if_neg (by rw [hs]; simp)]
    simp
    omega

theorem strtoll_some {s : Str} (h : ∀ c r, s = c :: r → isSpace c = false) :
    strtoll s = (0, 0) ∨ ∃ lit r n, s = lit ++ r ∧ Literal lit n ∧ strtoll s = (clamp n, lit.length) := by
  rw [strtoll_eq h]
  by_cases hz : (body (s.drop (signOf s).2)).2 = 0
  · rw [if_pos hz]; exact Or.inl rfl
  · rw [if_neg hz]
    obtain ⟨lit, r, h1, h2, h3⟩ := body_some hz
    right
    cases s with
    | nil => simp [signOf, body, baseOf] at hz
    | cons c s =>
      by_cases hm : c = '-'
      · subst hm
        have hg : signOf ('-' :: s) = (true, 1) := rfl
        rw [hg] at h1 h2 h3 ⊢
        simp only [List.drop_succ_cons, List.drop_zero] at h1 h2 h3 ⊢
        exact ⟨'-' :: lit, r, _, by rw [h1]; rfl, .minus lit _ h2, by simp; omega⟩
      · by_cases hpl : c = '+'
        · subst hpl
          have hg : signOf ('+' :: s) = (false, 1) := rfl
          rw [hg] at h1 h2 h3 ⊢
          simp only [List.drop_succ_cons, List.drop_zero] at h1 h2 h3 ⊢
          exact ⟨'+' :: lit, r, _, by rw [h1]; rfl, .plus lit _ h2, by simp; omega⟩
        · have hg : signOf (c :: s) = (false, 0) := by simp [signOf, hm, hpl]
          rw [hg] at h1 h2 h3 ⊢
          simp only [List.drop_zero] at h1 h2 h3 ⊢
          exact ⟨lit, r, _, h1, .plain lit _ h2, by simp; omega⟩

/-- When a string decodes to an integer: it is a literal between blanks, and the number is the nearest one of 64 bits; or it is not empty and has only blanks, and the number is zero. -/
theorem C56_int_partial (s : Str) (hs : Ascii s) (v : Int) :
    decodeInt s = .ok v ↔ (∃ lit n, Between s lit ∧ Literal lit n ∧ v = clamp n) ∨ (s ≠ [] ∧ Blank s ∧ v = 0) := by
  unfold decodeInt
  have hle : ∀ (t : Str) (w : Int) (e : Nat), some ((strtoll t).1, some (strtoll t).2) = some (w, some e) → e ≤ t.length := by
    intro t w e h
    simp only [Option.some.injEq, Prod.mk.injEq] at h
    rw [← h.2]
    unfold strtoll
    simp only
    split
    · exact Nat.zero_le _
    · rename_i hne
      have h1 : (t.takeWhile isSpace).length ≤ t.length := (List.takeWhile_prefix _).length_le
      have h2 := (List.takeWhile_prefix (l := List.drop (baseOf (List.drop (signOf (List.drop (t.takeWhile isSpace).length t)).2 (List.drop (t.takeWhile isSpace).length t))).2
        (List.drop (signOf (List.drop (t.takeWhile isSpace).length t)).2 (List.drop (t.takeWhile isSpace).length t)))
        (fun c => decide (digitVal c < (baseOf (List.drop (signOf (List.drop (t.takeWhile isSpace).length t)).2 (List.drop (t.takeWhile isSpace).length t))).1))).length_le
      have h3 : List.length (List.takeWhile (fun c => decide (digitVal c < (baseOf (List.drop (signOf (List.drop (t.takeWhile isSpace).length t)).2 (List.drop (t.takeWhile isSpace).length t))).1))
        (List.drop (baseOf (List.drop (signOf (List.drop (t.takeWhile isSpace).length t)).2 (List.drop (t.takeWhile isSpace).length t))).2
        (List.drop (signOf (List.drop (t.takeWhile isSpace).length t)).2 (List.drop (t.takeWhile isSpace).length t)))) ≠ 0 := by
        intro e0; exact hne (List.length_eq_zero_iff.1 e0)
      simp only [List.length_drop] at h2
      omega
  rw [decode_ok hs v hle]
  constructor
  · rintro ⟨hn, pre, rest, e, h1, h2, h3, h4, h5⟩
    simp only [Option.some.injEq, Prod.mk.injEq] at h4
    rcases strtoll_some h3 with h | ⟨lit, r, n, g1, g2, g3⟩
    · rw [h] at h4
      obtain ⟨rfl, rfl⟩ := h4
      right
      rw [List.drop_zero] at h5
      refine ⟨hn, ?_, rfl⟩
      rw [h1]
      intro c hc
      rcases List.mem_append.1 hc with hc | hc
      · exact h2 c hc
      · exact h5 c hc
    · rw [g3] at h4
      obtain ⟨rfl, rfl⟩ := h4
      left
      rw [g1, List.drop_left] at h5
      exact ⟨lit, n, ⟨pre, r, by rw [h1, g1, List.append_assoc], h2, h5⟩, g2, rfl⟩
  · rintro (⟨lit, n, ⟨pre, post, rfl, h1, h2⟩, h3, rfl⟩ | ⟨h1, h2, rfl⟩)
    · obtain ⟨c, r, hl, hc, -⟩ := literal_first h3
      refine ⟨by rw [hl]; simp, pre, lit ++ post, lit.length, by rw [List.append_assoc], h1, ?_, by rw [strtoll_literal h3 h2], by rw [List.drop_left]; exact h2⟩
      intro c' r' hr
      rw [hl, List.cons_append, List.cons.injEq] at hr
      rw [← hr.1]; exact hc
    · exact ⟨h1, s, [], 0, by simp, h2, by simp, rfl, by simp [Blank]⟩

/-- So the value is exact if the literal fits into 64 bits. -/
theorem C56_int_exact (s lit : Str) (n : Int) (hs : Ascii s) (h1 : Between s lit) (h2 : Literal lit n) (h3 : Int64 n) : decodeInt s = .ok n := by
  rw [C56_int_partial s hs]
  refine Or.inl ⟨lit, n, h1, h2, ?_⟩
  unfold clamp
  obtain ⟨a, b⟩ := h3
  rw [if_neg (by omega), if_neg (by omega)]

/-- A string with something that is neither blank nor a literal does not decode. -/
theorem C56_int_only (s : Str) (v : Int) (hs : Ascii s) (h : decodeInt s = .ok v) (hb : ¬ Blank s) : ∃ lit n, Between s lit ∧ Literal lit n ∧ (Int64 n → v = n) := by
  rcases (C56_int_partial s hs v).1 h with ⟨lit, n, h1, h2, h3⟩ | ⟨-, h, -⟩
  · refine ⟨lit, n, h1, h2, fun h4 => ?_⟩
    rw [h3]
    unfold clamp
    obtain ⟨a, b⟩ := h4
    rw [if_neg (by omega), if_neg (by omega)]
  · exact absurd h hb

/-! ### Encoding -/

theorem digitChar_val {d : Nat} (h : d < 10) : digitVal (digitChar d) = d ∧ (d ≠ 0 → digitChar d ≠ '0') ∧ (digitChar d).toNat = 48 + d := by
  have : d = 0 ∨ d = 1 ∨ d = 2 ∨ d = 3 ∨ d = 4 ∨ d = 5 ∨ d = 6 ∨ d = 7 ∨ d = 8 ∨ d = 9 := by omega
  rcases this with rfl | rfl | rfl | rfl | rfl | rfl | rfl | rfl | rfl | rfl <;> decide

theorem decDigits_spec (n : Nat) : Number 10 (decDigits n) n ∧ (n ≠ 0 → ∃ c r, decDigits n = c :: r ∧ c ≠ '0') ∧ Ascii (decDigits n) := by
  induction n using Nat.strongRecOn with
  | ind n ih =>
    unfold decDigits
    split
    · rename_i h
      obtain ⟨h1, h2, h3⟩ := digitChar_val h
      refine ⟨?_, fun hn => ⟨_, [], rfl, h2 hn⟩, ?_⟩
      · have := Number.snoc (base := 10) [] 0 (digitChar n) n .nil ((digit_iff (by omega)).2 ⟨h1, h⟩)
        simpa using this
      · intro c hc
        simp at hc
        subst hc
        omega
    · rename_i h
      obtain ⟨i1, i2, i3⟩ := ih (n / 10) (by omega)
      have hm : n % 10 < 10 := Nat.mod_lt _ (by omega)
      obtain ⟨h1, h2, h3⟩ := digitChar_val hm
      refine ⟨?_, fun _ => ?_, ?_⟩
      · have := Number.snoc (base := 10) _ _ (digitChar (n % 10)) (n % 10) i1 ((digit_iff (by omega)).2 ⟨h1, hm⟩)
        have e : n / 10 * 10 + n % 10 = n := by omega
        rw [e] at this
        exact this
      · obtain ⟨c, r, hr, hc⟩ := i2 (by omega)
        exact ⟨c, r ++ [digitChar (n % 10)], by rw [hr]; rfl, hc⟩
      · intro c hc
        rcases List.mem_append.1 hc with hc | hc
        · exact i3 c hc
        · simp at hc; subst hc; omega

theorem decDigits_unsigned (n : Nat) : Unsigned (decDigits n) n := by
  by_cases hn : n = 0
  · subst hn
    have : decDigits 0 = ['0'] := by unfold decDigits; rfl
    rw [this]
    exact .oct [] 0 .nil
  · obtain ⟨h1, h2, -⟩ := decDigits_spec n
    obtain ⟨c, r, hr, hc⟩ := h2 hn
    rw [hr] at h1 ⊢
    exact .dec c r n hc h1

/-- The text of an integer is a literal of this integer. -/
theorem encodeInt_literal (v : Int) : Literal (encodeInt v) v ∧ Ascii (encodeInt v) := by
  unfold encodeInt
  split
  · have := Literal.minus _ _ (decDigits_unsigned v.natAbs)
    rw [show -(v.natAbs : Int) = v by omega] at this
    refine ⟨this, fun c hc => ?_⟩
    rcases List.mem_cons.1 hc with rfl | hc
    · exact Or.inl (by decide)
    · exact (decDigits_spec v.natAbs).2.2 c hc
  · have := Literal.plain _ _ (decDigits_unsigned v.natAbs)
    rw [show (v.natAbs : Int) = v by omega] at this
    exact ⟨this, (decDigits_spec v.natAbs).2.2⟩

/-- The digits of a positive number do not begin with a zero. -/
theorem decDigits_head (n : Nat) (h : 0 < n) : ∃ d r, decDigits n = digitChar d :: r ∧ 1 ≤ d ∧ d < 10 := by
  induction n using Nat.strongRecOn with
  | _ n ih =>
    rw [decDigits]
    split
    · exact ⟨n, [], rfl, by omega, by assumption⟩
    · obtain ⟨d, r, e, h1, h2⟩ := ih (n / 10) (by omega) (by omega)
      exact ⟨d, r ++ [digitChar (n % 10)], by rw [e]; rfl, h1, h2⟩

/-- The text of an integer is the usual one: a minus sign exactly for negative numbers, then the digits without leading
zeros. -/
theorem C56_int_text (v : Int) : ∃ ds : Str, encodeInt v = (if v < 0 then ['-'] else []) ++ ds ∧
    (v = 0 → ds = ['0']) ∧ (v ≠ 0 → ∃ c r, ds = c :: r ∧ c ∈ ['1', '2', '3', '4', '5', '6', '7', '8', '9']) := by
  refine ⟨decDigits v.natAbs, ?_, ?_, ?_⟩
  · unfold encodeInt; split <;> simp
  · rintro rfl; rw [decDigits]; decide
  · intro h
    obtain ⟨d, r, e, h1, h2⟩ := decDigits_head v.natAbs (by omega)
    refine ⟨_, r, e, ?_⟩
    have : ∀ d : Fin 10, 1 ≤ d.val → digitChar d.val ∈ ['1', '2', '3', '4', '5', '6', '7', '8', '9'] := by decide
    exact this ⟨d, h2⟩ h1

example : encodeInt 0 = ['0'] ∧ encodeInt (-305) = ['-', '3', '0', '5'] := by decide +kernel

/-- Decoding the text produced for an integer returns that integer. -/
theorem C56_int_roundtrip (v : Int) (h : Int64 v) : decodeInt (encodeInt v) = .ok v :=
  C56_int_exact _ (encodeInt v) v (encodeInt_literal v).2 ⟨[], [], by simp, by simp [Blank], by simp [Blank]⟩ (encodeInt_literal v).1 h

/-! ## Booleans -/

theorem toLower_blank {c : Char} (h : isSpace c = true) : c.toLower = c := by
  rw [isSpace_iff] at h
  unfold Char.toLower
  split
  · rename_i h1
    have e : c.val.toNat = c.toNat := rfl
    have h2 : 'A'.val ≤ c.val := by simpa using h1.1
    have : 'A'.val.toNat ≤ c.val.toNat := h2
    have : 'A'.val.toNat = 65 := rfl
    omega
  · rfl

theorem take_takeWhile_prefix (p : Char → Bool) (n : Nat) (s : Str) : (s.take n).takeWhile p <+: s := List.IsPrefix.trans (List.takeWhile_prefix _) (List.take_prefix _ _)

theorem strtobool_some {s : Str} {b : Bool} {e : Nat} (h : strtobool s = some (b, some e)) : ∃ w r, s = w ++ r ∧ w.map Char.toLower ∈ words b ∧ w.length = e := by
  unfold strtobool at h
  cases ht : lowered s with
  | none => rw [ht] at h; simp at h
  | some t =>
    rw [ht] at h
    simp only at h
    have hpre : ∃ t', t' <+: s ∧ t = t'.map Char.toLower := by
      unfold lowered at ht
      simp only at ht
      split at ht
      · exact ⟨_, take_takeWhile_prefix _ _ _, (Option.some.inj ht).symm⟩
      · simp at ht
    obtain ⟨t', ⟨r', hr'⟩, htl⟩ := hpre
    have key : ∀ p : Str, matches_ p t = true → ∃ w r, s = w ++ r ∧ w.map Char.toLower = p ∧ w.length = p.length := by
      intro p hp
      rw [matches_, List.isPrefixOf_iff_prefix] at hp
      obtain ⟨q, hq⟩ := hp
      refine ⟨t'.take p.length, t'.drop p.length ++ r', by rw [← List.append_assoc, List.take_append_drop]; exact hr'.symm, ?_, ?_⟩
      · rw [List.map_take, ← htl, ← hq, List.take_left]
      · have : t.length = t'.length := by rw [htl, List.length_map]
        rw [List.length_take]
        have : p.length + q.length = t.length := by rw [← hq, List.length_append]
        omega
    cases h1 : truePatterns.find? (fun p => matches_ p t) with
    | some p =>
      rw [h1] at h
      simp only [Option.some.injEq, Prod.mk.injEq] at h
      obtain ⟨rfl, rfl⟩ := h
      obtain ⟨w, r, e1, e2, e3⟩ := key p (by simpa using List.find?_some h1)
      exact ⟨w, r, e1, by rw [e2]; exact List.mem_of_find?_eq_some h1, e3⟩
    | none =>
      rw [h1] at h
      simp only at h
      cases h2 : falsePatterns.find? (fun p => matches_ p t) with
      | some p =>
        rw [h2] at h
        simp only [Option.some.injEq, Prod.mk.injEq] at h
        obtain ⟨rfl, rfl⟩ := h
        obtain ⟨w, r, e1, e2, e3⟩ := key p (by simpa using List.find?_some h2)
        exact ⟨w, r, e1, by rw [e2]; exact List.mem_of_find?_eq_some h2, e3⟩
      | none => rw [h2] at h; simp at h

/-- The search in the patterns for a word followed by blanks. -/
theorem find_word (b : Bool) (p : Str) (hp : p ∈ words b) (u : Str) (hu : Blank u) :
    (match truePatterns.find? (fun q => matches_ q (p ++ u)) with
    | some q => some (true, some q.length)
    | none =>
      match falsePatterns.find? (fun q => matches_ q (p ++ u)) with
      | some q => some (false, some q.length)
      | none => some (false, none)) = some (b, some p.length) := by
  have hne : ∀ c r, u = c :: r → ∀ x : Char, 33 ≤ x.toNat → (x == c) = false := by
    rintro c r rfl x hx
    have := hu c (by simp)
    simp only [beq_eq_false_iff_ne]
    rintro rfl
    omega
  cases b with
  | true =>
    simp only [words, List.mem_cons, List.not_mem_nil, or_false] at hp
    rcases hp with rfl | rfl | rfl | rfl | rfl | rfl
    all_goals
      cases u with
      | nil => decide
      | cons c r =>
        have he := hne c r rfl 'e' (by decide)
        have hr := hne c r rfl 'r' (by decide)
        simp [truePatterns, matches_, List.isPrefixOf, he, hr, List.find?]
  | false =>
    simp only [words, List.mem_cons, List.not_mem_nil, or_false] at hp
    rcases hp with rfl | rfl | rfl | rfl | rfl | rfl
    all_goals
      cases u with
      | nil => decide
      | cons c r =>
        have he := hne c r rfl 'o' (by decide)
        have hr := hne c r rfl 'a' (by decide)
        simp [truePatterns, falsePatterns, matches_, List.isPrefixOf, he, hr, List.find?]

theorem words_facts (b : Bool) (p : Str) (hp : p ∈ words b) : p.length ≤ 5 ∧ p ≠ [] ∧ ∀ x ∈ p, 48 ≤ x.toNat := by
  cases b with
  | true =>
    simp only [words, List.mem_cons, List.not_mem_nil, or_false] at hp
    rcases hp with rfl | rfl | rfl | rfl | rfl | rfl <;> decide
  | false =>
    simp only [words, List.mem_cons, List.not_mem_nil, or_false] at hp
    rcases hp with rfl | rfl | rfl | rfl | rfl | rfl <;> decide

theorem toLower_code {c : Char} (h : 48 ≤ c.toLower.toNat) : 48 ≤ c.toNat := by
  by_cases hc : isSpace c = true
  · rw [toLower_blank hc] at h; exact h
  · unfold Char.toLower at h
    split at h
    · rename_i h1
      have h2 : 'A'.val ≤ c.val := by simpa using h1.1
      have : 'A'.val.toNat ≤ c.val.toNat := h2
      have : 'A'.val.toNat = 65 := rfl
      have e : c.val.toNat = c.toNat := rfl
      omega
    · exact h

theorem strtobool_word {w post : Str} {b : Bool} (h : w.map Char.toLower ∈ words b) (hp : Blank post) (ha : Ascii w) : strtobool (w ++ post) = some (b, some w.length) := by
  obtain ⟨h1, h2, h3⟩ := words_facts b _ h
  rw [List.length_map] at h1
  have hw : ∀ c ∈ w, 48 ≤ c.toNat := fun c hc => toLower_code (h3 _ (List.mem_map_of_mem hc))
  have ht : ((w ++ post).take patternLength).takeWhile (fun c => decide (c.toNat ≠ 0)) = w ++ post.take (patternLength - w.length) := by
    rw [List.take_append, List.take_of_length_le (show w.length ≤ patternLength by simp [patternLength]; omega)]
    have := takeWhile_append_stop (p := fun c => decide (c.toNat ≠ 0)) (ds := w ++ post.take (patternLength - w.length)) (post := []) ?_ (by simp)
    · rwa [List.append_nil] at this
    intro c hc
    rcases List.mem_append.1 hc with hc | hc
    · have := hw c hc; simp; omega
    · have := hp c (List.mem_of_mem_take hc); simp; omega
  have hpost : Blank (post.take (patternLength - w.length)) := fun c hc => hp c (List.mem_of_mem_take hc)
  have hl : lowered (w ++ post) = some (w.map Char.toLower ++ post.take (patternLength - w.length)) := by
    unfold lowered
    simp only [ht]
    rw [if_pos]
    · rw [List.map_append]
      have : ∀ (l : Str), Blank l → l.map Char.toLower = l := by
        intro l hl
        induction l with
        | nil => rfl
        | cons c l ih =>
          obtain ⟨g1, g2⟩ := blank_cons.1 hl
          rw [List.map_cons, ih g2, toLower_blank g1]
      rw [this _ hpost]
    · rw [List.all_eq_true]
      intro c hc
      rw [classified_iff]
      rcases List.mem_append.1 hc with hc | hc
      · exact ha c hc
      · exact blank_ascii hpost c hc
  unfold strtobool
  rw [hl]
  have := find_word b _ h _ hpost
  rw [List.length_map] at this
  exact this

/-- A string decodes to a boolean exactly if it is one of its words in any case, between blanks. -/
theorem C56_bool (s : Str) (hs : Ascii s) (b : Bool) : decodeBool s = .ok b ↔ ∃ w, Between s w ∧ w.map Char.toLower ∈ words b := by
  unfold decodeBool
  have hle : ∀ t w e, strtobool t = some (w, some e) → e ≤ t.length := by
    intro t w e h
    obtain ⟨w', r, h1, -, h3⟩ := strtobool_some h
    rw [h1, ← h3]; simp
  rw [decode_ok hs b hle]
  constructor
  · rintro ⟨hn, pre, rest, e, h1, h2, h3, h4, h5⟩
    obtain ⟨w, r, g1, g2, g3⟩ := strtobool_some h4
    rw [g1, ← g3, List.drop_left] at h5
    exact ⟨w, ⟨pre, r, by rw [h1, g1, List.append_assoc], h2, h5⟩, g2⟩
  · rintro ⟨w, ⟨pre, post, rfl, h1, h2⟩, h3⟩
    obtain ⟨f1, f2, f3⟩ := words_facts b _ h3
    have hne : w ≠ [] := by rintro rfl; exact f2 rfl
    refine ⟨by simp [hne], pre, w ++ post, w.length, by rw [List.append_assoc], h1, ?_, strtobool_word h3 h2 (fun c hc => hs c (by simp [hc])), by rw [List.drop_left]; exact h2⟩
    intro c r hr
    cases w with
    | nil => exact absurd rfl hne
    | cons a w =>
      rw [List.cons_append, List.cons.injEq] at hr
      have := toLower_code (f3 a.toLower (by simp))
      rw [← hr.1]
      cases e : isSpace a with
      | false => rfl
      | true => rw [isSpace_iff] at e; omega

theorem C56_bool_roundtrip (b : Bool) : decodeBool (encodeBool b) = .ok b := by cases b <;> decide

/-! ## Where the full property fails -/

/-- A string of blanks decodes to zero though it has no literal. -/
theorem C56_blank_violated : decodeInt [' '] = .ok 0 ∧ ∀ lit n, Between [' '] lit → ¬ Literal lit n := by
  refine ⟨by decide, ?_⟩
  rintro lit n ⟨pre, post, h, -, -⟩ hl
  obtain ⟨c, r, rfl, hc, -⟩ := literal_first hl
  have : c ∈ [' '] := by rw [h]; simp
  simp at this
  subst this
  exact absurd hc (by decide)

/-- The literal `2^63` decodes to another number. -/
theorem C56_overflow_violated : decodeInt "9223372036854775808".toList = .ok 9223372036854775807 ∧ Literal "9223372036854775808".toList 9223372036854775808 := by
  refine ⟨by decide +kernel, ?_⟩
  exact .plain _ _ (.dec '9' "223372036854775808".toList _ (by decide) ((number_iff (by omega)).2 ⟨by decide, by decide +kernel⟩))

/-- A byte over 127 gives undefined behaviour. -/
theorem C56_ub_violated : decodeInt [Char.ofNat 233] = .ub ∧ decodeBool ['y', Char.ofNat 233] = .ub := by decide

/-- That is the only reason for it. -/
theorem C56_ub (s : Str) (hs : Ascii s) : decodeInt s ≠ .ub ∧ decodeBool s ≠ .ub := by
  have key : ∀ {α : Type} (decoder : Str → Option (α × Option Nat)), (∀ t, Ascii t → decoder t ≠ none) → decode decoder s ≠ .ub := by
    intro α decoder hd
    obtain ⟨k, hk⟩ := skip_ascii hs
    have ha : ∀ n, Ascii (s.drop n) := fun n c hc => hs c (List.mem_of_mem_drop hc)
    unfold decode
    rw [hk]
    simp only
    split
    · simp
    · cases hdec : decoder (s.drop k) with
      | none => exact absurd hdec (hd _ (ha k))
      | some p =>
        obtain ⟨v, oe⟩ := p
        cases oe with
        | none => simp
        | some e =>
          simp only
          split
          · simp
          · obtain ⟨j, hj⟩ := skip_ascii (s := (s.drop k).drop e) (by rw [List.drop_drop]; exact ha _)
            rw [hj]
            simp only
            split <;> simp
  refine ⟨key _ (by simp), key _ (fun t ht => ?_)⟩
  unfold strtobool
  have : lowered t ≠ none := by
    unfold lowered
    simp only
    rw [if_pos]
    · simp
    · rw [List.all_eq_true]
      intro c hc
      rw [classified_iff]
      exact ht c ((take_takeWhile_prefix _ _ _).subset hc)
  cases hl : lowered t with
  | none => exact absurd hl this
  | some u =>
    simp only
    split
    · simp
    · split <;> simp

/-! ## C59: reading a stored value as another type -/

/-- the type of a value -/
def Stored.has {R : Type} : Stored R → Ty → Prop
  | .integer _, .integer => True
  | .real _, .real => True
  | .boolean _, .boolean => True
  | .string _, .string => True
  | _, _ => False

/-- The result has the asked type or there is none; reading as the stored type gives the stored value. -/
theorem C59_type {R : Type} (ops : Real R) (t : Ty) (v w : Stored R) (h : get ops t v = some w) : (w = .empty ∨ w.has t) ∧ (v.has t → w = v) := by
  unfold get at h
  cases ha : apply ops t v with
  | none => rw [ha] at h; simp at h
  | some x =>
    rw [ha] at h
    simp only [Option.map_some, Option.some.injEq] at h
    subst h
    constructor
    · cases x <;> cases t <;> simp [Stored.asType, Stored.has]
    · intro hv
      cases v <;> cases t <;> simp [Stored.has] at hv <;> simp [apply] at ha <;> subst ha <;> rfl

/-- Reading a string as an integer or a boolean gives what it spells, and nothing if it spells none. -/
theorem C59_string {R : Type} (ops : Real R) (s : Str) (hs : Ascii s) :
    (∀ w, get ops .integer (.string s) = some w → (∀ n, w = .integer n ↔ decodeInt s = .ok n) ∧ ((∀ n, decodeInt s ≠ .ok n) → w = .empty)) ∧
    (∀ w, get ops .boolean (.string s) = some w → (∀ b, w = .boolean b ↔ decodeBool s = .ok b) ∧ ((∀ b, decodeBool s ≠ .ok b) → w = .empty)) := by
  constructor
  · intro w h
    simp only [get, apply] at h
    cases e : decodeInt s with
    | ub => exact absurd e (C56_ub s hs).1
    | fail => rw [e] at h; simp [fromString, Stored.asType] at h; subst h; simp
    | ok n => rw [e] at h; simp [fromString, Stored.asType] at h; subst h; simp
  · intro w h
    simp only [get, apply] at h
    cases e : decodeBool s with
    | ub => exact absurd e (C56_ub s hs).2
    | fail => rw [e] at h; simp [fromString, Stored.asType] at h; subst h; simp
    | ok n => rw [e] at h; simp [fromString, Stored.asType] at h; subst h; simp

/-- Reading as a string and back gives the integer or the boolean again. -/
theorem C59_roundtrip {R : Type} (ops : Real R) :
    (∀ n : Int, Int64 n → (get ops .string (.integer n)).bind (get ops .integer) = some (.integer n)) ∧
    (∀ b : Bool, (get ops .string (.boolean b)).bind (get ops .boolean) = some (.boolean b)) ∧
    (∀ b : Bool, (get ops .integer (.boolean b)).bind (get ops .boolean) = some (.boolean b)) := by
  refine ⟨fun n hn => ?_, fun b => ?_, fun b => ?_⟩
  · simp [get, apply, Stored.asType, fromString, C56_int_roundtrip n hn]
  · simp [get, apply, Stored.asType, fromString, C56_bool_roundtrip b]
  · cases b <;> simp [get, apply, Stored.asType]

/-- A number of type `double` is read as an integer only if it equals that integer. -/
theorem C59_real {R : Type} (ops : Real R) (r : R) (n : Int) : get ops .integer (.real r) = some (.integer n) ↔ ops.toInt r = some n ∧ ops.eq r (ops.ofInt n) = true := by
  simp only [get, apply]
  cases h : ops.toInt r with
  | none => simp
  | some m =>
    simp only [Option.some.injEq]
    by_cases he : ops.eq r (ops.ofInt m) = true
    · rw [if_pos he]
      simp only [Option.map_some, Stored.asType, Option.some.injEq, Stored.integer.injEq]
      constructor
      · rintro rfl; exact ⟨rfl, he⟩
      · exact fun h => h.1
    · rw [if_neg he]
      simp only [Option.map_some, Stored.asType, Option.some.injEq, reduceCtorEq, false_iff]
      rintro ⟨rfl, h⟩
      exact he h

/-- Undefined behaviour comes only from a `double` outside of the range of the integers, or from a byte over 127. -/
theorem C59_ub {R : Type} (ops : Real R) (t : Ty) (v : Stored R) (hr : ∀ r, v = .real r → ops.toInt r ≠ none) (hs : ∀ s, v = .string s → Ascii s ∧ ops.parse s ≠ .ub) : get ops t v ≠ none := by
  cases v with
  | empty => simp [get, apply]
  | integer n => cases t <;> simp [get, apply]
  | boolean b => cases t <;> simp [get, apply]
  | real r =>
    have := hr r rfl
    cases t with
    | integer =>
      cases h : ops.toInt r with
      | none => exact absurd h this
      | some n =>
        simp only [get, apply, h]
        split <;> simp
    | _ => simp [get, apply]
  | string s =>
    obtain ⟨h1, h2⟩ := hs s rfl
    obtain ⟨h3, h4⟩ := C56_ub s h1
    cases t with
    | string => simp [get, apply]
    | integer =>
      cases h : decodeInt s with
      | ub => exact absurd h h3
      | fail => simp [get, apply, h, fromString]
      | ok n => simp [get, apply, h, fromString]
    | boolean =>
      cases h : decodeBool s with
      | ub => exact absurd h h4
      | fail => simp [get, apply, h, fromString]
      | ok n => simp [get, apply, h, fromString]
    | real =>
      cases h : ops.parse s with
      | ub => exact absurd h h2
      | fail => simp [get, apply, h, fromString]
      | ok n => simp [get, apply, h, fromString]

/-! ## Non-vacuity -/

example : decodeInt "  -0x1F\t".toList = .ok (-31) ∧ decodeInt "010".toList = .ok 8 ∧ decodeInt "08".toList = .fail ∧ decodeInt "1 2".toList = .fail ∧ decodeInt "0x".toList = .fail := by decide +kernel
example : decodeBool " YeS ".toList = .ok true ∧ decodeBool "off".toList = .ok false ∧ decodeBool "yess".toList = .fail ∧ decodeBool "  ".toList = .fail := by decide +kernel
example : encodeInt (-120) = "-120".toList := by decide +kernel
example : Int64 (-9223372036854775808) ∧ Literal "+12".toList 12 ∧ Between " +12".toList "+12".toList := by
  refine ⟨by constructor <;> decide, .plus _ _ (.dec '1' ['2'] _ (by decide) ((number_iff (by omega)).2 ⟨by decide, by decide⟩)), [' '], [], by decide, ?_, by simp [Blank]⟩
  simp [Blank]

end Verif.ScalarText
