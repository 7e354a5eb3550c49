import Verif.Model.Decode
import Verif.Props.C103_Reals

/-!
# C104: serializers: characters in memory with a length, and conversions between scalars

`serializer<T>::cvt_from(str, len, &value)` reads the value that is spelled by the first `len` characters, between blanks; with `nolength` by the characters before the zero byte. `serializer<T>::cvt_from`
for other scalars converts exactly, and as reading from a config does.
-/
set_option autoImplicit false
set_option exponentiation.threshold 3000

namespace Verif.Decode

open Verif.Config (Str)
open Verif.ScalarText
open Verif.Reals (Num RealLit strtod strtod_some strtod_lit strtod_len lit_first val)

/-! ## Specification -/

/-- The memory has the text followed by a zero byte. -/
def Text (mem s : Str) : Prop := nul ∉ s ∧ ∃ q, mem = s ++ nul :: q

/-! ## Memory -/

theorem skipMem_some {mem : Str} {b : Nat} (h : skipMem mem = some b) : ∃ pre c r, mem = pre ++ c :: r ∧ pre.length = b ∧ Blank pre ∧ isSpace c = false := by
  induction mem generalizing b with
  | nil => cases h
  | cons c r ih =>
    rw [skipMem] at h
    split at h
    · split at h
      · rename_i hs
        obtain ⟨k, hk, rfl⟩ := Option.map_eq_some_iff.1 h
        obtain ⟨pre, c', r', h1, h2, h3, h4⟩ := ih hk
        refine ⟨c :: pre, c', r', by rw [h1]; rfl, by simp [h2], ?_, h4⟩
        intro x hx
        rcases List.mem_cons.1 hx with rfl | hx
        · exact isSpace_iff.1 hs
        · exact h3 x hx
      · rename_i hs
        cases h
        exact ⟨[], c, r, rfl, rfl, by simp [Blank], by simpa using hs⟩
    · cases h

theorem skipMem_text (s q : Str) : skipMem (s ++ nul :: q) = skipSpaces s := by
  induction s with
  | nil => rfl
  | cons c r ih => rw [List.cons_append, skipMem, skipSpaces, ih]

theorem cstr_text {s q : Str} (h : nul ∉ s) : cstr (s ++ nul :: q) = some s := by
  induction s with
  | nil => simp [cstr]
  | cons c r ih =>
    rw [List.cons_append, cstr, if_neg (fun e => h (by rw [e]; simp)), ih (fun e => h (List.mem_cons_of_mem _ e))]
    rfl

theorem cstr_some {mem s : Str} (h : cstr mem = some s) : Text mem s := by
  induction mem generalizing s with
  | nil => cases h
  | cons c r ih =>
    rw [cstr] at h
    split at h
    · rename_i hc
      cases h
      exact ⟨by simp, r, by rw [hc]; rfl⟩
    · rename_i hc
      obtain ⟨t, ht, rfl⟩ := Option.map_eq_some_iff.1 h
      obtain ⟨h1, q, h2⟩ := ih ht
      refine ⟨fun e => ?_, q, by rw [h2]; rfl⟩
      rcases List.mem_cons.1 e with e | e
      · exact hc e.symm
      · exact h1 e

theorem skip_le {s : Str} {b : Nat} (h : skipSpaces s = some b) : b ≤ s.length := by
  induction s generalizing b with
  | nil => cases h; simp
  | cons c r ih =>
    rw [skipSpaces] at h
    split at h
    · split at h
      · obtain ⟨k, hk, rfl⟩ := Option.map_eq_some_iff.1 h
        have := ih hk
        simp; omega
      · cases h; simp
    · cases h

/-- What a successful call has found. -/
theorem decodeMem_ok {α : Type} {d : Str → Option (α × Option Nat)} {mem : Str} {n : Nat} {v : α} (hle : ∀ t w e, d t = some (w, some e) → e ≤ t.length)
    (h : decodeMem d (some mem) (.count n) = .ok v) :
    ∃ pre mid post rest, mem.take n = pre ++ mid ++ post ∧ Blank pre ∧ Blank post ∧ mem = pre ++ rest ∧ (∀ c r, rest = c :: r → isSpace c = false) ∧ d rest = some (v, some mid.length) ∧ mid = rest.take mid.length := by
  unfold decodeMem at h
  simp only at h
  split at h
  · cases h
  cases hs : skipMem mem with
  | none => rw [hs] at h; cases h
  | some b =>
    obtain ⟨pre, c, r, rfl, rfl, hb, hc⟩ := skipMem_some hs
    rw [hs] at h
    simp only [List.drop_left] at h
    unfold restLen at h
    by_cases hn : pre.length ≤ n ∧ n ≤ (pre ++ c :: r).length
    · simp only [if_pos hn] at h
      cases hd : d (c :: r) with
      | none => rw [hd] at h; cases h
      | some p =>
        obtain ⟨w, _ | e⟩ := p
        · rw [hd] at h; cases h
        rw [hd] at h
        simp only at h
        have hel := hle _ _ _ hd
        have fin : ∀ k, e + k = n - pre.length → Blank (((c :: r).drop e).take k) → w = v → ∃ pre' mid post rest, (pre ++ c :: r).take n = pre' ++ mid ++ post ∧ Blank pre' ∧ Blank post ∧
            pre ++ c :: r = pre' ++ rest ∧ (∀ c r, rest = c :: r → isSpace c = false) ∧ d rest = some (v, some mid.length) ∧ mid = rest.take mid.length := by
          intro k hk hbl hw
          have hml : ((c :: r).take e).length = e := by rw [List.length_take]; omega
          refine ⟨pre, (c :: r).take e, ((c :: r).drop e).take k, c :: r, ?_, hb, hbl, rfl, ?_, by rw [hml, hd, hw], by rw [hml]⟩
          · rw [List.take_append, List.take_of_length_le hn.1, ← hk, List.append_assoc, List.take_add]
          · intro c' r' e'
            rw [← (List.cons.inj e').1]; exact hc
        by_cases he : e = n - pre.length
        · rw [if_pos he] at h
          cases h
          exact fin 0 (by omega) (by simp [Blank]) rfl
        · rw [if_neg he] at h
          cases hk : skipMem ((c :: r).drop e) with
          | none => rw [hk] at h; cases h
          | some k =>
            rw [hk] at h
            simp only at h
            by_cases hek : e + k = n - pre.length
            · rw [if_pos hek] at h
              cases h
              obtain ⟨p', c', r', h1, h2, h3, -⟩ := skipMem_some hk
              refine fin k hek ?_ rfl
              rw [h1, ← h2, List.take_left]; exact h3
            · rw [if_neg hek] at h; cases h
    · simp only [if_neg hn] at h
      cases h

theorem nonblank_prefix {rest s : Str} (h : ∀ c r, rest = c :: r → isSpace c = false) (hs : Text rest s) : ∀ c r, s = c :: r → isSpace c = false := by
  obtain ⟨-, q, rfl⟩ := hs
  rintro c r rfl
  exact h c _ rfl

theorem library_some {α : Type} {f : Str → α × Nat} {rest : Str} {v : α} {e : Nat} (h : library f rest = some (v, some e)) : ∃ s, Text rest s ∧ f s = (v, e) := by
  unfold library at h
  cases hc : cstr rest with
  | none => rw [hc] at h; cases h
  | some s =>
    rw [hc] at h
    simp only [Option.some.injEq, Prod.mk.injEq] at h
    exact ⟨s, cstr_some hc, Prod.ext h.1 h.2⟩

theorem library_len {α : Type} {f : Str → α × Nat} (hf : ∀ t w e, some ((f t).1, some (f t).2) = some (w, some e) → e ≤ t.length) (t : Str) (w : α) (e : Nat) (h : library f t = some (w, some e)) : e ≤ t.length := by
  obtain ⟨s, ⟨-, q, rfl⟩, h2⟩ := library_some h
  have := hf s w e (by rw [h2])
  rw [List.length_append]; omega

theorem strtoll_len (t : Str) (w : Int) (e : Nat) (h : some ((strtoll t).1, some (strtoll t).2) = some (w, some e)) : e ≤ t.length := by
  simp only [Option.some.injEq, Prod.mk.injEq] at h
  rw [← h.2]
  unfold strtoll
  simp only
  split
  · exact Nat.zero_le _
  · rename_i hne
    have h1 : (t.takeWhile isSpace).length ≤ t.length := (List.takeWhile_prefix _).length_le
    have h2 := (List.takeWhile_prefix (l := List.drop (baseOf (List.drop (signOf (List.drop (t.takeWhile isSpace).length t)).2 (List.drop (t.takeWhile isSpace).length t))).2
      (List.drop (signOf (List.drop (t.takeWhile isSpace).length t)).2 (List.drop (t.takeWhile isSpace).length t)))
      (fun c => decide (digitVal c < (baseOf (List.drop (signOf (List.drop (t.takeWhile isSpace).length t)).2 (List.drop (t.takeWhile isSpace).length t))).1))).length_le
    have h3 : List.length (List.takeWhile (fun c => decide (digitVal c < (baseOf (List.drop (signOf (List.drop (t.takeWhile isSpace).length t)).2 (List.drop (t.takeWhile isSpace).length t))).1))
      (List.drop (baseOf (List.drop (signOf (List.drop (t.takeWhile isSpace).length t)).2 (List.drop (t.takeWhile isSpace).length t))).2
      (List.drop (signOf (List.drop (t.takeWhile isSpace).length t)).2 (List.drop (t.takeWhile isSpace).length t)))) ≠ 0 := by
      intro e0; exact hne (List.length_eq_zero_iff.1 e0)
    simp only [List.length_drop] at h2
    omega

/-! ## What is read is spelled by the first characters -/

theorem blank_append {a b : Str} (ha : Blank a) (hb : Blank b) : Blank (a ++ b) := by
  intro c hc
  rcases List.mem_append.1 hc with hc | hc
  · exact ha c hc
  · exact hb c hc

/-- An integer that is read from memory is spelled by the first characters, between blanks (the nearest one of 64 bits is read); or they are blanks, and it is zero. -/
theorem C104_int_only (mem : Str) (n : Nat) (v : Int) (h : intMem (some mem) (.count n) = .ok v) :
    (∃ lit i, Between (mem.take n) lit ∧ Literal lit i ∧ v = clamp i) ∨ (Blank (mem.take n) ∧ v = 0) := by
  obtain ⟨pre, mid, post, rest, h1, h2, h3, -, h5, h6, h7⟩ := decodeMem_ok (library_len strtoll_len) h
  obtain ⟨s, ht, hs⟩ := library_some h6
  rcases strtoll_some (nonblank_prefix h5 ht) with h0 | ⟨lit, r, i, g1, g2, g3⟩
  · right
    rw [h0] at hs
    obtain ⟨rfl, hm⟩ := Prod.mk.inj hs
    have : mid = [] := List.length_eq_zero_iff.1 hm.symm
    rw [h1, this, List.append_nil]
    exact ⟨blank_append h2 h3, rfl⟩
  · left
    rw [g3] at hs
    obtain ⟨rfl, hm⟩ := Prod.mk.inj hs
    have : mid = lit := by
      obtain ⟨-, q, rfl⟩ := ht
      rw [h7, ← hm, g1, List.append_assoc, List.take_left]
    exact ⟨lit, i, ⟨pre, post, by rw [h1, this], h2, h3⟩, g2, rfl⟩

/-- So is a real number. -/
theorem C104_real_only (mem : Str) (n : Nat) (v : Num) (h : realMem (some mem) (.count n) = .ok v) :
    (∃ lit, Between (mem.take n) lit ∧ RealLit lit v) ∨ (Blank (mem.take n) ∧ v = .fin false 0) := by
  obtain ⟨pre, mid, post, rest, h1, h2, h3, -, h5, h6, h7⟩ := decodeMem_ok (library_len strtod_len) h
  obtain ⟨s, ht, hs⟩ := library_some h6
  rcases strtod_some (nonblank_prefix h5 ht) with h0 | ⟨lit, r, i, g1, g2, g3⟩
  · right
    rw [h0] at hs
    obtain ⟨rfl, hm⟩ := Prod.mk.inj hs
    have : mid = [] := List.length_eq_zero_iff.1 hm.symm
    rw [h1, this, List.append_nil]
    exact ⟨blank_append h2 h3, rfl⟩
  · left
    rw [g3] at hs
    obtain ⟨rfl, hm⟩ := Prod.mk.inj hs
    have : mid = lit := by
      obtain ⟨-, q, rfl⟩ := ht
      rw [h7, ← hm, g1, List.append_assoc, List.take_left]
    exact ⟨lit, ⟨pre, post, by rw [h1, this], h2, h3⟩, g2⟩

theorem boolDecoder_some {t : Str} {b : Bool} {e : Nat} (h : boolDecoder t = some (b, some e)) : ∃ w r, t = w ++ r ∧ w.map Char.toLower ∈ words b ∧ w.length = e := by
  unfold boolDecoder at h
  split at h
  · obtain ⟨w, r, h1, h2, h3⟩ := strtobool_some h
    obtain ⟨q, hq⟩ := List.takeWhile_prefix (l := t) (fun c => decide (c ≠ nul))
    refine ⟨w, r ++ q, ?_, h2, h3⟩
    rw [h1] at hq
    rw [← hq, List.append_assoc]
  · cases h

/-- A boolean that is read from memory is one of the words for it, which are the first characters, between blanks. -/
theorem C104_bool_only (mem : Str) (n : Nat) (b : Bool) (h : boolMem (some mem) (.count n) = .ok b) : ∃ w, Between (mem.take n) w ∧ w.map Char.toLower ∈ words b := by
  have hle : ∀ t w e, boolDecoder t = some (w, some e) → e ≤ t.length := by
    intro t w e h
    obtain ⟨u, r, rfl, -, rfl⟩ := boolDecoder_some h
    rw [List.length_append]; omega
  obtain ⟨pre, mid, post, rest, h1, h2, h3, -, h5, h6, h7⟩ := decodeMem_ok hle h
  obtain ⟨w, r, rfl, g2, g3⟩ := boolDecoder_some h6
  have : mid = w := by rw [h7, ← g3, List.take_left]
  exact ⟨w, ⟨pre, post, by rw [h1, this], h2, h3⟩, g2⟩

/-! ## Text that ends with a zero byte -/

/-- If the zero byte comes right after the characters, as in a string, or if no length is given, then the characters are decoded like a string. -/
theorem decode_text {α : Type} {d d' : Str → Option (α × Option Nat)} (hd : ∀ s q, nul ∉ s → d (s ++ nul :: q) = d' s) (hle : ∀ t w e, d' t = some (w, some e) → e ≤ t.length)
    {mem s : Str} (ht : Text mem s) (len : Len) (hlen : len = .count s.length ∨ (len = .nolength ∧ s ≠ [])) : decodeMem d (some mem) len = decode d' s := by
  obtain ⟨hz, q, rfl⟩ := ht
  unfold decodeMem decode
  by_cases h0 : s = []
  · rcases hlen with rfl | ⟨-, h⟩
    · subst h0; rfl
    · exact absurd h0 h
  have hl0 : len ≠ .count 0 := by
    rcases hlen with rfl | ⟨rfl, -⟩
    · intro e
      have : s.length = 0 := by injection e
      exact h0 (List.length_eq_zero_iff.1 this)
    · intro e; cases e
  simp only [if_neg h0, if_neg hl0, skipMem_text]
  cases hs : skipSpaces s with
  | none => rfl
  | some b =>
    have hb := skip_le hs
    have hdrop : (s ++ nul :: q).drop b = s.drop b ++ nul :: q := List.drop_append_of_le_length hb
    have hz' : nul ∉ s.drop b := fun e => hz (List.mem_of_mem_drop e)
    have hrest : restLen (s ++ nul :: q) b len = some (s.drop b).length := by
      rcases hlen with rfl | ⟨rfl, -⟩
      · show (if b ≤ s.length ∧ s.length ≤ (s ++ nul :: q).length then some (s.length - b) else none) = _
        rw [if_pos ⟨hb, by simp⟩, List.length_drop]
      · unfold restLen
        simp only
        rw [hdrop, cstr_text hz']; rfl
    simp only [hrest, hdrop, hd _ q hz']
    cases hdd : d' (s.drop b) with
    | none => rfl
    | some p =>
      obtain ⟨v, _ | e⟩ := p
      · rfl
      simp only
      by_cases he : e = (s.drop b).length
      · rw [if_pos he, if_pos he]
      · rw [if_neg he, if_neg he, List.drop_append_of_le_length (hle _ _ _ hdd), skipMem_text]
        cases skipSpaces (List.drop e (List.drop b s)) <;> rfl

theorem library_text {α : Type} (f : Str → α × Nat) (s q : Str) (h : nul ∉ s) : library f (s ++ nul :: q) = some ((f s).1, some (f s).2) := by
  unfold library
  rw [cstr_text h]

theorem takeWhile_nul {s q : Str} (h : nul ∉ s) : (s ++ nul :: q).takeWhile (fun c => decide (c ≠ nul)) = s := by
  refine takeWhile_append_stop ?_ ?_
  · intro c hc
    simp only [decide_eq_true_eq]
    rintro rfl
    exact h hc
  · intro c r e
    rw [← (List.cons.inj e).1]
    simp

theorem boolDecoder_text (s q : Str) (h : nul ∉ s) : boolDecoder (s ++ nul :: q) = strtobool s := by
  unfold boolDecoder
  rw [takeWhile_nul h, if_pos]
  by_cases hl : s.length < patternLength + 1
  · left
    rw [List.take_append, List.take_of_length_le (by omega)]
    obtain ⟨k, hk⟩ : ∃ k, patternLength + 1 - s.length = k + 1 := ⟨patternLength - s.length, by omega⟩
    rw [hk]; simp
  · right
    rw [List.length_append]; omega

/-- Characters with a zero byte right after them are read exactly as the string of them: by C56, if and only if they spell a value. With `nolength` this is the C string, if it is not empty.

Missing: other characters after the given ones (`C104_length_violated`), and an empty C string (`C104_empty_violated`). -/
theorem C104_text_partial (mem s : Str) (ht : Text mem s) (len : Len) (hlen : len = .count s.length ∨ (len = .nolength ∧ s ≠ [])) :
    intMem (some mem) len = decodeInt s ∧ realMem (some mem) len = Reals.decodeReal s ∧ boolMem (some mem) len = decodeBool s := by
  refine ⟨decode_text (library_text strtoll) strtoll_len ht len hlen, decode_text (library_text strtod) strtod_len ht len hlen, decode_text boolDecoder_text ?_ ht len hlen⟩
  intro t w e h
  obtain ⟨u, r, rfl, -, rfl⟩ := strtobool_some h
  rw [List.length_append]; omega

/-- So integers are read if they are spelled. -/
theorem C104_int_all (mem s lit : Str) (i : Int) (ht : Text mem s) (hs : Ascii s) (hb : Between s lit) (hl : Literal lit i) (hi : Int64 i) : intMem (some mem) (.count s.length) = .ok i := by
  rw [(C104_text_partial mem s ht _ (Or.inl rfl)).1]
  exact C56_int_exact s lit i hs hb hl hi

/-- So are real numbers, as a number that the text spells (the nearest one, see `RealLit`). -/
theorem C104_real_all (mem s lit : Str) (x : Num) (ht : Text mem s) (hs : Ascii s) (hb : Between s lit) (hl : RealLit lit x) : ∃ y, realMem (some mem) (.count s.length) = .ok y ∧ RealLit lit y := by
  obtain ⟨y, h1, h2⟩ := Reals.C103_decode_all s lit x hs hb hl
  refine ⟨y, ?_, h2⟩
  rw [(C104_text_partial mem s ht _ (Or.inl rfl)).2.1]
  rw [Reals.get_string] at h1
  cases hd : Reals.decodeReal s with
  | ub => rw [hd] at h1; cases h1
  | fail => rw [hd] at h1; cases h1
  | ok z => rw [hd] at h1; cases h1; rfl

/-- So are words for booleans. -/
theorem C104_bool_all (mem s w : Str) (b : Bool) (ht : Text mem s) (hs : Ascii s) (hb : Between s w) (hw : w.map Char.toLower ∈ words b) : boolMem (some mem) (.count s.length) = .ok b := by
  rw [(C104_text_partial mem s ht _ (Or.inl rfl)).2.2]
  exact (C56_bool s hs b).2 ⟨w, hb, hw⟩

/-- A string is any characters with a length, or a C string. -/
theorem C104_string (mem s q : Str) (h : mem = s ++ q) : stringMem (some mem) (.count s.length) = .ok s ∧ (Text mem s → stringMem (some mem) .nolength = .ok s) := by
  constructor
  · subst h
    cases s with
    | nil => rfl
    | cons c r =>
      show (if (c :: r).length ≤ (c :: r ++ q).length then Out.ok ((c :: r ++ q).take (c :: r).length) else Out.ub) = _
      rw [if_pos (by simp), List.take_left]
  · rintro ⟨hz, q', rfl⟩
    unfold stringMem
    simp only [cstr_text hz]

/-- A null pointer is not read, but as an empty string if the length is zero. -/
theorem C104_null (len : Len) : intMem none len = .fail ∧ realMem none len = .fail ∧ boolMem none len = .fail ∧ stringMem none len = if len = .count 0 then .ok [] else .fail := by
  refine ⟨rfl, rfl, rfl, ?_⟩
  cases len with
  | nolength => rfl
  | count n => cases n with
    | zero => rfl
    | succ n => simp [stringMem]

/-- Characters after the given ones are read too: the first two characters of `123` spell 12, the first one of `yes` is a word, and the first three of `12` with two blanks spell 12, but none is read. -/
theorem C104_length_violated : intMem (some ['1', '2', '3', nul]) (.count 2) = .fail ∧ boolMem (some ['y', 'e', 's', nul]) (.count 1) = .fail ∧ intMem (some ['1', '2', ' ', ' ', nul]) (.count 3) = .fail ∧
    decodeInt ['1', '2'] = .ok 12 ∧ decodeBool ['y'] = .ok true ∧ decodeInt ['1', '2', ' '] = .ok 12 := by decide +kernel

/-- Without a zero byte behind the characters the call is undefined, although there are as many characters as the length says. -/
theorem C104_terminator_violated : intMem (some ['1', '2']) (.count 2) = .ub ∧ realMem (some ['1', '2']) (.count 2) = .ub ∧ boolMem (some ['n', 'o']) (.count 2) = .ub := by decide +kernel

/-- It is also undefined if there are more blanks than the length says. -/
theorem C104_blanks_violated : intMem (some [' ', ' ', '1', nul]) (.count 1) = .ub := by decide +kernel

/-- An empty C string is read as zero, unlike an empty string. -/
theorem C104_empty_violated : intMem (some [nul]) .nolength = .ok 0 ∧ realMem (some [nul]) .nolength = .ok (.fin false 0) ∧ intMem (some [nul]) (.count 0) = .fail ∧ decodeInt [] = .fail := by decide +kernel

/-! ## Conversions between scalars -/

/-- The cases in which a value is not converted exactly, or not at all. -/
def Inexact {R : Type} (ops : Real R) : Ty → Stored R → Prop
  | .integer, .real r => ∀ n, ops.toInt r = some n → ops.eq r (ops.ofInt n) = false
  | .boolean, .integer n => n ≠ 0 ∧ n ≠ 1
  | _, _ => False

/-- Converting a value gives what reading it from a config as this type gives: the same value, no value, or undefined behaviour.

Missing: real numbers that are no integers, and integers other than zero and one as booleans (`C104_agree_violated`). -/
theorem C104_agree_partial {R : Type} (ops : Real R) (t : Ty) (v : Stored R) (hx : ¬ Inexact ops t v) :
    get ops t v = (match convert ops t v with | .ub => none | .fail => some .empty | .ok w => some w) := by
  cases v with
  | empty => cases t <;> rfl
  | integer n =>
    cases t with
    | boolean =>
      have : n = 0 ∨ n = 1 := by
        by_contra h
        exact hx ⟨fun e => h (Or.inl e), fun e => h (Or.inr e)⟩
      rcases this with rfl | rfl <;> rfl
    | integer => rfl
    | real => rfl
    | string => rfl
  | real r =>
    cases t with
    | integer =>
      cases ht : ops.toInt r with
      | none => simp only [ScalarText.get, apply, convert, ht]; rfl
      | some n =>
        have : ops.eq r (ops.ofInt n) = true := by
          by_contra h
          refine hx (fun m hm => ?_)
          obtain rfl := Option.some.inj (ht.symm.trans hm)
          simpa using h
        simp only [ScalarText.get, apply, convert, ht, this]; rfl
    | real => rfl
    | boolean => rfl
    | string => rfl
  | boolean b => cases t <;> rfl
  | string s =>
    cases t with
    | integer => simp only [ScalarText.get, apply, convert]; cases decodeInt s <;> rfl
    | real => simp only [ScalarText.get, apply, convert]; cases ops.parse s <;> rfl
    | boolean => simp only [ScalarText.get, apply, convert]; cases decodeBool s <;> rfl
    | string => rfl

theorem convert_toInt (x : Num) : convert Reals.ops .integer (.real x) = (match Reals.toInt x with | none => Out.ub | some n => Out.ok (Stored.integer n)) := rfl

/-- One and a half is converted to the integer one but not read as an integer, and two is read as a boolean but not converted to one. -/
theorem C104_agree_violated : convert Reals.ops .integer (.real (.fin false (3 * 2 ^ 1073))) = .ok (.integer 1) ∧ get Reals.ops .integer (.real (.fin false (3 * 2 ^ 1073))) = some .empty ∧
    convert Reals.ops .boolean (.integer 2) = .fail ∧ get Reals.ops .boolean (.integer 2) = some (.boolean true) := by
  have h : Reals.toInt (.fin false (3 * 2 ^ 1073)) = some 1 := by decide +kernel
  have h' : Reals.eq (.fin false (3 * 2 ^ 1073)) (Reals.ofInt 1) = false := by decide +kernel
  refine ⟨?_, ?_, rfl, rfl⟩
  · rw [convert_toInt, h]
  · rw [Reals.get_toInt, h]
    simp only [h']; rfl

/-- The integer is then the real number without its fraction. -/
theorem C104_truncates (neg : Bool) (k : Nat) (h1 : -(2 ^ 63) ≤ val neg k) (h2 : val neg k < 2 ^ 63) :
    ∃ n : Int, convert Reals.ops .integer (.real (.fin neg k)) = .ok (.integer n) ∧ |(n : ℚ)| ≤ |val neg k| ∧ |val neg k - n| < 1 := by
  refine ⟨_, by rw [convert_toInt, Reals.toInt_in h1 h2], ?_⟩
  have hU := Reals.pow_pos_q 1074
  have ha : ((k / 2 ^ 1074 : Nat) : ℚ) * 2 ^ 1074 ≤ k := by
    have := Nat.div_mul_le_self k (2 ^ 1074)
    have h : ((k / 2 ^ 1074 * 2 ^ 1074 : Nat) : ℚ) ≤ (k : ℚ) := Nat.cast_le.2 this
    rw [Nat.cast_mul, Nat.cast_pow 2, Nat.cast_two] at h
    exact h
  have hb : (k : ℚ) < (((k / 2 ^ 1074 : Nat) : ℚ) + 1) * 2 ^ 1074 := by
    have := Nat.lt_mul_div_succ k (Nat.pow_pos (n := 1074) (show 0 < 2 by omega))
    have h : (k : ℚ) < ((2 ^ 1074 * (k / 2 ^ 1074 + 1) : Nat) : ℚ) := Nat.cast_lt.2 this
    rw [Nat.cast_mul, Nat.cast_pow 2, Nat.cast_two, Nat.cast_add, Nat.cast_one, mul_comm] at h
    exact h
  rw [← le_div_iff₀ hU] at ha
  rw [← div_lt_iff₀ hU] at hb
  have hq : (0 : ℚ) ≤ ((k / 2 ^ 1074 : Nat) : ℚ) := Nat.cast_nonneg _
  cases neg with
  | false =>
    rw [Reals.val_false, if_neg (by simp), Int.cast_natCast]
    generalize ((k / 2 ^ 1074 : Nat) : ℚ) = q at ha hb hq
    generalize (k : ℚ) / 2 ^ 1074 = x at ha hb
    rw [abs_of_nonneg hq, abs_of_nonneg (le_trans hq ha), abs_of_nonneg (by linarith)]
    exact ⟨ha, by linarith⟩
  | true =>
    rw [Reals.val_true, if_pos rfl, Int.cast_neg, Int.cast_natCast]
    generalize ((k / 2 ^ 1074 : Nat) : ℚ) = q at ha hb hq
    generalize (k : ℚ) / 2 ^ 1074 = x at ha hb
    rw [abs_neg, abs_neg, abs_of_nonneg hq, abs_of_nonneg (le_trans hq ha), abs_of_nonpos (by linarith)]
    exact ⟨ha, by linarith⟩

/-- A conversion into a variant returns true exactly if the variant then holds the converted value, which has the given type; otherwise the variant is unchanged. -/
theorem C104_into {R : Type} (ops : Real R) (t : Option Ty) (v w : Stored R) (r : Bool) (w' : Stored R) (h : convertInto ops t v w = some (r, w')) :
    (r = true → ∃ t', t = some t' ∧ convert ops t' v = .ok w' ∧ w'.has t') ∧ (r = false → w' = w) := by
  unfold convertInto at h
  cases t with
  | none => cases h; exact ⟨fun e => by (cases e), fun _ => rfl⟩
  | some t =>
    cases hc : convert ops t v with
    | ub => simp only [hc] at h; cases h
    | fail => simp only [hc] at h; cases h; exact ⟨fun e => by (cases e), fun _ => rfl⟩
    | ok u =>
      simp only [hc] at h
      cases h
      refine ⟨fun _ => ⟨t, rfl, hc, ?_⟩, fun e => by (cases e)⟩
      cases v with
      | empty => cases hc
      | integer n =>
        cases t with
        | boolean =>
          simp only [convert] at hc
          split at hc
          · cases hc; trivial
          · split at hc
            · cases hc; trivial
            · cases hc
        | _ => cases hc; trivial
      | real x =>
        cases t with
        | integer =>
          simp only [convert] at hc
          cases hx : ops.toInt x with
          | none => rw [hx] at hc; cases hc
          | some n => rw [hx] at hc; cases hc; trivial
        | _ => cases hc <;> trivial
      | boolean b => cases t <;> cases hc <;> trivial
      | string s =>
        cases t with
        | integer =>
          simp only [convert] at hc
          cases hx : decodeInt s with
          | ok n => rw [hx] at hc; cases hc; trivial
          | _ => rw [hx] at hc; cases hc
        | real =>
          simp only [convert] at hc
          cases hx : ops.parse s with
          | ok n => rw [hx] at hc; cases hc; trivial
          | _ => rw [hx] at hc; cases hc
        | boolean =>
          simp only [convert] at hc
          cases hx : decodeBool s with
          | ok n => rw [hx] at hc; cases hc; trivial
          | _ => rw [hx] at hc; cases hc
        | string => cases hc; trivial

/-! ## Examples -/

example : Text (" -0x1F\t".toList ++ [nul, 'z']) " -0x1F\t".toList := ⟨by decide, ['z'], rfl⟩
example : intMem (some (" -0x1F\t".toList ++ [nul, 'z'])) (.count 7) = .ok (-31) ∧ intMem (some (" -0x1F\t".toList ++ [nul, 'z'])) .nolength = .ok (-31) := by decide +kernel
example : intMem (some ("12,34".toList ++ [nul])) (.count 2) = .ok 12 ∧ boolMem (some ("on]".toList ++ [nul])) (.count 2) = .ok true := by decide +kernel
example : realMem (some ("1.5;".toList ++ [nul])) (.count 3) = .ok (.fin false (3 * 2 ^ 1073)) := by decide +kernel
example : stringMem (some "abc".toList) (.count 2) = .ok "ab".toList := by decide
example : ¬ Inexact Reals.ops .boolean (.integer 1) ∧ ¬ Inexact Reals.ops .string (.real .nan) := ⟨fun h => h.2 rfl, fun h => h⟩
example : convertInto Reals.ops (some .boolean) (.string "off".toList) .empty = some (true, .boolean false) := rfl

end Verif.Decode
