import Verif.Model.ConfigText

/-!
# C93: the parser of a config gets the text that was given, however it is given
-/
set_option autoImplicit false

namespace Verif.ConfigText

/-! ## Specification -/

/-- No line ends with the two bytes that a stream in text mode makes one of. -/
def NoPairs (t : List Nat) : Prop := ∀ a b, t ≠ a ++ 13 :: 10 :: b

/-- A stream from which the text `t` can still be read, and no more. -/
structure Holds (s : Stream) (t : List Nat) : Prop where
  inside : s.pos ≤ s.bytes.length
  rest : s.bytes.drop s.pos = t
  nofail : s.fail = false
  /-- the end was met before only if there is nothing more -/
  ended : s.eof = true → t = []
  lines : s.crlf = true → NoPairs t

/-- The ways to give a text. -/
inductive Gives : Given → List Nat → Prop where
  /-- a pointer to the text, which is followed by a zero byte and anything -/
  | ptr (t r : List Nat) : 0 ∉ t → Gives (.ptr (some (t ++ 0 :: r))) t
  /-- a pointer and the length of the text, which anything may follow -/
  | ptrLen (t r : List Nat) : t.length < 2 ^ 63 → Gives (.ptrLen (some (t ++ r)) t.length) t
  | string (t : List Nat) : Gives (.string t) t
  | stream (s : Stream) (t : List Nat) : Holds s t → Gives (.stream s) t

/-! ## Proof -/

theorem chars_all (crlf : Bool) : ∀ (n : Nat) (l : List Nat), l.length ≤ n → (crlf = true → NoPairs l) → chars crlf n l = (l, l.length)
  | 0, l, h, _ => by
    have : l = [] := List.eq_nil_of_length_eq_zero (by omega)
    subst this
    rfl
  | n + 1, [], _, _ => rfl
  | n + 1, b :: r, h, hp => by
    have hr : crlf = true → NoPairs r := fun hc a c e => hp hc (b :: a) c (by rw [e]; rfl)
    have ih := chars_all crlf n r (by simp at h; omega) hr
    unfold chars
    split
    · rename_i r' hb
      have hb : crlf = true ∧ b = 13 := by simpa using hb
      exact absurd (by rw [hb.2]; rfl) (hp hb.1 [] r')
    · rw [ih]; rfl

theorem chars_exact {crlf : Bool} {l : List Nat} (hp : crlf = true → NoPairs l) : chars crlf l.length l = (l, l.length) := chars_all crlf _ l (Nat.le_refl _) hp

theorem content_ok {s : Stream} {t : List Nat} (h : Holds s t) (hs : s.seekable = true) :
    content s = .ok (t, if s.eof then { s with eof := false, fail := true } else { s with pos := s.bytes.length }) := by
  obtain ⟨bytes, pos, seekable, crlf, eof, fail⟩ := s
  obtain ⟨h1, h2, h3, h4, h5⟩ := h
  simp only at *
  subst hs h3
  have hl : t.length = bytes.length - pos := by rw [← h2]; simp
  cases eof with
  | true =>
    have ht := h4 rfl
    subst ht
    simp [content, Stream.tellg, Stream.seekEnd, Stream.seekTo, Stream.read, Stream.sentry]
  | false =>
    have hc : chars crlf (bytes.length - pos) (bytes.drop pos) = (t, bytes.length - pos) := by
      rw [h2, ← hl]
      exact chars_exact h5
    have e1 : ((bytes.length : Int) - (pos : Int)).toNat = bytes.length - pos := by omega
    have e2 : ¬ ((bytes.length : Int) - (pos : Int) < 0) := by omega
    simp only [content, Stream.tellg, Stream.seekEnd, Stream.seekTo, Stream.read, Stream.sentry, Bool.or_self, Bool.false_eq_true, if_false, if_true, e1, e2, Int.toNat_natCast, Bool.true_and]
    have e3 : (decide ((0 : Int) ≤ (pos : Int))) = true := by simp
    have e4 : pos + (bytes.length - pos) = bytes.length := by omega
    simp only [e3, Bool.or_self, if_true, Bool.false_eq_true, if_false, hc, hl, Nat.lt_irrefl, Nat.sub_self, List.replicate_zero, List.append_nil, e4]

theorem untilZero_id : ∀ {t : List Nat}, 0 ∉ t → untilZero t = t
  | [], _ => rfl
  | 0 :: _, h => absurd (List.mem_cons_self) h
  | (n + 1) :: r, h => by
    simp only [untilZero]
    rw [untilZero_id (fun hm => h (List.mem_cons_of_mem _ hm))]

theorem untilZero_spec : ∀ (t : List Nat), 0 ∉ untilZero t ∧ (untilZero t = t ∨ ∃ r, t = untilZero t ++ 0 :: r)
  | [] => ⟨by simp [untilZero], .inl rfl⟩
  | 0 :: r => ⟨by simp [untilZero], .inr ⟨r, rfl⟩⟩
  | (n + 1) :: r => by
    obtain ⟨h1, h2⟩ := untilZero_spec r
    refine ⟨by simp [untilZero, h1], ?_⟩
    rcases h2 with h2 | ⟨r', h2⟩
    · exact .inl (by simp [untilZero, h2])
    · exact .inr ⟨r', by simp only [untilZero, List.cons_append]; rw [← h2]⟩

theorem cstr_ok : ∀ {t : List Nat} (r : List Nat), 0 ∉ t → cstr (t ++ 0 :: r) = .ok t
  | [], _, _ => rfl
  | 0 :: _, _, h => absurd (List.mem_cons_self) h
  | (n + 1) :: t, r, h => by
    have := cstr_ok (t := t) r (fun hm => h (List.mem_cons_of_mem _ hm))
    simp [cstr, this]

theorem seen_ok {f : Fmt} {t : List Nat} (h : 0 ∉ t ∨ f = .json ∨ f = .yaml) : seen f t = t := by
  rcases h with h | rfl | rfl
  · cases f <;> simp [seen, untilZero_id h]
  · rfl
  · rfl

/-! ## The property -/

/-- **C93.** The parser gets the text, in whichever of the four ways and in whichever of the four formats it is given.

*Partial.* The statement asked for every text and every stream. What is missing: for ini and xml, texts with a zero byte
(`C93_zero_violated`) and streams that cannot be positioned (`C93_pipe_violated`); in text mode, texts with lines that end with two
bytes (`C93_text_mode_violated`: that the line ends become one byte is expected, the zero bytes after the text are not). -/
theorem C93_same_partial (f : Fmt) (g : Given) (t : List Nat) (h : Gives g t) (h0 : 0 ∉ t ∨ f = .json ∨ f = .yaml)
    (hs : ∀ s, g = .stream s → s.seekable = true ∨ f = .json ∨ f = .yaml) : text f g = .ok t := by
  cases h with
  | ptr t r hz => simp [text, readPtr, cstr_ok r hz]
  | ptrLen t r hl =>
    have : t.length ≠ nolength := by unfold nolength; omega
    simp [text, readPtr, this, seen_ok h0]
  | string t => simp [text, seen_ok h0]
  | stream s t hh =>
    have hc : (chars s.crlf s.bytes.length (s.bytes.drop s.pos)).1 = t := by
      rw [chars_all _ _ _ (by simp) (by rw [hh.rest]; exact hh.lines), hh.rest]
    have key : s.seekable = true → 0 ∉ t → (match content s with | .ok (t, _) => Out.ok (seen f t) | .threw => .threw | .ub => .ub) = .ok t := by
      intro h1 h2
      rw [content_ok hh h1]
      simp only
      rw [seen_ok (.inl h2)]
    cases f with
    | json => simp only [text, readStream, hc]
    | yaml => simp only [text, readStream, hh.nofail, hc]; rfl
    | ini =>
      simp only [text, readStream]
      exact key ((hs s rfl).resolve_right (by simp)) (h0.resolve_right (by simp))
    | xml =>
      simp only [text, readStream]
      exact key ((hs s rfl).resolve_right (by simp)) (h0.resolve_right (by simp))

/-- **C93**, streams: `get_text_stream_content` gives the rest of the stream, from where it stands to its end, and leaves it there; if
it is called again, it gives nothing. -/
theorem C93_rest (s : Stream) (t : List Nat) (h : Holds s t) (hs : s.seekable = true) (he : s.eof = false) :
    ∃ s', content s = .ok (t, s') ∧ s'.pos = s.bytes.length ∧ s'.bytes = s.bytes ∧ s'.eof = false ∧ s'.fail = false ∧ content s' = .ok ([], s') := by
  refine ⟨{ s with pos := s.bytes.length }, by rw [content_ok h hs]; simp [he], rfl, rfl, he, h.nofail, ?_⟩
  rw [content_ok (s := { s with pos := s.bytes.length }) (t := []) ⟨Nat.le_refl _, by simp, h.nofail, fun _ => rfl, fun _ a b e => by simp at e⟩ hs]
  simp [he]

/-- **C93**, what ini and xml make of any text: the bytes before the first zero byte. -/
theorem C93_cut (f : Fmt) (t : List Nat) (hf : f = .ini ∨ f = .xml) : ∃ u, text f (.string t) = .ok u ∧ 0 ∉ u ∧ (u = t ∨ ∃ r, t = u ++ 0 :: r) := by
  refine ⟨untilZero t, ?_, untilZero_spec t⟩
  rcases hf with rfl | rfl <;> rfl

/-- A stream in the middle of a file, and the same text in the other ways. -/
example : Gives (.stream ⟨[1, 2, 97, 61, 49, 10], 2, true, true, false, false⟩) [97, 61, 49, 10] ∧ Gives (.ptr (some [97, 61, 49, 10, 0, 5])) [97, 61, 49, 10] ∧
    Gives (.ptrLen (some [97, 61, 49, 10, 5]) 4) [97, 61, 49, 10] ∧ Gives (.string [97, 61, 49, 10]) [97, 61, 49, 10] := by
  refine ⟨.stream _ _ ⟨by decide, rfl, rfl, by simp, fun _ a b e => ?_⟩, .ptr [97, 61, 49, 10] [5] (by decide), .ptrLen [97, 61, 49, 10] [5] (by decide), .string _⟩
  have hm : 13 ∈ [97, 61, 49, 10] := by rw [e]; simp
  simp at hm

/-! ## What is false -/

/-- **The full property is false**: from a stream that cannot be positioned, such as standard input, ini and xml get an empty text. -/
theorem C93_pipe_violated (s : Stream) (t : List Nat) (h : Holds s t) (hs : s.seekable = false) (f : Fmt) (hf : f = .ini ∨ f = .xml) : text f (.stream s) = .ok [] := by
  obtain ⟨bytes, pos, seekable, crlf, eof, fail⟩ := s
  have h3 := h.nofail
  simp only at h3 hs
  subst h3 hs
  rcases hf with rfl | rfl <;> cases eof <;>
    simp [text, readStream, content, Stream.tellg, Stream.seekEnd, Stream.seekTo, Stream.read, Stream.sentry, seen, untilZero]

/-- Such a stream is left in the failed state, and nothing is taken from it. -/
theorem C93_pipe_failed (s : Stream) (t : List Nat) (h : Holds s t) (hs : s.seekable = false) :
    ∃ s', content s = .ok ([], s') ∧ s'.fail = true ∧ s'.pos = s.pos ∧ s'.bytes = s.bytes := by
  obtain ⟨bytes, pos, seekable, crlf, eof, fail⟩ := s
  have h3 := h.nofail
  simp only at h3 hs
  subst h3 hs
  cases eof <;> exact ⟨_, rfl, rfl, rfl, rfl⟩

/-- The greatest number as a length means that there is none: the text ends at a zero byte. -/
theorem C93_reserved (f : Fmt) (mem : Option (List Nat)) : text f (.ptrLen mem (2 ^ 64 - 1)) = text f (.ptr mem) := rfl

/-- A text with a zero byte is cut there by ini and xml. -/
theorem C93_zero_violated : Gives (.string [97, 0, 98]) [97, 0, 98] ∧ text .ini (.string [97, 0, 98]) = .ok [97] ∧ text .xml (.ptrLen (some [97, 0, 98]) 3) = .ok [97] :=
  ⟨.string _, rfl, rfl⟩

/-- In text mode, the text is followed by zero bytes, one for each line; the stream is at its end and has failed. -/
theorem C93_text_mode_violated : ∃ s', content ⟨[97, 13, 10, 98, 13, 10], 0, true, true, false, false⟩ = .ok ([97, 10, 98, 10, 0, 0], s') ∧
    s'.pos = 6 ∧ s'.fail = true := ⟨_, rfl, rfl, rfl⟩

end Verif.ConfigText
