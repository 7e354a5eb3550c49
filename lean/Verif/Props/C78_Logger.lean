import Verif.Model.Logger
/-!
# C78: log lines

Specification: a message that passes the filter becomes one line: tag, name of the logger, ` - ` and the text, cut to 2047 bytes, and ended
by a newline if it does not end with one.
-/
set_option autoImplicit false

namespace Verif.Logger

/-! ### Specification -/

/-- what stands before the text -/
def heading (l : Logger) (t : List Nat) : List Nat := t ++ cstr l.name ++ bytes " - "

/-- the line for a heading and a text -/
def line (head text : List Nat) : List Nat :=
  let cut := (head ++ text).take 2047
  if cut.getLast? = some 10 then cut else cut ++ [10]

/-- the levels that a filter lets pass -/
def upTo : Level → List Level
  | .silent => []
  | .error => [.error]
  | .warning => [.error, .warning]
  | .info => [.error, .warning, .info]
  | .debug => [.error, .warning, .info, .debug]
  | .verbose => [.error, .warning, .info, .debug, .verbose]

/-- a message of this level is to be written: levels are ordered from `error` to `verbose`, `silent` lets nothing pass, and `debug` messages
are for debug builds -/
def Enabled (debug : Bool) (filter level : Level) : Prop :=
  level ∈ upTo filter ∧ (level = .debug → debug = true)

instance (debug : Bool) (filter level : Level) : Decidable (Enabled debug filter level) := by unfold Enabled; infer_instance

/-! ### Proofs -/

theorem write_form (A B xs : List Nat) (h : xs.length ≤ B.length) : write (A ++ B) A.length xs = some (A ++ xs ++ B.drop xs.length) := by
  have h1 : A.length + xs.length ≤ (A ++ B).length := by simp; omega
  simp only [write, if_pos h1]
  congr 1
  rw [List.take_left]
  congr 1
  rw [List.drop_append, List.drop_eq_nil_of_le (by omega)]
  simp

theorem cstr_no_zero (l : List Nat) : 0 ∉ cstr l := by
  intro h
  have := List.all_takeWhile (p := fun x : Nat => decide (x ≠ 0)) (l := l)
  rw [List.all_eq_true] at this
  simpa using this 0 h

theorem cstr_append (A B : List Nat) (h : 0 ∉ A) : cstr (A ++ 0 :: B) = A := by
  induction A with
  | nil => simp [cstr]
  | cons a A ih =>
    simp only [List.mem_cons, not_or] at h
    have ha : a ≠ 0 := fun e => h.1 e.symm
    simp only [cstr, List.cons_append, List.takeWhile_cons, ha, ne_eq, not_false_eq_true, decide_true, if_true]
    congr 1
    exact ih h.2

theorem print_form (A B text : List Nat) (h1 : A.length + text.length ≤ intMax) (h2 : A.length ≤ 2047) (h3 : A.length + B.length = 2049) :
    ∃ C, print (A ++ B) (A.length : Int) text =
        some ((A ++ text).take 2047 ++ 0 :: C, (((A ++ text).take 2047).length : Int)) ∧ ((A ++ text).take 2047).length + C.length = 2048 := by
  have hsz : ((messageLength : Int) - (A.length : Int)).toNat = 2048 - A.length := by simp only [messageLength]; omega
  have hw : (text.take (2048 - A.length - 1) ++ [0]).length ≤ B.length := by simp; omega
  refine ⟨B.drop ((text.take (2048 - A.length - 1)).length + 1), ?_, ?_⟩
  · simp only [print, if_neg (show ¬ (A.length : Int) < 0 by omega), Int.toNat_natCast, hsz, snprintf,
      if_neg (show ¬ intMax < text.length by omega), if_neg (show ¬ 2048 - A.length = 0 by omega), Option.bind_eq_bind,
      write_form A B _ hw, Option.bind_some, Option.pure_def]
    have ha : addInt (A.length : Int) (returned (some text.length)) = some ((A.length : Int) + (text.length : Int)) := by
      have : (A.length : Int) + returned (some text.length) ≤ (intMax : Int) := by show (A.length : Int) + (text.length : Int) ≤ _; omega
      simp only [addInt, if_pos this]
      rfl
    rw [ha]
    simp only [Option.map_some, messageLength]
    congr 2
    · rw [List.take_append, List.take_of_length_le h2]
      have : 2048 - A.length - 1 = 2047 - A.length := by omega
      simp [this]
    · simp only [List.length_take, List.length_append]; omega
  · simp only [List.length_take, List.length_append, List.length_drop]; omega

theorem endLine_form (F R : List Nat) (h0 : 0 ∉ F) (h1 : 1 ≤ F.length) (h2 : 1 ≤ R.length) :
    (endLine (F ++ 0 :: R) (F.length : Int)).bind output = some (if F.getLast? = some 10 then F else F ++ [10]) := by
  have hread : readAt (F ++ 0 :: R) ((F.length : Int) - 1) = F.getLast? := by
    simp only [readAt]
    rw [if_pos (by omega)]
    have : ((F.length : Int) - 1).toNat = F.length - 1 := by omega
    rw [this, List.getElem?_append_left (by omega), List.getLast?_eq_getElem?]
  simp only [endLine, hread]
  cases hg : F.getLast? with
  | none => rw [List.getLast?_eq_none_iff] at hg; rw [hg] at h1; simp at h1
  | some x =>
    simp only
    by_cases hx10 : x = 10
    · subst hx10
      simp only [ne_eq, not_true, if_false, Option.bind_some, if_true, output]
      rw [if_pos (by simp), cstr_append F R h0]
    · rw [if_neg (show ¬ some x = some 10 by simpa using hx10)]
      have w1 : writeAt (F ++ 0 :: R) (F.length : Int) 10 = some (F ++ 10 :: R) := by
        simp only [writeAt]
        rw [if_pos (by omega), Int.toNat_natCast, write_form F (0 :: R) [10] (by simp)]
        simp
      have w2 : writeAt (F ++ 10 :: R) ((F.length : Int) + 1) 0 = some ((F ++ [10]) ++ 0 :: R.drop 1) := by
        simp only [writeAt]
        rw [if_pos (by omega)]
        have h1 : ((F.length : Int) + 1).toNat = (F ++ [10]).length := by simp only [List.length_append, List.length_cons, List.length_nil]; omega
        have h2 : F ++ 10 :: R = (F ++ [10]) ++ R := by simp
        rw [h1, h2, write_form (F ++ [10]) R [0] (by simpa using ‹1 ≤ R.length›)]
        simp
      simp only [ne_eq, hx10, not_false_eq_true, if_true, w1, Option.bind_some, w2, output]
      rw [if_pos (by simp), cstr_append (F ++ [10]) (R.drop 1) (by simp [h0])]

theorem format_spec (l : Logger) (buf : List Nat) (level : Level) (text t : List Nat) (ht : tag level = some t) (hb : buf.length = 2049)
    (h0 : 0 ∉ heading l t ++ text) (hp : 1 ≤ t.length) (hl : (heading l t ++ text).length ≤ intMax) (hf : level.val ≤ l.filter.val) :
    l.formatAndWrite buf level text = some (line (heading l t) text) := by
  simp only [Logger.formatAndWrite, if_pos hf, ht]
  have hhead : t ++ cstr l.name ++ bytes " - " = heading l t := rfl
  rw [hhead]
  have hpos : 1 ≤ (heading l t).length := by simp [heading]; omega
  clear hhead
  generalize heading l t = H at *
  simp only [List.length_append] at hl
  obtain ⟨C, h1, h2⟩ := print_form [] buf H (by simp only [List.length_nil]; omega) (by simp) (by simpa using hb)
  simp only [List.nil_append, List.length_nil] at h1 h2
  have h1' : print buf 0 H = some (List.take 2047 H ++ 0 :: C, ((List.take 2047 H).length : Int)) := h1
  rw [h1']
  simp only [Option.bind_some]
  have h2047 : (List.take 2047 H).length ≤ 2047 := by simp only [List.length_take]; omega
  have hleH : (List.take 2047 H).length ≤ H.length := by simp only [List.length_take]; omega
  obtain ⟨D, h3, h4⟩ := print_form (List.take 2047 H) (0 :: C) text (by omega) h2047 (by simp only [List.length_cons]; omega)
  rw [h3]
  simp only [Option.bind_some]
  have hcut : (List.take 2047 H ++ text).take 2047 = (H ++ text).take 2047 := by
    rw [List.take_append, List.take_append, List.take_take, Nat.min_self]
    by_cases hlt : H.length ≤ 2047
    · rw [List.take_of_length_le hlt]
    · have e1 : 2047 - (List.take 2047 H).length = 0 := by simp only [List.length_take]; omega
      have e2 : 2047 - H.length = 0 := by omega
      rw [e1, e2]
  rw [hcut] at h4 ⊢
  have hFpos : 1 ≤ ((H ++ text).take 2047).length := by simp only [List.length_take, List.length_append]; omega
  have hFle : ((H ++ text).take 2047).length ≤ 2047 := by simp only [List.length_take]; omega
  exact endLine_form _ D (fun h => h0 (List.mem_of_mem_take h)) hFpos (by omega)

theorem tag_of (level : Level) (h : level ≠ .silent) : ∃ t, tag level = some t ∧ 1 ≤ t.length ∧ 0 ∉ t := by
  cases level with
  | silent => exact absurd rfl h
  | error => exact ⟨_, rfl, by decide, by decide⟩
  | warning => exact ⟨_, rfl, by decide, by decide⟩
  | info => exact ⟨_, rfl, by decide, by decide⟩
  | debug => exact ⟨_, rfl, by decide, by decide⟩
  | verbose => exact ⟨_, rfl, by decide, by decide⟩

theorem upTo_iff (f level : Level) (hs : level ≠ .silent) : level ∈ upTo f ↔ level.val ≤ f.val := by
  cases f <;> cases level <;> first | exact absurd rfl hs | decide

theorem log_spec (l : Logger) (debug : Bool) (buf : List Nat) (hb : buf.length = 2049) (level : Level) (hs : level ≠ .silent)
    (text : List Nat) (h0 : 0 ∉ text) :
    ∃ t, tag level = some t ∧ ((heading l t ++ text).length ≤ intMax →
      l.log debug buf level text = some (if Enabled debug l.filter level then line (heading l t) text else [])) := by
  obtain ⟨t, ht, hp, h0t⟩ := tag_of level hs
  refine ⟨t, ht, fun hl => ?_⟩
  simp only [Logger.log]
  by_cases hd : level = .debug ∧ debug = false
  · rw [if_pos hd, if_neg]
    intro he
    have := he.2 hd.1
    rw [hd.2] at this; cases this
  · rw [if_neg hd]
    by_cases hf : level.val ≤ l.filter.val
    · rw [if_pos ⟨(upTo_iff _ _ hs).2 hf, fun e => by
        cases h : debug with
        | true => rfl
        | false => exact absurd ⟨e, h⟩ hd⟩]
      refine format_spec l buf level text t ht hb ?_ hp hl hf
      simp only [heading, List.mem_append, not_or]
      exact ⟨⟨⟨h0t, cstr_no_zero _⟩, by decide⟩, h0⟩
    · rw [if_neg (fun he => hf ((upTo_iff _ _ hs).1 he.1))]
      simp [Logger.formatAndWrite, hf]

theorem line_ne (head text : List Nat) : line head text ≠ [] := by
  intro e
  simp only [line] at e
  split at e
  · rename_i h2; rw [e] at h2; cases h2
  · simp at e

/-! ### C78 -/

/-- C78. For every logger, level, text without zero bytes and earlier contents of the buffer: the call accesses memory only inside of the
buffer, and writes exactly the line of the specification if the message is enabled, nothing otherwise. The line ends with a newline and
is at most 2048 bytes long. Missing from the full property: texts with a zero byte (`C78_zero_violated`) and texts of about 2^31 bytes
(`C78_long_violated`). -/
theorem C78_line_partial (l : Logger) (debug : Bool) (buf : List Nat) (hb : buf.length = 2049) (level : Level) (hs : level ≠ .silent)
    (text : List Nat) (h0 : 0 ∉ text) :
    ∃ t, tag level = some t ∧ ((heading l t ++ text).length ≤ intMax →
      l.log debug buf level text = some (if Enabled debug l.filter level then line (heading l t) text else []) ∧
      (line (heading l t) text).getLast? = some 10 ∧ (line (heading l t) text).length ≤ 2048) := by
  obtain ⟨t, ht, h⟩ := log_spec l debug buf hb level hs text h0
  refine ⟨t, ht, fun hl => ⟨h hl, ?_, ?_⟩⟩
  · simp only [line]
    split
    · assumption
    · simp
  · simp only [line]
    split
    · simp only [List.length_take]; omega
    · simp only [List.length_append, List.length_take, List.length_cons, List.length_nil]; omega

/-- C78. The overloads for `std::string` take any string; the line holds its bytes before the first zero byte. -/
theorem C78_string (l : Logger) (debug : Bool) (buf : List Nat) (hb : buf.length = 2049) (level : Level) (hs : level ≠ .silent)
    (str : List Nat) :
    ∃ t, tag level = some t ∧ ((heading l t ++ str).length ≤ intMax →
      l.logString debug buf level str =
        some (if Enabled debug l.filter level then line (heading l t) (str.takeWhile (· ≠ 0)) else [])) := by
  obtain ⟨t, ht, h⟩ := log_spec l debug buf hb level hs (cstr str) (cstr_no_zero _)
  refine ⟨t, ht, fun hl => h ?_⟩
  have : (cstr str).length ≤ str.length := by
    have := (List.takeWhile_prefix (p := fun x : Nat => decide (x ≠ 0)) (l := str)).length_le
    exact this
  simp only [List.length_append] at hl ⊢
  omega

/-- C78, filter. After `set_filter(f)` exactly the messages up to level `f` are written (those of level `debug` in debug builds only); a new
logger writes messages up to `info`, in a debug build up to `debug`. -/
theorem C78_filter (l : Logger) (debug : Bool) (buf : List Nat) (hb : buf.length = 2049) (level f : Level) (hs : level ≠ .silent)
    (text : List Nat) (h0 : 0 ∉ text) (hl : (l.name ++ text).length + 13 ≤ intMax) :
    ((l.setFilter f).log debug buf level text ≠ some [] ↔ level ∈ upTo f ∧ (level = .debug → debug = true)) ∧
    ((create debug l.name).log debug buf level text ≠ some [] ↔ level = .error ∨ level = .warning ∨ level = .info ∨ (level = .debug ∧ debug = true)) := by
  have key : ∀ l' : Logger, l'.name = l.name →
      (l'.log debug buf level text ≠ some [] ↔ Enabled debug l'.filter level) := by
    intro l' hn
    obtain ⟨t, ht, h⟩ := log_spec l' debug buf hb level hs text h0
    have htl : t.length = 10 := by
      cases level <;> first | exact absurd rfl hs | (cases ht; rfl)
    have hcl : (cstr l'.name).length ≤ l.name.length := by
      rw [hn]
      exact (List.takeWhile_prefix (p := fun x : Nat => decide (x ≠ 0)) (l := l.name)).length_le
    have hsep : (bytes " - ").length = 3 := by decide
    rw [h (by simp only [heading, List.length_append] at hl ⊢; omega)]
    by_cases he : Enabled debug l'.filter level
    · rw [if_pos he]
      refine ⟨fun _ => he, fun _ e => line_ne _ _ (Option.some.inj e)⟩
    · simp [he]
  refine ⟨key (l.setFilter f) rfl, (key (create debug l.name) rfl).trans ?_⟩
  cases debug <;> cases level <;> simp [Enabled, create, upTo] at hs ⊢

/-- False of the code: a text with a zero byte (`"%c"` with 0) is written without a newline. -/
theorem C78_zero_violated : ∀ buf : List Nat, buf.length = 2049 →
    (⟨bytes "sys", .info⟩ : Logger).log false buf .info [0] = some (bytes "[INFO]    sys - ") := by
  intro buf hb
  have hH : tag .info = some (bytes "[INFO]    ") := rfl
  simp only [Logger.log, Logger.formatAndWrite]
  rw [if_neg (by simp), if_pos (by simp), hH]
  simp only
  have hhead : bytes "[INFO]    " ++ cstr (bytes "sys") ++ bytes " - " = bytes "[INFO]    sys - " := by decide
  rw [hhead]
  obtain ⟨C, h1, h2⟩ := print_form [] buf (bytes "[INFO]    sys - ") (by decide) (by simp) (by simpa using hb)
  have e : (([] : List Nat) ++ bytes "[INFO]    sys - ").take 2047 = bytes "[INFO]    sys - " := by decide
  rw [e] at h1 h2
  have h1' : print buf 0 (bytes "[INFO]    sys - ") = some (bytes "[INFO]    sys - " ++ 0 :: C, (16 : Int)) := h1
  rw [h1']
  simp only [Option.bind_some]
  obtain ⟨D, h3, h4⟩ := print_form (bytes "[INFO]    sys - ") (0 :: C) [0] (by decide) (by decide)
    (by simp only [List.length_cons]; omega)
  have e2 : (bytes "[INFO]    sys - " ++ [0]).take 2047 = bytes "[INFO]    sys - " ++ [0] := by decide
  rw [e2] at h3 h4
  have h3' : print (bytes "[INFO]    sys - " ++ 0 :: C) 16 [0] = some (bytes "[INFO]    sys - " ++ [0] ++ 0 :: D, (17 : Int)) := h3
  rw [h3']
  simp only [Option.bind_some]
  have hD : D.length = 2031 := by
    have : (bytes "[INFO]    sys - " ++ [0]).length = 17 := by decide
    omega
  match D, hD with
  | d :: D, _ =>
    have hr : readAt (bytes "[INFO]    sys - " ++ [0] ++ 0 :: d :: D) (17 - 1) = some 0 := rfl
    simp only [endLine, hr]
    rw [if_pos (by decide)]
    have w1 : writeAt (bytes "[INFO]    sys - " ++ [0] ++ 0 :: d :: D) 17 10 = some (bytes "[INFO]    sys - " ++ [0] ++ 10 :: d :: D) := by
      have := write_form (bytes "[INFO]    sys - " ++ [0]) (0 :: d :: D) [10] (by simp)
      simpa [writeAt, bytes] using this
    have w2 : writeAt (bytes "[INFO]    sys - " ++ [0] ++ 10 :: d :: D) (17 + 1) 0 = some (bytes "[INFO]    sys - " ++ 0 :: 10 :: 0 :: D) := by
      have := write_form (bytes "[INFO]    sys - " ++ [0, 10]) (d :: D) [0] (by simp)
      simpa [writeAt, bytes] using this
    rw [w1]
    simp only [Option.bind_some, w2, output]
    rw [if_pos (by simp), cstr_append _ _ (by decide)]

theorem exists_text (n : Nat) : ∃ text : List Nat, 0 ∉ text ∧ text.length = n := by
  refine ⟨List.replicate n 65, ?_, List.length_replicate⟩
  intro h
  rw [List.mem_replicate] at h
  exact absurd h.2 (by decide)

theorem long_text (text : List Nat) (hl : text.length = intMax) (buf : List Nat) (hb : buf.length = 2049) :
    (⟨bytes "sys", .info⟩ : Logger).log false buf .info text = none := by
  obtain ⟨t, ht⟩ : ∃ t, tag .info = some t := ⟨_, rfl⟩
  have htl : t.length = 10 := by cases ht; rfl
  simp only [Logger.log, Logger.formatAndWrite]
  rw [if_neg (by simp), if_pos (by simp), ht]
  have hH : (t ++ cstr (bytes "sys") ++ bytes " - ").length = 16 := by
    have : (cstr (bytes "sys")).length = 3 := by decide
    have : (bytes " - ").length = 3 := by decide
    simp only [List.length_append]; omega
  simp only
  generalize t ++ cstr (bytes "sys") ++ bytes " - " = H at hH
  obtain ⟨C, h1, h2⟩ := print_form [] buf H (by simp [hH, intMax]) (by simp) (by simpa using hb)
  simp only [List.nil_append, List.length_nil, List.take_of_length_le (show H.length ≤ 2047 by omega), hH] at h1 h2
  have h1' : print buf 0 H = some (H ++ 0 :: C, (16 : Int)) := h1
  rw [h1']
  simp only [Option.bind_some]
  have : print (H ++ 0 :: C) 16 text = none := by
    simp only [print]
    rw [if_neg (by decide)]
    cases hs : snprintf (H ++ 0 :: C) (Int.toNat 16) ((messageLength : Int) - 16).toNat text with
    | none => rfl
    | some r =>
      obtain ⟨b, n⟩ := r
      have hn : n = some intMax := by
        simp only [snprintf] at hs
        rw [if_neg (by omega), if_neg (by decide)] at hs
        simp only [Option.bind_eq_bind, Option.pure_def] at hs
        rw [Option.bind_eq_some_iff] at hs
        obtain ⟨w, _, h2⟩ := hs
        cases h2
        rw [hl]
      subst hn
      have ha : addInt 16 (returned (some intMax)) = none := by
        have : ¬ (16 : Int) + returned (some intMax) ≤ (intMax : Int) := by show ¬ (16 : Int) + (intMax : Int) ≤ (intMax : Int); omega
        simp only [addInt, if_neg this]
      simp only [ha]
      rfl
  rw [this]
  rfl

/-- False of the code: with a text of 2^31 - 1 bytes the sum of the lengths overflows `int`. -/
theorem C78_long_violated : ∃ text : List Nat, 0 ∉ text ∧ text.length = intMax ∧ ∀ buf : List Nat, buf.length = 2049 →
    (⟨bytes "sys", .info⟩ : Logger).log false buf .info text = none := by
  obtain ⟨text, h0, hl⟩ := exists_text intMax
  exact ⟨text, h0, hl, long_text text hl⟩

/-! ### The hypotheses can be met -/

example : 0 ∉ bytes "started" ∧ (List.replicate 2049 7).length = 2049 := ⟨by decide, List.length_replicate⟩

/-- a heading that fills the buffer, a text with a newline at the end, and a short one -/
example : line (bytes "[INFO]    sys - ") (bytes "started") = bytes "[INFO]    sys - started\n" ∧
  line (bytes "[INFO]    sys - ") (bytes "started\n") = bytes "[INFO]    sys - started\n" ∧
  (line (List.replicate 3000 65) (bytes "lost")).length = 2048 := by decide +kernel

example : (⟨bytes "sys", .info⟩ : Logger).log false (List.replicate 2049 7) .info (bytes "started")
  = some (bytes "[INFO]    sys - started\n") := by decide +kernel

end Verif.Logger
