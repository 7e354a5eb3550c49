import Verif.Lemmas.Tokens

/-!
C03, C04, C05: tokenizing.  The specification is `pieces` (the runs between separators; `Verif/Lemmas/Tokens.lean`),
`dropTrailingEmpty` (forget the last piece if it is empty) and `nonEmptyPieces`; they are restated here by the laws that
determine them (`C03_spec_*`).
-/
set_option autoImplicit false

namespace Verif.Tokens

variable {α : Type}

/-! The specification of splitting. -/

/-- A text without separators is its only piece. -/
theorem C03_spec_noSeparator {p : α → Bool} {a : List α} (h : ∀ x ∈ a, p x = false) : pieces p a = [a] :=
  pieces_noSep h

/-- A separator splits. -/
theorem C03_spec_separator (p : α → Bool) (xs ys : List α) (s : α) (hs : p s = true) :
    pieces p (xs ++ s :: ys) = pieces p xs ++ pieces p ys := pieces_append_sep p xs ys s hs

/-- **C03**, `skip_empty = false`.  The iteration terminates after at most `xs.length` tokens without leaving the
sequence and yields the pieces except an empty last one. -/
theorem C03_tokens_keepEmpty (p : α → Bool) (xs : List α) (fuel : Nat) (hf : xs.length ≤ fuel) :
    tokens p xs false fuel = some (dropTrailingEmpty (pieces p xs)) := tokens_noskip p xs fuel hf

/-- **C03**, `skip_empty = true`.  The iteration terminates without leaving the sequence and yields the non-empty
pieces. -/
theorem C03_tokens_skipEmpty (p : α → Bool) (xs : List α) (fuel : Nat) (hf : xs.length ≤ fuel) :
    tokens p xs true fuel = some ((pieces p xs).filter (fun t => !t.isEmpty)) := tokens_skip p xs fuel hf

theorem mem_dropTrailingEmpty {ts : List (List α)} {t : List α} (h : t ∈ dropTrailingEmpty ts) : t ∈ ts := by
  unfold dropTrailingEmpty at h
  split at h
  · exact List.dropLast_subset ts h
  · exact h

/-- **C03**: no token contains a separator; with `skip_empty` no token is empty. -/
theorem C03_tokens_noSeparator (p : α → Bool) (xs : List α) (sk : Bool) (ts : List (List α)) (fuel : Nat)
    (hf : xs.length ≤ fuel) (h : tokens p xs sk fuel = some ts) :
    ∀ t ∈ ts, (∀ x ∈ t, p x = false) ∧ (sk = true → t ≠ []) := by
  intro t ht
  cases sk with
  | false =>
    rw [tokens_noskip p xs fuel hf] at h
    simp only [Option.some.injEq] at h
    subst h
    exact ⟨pieces_noSep_mem p xs t (mem_dropTrailingEmpty ht), by simp⟩
  | true =>
    rw [tokens_skip p xs fuel hf] at h
    simp only [Option.some.injEq] at h
    subst h
    obtain ⟨h1, h2⟩ := List.mem_filter.1 ht
    exact ⟨pieces_noSep_mem p xs t h1, fun _ => by simpa using h2⟩

theorem pieces_getLast? (p : α → Bool) (xs : List α) (x : α) :
    (pieces p (xs ++ [x])).getLast? = some [] ↔ p x = true := by
  cases hx : p x with
  | true => rw [pieces_append_sep p xs [] x hx]; simp [pieces]
  | false =>
    simp only [Bool.false_eq_true, iff_false]
    induction xs with
    | nil => simp [pieces, hx]
    | cons y ys ih =>
      obtain ⟨t, ts, heq⟩ := List.exists_cons_of_ne_nil (pieces_ne_nil p (ys ++ [x]))
      simp only [List.cons_append, pieces]
      rw [heq] at ih ⊢
      split
      · rw [List.getLast?_cons_cons]; exact ih
      · cases ts with
        | nil => simp
        | cons u us => rw [List.getLast?_cons_cons] at ih ⊢; exact ih

/-- **C04**, `skip_empty = false`: joining the tokens with the separator gives back the input, except for one final
separator if the input ends with one. -/
theorem C04_join_tokens [DecidableEq α] (sep : α) (xs : List α) (fuel : Nat) (hf : xs.length ≤ fuel) :
    ∃ ts, tokenize sep xs false fuel = some ts ∧
      [sep].intercalate ts ++ (if xs.getLast? = some sep then [sep] else []) = xs := by
  refine ⟨_, tokens_noskip _ xs fuel hf, ?_⟩
  have hI := pieces_intercalate sep xs
  rcases List.eq_nil_or_concat xs with rfl | ⟨ys, x, rfl⟩
  · simp [pieces, dropTrailingEmpty, List.intercalate]
  · rw [List.concat_eq_append] at *
    have hl := pieces_getLast? (fun c => decide (c = sep)) ys x
    simp only [decide_eq_true_eq] at hl
    rw [List.getLast?_concat]
    by_cases hx : x = sep
    · subst hx
      rw [if_pos rfl]
      have : dropTrailingEmpty (pieces (fun c => decide (c = x)) (ys ++ [x])) = pieces (fun c => decide (c = x)) ys := by
        rw [pieces_append_sep _ ys [] x (by simp)]
        unfold dropTrailingEmpty
        simp [pieces]
      rw [this, pieces_intercalate]
    · have hne : (pieces (fun c => decide (c = sep)) (ys ++ [x])).getLast? ≠ some [] := fun h => hx (hl.1 h)
      have : dropTrailingEmpty (pieces (fun c => decide (c = sep)) (ys ++ [x]))
          = pieces (fun c => decide (c = sep)) (ys ++ [x]) := by
        unfold dropTrailingEmpty
        split
        · rename_i h; exact absurd h hne
        · rfl
      rw [this, hI]
      simp [hx]

/-- **C04**, `skip_empty = true`: concatenating the tokens gives the input without its separators. -/
theorem C04_concat_tokens [DecidableEq α] (sep : α) (xs : List α) (fuel : Nat) (hf : xs.length ≤ fuel) :
    ∃ ts, tokenize sep xs true fuel = some ts ∧ ts.flatten = xs.filter (fun c => decide (c ≠ sep)) := by
  refine ⟨_, tokens_skip _ xs fuel hf, ?_⟩
  unfold nonEmptyPieces
  rw [flatten_filter_nonempty, pieces_flatten]
  simp

/-- **C05**: `is_root()` holds iff the path has no names. -/
theorem C05_isRoot_iff_no_names [DecidableEq α] (sep : α) (path : List α) (fuel : Nat) (hf : path.length ≤ fuel) :
    isRoot sep path = true ↔ pathNames sep path fuel = some [] := by
  unfold pathNames
  rw [tokens_skip _ path fuel hf]
  have hflat : (nonEmptyPieces (fun c => decide (c = sep)) path).flatten = path.filter (fun c => !decide (c = sep)) := by
    unfold nonEmptyPieces; rw [flatten_filter_nonempty, pieces_flatten]
  simp only [Option.some.injEq, isRoot, List.all_eq_true, decide_eq_true_eq]
  constructor
  · intro h
    have h0 : (nonEmptyPieces (fun c => decide (c = sep)) path).flatten = [] := by
      rw [hflat, List.filter_eq_nil_iff]; intro c hc; simp [h c hc]
    cases hn : nonEmptyPieces (fun c => decide (c = sep)) path with
    | nil => rfl
    | cons t ts =>
      exfalso
      have ht : t ∈ nonEmptyPieces (fun c => decide (c = sep)) path := by rw [hn]; simp
      rw [hn] at h0
      simp at h0
      have := (List.mem_filter.1 ht).2
      simp [h0.1] at this
  · intro h c hc
    rw [h] at hflat
    have := List.filter_eq_nil_iff.1 hflat.symm c hc
    simpa using this

/-- **C05**: the names of `p + sep + q` are the names of `p` followed by the names of `q`; hence repeated, leading and
trailing separators do not matter. -/
theorem C05_names_append [DecidableEq α] (sep : α) (p q : List α) (fuel : Nat) (hf : p.length + q.length + 1 ≤ fuel) :
    ∃ np nq, pathNames sep p fuel = some np ∧ pathNames sep q fuel = some nq ∧
      pathNames sep (p ++ sep :: q) fuel = some (np ++ nq) := by
  refine ⟨_, _, tokens_skip _ p fuel (by omega), tokens_skip _ q fuel (by omega), ?_⟩
  unfold pathNames
  rw [tokens_skip _ (p ++ sep :: q) fuel (by simp; omega)]
  simp [nonEmptyPieces, pieces_append_sep (fun c => decide (c = sep)) p q sep (by simp)]

/-- **C05**: surrounding and repeated separators are irrelevant. -/
theorem C05_extra_separators [DecidableEq α] (sep : α) (p q : List α) (fuel : Nat) (hf : p.length + q.length + 2 ≤ fuel) :
    pathNames sep (p ++ sep :: sep :: q) fuel = pathNames sep (p ++ sep :: q) fuel ∧
    pathNames sep (sep :: p) fuel = pathNames sep p fuel ∧
    pathNames sep (p ++ [sep]) fuel = pathNames sep p fuel := by
  unfold pathNames
  rw [tokens_skip _ (p ++ sep :: sep :: q) fuel (by simp; omega), tokens_skip _ (p ++ sep :: q) fuel (by simp; omega),
    tokens_skip _ (sep :: p) fuel (by simp; omega), tokens_skip _ p fuel (by omega),
    tokens_skip _ (p ++ [sep]) fuel (by simp; omega)]
  have h := fun r => pieces_append_sep (fun c => decide (c = sep)) p r sep (by simp)
  simp [nonEmptyPieces, pieces, h]

/-! Non-vacuity / sanity on concrete texts. -/

example : tokenize ',' "a,,b,".toList false 10 = some ["a".toList, [], "b".toList] := by decide +kernel
example : tokenize ',' ",,a,,b,".toList true 10 = some ["a".toList, "b".toList] := by decide +kernel
example : tokenize ',' "".toList false 0 = some [] := by decide +kernel
example : pathNames '.' "..a.bc".toList 6 = some ["a".toList, "bc".toList] := by decide +kernel
example : isRoot '.' "..".toList = true ∧ isRoot '.' ".a".toList = false := by decide +kernel

end Verif.Tokens
