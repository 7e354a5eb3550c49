import Verif.Model.Tokens
set_option autoImplicit false

namespace Verif.Tokens

variable {α : Type}

/-- Specification: the pieces between separators (a list with `n` separators has `n + 1` pieces). -/
def pieces (p : α → Bool) : List α → List (List α)
  | [] => [[]]
  | x :: xs =>
    if p x then [] :: pieces p xs
    else
      match pieces p xs with
      | [] => [[x]]
      | t :: ts => (x :: t) :: ts

/-- Specification: all pieces, without the last one if it is empty. -/
def dropTrailingEmpty (ts : List (List α)) : List (List α) :=
  match ts.getLast? with
  | some [] => ts.dropLast
  | _ => ts

theorem pieces_ne_nil (p : α → Bool) (xs : List α) : pieces p xs ≠ [] := by
  cases xs with
  | nil => simp [pieces]
  | cons x xs =>
    simp only [pieces]
    split
    · simp
    · split <;> simp

theorem pieces_noSep {p : α → Bool} {a : List α} (h : ∀ x ∈ a, p x = false) : pieces p a = [a] := by
  induction a with
  | nil => rfl
  | cons x a ih => simp [pieces, h x (by simp), ih (fun y hy => h y (by simp [hy]))]

theorem pieces_sep {p : α → Bool} {a r : List α} {s : α} (h : ∀ x ∈ a, p x = false) (hs : p s = true) :
    pieces p (a ++ s :: r) = a :: pieces p r := by
  induction a with
  | nil => simp [pieces, hs]
  | cons x a ih => simp [pieces, h x (by simp), ih (fun y hy => h y (by simp [hy]))]

/-- `moveIter` from the start of a separator-free run. -/
theorem moveIter_run {p : α → Bool} {pre a rest : List α} (h : ∀ x ∈ a, p x = false)
    (hr : rest = [] ∨ ∃ s r, rest = s :: r ∧ p s = true) :
    moveIter p (pre ++ (a ++ rest)) pre.length = some (pre.length + a.length) := by
  induction a generalizing pre with
  | nil =>
    unfold moveIter
    rcases hr with rfl | ⟨s, r, rfl, hs⟩
    · simp
    · have hne : ¬ pre.length = (pre ++ ([] ++ s :: r)).length := by simp
      rw [if_neg hne]
      have hget : (pre ++ ([] ++ s :: r))[pre.length]? = some s := by simp
      split
      · rename_i heq; rw [hget] at heq; simp at heq
      · rename_i x heq; rw [hget] at heq; simp at heq; subst heq; simp [hs]
  | cons x a ih =>
    unfold moveIter
    have hne : ¬ pre.length = (pre ++ (x :: a ++ rest)).length := by simp
    rw [if_neg hne]
    have hget : (pre ++ (x :: a ++ rest))[pre.length]? = some x := by simp
    split
    · rename_i heq; rw [hget] at heq; simp at heq
    · rename_i y heq; rw [hget] at heq; simp at heq; subst heq
      rw [h x (by simp)]
      have := ih (pre := pre ++ [x]) (fun y hy => h y (by simp [hy]))
      simp only [List.length_append, List.length_cons, List.length_nil, Nat.zero_add, List.append_assoc,
        List.cons_append, List.nil_append] at this
      simp only [Bool.false_eq_true, if_false, List.cons_append, List.length_cons, this]
      congr 1; omega

/-- Every list is a separator-free run followed by nothing or by a separator. -/
theorem exists_run (p : α → Bool) (xs : List α) :
    ∃ a rest, xs = a ++ rest ∧ (∀ x ∈ a, p x = false) ∧ (rest = [] ∨ ∃ s r, rest = s :: r ∧ p s = true) := by
  induction xs with
  | nil => exact ⟨[], [], rfl, by simp, Or.inl rfl⟩
  | cons x xs ih =>
    cases hx : p x with
    | true => exact ⟨[], x :: xs, rfl, by simp, Or.inr ⟨x, xs, rfl, hx⟩⟩
    | false =>
      obtain ⟨a, rest, rfl, h1, h2⟩ := ih
      exact ⟨x :: a, rest, rfl, by simpa [hx] using h1, h2⟩

theorem peek_run {pre a rest : List α} :
    peek (pre ++ (a ++ rest)) ⟨pre.length, pre.length + a.length⟩ = some a := by
  unfold peek
  rw [if_pos ⟨by simp, by simp⟩]
  congr 1
  rw [List.take_append]
  simp

/-- The end state. -/
theorem nextToken_end (p : α → Bool) (xs : List α) (sk : Bool) :
    nextToken p xs sk xs.length = some ⟨xs.length, xs.length⟩ := by
  unfold nextToken; simp

/-- `nextToken` at a separator, `skip_empty = false`. -/
theorem nextToken_noskip {p : α → Bool} {pre a rest : List α} {s : α} (h : ∀ x ∈ a, p x = false)
    (hr : rest = [] ∨ ∃ s r, rest = s :: r ∧ p s = true) :
    nextToken p (pre ++ s :: (a ++ rest)) false pre.length
      = some ⟨pre.length + 1, pre.length + 1 + a.length⟩ := by
  have hm := moveIter_run (pre := pre ++ [s]) h hr
  simp only [List.length_append, List.length_cons, List.length_nil, Nat.zero_add, List.append_assoc,
    List.cons_append, List.nil_append] at hm
  unfold nextToken
  rw [if_pos (by simp), if_neg (by simp)]
  split
  · rename_i heq; rw [hm] at heq; simp at heq
  · rename_i te' heq; rw [hm] at heq; simp at heq; simp [heq]

theorem dropTrailingEmpty_cons (a : List α) {ts : List (List α)} (h : ts ≠ []) :
    dropTrailingEmpty (a :: ts) = a :: dropTrailingEmpty ts := by
  obtain ⟨t, ts, rfl⟩ := List.exists_cons_of_ne_nil h
  unfold dropTrailingEmpty
  rw [List.getLast?_cons_cons]
  split <;> simp [List.dropLast]

theorem collect_noskip (p : α → Bool) : ∀ (n : Nat) (pre a rest : List α) (fuel : Nat),
    rest.length = n → (∀ x ∈ a, p x = false) → (rest = [] ∨ ∃ s r, rest = s :: r ∧ p s = true) →
    (a ++ rest).length ≤ fuel →
    collect p (pre ++ (a ++ rest)) false fuel ⟨pre.length, pre.length + a.length⟩
      = some (dropTrailingEmpty (pieces p (a ++ rest))) := by
  intro n
  induction n using Nat.strongRecOn with
  | ind n ih =>
    intro pre a rest fuel hn ha hr hf
    by_cases hnil : a ++ rest = []
    · obtain ⟨rfl, rfl⟩ := List.append_eq_nil_iff.1 hnil
      cases fuel <;> simp [collect, hasNext, pieces, dropTrailingEmpty]
    · obtain ⟨fuel, rfl⟩ : ∃ f, fuel = f + 1 := by
        cases fuel with
        | zero => exfalso; apply hnil; exact List.length_eq_zero_iff.1 (by omega)
        | succ f => exact ⟨f, rfl⟩
      have hpos : 0 < (a ++ rest).length := List.length_pos_iff.2 hnil
      simp only [collect]
      rw [if_pos (by simp only [hasNext]; rw [decide_eq_true_eq]; rw [List.length_append (as := pre)]; omega)]
      simp only [next, peek_run, Option.bind_some]
      rcases hr with rfl | ⟨s, r, rfl, hs⟩
      · have hlen : pre.length + a.length = (pre ++ (a ++ [])).length := by simp
        rw [hlen, nextToken_end]
        simp only [Option.map_some, Option.bind_some]
        have : collect p (pre ++ (a ++ [])) false fuel ⟨(pre ++ (a ++ [])).length, (pre ++ (a ++ [])).length⟩ = some [] := by
          cases fuel <;> simp [collect, hasNext]
        rw [this, List.append_nil, pieces_noSep ha]
        rw [List.append_nil] at hnil
        cases a with
        | nil => exact absurd rfl hnil
        | cons x a => simp [dropTrailingEmpty]
      · obtain ⟨b, rest', rfl, hb, hr'⟩ := exists_run p r
        have hnx := nextToken_noskip (pre := pre ++ a) (s := s) hb hr'
        have e1 : pre ++ (a ++ s :: (b ++ rest')) = pre ++ a ++ s :: (b ++ rest') := by simp
        rw [e1]
        rw [show pre.length + a.length = (pre ++ a).length by simp, hnx]
        simp only [Option.map_some, Option.bind_some]
        have := ih rest'.length (by subst hn; simp; omega) (pre ++ a ++ [s]) b rest' fuel rfl hb hr'
          (by simp at hf ⊢; omega)
        have e2 : pre ++ a ++ [s] ++ (b ++ rest') = pre ++ a ++ s :: (b ++ rest') := by simp
        rw [e2] at this
        rw [List.length_append (as := pre ++ a) (bs := [s])] at this
        simp only [List.length_cons, List.length_nil, Nat.zero_add] at this
        rw [this, pieces_sep ha hs, dropTrailingEmpty_cons _ (pieces_ne_nil _ _)]
        simp

/-- Non-empty pieces. -/
def nonEmptyPieces (p : α → Bool) (xs : List α) : List (List α) := (pieces p xs).filter (fun t => !t.isEmpty)

/-- `nextToken` with `skip_empty = true` lands on the next non-empty run or on the end. -/
theorem nextToken_skip (p : α → Bool) : ∀ (n : Nat) (pre r : List α) (s : α), r.length = n →
    ∃ pre' b rest', pre ++ s :: r = pre' ++ (b ++ rest') ∧ (∀ x ∈ b, p x = false) ∧
      (rest' = [] ∨ ∃ s r, rest' = s :: r ∧ p s = true) ∧ (b = [] → rest' = []) ∧
      nextToken p (pre ++ s :: r) true pre.length = some ⟨pre'.length, pre'.length + b.length⟩ ∧
      nonEmptyPieces p r = nonEmptyPieces p (b ++ rest') ∧ (b ++ rest').length ≤ r.length := by
  intro n
  induction n using Nat.strongRecOn with
  | ind n ih =>
    intro pre r s hn
    obtain ⟨b, rest, rfl, hb, hr⟩ := exists_run p r
    have hm := moveIter_run (pre := pre ++ [s]) hb hr
    simp only [List.length_append, List.length_cons, List.length_nil, Nat.zero_add, List.append_assoc,
      List.cons_append, List.nil_append] at hm
    have hstep : nextToken p (pre ++ s :: (b ++ rest)) true pre.length =
        if b.isEmpty = true then nextToken p (pre ++ s :: (b ++ rest)) true (pre.length + 1)
        else some ⟨pre.length + 1, pre.length + 1 + b.length⟩ := by
      rw [nextToken.eq_def p _ true pre.length]
      rw [if_pos (by simp), if_neg (by simp)]
      split
      · rename_i heq; rw [hm] at heq; simp at heq
      · rename_i te' heq
        rw [hm] at heq
        simp only [Option.some.injEq] at heq
        subst heq
        by_cases hb0 : b = []
        · subst hb0; simp
        · have : b.length ≠ 0 := fun h => hb0 (List.length_eq_zero_iff.1 h)
          rw [if_neg (by omega), if_neg (by simpa using hb0)]
    by_cases hb0 : b = []
    · subst hb0
      rw [if_pos (by simp)] at hstep
      rcases hr with rfl | ⟨s', r', rfl, hs'⟩
      · refine ⟨pre ++ [s], [], [], by simp, by simp, Or.inl rfl, fun _ => rfl, ?_, rfl, by simp⟩
        rw [hstep]
        have := nextToken_end p (pre ++ s :: ([] ++ [])) true
        simp only [List.append_nil, List.length_append, List.length_cons, List.length_nil, Nat.zero_add] at this
        simpa using this
      · obtain ⟨pre', b, rest', h1, h2, h3, h4, h5, h6, h7⟩ :=
          ih r'.length (by subst hn; simp) (pre ++ [s]) r' s' rfl
        simp only [List.append_assoc, List.cons_append, List.nil_append, List.length_append, List.length_cons,
          List.length_nil, Nat.zero_add] at h1 h5
        refine ⟨pre', b, rest', by simpa using h1, h2, h3, h4, ?_, ?_, ?_⟩
        · rw [hstep]; simpa using h5
        · rw [← h6]; simp [nonEmptyPieces, pieces, hs']
        · simp at h7 ⊢; omega
    · rw [if_neg (by simpa using hb0)] at hstep
      refine ⟨pre ++ [s], b, rest, by simp, hb, hr, fun h => absurd h hb0, ?_, rfl, Nat.le_refl _⟩
      rw [hstep]; simp

theorem collect_skip (p : α → Bool) : ∀ (n : Nat) (pre a rest : List α) (fuel : Nat),
    (a ++ rest).length = n → (∀ x ∈ a, p x = false) → (rest = [] ∨ ∃ s r, rest = s :: r ∧ p s = true) →
    (a = [] → rest = []) → (a ++ rest).length ≤ fuel →
    collect p (pre ++ (a ++ rest)) true fuel ⟨pre.length, pre.length + a.length⟩
      = some (nonEmptyPieces p (a ++ rest)) := by
  intro n
  induction n using Nat.strongRecOn with
  | ind n ih =>
    intro pre a rest fuel hn ha hr hemp hf
    by_cases hnil : a = []
    · subst hnil
      obtain rfl := hemp rfl
      cases fuel <;> simp [collect, hasNext, nonEmptyPieces, pieces]
    · have hpos : 0 < a.length := List.length_pos_iff.2 hnil
      obtain ⟨fuel, rfl⟩ : ∃ f, fuel = f + 1 := by
        cases fuel with
        | zero => exfalso; rw [List.length_append] at hf; omega
        | succ f => exact ⟨f, rfl⟩
      simp only [collect]
      rw [if_pos (by simp only [hasNext]; rw [decide_eq_true_eq]; rw [List.length_append (as := pre), List.length_append]; omega)]
      simp only [next, peek_run, Option.bind_some]
      rcases hr with rfl | ⟨s, r, rfl, hs⟩
      · have hlen : pre.length + a.length = (pre ++ (a ++ [])).length := by simp
        rw [hlen, nextToken_end]
        simp only [Option.map_some, Option.bind_some]
        have : collect p (pre ++ (a ++ [])) true fuel ⟨(pre ++ (a ++ [])).length, (pre ++ (a ++ [])).length⟩ = some [] := by
          cases fuel <;> simp [collect, hasNext]
        rw [this, List.append_nil]
        simp [nonEmptyPieces, pieces_noSep ha, hnil]
      · obtain ⟨pre', b, rest', h1, h2, h3, h4, h5, h6, h7⟩ := nextToken_skip p r.length (pre ++ a) r s rfl
        have e1 : pre ++ (a ++ s :: r) = pre ++ a ++ s :: r := by simp
        rw [e1]
        rw [show pre.length + a.length = (pre ++ a).length by simp, h5]
        simp only [Option.map_some, Option.bind_some]
        have := ih (b ++ rest').length (by subst hn; simp at h7 ⊢; omega) pre' b rest' fuel rfl h2 h3 h4
          (by simp at hf h7 ⊢; omega)
        rw [h1, this]
        simp only [Option.map_some, nonEmptyPieces] at h6 ⊢
        rw [pieces_sep ha hs]
        simp [hnil, h6]

theorem tokens_noskip (p : α → Bool) (xs : List α) (fuel : Nat) (hf : xs.length ≤ fuel) :
    tokens p xs false fuel = some (dropTrailingEmpty (pieces p xs)) := by
  obtain ⟨a, rest, rfl, ha, hr⟩ := exists_run p xs
  have hm := moveIter_run (pre := []) ha hr
  simp only [List.nil_append, List.length_nil, Nat.zero_add] at hm
  have := collect_noskip p rest.length [] a rest fuel rfl ha hr hf
  simp only [List.nil_append, List.length_nil, Nat.zero_add] at this
  simp [tokens, initToken, hm, this]

theorem tokens_skip (p : α → Bool) (xs : List α) (fuel : Nat) (hf : xs.length ≤ fuel) :
    tokens p xs true fuel = some (nonEmptyPieces p xs) := by
  obtain ⟨a, rest, rfl, ha, hr⟩ := exists_run p xs
  have hm := moveIter_run (pre := []) ha hr
  simp only [List.nil_append, List.length_nil, Nat.zero_add] at hm
  by_cases ha0 : a = []
  · subst ha0
    rcases hr with rfl | ⟨s, r, rfl, hs⟩
    · have hn := nextToken_end p ([] : List α) true
      simp only [List.length_nil] at hn
      simp only [List.append_nil, List.length_nil] at hm
      simp only [tokens, initToken, List.append_nil, hm, hn]
      cases fuel <;> simp [collect, hasNext, nonEmptyPieces, pieces]
    · obtain ⟨pre', b, rest', h1, h2, h3, h4, h5, h6, h7⟩ := nextToken_skip p r.length [] r s rfl
      simp only [List.nil_append, List.length_nil] at h1 h5 hm hf ⊢
      have := collect_skip p _ pre' b rest' fuel rfl h2 h3 h4 (by simp at hf h7 ⊢; omega)
      simp only [tokens, initToken, hm, h5]
      simp only [and_self, if_true, Option.bind_some]
      rw [h1, this, ← h6, ← h1]
      simp [nonEmptyPieces, pieces, hs]
  · have hlen : ¬ (0 = a.length) := fun h => ha0 (List.length_eq_zero_iff.1 h.symm)
    have := collect_skip p _ [] a rest fuel rfl ha hr (fun h => absurd h ha0) hf
    simp only [List.nil_append, List.length_nil, Nat.zero_add] at this
    simp [tokens, initToken, hm, hlen, this]

/-! Laws of `pieces`. -/

theorem pieces_noSep_mem (p : α → Bool) (xs : List α) : ∀ t ∈ pieces p xs, ∀ x ∈ t, p x = false := by
  induction xs with
  | nil => simp [pieces]
  | cons x xs ih =>
    simp only [pieces]
    split
    · intro t ht
      rcases List.mem_cons.1 ht with rfl | ht
      · simp
      · exact ih t ht
    · rename_i hx
      split
      · simp at *; exact hx
      · rename_i t ts heq
        rw [heq] at ih
        intro u hu
        rcases List.mem_cons.1 hu with rfl | hu
        · intro y hy
          rcases List.mem_cons.1 hy with rfl | hy
          · simpa using hx
          · exact ih t (by simp) y hy
        · exact ih u (by simp [hu])

theorem pieces_flatten (p : α → Bool) (xs : List α) : (pieces p xs).flatten = xs.filter (fun x => !p x) := by
  induction xs with
  | nil => rfl
  | cons x xs ih =>
    simp only [pieces]
    split
    · rename_i hx; simp [hx, ih]
    · rename_i hx
      split
      · rename_i heq; exact absurd heq (pieces_ne_nil p xs)
      · rename_i t ts heq
        rw [heq] at ih
        simp only [List.flatten_cons] at ih
        simp [hx, ← ih]

theorem flatten_filter_nonempty (ts : List (List α)) : (ts.filter (fun t => !t.isEmpty)).flatten = ts.flatten := by
  induction ts with
  | nil => rfl
  | cons t ts ih =>
    cases t with
    | nil => simp [ih]
    | cons x t => simp [ih]

theorem pieces_intercalate [DecidableEq α] (c : α) (xs : List α) :
    [c].intercalate (pieces (fun x => decide (x = c)) xs) = xs := by
  induction xs with
  | nil => simp [pieces, List.intercalate]
  | cons x xs ih =>
    obtain ⟨t, ts, heq⟩ := List.exists_cons_of_ne_nil (pieces_ne_nil (fun x => decide (x = c)) xs)
    simp only [pieces]
    split
    · rename_i hx
      simp at hx; subst hx
      rw [heq] at ih ⊢
      simp only [List.intercalate, List.intersperse_cons_cons, List.flatten_cons] at ih ⊢
      simp [ih]
    · rw [heq] at ih ⊢
      simp only
      cases ts with
      | nil => simp [List.intercalate] at ih ⊢; exact ih
      | cons u us =>
        simp only [List.intercalate, List.intersperse_cons_cons, List.flatten_cons] at ih ⊢
        simpa using ih

theorem pieces_append_sep (p : α → Bool) (xs ys : List α) (s : α) (hs : p s = true) :
    pieces p (xs ++ s :: ys) = pieces p xs ++ pieces p ys := by
  induction xs with
  | nil => simp [pieces, hs]
  | cons x xs ih =>
    simp only [List.cons_append, pieces, ih]
    split
    · rfl
    · obtain ⟨t, ts, heq⟩ := List.exists_cons_of_ne_nil (pieces_ne_nil p xs)
      rw [heq]; simp

end Verif.Tokens
