/-!
Model of `yato::token_iterator` (`/repo/include/yato/token_iterator.h`) and of the config path tokenizer
(`/repo/modules/config/yato/config/path.h`).

The underlying sequence `[first, last)` is a list `xs`, iterators are positions `0 … xs.length`.  `Option.none` is
undefined behaviour (dereferencing or incrementing the end iterator).  The predicate storage (`storage.h`) is not
modelled here: the predicate is a pure function.
-/
set_option autoImplicit false

namespace Verif.Tokens

variable {α : Type}

/-- `move_iterator_` (token_iterator.h l.104-112): advance until the end or a separator. -/
def moveIter (p : α → Bool) (xs : List α) (i : Nat) : Option Nat :=
  if i = xs.length then some i
  else
    match _h : xs[i]? with
    | none => none
    | some x => if p x then some i else moveIter p xs (i + 1)
termination_by xs.length - i
decreasing_by
  have := (List.getElem?_eq_some_iff.1 _h).1
  omega

/-- `m_token_begin`, `m_token_end` (l.98-99). -/
structure State where
  tokBegin : Nat
  tokEnd : Nat
deriving DecidableEq, Repr

theorem moveIter_ge {p : α → Bool} {xs : List α} {i j : Nat} (h : moveIter p xs i = some j) : i ≤ j := by
  fun_induction moveIter p xs i with
  | case1 => simp at h; omega
  | case2 => simp at h
  | case3 => simp at h; omega
  | case4 i _ _ _ _ ih => have := ih h; omega

/-- `next_token_` (l.123-136); only `m_token_end` is read.  The `do … while` loop is a recursion. -/
def nextToken (p : α → Bool) (xs : List α) (skipEmpty : Bool) (te : Nat) : Option State :=
  if te ≠ xs.length then
    if xs.length < te then none                    -- incrementing past the end
    else
      match _h : moveIter p xs (te + 1) with
      | none => none
      | some te' =>
        if skipEmpty ∧ te + 1 = te' then nextToken p xs skipEmpty te'
        else some ⟨te + 1, te'⟩
  else some ⟨xs.length, te⟩
termination_by xs.length - te
decreasing_by omega

/-- Constructor and `init_token_` (l.114-121, 139-151). -/
def initToken (p : α → Bool) (xs : List α) (skipEmpty : Bool) : Option State :=
  match moveIter p xs 0 with
  | none => none
  | some te => if skipEmpty ∧ 0 = te then nextToken p xs skipEmpty te else some ⟨0, te⟩

/-- `has_next` (l.161-164). -/
def hasNext (xs : List α) (s : State) : Bool := s.tokBegin ≠ xs.length

/-- `peek` (l.171-174): the range `[m_token_begin, m_token_end)` as a list; `none` if it is not a valid range. -/
def peek (xs : List α) (s : State) : Option (List α) :=
  if s.tokBegin ≤ s.tokEnd ∧ s.tokEnd ≤ xs.length then some ((xs.take s.tokEnd).drop s.tokBegin) else none

/-- `next` (l.176-182). `YATO_REQUIRES(has_next())` is a no-op in release builds. -/
def next (p : α → Bool) (xs : List α) (skipEmpty : Bool) (s : State) : Option (List α × State) :=
  (peek xs s).bind fun t => (nextToken p xs skipEmpty s.tokEnd).map (fun s' => (t, s'))

/-- `while (it.has_next()) out.push_back(it.next());` with at most `fuel` iterations; `none` if the loop is still
running after them (or if UB happened). -/
def collect (p : α → Bool) (xs : List α) (skipEmpty : Bool) : Nat → State → Option (List (List α))
  | 0, s => if hasNext xs s then none else some []
  | fuel + 1, s =>
    if hasNext xs s then
      (next p xs skipEmpty s).bind fun (t, s') => (collect p xs skipEmpty fuel s').map (fun ts => t :: ts)
    else some []

/-- All tokens produced by a fresh iterator. -/
def tokens (p : α → Bool) (xs : List α) (skipEmpty : Bool) (fuel : Nat) : Option (List (List α)) :=
  (initToken p xs skipEmpty).bind (collect p xs skipEmpty fuel)

/-- `yato::tokenize(str, sep, skip_empty)` (l.256-260) fully iterated. -/
def tokenize [DecidableEq α] (sep : α) (xs : List α) (skipEmpty : Bool) (fuel : Nat) : Option (List (List α)) :=
  tokens (fun c => decide (c = sep)) xs skipEmpty fuel

/-- `basic_path::tokenize` (path.h l.79-82, `skips_empty_names = true` l.54) fully iterated: the names of a path. -/
def pathNames [DecidableEq α] (sep : α) (path : List α) (fuel : Nat) : Option (List (List α)) :=
  tokens (fun c => decide (c = sep)) path true fuel

/-- `basic_path::is_root` (path.h l.95-98). -/
def isRoot [DecidableEq α] (sep : α) (path : List α) : Bool := path.all (fun c => decide (c = sep))

end Verif.Tokens
