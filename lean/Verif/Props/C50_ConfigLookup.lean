import Verif.Lemmas.Config

/-!
# C50 and C57: looking up a path in a config
-/
set_option autoImplicit false

namespace Verif.Config

open Tokens (nonEmptyPieces)

/-! ## Specification -/

/-- `v` is the value of the first entry with this key, in an object. -/
def Holds (n : Node) (key : Str) (v : Value) : Prop :=
  n.kind ≠ .array ∧ v ≠ .hole ∧ ∃ before after, n.entries = before ++ (key, v) :: after ∧ ∀ e ∈ before, e.1 ≠ key

/-- Following names through nested configs leads to a value. -/
inductive Reach : Config → List Str → Value → Prop
  | last (n : Node) (t : Str) (v : Value) : Holds n t v → Reach (some n) [t] v
  | step (n : Node) (t : Str) (k : Kind) (es : Entries) (ts : List Str) (v : Value) : Holds n t (.conf k es) → Reach (some ⟨k, es⟩) ts v → Reach (some n) (t :: ts) v

/-! ## The tokenizer of a path is a list of names -/

/-- The tokenizer in state `s` still has the names `ts`. -/
def Sim (xs : Str) (s : Tokens.State) (ts : List Str) : Prop :=
  ∃ pre a rest, xs = pre ++ (a ++ rest) ∧ (∀ x ∈ a, dot x = false) ∧ (rest = [] ∨ ∃ c r, rest = c :: r ∧ dot c = true) ∧ (a = [] → rest = []) ∧
    s = ⟨pre.length, pre.length + a.length⟩ ∧ ts = nonEmptyPieces dot (a ++ rest)

theorem sim_init (xs : Str) : ∃ s, Tokens.initToken dot xs true = some s ∧ Sim xs s (nonEmptyPieces dot xs) := by
  obtain ⟨a, rest, rfl, ha, hr⟩ := Tokens.exists_run dot xs
  have hm := Tokens.moveIter_run (pre := []) ha hr
  simp only [List.nil_append, List.length_nil, Nat.zero_add] at hm
  by_cases ha0 : a = []
  · subst ha0
    rcases hr with rfl | ⟨c, r, rfl, hs⟩
    · refine ⟨⟨0, 0⟩, ?_, [], [], [], rfl, by simp, Or.inl rfl, fun _ => rfl, rfl, rfl⟩
      have hn := Tokens.nextToken_end dot ([] : Str) true
      simp only [List.length_nil] at hn
      simp only [List.append_nil, List.length_nil] at hm
      simp [Tokens.initToken, hm, hn]
    · obtain ⟨pre', b, rest', h1, h2, h3, h4, h5, h6, -⟩ := Tokens.nextToken_skip dot r.length [] r c rfl
      simp only [List.nil_append, List.length_nil] at h1 h5 hm ⊢
      refine ⟨⟨pre'.length, pre'.length + b.length⟩, ?_, pre', b, rest', h1, h2, h3, h4, rfl, ?_⟩
      · simp [Tokens.initToken, hm, h5]
      · rw [← h6]; simp [nonEmptyPieces, Tokens.pieces, hs]
  · have hlen : ¬ (0 = a.length) := fun h => ha0 (List.length_eq_zero_iff.1 h.symm)
    refine ⟨⟨0, a.length⟩, by simp [Tokens.initToken, hm, hlen], [], a, rest, rfl, ha, hr, fun h => absurd h ha0, by simp, rfl⟩

/-- `has_next()` says whether there are names left, and `next()` gives the first of them, or the empty name if there are none. -/
theorem tokenizer_ok {xs : Str} {s : Tokens.State} {ts : List Str} (h : Sim xs s ts) :
    Tokens.hasNext xs s = !ts.isEmpty ∧ ∃ s', Tokens.next dot xs true s = some ((nextName ts).1, s') ∧ Sim xs s' (nextName ts).2 := by
  obtain ⟨pre, a, rest, rfl, ha, hr, h0, rfl, rfl⟩ := h
  by_cases ha0 : a = []
  · subst ha0
    have := h0 rfl
    subst this
    refine ⟨by simp [Tokens.hasNext, nonEmptyPieces, Tokens.pieces], ⟨pre.length, pre.length⟩, ?_, pre, [], [], rfl, by simp, Or.inl rfl, fun _ => rfl, rfl, ?_⟩
    · have hn := Tokens.nextToken_end dot pre true
      have hp := Tokens.peek_run (pre := pre) (a := ([] : Str)) (rest := [])
      simp only [List.append_nil, List.length_nil, Nat.add_zero] at hp
      simp [Tokens.next, hp, hn, nonEmptyPieces, Tokens.pieces, nextName]
    · simp [nonEmptyPieces, Tokens.pieces, nextName]
  · have hl : a.length ≠ 0 := fun h => ha0 (List.length_eq_zero_iff.1 h)
    have hp := Tokens.peek_run (pre := pre) (a := a) (rest := rest)
    have hempty : a.isEmpty = false := by cases a with | nil => exact absurd rfl ha0 | cons => rfl
    rcases hr with rfl | ⟨c, r, rfl, hs⟩
    · have hnames : nonEmptyPieces dot (a ++ []) = [a] := by
        rw [List.append_nil, nonEmptyPieces, Tokens.pieces_noSep ha]; simp [hempty]
      rw [hnames]
      refine ⟨by simp [Tokens.hasNext]; exact ha0, ⟨(pre ++ (a ++ [])).length, (pre ++ (a ++ [])).length⟩, ?_, pre ++ (a ++ []), [], [], by simp, by simp, Or.inl rfl, fun _ => rfl, by simp, ?_⟩
      · have hn := Tokens.nextToken_end dot (pre ++ (a ++ [])) true
        have e : pre.length + a.length = (pre ++ (a ++ [])).length := by simp
        simp only [Tokens.next, hp, Option.bind_some]
        rw [e, hn]
        rfl
      · simp [nonEmptyPieces, Tokens.pieces, nextName]
    · have hnames : nonEmptyPieces dot (a ++ c :: r) = a :: nonEmptyPieces dot r := by
        rw [nonEmptyPieces, Tokens.pieces_sep ha hs]; simp [hempty, nonEmptyPieces]
      rw [hnames]
      obtain ⟨pre', b, rest', h1, h2, h3, h4, h5, h6, -⟩ := Tokens.nextToken_skip dot r.length (pre ++ a) r c rfl
      simp only [List.append_assoc, List.length_append] at h1 h5
      refine ⟨by simp [Tokens.hasNext], ⟨pre'.length, pre'.length + b.length⟩, ?_, pre', b, rest', h1, h2, h3, h4, rfl, h6⟩
      simp only [Tokens.next, hp, Option.bind_some, h5]
      rfl

theorem names_eq (path : Str) : names path = nonEmptyPieces dot path := by
  unfold names
  rw [Tokens.pathNames, Tokens.tokens_skip _ path path.length (Nat.le_refl _)]
  rfl

theorem at_eq (c : Config) (path : Str) : at_ c path = resolve c (nonEmptyPieces dot path) := by rw [at_, names_eq]

/-! ## C50 -/

theorem holds_iff {n : Node} (h : n.Ok) (t : Str) (v : Value) : (∃ i, n.find t = some (i, v)) ↔ Holds n t v := by
  cases ha : n.kind.assoc with
  | false =>
    have : n.kind = .array := by
      obtain ⟨k, es⟩ := n
      cases k <;> simp [Kind.assoc] at ha ⊢
    simp [find_array ha, Holds, this]
  | true =>
    have hk : n.kind ≠ .array := by intro e; rw [e] at ha; simp [Kind.assoc] at ha
    rw [find_eq h ha]
    constructor
    · rintro ⟨i, hi⟩
      cases e : first n.entries t with
      | none => rw [e] at hi; simp at hi
      | some x =>
        rw [e] at hi
        obtain ⟨a, b, h1, h2⟩ := first_some_split e
        have hx : x = v ∧ v ≠ .hole := by
          cases x <;> simp [notHole] at hi <;> (obtain ⟨-, rfl⟩ := hi; exact ⟨rfl, by simp⟩)
        obtain ⟨rfl, hv⟩ := hx
        exact ⟨hk, hv, a, b, h1, fun e he hc => h2 (List.mem_map.2 ⟨e, he, hc⟩)⟩
    · rintro ⟨-, hv, a, b, h1, h2⟩
      have : first n.entries t = some v := by
        rw [h1, first_append]
        have : first a t = none := by
          rw [first_none]; intro hm
          obtain ⟨e, he, hc⟩ := List.mem_map.1 hm
          exact h2 e he hc
        simp [this, first]
      rw [this]
      refine ⟨firstIndex n.entries t, ?_⟩
      cases v <;> simp [notHole] at hv ⊢

theorem get_iff {c : Config} (hc : c.Ok) (ts : List Str) (v : Value) : get c ts = some v ↔ Reach c ts v := by
  induction ts generalizing c with
  | nil =>
    rw [get_nil]
    constructor
    · intro h; simp at h
    · intro h; cases h
  | cons t ts ih =>
    cases c with
    | none =>
      rw [get_null]
      constructor
      · intro h; simp at h
      · intro h; cases h
    | some n =>
      cases ts with
      | nil =>
        simp only [get, resolve]
        constructor
        · intro h
          cases e : n.find t with
          | none => rw [e] at h; simp at h
          | some p =>
            rw [e] at h; simp at h
            obtain ⟨i, x⟩ := p
            simp at h; subst h
            exact .last n t x ((holds_iff hc.1 t x).1 ⟨i, e⟩)
        · intro h
          cases h with
          | last _ _ _ hh => obtain ⟨i, hi⟩ := (holds_iff hc.1 t v).2 hh; simp [hi]
          | step _ _ _ _ _ _ h1 h2 => cases h2
      | cons t' ts =>
        have hstep : get (some n) (t :: t' :: ts) = match n.find t with | none => none | some (_, x) => get x.asConfig (t' :: ts) := by
          simp only [get, resolve]
          cases n.find t with
          | none => rfl
          | some p => rfl
        rw [hstep]
        constructor
        · intro h
          cases e : n.find t with
          | none => rw [e] at h; simp at h
          | some p =>
            obtain ⟨i, x⟩ := p
            rw [e] at h
            simp only at h
            have hh := (holds_iff hc.1 t x).1 ⟨i, e⟩
            cases x with
            | conf k es =>
              obtain ⟨hk, hv, a, b, h1, h2⟩ := hh
              have hok : Value.Ok (.conf k es) := hc.2 (t, .conf k es) (by rw [h1]; simp)
              exact .step n t k es (t' :: ts) v ⟨hk, hv, a, b, h1, h2⟩ ((ih (asConfig_ok hok)).1 h)
            | hole => simp [Value.asConfig, get_null] at h
            | scalar s => simp [Value.asConfig, get_null] at h
            | null => simp [Value.asConfig, get_null] at h
        · intro h
          cases h with
          | step _ _ k es _ _ h1 h2 =>
            obtain ⟨i, hi⟩ := (holds_iff hc.1 t (.conf k es)).2 h1
            rw [hi]
            obtain ⟨hk, hv, a, b, h3, h4⟩ := h1
            have hok : Value.Ok (.conf k es) := hc.2 (t, .conf k es) (by rw [h3]; simp)
            exact (ih (asConfig_ok hok)).2 h2

/-- The value at a path is the one reached by following the non-empty names of the path through nested configs; there is none if a step is missing or not a config. -/
theorem C50 (c : Config) (hc : c.Ok) (path : Str) (v : Value) : (at_ c path).map (·.2) = some v ↔ Reach c (nonEmptyPieces dot path) v := by
  rw [← get_iff hc, get, at_, names_eq]

/-- No path leads to two values. -/
theorem C50_unique (c : Config) (hc : c.Ok) (ts : List Str) (v w : Value) (h1 : Reach c ts v) (h2 : Reach c ts w) : v = w := by
  have a := (get_iff hc ts v).2 h1
  have b := (get_iff hc ts w).2 h2
  rw [a] at b
  exact Option.some.inj b

/-! ## C57 -/

/-- In a null config nothing is found: `at` gives nothing and `find` the end, whatever the path. -/
theorem C57_null (path : Str) : at_ none path = none ∧ findPos none path = 0 ∧ deref none (findPos none path) = none := by
  have h : at_ none path = none := by
    rw [at_eq]
    cases nonEmptyPieces dot path with
    | nil => rfl
    | cons t ts => cases ts <;> rfl
  have h' : findPos none path = 0 := by rw [findPos, h]
  exact ⟨h, h', by rw [h']; rfl⟩

/-- For a path of one name, the iterator of `find` points to the entry of `at`, or to the end if there is none. -/
theorem C57_partial (n : Node) (hn : Config.Ok (some n)) (path : Str) (t : Str) (ht : nonEmptyPieces dot path = [t]) :
    match at_ (some n) path with
    | some (i, v) => findPos (some n) path = i ∧ i < n.size ∧ deref (some n) (findPos (some n) path) = some (t, v)
    | none => findPos (some n) path = n.size ∧ deref (some n) (findPos (some n) path) = none := by
  have hat : at_ (some n) path = n.find t := by rw [at_, names_eq, ht]; rfl
  have hpos : findPos (some n) path = match n.find t with | some (i, _) => i | none => n.size := by
    unfold findPos; rw [hat]
    cases n.find t <;> rfl
  rw [hat]
  cases e : n.find t with
  | none =>
    rw [hpos, e]
    exact ⟨rfl, by simp [deref, Node.findIndex, Node.size]⟩
  | some p =>
    obtain ⟨i, v⟩ := p
    rw [hpos, e]
    simp only [deref, Node.findIndex]
    cases ha : n.kind.assoc with
    | false => rw [find_array ha] at e; simp at e
    | true =>
      unfold Node.find at e
      have hk : n.findKey t = some (i, v) := by
        cases hk : n.findKey t with
        | none => rw [hk] at e; simp at e
        | some q =>
          obtain ⟨j, x⟩ := q
          rw [hk] at e
          cases x <;> simp at e <;> (obtain ⟨rfl, rfl⟩ := e; rfl)
      have hget : n.entries[i]? = some (t, v) := by
        obtain ⟨kind, es⟩ := n
        cases kind with
        | map =>
          obtain ⟨h1, h2⟩ := keyAt_fst (p := (i, v)) (show keyAt es t _ = _ from hk)
          simp only at h1; subst h1; exact h2
        | multimap =>
          obtain ⟨h1, h2⟩ := keyAt_fst (p := (i, v)) (show keyAt es t _ = _ from hk)
          simp only at h1; subst h1; exact h2
        | ordered =>
          obtain ⟨h1, h2⟩ := keyAt_fst (p := (i, v)) (show keyAt es t _ = _ from hk)
          simp only at h1; subst h1; exact h2
        | array => simp [Kind.assoc] at ha
      refine ⟨trivial, ?_, hget⟩
      exact (List.getElem?_eq_some_iff.1 hget).1

def nested : Node := ⟨.map, [(['a'], .scalar (.int 1)), (['b'], .conf .map [(['x'], .scalar (.int 2))])]⟩

theorem nested_ok : Config.Ok (some nested) := by
  simp [Config.Ok, nested, Node.Ok, KeysOk, Value.Ok, entriesOk, strLt]

/-- For a nested path the iterator of `find` points to another entry. -/
theorem C57_nested_violated : ∃ c path, c.Ok ∧ (at_ c path).map (·.2) = some (.scalar (.int 2)) ∧ deref c (findPos c path) = some (['a'], .scalar (.int 1)) :=
  ⟨some nested, ['b', '.', 'x'], nested_ok, by rw [at_eq]; rfl, by rw [findPos, at_eq]; rfl⟩

example : (at_ (some nested) ['.', 'b', '.', '.', 'x']).map (·.2) = some (.scalar (.int 2)) := by rw [at_eq]; rfl

example : (at_ (some nested) ['a', '.', 'x']).map (·.2) = none := by rw [at_eq]; rfl

end Verif.Config
