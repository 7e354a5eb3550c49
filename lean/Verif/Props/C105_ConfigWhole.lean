import Verif.Model.ConfigWhole
import Verif.Props.C50_ConfigLookup
import Verif.Props.C63_ConfigTyped
import Verif.Props.C94_ConfigProps

/-!
# C105: configs as vectors and maps, and values by path and index
-/
set_option autoImplicit false

namespace Verif.Config

/-! ## Specification -/

/-- The outcome of reading things in turn, the first at 0: if all of the first `n` can be read there is a result, otherwise the first that cannot be read decides. -/
inductive InTurn {α : Type} (f : Nat → Res α) (n : Nat) : Res Unit → Prop
  | all : (∀ i, i < n → ∃ x, f i = .ok x) → InTurn f n (.ok ())
  | throws (i : Nat) : i < n → f i = .error → (∀ j, j < i → ∃ x, f j = .ok x) → InTurn f n .error
  | undefined (i : Nat) : i < n → f i = .ub → (∀ j, j < i → ∃ x, f j = .ok x) → InTurn f n .ub

/-- the outcome without the result -/
def Res.outcome {α : Type} : Res α → Res Unit
  | .ok _ => .ok ()
  | .error => .error
  | .ub => .ub

/-- the values of all the entries with a name, in the order of the entries -/
def valuesNamed {V α : Type} (read : V → Res α) (s : Shown V) (key : Str) : List (Res α) :=
  ((List.range s.size).filter fun i => decide ((s.byIndex i).map (·.1) = some key)).map (readIndex read s)

/-! ## Reading the entries of a list -/

/-- the loops over a list of entries -/
def listLoop {V α β : Type} (read : V → Res α) (put : β → Str → α → β) : List (Str × V) → β → Res β
  | [], acc => .ok acc
  | (k, v) :: r, acc => (read v).bind fun x => listLoop read put r (put acc k x)

theorem shown_list {V : Type} {s : Shown V} (h : Truthful s) : ∃ es : List (Str × V), s.size = es.length ∧ ∀ i, s.byIndex i = es[i]? := by
  have gen : ∀ n, n ≤ s.size → ∃ es : List (Str × V), n = es.length ∧ ∀ i, i < n → s.byIndex i = es[i]? := by
    intro n
    induction n with
    | zero => exact fun _ => ⟨[], rfl, fun i hi => absurd hi (Nat.not_lt_zero i)⟩
    | succ n ih =>
      intro hn
      obtain ⟨es, hl, he⟩ := ih (by omega)
      have hs := (h.size n).2 (by omega)
      obtain ⟨e, h1⟩ := Option.isSome_iff_exists.1 hs
      refine ⟨es ++ [e], by simp [hl], fun i hi => ?_⟩
      by_cases hin : i < n
      · rw [he i hin, List.getElem?_append_left (by omega)]
      · obtain rfl : i = n := by omega
        rw [h1, hl]
        simp
  obtain ⟨es, hl, he⟩ := gen s.size (Nat.le_refl _)
  refine ⟨es, hl, fun i => ?_⟩
  by_cases hi : i < s.size
  · exact he i hi
  · have := mt (h.size i).1 hi
    rw [List.getElem?_eq_none (by omega)]
    cases e : s.byIndex i with
    | none => rfl
    | some x => rw [e] at this; exact absurd rfl this

theorem drop_cons {α : Type} {l : List α} {i : Nat} {x : α} {r : List α} (h : l.drop i = x :: r) : l[i]? = some x ∧ l.drop (i + 1) = r := by
  have h1 : l[i]? = some x := by
    have := List.getElem?_drop (xs := l) (i := i) (j := 0)
    rw [h] at this
    simpa using this.symm
  refine ⟨h1, ?_⟩
  have h2 : (l.drop i).drop 1 = l.drop (i + 1) := List.drop_drop
  rw [← h2, h]
  rfl

theorem mapLoop_list {V α : Type} {s : Shown V} {es : List (Str × V)} (he : ∀ i, s.byIndex i = es[i]?) (emplace : List (Str × α) → Str → α → List (Str × α)) (read : V → Res α) :
    ∀ (r : List (Str × V)) (i : Nat) (acc : List (Str × α)), es.drop i = r → mapLoop emplace read s r.length i acc = listLoop read emplace r acc
  | [], _, _, _ => rfl
  | (k, v) :: r, i, acc, h => by
    obtain ⟨h1, h2⟩ := drop_cons h
    show mapLoop emplace read s (r.length + 1) i acc = _
    unfold mapLoop
    rw [he, h1]
    show (read v).bind _ = (read v).bind _
    congr 1
    funext x
    exact mapLoop_list he emplace read r (i + 1) _ h2

theorem toMapImpl_list {V α : Type} {s : Shown V} {es : List (Str × V)} (hl : s.size = es.length) (he : ∀ i, s.byIndex i = es[i]?)
    (emplace : List (Str × α) → Str → α → List (Str × α)) (read : V → Res α) (ha : s.isAssociative = true) : toMapImpl emplace read s = listLoop read emplace es [] := by
  unfold toMapImpl
  rw [if_pos ha, hl]
  exact mapLoop_list he emplace read es 0 [] (by simp)

theorem readIndex_list {V α : Type} {s : Shown V} {es : List (Str × V)} (he : ∀ i, s.byIndex i = es[i]?) (read : V → Res α) (i : Nat) :
    readIndex read s i = match es[i]? with | some e => read e.2 | none => .error := by
  unfold readIndex
  rw [he]
  cases es[i]? with
  | none => rfl
  | some e => rfl

theorem listLoop_outcome {V α β : Type} (read : V → Res α) (put : β → Str → α → β) : ∀ (es : List (Str × V)) (acc : β),
    InTurn (fun i => match es[i]? with | some e => read e.2 | none => .error) es.length (listLoop read put es acc).outcome
  | [], _ => .all fun i hi => absurd hi (Nat.not_lt_zero i)
  | (k, v) :: r, acc => by
    simp only [listLoop]
    cases hv : read v with
    | error => exact .throws 0 (by simp) hv (fun j hj => absurd hj (Nat.not_lt_zero j))
    | ub => exact .undefined 0 (by simp) hv (fun j hj => absurd hj (Nat.not_lt_zero j))
    | ok x =>
      have ih := listLoop_outcome read put r (put acc k x)
      show InTurn _ _ (listLoop read put r (put acc k x)).outcome
      generalize (listLoop read put r (put acc k x)).outcome = o at ih
      have step : ∀ i, (∀ j, j < i → ∃ x, (match r[j]? with | some e => read e.2 | none => Res.error) = .ok x) → ∀ j, j < i + 1 →
          ∃ x, (match ((k, v) :: r)[j]? with | some e => read e.2 | none => Res.error) = .ok x := by
        intro i h j hj
        cases j with
        | zero => exact ⟨x, hv⟩
        | succ j => exact h j (by omega)
      cases ih with
      | all h => exact .all (step r.length h)
      | throws i h1 h2 h3 => exact .throws (i + 1) (by simpa using h1) h2 (step i h3)
      | undefined i h1 h2 h3 => exact .undefined (i + 1) (by simpa using h1) h2 (step i h3)

/-! ## Vectors -/

theorem vectorLoop_ok {V α : Type} (read : V → Res α) (s : Shown V) : ∀ (n i : Nat) (acc xs : List α),
    vectorLoop read s n i acc = .ok xs ↔ ∃ ys, xs = acc ++ ys ∧ ys.length = n ∧ ∀ j x, ys[j]? = some x → readIndex read s (i + j) = .ok x
  | 0, i, acc, xs => by
    simp only [vectorLoop, Res.ok.injEq]
    constructor
    · rintro rfl; exact ⟨[], by simp⟩
    · rintro ⟨ys, rfl, h, -⟩
      rw [List.length_eq_zero_iff.1 h]; simp
  | n + 1, i, acc, xs => by
    simp only [vectorLoop]
    cases h : readIndex read s i with
    | ok x =>
      simp only [Res.bind]
      rw [vectorLoop_ok read s n (i + 1) (acc ++ [x]) xs]
      constructor
      · rintro ⟨ys, rfl, hl, hy⟩
        refine ⟨x :: ys, by simp, by simp [hl], fun j y hj => ?_⟩
        cases j with
        | zero => simp at hj; subst hj; exact h
        | succ j => rw [← hy j y (by simpa using hj)]; congr 1; omega
      · rintro ⟨ys, rfl, hl, hy⟩
        cases ys with
        | nil => simp at hl
        | cons z zs =>
          have := hy 0 z rfl
          rw [Nat.add_zero, h] at this
          obtain rfl : x = z := by simpa using this
          refine ⟨zs, by simp, by simpa using hl, fun j y hj => ?_⟩
          rw [← hy (j + 1) y (by simpa using hj)]; congr 1; omega
    | error =>
      simp only [Res.bind]
      refine Iff.intro (fun h => Res.noConfusion rfl (heq_of_eq h)) ?_
      rintro ⟨ys, -, hl, hy⟩
      cases ys with
      | nil => simp at hl
      | cons z zs => have := hy 0 z rfl; rw [Nat.add_zero, h] at this; cases this
    | ub =>
      simp only [Res.bind]
      refine Iff.intro (fun h => Res.noConfusion rfl (heq_of_eq h)) ?_
      rintro ⟨ys, -, hl, hy⟩
      cases ys with
      | nil => simp at hl
      | cons z zs => have := hy 0 z rfl; rw [Nat.add_zero, h] at this; cases this

theorem vectorLoop_outcome {V α : Type} (read : V → Res α) (s : Shown V) : ∀ (n i : Nat) (acc : List α), InTurn (fun j => readIndex read s (i + j)) n (vectorLoop read s n i acc).outcome
  | 0, i, acc => .all fun i hi => absurd hi (Nat.not_lt_zero i)
  | n + 1, i, acc => by
    simp only [vectorLoop]
    cases hv : readIndex read s i with
    | error => exact .throws 0 (by simp) hv (fun j hj => absurd hj (Nat.not_lt_zero j))
    | ub => exact .undefined 0 (by simp) hv (fun j hj => absurd hj (Nat.not_lt_zero j))
    | ok x =>
      have ih := vectorLoop_outcome read s n (i + 1) (acc ++ [x])
      show InTurn _ _ (vectorLoop read s n (i + 1) (acc ++ [x])).outcome
      generalize (vectorLoop read s n (i + 1) (acc ++ [x])).outcome = o at ih
      have e : ∀ j, i + 1 + j = i + (j + 1) := by omega
      simp only [e] at ih
      have step : ∀ m, (∀ j, j < m → ∃ x, readIndex read s (i + (j + 1)) = .ok x) → ∀ j, j < m + 1 → ∃ x, readIndex read s (i + j) = .ok x := by
        intro m h j hj
        cases j with
        | zero => exact ⟨x, hv⟩
        | succ j => exact h j (by omega)
      cases ih with
      | all h => exact .all (step n h)
      | throws m h1 h2 h3 => exact .throws (m + 1) (by omega) h2 (step m h3)
      | undefined m h1 h2 h3 => exact .undefined (m + 1) (by omega) h2 (step m h3)

/-- **C105**, `to_vector`: the result has an element for every entry, element `i` is what `value(i)` gives. -/
theorem C105_vector {V α : Type} (read : V → Res α) (s : Shown V) (xs : List α) :
    toVector read s = .ok xs ↔ xs.length = s.size ∧ ∀ i x, xs[i]? = some x → readIndex read s i = .ok x := by
  unfold toVector
  rw [vectorLoop_ok]
  constructor
  · rintro ⟨ys, rfl, h1, h2⟩
    exact ⟨h1, fun i x h => by have := h2 i x h; rwa [Nat.zero_add] at this⟩
  · rintro ⟨h1, h2⟩
    exact ⟨xs, rfl, h1, fun i x h => by rw [Nat.zero_add]; exact h2 i x h⟩

/-- **C105**, when `to_vector` throws: the first entry that cannot be read decides. -/
theorem C105_vector_outcome {V α : Type} (read : V → Res α) (s : Shown V) : InTurn (readIndex read s) s.size (toVector read s).outcome := by
  have := vectorLoop_outcome read s s.size 0 []
  simp only [Nat.zero_add] at this
  exact this

/-! ## Maps -/

/-- **C105**, when `to_map` and `to_multimap` throw: for configs that are not associative always, otherwise the first entry that cannot be read decides. -/
theorem C105_map_outcome {V α : Type} (read : V → Res α) (s : Shown V) (h : Truthful s) :
    (s.isAssociative = false → toMap read s = .error ∧ toMultimap read s = .error) ∧
    (s.isAssociative = true → InTurn (readIndex read s) s.size (toMap read s).outcome ∧ InTurn (readIndex read s) s.size (toMultimap read s).outcome) := by
  constructor
  · intro ha
    simp [toMap, toMultimap, toMapImpl, ha]
  · intro ha
    obtain ⟨es, hl, he⟩ := shown_list h
    have e : readIndex read s = fun i => match es[i]? with | some e => read e.2 | none => .error := funext (readIndex_list he read)
    rw [e, hl, toMap, toMultimap, toMapImpl_list hl he _ _ ha, toMapImpl_list hl he _ _ ha]
    exact ⟨listLoop_outcome _ _ _ _, listLoop_outcome _ _ _ _⟩

theorem listLoop_map {V α : Type} (read : V → Res α) : ∀ (es : List (Str × V)) (acc ms : List (Str × α)), (acc.map (fun e => e.1)).Pairwise (fun a b => strLt a b = true) →
    listLoop read emplaceKey es acc = .ok ms → (ms.map (fun e => e.1)).Pairwise (fun a b => strLt a b = true) ∧
      ∀ key, (∀ a, lookup acc key = some a → lookup ms key = some a) ∧ (lookup acc key = none → (firstNamed es key = none → lookup ms key = none) ∧
        ∀ i v, firstNamed es key = some (i, v) → ∃ y, read v = .ok y ∧ lookup ms key = some y)
  | [], acc, ms, hs, hl => by
    simp only [listLoop, Res.ok.injEq] at hl
    subst hl
    exact ⟨hs, fun key => ⟨fun a ha => ha, fun hn => ⟨fun _ => hn, by simp [firstNamed]⟩⟩⟩
  | (key0, v0) :: es, acc, ms, hs, hl => by
    simp only [listLoop] at hl
    cases hv : read v0 with
    | error => rw [hv] at hl; simp [Res.bind] at hl
    | ub => rw [hv] at hl; simp [Res.bind] at hl
    | ok y0 =>
      rw [hv] at hl
      simp only [Res.bind] at hl
      obtain ⟨e1, -, e3⟩ := emplaceKey_ok hs key0 y0
      obtain ⟨h1, h2⟩ := listLoop_map read es _ ms e1 hl
      refine ⟨h1, fun key => ⟨fun a ha => (h2 key).1 a (by rw [e3, ha]; rfl), fun hn => ?_⟩⟩
      simp only [firstNamed]
      by_cases hk : key0 = key
      · subst hk
        have := (h2 key0).1 y0 (by rw [e3, hn]; simp)
        simp only [if_true]
        refine ⟨by simp, fun i v hx => ?_⟩
        simp only [Option.some.injEq, Prod.mk.injEq] at hx
        obtain ⟨-, rfl⟩ := hx
        exact ⟨y0, hv, this⟩
      · have hk' : ¬ key = key0 := fun e => hk e.symm
        simp only [if_neg hk]
        obtain ⟨h3, h4⟩ := (h2 key).2 (by rw [e3, hn, if_neg hk']; rfl)
        refine ⟨fun h => h3 (by simpa using h), fun i v hx => ?_⟩
        cases e : firstNamed es key with
        | none => rw [e] at hx; simp at hx
        | some p =>
          rw [e] at hx
          simp only [Option.map_some, Option.some.injEq, Prod.mk.injEq] at hx
          obtain ⟨-, rfl⟩ := hx
          exact h4 p.1 p.2 e

theorem mem_lookup {α : Type} : ∀ {ms : List (Str × α)} (_ : (ms.map (fun e => e.1)).Pairwise (fun a b => strLt a b = true)) (key : Str) (x : α), (key, x) ∈ ms ↔ lookup ms key = some x
  | [], _, key, x => by simp [lookup]
  | (k, y) :: r, hs, key, x => by
    simp only [List.map_cons, List.pairwise_cons] at hs
    simp only [List.mem_cons, Prod.mk.injEq, lookup]
    by_cases hk : k = key
    · subst hk
      simp only [if_true, Option.some.injEq, true_and]
      constructor
      · rintro (h | h)
        · exact h.symm
        · have := hs.1 k (List.mem_map.2 ⟨(k, x), h, rfl⟩)
          rw [strLt_irrefl] at this; cases this
      · exact fun h => Or.inl h.symm
    · rw [if_neg hk, ← mem_lookup hs.2 key x]
      exact ⟨fun h => h.elim (fun h => absurd h.1.symm hk) id, Or.inr⟩

theorem byKey_firstNamed {V : Type} {s : Shown V} (h : Truthful s) (ha : s.isAssociative = true) {es : List (Str × V)} (he : ∀ i, s.byIndex i = es[i]?) (key : Str) :
    s.byKey key = firstNamed es key := by
  cases e : s.byKey key with
  | some p =>
    obtain ⟨i, v⟩ := p
    obtain ⟨h1, h2⟩ := h.found key i v e
    rw [he] at h1
    have hsome := firstNamed_of h1
    obtain ⟨⟨j, w⟩, h3⟩ := Option.isSome_iff_exists.1 hsome
    obtain ⟨h4, h5⟩ := firstNamed_some h3
    rw [h3]
    rcases Nat.lt_trichotomy i j with hlt | heq | hgt
    · exact absurd h1 (h5 i hlt v)
    · subst heq
      rw [h1] at h4
      simp only [Option.some.injEq, Prod.mk.injEq, true_and] at h4
      rw [h4]
    · have := h2 j hgt w
      rw [he] at this
      exact absurd h4 this
  | none =>
    cases e2 : firstNamed es key with
    | none => rfl
    | some p =>
      obtain ⟨h4, -⟩ := firstNamed_some (i := p.1) (v := p.2) e2
      have := h.named ha p.1 key p.2 (by rw [he]; exact h4)
      rw [e] at this; cases this

/-- **C105**, `to_map`: the keys are in order and different, and the map has exactly the values that can be looked up by name, in every backend. -/
theorem C105_map {V α : Type} (read : V → Res α) (s : Shown V) (h : Truthful s) (m : List (Str × α)) (hm : toMap read s = .ok m) :
    s.isAssociative = true ∧ (m.map (fun e => e.1)).Pairwise (fun a b => strLt a b = true) ∧ ∀ key x, (key, x) ∈ m ↔ readKey read s key = .ok x := by
  have ha : s.isAssociative = true := by
    cases e : s.isAssociative with
    | true => rfl
    | false => rw [((C105_map_outcome read s h).1 e).1] at hm; cases hm
  obtain ⟨es, hl, he⟩ := shown_list h
  rw [toMap, toMapImpl_list hl he _ _ ha] at hm
  obtain ⟨h1, h2⟩ := listLoop_map read es [] m (by simp) hm
  refine ⟨ha, h1, fun key x => ?_⟩
  rw [mem_lookup h1, readKey, byKey_firstNamed h ha he]
  obtain ⟨h3, h4⟩ := (h2 key).2 rfl
  cases e : firstNamed es key with
  | none => simp [h3 e]
  | some p =>
    obtain ⟨y, hy, hy2⟩ := h4 p.1 p.2 e
    rw [hy2]
    simp [hy]

theorem emplaceMulti_ok {α : Type} (key : Str) (v : α) : ∀ (ms : List (Str × α)), (ms.map (fun e => e.1)).Pairwise (fun a b => strLt b a = false) →
    ((emplaceMulti ms key v).map (fun e => e.1)).Pairwise (fun a b => strLt b a = false) ∧ (∀ k ∈ (emplaceMulti ms key v).map (fun e => e.1), k = key ∨ k ∈ ms.map (fun e => e.1)) ∧
      (emplaceMulti ms key v).length = ms.length + 1 ∧
      ∀ k, (emplaceMulti ms key v).filter (fun e => decide (e.1 = k)) = ms.filter (fun e => decide (e.1 = k)) ++ if key = k then [(key, v)] else []
  | [], _ => by
    refine ⟨by simp [emplaceMulti], by simp [emplaceMulti], rfl, fun k => ?_⟩
    by_cases h : key = k <;> simp [emplaceMulti, h]
  | (k0, x) :: r, hs => by
    simp only [List.map_cons, List.pairwise_cons] at hs
    obtain ⟨i1, i2, i3, i4⟩ := emplaceMulti_ok key v r hs.2
    simp only [emplaceMulti]
    by_cases h1 : strLt key k0 = true
    · rw [if_pos h1]
      refine ⟨?_, ?_, by simp, fun k => ?_⟩
      · simp only [List.map_cons, List.pairwise_cons, List.mem_cons, forall_eq_or_imp]
        exact ⟨⟨strLt_asymm h1, fun a ha => strLe_trans (strLt_asymm h1) (hs.1 a ha)⟩, hs⟩
      · intro k hk
        simpa using hk
      · by_cases h : key = k
        · subst h
          have hn : ((k0, x) :: r).filter (fun e => decide (e.1 = key)) = [] := by
            rw [List.filter_eq_nil_iff]
            intro e he hd
            have hd : e.1 = key := by simpa using hd
            have hle : strLt e.1 k0 = false := by
              rcases List.mem_cons.1 he with rfl | he
              · exact strLt_irrefl _
              · exact hs.1 e.1 (List.mem_map.2 ⟨e, he, rfl⟩)
            rw [hd, h1] at hle; cases hle
          rw [List.filter_cons, hn]; simp
        · rw [List.filter_cons]; simp [h]
    · rw [if_neg h1]
      have h1 : strLt key k0 = false := by simpa using h1
      refine ⟨?_, ?_, by simp [i3], fun k => ?_⟩
      · simp only [List.map_cons, List.pairwise_cons]
        refine ⟨fun a ha => ?_, i1⟩
        rcases i2 a ha with rfl | ha
        · exact h1
        · exact hs.1 a ha
      · intro k hk
        simp only [List.map_cons, List.mem_cons] at hk ⊢
        rcases hk with rfl | hk
        · exact Or.inr (Or.inl rfl)
        · exact (i2 k hk).imp id Or.inr
      · simp only [List.filter_cons, i4]
        split <;> simp

/-- the values of the entries of a list with a name -/
def listNamed {V : Type} (es : List (Str × V)) (key : Str) : List V := (es.filter fun e => decide (e.1 = key)).map (·.2)

theorem listLoop_multi {V α : Type} (read : V → Res α) : ∀ (es : List (Str × V)) (acc ms : List (Str × α)), (acc.map (fun e => e.1)).Pairwise (fun a b => strLt b a = false) →
    listLoop read emplaceMulti es acc = .ok ms → (ms.map (fun e => e.1)).Pairwise (fun a b => strLt b a = false) ∧ ms.length = acc.length + es.length ∧
      ∀ key, (listNamed ms key).map Res.ok = (listNamed acc key).map Res.ok ++ (listNamed es key).map read
  | [], acc, ms, hs, hl => by
    simp only [listLoop, Res.ok.injEq] at hl
    subst hl
    exact ⟨hs, rfl, fun key => by simp [listNamed]⟩
  | (k, v) :: es, acc, ms, hs, hl => by
    simp only [listLoop] at hl
    cases hv : read v with
    | error => rw [hv] at hl; simp [Res.bind] at hl
    | ub => rw [hv] at hl; simp [Res.bind] at hl
    | ok y =>
      rw [hv] at hl
      simp only [Res.bind] at hl
      obtain ⟨e1, -, e3, e4⟩ := emplaceMulti_ok k y acc hs
      obtain ⟨h1, h2, h3⟩ := listLoop_multi read es _ ms e1 hl
      refine ⟨h1, by rw [h2, e3]; simp; omega, fun key => ?_⟩
      rw [h3 key]
      simp only [listNamed, e4, List.filter_cons]
      by_cases h : k = key
      · simp [h, hv]
      · simp [h]

theorem valuesNamed_list {V α : Type} {s : Shown V} {es : List (Str × V)} (hl : s.size = es.length) (he : ∀ i, s.byIndex i = es[i]?) (read : V → Res α) (key : Str) :
    valuesNamed read s key = (listNamed es key).map read := by
  unfold valuesNamed
  rw [hl]
  have e1 : readIndex read s = fun i => match es[i]? with | some e => read e.2 | none => .error := funext (readIndex_list he read)
  rw [e1]
  simp only [he]
  clear e1 he hl
  have gen : ∀ (l : List (Str × V)), ((List.range l.length).filter fun i => decide ((l[i]?).map (·.1) = some key)).map (fun i => match l[i]? with | some e => read e.2 | none => Res.error) =
      (listNamed l key).map read := by
    intro l
    induction l with
    | nil => rfl
    | cons e r ih =>
      rw [List.length_cons, List.range_succ_eq_map, List.filter_cons, List.filter_map]
      have ih' : (((List.range r.length).filter ((fun i => decide (((e :: r)[i]?).map (·.1) = some key)) ∘ Nat.succ)).map Nat.succ).map
          (fun i => match (e :: r)[i]? with | some e => read e.2 | none => Res.error) = (listNamed r key).map read := by
        rw [← ih, List.map_map]
        rfl
      simp only [listNamed, List.filter_cons] at ih' ⊢
      by_cases h : e.1 = key
      · simp [h] at ih' ⊢
        exact ih'
      · simp [h] at ih' ⊢
        exact ih'
  exact gen es

/-- **C105**, `to_multimap`: the keys are in order, no entry is lost, and under every key are the values of all the entries with this name, in the order of the entries. -/
theorem C105_multimap {V α : Type} (read : V → Res α) (s : Shown V) (h : Truthful s) (m : List (Str × α)) (hm : toMultimap read s = .ok m) :
    s.isAssociative = true ∧ (m.map (fun e => e.1)).Pairwise (fun a b => strLt b a = false) ∧ m.length = s.size ∧
    ∀ key, ((m.filter fun e => decide (e.1 = key)).map fun e => Res.ok e.2) = valuesNamed read s key := by
  have ha : s.isAssociative = true := by
    cases e : s.isAssociative with
    | true => rfl
    | false => rw [((C105_map_outcome read s h).1 e).2] at hm; cases hm
  obtain ⟨es, hl, he⟩ := shown_list h
  rw [toMultimap, toMapImpl_list hl he _ _ ha] at hm
  obtain ⟨h1, h2, h3⟩ := listLoop_multi read es [] m (by simp) hm
  refine ⟨ha, h1, by rw [h2, hl]; simp, fun key => ?_⟩
  rw [valuesNamed_list hl he]
  have := h3 key
  simp only [listNamed, List.filter_nil, List.map_nil, List.nil_append, List.map_map] at this ⊢
  exact this

theorem emplace_same {α : Type} (key : Str) (v : α) : ∀ (ms : List (Str × α)), key ∉ ms.map (fun e => e.1) → emplaceMulti ms key v = emplaceKey ms key v ∨
    ¬ (ms.map (fun e => e.1)).Pairwise (fun a b => strLt a b = true)
  | [], _ => Or.inl rfl
  | (k, x) :: r, hn => by
    simp only [List.map_cons, List.mem_cons, not_or] at hn
    simp only [emplaceMulti, emplaceKey, List.map_cons, List.pairwise_cons]
    by_cases h1 : strLt key k = true
    · left
      rw [if_pos h1, if_neg (by rw [strLt_asymm h1]; simp), if_pos h1]
    · have h2 : strLt k key = true := by
        cases h2 : strLt k key with
        | true => rfl
        | false => exact absurd (strLt_total _ _ (by simpa using h1) h2) hn.1
      rw [if_neg h1, if_pos h2]
      rcases emplace_same key v r hn.2 with h | h
      · exact Or.inl (by rw [h])
      · exact Or.inr fun hp => h hp.2

theorem listLoop_same {V α : Type} (read : V → Res α) : ∀ (es : List (Str × V)) (acc : List (Str × α)), (acc.map (fun e => e.1)).Pairwise (fun a b => strLt a b = true) →
    (es.map (fun e => e.1)).Nodup → (∀ k ∈ es.map (fun e => e.1), k ∉ acc.map (fun e => e.1)) → listLoop read emplaceMulti es acc = listLoop read emplaceKey es acc
  | [], _, _, _, _ => rfl
  | (k, v) :: es, acc, hs, hn, hd => by
    simp only [listLoop]
    cases hv : read v with
    | error => rfl
    | ub => rfl
    | ok y =>
      simp only [Res.bind]
      simp only [List.map_cons, List.nodup_cons, List.mem_cons, forall_eq_or_imp] at hn hd
      rw [(emplace_same k y acc hd.1).resolve_right (fun h => h hs)]
      obtain ⟨e1, e2, -⟩ := emplaceKey_ok hs k y
      refine listLoop_same read es _ e1 hn.2 (fun k' hk' hmem => ?_)
      rcases e2 k' hmem with rfl | h
      · exact hn.1 hk'
      · exact hd.2 k' hk' h

/-- **C105**: for configs that are not multi-associative `to_map` and `to_multimap` give the same. -/
theorem C105_single {V α : Type} (read : V → Res α) (s : Shown V) (h : Truthful s) (hm : s.isMulti = false) : toMultimap read s = toMap read s := by
  cases ha : s.isAssociative with
  | false =>
    obtain ⟨h1, h2⟩ := (C105_map_outcome read s h).1 ha
    rw [h1, h2]
  | true =>
    obtain ⟨es, hl, he⟩ := shown_list h
    rw [toMap, toMultimap, toMapImpl_list hl he _ _ ha, toMapImpl_list hl he _ _ ha]
    refine listLoop_same read es [] (by simp) ?_ (by simp)
    rw [List.nodup_iff_pairwise_ne, List.pairwise_iff_getElem]
    intro i j hi hj hij heq
    simp only [List.length_map] at hi hj
    simp only [List.getElem_map] at heq
    have h1 : s.byIndex i = some (es[i].1, es[i].2) := by rw [he, List.getElem?_eq_getElem hi]
    have h2 : s.byIndex j = some (es[i].1, es[j].2) := by rw [he, List.getElem?_eq_getElem hj, heq]
    have := h.single ha hm i j _ _ _ h1 h2
    omega

/-! ## Configs made in the program -/

/-- the values of the manual backend, with the values as they are stored -/
theorem seen_truthful (n : Node) (h : n.Ok) : Truthful n.seen := by
  obtain ⟨k, es⟩ := n
  have key : k.assoc = true → ∀ key, (Node.seen ⟨k, es⟩).byKey key = firstNamed es key := by
    intro ha key
    rw [firstNamed_first]
    show Node.findKey ⟨k, es⟩ key = _
    rw [findKey_eq h ha]
    simp only
    cases first es key <;> rfl
  cases k with
  | map => exact truthful_list es rfl (fun _ => rfl) (key rfl) rfl (fun _ => nodup_of_sorted h)
  | multimap => exact truthful_list es rfl (fun _ => rfl) (key rfl) rfl (fun h => by cases h)
  | ordered => exact truthful_list es rfl (fun _ => rfl) (key rfl) rfl (fun _ => h)
  | array =>
    refine truthful_array (es.map (fun e => e.2)) (by simp [Node.seen, Node.size]) (fun i => ?_) (fun _ => rfl) rfl rfl
    show es[i]? = _
    rw [List.getElem?_map]
    cases e : es[i]? with
    | none => rfl
    | some p =>
      have : p.1 = [] := h p.1 (List.mem_map.2 ⟨p, List.mem_of_getElem? e, rfl⟩)
      simp [← this]

theorem loadMap_loop {α : Type} (load : Value → Res α) : ∀ (es : Entries) (acc : List (Str × α)), loadMap load es acc = listLoop load emplaceKey es acc
  | [], _ => rfl
  | (k, v) :: r, acc => by
    simp only [loadMap, listLoop]
    congr 1
    funext x
    exact loadMap_loop load r _

theorem vectorLoop_load {α : Type} (load : Value → Res α) (n : Node) : ∀ (r : Entries) (i : Nat) (acc : List α), n.entries.drop i = r →
    vectorLoop load n.seen r.length i acc = (loadAll load r).bind fun xs => .ok (acc ++ xs)
  | [], _, acc, _ => by simp [vectorLoop, loadAll, Res.bind]
  | (k, v) :: r, i, acc, h => by
    obtain ⟨h1, h2⟩ := drop_cons h
    have hr : readIndex load n.seen i = load v := by
      rw [readIndex_list (s := n.seen) (es := n.entries) (fun _ => rfl), h1]
    simp only [List.length_cons, vectorLoop, loadAll, hr]
    cases load v with
    | error => rfl
    | ub => rfl
    | ok x =>
      simp only [Res.bind]
      rw [vectorLoop_load load n r (i + 1) _ h2]
      cases loadAll load r with
      | error => rfl
      | ub => rfl
      | ok xs => simp [Res.bind]

/-- **C105**: `to_vector<T>()` of a config gives what `cvt<std::vector<T>>()` gives, and `to_map<T>()` what `cvt<std::map<std::string, T>>()` gives; only an empty optional of `cvt` is an exception of
the others. -/
theorem C105_cvt (ops : ScalarText.Real Nat) (t : CTy) (n : Node) :
    toVector (load ops t) n.seen = cvt ops (.vec t) (some n) ∧ toMap (load ops t) n.seen = cvt ops (.map t) (some n) := by
  constructor
  · show vectorLoop (load ops t) n.seen n.entries.length 0 [] = loadAll (load ops t) n.entries
    rw [vectorLoop_load (load ops t) n n.entries 0 [] (by simp)]
    cases loadAll (load ops t) n.entries <;> simp [Res.bind]
  · show _ = load ops (.map t) (.conf n.kind n.entries)
    rw [load_map, loadMap_loop]
    have ha : n.seen.isAssociative = n.kind.assoc := by obtain ⟨k, es⟩ := n; cases k <;> rfl
    by_cases h : n.kind.assoc = true
    · rw [if_pos h, toMap, toMapImpl_list (es := n.entries) rfl (fun _ => rfl) _ _ (ha.trans h)]
    · rw [if_neg h, toMap, toMapImpl, if_neg (by rw [ha]; exact h)]

/-- **C105**, a null config, such as `object(name)` gives for a name that is missing: `to_vector` gives no elements although `cvt` gives nothing, and `to_map` and `to_multimap` throw. -/
theorem C105_null (ops : ScalarText.Real Nat) (t : CTy) {V α : Type} (read : V → Res α) :
    toVector read (Shown.config (none : Option (Shown V))) = .ok [] ∧ toMap read (Shown.config (none : Option (Shown V))) = .error ∧
    toMultimap read (Shown.config (none : Option (Shown V))) = .error ∧ cvt ops t none = .error := ⟨rfl, rfl, rfl, rfl⟩

/-- **C105**, round trips: what was stored from a vector or a map of values without empty optionals and null pointers is what `to_vector` and `to_map` give. -/
theorem C105_stored (ops : ScalarText.Real Nat) (t : CTy) :
    (∀ xs : List t.Val, Typed (.vec t) xs → Whole (.vec t) xs → ∃ n, store (.vec t) xs = .ok (Node.toValue n) ∧ toVector (load ops t) n.seen = .ok xs) ∧
    (∀ ms : List (Str × t.Val), Typed (.map t) ms → Whole (.map t) ms → ∃ n, store (.map t) ms = .ok (Node.toValue n) ∧ toMap (load ops t) n.seen = .ok ms) := by
  constructor
  · intro xs h1 h2
    obtain ⟨x, hx, -, hl⟩ := store_load ops (.vec t) xs h1 h2
    have hx' : (addAll (skip t) (store t) xs ⟨.array, []⟩).bind (fun n => Res.ok n.toValue) = .ok x := hx
    cases e : addAll (skip t) (store t) xs ⟨.array, []⟩ with
    | error => rw [e] at hx'; simp [Res.bind] at hx'
    | ub => rw [e] at hx'; simp [Res.bind] at hx'
    | ok n =>
      rw [e] at hx'
      simp only [Res.bind, Res.ok.injEq] at hx'
      subst hx'
      refine ⟨n, hx, ?_⟩
      show vectorLoop (load ops t) n.seen n.entries.length 0 [] = _
      rw [vectorLoop_load (load ops t) n n.entries 0 [] (by simp)]
      rw [show loadAll (load ops t) n.entries = .ok xs from hl]
      simp [Res.bind]
  · intro ms h1 h2
    obtain ⟨x, hx, -, hl⟩ := store_load ops (.map t) ms h1 h2
    have hx' : (putAll (skip t) (store t) ms ⟨.map, []⟩).bind (fun n => Res.ok n.toValue) = .ok x := hx
    cases e : putAll (skip t) (store t) ms ⟨.map, []⟩ with
    | error => rw [e] at hx'; simp [Res.bind] at hx'
    | ub => rw [e] at hx'; simp [Res.bind] at hx'
    | ok n =>
      rw [e] at hx'
      simp only [Res.bind, Res.ok.injEq] at hx'
      subst hx'
      exact ⟨n, hx, by rw [(C105_cvt ops t n).2]; exact hl⟩

/-! ## Paths -/

open Tokens (nonEmptyPieces)

theorem pieces_all : ∀ {p : Str}, p.all (fun c => decide (c = '.')) = true → nonEmptyPieces dot p = []
  | [], _ => by simp [nonEmptyPieces, Tokens.pieces]
  | c :: r, h => by
    simp only [List.all_cons, Bool.and_eq_true] at h
    have : dot c = true := h.1
    have ih := pieces_all h.2
    simp only [nonEmptyPieces] at ih ⊢
    simp [Tokens.pieces, this, ih]

theorem pieces_join : ∀ (p q : Str), nonEmptyPieces dot (p ++ '.' :: q) = nonEmptyPieces dot p ++ nonEmptyPieces dot q := by
  intro p
  induction h : p.length using Nat.strongRecOn generalizing p with
  | _ n ih =>
    intro q
    obtain ⟨a, rest, rfl, ha, hr⟩ := Tokens.exists_run dot p
    rcases hr with rfl | ⟨c, r, rfl, hs⟩
    · rw [List.append_nil, nonEmptyPieces, nonEmptyPieces, Tokens.pieces_sep ha (by decide), Tokens.pieces_noSep ha, nonEmptyPieces]
      rw [List.filter_cons, List.filter_cons]
      split <;> simp
    · have hlen : r.length < n := by rw [← h]; simp; omega
      have := ih r.length hlen r rfl q
      rw [nonEmptyPieces, nonEmptyPieces, List.append_assoc, List.cons_append, Tokens.pieces_sep ha hs, Tokens.pieces_sep ha hs]
      simp only [nonEmptyPieces] at this
      rw [List.filter_cons, List.filter_cons, this]
      simp only [nonEmptyPieces]
      split <;> simp

theorem pieces_some : ∀ {p : Str}, p.all (fun c => decide (c = '.')) = false → nonEmptyPieces dot p ≠ [] := by
  intro p
  induction h : p.length using Nat.strongRecOn generalizing p with
  | _ n ih =>
    intro hp
    obtain ⟨a, rest, rfl, ha, hr⟩ := Tokens.exists_run dot p
    by_cases ha0 : a = []
    · subst ha0
      rcases hr with rfl | ⟨c, r, rfl, hs⟩
      · simp at hp
      · have hc : decide (c = '.') = true := hs
        simp only [List.nil_append, List.all_cons, hc, Bool.true_and] at hp
        have := ih r.length (by rw [← h]; simp) rfl hp
        intro he
        apply this
        simp only [nonEmptyPieces, List.nil_append, Tokens.pieces, hs, if_true] at he ⊢
        simpa using he
    · have hempty : a.isEmpty = false := by cases a with | nil => exact absurd rfl ha0 | cons => rfl
      rcases hr with rfl | ⟨c, r, rfl, hs⟩
      · rw [List.append_nil, nonEmptyPieces, Tokens.pieces_noSep ha]; simp [hempty]
      · rw [nonEmptyPieces, Tokens.pieces_sep ha hs]; simp [hempty]

theorem isRoot_iff (p : Str) : Tokens.isRoot '.' p = true ↔ nonEmptyPieces dot p = [] := by
  constructor
  · exact fun h => pieces_all h
  · intro h
    cases e : Tokens.isRoot '.' p with
    | true => rfl
    | false => exact absurd h (pieces_some e)

/-- what is left of the root: the config itself, and then names -/
def stepInto (c : Config) (ts : List Str) : Config :=
  match ts with
  | [] => c
  | ts => match resolve c ts with | some (_, v) => v.asConfig | none => none

theorem resolve_append : ∀ (ts us : List Str) (c : Config), us ≠ [] → resolve c (ts ++ us) = resolve (stepInto c ts) us
  | [], us, c, _ => rfl
  | [t], us, c, h => by
    obtain ⟨u, us, rfl⟩ := List.exists_cons_of_ne_nil h
    cases c with
    | none => cases us <;> rfl
    | some n =>
      show (match n.find t with | none => none | some (_, v) => resolve v.asConfig (u :: us)) = resolve (match n.find t with | some (_, v) => v.asConfig | none => none) (u :: us)
      cases n.find t with
      | none => cases us <;> rfl
      | some p => rfl
  | t :: t' :: ts, us, c, h => by
    cases c with
    | none =>
      obtain ⟨u, us, rfl⟩ := List.exists_cons_of_ne_nil h
      cases us <;> rfl
    | some n =>
      have e1 : ∀ w, resolve (some n) (t :: t' :: w) = match n.find t with | none => none | some (_, v) => resolve v.asConfig (t' :: w) := fun _ => rfl
      have e2 : stepInto (some n) (t :: t' :: ts) = match resolve (some n) (t :: t' :: ts) with | some (_, v) => v.asConfig | none => none := rfl
      rw [e2, List.cons_append, List.cons_append, e1, e1]
      cases n.find t with
      | none =>
        obtain ⟨u, us, rfl⟩ := List.exists_cons_of_ne_nil h
        cases us <;> rfl
      | some p => exact resolve_append (t' :: ts) us p.2.asConfig h

theorem objectPath_eq (c : Config) (p : Str) : objectPath c p = stepInto c (nonEmptyPieces dot p) := by
  unfold objectPath
  cases e : Tokens.isRoot '.' p with
  | true => rw [(isRoot_iff p).1 e]; rfl
  | false =>
    have hne : nonEmptyPieces dot p ≠ [] := fun h => by rw [(isRoot_iff p).2 h] at e; cases e
    rw [at_eq]
    obtain ⟨t, ts, h⟩ := List.exists_cons_of_ne_nil hne
    rw [h]
    rfl

/-- **C105**, a path without names is the config itself: `object` gives it, `value` is `cvt`, and there is no scalar. -/
theorem C105_root (ops : ScalarText.Real Nat) (c : Config) (path : Str) (h : nonEmptyPieces dot path = []) :
    objectPath c path = c ∧ (∀ t, readPath ops t c path = cvt ops t c) ∧ (∀ s b, readPath ops (.int s b) c path = .error) ∧ readPath ops .bool c path = .error ∧
    readPath ops .str c path = .error ∧ flagPath ops c path = .ok false := by
  have hr := (isRoot_iff path).2 h
  have hv : ∀ t, readPath ops t c path = cvt ops t c := fun t => by rw [readPath, if_pos hr]
  have hb : readPath ops .bool c path = .error := by rw [hv]; cases c <;> rfl
  refine ⟨by rw [objectPath, if_pos hr], hv, fun s b => by rw [hv]; cases c <;> rfl, hb, by rw [hv]; cases c <;> rfl, by rw [flagPath, hb]; rfl⟩

/-- **C105**, paths can be followed in parts: reading `p.q` is reading `q` in the config at `p`, if `q` has a name. -/
theorem C105_path_join (ops : ScalarText.Real Nat) (c : Config) (p q : Str) :
    objectPath c (p ++ '.' :: q) = objectPath (objectPath c p) q ∧
    (nonEmptyPieces dot q ≠ [] → (∀ t, readPath ops t c (p ++ '.' :: q) = readPath ops t (objectPath c p) q) ∧ flagPath ops c (p ++ '.' :: q) = flagPath ops (objectPath c p) q) := by
  have hat : nonEmptyPieces dot q ≠ [] → at_ c (p ++ '.' :: q) = at_ (objectPath c p) q := fun hq => by
    rw [at_eq, at_eq, pieces_join, resolve_append _ _ _ hq, objectPath_eq]
  constructor
  · by_cases hq : nonEmptyPieces dot q = []
    · rw [objectPath_eq c, pieces_join, hq, List.append_nil, (C105_root ops (objectPath c p) q hq).1, objectPath_eq]
    · have h1 : Tokens.isRoot '.' q = false := by
        cases e : Tokens.isRoot '.' q with
        | false => rfl
        | true => exact absurd ((isRoot_iff q).1 e) hq
      have h2 : Tokens.isRoot '.' (p ++ '.' :: q) = false := by
        cases e : Tokens.isRoot '.' (p ++ '.' :: q) with
        | false => rfl
        | true => have := (isRoot_iff _).1 e; rw [pieces_join] at this; exact absurd (List.append_eq_nil_iff.1 this).2 hq
      conv => lhs; unfold objectPath
      conv => rhs; unfold objectPath
      rw [h1, h2, hat hq]
      rfl
  · intro hq
    have h1 : Tokens.isRoot '.' q = false := by
      cases e : Tokens.isRoot '.' q with
      | false => rfl
      | true => exact absurd ((isRoot_iff q).1 e) hq
    have h2 : Tokens.isRoot '.' (p ++ '.' :: q) = false := by
      cases e : Tokens.isRoot '.' (p ++ '.' :: q) with
      | false => rfl
      | true => have := (isRoot_iff _).1 e; rw [pieces_join] at this; exact absurd (List.append_eq_nil_iff.1 this).2 hq
    have hv : ∀ t, readPath ops t c (p ++ '.' :: q) = readPath ops t (objectPath c p) q := fun t => by
      unfold readPath
      rw [h1, h2, hat hq]
      rfl
    exact ⟨hv, by rw [flagPath, flagPath, hv]⟩

/-- **C105**: if there is a config at a path, a value of any type read at the path is what `cvt` of the config gives. -/
theorem C105_path_whole (ops : ScalarText.Real Nat) (c : Config) (p : Str) (n : Node) (h : objectPath c p = some n) (t : CTy) : readPath ops t c p = cvt ops t (some n) := by
  unfold objectPath at h
  unfold readPath
  cases hr : Tokens.isRoot '.' p with
  | true =>
    rw [hr] at h
    have h : c = some n := h
    rw [h]
    rfl
  | false =>
    rw [hr] at h
    have h : (match at_ c p with | some (_, v) => v.asConfig | none => none) = some n := h
    show (match at_ c p with | some (_, v) => load ops t v | none => .error) = _
    cases e : at_ c p with
    | none => rw [e] at h; cases h
    | some q =>
      obtain ⟨i, v⟩ := q
      rw [e] at h
      have h : v.asConfig = some n := h
      cases v with
      | hole => cases h
      | scalar s => cases h
      | null => cases h
      | conf k es =>
        simp only [Value.asConfig, Option.some.injEq] at h
        subst h
        rfl

/-- **C105**: what is read at a path with a name is the value that the names lead to (`Reach`), and nothing else can be read. -/
theorem C105_path (ops : ScalarText.Real Nat) (t : CTy) (c : Config) (hc : c.Ok) (path : Str) (x : t.Val) (hp : nonEmptyPieces dot path ≠ []) :
    readPath ops t c path = .ok x ↔ ∃ v, Reach c (nonEmptyPieces dot path) v ∧ load ops t v = .ok x := by
  have h1 : Tokens.isRoot '.' path = false := by
    cases e : Tokens.isRoot '.' path with
    | false => rfl
    | true => exact absurd ((isRoot_iff path).1 e) hp
  simp only [← C50 c hc]
  show (if Tokens.isRoot '.' path = true then cvt ops t c else match at_ c path with | some (_, v) => load ops t v | none => .error) = .ok x ↔ _
  rw [h1]
  simp only [Bool.false_eq_true, if_false]
  cases e : at_ c path with
  | none => simp
  | some p => simp

theorem getOr_false (r : Res Bool) : (r.getOr false = .ok true ↔ r = .ok true) ∧ r.getOr false ≠ .error ∧ (r.getOr false = .ub ↔ r = .ub) := by
  cases r with
  | ok b => simp [Res.getOr]
  | error => simp [Res.getOr]
  | ub => simp [Res.getOr]

/-- **C105**: a flag is set exactly if a value that reads as true is at the path; everything else that can be read without undefined behaviour is a flag that is not set. -/
theorem C105_flag (ops : ScalarText.Real Nat) (c : Config) (path : Str) :
    (flagPath ops c path = .ok true ↔ readPath ops .bool c path = .ok true) ∧ flagPath ops c path ≠ .error ∧ (flagPath ops c path = .ub ↔ readPath ops .bool c path = .ub) :=
  getOr_false _

/-- **C105**, the same by index -/
theorem C105_flag_index (ops : ScalarText.Real Nat) (n : Node) (i : Nat) :
    (flagIndex ops n i = .ok true ↔ ∃ key v, n.entries[i]? = some (key, v) ∧ load ops .bool v = .ok true) ∧ flagIndex ops n i ≠ .error := by
  have e := readIndex_list (s := n.seen) (es := n.entries) (fun _ => rfl) (load ops .bool) i
  obtain ⟨h1, h2, -⟩ := getOr_false (readIndex (load ops .bool) n.seen i)
  refine ⟨h1.trans ?_, h2⟩
  show readIndex (load ops .bool) n.seen i = .ok true ↔ _
  rw [e]
  cases n.entries[i]? with
  | none => simp
  | some p =>
    obtain ⟨key, v⟩ := p
    simp

/-! ## The default comparator -/

/-- the full statement: `to_map<T>()` and `to_multimap<T>()` can be called for every type that can be read -/
def MapsCompile : Prop := ∀ t : CTy, lessCompiles t = true

/-- The default comparator compares values of type `T`, not keys: `config.to_map<int>()` does not compile, the user has to give `std::less<std::string>`. -/
theorem C105_default_comparator_violated : ¬ MapsCompile := fun h => by
  have := h (.int true 32)
  cases this

/-- **C105**, what can be called with the default comparator: maps of strings, and of optionals of strings. -/
theorem C105_default_comparator_partial (t : CTy) : lessCompiles t = true ↔ ∃ k : Nat, t = Nat.repeat CTy.opt k .str := by
  constructor
  · intro h
    induction t with
    | str => exact ⟨0, rfl⟩
    | opt t ih => obtain ⟨k, rfl⟩ := ih h; exact ⟨k + 1, rfl⟩
    | int s b => cases h
    | double => cases h
    | bool => cases h
    | vec t => cases h
    | map t => cases h
    | ptr t => cases h
  · rintro ⟨k, rfl⟩
    induction k with
    | zero => rfl
    | succ k ih => exact ih

/-! ## Examples -/

/-- the number of an entry, entries with strings cannot be read -/
def readNat : Value → Res Int
  | .scalar (.int n) => .ok n
  | _ => .error

/-- a multimap with two entries of one name -/
def sample : Node := ⟨.multimap, [(['a'], .scalar (.int 1)), (['b'], .scalar (.int 5)), (['b'], .scalar (.int 4))]⟩

example : Truthful sample.seen := seen_truthful sample (by simp [Node.Ok, sample, KeysOk, keysOf]; decide)
example : toVector readNat sample.seen = .ok [1, 5, 4] := rfl
example : toMap readNat sample.seen = .ok [(['a'], 1), (['b'], 5)] := rfl
example : toMultimap readNat sample.seen = .ok [(['a'], 1), (['b'], 5), (['b'], 4)] := rfl
example : sample.seen.isMulti = true ∧ valuesNamed readNat sample.seen ['b'] = [.ok 5, .ok 4] := ⟨rfl, rfl⟩
/-- an ordered config is sorted by the map -/
example : toMultimap readNat (Node.seen ⟨.ordered, [(['b'], .scalar (.int 5)), (['a'], .scalar (.int 1))]⟩) = .ok [(['a'], 1), (['b'], 5)] ∧
    (Node.seen ⟨.ordered, [(['b'], .scalar (.int 5)), (['a'], .scalar (.int 1))]⟩).isMulti = false := ⟨rfl, rfl⟩
/-- xml children with one name that are not next to each other -/
example : Truthful (Xml.shown (.elem ['r'] none none [.elem ['b'] none (some ['5']) [], .elem ['a'] none (some ['1']) [], .elem ['b'] none (some ['4']) []])) := C94_xml _
/-- an entry that cannot be read, and an array that is no map -/
example : toVector readNat (Node.seen ⟨.array, [([], .scalar (.int 1)), ([], .null), ([], .scalar (.int 2))]⟩) = .error ∧
    toMap readNat (Node.seen ⟨.array, [([], .scalar (.int 1))]⟩) = .error := ⟨rfl, rfl⟩
/-- a config with an array of two flags in it -/
def flagsInside : Config := some ⟨.map, [(['a'], .conf .map [(['b'], .conf .array [([], .scalar (.bool true)), ([], .scalar (.bool false))])])]⟩
example : objectPath flagsInside ['.', 'a', '.', '.', 'b'] = some ⟨.array, [([], .scalar (.bool true)), ([], .scalar (.bool false))]⟩ := (objectPath_eq _ _).trans rfl
example (ops : ScalarText.Real Nat) : readPath ops (.vec .bool) flagsInside ['a', '.', 'b'] = .ok [true, false] :=
  C105_path_whole ops flagsInside ['a', '.', 'b'] ⟨.array, [([], .scalar (.bool true)), ([], .scalar (.bool false))]⟩ ((objectPath_eq _ _).trans rfl) (.vec .bool)
example (ops : ScalarText.Real Nat) : flagIndex ops ⟨.array, [([], .scalar (.bool true)), ([], .scalar (.bool false))]⟩ 0 = .ok true := rfl
example : Tokens.nonEmptyPieces dot ['.', '.'] = [] ∧ Tokens.nonEmptyPieces dot ['.', 'q'] ≠ [] := by decide

end Verif.Config
