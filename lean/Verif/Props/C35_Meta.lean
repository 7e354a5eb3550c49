import Verif.Model.Meta

/-!
# C35: the algorithms on type lists

`List.Perm`, `List.reverse`, `++`, `[i]?`, `take`, `drop` of the library serve as the specification, and for `list_unique` the function
`firsts` below.
-/
set_option autoImplicit false

namespace Verif.Meta

variable {T : Type}

/-! ## Specification -/

/-- The elements that do not occur earlier in the list. -/
def firsts (l : List T) : List T → Prop := fun r => r.Sublist l ∧ r.Nodup ∧ (∀ t ∈ l, t ∈ r) ∧
  ∀ (p q : List T) (t : T), l = p ++ t :: q → t ∉ p → ∃ p' q', r = p' ++ t :: q' ∧ p'.Sublist p ∧ q'.Sublist q

/-- A comparison that compiles for all types and is a strict weak order. -/
structure StrictWeak (less : T → T → Option Bool) (lt : T → T → Prop) : Prop where
  defined : ∀ a b, (less a b = some true ∧ lt a b) ∨ (less a b = some false ∧ ¬ lt a b)
  asymm : ∀ a b, lt a b → ¬ lt b a
  negTrans : ∀ a b c, ¬ lt a b → ¬ lt b c → ¬ lt a c

/-! ## The simple algorithms -/

theorem pushFront_eq (t : T) : ∀ (l es : List T), pushFront t l es = t :: (es ++ l)
  | [], es => by simp [pushFront]
  | h :: l, es => by simp [pushFront, pushFront_eq t l]

theorem pushBack_eq (t : T) : ∀ (l es : List T), pushBack t l es = es ++ l ++ [t]
  | [], es => by simp [pushBack]
  | h :: l, es => by simp [pushBack, pushBack_eq t l]

theorem catSecond_eq : ∀ (l es : List T), catSecond l es = es ++ l
  | [], es => by simp [catSecond]
  | h :: l, es => by simp [catSecond, catSecond_eq l]

theorem cat_eq : ∀ (l l2 es : List T), cat l l2 es = es ++ l ++ l2
  | [], l2, es => by simp [cat, catSecond_eq]
  | h :: l, l2, es => by simp [cat, cat_eq l]

theorem toTuple_eq : ∀ (l es : List T), toTuple l es = es ++ l
  | [], es => by simp [toTuple]
  | h :: l, es => by simp [toTuple, toTuple_eq l]

theorem dup_eq (t : T) : ∀ (n : Nat) (es : List T), dup t n es = List.replicate n t ++ es
  | 0, es => by simp [dup]
  | n + 1, es => by
    rw [dup, dup_eq t n, List.replicate_succ', List.append_assoc]; rfl

theorem reverse_eq : ∀ (l es : List T), (l ≠ [] ∨ es ≠ []) → reverse l es = some (l.reverse ++ es)
  | [], [], h => by simp at h
  | [], e :: es, _ => rfl
  | h :: l, es, _ => by rw [reverse, reverse_eq l (h :: es) (Or.inr (by simp))]; simp

theorem at_eq : ∀ (l : List T) (i : Nat), at? l i = l[i]?
  | [], i => by simp [at?]
  | h :: l, 0 => rfl
  | h :: l, i + 1 => by simp [at?, at_eq l i]

theorem split_eq : ∀ (l : List T) (p : Nat) (es : List T), split l p es = if p ≤ l.length then some (es ++ l.take p, l.drop p) else none
  | l, 0, es => by cases l <;> simp [split]
  | [], p + 1, es => by simp [split]
  | h :: l, p + 1, es => by simp [split, split_eq l p]

/-- `reverse_list`, `list_cat`, `list_at`, `list_split`, `list_length`, `list_push_front`, `list_push_back`, `list_dup` and
`list_to_tuple` are the usual functions on lists; positions outside of the list do not compile. -/
theorem C35_laws_partial (l l2 : List T) (t : T) (n : Nat) :
    (l ≠ [] → reverse l [] = some l.reverse) ∧ cat l l2 [] = l ++ l2 ∧ at? l n = l[n]? ∧
      split l n [] = (if n ≤ l.length then some (l.take n, l.drop n) else none) ∧ length l = l.length ∧ pushFront t l [] = t :: l ∧
      pushBack t l [] = l ++ [t] ∧ dup t n [] = List.replicate n t ∧ toTuple l [] = l := by
  refine ⟨fun h => by simpa using reverse_eq l [] (Or.inl h), by simp [cat_eq], at_eq l n, by simp [split_eq], length_eq l, by simp [pushFront_eq],
    by simp [pushBack_eq], by simp [dup_eq], by simp [toTuple_eq]⟩

/-- The reverse of the empty list does not compile. -/
theorem C35_reverse_violated : reverse ([] : List T) [] ≠ some ([] : List T).reverse := by
  simp [reverse]

/-! ## Find and unique -/

theorem find_eq [DecidableEq T] (t : T) : ∀ (l : List T) (i : Nat), find l t i = if t ∈ l then i + l.idxOf t else npos
  | [], i => by simp [find]
  | h :: l, i => by
    rw [find, find_eq t l]
    by_cases c : h = t
    · subst c; simp
    · have hb : (h == t) = false := by simpa using c
      have c' : t ≠ h := Ne.symm c
      simp only [if_neg c, List.mem_cons, c', false_or, List.idxOf_cons, hb, cond_false]
      split
      · omega
      · rfl

/-- `list_find` answers the first position of the type, and `list_npos` if there is none. -/
theorem C35_find [DecidableEq T] (l : List T) (t : T) (hl : l.length < 2 ^ 64) :
    (∀ i, find l t 0 = i ∧ i ≠ npos ↔ l[i]? = some t ∧ ∀ j < i, l[j]? ≠ some t) ∧ (find l t 0 = npos ↔ t ∉ l) := by
  have hn : npos = 2 ^ 64 - 1 := rfl
  rw [find_eq]
  by_cases h : t ∈ l
  · have hlt := List.idxOf_lt_length_of_mem h
    have hg : l[l.idxOf t]? = some t := by rw [List.getElem?_eq_getElem hlt]; simp
    have hf : ∀ j < l.idxOf t, l[j]? ≠ some t := by
      intro j hj e
      have hjl : j < l.length := by omega
      rw [List.getElem?_eq_getElem hjl] at e
      have e' : l[j] = t := by simpa using e
      have := List.not_of_lt_findIdx (xs := l) (p := (· == t)) (i := j) hj
      simp [e'] at this
    refine ⟨fun i => ?_, ?_⟩
    · simp only [h, if_true, Nat.zero_add]
      constructor
      · rintro ⟨rfl, -⟩; exact ⟨hg, hf⟩
      · rintro ⟨e, h1⟩
        have : l.idxOf t = i := by
          rcases Nat.lt_trichotomy (l.idxOf t) i with c | c | c
          · exact absurd hg (h1 _ c)
          · exact c
          · exact absurd e (hf _ c)
        refine ⟨this, ?_⟩
        omega
    · simp only [h, if_true, Nat.zero_add, not_true, iff_false]
      omega
  · refine ⟨fun i => ?_, by simp [h]⟩
    simp only [h, if_false]
    constructor
    · rintro ⟨rfl, c⟩; exact absurd rfl c
    · rintro ⟨e, -⟩; exact absurd (List.mem_of_getElem? e) h

theorem unique_spec [DecidableEq T] : ∀ (l es : List T), (es ++ l).length < 2 ^ 64 → es.Nodup →
    ∃ r, unique l es = es ++ r ∧ r.Sublist l ∧ (es ++ r).Nodup ∧ (∀ t ∈ l, t ∈ es ++ r) ∧
      ∀ (p q : List T) (t : T), l = p ++ t :: q → t ∉ p → t ∉ es → ∃ p' q', r = p' ++ t :: q' ∧ p'.Sublist p ∧ q'.Sublist q
  | [], es, _, hn => ⟨[], by simp [unique], List.Sublist.refl _, by simpa using hn, by simp, fun p q t h => by simp at h⟩
  | h :: l, es, hlen, hn => by
    have hnp : npos = 2 ^ 64 - 1 := rfl
    simp only [List.length_append, List.length_cons] at hlen
    have hfind : find es h 0 ≠ npos ↔ h ∈ es := by
      rw [find_eq]
      by_cases c : h ∈ es
      · have := List.idxOf_lt_length_of_mem c
        simp only [c, if_true, iff_true]; omega
      · simp [c]
    by_cases c : h ∈ es
    · obtain ⟨r, e, h1, h2, h3, h4⟩ := unique_spec l es (by simp; omega) hn
      refine ⟨r, ?_, h1.cons h, h2, ?_, ?_⟩
      · rw [unique, if_pos (hfind.2 c), e]
      · intro t ht
        rcases List.mem_cons.1 ht with rfl | ht
        · exact List.mem_append_left _ c
        · exact h3 t ht
      · intro p q t he hp hes
        cases p with
        | nil => simp at he; exact absurd (he.1 ▸ c) hes
        | cons p0 p =>
          simp only [List.cons_append, List.cons.injEq] at he
          obtain ⟨p', q', e1, e2, e3⟩ := h4 p q t he.2 (fun c => hp (List.mem_cons_of_mem _ c)) hes
          exact ⟨p', q', e1, e2.cons p0, e3⟩
    · have hn' : (es ++ [h]).Nodup := by
        rw [List.nodup_append]; refine ⟨hn, by simp, ?_⟩
        intro a ha b hb; simp at hb; subst hb; intro e; exact c (e ▸ ha)
      obtain ⟨r, e, h1, h2, h3, h4⟩ := unique_spec l (es ++ [h]) (by simp; omega) hn'
      refine ⟨h :: r, ?_, h1.cons₂ h, by simpa using h2, ?_, ?_⟩
      · rw [unique, if_neg (fun k => c (hfind.1 k)), e]; simp
      · intro t ht
        rcases List.mem_cons.1 ht with rfl | ht
        · simp
        · simpa using h3 t ht
      · intro p q t he hp hes
        cases p with
        | nil =>
          simp only [List.nil_append, List.cons.injEq] at he
          obtain ⟨rfl, rfl⟩ := he
          exact ⟨[], r, rfl, List.Sublist.refl _, h1⟩
        | cons p0 p =>
          simp only [List.cons_append, List.cons.injEq] at he
          obtain ⟨rfl, he⟩ := he
          have ht : t ≠ h := fun k => hp (by simp [k])
          obtain ⟨p', q', e1, e2, e3⟩ := h4 p q t he (fun c => hp (List.mem_cons_of_mem _ c)) (by simp [hes, ht])
          exact ⟨h :: p', q', by simp [e1], e2.cons₂ h, e3⟩

/-- `list_unique` keeps, in order, the first occurrence of every type. -/
theorem C35_unique [DecidableEq T] (l : List T) (hl : l.length < 2 ^ 64) : firsts l (unique l []) := by
  obtain ⟨r, e, h1, h2, h3, h4⟩ := unique_spec l [] (by simpa using hl) (by simp)
  simp only [List.nil_append] at e h2 h3
  rw [e]
  exact ⟨h1, h2, h3, fun p q t he hp => h4 p q t he hp (by simp)⟩

/-! ## Sort -/

theorem merge_spec {less : T → T → Option Bool} {lt : T → T → Prop} (hs : StrictWeak less lt) : ∀ (n : Nat) (l1 l2 : List T), l1.length + l2.length ≤ n →
    (l1 ≠ [] ∨ l2 ≠ []) → l1.Pairwise (fun a b => ¬ lt b a) → l2.Pairwise (fun a b => ¬ lt b a) →
    ∃ r, merge less l1 l2 = some r ∧ r.Perm (l1 ++ l2) ∧ r.Pairwise (fun a b => ¬ lt b a)
  | _, [], [], _, h, _, _ => by simp at h
  | _, a :: l1, [], _, _, h1, _ => ⟨a :: l1, by simp [merge], by simp, h1⟩
  | _, [], b :: l2, _, _, _, h2 => ⟨b :: l2, by simp [merge], by simp, h2⟩
  | 0, a :: l1, b :: l2, hn, _, _, _ => by simp at hn
  | n + 1, a :: l1, b :: l2, hn, _, h1, h2 => by
    simp only [List.length_cons] at hn
    obtain ⟨x, ex, px, sx⟩ := merge_spec hs n l1 (b :: l2) (by simp; omega) (by simp) (List.pairwise_cons.1 h1).2 h2
    obtain ⟨y, ey, py, sy⟩ := merge_spec hs n (a :: l1) l2 (by simp; omega) (by simp) h1 (List.pairwise_cons.1 h2).2
    have irr : ∀ a, ¬ lt a a := fun a h => hs.asymm a a h h
    have htr : ∀ a b c, ¬ lt b a → ¬ lt c b → ¬ lt c a := fun a b c u v => hs.negTrans c b a v u
    rcases hs.defined a b with ⟨e, hlt⟩ | ⟨e, hlt⟩
    · refine ⟨a :: x, ?_, ?_, ?_⟩
      · rw [merge, e, ex, ey]; simp [pushFront_eq]
      · simpa using px.cons a
      · rw [List.pairwise_cons]
        refine ⟨?_, sx⟩
        intro z hz
        have hz' := px.mem_iff.1 hz
        rcases List.mem_append.1 hz' with h | h
        · exact (List.pairwise_cons.1 h1).1 z h
        · have hab : ¬ lt b a := hs.asymm a b hlt
          rcases List.mem_cons.1 h with rfl | h
          · exact hab
          · exact htr a b z hab ((List.pairwise_cons.1 h2).1 z h)
    · refine ⟨b :: y, ?_, ?_, ?_⟩
      · rw [merge, e, ex, ey]; simp [pushFront_eq]
      · have p1 : (b :: y).Perm (b :: (a :: l1 ++ l2)) := py.cons b
        exact p1.trans List.perm_middle.symm
      · rw [List.pairwise_cons]
        refine ⟨?_, sy⟩
        intro z hz
        have hz' := py.mem_iff.1 hz
        rcases List.mem_append.1 hz' with h | h
        · rcases List.mem_cons.1 h with rfl | h
          · exact hlt
          · exact htr b a z hlt ((List.pairwise_cons.1 h1).1 z h)
        · exact (List.pairwise_cons.1 h2).1 z h

theorem sort_spec {less : T → T → Option Bool} {lt : T → T → Prop} (hs : StrictWeak less lt) : ∀ (n : Nat) (l : List T), l.length ≤ n →
    ∃ r, sort less l = some r ∧ r.Perm l ∧ r.Pairwise (fun a b => ¬ lt b a) := by
  intro n
  induction n with
  | zero =>
    intro l hl
    have : l = [] := by simpa using hl
    subst this
    exact ⟨[], by rw [sort]; simp [length], List.Perm.refl _, by simp⟩
  | succ n ih =>
    intro l hl
    by_cases h2 : length l < 2
    · refine ⟨l, by rw [sort, dif_pos h2], List.Perm.refl _, ?_⟩
      rw [length_eq] at h2
      match l, h2 with
      | [], _ => simp
      | [a], _ => simp
    · rw [sort, dif_neg h2]
      rw [length_eq] at h2
      have hsp : split l (length l / 2) [] = some (l.take (l.length / 2), l.drop (l.length / 2)) := by
        rw [split_eq, length_eq, if_pos (by omega)]; simp
      obtain ⟨x, ex, px, sx⟩ := ih (l.take (l.length / 2)) (by simp; omega)
      obtain ⟨y, ey, py, sy⟩ := ih (l.drop (l.length / 2)) (by simp; omega)
      have hx : x ≠ [] := by
        intro e; have := px.length_eq; rw [e] at this; simp at this; omega
      obtain ⟨r, er, pr, sr⟩ := merge_spec hs _ x y (Nat.le_refl _) (Or.inl hx) sx sy
      refine ⟨r, ?_, ?_, sr⟩
      · split
        · rename_i h; rw [hsp] at h; simp at h
        · rename_i a b h
          rw [hsp] at h
          simp only [Option.some.injEq, Prod.mk.injEq] at h
          obtain ⟨rfl, rfl⟩ := h
          simp [ex, ey, er]
      · refine pr.trans ((px.append py).trans ?_)
        rw [List.take_append_drop]

/-- `list_sort` with a strict weak order compiles for every list and gives an ordered permutation of it. -/
theorem C35_sort (less : T → T → Option Bool) (lt : T → T → Prop) (hs : StrictWeak less lt) (l : List T) :
    ∃ r, sort less l = some r ∧ r.Perm l ∧ r.Pairwise (fun a b => ¬ lt b a) :=
  sort_spec hs _ l (Nat.le_refl _)

/-- `list_merge` of ordered lists, not both empty, is an ordered permutation of their concatenation. -/
theorem C35_merge_partial (less : T → T → Option Bool) (lt : T → T → Prop) (hs : StrictWeak less lt) (l1 l2 : List T) (hne : l1 ≠ [] ∨ l2 ≠ [])
    (h1 : l1.Pairwise (fun a b => ¬ lt b a)) (h2 : l2.Pairwise (fun a b => ¬ lt b a)) :
    ∃ r, merge less l1 l2 = some r ∧ r.Perm (l1 ++ l2) ∧ r.Pairwise (fun a b => ¬ lt b a) :=
  merge_spec hs _ l1 l2 (Nat.le_refl _) hne h1 h2

/-- Merging two empty lists does not compile. -/
theorem C35_merge_violated (less : T → T → Option Bool) : merge less [] [] = none := by
  simp [merge]

/-! ## The comparison by size -/

theorem merge_congr {less less' : T → T → Option Bool} : ∀ (n : Nat) (l1 l2 : List T), l1.length + l2.length ≤ n → (∀ a ∈ l1, ∀ b ∈ l2, less a b = less' a b) → merge less l1 l2 = merge less' l1 l2
  | _, [], [], _, _ => by simp [merge]
  | _, a :: l1, [], _, _ => by simp [merge]
  | _, [], b :: l2, _, _ => by simp [merge]
  | 0, a :: l1, b :: l2, hn, _ => by simp at hn
  | n + 1, a :: l1, b :: l2, hn, h => by
    simp only [List.length_cons] at hn
    rw [merge, merge, h a (by simp) b (by simp), merge_congr n l1 (b :: l2) (by simp; omega) (fun x hx y hy => h x (by simp [hx]) y hy),
      merge_congr n (a :: l1) l2 (by simp; omega) (fun x hx y hy => h x hx y (by simp [hy]))]

/-- Two comparisons that agree on different positions of the list sort it in the same way. -/
theorem sort_congr {less less' : T → T → Option Bool} (P : T → T → Prop) (hP : ∀ a b, P a b → P b a) (hl : ∀ a b, P a b → less a b = less' a b) (lt : T → T → Prop) (hs : StrictWeak less' lt) :
    ∀ (n : Nat) (l : List T), l.length ≤ n → l.Pairwise P → sort less l = sort less' l := by
  intro n
  induction n with
  | zero =>
    intro l hl _
    have : l = [] := by simpa using hl
    subst this
    rw [sort, sort]; simp [length]
  | succ n ih =>
    intro l hl' hp
    by_cases h2 : length l < 2
    · rw [sort, sort, dif_pos h2, dif_pos h2]
    · have h2' := h2
      rw [length_eq] at h2'
      have hsp : split l (length l / 2) [] = some (l.take (l.length / 2), l.drop (l.length / 2)) := by
        rw [split_eq, length_eq, if_pos (by omega)]; simp
      have hp' := hp
      rw [← List.take_append_drop (l.length / 2) l, List.pairwise_append] at hp'
      have unf : ∀ (ls : T → T → Option Bool), sort ls l = (do let x ← sort ls (l.take (l.length / 2)); let y ← sort ls (l.drop (l.length / 2)); merge ls x y) := by
        intro ls
        rw [sort, dif_neg h2]
        split
        · rename_i h; rw [hsp] at h; simp at h
        · rename_i a b h
          rw [hsp] at h
          simp only [Option.some.injEq, Prod.mk.injEq] at h
          obtain ⟨rfl, rfl⟩ := h
          rfl
      rw [unf less, unf less', ih (l.take (l.length / 2)) (by simp; omega) hp'.1, ih (l.drop (l.length / 2)) (by simp; omega) hp'.2.1]
      obtain ⟨x, ex, px, -⟩ := C35_sort less' lt hs (l.take (l.length / 2))
      obtain ⟨y, ey, py, -⟩ := C35_sort less' lt hs (l.drop (l.length / 2))
      rw [ex, ey]
      show merge less x y = merge less' x y
      exact merge_congr _ x y (Nat.le_refl _) (fun a ha b hb => hl a b (hp'.2.2 a (px.mem_iff.1 ha) b (py.mem_iff.1 hb)))

/-- The order of `type_less_sizeof`: `void` (given by `none`) before the other types, these by size. -/
def sizeLt : Option Nat → Option Nat → Prop
  | none, none => False
  | none, some _ => True
  | some _, none => False
  | some a, some b => a < b

/-- A list of types in which `void` is at most once is sorted by size. -/
theorem C35_sort_sizeof (l : List (Option Nat)) (hv : l.count none ≤ 1) :
    ∃ r, sort lessSizeof l = some r ∧ r.Perm l ∧ r.Pairwise (fun a b => ¬ sizeLt b a) := by
  have hs : StrictWeak (fun a b => if a = none ∧ b = none then some false else lessSizeof a b) sizeLt := by
    refine ⟨?_, ?_, ?_⟩
    · intro a b
      cases a <;> cases b <;> simp [lessSizeof, sizeLt]
      omega
    · intro a b
      cases a <;> cases b <;> simp [sizeLt]
      omega
    · intro a b c
      cases a <;> cases b <;> cases c <;> simp [sizeLt]
      omega
  obtain ⟨r, e, h⟩ := C35_sort _ _ hs l
  refine ⟨r, ?_, h⟩
  rw [← e]
  have hp : ∀ l : List (Option Nat), l.count none ≤ 1 → l.Pairwise (fun a b => ¬ (a = none ∧ b = none)) := by
    intro l
    induction l with
    | nil => simp
    | cons a l ih =>
      intro hc
      rw [List.count_cons] at hc
      rw [List.pairwise_cons]
      refine ⟨?_, ih (by omega)⟩
      rintro b hb ⟨rfl, rfl⟩
      have : 0 < l.count none := List.count_pos_iff.2 hb
      simp at hc; omega
  refine sort_congr (fun a b => ¬ (a = none ∧ b = none)) (fun a b h k => h ⟨k.2, k.1⟩) (fun a b h => by simp only [if_neg h]) sizeLt hs _ l (Nat.le_refl _) (hp l hv)

/-- With `void` twice the program does not compile. -/
theorem C35_sizeof_violated : sort lessSizeof [none, none] = none := by
  decide +kernel

example : sort lessSizeof [some 8, some 2, none, some 128, some 4, some 2] = some [none, some 2, some 2, some 4, some 8, some 128] := by
  decide +kernel

example : unique [3, 1, 3, 2, 1, 5] [] = [3, 1, 2, 5] ∧ find [3, 1, 3, 2] 3 0 = 0 ∧ find [3, 1, 3, 2] 2 0 = 3 ∧ find [3, 1] 2 0 = npos := by
  decide +kernel

example : StrictWeak (fun a b : Nat => some (decide (a < b))) (· < ·) :=
  ⟨fun a b => by simp; omega, fun a b => by omega, fun a b c => by omega⟩

end Verif.Meta
