import Verif.Model.ActorPath
import Verif.Lemmas.Tokens

/-!
# C36: actor paths parse back to what they were built from

`Tokens.pieces` is the list of the parts of a string between separators, and `Tokens.nonEmptyPieces` that of the parts that are not empty;
they are characterized in `Verif.Props.C03_Tokens`.
-/
set_option autoImplicit false

namespace Verif.ActorPath

open Tokens (moveIter pieces nonEmptyPieces)

/-! ## Specification -/

/-- What a path says: `yato://`, then parts between slashes: the system, the name of a scope, and the names of the actors. -/
inductive Parsed (m : Str) : Str → Scope → List Str → Prop
  | mk (r system scopeName : Str) (rest : List Str) (scope : Scope) (names : List Str) : m = root ++ r → pieces slash r = system :: scopeName :: rest → (scope, scopeName) ∈ scopeNames →
      scope ≠ .unknown → names = rest.filter (fun t => !t.isEmpty) → Parsed m system scope names

/-! ## Proof -/

theorem mem_scopeNames {s : Scope} {n : Str} (h : (s, n) ∈ scopeNames) : strToScope n = s ∧ scopeToStr s = n := by
  simp only [scopeNames, List.mem_cons, Prod.mk.injEq, List.not_mem_nil, or_false] at h
  rcases h with ⟨rfl, rfl⟩ | ⟨rfl, rfl⟩ | ⟨rfl, rfl⟩ | ⟨rfl, rfl⟩ | ⟨rfl, rfl⟩ | ⟨rfl, rfl⟩ <;> decide +kernel

theorem strToScope_mem {n : Str} (h : strToScope n ≠ .unknown) : (strToScope n, n) ∈ scopeNames := by
  unfold strToScope at h ⊢
  cases e : scopeNames.find? (fun e => decide (e.2 = n)) with
  | none => rw [e] at h; simp at h
  | some p =>
    have h1 := List.mem_of_find?_eq_some e
    have h2 := List.find?_some e
    simp at h2
    simp only
    rw [← h2]
    exact h1

theorem scopeToStr_noSlash (s : Scope) : ∀ x ∈ scopeToStr s, slash x = false := by
  cases s <;> decide +kernel

theorem strToScope_scopeToStr (s : Scope) : strToScope (scopeToStr s) = s := by
  cases s <;> decide +kernel

theorem equalRange_root (a r : Str) : equalRange a (a ++ r) = some true := by
  induction a with
  | nil => rfl
  | cons c a ih => simp [equalRange, ih]

theorem equalRange_true {a m : Str} (h : equalRange a m = some true) : ∃ r, m = a ++ r := by
  induction a generalizing m with
  | nil => exact ⟨m, rfl⟩
  | cons c a ih =>
    cases m with
    | nil => simp [equalRange] at h
    | cons d m =>
      simp only [equalRange] at h
      split at h
      · rename_i e; obtain ⟨r, rfl⟩ := ih h; exact ⟨r, by simp [e]⟩
      · simp at h

theorem equalRange_none {a m : Str} : equalRange a m = none ↔ ∃ t, t ≠ [] ∧ a = m ++ t := by
  induction a generalizing m with
  | nil => simp [equalRange]
  | cons c a ih =>
    cases m with
    | nil => simp [equalRange]
    | cons d m =>
      simp only [equalRange]
      by_cases e : c = d
      · subst e; simp [ih]
      · simp [e]

theorem sub_mid (p a r : Str) : sub (p ++ (a ++ r)) p.length (p.length + a.length) = a := by
  simp [sub, List.take_append]

/-- the names in what follows a name: a separator and the rest, or nothing -/
def after : Str → List Str
  | [] => []
  | _ :: r => nonEmptyPieces slash r

theorem namesFrom_eq : ∀ (n : Nat) (pre r : Str) (s : Char), r.length ≤ n → namesFrom (pre ++ s :: r) pre.length = some (nonEmptyPieces slash r) := by
  intro n
  induction n with
  | zero =>
    intro pre r s hn
    have : r = [] := by simpa using hn
    subst this
    have hm : moveIter slash (pre ++ [s]) (pre.length + 1) = some (pre.length + 1) := by
      rw [moveIter]; simp
    rw [namesFrom]
    simp only [List.length_append, List.length_cons, List.length_nil]
    rw [dif_neg (by omega), dif_neg (by omega)]
    split
    · rename_i h; rw [hm] at h; simp at h
    · rename_i e' h
      rw [hm] at h; simp at h; subst h
      have : namesFrom (pre ++ [s]) (pre.length + 1) = some [] := by
        rw [namesFrom, dif_pos (by simp)]
      simp [this, nonEmptyPieces, pieces]
  | succ n ih =>
    intro pre r s hn
    obtain ⟨a, rest, rfl, ha, hr⟩ := Tokens.exists_run slash r
    have hm := Tokens.moveIter_run (pre := pre ++ [s]) ha hr
    simp only [List.append_assoc, List.singleton_append, List.length_append, List.length_singleton] at hm
    have hs := sub_mid (pre ++ [s]) a rest
    simp only [List.append_assoc, List.singleton_append, List.length_append, List.length_singleton] at hs
    rw [namesFrom]
    simp only [List.length_append, List.length_cons]
    rw [dif_neg (by omega), dif_neg (by omega)]
    split
    · rename_i h; rw [hm] at h; simp at h
    · rename_i e' h
      rw [hm] at h; simp at h; subst h
      have key : namesFrom (pre ++ s :: (a ++ rest)) (pre.length + 1 + a.length) = some (after rest) := by
        rcases hr with rfl | ⟨t, q, rfl, ht⟩
        · rw [namesFrom, dif_pos (by simp; omega), after]
        · have := ih (pre ++ s :: a) q t (by simp at hn ⊢; omega)
          simp only [List.append_assoc, List.cons_append, List.length_append, List.length_cons] at this
          rw [show pre.length + 1 + a.length = pre.length + (a.length + 1) by omega]
          exact this
      rw [key]
      have hp : nonEmptyPieces slash (a ++ rest) = (if a = [] then [] else [a]) ++ (after rest) := by
        rcases hr with rfl | ⟨t, q, rfl, ht⟩
        · rw [List.append_nil, nonEmptyPieces, Tokens.pieces_noSep ha]; cases a <;> simp [after]
        · rw [nonEmptyPieces, Tokens.pieces_sep ha ht]; cases a <;> simp [nonEmptyPieces, after]
      simp only [hp, hs]
      cases a with
      | nil => simp
      | cons x a => simp

/-- `parce` on everything that begins with the root. -/
theorem parce_root (r : Str) (elems : Elems) (hdr : Bool) :
    parce (root ++ r) elems hdr =
      some (match pieces slash r with
        | system :: sc :: rest =>
          if strToScope sc = .unknown then (false, { elems with system := system, scope := some .unknown })
          else if hdr then (true, { elems with system := system, scope := some (strToScope sc) })
          else (!(rest.filter (fun t => !t.isEmpty)).isEmpty, ⟨system, some (strToScope sc), rest.filter (fun t => !t.isEmpty)⟩)
        | _ => (false, elems)) := by
  obtain ⟨a, rest, rfl, ha, hr⟩ := Tokens.exists_run slash r
  have hm := Tokens.moveIter_run (pre := root) ha hr
  have hs := sub_mid root a rest
  rw [parce, equalRange_root]
  simp only [hm]
  rcases hr with rfl | ⟨t, q, rfl, ht⟩
  · rw [if_pos (by simp), List.append_nil, Tokens.pieces_noSep ha]
  · have hne : root.length + a.length ≠ (root ++ (a ++ t :: q)).length := by simp
    rw [if_neg hne, Tokens.pieces_sep ha ht]
    obtain ⟨b, rest, rfl, hb, hr⟩ := Tokens.exists_run slash q
    have hm2 := Tokens.moveIter_run (pre := root ++ (a ++ [t])) hb hr
    have hs2 := sub_mid (root ++ (a ++ [t])) b rest
    have ea : root ++ (a ++ [t]) ++ (b ++ rest) = root ++ (a ++ t :: (b ++ rest)) := by simp
    have el : (root ++ (a ++ [t])).length = root.length + a.length + 1 := by simp [Nat.add_assoc]
    rw [ea, el] at hm2 hs2
    simp only [hm2, hs, hs2]
    have hn : namesFrom (root ++ (a ++ t :: (b ++ rest))) (root.length + a.length + 1 + b.length) = some (after rest) := by
      rcases hr with rfl | ⟨u, w, rfl, hu⟩
      · rw [namesFrom, dif_pos (by simp; omega), after]
      · have := namesFrom_eq w.length (root ++ (a ++ t :: b)) w u (Nat.le_refl _)
        have e1 : root ++ (a ++ t :: b) ++ u :: w = root ++ (a ++ t :: (b ++ u :: w)) := by simp
        have e2 : (root ++ (a ++ t :: b)).length = root.length + a.length + 1 + b.length := by simp; omega
        rwa [e1, e2] at this
    have hp : ∃ tl, pieces slash (b ++ rest) = b :: tl ∧ tl.filter (fun t => !t.isEmpty) = (after rest) := by
      rcases hr with rfl | ⟨u, w, rfl, hu⟩
      · exact ⟨[], by rw [List.append_nil, Tokens.pieces_noSep hb], rfl⟩
      · exact ⟨pieces slash w, Tokens.pieces_sep hb hu, rfl⟩
    obtain ⟨tl, h1, h2⟩ := hp
    rw [h1, hn]
    simp only [h2]
    split
    · rfl
    · split
      · rfl
      · rfl

/-- Parsing any string that is not a proper prefix of `yato://` is defined, succeeds exactly for what the specification calls a path with at
least one name, and then gives its parts. -/
theorem C36_parse_partial (m : Str) (elems : Elems) (hm : ∀ t, t ≠ [] → root ≠ m ++ t) :
    ∃ b e, parce m elems false = some (b, e) ∧ (b = true ↔ ∃ system scope names, Parsed m system scope names ∧ names ≠ []) ∧
      (b = true → ∃ scope, Parsed m e.system scope e.names ∧ e.scope = some scope) := by
  cases h : equalRange root m with
  | none =>
    obtain ⟨t, h1, h2⟩ := equalRange_none.1 h
    exact absurd h2 (hm t h1)
  | some q =>
    cases q with
    | false =>
      refine ⟨false, elems, by simp [parce, h], ?_, by simp⟩
      simp only [Bool.false_eq_true, false_iff]
      rintro ⟨sys, sc, ns, ⟨r, system, scopeName, rest, scope, names, e, -, -, -⟩, -⟩
      rw [e, equalRange_root] at h; simp at h
    | true =>
      obtain ⟨r, rfl⟩ := equalRange_true h
      rw [parce_root]
      cases hp : pieces slash r with
      | nil => exact absurd hp (Tokens.pieces_ne_nil slash r)
      | cons system tl =>
        cases tl with
        | nil =>
          refine ⟨false, elems, rfl, ?_, by simp⟩
          simp only [Bool.false_eq_true, false_iff]
          rintro ⟨_, _, _, ⟨r', system', scopeName, rest, scope, names, e, hp', -, -⟩, -⟩
          have : r' = r := by simpa using e.symm
          subst this
          rw [hp] at hp'; simp at hp'
        | cons sc rest =>
          by_cases hu : strToScope sc = .unknown
          · refine ⟨false, _, by simp only [hu, if_true]; rfl, ?_, by simp⟩
            simp only [Bool.false_eq_true, false_iff]
            rintro ⟨_, _, _, ⟨r', system', scopeName, rest', scope, names, e, hp', hs, hn, -⟩, -⟩
            have : r' = r := by simpa using e.symm
            subst this
            rw [hp] at hp'; simp at hp'
            obtain ⟨rfl, rfl, rfl⟩ := hp'
            exact hn ((mem_scopeNames hs).1.symm.trans hu)
          · refine ⟨_, _, by simp only [hu, if_false, Bool.false_eq_true]; rfl, ?_, ?_⟩
            · constructor
              · intro hb
                refine ⟨system, strToScope sc, _, ⟨r, system, sc, rest, _, _, rfl, hp, strToScope_mem hu, hu, rfl⟩, ?_⟩
                intro k; rw [k] at hb; simp at hb
              · rintro ⟨_, _, _, ⟨r', system', scopeName, rest', scope, names, e, hp', hs, hn, he⟩, hne⟩
                have : r' = r := by simpa using e.symm
                subst this
                rw [hp] at hp'; simp at hp'
                obtain ⟨rfl, rfl, rfl⟩ := hp'
                rw [← he]
                clear he
                rename_i _ ns
                cases ns with
                | nil => exact absurd rfl hne
                | cons => rfl
            · intro _
              exact ⟨strToScope sc, ⟨r, system, sc, rest, _, _, rfl, hp, strToScope_mem hu, hu, rfl⟩, rfl⟩

theorem valid_noSlash {n : Str} (h : isValidSystemName n = true) : ∀ x ∈ n, slash x = false := by
  intro x hx
  simp only [isValidSystemName, Bool.and_eq_true, List.all_eq_true] at h
  have := h.2 x hx
  cases hs : slash x with
  | false => rfl
  | true =>
    simp only [slash, decide_eq_true_eq] at hs
    subst hs
    exact absurd this (by decide)

/-- Parsing a path that was built from a system name, a scope and names separated by slashes gives these back. -/
theorem C36_roundtrip (system name m : Str) (scope : Scope) (elems : Elems) (hs : scope ≠ .unknown) (hb : build system scope name = some m) :
    parce m elems false = some (!(nonEmptyPieces slash name).isEmpty, ⟨system, some scope, nonEmptyPieces slash name⟩) ∧
      parce m elems true = some (true, { elems with system := system, scope := some scope }) := by
  unfold build at hb
  split at hb
  · simp at hb
  · rename_i hv
    split at hb
    · simp at hb
    · simp only [Option.some.injEq] at hb
      have hv' : isValidSystemName system = true := by simpa using hv
      have e : m = root ++ (system ++ '/' :: (scopeToStr scope ++ '/' :: name)) := by rw [← hb]; simp
      have hp : pieces slash (system ++ '/' :: (scopeToStr scope ++ '/' :: name)) = system :: scopeToStr scope :: pieces slash name := by
        rw [Tokens.pieces_sep (valid_noSlash hv') (by decide), Tokens.pieces_sep (scopeToStr_noSlash scope) (by decide)]
      rw [e, parce_root, parce_root, hp]
      simp only [strToScope_scopeToStr, if_neg hs, if_true, Bool.false_eq_true, if_false]
      exact ⟨rfl, trivial⟩

/-- A name of slashes only is accepted by the constructor, but parsing the path fails. -/
theorem C36_slashes_violated : ∃ m, build ['a'] .user ['/'] = some m ∧ ∀ elems, (parce m elems false).map (·.1) = some false := by
  refine ⟨_, rfl, fun elems => ?_⟩
  have hb : build ['a'] .user ['/'] = some (root ++ ['a'] ++ ['/'] ++ scopeToStr .user ++ ['/'] ++ ['/']) := rfl
  rw [(C36_roundtrip ['a'] ['/'] _ .user elems (by decide) hb).1]
  decide +kernel

/-- Parsing a proper prefix of `yato://` reads at the end of the string. -/
theorem C36_prefix_violated (m : Str) (elems : Elems) (hdr : Bool) (t : Str) (ht : t ≠ []) (h : root = m ++ t) : parce m elems hdr = none := by
  rw [parce, equalRange_none.2 ⟨t, ht, h⟩]

theorem getName_append (p n : Str) (hn : ∀ x ∈ n, slash x = false) : getName (p ++ '/' :: n) = n := by
  have hany : n.any slash = false := by
    rw [Bool.eq_false_iff]; intro h
    obtain ⟨x, hx, hs⟩ := List.any_eq_true.1 h
    rw [hn x hx] at hs; simp at hs
  induction p with
  | nil => simp [getName, hany]
  | cons c p ih =>
    have : (p ++ '/' :: n).any slash = true := by simp [slash]
    simp only [List.cons_append, getName, this, if_true, ih]

/-- The name of a joined path, and of a path built with a single name, is this name. -/
theorem C36_name (p name system m : Str) (scope : Scope) (hn : isValidActorName name = true) :
    getName (join p name) = name ∧ (build system scope name = some m → getName m = name) := by
  have h1 : ∀ x ∈ name, slash x = false := by
    intro x hx
    simp only [isValidActorName, Bool.and_eq_true, List.all_eq_true] at hn
    have := (hn.2 x hx).2
    simpa [slash] using this
  constructor
  · rw [join, List.append_assoc, List.singleton_append]; exact getName_append p name h1
  · intro hb
    unfold build at hb
    split at hb
    · simp at hb
    · split at hb
      · simp at hb
      · simp only [Option.some.injEq] at hb
        rw [← hb, List.append_assoc, List.singleton_append]
        exact getName_append _ name h1

/-- Parsing a joined path gives the names of the path and the new one. -/
theorem C36_join (m name : Str) (system : Str) (scope : Scope) (names : List Str) (hn : isValidActorName name = true) (h : Parsed m system scope names) :
    Parsed (join m name) system scope (names ++ [name]) := by
  have h1 : ∀ x ∈ name, slash x = false := by
    intro x hx
    simp only [isValidActorName, Bool.and_eq_true, List.all_eq_true] at hn
    simpa [slash] using (hn.2 x hx).2
  have h0 : name ≠ [] := by
    intro e; subst e; simp [isValidActorName] at hn
  obtain ⟨r, system, scopeName, rest, scope, names, e, hp, hs, hu, he⟩ := h
  refine ⟨r ++ '/' :: name, system, scopeName, rest ++ [name], scope, _, by simp [join, e], ?_, hs, hu, ?_⟩
  · rw [Tokens.pieces_append_sep slash r name '/' (by decide), hp, Tokens.pieces_noSep h1]; rfl
  · rw [he, List.filter_append]
    cases name with
    | nil => exact absurd rfl h0
    | cons => rfl

example : build ['s', 'y', 's'] .user ['a', '/', '/', 'b', '/'] = some (root ++ ['s', 'y', 's', '/', 'u', 's', 'e', 'r', '/', 'a', '/', '/', 'b', '/']) := by
  decide +kernel

example : parce (root ++ ['s', '/', 't', 'e', 'm', 'p', '/', 'a', '/', '/', 'b']) ⟨[], none, []⟩ false = some (true, ⟨['s'], some .temp, [['a'], ['b']]⟩) := by
  decide +kernel

example : ∀ t, t ≠ [] → root ≠ ['y', 'a', '/'] ++ t := by
  intro t _ h; simp [root] at h

/-! ## Which names are accepted -/

/-- a letter, a digit or `_` -/
def WordChar (c : Char) : Prop := ('a' ≤ c ∧ c ≤ 'z') ∨ ('A' ≤ c ∧ c ≤ 'Z') ∨ ('0' ≤ c ∧ c ≤ '9') ∨ c = '_'

/-- a visible ASCII character: from `!` to `~` -/
def Visible (c : Char) : Prop := '!' ≤ c ∧ c ≤ '~'

theorem le_iff (a b : Char) : a ≤ b ↔ a.toNat ≤ b.toNat := by
  rw [Char.le_def, UInt32.le_iff_toNat_le]; rfl

theorem isalnum_eq (c : Char) : (isalnum c || c = '_') = true ↔ WordChar c := by
  simp only [isalnum, WordChar, le_iff, Bool.or_eq_true, Bool.and_eq_true, decide_eq_true_eq]
  constructor
  · rintro (((h | h) | h) | h)
    · exact Or.inr (Or.inr (Or.inl h))
    · exact Or.inr (Or.inl h)
    · exact Or.inl h
    · exact Or.inr (Or.inr (Or.inr h))
  · rintro (h | h | h | h)
    · exact Or.inl (Or.inr h)
    · exact Or.inl (Or.inl (Or.inr h))
    · exact Or.inl (Or.inl (Or.inl h))
    · exact Or.inr h

theorem isgraph_eq (c : Char) : isgraph c = true ↔ Visible c := by
  have h1 : '!'.toNat = 33 := by decide
  have h2 : '~'.toNat = 126 := by decide
  simp only [isgraph, Visible, le_iff, h1, h2, Bool.and_eq_true, decide_eq_true_eq]

/-- A path is built exactly if the name of the system is a word, and the name of the actor is not empty and has visible characters only; it is then the text
`yato://system/scope/name`. -/
theorem C36_build (system name m : Str) (scope : Scope) :
    build system scope name = some m ↔
      ((system ≠ [] ∧ ∀ c ∈ system, WordChar c) ∧ (name ≠ [] ∧ ∀ c ∈ name, Visible c) ∧ m = "yato://".toList ++ system ++ ['/'] ++ scopeToStr scope ++ ['/'] ++ name) := by
  have h1 : isValidSystemName system = true ↔ (system ≠ [] ∧ ∀ c ∈ system, WordChar c) := by
    simp only [isValidSystemName, Bool.and_eq_true, List.all_eq_true, isalnum_eq]; simp
  have h2 : isValidActorPath name = true ↔ (name ≠ [] ∧ ∀ c ∈ name, Visible c) := by
    simp only [isValidActorPath, Bool.and_eq_true, List.all_eq_true, isgraph_eq]; simp
  have h3 : "yato://".toList = root := rfl
  rw [← h1, ← h2, h3, build]
  cases isValidSystemName system <;> cases isValidActorPath name <;> simp [eq_comm]

/-- The names of actors that can be created: not empty, visible characters, no `/`. -/
theorem C36_names (name : Str) : isValidActorName name = true ↔ (name ≠ [] ∧ ∀ c ∈ name, Visible c ∧ c ≠ '/') := by
  simp only [isValidActorName, Bool.and_eq_true, List.all_eq_true, isgraph_eq]; simp

example : isValidActorName ['a', '+'] = true ∧ isValidActorName ['a', ' '] = false ∧ isValidActorName ['a', '/'] = false := by decide

end Verif.ActorPath
