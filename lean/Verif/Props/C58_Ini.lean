import Verif.Model.Ini
import Verif.Lemmas.Config

/-!
# C58: ini configs
-/
set_option autoImplicit false

namespace Verif.Ini

open Verif.Config (Str strLt strLt_irrefl strLt_trans strLt_total strLt_asymm strLt_ne strLe_trans)

/-! ## Specification -/

/-- The configs a user can get: the root, and the section configs reached from it by index or by name. -/
inductive Reached (es : List Event) : Cfg → Prop
  | root : Reached es (parse es).root
  | index (c : Cfg) (i : Nat) (k : Str) (m : Kv) : Reached es c → c.findIndex i = some (k, .section_ m) → Reached es (c.parser.nested m)
  | name (c : Cfg) (i : Nat) (k : Str) (m : Kv) : Reached es c → c.findKey k = some (i, .section_ m) → Reached es (c.parser.nested m)

/-- the values given for a name in a section, in their order -/
def given (es : List Event) (s n : Str) : List Str := es.filterMap (fun e => if e.section_ = s ∧ e.name = some n then e.value else none)

/-- the section has a value -/
def present (es : List Event) (s : Str) : Prop := ∃ e ∈ es, e.section_ = s ∧ e.name ≠ none ∧ e.value ≠ none

/-- the values of a name in a multimap -/
def valuesOf (m : Kv) (n : Str) : List Str := m.filterMap (fun e => if e.1 = n then some e.2 else none)

/-! ## Access by index and by name -/

theorem position_some {α : Type} {name : Str} {l : List (Str × α)} {i : Nat} {v : α} (h : position name l = some (i, v)) : l[i]? = some (name, v) := by
  induction l generalizing i with
  | nil => simp [position] at h
  | cons e l ih =>
    obtain ⟨k, x⟩ := e
    simp only [position] at h
    split at h
    · rename_i hk
      simp only [Option.some.injEq, Prod.mk.injEq] at h
      obtain ⟨rfl, rfl⟩ := h
      rw [hk]; rfl
    · cases e : position name l with
      | none => rw [e] at h; simp at h
      | some p =>
        obtain ⟨j, w⟩ := p
        rw [e] at h
        simp only [Option.map_some, Option.some.injEq, Prod.mk.injEq] at h
        obtain ⟨rfl, rfl⟩ := h
        rw [List.getElem?_cons_succ]
        exact ih e

theorem position_none {α : Type} {name : Str} {l : List (Str × α)} : position name l = none ↔ name ∉ l.map (·.1) := by
  induction l with
  | nil => simp [position]
  | cons e l ih =>
    obtain ⟨k, x⟩ := e
    simp only [position, List.map_cons, List.mem_cons, not_or]
    split
    · rename_i hk; simp [hk]
    · rename_i hk
      have : ¬ name = k := fun e => hk e.symm
      simp only [Option.map_eq_none_iff, ih, this, not_false_eq_true, true_and]

theorem size_keys (c : Cfg) : c.size = c.keys.length := by
  unfold Cfg.size Cfg.keys
  split <;> simp

/-- the entries of a config in the order of their indices -/
def Cfg.items (c : Cfg) : List (Str × Item) := (if c.global then c.parser.sections.map (fun e => (e.1, Item.section_ e.2)) else []) ++ c.values.map (fun e => (e.1, Item.value e.2))

theorem findIndex_eq (c : Cfg) (i : Nat) : c.findIndex i = c.items[i]? := by
  obtain ⟨p, values, g⟩ := c
  unfold Cfg.findIndex Cfg.items
  cases g with
  | true =>
    simp only [if_true]
    by_cases h : i < p.sections.length
    · rw [if_pos h, List.getElem?_append_left (by simpa using h)]
      simp only [List.getElem?_map, List.getElem?_eq_getElem h, Option.map_some]
    · rw [if_neg h, List.getElem?_append_right (by simp; omega)]
      simp only [List.length_map, List.getElem?_map]
      split
      · rename_i h2
        rw [List.getElem?_eq_getElem (by omega)]
        rfl
      · rename_i h2
        rw [List.getElem?_eq_none (by omega)]
        rfl
  | false =>
    simp only [Bool.false_eq_true, if_false, Nat.not_lt_zero, Nat.sub_zero, Nat.zero_add, List.nil_append, List.getElem?_map]
    split
    · rename_i h2
      rw [List.getElem?_eq_getElem h2]
      rfl
    · rename_i h2
      rw [List.getElem?_eq_none (by omega)]
      rfl

theorem keys_eq (c : Cfg) : c.keys = c.items.map (·.1) := by
  unfold Cfg.keys Cfg.items
  split <;> simp [Function.comp_def]

/-- Size, keys, access by index and access by name describe the same entries, for every config that can be reached. -/
theorem C58 (es : List Event) (c : Cfg) (_h : Reached es c) :
    c.size = c.keys.length ∧
    (∀ i, (c.findIndex i).map Prod.fst = c.keys[i]?) ∧
    (∀ name i v, c.findKey name = some (i, v) → c.findIndex i = some (name, v)) ∧
    (∀ name, c.findKey name = none ↔ name ∉ c.keys) := by
  refine ⟨size_keys c, fun i => by rw [findIndex_eq, keys_eq, List.getElem?_map], fun name i v hk => ?_, fun name => ?_⟩
  · rw [findIndex_eq]
    obtain ⟨p, values, g⟩ := c
    unfold Cfg.findKey at hk
    unfold Cfg.items
    cases g with
    | true =>
      simp only [if_true] at hk ⊢
      cases e : position name p.sections with
      | some x =>
        obtain ⟨j, m⟩ := x
        rw [e] at hk
        simp only [Option.some.injEq, Prod.mk.injEq] at hk
        obtain ⟨rfl, rfl⟩ := hk
        have := position_some e
        have hl : j < p.sections.length := by
          rcases Nat.lt_or_ge j p.sections.length with h | h
          · exact h
          · rw [List.getElem?_eq_none h] at this; simp at this
        rw [List.getElem?_append_left (by simpa using hl), List.getElem?_map, this]
        rfl
      | none =>
        rw [e] at hk
        simp only at hk
        cases e2 : position name values with
        | none => rw [e2] at hk; simp at hk
        | some x =>
          obtain ⟨j, m⟩ := x
          rw [e2] at hk
          simp only [Option.some.injEq, Prod.mk.injEq] at hk
          obtain ⟨rfl, rfl⟩ := hk
          rw [List.getElem?_append_right (by simp)]
          simp [position_some e2]
    | false =>
      simp only [Bool.false_eq_true, if_false, List.nil_append] at hk ⊢
      cases e2 : position name values with
      | none => rw [e2] at hk; simp at hk
      | some x =>
        obtain ⟨j, m⟩ := x
        rw [e2] at hk
        simp only [Option.some.injEq, Prod.mk.injEq] at hk
        obtain ⟨rfl, rfl⟩ := hk
        simp [position_some e2]
  · obtain ⟨p, values, g⟩ := c
    unfold Cfg.findKey Cfg.keys
    have hv := position_none (name := name) (l := values)
    have hsec := position_none (name := name) (l := p.sections)
    cases g with
    | true =>
      simp only [if_true, List.mem_append, not_or, ← hv, ← hsec]
      cases e : position name p.sections with
      | some x => simp
      | none => cases e2 : position name values <;> simp
    | false =>
      simp only [Bool.false_eq_true, if_false, List.nil_append, ← hv]
      cases e2 : position name values <;> simp

/-! ## The contents -/

def KvSorted (m : Kv) : Prop := m.Pairwise (fun a b => strLt b.1 a.1 = false)

theorem mem_emplace {m : Kv} {n v : Str} {e : Str × Str} : e ∈ m.emplace n v ↔ e = (n, v) ∨ e ∈ m := by
  induction m with
  | nil => simp [Kv.emplace]
  | cons a m ih =>
    simp only [Kv.emplace]
    split
    · simp
    · simp only [List.mem_cons, ih]
      constructor
      · rintro (h | h | h)
        · exact Or.inr (Or.inl h)
        · exact Or.inl h
        · exact Or.inr (Or.inr h)
      · rintro (h | h | h)
        · exact Or.inr (Or.inl h)
        · exact Or.inl h
        · exact Or.inr (Or.inr h)

theorem emplace_sorted {m : Kv} {n v : Str} (h : KvSorted m) : KvSorted (m.emplace n v) := by
  induction m with
  | nil => exact List.pairwise_singleton ..
  | cons a m ih =>
    have h' := List.pairwise_cons.1 h
    simp only [Kv.emplace]
    split
    · rename_i hlt
      refine List.pairwise_cons.2 ⟨fun b hb => ?_, h⟩
      rcases List.mem_cons.1 hb with rfl | hb
      · exact strLt_asymm hlt
      · exact strLe_trans (strLt_asymm hlt) (h'.1 b hb)
    · rename_i hlt
      refine List.pairwise_cons.2 ⟨fun b hb => ?_, ih h'.2⟩
      rcases mem_emplace.1 hb with rfl | hb
      · simpa using hlt
      · exact h'.1 b hb

theorem emplace_values {m : Kv} {n v : Str} (h : KvSorted m) (k : Str) : valuesOf (m.emplace n v) k = valuesOf m k ++ if k = n then [v] else [] := by
  induction m with
  | nil =>
    by_cases hk : k = n
    · simp [Kv.emplace, valuesOf, hk]
    · have : ¬ n = k := fun e => hk e.symm
      simp [Kv.emplace, valuesOf, hk, this]
  | cons a m ih =>
    have h' := List.pairwise_cons.1 h
    simp only [Kv.emplace]
    split
    · rename_i hlt
      by_cases hk : k = n
      · subst hk
        have hnone : valuesOf (a :: m) k = [] := by
          unfold valuesOf
          rw [List.filterMap_eq_nil_iff]
          intro b hb
          have : b.1 ≠ k := by
            rcases List.mem_cons.1 hb with rfl | hb
            · exact fun e => strLt_ne hlt e.symm
            · rintro rfl
              have := h'.1 b hb
              rw [this] at hlt
              simp at hlt
          simp [this]
        rw [hnone]
        simp only [valuesOf] at hnone ⊢
        rw [List.filterMap_cons]
        simp [hnone]
      · have : ¬ n = k := fun e => hk e.symm
        simp [valuesOf, hk, this, List.filterMap_cons]
    · have := ih h'.2
      simp only [valuesOf, List.filterMap_cons] at this ⊢
      rw [this]
      split <;> simp

abbrev SecSorted (ss : List (Str × Kv)) : Prop := ss.Pairwise (fun a b => strLt a.1 b.1 = true)

/-- the values of a section, none if there is no such section -/
def sectionOf (ss : List (Str × Kv)) (s : Str) : Kv := ((position s ss).map Prod.snd).getD []

theorem mem_putSection {ss : List (Str × Kv)} {s n v : Str} {e : Str × Kv} (h : e ∈ putSection ss s n v) : e ∈ ss ∨ e = (s, Kv.emplace [] n v) ∨ ∃ m, (s, m) ∈ ss ∧ e = (s, m.emplace n v) := by
  induction ss with
  | nil => simp [putSection] at h; exact Or.inr (Or.inl h)
  | cons a ss ih =>
    obtain ⟨k, m⟩ := a
    simp only [putSection] at h
    split at h
    · rcases List.mem_cons.1 h with h | h
      · exact Or.inl (by rw [h]; simp)
      · rcases ih h with h | h | ⟨m', h1, h2⟩
        · exact Or.inl (List.mem_cons_of_mem _ h)
        · exact Or.inr (Or.inl h)
        · exact Or.inr (Or.inr ⟨m', List.mem_cons_of_mem _ h1, h2⟩)
    · rename_i h1
      split at h
      · rcases List.mem_cons.1 h with h | h
        · exact Or.inr (Or.inl h)
        · exact Or.inl h
      · rename_i h2
        have hks : k = s := strLt_total k s (by simpa using h1) (by simpa using h2)
        rcases List.mem_cons.1 h with h | h
        · exact Or.inr (Or.inr ⟨m, by rw [hks]; simp, by rw [h, hks]⟩)
        · exact Or.inl (List.mem_cons_of_mem _ h)

theorem putSection_sorted {ss : List (Str × Kv)} {s n v : Str} (h : SecSorted ss) : SecSorted (putSection ss s n v) := by
  induction ss with
  | nil => exact List.pairwise_singleton ..
  | cons a ss ih =>
    obtain ⟨k, m⟩ := a
    have h' := List.pairwise_cons.1 h
    simp only [putSection]
    split
    · rename_i hlt
      refine List.pairwise_cons.2 ⟨fun b hb => ?_, ih h'.2⟩
      rcases mem_putSection hb with hb | rfl | ⟨m', -, rfl⟩
      · exact h'.1 b hb
      · exact hlt
      · exact hlt
    · split
      · rename_i hlt
        refine List.pairwise_cons.2 ⟨fun b hb => ?_, h⟩
        rcases List.mem_cons.1 hb with rfl | hb
        · exact hlt
        · exact strLt_trans hlt (h'.1 b hb)
      · exact List.pairwise_cons.2 ⟨h'.1, h'.2⟩

theorem position_put {ss : List (Str × Kv)} {s n v : Str} (h : SecSorted ss) (k : Str) :
    (position k (putSection ss s n v)).map Prod.snd = if k = s then some ((sectionOf ss s).emplace n v) else (position k ss).map Prod.snd := by
  unfold sectionOf
  induction ss with
  | nil =>
    by_cases hk : k = s
    · simp [putSection, position, hk]
    · have : ¬ s = k := fun e => hk e.symm
      simp [putSection, position, hk, this]
  | cons a ss ih =>
    obtain ⟨a, m⟩ := a
    have h' := List.pairwise_cons.1 h
    have ih := ih h'.2
    simp only [putSection]
    split
    · rename_i hlt
      have hne : ¬ a = s := strLt_ne hlt
      by_cases hak : a = k
      · have hks : ¬ k = s := by rw [← hak]; exact hne
        simp [position, hak, hks]
      · simp only [position, hak, hne, if_false, Option.map_map]
        have e : (Prod.snd ∘ fun (x : Nat × Kv) => (x.1 + 1, x.2)) = Prod.snd := rfl
        rw [e]
        exact ih
    · rename_i h1
      split
      · rename_i hlt
        have hnone : ∀ e ∈ (a, m) :: ss, e.1 ≠ s := by
          intro e he
          rcases List.mem_cons.1 he with rfl | he
          · exact fun e => strLt_ne hlt e.symm
          · exact fun e' => strLt_ne (strLt_trans hlt (h'.1 e he)) e'.symm
        have hp : position s ((a, m) :: ss) = none := by
          rw [position_none]
          intro hm
          obtain ⟨e, he, hes⟩ := List.mem_map.1 hm
          exact hnone e he hes
        rw [hp]
        by_cases hk : k = s
        · subst hk; simp [position]
        · have hsk : ¬ s = k := fun e => hk e.symm
          rw [if_neg hk, position]
          simp only [hsk, if_false, Option.map_map]
          rfl
      · rename_i h2
        have has : a = s := strLt_total a s (by simpa using h1) (by simpa using h2)
        subst has
        by_cases hk : k = a
        · subst hk; simp [position]
        · have hak : ¬ a = k := fun e => hk e.symm
          simp [position, hk, hak]

structure Inv (es : List Event) (p : Parser) : Prop where
  gs : KvSorted p.globals
  gv : ∀ n, valuesOf p.globals n = given es [] n
  ss : SecSorted p.sections
  sv : ∀ e ∈ p.sections, KvSorted e.2 ∧ e.1 ≠ []
  sec : ∀ s, s ≠ [] → ∀ n, valuesOf (sectionOf p.sections s) n = given es s n
  dom : ∀ s, s ≠ [] → (position s p.sections ≠ none ↔ present es s)

theorem sectionOf_sorted {ss : List (Str × Kv)} (h : ∀ e ∈ ss, KvSorted e.2) (s : Str) : KvSorted (sectionOf ss s) := by
  unfold sectionOf
  cases e : position s ss with
  | none => exact List.Pairwise.nil
  | some x => exact h (s, x.2) (List.mem_of_getElem? (position_some (i := x.1) (v := x.2) e))

theorem parse_inv (es : List Event) : Inv es (parse es) := by
  have key : ∀ (rs : List Event), Inv rs.reverse (parse rs.reverse) := by
    intro rs
    induction rs with
    | nil => exact ⟨List.Pairwise.nil, fun n => rfl, List.Pairwise.nil, by simp [parse], fun s _ n => rfl, fun s _ => by simp [parse, position, present]⟩
    | cons e rs ih =>
      rw [List.reverse_cons]
      have hp : parse (rs.reverse ++ [e]) = (parse rs.reverse).event e := by simp [parse]
      rw [hp]
      obtain ⟨h1, h2, h3, h4, h5, h6⟩ := ih
      have hgiven : ∀ s n, given (rs.reverse ++ [e]) s n = given rs.reverse s n ++ (if e.section_ = s ∧ e.name = some n then e.value else none).toList := by
        intro s n
        simp only [given, List.filterMap_append]
        congr 1
      have hpres : ∀ s, present (rs.reverse ++ [e]) s ↔ present rs.reverse s ∨ (e.section_ = s ∧ e.name ≠ none ∧ e.value ≠ none) := by
        intro s
        simp only [present, List.mem_append, List.mem_singleton]
        constructor
        · rintro ⟨x, hx | rfl, h⟩
          · exact Or.inl ⟨x, hx, h⟩
          · exact Or.inr h
        · rintro (⟨x, hx, h⟩ | h)
          · exact ⟨x, Or.inl hx, h⟩
          · exact ⟨e, Or.inr rfl, h⟩
      obtain ⟨sec, name, value⟩ := e
      have same : (name = none ∨ value = none) → Inv (rs.reverse ++ [⟨sec, name, value⟩]) (parse rs.reverse) := by
        intro hnv
        have hg : ∀ s n, given (rs.reverse ++ [⟨sec, name, value⟩]) s n = given rs.reverse s n := by
          intro s n
          rw [hgiven]
          rcases hnv with rfl | rfl <;> simp
        refine ⟨h1, fun n => by rw [hg]; exact h2 n, h3, h4, fun s hs n => by rw [hg]; exact h5 s hs n, fun s hs => ?_⟩
        rw [hpres, h6 s hs]
        constructor
        · exact Or.inl
        · rintro (h | ⟨-, ha, hb⟩)
          · exact h
          · rcases hnv with rfl | rfl
            · exact absurd rfl ha
            · exact absurd rfl hb
      cases name with
      | none => exact same (Or.inl rfl)
      | some nm =>
        cases value with
        | none => exact same (Or.inr rfl)
        | some v =>
          by_cases hsec : sec = []
          · subst hsec
            have he : (parse rs.reverse).event ⟨[], some nm, some v⟩ = { parse rs.reverse with globals := (parse rs.reverse).globals.emplace nm v } := by simp [Parser.event]
            rw [he]
            refine ⟨emplace_sorted h1, fun n => ?_, h3, h4, fun s hs n => ?_, fun s hs => ?_⟩
            · show valuesOf (Kv.emplace _ _ _) n = _
              rw [emplace_values h1, h2, hgiven]
              by_cases hn : n = nm
              · subst hn; simp
              · have : ¬ nm = n := fun e => hn e.symm
                simp [hn, this]
            · rw [hgiven]
              have : ¬ ([] : Str) = s := fun e => hs e.symm
              simp only [this, false_and, if_false, Option.toList_none, List.append_nil]
              exact h5 s hs n
            · rw [hpres]
              have : ¬ ([] : Str) = s := fun e => hs e.symm
              simp only [this, false_and, or_false]
              exact h6 s hs
          · have he : (parse rs.reverse).event ⟨sec, some nm, some v⟩ = { parse rs.reverse with sections := putSection (parse rs.reverse).sections sec nm v } := by simp [Parser.event, hsec]
            rw [he]
            have hpos := position_put (n := nm) (v := v) h3 (s := sec)
            refine ⟨h1, fun n => ?_, putSection_sorted h3, fun e he => ?_, fun s hs n => ?_, fun s hs => ?_⟩
            · rw [hgiven]
              simp only [hsec, false_and, if_false, Option.toList_none, List.append_nil]
              exact h2 n
            · rcases mem_putSection he with h | rfl | ⟨m, hm, rfl⟩
              · exact h4 e h
              · exact ⟨emplace_sorted List.Pairwise.nil, hsec⟩
              · exact ⟨emplace_sorted (h4 _ hm).1, hsec⟩
            · rw [hgiven]
              show valuesOf (sectionOf (putSection _ _ _ _) s) n = _
              rw [sectionOf, hpos s]
              by_cases hss : s = sec
              · subst hss
                simp only [if_true, Option.getD_some]
                rw [emplace_values (sectionOf_sorted (fun e he => (h4 e he).1) s), h5 s hs]
                by_cases hn : n = nm
                · subst hn; simp
                · have : ¬ nm = n := fun e => hn e.symm
                  simp [hn, this]
              · have hss' : ¬ sec = s := fun e => hss e.symm
                simp only [if_neg hss, hss', false_and, if_false, Option.toList_none, List.append_nil]
                exact h5 s hs n
            · rw [hpres]
              have := hpos s
              show position s (putSection _ _ _ _) ≠ none ↔ _
              rw [← h6 s hs]
              by_cases hss : s = sec
              · subst hss
                rw [if_pos rfl] at this
                cases e : position s (putSection (parse rs.reverse).sections s nm v) with
                | none => rw [e] at this; simp at this
                | some x => simp
              · have hss' : ¬ sec = s := fun e => hss e.symm
                rw [if_neg hss] at this
                cases e : position s (putSection (parse rs.reverse).sections sec nm v) with
                | none =>
                  rw [e] at this
                  cases e2 : position s (parse rs.reverse).sections with
                  | none => simp [hss']
                  | some x => rw [e2] at this; simp at this
                | some y =>
                  rw [e] at this
                  cases e2 : position s (parse rs.reverse).sections with
                  | none => rw [e2] at this; simp at this
                  | some x => simp
  have := key es.reverse
  rwa [List.reverse_reverse] at this

theorem position_values {m : Kv} {n : Str} : (position n m).map Prod.snd = (valuesOf m n).head? := by
  induction m with
  | nil => rfl
  | cons a m ih =>
    obtain ⟨k, v⟩ := a
    simp only [position, valuesOf, List.filterMap_cons]
    by_cases hk : k = n
    · simp [hk]
    · simp only [hk, if_false, Option.map_map]
      exact ih

/-- Looking up a section and then a name gives the first value of that name in that section; a name outside of the sections gives the first value before them, unless it is also the name of a section. -/
theorem C58_contents (es : List Event) :
    (∀ s, s ≠ [] → present es s → ∃ i m, (parse es).root.findKey s = some (i, .section_ m) ∧ (∀ n, valuesOf m n = given es s n) ∧
      ∀ n, (((parse es).nested m).findKey n).map Prod.snd = ((given es s n).head?).map Item.value) ∧
    (∀ n, n = [] ∨ ¬ present es n → ((parse es).root.findKey n).map Prod.snd = ((given es [] n).head?).map Item.value) := by
  have inv := parse_inv es
  constructor
  · intro s hs hp
    cases e : position s (parse es).sections with
    | none => exact absurd e ((inv.dom s hs).2 hp)
    | some x =>
      obtain ⟨i, m⟩ := x
      have hsec : sectionOf (parse es).sections s = m := by simp [sectionOf, e]
      have hv : ∀ n, valuesOf m n = given es s n := fun n => by rw [← hsec]; exact inv.sec s hs n
      refine ⟨i, m, by simp [Parser.root, Cfg.findKey, e], hv, fun n => ?_⟩
      rw [← hv, ← position_values]
      simp only [Parser.nested, Cfg.findKey, Bool.false_eq_true, if_false]
      cases position n m <;> simp
  · intro n hn
    have hnone : position n (parse es).sections = none := by
      by_cases hn0 : n = []
      · subst hn0
        rw [position_none]
        intro hm
        obtain ⟨e, he, h0⟩ := List.mem_map.1 hm
        exact (inv.sv e he).2 h0
      · rcases hn with h | h
        · exact absurd h hn0
        · cases e : position n (parse es).sections with
          | none => rfl
          | some x => exact absurd ((inv.dom n hn0).1 (by rw [e]; simp)) h
    rw [← inv.gv, ← position_values]
    simp only [Parser.root, Cfg.findKey, if_true, hnone]
    cases position n (parse es).globals <;> simp

/-- All values of all names are kept: the entries of a section config are as many as the values given for it. -/
theorem C58_index (es : List Event) (s : Str) (m : Kv) (i : Nat) (hs : s ≠ []) (h : (parse es).root.findIndex i = some (s, .section_ m)) (n : Str) :
    valuesOf m n = given es s n ∧ ((parse es).root.findKey s).map Prod.snd = some (.section_ m) := by
  have inv := parse_inv es
  have hm : (s, m) ∈ (parse es).sections := by
    rw [findIndex_eq] at h
    have := List.mem_of_getElem? h
    simp only [Cfg.items, Parser.root, if_true, List.mem_append, List.mem_map] at this
    rcases this with ⟨e, he, heq⟩ | ⟨e, -, heq⟩
    · simp only [Prod.mk.injEq, Item.section_.injEq] at heq
      obtain ⟨rfl, rfl⟩ := heq
      exact he
    · simp at heq
  have hpos : ∀ (ss : List (Str × Kv)), SecSorted ss → (s, m) ∈ ss → (position s ss).map Prod.snd = some m := by
    intro ss
    induction ss with
    | nil => simp
    | cons a ss ih =>
      obtain ⟨k, x⟩ := a
      intro hss hmem
      have h' := List.pairwise_cons.1 hss
      rcases List.mem_cons.1 hmem with hmem | hmem
      · simp only [Prod.mk.injEq] at hmem
        obtain ⟨rfl, rfl⟩ := hmem
        simp [position]
      · have : ¬ k = s := strLt_ne (h'.1 _ hmem)
        simp only [position, this, if_false, Option.map_map]
        exact ih h'.2 hmem
  have hp := hpos _ inv.ss hm
  have hsec : sectionOf (parse es).sections s = m := by simp [sectionOf, hp]
  refine ⟨by rw [← hsec]; exact inv.sec s hs n, ?_⟩
  cases e : position s (parse es).sections with
  | none => rw [e] at hp; simp at hp
  | some x =>
    rw [e] at hp
    simp only [Option.map_some, Option.some.injEq] at hp
    simp [Parser.root, Cfg.findKey, e, hp]

/-! ## Non-vacuity -/

def sample : List Event := [⟨[], some ['b'], some ['1']⟩, ⟨['s'], some ['x'], some ['2']⟩, ⟨['a'], some ['x'], some ['3']⟩, ⟨['s'], some ['x'], some ['4']⟩, ⟨[], some ['s'], some ['5']⟩, ⟨['s'], some ['y'], none⟩]

example : (parse sample).root.keys = [['a'], ['s'], ['b'], ['s']] ∧ (parse sample).root.findKey ['s'] = some (1, .section_ [(['x'], ['2']), (['x'], ['4'])]) ∧
    (parse sample).root.findIndex 3 = some (['s'], .value ['5']) ∧ given sample ['s'] ['x'] = [['2'], ['4']] := by decide

example : Reached sample ((parse sample).nested [(['x'], ['2']), (['x'], ['4'])]) := .name _ 1 ['s'] _ .root (by decide)

end Verif.Ini
