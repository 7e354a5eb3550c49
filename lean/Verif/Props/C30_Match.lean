import Verif.Model.Match

/-!
# C30: a match calls the first case of the stored type
-/
set_option autoImplicit false

namespace Verif.Match

variable {β : Type}

/-! ## Specification -/

/-- `i` is the position of the first case that satisfies `p`. -/
def First (cases : List Case) (p : Case → Prop) (i : Nat) : Prop := (∃ c, cases[i]? = some c ∧ p c) ∧ ∀ j < i, ∀ c, cases[j]? = some c → ¬ p c

/-- `i` is the position of the last case that satisfies `p`. -/
def Last (cases : List Case) (p : Case → Prop) (i : Nat) : Prop := (∃ c, cases[i]? = some c ∧ p c) ∧ ∀ j > i, ∀ c, cases[j]? = some c → ¬ p c

def NoCase (cases : List Case) (p : Case → Prop) : Prop := ∀ c ∈ cases, ¬ p c

/-- What should happen for an object `stored` with a type (`none`: empty), given what `First` means for the handlers and which of several
default or empty handlers counts. -/
def Rule (Sel : List Case → (Case → Prop) → Nat → Prop) (cases : List Case) (fits : Case → Prop) (stored : Option β) : Out β → Prop
  | .handler i a => stored = some a ∧ First cases fits i
  | .tag i =>
    (stored = none ∧ Sel cases (·.type = emptyTag) i) ∨
      ((stored = none ∧ NoCase cases (·.type = emptyTag) ∨ stored ≠ none ∧ NoCase cases fits) ∧ Sel cases (·.type = defaultTag) i)
  | .badMatch => (stored = none ∧ NoCase cases (·.type = emptyTag) ∨ stored ≠ none ∧ NoCase cases fits) ∧ NoCase cases (·.type = defaultTag)
  | .ub => False

/-! ## Proof -/

theorem findCase_spec (cases : List Case) (T : Nat) : ∀ (n : Nat), n ≤ cases.length →
    match findCase cases T n with
    | some i => (∃ c, cases[i]? = some c ∧ c.type = T) ∧ i < n ∧ ∀ j, i < j → j < n → ∀ c, cases[j]? = some c → c.type ≠ T
    | none => ∀ j < n, ∀ c, cases[j]? = some c → c.type ≠ T
  | 0, _ => by simp [findCase]
  | n + 1, hn => by
    have ih := findCase_spec cases T n (by omega)
    have hlt : n < cases.length := by omega
    have hg : cases[n]? = some cases[n] := List.getElem?_eq_getElem hlt
    rw [findCase, hg]
    by_cases c : (cases[n]).type = T
    · simp only [Option.map_some, c, if_true]
      exact ⟨⟨cases[n], hg, c⟩, by omega, fun j h1 h2 => by omega⟩
    · have c' : ¬ (Option.map (fun x : Case => x.type) (some cases[n]) = some T) := by simpa using c
      rw [if_neg c']
      cases h : findCase cases T n with
      | some i =>
        rw [h] at ih
        simp only at ih ⊢
        refine ⟨ih.1, by omega, fun j h1 h2 d hd => ?_⟩
        by_cases hj : j = n
        · subst hj; rw [hg] at hd; simp at hd; rw [← hd]; exact c
        · exact ih.2.2 j h1 (by omega) d hd
      | none =>
        rw [h] at ih
        simp only at ih ⊢
        intro j h2 d hd
        by_cases hj : j = n
        · subst hj; rw [hg] at hd; simp at hd; rw [← hd]; exact c
        · exact ih j (by omega) d hd

theorem findCase_some {cases : List Case} {T i : Nat} (h : findCase cases T cases.length = some i) : Last cases (·.type = T) i := by
  have := findCase_spec cases T cases.length (Nat.le_refl _)
  rw [h] at this
  refine ⟨this.1, fun j hj c hc => this.2.2 j hj ?_ c hc⟩
  exact (List.getElem?_eq_some_iff.1 hc).1

theorem findCase_none {cases : List Case} {T : Nat} (h : findCase cases T cases.length = none) : NoCase cases (·.type = T) := by
  have := findCase_spec cases T cases.length (Nat.le_refl _)
  rw [h] at this
  intro c hc
  obtain ⟨j, hj, rfl⟩ := List.mem_iff_getElem.1 hc
  exact this j hj _ (List.getElem?_eq_getElem hj)

theorem invokeCase_spec (ok : Case → Bool) (cases : List Case) (getUnsafe : Nat → Option β) (stored : Nat) (a : β) (ha : getUnsafe stored = some a) :
    ∀ (rest pre : List Case), cases = pre ++ rest → (∀ c ∈ pre, ¬ (c.type = stored ∧ ok c = true)) →
      Rule Last cases (fun c => c.type = stored ∧ ok c = true) (some a) (invokeCase ok cases getUnsafe stored rest pre.length)
  | [], pre, e, hp => by
    have hn : NoCase cases (fun c => c.type = stored ∧ ok c = true) := by rw [e]; simpa [NoCase] using hp
    rw [invokeCase, onDefault]
    cases h : findCase cases defaultTag cases.length with
    | some i => exact Or.inr ⟨Or.inr ⟨by simp, hn⟩, findCase_some h⟩
    | none => exact ⟨Or.inr ⟨by simp, hn⟩, findCase_none h⟩
  | c :: rest, pre, e, hp => by
    have step : ¬ (c.type = stored ∧ ok c = true) →
        Rule Last cases (fun c => c.type = stored ∧ ok c = true) (some a) (invokeCase ok cases getUnsafe stored rest (pre.length + 1)) := by
      intro hc
      have := invokeCase_spec ok cases getUnsafe stored a ha rest (pre ++ [c]) (by simp [e]) (by
        intro d hd; rcases List.mem_append.1 hd with h | h
        · exact hp d h
        · simp at h; subst h; exact hc)
      simpa using this
    rw [invokeCase]
    by_cases h1 : ok c = true
    · by_cases h2 : c.type = stored
      · rw [if_pos h1, if_pos h2, h2, ha]
        refine ⟨rfl, ⟨c, by simp [e], h2, h1⟩, ?_⟩
        intro j hj d hd
        rw [e, List.getElem?_append_left hj] at hd
        exact hp d (List.mem_of_getElem? hd)
      · rw [if_pos h1, if_neg h2]; exact step (fun h => h2 h.1)
    · rw [if_neg h1]; exact step (fun h => h1 h.2)

theorem dispatch_spec (ok : Case → Bool) (cases : List Case) (getUnsafe : Nat → Option β) (stored : Nat) (v : Option β)
    (h0 : stored = 0 ↔ v = none) (hv : ∀ a, v = some a → getUnsafe stored = some a) :
    Rule Last cases (fun c => c.type = stored ∧ ok c = true) v (dispatch ok cases getUnsafe stored) := by
  rw [dispatch]
  cases v with
  | none =>
    have : stored = 0 := h0.2 rfl
    cases h : findCase cases emptyTag cases.length with
    | some i => simp only [this, if_true]; exact Or.inl ⟨rfl, findCase_some h⟩
    | none =>
      simp only [this, if_true, onDefault]
      cases h2 : findCase cases defaultTag cases.length with
      | some i => exact Or.inr ⟨Or.inl ⟨rfl, findCase_none h⟩, findCase_some h2⟩
      | none => exact ⟨Or.inl ⟨rfl, findCase_none h⟩, findCase_none h2⟩
  | some a =>
    have : stored ≠ 0 := fun e => by simpa using h0.1 e
    have hr := invokeCase_spec ok cases getUnsafe stored a (hv a rfl) cases [] (by simp) (by simp)
    cases h : findCase cases emptyTag cases.length with
    | some i => simp only [if_neg this]; exact hr
    | none => simp only [if_neg this]; exact hr

/-- Exactly what `any_match` does, for all cases and values: the first case of the stored type that can be called with the value; of
several default or empty cases the last one. -/
theorem C30_any_exact {α : Type} (copyable movable : Nat → Bool) (cat : Cat) (cases : List Case) (v : Option (Any.Content α)) (hv : ∀ c, v = some c → c.type ≠ 0) :
    Rule Last cases (fun c => c.type = Any.typeOf v ∧ callable copyable movable cat c = true) v (anyMatch copyable movable cat cases v) := by
  refine dispatch_spec _ cases _ _ v ?_ ?_
  · cases v with
    | none => simp [Any.typeOf]
    | some c => simpa [Any.typeOf] using hv c rfl
  · intro a ha; subst ha; simp [Any.typeOf]

/-- The value that a variant holds. -/
def held {α : Type} (alts : List Nat) (idx : Nat) (mem : Option (Nat × α)) : Option α := if alts[idx]? = some 0 then none else mem.map (·.2)

/-- A variant that is not valueless: the index is one of an alternative, and, unless it is `void`, an object of this type is in the memory. -/
def VariantOk {α : Type} (alts : List Nat) (idx : Nat) (mem : Option (Nat × α)) (T : Nat) : Prop :=
  alts[idx]? = some T ∧ (T ≠ 0 → ∃ a, mem = some (T, a))

theorem C30_variant_exact {α : Type} (copyable movable : Nat → Bool) (cat : Cat) (cases : List Case) (alts : List Nat) (idx : Nat) (mem : Option (Nat × α)) (T : Nat)
    (hv : VariantOk alts idx mem T) :
    Rule Last cases (fun c => c.type = T ∧ callable copyable movable cat c = true) (held alts idx mem) (variantMatch copyable movable cat cases alts idx mem) := by
  rw [variantMatch, hv.1]
  by_cases h0 : T = 0
  · subst h0
    refine dispatch_spec _ cases _ _ _ ?_ ?_
    · simp [held, hv.1]
    · intro a ha; simp [held, hv.1] at ha
  · obtain ⟨a, rfl⟩ := hv.2 h0
    refine dispatch_spec _ cases _ _ _ ?_ ?_
    · simp [held, hv.1, h0]
    · intro b hb; simpa [held, hv.1, h0] using hb

/-! ## The property -/

/-- At most one default and at most one empty case, and all cases of the stored type can be called with the value. -/
def Plain (ok : Case → Bool) (cases : List Case) (stored : Nat) : Prop :=
  (∀ (i j : Nat) (ci cj : Case), cases[i]? = some ci → cases[j]? = some cj → ci.type = cj.type → ci.type = defaultTag ∨ ci.type = emptyTag → i = j) ∧
    ∀ c ∈ cases, c.type = stored → ok c = true

/-- The English property. -/
def Matches (cases : List Case) (stored : Nat) (v : Option β) (o : Out β) : Prop := Rule First cases (fun c => c.type = stored) v o

theorem plain_matches {ok : Case → Bool} {cases : List Case} {stored : Nat} {v : Option β} {o : Out β} (hp : Plain ok cases stored)
    (h : Rule Last cases (fun c => c.type = stored ∧ ok c = true) v o) : Matches cases stored v o := by
  have hl : ∀ T i, T = defaultTag ∨ T = emptyTag → Last cases (·.type = T) i → First cases (·.type = T) i := by
    rintro T i hT ⟨⟨c, hc, e⟩, -⟩
    refine ⟨⟨c, hc, e⟩, fun j hj d hd he => ?_⟩
    have := hp.1 i j c d hc hd (e.trans he.symm) (by rw [e]; exact hT)
    omega
  have hn : NoCase cases (fun c => c.type = stored ∧ ok c = true) → NoCase cases (fun c => c.type = stored) :=
    fun h c hc e => h c hc ⟨e, hp.2 c hc e⟩
  cases o with
  | handler i a =>
    obtain ⟨e, ⟨c, hc, h1, h2⟩, h3⟩ := h
    exact ⟨e, ⟨c, hc, h1⟩, fun j hj d hd he => h3 j hj d hd ⟨he, hp.2 d (List.mem_of_getElem? hd) he⟩⟩
  | tag i =>
    rcases h with ⟨e, h⟩ | ⟨h1, h2⟩
    · exact Or.inl ⟨e, hl _ _ (Or.inr rfl) h⟩
    · refine Or.inr ⟨?_, hl _ _ (Or.inl rfl) h2⟩
      rcases h1 with h1 | ⟨h1, h3⟩
      · exact Or.inl h1
      · exact Or.inr ⟨h1, hn h3⟩
  | badMatch =>
    obtain ⟨h1, h2⟩ := h
    refine ⟨?_, h2⟩
    rcases h1 with h1 | ⟨h1, h3⟩
    · exact Or.inl h1
    · exact Or.inr ⟨h1, hn h3⟩
  | ub => exact h.elim

/-- The rule determines the outcome. -/
theorem matches_unique {cases : List Case} {stored : Nat} {v : Option β} {o o' : Out β} (h : Matches cases stored v o) (h' : Matches cases stored v o') : o = o' := by
  have hf : ∀ {p : Case → Prop} {i j : Nat}, First cases p i → First cases p j → i = j := by
    rintro p i j ⟨⟨c, hc, e⟩, h1⟩ ⟨⟨d, hd, e'⟩, h2⟩
    rcases Nat.lt_trichotomy i j with k | k | k
    · exact absurd e (h2 i k c hc)
    · exact k
    · exact absurd e' (h1 j k d hd)
  have hn : ∀ {p : Case → Prop} {i : Nat}, First cases p i → ¬ NoCase cases p := by
    rintro p i ⟨⟨c, hc, e⟩, -⟩ h; exact h c (List.mem_of_getElem? hc) e
  cases o with
  | ub => exact h.elim
  | handler i a =>
    cases o' with
    | ub => exact h'.elim
    | handler j b =>
      obtain ⟨e, h1⟩ := h
      obtain ⟨e', h2⟩ := h'
      rw [e] at e'; simp at e'
      rw [e', hf h1 h2]
    | tag j =>
      obtain ⟨e, h1⟩ := h
      rcases h' with ⟨e', -⟩ | ⟨⟨e', -⟩ | ⟨-, k⟩, -⟩
      · rw [e] at e'; simp at e'
      · rw [e] at e'; simp at e'
      · exact absurd k (hn h1)
    | badMatch =>
      obtain ⟨e, h1⟩ := h
      rcases h' with ⟨⟨e', -⟩ | ⟨-, k⟩, -⟩
      · rw [e] at e'; simp at e'
      · exact absurd k (hn h1)
  | tag i =>
    cases o' with
    | ub => exact h'.elim
    | handler j b =>
      obtain ⟨e, h1⟩ := h'
      rcases h with ⟨e', -⟩ | ⟨⟨e', -⟩ | ⟨-, k⟩, -⟩
      · rw [e] at e'; simp at e'
      · rw [e] at e'; simp at e'
      · exact absurd k (hn h1)
    | tag j =>
      rcases h with ⟨e, h1⟩ | ⟨h0, h1⟩ <;> rcases h' with ⟨e', h2⟩ | ⟨h0', h2⟩
      · rw [hf h1 h2]
      · rcases h0' with ⟨-, k⟩ | ⟨k, -⟩
        · exact absurd k (hn h1)
        · exact absurd e k
      · rcases h0 with ⟨-, k⟩ | ⟨k, -⟩
        · exact absurd k (hn h2)
        · exact absurd e' k
      · rw [hf h1 h2]
    | badMatch =>
      obtain ⟨h0', h2⟩ := h'
      rcases h with ⟨e, h1⟩ | ⟨h0, h1⟩
      · rcases h0' with ⟨-, k⟩ | ⟨k, -⟩
        · exact absurd k (hn h1)
        · exact absurd e k
      · exact absurd h2 (hn h1)
  | badMatch =>
    cases o' with
    | ub => exact h'.elim
    | badMatch => rfl
    | handler j b =>
      obtain ⟨e, h1⟩ := h'
      rcases h with ⟨⟨e', -⟩ | ⟨-, k⟩, -⟩
      · rw [e] at e'; simp at e'
      · exact absurd k (hn h1)
    | tag j =>
      obtain ⟨h0, h2⟩ := h
      rcases h' with ⟨e, h1⟩ | ⟨h0', h1⟩
      · rcases h0 with ⟨-, k⟩ | ⟨k, -⟩
        · exact absurd k (hn h1)
        · exact absurd e k
      · exact absurd h2 (hn h1)

/-- `any_match`: the only outcome that the property allows. -/
theorem C30_any_partial {α : Type} (copyable movable : Nat → Bool) (cat : Cat) (cases : List Case) (v : Option (Any.Content α)) (hv : ∀ c, v = some c → c.type ≠ 0)
    (hp : Plain (callable copyable movable cat) cases (Any.typeOf v)) (o : Out (Any.Content α)) :
    anyMatch copyable movable cat cases v = o ↔ Matches cases (Any.typeOf v) v o :=
  have h := plain_matches hp (C30_any_exact copyable movable cat cases v hv)
  ⟨fun e => e ▸ h, fun h' => matches_unique h h'⟩

/-- `variant_match`: the only outcome that the property allows. -/
theorem C30_variant_partial {α : Type} (copyable movable : Nat → Bool) (cat : Cat) (cases : List Case) (alts : List Nat) (idx : Nat) (mem : Option (Nat × α)) (T : Nat)
    (hv : VariantOk alts idx mem T) (hp : Plain (callable copyable movable cat) cases T) (o : Out α) :
    variantMatch copyable movable cat cases alts idx mem = o ↔ Matches cases T (held alts idx mem) o :=
  have h := plain_matches hp (C30_variant_exact copyable movable cat cases alts idx mem T hv)
  ⟨fun e => e ▸ h, fun h' => matches_unique h h'⟩

/-- A case `T&` for a const value is passed over without an error, although it is the first case of the stored type: the default case
is called. -/
theorem C30_const_violated : anyMatch (fun _ => true) (fun _ => true) .clref [⟨5, .lref⟩, ⟨defaultTag, .value⟩] (some (Any.Content.plain 5 7)) = .tag 1 ∧
    ¬ Matches [⟨5, .lref⟩, ⟨defaultTag, .value⟩] 5 (some (Any.Content.plain 5 7)) (.tag 1) := by
  refine ⟨by decide +kernel, ?_⟩
  intro h
  rcases h with ⟨e, -⟩ | ⟨⟨e, -⟩ | ⟨-, k⟩, -⟩
  · simp at e
  · simp at e
  · exact k ⟨5, .lref⟩ (by simp) rfl

/-- A match of a valueless variant reads outside of the table of its alternatives. -/
theorem C30_valueless_violated {α : Type} (copyable movable : Nat → Bool) (cat : Cat) (cases : List Case) (alts : List Nat) (h : alts.length ≤ Variant.noIndex)
    (mem : Option (Nat × α)) : variantMatch copyable movable cat cases alts Variant.noIndex mem = .ub := by
  rw [variantMatch, List.getElem?_eq_none h]

/-- Two cases of the same type, one of another type, a default and an empty case. -/
def sampleCases : List Case := [⟨4, .clref⟩, ⟨5, .value⟩, ⟨defaultTag, .value⟩, ⟨5, .clref⟩, ⟨emptyTag, .value⟩]

example : Plain (callable (fun _ => true) (fun _ => true) .clref) sampleCases 5 := by
  refine ⟨?_, by decide +kernel⟩
  intro i j ci cj hi hj
  match i, j, hi, hj with
  | 0, 0, _, _ | 1, 1, _, _ | 2, 2, _, _ | 3, 3, _, _ | 4, 4, _, _ => simp
  | 0, 1, hi, hj | 0, 2, hi, hj | 0, 3, hi, hj | 0, 4, hi, hj | 1, 0, hi, hj | 1, 2, hi, hj | 1, 3, hi, hj | 1, 4, hi, hj | 2, 0, hi, hj | 2, 1, hi, hj | 2, 3, hi, hj | 2, 4, hi, hj
  | 3, 0, hi, hj | 3, 1, hi, hj | 3, 2, hi, hj | 3, 4, hi, hj | 4, 0, hi, hj | 4, 1, hi, hj | 4, 2, hi, hj | 4, 3, hi, hj =>
    simp [sampleCases] at hi hj; subst hi; subst hj; simp [defaultTag, emptyTag]
  | _ + 5, _, hi, _ => simp [sampleCases] at hi
  | 0, _ + 5, _, hj | 1, _ + 5, _, hj | 2, _ + 5, _, hj | 3, _ + 5, _, hj | 4, _ + 5, _, hj => simp [sampleCases] at hj

example : anyMatch (fun _ => true) (fun _ => true) .clref sampleCases (some (Any.Content.plain 5 7)) = .handler 1 (.plain 5 7) ∧
    anyMatch (fun _ => true) (fun _ => true) .clref sampleCases (some (Any.Content.plain 6 7)) = .tag 2 ∧
    anyMatch (fun _ => true) (fun _ => true) .clref sampleCases (none : Option (Any.Content Nat)) = .tag 4 ∧
    variantMatch (fun _ => true) (fun _ => true) .rref sampleCases [0, 4, 5] 1 (some (4, 9)) = .handler 0 9 := by
  decide +kernel

example : VariantOk [0, 4, 5] 1 (some (4, 9)) 4 := ⟨rfl, fun _ => ⟨9, rfl⟩⟩

/-! ## Which cases can be called -/

/-- The matched value is `const`. -/
def Cat.isConst (k : Cat) : Prop := k = .clref ∨ k = .crref
/-- The matched value is given to the matcher as an rvalue (`std::move`, or a temporary). -/
def Cat.isRvalue (k : Cat) : Prop := k = .crref ∨ k = .rref

/-- By the rules of C++: `const T&` takes every value, `T&` only variables that are not const, `T&&` only rvalues that are not const, `const T&&` only
rvalues, and a parameter by value needs a constructor. -/
theorem C30_callable (copyable movable : Nat → Bool) (k : Cat) (T : Nat) :
    (callable copyable movable k ⟨T, .clref⟩ = true) ∧
    (callable copyable movable k ⟨T, .lref⟩ = true ↔ ¬ k.isConst ∧ ¬ k.isRvalue) ∧
    (callable copyable movable k ⟨T, .rref⟩ = true ↔ ¬ k.isConst ∧ k.isRvalue) ∧
    (callable copyable movable k ⟨T, .crref⟩ = true ↔ k.isRvalue) ∧
    (callable copyable movable k ⟨T, .value⟩ = true ↔ copyable T = true ∨ movable T = true ∧ ¬ k.isConst ∧ k.isRvalue) := by
  cases k <;> simp [callable, binds, Cat.isConst, Cat.isRvalue]

/-- A case with a parameter `const T&` for the stored type is never passed over: it is called, or an earlier one of the same type. -/
theorem C30_const_ref {α : Type} (copyable movable : Nat → Bool) (cat : Cat) (cases : List Case) (c : Any.Content α) (i : Nat) (hc : c.type ≠ 0)
    (hi : cases[i]? = some ⟨c.type, .clref⟩) :
    ∃ j ≤ i, ∃ d, cases[j]? = some d ∧ d.type = c.type ∧ anyMatch copyable movable cat cases (some c) = .handler j c := by
  have h := C30_any_exact copyable movable cat cases (some c) (by intro d hd; cases hd; exact hc)
  have hfit : (fun d : Case => d.type = Any.typeOf (some c) ∧ callable copyable movable cat d = true) ⟨c.type, .clref⟩ :=
    ⟨rfl, (C30_callable copyable movable cat c.type).1⟩
  have hno : ¬ NoCase cases (fun d => d.type = Any.typeOf (some c) ∧ callable copyable movable cat d = true) :=
    fun hn => hn _ (List.mem_of_getElem? hi) hfit
  cases ho : anyMatch copyable movable cat cases (some c) with
  | handler j a =>
    rw [ho] at h
    obtain ⟨h1, ⟨d, hd, hd1, -⟩, h3⟩ := h
    cases h1
    refine ⟨j, ?_, d, hd, hd1, rfl⟩
    by_cases hj : j ≤ i
    · exact hj
    · exact absurd hfit (h3 i (by omega) _ hi)
  | tag j =>
    rw [ho] at h
    rcases h with ⟨h1, -⟩ | ⟨⟨h1, -⟩ | ⟨-, h1⟩, -⟩
    · cases h1
    · cases h1
    · exact absurd h1 hno
  | badMatch =>
    rw [ho] at h
    rcases h with ⟨⟨h1, -⟩ | ⟨-, h1⟩, -⟩
    · cases h1
    · exact absurd h1 hno
  | ub => rw [ho] at h; exact h.elim

example : anyMatch (α := Nat) (fun _ => true) (fun _ => true) .clref [⟨6, .clref⟩, ⟨5, .lref⟩, ⟨5, .clref⟩] (some (.plain 5 7)) = .handler 2 (.plain 5 7) := by decide

end Verif.Match
