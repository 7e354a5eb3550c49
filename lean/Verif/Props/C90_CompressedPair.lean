import Verif.Model.CompressedPair
/-!
# C90: a compressed pair is a pair, and an empty first component costs nothing

Specification: the variables hold pairs of values, as `std::pair` does. A program is a list of operations; every operation has the result it has on pairs.
-/
set_option autoImplicit false

namespace Verif.CompressedPair

/-! ## Specification -/

/-- the variables: each is undeclared or a pair of values -/
abbrev Pairs := Nat → Option (Nat × Nat)

def Pairs.put (σ : Pairs) (x : Nat) (p : Nat × Nat) : Pairs := fun y => if y = x then some p else σ y

/-- What the operations do to pairs. `d₁`, `d₂` are the values of default-constructed components, `t₁`, `t₂` the types. Statements about undeclared variables are skipped. -/
def specStep (t₁ t₂ d₁ d₂ : Nat) (σ : Pairs) : Op → Res × Pairs
  | .newDefault x => (.done, σ.put x (d₁, d₂))
  | .newValue x => (.done, σ.put x (d₁, d₂))
  | .newZero x none => (.done, σ.put x (d₁, d₂))
  | .newZero x (some b) => (.done, σ.put x (d₁, b))
  | .newOne x a none => (.done, σ.put x (a, d₂))
  | .newOne x a (some b) => (.done, σ.put x (a, b))
  | .copy x y => match σ y with | none => (.skipped, σ) | some p => (.done, σ.put x p)
  | .first x => match σ x with | none => (.skipped, σ) | some p => (.got p.1, σ)
  | .second x => match σ x with | none => (.skipped, σ) | some p => (.got p.2, σ)
  | .setFirst x a => match σ x with | none => (.skipped, σ) | some p => (.done, σ.put x (a, p.2))
  | .setSecond x b => match σ x with | none => (.skipped, σ) | some p => (.done, σ.put x (p.1, b))
  | .getAs x T =>
    match σ x with
    | none => (.skipped, σ)
    | some p => if t₁ = t₂ then (.refused, σ) else if T = t₁ then (.got p.1, σ) else if T = t₂ then (.got p.2, σ) else (.refused, σ)
  | .moveOut x true => match σ x with | none => (.skipped, σ) | some p => (.got p.1, σ)
  | .moveOut x false => match σ x with | none => (.skipped, σ) | some p => (.got p.2, σ)
  | .toPair x => match σ x with | none => (.skipped, σ) | some p => (.pair p.1 p.2, σ)

def specRun (t₁ t₂ d₁ d₂ : Nat) (σ : Pairs) : List Op → List Res
  | [] => []
  | op :: ops => (specStep t₁ t₂ d₁ d₂ σ op).1 :: specRun t₁ t₂ d₁ d₂ (specStep t₁ t₂ d₁ d₂ σ op).2 ops

/-- the values given for the first component are values of its type: a class without members has only one -/
def Typed (F : Ty) : Op → Prop
  | .newOne _ a _ => F.empty = true → a = F.dflt
  | .setFirst _ a => F.empty = true → a = F.dflt
  | _ => True

/-- `get<0>` or `get<1>` of an rvalue -/
def isMoveOut : Op → Bool
  | .moveOut _ _ => true
  | _ => false

/-- a variable declared without initializer -/
def isDefault : Op → Bool
  | .newDefault _ => true
  | _ => false

/-- The full statement: every program gives what it gives with pairs. False of the code (`C90_default_violated`, `C90_move_out_violated`). -/
def LikePair (F S : Ty) : Prop := ∀ ops : List Op, (∀ op ∈ ops, Typed F op) → (run F S (fun _ => none) ops).1 = specRun F.name S.name F.dflt S.dflt (fun _ => none) ops

/-! ## Proofs -/

/-- the variables stand for these pairs -/
def Rel (F : Ty) (σ : Vars) (τ : Pairs) : Prop :=
  (∀ x : Nat, σ x = (τ x).map (fun p => ⟨some p.1, some p.2⟩)) ∧ ∀ (x : Nat) (p : Nat × Nat), τ x = some p → F.empty = true → p.1 = F.dflt

theorem Rel.put {F : Ty} {σ : Vars} {τ : Pairs} (h : Rel F σ τ) (x a b : Nat) (ha : F.empty = true → a = F.dflt) : Rel F (σ.set x ⟨some a, some b⟩) (τ.put x (a, b)) := by
  refine ⟨fun y => ?_, fun y p hy he => ?_⟩
  · unfold Vars.set Pairs.put
    split
    · rfl
    · exact h.1 y
  · unfold Pairs.put at hy
    split at hy
    · cases hy
      exact ha he
    · exact h.2 y p hy he

theorem firstOf_eq {F S : Ty} {p : Nat × Nat} (h : F.empty = true → p.1 = F.dflt) : firstOf F S ⟨some p.1, some p.2⟩ = some p.1 := by
  unfold firstOf compressed
  cases he : F.empty
  · simp
  · rw [h he]
    simp

theorem step_rel {F S : Ty} {σ : Vars} {τ : Pairs} (h : Rel F σ τ) (op : Op) (ht : Typed F op) (hm : isMoveOut op = false)
    (hd : isDefault op = true → (F.empty = true ∧ F.final = false) ∨ (F.indet = false ∧ S.indet = false)) :
    (step F S σ op).1 = (specStep F.name S.name F.dflt S.dflt τ op).1 ∧ Rel F (step F S σ op).2 (specStep F.name S.name F.dflt S.dflt τ op).2 := by
  cases op with
  | newDefault x =>
    refine ⟨rfl, ?_⟩
    have : default_ F S = ⟨some F.dflt, some S.dflt⟩ := by
      unfold default_ compressed
      rcases hd rfl with h | h
      · simp [h.1, h.2]
      · simp [h.1, h.2]
    simp only [step, specStep, this]
    exact h.put x _ _ (fun _ => rfl)
  | newValue x => exact ⟨rfl, h.put x _ _ (fun _ => rfl)⟩
  | newZero x b => cases b <;> exact ⟨rfl, h.put x _ _ (fun _ => rfl)⟩
  | newOne x a b => cases b <;> exact ⟨rfl, h.put x _ _ ht⟩
  | copy x y =>
    simp only [step, specStep, h.1 y]
    cases hy : τ y with
    | none => exact ⟨rfl, h⟩
    | some p => exact ⟨rfl, h.put x _ _ (h.2 y p hy)⟩
  | first x =>
    simp only [step, specStep, h.1 x]
    cases hx : τ x with
    | none => exact ⟨rfl, h⟩
    | some p =>
      simp only [Option.map_some, firstOf_eq (h.2 x p hx), readVal]
      exact ⟨trivial, h⟩
  | second x =>
    simp only [step, specStep, h.1 x]
    cases hx : τ x with
    | none => exact ⟨rfl, h⟩
    | some p => exact ⟨rfl, h⟩
  | setFirst x a =>
    simp only [step, specStep, h.1 x]
    cases hx : τ x with
    | none => exact ⟨rfl, h⟩
    | some p => exact ⟨rfl, h.put x _ _ ht⟩
  | setSecond x b =>
    simp only [step, specStep, h.1 x]
    cases hx : τ x with
    | none => exact ⟨rfl, h⟩
    | some p => exact ⟨rfl, h.put x _ _ (h.2 x p hx)⟩
  | getAs x T =>
    simp only [step, specStep, h.1 x]
    cases hx : τ x with
    | none => exact ⟨rfl, h⟩
    | some p =>
      simp only [Option.map_some, firstOf_eq (h.2 x p hx), secondOf, readVal]
      by_cases h1 : T = F.name <;> by_cases h2 : T = S.name
      · have h3 : F.name = S.name := by rw [← h1, h2]
        simp [h1, h3, h]
      · have h3 : F.name ≠ S.name := by rw [← h1]; exact h2
        simp [h1, h3, h]
      · have h3 : F.name ≠ S.name := by rw [← h2]; exact fun hc => h1 hc.symm
        have h4 : S.name ≠ F.name := fun hc => h3 hc.symm
        simp [h2, h3, h4, h]
      · by_cases h3 : F.name = S.name
        · have : ¬ T = S.name := h2
          simp [h1, h2, h3, h]
        · simp [h1, h2, h3, h]
  | moveOut x b => simp [isMoveOut] at hm
  | toPair x =>
    simp only [step, specStep, h.1 x]
    cases hx : τ x with
    | none => exact ⟨rfl, h⟩
    | some p =>
      simp only [Option.map_some, firstOf_eq (h.2 x p hx), secondOf]
      exact ⟨trivial, h⟩

theorem run_rel {F S : Ty} (ops : List Op) {σ : Vars} {τ : Pairs} (h : Rel F σ τ) (ht : ∀ op ∈ ops, Typed F op) (hm : ∀ op ∈ ops, isMoveOut op = false)
    (hd : ∀ op ∈ ops, isDefault op = true → (F.empty = true ∧ F.final = false) ∨ (F.indet = false ∧ S.indet = false)) :
    (run F S σ ops).1 = specRun F.name S.name F.dflt S.dflt τ ops := by
  induction ops generalizing σ τ with
  | nil => rfl
  | cons op ops ih =>
    obtain ⟨h1, h2⟩ := step_rel (S := S) h op (ht op (by simp)) (hm op (by simp)) (hd op (by simp))
    simp only [run, specRun, h1]
    rw [ih h2 (fun o ho => ht o (by simp [ho])) (fun o ho => hm o (by simp [ho])) (fun o ho => hd o (by simp [ho]))]

/-- C90. Every program gives what it gives with pairs, if it does not use `get` on an rvalue, and if it declares pairs without initializer only when the first type is an empty class that is not final,
or when both types have determinate values after such a declaration. Missing from `LikePair`: the other programs. -/
theorem C90_pair_partial (F S : Ty) (ops : List Op) (ht : ∀ op ∈ ops, Typed F op) (hm : ∀ op ∈ ops, isMoveOut op = false)
    (hd : (∃ op ∈ ops, isDefault op = true) → (F.empty = true ∧ F.final = false) ∨ (F.indet = false ∧ S.indet = false)) :
    (run F S (fun _ => none) ops).1 = specRun F.name S.name F.dflt S.dflt (fun _ => none) ops :=
  run_rel ops ⟨fun _ => rfl, fun _ _ h => by cases h⟩ ht hm (fun op ho h => hd ⟨op, ho, h⟩)

/-- `int` and a class without members -/
def tInt : Ty := ⟨0, 4, 4, false, false, [], true, 0⟩
def tEmpty : Ty := ⟨1, 1, 1, true, false, [1], false, 7⟩

/-- a program with every kind of operation it speaks of -/
def demo : List Op :=
  [.newOne 0 5 (some 6), .newZero 1 none, .first 0, .second 0, .copy 1 0, .setFirst 0 8, .setSecond 1 9, .first 1, .second 1, .toPair 0, .getAs 0 0, .first 2, .newValue 2, .toPair 2]

example : (∀ op ∈ demo, Typed tInt op) ∧ (∀ op ∈ demo, isMoveOut op = false) ∧
    (run tInt { tInt with name := 2 } (fun _ => none) demo).1 =
      [.done, .done, .got 5, .got 6, .done, .done, .done, .got 5, .got 9, .pair 8 6, .got 8, .skipped, .done, .pair 0 0] := by
  refine ⟨?_, by decide, by decide⟩
  intro op _
  cases op <;> simp [Typed, tInt]

example : (run tEmpty tInt (fun _ => none) [.newDefault 0, .second 0, .getAs 0 1, .getAs 0 0, .getAs 0 5]).1 = [.done, .got 0, .got 7, .got 0, .refused] := by decide

/-- C90. A pair of numbers declared without initializer has no values: reading it is undefined, although the same pair with an empty first class has a second value. -/
theorem C90_default_violated : ¬ LikePair tInt { tInt with name := 2 } ∧
    (run tInt { tInt with name := 2 } (fun _ => none) [.newDefault 0, .second 0]).1 = [.done, .ub] ∧ (run tEmpty tInt (fun _ => none) [.newDefault 0, .second 0]).1 = [.done, .got 0] := by
  refine ⟨fun h => ?_, by decide, by decide⟩
  exact absurd (h [.newDefault 0, .second 0] (by simp [Typed])) (by decide)

/-- C90. `get<0>` and `get<1>` of an rvalue do not compile, whatever the types. -/
theorem C90_move_out_violated (F S : Ty) : ¬ LikePair F S := by
  intro h
  have := h [.newValue 0, .moveOut 0 true] (by simp [Typed])
  simp [run, step, specRun, specStep, Pairs.put] at this

/-! ## Layout -/

theorem le_roundUp {n a : Nat} (ha : 0 < a) : n ≤ roundUp n a := by
  unfold roundUp
  have h := Nat.div_add_mod (n + a - 1) a
  have h2 := Nat.mod_lt (n + a - 1) ha
  rw [Nat.mul_comm] at h
  omega

theorem dvd_roundUp (n a : Nat) : a ∣ roundUp n a := Nat.dvd_mul_left _ _

theorem roundUp_le {n a m : Nat} (ha : 0 < a) (hd : a ∣ m) (h : n ≤ m) : roundUp n a ≤ m := by
  obtain ⟨k, rfl⟩ := hd
  unfold roundUp
  have : (n + a - 1) / a ≤ k := by
    apply Nat.le_of_lt_succ
    rw [Nat.div_lt_iff_lt_mul ha, Nat.succ_mul, Nat.mul_comm k a]
    omega
  calc (n + a - 1) / a * a ≤ k * a := Nat.mul_le_mul_right a this
    _ = a * k := Nat.mul_comm k a

/-- sizes and alignments are those of C++ types: positive, and one alignment divides the other (they are powers of two); a size is a multiple of the alignment; a class without members is one of its own empty
parts -/
structure Sane (F S : Ty) : Prop where
  size₁ : 0 < F.size
  size₂ : 0 < S.size
  align₁ : 0 < F.align
  align₂ : 0 < S.align
  div : F.align ∣ S.align ∨ S.align ∣ F.align
  mult₁ : F.align ∣ F.size
  mult₂ : S.align ∣ S.size

theorem max_dvd {F S : Ty} (h : Sane F S) {n : Nat} (h1 : F.align ∣ n) (h2 : S.align ∣ n) : max F.align S.align ∣ n := by
  rcases Nat.le_total F.align S.align with hl | hl
  · rw [Nat.max_eq_right hl]; exact h2
  · rw [Nat.max_eq_left hl]; exact h1

theorem dvd_max {F S : Ty} (h : Sane F S) : F.align ∣ max F.align S.align ∧ S.align ∣ max F.align S.align := by
  rcases h.div with hd | hd
  · rw [Nat.max_eq_right (Nat.le_of_dvd h.align₂ hd)]
    exact ⟨hd, Nat.dvd_refl _⟩
  · rw [Nat.max_eq_left (Nat.le_of_dvd h.align₁ hd)]
    exact ⟨Nat.dvd_refl _, hd⟩

/-- C90. Both components are inside the pair and aligned, components that have members do not overlap, and parts of the same class are at different places. -/
theorem C90_layout (F S : Ty) (h : Sane F S) :
    let l := layout F S
    F.align ∣ l.first ∧ S.align ∣ l.second ∧ F.align ∣ l.size ∧ S.align ∣ l.size ∧ l.first + F.size ≤ l.size ∧ l.second + S.size ≤ l.size ∧
      (F.empty = false → l.first + F.size ≤ l.second) ∧ (∀ e : Nat, e ∈ F.empties → e ∈ S.empties → l.first ≠ l.second) := by
  have hmax : 0 < max F.align S.align := by have := h.align₁; omega
  obtain ⟨d1, d2⟩ := dvd_max h
  have p1 := h.size₁
  have p2 := h.align₂
  dsimp only
  unfold layout
  split
  · rename_i hc
    have hf : F.empty = true := by
      unfold compressed at hc
      simp at hc
      exact hc.1
    unfold layoutCompressed
    dsimp only
    refine ⟨Nat.dvd_zero _, ?_, Nat.dvd_trans d1 (dvd_roundUp _ _), Nat.dvd_trans d2 (dvd_roundUp _ _), ?_, ?_, ?_, ?_⟩
    · split
      · exact Nat.dvd_refl _
      · exact Nat.dvd_zero _
    · refine Nat.le_trans ?_ (le_roundUp hmax)
      omega
    · refine Nat.le_trans ?_ (le_roundUp hmax)
      omega
    · intro hx; rw [hf] at hx; cases hx
    · intro e he1 he2
      have : (F.empties.any (fun e => S.empties.contains e)) = true := List.any_eq_true.mpr ⟨e, he1, by simpa using he2⟩
      rw [if_pos this]
      omega
  · unfold layoutPlain
    dsimp only
    have h1 := le_roundUp (n := F.size) p2
    refine ⟨Nat.dvd_zero _, dvd_roundUp _ _, Nat.dvd_trans d1 (dvd_roundUp _ _), Nat.dvd_trans d2 (dvd_roundUp _ _), ?_, ?_, ?_, ?_⟩
    · refine Nat.le_trans ?_ (le_roundUp hmax)
      omega
    · exact le_roundUp hmax
    · intro _; omega
    · intro e _ _
      omega

/-- C90. The pair is never larger than any structure that holds the first component before the second, both aligned. -/
theorem C90_not_larger (F S : Ty) (h : Sane F S) (o n : Nat) (ho : F.size ≤ o) (ho2 : S.align ∣ o) (hn : o + S.size ≤ n) (hn1 : F.align ∣ n) (hn2 : S.align ∣ n) :
    (layout F S).size ≤ n := by
  have hmax : 0 < max F.align S.align := by have := h.align₁; omega
  have p1 := h.size₁
  unfold layout
  split
  · unfold layoutCompressed
    dsimp only
    apply roundUp_le hmax (max_dvd h hn1 hn2)
    have : S.align ≤ o := Nat.le_of_dvd (by omega) ho2
    split <;> omega
  · unfold layoutPlain
    dsimp only
    apply roundUp_le hmax (max_dvd h hn1 hn2)
    have := roundUp_le h.align₂ ho2 ho
    omega

/-- The full statement: an empty component costs nothing, the pair is as large as the other component. False of the code (`C90_shared_violated`, `C90_second_violated`). -/
def Free (F S : Ty) : Prop := (F.empty = true → F.align ≤ S.align → F.size ≤ S.size → (layout F S).size = S.size) ∧ (S.empty = true → S.align ≤ F.align → S.size ≤ F.size → (layout F S).size = F.size)

/-- C90. An empty first component of a class that is not final costs nothing, if the second does not begin with an object of the same class. Missing from `Free`: the other cases. -/
theorem C90_free_partial (F S : Ty) (h : Sane F S) (he : F.empty = true) (hf : F.final = false) (ha : F.align ≤ S.align) (hs : F.size ≤ S.size)
    (hd : ∀ e : Nat, e ∈ F.empties → e ∉ S.empties) : (layout F S).size = S.size := by
  have hc : compressed F S = true := by simp [compressed, he, hf]
  have hno : (F.empties.any (fun e => S.empties.contains e)) = false := by
    rw [List.any_eq_false]
    intro e h1
    simpa using hd e h1
  unfold layout layoutCompressed
  rw [if_pos hc, hno]
  simp only [Bool.false_eq_true, if_false, Nat.zero_add]
  rw [Nat.max_eq_right hs, Nat.max_eq_right ha]
  exact Nat.le_antisymm (roundUp_le h.align₂ h.mult₂ (Nat.le_refl _)) (le_roundUp h.align₂)

example : Sane tEmpty tInt ∧ (∀ e : Nat, e ∈ tEmpty.empties → e ∉ tInt.empties) ∧ layout tEmpty tInt = ⟨0, 0, 4⟩ := by
  refine ⟨⟨by decide, by decide, by decide, by decide, Or.inl (by decide), by decide, by decide⟩, by simp [tEmpty, tInt], by decide⟩

/-- not compressed: a first component with members -/
example : Sane tInt { tInt with size := 16, align := 8 } ∧ layout tInt { tInt with size := 16, align := 8 } = ⟨0, 8, 24⟩ :=
  ⟨⟨by decide, by decide, by decide, by decide, Or.inl (by decide), by decide, by decide⟩, by decide⟩

/-- C90. The pair of an empty class and a class that begins with a part of it is larger than the second. -/
theorem C90_shared_violated : ¬ Free tEmpty { tInt with empties := [1] } ∧ layout tEmpty { tInt with empties := [1] } = ⟨0, 4, 8⟩ := by
  refine ⟨fun h => ?_, by decide⟩
  exact absurd (h.1 rfl (by decide) (by decide)) (by decide)

/-- C90. An empty second component is not compressed, nor is an empty first one of a final class. -/
theorem C90_second_violated : ¬ Free tInt tEmpty ∧ ¬ Free { tEmpty with final := true } tInt ∧ layout tInt tEmpty = ⟨0, 4, 8⟩ := by
  refine ⟨fun h => ?_, fun h => ?_, by decide⟩
  · exact absurd (h.2 rfl (by decide) (by decide)) (by decide)
  · exact absurd (h.1 rfl (by decide) (by decide)) (by decide)

end Verif.CompressedPair
