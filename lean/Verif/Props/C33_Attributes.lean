import Verif.Model.Attributes

/-!
# C33: attribute maps behave like finite maps
-/
set_option autoImplicit false

namespace Verif.Attributes

variable {K α : Type}

/-! ## Specification: keys to contents -/

abbrev Spec (K α : Type) := K → Option (Option (Any.Content α))

/-- The type and the value that an attribute has: an `any` given as an argument is itself the attribute, and does not become nested. -/
def Arg.content : Arg α → Option (Any.Content α)
  | .val T a => some (.plain T a)
  | .any v => v
  | .anyVar v => v

/-- What a read as the type `T` finds: the content, if the attribute is there and has this type. Nothing has the type `void`. -/
def readAs (σ : Spec K α) (k : K) (T : Nat) : Option (Any.Content α) :=
  match σ k with
  | some (some c) => if c.type = T then some c else none
  | _ => none

/-- With `validator` true for all keys this is a finite map. -/
def spec [DecidableEq K] (validator : K → Bool) (σ : Spec K α) : Op K α → Res α × Spec K α
  | .set k a => if validator k then (.bool true, fun j => if j = k then some a.content else σ j) else (.bool false, σ)
  | .clear k => (.done, fun j => if j = k then none else σ j)
  | .has k => (.bool (σ k).isSome, σ)
  | .valid k => (.bool (validator k), σ)
  | .get k =>
    match σ k with
    | none => (.badAttribute, σ)
    | some v => (.any v, σ)
  | .getAs k T =>
    match readAs σ k T with
    | some c => (.got c, σ)
    | none => (.badAttribute, σ)
  | .getOr k T d => (.got ((readAs σ k T).getD d), σ)
  | .getOpt k T =>
    match readAs σ k T with
    | some c => (.got c, σ)
    | none => (.none, σ)

def specRun [DecidableEq K] (validator : K → Bool) : Spec K α → List (Op K α) → List (Res α) × Spec K α
  | σ, [] => ([], σ)
  | σ, op :: ops => ((spec validator σ op).1 :: (specRun validator (spec validator σ op).2 ops).1, (specRun validator (spec validator σ op).2 ops).2)

/-- The comparison of the keys is a strict total order. -/
structure Order (lt : K → K → Bool) : Prop where
  irrefl : ∀ a, lt a a = false
  trans : ∀ a b c, lt a b = true → lt b c = true → lt a c = true
  total : ∀ a b, lt a b = false → lt b a = false → a = b

/-! ## The map -/

def Sorted (lt : K → K → Bool) (m : Map K α) : Prop := m.Pairwise (fun p q => lt p.1 q.1 = true)

theorem find_none {lt : K → K → Bool} (ho : Order lt) (k : K) : ∀ (m : Map K α), (∀ p ∈ m, lt k p.1 = true) → find lt k m = none
  | [], _ => rfl
  | p :: m, h => by
    have h1 := h p (by simp)
    have h2 : lt p.1 k = false := by
      cases e : lt p.1 k with
      | false => rfl
      | true => have := ho.trans k p.1 k h1 e; rw [ho.irrefl] at this; simp at this
    simp [find, h1, h2]

theorem mem_insert {lt : K → K → Bool} (k : K) (v : Option (Any.Content α)) : ∀ (m : Map K α) (p : K × Option (Any.Content α)), p ∈ insertOrAssign lt k v m → p.1 = k ∨ ∃ q ∈ m, q.1 = p.1
  | [], p, h => by simp [insertOrAssign] at h; simp [h]
  | q :: m, p, h => by
    simp only [insertOrAssign] at h
    split at h
    · rcases List.mem_cons.1 h with rfl | h
      · exact Or.inr ⟨p, by simp, rfl⟩
      · rcases mem_insert k v m p h with h | ⟨r, h1, h2⟩
        · exact Or.inl h
        · exact Or.inr ⟨r, by simp [h1], h2⟩
    · split at h
      · rcases List.mem_cons.1 h with rfl | h
        · exact Or.inl rfl
        · exact Or.inr ⟨p, h, rfl⟩
      · rcases List.mem_cons.1 h with rfl | h
        · exact Or.inr ⟨q, by simp, rfl⟩
        · exact Or.inr ⟨p, by simp [h], rfl⟩

theorem sorted_insert {lt : K → K → Bool} (ho : Order lt) (k : K) (v : Option (Any.Content α)) : ∀ (m : Map K α), Sorted lt m → Sorted lt (insertOrAssign lt k v m)
  | [], _ => by simp [insertOrAssign, Sorted]
  | q :: m, h => by
    have h' := List.pairwise_cons.1 h
    simp only [insertOrAssign]
    split
    · rename_i c
      refine List.pairwise_cons.2 ⟨?_, sorted_insert ho k v m h'.2⟩
      intro p hp
      rcases mem_insert k v m p hp with e | ⟨r, h1, h2⟩
      · rw [e]; exact c
      · rw [← h2]; exact h'.1 r h1
    · split
      · rename_i c1 c2
        refine List.pairwise_cons.2 ⟨?_, h⟩
        intro p hp
        rcases List.mem_cons.1 hp with rfl | hp
        · exact c2
        · exact ho.trans _ _ _ c2 (h'.1 p hp)
      · exact List.pairwise_cons.2 ⟨h'.1, h'.2⟩

theorem find_insert [DecidableEq K] {lt : K → K → Bool} (ho : Order lt) (k : K) (v : Option (Any.Content α)) : ∀ (m : Map K α), Sorted lt m → ∀ j,
    find lt j (insertOrAssign lt k v m) = if j = k then some v else find lt j m
  | [], _, j => by
    simp only [insertOrAssign, find]
    by_cases e : j = k
    · subst e; simp [ho.irrefl]
    · simp only [e, if_false]
      cases h1 : lt k j <;> cases h2 : lt j k <;> simp
      exact e (ho.total j k h2 h1)
  | q :: m, h, j => by
    have h' := List.pairwise_cons.1 h
    simp only [insertOrAssign]
    split
    · rename_i c
      rw [find, find_insert ho k v m h'.2 j, find]
      by_cases e : j = k
      · subst e; simp [c]
      · simp [e]
    · rename_i c1
      have c1' : lt q.1 k = false := by simpa using c1
      split
      · rename_i c2
        rw [find]
        by_cases e : j = k
        · subst e; simp [ho.irrefl]
        · simp only [e, if_false]
          by_cases h1 : lt k j = true
          · rw [if_pos h1]
          · have h1' : lt k j = false := by simpa using h1
            have h2 : lt j k = true := by
              cases h2 : lt j k with
              | true => rfl
              | false => exact absurd (ho.total j k h2 h1') e
            rw [if_neg h1, if_pos h2]
            refine (find_none ho j (q :: m) ?_).symm
            intro p hp
            rcases List.mem_cons.1 hp with rfl | hp
            · exact ho.trans _ _ _ h2 c2
            · exact ho.trans _ _ _ h2 (ho.trans _ _ _ c2 (h'.1 p hp))
      · rename_i c2
        have hk : q.1 = k := ho.total _ _ c1' (by simpa using c2)
        rw [find, find]
        by_cases e : j = k
        · subst e; simp [hk, ho.irrefl]
        · simp only [e, if_false, hk]
          cases h1 : lt k j <;> cases h2 : lt j k <;> simp
          exact absurd (ho.total j k h2 h1) e

theorem mem_erase {lt : K → K → Bool} (k : K) : ∀ (m : Map K α) (p : K × Option (Any.Content α)), p ∈ erase lt k m → p ∈ m
  | [], p, h => by simp [erase] at h
  | q :: m, p, h => by
    simp only [erase] at h
    split at h
    · rcases List.mem_cons.1 h with rfl | h
      · simp
      · simp [mem_erase k m p h]
    · split at h
      · exact h
      · simp [h]

theorem sorted_erase {lt : K → K → Bool} (k : K) : ∀ (m : Map K α), Sorted lt m → Sorted lt (erase lt k m)
  | [], _ => by simp [erase, Sorted]
  | q :: m, h => by
    have h' := List.pairwise_cons.1 h
    simp only [erase]
    split
    · exact List.pairwise_cons.2 ⟨fun p hp => h'.1 p (mem_erase k m p hp), sorted_erase k m h'.2⟩
    · split
      · exact h
      · exact h'.2

theorem find_erase [DecidableEq K] {lt : K → K → Bool} (ho : Order lt) (k : K) : ∀ (m : Map K α), Sorted lt m → ∀ j, find lt j (erase lt k m) = if j = k then none else find lt j m
  | [], _, j => by simp [erase, find]
  | q :: m, h, j => by
    have h' := List.pairwise_cons.1 h
    simp only [erase]
    split
    · rename_i c
      rw [find, find_erase ho k m h'.2 j, find]
      by_cases e : j = k
      · subst e; simp [c]
      · simp [e]
    · rename_i c1
      have c1' : lt q.1 k = false := by simpa using c1
      split
      · rename_i c2
        by_cases e : j = k
        · subst e
          rw [if_pos rfl]
          refine find_none ho j (q :: m) ?_
          intro p hp
          rcases List.mem_cons.1 hp with rfl | hp
          · exact c2
          · exact ho.trans _ _ _ c2 (h'.1 p hp)
        · rw [if_neg e]
      · rename_i c2
        have hk : q.1 = k := ho.total _ _ c1' (by simpa using c2)
        by_cases e : j = k
        · subst e
          rw [if_pos rfl]
          exact find_none ho j m (fun p hp => hk ▸ h'.1 p hp)
        · rw [if_neg e, find]
          cases h1 : lt q.1 j with
          | true => simp
          | false =>
            cases h2 : lt j q.1 with
            | false => exact absurd ((ho.total j q.1 h2 h1).trans hk) e
            | true =>
              simp only [Bool.false_eq_true, if_false, if_true]
              exact find_none ho j m (fun p hp => ho.trans _ _ _ h2 (h'.1 p hp))

/-! ## Refinement -/

/-- Arguments that are not variables of type `any`, and attributes that the validator accepts. Reads are not for `void`, which does not
compile. -/
def Fine (validator : K → Bool) : Op K α → Prop
  | .set _ (.anyVar _) => False
  | .set k _ => validator k = true
  | .getAs _ T => T ≠ 0
  | .getOpt _ T => T ≠ 0
  | _ => True

theorem getAs_eq (v : Option (Any.Content α)) (T : Nat) : Any.getAs v T = match v with | some c => if c.type = T then some c else none | none => none := by
  cases v with
  | none => simp [Any.getAs]
  | some c =>
    by_cases h : c.type = T
    · subst h; simp [Any.getAs, Any.typeOf]
    · simp [Any.getAs, Any.typeOf, h, Ne.symm h]

theorem step_ok [DecidableEq K] {lt : K → K → Bool} (ho : Order lt) (validator : K → Bool) {m : Map K α} (hs : Sorted lt m) (op : Op K α) (hf : Fine validator op) :
    (step lt validator m op).1 = (spec validator (fun k => find lt k m) op).1 ∧ Sorted lt (step lt validator m op).2 ∧
      (fun k => find lt k (step lt validator m op).2) = (spec validator (fun k => find lt k m) op).2 := by
  cases op with
  | set k a =>
    have ha : a.make = a.content := by
      cases a with
      | val T a => rfl
      | any v => rfl
      | anyVar v => exact hf.elim
    have hv : validator k = true := by
      cases a with
      | val T a => exact hf
      | any v => exact hf
      | anyVar v => exact hf.elim
    simp only [step, spec, hv, if_true, ha]
    exact ⟨trivial, sorted_insert ho k _ m hs, funext (find_insert ho k _ m hs)⟩
  | clear k => exact ⟨rfl, sorted_erase k m hs, funext (find_erase ho k m hs)⟩
  | has k => exact ⟨rfl, hs, rfl⟩
  | valid k => exact ⟨rfl, hs, rfl⟩
  | get k =>
    simp only [step, spec]
    cases find lt k m with
    | none => exact ⟨rfl, hs, rfl⟩
    | some v => exact ⟨rfl, hs, rfl⟩
  | getAs k T =>
    have hT : 0 ≠ T := Ne.symm hf
    simp only [step, spec, readAs, getAs_eq]
    cases find lt k m with
    | none => exact ⟨rfl, hs, rfl⟩
    | some v =>
      cases v with
      | none => simp [Any.typeOf, hT]; exact hs
      | some c => by_cases h : c.type = T <;> simp [Any.typeOf, h] <;> exact hs
  | getOr k T d =>
    simp only [step, spec, readAs, getAs_eq]
    cases find lt k m with
    | none => exact ⟨rfl, hs, rfl⟩
    | some v => cases v <;> exact ⟨rfl, hs, rfl⟩
  | getOpt k T =>
    have hT : 0 ≠ T := Ne.symm hf
    simp only [step, spec, readAs, getAs_eq]
    cases find lt k m with
    | none => exact ⟨rfl, hs, rfl⟩
    | some v =>
      cases v with
      | none => simp [Any.typeOf, hT]; exact hs
      | some c => by_cases h : c.type = T <;> simp [Any.typeOf, h] <;> exact hs

theorem run_ok [DecidableEq K] {lt : K → K → Bool} (ho : Order lt) (validator : K → Bool) : ∀ (ops : List (Op K α)), (∀ op ∈ ops, Fine validator op) → ∀ {m : Map K α}, Sorted lt m →
    (run lt validator m ops).1 = (specRun validator (fun k => find lt k m) ops).1 ∧
      (fun k => find lt k (run lt validator m ops).2) = (specRun validator (fun k => find lt k m) ops).2
  | [], _, _, _ => ⟨rfl, rfl⟩
  | op :: ops, hf, m, hs => by
    obtain ⟨h1, h2, h3⟩ := step_ok ho validator hs op (hf op (by simp))
    obtain ⟨h4, h5⟩ := run_ok ho validator ops (fun o ho => hf o (by simp [ho])) h2
    simp only [run, specRun]
    rw [h3] at h4 h5
    exact ⟨by rw [h1, h4], h5⟩

/-- For every sequence of calls that sets only attributes the validator accepts, and not to variables of type `any`: the answers are
those of a finite map, so that reads of missing or differently typed attributes fail. -/
theorem C33_partial [DecidableEq K] (lt : K → K → Bool) (ho : Order lt) (validator : K → Bool) (ops : List (Op K α)) (hf : ∀ op ∈ ops, Fine validator op) :
    (run lt validator [] ops).1 = (specRun validator (fun _ => none) ops).1 :=
  (run_ok ho validator ops hf (m := []) (by simp [Sorted])).1

/-- An attribute that the validator rejects is stored, and the answer says that it was accepted. -/
theorem C33_validator_violated (lt : K → K → Bool) (ho : Order lt) (validator : K → Bool) (m : Map K α) (k : K) (a : Arg α) (hs : Sorted lt m) (_hv : validator k = false) :
    (step lt validator m (.set k a)).1 = .bool true ∧ (step lt validator (step lt validator m (.set k a)).2 (.has k)).1 = .bool true := by
  classical
  refine ⟨rfl, ?_⟩
  simp only [step]
  rw [find_insert ho k _ m hs k]
  simp

/-- An attribute that is set to a variable of type `any` cannot be read with the type that this has. -/
theorem C33_any_violated (lt : K → K → Bool) (ho : Order lt) (validator : K → Bool) (m : Map K α) (hs : Sorted lt m) (k : K) (T : Nat) (hT : T ≠ 1) (a : α) :
    (step lt validator (step lt validator m (.set k (.anyVar (some (.plain T a))))).2 (.getAs k T)).1 = .badAttribute := by
  classical
  simp only [step]
  rw [find_insert ho k _ m hs k]
  simp [Arg.make, Any.box, Any.typeOf, Any.Content.type, Ne.symm hT]

def natLt (a b : Nat) : Bool := decide (a < b)

example : Order natLt := ⟨by simp [natLt], by simp [natLt]; omega, by simp [natLt]; omega⟩

def sample : List (Op Nat Nat) := [.set 5 (.val 2 10), .set 3 (.val 3 11), .set 5 (.val 3 12), .getAs 5 2, .getAs 5 3, .get 4, .clear 5, .has 5, .has 3, .getOpt 5 3, .getOr 3 3 (.plain 3 0),
  .getOr 3 2 (.plain 2 0)]

example : (run natLt (fun k => k ≠ 4) [] sample).1 =
    [.bool true, .bool true, .bool true, .badAttribute, .got (.plain 3 12), .badAttribute, .done, .bool false, .bool true, .none, .got (.plain 3 11), .got (.plain 2 0)] := by
  decide +kernel

example : ∀ op ∈ sample, Fine (fun k => k ≠ 4) op := by
  simp [sample, Fine]

end Verif.Attributes
