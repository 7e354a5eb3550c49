import Verif.Model.AtomicAttributes

/-!
# C34: atomic attributes keep their registered type
-/
set_option autoImplicit false

namespace Verif.AtomicAttributes

variable {K β : Type} [DecidableEq K]

/-! ## Specification: every key has a registered type, and a value of this type unless cleared -/

abbrev Spec (K β : Type) := K → Option (Nat × Option β)

def Spec.put (σ : Spec K β) (k : K) (e : Nat × Option β) : Spec K β := fun j => if j = k then some e else σ j

/-- What a read as the type `T` finds. -/
def readAs (σ : Spec K β) (k : K) (T : Nat) : Option β :=
  match σ k with
  | some (U, some a) => if U = T then some a else none
  | _ => none

def spec (σ : Spec K β) : Op K β → Res β × Spec K β
  | .register k T a => if (σ k).isSome then (.bool false, σ) else (.bool true, σ.put k (T, some a))
  | .set k v =>
    match σ k with
    | none => (.bool false, σ)
    | some (T, _) =>
      match v with
      | some (U, a) => if U = T then (.bool true, σ.put k (T, some a)) else (.badCast, σ)
      | none => (.badCast, σ)
  | .clear k =>
    match σ k with
    | none => (.done, σ)
    | some (T, _) => (.done, σ.put k (T, none))
  | .has k => (.bool (σ k).isSome, σ)
  | .getAs k T =>
    match readAs σ k T with
    | some a => (.got a, σ)
    | none => (.badAttribute, σ)
  | .getOr k T d => (.got ((readAs σ k T).getD d), σ)
  | .getOpt k T =>
    match readAs σ k T with
    | some a => (.got a, σ)
    | none => (.none, σ)
  | .copy => (.done, σ)

def specRun : Spec K β → List (Op K β) → List (Res β) × Spec K β
  | σ, [] => ([], σ)
  | σ, op :: ops => ((spec σ op).1 :: (specRun (spec σ op).2 ops).1, (specRun (spec σ op).2 ops).2)

/-- Registrations are of new keys, cleared attributes are not set (with a value of their type), and the object is not copied while an attribute is cleared. -/
def Fine (σ : Spec K β) : Op K β → Prop
  | .register k _ _ => σ k = none
  | .set k _ => ∀ T, σ k ≠ some (T, none)
  | .copy => ∀ k T, σ k ≠ some (T, none)
  | _ => True

def AllFine : Spec K β → List (Op K β) → Prop
  | _, [] => True
  | σ, op :: ops => Fine σ op ∧ AllFine (spec σ op).2 ops

/-! ## Refinement -/

/-- An entry as in the specification. -/
def conc : Nat × Option β → Entry β := fun p => ⟨p.2.map fun a => (p.1, a), p.1⟩

structure Rel (m : Map K β) (σ : Spec K β) : Prop where
  keys : (m.map (·.1)).Nodup
  vals : ∀ k, find k m = (σ k).map conc

theorem find_setValue (k : K) (v : Option (Nat × β)) : ∀ (m : Map K β) (j : K), find j (setValue k v m) = if j = k then (find j m).map (fun e => { e with value := v }) else find j m
  | [], j => by simp [setValue, find]
  | p :: m, j => by
    simp only [setValue, find]
    by_cases h : p.1 = k
    · by_cases hj : j = k
      · subst hj; simp [h, find]
      · have h2 : ¬ k = j := fun e => hj e.symm
        simp [h, find, hj, h2]
    · by_cases hj : j = k
      · subst hj; simp [h, find, find_setValue j v m j]
      · simp [h, find, find_setValue k v m j, hj]

theorem keys_setValue (k : K) (v : Option (Nat × β)) : ∀ (m : Map K β), (setValue k v m).map (·.1) = m.map (·.1)
  | [] => rfl
  | p :: m => by
    simp only [setValue]
    split
    · rfl
    · simp [keys_setValue k v m]

theorem find_none_iff (k : K) : ∀ (m : Map K β), find k m = none ↔ k ∉ m.map (·.1)
  | [] => by simp [find]
  | p :: m => by
    simp only [find, List.map_cons, List.mem_cons, not_or]
    by_cases h : p.1 = k
    · simp [h]
    · have h2 : ¬ k = p.1 := fun e => h e.symm
      rw [if_neg h, find_none_iff k m]
      simp [h2]

theorem find_append (k : K) (e : Entry β) : ∀ (m : Map K β) (j : K), find j m = none ∨ j ≠ k → find j (m ++ [(k, e)]) = if j = k then some e else find j m
  | [], j, _ => by by_cases h : j = k <;> simp [find, h]; exact fun c => absurd c.symm h
  | p :: m, j, hd => by
    simp only [List.cons_append, find] at hd ⊢
    by_cases h : p.1 = j
    · simp only [h, if_true, reduceCtorEq, false_or] at hd ⊢
      simp [hd]
    · simp only [if_neg h] at hd ⊢
      exact find_append k e m j hd

theorem Rel.put {m : Map K β} {σ : Spec K β} (h : Rel m σ) (k : K) (T : Nat) (w : Option β) (v : Option β) (hk : σ k = some (T, w)) :
    Rel (setValue k (v.map fun a => (T, a)) m) (σ.put k (T, v)) := by
  refine ⟨by rw [keys_setValue]; exact h.keys, fun j => ?_⟩
  rw [find_setValue, Spec.put]
  by_cases e : j = k
  · subst e; simp only [if_true, h.vals j, hk]; rfl
  · simp only [e, if_false, h.vals j]

theorem copyAll_ok : ∀ (m : Map K β), (∀ p ∈ m, ∃ a, p.2 = conc (p.2.assigner, some a)) → copyAll m = some m
  | [], _ => rfl
  | p :: m, h => by
    obtain ⟨a, ha⟩ := h p (by simp)
    have ih := copyAll_ok m (fun q hq => h q (by simp [hq]))
    have hv : p.2.value = some (p.2.assigner, a) := by rw [ha]; rfl
    simp only [copyAll, fromAtomic, hv, ih, if_true]
    have : (⟨some (p.2.assigner, a), p.2.assigner⟩ : Entry β) = p.2 := by rw [← hv]
    rw [this]

theorem find_mem : ∀ (m : Map K β), (m.map (·.1)).Nodup → ∀ p ∈ m, find p.1 m = some p.2
  | [], _, p, h => by simp at h
  | q :: m, hn, p, h => by
    simp only [List.map_cons, List.nodup_cons] at hn
    simp only [find]
    rcases List.mem_cons.1 h with rfl | h
    · simp
    · have : q.1 ≠ p.1 := fun e => hn.1 (e ▸ List.mem_map_of_mem h)
      rw [if_neg this]
      exact find_mem m hn.2 p h

theorem step_ok {m : Map K β} {σ : Spec K β} (h : Rel m σ) (op : Op K β) (hf : Fine σ op) : (step m op).1 = (spec σ op).1 ∧ Rel (step m op).2 (spec σ op).2 := by
  cases op with
  | register k T a =>
    have hk : σ k = none := hf
    simp only [step, spec, h.vals k, hk]
    refine ⟨rfl, ?_⟩
    have hn : find k m = none := by rw [h.vals k, hk]; rfl
    refine ⟨?_, fun j => ?_⟩
    · show ((m ++ [(k, (⟨some (T, a), T⟩ : Entry β))]).map (·.1)).Nodup
      simp only [List.map_append, List.map_cons, List.map_nil]
      rw [List.nodup_append]
      refine ⟨h.keys, by simp, ?_⟩
      intro x hx y hy e
      simp at hy; subst hy; subst e
      exact (find_none_iff x m).1 hn hx
    · have : find j m = none ∨ j ≠ k := by
        by_cases e : j = k
        · subst e; exact Or.inl hn
        · exact Or.inr e
      show find j (m ++ [(k, ⟨some (T, a), T⟩)]) = (Spec.put σ k (T, some a) j).map conc
      rw [find_append k _ m j this, Spec.put]
      split
      · rfl
      · exact h.vals j
  | set k v =>
    simp only [step, spec, h.vals k]
    cases hk : σ k with
    | none => exact ⟨rfl, h⟩
    | some e =>
      obtain ⟨T, w⟩ := e
      cases w with
      | none => exact absurd hk (hf T)
      | some b =>
        cases v with
        | none => exact ⟨rfl, h⟩
        | some p =>
          obtain ⟨U, a⟩ := p
          by_cases c : U = T
          · subst c
            simp only [Option.map_some, conc, fromValue, and_self, if_true]
            exact ⟨trivial, h.put k U (some b) (some a) hk⟩
          · simp only [Option.map_some, conc, fromValue, c, and_false, if_false]
            exact ⟨trivial, h⟩
  | clear k =>
    simp only [step, spec]
    cases hk : σ k with
    | none =>
      refine ⟨rfl, by rw [keys_setValue]; exact h.keys, fun j => ?_⟩
      rw [find_setValue]
      by_cases e : j = k
      · subst e; simp [h.vals j, hk]
      · simp [e, h.vals j]
    | some e => exact ⟨rfl, h.put k e.1 e.2 none hk⟩
  | has k => simp only [step, spec, h.vals k]; exact ⟨by simp, h⟩
  | getAs k T =>
    simp only [step, spec, readAs, h.vals k]
    cases hk : σ k with
    | none => exact ⟨rfl, h⟩
    | some e =>
      obtain ⟨U, w⟩ := e
      cases w with
      | none => exact ⟨rfl, h⟩
      | some b => by_cases c : U = T <;> simp [conc, c] <;> exact h
  | getOr k T d =>
    simp only [step, spec, readAs, h.vals k]
    cases hk : σ k with
    | none => exact ⟨rfl, h⟩
    | some e =>
      obtain ⟨U, w⟩ := e
      cases w with
      | none => exact ⟨rfl, h⟩
      | some b => by_cases c : U = T <;> simp [conc, c] <;> exact h
  | getOpt k T =>
    simp only [step, spec, readAs, h.vals k]
    cases hk : σ k with
    | none => exact ⟨rfl, h⟩
    | some e =>
      obtain ⟨U, w⟩ := e
      cases w with
      | none => exact ⟨rfl, h⟩
      | some b => by_cases c : U = T <;> simp [conc, c] <;> exact h
  | copy =>
    have : copyAll m = some m := by
      apply copyAll_ok
      intro p hp
      have h1 := find_mem m h.keys p hp
      rw [h.vals] at h1
      cases hk : σ p.1 with
      | none => rw [hk] at h1; simp at h1
      | some e =>
        obtain ⟨T, w⟩ := e
        rw [hk] at h1
        simp only [Option.map_some, Option.some.injEq] at h1
        cases w with
        | none => exact absurd hk (hf p.1 T)
        | some a => exact ⟨a, by rw [← h1]; rfl⟩
    simp only [step, spec, this]
    exact ⟨trivial, h⟩

theorem run_ok : ∀ (ops : List (Op K β)) {m : Map K β} {σ : Spec K β}, Rel m σ → AllFine σ ops → (run m ops).1 = (specRun σ ops).1 ∧ Rel (run m ops).2 (specRun σ ops).2
  | [], _, _, h, _ => ⟨rfl, h⟩
  | op :: ops, m, σ, h, hf => by
    obtain ⟨h1, h2⟩ := step_ok h op hf.1
    obtain ⟨h3, h4⟩ := run_ok ops h2 hf.2
    simp only [run, specRun]
    exact ⟨by rw [h1, h3], h4⟩

/-- All answers are as specified, for every sequence of calls without a second registration of a key and without setting a cleared
attribute or copying while one is cleared. -/
theorem C34_partial (ops : List (Op K β)) (hf : AllFine (fun _ => none) ops) : (run [] ops).1 = (specRun (fun _ => none) ops).1 :=
  (run_ok ops ⟨by simp, fun _ => rfl⟩ hf).1

/-- After `clear`, setting an attribute to a value of its registered type throws, whatever the state: it can never be set again, and copies
throw, too. -/
theorem C34_clear_violated (m : Map K β) (k : K) (e : Entry β) (hk : find k m = some e) (a : β) :
    (step (step m (.clear k)).2 (.set k (some (e.assigner, a)))).1 = .badCast ∧ (step (step m (.clear k)).2 .copy).1 = .badCast := by
  constructor
  · simp only [step, find_setValue, if_true, hk, Option.map_some, fromValue]
  · simp only [step]
    have : copyAll (setValue k none m) = none := by
      clear a
      induction m with
      | nil => simp [find] at hk
      | cons p m ih =>
        simp only [find] at hk
        simp only [setValue]
        by_cases c : p.1 = k
        · simp [c, copyAll, fromAtomic]
        · rw [if_neg c] at hk
          simp only [if_neg c, copyAll, ih hk]
          cases fromAtomic p.2.assigner p.2.value <;> rfl
    rw [this]

/-- Registering an existing key answers `false` but replaces the value; with another type the attribute cannot be read or set with the
type it was registered with, nor be set with the new one. -/
theorem C34_register_violated (m : Map K β) (k : K) (e : Entry β) (hk : find k m = some e) (T : Nat) (a b : β) :
    (step m (.register k T a)).1 = .bool false ∧ (step (step m (.register k T a)).2 (.getAs k T)).1 = .got a ∧
      (T ≠ e.assigner → (step (step m (.register k T a)).2 (.getAs k e.assigner)).1 = .badAttribute ∧
        (step (step m (.register k T a)).2 (.set k (some (e.assigner, b)))).1 = .badCast ∧ (step (step m (.register k T a)).2 (.set k (some (T, b)))).1 = .badCast) := by
  simp only [step, hk, find_setValue, if_true, Option.map_some]
  refine ⟨trivial, trivial, fun h => ?_⟩
  simp [fromValue, h]

def sample : List (Op Nat Nat) := [.register 1 4 10, .register 2 5 20, .set 1 (some (4, 11)), .getAs 1 4, .getAs 1 5, .set 1 (some (5, 12)), .set 3 (some (4, 1)), .copy, .clear 2, .getOr 2 5 99, .has 2, .getAs 1 4]

example : (run [] sample).1 = [.bool true, .bool true, .bool true, .got 11, .badAttribute, .badCast, .bool false, .done, .done, .got 99, .bool true, .got 11] := by
  decide +kernel

example : AllFine (fun _ => none) sample := by
  simp [AllFine, sample, Fine, spec, readAs, Spec.put]
  intro k T
  repeat' split
  all_goals simp

end Verif.AtomicAttributes
