import Verif.Model.Backend
import Verif.Lemmas.Config

/-! # Lemmas about the interface of the backends -/
set_option autoImplicit false

namespace Verif.Config

def Got.map {A B : Type} (f : A → B) : Got A → Got B
  | .empty => .empty
  | .scalar s => .scalar s
  | .conf a => .conf (f a)

variable {A B : Type} (IA : Iface A) (IB : Iface B) (f : A → B) (P : A → Prop)

/-- Two backends whose entries correspond to each other cannot be told apart by any chain of steps. -/
theorem follow_hom (h : ∀ a s, P a → enter IB (f a) s = (enter IA a s).map (fun e => (e.1, e.2.map f)))
    (hp : ∀ a s i b, P a → enter IA a s = some (i, .conf b) → P b) (a : A) (ha : P a) (steps : List Step) :
    follow IB (f a) steps = (follow IA a steps).map (fun e => (e.1, e.2.map f)) ∧ ∀ i b, follow IA a steps = some (i, .conf b) → P b := by
  induction steps generalizing a with
  | nil => exact ⟨rfl, by simp [follow]⟩
  | cons s r ih =>
    cases r with
    | nil => exact ⟨h a s ha, fun i b e => hp a s i b ha e⟩
    | cons s' r =>
      simp only [follow, h a s ha]
      cases e : enter IA a s with
      | none => simp
      | some x =>
        obtain ⟨i, g⟩ := x
        cases g with
        | empty => simp [Got.map]
        | scalar c => simp [Got.map]
        | conf b => simpa [Got.map] using ih b (hp a s i b ha e)

/-- The same for backends whose entries correspond up to their indices. -/
theorem follow_hom_up (h : ∀ a s, P a → (enter IB (f a) s).map (·.2) = (enter IA a s).map (fun e => e.2.map f))
    (hp : ∀ a s i b, P a → enter IA a s = some (i, .conf b) → P b) (a : A) (ha : P a) (steps : List Step) :
    (follow IB (f a) steps).map (·.2) = (follow IA a steps).map (fun e => e.2.map f) ∧ ∀ i b, follow IA a steps = some (i, .conf b) → P b := by
  induction steps generalizing a with
  | nil => exact ⟨rfl, by simp [follow]⟩
  | cons s r ih =>
    cases r with
    | nil => exact ⟨h a s ha, fun i b e => hp a s i b ha e⟩
    | cons s' r =>
      simp only [follow]
      have hs := h a s ha
      cases e : enter IA a s with
      | none =>
        rw [e] at hs
        cases e' : enter IB (f a) s with
        | none => simp
        | some y => rw [e'] at hs; simp at hs
      | some x =>
        obtain ⟨i, g⟩ := x
        rw [e] at hs
        cases e' : enter IB (f a) s with
        | none => rw [e'] at hs; simp at hs
        | some y =>
          obtain ⟨j, g'⟩ := y
          rw [e'] at hs
          simp at hs
          subst hs
          cases g with
          | empty => simp [Got.map]
          | scalar c => simp [Got.map]
          | conf b => simpa [Got.map] using ih b (hp a s i b ha e)

/-- The same for backends whose values correspond by `m`; what is not a config corresponds to no config or to one without entries. -/
theorem follow_hom_gen (m : Got A → Got B) (hm : ∀ a, m (.conf a) = .conf (f a)) (hd : ∀ g b s, (∀ a, g ≠ .conf a) → m g = .conf b → enter IB b s = none)
    (h : ∀ a s, P a → enter IB (f a) s = (enter IA a s).map (fun e => (e.1, m e.2)))
    (hp : ∀ a s i b, P a → enter IA a s = some (i, .conf b) → P b) (a : A) (ha : P a) (steps : List Step) :
    follow IB (f a) steps = (follow IA a steps).map (fun e => (e.1, m e.2)) := by
  have dead : ∀ (r : List Step) (b : B), (∀ s, enter IB b s = none) → follow IB b r = none := by
    intro r b hb
    cases r with
    | nil => rfl
    | cons s r => cases r <;> simp [follow, hb]
  induction steps generalizing a with
  | nil => rfl
  | cons s r ih =>
    cases r with
    | nil => exact h a s ha
    | cons s' r =>
      simp only [follow, h a s ha]
      cases e : enter IA a s with
      | none => simp
      | some x =>
        obtain ⟨i, g⟩ := x
        by_cases hg : ∃ b, g = .conf b
        · obtain ⟨b, rfl⟩ := hg
          simpa [hm] using ih b (hp a s i b ha e)
        · have hg' : ∀ b, g ≠ .conf b := fun b hb => hg ⟨b, hb⟩
          simp only [Option.map_some]
          cases e2 : m g with
          | conf b =>
            simp only [dead _ b (fun s => hd g b s hg' e2)]
            cases g with
            | conf b' => exact absurd rfl (hg' b')
            | _ => rfl
          | _ =>
            cases g with
            | conf b' => exact absurd rfl (hg' b')
            | _ => rfl

/-- One direction: every entry of the first is one of the second. -/
theorem follow_hom_le (m : Got A → Got B) (hm : ∀ a, m (.conf a) = .conf (f a)) (h : ∀ a s i g, P a → enter IA a s = some (i, g) → enter IB (f a) s = some (i, m g))
    (hp : ∀ a s i b, P a → enter IA a s = some (i, .conf b) → P b) (a : A) (ha : P a) (steps : List Step) (i : Nat) (g : Got A) (hf : follow IA a steps = some (i, g)) :
    follow IB (f a) steps = some (i, m g) := by
  induction steps generalizing a with
  | nil => simp [follow] at hf
  | cons s r ih =>
    cases r with
    | nil => exact h a s i g ha hf
    | cons s' r =>
      simp only [follow] at hf ⊢
      cases e : enter IA a s with
      | none => rw [e] at hf; simp at hf
      | some x =>
        obtain ⟨j, g'⟩ := x
        rw [e] at hf
        cases g' with
        | conf b =>
          simp only at hf
          rw [h a s j _ ha e, hm]
          exact ih b (hp a s j b ha e) hf
        | _ => simp at hf

/-- The same with relations between the configs and between the values. -/
theorem follow_rel (R : A → B → Prop) (M : Got A → Got B → Prop) (hM : ∀ a g, M (.conf a) g → ∃ b, g = .conf b ∧ R a b)
    (h : ∀ a b s i g, R a b → enter IA a s = some (i, g) → ∃ g', enter IB b s = some (i, g') ∧ M g g')
    (a : A) (b : B) (hr : R a b) (steps : List Step) (i : Nat) (g : Got A) (hf : follow IA a steps = some (i, g)) : ∃ g', follow IB b steps = some (i, g') ∧ M g g' := by
  induction steps generalizing a b with
  | nil => simp [follow] at hf
  | cons s r ih =>
    cases r with
    | nil => exact h a b s i g hr hf
    | cons s' r =>
      simp only [follow] at hf ⊢
      cases e : enter IA a s with
      | none => rw [e] at hf; simp at hf
      | some x =>
        obtain ⟨j, g1⟩ := x
        rw [e] at hf
        cases g1 with
        | conf a' =>
          simp only at hf
          obtain ⟨g2, h1, h2⟩ := h a b s j _ hr e
          obtain ⟨b', rfl, h3⟩ := hM a' g2 h2
          rw [h1]
          exact ih a' b' h3 hf
        | _ => simp at hf

/-- The other direction. -/
theorem follow_rel_none (R : A → B → Prop) (M : Got A → Got B → Prop) (hM : ∀ a g, M (.conf a) g → ∃ b, g = .conf b ∧ R a b)
    (hd : ∀ g b s, (∀ a, g ≠ .conf a) → M g (.conf b) → enter IB b s = none)
    (h : ∀ a b s i g, R a b → enter IA a s = some (i, g) → ∃ g', enter IB b s = some (i, g') ∧ M g g')
    (hn : ∀ a b s, R a b → enter IA a s = none → enter IB b s = none)
    (a : A) (b : B) (hr : R a b) (steps : List Step) (hf : follow IA a steps = none) : follow IB b steps = none := by
  have dead : ∀ (r : List Step) (b : B), (∀ s, enter IB b s = none) → follow IB b r = none := by
    intro r b hb
    cases r with
    | nil => rfl
    | cons s r => cases r <;> simp [follow, hb]
  induction steps generalizing a b with
  | nil => rfl
  | cons s r ih =>
    cases r with
    | nil => exact hn a b s hr hf
    | cons s' r =>
      simp only [follow] at hf ⊢
      cases e : enter IA a s with
      | none => rw [hn a b s hr e]
      | some x =>
        obtain ⟨j, g1⟩ := x
        rw [e] at hf
        obtain ⟨g2, h1, h2⟩ := h a b s j _ hr e
        rw [h1]
        by_cases hg : ∃ c, g1 = .conf c
        · obtain ⟨c, rfl⟩ := hg
          obtain ⟨b', rfl, h3⟩ := hM c g2 h2
          exact ih c b' h3 hf
        · cases g2 with
          | conf b' => exact dead _ b' (fun s => hd g1 b' s (fun c hc => hg ⟨c, hc⟩) h2)
          | _ => rfl

/-- What is preserved from configs to their entries holds for all configs that can be reached. -/
theorem follow_inv (hp : ∀ a s i b, P a → enter IA a s = some (i, .conf b) → P b) (a : A) (ha : P a) (steps : List Step) (i : Nat) (b : A) (hf : follow IA a steps = some (i, .conf b)) : P b := by
  induction steps generalizing a with
  | nil => simp [follow] at hf
  | cons s r ih =>
    cases r with
    | nil => exact hp a s i b ha hf
    | cons s' r =>
      simp only [follow] at hf
      cases e : enter IA a s with
      | none => rw [e] at hf; simp at hf
      | some x =>
        obtain ⟨j, g'⟩ := x
        rw [e] at hf
        cases g' with
        | conf c => exact ih c (hp a s j c ha e) hf
        | _ => simp at hf

/-- the entries of a well-formed config of the manual backend -/
theorem manual_enter_ok {n : Node} {s : Step} {i : Nat} {m : Node} (hn : Config.Ok (some n)) (h : enter manual n s = some (i, .conf m)) :
    Config.Ok (some m) ∧ ∃ e ∈ n.entries, e.2 = .conf m.kind m.entries := by
  have key : ∀ e : Str × Value, e ∈ n.entries → e.2.got = .conf m → Config.Ok (some m) ∧ ∃ e ∈ n.entries, e.2 = .conf m.kind m.entries := by
    intro e he hg
    obtain ⟨k, v⟩ := e
    cases v with
    | conf kd es =>
      simp only [Value.got, Got.conf.injEq] at hg
      subst hg
      have := hn.2 _ he
      simp only [Value.Ok, entriesOk_iff] at this
      exact ⟨this, _, he, rfl⟩
    | _ => simp [Value.got] at hg
  cases s with
  | name t =>
    simp only [enter, manual] at h
    cases hf : n.findKey t with
    | none => rw [hf] at h; simp at h
    | some p =>
      rw [hf] at h
      simp at h
      have hm : (t, p.2) ∈ n.entries := by
        have : ∀ j, keyAt n.entries t j = some p → (t, p.2) ∈ n.entries := fun j hj => List.mem_of_getElem? (keyAt_fst hj).2
        obtain ⟨kd, es⟩ := n
        cases kd <;> simp only [Node.findKey] at hf
        · exact this _ hf
        · exact this _ hf
        · exact this _ hf
        · simp at hf
      exact key _ hm h.2
  | index j =>
    simp only [enter, manual, Node.findIndex] at h
    cases hf : n.entries[j]? with
    | none => rw [hf] at h; simp at h
    | some p =>
      rw [hf] at h
      simp at h
      exact key _ (List.mem_of_getElem? hf) h.2

end Verif.Config
