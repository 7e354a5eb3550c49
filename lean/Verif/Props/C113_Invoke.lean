import Verif.Model.Invoke

/-!
# C113: a method called by pointer is called on the object that was meant

"Abstract call of a method by pointer for an object passed by value, reference, pointer or smart pointer" (invoke.h l.16-18): the method is called on
that object exactly if calling it directly would be allowed, and never on another one.

* `C113_called_partial`, `C113_only_partial`: proved except for methods with a reference qualifier on rvalues, and for pointer-like classes other than
  `std::unique_ptr` and `std::shared_ptr`.
* `C113_own`, `C113_both`, `C113_null`, `C113_weak`: methods of the pointer itself, null pointers, weak pointers.
* `C113_rvalue_violated`: methods for rvalues can never be called.
* `C113_temporary_violated`: methods for lvalues are called on temporaries.
* `C113_pointer_like_violated`: other pointer-like classes, such as `yato::not_null`, are refused.
-/
set_option autoImplicit false

namespace Verif.Invoke

/-! ## Specification -/

/-- Objects of class `c` have the method: it is a member of the class or of one of its bases. -/
def Has (derives : Nat → Nat → Bool) (c : Nat) (m : Method) : Prop := c = m.cls ∨ derives c m.cls = true

/-- `Means a i c k r`: the argument `a` passes the object `i` of class `c`, const if `k`; an rvalue if `r`. What a pointer points to is an lvalue. -/
inductive Means : Arg → Nat → Nat → Bool → Bool → Prop
  | object (o : Obj) (r : Bool) : Means ⟨.object o, r⟩ o.id o.cls o.isConst r
  | raw (i c : Nat) (k r : Bool) : Means ⟨.raw (some i) c k, r⟩ i c k false
  | smart (s : Smart) (self : Obj) (i c : Nat) (k r : Bool) (h : s ≠ .weak) : Means ⟨.smart s self (some i) c k, r⟩ i c k false

/-- C++ allows the call of the method on an object, const if `k` and an rvalue if `r`. -/
def Legal (m : Method) (k r : Bool) : Prop :=
  (k = true → m.isConst = true) ∧
  match m.ref with
  | .no => True
  | .lvalue => r = true → m.isConst = true
  | .rvalue => r = true

/-- The class of the pointer itself, if it is one, does not have the method. -/
def NotOfPointer (derives : Nat → Nat → Bool) (g : Given) (m : Method) : Prop :=
  match g with
  | .smart _ self _ _ _ => ¬ Has derives self.cls m
  | _ => True

/-- The first half of the property: every allowed call is made. -/
def Calls : Prop :=
  ∀ (derives : Nat → Nat → Bool) (a : Arg) (m : Method) (i c : Nat) (k r : Bool), NotOfPointer derives a.given m → Means a i c k r → Has derives c m →
    Legal m k r → invoke derives a m = .call i

/-- The second half: only allowed calls are made. -/
def Only : Prop :=
  ∀ (derives : Nat → Nat → Bool) (a : Arg) (m : Method) (i : Nat), NotOfPointer derives a.given m → invoke derives a m = .call i →
    ∃ c k r, Means a i c k r ∧ Has derives c m ∧ Legal m k r

/-! ## Proofs -/

theorem callable_iff (derives : Nat → Nat → Bool) (c : Nat) (k : Bool) (m : Method) :
    callable derives c k m = true ↔ Has derives c m ∧ (k = true → m.isConst = true) ∧ m.ref ≠ .rvalue := by
  unfold callable Has
  cases k <;> simp [and_assoc]

theorem not_callable (derives : Nat → Nat → Bool) (c : Nat) (k : Bool) (m : Method) (h : ¬ Has derives c m) : callable derives c k m = false := by
  cases hc : callable derives c k m
  · rfl
  · exact absurd ((callable_iff derives c k m).1 hc).1 h

/-- Every allowed call is made, on the object that was passed, if the method is not one for rvalues and pointer-like classes are
`std::unique_ptr` or `std::shared_ptr`. Missing: see `C113_rvalue_violated` and `C113_pointer_like_violated`. -/
theorem C113_called_partial (derives : Nat → Nat → Bool) (a : Arg) (m : Method) (i c : Nat) (k r : Bool) (hp : NotOfPointer derives a.given m)
    (hm : Means a i c k r) (hc : Has derives c m) (hl : Legal m k r) (href : m.ref ≠ .rvalue)
    (hs : ∀ self to c k, a.given ≠ .smart .other self to c k) : invoke derives a m = .call i := by
  have h : callable derives c k m = true := (callable_iff derives c k m).2 ⟨hc, hl.1, href⟩
  cases hm with
  | object o => simp [invoke, viable1, viable2, h, run2]
  | raw => simp [invoke, viable1, viable2, h, run1]
  | smart s self i c k r hw =>
    have hn := not_callable derives self.cls self.isConst m hp
    cases s with
    | unique => simp [invoke, viable1, viable2, h, hn, run1]
    | shared => simp [invoke, viable1, viable2, h, hn, run1]
    | weak => exact absurd rfl hw
    | other => exact absurd rfl (hs self (some i) c k)

/-- A const method of a base class by a `std::shared_ptr` to a const object of the derived class, given as an rvalue. -/
example : invoke (fun c b => c == 1 && b == 0) ⟨.smart .shared ⟨7, 9, false⟩ (some 5) 1 true, true⟩ ⟨0, true, .no⟩ = .call 5 := by decide

/-- Only allowed calls are made, on the object that was passed, except methods for lvalues on rvalues. Missing: those
(`C113_temporary_violated`). -/
theorem C113_only_partial (derives : Nat → Nat → Bool) (a : Arg) (m : Method) (i : Nat) (hp : NotOfPointer derives a.given m)
    (h : invoke derives a m = .call i) (ht : m.ref = .lvalue → m.isConst = false → a.rvalue = false) :
    ∃ c k r, Means a i c k r ∧ Has derives c m ∧ Legal m k r := by
  have legal : ∀ c k r, callable derives c k m = true → (r = true → a.rvalue = true) → Has derives c m ∧ Legal m k r := by
    intro c k r h1 hr
    obtain ⟨h2, h3, h4⟩ := (callable_iff derives c k m).1 h1
    refine ⟨h2, h3, ?_⟩
    cases hm : m.ref with
    | no => trivial
    | rvalue => exact absurd hm h4
    | lvalue =>
      intro hr'
      cases hk : m.isConst with
      | true => rfl
      | false => exact absurd (hr hr') (by rw [ht hm hk]; decide)
  obtain ⟨g, rv⟩ := a
  cases g with
  | object o =>
    cases hv : callable derives o.cls o.isConst m with
    | false => simp [invoke, viable1, viable2, hv] at h
    | true =>
      simp [invoke, viable1, viable2, hv, run2] at h
      subst h
      exact ⟨_, _, _, .object o rv, legal _ _ _ hv (fun h => h)⟩
  | raw to c k =>
    cases hv : callable derives c k m with
    | false => simp [invoke, viable1, viable2, hv] at h
    | true =>
      cases to with
      | none => simp [invoke, viable1, viable2, hv, run1] at h
      | some j =>
        simp [invoke, viable1, viable2, hv, run1] at h
        subst h
        exact ⟨_, _, _, .raw j c k rv, legal _ _ _ hv (by intro h; cases h)⟩
  | smart s self to c k =>
    have hn := not_callable derives self.cls self.isConst m hp
    have key : ∀ s, s ≠ .weak → viable1 derives ⟨.smart s self to c k, rv⟩ m = callable derives c k m →
        invoke derives ⟨.smart s self to c k, rv⟩ m = .call i →
        ∃ c' k' r, Means ⟨.smart s self to c k, rv⟩ i c' k' r ∧ Has derives c' m ∧ Legal m k' r := by
      intro s hs h1 h
      cases hv : callable derives c k m with
      | false => simp [invoke, viable2, h1, hv, hn] at h
      | true =>
        cases to with
        | none => simp [invoke, viable2, h1, hv, hn, run1] at h
        | some j =>
          simp [invoke, viable2, h1, hv, hn, run1] at h
          subst h
          exact ⟨_, _, _, .smart s self j c k rv hs, legal _ _ _ hv (by intro h; cases h)⟩
    cases s with
    | unique => exact key .unique (by decide) rfl h
    | shared => exact key .shared (by decide) rfl h
    | weak => simp [invoke, viable1, viable2, hn] at h
    | other => simp [invoke, viable1, viable2, hn] at h

example : invoke (fun _ _ => false) ⟨.object ⟨3, 0, false⟩, true⟩ ⟨0, false, .no⟩ = .call 3 ∧
    invoke (fun _ _ => false) ⟨.object ⟨3, 0, true⟩, false⟩ ⟨0, false, .no⟩ = .illFormed ∧
    invoke (fun _ _ => false) ⟨.raw (some 4) 0 true, false⟩ ⟨0, false, .no⟩ = .illFormed ∧
    invoke (fun _ _ => false) ⟨.object ⟨3, 1, false⟩, false⟩ ⟨0, false, .no⟩ = .illFormed := by decide

/-- A method of the pointer-like class itself, which the pointee does not have, is called on the pointer, if it is not for rvalues. -/
theorem C113_own (derives : Nat → Nat → Bool) (s : Smart) (self : Obj) (to : Option Nat) (c : Nat) (k r : Bool) (m : Method)
    (h : Has derives self.cls m) (hn : ¬ Has derives c m) (hk : self.isConst = true → m.isConst = true) (href : m.ref ≠ .rvalue) :
    invoke derives ⟨.smart s self to c k, r⟩ m = .call self.id := by
  have h1 := (callable_iff derives self.cls self.isConst m).2 ⟨h, hk, href⟩
  have h2 := not_callable derives c k m hn
  cases s <;> simp [invoke, viable1, viable2, h1, h2, run2]

/-- `use_count` of an empty `std::shared_ptr`. -/
example : invoke (fun _ _ => false) ⟨.smart .shared ⟨7, 9, false⟩ none 0 false, false⟩ ⟨9, true, .no⟩ = .call 7 := by decide

/-- If both the class of a smart pointer and the class of its pointee have a method that can be called on either, the constness of the pointer decides:
it is called on the pointee if the pointer is a const lvalue, and on the pointer itself otherwise. -/
theorem C113_both (derives : Nat → Nat → Bool) (s : Smart) (hs : s = .unique ∨ s = .shared) (self : Obj) (i c : Nat) (k r : Bool) (m : Method)
    (h : Has derives self.cls m) (h' : Has derives c m) (hk : self.isConst = true → m.isConst = true) (hk' : k = true → m.isConst = true)
    (href : m.ref ≠ .rvalue) : invoke derives ⟨.smart s self (some i) c k, r⟩ m = .call (if r = false ∧ self.isConst = true then i else self.id) := by
  have h1 := (callable_iff derives self.cls self.isConst m).2 ⟨h, hk, href⟩
  have h2 := (callable_iff derives c k m).2 ⟨h', hk', href⟩
  rcases hs with rfl | rfl <;> cases r <;> cases hc : self.isConst <;> rw [hc] at h1 <;>
    simp [invoke, viable1, viable2, selfConst, h1, h2, hc, run1, run2]

example : Has (fun _ b => b == 5) 9 ⟨5, true, .no⟩ ∧ Has (fun _ b => b == 5) 0 ⟨5, true, .no⟩ := ⟨.inr rfl, .inr rfl⟩

/-- The behaviour is undefined only if a pointer is null. Of a null pointer it is, for every method that could be called on the pointee. -/
theorem C113_null (derives : Nat → Nat → Bool) (a : Arg) (m : Method) (hp : NotOfPointer derives a.given m) :
    invoke derives a m = .ub ↔ ∃ c k, Has derives c m ∧ (k = true → m.isConst = true) ∧ m.ref ≠ .rvalue ∧
      (a.given = .raw none c k ∨ ∃ s self, (s = .unique ∨ s = .shared) ∧ a.given = .smart s self none c k) := by
  constructor
  · intro h
    obtain ⟨g, rv⟩ := a
    cases g with
    | object o => cases hv : callable derives o.cls o.isConst m <;> simp [invoke, viable1, viable2, hv, run2] at h
    | raw to c k =>
      cases hv : callable derives c k m with
      | false => simp [invoke, viable1, viable2, hv] at h
      | true =>
        obtain ⟨h1, h2, h3⟩ := (callable_iff derives c k m).1 hv
        cases to with
        | none => exact ⟨c, k, h1, h2, h3, .inl rfl⟩
        | some j => simp [invoke, viable1, viable2, hv, run1] at h
    | smart s self to c k =>
      have hn := not_callable derives self.cls self.isConst m hp
      cases hv : callable derives c k m with
      | false => cases s <;> simp [invoke, viable1, viable2, hv, hn] at h
      | true =>
        obtain ⟨h1, h2, h3⟩ := (callable_iff derives c k m).1 hv
        cases to with
        | some j => cases s <;> simp [invoke, viable1, viable2, hv, hn, run1] at h
        | none =>
          cases s with
          | unique => exact ⟨c, k, h1, h2, h3, .inr ⟨_, self, .inl rfl, rfl⟩⟩
          | shared => exact ⟨c, k, h1, h2, h3, .inr ⟨_, self, .inr rfl, rfl⟩⟩
          | weak => simp [invoke, viable1, viable2, hn] at h
          | other => simp [invoke, viable1, viable2, hn] at h
  · rintro ⟨c, k, h1, h2, h3, h⟩
    have hv := (callable_iff derives c k m).2 ⟨h1, h2, h3⟩
    obtain ⟨g, rv⟩ := a
    rcases h with h | ⟨s, self, hs, h⟩
    · dsimp only at h; subst h; simp [invoke, viable1, viable2, hv, run1]
    · dsimp only at h; subst h
      have hn := not_callable derives self.cls self.isConst m hp
      rcases hs with rfl | rfl <;> simp [invoke, viable1, viable2, hv, hn, run1]

example : invoke (fun _ _ => false) ⟨.smart .unique ⟨7, 9, false⟩ none 0 false, false⟩ ⟨0, true, .no⟩ = .ub := by decide

/-- What a `std::weak_ptr` refers to is never reached. -/
theorem C113_weak (derives : Nat → Nat → Bool) (self : Obj) (to : Option Nat) (c : Nat) (k r : Bool) (m : Method) (h : ¬ Has derives self.cls m) :
    invoke derives ⟨.smart .weak self to c k, r⟩ m = .illFormed := by
  simp [invoke, viable1, viable2, not_callable derives self.cls self.isConst m h]

example : ¬ Has (fun _ _ => false) 9 ⟨0, true, .no⟩ := by simp [Has]

/-- A method for rvalues cannot be called by any argument. -/
theorem C113_rvalue_never (derives : Nat → Nat → Bool) (a : Arg) (m : Method) (h : m.ref = .rvalue) : invoke derives a m = .illFormed := by
  have hc : ∀ c k, callable derives c k m = false := by intro c k; simp [callable, h]
  obtain ⟨g, rv⟩ := a
  cases g with
  | object o => simp [invoke, viable1, viable2, hc]
  | raw to c k => simp [invoke, viable1, viable2, hc]
  | smart s self to c k => cases s <;> simp [invoke, viable1, viable2, hc]

example : (⟨0, false, .rvalue⟩ : Method).ref = .rvalue := rfl

/-- `yato::invoke(Foo(), &Foo::bar)` with `void bar() &&` is allowed directly, and does not compile. -/
theorem C113_rvalue_violated : ¬ Calls := by
  intro H
  have h := H (fun _ _ => false) ⟨.object ⟨3, 0, false⟩, true⟩ ⟨0, false, .rvalue⟩ 3 0 false true trivial (.object ⟨3, 0, false⟩ true) (.inl rfl)
    ⟨(by intro h; cases h), rfl⟩
  rw [C113_rvalue_never _ _ _ rfl] at h
  cases h

/-- An object by another pointer-like class, such as `yato::not_null`, is not reached: neither is `obj` a pointer nor has it the method. This holds of
each method, so that it is no matter of reference qualifiers. -/
theorem C113_pointer_like_violated : ¬ (∀ (derives : Nat → Nat → Bool) (a : Arg) (m : Method) (i c : Nat) (k r : Bool), NotOfPointer derives a.given m →
    Means a i c k r → Has derives c m → Legal m k r → m.ref = .no → invoke derives a m = .call i) := by
  intro H
  have h := H (fun _ _ => false) ⟨.smart .other ⟨7, 9, false⟩ (some 5) 0 false, false⟩ ⟨0, true, .no⟩ 5 0 false false (by simp [NotOfPointer, Has])
    (.smart .other ⟨7, 9, false⟩ 5 0 false false (by decide)) (.inl rfl) ⟨fun _ => rfl, trivial⟩ rfl
  revert h
  decide

/-- `yato::invoke(Foo(), &Foo::bar)` with `void bar() &`, which changes the object in place and cannot be called on a temporary, compiles. -/
theorem C113_temporary_violated : ¬ Only := by
  intro H
  obtain ⟨c, k, r, hm, _, hl⟩ := H (fun _ _ => false) ⟨.object ⟨3, 0, false⟩, true⟩ ⟨0, false, .lvalue⟩ 3 trivial (by decide)
  cases hm
  have := hl.2 rfl
  cases this

end Verif.Invoke
