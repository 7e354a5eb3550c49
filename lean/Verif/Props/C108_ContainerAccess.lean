import Verif.Model.ContainerAccess
/-!
# C108: elements are reached through the generic interface

`container_ops` reaches the elements of any container: by its operator `[]` and its methods if there are any, otherwise by its iterators.
-/
set_option autoImplicit false

namespace Verif.ContAccess

/-! ## Specification -/

/-- `o` is the element of a container of `n` elements at index `i`, with the given right; an index that has no element is undefined
behaviour. -/
inductive IsElement (n : Nat) (i : Int) (r : Right) : Out → Prop where
  | inside (k : Nat) (hi : i = k) (hk : k < n) : IsElement n i r (.place k r)
  | outside (h : i < 0 ∨ (n : Int) ≤ i) : IsElement n i r .ub

/-- The types of a container fit: its iterators lead to what its types `reference` and `const_reference` stand for, an operator or method
for `const` containers can be called for others too, C arrays have no methods, and a `const_value_pointer` through which can be written is
one that the container has itself, and what its method `cdata()` gives. The language and the requirements for containers ensure this. -/
structure Fits (c : Cont) : Prop where
  iter : c.iter.converts c.ref = true
  citer : c.citer.converts c.cref = true
  sub : c.csub ≠ none → c.sub ≠ none
  data : c.dataC ≠ none → c.data ≠ none
  array : c.array = true → c.data = none ∧ c.dataC = none ∧ c.cdata = none
  cptr : c.cptr = .write → c.cdata = some .write

/-! ## Lemmas -/

theorem element_is (n : Nat) (i : Int) (r : Right) : IsElement n i r (element n i r) := by
  unfold element
  split
  · next h => exact .inside i.toNat (by omega) (by omega)
  · next h => exact .outside (by omega)

theorem element_as (n : Nat) (i : Int) {r r' : Right} (h : r.converts r' = true) : IsElement n i r' ((element n i r).as r') := by
  unfold element
  split
  · next hi => simp only [Out.as, h, if_true]; exact .inside i.toNat (by omega) (by omega)
  · next hi => exact .outside (by omega)

/-! ## Theorems -/

/-- `subscript` reaches the element at any index of any container, as its type `reference`, whether there is an operator `[]`, one that
gives less than a `reference`, or none. -/
theorem C108_subscript (c : Cont) (h : Fits c) (i : Int) : IsElement c.size i c.ref (c.opSub i) := by
  unfold Cont.opSub Cont.hasSub
  cases hs : c.sub with
  | none => simp only [h.iter, if_true, Bool.false_eq_true, if_false]; exact element_as _ _ h.iter
  | some r =>
    simp only [h.iter, if_true, Cont.at']
    split
    · next hr => exact element_as _ _ hr
    · exact element_as _ _ h.iter

/-- `csubscript` does so as `const_reference`. -/
theorem C108_csubscript (c : Cont) (h : Fits c) (i : Int) : IsElement c.size i c.cref (c.opCsub i) := by
  unfold Cont.opCsub Cont.hasCsub
  cases hs : c.csub with
  | none => simp only [h.citer, if_true, Bool.false_eq_true, if_false]; exact element_as _ _ h.citer
  | some r =>
    simp only [h.citer, if_true, Cont.at']
    split
    · next hr => exact element_as _ _ hr
    · exact element_as _ _ h.citer

/-- `subscript` of a `const` container reaches the element **if the operator `[]` can be used with `const` containers, or cannot be used as
a `reference` at all**; otherwise it does not compile. Full property: it always does, as its iterators could be used
(`C108_const_violated`). -/
theorem C108_const_partial (c : Cont) (i : Int) :
    (c.csub.isSome = true ∨ c.hasSub = false → ∃ r, IsElement c.size i r (c.opSubConst i) ∧ (r = c.citer ∨ c.csub = some r)) ∧
    (c.csub = none → (∃ r, c.sub = some r ∧ r.converts c.ref = true) → c.opSubConst i = .refused) := by
  constructor
  · intro h
    unfold Cont.opSubConst
    split
    · next hs =>
      rcases h with h | h
      · obtain ⟨r, hr⟩ := Option.isSome_iff_exists.1 h
        exact ⟨r, by rw [hr]; exact element_is _ _ _, .inr hr⟩
      · rw [hs] at h; cases h
    · exact ⟨_, element_is _ _ _, .inl rfl⟩
  · rintro hc ⟨r, hr, hv⟩
    have : c.hasSub = true := by unfold Cont.hasSub; rw [hr]; exact hv
    unfold Cont.opSubConst
    rw [this, hc]; rfl

/-- Nothing can be written through what is got from a `const` container, unless its operator `[]`, its iterators or its `const_reference`
allow it (as views do). -/
theorem C108_const_no_write (c : Cont) (h : Fits c) (hs : c.csub ≠ some .write) (hi : c.citer = .read) (hr : c.cref = .read) (i : Int) (k : Nat) (r : Right) :
    (c.opSubConst i = .place k r → r = .read) ∧ (c.opCsub i = .place k r → r = .read) := by
  constructor
  · intro he
    unfold Cont.opSubConst at he
    split at he
    · cases hc : c.csub with
      | none => rw [hc] at he; cases he
      | some q =>
        rw [hc] at he
        simp only [Cont.at', element] at he
        split at he
        · injection he with _ hq
          cases q
          · exact hq.symm
          · exact absurd hc hs
        · cases he
    · simp only [element, hi] at he
      split at he
      · injection he with _ hq; exact hq.symm
      · cases he
  · intro he
    have := C108_csubscript c h i
    rw [he, hr] at this
    cases this; rfl

/-- `data` compiles exactly if there is a method `data()` or the container is a C array, and gives a pointer to the first element: that of
the method, for C arrays with the right of the elements. -/
theorem C108_data (c : Cont) (h : Fits c) :
    (∀ r, c.opData = .place 0 r ↔ c.data = some r ∨ c.array = true ∧ r = c.value) ∧
    (c.opData = .refused ↔ c.data = none ∧ c.array = false) := by
  unfold Cont.opData Cont.hasData Cont.stdData
  cases hd : c.data with
  | none =>
    cases ha : c.array <;> simp [Cont.pointer, eq_comm]
  | some r =>
    cases ha : c.array with
    | true => have := (h.array ha).1; rw [hd] at this; cases this
    | false => simp [Cont.pointer]

/-- `data` of a `const` container compiles exactly if there is a method `data()` for `const` containers or it is a C array. -/
theorem C108_data_const (c : Cont) (h : Fits c) :
    (∀ r, c.opDataConst = .place 0 r ↔ c.dataC = some r ∨ c.array = true ∧ r = .read) ∧
    (c.opDataConst = .refused ↔ c.dataC = none ∧ c.array = false) := by
  unfold Cont.opDataConst Cont.stdData
  cases ha : c.array with
  | true =>
    obtain ⟨h1, h2, _⟩ := h.array ha
    have : c.hasData = false := by unfold Cont.hasData; rw [h1]
    simp [this, h2, eq_comm]
  | false => cases hd : c.dataC <;> simp [Cont.pointer]

/-- `cdata` compiles exactly if there is a method `cdata()`, or a method `data()` for `const` containers, or the container is a C array; it
gives a pointer to the first element, of type `const_value_pointer`, that **if the container has no such type or it is a pointer to `const`**
cannot be written through. Full property: it never can (`C108_cdata_violated`). -/
theorem C108_cdata_partial (c : Cont) (h : Fits c) :
    (c.opCdata = .place 0 c.cptr ↔ c.cdata ≠ none ∨ c.dataC ≠ none ∨ c.array = true) ∧
    (c.opCdata = .refused ↔ c.cdata = none ∧ c.dataC = none ∧ c.array = false) ∧
    (c.cptr = .read → ∀ k r, c.opCdata = .place k r → r = .read) := by
  have hr : ∀ r : Right, r.converts .read = true := fun r => by cases r <;> rfl
  have hlast : c.cptr = .read → ∀ k r, c.opCdata = .place k r → r = .read := by
    intro hp k r he
    unfold Cont.opCdata at he
    rw [hp] at he
    generalize (if c.hasCdata = true then _ else _ : Out) = o at he
    cases o with
    | refused => cases he
    | ub => cases he
    | place i q =>
      simp only [Out.as, hr, if_true] at he
      injection he with _ h2; exact h2.symm
  rw [← and_assoc]
  refine ⟨?_, hlast⟩
  unfold Cont.opCdata Cont.stdData Cont.hasCdata
  cases hc : c.cdata with
  | some q =>
    have : q.converts c.cptr = true := by
      cases hp : c.cptr with
      | read => exact hr q
      | write => have := h.cptr hp; rw [hc] at this; injection this with e; rw [e]; rfl
    simp [hr, Cont.pointer, Out.as, this]
  | none =>
    have hp : c.cptr = .read := by
      cases hp : c.cptr with
      | read => rfl
      | write => have := h.cptr hp; rw [hc] at this; cases this
    cases ha : c.array with
    | true =>
      obtain ⟨h1, h2, _⟩ := h.array ha
      have : c.hasData = false := by unfold Cont.hasData; rw [h1]
      simp [this, hp, Out.as, Right.converts]
    | false =>
      cases hd : c.dataC with
      | none => simp [Cont.pointer, Out.as]
      | some r => cases r <;> simp [Cont.pointer, hp, Out.as, Right.converts]

/-- In particular `cdata` works whenever `data` does for `const` containers, and leads to the same place. -/
theorem C108_cdata_of_data (c : Cont) (h : Fits c) (r : Right) (hd : c.opDataConst = .place 0 r) : c.opCdata = .place 0 c.cptr := by
  refine (C108_cdata_partial c h).1.2 ?_
  rcases ((C108_data_const c h).1 r).1 hd with h | ⟨h, _⟩
  · exact .inr (.inl (by rw [h]; exact fun e => nomatch e))
  · exact .inr (.inr h)

/-! ## Examples -/

theorem fits_cArray (n : Nat) : Fits (cArray n) := ⟨rfl, rfl, fun _ => nofun, fun h => absurd rfl h, fun _ => ⟨rfl, rfl, rfl⟩, nofun⟩

theorem fits_stdVector (n : Nat) : Fits (stdVector n) := ⟨rfl, rfl, fun _ => nofun, fun _ => nofun, nofun, nofun⟩

/-- A list without operators and methods. -/
def listLike (n : Nat) : Cont := ⟨n, false, .write, .read, .write, .write, .read, none, none, none, none, none, .read⟩

/-- A container whose operator `[]` is not for `const` containers, as that of `std::map`. -/
def mapLike (n : Nat) : Cont := ⟨n, false, .write, .read, .write, .write, .read, some .write, none, none, none, none, .read⟩

/-- A container whose operator `[]` is only for reading, but whose iterators can write. -/
def readSub (n : Nat) : Cont := ⟨n, false, .write, .read, .write, .write, .read, some .read, some .read, some .read, some .read, some .read, .read⟩

example : Fits (listLike 3) ∧ (listLike 3).opSub 2 = .place 2 .write ∧ (listLike 3).opSub 3 = .ub ∧ (listLike 3).opSubConst 1 = .place 1 .read ∧
    (listLike 3).opData = .refused ∧ (listLike 3).opCdata = .refused :=
  ⟨⟨rfl, rfl, fun h => absurd rfl h, fun h => absurd rfl h, nofun, nofun⟩, by decide, by decide, by decide, by decide, by decide⟩

example : Fits (readSub 3) ∧ (readSub 3).opSub 2 = .place 2 .write ∧ (readSub 3).opCsub 2 = .place 2 .read ∧ (readSub 3).opData = .place 0 .read ∧
    (readSub 3).opCdata = .place 0 .read :=
  ⟨⟨rfl, rfl, fun _ => nofun, fun _ => nofun, nofun, nofun⟩, by decide, by decide, by decide, by decide⟩

example : (cArray 3).opData = .place 0 .write ∧ (cArray 3).opDataConst = .place 0 .read ∧ (cArray 3).opSub (-1) = .ub ∧
    (stdVector 3).opSubConst 2 = .place 2 .read ∧ (stdVector 3).opData = .place 0 .write := by decide

/-! ## What is false -/

/-- **The full property is false**: for a container whose operator `[]` is not for `const` containers, `subscript` of a `const` container
does not compile at any index, although its iterators reach the elements, and `csubscript` does. The flag that is asked is that of
containers that are not `const` (container_nd.h l.627, 633). -/
theorem C108_const_violated : ∃ c, Fits c ∧ c.size = 3 ∧ (∀ i, c.opSubConst i = .refused) ∧ c.opCsub 1 = .place 1 .read ∧ c.opSub 1 = .place 1 .write :=
  ⟨mapLike 3, ⟨rfl, rfl, fun h => absurd rfl h, fun h => absurd rfl h, nofun, nofun⟩, rfl, fun _ => rfl, by decide, by decide⟩

theorem fits_arrayView (n : Nat) : Fits (arrayView n) := ⟨rfl, rfl, fun _ => nofun, fun _ => nofun, nofun, fun _ => rfl⟩

/-- **Nor is it true that the pointer from `cdata` cannot be written through**: that of an `array_view` can, as its `const_value_pointer` is a
constant pointer to elements that are not `const` (array_view.h l.370, and array_proxy.h l.74, 447). -/
theorem C108_cdata_violated (n : Nat) : Fits (arrayView n) ∧ (arrayView n).opCdata = .place 0 .write := ⟨fits_arrayView n, rfl⟩

/-- The other way round: if the operator `[]` gives less than a `reference` to containers that are not `const`, the one for `const`
containers is passed over, and the iterators are used. -/
theorem C108_passed_over : ∃ c, Fits c ∧ c.csub = some .read ∧ ∀ i, c.opSubConst i = element c.size i c.citer :=
  ⟨readSub 3, ⟨rfl, rfl, fun _ => nofun, fun _ => nofun, nofun, nofun⟩, rfl, fun _ => rfl⟩

end Verif.ContAccess
