import Verif.Model.TypeTraits
/-!
C80: `narrowest_fit_unsigned/signed` name the smallest of the 8, 16, 32 and 64 bit types that holds the value;
`take_cv_from`, `remove_cvref` and friends change qualifiers as documented and nothing else; the pack predicates are what they
say; `callable_trait` tells the result and argument types of every callable with one signature.
-/
set_option autoImplicit false

namespace Verif.TypeTraits

/-! ## Narrowest type -/

/-- The values of an integer type. -/
def holds : Num → Int → Prop
  | .int b, v => -(2 : Int) ^ (b - 1) ≤ v ∧ v < (2 : Int) ^ (b - 1)
  | .uint b, v => 0 ≤ v ∧ v < (2 : Int) ^ b
  | _, _ => False

instance (t : Num) (v : Int) : Decidable (holds t v) := by
  cases t <;> unfold holds <;> infer_instance

def widths : List Nat := [8, 16, 32, 64]

theorem fit_unsigned (v : Int) (h0 : 0 ≤ v) (h1 : v < 2 ^ 64) : narrowestFitUnsigned v =
    some (if v < 2 ^ 8 then .uint 8 else if v < 2 ^ 16 then .uint 16 else if v < 2 ^ 32 then .uint 32 else .uint 64) := by
  have e : ∀ b ∈ widths, fitsType (.uint b) false v = some (decide (v < 2 ^ b)) := by
    intro b hb
    have hb' : b = 8 ∨ b = 16 ∨ b = 32 ∨ b = 64 := by simpa [widths] using hb
    rcases hb' with rfl | rfl | rfl | rfl <;> simp [fitsType, limits, cast64] <;> rw [Bool.eq_iff_iff] <;> simp <;> omega
  have e8 := e 8 (by decide)
  have e16 := e 16 (by decide)
  have e32 := e 32 (by decide)
  have e64 := e 64 (by decide)
  unfold narrowestFitUnsigned
  rw [narrowestFit, narrowestFit, narrowestFit, narrowestFit, narrowestFit]
  simp only [makeType, e8, e16, e32, e64]
  simp [e8, e16, e32, e64]
  repeat' split
  all_goals first | rfl | omega

theorem fit_signed (v : Int) (h0 : -(2 ^ 63) ≤ v) (h1 : v < 2 ^ 63) : narrowestFitSigned v =
    some (if -(2 ^ 7) ≤ v ∧ v < 2 ^ 7 then .int 8 else if -(2 ^ 15) ≤ v ∧ v < 2 ^ 15 then .int 16
      else if -(2 ^ 31) ≤ v ∧ v < 2 ^ 31 then .int 32 else .int 64) := by
  have e : ∀ b ∈ widths, fitsType (.int b) true v = some (decide (-(2 ^ (b - 1)) ≤ v ∧ v < 2 ^ (b - 1))) := by
    intro b hb
    have hb' : b = 8 ∨ b = 16 ∨ b = 32 ∨ b = 64 := by simpa [widths] using hb
    rcases hb' with rfl | rfl | rfl | rfl <;> simp [fitsType, limits, cast64] <;> rw [Bool.eq_iff_iff] <;> simp <;> omega
  have e8 := e 8 (by decide)
  have e16 := e 16 (by decide)
  have e32 := e 32 (by decide)
  have e64 := e 64 (by decide)
  unfold narrowestFitSigned
  rw [narrowestFit, narrowestFit, narrowestFit, narrowestFit, narrowestFit]
  simp only [makeType, e8, e16, e32, e64]
  simp [e8, e16, e32, e64]
  repeat' split
  all_goals first | rfl | omega

/-- For every 64 bit unsigned value the type named holds it, and no narrower one does. -/
theorem C80_narrowest_unsigned (v : Int) (h0 : 0 ≤ v) (h1 : v < 2 ^ 64) :
    ∃ b ∈ widths, narrowestFitUnsigned v = some (.uint b) ∧ holds (.uint b) v ∧
      ∀ b' ∈ widths, b' < b → ¬ holds (.uint b') v := by
  rw [fit_unsigned v h0 h1]
  repeat' split
  · exact ⟨8, by decide, rfl, ⟨h0, by assumption⟩, by simp [widths, holds] <;> omega⟩
  · exact ⟨16, by decide, rfl, ⟨h0, by assumption⟩, by simp [widths, holds] <;> omega⟩
  · exact ⟨32, by decide, rfl, ⟨h0, by assumption⟩, by simp [widths, holds] <;> omega⟩
  · exact ⟨64, by decide, rfl, ⟨h0, h1⟩, by simp [widths, holds] <;> omega⟩

/-- For every 64 bit signed value the type named holds it, and no narrower one does. -/
theorem C80_narrowest_signed (v : Int) (h0 : -(2 ^ 63) ≤ v) (h1 : v < 2 ^ 63) :
    ∃ b ∈ widths, narrowestFitSigned v = some (.int b) ∧ holds (.int b) v ∧
      ∀ b' ∈ widths, b' < b → ¬ holds (.int b') v := by
  rw [fit_signed v h0 h1]
  repeat' split
  · exact ⟨8, by decide, rfl, by assumption, by simp [widths, holds] <;> omega⟩
  · exact ⟨16, by decide, rfl, by assumption, by simp [widths, holds] <;> omega⟩
  · exact ⟨32, by decide, rfl, by assumption, by simp [widths, holds] <;> omega⟩
  · exact ⟨64, by decide, rfl, ⟨h0, h1⟩, by simp [widths, holds] <;> omega⟩

/-- A wider type holds every value of the narrower one, with the same signedness; it is strictly wider below 64 bits. -/
theorem C80_wider {t u : Num} (h : widerType t = some u) (v : Int) (hv : holds t v) :
    holds u v ∧ ((∃ b b', t = .int b ∧ u = .int b') ∨ (∃ b b', t = .uint b ∧ u = .uint b')) ∧
      (t ≠ .int 64 → t ≠ .uint 64 → ∃ w, holds u w ∧ ¬ holds t w) := by
  unfold widerType at h
  split at h <;> cases h <;> first | (exact hv.elim) | (refine ⟨?_, ?_, ?_⟩)
  all_goals first
    | (exact .inr ⟨_, _, rfl, rfl⟩)
    | (exact .inl ⟨_, _, rfl, rfl⟩)
    | (intro h1 h2; exact (h1 rfl).elim)
    | (intro h1 h2; exact (h2 rfl).elim)
    | (intro _ _; exact ⟨2 ^ 8, by decide⟩)
    | (intro _ _; exact ⟨2 ^ 16, by decide⟩)
    | (intro _ _; exact ⟨2 ^ 32, by decide⟩)
    | (intro _ _; exact ⟨2 ^ 7, by decide⟩)
    | (intro _ _; exact ⟨2 ^ 15, by decide⟩)
    | (intro _ _; exact ⟨2 ^ 31, by decide⟩)
    | (simp only [holds] at hv ⊢; omega)

/-! ## Qualifiers -/

/-- Types which can be qualified: everything but references and functions (and arrays of these). -/
def Ty.qualifiable : Ty → Bool
  | .obj _ _ _ => true
  | .ptr _ _ _ => true
  | .arr _ e => e.qualifiable
  | _ => false

def Ty.isRef : Ty → Bool
  | .lref _ => true
  | .rref _ => true
  | _ => false

theorem addConst_facts (t : Ty) : (t.addConst.isConst = t.qualifiable) ∧ t.addConst.isVolatile = t.isVolatile ∧
    t.addConst.removeCv = t.removeCv ∧ t.addConst.qualifiable = t.qualifiable ∧
    (t.qualifiable = false → t.addConst = t) := by
  induction t <;> simp_all [Ty.addConst, Ty.isConst, Ty.isVolatile, Ty.removeCv, Ty.qualifiable]

theorem addVolatile_facts (t : Ty) : (t.addVolatile.isVolatile = t.qualifiable) ∧ t.addVolatile.isConst = t.isConst ∧
    t.addVolatile.removeCv = t.removeCv ∧ t.addVolatile.qualifiable = t.qualifiable ∧
    (t.qualifiable = false → t.addVolatile = t) := by
  induction t <;> simp_all [Ty.addVolatile, Ty.isConst, Ty.isVolatile, Ty.removeCv, Ty.qualifiable]

/-- A type is determined by its qualifiers and the type without them. -/
theorem ty_ext {a b : Ty} (hq : a.removeCv = b.removeCv) (hc : a.isConst = b.isConst) (hv : a.isVolatile = b.isVolatile) :
    a = b := by
  induction a generalizing b with
  | arr k e ih =>
    cases b with
    | arr k' e' =>
      simp only [Ty.removeCv, Ty.arr.injEq] at hq
      rw [hq.1, ih hq.2 hc hv]
    | _ => simp [Ty.removeCv] at hq
  | _ => cases b <;> simp_all [Ty.removeCv, Ty.isConst, Ty.isVolatile]

/-- `take_cv_from<A, B>` is `B` with the qualifiers of `A` added, wherever `B` can carry them, and otherwise `B`: these
three facts determine the result. -/
theorem C80_take_cv (a b : Ty) :
    (takeCvFrom a b).removeCv = b.removeCv ∧
    (b.qualifiable = true → (takeCvFrom a b).isConst = (a.isConst || b.isConst) ∧
      (takeCvFrom a b).isVolatile = (a.isVolatile || b.isVolatile)) ∧
    (b.qualifiable = false → takeCvFrom a b = b) := by
  have c := addConst_facts
  have v := addVolatile_facts
  unfold takeCvFrom takeConstFrom takeVolatileFrom
  cases hc : a.isConst <;> cases hv : a.isVolatile <;> simp <;>
    refine ⟨?_, ?_⟩ <;> simp_all

/-- `remove_cvref` gives a type without reference and qualifiers, and forgets nothing else: it gives the same for `T`, `T&`,
`T&&` and every qualified `T`, and is idempotent up to nested references, which do not exist. -/
theorem C80_remove_cvref (t : Ty) (hr : t.removeReference.isRef = false) :
    (removeCvref t).isConst = false ∧ (removeCvref t).isVolatile = false ∧ (removeCvref t).isRef = false ∧
    removeCvref (removeCvref t) = removeCvref t := by
  have key : ∀ u : Ty, u.isRef = false → u.removeCv.isConst = false ∧ u.removeCv.isVolatile = false ∧ u.removeCv.isRef = false ∧
      u.removeCv.removeReference = u.removeCv ∧ u.removeCv.removeCv = u.removeCv := by
    intro u hu
    have cv : ∀ w : Ty, w.removeCv.isConst = false ∧ w.removeCv.isVolatile = false ∧ w.removeCv.removeCv = w.removeCv := by
      intro w
      induction w <;> simp_all [Ty.removeCv, Ty.isConst, Ty.isVolatile]
    refine ⟨(cv u).1, (cv u).2.1, ?_, ?_, (cv u).2.2⟩
    · cases u <;> simp_all [Ty.removeCv, Ty.isRef]
    · cases u <;> simp_all [Ty.removeCv, Ty.isRef, Ty.removeReference]
  have h := key t.removeReference hr
  refine ⟨h.1, h.2.1, h.2.2.1, ?_⟩
  unfold removeCvref
  rw [h.2.2.2.1, h.2.2.2.2]

theorem C80_remove_cvref_same (t : Ty) (ht : t.isRef = false) (a : Ty) :
    removeCvref (.lref (takeCvFrom a t)) = t.removeCv ∧ removeCvref (.rref (takeCvFrom a t)) = t.removeCv ∧
      removeCvref (takeCvFrom a t) = t.removeCv := by
  have h := (C80_take_cv a t).1
  refine ⟨h, h, ?_⟩
  have hr : (takeCvFrom a t).removeReference = takeCvFrom a t := by
    unfold takeCvFrom takeConstFrom takeVolatileFrom
    cases t <;> simp [Ty.isRef] at ht <;> split <;> split <;> rfl
  unfold removeCvref
  rw [hr, h]

/-- `add_lvalue_reference_to_const` gives `const T&`, for every type which is no reference. -/
theorem C80_lref_to_const_partial (t : Ty) (ht : t.isRef = false) :
    ∃ u, addLvalueReferenceToConst t = .lref u ∧ u.removeCv = t.removeCv ∧ (t.qualifiable = true → u.isConst = true) := by
  have h := addConst_facts t
  refine ⟨t.addConst, ?_, h.2.2.1, fun hq => h.1.trans hq⟩
  unfold addLvalueReferenceToConst
  cases t <;> simp [Ty.isRef] at ht <;> rfl

/-- For a reference type it does not: `add_lvalue_reference_to_const_t<int&>` is `int&`. -/
theorem C80_lref_to_const_violated : ∃ t u, addLvalueReferenceToConst t = .lref u ∧ u.qualifiable = true ∧ u.isConst = false :=
  ⟨.lref (.obj false false 0), .obj false false 0, rfl, rfl, rfl⟩

/-! ## Packs -/

theorem C80_is_same {T : Type} [DecidableEq T] (a b : T) (rest : List T) :
    isSame a b rest = true ↔ ∀ x ∈ b :: rest, x = a := by
  induction rest generalizing a b with
  | nil => simp [isSame, eq_comm]
  | cons c rest ih =>
    simp only [isSame, Bool.and_eq_true, decide_eq_true_eq]
    rw [ih]
    constructor
    · rintro ⟨rfl, h⟩
      intro x hx
      rcases List.mem_cons.1 hx with h1 | h1
      · exact h1
      · exact h x h1
    · intro h
      have hb : b = a := h b (List.mem_cons_self ..)
      subst hb
      exact ⟨rfl, fun x hx => h x (List.mem_cons_of_mem _ hx)⟩

theorem C80_one_of {T : Type} [DecidableEq T] (t a : T) (rest : List T) : oneOf t a rest = true ↔ t ∈ a :: rest := by
  induction rest generalizing a with
  | nil => simp [oneOf]
  | cons b rest ih =>
    simp only [oneOf, Bool.or_eq_true, decide_eq_true_eq]
    rw [ih]
    simp

theorem C80_has_trait {T : Type} (p : T → Bool) (a : T) (rest : List T) :
    hasTrait p a rest = true ↔ ∀ x ∈ a :: rest, p x = true := by
  induction rest generalizing a with
  | nil => simp [hasTrait]
  | cons b rest ih =>
    simp only [hasTrait, Bool.and_eq_true]
    rw [ih]
    simp

/-! ## Callables -/

/-- The signature a user sees: that of a function, a pointer to a (member) function, or the only `operator()` of a class. -/
def signature : Callee → Option Sig
  | .fnPtr _ _ s => some s
  | .memPtr _ _ m => some m.sig
  | .func s => some s
  | .cls _ _ [.plain m] => some m.sig
  | _ => none

/-- Callables the traits were written for: pointers which are not `const` themselves; no reference qualifier, C variadic
arguments, or `noexcept` of C++17. -/
def Plain (cxx17 : Bool) : Callee → Prop
  | .fnPtr c v s => c = false ∧ v = false ∧ s.variadic = false ∧ (cxx17 = true → s.isNoexcept = false)
  | .memPtr c v m => c = false ∧ v = false ∧ m.ref = .none ∧ m.sig.variadic = false ∧ (cxx17 = true → m.sig.isNoexcept = false)
  | .func _ => False
  | .cls _ _ [.plain m] => m.ref = .none ∧ m.sig.variadic = false ∧ (cxx17 = true → m.sig.isNoexcept = false)
  | _ => True

theorem matchesPlain_of {cxx17 : Bool} {s : Sig} (hv : s.variadic = false) (hn : cxx17 = true → s.isNoexcept = false) :
    s.matchesPlain cxx17 = true := by
  cases cxx17 <;> simp_all [Sig.matchesPlain]

theorem trait_plain {cxx17 : Bool} {t : Callee} (hp : Plain cxx17 t) :
    (isCallable cxx17 t = (signature t).isSome) ∧
    (callableTrait cxx17 t = (signature t).map fun s => ⟨s.ret, s.args, s.args.length⟩) := by
  have hcls : ∀ c v ops, (∀ m, ops ≠ [Op.plain m]) → opPtr (.cls c v ops) = none ∧ signature (.cls c v ops) = none := by
    intro c v ops h
    constructor
    · unfold opPtr
      split
      · next heq => cases heq; exact (h _ rfl).elim
      · rfl
    · unfold signature
      split
      · next heq => cases heq
      · next heq => cases heq
      · next heq => cases heq
      · next heq => cases heq; exact (h _ rfl).elim
      · rfl
  cases t with
  | fnPtr c v s =>
    obtain ⟨rfl, rfl, hv, hn⟩ := hp
    have := matchesPlain_of hv hn
    simp [isCallable, hasOperatorRoundBrackets, opPtr, isFunctionPointer, this, signature, callableTrait, removeClass,
      functionTrait]
  | memPtr c v m =>
    obtain ⟨rfl, rfl, hr, hv, hn⟩ := hp
    have := matchesPlain_of hv hn
    simp [isCallable, hasOperatorRoundBrackets, opPtr, isFunctionPointer, Mem.matchesPlain, this, hr, signature, callableTrait,
      removeClass, functionTrait]
  | func s => exact hp.elim
  | other t => simp [isCallable, hasOperatorRoundBrackets, opPtr, isFunctionPointer, signature, callableTrait]
  | cls c v ops =>
    by_cases h : ∃ m, ops = [Op.plain m]
    · obtain ⟨m, rfl⟩ := h
      obtain ⟨hr, hv, hn⟩ := hp
      have := matchesPlain_of hv hn
      simp [isCallable, hasOperatorRoundBrackets, opPtr, isFunctionPointer, Mem.matchesPlain, this, hr, signature, callableTrait,
        removeClass, functionTrait]
    · have := hcls c v ops (fun m hm => h ⟨m, hm⟩)
      simp [isCallable, hasOperatorRoundBrackets, this, isFunctionPointer, callableTrait]

/-- `is_callable` recognises exactly the types with a signature, and `callable_trait` tells its result type, the number of its
arguments and every argument type in order. -/
theorem C80_callable_partial {cxx17 : Bool} {t : Callee} (hp : Plain cxx17 t) :
    (isCallable cxx17 t = true ↔ ∃ s, signature t = some s) ∧
    (∀ s, signature t = some s → ∃ tr, callableTrait cxx17 t = some tr ∧ tr.resultType = s.ret ∧
      tr.argumentsNum = s.args.length ∧ ∀ i, tr.arg i = s.args[i]?) ∧
    (signature t = none → callableTrait cxx17 t = none) := by
  have h := trait_plain hp
  refine ⟨?_, ?_, ?_⟩
  · rw [h.1, Option.isSome_iff_exists]
  · intro s hs
    refine ⟨⟨s.ret, s.args, s.args.length⟩, ?_, rfl, rfl, fun _ => rfl⟩
    rw [h.2, hs]
    rfl
  · intro hs
    rw [h.2, hs]
    rfl

/-- `make_function` gives a `std::function` of the same signature. -/
theorem C80_make_function_partial {cxx17 : Bool} {t : Callee} (hp : Plain cxx17 t) (hm : ∀ c v m, t ≠ .memPtr c v m) {s : Sig}
    (hs : signature t = some s) : makeFunction cxx17 t = some { ret := s.ret, args := s.args } := by
  have h := (trait_plain hp).2
  rw [hs] at h
  cases t with
  | memPtr c v m => exact (hm c v m rfl).elim
  | _ => simp only [makeFunction]; rw [h]; rfl

/-- Whatever `callable_trait` tells is right, for every type. -/
theorem C80_callable_sound {cxx17 : Bool} {t : Callee} {tr : Trait} (h : callableTrait cxx17 t = some tr) :
    ∃ s, signature t = some s ∧ tr = ⟨s.ret, s.args, s.args.length⟩ := by
  unfold callableTrait at h
  split at h
  · cases t <;> simp_all [isFunctionPointer, removeClass, signature, functionTrait]
  · split at h
    · next m hm =>
      unfold opPtr at hm
      split at hm
      · injection hm with hm
        subst hm
        simp only [removeClass] at h
        split at h
        · refine ⟨_, rfl, ?_⟩
          simp only [Option.map_some, Option.some.injEq] at h
          exact h.symm
        · cases h
      · cases hm
    · cases h

/-- Under C++17 and C++20 a closure with `noexcept` counts as callable but its signature cannot be found: `callable_trait` does
not compile. -/
theorem C80_noexcept_violated : ∃ t s, signature t = some s ∧ isCallable true t = true ∧ callableTrait true t = none :=
  ⟨.cls false false [.plain { cls := 0, isConst := true, sig := { ret := .obj false false 1, args := [], isNoexcept := true } }],
   _, rfl, by decide, by decide⟩

/-- A pointer to a `noexcept` function is not callable at all. -/
theorem C80_noexcept_pointer_violated : ∃ t s, signature t = some s ∧ isCallable true t = false :=
  ⟨.fnPtr false false { ret := .obj false false 1, args := [], isNoexcept := true }, _, rfl, by decide⟩

/-- A `const` pointer to a function is not callable, so `make_function` refuses it. -/
theorem C80_const_pointer_violated : ∃ t s, signature t = some s ∧ isCallable false t = false ∧ makeFunction false t = none :=
  ⟨.fnPtr true false { ret := .obj false false 1, args := [] }, _, rfl, by decide, by decide⟩

/-- Nor is the name of a function without `&`. -/
theorem C80_function_name_violated : ∃ t s, signature t = some s ∧ isCallable false t = false ∧ makeFunction false t = none :=
  ⟨.func { ret := .obj false false 1, args := [] }, _, rfl, by decide, by decide⟩

/-- Nor a member function with a reference qualifier, nor a C variadic function. -/
theorem C80_qualified_violated :
    isCallable false (.memPtr false false { cls := 0, ref := .lvalue, sig := { ret := .obj false false 1, args := [] } }) = false ∧
    isCallable false (.fnPtr false false { ret := .obj false false 1, args := [], variadic := true }) = false := by decide

/-! ## Non-vacuity -/

example : narrowestFitUnsigned 65535 = some (.uint 16) ∧ narrowestFitUnsigned 65536 = some (.uint 32) ∧
    narrowestFitUnsigned 18446744073709551615 = some (.uint 64) := by decide +kernel

example : narrowestFitSigned (-129) = some (.int 16) ∧ narrowestFitSigned (-9223372036854775808) = some (.int 64) := by
  decide +kernel

example : takeCvFrom (.obj true true 0) (.arr 3 (.ptr false false (.obj true false 1))) =
    .arr 3 (.ptr true true (.obj true false 1)) := by decide

example : Plain true (.cls true false [.plain { cls := 0, isConst := true, sig := { ret := .obj false false 1, args := [.lref (.obj true false 2)] } }]) := by
  simp [Plain]

example : makeFunction true (.cls true false [.plain { cls := 0, isConst := true, sig := { ret := .obj false false 1, args := [.lref (.obj true false 2)] } }])
    = some { ret := .obj false false 1, args := [.lref (.obj true false 2)] } := by decide

/-- Overloaded and templated call operators have no single signature. -/
example : signature (.cls false false [.template]) = none ∧ isCallable true (.cls false false [.template]) = false := by decide

end Verif.TypeTraits
