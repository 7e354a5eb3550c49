import Verif.Model.Accessors
/-!
# C110: the accessors of containers, and what can be written through them

The elements of a container are reached by any of its accessors. Those of a `const` container, and those reached by an accessor for
reading, cannot be written, whatever is done with what the accessor gives.
-/
set_option autoImplicit false

namespace Verif.Accessors

/-! ## Specification -/

/-- By some calls, a reference is reached through which an element can be written. -/
def CanWrite (e : Expr) : Prop := ∃ calls c, e.run calls = .ok ⟨.ref true, c⟩

/-- A reference to an element is reached by the calls, which is writable or not. -/
def Reaches (e : Expr) (calls : List Call) (w : Bool) : Prop := e.run calls = .ok ⟨.ref w, false⟩

/-- The containers that have elements of their own. -/
def Owner (k : Cls) : Prop := k = .array ∨ k = .vector

/-- The accessors that all containers have. -/
inductive Common : Call → Prop where
  | sub : Common .sub
  | at : Common .at
  | begin : Common .begin
  | cbegin : Common .cbegin
  | plainBegin : Common .plainBegin
  | plainCbegin : Common .plainCbegin
  | range : Common .range
  | crange : Common .crange
  | plainRange : Common .plainRange
  | plainCrange : Common .plainCrange
  | data : Common .data
  | cdata : Common .cdata

/-- The accessors for reading. -/
inductive Reading : Call → Prop where
  | cbegin : Reading .cbegin
  | plainCbegin : Reading .plainCbegin
  | crange : Reading .crange
  | plainCrange : Reading .plainCrange
  | cdata : Reading .cdata
  | cview : Reading .cview
  | cproxy : Reading .cproxy
  | toConst : Reading .toConst

/-- A step to a row or an element: `e[i]`, `*e.begin()`, or the loop variable of `for (auto& x : e.range())`. -/
inductive Step : List Call → Prop where
  | sub : Step [.sub]
  | begin : Step [.begin, .deref]
  | range : Step [.range, .begin, .deref]

/-! ## Lemmas -/

/-- The type gives no right to write, for an expression that is `const` or not. -/
def Ty.sealed (c : Bool) : Ty → Bool
  | .obj .array _ w => c || !w
  | .obj .vector _ w => c || !w
  | .obj _ _ w => !w
  | .iter _ _ w => !w
  | .ptr w => !w
  | .ref w => !w
  | .range t => t.sealed true && t.sealed false

def Res.sealed : Res → Bool
  | .ok e => e.ty.sealed e.const
  | _ => true

theorem row_sealed (k : Cls) (n : Nat) (c : Bool) : (row k n false).sealed c = true := by
  cases n <;> cases k <;> simp [row, Ty.sealed, Cls.inner]

theorem iter_sealed (k : Cls) (n : Nat) (c : Bool) : (iterTy k n false).sealed c = true := by
  cases n <;> cases k <;> rfl

theorem notConst_sealed (c : Bool) (t : Ty) (h : c = false → t.sealed false = true) : (notConst c t).sealed = true := by
  cases c
  · exact h rfl
  · rfl

theorem asRange_sealed (t t' : Ty) (h : ∀ c, t'.sealed c = true) : (asRange t t').sealed = true := by
  unfold asRange
  split
  · simp [val, Res.sealed, Ty.sealed, h]
  · rfl

theorem array_sealed (n : Nat) (w c : Bool) (h : (c || !w) = true) (a : Call) : (arrayCall n w c a).sealed = true := by
  have hw : (w && !c) = false := by cases c <;> cases w <;> simp_all
  have hn : c = false → w = false := by intro e; cases w <;> simp_all
  cases a <;> simp only [arrayCall, hw] <;>
    first
      | rfl
      | (simp [val, Res.sealed, Ty.sealed, row_sealed, iter_sealed]; done)
      | (apply notConst_sealed; intro e; rw [hn e]; simp [Ty.sealed, iter_sealed])

theorem sub_sealed (n : Nat) (c : Bool) (a : Call) : (subCall n false c a).sealed = true := by
  cases a <;> simp only [subCall, Bool.false_and] <;>
    first
      | rfl
      | (simp [val, Res.sealed, Ty.sealed, row_sealed, iter_sealed]; done)
      | (apply notConst_sealed; intro e; simp [Ty.sealed, iter_sealed])

theorem vector_sealed (n : Nat) (w c : Bool) (h : (c || !w) = true) (a : Call) : (vectorCall n w c a).sealed = true := by
  have hw : (w && !c) = false := by cases c <;> cases w <;> simp_all
  have hn : c = false → w = false := by intro e; cases w <;> simp_all
  cases a <;> simp only [vectorCall, hw] <;>
    first
      | rfl
      | (simp [val, Res.sealed, Ty.sealed, row_sealed, iter_sealed]; done)
      | (apply notConst_sealed; intro e; rw [hn e]; simp [Ty.sealed, iter_sealed])
      | (apply asRange_sealed; intro; rfl)
      | (split
         · rfl
         · next hc => rw [hn (by simpa using hc)]; apply asRange_sealed; intro; rfl)

theorem proxy_sealed (n : Nat) (a : Call) : (proxyCall n false a).sealed = true := by
  cases a <;> simp only [proxyCall] <;>
    first
      | rfl
      | (simp [val, Res.sealed, Ty.sealed, row_sealed, iter_sealed]; done)
      | (apply asRange_sealed; intro; exact iter_sealed _ _ _)
      | (split <;> rfl)

theorem view_sealed (n : Nat) (a : Call) : (viewCall n false a).sealed = true := by
  cases a <;> simp only [viewCall, ite_self] <;>
    first
      | rfl
      | (simp [val, Res.sealed, Ty.sealed, row_sealed, iter_sealed]; done)
      | (split <;> rfl)

theorem iter_call_sealed (k : Cls) (n : Nat) (a : Call) : (iterCall k n false a).sealed = true := by
  cases a <;> cases k <;> rfl

theorem ptr_sealed (a : Call) : (ptrCall false a).sealed = true := by cases a <;> rfl

theorem call_sealed (e : Expr) (a : Call) (h : e.ty.sealed e.const = true) : (e.call a).sealed = true := by
  obtain ⟨t, c⟩ := e
  have hw : ∀ {w : Bool}, (!w) = true → w = false := by intro w; cases w <;> simp
  by_cases h1 : a = .asConst
  · subst h1
    cases t with
    | obj k n w => cases k <;> simp_all [Expr.call, Res.sealed, Ty.sealed]
    | range t => simpa [Expr.call, Res.sealed, Ty.sealed] using h
    | _ => simp_all [Expr.call, Res.sealed, Ty.sealed, val]
  by_cases h2 : a = .copy
  · subst h2
    cases t with
    | obj k n w => cases k <;> simp_all [Expr.call, copyOf, Res.sealed, Ty.sealed, val]
    | range t => simpa [Expr.call, copyOf, val, Res.sealed, Ty.sealed] using h
    | _ => simp_all [Expr.call, copyOf, Res.sealed, Ty.sealed, val]
  cases t with
  | obj k n w =>
    cases k with
    | array => have := array_sealed n w c h a; cases a <;> first | exact this | contradiction
    | vector => have := vector_sealed n w c h a; cases a <;> first | exact this | contradiction
    | sub => obtain rfl := hw h; have := sub_sealed n c a; cases a <;> first | exact this | contradiction
    | proxy => obtain rfl := hw h; have := proxy_sealed n a; cases a <;> first | exact this | contradiction
    | view => obtain rfl := hw h; have := view_sealed n a; cases a <;> first | exact this | contradiction
  | iter k n w => obtain rfl := hw h; have := iter_call_sealed k n a; cases a <;> first | exact this | contradiction
  | ptr w => obtain rfl := hw h; have := ptr_sealed a; cases a <;> first | exact this | contradiction
  | ref w => cases a <;> first | rfl | contradiction
  | range t =>
    have : t.sealed true = true := by simp only [Ty.sealed, Bool.and_eq_true] at h; exact h.1
    cases a <;> first | rfl | exact this | contradiction

theorem run_sealed (calls : List Call) (e : Expr) (h : e.ty.sealed e.const = true) : (e.run calls).sealed = true := by
  induction calls generalizing e with
  | nil => exact h
  | cons a l ih =>
    have := call_sealed e a h
    rw [Expr.run]
    cases hc : e.call a with
    | refused => rfl
    | ub => rfl
    | ok e' => rw [hc] at this; exact ih e' this

theorem not_canWrite (e : Expr) (h : e.ty.sealed e.const = true) : ¬ CanWrite e := by
  rintro ⟨calls, c, hr⟩
  have := run_sealed calls e h
  rw [hr] at this
  cases this

theorem run_append (l l' : List Call) (e e' : Expr) (h : e.run l = .ok e') : e.run (l ++ l') = e'.run l' := by
  induction l generalizing e with
  | nil => injection h with h; subst h; rfl
  | cons a l ih =>
    rw [List.cons_append, Expr.run]
    rw [Expr.run] at h
    cases hc : e.call a with
    | refused => rw [hc] at h; cases h
    | ub => rw [hc] at h; cases h
    | ok e₁ => rw [hc] at h; exact ih e₁ h

/-! ## Theorems -/

/-- **No element of a `const` `array_nd` or `vector_nd` can be written**, whatever accessors are called, on it and on the rows, iterators,
ranges, views, proxies and pointers it gives. -/
theorem C110_const (k : Cls) (hk : Owner k) (n : Nat) (w : Bool) : ¬ CanWrite ⟨.obj k n w, true⟩ := by
  apply not_canWrite
  rcases hk with rfl | rfl <;> rfl

/-- Nor can elements that are `const`, in any container. -/
theorem C110_const_elements (k : Cls) (n : Nat) (c : Bool) : ¬ CanWrite ⟨.obj k n false, c⟩ := by
  apply not_canWrite
  cases k <;> simp [Ty.sealed]

/-- A row or element after each step: of a container that is not `const`, every step works and keeps the right to write, except
`range()` of a vector with several dimensions. -/
theorem step_run (k : Cls) (n : Nat) (w : Bool) (l : List Call) (hl : Step l) (hv : k = .vector → n ≠ 0 → l ≠ [.range, .begin, .deref]) :
    Expr.run ⟨.obj k n w, false⟩ l = .ok ⟨row k n w, false⟩ := by
  cases hl <;> cases k <;> cases n <;>
    first
      | (simp [Expr.run, Expr.call, arrayCall, subCall, vectorCall, proxyCall, viewCall, iterCall, ptrCall, rangeCall, val, notConst, asRange, row, iterTy, Cls.inner]; done)
      | exact absurd rfl (hv rfl (Nat.succ_ne_zero _))

/-- **By any mix of steps, one for each dimension, an element is reached**, that can be written exactly if the elements are not `const`: for
every container that is not `const` itself, and any number of dimensions — **except by `range()` of a vector with several dimensions**. Full
property: without exception (`C110_range_violated`). -/
theorem C110_reach_partial (k : Cls) (n : Nat) (w : Bool) (steps : List (List Call)) (hs : ∀ l ∈ steps, Step l) (hn : steps.length = n + 1)
    (hv : k = .vector → n ≠ 0 → steps.head? ≠ Option.some [.range, .begin, .deref]) : Reaches ⟨.obj k n w, false⟩ steps.flatten w := by
  induction n generalizing k steps with
  | zero =>
    obtain ⟨l, rfl⟩ := List.length_eq_one_iff.1 hn
    have := step_run k 0 w l (hs l (List.mem_singleton.2 rfl)) (fun _ h => absurd rfl h)
    simpa [Reaches, row] using this
  | succ n ih =>
    match steps, hn with
    | l :: steps, hn =>
      have h1 := step_run k (n + 1) w l (hs l List.mem_cons_self) (fun e h he => hv e h (by rw [he]; rfl))
      unfold Reaches
      rw [List.flatten_cons, run_append _ _ _ _ h1]
      refine ih k.inner steps (fun l h => hs l (List.mem_cons_of_mem _ h)) (by simpa using hn) ?_
      intro e; cases k <;> cases e

/-- Subscripts reach an element of a `const` container too, which can be written if the elements are not `const`, but for `array_nd` and
`vector_nd` not. -/
theorem C110_subscripts (k : Cls) (n : Nat) (w c : Bool) :
    ∃ w', Reaches ⟨.obj k n w, c⟩ (List.replicate (n + 1) .sub) w' ∧ (w' = true ↔ w = true ∧ (c = true → ¬ Owner k)) := by
  have hfree : ∀ (n : Nat) (k : Cls) (w : Bool), Reaches ⟨.obj k n w, false⟩ (List.replicate (n + 1) .sub) w := by
    intro n k w
    have := C110_reach_partial k n w (List.replicate (n + 1) [.sub]) (fun l h => (List.eq_of_mem_replicate h) ▸ .sub) (List.length_replicate)
      (fun _ _ => by rw [List.replicate_succ]; simp)
    simpa [List.flatten_replicate_singleton] using this
  have hk : ∃ w', Expr.call ⟨.obj k n w, c⟩ .sub = .ok ⟨row k n w', false⟩ ∧ (w' = true ↔ w = true ∧ (c = true → ¬ Owner k)) := by
    cases k with
    | array => exact ⟨w && !c, rfl, by cases w <;> cases c <;> simp [Owner]⟩
    | vector => exact ⟨w && !c, rfl, by cases w <;> cases c <;> simp [Owner]⟩
    | sub => exact ⟨w, rfl, by simp [Owner]⟩
    | proxy => exact ⟨w, rfl, by simp [Owner]⟩
    | view => exact ⟨w, rfl, by simp [Owner]⟩
  obtain ⟨w', h1, h2⟩ := hk
  refine ⟨w', ?_, h2⟩
  unfold Reaches
  rw [List.replicate_succ, Expr.run, h1]
  cases n with
  | zero => rfl
  | succ n => exact hfree n k.inner w'

/-- What an accessor for reading gives cannot be written through, whatever is called on it — **except `cdata()` of views and proxies, and
`cbegin()` and `crange()` of views with several dimensions**. Full property: without exception (`C110_cdata_violated`,
`C110_cbegin_violated`). -/
theorem C110_reading_partial (k : Cls) (n : Nat) (w c : Bool) (a : Call) (ha : Reading a) (e : Expr) (h : Expr.call ⟨.obj k n w, c⟩ a = .ok e)
    (h1 : a = .cdata → k ≠ .view ∧ k ≠ .proxy) (h2 : a = .cbegin ∨ a = .crange → k = .view → n = 0) : ¬ CanWrite e := by
  apply not_canWrite
  have key : (Expr.call ⟨.obj k n w, c⟩ a).sealed = true := by
    cases ha <;> cases k <;>
      first
        | rfl
        | exact absurd rfl (h1 rfl).1
        | exact absurd rfl (h1 rfl).2
        | (obtain rfl := h2 (.inl rfl) rfl; rfl)
        | (obtain rfl := h2 (.inr rfl) rfl; rfl)
        | exact asRange_sealed _ _ (fun _ => iter_sealed _ _ _)
        | exact asRange_sealed _ _ (fun _ => rfl)
        | exact iter_sealed _ _ _
        | (simp [Expr.call, arrayCall, subCall, val, Res.sealed, Ty.sealed, iter_sealed]; done)
  rw [h] at key
  exact key

/-- An accessor that all containers have compiles, and its behaviour is defined — **except for those listed**. Full property: without
exception, but for the accessors of `const` containers of their own elements that are for writing (`C110_range_violated`, `C110_at_violated`,
`C110_crange_violated`). -/
theorem C110_works_partial (k : Cls) (n : Nat) (w c : Bool) (a : Call) (ha : Common a) :
    (Expr.call ⟨.obj k n w, c⟩ a = .ub ↔ k = .proxy ∧ n ≠ 0 ∧ a = .at) ∧
    (Expr.call ⟨.obj k n w, c⟩ a = .refused ↔
      (Owner k ∧ c = true ∧ (a = .plainBegin ∨ a = .range ∨ a = .plainRange)) ∨
      (k = .sub ∧ c = true ∧ n ≠ 0 ∧ (a = .at ∨ a = .range ∨ a = .plainRange)) ∨
      (k = .vector ∧ n ≠ 0 ∧ (a = .range ∨ a = .crange)) ∨
      (k = .proxy ∧ w = true ∧ (a = .crange ∨ a = .plainCrange))) := by
  cases ha <;> cases k <;> cases n <;> cases c <;> cases w <;>
    simp [Expr.call, arrayCall, subCall, vectorCall, proxyCall, viewCall, val, notConst, asRange, row, iterTy, Cls.inner, Owner]

/-- All accessors of an element agree about the right to write: for `array_nd`, `vector_nd`, `proxy_nd` and `array_view_nd`, `const` or not,
`[]`, `begin()` and `data()` give what can be written or none does. Full property: for `sub_array` too (`C110_row_violated`). -/
theorem C110_agree_partial (k : Cls) (hk : k ≠ .sub) (n : Nat) (w c : Bool) :
    ∃ w', Expr.call ⟨.obj k n w, c⟩ .sub = val (row k n w') ∧ Expr.call ⟨.obj k n w, c⟩ .begin = val (iterTy k n w') ∧
      Expr.call ⟨.obj k n w, c⟩ .data = val (.ptr w') := by
  cases k with
  | sub => exact absurd rfl hk
  | array => exact ⟨w && !c, rfl, rfl, rfl⟩
  | vector => exact ⟨w && !c, rfl, rfl, rfl⟩
  | proxy => exact ⟨w, rfl, rfl, rfl⟩
  | view => exact ⟨w, rfl, rfl, rfl⟩

/-! ## Examples -/

/-- A vector with three dimensions: a loop over it, a loop over the rows, and an index. -/
example : Reaches ⟨.obj .vector 2 true, false⟩ [.begin, .deref, .range, .begin, .deref, .sub] true ∧ CanWrite ⟨.obj .vector 2 true, false⟩ :=
  ⟨C110_reach_partial .vector 2 true [[.begin, .deref], [.range, .begin, .deref], [.sub]]
    (by intro l h; simp at h; rcases h with rfl | rfl | rfl <;> constructor) rfl (by simp),
   [.sub, .sub, .sub], false, rfl⟩

example : ¬ CanWrite ⟨.obj .vector 2 true, true⟩ ∧ Reaches ⟨.obj .vector 2 true, true⟩ [.begin, .deref, .range, .begin, .deref, .sub] false ∧
    Reaches ⟨.obj .vector 2 true, true⟩ [.toView, .sub, .copy, .data, .deref] false :=
  ⟨C110_const _ (.inr rfl) _ _, rfl, rfl⟩

/-- `cview()` of a vector that is not `const` -/
example : ∃ e, Expr.call ⟨.obj .vector 1 true, false⟩ .cview = .ok e ∧ ¬ CanWrite e ∧ Reaches e [.at] false :=
  ⟨_, rfl, C110_reading_partial .vector 1 true false .cview .cview _ rfl (fun e => nomatch e) (fun e => by rcases e with e | e <;> cases e), rfl⟩

/-! ## What is false -/

/-- **The pointer from `cdata()` can be written through, for views and proxies**: `const_value_pointer` is a constant pointer, not a pointer to
`const` (array_view.h l.370, array_proxy.h l.74, 447). -/
theorem C110_cdata_violated (n : Nat) :
    Reaches ⟨.obj .view n true, true⟩ [.cdata, .deref] true ∧ Reaches ⟨.obj .proxy n true, true⟩ [.cdata, .deref] true := ⟨rfl, rfl⟩

/-- **`cbegin()` and `crange()` of a view with several dimensions give rows that can be written**: its `const_iterator` is its `iterator`
(array_view.h l.46). -/
theorem C110_cbegin_violated (n : Nat) : (∃ calls, Reaches ⟨.obj .view (n + 1) true, true⟩ (.cbegin :: calls) true) ∧
    (∃ calls, Reaches ⟨.obj .view (n + 1) true, true⟩ (.crange :: calls) true) :=
  ⟨⟨[.deref, .data, .deref], rfl⟩, ⟨[.begin, .deref, .data, .deref], rfl⟩⟩

/-- **`range()` and `crange()` of a vector with several dimensions do not compile**: they are declared to give ranges of plain iterators, and
return ranges of rows (vector_nd.h l.1334-1345). Nor does `erase` of a range, for any vector: it uses a function `last` that a range does not
have (l.1956-1959, 3138-3141). -/
theorem C110_range_violated (n : Nat) (w : Bool) (c : Bool) :
    Expr.call ⟨.obj .vector (n + 1) w, c⟩ .range = .refused ∧ Expr.call ⟨.obj .vector (n + 1) w, c⟩ .crange = .refused ∧
    Expr.call ⟨.obj .vector n w, c⟩ .eraseRange = .refused := by
  cases c <;> exact ⟨rfl, rfl, rfl⟩

/-- **`at` of a proxy with several dimensions is undefined behaviour for all indices**: there is no return statement (array_proxy.h
l.164-169). -/
theorem C110_at_violated (n : Nat) (w c : Bool) :
    Expr.run ⟨.obj .vector (n + 2) w, c⟩ [.sub, .at] = .ub ∧ Expr.run ⟨.obj .view (n + 2) w, c⟩ [.sub, .at] = .ub := ⟨rfl, rfl⟩

/-- **`crange()` and `plain_crange()` of a proxy whose elements are not `const` do not compile**: they return ranges of iterators for writing
(array_proxy.h l.373-384, 719-730). -/
theorem C110_crange_violated (n : Nat) (c : Bool) :
    Expr.call ⟨.obj .proxy n true, c⟩ .crange = .refused ∧ Expr.call ⟨.obj .proxy n true, c⟩ .plainCrange = .refused := by
  cases n <;> simp [Expr.call, proxyCall, asRange, iterTy]

/-- **The accessors of a `const` row of an array disagree**: through `begin()` and `data()` it cannot be written, through `[]` and
`plain_begin()` it can (array_nd.h l.151-156, 210-214, 268-271, 299-302). A copy of the row can be written by all. -/
theorem C110_row_violated (n : Nat) :
    ∃ e, Expr.call ⟨.obj .array (n + 1) true, false⟩ .sub = .ok e ∧
      Reaches e [.asConst, .data, .deref] false ∧ (∀ e', e.run [.asConst, .begin] = .ok e' → ¬ CanWrite e') ∧
      Reaches e [.asConst, .plainBegin, .deref] true ∧ Reaches e [.asConst, .copy, .data, .deref] true := by
  refine ⟨_, rfl, rfl, ?_, rfl, rfl⟩
  intro e' he
  apply not_canWrite
  injection he with he
  rw [← he]
  exact iter_sealed .sub n false

/-- **An iterator of an array does not convert to a `const_iterator`** (`sub_array` has no such conversion, array_nd.h l.137-149), as that of a
vector does; **nor does a view convert to a proxy**, as its conversion operator returns a proxy with `const` elements (array_view.h l.472-475,
128-131), and with one dimension for no elements (l.275-278). -/
theorem C110_convert_violated (n : Nat) (c : Bool) :
    Expr.run ⟨.obj .array (n + 1) true, false⟩ [.begin, .toConst] = .refused ∧
    Expr.run ⟨.obj .vector (n + 1) true, false⟩ [.begin, .toConst] = .ok ⟨.iter .proxy n false, false⟩ ∧
    Expr.call ⟨.obj .view n true, c⟩ .toProxy = .refused ∧ Expr.call ⟨.obj .view 0 false, c⟩ .toProxy = .refused := by
  refine ⟨rfl, rfl, ?_, rfl⟩
  cases n <;> rfl

end Verif.Accessors
