import Verif.Model.TokenIter
import Verif.Lemmas.Tokens

/-!
C107: token iterators behave like positions in the list of tokens.

The specification knows nothing of the way tokens are found.  A token iterator is a pair of a sequence of tokens (the
pieces between separators, see C03 for the laws of `pieces` and `dropTrailingEmpty`) and an index into it.
-/
set_option autoImplicit false

namespace Verif.TokenIter

open Verif.Tokens (State moveIter nextToken peek hasNext next collect initToken tokens pieces dropTrailingEmpty)

variable {α : Type}

/-! ### Specification -/

/-- The tokens of a sequence. -/
def expected (p : α → Bool) (skip : Bool) (xs : List α) : List (List α) :=
  if skip then (pieces p xs).filter (fun t => !t.isEmpty) else dropTrailingEmpty (pieces p xs)

/-- An iterator of the specification: what was split how, and the number of tokens passed. -/
structure Pos where
  text : Nat
  sep : Nat
  skip : Bool
  pos : Nat
deriving DecidableEq

/-- Living sequences and iterators of the specification. -/
structure Spec (α : Type) where
  texts : Nat → Option (List α)
  vars : Nat → Option Pos

/-- The iterator in a variable, and the tokens it runs over. -/
def Spec.look (sep : Nat → α → Bool) (w : Spec α) (v : Nat) : Option (Pos × List (List α)) :=
  (w.vars v).bind fun i => (w.texts i.text).map fun xs => (i, expected (sep i.sep) i.skip xs)

/-- The table `f` with the entry at `i` replaced. -/
def Spec.set {β : Type} (f : Nat → β) (i : Nat) (b : β) : Nat → β := fun j => if j = i then b else f j

/-- What a statement has to do; `none`: the program breaks a precondition (an iterator without a living sequence, `*` or
`++` of an iterator that has passed all tokens, `==` of iterators that run over different tokens). -/
def Spec.step (sep : Nat → α → Bool) (w : Spec α) : Cmd → Option (Spec α × Obs α)
  | .make v t p skip => (w.texts t).map fun _ => ({ w with vars := Spec.set w.vars v (some ⟨t, p, skip, 0⟩) }, .unit)
  | .copy v u => (w.look sep v).map fun (i, _) => ({ w with vars := Spec.set w.vars u (some i) }, .unit)
  | .inc v => (w.look sep v).bind fun (i, ts) =>
      if i.pos < ts.length then some ({ w with vars := Spec.set w.vars v (some { i with pos := i.pos + 1 }) }, .unit)
      else none
  | .postInc v u => (w.look sep v).bind fun (i, ts) =>
      if i.pos < ts.length then
        some ({ w with vars := Spec.set (Spec.set w.vars v (some { i with pos := i.pos + 1 })) u (some i) }, .unit)
      else none
  | .deref v => (w.look sep v).bind fun (i, ts) => ts[i.pos]?.map fun t => (w, .token t)
  | .arrow v => (w.look sep v).bind fun (i, ts) => ts[i.pos]?.map fun t => (w, .token t)
  | .next v => (w.look sep v).bind fun (i, ts) => ts[i.pos]?.map fun t =>
      ({ w with vars := Spec.set w.vars v (some { i with pos := i.pos + 1 }) }, .token t)
  | .hasNext v => (w.look sep v).map fun (i, ts) => (w, .bool (decide (i.pos < ts.length)))
  | .empty v => (w.look sep v).map fun (i, ts) => (w, .bool (decide (i.pos = ts.length)))
  | .eq v u => (w.look sep v).bind fun (i, _) => (w.look sep u).bind fun (j, _) =>
      if i.text = j.text ∧ i.sep = j.sep ∧ i.skip = j.skip then some (w, .bool (decide (i.pos = j.pos))) else none
  | .ne v u => (w.look sep v).bind fun (i, _) => (w.look sep u).bind fun (j, _) =>
      if i.text = j.text ∧ i.sep = j.sep ∧ i.skip = j.skip then some (w, .bool (decide (i.pos ≠ j.pos))) else none
  | .eqEnd v => (w.look sep v).map fun (i, ts) => (w, .bool (decide (i.pos = ts.length)))
  | .neEnd v => (w.look sep v).map fun (i, ts) => (w, .bool (decide (i.pos < ts.length)))
  | .drop t => some ({ w with texts := Spec.set w.texts t none }, .unit)

/-- What a program has to yield. -/
def Spec.run (sep : Nat → α → Bool) : Spec α → List Cmd → Option (List (Obs α))
  | _, [] => some []
  | w, c :: cs => (Spec.step sep w c).bind fun (w', o) => (Spec.run sep w' cs).map fun os => o :: os

/-- The statement is not `w = v++`. -/
def Cmd.plain : Cmd → Bool
  | .postInc _ _ => false
  | _ => true

/-! ### Proofs -/

theorem construct_eq (e : Env α) (hm : e.moved 0 = some 0) (xs : List α) (p : Nat) (skip : Bool) :
    construct e xs p skip = initToken (e.sep p) xs skip := by
  unfold construct initToken
  rw [hm]
  simp only [Option.bind_some]
  cases moveIter (e.sep p) xs 0 <;> rfl

theorem tokens_expected (p : α → Bool) (xs : List α) (skip : Bool) (fuel : Nat) (hf : xs.length ≤ fuel) :
    tokens p xs skip fuel = some (expected p skip xs) := by
  cases skip with
  | false => exact Tokens.tokens_noskip p xs fuel hf
  | true => exact Tokens.tokens_skip p xs fuel hf

/-- The state after `k` increments. -/
def stateAt (p : α → Bool) (xs : List α) (skip : Bool) : Nat → Option State
  | 0 => initToken p xs skip
  | k + 1 => (stateAt p xs skip k).bind fun s => nextToken p xs skip s.tokEnd

theorem collect_nil {p : α → Bool} {xs : List α} {skip : Bool} {f : Nat} {s : State}
    (h : collect p xs skip f s = some []) : hasNext xs s = false := by
  cases hh : hasNext xs s with
  | false => rfl
  | true =>
    cases f with
    | zero => simp [collect, hh] at h
    | succ f =>
      simp only [collect, hh, if_true] at h
      cases hn : next p xs skip s with
      | none => simp [hn] at h
      | some r => simp [hn] at h

theorem collect_cons {p : α → Bool} {xs : List α} {skip : Bool} {f : Nat} {s : State} {t : List α} {ts : List (List α)}
    (h : collect p xs skip f s = some (t :: ts)) :
    hasNext xs s = true ∧ peek xs s = some t ∧
      ∃ s' g, nextToken p xs skip s.tokEnd = some s' ∧ next p xs skip s = some (t, s') ∧
        collect p xs skip g s' = some ts := by
  cases hh : hasNext xs s with
  | false => cases f <;> simp [collect, hh] at h
  | true =>
    cases f with
    | zero => simp [collect, hh] at h
    | succ f =>
      simp only [collect, hh, if_true] at h
      cases hp : peek xs s with
      | none => simp [next, hp] at h
      | some t' =>
        cases hn : nextToken p xs skip s.tokEnd with
        | none => simp [next, hp, hn] at h
        | some s' =>
          simp only [next, hp, hn, Option.bind_some, Option.map_some] at h
          cases hc : collect p xs skip f s' with
          | none => simp [hc] at h
          | some ts' =>
            simp only [hc, Option.map_some, Option.some.injEq, List.cons.injEq] at h
            obtain ⟨rfl, rfl⟩ := h
            exact ⟨rfl, rfl, s', f, rfl, by simp [next, hp, hn], hc⟩

theorem collect_fuel {p : α → Bool} {xs : List α} {skip : Bool} : ∀ {ts us : List (List α)} {f g : Nat} {s : State},
    collect p xs skip f s = some ts → collect p xs skip g s = some us → ts = us := by
  intro ts
  induction ts with
  | nil =>
    intro us f g s h h'
    cases us with
    | nil => rfl
    | cons u us =>
      have := (collect_cons h').1
      rw [collect_nil h] at this
      cases this
  | cons t ts ih =>
    intro us f g s h h'
    obtain ⟨hh, hp, s', f', hn, -, hc⟩ := collect_cons h
    cases us with
    | nil => rw [collect_nil h'] at hh; cases hh
    | cons u us =>
      obtain ⟨-, hp', s'', g', hn', -, hc'⟩ := collect_cons h'
      rw [hp] at hp'
      obtain rfl := Option.some.inj hp'
      rw [hn] at hn'
      obtain rfl := Option.some.inj hn'
      rw [ih hc hc']

/-- After `k` increments the remaining tokens are those without the first `k`. -/
theorem stateAt_spec (p : α → Bool) (xs : List α) (skip : Bool) (k : Nat) (hk : k ≤ (expected p skip xs).length) :
    ∃ s f, stateAt p xs skip k = some s ∧ collect p xs skip f s = some ((expected p skip xs).drop k) := by
  induction k with
  | zero =>
    have h := tokens_expected p xs skip xs.length (Nat.le_refl _)
    unfold tokens at h
    cases hi : initToken p xs skip with
    | none => simp [hi] at h
    | some s => exact ⟨s, xs.length, hi, by simpa [hi] using h⟩
  | succ k ih =>
    obtain ⟨s, f, hs, hc⟩ := ih (by omega)
    rw [List.drop_eq_getElem_cons (by omega : k < (expected p skip xs).length)] at hc
    obtain ⟨-, -, s', g, hn, -, hc'⟩ := collect_cons hc
    exact ⟨s', g, by simp [stateAt, hs, hn], hc'⟩

theorem stateAt_lt {p : α → Bool} {xs : List α} {skip : Bool} {k : Nat} {s : State} {t : List α}
    (hs : stateAt p xs skip k = some s) (ht : (expected p skip xs)[k]? = some t) :
    hasNext xs s = true ∧ peek xs s = some t ∧ ∃ s', next p xs skip s = some (t, s') ∧
      stateAt p xs skip (k + 1) = some s' := by
  obtain ⟨hk, rfl⟩ := List.getElem?_eq_some_iff.1 ht
  obtain ⟨s₁, f, hs₁, hc⟩ := stateAt_spec p xs skip k (by omega)
  rw [hs] at hs₁
  obtain rfl := Option.some.inj hs₁
  rw [List.drop_eq_getElem_cons hk] at hc
  obtain ⟨hh, hp, s', g, hn, hx, -⟩ := collect_cons hc
  exact ⟨hh, hp, s', hx, by simp [stateAt, hs, hn]⟩

theorem stateAt_hasNext {p : α → Bool} {xs : List α} {skip : Bool} {k : Nat} {s : State}
    (hs : stateAt p xs skip k = some s) (hk : k ≤ (expected p skip xs).length) :
    hasNext xs s = decide (k < (expected p skip xs).length) := by
  by_cases h : k < (expected p skip xs).length
  · rw [decide_eq_true h]
    exact (stateAt_lt hs (List.getElem?_eq_getElem h)).1
  · rw [decide_eq_false h]
    obtain ⟨s₁, f, hs₁, hc⟩ := stateAt_spec p xs skip k hk
    rw [hs] at hs₁
    obtain rfl := Option.some.inj hs₁
    rw [List.drop_eq_nil_of_le (by omega)] at hc
    exact collect_nil hc

theorem stateAt_inj {p : α → Bool} {xs : List α} {skip : Bool} {k l : Nat} {s : State}
    (hs : stateAt p xs skip k = some s) (hl : stateAt p xs skip l = some s)
    (hk : k ≤ (expected p skip xs).length) (hl' : l ≤ (expected p skip xs).length) : k = l := by
  obtain ⟨s₁, f, hs₁, hc⟩ := stateAt_spec p xs skip k hk
  rw [hs] at hs₁
  obtain rfl := Option.some.inj hs₁
  obtain ⟨s₂, g, hs₂, hd⟩ := stateAt_spec p xs skip l hl'
  rw [hl] at hs₂
  obtain rfl := Option.some.inj hs₂
  have := congrArg List.length (collect_fuel hc hd)
  simp only [List.length_drop] at this
  omega

/-- An iterator of the model is at a position of the specification. -/
structure At (e : Env α) (texts : Nat → Option (List α)) (it : Iter) (i : Pos) : Prop where
  text : it.text = i.text
  sep : it.sep = i.sep
  skip : it.skip = i.skip
  pos : ∀ xs, texts i.text = some xs →
    i.pos ≤ (expected (e.sep i.sep) i.skip xs).length ∧ stateAt (e.sep i.sep) xs i.skip i.pos = some it.st

/-- Model and specification agree. -/
structure Sim (e : Env α) (w : World α) (a : Spec α) : Prop where
  texts : w.texts = a.texts
  vars : ∀ v i, a.vars v = some i → ∃ it, w.vars v = some it ∧ At e a.texts it i

theorem Sim.look {e : Env α} {w : World α} {a : Spec α} (h : Sim e w a) {v : Nat} {i : Pos} {ts : List (List α)}
    (hv : a.look e.sep v = some (i, ts)) :
    ∃ it xs, look w v = some (it, xs) ∧ At e a.texts it i ∧ a.texts i.text = some xs ∧
      ts = expected (e.sep i.sep) i.skip xs := by
  unfold Spec.look at hv
  cases ha : a.vars v with
  | none => simp [ha] at hv
  | some j =>
    obtain ⟨it, hw, hat⟩ := h.vars v j ha
    cases hx : a.texts j.text with
    | none => simp [ha, hx] at hv
    | some xs =>
      simp only [ha, hx, Option.bind_some, Option.map_some, Option.some.injEq, Prod.mk.injEq] at hv
      obtain ⟨rfl, rfl⟩ := hv
      refine ⟨it, xs, ?_, hat, hx, rfl⟩
      simp [TokenIter.look, hw, h.texts, hat.text, hx]

theorem Sim.put {e : Env α} {w : World α} {a : Spec α} (h : Sim e w a) (v : Nat) (it : Iter) (i : Pos)
    (hat : At e a.texts it i) :
    Sim e { w with vars := put w.vars v (some it) } { a with vars := Spec.set a.vars v (some i) } := by
  refine ⟨h.texts, fun u j hu => ?_⟩
  simp only [Spec.set, TokenIter.put] at hu ⊢
  split at hu
  · rename_i huv
    obtain rfl := Option.some.inj hu
    exact ⟨it, by simp [huv], hat⟩
  · rename_i huv
    obtain ⟨jt, hj, hj'⟩ := h.vars u j hu
    exact ⟨jt, by simp [huv, hj], hj'⟩

theorem At.moved {e : Env α} {texts : Nat → Option (List α)} {it : Iter} {i : Pos} {xs : List α} {s : State}
    (h : At e texts it i) (hx : texts i.text = some xs) (hi : i.pos < (expected (e.sep i.sep) i.skip xs).length)
    (hs : stateAt (e.sep i.sep) xs i.skip (i.pos + 1) = some s) :
    At e texts { it with st := s } { i with pos := i.pos + 1 } := by
  refine ⟨h.text, h.sep, h.skip, fun ys hy => ?_⟩
  dsimp only at hy ⊢
  rw [hx] at hy
  obtain rfl := Option.some.inj hy
  exact ⟨hi, hs⟩

theorem At.eq {e : Env α} {texts : Nat → Option (List α)} {it jt : Iter} {i j : Pos} {xs : List α}
    (h : At e texts it i) (h' : At e texts jt j) (hx : texts i.text = some xs)
    (hij : i.text = j.text ∧ i.sep = j.sep ∧ i.skip = j.skip) : it.st = jt.st ↔ i.pos = j.pos := by
  obtain ⟨h1, h2, h3⟩ := hij
  obtain ⟨hi, hs⟩ := h.pos xs hx
  obtain ⟨hj, hs'⟩ := h'.pos xs (h1 ▸ hx)
  rw [← h2, ← h3] at hj hs'
  constructor
  · intro heq
    rw [heq] at hs
    exact stateAt_inj hs hs' hi hj
  · intro heq
    rw [← heq, hs] at hs'
    exact Option.some.inj hs'

theorem state_beq (s t : State) : (s.tokBegin == t.tokBegin && s.tokEnd == t.tokEnd) = decide (s = t) := by
  cases s; cases t
  rw [Bool.eq_iff_iff]
  simp

theorem state_bne (s t : State) : (s.tokBegin != t.tokBegin || s.tokEnd != t.tokEnd) = decide (s ≠ t) := by
  cases s; cases t
  rw [Bool.eq_iff_iff]
  simp only [Bool.or_eq_true, bne_iff_ne, ne_eq, decide_eq_true_eq, State.mk.injEq, not_and]
  constructor
  · rintro (h | h)
    · exact fun h' => absurd h' h
    · exact fun _ => h
  · intro h
    rename_i a b c d
    by_cases hac : a = c
    · exact Or.inr (h hac)
    · exact Or.inl hac

theorem sim_step (e : Env α) (hm : e.moved 0 = some 0) {w : World α} {a a' : Spec α} {o : Obs α} {c : Cmd}
    (hc : c.plain = true) (h : Sim e w a) (hs : Spec.step e.sep a c = some (a', o)) :
    ∃ w', step e w c = some (w', o) ∧ Sim e w' a' := by
  cases c with
  | postInc v u => cases hc
  | make v t p skip =>
    simp only [Spec.step] at hs
    cases hx : a.texts t with
    | none => simp [hx] at hs
    | some xs =>
      simp only [hx, Option.map_some, Option.some.injEq, Prod.mk.injEq] at hs
      obtain ⟨rfl, rfl⟩ := hs
      obtain ⟨s, f, hst, -⟩ := stateAt_spec (e.sep p) xs skip 0 (Nat.zero_le _)
      have hi : construct e xs p skip = some s := by rw [construct_eq e hm]; exact hst
      refine ⟨{ w with vars := TokenIter.put w.vars v (some ⟨t, p, skip, s⟩) }, by simp [step, h.texts, hx, hi], ?_⟩
      refine h.put v ⟨t, p, skip, s⟩ ⟨t, p, skip, 0⟩ ⟨rfl, rfl, rfl, fun ys hy => ?_⟩
      dsimp only at hy ⊢
      rw [hx] at hy
      obtain rfl := Option.some.inj hy
      exact ⟨Nat.zero_le _, hst⟩
  | copy v u =>
    simp only [Spec.step] at hs
    cases hl : a.look e.sep v with
    | none => simp [hl] at hs
    | some r =>
      obtain ⟨i, ts⟩ := r
      simp only [hl, Option.map_some, Option.some.injEq, Prod.mk.injEq] at hs
      obtain ⟨rfl, rfl⟩ := hs
      obtain ⟨it, xs, hw, hat, hx, rfl⟩ := h.look hl
      exact ⟨_, by simp [step, hw], h.put u it i hat⟩
  | inc v =>
    simp only [Spec.step] at hs
    cases hl : a.look e.sep v with
    | none => simp [hl] at hs
    | some r =>
      obtain ⟨i, ts⟩ := r
      obtain ⟨it, xs, hw, hat, hx, rfl⟩ := h.look hl
      simp only [hl, Option.bind_some] at hs
      split at hs
      · rename_i hlt
        simp only [Option.some.injEq, Prod.mk.injEq] at hs
        obtain ⟨rfl, rfl⟩ := hs
        obtain ⟨hp, hst⟩ := hat.pos xs hx
        obtain ⟨t, ht⟩ : ∃ t, (expected (e.sep i.sep) i.skip xs)[i.pos]? = some t :=
          ⟨_, List.getElem?_eq_getElem hlt⟩
        obtain ⟨-, -, s', hn, hs'⟩ := stateAt_lt hst ht
        rw [← hat.sep, ← hat.skip] at hn
        exact ⟨_, by simp [step, hw, hn], h.put v _ _ (hat.moved hx hlt hs')⟩
      · cases hs
  | deref v =>
    simp only [Spec.step] at hs
    cases hl : a.look e.sep v with
    | none => simp [hl] at hs
    | some r =>
      obtain ⟨i, ts⟩ := r
      obtain ⟨it, xs, hw, hat, hx, rfl⟩ := h.look hl
      simp only [hl, Option.bind_some, Option.map_eq_some_iff, Prod.mk.injEq] at hs
      obtain ⟨t, ht, rfl, rfl⟩ := hs
      obtain ⟨hp, hst⟩ := hat.pos xs hx
      obtain ⟨-, hpk, -⟩ := stateAt_lt hst ht
      exact ⟨w, by simp [step, hw, hpk], h⟩
  | arrow v =>
    simp only [Spec.step] at hs
    cases hl : a.look e.sep v with
    | none => simp [hl] at hs
    | some r =>
      obtain ⟨i, ts⟩ := r
      obtain ⟨it, xs, hw, hat, hx, rfl⟩ := h.look hl
      simp only [hl, Option.bind_some, Option.map_eq_some_iff, Prod.mk.injEq] at hs
      obtain ⟨t, ht, rfl, rfl⟩ := hs
      obtain ⟨hp, hst⟩ := hat.pos xs hx
      obtain ⟨-, hpk, -⟩ := stateAt_lt hst ht
      exact ⟨w, by simp [step, hw, hpk], h⟩
  | next v =>
    simp only [Spec.step] at hs
    cases hl : a.look e.sep v with
    | none => simp [hl] at hs
    | some r =>
      obtain ⟨i, ts⟩ := r
      obtain ⟨it, xs, hw, hat, hx, rfl⟩ := h.look hl
      simp only [hl, Option.bind_some, Option.map_eq_some_iff, Prod.mk.injEq] at hs
      obtain ⟨t, ht, rfl, rfl⟩ := hs
      obtain ⟨hp, hst⟩ := hat.pos xs hx
      obtain ⟨-, -, s', hn, hs'⟩ := stateAt_lt hst ht
      rw [← hat.sep, ← hat.skip] at hn
      exact ⟨_, by simp [step, hw, hn],
        h.put v _ _ (hat.moved hx (List.getElem?_eq_some_iff.1 ht).1 hs')⟩
  | hasNext v =>
    simp only [Spec.step] at hs
    cases hl : a.look e.sep v with
    | none => simp [hl] at hs
    | some r =>
      obtain ⟨i, ts⟩ := r
      obtain ⟨it, xs, hw, hat, hx, rfl⟩ := h.look hl
      simp only [hl, Option.map_some, Option.some.injEq, Prod.mk.injEq] at hs
      obtain ⟨rfl, rfl⟩ := hs
      obtain ⟨hp, hst⟩ := hat.pos xs hx
      exact ⟨w, by simp [step, hw, stateAt_hasNext hst hp], h⟩
  | neEnd v =>
    simp only [Spec.step] at hs
    cases hl : a.look e.sep v with
    | none => simp [hl] at hs
    | some r =>
      obtain ⟨i, ts⟩ := r
      obtain ⟨it, xs, hw, hat, hx, rfl⟩ := h.look hl
      simp only [hl, Option.map_some, Option.some.injEq, Prod.mk.injEq] at hs
      obtain ⟨rfl, rfl⟩ := hs
      obtain ⟨hp, hst⟩ := hat.pos xs hx
      exact ⟨w, by simp [step, hw, stateAt_hasNext hst hp], h⟩
  | empty v =>
    simp only [Spec.step] at hs
    cases hl : a.look e.sep v with
    | none => simp [hl] at hs
    | some r =>
      obtain ⟨i, ts⟩ := r
      obtain ⟨it, xs, hw, hat, hx, rfl⟩ := h.look hl
      simp only [hl, Option.map_some, Option.some.injEq, Prod.mk.injEq] at hs
      obtain ⟨rfl, rfl⟩ := hs
      obtain ⟨hp, hst⟩ := hat.pos xs hx
      refine ⟨w, ?_, h⟩
      simp only [step, hw, Option.map_some, stateAt_hasNext hst hp, Option.some.injEq, Prod.mk.injEq, true_and,
        Obs.bool.injEq]
      rw [Bool.eq_iff_iff]
      simp
      omega
  | eqEnd v =>
    simp only [Spec.step] at hs
    cases hl : a.look e.sep v with
    | none => simp [hl] at hs
    | some r =>
      obtain ⟨i, ts⟩ := r
      obtain ⟨it, xs, hw, hat, hx, rfl⟩ := h.look hl
      simp only [hl, Option.map_some, Option.some.injEq, Prod.mk.injEq] at hs
      obtain ⟨rfl, rfl⟩ := hs
      obtain ⟨hp, hst⟩ := hat.pos xs hx
      refine ⟨w, ?_, h⟩
      simp only [step, hw, Option.map_some, stateAt_hasNext hst hp, Option.some.injEq, Prod.mk.injEq, true_and,
        Obs.bool.injEq]
      rw [Bool.eq_iff_iff]
      simp
      omega
  | eq v u =>
    simp only [Spec.step] at hs
    cases hl : a.look e.sep v with
    | none => simp [hl] at hs
    | some r =>
      cases hl' : a.look e.sep u with
      | none => simp [hl, hl'] at hs
      | some r' =>
        obtain ⟨i, ts⟩ := r
        obtain ⟨j, us⟩ := r'
        obtain ⟨it, xs, hw, hat, hx, rfl⟩ := h.look hl
        obtain ⟨jt, ys, hw', hat', hx', rfl⟩ := h.look hl'
        simp only [hl, hl', Option.bind_some] at hs
        split at hs
        · rename_i hij
          simp only [Option.some.injEq, Prod.mk.injEq] at hs
          obtain ⟨rfl, rfl⟩ := hs
          refine ⟨w, ?_, h⟩
          simp only [step, hw, hw', Option.bind_some, hat.text, hat'.text, hij.1, if_true, state_beq,
            hat.eq hat' hx hij]
        · cases hs
  | ne v u =>
    simp only [Spec.step] at hs
    cases hl : a.look e.sep v with
    | none => simp [hl] at hs
    | some r =>
      cases hl' : a.look e.sep u with
      | none => simp [hl, hl'] at hs
      | some r' =>
        obtain ⟨i, ts⟩ := r
        obtain ⟨j, us⟩ := r'
        obtain ⟨it, xs, hw, hat, hx, rfl⟩ := h.look hl
        obtain ⟨jt, ys, hw', hat', hx', rfl⟩ := h.look hl'
        simp only [hl, hl', Option.bind_some] at hs
        split at hs
        · rename_i hij
          simp only [Option.some.injEq, Prod.mk.injEq] at hs
          obtain ⟨rfl, rfl⟩ := hs
          refine ⟨w, ?_, h⟩
          simp only [step, hw, hw', Option.bind_some, hat.text, hat'.text, hij.1, if_true, state_bne, ne_eq,
            hat.eq hat' hx hij]
        · cases hs
  | drop t =>
    simp only [Spec.step, Option.some.injEq, Prod.mk.injEq] at hs
    obtain ⟨rfl, rfl⟩ := hs
    refine ⟨_, rfl, ?_, fun v i hv => ?_⟩
    · simp only [h.texts]; rfl
    · obtain ⟨it, hw, hat⟩ := h.vars v i hv
      refine ⟨it, hw, hat.text, hat.sep, hat.skip, fun xs hx => hat.pos xs ?_⟩
      simp only [Spec.set] at hx
      split at hx
      · cases hx
      · exact hx

theorem sim_run (e : Env α) (hm : e.moved 0 = some 0) (cs : List Cmd) :
    ∀ {w : World α} {a : Spec α} {os : List (Obs α)}, (∀ c ∈ cs, c.plain = true) → Sim e w a →
      Spec.run e.sep a cs = some os → run e w cs = some os := by
  induction cs with
  | nil => intro w a os _ _ h; simpa [Spec.run, run] using h
  | cons c cs ih =>
    intro w a os hc hsim h
    simp only [Spec.run] at h
    cases hs : Spec.step e.sep a c with
    | none => simp [hs] at h
    | some r =>
      obtain ⟨a', o⟩ := r
      simp only [hs, Option.bind_some] at h
      cases hr : Spec.run e.sep a' cs with
      | none => simp [hr] at h
      | some os' =>
        simp only [hr, Option.map_some, Option.some.injEq] at h
        subst h
        obtain ⟨w', hw, hsim'⟩ := sim_step e hm (hc c (by simp)) hsim hs
        simp [run, hw, ih (fun d hd => hc d (by simp [hd])) hsim' hr]

theorem forLoop_collect {e : Env α} {xs : List α} {p : Nat} {skip : Bool} : ∀ {f : Nat} {s : State},
    forLoop e xs p skip f s = collect (e.sep p) xs skip f s := by
  intro f
  induction f with
  | zero => intro s; rfl
  | succ f ih =>
    intro s
    simp only [forLoop, collect]
    split
    · cases hp : peek xs s with
      | none => simp [next, hp]
      | some t =>
        cases hn : nextToken (e.sep p) xs skip s.tokEnd with
        | none => simp [next, hp, hn]
        | some s' => simp [next, hp, hn, ih]
    · rfl

/-! ### Properties -/

/-- The world a program starts in: sequences, no iterators. -/
def World.start (texts : Nat → Option (List α)) : World α := ⟨texts, fun _ => none⟩

/-- The same of the specification. -/
def Spec.start (texts : Nat → Option (List α)) : Spec α := ⟨texts, fun _ => none⟩

/-- **C107**.  Every program over token iterators yields what it would yield if each iterator were an index into the list
of tokens: `*` and `->` give the token at the index, `++` and `next()` go to the next one, copies are independent, two
iterators over the same tokens are equal iff their indices are, and `tokens_end` is the index after the last token.
The program has to observe the preconditions (where the specification is `none`) and must not use the result of `v++`
(`C107_postfix_violated`), and moving an underlying iterator must leave it as it was (`C107_moved_violated`). -/
theorem C107_positions_partial (e : Env α) (hm : e.moved 0 = some 0) (texts : Nat → Option (List α)) (cs : List Cmd)
    (hc : ∀ c ∈ cs, c.plain = true) (os : List (Obs α)) (h : Spec.run e.sep (Spec.start texts) cs = some os) :
    run e (World.start texts) cs = some os :=
  sim_run e hm cs hc ⟨rfl, fun _ _ h => by cases h⟩ h

/-- Splitting at `,` (`sep 0`) and at `,` or `;` (`sep 1`); moving is copying. -/
def exEnv : Env Char := ⟨fun n c => if n = 0 then c == ',' else c == ',' || c == ';', some⟩

/-- The only sequence is `a,,b;c,`. -/
def exText : List Char := ['a', ',', ',', 'b', ';', 'c', ',']

def exTexts : Nat → Option (List Char) := fun n => if n = 0 then some exText else none

def exProg : List Cmd :=
  [.make 0 0 0 false, .make 1 0 1 true, .copy 0 2, .eq 0 2, .inc 0, .eq 0 2, .ne 0 2, .deref 0, .deref 2, .next 0,
    .arrow 0, .inc 1, .deref 1, .inc 0, .eqEnd 0, .neEnd 1, .inc 2, .inc 2, .inc 2, .eq 0 2, .hasNext 2, .drop 0]

example : exEnv.moved 0 = some 0 ∧ (∀ c ∈ exProg, c.plain = true) ∧
    Spec.run exEnv.sep (Spec.start exTexts) exProg
      = some [.unit, .unit, .unit, .bool true, .unit, .bool false, .bool true, .token [], .token ['a'], .token [],
          .token ['b', ';', 'c'], .unit, .token ['b'], .unit, .bool true, .bool true, .unit, .unit, .unit, .bool true,
          .bool false, .unit] := by
  refine ⟨rfl, by decide, by decide +kernel⟩

/-- **C107**: a range-based `for` over the tokens visits the tokens, in order, and ends. -/
theorem C107_for (e : Env α) (hm : e.moved 0 = some 0) (xs : List α) (p : Nat) (skip : Bool) (fuel : Nat)
    (hf : xs.length ≤ fuel) : rangeFor e xs p skip fuel = some (expected (e.sep p) skip xs) := by
  have h := tokens_expected (e.sep p) xs skip fuel hf
  have hl : forLoop e xs p skip fuel = collect (e.sep p) xs skip fuel := funext fun s => forLoop_collect
  unfold rangeFor
  rw [construct_eq e hm, hl]
  exact h

example : expected (exEnv.sep 0) false exText = [['a'], [], ['b', ';', 'c']] := by decide

theorem moveIter_le {p : α → Bool} {xs : List α} : ∀ (m : Nat) {i j : Nat}, xs.length - i = m → i ≤ xs.length →
    moveIter p xs i = some j → j ≤ xs.length := by
  intro m
  induction m with
  | zero =>
    intro i j hm hi hj
    have : i = xs.length := by omega
    subst this
    unfold moveIter at hj
    simp at hj
    omega
  | succ m ihm =>
    intro i j hm hi hj
    unfold moveIter at hj
    rw [if_neg (by omega)] at hj
    split at hj
    · cases hj
    · split at hj
      · obtain rfl := Option.some.inj hj
        omega
      · exact ihm (by omega) (by omega) hj

theorem nextToken_valid {p : α → Bool} {xs : List α} {skip : Bool} : ∀ (n : Nat) {te : Nat} {s : State},
    xs.length - te = n → te ≤ xs.length → nextToken p xs skip te = some s →
      s.tokBegin ≤ s.tokEnd ∧ s.tokEnd ≤ xs.length := by
  intro n
  induction n using Nat.strongRecOn with
  | ind n ih =>
    intro te s hn ht h
    unfold nextToken at h
    split at h
    · rename_i hne
      rw [if_neg (by omega)] at h
      split at h
      · cases h
      · rename_i te' hmv
        have hge := Tokens.moveIter_ge hmv
        have hle : te' ≤ xs.length := moveIter_le _ rfl (by omega) hmv
        split at h
        · exact ih (xs.length - te') (by omega) rfl hle h
        · obtain rfl := Option.some.inj h
          exact ⟨hge, hle⟩
    · obtain rfl := Option.some.inj h
      rename_i heq
      dsimp only
      omega

theorem stateAt_valid {p : α → Bool} {xs : List α} {skip : Bool} : ∀ (k : Nat) {s : State},
    stateAt p xs skip k = some s → s.tokBegin ≤ s.tokEnd ∧ s.tokEnd ≤ xs.length := by
  intro k
  induction k with
  | zero =>
    intro s h
    unfold stateAt initToken at h
    split at h
    · cases h
    · rename_i te hmv
      have hle : te ≤ xs.length := moveIter_le _ rfl (Nat.zero_le _) hmv
      split at h
      · exact nextToken_valid _ rfl hle h
      · obtain rfl := Option.some.inj h
        exact ⟨Nat.zero_le _, hle⟩
  | succ k ih =>
    intro s h
    unfold stateAt at h
    cases hk : stateAt p xs skip k with
    | none => simp [hk] at h
    | some s' =>
      simp only [hk, Option.bind_some] at h
      exact nextToken_valid _ rfl (ih hk).2 h

theorem stateAt_end {p : α → Bool} {xs : List α} {skip : Bool} (d : Nat) :
    stateAt p xs skip ((expected p skip xs).length + d) = some ⟨xs.length, xs.length⟩ := by
  induction d with
  | zero =>
    obtain ⟨s, f, hs, hc⟩ := stateAt_spec p xs skip (expected p skip xs).length (Nat.le_refl _)
    rw [List.drop_length] at hc
    have h1 := collect_nil hc
    obtain ⟨h2, h3⟩ := stateAt_valid _ hs
    have h4 : s.tokBegin = xs.length := by simpa [hasNext] using h1
    rw [Nat.add_zero, hs]
    obtain ⟨b, t⟩ := s
    dsimp only at h2 h3 h4
    obtain rfl : t = xs.length := by omega
    rw [h4]
  | succ d ih =>
    rw [← Nat.add_assoc]
    simp only [stateAt, ih, Option.bind_some]
    exact Tokens.nextToken_end p xs skip

theorem stateAt_some (p : α → Bool) (xs : List α) (skip : Bool) (k : Nat) : ∃ s, stateAt p xs skip k = some s := by
  rcases Nat.le_total k (expected p skip xs).length with h | h
  · obtain ⟨s, _, hs, _⟩ := stateAt_spec p xs skip k h
    exact ⟨s, hs⟩
  · obtain ⟨d, rfl⟩ := Nat.exists_eq_add_of_le h
    exact ⟨_, stateAt_end d⟩

theorem run_incs (e : Env α) {xs : List α} {p : Nat} {skip : Bool} {t v : Nat} (cs : List Cmd) :
    ∀ (k j : Nat) (w : World α) (s s' : State), w.texts t = some xs → w.vars v = some ⟨t, p, skip, s⟩ →
      stateAt (e.sep p) xs skip j = some s → stateAt (e.sep p) xs skip (j + k) = some s' →
      ∃ w', w'.texts = w.texts ∧ w'.vars v = some ⟨t, p, skip, s'⟩ ∧
        run e w (List.replicate k (.inc v) ++ cs) = (run e w' cs).map (List.replicate k .unit ++ ·) := by
  intro k
  induction k with
  | zero =>
    intro j w s s' hx hv hs hs'
    rw [Nat.add_zero, hs] at hs'
    obtain rfl := Option.some.inj hs'
    refine ⟨w, rfl, hv, ?_⟩
    simp
  | succ k ih =>
    intro j w s s' hx hv hs hs'
    obtain ⟨s₁, hs₁⟩ := stateAt_some (e.sep p) xs skip (j + 1)
    have hn : nextToken (e.sep p) xs skip s.tokEnd = some s₁ := by simpa [stateAt, hs] using hs₁
    obtain ⟨h1, h2⟩ := stateAt_valid _ hs
    obtain ⟨w', ht', hv', hr⟩ := ih (j + 1) { w with vars := put w.vars v (some ⟨t, p, skip, s₁⟩) } s₁ s' hx
      (by simp [TokenIter.put]) hs₁ (by rw [← hs']; congr 1; omega)
    refine ⟨w', ht', hv', ?_⟩
    have hstep : step e w (.inc v) = some ({ w with vars := put w.vars v (some ⟨t, p, skip, s₁⟩) }, .unit) := by
      simp [step, look, hv, hx, next, peek, h1, h2, hn]
    simp only [List.replicate_succ, List.cons_append, run, hstep, Option.bind_some, hr, Option.map_map]
    rfl

/-- **C107**: `++` of an iterator that has passed all tokens has no effect in a build without checks: however often it
is incremented it equals `tokens_end`, and `*` gives an empty token. -/
theorem C107_past_end (e : Env α) (hm : e.moved 0 = some 0) (texts : Nat → Option (List α)) (t : Nat) (xs : List α)
    (hx : texts t = some xs) (v p : Nat) (skip : Bool) (k : Nat) (hk : (expected (e.sep p) skip xs).length ≤ k) :
    run e (World.start texts) (.make v t p skip :: (List.replicate k (.inc v) ++ [.deref v, .eqEnd v, .neEnd v]))
      = some (.unit :: (List.replicate k .unit ++ [.token [], .bool true, .bool false])) := by
  obtain ⟨s, hs⟩ := stateAt_some (e.sep p) xs skip 0
  obtain ⟨d, rfl⟩ := Nat.exists_eq_add_of_le hk
  have hc : construct e xs p skip = some s := by rw [construct_eq e hm]; exact hs
  obtain ⟨w', ht', hv', hr⟩ := run_incs e (xs := xs) (t := t) (v := v) [.deref v, .eqEnd v, .neEnd v]
    ((expected (e.sep p) skip xs).length + d) 0
    { texts := texts, vars := put (fun _ => none) v (some ⟨t, p, skip, s⟩) } s ⟨xs.length, xs.length⟩ hx
    (by simp [TokenIter.put]) hs (by rw [Nat.zero_add]; exact stateAt_end d)
  have hstep : step e (World.start texts) (.make v t p skip)
      = some ({ texts := texts, vars := put (fun _ => none) v (some ⟨t, p, skip, s⟩) }, .unit) := by
    simp [step, World.start, hx, hc]
  have hx' : w'.texts t = some xs := by rw [ht']; exact hx
  have hrun : run e w' [.deref v, .eqEnd v, .neEnd v] = some [.token [], .bool true, .bool false] := by
    simp [run, step, look, hv', hx', peek, hasNext]
  rw [run, hstep]
  simp only [Option.bind_some]
  rw [hr, hrun]
  rfl

example : exEnv.moved 0 = some 0 ∧ exTexts 0 = some exText ∧
    (expected (exEnv.sep 0) false exText).length ≤ 5 := by
  refine ⟨rfl, rfl, by decide⟩

/-! ### What does not hold -/

/-- No program that uses the result of `v++` is free of undefined behaviour. -/
theorem C107_postfix_never (e : Env α) (cs : List Cmd) : ∀ (w : World α), (∃ c ∈ cs, c.plain = false) →
    run e w cs = none := by
  induction cs with
  | nil => rintro w ⟨c, hc, -⟩; cases hc
  | cons d cs ih =>
    rintro w ⟨c, hc, hp⟩
    simp only [run]
    rcases List.mem_cons.1 hc with rfl | hc
    · cases c <;> first | rfl | cases hp
    · cases step e w d with
      | none => rfl
      | some r => simp [ih r.1 ⟨c, hc, hp⟩]

/-- `*v++` and `w = v++` do not give the old position: the operator returns a reference to a local variable. -/
theorem C107_postfix_violated : ∃ (e : Env Char) (texts : Nat → Option (List Char)) (cs : List Cmd),
    e.moved = some ∧ (Spec.run e.sep (Spec.start texts) cs).isSome = true ∧ run e (World.start texts) cs = none := by
  refine ⟨exEnv, exTexts, [.make 0 0 0 false, .postInc 0 1, .deref 1], rfl, by decide +kernel, ?_⟩
  exact C107_postfix_never _ _ _ ⟨.postInc 0 1, by decide, rfl⟩

theorem nextToken_step {p : α → Bool} {xs : List α} {skip : Bool} {te te' : Nat} (h : te < xs.length)
    (hm : moveIter p xs (te + 1) = some te') : nextToken p xs skip te
      = if skip ∧ te + 1 = te' then nextToken p xs skip te' else some ⟨te + 1, te'⟩ := by
  rw [nextToken, if_pos (by omega), if_neg (by omega)]
  split
  · rename_i h'; rw [hm] at h'; cases h'
  · rename_i t h'
    rw [hm] at h'
    obtain rfl := Option.some.inj h'
    rfl

/-- Iterators over the same characters, split differently, may be equal although what follows is not: with
`skip_empty` and without, both are equal at the first token of `a,,b;c,` and differ after `++`. -/
theorem C107_equal_settings_violated :
    run exEnv (World.start exTexts) [.make 0 0 0 false, .make 1 0 0 true, .eq 0 1, .inc 0, .inc 1, .eq 0 1, .deref 0, .deref 1]
      = some [.unit, .unit, .bool true, .unit, .unit, .bool false, .token [], .token ['b', ';', 'c']] := by
  have m0 : moveIter (exEnv.sep 0) exText 0 = some 1 :=
    Tokens.moveIter_run (pre := []) (a := ['a']) (rest := ",,b;c,".toList) (by decide) (Or.inr ⟨_, _, rfl, by decide⟩)
  have m2 : moveIter (exEnv.sep 0) exText 2 = some 2 :=
    Tokens.moveIter_run (pre := ['a', ',']) (a := []) (rest := ",b;c,".toList) (by decide)
      (Or.inr ⟨_, _, rfl, by decide⟩)
  have m3 : moveIter (exEnv.sep 0) exText 3 = some 6 :=
    Tokens.moveIter_run (pre := ['a', ',', ',']) (a := "b;c".toList) (rest := ",".toList) (by decide)
      (Or.inr ⟨_, _, rfl, by decide⟩)
  have n1 : nextToken (exEnv.sep 0) exText false 1 = some ⟨2, 2⟩ := by
    rw [nextToken_step (by decide) m2]; rfl
  have n2 : nextToken (exEnv.sep 0) exText true 2 = some ⟨3, 6⟩ := by
    rw [nextToken_step (by decide) m3]; rfl
  have n1' : nextToken (exEnv.sep 0) exText true 1 = some ⟨3, 6⟩ := by
    rw [nextToken_step (by decide) m2, if_pos (by decide)]; exact n2
  have c0 : construct exEnv exText 0 false = some ⟨0, 1⟩ := by
    rw [construct_eq _ rfl, initToken, m0]; rfl
  have c1 : construct exEnv exText 0 true = some ⟨0, 1⟩ := by
    rw [construct_eq _ rfl, initToken, m0]; rfl
  have hx : exTexts 0 = some exText := rfl
  obtain ⟨xs, hg⟩ : ∃ xs, xs = exText := ⟨_, rfl⟩
  rw [← hg] at hx c0 c1 n1 n1'
  have hl : xs.length = 7 := by rw [hg]; rfl
  have t1 : (xs.take 2).drop 2 = [] := by rw [hg]; rfl
  have t2 : (xs.take 6).drop 3 = ['b', ';', 'c'] := by rw [hg]; rfl
  simp [run, step, World.start, look, hx, c0, c1, TokenIter.put, next, peek, hl, n1, n1', t1, t2]

/-- A class of underlying iterators whose moved-from objects denote nothing, as with iterators that own their position. -/
def owning : Env Char := ⟨fun _ c => c == ',', fun _ => none⟩

/-- Underlying iterators whose moved-from objects are at the end of the sequence `a,b`. -/
def draining : Env Char := ⟨fun _ c => c == ',', fun _ => some 3⟩

/-- The constructor moves `first` twice.  With underlying iterators that a move changes the construction is undefined, or
the whole sequence becomes one token in spite of its separators. -/
theorem C107_moved_violated :
    (∀ texts, run owning (World.start texts) [.make 0 0 0 false] = none) ∧
      rangeFor draining "a,b".toList 0 false 3 = some ["a,b".toList] ∧
      expected (draining.sep 0) false "a,b".toList = ["a".toList, "b".toList] := by
  refine ⟨fun texts => ?_, ?_, by decide⟩
  · simp only [run, step, World.start]
    cases texts 0 <;> rfl
  · have hm : moveIter (draining.sep 0) "a,b".toList 3 = some 3 := by
      rw [moveIter]; rfl
    have hc : construct draining "a,b".toList 0 false = some ⟨0, 3⟩ := by
      simp only [construct, draining, Option.bind_some] at hm ⊢
      rw [hm]; rfl
    have hn : nextToken (draining.sep 0) "a,b".toList false 3 = some ⟨3, 3⟩ := Tokens.nextToken_end _ _ _
    simp only [rangeFor, hc, Option.bind_some]
    have h1 : hasNext "a,b".toList ⟨0, 3⟩ = true := rfl
    have h2 : hasNext "a,b".toList ⟨3, 3⟩ = false := rfl
    have h3 : peek "a,b".toList ⟨0, 3⟩ = some "a,b".toList := rfl
    simp only [forLoop, h1, if_true, h3, next, Option.bind_some, hn, Option.map_some, h2]
    rfl

end Verif.TokenIter
