import Verif.Model.FilterVars
/-!
# C99: a filter iterator is a position among the matching elements, whatever its policy

Programs with any number of filter iterators, with and without an end, over a sequence. The specification knows nothing of caches: an iterator is the position of an element that matches (or the end, if it has one), `++` goes to
the next match, `--` to the previous one, `*it` is the element. -/
set_option autoImplicit false
set_option linter.unusedSectionVars false

namespace Verif.FilterVars

open Verif.Ranges (Cache)

variable {α : Type}

/-! ## Specification -/

/-- Position `j` has an element that matches. -/
def hits (p : α → Bool) (xs : List α) (j : Nat) : Bool :=
  match xs[j]? with
  | some x => p x
  | none => false

/-- The first match at or after `i`. -/
def nextHit (p : α → Bool) (xs : List α) (i : Nat) : Option Nat := (List.range xs.length).find? fun j => decide (i ≤ j) && hits p xs j

/-- The last match before `i`. -/
def prevHit (p : α → Bool) (xs : List α) (i : Nat) : Option Nat := (List.range i).reverse.find? fun j => hits p xs j

/-- Where an iterator goes forward from `i`: the end if there is no match and the iterator has an end. -/
def goForward (p : α → Bool) (xs : List α) (hasEnd : Bool) (i : Nat) : Option Nat :=
  match nextHit p xs i with
  | some j => some j
  | none => if hasEnd then some xs.length else none

/-- The sequence, and of each variable its type and its position. -/
structure Spec (α : Type) where
  xs : List α
  vars : List (Kind × Nat)

/-- What the statements mean. `ub`: the statement goes beyond what filter iterators offer. -/
def sstep (p : α → Bool) (s : Spec α) : Op α → Res (Spec α) (Out α)
  | .make kind i =>
    if i ≤ s.xs.length then
      match goForward p s.xs kind.hasEnd i with
      | some j => .ok .done { s with vars := s.vars ++ [(kind, j)] }
      | none => .ub
    else .ub
  | .copy x to =>
    match s.vars[x]? with
    | some v => .ok .done { s with vars := s.vars ++ [(to, v.2)] }
    | none => .refused
  | .inc x =>
    match s.vars[x]? with
    | some v =>
      if v.2 < s.xs.length then
        match goForward p s.xs v.1.hasEnd (v.2 + 1) with
        | some j => .ok .done { s with vars := s.vars.set x (v.1, j) }
        | none => .ub
      else .ub
    | none => .refused
  | .dec x =>
    match s.vars[x]? with
    | some v =>
      match prevHit p s.xs v.2 with
      | some j => .ok .done { s with vars := s.vars.set x (v.1, j) }
      | none => .ub
    | none => .refused
  | .read x | .readConst x =>
    match s.vars[x]? with
    | some v =>
      match s.xs[v.2]? with
      | some a => .ok (.value a) s
      | none => .ub
    | none => .refused
  | .write x a =>
    match s.vars[x]? with
    | some v => if v.2 < s.xs.length then .ok .done { s with xs := s.xs.set v.2 a } else .ub
    | none => .refused
  | .poke i a => if i < s.xs.length then .ok .done { s with xs := s.xs.set i a } else .ub
  | .isAt x i =>
    match s.vars[x]? with
    | some v => .ok (.bool (decide (v.2 = i))) s
    | none => .refused

/-- A program. -/
def srun (p : α → Bool) : List (Op α) → Spec α → Res (Spec α) (List (Out α))
  | [], s => .ok [] s
  | op :: ops, s =>
    match sstep p s op with
    | .refused => .refused
    | .ub => .ub
    | .ok o s' =>
      match srun p ops s' with
      | .ok os s'' => .ok (o :: os) s''
      | .refused => .refused
      | .ub => .ub

/-- A caching iterator of this type works: never for small values that are not trivially copyable; for big ones only without an end. -/
def Usable (k : Cache) (kind : Kind) : Bool := !kind.caching || k == .plain || (k == .big && !kind.hasEnd)

/-- The statements for which the property is proved: `w` says whether the program may change elements, which excludes caching iterators. Copies are of the same type, or of an iterator with an end to one that does not cache;
a const iterator without an end is not dereferenced. The kinds of the variables are given. -/
def Fine (k : Cache) (w : Bool) (kinds : List Kind) : Op α → Bool
  | .make kind _ => Usable k kind && (!w || !kind.caching)
  | .copy x to => match kinds[x]? with | some f => f == to || (f.hasEnd && !to.caching) | none => false
  | .readConst x => match kinds[x]? with | some f => f.hasEnd | none => false
  | .write _ _ => w
  | .poke _ _ => w
  | _ => true

/-- The kinds of the variables after a statement. -/
def kindsAfter (kinds : List Kind) : Op α → List Kind
  | .make kind _ => kinds ++ [kind]
  | .copy _ to => kinds ++ [to]
  | _ => kinds

/-- All statements of a program. -/
def FineAll (k : Cache) (w : Bool) : List Kind → List (Op α) → Bool
  | _, [] => true
  | kinds, op :: ops => Fine k w kinds op && FineAll k w (kindsAfter kinds op) ops

/-! ## Lemmas -/

theorem nextHit_some (p : α → Bool) (xs : List α) (i j : Nat) : nextHit p xs i = some j ↔ i ≤ j ∧ hits p xs j = true ∧ ∀ l, i ≤ l → l < j → hits p xs l = false := by
  unfold nextHit
  rw [List.find?_range_eq_some]
  simp only [List.mem_range, Bool.and_eq_true, decide_eq_true_eq, Bool.not_eq_eq_eq_not, Bool.not_true, Bool.and_eq_false_iff, decide_eq_false_iff_not]
  constructor
  · rintro ⟨⟨h1, h2⟩, h3, h4⟩
    exact ⟨h1, h2, fun l hl hj => (h4 l hj).resolve_left (fun h => h hl)⟩
  · rintro ⟨h1, h2, h3⟩
    refine ⟨⟨h1, h2⟩, ?_, fun l hj => ?_⟩
    · unfold hits at h2
      cases hx : xs[j]? with
      | none => rw [hx] at h2; cases h2
      | some x => exact (List.getElem?_eq_some_iff.mp hx).1
    · by_cases hl : i ≤ l
      · exact Or.inr (h3 l hl hj)
      · exact Or.inl hl

theorem nextHit_none (p : α → Bool) (xs : List α) (i : Nat) : nextHit p xs i = none ↔ ∀ l, i ≤ l → hits p xs l = false := by
  unfold nextHit
  rw [List.find?_eq_none]
  simp only [List.mem_range, Bool.and_eq_true, decide_eq_true_eq, not_and, Bool.not_eq_true]
  constructor
  · intro h l hl
    by_cases hx : l < xs.length
    · exact h l hx hl
    · unfold hits; rw [List.getElem?_eq_none (by omega)]
  · exact fun h l _ hl => h l hl

theorem nextHit_here (p : α → Bool) (xs : List α) (i : Nat) (h : hits p xs i = true) : nextHit p xs i = some i :=
  (nextHit_some p xs i i).mpr ⟨Nat.le_refl _, h, fun l h1 h2 => by omega⟩

theorem nextHit_skip (p : α → Bool) (xs : List α) (i : Nat) (h : hits p xs i = false) : nextHit p xs i = nextHit p xs (i + 1) := by
  cases hn : nextHit p xs (i + 1) with
  | none =>
    rw [nextHit_none] at hn ⊢
    intro l hl
    by_cases he : l = i
    · rw [he]; exact h
    · exact hn l (by omega)
  | some j =>
    rw [nextHit_some] at hn ⊢
    refine ⟨by omega, hn.2.1, fun l h1 h2 => ?_⟩
    by_cases he : l = i
    · rw [he]; exact h
    · exact hn.2.2 l (by omega) h2

theorem nextHit_end (p : α → Bool) (xs : List α) (i : Nat) (h : xs.length ≤ i) : nextHit p xs i = none := by
  rw [nextHit_none]
  intro l hl
  unfold hits; rw [List.getElem?_eq_none (by omega)]

theorem prevHit_succ (p : α → Bool) (xs : List α) (i : Nat) : prevHit p xs (i + 1) = if hits p xs i then some i else prevHit p xs i := by
  unfold prevHit
  rw [List.range_succ, List.reverse_append, List.reverse_singleton, List.singleton_append, List.find?_cons]
  cases hits p xs i <;> rfl

/-- what a variable is like: its type and position, and what is cached -/
structure Good (k : Cache) (w : Bool) (xs : List α) (v : Var α) (c : Kind × Nat) : Prop where
  kind : v.kind = c.1
  pos : v.pos = c.2
  le : v.pos ≤ xs.length
  usable : Usable k v.kind = true
  still : v.kind.caching = true → w = false
  fresh : v.kind.caching = true → v.pos < xs.length → v.cache = xs[v.pos]?
  full : v.kind.caching = true → k = .big → v.cache.isSome = true

theorem save_some (k : Cache) (v : Var α) (x : α) (hu : Usable k v.kind = true) : save k v x = some (if v.kind.caching then { v with cache := some x } else v) := by
  unfold save
  by_cases hc : v.kind.caching = true
  · rw [if_pos hc, if_pos hc]
    unfold Usable at hu
    rw [hc] at hu
    cases k with
    | small => cases he : v.kind.hasEnd <;> simp [he] at hu
    | big => cases v.cache <;> rfl
    | plain => cases v.cache <;> rfl
  · rw [if_neg hc, if_neg hc]

/-- the variable after its element was looked at -/
def looked (v : Var α) (x : α) : Var α := if v.kind.caching then { v with cache := some x } else v

theorem looked_kind (v : Var α) (x : α) : (looked v x).kind = v.kind := by unfold looked; split <;> rfl
theorem looked_pos (v : Var α) (x : α) : (looked v x).pos = v.pos := by unfold looked; split <;> rfl
theorem looked_cache (v : Var α) (x : α) (h : v.kind.caching = true) : (looked v x).cache = some x := by unfold looked; rw [if_pos h]

theorem skipForward_spec (k : Cache) (w : Bool) (p : α → Bool) (xs : List α) (fuel : Nat) (v : Var α) (hl : v.pos ≤ xs.length) (hf : xs.length - v.pos < fuel) (hu : Usable k v.kind = true)
    (hw : v.kind.caching = true → w = false) (j : Nat) (hj : goForward p xs v.kind.hasEnd v.pos = some j) :
    ∃ v', skipForward k p xs fuel v = some v' ∧ Good k w xs v' (v.kind, j) := by
  induction fuel generalizing v with
  | zero => omega
  | succ fuel ih =>
    unfold skipForward
    by_cases he : v.pos = xs.length
    · have hn := nextHit_end p xs v.pos (by omega)
      unfold goForward at hj
      rw [hn] at hj
      cases hk : v.kind.hasEnd with
      | false => rw [hk] at hj; cases hj
      | true =>
        rw [hk] at hj
        cases hj
        rw [if_pos (by rw [he]; simp)]
        refine ⟨v, rfl, ⟨rfl, he, hl, hu, hw, fun _ h => by omega, fun hc hb => ?_⟩⟩
        unfold Usable at hu
        rw [hc, hk, hb] at hu
        cases hu
    · have hlt : v.pos < xs.length := by omega
      rw [if_neg (by simp [he])]
      have hx : xs[v.pos]? = some xs[v.pos] := List.getElem?_eq_getElem hlt
      rw [hx]; dsimp only
      rw [save_some k v _ hu]; dsimp only
      have hh : hits p xs v.pos = p xs[v.pos] := by unfold hits; rw [hx]
      rw [← looked]
      cases hp : p xs[v.pos] with
      | true =>
        rw [if_pos rfl]
        have : goForward p xs v.kind.hasEnd v.pos = some v.pos := by unfold goForward; rw [nextHit_here p xs v.pos (by rw [hh, hp])]
        rw [this] at hj; cases hj
        refine ⟨_, rfl, ⟨looked_kind _ _, looked_pos _ _, by rw [looked_pos]; exact hl, by rw [looked_kind]; exact hu, by rw [looked_kind]; exact hw, fun hc _ => ?_, fun hc _ => ?_⟩⟩
        · rw [looked_kind] at hc; rw [looked_cache _ _ hc, looked_pos, hx]
        · rw [looked_kind] at hc; rw [looked_cache _ _ hc]; rfl
      | false =>
        rw [if_neg (by simp)]
        have hj' : goForward p xs v.kind.hasEnd (v.pos + 1) = some j := by
          unfold goForward at hj ⊢
          rw [nextHit_skip p xs v.pos (by rw [hh, hp])] at hj
          exact hj
        have := ih { looked v xs[v.pos] with pos := (looked v xs[v.pos]).pos + 1 } (by dsimp only; rw [looked_pos]; omega) (by dsimp only; rw [looked_pos]; omega) (by dsimp only; rw [looked_kind]; exact hu)
          (by dsimp only; rw [looked_kind]; exact hw) (by dsimp only; rw [looked_kind, looked_pos]; exact hj')
        dsimp only at this
        rwa [show ((looked v xs[v.pos]).kind, j) = (v.kind, j) by rw [looked_kind]] at this

theorem skipBackward_spec (k : Cache) (w : Bool) (p : α → Bool) (xs : List α) (fuel : Nat) (v : Var α) (hl : v.pos < xs.length) (hf : v.pos < fuel) (hu : Usable k v.kind = true)
    (hw : v.kind.caching = true → w = false) (j : Nat) (hj : prevHit p xs (v.pos + 1) = some j) :
    ∃ v', skipBackward k p xs fuel v = some v' ∧ Good k w xs v' (v.kind, j) := by
  induction fuel generalizing v with
  | zero => omega
  | succ fuel ih =>
    unfold skipBackward
    have hx : xs[v.pos]? = some xs[v.pos] := List.getElem?_eq_getElem hl
    rw [hx]; dsimp only
    rw [save_some k v _ hu]; dsimp only
    have hh : hits p xs v.pos = p xs[v.pos] := by unfold hits; rw [hx]
    rw [← looked]
    rw [prevHit_succ, hh] at hj
    cases hp : p xs[v.pos] with
    | true =>
      rw [hp, if_pos rfl] at hj
      rw [if_pos rfl]
      cases hj
      refine ⟨_, rfl, ⟨looked_kind _ _, looked_pos _ _, by rw [looked_pos]; omega, by rw [looked_kind]; exact hu, by rw [looked_kind]; exact hw, fun hc _ => ?_, fun hc _ => ?_⟩⟩
      · rw [looked_kind] at hc; rw [looked_cache _ _ hc, looked_pos, hx]
      · rw [looked_kind] at hc; rw [looked_cache _ _ hc]; rfl
    | false =>
      rw [hp, if_neg (by simp)] at hj
      rw [if_neg (by simp), looked_pos]
      by_cases h0 : v.pos = 0
      · rw [h0] at hj; cases hj
      · rw [if_neg h0]
        have := ih { looked v xs[v.pos] with pos := v.pos - 1 } (by dsimp only; omega) (by dsimp only; omega) (by dsimp only; rw [looked_kind]; exact hu)
          (by dsimp only; rw [looked_kind]; exact hw) (by dsimp only; rw [show v.pos - 1 + 1 = v.pos by omega]; exact hj)
        dsimp only at this
        rwa [show ((looked v xs[v.pos]).kind, j) = (v.kind, j) by rw [looked_kind]] at this

/-- the states correspond -/
structure Rel (k : Cache) (w : Bool) (s : St α) (c : Spec α) : Prop where
  xs : s.xs = c.xs
  len : s.vars.length = c.vars.length
  vars : ∀ (x : Nat) (v : Var α) (d : Kind × Nat), s.vars[x]? = some v → c.vars[x]? = some d → Good k w s.xs v d

theorem Rel.get (k : Cache) (w : Bool) (s : St α) (c : Spec α) (h : Rel k w s c) (x : Nat) (d : Kind × Nat) (hd : c.vars[x]? = some d) : ∃ v, s.vars[x]? = some v ∧ Good k w s.xs v d := by
  have hx : x < s.vars.length := by rw [h.len]; exact (List.getElem?_eq_some_iff.mp hd).1
  exact ⟨_, List.getElem?_eq_getElem hx, h.vars x _ d (List.getElem?_eq_getElem hx) hd⟩

theorem Rel.push (k : Cache) (w : Bool) (s : St α) (c : Spec α) (h : Rel k w s c) (v : Var α) (d : Kind × Nat) (hv : Good k w s.xs v d) :
    Rel k w { s with vars := s.vars ++ [v] } { c with vars := c.vars ++ [d] } := by
  refine ⟨h.xs, by simp [h.len], fun x v' d' hx hd => ?_⟩
  dsimp only at hx hd
  by_cases hl : x < s.vars.length
  · rw [List.getElem?_append_left hl] at hx
    rw [List.getElem?_append_left (by rw [← h.len]; exact hl)] at hd
    exact h.vars x v' d' hx hd
  · rw [List.getElem?_append_right (by omega)] at hx
    rw [List.getElem?_append_right (by rw [← h.len]; omega), ← h.len] at hd
    by_cases he : x - s.vars.length = 0
    · rw [he] at hx hd; cases hx; cases hd; exact hv
    · rw [List.getElem?_eq_none (by simp; omega)] at hx; cases hx

theorem Rel.put (k : Cache) (w : Bool) (s : St α) (c : Spec α) (h : Rel k w s c) (x : Nat) (v : Var α) (d : Kind × Nat) (hv : Good k w s.xs v d) :
    Rel k w { s with vars := s.vars.set x v } { c with vars := c.vars.set x d } := by
  refine ⟨h.xs, by simp [h.len], fun y v' d' hy hd => ?_⟩
  dsimp only at hy hd
  rw [List.getElem?_set] at hy hd
  by_cases he : x = y
  · rw [if_pos he] at hy hd
    split at hy
    · split at hd
      · cases hy; cases hd; exact hv
      · cases hd
    · cases hy
  · rw [if_neg he] at hy hd
    exact h.vars y v' d' hy hd

theorem Good.setElem (k : Cache) (w : Bool) (xs : List α) (v : Var α) (d : Kind × Nat) (h : Good k w xs v d) (hw : w = true) (i : Nat) (a : α) : Good k w (xs.set i a) v d := by
  have hc : v.kind.caching = true → False := fun hc => by have := h.still hc; rw [hw] at this; cases this
  exact ⟨h.kind, h.pos, by rw [List.length_set]; exact h.le, h.usable, h.still, fun c => (hc c).elim, fun c => (hc c).elim⟩

theorem read_rel (k : Cache) (w : Bool) (s : St α) (c : Spec α) (h : Rel k w s c) (v : Var α) (d : Kind × Nat) (hv : Good k w s.xs v d) (a : α) (ha : c.xs[d.2]? = some a) : readVar s v = .ok (.value a) s := by
  have hx : s.xs[v.pos]? = some a := by rw [h.xs, hv.pos]; exact ha
  have hl := (List.getElem?_eq_some_iff.mp hx).1
  unfold readVar
  by_cases hc : v.kind.caching = true
  · rw [if_pos hc, hv.fresh hc hl, hx]
  · rw [if_neg hc, hx]

theorem step_rel (k : Cache) (w : Bool) (p : α → Bool) (s : St α) (c c' : Spec α) (h : Rel k w s c) (op : Op α) (o : Out α) (hf : Fine k w (c.vars.map Prod.fst) op = true) (hs : sstep p c op = .ok o c') :
    ∃ s', step k p s op = .ok o s' ∧ Rel k w s' c' ∧ c'.vars.map Prod.fst = kindsAfter (c.vars.map Prod.fst) op := by
  have hset : ∀ (x : Nat) (d e : Kind × Nat), c.vars[x]? = some d → e.1 = d.1 → (c.vars.set x e).map Prod.fst = c.vars.map Prod.fst := by
    intro x d e hd he
    rw [List.map_set]
    apply List.ext_getElem?
    intro y
    rw [List.getElem?_set]
    split
    · rename_i hxy
      subst hxy
      split
      · rw [List.getElem?_map, hd, he]; rfl
      · rename_i hn; rw [List.length_map] at hn; exact absurd (List.getElem?_eq_some_iff.mp hd).1 hn
    · rfl
  cases op with
  | make kind i =>
    simp only [sstep] at hs
    repeat' split at hs
    all_goals first | (cases hs; done) | skip
    rename_i hi _ j hj
    cases hs
    simp only [Fine, Bool.and_eq_true] at hf
    have hw : kind.caching = true → w = false := fun hc => by
      cases hw : w with
      | false => rfl
      | true => rw [hw, hc] at hf; simp at hf
    obtain ⟨v, h1, h2⟩ := skipForward_spec k w p s.xs (s.xs.length + 1) ⟨kind, i, none⟩ (by rw [h.xs]; exact hi) (by dsimp only; omega) hf.1 hw j (by rw [h.xs]; exact hj)
    refine ⟨{ s with vars := s.vars ++ [v] }, ?_, h.push k w s c v _ h2, by simp [kindsAfter]⟩
    simp only [step, make]
    rw [if_pos (by rw [h.xs]; exact hi), h1]; rfl
  | copy x to =>
    simp only [sstep] at hs
    split at hs
    · rename_i d hd
      cases hs
      obtain ⟨v, hv, hg⟩ := h.get k w s c x d hd
      simp only [Fine, List.getElem?_map, hd, Option.map_some, Bool.or_eq_true, beq_iff_eq, Bool.and_eq_true, Bool.not_eq_true'] at hf
      simp only [step, hv]
      by_cases he : v.kind = to
      · have hcl : ∃ v', clone k v = some v' ∧ Good k w s.xs v' (to, d.2) := by
          unfold clone
          by_cases hc : v.kind.caching = true
          · rw [if_pos hc]
            refine ⟨v, ?_, ⟨he, hg.pos, hg.le, hg.usable, hg.still, hg.fresh, hg.full⟩⟩
            have : k.copy v.cache = some v.cache := by
              cases k with
              | plain => rfl
              | small => have hu := hg.usable; unfold Usable at hu; rw [hc] at hu; cases hh : v.kind.hasEnd <;> rw [hh] at hu <;> cases hu
              | big => have := hg.full hc rfl; cases hcc : v.cache <;> rw [hcc] at this <;> first | (cases this; done) | rfl
            rw [this]; rfl
          · rw [if_neg hc]
            exact ⟨v, rfl, ⟨he, hg.pos, hg.le, hg.usable, hg.still, hg.fresh, hg.full⟩⟩
        obtain ⟨v', h1, h2⟩ := hcl
        refine ⟨{ s with vars := s.vars ++ [v'] }, ?_, h.push k w s c v' _ h2, by simp [kindsAfter]⟩
        rw [if_pos (by simp [convertible, he]), if_pos he, h1]; rfl
      · rcases hf with hf | ⟨hf1, hf2⟩
        · exact absurd (hg.kind.trans hf) he
        · refine ⟨{ s with vars := s.vars ++ [⟨to, v.pos, none⟩] }, ?_, h.push k w s c _ _ ⟨rfl, hg.pos, hg.le, by simp [Usable, hf2], (fun hc => by rw [hf2] at hc; cases hc), (fun hc => by rw [hf2] at hc; cases hc),
            (fun hc => by rw [hf2] at hc; cases hc)⟩, by simp [kindsAfter]⟩
          rw [if_pos (by simp [convertible, hg.kind, hf1]), if_neg he]
          simp [convert, hf2, added]
    · cases hs
  | inc x =>
    simp only [sstep] at hs
    repeat' split at hs
    all_goals first | (cases hs; done) | skip
    rename_i d hd hlt _ j hj
    cases hs
    obtain ⟨v, hv, hg⟩ := h.get k w s c x d hd
    have hvl : v.pos < s.xs.length := by rw [hg.pos, h.xs]; exact hlt
    obtain ⟨v', h1, h2⟩ := skipForward_spec k w p s.xs (s.xs.length + 1) { v with pos := v.pos + 1 } (by dsimp only; omega) (by dsimp only; omega) hg.usable hg.still j
      (by dsimp only; rw [hg.kind, hg.pos, h.xs]; exact hj)
    dsimp only at h2
    rw [hg.kind] at h2
    refine ⟨{ s with vars := s.vars.set x v' }, ?_, h.put k w s c x v' _ h2, hset x d _ hd rfl⟩
    simp only [step, hv, inc]
    rw [if_pos hvl, h1]; rfl
  | dec x =>
    simp only [sstep] at hs
    repeat' split at hs
    all_goals first | (cases hs; done) | skip
    rename_i d hd _ j hj
    cases hs
    obtain ⟨v, hv, hg⟩ := h.get k w s c x d hd
    have h0 : v.pos ≠ 0 := by
      intro h0
      rw [← hg.pos, h0] at hj; cases hj
    have hle := hg.le
    obtain ⟨v', h1, h2⟩ := skipBackward_spec k w p s.xs (s.xs.length + 1) { v with pos := v.pos - 1 } (by dsimp only; omega) (by dsimp only; omega) hg.usable hg.still j
      (by dsimp only; rw [show v.pos - 1 + 1 = v.pos by omega, hg.pos, h.xs]; exact hj)
    dsimp only at h2
    rw [hg.kind] at h2
    refine ⟨{ s with vars := s.vars.set x v' }, ?_, h.put k w s c x v' _ h2, hset x d _ hd rfl⟩
    simp only [step, hv, dec]
    rw [if_neg h0, h1]; rfl
  | read x =>
    simp only [sstep] at hs
    repeat' split at hs
    all_goals first | (cases hs; done) | skip
    rename_i d hd _ a ha
    cases hs
    obtain ⟨v, hv, hg⟩ := h.get k w s c x d hd
    exact ⟨s, by simp only [step, hv]; exact read_rel k w s c h v d hg a ha, h, rfl⟩
  | readConst x =>
    simp only [sstep] at hs
    repeat' split at hs
    all_goals first | (cases hs; done) | skip
    rename_i d hd _ a ha
    cases hs
    obtain ⟨v, hv, hg⟩ := h.get k w s c x d hd
    simp only [Fine, List.getElem?_map, hd, Option.map_some] at hf
    refine ⟨s, ?_, h, rfl⟩
    simp only [step, hv]
    rw [hg.kind, if_pos hf]
    exact read_rel k w s c h v d hg a ha
  | write x a =>
    simp only [sstep] at hs
    repeat' split at hs
    all_goals first | (cases hs; done) | skip
    rename_i d hd hlt
    cases hs
    obtain ⟨v, hv, hg⟩ := h.get k w s c x d hd
    have hw : w = true := hf
    have hc : v.kind.caching = false := by
      cases hc : v.kind.caching with
      | false => rfl
      | true => have := hg.still hc; rw [hw] at this; cases this
    refine ⟨{ s with xs := s.xs.set v.pos a }, ?_, ⟨by dsimp only; rw [h.xs, hg.pos], h.len, fun y v' d' hy hd' => (h.vars y v' d' hy hd').setElem k w _ _ _ hw _ _⟩, rfl⟩
    simp only [step, hv, writeVar]
    rw [if_neg (by simp [hc]), if_pos (by rw [hg.pos, h.xs]; exact hlt)]
  | poke i a =>
    simp only [sstep] at hs
    split at hs
    · rename_i hlt
      cases hs
      refine ⟨{ s with xs := s.xs.set i a }, ?_, ⟨by dsimp only; rw [h.xs], h.len, fun y v' d' hy hd' => (h.vars y v' d' hy hd').setElem k w _ _ _ hf _ _⟩, rfl⟩
      simp only [step]
      rw [if_pos (by rw [h.xs]; exact hlt)]
    · cases hs
  | isAt x i =>
    simp only [sstep] at hs
    split at hs
    · rename_i d hd
      cases hs
      obtain ⟨v, hv, hg⟩ := h.get k w s c x d hd
      exact ⟨s, by simp only [step, hv, hg.pos], h, rfl⟩
    · cases hs

theorem skipForward_none (k : Cache) (p : α → Bool) (xs : List α) (fuel : Nat) (v : Var α) (he : v.kind.hasEnd = false) (hn : nextHit p xs v.pos = none) : skipForward k p xs fuel v = none := by
  induction fuel generalizing v with
  | zero => rfl
  | succ fuel ih =>
    unfold skipForward
    rw [if_neg (by simp [he])]
    cases hx : xs[v.pos]? with
    | none => rfl
    | some x =>
      dsimp only
      cases hs : save k v x with
      | none => rfl
      | some v' =>
        dsimp only
        have hv : v'.kind = v.kind ∧ v'.pos = v.pos := by
          unfold save at hs
          split at hs
          · cases hc : k.save v.cache x with
            | none => rw [hc] at hs; cases hs
            | some c => rw [hc] at hs; cases hs; exact ⟨rfl, rfl⟩
          · cases hs; exact ⟨rfl, rfl⟩
        have hh := (nextHit_none p xs v.pos).mp hn v.pos (Nat.le_refl _)
        have hp : p x = false := by unfold hits at hh; rw [hx] at hh; exact hh
        rw [if_neg (by simp [hp])]
        refine ih _ (by dsimp only; rw [hv.1]; exact he) ?_
        dsimp only
        rw [hv.2, ← nextHit_skip p xs v.pos hh]
        exact hn

/-! ## The property -/

/-- **C99** (partial: for the programs `FineAll` admits). Whatever the policies of the iterators, a program gives the results, and leaves the sequence, that the specification says, wherever this is defined. Missing: programs with
caching iterators that change elements, caching iterators made of iterators that do not cache, caching iterators over small values that are not trivially copyable or, with an end, over big ones, and const iterators without an end:
see the `_violated` theorems. -/
theorem C99_programs_partial (k : Cache) (w : Bool) (p : α → Bool) (xs : List α) (prog : List (Op α)) (hf : FineAll k w [] prog = true) (os : List (Out α)) (c : Spec α) (hs : srun p prog ⟨xs, []⟩ = .ok os c) :
    ∃ s, run k p prog ⟨xs, []⟩ = .ok os s ∧ s.xs = c.xs := by
  have key : ∀ (prog : List (Op α)) (s : St α) (b : Spec α) (os : List (Out α)), Rel k w s b → FineAll k w (b.vars.map Prod.fst) prog = true → srun p prog b = .ok os c →
      ∃ s', run k p prog s = .ok os s' ∧ s'.xs = c.xs := by
    intro prog
    induction prog with
    | nil => intro s b os hr _ h; cases h; exact ⟨s, rfl, hr.xs⟩
    | cons op ops ih =>
      intro s b os hr hf h
      simp only [FineAll, Bool.and_eq_true] at hf
      simp only [srun] at h
      split at h
      · cases h
      · cases h
      · rename_i o b' ho
        split at h
        · rename_i os' b'' hos
          cases h
          obtain ⟨s', h1, h2, h3⟩ := step_rel k w p s b b' hr op o hf.1 ho
          obtain ⟨s'', h4, h5⟩ := ih s' b' os' h2 (by rw [h3]; exact hf.2) hos
          exact ⟨s'', by simp only [run, h1, h4], h5⟩
        · cases h
        · cases h
  exact key prog ⟨xs, []⟩ ⟨xs, []⟩ os ⟨rfl, rfl, fun x v d hx => by simp at hx⟩ hf hs

/-- What the specification's positions are: the first match from a position on, and the last one before it. -/
theorem C99_spec (p : α → Bool) (xs : List α) (i j : Nat) :
    (nextHit p xs i = some j ↔ (i ≤ j ∧ (∃ x, xs[j]? = some x ∧ p x = true) ∧ ∀ l x, i ≤ l → l < j → xs[l]? = some x → p x = false)) ∧
    (prevHit p xs i = some j ↔ (j < i ∧ (∃ x, xs[j]? = some x ∧ p x = true) ∧ ∀ l x, j < l → l < i → xs[l]? = some x → p x = false)) := by
  have hit : ∀ l, hits p xs l = true ↔ ∃ x, xs[l]? = some x ∧ p x = true := by
    intro l; unfold hits; cases xs[l]? <;> simp
  have miss : ∀ l, hits p xs l = false ↔ ∀ x, xs[l]? = some x → p x = false := by
    intro l; unfold hits; cases xs[l]? <;> simp
  constructor
  · rw [nextHit_some, hit]
    constructor
    · exact fun ⟨a, b, c⟩ => ⟨a, b, fun l x h1 h2 hx => (miss l).mp (c l h1 h2) x hx⟩
    · exact fun ⟨a, b, c⟩ => ⟨a, b, fun l h1 h2 => (miss l).mpr fun x hx => c l x h1 h2 hx⟩
  · rw [← hit]
    induction i with
    | zero => simp [prevHit]
    | succ i ih =>
      rw [prevHit_succ]
      cases hh : hits p xs i with
      | true =>
        rw [if_pos rfl]
        constructor
        · intro h; cases h; exact ⟨Nat.lt_succ_self _, hh, fun l x h1 h2 => by omega⟩
        · rintro ⟨h1, h2, h3⟩
          by_cases he : j = i
          · rw [he]
          · obtain ⟨x, hx, hp⟩ := (hit i).mp hh
            have := h3 i x (by omega) (by omega) hx
            rw [hp] at this; cases this
      | false =>
        rw [if_neg (by simp), ih]
        constructor
        · rintro ⟨h1, h2, h3⟩
          refine ⟨by omega, h2, fun l x h4 h5 hx => ?_⟩
          by_cases he : l = i
          · rw [he] at hx; exact (miss i).mp hh x hx
          · exact h3 l x h4 (by omega) hx
        · rintro ⟨h1, h2, h3⟩
          by_cases he : j = i
          · rw [he, hh] at h2; cases h2
          · exact ⟨by omega, h2, fun l x h4 h5 hx => h3 l x h4 (by omega) hx⟩

/-- Without an end there must be a match: making such an iterator, or incrementing it, where no match follows is undefined, whatever the policy. -/
theorem C99_past_last (k : Cache) (p : α → Bool) (s : St α) (caching : Bool) (i : Nat) (h : ∀ j x, i ≤ j → s.xs[j]? = some x → p x = false) :
    step k p s (.make ⟨false, caching⟩ i) = .ub ∧
    ∀ x v, s.vars[x]? = some v → v.kind.hasEnd = false → v.pos + 1 = i → step k p s (.inc x) = .ub := by
  have hn : nextHit p s.xs i = none := by
    rw [nextHit_none]
    intro l hl
    unfold hits
    cases hx : s.xs[l]? with
    | none => rfl
    | some x => exact h l x hl hx
  constructor
  · simp only [step, make]
    split
    · rw [skipForward_none k p s.xs _ _ rfl hn]; rfl
    · rfl
  · intro x v hv he hi
    simp only [step, hv, inc]
    split
    · rw [skipForward_none k p s.xs _ { v with pos := v.pos + 1 } he (by dsimp only; rw [hi]; exact hn)]; rfl
    · rfl

/-! ## Non-vacuity -/

/-- the even ones -/
def even (n : Nat) : Bool := n % 2 == 0

/-- all kinds of iterators over a sequence that is not changed -/
def reading : List (Op Nat) := [.make ⟨true, true⟩ 0, .read 0, .inc 0, .copy 0 ⟨true, true⟩, .inc 0, .read 1, .isAt 0 5, .copy 1 ⟨false, false⟩, .dec 2, .read 2, .make ⟨false, true⟩ 2, .read 3, .readConst 1, .dec 0, .read 0]

/-- iterators that do not cache, with writes through them -/
def writing : List (Op Nat) := [.make ⟨true, false⟩ 0, .write 0 10, .inc 0, .poke 3 7, .read 0, .make ⟨false, false⟩ 0, .read 1, .inc 0, .isAt 0 5]

example : FineAll .plain false [] reading = true := by decide +kernel
example : ∃ c, srun even reading ⟨[1, 2, 3, 4, 5], []⟩ = .ok [.done, .value 2, .done, .done, .done, .value 4, .bool true, .done, .done, .value 2, .done, .value 4, .value 4, .done, .value 4] c := ⟨_, rfl⟩
example : FineAll .small true [] writing = true := by decide +kernel
example : ∃ c, srun even writing ⟨[1, 2, 3, 4, 5], []⟩ = .ok [.done, .done, .done, .done, .value 7, .done, .value 10, .done, .bool true] c ∧ c.xs = [1, 10, 3, 7, 5] := ⟨_, rfl, rfl⟩
example : (∀ j x, 4 ≤ j → [1, 2, 3, 4, 5][j]? = some x → even x = false) := by
  intro j x h hx
  match j, h with
  | 4, _ => cases hx; rfl
  | j + 5, _ => simp at hx

/-! ## Where the code falls short -/

/-- Writing through a caching iterator never changes the sequence: the reference is to the cached copy. -/
theorem C99_write_violated (k : Cache) (p : α → Bool) (s s' : St α) (x : Nat) (v : Var α) (a : α) (o : Out α) (hv : s.vars[x]? = some v) (hc : v.kind.caching = true) (h : step k p s (.write x a) = .ok o s') : s'.xs = s.xs := by
  simp only [step, hv, writeVar] at h
  rw [if_pos hc] at h
  split at h
  · cases h; rfl
  · cases h

/-- What is written through a caching iterator that is at an element is what it shows afterwards. -/
theorem C99_write_cached (k : Cache) (p : α → Bool) (s : St α) (x : Nat) (v : Var α) (a b : α) (hv : s.vars[x]? = some v)
    (hc : v.kind.caching = true) (hb : v.cache = some b) :
    ∃ s', step k p s (.write x a) = .ok .done s' ∧ s'.xs = s.xs ∧ step k p s' (.read x) = .ok (.value a) s' := by
  refine ⟨{ s with vars := s.vars.set x { v with cache := some a } }, by simp [step, hv, writeVar, hc, hb], rfl, ?_⟩
  have hlt := (List.getElem?_eq_some_iff.1 hv).1
  simp [step, readVar, hlt, hc]

example : (⟨[1, 2, 3], [⟨⟨true, true⟩, 1, some 2⟩]⟩ : St Nat).vars[0]? = some ⟨⟨true, true⟩, 1, some 2⟩ := rfl

/-- So the specification is missed: the program writes 20 over the 2 and reads 2 from the sequence. -/
theorem C99_write_witness_violated : run .plain even [.make ⟨true, true⟩ 0, .write 0 20, .make ⟨true, false⟩ 0, .read 1] ⟨[1, 2, 3], []⟩ = .ok [.done, .done, .done, .value 2] ⟨[1, 2, 3], [⟨⟨true, true⟩, 1, some 20⟩, ⟨⟨true, false⟩, 1, none⟩]⟩ ∧
    ∃ c, srun even [.make ⟨true, true⟩ 0, .write 0 20, .make ⟨true, false⟩ 0, .read 1] ⟨[1, 2, 3], []⟩ = .ok [.done, .done, .done, .value 20] c := ⟨rfl, _, rfl⟩

/-- A caching iterator shows the element as it was when the iterator came to it. -/
theorem C99_stale_violated : run .plain even [.make ⟨true, true⟩ 0, .poke 1 20, .read 0] ⟨[1, 2, 3], []⟩ = .ok [.done, .done, .value 2] ⟨[1, 20, 3], [⟨⟨true, true⟩, 1, some 2⟩]⟩ ∧
    ∃ c, srun even [.make ⟨true, true⟩ 0, .poke 1 20, .read 0] ⟨[1, 2, 3], []⟩ = .ok [.done, .done, .value 20] c := ⟨rfl, _, rfl⟩

/-- A caching iterator that is made of one that does not cache has nothing to show: reading it is undefined, wherever it is. -/
theorem C99_convert_violated (k : Cache) (p : α → Bool) (s : St α) (x : Nat) (v : Var α) (e : Bool) (hv : s.vars[x]? = some v) (hk : v.kind = ⟨true, false⟩) :
    ∃ s', step k p s (.copy x ⟨e, true⟩) = .ok .done s' ∧ step k p s' (.read s.vars.length) = .ub := by
  refine ⟨{ s with vars := s.vars ++ [⟨⟨e, true⟩, v.pos, none⟩] }, ?_, ?_⟩
  · simp only [step, hv, hk, convertible, Bool.or_true, if_true]
    rw [if_neg (by simp)]
    simp [convert, hk, added]
  · simp [step, readVar]

/-- A const iterator without an end cannot be dereferenced, and such iterators convert to no other kind of filter iterator. -/
theorem C99_const_violated (k : Cache) (p : α → Bool) (s : St α) (x : Nat) (v : Var α) (hv : s.vars[x]? = some v) (hk : v.kind.hasEnd = false) :
    step k p s (.readConst x) = .refused ∧ ∀ to, to ≠ v.kind → step k p s (.copy x to) = .refused := by
  refine ⟨by simp [step, hv, hk], fun to ht => ?_⟩
  have : convertible v.kind to = false := by
    simp only [convertible, hk, Bool.or_false, beq_eq_false_iff_ne, ne_eq]
    exact fun h => ht h.symm
  simp [step, hv, this]

/-- For small values that are not trivially copyable the first element looked at is assigned to an object that does not exist: a caching iterator cannot be made where there are elements. -/
theorem C99_small_violated (p : α → Bool) (s : St α) (e : Bool) (i : Nat) (h : i < s.xs.length) : step .small p s (.make ⟨e, true⟩ i) = .ub := by
  simp only [step, make]
  rw [if_pos (by omega)]
  unfold skipForward
  rw [if_neg (by simp; omega)]
  rw [List.getElem?_eq_getElem h]
  simp [save, Cache.save, added]

end Verif.FilterVars
