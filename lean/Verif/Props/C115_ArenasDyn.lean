import Verif.Model.ArenasDyn

/-!
# C115: dynamic arrays return their memory to the allocator that it came from, and can be moved

Whatever a program does with dynamic arrays whose allocators draw from different arenas, a block is returned at most once, to an allocator equal to the
one that gave it, with its size; arrays never share a block; nothing is lost; and an array can be moved to a new one.

* `C115_returned`: the first two, for all programs and all traits of allocators, also after moves that throw.
* `C115_kept_partial`, `C115_all_returned_partial`: nothing is lost if no array that has memory is assigned to; `C115_kept_violated`: otherwise the
  memory of the target is lost.
* `C115_move_assign`, `C115_move`: exactly when a move succeeds, and what both arrays are then; a move that throws changes nothing.
* `C115_move_violated`: an array whose allocator is not the default one cannot be moved to a new array if allocators do not propagate.
* `C115_allocator`: only a move or a swap changes the allocator of an array; `C115_created`, `C115_resized`, `C115_swap`: what the other members do.
-/
set_option autoImplicit false

namespace Verif.ArenasDyn

open Verif.Arenas (Traits State upd alloc dealloc init)

/-! ## Specification -/

/-- The memory of every array came from its allocator, with its size, and belongs to no other array. -/
structure Holds (s : State) : Prop where
  own : ∀ i (v : Arr) b, s.vars i = some v → v.block = some b → s.heap b = some (v.alloc, v.cap)
  once : ∀ i j (v w : Arr) b, s.vars i = some v → s.vars j = some w → v.block = some b → w.block = some b → i = j

/-- All memory that is allocated belongs to an array. -/
def Kept (s : State) : Prop := ∀ b x, s.heap b = some x → ∃ i, ∃ v : Arr, s.vars i = some v ∧ v.block = some b

/-- The operation is a move assignment to an array that has memory, from another one. -/
def Overwrites (s : State) (op : Op) : Prop :=
  ∃ i j, ∃ v : Arr, op = .moveAssign i j ∧ i ≠ j ∧ s.vars i = some v ∧ v.block ≠ none

/-- No operation of a program is such an assignment. -/
def Careful (t : Traits) : State → List Op → Prop
  | _, [] => True
  | s, op :: ops => ¬ Overwrites s op ∧ ∀ s', step t s op = .ok s' ∨ step t s op = .threw s' → Careful t s' ops

/-- Every array can be moved to a new one, which is then what the first was, as containers of the standard library can. -/
def Moves : Prop :=
  ∀ (t : Traits) (s : State) (i j : Nat) (w : Arr), s.vars i = none → s.vars j = some w →
    ∃ s', step t s (.move i j) = .ok s' ∧ s'.vars i = some w

/-- No program loses memory. -/
def Keeps : Prop := ∀ (t : Traits) (ops : List Op), ∃ s, run t init ops = some s ∧ Kept s

/-! ## Proofs -/

/-- The invariant: blocks from `next` on are free. -/
structure Inv (s : State) : Prop extends Holds s where
  fresh : ∀ b, s.next ≤ b → s.heap b = none

theorem Inv.lt {s : State} (h : Inv s) {i b : Nat} {v : Arr} (hv : s.vars i = some v) (hb : v.block = some b) : b < s.next := by
  rcases Nat.lt_or_ge b s.next with h1 | h1
  · exact h1
  · have := h.own i v b hv hb
    rw [h.fresh b h1] at this; cases this

theorem Inv.vacate {s : State} (h : Inv s) (i : Nat) (x : Option Arr) (hx : ∀ v, x = some v → v.block = none) :
    Inv { s with vars := upd s.vars i x } := by
  refine ⟨⟨?_, ?_⟩, h.fresh⟩
  · intro j v b hj hb
    dsimp only [upd] at hj ⊢
    split at hj
    · rw [hx v hj] at hb; cases hb
    · exact h.own j v b hj hb
  · intro j k v w b hj hk hb hb'
    dsimp only [upd] at hj hk
    split at hj
    · rw [hx v hj] at hb; cases hb
    · split at hk
      · rw [hx w hk] at hb'; cases hb'
      · exact h.once j k v w b hj hk hb hb'

theorem Inv.release {s : State} (h : Inv s) {b : Nat} (hno : ∀ i (v : Arr), s.vars i = some v → v.block ≠ some b) :
    Inv { s with heap := upd s.heap b none } := by
  refine ⟨⟨?_, h.once⟩, ?_⟩
  · intro i v c hv hc
    dsimp only [upd]
    rw [if_neg]
    · exact h.own i v c hv hc
    · rintro rfl; exact hno i v hv hc
  · intro c hc
    dsimp only [upd]
    split
    · rfl
    · exact h.fresh c hc

theorem Inv.destroy {s : State} (h : Inv s) {i : Nat} {v : Arr} (hv : s.vars i = some v) (keep : Bool) :
    ∃ s', ArenasDyn.destroy s i v keep = some s' ∧ Inv s' ∧ (Kept s → Kept s') ∧
      s'.vars i = (if keep then some (if v.block.isSome then ⟨v.alloc, none, 0, 0⟩ else v) else none) ∧
      (∀ k, k ≠ i → s'.vars k = s.vars k) := by
  have hvars : ∀ k x, k ≠ i → upd s.vars i x k = s.vars k := fun k x hk => if_neg hk
  have hi : ∀ x, upd s.vars i x i = x := fun x => if_pos rfl
  unfold ArenasDyn.destroy
  cases hb : v.block with
  | none =>
    refine ⟨_, rfl, ?_, ?_, hi _, fun k hk => hvars k _ hk⟩
    · refine h.vacate i _ ?_
      intro w hw
      cases keep
      · cases hw
      · cases hw; exact hb
    · intro hk b x hx
      obtain ⟨j, w, h1, h2⟩ := hk b x hx
      refine ⟨j, w, ?_, h2⟩
      dsimp only
      rw [hvars j _ ?_]
      · exact h1
      · rintro rfl
        obtain rfl := Option.some.inj (h1.symm.trans hv)
        rw [hb] at h2; cases h2
  | some b =>
    have ho := h.own i v b hv hb
    have hx : ∀ w : Arr, (if keep = true then some (if (some b).isSome = true then (⟨v.alloc, none, 0, 0⟩ : Arr) else v) else none) = some w →
        w.block = none := by
      intro w hw
      cases keep
      · cases hw
      · cases hw; rfl
    refine ⟨_, if_pos ho, ?_, ?_, hi _, fun k hk => hvars k _ hk⟩
    · refine (h.vacate i _ hx).release ?_
      intro j w hj hw
      dsimp only [upd] at hj
      split at hj
      · rw [hx w hj] at hw; cases hw
      · rename_i hne
        exact hne (h.once j i w v b hj hv hw hb)
    · intro hk c x hc
      dsimp only [upd] at hc
      split at hc
      · cases hc
      · rename_i hne
        obtain ⟨j, w, h1, h2⟩ := hk c x hc
        refine ⟨j, w, ?_, h2⟩
        dsimp only
        rw [hvars j _ ?_]
        · exact h1
        · rintro rfl
          obtain rfl := Option.some.inj (h1.symm.trans hv)
          exact hne (Option.some.inj (h2.symm.trans hb))

theorem Inv.allocate {s : State} (h : Inv s) (i a n : Nat) (hi : ∀ v : Arr, s.vars i = some v → v.block = none) :
    Inv (ArenasDyn.allocate s i a n) ∧ (Kept s → Kept (ArenasDyn.allocate s i a n)) := by
  unfold ArenasDyn.allocate Arenas.alloc
  refine ⟨⟨⟨?_, ?_⟩, ?_⟩, ?_⟩
  · intro j v b hj hb
    dsimp only [upd] at hj ⊢
    split at hj
    · cases hj; cases hb; rw [if_pos rfl]
    · rw [if_neg (Nat.ne_of_lt (h.lt hj hb))]
      exact h.own j v b hj hb
  · intro j k v w b hj hk hb hb'
    dsimp only [upd] at hj hk
    split at hj <;> split at hk
    · simp_all
    · cases hj; cases hb
      exact absurd (h.lt hk hb') (Nat.lt_irrefl _)
    · cases hk; cases hb'
      exact absurd (h.lt hj hb) (Nat.lt_irrefl _)
    · exact h.once j k v w b hj hk hb hb'
  · intro b hb
    dsimp only [upd] at hb ⊢
    rw [if_neg (by omega)]
    exact h.fresh b (by omega)
  · intro hk b x hx
    dsimp only [upd] at hx ⊢
    split at hx
    · rename_i hb
      exact ⟨i, ⟨a, some s.next, n, n⟩, if_pos rfl, by rw [hb]⟩
    · obtain ⟨j, w, h1, h2⟩ := hk b x hx
      refine ⟨j, w, ?_, h2⟩
      rw [if_neg]
      · exact h1
      · rintro rfl; rw [hi w h1] at h2; cases h2

theorem Inv.transfer {s : State} (h : Inv s) {i j : Nat} {w : Arr} (hij : i ≠ j) (hw : s.vars j = some w) (a : Nat) :
    Inv { s with vars := upd (upd s.vars j (some ⟨a, none, 0, 0⟩)) i (some w) } ∧
    ((∀ v : Arr, s.vars i = some v → v.block = none) → Kept s →
      Kept { s with vars := upd (upd s.vars j (some ⟨a, none, 0, 0⟩)) i (some w) }) := by
  refine ⟨⟨⟨?_, ?_⟩, h.fresh⟩, ?_⟩
  · intro k v b hk hb
    dsimp only [upd] at hk ⊢
    split at hk
    · cases hk; exact h.own j _ b hw hb
    · split at hk
      · cases hk; cases hb
      · exact h.own k v b hk hb
  · intro k l v u b hk hl hb hb'
    dsimp only [upd] at hk hl
    split at hk
    · cases hk
      split at hl
      · simp_all
      · split at hl
        · cases hl; cases hb'
        · rename_i h1 h2
          exact absurd (h.once l j u _ b hl hw hb' hb) h2
    · split at hk
      · cases hk; cases hb
      · split at hl
        · cases hl
          rename_i h2 h3
          exact absurd (h.once k j v _ b hk hw hb hb') h2
        · split at hl
          · cases hl; cases hb'
          · exact h.once k l v u b hk hl hb hb'
  · intro hi hk b x hx
    obtain ⟨k, u, h1, h2⟩ := hk b x hx
    by_cases hkj : k = j
    · subst hkj
      obtain rfl := Option.some.inj (hw.symm.trans h1)
      exact ⟨i, w, if_pos rfl, h2⟩
    · refine ⟨k, u, ?_, h2⟩
      dsimp only [upd]
      rw [if_neg, if_neg hkj]
      · exact h1
      · rintro rfl; rw [hi u h1] at h2; cases h2

theorem Inv.swap {s : State} (h : Inv s) {i j : Nat} {v w : Arr} (hij : i ≠ j) (hv : s.vars i = some v) (hw : s.vars j = some w) :
    Inv { s with vars := upd (upd s.vars j (some v)) i (some w) } ∧
    (Kept s → Kept { s with vars := upd (upd s.vars j (some v)) i (some w) }) := by
  -- where each variable of the new state was before
  have key : ∀ k (u : Arr), upd (upd s.vars j (some v)) i (some w) k = some u →
      s.vars (if k = i then j else if k = j then i else k) = some u := by
    intro k u hk
    dsimp only [upd] at hk
    by_cases h1 : k = i
    · rw [if_pos h1] at hk ⊢; cases hk; exact hw
    · rw [if_neg h1] at hk ⊢
      by_cases h2 : k = j
      · rw [if_pos h2] at hk ⊢; cases hk; exact hv
      · rw [if_neg h2] at hk ⊢; exact hk
  refine ⟨⟨⟨?_, ?_⟩, h.fresh⟩, ?_⟩
  · intro k u b hk hb
    exact h.own _ u b (key k u hk) hb
  · intro k l u x b hk hl hb hb'
    have := h.once _ _ u x b (key k u hk) (key l x hl) hb hb'
    revert this
    by_cases h1 : k = i <;> by_cases h2 : k = j <;> by_cases h3 : l = i <;> by_cases h4 : l = j <;> simp_all <;> omega
  · intro hk b x hx
    obtain ⟨k, u, h1, h2⟩ := hk b x hx
    by_cases hki : k = i
    · subst hki
      obtain rfl := Option.some.inj (hv.symm.trans h1)
      refine ⟨j, v, ?_, h2⟩
      dsimp only [upd]
      rw [if_neg (Ne.symm hij), if_pos rfl]
    · by_cases hkj : k = j
      · subst hkj
        obtain rfl := Option.some.inj (hw.symm.trans h1)
        exact ⟨i, w, if_pos rfl, h2⟩
      · refine ⟨k, u, ?_, h2⟩
        dsimp only [upd]
        rw [if_neg hki, if_neg hkj]; exact h1

/-- What one operation leaves. -/
def Good (s : State) (op : Op) (s' : State) : Prop := Inv s' ∧ (¬ Overwrites s op → Kept s → Kept s')

theorem step_good (t : Traits) {s : State} (h : Inv s) (op : Op) :
    ∃ s', (step t s op = .ok s' ∨ step t s op = .threw s') ∧ Good s op s' := by
  have same : Good s op s := ⟨h, fun _ hk => hk⟩
  cases op with
  | empty i a =>
    dsimp only [step]
    cases hi : s.vars i with
    | some v => exact ⟨s, .inl rfl, same⟩
    | none =>
      refine ⟨_, .inl rfl, h.vacate i _ (by rintro v ⟨⟩; rfl), ?_⟩
      intro _ hk b x hx
      obtain ⟨j, w, h1, h2⟩ := hk b x hx
      refine ⟨j, w, ?_, h2⟩
      dsimp only [upd]
      rw [if_neg]
      · exact h1
      · rintro rfl; rw [hi] at h1; cases h1
  | create i a n =>
    dsimp only [step]
    cases hi : s.vars i with
    | some v => exact ⟨s, .inl rfl, same⟩
    | none =>
      obtain ⟨h1, h2⟩ := h.allocate i a n (by intro v hv; rw [hi] at hv; cases hv)
      exact ⟨_, .inl rfl, h1, fun _ => h2⟩
  | move i j =>
    dsimp only [step]
    cases hi : s.vars i with
    | some v => exact ⟨s, .inl rfl, same⟩
    | none =>
      cases hj : s.vars j with
      | none => exact ⟨s, .inl rfl, same⟩
      | some w =>
        have hij : i ≠ j := by rintro rfl; rw [hi] at hj; cases hj
        dsimp only [moveAssign]
        split
        · obtain ⟨h1, h2⟩ := h.transfer hij hj w.alloc
          exact ⟨_, .inl rfl, h1, fun _ => h2 (by intro v hv; rw [hi] at hv; cases hv)⟩
        · exact ⟨s, .inr rfl, same⟩
  | moveAssign i j =>
    dsimp only [step]
    by_cases hij : i = j
    · rw [if_pos hij]; exact ⟨s, .inl rfl, same⟩
    · rw [if_neg hij]
      cases hi : s.vars i with
      | none => exact ⟨s, .inl rfl, same⟩
      | some v =>
        cases hj : s.vars j with
        | none => exact ⟨s, .inl rfl, same⟩
        | some w =>
          dsimp only [moveAssign]
          split
          · obtain ⟨h1, h2⟩ := h.transfer hij hj w.alloc
            refine ⟨_, .inl rfl, h1, fun hn => h2 ?_⟩
            intro u hu
            cases hb : u.block with
            | none => rfl
            | some b => exact absurd ⟨i, j, u, rfl, hij, hu, by rw [hb]; simp⟩ hn
          · exact ⟨s, .inr rfl, same⟩
  | swap i j =>
    dsimp only [step]
    by_cases hc : t.pocs = false ∨ i = j
    · rw [if_pos hc]; exact ⟨s, .inl rfl, same⟩
    · rw [if_neg hc]
      cases hi : s.vars i with
      | none => exact ⟨s, .inl rfl, same⟩
      | some v =>
        cases hj : s.vars j with
        | none => exact ⟨s, .inl rfl, same⟩
        | some w =>
          obtain ⟨h1, h2⟩ := h.swap (fun e => hc (.inr e)) hi hj
          exact ⟨_, .inl rfl, h1, fun _ => h2⟩
  | assign i n =>
    dsimp only [step]
    cases hi : s.vars i with
    | none => exact ⟨s, .inl rfl, same⟩
    | some v =>
      obtain ⟨s1, e, h1, h2, h3, _⟩ := h.destroy hi true
      dsimp only
      rw [e]
      obtain ⟨h5, h6⟩ := h1.allocate i v.alloc n (by
        intro u hu
        rw [h3] at hu
        cases hb : v.block <;> rw [hb] at hu <;> cases hu
        · exact hb
        · rfl)
      exact ⟨_, .inl rfl, h5, fun _ hk => h6 (h2 hk)⟩
  | clear i =>
    dsimp only [step]
    cases hi : s.vars i with
    | none => exact ⟨s, .inl rfl, same⟩
    | some v =>
      obtain ⟨s1, e, h1, h2, _, _⟩ := h.destroy hi true
      dsimp only
      rw [e]
      exact ⟨s1, .inl rfl, h1, fun _ => h2⟩
  | destroy i =>
    dsimp only [step]
    cases hi : s.vars i with
    | none => exact ⟨s, .inl rfl, same⟩
    | some v =>
      obtain ⟨s1, e, h1, h2, _, _⟩ := h.destroy hi false
      dsimp only
      rw [e]
      exact ⟨s1, .inl rfl, h1, fun _ => h2⟩

theorem run_inv (t : Traits) (ops : List Op) : ∀ {s : State}, Inv s →
    ∃ s', run t s ops = some s' ∧ Inv s' ∧ (Careful t s ops → Kept s → Kept s') := by
  induction ops with
  | nil => intro s h; exact ⟨s, rfl, h, fun _ hk => hk⟩
  | cons op ops ih =>
    intro s h
    obtain ⟨s1, e, h1, h2⟩ := step_good t h op
    obtain ⟨s2, e2, h3, h4⟩ := ih h1
    refine ⟨s2, ?_, h3, ?_⟩
    · rw [run]
      rcases e with e | e <;> rw [e] <;> exact e2
    · intro hc hk
      exact h4 (hc.2 s1 e) (h2 hc.1 hk)

theorem init_inv : Inv init :=
  ⟨⟨(by intro i v b h; cases h), (by intro i j v w b h; cases h)⟩, fun _ _ => rfl⟩

/-! ## Theorems -/

/-- **C115 (memory is never returned to the wrong allocator)**, whatever the traits of the allocators, also after moves that threw. -/
theorem C115_returned (t : Traits) (ops : List Op) : ∃ s, run t init ops = some s ∧ Holds s := by
  obtain ⟨s, e, h, _⟩ := run_inv t ops init_inv
  exact ⟨s, e, h.toHolds⟩

/-- **C115 (nothing is lost)**, if no array that has memory is assigned to. -/
theorem C115_kept_partial (t : Traits) (ops : List Op) (hc : Careful t init ops) : ∃ s, run t init ops = some s ∧ Holds s ∧ Kept s := by
  obtain ⟨s, e, h, hk⟩ := run_inv t ops init_inv
  exact ⟨s, e, h.toHolds, hk hc (by intro b x hx; cases hx)⟩

/-- **C115 (all memory is returned)** when no array is left. -/
theorem C115_all_returned_partial (t : Traits) (ops : List Op) (hc : Careful t init ops) {s : State} (hr : run t init ops = some s)
    (hn : ∀ i, s.vars i = none) (b : Nat) : s.heap b = none := by
  obtain ⟨s', e, _, hk⟩ := C115_kept_partial t ops hc
  obtain rfl := Option.some.inj (hr.symm.trans e)
  cases hb : s.heap b with
  | none => rfl
  | some x =>
    obtain ⟨i, v, h, _⟩ := hk b x hb
    rw [hn i] at h; cases h

/-- **C115 (moves to an array that is there)**: it succeeds if the allocators propagate or are equal; then the target is what the source was, and the
source has no memory and keeps its allocator; otherwise it throws, and nothing is changed. -/
theorem C115_move_assign (t : Traits) (s : State) {i j : Nat} {v w : Arr} (hij : i ≠ j) (hi : s.vars i = some v) (hj : s.vars j = some w) :
    ((t.pocma = true ∨ v.alloc = w.alloc) →
      ∃ s', step t s (.moveAssign i j) = .ok s' ∧ s'.vars i = some w ∧ s'.vars j = some ⟨w.alloc, none, 0, 0⟩ ∧
        (∀ k, k ≠ i → k ≠ j → s'.vars k = s.vars k) ∧ s'.heap = s.heap) ∧
    (¬ (t.pocma = true ∨ v.alloc = w.alloc) → step t s (.moveAssign i j) = .threw s) := by
  dsimp only [step]
  rw [if_neg hij, hi, hj]
  dsimp only [moveAssign]
  constructor
  · intro h
    rw [if_pos (by simpa using h)]
    refine ⟨_, rfl, if_pos rfl, ?_, ?_, rfl⟩
    · dsimp only [upd]; rw [if_neg (Ne.symm hij), if_pos rfl]
    · intro k h1 h2
      dsimp only [upd]; rw [if_neg h1, if_neg h2]
  · intro h
    rw [if_neg (by simpa using h)]

/-- **C115 (moves to a new array)**: the same, with the default allocator in place of that of the target. -/
theorem C115_move (t : Traits) (s : State) {i j : Nat} {w : Arr} (hi : s.vars i = none) (hj : s.vars j = some w) :
    ((t.pocma = true ∨ t.dflt = w.alloc) →
      ∃ s', step t s (.move i j) = .ok s' ∧ s'.vars i = some w ∧ s'.vars j = some ⟨w.alloc, none, 0, 0⟩ ∧
        (∀ k, k ≠ i → k ≠ j → s'.vars k = s.vars k) ∧ s'.heap = s.heap) ∧
    (¬ (t.pocma = true ∨ t.dflt = w.alloc) → step t s (.move i j) = .threw s) := by
  have hij : i ≠ j := by rintro rfl; rw [hi] at hj; cases hj
  dsimp only [step]
  rw [hi, hj]
  dsimp only [moveAssign]
  constructor
  · intro h
    rw [if_pos (by simpa using h)]
    refine ⟨_, rfl, if_pos rfl, ?_, ?_, rfl⟩
    · dsimp only [upd]; rw [if_neg (Ne.symm hij), if_pos rfl]
    · intro k h1 h2
      dsimp only [upd]; rw [if_neg h1, if_neg h2]
  · intro h
    rw [if_neg (by simpa using h)]

theorem allocator_stays (t : Traits) {s s' : State} (h : Inv s) (op : Op) (hs : step t s op = .ok s') {k : Nat} {v v' : Arr} (hv : s.vars k = some v)
    (hv' : s'.vars k = some v') (hm : ∀ j, op ≠ .moveAssign k j) (hw : ∀ i j, op ≠ .swap i j) : v'.alloc = v.alloc := by
  have same : ∀ {u : State}, Res.ok s = .ok u → u.vars k = some v' → v'.alloc = v.alloc := by
    intro u e hu; cases e
    rw [Option.some.inj (hv.symm.trans hu)]
  cases op with
  | empty i a =>
    dsimp only [step] at hs
    cases hi : s.vars i <;> rw [hi] at hs
    · cases hs
      dsimp only [upd] at hv'
      rw [if_neg (by rintro rfl; rw [hi] at hv; cases hv), hv] at hv'
      cases hv'; rfl
    · exact same hs hv'
  | create i a n =>
    dsimp only [step] at hs
    cases hi : s.vars i <;> rw [hi] at hs
    · cases hs
      dsimp only [allocate, upd] at hv'
      rw [if_neg (by rintro rfl; rw [hi] at hv; cases hv), hv] at hv'
      cases hv'; rfl
    · exact same hs hv'
  | move i j =>
    cases hi : s.vars i with
    | some u => dsimp only [step] at hs; rw [hi] at hs; exact same hs hv'
    | none =>
      cases hj : s.vars j with
      | none => dsimp only [step] at hs; rw [hi, hj] at hs; exact same hs hv'
      | some w =>
        have hki : k ≠ i := by rintro rfl; rw [hi] at hv; cases hv
        obtain ⟨h1, h2⟩ := C115_move t s hi hj
        by_cases hc : t.pocma = true ∨ t.dflt = w.alloc
        · obtain ⟨u, e, _, hju, hrest, _⟩ := h1 hc
          rw [e] at hs; cases hs
          by_cases hkj : k = j
          · subst hkj
            rw [hju] at hv'; cases hv'
            rw [Option.some.inj (hj.symm.trans hv)]
          · rw [hrest k hki hkj, hv] at hv'; cases hv'; rfl
        · rw [h2 hc] at hs; cases hs
  | moveAssign i j =>
    have hki : k ≠ i := by rintro rfl; exact hm j rfl
    by_cases hij : i = j
    · dsimp only [step] at hs; rw [if_pos hij] at hs; exact same hs hv'
    · cases hi : s.vars i with
      | none => dsimp only [step] at hs; rw [if_neg hij, hi] at hs; exact same hs hv'
      | some u =>
        cases hj : s.vars j with
        | none => dsimp only [step] at hs; rw [if_neg hij, hi, hj] at hs; exact same hs hv'
        | some w =>
          obtain ⟨h1, h2⟩ := C115_move_assign t s hij hi hj
          by_cases hc : t.pocma = true ∨ u.alloc = w.alloc
          · obtain ⟨u', e, _, hju, hrest, _⟩ := h1 hc
            rw [e] at hs; cases hs
            by_cases hkj : k = j
            · subst hkj
              rw [hju] at hv'; cases hv'
              rw [Option.some.inj (hj.symm.trans hv)]
            · rw [hrest k hki hkj, hv] at hv'; cases hv'; rfl
          · rw [h2 hc] at hs; cases hs
  | swap i j => exact absurd rfl (hw i j)
  | assign i n =>
    dsimp only [step] at hs
    cases hi : s.vars i with
    | none => rw [hi] at hs; exact same hs hv'
    | some u =>
      obtain ⟨s1, e, _, _, h3, h4⟩ := h.destroy hi true
      rw [hi] at hs
      dsimp only at hs
      rw [e] at hs
      cases hs
      dsimp only [allocate, upd] at hv'
      split at hv'
      · rename_i hki
        subst hki
        cases hv'
        rw [Option.some.inj (hi.symm.trans hv)]
      · rename_i hki
        rw [h4 k hki, hv] at hv'; cases hv'; rfl
  | clear i =>
    dsimp only [step] at hs
    cases hi : s.vars i with
    | none => rw [hi] at hs; exact same hs hv'
    | some u =>
      obtain ⟨s1, e, _, _, h3, h4⟩ := h.destroy hi true
      rw [hi] at hs
      dsimp only at hs
      rw [e] at hs
      cases hs
      by_cases hki : k = i
      · subst hki
        obtain rfl := Option.some.inj (hi.symm.trans hv)
        rw [h3] at hv'
        cases hb : u.block <;> rw [hb] at hv' <;> cases hv' <;> rfl
      · rw [h4 k hki, hv] at hv'; cases hv'; rfl
  | destroy i =>
    dsimp only [step] at hs
    cases hi : s.vars i with
    | none => rw [hi] at hs; exact same hs hv'
    | some u =>
      obtain ⟨s1, e, _, _, h3, h4⟩ := h.destroy hi false
      rw [hi] at hs
      dsimp only at hs
      rw [e] at hs
      cases hs
      by_cases hki : k = i
      · subst hki
        rw [h3] at hv'; cases hv'
      · rw [h4 k hki, hv] at hv'; cases hv'; rfl

/-- **C115 (the allocator of an array stays)** unless the array is swapped or moved to. -/
theorem C115_allocator (t : Traits) (ops : List Op) {s s' : State} (hr : run t init ops = some s) (op : Op) (hs : step t s op = .ok s') {k : Nat}
    {v v' : Arr} (hv : s.vars k = some v) (hv' : s'.vars k = some v') (hm : ∀ j, op ≠ .moveAssign k j) (hw : ∀ i j, op ≠ .swap i j) :
    v'.alloc = v.alloc := by
  obtain ⟨u, e, h, _⟩ := run_inv t ops init_inv
  obtain rfl := Option.some.inj (hr.symm.trans e)
  exact allocator_stays t h op hs hv hv' hm hw

/-- **C115 (new arrays)** have the allocator that is given, and memory from it for as many elements as asked for; or no memory, if no size is given. -/
theorem C115_created (t : Traits) (s : State) {i : Nat} (a n : Nat) (hi : s.vars i = none) :
    (∃ s', ∃ v : Arr, ∃ b, step t s (.create i a n) = .ok s' ∧ s'.vars i = some v ∧ v.alloc = a ∧ v.size = n ∧ v.block = some b ∧
      s'.heap b = some (a, n) ∧ ∀ k, k ≠ i → s'.vars k = s.vars k) ∧
    (∃ s', ∃ v : Arr, step t s (.empty i a) = .ok s' ∧ s'.vars i = some v ∧ v.alloc = a ∧ v.size = 0 ∧ v.block = none ∧
      s'.heap = s.heap ∧ ∀ k, k ≠ i → s'.vars k = s.vars k) := by
  constructor
  · refine ⟨allocate s i a n, ⟨a, some s.next, n, n⟩, s.next, ?_, if_pos rfl, rfl, rfl, rfl, if_pos rfl, fun k hk => if_neg hk⟩
    dsimp only [step]; rw [hi]
  · refine ⟨{ s with vars := upd s.vars i (some ⟨a, none, 0, 0⟩) }, ⟨a, none, 0, 0⟩, ?_, if_pos rfl, rfl, rfl, rfl, rfl, fun k hk => if_neg hk⟩
    dsimp only [step]; rw [hi]

/-- **C115 (new elements)**: `assign` and `resize` leave an array of the given size, with memory from its own allocator; `clear` leaves none. -/
theorem C115_resized (t : Traits) (ops : List Op) {s : State} (hr : run t init ops = some s) {i : Nat} {v : Arr} (hv : s.vars i = some v) (n : Nat) :
    (∃ s', ∃ w : Arr, ∃ b, step t s (.assign i n) = .ok s' ∧ s'.vars i = some w ∧ w.alloc = v.alloc ∧ w.size = n ∧ w.block = some b ∧
      s'.heap b = some (v.alloc, n) ∧ ∀ k, k ≠ i → s'.vars k = s.vars k) ∧
    (∃ s', ∃ w : Arr, step t s (.clear i) = .ok s' ∧ s'.vars i = some w ∧ w.block = none ∧ ∀ k, k ≠ i → s'.vars k = s.vars k) := by
  obtain ⟨u, e, h, _⟩ := run_inv t ops init_inv
  obtain rfl := Option.some.inj (hr.symm.trans e)
  obtain ⟨s1, e1, _, _, h3, h4⟩ := h.destroy hv true
  constructor
  · refine ⟨allocate s1 i v.alloc n, ⟨v.alloc, some s1.next, n, n⟩, s1.next, ?_, if_pos rfl, rfl, rfl, rfl, if_pos rfl, ?_⟩
    · dsimp only [step]; rw [hv]; dsimp only; rw [e1]
    · intro k hk
      exact (if_neg hk).trans (h4 k hk)
  · refine ⟨s1, if v.block.isSome then ⟨v.alloc, none, 0, 0⟩ else v, ?_, h3, ?_, h4⟩
    · dsimp only [step]; rw [hv]; dsimp only; rw [e1]
    · cases hb : v.block
      · exact hb
      · rfl

/-- **C115 (swap)** exchanges two arrays with their allocators. -/
theorem C115_swap (t : Traits) (s : State) {i j : Nat} {v w : Arr} (ht : t.pocs = true) (hi : s.vars i = some v) (hj : s.vars j = some w) :
    ∃ s', step t s (.swap i j) = .ok s' ∧ s'.vars i = some w ∧ s'.vars j = some v ∧ s'.heap = s.heap ∧
      ∀ k, k ≠ i → k ≠ j → s'.vars k = s.vars k := by
  dsimp only [step]
  by_cases hij : i = j
  · subst hij
    obtain rfl := Option.some.inj (hi.symm.trans hj)
    exact ⟨s, if_pos (.inr rfl), hi, hi, rfl, fun _ _ _ => rfl⟩
  · rw [if_neg (by rw [ht]; simpa using hij), hi, hj]
    refine ⟨_, rfl, if_pos rfl, ?_, rfl, ?_⟩
    · dsimp only [upd]; rw [if_neg (Ne.symm hij), if_pos rfl]
    · intro k h1 h2
      dsimp only [upd]; rw [if_neg h1, if_neg h2]

/-! ## Where the code differs -/

/-- Allocators that do not propagate (the default of `std::allocator_traits`), with the default arena 0. -/
def plain : Traits := ⟨false, false, id, 0⟩

/-- An array of two elements from arena 5 is to be moved to a new one (l.136-139). -/
theorem C115_move_violated : ¬ Moves := by
  intro h
  obtain ⟨s', e, _⟩ := h plain (allocate init 1 5 2) 0 1 ⟨5, some 0, 2, 2⟩ rfl rfl
  cases e

/-- The target of a move assignment has memory, which nobody returns (l.84-96), also if all allocators are equal. -/
theorem C115_kept_violated : ¬ Keeps := by
  intro h
  obtain ⟨s, e, hk⟩ := h plain [.create 0 0 3, .create 1 0 2, .moveAssign 0 1, .destroy 0, .destroy 1]
  cases e
  obtain ⟨i, v, h1, _⟩ := hk 0 (0, 3) rfl
  have : ∀ i, (upd (upd (upd (upd (upd (upd init.vars 0 (some ⟨0, some 0, 3, 3⟩)) 1 (some ⟨0, some 1, 2, 2⟩)) 1 (some ⟨0, none, 0, 0⟩)) 0
      (some ⟨0, some 1, 2, 2⟩)) 0 none) 1 none i : Option Arr) = none := by
    intro i
    simp only [upd]
    by_cases h0 : i = 0 <;> by_cases h1 : i = 1 <;> simp [h0, h1, init]
  have h2 := this i
  exact absurd (h1.symm.trans h2) (by simp)

/-! ## The hypotheses are met -/

/-- A program with two arenas: a move that throws, one that does not, a new size, and the end of all arrays. -/
def demo : List Op :=
  [.create 0 5 3, .move 1 0, .empty 2 5, .moveAssign 2 0, .assign 2 4, .clear 0, .assign 0 1, .destroy 2, .destroy 0]

example : (run plain init (demo.take 7)).map (fun s => ((List.range 3).map s.vars, (List.range 3).map s.heap)) =
    some ([some ⟨5, some 2, 1, 1⟩, none, some ⟨5, some 1, 4, 4⟩], [none, some (5, 4), some (5, 1)]) := rfl

example : (run plain init demo).map (fun s => ((List.range 3).map s.vars, (List.range 3).map s.heap)) =
    some ([none, none, none], [none, none, none]) := rfl

/-- An array with memory is assigned to only if it is cleared before. -/
example : Careful plain init [.create 0 0 3, .create 1 0 2, .clear 0, .moveAssign 0 1] := by
  refine ⟨?_, fun s h => ⟨?_, fun s' h' => ⟨?_, fun s'' h'' => ⟨?_, fun _ _ => trivial⟩⟩⟩⟩
  · rintro ⟨i, j, v, ⟨⟩, _⟩
  · rintro ⟨i, j, v, ⟨⟩, _⟩
  · rintro ⟨i, j, v, ⟨⟩, _⟩
  · rintro ⟨i, j, v, ⟨⟩, _, hv, hb⟩
    rcases h with h | h <;> cases h
    rcases h' with h' | h' <;> cases h'
    rcases h'' with h'' | h'' <;> cases h''
    cases hv
    exact hb rfl

end Verif.ArenasDyn
