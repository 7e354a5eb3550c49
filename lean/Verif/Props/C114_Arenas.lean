import Verif.Model.Arenas

/-!
# C114: the memory of a vector goes back to the allocator that it came from

Whatever a program does with vectors whose allocators draw from different arenas, every block is returned exactly once, to an allocator equal to the one
that gave it, with its size; and a vector keeps its allocator except where the traits of the allocator say that it is propagated.

* `C114_returned_partial`: for all programs where the allocators are equal, or propagate, whenever a vector is swapped or assigned from a temporary.
* `C114_propagating`, `C114_one_arena`: so for all programs if allocators propagate on swap, or if there is only one arena.
* `C114_copy_assign`: exactly when a copy assignment is undefined.
* `C114_copy_assign_violated`, `C114_view_violated`, `C114_later_violated`: assignments of copies, views, and to empty vectors, return memory to the
  wrong arena if allocators do not propagate on swap, which is the default.
* `C114_keeps`, `C114_given`, `C114_pocma_violated`, `C114_reshape_violated`: moving propagates the allocator against the traits; `reshape` forgets it.
-/
set_option autoImplicit false

namespace Verif.Arenas

/-! ## Specification -/

/-- Every block belongs to exactly one vector, whose allocator draws from the arena of the block, and which knows its size; no other memory is
allocated. -/
structure Owned (s : State) : Prop where
  own : ∀ i v b, s.vars i = some v → v.block = some b → s.heap b = some (v.alloc, v.cap)
  once : ∀ i j v w b, s.vars i = some v → s.vars j = some w → v.block = some b → w.block = some b → i = j
  leak : ∀ b x, s.heap b = some x → ∃ i v, s.vars i = some v ∧ v.block = some b

/-- When a vector is swapped, or assigned by swapping with a temporary, the allocators propagate or draw from the same arena. -/
def Compatible (t : Traits) (s : State) (op : Op) : Prop :=
  t.pocs = true ∨
  match op with
  | .copyAssign i j => ∀ v w, s.vars i = some v → s.vars j = some w → t.select w.alloc = v.alloc
  | .assignView i _ => ∀ v, s.vars i = some v → t.dflt = v.alloc
  | .assignStd i a _ => ∀ v, s.vars i = some v → a = v.alloc
  | .swap i j => ∀ v w, s.vars i = some v → s.vars j = some w → v.alloc = w.alloc
  | _ => True

/-- The same for every operation of a program. -/
def CompatibleRun (t : Traits) : State → List Op → Prop
  | _, [] => True
  | s, op :: ops => Compatible t s op ∧ ∀ s', step t s op = some s' → CompatibleRun t s' ops

/-- The property, but only `swap`, as in the standard library, asks for allocators that are equal or propagate. -/
def Returned : Prop :=
  ∀ (t : Traits) (ops : List Op), (∀ i j, Op.swap i j ∉ ops) → ∃ s, run t init ops = some s ∧ Owned s

/-- The allocator of a vector that was there and still is there: it changes by assignment of a vector that is moved only if it propagates. -/
def KeepsAllocator : Prop :=
  ∀ (t : Traits) (s s' : State) (i j : Nat) (v v' : Vec), t.pocma = false → s.vars i = some v → step t s (.moveAssign i j) = some s' →
    s'.vars i = some v' → v'.alloc = v.alloc

/-! ## Proofs -/

/-- The invariant: blocks from `next` on are free. -/
structure Inv (s : State) : Prop extends Owned s where
  fresh : ∀ b, s.next ≤ b → s.heap b = none

theorem Inv.lt {s : State} (h : Inv s) {i b : Nat} {v : Vec} (hv : s.vars i = some v) (hb : v.block = some b) : b < s.next := by
  rcases Nat.lt_or_ge b s.next with h1 | h1
  · exact h1
  · have := h.own i v b hv hb
    rw [h.fresh b h1] at this; cases this

/-- Variable `i` is replaced by a vector with a new block or none, and its old block is returned. -/
theorem Inv.repl {s s' : State} (h : Inv s) (i : Nat) (x : Option Vec) (hv : s'.vars = upd s.vars i x)
    (hx : ∀ v, x = some v → v.block = none ∨ v.block = some s.next)
    (hnew : ∀ v, x = some v → v.block = some s.next → s'.heap s.next = some (v.alloc, v.cap) ∧ s.next < s'.next)
    (hnone : (∀ v, x = some v → v.block = none) → s'.heap s.next = none)
    (hold : ∀ v b, s.vars i = some v → v.block = some b → s'.heap b = none)
    (hrest : ∀ b, b ≠ s.next → (∀ v, s.vars i = some v → v.block ≠ some b) → s'.heap b = s.heap b)
    (hn : s.next ≤ s'.next) : Inv s' := by
  have hother : ∀ j w b, j ≠ i → s.vars j = some w → w.block = some b → s'.heap b = s.heap b := by
    intro j w b hj hw hb
    refine hrest b (Nat.ne_of_lt (h.lt hw hb)) ?_
    intro v hv' hvb
    exact hj (h.once j i w v b hw hv' hb hvb)
  refine ⟨⟨?_, ?_, ?_⟩, ?_⟩
  · intro j v b hj hb
    rw [hv] at hj; unfold upd at hj
    split at hj
    · subst hj
      rcases hx v rfl with h1 | h1
      · rw [h1] at hb; cases hb
      · obtain rfl := Option.some.inj (h1.symm.trans hb)
        exact (hnew v rfl h1).1
    · rename_i hne
      rw [hother j v b hne hj hb]
      exact h.own j v b hj hb
  · intro j k v w b hj hk hb hb'
    rw [hv] at hj hk; unfold upd at hj hk
    split at hj <;> split at hk
    · simp_all
    · subst hj
      rcases hx v rfl with h1 | h1
      · rw [h1] at hb; cases hb
      · obtain rfl := Option.some.inj (h1.symm.trans hb)
        exact absurd (h.lt hk hb') (Nat.lt_irrefl _)
    · subst hk
      rcases hx w rfl with h1 | h1
      · rw [h1] at hb'; cases hb'
      · obtain rfl := Option.some.inj (h1.symm.trans hb')
        exact absurd (h.lt hj hb) (Nat.lt_irrefl _)
    · exact h.once j k v w b hj hk hb hb'
  · intro b y hy
    by_cases hb : b = s.next
    · subst hb
      by_cases hall : ∀ v, x = some v → v.block = none
      · rw [hnone hall] at hy; cases hy
      · cases hxx : x with
        | none => exact absurd (fun v hv => by rw [hxx] at hv; cases hv) hall
        | some v =>
          rcases hx v hxx with h1 | h1
          · refine absurd (fun w hw => ?_) hall
            obtain rfl := Option.some.inj (hxx.symm.trans hw)
            exact h1
          · exact ⟨i, v, by rw [hv]; simp [upd, hxx], h1⟩
    · by_cases ho : ∃ v, s.vars i = some v ∧ v.block = some b
      · obtain ⟨v, h1, h2⟩ := ho
        rw [hold v b h1 h2] at hy; cases hy
      · have ho' : ∀ v, s.vars i = some v → v.block ≠ some b := fun v h1 h2 => ho ⟨v, h1, h2⟩
        rw [hrest b hb ho'] at hy
        obtain ⟨j, w, h1, h2⟩ := h.leak b y hy
        refine ⟨j, w, ?_, h2⟩
        rw [hv]; unfold upd
        rw [if_neg]
        · exact h1
        · rintro rfl; exact ho' w h1 h2
  · intro b hb
    by_cases hbn : b = s.next
    · subst hbn
      refine hnone ?_
      intro v hxx
      rcases hx v hxx with h1 | h1
      · exact h1
      · exact absurd (hnew v hxx h1).2 (Nat.not_lt.2 hb)
    · rw [hrest b hbn]
      · exact h.fresh b (Nat.le_trans hn hb)
      · intro v h1 h2
        exact absurd (h.lt h1 h2) (Nat.not_lt.2 (Nat.le_trans hn hb))

/-- The ingredients of a replacement: a vector is made, put at `i`, and the old block is returned to the arena of the old vector. -/
theorem Inv.put {s : State} (h : Inv s) (i a n : Nat) (hi : s.vars i = none) : Inv (create s i a n) := by
  unfold create make
  by_cases hn : n = 0
  · rw [if_pos hn]
    refine h.repl i _ rfl (fun v hv => .inl (by cases hv; rfl)) ?_ (fun _ => h.fresh _ (Nat.le_refl _)) ?_ (fun _ _ _ => rfl) (Nat.le_refl _)
    · intro v hv hb; cases hv; cases hb
    · intro v b hv; rw [hi] at hv; cases hv
  · rw [if_neg hn]
    refine h.repl i _ rfl (fun v hv => .inr (by cases hv; rfl)) ?_ ?_ ?_ ?_ (Nat.le_succ _)
    · intro v hv _; cases hv; exact ⟨by simp [alloc, upd], Nat.lt_succ_self _⟩
    · intro hall; have := hall _ rfl; cases this
    · intro v b hv; rw [hi] at hv; cases hv
    · intro b hb _; simp [alloc, upd, hb]

/-- Returning the block of the vector that was at `i`, when the variable has been replaced by a vector with a new block or none. -/
theorem Inv.swapOut {s s1 : State} (h : Inv s) (i : Nat) (v : Vec) (hi : s.vars i = some v) (x : Option Vec) (hv : s1.vars = upd s.vars i x)
    (hcase : (s1.heap = s.heap ∧ s1.next = s.next ∧ ∀ w, x = some w → w.block = none) ∨
      (∃ w, x = some w ∧ w.block = some s.next ∧ s1.heap = upd s.heap s.next (some (w.alloc, w.cap)) ∧ s1.next = s.next + 1)) :
    ∃ s', dealloc s1 v.alloc v.block v.cap = some s' ∧ Inv s' ∧ s'.vars = s1.vars := by
  have hlt : ∀ b, v.block = some b → b < s.next := fun b hb => h.lt hi hb
  have hs1 : ∀ b, v.block = some b → s1.heap b = some (v.alloc, v.cap) := by
    intro b hb
    have h1 := h.own i v b hi hb
    rcases hcase with ⟨h2, _⟩ | ⟨w, _, _, h2, _⟩
    · rw [h2]; exact h1
    · rw [h2]; unfold upd; rw [if_neg (Nat.ne_of_lt (hlt b hb))]; exact h1
  have hheap : ∃ s', dealloc s1 v.alloc v.block v.cap = some s' ∧ s'.vars = s1.vars ∧ s'.next = s1.next ∧
      (∀ b, v.block = some b → s'.heap b = none) ∧ (∀ b, v.block ≠ some b → s'.heap b = s1.heap b) := by
    unfold dealloc
    cases hb : v.block with
    | none => exact ⟨s1, rfl, rfl, rfl, (by intro b hb'; cases hb'), fun _ _ => rfl⟩
    | some b =>
      dsimp only
      rw [if_pos (hs1 b hb)]
      refine ⟨_, rfl, rfl, rfl, ?_, ?_⟩
      · intro b' hb'; cases hb'; simp [upd]
      · intro b' hb'
        dsimp only [upd]
        rw [if_neg]
        rintro rfl; exact hb' rfl
  obtain ⟨s', hd, hvars, hnext, hgone, hstay⟩ := hheap
  have hnb : v.block ≠ some s.next := fun hb => Nat.lt_irrefl _ (hlt _ hb)
  have hsame : ∀ w, s.vars i = some w → w = v := fun w hw => Option.some.inj (hw.symm.trans hi)
  refine ⟨s', hd, ?_, hvars⟩
  refine h.repl i x (hvars.trans hv) ?_ ?_ ?_ ?_ ?_ ?_
  · intro w hw
    rcases hcase with ⟨_, _, h3⟩ | ⟨w', h1, h2, _⟩
    · exact .inl (h3 w hw)
    · obtain rfl := Option.some.inj (h1.symm.trans hw)
      exact .inr h2
  · intro w hw hwb
    rcases hcase with ⟨_, _, h3⟩ | ⟨w', h1, h2, h4, h5⟩
    · rw [h3 w hw] at hwb; cases hwb
    · obtain rfl := Option.some.inj (h1.symm.trans hw)
      refine ⟨?_, by omega⟩
      rw [hstay _ hnb, h4]; simp [upd]
  · intro hall
    rcases hcase with ⟨h1, _, _⟩ | ⟨w', h1, h2, _⟩
    · rw [hstay _ hnb, h1]; exact h.fresh _ (Nat.le_refl _)
    · have := hall w' h1; rw [h2] at this; cases this
  · intro w b hw hb
    rw [hsame w hw] at hb
    exact hgone b hb
  · intro b hb hw
    rw [hstay b (hw v hi)]
    rcases hcase with ⟨h1, _, _⟩ | ⟨w', _, _, h4, _⟩
    · rw [h1]
    · rw [h4]; simp [upd, hb]
  · rcases hcase with ⟨_, h1, _⟩ | ⟨_, _, _, _, h1⟩ <;> omega

theorem make_case (s : State) (i a n : Nat) :
    let r := make s a n
    let s1 : State := { r.1 with vars := upd r.1.vars i (some r.2) }
    s1.vars = upd s.vars i (some r.2) ∧ r.2.alloc = a ∧
    ((s1.heap = s.heap ∧ s1.next = s.next ∧ ∀ w, some r.2 = some w → w.block = none) ∨
      (∃ w, some r.2 = some w ∧ w.block = some s.next ∧ s1.heap = upd s.heap s.next (some (w.alloc, w.cap)) ∧ s1.next = s.next + 1)) := by
  by_cases hn : n = 0
  · have e : make s a n = (s, ⟨a, none, 0, 0⟩) := by unfold make; exact if_pos hn
    rw [e]
    exact ⟨rfl, rfl, .inl ⟨rfl, rfl, by intro w hw; cases hw; rfl⟩⟩
  · have e : make s a n = (alloc s a n, ⟨a, some s.next, n, n⟩) := by unfold make; exact if_neg hn
    rw [e]
    exact ⟨rfl, rfl, .inr ⟨_, rfl, rfl, rfl, rfl⟩⟩

theorem swapVec_eq (t : Traits) (v w : Vec) (h : t.pocs = true ∨ v.alloc = w.alloc) : swapVec t v w = (w, v) := by
  unfold swapVec
  rcases h with h | h
  · simp [h]
  · split
    · rfl
    · cases v; cases w; dsimp only at h; subst h; rfl

theorem Inv.assignTmp {s : State} (h : Inv s) (t : Traits) (i : Nat) (v : Vec) (hi : s.vars i = some v) (a n : Nat)
    (hc : t.pocs = true ∨ a = v.alloc) : ∃ s', Arenas.assignTmp t s i v a n = some s' ∧ Inv s' := by
  obtain ⟨h1, h2, h3⟩ := make_case s i a n
  obtain ⟨s', h4, h5, _⟩ := h.swapOut i v hi _ h1 h3
  refine ⟨s', ?_, h5⟩
  unfold Arenas.assignTmp
  dsimp only
  rw [swapVec_eq t _ v (by rw [h2]; exact hc)]
  exact h4

/-- The block of `j` goes to `i`, which has none. -/
theorem Inv.transfer {s : State} (h : Inv s) (i j : Nat) (hij : i ≠ j) (w : Vec) (hj : s.vars j = some w)
    (hi : ∀ v, s.vars i = some v → v.block = none) : Inv { s with vars := upd (upd s.vars j (some (emptied w))) i (some w) } := by
  have key : ∀ k v b, upd (upd s.vars j (some (emptied w))) i (some w) k = some v → v.block = some b →
      (k = i ∧ v = w) ∨ (k ≠ i ∧ k ≠ j ∧ s.vars k = some v) := by
    intro k v b hk hb
    unfold upd at hk
    by_cases h1 : k = i
    · rw [if_pos h1] at hk; cases hk; exact .inl ⟨h1, rfl⟩
    · rw [if_neg h1] at hk
      by_cases h2 : k = j
      · rw [if_pos h2] at hk; cases hk; cases hb
      · rw [if_neg h2] at hk; exact .inr ⟨h1, h2, hk⟩
  refine ⟨⟨?_, ?_, ?_⟩, h.fresh⟩
  · intro k v b hk hb
    rcases key k v b hk hb with ⟨_, rfl⟩ | ⟨_, _, h1⟩
    · exact h.own j v b hj hb
    · exact h.own k v b h1 hb
  · intro k l v v' b hk hl hb hb'
    rcases key k v b hk hb with ⟨rfl, rfl⟩ | ⟨h1, h2, h3⟩ <;> rcases key l v' b hl hb' with ⟨rfl, rfl⟩ | ⟨h4, h5, h6⟩
    · rfl
    · exact absurd (h.once l j v' v b h6 hj hb' hb) h5
    · exact absurd (h.once k j v v' b h3 hj hb hb') h2
    · exact h.once k l v v' b h3 h6 hb hb'
  · intro b x hx
    obtain ⟨k, v, h1, h2⟩ := h.leak b x hx
    by_cases hk : k = j
    · subst hk
      obtain rfl := Option.some.inj (hj.symm.trans h1)
      exact ⟨i, w, by simp [upd], h2⟩
    · by_cases hk' : k = i
      · subst hk'
        rw [hi v h1] at h2; cases h2
      · exact ⟨k, v, by simp [upd, hk, hk', h1], h2⟩

theorem Inv.swap {s : State} (h : Inv s) (i j : Nat) (v w : Vec) (hi : s.vars i = some v) (hj : s.vars j = some w) :
    Inv { s with vars := upd (upd s.vars j (some v)) i (some w) } := by
  have key : ∀ k x, upd (upd s.vars j (some v)) i (some w) k = some x →
      ∃ k', s.vars k' = some x ∧ ((k = i ∧ k' = j) ∨ (k ≠ i ∧ k = j ∧ k' = i) ∨ (k ≠ i ∧ k ≠ j ∧ k' = k)) := by
    intro k x hk
    unfold upd at hk
    by_cases h1 : k = i
    · rw [if_pos h1] at hk; cases hk; exact ⟨j, hj, .inl ⟨h1, rfl⟩⟩
    · rw [if_neg h1] at hk
      by_cases h2 : k = j
      · rw [if_pos h2] at hk; cases hk; exact ⟨i, hi, .inr (.inl ⟨h1, h2, rfl⟩)⟩
      · rw [if_neg h2] at hk; exact ⟨k, hk, .inr (.inr ⟨h1, h2, rfl⟩)⟩
  refine ⟨⟨?_, ?_, ?_⟩, h.fresh⟩
  · intro k x b hk hb
    obtain ⟨k', h1, _⟩ := key k x hk
    exact h.own k' x b h1 hb
  · intro k l x y b hk hl hb hb'
    obtain ⟨k', h1, h2⟩ := key k x hk
    obtain ⟨l', h3, h4⟩ := key l y hl
    have := h.once k' l' x y b h1 h3 hb hb'
    omega
  · intro b x hx
    obtain ⟨k, y, h1, h2⟩ := h.leak b x hx
    by_cases hk : k = i
    · subst hk
      obtain rfl := Option.some.inj (hi.symm.trans h1)
      by_cases hji : j = k
      · subst hji
        obtain rfl := Option.some.inj (hi.symm.trans hj)
        exact ⟨j, v, by simp [upd], h2⟩
      · exact ⟨j, v, by simp [upd, hji], h2⟩
    · by_cases hk' : k = j
      · subst hk'
        obtain rfl := Option.some.inj (hj.symm.trans h1)
        exact ⟨i, w, by simp [upd], h2⟩
      · exact ⟨k, y, by simp [upd, hk, hk', h1], h2⟩

theorem upd_upd {α : Type} (f : Nat → α) (i j : Nat) (x y z : α) : upd (upd (upd f i z) j y) i x = upd (upd f j y) i x := by
  funext k; unfold upd; split <;> rename_i h
  · rfl
  · split
    · rfl
    · rfl

theorem upd_self {α : Type} (f : Nat → α) (i : Nat) (x y : α) : upd (upd f i x) i y = upd f i y := by
  funext k; unfold upd; split <;> rfl

theorem step_inv (t : Traits) (s : State) (op : Op) (h : Inv s) (hc : Compatible t s op) : ∃ s', step t s op = some s' ∧ Inv s' := by
  cases op with
  | create i a n =>
    dsimp only [step]; split
    · rename_i hi; exact ⟨_, rfl, h.put i a n hi⟩
    · exact ⟨s, rfl, h⟩
  | copy i j =>
    dsimp only [step]; split
    · rename_i w hi _; exact ⟨_, rfl, h.put i _ _ hi⟩
    · exact ⟨s, rfl, h⟩
  | move i j =>
    dsimp only [step]; split
    · rename_i w hi hj
      refine ⟨_, rfl, h.transfer i j ?_ w hj (by intro v hv; rw [hi] at hv; cases hv)⟩
      rintro rfl; rw [hi] at hj; cases hj
    · exact ⟨s, rfl, h⟩
  | copyAssign i j =>
    dsimp only [step]; split
    · exact ⟨s, rfl, h⟩
    · split
      · rename_i v w hi hj
        exact h.assignTmp t i v hi _ _ (hc.imp id (fun hc => hc v w hi hj))
      · exact ⟨s, rfl, h⟩
  | moveAssign i j =>
    dsimp only [step]; split
    · exact ⟨s, rfl, h⟩
    · rename_i hij
      split
      · rename_i v w hi hj
        -- first the old block is returned, then the new one taken
        obtain ⟨s1, h1, h2, h3⟩ := h.swapOut (s1 := { s with vars := upd s.vars i (some (emptied v)) }) i v hi (some (emptied v)) rfl
          (.inl ⟨rfl, rfl, by intro w hw; cases hw; rfl⟩)
        have hj1 : s1.vars j = some w := by rw [h3]; simp [upd, Ne.symm hij, hj]
        have h4 := h2.transfer i j hij w hj1 (by intro x hx; rw [h3] at hx; simp [upd] at hx; rw [← hx]; rfl)
        refine ⟨_, ?_, h4⟩
        rw [h3]
        dsimp only
        rw [upd_upd]
        unfold dealloc at h1 ⊢
        cases hb : v.block with
        | none => rw [hb] at h1; cases h1; rfl
        | some b =>
          rw [hb] at h1
          dsimp only at h1 ⊢
          split at h1
          · rename_i hh; rw [if_pos hh]; cases h1; rfl
          · cases h1
      · exact ⟨s, rfl, h⟩
  | assignView i n =>
    dsimp only [step]; split
    · rename_i v hi; exact h.assignTmp t i v hi _ _ (hc.imp id (fun hc => hc v hi))
    · exact ⟨s, rfl, h⟩
  | assignStd i a n =>
    dsimp only [step]; split
    · rename_i v hi; exact h.assignTmp t i v hi _ _ (hc.imp id (fun hc => hc v hi))
    · exact ⟨s, rfl, h⟩
  | swap i j =>
    dsimp only [step]; split
    · exact ⟨s, rfl, h⟩
    · split
      · rename_i v w hi hj
        rw [swapVec_eq t v w (hc.imp id (fun hc => hc v w hi hj))]
        exact ⟨_, rfl, h.swap i j v w hi hj⟩
      · exact ⟨s, rfl, h⟩
  | change i n c =>
    dsimp only [step]; split
    · rename_i v hi
      split
      · obtain ⟨s', h1, h2, _⟩ := h.swapOut (s1 := { alloc s v.alloc c with vars := upd s.vars i (some ⟨v.alloc, some s.next, c, n⟩) }) i v hi _ rfl
          (.inr ⟨_, rfl, rfl, rfl, rfl⟩)
        exact ⟨s', h1, h2⟩
      · refine ⟨_, rfl, ⟨?_, ?_, ?_⟩, h.fresh⟩
        · intro k x b hk hb
          dsimp only [upd] at hk
          split at hk
          · cases hk; exact h.own i v b hi hb
          · exact h.own k x b hk hb
        · intro k l x y b hk hl hb hb'
          dsimp only [upd] at hk hl
          split at hk <;> split at hl
          · simp_all
          · rename_i e _; cases hk; exact e.trans (h.once i l v y b hi hl hb hb')
          · rename_i _ e; cases hl; exact (h.once k i x v b hk hi hb hb').trans e.symm
          · exact h.once k l x y b hk hl hb hb'
        · intro b x hx
          obtain ⟨k, y, h1, h2⟩ := h.leak b x hx
          by_cases hk : k = i
          · subst hk
            obtain rfl := Option.some.inj (hi.symm.trans h1)
            exact ⟨k, { v with size := n }, by simp [upd], h2⟩
          · exact ⟨k, y, by simp [upd, hk, h1], h2⟩
    · exact ⟨s, rfl, h⟩
  | shrink i =>
    dsimp only [step]; split
    · rename_i v hi
      split
      · obtain ⟨h1, _, h3⟩ := make_case s i v.alloc v.size
        obtain ⟨s', h4, h5, _⟩ := h.swapOut i v hi _ h1 h3
        exact ⟨s', h4, h5⟩
      · exact ⟨s, rfl, h⟩
    · exact ⟨s, rfl, h⟩
  | reshape i j =>
    dsimp only [step]; split
    · rename_i w hi _; exact ⟨_, rfl, h.put i _ _ hi⟩
    · exact ⟨s, rfl, h⟩
  | reshapeWith i j a =>
    dsimp only [step]; split
    · rename_i w hi _; exact ⟨_, rfl, h.put i _ _ hi⟩
    · exact ⟨s, rfl, h⟩
  | reshapeMove i j =>
    dsimp only [step]; split
    · rename_i w hi hj
      refine ⟨_, rfl, h.transfer i j ?_ w hj (by intro v hv; rw [hi] at hv; cases hv)⟩
      rintro rfl; rw [hi] at hj; cases hj
    · exact ⟨s, rfl, h⟩
  | destroy i =>
    dsimp only [step]; split
    · rename_i v hi
      obtain ⟨s', h1, h2, _⟩ := h.swapOut (s1 := { s with vars := upd s.vars i none }) i v hi none rfl
        (.inl ⟨rfl, rfl, by intro w hw; cases hw⟩)
      exact ⟨s', h1, h2⟩
    · exact ⟨s, rfl, h⟩

theorem init_inv : Inv init := ⟨⟨(by intro i v b hi; cases hi), (by intro i j v w b hi; cases hi), (by intro b x hx; cases hx)⟩, fun _ _ => rfl⟩

theorem run_inv (t : Traits) (ops : List Op) : ∀ s, Inv s → CompatibleRun t s ops → ∃ s', run t s ops = some s' ∧ Inv s' := by
  induction ops with
  | nil => intro s h _; exact ⟨s, rfl, h⟩
  | cons op ops ih =>
    intro s h hc
    obtain ⟨s1, h1, h2⟩ := step_inv t s op h hc.1
    obtain ⟨s2, h3, h4⟩ := ih s1 h2 (hc.2 s1 h1)
    exact ⟨s2, by rw [run, h1]; exact h3, h4⟩

/-! ### Memory -/

/-- Every block goes back to the arena that it came from, once, and nothing is lost, for all programs where the allocators propagate or draw from the same
arena whenever a vector is swapped or assigned by a copy. When all vectors are destroyed, no memory is left. Missing: assignments with other
allocators (see below). -/
theorem C114_returned_partial (t : Traits) (ops : List Op) (h : CompatibleRun t init ops) :
    ∃ s, run t init ops = some s ∧ Owned s ∧ ((∀ i, s.vars i = none) → ∀ b, s.heap b = none) := by
  obtain ⟨s, h1, h2⟩ := run_inv t ops init init_inv h
  refine ⟨s, h1, h2.toOwned, ?_⟩
  intro hn b
  cases hb : s.heap b with
  | none => rfl
  | some x =>
    obtain ⟨i, v, h3, _⟩ := h2.leak b x hb
    rw [hn i] at h3; cases h3

/-- Allocators of two arenas that do not propagate: vectors of the same arena are assigned, and one of the other is moved. -/
example : CompatibleRun ⟨false, false, id, 0⟩ init [.create 1 1 5, .create 2 1 7, .create 3 4 2, .copyAssign 1 2, .moveAssign 2 3, .destroy 1] := by
  refine ⟨.inr trivial, fun _ h => ?_⟩; cases h
  refine ⟨.inr trivial, fun _ h => ?_⟩; cases h
  refine ⟨.inr trivial, fun _ h => ?_⟩; cases h
  refine ⟨.inr (by intro v w hv hw; cases hv; cases hw; rfl), fun _ h => ?_⟩; cases h
  refine ⟨.inr trivial, fun _ h => ?_⟩; cases h
  exact ⟨.inr trivial, fun _ _ => trivial⟩

/-- If allocators propagate on swap, this holds for every program. -/
theorem C114_propagating (t : Traits) (h : t.pocs = true) (ops : List Op) : ∃ s, run t init ops = some s ∧ Owned s := by
  have hc : ∀ (ops : List Op) (s : State), CompatibleRun t s ops := by
    intro ops
    induction ops with
    | nil => intro _; trivial
    | cons op ops ih => intro s; exact ⟨.inl h, fun s' _ => ih s'⟩
  obtain ⟨s, h1, h2, _⟩ := C114_returned_partial t ops (hc ops init)
  exact ⟨s, h1, h2⟩

/-- Three arenas, with allocators that propagate. -/
example : ((run ⟨true, true, id, 0⟩ init [.create 1 1 5, .create 2 2 7, .copyAssign 1 2, .assignView 2 3, .moveAssign 2 1, .destroy 2]).map
    fun s => (s.vars 1, s.vars 2, s.heap 0, s.heap 1, s.heap 2, s.heap 3)) = some (some ⟨2, none, 0, 0⟩, none, none, none, none, none) := rfl

theorem dealloc_vars {s s' : State} {a n : Nat} {b : Option Nat} (h : dealloc s a b n = some s') : s'.vars = s.vars := by
  unfold dealloc at h
  cases b with
  | none => cases h; rfl
  | some b =>
    dsimp only at h
    split at h
    · cases h; rfl
    · cases h

theorem make_vars (s : State) (a n : Nat) : (make s a n).1.vars = s.vars ∧ (make s a n).2.alloc = a := by
  unfold make; split <;> exact ⟨rfl, rfl⟩

/-- Where the allocator of a vector after an operation comes from. -/
theorem assignTmp_vars {t : Traits} {s s' : State} {i a n : Nat} {v : Vec} (h : assignTmp t s i v a n = some s') :
    ∃ v', s'.vars = upd s.vars i (some v') ∧ v'.alloc = if t.pocs then a else v.alloc := by
  unfold assignTmp at h
  dsimp only at h
  have h1 := dealloc_vars h
  dsimp only at h1
  refine ⟨_, by rw [h1, (make_vars s a n).1], ?_⟩
  unfold swapVec
  cases t.pocs
  · rfl
  · exact (make_vars s a n).2

theorem create_vars (s : State) (i a n : Nat) : ∃ v', (create s i a n).vars = upd s.vars i (some v') ∧ v'.alloc = a :=
  ⟨(make s a n).2, by unfold create; dsimp only; rw [(make_vars s a n).1], (make_vars s a n).2⟩

/-- The operation draws from the arena `a` if it names an allocator. -/
def From (a : Nat) : Op → Prop
  | .create _ b _ => b = a
  | .assignStd _ b _ => b = a
  | .reshapeWith _ _ b => b = a
  | _ => True

theorem upd_all {s : State} {P : Vec → Prop} (h : ∀ i v, s.vars i = some v → P v) {f : Nat → Option Vec} (i : Nat) (x : Option Vec)
    (hx : ∀ v, x = some v → P v) (hf : f = upd s.vars i x) : ∀ j v, f j = some v → P v := by
  subst hf
  intro j v hv
  unfold upd at hv
  split at hv
  · exact hx v hv
  · exact h j v hv

theorem step_one (t : Traits) (a : Nat) (hd : t.dflt = a) (hsel : t.select a = a) (s s' : State) (op : Op) (hf : From a op)
    (h : ∀ i v, s.vars i = some v → v.alloc = a) (hs : step t s op = some s') : ∀ i v, s'.vars i = some v → v.alloc = a := by
  have mk : ∀ i b n, b = a → ∀ k v, (create s i b n).vars k = some v → v.alloc = a := by
    intro i b n hb
    obtain ⟨v', h1, h2⟩ := create_vars s i b n
    exact upd_all (P := fun v => v.alloc = a) h i _ (by intro v hv; cases hv; exact h2.trans hb) h1
  have asg : ∀ i v b n, s.vars i = some v → b = a → assignTmp t s i v b n = some s' → ∀ k v, s'.vars k = some v → v.alloc = a := by
    intro i v b n hi hb h0
    obtain ⟨v', h1, h2⟩ := assignTmp_vars h0
    refine upd_all (P := fun v => v.alloc = a) h i _ ?_ h1
    intro w hw; cases hw
    rw [h2]; split
    · exact hb
    · exact h i v hi
  have two : ∀ i j x y, x.alloc = a → y.alloc = a → ∀ k v, upd (upd s.vars j (some x)) i (some y) k = some v → v.alloc = a := by
    intro i j x y hx hy k v hv
    unfold upd at hv
    split at hv
    · cases hv; exact hy
    · split at hv
      · cases hv; exact hx
      · exact h k v hv
  cases op with
  | create i b n =>
    dsimp only [step] at hs; split at hs <;> cases hs
    · exact mk i b n hf
    · exact h
  | copy i j =>
    dsimp only [step] at hs; split at hs <;> cases hs
    · rename_i w _ hj; exact mk i _ _ (by rw [h j w hj]; exact hsel)
    · exact h
  | move i j =>
    dsimp only [step] at hs; split at hs <;> cases hs
    · rename_i w _ hj; exact two i j _ _ (h j w hj) (h j w hj)
    · exact h
  | copyAssign i j =>
    dsimp only [step] at hs; split at hs
    · cases hs; exact h
    · split at hs
      · rename_i v w hi hj; exact asg i v _ _ hi (by rw [h j w hj]; exact hsel) hs
      · cases hs; exact h
  | moveAssign i j =>
    dsimp only [step] at hs; split at hs
    · cases hs; exact h
    · split at hs
      · rename_i v w hi hj
        rw [dealloc_vars hs]
        exact two i j _ _ (h j w hj) (h j w hj)
      · cases hs; exact h
  | assignView i n =>
    dsimp only [step] at hs; split at hs
    · rename_i v hi; exact asg i v _ _ hi hd hs
    · cases hs; exact h
  | assignStd i b n =>
    dsimp only [step] at hs; split at hs
    · rename_i v hi; exact asg i v _ _ hi hf hs
    · cases hs; exact h
  | swap i j =>
    dsimp only [step] at hs; split at hs
    · cases hs; exact h
    · split at hs <;> cases hs
      · rename_i v w hi hj
        rw [swapVec_eq t v w (.inr ((h i v hi).trans (h j w hj).symm))]
        exact two i j _ _ (h i v hi) (h j w hj)
      · exact h
  | change i n c =>
    dsimp only [step] at hs; split at hs
    · rename_i v hi
      split at hs
      · exact upd_all (P := fun v => v.alloc = a) h i _ (by intro w hw; cases hw; exact h i v hi) (dealloc_vars hs)
      · cases hs
        exact upd_all (P := fun v => v.alloc = a) h i _ (by intro w hw; cases hw; exact h i v hi) rfl
    · cases hs; exact h
  | shrink i =>
    dsimp only [step] at hs; split at hs
    · rename_i v hi
      split at hs
      · have h1 := dealloc_vars hs
        dsimp only at h1
        rw [(make_vars s v.alloc v.size).1] at h1
        exact upd_all (P := fun v => v.alloc = a) h i _ (by intro w hw; cases hw; exact (make_vars s v.alloc v.size).2.trans (h i v hi)) h1
      · cases hs; exact h
    · cases hs; exact h
  | reshape i j =>
    dsimp only [step] at hs; split at hs <;> cases hs
    · exact mk i _ _ hd
    · exact h
  | reshapeWith i j b =>
    dsimp only [step] at hs; split at hs <;> cases hs
    · exact mk i _ _ hf
    · exact h
  | reshapeMove i j =>
    dsimp only [step] at hs; split at hs <;> cases hs
    · rename_i w _ hj; exact two i j _ _ (h j w hj) (h j w hj)
    · exact h
  | destroy i =>
    dsimp only [step] at hs; split at hs
    · rename_i v hi
      exact upd_all (P := fun v => v.alloc = a) h i none (by intro w hw; cases hw) (dealloc_vars hs)
    · cases hs; exact h

/-- If all allocators draw from one arena, as those without a state do, this holds for every program. -/
theorem C114_one_arena (t : Traits) (a : Nat) (hd : t.dflt = a) (hsel : t.select a = a) (ops : List Op) (hf : ∀ op ∈ ops, From a op) :
    ∃ s, run t init ops = some s ∧ Owned s := by
  have hc : ∀ (ops : List Op) (s : State), (∀ op ∈ ops, From a op) → (∀ i v, s.vars i = some v → v.alloc = a) → CompatibleRun t s ops := by
    intro ops
    induction ops with
    | nil => intro _ _ _; trivial
    | cons op ops ih =>
      intro s hf h
      refine ⟨.inr ?_, fun s' hs => ih s' (fun o ho => hf o (by simp [ho])) (step_one t a hd hsel s s' op (hf op (by simp)) h hs)⟩
      have hf' := hf op (by simp)
      cases op with
      | copyAssign i j => intro v w hi hj; rw [h i v hi, h j w hj]; exact hsel
      | assignView i n => intro v hi; rw [h i v hi]; exact hd
      | assignStd i b n => intro v hi; rw [h i v hi]; exact hf'
      | swap i j => intro v w hi hj; rw [h i v hi, h j w hj]
      | _ => trivial
  obtain ⟨s, h1, h2, _⟩ := C114_returned_partial t ops (hc ops init hf (by intro i v hv; cases hv))
  exact ⟨s, h1, h2⟩

example : ∀ op ∈ [Op.create 1 0 5, .copy 2 1, .copyAssign 1 2, .shrink 1, .destroy 2], From 0 op := by simp [From]

/-- Exactly when a copy assignment to a vector that owns memory is undefined: allocators do not propagate on swap, and the one for the copy is not equal
to the one of the vector. -/
theorem C114_copy_assign (t : Traits) (s : State) (h : Owned s) (hfresh : ∀ b, s.next ≤ b → s.heap b = none) (i j : Nat) (hij : i ≠ j) (v w : Vec)
    (hi : s.vars i = some v) (hj : s.vars j = some w) (hb : v.block.isSome) :
    step t s (.copyAssign i j) = none ↔ t.pocs = false ∧ t.select w.alloc ≠ v.alloc := by
  have hI : Inv s := ⟨h, hfresh⟩
  constructor
  · intro hs
    by_cases hc : t.pocs = true ∨ t.select w.alloc = v.alloc
    · obtain ⟨s', h1, _⟩ := step_inv t s (.copyAssign i j) hI
        (hc.imp id (fun hc v' w' hi' hj' => by
          obtain rfl := Option.some.inj (hi.symm.trans hi')
          obtain rfl := Option.some.inj (hj.symm.trans hj')
          exact hc))
      rw [h1] at hs; cases hs
    · refine ⟨?_, fun h => hc (.inr h)⟩
      cases hp : t.pocs
      · rfl
      · exact absurd (.inl hp) hc
  · rintro ⟨hp, hne⟩
    obtain ⟨b, hb⟩ := Option.isSome_iff_exists.1 hb
    have hlt := hI.lt hi hb
    have hown := h.own i v b hi hb
    simp only [step, if_neg hij, hi, hj, assignTmp]
    unfold swapVec
    rw [hp]
    have hheap : (make s (t.select w.alloc) w.size).1.heap b = some (v.alloc, v.cap) := by
      unfold make
      split
      · exact hown
      · simp [alloc, upd, Nat.ne_of_lt hlt, hown]
    simp [dealloc, hb, hheap, (make_vars s (t.select w.alloc) w.size).2]
    intro h'; exact absurd h'.symm hne

/-- Two vectors with memory of two arenas and the usual traits. -/
def twoArenas : List Op := [.create 1 1 5, .create 2 2 7]

/-- `std::allocator_traits` by default: nothing propagates, and copies keep the allocator. -/
def usual : Traits := ⟨false, false, id, 0⟩

example : ∃ s, run usual init twoArenas = some s ∧ Owned s ∧ s.vars 1 = some ⟨1, some 0, 5, 5⟩ ∧ s.vars 2 = some ⟨2, some 1, 7, 7⟩ := by
  obtain ⟨s, h1, h2, _⟩ := C114_returned_partial usual twoArenas
    ⟨.inr trivial, fun _ h => by cases h; exact ⟨.inr trivial, fun _ _ => trivial⟩⟩
  refine ⟨s, h1, h2, ?_⟩
  cases h1
  exact ⟨rfl, rfl⟩

/-- `v = w` returns the memory of `v` to the arena of `w`. -/
theorem C114_copy_assign_violated : ¬ Returned := by
  intro H
  obtain ⟨s, hs, _⟩ := H usual (twoArenas ++ [.copyAssign 1 2]) (by intro i j; simp [twoArenas])
  have h : (run usual init (twoArenas ++ [.copyAssign 1 2])).isSome = false := by decide
  rw [hs] at h; cases h

/-- `v = view` returns the memory of `v` to the default arena, though only one vector is there, with its own allocator. -/
theorem C114_view_violated : (run usual init [.create 1 1 5, .assignView 1 3]).isSome = false := by decide

/-- An assignment to an empty vector succeeds, but its memory is now the one of another arena: the destructor is undefined. -/
theorem C114_later_violated : (run usual init [.create 1 1 0, .create 2 2 7, .copyAssign 1 2]).isSome = true ∧
    (run usual init [.create 1 1 0, .create 2 2 7, .copyAssign 1 2, .destroy 1]).isSome = false := by decide

/-! ### Allocators -/

/-- Unless allocators propagate on swap, no operation but the assignment of a vector that is moved changes the allocator of a vector. -/
theorem C114_keeps (t : Traits) (hp : t.pocs = false) (s s' : State) (op : Op) (i : Nat) (v v' : Vec) (hv : s.vars i = some v)
    (hs : step t s op = some s') (hv' : s'.vars i = some v') (hop : ∀ j, op ≠ .moveAssign i j) : v'.alloc = v.alloc := by
  have same : ∀ {f : Nat → Option Vec}, f i = some v' → f = s.vars → v'.alloc = v.alloc := by
    intro f h1 h2; rw [h2, hv] at h1; cases h1; rfl
  have one : ∀ (k : Nat) (x : Option Vec) (f : Nat → Option Vec), f i = some v' → f = upd s.vars k x →
      (k = i → ∀ y, x = some y → y.alloc = v.alloc) → v'.alloc = v.alloc := by
    intro k x f h1 h2 h3
    rw [h2] at h1; unfold upd at h1
    split at h1
    · rename_i e; exact h3 e.symm v' h1
    · rw [hv] at h1; cases h1; rfl
  have mk : ∀ k b n, s.vars k = none → (create s k b n).vars i = some v' → v'.alloc = v.alloc := by
    intro k b n hk h1
    obtain ⟨x, h2, _⟩ := create_vars s k b n
    refine one k _ _ h1 h2 ?_
    rintro rfl; rw [hv] at hk; cases hk
  have asg : ∀ k w b n, s.vars k = some w → assignTmp t s k w b n = some s' → v'.alloc = v.alloc := by
    intro k w b n hk h1
    obtain ⟨x, h2, h3⟩ := assignTmp_vars h1
    refine one k _ _ hv' h2 ?_
    rintro rfl y hy; cases hy
    rw [hp] at h3
    obtain rfl := Option.some.inj (hv.symm.trans hk)
    exact h3
  have two : ∀ k l x y (f : Nat → Option Vec), f i = some v' → f = upd (upd s.vars l (some x)) k (some y) → (k = i → y.alloc = v.alloc) →
      (l = i → x.alloc = v.alloc) → v'.alloc = v.alloc := by
    intro k l x y f h1 h2 h3 h4
    rw [h2] at h1; unfold upd at h1
    split at h1
    · rename_i e; cases h1; exact h3 e.symm
    · split at h1
      · rename_i e; cases h1; exact h4 e.symm
      · rw [hv] at h1; cases h1; rfl
  cases op with
  | create k b n =>
    dsimp only [step] at hs; split at hs <;> cases hs
    · rename_i hk; exact mk k b n hk hv'
    · exact same hv' rfl
  | copy k j =>
    dsimp only [step] at hs; split at hs <;> cases hs
    · rename_i w hk _; exact mk k _ _ hk hv'
    · exact same hv' rfl
  | move k j =>
    dsimp only [step] at hs; split at hs <;> cases hs
    · rename_i w hk hj
      refine two k j _ _ _ hv' rfl (by rintro rfl; rw [hv] at hk; cases hk) ?_
      rintro rfl; obtain rfl := Option.some.inj (hv.symm.trans hj); rfl
    · exact same hv' rfl
  | copyAssign k j =>
    dsimp only [step] at hs; split at hs
    · cases hs; exact same hv' rfl
    · split at hs
      · rename_i x w hk hj; exact asg k x _ _ hk hs
      · cases hs; exact same hv' rfl
  | moveAssign k j =>
    dsimp only [step] at hs; split at hs
    · cases hs; exact same hv' rfl
    · split at hs
      · rename_i x w hk hj
        refine two k j _ _ _ hv' (dealloc_vars hs) (by rintro rfl; exact absurd rfl (hop j)) ?_
        rintro rfl; obtain rfl := Option.some.inj (hv.symm.trans hj); rfl
      · cases hs; exact same hv' rfl
  | assignView k n =>
    dsimp only [step] at hs; split at hs
    · rename_i x hk; exact asg k x _ _ hk hs
    · cases hs; exact same hv' rfl
  | assignStd k b n =>
    dsimp only [step] at hs; split at hs
    · rename_i x hk; exact asg k x _ _ hk hs
    · cases hs; exact same hv' rfl
  | swap k j =>
    dsimp only [step] at hs; split at hs
    · cases hs; exact same hv' rfl
    · split at hs <;> cases hs
      · rename_i x w hk hj
        refine two k j _ _ _ hv' rfl ?_ ?_
        · rintro rfl; obtain rfl := Option.some.inj (hv.symm.trans hk); simp [swapVec, hp]
        · rintro rfl; obtain rfl := Option.some.inj (hv.symm.trans hj); simp [swapVec, hp]
      · exact same hv' rfl
  | change k n c =>
    dsimp only [step] at hs; split at hs
    · rename_i x hk
      split at hs
      · refine one k _ _ hv' (dealloc_vars hs) ?_
        rintro rfl y hy; cases hy; obtain rfl := Option.some.inj (hv.symm.trans hk); rfl
      · cases hs
        refine one k _ _ hv' rfl ?_
        rintro rfl y hy; cases hy; obtain rfl := Option.some.inj (hv.symm.trans hk); rfl
    · cases hs; exact same hv' rfl
  | shrink k =>
    dsimp only [step] at hs; split at hs
    · rename_i x hk
      split at hs
      · have h1 := dealloc_vars hs
        dsimp only at h1
        rw [(make_vars s x.alloc x.size).1] at h1
        refine one k _ _ hv' h1 ?_
        rintro rfl y hy; cases hy; obtain rfl := Option.some.inj (hv.symm.trans hk); exact (make_vars s v.alloc v.size).2
      · cases hs; exact same hv' rfl
    · cases hs; exact same hv' rfl
  | reshape k j =>
    dsimp only [step] at hs; split at hs <;> cases hs
    · rename_i w hk _; exact mk k _ _ hk hv'
    · exact same hv' rfl
  | reshapeWith k j a =>
    dsimp only [step] at hs; split at hs <;> cases hs
    · rename_i w hk _; exact mk k _ _ hk hv'
    · exact same hv' rfl
  | reshapeMove k j =>
    dsimp only [step] at hs; split at hs <;> cases hs
    · rename_i w hk hj
      refine two k j _ _ _ hv' rfl (by rintro rfl; rw [hv] at hk; cases hk) ?_
      rintro rfl; obtain rfl := Option.some.inj (hv.symm.trans hj); rfl
    · exact same hv' rfl
  | destroy k =>
    dsimp only [step] at hs; split at hs
    · rename_i x hk
      refine one k none _ hv' (dealloc_vars hs) ?_
      intro _ y hy; cases hy
    · cases hs; exact same hv' rfl

example : usual.pocs = false ∧ ((run usual init twoArenas).bind fun s => step usual s (.swap 1 2)).isSome = true := by decide

/-- The allocator that a new vector is to have: the one that it was given, the selected one for copies, the one of the source for moves; and by `reshape`
without an allocator the default one. Other operations make no vectors. -/
def NewAllocator (t : Traits) (s : State) (i a : Nat) : Op → Prop
  | .create k b _ => k = i ∧ a = b
  | .copy k j => k = i ∧ ∃ w, s.vars j = some w ∧ a = t.select w.alloc
  | .move k j => k = i ∧ ∃ w, s.vars j = some w ∧ a = w.alloc
  | .reshape k _ => k = i ∧ a = t.dflt
  | .reshapeWith k _ b => k = i ∧ a = b
  | .reshapeMove k j => k = i ∧ ∃ w, s.vars j = some w ∧ a = w.alloc
  | _ => False

/-- A new vector has the allocator that it is to have. -/
theorem C114_given (t : Traits) (s s' : State) (op : Op) (i : Nat) (v : Vec) (hv : s.vars i = none) (hs : step t s op = some s')
    (hv' : s'.vars i = some v) : NewAllocator t s i v.alloc op := by
  have same : ∀ {P : Prop} {f : Nat → Option Vec}, f i = some v → f = s.vars → P := by
    intro P f h1 h2; rw [h2, hv] at h1; cases h1
  have one : ∀ {P : Prop} (k : Nat) (x : Option Vec) (f : Nat → Option Vec), f i = some v → f = upd s.vars k x → (k = i → x = some v → P) → P := by
    intro P k x f h1 h2 h3
    rw [h2] at h1; unfold upd at h1
    split at h1
    · rename_i e; exact h3 e.symm h1
    · rw [hv] at h1; cases h1
  have mk : ∀ k b n, (create s k b n).vars i = some v → k = i ∧ v.alloc = b := by
    intro k b n h1
    obtain ⟨x, h2, h3⟩ := create_vars s k b n
    exact one k _ _ h1 h2 (fun e hx => ⟨e, by cases hx; exact h3⟩)
  have asg : ∀ {P : Prop} k w b n, s.vars k = some w → assignTmp t s k w b n = some s' → P := by
    intro P k w b n hk h1
    obtain ⟨x, h2, _⟩ := assignTmp_vars h1
    exact one k _ _ hv' h2 (by rintro rfl; rw [hv] at hk; cases hk)
  have two : ∀ {P : Prop} k l x y (f : Nat → Option Vec), f i = some v → f = upd (upd s.vars l (some x)) k (some y) → l ≠ i →
      (k = i → y = v → P) → P := by
    intro P k l x y f h1 h2 h3 h4
    rw [h2] at h1; unfold upd at h1
    split at h1
    · rename_i e; cases h1; exact h4 e.symm rfl
    · split at h1
      · rename_i e; exact absurd e.symm h3
      · rw [hv] at h1; cases h1
  have there : ∀ k w, s.vars k = some w → k ≠ i := by
    rintro k w hk rfl; rw [hv] at hk; cases hk
  cases op with
  | create k b n =>
    dsimp only [step] at hs; split at hs <;> cases hs
    · exact mk k b n hv'
    · exact same hv' rfl
  | copy k j =>
    dsimp only [step] at hs; split at hs <;> cases hs
    · rename_i w _ hj
      obtain ⟨h1, h2⟩ := mk k _ _ hv'
      exact ⟨h1, w, hj, h2⟩
    · exact same hv' rfl
  | move k j =>
    dsimp only [step] at hs; split at hs <;> cases hs
    · rename_i w _ hj
      exact two k j _ _ _ hv' rfl (there j w hj) (fun e h => ⟨e, w, hj, by rw [h]⟩)
    · exact same hv' rfl
  | copyAssign k j =>
    dsimp only [step] at hs; split at hs
    · cases hs; exact same hv' rfl
    · split at hs
      · rename_i x w hk hj; exact asg k x _ _ hk hs
      · cases hs; exact same hv' rfl
  | moveAssign k j =>
    dsimp only [step] at hs; split at hs
    · cases hs; exact same hv' rfl
    · split at hs
      · rename_i x w hk hj
        exact two k j _ _ _ hv' (dealloc_vars hs) (there j w hj) (fun e _ => absurd e (there k x hk))
      · cases hs; exact same hv' rfl
  | assignView k n =>
    dsimp only [step] at hs; split at hs
    · rename_i x hk; exact asg k x _ _ hk hs
    · cases hs; exact same hv' rfl
  | assignStd k b n =>
    dsimp only [step] at hs; split at hs
    · rename_i x hk; exact asg k x _ _ hk hs
    · cases hs; exact same hv' rfl
  | swap k j =>
    dsimp only [step] at hs; split at hs
    · cases hs; exact same hv' rfl
    · split at hs <;> cases hs
      · rename_i x w hk hj
        exact two k j _ _ _ hv' rfl (there j w hj) (fun e _ => absurd e (there k x hk))
      · exact same hv' rfl
  | change k n c =>
    dsimp only [step] at hs; split at hs
    · rename_i x hk
      split at hs
      · exact one k _ _ hv' (dealloc_vars hs) (fun e _ => absurd e (there k x hk))
      · cases hs
        exact one k _ _ hv' rfl (fun e _ => absurd e (there k x hk))
    · cases hs; exact same hv' rfl
  | shrink k =>
    dsimp only [step] at hs; split at hs
    · rename_i x hk
      split at hs
      · have h1 := dealloc_vars hs
        dsimp only at h1
        rw [(make_vars s x.alloc x.size).1] at h1
        exact one k _ _ hv' h1 (fun e _ => absurd e (there k x hk))
      · cases hs; exact same hv' rfl
    · cases hs; exact same hv' rfl
  | reshape k j =>
    dsimp only [step] at hs; split at hs <;> cases hs
    · exact mk k _ _ hv'
    · exact same hv' rfl
  | reshapeWith k j a =>
    dsimp only [step] at hs; split at hs <;> cases hs
    · exact mk k _ _ hv'
    · exact same hv' rfl
  | reshapeMove k j =>
    dsimp only [step] at hs; split at hs <;> cases hs
    · rename_i w _ hj
      exact two k j _ _ _ hv' rfl (there j w hj) (fun e h => ⟨e, w, hj, by rw [h]⟩)
    · exact same hv' rfl
  | destroy k =>
    dsimp only [step] at hs; split at hs
    · rename_i x hk
      exact one k none _ hv' (dealloc_vars hs) (fun _ h => by cases h)
    · cases hs; exact same hv' rfl

example : ((run usual init (twoArenas ++ [.reshapeWith 3 2 9])).bind fun s => (s.vars 3).map Vec.alloc) = some 9 := by decide

/-- Assigning a vector that is moved replaces the allocator, though `propagate_on_container_move_assignment` is false. -/
theorem C114_pocma_violated : ¬ KeepsAllocator := by
  intro H
  have hs : ∃ s, run usual init twoArenas = some s ∧ s.vars 1 = some ⟨1, some 0, 5, 5⟩ ∧
      ∃ s', step usual s (.moveAssign 1 2) = some s' ∧ s'.vars 1 = some ⟨2, some 1, 7, 7⟩ := ⟨_, rfl, rfl, _, rfl, rfl⟩
  obtain ⟨s, _, h1, s', h2, h3⟩ := hs
  have := H usual s s' 1 2 _ _ rfl h1 h2 h3
  cases this

/-- A copy by `reshape` draws from the default arena, though a copy of the vector would draw from the one of the vector. -/
theorem C114_reshape_violated : ¬ (∀ (t : Traits) (s s' : State) (i j : Nat) (v w : Vec), s.vars i = none → s.vars j = some w →
    step t s (.reshape i j) = some s' → s'.vars i = some v → v.alloc = t.select w.alloc) := by
  intro H
  have hs : ∃ s, run usual init twoArenas = some s ∧ s.vars 3 = none ∧ s.vars 2 = some ⟨2, some 1, 7, 7⟩ ∧
      ∃ s', step usual s (.reshape 3 2) = some s' ∧ s'.vars 3 = some ⟨0, some 2, 7, 7⟩ := ⟨_, rfl, rfl, rfl, _, rfl, rfl⟩
  obtain ⟨s, _, h0, h1, s', h2, h3⟩ := hs
  have := H usual s s' 3 2 _ _ h0 h1 h2 h3
  cases this

end Verif.Arenas
