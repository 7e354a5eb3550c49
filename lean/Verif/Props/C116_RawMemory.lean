import Verif.Model.RawMemory

/-!
# C116: the shortcuts for trivial types do what the loops do

The functions that copy, transfer and destroy ranges of elements in raw memory have shortcuts for trivial types (`memcpy`, `memmove`, nothing). Whatever
sequence of them a container calls, with trivial types it ends with the same elements at the same places as with any other type.

* `C116_moved`: where the elements are after a call, for the loops.
* `C116_step`, `C116_same_partial`: the shortcuts do the same, for all programs, if ranges are apart where they must be, in release builds.
* `C116_debug_partial`, `C116_debug_same_partial`, `C116_assert`: so also in debug builds inside one block; the assertion of the copy fails exactly if ranges overlap.
* `C116_vector_calls`: the calls of vectors are such calls; `C116_insert`, `C116_erase`: where the elements of a vector of a trivial type are after them.
* `C116_debug_violated`, `C116_two_blocks_violated`: for two blocks, as when a vector grows, the assertion itself is undefined.
* `C116_doc_violated`: the documented precondition is too weak for the shortcut. `C116_right_violated`: the assertion of `transfer_to_right` is too
  weak for the loop.
-/
set_option autoImplicit false
set_option linter.unusedSectionVars false

namespace Verif.RawMemory

variable {α : Type}

/-! ## Specification -/

/-- The two ranges of `n` elements have no element in common. -/
def Disjoint (src dst : Addr) (n : Nat) : Prop :=
  ∀ i j : Nat, i < n → j < n → (src.block, src.off + i) ≠ (dst.block, dst.off + j)

/-- The calls that a function is made for: copies to other memory, transfers to the left and to the right. -/
def Proper : Op α → Prop
  | .copy src dst n => Disjoint src dst n
  | .transfer src dst n => Disjoint src dst n
  | .left src dst _ => dst.block = src.block ∧ dst.off < src.off
  | .right src dst n => dst.block = src.block ∧ src.off < dst.off ∧ src.off + n ≤ dst.off
  | _ => True

/-- All objects of the first memory are in the second, with their values. The second may have more: trivial objects are not destroyed. -/
def Within (g t : Mem α) : Prop := ∀ a x, g a = some x → t a = some x

/-- The `n` elements at `src` are at `dst` now, and no other place has changed. -/
def Moved (m m' : Mem α) (src dst : Addr) (n : Nat) : Prop :=
  (∀ i : Nat, i < n → m' ⟨dst.block, dst.off + i⟩ = m ⟨src.block, src.off + i⟩ ∧ m ⟨src.block, src.off + i⟩ ≠ none) ∧
  ∀ a : Addr, (∀ i : Nat, i < n → a ≠ ⟨dst.block, dst.off + i⟩) → m' a = m a

/-- The property in full: debug and release builds, all calls with ranges that are apart where they must be. -/
def Same (α : Type) : Prop :=
  ∀ (dbg : Bool) (ops : List (Op α)) (g t g' : Mem α) (ps : List Addr), Within g t → (∀ op ∈ ops, Proper op) →
    run (general false) g ops = some (g', ps) → ∃ t', run (trivial dbg) t ops = some (t', ps) ∧ Within g' t'

/-! ## Proofs -/

theorem addr_eq {a b : Addr} : a = b ↔ a.block = b.block ∧ a.off = b.off := by
  cases a; cases b; simp

theorem disjoint_iff {src dst : Addr} {n : Nat} :
    Disjoint src dst n ↔ ¬ (src.block = dst.block ∧ src.off < dst.off + n ∧ dst.off < src.off + n) := by
  constructor
  · rintro h ⟨hb, h1, h2⟩
    rcases Int.le_total src.off dst.off with h3 | h3
    · refine h (dst.off - src.off).toNat 0 (by omega) (by omega) ?_
      rw [hb]; congr 1; omega
    · refine h 0 (src.off - dst.off).toNat (by omega) (by omega) ?_
      rw [hb]; congr 1; omega
  · intro h i j hi hj e
    injection e with e1 e2
    exact h ⟨e1, by omega, by omega⟩

theorem memmove_in (m : Mem α) {src dst a : Addr} {n : Nat} (h : a.block = dst.block ∧ dst.off ≤ a.off ∧ a.off < dst.off + n) :
    memmove m src dst n a = m ⟨src.block, src.off + (a.off - dst.off)⟩ := if_pos h

theorem memmove_out (m : Mem α) {src dst a : Addr} {n : Nat} (h : ¬ (a.block = dst.block ∧ dst.off ≤ a.off ∧ a.off < dst.off + n)) :
    memmove m src dst n a = m a := if_neg h

/-- The copying loop gives what `memmove` gives if the target does not begin inside the source. -/
theorem copyLoop_eq (n : Nat) : ∀ {m m' : Mem α} {src dst p : Addr}, (src.block = dst.block → dst.off ≤ src.off ∨ src.off + n ≤ dst.off) →
    copyLoop m src dst n = .ok m' p →
    m' = memmove m src dst n ∧ p = dst.plus n ∧ ∀ i : Nat, i < n → m ⟨src.block, src.off + i⟩ ≠ none := by
  induction n with
  | zero =>
    intro m m' src dst p _ h
    cases h
    refine ⟨?_, ?_, fun i hi => absurd hi (by omega)⟩
    · funext a
      unfold memmove
      rw [if_neg]
      omega
    · rw [addr_eq]; exact ⟨rfl, by simp [Addr.plus]⟩
  | succ n ih =>
    intro m m' src dst p hc h
    unfold copyLoop at h
    cases hx : m src with
    | none => rw [hx] at h; cases h
    | some x =>
      rw [hx] at h
      obtain ⟨h1, h2, h3⟩ := ih (src := src.plus 1) (dst := dst.plus 1) (by
        intro hb
        rcases hc hb with h | h
        · left; simp only [Addr.plus]; omega
        · right; simp only [Addr.plus]; omega) h
      -- reading from the source is not disturbed by the first write
      have hread : ∀ k : Int, 1 ≤ k → k ≤ n → (m.set dst (some x)) ⟨src.block, src.off + k⟩ = m ⟨src.block, src.off + k⟩ := by
        intro k hk1 hk2
        unfold Mem.set
        rw [if_neg]
        rw [addr_eq]
        rintro ⟨e1, e2⟩
        dsimp only at e1 e2
        rcases hc e1 with h | h <;> omega
      refine ⟨?_, ?_, ?_⟩
      · rw [h1]
        funext a
        by_cases ha : a.block = dst.block ∧ dst.off ≤ a.off ∧ a.off < dst.off + (n + 1 : Nat)
        · rw [memmove_in m ha]
          by_cases he : a.off = dst.off
          · rw [memmove_out _ (by simp only [Addr.plus]; omega)]
            have : a = dst := addr_eq.2 ⟨ha.1, he⟩
            subst this
            unfold Mem.set
            rw [if_pos rfl, Int.sub_self, Int.add_zero, hx]
          · rw [memmove_in _ (by simp only [Addr.plus]; omega)]
            have e : (⟨(src.plus 1).block, (src.plus 1).off + (a.off - (dst.plus 1).off)⟩ : Addr) = ⟨src.block, src.off + (a.off - dst.off)⟩ :=
              addr_eq.2 ⟨rfl, by simp only [Addr.plus]; omega⟩
            rw [e]
            exact hread _ (by omega) (by omega)
        · rw [memmove_out m ha, memmove_out _ (by simp only [Addr.plus]; omega)]
          unfold Mem.set
          rw [if_neg]
          rintro rfl
          exact ha ⟨rfl, by omega, by omega⟩
      · rw [h2, addr_eq]; exact ⟨rfl, by simp only [Addr.plus]; omega⟩
      · intro i hi
        cases i with
        | zero =>
          have : (⟨src.block, src.off + (0 : Nat)⟩ : Addr) = src := addr_eq.2 ⟨rfl, by simp⟩
          rw [this, hx]; simp
        | succ i =>
          have := h3 i (by omega)
          dsimp only [Addr.plus] at this
          rw [show src.off + 1 + (i : Int) = src.off + ((i : Int) + 1) by omega, hread _ (by omega) (by omega)] at this
          rw [show ((i + 1 : Nat) : Int) = (i : Int) + 1 by omega]
          exact this

theorem set_set (m : Mem α) (p : Addr) (x y : Option α) : (m.set p x).set p y = m.set p y := by
  funext a
  unfold Mem.set
  split <;> rfl

/-- The loop to the left is the copying loop, where it is defined. -/
theorem leftLoop_eq (n : Nat) : ∀ {m m' : Mem α} {src dst p : Addr}, leftLoop m src dst n = .ok m' p → copyLoop m src dst n = .ok m' p := by
  induction n with
  | zero => intro m m' src dst p h; exact h
  | succ n ih =>
    intro m m' src dst p h
    unfold leftLoop at h
    cases hd : m dst with
    | none => rw [hd] at h; cases h
    | some y =>
      rw [hd] at h
      dsimp only at h
      cases hs : (m.set dst none) src with
      | none => rw [hs] at h; cases h
      | some x =>
        rw [hs] at h
        dsimp only at h
        rw [set_set] at h
        have e : m src = some x := by
          unfold Mem.set at hs
          split at hs
          · cases hs
          · exact hs
        unfold copyLoop
        rw [e]
        exact ih h

/-- The loop to the right gives what `memmove` gives, if the target does not end inside the source. -/
theorem rightLoop_eq (n : Nat) : ∀ {m m' : Mem α} {src dst p : Addr}, (src.block = dst.block → src.off + n ≤ dst.off + 1) →
    rightLoop m src dst n = .ok m' p →
    m' = memmove m src (dst.plus (1 - n)) n ∧ p = dst.plus (-n) ∧ ∀ i : Nat, i < n → m ⟨src.block, src.off + i⟩ ≠ none := by
  induction n with
  | zero =>
    intro m m' src dst p _ h
    cases h
    refine ⟨?_, ?_, fun i hi => absurd hi (by omega)⟩
    · funext a
      unfold memmove
      rw [if_neg]
      omega
    · rw [addr_eq]; exact ⟨rfl, by simp [Addr.plus]⟩
  | succ n ih =>
    intro m m' src dst p hc h
    unfold rightLoop at h
    cases hd : m dst with
    | none => rw [hd] at h; cases h
    | some y =>
      rw [hd] at h
      dsimp only at h
      cases hs : (m.set dst none) (src.plus n) with
      | none => rw [hs] at h; cases h
      | some x =>
        rw [hs] at h
        dsimp only at h
        rw [set_set] at h
        have e : m (src.plus n) = some x := by
          unfold Mem.set at hs
          split at hs
          · cases hs
          · exact hs
        obtain ⟨h1, h2, h3⟩ := ih (src := src) (dst := dst.plus (-1)) (by
          intro hb
          have := hc hb
          simp only [Addr.plus]; omega) h
        have hread : ∀ k : Int, 0 ≤ k → k < n → (m.set dst (some x)) ⟨src.block, src.off + k⟩ = m ⟨src.block, src.off + k⟩ := by
          intro k hk1 hk2
          unfold Mem.set
          rw [if_neg]
          rw [addr_eq]
          rintro ⟨e1, e2⟩
          dsimp only at e1 e2
          have := hc e1
          omega
        refine ⟨?_, ?_, ?_⟩
        · rw [h1]
          funext a
          by_cases ha : a.block = dst.block ∧ dst.off - n ≤ a.off ∧ a.off < dst.off + 1
          · rw [memmove_in m (by simp only [Addr.plus]; omega)]
            by_cases he : a.off = dst.off
            · rw [memmove_out _ (by simp only [Addr.plus]; omega)]
              have : a = dst := addr_eq.2 ⟨ha.1, he⟩
              subst this
              unfold Mem.set
              rw [if_pos rfl, ← e]
              congr 1
              rw [addr_eq]; exact ⟨rfl, by simp only [Addr.plus]; omega⟩
            · rw [memmove_in _ (by simp only [Addr.plus]; omega), hread _ (by simp only [Addr.plus]; omega) (by simp only [Addr.plus]; omega)]
              congr 2
              simp only [Addr.plus]; omega
          · rw [memmove_out m (by simp only [Addr.plus]; omega), memmove_out _ (by simp only [Addr.plus]; omega)]
            unfold Mem.set
            rw [if_neg]
            rintro rfl
            exact ha ⟨rfl, by omega, by omega⟩
        · rw [h2, addr_eq]; exact ⟨rfl, by simp only [Addr.plus]; omega⟩
        · intro i hi
          by_cases hin : i = n
          · subst hin
            have : (⟨src.block, src.off + (i : Int)⟩ : Addr) = src.plus i := rfl
            rw [this, e]; simp
          · have := h3 i (by omega)
            rw [hread _ (by omega) (by omega)] at this
            exact this

theorem destroyLoop_within (n : Nat) : ∀ {m m' : Mem α} {p q : Addr}, destroyLoop m p n = .ok m' q → Within m' m := by
  induction n with
  | zero => intro m m' p q h; cases h; exact fun _ _ h => h
  | succ n ih =>
    intro m m' p q h
    unfold destroyLoop at h
    cases hp : m p with
    | none => rw [hp] at h; cases h
    | some y =>
      rw [hp] at h
      intro a x ha
      have := ih h a x ha
      unfold Mem.set at this
      split at this
      · cases this
      · exact this

theorem fillLoop_ok (n : Nat) : ∀ {g t g' : Mem α} {p q : Addr} {x : α}, Within g t → fillLoop g p x n = .ok g' q →
    ∃ t', fillLoop t p x n = .ok t' q ∧ Within g' t' := by
  induction n with
  | zero => intro g t g' p q x hw h; cases h; exact ⟨t, rfl, hw⟩
  | succ n ih =>
    intro g t g' p q x hw h
    refine ih (g := g.set p (some x)) (t := t.set p (some x)) ?_ h
    intro a y ha
    unfold Mem.set at ha ⊢
    split at ha
    · rename_i e; rw [if_pos e]; exact ha
    · rename_i e; rw [if_neg e]; exact hw a y ha

theorem memmove_within {g t : Mem α} (hw : Within g t) (src dst : Addr) (n : Nat) : Within (memmove g src dst n) (memmove t src dst n) := by
  intro a x ha
  unfold memmove at ha ⊢
  split at ha
  · rename_i e; rw [if_pos e]; exact hw _ _ ha
  · rename_i e; rw [if_neg e]; exact hw _ _ ha

theorem memmove_moved {m : Mem α} {src dst : Addr} {n : Nat} (hs : ∀ i : Nat, i < n → m ⟨src.block, src.off + i⟩ ≠ none) :
    Moved m (memmove m src dst n) src dst n := by
  refine ⟨?_, ?_⟩
  · intro i hi
    refine ⟨?_, hs i hi⟩
    unfold memmove
    rw [if_pos ⟨rfl, by dsimp only; omega, by dsimp only; omega⟩]
    congr 2
    dsimp only
    omega
  · intro a ha
    unfold memmove
    rw [if_neg]
    rintro ⟨h1, h2, h3⟩
    refine ha (a.off - dst.off).toNat (by omega) ?_
    rw [addr_eq]
    exact ⟨h1, by dsimp only; omega⟩

theorem apart_iff {src dst : Addr} {n : Nat} (hb : src.block = dst.block) :
    apart src dst n = some (decide (¬ (src.off < dst.off + n ∧ dst.off < src.off + n))) := by
  have e1 : minus dst (src.plus n) = some (dst.off - (src.off + n)) := if_pos hb.symm
  have e2 : minus src (dst.plus n) = some (src.off - (dst.off + n)) := if_pos hb
  unfold apart
  rw [e1, e2]
  simp only [Option.bind_some, Option.map_some]
  split
  · rename_i h
    congr 1; symm
    rw [decide_eq_true_eq]; omega
  · rename_i h
    congr 1
    rw [decide_eq_decide]; omega

/-! ## Theorems -/

/-- **C116 (where the elements are)** after a call for a general type: those of the source are at the target too, nothing else has changed, and the pointer
that was passed by reference is behind the target, or before it for a transfer to the right. -/
theorem C116_moved (m m' : Mem α) (src dst p : Addr) (n : Nat) :
    (∀ op ∈ ([.copy src dst n, .transfer src dst n, .left src dst n] : List (Op α)), Proper op → general false m op = .ok m' p →
      Moved m m' src dst n ∧ p = ⟨dst.block, dst.off + n⟩) ∧
    (Proper (.right src dst n : Op α) → general false m (.right src dst n) = .ok m' p →
      Moved m m' src ⟨dst.block, dst.off + 1 - n⟩ n ∧ p = ⟨dst.block, dst.off - n⟩) := by
  have key : (src.block = dst.block → dst.off ≤ src.off ∨ src.off + n ≤ dst.off) → copyLoop m src dst n = .ok m' p →
      Moved m m' src dst n ∧ p = ⟨dst.block, dst.off + n⟩ := by
    intro hc h
    obtain ⟨rfl, rfl, hs⟩ := copyLoop_eq n hc h
    exact ⟨memmove_moved hs, rfl⟩
  have hdis : Disjoint src dst n → (src.block = dst.block → dst.off ≤ src.off ∨ src.off + n ≤ dst.off) := by
    intro hd hb
    have := disjoint_iff.1 hd
    omega
  constructor
  · intro op hop hp h
    simp only [List.mem_cons, List.not_mem_nil, or_false] at hop
    rcases hop with rfl | rfl | rfl
    · exact key (hdis hp) h
    · exact key (hdis hp) h
    · exact key (fun _ => .inl (Int.le_of_lt hp.2)) (leftLoop_eq n h)
  · intro hp h
    obtain ⟨h1, _, h2⟩ := hp
    obtain ⟨rfl, rfl, hs⟩ := rightLoop_eq n (fun _ => by omega) h
    have e : dst.plus (1 - (n : Int)) = ⟨dst.block, dst.off + 1 - n⟩ := addr_eq.2 ⟨rfl, by simp only [Addr.plus]; omega⟩
    rw [e]
    exact ⟨memmove_moved hs, rfl⟩

/-- **C116 (one call)**: what a general type gives, a trivial one gives too, with the same pointer. -/
theorem C116_step {g t g' : Mem α} {p : Addr} (hw : Within g t) (op : Op α) (hp : Proper op) (h : general false g op = .ok g' p) :
    ∃ t', trivial false t op = .ok t' p ∧ Within g' t' := by
  have hcopy : ∀ {src dst : Addr} {n : Nat}, Disjoint src dst n → copyLoop g src dst n = .ok g' p →
      ∃ t', trivialCopyN false t src dst n = .ok t' p ∧ Within g' t' := by
    intro src dst n hd h
    have hd' := disjoint_iff.1 hd
    obtain ⟨rfl, rfl, _⟩ := copyLoop_eq n (fun hb => by omega) h
    exact ⟨_, if_neg hd', memmove_within hw src dst n⟩
  cases op with
  | fill q n x => exact fillLoop_ok n hw h
  | copy src dst n => exact hcopy hp h
  | transfer src dst n => exact hcopy hp h
  | left src dst n =>
    obtain ⟨rfl, rfl, _⟩ := copyLoop_eq n (fun _ => .inl (Int.le_of_lt hp.2)) (leftLoop_eq n h)
    exact ⟨_, rfl, memmove_within hw src dst n⟩
  | right src dst n =>
    obtain ⟨_, _, h2⟩ := hp
    obtain ⟨rfl, rfl, _⟩ := rightLoop_eq n (fun _ => by omega) h
    exact ⟨_, rfl, memmove_within hw src _ n⟩
  | destroy q n =>
    dsimp only [general] at h
    cases hd : destroyLoop g q n with
    | ub => rw [hd] at h; cases h
    | failed => rw [hd] at h; cases h
    | ok m' q' =>
      rw [hd] at h
      cases h
      exact ⟨t, rfl, fun a x ha => hw a x (destroyLoop_within n hd a x ha)⟩

/-- **C116 (all programs)** in release builds. -/
theorem C116_same_partial (ops : List (Op α)) : ∀ {g t g' : Mem α} {ps : List Addr}, Within g t → (∀ op ∈ ops, Proper op) →
    run (general false) g ops = some (g', ps) → ∃ t', run (trivial false) t ops = some (t', ps) ∧ Within g' t' := by
  induction ops with
  | nil => intro g t g' ps hw _ h; cases h; exact ⟨t, rfl, hw⟩
  | cons op ops ih =>
    intro g t g' ps hw hp h
    rw [run] at h
    cases hg : general false g op with
    | ub => rw [hg] at h; cases h
    | failed => rw [hg] at h; cases h
    | ok g1 p =>
      rw [hg] at h
      dsimp only at h
      obtain ⟨t1, e1, hw1⟩ := C116_step hw op (hp op List.mem_cons_self) hg
      cases hr : run (general false) g1 ops with
      | none => rw [hr] at h; cases h
      | some r =>
        rw [hr] at h
        cases h
        obtain ⟨t', e2, hw2⟩ := ih hw1 (fun o ho => hp o (List.mem_cons_of_mem _ ho)) hr
        refine ⟨t', ?_, hw2⟩
        rw [run, e1]
        dsimp only
        rw [e2]; rfl

/-- **C116 (the assertion)** of the copy of trivial elements inside one block fails exactly if the ranges overlap. -/
theorem C116_assert (m : Mem α) (src dst : Addr) (n : Nat) (hb : src.block = dst.block) :
    (Disjoint src dst n → trivialCopyN true m src dst n = trivialCopyN false m src dst n) ∧
    (¬ Disjoint src dst n → trivialCopyN true m src dst n = .failed) := by
  have h := disjoint_iff (src := src) (dst := dst) (n := n)
  unfold trivialCopyN require
  rw [apart_iff hb]
  constructor
  · intro hd
    have := h.1 hd
    rw [decide_eq_true (by omega)]
    rfl
  · intro hd
    have : src.off < dst.off + n ∧ dst.off < src.off + n := by
      rcases Decidable.em (src.off < dst.off + n ∧ dst.off < src.off + n) with h1 | h1
      · exact h1
      · exact absurd (h.2 (fun h2 => h1 h2.2)) hd
    rw [decide_eq_false (by omega)]
    rfl

/-- Both ranges of a call are in one block. -/
def OneBlock : Op α → Prop
  | .copy src dst _ => src.block = dst.block
  | .transfer src dst _ => src.block = dst.block
  | _ => True

/-- **C116 (debug builds)** do the same as release builds if all ranges of a call are in one block. -/
theorem C116_debug_partial (m : Mem α) (op : Op α) (hp : Proper op) (ho : OneBlock op) :
    trivial true m op = trivial false m op ∧ general true m op = general false m op := by
  cases op with
  | fill q n x => exact ⟨rfl, rfl⟩
  | destroy q n => exact ⟨rfl, rfl⟩
  | copy src dst n => exact ⟨(C116_assert m src dst n ho).1 hp, rfl⟩
  | transfer src dst n =>
    have hd := disjoint_iff.1 (show Disjoint src dst n from hp)
    have hb : src.block = dst.block := ho
    have ha : apart src dst n = some true := by
      rw [apart_iff hb, decide_eq_true (by omega)]
    dsimp only [trivial, general]
    unfold require
    rw [ha]
    exact ⟨(C116_assert m src dst n ho).1 hp, rfl⟩
  | left src dst n =>
    obtain ⟨hb, hl⟩ := hp
    have ha : (minus src dst).map (fun d => decide (d > 0)) = some true := by
      unfold minus
      rw [if_pos hb.symm, Option.map_some, decide_eq_true (by omega)]
    dsimp only [trivial, general]
    rw [ha]
    exact ⟨rfl, rfl⟩
  | right src dst n =>
    obtain ⟨hb, hl, _⟩ := hp
    have ha : (minus dst src).map (fun d => decide (d > 0)) = some true := by
      unfold minus
      rw [if_pos hb, Option.map_some, decide_eq_true (by omega)]
    dsimp only [trivial, general]
    rw [ha]
    exact ⟨rfl, rfl⟩

theorem run_debug (ops : List (Op α)) : ∀ (m : Mem α), (∀ op ∈ ops, Proper op ∧ OneBlock op) →
    run (trivial true) m ops = run (trivial false) m ops ∧ run (general true) m ops = run (general false) m ops := by
  induction ops with
  | nil => intro m _; exact ⟨rfl, rfl⟩
  | cons op ops ih =>
    intro m h
    obtain ⟨h1, h2⟩ := h op List.mem_cons_self
    obtain ⟨e1, e2⟩ := C116_debug_partial m op h1 h2
    have h' : ∀ o ∈ ops, Proper o ∧ OneBlock o := fun o ho => h o (List.mem_cons_of_mem _ ho)
    constructor
    · rw [run, run, e1]
      cases trivial false m op with
      | ok m' p => dsimp only; rw [(ih m' h').1]
      | ub => rfl
      | failed => rfl
    · rw [run, run, e2]
      cases general false m op with
      | ok m' p => dsimp only; rw [(ih m' h').2]
      | ub => rfl
      | failed => rfl

/-- **C116 (all programs in debug builds)** whose ranges are each in one block: trivial types end as general types do. -/
theorem C116_debug_same_partial (ops : List (Op α)) {g t g' : Mem α} {ps : List Addr} (hw : Within g t) (hp : ∀ op ∈ ops, Proper op ∧ OneBlock op)
    (h : run (general true) g ops = some (g', ps)) : ∃ t', run (trivial true) t ops = some (t', ps) ∧ Within g' t' := by
  rw [(run_debug ops g hp).2] at h
  rw [(run_debug ops t hp).1]
  exact C116_same_partial ops hw (fun op ho => (hp op ho).1) h

/-- **C116 (the calls of vectors are proper)**: those of `prepare_insert`, in place or to a new block, and those of `erase`. -/
theorem C116_vector_calls (b : Nat) (c : Option Nat) (old off ins : Nat) (hoff : off ≤ old) (hins : 0 < ins) (hc : c ≠ some b) :
    (∀ op ∈ (insertCalls b c old off ins : List (Op α)), Proper op) ∧ (∀ op ∈ (eraseCalls b old off ins : List (Op α)), Proper op) := by
  have hapart : ∀ {src dst : Addr} {n : Nat}, ¬ (src.block = dst.block ∧ src.off < dst.off + n ∧ dst.off < src.off + n) →
      Proper (.transfer src dst n : Op α) := fun h => disjoint_iff.2 h
  constructor
  · intro op hop
    cases c with
    | some c =>
      have hbc : b ≠ c := fun e => hc (by rw [e])
      simp only [insertCalls, List.mem_cons, List.not_mem_nil, or_false] at hop
      rcases hop with rfl | rfl | rfl
      · exact hapart (fun h => hbc h.1)
      · exact hapart (fun h => hbc h.1)
      · exact True.intro
    | none =>
      dsimp only [insertCalls] at hop
      split at hop <;> simp only [List.mem_cons, List.not_mem_nil, or_false] at hop
      · rcases hop with rfl | rfl
        · exact hapart (by dsimp only; omega)
        · exact True.intro
      · rcases hop with rfl | rfl | rfl
        · exact hapart (by dsimp only; omega)
        · exact ⟨rfl, by dsimp only; omega, by dsimp only; omega⟩
        · exact True.intro
  · intro op hop
    simp only [eraseCalls, List.mem_cons, List.not_mem_nil, or_false] at hop
    rcases hop with rfl | rfl
    · exact ⟨rfl, by dsimp only; omega⟩
    · exact True.intro

/-- **C116 (vectors of trivial elements, insertion)**: after `prepare_insert`, in place or in a new block, the elements before the gap are where they
were, and those behind it `ins` places further. -/
theorem C116_insert (m : Mem α) (b : Nat) (c : Option Nat) (old off ins : Nat) (hoff : off ≤ old) (hins : 0 < ins) (hc : c ≠ some b) :
    ∃ m' ps, run (trivial false) m (insertCalls b c old off ins) = some (m', ps) ∧
      (∀ i : Nat, i < off → m' ⟨c.getD b, i⟩ = m ⟨b, i⟩) ∧ (∀ i : Nat, off ≤ i → i < old → m' ⟨c.getD b, (i + ins : Nat)⟩ = m ⟨b, i⟩) ∧
      (∀ a : Addr, a.block ≠ c.getD b → m' a = m a) := by
  have hcopy : ∀ (m : Mem α) {src dst : Addr} {n : Nat}, ¬ (src.block = dst.block ∧ src.off < dst.off + n ∧ dst.off < src.off + n) →
      trivial false m (.transfer src dst n) = .ok (memmove m src dst n) (dst.plus n) := fun m src dst n h => if_neg h
  have hat : ∀ (m : Mem α) {k l : Int} {b : Nat}, k = l → m ⟨b, k⟩ = m ⟨b, l⟩ := fun m k l b e => by rw [e]
  cases c with
  | some c =>
    have hbc : b ≠ c := fun e => hc (by rw [e])
    refine ⟨memmove (memmove m ⟨b, 0⟩ ⟨c, 0⟩ off) ⟨b, off⟩ ⟨c, off + ins⟩ (old - off),
      [Addr.plus ⟨c, 0⟩ off, Addr.plus ⟨c, off + ins⟩ (old - off : Nat), ⟨b, 0⟩], ?_, ?_, ?_, ?_⟩
    · dsimp only [insertCalls]
      rw [run, hcopy m (fun h => hbc h.1)]
      dsimp only
      rw [run, hcopy _ (fun h => hbc h.1)]
      rfl
    · intro i hi
      dsimp only [Option.getD]
      rw [memmove_out _ (by dsimp only; omega), memmove_in m (by dsimp only; omega)]
      exact hat m (by dsimp only; omega)
    · intro i h1 h2
      dsimp only [Option.getD]
      rw [memmove_in _ (by dsimp only; omega), memmove_out _ (by dsimp only; omega)]
      exact hat m (by dsimp only; omega)
    · intro a ha
      rw [memmove_out _ (fun h => ha h.1), memmove_out _ (fun h => ha h.1)]
  | none =>
    dsimp only [insertCalls]
    by_cases hge : ins ≥ old - off
    · rw [if_pos hge]
      refine ⟨memmove m ⟨b, off⟩ ⟨b, off + ins⟩ (old - off), [Addr.plus ⟨b, off + ins⟩ (old - off : Nat), ⟨b, off⟩], ?_, ?_, ?_, ?_⟩
      · rw [run, hcopy m (by dsimp only; omega)]
        rfl
      · intro i hi
        exact memmove_out _ (by dsimp only; omega)
      · intro i h1 h2
        dsimp only [Option.getD]
        rw [memmove_in _ (by dsimp only; omega)]
        exact hat m (by dsimp only; omega)
      · intro a ha
        exact memmove_out _ (fun h => ha h.1)
    · rw [if_neg hge]
      have hk : ((old - ins - off : Nat) : Int) = (old : Int) - ins - off := by omega
      have hk' : ((old - ins : Nat) : Int) = (old : Int) - ins := by omega
      refine ⟨memmove (memmove m ⟨b, (old - ins : Nat)⟩ ⟨b, old⟩ ins) ⟨b, off⟩ (Addr.plus ⟨b, old - 1⟩ (1 - (old - ins - off : Nat))) (old - ins - off),
        [Addr.plus ⟨b, old⟩ ins, Addr.plus ⟨b, old - 1⟩ (-(old - ins - off : Nat)), ⟨b, off⟩], ?_, ?_, ?_, ?_⟩
      · rw [run, hcopy m (by dsimp only; omega)]
        rfl
      · intro i hi
        dsimp only [Option.getD]
        rw [memmove_out _ (by simp only [Addr.plus]; omega), memmove_out _ (by dsimp only; omega)]
      · intro i h1 h2
        dsimp only [Option.getD]
        by_cases h3 : (i : Int) < (old : Int) - ins
        · rw [memmove_in _ (by simp only [Addr.plus]; exact ⟨True.intro, by omega, by omega⟩), memmove_out _ (by simp only [Addr.plus]; omega)]
          exact hat m (by simp only [Addr.plus]; omega)
        · rw [memmove_out _ (by simp only [Addr.plus]; omega), memmove_in _ (by dsimp only; omega)]
          exact hat m (by dsimp only; omega)
      · intro a ha
        rw [memmove_out _ (fun h => ha h.1), memmove_out _ (fun h => ha h.1)]

/-- **C116 (vectors of trivial elements, removal)**: after `erase` the elements before those removed are where they were, and those behind `n` places
before. -/
theorem C116_erase (m : Mem α) (b old off n : Nat) (hn : off + n ≤ old) :
    ∃ m' ps, run (trivial false) m (eraseCalls b old off n) = some (m', ps) ∧
      (∀ i : Nat, i < off → m' ⟨b, i⟩ = m ⟨b, i⟩) ∧ (∀ i : Nat, off ≤ i → i + n < old → m' ⟨b, i⟩ = m ⟨b, (i + n : Nat)⟩) ∧
      (∀ a : Addr, a.block ≠ b → m' a = m a) := by
  have hat : ∀ (m : Mem α) {k l : Int} {b : Nat}, k = l → m ⟨b, k⟩ = m ⟨b, l⟩ := fun m k l b e => by rw [e]
  refine ⟨memmove m ⟨b, (off + n : Nat)⟩ ⟨b, off⟩ (old - off - n), _, rfl, ?_, ?_, ?_⟩
  · intro i hi
    exact memmove_out _ (by dsimp only; omega)
  · intro i h1 h2
    rw [memmove_in _ (by dsimp only; omega)]
    exact hat m (by dsimp only; omega)
  · intro a ha
    exact memmove_out _ (fun h => ha h.1)

/-! ## Where the code differs -/

/-- In debug builds a copy of trivial elements from one block to another, as when a vector grows, is undefined, however long it is: the assertion
subtracts pointers to different arrays (l.50, 395). -/
theorem C116_two_blocks_violated (m : Mem α) (src dst : Addr) (n : Nat) (hb : src.block ≠ dst.block) :
    Disjoint src dst n ∧ trivial true m (.copy src dst n) = .ub ∧ trivial true m (.transfer src dst n) = .ub ∧
      general true m (.transfer src dst n) = .ub := by
  have ha : apart src dst n = none := by
    have e1 : minus dst (src.plus n) = none := if_neg (Ne.symm hb)
    unfold apart
    rw [e1]; rfl
  refine ⟨disjoint_iff.2 (fun h => hb h.1), ?_, ?_, ?_⟩ <;> dsimp only [trivial, general] <;> (try unfold trivialCopyN) <;> unfold require <;>
    rw [ha] <;> rfl

/-- A memory with the elements 1, 2, 3, 4 at the beginning of block 0. -/
def sample : Mem Nat := fun a => if a.block = 0 ∧ 0 ≤ a.off ∧ a.off < 4 then some (a.off.toNat + 1) else none

/-- So the property is false in debug builds: two elements are copied from block 0 to block 1. -/
theorem C116_debug_violated : ¬ Same Nat := by
  intro h
  obtain ⟨t', e, _⟩ := h true [.copy ⟨0, 0⟩ ⟨1, 0⟩ 2] sample sample _ _ (fun _ _ h => h)
    (by
      intro op hop
      rw [List.mem_singleton.1 hop]
      exact (C116_two_blocks_violated sample ⟨0, 0⟩ ⟨1, 0⟩ 2 (by decide)).1) rfl
  rw [run, (C116_two_blocks_violated sample ⟨0, 0⟩ ⟨1, 0⟩ 2 (by decide)).2.1] at e
  cases e

/-- "dst_first must not belong [src_first, src_last)" (l.291, 357) is met by a copy of two elements one place to the left. The loop does it; the shortcut
is undefined. -/
theorem C116_doc_violated :
    (∃ m', general false sample (.copy ⟨0, 1⟩ ⟨0, 0⟩ 2) = .ok m' ⟨0, 2⟩ ∧ m' ⟨0, 0⟩ = some 2 ∧ m' ⟨0, 1⟩ = some 3) ∧
    trivial false sample (.copy ⟨0, 1⟩ ⟨0, 0⟩ 2) = .ub :=
  ⟨⟨_, rfl, rfl, rfl⟩, rfl⟩

/-- The assertion of `transfer_to_right`, that the last place of the target is behind the first of the source (l.437), lets through a transfer of three
elements to the left: the loop writes the last element three times, the shortcut does not. -/
theorem C116_right_violated :
    (∃ m', general true sample (.right ⟨0, 1⟩ ⟨0, 2⟩ 3) = .ok m' ⟨0, -1⟩ ∧ [m' ⟨0, 0⟩, m' ⟨0, 1⟩, m' ⟨0, 2⟩] = [some 4, some 4, some 4]) ∧
    ∃ m', trivial true sample (.right ⟨0, 1⟩ ⟨0, 2⟩ 3) = .ok m' ⟨0, -1⟩ ∧ [m' ⟨0, 0⟩, m' ⟨0, 1⟩, m' ⟨0, 2⟩] = [some 2, some 3, some 4] :=
  ⟨⟨_, rfl, by decide⟩, ⟨_, rfl, by decide⟩⟩

/-! ## The hypotheses are met -/

/-- Two elements are inserted before the second of four: the calls of a vector with memory for six. -/
def demo : List (Op Nat) := insertCalls 0 none 4 1 2 ++ [.fill ⟨0, 1⟩ 2 9]

def shown (r : Option (Mem Nat × List Addr)) : Option (List (Option Nat) × List Addr) :=
  r.map fun r => ((List.range 6).map (fun i => r.1 ⟨0, i⟩), r.2)

example : ∀ op ∈ demo, Proper op := by
  intro op hop
  rcases List.mem_append.1 hop with h | h
  · exact (C116_vector_calls 0 none 4 1 2 (by decide) (by decide) (by decide)).1 op h
  · rw [List.mem_singleton.1 h]; exact True.intro

example : ∀ op ∈ demo, OneBlock op := by
  intro op hop
  have e : demo = [.transfer ⟨0, 2⟩ ⟨0, 4⟩ 2, .right ⟨0, 1⟩ ⟨0, 3⟩ 1, .destroy ⟨0, 1⟩ 2, .fill ⟨0, 1⟩ 2 9] := rfl
  rw [e] at hop
  simp only [List.mem_cons, List.not_mem_nil, or_false] at hop
  rcases hop with rfl | rfl | rfl | rfl
  · exact rfl
  · exact True.intro
  · exact True.intro
  · exact True.intro

/-- A new block is used, and two elements are removed. -/
example : ((run (general false) sample (insertCalls 0 (some 1) 4 1 2)).map fun r => (List.range 6).map fun (i : Nat) => r.1 ⟨1, (i : Int)⟩) =
      some [some 1, none, none, some 2, some 3, some 4] ∧
    shown (run (general false) sample (eraseCalls 0 4 1 2)) = some ([some 1, some 4, none, none, none, none], [⟨0, 2⟩, ⟨0, 2⟩]) := by
  decide

example : shown (run (general true) sample demo) =
    some ([some 1, some 9, some 9, some 2, some 3, some 4], [⟨0, 6⟩, ⟨0, 2⟩, ⟨0, 1⟩, ⟨0, 3⟩]) := by decide

example : shown (run (RawMemory.trivial true) sample demo) = shown (run (general true) sample demo) := by decide

end Verif.RawMemory
