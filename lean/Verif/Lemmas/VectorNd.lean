import Verif.Model.VectorNd

/-!
Lemmas about the memory operations of `vector_nd`: what each loop does to a block of slots, for every choice of the
constructions and allocations that throw.
-/
set_option autoImplicit false
set_option linter.unusedSectionVars false

namespace Verif.VectorNd
variable {α : Type}

section bindlemmas
variable {β γ : Type}

theorem bind_some {m : M α β} {f : β → M α γ} {h h' : Heap α} {x : β} (e : m h = some (x, h')) :
    (m >>= f) h = f x h' := by
  show M.bind m f h = f x h'
  simp only [M.bind, e]

theorem pure_run (x : β) (h : Heap α) : (pure x : M α β) h = some (x, h) := rfl

end bindlemmas

/-! ### Heaps that differ in one block -/

/-- `h'` is `h` with block `b` now holding `X`; `k` elements were constructed on the way. -/
structure Upd (h h' : Heap α) (b : Nat) (X : List (Option α)) (k : Nat) : Prop where
  here : h'.blk b = some X
  other : ∀ b', b' ≠ b → h'.blk b' = h.blk b'
  next : h'.next = h.next
  failC : h'.failC = h.failC
  failA : h'.failA = h.failA
  copies : h'.copies = h.copies + k

theorem Upd.trans {h h1 h2 : Heap α} {b : Nat} {X Y : List (Option α)} {k l : Nat}
    (u : Upd h h1 b X k) (w : Upd h1 h2 b Y l) : Upd h h2 b Y (k + l) where
  here := w.here
  other := fun b' hb => (w.other b' hb).trans (u.other b' hb)
  next := w.next.trans u.next
  failC := w.failC.trans u.failC
  failA := w.failA.trans u.failA
  copies := by rw [w.copies, u.copies, Nat.add_assoc]

theorem Upd.refl {h : Heap α} {b : Nat} {X : List (Option α)} (e : h.blk b = some X) : Upd h h b X 0 :=
  ⟨e, fun _ _ => rfl, rfl, rfl, rfl, rfl⟩

theorem Upd.congr {h h' : Heap α} {b : Nat} {X Y : List (Option α)} {k l : Nat}
    (u : Upd h h' b X k) (e : X = Y) (ek : k = l) : Upd h h' b Y l := by subst e; subst ek; exact u

theorem slot_of_blk {h : Heap α} {b : Nat} {X : List (Option α)} (e : h.blk b = some X) (i : Nat) : h.slot b i = X[i]? := by
  simp only [Heap.slot, e]

theorem setSlot_of_blk {h : Heap α} {b : Nat} {X : List (Option α)} (e : h.blk b = some X) (i : Nat) (x : Option α) :
    h.setSlot b i x = h.put b (some (X.set i x)) := by
  simp only [Heap.setSlot, e]

theorem put_upd {h : Heap α} {b : Nat} {X : List (Option α)} (t c : Nat) :
    Upd h { h.put b (some X) with tick := t, copies := h.copies + c } b X c where
  here := by simp [Heap.put]
  other := fun b' hb => by simp [Heap.put, hb]
  next := rfl
  failC := rfl
  failA := rfl
  copies := rfl

theorem put_upd0 {h : Heap α} {b : Nat} {X : List (Option α)} : Upd h (h.put b (some X)) b X 0 where
  here := by simp [Heap.put]
  other := fun b' hb => by simp [Heap.put, hb]
  next := rfl
  failC := rfl
  failA := rfl
  copies := rfl

theorem getElem?_mid {β : Type} (A C : List β) (x : β) : (A ++ x :: C)[A.length]? = some x := by
  simp

theorem set_mid {β : Type} (A C : List β) (x y : β) : (A ++ x :: C).set A.length y = A ++ y :: C := by
  simp

/-! ### Destroying -/

theorem destroyAt_spec {h : Heap α} {b i : Nat} {A C : List (Option α)} {a : α}
    (e : h.blk b = some (A ++ some a :: C)) (hi : i = A.length) :
    ∃ h', destroyAt b i h = some ((), h') ∧ Upd h h' b (A ++ none :: C) 0 := by
  subst hi
  refine ⟨h.put b (some (A ++ none :: C)), ?_, put_upd0⟩
  simp only [destroyAt, slot_of_blk e, getElem?_mid, setSlot_of_blk e, set_mid]

theorem destroyN_spec (b : Nat) (L : List α) : ∀ (h : Heap α) (A C : List (Option α)) (lo : Nat),
    h.blk b = some (A ++ (L.map some ++ C)) → lo = A.length →
    ∃ h', destroyN b lo L.length h = some ((), h') ∧ Upd h h' b (A ++ (List.replicate L.length none ++ C)) 0 := by
  induction L with
  | nil => intro h A C lo e _; exact ⟨h, rfl, Upd.refl e⟩
  | cons a L ih =>
    intro h A C lo e hlo
    obtain ⟨h1, e1, u1⟩ := destroyAt_spec (h := h) (i := lo) (C := L.map some ++ C) (by rw [e]; rfl) hlo
    obtain ⟨h2, e2, u2⟩ := ih h1 (A ++ [none]) C (lo + 1) (by rw [u1.here]; simp) (by simp [hlo])
    refine ⟨h2, ?_, (u1.trans u2).congr ?_ rfl⟩
    · rw [List.length_cons, destroyN, bind_some e1, e2]
    · simp [List.replicate_succ]

theorem destroy_spec {h : Heap α} {b lo hi : Nat} {A C : List (Option α)} {L : List α}
    (e : h.blk b = some (A ++ (L.map some ++ C))) (hlo : lo = A.length) (hhi : hi = lo + L.length) :
    ∃ h', destroy b lo hi h = some ((), h') ∧ Upd h h' b (A ++ (List.replicate L.length none ++ C)) 0 := by
  obtain ⟨h', e', u⟩ := destroyN_spec b L h A C lo e hlo
  refine ⟨h', ?_, u⟩
  have : hi - lo = L.length := by omega
  rw [destroy, if_neg (by omega), this, e']

/-! ### Constructing -/

theorem construct_spec {h : Heap α} {b i : Nat} {A C : List (Option α)} {s : Src α} {a : α}
    (e : h.blk b = some (A ++ none :: C)) (hi : i = A.length) (hr : h.read s = some a) :
    (∃ h', construct b i s h = some (true, h') ∧ Upd h h' b (A ++ some a :: C) 1 ∧ h.failC h.tick = false) ∨
    (∃ h', construct b i s h = some (false, h') ∧ Upd h h' b (A ++ none :: C) 0 ∧ h.failC h.tick = true) := by
  subst hi
  cases hf : h.failC h.tick with
  | false =>
    left
    refine ⟨_, ?_, put_upd (h := h) (b := b) (X := A ++ some a :: C) (h.tick + 1) 1, rfl⟩
    simp only [construct, hr, slot_of_blk e, getElem?_mid, hf, setSlot_of_blk e, set_mid]
    rfl
  | true =>
    right
    refine ⟨{ h with tick := h.tick + 1 }, ?_, ⟨e, fun _ _ => rfl, rfl, rfl, rfl, rfl⟩, rfl⟩
    simp only [construct, hr, slot_of_blk e, getElem?_mid, hf]
    rfl

/-- Every live object of `h` is a live object of `h'` with the same value. -/
def Keeps (h h' : Heap α) : Prop := ∀ b i a, h.slot b i = some (some a) → h'.slot b i = some (some a)

theorem Keeps.refl (h : Heap α) : Keeps h h := fun _ _ _ e => e
theorem Keeps.trans {h h1 h2 : Heap α} (k : Keeps h h1) (l : Keeps h1 h2) : Keeps h h2 :=
  fun b i a e => l b i a (k b i a e)

theorem Keeps.read {h h' : Heap α} (k : Keeps h h') {s : Src α} {a : α} (e : h.read s = some a) : h'.read s = some a := by
  cases s with
  | val x => exact e
  | ref b i =>
    simp only [Heap.read] at e ⊢
    split at e
    · rename_i y hy
      rw [k b i y hy]; exact e
    · simp at e

theorem Upd.keeps {h h' : Heap α} {b : Nat} {A C : List (Option α)} {x : Option α} {k : Nat}
    (e : h.blk b = some (A ++ none :: C)) (u : Upd h h' b (A ++ x :: C) k) : Keeps h h' := by
  intro b' i a hs
  by_cases hb : b' = b
  · subst hb
    rw [slot_of_blk e] at hs
    rw [slot_of_blk u.here]
    rcases Nat.lt_trichotomy i A.length with hi | hi | hi
    · rw [List.getElem?_append_left hi] at hs ⊢; exact hs
    · subst hi; simp at hs
    · rw [List.getElem?_append_right (by omega)] at hs ⊢
      have : i - A.length = (i - A.length - 1) + 1 := by omega
      rw [this, List.getElem?_cons_succ] at hs ⊢
      exact hs
  · simp only [Heap.slot, u.other b' hb] at hs ⊢; exact hs

/-- The sources can be read and have the given values. -/
def Reads (h : Heap α) : List (Src α) → List α → Prop
  | [], [] => True
  | s :: ss, v :: vs => h.read s = some v ∧ Reads h ss vs
  | _, _ => False

theorem Reads.length {h : Heap α} : ∀ {ss : List (Src α)} {vs : List α}, Reads h ss vs → ss.length = vs.length
  | [], [], _ => rfl
  | _ :: _, _ :: _, r => congrArg (· + 1) (Reads.length r.2)

theorem Reads.keep {h h' : Heap α} (k : Keeps h h') :
    ∀ {ss : List (Src α)} {vs : List α}, Reads h ss vs → Reads h' ss vs
  | [], [], _ => trivial
  | _ :: _, _ :: _, r => ⟨k.read r.1, Reads.keep k r.2⟩

theorem Reads.append {h : Heap α} : ∀ {ss : List (Src α)} {vs : List α} {ss' : List (Src α)} {vs' : List α},
    Reads h ss vs → Reads h ss' vs' → Reads h (ss ++ ss') (vs ++ vs')
  | [], [], _, _, _, r' => r'
  | _ :: _, _ :: _, _, _, r, r' => ⟨r.1, Reads.append r.2 r'⟩

theorem Reads.replicate {h : Heap α} {s : Src α} {a : α} (e : h.read s = some a) :
    ∀ n, Reads h (List.replicate n s) (List.replicate n a)
  | 0 => trivial
  | n + 1 => ⟨e, Reads.replicate e n⟩

theorem Reads.vals {h : Heap α} : ∀ (l : List α), Reads h (l.map Src.val) l
  | [] => trivial
  | _ :: l => ⟨rfl, Reads.vals l⟩

theorem Reads.refs {h : Heap α} {b : Nat} : ∀ (L : List α) (A C : List (Option α)) (lo : Nat),
    h.blk b = some (A ++ (L.map some ++ C)) → lo = A.length → Reads h (refs b lo L.length) L
  | [], _, _, _, _, _ => trivial
  | a :: L, A, C, lo, e, hlo => by
    refine ⟨?_, ?_⟩
    · simp only [Heap.read, slot_of_blk e]
      rw [hlo]
      simp
    · exact Reads.refs L (A ++ [some a]) C (lo + 1) (by rw [e]; simp) (by simp [hlo])

theorem refs_length (b lo n : Nat) : (refs b lo n : List (Src α)).length = n := by simp [refs]

/-- The copying loop: it constructs a prefix of the values, all of them unless a constructor throws. -/
theorem copyLoop_spec (b : Nat) : ∀ (ss : List (Src α)) (vs : List α) (h : Heap α) (A C : List (Option α)) (d : Nat),
    h.blk b = some (A ++ (List.replicate ss.length none ++ C)) → d = A.length → Reads h ss vs →
    ∃ k h', k ≤ ss.length ∧ copyLoop b d ss h = some ((d + k, decide (k = ss.length)), h') ∧
      Upd h h' b (A ++ ((vs.take k).map some ++ (List.replicate (ss.length - k) none ++ C))) k ∧ Keeps h h' ∧
      (k < ss.length → ∃ t, h.failC t = true)
  | [], vs, h, A, C, d, e, _, _ => ⟨0, h, Nat.le_refl _, rfl, Upd.refl (by simpa using e), Keeps.refl h, fun hk => absurd hk (by simp)⟩
  | s :: ss, [], _, _, _, _, _, _, r => r.elim
  | s :: ss, v :: vs, h, A, C, d, e, hd, r => by
    have e0 : h.blk b = some (A ++ none :: (List.replicate ss.length none ++ C)) := by rw [e]; simp [List.replicate_succ]
    rcases construct_spec e0 hd r.1 with ⟨h1, e1, u1, _⟩ | ⟨h1, e1, u1, hf⟩
    · have k1 := u1.keeps e0
      obtain ⟨k, h2, hk, e2, u2, k2, ht⟩ := copyLoop_spec b ss vs h1 (A ++ [some v]) C (d + 1)
        (by rw [u1.here]; simp) (by simp [hd]) (r.2.keep k1)
      refine ⟨k + 1, h2, by simpa using hk, ?_, (u1.trans u2).congr ?_ (by omega), k1.trans k2, ?_⟩
      · rw [copyLoop, bind_some e1]
        simp only [if_true]
        rw [e2]
        simp [Nat.add_assoc, Nat.add_comm 1 k]
      · simp
      · intro hlt
        obtain ⟨t, ht⟩ := ht (by simpa using hlt)
        exact ⟨t, by rw [← u1.failC]; exact ht⟩
    · refine ⟨0, h1, Nat.zero_le _, ?_, u1.congr (by simp [List.replicate_succ]) rfl, u1.keeps e0, fun _ => ⟨_, hf⟩⟩
      rw [copyLoop, bind_some e1]
      simp [pure_run]

/-! ### Shifting -/

theorem transferLeft_spec (b : Nat) : ∀ (Y X : List α) (h : Heap α) (A C : List (Option α)) (src dst : Nat),
    h.blk b = some (A ++ ((X ++ Y).map some ++ C)) → X ≠ [] → dst = A.length → src = dst + X.length →
    ∃ k h', k ≤ Y.length ∧ transferLeft b src dst Y.length h = some ((dst + k, decide (k = Y.length)), h') ∧
      (k = Y.length → Upd h h' b (A ++ ((Y ++ (X ++ Y).drop k).map some ++ C)) k) ∧
      (k < Y.length → Upd h h' b (A ++ ((Y.take k).map some ++ none :: (((X ++ Y).drop (k + 1)).map some ++ C))) k ∧
        ∃ t, h.failC t = true)
  | [], X, h, A, C, src, dst, e, _, _, _ =>
    ⟨0, h, Nat.le_refl _, rfl, fun _ => Upd.refl (by simpa using e), fun hk => absurd hk (by simp)⟩
  | y :: Y, [], _, _, _, _, _, _, hX, _, _ => absurd rfl hX
  | y :: Y, x :: X, h, A, C, src, dst, e, _, hdst, hsrc => by
    obtain ⟨h1, e1, u1⟩ := destroyAt_spec (h := h) (b := b) (i := dst) (A := A) (a := x) (C := (X ++ y :: Y).map some ++ C)
      (by rw [e]; simp) hdst
    have hr : h1.read (.ref b src) = some y := by
      simp only [Heap.read, slot_of_blk u1.here]
      have : (A ++ none :: (List.map some (X ++ y :: Y) ++ C)) = (A ++ (none :: X.map some)) ++ some y :: (Y.map some ++ C) := by simp
      rw [this, show src = (A ++ (none :: X.map some)).length by simp [hsrc, hdst], getElem?_mid]
    rcases construct_spec u1.here hdst hr with ⟨h2, e2, u2, _⟩ | ⟨h2, e2, u2, hf⟩
    · obtain ⟨k, h3, hk, e3, u3, w3⟩ := transferLeft_spec b Y (X ++ [y]) h2 (A ++ [some y]) C (src + 1) (dst + 1)
        (by rw [u2.here]; simp) (by simp) (by simp [hdst]) (by simp [hsrc]; omega)
      have u := u1.trans u2
      refine ⟨k + 1, h3, by simpa using hk, ?_, ?_, ?_⟩
      · rw [List.length_cons, transferLeft, bind_some e1, bind_some e2]
        simp only [if_true]
        rw [e3]
        simp [Nat.add_assoc, Nat.add_comm 1 k]
      · intro hk'
        have hk' : k = Y.length := by simpa using hk'
        refine (u.trans (u3 hk')).congr ?_ (by omega)
        simp
      · intro hk'
        obtain ⟨w, t, ht⟩ := w3 (by simpa using hk')
        refine ⟨(u.trans w).congr ?_ (by omega), t, by rw [← u.failC]; exact ht⟩
        simp
    · refine ⟨0, h2, Nat.zero_le _, ?_, fun hk => absurd hk (by simp), fun _ => ⟨(u1.trans u2).congr (by simp) rfl, ?_⟩⟩
      · rw [List.length_cons, transferLeft, bind_some e1, bind_some e2]
        simp [pure_run]
      · exact ⟨_, by rw [← u1.failC]; exact hf⟩

/-- A list that is not empty, split at its last element. -/
theorem exists_concat {β : Type} : ∀ (l : List β), l ≠ [] → ∃ l' x, l = l' ++ [x]
  | [], h => absurd rfl h
  | a :: l, _ => by
    refine ⟨(a :: l).dropLast, (a :: l).getLast (by simp), ?_⟩
    rw [List.dropLast_concat_getLast]

theorem transferRight_spec (b : Nat) : ∀ (n : Nat) (X Y : List α) (h : Heap α) (A C : List (Option α)) (srcEnd dst : Nat),
    X.length = n → h.blk b = some (A ++ ((X ++ Y).map some ++ C)) → Y ≠ [] → srcEnd = A.length + X.length →
    dst + 1 = srcEnd + Y.length →
    ∃ k h', k ≤ n ∧ transferRight b srcEnd dst n h = some ((dst - k, decide (k = n)), h') ∧
      (k = n → Upd h h' b (A ++ (((X ++ Y).take Y.length ++ X).map some ++ C)) k) ∧
      (k < n → Upd h h' b (A ++ (((X ++ Y).take (X.length + Y.length - k - 1)).map some ++
          none :: ((X.drop (n - k)).map some ++ C))) k ∧ ∃ t, h.failC t = true)
  | 0, X, Y, h, A, C, srcEnd, dst, hX, e, _, _, _ => by
    have : X = [] := List.length_eq_zero_iff.mp hX
    subst this
    exact ⟨0, h, Nat.le_refl _, rfl, fun _ => Upd.refl (by simpa using e), fun hk => absurd hk (by simp)⟩
  | n + 1, X, Y, h, A, C, srcEnd, dst, hX, e, hY, hs, hd => by
    obtain ⟨X', x, rfl⟩ := exists_concat X (by intro hc; subst hc; simp at hX)
    obtain ⟨Y', y, rfl⟩ := exists_concat Y hY
    have hX' : X'.length = n := by simpa using hX
    simp only [List.length_append, List.length_cons, List.length_nil] at hs hd
    have eA : h.blk b = some ((A ++ (X' ++ x :: Y').map some) ++ some y :: C) := by rw [e]; simp
    obtain ⟨h1, e1, u1⟩ := destroyAt_spec (i := dst) eA (by simp; omega)
    have hr : h1.read (.ref b (srcEnd - 1)) = some x := by
      simp only [Heap.read, slot_of_blk u1.here]
      have : (A ++ (X' ++ x :: Y').map some) ++ none :: C = (A ++ X'.map some) ++ some x :: (Y'.map some ++ none :: C) := by simp
      rw [this, show srcEnd - 1 = (A ++ X'.map some).length by simp; omega, getElem?_mid]
    rcases construct_spec (i := dst) u1.here (by simp; omega) hr with ⟨h2, e2, u2, _⟩ | ⟨h2, e2, u2, hf⟩
    · obtain ⟨k, h3, hk, e3, u3, w3⟩ := transferRight_spec b n X' (x :: Y') h2 A (some x :: C) (srcEnd - 1) (dst - 1) hX'
        (by rw [u2.here]; simp) (by simp) (by omega) (by simp; omega)
      have u := u1.trans u2
      refine ⟨k + 1, h3, by omega, ?_, ?_, ?_⟩
      · rw [transferRight, bind_some e1, bind_some e2]
        simp only [if_true]
        rw [e3]
        simp; omega
      · intro hk'
        have hk' : k = n := by omega
        refine (u.trans (u3 hk')).congr ?_ (by omega)
        have h1 : (X' ++ [x] ++ (Y' ++ [y])).take (Y' ++ [y]).length = (X' ++ x :: Y').take (x :: Y').length := by
          have : X' ++ [x] ++ (Y' ++ [y]) = (X' ++ x :: Y') ++ [y] := by simp
          rw [this, List.take_append_of_le_length (by simp)]
          simp
        rw [h1]; simp
      · intro hk'
        obtain ⟨w, t, ht⟩ := w3 (by omega)
        refine ⟨(u.trans w).congr ?_ (by omega), t, by rw [← u.failC]; exact ht⟩
        have h1 : (X' ++ [x] ++ (Y' ++ [y])).take ((X' ++ [x]).length + (Y' ++ [y]).length - (k + 1) - 1)
            = (X' ++ x :: Y').take (X'.length + (x :: Y').length - k - 1) := by
          have : X' ++ [x] ++ (Y' ++ [y]) = (X' ++ x :: Y') ++ [y] := by simp
          rw [this, List.take_append_of_le_length (by simp; omega)]
          congr 1
          simp; omega
        have h2 : (X' ++ [x]).drop (n + 1 - (k + 1)) = X'.drop (n - k) ++ [x] := by
          rw [List.drop_append_of_le_length (by omega)]
          congr 2; omega
        rw [h1, h2]; simp
    · refine ⟨0, h2, Nat.zero_le _, ?_, fun hk => absurd hk (by simp), fun _ => ⟨(u1.trans u2).congr ?_ rfl, ?_⟩⟩
      · rw [transferRight, bind_some e1, bind_some e2]
        simp [pure_run]
      · have h1 : (X' ++ [x] ++ (Y' ++ [y])).take ((X' ++ [x]).length + (Y' ++ [y]).length - 0 - 1) = X' ++ x :: Y' := by
          have : X' ++ [x] ++ (Y' ++ [y]) = (X' ++ x :: Y') ++ [y] := by simp
          rw [this, List.take_append_of_le_length (by simp; omega)]
          apply List.take_of_length_le; simp; omega
        have h2 : (X' ++ [x]).drop (n + 1 - 0) = [] := List.drop_of_length_le (by simp; omega)
        rw [h1, h2]; simp
      · exact ⟨_, by rw [← u1.failC]; exact hf⟩

end Verif.VectorNd
