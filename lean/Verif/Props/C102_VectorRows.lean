import Verif.Lemmas.VectorRows3

/-!
Property C102: rows, iterators and pointers to elements of `vector_nd` in programs with any number of vectors and handles.
-/
set_option autoImplicit false
set_option linter.unusedSectionVars false

namespace Verif.VectorNd
variable {α : Type}

/-! ### Whole programs -/

theorem runR_safe : ∀ (sts : List (RStmt α)) {h : Heap α} {s : RSt} {E : Vars (AVal α)} {R : Vars SRow}, Inv h s.objs.vars E → RelRows h s.objs s.rows R →
    ((∀ t, h.failA t = false) ∨ ∀ st ∈ sts, st.inserts = false) →
    ∃ outs s' h' E' R', runR s R sts h = some ((outs, s'), h') ∧ Inv h' s'.objs.vars E' ∧ RelRows h' s'.objs s'.rows R' ∧
      MayRunR ⟨E, capsOf s.objs.vars, R⟩ sts outs ⟨E', capsOf s'.objs.vars, R'⟩
  | [], h, s, E, R, i, q, _ => ⟨[], s, h, E, R, rfl, i, q, .nil _⟩
  | st :: sts, h, s, E, R, i, q, hA => by
    have hA' := hA.imp_right (fun q x hx => q x (List.mem_cons_of_mem _ hx))
    simp only [runR, i.shapes_eq]
    cases hv : st.valid (ashapes E) (capsOf s.objs.vars) R with
    | false =>
      simp only [Bool.false_eq_true, if_false]
      obtain ⟨outs, s', h', E', R', h1, h2, h3, h4⟩ := runR_safe sts i q hA'
      exact ⟨outs, s', h', E', R', h1, h2, h3, .skip _ _ _ _ _ hv h4⟩
    | true =>
      simp only [if_true]
      obtain ⟨out, s1, h1, E1, e1, post⟩ := step_post i q st hv (hA.imp_right (fun q => q st List.mem_cons_self))
      obtain ⟨outs, s2, h2, E2, R2, e2, i2, q2, m2⟩ := runR_safe sts post.inv post.rows (by rw [post.failA]; exact hA')
      refine ⟨(out, capsOf s1.objs.vars) :: outs, s2, h2, E2, R2, ?_, i2, q2, ?_⟩
      · rw [bind_some e1]; simp only; rw [bind_some e2]; rfl
      · have hcaps := post.caps
        rcases post.res with ⟨rfl, rfl⟩ | ⟨rfl, hl⟩
        · exact .good ⟨E, _, R⟩ _ _ _ _ _ hv hcaps m2
        · exact .threw ⟨E, _, R⟩ _ _ _ _ _ _ hv hl hcaps m2

theorem Inv.rect {h : Heap α} {e : Vars Vec} {E : Vars (AVal α)} (i : Inv h e E) (caps : Nat → Nat) (R : Vars SRow) : SSt.rect ⟨E, caps, R⟩ := by
  intro x s hs
  obtain ⟨v, _, r⟩ := relO_some (show RelO h (e x) (some (.tab s)) by rw [← show E x = _ from hs]; exact i.rel x)
  cases v with
  | one v => exact r.elim
  | many v => exact r.1.rows

/-- **C102.** Any program over any number of vectors, rows, iterators and pointers to elements, whichever copies throw (and whichever
allocations throw if nothing is inserted), runs without undefined behaviour. At its end every vector has its value, and through every
handle exactly that can be read what the specification says: the sizes it shows, and the elements at its position in the vector that
holds them now; nothing if they are gone. -/
theorem C102_rows_partial (failC failA : Nat → Bool) (sts : List (RStmt α)) (hA : (∀ t, failA t = false) ∨ ∀ st ∈ sts, st.inserts = false) :
    ∃ outs s h G, runR RSt.init Vars.none sts (Heap.empty failC failA) = some ((outs, s), h) ∧ MayRunR (SSt.init : SSt α) sts outs G ∧ G.rect ∧
      (∀ x, (s.objs.vars x).map (viewV h) = (G.vals x).map fun a => (a.dims, a.elems.map some)) ∧
      (∀ x, capsOf s.objs.vars x = G.caps x) ∧
      ∀ k, (s.rows k).map (Row.read s.objs h) = (G.rows k).map (SRow.value G.vals) := by
  obtain ⟨outs, s, h, E, R, e, i, q, m⟩ := runR_safe sts (s := RSt.init) (R := Vars.none) (Inv.init failC failA) (fun _ => trivial) hA
  refine ⟨outs, s, h, ⟨E, capsOf s.objs.vars, R⟩, e, m, i.rect _ _, i.views, fun _ => rfl, fun k => ?_⟩
  have := q k
  show _ = (R k).map (SRow.value E)
  cases hr : s.rows k with
  | none => cases hR : R k with
    | none => rfl
    | some sr => rw [hr, hR] at this; exact this.elim
  | some r => cases hR : R k with
    | none => rw [hr, hR] at this; exact this.elim
    | some sr =>
      rw [hr, hR] at this
      exact congrArg some (this.read i)

/-! ### What the specification says about single calls -/

theorem OpN.stays_caps {n c c' : Nat} {sub : List Nat} {op : OpN α} (hs : op.stays n sub c = true) (hc : c' = c ∨ op.recaps n sub c c') : c' = c := by
  rcases hc with hc | hc
  · exact hc
  · cases op
    case shrink =>
      have hs : c = n := of_decide_eq_true hs
      have hc : c' = n := hc
      omega
    all_goals
      simp only [OpN.stays, decide_eq_true_eq] at hs
      have h1 := hc.1
      omega

theorem fits_or {s : Tab α} {shape : List Nat} (h : s.fits shape = true) : shape = s.sub ∨ s.rows = [] := by
  rcases (Bool.or_eq_true _ _).mp (and_split h).2 with h | h
  · exact Or.inr (by simpa using h)
  · exact Or.inl (of_decide_eq_true h)

theorem take_append_self {β : Type} (l X : List β) (p : Nat) (hp : p ≤ l.length) : (l.take p ++ X).take p = l.take p := by
  rw [List.take_append_of_le_length (by simp; omega), List.take_take, Nat.min_self]

theorem take_eraseIdx {β : Type} (l : List β) (p : Nat) : (l.eraseIdx p).take p = l.take p := by
  rw [List.eraseIdx_eq_take_drop_succ]
  by_cases h : p ≤ l.length
  · exact take_append_self _ _ _ h
  · rw [List.drop_eq_nil_of_le (by omega), List.append_nil, List.take_take, Nat.min_self]

theorem take_take_le {β : Type} (l : List β) {p m : Nat} (h : p ≤ m) : (l.take m).take p = l.take p := by
  rw [List.take_take, Nat.min_eq_left h]

/-- The rows before the first one that is touched stay as they are. -/
theorem first_kept {s s' : Tab α} {op : OpN α} (hv : validN s.rows.length s.sub op = true) (hs : s' = (specN s op).2 ∨ leftN s s' op) :
    s'.rows.take (op.first s.rows.length) = s.rows.take (op.first s.rows.length) ∧ (s'.sub = s.sub ∨ op.first s.rows.length = 0) := by
  have ins : ∀ {p : Nat} {shape : List Nat}, p ≤ s.rows.length → (shape = s.sub ∨ s.rows = []) → shape = s.sub ∨ p = 0 := fun hp hh => by
    rcases hh with hh | hh
    · exact Or.inl hh
    · rw [hh] at hp; exact Or.inr (by simpa using hp)
  have ins' : ∀ {p : Nat} {shape : List Nat}, p ≤ s.rows.length → (s'.sub = s.sub ∨ s.rows = [] ∧ s'.sub = shape) → s'.sub = s.sub ∨ p = 0 := fun hp hh => by
    rcases hh with hh | ⟨hh, _⟩
    · exact Or.inl hh
    · rw [hh] at hp; exact Or.inr (by simpa using hp)
  cases op with
  | pushBack shape row =>
    rcases hs with rfl | hs
    · simp only [specN, OpN.first]
      split
      · rename_i hf
        exact ⟨by simp, ins (Nat.le_refl _) (fits_or hf)⟩
      · exact ⟨rfl, Or.inl rfl⟩
    · exact ⟨by rw [hs.1], ins' (Nat.le_refl _) hs.2⟩
  | popBack =>
    rcases hs with rfl | hs
    · refine ⟨?_, Or.inl rfl⟩
      show s.rows.dropLast.take (s.rows.length - 1) = s.rows.take (s.rows.length - 1)
      rw [List.dropLast_eq_take, List.take_take, Nat.min_self]
    · rw [show s' = s from hs]; exact ⟨rfl, Or.inl rfl⟩
  | insertCount p count shape row =>
    have hp : p ≤ s.rows.length := (of_decide_eq_true hv).1
    rcases hs with rfl | hs
    · simp only [specN, OpN.first]
      split
      · exact ⟨rfl, Or.inl rfl⟩
      · split
        · rename_i hf
          refine ⟨?_, ins hp (fits_or hf)⟩
          show (s.rows.take p ++ _ ++ _).take p = _
          rw [List.append_assoc]; exact take_append_self _ _ _ hp
        · exact ⟨rfl, Or.inl rfl⟩
    · refine ⟨?_, ins' hp hs.2⟩
      rcases hs.1 with ⟨m, hm, hh⟩ | ⟨m, hh⟩
      · rw [hh]; exact take_take_le _ hm
      · rw [hh]; exact take_append_self _ _ _ hp
  | insertRange p shape rows =>
    have hp : p ≤ s.rows.length := (of_decide_eq_true (and_split hv).1).1
    rcases hs with rfl | hs
    · simp only [specN, OpN.first]
      split
      · exact ⟨rfl, Or.inl rfl⟩
      · split
        · rename_i hf
          refine ⟨?_, ins hp (fits_or hf)⟩
          show (s.rows.take p ++ _ ++ _).take p = _
          rw [List.append_assoc]; exact take_append_self _ _ _ hp
        · exact ⟨rfl, Or.inl rfl⟩
    · refine ⟨?_, ins' hp hs.2⟩
      rcases hs.1 with ⟨m, hm, hh⟩ | ⟨m, hh⟩
      · rw [hh]; exact take_take_le _ hm
      · rw [hh]; exact take_append_self _ _ _ hp
  | erase p =>
    rcases hs with rfl | ⟨h1, m, hm, h2⟩
    · simp only [specN, OpN.first]
      split
      · exact ⟨rfl, Or.inl rfl⟩
      · exact ⟨take_eraseIdx _ _, Or.inl rfl⟩
    · refine ⟨?_, Or.inl h1⟩
      rw [h2]
      show ((s.rows.eraseIdx p).take m).take p = s.rows.take p
      rw [take_take_le _ hm, take_eraseIdx]
  | eraseRange p q =>
    have key : (s.rows.take p ++ s.rows.drop q).take (min s.rows.length p) = s.rows.take (min s.rows.length p) := by
      rw [List.take_append_of_le_length (by simp; omega), take_take_le _ (by omega)]
    rcases hs with rfl | ⟨h1, m, hm, h2⟩
    · simp only [specN, OpN.first]
      split
      · exact ⟨rfl, Or.inl rfl⟩
      · exact ⟨key, Or.inl rfl⟩
    · refine ⟨?_, Or.inl h1⟩
      rw [h2]
      show ((s.rows.take p ++ s.rows.drop q).take m).take (min s.rows.length p) = s.rows.take (min s.rows.length p)
      rw [take_take_le _ (by omega), key]
  | resizeTop n a =>
    rcases hs with rfl | hs
    · refine ⟨?_, Or.inl rfl⟩
      show (s.rows.take n ++ _).take (min s.rows.length n) = s.rows.take (min s.rows.length n)
      rw [List.take_append_of_le_length (by simp; omega), take_take_le _ (by omega)]
    · rw [show s' = s from hs]; exact ⟨rfl, Or.inl rfl⟩
  | resizeAll top sub a => exact ⟨by simp [OpN.first], Or.inr rfl⟩
  | assign top sub a => exact ⟨by simp [OpN.first], Or.inr rfl⟩
  | clear a => exact ⟨by simp [OpN.first], Or.inr rfl⟩
  | reserve n =>
    rcases hs with rfl | hs
    · exact ⟨rfl, Or.inl rfl⟩
    · rw [show s' = s from hs]; exact ⟨rfl, Or.inl rfl⟩
  | shrink =>
    rcases hs with rfl | hs
    · exact ⟨rfl, Or.inl rfl⟩
    · rw [show s' = s from hs]; exact ⟨rfl, Or.inl rfl⟩

theorem slice_append {β : Type} (P X Y : List β) {off k : Nat} (h : off + k ≤ P.length) :
    ((P ++ X).drop off).take k = ((P ++ Y).drop off).take k := by
  rw [List.drop_append_of_le_length (by omega), List.drop_append_of_le_length (by omega),
    List.take_append_of_le_length (by simp; omega), List.take_append_of_le_length (by simp; omega)]

theorem slice_rows {s s' : Tab α} {f off k : Nat} (hr : ∀ r ∈ s.rows, r.length = prodL s.sub) (hf : s'.rows.take f = s.rows.take f)
    (h1 : off + k ≤ f * prodL s.sub) (h2 : off + k ≤ s.rows.flatten.length) :
    off + k ≤ s'.rows.flatten.length ∧ (s'.rows.flatten.drop off).take k = (s.rows.flatten.drop off).take k := by
  have e : ∀ t : Tab α, t.rows.flatten = (t.rows.take f).flatten ++ (t.rows.drop f).flatten := fun t => by
    rw [← List.flatten_append, List.take_append_drop]
  have hP : off + k ≤ (s.rows.take f).flatten.length := by
    rw [flatten_length_rows (fun r h => hr r (List.mem_of_mem_take h)), List.length_take]
    rw [flatten_length_rows hr] at h2
    rcases Nat.le_total f s.rows.length with h | h
    · rw [Nat.min_eq_left h]; exact h1
    · rw [Nat.min_eq_right h]; exact h2
  rw [e s', e s, hf]
  exact ⟨by rw [List.length_append]; omega, slice_append _ _ _ hP⟩

theorem value_of {E : Vars (AVal α)} {x off : Nat} {hm : Home} {sh : List Nat} {a : AVal α} {es : List α} (h1 : hm.shape (ashapes E) = some sh)
    (h0 : prodL sh ≠ 0) (hx : E x = some a) (he : a.elems = es) :
    SRow.value E ⟨some x, off, hm⟩ = if off + prodL sh ≤ es.length then some (sh, (es.drop off).take (prodL sh)) else none := by
  subst he
  show (match hm.shape (ashapes E) with
    | none => none
    | some s => if prodL s = 0 then some (s, []) else
      match E x with
      | none => none
      | some a => if off + prodL s ≤ a.elems.length then some (s, (a.elems.drop off).take (prodL s)) else none) = _
  rw [h1]
  show (if prodL sh = 0 then some (sh, []) else
      match E x with
      | none => none
      | some a => if off + prodL sh ≤ a.elems.length then some (sh, (a.elems.drop off).take (prodL sh)) else none) = _
  rw [if_neg h0, hx]

theorem value_nil {E : Vars (AVal α)} {o : Option Nat} {off : Nat} {hm : Home} {sh : List Nat} (h1 : hm.shape (ashapes E) = some sh) (h0 : prodL sh = 0) :
    SRow.value E ⟨o, off, hm⟩ = some (sh, []) := by
  unfold SRow.value
  dsimp only
  rw [h1]
  dsimp only
  rw [if_pos h0]

/-- **C102, calls that leave rows alone.** A member function of a vector that has enough room, whether it succeeds or throws, changes
neither the sizes nor the elements of any row, sub-row or element that lies before the first row it touches, and handles to them stay
valid. -/
theorem C102_stable {g g' : SSt α} {outs : List (Out × (Nat → Nat))} {x k off : Nat} {op : OpN α} {s : Tab α} {hm : Home} {sh : List Nat} {l : List α}
    (run : MayRunR g [.stmt (.callN x op)] outs g') (hrect : g.rect) (hx : g.vals x = some (.tab s))
    (hroom : op.stays (s.rows.length * prodL s.sub) s.sub (g.caps x) = true)
    (hk : g.rows k = some ⟨some x, off, hm⟩) (hhome : hm = .elem ∨ ∃ lvl, hm = .of x (lvl + 1))
    (hval : SRow.value g.vals ⟨some x, off, hm⟩ = some (sh, l)) (hne : l ≠ []) (hbefore : off + l.length ≤ op.first s.rows.length * prodL s.sub) :
    (g'.rows k).map (SRow.value g'.vals) = some (some (sh, l)) := by
  have hshape : ashapes g.vals x = some (s.rows.length :: s.sub) := by simp [ashapes, hx, AVal.dims]
  -- what the handle reads now
  have hread : (hm.shape (ashapes g.vals)) = some sh ∧ prodL sh = l.length ∧ off + l.length ≤ s.rows.flatten.length ∧
      (s.rows.flatten.drop off).take l.length = l := by
    cases hsh : hm.shape (ashapes g.vals) with
    | none =>
      unfold SRow.value at hval
      dsimp only at hval
      rw [hsh] at hval; cases hval
    | some sh' =>
      by_cases h0 : prodL sh' = 0
      · rw [value_nil hsh h0] at hval
        have := Option.some.inj hval
        exact absurd (congrArg Prod.snd this).symm hne
      · rw [value_of hsh h0 hx (es := s.rows.flatten) rfl] at hval
        by_cases hle : off + prodL sh' ≤ s.rows.flatten.length
        · rw [if_pos hle] at hval
          have := Option.some.inj hval
          have h1 : sh' = sh := congrArg Prod.fst this
          have h2 : (s.rows.flatten.drop off).take (prodL sh') = l := congrArg Prod.snd this
          have h3 : prodL sh' = l.length := by rw [← h2, List.length_take, List.length_drop]; omega
          refine ⟨by rw [h1], by rw [← h1]; exact h3, by rw [← h3]; exact hle, by rw [← h3]; exact h2⟩
        · rw [if_neg hle] at hval; cases hval
  obtain ⟨hsh, hlen, hin, hslice⟩ := hread
  have hpos : 0 < l.length := List.length_pos_iff.mpr hne
  -- whatever happens to the vector
  have key : ∀ (s' : Tab α) (E' : Vars (AVal α)) (caps' : Nat → Nat) (out : Out), E' x = some (.tab s') → validN s.rows.length s.sub op = true →
      (s' = (specN s op).2 ∨ leftN s s' op) → (Stmt.callN x op).capsMay (ashapes g.vals) g.caps caps' out →
      ((RStmt.stmt (.callN x op)).track (ashapes g.vals) g.caps caps' out g.rows k).map (SRow.value E') = some (some (sh, l)) := by
    intro s' E' caps' out hE' hv hs' hc
    obtain ⟨hf, hsub⟩ := first_kept hv hs'
    have hsub : s'.sub = s.sub := by
      rcases hsub with h | h
      · exact h
      · rw [h] at hbefore; omega
    have hcap : caps' x = g.caps x := by
      have h2 := hc.2
      dsimp only at h2
      rw [hshape] at h2
      exact OpN.stays_caps hroom h2
    obtain ⟨h1, h2⟩ := slice_rows (hrect x s hx) hf hbefore hin
    show ((g.rows k).map (SRow.after g.caps caps' out (.callN x op))).map (SRow.value E') = _
    rw [hk]
    show some (SRow.value E' (SRow.after g.caps caps' out (.callN x op) ⟨some x, off, hm⟩)) = _
    have hafter : SRow.after g.caps caps' out (.callN x op) ⟨some x, off, hm⟩ = ⟨some x, off, hm⟩ := by
      have e1 : (Stmt.callN x op).holds g.caps caps' out x = some x := by
        show (if x = x ∧ caps' x ≠ g.caps x then none else some x) = _
        rw [if_neg (fun hh => hh.2 hcap)]
      show SRow.mk ((Stmt.callN x op).holds g.caps caps' out x) off (hm.after (.callN x op)) = _
      rw [e1]
      cases hm <;> rfl
    rw [hafter]
    have hsh' : hm.shape (ashapes E') = some sh := by
      rcases hhome with rfl | ⟨lvl, rfl⟩
      · exact hsh
      · rw [← hsh]
        simp [Home.shape, ashapes, hx, hE', AVal.dims, hsub]
    congr 1
    rw [value_of hsh' (by omega) hE' (es := s'.rows.flatten) rfl, hlen, if_pos h1, h2, hslice]
  have hvN : (RStmt.stmt (.callN x op)).valid (ashapes g.vals) g.caps g.rows = true → validN s.rows.length s.sub op = true := fun hv => by
    have hv : (Stmt.callN x op).valid (ashapes g.vals) = true := hv
    simp only [Stmt.valid, hshape] at hv
    split at hv
    · rename_i n m sub heq
      have heq := Option.some.inj heq
      injection heq with h1 h2
      rw [h1, h2]; exact (and_split hv).1
    · cases hv
  cases run with
  | skip _ _ _ _ _ hv rest =>
    cases rest
    rw [hk]; exact congrArg some hval
  | good _ _ _ _ caps' outs hv hc rest =>
    cases rest
    refine key (specN s op).2 _ _ _ ?_ (hvN hv) (Or.inl rfl) hc
    show (Stmt.spec g.vals (.callN x op)).2 x = _
    simp only [Stmt.spec, hx]
    exact Vars.set_same _ _ _
  | threw _ _ E _ _ caps' outs hv hl hc rest =>
    cases rest
    obtain ⟨t, t', ht, hl, rfl⟩ := hl
    obtain rfl : s = t := by rw [hx] at ht; cases ht; rfl
    exact key t' _ _ _ (Vars.set_same _ _ _) (hvN hv) (Or.inr hl) hc

/-- **C102, elements that are taken along.** Moving, swapping and move-reshaping vectors leaves every pointer to an element valid, and
the element as it is. -/
theorem C102_elements_follow {E : Vars (AVal α)} {st : Stmt α} (hv : st.valid (ashapes E) = true)
    (hk : (∃ x y, st = .move x y) ∨ (∃ x y, st = .swap x y) ∨ ∃ x d y, st = .moveReshape x d y) (caps caps' : Nat → Nat) {y off : Nat} {l : List α}
    (hl : SRow.value E ⟨some y, off, .elem⟩ = some ([], l)) :
    SRow.value (st.spec E).2 (SRow.after caps caps' (st.spec E).1 st ⟨some y, off, .elem⟩) = some ([], l) := by
  have same : ∀ {E' : Vars (AVal α)} {y' : Nat} {a a' : AVal α}, E y = some a → E' y' = some a' → a'.elems = a.elems →
      SRow.value E' ⟨some y', off, .elem⟩ = some ([], l) := fun {E' y' a a'} h1 h2 h3 => by
    rw [← hl, value_of (sh := []) rfl (by simp [prodL]) h1 rfl, value_of (sh := []) rfl (by simp [prodL]) h2 h3]
  have hy : ∃ a, E y = some a := by
    cases hE : E y with
    | some a => exact ⟨a, rfl⟩
    | none =>
      unfold SRow.value at hl
      dsimp only [Home.shape] at hl
      rw [show (some y).bind E = none from hE] at hl
      simp [prodL] at hl
  obtain ⟨a, ha⟩ := hy
  have absent : ∀ {x : Nat}, (ashapes E x).isNone = true → y ≠ x := fun hn hh => by
    subst hh
    simp [ashapes, ha] at hn
  rcases hk with ⟨x, z, rfl⟩ | ⟨x, z, rfl⟩ | ⟨x, d, z, rfl⟩
  · have hyx := absent (and_split hv).1
    have hxz : x ≠ z := fun hh => by
      subst hh
      have h1 := (and_split hv).1; have h2 := (and_split hv).2
      cases hz : ashapes E x <;> simp [hz] at h1 h2
    show SRow.value _ ⟨if y = z then some x else some y, off, .elem⟩ = _
    by_cases hyz : y = z
    · subst hyz
      rw [if_pos rfl]
      exact same (a' := a) ha (by show ((E.set x (E y)).set y _) x = _; rw [Vars.set_other _ _ hxz, Vars.set_same, ha]) rfl
    · rw [if_neg hyz]
      exact same (a' := a) ha (by show ((E.set x (E z)).set z _) y = _; rw [Vars.set_other _ _ hyz, Vars.set_other _ _ hyx, ha]) rfl
  · have hxz : x ≠ z := of_decide_eq_true (and_split hv).1
    show SRow.value _ ⟨if y = x then some z else if y = z then some x else some y, off, .elem⟩ = _
    by_cases hyx : y = x
    · subst hyx
      rw [if_pos rfl]
      exact same (a' := a) ha (by show ((E.set y (E z)).set z (E y)) z = _; rw [Vars.set_same, ha]) rfl
    · rw [if_neg hyx]
      by_cases hyz : y = z
      · subst hyz
        rw [if_pos rfl]
        exact same (a' := a) ha (by show ((E.set x (E y)).set y (E x)) x = _; rw [Vars.set_other _ _ hxz, Vars.set_same, ha]) rfl
      · rw [if_neg hyz]
        exact same (a' := a) ha (by show ((E.set x (E z)).set z (E x)) y = _; rw [Vars.set_other _ _ hyz, Vars.set_other _ _ hyx, ha]) rfl
  · have hn := (and_split (and_split hv).1).1
    have hyx := absent hn
    have hxz : x ≠ z := fun hh => by
      subst hh
      have h2 := (and_split (and_split hv).1).2
      cases hz : ashapes E x <;> simp [hz] at hn h2
    obtain ⟨b, hb⟩ : ∃ b, E z = some b := by
      cases hz : E z with
      | some b => exact ⟨b, rfl⟩
      | none => have h2 := (and_split (and_split hv).1).2; simp [ashapes, hz] at h2
    simp only [Stmt.spec, hb]
    by_cases hp : prodL d = b.elems.length
    · rw [if_pos hp]
      show SRow.value _ ⟨if y = z ∧ Out.ok = .ok then some x else some y, off, .elem⟩ = _
      by_cases hyz : y = z
      · subst hyz
        obtain rfl : a = b := Option.some.inj (ha.symm.trans hb)
        rw [if_pos ⟨rfl, rfl⟩]
        refine same (a' := .ofElems d a.elems) ha (by show ((E.set x _).set y _) x = _; rw [Vars.set_other _ _ hxz, Vars.set_same]) ?_
        match d, hp with
        | [], _ => rfl
        | [n], _ => rfl
        | n :: m :: sub, hp => exact chunks_all hp
      · rw [if_neg (fun hh => hyz hh.1)]
        exact same (a' := a) ha (by show ((E.set x _).set z _) y = _; rw [Vars.set_other _ _ hyz, Vars.set_other _ _ hyx, ha]) rfl
    · rw [if_neg hp]
      show SRow.value _ ⟨if y = z ∧ Out.argumentError = .ok then some x else some y, off, .elem⟩ = _
      rw [if_neg (fun hh => by cases hh.2)]
      exact hl

/-! ### What the code does not guarantee -/

/-- What is read through handle `k` at the end of a program, and how its statements ended. -/
def readsR (failC : Nat → Bool) (sts : List (RStmt Nat)) (k : Nat) : Option (List Out × Option (List Nat × List Nat)) :=
  ((runR RSt.init Vars.none sts) (Heap.empty failC never)).map fun r => (r.1.1.map Prod.fst, (r.1.2.rows k).bind (Row.read r.1.2.objs r.2))

/-- What vector `x` shows at the end of a program. -/
def showsV (failC : Nat → Bool) (sts : List (RStmt Nat)) (x : Nat) : Option (Option (List Nat × List (Option Nat))) :=
  ((runR RSt.init Vars.none sts) (Heap.empty failC never)).map fun r => (r.1.2.objs.vars x).map (viewV r.2)

/-- "In the case of exception the vector remains unchanged" (vector_nd.h l.1680-1683) is not true of its storage: if the copy of the new
row throws after the elements were moved to a larger block, the vector shows what it showed before, but all its rows, iterators and
pointers dangle. -/
theorem C102_throw_violated :
    ∃ (sts : List (RStmt Nat)) (call : RStmt Nat) (failC : Nat → Bool),
      readsR failC sts 0 = some ([.ok, .ok], some ([2], [1, 2])) ∧
      readsR failC (sts ++ [call]) 0 = some ([.ok, .ok, .threw], none) ∧
      showsV failC (sts ++ [call]) 0 = showsV failC sts 0 ∧ showsV failC sts 0 = some (some ([2, 2], [some 1, some 2, some 3, some 4])) :=
  ⟨[.stmt (.make 0 [2, 2] [1, 2, 3, 4]), .iter 0 0 0], .stmt (.callN 0 (.pushBack [2] [5, 6])), fun t => t = 10,
    by decide +kernel, by decide +kernel, by decide +kernel, by decide +kernel⟩

/-- Swapping two vectors does not leave their rows valid, although no element is moved: a row shows the sizes of the *object* it was
taken from, which are now those of the other vector. It may show another shape, or reach behind the elements. -/
theorem C102_swap_violated :
    (∃ sts : List (RStmt Nat), readsR never sts 0 = some ([.ok, .ok, .ok], some ([4], [1, 2, 3, 4])) ∧
      readsR never (sts ++ [.stmt (.swap 0 1)]) 0 = some ([.ok, .ok, .ok, .ok], some ([2], [1, 2]))) ∧
    ∃ sts : List (RStmt Nat), readsR never sts 0 = some ([.ok, .ok, .ok], some ([2], [3, 4])) ∧
      readsR never (sts ++ [.stmt (.swap 0 1)]) 0 = some ([.ok, .ok, .ok, .ok], none) :=
  ⟨⟨[.stmt (.make 0 [1, 4] [1, 2, 3, 4]), .stmt (.make 1 [2, 2] [5, 6, 7, 8]), .iter 0 0 0], by decide +kernel, by decide +kernel⟩,
   ⟨[.stmt (.make 0 [2, 2] [1, 2, 3, 4]), .stmt (.make 1 [1, 3] [5, 6, 7]), .iter 0 0 1], by decide +kernel, by decide +kernel⟩⟩

/-- A row of a vector that was moved to another one dies with the *old* object, although its elements live on in the new one. -/
theorem C102_move_violated :
    ∃ sts : List (RStmt Nat), readsR never sts 0 = some ([.ok, .ok, .ok], some ([2], [3, 4])) ∧
      readsR never (sts ++ [.stmt (.del 0)]) 0 = some ([.ok, .ok, .ok, .ok], none) ∧
      showsV never (sts ++ [.stmt (.del 0)]) 1 = some (some ([2, 2], [some 1, some 2, some 3, some 4])) :=
  ⟨[.stmt (.make 0 [2, 2] [1, 2, 3, 4]), .iter 0 0 1, .stmt (.move 1 0)], by decide +kernel, by decide +kernel, by decide +kernel⟩

/-! ### Examples -/

/-- A program with all kinds of handles. -/
def demoR : List (RStmt Nat) :=
  [.stmt (.make 0 [2, 2, 3] [1, 2, 3, 4, 5, 6, 7, 8, 9, 10, 11, 12]), .proxy 0 0, .sub 1 0 1, .sub 2 1 0, .sub 3 2 2, .write 3 90, .iter 4 0 0, .advance 4 1,
   .elem 5 0 3, .dup 6 5, .advance 6 (-2), .stmt (.callN 0 (.reserve 40)), .iter 7 0 1, .stmt (.callN 0 (.pushBack [2, 3] [1, 1, 1, 1, 1, 1])),
   .stmt (.callN 0 (.erase 2))]

example : (List.range 8).map (fun k => (readsR never demoR k).map Prod.snd) =
    [some none, some none, some none, some none, some none, some none, some none, some (some ([2, 3], [7, 8, 90, 10, 11, 12]))] := by decide +kernel
example : (List.range 7).map (fun k => (readsR never (demoR.take 11) k).map Prod.snd) =
    [some (some ([2, 2, 3], [1, 2, 3, 4, 5, 6, 7, 8, 90, 10, 11, 12])), some (some ([2, 3], [7, 8, 90, 10, 11, 12])), some (some ([3], [7, 8, 90])),
     some (some ([], [90])), some (some ([2, 3], [7, 8, 90, 10, 11, 12])), some (some ([], [4])), some (some ([], [2]))] := by decide +kernel

/-- The hypotheses of `C102_stable`: a row before the place of an insertion, in a vector with room for more. -/
example : ∃ (g g' : SSt Nat) (outs : List (Out × (Nat → Nat))), MayRunR g [.stmt (.callN 0 (.insertRange 1 [2] [[7, 8]]))] outs g' ∧ g.rect ∧
    g.vals 0 = some (.tab ⟨[2], [[1, 2], [3, 4]]⟩) ∧ (OpN.insertRange 1 [2] [[7, 8]] : OpN Nat).stays 4 [2] (g.caps 0) = true ∧
    g.rows 0 = some ⟨some 0, 0, .of 0 1⟩ ∧ SRow.value g.vals ⟨some 0, 0, .of 0 1⟩ = some ([2], [1, 2]) ∧
    g'.vals 0 = some (.tab ⟨[2], [[1, 2], [7, 8], [3, 4]]⟩) := by
  refine ⟨⟨Vars.none.set 0 (some (.tab ⟨[2], [[1, 2], [3, 4]]⟩)), fun _ => 10, Vars.none.set 0 (some ⟨some 0, 0, .of 0 1⟩)⟩, _, _,
    .good _ _ _ _ (fun _ => 10) _ (by decide +kernel) ⟨?_, Or.inl rfl⟩ (.nil _), ?_, rfl, by decide +kernel, rfl, by decide +kernel, by decide +kernel⟩
  · intro y y' _ _; rfl
  · intro x s hs r hr
    by_cases hx : x = 0
    · subst hx
      cases hs
      revert hr
      revert r
      decide
    · have : (Vars.none.set 0 (some (.tab ⟨[2], [[1, 2], [3, 4]]⟩)) : Vars (AVal Nat)) x = none := by rw [Vars.set_other _ _ hx]; rfl
      rw [show (Vars.none.set 0 (some (.tab ⟨[2], [[1, 2], [3, 4]]⟩)) : Vars (AVal Nat)) x = some (.tab s) from hs] at this
      cases this

/-- The hypotheses of `C102_elements_follow`. -/
example : (Stmt.swap 0 1 : Stmt Nat).valid (ashapes ((Vars.none.set 0 (some (.list [1, 2]))).set 1 (some (.list [3])))) = true ∧
    SRow.value ((Vars.none.set 0 (some (.list [1, 2]))).set 1 (some (.list [3]))) ⟨some 0, 1, .elem⟩ = some ([], [2]) := by decide +kernel

end Verif.VectorNd
