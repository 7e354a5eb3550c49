import Verif.Lemmas.VectorRows2
import Verif.Lemmas.VectorCaps

/-!
Lemmas for C102: every statement keeps the description of the handles true.
-/
set_option autoImplicit false
set_option linter.unusedSectionVars false

namespace Verif.VectorNd
variable {α : Type}

/-- Variable `x` has more than one dimension. -/
def TabAt (E : Vars (AVal α)) (x : Nat) : Prop := ∃ s, E x = some (.tab s)

theorem tabAt_set {E : Vars (AVal α)} {x y : Nat} {o : Option (AVal α)} (hx : TabAt E x) (ho : x = y → ∃ s, o = some (.tab s)) : TabAt (E.set y o) x := by
  by_cases hxy : x = y
  · obtain ⟨s, hs⟩ := ho hxy
    subst hxy
    exact ⟨s, by rw [Vars.set_same]; exact hs⟩
  · obtain ⟨s, hs⟩ := hx
    exact ⟨s, by rw [Vars.set_other _ _ hxy]; exact hs⟩

theorem Inv.tab_many {h : Heap α} {e : Vars Vec} {E : Vars (AVal α)} (i : Inv h e E) {x : Nat} (hx : TabAt E x) : ∃ v, e x = some (.many v) := by
  obtain ⟨s, hs⟩ := hx
  obtain ⟨v, hv, r⟩ := relO_some (show RelO h (e x) (some (.tab s)) by rw [← hs]; exact i.rel x)
  cases v with
  | one v => exact r.elim
  | many v => exact ⟨v, hv⟩

theorem Inv.many_tab {h : Heap α} {e : Vars Vec} {E : Vars (AVal α)} (i : Inv h e E) {x : Nat} {v : VecN} (hx : e x = some (.many v)) :
    ∃ s, E x = some (.tab s) ∧ RepN h v s ∧ s.sub ≠ [] := by
  obtain ⟨a, hEa, ra⟩ := relO_some' (show RelO h (some (.many v)) (E x) by rw [← hx]; exact i.rel x)
  obtain ⟨s, rfl, hr⟩ := ra.many
  exact ⟨s, hEa, hr⟩

/-- Vectors with as many dimensions as one with more than one dimension. -/
theorem tab_of_rank {h : Heap α} {e : Vars Vec} {E : Vars (AVal α)} (i : Inv h e E) {x z : Nat} (hx : TabAt E x)
    (hl : ∀ d d', ashapes E x = some d → ashapes E z = some d' → d.length = d'.length) (hz : (ashapes E z).isSome = true) : ∃ s, E z = some (.tab s) := by
  obtain ⟨v, hv⟩ := i.tab_many hx
  obtain ⟨s, hs, _, hne⟩ := i.many_tab hv
  cases hEz : E z with
  | none => simp [ashapes, hEz] at hz
  | some a =>
    have := hl (s.rows.length :: s.sub) a.dims (by simp [ashapes, hs, AVal.dims]) (by simp [ashapes, hEz])
    cases a with
    | list l =>
      simp [AVal.dims] at this
      exact absurd this hne
    | tab s' => exact ⟨s', rfl⟩

theorem tab_two {h : Heap α} {e : Vars Vec} {E : Vars (AVal α)} (i : Inv h e E) {x z y : Nat} (hx : TabAt E x)
    (hv : (match ashapes E y, ashapes E z with | some d, some d' => decide (d.length = d'.length) | _, _ => false) = true) :
    (x = y → ∃ s, E z = some (.tab s)) ∧ (x = z → ∃ s, E y = some (.tab s)) := by
  cases hy : ashapes E y with
  | none => rw [hy] at hv; cases hv
  | some d => cases hz : ashapes E z with
    | none => rw [hy, hz] at hv; cases hv
    | some d' =>
      rw [hy, hz] at hv
      have hv := of_decide_eq_true hv
      constructor
      · rintro rfl
        exact tab_of_rank i hx (fun a b ha hb => by rw [hy] at ha; rw [hz] at hb; cases ha; cases hb; exact hv) (by rw [hz]; rfl)
      · rintro rfl
        exact tab_of_rank i hx (fun a b ha hb => by rw [hz] at ha; rw [hy] at hb; cases ha; cases hb; exact hv.symm) (by rw [hy]; rfl)

/-- The number of dimensions of a vector does not change. -/
theorem tab_spec {h : Heap α} {e : Vars Vec} {E : Vars (AVal α)} (i : Inv h e E) {st : Stmt α} (hval : st.valid (ashapes E) = true) {x : Nat}
    (hx : TabAt E x) (hd : st ≠ .del x) : TabAt (st.spec E).2 x := by
  have absent : ∀ {y : Nat}, (ashapes E y).isNone = true → x ≠ y := fun hn hh => by
    obtain ⟨s, hs⟩ := hx
    have := (i.absent hn).2
    rw [← hh, hs] at this; cases this
  have emp : ∀ {y : Nat}, x = y → ∃ s, (E y).map AVal.emptied = some (.tab s) := fun hh => by
    obtain ⟨s, hs⟩ := hx
    subst hh
    exact ⟨_, by rw [hs]; rfl⟩
  cases st with
  | make y dims l =>
    simp only [Stmt.spec]
    split
    · exact tabAt_set hx (fun hh => absurd hh (absent (and_split (and_split hval).1).1))
    · exact hx
  | fill y dims a => exact tabAt_set hx (fun hh => absurd hh (absent (and_split hval).1))
  | copy y z => exact tabAt_set hx (fun hh => absurd hh (absent (and_split hval).1))
  | move y z =>
    exact tabAt_set (tabAt_set hx (fun hh => absurd hh (absent (and_split hval).1))) emp
  | assign y z =>
    refine tabAt_set hx ((tab_two i hx ?_).1)
    have := (and_split hval).2
    split at this
    · rename_i d d' h1 h2
      rw [h1, h2]
      exact (and_split this).2
    · cases this
  | moveAssign y z =>
    refine tabAt_set (tabAt_set hx ((tab_two i hx (and_split hval).2).1)) emp
  | swap y z =>
    refine tabAt_set (tabAt_set hx ((tab_two i hx (and_split hval).2).1)) ((tab_two i hx (and_split hval).2).2)
  | reshape y dims z =>
    have hn := (and_split (and_split hval).1).1
    simp only [Stmt.spec]
    split
    · exact hx
    · split
      · exact tabAt_set hx (fun hh => absurd hh (absent hn))
      · exact hx
  | moveReshape y dims z =>
    have hn := (and_split (and_split hval).1).1
    simp only [Stmt.spec]
    cases hz : E z with
    | none => exact hx
    | some a =>
      dsimp only
      split
      · refine tabAt_set (tabAt_set hx (fun hh => absurd hh (absent hn))) (fun hh => ?_)
        have := emp hh
        rw [hz] at this
        exact this
      · exact hx
  | call1 y op =>
    simp only [Stmt.spec]
    cases hy : E y with
    | none => exact hx
    | some a => cases a with
      | tab s => exact hx
      | list l =>
        exact tabAt_set hx (fun hh => by
          obtain ⟨s, hs⟩ := hx
          rw [hh, hy] at hs; cases hs)
  | callN y op =>
    simp only [Stmt.spec]
    cases hy : E y with
    | none => exact hx
    | some a => cases a with
      | list l => exact hx
      | tab s => exact tabAt_set hx (fun _ => ⟨_, rfl⟩)
  | del y => exact tabAt_set hx (fun hh => absurd (by rw [hh]) hd)

theorem tab_left {E E' : Vars (AVal α)} {st : Stmt α} (hl : st.left E E') {x : Nat} (hx : TabAt E x) : TabAt E' x := by
  cases st with
  | call1 y op =>
    obtain ⟨l, l', hy, _, rfl⟩ := hl
    exact tabAt_set hx (fun hh => by
      obtain ⟨s, hs⟩ := hx
      rw [hh, hy] at hs; cases hs)
  | callN y op =>
    obtain ⟨s, s', hy, _, rfl⟩ := hl
    exact tabAt_set hx (fun _ => ⟨_, rfl⟩)
  | make => rw [show E' = E from hl]; exact hx
  | fill => rw [show E' = E from hl]; exact hx
  | copy => rw [show E' = E from hl]; exact hx
  | move => rw [show E' = E from hl]; exact hx
  | assign => rw [show E' = E from hl]; exact hx
  | moveAssign => rw [show E' = E from hl]; exact hx
  | swap => rw [show E' = E from hl]; exact hx
  | reshape => rw [show E' = E from hl]; exact hx
  | moveReshape => rw [show E' = E from hl]; exact hx
  | del => rw [show E' = E from hl]; exact hx

theorem bury_ne {st : Stmt α} {d : Nat → Nat} {x : Nat} (h : st ≠ .del x) : st.bury d x = d x := by
  cases st with
  | del y =>
    show (if x = y then _ else _) = _
    rw [if_neg (fun hh => h (by rw [hh]))]
  | _ => rfl

theorem bury_le (st : Stmt α) (d : Nat → Nat) (x : Nat) : d x ≤ st.bury d x := by
  cases st with
  | del y =>
    show _ ≤ (if x = y then _ else _)
    split <;> omega
  | _ => exact Nat.le_refl _

theorem after_ne {st : Stmt α} {x l : Nat} (h : st ≠ .del x) : (Home.of x l).after st = .of x l := by
  cases st with
  | del y =>
    show (if x = y then _ else _) = _
    rw [if_neg (fun hh => h (by rw [hh]))]
  | _ => rfl

theorem after_del (x l : Nat) : (Home.of x l).after (.del x : Stmt α) = .gone := by
  show (if x = x then _ else _) = _
  rw [if_pos rfl]

/-- Handles after a statement about vectors. -/
theorem RelRow.stmt {h h' : Heap α} {o : Objs} {e' : Vars Vec} {E E' : Vars (AVal α)} {st : Stmt α} {out : Out} (i : Inv h o.vars E)
    (i' : Inv h' e' E') (hx : st.exec o.vars h = some ((out, e'), h')) (hval : st.valid (ashapes E) = true)
    (htab : ∀ x, TabAt E x → st ≠ .del x → TabAt E' x) {r : Row} {sr : SRow} (q : RelRow h o r sr) :
    RelRow h' ⟨e', st.bury o.deaths⟩ r (sr.after (capsOf o.vars) (capsOf e') out st) where
  off := q.off
  data := by
    have hd := q.data
    show match (sr.holder.bind fun y => st.holds (capsOf o.vars) (capsOf e') out y) with
      | some y => ∃ v, e' y = some v ∧ v.rv.ptr = r.ptr
      | none => ∀ b, r.ptr = some b → b < h'.next ∧ h'.blk b = none
    cases hh : sr.holder with
    | none =>
      rw [hh] at hd
      intro b hb
      obtain ⟨h1, h2⟩ := hd b hb
      obtain ⟨t1, t2, _⟩ := t_stmt b o.vars st h _ h' hx h1
      exact ⟨t1, t2 h2⟩
    | some y =>
      rw [hh] at hd
      obtain ⟨v, hv, hp⟩ := hd
      have hk := kept_stmt i i' hx hval hv
      show match st.holds (capsOf o.vars) (capsOf e') out y with
        | some y => ∃ v, e' y = some v ∧ v.rv.ptr = r.ptr
        | none => ∀ b, r.ptr = some b → b < h'.next ∧ h'.blk b = none
      cases hs : st.holds (capsOf o.vars) (capsOf e') out y with
      | some y' =>
        rw [hs] at hk
        obtain ⟨v', hv', hp'⟩ := hk
        exact ⟨v', hv', (congrArg RV.ptr hp').trans hp⟩
      | none =>
        rw [hs] at hk
        intro b hb
        have hb' : v.rv.ptr = some b := hp.trans hb
        refine ⟨(t_stmt b o.vars st h _ h' hx (i.old hv hb')).1, ?_⟩
        cases hn : h'.blk b with
        | none => rfl
        | some c =>
          obtain ⟨z, hz⟩ := i'.cover b (by rw [hn]; simp)
          exact absurd hz (hk b hb' z)
  home := by
    have hm := q.home
    show match sr.home.after st with
      | .elem => r.desc = none
      | .of x l => (∃ v, e' x = some (.many v)) ∧ r.desc = some ⟨x, st.bury o.deaths x, l⟩
      | .gone => ∃ d, r.desc = some d ∧ d.life < st.bury o.deaths d.obj
    cases hh : sr.home with
    | elem =>
      rw [hh] at hm
      have : Home.elem.after st = .elem := by cases st <;> rfl
      rw [this]; exact hm
    | gone =>
      rw [hh] at hm
      have : Home.gone.after st = .gone := by cases st <;> rfl
      rw [this]
      obtain ⟨d, hd, hl⟩ := hm
      exact ⟨d, hd, Nat.lt_of_lt_of_le hl (bury_le st _ _)⟩
    | of x l =>
      rw [hh] at hm
      obtain ⟨⟨v, hv⟩, hd⟩ := hm
      by_cases hs : st = .del x
      · subst hs
        rw [after_del]
        refine ⟨_, hd, ?_⟩
        show o.deaths x < if x = x then o.deaths x + 1 else o.deaths x
        rw [if_pos rfl]; omega
      · rw [after_ne hs]
        obtain ⟨s, hs', _⟩ := i.many_tab hv
        exact ⟨i'.tab_many (htab x ⟨s, hs'⟩ hs), by rw [bury_ne hs]; exact hd⟩

theorem RelRows.map {h h' : Heap α} {o o' : Objs} {rs : Vars Row} {R : Vars SRow} {f : SRow → SRow} (q : RelRows h o rs R)
    (hf : ∀ r sr, RelRow h o r sr → RelRow h' o' r (f sr)) : RelRows h' o' rs (fun k => (R k).map f) := by
  intro k
  have := q k
  show match rs k, (R k).map f with
    | none, none => True
    | some r, some sr => RelRow h' o' r sr
    | _, _ => False
  cases hr : rs k with
  | none => cases hR : R k with
    | none => trivial
    | some sr => rw [hr, hR] at this; exact this.elim
  | some r => cases hR : R k with
    | none => rw [hr, hR] at this; exact this.elim
    | some sr => rw [hr, hR] at this; exact hf r sr this

theorem RelRows.set {h : Heap α} {o : Objs} {rs : Vars Row} {R : Vars SRow} (q : RelRows h o rs R) {k : Nat} {r : Row} {sr : SRow}
    (hr : RelRow h o r sr) : RelRows h o (rs.set k (some r)) (R.set k (some sr)) := by
  intro j
  by_cases hj : j = k
  · subst hj
    rw [Vars.set_same, Vars.set_same]; exact hr
  · rw [Vars.set_other _ _ hj, Vars.set_other _ _ hj]; exact q j

theorem RelRows.get {h : Heap α} {o : Objs} {rs : Vars Row} {R : Vars SRow} (q : RelRows h o rs R) {k : Nat} {sr : SRow} (hk : R k = some sr) :
    ∃ r, rs k = some r ∧ RelRow h o r sr := by
  have := q k
  rw [hk] at this
  cases hr : rs k with
  | none => rw [hr] at this; exact this.elim
  | some r => rw [hr] at this; exact ⟨r, rfl, this⟩

theorem inBlock_holds {h : Heap α} {rv : RV} {l : List α} (o : HasList h rv l) {off : Nat} (hl : off ≤ rv.cap) : inBlock h rv.ptr off = true := by
  unfold inBlock
  cases hp : rv.ptr with
  | none =>
    have := (hasList_none hp o).2
    exact decide_eq_true (by omega)
  | some b =>
    obtain ⟨e, h1, _⟩ := hasList_some hp o
    simp only [e]
    exact decide_eq_true (by simp; omega)

theorem RelRow.inBlock {h : Heap α} {o : Objs} {E : Vars (AVal α)} (i : Inv h o.vars E) {r : Row} {sr : SRow} (q : RelRow h o r sr) {pos : Nat}
    (hp : sr.reaches (capsOf o.vars) pos = true) : VectorNd.inBlock h r.ptr pos = true := by
  unfold SRow.reaches at hp
  have hd := q.data
  cases hh : sr.holder with
  | none => rw [hh] at hp; cases hp
  | some y =>
    rw [hh] at hp hd
    obtain ⟨v, hv, hptr⟩ := hd
    have hp := of_decide_eq_true hp
    obtain ⟨a, _, ra⟩ := relO_some' (show RelO h (some v) (E y) by rw [← hv]; exact i.rel y)
    rw [← hptr]
    refine inBlock_holds ra.flat.1 (Nat.le_trans hp ?_)
    simp [capsOf, hv]

theorem setRow_run {s : RSt} {k : Nat} {f : Heap α → Option Row} {h : Heap α} {r : Row} (e : f h = some r) :
    (s.setRow k f) h = some ((.ok, { s with rows := s.rows.set k (some r) }), h) := by
  simp only [RSt.setRow, e]

/-- A vector with the given sizes of more than one dimension. -/
theorem Inv.many_of_dims {h : Heap α} {e : Vars Vec} {E : Vars (AVal α)} (i : Inv h e E) {x n k : Nat} {d : List Nat}
    (hx : ashapes E x = some (n :: k :: d)) : ∃ v s, e x = some (.many v) ∧ E x = some (.tab s) ∧ RepN h v s ∧ v.top = n ∧ v.sub = k :: d := by
  obtain ⟨v, a, hv, ha, r, hd⟩ := i.present hx
  cases v with
  | one v => cases a with
    | tab s => exact r.elim
    | list l => simp [AVal.dims] at hd
  | many v =>
    obtain ⟨s, rfl, hr, _⟩ := r.many
    have hd : s.rows.length :: s.sub = n :: k :: d := hd
    injection hd with h1 h2
    exact ⟨v, s, hv, ha, hr, by rw [hr.top, h1], by rw [hr.sub, h2]⟩

/-! ### Writing an element -/

theorem set_hasList {h : Heap α} {rv : RV} {b : Nat} {l : List α} (hp : rv.ptr = some b) (o : HasList h rv l) {j : Nat} (hj : j < l.length) (a : α) :
    HasList (h.setSlot b j (some a)) rv (l.set j a) := by
  obtain ⟨e, h1, h2⟩ := hasList_some hp o
  refine hasList_mk hp ?_ (by simpa using h1) h2
  rw [setSlot_of_blk e]
  simp only [Heap.put, if_pos]
  rw [List.set_append_left _ _ (by simpa using hj), List.map_set, List.length_set]

theorem put_rel {h h' : Heap α} {v : Vec} {a : AVal α} (r : RelV h v a) (w : WfH h') {j : Nat} {c : α} (hj : j < a.elems.length)
    (o : HasList h' v.rv (a.elems.set j c)) : RelV h' v (a.put j c) := by
  cases v with
  | one v => cases a with
    | tab s => exact r.elim
    | list l => exact ⟨w, o, by rw [r.2.2]; simp⟩
  | many v =>
    obtain ⟨s, rfl, hr, hne⟩ := r.many
    have hlen := flatten_length_rows hr.rows
    have hlen' : s.rows.length * prodL s.sub = (s.rows.flatten.set j c).length := by rw [List.length_set, hlen]
    refine ⟨⟨w, ?_, ?_, ?_, hr.sub, hr.es, ?_⟩, hne⟩
    · show HasList h' v.rv (chunks _ _ _).flatten
      rw [chunks_all hlen']; exact o
    · show v.top = (chunks _ _ _).length
      rw [chunks_length]; exact hr.top
    · show v.total = (chunks _ _ _).flatten.length
      rw [chunks_all hlen', List.length_set]; exact hr.total
    · exact chunks_rows _ _ _ (Nat.le_of_eq hlen')

theorem write_inv {h : Heap α} {o : Objs} {E : Vars (AVal α)} (i : Inv h o.vars E) {y : Nat} {v : Vec} {a : AVal α} (hv : o.vars y = some v)
    (hE : E y = some a) {b j : Nat} (hp : v.rv.ptr = some b) (hj : j < a.elems.length) (c : α) :
    Inv (h.setSlot b j (some c)) o.vars (E.set y (some (a.put j c))) := by
  have r : RelV h v a := by have := i.rel y; rw [hv, hE] at this; exact this
  obtain ⟨e, _, _⟩ := hasList_some hp r.flat.1
  have hset := setSlot_of_blk e j (some c)
  have hb : ∀ b', b' ≠ b → (h.setSlot b j (some c)).blk b' = h.blk b' := fun b' hne => by rw [hset]; simp [Heap.put, hne]
  have w : WfH (h.setSlot b j (some c)) := by
    intro b' hb'
    rw [setSlot_next] at hb'
    exact setSlot_none (i.wf b' hb')
  have ev : Evolves h (rvO (o.vars y)) (h.setSlot b j (some c)) (rvO (some v)) := by
    rw [hv]
    refine ⟨w, fun b' h1 _ => hb b' (fun hh => h1 (by rw [hh]; exact hp)), fun b' h1 h2 => absurd h1 h2, fun b' h1 h2 => absurd h1 h2, ?_, ?_⟩ <;>
      rw [hset] <;> rfl
  have := i.update (a := some (a.put j c)) ev (put_rel r w hj (set_hasList hp r.flat.1 hj c))
  rwa [Vars.set_self _ hv] at this

/-! ### One statement -/

def RStmt.inserts : RStmt α → Bool
  | .stmt st => st.inserts
  | _ => false

/-- How a statement ends. -/
structure StepPost (h : Heap α) (s : RSt) (E : Vars (AVal α)) (R : Vars SRow) (st : RStmt α) (out : Out) (s' : RSt) (h' : Heap α) (E' : Vars (AVal α)) :
    Prop where
  failA : h'.failA = h.failA
  inv : Inv h' s'.objs.vars E'
  rows : RelRows h' s'.objs s'.rows (st.track (ashapes E) (capsOf s.objs.vars) (capsOf s'.objs.vars) out R)
  caps : st.capsMay (ashapes E) (capsOf s.objs.vars) (capsOf s'.objs.vars) out
  res : (out = (st.vals R E).1 ∧ E' = (st.vals R E).2) ∨ (out = .threw ∧ st.left E E')

theorem caps_stmt {h h' : Heap α} {e e' : Vars Vec} {E E' : Vars (AVal α)} {st : Stmt α} {out : Out} (i : Inv h e E) (i' : Inv h' e' E')
    (hx : st.exec e h = some ((out, e'), h')) (hval : st.valid (ashapes E) = true) : st.capsMay (ashapes E) (capsOf e) (capsOf e') out := by
  constructor
  · intro y y' hy hh
    obtain ⟨v, a, hv, _, _⟩ := i.present' hy
    have hk := kept_stmt i i' hx hval hv
    rw [hh] at hk
    obtain ⟨v', hv', hp⟩ := hk
    simp [capsOf, hv, hv', hp]
  · cases st with
    | call1 x op =>
      obtain ⟨w, hw⟩ : ∃ w, e x = some (.one w) := by
        cases hw : e x with
        | none => simp only [Stmt.exec, hw] at hx; cases hx
        | some w => cases w with
          | many w => simp only [Stmt.exec, hw] at hx; cases hx
          | one w => exact ⟨w, rfl⟩
      simp only [Stmt.exec, hw] at hx
      obtain ⟨r, h1, e1, e2⟩ := bind_inv hx
      cases e2
      have hr := r_exec1 w op _ _ _ e1
      have hc : capsOf e x = w.rv.cap := by simp [capsOf, hw, Vec.rv]
      have hc' : capsOf (e.set x (some (.one r.2))) x = r.2.rv.cap := capsOf_set
      obtain ⟨a, hEa, ra⟩ := relO_some' (show RelO h (some (.one w)) (E x) by rw [← hw]; exact i.rel x)
      have hn : prodL ((ashapes E x).getD []) = w.size := by
        have h1 : w.size = a.elems.length := ra.flat.2.1
        rw [h1, ra.elems_length]; simp [ashapes, hEa]
      show capsOf _ x = capsOf e x ∨ op.recaps (prodL ((ashapes E x).getD [])) (capsOf e x) (capsOf _ x)
      rw [hc, hc', hn]
      exact hr.imp_left (fun hh => by rw [hh])
    | callN x op =>
      obtain ⟨w, hw⟩ : ∃ w, e x = some (.many w) := by
        cases hw : e x with
        | none => simp only [Stmt.exec, hw] at hx; cases hx
        | some w => cases w with
          | one w => simp only [Stmt.exec, hw] at hx; cases hx
          | many w => exact ⟨w, rfl⟩
      simp only [Stmt.exec, hw] at hx
      obtain ⟨r, h1, e1, e2⟩ := bind_inv hx
      cases e2
      obtain ⟨s, hs, rep, _⟩ := i.many_tab hw
      have hr := r_execN w op (by rw [rep.es, rep.sub]) _ _ _ e1
      have hc : capsOf e x = w.rv.cap := by simp [capsOf, hw, Vec.rv]
      have hc' : capsOf (e.set x (some (.many r.2))) x = r.2.rv.cap := capsOf_set
      have hd : (ashapes E x).getD [] = w.top :: w.sub := by simp [ashapes, hs, AVal.dims, rep.top, rep.sub]
      have hn : prodL (w.top :: w.sub) = w.total := (rep.totalAt 0).symm
      show capsOf _ x = capsOf e x ∨ op.recaps (prodL ((ashapes E x).getD [])) (((ashapes E x).getD []).drop 1) (capsOf e x) (capsOf _ x)
      rw [hc, hc', hd, hn]
      exact hr.imp_left (fun hh => by rw [hh])
    | _ => trivial

theorem stmt_step {h : Heap α} {s : RSt} {E : Vars (AVal α)} {R : Vars SRow} (i : Inv h s.objs.vars E) (q : RelRows h s.objs s.rows R) (st : Stmt α)
    (hval : st.valid (ashapes E) = true) (hA : (∀ t, h.failA t = false) ∨ st.inserts = false) :
    ∃ out s' h' E', (RStmt.stmt st).exec s h = some ((out, s'), h') ∧ StepPost h s E R (.stmt st) out s' h' E' := by
  obtain ⟨out, e', h', he, post⟩ := stmt_post i st hval hA
  have key : ∀ E', Inv h' e' E' → (∀ x, TabAt E x → st ≠ .del x → TabAt E' x) →
      RelRows h' ⟨e', st.bury s.objs.deaths⟩ s.rows (fun k => (R k).map (SRow.after (capsOf s.objs.vars) (capsOf e') out st)) :=
    fun E' i' ht => q.map (fun r sr hr => hr.stmt i i' he hval ht)
  have hrun : (RStmt.stmt st).exec s h = some ((out, { s with objs := ⟨e', st.bury s.objs.deaths⟩ }), h') := by
    simp only [RStmt.exec]
    rw [bind_some he]; rfl
  by_cases ht : out = .threw
  · obtain ⟨_, E', hl, i'⟩ := post.fail ht
    exact ⟨out, _, h', E', hrun, post.failA, i', key E' i' (fun x hx _ => tab_left hl hx), caps_stmt i i' he hval, Or.inr ⟨ht, hl⟩⟩
  · obtain ⟨ho, i'⟩ := post.good ht
    exact ⟨out, _, h', _, hrun, post.failA, i', key _ i' (fun x hx hd => tab_spec i hval hx hd), caps_stmt i i' he hval, Or.inl ⟨ho, rfl⟩⟩

theorem set_step {h : Heap α} {s : RSt} {E : Vars (AVal α)} {R : Vars SRow} (i : Inv h s.objs.vars E) (q : RelRows h s.objs s.rows R) {st : RStmt α}
    {k : Nat} {f : Heap α → Option Row} {r : Row} {sr : SRow} (hst : st.exec s = s.setRow k f) (hf : f h = some r) (hr : RelRow h s.objs r sr)
    (htr : ∀ caps caps' out, st.track (ashapes E) caps caps' out R = R.set k (some sr)) (hvals : st.vals R E = (.ok, E))
    (hcaps : ∀ caps out, st.capsMay (ashapes E) caps caps out := by intros; rfl) :
    ∃ out s' h' E', st.exec s h = some ((out, s'), h') ∧ StepPost h s E R st out s' h' E' := by
  refine ⟨.ok, { s with rows := s.rows.set k (some r) }, h, E, ?_, rfl, i, ?_, hcaps _ _, Or.inl ⟨by rw [hvals], by rw [hvals]⟩⟩
  · rw [hst]; exact setRow_run hf
  · rw [htr]; exact q.set hr

theorem step_post {h : Heap α} {s : RSt} {E : Vars (AVal α)} {R : Vars SRow} (i : Inv h s.objs.vars E) (q : RelRows h s.objs s.rows R) (st : RStmt α)
    (hval : st.valid (ashapes E) (capsOf s.objs.vars) R = true) (hA : (∀ t, h.failA t = false) ∨ st.inserts = false) :
    ∃ out s' h' E', st.exec s h = some ((out, s'), h') ∧ StepPost h s E R st out s' h' E' := by
  cases st with
  | stmt st => exact stmt_step i q st hval hA
  | proxy k x =>
    simp only [RStmt.valid] at hval
    split at hval
    · rename_i n m d hd
      obtain ⟨v, s', hv, hE, hr, _, _⟩ := i.many_of_dims hd
      refine set_step i q (sr := ⟨some x, 0, .of x 0⟩) (r := ⟨v.rv.ptr, 0, some ⟨x, s.objs.deaths x, 0⟩⟩) rfl ?_ ?_ (fun _ _ _ => rfl) rfl
      · simp only [Objs.proxy, hv]
      · exact ⟨rfl, ⟨_, hv, rfl⟩, ⟨v, hv⟩, rfl⟩
    · cases hval
  | iter k x j =>
    simp only [RStmt.valid] at hval
    split at hval
    · rename_i n m d hd
      have hj := of_decide_eq_true hval
      obtain ⟨v, s', hv, hE, hr, ht, hs⟩ := i.many_of_dims hd
      have hes : v.es = prodL (m :: d) := by rw [hr.es, ← hr.sub, hs]
      have hlen := flatten_length_rows hr.rows
      have hle : j * v.es ≤ v.rv.cap := by
        refine Nat.le_trans ?_ hr.list.2
        rw [hlen, ← hr.top, ht, hr.es]
        exact Nat.mul_le_mul_right _ hj
      refine set_step i q (sr := ⟨some x, j * prodL (m :: d), .of x 1⟩) (r := ⟨v.rv.ptr, j * v.es, some ⟨x, s.objs.deaths x, 1⟩⟩) rfl ?_ ?_
        (fun _ _ _ => by simp only [RStmt.track, hd]; rfl) rfl
      · simp only [Objs.iter, hv]
        rw [if_pos ⟨by omega, inBlock_holds hr.list hle⟩]
      · exact ⟨by rw [hes], ⟨_, hv, rfl⟩, ⟨v, hv⟩, rfl⟩
    · cases hval
  | elem k x j =>
    simp only [RStmt.valid] at hval
    split at hval
    · rename_i d hd
      have hj := of_decide_eq_true hval
      obtain ⟨v, a, hv, hE, r, hd'⟩ := i.present hd
      have ht : v.total = prodL d := by rw [r.flat.2.1, r.elems_length, hd']
      refine set_step i q (sr := ⟨some x, j, .elem⟩) (r := ⟨v.rv.ptr, j, none⟩) rfl ?_ ?_ (fun _ _ _ => rfl) rfl
      · simp only [Objs.elem, hv]
        rw [if_pos (by omega)]
      · exact ⟨rfl, ⟨_, hv, rfl⟩, rfl⟩
    · cases hval
  | sub k k' j =>
    simp only [RStmt.valid] at hval
    cases hR : R k' with
    | none => rw [hR] at hval; cases hval
    | some sr =>
      rw [hR] at hval
      dsimp only at hval
      split at hval
      · rename_i n d hsh
        obtain ⟨hj, hb⟩ := and_split hval
        have hj := of_decide_eq_true hj
        obtain ⟨r, hr, qr⟩ := q.get hR
        have hin := qr.inBlock i hb
        have htr : ∀ caps caps' out, (RStmt.sub k k' j : RStmt α).track (ashapes E) caps caps' out R =
            R.set k (some ⟨sr.holder, sr.off + j * prodL d, sr.home.inner d⟩) := fun _ _ _ => by
          simp only [RStmt.track, hR, hsh]; rfl
        have hm := qr.home
        cases hh : sr.home with
        | elem => rw [hh] at hsh; simp [Home.shape] at hsh
        | gone => rw [hh] at hsh; simp [Home.shape] at hsh
        | of x l =>
          rw [hh] at hm
          obtain ⟨⟨v, hv⟩, hdsc⟩ := hm
          have hf : s.objs.find ⟨x, s.objs.deaths x, l⟩ = some v := by simp [Objs.find, hv]
          obtain ⟨t, hE, hrep, _⟩ := i.many_tab hv
          have hsz : v.sizesFrom l = n :: d := by
            have h1 := (qr.shape i).1
            rw [hsh] at h1
            simpa [Row.sizes, hdsc, hf] using h1
          have hdrop : v.sizesFrom (l + 1) = d := by
            unfold VecN.sizesFrom at hsz ⊢
            rw [← List.drop_drop, hsz]; rfl
          cases d with
          | nil =>
            have e1 : r.off + j = sr.off + j * prodL [] := by rw [qr.off]; simp [prodL]
            refine set_step i q (sr := ⟨sr.holder, sr.off + j * prodL [], .elem⟩) (r := ⟨r.ptr, r.off + j, none⟩) rfl ?_ ?_
              (fun a b c => by rw [htr, hh]; rfl) rfl
            · simp only [hr, Option.bind_some, Row.sub, hdsc, hf, hsz]
              rw [if_pos ⟨hj, by rw [e1]; exact hin⟩]
            · exact ⟨e1, qr.data, rfl⟩
          | cons m d =>
            have e1 : r.off + j * v.totalAt (l + 1) = sr.off + j * prodL (m :: d) := by rw [qr.off, hrep.totalAt, hdrop]
            refine set_step i q (sr := ⟨sr.holder, sr.off + j * prodL (m :: d), .of x (l + 1)⟩)
              (r := ⟨r.ptr, r.off + j * v.totalAt (l + 1), some ⟨x, s.objs.deaths x, l + 1⟩⟩) rfl ?_ ?_ (fun a b c => by rw [htr, hh]; rfl) rfl
            · simp only [hr, Option.bind_some, Row.sub, hdsc, hf, hsz]
              rw [if_pos ⟨hj, by rw [e1]; exact hin⟩]
            · exact ⟨e1, qr.data, ⟨v, hv⟩, rfl⟩
      · cases hval
  | advance k n =>
    simp only [RStmt.valid] at hval
    cases hR : R k with
    | none => rw [hR] at hval; cases hval
    | some sr =>
      rw [hR] at hval
      dsimp only at hval
      split at hval
      · rename_i d hsh
        obtain ⟨h0, hb⟩ := and_split hval
        have h0 := of_decide_eq_true h0
        obtain ⟨r, hr, qr⟩ := q.get hR
        have hin := qr.inBlock i hb
        have ht := (qr.shape i).2
        rw [hsh] at ht
        refine set_step i q (sr := { sr with off := ((sr.off : Int) + n * prodL d).toNat }) (r := { r with off := ((r.off : Int) + n * prodL d).toNat }) rfl ?_ ?_
          (fun a b c => by simp only [RStmt.track, hR, hsh]; rfl) rfl
        · simp only [hr, Option.bind_some, Row.advance, ht, Option.map_some]
          rw [if_pos ⟨by rw [qr.off]; exact h0, by rw [qr.off]; exact hin⟩]
        · exact ⟨by show _ = _; simp only [qr.off], qr.data, qr.home⟩
      · cases hval
  | dup k k' =>
    obtain ⟨sr, hR⟩ := Option.isSome_iff_exists.mp (show (R k').isSome = true from hval)
    obtain ⟨r, hr, qr⟩ := q.get hR
    exact set_step i q (sr := sr) (r := r) rfl hr qr (fun a b c => by simp only [RStmt.track, hR]) rfl
  | write k c =>
    simp only [RStmt.valid] at hval
    split at hval
    · rename_i y off hR
      split at hval
      · rename_i d hd
        have hj := of_decide_eq_true hval
        obtain ⟨r, hr, qr⟩ := q.get hR
        obtain ⟨v, hv, hp⟩ : ∃ v, s.objs.vars y = some v ∧ v.rv.ptr = r.ptr := qr.data
        have hdesc : r.desc = none := qr.home
        have hoff : r.off = off := qr.off
        obtain ⟨v', a, hv', hE, ra, hd'⟩ := i.present hd
        obtain rfl := Option.some.inj (hv.symm.trans hv')
        have hj : off < a.elems.length := by rw [ra.elems_length, hd']; exact hj
        cases hb : v.rv.ptr with
        | none =>
          have := (hasList_none hb ra.flat.1).1
          rw [this] at hj
          exact absurd hj (by simp)
        | some b =>
          have hi := write_inv i hv hE hb hj c
          have hrd := read_holds ra.flat.1 off
          rw [hb, List.getElem?_eq_getElem hj] at hrd
          have hsl : h.slot b off = some (some a.elems[off]) := by
            have hrd : h.read (.ref b off) = some a.elems[off] := hrd
            simp only [Heap.read] at hrd
            split at hrd
            · rename_i z hz
              cases hrd; exact hz
            · cases hrd
          refine ⟨.ok, s, h.setSlot b off (some c), E.set y (some (a.put off c)), ?_, ?_, hi, ?_, rfl, Or.inl ?_⟩
          · simp only [RStmt.exec, hr]
            have : r.write c h = some ((), h.setSlot b off (some c)) := by
              simp only [Row.write, ← hp, hb, hdesc, hoff, hsl]
            rw [bind_some this]; rfl
          · unfold Heap.setSlot; split <;> rfl
          · show RelRows (h.setSlot b off (some c)) s.objs s.rows R
            have := q.map (f := id) (h' := h.setSlot b off (some c)) (o' := s.objs) (fun r sr hr => ⟨hr.off, by
              have hd := hr.data
              show match sr.holder with
                | some y => ∃ v, s.objs.vars y = some v ∧ v.rv.ptr = r.ptr
                | none => ∀ b', r.ptr = some b' → b' < (h.setSlot b off (some c)).next ∧ (h.setSlot b off (some c)).blk b' = none
              cases hh : sr.holder with
              | some y => rw [hh] at hd; exact hd
              | none =>
                rw [hh] at hd
                intro b' hb'
                obtain ⟨h1, h2⟩ := hd b' hb'
                exact ⟨by rw [setSlot_next]; exact h1, setSlot_none h2⟩, hr.home⟩)
            simpa using this
          · simp only [RStmt.vals, hR, hE]
            exact ⟨trivial, rfl⟩
      · cases hval
    · cases hval

end Verif.VectorNd
