import Verif.Lemmas.VectorRows
import Verif.Props.C102_VectorRowsSpec

/-!
Lemmas for C102: what a handle reads, and what statements do to the vector that holds its elements.
-/
set_option autoImplicit false
set_option linter.unusedSectionVars false

namespace Verif.VectorNd
variable {α β γ : Type}

theorem bind_inv {m : M α β} {f : β → M α γ} {h : Heap α} {r : γ × Heap α} (e : (m >>= f) h = some r) :
    ∃ x h1, m h = some (x, h1) ∧ f x h1 = some r := by
  have e : M.bind m f h = some r := e
  simp only [M.bind] at e
  cases hm : m h with
  | none => rw [hm] at e; cases e
  | some p => rw [hm] at e; exact ⟨p.1, p.2, rfl, e⟩

/-! ### Reading -/

theorem read_holds {h : Heap α} {rv : RV} {l : List α} (o : HasList h rv l) (off : Nat) :
    (rv.ptr.bind fun b => h.read (.ref b off)) = l[off]? := by
  cases hp : rv.ptr with
  | none =>
    have := (holds_none hp).mp o.1
    have : l = [] := by
      have h2 := o.2
      rw [this.1] at h2
      exact List.length_eq_zero_iff.mp (by omega)
    subst this; rfl
  | some b =>
    obtain ⟨e, hl, _⟩ := hasList_some hp o
    show h.read (.ref b off) = _
    simp only [Heap.read, Heap.slot, e]
    by_cases hlt : off < l.length
    · rw [List.getElem?_append_left (by simpa using hlt)]
      simp [List.getElem?_map, List.getElem?_eq_getElem hlt]
    · rw [List.getElem?_append_right (by simpa using hlt), List.getElem?_eq_none (l := l) (by omega)]
      rw [List.getElem?_replicate]
      split <;> (rename_i heq; split at heq <;> simp_all)

theorem readN_holds {h : Heap α} {rv : RV} {l : List α} (o : HasList h rv l) : ∀ n off,
    readN h rv.ptr off n = if n = 0 then some [] else if off + n ≤ l.length then some ((l.drop off).take n) else none
  | 0, off => by simp [readN]
  | n + 1, off => by
    rw [readN, read_holds o off, if_neg (by omega)]
    by_cases hlt : off < l.length
    · rw [List.getElem?_eq_getElem hlt]
      simp only
      rw [readN_holds o n (off + 1)]
      rw [List.drop_eq_getElem_cons hlt, List.take_succ_cons]
      by_cases hn : n = 0
      · subst hn
        rw [if_pos rfl, if_pos (by omega)]; rfl
      · rw [if_neg hn]
        by_cases hle : off + 1 + n ≤ l.length
        · rw [if_pos hle, if_pos (by omega)]; rfl
        · rw [if_neg hle, if_neg (by omega)]; rfl
    · rw [List.getElem?_eq_none (by omega)]
      rw [if_neg (by omega)]

theorem readN_dead {h : Heap α} {p : Option Nat} (hp : ∀ b, p = some b → h.blk b = none) (off n : Nat) :
    readN h p off n = if n = 0 then some [] else none := by
  cases n with
  | zero => rfl
  | succ n =>
    rw [readN, if_neg (by omega)]
    cases p with
    | none => rfl
    | some b => simp [Heap.read, Heap.slot, hp b rfl]

/-! ### The handles -/

/-- How a handle of the model is described by one of the specification. -/
structure RelRow (h : Heap α) (o : Objs) (r : Row) (sr : SRow) : Prop where
  off : r.off = sr.off
  data : match sr.holder with
    | some y => ∃ v, o.vars y = some v ∧ v.rv.ptr = r.ptr
    | none => ∀ b, r.ptr = some b → b < h.next ∧ h.blk b = none
  home : match sr.home with
    | .elem => r.desc = none
    | .of x l => (∃ v, o.vars x = some (.many v)) ∧ r.desc = some ⟨x, o.deaths x, l⟩
    | .gone => ∃ d, r.desc = some d ∧ d.life < o.deaths d.obj

def RelRows (h : Heap α) (o : Objs) (rs : Vars Row) (R : Vars SRow) : Prop :=
  ∀ k, match rs k, R k with
    | none, none => True
    | some r, some sr => RelRow h o r sr
    | _, _ => False

theorem RelV.many {h : Heap α} {v : VecN} {a : AVal α} (r : RelV h (.many v) a) : ∃ s, a = .tab s ∧ RepN h v s ∧ s.sub ≠ [] := by
  cases a with
  | list l => exact r.elim
  | tab s => exact ⟨s, rfl, r⟩

theorem flatten_length_rows {m : Nat} {rows : List (List α)} (hr : ∀ r ∈ rows, r.length = m) : rows.flatten.length = rows.length * m := by
  induction rows with
  | nil => simp
  | cons r rs ih =>
    rw [List.flatten_cons, List.length_append, ih (fun x hx => hr x (List.mem_cons_of_mem _ hx)), hr r List.mem_cons_self, List.length_cons,
      Nat.add_mul, Nat.one_mul, Nat.add_comm]

theorem RepN.totalAt {h : Heap α} {v : VecN} {s : Tab α} (r : RepN h v s) (l : Nat) : v.totalAt l = prodL (v.sizesFrom l) := by
  match l with
  | 0 =>
    show v.total = v.top * prodL v.sub
    rw [r.total, flatten_length_rows r.rows, r.top, r.sub]
  | 1 => show v.es = prodL v.sub; rw [r.es, r.sub]
  | n + 2 => rfl

/-- The total size is the product of the sizes. -/
theorem RelV.elems_length {h : Heap α} {v : Vec} {a : AVal α} (r : RelV h v a) : a.elems.length = prodL a.dims := by
  cases v with
  | one v => cases a with
    | list l => show l.length = l.length * 1; omega
    | tab s => exact r.elim
  | many v =>
    obtain ⟨s, rfl, hr, _⟩ := r.many
    show s.rows.flatten.length = s.rows.length * prodL s.sub
    exact flatten_length_rows hr.rows

/-- The sizes and the total size a handle shows. -/
theorem RelRow.shape {h : Heap α} {o : Objs} {E : Vars (AVal α)} (i : Inv h o.vars E) {r : Row} {sr : SRow} (q : RelRow h o r sr) :
    r.sizes o = sr.home.shape (ashapes E) ∧ r.total o = (sr.home.shape (ashapes E)).map prodL := by
  have hm := q.home
  cases hh : sr.home with
  | elem =>
    rw [hh] at hm
    have hm : r.desc = none := hm
    simp [Row.sizes, Row.total, hm, Home.shape, prodL]
  | of x l =>
    rw [hh] at hm
    obtain ⟨⟨v, hv⟩, hd⟩ := hm
    have hf : o.find ⟨x, o.deaths x, l⟩ = some v := by simp [Objs.find, hv]
    obtain ⟨a, hEa, ra⟩ := relO_some' (show RelO h (some (.many v)) (E x) by rw [← hv]; exact i.rel x)
    obtain ⟨s, rfl, hr, _⟩ := ra.many
    have hs : Home.shape (ashapes E) (.of x l) = some (v.sizesFrom l) := by
      simp only [Home.shape, ashapes, hEa, Option.map_some, AVal.dims, VecN.sizesFrom, hr.top, hr.sub]
    rw [hs]
    simp only [Row.sizes, Row.total, hd, hf, Option.map_some, hr.totalAt l]
    exact ⟨trivial, trivial⟩
  | gone =>
    rw [hh] at hm
    obtain ⟨d, hd, hlt⟩ := hm
    have hf : o.find d = none := by
      unfold Objs.find
      rw [if_neg (by omega)]
    simp [Row.sizes, Row.total, hd, hf, Home.shape]

/-- What a handle reads. -/
theorem RelRow.read {h : Heap α} {o : Objs} {E : Vars (AVal α)} (i : Inv h o.vars E) {r : Row} {sr : SRow} (q : RelRow h o r sr) :
    r.read o h = sr.value E := by
  obtain ⟨h1, h2⟩ := q.shape i
  unfold Row.read SRow.value
  rw [h1, h2]
  cases hs : sr.home.shape (ashapes E) with
  | none => rfl
  | some s =>
    simp only [Option.map_some]
    have hd := q.data
    cases hh : sr.holder with
    | none =>
      rw [hh] at hd
      rw [readN_dead (fun b hb => (hd b hb).2)]
      by_cases h0 : prodL s = 0
      · rw [if_pos h0, if_pos h0]; rfl
      · rw [if_neg h0, if_neg h0]; rfl
    | some y =>
      rw [hh] at hd
      obtain ⟨v, hv, hp⟩ := hd
      obtain ⟨a, hEa, ra⟩ := relO_some' (show RelO h (some v) (E y) by rw [← hv]; exact i.rel y)
      rw [← hp, q.off, readN_holds ra.flat.1]
      by_cases h0 : prodL s = 0
      · rw [if_pos h0, if_pos h0]; rfl
      · rw [if_neg h0, if_neg h0]
        show _ = match E y with
          | none => none
          | some a => if sr.off + prodL s ≤ a.elems.length then some (s, (a.elems.drop sr.off).take (prodL s)) else none
        rw [hEa]
        dsimp only
        split <;> rfl

/-! ### Statements about vectors -/

theorem t_stmt (b : Nat) (e : Vars Vec) (st : Stmt α) : T0 b (st.exec e) := by
  cases st <;> simp only [Stmt.exec]
  case make => exact T.bind (t_ctor _ _ _) (fun _ _ => T.pure trivial)
  case fill => exact T.bind (t_ctor _ _ _) (fun _ _ => T.pure trivial)
  case copy => split; exact T.bad; exact T.bind (t_copyCtor _ _) (fun _ _ => T.pure trivial)
  case move => split; exact T.bad; exact T.pure trivial
  case assign => split; exact T.bind (t_copyAssign _ _ _) (fun _ _ => T.pure trivial); exact T.bad
  case moveAssign =>
    split
    · refine T.bind (Q := fun _ => True) ?_ (fun _ _ => T.pure trivial)
      unfold Vec.moveAssign
      exact T.bind (t_destroyAll _ _) (fun _ _ => T.bind (t_rvFree _ _) (fun _ _ => T.pure trivial))
    · exact T.bad
  case swap => split; exact T.pure trivial; exact T.bad
  case reshape =>
    split
    · exact T.bad
    · refine T.bind (Q := fun _ => True) ?_ (fun _ _ => T.pure trivial)
      unfold Vec.reshape
      split
      · exact T.pure trivial
      · exact (t_ctor _ _ _).mono (fun _ _ => trivial)
  case moveReshape => split; exact T.bad; exact T.pure trivial
  case call1 => split; exact T.bind (t_exec1 _ _ _) (fun _ _ => T.pure trivial); exact T.bad
  case callN => split; exact T.bind (t_execN _ _ _) (fun _ _ => T.pure trivial); exact T.bad
  case del => split; exact T.bad; exact T.bind (t_dtor _ _) (fun _ _ => T.pure trivial)

theorem Inv.old {h : Heap α} {e : Vars Vec} {E : Vars (AVal α)} (i : Inv h e E) {y : Nat} {v : Vec} (hv : e y = some v) {b : Nat}
    (hb : v.rv.ptr = some b) : b < h.next := by
  obtain ⟨a, _, ra⟩ := relO_some' (show RelO h (some v) (E y) by rw [← hv]; exact i.rel y)
  by_cases hlt : b < h.next
  · exact hlt
  · exact absurd (i.wf b (by omega)) (ra.live hb)

theorem Inv.ptr_cap {h : Heap α} {e : Vars Vec} {E : Vars (AVal α)} (i : Inv h e E) {y : Nat} {v : Vec} (hv : e y = some v) :
    v.rv.ptr = none ↔ v.rv.cap = 0 := by
  obtain ⟨a, _, ra⟩ := relO_some' (show RelO h (some v) (E y) by rw [← hv]; exact i.rel y)
  have o := ra.flat.1
  cases hp : v.rv.ptr with
  | none => simp [((holds_none hp).mp o.1).1]
  | some b => have := (hasList_some hp o).2.2; simp; omega

/-- No other variable has the block. -/
theorem Inv.not_other {h : Heap α} {e : Vars Vec} {E : Vars (AVal α)} (i : Inv h e E) {y z : Nat} {v : Vec} (hv : e y = some v) {b : Nat}
    (hb : v.rv.ptr = some b) (hz : z ≠ y) : (rvO (e z)).ptr ≠ some b :=
  fun hh => hz (i.own z y b hh (by rw [hv]; exact hb))

/-- What a statement does to the storage of variable `y`. -/
def Kept (e' : Vars Vec) (v : Vec) : Option Nat → Prop
  | some y' => ∃ v', e' y' = some v' ∧ v'.rv = v.rv
  | none => ∀ b, v.rv.ptr = some b → ∀ x, (rvO (e' x)).ptr ≠ some b

theorem kept_same {e : Vars Vec} {x y : Nat} {v : Vec} {o : Option Vec} (hv : e y = some v) (hne : y ≠ x) : Kept (e.set x o) v (some y) :=
  ⟨v, by rw [Vars.set_other _ _ hne]; exact hv, rfl⟩

theorem capsOf_set {e : Vars Vec} {x : Nat} {w : Vec} : capsOf (e.set x (some w)) x = w.rv.cap := by
  simp [capsOf, Vars.set_same]

theorem rv_ext {a b : RV} (h1 : a.ptr = b.ptr) (h2 : a.cap = b.cap) : a = b := by
  cases a; cases b; simp_all

/-- A call of a member function. -/
theorem kept_call {h h' : Heap α} {e : Vars Vec} {E E' : Vars (AVal α)} {x y : Nat} {v w w' : Vec} (i : Inv h e E) (i' : Inv h' (e.set x (some w')) E')
    (hw : e x = some w) (hv : e y = some v) (chg : ∀ b, b < h.next → Chg b w.rv w'.rv) :
    Kept (e.set x (some w')) v (if y = x ∧ capsOf (e.set x (some w')) x ≠ capsOf e x then none else some y) := by
  by_cases hyx : y = x
  · subst hyx
    obtain rfl : w = v := Option.some.inj (hw.symm.trans hv)
    rw [capsOf_set]
    have hce : capsOf e y = w.rv.cap := by simp [capsOf, hw]
    rw [hce]
    by_cases hc : w'.rv.cap = w.rv.cap
    · rw [if_neg (fun hh => hh.2 hc)]
      refine ⟨w', Vars.set_same _ _ _, ?_⟩
      cases hp : w.rv.ptr with
      | none =>
        have h0 := (i.ptr_cap hw).mp hp
        have h1 := (i'.ptr_cap (Vars.set_same _ _ _)).mpr (hc.trans h0)
        exact rv_ext (h1.trans hp.symm) hc
      | some b =>
        rcases chg b (i.old hw hp) with hh | ⟨hh, _⟩
        · exact hh
        · exact absurd hc hh
    · rw [if_pos ⟨rfl, hc⟩]
      intro b hb z
      by_cases hz : z = y
      · subst hz
        rw [Vars.set_same]
        rcases chg b (i.old hw hb) with hh | ⟨_, hh⟩
        · exact absurd (by rw [hh]) hc
        · exact hh
      · rw [Vars.set_other _ _ hz]
        exact i.not_other hw hb hz
  · rw [if_neg (fun hh => hyx hh.1)]
    exact kept_same hv hyx

theorem kept_stmt {h h' : Heap α} {e e' : Vars Vec} {E E' : Vars (AVal α)} {st : Stmt α} {out : Out} (i : Inv h e E) (i' : Inv h' e' E')
    (hx : st.exec e h = some ((out, e'), h')) (hval : st.valid (ashapes E) = true) {y : Nat} {v : Vec} (hv : e y = some v) :
    Kept e' v (st.holds (capsOf e) (capsOf e') out y) := by
  -- a new variable is not one of the old ones
  have absent : ∀ {x : Nat}, (ashapes E x).isNone = true → y ≠ x := fun hn hh => by
    have := (i.absent hn).1
    rw [← hh, hv] at this; cases this
  cases st with
  | make x dims l =>
    simp only [Stmt.exec] at hx
    obtain ⟨r, h1, _, e2⟩ := bind_inv hx
    cases e2
    exact kept_same hv (absent (and_split (and_split hval).1).1)
  | fill x dims a =>
    simp only [Stmt.exec] at hx
    obtain ⟨r, h1, _, e2⟩ := bind_inv hx
    cases e2
    exact kept_same hv (absent (and_split hval).1)
  | copy x z =>
    obtain ⟨w, hw⟩ : ∃ w, e z = some w := by
      cases hw : e z with
      | none => simp only [Stmt.exec, hw] at hx; cases hx
      | some w => exact ⟨w, rfl⟩
    simp only [Stmt.exec, hw] at hx
    obtain ⟨r, h1, _, e2⟩ := bind_inv hx
    cases e2
    exact kept_same hv (absent (and_split hval).1)
  | move x z =>
    have hyx := absent (and_split hval).1
    obtain ⟨w, hw⟩ : ∃ w, e z = some w := by
      cases hw : e z with
      | none => simp only [Stmt.exec, hw] at hx; cases hx
      | some w => exact ⟨w, rfl⟩
    simp only [Stmt.exec, hw] at hx
    cases hx
    show Kept _ _ (if y = z then some x else some y)
    have hxz : x ≠ z := fun hh => by
      have := (i.absent (and_split hval).1).1
      rw [hh, hw] at this; cases this
    split
    · rename_i hyz
      subst hyz
      obtain rfl := Option.some.inj (hw.symm.trans hv)
      refine ⟨w, ?_, rfl⟩
      rw [Vars.set_other _ _ hxz, Vars.set_same]; rfl
    · rename_i hyz
      exact ⟨v, by rw [Vars.set_other _ _ hyz, Vars.set_other _ _ hyx]; exact hv, rfl⟩
  | assign x z =>
    obtain ⟨w, u, hw, hu⟩ : ∃ w u, e x = some w ∧ e z = some u := by
      cases hw : e x with
      | none => simp only [Stmt.exec, hw] at hx; cases hx
      | some w => cases hu : e z with
        | none => simp only [Stmt.exec, hw, hu] at hx; cases hx
        | some u => exact ⟨w, u, rfl, rfl⟩
    simp only [Stmt.exec, hw, hu] at hx
    obtain ⟨r, h1, e1, e2⟩ := bind_inv hx
    cases e2
    show Kept _ _ (if y = x ∧ r.1 = .ok then none else some y)
    by_cases hyx : y = x
    · subst hyx
      obtain rfl := Option.some.inj (hw.symm.trans hv)
      by_cases ho : r.1 = .ok
      · rw [if_pos ⟨rfl, ho⟩]
        intro b hb q
        by_cases hq : q = y
        · subst hq
          rw [Vars.set_same]
          rcases (t_copyAssign b w u h r _ e1 (i.old hw hb)).2.2 with hh | hh
          · exact absurd ho hh.1
          · exact hh.2
        · rw [Vars.set_other _ _ hq]
          exact i.not_other hw hb hq
      · rw [if_neg (fun hh => ho hh.2)]
        refine ⟨r.2, Vars.set_same _ _ _, ?_⟩
        unfold Vec.copyAssign at e1
        obtain ⟨c, h2, _, e3⟩ := bind_inv e1
        cases hc : c.2 with
        | none => rw [hc] at e3; cases e3; rfl
        | some t =>
          rw [hc] at e3
          obtain ⟨_, h3, _, e4⟩ := bind_inv e3
          cases e4
          exact absurd rfl ho
    · rw [if_neg (fun hh => hyx hh.1)]
      exact kept_same hv hyx
  | moveAssign x z =>
    have hxz := of_decide_eq_true (and_split hval).1
    obtain ⟨w, u, hw, hu⟩ : ∃ w u, e x = some w ∧ e z = some u := by
      cases hw : e x with
      | none => simp only [Stmt.exec, hw] at hx; cases hx
      | some w => cases hu : e z with
        | none => simp only [Stmt.exec, hw, hu] at hx; cases hx
        | some u => exact ⟨w, u, rfl, rfl⟩
    simp only [Stmt.exec, hw, hu] at hx
    obtain ⟨r, h1, e1, e2⟩ := bind_inv hx
    unfold Vec.moveAssign at e1
    obtain ⟨_, h2, _, e3⟩ := bind_inv e1
    obtain ⟨_, h4, _, e5⟩ := bind_inv e3
    cases e5
    cases e2
    show Kept _ _ (if y = x then none else if y = z then some x else some y)
    by_cases hyx : y = x
    · subst hyx
      rw [if_pos rfl]
      obtain rfl := Option.some.inj (hw.symm.trans hv)
      intro b hb q
      by_cases hq : q = z
      · subst hq
        rw [Vars.set_same]
        show (Vec.tidy u).rv.ptr ≠ some b
        rw [tidy_rv]; simp [RV.null]
      · rw [Vars.set_other _ _ hq]
        by_cases hq' : q = y
        · subst hq'
          rw [Vars.set_same]
          have := i.not_other hw hb (Ne.symm hxz)
          rw [hu] at this; exact this
        · rw [Vars.set_other _ _ hq']
          exact i.not_other hw hb hq'
    · rw [if_neg hyx]
      by_cases hyz : y = z
      · subst hyz
        rw [if_pos rfl]
        obtain rfl := Option.some.inj (hu.symm.trans hv)
        exact ⟨u, by rw [Vars.set_other _ _ hxz, Vars.set_same]; rfl, rfl⟩
      · rw [if_neg hyz]
        exact ⟨v, by rw [Vars.set_other _ _ hyz, Vars.set_other _ _ hyx]; exact hv, rfl⟩
  | swap x z =>
    have hxz := of_decide_eq_true (and_split hval).1
    obtain ⟨w, u, hw, hu⟩ : ∃ w u, e x = some w ∧ e z = some u := by
      cases hw : e x with
      | none => simp only [Stmt.exec, hw] at hx; cases hx
      | some w => cases hu : e z with
        | none => simp only [Stmt.exec, hw, hu] at hx; cases hx
        | some u => exact ⟨w, u, rfl, rfl⟩
    simp only [Stmt.exec, hw, hu] at hx
    cases hx
    show Kept _ _ (if y = x then some z else if y = z then some x else some y)
    by_cases hyx : y = x
    · subst hyx
      rw [if_pos rfl]
      obtain rfl := Option.some.inj (hw.symm.trans hv)
      exact ⟨w, by rw [Vars.set_same]; rfl, rfl⟩
    · rw [if_neg hyx]
      by_cases hyz : y = z
      · subst hyz
        rw [if_pos rfl]
        obtain rfl := Option.some.inj (hu.symm.trans hv)
        exact ⟨u, by rw [Vars.set_other _ _ hxz, Vars.set_same]; rfl, rfl⟩
      · rw [if_neg hyz]
        exact ⟨v, by rw [Vars.set_other _ _ hyz, Vars.set_other _ _ hyx]; exact hv, rfl⟩
  | reshape x dims z =>
    obtain ⟨w, hw⟩ : ∃ w, e z = some w := by
      cases hw : e z with
      | none => simp only [Stmt.exec, hw] at hx; cases hx
      | some w => exact ⟨w, rfl⟩
    simp only [Stmt.exec, hw] at hx
    obtain ⟨r, h1, _, e2⟩ := bind_inv hx
    cases e2
    exact kept_same hv (absent (and_split (and_split hval).1).1)
  | moveReshape x dims z =>
    have hn := (and_split (and_split hval).1).1
    have hyx := absent hn
    obtain ⟨w, hw⟩ : ∃ w, e z = some w := by
      cases hw : e z with
      | none => simp only [Stmt.exec, hw] at hx; cases hx
      | some w => exact ⟨w, rfl⟩
    simp only [Stmt.exec, hw] at hx
    cases hx
    have hxz : x ≠ z := fun hh => by
      have := (i.absent hn).1
      rw [hh, hw] at this; cases this
    show Kept _ _ (if y = z ∧ (w.moveReshape dims).1 = .ok then some x else some y)
    by_cases hyz : y = z
    · subst hyz
      obtain rfl := Option.some.inj (hw.symm.trans hv)
      unfold Vec.moveReshape
      by_cases hp : prodL dims ≠ w.total
      · rw [if_pos hp]
        rw [if_neg (by simp)]
        exact ⟨w, by rw [Vars.set_same], rfl⟩
      · rw [if_neg hp, if_pos ⟨rfl, rfl⟩]
        exact ⟨Vec.shaped w.rv dims, by rw [Vars.set_other _ _ hxz, Vars.set_same], by rw [shaped_rv]⟩
    · rw [if_neg (fun hh => hyz hh.1)]
      exact ⟨v, by rw [Vars.set_other _ _ hyz, Vars.set_other _ _ hyx]; exact hv, rfl⟩
  | call1 x op =>
    obtain ⟨w, hw⟩ : ∃ w, e x = some (.one w) := by
      cases hw : e x with
      | none => simp only [Stmt.exec, hw] at hx; cases hx
      | some w => cases w with
        | many w => simp only [Stmt.exec, hw] at hx; cases hx
        | one w => exact ⟨w, rfl⟩
    simp only [Stmt.exec, hw] at hx
    obtain ⟨r, h1, e1, e2⟩ := bind_inv hx
    cases e2
    exact kept_call i i' hw hv (fun b hb => (t_exec1 b w op h r _ e1 hb).2.2)
  | callN x op =>
    obtain ⟨w, hw⟩ : ∃ w, e x = some (.many w) := by
      cases hw : e x with
      | none => simp only [Stmt.exec, hw] at hx; cases hx
      | some w => cases w with
        | one w => simp only [Stmt.exec, hw] at hx; cases hx
        | many w => exact ⟨w, rfl⟩
    simp only [Stmt.exec, hw] at hx
    obtain ⟨r, h1, e1, e2⟩ := bind_inv hx
    cases e2
    exact kept_call i i' hw hv (fun b hb => (t_execN b w op h r _ e1 hb).2.2)
  | del x =>
    obtain ⟨w, hw⟩ : ∃ w, e x = some w := by
      cases hw : e x with
      | none => simp only [Stmt.exec, hw] at hx; cases hx
      | some w => exact ⟨w, rfl⟩
    simp only [Stmt.exec, hw] at hx
    obtain ⟨r, h1, e1, e2⟩ := bind_inv hx
    cases e2
    show Kept _ _ (if y = x then none else some y)
    split
    · rename_i hyx
      subst hyx
      obtain rfl := Option.some.inj (hw.symm.trans hv)
      intro b hb q
      by_cases hq : q = y
      · subst hq
        rw [Vars.set_same]; simp [rvO, RV.null]
      · rw [Vars.set_other _ _ hq]
        exact i.not_other hw hb hq
    · rename_i hyx
      exact kept_same hv hyx

end Verif.VectorNd
