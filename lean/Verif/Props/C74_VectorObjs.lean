import Verif.Lemmas.VectorObjs
import Verif.Props.C19_VectorNd

/-!
# C74: whole vectors are values

Programs with any number of vector variables: creating, copying, moving, assigning, swapping, reshaping, calling members, destroying.
The specification is in `Props/C74_VectorObjsSpec.lean`.
-/
set_option autoImplicit false

namespace Verif.VectorNd
variable {α : Type}

/-- One statement, from any state in which the variables hold values and own their blocks. -/
theorem stmt_post {h : Heap α} {e : Vars Vec} {E : Vars (AVal α)} (i : Inv h e E) (st : Stmt α) (hv : st.valid (ashapes E) = true)
    (hA : (∀ t, h.failA t = false) ∨ st.inserts = false) :
    ∃ out e' h', st.exec e h = some ((out, e'), h') ∧ StmtPost h e E st out e' h' := by
  cases st with
  | make x dims l =>
    obtain ⟨hv, hd⟩ := and_split hv
    obtain ⟨hx, hs⟩ := and_split hv
    obtain ⟨hex, hEx⟩ := i.absent hx
    by_cases hl : prodL dims = l.length
    · obtain ⟨out, o, h', em, made⟩ := ctor_made i.wf (ss := l.map Src.val) hs (Reads.vals l) hl
      exact create_post (st := .make x dims l) i hex (a := AVal.ofElems dims l) (by simp only [Stmt.spec, if_pos hl]) (show E = E from rfl) em made
    · have h2 : 2 ≤ dims.length := by
        rcases (Bool.or_eq_true _ _).mp hd with hd | hd
        · exact of_decide_eq_true hd
        · have := of_decide_eq_true hd
          exact absurd (by rw [this]; simp [prodL]) hl
      have em := ctor_refuses h (ss := l.map Src.val) h2 (by simpa using hl)
      refine ⟨.argumentError, e.set x none, h, by simp only [Stmt.exec]; rw [bind_some em]; rfl, ?_⟩
      rw [Vars.set_self e hex]
      exact idle_post i (by simp) (by simp only [Stmt.spec, if_neg hl])
  | fill x dims a =>
    obtain ⟨hx, hs⟩ := and_split hv
    obtain ⟨hex, hEx⟩ := i.absent hx
    obtain ⟨out, o, h', em, made⟩ := ctor_made i.wf (ss := List.replicate (prodL dims) (Src.val a)) hs (Reads.replicate (a := a) rfl _) (by simp)
    exact create_post (st := .fill x dims a) i hex rfl (show E = E from rfl) em made
  | copy x y =>
    obtain ⟨hx, hy⟩ := and_split hv
    obtain ⟨hex, hEx⟩ := i.absent hx
    cases hd : ashapes E y with
    | none => rw [hd] at hy; cases hy
    | some d =>
      rw [hd] at hy
      obtain ⟨v, a, hev, hEa, r, hda⟩ := i.present hd
      obtain ⟨out, o, h', em, made⟩ := copy_made r (by rw [hda]; exact hy)
      simp only [Stmt.exec, hev]
      exact create_post (st := .copy x y) i hex (by simp only [Stmt.spec, hEa]) (show E = E from rfl) em made
  | move x y =>
    obtain ⟨hx, hy⟩ := and_split hv
    obtain ⟨hex, hEx⟩ := i.absent hx
    obtain ⟨v, a, hev, hEa, r⟩ := i.present' hy
    have hxy : x ≠ y := fun hh => by rw [hh, hEa] at hEx; cases hEx
    have i' := i.take hxy (by rw [hex]; rfl) hev rfl r r
    refine ⟨.ok, _, h, by simp only [Stmt.exec, hev]; rfl, rfl, rfl, fun _ => ?_, fun hh => by cases hh⟩
    simp only [Stmt.spec, hEa, Option.map_some]
    exact ⟨trivial, i'⟩
  | assign x y =>
    obtain ⟨hxy, hv⟩ := and_split hv
    cases hdx : ashapes E x with
    | none => rw [hdx] at hv; cases hv
    | some d =>
      cases hdy : ashapes E y with
      | none => rw [hdx, hdy] at hv; cases hv
      | some d' =>
        rw [hdx, hdy] at hv
        obtain ⟨hs, hlen⟩ := and_split hv
        obtain ⟨v, a, hev, hEa, r, hda⟩ := i.present hdx
        obtain ⟨w, b, hew, hEb, r', hdb⟩ := i.present hdy
        obtain ⟨out, o, h1, em, made⟩ := copy_made r' (by rw [hdb]; exact hs)
        have hvl : ∀ p, v.rv.ptr = some p → h1.blk p = h.blk p := fun p hp =>
          made.ev.frame p (by simp [RV.null]) (fun hh => r.live hp (made.ev.fresh p hh (by simp [RV.null])))
        have r1 : RelV h1 v a := relV_congr made.ev.wf hvl r
        rcases made.res with ⟨rfl, t, rfl, rt⟩ | ⟨rfl, rfl, hc⟩
        · obtain ⟨h2, e2, ev2⟩ := dtorV r1
          have ev : Evolves h v.rv h2 t.rv := made.ev.replace ev2
          have rt' : RelV h2 t b := relV_congr ev2.wf (fun p hp => ev2.frame p
            (fun hh => r.live hh (made.ev.fresh p hp (by simp [RV.null]))) (by simp [RV.null])) rt
          refine ⟨.ok, e.set x (some t), h2, ?_, ev.failC, ev.failA, fun _ => ?_, fun hh => by cases hh⟩
          · have : v.copyAssign w h = some ((.ok, t), h2) := by
              rw [Vec.copyAssign, bind_some em]; simp only [Vec.swap]; rw [bind_some e2]; rfl
            simp only [Stmt.exec, hev, hew]; rw [bind_some this]; rfl
          · simp only [Stmt.spec, hEb]
            exact ⟨trivial, i.update (o := some t) (a := some b) (by rw [hev]; exact ev) rt'⟩
        · refine ⟨.threw, e.set x (some v), h1, ?_, made.ev.failC, made.ev.failA, fun hh => absurd rfl hh, fun _ => ⟨hc, E, rfl, ?_⟩⟩
          · have : v.copyAssign w h = some ((.threw, v), h1) := by
              rw [Vec.copyAssign, bind_some em]; rfl
            simp only [Stmt.exec, hev, hew]; rw [bind_some this]; rfl
          · have ev : Evolves h v.rv h1 v.rv := ⟨made.ev.wf, fun p hp _ => made.ev.frame p (by simp [RV.null]) (by simp [rvO, RV.null]),
              fun p hp hn => absurd hp hn, fun p hp hn => absurd hp hn, made.ev.failC, made.ev.failA⟩
            have := i.update (x := x) (o := some v) (a := some a) (by rw [hev]; exact ev) r1
            rwa [Vars.set_self E hEa] at this
  | moveAssign x y =>
    obtain ⟨hxy, hv⟩ := and_split hv
    have hxy := of_decide_eq_true hxy
    cases hdx : ashapes E x with
    | none => rw [hdx] at hv; cases hv
    | some d =>
      cases hdy : ashapes E y with
      | none => rw [hdx, hdy] at hv; cases hv
      | some d' =>
        obtain ⟨v, a, hev, hEa, r, hda⟩ := i.present hdx
        obtain ⟨w, b, hew, hEb, r', hdb⟩ := i.present hdy
        obtain ⟨h1, e1, ev1⟩ := dtorV r
        have e1' : (v.destroyAll >>= fun _ => rvFree v.rv) h = some ((), h1) := by
          cases v <;> exact e1
        -- as if `x` had gone out of scope first
        have i1 := i.update (x := x) (o := none) (a := none) (by rw [hev]; exact ev1) trivial
        have hwy : (e.set x none) y = some w := by rw [Vars.set_other _ _ (Ne.symm hxy)]; exact hew
        have r'' : RelV h1 w b := by
          have := i1.rel y
          rw [hwy, Vars.set_other _ _ (Ne.symm hxy), hEb] at this; exact this
        have i2 := i1.take hxy (by rw [Vars.set_same]; rfl) hwy rfl r'' r''
        rw [Vars.set_set, Vars.set_set] at i2
        refine ⟨.ok, (e.set x (some w)).set y (some w.tidy), h1, ?_, ev1.failC, ev1.failA, fun _ => ?_, fun hh => by cases hh⟩
        · have : v.moveAssign w h = some (w.moveCtor, h1) := by
            show M.bind _ _ h = _
            have e1'' : M.bind v.destroyAll (fun _ => rvFree v.rv) h = some ((), h1) := e1'
            simp only [M.bind] at e1'' ⊢
            cases hd : (v.destroyAll : M α Unit) h with
            | none => rw [hd] at e1''; cases e1''
            | some q =>
              rw [hd] at e1''
              simp only at e1'' ⊢
              show M.bind _ _ _ = _
              simp only [M.bind, e1'']; rfl
          simp only [Stmt.exec, hev, hew]; rw [bind_some this]; rfl
        · simp only [Stmt.spec, hEb, Option.map_some]
          exact ⟨trivial, i2⟩
  | swap x y =>
    obtain ⟨hxy, hv⟩ := and_split hv
    have hxy := of_decide_eq_true hxy
    cases hdx : ashapes E x with
    | none => rw [hdx] at hv; cases hv
    | some d =>
      cases hdy : ashapes E y with
      | none => rw [hdx, hdy] at hv; cases hv
      | some d' =>
        obtain ⟨v, a, hev, hEa, r, hda⟩ := i.present hdx
        obtain ⟨w, b, hew, hEb, r', hdb⟩ := i.present hdy
        have i' := i.two hxy (o1 := some w) (o2 := some v) (a1 := some b) (a2 := some a) (by rw [hew]) (by rw [hev]) r' r
        refine ⟨.ok, _, h, by simp only [Stmt.exec, hev, hew]; rfl, rfl, rfl, fun _ => ?_, fun hh => by cases hh⟩
        simp only [Stmt.spec, hEa, hEb]
        exact ⟨trivial, i'⟩
  | reshape x dims y =>
    obtain ⟨hv, hs⟩ := and_split hv
    obtain ⟨hx, hy⟩ := and_split hv
    obtain ⟨hex, hEx⟩ := i.absent hx
    obtain ⟨v, a, hev, hEa, r⟩ := i.present' hy
    have hf := r.flat
    simp only [Stmt.exec, hev]
    by_cases hl : prodL dims = a.elems.length
    · obtain ⟨out, o, h', em, made⟩ := ctor_made i.wf hs (rvRefs_reads hf.1 hf.2.1) hl
      have em' : v.reshape dims h = some ((out, o), h') := by rw [Vec.reshape, if_neg (by rw [hf.2.1]; simpa using hl)]; exact em
      exact create_post (st := .reshape x dims y) i hex (by simp only [Stmt.spec, hEa, if_pos hl]) (show E = E from rfl) em' made
    · have em : v.reshape dims h = some ((.argumentError, none), h) := by rw [Vec.reshape, if_pos (by rw [hf.2.1]; exact hl)]; rfl
      refine ⟨.argumentError, e.set x none, h, by rw [bind_some em]; rfl, ?_⟩
      rw [Vars.set_self e hex]
      exact idle_post i (by simp) (by simp only [Stmt.spec, hEa, if_neg hl])
  | moveReshape x dims y =>
    obtain ⟨hv, hd⟩ := and_split hv
    obtain ⟨hx, hy⟩ := and_split hv
    obtain ⟨hex, hEx⟩ := i.absent hx
    obtain ⟨v, a, hev, hEa, r⟩ := i.present' hy
    have hf := r.flat
    have hxy : x ≠ y := fun hh => by rw [hh, hEa] at hEx; cases hEx
    have hd' : dims ≠ [] := by intro hh; subst hh; cases hd
    by_cases hl : prodL dims = a.elems.length
    · have i' := i.take hxy (by rw [hex]; rfl) hev (shaped_rv v.rv dims) (shaped_rel hf.2.2.2.1 hf.1 hd' hl) r
      have em : v.moveReshape dims = (.ok, some (Vec.shaped v.rv dims), v.tidy) := by rw [Vec.moveReshape, if_neg (by rw [hf.2.1]; simpa using hl)]
      refine ⟨.ok, _, h, by simp only [Stmt.exec, hev, em]; rfl, rfl, rfl, fun _ => ?_, fun hh => by cases hh⟩
      simp only [Stmt.spec, hEa, if_pos hl]
      exact ⟨trivial, i'⟩
    · have em : v.moveReshape dims = (.argumentError, none, v) := by rw [Vec.moveReshape, if_pos (by rw [hf.2.1]; exact hl)]
      refine ⟨.argumentError, _, h, by simp only [Stmt.exec, hev, em]; rfl, ?_⟩
      rw [Vars.set_self e hex, Vars.set_self e hev]
      exact idle_post i (by simp) (by simp only [Stmt.spec, hEa, if_neg hl])
  | call1 x op =>
    cases hdx : ashapes E x with
    | none => simp [Stmt.valid, hdx] at hv
    | some d =>
      obtain ⟨v, a, hev, hEa, r, hda⟩ := i.present hdx
      match d, hdx, hda with
      | [], hdx, hda => simp [Stmt.valid, hdx] at hv
      | n :: k :: sub, hdx, hda => simp [Stmt.valid, hdx] at hv
      | [n], hdx, hda =>
        have hv : valid1 n op = true := by simpa [Stmt.valid, hdx] using hv
        cases a with
        | tab s =>
          cases v with
          | one v => exact r.elim
          | many v => exact absurd (List.cons.inj hda).2 r.2
        | list l =>
          cases v with
          | many v => exact r.elim
          | one v =>
            have hn : v.size = n := r.2.2.trans (List.cons.inj hda).1
            obtain ⟨out, v', h', em, post⟩ := exec1_spec r (op := op) (by rw [hn]; exact hv)
            have ev : Evolves h (rvO (e x)) h' (rvO (some (.one v'))) := by rw [hev]; exact post.ev
            refine ⟨out, e.set x (some (.one v')), h', by simp only [Stmt.exec, hev]; rw [bind_some em]; rfl, post.ev.failC, post.ev.failA, fun ht => ?_, fun ht => ?_⟩
            · obtain ⟨ho, r'⟩ := post.good ht
              simp only [Stmt.spec, hEa]
              exact ⟨ho, i.update (a := some (.list (spec1 l op).2)) ev r'⟩
            · obtain ⟨hc, hh | ⟨⟨p, as, rfl⟩, t, ht⟩⟩ := post.fail ht
              · obtain ⟨l', r', hl'⟩ := hh
                exact ⟨hc, _, ⟨l, l', hEa, hl', rfl⟩, i.update (a := some (.list l')) ev r'⟩
              · rcases hA with q | q
                · rw [q t] at ht; cases ht
                · exact absurd q (by simp [Stmt.inserts, Op1.inserts])
  | callN x op =>
    cases hdx : ashapes E x with
    | none => simp [Stmt.valid, hdx] at hv
    | some d =>
      obtain ⟨v, a, hev, hEa, r, hda⟩ := i.present hdx
      match d, hdx, hda with
      | [], hdx, hda => simp [Stmt.valid, hdx] at hv
      | [n], hdx, hda => simp [Stmt.valid, hdx] at hv
      | n :: k :: sub, hdx, hda =>
        have hv : validN n (k :: sub) op = true ∧ op.ranked (sub.length + 1) = true := by simpa [Stmt.valid, hdx] using hv
        cases a with
        | list l => exact absurd (List.cons.inj hda).2 (by simp)
        | tab s =>
          cases v with
          | one v => exact r.elim
          | many v =>
            have hn : v.top = n := r.1.top.trans (List.cons.inj hda).1
            have hsub : s.sub = k :: sub := (List.cons.inj hda).2
            have hrk : op.ranked s.sub.length = true := by rw [hsub]; exact hv.2
            obtain ⟨out, v', h', em, post⟩ := execN_spec r.1 (op := op) (by rw [hn, r.1.sub, hsub]; exact hv.1)
            have ev : Evolves h (rvO (e x)) h' (rvO (some (.many v'))) := by rw [hev]; exact post.ev
            refine ⟨out, e.set x (some (.many v')), h', by simp only [Stmt.exec, hev]; rw [bind_some em]; rfl, post.ev.failC, post.ev.failA, fun ht => ?_, fun ht => ?_⟩
            · obtain ⟨ho, r'⟩ := post.good ht
              simp only [Stmt.spec, hEa]
              exact ⟨ho, i.update (a := some (.tab (specN s op).2)) ev ⟨r', specN_rank r.2 hrk⟩⟩
            · obtain ⟨hc, hh | ⟨hh, t, ht⟩⟩ := post.fail ht
              · obtain ⟨s', r', hl'⟩ := hh
                exact ⟨hc, _, ⟨s, s', hEa, hl', rfl⟩, i.update (a := some (.tab s')) ev ⟨r', leftN_rank r.2 hrk hl'⟩⟩
              · rcases hA with q | q
                · rw [q t] at ht; cases ht
                · rcases hh with ⟨p, c, sh, rr, rfl⟩ | ⟨p, sh, rs, rfl⟩ <;> exact absurd q (by simp [Stmt.inserts, OpN.inserts])
  | del x =>
    obtain ⟨v, a, hev, hEa, r⟩ := i.present' hv
    obtain ⟨h1, e1, ev1⟩ := dtorV r
    refine ⟨.ok, e.set x none, h1, by simp only [Stmt.exec, hev]; rw [bind_some e1]; rfl, ev1.failC, ev1.failA, fun _ => ⟨rfl, ?_⟩, fun hh => by cases hh⟩
    exact i.update (o := none) (a := none) (by rw [hev]; exact ev1) trivial

theorem runS_quiet : ∀ (sts : List (Stmt α)) {h : Heap α} {e : Vars Vec} {E : Vars (AVal α)}, Inv h e E → Quiet h →
    ∃ e' h', runS e sts h = some (((specRunS E sts).1, e'), h') ∧ Inv h' e' (specRunS E sts).2
  | [], h, e, E, i, _ => ⟨e, h, rfl, i⟩
  | st :: sts, h, e, E, i, q => by
    simp only [runS, specRunS, i.shapes_eq]
    cases hv : st.valid (ashapes E) with
    | false => simp only [Bool.false_eq_true, if_false]; exact runS_quiet sts i q
    | true =>
      simp only [if_true]
      obtain ⟨out, e1, h1, e1', post⟩ := stmt_post i st hv (Or.inl q.2)
      have hne : out ≠ .threw := fun hh => q.not (post.fail hh).1
      obtain ⟨ho, i1⟩ := post.good hne
      obtain ⟨e2, h2, e2', i2⟩ := runS_quiet sts i1 (by rw [Quiet, post.failC, post.failA]; exact q)
      refine ⟨e2, h2, ?_, i2⟩
      rw [bind_some e1']; simp only; rw [bind_some e2', ho]; rfl

theorem runS_safe : ∀ (sts : List (Stmt α)) {h : Heap α} {e : Vars Vec} {E : Vars (AVal α)}, Inv h e E →
    ((∀ t, h.failA t = false) ∨ ∀ st ∈ sts, st.inserts = false) →
    ∃ outs e' h' E', runS e sts h = some ((outs, e'), h') ∧ Inv h' e' E' ∧ MayRun E sts outs E'
  | [], h, e, E, i, _ => ⟨[], e, h, E, rfl, i, .nil E⟩
  | st :: sts, h, e, E, i, q => by
    have q' := q.imp_right (fun q x hx => q x (List.mem_cons_of_mem _ hx))
    simp only [runS, i.shapes_eq]
    cases hv : st.valid (ashapes E) with
    | false =>
      simp only [Bool.false_eq_true, if_false]
      obtain ⟨outs, e', h', E', h1, h2, h3⟩ := runS_safe sts i q'
      exact ⟨outs, e', h', E', h1, h2, .skip _ _ _ _ _ hv h3⟩
    | true =>
      simp only [if_true]
      obtain ⟨out, e1, h1, e1', post⟩ := stmt_post i st hv (q.imp_right (fun q => q st List.mem_cons_self))
      have q1 : (∀ t, h1.failA t = false) ∨ ∀ st ∈ sts, st.inserts = false := by rw [post.failA]; exact q'
      by_cases ht : out = .threw
      · obtain ⟨_, E1, hl, i1⟩ := post.fail ht
        obtain ⟨outs, e2, h2, E2, e2', i2, m2⟩ := runS_safe sts i1 q1
        refine ⟨out :: outs, e2, h2, E2, ?_, i2, by rw [ht]; exact .threw _ _ _ _ _ _ hv hl m2⟩
        rw [bind_some e1']; simp only; rw [bind_some e2']; rfl
      · obtain ⟨ho, i1⟩ := post.good ht
        obtain ⟨outs, e2, h2, E2, e2', i2, m2⟩ := runS_safe sts i1 q1
        refine ⟨out :: outs, e2, h2, E2, ?_, i2, by rw [ho]; exact .good _ _ _ _ _ hv m2⟩
        rw [bind_some e1']; simp only; rw [bind_some e2']; rfl

theorem viewV_eq {h : Heap α} {v : Vec} {a : AVal α} (r : RelV h v a) : viewV h v = (a.dims, a.elems.map some) := by
  obtain ⟨o, ht, hd, w, _⟩ := r.flat
  have := view1_eq (h := h) (v := ⟨v.rv, v.total⟩) ⟨w, o, ht⟩
  rw [viewV, hd]; exact congrArg _ this

/-- What the variables show. -/
theorem Inv.views {h : Heap α} {e : Vars Vec} {E : Vars (AVal α)} (i : Inv h e E) (x : Nat) :
    (e x).map (viewV h) = (E x).map fun a => (a.dims, a.elems.map some) := by
  have := i.rel x
  cases he : e x with
  | none => cases hE : E x with
    | none => rfl
    | some a => rw [he, hE] at this; exact this.elim
  | some v => cases hE : E x with
    | none => rw [he, hE] at this; exact this.elim
    | some a => rw [he, hE] at this; exact congrArg some (viewV_eq this)

/-- **C74, no exceptions from outside.** Any program over any number of vectors runs without undefined behaviour, with the outcomes of
the program on values, and at its end each variable shows the sizes and elements of its value. -/
theorem C74_values_partial (sts : List (Stmt α)) :
    ∃ e h, runS Vars.none sts (Heap.empty never never) = some (((specRunS Vars.none sts).1, e), h) ∧
      ∀ x, (e x).map (viewV h) = ((specRunS (Vars.none : Vars (AVal α)) sts).2 x).map fun a => (a.dims, a.elems.map some) := by
  obtain ⟨e, h, he, i⟩ := runS_quiet sts (Inv.init never never) quiet_empty
  exact ⟨e, h, he, i.views⟩

/-- **C74, exceptions.** Whichever copies throw (and whichever allocations throw if nothing is inserted): the program runs without
undefined behaviour; every statement has its effect on the values, or throws. A constructor, an assignment or a reshape that throws
changes nothing. -/
theorem C74_exceptions_partial (failC failA : Nat → Bool) (sts : List (Stmt α))
    (hA : (∀ t, failA t = false) ∨ ∀ st ∈ sts, st.inserts = false) :
    ∃ outs e h E', runS Vars.none sts (Heap.empty failC failA) = some ((outs, e), h) ∧ MayRun (Vars.none : Vars (AVal α)) sts outs E' ∧
      ∀ x, (e x).map (viewV h) = (E' x).map fun a => (a.dims, a.elems.map some) := by
  obtain ⟨outs, e, h, E', he, i, m⟩ := runS_safe sts (Inv.init failC failA) hA
  exact ⟨outs, e, h, E', he, m, i.views⟩

/-- **C74, memory.** When no variable is left, no block is left: every element was destroyed and every block freed, exactly once. While
variables exist, every block is owned by exactly one of them. -/
theorem C74_memory (failC failA : Nat → Bool) (sts : List (Stmt α)) (hA : (∀ t, failA t = false) ∨ ∀ st ∈ sts, st.inserts = false) :
    ∃ outs e h, runS Vars.none sts (Heap.empty failC failA : Heap α) = some ((outs, e), h) ∧
      (∀ b, h.blk b ≠ none → ∃ x v, e x = some v ∧ v.rv.ptr = some b ∧ ∀ y w, e y = some w → w.rv.ptr = some b → y = x) ∧
      ((∀ x, e x = none) → ∀ b, h.blk b = none) := by
  obtain ⟨outs, e, h, E', he, i, m⟩ := runS_safe sts (Inv.init failC failA) hA
  have key : ∀ b, h.blk b ≠ none → ∃ x v, e x = some v ∧ v.rv.ptr = some b ∧ ∀ y w, e y = some w → w.rv.ptr = some b → y = x := by
    intro b hb
    obtain ⟨x, hx⟩ := i.cover b hb
    cases hex : e x with
    | none => rw [hex] at hx; simp [rvO, RV.null] at hx
    | some v =>
      refine ⟨x, v, hex, by rw [hex] at hx; exact hx, fun y w hy hw => i.own y x b (by rw [hy]; exact hw) hx⟩
  refine ⟨outs, e, h, he, key, fun hn b => ?_⟩
  cases hb : h.blk b with
  | none => rfl
  | some c =>
    obtain ⟨x, v, hx, _⟩ := key b (by rw [hb]; simp)
    rw [hn x] at hx; cases hx

/-- **C74, moving costs nothing.** Moving, swapping and move-reshaping neither allocate nor copy elements, and never throw. -/
theorem C74_no_copies (e : Vars Vec) (st : Stmt α) (h : Heap α)
    (hk : (∃ x y, st = .move x y) ∨ (∃ x y, st = .swap x y) ∨ ∃ x d y, st = .moveReshape x d y) :
    ∀ r h', st.exec e h = some (r, h') → h' = h ∧ r.1 ≠ .threw := by
  intro r h' he
  rcases hk with ⟨x, y, rfl⟩ | ⟨x, y, rfl⟩ | ⟨x, d, y, rfl⟩
  · simp only [Stmt.exec] at he
    cases hy : e y with
    | none => rw [hy] at he; cases he
    | some v =>
      rw [hy] at he; simp only [pure_run, Option.some.injEq, Prod.mk.injEq] at he
      exact ⟨he.2.symm, by rw [← he.1]; simp⟩
  · simp only [Stmt.exec] at he
    cases hx : e x with
    | none => rw [hx] at he; cases he
    | some v =>
      cases hy : e y with
      | none => rw [hx, hy] at he; cases he
      | some w =>
        rw [hx, hy] at he; simp only [pure_run, Option.some.injEq, Prod.mk.injEq] at he
        exact ⟨he.2.symm, by rw [← he.1]; simp⟩
  · simp only [Stmt.exec] at he
    cases hy : e y with
    | none => rw [hy] at he; cases he
    | some v =>
      rw [hy] at he; simp only [pure_run, Option.some.injEq, Prod.mk.injEq] at he
      refine ⟨he.2.symm, ?_⟩
      rw [← he.1]
      show (v.moveReshape d).1 ≠ .threw
      rw [Vec.moveReshape]; split <;> simp

/-- A program with all kinds of statements, and what it does to values. -/
def demo : List (Stmt Nat) :=
  [.make 0 [2, 3] [1, 2, 3, 4, 5, 6], .copy 1 0, .callN 1 .popBack, .reshape 2 [3] 1, .reshape 3 [4] 1, .moveReshape 3 [3, 2] 0,
   .call1 2 (.pushBack 9), .fill 4 [1, 2] 7, .swap 4 1, .assign 1 4, .moveAssign 4 3, .make 5 [2, 2] [1], .del 2]

example : (specRunS Vars.none demo).1 =
    [.ok, .ok, .ok, .ok, .argumentError, .ok, .ok, .ok, .ok, .ok, .ok, .argumentError, .ok] := by decide +kernel
example : (List.range 6).map (specRunS Vars.none demo).2 =
    [some (.tab ⟨[3], []⟩), some (.tab ⟨[3], [[1, 2, 3]]⟩), none, some (.tab ⟨[2], []⟩), some (.tab ⟨[2], [[1, 2], [3, 4], [5, 6]]⟩), none] := by
  decide +kernel
/-- The same program in the model, and one where a copy throws in an assignment. -/
example : ((runS Vars.none demo) (Heap.empty never never)).map (fun r => (List.range 6).map fun x => (r.1.2 x).map (viewV r.2)) =
    some [some ([0, 3], []), some ([1, 3], [some 1, some 2, some 3]), none, some ([0, 2], []),
      some ([3, 2], [some 1, some 2, some 3, some 4, some 5, some 6]), none] := by decide +kernel
def demo2 : List (Stmt Nat) := [.make 0 [2] [1, 2], .make 1 [3] [3, 4, 5], .assign 0 1, .assign 1 0]
example : ((runS Vars.none demo2) (Heap.empty (fun t => t = 8) never)).map (fun r => r.1.1) = some [.ok, .ok, .threw, .ok] := by decide +kernel
example : ((runS Vars.none demo2) (Heap.empty (fun t => t = 8) never)).map (fun r => (List.range 2).map fun x => (r.1.2 x).map (viewV r.2)) =
    some [some ([2], [some 1, some 2]), some ([2], [some 1, some 2])] := by decide +kernel
/-- The theorem about memory applies to programs that destroy everything. -/
example : ((runS Vars.none [.make 0 [2] [1, 2], .move 1 0, .del 0, .del 1]) (Heap.empty never never : Heap Nat)).map
    (fun r => (r.1.1, (List.range 2).map r.1.2)) = some ([.ok, .ok, .ok, .ok], [none, none]) := by decide +kernel

/-- **C74 fails for empty vectors of one dimension**: copying one, assigning from one, and reshaping an empty vector to one
dimension ask for a block of no elements, which violates a contract of the library (a debug build stops). -/
theorem C74_empty_copy_violated :
    ((Stmt.copy 1 0).exec (Vars.none.set 0 (some (.one Vec1.nil))) (Heap.empty never never : Heap Nat)).isNone = true ∧
    ((Stmt.assign 1 0).exec ((Vars.none.set 0 (some (.one Vec1.nil))).set 1 (some (.one Vec1.nil))) (Heap.empty never never : Heap Nat)).isNone = true ∧
    ((Stmt.reshape 1 [0] 0).exec (Vars.none.set 0 (some (.many (VecN.nil 1)))) (Heap.empty never never : Heap Nat)).isNone = true := by
  decide +kernel

end Verif.VectorNd
