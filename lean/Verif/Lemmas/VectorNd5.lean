import Verif.Props.C19_VectorSpec

/-!
Each member function of the one-dimensional vector, for every choice of the copies and allocations that throw.
-/
set_option autoImplicit false
set_option linter.unusedSectionVars false

namespace Verif.VectorNd
variable {α : Type}

/-- The outcome of a call. -/
structure Post1 (h : Heap α) (v : Vec1) (l : List α) (op : Op1 α) (out : Out) (v' : Vec1) (h' : Heap α) : Prop where
  ev : Evolves h v.rv h' v'.rv
  /-- no exception from outside: as specified -/
  good : out ≠ .threw → out = (spec1 l op).1 ∧ Rep1 h' v' (spec1 l op).2
  /-- an exception: what is left is usable, unless the allocation in `insert` threw -/
  fail : out = .threw → CanFail h ∧ ((∃ l', Rep1 h' v' l' ∧ left1 l l' op) ∨
    ((∃ p as, op = .insert p as) ∧ ∃ t, h.failA t = true))

theorem destroyAll1 {h : Heap α} {v : Vec1} {l : List α} (r : Rep1 h v l) :
    ∃ h', v.destroyAll h = some ((), h') ∧ Evolves h v.rv h' v.rv ∧ HasList h' v.rv [] := by
  obtain ⟨w, o, hs⟩ := r
  by_cases h0 : v.size = 0
  · have hl : l = [] := List.length_eq_zero_iff.mp (by omega)
    subst hl
    exact ⟨h, by rw [Vec1.destroyAll, if_neg (by omega)]; rfl, Evolves.refl w, o⟩
  · cases hp : v.rv.ptr with
    | none => have := (hasList_none hp o).1; subst this; exact absurd hs h0
    | some b =>
      obtain ⟨eb, hl, hc⟩ := hasList_some hp o
      obtain ⟨h1, e1, u1⟩ := destroy_spec (h := h) (b := b) (lo := 0) (hi := v.size) (A := []) (L := l) (by simpa using eb) rfl (by omega)
      refine ⟨h1, ?_, u1.evolves w hp (lt_next w eb), hasList_mk hp (u1.here.trans ?_) (by simp) hc⟩
      · rw [Vec1.destroyAll, if_pos (by omega)]; simp only [hp]; exact e1
      · rw [rep_add']; simp; omega

/-- The destructor leaves no block behind. -/
theorem dtor1 {h : Heap α} {v : Vec1} {l : List α} (r : Rep1 h v l) :
    ∃ h', v.dtor h = some ((), h') ∧ Evolves h v.rv h' RV.null := by
  obtain ⟨h1, e1, ev1, o1⟩ := destroyAll1 r
  obtain ⟨h2, e2, ev2⟩ := rvFree_spec ev1.wf o1
  exact ⟨h2, by rw [Vec1.dtor, bind_some e1]; exact e2, ev1.trans ev2⟩

theorem pushBack1 {h : Heap α} {v : Vec1} {l : List α} (r : Rep1 h v l) (a : α) :
    ∃ out v' h', v.pushBack (.val a) h = some ((out, v'), h') ∧ Post1 h v l (.pushBack a) out v' h' := by
  obtain ⟨w, o, hs⟩ := r
  obtain ⟨ok, rv', h1, e1, ev1, o1, hok, hno⟩ := rvPreparePushBack_spec (new := v.size + 1) w o hs (by omega)
  cases ok with
  | false =>
    obtain ⟨rfl, hf⟩ := hno rfl
    refine ⟨.threw, ⟨v.rv, v.size⟩, h1, ?_, ev1, fun hh => absurd rfl hh, fun _ => ⟨hf, Or.inl ⟨l, ⟨ev1.wf, o1, hs⟩, rfl⟩⟩⟩
    rw [Vec1.pushBack, bind_some e1]; rfl
  | true =>
    obtain ⟨hcap, _, _⟩ := hok rfl
    cases hp : rv'.ptr with
    | none => have := (hasList_none hp o1).2; omega
    | some b =>
      obtain ⟨eb, hl, hc⟩ := hasList_some hp o1
      have eb' : h1.blk b = some (l.map some ++ none :: List.replicate (rv'.cap - l.length - 1) none) := by
        rw [eb, rep_cons']; congr 3; omega
      rcases construct_spec (i := v.size) (s := .val a) (a := a) eb' (by simpa using hs) rfl with ⟨h2, e2, u2, _⟩ | ⟨h2, e2, u2, hf⟩
      · have ev2 := u2.evolves (rv := rv') ev1.wf hp (lt_next ev1.wf eb)
        refine ⟨.ok, ⟨rv', v.size + 1⟩, h2, ?_, ev1.trans ev2, fun _ => ⟨rfl, ev2.wf, hasList_mk hp (u2.here.trans ?_) (by simp [spec1]; omega) hc, by simp [spec1, hs]⟩, fun hh => by simp at hh⟩
        · rw [Vec1.pushBack, bind_some e1]; simp only [hp, if_true]; rw [bind_some e2]; rfl
        · simp [spec1]; omega
      · have ev2 := u2.evolves (rv := rv') ev1.wf hp (lt_next ev1.wf eb)
        refine ⟨.threw, ⟨rv', v.size⟩, h2, ?_, ev1.trans ev2, fun hh => absurd rfl hh, fun _ => ⟨Or.inl ⟨_, by rw [← ev1.failC]; exact hf⟩, Or.inl ⟨l, ⟨ev2.wf, hasList_mk hp (u2.here.trans ?_) hl hc, hs⟩, rfl⟩⟩⟩
        · rw [Vec1.pushBack, bind_some e1]; simp only [hp, if_true]; rw [bind_some e2]; rfl
        · rw [← eb', eb]

theorem popBack1 {h : Heap α} {v : Vec1} {l : List α} (r : Rep1 h v l) :
    ∃ out v' h', v.popBack h = some ((out, v'), h') ∧ Post1 h v l .popBack out v' h' := by
  obtain ⟨w, o, hs⟩ := r
  by_cases h0 : v.size = 0
  · have hl : l = [] := List.length_eq_zero_iff.mp (by omega)
    subst hl
    refine ⟨.outOfRange, v, h, by rw [Vec1.popBack, if_pos h0]; rfl, Evolves.refl w, fun _ => ⟨rfl, w, o, hs⟩, fun hh => by simp at hh⟩
  · cases hp : v.rv.ptr with
    | none => have := (hasList_none hp o).1; subst this; exact absurd hs h0
    | some b =>
      obtain ⟨eb, hl, hc⟩ := hasList_some hp o
      obtain ⟨l', x, rfl⟩ := exists_concat l (by intro hc; subst hc; simp at hs; omega)
      simp only [List.length_append, List.length_cons, List.length_nil] at hs hl
      obtain ⟨h1, e1, u1⟩ := destroyAt_spec (h := h) (b := b) (i := v.size - 1) (A := l'.map some) (a := x) (by rw [eb]; simp; rfl) (by simp; omega)
      have ev1 := u1.evolves (rv := v.rv) w hp (lt_next w eb)
      have hne : (l' ++ [x]).isEmpty = false := by simp
      refine ⟨.ok, ⟨v.rv, v.size - 1⟩, h1, ?_, ev1, fun _ => ⟨by simp [spec1], ev1.wf, ?_, by simp [spec1]; omega⟩, fun hh => by simp at hh⟩
      · rw [Vec1.popBack, if_neg h0]; simp only [hp]; rw [bind_some e1]; rfl
      · simp only [spec1, hne, Bool.false_eq_true, if_false, List.dropLast_concat]
        refine hasList_mk hp (u1.here.trans ?_) (by omega) hc
        rw [rep_cons']; congr 3; omega

theorem insert1 {h : Heap α} {v : Vec1} {l : List α} (r : Rep1 h v l) {p : Nat} (hpos : p ≤ v.size) (as : List α) :
    ∃ out v' h', v.insert p (as.map Src.val) h = some ((out, v'), h') ∧ Post1 h v l (.insert p as) out v' h' := by
  obtain ⟨w, o, hs⟩ := r
  by_cases h0 : as = []
  · subst h0
    refine ⟨.ok, v, h, rfl, Evolves.refl w, fun _ => ⟨rfl, w, ?_, ?_⟩, fun hh => by simp at hh⟩
    · simpa [spec1] using o
    · simpa [spec1] using hs
  · have hlen : 0 < as.length := List.length_pos_iff.mpr h0
    have hlen' : (as.map (Src.val (α := α))).length = as.length := by simp
    obtain ⟨ok, rv', vc, h1, e1, post⟩ := rvPrepareInsert_spec (count := as.length) (es := 1) (valid := 0) (off := p) w o hs (by omega) hlen hpos ⟨p, by omega⟩ ⟨v.size, by omega⟩
    rw [Nat.mul_one] at post
    cases ok with
    | false =>
      obtain ⟨rfl, hf⟩ := post.fail rfl
      refine ⟨.threw, ⟨v.rv, vc⟩, h1, ?_, post.ev, fun hh => absurd rfl hh, fun _ => ?_⟩
      · rw [Vec1.insert, if_neg (by rw [hlen']; omega), hlen', bind_some e1]; rfl
      · rcases hf with ⟨hpv, hvo, ho, ht⟩ | ⟨_, _, ht⟩
        · refine ⟨Or.inl ht, Or.inl ⟨l.take vc, ⟨post.ev.wf, by simpa using ho, ?_⟩, Or.inl ⟨vc, by omega, rfl⟩⟩⟩
          rw [List.length_take]; show vc = _; omega
        · exact ⟨Or.inr ht, Or.inr ⟨⟨p, as, rfl⟩, ht⟩⟩
    | true =>
      obtain ⟨_, hg, hcap⟩ := post.good rfl
      cases hp : rv'.ptr with
      | none => have := ((holds_none hp).mp hg).1; omega
      | some b =>
        have hh := (holds_some hp).mp hg
        obtain ⟨k, h2, hk, e2, u2, hfull, hfail⟩ := fillGap_spec hp hg hcap (by omega) hlen' (Reads.vals as)
        have ev2 := u2.evolves (rv := rv') post.ev.wf hp (lt_next post.ev.wf hh.1)
        by_cases hki : k = as.length
        · refine ⟨.ok, ⟨rv', v.size + as.length⟩, h2, ?_, post.ev.trans ev2, fun _ => ⟨rfl, ev2.wf, ?_, ?_⟩, fun hh => by simp at hh⟩
          · rw [Vec1.insert, if_neg (by rw [hlen']; omega), hlen', bind_some e1]; simp only [hp, if_true]
            rw [bind_some e2]; simp only [hki, decide_true, if_true]; rfl
          · simpa [spec1] using hfull hki
          · simp [spec1]; omega
        · have hlt : (l.take p).length = p := by rw [List.length_take]; omega
          have hX : (l.take p).map some ++ ((as.take k).map some ++ (List.replicate (as.length - k) none ++ ((l.drop p).map some ++ List.replicate (rv'.cap - l.length - as.length) none)))
              = ((l.take p ++ as.take k).map some ++ List.replicate (as.length - k) none) ++ ((l.drop p).map some ++ List.replicate (rv'.cap - l.length - as.length) none) := by simp
          obtain ⟨h3, e3, u3⟩ := destroy_spec (h := h2) (b := b) (lo := p + as.length) (hi := v.size + as.length) (u2.here.trans (congrArg some hX)) (by simp; omega) (by simp; omega)
          have ue := u2.trans u3
          have ev3 := ue.evolves (rv := rv') post.ev.wf hp (lt_next post.ev.wf hh.1)
          obtain ⟨t, ht⟩ := hfail (by omega)
          refine ⟨.threw, ⟨rv', p + k⟩, h3, ?_, post.ev.trans ev3, fun hh => absurd rfl hh, fun _ => ⟨Or.inl ⟨t, by rw [← post.ev.failC]; exact ht⟩, Or.inl ⟨l.take p ++ as.take k, ⟨ev3.wf, hasList_mk hp (ue.here.trans ?_) (by simp; omega) hh.2.2, by simp; omega⟩, Or.inr ⟨k, rfl⟩⟩⟩⟩
          · rw [Vec1.insert, if_neg (by rw [hlen']; omega), hlen', bind_some e1]; simp only [hp, if_true]
            rw [bind_some e2]; simp only [hki, decide_false, Bool.false_eq_true, if_false]
            rw [bind_some e3]; rfl
          · rw [List.append_assoc, rep_add', rep_add']; congr 3; simp; omega

theorem eraseN1 {h : Heap α} {v : Vec1} {l : List α} (r : Rep1 h v l) {p c : Nat} (hc : 0 < c) (hpc : p + c ≤ v.size) :
    ∃ out v' h', v.eraseN p c h = some ((out, v'), h') ∧ Evolves h v.rv h' v'.rv ∧
      (out ≠ .threw → out = .ok ∧ Rep1 h' v' (l.take p ++ l.drop (p + c))) ∧
      (out = .threw → CanFail h ∧ ∃ m, p ≤ m ∧ Rep1 h' v' ((l.take p ++ l.drop (p + c)).take m)) := by
  obtain ⟨w, o, hs⟩ := r
  obtain ⟨ok, vc, h1, e1, ev1, hok, hno⟩ := rvErase_spec (count := c) (es := 1) (valid := 0) (off := p) w o hs (by omega) hc (by omega)
  rw [Nat.mul_one] at hok hno
  cases ok with
  | true =>
    refine ⟨.ok, ⟨v.rv, v.size - c⟩, h1, ?_, ev1, fun _ => ⟨rfl, ev1.wf, (hok rfl).2, by simp; omega⟩, fun hh => by simp at hh⟩
    rw [Vec1.eraseN, if_neg (by omega), bind_some e1]; rfl
  | false =>
    obtain ⟨h1v, h2v, ho, hf⟩ := hno rfl
    rw [Nat.mul_one] at ho h2v
    rw [Nat.div_one] at h1v
    refine ⟨.threw, ⟨v.rv, vc⟩, h1, ?_, ev1, fun hh => absurd rfl hh, fun _ => ⟨hf, vc, h1v, ev1.wf, ho, by simp; omega⟩⟩
    rw [Vec1.eraseN, if_neg (by omega), bind_some e1]; rfl

theorem erase1 {h : Heap α} {v : Vec1} {l : List α} (r : Rep1 h v l) {p : Nat} (hpos : v.size = 0 ∨ p < v.size) :
    ∃ out v' h', v.erase p h = some ((out, v'), h') ∧ Post1 h v l (.erase p) out v' h' := by
  by_cases h0 : v.size = 0
  · have hl : l = [] := List.length_eq_zero_iff.mp (by have := r.2.2; omega)
    subst hl
    exact ⟨.argumentError, v, h, by rw [Vec1.erase, if_pos h0]; rfl, Evolves.refl r.1, fun _ => ⟨rfl, r⟩, fun hh => by simp at hh⟩
  · obtain ⟨out, v', h', e, ev, hg, hf⟩ := eraseN1 r (p := p) (c := 1) (by omega) (by omega)
    have hs := r.2.2
    have hne : l.isEmpty = false := by cases l with | nil => simp at hs; omega | cons a l => rfl
    have heq : l.take p ++ l.drop (p + 1) = l.eraseIdx p := by rw [List.eraseIdx_eq_take_drop_succ]
    rw [heq] at hg hf
    refine ⟨out, v', h', by rw [Vec1.erase, if_neg h0]; exact e, ev, fun hh => ?_, fun hh => ?_⟩
    · simp only [spec1, hne]; exact hg hh
    · obtain ⟨c, m, hm, hr⟩ := hf hh
      exact ⟨c, Or.inl ⟨_, hr, m, hm, rfl⟩⟩

theorem eraseRange1 {h : Heap α} {v : Vec1} {l : List α} (r : Rep1 h v l) {p q : Nat} (hpos : q < p ∨ q ≤ v.size) :
    ∃ out v' h', v.eraseRange p q h = some ((out, v'), h') ∧ Post1 h v l (.eraseRange p q) out v' h' := by
  by_cases h0 : q < p
  · refine ⟨.argumentError, v, h, by rw [Vec1.eraseRange, if_pos h0]; rfl, Evolves.refl r.1, fun _ => ?_, fun hh => by simp at hh⟩
    simp only [spec1, if_pos h0]; exact ⟨trivial, r⟩
  · by_cases h1 : q - p ≠ 0
    · obtain ⟨out, v', h', e, ev, hg, hf⟩ := eraseN1 r (p := p) (c := q - p) (by omega) (by omega)
      rw [show p + (q - p) = q by omega] at hg hf
      refine ⟨out, v', h', by rw [Vec1.eraseRange, if_neg h0, if_pos h1, if_neg (by omega)]; exact e, ev, fun hh => ?_, fun hh => ?_⟩
      · simp only [spec1, if_neg h0]; exact hg hh
      · obtain ⟨c, m, hm, hr⟩ := hf hh
        exact ⟨c, Or.inl ⟨_, hr, m, hm, rfl⟩⟩
    · refine ⟨.ok, v, h, by rw [Vec1.eraseRange, if_neg h0, if_neg h1]; rfl, Evolves.refl r.1, fun _ => ?_, fun hh => by simp at hh⟩
      have : q = p := by omega
      subst this
      simp only [spec1, if_neg h0, List.take_append_drop]; exact ⟨trivial, r⟩

theorem resize1 {h : Heap α} {v : Vec1} {l : List α} (r : Rep1 h v l) (n : Nat) (a : α) :
    ∃ out v' h', v.resize n (.val a) h = some ((out, v'), h') ∧ Post1 h v l (.resize n a) out v' h' := by
  obtain ⟨w, o, hs⟩ := r
  obtain ⟨ok, rv', h1, e1, ev1, hok, hno⟩ := rvResize_spec (new := n) (s := .val a) (a := a) w o hs rfl
  cases ok with
  | true =>
    refine ⟨.ok, ⟨rv', n⟩, h1, ?_, ev1, fun _ => ⟨rfl, ev1.wf, ?_, ?_⟩, fun hh => by simp at hh⟩
    · rw [Vec1.resize, bind_some e1]; rfl
    · have := hok rfl; rw [hs] at this; exact this
    · simp [spec1]; omega
  | false =>
    obtain ⟨rfl, ho, hf⟩ := hno rfl
    refine ⟨.threw, ⟨v.rv, v.size⟩, h1, ?_, ev1, fun hh => absurd rfl hh, fun _ => ⟨hf, Or.inl ⟨l, ⟨ev1.wf, ho, hs⟩, rfl⟩⟩⟩
    rw [Vec1.resize, bind_some e1]; rfl

theorem assign1 {h : Heap α} {v : Vec1} {l : List α} (r : Rep1 h v l) {n : Nat} (hn : n ≠ 0 ∨ v.size ≠ 0) (a : α) :
    ∃ out v' h', v.assign n (.val a) h = some ((out, v'), h') ∧ Post1 h v l (.assign n a) out v' h' := by
  obtain ⟨w, o, hs⟩ := r
  obtain ⟨ok, valid, rv', h1, e1, ev1, hok, hno⟩ := rvAssign_spec (new := n) (a := a) w o hs (by have := o.2; omega)
  cases ok with
  | true =>
    refine ⟨.ok, ⟨rv', n⟩, h1, ?_, ev1, fun _ => ⟨rfl, ev1.wf, hok rfl, by simp [spec1]⟩, fun hh => by simp at hh⟩
    rw [Vec1.assign, bind_some e1]; rfl
  | false =>
    obtain ⟨rfl, ho, hf⟩ := hno rfl
    refine ⟨.threw, ⟨v.rv, if valid then v.size else 0⟩, h1, ?_, ev1, fun hh => absurd rfl hh, fun _ => ⟨hf, Or.inl ⟨_, ⟨ev1.wf, ho, ?_⟩, ?_⟩⟩⟩
    · rw [Vec1.assign, bind_some e1]; rfl
    · cases valid <;> simp [hs]
    · cases valid <;> simp [left1]

theorem exec1_spec {h : Heap α} {v : Vec1} {l : List α} (r : Rep1 h v l) {op : Op1 α} (hv : valid1 v.size op = true) :
    ∃ out v' h', exec1 v op h = some ((out, v'), h') ∧ Post1 h v l op out v' h' := by
  cases op with
  | pushBack a => exact pushBack1 r a
  | popBack => exact popBack1 r
  | insert p as => exact insert1 r (by simpa [valid1] using hv) as
  | erase p => exact erase1 r (by simpa [valid1] using hv)
  | eraseRange p q => exact eraseRange1 r (by simpa [valid1] using hv)
  | resize n a => exact resize1 r n a
  | assign n a => exact assign1 r (of_decide_eq_true hv) a
  | clear =>
    obtain ⟨h1, e1, ev1, o1⟩ := destroyAll1 r
    refine ⟨.ok, ⟨v.rv, 0⟩, h1, ?_, ev1, fun _ => ⟨rfl, ev1.wf, o1, rfl⟩, fun hh => by simp at hh⟩
    show Vec1.clear v h = _
    rw [Vec1.clear, bind_some e1]; rfl
  | reserve n =>
    obtain ⟨w, o, hs⟩ := r
    obtain ⟨ok, rv', h1, e1, ev1, o1, _, hno⟩ := rvReserve_spec (ncap := n) w o hs
    refine ⟨if ok then .ok else .threw, ⟨rv', v.size⟩, h1, ?_, ev1, fun hh => ?_, fun hh => ?_⟩
    · show Vec1.reserve v n h = _
      rw [Vec1.reserve, bind_some e1]; rfl
    · cases ok with
      | true => exact ⟨rfl, ev1.wf, o1, hs⟩
      | false => exact absurd rfl hh
    · cases ok with
      | true => simp at hh
      | false => exact ⟨(hno rfl).2, Or.inl ⟨l, ⟨ev1.wf, o1, hs⟩, rfl⟩⟩
  | shrink =>
    obtain ⟨w, o, hs⟩ := r
    obtain ⟨ok, rv', h1, e1, ev1, o1, _, hno⟩ := rvShrink_spec w o hs
    refine ⟨if ok then .ok else .threw, ⟨rv', v.size⟩, h1, ?_, ev1, fun hh => ?_, fun hh => ?_⟩
    · show Vec1.shrink v h = _
      rw [Vec1.shrink, bind_some e1]; rfl
    · cases ok with
      | true => exact ⟨rfl, ev1.wf, o1, hs⟩
      | false => exact absurd rfl hh
    · cases ok with
      | true => simp at hh
      | false => exact ⟨(hno rfl).2, Or.inl ⟨l, ⟨ev1.wf, o1, hs⟩, rfl⟩⟩

end Verif.VectorNd
