import Verif.Lemmas.VectorNd3

/-!
Lemmas about `raw_vector::prepare_insert`.
-/
set_option autoImplicit false
set_option linter.unusedSectionVars false

namespace Verif.VectorNd
variable {α : Type}

/-- The slots after a successful `prepare_insert`: a gap of `ins` dead slots at `off`. -/
def gap (cap off ins : Nat) (l : List α) : List (Option α) :=
  (l.take off).map some ++ (List.replicate ins none ++ ((l.drop off).map some ++ List.replicate (cap - l.length - ins) none))

theorem gap_length {cap off ins : Nat} {l : List α} (hl : l.length + ins ≤ cap) (ho : off ≤ l.length) :
    (gap cap off ins l).length = cap := by
  simp [gap]; omega

/-- The two ends of `prepare_insert`. -/
structure InsertPost (h : Heap α) (rv : RV) (old off ins es valid : Nat) (l : List α) (ok : Bool) (rv' : RV) (v : Nat)
    (h' : Heap α) : Prop where
  ev : Evolves h rv h' rv'
  good : ok = true → v = valid ∧ Holds h' rv' (gap rv'.cap off ins l) ∧ l.length + ins ≤ rv'.cap
  /-- the exception came from a copy: some elements of the right part are gone -/
  fail : ok = false → rv' = rv ∧
    ((off ≤ v * es ∧ v * es ≤ old ∧ HasList h' rv (l.take (v * es)) ∧ ∃ t, h.failC t = true) ∨
     (v = valid ∧ HasList h' rv l ∧ ∃ t, h.failA t = true))

theorem take_map_drop (l : List α) (n : Nat) (C : List (Option α)) :
    l.map some ++ C = (l.take n).map some ++ ((l.drop n).map some ++ C) := by
  rw [← List.append_assoc, ← List.map_append, List.take_append_drop]

theorem rvPrepareInsert_inplace {h : Heap α} {rv : RV} {old off count es valid : Nat} {l : List α} (w : WfH h)
    (o : HasList h rv l) (hs : old = l.length) (hes : 0 < es) (hcnt : 0 < count) (hoff : off ≤ old) (hdo : es ∣ off) (hdl : es ∣ old)
    (hcap : old + count * es ≤ rv.cap) :
    ∃ ok rv' v h', rvPrepareInsert rv old off count es valid h = some ((ok, rv', v), h') ∧
      InsertPost h rv old off (count * es) es valid l ok rv' v h' := by
  have hins : 0 < count * es := Nat.mul_pos hcnt hes
  have hcond : ¬ (¬ old + count * es > old ∨ off > old) := by omega
  have hcond2 : ¬ old + count * es > rv.cap := by omega
  have hold : old / es * es = old := Nat.div_mul_cancel hdl
  have hdi : es ∣ count * es := Nat.dvd_mul_left es count
  generalize hE : count * es = ins at *
  cases hp : rv.ptr with
  | none => have := (hasList_none hp o).2; omega
  | some b =>
    obtain ⟨eb, hl, hcap0⟩ := hasList_some hp o
    have hb := lt_next w eb
    by_cases hov : ins ≥ old - off
    · -- no overlap
      generalize hP : l.take off = P
      generalize hQ : l.drop off = Q
      have hlP : P.length = off := by rw [← hP, List.length_take]; omega
      have hlQ : Q.length = old - off := by rw [← hQ, List.length_drop, hs]
      have hleq : l = P ++ Q := by rw [← hP, ← hQ, List.take_append_drop]
      have eb1 : h.blk b = some ((l.map some ++ List.replicate (off + ins - old) none) ++
          (List.replicate (refs b off (old - off) : List (Src α)).length none ++ List.replicate (rv.cap - old - ins) none)) := by
        rw [eb, refs_length, List.append_assoc, rep_add', rep_add']; congr 3; omega
      have hr : Reads h (refs b off (old - off)) Q := by
        rw [← hlQ]
        refine Reads.refs Q (P.map some) (List.replicate (rv.cap - l.length) none) off ?_ (by simp [hlP])
        rw [eb, hleq]; simp
      obtain ⟨k, h1, hk, e1, u1, _, hfail⟩ := copyLoop_spec b _ Q h _ _ (off + ins) eb1 (by simp; omega) hr
      rw [refs_length] at hk hfail u1 e1
      by_cases hkq : k = old - off
      · have hX : (l.map some ++ List.replicate (off + ins - old) none) ++ ((Q.take k).map some ++ (List.replicate (old - off - k) none ++ List.replicate (rv.cap - old - ins) none))
            = P.map some ++ (Q.map some ++ (List.replicate (off + ins - old) none ++ (Q.map some ++ List.replicate (rv.cap - old - ins) none))) := by
          rw [hkq, Nat.sub_self, List.take_of_length_le (by omega), hleq]; simp
        obtain ⟨h2, e2, u2⟩ := destroy_spec (h := h1) (b := b) (lo := off) (hi := old) (u1.here.trans (congrArg some hX)) (by simp [hlP]) (by omega)
        have ue := u1.trans u2
        refine ⟨true, rv, valid, h2, ?_, ue.evolves w hp hb, fun _ => ⟨rfl, (holds_some hp).mpr ⟨ue.here.trans ?_, gap_length (by omega) (by omega), hcap0⟩, by omega⟩, fun hh => by simp at hh⟩
        · rw [rvPrepareInsert, hE, if_neg hcond, if_neg hcond2]; simp only [hp, if_pos hov]
          rw [bind_some e1]; simp only [hkq, decide_true, if_true]
          rw [bind_some e2]; rfl
        · rw [gap, hP, hQ, hlQ, rep_add]; congr 4 <;> congr 1 <;> congr 1 <;> omega
      · have hX : (l.map some ++ List.replicate (off + ins - old) none) ++ ((Q.take k).map some ++ (List.replicate (old - off - k) none ++ List.replicate (rv.cap - old - ins) none))
            = (l.map some ++ List.replicate (off + ins - old) none) ++ ((Q.take k).map some ++ List.replicate (rv.cap - off - ins - k) none) := by
          rw [rep_add']; congr 3; omega
        obtain ⟨h2, e2, u2⟩ := destroy_spec (h := h1) (b := b) (lo := off + ins) (hi := off + ins + k) (u1.here.trans (congrArg some hX)) (by simp; omega) (by simp; omega)
        have ue := u1.trans u2
        have ho2 : HasList h2 rv l := by
          refine hasList_mk hp (ue.here.trans ?_) hl hcap0
          rw [List.append_assoc, rep_add', rep_add']; congr 3; simp; omega
        refine ⟨false, rv, old / es, h2, ?_, ue.evolves w hp hb, fun hh => by simp at hh, fun _ => ⟨rfl, Or.inl ⟨by omega, by omega, ?_, ?_⟩⟩⟩
        · rw [rvPrepareInsert, hE, if_neg hcond, if_neg hcond2]; simp only [hp, if_pos hov]
          rw [bind_some e1]; simp only [hkq, decide_false, Bool.false_eq_true, if_false]
          rw [bind_some e2]; rfl
        · rw [hold, List.take_of_length_le (by omega)]; exact ho2
        · exact hfail (by omega)
    · -- overlap
      have hov' : ins < old - off := by omega
      generalize hP : l.take off = P
      generalize hX : (l.drop off).take (old - ins - off) = X
      generalize hY : l.drop (old - ins) = Y
      have hlP : P.length = off := by rw [← hP, List.length_take]; omega
      have hlX : X.length = old - ins - off := by rw [← hX, List.length_take, List.length_drop]; omega
      have hlY : Y.length = ins := by rw [← hY, List.length_drop]; omega
      have hXY : X ++ Y = l.drop off := by
        rw [← hX, ← hY, show old - ins = off + (old - ins - off) by omega, ← List.drop_drop,
          show off + (old - ins - off) - off = old - ins - off by omega, List.take_append_drop]
      have hleq : l = P ++ (X ++ Y) := by rw [hXY, ← hP, List.take_append_drop]
      generalize hC : (List.replicate (rv.cap - old - ins) none : List (Option α)) = C at *
      have eb1 : h.blk b = some (l.map some ++ (List.replicate (refs b (old - ins) ins : List (Src α)).length none ++ C)) := by
        rw [eb, refs_length, ← hC, rep_add']; congr 3; omega
      have hr : Reads h (refs b (old - ins) ins) Y := by
        conv => arg 2; rw [← hlY]
        refine Reads.refs Y ((P ++ X).map some) (List.replicate (rv.cap - l.length) none) _ ?_ (by simp; omega)
        rw [eb, hleq]; simp
      obtain ⟨k, h1, hk, e1, u1, _, hfail⟩ := copyLoop_spec b _ Y h _ _ old eb1 (by simpa using hs) hr
      rw [refs_length] at hk hfail u1 e1
      by_cases hki : k = ins
      · have hX1 : l.map some ++ ((Y.take k).map some ++ (List.replicate (ins - k) none ++ C)) = P.map some ++ ((X ++ Y).map some ++ (Y.map some ++ C)) := by
          rw [hki, Nat.sub_self, List.take_of_length_le (by omega), hleq]; simp
        have u1' := u1.congr hX1 rfl
        obtain ⟨j, h2, hj, e2, u2, w2⟩ := transferRight_spec b X.length X Y h1 (P.map some) (Y.map some ++ C) (old - ins) (old - 1) rfl u1'.here
          (by intro hc; subst hc; simp at hlY; omega) (by simp; omega) (by omega)
        rw [hlX] at e2
        by_cases hjx : j = X.length
        · have hX2 : P.map some ++ (((X ++ Y).take Y.length ++ X).map some ++ (Y.map some ++ C)) = P.map some ++ (((X ++ Y).take Y.length).map some ++ ((X ++ Y).map some ++ C)) := by simp
          have u2' := (u1'.trans (u2 hjx)).congr hX2 rfl
          obtain ⟨h3, e3, u3⟩ := destroy_spec (h := h2) (b := b) (lo := off) (hi := off + ins) u2'.here (by simp [hlP]) (by simp; omega)
          have ue := u2'.trans u3
          refine ⟨true, rv, valid, h3, ?_, ue.evolves w hp hb, fun _ => ⟨rfl, (holds_some hp).mpr ⟨ue.here.trans ?_, gap_length (by omega) (by omega), hcap0⟩, by omega⟩, fun hh => by simp at hh⟩
          · rw [rvPrepareInsert, hE, if_neg hcond, if_neg hcond2]; simp only [hp, if_neg hov]
            rw [bind_some e1]; simp only [hki, decide_true, if_true]
            rw [bind_some e2]; simp only [← hlX, hjx, decide_true, if_true]
            rw [bind_some e3]; rfl
          · rw [gap, hP, ← hXY, ← hC, ← hs]; congr 3; congr 1; simp; omega
        · obtain ⟨w3, t, ht⟩ := w2 (by omega)
          generalize hd : old - 1 - j = d at *
          have hvd : d / es * es ≤ d := Nat.div_mul_le_self d es
          generalize hv : d / es * es = v at *
          -- `off ≤ v`: the throw point is not below `off`, and both are compared in whole elements
          have hov2 : off ≤ v := by
            have h1 : off ≤ d := by omega
            have := Nat.div_le_div_right (c := es) h1
            have h2 := Nat.mul_le_mul_right es this
            rw [Nat.div_mul_cancel hdo, hv] at h2; exact h2
          have hQd : P ++ (X ++ Y).take (X.length + Y.length - j - 1) = l.take d := by
            have hT : (P ++ (X ++ Y)).take d = P ++ (X ++ Y).take (d - P.length) := by
              rw [List.take_append (l₁ := P), List.take_of_length_le (l := P) (by omega)]
            rw [hleq, hT]; congr 2; omega
          have hX2 : P.map some ++ (((X ++ Y).take (X.length + Y.length - j - 1)).map some ++ none :: ((X.drop (X.length - j)).map some ++ (Y.map some ++ C)))
              = (l.take v).map some ++ (((l.take d).drop v).map some ++ none :: ((X.drop (X.length - j) ++ Y).map some ++ C)) := by
            rw [← List.append_assoc, ← List.map_append, hQd]
            rw [show l.take v = (l.take d).take v by rw [List.take_take]; congr 1; omega, ← take_map_drop]
            simp
          have w3' := (u1'.trans w3).congr hX2 rfl
          have hlv : (l.take v).length = v := by rw [List.length_take]; omega
          have hldv : ((l.take d).drop v).length = d - v := by rw [List.length_drop, List.length_take]; omega
          obtain ⟨h3, e3, u3⟩ := destroy_spec (h := h2) (b := b) (lo := v) (hi := d) w3'.here (by simp; omega) (by omega)
          have hX3 : (l.take v).map some ++ (List.replicate ((l.take d).drop v).length none ++ none :: ((X.drop (X.length - j) ++ Y).map some ++ C))
              = ((l.take v).map some ++ List.replicate (d - v + 1) none) ++ ((X.drop (X.length - j) ++ Y).map some ++ C) := by
            rw [hldv, List.append_assoc, List.replicate_succ']; simp
          have u3' := (w3'.trans u3).congr hX3 rfl
          obtain ⟨h4, e4, u4⟩ := destroy_spec (h := h3) (b := b) (lo := d + 1) (hi := old + ins) u3'.here (by simp; omega) (by simp; omega)
          have ue := u3'.trans u4
          refine ⟨false, rv, d / es, h4, ?_, ue.evolves w hp hb, fun hh => by simp at hh, fun _ => ⟨rfl, Or.inl ⟨by rw [hv]; exact hov2, by rw [hv]; omega, ?_, t, by rw [← u1.failC]; exact ht⟩⟩⟩
          · rw [rvPrepareInsert, hE, if_neg hcond, if_neg hcond2]; simp only [hp, if_neg hov]
            rw [bind_some e1]; simp only [hki, decide_true, if_true]
            rw [bind_some e2]; simp only [← hlX, hjx, decide_false, Bool.false_eq_true, if_false, hv]
            rw [bind_some e3, bind_some e4]; rfl
          · rw [hv]
            refine hasList_mk hp (ue.here.trans ?_) (by omega) hcap0
            rw [List.append_assoc, ← hC, rep_add', rep_add']; congr 3; simp; omega
      · have hX1 : l.map some ++ ((Y.take k).map some ++ (List.replicate (ins - k) none ++ C)) = l.map some ++ ((Y.take k).map some ++ List.replicate (rv.cap - old - k) none) := by
          rw [← hC, rep_add']; congr 3; omega
        obtain ⟨h2, e2, u2⟩ := destroy_spec (h := h1) (b := b) (lo := old) (hi := old + k) (u1.here.trans (congrArg some hX1)) (by simpa using hs) (by simp; omega)
        have ue := u1.trans u2
        have ho2 : HasList h2 rv l := by
          refine hasList_mk hp (ue.here.trans ?_) hl hcap0
          rw [rep_add']; congr 3; simp; omega
        refine ⟨false, rv, old / es, h2, ?_, ue.evolves w hp hb, fun hh => by simp at hh, fun _ => ⟨rfl, Or.inl ⟨by omega, by omega, ?_, ?_⟩⟩⟩
        · rw [rvPrepareInsert, hE, if_neg hcond, if_neg hcond2]; simp only [hp, if_neg hov]
          rw [bind_some e1]; simp only [hki, decide_false, Bool.false_eq_true, if_false]
          rw [bind_some e2]; rfl
        · rw [hold, List.take_of_length_le (by omega)]; exact ho2
        · exact hfail (by omega)

theorem rvPrepareInsert_realloc {h : Heap α} {rv : RV} {old off count es valid : Nat} {l : List α} (w : WfH h)
    (o : HasList h rv l) (hs : old = l.length) (hes : 0 < es) (hcnt : 0 < count) (hoff : off ≤ old) (hdl : es ∣ old)
    (hcap : rv.cap < old + count * es) :
    ∃ ok rv' v h', rvPrepareInsert rv old off count es valid h = some ((ok, rv', v), h') ∧
      InsertPost h rv old off (count * es) es valid l ok rv' v h' := by
  have hins : 0 < count * es := Nat.mul_pos hcnt hes
  have hcond : ¬ (¬ old + count * es > old ∨ off > old) := by omega
  have hold : old / es * es = old := Nat.div_mul_cancel hdl
  have hl := o.2
  generalize hE : count * es = ins at *
  obtain ⟨c, ec, hnc, _, _⟩ := increase_spec h hcap
  have hfull : HasList h rv (l.take (old / es * es)) := by rw [hold, List.take_of_length_le (by omega)]; exact o
  rcases allocate_spec w (n := c) (by omega) with ⟨nb, h1, e1, a, _⟩ | ⟨h1, e1, s, hf⟩
  · cases hp : rv.ptr with
    | none =>
      have hl0 := (hasList_none hp o).1
      subst hl0
      have hold0 : old = 0 := hs
      have hoff0 : off = 0 := by omega
      have hX : (List.replicate c none : List (Option α)) = gap c off ins ([] : List α) := by
        simp [gap]; congr 1; omega
      obtain ⟨ev, ho, _⟩ := realloc_null (rv := rv) hp a ((Upd.refl a.here).congr hX rfl) (gap_length (by simp; omega) (by simp; omega)) (by omega)
      refine ⟨true, ⟨some nb, c⟩, valid, h1, ?_, ev, fun _ => ⟨rfl, ho, by show 0 + ins ≤ c; omega⟩, fun hh => by simp at hh⟩
      rw [rvPrepareInsert, hE, if_neg hcond, if_pos hcap, bind_some ec, bind_some e1]; simp only [hp]; rfl
    | some ob =>
      obtain ⟨eb, _, hcap0⟩ := hasList_some hp o
      have hne := alloc_ne a eb
      have eb1 : h1.blk ob = some (l.map some ++ List.replicate (rv.cap - l.length) none) := by rw [a.other ob hne]; exact eb
      generalize hP : l.take off = P
      generalize hQ : l.drop off = Q
      have hlP : P.length = off := by rw [← hP, List.length_take]; omega
      have hlQ : Q.length = old - off := by rw [← hQ, List.length_drop, hs]
      have hleq : l = P ++ Q := by rw [← hP, ← hQ, List.take_append_drop]
      have hr : Reads h1 (refs ob 0 off) P := by
        rw [← hlP]
        refine Reads.refs P [] (Q.map some ++ List.replicate (rv.cap - l.length) none) 0 ?_ rfl
        rw [eb1, hleq]; simp
      rcases fillNew_spec w o a hr (by rw [refs_length]; omega) with ⟨h2, e2, u2, k2⟩ | ⟨k, h2, e2, ht, hx⟩
      · rw [refs_length] at e2 u2
        have hX2 : slots c P = (P.map some ++ List.replicate ins none) ++ (List.replicate (refs ob off (old - off) : List (Src α)).length none ++ List.replicate (c - old - ins) none) := by
          rw [slots, refs_length, List.append_assoc, rep_add', rep_add', hlP]; congr 2; omega
        have hrQ : Reads h1 (refs ob off (old - off)) Q := by
          rw [← hlQ]
          refine Reads.refs Q (P.map some) (List.replicate (rv.cap - l.length) none) off ?_ (by simp [hlP])
          rw [eb1, hleq]; simp
        obtain ⟨k, h3, hk, e3, u3, _, hfail⟩ := copyLoop_spec nb _ Q h2 _ _ (off + ins) (u2.here.trans (congrArg some hX2)) (by simp; omega) (hrQ.keep k2)
        rw [refs_length] at hk hfail u3 e3
        by_cases hkq : k = old - off
        · have hX3 : (P.map some ++ List.replicate ins none) ++ ((Q.take k).map some ++ (List.replicate (old - off - k) none ++ List.replicate (c - old - ins) none)) = gap c off ins l := by
            rw [gap, hP, hQ, hkq, Nat.sub_self, List.take_of_length_le (by omega), hs]; simp
          have u3' := (u2.trans u3).congr hX3 rfl
          have eob3 : h3.blk ob = some (l.map some ++ List.replicate (rv.cap - l.length) none) := by rw [u3'.other ob hne]; exact eb1
          obtain ⟨h4, e4, f4⟩ := free_spec (size := old) ((true, (⟨some nb, c⟩ : RV), valid)) eob3 hl hs
          obtain ⟨ev, ho, _⟩ := realloc_ok (rv := rv) hp a u3' f4 (gap_length (by omega) (by omega)) (by omega) hne
          refine ⟨true, ⟨some nb, c⟩, valid, h4, ?_, ev, fun _ => ⟨rfl, ho, by show l.length + ins ≤ c; omega⟩, fun hh => by simp at hh⟩
          rw [rvPrepareInsert, hE, if_neg hcond, if_pos hcap, bind_some ec, bind_some e1]; simp only [hp]
          rw [bind_some e2]; simp only [if_true]
          rw [bind_some e3]; simp only [hkq, decide_true, if_true]
          exact e4
        · -- the right part failed: both parts of the new block are destroyed
          have hX3 : (P.map some ++ List.replicate ins none) ++ ((Q.take k).map some ++ (List.replicate (old - off - k) none ++ List.replicate (c - old - ins) none))
              = [] ++ (P.map some ++ (List.replicate ins none ++ ((Q.take k).map some ++ List.replicate (c - off - ins - k) none))) := by
            rw [rep_add', List.append_assoc]; simp only [List.nil_append]; congr 4; omega
          have u3' := (u2.trans u3).congr hX3 rfl
          have hlk : (Q.take k).length = k := by rw [List.length_take]; omega
          obtain ⟨h4, e4, u4⟩ := destroy_spec (h := h3) (b := nb) (lo := 0) (hi := off) u3'.here rfl (by omega)
          have hX4 : ([] ++ (List.replicate P.length none ++ (List.replicate ins none ++ ((Q.take k).map some ++ List.replicate (c - off - ins - k) none))) : List (Option α))
              = List.replicate (off + ins) none ++ ((Q.take k).map some ++ List.replicate (c - off - ins - k) none) := by
            rw [List.nil_append, rep_add, hlP]
          have u4' := (u3'.trans u4).congr hX4 rfl
          obtain ⟨h5, e5, u5⟩ := destroy_spec (h := h4) (b := nb) (lo := off + ins) (hi := off + ins + k) u4'.here (by simp) (by rw [hlk])
          have hX5 : (List.replicate (off + ins) none ++ (List.replicate (Q.take k).length none ++ List.replicate (c - off - ins - k) none) : List (Option α)) = List.replicate c none := by
            rw [rep_add', rep_add', hlk]; congr 1; omega
          have u5' := (u4'.trans u5).congr hX5 rfl
          obtain ⟨h6, e6, f6⟩ := deallocate_spec u5'.here
          obtain ⟨ev, ho⟩ := realloc_fail w a u5' f6 o.1
          obtain ⟨t, ht⟩ := hfail (by omega)
          refine ⟨false, rv, old / es, h6, ?_, ev, fun hh => by simp at hh, fun _ => ⟨rfl, Or.inl ⟨by omega, by omega, ?_, t, ?_⟩⟩⟩
          · rw [rvPrepareInsert, hE, if_neg hcond, if_pos hcap, bind_some ec, bind_some e1]; simp only [hp]
            rw [bind_some e2]; simp only [if_true]
            rw [bind_some e3]; simp only [hkq, decide_false, Bool.false_eq_true, if_false]
            rw [bind_some e4, bind_some e5, bind_some e6]; rfl
          · rw [hold, List.take_of_length_le (by omega)]; exact ⟨ho, hl⟩
          · rw [← a.failC, ← u2.failC]; exact ht
      · obtain ⟨h3, e3, ev, ho⟩ := hx ((false, rv, old / es))
        refine ⟨false, rv, old / es, h3, ?_, ev, fun hh => by simp at hh, fun _ => ⟨rfl, Or.inl ⟨by omega, by omega, ?_, ht⟩⟩⟩
        · rw [rvPrepareInsert, hE, if_neg hcond, if_pos hcap, bind_some ec, bind_some e1]; simp only [hp]
          rw [bind_some e2]; simp only [Bool.false_eq_true, if_false]; exact e3
        · rw [hold, List.take_of_length_le (by omega)]; exact ho
  · refine ⟨false, rv, valid, h1, ?_, s.evolves w, fun hh => by simp at hh, fun _ => ⟨rfl, Or.inr ⟨rfl, ⟨s.holds o.1, o.2⟩, _, hf⟩⟩⟩
    rw [rvPrepareInsert, hE, if_neg hcond, if_pos hcap, bind_some ec, bind_some e1]; rfl

theorem rvPrepareInsert_spec {h : Heap α} {rv : RV} {old off count es valid : Nat} {l : List α} (w : WfH h)
    (o : HasList h rv l) (hs : old = l.length) (hes : 0 < es) (hcnt : 0 < count) (hoff : off ≤ old) (hdo : es ∣ off) (hdl : es ∣ old) :
    ∃ ok rv' v h', rvPrepareInsert rv old off count es valid h = some ((ok, rv', v), h') ∧
      InsertPost h rv old off (count * es) es valid l ok rv' v h' := by
  rcases Nat.lt_or_ge rv.cap (old + count * es) with hc | hc
  · exact rvPrepareInsert_realloc w o hs hes hcnt hoff hdl hc
  · exact rvPrepareInsert_inplace w o hs hes hcnt hoff hdo hdl hc

/-- Filling the gap: either it is filled, or a prefix of it is. -/
theorem fillGap_spec {h : Heap α} {rv : RV} {b off ins : Nat} {l vs : List α} {ss : List (Src α)} (hp : rv.ptr = some b)
    (o : Holds h rv (gap rv.cap off ins l)) (hl : l.length + ins ≤ rv.cap) (ho : off ≤ l.length) (hss : ss.length = ins)
    (hr : Reads h ss vs) :
    ∃ k h', k ≤ ins ∧ copyLoop b off ss h = some ((off + k, decide (k = ins)), h') ∧
      Upd h h' b ((l.take off).map some ++ ((vs.take k).map some ++ (List.replicate (ins - k) none ++ ((l.drop off).map some ++
        List.replicate (rv.cap - l.length - ins) none)))) k ∧
      (k = ins → HasList h' rv (l.take off ++ (vs ++ l.drop off))) ∧ (k < ins → ∃ t, h.failC t = true) := by
  have hlen := hr.length
  have hh := (holds_some hp).mp o
  obtain ⟨k, h', hk, e, u, _, hf⟩ := copyLoop_spec b ss vs h ((l.take off).map some) _ off (by rw [hss]; exact hh.1) (by simp; omega) hr
  rw [hss] at hk e u hf
  refine ⟨k, h', hk, e, u, ?_, hf⟩
  intro hki
  refine hasList_mk hp (u.here.trans ?_) (by simp; omega) hh.2.2
  subst hki
  rw [Nat.sub_self, List.take_of_length_le (l := vs) (by omega)]
  simp
  omega

end Verif.VectorNd
