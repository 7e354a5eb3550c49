import Verif.Lemmas.VectorNd7

/-!
Whole programs: sequences of calls on one vector; what the user sees; number of copies.
-/
set_option autoImplicit false
set_option linter.unusedSectionVars false

namespace Verif.VectorNd
variable {α : Type}

/-! ### What the user sees -/

theorem read_slot {h : Heap α} {rv : RV} {b : Nat} {l : List α} (hp : rv.ptr = some b) (o : HasList h rv l) {i : Nat} (hi : i < l.length) :
    h.read (.ref b i) = some l[i] := by
  obtain ⟨eb, _, _⟩ := hasList_some hp o
  have : h.slot b i = some (some l[i]) := by
    simp only [Heap.slot, eb]
    rw [List.getElem?_append_left (by simpa using hi)]
    simp [hi]
  simp only [Heap.read, this]

theorem view1_eq {h : Heap α} {v : Vec1} {l : List α} (r : Rep1 h v l) : view1 h v = l.map some := by
  obtain ⟨w, o, hs⟩ := r
  apply List.ext_getElem
  · simp [view1, hs]
  · intro i h1 h2
    simp only [view1, List.length_map, List.length_range] at h1 h2
    simp only [view1, List.getElem_map, List.getElem_range]
    cases hp : v.rv.ptr with
    | none => have := (hasList_none hp o).1; subst this; simp at h2
    | some b => exact read_slot hp o h2

theorem flatten_get {m : Nat} : ∀ {rows : List (List α)}, (∀ r ∈ rows, r.length = m) → ∀ {i j : Nat} (hi : i < rows.length) (hj : j < (rows[i]).length)
    (hk : i * m + j < rows.flatten.length), rows.flatten[i * m + j] = rows[i][j]
  | [], _, i, j, hi, _, _ => absurd hi (by simp)
  | r :: rows, h, 0, j, hi, hj, hk => by
    simp only [List.flatten_cons, Nat.zero_mul, Nat.zero_add, List.getElem_cons_zero] at *
    rw [List.getElem_append_left (show j < r.length from hj)]
  | r :: rows, h, i + 1, j, hi, hj, hk => by
    have hr := h r List.mem_cons_self
    have e : (i + 1) * m + j = m + (i * m + j) := by rw [Nat.succ_mul]; omega
    simp only [List.flatten_cons, List.getElem_cons_succ, e] at hj ⊢
    rw [List.getElem_append_right (by omega)]
    simp only [hr, Nat.add_sub_cancel_left]
    exact flatten_get (fun x hx => h x (List.mem_cons_of_mem _ hx)) (by simpa using hi) hj _

theorem viewN_eq {h : Heap α} {v : VecN} {s : Tab α} (r : RepN h v s) : viewN h v = s.rows.map (·.map some) := by
  apply List.ext_getElem
  · simp [viewN, r.top]
  · intro i h1 h2
    simp only [List.length_map] at h2
    simp only [viewN, List.getElem_map, List.getElem_range]
    have hlen : (s.rows[i]).length = prodL s.sub := r.rows _ (List.getElem_mem h2)
    apply List.ext_getElem
    · simp [r.es, hlen]
    · intro j h3 h4
      simp only [List.length_map, List.length_range] at h3 h4
      simp only [List.getElem_map, List.getElem_range]
      have hk : i * v.es + j < s.rows.flatten.length := by
        rw [flatten_len r.rows, r.es]
        have : (i + 1) * prodL s.sub ≤ s.rows.length * prodL s.sub := Nat.mul_le_mul_right _ h2
        rw [Nat.succ_mul] at this
        omega
      cases hp : v.rv.ptr with
      | none => have := (hasList_none hp r.list).1; rw [this] at hk; simp at hk
      | some b =>
        show h.read (.ref b (i * v.es + j)) = _
        rw [read_slot hp r.list hk]
        congr 1
        have hes := r.es
        have := flatten_get r.rows (i := i) (j := j) h2 h4 (by rw [← hes]; exact hk)
        rw [← this]
        simp only [hes]

/-! ### Programs without exceptions -/

def Quiet (h : Heap α) : Prop := (∀ t, h.failC t = false) ∧ ∀ t, h.failA t = false

theorem Quiet.not {h : Heap α} (q : Quiet h) : ¬ CanFail h := by
  rintro (⟨t, ht⟩ | ⟨t, ht⟩)
  · rw [q.1 t] at ht; cases ht
  · rw [q.2 t] at ht; cases ht

theorem Quiet.step {h h' : Heap α} {rv rv' : RV} (q : Quiet h) (e : Evolves h rv h' rv') : Quiet h' := by
  rw [Quiet, e.failC, e.failA]; exact q

theorem wf_empty (f g : Nat → Bool) : WfH (Heap.empty f g : Heap α) := fun _ _ => rfl
theorem rep1_nil {h : Heap α} (w : WfH h) : Rep1 h Vec1.nil ([] : List α) := ⟨w, hasList_null h, rfl⟩

theorem run1_quiet : ∀ (ops : List (Op1 α)) {h : Heap α} {v : Vec1} {l : List α}, Rep1 h v l → Quiet h →
    ∃ v' h', run1 v ops h = some (((specRun1 l ops).1, v'), h') ∧ Evolves h v.rv h' v'.rv ∧ Rep1 h' v' (specRun1 l ops).2
  | [], h, v, l, r, _ => ⟨v, h, rfl, Evolves.refl r.1, r⟩
  | op :: ops, h, v, l, r, q => by
    simp only [run1, specRun1, r.2.2]
    cases hv : valid1 l.length op with
    | false =>
      simp only [Bool.false_eq_true, if_false]
      exact run1_quiet ops r q
    | true =>
      obtain ⟨out, v1, h1, e1, post⟩ := exec1_spec (op := op) r (by rw [r.2.2]; exact hv)
      have hne : out ≠ .threw := fun hh => q.not (post.fail hh).1
      obtain ⟨ho, r1⟩ := post.good hne
      obtain ⟨v2, h2, e2, ev2, r2⟩ := run1_quiet ops r1 (q.step post.ev)
      refine ⟨v2, h2, ?_, post.ev.trans ev2, r2⟩
      simp only [if_true]
      rw [bind_some e1, bind_some e2, ho]; rfl

theorem runN_quiet : ∀ (ops : List (OpN α)) {h : Heap α} {v : VecN} {s : Tab α}, RepN h v s → Quiet h →
    ∃ v' h', runN v ops h = some (((specRunN s ops).1, v'), h') ∧ Evolves h v.rv h' v'.rv ∧ RepN h' v' (specRunN s ops).2
  | [], h, v, s, r, _ => ⟨v, h, rfl, Evolves.refl r.wf, r⟩
  | op :: ops, h, v, s, r, q => by
    simp only [runN, specRunN, r.top, r.sub]
    cases hv : validN s.rows.length s.sub op with
    | false =>
      simp only [Bool.false_eq_true, if_false]
      exact runN_quiet ops r q
    | true =>
      obtain ⟨out, v1, h1, e1, post⟩ := execN_spec (op := op) r (by rw [r.top, r.sub]; exact hv)
      have hne : out ≠ .threw := fun hh => q.not (post.fail hh).1
      obtain ⟨ho, r1⟩ := post.good hne
      obtain ⟨v2, h2, e2, ev2, r2⟩ := runN_quiet ops r1 (q.step post.ev)
      refine ⟨v2, h2, ?_, post.ev.trans ev2, r2⟩
      simp only [if_true]
      rw [bind_some e1, bind_some e2, ho]; rfl

/-! ### Programs with exceptions -/

/-- Calls which may meet the flaw in `insert`. -/
def Op1.inserts : Op1 α → Bool
  | .insert _ _ => true
  | _ => false
def OpN.inserts : OpN α → Bool
  | .insertCount _ _ _ _ => true
  | .insertRange _ _ _ => true
  | _ => false

theorem run1_safe : ∀ (ops : List (Op1 α)) {h : Heap α} {v : Vec1} {l : List α}, Rep1 h v l →
    ((∀ t, h.failA t = false) ∨ ∀ op ∈ ops, op.inserts = false) →
    ∃ outs v' h' l', run1 v ops h = some ((outs, v'), h') ∧ Evolves h v.rv h' v'.rv ∧ Rep1 h' v' l'
  | [], h, v, l, r, _ => ⟨[], v, h, l, rfl, Evolves.refl r.1, r⟩
  | op :: ops, h, v, l, r, q => by
    have q' := q.imp_right (fun q x hx => q x (List.mem_cons_of_mem _ hx))
    simp only [run1]
    cases hv : valid1 v.size op with
    | false =>
      simp only [Bool.false_eq_true, if_false]
      exact run1_safe ops r q'
    | true =>
      obtain ⟨out, v1, h1, e1, post⟩ := exec1_spec (op := op) r hv
      have hr1 : ∃ l1, Rep1 h1 v1 l1 := by
        by_cases hne : out = .threw
        · obtain ⟨_, ⟨l1, r1, _⟩ | ⟨⟨p, as, rfl⟩, t, ht⟩⟩ := post.fail hne
          · exact ⟨l1, r1⟩
          · rcases q with q | q
            · rw [q t] at ht; cases ht
            · exact absurd (q _ List.mem_cons_self) (by simp [Op1.inserts])
        · exact ⟨_, (post.good hne).2⟩
      obtain ⟨l1, r1⟩ := hr1
      obtain ⟨outs, v2, h2, l2, e2, ev2, r2⟩ := run1_safe ops r1 (by rw [post.ev.failA]; exact q')
      refine ⟨out :: outs, v2, h2, l2, ?_, post.ev.trans ev2, r2⟩
      simp only [if_true]
      rw [bind_some e1, bind_some e2]; rfl

theorem runN_safe : ∀ (ops : List (OpN α)) {h : Heap α} {v : VecN} {s : Tab α}, RepN h v s →
    ((∀ t, h.failA t = false) ∨ ∀ op ∈ ops, op.inserts = false) →
    ∃ outs v' h' s', runN v ops h = some ((outs, v'), h') ∧ Evolves h v.rv h' v'.rv ∧ RepN h' v' s'
  | [], h, v, s, r, _ => ⟨[], v, h, s, rfl, Evolves.refl r.wf, r⟩
  | op :: ops, h, v, s, r, q => by
    have q' := q.imp_right (fun q x hx => q x (List.mem_cons_of_mem _ hx))
    simp only [runN]
    cases hv : validN v.top v.sub op with
    | false =>
      simp only [Bool.false_eq_true, if_false]
      exact runN_safe ops r q'
    | true =>
      obtain ⟨out, v1, h1, e1, post⟩ := execN_spec (op := op) r hv
      have hr1 : ∃ s1, RepN h1 v1 s1 := by
        by_cases hne : out = .threw
        · obtain ⟨_, ⟨l1, r1, _⟩ | ⟨⟨p, c, sh, row, rfl⟩ | ⟨p, sh, rs, rfl⟩, t, ht⟩⟩ := post.fail hne
          · exact ⟨l1, r1⟩
          · rcases q with q | q
            · rw [q t] at ht; cases ht
            · exact absurd (q _ List.mem_cons_self) (by simp [OpN.inserts])
          · rcases q with q | q
            · rw [q t] at ht; cases ht
            · exact absurd (q _ List.mem_cons_self) (by simp [OpN.inserts])
        · exact ⟨_, (post.good hne).2⟩
      obtain ⟨l1, r1⟩ := hr1
      obtain ⟨outs, v2, h2, l2, e2, ev2, r2⟩ := runN_safe ops r1 (by rw [post.ev.failA]; exact q')
      refine ⟨out :: outs, v2, h2, l2, ?_, post.ev.trans ev2, r2⟩
      simp only [if_true]
      rw [bind_some e1, bind_some e2]; rfl

/-- After the destructor nothing is left. -/
theorem all_free {h h1 : Heap α} {rv : RV} (h0 : ∀ b, h.blk b = none) (e : Evolves h RV.null h1 RV.null) : ∀ b, h1.blk b = none :=
  fun b => (e.frame b (by simp [RV.null]) (by simp [RV.null])).trans (h0 b)

/-! ### Number of copies -/

/-- Bookkeeping of `n` insertions at the end, of `m` elements each, from `s` elements in a block of `c` slots. -/
structure Pay (m s c n total cap paid : Nat) : Prop where
  size : total = s + n * m
  fit : total ≤ cap
  pay : paid + 2 * total + c ≤ 3 * (n * m) + cap + 2 * s
  grown : (cap = c ∧ paid = n * m) ∨ cap ≤ 2 * total

theorem Pay.bound {m s c n total cap paid : Nat} (p : Pay m s c n total cap paid) (hc : s ≤ c) : paid ≤ 3 * (n * m) + s := by
  have := p.size; have := p.pay
  rcases p.grown with ⟨h1, h2⟩ | h1 <;> omega

theorem Pay.step {m s c n total cap paid total' cap' paid' : Nat} (p : Pay m s c n total cap paid) (ht : total' = total + m)
    (hc : (total' ≤ cap ∧ cap' = cap ∧ paid' = paid + m) ∨ (cap < total' ∧ cap' = max total' (2 * cap) ∧ paid' = paid + total + m)) :
    Pay m s c (n + 1) total' cap' paid' := by
  have h1 := p.size; have h2 := p.fit; have h3 := p.pay; have h4 := p.grown
  have e : (n + 1) * m = n * m + m := Nat.succ_mul n m
  generalize n * m = z at *
  rcases hc with ⟨a, rfl, rfl⟩ | ⟨a, b, rfl⟩
  · refine ⟨by omega, by omega, by omega, ?_⟩
    rcases h4 with ⟨g1, g2⟩ | g1
    · exact Or.inl ⟨g1, by omega⟩
    · exact Or.inr (by omega)
  · have : cap' = total' ∨ cap' = 2 * cap := by omega
    refine ⟨by omega, by omega, ?_, Or.inr (by omega)⟩
    omega

theorem pushCost1 {h : Heap α} {v : Vec1} {l : List α} (r : Rep1 h v l) (q : Quiet h) (a : α) (hlim : v.size < sizeMax / 2) :
    ∃ v' h', v.pushBack (.val a) h = some ((.ok, v'), h') ∧ Rep1 h' v' (l ++ [a]) ∧ Quiet h' ∧
      ((v.size + 1 ≤ v.rv.cap ∧ v'.rv.cap = v.rv.cap ∧ h'.copies = h.copies + 1) ∨
       (v.rv.cap < v.size + 1 ∧ v'.rv.cap = max (v.size + 1) (2 * v.rv.cap) ∧ h'.copies = h.copies + v.size + 1)) := by
  obtain ⟨w, o, hs⟩ := r
  obtain ⟨ok, rv', h1, e1, ev1, o1, hok, hno⟩ := rvPreparePushBack_spec (new := v.size + 1) w o hs (by omega)
  have hq1 := q.step ev1
  cases ok with
  | false => exact absurd (hno rfl).2 q.not
  | true =>
    obtain ⟨hcap, hsame, hgrow⟩ := hok rfl
    cases hp : rv'.ptr with
    | none => have := (hasList_none hp o1).2; omega
    | some b =>
      obtain ⟨eb, hl, hc⟩ := hasList_some hp o1
      have eb' : h1.blk b = some (l.map some ++ none :: List.replicate (rv'.cap - l.length - 1) none) := by
        rw [eb, rep_cons']; congr 3; omega
      rcases construct_spec (i := v.size) (s := .val a) (a := a) eb' (by simpa using hs) rfl with ⟨h2, e2, u2, _⟩ | ⟨h2, e2, u2, hf⟩
      · have ev2 := u2.evolves (rv := rv') ev1.wf hp (lt_next ev1.wf eb)
        refine ⟨⟨rv', v.size + 1⟩, h2, ?_, ⟨ev2.wf, hasList_mk hp (u2.here.trans ?_) (by simp; omega) hc, by simp [hs]⟩, hq1.step ev2, ?_⟩
        · rw [Vec1.pushBack, bind_some e1]; simp only [hp, if_true]; rw [bind_some e2]; rfl
        · simp; omega
        · by_cases hle : v.size + 1 ≤ v.rv.cap
          · obtain ⟨rfl, rfl⟩ := hsame hle
            exact Or.inl ⟨hle, rfl, u2.copies⟩
          · obtain ⟨g1, _, g3⟩ := hgrow (by omega)
            have hol := o.2
            refine Or.inr ⟨by omega, g3 (by omega), ?_⟩
            rw [u2.copies, g1, hs]
      · rw [hq1.1] at hf; cases hf

theorem pushCostN {h : Heap α} {v : VecN} {s : Tab α} (r : RepN h v s) (q : Quiet h) {row : List α}
    (hlen : row.length = prodL s.sub) (hpos : 0 < prodL s.sub) (hlim : v.rv.cap < sizeMax / 2) :
    ∃ v' h', v.pushBack s.sub (row.map Src.val) h = some ((.ok, v'), h') ∧ RepN h' v' ⟨s.sub, s.rows ++ [row]⟩ ∧ Quiet h' ∧
      ((v.total + row.length ≤ v.rv.cap ∧ v'.rv.cap = v.rv.cap ∧ h'.copies = h.copies + row.length) ∨
       (v.rv.cap < v.total + row.length ∧ v'.rv.cap = max (v.total + row.length) (2 * v.rv.cap) ∧
        h'.copies = h.copies + v.total + row.length)) := by
  have hf : s.fits s.sub = true := by simp [Tab.fits]
  obtain ⟨r1, hrv, _, _⟩ := initIfEmpty_spec r (Or.inr hpos) hf (p := 0) (Nat.zero_le _)
  have hm : ¬¬(v.matchSub s.sub = true) := by rw [matchSub_eq r (Or.inr hpos)]; exact fun hh => hh hf
  have htt : (v.initIfEmpty s.sub).total = v.total := by rw [r1.total, r.total]
  generalize hv1 : v.initIfEmpty s.sub = v1 at *
  have hl' : (row.map (Src.val (α := α))).length = prodL s.sub := by simp [hlen]
  obtain ⟨ok, rv', h1, e1, ev1, o1, hok, hno⟩ := rvPreparePushBack_spec (new := v1.total + prodL s.sub) r1.wf r1.list r1.total (by omega)
  have hq1 := q.step ev1
  cases ok with
  | false => exact absurd (hno rfl).2 q.not
  | true =>
    obtain ⟨hcap, hsame, hgrow⟩ := hok rfl
    dsimp only at o1 hgrow
    cases hp : rv'.ptr with
    | none => have := (hasList_none hp o1).2; omega
    | some b =>
      obtain ⟨eb, hl, hc⟩ := hasList_some hp o1
      have ht := r1.total
      dsimp only at ht
      have eb' : h1.blk b = some (s.rows.flatten.map some ++ (List.replicate (row.map (Src.val (α := α))).length none ++ List.replicate (rv'.cap - v1.total - prodL s.sub) none)) := by
        rw [eb, rep_add', hl', ht]; congr 3; omega
      obtain ⟨k, h2, hk, e2, u2, _, hfail⟩ := copyLoop_spec b _ _ h1 _ _ v1.total eb' (by rw [List.length_map]; exact ht) (Reads.vals row)
      rw [hl'] at hk e2 u2 hfail
      by_cases hke : k = prodL s.sub
      · have ev2 := u2.evolves (rv := rv') ev1.wf hp (lt_next ev1.wf eb)
        refine ⟨{ v1 with rv := rv' }.setTop (v1.top + 1), h2, ?_, ?_, hq1.step ev2, ?_⟩
        · rw [VecN.pushBack, if_neg hm]; simp only [hv1, hl']; rw [bind_some e1]; simp only [hp, if_true]
          rw [bind_some e2]; simp only [hke, decide_true, if_true]; rfl
        · refine RepN.mk' (v := { v1 with rv := rv' }) (rows := s.rows ++ [row]) ev2.wf ?_ r1.sub r1.es (mem_append_of r1.rows (by simpa using hlen)) (by simp [r1.top])
          refine hasList_mk hp (u2.here.trans ?_) (by simp only [List.flatten_append, List.length_append, List.flatten_cons, List.flatten_nil, List.append_nil]; omega) hc
          subst hke
          rw [List.take_of_length_le (by omega), Nat.sub_self]
          simp only [List.flatten_append, List.flatten_cons, List.flatten_nil, List.append_nil, List.map_append, List.replicate_zero, List.nil_append, List.append_assoc]
          congr 4; simp only [List.length_append]; omega
        · subst hke
          show (_ ∧ rv'.cap = _ ∧ _) ∨ (_ ∧ rv'.cap = _ ∧ _)
          rw [← hrv, ← htt, hlen]
          by_cases hle : v1.total + prodL s.sub ≤ v1.rv.cap
          · obtain ⟨rfl, rfl⟩ := hsame hle
            exact Or.inl ⟨hle, rfl, u2.copies⟩
          · obtain ⟨g1, _, g3⟩ := hgrow (by omega)
            refine Or.inr ⟨by omega, g3 (by rw [hrv]; exact hlim), ?_⟩
            rw [u2.copies, g1, ht]
      · obtain ⟨t, htf⟩ := hfail (by omega)
        rw [hq1.1] at htf; cases htf

end Verif.VectorNd
