import Verif.Lemmas.VectorNd5

/-!
Each member function of the vector with more dimensions, for every choice of the copies and allocations that throw.
-/
set_option autoImplicit false
set_option linter.unusedSectionVars false

namespace Verif.VectorNd
variable {α : Type}

/-! ### Rows and the plain sequence -/

theorem flatten_len {m : Nat} : ∀ {rows : List (List α)}, (∀ r ∈ rows, r.length = m) → rows.flatten.length = rows.length * m
  | [], _ => by simp
  | r :: rows, h => by
    rw [List.flatten_cons, List.length_append, flatten_len (fun x hx => h x (List.mem_cons_of_mem _ hx)), h r List.mem_cons_self,
      List.length_cons, Nat.succ_mul, Nat.add_comm]

theorem flatten_take {m : Nat} : ∀ {rows : List (List α)}, (∀ r ∈ rows, r.length = m) → ∀ k,
    rows.flatten.take (k * m) = (rows.take k).flatten
  | [], _, k => by simp
  | r :: rows, h, 0 => by simp
  | r :: rows, h, k + 1 => by
    have hr := h r List.mem_cons_self
    rw [List.flatten_cons, List.take_append, List.take_of_length_le (by rw [hr, Nat.succ_mul]; omega), hr,
      show (k + 1) * m - m = k * m by rw [Nat.succ_mul]; omega,
      flatten_take (fun x hx => h x (List.mem_cons_of_mem _ hx)) k, List.take_succ_cons, List.flatten_cons]

theorem flatten_drop {m : Nat} : ∀ {rows : List (List α)}, (∀ r ∈ rows, r.length = m) → ∀ k,
    rows.flatten.drop (k * m) = (rows.drop k).flatten
  | [], _, k => by simp
  | r :: rows, h, 0 => by simp
  | r :: rows, h, k + 1 => by
    have hr := h r List.mem_cons_self
    rw [List.flatten_cons, List.drop_append, List.drop_of_length_le (by rw [hr, Nat.succ_mul]; omega), hr,
      show (k + 1) * m - m = k * m by rw [Nat.succ_mul]; omega,
      flatten_drop (fun x hx => h x (List.mem_cons_of_mem _ hx)) k, List.drop_succ_cons, List.nil_append]

theorem chunks_length (m : Nat) : ∀ (n : Nat) (l : List α), (chunks m n l).length = n
  | 0, _ => rfl
  | n + 1, l => by simp [chunks, chunks_length m n]

theorem chunks_flatten (m : Nat) : ∀ (n : Nat) (l : List α), (chunks m n l).flatten = l.take (n * m)
  | 0, l => by simp [chunks]
  | n + 1, l => by
    rw [chunks, List.flatten_cons, chunks_flatten m n, Nat.succ_mul, Nat.add_comm, List.take_add]

theorem chunks_rows (m : Nat) : ∀ (n : Nat) (l : List α), n * m ≤ l.length → ∀ r ∈ chunks m n l, r.length = m
  | 0, _, _, r, hr => absurd hr (by simp [chunks])
  | n + 1, l, h, r, hr => by
    rw [Nat.succ_mul] at h
    rcases List.mem_cons.mp hr with rfl | hr
    · rw [List.length_take]; omega
    · exact chunks_rows m n _ (by rw [List.length_drop]; omega) r hr

theorem flatten_const (n m : Nat) (a : α) : (List.replicate n (List.replicate m a)).flatten = List.replicate (n * m) a := by
  induction n with
  | zero => simp
  | succ n ih => rw [List.replicate_succ, List.flatten_cons, ih, List.replicate_append_replicate]; congr 1; rw [Nat.succ_mul]; omega

theorem mem_take_of {m : Nat} {rows : List (List α)} (h : ∀ r ∈ rows, r.length = m) (k : Nat) : ∀ r ∈ rows.take k, r.length = m :=
  fun r hr => h r (List.mem_of_mem_take hr)

theorem mem_drop_of {m : Nat} {rows : List (List α)} (h : ∀ r ∈ rows, r.length = m) (k : Nat) : ∀ r ∈ rows.drop k, r.length = m :=
  fun r hr => h r (List.mem_of_mem_drop hr)

theorem mem_append_of {m : Nat} {xs ys : List (List α)} (hx : ∀ r ∈ xs, r.length = m) (hy : ∀ r ∈ ys, r.length = m) :
    ∀ r ∈ xs ++ ys, r.length = m := fun r hr => (List.mem_append.mp hr).elim (hx r) (hy r)

theorem prodL_replicate_zero {d : Nat} (h : 0 < d) : prodL (List.replicate d 0) = 0 := by
  obtain ⟨d, rfl⟩ : ∃ k, d = k + 1 := ⟨d - 1, by omega⟩
  simp [prodL, List.replicate_succ]

/-! ### The calls -/

structure PostN (h : Heap α) (v : VecN) (s : Tab α) (op : OpN α) (out : Out) (v' : VecN) (h' : Heap α) : Prop where
  ev : Evolves h v.rv h' v'.rv
  good : out ≠ .threw → out = (specN s op).1 ∧ RepN h' v' (specN s op).2
  fail : out = .threw → CanFail h ∧ ((∃ s', RepN h' v' s' ∧ leftN s s' op) ∨
    (((∃ p c sh r, op = .insertCount p c sh r) ∨ ∃ p sh rs, op = .insertRange p sh rs) ∧ ∃ t, h.failA t = true))

theorem RepN.total_eq {h : Heap α} {v : VecN} {s : Tab α} (r : RepN h v s) : v.total = s.rows.length * prodL s.sub := by
  rw [r.total, flatten_len r.rows]

theorem RepN.mk' {h : Heap α} {v : VecN} {rows : List (List α)} {sub : List Nat} (w : WfH h) (o : HasList h v.rv rows.flatten)
    (hsub : v.sub = sub) (hes : v.es = prodL sub) (hr : ∀ r ∈ rows, r.length = prodL sub) {n : Nat} (hn : n = rows.length) :
    RepN h (v.setTop n) ⟨sub, rows⟩ :=
  ⟨w, o, hn, by show v.es * n = rows.flatten.length; rw [flatten_len hr, hes, hn, Nat.mul_comm], hsub, hes, hr⟩

theorem repN_init {h : Heap α} {v : VecN} {rows : List (List α)} {sub : List Nat} (w : WfH h) (o : HasList h v.rv rows.flatten)
    (hr : ∀ r ∈ rows, r.length = prodL sub) {n : Nat} (hn : n = rows.length) : RepN h (v.initSizes n sub) ⟨sub, rows⟩ :=
  ⟨w, o, hn, by show n * prodL sub = rows.flatten.length; rw [flatten_len hr, hn], rfl, rfl, hr⟩

theorem repN_nil {h : Heap α} (w : WfH h) {d : Nat} (hd : 0 < d) : RepN h (VecN.nil d) ⟨List.replicate d 0, []⟩ :=
  ⟨w, hasList_null h, rfl, rfl, rfl, (prodL_replicate_zero hd).symm, fun _ h => absurd h (by simp)⟩

theorem destroyAllN {h : Heap α} {v : VecN} {s : Tab α} (r : RepN h v s) :
    ∃ h', v.destroyAll h = some ((), h') ∧ Evolves h v.rv h' v.rv ∧ HasList h' v.rv [] :=
  destroyAll1 (v := ⟨v.rv, v.total⟩) ⟨r.wf, r.list, r.total⟩

theorem dtorN {h : Heap α} {v : VecN} {s : Tab α} (r : RepN h v s) :
    ∃ h', v.dtor h = some ((), h') ∧ Evolves h v.rv h' RV.null :=
  dtor1 (v := ⟨v.rv, v.total⟩) ⟨r.wf, r.list, r.total⟩

/-- Emptiness and the shape test agree with the specification. -/
theorem matchSub_eq {h : Heap α} {v : VecN} {s : Tab α} (r : RepN h v s) (hne : v.top = 0 ∨ 0 < prodL s.sub) (shape : List Nat) :
    v.matchSub shape = s.fits shape := by
  have ht : decide (v.total = 0) = s.rows.isEmpty := by
    rw [r.total_eq, ← r.top]
    rw [Bool.eq_iff_iff, List.isEmpty_iff, decide_eq_true_iff, ← List.length_eq_zero_iff, ← r.top, Nat.mul_eq_zero]
    omega
  rw [VecN.matchSub, Tab.fits, ht, r.sub]

theorem initIfEmpty_spec {h : Heap α} {v : VecN} {s : Tab α} (r : RepN h v s) (hne : v.top = 0 ∨ 0 < prodL s.sub) {shape : List Nat}
    (hf : s.fits shape = true) {p : Nat} (hp : p ≤ v.top) :
    RepN h (v.initIfEmpty shape) ⟨shape, s.rows⟩ ∧ (v.initIfEmpty shape).rv = v.rv ∧ p * v.es = p * prodL shape ∧
      (shape = s.sub ∨ s.rows = []) := by
  by_cases h0 : s.rows = []
  · have htop : v.top = 0 := by rw [r.top, h0]; rfl
    have ht : v.total = 0 := by rw [r.total, h0]; rfl
    have hi : v.initIfEmpty shape = v.initSizes 0 shape := by rw [VecN.initIfEmpty, if_pos ht]
    rw [hi, h0]
    have hp0 : p = 0 := by omega
    refine ⟨repN_init r.wf ?_ (fun _ h => absurd h (by simp)) rfl, rfl, by rw [hp0]; simp, Or.inr rfl⟩
    have := r.list; rw [h0] at this; exact this
  · have htop : v.top ≠ 0 := by rw [r.top]; exact fun h => h0 (List.length_eq_zero_iff.mp h)
    have hsh : shape = s.sub := by
      simp only [Tab.fits, Bool.and_eq_true, Bool.or_eq_true, decide_eq_true_iff, List.isEmpty_iff] at hf
      exact hf.2.resolve_left h0
    have ht : v.total ≠ 0 := by
      rw [r.total_eq, ← r.top]
      exact Nat.mul_ne_zero htop (by omega)
    have hi : v.initIfEmpty shape = v := by rw [VecN.initIfEmpty, if_neg ht]
    rw [hi, hsh]
    exact ⟨r, rfl, by rw [r.es], Or.inl rfl⟩

theorem pushBackN {h : Heap α} {v : VecN} {s : Tab α} (r : RepN h v s) {shape : List Nat} {row : List α}
    (hlen : row.length = prodL shape) (hpos : 0 < prodL shape) (hne : v.top = 0 ∨ 0 < prodL s.sub) :
    ∃ out v' h', v.pushBack shape (row.map Src.val) h = some ((out, v'), h') ∧ PostN h v s (.pushBack shape row) out v' h' := by
  by_cases hf : s.fits shape = true
  · obtain ⟨r1, hrv, _, hsub⟩ := initIfEmpty_spec r hne hf (p := 0) (Nat.zero_le _)
    have hm : ¬¬(v.matchSub shape = true) := by rw [matchSub_eq r hne]; exact fun hh => hh hf
    generalize hv1 : v.initIfEmpty shape = v1 at *
    have hl' : (row.map (Src.val (α := α))).length = prodL shape := by simp [hlen]
    obtain ⟨ok, rv', h1, e1, ev1, o1, hok, hno⟩ := rvPreparePushBack_spec (new := v1.total + prodL shape) r1.wf r1.list r1.total (by omega)
    have hleft : ∀ s' : Tab α, s'.rows = s.rows → s'.sub = shape → leftN s s' (.pushBack shape row) := fun s' h1 h2 =>
      ⟨h1, hsub.elim (fun e => Or.inl (h2.trans e)) (fun e => Or.inr ⟨e, h2⟩)⟩
    cases ok with
    | false =>
      obtain ⟨rfl, hcf⟩ := hno rfl
      refine ⟨.threw, { v1 with rv := v1.rv }, h1, ?_, hrv ▸ ev1, fun hh => absurd rfl hh, fun _ => ⟨hcf, Or.inl ⟨⟨shape, s.rows⟩, ⟨ev1.wf, o1, r1.top, r1.total, r1.sub, r1.es, r1.rows⟩, hleft _ rfl rfl⟩⟩⟩
      rw [VecN.pushBack, if_neg hm]; simp only [hv1, hl']; rw [bind_some e1]; rfl
    | true =>
      obtain ⟨hcap, _, _⟩ := hok rfl
      cases hp : rv'.ptr with
      | none => have := (hasList_none hp o1).2; omega
      | some b =>
        obtain ⟨eb, hl, hc⟩ := hasList_some hp o1
        have ht := r1.total
        have eb' : h1.blk b = some (s.rows.flatten.map some ++ (List.replicate (row.map (Src.val (α := α))).length none ++ List.replicate (rv'.cap - v1.total - prodL shape) none)) := by
          rw [eb, rep_add', hl', ht]; congr 3; dsimp only at hl ht ⊢; omega
        obtain ⟨k, h2, hk, e2, u2, _, hfail⟩ := copyLoop_spec b _ _ h1 _ _ v1.total eb' (by rw [List.length_map]; exact ht) (Reads.vals row)
        rw [hl'] at hk e2 u2 hfail
        by_cases hke : k = prodL shape
        · have ev2 := u2.evolves (rv := rv') ev1.wf hp (lt_next ev1.wf eb)
          refine ⟨.ok, { v1 with rv := rv' }.setTop (v1.top + 1), h2, ?_, hrv ▸ ev1.trans ev2, fun _ => ?_, fun hh => by simp at hh⟩
          · rw [VecN.pushBack, if_neg hm]; simp only [hv1, hl']; rw [bind_some e1]; simp only [hp, if_true]
            rw [bind_some e2]; simp only [hke, decide_true, if_true]; rfl
          · simp only [specN, hf, if_true]
            refine ⟨trivial, RepN.mk' (v := { v1 with rv := rv' }) (rows := s.rows ++ [row]) (sub := shape) ev2.wf ?_ r1.sub r1.es (mem_append_of r1.rows (by simpa using hlen)) (by simp [r1.top])⟩
            refine hasList_mk hp (u2.here.trans ?_) (by simp only [List.flatten_append, List.length_append, List.flatten_cons, List.flatten_nil, List.append_nil]; dsimp only at ht; omega) hc
            subst hke
            rw [List.take_of_length_le (by omega), Nat.sub_self]
            simp only [List.flatten_append, List.flatten_cons, List.flatten_nil, List.append_nil, List.map_append, List.replicate_zero, List.nil_append, List.append_assoc]
            dsimp only at ht
            congr 4; simp only [List.length_append]; omega
        · have hX : s.rows.flatten.map some ++ ((row.take k).map some ++ (List.replicate (prodL shape - k) none ++ List.replicate (rv'.cap - v1.total - prodL shape) none))
              = s.rows.flatten.map some ++ ((row.take k).map some ++ List.replicate (rv'.cap - v1.total - k) none) := by
            rw [rep_add']; congr 3; omega
          obtain ⟨h3, e3, u3⟩ := destroy_spec (h := h2) (b := b) (lo := v1.total) (hi := v1.total + k) (u2.here.trans (congrArg some hX)) (by rw [List.length_map]; exact ht) (by simp; omega)
          have ue := u2.trans u3
          have ev3 := ue.evolves (rv := rv') ev1.wf hp (lt_next ev1.wf eb)
          obtain ⟨t, htt⟩ := hfail (by omega)
          refine ⟨.threw, { v1 with rv := rv' }, h3, ?_, hrv ▸ ev1.trans ev3, fun hh => absurd rfl hh, fun _ => ⟨Or.inl ⟨t, by rw [← ev1.failC]; exact htt⟩, Or.inl ⟨⟨shape, s.rows⟩, ⟨ev3.wf, hasList_mk hp (ue.here.trans ?_) hl hc, r1.top, r1.total, r1.sub, r1.es, r1.rows⟩, hleft _ rfl rfl⟩⟩⟩
          · rw [VecN.pushBack, if_neg hm]; simp only [hv1, hl']; rw [bind_some e1]; simp only [hp, if_true]
            rw [bind_some e2]; simp only [hke, decide_false, Bool.false_eq_true, if_false]
            rw [bind_some e3]; rfl
          · rw [rep_add']; congr 3; dsimp only at ht ⊢; simp only [List.length_take]; omega
  · refine ⟨.argumentError, v, h, ?_, Evolves.refl r.wf, fun _ => ?_, fun hh => by simp at hh⟩
    · rw [VecN.pushBack, if_pos (by rw [matchSub_eq r hne]; exact hf)]; rfl
    · simp only [specN, if_neg hf]; exact ⟨trivial, r⟩

theorem insertRangeN {h : Heap α} {v : VecN} {s : Tab α} (r : RepN h v s) {shape : List Nat} {rows : List (List α)} {p : Nat}
    (hpt : p ≤ v.top) (hlen : ∀ x ∈ rows, x.length = prodL shape) (hpos : 0 < prodL shape) (hne : v.top = 0 ∨ 0 < prodL s.sub) :
    ∃ out v' h', v.insertRange p rows.length shape (rows.flatten.map Src.val) h = some ((out, v'), h') ∧
      PostN h v s (.insertRange p shape rows) out v' h' := by
  by_cases h0 : rows = []
  · subst h0
    exact ⟨.ok, v, h, rfl, Evolves.refl r.wf, fun _ => ⟨rfl, r⟩, fun hh => by simp at hh⟩
  have hc0 : rows.length ≠ 0 := fun hh => h0 (List.length_eq_zero_iff.mp hh)
  have hie : rows.isEmpty = false := by simpa using h0
  by_cases hf : s.fits shape = true
  · obtain ⟨r1, hrv, hpes, hsub⟩ := initIfEmpty_spec r hne hf hpt
    have hm : ¬¬(v.matchSub shape = true) := by rw [matchSub_eq r hne]; exact fun hh => hh hf
    have htop1 : (v.initIfEmpty shape).top = v.top := by rw [r1.top, r.top]
    generalize hv1 : v.initIfEmpty shape = v1 at *
    have hl' : (rows.flatten.map (Src.val (α := α))).length = rows.length * prodL shape := by rw [List.length_map, flatten_len hlen]
    have ht : v1.total = s.rows.length * prodL shape := r1.total_eq
    have htop : v1.top = s.rows.length := r1.top
    have hpm : p * prodL shape ≤ v1.total := by rw [ht, ← htop, htop1]; exact Nat.mul_le_mul_right _ hpt
    obtain ⟨ok, rv', vc, h1, e1, post⟩ := rvPrepareInsert_spec (count := rows.length) (es := prodL shape) (valid := 0) (off := p * prodL shape) r1.wf r1.list r1.total hpos (by omega) hpm ⟨p, Nat.mul_comm _ _⟩ ⟨s.rows.length, by rw [ht, Nat.mul_comm]⟩
    have hsubOr : ∀ rs : List (List α), (((∃ m, p ≤ m ∧ rs = s.rows.take m) ∨ ∃ k, rs = s.rows.take p ++ rows.take k)) → leftN s ⟨shape, rs⟩ (.insertRange p shape rows) := fun rs hh =>
      ⟨hh, hsub.elim Or.inl (fun e => Or.inr ⟨e, rfl⟩)⟩
    cases ok with
    | false =>
      obtain ⟨rfl, hff⟩ := post.fail rfl
      refine ⟨.threw, { v1 with rv := v1.rv }.setTop vc, h1, ?_, ?_, fun hh => absurd rfl hh, fun _ => ?_⟩
      · rw [VecN.insertRange, if_neg hc0, if_neg hm, if_neg (by omega)]; simp only [hpes, hv1, VecN.prepareInsert]
        have ep : (rvPrepareInsert v1.rv v1.total (p * prodL shape) rows.length (prodL shape) 0 >>= fun r => (pure (if r.1 = true then (true, { v1 with rv := r.2.1 }) else (false, { v1 with rv := r.2.1 }.setTop r.2.2)) : M α (Bool × VecN))) h
            = some ((false, { v1 with rv := v1.rv }.setTop vc), h1) := by rw [bind_some e1]; rfl
        rw [bind_some ep]; rfl
      · exact hrv ▸ post.ev
      · rcases hff with ⟨hpv, hvo, ho, htt⟩ | ⟨_, _, htt⟩
        · refine ⟨Or.inl htt, Or.inl ⟨⟨shape, s.rows.take vc⟩, RepN.mk' post.ev.wf ?_ r1.sub r1.es (mem_take_of r1.rows _) ?_, hsubOr _ (Or.inl ⟨vc, Nat.le_of_mul_le_mul_right hpv hpos, rfl⟩)⟩⟩
          · rw [← flatten_take r1.rows]; exact ho
          · rw [ht] at hvo
            have := Nat.le_of_mul_le_mul_right hvo hpos
            rw [List.length_take]; dsimp only; omega
        · exact ⟨Or.inr htt, Or.inr ⟨Or.inr ⟨_, _, _, rfl⟩, htt⟩⟩
    | true =>
      obtain ⟨_, hg, hcap⟩ := post.good rfl
      dsimp only at hcap
      have ep : (rvPrepareInsert v1.rv v1.total (p * prodL shape) rows.length (prodL shape) 0 >>= fun r => (pure (if r.1 = true then (true, { v1 with rv := r.2.1 }) else (false, { v1 with rv := r.2.1 }.setTop r.2.2)) : M α (Bool × VecN))) h
            = some ((true, { v1 with rv := rv' }), h1) := by rw [bind_some e1]; rfl
      cases hp : rv'.ptr with
      | none =>
        have := ((holds_none hp).mp hg).1
        have : 0 < rows.length * prodL shape := Nat.mul_pos (by omega) hpos
        omega
      | some b =>
        have hh := (holds_some hp).mp hg
        have hofl : p * prodL shape ≤ s.rows.flatten.length := by have := r1.total; dsimp only at this; omega
        obtain ⟨k, h2, hk, e2, u2, hfull, hfail⟩ := fillGap_spec hp hg hcap hofl hl' (Reads.vals rows.flatten)
        have ev2 := u2.evolves (rv := rv') post.ev.wf hp (lt_next post.ev.wf hh.1)
        have hspec : specN s (.insertRange p shape rows) = (.ok, ⟨shape, s.rows.take p ++ rows ++ s.rows.drop p⟩) := by simp only [specN, hie, hf]; rfl
        by_cases hki : k = rows.length * prodL shape
        · refine ⟨.ok, { v1 with rv := rv' }.setTop (v1.top + rows.length), h2, ?_, ?_, fun _ => ?_, fun hh => by simp at hh⟩
          · rw [VecN.insertRange, if_neg hc0, if_neg hm, if_neg (by omega)]; simp only [hpes, hv1, VecN.prepareInsert]
            rw [bind_some ep]; simp only [hp, if_true]
            rw [bind_some e2]; simp only [hki, decide_true, if_true]; rfl
          · exact hrv ▸ post.ev.trans ev2
          · rw [hspec]
            refine ⟨rfl, RepN.mk' (v := { v1 with rv := rv' }) (rows := s.rows.take p ++ rows ++ s.rows.drop p) (sub := shape) ev2.wf ?_ r1.sub r1.es (mem_append_of (mem_append_of (mem_take_of r1.rows _) hlen) (mem_drop_of r1.rows _)) (by simp; omega)⟩
            have := hfull hki
            rw [flatten_take r1.rows, flatten_drop r1.rows] at this
            simpa using this
        · have hq : k / prodL shape * prodL shape ≤ k := Nat.div_mul_le_self _ _
          generalize hqd : k / prodL shape = q at *
          have hql : q ≤ rows.length := by
            rw [← hqd]; have := Nat.div_le_div_right (c := prodL shape) hk; rwa [Nat.mul_div_cancel _ hpos] at this
          have hTk : rows.flatten.take k = rows.flatten.take (q * prodL shape) ++ (rows.flatten.drop (q * prodL shape)).take (k - q * prodL shape) := by
            conv => lhs; rw [show k = q * prodL shape + (k - q * prodL shape) by omega, List.take_add]
          have hflen : rows.flatten.length = rows.length * prodL shape := flatten_len hlen
          have hlq : (rows.flatten.take (q * prodL shape)).length = q * prodL shape := by rw [List.length_take]; omega
          have hlr : ((rows.flatten.drop (q * prodL shape)).take (k - q * prodL shape)).length = k - q * prodL shape := by rw [List.length_take, List.length_drop]; omega
          have hlp : (s.rows.flatten.take (p * prodL shape)).length = p * prodL shape := by rw [List.length_take]; omega
          generalize hA : s.rows.flatten.take (p * prodL shape) = A at *
          generalize hB : s.rows.flatten.drop (p * prodL shape) = B at *
          generalize hQ : rows.flatten.take (q * prodL shape) = Q at *
          generalize hR : (rows.flatten.drop (q * prodL shape)).take (k - q * prodL shape) = R at *
          generalize hN : rows.length * prodL shape = N at *
          generalize hC : rv'.cap - s.rows.flatten.length - N = C at *
          have hBl : B.length = s.rows.flatten.length - p * prodL shape := by rw [← hB, List.length_drop]
          generalize hm' : p * prodL shape = off at *
          generalize hqm : q * prodL shape = qm at *
          have hX : A.map some ++ ((rows.flatten.take k).map some ++ (List.replicate (N - k) none ++ (B.map some ++ List.replicate C none)))
              = (A ++ Q).map some ++ (R.map some ++ (List.replicate (N - k) none ++ (B.map some ++ List.replicate C none))) := by rw [hTk]; simp
          obtain ⟨h3, e3, u3⟩ := destroy_spec (h := h2) (b := b) (lo := off + qm) (hi := off + k) (u2.here.trans (congrArg some hX)) (by simp; omega) (by omega)
          have hY : (A ++ Q).map some ++ (List.replicate R.length none ++ (List.replicate (N - k) none ++ (B.map some ++ List.replicate C none)))
              = ((A ++ Q).map some ++ List.replicate (R.length + (N - k)) none) ++ (B.map some ++ List.replicate C none) := by
            rw [← List.append_assoc (List.replicate _ _), List.replicate_append_replicate, List.append_assoc]
          have htf : v1.total = s.rows.flatten.length := r1.total
          obtain ⟨h4, e4, u4⟩ := destroy_spec (h := h3) (b := b) (lo := off + N) (hi := v1.total + N) (u3.here.trans (congrArg some hY)) (by simp; omega) (by omega)
          have ue := (u2.trans u3).trans u4
          have ev3 := ue.evolves (rv := rv') post.ev.wf hp (lt_next post.ev.wf hh.1)
          obtain ⟨t, htt⟩ := hfail (by omega)
          have hoq : off / prodL shape = p := by rw [← hm', Nat.mul_div_cancel _ hpos]
          refine ⟨.threw, { v1 with rv := rv' }.setTop (p + q), h4, ?_, hrv ▸ post.ev.trans ev3, fun hh => absurd rfl hh, fun _ => ⟨Or.inl ⟨t, by rw [← post.ev.failC]; exact htt⟩, Or.inl ⟨⟨shape, s.rows.take p ++ rows.take q⟩, RepN.mk' (v := { v1 with rv := rv' }) (rows := s.rows.take p ++ rows.take q) (sub := shape) ev3.wf ?_ r1.sub r1.es (mem_append_of (mem_take_of r1.rows _) (mem_take_of hlen _)) ?_, hsubOr _ (Or.inr ⟨q, rfl⟩)⟩⟩⟩
          · rw [VecN.insertRange, if_neg hc0, if_neg hm, if_neg (by omega)]; simp only [hpes, hv1, VecN.prepareInsert]
            rw [bind_some ep]; simp only [hp, if_true]
            rw [bind_some e2]; simp only [hki, decide_false, Bool.false_eq_true, if_false, Nat.add_sub_cancel_left, hqd, hqm, hN, hoq]
            rw [bind_some e3, bind_some e4]; rfl
          · rw [List.flatten_append, ← flatten_take r1.rows p, ← flatten_take hlen q]
            simp only [hm', hqm]
            rw [hA, hQ]
            refine hasList_mk hp (ue.here.trans ?_) (by simp; omega) hh.2.2
            rw [List.append_assoc, rep_add', rep_add']; congr 3; simp; omega
          · rw [List.length_append, List.length_take, List.length_take]; omega
  · refine ⟨.argumentError, v, h, ?_, Evolves.refl r.wf, fun _ => ?_, fun hh => by simp at hh⟩
    · rw [VecN.insertRange, if_neg hc0, if_pos (by rw [matchSub_eq r hne]; exact hf)]; rfl
    · simp only [specN, hie, if_neg hf]; exact ⟨rfl, r⟩

end Verif.VectorNd
