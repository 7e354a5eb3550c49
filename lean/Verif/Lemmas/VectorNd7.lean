import Verif.Lemmas.VectorNd6

/-!
The remaining member functions of the vector with more dimensions.
-/
set_option autoImplicit false
set_option linter.unusedSectionVars false

namespace Verif.VectorNd
variable {α : Type}

theorem copyLoop_result (b : Nat) : ∀ (ss : List (Src α)) (d : Nat) (h h' : Heap α) (r : Nat × Bool),
    copyLoop b d ss h = some (r, h') → ∃ j, j ≤ ss.length ∧ r = (d + j, decide (j = ss.length))
  | [], d, h, h', r, e => by
    simp only [copyLoop, pure_run, Option.some.injEq, Prod.mk.injEq] at e
    exact ⟨0, Nat.le_refl _, by rw [← e.1]; rfl⟩
  | s :: ss, d, h, h', r, e => by
    simp only [copyLoop] at e
    cases hc : construct b d s h with
    | none =>
      have : (construct b d s >>= fun ok => if ok = true then copyLoop b (d + 1) ss else pure (d, false)) h = none := by
        show M.bind _ _ h = none
        simp only [M.bind, hc]
      rw [this] at e; exact absurd e (by simp)
    | some x =>
      obtain ⟨ok, h1⟩ := x
      rw [bind_some hc] at e
      cases ok with
      | true =>
        simp only [if_true] at e
        obtain ⟨j, hj, hr⟩ := copyLoop_result b ss _ _ _ _ e
        refine ⟨j + 1, by simp; omega, ?_⟩
        rw [hr]; simp; omega
      | false =>
        simp only [Bool.false_eq_true, if_false, pure_run, Option.some.injEq, Prod.mk.injEq] at e
        exact ⟨0, Nat.zero_le _, by rw [← e.1]; simp⟩

theorem copyLoop_append (b : Nat) : ∀ (xs ys : List (Src α)) (d : Nat) (h : Heap α),
    copyLoop b d (xs ++ ys) h = (copyLoop b d xs >>= fun c => if c.2 = true then copyLoop b c.1 ys else pure c) h
  | [], ys, d, h => rfl
  | x :: xs, ys, d, h => by
    simp only [List.cons_append, copyLoop]
    cases hc : construct b d x h with
    | none =>
      show M.bind _ _ h = M.bind (M.bind _ _) _ h
      simp only [M.bind, hc]
    | some r =>
      obtain ⟨ok, h1⟩ := r
      rw [bind_some hc]
      have : ∀ f : Nat × Bool → M α (Nat × Bool), ((construct b d x >>= fun ok => if ok = true then copyLoop b (d + 1) xs else pure (d, false)) >>= f) h
          = ((if ok = true then copyLoop b (d + 1) xs else pure (d, false)) >>= f) h1 := by
        intro f
        show M.bind (M.bind _ _) _ h = M.bind _ _ h1
        simp only [M.bind, hc]
      rw [this]
      cases ok with
      | true => simp only [if_true]; exact copyLoop_append b xs ys _ h1
      | false => rfl

/-- Copying a row again and again is copying the repeated row. -/
theorem rowLoop_eq (b : Nat) {row : List (Src α)} {m : Nat} (hm : row.length = m) (hpos : 0 < m) : ∀ (n done d k : Nat) (h h' : Heap α),
    copyLoop b d (List.replicate n row).flatten h = some ((d + k, decide (k = n * m)), h') →
    VecN.rowLoop b row n done d h = some ((d + k / m * m, d + k, done + k / m, decide (k = n * m)), h')
  | 0, done, d, k, h, h', e => by
    simp only [List.replicate_zero, List.flatten_nil, copyLoop, pure_run, Option.some.injEq, Prod.mk.injEq] at e
    have hk : k = 0 := by omega
    subst hk
    rw [← e.2]
    simp [VecN.rowLoop, pure_run]
  | n + 1, done, d, k, h, h', e => by
    rw [List.replicate_succ, List.flatten_cons, copyLoop_append] at e
    cases hc : copyLoop b d row h with
    | none =>
      have : (copyLoop b d row >>= fun c => if c.2 = true then copyLoop b c.1 (List.replicate n row).flatten else pure c) h = none := by
        show M.bind _ _ h = none
        simp only [M.bind, hc]
      rw [this] at e; exact absurd e (by simp)
    | some x =>
      obtain ⟨r, h1⟩ := x
      obtain ⟨j, hj, rfl⟩ := copyLoop_result b _ _ _ _ _ hc
      rw [hm] at hj hc
      rw [bind_some hc] at e
      have hlenr : (List.replicate n row).flatten.length = n * m := by
        induction n with
        | zero => simp
        | succ n ih => simp [hm]
      by_cases hjm : j = m
      · subst hjm
        simp only [decide_true, if_true] at e
        obtain ⟨k', hk', hr⟩ := copyLoop_result b _ _ _ _ _ e
        rw [hlenr] at hr hk'
        simp only [Prod.mk.injEq] at hr
        have hkk : k = j + k' := by omega
        subst hkk
        have hd : (j + k') / j = 1 + k' / j := by rw [Nat.add_div_left _ hpos]; omega
        have e' : copyLoop b (d + j) (List.replicate n row).flatten h1 = some ((d + j + k', decide (k' = n * j)), h') := by
          rw [e, hr.2]; congr 3; omega
        have ih := rowLoop_eq b hm hpos n (done + 1) (d + j) k' h1 h' e'
        simp only [VecN.rowLoop]
        rw [bind_some hc]
        simp only [decide_true, if_true]
        rw [ih, hr.2, hd, Nat.add_mul, Nat.one_mul]
        congr 1
        congr 1
        congr 1
        · omega
        · congr 1
          · omega
          · congr 1
            omega
      · simp only [hjm, decide_false, Bool.false_eq_true, if_false, pure_run, Option.some.injEq, Prod.mk.injEq] at e
        have hkj : k = j := by omega
        subst hkj
        have hd : k / m = 0 := Nat.div_eq_of_lt (by omega)
        have hne : ¬ k = (n + 1) * m := by rw [Nat.succ_mul]; omega
        simp only [VecN.rowLoop]
        rw [bind_some hc]
        simp only [hjm, decide_false, Bool.false_eq_true, if_false, pure_run, hd, hne, e.2]
        simp

/-- `insert(position, count, row)` does what `insert` of the repeated row does. -/
theorem insertCount_eq {v : VecN} {p count : Nat} {shape : List Nat} {row : List (Src α)} (hlen : row.length = prodL shape)
    (hpos : 0 < prodL shape) {h : Heap α} {x : (Out × VecN) × Heap α}
    (e : v.insertRange p count shape (List.replicate count row).flatten h = some x) : v.insertCount p count shape row h = some x := by
  rw [VecN.insertRange] at e
  rw [VecN.insertCount]
  by_cases hc : count = 0
  · rw [if_pos hc] at e ⊢; exact e
  · rw [if_neg hc] at e ⊢
    by_cases hm : ¬ v.matchSub shape = true
    · rw [if_pos hm] at e ⊢; exact e
    · rw [if_neg hm] at e ⊢
      rw [if_neg (by omega)] at e ⊢
      cases hp : (v.initIfEmpty shape).prepareInsert (p * v.es) count (prodL shape) h with
      | none =>
        have : ∀ f : Bool × VecN → M α (Out × VecN), ((v.initIfEmpty shape).prepareInsert (p * v.es) count (prodL shape) >>= f) h = none := by
          intro f; show M.bind _ _ h = none; simp only [M.bind, hp]
        rw [this] at e; exact absurd e (by simp)
      | some y =>
        obtain ⟨r, h1⟩ := y
        rw [bind_some hp] at e ⊢
        cases hr : r.1 with
        | false => simp only [hr] at e ⊢; exact e
        | true =>
          simp only [hr, if_true] at e ⊢
          cases hb : r.2.rv.ptr with
          | none => simp only [hb] at e; exact absurd e (by simp [bad])
          | some b =>
            simp only [hb] at e ⊢
            cases hcl : copyLoop b (p * v.es) (List.replicate count row).flatten h1 with
            | none =>
              have : ∀ f : Nat × Bool → M α (Out × VecN), (copyLoop b (p * v.es) (List.replicate count row).flatten >>= f) h1 = none := by
                intro f; show M.bind _ _ h1 = none; simp only [M.bind, hcl]
              rw [this] at e; exact absurd e (by simp)
            | some z =>
              obtain ⟨c, h2⟩ := z
              have hfl : (List.replicate count row).flatten.length = count * prodL shape := by simp [hlen]
              obtain ⟨k, hk, rfl⟩ := copyLoop_result b _ _ _ _ _ hcl
              rw [hfl] at hk hcl
              rw [bind_some hcl] at e
              rw [bind_some (rowLoop_eq b hlen hpos count 0 _ k h1 h2 hcl)]
              simp only [Nat.add_sub_cancel_left, Nat.zero_add] at e ⊢
              exact e

theorem insertCountN {h : Heap α} {v : VecN} {s : Tab α} (r : RepN h v s) {shape : List Nat} {row : List α} {p count : Nat}
    (hpt : p ≤ v.top) (hlen : row.length = prodL shape) (hpos : 0 < prodL shape) (hne : v.top = 0 ∨ 0 < prodL s.sub) :
    ∃ out v' h', v.insertCount p count shape (row.map Src.val) h = some ((out, v'), h') ∧
      PostN h v s (.insertCount p count shape row) out v' h' := by
  obtain ⟨out, v', h', e, post⟩ := insertRangeN r (rows := List.replicate count row) hpt (fun x hx => by rw [List.eq_of_mem_replicate hx]; exact hlen) hpos hne
  have hmap : (List.replicate count row).flatten.map (Src.val (α := α)) = (List.replicate count (row.map Src.val)).flatten := by
    simp [List.map_flatten]
  rw [hmap, List.length_replicate] at e
  refine ⟨out, v', h', insertCount_eq (by simpa using hlen) hpos e, post.ev, fun hh => ?_, fun hh => ?_⟩
  · have hsp : specN s (.insertCount p count shape row) = specN s (.insertRange p shape (List.replicate count row)) := by
      cases count <;> simp [specN, List.replicate_succ]
    rw [hsp]; exact post.good hh
  · obtain ⟨cf, hh⟩ := post.fail hh
    refine ⟨cf, hh.elim (fun ⟨s', a, b⟩ => Or.inl ⟨s', a, b⟩) (fun ⟨_, c⟩ => Or.inr ⟨Or.inl ⟨_, _, _, _, rfl⟩, c⟩)⟩

theorem popBackN {h : Heap α} {v : VecN} {s : Tab α} (r : RepN h v s) (htop : 0 < v.top) (hpos : 0 < prodL s.sub) :
    ∃ out v' h', v.popBack h = some ((out, v'), h') ∧ PostN h v s .popBack out v' h' := by
  obtain ⟨rows, x, hx⟩ := exists_concat s.rows (by intro hc; have := r.top; rw [hc] at this; simp at this; omega)
  have hlen : s.rows.flatten.length = s.rows.length * prodL s.sub := flatten_len r.rows
  have htr := r.top
  have hrr : ∀ y ∈ rows, y.length = prodL s.sub := fun y hy => r.rows y (by rw [hx]; simp [hy])
  have hxl : x.length = prodL s.sub := r.rows x (by rw [hx]; simp)
  have hfl : rows.flatten.length = rows.length * prodL s.sub := flatten_len hrr
  have hsl : s.rows.length = rows.length + 1 := by rw [hx]; simp
  have hff : s.rows.flatten = rows.flatten ++ x := by rw [hx]; simp
  have htot : (v.setTop (v.top - 1)).total = rows.flatten.length := by
    show v.es * (v.top - 1) = _
    rw [hfl, r.es, htr, hsl, Nat.mul_comm]; rfl
  cases hp : v.rv.ptr with
  | none =>
    have := (hasList_none hp r.list).1
    rw [hff] at this
    have : x = [] := (List.append_eq_nil_iff.mp this).2
    rw [this] at hxl; simp at hxl; omega
  | some b =>
    obtain ⟨eb, hl, hc⟩ := hasList_some hp r.list
    have hvt := r.total
    obtain ⟨h1, e1, u1⟩ := destroy_spec (h := h) (b := b) (lo := rows.flatten.length) (hi := v.total) (A := rows.flatten.map some) (L := x) (C := List.replicate (v.rv.cap - s.rows.flatten.length) none)
      (by rw [eb, hff]; simp) (by rw [List.length_map]) (by rw [hvt, hff, List.length_append])
    have ev1 := u1.evolves (rv := v.rv) r.wf hp (lt_next r.wf eb)
    refine ⟨.ok, v.setTop (v.top - 1), h1, ?_, ev1, fun _ => ⟨rfl, ?_⟩, fun hh => by simp at hh⟩
    · rw [VecN.popBack, if_neg (by omega)]; simp only [hp]; rw [htot, bind_some e1]; rfl
    · have hdl : s.rows.dropLast = rows := by rw [hx]; simp
      simp only [specN, hdl]
      rw [hff, List.length_append] at hl
      refine RepN.mk' ev1.wf (hasList_mk hp (u1.here.trans ?_) (by omega) hc) r.sub r.es hrr (by omega)
      rw [rep_add', hff, List.length_append]; congr 3; omega

theorem eraseNN {h : Heap α} {v : VecN} {s : Tab α} (r : RepN h v s) {p c : Nat} (hc : 0 < c) (hpc : p + c ≤ v.top) (hpos : 0 < prodL s.sub) :
    ∃ out v' h', v.eraseN p c h = some ((out, v'), h') ∧ Evolves h v.rv h' v'.rv ∧
      (out ≠ .threw → out = .ok ∧ RepN h' v' ⟨s.sub, s.rows.take p ++ s.rows.drop (p + c)⟩) ∧
      (out = .threw → CanFail h ∧ ∃ m, p ≤ m ∧ RepN h' v' ⟨s.sub, (s.rows.take p ++ s.rows.drop (p + c)).take m⟩) := by
  have hte := r.total_eq
  have htop := r.top
  have hle : p * prodL s.sub + c * prodL s.sub ≤ v.total := by rw [hte, ← htop, ← Nat.add_mul]; exact Nat.mul_le_mul_right _ hpc
  obtain ⟨ok, vc, h1, e1, ev1, hok, hno⟩ := rvErase_spec (count := c) (es := prodL s.sub) (valid := 0) (off := p * prodL s.sub) r.wf r.list r.total hpos hc hle
  rw [← r.es] at e1
  have hrows := mem_append_of (mem_take_of r.rows p) (mem_drop_of r.rows (p + c))
  have hflat : s.rows.flatten.take (p * prodL s.sub) ++ s.rows.flatten.drop (p * prodL s.sub + c * prodL s.sub) = (s.rows.take p ++ s.rows.drop (p + c)).flatten := by
    rw [← Nat.add_mul, flatten_take r.rows, flatten_drop r.rows, List.flatten_append]
  have hrl : (s.rows.take p ++ s.rows.drop (p + c)).length = v.top - c := by simp; omega
  rw [hflat] at hok hno
  cases ok with
  | true =>
    refine ⟨.ok, v.setTop (v.top - c), h1, ?_, ev1, fun _ => ⟨rfl, RepN.mk' ev1.wf (hok rfl).2 r.sub r.es hrows hrl.symm⟩, fun hh => by simp at hh⟩
    rw [VecN.eraseN, bind_some e1]; rfl
  | false =>
    obtain ⟨h1v, h2v, ho, hf⟩ := hno rfl
    rw [Nat.mul_div_cancel _ hpos] at h1v
    rw [flatten_take hrows] at ho
    refine ⟨.threw, v.setTop vc, h1, ?_, ev1, fun hh => absurd rfl hh, fun _ => ⟨hf, vc, h1v, RepN.mk' ev1.wf ho r.sub r.es (mem_take_of hrows _) ?_⟩⟩
    · rw [VecN.eraseN, bind_some e1]; rfl
    · rw [List.length_take, hrl]
      rw [hte, ← htop, ← Nat.sub_mul] at h2v
      have := Nat.le_of_mul_le_mul_right h2v hpos
      omega

theorem eraseN' {h : Heap α} {v : VecN} {s : Tab α} (r : RepN h v s) {p : Nat} (hpos : v.top = 0 ∨ (p < v.top ∧ 0 < prodL s.sub)) :
    ∃ out v' h', v.erase p h = some ((out, v'), h') ∧ PostN h v s (.erase p) out v' h' := by
  have htop := r.top
  by_cases h0 : v.top = 0
  · have hl : s.rows = [] := List.length_eq_zero_iff.mp (by omega)
    exact ⟨.argumentError, v, h, by rw [VecN.erase, if_pos h0]; rfl, Evolves.refl r.wf, fun _ => by simp only [specN, hl]; exact ⟨rfl, r⟩, fun hh => by simp at hh⟩
  · have hp' := hpos.resolve_left h0
    obtain ⟨out, v', h', e, ev, hg, hf⟩ := eraseNN r (p := p) (c := 1) (by omega) (by omega) hp'.2
    have hne : s.rows.isEmpty = false := by
      cases hr : s.rows with
      | nil => rw [hr] at htop; simp at htop; omega
      | cons a l => rfl
    have heq : s.rows.take p ++ s.rows.drop (p + 1) = s.rows.eraseIdx p := by rw [List.eraseIdx_eq_take_drop_succ]
    rw [heq] at hg hf
    refine ⟨out, v', h', by rw [VecN.erase, if_neg h0]; exact e, ev, fun hh => ?_, fun hh => ?_⟩
    · simp only [specN, hne]; exact hg hh
    · obtain ⟨c, m, hm, hr⟩ := hf hh
      exact ⟨c, Or.inl ⟨_, hr, rfl, m, hm, rfl⟩⟩

theorem eraseRangeN {h : Heap α} {v : VecN} {s : Tab α} (r : RepN h v s) {p q : Nat} (hpos : q < p ∨ (q ≤ v.top ∧ 0 < prodL s.sub)) :
    ∃ out v' h', v.eraseRange p q h = some ((out, v'), h') ∧ PostN h v s (.eraseRange p q) out v' h' := by
  by_cases h0 : q < p
  · refine ⟨.argumentError, v, h, by rw [VecN.eraseRange, if_pos h0]; rfl, Evolves.refl r.wf, fun _ => ?_, fun hh => by simp at hh⟩
    simp only [specN, if_pos h0]; exact ⟨trivial, r⟩
  · have hp' := hpos.resolve_left h0
    by_cases h1 : q - p ≠ 0
    · obtain ⟨out, v', h', e, ev, hg, hf⟩ := eraseNN r (p := p) (c := q - p) (by omega) (by omega) hp'.2
      rw [show p + (q - p) = q by omega] at hg hf
      refine ⟨out, v', h', by rw [VecN.eraseRange, if_neg h0, if_pos h1, if_neg (by omega)]; exact e, ev, fun hh => ?_, fun hh => ?_⟩
      · simp only [specN, if_neg h0]; exact hg hh
      · obtain ⟨c, m, hm, hr⟩ := hf hh
        exact ⟨c, Or.inl ⟨_, hr, rfl, m, hm, rfl⟩⟩
    · refine ⟨.ok, v, h, by rw [VecN.eraseRange, if_neg h0, if_neg h1]; rfl, Evolves.refl r.wf, fun _ => ?_, fun hh => by simp at hh⟩
      have : q = p := by omega
      subst this
      simp only [specN, if_neg h0, List.take_append_drop]; exact ⟨trivial, r⟩

theorem resizeTopN {h : Heap α} {v : VecN} {s : Tab α} (r : RepN h v s) (n : Nat) (a : α) :
    ∃ out v' h', v.resizeTop n (.val a) h = some ((out, v'), h') ∧ PostN h v s (.resizeTop n a) out v' h' := by
  obtain ⟨ok, rv', h1, e1, ev1, hok, hno⟩ := rvResize_spec (new := n * v.es) (s := .val a) (a := a) r.wf r.list r.total rfl
  have htop := r.top
  cases ok with
  | true =>
    refine ⟨.ok, { v with rv := rv' }.setTop n, h1, ?_, ev1, fun _ => ⟨rfl, ?_⟩, fun hh => by simp at hh⟩
    · rw [VecN.resizeTop, bind_some e1]; rfl
    · refine RepN.mk' (v := { v with rv := rv' }) (rows := s.rows.take n ++ List.replicate (n - s.rows.length) (List.replicate (prodL s.sub) a)) ev1.wf ?_ r.sub r.es (mem_append_of (mem_take_of r.rows _) ?_) ?_
      · have := hok rfl
        rw [r.es, flatten_take r.rows, r.total_eq, ← Nat.sub_mul] at this
        rw [List.flatten_append, flatten_const]; exact this
      · intro x hx; rw [List.eq_of_mem_replicate hx]; simp
      · simp; omega
  | false =>
    obtain ⟨rfl, ho, hf⟩ := hno rfl
    refine ⟨.threw, { v with rv := v.rv }, h1, ?_, ev1, fun hh => absurd rfl hh, fun _ => ⟨hf, Or.inl ⟨s, ⟨ev1.wf, ho, r.top, r.total, r.sub, r.es, r.rows⟩, rfl⟩⟩⟩
    rw [VecN.resizeTop, bind_some e1]; rfl

theorem take_pad {l : List α} {n : Nat} (a : α) : (l ++ List.replicate (n - l.length) a).take n = l.take n ++ List.replicate (n - l.length) a := by
  rw [List.take_append, List.take_replicate, Nat.min_self]

theorem resizeAllN {h : Heap α} {v : VecN} {s : Tab α} (r : RepN h v s) (top : Nat) (sub : List Nat) (a : α) :
    ∃ out v' h', v.resizeAll top sub (.val a) h = some ((out, v'), h') ∧ PostN h v s (.resizeAll top sub a) out v' h' := by
  obtain ⟨ok, rv', h1, e1, ev1, hok, hno⟩ := rvResize_spec (new := top * prodL sub) (s := .val a) (a := a) r.wf r.list r.total rfl
  cases ok with
  | true =>
    refine ⟨.ok, { v with rv := rv' }.initSizes top sub, h1, ?_, ev1, fun _ => ⟨rfl, ?_⟩, fun hh => by simp at hh⟩
    · rw [VecN.resizeAll, bind_some e1]; rfl
    · refine repN_init (v := { v with rv := rv' }) ev1.wf ?_ (chunks_rows _ _ _ ?_) (chunks_length _ _ _).symm
      · have := hok rfl
        rw [chunks_flatten, take_pad, ← r.total]; exact this
      · rw [List.length_append, List.length_replicate]; omega
  | false =>
    obtain ⟨rfl, ho, hf⟩ := hno rfl
    refine ⟨.threw, { v with rv := v.rv }, h1, ?_, ev1, fun hh => absurd rfl hh, fun _ => ⟨hf, Or.inl ⟨s, ⟨ev1.wf, ho, r.top, r.total, r.sub, r.es, r.rows⟩, rfl⟩⟩⟩
    rw [VecN.resizeAll, bind_some e1]; rfl

theorem assignN {h : Heap α} {v : VecN} {s : Tab α} (r : RepN h v s) {top : Nat} {sub : List Nat}
    (hn : 0 < top * prodL sub ∨ 0 < v.top * prodL s.sub) (a : α) :
    ∃ out v' h', v.assign top sub (.val a) h = some ((out, v'), h') ∧ PostN h v s (.assign top sub a) out v' h' := by
  have hcap : top * prodL sub ≠ 0 ∨ v.rv.cap ≠ 0 := by
    have h1 := r.list.2
    have h2 := r.total_eq
    rw [← r.total, h2, ← r.top] at h1
    omega
  obtain ⟨ok, valid, rv', h1, e1, ev1, hok, hno⟩ := rvAssign_spec (new := top * prodL sub) (a := a) r.wf r.list r.total hcap
  cases ok with
  | true =>
    refine ⟨.ok, { v with rv := rv' }.initSizes top sub, h1, ?_, ev1, fun _ => ⟨rfl, ?_⟩, fun hh => by simp at hh⟩
    · rw [VecN.assign, bind_some e1]; rfl
    · refine repN_init (v := { v with rv := rv' }) ev1.wf (by rw [flatten_const]; exact hok rfl) ?_ (by simp)
      intro x hx; rw [List.eq_of_mem_replicate hx]; simp
  | false =>
    obtain ⟨rfl, ho, hf⟩ := hno rfl
    cases valid with
    | true =>
      refine ⟨.threw, { v with rv := v.rv }, h1, ?_, ev1, fun hh => absurd rfl hh, fun _ => ⟨hf, Or.inl ⟨s, ⟨ev1.wf, ho, r.top, r.total, r.sub, r.es, r.rows⟩, rfl, Or.inl rfl⟩⟩⟩
      rw [VecN.assign, bind_some e1]; rfl
    | false =>
      refine ⟨.threw, { v with rv := v.rv }.setTop 0, h1, ?_, ev1, fun hh => absurd rfl hh, fun _ => ⟨hf, Or.inl ⟨⟨s.sub, []⟩, RepN.mk' (v := { v with rv := v.rv }) (rows := []) ev1.wf ho r.sub r.es (fun _ hh => absurd hh (by simp)) rfl, rfl, Or.inr rfl⟩⟩⟩
      rw [VecN.assign, bind_some e1]; rfl

theorem execN_spec {h : Heap α} {v : VecN} {s : Tab α} (r : RepN h v s) {op : OpN α} (hv : validN v.top v.sub op = true) :
    ∃ out v' h', execN v op h = some ((out, v'), h') ∧ PostN h v s op out v' h' := by
  rw [r.sub] at hv
  cases op with
  | pushBack shape row =>
    have := of_decide_eq_true hv
    exact pushBackN r this.1 this.2.1 this.2.2
  | popBack =>
    have := of_decide_eq_true hv
    exact popBackN r this.1 this.2
  | insertCount p count shape row =>
    have := of_decide_eq_true hv
    exact insertCountN r this.1 this.2.1 this.2.2.1 this.2.2.2
  | insertRange p shape rows =>
    simp only [validN, Bool.and_eq_true, decide_eq_true_iff, List.all_eq_true] at hv
    exact insertRangeN r hv.1.1 hv.2 hv.1.2.1 hv.1.2.2
  | erase p => exact eraseN' r (of_decide_eq_true hv)
  | eraseRange p q => exact eraseRangeN r (of_decide_eq_true hv)
  | resizeTop n a => exact resizeTopN r n a
  | resizeAll top sub a => exact resizeAllN r top sub a
  | assign top sub a => exact assignN r (of_decide_eq_true hv) a
  | clear a =>
    obtain ⟨out, v', h', e, post⟩ := resizeTopN r 0 a
    refine ⟨out, v', h', e, post.ev, fun hh => ?_, fun hh => ?_⟩
    · have := post.good hh
      simpa [specN] using this
    · obtain ⟨cf, ⟨s', a1, a2⟩ | ⟨⟨_, _, _, _, hx⟩ | ⟨_, _, _, hx⟩, _⟩⟩ := post.fail hh
      · exact ⟨cf, Or.inl ⟨s', a1, a2⟩⟩
      · simp at hx
      · simp at hx
  | reserve n =>
    obtain ⟨ok, rv', h1, e1, ev1, o1, _, hno⟩ := rvReserve_spec (ncap := n) r.wf r.list r.total
    refine ⟨if ok then .ok else .threw, { v with rv := rv' }, h1, ?_, ev1, fun hh => ?_, fun hh => ?_⟩
    · show VecN.reserve v n h = _
      rw [VecN.reserve, bind_some e1]; rfl
    · cases ok with
      | true => exact ⟨rfl, ev1.wf, o1, r.top, r.total, r.sub, r.es, r.rows⟩
      | false => exact absurd rfl hh
    · cases ok with
      | true => simp at hh
      | false => exact ⟨(hno rfl).2, Or.inl ⟨s, ⟨ev1.wf, o1, r.top, r.total, r.sub, r.es, r.rows⟩, rfl⟩⟩
  | shrink =>
    obtain ⟨ok, rv', h1, e1, ev1, o1, _, hno⟩ := rvShrink_spec r.wf r.list r.total
    refine ⟨if ok then .ok else .threw, { v with rv := rv' }, h1, ?_, ev1, fun hh => ?_, fun hh => ?_⟩
    · show VecN.shrink v h = _
      rw [VecN.shrink, bind_some e1]; rfl
    · cases ok with
      | true => exact ⟨rfl, ev1.wf, o1, r.top, r.total, r.sub, r.es, r.rows⟩
      | false => exact absurd rfl hh
    · cases ok with
      | true => simp at hh
      | false => exact ⟨(hno rfl).2, Or.inl ⟨s, ⟨ev1.wf, o1, r.top, r.total, r.sub, r.es, r.rows⟩, rfl⟩⟩

end Verif.VectorNd
