import Verif.Lemmas.VectorFrom2

/-!
Lemmas about copying from views: whatever path the code takes, the elements are copied in the order of their indices.
-/
set_option autoImplicit false
set_option linter.unusedSectionVars false

namespace Verif.VectorNd
open Verif.Views (Desc allIdx elem Rows Shape Tight)
variable {α : Type}

theorem copyMem_loop (mem : Nat → Option α) (b : Nat) : ∀ (as : List Nat) (vals : List α) (dst : Nat), as.map mem = vals.map some →
    copyMem mem b dst as = copyLoop b dst (vals.map Src.val)
  | [], [], _, _ => rfl
  | [], _ :: _, _, h => by simp at h
  | _ :: _, [], _, h => by simp at h
  | a :: as, x :: xs, dst, h => by
    simp only [List.map_cons, List.cons.injEq] at h
    simp only [copyMem, h.1, List.map_cons, copyLoop]
    rw [copyMem_loop mem b as xs (dst + 1) h.2]

theorem copyMem_plan {mem : Nat → Option α} {as : List Nat} {vals : List α} (h : as.map mem = vals.map some) (b dst : Nat) :
    (copyMem mem b dst as >>= fun r => (pure (ended r) : M α (Nat × Out))) = planRun b vals .ok dst := by
  rw [copyMem_loop mem b as vals dst h, planRun]
  congr 1
  funext r
  obtain ⟨d, ok⟩ := r
  cases ok <;> rfl

/-- The values a view shows, in the order of the indices. -/
def viewVals (sz : Nat) (mem : Nat → Option α) (p : Nat) (ds : List Desc) : List α :=
  (allIdx (ds.map Desc.size)).filterMap (shows sz mem p ds)

/-- Every element of the view is an object in memory. -/
def Readable (sz : Nat) (mem : Nat → Option α) (p : Nat) (ds : List Desc) : Prop :=
  ∀ idx ∈ allIdx (ds.map Desc.size), ∃ x, shows sz mem p ds idx = some x

theorem map_some_filterMap {β γ : Type} (f : β → Option γ) : ∀ (l : List β), (∀ x ∈ l, ∃ y, f x = some y) → (l.filterMap f).map some = l.map f
  | [], _ => rfl
  | x :: l, h => by
    obtain ⟨y, hy⟩ := h x (by simp)
    rw [List.filterMap_cons_some hy, List.map_cons, List.map_cons, hy, map_some_filterMap f l (fun z hz => h z (List.mem_cons_of_mem _ hz))]

theorem viewVals_eq {sz : Nat} {mem : Nat → Option α} {p : Nat} {ds : List Desc} (h : Readable sz mem p ds) :
    (viewVals sz mem p ds).map some = (allIdx (ds.map Desc.size)).map (shows sz mem p ds) := map_some_filterMap _ _ h

theorem viewVals_length {sz : Nat} {mem : Nat → Option α} {p : Nat} {ds : List Desc} (h : Readable sz mem p ds) :
    (viewVals sz mem p ds).length = prodL (ds.map Desc.size) := by
  have := congrArg List.length (viewVals_eq h)
  simpa [allIdx_length] using this

theorem shows_cons (sz : Nat) (mem : Nat → Option α) (p : Nat) (d d' : Desc) (ds : List Desc) (i : Nat) (is : List Nat) :
    shows sz mem p (d :: d' :: ds) (i :: is) = shows sz mem (p + i * d'.offset) (d' :: ds) is := by
  simp [shows, elem]

theorem viewVals_cons (sz : Nat) (mem : Nat → Option α) (p : Nat) (d d' : Desc) (ds : List Desc) :
    viewVals sz mem p (d :: d' :: ds) = (List.range d.size).flatMap fun k => viewVals sz mem (p + k * d'.offset) (d' :: ds) := by
  rw [viewVals, List.map_cons, allIdx, List.filterMap_flatMap]
  congr 1
  funext k
  rw [List.filterMap_map, viewVals]
  congr 1

theorem Readable.row {sz : Nat} {mem : Nat → Option α} {p : Nat} {d d' : Desc} {ds : List Desc} (h : Readable sz mem p (d :: d' :: ds))
    {k : Nat} (hk : k < d.size) : Readable sz mem (p + k * d'.offset) (d' :: ds) := by
  intro idx hi
  rw [← shows_cons sz mem p d d' ds k idx]
  refine h (k :: idx) ?_
  rw [List.map_cons, allIdx, List.mem_flatMap]
  exact ⟨k, List.mem_range.mpr hk, List.mem_map_of_mem hi⟩

theorem row_vals {sz : Nat} {mem : Nat → Option α} {p : Nat} {d : Desc} (h : Readable sz mem p [d]) :
    (consecutive sz p d.size).map mem = (viewVals sz mem p [d]).map some := by
  rw [viewVals_eq h, List.map_cons, List.map_nil, allIdx_one, List.map_map, consecutive, List.map_map]
  rfl

/-- Several parts, none of which is refused. -/
theorem each_ok {β : Type} {f : β → Nat → M α (Nat × Out)} {b : Nat} {g : β → List α} (xs : List β)
    (hf : ∀ x ∈ xs, f x = planRun b (g x) .ok) : each f xs = planRun b (xs.flatMap g) .ok := by
  have := each_plan (b := b) (g := fun x => (g x, Out.ok)) xs hf (by simp)
  have hok : ∀ q ∈ xs.map (fun x => (g x, Out.ok)), q.2 = .ok := by
    intro q hq
    obtain ⟨x, _, rfl⟩ := List.mem_map.mp hq
    rfl
  rw [(seqPlan_ok _).mpr hok, seqPlan_vals _ hok, List.flatMap_map] at this
  exact this

theorem fillMD_plan (sz : Nat) (mem : Nat → Option α) (b : Nat) : ∀ (ds : List Desc) (p : Nat), ds ≠ [] → Readable sz mem p ds →
    fillMD sz mem b ds p = planRun b (viewVals sz mem p ds) .ok
  | [], _, h, _ => absurd rfl h
  | [d], p, _, h => by
    funext dst
    rw [fillMD]
    exact copyMem_plan (row_vals h) b dst
  | d :: d' :: ds, p, _, h => by
    funext dst
    rw [fillMD, viewVals_cons]
    refine congrFun (each_ok (b := b) (g := fun k => viewVals sz mem (p + k * d'.offset) (d' :: ds)) (List.range d.size) ?_) dst
    intro k hk
    exact fillMD_plan sz mem b (d' :: ds) _ (by simp) (h.row (List.mem_range.mp hk))

/-- Rows that follow each other without gaps. -/
theorem rows_plain {sz : Nat} {mem : Nat → Option α} {d : Desc} {ds : List Desc} (hs : Shape (d :: ds)) (ht : Tight sz (d :: ds))
    (ho : d.offset = d.total * sz) {p n : Nat} (hr : ∀ k, k < n → Readable sz mem (p + k * d.offset) (d :: ds)) :
    (consecutive sz p (n * d.total)).map mem = ((List.range n).flatMap fun k => viewVals sz mem (p + k * d.offset) (d :: ds)).map some := by
  have hrow : ∀ q, Readable sz mem q (d :: ds) → (viewVals sz mem q (d :: ds)).map some = (List.range d.total).map fun j => mem (q + j * sz) := by
    intro q hq
    rw [viewVals_eq hq]
    have := congrArg (List.map fun o : Option Nat => o.bind mem) (Views.elem_tight sz d ds q hs ht)
    rw [List.map_map, List.map_map] at this
    exact this
  have e1 : consecutive sz p (n * d.total) = (List.range n).flatMap fun i => (List.range d.total).map fun j => p + (i * d.total + j) * sz :=
    (Views.range_mul d.total (fun k => p + k * sz) n).symm
  rw [e1, List.map_flatMap, List.map_flatMap]
  have : ∀ m, m ≤ n → (List.range m).flatMap (fun a => ((List.range d.total).map fun j => p + (a * d.total + j) * sz).map mem) =
      (List.range m).flatMap fun k => (viewVals sz mem (p + k * d.offset) (d :: ds)).map some := by
    intro m
    induction m with
    | zero => intro _; rfl
    | succ m ih =>
      intro hm
      rw [List.range_succ, List.flatMap_append, List.flatMap_append, ih (by omega)]
      congr 1
      simp only [List.flatMap_cons, List.flatMap_nil, List.append_nil]
      rw [hrow _ (hr m (by omega)), List.map_map]
      refine List.map_congr_left ?_
      intro j _
      show mem (p + (m * d.total + j) * sz) = mem (p + m * d.offset + j * sz)
      rw [ho, Nat.add_mul, Nat.mul_assoc, Nat.add_assoc]
  exact this n (Nat.le_refl _)

theorem pos_of_prod {ds : List Desc} (h : prodL (ds.map Desc.size) ≠ 0) : ∀ d ∈ ds, 0 < d.size := fun d hd =>
  Nat.pos_of_ne_zero (prodL_ne h _ (List.mem_map_of_mem hd))

theorem copyMD_plan {sz : Nat} (hsz : 0 < sz) (mem : Nat → Option α) (b : Nat) : ∀ (ds : List Desc) (p n : Nat), ds ≠ [] → Shape ds → Rows sz ds →
    prodL (ds.map Desc.size) ≠ 0 → (∀ k, k < n → Readable sz mem (p + k * ((ds.head?.map Desc.offset).getD 0)) ds) →
    copyMD sz mem b ds p n = planRun b ((List.range n).flatMap fun k => viewVals sz mem (p + k * ((ds.head?.map Desc.offset).getD 0)) ds) .ok
  | [], _, _, h, _, _, _, _ => absurd rfl h
  | [d], p, n, _, hs, hr, hp, hread => by
    simp only [List.head?_cons, Option.map_some, Option.getD_some] at hread ⊢
    funext dst
    rw [copyMD]
    by_cases ht : sz * d.total = d.offset
    · have ho : d.offset = d.total * sz := by rw [← ht, Nat.mul_comm]
      rw [if_pos (by simpa using ht)]
      have hdiv : n * d.offset / sz = n * d.total := by rw [ho, ← Nat.mul_assoc, Nat.mul_div_cancel _ hsz]
      rw [hdiv]
      exact copyMem_plan (rows_plain hs (by simp [Tight]) ho hread) b dst
    · rw [if_neg (by simpa using ht)]
      refine congrFun (each_ok (b := b) (g := fun k => viewVals sz mem (p + k * d.offset) [d]) (List.range n) ?_) dst
      intro k hk
      funext dst
      exact copyMem_plan (row_vals (hread k (List.mem_range.mp hk))) b dst
  | d :: d' :: ds, p, n, _, hs, hr, hp, hread => by
    simp only [List.head?_cons, Option.map_some, Option.getD_some] at hread ⊢
    have hpos := pos_of_prod hp
    funext dst
    rw [copyMD]
    by_cases ht : sz * d.total = d.offset
    · have ho : d.offset = d.total * sz := by rw [← ht, Nat.mul_comm]
      have htight := Views.tight_of sz d (d' :: ds) hs hr hpos ho
      have hc : Views.proxyContinuous sz (d :: d' :: ds) = true := by
        simp only [Views.proxyContinuous, beq_iff_eq]
        exact htight d' (by simp)
      rw [if_pos (by simpa using ht), if_pos hc]
      have hdiv : n * d.offset / sz = n * d.total := by rw [ho, ← Nat.mul_assoc, Nat.mul_div_cancel _ hsz]
      rw [hdiv]
      exact copyMem_plan (rows_plain hs (fun x hx => htight x (List.mem_of_mem_tail hx)) ho hread) b dst
    · rw [if_neg (by simpa using ht)]
      refine congrFun (each_ok (b := b) (g := fun k => viewVals sz mem (p + k * d.offset) (d :: d' :: ds)) (List.range n) ?_) dst
      intro k hk
      have hk' := hread k (List.mem_range.mp hk)
      have ih := copyMD_plan hsz mem b (d' :: ds) (p + k * d.offset) d.size (by simp) hs.2 hr.2
        (by intro e; apply hp; rw [List.map_cons, prodL_cons, e, Nat.mul_zero])
        (by simp only [List.head?_cons, Option.map_some, Option.getD_some]; exact fun j hj => hk'.row hj)
      rw [ih, viewVals_cons]
      rfl

theorem copyWhole_plan {sz : Nat} (hsz : 0 < sz) (mem : Nat → Option α) (b : Nat) {ds : List Desc} {p : Nat} (hne : ds ≠ []) (hs : Shape ds)
    (hr : Rows sz ds) (hp : prodL (ds.map Desc.size) ≠ 0) (hread : Readable sz mem p ds) :
    copyWhole sz mem b ds p = planRun b (viewVals sz mem p ds) .ok := by
  funext dst
  match ds, hne with
  | [d], _ => exact copyMem_plan (row_vals hread) b dst
  | d :: d' :: ds, _ =>
    have ih := copyMD_plan hsz mem b (d' :: ds) p d.size (by simp) hs.2 hr.2
        (by intro e; apply hp; rw [List.map_cons, prodL_cons, e, Nat.mul_zero])
        (by simp only [List.head?_cons, Option.map_some, Option.getD_some]; exact fun j hj => hread.row hj)
    rw [copyWhole, ih, viewVals_cons]
    rfl

/-- The test and the copy of the constructors from views. -/
theorem fromMultidim_spec {sz : Nat} {mem : Nat → Option α} {continuous : List Desc → Bool} {ds : List Desc} {p : Nat}
    (hplain : prodL (ds.map Desc.size) ≠ 0 → continuous ds = true →
      (allIdx (ds.map Desc.size)).map (elem sz p ds) = (Views.plainAddrs sz p ds).map some)
    (hne : ds ≠ []) (hz : prodL (ds.map Desc.size) ≠ 0 ∨ 2 ≤ ds.length) (hread : Readable sz mem p ds) {h : Heap α} (w : WfH h) :
    ∃ out o h', fromMultidim sz mem continuous ds p h = some ((out, o), h') ∧ Evolves h RV.null h' (rvO o) ∧
      ((out = .ok ∧ ∃ rv, o = some (Vec.shaped rv (ds.map Desc.size)) ∧ HasList h' rv (viewVals sz mem p ds)) ∨
       (out = .threw ∧ o = none ∧ CanFail h)) := by
  rw [fromMultidim]
  by_cases h0 : prodL (ds.map Desc.size) = 0
  · rw [if_neg (by simpa using h0), if_neg (by rcases hz with hz | hz <;> omega)]
    refine ⟨.ok, _, h, rfl, by rw [rvO, shaped_rv]; exact Evolves.refl w, Or.inl ⟨rfl, RV.null, rfl, ?_⟩⟩
    have : viewVals sz mem p ds = [] := List.length_eq_zero_iff.mp (by rw [viewVals_length hread, h0])
    rw [this]; exact hasList_null h
  · rw [if_pos h0]
    have hcopy : ∀ nb, (fun dst =>
        if continuous ds then
          if (Views.plainAddrs sz p ds).length ≠ prodL (ds.map Desc.size) then bad
          else do
            let r ← copyMem mem nb dst (Views.plainAddrs sz p ds)
            pure (ended r)
        else fillMD sz mem nb ds p dst) = planRun nb (viewVals sz mem p ds) .ok := by
      intro nb
      funext dst
      by_cases hc : continuous ds = true
      · have hp := hplain h0 hc
        have hlen := congrArg List.length hp
        simp only [List.length_map, allIdx_length] at hlen
        rw [if_pos hc, if_neg (by rw [← hlen]; simp)]
        refine copyMem_plan ?_ nb dst
        rw [viewVals_eq hread]
        have := congrArg (List.map fun o : Option Nat => o.bind mem) hp
        rw [List.map_map, List.map_map] at this
        exact this.symm
      · rw [if_neg hc, fillMD_plan sz mem nb ds p hne hread]
    have hl := viewVals_length hread
    obtain ⟨out, rv, h', e, ev, hr⟩ := initBy_spec w h0 (Nat.le_of_eq hl) hcopy
    rw [bind_some e, pure_run]
    rcases hr with ⟨rfl, _, ho⟩ | ⟨rfl, rfl, hc⟩ | ⟨_, hn, _⟩
    · refine ⟨.ok, some (Vec.shaped rv (ds.map Desc.size)), h', by simp [finishWith], by rw [rvO, shaped_rv]; exact ev, Or.inl ⟨rfl, rv, rfl, ho⟩⟩
    · exact ⟨.threw, none, h', by simp [finishWith], ev, Or.inr ⟨rfl, rfl, hc⟩⟩
    · exact absurd rfl hn

/-- `push_back` and `insert`: the part after the copy. -/
theorem planRun_use {β : Type} {b dst : Nat} {vals : List α} {K : Nat × Out → M α β} {L : Nat × Bool → M α β}
    (hK : ∀ d, K (d, .ok) = L (d, true)) (hK' : ∀ d, K (d, .threw) = L (d, false)) (h : Heap α) :
    (planRun b vals .ok dst >>= K) h = (copyLoop b dst (vals.map Src.val) >>= L) h := by
  cases e : copyLoop b dst (vals.map Src.val) h with
  | none => rw [bind_none (planRun_none e), bind_none e]
  | some r =>
    obtain ⟨⟨d1, ok⟩, h1⟩ := r
    rw [bind_some (planRun_some e), bind_some e]
    cases ok with
    | true => exact congrFun (hK d1) h1
    | false => exact congrFun (hK' d1) h1

end Verif.VectorNd
