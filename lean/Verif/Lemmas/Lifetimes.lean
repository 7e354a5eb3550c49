import Verif.Model.Lifetimes

/-!
The counts are right: an object's count is the number of pointers to it, from outside and from objects that are alive.
-/
set_option autoImplicit false

namespace Verif.Lifetimes

theorem bind_ok {β γ : Type} (b : β) (f : β → Out γ) : (Out.ok b).bind f = f b := rfl

def Obj.refs (o : Obj) : List Nat := if o.cnt = 0 then [] else o.body.outs

/-- The pointers held by objects that are alive. -/
def refs (h : Heap) : List Nat := h.flatMap Obj.refs

def bodies (h : Heap) : List Body := h.map Obj.body

theorem bodies_get {h : Heap} {i : Nat} {o : Obj} (e : h[i]? = some o) : (bodies h)[i]? = some o.body := by
  simp [bodies, e]

theorem bodies_some {h : Heap} {i : Nat} {b : Body} (e : (bodies h)[i]? = some b) : ∃ o, h[i]? = some o ∧ o.body = b := by
  simpa [bodies] using e

theorem bodies_set {h : Heap} {i : Nat} {o : Obj} (e : h[i]? = some o) (c : Nat) : bodies (h.set i { o with cnt := c }) = bodies h := by
  apply List.ext_getElem?
  intro j
  simp only [bodies, List.getElem?_map]
  by_cases hij : i = j
  · subst hij
    have : i < h.length := by
      rcases Nat.lt_or_ge i h.length with hl | hl
      · exact hl
      · rw [List.getElem?_eq_none hl] at e; cases e
    rw [List.getElem?_set_self this, e]; rfl
  · rw [List.getElem?_set_ne hij]

theorem count_refs_set (h : Heap) (i : Nat) (o o' : Obj) (j : Nat) (e : h[i]? = some o) :
    (refs (h.set i o')).count j + o.refs.count j = (refs h).count j + o'.refs.count j := by
  induction h generalizing i with
  | nil => simp at e
  | cons a t ih =>
    cases i with
    | zero =>
      simp only [List.getElem?_cons_zero, Option.some.injEq] at e
      subst e
      simp only [refs, List.set_cons_zero, List.flatMap_cons, List.count_append]
      omega
    | succ i =>
      simp only [List.getElem?_cons_succ] at e
      have := ih i e
      simp only [refs, List.set_cons_succ, List.flatMap_cons, List.count_append] at this ⊢
      omega

theorem total_set (h : Heap) (i : Nat) (o o' : Obj) (e : h[i]? = some o) : total (h.set i o') + o.cnt = total h + o'.cnt := by
  induction h generalizing i with
  | nil => simp at e
  | cons a t ih =>
    cases i with
    | zero =>
      simp only [List.getElem?_cons_zero, Option.some.injEq] at e
      subst e
      simp only [total, List.set_cons_zero, List.map_cons, List.sum_cons]
      omega
    | succ i =>
      simp only [List.getElem?_cons_succ] at e
      have := ih i e
      simp only [total, List.set_cons_succ, List.map_cons, List.sum_cons] at this ⊢
      omega

theorem cnt_le_total (h : Heap) (i : Nat) (o : Obj) (e : h[i]? = some o) : o.cnt ≤ total h := by
  have := total_set h i o ⟨0, o.body⟩ e
  dsimp only at this
  omega

/-- `R`: the pointers from outside. -/
structure Inv (h : Heap) (R : List Nat) : Prop where
  cnt : ∀ i o, h[i]? = some o → o.cnt = R.count i + (refs h).count i
  range : ∀ i, i ∈ R → i < h.length
  down : ∀ (i : Nat) o, h[i]? = some o → ∀ j, j ∈ o.body.outs → j < i

def Alive (h : Heap) (i : Nat) : Prop := ∃ o, h[i]? = some o ∧ o.cnt ≠ 0

theorem lt_of_get {h : Heap} {i : Nat} {o : Obj} (e : h[i]? = some o) : i < h.length := by
  rcases Nat.lt_or_ge i h.length with hl | hl
  · exact hl
  · rw [List.getElem?_eq_none hl] at e; cases e

theorem Inv.perm {h : Heap} {R R' : List Nat} (v : Inv h R) (p : R.Perm R') : Inv h R' where
  cnt i o e := by rw [v.cnt i o e, p.count_eq]
  range i m := v.range i (p.mem_iff.2 m)
  down := v.down

theorem Inv.alive {h : Heap} {R : List Nat} (v : Inv h R) {i : Nat} (m : i ∈ R) : Alive h i := by
  have hl := v.range i m
  refine ⟨h[i], List.getElem?_eq_getElem hl, ?_⟩
  rw [v.cnt i _ (List.getElem?_eq_getElem hl)]
  have := List.count_pos_iff.2 m
  omega

theorem mem_refs {h : Heap} {i j : Nat} {o : Obj} (e : h[i]? = some o) (c : o.cnt ≠ 0) (m : j ∈ o.body.outs) : j ∈ refs h := by
  refine List.mem_flatMap.2 ⟨o, List.mem_of_getElem? e, ?_⟩
  simpa [Obj.refs, c] using m

theorem of_mem_refs {h : Heap} {j : Nat} (m : j ∈ refs h) : ∃ (i : Nat) (o : Obj), h[i]? = some o ∧ o.cnt ≠ 0 ∧ j ∈ o.body.outs := by
  obtain ⟨o, mo, m⟩ := List.mem_flatMap.1 m
  obtain ⟨i, e⟩ := List.mem_iff_getElem?.1 mo
  refine ⟨i, o, e, ?_⟩
  by_cases c : o.cnt = 0
  · simp [Obj.refs, c] at m
  · exact ⟨c, by simpa [Obj.refs, c] using m⟩

/-- What an object that is alive points to is alive. -/
theorem Inv.alive_out {h : Heap} {R : List Nat} (v : Inv h R) {i j : Nat} {o : Obj} (e : h[i]? = some o) (c : o.cnt ≠ 0)
    (m : j ∈ o.body.outs) : Alive h j := by
  have hl : j < h.length := by have := v.down i o e j m; have := lt_of_get e; omega
  refine ⟨h[j], List.getElem?_eq_getElem hl, ?_⟩
  rw [v.cnt j _ (List.getElem?_eq_getElem hl)]
  have := List.count_pos_iff.2 (mem_refs e c m)
  omega

theorem obj_alive {h : Heap} {i : Nat} {b : Body} (a : Alive h i) (e : (bodies h)[i]? = some b) : obj h i = .ok b := by
  obtain ⟨o, eo, c⟩ := a
  rw [bodies_get eo] at e
  cases e
  simp only [obj, eo, if_neg c]

theorem getElem?_set_cases {h : Heap} {i j : Nat} {o o' x : Obj} (e : h[i]? = some o) (q : (h.set i o')[j]? = some x) :
    (j = i ∧ x = o') ∨ (j ≠ i ∧ h[j]? = some x) := by
  by_cases hij : j = i
  · subst hij
    rw [List.getElem?_set_self (lt_of_get e)] at q
    cases q
    exact .inl ⟨rfl, rfl⟩
  · rw [List.getElem?_set_ne (fun q => hij q.symm)] at q
    exact .inr ⟨hij, q⟩

theorem inc_ok {h : Heap} {R : List Nat} (v : Inv h R) {i : Nat} (a : Alive h i) :
    ∃ h', inc i h = .ok h' ∧ Inv h' (i :: R) ∧ bodies h' = bodies h := by
  obtain ⟨o, e, c⟩ := a
  refine ⟨h.set i { o with cnt := o.cnt + 1 }, by simp only [inc, e, if_neg c], ?_, bodies_set e _⟩
  have k : ∀ j, (refs (h.set i { o with cnt := o.cnt + 1 })).count j = (refs h).count j := by
    intro j
    have := count_refs_set h i o { o with cnt := o.cnt + 1 } j e
    have r1 : o.refs = o.body.outs := by simp [Obj.refs, c]
    have r2 : ({ o with cnt := o.cnt + 1 } : Obj).refs = o.body.outs := by simp [Obj.refs]
    rw [r1, r2] at this
    omega
  constructor
  · intro j x q
    rw [k, List.count_cons]
    rcases getElem?_set_cases e q with ⟨rfl, rfl⟩ | ⟨n, q⟩
    · have := v.cnt j o e
      simp only [beq_self_eq_true, if_true]
      omega
    · have := v.cnt j x q
      have n' : (i == j) = false := by simpa using fun q => n q.symm
      simp only [n', Bool.false_eq_true, if_false]
      omega
  · intro j m
    rw [List.length_set]
    rcases List.mem_cons.1 m with rfl | m
    · exact lt_of_get e
    · exact v.range j m
  · intro j x q
    rcases getElem?_set_cases e q with ⟨rfl, rfl⟩ | ⟨n, q⟩
    · exact v.down j o e
    · exact v.down j x q

theorem alive_of_inv_cons {h h' : Heap} {R : List Nat} (v : Inv h R) {j i : Nat} (a : Alive h j) (v' : Inv h' (i :: R))
    (eq : inc i h = .ok h') : Alive h' j := by
  obtain ⟨o, e, c⟩ := a
  simp only [inc] at eq
  split at eq
  · rename_i oi ei
    split at eq
    · cases eq
    · cases eq
      by_cases hij : j = i
      · subst hij
        exact v'.alive List.mem_cons_self
      · exact ⟨o, by rw [List.getElem?_set_ne (fun q => hij q.symm)]; exact e, c⟩
  · cases eq

theorem incAll_ok (is : List Nat) {h : Heap} {R : List Nat} (v : Inv h R) (a : ∀ i, i ∈ is → Alive h i) :
    ∃ h', incAll is h = .ok h' ∧ Inv h' (is ++ R) ∧ bodies h' = bodies h := by
  induction is generalizing h R with
  | nil => exact ⟨h, rfl, v, rfl⟩
  | cons i is ih =>
    obtain ⟨h1, e1, v1, b1⟩ := inc_ok v (a i List.mem_cons_self)
    obtain ⟨h2, e2, v2, b2⟩ := ih v1 (fun j m => alive_of_inv_cons v (a j (List.mem_cons_of_mem _ m)) v1 e1)
    refine ⟨h2, by simp only [incAll, e1, bind_ok]; exact e2, v2.perm ?_, b2.trans b1⟩
    exact List.perm_middle

theorem bodies_length (h : Heap) : (bodies h).length = h.length := by simp [bodies]

theorem alloc_ok {h : Heap} {R : List Nat} (v : Inv h R) (b : Body) (a : ∀ i, i ∈ b.outs → Alive h i) :
    ∃ h', alloc b h = .ok (h', h.length) ∧ Inv h' (h.length :: R) ∧ bodies h' = bodies h ++ [b] := by
  obtain ⟨h1, e1, v1, b1⟩ := incAll_ok b.outs v a
  have hl : h1.length = h.length := by rw [← bodies_length h1, b1, bodies_length]
  refine ⟨h1 ++ [⟨1, b⟩], by simp only [alloc, e1, bind_ok, hl], ?_, by rw [← b1]; simp [bodies]⟩
  have rf : refs (h1 ++ [⟨1, b⟩]) = refs h1 ++ b.outs := by simp [refs, Obj.refs]
  have ho : ∀ i, i ∈ b.outs → i < h.length := fun i m => by obtain ⟨o, e, _⟩ := a i m; exact lt_of_get e
  constructor
  · intro i o q
    rw [rf, List.count_cons, List.count_append]
    rcases Nat.lt_or_ge i h1.length with hi | hi
    · rw [List.getElem?_append_left hi] at q
      have := v1.cnt i o q
      rw [List.count_append] at this
      have n : (h.length == i) = false := by rw [← hl]; simp; omega
      simp only [n, Bool.false_eq_true, if_false]
      omega
    · rw [List.getElem?_append_right hi] at q
      have hi' : i = h1.length := by
        rcases Nat.lt_or_ge h1.length i with g | g
        · have : [(⟨1, b⟩ : Obj)][i - h1.length]? = none := by
            apply List.getElem?_eq_none; simp only [List.length_singleton]; omega
          rw [this] at q; cases q
        · omega
      subst hi'
      simp only [Nat.sub_self, List.getElem?_cons_zero, Option.some.injEq] at q
      subst q
      have c1 : R.count h1.length = 0 := List.count_eq_zero.2 fun m => by have := v.range _ m; omega
      have c2 : b.outs.count h1.length = 0 := List.count_eq_zero.2 fun m => by have := ho _ m; omega
      have c3 : (refs h1).count h1.length = 0 := List.count_eq_zero.2 fun m => by
        obtain ⟨j, o, e, _, m⟩ := of_mem_refs m
        have := v1.down j o e _ m
        have := lt_of_get e
        omega
      simp only [hl.symm, beq_self_eq_true, if_true, c1, c2, c3]
  · intro i m
    simp only [List.length_append, List.length_singleton, hl]
    rcases List.mem_cons.1 m with rfl | m
    · omega
    · have := v.range i m; omega
  · intro i o q j m
    rcases Nat.lt_or_ge i h1.length with hi | hi
    · rw [List.getElem?_append_left hi] at q
      exact v1.down i o q j m
    · rw [List.getElem?_append_right hi] at q
      have : o = ⟨1, b⟩ := by
        have := List.mem_of_getElem? q
        simpa using this
      subst this
      have := ho j m
      omega

theorem dropLoop_ok (f : Nat) (is : List Nat) {h : Heap} {R : List Nat} (v : Inv h (is ++ R)) (hf : total h ≤ f) :
    ∃ h', dropLoop f is h = .ok h' ∧ Inv h' R ∧ bodies h' = bodies h := by
  induction f generalizing is h with
  | zero =>
    cases is with
    | nil => exact ⟨h, rfl, v, rfl⟩
    | cons i is =>
      obtain ⟨o, e, c⟩ := v.alive (i := i) (by simp)
      have := cnt_le_total h i o e
      omega
  | succ f ih =>
    cases is with
    | nil => exact ⟨h, rfl, v, rfl⟩
    | cons i is =>
      obtain ⟨o, e, c⟩ := v.alive (i := i) (by simp)
      have hc := v.cnt i o e
      rw [List.cons_append] at v
      obtain ⟨n, on⟩ : ∃ n, o.cnt = n + 1 := ⟨o.cnt - 1, by omega⟩
      have ht := total_set h i o { o with cnt := n } e
      dsimp only at ht
      have key : ∀ j, ({ o with cnt := n } : Obj).refs = (if n = 0 then [] else o.body.outs) ∧
          (refs (h.set i { o with cnt := n })).count j + o.body.outs.count j
            = (refs h).count j + ({ o with cnt := n } : Obj).refs.count j := by
        intro j
        have := count_refs_set h i o { o with cnt := n } j e
        have r1 : o.refs = o.body.outs := by simp [Obj.refs, c]
        rw [r1] at this
        exact ⟨rfl, this⟩
      have cntR : ∀ (L : List Nat), (∀ j, L.count j + (refs (h.set i { o with cnt := n })).count j = (is ++ R).count j + (refs h).count j) →
          (∀ j, j ∈ L → j < h.length) → Inv (h.set i { o with cnt := n }) L := by
        intro L hL hr
        constructor
        · intro j x q
          have hLj := hL j
          rcases getElem?_set_cases e q with ⟨rfl, rfl⟩ | ⟨ne, q⟩
          · have := v.cnt j o e
            rw [List.count_cons_self] at this
            dsimp only
            omega
          · have := v.cnt j x q
            rw [List.count_cons_of_ne (fun q => ne q.symm)] at this
            omega
        · intro j m
          rw [List.length_set]
          exact hr j m
        · intro j x q
          rcases getElem?_set_cases e q with ⟨rfl, rfl⟩ | ⟨ne, q⟩
          · exact v.down j o e
          · exact v.down j x q
      have hr0 : ∀ j, j ∈ is ++ R → j < h.length := fun j m => v.range j (List.mem_cons_of_mem _ m)
      cases n with
      | zero =>
        have v2 : Inv (h.set i { o with cnt := 0 }) ((o.body.outs ++ is) ++ R) := by
          apply cntR
          · intro j
            obtain ⟨k1, k2⟩ := key j
            rw [k1] at k2
            simp only [if_true, List.count_nil] at k2
            simp only [List.count_append] at k2 ⊢
            omega
          · intro j m
            rw [List.append_assoc] at m
            rcases List.mem_append.1 m with m | m
            · have := v.down i o e j m; have := lt_of_get e; omega
            · exact hr0 j m
        obtain ⟨h', e', v', b'⟩ := ih (o.body.outs ++ is) v2 (by omega)
        refine ⟨h', ?_, v', b'.trans (bodies_set e 0)⟩
        simp only [dropLoop, e, on]
        exact e'
      | succ n =>
        have v2 : Inv (h.set i { o with cnt := n + 1 }) (is ++ R) := by
          apply cntR
          · intro j
            obtain ⟨k1, k2⟩ := key j
            rw [k1] at k2
            simp only [Nat.succ_ne_zero, if_false] at k2
            omega
          · exact hr0
        obtain ⟨h', e', v', b'⟩ := ih is v2 (by omega)
        refine ⟨h', ?_, v', b'.trans (bodies_set e (n + 1))⟩
        simp only [dropLoop, e, on]
        exact e'

theorem drop_ok (is : List Nat) {h : Heap} {R : List Nat} (v : Inv h (is ++ R)) :
    ∃ h', drop is h = .ok h' ∧ Inv h' R ∧ bodies h' = bodies h := dropLoop_ok _ is v (Nat.le_refl _)

theorem drop1_ok (i : Nat) {h : Heap} {R : List Nat} (v : Inv h (i :: R)) :
    ∃ h', drop [i] h = .ok h' ∧ Inv h' R ∧ bodies h' = bodies h := drop_ok [i] v

/-- Reached from the pointers outside. -/
inductive Reach (h : Heap) (R : List Nat) : Nat → Prop where
  | root {i : Nat} : i ∈ R → Reach h R i
  | out {i j : Nat} {b : Body} : Reach h R i → (bodies h)[i]? = some b → j ∈ b.outs → Reach h R j

/-- The objects that are alive are those that can be reached. -/
theorem Inv.alive_iff {h : Heap} {R : List Nat} (v : Inv h R) (i : Nat) : Alive h i ↔ Reach h R i := by
  constructor
  · have key : ∀ n i, h.length - i ≤ n → Alive h i → Reach h R i := by
      intro n
      induction n with
      | zero =>
        intro i hn ⟨o, e, _⟩
        have := lt_of_get e
        omega
      | succ n ih =>
        intro i hn ⟨o, e, c⟩
        have hc := v.cnt i o e
        by_cases m : i ∈ R
        · exact .root m
        · have : 0 < (refs h).count i := by rw [List.count_eq_zero.2 m] at hc; omega
          obtain ⟨j, x, ej, cj, mj⟩ := of_mem_refs (List.count_pos_iff.1 this)
          have := v.down j x ej i mj
          have := lt_of_get e
          exact .out (ih j (by omega) ⟨x, ej, cj⟩) (bodies_get ej) mj
    exact key _ i (Nat.le_refl _)
  · intro r
    induction r with
    | root m => exact v.alive m
    | out _ eb m ih =>
      obtain ⟨o, e, c⟩ := ih
      rw [bodies_get e] at eb
      cases eb
      exact v.alive_out e c m

/-- Without pointers from outside nothing is alive. -/
theorem Inv.none {h : Heap} (v : Inv h []) (i : Nat) : ¬ Alive h i := by
  rw [v.alive_iff]
  intro r
  induction r with
  | root m => cases m
  | out _ _ _ ih => exact ih

theorem inv_nil : Inv [] [] := ⟨by simp, by simp, by simp⟩

end Verif.Lifetimes
