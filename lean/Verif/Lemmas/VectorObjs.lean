import Verif.Props.C74_VectorObjsSpec

/-!
Lemmas for C74: every vector variable owns its block, and only live variables own blocks.
-/
set_option autoImplicit false
set_option linter.unusedSectionVars false

namespace Verif.VectorNd
variable {α : Type}

/-- The vector holds the value. -/
def RelV (h : Heap α) : Vec → AVal α → Prop
  | .one v, .list l => Rep1 h v l
  | .many v, .tab s => RepN h v s ∧ s.sub ≠ []
  | _, _ => False

def RelO (h : Heap α) : Option Vec → Option (AVal α) → Prop
  | none, none => True
  | some v, some a => RelV h v a
  | _, _ => False

/-- The storage of a variable. -/
def rvO : Option Vec → RV
  | none => RV.null
  | some v => v.rv

theorem hasList_congr {h h' : Heap α} {rv : RV} {l : List α} (hb : ∀ b, rv.ptr = some b → h'.blk b = h.blk b) (o : HasList h rv l) :
    HasList h' rv l := by
  cases hp : rv.ptr with
  | none => exact ⟨(holds_none hp).mpr ((holds_none hp).mp o.1), o.2⟩
  | some b =>
    obtain ⟨e, hl, hc⟩ := hasList_some hp o
    exact hasList_mk hp ((hb b hp).trans e) hl hc

theorem relV_congr {h h' : Heap α} {v : Vec} {a : AVal α} (w : WfH h') (hb : ∀ b, v.rv.ptr = some b → h'.blk b = h.blk b)
    (r : RelV h v a) : RelV h' v a := by
  cases v with
  | one v =>
    cases a with
    | list l => exact ⟨w, hasList_congr hb r.2.1, r.2.2⟩
    | tab s => exact r
  | many v =>
    cases a with
    | list l => exact r
    | tab s => exact ⟨⟨w, hasList_congr hb r.1.list, r.1.top, r.1.total, r.1.sub, r.1.es, r.1.rows⟩, r.2⟩

theorem relO_congr {h h' : Heap α} {v : Option Vec} {a : Option (AVal α)} (w : WfH h') (hb : ∀ b, (rvO v).ptr = some b → h'.blk b = h.blk b)
    (r : RelO h v a) : RelO h' v a := by
  cases v with
  | none => cases a with
    | none => trivial
    | some a => exact r
  | some v => cases a with
    | none => exact r
    | some a => exact relV_congr w hb r

/-- What every vector that holds a value satisfies, whatever its number of dimensions. -/
theorem RelV.flat {h : Heap α} {v : Vec} {a : AVal α} (r : RelV h v a) :
    HasList h v.rv a.elems ∧ v.total = a.elems.length ∧ v.dims = a.dims ∧ WfH h ∧ 1 ≤ a.dims.length := by
  cases v with
  | one v => cases a with
    | list l => exact ⟨r.2.1, r.2.2, congrArg (fun n => [n]) r.2.2, r.1, Nat.le_refl _⟩
    | tab s => exact r.elim
  | many v => cases a with
    | list l => exact r.elim
    | tab s => exact ⟨r.1.list, r.1.total, by show v.top :: v.sub = s.rows.length :: s.sub; rw [r.1.top, r.1.sub], r.1.wf, by simp [AVal.dims]⟩

theorem RelV.live {h : Heap α} {v : Vec} {a : AVal α} (r : RelV h v a) {b : Nat} (hp : v.rv.ptr = some b) : h.blk b ≠ none := by
  obtain ⟨e, _, _⟩ := hasList_some hp r.flat.1
  rw [e]; simp

structure Inv (h : Heap α) (e : Vars Vec) (E : Vars (AVal α)) : Prop where
  wf : WfH h
  rel : ∀ x, RelO h (e x) (E x)
  /-- two variables have different blocks -/
  own : ∀ x y b, (rvO (e x)).ptr = some b → (rvO (e y)).ptr = some b → x = y
  /-- every block belongs to a variable -/
  cover : ∀ b, h.blk b ≠ none → ∃ x, (rvO (e x)).ptr = some b

theorem Vars.set_same {β : Type} (e : Vars β) (x : Nat) (o : Option β) : e.set x o x = o := by simp [Vars.set]
theorem Vars.set_other {β : Type} (e : Vars β) {x y : Nat} (o : Option β) (h : y ≠ x) : e.set x o y = e y := by simp [Vars.set, h]
theorem Vars.set_self {β : Type} (e : Vars β) {x : Nat} {o : Option β} (h : e x = o) : e.set x o = e := by
  funext y
  by_cases hy : y = x
  · subst hy; rw [Vars.set_same, h]
  · rw [Vars.set_other _ _ hy]

theorem Vars.set_set {β : Type} (e : Vars β) (x : Nat) (o o' : Option β) : (e.set x o).set x o' = e.set x o' := by
  funext y
  by_cases hy : y = x
  · subst hy; simp [Vars.set]
  · simp [Vars.set, hy]

theorem relO_live {h : Heap α} {o : Option Vec} {a : Option (AVal α)} (r : RelO h o a) {b : Nat} (hp : (rvO o).ptr = some b) : h.blk b ≠ none := by
  cases o with
  | none => simp [rvO, RV.null] at hp
  | some v => cases a with
    | none => exact r.elim
    | some a => exact RelV.live r hp

/-- One variable changes. -/
theorem Inv.update {h h' : Heap α} {e : Vars Vec} {E : Vars (AVal α)} (i : Inv h e E) {x : Nat} {o : Option Vec} {a : Option (AVal α)}
    (ev : Evolves h (rvO (e x)) h' (rvO o)) (r : RelO h' o a) : Inv h' (e.set x o) (E.set x a) where
  wf := ev.wf
  rel := fun y => by
    by_cases hy : y = x
    · subst hy; rw [Vars.set_same, Vars.set_same]; exact r
    · rw [Vars.set_other _ _ hy, Vars.set_other _ _ hy]
      refine relO_congr ev.wf (fun b hb => ?_) (i.rel y)
      have h1 : (rvO (e x)).ptr ≠ some b := fun hx => hy (i.own y x b hb hx)
      have h2 : (rvO o).ptr ≠ some b := fun hx => relO_live (i.rel y) hb (ev.fresh b hx h1)
      exact ev.frame b h1 h2
  own := fun y z b hy hz => by
    by_cases hyx : y = x
    · by_cases hzx : z = x
      · exact hyx.trans hzx.symm
      · subst hyx
        rw [Vars.set_same] at hy
        rw [Vars.set_other _ _ hzx] at hz
        by_cases h1 : (rvO (e y)).ptr = some b
        · exact i.own y z b h1 hz
        · exact absurd (ev.fresh b hy h1) (relO_live (i.rel z) hz)
    · by_cases hzx : z = x
      · subst hzx
        rw [Vars.set_same] at hz
        rw [Vars.set_other _ _ hyx] at hy
        by_cases h1 : (rvO (e z)).ptr = some b
        · exact i.own y z b hy h1
        · exact absurd (ev.fresh b hz h1) (relO_live (i.rel y) hy)
      · rw [Vars.set_other _ _ hyx] at hy
        rw [Vars.set_other _ _ hzx] at hz
        exact i.own y z b hy hz
  cover := fun b hb => by
    by_cases h2 : (rvO o).ptr = some b
    · exact ⟨x, by rw [Vars.set_same]; exact h2⟩
    · by_cases h1 : (rvO (e x)).ptr = some b
      · exact absurd (ev.moved b h1 h2) hb
      · rw [ev.frame b h1 h2] at hb
        obtain ⟨y, hy⟩ := i.cover b hb
        have hyx : y ≠ x := fun hh => h1 (by rw [← hh]; exact hy)
        exact ⟨y, by rw [Vars.set_other _ _ hyx]; exact hy⟩

/-- Two variables exchange their storage. -/
theorem Inv.two {h : Heap α} {e : Vars Vec} {E : Vars (AVal α)} (i : Inv h e E) {x y : Nat} (hxy : x ≠ y) {o1 o2 : Option Vec}
    {a1 a2 : Option (AVal α)} (h1 : rvO o1 = rvO (e y)) (h2 : rvO o2 = rvO (e x)) (r1 : RelO h o1 a1) (r2 : RelO h o2 a2) :
    Inv h ((e.set x o1).set y o2) ((E.set x a1).set y a2) := by
  have key : ∀ z, rvO (((e.set x o1).set y o2) z) = rvO (e (if z = x then y else if z = y then x else z)) := by
    intro z
    by_cases hzy : z = y
    · subst hzy
      rw [Vars.set_same, if_neg (fun hh => hxy hh.symm), if_pos rfl]; exact h2
    · rw [Vars.set_other _ _ hzy]
      by_cases hzx : z = x
      · subst hzx; rw [Vars.set_same, if_pos rfl]; exact h1
      · rw [Vars.set_other _ _ hzx, if_neg hzx, if_neg hzy]
  refine ⟨i.wf, fun z => ?_, fun z z' b hz hz' => ?_, fun b hb => ?_⟩
  · by_cases hzy : z = y
    · subst hzy; rw [Vars.set_same, Vars.set_same]; exact r2
    · rw [Vars.set_other _ _ hzy, Vars.set_other _ _ hzy]
      by_cases hzx : z = x
      · subst hzx; rw [Vars.set_same, Vars.set_same]; exact r1
      · rw [Vars.set_other _ _ hzx, Vars.set_other _ _ hzx]; exact i.rel z
  · rw [key] at hz hz'
    have := i.own _ _ b hz hz'
    split at this <;> split at this <;> (try split at this) <;> (try split at this) <;> simp_all
  · obtain ⟨z, hz⟩ := i.cover b hb
    refine ⟨if z = x then y else if z = y then x else z, ?_⟩
    rw [key]
    have : (if (if z = x then y else if z = y then x else z) = x then y else
      if (if z = x then y else if z = y then x else z) = y then x else (if z = x then y else if z = y then x else z)) = z := by
      by_cases hzx : z = x
      · subst hzx; simp [fun hh => hxy (Eq.symm hh)]
      · by_cases hzy : z = y
        · subst hzy; simp [hzx]
        · simp [hzx, hzy]
    rw [this]; exact hz

theorem Inv.init (f g : Nat → Bool) : Inv (Heap.empty f g : Heap α) Vars.none Vars.none :=
  ⟨fun _ _ => rfl, fun _ => trivial, fun _ _ _ hx => by simp [Vars.none, rvO, RV.null] at hx, fun _ hb => absurd rfl hb⟩

theorem Inv.shapes_eq {h : Heap α} {e : Vars Vec} {E : Vars (AVal α)} (i : Inv h e E) : shapes e = ashapes E := by
  funext x
  have := i.rel x
  rw [shapes, ashapes]
  cases he : e x with
  | none => cases hE : E x with
    | none => rfl
    | some a => rw [he, hE] at this; exact this.elim
  | some v => cases hE : E x with
    | none => rw [he, hE] at this; exact this.elim
    | some a => rw [he, hE] at this; exact congrArg some (RelV.flat this).2.2.1

theorem relO_some {h : Heap α} {o : Option Vec} {a : AVal α} (r : RelO h o (some a)) : ∃ v, o = some v ∧ RelV h v a := by
  cases o with
  | none => exact r.elim
  | some v => exact ⟨v, rfl, r⟩
theorem relO_some' {h : Heap α} {v : Vec} {a : Option (AVal α)} (r : RelO h (some v) a) : ∃ w, a = some w ∧ RelV h v w := by
  cases a with
  | none => exact r.elim
  | some a => exact ⟨a, rfl, r⟩
theorem relO_none {h : Heap α} {o : Option Vec} (r : RelO h o (none : Option (AVal α))) : o = none := by
  cases o with
  | none => rfl
  | some v => exact r.elim

/-! ### Single vectors -/

theorem prodL_cons (n : Nat) (l : List Nat) : prodL (n :: l) = n * prodL l := rfl

theorem chunks_all {m n : Nat} {l : List α} (h : n * m = l.length) : (chunks m n l).flatten = l := by
  rw [chunks_flatten, List.take_of_length_le (by omega)]

/-- A vector with sizes that fit its elements. -/
theorem shaped_rel {h : Heap α} (w : WfH h) {rv : RV} {l : List α} (o : HasList h rv l) {dims : List Nat} (hd : dims ≠ [])
    (hl : prodL dims = l.length) : RelV h (Vec.shaped rv dims) (AVal.ofElems dims l) := by
  match dims with
  | [] => exact absurd rfl hd
  | [n] =>
    refine ⟨w, o, ?_⟩
    rw [prodL_cons] at hl
    simpa [prodL] using hl
  | n :: k :: sub =>
    rw [prodL_cons] at hl
    refine ⟨repN_init (v := ⟨rv, 0, 0, [], 0⟩) w ?_ (chunks_rows _ _ _ (Nat.le_of_eq hl)) (chunks_length _ _ _).symm, by simp⟩
    rw [chunks_all hl]; exact o

theorem shaped_rv (rv : RV) (dims : List Nat) : (Vec.shaped rv dims).rv = rv := by
  match dims with
  | [] => rfl
  | [n] => rfl
  | n :: k :: sub => rfl

theorem tidy_rel {h : Heap α} {v : Vec} {a : AVal α} (r : RelV h v a) : RelV h v.tidy a.emptied := by
  cases v with
  | one v => cases a with
    | list l => exact ⟨r.1, hasList_null h, rfl⟩
    | tab s => exact r.elim
  | many v => cases a with
    | list l => exact r.elim
    | tab s => exact ⟨RepN.mk' (v := { v with rv := RV.null }) (rows := []) r.1.wf (hasList_null h) r.1.sub r.1.es (fun _ h => absurd h (by simp)) rfl, r.2⟩

theorem tidy_rv (v : Vec) : v.tidy.rv = RV.null := by cases v <;> rfl

theorem dtorV {h : Heap α} {v : Vec} {a : AVal α} (r : RelV h v a) : ∃ h', v.dtor h = some ((), h') ∧ Evolves h v.rv h' RV.null := by
  cases v with
  | one v => cases a with
    | list l => exact dtor1 r
    | tab s => exact r.elim
  | many v => cases a with
    | list l => exact r.elim
    | tab s => exact dtorN r.1

/-- How a constructor ends: with a vector, with an exception of its own, or with an exception from outside. -/
structure Made (h h' : Heap α) (out : Out) (o : Option Vec) (a : AVal α) : Prop where
  ev : Evolves h RV.null h' (rvO o)
  res : (out = .ok ∧ ∃ v, o = some v ∧ RelV h' v a) ∨ (out = .threw ∧ o = none ∧ CanFail h)

theorem init_made {h : Heap α} {ss : List (Src α)} {l : List α} (w : WfH h) (hr : Reads h ss l) (hne : ss ≠ []) {f : RV → Vec} {a : AVal α}
    (hrv : ∀ rv, (f rv).rv = rv) (hf : ∀ (h' : Heap α) rv, WfH h' → HasList h' rv l → RelV h' (f rv) a) :
    ∃ out o h', (rvInit RV.null ss >>= fun r => if r.1 = true then (pure (.ok, some (f r.2)) : M α (Out × Option Vec)) else pure (.threw, none)) h
      = some ((out, o), h') ∧ Made h h' out o a := by
  obtain ⟨ok, rv', h', e, ev, hok, hno⟩ := rvInit_spec w hr hne
  cases ok with
  | true =>
    refine ⟨.ok, some (f rv'), h', by rw [bind_some e]; rfl, by show Evolves h RV.null h' (f rv').rv; rw [hrv]; exact ev, Or.inl ⟨rfl, _, rfl, hf h' rv' ev.wf (hok rfl).1⟩⟩
  | false =>
    obtain ⟨rfl, hcf⟩ := hno rfl
    exact ⟨.threw, none, h', by rw [bind_some e]; rfl, ev, Or.inr ⟨rfl, rfl, hcf⟩⟩

theorem ne_nil_of_length {β : Type} {l : List β} (h : l.length ≠ 0) : l ≠ [] := fun e => h (by rw [e]; rfl)

theorem startable_ne {dims : List Nat} (h : startable dims = true) : dims ≠ [] := by
  intro e; subst e; simp [startable] at h

theorem ctor_made {h : Heap α} (w : WfH h) {dims : List Nat} {ss : List (Src α)} {l : List α} (hs : startable dims = true) (hr : Reads h ss l)
    (hl : prodL dims = l.length) : ∃ out o h', Vec.ctor dims ss h = some ((out, o), h') ∧ Made h h' out o (AVal.ofElems dims l) := by
  have hlen := hr.length
  have hd := startable_ne hs
  have hf : ∀ (h' : Heap α) rv, WfH h' → HasList h' rv l → RelV h' (Vec.shaped rv dims) (AVal.ofElems dims l) :=
    fun h' rv w' o => shaped_rel w' o hd hl
  match dims with
  | [] => exact absurd rfl hd
  | [n] =>
    have hn : n = ss.length := by rw [hlen, ← hl]; simp [prodL]
    have h0 : n ≠ 0 := by simpa [startable] using hs
    rw [Vec.ctor, if_neg (by simpa using hn)]
    exact init_made (f := fun rv => Vec.shaped rv [n]) w hr (ne_nil_of_length (by omega)) (fun rv => shaped_rv rv _) hf
  | n :: k :: sub =>
    rw [Vec.ctor, if_neg (by rw [hlen, hl]; simp)]
    by_cases h0 : ss.length ≠ 0
    · rw [if_pos h0]
      exact init_made (f := fun rv => Vec.shaped rv (n :: k :: sub)) w hr (ne_nil_of_length h0) (fun rv => shaped_rv rv _) hf
    · rw [if_neg h0]
      have hl0 : l = [] := List.length_eq_zero_iff.mp (by omega)
      subst hl0
      exact ⟨.ok, _, h, rfl, by show Evolves h RV.null h (Vec.shaped RV.null (n :: k :: sub)).rv; rw [shaped_rv]; exact Evolves.refl w, Or.inl ⟨rfl, _, rfl, hf h _ w (hasList_null h)⟩⟩

/-- The constructor refuses a range of another length. -/
theorem ctor_refuses (h : Heap α) {dims : List Nat} {ss : List (Src α)} (hd : 2 ≤ dims.length) (hl : prodL dims ≠ ss.length) :
    Vec.ctor dims ss h = some ((.argumentError, none), h) := by
  match dims with
  | [] => simp at hd
  | [n] => simp at hd
  | n :: k :: sub => rw [Vec.ctor, if_pos hl]; rfl

theorem copy_made {h : Heap α} {v : Vec} {a : AVal α} (r : RelV h v a) (hs : startable a.dims = true) :
    ∃ out o h', v.copyCtor h = some ((out, o), h') ∧ Made h h' out o a := by
  have w := r.flat.2.2.2.1
  cases v with
  | one v => cases a with
    | tab s => exact r.elim
    | list l =>
      have hr := rvRefs_reads r.2.1 r.2.2
      have hlen := hr.length
      have h0 : l.length ≠ 0 := by simpa [startable, AVal.dims] using hs
      obtain ⟨ok, rv', h', e, ev, hok, hno⟩ := rvInit_spec w hr (ne_nil_of_length (by omega))
      cases ok with
      | true =>
        refine ⟨.ok, some (.one ⟨rv', l.length⟩), h', ?_, ev, Or.inl ⟨rfl, _, rfl, ev.wf, (hok rfl).1, rfl⟩⟩
        have e2 : v.copyCtor h = some (some ⟨rv', l.length⟩, h') := by rw [Vec1.copyCtor, Vec1.ctor, bind_some e, hlen]; rfl
        rw [Vec.copyCtor, bind_some e2]; rfl
      | false =>
        obtain ⟨rfl, hcf⟩ := hno rfl
        refine ⟨.threw, none, h', ?_, ev, Or.inr ⟨rfl, rfl, hcf⟩⟩
        have e2 : v.copyCtor h = some (none, h') := by rw [Vec1.copyCtor, Vec1.ctor, bind_some e]; rfl
        rw [Vec.copyCtor, bind_some e2]; rfl
  | many v => cases a with
    | list l => exact r.elim
    | tab s =>
      obtain ⟨r, hsub⟩ := r
      have hr := rvRefs_reads r.list r.total
      have hlen := hr.length
      rw [Vec.copyCtor]
      have hf : ∀ (h' : Heap α) rv, WfH h' → HasList h' rv s.rows.flatten → RelV h' (.many { v with rv := rv }) (.tab s) :=
        fun h' rv w' o => ⟨⟨w', o, r.top, r.total, r.sub, r.es, r.rows⟩, hsub⟩
      by_cases h0 : v.total ≠ 0
      · rw [if_pos h0]
        exact init_made (f := fun rv => .many { v with rv := rv }) w hr (ne_nil_of_length (by rw [hlen, ← r.total]; exact h0)) (fun _ => rfl) hf
      · rw [if_neg h0]
        refine ⟨.ok, _, h, rfl, Evolves.refl w, Or.inl ⟨rfl, _, rfl, hf h _ w ?_⟩⟩
        have : s.rows.flatten = [] := List.length_eq_zero_iff.mp (by rw [← r.total]; omega)
        rw [this]; exact hasList_null h

/-! ### Statements -/

/-- A new block replaces the old one. -/
theorem Evolves.replace {h h1 h2 : Heap α} {r v : RV} (e1 : Evolves h RV.null h1 r) (e2 : Evolves h1 v h2 RV.null) : Evolves h v h2 r where
  wf := e2.wf
  frame := fun b hv hr => (e2.frame b hv (by simp [RV.null])).trans (e1.frame b (by simp [RV.null]) hr)
  moved := fun b hv _ => e2.moved b hv (by simp [RV.null])
  fresh := fun b hr _ => e1.fresh b hr (by simp [RV.null])
  failC := e2.failC.trans e1.failC
  failA := e2.failA.trans e1.failA

/-- How a statement may end. -/
structure StmtPost (h : Heap α) (e : Vars Vec) (E : Vars (AVal α)) (st : Stmt α) (out : Out) (e' : Vars Vec) (h' : Heap α) : Prop where
  failC : h'.failC = h.failC
  failA : h'.failA = h.failA
  good : out ≠ .threw → out = (st.spec E).1 ∧ Inv h' e' (st.spec E).2
  fail : out = .threw → CanFail h ∧ ∃ E', st.left E E' ∧ Inv h' e' E'

/-- A statement that creates variable `x`. -/
theorem create_post {h : Heap α} {e : Vars Vec} {E : Vars (AVal α)} (i : Inv h e E) {x : Nat} (hx : e x = none) {st : Stmt α} {a : AVal α}
    (hspec : st.spec E = (.ok, E.set x (some a))) (hleft : st.left E E) {m : M α (Out × Option Vec)} {out : Out} {o : Option Vec} {h' : Heap α}
    (em : m h = some ((out, o), h')) (made : Made h h' out o a) :
    ∃ out e' h', (m >>= fun r => (pure (r.1, e.set x r.2) : M α (Out × Vars Vec))) h = some ((out, e'), h') ∧ StmtPost h e E st out e' h' := by
  have hE : E x = none := by
    have := i.rel x; rw [hx] at this
    cases hE : E x with
    | none => rfl
    | some a => rw [hE] at this; exact this.elim
  have ev : Evolves h (rvO (e x)) h' (rvO o) := by rw [hx]; exact made.ev
  refine ⟨out, e.set x o, h', by rw [bind_some em]; rfl, ev.failC, ev.failA, fun ht => ?_, fun ht => ?_⟩
  · rcases made.res with ⟨ho, v, rfl, r⟩ | ⟨ho, _⟩
    · rw [hspec]
      exact ⟨ho, i.update (o := some v) (a := some a) ev r⟩
    · exact absurd ho ht
  · rcases made.res with ⟨ho, _⟩ | ⟨_, rfl, hc⟩
    · rw [ho] at ht; cases ht
    · refine ⟨hc, E, hleft, ?_⟩
      have := i.update (x := x) (o := none) (a := none) ev trivial
      rwa [Vars.set_self E hE] at this

/-- A statement that changes nothing. -/
theorem idle_post {h : Heap α} {e : Vars Vec} {E : Vars (AVal α)} (i : Inv h e E) {st : Stmt α} {out : Out} (ho : out ≠ .threw)
    (hspec : st.spec E = (out, E)) : StmtPost h e E st out e h :=
  ⟨rfl, rfl, fun _ => by rw [hspec]; exact ⟨rfl, i⟩, fun ht => absurd ht ho⟩

theorem dims_len {a : AVal α} : (∃ l, a = .list l) ∨ ∃ s, a = .tab s := by cases a <;> simp

theorem specN_rank {s : Tab α} (hs : s.sub ≠ []) {op : OpN α} (hr : op.ranked s.sub.length = true) : (specN s op).2.sub ≠ [] := by
  have pos : 0 < s.sub.length := List.length_pos_iff.mpr hs
  have key : ∀ (shape : List Nat), decide (shape.length = s.sub.length) = true → shape ≠ [] := fun shape hh => by
    have := of_decide_eq_true hh
    exact List.ne_nil_of_length_pos (by omega)
  cases op with
  | pushBack shape row => simp only [specN]; split; exact key _ hr; exact hs
  | popBack => exact hs
  | insertCount p c shape row => simp only [specN]; split; exact hs; split; exact key _ hr; exact hs
  | insertRange p shape rows => simp only [specN]; split; exact hs; split; exact key _ hr; exact hs
  | erase p => simp only [specN]; split <;> exact hs
  | eraseRange p q => simp only [specN]; split <;> exact hs
  | resizeTop n a => exact hs
  | resizeAll top sub a => exact key _ hr
  | assign top sub a => exact key _ hr
  | clear a => exact hs
  | reserve n => exact hs
  | shrink => exact hs

theorem leftN_rank {s s' : Tab α} (hs : s.sub ≠ []) {op : OpN α} (hr : op.ranked s.sub.length = true) (hl : leftN s s' op) : s'.sub ≠ [] := by
  have pos : 0 < s.sub.length := List.length_pos_iff.mpr hs
  have key : ∀ (shape : List Nat), decide (shape.length = s.sub.length) = true → s'.sub = s.sub ∨ s.rows = [] ∧ s'.sub = shape → s'.sub ≠ [] :=
    fun shape hh => by
      have := of_decide_eq_true hh
      rintro (h | ⟨_, h⟩)
      · rw [h]; exact hs
      · rw [h]; exact List.ne_nil_of_length_pos (by omega)
  cases op with
  | pushBack shape row => exact key _ hr hl.2
  | insertCount p c shape row => exact key _ hr hl.2
  | insertRange p shape rows => exact key _ hr hl.2
  | erase p => rw [hl.1]; exact hs
  | eraseRange p q => rw [hl.1]; exact hs
  | assign top sub a => rw [hl.1]; exact hs
  | popBack => rw [show s' = s from hl]; exact hs
  | resizeTop n a => rw [show s' = s from hl]; exact hs
  | resizeAll top sub a => rw [show s' = s from hl]; exact hs
  | clear a => rw [show s' = s from hl]; exact hs
  | reserve n => rw [show s' = s from hl]; exact hs
  | shrink => rw [show s' = s from hl]; exact hs

/-- The statement can lose elements when an allocation throws (C21). -/
def Stmt.inserts : Stmt α → Bool
  | .call1 _ op => op.inserts
  | .callN _ op => op.inserts
  | _ => false

theorem and_split {a b : Bool} (h : (a && b) = true) : a = true ∧ b = true := by simpa using h

theorem Inv.absent {h : Heap α} {e : Vars Vec} {E : Vars (AVal α)} (i : Inv h e E) {x : Nat} (hx : (ashapes E x).isNone = true) : e x = none ∧ E x = none := by
  have hE : E x = none := by
    cases hE : E x with
    | none => rfl
    | some a => simp [ashapes, hE] at hx
  exact ⟨relO_none (by have := i.rel x; rwa [hE] at this), hE⟩

theorem Inv.present {h : Heap α} {e : Vars Vec} {E : Vars (AVal α)} (i : Inv h e E) {x : Nat} {d : List Nat} (hx : ashapes E x = some d) :
    ∃ v a, e x = some v ∧ E x = some a ∧ RelV h v a ∧ a.dims = d := by
  cases hE : E x with
  | none => simp [ashapes, hE] at hx
  | some a =>
    obtain ⟨v, hv, r⟩ := relO_some (show RelO h (e x) (some a) by rw [← hE]; exact i.rel x)
    exact ⟨v, a, hv, rfl, r, by simpa [ashapes, hE] using hx⟩

theorem Inv.present' {h : Heap α} {e : Vars Vec} {E : Vars (AVal α)} (i : Inv h e E) {x : Nat} (hx : (ashapes E x).isSome = true) :
    ∃ v a, e x = some v ∧ E x = some a ∧ RelV h v a := by
  obtain ⟨d, hd⟩ := Option.isSome_iff_exists.mp hx
  obtain ⟨v, a, h1, h2, h3, _⟩ := i.present hd
  exact ⟨v, a, h1, h2, h3⟩

/-- `x` takes over what `y` has. -/
theorem Inv.take {h : Heap α} {e : Vars Vec} {E : Vars (AVal α)} (i : Inv h e E) {x y : Nat} (hxy : x ≠ y) (hx : rvO (e x) = RV.null) {v w : Vec}
    {a b : AVal α} (hy : e y = some v) (hw : w.rv = v.rv) (rw' : RelV h w b) (r : RelV h v a) :
    Inv h ((e.set x (some w)).set y (some v.tidy)) ((E.set x (some b)).set y (some a.emptied)) :=
  i.two hxy (by rw [hy]; exact hw) (by rw [hx]; exact tidy_rv v) rw' (tidy_rel r)

end Verif.VectorNd
