import Verif.Model.CheckedPtr

/-!
# C87: checked pointers point to what they promise
-/
set_option autoImplicit false

namespace Verif.CheckedPtr

/-! ## Specification -/

/-- An object of class `c` has a part of class `d`, reached by the given bases. -/
inductive Part : Cls → List Nat → Cls → Prop
  | self (c : Cls) : Part c [] c
  | base {c b d : Cls} {i : Nat} {p : List Nat} : c.bases[i]? = some b → Part b p d → Part c (i :: p) d

/-- `p` points to a part of class `T` of an object. -/
def PointsTo (s : St) (p : Ptr) (T : Nat) : Prop := ∃ c alive d, s.objs[p.obj]? = some (c, alive) ∧ Part c p.path d ∧ d.name = T

def Alive (s : St) (i : Nat) : Prop := ∃ c, s.objs[i]? = some (c, true)

/-! ## Lemmas -/

theorem sub_iff {c d : Cls} {p : List Nat} : c.sub p = some d ↔ Part c p d := by
  induction p generalizing c with
  | nil =>
    simp only [Cls.sub, Option.some.injEq]
    constructor
    · rintro rfl; exact .self c
    · intro h; cases h; rfl
  | cons i p ih =>
    simp only [Cls.sub, Option.bind_eq_some_iff]
    constructor
    · rintro ⟨b, hb, h⟩; exact .base hb (ih.1 h)
    · intro h; cases h with | base hb h => exact ⟨_, hb, ih.2 h⟩

theorem Part.append {c d e : Cls} {p q : List Nat} (h : Part c p d) (h' : Part d q e) : Part c (p ++ q) e := by
  induction h with
  | self c => exact h'
  | base hb _ ih => exact .base hb (ih h')

mutual
theorem mem_paths (c : Cls) (p : List Nat) : p ∈ c.paths ↔ ∃ d, c.sub p = some d := by
  cases c with
  | mk n v bs =>
    cases p with
    | nil => simp [Cls.paths, Cls.sub]
    | cons i p =>
      have h := mem_pathsFrom bs 0 i p
      simp only [Cls.paths, List.mem_cons, reduceCtorEq, false_or, h, Cls.sub, Cls.bases, Nat.sub_zero, Nat.zero_le, true_and, Option.bind_eq_some_iff]
      constructor
      · rintro ⟨b, d, hb, hd⟩; exact ⟨d, b, hb, hd⟩
      · rintro ⟨d, b, hb, hd⟩; exact ⟨b, d, hb, hd⟩
theorem mem_pathsFrom (bs : List Cls) (k i : Nat) (p : List Nat) : (i :: p) ∈ pathsFrom k bs ↔ k ≤ i ∧ ∃ b d, bs[i - k]? = some b ∧ b.sub p = some d := by
  cases bs with
  | nil => simp [pathsFrom]
  | cons b bs =>
    have h1 := mem_paths b p
    have h2 := mem_pathsFrom bs (k + 1) i p
    simp only [pathsFrom, List.mem_append, List.mem_map, List.cons.injEq, h2]
    constructor
    · rintro (⟨q, hq, rfl, rfl⟩ | ⟨hk, b', d, hb, hd⟩)
      · obtain ⟨d, hd⟩ := h1.1 hq
        exact ⟨Nat.le_refl _, b, d, by simp, hd⟩
      · refine ⟨by omega, b', d, ?_, hd⟩
        have : i - k = (i - (k + 1)) + 1 := by omega
        rw [this, List.getElem?_cons_succ]; exact hb
    · rintro ⟨hk, b', d, hb, hd⟩
      rcases Nat.lt_or_ge k i with h | h
      · right
        refine ⟨by omega, b', d, ?_, hd⟩
        have : i - k = (i - (k + 1)) + 1 := by omega
        rw [this, List.getElem?_cons_succ] at hb; exact hb
      · left
        have : i = k := by omega
        subst this
        simp at hb; subst hb
        exact ⟨p, h1.2 ⟨d, hd⟩, rfl, rfl⟩
end

mutual
theorem paths_nodup (c : Cls) : c.paths.Nodup := by
  cases c with
  | mk n v bs =>
    simp only [Cls.paths, List.nodup_cons]
    exact ⟨fun h => nil_not_from bs 0 h, pathsFrom_nodup bs 0⟩
theorem pathsFrom_nodup (bs : List Cls) (k : Nat) : (pathsFrom k bs).Nodup := by
  cases bs with
  | nil => simp [pathsFrom]
  | cons b bs =>
    have h1 := paths_nodup b
    have h2 := pathsFrom_nodup bs (k + 1)
    simp only [pathsFrom, List.nodup_append]
    refine ⟨?_, h2, ?_⟩
    · exact List.Pairwise.map _ (fun a b hab h => hab (by simpa using h)) h1
    · rintro a ha b' hb rfl
      obtain ⟨q, _, rfl⟩ := List.mem_map.1 ha
      have := ((mem_pathsFrom bs (k + 1) k q).1 hb).1
      omega
theorem nil_not_from (bs : List Cls) (k : Nat) : ([] : List Nat) ∉ pathsFrom k bs := by
  cases bs with
  | nil => simp [pathsFrom]
  | cons b bs =>
    have h2 := nil_not_from bs (k + 1)
    simp [pathsFrom, h2]
end

theorem mem_named {c : Cls} {T : Nat} {p : List Nat} : p ∈ named c T ↔ ∃ d, Part c p d ∧ d.name = T := by
  simp only [named, List.mem_filter, mem_paths]
  constructor
  · rintro ⟨⟨d, hd⟩, h⟩
    rw [hd] at h
    exact ⟨d, sub_iff.1 hd, by simpa using h⟩
  · rintro ⟨d, hd, h⟩
    have := sub_iff.2 hd
    exact ⟨⟨d, this⟩, by rw [this]; simpa using h⟩

theorem named_nodup (c : Cls) (T : Nat) : (named c T).Nodup := List.Pairwise.filter _ (paths_nodup c)

theorem mem_around {c : Cls} {T : Nat} {p q : List Nat} (h : q ∈ around c p T) : ∃ d, Part c q d ∧ d.name = T := by
  simp only [around, List.mem_filter] at h
  obtain ⟨_, h⟩ := h
  cases hs : c.sub q with
  | none => rw [hs] at h; simp at h
  | some d => rw [hs] at h; exact ⟨d, sub_iff.1 hs, by simpa using h⟩

theorem dynCast_sound {c st : Cls} {p q : List Nat} {T : Nat} (hp : Part c p st) (h : dynCast c p st T = .to q) : ∃ d, Part c q d ∧ d.name = T := by
  unfold dynCast at h
  split at h
  · rename_i u hu
    cases h
    obtain ⟨d, hd, hn⟩ := mem_named.1 (show u ∈ named st T by rw [hu]; simp)
    exact ⟨d, hp.append hd, hn⟩
  · cases h
  · split at h
    · split at h
      · rename_i hq; cases h; exact mem_around (by rw [hq]; simp)
      · split at h
        · rename_i hq; cases h; exact mem_named.1 (by rw [hq]; simp)
        · cases h
    · cases h

theorem single {l : List (List Nat)} {q : List Nat} (hn : l.Nodup) (h : ∀ p, p ∈ l ↔ p = q) : l = [q] := by
  match l, hn with
  | [], _ => exact absurd ((h q).2 rfl) (by simp)
  | [a], _ => rw [(h a).1 (by simp)]
  | a :: b :: r, hn =>
    have ha := (h a).1 (by simp)
    have hb := (h b).1 (by simp)
    simp [ha, hb] at hn

theorem dynCast_only {c st : Cls} {p q : List Nat} {T : Nat} (hp : Part c p st) (hpoly : st.polymorphic = true) (h : ∀ r, (∃ d, Part c r d ∧ d.name = T) ↔ r = q) : dynCast c p st T = .to q := by
  have hall : named c T = [q] := single (named_nodup c T) (fun r => by rw [mem_named, h r])
  cases hres : dynCast c p st T with
  | to r => rw [(h r).1 (dynCast_sound hp hres)]
  | refused =>
    unfold dynCast at hres
    split at hres
    · cases hres
    · rename_i a b r hl
      exfalso
      have ha : p ++ a = q := by
        obtain ⟨d, hd, hn⟩ := mem_named.1 (show a ∈ named st T by rw [hl]; simp)
        exact (h _).1 ⟨d, hp.append hd, hn⟩
      have hb : p ++ b = q := by
        obtain ⟨d, hd, hn⟩ := mem_named.1 (show b ∈ named st T by rw [hl]; simp)
        exact (h _).1 ⟨d, hp.append hd, hn⟩
      have hnd := named_nodup st T
      rw [hl] at hnd
      have : a = b := List.append_cancel_left (ha.trans hb.symm)
      simp [this] at hnd
    · rw [if_pos hpoly, hall] at hres
      split at hres <;> cases hres
  | null =>
    unfold dynCast at hres
    split at hres
    · cases hres
    · cases hres
    · rw [if_pos hpoly, hall] at hres
      split at hres <;> cases hres

theorem dynCast_none {c st : Cls} {p : List Nat} {T : Nat} (hp : Part c p st) (h : ∀ r d, Part c r d → d.name ≠ T) :
    dynCast c p st T = if st.polymorphic then .null else .refused := by
  have h1 : named st T = [] := List.eq_nil_iff_forall_not_mem.2 (fun r hr => by
    obtain ⟨d, hd, hn⟩ := mem_named.1 hr
    exact h _ _ (hp.append hd) hn)
  have h2 : around c p T = [] := List.eq_nil_iff_forall_not_mem.2 (fun r hr => by
    obtain ⟨d, hd, hn⟩ := mem_around hr
    exact h _ _ hd hn)
  have h3 : named c T = [] := List.eq_nil_iff_forall_not_mem.2 (fun r hr => by
    obtain ⟨d, hd, hn⟩ := mem_named.1 hr
    exact h _ _ hd hn)
  simp [dynCast, h1, h2, h3]

/-! ## `instance_of` -/

def Good (s : St) : Prop := ∀ x T p, s.vars x = some (T, p) → PointsTo s p T

theorem Good.set {s : St} (h : Good s) (x : Nat) (T : Nat) (p : Ptr) (hp : PointsTo s p T) : Good (s.set x (some (T, p))) := by
  intro y U q hq
  simp only [St.set] at hq
  split at hq
  · simp at hq; obtain ⟨rfl, rfl⟩ := hq; exact hp
  · exact h y U q hq

theorem good_construct {s s' : St} {x T : Nat} {p : Option Ptr} (h : Good s) (hs : (construct s x T p).state = some s') : Good s' := by
  cases p with
  | none => simp only [construct, Res.state, Option.some.injEq] at hs; subst hs; exact h
  | some p =>
    simp only [construct] at hs
    split at hs
    · simp [Res.state] at hs
    · simp [Res.state] at hs
    · rename_i c ho
      split at hs
      · simp [Res.state] at hs
      · rename_i st hst
        split at hs
        · simp [Res.state] at hs
        · simp only [Res.state, Option.some.injEq] at hs; subst hs; exact h
        · rename_i q hq
          simp only [Res.state, Option.some.injEq] at hs; subst hs
          obtain ⟨d, hd, hn⟩ := dynCast_sound (sub_iff.1 hst) hq
          exact h.set x T _ ⟨c, true, d, ho, hd, hn⟩

theorem good_step {s s' : St} {op : Op} (h : Good s) (hs : (step s op).state = some s') : Good s' := by
  cases op with
  | make c =>
    simp only [step, Res.state, Option.some.injEq] at hs; subst hs
    intro x T p hp
    obtain ⟨c', al, d, ho, hd⟩ := h x T p hp
    exact ⟨c', al, d, by rw [List.getElem?_append_left (by obtain ⟨hl, _⟩ := List.getElem?_eq_some_iff.1 ho; exact hl)]; exact ho, hd⟩
  | kill i =>
    simp only [step] at hs
    split at hs
    · rename_i c hc
      simp only [Res.state, Option.some.injEq] at hs; subst hs
      intro x T p hp
      obtain ⟨c', al, d, ho, hd⟩ := h x T p hp
      by_cases hi : p.obj = i
      · refine ⟨c, false, d, ?_, ?_⟩
        · obtain ⟨hl, _⟩ := List.getElem?_eq_some_iff.1 hc
          dsimp only
          rw [hi, List.getElem?_set_self hl]
        · rw [hi, hc] at ho; simp at ho; rw [ho.1]; exact hd
      · exact ⟨c', al, d, by dsimp only; rw [List.getElem?_set_ne (by omega)]; exact ho, hd⟩
    · simp [Res.state] at hs
  | wrap x T p => exact good_construct h hs
  | wrapRef x T p =>
    cases p with
    | none => simp [step, Res.state] at hs
    | some p => exact good_construct (x := x) (T := T) (p := some p) h (by simpa only [step] using hs)
  | copy x y k =>
    simp only [step] at hs
    split at hs
    · simp [Res.state] at hs
    · rename_i v hv
      obtain ⟨T, p⟩ := v
      split at hs
      · simp only [Res.state, Option.some.injEq] at hs; subst hs
        exact h.set x T p (h y T p hv)
      · simp [Res.state] at hs
  | assign x y =>
    simp only [step] at hs
    split at hs
    · rename_i T p' U p hx hy
      split at hs
      · simp only [Res.state, Option.some.injEq] at hs; subst hs
        exact h.set x U p (h y U p hy)
      · simp [Res.state] at hs
    · simp [Res.state] at hs
  | get x =>
    simp only [step] at hs
    split at hs
    · simp [Res.state] at hs
    · simp only [Res.state, Option.some.injEq] at hs; subst hs; exact h
  | use x =>
    simp only [step] at hs
    split at hs
    · simp [Res.state] at hs
    · split at hs
      · simp only [Res.state, Option.some.injEq] at hs; subst hs; exact h
      · simp [Res.state] at hs

theorem Reach.good {s : St} (hs : Reach s) : Good s := by
  induction hs with
  | init => intro x T p h; simp [CheckedPtr.init] at h
  | step op _ hstep ih => exact good_step ih hstep

/-- In every program, what an `instance_of<T>` gives points to a part of class `T` of an object; it is never null. -/
theorem C87_instance_of {s s' : St} (hs : Reach s) (x T : Nat) (p q : Ptr) (hx : s.vars x = some (T, q)) (h : step s (.get x) = .got p s') : s' = s ∧ PointsTo s p T := by
  simp only [step, hx, Res.got.injEq] at h
  obtain ⟨rfl, rfl⟩ := h
  exact ⟨rfl, hs.good x T q hx⟩

/-- Using the object is defined exactly as long as the object is alive. -/
theorem C87_use {s : St} (hs : Reach s) (x T : Nat) (p : Ptr) (hx : s.vars x = some (T, p)) :
    (Alive s p.obj → step s (.use x) = .got p s ∧ PointsTo s p T) ∧ (¬ Alive s p.obj → step s (.use x) = .ub) := by
  constructor
  · rintro ⟨c, hc⟩
    exact ⟨by simp [step, hx, hc], hs.good x T p hx⟩
  · intro h
    simp only [step, hx]
    split
    · rename_i c hc; exact absurd ⟨c, hc⟩ h
    · rfl

/-- The class declares a virtual function, or one of its bases, direct or not, does. -/
def Virtual (c : Cls) : Prop := ∃ p n bs, Part c p (.mk n true bs)

theorem virtual_mk {n : Nat} {v : Bool} {bs : List Cls} : Virtual (.mk n v bs) ↔ v = true ∨ ∃ b ∈ bs, Virtual b := by
  constructor
  · rintro ⟨p, m, cs, h⟩
    cases h with
    | self => exact .inl rfl
    | base hi hp => exact .inr ⟨_, List.mem_of_getElem? hi, _, _, _, hp⟩
  · rintro (rfl | ⟨b, hb, p, m, cs, h⟩)
    · exact ⟨[], n, bs, .self _⟩
    · obtain ⟨i, hi⟩ := List.getElem?_of_mem hb
      exact ⟨i :: p, m, cs, .base hi h⟩

mutual
theorem polymorphic_iff : ∀ c : Cls, c.polymorphic = true ↔ Virtual c
  | .mk n v bs => by
    rw [virtual_mk]
    simp only [Cls.polymorphic, Bool.or_eq_true, anyPolymorphic_iff bs]
theorem anyPolymorphic_iff : ∀ bs : List Cls, anyPolymorphic bs = true ↔ ∃ b ∈ bs, Virtual b
  | [] => by simp [anyPolymorphic]
  | b :: bs => by simp [anyPolymorphic, polymorphic_iff b, anyPolymorphic_iff bs]
end

/-- A pointer to a part of an object that is a `T` once is accepted, and gives the `T` of this object. Missing: objects that are a `T` more than once (`C87_ambiguous_violated`). -/
theorem C87_accepts_partial (s : St) (x T : Nat) (p : Ptr) (c st d : Cls) (q : List Nat) (ho : s.objs[p.obj]? = some (c, true)) (hp : Part c p.path st) (hpoly : Virtual st)
    (hq : Part c q d) (hd : d.name = T) (honly : ∀ q' d', Part c q' d' → d'.name = T → q' = q) :
    step s (.wrap x T (some p)) = .done (s.set x (some (T, ⟨p.obj, q⟩))) ∧ step s (.wrapRef x T (some p)) = .done (s.set x (some (T, ⟨p.obj, q⟩))) := by
  have hst := sub_iff.2 hp
  have h := dynCast_only (T := T) (q := q) hp ((polymorphic_iff st).2 hpoly) (fun r => ⟨fun ⟨d', h1, h2⟩ => honly r d' h1 h2, fun e => ⟨d, e ▸ hq, hd⟩⟩)
  have : construct s x T (some p) = .done (s.set x (some (T, ⟨p.obj, q⟩))) := by simp only [construct, ho, hst, h]
  exact ⟨by simp only [step, this], by simp only [step, this]⟩

/-- A pointer to an object that is not a `T`, and a null pointer, is never accepted: an exception is thrown and nothing changes. (Where the class of the pointer has no virtual function, the statement does
not compile.) -/
theorem C87_rejects (s : St) (x T : Nat) :
    step s (.wrap x T none) = .threw s ∧
    ∀ (p : Ptr) (c st : Cls), s.objs[p.obj]? = some (c, true) → Part c p.path st → (∀ q d, Part c q d → d.name ≠ T) →
      (Virtual st → step s (.wrap x T (some p)) = .threw s ∧ step s (.wrapRef x T (some p)) = .threw s) ∧
      (¬ Virtual st → step s (.wrap x T (some p)) = .refused ∧ step s (.wrapRef x T (some p)) = .refused) := by
  refine ⟨by simp only [step, construct], fun p c st ho hp hno => ?_⟩
  have hst := sub_iff.2 hp
  have h := dynCast_none hp hno
  have : construct s x T (some p) = (if st.polymorphic then .threw s else .refused) := by
    simp only [construct, ho, hst, h]
    cases st.polymorphic <;> simp
  constructor
  · intro hv
    rw [if_pos ((polymorphic_iff st).2 hv)] at this
    exact ⟨by simp only [step, this], by simp only [step, this]⟩
  · intro hv
    rw [if_neg (fun e => hv ((polymorphic_iff st).1 e))] at this
    exact ⟨by simp only [step, this], by simp only [step, this]⟩

/-- 1 has a virtual function; 2 and 3 derive from 1, 4 derives from 2 and 3 and from 5, which has a virtual function. -/
def cls1 : Cls := .mk 1 true []
def cls4 : Cls := .mk 4 false [.mk 2 false [cls1], .mk 3 false [cls1], .mk 5 true []]

def sampleSt : St := ⟨[(cls4, true)], fun _ => none⟩

/-- From the part 5 to the part 3. -/
example : step sampleSt (.wrap 0 3 (some ⟨0, [2]⟩)) = .done (sampleSt.set 0 (some (3, ⟨0, [1]⟩))) := by
  refine (C87_accepts_partial sampleSt 0 3 ⟨0, [2]⟩ cls4 (.mk 5 true []) (.mk 3 false [cls1]) [1] rfl (.base rfl (.self _)) ⟨[], 5, [], .self _⟩ (.base rfl (.self _)) rfl ?_).1
  intro q d hq hd
  have hm : q ∈ named cls4 3 := mem_named.2 ⟨d, hq, hd⟩
  have : named cls4 3 = [[1]] := by decide +kernel
  rw [this] at hm
  simpa using hm

/-- 4 has a virtual function by its bases, 6 has none. -/
example : Virtual cls4 ∧ ¬ Virtual (.mk 6 false []) :=
  ⟨⟨[0, 0], 1, [], .base rfl (.base rfl (.self _))⟩, fun h => by simp [virtual_mk] at h⟩

example : ∀ q d, Part cls4 q d → d.name ≠ 7 := by
  intro q d hq hd
  have hm : q ∈ named cls4 7 := mem_named.2 ⟨d, hq, hd⟩
  have : named cls4 7 = [] := by decide +kernel
  rw [this] at hm
  cases hm

example : Reach (sampleSt.set 0 (some (3, ⟨0, [1]⟩))) := by
  have h1 : Reach sampleSt := .step (.make cls4) .init (by simp [step, init, Res.state, sampleSt])
  exact .step (.wrap 0 3 (some ⟨0, [2]⟩)) h1 rfl

/-- An object that is a `T` twice is refused with the message that it is not an instance of `T`. -/
theorem C87_ambiguous_violated : (∃ q d, Part cls4 q d ∧ d.name = 1) ∧ step sampleSt (.wrap 0 1 (some ⟨0, [2]⟩)) = .threw sampleSt := by
  refine ⟨⟨[0, 0], cls1, .base rfl (.base rfl (.self _)), rfl⟩, rfl⟩

/-- A variable that is not const cannot be copied: the constructor template is the better match and does not compile. -/
theorem C87_copy_violated (s : St) (x y : Nat) (v : Nat × Ptr) (h : s.vars y = some v) : step s (.copy x y false) = .refused ∧ step s (.copy x y true) = .done (s.set x (some v)) := by
  simp [step, h]

/-! ## `not_null` -/

namespace NotNull

inductive Reach (debug : Bool) : St → Prop
  | init : Reach debug init
  | step {s s' : St} (op : Op) : Reach debug s → (step debug s op).state = some s' → Reach debug s'

def RawOk (s : St) : Prop := ∀ x p, s.raw x = some p → p ≠ 0

theorem RawOk.upd {s : St} (h : RawOk s) (x p : Nat) (hp : p ≠ 0) : RawOk { s with raw := upd s.raw x (some p) } := by
  intro y q hq
  simp only [NotNull.upd] at hq
  split at hq
  · simp at hq; omega
  · exact h y q hq

theorem rawOk_step {s s' : St} {op : Op} (h : RawOk s) (hs : (step true s op).state = some s') : RawOk s' := by
  cases op with
  | make x p =>
    simp only [step, Bool.true_and] at hs
    split at hs
    · simp [Res.state] at hs
    · rename_i hp
      simp only [Res.state, Option.some.injEq] at hs; subst hs
      exact h.upd x p (by simpa using hp)
  | copy x y =>
    simp only [step] at hs
    split at hs
    · simp [Res.state] at hs
    · rename_i p hp
      simp only [Res.state, Option.some.injEq] at hs; subst hs
      exact h.upd x p (h y p hp)
  | get x =>
    simp only [step] at hs
    split at hs
    · simp [Res.state] at hs
    · simp only [Res.state, Option.some.injEq] at hs; subst hs; exact h
  | deref x =>
    simp only [step] at hs
    split at hs
    · simp [Res.state] at hs
    · split at hs
      · simp [Res.state] at hs
      · simp only [Res.state, Option.some.injEq] at hs; subst hs; exact h
  | setSmart v p => simp only [step, Res.state, Option.some.injEq] at hs; subst hs; exact h
  | endSmart v =>
    simp only [step] at hs
    split at hs
    · simp [Res.state] at hs
    · simp only [Res.state, Option.some.injEq] at hs; subst hs; exact h
  | wrap x v =>
    simp only [step] at hs
    repeat' split at hs
    all_goals first | (simp [Res.state] at hs; done) | (simp only [Res.state, Option.some.injEq] at hs; subst hs; exact h)
  | wrapCopy x y =>
    simp only [step] at hs
    repeat' split at hs
    all_goals first | (simp [Res.state] at hs; done) | (simp only [Res.state, Option.some.injEq] at hs; subst hs; exact h)
  | wrapGet x =>
    simp only [step] at hs
    repeat' split at hs
    all_goals first | (simp [Res.state] at hs; done) | (simp only [Res.state, Option.some.injEq] at hs; subst hs; exact h)
  | wrapDeref x =>
    simp only [step] at hs
    repeat' split at hs
    all_goals first | (simp [Res.state] at hs; done) | (simp only [Res.state, Option.some.injEq] at hs; subst hs; exact h)

/-- In a debug build a `not_null` of a raw pointer is never null: it gives the pointer it was made from, and dereferencing it is not undefined for this reason. Missing: other builds
(`C87_not_null_violated`). -/
theorem C87_not_null_partial {s : St} (hs : Reach true s) (x : Nat) :
    (∀ p, step true s (.make x p) = if p = 0 then .aborted else .done { s with raw := upd s.raw x (some p) }) ∧
    (s.raw x ≠ none → ∃ p, p ≠ 0 ∧ s.raw x = some p ∧ step true s (.get x) = .got p s ∧ step true s (.deref x) = .got p s) := by
  have hr : RawOk s := by
    induction hs with
    | init => intro x p h; simp [init] at h
    | step op _ hstep ih => exact rawOk_step ih hstep
  refine ⟨fun p => by by_cases h : p = 0 <;> simp [step, h], fun hx => ?_⟩
  cases h : s.raw x with
  | none => exact absurd h hx
  | some p => exact ⟨p, hr x p h, rfl, by simp [step, h], by simp [step, h, hr x p h]⟩

/-- A release build accepts null. -/
theorem C87_not_null_violated : ∃ s, run false init [.make 0 0, .get 0] = .got 0 s ∧ run false init [.make 0 0, .deref 0] = .ub := ⟨_, rfl, rfl⟩

/-- The smart pointers that are wrapped keep an object, and their scope does not end. -/
def KeepsWrapped (s : St) : Op → Prop
  | .setSmart v p => p ≠ 0 ∨ ∀ x, s.wrapped x ≠ some v
  | .endSmart v => ∀ x, s.wrapped x ≠ some v
  | _ => True

inductive KeptReach : St → Prop
  | init : KeptReach init
  | step {s s' : St} (op : Op) : KeptReach s → KeepsWrapped s op → (step true s op).state = some s' → KeptReach s'

def WrapOk (s : St) : Prop := ∀ x v, s.wrapped x = some v → ∃ p, s.smart v = some p ∧ p ≠ 0

theorem WrapOk.upd {s : St} (h : WrapOk s) (x v p : Nat) (hv : s.smart v = some p) (hp : p ≠ 0) : WrapOk { s with wrapped := NotNull.upd s.wrapped x (some v) } := by
  intro y w hw
  simp only [NotNull.upd] at hw
  split at hw
  · simp at hw; subst hw; exact ⟨p, hv, hp⟩
  · exact h y w hw

theorem wrapOk_step {s s' : St} {op : Op} (h : WrapOk s) (hk : KeepsWrapped s op) (hs : (step true s op).state = some s') : WrapOk s' := by
  cases op with
  | setSmart v p =>
    simp only [step, Res.state, Option.some.injEq] at hs; subst hs
    intro x w hw
    obtain ⟨q, hq, hq0⟩ := h x w hw
    simp only [NotNull.upd]
    by_cases e : w = v
    · subst e
      rw [if_pos rfl]
      rcases hk with hk | hk
      · exact ⟨p, rfl, hk⟩
      · exact absurd hw (hk x)
    · rw [if_neg e]; exact ⟨q, hq, hq0⟩
  | endSmart v =>
    simp only [step] at hs
    split at hs
    · simp [Res.state] at hs
    · simp only [Res.state, Option.some.injEq] at hs; subst hs
      intro x w hw
      obtain ⟨q, hq, hq0⟩ := h x w hw
      simp only [NotNull.upd]
      by_cases e : w = v
      · subst e; exact absurd hw (hk x)
      · rw [if_neg e]; exact ⟨q, hq, hq0⟩
  | wrap x v =>
    simp only [step, Bool.true_and] at hs
    split at hs
    · simp [Res.state] at hs
    · rename_i p hp
      split at hs
      · simp [Res.state] at hs
      · rename_i h0
        simp only [Res.state, Option.some.injEq] at hs; subst hs
        exact h.upd x v p hp (by simpa using h0)
  | wrapCopy x y =>
    simp only [step] at hs
    split at hs
    · simp [Res.state] at hs
    · rename_i v hv
      simp only [Res.state, Option.some.injEq] at hs; subst hs
      obtain ⟨p, hp, h0⟩ := h y v hv
      exact h.upd x v p hp h0
  | _ =>
    simp only [step] at hs
    repeat' split at hs
    all_goals first | (simp [Res.state] at hs; done) | (simp only [Res.state, Option.some.injEq] at hs; subst hs; exact h)

/-- In a debug build a `not_null` of a smart pointer gives the pointer that the smart pointer has now, and this is not null, as long as the smart pointer lives and is not reset to null. Missing: a
smart pointer that is reset (`C87_smart_reset_violated`), or whose scope ends (`C87_smart_scope_violated`), and other builds. -/
theorem C87_smart_partial {s : St} (hs : KeptReach s) (x v : Nat) (hx : s.wrapped x = some v) :
    ∃ p, p ≠ 0 ∧ s.smart v = some p ∧ step true s (.wrapGet x) = .got p s ∧ step true s (.wrapDeref x) = .got p s := by
  have hw : WrapOk s := by
    clear hx
    induction hs with
    | init => intro x p h; simp [init] at h
    | step op _ hk hstep ih => exact wrapOk_step ih hk hstep
  obtain ⟨p, hp, h0⟩ := hw x v hx
  exact ⟨p, h0, hp, by simp [step, hx, hp], by simp [step, hx, hp, h0]⟩

example : ∃ s, KeptReach s ∧ s.wrapped 2 = some 0 ∧ s.smart 0 = some 9 := by
  have h1 : KeptReach { init with smart := NotNull.upd init.smart 0 (some 7) } := .step (.setSmart 0 7) .init (.inl (by decide)) rfl
  have h2 := KeptReach.step (.wrap 1 0) h1 trivial rfl
  have h3 := KeptReach.step (.wrapCopy 2 1) h2 trivial rfl
  have h4 := KeptReach.step (.setSmart 0 9) h3 (.inl (by decide)) rfl
  exact ⟨_, h4, rfl, rfl⟩

example : ∃ s, Reach true s ∧ s.raw 1 = some 5 := ⟨_, .step (.copy 1 0) (.step (.make 0 5) .init rfl) rfl, rfl⟩

/-- A `not_null` of a smart pointer is null after the smart pointer was reset, also in a debug build. -/
theorem C87_smart_reset_violated : ∃ s, run true init [.setSmart 0 7, .wrap 1 0, .setSmart 0 0, .wrapGet 1] = .got 0 s ∧ run true init [.setSmart 0 7, .wrap 1 0, .setSmart 0 0, .wrapDeref 1] = .ub :=
  ⟨_, rfl, rfl⟩

/-- A `not_null` of a temporary smart pointer refers to nothing. -/
theorem C87_smart_scope_violated : run true init [.setSmart 0 7, .wrap 1 0, .endSmart 0, .wrapGet 1] = .ub := rfl

end NotNull

/-! ## `any_ptr` -/

namespace AnyPtr

/-- The pointer that the variable `x` was last given, directly or as a copy of another variable, with the type it points to (`none` for `nullptr`); the statements are listed with the last one first. -/
def given : List Op → Nat → Option (Nat × Option (Nat × Bool × Bool))
  | [], _ => none
  | .put y p t c v :: before, x => if y = x then some (p, some (t, c, v)) else given before x
  | .putNull y :: before, x => if y = x then some (0, none) else given before x
  | .copy y z :: before, x => if y = x ∧ given before z ≠ none then given before z else given before x
  | _ :: before, x => given before x

def empty : Vars := fun _ => none

def typed : Option (Nat × Bool × Bool) → Ty
  | none => .nullptr
  | some (t, c, v) => .ptr t c v

theorem run_append (ops : List Op) (op : Op) : run empty (ops ++ [op]) = (step (run empty ops) op).2 := by simp [run]

theorem run_given (rev : List Op) (x : Nat) : run empty rev.reverse x = (given rev x).map (fun g => ⟨g.1, typed g.2⟩) := by
  induction rev generalizing x with
  | nil => rfl
  | cons op before ih =>
    rw [List.reverse_cons, run_append]
    cases op with
    | put y p t c v =>
      simp only [step, Vars.set, given]
      by_cases h : x = y
      · subst h; simp [typed]
      · rw [if_neg h, if_neg (fun e => h e.symm)]; exact ih x
    | putNull y =>
      simp only [step, Vars.set, given]
      by_cases h : x = y
      · subst h; simp [typed]
      · rw [if_neg h, if_neg (fun e => h e.symm)]; exact ih x
    | copy y z =>
      simp only [step, given]
      have hz := ih z
      cases hg : given before z with
      | none =>
        rw [hg] at hz
        rw [hz]
        simp only [Option.map_none, ne_eq, not_true_eq_false, and_false, if_false]
        exact ih x
      | some g =>
        rw [hg] at hz
        rw [hz]
        simp only [Option.map_some, Vars.set]
        by_cases h : x = y
        · subst h; simp
        · rw [if_neg h, if_neg (fun e => h e.1.symm)]; exact ih x
    | getOr y t c v d => simp only [step, given]; split <;> exact ih x
    | get y t c v => simp only [step, given]; split <;> exact ih x
    | bool y => simp only [step, given]; split <;> exact ih x
    | eq y z => simp only [step, given]; split <;> exact ih x
    | type y => simp only [step, given]; split <;> exact ih x

/-- After every program an `any_ptr` gives the pointer it was last given if it is asked for with exactly the type it was given with, including const and volatile, and the default value or null
otherwise; it is true if this pointer is not null. -/
theorem C87_any_ptr (rev : List Op) (x p : Nat) (o : Option (Nat × Bool × Bool)) (hx : given rev x = some (p, o)) (t d : Nat) (c v : Bool) :
    (step (run empty rev.reverse) (.getOr x t c v d)).1 = .got (if o = some (t, c, v) then p else d) ∧
    (step (run empty rev.reverse) (.get x t c v)).1 = .got (if o = some (t, c, v) then p else 0) ∧
    (step (run empty rev.reverse) (.bool x)).1 = .is (decide (p ≠ 0)) ∧
    ((step (run empty rev.reverse) (.type x)).1 = .type (.ptr t c v) ↔ o = some (t, c, v)) := by
  have h := run_given rev x
  rw [hx] at h
  simp only [Option.map_some] at h
  have hty : (Ty.ptr t c v = typed o) ↔ o = some (t, c, v) := by
    cases o with
    | none => simp [typed]
    | some u => obtain ⟨t', c', v'⟩ := u; simp only [typed, Ty.ptr.injEq, Option.some.injEq, Prod.mk.injEq]; constructor <;> (rintro ⟨rfl, rfl, rfl⟩; simp)
  have hg : ∀ e, getOr ⟨p, typed o⟩ (.ptr t c v) e = if o = some (t, c, v) then p else e := by
    intro e
    simp only [getOr]
    by_cases k : o = some (t, c, v)
    · rw [if_pos k, if_pos (hty.2 k)]
    · rw [if_neg k, if_neg (fun e => k (hty.1 e))]
  refine ⟨by simp [step, h, hg], by simp [step, h, hg], ?_, ?_⟩
  · simp only [step, h, Res.is.injEq]; by_cases k : p = 0 <;> simp [k]
  · simp only [step, h, Res.type.injEq]; rw [eq_comm, hty]

/-- A pointer that points to an object of its type (`mem` says what is where) or is null. -/
def Honest (mem : Nat → Nat → Prop) (p t : Nat) : Prop := p = 0 ∨ mem p t

/-- If all pointers put in are honest, and the default value is, then so is what is given out: an `any_ptr` never reinterprets an object as another type. -/
theorem C87_any_honest (mem : Nat → Nat → Prop) (rev : List Op) (hput : ∀ x p t c v, Op.put x p t c v ∈ rev → Honest mem p t) (x t d : Nat) (c v : Bool) (hd : Honest mem d t) (q : Nat)
    (h : (step (run empty rev.reverse) (.getOr x t c v d)).1 = .got q) : Honest mem q t := by
  have key : ∀ x p t c v, given rev x = some (p, some (t, c, v)) → Honest mem p t := by
    clear h
    induction rev with
    | nil => intro x p t c v h; simp [given] at h
    | cons op before ih =>
      have ih' := ih (fun x p t c v hm => hput x p t c v (List.mem_cons_of_mem _ hm))
      intro x p t c v h
      cases op with
      | put y p' t' c' v' =>
        simp only [given] at h
        split at h
        · simp at h; obtain ⟨rfl, rfl, rfl, rfl⟩ := h
          exact hput y p' t' c' v' (by simp)
        · exact ih' _ _ _ _ _ h
      | putNull y =>
        simp only [given] at h
        split at h
        · simp at h
        · exact ih' _ _ _ _ _ h
      | copy y z =>
        simp only [given] at h
        split at h
        · exact ih' _ _ _ _ _ h
        · exact ih' _ _ _ _ _ h
      | getOr y t c v d => exact ih' _ _ _ _ _ (by simpa only [given] using h)
      | get y t c v => exact ih' _ _ _ _ _ (by simpa only [given] using h)
      | bool y => exact ih' _ _ _ _ _ (by simpa only [given] using h)
      | eq y z => exact ih' _ _ _ _ _ (by simpa only [given] using h)
      | type y => exact ih' _ _ _ _ _ (by simpa only [given] using h)
  cases hg : given rev x with
  | none =>
    have := run_given rev x
    rw [hg] at this
    simp [step, this] at h
  | some g =>
    obtain ⟨p, o⟩ := g
    rw [(C87_any_ptr rev x p o hg t d c v).1] at h
    simp only [Res.got.injEq] at h
    split at h
    · rename_i ho; subst ho; subst h; exact key x p t c v hg
    · subst h; exact hd

def sampleOps : List Op := [.put 0 7 2 false false, .copy 1 0, .putNull 0, .copy 2 5, .put 3 8 2 true false]

example : given sampleOps.reverse 1 = some (7, some (2, false, false)) ∧ given sampleOps.reverse 0 = some (0, none) ∧ given sampleOps.reverse 2 = none := by decide

example : ∀ x p t c v, Op.put x p t c v ∈ sampleOps.reverse → Honest (fun _ t => t = 2) p t := by
  intro x p t c v h
  simp [sampleOps] at h
  rcases h with h | h <;> exact .inr h.2.2.1

/-- `==` of two `any_ptr`, in part: those that hold the same address are equal, and null is not equal to others. The full statement is that they are equal exactly if they hold the same address; see
`C87_any_equal_violated`. -/
theorem C87_any_equal_partial (rev : List Op) (x y p q : Nat) (o o' : Option (Nat × Bool × Bool)) (hx : given rev x = some (p, o)) (hy : given rev y = some (q, o')) :
    (p = q → (step (run empty rev.reverse) (.eq x y)).1 = .is true) ∧
    (p ≠ q → p = 0 ∨ q = 0 → (step (run empty rev.reverse) (.eq x y)).1 = .is false) := by
  have h1 := run_given rev x
  have h2 := run_given rev y
  rw [hx] at h1
  rw [hy] at h2
  simp only [Option.map_some] at h1 h2
  simp only [step, h1, h2, Res.is.injEq]
  constructor
  · rintro rfl
    simp
  · rintro hn (rfl | rfl)
    · simp
      omega
    · simp
      omega

example : (step (run empty sampleOps) (.eq 0 1)).1 = .is false :=
  (C87_any_equal_partial sampleOps.reverse 0 1 0 7 none (some (2, false, false)) (by decide) (by decide)).2 (by omega) (Or.inl rfl)

/-- Two `any_ptr` to different objects compare equal: both are converted to `bool`. -/
theorem C87_any_equal_violated : ∃ ops, given ops 0 = some (7, some (2, false, false)) ∧ given ops 1 = some (8, some (2, false, false)) ∧ (step (run empty ops.reverse) (.eq 0 1)).1 = .is true :=
  ⟨[.put 0 7 2 false false, .put 1 8 2 false false], by decide, by decide, by decide⟩

end AnyPtr

end Verif.CheckedPtr
