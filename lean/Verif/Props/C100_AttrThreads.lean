import Verif.Model.AttrThreads
import Verif.Props.C33_Attributes

/-!
# C100: attribute maps are values, and threads that use a lock share them safely
-/
set_option autoImplicit false
set_option linter.unusedSectionVars false

namespace Verif.AttrThreads

open Attributes (Order Sorted)

variable {K α : Type}

/-! ## Specification: one statement after the other, each map a finite map, no locks -/

/-- The variables that exist, each with its attributes (`Attributes.Spec` of C33: keys to contents). -/
abbrev Vals (K α : Type) := Nat → Option (Attributes.Spec K α)

def Vals.put (σ : Vals K α) (v : Nat) (m : Option (Attributes.Spec K α)) : Vals K α := fun w => if w = v then m else σ w

/-- The maps are values: copying copies, moving leaves nothing, swapping exchanges. All attributes are accepted. -/
def sexec [DecidableEq K] (σ : Vals K α) : Stmt K α → Option (Vals K α × Res α)
  | .new d _ => some (σ.put d (some fun _ => none), .done)
  | .copyNew d s | .assign d s => (σ s).map fun m => (σ.put d (some m), .done)
  | .moveNew d s | .moveAssign d s => (σ s).map fun m => ((σ.put s (some fun _ => none)).put d (some m), .done)
  | .swap a b => (σ a).bind fun m => (σ b).map fun n => ((σ.put a (some n)).put b (some m), .done)
  | .destroy d => some (σ.put d none, .done)
  | .call v op => (σ v).map fun m => (σ.put v (some (Attributes.spec (fun _ => true) m op).2), .answer (Attributes.spec (fun _ => true) m op).1)
  | .lock _ | .unlock _ => some (σ, .done)

def srun [DecidableEq K] (σ : Vals K α) : List (Stmt K α) → Option (Vals K α × List (Res α))
  | [] => some (σ, [])
  | x :: xs => (sexec σ x).bind fun p => (srun p.1 xs).map fun q => (q.1, p.2 :: q.2)

/-- Which threads a map is for. -/
inductive Home where
  /-- all threads, under its lock; it exists from the beginning to the end -/
  | shared
  /-- one thread, without locking -/
  | priv (t : Nat)
  | unused
deriving DecidableEq

/-- May thread `t`, which holds the locks `h` and has made the maps `a`, use the map `v`? -/
def May (home : Nat → Home) (t : Nat) (h a : List Nat) (v : Nat) : Prop := (home v = .shared ∧ v ∈ h) ∨ (home v = .priv t ∧ v ∈ a)

/-- The rules for the program of thread `t`: shared maps are used while their lock is held, no lock is taken twice, all are given back.
The thread's own maps are used between creation and destruction. Nothing is assigned to or swapped with itself (a requirement of the
code), and attributes are not set to variables of type `any` (C33). -/
def Guarded (home : Nat → Home) (t : Nat) (h a : List Nat) : List (Stmt K α) → Prop
  | [] => h = []
  | .lock v :: p => home v = .shared ∧ v ∉ h ∧ Guarded home t (v :: h) a p
  | .unlock v :: p => v ∈ h ∧ Guarded home t (h.filter (· ≠ v)) a p
  | .new d _ :: p => home d = .priv t ∧ d ∉ a ∧ Guarded home t h (d :: a) p
  | .copyNew d s :: p | .moveNew d s :: p => home d = .priv t ∧ d ∉ a ∧ May home t h a s ∧ Guarded home t h (d :: a) p
  | .assign d s :: p | .moveAssign d s :: p | .swap d s :: p => d ≠ s ∧ May home t h a d ∧ May home t h a s ∧ Guarded home t h a p
  | .destroy d :: p => home d = .priv t ∧ d ∈ a ∧ Guarded home t h (a.filter (· ≠ d)) p
  | .call v op :: p => May home t h a v ∧ Attributes.Fine (fun _ => true) op ∧ Guarded home t h a p

/-- A lock is taken only when those held have smaller numbers. -/
def Ordered (h : List Nat) : List (Stmt K α) → Prop
  | [] => True
  | .lock v :: p => (∀ w ∈ h, w < v) ∧ Ordered (v :: h) p
  | .unlock v :: p => Ordered (h.filter (· ≠ v)) p
  | _ :: p => Ordered h p

/-- `attributes_map<KeyType>`, l.164-167 -/
def dflt : Cls := ⟨false, true⟩

/-- What the maps show. -/
def vals (lt : K → K → Bool) (os : Objs K α) : Vals K α := fun v => (os v).map fun o k => Attributes.find lt k o.entries

/-- The shared maps exist at the beginning, and no one holds a lock; the other maps do not exist. -/
structure Start (home : Nat → Home) (lt : K → K → Bool) (os : Objs K α) : Prop where
  shared : ∀ v, home v = .shared → ∃ o, os v = some o
  others : ∀ v, home v ≠ .shared → os v = none
  fine : ∀ v o, os v = some o → Sorted lt o.entries ∧ o.validator = (fun _ => true) ∧ o.owner = none

/-! ## The invariant -/

def Mine (home : Nat → Home) (os : Objs K α) (t v : Nat) : Prop :=
  (home v = .shared ∧ ∃ o, os v = some o ∧ o.owner = some t) ∨ (home v = .priv t ∧ ∃ o, os v = some o)

structure TInv (home : Nat → Home) (os : Objs K α) (t : Nat) (p : List (Stmt K α)) (h a : List Nat) : Prop where
  guarded : Guarded home t h a p
  held : ∀ v, v ∈ h ↔ home v = .shared ∧ ∃ o, os v = some o ∧ o.owner = some t
  alive : ∀ v, v ∈ a ↔ home v = .priv t ∧ ∃ o, os v = some o

structure Inv (home : Nat → Home) (lt : K → K → Bool) (n : Nat) (s : St K α) : Prop where
  len : s.threads.length = n
  threads : ∀ t th, s.threads[t]? = some th → ∃ h a, TInv home s.objs t th.prog h a
  shared : ∀ v, home v = .shared → ∃ o, s.objs v = some o
  fine : ∀ v o, s.objs v = some o → Sorted lt o.entries ∧ o.validator = (fun _ => true) ∧ (home v ≠ .shared → o.owner = none) ∧
    ∀ t, o.owner = some t → t < n

theorem May.mine {home : Nat → Home} {os : Objs K α} {t : Nat} {p : List (Stmt K α)} {h a : List Nat} (hi : TInv home os t p h a) {v : Nat} (hm : May home t h a v) :
    Mine home os t v := by
  rcases hm with ⟨h1, h2⟩ | ⟨h1, h2⟩
  · exact .inl ((hi.held v).mp h2)
  · exact .inr ((hi.alive v).mp h2)

theorem Mine.same {home : Nat → Home} {os : Objs K α} {t u v : Nat} (h1 : Mine home os t v) (h2 : Mine home os u v) : t = u := by
  rcases h1 with ⟨a, o, b, c⟩ | ⟨a, o, b⟩ <;> rcases h2 with ⟨a', o', b', c'⟩ | ⟨a', o', b'⟩
  · rw [b] at b'; cases b'; rw [c] at c'; cases c'; rfl
  · rw [a] at a'; cases a'
  · rw [a] at a'; cases a'
  · rw [a] at a'; cases a'; rfl

/-- A place a thread may touch: one of its own, or one where it is about to make a map. -/
def Own (home : Nat → Home) (os : Objs K α) (t v : Nat) : Prop := Mine home os t v ∨ home v = .priv t

theorem Own.same {home : Nat → Home} {os : Objs K α} {t u v : Nat} (h1 : Own home os t v) (h2 : Own home os u v) : t = u := by
  rcases h1 with h1 | h1 <;> rcases h2 with h2 | h2
  · exact h1.same h2
  · rcases h1 with ⟨a, _⟩ | ⟨a, _⟩ <;> rw [a] at h2 <;> cases h2; rfl
  · rcases h2 with ⟨a, _⟩ | ⟨a, _⟩ <;> rw [a] at h1 <;> cases h1; rfl
  · rw [h1] at h2; cases h2; rfl

theorem acc_own {home : Nat → Home} {os : Objs K α} {t : Nat} {x : Stmt K α} {p : List (Stmt K α)} {h a : List Nat} (hi : TInv home os t (x :: p) h a) :
    ∀ c ∈ accesses dflt x, Own home os t c.obj := by
  have hg := hi.guarded
  intro c hc
  cases x with
  | new d f => simp [accesses, whole] at hc; rcases hc with rfl | rfl <;> exact .inr hg.1
  | copyNew d s =>
    simp [accesses, whole, Cls.isThis, dflt] at hc
    rcases hc with rfl | rfl | rfl
    · exact .inr hg.1
    · exact .inr hg.1
    · exact .inl (May.mine hi hg.2.2.1)
  | moveNew d s =>
    simp [accesses, whole, Cls.isThis, dflt] at hc
    rcases hc with rfl | rfl | rfl
    · exact .inr hg.1
    · exact .inr hg.1
    · exact .inl (May.mine hi hg.2.2.1)
  | assign d s =>
    simp [accesses, Cls.isThis, dflt] at hc
    rcases hc with rfl | rfl
    · exact .inl (May.mine hi hg.2.1)
    · exact .inl (May.mine hi hg.2.2.1)
  | moveAssign d s =>
    simp [accesses, Cls.isThis, dflt] at hc
    rcases hc with rfl | rfl
    · exact .inl (May.mine hi hg.2.1)
    · exact .inl (May.mine hi hg.2.2.1)
  | swap d s =>
    simp [accesses] at hc
    rcases hc with rfl | rfl
    · exact .inl (May.mine hi hg.2.1)
    · exact .inl (May.mine hi hg.2.2.1)
  | destroy d => simp [accesses, whole] at hc; rcases hc with rfl | rfl <;> exact .inr hg.1
  | call v op =>
    have : c.obj = v := by cases op <;> simp [accesses] at hc <;> rw [hc]
    rw [this]
    exact .inl (May.mine hi hg.1)
  | lock v => simp [accesses] at hc
  | unlock v => simp [accesses] at hc

theorem no_race {home : Nat → Home} {lt : K → K → Bool} {n : Nat} {s : St K α} (hi : Inv home lt n s) {t : Nat} {x : Stmt K α} {p : List (Stmt K α)} {b : Bool}
    (ht : s.threads[t]? = some ⟨x :: p, b⟩) : races dflt s.threads t x = false := by
  cases hr : races dflt s.threads t x with
  | false => rfl
  | true =>
    exfalso
    simp only [races, List.any_eq_true] at hr
    obtain ⟨⟨th, u⟩, hmem, hq⟩ := hr
    have hu := List.mk_mem_zipIdx_iff_getElem?.mp hmem
    simp only [Bool.and_eq_true, bne_iff_ne, ne_eq] at hq
    obtain ⟨⟨hne, _⟩, hq⟩ := hq
    obtain ⟨h, a, hT⟩ := hi.threads t _ ht
    obtain ⟨h', a', hU⟩ := hi.threads u _ hu
    cases th with
    | mk q ins =>
      cases q with
      | nil => simp at hq
      | cons y q =>
        simp only [List.any_eq_true] at hq
        obtain ⟨c, hc, d, hd, hcl⟩ := hq
        simp only [clash, Bool.and_eq_true, beq_iff_eq] at hcl
        have h1 := acc_own hT c hc
        have h2 := acc_own hU d hd
        rw [hcl.1.1] at h1
        exact hne (h2.same h1)

theorem put_self (os : Objs K α) (v : Nat) (o : Option (Obj K α)) : put os v o v = o := by simp [put]

theorem put_ne (os : Objs K α) {v w : Nat} (h : w ≠ v) (o : Option (Obj K α)) : put os v o w = os w := by simp [put, h]

theorem vals_put (lt : K → K → Bool) (os : Objs K α) (v : Nat) (o : Option (Obj K α)) :
    vals lt (put os v o) = (vals lt os).put v (o.map fun o k => Attributes.find lt k o.entries) := by
  funext w
  by_cases h : w = v <;> simp [vals, put, Vals.put, h]

/-- What a statement of a thread leaves: objects of others are unchanged, the own ones are as the rest of the program expects. -/
structure Effect (home : Nat → Home) (lt : K → K → Bool) (os os' : Objs K α) (t : Nat) (p : List (Stmt K α)) : Prop where
  next : ∃ h a, TInv home os' t p h a
  others : ∀ v, ¬ Own home os t v → os' v = os v
  shared : ∀ v, home v = .shared → ∃ o, os' v = some o
  owner : ∀ v o o', home v = .shared → os v = some o → os' v = some o' → o'.owner = o.owner
  fine : ∀ v o, os' v = some o → Sorted lt o.entries ∧ o.validator = (fun _ => true) ∧ (home v ≠ .shared → o.owner = none)

theorem May.obj {home : Nat → Home} {os : Objs K α} {t : Nat} {p : List (Stmt K α)} {h a : List Nat} (hi : TInv home os t p h a) {v : Nat} (hm : May home t h a v) :
    ∃ o, os v = some o := by
  rcases May.mine hi hm with ⟨_, o, ho, _⟩ | ⟨_, o, ho⟩ <;> exact ⟨o, ho⟩

/-- Changing only the entries of own maps. -/
theorem effect_set {home : Nat → Home} {lt : K → K → Bool} {n : Nat} {s : St K α} (hi : Inv home lt n s) {t : Nat} {x : Stmt K α} {p : List (Stmt K α)} {h a : List Nat}
    (hT : TInv home s.objs t (x :: p) h a) (hg : Guarded home t h a p) {os' : Objs K α}
    (hsome : ∀ v o, s.objs v = some o → ∃ m, os' v = some { o with entries := m } ∧ Sorted lt m ∧ (m = o.entries ∨ Mine home s.objs t v))
    (hnone : ∀ v, s.objs v = none → os' v = none) : Effect home lt s.objs os' t p where
  next := by
    refine ⟨h, a, hg, ?_, ?_⟩
    · intro v
      rw [hT.held v]
      refine and_congr_right fun hv => ?_
      constructor
      · rintro ⟨o, ho, hw⟩
        obtain ⟨m, hm, _⟩ := hsome v o ho
        exact ⟨_, hm, hw⟩
      · rintro ⟨o', ho', hw⟩
        cases hc : s.objs v with
        | none => rw [hnone v hc] at ho'; cases ho'
        | some o =>
          obtain ⟨m, hm, _⟩ := hsome v o hc
          rw [hm] at ho'
          cases ho'
          exact ⟨o, rfl, hw⟩
    · intro v
      rw [hT.alive v]
      refine and_congr_right fun hv => ?_
      constructor
      · rintro ⟨o, ho⟩
        obtain ⟨m, hm, _⟩ := hsome v o ho
        exact ⟨_, hm⟩
      · rintro ⟨o', ho'⟩
        cases hc : s.objs v with
        | none => rw [hnone v hc] at ho'; cases ho'
        | some o => exact ⟨o, rfl⟩
  others := by
    intro v hv
    cases hc : s.objs v with
    | none => exact hnone v hc
    | some o =>
      obtain ⟨m, hm, _, hh⟩ := hsome v o hc
      rcases hh with rfl | hh
      · exact hm
      · exact absurd (.inl hh) hv
  shared := by
    intro v hv
    obtain ⟨o, ho⟩ := hi.shared v hv
    obtain ⟨m, hm, _⟩ := hsome v o ho
    exact ⟨_, hm⟩
  owner := by
    intro v o o' _ ho ho'
    obtain ⟨m, hm, _⟩ := hsome v o ho
    rw [hm] at ho'
    cases ho'
    rfl
  fine := by
    intro v o' ho'
    cases hc : s.objs v with
    | none => rw [hnone v hc] at ho'; cases ho'
    | some o =>
      obtain ⟨m, hm, hs, _⟩ := hsome v o hc
      rw [hm] at ho'
      cases ho'
      obtain ⟨_, h2, h3, _⟩ := hi.fine v o hc
      exact ⟨hs, h2, h3⟩

/-- A new map of the thread. -/
theorem effect_new {home : Nat → Home} {lt : K → K → Bool} {os : Objs K α} {t : Nat} {x : Stmt K α} {p : List (Stmt K α)} {h a : List Nat} {m : Attributes.Map K α} {d : Nat}
    (hT : TInv home os t (x :: p) h a) (hp : home d = .priv t) (hg : Guarded home t h (d :: a) p) (hs : Sorted lt m)
    (hsh : ∀ v, home v = .shared → ∃ o, os v = some o)
    (hf : ∀ v o, os v = some o → Sorted lt o.entries ∧ o.validator = (fun _ => true) ∧ (home v ≠ .shared → o.owner = none)) :
    Effect home lt os (put os d (some ⟨m, fun _ => true, none⟩)) t p where
  next := by
    refine ⟨h, d :: a, hg, ?_, ?_⟩
    · intro v
      rw [hT.held v]
      refine and_congr_right fun hv => ?_
      have : v ≠ d := fun e => by rw [e, hp] at hv; cases hv
      rw [put_ne _ this]
    · intro v
      by_cases hv : v = d
      · subst hv; simp [put_self, hp]
      · simp only [List.mem_cons, hv, false_or, put_ne _ hv]; exact hT.alive v
  others := by
    intro v hv
    have : v ≠ d := fun e => hv (.inr (by rw [e, hp]))
    rw [put_ne _ this]
  shared := by
    intro v hv
    have : v ≠ d := fun e => by rw [e, hp] at hv; cases hv
    rw [put_ne _ this]
    exact hsh v hv
  owner := by
    intro v o o' hv ho ho'
    have : v ≠ d := fun e => by rw [e, hp] at hv; cases hv
    rw [put_ne _ this, ho] at ho'
    cases ho'
    rfl
  fine := by
    intro v o ho
    by_cases hv : v = d
    · subst hv
      rw [put_self] at ho
      cases ho
      exact ⟨hs, rfl, fun _ => rfl⟩
    · rw [put_ne _ hv] at ho
      exact hf v o ho

theorem sorted_nil (lt : K → K → Bool) : Sorted lt ([] : Attributes.Map K α) := List.Pairwise.nil

/-- A statement of a thread that follows the rules can be executed, and does what the specification says. -/
theorem exec_ok [DecidableEq K] {home : Nat → Home} {lt : K → K → Bool} (ho : Order lt) {n : Nat} {s : St K α} (hi : Inv home lt n s) {t : Nat} {x : Stmt K α} {p : List (Stmt K α)}
    {b : Bool} (ht : s.threads[t]? = some ⟨x :: p, b⟩) (hl : ∀ v, x ≠ .lock v ∧ x ≠ .unlock v) :
    ∃ os' r, exec dflt lt s.objs x = .ok (os', r) ∧ sexec (vals lt s.objs) x = some (vals lt os', r) ∧ Effect home lt s.objs os' t p := by
  obtain ⟨h, a, hT⟩ := hi.threads t _ ht
  have hT : TInv home s.objs t (x :: p) h a := hT
  have hg := hT.guarded
  have hff : ∀ v o, s.objs v = some o → Sorted lt o.entries ∧ o.validator = (fun _ => true) ∧ (home v ≠ .shared → o.owner = none) :=
    fun v o hv => ⟨(hi.fine v o hv).1, (hi.fine v o hv).2.1, (hi.fine v o hv).2.2.1⟩
  have dead : ∀ d, home d = .priv t → d ∉ a → s.objs d = none := by
    intro d h1 h2
    cases hc : s.objs d with
    | none => rfl
    | some o => exact absurd ((hT.alive d).mpr ⟨h1, o, hc⟩) h2
  cases x with
  | new d f =>
    obtain ⟨h1, h2, h3⟩ := hg
    refine ⟨put s.objs d (some ⟨[], fun _ => true, none⟩), .done, ?_, ?_, effect_new hT h1 h3 (sorted_nil lt) hi.shared hff⟩
    · simp only [exec, dead d h1 h2]; rfl
    · rw [vals_put]; rfl
  | copyNew d s' =>
    obtain ⟨h1, h2, h3, h4⟩ := hg
    obtain ⟨o, hs'⟩ := May.obj hT h3
    refine ⟨put s.objs d (some ⟨o.entries, fun _ => true, none⟩), .done, ?_, ?_, effect_new hT h1 h4 (hi.fine _ _ hs').1 hi.shared hff⟩
    · simp only [exec, dead d h1 h2, hs']; rfl
    · rw [vals_put]; simp [sexec, vals, hs']
  | moveNew d s' =>
    obtain ⟨h1, h2, h3, h4⟩ := hg
    obtain ⟨o, hs'⟩ := May.obj hT h3
    have hne : d ≠ s' := fun e => by rw [e] at h1 h2; rw [dead s' h1 h2] at hs'; cases hs'
    refine ⟨put (put s.objs s' (some { o with entries := [] })) d (some ⟨o.entries, fun _ => true, none⟩), .done, ?_, ?_, ?_⟩
    · simp only [exec, dead d h1 h2, hs']; rfl
    · rw [vals_put, vals_put]; simp [sexec, vals, hs', Attributes.find]
    · have hT' : TInv home (put s.objs s' (some { o with entries := [] })) t (.moveNew d s' :: p) h a := by
        refine ⟨hT.guarded, fun v => ?_, fun v => ?_⟩
        · rw [hT.held v]
          by_cases hv : v = s'
          · subst hv; simp [put_self, hs']
          · simp only [put_ne _ hv]
        · rw [hT.alive v]
          by_cases hv : v = s'
          · subst hv; simp [put_self, hs']
          · simp only [put_ne _ hv]
      have e := effect_new hT' h1 h4 (hi.fine _ _ hs').1 (by
        intro v hv
        by_cases hv' : v = s'
        · subst hv'; exact ⟨_, put_self _ _ _⟩
        · rw [put_ne _ hv']; exact hi.shared v hv) (by
        intro v w hv
        by_cases hv' : v = s'
        · subst hv'; rw [put_self] at hv; cases hv; exact ⟨sorted_nil lt, (hff _ _ hs').2⟩
        · rw [put_ne _ hv'] at hv; exact hff v w hv)
      have hown : ∀ v, Own home (put s.objs s' (some { o with entries := [] })) t v → Own home s.objs t v := by
        intro v hv
        by_cases hv' : v = s'
        · subst hv'; exact .inl (May.mine hT h3)
        · simpa only [Own, Mine, put_ne _ hv'] using hv
      refine ⟨e.next, fun v hv => ?_, e.shared, fun v w w' hv hw hw' => ?_, e.fine⟩
      · rw [e.others v (fun hc => hv (hown v hc))]
        exact put_ne _ (fun hc => hv (by rw [hc]; exact .inl (May.mine hT h3))) _
      · by_cases hv' : v = s'
        · subst hv'
          rw [hs'] at hw
          cases hw
          have := e.owner v { o with entries := [] } w' hv (put_self _ _ _) hw'
          exact this
        · exact e.owner v w w' hv (by rw [put_ne _ hv']; exact hw) hw'
  | assign d s' =>
    obtain ⟨h1, h2, h3, h4⟩ := hg
    obtain ⟨o, hs'⟩ := May.obj hT h3
    obtain ⟨w, hd⟩ := May.obj hT h2
    refine ⟨put s.objs d (some { w with entries := o.entries }), .done, ?_, ?_, effect_set hi hT h4 ?_ ?_⟩
    · simp only [exec, hd, hs']
      rw [if_pos (by rfl), if_neg h1]
    · rw [vals_put]; simp [sexec, vals, hs']
    · intro v x hv
      by_cases hv' : v = d
      · subst hv'; rw [hd] at hv; cases hv
        exact ⟨o.entries, put_self _ _ _, (hi.fine _ _ hs').1, .inr (May.mine hT h2)⟩
      · exact ⟨x.entries, by rw [put_ne _ hv']; exact hv, (hi.fine _ _ hv).1, .inl rfl⟩
    · intro v hv
      have hv' : v ≠ d := fun e => by rw [e, hd] at hv; cases hv
      rw [put_ne _ hv']; exact hv
  | moveAssign d s' =>
    obtain ⟨h1, h2, h3, h4⟩ := hg
    obtain ⟨o, hs'⟩ := May.obj hT h3
    obtain ⟨w, hd⟩ := May.obj hT h2
    refine ⟨put (put s.objs s' (some { o with entries := [] })) d (some { w with entries := o.entries }), .done, ?_, ?_, effect_set hi hT h4 ?_ ?_⟩
    · simp only [exec, hd, hs']
      rw [if_pos (by rfl), if_neg h1]
    · rw [vals_put, vals_put]; simp [sexec, vals, hs', Attributes.find]
    · intro v x hv
      by_cases hv' : v = d
      · subst hv'; rw [hd] at hv; cases hv
        exact ⟨o.entries, put_self _ _ _, (hi.fine _ _ hs').1, .inr (May.mine hT h2)⟩
      · rw [put_ne _ hv']
        by_cases hs : v = s'
        · subst hs; rw [hs'] at hv; cases hv
          exact ⟨[], put_self _ _ _, sorted_nil lt, .inr (May.mine hT h3)⟩
        · exact ⟨x.entries, by rw [put_ne _ hs]; exact hv, (hi.fine _ _ hv).1, .inl rfl⟩
    · intro v hv
      have hv' : v ≠ d := fun e => by rw [e, hd] at hv; cases hv
      have hv'' : v ≠ s' := fun e => by rw [e, hs'] at hv; cases hv
      rw [put_ne _ hv', put_ne _ hv'']; exact hv
  | swap d s' =>
    obtain ⟨h1, h2, h3, h4⟩ := hg
    obtain ⟨o, hs'⟩ := May.obj hT h3
    obtain ⟨w, hd⟩ := May.obj hT h2
    refine ⟨put (put s.objs d (some { w with entries := o.entries })) s' (some { o with entries := w.entries }), .done, ?_, ?_, effect_set hi hT h4 ?_ ?_⟩
    · simp only [exec, hd, hs']
      rw [if_neg h1]
    · rw [vals_put, vals_put]; simp [sexec, vals, hs', hd]
    · intro v x hv
      by_cases hs : v = s'
      · subst hs; rw [hs'] at hv; cases hv
        exact ⟨w.entries, put_self _ _ _, (hi.fine _ _ hd).1, .inr (May.mine hT h3)⟩
      · rw [put_ne _ hs]
        by_cases hv' : v = d
        · subst hv'; rw [hd] at hv; cases hv
          exact ⟨o.entries, put_self _ _ _, (hi.fine _ _ hs').1, .inr (May.mine hT h2)⟩
        · exact ⟨x.entries, by rw [put_ne _ hv']; exact hv, (hi.fine _ _ hv).1, .inl rfl⟩
    · intro v hv
      have hv' : v ≠ d := fun e => by rw [e, hd] at hv; cases hv
      have hv'' : v ≠ s' := fun e => by rw [e, hs'] at hv; cases hv
      rw [put_ne _ hv'', put_ne _ hv']; exact hv
  | destroy d =>
    obtain ⟨h1, h2, h3⟩ := hg
    obtain ⟨_, o, hd⟩ := (hT.alive d).mp h2
    have hw : o.owner = none := (hi.fine _ _ hd).2.2.1 (by rw [h1]; exact fun e => by cases e)
    refine ⟨put s.objs d none, .done, ?_, ?_, ?_⟩
    · cases o with
      | mk e v w => cases hw; simp only [exec, hd]
    · rw [vals_put]; rfl
    · refine ⟨⟨h, a.filter (· ≠ d), h3, fun v => ?_, fun v => ?_⟩, fun v hv => ?_, fun v hv => ?_, fun v x x' hv hx hx' => ?_, fun v x hx => ?_⟩
      · rw [hT.held v]
        refine and_congr_right fun hv => ?_
        have : v ≠ d := fun e => by rw [e, h1] at hv; cases hv
        rw [put_ne _ this]
      · by_cases hv : v = d
        · subst hv; simp [put_self]
        · have := hT.alive v
          simp only [List.mem_filter, this, put_ne _ hv]; simp [hv]
      · exact put_ne _ (fun e => hv (.inr (by rw [e, h1]))) _
      · have : v ≠ d := fun e => by rw [e, h1] at hv; cases hv
        rw [put_ne _ this]; exact hi.shared v hv
      · have : v ≠ d := fun e => by rw [e, h1] at hv; cases hv
        rw [put_ne _ this, hx] at hx'; cases hx'; rfl
      · have : v ≠ d := fun e => by rw [e, put_self] at hx; cases hx
        rw [put_ne _ this] at hx; exact hff v x hx
  | call v op =>
    obtain ⟨h1, h2, h3⟩ := hg
    obtain ⟨o, hv⟩ := May.obj hT h1
    obtain ⟨f1, f2, _⟩ := hi.fine v o hv
    obtain ⟨e1, e2, e3⟩ := Attributes.step_ok ho (fun _ => true) f1 op h2
    refine ⟨put s.objs v (some { o with entries := (Attributes.step lt (fun _ => true) o.entries op).2 }), .answer (Attributes.step lt (fun _ => true) o.entries op).1, ?_, ?_,
      effect_set hi hT h3 ?_ ?_⟩
    · simp only [exec, hv, f2]
    · rw [vals_put]
      simp only [sexec, vals, hv, Option.map_some]
      rw [e1, ← e3]
    · intro w x hw
      by_cases hv' : w = v
      · subst hv'; rw [hv] at hw; cases hw
        exact ⟨_, put_self _ _ _, e2, .inr (May.mine hT h1)⟩
      · exact ⟨x.entries, by rw [put_ne _ hv']; exact hw, (hi.fine _ _ hw).1, .inl rfl⟩
    · intro w hw
      have hv' : w ≠ v := fun e => by rw [e, hv] at hw; cases hw
      rw [put_ne _ hv']; exact hw
  | lock v => exact absurd rfl (hl v).1
  | unlock v => exact absurd rfl (hl v).2

/-! ## One turn -/

/-- Which statements of the log are those of thread `t`. -/
def logOf (l : List (Nat × Stmt K α × Res α)) (t : Nat) : List (Stmt K α) := (l.filter fun e => e.1 == t).map fun e => e.2.1

theorem logOf_snoc (l : List (Nat × Stmt K α × Res α)) (t u : Nat) (x : Stmt K α) (r : Res α) :
    logOf (l ++ [(u, x, r)]) t = if u = t then logOf l t ++ [x] else logOf l t := by
  by_cases h : u = t <;> simp [logOf, List.filter_append, h]

theorem srun_snoc [DecidableEq K] (x : Stmt K α) : ∀ (xs : List (Stmt K α)) (σ σ1 σ2 : Vals K α) (rs : List (Res α)) (r : Res α), srun σ xs = some (σ1, rs) → sexec σ1 x = some (σ2, r) →
    srun σ (xs ++ [x]) = some (σ2, rs ++ [r])
  | [], σ, σ1, σ2, rs, r, h1, h2 => by
    simp only [srun] at h1
    cases h1
    simp [srun, h2]
  | y :: ys, σ, σ1, σ2, rs, r, h1, h2 => by
    simp only [srun, List.cons_append] at h1 ⊢
    cases hy : sexec σ y with
    | none => rw [hy] at h1; cases h1
    | some p =>
      rw [hy] at h1
      simp only [Option.bind_some] at h1 ⊢
      cases hq : srun p.1 ys with
      | none => rw [hq] at h1; cases h1
      | some q =>
        rw [hq] at h1
        simp only [Option.map_some] at h1
        cases h1
        rw [srun_snoc x ys p.1 q.1 σ2 q.2 r hq h2]
        rfl

/-- What the log has to do with the programs and the maps. -/
structure Logged [DecidableEq K] (lt : K → K → Bool) (os0 : Objs K α) (progs : List (List (Stmt K α))) (s : St K α) : Prop where
  progs : ∀ (t : Nat) (th : Thread K α), s.threads[t]? = some th → progs[t]? = some (logOf s.log t ++ th.prog)
  vals : srun (vals lt os0) (s.log.map fun e => e.2.1) = some (vals lt s.objs, s.log.map fun e => e.2.2)

theorem get_set {ts : List (Thread K α)} {t u : Nat} {x th : Thread K α} (h : (ts.set t x)[u]? = some th) :
    (u = t ∧ th = x) ∨ (u ≠ t ∧ ts[u]? = some th) := by
  rw [List.getElem?_set] at h
  by_cases hu : t = u
  · subst hu
    rw [if_pos rfl] at h
    split at h
    · cases h; exact .inl ⟨rfl, rfl⟩
    · cases h
  · rw [if_neg hu] at h
    exact .inr ⟨Ne.symm hu, h⟩

/-- The end of a statement. -/
theorem finish_ok [DecidableEq K] {home : Nat → Home} {lt : K → K → Bool} {n : Nat} {os0 : Objs K α} {progs : List (List (Stmt K α))} {s : St K α} (hi : Inv home lt n s)
    (hg : Logged lt os0 progs s) {t : Nat} {x : Stmt K α} {p : List (Stmt K α)} {b : Bool} (ht : s.threads[t]? = some ⟨x :: p, b⟩) {os' : Objs K α} {r : Res α}
    (hx : sexec (vals lt s.objs) x = some (vals lt os', r)) (next : ∃ h a, TInv home os' t p h a) (others : ∀ v, ¬ Own home s.objs t v → ¬ x = .lock v → os' v = s.objs v)
    (hfree : ∀ v, x = .lock v → ∀ o, s.objs v = some o → o.owner = none)
    (shared : ∀ v, home v = .shared → ∃ o, os' v = some o)
    (owner : ∀ v o o', home v = .shared → s.objs v = some o → os' v = some o' → o'.owner = o.owner ∨ o'.owner = none ∨ o'.owner = some t)
    (fine : ∀ v o, os' v = some o → Sorted lt o.entries ∧ o.validator = (fun _ => true) ∧ (home v ≠ .shared → o.owner = none)) :
    Inv home lt n (finish s t x p os' r) ∧ Logged lt os0 progs (finish s t x p os' r) := by
  have htn : t < n := by
    rw [← hi.len]
    exact (List.getElem?_eq_some_iff.mp ht).1
  refine ⟨⟨?_, ?_, shared, ?_⟩, ?_, ?_⟩
  · simp [finish, hi.len]
  · intro u th hu
    rcases get_set hu with ⟨rfl, rfl⟩ | ⟨hne, hu⟩
    · exact next
    · obtain ⟨h, a, hU⟩ := hi.threads u th hu
      refine ⟨h, a, hU.guarded, fun v => ?_, fun v => ?_⟩
      · rw [hU.held v]
        refine and_congr_right fun hv => ?_
        obtain ⟨o, ho⟩ := hi.shared v hv
        obtain ⟨o', ho'⟩ := shared v hv
        constructor
        · rintro ⟨o2, ho2, hw⟩
          have h1 : ¬ Own home s.objs t v := fun hc => hne (Own.same (.inl (.inl ⟨hv, o2, ho2, hw⟩)) hc)
          have h2 : ¬ x = .lock v := fun hc => by rw [hfree v hc o2 ho2] at hw; cases hw
          refine ⟨o2, ?_, hw⟩
          show os' v = some o2
          rw [others v h1 h2]
          exact ho2
        · rintro ⟨o2, ho2, hw⟩
          have ho2 : os' v = some o2 := ho2
          rcases owner v o o2 hv ho ho2 with h1 | h1 | h1
          · exact ⟨o, ho, by rw [← h1]; exact hw⟩
          · rw [h1] at hw; cases hw
          · rw [h1] at hw; cases hw; exact absurd rfl hne
      · rw [hU.alive v]
        refine and_congr_right fun hv => ?_
        have h1 : ¬ Own home s.objs t v := fun hc => hne (Own.same (.inr hv) hc)
        have h2 : ¬ x = .lock v := fun hc => by
          subst hc
          obtain ⟨h', a', hT⟩ := hi.threads t _ ht
          have := hT.guarded.1
          rw [hv] at this
          cases this
        show _ ↔ ∃ o, os' v = some o
        rw [others v h1 h2]
  · intro v o ho
    have ho : os' v = some o := ho
    obtain ⟨f1, f2, f3⟩ := fine v o ho
    refine ⟨f1, f2, f3, fun u hu => ?_⟩
    by_cases hv : home v = .shared
    · obtain ⟨o1, ho1⟩ := hi.shared v hv
      rcases owner v o1 o hv ho1 ho with h1 | h1 | h1
      · exact (hi.fine v o1 ho1).2.2.2 u (by rw [← h1]; exact hu)
      · rw [h1] at hu; cases hu
      · rw [h1] at hu; cases hu; exact htn
    · rw [f3 hv] at hu; cases hu
  · intro u th hu
    show progs[u]? = some (logOf (s.log ++ [(t, x, r)]) u ++ th.prog)
    rw [logOf_snoc]
    rcases get_set hu with ⟨rfl, rfl⟩ | ⟨hne, hu⟩
    · rw [if_pos rfl, hg.progs u _ ht]
      simp
    · rw [if_neg (Ne.symm hne), hg.progs u _ hu]
  · show srun _ ((s.log ++ [(t, x, r)]).map fun e => e.2.1) = some (vals lt os', (s.log ++ [(t, x, r)]).map fun e => e.2.2)
    rw [List.map_append, List.map_append]
    exact srun_snoc x _ _ _ _ _ r hg.vals hx

/-- Is the thread waiting for a lock that another one holds? -/
def Waits (s : St K α) (t v : Nat) : Prop := ∃ p b, s.threads[t]? = some ⟨.lock v :: p, b⟩ ∧ ∃ o u, s.objs v = some o ∧ o.owner = some u ∧ u ≠ t

theorem notLock {x : Stmt K α} (h1 : ∀ v, x ≠ .lock v) (h2 : ∀ v, x ≠ .unlock v) (c : Cls) (lt : K → K → Bool) (s : St K α) (t : Nat) (p : List (Stmt K α)) (b : Bool)
    (ht : s.threads[t]? = some ⟨x :: p, b⟩) : step c lt s t = callStep c lt s t b x p := by
  cases x <;> first | (simp only [step, ht]; done) | (exact absurd rfl (h1 _)) | (exact absurd rfl (h2 _))

/-- How much a state has left to do. -/
def left (s : St K α) : Nat := (s.threads.map fun th => 2 * th.prog.length + if th.inside then 0 else 1).sum

/-- A turn of a thread that follows the rules. -/
theorem step_ok [DecidableEq K] {home : Nat → Home} {lt : K → K → Bool} (ho : Order lt) {n : Nat} {os0 : Objs K α} {progs : List (List (Stmt K α))} {s : St K α} (hi : Inv home lt n s)
    (hg : Logged lt os0 progs s) (t : Nat) :
    ∃ s', step dflt lt s t = .ok s' ∧ Inv home lt n s' ∧ Logged lt os0 progs s' ∧ (∀ v o, home v = .shared → s.objs v = some o → (∃ u, o.owner = some u ∧ u ≠ t) → s'.objs v = some o) := by
  cases ht : s.threads[t]? with
  | none => exact ⟨s, by simp [step, ht], hi, hg, fun v o _ h _ => h⟩
  | some th =>
    cases th with
    | mk q b =>
      cases q with
      | nil => exact ⟨s, by simp [step, ht], hi, hg, fun v o _ h _ => h⟩
      | cons x p =>
        obtain ⟨h, a, hT⟩ := hi.threads t _ ht
        have hT : TInv home s.objs t (x :: p) h a := hT
        by_cases hx : (∀ v, x ≠ .lock v) ∧ (∀ v, x ≠ .unlock v)
        · rw [notLock hx.1 hx.2 _ _ _ _ _ _ ht]
          cases b with
          | false =>
            refine ⟨{ s with threads := s.threads.set t ⟨x :: p, true⟩ }, ?_, ⟨by simp [hi.len], ?_, hi.shared, hi.fine⟩, ⟨?_, hg.vals⟩, fun v o _ h _ => h⟩
            · simp [callStep, no_race hi ht]
            · intro u th hu
              rcases get_set hu with ⟨rfl, rfl⟩ | ⟨hne, hu⟩
              · exact ⟨h, a, hT⟩
              · exact hi.threads u th hu
            · intro u th hu
              rcases get_set hu with ⟨rfl, rfl⟩ | ⟨hne, hu⟩
              · exact hg.progs u ⟨x :: p, false⟩ ht
              · exact hg.progs u th hu
          | true =>
            obtain ⟨os', r, e1, e2, e3⟩ := exec_ok ho hi ht (fun v => ⟨hx.1 v, hx.2 v⟩)
            have hfin := finish_ok hi hg ht e2 e3.next (fun v hv _ => e3.others v hv) (fun v hc => absurd hc (hx.1 v)) e3.shared
              (fun v o o' hv h1 h2 => .inl (e3.owner v o o' hv h1 h2)) e3.fine
            refine ⟨_, by simp only [callStep, if_true, e1], hfin.1, hfin.2, fun v o hv hvo => ?_⟩
            rintro ⟨u, hu, hne⟩
            show os' v = some o
            rw [e3.others v (fun hc => hne (Own.same (.inl (.inl ⟨hv, o, hvo, hu⟩)) hc))]
            exact hvo
        · cases x with
          | lock v =>
            obtain ⟨g1, g2, g3⟩ := hT.guarded
            obtain ⟨o, hv⟩ := hi.shared v g1
            have hst : step dflt lt s t = lockStep dflt s t v p := by simp only [step, ht]
            rw [hst]
            cases hw : o.owner with
            | some u =>
              have hne : u ≠ t := fun e => g2 ((hT.held v).mpr ⟨g1, o, hv, by rw [hw, e]⟩)
              exact ⟨s, by simp [lockStep, hv, dflt, hw, hne], hi, hg, fun v o _ h _ => h⟩
            | none =>
              have hfin := finish_ok hi hg ht (os' := put s.objs v (some { o with owner := some t })) (r := .done) (by
                  rw [vals_put]; simp only [sexec, Option.map_some]
                  congr 2
                  funext w
                  by_cases hwv : w = v
                  · subst hwv; simp [Vals.put, vals, hv]
                  · simp [Vals.put, hwv])
                ⟨v :: h, a, g3, fun w => by
                  by_cases hwv : w = v
                  · subst hwv; simp [put_self, g1]
                  · simp only [List.mem_cons, hwv, false_or, put_ne _ hwv]; exact hT.held w, fun w => by
                  rw [hT.alive w]
                  refine and_congr_right fun hp => ?_
                  have : w ≠ v := fun e => by rw [e, g1] at hp; cases hp
                  rw [put_ne _ this]⟩
                (fun w _ hne => put_ne _ (fun e => hne (by rw [e])) _)
                (fun w e o' ho' => by cases e; rw [hv] at ho'; cases ho'; exact hw)
                (fun w hw' => by
                  by_cases hwv : w = v
                  · subst hwv; exact ⟨_, put_self _ _ _⟩
                  · rw [put_ne _ hwv]; exact hi.shared w hw')
                (fun w x x' _ hx hx' => by
                  by_cases hwv : w = v
                  · subst hwv; rw [put_self] at hx'; cases hx'; exact .inr (.inr rfl)
                  · rw [put_ne _ hwv, hx] at hx'; cases hx'; exact .inl rfl)
                (fun w x hx => by
                  by_cases hwv : w = v
                  · subst hwv; rw [put_self] at hx; cases hx
                    exact ⟨(hi.fine _ _ hv).1, (hi.fine _ _ hv).2.1, fun hc => absurd g1 hc⟩
                  · rw [put_ne _ hwv] at hx
                    exact ⟨(hi.fine _ _ hx).1, (hi.fine _ _ hx).2.1, (hi.fine _ _ hx).2.2.1⟩)
              refine ⟨_, by simp only [lockStep, hv, dflt, hw, if_true], hfin.1, hfin.2, fun w x _ hx => ?_⟩
              rintro ⟨u, hu, _⟩
              have : w ≠ v := fun e => by rw [e, hv] at hx; cases hx; rw [hw] at hu; cases hu
              show put _ _ _ w = _
              rw [put_ne _ this]
              exact hx
          | unlock v =>
            obtain ⟨g1, g2⟩ := hT.guarded
            obtain ⟨hs, o, hv, hw⟩ := (hT.held v).mp g1
            have hst : step dflt lt s t = unlockStep s t v p := by simp only [step, ht]
            rw [hst]
            have hfin := finish_ok hi hg ht (os' := put s.objs v (some { o with owner := none })) (r := .done) (by
                rw [vals_put]; simp only [sexec, Option.map_some]
                congr 2
                funext w
                by_cases hwv : w = v
                · subst hwv; simp [Vals.put, vals, hv]
                · simp [Vals.put, hwv])
              ⟨h.filter (· ≠ v), a, g2, fun w => by
                by_cases hwv : w = v
                · subst hwv; simp [put_self]
                · have := hT.held w
                  simp only [List.mem_filter, this, put_ne _ hwv]; simp [hwv], fun w => by
                rw [hT.alive w]
                refine and_congr_right fun hp => ?_
                have : w ≠ v := fun e => by rw [e, hs] at hp; cases hp
                rw [put_ne _ this]⟩
              (fun w hne _ => put_ne _ (fun e => hne (by rw [e]; exact .inl (.inl ⟨hs, o, hv, hw⟩))) _)
              (fun w e => by cases e)
              (fun w hw' => by
                by_cases hwv : w = v
                · subst hwv; exact ⟨_, put_self _ _ _⟩
                · rw [put_ne _ hwv]; exact hi.shared w hw')
              (fun w x x' _ hx hx' => by
                by_cases hwv : w = v
                · subst hwv; rw [put_self] at hx'; cases hx'; exact .inr (.inl rfl)
                · rw [put_ne _ hwv, hx] at hx'; cases hx'; exact .inl rfl)
              (fun w x hx => by
                by_cases hwv : w = v
                · subst hwv; rw [put_self] at hx; cases hx
                  exact ⟨(hi.fine _ _ hv).1, (hi.fine _ _ hv).2.1, fun _ => rfl⟩
                · rw [put_ne _ hwv] at hx
                  exact ⟨(hi.fine _ _ hx).1, (hi.fine _ _ hx).2.1, (hi.fine _ _ hx).2.2.1⟩)
            refine ⟨_, by simp only [unlockStep, hv, hw, if_true], hfin.1, hfin.2, fun w x _ hx => ?_⟩
            rintro ⟨u, hu, hne⟩
            have : w ≠ v := fun e => by rw [e, hv] at hx; cases hx; rw [hw] at hu; cases hu; exact hne rfl
            show put _ _ _ w = _
            rw [put_ne _ this]
            exact hx
          | _ => exact absurd ⟨fun v => nofun, fun v => nofun⟩ hx

theorem steps_ok [DecidableEq K] {home : Nat → Home} {lt : K → K → Bool} (ho : Order lt) {n : Nat} {os0 : Objs K α} {progs : List (List (Stmt K α))} : ∀ (sched : List Nat) {s : St K α},
    Inv home lt n s → Logged lt os0 progs s → ∃ s', steps dflt lt s sched = .ok s' ∧ Inv home lt n s' ∧ Logged lt os0 progs s'
  | [], s, hi, hg => ⟨s, rfl, hi, hg⟩
  | t :: ts, s, hi, hg => by
    obtain ⟨s1, e1, i1, g1, _⟩ := step_ok ho hi hg t
    obtain ⟨s2, e2, i2, g2⟩ := steps_ok ho ts i1 g1
    exact ⟨s2, by simp only [steps, e1, e2], i2, g2⟩

theorem start_ok [DecidableEq K] {home : Nat → Home} {lt : K → K → Bool} {os : Objs K α} (hs : Start home lt os) {progs : List (List (Stmt K α))}
    (hp : ∀ (t : Nat) (p : List (Stmt K α)), progs[t]? = some p → Guarded home t [] [] p) :
    Inv home lt progs.length ⟨os, progs.map (⟨·, false⟩), []⟩ ∧ Logged lt os progs ⟨os, progs.map (⟨·, false⟩), []⟩ := by
  refine ⟨⟨by simp, fun t th ht => ?_, hs.shared, fun v o hv => ?_⟩, fun t th ht => ?_, rfl⟩
  · simp only [List.getElem?_map] at ht
    cases hq : progs[t]? with
    | none => rw [hq] at ht; cases ht
    | some q =>
      rw [hq] at ht
      cases ht
      refine ⟨[], [], hp t q hq, fun v => ?_, fun v => ?_⟩
      · simp only [List.not_mem_nil, false_iff]
        rintro ⟨_, o, ho, hw⟩
        rw [(hs.fine v o ho).2.2] at hw
        cases hw
      · simp only [List.not_mem_nil, false_iff]
        rintro ⟨hv, o, ho⟩
        have ho : os v = some o := ho
        rw [hs.others v (by rw [hv]; exact nofun)] at ho
        cases ho
  · obtain ⟨f1, f2, f3⟩ := hs.fine v o hv
    exact ⟨f1, f2, fun _ => f3, fun t ht => by rw [f3] at ht; cases ht⟩
  · simp only [List.getElem?_map] at ht
    cases hq : progs[t]? with
    | none => rw [hq] at ht; cases ht
    | some q =>
      rw [hq] at ht
      cases ht
      rfl

theorem all_compile (x : Stmt K α) : compiles dflt x = true := by cases x <;> rfl

theorem run_eq (lt : K → K → Bool) (os : Objs K α) (progs : List (List (Stmt K α))) (sched : List Nat) :
    run dflt lt os progs sched = steps dflt lt ⟨os, progs.map (⟨·, false⟩), []⟩ sched := by
  simp only [run]
  rw [if_pos (by simp [all_compile])]

/-! ## Waiting -/

theorem sum_set : ∀ (l : List Nat) (t a b : Nat), l[t]? = some a → (l.set t b).sum + a = l.sum + b
  | x :: l, 0, a, b, h => by simp at h; subst h; simp; omega
  | x :: l, t + 1, a, b, h => by
    have := sum_set l t a b (by simpa using h)
    simp only [List.set_cons_succ, List.sum_cons]
    omega

theorem left_set {s : St K α} {t : Nat} {th th' : Thread K α} (ht : s.threads[t]? = some th) (os : Objs K α) (l : List (Nat × Stmt K α × Res α))
    (hlt : (2 * th'.prog.length + if th'.inside then 0 else 1) < 2 * th.prog.length + if th.inside then 0 else 1) : left ⟨os, s.threads.set t th', l⟩ < left s := by
  have h1 : (s.threads.map fun th => 2 * th.prog.length + if th.inside then 0 else 1)[t]? = some (2 * th.prog.length + if th.inside then 0 else 1) := by
    rw [List.getElem?_map, ht]; rfl
  have h2 := sum_set _ t _ (2 * th'.prog.length + if th'.inside then 0 else 1) h1
  have h3 : left ⟨os, s.threads.set t th', l⟩ = ((s.threads.map fun th => 2 * th.prog.length + if th.inside then 0 else 1).set t (2 * th'.prog.length + if th'.inside then 0 else 1)).sum := by
    simp only [left, List.map_set]
  rw [h3]
  simp only [left] at h2 ⊢
  omega

/-- A thread that has something to do and does not wait gets on in its turn. -/
theorem step_left [DecidableEq K] {home : Nat → Home} {lt : K → K → Bool} (ho : Order lt) {n : Nat} {s : St K α} (hi : Inv home lt n s)
    {t : Nat} {x : Stmt K α} {p : List (Stmt K α)} {b : Bool} (ht : s.threads[t]? = some ⟨x :: p, b⟩) (hw : ∀ v, ¬ Waits s t v) {s' : St K α} (hs : step dflt lt s t = .ok s') :
    left s' < left s := by
  obtain ⟨h, a, hT⟩ := hi.threads t _ ht
  have hT : TInv home s.objs t (x :: p) h a := hT
  have hfin : ∀ os r, left (finish s t x p os r) < left s := by
    intro os r
    refine left_set ht os _ ?_
    simp only [List.length_cons]
    split <;> split <;> omega
  by_cases hx : (∀ v, x ≠ .lock v) ∧ (∀ v, x ≠ .unlock v)
  · rw [notLock hx.1 hx.2 _ _ _ _ _ _ ht] at hs
    cases b with
    | false =>
      simp only [callStep, no_race hi ht] at hs
      cases hs
      exact left_set ht _ _ (by simp)
    | true =>
      obtain ⟨os', r, e1, _⟩ := exec_ok ho hi ht (fun v => ⟨hx.1 v, hx.2 v⟩)
      simp only [callStep, if_true, e1] at hs
      cases hs
      exact hfin _ _
  · cases x with
    | lock v =>
      obtain ⟨g1, g2, g3⟩ := hT.guarded
      obtain ⟨o, hv⟩ := hi.shared v g1
      have hst : step dflt lt s t = lockStep dflt s t v p := by simp only [step, ht]
      rw [hst] at hs
      cases hw' : o.owner with
      | some u =>
        have hne : u ≠ t := fun e => g2 ((hT.held v).mpr ⟨g1, o, hv, by rw [hw', e]⟩)
        exact absurd ⟨p, b, ht, o, u, hv, hw', hne⟩ (hw v)
      | none =>
        simp only [lockStep, hv, dflt, hw', if_true] at hs
        cases hs
        exact hfin _ _
    | unlock v =>
      obtain ⟨g1, g2⟩ := hT.guarded
      obtain ⟨hs', o, hv, hw'⟩ := (hT.held v).mp g1
      have hst : step dflt lt s t = unlockStep s t v p := by simp only [step, ht]
      rw [hst] at hs
      simp only [unlockStep, hv, hw', if_true] at hs
      cases hs
      exact hfin _ _
    | _ => exact absurd ⟨fun v => nofun, fun v => nofun⟩ hx

/-- The locks held after the statements `q`, when `h` are held before. -/
def heldAfter (h : List Nat) : List (Stmt K α) → List Nat
  | [] => h
  | .lock v :: q => heldAfter (v :: h) q
  | .unlock v :: q => heldAfter (h.filter (· ≠ v)) q
  | _ :: q => heldAfter h q

theorem ordered_append : ∀ (q p : List (Stmt K α)) (h : List Nat), Ordered h (q ++ p) → Ordered (heldAfter h q) p
  | [], _, _, ho => ho
  | x :: q, p, h, ho => by
    cases x <;> simp only [List.cons_append, Ordered, heldAfter] at ho ⊢ <;> first | exact ordered_append q p _ ho.2 | exact ordered_append q p _ ho

/-- The held locks of the invariant are those that the statements took. -/
structure TInv' (home : Nat → Home) (os : Objs K α) (t : Nat) (q : List (Stmt K α)) : Prop where
  held : ∀ v, v ∈ heldAfter [] q ↔ home v = .shared ∧ ∃ o, os v = some o ∧ o.owner = some t

theorem heldAfter_snoc (x : Stmt K α) : ∀ (q : List (Stmt K α)) (h : List Nat), heldAfter h (q ++ [x]) = heldAfter (heldAfter h q) [x]
  | [], _ => rfl
  | y :: q, h => by cases y <;> simp only [List.cons_append, heldAfter] <;> exact heldAfter_snoc x q _

theorem owner_step [DecidableEq K] {home : Nat → Home} {lt : K → K → Bool} (ho : Order lt) {n : Nat} {s : St K α} (hi : Inv home lt n s)
    {t : Nat} {s' : St K α} (hs : step dflt lt s t = .ok s') (hh : ∀ u th, s.threads[u]? = some th → TInv' home s.objs u (logOf s.log u)) :
    ∀ u th, s'.threads[u]? = some th → TInv' home s'.objs u (logOf s'.log u) := by
  cases ht : s.threads[t]? with
  | none => simp only [step, ht] at hs; cases hs; exact hh
  | some th =>
    cases th with
    | mk q b =>
      cases q with
      | nil => simp only [step, ht] at hs; cases hs; exact hh
      | cons x p =>
        obtain ⟨h, a, hT⟩ := hi.threads t _ ht
        have hT : TInv home s.objs t (x :: p) h a := hT
        have key : ∀ (os : Objs K α) (r : Res α), (∀ u, (∃ th, s.threads[u]? = some th) → ∀ v, v ∈ heldAfter (heldAfter [] (logOf s.log u)) (if t = u then [x] else []) ↔ home v = .shared ∧ ∃ o, os v = some o ∧ o.owner = some u) →
            s' = finish s t x p os r → ∀ u th, s'.threads[u]? = some th → TInv' home s'.objs u (logOf s'.log u) := by
          intro os r hk e u th hu
          subst e
          have hu' : ∃ th, s.threads[u]? = some th := by
            rcases get_set hu with ⟨rfl, rfl⟩ | ⟨_, hu⟩
            · exact ⟨_, ht⟩
            · exact ⟨_, hu⟩
          refine ⟨fun v => ?_⟩
          refine Iff.trans ?_ (hk u hu' v)
          show v ∈ heldAfter [] (logOf (s.log ++ [(t, x, r)]) u) ↔ _
          rw [logOf_snoc]
          by_cases e : t = u
          · rw [if_pos e, if_pos e, heldAfter_snoc]
          · rw [if_neg e, if_neg e]; rfl
        by_cases hx : (∀ v, x ≠ .lock v) ∧ (∀ v, x ≠ .unlock v)
        · rw [notLock hx.1 hx.2 _ _ _ _ _ _ ht] at hs
          cases b with
          | false =>
            simp only [callStep, no_race hi ht] at hs
            cases hs
            intro u th hu
            rcases get_set hu with ⟨rfl, rfl⟩ | ⟨_, hu⟩
            · exact hh u _ ht
            · exact hh u th hu
          | true =>
            obtain ⟨os', r, e1, _, e3⟩ := exec_ok ho hi ht (fun v => ⟨hx.1 v, hx.2 v⟩)
            simp only [callStep, if_true, e1] at hs
            refine key os' r (fun u ⟨th, hu⟩ v => ?_) (by cases hs; rfl)
            have e0 : heldAfter (heldAfter [] (logOf s.log u)) (if t = u then [x] else []) = heldAfter [] (logOf s.log u) := by
              by_cases e : t = u
              · rw [if_pos e]
                cases x <;> first | rfl | (exact absurd rfl (hx.1 _)) | (exact absurd rfl (hx.2 _))
              · rw [if_neg e]; rfl
            rw [e0, (hh u th hu).held v]
            refine and_congr_right fun hv => ?_
            obtain ⟨o, h1⟩ := hi.shared v hv
            obtain ⟨o', h2⟩ := e3.shared v hv
            have h3 := e3.owner v o o' hv h1 h2
            rw [h1, h2]
            simp only [Option.some.injEq, exists_eq_left']
            rw [h3]
        · cases x with
          | lock v =>
            obtain ⟨g1, g2, g3⟩ := hT.guarded
            obtain ⟨o, hv⟩ := hi.shared v g1
            have hst : step dflt lt s t = lockStep dflt s t v p := by simp only [step, ht]
            rw [hst] at hs
            cases hw : o.owner with
            | some u =>
              have hne : u ≠ t := fun e => g2 ((hT.held v).mpr ⟨g1, o, hv, by rw [hw, e]⟩)
              simp only [lockStep, hv, dflt, hw, if_true, hne, if_false] at hs
              cases hs
              exact hh
            | none =>
              simp only [lockStep, hv, dflt, hw, if_true] at hs
              refine key _ .done (fun u ⟨th, hu⟩ w => ?_) (by cases hs; rfl)
              have hb := (hh u th hu).held w
              by_cases e : t = u
              · rw [if_pos e]
                simp only [heldAfter, List.mem_cons]
                by_cases hwv : w = v
                · subst hwv; simp [put_self, g1, e]
                · simp only [hwv, false_or, put_ne _ hwv]; exact hb
              · rw [if_neg e]
                simp only [heldAfter]
                rw [hb]
                by_cases hwv : w = v
                · subst hwv; simp [put_self, hv, hw, e]
                · simp only [put_ne _ hwv]
          | unlock v =>
            obtain ⟨g1, g2⟩ := hT.guarded
            obtain ⟨hs', o, hv, hw⟩ := (hT.held v).mp g1
            have hst : step dflt lt s t = unlockStep s t v p := by simp only [step, ht]
            rw [hst] at hs
            simp only [unlockStep, hv, hw, if_true] at hs
            refine key _ .done (fun u ⟨th, hu⟩ w => ?_) (by cases hs; rfl)
            have hb := (hh u th hu).held w
            by_cases e : t = u
            · rw [if_pos e]
              simp only [heldAfter, List.mem_filter]
              by_cases hwv : w = v
              · subst hwv; simp [put_self]
              · simp only [put_ne _ hwv, hb]; simp [hwv]
            · rw [if_neg e]
              simp only [heldAfter]
              rw [hb]
              by_cases hwv : w = v
              · subst hwv; simp [put_self, hv, hw, e]
              · simp only [put_ne _ hwv]
          | _ => exact absurd ⟨fun v => nofun, fun v => nofun⟩ hx

theorem bounded (s : St K α) : ∃ B, ∀ t v, Waits s t v → v < B := by
  have : ∀ (l : List (Thread K α)), ∃ B, ∀ th ∈ l, ∀ v p, th.prog = .lock v :: p → v < B := by
    intro l
    induction l with
    | nil => exact ⟨0, fun _ h => by cases h⟩
    | cons th l ih =>
      obtain ⟨B, hB⟩ := ih
      cases hp : th.prog with
      | nil => exact ⟨B, fun y hy v p e => by
          rcases List.mem_cons.mp hy with rfl | hy
          · rw [hp] at e; cases e
          · exact hB y hy v p e⟩
      | cons x q =>
        refine ⟨B + (match x with | .lock v => v + 1 | _ => 0), fun y hy v p e => ?_⟩
        rcases List.mem_cons.mp hy with rfl | hy
        · rw [hp] at e; cases e
          show v < B + (v + 1)
          omega
        · exact Nat.lt_of_lt_of_le (hB y hy v p e) (Nat.le_add_right _ _)
  obtain ⟨B, hB⟩ := this s.threads
  refine ⟨B, ?_⟩
  rintro t v ⟨p, b, ht, _⟩
  exact hB _ (List.mem_of_getElem? ht) v p rfl

/-- When all programs take their locks in order, some thread does not wait. -/
theorem someone [DecidableEq K] {home : Nat → Home} {lt : K → K → Bool} {n : Nat} {os0 : Objs K α} {progs : List (List (Stmt K α))} {s : St K α} (hi : Inv home lt n s)
    (hg : Logged lt os0 progs s) (hh : ∀ u th, s.threads[u]? = some th → TInv' home s.objs u (logOf s.log u))
    (hord : ∀ (t : Nat) (p : List (Stmt K α)), progs[t]? = some p → Ordered [] p) (hne : ∃ (t : Nat) (th : Thread K α), s.threads[t]? = some th ∧ th.prog ≠ []) :
    ∃ (t : Nat) (x : Stmt K α) (p : List (Stmt K α)) (b : Bool), s.threads[t]? = some ⟨x :: p, b⟩ ∧ ∀ v, ¬ Waits s t v := by
  classical
  apply Classical.byContradiction
  intro hno
  have hall : ∀ (t : Nat) (th : Thread K α), s.threads[t]? = some th → th.prog ≠ [] → ∃ v, Waits s t v := by
    intro t th ht hp
    cases th with
    | mk q b =>
      cases q with
      | nil => exact absurd rfl hp
      | cons x p =>
        apply Classical.byContradiction
        intro hc
        exact hno ⟨t, x, p, b, ht, fun v hv => hc ⟨v, hv⟩⟩
  have up : ∀ t v, Waits s t v → ∃ u w, Waits s u w ∧ v < w := by
    rintro t v ⟨p, b, ht, o, u, hv, hu, hut⟩
    have hun : u < s.threads.length := by rw [hi.len]; exact (hi.fine v o hv).2.2.2 u hu
    obtain ⟨h, a, hT⟩ := hi.threads t _ ht
    have hsh := hT.guarded.1
    have hget : s.threads[u]? = some s.threads[u] := List.getElem?_eq_getElem hun
    obtain ⟨h', a', hU⟩ := hi.threads u _ hget
    have hmem : v ∈ h' := (hU.held v).mpr ⟨hsh, o, hv, hu⟩
    have hp : s.threads[u].prog ≠ [] := by
      intro e
      have := hU.guarded
      rw [e] at this
      have : h' = [] := this
      rw [this] at hmem
      cases hmem
    obtain ⟨w, hw⟩ := hall u _ hget hp
    refine ⟨u, w, hw, ?_⟩
    obtain ⟨p', b', hw1, _⟩ := hw
    have h1 := hg.progs u _ hw1
    have h2 := ordered_append _ _ _ (hord u _ h1)
    simp only [Ordered] at h2
    exact h2.1 v (((hh u _ hw1).held v).mpr ⟨hsh, o, hv, hu⟩)
  obtain ⟨t, th, ht, hp⟩ := hne
  obtain ⟨v0, hv0⟩ := hall t th ht hp
  have inf : ∀ k : Nat, ∃ u w, Waits s u w ∧ k ≤ w := by
    intro k
    induction k with
    | zero => exact ⟨t, v0, hv0, Nat.zero_le _⟩
    | succ k ih =>
      obtain ⟨u, w, h1, h2⟩ := ih
      obtain ⟨u', w', h3, h4⟩ := up u w h1
      exact ⟨u', w', h3, by omega⟩
  obtain ⟨B, hB⟩ := bounded s
  obtain ⟨u, w, h1, h2⟩ := inf B
  have := hB u w h1
  omega

theorem finishes [DecidableEq K] {home : Nat → Home} {lt : K → K → Bool} (ho : Order lt) {n : Nat} {os0 : Objs K α} {progs : List (List (Stmt K α))}
    (hord : ∀ (t : Nat) (p : List (Stmt K α)), progs[t]? = some p → Ordered [] p) : ∀ (k : Nat) {s : St K α}, left s ≤ k → Inv home lt n s → Logged lt os0 progs s →
    (∀ u th, s.threads[u]? = some th → TInv' home s.objs u (logOf s.log u)) →
    ∃ sched s', steps dflt lt s sched = .ok s' ∧ ∀ th ∈ s'.threads, th.prog = []
  | k, s, hk, hi, hg, hh => by
    classical
    by_cases hd : ∀ th ∈ s.threads, th.prog = []
    · exact ⟨[], s, rfl, hd⟩
    · have hne : ∃ (t : Nat) (th : Thread K α), s.threads[t]? = some th ∧ th.prog ≠ [] := by
        apply Classical.byContradiction
        intro hc
        refine hd fun th hth => ?_
        obtain ⟨i, hlt, he⟩ := List.getElem_of_mem hth
        apply Classical.byContradiction
        intro hp
        exact hc ⟨i, th, by rw [List.getElem?_eq_getElem hlt, he], hp⟩
      obtain ⟨t, x, p, b, ht, hw⟩ := someone hi hg hh hord hne
      obtain ⟨s1, e1, i1, g1, _⟩ := step_ok ho hi hg t
      have hlt := step_left ho hi ht hw e1
      cases k with
      | zero => omega
      | succ k =>
        obtain ⟨sched, s', e2, hend⟩ := finishes ho hord k (by omega) i1 g1 (owner_step ho hi e1 hh)
        exact ⟨t :: sched, s', by simp only [steps, e1, e2], hend⟩

theorem steps_held [DecidableEq K] {home : Nat → Home} {lt : K → K → Bool} (ho : Order lt) {n : Nat} {os0 : Objs K α} {progs : List (List (Stmt K α))} : ∀ (sched : List Nat) {s s' : St K α},
    Inv home lt n s → Logged lt os0 progs s → (∀ u th, s.threads[u]? = some th → TInv' home s.objs u (logOf s.log u)) → steps dflt lt s sched = .ok s' →
    ∀ u th, s'.threads[u]? = some th → TInv' home s'.objs u (logOf s'.log u)
  | [], s, s', hi, hg, hh, e => by simp only [steps] at e; cases e; exact hh
  | t :: ts, s, s', hi, hg, hh, e => by
    obtain ⟨s1, e1, i1, g1, _⟩ := step_ok ho hi hg t
    simp only [steps, e1] at e
    exact steps_held ho ts i1 g1 (owner_step ho hi e1 hh) e

theorem steps_append (c : Cls) (lt : K → K → Bool) : ∀ (xs ys : List Nat) (s s' : St K α), steps c lt s xs = .ok s' → steps c lt s (xs ++ ys) = steps c lt s' ys
  | [], _, s, s', h => by simp only [steps] at h; cases h; rfl
  | x :: xs, ys, s, s', h => by
    simp only [steps, List.cons_append] at h ⊢
    cases hx : step c lt s x with
    | ok s1 => rw [hx] at h; exact steps_append c lt xs ys s1 s' h
    | ub => rw [hx] at h; cases h
    | refused => rw [hx] at h; cases h
    | contract => rw [hx] at h; cases h

theorem start_held {home : Nat → Home} {lt : K → K → Bool} {os : Objs K α} (hs : Start home lt os) (progs : List (List (Stmt K α))) :
    ∀ u th, (⟨os, progs.map (⟨·, false⟩), []⟩ : St K α).threads[u]? = some th → TInv' home os u (logOf [] u) := by
  intro u th _
  refine ⟨fun v => ?_⟩
  simp only [logOf, List.filter_nil, List.map_nil, heldAfter, List.not_mem_nil, false_iff]
  rintro ⟨_, o, h1, h2⟩
  rw [(hs.fine v o h1).2.2] at h2
  cases h2

/-! ## The theorems -/

/-- Any number of threads with any programs that use shared maps only under their locks, and any order of turns: there is no undefined
behaviour, each thread executes its own program in order, and all results and maps are those of executing the statements one after
another in the order in which they ended, every map being a finite map.

The full property also speaks of classes with other validators and without a mutex; see the `_violated` theorems. -/
theorem C100_threads_partial [DecidableEq K] (lt : K → K → Bool) (ho : Order lt) (home : Nat → Home) (os : Objs K α) (hs : Start home lt os) (progs : List (List (Stmt K α)))
    (hp : ∀ (t : Nat) (p : List (Stmt K α)), progs[t]? = some p → Guarded home t [] [] p) (sched : List Nat) :
    ∃ s, run dflt lt os progs sched = .ok s ∧
      (∀ (t : Nat) (th : Thread K α), s.threads[t]? = some th → progs[t]? = some (((s.log.filter fun e => e.1 == t).map fun e => e.2.1) ++ th.prog)) ∧
      srun (vals lt os) (s.log.map fun e => e.2.1) = some (vals lt s.objs, s.log.map fun e => e.2.2) := by
  obtain ⟨hi, hg⟩ := start_ok hs hp
  obtain ⟨s, e, _, g⟩ := steps_ok ho sched hi hg
  exact ⟨s, by rw [run_eq]; exact e, g.progs, g.vals⟩

/-- While a thread holds the lock of a map, no turns of other threads change the map. -/
theorem C100_atomic [DecidableEq K] (lt : K → K → Bool) (ho : Order lt) (home : Nat → Home) (os : Objs K α) (hs : Start home lt os) (progs : List (List (Stmt K α)))
    (hp : ∀ (t : Nat) (p : List (Stmt K α)), progs[t]? = some p → Guarded home t [] [] p) (sched : List Nat) (s : St K α) (hr : run dflt lt os progs sched = .ok s)
    (t v : Nat) (o : Obj K α) (hv : home v = .shared) (hv' : s.objs v = some o) (hw : o.owner = some t) (more : List Nat) (ht : t ∉ more) :
    ∃ s', run dflt lt os progs (sched ++ more) = .ok s' ∧ s'.objs v = some o := by
  obtain ⟨hi, hg⟩ := start_ok hs hp
  obtain ⟨s1, e, i1, g1⟩ := steps_ok ho sched hi hg
  rw [run_eq] at hr ⊢
  rw [e] at hr
  cases hr
  rw [steps_append _ _ _ _ _ _ e]
  clear e
  induction more generalizing s with
  | nil => exact ⟨s, rfl, hv'⟩
  | cons u us ih =>
    simp only [List.mem_cons, not_or] at ht
    obtain ⟨s2, e2, i2, g2, hk⟩ := step_ok ho i1 g1 u
    obtain ⟨s3, e3, h3⟩ := ih s2 (hk v o hv hv' ⟨t, hw, Ne.symm (Ne.symm ht.1)⟩) ht.2 i2 g2
    exact ⟨s3, by simp only [steps, e2]; exact e3, h3⟩

/-- No deadlock: if every thread takes locks in increasing order, the program can be finished from every state it gets to. -/
theorem C100_finishes [DecidableEq K] (lt : K → K → Bool) (ho : Order lt) (home : Nat → Home) (os : Objs K α) (hs : Start home lt os) (progs : List (List (Stmt K α)))
    (hp : ∀ (t : Nat) (p : List (Stmt K α)), progs[t]? = some p → Guarded home t [] [] p ∧ Ordered [] p) (sched : List Nat) :
    ∃ more s, run dflt lt os progs (sched ++ more) = .ok s ∧ ∀ th ∈ s.threads, th.prog = [] := by
  obtain ⟨hi, hg⟩ := start_ok hs (fun t p h => (hp t p h).1)
  obtain ⟨s1, e, i1, g1⟩ := steps_ok ho sched hi hg
  obtain ⟨more, s, e2, hend⟩ := finishes ho (fun t p h => (hp t p h).2) (left s1) (Nat.le_refl _) i1 g1 (steps_held ho sched hi hg (start_held hs progs) e)
  exact ⟨more, s, by rw [run_eq, steps_append _ _ _ _ _ _ e]; exact e2, hend⟩

/-! ## Without the rules, and other classes -/

def emptyMap : Option (Obj K α) := some ⟨[], fun _ => true, none⟩

/-- Two threads that set attributes of one map without its lock: undefined behaviour, in some order of the turns. -/
theorem C100_unguarded (lt : K → K → Bool) (k l : K) (a b : Attributes.Arg α) :
    run dflt lt (fun _ => emptyMap) [[.call 0 (.set k a)], [.call 0 (.set l b)]] [0, 1] = .ub := rfl

/-- The maps that a statement makes, ends or gives other attributes. A map that is moved from is changed if it is of the default class; others are copied. -/
def Changes (c : Cls) (v : Nat) : Stmt K α → Prop
  | .new d _ | .destroy d | .copyNew d _ | .assign d _ => v = d
  | .moveNew d s | .moveAssign d s => v = d ∨ (c.isThis = true ∧ v = s)
  | .swap a b => v = a ∨ v = b
  | .call w (.set _ _) | .call w (.clear _) => v = w
  | .call _ _ | .lock _ | .unlock _ => False

/-- The maps whose attributes a statement reads. -/
def Reads (v : Nat) : Stmt K α → Prop
  | .copyNew _ s | .moveNew _ s | .assign _ s | .moveAssign _ s => v = s
  | .call _ (.valid _) => False
  | .call w _ => v = w
  | _ => False

theorem entries_access (c : Cls) (v : Nat) (x : Stmt K α) :
    (⟨v, .entries, true⟩ ∈ accesses c x ↔ Changes c v x) ∧ ((∃ w, (⟨v, .entries, w⟩ : Acc) ∈ accesses c x) ↔ Changes c v x ∨ Reads v x) := by
  cases x with
  | call w op => cases op <;> simp [accesses, Changes, Reads, changes, whole]
  | moveNew d s => cases h : c.isThis <;> simp [accesses, Changes, Reads, whole, h] <;> constructor <;> intro h' <;> omega
  | moveAssign d s => cases h : c.isThis <;> simp [accesses, Changes, Reads, whole, h] <;> constructor <;> intro h' <;> omega
  | copyNew d s => cases h : c.isThis <;> simp [accesses, Changes, Reads, whole, h] <;> exact Or.comm
  | assign d s => cases h : c.isThis <;> simp [accesses, Changes, Reads, whole, h] <;> exact Or.comm
  | _ => simp [accesses, Changes, Reads, whole]

/-- Two calls of two threads at the same time are a data race if both use the attributes of one map and one of them changes them: whatever is inside a call, undefined behaviour. -/
theorem C100_race (c : Cls) (lt : K → K → Bool) (os : Objs K α) (x y : Stmt K α) (p q : List (Stmt K α)) (v : Nat) (hx : ∀ w, x ≠ .lock w ∧ x ≠ .unlock w) (hy : ∀ w, y ≠ .lock w ∧ y ≠ .unlock w)
    (hp : ∀ z ∈ x :: p, compiles c z = true) (hq : ∀ z ∈ y :: q, compiles c z = true)
    (h : (Changes c v x ∧ (Changes c v y ∨ Reads v y)) ∨ ((Changes c v x ∨ Reads v x) ∧ Changes c v y)) : run c lt os [x :: p, y :: q] [0, 1] = .ub := by
  have hcl : ∃ a ∈ accesses c y, ∃ b ∈ accesses c x, clash a b = true := by
    rcases h with ⟨h1, h2⟩ | ⟨h1, h2⟩
    · obtain ⟨w, hw⟩ := (entries_access c v y).2.2 h2
      exact ⟨_, hw, _, (entries_access c v x).1.2 h1, by simp [clash]⟩
    · obtain ⟨w, hw⟩ := (entries_access c v x).2.2 h1
      exact ⟨_, (entries_access c v y).1.2 h2, _, hw, by simp [clash]⟩
  obtain ⟨a, ha, b, hb, hab⟩ := hcl
  have h0 : step c lt ⟨os, [⟨x :: p, false⟩, ⟨y :: q, false⟩], []⟩ 0 = .ok ⟨os, [⟨x :: p, true⟩, ⟨y :: q, false⟩], []⟩ := by
    cases x with
    | lock w => exact absurd rfl (hx w).1
    | unlock w => exact absurd rfl (hx w).2
    | _ => simp [step, callStep, races, List.zipIdx]
  have h1 : step c lt ⟨os, [⟨x :: p, true⟩, ⟨y :: q, false⟩], []⟩ 1 = .ub := by
    have hr : races c [⟨x :: p, true⟩, ⟨y :: q, false⟩] 1 y = true := by
      simp only [races, List.zipIdx, List.any_cons, List.any_nil, Bool.or_eq_true, Bool.and_eq_true]
      left
      refine ⟨by decide, ?_⟩
      rw [List.any_eq_true]
      exact ⟨a, ha, List.any_eq_true.2 ⟨b, hb, hab⟩⟩
    cases y with
    | lock w => exact absurd rfl (hy w).1
    | unlock w => exact absurd rfl (hy w).2
    | _ => simp [step, callStep, hr]
  have hall : ([x :: p, y :: q].all fun r => r.all (compiles c)) = true := by
    simp only [List.all_cons, List.all_nil, Bool.and_true, Bool.and_eq_true]
    exact ⟨by simpa using hp, by simpa using hq⟩
  unfold run
  rw [if_pos hall]
  show steps c lt ⟨os, [⟨x :: p, false⟩, ⟨y :: q, false⟩], []⟩ [0, 1] = .ub
  simp only [steps, h0, h1]

example : Changes dflt 3 (.swap 2 3 : Stmt Nat Nat) ∧ Reads 3 (.call 3 (.getAs 7 0) : Stmt Nat Nat) := ⟨Or.inr rfl, rfl⟩

/-- A thread that asks for a lock it holds, for example in a function that is called under the lock: undefined behaviour. -/
theorem C100_relock_violated (lt : K → K → Bool) : run dflt lt (fun _ => (emptyMap : Option (Obj K α))) [[.lock 0, .lock 0, .unlock 0, .unlock 0]] [0, 0] = .ub := rfl

/-- Two threads that take two locks in different orders may wait for ever. -/
theorem C100_deadlock (lt : K → K → Bool) :
    ∃ sched : List Nat, ∀ more, ∃ s, run dflt lt (fun _ => (emptyMap : Option (Obj K α))) [[.lock 0, .lock 1, .unlock 1, .unlock 0], [.lock 1, .lock 0, .unlock 0, .unlock 1]] (sched ++ more) = .ok s ∧
      ∀ th ∈ s.threads, th.prog.length = 3 := by
  have fix : ∀ (os : Objs K α) (l : List (Nat × Stmt K α × Res α)) (o1 o0 : Obj K α), os 1 = some o1 → os 0 = some o0 → o1.owner = some 1 → o0.owner = some 0 → ∀ more : List Nat,
      steps dflt lt ⟨os, [⟨[.lock 1, .unlock 1, .unlock 0], false⟩, ⟨[.lock 0, .unlock 0, .unlock 1], false⟩], l⟩ more =
        .ok ⟨os, [⟨[.lock 1, .unlock 1, .unlock 0], false⟩, ⟨[.lock 0, .unlock 0, .unlock 1], false⟩], l⟩ := by
    intro os l o1 o0 h1 h0 w1 w0 more
    induction more with
    | nil => rfl
    | cons t ts ih =>
      have : step dflt lt ⟨os, [⟨[.lock 1, .unlock 1, .unlock 0], false⟩, ⟨[.lock 0, .unlock 0, .unlock 1], false⟩], l⟩ t =
          .ok ⟨os, [⟨[.lock 1, .unlock 1, .unlock 0], false⟩, ⟨[.lock 0, .unlock 0, .unlock 1], false⟩], l⟩ := by
        match t with
        | 0 => simp [step, lockStep, h1, w1, dflt]
        | 1 => simp [step, lockStep, h0, w0, dflt]
        | t + 2 => simp [step]
      simp only [steps, this, ih]
  refine ⟨[0, 1], fun more => ?_⟩
  rw [run_eq, steps_append _ _ [0, 1] more _ _ rfl]
  refine ⟨_, fix _ _ ⟨[], fun _ => true, some 1⟩ ⟨[], fun _ => true, some 0⟩ rfl rfl rfl rfl more, ?_⟩
  simp

/-- A validator is said not to be propagated. Without a mutex it is, by every copy and assignment. -/
theorem C100_validator_violated (lt : K → K → Bool) (f g : K → Bool) (k : K) (hk : f k ≠ g k) :
    ∃ s : St K α, run ⟨true, false⟩ lt (fun _ => none) [[.new 0 f, .new 1 g, .assign 1 0, .call 1 (.valid k)]] [0, 0, 0, 0, 0, 0, 0, 0] = .ok s ∧
      s.log.map (fun e => e.2.2) = [.done, .done, .done, .answer (.bool (f k))] ∧ s.log.map (fun e => e.2.2) ≠ [.done, .done, .done, .answer (.bool (g k))] := by
  refine ⟨_, rfl, rfl, ?_⟩
  intro h
  have : (Res.answer (.bool (f k)) : Res α) = .answer (.bool (g k)) := by
    have h3 := congrArg (fun l => l[3]?) h
    exact Option.some.inj h3
  cases this' : f k <;> cases this'' : g k <;> rw [this', this''] at this hk <;> first | exact hk rfl | cases this

/-- A map without a mutex that was moved from still has its attributes: it was copied. -/
theorem C100_move_violated (lt : K → K → Bool) (hirr : ∀ k, lt k k = false) (custom : Bool) (f : K → Bool) (k : K) (a : Attributes.Arg α) :
    ∃ s, run ⟨custom, false⟩ lt (fun _ => none) [[.new 0 f, .call 0 (.set k a), .moveNew 1 0, .call 0 (.has k)]] [0, 0, 0, 0, 0, 0, 0, 0] = .ok s ∧
      s.log.map (fun e => e.2.2) = [.done, .answer (.bool true), .done, .answer (.bool true)] := by
  cases custom
  · refine ⟨_, rfl, ?_⟩
    show [Res.done, .answer (.bool true), .done, .answer (.bool (Attributes.find lt k [(k, a.make)]).isSome)] = _
    simp [Attributes.find, hirr]
  · refine ⟨_, rfl, ?_⟩
    show [Res.done, .answer (.bool true), .done, .answer (.bool (Attributes.find lt k [(k, a.make)]).isSome)] = _
    simp [Attributes.find, hirr]

/-- A class with another validator and a mutex can be neither copied nor moved nor assigned, and only the default class can be swapped: such
programs do not compile. -/
theorem C100_class_violated (c : Cls) (lt : K → K → Bool) (os : Objs K α) (f g : K → Bool) (sched : List Nat) :
    (c ≠ dflt → run c lt os [[.new 0 f, .new 1 g, .swap 0 1]] sched = .refused) ∧
    (c = ⟨true, true⟩ → ∀ x : Stmt K α, x ∈ [.copyNew 1 0, .moveNew 1 0, .assign 1 0, .moveAssign 1 0] → run c lt os [[.new 0 f, x]] sched = .refused) := by
  constructor
  · intro h
    match c with
    | ⟨true, true⟩ => rfl
    | ⟨true, false⟩ => rfl
    | ⟨false, false⟩ => rfl
    | ⟨false, true⟩ => exact absurd rfl h
  · intro h x hx
    subst h
    simp only [List.mem_cons, List.not_mem_nil, or_false] at hx
    rcases hx with rfl | rfl | rfl | rfl <;> rfl

/-- Without a mutex the lock throws, and what follows is not protected. -/
theorem C100_no_lock (custom : Bool) (lt : K → K → Bool) (k l : K) (a b : Attributes.Arg α) :
    (∃ s, run ⟨custom, false⟩ lt (fun _ => (emptyMap : Option (Obj K α))) [[.lock 0]] [0] = .ok s ∧ s.log.map (fun e => e.2.2) = [.badLock]) ∧
    run ⟨custom, false⟩ lt (fun _ => emptyMap) [[.lock 0, .call 0 (.set k a)], [.lock 0, .call 0 (.set l b)]] [0, 1, 0, 1] = .ub := by
  cases custom <;> exact ⟨⟨_, rfl, rfl⟩, rfl⟩

/-! ## An example: two threads update two shared maps, one of them works on its own copy afterwards -/

def homes : Nat → Home
  | 0 => .shared
  | 1 => .shared
  | 5 => .priv 0
  | _ => .unused

def maps : Objs Nat Nat
  | 0 => emptyMap
  | 1 => emptyMap
  | _ => none

def first : List (Stmt Nat Nat) :=
  [.lock 0, .call 0 (.set 7 (.val 2 1)), .call 0 (.getAs 7 2), .lock 1, .swap 0 1, .unlock 0, .copyNew 5 1, .unlock 1, .call 5 (.has 7), .call 5 (.clear 7), .destroy 5]

def second : List (Stmt Nat Nat) := [.lock 1, .call 1 (.set 7 (.val 3 8)), .call 1 (.getAs 7 3), .unlock 1]

example : Start homes Attributes.natLt maps := by
  refine ⟨?_, ?_, ?_⟩
  · intro v hv
    match v with
    | 0 => exact ⟨_, rfl⟩
    | 1 => exact ⟨_, rfl⟩
    | 2 => cases hv
    | 3 => cases hv
    | 4 => cases hv
    | 5 => cases hv
    | v + 6 => cases hv
  · intro v hv
    match v with
    | 0 => exact absurd rfl hv
    | 1 => exact absurd rfl hv
    | v + 2 => rfl
  · intro v o ho
    match v with
    | 0 => cases ho; exact ⟨sorted_nil _, rfl, rfl⟩
    | 1 => cases ho; exact ⟨sorted_nil _, rfl, rfl⟩
    | v + 2 => cases ho

example : ∀ (t : Nat) (p : List (Stmt Nat Nat)), [first, second][t]? = some p → Guarded homes t [] [] p ∧ Ordered [] p := by
  intro t p h
  match t with
  | 0 => cases h; simp [first, Guarded, Ordered, homes, May, Attributes.Fine]
  | 1 => cases h; simp [second, Guarded, Ordered, homes, May, Attributes.Fine]
  | t + 2 => simp at h

/-- The results of a program, or nothing. -/
def results (x : Out (St Nat Nat)) : Option (List (Nat × Res Nat)) :=
  match x with
  | .ok s => some (s.log.map fun e => (e.1, e.2.2))
  | _ => none

example : results (run dflt Attributes.natLt maps [first, second] [0, 1, 0, 1, 0, 1, 0, 1, 0, 0, 1, 1, 0, 0, 0, 0, 0, 0, 0, 0, 0, 0, 0, 0, 0, 0]) =
    some [(0, .done), (1, .done), (0, .answer (.bool true)), (1, .answer (.bool true)), (0, .answer (.got (.plain 2 1))), (1, .answer (.got (.plain 3 8))), (1, .done),
      (0, .done), (0, .done), (0, .done), (0, .done), (0, .done), (0, .answer (.bool true)), (0, .answer .done), (0, .done)] := by
  decide +kernel

end Verif.AttrThreads
