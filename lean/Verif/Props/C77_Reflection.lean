import Mathlib.Order.Nat
import Verif.Lemmas.Reflection
/-!
# C77: what reflection says about a class

Specification: a class is the sequence of its reflected members. `dataMembers` are its data members, each with its position among all
reflected members, counted from 1.
-/
set_option autoImplicit false
set_option linter.unusedSectionVars false

namespace Verif.Reflection

variable {N T β : Type}

/-! ### Specification -/

/-- data members of the class, in the order of declaration, with the position of each one among the reflected members -/
def dataMembers (us : List (Use N T)) : List (Use N T × Nat) := (us.zipIdx 1).filter fun p => p.1.kind == .data

/-- calls of the manager -/
inductive Call (N : Type) where
  | members
  | byName (name : N)

/-- their results -/
inductive Answer (N T : Type) where
  | members (l : List (N × Info N T))
  | info (i : Option (Info N T))

/-- `i` is the description of the member `u`: its name, its type, and how to reach it in every object -/
def Describes (i : Info N T) (u : Use N T) : Prop :=
  i.name = u.name ∧ i.type = u.type ∧ ∀ obj, i.ptr obj = ⟨obj, u.name⟩

/-- the right answer: `members()` is the list of all data members in the order of their names, each under its name; `get_by_name` finds the
data members, and nothing else -/
def Right [LinearOrder N] (us : List (Use N T)) : Call N → Answer N T → Prop
  | .members, .members l =>
    (l.map Prod.fst).Pairwise (· < ·) ∧
      (∀ e ∈ l, ∃ u ∈ us, u.kind = .data ∧ e.1 = u.name ∧ Describes e.2 u) ∧
      ∀ u ∈ us, u.kind = .data → ∃ e ∈ l, e.1 = u.name ∧ Describes e.2 u
  | .byName n, .info (some i) => ∃ u ∈ us, u.kind = .data ∧ u.name = n ∧ Describes i u
  | .byName n, .info none => ∀ u ∈ us, u.kind = .data → u.name ≠ n
  | _, _ => False

/-- one call -/
def call [LinearOrder N] (fail : Nat → Bool) (c : Class N T) (w : World N T) : Call N → Out (Answer N T) × World N T
  | .members => match members fail c w with
    | (.val l, w') => (.val (.members l), w')
    | (.badAlloc, w') => (.badAlloc, w')
    | (.sameName, w') => (.sameName, w')
  | .byName n => match getByName fail c n w with
    | (.val i, w') => (.val (.info i), w')
    | (.badAlloc, w') => (.badAlloc, w')
    | (.sameName, w') => (.sameName, w')

/-- a history of calls, and how each of them ended -/
def calls [LinearOrder N] (fail : Nat → Bool) (c : Class N T) : World N T → List (Call N) → List (Call N × Out (Answer N T))
  | _, [] => []
  | w, q :: qs => (q, (call fail c w q).1) :: calls fail c (call fail c w q).2 qs

/-! ### Registration -/

/-- what is to be registered -/
def infos (us : List (Use N T)) : List (Info N T) :=
  us.filterMap fun u => match u.kind with | .data => some ⟨u.name, u.name, u.type⟩ | .function => none

theorem infos_snoc (us : List (Use N T)) (u : Use N T) :
    infos (us ++ [u]) = infos us ++ (match u.kind with | .data => [⟨u.name, u.name, u.type⟩] | .function => []) := by
  simp only [infos, List.filterMap_append]
  congr 1
  cases h : u.kind <;> simp [h]

def registerAll [LinearOrder N] (fail : Nat → Bool) : List (Info N T) → Manager N T → Nat → Out Unit × Manager N T × Nat
  | [], m, t => (.val (), m, t)
  | i :: is, m, t => match registerMember fail i m t with
    | (.val (), m', t') => registerAll fail is m' t'
    | r => r

theorem registerAll_append [LinearOrder N] (fail : Nat → Bool) (i : Info N T) : ∀ (is : List (Info N T)) (m : Manager N T) (t : Nat),
    registerAll fail (is ++ [i]) m t = match registerAll fail is m t with
      | (.val (), m', t') => registerMember fail i m' t'
      | r => r
  | [], m, t => by
    simp only [List.nil_append, registerAll]
    rcases registerMember fail i m t with ⟨o, m', t'⟩
    cases o <;> rfl
  | j :: is, m, t => by
    simp only [List.cons_append, registerAll]
    rcases registerMember fail j m t with ⟨o, m', t'⟩
    cases o
    · exact registerAll_append fail i is m' t'
    · rfl
    · rfl

theorem runtimeRegister_eq [LinearOrder N] (fail : Nat → Bool) {c : Class N T} {us : List (Use N T)} (h : Inv c us) :
    ∀ (n : Nat) (m : Manager N T) (t : Nat), runtimeRegister fail c.registers n m t = registerAll fail (infos (us.take n)) m t
  | 0, m, t => by simp [runtimeRegister, infos, registerAll]
  | n + 1, m, t => by
    have hr := h.registers (n + 1)
    rw [if_neg (Nat.succ_ne_zero n)] at hr
    simp only [runtimeRegister]
    rw [hr]
    by_cases hn : n < us.length
    · have h1 : us.take (n + 1) = us.take n ++ [us[n]] := by rw [List.take_add_one]; simp [hn]
      have h2 : nth us (n + 1) = some us[n] := by simp [nth, hn]
      rw [h1, h2]
      cases hk : us[n].kind with
      | data =>
        have h3 : infos (us.take n ++ [us[n]]) = infos (us.take n) ++ [⟨us[n].name, us[n].name, us[n].type⟩] := by rw [infos_snoc, hk]
        rw [h3, registerAll_append, ← runtimeRegister_eq fail h n m t]
        simp only [Option.bind_some, hk]
        rcases runtimeRegister fail c.registers n m t with ⟨o, m', t'⟩
        cases o <;> rfl
      | function =>
        have h3 : infos (us.take n ++ [us[n]]) = infos (us.take n) := by rw [infos_snoc, hk]; simp
        rw [h3, ← runtimeRegister_eq fail h n m t]
        simp [hk]
    · have h4 : us.take (n + 1) = us.take n := by rw [List.take_of_length_le (by omega), List.take_of_length_le (by omega)]
      rw [h4, nth_none us (n + 1) (by omega), ← runtimeRegister_eq fail h n m t]
      rfl

/-- the map after registration of `is` -/
def build [LinearOrder N] (is : List (Info N T)) : List (N × Info N T) := is.foldl (fun l i => insertNode (i.name, i) l) []

theorem build_snoc [LinearOrder N] (is : List (Info N T)) (i : Info N T) : build (is ++ [i]) = insertNode (i.name, i) (build is) := by
  simp [build]

theorem mem_insertNode [LinearOrder N] (e x : N × Info N T) : ∀ l : List (N × Info N T), x ∈ insertNode e l ↔ x = e ∨ x ∈ l
  | [] => by simp [insertNode]
  | y :: l => by
    simp only [insertNode]
    split
    · simp
    · simp only [List.mem_cons, mem_insertNode e x l]
      constructor
      · rintro (h | h | h)
        · exact .inr (.inl h)
        · exact .inl h
        · exact .inr (.inr h)
      · rintro (h | h | h)
        · exact .inr (.inl h)
        · exact .inl h
        · exact .inr (.inr h)

theorem mem_build [LinearOrder N] (is : List (Info N T)) (x : N × Info N T) : x ∈ build is ↔ ∃ i ∈ is, x = (i.name, i) := by
  rcases List.eq_nil_or_concat is with rfl | ⟨is, i, rfl⟩
  · simp [build]
  · rw [List.concat_eq_append, build_snoc, mem_insertNode, mem_build is x]
    constructor
    · rintro (h | ⟨j, hj, h⟩)
      · exact ⟨i, by simp, h⟩
      · exact ⟨j, by simp [hj], h⟩
    · rintro ⟨j, hj, h⟩
      simp only [List.mem_append, List.mem_cons, List.not_mem_nil, or_false] at hj
      rcases hj with hj | hj
      · exact .inr ⟨j, hj, h⟩
      · subst hj; exact .inl h
termination_by is.length
decreasing_by subst_vars; simp

theorem sorted_insertNode [LinearOrder N] (e : N × Info N T) : ∀ l : List (N × Info N T), (l.map Prod.fst).Pairwise (· < ·) →
    e.1 ∉ l.map Prod.fst → ((insertNode e l).map Prod.fst).Pairwise (· < ·)
  | [], _, _ => by simp [insertNode]
  | y :: l, h, hn => by
    simp only [List.map_cons, List.pairwise_cons, List.mem_cons, not_or] at h hn
    simp only [insertNode]
    split
    · rename_i hlt
      simp only [List.map_cons, List.pairwise_cons, List.mem_cons]
      refine ⟨?_, h.1, h.2⟩
      rintro a (ha | ha)
      · rw [ha]; exact hlt
      · exact lt_trans hlt (h.1 a ha)
    · rename_i hlt
      simp only [List.map_cons, List.pairwise_cons]
      refine ⟨?_, sorted_insertNode e l h.2 hn.2⟩
      intro a ha
      rw [List.mem_map] at ha
      obtain ⟨x, hx, rfl⟩ := ha
      rw [mem_insertNode] at hx
      rcases hx with rfl | hx
      · exact lt_of_le_of_ne (not_lt.1 hlt) (fun e' => hn.1 e'.symm)
      · exact h.1 _ (List.mem_map.2 ⟨x, hx, rfl⟩)

theorem keys_build [LinearOrder N] (is : List (Info N T)) (n : N) : n ∈ (build is).map Prod.fst ↔ n ∈ is.map Info.name := by
  simp only [List.mem_map]
  constructor
  · rintro ⟨e, he, rfl⟩
    obtain ⟨i, hi, rfl⟩ := (mem_build is e).1 he
    exact ⟨i, hi, rfl⟩
  · rintro ⟨i, hi, rfl⟩
    exact ⟨_, (mem_build is _).2 ⟨i, hi, rfl⟩, rfl⟩

theorem sorted_build [LinearOrder N] (is : List (Info N T)) (h : (is.map Info.name).Nodup) :
    ((build is).map Prod.fst).Pairwise (· < ·) := by
  rcases List.eq_nil_or_concat is with rfl | ⟨is, i, rfl⟩
  · simp [build]
  · rw [List.concat_eq_append, List.map_append, List.nodup_append] at h
    rw [List.concat_eq_append, build_snoc]
    apply sorted_insertNode _ _ (sorted_build is h.1)
    rw [keys_build]
    intro hm
    exact h.2.2 _ hm _ (by simp) rfl
termination_by is.length
decreasing_by subst_vars; simp

/-- registration of the members that are not there yet: it ends well, or stops after some of them -/
theorem registerAll_spec [LinearOrder N] (fail : Nat → Bool) : ∀ (suf pre : List (Info N T)) (m : Manager N T) (t : Nat),
    m.members = build pre → ((pre ++ suf).map Info.name).Nodup →
    ∃ o m' t', registerAll fail suf m t = (o, m', t') ∧ m'.inited = m.inited ∧
      ((o = .val () ∧ m'.members = build (pre ++ suf)) ∨
        (o = .badAlloc ∧ (∃ s, fail s = true) ∧ ∃ j, m'.members = build (pre ++ suf.take j)))
  | [], pre, m, t, hm, _ => ⟨.val (), m, t, rfl, rfl, .inl ⟨rfl, by simpa using hm⟩⟩
  | i :: suf, pre, m, t, hm, hn => by
    by_cases hf : fail t = true
    · refine ⟨.badAlloc, m, t + 1, ?_, rfl, .inr ⟨rfl, ⟨t, hf⟩, 0, by simpa using hm⟩⟩
      simp [registerAll, registerMember, hf]
    · have hnew : (m.members.find? fun e => e.1 == i.name) = none := by
        rw [List.find?_eq_none]
        intro e he
        rw [hm] at he
        obtain ⟨j, hj, rfl⟩ := (mem_build pre e).1 he
        rw [List.map_append, List.nodup_append] at hn
        simpa using hn.2.2 j.name (List.mem_map.2 ⟨j, hj, rfl⟩) i.name (by simp)
      have hr : registerMember fail i m t = (.val (), { m with members := insertNode (i.name, i) m.members }, t + 1) := by
        simp [registerMember, hf, hnew]
      obtain ⟨o, m', t', h1, h2, h3⟩ := registerAll_spec fail suf (pre ++ [i]) { m with members := insertNode (i.name, i) m.members } (t + 1)
        (by rw [build_snoc, hm]) (by simpa using hn)
      refine ⟨o, m', t', ?_, h2, ?_⟩
      · simp only [registerAll, hr, h1]
      · rcases h3 with ⟨rfl, h4⟩ | ⟨rfl, h5, j, h4⟩
        · exact .inl ⟨rfl, by simpa using h4⟩
        · exact .inr ⟨rfl, h5, j + 1, by simpa using h4⟩

/-- registration when the first member is there already -/
theorem registerAll_again [LinearOrder N] (fail : Nat → Bool) (i : Info N T) (is : List (Info N T)) (m : Manager N T) (t : Nat)
    (h : i.name ∈ m.members.map Prod.fst) : ∃ o, registerAll fail (i :: is) m t = (o, m, t + 1) ∧ o ≠ .val () := by
  by_cases hf : fail t = true
  · exact ⟨.badAlloc, by simp [registerAll, registerMember, hf], by simp⟩
  · refine ⟨.sameName, ?_, by simp⟩
    have : (m.members.find? fun e => e.1 == i.name).isSome = true := by
      rw [List.find?_isSome]
      obtain ⟨e, he, h1⟩ := List.mem_map.1 h
      exact ⟨e, he, by simpa using h1⟩
    simp [registerAll, registerMember, hf, this]

/-- managers that occur -/
def Occurs [LinearOrder N] (us : List (Use N T)) (w : World N T) : Prop :=
  ∀ m, w.instance? = some m → (∃ j, m.members = build ((infos us).take j)) ∧ (m.inited = true → m.members = build (infos us))

theorem infos_nodup (us : List (Use N T)) (h : (us.map Use.name).Nodup) : ((infos us).map Info.name).Nodup := by
  have : ((infos us).map Info.name).Sublist (us.map Use.name) := by
    clear h
    induction us with
    | nil => simp [infos]
    | cons u us ih =>
      cases hk : u.kind with
      | data => simpa [infos, hk] using ih
      | function =>
        have : infos (u :: us) = infos us := by simp [infos, hk]
        rw [this]
        exact ih.trans (by simp)
  exact this.nodup h

theorem checkInited_spec [LinearOrder N] (fail : Nat → Bool) {c : Class N T} {us : List (Use N T)} (h : Inv c us)
    (hn : (us.map Use.name).Nodup) (hl : us.length ≤ 255) (m : Manager N T) (t : Nat)
    (hm : (∃ j, m.members = build ((infos us).take j)) ∧ (m.inited = true → m.members = build (infos us))) :
    ∃ o m' t', checkInited fail c m t = (o, m', t') ∧
      ((∃ j, m'.members = build ((infos us).take j)) ∧ (m'.inited = true → m'.members = build (infos us))) ∧
      (o = .val () → m'.members = build (infos us) ∧ m'.inited = true) ∧
      (m.members = [] ∨ m.inited = true → (∀ s, fail s = false) → o = .val ()) := by
  by_cases hi : m.inited = true
  · exact ⟨.val (), m, t, by simp [checkInited, hi], hm, fun _ => ⟨hm.2 hi, hi⟩, fun _ _ => rfl⟩
  · have hi' : m.inited = false := by simpa using hi
    have hall : infos (us.take maxCounter) = infos us := by rw [List.take_of_length_le (by simpa [maxCounter] using hl)]
    obtain ⟨j, hj⟩ := hm.1
    by_cases he : m.members = []
    · obtain ⟨o, m', t', h1, h2, h3⟩ := registerAll_spec fail (infos us) [] m t (by rw [he]; rfl) (by simpa using infos_nodup us hn)
      rw [List.nil_append] at h3
      have hrun : runtimeRegister fail c.registers maxCounter m t = (o, m', t') := by rw [runtimeRegister_eq fail h, hall, h1]
      rcases h3 with ⟨rfl, h4⟩ | ⟨rfl, h5, k, h4⟩
      · refine ⟨.val (), { m' with inited := true }, t', ?_, ⟨⟨(infos us).length, ?_⟩, fun _ => h4⟩, fun _ => ⟨h4, rfl⟩, fun _ _ => rfl⟩
        · simp only [checkInited, hi', hrun]; rfl
        · rw [List.take_of_length_le (Nat.le_refl _)]; exact h4
      · refine ⟨.badAlloc, m', t', ?_, ⟨⟨k, by simpa using h4⟩, ?_⟩, (fun e => by cases e), ?_⟩
        · simp only [checkInited, hi', hrun]; rfl
        · intro e; rw [h2, hi'] at e; cases e
        · intro _ hf
          obtain ⟨s, hs⟩ := h5
          rw [hf s] at hs; cases hs
    · cases hinf : infos us with
      | nil => rw [hinf] at hj; simp [build] at hj; exact absurd hj he
      | cons i is =>
        have hk : i.name ∈ m.members.map Prod.fst := by
          cases j with
          | zero => exact absurd (by rw [hj]; simp [build]) he
          | succ j => rw [hj, keys_build, hinf]; simp
        obtain ⟨o, h1, h2⟩ := registerAll_again fail i is m t hk
        have hrun : runtimeRegister fail c.registers maxCounter m t = (o, m, t + 1) := by rw [runtimeRegister_eq fail h, hall, hinf, h1]
        rw [← hinf]
        refine ⟨o, m, t + 1, ?_, hm, fun e => absurd e h2, ?_⟩
        · simp only [checkInited, hi', hrun]
          cases o
          · exact absurd rfl h2
          · rfl
          · rfl
        · rintro (e | e)
          · exact absurd e he
          · exact absurd e hi

/-- a manager that is not initialized holds nothing: no registration failed half-way -/
def Clean (w : World N T) : Prop := ∀ m, w.instance? = some m → m.members = [] ∨ m.inited = true

theorem ask_spec [LinearOrder N] (fail : Nat → Bool) {c : Class N T} {us : List (Use N T)} (h : Inv c us)
    (hn : (us.map Use.name).Nodup) (hl : us.length ≤ 255) (answer : List (N × Info N T) → β) (w : World N T) (hw : Occurs us w) :
    Occurs us (ask fail c answer w).2 ∧ (∀ b, (ask fail c answer w).1 = .val b → b = answer (build (infos us))) ∧
      ((∀ s, fail s = false) → Clean w → (ask fail c answer w).1 = .val (answer (build (infos us))) ∧ Clean (ask fail c answer w).2) := by
  have key : ∀ (m : Manager N T) (t : Nat) (w' : World N T) (_ : w' = ⟨some m, t⟩)
      (_ : (∃ j, m.members = build ((infos us).take j)) ∧ (m.inited = true → m.members = build (infos us)))
      (_ : getInstance fail w = (.val m, w')),
      Occurs us (ask fail c answer w).2 ∧ (∀ b, (ask fail c answer w).1 = .val b → b = answer (build (infos us))) ∧
      ((∀ s, fail s = false) → (m.members = [] ∨ m.inited = true) →
        (ask fail c answer w).1 = .val (answer (build (infos us))) ∧ Clean (ask fail c answer w).2) := by
    intro m t w' hw' hm hg
    subst hw'
    obtain ⟨o, m', t', h1, h2, h3, h4⟩ := checkInited_spec fail h hn hl m t hm
    simp only [ask, hg, h1]
    cases o with
    | val u =>
      obtain ⟨⟩ := u
      obtain ⟨h5, h6⟩ := h3 rfl
      simp only
      refine ⟨?_, ?_, ?_⟩
      · intro x hx; cases hx; exact h2
      · intro b hb; rw [h5] at hb; exact (Out.val.inj hb).symm
      · intro _ _
        refine ⟨by rw [h5], ?_⟩
        intro x hx; cases hx; exact .inr h6
    | badAlloc =>
      refine ⟨?_, (fun b hb => by cases hb), ?_⟩
      · intro x hx; cases hx; exact h2
      · intro hf hc; cases h4 hc hf
    | sameName =>
      refine ⟨?_, (fun b hb => by cases hb), ?_⟩
      · intro x hx; cases hx; exact h2
      · intro hf hc; cases h4 hc hf
  obtain ⟨inst, t⟩ := w
  cases inst with
  | some m =>
    obtain ⟨k1, k2, k3⟩ := key m t ⟨some m, t⟩ rfl (hw m rfl) rfl
    exact ⟨k1, k2, fun hf hc => k3 hf (hc m rfl)⟩
  | none =>
    by_cases hf : fail t = true
    · have hg : getInstance fail (⟨none, t⟩ : World N T) = (.badAlloc, ⟨none, t + 1⟩) := by simp [getInstance, hf]
      simp only [ask, hg]
      refine ⟨?_, (fun b hb => by cases hb), ?_⟩
      · intro x hx; cases hx
      · intro h0; rw [h0 t] at hf; cases hf
    · have hg : getInstance fail (⟨none, t⟩ : World N T) = (.val ⟨[], false⟩, ⟨some ⟨[], false⟩, t + 1⟩) := by simp [getInstance, hf]
      obtain ⟨k1, k2, k3⟩ := key ⟨[], false⟩ (t + 1) ⟨some ⟨[], false⟩, t + 1⟩ rfl ⟨⟨0, by simp [build]⟩, (fun e => by cases e)⟩ hg
      exact ⟨k1, k2, fun h0 _ => k3 h0 (.inl rfl)⟩

theorem mem_infos (us : List (Use N T)) (i : Info N T) : i ∈ infos us ↔ ∃ u ∈ us, u.kind = .data ∧ i = ⟨u.name, u.name, u.type⟩ := by
  simp only [infos, List.mem_filterMap]
  constructor
  · rintro ⟨u, hu, h⟩
    cases hk : u.kind with
    | data => rw [hk] at h; exact ⟨u, hu, hk, (Option.some.inj h).symm⟩
    | function => rw [hk] at h; cases h
  · rintro ⟨u, hu, hk, rfl⟩
    exact ⟨u, hu, by rw [hk]⟩

theorem right_members [LinearOrder N] (us : List (Use N T)) (hn : (us.map Use.name).Nodup) :
    Right us .members (.members (build (infos us))) := by
  refine ⟨sorted_build _ (infos_nodup us hn), ?_, ?_⟩
  · intro e he
    obtain ⟨i, hi, rfl⟩ := (mem_build _ _).1 he
    obtain ⟨u, hu, hk, rfl⟩ := (mem_infos us i).1 hi
    exact ⟨u, hu, hk, rfl, rfl, rfl, fun _ => rfl⟩
  · intro u hu hk
    exact ⟨_, (mem_build _ _).2 ⟨_, (mem_infos us _).2 ⟨u, hu, hk, rfl⟩, rfl⟩, rfl, rfl, rfl, fun _ => rfl⟩

theorem right_byName [LinearOrder N] (us : List (Use N T)) (n : N) :
    Right us (.byName n) (.info (((build (infos us)).find? fun e => e.1 == n).map Prod.snd)) := by
  cases hf : (build (infos us)).find? fun e => e.1 == n with
  | none =>
    rw [List.find?_eq_none] at hf
    intro u hu hk hun
    have := hf _ ((mem_build _ _).2 ⟨_, (mem_infos us _).2 ⟨u, hu, hk, rfl⟩, rfl⟩)
    simp [hun] at this
  | some e =>
    have h1 := List.mem_of_find?_eq_some hf
    have h2 := List.find?_some hf
    obtain ⟨i, hi, rfl⟩ := (mem_build _ _).1 h1
    obtain ⟨u, hu, hk, rfl⟩ := (mem_infos us i).1 hi
    exact ⟨u, hu, hk, by simpa using h2, rfl, rfl, fun _ => rfl⟩

theorem call_spec [LinearOrder N] (fail : Nat → Bool) {c : Class N T} {us : List (Use N T)} (h : Inv c us)
    (hn : (us.map Use.name).Nodup) (hl : us.length ≤ 255) (q : Call N) (w : World N T) (hw : Occurs us w) :
    Occurs us (call fail c w q).2 ∧ (∀ a, (call fail c w q).1 = .val a → Right us q a) ∧
      ((∀ s, fail s = false) → Clean w → (∃ a, (call fail c w q).1 = .val a) ∧ Clean (call fail c w q).2) := by
  cases q with
  | members =>
    have hs := ask_spec fail h hn hl (fun ms => ms) w hw
    simp only [call, members]
    generalize ask fail c (fun ms => ms) w = r at hs
    obtain ⟨o, w'⟩ := r
    cases o with
    | val l =>
      refine ⟨hs.1, ?_, fun h0 h1 => ⟨⟨_, rfl⟩, (hs.2.2 h0 h1).2⟩⟩
      intro a ha
      cases ha
      rw [hs.2.1 l rfl]
      exact right_members us hn
    | badAlloc => exact ⟨hs.1, (fun a ha => by cases ha), (fun h0 h1 => by cases (hs.2.2 h0 h1).1)⟩
    | sameName => exact ⟨hs.1, (fun a ha => by cases ha), (fun h0 h1 => by cases (hs.2.2 h0 h1).1)⟩
  | byName n =>
    have hs := ask_spec fail h hn hl (fun ms => (ms.find? fun e => e.1 == n).map Prod.snd) w hw
    simp only [call, getByName]
    generalize ask fail c (fun ms => (ms.find? fun e => e.1 == n).map Prod.snd) w = r at hs
    obtain ⟨o, w'⟩ := r
    cases o with
    | val l =>
      refine ⟨hs.1, ?_, fun h0 h1 => ⟨⟨_, rfl⟩, (hs.2.2 h0 h1).2⟩⟩
      intro a ha
      cases ha
      rw [hs.2.1 l rfl]
      exact right_byName us n
    | badAlloc => exact ⟨hs.1, (fun a ha => by cases ha), (fun h0 h1 => by cases (hs.2.2 h0 h1).1)⟩
    | sameName => exact ⟨hs.1, (fun a ha => by cases ha), (fun h0 h1 => by cases (hs.2.2 h0 h1).1)⟩

theorem calls_right [LinearOrder N] (fail : Nat → Bool) {c : Class N T} {us : List (Use N T)} (h : Inv c us)
    (hn : (us.map Use.name).Nodup) (hl : us.length ≤ 255) : ∀ (qs : List (Call N)) (w : World N T), Occurs us w →
    ∀ q a, (q, Out.val a) ∈ calls fail c w qs → Right us q a
  | [], _, _, q, a, hm => by simp [calls] at hm
  | q' :: qs, w, hw, q, a, hm => by
    obtain ⟨h1, h2, _⟩ := call_spec fail h hn hl q' w hw
    simp only [calls, List.mem_cons, Prod.mk.injEq] at hm
    rcases hm with ⟨rfl, he⟩ | hm
    · exact h2 a he.symm
    · exact calls_right fail h hn hl qs _ h1 q a hm

theorem calls_val [LinearOrder N] (fail : Nat → Bool) (hf : ∀ s, fail s = false) {c : Class N T} {us : List (Use N T)} (h : Inv c us)
    (hn : (us.map Use.name).Nodup) (hl : us.length ≤ 255) : ∀ (qs : List (Call N)) (w : World N T), Occurs us w → Clean w →
    ∀ q o, (q, o) ∈ calls fail c w qs → ∃ a, o = .val a
  | [], _, _, _, q, o, hm => by simp [calls] at hm
  | q' :: qs, w, hw, hc, q, o, hm => by
    obtain ⟨h1, _, h3⟩ := call_spec fail h hn hl q' w hw
    obtain ⟨⟨a, ha⟩, h4⟩ := h3 hf hc
    simp only [calls, List.mem_cons, Prod.mk.injEq] at hm
    rcases hm with ⟨rfl, he⟩ | hm
    · exact ⟨a, he.trans ha⟩
    · exact calls_val fail hf h hn hl qs _ h1 h4 q o hm

/-! ### C77 -/

/-- C77 (compile time). A class compiles exactly if the names of its reflected members differ and there are at most 255 of them. Its list of
data members holds the data members in the order of declaration, with their types and positions, and a data member is public for
reflection exactly if it was reflected in a public section. Missing from the full property: the list of member functions, see
`C77_functions_violated`. -/
theorem C77_static_partial [DecidableEq N] (us : List (Use N T)) :
    ((compile us).isSome = true ↔ (us.map Use.name).Nodup ∧ us.length ≤ 255) ∧
    ∀ c, compile us = some c →
      c.dataMembersList = some ((dataMembers us).map fun p => ⟨.data, p.1.type, p.2⟩) ∧
      ∀ p ∈ dataMembers us, (c.isPublic p.2 = true ↔ p.1.access = .pub) := by
  refine ⟨?_, ?_⟩
  · constructor
    · intro h
      obtain ⟨c, hc⟩ := Option.isSome_iff_exists.1 h
      exact (compile_inv hc).2
    · intro h
      obtain ⟨c, hc, _⟩ := compile_ok us h.1 h.2
      rw [hc]; rfl
  · intro c hc
    obtain ⟨h1, h2, h3⟩ := compile_inv hc
    constructor
    · rw [Class.dataMembersList, resolve_data h1, List.take_of_length_le (by simpa [maxCounter] using h3)]
      congr 1
      simp only [entries, dataMembers]
      generalize us.zipIdx 1 = l
      induction l with
      | nil => rfl
      | cons p l ih =>
        cases hk : p.1.kind with
        | data => simp [hk, ih]
        | function => simp [hk, ih]
    · rintro ⟨u, n⟩ hp
      simp only [dataMembers, List.mem_filter, List.mem_zipIdx_iff_getElem?, beq_iff_eq] at hp
      obtain ⟨hp, hk⟩ := hp
      obtain ⟨h4, h5⟩ := List.mem_zipIdx_iff_le_and_getElem?_sub.1 hp
      have : nth us n = some u := by
        cases n with
        | zero => omega
        | succ n => simpa [nth] using h5
      simp only [Class.isPublic, h1.tags, this, Option.bind_some, hk]
      simp

/-- C77 (run time). Whatever calls are made, and whichever allocations fail, a call that returns gives the right answer: all data members
in the order of their names, or the one with the name asked for. -/
theorem C77_answers [LinearOrder N] (us : List (Use N T)) (c : Class N T) (hc : compile us = some c) (fail : Nat → Bool)
    (qs : List (Call N)) (q : Call N) (a : Answer N T) (h : (q, Out.val a) ∈ calls fail c .init qs) : Right us q a := by
  obtain ⟨h1, h2, h3⟩ := compile_inv hc
  exact calls_right fail h1 h2 h3 qs .init (fun m hm => by cases hm) q a h

/-- C77 (run time). If no allocation fails, all calls return. Missing from the full property: calls after a failure, see
`C77_retry_violated`. -/
theorem C77_returns_partial [LinearOrder N] (us : List (Use N T)) (c : Class N T) (hc : compile us = some c) (fail : Nat → Bool)
    (hf : ∀ s, fail s = false) (qs : List (Call N)) (q : Call N) (o : Out (Answer N T)) (h : (q, o) ∈ calls fail c .init qs) :
    ∃ a, o = .val a ∧ Right us q a := by
  obtain ⟨h1, h2, h3⟩ := compile_inv hc
  obtain ⟨a, ha⟩ := calls_val fail hf h1 h2 h3 qs .init (fun m hm => by cases hm) (fun m hm => by cases hm) q o h
  subst ha
  exact ⟨a, rfl, calls_right fail h1 h2 h3 qs .init (fun m hm => by cases hm) q a h⟩

/-- False of the code: the list of member functions of a class with a data member and two functions holds the data member, and only one
of the functions. -/
theorem C77_functions_violated : ∃ (us : List (Use Nat Nat)) (c : Class Nat Nat), compile us = some c ∧
    us.map Use.kind = [.data, .function, .function] ∧
    c.memberFunctionsList = some [⟨.data, 10, 1⟩, ⟨.function, 12, 3⟩] :=
  ⟨[⟨.data, 0, 10, .pub⟩, ⟨.function, 1, 11, .pub⟩, ⟨.function, 2, 12, .pub⟩], _, rfl, by decide, by decide⟩

/-- False of the code: if memory runs out while the second of two members is registered, then every later call throws, although memory
is available again. -/
theorem C77_retry_violated : ∃ (us : List (Use Nat Nat)) (c : Class Nat Nat) (w : World Nat Nat), compile us = some c ∧
    call (fun t => t == 2) c .init .members = (.badAlloc, w) ∧
    ∀ q, (call (fun _ => false) c w q).1 = .sameName ∧ (call (fun _ => false) c w q).2.instance? = w.instance? := by
  refine ⟨[⟨.data, 0, 10, .pub⟩, ⟨.data, 1, 11, .pub⟩], _, ⟨some ⟨[(0, ⟨0, 0, 10⟩)], false⟩, 3⟩, rfl, rfl, ?_⟩
  intro q
  cases q <;> exact ⟨rfl, rfl⟩

/-- False of the code: `as_ptr`, documented as an access with a check of the type, gives a pointer to `int` (2) for a member of type
`float` (1), and does not compile for any class (3). -/
theorem C77_as_ptr_violated : ∃ (us : List (Use Nat Nat)) (c : Class Nat Nat) (i : Info Nat Nat) (w : World Nat Nat), compile us = some c ∧
    getByName (fun _ => false) c 0 .init = (.val (some i), w) ∧ us.map Use.type = [1] ∧
    i.asPtr (fun t => t == 3) 2 7 = some (⟨7, 0⟩, 2) ∧ i.asPtr (fun t => t == 3) 3 7 = none :=
  ⟨[⟨.data, 0, 1, .pub⟩], _, _, _, rfl, rfl, rfl, rfl, rfl⟩

/-! ### The hypotheses can be met -/

/-- `class Foo { x (private int); g(); y (public float); f(); z (protected) }` of tests/source/test_reflection.cpp -/
def foo : List (Use Nat Nat) :=
  [⟨.data, 24, 1, .priv⟩, ⟨.function, 7, 2, .priv⟩, ⟨.data, 25, 3, .pub⟩, ⟨.function, 6, 4, .pub⟩, ⟨.data, 5, 5, .prot⟩]

example : ((compile foo).bind Class.dataMembersList) = some [⟨.data, 1, 1⟩, ⟨.data, 3, 3⟩, ⟨.data, 5, 5⟩] ∧
    (compile foo).map (fun c => (c.isPublic 1, c.isPublic 3, c.isPublic 5)) = some (false, true, false) ∧
    dataMembers foo = [(⟨.data, 24, 1, .priv⟩, 1), (⟨.data, 25, 3, .pub⟩, 3), (⟨.data, 5, 5, .prot⟩, 5)] := by decide

example : (compile foo).map (fun c => (members (fun _ => false) c .init).1) =
    some (.val [(5, ⟨5, 5, 5⟩), (24, ⟨24, 24, 1⟩), (25, ⟨25, 25, 3⟩)]) := by decide +kernel

example : (compile foo).map (fun c => (getByName (fun _ => false) c 7 .init).1) = some (.val none) ∧
    (compile foo).map (fun c => (getByName (fun _ => false) c 25 .init).1) = some (.val (some ⟨25, 25, 3⟩)) := by
  constructor <;> decide +kernel

end Verif.Reflection
