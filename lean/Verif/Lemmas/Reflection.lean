import Verif.Model.Reflection
import Verif.Props.C35_Meta
/-!
Lemmas about the reflection of classes: what the overloads declared by the macros are after each macro, and what registration does.
-/
set_option autoImplicit false
set_option linter.unusedSectionVars false

namespace Verif.Reflection

variable {N T β : Type}

/-! ### Overloads -/

theorem lookup_append_one (l : Overloads β) (n : Nat) (b : β) (m : Nat) (h : l.lookup n = none) :
    (l ++ [(n, b)]).lookup m = if m = n then some b else l.lookup m := by
  induction l with
  | nil =>
    by_cases hm : m = n
    · subst hm; simp [List.lookup]
    · simp only [List.nil_append, List.lookup, if_neg hm]
      have : (m == n) = false := by simpa using hm
      rw [this]
  | cons e l ih =>
    obtain ⟨k, v⟩ := e
    by_cases hk : n = k
    · subst hk; simp [List.lookup] at h
    · have hk' : (n == k) = false := by simpa using hk
      simp only [List.lookup, hk'] at h
      simp only [List.cons_append, List.lookup]
      by_cases hmk : m = k
      · subst hmk
        have : m ≠ n := fun e => hk e.symm
        simp [this]
      · have hmk' : (m == k) = false := by simpa using hmk
        simp only [hmk']
        exact ih h

theorem declare_new (l : Overloads β) (n : Nat) (b : β) (h : l.lookup n = none) : declare l n b = some (l ++ [(n, b)]) := by
  simp [declare, h]

theorem declare_old (l : Overloads β) (n : Nat) (b x : β) (h : l.lookup n = some x) : declare l n b = none := by
  simp [declare, h]

/-- the `n`-th macro, counted from 1 -/
def nth (us : List (Use N T)) : Nat → Option (Use N T)
  | 0 => none
  | n + 1 => us[n]?

theorem nth_append (us : List (Use N T)) (u : Use N T) (m : Nat) :
    nth (us ++ [u]) m = if m = us.length + 1 then some u else nth us m := by
  cases m with
  | zero => simp [nth]
  | succ m =>
    simp only [nth]
    by_cases h : m = us.length
    · simp [h]
    · rw [if_neg (by omega), List.getElem?_append]
      by_cases h2 : m < us.length
      · rw [if_pos h2]
      · rw [if_neg h2, List.getElem?_eq_none (by simp; omega), List.getElem?_eq_none (by omega)]

theorem nth_none (us : List (Use N T)) (m : Nat) (h : us.length < m) : nth us m = none := by
  cases m with
  | zero => rfl
  | succ m => simp only [nth]; exact List.getElem?_eq_none (by omega)

/-- data members with their numbers -/
def entries (us : List (Use N T)) : List (Entry T) :=
  (us.zipIdx 1).filterMap fun p => match p.1.kind with
    | .data => some ⟨.data, p.1.type, p.2⟩
    | .function => none

theorem entries_append (us : List (Use N T)) (u : Use N T) :
    entries (us ++ [u]) = entries us ++ (match u.kind with | .data => [⟨.data, u.type, us.length + 1⟩] | .function => []) := by
  simp only [entries, List.zipIdx_append, List.filterMap_append, List.zipIdx_cons, List.zipIdx_nil]
  congr 1
  cases h : u.kind <;> simp [h, Nat.add_comm]

/-- what overloads are declared by the macros `us` -/
structure Inv (c : Class N T) (us : List (Use N T)) : Prop where
  names : c.names = us.map Use.name
  counters : ∀ n, c.counters.lookup n = if 1 ≤ n ∧ n ≤ us.length + 1 then some n else none
  data : ∀ n, c.dataGetter.lookup n = if n = 0 then some [] else
    (nth us n).bind fun u => match u.kind with | .data => some (entries (us.take n)) | .function => none
  functions : ∀ n, us.length < n → c.functionsGetter.lookup n = none
  registers : ∀ n, c.registers.lookup n = if n = 0 then some none else
    (nth us n).bind fun u => match u.kind with | .data => some (some ⟨u.name, u.name, u.type⟩) | .function => none
  tags : ∀ n, c.tags.lookup n = (nth us n).bind fun u => match u.kind with | .data => some u.access | .function => none

theorem inv_base : Inv (Class.base : Class N T) [] where
  names := rfl
  counters := by
    intro n
    by_cases h : n = 1
    · subst h; rfl
    · rw [if_neg (by simp; omega)]
      have : (n == 1) = false := by simpa using h
      simp [Class.base, List.lookup, this]
  data := by
    intro n
    cases n with
    | zero => rfl
    | succ n => simp [Class.base, List.lookup, nth]
  functions := by
    intro n hn
    cases n with
    | zero => simp at hn
    | succ n => simp [Class.base, List.lookup]
  registers := by
    intro n
    cases n with
    | zero => rfl
    | succ n => simp [Class.base, List.lookup, nth]
  tags := by intro n; cases n <;> simp [Class.base, List.lookup, nth]

theorem resolve_counters {c : Class N T} {us : List (Use N T)} (h : Inv c us) :
    ∀ n, 1 ≤ n → resolve c.counters n = some (min n (us.length + 1)) := by
  intro n
  induction n with
  | zero => intro h1; omega
  | succ n ih =>
    intro _
    simp only [resolve, h.counters]
    by_cases hn : n + 1 ≤ us.length + 1
    · rw [if_pos ⟨by omega, hn⟩]
      simp only
      congr 1; omega
    · rw [if_neg (by omega)]
      simp only
      rw [ih (by omega)]
      congr 1; omega

theorem take_snoc_entries (us : List (Use N T)) (n : Nat) :
    entries (us.take (n + 1)) = entries (us.take n) ++
      (match nth us (n + 1) with | some u => (match u.kind with | .data => [⟨.data, u.type, n + 1⟩] | .function => []) | none => []) := by
  by_cases h : n < us.length
  · have h1 : us.take (n + 1) = us.take n ++ [us[n]] := by rw [List.take_add_one]; simp [h]
    rw [h1, entries_append]
    simp only [nth, List.getElem?_eq_getElem h, List.length_take]
    have : min n us.length = n := by omega
    rw [this]
  · rw [List.take_of_length_le (by omega), List.take_of_length_le (by omega), nth_none us (n + 1) (by omega)]
    simp

theorem resolve_data {c : Class N T} {us : List (Use N T)} (h : Inv c us) :
    ∀ n, resolve c.dataGetter n = some (entries (us.take n)) := by
  intro n
  induction n with
  | zero => simp [resolve, h.data, entries]
  | succ n ih =>
    simp only [resolve, h.data, if_neg (Nat.succ_ne_zero n)]
    rw [ih, take_snoc_entries]
    cases hu : nth us (n + 1) with
    | none => simp
    | some u => cases hk : u.kind <;> simp [hk]

theorem nth_take_append (us : List (Use N T)) (u : Use N T) (n : Nat) (h : n ≤ us.length) : (us ++ [u]).take n = us.take n :=
  List.take_append_of_le_length h

theorem inv_reflect [DecidableEq N] {c : Class N T} {us : List (Use N T)} (h : Inv c us) (u : Use N T) (hn : u.name ∉ us.map Use.name)
    (hl : us.length < 255) : ∃ c', c.reflect u = some c' ∧ Inv c' (us ++ [u]) := by
  have hidx : resolve c.counters maxCounter = some (us.length + 1) := by
    rw [resolve_counters h maxCounter (by simp [maxCounter])]
    simp only [maxCounter]; congr 1; omega
  have hc : c.counters.lookup (us.length + 1 + 1) = none := by rw [h.counters, if_neg (by omega)]
  have hcount : ∀ n, (c.counters ++ [(us.length + 1 + 1, us.length + 1 + 1)]).lookup n =
      if 1 ≤ n ∧ n ≤ (us ++ [u]).length + 1 then some n else none := by
    intro n
    rw [lookup_append_one _ _ _ _ hc, h.counters]
    simp only [List.length_append, List.length_cons, List.length_nil]
    by_cases h1 : n = us.length + 1 + 1
    · subst h1; simp
    · rw [if_neg h1]
      by_cases h2 : 1 ≤ n ∧ n ≤ us.length + 1
      · rw [if_pos h2, if_pos (by omega)]
      · rw [if_neg h2, if_neg (by omega)]
  have hnth : nth us (us.length + 1) = none := nth_none us _ (by omega)
  have hbefore : resolve c.dataGetter (us.length + 1 - 1) = some (entries us) := by
    rw [resolve_data h]; simp
  have hd : c.dataGetter.lookup (us.length + 1) = none := by rw [h.data, hnth]; simp
  have hr : c.registers.lookup (us.length + 1) = none := by rw [h.registers, hnth]; simp
  have ht : c.tags.lookup (us.length + 1) = none := by rw [h.tags, hnth]; simp
  have hf : c.functionsGetter.lookup (us.length + 1) = none := h.functions _ (by omega)
  simp only [Class.reflect]
  rw [if_neg (by rw [h.names]; exact hn)]
  have key : ∀ n, n ≠ us.length + 1 → nth (us ++ [u]) n = nth us n := by
    intro n hne; rw [nth_append, if_neg hne]
  have keyAt : nth (us ++ [u]) (us.length + 1) = some u := by rw [nth_append, if_pos rfl]
  have takeEq : ∀ n v, nth us n = some v → (us ++ [u]).take n = us.take n := by
    intro n v hv
    apply nth_take_append
    rcases Nat.lt_or_ge us.length n with h1 | h1
    · rw [nth_none us n h1] at hv; cases hv
    · exact h1
  cases hk : u.kind with
  | data =>
    simp only [Class.reflectVar, hidx, hbefore, declare_new _ _ _ hc, declare_new _ _ _ hd, declare_new _ _ _ hr, declare_new _ _ _ ht,
      Option.bind_eq_bind, Option.bind_some, Option.pure_def]
    refine ⟨_, rfl, ⟨?_, hcount, ?_, ?_, ?_, ?_⟩⟩
    · simp [h.names]
    · intro n
      rw [lookup_append_one _ _ _ _ hd]
      by_cases h1 : n = us.length + 1
      · subst h1
        rw [if_pos rfl, if_neg (Nat.succ_ne_zero _), keyAt]
        simp only [Option.bind_some, hk, Meta.pushBack_eq, List.nil_append]
        rw [List.take_of_length_le (by simp), entries_append, hk]
      · rw [if_neg h1, h.data, key n h1]
        cases hv : nth us n with
        | none => rfl
        | some v => rw [takeEq n v hv]
    · intro n hn'
      exact h.functions n (by simp at hn'; omega)
    · intro n
      rw [lookup_append_one _ _ _ _ hr]
      by_cases h1 : n = us.length + 1
      · subst h1
        rw [if_pos rfl, if_neg (Nat.succ_ne_zero _), keyAt]
        simp [hk]
      · rw [if_neg h1, h.registers, key n h1]
    · intro n
      rw [lookup_append_one _ _ _ _ ht]
      by_cases h1 : n = us.length + 1
      · subst h1
        rw [if_pos rfl, keyAt]
        simp [hk]
      · rw [if_neg h1, h.tags, key n h1]
  | function =>
    simp only [Class.reflectMethod, hidx, hbefore, declare_new _ _ _ hc, declare_new _ _ _ hf,
      Option.bind_eq_bind, Option.bind_some, Option.pure_def]
    refine ⟨_, rfl, ⟨?_, hcount, ?_, ?_, ?_, ?_⟩⟩
    · simp [h.names]
    · intro n
      rw [h.data]
      by_cases h1 : n = us.length + 1
      · subst h1
        rw [if_neg (Nat.succ_ne_zero _), if_neg (Nat.succ_ne_zero _), keyAt, hnth]
        simp [hk]
      · rw [key n h1]
        cases hv : nth us n with
        | none => rfl
        | some v => rw [takeEq n v hv]
    · intro n hn'
      simp only [List.length_append, List.length_cons, List.length_nil] at hn'
      rw [lookup_append_one _ _ _ _ hf, if_neg (by omega)]
      exact h.functions n (by omega)
    · intro n
      rw [h.registers]
      by_cases h1 : n = us.length + 1
      · subst h1
        rw [if_neg (Nat.succ_ne_zero _), if_neg (Nat.succ_ne_zero _), keyAt, hnth]
        simp [hk]
      · rw [key n h1]
    · intro n
      rw [h.tags]
      by_cases h1 : n = us.length + 1
      · subst h1; rw [keyAt, hnth]; simp [hk]
      · rw [key n h1]

theorem reflect_full [DecidableEq N] {c : Class N T} {us : List (Use N T)} (h : Inv c us) (u : Use N T)
    (hl : us.length = 255) : c.reflect u = none := by
  have hidx : resolve c.counters maxCounter = some 255 := by
    rw [resolve_counters h maxCounter (by simp [maxCounter])]
    simp only [maxCounter]; congr 1; omega
  have hc : declare c.counters (255 + 1) (255 + 1) = none := declare_old _ _ _ 256 (by rw [h.counters, if_pos (by omega)])
  simp only [Class.reflect]
  split
  · rfl
  · cases u.kind <;> simp [Class.reflectVar, Class.reflectMethod, hidx, hc]

theorem reflect_dup [DecidableEq N] {c : Class N T} {us : List (Use N T)} (h : Inv c us) (u : Use N T)
    (hn : u.name ∈ us.map Use.name) : c.reflect u = none := by
  simp only [Class.reflect]
  rw [if_pos (by rw [h.names]; exact hn)]

theorem compileFrom_ok [DecidableEq N] : ∀ (vs : List (Use N T)) {c : Class N T} {us : List (Use N T)} (_ : Inv c us)
    (_ : ((us ++ vs).map Use.name).Nodup) (_ : (us ++ vs).length ≤ 255), ∃ c', compileFrom c vs = some c' ∧ Inv c' (us ++ vs)
  | [], c, us, h, _, _ => ⟨c, rfl, by simpa using h⟩
  | v :: vs, c, us, h, hn, hl => by
    have hv : v.name ∉ us.map Use.name := by
      intro hm
      rw [List.map_append, List.nodup_append] at hn
      exact hn.2.2 _ hm _ (by simp) rfl
    obtain ⟨c', h1, h2⟩ := inv_reflect h v hv (by simp at hl; omega)
    obtain ⟨c'', h3, h4⟩ := compileFrom_ok vs h2 (by simpa using hn) (by simpa using hl)
    refine ⟨c'', ?_, by simpa using h4⟩
    simp only [compileFrom, h1, Option.bind_eq_bind, Option.bind_some, h3]

theorem compileFrom_bad [DecidableEq N] : ∀ (vs : List (Use N T)) {c : Class N T} {us : List (Use N T)} (_ : Inv c us)
    (_ : (us.map Use.name).Nodup) (_ : us.length ≤ 255) (_ : ¬ (((us ++ vs).map Use.name).Nodup ∧ (us ++ vs).length ≤ 255)),
    compileFrom c vs = none
  | [], c, us, h, h1, h2, hb => (hb ⟨by simpa using h1, by simpa using h2⟩).elim
  | v :: vs, c, us, h, h1, h2, hb => by
    by_cases hv : v.name ∈ us.map Use.name
    · simp [compileFrom, reflect_dup h v hv]
    · by_cases hl : us.length = 255
      · simp [compileFrom, reflect_full h v hl]
      · obtain ⟨c', h3, h4⟩ := inv_reflect h v hv (by omega)
        simp only [compileFrom, h3, Option.bind_eq_bind, Option.bind_some]
        refine compileFrom_bad vs h4 ?_ (by simp; omega) (by simpa using hb)
        rw [List.map_append, List.nodup_append]
        refine ⟨h1, by simp, ?_⟩
        intro a ha b hb' e
        simp at hb'
        subst e; subst hb'
        exact hv ha

theorem compile_ok [DecidableEq N] (us : List (Use N T)) (hn : (us.map Use.name).Nodup) (hl : us.length ≤ 255) :
    ∃ c, compile us = some c ∧ Inv c us :=
  compileFrom_ok us inv_base (by simpa using hn) (by simpa using hl)

theorem compile_bad [DecidableEq N] (us : List (Use N T)) (h : ¬ ((us.map Use.name).Nodup ∧ us.length ≤ 255)) : compile us = none :=
  compileFrom_bad us inv_base (by simp) (by simp) (by simpa using h)

theorem compile_inv [DecidableEq N] {us : List (Use N T)} {c : Class N T} (h : compile us = some c) :
    Inv c us ∧ (us.map Use.name).Nodup ∧ us.length ≤ 255 := by
  by_cases hb : (us.map Use.name).Nodup ∧ us.length ≤ 255
  · obtain ⟨c', h1, h2⟩ := compile_ok us hb.1 hb.2
    rw [h] at h1; cases h1
    exact ⟨h2, hb⟩
  · rw [compile_bad us hb] at h; cases h

end Verif.Reflection
