import Verif.Model.NameGenerator

/-!
# C47: generated names are unique
-/
set_option autoImplicit false

namespace Verif.NameGenerator

/-! ## Specification -/

/-- The property: the names returned by any sequence of calls are pairwise different. -/
def Unique (calls : List Str) : Prop := (run Gen.empty calls).Nodup

/-- No prefix that is used is another one followed by digits. -/
def Unrelated (calls : List Str) : Prop := ∀ p ∈ calls, ∀ t : Str, p ++ t ∈ calls → (∀ c ∈ t, c.isDigit = true) → t = []

/-! ## Proof -/

theorem toStr_inj {a b : Nat} (h : toStr a = toStr b) : a = b := by
  have h1 := Nat.ofDigitChars_toDigits (b := 10) (n := a) (by decide) (by decide)
  have h2 := Nat.ofDigitChars_toDigits (b := 10) (n := b) (by decide) (by decide)
  unfold toStr at h
  rw [h] at h1
  exact h1.symm.trans h2

theorem toStr_digit {n : Nat} {c : Char} (h : c ∈ toStr n) : c.isDigit = true := Nat.isDigit_of_mem_toDigits (by decide) (by decide) h

/-- The names returned: the prefix followed by the number of earlier calls with it. -/
theorem run_get (calls : List Str) : ∀ (g : Gen) (i : Nat) (hi : i < calls.length), (∀ p, counter g p + calls.length ≤ sizeMod) →
    (run g calls)[i]? = some (calls[i] ++ toStr (counter g calls[i] + (calls.take i).count calls[i])) := by
  induction calls with
  | nil => intro g i hi _; simp at hi
  | cons p ps ih =>
    intro g i hi hb
    cases i with
    | zero => simp [run, nextIndexed]
    | succ i =>
      have hp := hb p
      simp only [List.length_cons] at hp
      by_cases hz : ps.length = 0
      · simp [hz] at hi
      · have hlt : counter g p + 1 < sizeMod := by omega
        have hc : ∀ q, counter (nextIndexed g p).2 q = counter g q + (if q = p then 1 else 0) := by
          intro q
          by_cases e : q = p
          · subst e
            rw [if_pos rfl, nextIndexed]
            simp only [counter, Gen.put, if_true]
            exact Nat.mod_eq_of_lt hlt
          · rw [if_neg e, nextIndexed]
            simp only [counter, Gen.put, if_neg e, Nat.add_zero]
        have hi' : i < ps.length := by simpa using hi
        have := ih (nextIndexed g p).2 i hi' (by
          intro q
          rw [hc]
          have := hb q
          simp only [List.length_cons] at this
          split <;> omega)
        simp only [run, List.getElem?_cons_succ, this, List.getElem_cons_succ, List.take_succ_cons, List.count_cons, hc]
        congr 3
        by_cases e : ps[i] = p
        · rw [if_pos e, if_pos (by simp [e])]; omega
        · rw [if_neg e, if_neg (by simp; exact fun k => e k.symm)]; omega

theorem run_length (calls : List Str) : ∀ g, (run g calls).length = calls.length := by
  induction calls with
  | nil => intro g; rfl
  | cons p ps ih => intro g; simp [run, ih]

theorem count_take_lt {calls : List Str} {i j : Nat} (hij : i < j) (hj : j < calls.length) (e : calls[i]'(by omega) = calls[j]) :
    (calls.take i).count calls[j] < (calls.take j).count calls[j] := by
  have hsplit : calls.take j = calls.take i ++ (calls.take j).drop i := by
    have h1 : (calls.take j).take i = calls.take i := by rw [List.take_take]; congr 1; omega
    rw [← h1, List.take_append_drop]
  rw [hsplit, List.count_append]
  have hpos : 0 < ((calls.take j).drop i).count calls[j] := by
    rw [List.count_pos_iff]
    refine List.mem_of_getElem? (i := 0) ?_
    rw [List.getElem?_drop, List.getElem?_take]
    simp only [Nat.add_zero, if_pos hij]
    rw [List.getElem?_eq_getElem (by omega), e]
  omega

theorem append_digits {p q : Str} {a b : Nat} (h : p ++ toStr a = q ++ toStr b) :
    (∃ t : Str, q = p ++ t ∧ ∀ c ∈ t, c.isDigit = true) ∨ (∃ t : Str, p = q ++ t ∧ ∀ c ∈ t, c.isDigit = true) := by
  rcases List.append_eq_append_iff.1 h with ⟨t, h1, h2⟩ | ⟨t, h1, h2⟩
  · exact Or.inl ⟨t, h1, fun c hc => toStr_digit (n := a) (by rw [h2]; simp [hc])⟩
  · exact Or.inr ⟨t, h1, fun c hc => toStr_digit (n := b) (by rw [h2]; simp [hc])⟩

/-- Calls one after another, up to `2^64` of them, with prefixes none of which is another one followed by digits, return different names. -/
theorem C47_partial (calls : List Str) (hlen : calls.length ≤ sizeMod) (hu : Unrelated calls) : Unique calls := by
  unfold Unique
  rw [List.nodup_iff_pairwise_ne, List.pairwise_iff_getElem]
  intro i j hi hj hij heq
  rw [run_length] at hi hj
  have hb : ∀ p, counter Gen.empty p + calls.length ≤ sizeMod := by intro p; simp [counter, Gen.empty]; exact hlen
  have gi := run_get calls Gen.empty i hi hb
  have gj := run_get calls Gen.empty j hj hb
  rw [List.getElem?_eq_getElem (by rw [run_length]; exact hi)] at gi
  rw [List.getElem?_eq_getElem (by rw [run_length]; exact hj)] at gj
  simp only [Option.some.injEq] at gi gj
  rw [gi, gj] at heq
  have hpq : calls[i] = calls[j] := by
    rcases append_digits heq with ⟨t, h1, h2⟩ | ⟨t, h1, h2⟩
    · have := hu calls[i] (List.getElem_mem _) t (h1 ▸ List.getElem_mem _) h2
      rw [h1, this, List.append_nil]
    · have := hu calls[j] (List.getElem_mem _) t (h1 ▸ List.getElem_mem _) h2
      rw [h1, this, List.append_nil]
  have hlt := count_take_lt hij hj hpq
  rw [hpq, List.append_cancel_left_eq] at heq
  have := toStr_inj heq
  omega

/-- The prefixes of the actor system itself, `ask` and `find`, never give the same name, in any order of up to `2^64` calls. -/
theorem C47_system (calls : List Str) (hlen : calls.length ≤ sizeMod) (h : ∀ p ∈ calls, p = ['a', 's', 'k'] ∨ p = ['f', 'i', 'n', 'd']) : Unique calls := by
  refine C47_partial calls hlen ?_
  intro p hp t ht hd
  have h1 := h p hp
  have h2 := h _ ht
  rcases h1 with rfl | rfl <;> rcases h2 with h2 | h2 <;> simp_all

/-- Different prefixes can give the same name. -/
theorem C47_prefix_violated : ¬ Unique (['a', '1'] :: List.replicate 11 ['a']) := by
  unfold Unique; decide +kernel

/-- Two callers at the same time can get the same name, for the same prefix. -/
theorem C47_race_violated : ∃ evs s, runEvs Sys.init evs = some s ∧ ¬ s.names.Nodup ∧ ∀ e ∈ evs, ∀ t p, e = .read t p → p = ['a', 's', 'k'] := by
  refine ⟨[.read 0 ['a', 's', 'k'], .read 1 ['a', 's', 'k'], .write 0, .write 1], _, rfl, by decide +kernel, ?_⟩
  intro e he t p h
  subst h
  simp at he
  rcases he with h | h <;> exact h.2

/-- If every caller finishes before the next one begins, the steps are the calls one after another. -/
theorem C47_serial (s : Sys) (t : Nat) (p : Str) (h : s.pending t = none) :
    ∃ s', runEvs s [.read t p, .write t] = some s' ∧ s'.names = (nextIndexed s.gen p).1 :: s.names ∧ s'.gen = (nextIndexed s.gen p).2 ∧ s'.pending t = none := by
  refine ⟨⟨s.gen.put p ((counter s.gen p + 1) % sizeMod), fun u => if u = t then none else (if u = t then some (p, counter s.gen p) else s.pending u),
    (p ++ toStr (counter s.gen p)) :: s.names⟩, ?_, rfl, rfl, ?_⟩
  · simp only [runEvs, step, h, if_true]
  · simp

example : Unrelated [['a', 's', 'k'], ['f', 'i', 'n', 'd'], ['a', 's', 'k']] := by
  intro p hp t ht hd
  simp at hp ht
  rcases hp with rfl | rfl | rfl <;> simp_all

example : run Gen.empty [['a', 's', 'k'], ['f', 'i', 'n', 'd'], ['a', 's', 'k']] = [['a', 's', 'k', '0'], ['f', 'i', 'n', 'd', '0'], ['a', 's', 'k', '1']] := by decide +kernel

end Verif.NameGenerator
