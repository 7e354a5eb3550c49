import Verif.Model.VectorFrom
import Verif.Lemmas.VectorObjs
import Verif.Lemmas.Views

/-!
Lemmas about the constructors from nested lists and views: what they copy is one sequence of values.
-/
set_option autoImplicit false
set_option linter.unusedSectionVars false

namespace Verif.VectorNd
open Verif.Views (Desc allIdx elem Rows Shape Tight)
variable {α : Type}

/-- Copy the values one after the other and end with `fin`, unless a copy throws. -/
def planRun (b : Nat) (vals : List α) (fin : Out) (dst : Nat) : M α (Nat × Out) := do
  let r ← copyLoop b dst (vals.map Src.val)
  pure (if r.2 then (r.1, fin) else (r.1, .threw))

theorem bind_none {β γ : Type} {m : M α β} {f : β → M α γ} {h : Heap α} (e : m h = none) : (m >>= f) h = none := by
  show M.bind m f h = none
  simp only [M.bind, e]

theorem planRun_none {b dst : Nat} {vals : List α} {fin : Out} {h : Heap α} (e : copyLoop b dst (vals.map Src.val) h = none) :
    planRun b vals fin dst h = none := bind_none e

theorem planRun_some {b dst : Nat} {vals : List α} {fin : Out} {h h' : Heap α} {r : Nat × Bool}
    (e : copyLoop b dst (vals.map Src.val) h = some (r, h')) :
    planRun b vals fin dst h = some (if r.2 then (r.1, fin) else (r.1, .threw), h') := by
  rw [planRun, bind_some e, pure_run]

theorem planRun_nil (b : Nat) (fin : Out) (dst : Nat) : planRun b ([] : List α) fin dst = pure (dst, fin) := rfl

theorem planRun_append (b : Nat) (xs ys : List α) (fin : Out) (dst : Nat) :
    planRun b (xs ++ ys) fin dst = (planRun b xs .ok dst >>= fun r => if r.2 = .ok then planRun b ys fin r.1 else pure r) := by
  funext h
  have ha := copyLoop_append b (xs.map Src.val) (ys.map Src.val) dst h
  rw [← List.map_append] at ha
  cases e : copyLoop b dst (xs.map Src.val) h with
  | none =>
    rw [bind_none e] at ha
    rw [planRun_none ha, bind_none (planRun_none e)]
  | some r =>
    obtain ⟨⟨d1, ok⟩, h1⟩ := r
    rw [bind_some e] at ha
    rw [bind_some (planRun_some e)]
    cases ok with
    | false =>
      simp only [Bool.false_eq_true, if_false, pure_run] at ha ⊢
      rw [planRun_some ha]
      simp [pure_run]
    | true =>
      simp only [if_true] at ha ⊢
      cases e2 : copyLoop b d1 (ys.map Src.val) h1 with
      | none => rw [e2] at ha; rw [planRun_none ha, planRun_none e2]
      | some q => rw [e2] at ha; rw [planRun_some ha, planRun_some e2]

/-- The parts of a source one after the other, up to the first one that is refused. -/
def seqPlan : List (List α × Out) → List α × Out
  | [] => ([], .ok)
  | (v, o) :: r => if o = .ok then (v ++ (seqPlan r).1, (seqPlan r).2) else (v, o)

theorem each_plan {β : Type} {f : β → Nat → M α (Nat × Out)} {b : Nat} {g : β → List α × Out} : ∀ (xs : List β),
    (∀ x ∈ xs, f x = planRun b (g x).1 (g x).2) → (∀ x ∈ xs, (g x).2 ≠ .threw) →
    each f xs = planRun b (seqPlan (xs.map g)).1 (seqPlan (xs.map g)).2
  | [], _, _ => rfl
  | x :: xs, hf, ht => by
    have ih := each_plan xs (fun y hy => hf y (List.mem_cons_of_mem _ hy)) (fun y hy => ht y (List.mem_cons_of_mem _ hy))
    funext dst
    simp only [each, List.map_cons, seqPlan]
    rw [hf x (by simp), ih]
    by_cases ho : (g x).2 = .ok
    · rw [if_pos ho, ho, planRun_append]
    · rw [if_neg ho]
      funext h
      cases e : copyLoop b dst ((g x).1.map Src.val) h with
      | none => rw [bind_none (planRun_none e), planRun_none e]
      | some r =>
        obtain ⟨⟨d1, ok⟩, h1⟩ := r
        rw [bind_some (planRun_some e), planRun_some e]
        cases ok with
        | true => simp only [if_true, if_neg ho, pure_run]
        | false => simp [pure_run]

theorem seqPlan_ok : ∀ (ps : List (List α × Out)), (seqPlan ps).2 = .ok ↔ ∀ q ∈ ps, q.2 = .ok
  | [] => by simp [seqPlan]
  | (v, o) :: r => by
    simp only [seqPlan]
    by_cases ho : o = .ok
    · simp [if_pos ho, ho, seqPlan_ok r]
    · simp [if_neg ho, ho]

theorem seqPlan_vals : ∀ (ps : List (List α × Out)), (∀ q ∈ ps, q.2 = .ok) → (seqPlan ps).1 = ps.flatMap Prod.fst
  | [], _ => rfl
  | (v, o) :: r, h => by
    have ho : o = .ok := h (v, o) (by simp)
    simp only [seqPlan, if_pos ho, List.flatMap_cons]
    rw [seqPlan_vals r (fun q hq => h q (List.mem_cons_of_mem _ hq))]

theorem seqPlan_end {o : Out} : ∀ (ps : List (List α × Out)), (∀ q ∈ ps, q.2 = .ok ∨ q.2 = o) → (seqPlan ps).2 = .ok ∨ (seqPlan ps).2 = o
  | [], _ => Or.inl rfl
  | (v, p) :: r, h => by
    simp only [seqPlan]
    by_cases hp : p = .ok
    · rw [if_pos hp]; exact seqPlan_end r (fun q hq => h q (List.mem_cons_of_mem _ hq))
    · rw [if_neg hp]; exact h (v, p) (by simp)

theorem seqPlan_length {m : Nat} : ∀ (ps : List (List α × Out)), (∀ q ∈ ps, q.1.length ≤ m) → (seqPlan ps).1.length ≤ ps.length * m
  | [], _ => by simp [seqPlan]
  | (v, o) :: r, h => by
    have h1 := h (v, o) (by simp)
    have h2 := seqPlan_length r (fun q hq => h q (List.mem_cons_of_mem _ hq))
    have h3 : ((v, o) :: r).length * m = r.length * m + m := by rw [List.length_cons, Nat.succ_mul]
    simp only [seqPlan]
    rw [h3]
    split
    · simp only [List.length_append]; dsimp only at h1; omega
    · dsimp only at h1 ⊢; omega

/-! ### Filling new storage -/

theorem initBy_spec {h : Heap α} (w : WfH h) {total : Nat} (h0 : total ≠ 0) {vals : List α} {fin : Out} (hl : vals.length ≤ total)
    {copy : Nat → Nat → M α (Nat × Out)} (hc : ∀ nb, copy nb = planRun nb vals fin) :
    ∃ out rv h', initBy total copy h = some ((out, rv), h') ∧ Evolves h RV.null h' rv ∧
      ((out = .ok ∧ fin = .ok ∧ HasList h' rv vals) ∨ (out = .threw ∧ rv = RV.null ∧ CanFail h) ∨ (out = fin ∧ fin ≠ .ok ∧ rv = RV.null)) := by
  rw [initBy, if_neg h0]
  rcases allocate_spec w h0 with ⟨nb, h1, e1, a, _⟩ | ⟨h1, e1, s, hf⟩
  · have hr : Reads h1 (vals.map Src.val) vals := Reads.vals vals
    have hl' : (vals.map (Src.val (α := α))).length ≤ total := by simpa using hl
    rw [bind_some e1]
    simp only [hc]
    rcases fillNew_spec w (hasList_null h) a hr hl' with ⟨h2, e2, u2, _⟩ | ⟨k, h2, e2, ht, hx⟩
    · rw [bind_some (planRun_some e2)]
      simp only [if_true]
      by_cases hok : fin = .ok
      · rw [if_pos hok]
        obtain ⟨ev, ho, _⟩ := realloc_null (rv := RV.null) rfl a u2 (slots_length hl) (Nat.pos_of_ne_zero h0)
        exact ⟨.ok, ⟨some nb, total⟩, h2, rfl, ev, Or.inl ⟨rfl, hok, ho, hl⟩⟩
      · rw [if_neg hok]
        have hb : h2.blk nb = some (vals.map some ++ List.replicate (total - vals.length) none) := u2.here
        obtain ⟨h3, e3, f3⟩ := free_spec (size := (vals.map (Src.val (α := α))).length) (fin, RV.null) hb hl (by simp)
        obtain ⟨ev, _⟩ := realloc_fail (rv := RV.null) w a u2 f3 (hasList_null h).1
        exact ⟨fin, RV.null, h3, e3, ev, Or.inr (Or.inr ⟨rfl, hok, rfl⟩)⟩
    · rw [bind_some (planRun_some e2)]
      obtain ⟨h3, e3, ev, _⟩ := hx ((Out.threw, RV.null))
      refine ⟨.threw, RV.null, h3, ?_, ev, Or.inr (Or.inl ⟨rfl, rfl, Or.inl ht⟩)⟩
      simpa using e3
  · rw [bind_some e1]
    exact ⟨.threw, RV.null, h1, rfl, s.evolves w, Or.inr (Or.inl ⟨rfl, rfl, Or.inr ⟨_, hf⟩⟩)⟩

theorem evolves_null {h h' : Heap α} (e : Evolves h RV.null h' RV.null) : h'.blk = h.blk := by
  funext b
  exact e.frame b (by simp [RV.null]) (by simp [RV.null])

/-! ### Nested lists -/

/-- What is copied from an innermost list, and whether it is refused in the end. -/
def rowPlan (n : Nat) (l : List α) : List α × Out :=
  if n - l.length ≠ 0 then
    match l.getLast? with
    | none => ([], .argumentError)
    | some a => (l ++ List.replicate (n - l.length) a, .ok)
  else (l, .ok)

/-- What is copied from a nested list, and whether it is refused in the end. -/
def nlPlan : (d : Nat) → List Nat → NL α d → List α × Out
  | _, [], _ => ([], .ok)
  | 0, n :: _, (l : List α) => rowPlan n l
  | d + 1, n :: ns, (l : List (NL α d)) => if n ≠ l.length then ([], .argumentError) else seqPlan (l.map (nlPlan d ns))

/-- The sizes bound the innermost lists, and there is one for every level. -/
def Fits : (d : Nat) → List Nat → NL α d → Prop
  | _, [], _ => False
  | 0, n :: _, (l : List α) => l.length ≤ n
  | d + 1, _ :: ns, (l : List (NL α d)) => ns ≠ [] ∧ ∀ x ∈ l, Fits d ns x

theorem rowPlan_end (n : Nat) (l : List α) : (rowPlan n l).2 = .ok ∨ (rowPlan n l).2 = .argumentError := by
  rw [rowPlan]
  by_cases hn : n - l.length ≠ 0
  · rw [if_pos hn]
    cases l.getLast? <;> simp
  · rw [if_neg hn]; exact Or.inl rfl

theorem rowPlan_length {n : Nat} {l : List α} (h : l.length ≤ n) : (rowPlan n l).1.length ≤ n := by
  rw [rowPlan]
  by_cases hn : n - l.length ≠ 0
  · rw [if_pos hn]
    cases l.getLast? with
    | none => exact Nat.zero_le _
    | some a => simp only [List.length_append, List.length_replicate]; omega
  · rw [if_neg hn]; exact h

theorem copyRow_plan (b : Nat) {n : Nat} {l : List α} (hf : l.length ≤ n) : copyRow b n l = planRun b (rowPlan n l).1 (rowPlan n l).2 := by
  funext dst
  rw [copyRow, rowPlan, if_neg (by omega)]
  by_cases hn : n - l.length ≠ 0
  · rw [if_pos hn]
    simp only [if_pos hn]
    cases hg : l.getLast? with
    | none =>
      have : l = [] := List.getLast?_eq_none_iff.mp hg
      subst this
      rfl
    | some a =>
      funext h
      show _ = planRun b (l ++ List.replicate (n - l.length) a) .ok dst h
      rw [planRun_append]
      cases e : copyLoop b dst (l.map Src.val) h with
      | none => rw [bind_none e, bind_none (planRun_none e)]
      | some r =>
        obtain ⟨⟨d1, ok⟩, h1⟩ := r
        rw [bind_some e, bind_some (planRun_some e)]
        cases ok with
        | false => rfl
        | true =>
          simp only [if_true]
          have hrep : List.replicate (n - l.length) (Src.val a) = (List.replicate (n - l.length) a).map Src.val := by
            simp
          rw [hrep]
          cases e2 : copyLoop b d1 ((List.replicate (n - l.length) a).map Src.val) h1 with
          | none => rw [bind_none e2, planRun_none e2]
          | some q =>
            obtain ⟨⟨d2, ok2⟩, h2⟩ := q
            rw [bind_some e2, planRun_some e2, pure_run, ended]
            cases ok2 <;> rfl
  · rw [if_neg hn]
    simp only [if_neg hn]
    funext h
    cases e : copyLoop b dst (l.map Src.val) h with
    | none => rw [bind_none e, planRun_none e]
    | some r =>
      obtain ⟨⟨d1, ok⟩, h1⟩ := r
      rw [bind_some e, planRun_some e]
      cases ok <;> rfl

theorem nlPlan_end : ∀ (d : Nat) (ns : List Nat) (l : NL α d), (nlPlan d ns l).2 = .ok ∨ (nlPlan d ns l).2 = .argumentError
  | 0, [], _ => Or.inl rfl
  | _ + 1, [], _ => Or.inl rfl
  | 0, n :: ns, l => rowPlan_end n l
  | d + 1, n :: ns, l => by
    have key : ∀ l : List (NL α d), (nlPlan (d + 1) (n :: ns) l).2 = .ok ∨ (nlPlan (d + 1) (n :: ns) l).2 = .argumentError := by
      intro l
      simp only [nlPlan]
      split
      · exact Or.inr rfl
      · refine seqPlan_end _ ?_
        intro q hq
        obtain ⟨x, _, rfl⟩ := List.mem_map.mp hq
        exact nlPlan_end d ns x
    exact key l

theorem nlPlan_length : ∀ (d : Nat) (ns : List Nat) (l : NL α d), Fits d ns l → ns.length = d + 1 → (nlPlan d ns l).1.length ≤ prodL ns
  | _, [], _, _, hl => by simp at hl
  | 0, n :: ns, l, hf, hl => by
    have : ns = [] := List.length_eq_zero_iff.mp (by simpa using hl)
    subst this
    have hp : prodL [n] = n := by simp [prodL]
    rw [hp]
    exact rowPlan_length hf
  | d + 1, n :: ns, l, hf, hl => by
    have key : ∀ l : List (NL α d), (∀ x ∈ l, Fits d ns x) → (nlPlan (d + 1) (n :: ns) l).1.length ≤ prodL (n :: ns) := by
      intro l hf
      simp only [nlPlan]
      split
      · exact Nat.zero_le _
      · rename_i hn
        have hn' : n = l.length := by simpa using hn
        have := seqPlan_length (m := prodL ns) (l.map (nlPlan d ns)) (by
          intro q hq
          obtain ⟨x, hx, rfl⟩ := List.mem_map.mp hq
          exact nlPlan_length d ns x (hf x hx) (by simpa using hl))
        rw [List.length_map, ← hn'] at this; exact this
    exact key l hf.2

theorem copyIL_plan (b : Nat) : ∀ (d : Nat) (ns : List Nat) (l : NL α d), Fits d ns l →
    copyIL b d ns l = planRun b (nlPlan d ns l).1 (nlPlan d ns l).2
  | 0, [], _, h => h.elim
  | _ + 1, [], _, h => h.elim
  | 0, n :: ns, l, hf => copyRow_plan b hf
  | d + 1, n :: ns, l, hf => by
    have key : ∀ l : List (NL α d), (∀ x ∈ l, Fits d ns x) →
        copyIL b (d + 1) (n :: ns) l = planRun b (nlPlan (d + 1) (n :: ns) l).1 (nlPlan (d + 1) (n :: ns) l).2 := by
      intro l hf
      funext dst
      simp only [copyIL, nlPlan]
      by_cases hn : n ≠ l.length
      · rw [if_pos hn, if_pos hn, planRun_nil]
      · rw [if_neg hn, if_neg hn]
        rw [each_plan (b := b) (g := nlPlan d ns) l (fun x hx => copyIL_plan b d ns x (hf x hx))]
        intro x _ hx
        rcases nlPlan_end d ns x with h | h <;> rw [h] at hx <;> cases hx
    exact key l hf.2

end Verif.VectorNd
