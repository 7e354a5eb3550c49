import Verif.Model.Selection

/-!
# Facts about the search for actors
-/
set_option autoImplicit false

namespace Verif.Selection
open Verif.ActorPath (Str Scope Elems scopeToStr parce getName)

/-- a message of search `k` -/
def isSel (k : Nat) : Id × Msg → Bool
  | (_, .sel _ (some j)) => j = k
  | _ => false

/-- the queue of one actor -/
def qOf (q : List (Id × Msg)) (a : Id) : List Msg := (q.filter fun e => e.1 = a).map Prod.snd

theorem qOf_append (q p : List (Id × Msg)) (a : Id) : qOf (q ++ p) a = qOf q a ++ qOf p a := by simp [qOf]

theorem mem_qOf {q : List (Id × Msg)} {a : Id} {m : Msg} : m ∈ qOf q a ↔ (a, m) ∈ q := by
  simp [qOf]

theorem pop_some {a : Id} {q q' : List (Id × Msg)} {m : Msg} (h : pop a q = some (m, q')) :
    qOf q a = m :: qOf q' a ∧ (∀ b, b ≠ a → qOf q' b = qOf q b) ∧ (∀ p : Id × Msg → Bool, q.countP p = q'.countP p + (if p (a, m) then 1 else 0)) ∧ (∀ e ∈ q', e ∈ q) ∧ (a, m) ∈ q := by
  induction q generalizing m q' with
  | nil => simp [pop] at h
  | cons e q ih =>
    obtain ⟨b, x⟩ := e
    simp only [pop] at h
    split at h
    · rename_i hb
      subst hb
      simp only [Option.some.injEq, Prod.mk.injEq] at h
      obtain ⟨rfl, rfl⟩ := h
      refine ⟨by simp [qOf], fun c hc => by simp [qOf, Ne.symm hc], fun p => by rw [List.countP_cons], fun e he => by simp [he], by simp⟩
    · rename_i hb
      cases hp : pop a q with
      | none => rw [hp] at h; simp at h
      | some r =>
        obtain ⟨m', q1⟩ := r
        rw [hp] at h
        simp only [Option.map_some, Option.some.injEq, Prod.mk.injEq] at h
        obtain ⟨rfl, rfl⟩ := h
        obtain ⟨h1, h2, h3, h4, h5⟩ := ih hp
        refine ⟨?_, ?_, ?_, ?_, by simp [h5]⟩
        · simp only [qOf] at h1 ⊢
          rw [List.filter_cons_of_neg (by simpa using hb), List.filter_cons_of_neg (by simpa using hb), h1]
        · intro c hc
          have := h2 c hc
          simp only [qOf] at this ⊢
          by_cases hbc : b = c <;> simp [hbc, this]
        · intro p
          rw [List.countP_cons, List.countP_cons, h3 p]; omega
        · intro e he
          rcases List.mem_cons.1 he with rfl | he
          · simp
          · simp [h4 e he]

theorem pop_none {a : Id} {q : List (Id × Msg)} (h : pop a q = none) : qOf q a = [] := by
  induction q with
  | nil => rfl
  | cons e q ih =>
    obtain ⟨b, x⟩ := e
    simp only [pop] at h
    split at h
    · simp at h
    · rename_i hb
      simp only [Option.map_eq_none_iff] at h
      have := ih h
      simp only [qOf] at this ⊢
      rw [List.filter_cons_of_neg (by simpa using hb)]
      exact this

/-- the part of the messages that gets into open mailboxes -/
def arrive (s : St) (ms : List (Id × Msg)) : List (Id × Msg) := ms.filter fun e => !s.closed e.1

theorem send_eq (s : St) (a : Id) (m : Msg) : s.send a m = { s with queue := s.queue ++ arrive s [(a, m)] } := by
  cases h : s.closed a <;> simp [St.send, arrive, h]

theorem sendAll_eq : ∀ (ms : List (Id × Msg)) (s : St), sendAll ms s = { s with queue := s.queue ++ arrive s ms } := by
  intro ms
  induction ms with
  | nil => intro s; simp [sendAll, arrive]
  | cons e ms ih =>
    intro s
    obtain ⟨a, m⟩ := e
    rw [sendAll, ih, send_eq]
    simp only [arrive, List.append_assoc]
    cases h : s.closed a <;> simp [h]

/-- the messages of the loop: one real one and the moved-from ones -/
def fwd (cs : List Id) (rest : List Str) (sender : Option Nat) : List (Id × Msg) :=
  match cs with
  | [] => []
  | c :: cs => (c, .sel rest sender) :: cs.map fun d => (d, .sel [] none)

theorem forward_eq (path : Id → Str) (next : Str) : ∀ (cs : List Id) (rest : List Str) (sender : Option Nat),
    forward path next cs rest sender = fwd (cs.filter fun c => getName (path c) = next) rest sender := by
  intro cs
  induction cs with
  | nil => intro rest sender; rfl
  | cons c cs ih =>
    intro rest sender
    simp only [forward]
    by_cases h : next = getName (path c)
    · rw [if_pos h, List.filter_cons_of_pos (by simpa using h.symm), ih]
      simp only [fwd]
      congr 1
      cases cs.filter fun c => decide (getName (path c) = next) <;> rfl
    · rw [if_neg h, List.filter_cons_of_neg (by simpa using fun e => h e.symm), ih]

theorem fwd_eq_nil {cs : List Id} {rest : List Str} {sender : Option Nat} : fwd cs rest sender = [] ↔ cs = [] := by
  cases cs <;> simp [fwd]

/-- what the handler of `selection` does -/
theorem select_cases (path : Id → Str) (s : St) (a : Id) (rest : List Str) (sender : Option Nat) :
    (rest = [] ∧ select path s a rest sender = s.tell sender (.success a)) ∨
    (∃ rest' next, rest = rest' ++ [next] ∧ (∀ c ∈ s.kids a, getName (path c) ≠ next) ∧ select path s a rest sender = s.tell sender .failure) ∨
    (∃ rest' next c cs, rest = rest' ++ [next] ∧ (s.kids a).filter (fun c => getName (path c) = next) = c :: cs ∧
      select path s a rest sender = { s with queue := s.queue ++ arrive s ((c, .sel rest' sender) :: cs.map fun d => (d, .sel [] none)) }) := by
  rcases List.eq_nil_or_concat rest with rfl | ⟨rest', next, rfl⟩
  · left; exact ⟨rfl, rfl⟩
  · right
    simp only [select, List.getLast?_append, List.getLast?_singleton, Option.some_or, List.dropLast_concat, forward_eq, List.concat_eq_append]
    cases h : (s.kids a).filter (fun c => decide (getName (path c) = next)) with
    | nil =>
      left
      refine ⟨rest', next, rfl, ?_, by simp [fwd]⟩
      intro c hc
      have := (List.filter_eq_nil_iff.1 h) c hc
      simpa using this
    | cons c cs =>
      right
      exact ⟨rest', next, c, cs, rfl, h, by simp [fwd, sendAll_eq]⟩

theorem arrive_count_le (s : St) (ms : List (Id × Msg)) (p : Id × Msg → Bool) : (arrive s ms).countP p ≤ ms.countP p :=
  List.Sublist.countP_le (List.filter_sublist)

theorem mem_arrive {s : St} {ms : List (Id × Msg)} {e : Id × Msg} : e ∈ arrive s ms ↔ e ∈ ms ∧ s.closed e.1 = false := by
  simp [arrive, List.mem_filter]

theorem fwd_count (k : Nat) (c : Id) (cs : List Id) (rest : List Str) (sender : Option Nat) :
    ((c, Msg.sel rest sender) :: cs.map fun d => (d, Msg.sel [] none)).countP (isSel k) = if sender = some k then 1 else 0 := by
  have h0 : (cs.map fun d => (d, Msg.sel [] none)).countP (isSel k) = 0 := by
    rw [List.countP_eq_zero]; intro e he
    obtain ⟨d, -, rfl⟩ := List.mem_map.1 he
    simp [isSel]
  rw [List.countP_cons, h0]
  cases sender with
  | none => simp [isSel]
  | some j => simp [isSel]

end Verif.Selection
