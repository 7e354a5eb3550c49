import Verif.Lemmas.Selection
import Verif.Props.C36_ActorPath

/-!
# C68: `find` finds the actor that has the path
-/
set_option autoImplicit false
set_option linter.unusedSectionVars false

namespace Verif.Selection
open Verif.ActorPath (Str Scope Elems scopeToStr parce getName)

variable {path : Id → Str}

/-! ## Specification -/

/-- An execution from `s0` whose events satisfy `ok`: the states before the last one, the newest first, and the last one. -/
inductive Exec (path : Id → Str) (ok : Ev → Prop) (s0 : St) : List St → St → Prop
  | init : Exec path ok s0 [] s0
  | step {h : List St} {s : St} {e : Ev} : Exec path ok s0 h s → ok e → Exec path ok s0 (s :: h) (step path s e)

/-- In the history `h` one can walk from the root to `a` along the names: each time, the next actor was a child of the one before, with the right name. -/
inductive Went (path : Id → Str) : List St → List Str → Id → Prop
  | start (h : List St) : Went path h [] root
  | down {h : List St} {s : St} {done : List Str} {a c : Id} : Went path h done a → c ∈ s.kids a → Went path (s :: h) (done ++ [getName (path c)]) c
  | later {h : List St} {s : St} {done : List Str} {a : Id} : Went path h done a → Went path (s :: h) done a

/-- In the history `h` one can walk some way along the names to an actor that had then no child with the next name. -/
inductive Gap (path : Id → Str) : List St → List Str → Prop
  | here {h : List St} {s : St} {done rest : List Str} {a : Id} {next : Str} : Went path h done a → (∀ c ∈ s.kids a, getName (path c) ≠ next) → Gap path (s :: h) (done ++ next :: rest)
  | later {h : List St} {s : St} {names : List Str} : Gap path h names → Gap path (s :: h) names

/-- search `k` has not been seen yet -/
structure Fresh (k : Nat) (s : St) : Prop where
  queue : ∀ a rest, (a, Msg.sel rest (some k)) ∉ s.queue
  user : ∀ l, Add.selector k l ∉ s.rootUsr
  starting : ∀ l, (k, l) ∉ s.starting
  replies : ∀ r, (k, r) ∉ s.replies

/-- search `k` is on its way -/
def Pending (k : Nat) (s : St) : Prop := (∃ a rest, (a, Msg.sel rest (some k)) ∈ s.queue) ∨ (∃ l, Add.selector k l ∈ s.rootUsr) ∨ ∃ l, (k, l) ∈ s.starting

/-- the answers that the caller of search `k` got -/
def answers (k : Nat) (s : St) : List Reply := (s.replies.filter fun e => e.1 = k).map Prod.snd

/-- the actors `r 0`, `r 1`, …, `r n` and the names of all but the first -/
def namesOf (path : Id → Str) (r : Nat → Id) (n : Nat) : List Str := (List.range n).map fun i => getName (path (r (i + 1)))

/-- Each actor of the route was created below the one before: it is a child of it, or `attach_child` or `root_add` have been sent. There is no other child of this name, none of these actors has stopped or is about to. -/
structure Placed (path : Id → Str) (r : Nat → Id) (n : Nat) (s : St) : Prop where
  root : r 0 = root
  place : ∀ i, i < n → r (i + 1) ∈ s.kids (r i) ∨ (r i, .attach (r (i + 1))) ∈ s.queue ∨ .actor (r i) (r (i + 1)) ∈ s.rootUsr
  sole : ∀ i, i < n → ∀ c, getName (path c) = getName (path (r (i + 1))) → (c ∈ s.kids (r i) ∨ (r i, .attach c) ∈ s.queue ∨ .actor (r i) c ∈ s.rootUsr) → c = r (i + 1)
  stay : ∀ i, i < n → ∀ c, (r i, .detach c) ∈ s.queue → path c ≠ path (r (i + 1))
  isOpen : ∀ i, i ≤ n → s.closed (r i) = false
  takes : ∀ i, i < n → s.stopping (r i) = false

/-- From now on no actor of the route stops, and no other actor with the same name and parent is created. -/
def Undisturbed (path : Id → Str) (r : Nat → Id) (n : Nat) (k : Nat) : Ev → Prop
  | .find j _ => j ≠ k
  | .close a => ∀ i, i ≤ n → a ≠ r i
  | .stopping a => ∀ i, i < n → a ≠ r i
  | .gone p c => ∀ i, i < n → p = r i → path c ≠ path (r (i + 1))
  | .createChild p c => ∀ i, i < n → p = r i → getName (path c) = getName (path (r (i + 1))) → c = r (i + 1)
  | .createTop p c => ∀ i, i < n → p = r i → getName (path c) = getName (path (r (i + 1))) → c = r (i + 1)
  | _ => True

/-- The paths of the route `r 1`, …, `r n` are those that creation gives: `r 1` is the guardian of the scope, `r 2` a top level actor, each later one a child of the one before. -/
inductive Made (path : Id → Str) (r : Nat → Id) (system : Str) (scope : Scope) : Nat → List Str → Prop
  | top {name : Str} : ActorPath.isValidActorName name = true → ActorPath.build system scope name = some (path (r 2)) → getName (path (r 1)) = scopeToStr scope → Made path r system scope 2 [name]
  | child {i : Nat} {names : List Str} {name : Str} : Made path r system scope i names → ActorPath.isValidActorName name = true → path (r (i + 1)) = ActorPath.join (path (r i)) name →
      Made path r system scope (i + 1) (names ++ [name])

/-! ## Proof: at most one answer -/

def isUser (k : Nat) : Add → Bool
  | .selector j _ => j = k
  | _ => false

/-- how often search `k` occurs -/
def T (k : Nat) (s : St) : Nat := s.queue.countP (isSel k) + s.rootUsr.countP (isUser k) + s.starting.countP (fun e => e.1 = k) + s.replies.countP (fun e => e.1 = k)

theorem isSel_iff {k : Nat} {e : Id × Msg} : isSel k e = true ↔ ∃ rest, e.2 = .sel rest (some k) := by
  obtain ⟨a, m⟩ := e
  cases m with
  | sel rest sender => cases sender <;> simp [isSel]
  | _ => simp [isSel]

theorem isUser_iff {k : Nat} {e : Add} : isUser k e = true ↔ ∃ l, e = .selector k l := by
  cases e <;> simp [isUser]

theorem eraseP_count {k j : Nat} {l : List (Nat × List Str)} {x : Nat × List Str} (h : l.find? (fun e => e.1 = k) = some x) :
    x.1 = k ∧ l.countP (fun e => e.1 = j) = (l.eraseP fun e => e.1 = k).countP (fun e => e.1 = j) + if j = k then 1 else 0 := by
  induction l with
  | nil => simp at h
  | cons e l ih =>
    by_cases he : e.1 = k
    · rw [List.find?_cons_of_pos (by simpa using he)] at h
      simp only [Option.some.injEq] at h
      subst h
      refine ⟨he, ?_⟩
      rw [List.eraseP_cons_of_pos (by simpa using he), List.countP_cons]
      have e1 : (decide (e.1 = j) = true) = (j = k) := by rw [decide_eq_true_eq, he]; exact propext eq_comm
      simp only [e1]
    · rw [List.find?_cons_of_neg (by simpa using he)] at h
      obtain ⟨h1, h2⟩ := ih h
      refine ⟨h1, ?_⟩
      rw [List.eraseP_cons_of_neg (by simpa using he), List.countP_cons, List.countP_cons, h2]
      omega

theorem T_send (k : Nat) (s : St) (a : Id) (m : Msg) : T k (s.send a m) ≤ T k s + (if isSel k (a, m) then 1 else 0) := by
  rw [send_eq]
  simp only [T, List.countP_append]
  have := arrive_count_le s [(a, m)] (isSel k)
  rw [List.countP_singleton] at this
  omega

theorem T_tell (k : Nat) (s : St) (sender : Option Nat) (r : Reply) : T k (s.tell sender r) = T k s + (if sender = some k then 1 else 0) := by
  cases sender with
  | none => simp [St.tell]
  | some j =>
    simp only [St.tell, T, List.countP_append, List.countP_singleton, Option.some.injEq, decide_eq_true_eq]
    omega

theorem T_select (k : Nat) (s : St) (a : Id) (rest : List Str) (sender : Option Nat) : T k (select path s a rest sender) ≤ T k s + (if sender = some k then 1 else 0) := by
  rcases select_cases path s a rest sender with ⟨-, h⟩ | ⟨_, _, -, -, h⟩ | ⟨rest', next, c, cs, -, -, h⟩
  · rw [h, T_tell]; omega
  · rw [h, T_tell]; omega
  · rw [h]
    simp only [T, List.countP_append]
    have := arrive_count_le s ((c, Msg.sel rest' sender) :: cs.map fun d => (d, Msg.sel [] none)) (isSel k)
    rw [fwd_count] at this
    omega

theorem T_step (k : Nat) (s : St) (e : Ev) (he : ∀ l, e ≠ .find k l) : T k (step path s e) ≤ T k s := by
  cases e with
  | createChild p c => simpa [isSel, step] using T_send k s p (.attach c)
  | gone p c => simpa [isSel, step] using T_send k s p (.detach c)
  | createTop g c => simp [step, T, isUser]
  | find j l =>
    have : j ≠ k := fun e => he l (by rw [e])
    simp [step, T, isUser, this]
  | rootUser =>
    simp only [step]
    split
    · exact Nat.le_refl _
    · rename_i g c u hu
      have h1 := T_send k { s with rootUsr := u } g (.attach c)
      have h2 : T k { s with rootUsr := u } ≤ T k s := by simp [T, hu, isUser]
      simp only [isSel, Bool.false_eq_true, if_false] at h1
      omega
    · rename_i j l u hu
      simp only [T, hu, List.countP_append, List.countP_cons, List.countP_nil, isUser]
      by_cases hjk : j = k <;> simp [hjk] <;> omega
  | start j =>
    simp only [step]
    split
    · exact Nat.le_refl _
    · rename_i x l hf
      obtain ⟨-, h1⟩ := eraseP_count (j := k) hf
      have h2 := T_send k { s with starting := s.starting.eraseP fun e => e.1 = j } root (.sel l (some j))
      simp only [isSel, decide_eq_true_eq] at h2
      refine Nat.le_trans h2 ?_
      simp only [T]
      rw [h1]
      by_cases hjk : j = k
      · subst hjk; simp; omega
      · have : k ≠ j := fun e => hjk e.symm
        simp [hjk, this]
  | sys a =>
    simp only [step]
    split
    · exact Nat.le_refl _
    · rename_i m q hp
      obtain ⟨-, -, h3, -, -⟩ := pop_some hp
      have h3 := h3 (isSel k)
      cases m with
      | attach c =>
        simp only [handle]
        split <;> simp only [T] <;> simp only [isSel, Bool.false_eq_true, if_false] at h3 <;> omega
      | detach c => simp only [handle, T]; simp only [isSel, Bool.false_eq_true, if_false] at h3; omega
      | sel rest sender =>
        simp only [handle]
        have h4 := T_select (path := path) k { s with queue := q } a rest sender
        refine Nat.le_trans h4 ?_
        simp only [T, h3]
        cases sender <;> simp [isSel] <;> omega
  | stopping a => exact Nat.le_refl _
  | close a =>
    simp only [step, T]
    have : (s.queue.filter fun e => decide (e.1 ≠ a)).countP (isSel k) ≤ s.queue.countP (isSel k) := List.Sublist.countP_le List.filter_sublist
    omega

theorem T_fresh {k : Nat} {s : St} (h : Fresh k s) : s.queue.countP (isSel k) = 0 ∧ s.rootUsr.countP (isUser k) = 0 ∧ s.starting.countP (fun e => e.1 = k) = 0 ∧ s.replies.countP (fun e => e.1 = k) = 0 := by
  refine ⟨?_, ?_, ?_, ?_⟩ <;> rw [List.countP_eq_zero]
  · rintro ⟨a, m⟩ he h1
    obtain ⟨rest, h2⟩ := isSel_iff.1 h1
    simp only at h2
    subst h2
    exact h.queue a rest he
  · intro e he h1
    obtain ⟨l, rfl⟩ := isUser_iff.1 h1
    exact h.user l he
  · rintro ⟨j, l⟩ he h1
    simp only [decide_eq_true_eq] at h1
    subst h1
    exact h.starting l he
  · rintro ⟨j, l⟩ he h1
    simp only [decide_eq_true_eq] at h1
    subst h1
    exact h.replies l he

theorem T_find {k : Nat} {s : St} (h : Fresh k s) (l : List Str) : T k (step path s (.find k l)) = 1 := by
  obtain ⟨h1, h2, h3, h4⟩ := T_fresh h
  simp [step, T, h1, h2, h3, h4, isUser]

theorem answers_length (k : Nat) (s : St) : (answers k s).length = s.replies.countP (fun e => e.1 = k) := by
  simp [answers, List.countP_eq_length_filter]

/-! ## Proof: what an answer means -/

structure Inv (path : Id → Str) (k : Nat) (names : List Str) (h : List St) (s : St) : Prop where
  sel : ∀ a rest, (a, Msg.sel rest (some k)) ∈ s.queue → ∃ done, names = done ++ rest.reverse ∧ Went path h done a
  user : ∀ l, Add.selector k l ∈ s.rootUsr → l = names.reverse
  starting : ∀ l, (k, l) ∈ s.starting → l = names.reverse
  success : ∀ a, (k, Reply.success a) ∈ s.replies → Went path h names a
  failure : (k, Reply.failure) ∈ s.replies → Gap path h names

theorem Inv.later {k : Nat} {names : List Str} {h : List St} {s : St} (t : St) (i : Inv path k names h s) : Inv path k names (t :: h) s :=
  ⟨fun a rest hm => by obtain ⟨d, h1, h2⟩ := i.sel a rest hm; exact ⟨d, h1, .later h2⟩, i.user, i.starting, fun a hm => .later (i.success a hm), fun hm => .later (i.failure hm)⟩

/-- a message that is not one of the search -/
theorem Inv.send {k : Nat} {names : List Str} {h : List St} {s : St} (i : Inv path k names h s) (a : Id) (m : Msg) (hm : ∀ rest, m = .sel rest (some k) → ∃ done, names = done ++ rest.reverse ∧ Went path h done a) :
    Inv path k names h (s.send a m) := by
  rw [send_eq]
  refine ⟨?_, i.user, i.starting, i.success, i.failure⟩
  intro b rest hb
  rcases List.mem_append.1 hb with hb | hb
  · exact i.sel b rest hb
  · have := (mem_arrive.1 hb).1
    simp only [List.mem_singleton, Prod.mk.injEq] at this
    obtain ⟨rfl, h2⟩ := this
    exact hm rest h2.symm

theorem Inv.step {k : Nat} {names : List Str} {h : List St} {s : St} (i : Inv path k names h s) (e : Ev) (he : ∀ l, e ≠ .find k l) : Inv path k names (s :: h) (step path s e) := by
  have i' := i.later s
  cases e with
  | createChild p c => exact i'.send p _ (by simp)
  | gone p c => exact i'.send p _ (by simp)
  | createTop g c =>
    refine ⟨i'.sel, ?_, i'.starting, i'.success, i'.failure⟩
    intro l hl
    simp only [Selection.step, List.mem_append, List.mem_singleton] at hl
    rcases hl with hl | hl
    · exact i.user l hl
    · cases hl
  | find j l =>
    refine ⟨i'.sel, ?_, i'.starting, i'.success, i'.failure⟩
    intro l' hl
    simp only [Selection.step, List.mem_append, List.mem_singleton] at hl
    rcases hl with hl | hl
    · exact i.user l' hl
    · cases hl; exact absurd rfl (he l)
  | rootUser =>
    simp only [Selection.step]
    split
    · exact i'
    · rename_i g c u hu
      refine Inv.send (s := { s with rootUsr := u }) ⟨i'.sel, ?_, i'.starting, i'.success, i'.failure⟩ g _ (by intro rest hr; cases hr)
      intro l hl
      exact i.user l (by rw [hu]; exact List.mem_cons_of_mem _ hl)
    · rename_i j l u hu
      refine ⟨i'.sel, ?_, ?_, i'.success, i'.failure⟩
      · intro l hl
        exact i.user l (by rw [hu]; exact List.mem_cons_of_mem _ hl)
      · intro l' hl
        simp only [List.mem_append, List.mem_singleton, Prod.mk.injEq] at hl
        rcases hl with hl | ⟨rfl, rfl⟩
        · exact i.starting l' hl
        · exact i.user _ (by rw [hu]; simp)
  | start j =>
    simp only [Selection.step]
    split
    · exact i'
    · rename_i x l hf
      obtain ⟨hx, -⟩ := eraseP_count (j := k) hf
      simp only at hx
      subst hx
      refine Inv.send (s := { s with starting := s.starting.eraseP fun e => e.1 = x }) ⟨i'.sel, i'.user, ?_, i'.success, i'.failure⟩ root _ ?_
      · intro l' hl
        exact i.starting l' (List.mem_of_mem_eraseP hl)
      · intro rest hr
        simp only [Msg.sel.injEq, Option.some.injEq] at hr
        obtain ⟨rfl, rfl⟩ := hr
        have := i.starting l (List.mem_of_find?_eq_some hf)
        exact ⟨[], by simp [this], .start _⟩
  | sys a =>
    simp only [Selection.step]
    split
    · exact i'
    · rename_i m q hp
      obtain ⟨-, -, -, h4, h5⟩ := pop_some hp
      have iq : Inv path k names (s :: h) { s with queue := q } := ⟨fun b rest hb => i'.sel b rest (h4 _ hb), i'.user, i'.starting, i'.success, i'.failure⟩
      cases m with
      | attach c =>
        simp only [handle]
        split
        · exact iq
        · exact ⟨iq.sel, iq.user, iq.starting, iq.success, iq.failure⟩
      | detach c => exact ⟨iq.sel, iq.user, iq.starting, iq.success, iq.failure⟩
      | sel rest sender =>
        simp only [handle]
        rcases select_cases path { s with queue := q } a rest sender with ⟨hr, hs⟩ | ⟨rest', next, hr, hn, hs⟩ | ⟨rest', next, c, cs, hr, hc, hs⟩ <;> rw [hs]
        · cases sender with
          | none => exact iq
          | some j =>
            refine ⟨iq.sel, iq.user, iq.starting, ?_, ?_⟩
            · intro b hb
              simp only [St.tell, List.mem_append, List.mem_singleton, Prod.mk.injEq] at hb
              rcases hb with hb | ⟨rfl, hb⟩
              · exact iq.success b hb
              · cases hb
                obtain ⟨done, h1, h2⟩ := i.sel a rest h5
                rw [hr] at h1
                simp only [List.reverse_nil, List.append_nil] at h1
                subst h1
                exact .later h2
            · intro hb
              simp only [St.tell, List.mem_append, List.mem_singleton, Prod.mk.injEq] at hb
              rcases hb with hb | ⟨rfl, hb⟩
              · exact iq.failure hb
              · cases hb
        · cases sender with
          | none => exact iq
          | some j =>
            refine ⟨iq.sel, iq.user, iq.starting, ?_, ?_⟩
            · intro b hb
              simp only [St.tell, List.mem_append, List.mem_singleton, Prod.mk.injEq] at hb
              rcases hb with hb | ⟨rfl, hb⟩
              · exact iq.success b hb
              · cases hb
            · intro hb
              simp only [St.tell, List.mem_append, List.mem_singleton, Prod.mk.injEq] at hb
              rcases hb with hb | ⟨rfl, hb⟩
              · exact iq.failure hb
              · obtain ⟨done, h1, h2⟩ := i.sel a rest h5
                rw [hr] at h1
                simp only [List.reverse_append, List.reverse_singleton, List.singleton_append] at h1
                rw [h1]
                exact .here h2 hn
        · refine ⟨?_, iq.user, iq.starting, iq.success, iq.failure⟩
          intro b rest2 hb
          rcases List.mem_append.1 hb with hb | hb
          · exact iq.sel b rest2 hb
          · have hb := (mem_arrive.1 hb).1
            rcases List.mem_cons.1 hb with hb | hb
            · simp only [Prod.mk.injEq, Msg.sel.injEq] at hb
              obtain ⟨rfl, rfl, rfl⟩ := hb
              obtain ⟨done, h1, h2⟩ := i.sel a rest h5
              have hcm : b ∈ (s.kids a).filter (fun c => decide (getName (path c) = next)) := by
                have : b ∈ ({ s with queue := q } : St).kids a := (List.mem_filter.1 (by rw [hc]; simp : b ∈ List.filter (fun c => decide (getName (path c) = next)) _)).1
                have hn : decide (getName (path b) = next) = true := (List.mem_filter.1 (by rw [hc]; simp : b ∈ List.filter (fun c => decide (getName (path c) = next)) _)).2
                exact List.mem_filter.2 ⟨this, hn⟩
              obtain ⟨hk, hn⟩ := List.mem_filter.1 hcm
              simp only [decide_eq_true_eq] at hn
              refine ⟨done ++ [next], ?_, ?_⟩
              · rw [h1, hr]; simp
              · rw [← hn]; exact .down h2 hk
            · obtain ⟨d, -, hd⟩ := List.mem_map.1 hb
              simp at hd
  | stopping a => exact ⟨i'.sel, i'.user, i'.starting, i'.success, i'.failure⟩
  | close a =>
    refine ⟨?_, i'.user, i'.starting, i'.success, i'.failure⟩
    intro b rest hb
    exact i'.sel b rest (List.mem_filter.1 hb).1

theorem Inv.init {k : Nat} {s : St} (hf : Fresh k s) (names : List Str) : Inv path k names [] (Selection.step path s (.find k names.reverse)) := by
  refine ⟨?_, ?_, ?_, ?_, ?_⟩
  · intro a rest h; exact absurd h (hf.queue a rest)
  · intro l hl
    simp only [Selection.step, List.mem_append, List.mem_singleton] at hl
    rcases hl with hl | hl
    · exact absurd hl (hf.user l)
    · cases hl; rfl
  · intro l hl; exact absurd hl (hf.starting l)
  · intro a h; exact absurd h (hf.replies _)
  · intro h; exact absurd h (hf.replies _)

/-- Whatever happens in the system: a search gets at most one answer; if it is an actor, one could walk to it along the names from the root, each step at a moment when the next actor was a child with the right name; if it is a failure,
one could walk to an actor that had no child with the next name. -/
theorem C68_answer {k : Nat} {s0 s : St} {h : List St} {names : List Str} (hf : Fresh k s0) (hx : Exec path (fun e => ∀ l, e ≠ .find k l) (step path s0 (.find k names.reverse)) h s) :
    (answers k s).length ≤ 1 ∧ (∀ a, .success a ∈ answers k s → Went path h names a) ∧ (.failure ∈ answers k s → Gap path h names) := by
  have hT : T k s ≤ 1 ∧ Inv path k names h s := by
    induction hx with
    | init => exact ⟨Nat.le_of_eq (T_find hf _), Inv.init hf names⟩
    | step _ he ih => exact ⟨Nat.le_trans (T_step k _ _ he) ih.1, ih.2.step _ he⟩
  refine ⟨?_, ?_, ?_⟩
  · rw [answers_length]
    have := hT.1
    simp only [T] at this
    omega
  · intro a ha
    simp only [answers, List.mem_map, List.mem_filter] at ha
    obtain ⟨⟨j, r⟩, ⟨h1, h2⟩, rfl⟩ := ha
    simp only [decide_eq_true_eq] at h2
    subst h2
    exact hT.2.success a h1
  · intro ha
    simp only [answers, List.mem_map, List.mem_filter] at ha
    obtain ⟨⟨j, r⟩, ⟨h1, h2⟩, h3⟩ := ha
    simp only [decide_eq_true_eq] at h2 h3
    subst h2 h3
    exact hT.2.failure h1

/-! ## Proof: an answer comes if no message is lost -/

theorem arrive_open {s : St} (ho : ∀ a, s.closed a = false) (ms : List (Id × Msg)) : arrive s ms = ms := by
  simp [arrive, ho]

theorem T_step_open (k : Nat) (s : St) (e : Ev) (he : ∀ l, e ≠ .find k l) (hc : ∀ a, e ≠ .close a) (ho : ∀ a, s.closed a = false) :
    T k (step path s e) = T k s ∧ ∀ a, (step path s e).closed a = false := by
  cases e with
  | createChild p c => simp [step, send_eq, arrive_open ho, ho, T, isSel]
  | gone p c => simp [step, send_eq, arrive_open ho, ho, T, isSel]
  | createTop g c => simp [step, T, isUser, ho]
  | find j l =>
    have : j ≠ k := fun e => he l (by rw [e])
    simp [step, T, isUser, this, ho]
  | rootUser =>
    simp only [step]
    split
    · exact ⟨rfl, ho⟩
    · rename_i g c u hu
      rw [send_eq, arrive_open (s := { s with rootUsr := u }) ho]
      exact ⟨by simp [T, hu, isUser, isSel], ho⟩
    · rename_i j l u hu
      refine ⟨?_, ho⟩
      simp only [T, hu, List.countP_append, List.countP_cons, List.countP_nil, isUser]
      by_cases hjk : j = k <;> simp [hjk] <;> omega
  | start j =>
    simp only [step]
    split
    · exact ⟨rfl, ho⟩
    · rename_i x l hf
      obtain ⟨-, h1⟩ := eraseP_count (j := k) hf
      rw [send_eq, arrive_open (s := { s with starting := s.starting.eraseP fun e => e.1 = j }) ho]
      refine ⟨?_, ho⟩
      simp only [T]
      rw [h1]
      by_cases hjk : j = k
      · subst hjk; simp [isSel]; omega
      · have : k ≠ j := fun e => hjk e.symm
        simp [isSel, hjk, this]
  | sys a =>
    simp only [step]
    split
    · exact ⟨rfl, ho⟩
    · rename_i m q hp
      obtain ⟨-, -, h3, -, -⟩ := pop_some hp
      have h3 := h3 (isSel k)
      cases m with
      | attach c =>
        simp only [handle]
        simp only [isSel, Bool.false_eq_true, if_false] at h3
        split
        · exact ⟨by simp only [T]; omega, ho⟩
        · exact ⟨by simp only [T]; omega, ho⟩
      | detach c =>
        simp only [isSel, Bool.false_eq_true, if_false] at h3
        exact ⟨by simp only [handle, T]; omega, ho⟩
      | sel rest sender =>
        simp only [handle]
        have h5 : (if isSel k (a, Msg.sel rest sender) = true then 1 else 0) = if sender = some k then 1 else 0 := by
          cases sender <;> simp [isSel]
        rw [h5] at h3
        have h4 : T k { s with queue := q } + (if sender = some k then 1 else 0) = T k s := by
          simp only [T, h3]; omega
        have ht : ∀ x b, (St.tell { s with queue := q } sender x).closed b = false := by
          intro x b
          cases sender <;> exact ho b
        rcases select_cases path { s with queue := q } a rest sender with ⟨-, h⟩ | ⟨_, _, -, -, h⟩ | ⟨rest', next, c, cs, -, -, h⟩ <;> rw [h]
        · exact ⟨by rw [T_tell, h4], ht _⟩
        · exact ⟨by rw [T_tell, h4], ht _⟩
        · rw [arrive_open (s := { s with queue := q }) ho]
          refine ⟨?_, ho⟩
          rw [← h4]
          simp only [T, List.countP_append, fwd_count]
          omega
  | stopping a => exact ⟨rfl, ho⟩
  | close a => exact absurd rfl (hc a)

theorem pending_iff (k : Nat) (s : St) : 0 < s.queue.countP (isSel k) + s.rootUsr.countP (isUser k) + s.starting.countP (fun e => e.1 = k) ↔ Pending k s := by
  constructor
  · intro h
    by_cases h2 : 0 < s.queue.countP (isSel k)
    · obtain ⟨⟨a, m⟩, h3, h4⟩ := List.countP_pos_iff.1 h2
      obtain ⟨rest, h5⟩ := isSel_iff.1 h4
      simp only at h5
      exact Or.inl ⟨a, rest, h5 ▸ h3⟩
    · by_cases h3 : 0 < s.rootUsr.countP (isUser k)
      · obtain ⟨x, h4, h5⟩ := List.countP_pos_iff.1 h3
        obtain ⟨l, rfl⟩ := isUser_iff.1 h5
        exact Or.inr (Or.inl ⟨l, h4⟩)
      · obtain ⟨⟨j, l⟩, h4, h5⟩ := List.countP_pos_iff.1 (show 0 < s.starting.countP (fun e => e.1 = k) by omega)
        simp only [decide_eq_true_eq] at h5
        exact Or.inr (Or.inr ⟨l, h5 ▸ h4⟩)
  · rintro (⟨a, rest, h⟩ | ⟨l, h⟩ | ⟨l, h⟩)
    · have : 0 < s.queue.countP (isSel k) := List.countP_pos_iff.2 ⟨_, h, by simp [isSel]⟩
      omega
    · have : 0 < s.rootUsr.countP (isUser k) := List.countP_pos_iff.2 ⟨_, h, by simp [isUser]⟩
      omega
    · have : 0 < s.starting.countP (fun e => e.1 = k) := List.countP_pos_iff.2 ⟨_, h, by simp⟩
      omega

/-- While no mailbox is closed, a search is on its way until it has exactly one answer. -/
theorem C68_answered {k : Nat} {s0 s : St} {h : List St} {names : List Str} (hf : Fresh k s0) (ho : ∀ a, s0.closed a = false)
    (hx : Exec path (fun e => (∀ l, e ≠ .find k l) ∧ ∀ a, e ≠ .close a) (step path s0 (.find k names.reverse)) h s) : Pending k s ∨ (answers k s).length = 1 := by
  have hT : T k s = 1 ∧ ∀ a, s.closed a = false := by
    induction hx with
    | init => exact ⟨T_find hf _, ho⟩
    | step _ he ih =>
      obtain ⟨h1, h2⟩ := T_step_open (path := path) k _ _ he.1 he.2 ih.2
      exact ⟨h1.trans ih.1, h2⟩
  by_cases hp : Pending k s
  · exact Or.inl hp
  · right
    rw [answers_length]
    have h1 := hT.1
    have h2 : ¬ _ := fun h => hp ((pending_iff k s).1 h)
    simp only [T] at h1
    omega

/-! ## Proof: an actor that is there is found -/

/-- `x` is in the list, and nothing before it satisfies `p` -/
def Before {α : Type} (l : List α) (x : α) (p : α → Bool) : Prop := ∃ l1 l2, l = l1 ++ x :: l2 ∧ ∀ y ∈ l1, p y = false

theorem Before.append {α : Type} {l : List α} {x : α} {p : α → Bool} (h : Before l x p) (m : List α) : Before (l ++ m) x p := by
  obtain ⟨l1, l2, rfl, h⟩ := h
  exact ⟨l1, l2 ++ m, by simp, h⟩

theorem Before.tail {α : Type} {l : List α} {x y : α} {p : α → Bool} (h : Before (y :: l) x p) : x = y ∨ (p y = false ∧ Before l x p) := by
  obtain ⟨l1, l2, h1, h2⟩ := h
  cases l1 with
  | nil => simp at h1; exact Or.inl h1.1.symm
  | cons z l1 =>
    simp only [List.cons_append, List.cons.injEq] at h1
    obtain ⟨rfl, rfl⟩ := h1
    exact Or.inr ⟨h2 y (by simp), l1, l2, rfl, fun w hw => h2 w (by simp [hw])⟩

theorem Before.of_mem {α : Type} {l : List α} {x : α} {p : α → Bool} (h : x ∈ l) (hp : ∀ y ∈ l, p y = false) : Before l x p := by
  obtain ⟨l1, l2, rfl⟩ := List.append_of_mem h
  exact ⟨l1, l2, rfl, fun y hy => hp y (by simp [hy])⟩

def isSelM (k : Nat) : Msg → Bool
  | .sel _ (some j) => j = k
  | _ => false

theorem isSel_isSelM (k : Nat) (a : Id) (m : Msg) : isSel k (a, m) = isSelM k m := by
  cases m with
  | sel rest sender => cases sender <;> rfl
  | _ => rfl

/-- The next actor of the route is there before the search comes. -/
def Ready (r : Nat → Id) (k : Nat) (s : St) (i : Nat) : Prop :=
  r (i + 1) ∈ s.kids (r i) ∨ Before (qOf s.queue (r i)) (.attach (r (i + 1))) (isSelM k) ∨
    (Before s.rootUsr (.actor (r i) (r (i + 1))) (isUser k) ∧ s.queue.countP (isSel k) = 0 ∧ s.starting.countP (fun e => e.1 = k) = 0)

structure Good (path : Id → Str) (r : Nat → Id) (n k : Nat) (s : St) : Prop where
  one : T k s = 1
  ready : ∀ i, i < n → Ready r k s i
  sole : ∀ i, i < n → ∀ c, getName (path c) = getName (path (r (i + 1))) → (c ∈ s.kids (r i) ∨ (r i, .attach c) ∈ s.queue ∨ .actor (r i) c ∈ s.rootUsr) → c = r (i + 1)
  stay : ∀ i, i < n → ∀ c, (r i, .detach c) ∈ s.queue → path c ≠ path (r (i + 1))
  isOpen : ∀ i, i ≤ n → s.closed (r i) = false
  takes : ∀ i, i < n → s.stopping (r i) = false
  sel : ∀ a rest, (a, Msg.sel rest (some k)) ∈ s.queue → ∃ i, i ≤ n ∧ a = r i ∧ rest.reverse = (namesOf path r n).drop i
  user : ∀ l, Add.selector k l ∈ s.rootUsr → l = (namesOf path r n).reverse
  starting : ∀ l, (k, l) ∈ s.starting → l = (namesOf path r n).reverse
  replies : ∀ x, (k, x) ∈ s.replies → x = .success (r n)

variable {r : Nat → Id} {n k : Nat}

/-- messages of other kinds, and of other searches -/
theorem Good.grow {s : St} (g : Good path r n k s) (ms : List (Id × Msg)) (hk : ms.countP (isSel k) = 0)
    (ha : ∀ i, i < n → ∀ c, getName (path c) = getName (path (r (i + 1))) → (r i, .attach c) ∈ ms → c = r (i + 1))
    (hd : ∀ i, i < n → ∀ c, (r i, .detach c) ∈ ms → path c ≠ path (r (i + 1))) : Good path r n k { s with queue := s.queue ++ ms } := by
  refine ⟨?_, ?_, ?_, ?_, g.isOpen, g.takes, ?_, g.user, g.starting, g.replies⟩
  · have := g.one
    simp only [T, List.countP_append, hk] at this ⊢; omega
  · intro i hi
    rcases g.ready i hi with h | h | ⟨h1, h2, h3⟩
    · exact Or.inl h
    · refine Or.inr (Or.inl ?_)
      simp only [qOf_append]; exact h.append _
    · refine Or.inr (Or.inr ⟨h1, ?_, h3⟩)
      simp only [List.countP_append, h2, hk]
  · intro i hi c hc hm
    rcases hm with hm | hm | hm
    · exact g.sole i hi c hc (Or.inl hm)
    · rcases List.mem_append.1 hm with hm | hm
      · exact g.sole i hi c hc (Or.inr (Or.inl hm))
      · exact ha i hi c hc hm
    · exact g.sole i hi c hc (Or.inr (Or.inr hm))
  · intro i hi c hm
    rcases List.mem_append.1 hm with hm | hm
    · exact g.stay i hi c hm
    · exact hd i hi c hm
  · intro a rest hm
    rcases List.mem_append.1 hm with hm | hm
    · exact g.sel a rest hm
    · have := List.countP_eq_zero.1 hk _ hm
      simp [isSel] at this

theorem Good.send {s : St} (g : Good path r n k s) (a : Id) (m : Msg) (hk : isSelM k m = false)
    (ha : ∀ i, i < n → ∀ c, getName (path c) = getName (path (r (i + 1))) → a = r i → m = .attach c → c = r (i + 1))
    (hd : ∀ i, i < n → ∀ c, a = r i → m = .detach c → path c ≠ path (r (i + 1))) : Good path r n k (s.send a m) := by
  rw [send_eq]
  refine g.grow _ ?_ ?_ ?_
  · have := arrive_count_le s [(a, m)] (isSel k)
    rw [List.countP_singleton, isSel_isSelM, hk] at this
    simpa using this
  · intro i hi c hc hm
    have := (mem_arrive.1 hm).1
    simp only [List.mem_singleton, Prod.mk.injEq] at this
    exact ha i hi c hc this.1.symm this.2.symm
  · intro i hi c hm
    have := (mem_arrive.1 hm).1
    simp only [List.mem_singleton, Prod.mk.injEq] at this
    exact hd i hi c this.1.symm this.2.symm

/-- Taking a message of another search. -/
theorem Good.popOther {s : St} (g : Good path r n k s) {a : Id} {rest : List Str} {sender : Option Nat} {q : List (Id × Msg)} (hp : pop a s.queue = some (.sel rest sender, q)) (hs : sender ≠ some k) :
    Good path r n k { s with queue := q } := by
  obtain ⟨p1, p2, p3, p4, p5⟩ := pop_some hp
  have hsel : isSelM k (.sel rest sender) = false := by
    cases sender with
    | none => rfl
    | some j => simpa [isSelM] using hs
  have p3 := p3 (isSel k)
  rw [isSel_isSelM, hsel] at p3
  simp only [Bool.false_eq_true, if_false, Nat.add_zero] at p3
  refine ⟨?_, ?_, ?_, ?_, g.isOpen, g.takes, fun b rest hb => g.sel b rest (p4 _ hb), g.user, g.starting, g.replies⟩
  · have := g.one
    simp only [T] at this ⊢; omega
  · intro i hi
    rcases g.ready i hi with h | h | ⟨h1, h2, h3⟩
    · exact Or.inl h
    · refine Or.inr (Or.inl ?_)
      by_cases hai : r i = a
      · subst hai
        rw [p1] at h
        rcases h.tail with h | h
        · cases h
        · exact h.2
      · rw [show qOf ({ s with queue := q } : St).queue (r i) = qOf q (r i) from rfl, p2 (r i) hai]; exact h
    · exact Or.inr (Or.inr ⟨h1, by simp only; omega, h3⟩)
  · intro i hi c hc hm
    refine g.sole i hi c hc ?_
    rcases hm with hm | hm | hm
    · exact Or.inl hm
    · exact Or.inr (Or.inl (p4 _ hm))
    · exact Or.inr (Or.inr hm)
  · intro i hi c hm
    exact g.stay i hi c (p4 _ hm)

theorem names_length : (namesOf path r n).length = n := by simp [namesOf]

theorem names_drop {i : Nat} (hi : i < n) : (namesOf path r n).drop i = getName (path (r (i + 1))) :: (namesOf path r n).drop (i + 1) := by
  rw [List.drop_eq_getElem_cons (by rw [names_length]; exact hi)]
  simp [namesOf]

theorem Good.step {s : St} (g : Good path r n k s) (h0 : r 0 = Selection.root) (e : Ev) (he : Undisturbed path r n k e) : Good path r n k (step path s e) := by
  cases e with
  | createChild p c =>
    refine g.send p _ rfl ?_ (by intro i hi d _ hm; cases hm)
    intro i hi d hd hp hm
    cases hm
    exact he i hi hp hd
  | gone p c =>
    refine g.send p _ rfl (by intro i hi d _ _ hm; cases hm) ?_
    intro i hi d hp hm
    cases hm
    exact he i hi hp
  | createTop p c =>
    refine ⟨?_, ?_, ?_, g.stay, g.isOpen, g.takes, g.sel, ?_, g.starting, g.replies⟩
    · have := g.one; simpa [Selection.step, T, isUser] using this
    · intro i hi
      rcases g.ready i hi with h | h | ⟨h1, h2, h3⟩
      · exact Or.inl h
      · exact Or.inr (Or.inl h)
      · exact Or.inr (Or.inr ⟨h1.append _, h2, h3⟩)
    · intro i hi d hd hm
      rcases hm with hm | hm | hm
      · exact g.sole i hi d hd (Or.inl hm)
      · exact g.sole i hi d hd (Or.inr (Or.inl hm))
      · rcases List.mem_append.1 hm with hm | hm
        · exact g.sole i hi d hd (Or.inr (Or.inr hm))
        · simp only [List.mem_singleton, Add.actor.injEq] at hm
          obtain ⟨h1, h2⟩ := hm
          subst h2
          exact he i hi h1.symm hd
    · intro l hl
      rcases List.mem_append.1 hl with hl | hl
      · exact g.user l hl
      · simp at hl
  | find j l =>
    have hj : j ≠ k := he
    refine ⟨?_, ?_, ?_, g.stay, g.isOpen, g.takes, g.sel, ?_, g.starting, g.replies⟩
    · have := g.one; simpa [Selection.step, T, isUser, hj] using this
    · intro i hi
      rcases g.ready i hi with h | h | ⟨h1, h2, h3⟩
      · exact Or.inl h
      · exact Or.inr (Or.inl h)
      · exact Or.inr (Or.inr ⟨h1.append _, h2, h3⟩)
    · intro i hi d hd hm
      rcases hm with hm | hm | hm
      · exact g.sole i hi d hd (Or.inl hm)
      · exact g.sole i hi d hd (Or.inr (Or.inl hm))
      · rcases List.mem_append.1 hm with hm | hm
        · exact g.sole i hi d hd (Or.inr (Or.inr hm))
        · simp at hm
    · intro l' hl
      rcases List.mem_append.1 hl with hl | hl
      · exact g.user l' hl
      · simp only [List.mem_singleton, Add.selector.injEq] at hl
        exact absurd hl.1.symm hj
  | rootUser =>
    simp only [Selection.step]
    split
    · exact g
    · rename_i p c u hu
      rw [send_eq]
      have hc0 : (arrive ({ s with rootUsr := u } : St) [(p, Msg.attach c)]).countP (isSel k) = 0 := by
        have := arrive_count_le ({ s with rootUsr := u } : St) [(p, Msg.attach c)] (isSel k)
        simpa [isSel] using this
      refine ⟨?_, ?_, ?_, ?_, g.isOpen, g.takes, ?_, ?_, g.starting, g.replies⟩
      · have := g.one
        simp only [T, hu, List.countP_append, hc0, List.countP_cons, isUser] at this ⊢
        simpa using this
      · intro i hi
        rcases g.ready i hi with h | h | ⟨h1, h2, h3⟩
        · exact Or.inl h
        · refine Or.inr (Or.inl ?_)
          simp only [qOf_append]; exact h.append _
        · rw [hu] at h1
          rcases h1.tail with h1 | ⟨-, h1⟩
          · simp only [Add.actor.injEq] at h1
            obtain ⟨rfl, rfl⟩ := h1
            refine Or.inr (Or.inl ?_)
            have ho : s.closed (r i) = false := g.isOpen i (Nat.le_of_lt hi)
            simp only [qOf_append, arrive]
            refine ⟨qOf s.queue (r i), [], ?_, ?_⟩
            · simp [ho, qOf]
            · intro y hy
              have := List.countP_eq_zero.1 h2 _ (mem_qOf.1 hy)
              rw [isSel_isSelM] at this
              simpa using this
          · refine Or.inr (Or.inr ⟨h1, ?_, h3⟩)
            simp only [List.countP_append, h2, hc0]
      · intro i hi d hd hm
        refine g.sole i hi d hd ?_
        rcases hm with hm | hm | hm
        · exact Or.inl hm
        · rcases List.mem_append.1 hm with hm | hm
          · exact Or.inr (Or.inl hm)
          · have := (mem_arrive.1 hm).1
            simp only [List.mem_singleton, Prod.mk.injEq, Msg.attach.injEq] at this
            obtain ⟨rfl, rfl⟩ := this
            exact Or.inr (Or.inr (by rw [hu]; simp))
        · exact Or.inr (Or.inr (by rw [hu]; exact List.mem_cons_of_mem _ hm))
      · intro i hi d hm
        rcases List.mem_append.1 hm with hm | hm
        · exact g.stay i hi d hm
        · have := (mem_arrive.1 hm).1
          simp at this
      · intro a rest hm
        rcases List.mem_append.1 hm with hm | hm
        · exact g.sel a rest hm
        · have := (mem_arrive.1 hm).1
          simp at this
      · intro l hl
        exact g.user l (by rw [hu]; exact List.mem_cons_of_mem _ hl)
    · rename_i j l u hu
      refine ⟨?_, ?_, ?_, g.stay, g.isOpen, g.takes, g.sel, ?_, ?_, g.replies⟩
      · have := g.one
        simp only [T, hu, List.countP_append, List.countP_cons, List.countP_nil, isUser] at this ⊢
        by_cases hjk : j = k <;> simp [hjk] at this ⊢ <;> omega
      · intro i hi
        rcases g.ready i hi with h | h | ⟨h1, h2, h3⟩
        · exact Or.inl h
        · exact Or.inr (Or.inl h)
        · rw [hu] at h1
          rcases h1.tail with h1 | ⟨hj, h1⟩
          · cases h1
          · refine Or.inr (Or.inr ⟨h1, h2, ?_⟩)
            simp only [isUser, decide_eq_false_iff_not] at hj
            simp [h3, hj]
      · intro i hi d hd hm
        refine g.sole i hi d hd ?_
        rcases hm with hm | hm | hm
        · exact Or.inl hm
        · exact Or.inr (Or.inl hm)
        · exact Or.inr (Or.inr (by rw [hu]; exact List.mem_cons_of_mem _ hm))
      · intro l hl
        exact g.user l (by rw [hu]; exact List.mem_cons_of_mem _ hl)
      · intro l' hl
        simp only [List.mem_append, List.mem_singleton, Prod.mk.injEq] at hl
        rcases hl with hl | ⟨rfl, rfl⟩
        · exact g.starting l' hl
        · exact g.user _ (by rw [hu]; simp)
  | start j =>
    simp only [Selection.step]
    split
    · exact g
    · rename_i x l hf
      obtain ⟨hx, hcnt⟩ := eraseP_count (j := k) hf
      simp only at hx
      subst hx
      by_cases hjk : x = k
      · subst hjk
        rw [send_eq]
        have ho : s.closed Selection.root = false := by rw [← h0]; exact g.isOpen 0 (Nat.zero_le _)
        have har : arrive ({ s with starting := s.starting.eraseP fun e => e.1 = x } : St) [(Selection.root, Msg.sel l (some x))] = [(Selection.root, Msg.sel l (some x))] := by
          simp [arrive, ho]
        rw [har]
        simp only [if_true] at hcnt
        refine ⟨?_, ?_, ?_, ?_, g.isOpen, g.takes, ?_, g.user, fun l' hl => g.starting l' (List.mem_of_mem_eraseP hl), g.replies⟩
        · have := g.one
          simp only [T, List.countP_append, List.countP_singleton, isSel] at this ⊢
          simp; omega
        · intro i hi
          rcases g.ready i hi with h | h | ⟨h1, h2, h3⟩
          · exact Or.inl h
          · refine Or.inr (Or.inl ?_)
            simp only [qOf_append]; exact h.append _
          · omega
        · intro i hi d hd hm
          refine g.sole i hi d hd ?_
          rcases hm with hm | hm | hm
          · exact Or.inl hm
          · rcases List.mem_append.1 hm with hm | hm
            · exact Or.inr (Or.inl hm)
            · simp at hm
          · exact Or.inr (Or.inr hm)
        · intro i hi d hm
          rcases List.mem_append.1 hm with hm | hm
          · exact g.stay i hi d hm
          · simp at hm
        · intro a rest hm
          rcases List.mem_append.1 hm with hm | hm
          · exact g.sel a rest hm
          · simp only [List.mem_singleton, Prod.mk.injEq, Msg.sel.injEq, and_true] at hm
            obtain ⟨rfl, rfl⟩ := hm
            refine ⟨0, Nat.zero_le _, h0.symm, ?_⟩
            rw [g.starting rest (List.mem_of_find?_eq_some hf)]; simp
      · have g1 : Good path r n k { s with starting := s.starting.eraseP fun e => e.1 = x } := by
          have hc : (s.starting.eraseP fun e => decide (e.1 = x)).countP (fun e => decide (e.1 = k)) = s.starting.countP (fun e => e.1 = k) := by
            rw [hcnt]; simp [Ne.symm hjk]
          refine ⟨?_, ?_, g.sole, g.stay, g.isOpen, g.takes, g.sel, g.user, fun l' hl => g.starting l' (List.mem_of_mem_eraseP hl), g.replies⟩
          · have := g.one
            simp only [T, hc] at this ⊢; exact this
          · intro i hi
            rcases g.ready i hi with h | h | ⟨h1, h2, h3⟩
            · exact Or.inl h
            · exact Or.inr (Or.inl h)
            · exact Or.inr (Or.inr ⟨h1, h2, by simp only [hc, h3]⟩)
        exact g1.send _ _ (by simpa [isSelM] using hjk) (by intro i hi d _ _ hm; cases hm) (by intro i hi d _ hm; cases hm)
  | sys a =>
    simp only [Selection.step]
    split
    · exact g
    · rename_i m q hp
      obtain ⟨p1, p2, p3, p4, p5⟩ := pop_some hp
      have p3 := p3 (isSel k)
      cases m with
      | attach c =>
        simp only [handle]
        simp only [isSel, Bool.false_eq_true, if_false, Nat.add_zero] at p3
        have hrd : ∀ i, i < n → r i ≠ a ∨ c ≠ r (i + 1) → Ready r k { s with queue := q } i := by
          intro i hi hne
          rcases g.ready i hi with h | h | ⟨h1, h2, h3⟩
          · exact Or.inl h
          · refine Or.inr (Or.inl ?_)
            by_cases hai : r i = a
            · subst hai
              rw [p1] at h
              rcases h.tail with h | h
              · cases h; rcases hne with hne | hne <;> exact absurd rfl hne
              · exact h.2
            · rw [show qOf ({ s with queue := q } : St).queue (r i) = qOf q (r i) from rfl, p2 (r i) hai]; exact h
          · exact Or.inr (Or.inr ⟨h1, by simp only; omega, h3⟩)
        split
        · rename_i hst
          refine ⟨?_, ?_, ?_, fun i hi c hm => g.stay i hi c (p4 _ hm), g.isOpen, g.takes, fun b rest hb => g.sel b rest (p4 _ hb), g.user, g.starting, g.replies⟩
          · have := g.one
            simp only [T] at this ⊢; omega
          · intro i hi
            refine hrd i hi (Or.inl ?_)
            rintro rfl
            have := g.takes i hi
            have hst : s.stopping (r i) = true := hst
            rw [hst] at this; cases this
          · intro i hi d hd hm
            refine g.sole i hi d hd ?_
            rcases hm with hm | hm | hm
            · exact Or.inl hm
            · exact Or.inr (Or.inl (p4 _ hm))
            · exact Or.inr (Or.inr hm)
        · refine ⟨?_, ?_, ?_, fun i hi c hm => g.stay i hi c (p4 _ hm), g.isOpen, g.takes, fun b rest hb => g.sel b rest (p4 _ hb), g.user, g.starting, g.replies⟩
          · have := g.one
            simp only [T] at this ⊢; omega
          · intro i hi
            by_cases hai : r i = a ∧ c = r (i + 1)
            · obtain ⟨rfl, rfl⟩ := hai
              left; simp [setKids]
            · rcases hrd i hi (by by_cases h1 : r i = a; exact Or.inr (fun h2 => hai ⟨h1, h2⟩); exact Or.inl h1) with h | h
              · left
                simp only [setKids]
                split
                · rename_i h1; rw [h1] at h; simp only at h; simp [h]
                · exact h
              · exact Or.inr h
          · intro i hi d hd hm
            rcases hm with hm | hm | hm
            · simp only [setKids] at hm
              split at hm
              · rename_i h1
                rcases List.mem_append.1 hm with hm | hm
                · exact g.sole i hi d hd (Or.inl (by rw [h1]; exact hm))
                · simp only [List.mem_singleton] at hm
                  subst hm
                  exact g.sole i hi d hd (Or.inr (Or.inl (by rw [h1]; exact p5)))
              · exact g.sole i hi d hd (Or.inl hm)
            · exact g.sole i hi d hd (Or.inr (Or.inl (p4 _ hm)))
            · exact g.sole i hi d hd (Or.inr (Or.inr hm))
      | detach c =>
        simp only [handle]
        simp only [isSel, Bool.false_eq_true, if_false, Nat.add_zero] at p3
        refine ⟨?_, ?_, ?_, fun i hi c hm => g.stay i hi c (p4 _ hm), g.isOpen, g.takes, fun b rest hb => g.sel b rest (p4 _ hb), g.user, g.starting, g.replies⟩
        · have := g.one
          simp only [T] at this ⊢; omega
        · intro i hi
          rcases g.ready i hi with h | h | ⟨h1, h2, h3⟩
          · left
            simp only [setKids]
            split
            · rename_i h1
              subst h1
              have hne := g.stay i hi c p5
              rw [List.mem_eraseP_of_neg (by simpa using fun e => hne e.symm)]
              exact h
            · exact h
          · refine Or.inr (Or.inl ?_)
            by_cases hai : r i = a
            · subst hai
              rw [p1] at h
              rcases h.tail with h | h
              · cases h
              · exact h.2
            · simp only; rw [p2 (r i) hai]; exact h
          · exact Or.inr (Or.inr ⟨h1, by simp only; omega, h3⟩)
        · intro i hi d hd hm
          refine g.sole i hi d hd ?_
          rcases hm with hm | hm | hm
          · simp only [setKids] at hm
            split at hm
            · rename_i h1; left; rw [h1]; exact List.mem_of_mem_eraseP hm
            · exact Or.inl hm
          · exact Or.inr (Or.inl (p4 _ hm))
          · exact Or.inr (Or.inr hm)
      | sel rest sender =>
        simp only [handle]
        by_cases hs : sender = some k
        · subst hs
          simp only [isSel, decide_true, if_true] at p3
          obtain ⟨i, hi, rfl, hrest⟩ := g.sel a rest p5
          have hq0 : ∀ b rest, (b, Msg.sel rest (some k)) ∉ q := by
            intro b rest hb
            have h1 : 0 < q.countP (isSel k) := List.countP_pos_iff.2 ⟨_, hb, by simp [isSel]⟩
            have := g.one
            simp only [T] at this; omega
          have hr0 : ∀ x, (k, x) ∉ s.replies := by
            intro x hx
            have h1 : 0 < s.replies.countP (fun e => e.1 = k) := List.countP_pos_iff.2 ⟨_, hx, by simp⟩
            have := g.one
            simp only [T] at this; omega
          have hkid : ∀ j, j < n → r j = r i → r (j + 1) ∈ s.kids (r j) := by
            intro j hj hji
            rcases g.ready j hj with h | h | ⟨-, h, -⟩
            · exact h
            · rw [hji, p1] at h
              rcases h.tail with h | h
              · cases h
              · simp [isSelM] at h
            · omega
          have hready : ∀ j, j < n → ∀ ms, Ready r k { s with queue := q ++ ms } j := by
            intro j hj ms
            by_cases hji : r j = r i
            · exact Or.inl (hkid j hj hji)
            · rcases g.ready j hj with h | h | ⟨-, h, -⟩
              · exact Or.inl h
              · refine Or.inr (Or.inl ?_)
                simp only [qOf_append]
                rw [p2 (r j) hji]
                exact h.append _
              · omega
          have hg0 : ∀ (x : Reply), x = .success (r n) → Good path r n k (({ s with queue := q } : St).tell (some k) x) := by
            intro x hx
            refine ⟨?_, ?_, ?_, fun i hi c hm => g.stay i hi c (p4 _ hm), g.isOpen, g.takes, fun b rest hb => absurd hb (hq0 b rest), g.user, g.starting, ?_⟩
            · rw [T_tell, if_pos rfl]
              have := g.one
              simp only [T] at this ⊢
              omega
            · intro j hj
              have := hready j hj []
              rw [List.append_nil] at this; exact this
            · intro i hi d hd hm
              refine g.sole i hi d hd ?_
              rcases hm with hm | hm | hm
              · exact Or.inl hm
              · exact Or.inr (Or.inl (p4 _ hm))
              · exact Or.inr (Or.inr hm)
            · intro y hy
              simp only [St.tell, List.mem_append, List.mem_singleton, Prod.mk.injEq] at hy
              rcases hy with hy | ⟨-, rfl⟩
              · exact absurd hy (hr0 y)
              · exact hx
          rcases Nat.lt_or_ge i n with hin | hin
          · rw [names_drop hin] at hrest
            have hrest' : rest = ((namesOf path r n).drop (i + 1)).reverse ++ [getName (path (r (i + 1)))] := by
              rw [← List.reverse_reverse rest, hrest]; simp
            have hin' : r (i + 1) ∈ (s.kids (r i)).filter (fun c => decide (getName (path c) = getName (path (r (i + 1))))) := List.mem_filter.2 ⟨hkid i hin rfl, by simp⟩
            rcases select_cases path { s with queue := q } (r i) rest (some k) with ⟨hr, -⟩ | ⟨rest', next, hr, hn, -⟩ | ⟨rest', next, c, cs, hr, hc, hsel⟩
            · rw [hr] at hrest'; simp at hrest'
            · rw [hrest'] at hr
              obtain ⟨-, h2⟩ := List.append_inj' hr rfl
              simp only [List.cons.injEq, and_true] at h2
              exact absurd h2 (hn _ (hkid i hin rfl))
            · rw [hrest'] at hr
              obtain ⟨h1, h2⟩ := List.append_inj' hr rfl
              simp only [List.cons.injEq, and_true] at h2
              subst h2
              have hcm : c ∈ (s.kids (r i)).filter (fun c => decide (getName (path c) = getName (path (r (i + 1))))) := by
                have hc' : (s.kids (r i)).filter (fun c => decide (getName (path c) = getName (path (r (i + 1))))) = c :: cs := hc
                rw [hc']; simp
              obtain ⟨hc1, hc2⟩ := List.mem_filter.1 hcm
              have hceq : c = r (i + 1) := g.sole i hin c (by simpa using hc2) (Or.inl hc1)
              subst hceq
              rw [hsel]
              have ho : s.closed (r (i + 1)) = false := g.isOpen (i + 1) hin
              have har : arrive ({ s with queue := q } : St) ((r (i + 1), Msg.sel rest' (some k)) :: cs.map fun d => (d, Msg.sel [] none)) =
                  (r (i + 1), Msg.sel rest' (some k)) :: arrive ({ s with queue := q } : St) (cs.map fun d => (d, Msg.sel [] none)) := by
                simp [arrive, ho]
              have hdead : ∀ e ∈ arrive ({ s with queue := q } : St) (cs.map fun d => (d, Msg.sel [] none)), e.2 = .sel [] none := by
                intro e he
                obtain ⟨d, -, rfl⟩ := List.mem_map.1 (mem_arrive.1 he).1
                rfl
              rw [har]
              refine ⟨?_, fun j hj => hready j hj _, ?_, ?_, g.isOpen, g.takes, ?_, g.user, g.starting, g.replies⟩
              · have h0' : (arrive ({ s with queue := q } : St) (cs.map fun d => (d, Msg.sel [] none))).countP (isSel k) = 0 := by
                  rw [List.countP_eq_zero]
                  rintro ⟨d, m⟩ he
                  have := hdead _ he
                  simp only at this
                  subst this
                  simp [isSel]
                have := g.one
                simp only [T, List.countP_append, List.countP_cons, h0', isSel] at this ⊢
                simp; omega
              · intro i hi d hd hm
                refine g.sole i hi d hd ?_
                rcases hm with hm | hm | hm
                · exact Or.inl hm
                · rcases List.mem_append.1 hm with hm | hm
                  · exact Or.inr (Or.inl (p4 _ hm))
                  · rcases List.mem_cons.1 hm with hm | hm
                    · simp at hm
                    · have := hdead _ hm; simp at this
                · exact Or.inr (Or.inr hm)
              · intro i hi d hm
                rcases List.mem_append.1 hm with hm | hm
                · exact g.stay i hi d (p4 _ hm)
                · rcases List.mem_cons.1 hm with hm | hm
                  · simp at hm
                  · have := hdead _ hm; simp at this
              · intro b rest2 hm
                rcases List.mem_append.1 hm with hm | hm
                · exact absurd hm (hq0 b rest2)
                · rcases List.mem_cons.1 hm with hm | hm
                  · simp only [Prod.mk.injEq, Msg.sel.injEq, and_true] at hm
                    obtain ⟨rfl, rfl⟩ := hm
                    exact ⟨i + 1, hin, rfl, by rw [← h1]; simp⟩
                  · have := hdead _ hm; simp at this
          · have hin : i = n := by omega
            subst hin
            have hnil : rest = [] := by
              have : ((namesOf path r i).drop i) = [] := by rw [List.drop_eq_nil_iff, names_length]; exact Nat.le_refl _
              rw [this] at hrest
              simpa using hrest
            subst hnil
            exact hg0 _ rfl
        · have gp := g.popOther hp hs
          have htell : ∀ x, Good path r n k (({ s with queue := q } : St).tell sender x) := by
            intro x
            cases sender with
            | none => exact gp
            | some j =>
              have hj : j ≠ k := fun e => hs (by rw [e])
              refine ⟨?_, gp.ready, gp.sole, gp.stay, gp.isOpen, gp.takes, gp.sel, gp.user, gp.starting, ?_⟩
              · rw [T_tell, gp.one, if_neg hs]
              · intro y hy
                simp only [St.tell, List.mem_append, List.mem_singleton, Prod.mk.injEq] at hy
                rcases hy with hy | ⟨hy, -⟩
                · exact gp.replies y hy
                · exact absurd hy.symm hj
          rcases select_cases path { s with queue := q } a rest sender with ⟨-, hsel⟩ | ⟨_, _, -, -, hsel⟩ | ⟨rest', next, c, cs, -, -, hsel⟩ <;> rw [hsel]
          · exact htell _
          · exact htell _
          · have hall : ∀ e ∈ arrive ({ s with queue := q } : St) ((c, Msg.sel rest' sender) :: cs.map fun d => (d, Msg.sel [] none)), ∃ l o, e.2 = .sel l o := by
              intro e he
              rcases List.mem_cons.1 (mem_arrive.1 he).1 with rfl | he
              · exact ⟨_, _, rfl⟩
              · obtain ⟨d, -, rfl⟩ := List.mem_map.1 he
                exact ⟨_, _, rfl⟩
            refine gp.grow _ ?_ ?_ ?_
            · have := arrive_count_le ({ s with queue := q } : St) ((c, Msg.sel rest' sender) :: cs.map fun d => (d, Msg.sel [] none)) (isSel k)
              rw [fwd_count, if_neg hs] at this
              omega
            · intro i hi d _ hm
              obtain ⟨l, o, h⟩ := hall _ hm
              simp at h
            · intro i hi d hm
              obtain ⟨l, o, h⟩ := hall _ hm
              simp at h
  | stopping a =>
    refine ⟨g.one, g.ready, g.sole, g.stay, g.isOpen, ?_, g.sel, g.user, g.starting, g.replies⟩
    intro i hi
    have := he i hi
    simp only [Selection.step]
    rw [if_neg (fun e => this e.symm)]
    exact g.takes i hi
  | close a =>
    have hc : (s.queue.filter fun e => decide (e.1 ≠ a)).countP (isSel k) = s.queue.countP (isSel k) := by
      rw [List.countP_filter]
      refine List.countP_congr ?_
      rintro ⟨b, m⟩ hb
      simp only [Bool.and_eq_true, decide_eq_true_eq]
      constructor
      · exact fun h => h.1
      · intro h
        refine ⟨h, ?_⟩
        obtain ⟨rest, h1⟩ := isSel_iff.1 h
        simp only at h1
        subst h1
        obtain ⟨i, hi, rfl, -⟩ := g.sel b rest hb
        exact fun e => he i hi e.symm
    have hq : ∀ i, i < n → qOf (s.queue.filter fun e => decide (e.1 ≠ a)) (r i) = qOf s.queue (r i) := by
      intro i hi
      simp only [qOf, List.filter_filter]
      congr 1
      refine List.filter_congr ?_
      intro e _
      by_cases h1 : e.1 = r i
      · have := he i (Nat.le_of_lt hi)
        simp [h1, Ne.symm this]
      · simp [h1]
    refine ⟨?_, ?_, ?_, fun i hi c hm => g.stay i hi c (List.mem_filter.1 hm).1, ?_, g.takes, fun b rest hb => g.sel b rest (List.mem_filter.1 hb).1, g.user, g.starting, g.replies⟩
    · have := g.one
      simp only [Selection.step, T, hc] at this ⊢; exact this
    · intro i hi
      rcases g.ready i hi with h | h | ⟨h1, h2, h3⟩
      · exact Or.inl h
      · refine Or.inr (Or.inl ?_)
        simp only [Selection.step]
        rw [hq i hi]; exact h
      · refine Or.inr (Or.inr ⟨h1, ?_, h3⟩)
        simp only [Selection.step]
        rw [hc]; exact h2
    · intro i hi d hd hm
      refine g.sole i hi d hd ?_
      rcases hm with hm | hm | hm
      · exact Or.inl hm
      · exact Or.inr (Or.inl (List.mem_filter.1 hm).1)
      · exact Or.inr (Or.inr hm)
    · intro i hi
      simp only [Selection.step]
      rw [if_neg (fun e => he i hi e.symm)]
      exact g.isOpen i hi

theorem Good.init {s : St} (hf : Fresh k s) (hp : Placed path r n s) : Good path r n k (Selection.step path s (.find k (namesOf path r n).reverse)) := by
  obtain ⟨t1, t2, t3, t4⟩ := T_fresh hf
  refine ⟨T_find hf _, ?_, ?_, hp.stay, hp.isOpen, hp.takes, fun a rest h => absurd h (hf.queue a rest), ?_, fun l h => absurd h (hf.starting l), fun x h => absurd h (hf.replies x)⟩
  · intro i hi
    rcases hp.place i hi with h | h | h
    · exact Or.inl h
    · refine Or.inr (Or.inl (Before.of_mem (mem_qOf.2 h) ?_))
      intro y hy
      have := List.countP_eq_zero.1 t1 _ (mem_qOf.1 hy)
      rw [isSel_isSelM] at this
      simpa using this
    · refine Or.inr (Or.inr ⟨Before.append (Before.of_mem h ?_) _, t1, t3⟩)
      intro y hy
      simpa using List.countP_eq_zero.1 t2 _ hy
  · intro i hi c hc hm
    refine hp.sole i hi c hc ?_
    rcases hm with hm | hm | hm
    · exact Or.inl hm
    · exact Or.inr (Or.inl hm)
    · rcases List.mem_append.1 hm with hm | hm
      · exact Or.inr (Or.inr hm)
      · simp at hm
  · intro l hl
    rcases List.mem_append.1 hl with hl | hl
    · exact absurd hl (hf.user l)
    · simp only [List.mem_singleton, Add.selector.injEq, true_and] at hl
      exact hl

/-- An actor that was created before `find` was called, even if it is not in the tree yet, is found, if its names are unique and none of the actors on the way stops. -/
theorem C68_found {s0 s : St} {h : List St} (hf : Fresh k s0) (hp : Placed path r n s0) (hx : Exec path (Undisturbed path r n k) (step path s0 (.find k (namesOf path r n).reverse)) h s) :
    (answers k s = [] ∧ Pending k s) ∨ (answers k s = [.success (r n)] ∧ ¬ Pending k s) := by
  have g : Good path r n k s := by
    induction hx with
    | init => exact Good.init hf hp
    | step _ he ih => exact ih.step hp.root _ he
  have hl := answers_length k s
  have h1 := g.one
  simp only [T] at h1
  have hpos := pending_iff k s
  by_cases hpd : Pending k s
  · left
    have := hpos.2 hpd
    exact ⟨List.length_eq_zero_iff.1 (by omega), hpd⟩
  · right
    refine ⟨?_, hpd⟩
    have h0 : ¬ 0 < s.queue.countP (isSel k) + s.rootUsr.countP (isUser k) + s.starting.countP (fun e => e.1 = k) := fun h => hpd (hpos.1 h)
    have hlen : (answers k s).length = 1 := by omega
    obtain ⟨x, hx⟩ := List.length_eq_one_iff.1 hlen
    have hm : x ∈ answers k s := by rw [hx]; simp
    simp only [answers, List.mem_map, List.mem_filter] at hm
    obtain ⟨⟨j, y⟩, ⟨h3, h4⟩, h5⟩ := hm
    simp only [decide_eq_true_eq] at h4 h5
    subst h4 h5
    rw [hx, g.replies _ h3]

/-! ## `find` with the path of an actor -/

theorem parsed_unique {m s1 s2 : Str} {c1 c2 : Scope} {n1 n2 : List Str} (h1 : ActorPath.Parsed m s1 c1 n1) (h2 : ActorPath.Parsed m s2 c2 n2) : s1 = s2 ∧ c1 = c2 ∧ n1 = n2 := by
  obtain ⟨r, a, b, rest, c, n, e1, e2, e3, -, e5⟩ := h1
  obtain ⟨r', a', b', rest', c', n', f1, f2, f3, -, f5⟩ := h2
  have : r = r' := List.append_cancel_left (e1.symm.trans f1)
  subst this
  rw [e2] at f2
  simp only [List.cons.injEq] at f2
  obtain ⟨rfl, rfl, rfl⟩ := f2
  exact ⟨rfl, (ActorPath.mem_scopeNames e3).1.symm.trans (ActorPath.mem_scopeNames f3).1, e5.trans f5.symm⟩

theorem namesOf_succ (path : Id → Str) (r : Nat → Id) (n : Nat) : namesOf path r (n + 1) = namesOf path r n ++ [getName (path (r (n + 1)))] := by
  simp [namesOf, List.range_succ]

theorem Made.parsed {system : Str} {scope : Scope} {m : Nat} {names : List Str} (hs : scope ≠ .unknown) (h : Made path r system scope m names) :
    ActorPath.Parsed (path (r m)) system scope names ∧ namesOf path r m = scopeToStr scope :: names ∧ names ≠ [] := by
  induction h with
  | @top name hv hb hg =>
    have hn : ∀ x ∈ name, ActorPath.slash x = false := by
      intro x hx
      have := ((ActorPath.C36_names name).1 hv).2 x hx
      simpa [ActorPath.slash] using this.2
    have h0 : name ≠ [] := ((ActorPath.C36_names name).1 hv).1
    have hp := (ActorPath.C36_roundtrip system name _ scope ⟨[], none, []⟩ hs hb).1
    have hb' := (ActorPath.C36_build system name (path (r 2)) scope).1 hb
    have hpre : ∀ t, t ≠ [] → ActorPath.root ≠ path (r 2) ++ t := by
      intro t _ e
      have h1 := congrArg List.length e
      rw [hb'.2.2] at h1
      have : "yato://".toList.length = ActorPath.root.length := by decide
      simp only [List.length_append, List.length_singleton] at h1
      omega
    have hpcs : Tokens.nonEmptyPieces ActorPath.slash name = [name] := by
      simp only [Tokens.nonEmptyPieces, Tokens.pieces_noSep hn]
      cases name with
      | nil => exact absurd rfl h0
      | cons => rfl
    obtain ⟨b, e, h1, -, h3⟩ := ActorPath.C36_parse_partial (path (r 2)) ⟨[], none, []⟩ hpre
    rw [hp, hpcs] at h1
    simp only [Option.some.injEq, Prod.mk.injEq] at h1
    obtain ⟨rfl, rfl⟩ := h1
    obtain ⟨sc, h4, h5⟩ := h3 rfl
    simp only [Option.some.injEq] at h5
    subst h5
    refine ⟨h4, ?_, by simp⟩
    have := (ActorPath.C36_name [] name system (path (r 2)) scope hv).2 hb
    simp [namesOf, List.range_succ, hg, this]
  | @child i ns name h hv hp ih =>
    obtain ⟨h1, h2, -⟩ := ih
    refine ⟨?_, ?_, by simp⟩
    · rw [hp]; exact ActorPath.C36_join _ _ _ _ _ hv h1
    · have := (ActorPath.C36_name (path (r i)) name [] [] .user hv).1
      rw [namesOf_succ, h2, hp, this]; rfl

/-- `find` with a path that was made by creating actors starts the search for the names along the route of this actor. -/
theorem C68_path {system : Str} {scope : Scope} {names : List Str} (s : St) (hs : scope ≠ .unknown) (h : Made path r system scope n names) :
    findPath path s k (path (r n)) = some (step path s (.find k (namesOf path r n).reverse)) := by
  obtain ⟨h1, h2, h3⟩ := h.parsed hs
  have hpre : ∀ t, t ≠ [] → ActorPath.root ≠ path (r n) ++ t := by
    intro t ht e
    obtain ⟨q, _, _, _, _, _, e1, e2, -⟩ := h1
    have := congrArg List.length e
    rw [e1] at this
    have h4 : 0 < t.length := List.length_pos_iff.2 ht
    simp only [List.length_append] at this
    omega
  obtain ⟨b, e, p1, p2, p3⟩ := ActorPath.C36_parse_partial (path (r n)) ⟨[], none, []⟩ hpre
  have hb : b = true := p2.2 ⟨_, _, _, h1, h3⟩
  subst hb
  obtain ⟨sc, p4, p5⟩ := p3 rfl
  obtain ⟨-, rfl, hnm⟩ := parsed_unique p4 h1
  simp only [findPath, p1, p5, Option.getD_some, searchPath, hnm, h2, List.reverse_cons]

/-- A path that is not one is answered with a failure, and nothing else happens. -/
theorem C68_invalid (s : St) (target : Str) (hm : ∀ t, t ≠ [] → ActorPath.root ≠ target ++ t) (hn : ∀ system scope names, ActorPath.Parsed target system scope names → names = []) :
    ∃ s', findPath path s k target = some s' ∧ answers k s' = answers k s ++ [.failure] ∧ (Pending k s' ↔ Pending k s) := by
  obtain ⟨b, e, p1, p2, -⟩ := ActorPath.C36_parse_partial target ⟨[], none, []⟩ hm
  cases b with
  | true =>
    obtain ⟨sy, sc, ns, h1, h2⟩ := p2.1 rfl
    exact absurd (hn _ _ _ h1) h2
  | false => exact ⟨{ s with replies := s.replies ++ [(k, .failure)] }, by simp [findPath, p1], by simp [answers], Iff.rfl⟩

/-! ## Non-vacuity -/

example : ∀ system scope names, ActorPath.Parsed ['x'] system scope names → names = [] := by
  rintro _ _ _ ⟨q, _, _, _, _, _, e, -, -⟩
  simp [ActorPath.root] at e

def exPath : Id → Str
  | 1 => ['x', '/', 'u', 's', 'e', 'r']
  | 2 => ActorPath.root ++ ['s', '/', 'u', 's', 'e', 'r', '/', 'a']
  | 3 => ActorPath.root ++ ['s', '/', 'u', 's', 'e', 'r', '/', 'a', '/', 'b']
  | _ => []

/-- the guardian is in the tree, actor 2 was just created, actor 3 is its child, and its `attach_child` is in the queue -/
def exState : St := { St.idle (fun i => if i = 0 then [1] else []) with rootUsr := [.actor 1 2], queue := [(2, .attach 3)] }

example : Made exPath id ['s'] .user 3 [['a'], ['b']] := .child (names := [['a']]) (.top (by decide) (by decide +kernel) (by decide)) (by decide) (by decide)

theorem exPlaced : Placed exPath id 3 exState := by
  refine ⟨rfl, ?_, ?_, ?_, fun _ _ => rfl, fun _ _ => rfl⟩
  · intro i hi
    have : i = 0 ∨ i = 1 ∨ i = 2 := by omega
    rcases this with rfl | rfl | rfl <;> decide
  · intro i hi c _ hm
    have : i = 0 ∨ i = 1 ∨ i = 2 := by omega
    rcases this with rfl | rfl | rfl <;> simp_all [exState, St.idle]
  · intro i hi c hm
    simp [exState] at hm

example : Fresh 7 exState := by
  refine ⟨?_, ?_, ?_, ?_⟩ <;> intros <;> simp [exState, St.idle]

def exEvents : List Ev := [.rootUser, .sys 2, .rootUser, .start 7, .sys 0, .sys 1, .sys 1, .sys 2, .sys 3]

example : ∀ e ∈ exEvents, Undisturbed exPath id 3 7 e := by simp [exEvents, Undisturbed]

example : (exEvents.foldl (step exPath) (step exPath exState (.find 7 (namesOf exPath id 3).reverse))).replies = [(7, .success 3)] := by decide +kernel

example : (exEvents.foldl (step exPath) (step exPath exState (.find 7 [['c'], ['u', 's', 'e', 'r']]))).replies = [(7, .failure)] := by decide +kernel

/-! ## What is not true -/

def twinPath : Id → Str
  | 1 => ['/', 'u']
  | 2 => ['/', 'a']
  | 3 => ['/', 'a']
  | 4 => ['/', 'b']
  | _ => []

/-- Two actors with the same name, the second of which has a child `b`. -/
def twins : St := St.idle fun i => if i = 0 then [1] else if i = 1 then [2, 3] else if i = 3 then [4] else []

/-- When two siblings have the same name, only the first is searched: the child `b` of the second one is there all the time and not found. -/
theorem C68_twins_violated : Went twinPath [twins, twins, twins] [['u'], ['a'], ['b']] 4 ∧
    ([.rootUser, .start 7, .sys 0, .sys 1, .sys 2, .sys 3].foldl (step twinPath) (step twinPath twins (.find 7 [['b'], ['a'], ['u']]))).replies = [(7, .failure)] := by
  refine ⟨?_, by decide +kernel⟩
  exact .down (c := 4) (a := 3) (.down (c := 3) (a := 1) (.down (c := 1) (.start _) (by decide)) (by decide)) (by decide)

/-- The name of the system is not looked at: the path of an actor in another system finds the actor with the same scope and names here. -/
theorem C68_other_system_violated (s : St) (system other name m1 m2 : Str) (scope : Scope) (hs : scope ≠ .unknown) (h1 : ActorPath.build system scope name = some m1)
    (h2 : ActorPath.build other scope name = some m2) : findPath path s k m1 = findPath path s k m2 := by
  simp only [findPath, (ActorPath.C36_roundtrip _ _ _ _ ⟨[], none, []⟩ hs h1).1, (ActorPath.C36_roundtrip _ _ _ _ ⟨[], none, []⟩ hs h2).1]
  cases (Tokens.nonEmptyPieces ActorPath.slash name).isEmpty <;> rfl

example : ∃ m1 m2, ActorPath.build ['s'] .user ['a'] = some m1 ∧ ActorPath.build ['t'] .user ['a'] = some m2 ∧ m1 ≠ m2 := ⟨_, _, rfl, rfl, by decide⟩

/-! ## Closed mailboxes -/

theorem send_other {s : St} {a b : Id} {m : Msg} (h : s.closed a = true) (hq : ∀ m, (a, m) ∉ s.queue) :
    (s.send b m).closed a = true ∧ (∀ m', (a, m') ∉ (s.send b m).queue) ∧ (s.send b m).kids = s.kids := by
  unfold St.send
  split
  · exact ⟨h, hq, rfl⟩
  · rename_i hb
    refine ⟨h, fun m' hm => ?_, rfl⟩
    rcases List.mem_append.1 hm with hm | hm
    · exact hq _ hm
    · simp at hm; obtain ⟨rfl, _⟩ := hm; exact hb h

theorem sendAll_other {a : Id} {ms : List (Id × Msg)} : ∀ {s : St}, s.closed a = true → (∀ m, (a, m) ∉ s.queue) →
    (sendAll ms s).closed a = true ∧ (∀ m, (a, m) ∉ (sendAll ms s).queue) ∧ (sendAll ms s).kids = s.kids := by
  induction ms with
  | nil => intro s h hq; exact ⟨h, hq, rfl⟩
  | cons e ms ih =>
    intro s h hq
    obtain ⟨h1, h2, h3⟩ := send_other (b := e.1) (m := e.2) h hq
    obtain ⟨i1, i2, i3⟩ := ih h1 h2
    exact ⟨i1, i2, i3.trans h3⟩

theorem pop_mem {a : Id} : ∀ {q q' : List (Id × Msg)} {m : Msg}, pop a q = some (m, q') → (a, m) ∈ q ∧ ∀ e ∈ q', e ∈ q := by
  intro q
  induction q with
  | nil => intro q' m h; simp [pop] at h
  | cons e q ih =>
    intro q' m h
    obtain ⟨b, m0⟩ := e
    simp only [pop] at h
    split at h
    · rename_i hb
      simp at h; obtain ⟨rfl, rfl⟩ := h; subst hb
      exact ⟨by simp, fun e he => List.mem_cons_of_mem _ he⟩
    · cases hp : pop a q with
      | none => rw [hp] at h; simp at h
      | some r =>
        rw [hp] at h; simp at h
        obtain ⟨rfl, rfl⟩ := h
        obtain ⟨h1, h2⟩ := ih (q' := r.2) (m := r.1) hp
        refine ⟨List.mem_cons_of_mem _ h1, fun e he => ?_⟩
        rcases List.mem_cons.1 he with rfl | he
        · simp
        · exact List.mem_cons_of_mem _ (h2 e he)

/-- What stays as it is once the mailbox of `a` is closed. -/
structure Shut (a : Id) (kids : List Id) (s : St) : Prop where
  closed : s.closed a = true
  queue : ∀ m, (a, m) ∉ s.queue
  kids : s.kids a = kids

theorem Shut.send {a : Id} {l : List Id} {s : St} (h : Shut a l s) (b : Id) (m : Msg) : Shut a l (s.send b m) := by
  obtain ⟨h1, h2, h3⟩ := send_other (b := b) (m := m) h.closed h.queue
  exact ⟨h1, h2, by rw [h3]; exact h.kids⟩

theorem Shut.handle {path : Id → Str} {a b : Id} {l : List Id} {s : St} (h : Shut a l s) (hb : b ≠ a) (m : Msg) : Shut a l (Selection.handle path s b m) := by
  have hk : ∀ l', setKids s.kids b l' a = s.kids a := fun l' => by unfold setKids; rw [if_neg (Ne.symm hb)]
  have tell : ∀ sender r, Shut a l (s.tell sender r) := fun sender r => by cases sender <;> exact ⟨h.closed, h.queue, h.kids⟩
  cases m with
  | attach c =>
    simp only [Selection.handle]
    split
    · exact h
    · exact ⟨h.closed, h.queue, by show setKids _ _ _ a = l; rw [hk]; exact h.kids⟩
  | detach c => exact ⟨h.closed, h.queue, by show setKids _ _ _ a = l; rw [hk]; exact h.kids⟩
  | sel rest sender =>
    simp only [Selection.handle, select]
    split
    · exact tell _ _
    · split
      · exact tell _ _
      · obtain ⟨h1, h2, h3⟩ := sendAll_other (ms := forward path _ (s.kids b) rest.dropLast sender) h.closed h.queue
        exact ⟨h1, h2, by rw [h3]; exact h.kids⟩

theorem Shut.step {path : Id → Str} {a : Id} {l : List Id} {s : St} (h : Shut a l s) (e : Ev) : Shut a l (Selection.step path s e) := by
  cases e with
  | createChild p c => exact h.send _ _
  | createTop g c => exact ⟨h.closed, h.queue, h.kids⟩
  | gone p c => exact h.send _ _
  | find k search => exact ⟨h.closed, h.queue, h.kids⟩
  | rootUser =>
    simp only [Selection.step]
    split
    · exact h
    · rename_i g c u _
      exact Shut.send (s := { s with rootUsr := u }) ⟨h.closed, h.queue, h.kids⟩ g (.attach c)
    · exact ⟨h.closed, h.queue, h.kids⟩
  | start k =>
    simp only [Selection.step]
    split
    · exact h
    · rename_i search _
      exact Shut.send (s := { s with starting := s.starting.eraseP fun e => e.1 = k }) ⟨h.closed, h.queue, h.kids⟩ root (.sel search (some k))
  | sys b =>
    simp only [Selection.step]
    split
    · exact h
    · rename_i m q hp
      obtain ⟨h1, h2⟩ := pop_mem hp
      have hb : b ≠ a := by rintro rfl; exact h.queue m h1
      exact Shut.handle (s := { s with queue := q }) ⟨h.closed, fun m' hm => h.queue m' (h2 _ hm), h.kids⟩ hb m
  | stopping b => exact ⟨h.closed, h.queue, h.kids⟩
  | close b =>
    refine ⟨?_, ?_, h.kids⟩
    · show (if a = b then true else s.closed a) = true
      split
      · rfl
      · exact h.closed
    · intro m hm
      exact h.queue m (List.mem_filter.1 hm).1

/-- **C68**, an actor that has stopped takes no part: once its mailbox is closed no message waits for it ever again, and its
list of children stays as it is, whatever happens. -/
theorem C68_closed {s0 s : St} {h : List St} (a : Id) (hx : Exec path (fun _ => True) (step path s0 (.close a)) h s) :
    (∀ m, (a, m) ∉ s.queue) ∧ s.kids a = s0.kids a ∧ ∀ e, step path s (.sys a) = s ∧ (step path s e).kids a = s0.kids a := by
  have h0 : Shut a (s0.kids a) (step path s0 (.close a)) := by
    refine ⟨?_, ?_, rfl⟩
    · show (if a = a then true else s0.closed a) = true
      simp
    · intro m hm
      have := (List.mem_filter.1 hm).2
      simp at this
  have key : Shut a (s0.kids a) s := by
    induction hx with
    | init => exact h0
    | step _ _ ih => exact ih.step _
  refine ⟨key.queue, key.kids, fun e => ⟨?_, (key.step e).kids⟩⟩
  simp only [step]
  cases hp : pop a s.queue with
  | none => rfl
  | some r => exact absurd (pop_mem (m := r.1) (q' := r.2) hp).1 (key.queue _)

example : (step (fun _ => []) (step (fun _ => []) { St.idle (fun _ => []) with queue := [(3, .attach 4), (2, .attach 5)] } (.close 3)) (.createChild 3 7)).queue = [(2, .attach 5)] := by
  decide

end Verif.Selection
