import Verif.Model.AtomicThreads
import Verif.Props.C34_AtomicAttributes

/-!
# C101: threads share atomic attributes without locks
-/
set_option autoImplicit false
set_option linter.unusedSectionVars false

namespace Verif.AtomicThreads

open AtomicAttributes (Map Op Entry find fromAtomic Spec Rel spec specRun conc)

variable {K β : Type} [DecidableEq K]

/-! ## Specification -/

/-- Calls that may be made without locking: not `register_attribute`, which is for the beginning, and not `clear_attribute`. -/
def Calm : Op K β → Prop
  | .register _ _ _ | .clear _ => False
  | _ => True

/-- The attributes (types and values, `AtomicAttributes.Spec` of C34) after the first `n` calls that ended, one after another; `σ`: at the
beginning. -/
def at_ (σ : Spec K β) (log : List (Event K β)) (n : Nat) : Spec K β := (specRun σ ((log.take n).map (·.op))).2

/-- What the call that ended as number `n` may answer. A copy: exactly the registered attributes, each with its type and with a value that
it had at some time between the begin and the end of the copying. Any other call: the answer of the sequential specification. -/
def Explained (σ : Spec K β) (log : List (Event K β)) (n : Nat) (e : Event K β) : Prop :=
  match e.op with
  | .copy => ∃ l, e.res = .copied l ∧ (l.map (·.1)).Nodup ∧ (∀ k, k ∈ l.map (·.1) ↔ (σ k).isSome) ∧
      ∀ x ∈ l, ∃ i, e.start ≤ i ∧ i ≤ n ∧ at_ σ log i x.1 = some (x.2.1, some x.2.2)
  | op => e.res = .answer (spec (at_ σ log n) op).1

/-- An object with attributes that were registered and not cleared; `σ` are their types and values. -/
structure Ready (m : Map K β) (σ : Spec K β) : Prop where
  rel : Rel m σ
  full : ∀ k T, σ k ≠ some (T, none)

/-- Turns that a thread needs at most, for `n` attributes: two for a call, for a copy one more for each attribute. -/
def turns (n : Nat) : List (Op K β) → Nat
  | [] => 0
  | .copy :: p => n + 2 + turns n p
  | _ :: p => 2 + turns n p

/-! ## The sequential side -/

theorem calm_spec {σ : Spec K β} (hf : ∀ k T, σ k ≠ some (T, none)) {op : Op K β} (hc : Calm op) :
    (∀ k T, (spec σ op).2 k ≠ some (T, none)) ∧ ∀ k, ((spec σ op).2 k).map (·.1) = (σ k).map (·.1) := by
  have same : ∀ σ' : Spec K β, σ' = σ → (∀ k T, σ' k ≠ some (T, none)) ∧ ∀ k, (σ' k).map (·.1) = (σ k).map (·.1) := by
    rintro _ rfl; exact ⟨hf, fun _ => rfl⟩
  cases op with
  | register k T a => exact hc.elim
  | clear k => exact hc.elim
  | has k => exact same _ rfl
  | copy => exact same _ rfl
  | getAs k T => simp only [spec]; split <;> exact same _ rfl
  | getOr k T d => exact same _ rfl
  | getOpt k T => simp only [spec]; split <;> exact same _ rfl
  | set k v =>
    simp only [spec]
    cases hk : σ k with
    | none => exact same _ rfl
    | some e =>
      obtain ⟨T, w⟩ := e
      cases v with
      | none => exact same _ rfl
      | some p =>
        obtain ⟨U, a⟩ := p
        by_cases c : U = T
        · simp only [c, if_true]
          refine ⟨fun j U' => ?_, fun j => ?_⟩
          · simp only [Spec.put]
            split
            · intro h; cases h
            · exact hf j U'
          · simp only [Spec.put]
            split
            · rename_i e; subst e; rw [hk]; rfl
            · rfl
        · simp only [c, if_false]; exact ⟨hf, fun _ => trivial⟩

theorem specRun_snoc (op : Op K β) : ∀ (ops : List (Op K β)) (σ : Spec K β), (specRun σ (ops ++ [op])).2 = (spec (specRun σ ops).2 op).2
  | [], _ => rfl
  | x :: ops, σ => by simp only [List.cons_append, specRun]; exact specRun_snoc op ops _

theorem at_append (σ : Spec K β) (log : List (Event K β)) (e : Event K β) {i : Nat} (hi : i ≤ log.length) : at_ σ (log ++ [e]) i = at_ σ log i := by
  simp only [at_, List.take_append_of_le_length hi]

theorem at_snoc (σ : Spec K β) (log : List (Event K β)) (e : Event K β) : at_ σ (log ++ [e]) (log.length + 1) = (spec (at_ σ log log.length) e.op).2 := by
  simp only [at_]
  rw [List.take_of_length_le (by simp), List.take_of_length_le (Nat.le_refl _), List.map_append]
  exact specRun_snoc _ _ _

theorem explained_append {σ : Spec K β} {log : List (Event K β)} {e : Event K β} (x : Event K β) {n : Nat} (hn : n ≤ log.length) (h : Explained σ log n e) :
    Explained σ (log ++ [x]) n e := by
  unfold Explained at h ⊢
  split at h
  · rename_i ho
    obtain ⟨l, h1, h2, h3, h4⟩ := h
    refine ⟨l, h1, h2, h3, fun y hy => ?_⟩
    obtain ⟨i, i1, i2, i3⟩ := h4 y hy
    exact ⟨i, i1, i2, by rw [at_append σ log x (by omega)]; exact i3⟩
  · rw [at_append σ log x hn]; exact h

/-! ## The invariant -/

/-- The phase of a thread fits to its program. -/
def Fits (σ : Spec K β) (keys : List K) (log : List (Event K β)) (th : Thread K β) : Prop :=
  match th.phase with
  | .idle => True
  | .began st => st ≤ log.length ∧ ∃ x p, th.prog = x :: p ∧ x ≠ .copy
  | .copying st todo got => st ≤ log.length ∧ (∃ p, th.prog = .copy :: p) ∧ got.map (·.1) ++ todo = keys ∧
      ∀ x ∈ got, ∃ i, st ≤ i ∧ i ≤ log.length ∧ at_ σ log i x.1 = some (x.2.1, some x.2.2)

theorem Fits.append {σ : Spec K β} {keys : List K} {log : List (Event K β)} {th : Thread K β} (e : Event K β) (h : Fits σ keys log th) : Fits σ keys (log ++ [e]) th := by
  unfold Fits at h ⊢
  cases hp : th.phase with
  | idle => trivial
  | began st => rw [hp] at h; exact ⟨by simp only [List.length_append]; omega, h.2⟩
  | copying st todo got =>
    rw [hp] at h
    obtain ⟨h1, h2, h3, h4⟩ := h
    refine ⟨by simp only [List.length_append]; omega, h2, h3, fun x hx => ?_⟩
    obtain ⟨i, i1, i2, i3⟩ := h4 x hx
    exact ⟨i, i1, by simp only [List.length_append]; omega, by rw [at_append σ log e i2]; exact i3⟩

structure Inv (m : Map K β) (σ : Spec K β) (progs : List (List (Op K β))) (s : St K β) : Prop where
  rel : Rel s.map (at_ σ s.log s.log.length)
  full : ∀ k T, at_ σ s.log s.log.length k ≠ some (T, none)
  types : ∀ k, (at_ σ s.log s.log.length k).map (·.1) = (σ k).map (·.1)
  keys : s.map.map (·.1) = m.map (·.1)
  calm : ∀ (t : Nat) (th : Thread K β), s.threads[t]? = some th → ∀ x ∈ th.prog, Calm x
  fits : ∀ (t : Nat) (th : Thread K β), s.threads[t]? = some th → Fits σ (m.map (·.1)) s.log th
  log : ∀ (n : Nat) (e : Event K β), s.log[n]? = some e → e.start ≤ n ∧ Explained σ s.log n e
  progs : ∀ (t : Nat) (th : Thread K β), s.threads[t]? = some th → progs[t]? = some (((s.log.filter fun e => e.thread == t).map (·.op)) ++ th.prog)

theorem get_set {ts : List (Thread K β)} {t u : Nat} {x th : Thread K β} (h : (ts.set t x)[u]? = some th) : (u = t ∧ th = x) ∨ (u ≠ t ∧ ts[u]? = some th) := by
  rw [List.getElem?_set] at h
  by_cases hu : t = u
  · subst hu
    rw [if_pos rfl] at h
    split at h
    · cases h; exact .inl ⟨rfl, rfl⟩
    · cases h
  · rw [if_neg hu] at h
    exact .inr ⟨Ne.symm hu, h⟩

theorem calm_acc (m : Map K β) {x : Op K β} (hx : Calm x) : ∀ a ∈ accesses m x, a.write = false := by
  have look : ∀ k, ∀ a ∈ lookup m k false, a.write = false := by
    intro k a ha
    simp only [lookup] at ha
    split at ha <;> simp at ha
    · rcases ha with rfl | rfl <;> rfl
    · subst ha; rfl
  intro a ha
  cases x with
  | register k T b => exact hx.elim
  | clear k => exact hx.elim
  | has k => simp [accesses] at ha; subst ha; rfl
  | copy =>
    simp only [accesses, List.mem_cons, List.mem_map] at ha
    rcases ha with rfl | ⟨p, _, rfl⟩ <;> rfl
  | set k v => exact look k a ha
  | getAs k T => exact look k a ha
  | getOr k T d => exact look k a ha
  | getOpt k T => exact look k a ha

theorem no_race {m : Map K β} {σ : Spec K β} {progs : List (List (Op K β))} {s : St K β} (hi : Inv m σ progs s) (t : Nat) {x : Op K β} (hx : Calm x) :
    races s.map s.threads t x = false := by
  cases hr : races s.map s.threads t x with
  | false => rfl
  | true =>
    exfalso
    simp only [races, List.any_eq_true] at hr
    obtain ⟨⟨th, u⟩, hmem, hq⟩ := hr
    have hu := List.mk_mem_zipIdx_iff_getElem?.mp hmem
    simp only [Bool.and_eq_true] at hq
    obtain ⟨_, hq⟩ := hq
    cases th with
    | mk q ph =>
      cases q with
      | nil => simp at hq
      | cons y q =>
        simp only [List.any_eq_true] at hq
        obtain ⟨a, ha, b, hb, hcl⟩ := hq
        have h1 := calm_acc s.map hx a ha
        have h2 := calm_acc s.map (hi.calm u _ hu y (by simp)) b hb
        simp [clash, h1, h2] at hcl

/-- The end of a call. -/
theorem finish_ok {m : Map K β} {σ : Spec K β} {progs : List (List (Op K β))} {s : St K β} (hi : Inv m σ progs s) {t : Nat} {x : Op K β} {p : List (Op K β)} {ph : Phase K β}
    (ht : s.threads[t]? = some ⟨x :: p, ph⟩) {m' : Map K β} {r : Res K β} {st : Nat} (hst : st ≤ s.log.length)
    (hrel : Rel m' (spec (at_ σ s.log s.log.length) x).2) (hkeys : m'.map (·.1) = s.map.map (·.1)) (hex : Explained σ s.log s.log.length ⟨t, x, r, st⟩) :
    Inv m σ progs (finish s t x p m' r st) := by
  have hc : Calm x := hi.calm t _ ht x (by simp)
  obtain ⟨c1, c2⟩ := calm_spec hi.full hc
  have hat : at_ σ (s.log ++ [(⟨t, x, r, st⟩ : Event K β)]) (s.log ++ [(⟨t, x, r, st⟩ : Event K β)]).length = (spec (at_ σ s.log s.log.length) x).2 := by
    rw [show (s.log ++ [(⟨t, x, r, st⟩ : Event K β)]).length = s.log.length + 1 by simp]
    exact at_snoc σ s.log ⟨t, x, r, st⟩
  refine ⟨?_, ?_, ?_, ?_, ?_, ?_, ?_, ?_⟩
  · show Rel m' (at_ σ (s.log ++ [(⟨t, x, r, st⟩ : Event K β)]) (s.log ++ [(⟨t, x, r, st⟩ : Event K β)]).length)
    rw [hat]; exact hrel
  · show ∀ k T, at_ σ (s.log ++ [(⟨t, x, r, st⟩ : Event K β)]) (s.log ++ [(⟨t, x, r, st⟩ : Event K β)]).length k ≠ some (T, none)
    rw [hat]; exact c1
  · show ∀ k, (at_ σ (s.log ++ [(⟨t, x, r, st⟩ : Event K β)]) (s.log ++ [(⟨t, x, r, st⟩ : Event K β)]).length k).map (·.1) = (σ k).map (·.1)
    rw [hat]; exact fun k => (c2 k).trans (hi.types k)
  · exact hkeys.trans hi.keys
  · intro u th hu
    rcases get_set hu with ⟨rfl, rfl⟩ | ⟨_, hu⟩
    · exact fun y hy => hi.calm u _ ht y (by simp [hy])
    · exact hi.calm u th hu
  · intro u th hu
    rcases get_set hu with ⟨rfl, rfl⟩ | ⟨_, hu⟩
    · trivial
    · exact (hi.fits u th hu).append _
  · intro n e he
    have he : (s.log ++ [⟨t, x, r, st⟩])[n]? = some e := he
    show e.start ≤ n ∧ Explained σ (s.log ++ [⟨t, x, r, st⟩]) n e
    by_cases hn : n < s.log.length
    · rw [List.getElem?_append_left hn] at he
      exact ⟨(hi.log n e he).1, explained_append _ (by omega) (hi.log n e he).2⟩
    · rw [List.getElem?_append_right (by omega)] at he
      have hz : n - s.log.length = 0 := by
        rcases Nat.eq_zero_or_pos (n - s.log.length) with h | h
        · exact h
        · rw [List.getElem?_eq_none (by simp; omega)] at he; cases he
      rw [hz] at he
      cases he
      have : n = s.log.length := by omega
      subst this
      exact ⟨hst, explained_append _ (Nat.le_refl _) hex⟩
  · intro u th hu
    show progs[u]? = some ((((s.log ++ [(⟨t, x, r, st⟩ : Event K β)]).filter fun e => e.thread == u).map (·.op)) ++ th.prog)
    rcases get_set hu with ⟨rfl, rfl⟩ | ⟨hne, hu⟩
    · rw [hi.progs u _ ht]; simp [List.filter_append]
    · rw [hi.progs u _ hu]
      have : (t == u) = false := by simp [Ne.symm hne]
      simp [List.filter_append, this]

/-- A turn that changes only the phase of a thread. -/
theorem phase_ok {m : Map K β} {σ : Spec K β} {progs : List (List (Op K β))} {s : St K β} (hi : Inv m σ progs s) {t : Nat} {th : Thread K β} (ht : s.threads[t]? = some th)
    {ph : Phase K β} (hf : Fits σ (m.map (·.1)) s.log ⟨th.prog, ph⟩) : Inv m σ progs { s with threads := s.threads.set t ⟨th.prog, ph⟩ } := by
  refine ⟨hi.rel, hi.full, hi.types, hi.keys, ?_, ?_, hi.log, ?_⟩
  · intro u y hu
    rcases get_set hu with ⟨rfl, rfl⟩ | ⟨_, hu⟩
    · exact hi.calm u th ht
    · exact hi.calm u y hu
  · intro u y hu
    rcases get_set hu with ⟨rfl, rfl⟩ | ⟨_, hu⟩
    · exact hf
    · exact hi.fits u y hu
  · intro u y hu
    rcases get_set hu with ⟨rfl, rfl⟩ | ⟨_, hu⟩
    · exact hi.progs u th ht
    · exact hi.progs u y hu

theorem calm_fine {σ : Spec K β} (hf : ∀ k T, σ k ≠ some (T, none)) {op : Op K β} (hc : Calm op) : AtomicAttributes.Fine σ op := by
  cases op <;> first | exact hc.elim | trivial | exact fun T => hf _ T | exact hf

theorem keys_step (m : Map K β) {op : Op K β} (hc : Calm op) (hne : op ≠ .copy) : (AtomicAttributes.step m op).2.map (·.1) = m.map (·.1) := by
  cases op with
  | register k T a => exact hc.elim
  | clear k => exact hc.elim
  | copy => exact absurd rfl hne
  | set k v =>
    simp only [AtomicAttributes.step]
    split
    · rfl
    · split
      · rfl
      · exact AtomicAttributes.keys_setValue k _ m
  | has k => rfl
  | getAs k T => simp only [AtomicAttributes.step]; repeat' split
                 all_goals rfl
  | getOr k T d => simp only [AtomicAttributes.step]; repeat' split
                   all_goals rfl
  | getOpt k T => simp only [AtomicAttributes.step]; repeat' split
                  all_goals rfl

/-- Turns that thread `th` still needs. -/
def needs (n : Nat) (th : Thread K β) : Nat :=
  match th.phase with
  | .idle => turns n th.prog
  | .began _ => turns n th.prog - 1
  | .copying _ todo _ => turns n th.prog.tail + todo.length + 1

theorem step_ok {m : Map K β} {σ : Spec K β} {progs : List (List (Op K β))} {s : St K β} (hi : Inv m σ progs s) (t : Nat) :
    ∃ s', step s t = .ok s' ∧ Inv m σ progs s' ∧ (∀ u, u ≠ t → s'.threads[u]? = s.threads[u]?) ∧
      ∀ th, s.threads[t]? = some th → ∃ th', s'.threads[t]? = some th' ∧ needs m.length th' ≤ needs m.length th - 1 := by
  have hother : ∀ (th' : Thread K β) (u : Nat), u ≠ t → (s.threads.set t th')[u]? = s.threads[u]? := by
    intro th' u hu
    rw [List.getElem?_set, if_neg (Ne.symm hu)]
  cases ht : s.threads[t]? with
  | none => exact ⟨s, by simp [step, ht], hi, fun _ _ => rfl, fun th h => by cases h⟩
  | some th =>
    have htn : t < s.threads.length := (List.getElem?_eq_some_iff.mp ht).1
    have hself : ∀ (th' : Thread K β), (s.threads.set t th')[t]? = some th' := by
      intro th'
      rw [List.getElem?_set, if_pos rfl, if_pos htn]
    have hlen : s.map.length = m.length := by
      have := congrArg List.length hi.keys
      simpa using this
    cases th with
    | mk q ph =>
      cases q with
      | nil =>
        refine ⟨s, by simp [step, ht], hi, fun _ _ => rfl, fun th h => ⟨_, ht, ?_⟩⟩
        cases h
        have hf := hi.fits t _ ht
        cases ph with
        | idle => simp [needs, turns]
        | began st => simp [needs, turns]
        | copying st todo got => simp [Fits] at hf
      | cons x p =>
        have hc : Calm x := hi.calm t _ ht x (by simp)
        have hf := hi.fits t _ ht
        cases ph with
        | idle =>
          by_cases hx : x = .copy
          · subst hx
            refine ⟨{ s with threads := s.threads.set t ⟨.copy :: p, .copying s.log.length (s.map.map (·.1)) []⟩ }, ?_,
              phase_ok hi ht (ph := .copying s.log.length (s.map.map (·.1)) []) ⟨Nat.le_refl _, ⟨p, rfl⟩, by simpa using hi.keys, by simp⟩, hother _, ?_⟩
            · simp [step, ht, begin_, no_race hi t hc]
            · intro th h; cases h
              refine ⟨_, hself _, ?_⟩
              simp [needs, turns, hlen]
              omega
          · refine ⟨{ s with threads := s.threads.set t ⟨x :: p, .began s.log.length⟩ }, ?_,
              phase_ok hi ht (ph := .began s.log.length) ⟨Nat.le_refl _, x, p, rfl, hx⟩, hother _, ?_⟩
            · simp only [step, ht, begin_, no_race hi t hc]
              cases x <;> first | rfl | exact absurd rfl hx
            · intro th h; cases h
              exact ⟨_, hself _, by simp [needs]⟩
        | began st =>
          obtain ⟨hst, y, p', he, hx⟩ := hf
          cases he
          obtain ⟨e1, e2⟩ := AtomicAttributes.step_ok hi.rel x (calm_fine hi.full hc)
          refine ⟨finish s t x p (AtomicAttributes.step s.map x).2 (.answer (AtomicAttributes.step s.map x).1) st, by simp only [step, ht],
            finish_ok hi ht hst e2 (keys_step s.map hc hx) ?_, hother _, ?_⟩
          · unfold Explained
            dsimp only
            split
            · exact absurd rfl hx
            · rw [e1]
          · intro th h; cases h
            refine ⟨_, hself _, ?_⟩
            have : turns m.length (x :: p) = 2 + turns m.length p := by
              cases x <;> first | rfl | exact absurd rfl hx
            simp only [needs, this]
            omega
        | copying st todo got =>
          obtain ⟨hst, ⟨p', he⟩, hk, hg⟩ := hf
          cases he
          have hfin : ∀ r, Explained σ s.log s.log.length ⟨t, .copy, r, st⟩ → Inv m σ progs (finish s t .copy p s.map r st) :=
            fun r hr => finish_ok hi ht hst hi.rel rfl hr
          cases todo with
          | nil =>
            refine ⟨finish s t .copy p s.map (.copied got) st, by simp only [step, ht, copyStep], hfin _ ?_, hother _, ?_⟩
            · rw [List.append_nil] at hk
              refine ⟨got, rfl, ?_, ?_, hg⟩
              · rw [hk, ← hi.keys]; exact hi.rel.keys
              · intro k
                rw [hk, ← hi.keys]
                have h1 := AtomicAttributes.find_none_iff k s.map
                have h2 := hi.rel.vals k
                have h3 := hi.types k
                cases hs : at_ σ s.log s.log.length k with
                | none =>
                  rw [hs] at h2 h3
                  have : σ k = none := by
                    cases h4 : σ k with
                    | none => rfl
                    | some e => rw [h4] at h3; cases h3
                  rw [this]
                  simp only [Option.isSome_none, Bool.false_eq_true, iff_false]
                  exact h1.mp h2
                | some e =>
                  rw [hs] at h2 h3
                  have : (σ k).isSome := by
                    cases h4 : σ k with
                    | none => rw [h4] at h3; cases h3
                    | some e => rfl
                  simp only [this, iff_true]
                  apply Classical.byContradiction
                  intro hc
                  rw [h1.mpr hc] at h2
                  cases h2
            · intro th h; cases h
              refine ⟨_, hself _, ?_⟩
              simp [needs]
          | cons k todo =>
            have hin : k ∈ s.map.map (·.1) := by rw [hi.keys, ← hk]; simp
            have hfk : find k s.map ≠ none := fun h => (AtomicAttributes.find_none_iff k s.map).mp h hin
            have hv := hi.rel.vals k
            cases hs : at_ σ s.log s.log.length k with
            | none => rw [hs] at hv; exact absurd hv hfk
            | some e =>
              obtain ⟨T, w⟩ := e
              cases w with
              | none => exact absurd hs (hi.full k T)
              | some a =>
                rw [hs] at hv
                have hv : find k s.map = some ⟨some (T, a), T⟩ := hv
                refine ⟨{ s with threads := s.threads.set t ⟨.copy :: p, .copying st todo (got ++ [(k, T, a)])⟩ }, ?_,
                  phase_ok hi ht (ph := .copying st todo (got ++ [(k, T, a)])) ⟨hst, ⟨p, rfl⟩, by rw [← hk]; simp, ?_⟩, hother _, ?_⟩
                · simp [step, ht, copyStep, hv, fromAtomic]
                · intro x hx
                  rcases List.mem_append.mp hx with hx | hx
                  · exact hg x hx
                  · simp only [List.mem_singleton] at hx
                    subst hx
                    exact ⟨s.log.length, hst, Nat.le_refl _, hs⟩
                · intro th h; cases h
                  refine ⟨_, hself _, ?_⟩
                  simp [needs]
                  omega

theorem steps_ok {m : Map K β} {σ : Spec K β} {progs : List (List (Op K β))} : ∀ (sched : List Nat) {s : St K β}, Inv m σ progs s →
    ∃ s', steps s sched = .ok s' ∧ Inv m σ progs s' ∧ ∀ t th, s.threads[t]? = some th → ∃ th', s'.threads[t]? = some th' ∧ needs m.length th' ≤ needs m.length th - sched.count t
  | [], s, hi => ⟨s, rfl, hi, fun t th h => ⟨th, h, by simp⟩⟩
  | u :: us, s, hi => by
    obtain ⟨s1, e1, i1, o1, n1⟩ := step_ok hi u
    obtain ⟨s2, e2, i2, n2⟩ := steps_ok us i1
    refine ⟨s2, by simp only [steps, e1, e2], i2, fun t th h => ?_⟩
    by_cases ht : t = u
    · subst ht
      obtain ⟨th1, h1, l1⟩ := n1 th h
      obtain ⟨th2, h2, l2⟩ := n2 t th1 h1
      refine ⟨th2, h2, ?_⟩
      rw [List.count_cons_self]
      omega
    · obtain ⟨th2, h2, l2⟩ := n2 t th (by rw [o1 t ht]; exact h)
      refine ⟨th2, h2, ?_⟩
      rw [List.count_cons_of_ne (Ne.symm ht)]
      exact l2

theorem start_ok {m : Map K β} {σ : Spec K β} (hm : Ready m σ) {progs : List (List (Op K β))} (hc : ∀ p ∈ progs, ∀ x ∈ p, Calm x) :
    Inv m σ progs ⟨m, progs.map (⟨·, .idle⟩), []⟩ := by
  have hget : ∀ (t : Nat) (th : Thread K β), (progs.map fun p => (⟨p, .idle⟩ : Thread K β))[t]? = some th → progs[t]? = some th.prog ∧ th.phase = .idle := by
    intro t th h
    rw [List.getElem?_map] at h
    cases hq : progs[t]? with
    | none => rw [hq] at h; cases h
    | some q => rw [hq] at h; cases h; exact ⟨rfl, rfl⟩
  refine ⟨hm.rel, hm.full, fun _ => rfl, rfl, ?_, ?_, ?_, ?_⟩
  · intro t th h
    exact hc _ (List.mem_of_getElem? (hget t th h).1)
  · intro t th h
    unfold Fits
    rw [(hget t th h).2]
    trivial
  · intro n e h; simp at h
  · intro t th h
    exact (hget t th h).1

/-! ## The theorems -/

/-- Any number of threads and calls, any order of turns, no locks: there is no undefined behaviour; each thread makes its calls in order;
each call answers as if the calls were made one after another in the order in which they ended; a copy has all attributes, each with a value
from the time of the copying.

The full property also has a copy that shows all attributes at one moment, and `clear_attribute` and `register_attribute`; see the
`_violated` theorems. -/
theorem C101_threads_partial (m : Map K β) (σ : Spec K β) (hm : Ready m σ) (progs : List (List (Op K β))) (hc : ∀ p ∈ progs, ∀ x ∈ p, Calm x) (sched : List Nat) :
    ∃ s, run m progs sched = .ok s ∧
      (∀ (t : Nat) (th : Thread K β), s.threads[t]? = some th → progs[t]? = some (((s.log.filter fun e => e.thread == t).map (·.op)) ++ th.prog)) ∧
      (∀ (n : Nat) (e : Event K β), s.log[n]? = some e → e.start ≤ n ∧ Explained σ s.log n e) ∧
      ∀ k, (at_ σ s.log s.log.length k).map (·.1) = (σ k).map (·.1) := by
  obtain ⟨s, e, i, _⟩ := steps_ok sched (start_ok hm hc)
  exact ⟨s, e, i.progs, i.log, i.types⟩

/-- No thread waits for another one: when it has had two turns for each call (and one for each attribute in a copy), whatever the others do,
it has finished. -/
theorem C101_wait_free (m : Map K β) (σ : Spec K β) (hm : Ready m σ) (progs : List (List (Op K β))) (hc : ∀ p ∈ progs, ∀ x ∈ p, Calm x) (sched : List Nat) (t : Nat)
    (p : List (Op K β)) (ht : progs[t]? = some p) (hn : turns m.length p ≤ sched.count t) :
    ∃ s th, run m progs sched = .ok s ∧ s.threads[t]? = some th ∧ th.prog = [] := by
  obtain ⟨s, e, i, n⟩ := steps_ok sched (start_ok hm hc)
  obtain ⟨th, h1, h2⟩ := n t ⟨p, .idle⟩ (by simp [ht])
  refine ⟨s, th, e, h1, ?_⟩
  have hz : needs m.length th = 0 := by
    have : needs m.length (⟨p, .idle⟩ : Thread K β) = turns m.length p := rfl
    omega
  have hf := i.fits t th h1
  cases th with
  | mk q ph =>
    cases q with
    | nil => rfl
    | cons x q =>
      have h2 : 2 ≤ turns m.length (x :: q) := by cases x <;> simp only [turns] <;> omega
      cases ph with
      | idle => simp only [needs] at hz; omega
      | began st => simp only [needs] at hz; omega
      | copying st todo got => simp [needs] at hz

/-- A copy made while another thread sets two attributes may have the old value of the one that was set first and the new value of the one
that was set afterwards: it never was so. -/
theorem C101_copy_violated (k l : K) (hkl : k ≠ l) (T : Nat) (old new : β) :
    ∃ s, run [(k, ⟨some (T, old), T⟩), (l, ⟨some (T, old), T⟩)] [[.copy], [.set k (some (T, new)), .set l (some (T, new))]] [0, 0, 1, 1, 1, 1, 0, 0] = .ok s ∧
      (s.log.map (·.res))[2]? = some (.copied [(k, T, old), (l, T, new)]) := by
  have h1 : ¬ l = k := fun e => hkl e.symm
  refine ⟨_, by simp [run, steps, step, begin_, races, accesses, lookup, clash, find, hkl, copyStep, fromAtomic, finish, AtomicAttributes.step, AtomicAttributes.fromValue, AtomicAttributes.setValue] <;> rfl, ?_⟩
  rfl

/-- Reading an attribute while another thread clears it. -/
theorem C101_clear_violated (k : K) (T : Nat) (a : β) : run [(k, ⟨some (T, a), T⟩)] [[.clear k], [.getAs k T]] [0, 1] = .ub := by
  simp [run, steps, step, begin_, races, accesses, lookup, find, clash]

/-- Reading an attribute while another thread registers some attribute. -/
theorem C101_register_violated (k l : K) (T : Nat) (a b : β) : run [(k, ⟨some (T, a), T⟩)] [[.register l T b], [.getAs k T]] [0, 1] = .ub := by
  simp [run, steps, step, begin_, races, accesses, lookup, find, clash]

/-! ## An example: a reader, two writers and a copier -/

def obj : Map Nat Nat := [(1, ⟨some (4, 10), 4⟩), (2, ⟨some (5, 20), 5⟩)]

def objSpec : Spec Nat Nat := fun k => if k = 1 then some (4, some 10) else if k = 2 then some (5, some 20) else none

def calls : List (List (Op Nat Nat)) := [[.getAs 1 4, .getOr 3 4 9, .getOpt 2 4], [.set 1 (some (4, 11)), .set 2 (some (4, 0))], [.set 2 (some (5, 21)), .has 1], [.copy]]

example : Ready obj objSpec := by
  refine ⟨⟨by decide, fun k => ?_⟩, fun k T => ?_⟩
  · simp only [obj, objSpec, find]
    by_cases h1 : k = 1
    · subst h1; rfl
    · by_cases h2 : k = 2
      · subst h2; rfl
      · have h1' : ¬ 1 = k := fun e => h1 e.symm
        have h2' : ¬ 2 = k := fun e => h2 e.symm
        simp [h1, h2, h1', h2']
  · simp only [objSpec]
    split
    · simp
    · split <;> simp

example : ∀ p ∈ calls, ∀ x ∈ p, Calm x := by simp [calls, Calm]

def results (x : Out (St Nat Nat)) : Option (List (Nat × Res Nat Nat)) :=
  match x with
  | .ok s => some (s.log.map fun e => (e.thread, e.res))
  | .ub => none

example : results (run obj calls [3, 0, 1, 3, 1, 0, 2, 2, 3, 3, 0, 0, 1, 1, 2, 2, 0, 0]) =
    some [(1, .answer (.bool true)), (0, .answer (.got 11)), (2, .answer (.bool true)), (3, .copied [(1, 4, 10), (2, 5, 21)]), (0, .answer (.got 9)), (1, .answer .badCast),
      (2, .answer (.bool true)), (0, .answer .none)] := by
  decide +kernel

end Verif.AtomicThreads
