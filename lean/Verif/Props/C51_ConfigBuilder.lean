import Verif.Model.ConfigBuilder
import Verif.Lemmas.Config

/-!
# C51: building configs
-/
set_option autoImplicit false

namespace Verif.Config

/-! ## Specification -/

/-- What a builder holds: a finite map; a finite map to lists; a finite map with the order of its keys; a list; or nothing any more. -/
inductive Spec
  | map (m : Str → Option Value)
  | multi (m : Str → List Value)
  | ordered (order : List Str) (m : Str → Option Value)
  | array (l : List Value)
  | spent

def update {α : Type} (m : Str → α) (key : Str) (a : α) : Str → α := fun k => if k = key then a else m k

inductive SpecOut | done | error | config (s : Spec)

/-- `none` is undefined behaviour -/
def specStep (s : Spec) (op : Op) : Option (Spec × SpecOut) :=
  match op with
  | .put key v =>
    if v.ignored then some (s, .done) else
    match s with
    | .map m => some (.map (update m key (some v)), .done)
    | .multi m => some (.multi (update m key (m key ++ [v])), .done)
    | .ordered order m => some (.ordered (if key ∈ order then order else order ++ [key]) (update m key (some v)), .done)
    | s => some (s, .error)
  | .remove key =>
    match s with
    | .map m => some (.map (update m key none), .done)
    | .multi m => some (.multi (update m key []), .done)
    | .ordered order m => some (.ordered (order.filter (fun k => decide (k ≠ key))) (update m key none), .done)
    | s => some (s, .error)
  | .add v =>
    if v.ignored then some (s, .done) else
    match s with
    | .array l => some (.array (l ++ [v]), .done)
    | s => some (s, .error)
  | .pop =>
    match s with
    | .array l => if l = [] then none else some (.array l.dropLast, .done)
    | s => some (s, .error)
  | .create =>
    match s with
    | .spent => some (.spent, .error)
    | s => some (.spent, .config s)

def specRun (s : Spec) : List Op → Option (Spec × List SpecOut)
  | [] => some (s, [])
  | op :: ops =>
    match specStep s op with
    | none => none
    | some (s', o) =>
      match specRun s' ops with
      | none => none
      | some (s'', os) => some (s'', o :: os)

/-- the values of the entries with a key, by index -/
def valuesOf (n : Node) (key : Str) : List Value := (n.entries.filter (fun e => decide (e.1 = key))).map (fun e => e.2)

/-- A config, as seen through lookups, keys and indices, has this content. -/
def Represents (c : Config) (s : Spec) : Prop :=
  match c with
  | none => False
  | some n =>
    match s with
    | .map m => (∀ k, get c [k] = m k) ∧ (keys c).Pairwise (fun a b => strLt a b = true) ∧ (∀ k, k ∈ keys c ↔ m k ≠ none) ∧ n.size = (keys c).length
    | .multi m => (∀ k, get c [k] = (m k).head?) ∧ (keys c).Pairwise (fun a b => strLt b a = false) ∧ (∀ k, valuesOf n k = m k) ∧ n.size = (keys c).length
    | .ordered order m => (∀ k, get c [k] = m k) ∧ keys c = order ∧ order.Nodup ∧ (∀ k, k ∈ order ↔ m k ≠ none) ∧ n.size = (keys c).length
    | .array l => (∀ ts, get c ts = none) ∧ keys c = [] ∧ n.size = l.length ∧ ∀ i, (n.findIndex i).map (fun e => e.2) = l[i]?
    | .spent => False

def OutRel (o : Out) (s : SpecOut) : Prop :=
  match o, s with
  | .done, .done => True
  | .error, .error => True
  | .config c, .config s => Represents c s
  | _, _ => False

inductive AllOut : List Out → List SpecOut → Prop
  | nil : AllOut [] []
  | cons {o : Out} {s : SpecOut} {os : List Out} {ss : List SpecOut} : OutRel o s → AllOut os ss → AllOut (o :: os) (s :: ss)

/-! ## Proof -/

theorem valuesOf_head (n : Node) (k : Str) : (valuesOf n k).head? = first n.entries k := by
  obtain ⟨kind, es⟩ := n
  simp only [valuesOf]
  induction es with
  | nil => rfl
  | cons e es ih =>
    obtain ⟨a, x⟩ := e
    by_cases h : a = k
    · simp [h, first]
    · simp only [List.filter_cons, h, decide_false, first, if_false]
      exact ih

/-- removing -/
theorem first_filter (es : Entries) (key k : Str) : first (es.filter (fun e => decide (e.1 ≠ key))) k = if k = key then none else first es k := by
  induction es with
  | nil => simp [first]
  | cons e es ih =>
    obtain ⟨a, x⟩ := e
    by_cases h : a = key
    · subst h
      simp only [List.filter_cons, ne_eq, not_true_eq_false, decide_false, Bool.false_eq_true, if_false, first]
      rw [show (es.filter (fun e => decide (¬ e.1 = a))) = es.filter (fun e => decide (e.1 ≠ a)) from rfl, ih]
      by_cases hk : k = a
      · simp [hk]
      · have : ¬ a = k := fun e => hk e.symm
        simp [hk, this]
    · simp only [List.filter_cons, ne_eq, h, not_false_eq_true, decide_true, if_true, first]
      rw [show (es.filter (fun e => decide (¬ e.1 = key))) = es.filter (fun e => decide (e.1 ≠ key)) from rfl, ih]
      by_cases hk : a = k
      · subst hk; simp [h]
      · simp [hk]

theorem keysOf_filter (es : Entries) (p : Str → Bool) : keysOf (es.filter (fun e => p e.1)) = (keysOf es).filter p := by
  simp [keysOf, List.filter_map, Function.comp_def]

theorem orderedRemove_eq {es : Entries} (key : Str) (h : (keysOf es).Nodup) : orderedRemove es key = es.filter (fun e => decide (e.1 ≠ key)) := by
  induction es with
  | nil => rfl
  | cons e es ih =>
    obtain ⟨a, x⟩ := e
    simp only [keysOf_cons, List.nodup_cons] at h
    by_cases hk : a = key
    · subst hk
      simp only [orderedRemove, if_true, List.filter_cons, ne_eq, not_true_eq_false, decide_false]
      symm
      simp only [Bool.false_eq_true, if_false]
      rw [List.filter_eq_self]
      intro e he
      simp only [decide_eq_true_eq]
      intro hc
      exact h.1 (hc ▸ List.mem_map_of_mem he)
    · simp [orderedRemove, hk, ih h.2]

theorem valuesOf_multiPut (es : Entries) (key : Str) (v : Value) (k : Str) (h : (keysOf es).Pairwise (fun a b => strLt b a = false)) :
    valuesOf ⟨.multimap, multiPut es key v⟩ k = if k = key then valuesOf ⟨.multimap, es⟩ k ++ [v] else valuesOf ⟨.multimap, es⟩ k := by
  induction es with
  | nil =>
    by_cases hk : k = key
    · simp [valuesOf, multiPut, hk]
    · have : ¬ key = k := fun e => hk e.symm
      simp [valuesOf, multiPut, hk, this]
  | cons e es ih =>
    obtain ⟨a, x⟩ := e
    simp only [keysOf_cons, List.pairwise_cons] at h
    simp only [multiPut]
    by_cases hlt : strLt key a = true
    · rw [if_pos hlt]
      by_cases hk : k = key
      · subst hk
        have hnone : ((a, x) :: es).filter (fun e => decide (e.1 = k)) = [] := by
          rw [List.filter_eq_nil_iff]
          intro e he
          simp only [decide_eq_true_eq]
          rintro rfl
          rcases List.mem_cons.1 he with rfl | he
          · simp only at hlt; rw [strLt_irrefl] at hlt; simp at hlt
          · have := h.1 e.1 (List.mem_map_of_mem he)
            rw [this] at hlt; simp at hlt
        have : valuesOf ⟨.multimap, (a, x) :: es⟩ k = [] := by simp only [valuesOf, hnone, List.map_nil]
        rw [this]
        simp only [valuesOf] at this ⊢
        rw [List.filter_cons]
        simp only [decide_true, if_true, List.map_cons]
        rw [hnone]
        rfl
      · have h' : ¬ key = k := fun e => hk e.symm
        rw [if_neg hk]
        simp only [valuesOf]
        rw [List.filter_cons]
        simp [h']
    · rw [if_neg hlt]
      have ih := ih h.2
      simp only [valuesOf] at ih ⊢
      rw [List.filter_cons, List.filter_cons]
      by_cases ha : a = k
      · simp only [ha, decide_true, if_true, List.map_cons]
        rw [ih]
        split <;> rfl
      · simp only [ha, decide_false, Bool.false_eq_true, if_false]
        exact ih

theorem valuesOf_remove (es : Entries) (key k : Str) : valuesOf ⟨.multimap, es.filter (fun e => decide (e.1 ≠ key))⟩ k = if k = key then [] else valuesOf ⟨.multimap, es⟩ k := by
  simp only [valuesOf, List.filter_filter]
  by_cases hk : k = key
  · subst hk
    rw [if_pos rfl, List.map_eq_nil_iff, List.filter_eq_nil_iff]
    intro e _
    simp
    
  · rw [if_neg hk]
    congr 1
    apply List.filter_congr
    intro e _
    by_cases h : e.1 = k
    · simp [h, hk]
    · simp [h]

/-- The builder's state for what it should hold. -/
def Rel (b : Builder) (s : Spec) : Prop :=
  match s with
  | .map m => ∃ es, b = some (some ⟨.map, es⟩) ∧ KeysOk .map (keysOf es) ∧ (∀ e ∈ es, e.2 ≠ .hole) ∧ ∀ k, first es k = m k
  | .multi m => ∃ es, b = some (some ⟨.multimap, es⟩) ∧ KeysOk .multimap (keysOf es) ∧ (∀ e ∈ es, e.2 ≠ .hole) ∧ ∀ k, valuesOf ⟨.multimap, es⟩ k = m k
  | .ordered order m => ∃ es, b = some (some ⟨.ordered, es⟩) ∧ KeysOk .ordered (keysOf es) ∧ (∀ e ∈ es, e.2 ≠ .hole) ∧ keysOf es = order ∧ ∀ k, first es k = m k
  | .array l => b = some (some ⟨.array, l.map (fun v => ([], v))⟩)
  | .spent => b = none

theorem first_get {kind : Kind} {es : Entries} (ha : kind.assoc = true) (hk : KeysOk kind (keysOf es)) (hh : ∀ e ∈ es, e.2 ≠ .hole) (k : Str) : get (some ⟨kind, es⟩) [k] = first es k := by
  rw [get_one' (n := ⟨kind, es⟩) hk ha]
  cases e : first es k with
  | none => rfl
  | some v =>
    simp only [Option.bind_some]
    have := hh _ (first_mem e)
    cases v <;> simp_all [notHole]

theorem rel_represents {b : Builder} {s : Spec} (h : Rel b s) (hs : s ≠ .spent) : ∃ n, b = some (some n) ∧ Represents (some n) s := by
  cases s with
  | spent => exact absurd rfl hs
  | map m =>
    obtain ⟨es, rfl, hk, hh, hm⟩ := h
    refine ⟨_, rfl, fun k => (first_get rfl hk hh k).trans (hm k), hk, fun k => ?_, by simp [Node.size, keys, Kind.assoc]⟩
    rw [← hm k]
    show k ∈ keysOf es ↔ _
    rw [← Decidable.not_iff_not, ← first_none, ne_eq, Decidable.not_not]
  | multi m =>
    obtain ⟨es, rfl, hk, hh, hm⟩ := h
    refine ⟨_, rfl, fun k => ?_, hk, hm, by simp [Node.size, keys, Kind.assoc]⟩
    rw [← hm k, valuesOf_head]
    exact first_get rfl hk hh k
  | ordered order m =>
    obtain ⟨es, rfl, hk, hh, ho, hm⟩ := h
    refine ⟨_, rfl, fun k => (first_get rfl hk hh k).trans (hm k), ho, ho ▸ hk, fun k => ?_, by simp [Node.size, keys, Kind.assoc]⟩
    rw [← hm k, ← ho, ← Decidable.not_iff_not, ← first_none, ne_eq, Decidable.not_not]
  | array l =>
    refine ⟨_, h, fun ts => get_array rfl ts, rfl, by simp [Node.size], fun i => ?_⟩
    simp only [Node.findIndex, List.getElem?_map]
    cases l[i]? <;> rfl

theorem hole_mapPut {es : Entries} {key : Str} {v : Value} (hv : v ≠ .hole) (h : ∀ e ∈ es, e.2 ≠ .hole) : ∀ e ∈ mapPut es key v, e.2 ≠ .hole := by
  induction es with
  | nil => simpa [mapPut] using hv
  | cons e es ih =>
    obtain ⟨a, x⟩ := e
    simp only [List.forall_mem_cons] at h
    simp only [mapPut]
    split
    · simp only [List.forall_mem_cons]; exact ⟨h.1, ih h.2⟩
    · split
      · simp only [List.forall_mem_cons]; exact ⟨hv, h.1, h.2⟩
      · simp only [List.forall_mem_cons]; exact ⟨hv, h.2⟩

theorem hole_multiPut {es : Entries} {key : Str} {v : Value} (hv : v ≠ .hole) (h : ∀ e ∈ es, e.2 ≠ .hole) : ∀ e ∈ multiPut es key v, e.2 ≠ .hole := by
  induction es with
  | nil => simpa [multiPut] using hv
  | cons e es ih =>
    obtain ⟨a, x⟩ := e
    simp only [List.forall_mem_cons] at h
    simp only [multiPut]
    split
    · simp only [List.forall_mem_cons]; exact ⟨hv, h.1, h.2⟩
    · simp only [List.forall_mem_cons]; exact ⟨h.1, ih h.2⟩

theorem hole_orderedPut {es : Entries} {key : Str} {v : Value} (hv : v ≠ .hole) (h : ∀ e ∈ es, e.2 ≠ .hole) : ∀ e ∈ orderedPut es key v, e.2 ≠ .hole := by
  induction es with
  | nil => simpa [orderedPut] using hv
  | cons e es ih =>
    obtain ⟨a, x⟩ := e
    simp only [List.forall_mem_cons] at h
    simp only [orderedPut]
    split
    · simp only [List.forall_mem_cons]; exact ⟨hv, h.2⟩
    · simp only [List.forall_mem_cons]; exact ⟨h.1, ih h.2⟩

theorem notIgnored {v : Value} (h : v.ignored = false) : v ≠ .hole := by rintro rfl; simp [Value.ignored] at h

/-- One operation: undefined behaviour, errors and results agree. -/
theorem step_ok {b : Builder} {s : Spec} (h : Rel b s) (op : Op) :
    match specStep s op with
    | none => b.step op = none
    | some (s', so) => ∃ b' o, b.step op = some (b', o) ∧ OutRel o so ∧ Rel b' s' := by
  cases op with
  | put key v =>
    cases hi : v.ignored with
    | true =>
      simp only [specStep, hi, if_true]
      exact ⟨b, .done, by simp [Builder.step, hi], trivial, h⟩
    | false =>
      have hv := notIgnored hi
      cases s with
      | map m =>
        obtain ⟨es, rfl, hk, hh, hm⟩ := h
        simp only [specStep, hi, Bool.false_eq_true, if_false]
        refine ⟨some (some ⟨.map, mapPut es key v⟩), .done, by simp [Builder.step, hi, Builder.handle, Node.put, Builder.after], trivial, _, rfl, mapPut_ok hk, hole_mapPut hv hh, fun k => ?_⟩
        rw [first_mapPut key v hk k, update, hm]
      | multi m =>
        obtain ⟨es, rfl, hk, hh, hm⟩ := h
        simp only [specStep, hi, Bool.false_eq_true, if_false]
        refine ⟨some (some ⟨.multimap, multiPut es key v⟩), .done, by simp [Builder.step, hi, Builder.handle, Node.put, Builder.after], trivial, _, rfl, multiPut_ok hk, hole_multiPut hv hh, fun k => ?_⟩
        rw [valuesOf_multiPut es key v k hk, update, hm]
        split
        · rename_i e; rw [e]
        · rfl
      | ordered order m =>
        obtain ⟨es, rfl, hk, hh, ho, hm⟩ := h
        simp only [specStep, hi, Bool.false_eq_true, if_false]
        have hok : Node.Ok ⟨.ordered, orderedPut es key v⟩ := (put_ok (n := ⟨.ordered, es⟩) hk rfl).1
        refine ⟨some (some ⟨.ordered, orderedPut es key v⟩), .done, by simp [Builder.step, hi, Builder.handle, Node.put, Builder.after], trivial, _, rfl, hok, hole_orderedPut hv hh, ?_, fun k => ?_⟩
        · rw [orderedPut_keys, ho]
        · rw [first_orderedPut es key v k, update, hm]
      | array l =>
        simp only [specStep, hi, Bool.false_eq_true, if_false]
        refine ⟨b, .error, ?_, trivial, h⟩
        have h' : b = _ := h
        rw [h']
        simp [Builder.step, hi, Builder.handle, Node.put, Builder.after]
      | spent =>
        simp only [specStep, hi, Bool.false_eq_true, if_false]
        refine ⟨b, .error, ?_, trivial, h⟩
        have h' : b = _ := h
        rw [h']
        simp [Builder.step, hi, Builder.handle, Builder.after]
  | remove key =>
    cases s with
    | map m =>
      obtain ⟨es, rfl, hk, hh, hm⟩ := h
      refine ⟨some (some ⟨.map, es.filter (fun e => decide (e.1 ≠ key))⟩), .done, by simp [Builder.step, Builder.handle, Node.remove, Builder.after], trivial, _, rfl, ?_, fun e he => hh e (List.mem_filter.1 he).1, fun k => ?_⟩
      · exact hk.sublist (List.Sublist.map _ List.filter_sublist)
      · rw [first_filter, update, hm]
    | multi m =>
      obtain ⟨es, rfl, hk, hh, hm⟩ := h
      refine ⟨some (some ⟨.multimap, es.filter (fun e => decide (e.1 ≠ key))⟩), .done, by simp [Builder.step, Builder.handle, Node.remove, Builder.after], trivial, _, rfl, ?_, fun e he => hh e (List.mem_filter.1 he).1, fun k => ?_⟩
      · exact hk.sublist (List.Sublist.map _ List.filter_sublist)
      · rw [valuesOf_remove, update, hm]
    | ordered order m =>
      obtain ⟨es, rfl, hk, hh, ho, hm⟩ := h
      refine ⟨some (some ⟨.ordered, es.filter (fun e => decide (e.1 ≠ key))⟩), .done, by simp [Builder.step, Builder.handle, Node.remove, Builder.after, orderedRemove_eq key hk], trivial, _, rfl, ?_, fun e he => hh e (List.mem_filter.1 he).1, ?_, fun k => ?_⟩
      · exact hk.sublist (List.Sublist.map _ List.filter_sublist)
      · rw [← ho]; exact keysOf_filter es (fun k => decide (k ≠ key))
      · rw [first_filter, update, hm]
    | array l =>
      refine ⟨b, .error, ?_, trivial, h⟩
      have h' : b = _ := h
      rw [h']
      simp [Builder.step, Builder.handle, Node.remove, Builder.after]
    | spent =>
      refine ⟨b, .error, ?_, trivial, h⟩
      have h' : b = _ := h
      rw [h']
      simp [Builder.step, Builder.handle, Builder.after]
  | add v =>
    cases hi : v.ignored with
    | true =>
      simp only [specStep, hi, if_true]
      exact ⟨b, .done, by simp [Builder.step, hi], trivial, h⟩
    | false =>
      cases s with
      | array l =>
        simp only [specStep, hi, Bool.false_eq_true, if_false]
        have h' : b = _ := h
        refine ⟨some (some ⟨.array, (l ++ [v]).map (fun v => ([], v))⟩), .done, ?_, trivial, rfl⟩
        rw [h']
        simp [Builder.step, hi, Builder.handle, Node.add, Builder.after]
      | map m =>
        simp only [specStep, hi, Bool.false_eq_true, if_false]
        refine ⟨b, .error, ?_, trivial, h⟩
        obtain ⟨es, rfl, -⟩ := h
        simp [Builder.step, hi, Builder.handle, Node.add, Builder.after]
      | multi m =>
        simp only [specStep, hi, Bool.false_eq_true, if_false]
        refine ⟨b, .error, ?_, trivial, h⟩
        obtain ⟨es, rfl, -⟩ := h
        simp [Builder.step, hi, Builder.handle, Node.add, Builder.after]
      | ordered order m =>
        simp only [specStep, hi, Bool.false_eq_true, if_false]
        refine ⟨b, .error, ?_, trivial, h⟩
        obtain ⟨es, rfl, -⟩ := h
        simp [Builder.step, hi, Builder.handle, Node.add, Builder.after]
      | spent =>
        simp only [specStep, hi, Bool.false_eq_true, if_false]
        refine ⟨b, .error, ?_, trivial, h⟩
        have h' : b = _ := h
        rw [h']
        simp [Builder.step, hi, Builder.handle, Builder.after]
  | pop =>
    cases s with
    | array l =>
      have h' : b = _ := h
      by_cases hl : l = []
      · subst hl
        simp only [specStep, if_true]
        rw [h']
        simp [Builder.step, Builder.handle, Node.pop]
      · simp only [specStep, hl, if_false]
        refine ⟨some (some ⟨.array, l.dropLast.map (fun v => ([], v))⟩), .done, ?_, trivial, rfl⟩
        rw [h']
        simp [Builder.step, Builder.handle, Node.pop, hl, List.map_dropLast]
    | map m =>
      refine ⟨b, .error, ?_, trivial, h⟩
      obtain ⟨es, rfl, -⟩ := h
      simp [Builder.step, Builder.handle, Node.pop]
    | multi m =>
      refine ⟨b, .error, ?_, trivial, h⟩
      obtain ⟨es, rfl, -⟩ := h
      simp [Builder.step, Builder.handle, Node.pop]
    | ordered order m =>
      refine ⟨b, .error, ?_, trivial, h⟩
      obtain ⟨es, rfl, -⟩ := h
      simp [Builder.step, Builder.handle, Node.pop]
    | spent =>
      refine ⟨b, .error, ?_, trivial, h⟩
      have h' : b = _ := h
      rw [h']
      simp [Builder.step, Builder.handle]
  | create =>
    by_cases hs : s = .spent
    · subst hs
      refine ⟨b, .error, ?_, trivial, h⟩
      have h' : b = _ := h
      rw [h']
      simp [Builder.step, Builder.handle]
    · obtain ⟨n, rfl, hr⟩ := rel_represents h hs
      cases s with
      | spent => exact absurd rfl hs
      | map m => exact ⟨none, .config (some n), rfl, hr, rfl⟩
      | multi m => exact ⟨none, .config (some n), rfl, hr, rfl⟩
      | ordered order m => exact ⟨none, .config (some n), rfl, hr, rfl⟩
      | array l => exact ⟨none, .config (some n), rfl, hr, rfl⟩

theorem run_ok {b : Builder} {s : Spec} (h : Rel b s) (ops : List Op) :
    match specRun s ops with
    | none => b.run ops = none
    | some (s', sos) => ∃ b' os, b.run ops = some (b', os) ∧ AllOut os sos ∧ Rel b' s' := by
  induction ops generalizing b s with
  | nil => exact ⟨b, [], rfl, .nil, h⟩
  | cons op ops ih =>
    have hs := step_ok h op
    simp only [specRun]
    cases e : specStep s op with
    | none => rw [e] at hs; simp only [Builder.run]; simp only at hs; rw [hs]
    | some p =>
      obtain ⟨s', so⟩ := p
      rw [e] at hs
      obtain ⟨b', o, h1, h2, h3⟩ := hs
      have hi := ih h3
      simp only
      cases e2 : specRun s' ops with
      | none => rw [e2] at hi; simp only at hi; simp only [Builder.run, h1, hi]
      | some q =>
        obtain ⟨s'', sos⟩ := q
        rw [e2] at hi
        obtain ⟨b'', os, h4, h5, h6⟩ := hi
        exact ⟨b'', o :: os, by simp only [Builder.run, h1, h4], .cons h2 h5, h6⟩

/-- the content of a fresh builder -/
def fresh (multi ordered : Bool) : Option Spec :=
  if multi then (if ordered then none else some (.multi (fun _ => []))) else (if ordered then some (.ordered [] (fun _ => none)) else some (.map (fun _ => none)))

/-- A builder of objects: every sequence of operations gives the outcomes of the finite map (with the last value put; all values put, in order; or the last value put, in the order of the first
puts), and a created config has exactly this content. -/
theorem C51_object (multi ordered : Bool) (ops : List Op) :
    match fresh multi ordered, Builder.object multi ordered with
    | none, none => True
    | some s, some b =>
      match specRun s ops with
      | none => b.run ops = none
      | some (_, sos) => ∃ b' os, b.run ops = some (b', os) ∧ AllOut os sos
    | _, _ => False := by
  have key : ∀ (s : Spec) (b : Builder), Rel b s → match specRun s ops with
      | none => b.run ops = none
      | some (_, sos) => ∃ b' os, b.run ops = some (b', os) ∧ AllOut os sos := by
    intro s b h
    have := run_ok h ops
    cases e : specRun s ops with
    | none => rw [e] at this; exact this
    | some p => rw [e] at this; obtain ⟨b', os, h1, h2, -⟩ := this; exact ⟨b', os, h1, h2⟩
  cases multi <;> cases ordered
  · exact key _ _ ⟨[], rfl, List.Pairwise.nil, by simp, fun _ => rfl⟩
  · exact key _ _ ⟨[], rfl, List.nodup_nil, by simp, rfl, fun _ => rfl⟩
  · exact key _ _ ⟨[], rfl, List.Pairwise.nil, by simp, fun _ => rfl⟩
  · trivial

/-- A builder of arrays: every sequence of operations gives the outcomes of the list; taking from an empty one is undefined. -/
theorem C51_array (ops : List Op) :
    match specRun (.array []) ops with
    | none => Builder.array.run ops = none
    | some (_, sos) => ∃ b' os, Builder.array.run ops = some (b', os) ∧ AllOut os sos := by
  have := run_ok (b := Builder.array) (s := .array []) rfl ops
  cases e : specRun (.array []) ops with
  | none => rw [e] at this; exact this
  | some p => rw [e] at this; obtain ⟨b', os, h1, h2, -⟩ := this; exact ⟨b', os, h1, h2⟩

/-- The only operation that is undefined is taking from an empty array. -/
theorem C51_ub (b : Builder) (op : Op) : b.step op = none ↔ op = .pop ∧ ∃ n, b = some (some n) ∧ n.kind = .array ∧ n.size = 0 := by
  have hafter : ∀ x, b.after x ≠ none := by intro x; cases x <;> simp [Builder.after]
  cases op with
  | put key v => simp only [Builder.step]; split <;> simp [hafter]
  | remove key => simp [Builder.step, hafter]
  | add v => simp only [Builder.step]; split <;> simp [hafter]
  | create => simp only [Builder.step]; split <;> simp
  | pop =>
    rcases b with - | - | ⟨kind, es⟩
    · simp [Builder.step, Builder.handle]
    · simp [Builder.step, Builder.handle]
    · cases kind <;> simp [Builder.step, Builder.handle, Node.pop, Node.size]
      cases es <;> simp

/-! ## Lookups by key, by index, size and keys agree -/

/-- The entry found by a key is an entry of its index, the first one with this key. -/
theorem C51_key_index (n : Node) (h : n.Ok) (key : Str) (i : Nat) (v : Value) (hf : n.find key = some (i, v)) :
    n.findIndex i = some (key, v) ∧ ∀ j, j < i → ∀ k w, n.findIndex j = some (k, w) → k ≠ key := by
  cases ha : n.kind.assoc with
  | false => rw [find_array ha] at hf; simp at hf
  | true =>
    rw [find_eq h ha] at hf
    cases e : first n.entries key with
    | none => rw [e] at hf; simp at hf
    | some x =>
      rw [e] at hf
      have : x = v ∧ firstIndex n.entries key = i := by
        cases x <;> simp [notHole] at hf <;> (obtain ⟨rfl, rfl⟩ := hf; exact ⟨rfl, rfl⟩)
      obtain ⟨rfl, rfl⟩ := this
      obtain ⟨a, b, h1, h2⟩ := first_some_split e
      have hidx : firstIndex n.entries key = a.length := by
        rw [h1]
        clear h1 e hf
        induction a with
        | nil => simp [firstIndex]
        | cons c a ih =>
          obtain ⟨k, w⟩ := c
          simp only [keysOf_cons, List.mem_cons, not_or] at h2
          have h' : ¬ k = key := fun e => h2.1 e.symm
          simp [firstIndex, h', ih h2.2]
      rw [hidx]
      constructor
      · simp [Node.findIndex, h1]
      · intro j hj k w hw hc
        rw [Node.findIndex, h1, List.getElem?_append_left hj] at hw
        exact h2 (hc ▸ List.mem_map_of_mem (f := fun e => e.1) (List.mem_of_getElem? hw))

/-- An index has an entry if and only if it is below the size, and for an object its key is the key of this index. -/
theorem C51_index_size (n : Node) (i : Nat) : ((n.findIndex i).isSome = true ↔ i < n.size) ∧ (n.kind.assoc = true → (keys (some n))[i]? = (n.findIndex i).map (fun e => e.1)) := by
  refine ⟨by simp [Node.findIndex, Node.size], fun h => ?_⟩
  simp [keys, h, Node.findIndex]

/-- A key is among the keys if and only if some index has it, and then looking it up finds something. -/
theorem C51_keys (n : Node) (h : Config.Ok (some n)) (key : Str) : (key ∈ keys (some n) ↔ ∃ i v, n.find key = some (i, v)) := by
  cases ha : n.kind.assoc with
  | false => simp [keys, ha, find_array ha]
  | true =>
    have : keys (some n) = keysOf n.entries := by simp [keys, ha, keysOf]
    rw [this, find_eq h.1 ha]
    cases e : first n.entries key with
    | none => simp [first_none.1 e]
    | some v =>
      have hok := ok_notHole (h.2 _ (first_mem e))
      simp only [hok, Option.map_some]
      constructor
      · intro _; exact ⟨_, _, rfl⟩
      · intro _
        cases hd : decide (key ∈ keysOf n.entries) with
        | true => exact of_decide_eq_true hd
        | false => have := first_none.2 (of_decide_eq_false hd); rw [e] at this; simp at this

/-! ## Created configs are well-formed -/

def opOk : Op → Prop
  | .put _ v => v.ignored = true ∨ v.Ok
  | .add v => v.ignored = true ∨ v.Ok
  | _ => True

def Builder.Ok (b : Builder) : Prop := ∀ n, b.handle = some n → Config.Ok (some n)

theorem mem_mapPut {es : Entries} {key : Str} {v : Value} {e : Str × Value} (h : e ∈ mapPut es key v) : e.2 = v ∨ e ∈ es := by
  induction es with
  | nil => simp only [mapPut, List.mem_singleton] at h; subst h; exact Or.inl rfl
  | cons c es ih =>
    obtain ⟨a, x⟩ := c
    simp only [mapPut] at h
    split at h
    · rcases List.mem_cons.1 h with rfl | h
      · exact Or.inr (by simp)
      · rcases ih h with h | h
        · exact Or.inl h
        · exact Or.inr (List.mem_cons_of_mem _ h)
    · split at h
      · rcases List.mem_cons.1 h with rfl | h
        · exact Or.inl rfl
        · exact Or.inr h
      · rcases List.mem_cons.1 h with rfl | h
        · exact Or.inl rfl
        · exact Or.inr (List.mem_cons_of_mem _ h)

theorem mem_multiPut {es : Entries} {key : Str} {v : Value} {e : Str × Value} (h : e ∈ multiPut es key v) : e.2 = v ∨ e ∈ es := by
  induction es with
  | nil => simp only [multiPut, List.mem_singleton] at h; subst h; exact Or.inl rfl
  | cons c es ih =>
    obtain ⟨a, x⟩ := c
    simp only [multiPut] at h
    split at h
    · rcases List.mem_cons.1 h with rfl | h
      · exact Or.inl rfl
      · exact Or.inr h
    · rcases List.mem_cons.1 h with rfl | h
      · exact Or.inr (by simp)
      · rcases ih h with h | h
        · exact Or.inl h
        · exact Or.inr (List.mem_cons_of_mem _ h)

theorem mem_orderedPut {es : Entries} {key : Str} {v : Value} {e : Str × Value} (h : e ∈ orderedPut es key v) : e.2 = v ∨ e ∈ es := by
  induction es with
  | nil => simp only [orderedPut, List.mem_singleton] at h; subst h; exact Or.inl rfl
  | cons c es ih =>
    obtain ⟨a, x⟩ := c
    simp only [orderedPut] at h
    split at h
    · rcases List.mem_cons.1 h with rfl | h
      · exact Or.inl rfl
      · exact Or.inr (List.mem_cons_of_mem _ h)
    · rcases List.mem_cons.1 h with rfl | h
      · exact Or.inr (by simp)
      · rcases ih h with h | h
        · exact Or.inl h
        · exact Or.inr (List.mem_cons_of_mem _ h)

theorem put_mem {n n' : Node} {key : Str} {v : Value} (h : n.put key v = some n') {e : Str × Value} (he : e ∈ n'.entries) : e.2 = v ∨ e ∈ n.entries := by
  obtain ⟨kind, es⟩ := n
  cases kind with
  | map => simp only [Node.put, Option.some.injEq] at h; subst h; exact mem_mapPut he
  | multimap => simp only [Node.put, Option.some.injEq] at h; subst h; exact mem_multiPut he
  | ordered => simp only [Node.put, Option.some.injEq] at h; subst h; exact mem_orderedPut he
  | array => simp [Node.put] at h

theorem put_configOk {n n' : Node} {key : Str} {v : Value} (h : Config.Ok (some n)) (hv : v.Ok) (hp : n.put key v = some n') : Config.Ok (some n') := by
  refine ⟨(put_ok h.1 hp).1, fun e he => ?_⟩
  rcases put_mem hp he with h' | h'
  · rw [h']; exact hv
  · exact h.2 e h'

theorem remove_configOk {n n' : Node} {key : Str} (h : Config.Ok (some n)) (hp : n.remove key = some n') : Config.Ok (some n') := by
  obtain ⟨kind, es⟩ := n
  have aux : ∀ kind', KeysOk kind' (keysOf es) → Config.Ok (some ⟨kind', es.filter (fun e => decide (e.1 ≠ key))⟩) := fun k hk =>
    ⟨hk.sublist (List.Sublist.map _ List.filter_sublist), fun e he => h.2 e (List.mem_filter.1 he).1⟩
  cases kind with
  | map => simp only [Node.remove, Option.some.injEq] at hp; subst hp; exact aux .map h.1
  | multimap => simp only [Node.remove, Option.some.injEq] at hp; subst hp; exact aux .multimap h.1
  | ordered => simp only [Node.remove, Option.some.injEq] at hp; subst hp; rw [orderedRemove_eq key h.1]; exact aux .ordered h.1
  | array => simp [Node.remove] at hp

theorem add_configOk {n n' : Node} {v : Value} (h : Config.Ok (some n)) (hv : v.Ok) (hp : n.add v = some n') : Config.Ok (some n') := by
  obtain ⟨kind, es⟩ := n
  cases kind <;> simp only [Node.add, Option.some.injEq, reduceCtorEq] at hp
  subst hp
  refine ⟨?_, fun e he => ?_⟩
  · have := h.1
    simp only [Node.Ok, KeysOk] at this ⊢
    intro k hk
    simp only [keysOf_append, List.mem_append] at hk
    rcases hk with hk | hk
    · exact this k hk
    · simpa using hk
  · rcases List.mem_append.1 he with he | he
    · exact h.2 e he
    · rw [List.mem_singleton.1 he]; exact hv

/-- Whatever is built of well-formed values is well-formed. -/
theorem C51_ok {b b' : Builder} {op : Op} {o : Out} (h : b.Ok) (ho : opOk op) (hs : b.step op = some (b', o)) : b'.Ok ∧ ∀ c, o = .config c → c.Ok := by
  have after : ∀ x : Option Node, (∀ n, x = some n → Config.Ok (some n)) → b.after x = some (b', o) → b'.Ok ∧ ∀ c, o = .config c → c.Ok := by
    intro x hx e
    cases x with
    | none => simp only [Builder.after, Option.some.injEq, Prod.mk.injEq] at e; obtain ⟨rfl, rfl⟩ := e; exact ⟨h, by simp⟩
    | some n =>
      simp only [Builder.after, Option.some.injEq, Prod.mk.injEq] at e
      obtain ⟨rfl, rfl⟩ := e
      refine ⟨fun m hm => ?_, by simp⟩
      simp only [Builder.handle, Option.some.injEq] at hm
      subst hm
      exact hx _ rfl
  have same : some (b, Out.done) = some (b', o) → b'.Ok ∧ ∀ c, o = .config c → c.Ok := by
    intro e; simp only [Option.some.injEq, Prod.mk.injEq] at e; obtain ⟨rfl, rfl⟩ := e; exact ⟨h, by simp⟩
  have err : some (b, Out.error) = some (b', o) → b'.Ok ∧ ∀ c, o = .config c → c.Ok := by
    intro e; simp only [Option.some.injEq, Prod.mk.injEq] at e; obtain ⟨rfl, rfl⟩ := e; exact ⟨h, by simp⟩
  cases op with
  | put key v =>
    simp only [Builder.step] at hs
    by_cases hi : v.ignored = true
    · rw [if_pos hi] at hs; exact same hs
    · rw [if_neg hi] at hs
      have hv : v.Ok := by rcases ho with ho | ho; exact absurd ho hi; exact ho
      refine after _ (fun n hn => ?_) hs
      cases e : b.handle with
      | none => rw [e] at hn; simp at hn
      | some m => rw [e] at hn; exact put_configOk (h m e) hv hn
  | remove key =>
    refine after _ (fun n hn => ?_) hs
    cases e : b.handle with
    | none => rw [e] at hn; simp at hn
    | some m => rw [e] at hn; exact remove_configOk (h m e) hn
  | add v =>
    simp only [Builder.step] at hs
    by_cases hi : v.ignored = true
    · rw [if_pos hi] at hs; exact same hs
    · rw [if_neg hi] at hs
      have hv : v.Ok := by rcases ho with ho | ho; exact absurd ho hi; exact ho
      refine after _ (fun n hn => ?_) hs
      cases e : b.handle with
      | none => rw [e] at hn; simp at hn
      | some m => rw [e] at hn; exact add_configOk (h m e) hv hn
  | pop =>
    simp only [Builder.step] at hs
    cases e : b.handle with
    | none => rw [e] at hs; exact err hs
    | some m =>
      rw [e] at hs
      have hm := h m e
      obtain ⟨kind, es⟩ := m
      cases kind <;> simp only [Node.pop] at hs
      · exact err hs
      · exact err hs
      · exact err hs
      · by_cases hes : es.isEmpty = true
        · simp [hes] at hs
        · simp only [hes, Bool.false_eq_true, if_false, Option.some.injEq, Prod.mk.injEq] at hs
          obtain ⟨rfl, rfl⟩ := hs
          refine ⟨fun m hm' => ?_, by simp⟩
          simp only [Builder.handle, Option.some.injEq] at hm'
          subst hm'
          refine ⟨?_, fun e he => hm.2 e (List.dropLast_subset _ he)⟩
          have := hm.1
          simp only [Node.Ok, KeysOk] at this ⊢
          intro k hk
          obtain ⟨e, he, rfl⟩ := List.mem_map.1 hk
          exact this _ (List.mem_map_of_mem (List.dropLast_subset _ he))
  | create =>
    simp only [Builder.step] at hs
    cases e : b.handle with
    | none => rw [e] at hs; exact err hs
    | some m =>
      rw [e] at hs
      simp only [Option.some.injEq, Prod.mk.injEq] at hs
      obtain ⟨rfl, rfl⟩ := hs
      refine ⟨fun m hm => by simp [Builder.handle] at hm, fun c hc => ?_⟩
      simp only [Out.config.injEq] at hc
      subst hc
      exact h m e

/-- Copying a builder that has created its config is undefined. -/
theorem C51_copy_spent_violated : ∃ b ops b' os, b = Builder.array ∧ b.run ops = some (b', os) ∧ b'.copy = .ub :=
  ⟨_, [.create], _, _, rfl, rfl, rfl⟩

/-! ## The properties of a config -/

/-- the config after the `put`s, from an empty one of a kind; `none` if one is refused -/
def putEach (k : Kind) (es : List (Str × Value)) : Option Node := es.foldlM (fun n e => n.put e.1 e.2) ⟨k, []⟩

theorem orderedPut_all (es : List (Str × Value)) : ∀ pre : Entries, (keysOf (pre ++ es)).Nodup →
    es.foldlM (fun (n : Node) e => n.put e.1 e.2) ⟨.ordered, pre⟩ = some ⟨.ordered, pre ++ es⟩ := by
  have app : ∀ (l : Entries) (k : Str) (v : Value), k ∉ keysOf l → orderedPut l k v = l ++ [(k, v)] := by
    intro l k v
    induction l with
    | nil => intro _; rfl
    | cons e l ih =>
      intro h
      simp only [keysOf, List.map_cons, List.mem_cons, not_or] at h
      obtain ⟨h1, h2⟩ := h
      obtain ⟨a, x⟩ := e
      have h3 : ¬ a = k := fun h => h1 h.symm
      simp only [orderedPut, if_neg h3, List.cons_append, List.cons.injEq, true_and]
      exact ih h2
  induction es with
  | nil => intro pre _; simp
  | cons e es ih =>
    intro pre h
    obtain ⟨k, v⟩ := e
    have hk : k ∉ keysOf pre := by
      simp only [keysOf, List.map_append, List.map_cons, List.nodup_append] at h
      exact fun hm => h.2.2 k hm k (by simp) rfl
    rw [List.foldlM_cons]
    have hput : Node.put ⟨.ordered, pre⟩ k v = some ⟨.ordered, pre ++ [(k, v)]⟩ := by simp only [Node.put, app pre k v hk]
    rw [hput]
    have := ih (pre ++ [(k, v)]) (by simpa using h)
    simpa using this

/-- **C51**, `has_property` tells the truth: a config is associative just if it can be put into; keeps the order just if entries put
under different keys (or added) are listed in the order in which they came, whatever they are; and is multi-associative just if a
second `put` under the same key keeps the first value. -/
theorem C51_properties (k : Kind) :
    (k.assoc = true ↔ ∀ key v, (putEach k [(key, v)]).isSome) ∧
    (k.assoc = true → (k.keepsOrder = true ↔ ∀ es : List (Str × Value), (keysOf es).Nodup → putEach k es = some ⟨k, es⟩)) ∧
    (k.assoc = true → (k.multi = true ↔ ∀ key v w, putEach k [(key, v), (key, w)] = some ⟨k, [(key, v), (key, w)]⟩)) ∧
    (k.assoc = false → k.keepsOrder = true ∧ ∀ es v, Node.add ⟨k, es⟩ v = some ⟨k, es ++ [([], v)]⟩) := by
  have hirr : ∀ s : Str, strLt s s = false := by
    intro s
    induction s with
    | nil => rfl
    | cons c s ih => simp [strLt, ih]
  have hmap : ∀ k : Kind, (k = .map ∨ k = .multimap) → ¬ ∀ es : List (Str × Value), (keysOf es).Nodup → putEach k es = some ⟨k, es⟩ := by
    intro k hk h
    have h1 := h [(['b'], .null), (['a'], .null)] (by decide)
    rcases hk with rfl | rfl
    · have h2 : putEach .map [(['b'], .null), (['a'], .null)] = some ⟨.map, [(['a'], .null), (['b'], .null)]⟩ := rfl
      rw [h2] at h1
      simp only [Option.some.injEq, Node.mk.injEq, List.cons.injEq, Prod.mk.injEq, true_and] at h1
      exact absurd h1.1.1 (by decide)
    · have h2 : putEach .multimap [(['b'], .null), (['a'], .null)] = some ⟨.multimap, [(['a'], .null), (['b'], .null)]⟩ := rfl
      rw [h2] at h1
      simp only [Option.some.injEq, Node.mk.injEq, List.cons.injEq, Prod.mk.injEq, true_and] at h1
      exact absurd h1.1.1 (by decide)
  have hone : ∀ k : Kind, (k = .map ∨ k = .ordered) → ¬ ∀ key v w, putEach k [(key, v), (key, w)] = some ⟨k, [(key, v), (key, w)]⟩ := by
    intro k hk h
    have h1 := h ['b'] .null .null
    rcases hk with rfl | rfl
    · have h2 : putEach .map [(['b'], .null), (['b'], .null)] = some ⟨.map, [(['b'], .null)]⟩ := rfl
      rw [h2] at h1
      simp at h1
    · have h2 : putEach .ordered [(['b'], .null), (['b'], .null)] = some ⟨.ordered, [(['b'], .null)]⟩ := rfl
      rw [h2] at h1
      simp at h1
  cases k with
  | map => exact ⟨by simp [Kind.assoc, putEach, Node.put], fun _ => ⟨by simp [Kind.keepsOrder], fun h => absurd h (hmap _ (Or.inl rfl))⟩,
      fun _ => ⟨by simp [Kind.multi], fun h => absurd h (hone _ (Or.inl rfl))⟩, by simp [Kind.assoc]⟩
  | multimap =>
    refine ⟨by simp [Kind.assoc, putEach, Node.put], fun _ => ⟨by simp [Kind.keepsOrder], fun h => absurd h (hmap _ (Or.inr rfl))⟩,
      fun _ => ⟨fun _ key v w => ?_, fun _ => rfl⟩, by simp [Kind.assoc]⟩
    simp [putEach, Node.put, multiPut, hirr]
  | ordered =>
    refine ⟨by simp [Kind.assoc, putEach, Node.put], fun _ => ⟨fun _ es hn => ?_, fun _ => rfl⟩,
      fun _ => ⟨by simp [Kind.multi], fun h => absurd h (hone _ (Or.inr rfl))⟩, by simp [Kind.assoc]⟩
    have := orderedPut_all es [] (by simpa using hn)
    unfold putEach
    simpa using this
  | array =>
    refine ⟨?_, by simp [Kind.assoc], by simp [Kind.assoc], fun _ => ⟨rfl, fun es v => rfl⟩⟩
    refine ⟨by simp [Kind.assoc], fun h => ?_⟩
    have := h [] .null
    simp [putEach, Node.put] at this

example : putEach .ordered [(['b'], .scalar (.int 1)), (['a'], .null)] = some ⟨.ordered, [(['b'], .scalar (.int 1)), (['a'], .null)]⟩ := rfl

/-! ## Non-vacuity -/

example : ∃ b b' os, Builder.object false false = some b ∧
    b.run [.put ['b'] (.scalar (.int 1)), .put ['a'] (.scalar (.int 2)), .put ['b'] (.scalar (.int 3)), .put ['c'] .null, .add (.scalar (.int 1)), .create, .create] = some (b', os) ∧
    os = [.done, .done, .done, .done, .error, .config (some ⟨.map, [(['a'], .scalar (.int 2)), (['b'], .scalar (.int 3))]⟩), .error] :=
  ⟨_, _, _, rfl, rfl, rfl⟩

example : ∃ b' os, Builder.array.run [.add (.scalar (.int 1)), .add (.scalar (.int 2)), .pop, .create] = some (b', os) ∧
    os = [.done, .done, .done, .config (some ⟨.array, [([], .scalar (.int 1))]⟩)] := ⟨_, _, rfl, rfl⟩

end Verif.Config
