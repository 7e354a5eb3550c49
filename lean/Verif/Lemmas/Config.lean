import Verif.Model.Config
import Verif.Lemmas.Tokens

set_option autoImplicit false

namespace Verif.Config

/-! ## The order of strings -/

theorem strLt_irrefl (a : Str) : strLt a a = false := by
  induction a with
  | nil => rfl
  | cons c a ih => simp [strLt, ih]

theorem strLt_trans {a b c : Str} (h1 : strLt a b = true) (h2 : strLt b c = true) : strLt a c = true := by
  induction a generalizing b c with
  | nil =>
    cases c with
    | nil => cases b <;> simp [strLt] at h2
    | cons => rfl
  | cons x a ih =>
    cases b with
    | nil => simp [strLt] at h1
    | cons y b =>
      cases c with
      | nil => simp [strLt] at h2
      | cons z c =>
        simp only [strLt, Bool.or_eq_true, decide_eq_true_eq, Bool.and_eq_true] at h1 h2 ⊢
        rcases h1 with h1 | ⟨rfl, h1⟩ <;> rcases h2 with h2 | ⟨rfl, h2⟩
        · exact Or.inl (by omega)
        · exact Or.inl h1
        · exact Or.inl h2
        · exact Or.inr ⟨rfl, ih h1 h2⟩

theorem strLt_total (a b : Str) (h1 : strLt a b = false) (h2 : strLt b a = false) : a = b := by
  induction a generalizing b with
  | nil =>
    cases b with
    | nil => rfl
    | cons => simp [strLt] at h1
  | cons x a ih =>
    cases b with
    | nil => simp [strLt] at h2
    | cons y b =>
      simp only [strLt, Bool.or_eq_false_iff, decide_eq_false_iff_not, Bool.and_eq_false_iff] at h1 h2
      have hxy : x = y := by
        have : x.toNat = y.toNat := by omega
        exact Char.toNat_inj.1 this
      subst hxy
      have e1 := h1.2.resolve_left (by simp)
      have e2 := h2.2.resolve_left (by simp)
      rw [ih b e1 e2]

theorem strLt_asymm {a b : Str} (h : strLt a b = true) : strLt b a = false := by
  cases e : strLt b a with
  | false => rfl
  | true =>
    have := strLt_trans h e
    rw [strLt_irrefl] at this; simp at this

theorem strLt_ne {a b : Str} (h : strLt a b = true) : a ≠ b := by
  rintro rfl; rw [strLt_irrefl] at h; simp at h

/-- `¬ b < a` and `b < c` or `¬ c < b`... the weak order used by multimaps -/
theorem strLe_trans {a b c : Str} (h1 : strLt b a = false) (h2 : strLt c b = false) : strLt c a = false := by
  cases e : strLt c a with
  | false => rfl
  | true =>
    cases e2 : strLt a b with
    | true => rw [strLt_trans e e2] at h2; simp at h2
    | false =>
      have := strLt_total a b e2 h1
      subst this
      rw [e] at h2; simp at h2

/-! ## The containers -/

/-- the value of the first entry with a key -/
def first (es : Entries) (key : Str) : Option Value :=
  match es with
  | [] => none
  | (k, v) :: r => if k = key then some v else first r key

/-- What the classes keep true of their keys. -/
def KeysOk (kind : Kind) (ks : List Str) : Prop :=
  match kind with
  | .map => ks.Pairwise (fun a b => strLt a b = true)
  | .multimap => ks.Pairwise (fun a b => strLt b a = false)
  | .ordered => ks.Nodup
  | .array => ∀ k ∈ ks, k = []

def keysOf (es : Entries) : List Str := es.map (fun e => e.1)

@[simp] theorem keysOf_nil : keysOf [] = [] := rfl
@[simp] theorem keysOf_cons (e : Str × Value) (es : Entries) : keysOf (e :: es) = e.1 :: keysOf es := rfl
@[simp] theorem keysOf_append (a b : Entries) : keysOf (a ++ b) = keysOf a ++ keysOf b := by simp [keysOf]

theorem first_none {es : Entries} {key : Str} : first es key = none ↔ key ∉ keysOf es := by
  induction es with
  | nil => simp [first]
  | cons e es ih =>
    obtain ⟨k, v⟩ := e
    simp only [first, keysOf_cons, List.mem_cons, not_or]
    by_cases h : k = key
    · simp [h]
    · have h' : ¬ key = k := fun e => h e.symm
      rw [if_neg h, ih]; simp [h']

theorem first_append (a b : Entries) (key : Str) : first (a ++ b) key = match first a key with | some v => some v | none => first b key := by
  induction a with
  | nil => rfl
  | cons e a ih =>
    obtain ⟨k, v⟩ := e
    simp only [List.cons_append, first]
    by_cases h : k = key
    · simp [h]
    · simp [h, ih]

theorem first_some_split {es : Entries} {key : Str} {v : Value} (h : first es key = some v) : ∃ a b, es = a ++ (key, v) :: b ∧ key ∉ keysOf a := by
  induction es with
  | nil => simp [first] at h
  | cons e es ih =>
    obtain ⟨k, x⟩ := e
    simp only [first] at h
    by_cases hk : k = key
    · rw [if_pos hk] at h
      simp at h; subst h; subst hk
      exact ⟨[], es, rfl, by simp⟩
    · rw [if_neg hk] at h
      obtain ⟨a, b, rfl, hn⟩ := ih h
      exact ⟨(k, x) :: a, b, rfl, by simp [hn]; exact fun e => hk e.symm⟩

theorem first_mem {es : Entries} {key : Str} {v : Value} (h : first es key = some v) : (key, v) ∈ es := by
  obtain ⟨a, b, rfl, -⟩ := first_some_split h
  simp

/-- an entry at a position -/
theorem firstIndex_keyAt (es : Entries) (key : Str) : (keyAt es key (firstIndex es key)).map (·.2) = first es key := by
  induction es with
  | nil => rfl
  | cons e es ih =>
    obtain ⟨k, v⟩ := e
    simp only [firstIndex, first]
    by_cases h : k = key
    · simp [h, keyAt]
    · rw [if_neg h, if_neg h, ← ih]
      simp only [keyAt, List.getElem?_cons_succ]
      cases es[firstIndex es key]? with
      | none => rfl
      | some p => obtain ⟨a, b⟩ := p; by_cases ha : a = key <;> simp [ha]

theorem lowerBound_keyAt {es : Entries} {key : Str} (h : (keysOf es).Pairwise (fun a b => strLt b a = false)) :
    (keyAt es key (lowerBound es key)).map (·.2) = first es key ∧ (key ∈ keysOf es → lowerBound es key = firstIndex es key) := by
  induction es with
  | nil => exact ⟨rfl, by simp⟩
  | cons e es ih =>
    obtain ⟨k, v⟩ := e
    simp only [keysOf_cons, List.pairwise_cons] at h
    obtain ⟨h1, h2⟩ := h
    obtain ⟨i1, i2⟩ := ih h2
    simp only [lowerBound, first, firstIndex]
    cases hlt : strLt k key with
    | true =>
      have hne := strLt_ne hlt
      simp only [if_true, if_neg hne]
      refine ⟨?_, ?_⟩
      · rw [← i1]
        simp only [keyAt, List.getElem?_cons_succ]
        cases es[lowerBound es key]? with
        | none => rfl
        | some p => obtain ⟨a, b⟩ := p; by_cases ha : a = key <;> simp [ha]
      · intro hm
        simp only [keysOf_cons, List.mem_cons] at hm
        rw [i2 (hm.resolve_left (fun e => hne e.symm))]
    | false =>
      simp only [Bool.false_eq_true, if_false]
      by_cases hk : k = key
      · subst hk
        simp [keyAt]
      · rw [if_neg hk]
        have hgt : strLt key k = true := by
          cases e : strLt key k with
          | true => rfl
          | false => exact absurd (strLt_total k key hlt e) hk
        have hnone : key ∉ keysOf es := by
          intro hm
          have := h1 key hm
          rw [hgt] at this; simp at this
        refine ⟨?_, ?_⟩
        · rw [first_none.2 hnone]
          simp [keyAt, hk]
        · intro hm
          simp only [keysOf_cons, List.mem_cons] at hm
          rcases hm with rfl | hm
          · exact absurd rfl hk
          · exact absurd hm hnone

theorem map_weak {ks : List Str} (h : KeysOk .map ks) : KeysOk .multimap ks := List.Pairwise.imp (fun h => strLt_asymm h) h

def Node.Ok (n : Node) : Prop := KeysOk n.kind (keysOf n.entries)

theorem keyAt_fst {es : Entries} {key : Str} {i : Nat} {p : Nat × Value} (h : keyAt es key i = some p) : p.1 = i ∧ es[i]? = some (key, p.2) := by
  unfold keyAt at h
  split at h
  · rename_i k v e
    by_cases hk : k = key
    · rw [if_pos hk] at h; simp at h; subst h; subst hk; exact ⟨rfl, e⟩
    · rw [if_neg hk] at h; simp at h
  · simp at h

theorem keyAt_some {es : Entries} {key : Str} {i : Nat} {v : Value} (h : (keyAt es key i).map (·.2) = some v) : keyAt es key i = some (i, v) := by
  cases e : keyAt es key i with
  | none => rw [e] at h; simp at h
  | some p =>
    rw [e] at h; simp at h
    have := (keyAt_fst e).1
    obtain ⟨a, b⟩ := p
    simp at this h
    rw [this, h]

/-- Looking up a key gives the first entry with it. -/
theorem findKey_eq {n : Node} (hn : n.Ok) (ha : n.kind.assoc = true) (key : Str) :
    n.findKey key = match first n.entries key with | some v => some (firstIndex n.entries key, v) | none => none := by
  obtain ⟨kind, es⟩ := n
  have conv : ∀ i, (keyAt es key i).map (·.2) = first es key → (key ∈ keysOf es → i = firstIndex es key) →
      keyAt es key i = match first es key with | some v => some (firstIndex es key, v) | none => none := by
    intro i h1 h2
    cases e : first es key with
    | none => rw [e] at h1; simpa using h1
    | some v =>
      rw [e] at h1
      rw [keyAt_some h1]
      simp only
      rw [h2 (by
        have := first_none (es := es) (key := key)
        rw [e] at this
        simpa using this)]
  cases kind with
  | map => exact conv _ (lowerBound_keyAt (map_weak hn)).1 (lowerBound_keyAt (map_weak hn)).2
  | multimap => exact conv _ (lowerBound_keyAt hn).1 (lowerBound_keyAt hn).2
  | ordered => exact conv _ (firstIndex_keyAt es key) (fun _ => rfl)
  | array => simp [Kind.assoc] at ha

def notHole : Value → Option Value
  | .hole => none
  | v => some v

theorem find_eq {n : Node} (hn : n.Ok) (ha : n.kind.assoc = true) (key : Str) :
    n.find key = match first n.entries key with | some v => (notHole v).map (fun v => (firstIndex n.entries key, v)) | none => none := by
  unfold Node.find
  rw [findKey_eq hn ha]
  cases first n.entries key with
  | none => rfl
  | some v => cases v <;> rfl

theorem find_array {n : Node} (ha : n.kind.assoc = false) (key : Str) : n.find key = none := by
  obtain ⟨kind, es⟩ := n
  cases kind <;> simp [Kind.assoc] at ha
  rfl

/-! ## `put` -/

theorem mapPut_snoc {es : Entries} {key : Str} {v : Value} (h : ∀ k ∈ keysOf es, strLt k key = true) : mapPut es key v = es ++ [(key, v)] := by
  induction es with
  | nil => rfl
  | cons e es ih =>
    obtain ⟨k, x⟩ := e
    simp only [mapPut, h k (by simp), if_true, List.cons_append]
    rw [ih (fun k' hk' => h k' (by simp [hk']))]

theorem multiPut_snoc {es : Entries} {key : Str} {v : Value} (h : ∀ k ∈ keysOf es, strLt key k = false) : multiPut es key v = es ++ [(key, v)] := by
  induction es with
  | nil => rfl
  | cons e es ih =>
    obtain ⟨k, x⟩ := e
    simp only [multiPut, h k (by simp), List.cons_append, Bool.false_eq_true, if_false]
    rw [ih (fun k' hk' => h k' (by simp [hk']))]

theorem orderedPut_snoc {es : Entries} {key : Str} {v : Value} (h : key ∉ keysOf es) : orderedPut es key v = es ++ [(key, v)] := by
  induction es with
  | nil => rfl
  | cons e es ih =>
    obtain ⟨k, x⟩ := e
    simp only [keysOf_cons, List.mem_cons, not_or] at h
    simp only [orderedPut, if_neg (fun e : k = key => h.1 e.symm), List.cons_append]
    rw [ih h.2]

/-- Putting an entry that may come last appends it. -/
theorem put_snoc {kind : Kind} {es : Entries} {key : Str} (v : Value) (ha : kind.assoc = true) (h : KeysOk kind (keysOf es ++ [key])) :
    Node.put ⟨kind, es⟩ key v = some ⟨kind, es ++ [(key, v)]⟩ := by
  cases kind with
  | map =>
    have : ∀ k ∈ keysOf es, strLt k key = true := fun k hk => (List.pairwise_append.1 h).2.2 k hk key (by simp)
    simp only [Node.put, mapPut_snoc this]
  | multimap =>
    have : ∀ k ∈ keysOf es, strLt key k = false := fun k hk => (List.pairwise_append.1 h).2.2 k hk key (by simp)
    simp only [Node.put, multiPut_snoc this]
  | ordered =>
    have : key ∉ keysOf es := by
      intro hm
      have h' : (keysOf es ++ [key]).Nodup := h
      rw [List.nodup_append] at h'
      exact h'.2.2 key hm key (by simp) rfl
    simp only [Node.put, orderedPut_snoc this]
  | array => simp [Kind.assoc] at ha

theorem KeysOk.prefix {kind : Kind} {a b : List Str} (h : KeysOk kind (a ++ b)) : KeysOk kind a := by
  cases kind with
  | map => exact (List.pairwise_append.1 h).1
  | multimap => exact (List.pairwise_append.1 h).1
  | ordered => exact (List.nodup_append.1 h).1
  | array => exact fun k hk => h k (by simp [hk])

theorem KeysOk.snoc {kind : Kind} {a b : List Str} {k : Str} (h : KeysOk kind (a ++ k :: b)) : KeysOk kind (a ++ [k]) := by
  have e : a ++ k :: b = (a ++ [k]) ++ b := by simp
  rw [e] at h
  exact h.prefix

theorem KeysOk.sublist {kind : Kind} {a b : List Str} (h : KeysOk kind b) (hs : a.Sublist b) : KeysOk kind a := by
  cases kind with
  | map => exact List.Pairwise.sublist hs h
  | multimap => exact List.Pairwise.sublist hs h
  | ordered => exact List.Nodup.sublist hs h
  | array => exact fun k hk => h k (hs.subset hk)

theorem mem_keysOf_mapPut {es : Entries} {key k : Str} {v : Value} (h : k ∈ keysOf (mapPut es key v)) : k = key ∨ k ∈ keysOf es := by
  induction es with
  | nil => simp [mapPut] at h; exact Or.inl h
  | cons e es ih =>
    obtain ⟨a, x⟩ := e
    simp only [mapPut] at h
    split at h
    · simp only [keysOf_cons, List.mem_cons] at h ⊢
      rcases h with h | h
      · exact Or.inr (Or.inl h)
      · rcases ih h with h | h
        · exact Or.inl h
        · exact Or.inr (Or.inr h)
    · split at h
      · simpa using h
      · exact Or.inr h

theorem mapPut_ok {es : Entries} {key : Str} {v : Value} (h : KeysOk .map (keysOf es)) : KeysOk .map (keysOf (mapPut es key v)) := by
  induction es with
  | nil => exact List.pairwise_singleton ..
  | cons e es ih =>
    obtain ⟨a, x⟩ := e
    have h' := List.pairwise_cons.1 h
    simp only [mapPut]
    split
    · rename_i hlt
      refine List.pairwise_cons.2 ⟨?_, ih h'.2⟩
      intro b hb
      rcases mem_keysOf_mapPut hb with rfl | hb
      · exact hlt
      · exact h'.1 b hb
    · split
      · rename_i hlt
        refine List.pairwise_cons.2 ⟨?_, h⟩
        intro b hb
        rcases List.mem_cons.1 hb with rfl | hb
        · exact hlt
        · exact strLt_trans hlt (h'.1 b hb)
      · exact h

theorem mem_keysOf_multiPut {es : Entries} {key k : Str} {v : Value} (h : k ∈ keysOf (multiPut es key v)) : k = key ∨ k ∈ keysOf es := by
  induction es with
  | nil => simp [multiPut] at h; exact Or.inl h
  | cons e es ih =>
    obtain ⟨a, x⟩ := e
    simp only [multiPut] at h
    split at h
    · simpa using h
    · simp only [keysOf_cons, List.mem_cons] at h ⊢
      rcases h with h | h
      · exact Or.inr (Or.inl h)
      · rcases ih h with h | h
        · exact Or.inl h
        · exact Or.inr (Or.inr h)

theorem multiPut_ok {es : Entries} {key : Str} {v : Value} (h : KeysOk .multimap (keysOf es)) : KeysOk .multimap (keysOf (multiPut es key v)) := by
  induction es with
  | nil => exact List.pairwise_singleton ..
  | cons e es ih =>
    obtain ⟨a, x⟩ := e
    have h' := List.pairwise_cons.1 h
    simp only [multiPut]
    split
    · rename_i hlt
      refine List.pairwise_cons.2 ⟨?_, h⟩
      intro b hb
      rcases List.mem_cons.1 hb with rfl | hb
      · exact strLt_asymm hlt
      · exact strLe_trans (strLt_asymm hlt) (h'.1 b hb)
    · rename_i hlt
      refine List.pairwise_cons.2 ⟨?_, ih h'.2⟩
      intro b hb
      rcases mem_keysOf_multiPut hb with rfl | hb
      · simpa using hlt
      · exact h'.1 b hb

theorem orderedPut_keys (es : Entries) (key : Str) (v : Value) : keysOf (orderedPut es key v) = if key ∈ keysOf es then keysOf es else keysOf es ++ [key] := by
  induction es with
  | nil => simp [orderedPut]
  | cons e es ih =>
    obtain ⟨a, x⟩ := e
    simp only [orderedPut]
    by_cases h : a = key
    · simp [h]
    · have h' : ¬ key = a := fun e => h e.symm
      rw [if_neg h]
      simp only [keysOf_cons, ih, List.mem_cons]
      by_cases hm : key ∈ keysOf es <;> simp [hm, h']

/-- `put` keeps the order of keys. -/
theorem put_ok {n n' : Node} {key : Str} {v : Value} (h : n.Ok) (hp : n.put key v = some n') : n'.Ok ∧ n'.kind = n.kind := by
  obtain ⟨kind, es⟩ := n
  cases kind with
  | map => simp only [Node.put, Option.some.injEq] at hp; subst hp; exact ⟨mapPut_ok h, rfl⟩
  | multimap => simp only [Node.put, Option.some.injEq] at hp; subst hp; exact ⟨multiPut_ok h, rfl⟩
  | ordered =>
    simp only [Node.put, Option.some.injEq] at hp; subst hp
    refine ⟨?_, rfl⟩
    show (keysOf (orderedPut es key v)).Nodup
    rw [orderedPut_keys]
    have h' : (keysOf es).Nodup := h
    split
    · exact h'
    · rename_i hm
      rw [List.nodup_append]
      exact ⟨h', by simp, by intro a ha b hb; simp at hb; subst hb; rintro rfl; exact hm ha⟩
  | array => simp [Node.put] at hp

theorem first_mapPut {es : Entries} (key : Str) (v : Value) (h : KeysOk .map (keysOf es)) (k : Str) : first (mapPut es key v) k = if k = key then some v else first es k := by
  induction es with
  | nil =>
    simp only [mapPut, first]
    by_cases e : k = key
    · simp [e]
    · rw [if_neg e, if_neg (fun h => e h.symm)]
  | cons e es ih =>
    obtain ⟨a, x⟩ := e
    have h' := List.pairwise_cons.1 h
    simp only [mapPut]
    split
    · rename_i hlt
      simp only [first, ih h'.2]
      by_cases e1 : a = k
      · have : k ≠ key := by rintro rfl; exact strLt_ne hlt e1
        simp [e1, this]
      · simp [e1]
    · split
      · rename_i hnl hlt
        simp only [first]
        by_cases e1 : k = key
        · simp [e1]
        · rw [if_neg e1, if_neg (fun h => e1 h.symm)]
      · rename_i h1 h2
        have : a = key := strLt_total a key (by simpa using h1) (by simpa using h2)
        subst this
        simp only [first]
        by_cases e1 : k = a
        · simp [e1]
        · rw [if_neg e1, if_neg (fun h => e1 h.symm)]; rw [if_neg (fun h => e1 h.symm)]

theorem first_orderedPut (es : Entries) (key : Str) (v : Value) (k : Str) : first (orderedPut es key v) k = if k = key then some v else first es k := by
  induction es with
  | nil =>
    simp only [orderedPut, first]
    by_cases e : k = key
    · simp [e]
    · rw [if_neg e, if_neg (fun h => e h.symm)]
  | cons e es ih =>
    obtain ⟨a, x⟩ := e
    simp only [orderedPut]
    split
    · rename_i ha
      subst ha
      simp only [first]
      by_cases e1 : k = a
      · simp [e1]
      · rw [if_neg e1, if_neg (fun h => e1 h.symm)]; rw [if_neg (fun h => e1 h.symm)]
    · rename_i ha
      simp only [first, ih]
      by_cases e1 : a = k
      · subst e1; simp [ha]
      · simp [e1]

theorem first_multiPut {es : Entries} (key : Str) (v : Value) (h : KeysOk .multimap (keysOf es)) (k : Str) :
    first (multiPut es key v) k = match first es k with | some x => some x | none => if k = key then some v else none := by
  induction es with
  | nil =>
    simp only [multiPut, first]
    by_cases e : k = key
    · simp [e]
    · rw [if_neg e, if_neg (fun h => e h.symm)]
  | cons e es ih =>
    obtain ⟨a, x⟩ := e
    have h' := List.pairwise_cons.1 h
    simp only [multiPut]
    split
    · rename_i hlt
      simp only [first]
      by_cases e1 : k = key
      · subst e1
        have hne : a ≠ k := fun e => strLt_ne hlt e.symm
        have hnone : first es k = none := by
          rw [first_none]; intro hm
          have := h'.1 k hm
          rw [hlt] at this; simp at this
        simp [hne, hnone]
      · rw [if_neg (fun h : key = k => e1 h.symm)]
        by_cases e2 : a = k
        · simp [e2]
        · rw [if_neg e2]; simp only [if_neg e1]; cases first es k <;> rfl
    · simp only [first, ih h'.2]
      by_cases e2 : a = k
      · simp [e2]
      · simp only [if_neg e2]

/-- The effect of `put` of a key that is not there. -/
theorem first_put_absent {n n' : Node} {key : Str} {v : Value} (h : n.Ok) (hp : n.put key v = some n') (hk : key ∉ keysOf n.entries) (k : Str) :
    first n'.entries k = if k = key then some v else first n.entries k := by
  obtain ⟨kind, es⟩ := n
  cases kind with
  | map => simp only [Node.put, Option.some.injEq] at hp; subst hp; exact first_mapPut key v h k
  | multimap =>
    simp only [Node.put, Option.some.injEq] at hp; subst hp
    show first (multiPut es key v) k = _
    rw [first_multiPut key v h k]
    by_cases e : k = key
    · subst e; rw [first_none.2 hk]
    · rw [if_neg e]
      cases h1 : first es k <;> simp [e]
  | ordered => simp only [Node.put, Option.some.injEq] at hp; subst hp; exact first_orderedPut es key v k
  | array => simp [Node.put] at hp

theorem put_some {n : Node} (h : n.kind.assoc = true) (key : Str) (v : Value) : ∃ n', n.put key v = some n' := by
  obtain ⟨kind, es⟩ := n
  cases kind <;> simp_all [Node.put, Kind.assoc]

theorem emptyCopy_some (n : Node) : emptyCopy (some n) = ⟨n.kind, []⟩ := by
  obtain ⟨kind, es⟩ := n
  cases kind <;> rfl

/-! ## Well-formed trees -/

mutual
/-- No null pointers, and the keys of every config are as its class keeps them. -/
def Value.Ok : Value → Prop
  | .hole => False
  | .scalar _ => True
  | .null => True
  | .conf k es => KeysOk k (keysOf es) ∧ entriesOk es
def entriesOk : Entries → Prop
  | [] => True
  | (_, v) :: r => v.Ok ∧ entriesOk r
end

theorem entriesOk_iff {es : Entries} : entriesOk es ↔ ∀ e ∈ es, e.2.Ok := by
  induction es with
  | nil => simp [entriesOk]
  | cons e es ih => obtain ⟨k, v⟩ := e; simp only [entriesOk, ih, List.forall_mem_cons]

/-- A well-formed config. -/
def Config.Ok (c : Config) : Prop :=
  match c with
  | none => True
  | some n => n.Ok ∧ ∀ e ∈ n.entries, e.2.Ok

theorem asConfig_ok {v : Value} (h : v.Ok) : v.asConfig.Ok := by
  cases v with
  | conf k es => simp only [Value.Ok, entriesOk_iff] at h; exact h
  | _ => trivial

theorem ok_notHole {v : Value} (h : v.Ok) : notHole v = some v := by
  cases v with
  | hole => simp [Value.Ok] at h
  | _ => rfl

/-- the value at a path given by its names -/
def get (c : Config) (ts : List Str) : Option Value := (resolve c ts).map (·.2)

/-- the value below a value -/
def below (o : Option Value) (ts : List Str) : Option Value :=
  match o with
  | some v => get v.asConfig ts
  | none => none

theorem get_nil (c : Config) : get c [] = none := rfl

theorem get_null (ts : List Str) : get none ts = none := by
  cases ts with
  | nil => rfl
  | cons t ts => cases ts <;> rfl

/-- the value an entry of a well-formed config has -/
theorem get_one {n : Node} (h : Config.Ok (some n)) (ha : n.kind.assoc = true) (t : Str) : get (some n) [t] = first n.entries t := by
  simp only [get, resolve, find_eq h.1 ha]
  cases e : first n.entries t with
  | none => rfl
  | some v =>
    have := ok_notHole (h.2 _ (first_mem e))
    simp only at this
    simp [this]

theorem get_cons {n : Node} (h : Config.Ok (some n)) (ha : n.kind.assoc = true) (t t' : Str) (ts : List Str) :
    get (some n) (t :: t' :: ts) = below (first n.entries t) (t' :: ts) := by
  simp only [get, resolve, find_eq h.1 ha]
  cases e : first n.entries t with
  | none => rfl
  | some v =>
    have := ok_notHole (h.2 _ (first_mem e))
    simp only at this
    simp [this]
    rfl

/-- the same for configs with null pointers -/
theorem get_one' {n : Node} (h : n.Ok) (ha : n.kind.assoc = true) (t : Str) : get (some n) [t] = (first n.entries t).bind notHole := by
  simp only [get, resolve, find_eq h ha]
  cases e : first n.entries t with
  | none => rfl
  | some v => cases v <;> rfl

theorem get_cons' {n : Node} (h : n.Ok) (ha : n.kind.assoc = true) (t t' : Str) (ts : List Str) :
    get (some n) (t :: t' :: ts) = below (first n.entries t) (t' :: ts) := by
  simp only [get, resolve, find_eq h ha]
  cases e : first n.entries t with
  | none => rfl
  | some v =>
    cases v with
    | hole => exact (get_null (t' :: ts)).symm
    | _ => rfl

theorem get_array {n : Node} (ha : n.kind.assoc = false) (ts : List Str) : get (some n) ts = none := by
  cases ts with
  | nil => rfl
  | cons t ts => cases ts <;> simp [get, resolve, find_array ha]

end Verif.Config
