import Verif.Props.C52_ConfigCopies

/-!
# C54: merging configs
-/
set_option autoImplicit false

namespace Verif.Config

open Tokens (nonEmptyPieces)

/-! ## Specification -/

/-- Trees without multimaps in which every name of an object is not empty and has no separator, so that it is a path. -/
inductive Simple : Value → Prop
  | hole : Simple .hole
  | scalar (s : Scalar) : Simple (.scalar s)
  | null : Simple .null
  | array (es : Entries) : Simple (.conf .array es)
  | object (k : Kind) (es : Entries) : k ≠ .multimap → (∀ e ∈ es, e.1 ≠ [] ∧ '.' ∉ e.1) → (∀ e ∈ es, Simple e.2) → Simple (.conf k es)

def Config.Simple (c : Config) : Prop :=
  match c with
  | none => True
  | some n => n.kind ≠ .multimap ∧ (∀ e ∈ n.entries, e.1 ≠ [] ∧ '.' ∉ e.1) ∧ ∀ e ∈ n.entries, Verif.Config.Simple e.2

/-- What is seen of a value without looking into it: an object, or another value. -/
inductive View | object | leaf (v : Value)

def view (v : Value) : View :=
  match v.asObject with
  | some _ => .object
  | none => .leaf v

/-- What is at a path. -/
def seen (c : Config) (p : List Str) : Option View := (get c p).map view

/-- What a merged config has at a path: what the config with priority has there; or what the other one has there, if on the way the first one has nothing, or both have objects. -/
def MergedAt (l r : Config) (p : List Str) (s : View) : Prop :=
  seen l p = some s ∨ (seen r p = some s ∧ ∀ q, q ≠ [] → q <+: p → seen l q = none ∨ (seen l q = some .object ∧ seen r q = some .object))

/-! ## Sorted keys -/

abbrev Sorted (ks : List Str) : Prop := ks.Pairwise (fun a b => strLt b a = false)

theorem mem_insertKey {k a : Str} {ks : List Str} : a ∈ insertKey k ks ↔ a = k ∨ a ∈ ks := by
  induction ks with
  | nil => simp [insertKey]
  | cons b ks ih =>
    simp only [insertKey]
    split
    · simp only [List.mem_cons, ih]
      constructor
      · rintro (h | h | h)
        · exact Or.inr (Or.inl h)
        · exact Or.inl h
        · exact Or.inr (Or.inr h)
      · rintro (h | h | h)
        · exact Or.inr (Or.inl h)
        · exact Or.inl h
        · exact Or.inr (Or.inr h)
    · simp

theorem insertKey_sorted {k : Str} {ks : List Str} (h : Sorted ks) : Sorted (insertKey k ks) := by
  induction ks with
  | nil => exact List.pairwise_singleton ..
  | cons b ks ih =>
    simp only [insertKey]
    have h' := List.pairwise_cons.1 h
    split
    · rename_i hlt
      refine List.pairwise_cons.2 ⟨fun a ha => ?_, ih h'.2⟩
      rcases mem_insertKey.1 ha with rfl | ha
      · exact strLt_asymm hlt
      · exact h'.1 a ha
    · rename_i hlt
      have hlt : strLt b k = false := by simpa using hlt
      refine List.pairwise_cons.2 ⟨fun a ha => ?_, h⟩
      rcases List.mem_cons.1 ha with rfl | ha
      · exact hlt
      · exact strLe_trans hlt (h'.1 a ha)

theorem sortKeys_spec (ks : List Str) : Sorted (sortKeys ks) ∧ ∀ a, a ∈ sortKeys ks ↔ a ∈ ks := by
  induction ks with
  | nil => exact ⟨List.Pairwise.nil, fun a => Iff.rfl⟩
  | cons k ks ih => exact ⟨insertKey_sorted ih.1, fun a => by rw [sortKeys, mem_insertKey, ih.2]; simp⟩

theorem intersect_spec : ∀ (as bs : List Str), Sorted as → Sorted bs → Sorted (intersect as bs) ∧ ∀ k, k ∈ intersect as bs ↔ k ∈ as ∧ k ∈ bs
  | [], bs, _, _ => by simp [intersect]
  | a :: as, [], _, _ => by simp [intersect]
  | a :: as, b :: bs, ha, hb => by
    have ha' := List.pairwise_cons.1 ha
    have hb' := List.pairwise_cons.1 hb
    rw [intersect]
    split
    · rename_i hlt
      have ih := intersect_spec as (b :: bs) ha'.2 hb
      refine ⟨ih.1, fun k => ?_⟩
      rw [ih.2, List.mem_cons (b := a)]
      constructor
      · rintro ⟨h1, h2⟩; exact ⟨Or.inr h1, h2⟩
      · rintro ⟨rfl | h1, h2⟩
        · exfalso
          rcases List.mem_cons.1 h2 with rfl | h2
          · rw [strLt_irrefl] at hlt; simp at hlt
          · rw [hb'.1 k h2] at hlt; simp at hlt
        · exact ⟨h1, h2⟩
    · rename_i hab
      have hab : strLt a b = false := by simpa using hab
      split
      · rename_i hlt
        have ih := intersect_spec (a :: as) bs ha hb'.2
        refine ⟨ih.1, fun k => ?_⟩
        rw [ih.2, List.mem_cons (b := b)]
        constructor
        · rintro ⟨h1, h2⟩; exact ⟨h1, Or.inr h2⟩
        · rintro ⟨h1, rfl | h2⟩
          · exfalso
            rcases List.mem_cons.1 h1 with rfl | h1
            · rw [strLt_irrefl] at hlt; simp at hlt
            · rw [ha'.1 k h1] at hlt; simp at hlt
          · exact ⟨h1, h2⟩
      · rename_i hba
        have hba : strLt b a = false := by simpa using hba
        have e := strLt_total a b hab hba
        subst e
        have ih := intersect_spec as bs ha'.2 hb'.2
        refine ⟨List.pairwise_cons.2 ⟨fun k hk => ha'.1 k ((ih.2 k).1 hk).1, ih.1⟩, fun k => ?_⟩
        simp only [List.mem_cons, ih.2]
        constructor
        · rintro (rfl | ⟨h1, h2⟩)
          · exact ⟨Or.inl rfl, Or.inl rfl⟩
          · exact ⟨Or.inr h1, Or.inr h2⟩
        · rintro ⟨rfl | h1, h2⟩
          · exact Or.inl rfl
          · rcases h2 with rfl | h2
            · exact Or.inl rfl
            · exact Or.inr ⟨h1, h2⟩
termination_by as bs => as.length + bs.length

theorem isCommon_iff {ks : List Str} (h : Sorted ks) (k : Str) : isCommon ks k = true ↔ k ∈ ks := by
  induction ks with
  | nil => simp [isCommon]
  | cons a ks ih =>
    have h' := List.pairwise_cons.1 h
    simp only [isCommon]
    split
    · rename_i hlt
      rw [ih h'.2, List.mem_cons]
      constructor
      · exact Or.inr
      · rintro (rfl | h)
        · rw [strLt_irrefl] at hlt; simp at hlt
        · exact h
    · rename_i hlt
      have hlt : strLt a k = false := by simpa using hlt
      simp only [decide_eq_true_eq, List.mem_cons]
      constructor
      · exact Or.inl
      · rintro (h1 | h1)
        · exact h1
        · exact (strLt_total a k hlt (h'.1 k h1)).symm

/-! ## One level -/

/-- the value of a key in a merged config -/
def combine (m : Config → Config → Option Node) (x y : Option Value) : Option Value :=
  match x, y with
  | none, y => y
  | some x, none => some x
  | some x, some y =>
    match x.asObject, y.asObject with
    | some a, some b => (m (some a) (some b)).map (fun n => ofConfig (some n))
    | _, _ => some x

theorem namesOf_single {k : Str} (h1 : k ≠ []) (h2 : '.' ∉ k) : nonEmptyPieces dot k = [k] := by
  have : ∀ x ∈ k, dot x = false := by
    intro x hx
    simp only [dot, decide_eq_false_iff_not]
    rintro rfl
    exact h2 hx
  rw [nonEmptyPieces, Tokens.pieces_noSep this]
  cases k with
  | nil => exact absurd rfl h1
  | cons => rfl

theorem at_single {c : Config} (hc : c.Ok) (hna : c.nullOrAssoc = true) {k : Str} (h1 : k ≠ []) (h2 : '.' ∉ k) : (at_ c k).map (·.2) = first c.entries k := by
  rw [at_eq, namesOf_single h1 h2]
  exact get_one_c hc hna k

theorem at_some {c : Config} (hc : c.Ok) (hna : c.nullOrAssoc = true) {k : Str} (h1 : k ≠ []) (h2 : '.' ∉ k) {x : Value} (hx : first c.entries k = some x) : ∃ i, at_ c k = some (i, x) := by
  have := at_single hc hna h1 h2
  rw [hx] at this
  cases e : at_ c k with
  | none => rw [e] at this; simp at this
  | some p => rw [e] at this; obtain ⟨i, w⟩ := p; simp at this; subst this; exact ⟨i, rfl⟩

theorem mergeLoop_spec {m : Config → Config → Option Node} {l r c : Config} {common : List Str} (F : Str → Option Value)
    (hstep : ∀ (k : Str) (joint : Node), (isCommon common k = true → ∃ v, F k = some v ∧ commonKey m l r joint k = joint.put k v) ∧
      (isCommon common k = false → k ∈ keysOf c.entries → ∃ i v, F k = some v ∧ at_ c k = some (i, v)))
    (ks : List Str) (hks : ∀ k ∈ ks, k ∈ keysOf c.entries) (es : Entries) (hes : KeysOk .map (keysOf es)) :
    ∃ es', mergeLoop m l r c common ks ⟨.map, es⟩ = some ⟨.map, es'⟩ ∧ KeysOk .map (keysOf es') ∧ (∀ k, first es' k = if k ∈ ks then F k else first es k) ∧
      ∀ e ∈ es', e ∈ es ∨ F e.1 = some e.2 := by
  induction ks generalizing es with
  | nil => exact ⟨es, rfl, hes, fun k => by simp, fun e he => Or.inl he⟩
  | cons k ks ih =>
    have put : ∀ v, F k = some v → ∃ es', mergeLoop m l r c common ks ⟨.map, mapPut es k v⟩ = some ⟨.map, es'⟩ ∧ KeysOk .map (keysOf es') ∧
        (∀ k', first es' k' = if k' ∈ k :: ks then F k' else first es k') ∧ ∀ e ∈ es', e ∈ es ∨ F e.1 = some e.2 := by
      intro v hv
      obtain ⟨es', h1, h2, h3, h4⟩ := ih (fun k' hk' => hks k' (List.mem_cons_of_mem _ hk')) (mapPut es k v) (mapPut_ok hes)
      refine ⟨es', h1, h2, fun k' => ?_, fun e he => ?_⟩
      · rw [h3 k', first_mapPut k v hes k']
        by_cases hk : k' = k
        · subst hk; simp [hv]
        · simp [hk]
      · rcases h4 e he with h | h
        · have : ∀ (es : Entries), e ∈ mapPut es k v → e ∈ es ∨ e = (k, v) := by
            intro es
            induction es with
            | nil => intro h; exact Or.inr (by simpa [mapPut] using h)
            | cons c es ihe =>
              obtain ⟨a, x⟩ := c
              intro h
              simp only [mapPut] at h
              split at h
              · rcases List.mem_cons.1 h with h | h
                · exact Or.inl (by rw [h]; simp)
                · rcases ihe h with h | h
                  · exact Or.inl (List.mem_cons_of_mem _ h)
                  · exact Or.inr h
              · rename_i h1
                split at h
                · rcases List.mem_cons.1 h with h | h
                  · exact Or.inr h
                  · exact Or.inl h
                · rename_i h2
                  have : a = k := strLt_total a k (by simpa using h1) (by simpa using h2)
                  rcases List.mem_cons.1 h with h | h
                  · exact Or.inr (by rw [h, this])
                  · exact Or.inl (List.mem_cons_of_mem _ h)
          rcases this es h with h | rfl
          · exact Or.inl h
          · exact Or.inr hv
        · exact Or.inr h
    have hs := hstep k ⟨.map, es⟩
    cases hc : isCommon common k with
    | true =>
      obtain ⟨v, hv, hput⟩ := hs.1 hc
      simp only [mergeLoop, hc, if_true, hput, Node.put]
      exact put v hv
    | false =>
      obtain ⟨i, v, hv, hat⟩ := hs.2 hc (hks k (by simp))
      simp only [mergeLoop, hc, Bool.false_eq_true, if_false, hat, Node.put]
      exact put v hv

theorem keys_eq {c : Config} (hna : c.nullOrAssoc = true) : keys c = keysOf c.entries := by
  cases c with
  | none => rfl
  | some n =>
    have : n.kind.assoc = true := hna
    simp [keys, this, Config.entries, keysOf]

theorem simple_key {c : Config} (hs : c.Simple) {k : Str} (hk : k ∈ keysOf c.entries) : k ≠ [] ∧ '.' ∉ k := by
  cases c with
  | none => simp [Config.entries] at hk
  | some n =>
    obtain ⟨e, he, rfl⟩ := List.mem_map.1 hk
    exact hs.2.1 e he

theorem simple_multi {c : Config} (hs : c.Simple) : c.multi = false := by
  cases c with
  | none => rfl
  | some n =>
    obtain ⟨kind, es⟩ := n
    have := hs.1
    cases kind <;> simp [Config.multi, Kind.multi] at this ⊢

theorem mem_keys_first {es : Entries} {k : Str} (h : k ∈ keysOf es) : ∃ x, first es k = some x := by
  cases e : first es k with
  | none => exact absurd h (first_none.1 e)
  | some x => exact ⟨x, rfl⟩

theorem first_mem_keys {es : Entries} {k : Str} {x : Value} (h : first es k = some x) : k ∈ keysOf es := List.mem_map_of_mem (f := fun e => e.1) (first_mem h)

/-- One level of the merge: a map whose value at each key is the combined one. -/
theorem mergeFuel_level {fuel : Nat} {l r : Config} (hl : l.Ok) (hr : r.Ok) (hls : l.Simple) (hrs : r.Simple) (hla : l.nullOrAssoc = true) (hra : r.nullOrAssoc = true)
    (hm : ∀ (k : Str) (x y : Value) (a b : Node), first l.entries k = some x → first r.entries k = some y → x.asObject = some a → y.asObject = some b → (mergeFuel fuel (some a) (some b)).isSome = true) :
    ∃ es, mergeFuel (fuel + 1) l r = some ⟨.map, es⟩ ∧ KeysOk .map (keysOf es) ∧ (∀ k, first es k = combine (mergeFuel fuel) (first l.entries k) (first r.entries k)) ∧
      ∀ e ∈ es, combine (mergeFuel fuel) (first l.entries e.1) (first r.entries e.1) = some e.2 := by
  have sl := sortKeys_spec (keys l)
  have sr := sortKeys_spec (keys r)
  have hi := intersect_spec (sortKeys (keys l)) (sortKeys (keys r)) sl.1 sr.1
  have hcommon : ∀ k, isCommon (intersect (sortKeys (keys l)) (sortKeys (keys r))) k = true ↔ k ∈ keysOf l.entries ∧ k ∈ keysOf r.entries := by
    intro k
    rw [isCommon_iff hi.1, hi.2, sl.2, sr.2, keys_eq hla, keys_eq hra]
  have hck : ∀ (k : Str) (joint : Node), isCommon (intersect (sortKeys (keys l)) (sortKeys (keys r))) k = true →
      ∃ v, combine (mergeFuel fuel) (first l.entries k) (first r.entries k) = some v ∧ commonKey (mergeFuel fuel) l r joint k = joint.put k v := by
    intro k joint hc
    obtain ⟨h1, h2⟩ := (hcommon k).1 hc
    obtain ⟨x, hx⟩ := mem_keys_first h1
    obtain ⟨y, hy⟩ := mem_keys_first h2
    obtain ⟨hk1, hk2⟩ := simple_key hls h1
    obtain ⟨i, hix⟩ := at_some hl hla hk1 hk2 hx
    obtain ⟨j, hjy⟩ := at_some hr hra hk1 hk2 hy
    simp only [commonKey, hix, hjy, hx, hy, combine]
    cases ex : x.asObject with
    | none => exact ⟨x, rfl, rfl⟩
    | some a =>
      cases ey : y.asObject with
      | none => exact ⟨x, rfl, rfl⟩
      | some b =>
        have := hm k x y a b hx hy ex ey
        cases em : mergeFuel fuel (some a) (some b) with
        | none => rw [em] at this; simp at this
        | some n => simp only [em, Option.map_some]; exact ⟨_, rfl, rfl⟩
  obtain ⟨es1, a1, a2, a3, a4⟩ := mergeLoop_spec (m := mergeFuel fuel) (l := l) (r := r) (c := l) (common := intersect (sortKeys (keys l)) (sortKeys (keys r)))
    (fun k => combine (mergeFuel fuel) (first l.entries k) (first r.entries k))
    (fun k joint => ⟨hck k joint, fun hc hk => by
      obtain ⟨x, hx⟩ := mem_keys_first hk
      obtain ⟨hk1, hk2⟩ := simple_key hls hk
      obtain ⟨i, hix⟩ := at_some hl hla hk1 hk2 hx
      have hy : first r.entries k = none := by
        cases ey : first r.entries k with
        | none => rfl
        | some y => have := (hcommon k).2 ⟨hk, first_mem_keys ey⟩; rw [this] at hc; simp at hc
      exact ⟨i, x, by simp only [hx, hy, combine], hix⟩⟩)
    (sortKeys (keys l)) (fun k hk => by rw [sl.2, keys_eq hla] at hk; exact hk) [] List.Pairwise.nil
  obtain ⟨es2, b1, b2, b3, b4⟩ := mergeLoop_spec (m := mergeFuel fuel) (l := l) (r := r) (c := r) (common := intersect (sortKeys (keys l)) (sortKeys (keys r)))
    (fun k => combine (mergeFuel fuel) (first l.entries k) (first r.entries k))
    (fun k joint => ⟨hck k joint, fun hc hk => by
      obtain ⟨y, hy⟩ := mem_keys_first hk
      obtain ⟨hk1, hk2⟩ := simple_key hrs hk
      obtain ⟨i, hiy⟩ := at_some hr hra hk1 hk2 hy
      have hx : first l.entries k = none := by
        cases ex : first l.entries k with
        | none => rfl
        | some x => have := (hcommon k).2 ⟨first_mem_keys ex, hk⟩; rw [this] at hc; simp at hc
      exact ⟨i, y, by simp only [hx, hy, combine], hiy⟩⟩)
    (sortKeys (keys r)) (fun k hk => by rw [sr.2, keys_eq hra] at hk; exact hk) es1 a2
  refine ⟨es2, ?_, b2, fun k => ?_, fun e he => ?_⟩
  · simp only [mergeFuel, hla, hra, Bool.and_self, if_true, simple_multi hls, simple_multi hrs, Bool.or_self, Bool.false_eq_true, if_false, a1, b1]
  · rw [b3 k, a3 k]
    simp only [sl.2, sr.2]
    rw [keys_eq hla, keys_eq hra]
    by_cases h1 : k ∈ keysOf r.entries
    · simp [h1]
    · by_cases h2 : k ∈ keysOf l.entries
      · simp [h1, h2]
      · simp [h1, h2, first_none.2 h1, first_none.2 h2, combine, first]
  · rcases b4 e he with h | h
    · rcases a4 e h with h | h
      · simp at h
      · exact h
    · exact h

/-! ## All levels -/

theorem asObject_some {v : Value} {n : Node} (h : v.asObject = some n) : v = .conf n.kind n.entries ∧ n.kind.assoc = true ∧ v.asConfig = some n := by
  cases v with
  | conf k es =>
    simp only [Value.asObject] at h
    split at h
    · rename_i ha
      simp only [Option.some.injEq] at h
      subst h
      exact ⟨rfl, ha, rfl⟩
    · simp at h
  | _ => simp [Value.asObject] at h

theorem simple_object {v : Value} {n : Node} (h : Simple v) (ho : v.asObject = some n) : Config.Simple (some n) := by
  obtain ⟨hv, ha, -⟩ := asObject_some ho
  rw [hv] at h
  obtain ⟨kind, es⟩ := n
  cases h with
  | array es => simp [Kind.assoc] at ha
  | object k es h1 h2 h3 => exact ⟨h1, h2, h3⟩

theorem object_ok {v : Value} {n : Node} (h : v.Ok) (ho : v.asObject = some n) : Config.Ok (some n) := by
  have := asConfig_ok h
  rw [(asObject_some ho).2.2] at this
  exact this

theorem depth_le {es : Entries} {e : Str × Value} (h : e ∈ es) : e.2.depth ≤ entriesDepth es := by
  induction es with
  | nil => simp at h
  | cons c es ih =>
    obtain ⟨k, v⟩ := c
    simp only [entriesDepth]
    rcases List.mem_cons.1 h with rfl | h
    · exact Nat.le_max_left ..
    · exact Nat.le_trans (ih h) (Nat.le_max_right ..)

theorem simple_entry {c : Config} (hs : c.Simple) : ∀ e ∈ c.entries, Simple e.2 := by
  cases c with
  | none => simp [Config.entries]
  | some n => exact hs.2.2

/-- There is enough fuel. -/
theorem mergeFuel_isSome (fuel : Nat) (l r : Config) (hl : l.Ok) (hr : r.Ok) (hls : l.Simple) (hrs : r.Simple) (hla : l.nullOrAssoc = true) (hra : r.nullOrAssoc = true) (hd : l.depth < fuel) :
    (mergeFuel fuel l r).isSome = true := by
  induction fuel generalizing l r with
  | zero => omega
  | succ fuel ih =>
    obtain ⟨es, h, -⟩ := mergeFuel_level (fuel := fuel) hl hr hls hrs hla hra (fun k x y a b hx hy ha hb => by
      refine ih (some a) (some b) (object_ok (l.entryOk hl _ (first_mem hx)) ha) (object_ok (r.entryOk hr _ (first_mem hy)) hb) (simple_object (simple_entry hls _ (first_mem hx)) ha)
        (simple_object (simple_entry hrs _ (first_mem hy)) hb) (asObject_some ha).2.1 (asObject_some hb).2.1 ?_
      have h1 := depth_le (first_mem hx)
      have h2 := (asObject_some ha).1
      simp only at h1
      rw [h2] at h1
      simp only [Value.depth] at h1
      simp only [Config.depth] at hd ⊢
      show entriesDepth a.entries < fuel
      omega)
    rw [h]
    rfl

theorem seen_one {c : Config} (hc : c.Ok) (hna : c.nullOrAssoc = true) (k : Str) : seen c [k] = (first c.entries k).map view := by rw [seen, get_one_c hc hna]

theorem seen_cons {c : Config} (hc : c.Ok) (hna : c.nullOrAssoc = true) (k k' : Str) (q : List Str) : seen c (k :: k' :: q) = (first c.entries k).bind (fun v => seen v.asConfig (k' :: q)) := by
  rw [seen, get_cons_c hc hna]
  cases first c.entries k <;> rfl

theorem view_leaf_below {v w : Value} (h : view v = .leaf w) (k : Str) (q : List Str) : seen v.asConfig (k :: q) = none := by
  unfold view at h
  cases ho : v.asObject with
  | some n => rw [ho] at h; simp at h
  | none =>
    cases v with
    | conf kind es =>
      simp only [Value.asObject] at ho
      split at ho
      · simp at ho
      · rename_i ha
        simp only [Value.asConfig, seen]
        rw [get_array (n := ⟨kind, es⟩) (by simpa using ha)]
        rfl
    | _ => simp [Value.asConfig, seen, get_null]

theorem view_object {v : Value} : view v = .object ↔ ∃ n, v.asObject = some n := by
  unfold view
  cases v.asObject <;> simp

theorem seen_null (p : List Str) : seen none p = none := by simp [seen, get_null]

open Classical in
theorem mergedAt_cons {l r : Config} (hl : l.Ok) (hr : r.Ok) (hla : l.nullOrAssoc = true) (hra : r.nullOrAssoc = true) (k k' : Str) (q : List Str) (s : View) :
    MergedAt l r (k :: k' :: q) s ↔
      match first l.entries k, first r.entries k with
      | none, none => False
      | none, some y => seen y.asConfig (k' :: q) = some s
      | some x, none => seen x.asConfig (k' :: q) = some s
      | some x, some y => if view x = .object ∧ view y = .object then MergedAt x.asConfig y.asConfig (k' :: q) s else seen x.asConfig (k' :: q) = some s := by
  unfold MergedAt
  rw [seen_cons hl hla, seen_cons hr hra]
  cases hx : first l.entries k with
  | none =>
    have hnone : ∀ p, seen l (k :: p) = none := by
      intro p
      cases p with
      | nil => rw [seen_one hl hla, hx]; rfl
      | cons b p => rw [seen_cons hl hla, hx]; rfl
    cases hy : first r.entries k with
    | none => simp
    | some y =>
      simp only [Option.bind_none, Option.bind_some, reduceCtorEq, false_or]
      constructor
      · exact fun h => h.1
      · refine fun h => ⟨h, fun p hp1 hp2 => Or.inl ?_⟩
        cases p with
        | nil => exact absurd rfl hp1
        | cons a p =>
          rw [List.cons_prefix_cons] at hp2
          obtain ⟨rfl, -⟩ := hp2
          exact hnone p
  | some x =>
    cases hy : first r.entries k with
    | none => simp
    | some y =>
      simp only [Option.bind_some]
      split
      · rename_i hobj
        apply or_congr Iff.rfl
        apply and_congr Iff.rfl
        constructor
        · intro h p hp1 hp2
          have := h (k :: p) (by simp) (List.cons_prefix_cons.2 ⟨rfl, hp2⟩)
          cases p with
          | nil => exact absurd rfl hp1
          | cons b p => rw [seen_cons hl hla, seen_cons hr hra, hx, hy] at this; exact this
        · intro h p hp1 hp2
          cases p with
          | nil => exact absurd rfl hp1
          | cons a p =>
            rw [List.cons_prefix_cons] at hp2
            obtain ⟨rfl, hp2⟩ := hp2
            cases p with
            | nil =>
              rw [seen_one hl hla, seen_one hr hra, hx, hy]
              exact Or.inr ⟨by simp [hobj.1], by simp [hobj.2]⟩
            | cons b p =>
              rw [seen_cons hl hla, seen_cons hr hra, hx, hy]
              exact h (b :: p) (by simp) hp2
      · rename_i hobj
        constructor
        · rintro (h | ⟨h, hp⟩)
          · exact h
          · exfalso
            have := hp [k] (by simp) (List.cons_prefix_cons.2 ⟨rfl, List.nil_prefix⟩)
            rw [seen_one hl hla, seen_one hr hra, hx, hy] at this
            simp only [Option.map_some, reduceCtorEq, Option.some.injEq, false_or] at this
            exact hobj this
        · exact Or.inl

theorem mergedAt_one {l r : Config} (hl : l.Ok) (hr : r.Ok) (hla : l.nullOrAssoc = true) (hra : r.nullOrAssoc = true) (k : Str) (s : View) :
    MergedAt l r [k] s ↔
      match first l.entries k, first r.entries k with
      | none, none => False
      | none, some y => view y = s
      | some x, _ => view x = s := by
  unfold MergedAt
  have hpre : ∀ p : List Str, p ≠ [] → p <+: [k] → p = [k] := by
    intro r hr ⟨s, hs⟩
    cases r with
    | nil => exact absurd rfl hr
    | cons a r =>
      simp only [List.cons_append, List.cons.injEq, List.append_eq_nil_iff] at hs
      rw [hs.1, hs.2.1]
  rw [seen_one hl hla, seen_one hr hra]
  cases hx : first l.entries k with
  | none =>
    cases hy : first r.entries k with
    | none => simp
    | some y =>
      simp only [Option.map_none, Option.map_some, reduceCtorEq, Option.some.injEq, false_or]
      constructor
      · exact fun h => h.1
      · refine fun h => ⟨h, fun p hp1 hp2 => Or.inl ?_⟩
        rw [hpre p hp1 hp2, seen_one hl hla, hx]
        rfl
  | some x =>
    simp only [Option.map_some, Option.some.injEq]
    constructor
    · rintro (h | ⟨h, hp⟩)
      · exact h
      · have := hp [k] (by simp) (List.cons_prefix_cons.2 ⟨rfl, List.nil_prefix⟩)
        rw [seen_one hl hla, seen_one hr hra, hx] at this
        simp only [Option.map_some, reduceCtorEq, Option.some.injEq, false_or] at this
        rw [this.1]
        rw [this.2] at h
        exact Option.some.inj h
    · exact Or.inl

theorem mergeFuel_seen (p : List Str) (fuel : Nat) (l r : Config) (n : Node) (hl : l.Ok) (hr : r.Ok) (hls : l.Simple) (hrs : r.Simple) (hla : l.nullOrAssoc = true) (hra : r.nullOrAssoc = true)
    (hd : l.depth < fuel) (h : mergeFuel fuel l r = some n) (hp : p ≠ []) (s : View) : seen (some n) p = some s ↔ MergedAt l r p s := by
  induction p generalizing fuel l r n with
  | nil => exact absurd rfl hp
  | cons k p ih =>
    cases fuel with
    | zero => omega
    | succ fuel =>
      have hdepth : ∀ (k : Str) (x : Value) (a : Node), first l.entries k = some x → x.asObject = some a → Config.depth (some a) < fuel := by
        intro k x a hx ha
        have h1 := depth_le (first_mem hx)
        have h2 := (asObject_some ha).1
        simp only at h1
        rw [h2] at h1
        simp only [Value.depth] at h1
        simp only [Config.depth] at hd ⊢
        show entriesDepth a.entries < fuel
        omega
      have hnest : ∀ (k : Str) (x y : Value) (a b : Node), first l.entries k = some x → first r.entries k = some y → x.asObject = some a → y.asObject = some b → ∃ m, mergeFuel fuel (some a) (some b) = some m := by
        intro k x y a b hx hy ha hb
        have := mergeFuel_isSome fuel (some a) (some b) (object_ok (l.entryOk hl _ (first_mem hx)) ha) (object_ok (r.entryOk hr _ (first_mem hy)) hb)
          (simple_object (simple_entry hls _ (first_mem hx)) ha) (simple_object (simple_entry hrs _ (first_mem hy)) hb) (asObject_some ha).2.1 (asObject_some hb).2.1 (hdepth k x a hx ha)
        exact Option.isSome_iff_exists.1 this
      obtain ⟨es, h1, h2, h3, h4⟩ := mergeFuel_level (fuel := fuel) hl hr hls hrs hla hra (fun k x y a b hx hy ha hb => by
        obtain ⟨m, hm⟩ := hnest k x y a b hx hy ha hb
        rw [hm]; rfl)
      rw [h1] at h
      have hn := Option.some.inj h
      subst hn
      have hnok : Node.Ok ⟨.map, es⟩ := h2
      cases p with
      | nil =>
        rw [mergedAt_one hl hr hla hra]
        rw [seen, get_one' hnok rfl]
        simp only [h3]
        cases hx : first l.entries k with
        | none =>
          cases hy : first r.entries k with
          | none => simp [combine]
          | some y =>
            have hyo := ok_notHole (r.entryOk hr _ (first_mem hy))
            simp only at hyo
            simp [combine, hyo]
        | some x =>
          have hxo := ok_notHole (l.entryOk hl _ (first_mem hx))
          simp only at hxo
          cases hy : first r.entries k with
          | none => simp [combine, hxo]
          | some y =>
            simp only [combine]
            cases ex : x.asObject with
            | none => simp [hxo]
            | some a =>
              cases ey : y.asObject with
              | none => simp [hxo]
              | some b =>
                obtain ⟨m, hm⟩ := hnest k x y a b hx hy ex ey
                have hmk : ∃ es', m = ⟨.map, es'⟩ := by
                  cases fuel with
                  | zero => exact absurd (hdepth k x a hx ex) (by omega)
                  | succ fuel =>
                    simp only [mergeFuel] at hm
                    have h5 := simple_multi (simple_object (simple_entry hls _ (first_mem hx)) ex)
                    have h6 := simple_multi (simple_object (simple_entry hrs _ (first_mem hy)) ey)
                    obtain ⟨es', h7, -⟩ := mergeFuel_level (fuel := fuel) (object_ok (l.entryOk hl _ (first_mem hx)) ex) (object_ok (r.entryOk hr _ (first_mem hy)) ey)
                      (simple_object (simple_entry hls _ (first_mem hx)) ex) (simple_object (simple_entry hrs _ (first_mem hy)) ey) (asObject_some ex).2.1 (asObject_some ey).2.1
                      (fun k' x' y' a' b' hx' hy' ha' hb' => by
                        refine mergeFuel_isSome fuel _ _ (object_ok (Config.entryOk (object_ok (l.entryOk hl _ (first_mem hx)) ex) _ (first_mem hx')) ha')
                          (object_ok (Config.entryOk (object_ok (r.entryOk hr _ (first_mem hy)) ey) _ (first_mem hy')) hb')
                          (simple_object (simple_entry (simple_object (simple_entry hls _ (first_mem hx)) ex) _ (first_mem hx')) ha')
                          (simple_object (simple_entry (simple_object (simple_entry hrs _ (first_mem hy)) ey) _ (first_mem hy')) hb') (asObject_some ha').2.1 (asObject_some hb').2.1 ?_
                        have g1 := depth_le (first_mem hx')
                        have g2 := (asObject_some ha').1
                        have g3 := hdepth k x a hx ex
                        simp only at g1
                        rw [g2] at g1
                        simp only [Value.depth] at g1
                        simp only [Config.depth] at g3 ⊢
                        show entriesDepth a'.entries < fuel
                        omega)
                    simp only [mergeFuel] at h7
                    rw [hm] at h7
                    exact ⟨es', Option.some.inj h7⟩
                obtain ⟨es', rfl⟩ := hmk
                simp only [hm]
                have hvx : view x = .object := view_object.2 ⟨a, ex⟩
                rw [hvx]
                simp [ofConfig, notHole, view, Value.asObject, Kind.assoc]
      | cons k' p =>
        rw [mergedAt_cons hl hr hla hra]
        rw [seen, get_cons' hnok rfl]
        simp only [h3]
        cases hx : first l.entries k with
        | none =>
          cases hy : first r.entries k with
          | none => simp [combine, below]
          | some y => simp [combine, below, seen]
        | some x =>
          cases hy : first r.entries k with
          | none => simp [combine, below, seen]
          | some y =>
            simp only [combine]
            cases ex : x.asObject with
            | none =>
              have : ¬ view x = .object := by rw [view_object]; simp [ex]
              simp [this, below, seen]
            | some a =>
              cases ey : y.asObject with
              | none =>
                have : ¬ view y = .object := by rw [view_object]; simp [ey]
                simp [this, below, seen]
              | some b =>
                obtain ⟨m, hm⟩ := hnest k x y a b hx hy ex ey
                have hvx : view x = .object := view_object.2 ⟨a, ex⟩
                have hvy : view y = .object := view_object.2 ⟨b, ey⟩
                simp only [hm, hvx, hvy, and_self, if_true, Option.map_some, below]
                rw [(asObject_some ex).2.2, (asObject_some ey).2.2]
                exact ih fuel (some a) (some b) m (object_ok (l.entryOk hl _ (first_mem hx)) ex) (object_ok (r.entryOk hr _ (first_mem hy)) ey)
                  (simple_object (simple_entry hls _ (first_mem hx)) ex) (simple_object (simple_entry hrs _ (first_mem hy)) ey) (asObject_some ex).2.1 (asObject_some ey).2.1 (hdepth k x a hx ex) hm (by simp)

/-- the config that has priority, and the other one -/
def winner (l r : Config) : Priority → Config
  | .left => l
  | .right => r
def loser (l r : Config) : Priority → Config
  | .left => r
  | .right => l

/-- Merging two objects (or null configs) does not throw, and the result has at each path exactly what the property says. -/
theorem C54_partial (l r : Config) (hl : l.Ok) (hr : r.Ok) (hls : l.Simple) (hrs : r.Simple) (hla : l.nullOrAssoc = true) (hra : r.nullOrAssoc = true) (pr : Priority) :
    ∃ c, merge l r pr = some c ∧ ∀ (path : Str) (s : View), namesOf path ≠ [] →
      ((valueAt c path).map view = some s ↔ MergedAt (winner l r pr) (loser l r pr) (namesOf path) s) := by
  cases pr with
  | left =>
    obtain ⟨n, hn⟩ := Option.isSome_iff_exists.1 (mergeFuel_isSome (l.depth + 1) l r hl hr hls hrs hla hra (by omega))
    refine ⟨some n, by simp [merge, hn], fun path s hp => ?_⟩
    rw [valueAt_eq]
    exact mergeFuel_seen _ _ l r n hl hr hls hrs hla hra (by omega) hn hp s
  | right =>
    obtain ⟨n, hn⟩ := Option.isSome_iff_exists.1 (mergeFuel_isSome (r.depth + 1) r l hr hl hrs hls hra hla (by omega))
    refine ⟨some n, by simp [merge, hn], fun path s hp => ?_⟩
    rw [valueAt_eq]
    exact mergeFuel_seen _ _ r l n hr hl hrs hls hra hla (by omega) hn hp s

/-- In particular no path of the config with priority is lost or changed. -/
theorem C54_winner (l r : Config) (hl : l.Ok) (hr : r.Ok) (hls : l.Simple) (hrs : r.Simple) (hla : l.nullOrAssoc = true) (hra : r.nullOrAssoc = true) (pr : Priority) (c : Config)
    (h : merge l r pr = some c) (path : Str) (hp : namesOf path ≠ []) (v : Value) (hv : valueAt (winner l r pr) path = some v) : (valueAt c path).map view = some (view v) := by
  obtain ⟨c', h1, h2⟩ := C54_partial l r hl hr hls hrs hla hra pr
  rw [h1] at h
  have := Option.some.inj h
  subst this
  rw [h2 path _ hp]
  refine Or.inl ?_
  rw [valueAt_eq] at hv
  rw [seen, hv]
  rfl

/-- And a path of the other one is kept where the one with priority has nothing at its first name. -/
theorem C54_other (l r : Config) (hl : l.Ok) (hr : r.Ok) (hls : l.Simple) (hrs : r.Simple) (hla : l.nullOrAssoc = true) (hra : r.nullOrAssoc = true) (pr : Priority) (c : Config)
    (h : merge l r pr = some c) (path : Str) (hp : namesOf path ≠ []) (v : Value) (hv : valueAt (loser l r pr) path = some v)
    (hn : ∀ q, q ≠ [] → q <+: namesOf path → get (winner l r pr) q = none ∨ (seen (winner l r pr) q = some .object ∧ seen (loser l r pr) q = some .object)) :
    (valueAt c path).map view = some (view v) := by
  obtain ⟨c', h1, h2⟩ := C54_partial l r hl hr hls hrs hla hra pr
  rw [h1] at h
  have := Option.some.inj h
  subst this
  rw [h2 path _ hp]
  rw [valueAt_eq] at hv
  refine Or.inr ⟨by rw [seen, hv]; rfl, fun q hq1 hq2 => ?_⟩
  rcases hn q hq1 hq2 with h | h
  · exact Or.inl (by rw [seen, h]; rfl)
  · exact Or.inr h

/-- **C54**, arrays: merging throws if one of the configs is an array. -/
theorem C54_arrays (l r : Config) (pr : Priority) (n : Node) (hn : n.kind = .array) (h : l = some n ∨ r = some n) : merge l r pr = none := by
  have key : ∀ (a b : Config) (k : Nat), a = some n ∨ b = some n → mergeFuel (k + 1) a b = none := by
    intro a b k hab
    have : ¬ ((a.nullOrAssoc && b.nullOrAssoc) = true) := by
      rcases hab with rfl | rfl <;> simp [Config.nullOrAssoc, hn, Kind.assoc]
    simp only [mergeFuel, if_neg this]
  cases pr with
  | left => simp [merge, key l r _ h]
  | right => simp [merge, key r l _ h.symm]

example : merge (some ⟨.array, [(['a'], .scalar (.int 1))]⟩) none .right = none := C54_arrays _ _ _ _ rfl (.inl rfl)

/-! ## Where the full property fails -/

def dotted : Node := ⟨.map, [(['a', '.', 'b'], .scalar (.int 1))]⟩

theorem dotted_ok : Config.Ok (some dotted) := by simp [Config.Ok, dotted, Node.Ok, KeysOk, Value.Ok]

theorem names_dotted (c : Config) : at_ c ['a', '.', 'b'] = resolve c [['a'], ['b']] := by rw [at_eq]; rfl

/-- An entry whose name has a separator is lost. -/
theorem C54_dot_violated : ∃ l r c, l.Ok ∧ r.Ok ∧ merge l r .left = some c ∧ keys l = [['a', '.', 'b']] ∧ keys c = [] := by
  refine ⟨some dotted, none, some ⟨.map, []⟩, dotted_ok, trivial, ?_, rfl, rfl⟩
  simp only [merge, mergeFuel, Config.nullOrAssoc, dotted, Kind.assoc, Bool.and_self, if_true, keys, List.map_cons, List.map_nil, sortKeys, insertKey, intersect, mergeLoop, isCommon, Bool.false_eq_true, if_false]
  rw [names_dotted]
  rfl

/-- If both have it, merging throws. -/
theorem C54_dot_throws_violated : ∃ l r, Config.Ok l ∧ Config.Ok r ∧ l.nullOrAssoc = true ∧ r.nullOrAssoc = true ∧ merge l r .left = none := by
  refine ⟨some dotted, some dotted, dotted_ok, dotted_ok, rfl, rfl, ?_⟩
  have hi : intersect [['a', '.', 'b']] [['a', '.', 'b']] = [['a', '.', 'b']] := by decide +kernel
  have hc : isCommon [['a', '.', 'b']] ['a', '.', 'b'] = true := by decide +kernel
  simp only [merge, mergeFuel, Config.nullOrAssoc, dotted, Kind.assoc, Bool.and_self, if_true, keys, List.map_cons, List.map_nil, sortKeys, insertKey, hi, mergeLoop, hc, commonKey]
  rw [names_dotted]
  rfl

def twice : Node := ⟨.multimap, [(['a'], .scalar (.int 1)), (['a'], .scalar (.int 2))]⟩

/-- The second value of a name of a multimap is replaced by a second copy of the first. -/
theorem C54_multimap_violated : ∃ l r c, Config.Ok l ∧ Config.Ok r ∧ merge l r .left = some c ∧ deref l 1 = some (['a'], .scalar (.int 2)) ∧ deref c 1 = some (['a'], .scalar (.int 1)) := by
  refine ⟨some twice, none, some ⟨.multimap, [(['a'], .scalar (.int 1)), (['a'], .scalar (.int 1))]⟩, by simp [Config.Ok, twice, Node.Ok, KeysOk, Value.Ok, strLt], trivial, ?_, rfl, rfl⟩
  have hs : sortKeys [['a'], ['a']] = [['a'], ['a']] := by decide +kernel
  have hat : at_ (some twice) ['a'] = some (0, .scalar (.int 1)) := by rw [at_eq]; rfl
  have hk : keys (some twice) = [['a'], ['a']] := rfl
  have hk0 : keys none = [] := rfl
  have hi : intersect [['a'], ['a']] [] = [] := by decide +kernel
  simp only [merge, mergeFuel, Config.nullOrAssoc, hk, hk0, hs, show sortKeys [] = [] from rfl, hi, show twice.kind.assoc = true from rfl, Bool.and_self, if_true, mergeLoop, isCommon, Bool.false_eq_true, if_false, hat]
  rfl

def flat : Node := ⟨.map, [(['a'], .scalar (.int 1))]⟩
def deep : Node := ⟨.map, [(['a'], .conf .map [(['x'], .scalar (.int 2))])]⟩

/-- If one has an object and the other another value, the paths below the object may be lost. -/
theorem C54_conflict_violated : ∃ l r c path v, Config.Ok l ∧ Config.Ok r ∧ merge l r .left = some c ∧ valueAt r path = some v ∧ valueAt c path = none := by
  refine ⟨some flat, some deep, some flat, ['a', '.', 'x'], .scalar (.int 2), by simp [Config.Ok, flat, Node.Ok, KeysOk, Value.Ok], by simp [Config.Ok, deep, Node.Ok, KeysOk, Value.Ok, entriesOk], ?_,
    by rw [valueAt_eq]; rfl, by rw [valueAt_eq]; rfl⟩
  have hi : intersect [['a']] [['a']] = [['a']] := by decide +kernel
  have hc : isCommon [['a']] ['a'] = true := by decide +kernel
  have h1 : at_ (some flat) ['a'] = some (0, .scalar (.int 1)) := by rw [at_eq]; rfl
  have h2 : at_ (some deep) ['a'] = some (0, .conf .map [(['x'], .scalar (.int 2))]) := by rw [at_eq]; rfl
  have k1 : sortKeys (keys (some flat)) = [['a']] := rfl
  have k2 : sortKeys (keys (some deep)) = [['a']] := rfl
  simp only [merge, mergeFuel, Config.nullOrAssoc, show flat.kind.assoc = true from rfl, show deep.kind.assoc = true from rfl, Bool.and_self, if_true, k1, k2, hi, mergeLoop, hc, commonKey, h1, h2]
  rfl

/-! ## Non-vacuity -/

def left : Node := ⟨.map, [(['a'], .scalar (.int 1)), (['b'], .conf .ordered [(['y'], .scalar (.int 5))])]⟩

example : Config.Ok (some left) ∧ Config.Simple (some left) ∧ Config.Ok (some nested) ∧ Config.Simple (some nested) := by
  refine ⟨by simp [Config.Ok, left, Node.Ok, KeysOk, Value.Ok, entriesOk, strLt], ⟨by simp [left], by simp [left], ?_⟩, nested_ok, ⟨by simp [nested], by simp [nested], ?_⟩⟩
  · intro e he
    simp only [left, List.mem_cons, List.not_mem_nil, or_false] at he
    rcases he with rfl | rfl
    · exact .scalar _
    · exact .object _ _ (by simp) (by simp) (by simp; exact .scalar _)
  · intro e he
    simp only [nested, List.mem_cons, List.not_mem_nil, or_false] at he
    rcases he with rfl | rfl
    · exact .scalar _
    · exact .object _ _ (by simp) (by simp) (by simp; exact .scalar _)

/-- `b.x` comes from the right, `b.y` from the left. -/
example : MergedAt (some left) (some nested) [['b'], ['x']] (.leaf (.scalar (.int 2))) ∧ MergedAt (some left) (some nested) [['b'], ['y']] (.leaf (.scalar (.int 5))) := by
  refine ⟨Or.inr ⟨rfl, fun q hq1 hq2 => ?_⟩, Or.inl rfl⟩
  cases q with
  | nil => exact absurd rfl hq1
  | cons a q =>
    rw [List.cons_prefix_cons] at hq2
    obtain ⟨rfl, hq2⟩ := hq2
    cases q with
    | nil => exact Or.inr ⟨rfl, rfl⟩
    | cons b q =>
      rw [List.cons_prefix_cons] at hq2
      obtain ⟨rfl, hq2⟩ := hq2
      have := List.prefix_nil.1 hq2
      subst this
      exact Or.inl rfl

end Verif.Config
