import Verif.Lemmas.Config
import Verif.Model.ConfigTyped
import Mathlib.Data.List.Forall2

/-!
# C63: values of C++ types in configs
-/
set_option autoImplicit false

namespace Verif.Config

/-! ## Specification -/

/-- the numbers of a type -/
def InRange (signed : Bool) (bits : Nat) (n : Int) : Prop :=
  0 < bits ∧ bits ≤ 64 ∧ if signed then -(2 ^ (bits - 1)) ≤ n ∧ n < 2 ^ (bits - 1) else 0 ≤ n ∧ n < 2 ^ bits

/-- The values that an object of the type can have. -/
def Typed : (t : CTy) → t.Val → Prop
  | .int s b, n => InRange s b n
  | .double, _ => True
  | .bool, _ => True
  | .str, _ => True
  | .vec t, xs => ∀ x : t.Val, List.Mem x xs → Typed t x
  | .map t, ms => (List.map (fun e : Str × t.Val => e.1) ms).Pairwise (fun a b => strLt a b = true) ∧ ∀ e : Str × t.Val, List.Mem e ms → Typed t e.2
  | .opt t, v => ∀ x : t.Val, v = some x → Typed t x
  | .ptr t, v => ∀ x : t.Val, v = some x → Typed t x

/-- There is no empty optional and no null pointer in the value. -/
def Whole : (t : CTy) → t.Val → Prop
  | .int _ _, _ => True
  | .double, _ => True
  | .bool, _ => True
  | .str, _ => True
  | .vec t, xs => ∀ x : t.Val, List.Mem x xs → Whole t x
  | .map t, ms => ∀ e : Str × t.Val, List.Mem e ms → Whole t e.2
  | .opt t, v => ∃ x : t.Val, v = some x ∧ Whole t x
  | .ptr t, v => ∃ x : t.Val, v = some x ∧ Whole t x

/-! ## Integers -/

theorem narrow_of_mod {s : Bool} {b : Nat} {m n : Int} (h : m % (2 ^ b : Int) = n % (2 ^ b : Int)) : narrow s b m = narrow s b n := by
  simp only [narrow, h]

theorem narrow_mod (s : Bool) (b : Nat) (n : Int) : (narrow s b n) % (2 ^ b : Int) = n % (2 ^ b : Int) := by
  simp only [narrow]
  split
  · rw [Int.sub_emod_right, Int.emod_emod_of_dvd _ (Int.dvd_refl _)]
  · rw [Int.emod_emod_of_dvd _ (Int.dvd_refl _)]

theorem narrow_in {s : Bool} {b : Nat} {n : Int} (h : InRange s b n) : narrow s b n = n := by
  obtain ⟨h0, -, h⟩ := h
  obtain ⟨c, rfl⟩ : ∃ c, b = c + 1 := ⟨b - 1, by omega⟩
  have hp : (0 : Int) < 2 ^ c := Int.pow_pos (by omega)
  have hs : (2 ^ (c + 1) : Int) = 2 * 2 ^ c := by rw [Int.pow_succ]; omega
  simp only [narrow, hs]
  simp only [Nat.add_sub_cancel] at h
  generalize (2 ^ c : Int) = p at hp h hs
  cases s with
  | false =>
    simp only [hs] at h
    simp only [Bool.false_eq_true, if_false] at h
    simp only [Bool.false_and, Bool.false_eq_true, if_false]
    exact Int.emod_eq_of_lt h.1 h.2
  | true =>
    simp only [if_true] at h
    simp only [Bool.true_and, decide_eq_true_eq]
    by_cases hn : 0 ≤ n
    · rw [Int.emod_eq_of_lt hn (by omega), if_neg (by omega)]
    · have : n % (2 * p) = n + 2 * p := by
        rw [← Int.add_emod_right]
        exact Int.emod_eq_of_lt (by omega) (by omega)
      rw [this, if_pos (by omega)]
      omega

theorem narrow_back {s : Bool} {b : Nat} {n : Int} (h : InRange s b n) : narrow s b (narrow true 64 n) = n := by
  have hb : b ≤ 64 := h.2.1
  have hd : (2 ^ b : Int) ∣ 2 ^ 64 := ⟨2 ^ (64 - b), by rw [← Int.pow_add]; congr 1; omega⟩
  have : narrow true 64 n % (2 ^ b : Int) = n % (2 ^ b : Int) := by
    rw [← Int.emod_emod_of_dvd (narrow true 64 n) hd, narrow_mod, Int.emod_emod_of_dvd _ hd]
  rw [narrow_of_mod this, narrow_in h]

/-! ## Storing and loading -/

theorem addAll_ok {α : Type} {skip : α → Bool} {store : α → Res Value} {load : Value → Res α} (xs : List α) (es : Entries)
    (h : ∀ x ∈ xs, skip x = false ∧ ∃ v, store x = .ok v ∧ v ≠ .hole ∧ load v = .ok x) :
    ∃ new : Entries, addAll skip store xs ⟨.array, es⟩ = .ok ⟨.array, es ++ new⟩ ∧ loadAll load new = .ok xs := by
  induction xs generalizing es with
  | nil => exact ⟨[], by simp [addAll], rfl⟩
  | cons x xs ih =>
    obtain ⟨h1, v, h2, h3, h4⟩ := h x (by simp)
    obtain ⟨new, h5, h6⟩ := ih (es ++ [([], v)]) (fun y hy => h y (by simp [hy]))
    refine ⟨([], v) :: new, ?_, ?_⟩
    · simp only [addAll, h1, Bool.false_eq_true, if_false, h2, Res.bind, Node.add, Res.ofOption]
      rw [h5]
      simp
    · simp only [loadAll, h4, Res.bind, h6]

theorem emplaceKey_last {α : Type} {ms : List (Str × α)} {key : Str} (v : α) (h : ∀ e ∈ ms, strLt e.1 key = true) : emplaceKey ms key v = ms ++ [(key, v)] := by
  induction ms with
  | nil => rfl
  | cons e ms ih =>
    obtain ⟨k, x⟩ := e
    simp only [List.mem_cons, forall_eq_or_imp] at h
    simp only [emplaceKey, h.1, if_true, ih h.2, List.cons_append]

theorem putAll_ok {α : Type} {skip : α → Bool} {store : α → Res Value} {load : Value → Res α} (xs : List (Str × α)) (es : Entries) (acc : List (Str × α))
    (hk : KeysOk .map (keysOf es ++ xs.map (fun e => e.1))) (ha : KeysOk .map (acc.map (fun e => e.1) ++ xs.map (fun e => e.1)))
    (h : ∀ e ∈ xs, skip e.2 = false ∧ ∃ v, store e.2 = .ok v ∧ v ≠ .hole ∧ load v = .ok e.2) :
    ∃ new : Entries, putAll skip store xs ⟨.map, es⟩ = .ok ⟨.map, es ++ new⟩ ∧ loadMap load new acc = .ok (acc ++ xs) := by
  induction xs generalizing es acc with
  | nil => exact ⟨[], by simp [putAll], by simp [loadMap]⟩
  | cons e xs ih =>
    obtain ⟨key, x⟩ := e
    obtain ⟨h1, v, h2, h3, h4⟩ := h (key, x) (by simp)
    have hk' : KeysOk .map (keysOf es ++ [key]) := by
      simp only [KeysOk, List.map_cons] at hk ⊢
      have : keysOf es ++ key :: xs.map (fun e => e.1) = (keysOf es ++ [key]) ++ xs.map (fun e => e.1) := by simp
      rw [this, List.pairwise_append] at hk
      exact hk.1
    have hacc : ∀ e ∈ acc, strLt e.1 key = true := by
      simp only [KeysOk, List.map_cons, List.pairwise_append] at ha
      exact fun e he => ha.2.2 e.1 (List.mem_map.2 ⟨e, he, rfl⟩) key (by simp)
    obtain ⟨new, h5, h6⟩ := ih (es ++ [(key, v)]) (acc ++ [(key, x)]) (by simpa using hk) (by simpa using ha) (fun y hy => h y (by simp [hy]))
    refine ⟨(key, v) :: new, ?_, ?_⟩
    · simp only [putAll]
      simp only at h1 h2
      simp only [h1, Bool.false_eq_true, if_false, h2, Res.bind, put_snoc v (show Kind.map.assoc = true from rfl) hk', Res.ofOption]
      rw [h5]
      simp
    · simp only [loadMap]
      simp only at h4
      simp only [h4, Res.bind, emplaceKey_last x hacc, h6]
      simp

theorem whole_not_skip : (t : CTy) → (v : t.Val) → Whole t v → skip t v = false
  | .int _ _, _, _ => rfl
  | .double, _, _ => rfl
  | .bool, _, _ => rfl
  | .str, _, _ => rfl
  | .vec _, _, _ => rfl
  | .map _, _, _ => rfl
  | .opt _, _, h => by obtain ⟨x, rfl, -⟩ := h; rfl
  | .ptr _, _, h => by obtain ⟨x, rfl, -⟩ := h; rfl

theorem load_int (ops : ScalarText.Real Nat) (s : Bool) (b : Nat) (m : Int) : load ops (.int s b) (.scalar (.int m)) = .ok (narrow s b m) := rfl
theorem load_opt {ops : ScalarText.Real Nat} {t : CTy} {v : Value} {x : t.Val} (h : load ops t v = .ok x) : load ops (.opt t) v = .ok (some x) := by
  show (load ops t v).bind (fun x => .ok (some x)) = _
  rw [h]; rfl
theorem load_ptr {ops : ScalarText.Real Nat} {t : CTy} {v : Value} {x : t.Val} (h : load ops t v = .ok x) : load ops (.ptr t) v = .ok (some x) := by
  show (load ops t v).bind (fun x => .ok (some x)) = _
  rw [h]; rfl
theorem load_map (ops : ScalarText.Real Nat) (t : CTy) (k : Kind) (es : Entries) : load ops (.map t) (.conf k es) = if k.assoc then loadMap (load ops t) es [] else .error := rfl

/-- Loading what was stored gives the value. -/
theorem store_load (ops : ScalarText.Real Nat) : (t : CTy) → (v : t.Val) → Typed t v → Whole t v → ∃ x, store t v = .ok x ∧ x ≠ .hole ∧ load ops t x = .ok v
  | .int s b, n, h, _ => by
    refine ⟨.scalar (.int (narrow true 64 n)), rfl, by simp, ?_⟩
    rw [load_int]
    exact congrArg Res.ok (narrow_back h)
  | .double, r, _, _ => ⟨.scalar (.real r), rfl, by simp, rfl⟩
  | .bool, b, _, _ => ⟨.scalar (.bool b), rfl, by simp, rfl⟩
  | .str, s, _, _ => ⟨.scalar (.str s), rfl, by simp, rfl⟩
  | .vec t, xs, h1, h2 => by
    obtain ⟨new, h3, h4⟩ := addAll_ok (skip := skip t) (store := store t) (load := load ops t) xs [] (fun x hx => ⟨whole_not_skip t x (h2 x hx), store_load ops t x (h1 x hx) (h2 x hx)⟩)
    refine ⟨.conf .array new, ?_, by simp, h4⟩
    show (addAll (skip t) (store t) xs ⟨.array, []⟩).bind _ = _
    rw [h3]
    rfl
  | .map t, ms, h1, h2 => by
    obtain ⟨new, h3, h4⟩ := putAll_ok (skip := skip t) (store := store t) (load := load ops t) ms [] [] (by simpa [KeysOk] using h1.1) (by simpa [KeysOk] using h1.1)
      (fun x hx => ⟨whole_not_skip t x.2 (h2 x hx), store_load ops t x.2 (h1.2 x hx) (h2 x hx)⟩)
    refine ⟨.conf .map new, ?_, by simp, h4⟩
    show (putAll (skip t) (store t) ms ⟨.map, []⟩).bind _ = _
    rw [h3]
    rfl
  | .opt t, v, h1, h2 => by
    obtain ⟨x, rfl, h3⟩ := h2
    obtain ⟨y, h4, h5, h6⟩ := store_load ops t x (h1 x rfl) h3
    exact ⟨y, h4, h5, load_opt h6⟩
  | .ptr t, v, h1, h2 => by
    obtain ⟨x, rfl, h3⟩ := h2
    obtain ⟨y, h4, h5, h6⟩ := store_load ops t x (h1 x rfl) h3
    exact ⟨y, h4, h5, load_ptr h6⟩

/-- the keys of an object without equal keys after `put` -/
theorem put_find {n n' : Node} {key : Str} {x : Value} (hn : n.Ok) (hk : n.kind = .map ∨ n.kind = .ordered) (hx : x ≠ .hole) (h : n.put key x = some n') :
    (n'.find key).map (·.2) = some x ∧ ∀ k, k ≠ key → (n'.find k).map (·.2) = (n.find k).map (·.2) := by
  have hok := put_ok hn h
  have ha : n.kind.assoc = true := by rcases hk with h | h <;> rw [h] <;> rfl
  have hf : ∀ k, first n'.entries k = if k = key then some x else first n.entries k := by
    intro k
    obtain ⟨kind, es⟩ := n
    rcases hk with h' | h' <;> simp only at h' <;> subst h' <;> simp only [Node.put, Option.some.injEq] at h <;> subst h
    · exact first_mapPut key x hn k
    · exact first_orderedPut es key x k
  have hx' : notHole x = some x := by cases x <;> simp_all [notHole]
  refine ⟨?_, fun k hkk => ?_⟩
  · rw [find_eq hok.1 (by rw [hok.2]; exact ha), hf]
    simp [hx']
  · rw [find_eq hok.1 (by rw [hok.2]; exact ha), find_eq hn ha, hf, if_neg hkk]
    cases first n.entries k with
    | none => rfl
    | some v => cases v <;> rfl

/-! ## C63 -/

/-- A value of any type without empty optionals and null pointers inside, put into an object, is read back with its type as the same value; the values under other keys stay. -/
theorem C63_round_trip_partial (ops : ScalarText.Real Nat) (n : Node) (hn : n.Ok) (hk : n.kind = .map ∨ n.kind = .ordered) (key : Str) (t : CTy) (v : t.Val) (h1 : Typed t v) (h2 : Whole t v) :
    ∃ n', putTyped n key t v = .ok n' ∧ valueTyped ops t n' key = .ok v ∧ ∀ (k : Str) (u : CTy), k ≠ key → valueTyped ops u n' k = valueTyped ops u n k := by
  obtain ⟨x, h3, h4, h5⟩ := store_load ops t v h1 h2
  have ha : n.kind.assoc = true := by rcases hk with h | h <;> rw [h] <;> rfl
  obtain ⟨n', hp⟩ := put_some ha key x
  obtain ⟨h6, h7⟩ := put_find hn hk h4 hp
  refine ⟨n', ?_, ?_, fun k u hku => ?_⟩
  · simp only [putTyped, whole_not_skip t v h2, Bool.false_eq_true, if_false, h3, Res.bind, hp, Res.ofOption]
  · simp only [valueTyped]
    cases e : n'.find key with
    | none => rw [e] at h6; simp at h6
    | some p => rw [e] at h6; simp at h6; simp only [h6, h5]
  · have := h7 k hku
    simp only [valueTyped]
    cases e : n'.find k with
    | none =>
      rw [e] at this
      cases e' : n.find k with
      | none => rfl
      | some q => rw [e'] at this; simp at this
    | some p =>
      rw [e] at this
      cases e' : n.find k with
      | none => rw [e'] at this; simp at this
      | some q => rw [e'] at this; simp at this; simp only [this]

/-- An empty optional and a null pointer are not put at all. -/
theorem C63_skipped (n : Node) (key : Str) (t : CTy) : putTyped n key (.opt t) none = .ok n ∧ putTyped n key (.ptr t) none = .ok n := ⟨rfl, rfl⟩

/-- A sequence is loaded from a config exactly if all its entries can be loaded, in the order of their indices. -/
theorem C63_load_vector (ops : ScalarText.Real Nat) (t : CTy) (k : Kind) (es : Entries) (xs : List t.Val) :
    load ops (.vec t) (.conf k es) = .ok xs ↔ List.Forall₂ (fun (e : Str × Value) (x : t.Val) => load ops t e.2 = .ok x) es xs := by
  show loadAll (load ops t) es = .ok xs ↔ _
  induction es generalizing xs with
  | nil => cases xs <;> simp [loadAll]
  | cons e es ih =>
    obtain ⟨key, v⟩ := e
    simp only [loadAll]
    cases h : load ops t v with
    | ok x =>
      simp only [Res.bind]
      cases h' : loadAll (load ops t) es with
      | ok ys =>
        have ih' := ih ys
        rw [h'] at ih'
        simp only [true_iff] at ih'
        cases xs with
        | nil => simp
        | cons z zs =>
          simp only [List.forall₂_cons, h, Res.ok.injEq, List.cons.injEq]
          have ih2 := ih zs
          rw [h'] at ih2
          simp only [Res.ok.injEq] at ih2
          rw [← ih2]
      | error =>
        cases xs with
        | nil => simp
        | cons z zs =>
          have := ih zs
          rw [h'] at this
          simp at this
          simp [this]
      | ub =>
        cases xs with
        | nil => simp
        | cons z zs =>
          have := ih zs
          rw [h'] at this
          simp at this
          simp [this]
    | error => cases xs <;> simp [Res.bind, h]
    | ub => cases xs <;> simp [Res.bind, h]

/-- the value of a key -/
def lookup {α : Type} (ms : List (Str × α)) (key : Str) : Option α :=
  match ms with
  | [] => none
  | (k, x) :: r => if k = key then some x else lookup r key

theorem lookup_none {α : Type} {ms : List (Str × α)} {key : Str} : lookup ms key = none ↔ key ∉ ms.map (fun e => e.1) := by
  induction ms with
  | nil => simp [lookup]
  | cons e ms ih =>
    obtain ⟨k, x⟩ := e
    simp only [lookup, List.map_cons, List.mem_cons, not_or]
    by_cases h : k = key
    · simp [h]
    · have h' : ¬ key = k := fun e => h e.symm
      rw [if_neg h, ih]; simp [h']

theorem emplaceKey_ok {α : Type} {ms : List (Str × α)} (hs : (ms.map (fun e => e.1)).Pairwise (fun a b => strLt a b = true)) (key : Str) (v : α) :
    ((emplaceKey ms key v).map (fun e => e.1)).Pairwise (fun a b => strLt a b = true) ∧ (∀ k ∈ (emplaceKey ms key v).map (fun e => e.1), k = key ∨ k ∈ ms.map (fun e => e.1)) ∧
      ∀ k, lookup (emplaceKey ms key v) k = (lookup ms k).or (if k = key then some v else none) := by
  induction ms with
  | nil =>
    refine ⟨by simp [emplaceKey], by simp [emplaceKey], fun k => ?_⟩
    simp only [emplaceKey, lookup, Option.none_or]
    by_cases h : key = k
    · simp [h]
    · have h' : ¬ k = key := fun e => h e.symm
      simp [h, h']
  | cons e ms ih =>
    obtain ⟨k0, x⟩ := e
    simp only [List.map_cons, List.pairwise_cons] at hs
    obtain ⟨i1, i2, i3⟩ := ih hs.2
    simp only [emplaceKey]
    by_cases h1 : strLt k0 key = true
    · rw [if_pos h1]
      refine ⟨?_, ?_, fun k => ?_⟩
      · simp only [List.map_cons, List.pairwise_cons]
        refine ⟨fun a ha => ?_, i1⟩
        rcases i2 a ha with rfl | ha
        · exact h1
        · exact hs.1 a ha
      · intro k hk
        simp only [List.map_cons, List.mem_cons] at hk ⊢
        rcases hk with rfl | hk
        · exact Or.inr (Or.inl rfl)
        · rcases i2 k hk with h | h
          · exact Or.inl h
          · exact Or.inr (Or.inr h)
      · simp only [lookup, i3]
        by_cases h : k0 = k
        · simp [h]
        · simp [h]
    · rw [if_neg h1]
      by_cases h2 : strLt key k0 = true
      · rw [if_pos h2]
        refine ⟨?_, ?_, fun k => ?_⟩
        · simp only [List.map_cons, List.pairwise_cons, List.mem_cons, forall_eq_or_imp]
          exact ⟨⟨h2, fun a ha => strLt_trans h2 (hs.1 a ha)⟩, hs⟩
        · intro k hk
          simpa using hk
        · simp only [lookup]
          by_cases h : key = k
          · subst h
            have hn : lookup ms key = none := lookup_none.2 (fun hm => by
              have := strLt_trans h2 (hs.1 _ hm)
              rw [strLt_irrefl] at this; simp at this)
            have hk0 : ¬ k0 = key := fun e => by subst e; rw [strLt_irrefl] at h2; simp at h2
            simp [hk0, hn]
          · have h' : ¬ k = key := fun e => h e.symm
            simp [h, h']
      · rw [if_neg h2]
        have he : k0 = key := strLt_total _ _ (by simpa using h1) (by simpa using h2)
        subst he
        refine ⟨?_, ?_, fun k => ?_⟩
        · simp only [List.map_cons, List.pairwise_cons]
          exact hs
        · intro k hk
          exact Or.inr hk
        · simp only [lookup]
          by_cases h : k0 = k
          · subst h; simp
          · have h' : ¬ k = k0 := fun e => h e.symm
            simp [h, h']

/-- A map loaded from an object has for every key the value of the first entry with the key, and its keys are in order. -/
theorem C63_load_map (ops : ScalarText.Real Nat) (t : CTy) (v : Value) (ms : List (Str × t.Val)) (h : load ops (.map t) v = .ok ms) :
    ∃ k es, v = .conf k es ∧ k.assoc = true ∧ (ms.map (fun e => e.1)).Pairwise (fun a b => strLt a b = true) ∧
      ∀ key, (first es key = none → lookup ms key = none) ∧ ∀ x, first es key = some x → ∃ y, load ops t x = .ok y ∧ lookup ms key = some y := by
  cases v with
  | conf k es =>
    rw [load_map] at h
    by_cases ha : k.assoc = true
    · rw [if_pos ha] at h
      refine ⟨k, es, rfl, ha, ?_⟩
      have gen : ∀ (es : Entries) (acc : List (Str × t.Val)), (acc.map (fun e => e.1)).Pairwise (fun a b => strLt a b = true) → loadMap (load ops t) es acc = .ok ms →
          (ms.map (fun e => e.1)).Pairwise (fun a b => strLt a b = true) ∧ ∀ key, (∀ a, lookup acc key = some a → lookup ms key = some a) ∧
            (lookup acc key = none → (first es key = none → lookup ms key = none) ∧ ∀ x, first es key = some x → ∃ y, load ops t x = .ok y ∧ lookup ms key = some y) := by
        intro es
        induction es with
        | nil =>
          intro acc hs hl
          simp only [loadMap, Res.ok.injEq] at hl
          subst hl
          exact ⟨hs, fun key => ⟨fun a ha => ha, fun hn => ⟨fun _ => hn, by simp [first]⟩⟩⟩
        | cons e es ih =>
          obtain ⟨key0, v0⟩ := e
          intro acc hs hl
          simp only [loadMap] at hl
          cases hv : load ops t v0 with
          | error => rw [hv] at hl; simp [Res.bind] at hl
          | ub => rw [hv] at hl; simp [Res.bind] at hl
          | ok y0 =>
            rw [hv] at hl
            simp only [Res.bind] at hl
            obtain ⟨e1, -, e3⟩ := emplaceKey_ok hs key0 y0
            obtain ⟨h1, h2⟩ := ih _ e1 hl
            refine ⟨h1, fun key => ⟨fun a ha => (h2 key).1 a (by rw [e3, ha]; rfl), fun hn => ?_⟩⟩
            simp only [first]
            by_cases hk : key0 = key
            · subst hk
              have := (h2 key0).1 y0 (by rw [e3, hn]; simp)
              simp only [if_true]
              exact ⟨by simp, fun x hx => by simp only [Option.some.injEq] at hx; subst hx; exact ⟨y0, hv, this⟩⟩
            · have hk' : ¬ key = key0 := fun e => hk e.symm
              simp only [if_neg hk]
              exact (h2 key).2 (by rw [e3, hn, if_neg hk']; rfl)
      obtain ⟨h1, h2⟩ := gen es [] (by simp) h
      exact ⟨h1, fun key => (h2 key).2 rfl⟩
    · rw [if_neg ha] at h; simp at h
  | hole => cases (show Res.error = Res.ok ms from h)
  | null => cases (show Res.error = Res.ok ms from h)
  | scalar s => cases (show Res.error = Res.ok ms from h)

theorem addAll_filter {α : Type} (skip : α → Bool) (store : α → Res Value) (xs : List α) (acc : Node) :
    addAll skip store xs acc = addAll skip store (xs.filter (fun x => !skip x)) acc := by
  induction xs generalizing acc with
  | nil => rfl
  | cons x xs ih =>
    by_cases h : skip x = true
    · simp only [addAll, h, if_true, ih, List.filter_cons, Bool.not_true, Bool.false_eq_true, if_false]
    · have h' : skip x = false := by simpa using h
      simp only [addAll, h', Bool.false_eq_true, if_false, List.filter_cons, Bool.not_false, if_true]
      have : addAll skip store xs = addAll skip store (xs.filter (fun x => !skip x)) := funext ih
      rw [this]

/-- What is left of a sequence of optionals: the ones that are not empty. -/
theorem C63_vector_of_optionals (ops : ScalarText.Real Nat) (n : Node) (hn : n.Ok) (hk : n.kind = .map ∨ n.kind = .ordered) (key : Str) (t : CTy) (xs : List (Option t.Val))
    (h : ∀ x : t.Val, some x ∈ xs → Typed t x ∧ Whole t x) :
    ∃ n', putTyped n key (.vec (.opt t)) xs = .ok n' ∧ valueTyped ops (.vec (.opt t)) n' key = .ok (xs.filter (fun x => x.isSome)) := by
  have he : (xs.filter (fun x => !skip (.opt t) x)) = xs.filter (fun x => x.isSome) := by
    apply List.filter_congr
    intro x _
    cases x <;> rfl
  have hmem : ∀ x : Option t.Val, x ∈ xs.filter (fun x => x.isSome) → ∃ y, x = some y ∧ Typed t y ∧ Whole t y := by
    intro x hx
    simp only [List.mem_filter] at hx
    cases x with
    | none => simp at hx
    | some y => exact ⟨y, rfl, h y hx.1⟩
  obtain ⟨n', h1, h2, -⟩ := C63_round_trip_partial ops n hn hk key (.vec (.opt t)) (xs.filter (fun x => x.isSome))
    (fun x hx => by obtain ⟨y, rfl, h1, -⟩ := hmem x hx; intro z hz; cases hz; exact h1)
    (fun x hx => by obtain ⟨y, rfl, -, h1⟩ := hmem x hx; exact ⟨y, rfl, h1⟩)
  refine ⟨n', ?_, h2⟩
  have hs : store (.vec (.opt t)) xs = store (.vec (.opt t)) (xs.filter (fun x => x.isSome)) := by
    have := (addAll_filter (skip (.opt t)) (store (.opt t)) xs ⟨.array, []⟩).trans (congrArg (fun l => addAll (skip (.opt t)) (store (.opt t)) l ⟨.array, []⟩) he)
    exact congrArg (fun r => Res.bind r (fun n => .ok n.toValue)) this
  have hp : putTyped n key (.vec (.opt t)) xs = putTyped n key (.vec (.opt t)) (xs.filter (fun x => x.isSome)) := by
    show (store (.vec (.opt t)) xs).bind _ = (store (.vec (.opt t)) (xs.filter (fun x => x.isSome))).bind _
    rw [hs]
  rw [hp, h1]

/-- Reading an integer as a type gives it unchanged if it is in the range of the type. -/
theorem C63_narrow (ops : ScalarText.Real Nat) (s : Bool) (b : Nat) (n : Int) (h : InRange s b n) : load ops (.int s b) (.scalar (.int n)) = .ok n :=
  congrArg Res.ok (narrow_in h)

/-- A scalar is loaded exactly if it can be read as the type by the table of conversions (C59); what is not a scalar never is. -/
theorem C63_load_scalar (ops : ScalarText.Real Nat) (v : Value) :
    (∀ b : Bool, load ops .bool v = .ok b ↔ ∃ s, v = .scalar s ∧ ScalarText.get ops .boolean s.stored = some (.boolean b)) ∧
    (∀ x : Str, load ops .str v = .ok x ↔ ∃ s, v = .scalar s ∧ ScalarText.get ops .string s.stored = some (.string x)) ∧
    (∀ r : Nat, load ops .double v = .ok r ↔ ∃ s, v = .scalar s ∧ ScalarText.get ops .real s.stored = some (.real r)) ∧
    (∀ (s : Bool) (b : Nat) (n : Int), load ops (.int s b) v = .ok n ↔ ∃ x m, v = .scalar x ∧ ScalarText.get ops .integer x.stored = some (.integer m) ∧ narrow s b m = n) := by
  refine ⟨fun b => ?_, fun x => ?_, fun r => ?_, fun s b n => ?_⟩
  · show (fetch ops .boolean v).bind _ = _ ↔ _
    cases v with
    | scalar s =>
      simp only [fetch]
      cases e : ScalarText.get ops .boolean s.stored with
      | none => simp [Res.bind, e]
      | some x =>
        cases x with
        | boolean y => simp only [Res.bind, Value.scalar.injEq]; exact ⟨fun h => ⟨s, rfl, by rw [e, Res.ok.inj h]⟩, fun ⟨s', h1, h2⟩ => by subst h1; rw [e] at h2; cases h2; rfl⟩
        | _ => simp [Res.bind, e]
    | _ => simp [fetch, Res.bind]
  · show (fetch ops .string v).bind _ = _ ↔ _
    cases v with
    | scalar s =>
      simp only [fetch]
      cases e : ScalarText.get ops .string s.stored with
      | none => simp [Res.bind, e]
      | some x =>
        cases x with
        | string y => simp only [Res.bind, Value.scalar.injEq]; exact ⟨fun h => ⟨s, rfl, by rw [e, Res.ok.inj h]⟩, fun ⟨s', h1, h2⟩ => by subst h1; rw [e] at h2; cases h2; rfl⟩
        | _ => simp [Res.bind, e]
    | _ => simp [fetch, Res.bind]
  · show (fetch ops .real v).bind _ = _ ↔ _
    cases v with
    | scalar s =>
      simp only [fetch]
      cases e : ScalarText.get ops .real s.stored with
      | none => simp [Res.bind, e]
      | some x =>
        cases x with
        | real y => simp only [Res.bind, Value.scalar.injEq]; exact ⟨fun h => ⟨s, rfl, by rw [e, Res.ok.inj h]⟩, fun ⟨s', h1, h2⟩ => by subst h1; rw [e] at h2; cases h2; rfl⟩
        | _ => simp [Res.bind, e]
    | _ => simp [fetch, Res.bind]
  · show (fetch ops .integer v).bind _ = _ ↔ _
    cases v with
    | scalar s =>
      simp only [fetch]
      cases e : ScalarText.get ops .integer s.stored with
      | none => simp [Res.bind, e]
      | some x =>
        cases x with
        | integer y => simp only [Res.bind, Value.scalar.injEq]; exact ⟨fun h => ⟨s, y, rfl, e, Res.ok.inj h⟩, fun ⟨s', m, h1, h2, h3⟩ => by subst h1; rw [e] at h2; cases h2; exact congrArg Res.ok h3⟩
        | _ => simp [Res.bind, e]
    | _ => simp [fetch, Res.bind]

/-- non-vacuity -/
example : Typed (.map (.vec (.opt (.int false 8)))) [(['a'], [some (200 : Int)]), (['b'], [])] ∧ Whole (.map (.vec (.opt (.int false 8)))) [(['a'], [some (200 : Int)]), (['b'], [])] := by
  refine ⟨⟨by simp [strLt], ?_⟩, ?_⟩
  · intro e he x hx y hy
    rcases List.mem_cons.1 he with rfl | he
    · rcases List.mem_cons.1 hx with rfl | hx
      · cases hy; exact ⟨by omega, by omega, by show (0 : Int) ≤ 200 ∧ (200 : Int) < 2 ^ 8; omega⟩
      · cases hx
    · rcases List.mem_cons.1 he with rfl | he
      · cases hx
      · cases he
  · intro e he x hx
    rcases List.mem_cons.1 he with rfl | he
    · rcases List.mem_cons.1 hx with rfl | hx
      · exact ⟨(200 : Int), rfl, trivial⟩
      · cases hx
    · rcases List.mem_cons.1 he with rfl | he
      · cases hx
      · cases he

example : Typed (.map (.vec .double)) [(['a'], [(7 : Nat), (8 : Nat)])] ∧ Whole (.map (.vec .double)) [(['a'], [(7 : Nat), (8 : Nat)])] :=
  ⟨⟨by simp, fun _ _ _ _ => trivial⟩, fun _ _ _ _ => trivial⟩

/-- Empty optionals in a sequence are lost. -/
theorem C63_vector_violated (ops : ScalarText.Real Nat) : ∃ n', putTyped ⟨.map, []⟩ ['k'] (.vec (.opt .bool)) [none, some true] = .ok n' ∧
    valueTyped ops (.vec (.opt .bool)) n' ['k'] = .ok [some true] := by
  obtain ⟨n', h1, h2⟩ := C63_vector_of_optionals ops ⟨.map, []⟩ (by simp [Node.Ok, KeysOk]) (Or.inl rfl) ['k'] .bool [none, some true] (fun _ _ => ⟨trivial, trivial⟩)
  exact ⟨n', h1, h2⟩

/-- An empty optional inside an optional gives an exception, a null pointer inside an optional has undefined behaviour. -/
theorem C63_nested_violated (n : Node) (key : Str) : putTyped n key (.opt (.opt .bool)) (some none) = .error ∧ putTyped n key (.opt (.ptr .bool)) (some none) = .ub := ⟨rfl, rfl⟩

/-- An integer out of the range of the type is read as another number. -/
theorem C63_narrow_violated (ops : ScalarText.Real Nat) : load ops (.int false 8) (.scalar (.int 300)) = .ok (44 : Int) := rfl

end Verif.Config
