import Verif.Lemmas.Backend
import Verif.Model.ConfigJson

/-!
# C60: reading a config that was written as JSON
-/
set_option autoImplicit false

namespace Verif.Config

/-! ## Specification -/

/-- What a user can see of a value: nothing can be read; a scalar; or a config with its properties and the keys of its entries. -/
inductive Seen | nothing | scalar (s : Scalar) | config (assoc multi order : Bool) (keys : List (Option Str))
deriving DecidableEq

def see {B : Type} (I : Iface B) : Got B → Seen
  | .empty => .nothing
  | .scalar s => .scalar s
  | .conf b => .config (I.assoc b) (I.multi b) (I.order b) ((List.range (I.size b)).map (fun i => (I.byIndex b i).map (·.1)))

/-- Two configs of different backends that cannot be told apart: they look the same, and so do all entries reached from them by names and indices, which also have the same indices. -/
def Alike {A B : Type} (IA : Iface A) (a : A) (IB : Iface B) (b : B) : Prop :=
  see IA (.conf a) = see IB (.conf b) ∧ ∀ steps, (follow IA a steps).map (fun e => (e.1, see IA e.2)) = (follow IB b steps).map (fun e => (e.1, see IB e.2))

/-- What a user can see who does not care for the order of the entries of objects. -/
inductive Basic | nothing | scalar (s : Scalar) | object | array (size : Nat)
deriving DecidableEq

def basic {B : Type} (I : Iface B) : Got B → Basic
  | .empty => .nothing
  | .scalar s => .scalar s
  | .conf b => if I.assoc b then .object else .array (I.size b)

/-- the backend without the access to objects by indices -/
def unordered {B : Type} (I : Iface B) : Iface B := { I with byIndex := fun b i => if I.assoc b then none else I.byIndex b i }

/-- Two configs look the same to a user who goes through objects by names and through arrays by indices. -/
def SameValues {A B : Type} (IA : Iface A) (a : A) (IB : Iface B) (b : B) : Prop :=
  basic IA (.conf a) = basic IB (.conf b) ∧
    ∀ steps, (follow (unordered IA) a steps).map (fun e => basic IA e.2) = (follow (unordered IB) b steps).map (fun e => basic IB e.2)

mutual
/-- All configs in the tree are of these kinds. -/
def Value.Only (p : Kind → Prop) : Value → Prop
  | .conf k es => p k ∧ entriesOnly p es
  | _ => True
def entriesOnly (p : Kind → Prop) : Entries → Prop
  | [] => True
  | (_, v) :: r => v.Only p ∧ entriesOnly p r
end

/-- The kind of objects that a class of the JSON library has the same order as. -/
def objectKind (ord : Bool) : Kind := if ord then .ordered else .map

/-- All objects of the config are of this kind. -/
def OneKind (ord : Bool) (n : Node) : Prop := Value.Only (fun k => k = .array ∨ k = objectKind ord) (.conf n.kind n.entries)

/-! ## Lemmas -/

theorem entriesOnly_iff {p : Kind → Prop} {es : Entries} : entriesOnly p es ↔ ∀ e ∈ es, e.2.Only p := by
  induction es with
  | nil => simp [entriesOnly]
  | cons e es ih => obtain ⟨k, v⟩ := e; simp only [entriesOnly, ih, List.forall_mem_cons]

def nodeJson (ord : Bool) (n : Node) : Json := valueJson ord (.conf n.kind n.entries)

theorem got_json (ord : Bool) (v : Value) : (valueJson ord v).got = v.got.map (nodeJson ord) := by
  cases v with
  | hole => simp only [valueJson, Json.got, Value.got, Got.map]
  | null => simp only [valueJson, Json.got, Value.got, Got.map]
  | scalar s => cases s <;> simp only [valueJson, scalarJson, Json.got, Value.got, Got.map]
  | conf k es =>
    simp only [Value.got, Got.map, nodeJson, valueJson]
    cases k <;> simp [Kind.assoc, Json.got]

theorem arrayJson_eq (ord : Bool) (es : Entries) : arrayJson ord es = es.map (fun e => valueJson ord e.2) := by
  induction es with
  | nil => simp [arrayJson]
  | cons e es ih => obtain ⟨k, v⟩ := e; simp [arrayJson, ih]

def memberKeys (ms : Members) : List Str := ms.map (fun e => e.1)

theorem mapEmplace_last {ms : Members} {key : Str} (v : Json) (h : ∀ k ∈ memberKeys ms, strLt k key = true) : mapEmplace ms key v = ms ++ [(key, v)] := by
  induction ms with
  | nil => rfl
  | cons e ms ih =>
    obtain ⟨k, x⟩ := e
    simp only [memberKeys, List.map_cons, List.mem_cons, forall_eq_or_imp] at h
    simp only [mapEmplace, h.1, if_true, ih h.2, List.cons_append]

theorem vecEmplace_last {ms : Members} {key : Str} (v : Json) (h : key ∉ memberKeys ms) : vecEmplace ms key v = ms ++ [(key, v)] := by
  induction ms with
  | nil => rfl
  | cons e ms ih =>
    obtain ⟨k, x⟩ := e
    simp only [memberKeys, List.map_cons, List.mem_cons, not_or] at h
    have h' : ¬ k = key := fun e => h.1 e.symm
    simp only [vecEmplace, if_neg h', ih h.2, List.cons_append]

/-- Objects whose keys are in the order of the class are written as they are. -/
theorem objectJson_eq (ord : Bool) (es : Entries) (ms : Members) (h : KeysOk (objectKind ord) (memberKeys ms ++ keysOf es)) :
    objectJson ord es ms = ms ++ es.map (fun e => (e.1, valueJson ord e.2)) := by
  induction es generalizing ms with
  | nil => simp [objectJson]
  | cons e es ih =>
    obtain ⟨k, v⟩ := e
    have step : emplace ord ms k (valueJson ord v) = ms ++ [(k, valueJson ord v)] := by
      cases ord with
      | false =>
        simp only [objectKind, KeysOk, keysOf_cons, List.pairwise_append] at h
        exact mapEmplace_last _ (fun x hx => h.2.2 x hx k (by simp))
      | true =>
        simp only [objectKind, if_true, KeysOk, keysOf_cons, List.nodup_append] at h
        exact vecEmplace_last _ (fun hk => h.2.2 k hk k (by simp) rfl)
    simp only [objectJson, step]
    rw [ih]
    · simp
    · simpa [memberKeys] using h

theorem memberAt_map (ord : Bool) (es : Entries) (key : Str) :
    memberAt (es.map (fun e => (e.1, valueJson ord e.2))) key = (first es key).map (fun v => (firstIndex es key, valueJson ord v)) := by
  induction es with
  | nil => rfl
  | cons e es ih =>
    obtain ⟨k, v⟩ := e
    simp only [List.map_cons, memberAt, first, firstIndex]
    by_cases h : k = key
    · simp [h]
    · simp only [if_neg h, ih]
      cases first es key <;> simp

/-- the member that a name finds -/
def memberOf : Members → Str → Option Json
  | [], _ => none
  | (k, x) :: r, key => if k = key then some x else memberOf r key

theorem memberAt_snd (ms : Members) (key : Str) : (memberAt ms key).map (·.2) = memberOf ms key := by
  induction ms with
  | nil => rfl
  | cons e ms ih =>
    obtain ⟨k, x⟩ := e
    simp only [memberAt, memberOf]
    by_cases h : k = key
    · simp [h]
    · simp only [if_neg h, ← ih]
      cases memberAt ms key <;> simp

theorem memberOf_none {ms : Members} {key : Str} : memberOf ms key = none ↔ key ∉ memberKeys ms := by
  induction ms with
  | nil => simp [memberOf, memberKeys]
  | cons e ms ih =>
    obtain ⟨k, x⟩ := e
    simp only [memberOf, memberKeys, List.map_cons, List.mem_cons, not_or]
    by_cases h : k = key
    · simp [h]
    · have h' : ¬ key = k := fun e => h e.symm
      rw [if_neg h, ih]; simp [h', memberKeys]

def MembersSorted (ms : Members) : Prop := (memberKeys ms).Pairwise (fun a b => strLt a b = true)

theorem mapEmplace_ok {ms : Members} (hs : MembersSorted ms) (key : Str) (v : Json) :
    MembersSorted (mapEmplace ms key v) ∧ (∀ k ∈ memberKeys (mapEmplace ms key v), k = key ∨ k ∈ memberKeys ms) ∧
      ∀ k, memberOf (mapEmplace ms key v) k = (memberOf ms k).or (if k = key then some v else none) := by
  induction ms with
  | nil =>
    refine ⟨by simp [MembersSorted, mapEmplace, memberKeys], by simp [mapEmplace, memberKeys], fun k => ?_⟩
    simp only [mapEmplace, memberOf, Option.none_or]
    by_cases h : key = k
    · simp [h]
    · have h' : ¬ k = key := fun e => h e.symm
      simp [h, h']
  | cons e ms ih =>
    obtain ⟨k0, x⟩ := e
    simp only [MembersSorted, memberKeys, List.map_cons, List.pairwise_cons] at hs
    obtain ⟨i1, i2, i3⟩ := ih hs.2
    simp only [mapEmplace]
    by_cases h1 : strLt k0 key = true
    · rw [if_pos h1]
      refine ⟨?_, ?_, fun k => ?_⟩
      · simp only [MembersSorted, memberKeys, List.map_cons, List.pairwise_cons]
        refine ⟨fun a ha => ?_, i1⟩
        rcases i2 a ha with rfl | ha
        · exact h1
        · exact hs.1 a ha
      · intro k hk
        simp only [memberKeys, List.map_cons, List.mem_cons] at hk ⊢
        rcases hk with rfl | hk
        · exact Or.inr (Or.inl rfl)
        · rcases i2 k hk with h | h
          · exact Or.inl h
          · exact Or.inr (Or.inr h)
      · simp only [memberOf, i3]
        by_cases h : k0 = k
        · simp [h]
        · simp [h]
    · rw [if_neg h1]
      by_cases h2 : strLt key k0 = true
      · rw [if_pos h2]
        refine ⟨?_, ?_, fun k => ?_⟩
        · simp only [MembersSorted, memberKeys, List.map_cons, List.pairwise_cons, List.mem_cons, forall_eq_or_imp]
          exact ⟨⟨h2, fun a ha => strLt_trans h2 (hs.1 a ha)⟩, hs⟩
        · intro k hk
          simpa [memberKeys] using hk
        · simp only [memberOf]
          by_cases h : key = k
          · subst h
            have hn : memberOf ms key = none := memberOf_none.2 (fun hm => by
              have := strLt_trans h2 (hs.1 _ hm)
              rw [strLt_irrefl] at this; simp at this)
            have hk0 : ¬ k0 = key := fun e => by subst e; rw [strLt_irrefl] at h2; simp at h2
            simp [hk0, hn]
          · have h' : ¬ k = key := fun e => h e.symm
            simp [h, h']
      · rw [if_neg h2]
        have he : k0 = key := strLt_total _ _ (by simpa using h1) (by simpa using h2)
        subst he
        refine ⟨?_, ?_, fun k => ?_⟩
        · simp only [MembersSorted, memberKeys, List.map_cons, List.pairwise_cons]
          exact hs
        · intro k hk
          exact Or.inr hk
        · simp only [memberOf]
          by_cases h : k0 = k
          · subst h; simp
          · have h' : ¬ k = k0 := fun e => h e.symm
            simp [h, h']

theorem vecEmplace_ok (ms : Members) (key : Str) (v : Json) (k : Str) :
    memberOf (vecEmplace ms key v) k = (memberOf ms k).or (if k = key then some v else none) := by
  induction ms with
  | nil =>
    simp only [vecEmplace, memberOf, Option.none_or]
    by_cases h : key = k
    · simp [h]
    · have h' : ¬ k = key := fun e => h e.symm
      simp [h, h']
  | cons e ms ih =>
    obtain ⟨k0, x⟩ := e
    simp only [vecEmplace]
    by_cases h1 : k0 = key
    · subst h1
      simp only [memberOf, if_true]
      by_cases h : k0 = k
      · subst h; simp
      · have h' : ¬ k = k0 := fun e => h e.symm
        simp [h, h']
    · simp only [if_neg h1, memberOf, ih]
      by_cases h : k0 = k
      · simp [h]
      · simp [h]

/-- A name finds the first value that was put with it. -/
theorem objectJson_find (ord : Bool) (es : Entries) (ms : Members) (hs : ord = false → MembersSorted ms) (key : Str) :
    memberOf (objectJson ord es ms) key = (memberOf ms key).or ((first es key).map (valueJson ord)) := by
  induction es generalizing ms with
  | nil => simp [objectJson, first]
  | cons e es ih =>
    obtain ⟨k, v⟩ := e
    have h1 : (ord = false → MembersSorted (emplace ord ms k (valueJson ord v))) ∧
        memberOf (emplace ord ms k (valueJson ord v)) key = (memberOf ms key).or (if key = k then some (valueJson ord v) else none) := by
      cases ord with
      | false => exact ⟨fun _ => (mapEmplace_ok (hs rfl) k _).1, (mapEmplace_ok (hs rfl) k _).2.2 key⟩
      | true => exact ⟨fun h => by simp at h, vecEmplace_ok ms k _ key⟩
    simp only [objectJson, first]
    rw [ih _ h1.1, h1.2]
    by_cases h : k = key
    · subst h; cases memberOf ms k <;> simp
    · have h' : ¬ key = k := fun e => h e.symm
      cases memberOf ms key <;> simp [h, h']

theorem nodeJson_assoc (ord : Bool) (n : Node) : (nodeJson ord n).isObj = n.kind.assoc := by
  obtain ⟨k, es⟩ := n
  cases k <;> simp [nodeJson, valueJson, Kind.assoc, Json.isObj]

theorem findKey_array (es : Entries) (key : Str) : Node.findKey ⟨.array, es⟩ key = none := rfl

theorem findKey_ok {n : Node} (hn : n.Ok) (ha : n.kind.assoc = true) (key : Str) :
    n.findKey key = (first n.entries key).map (fun v => (firstIndex n.entries key, v)) := by
  rw [findKey_eq hn ha]
  cases first n.entries key <;> rfl

/-- What is written of a config whose objects have the order of the class. -/
theorem nodeJson_one {ord : Bool} {n : Node} (hn : n.Ok) (h : n.kind = .array ∨ n.kind = objectKind ord) :
    nodeJson ord n = if n.kind.assoc then .obj (n.entries.map (fun e => (e.1, valueJson ord e.2))) else .arr (n.entries.map (fun e => valueJson ord e.2)) := by
  obtain ⟨k, es⟩ := n
  simp only [nodeJson, valueJson, arrayJson_eq]
  rcases h with h | h
  · simp only at h; subst h; rfl
  · simp only at h; subst h
    have : objectJson ord es [] = es.map (fun e => (e.1, valueJson ord e.2)) := objectJson_eq ord es [] (by simpa [memberKeys, Node.Ok] using hn)
    rw [this]

theorem enter_exact {ord : Bool} {n : Node} (hn : Config.Ok (some n)) (h : n.kind = .array ∨ n.kind = objectKind ord) (s : Step) :
    enter (jsonConfig ord) (nodeJson ord n) s = (enter manual n s).map (fun e => (e.1, e.2.map (nodeJson ord))) := by
  rw [nodeJson_one hn.1 h]
  obtain ⟨k, es⟩ := n
  by_cases ha : k.assoc = true
  · simp only [ha, if_true]
    cases s with
    | name t =>
      simp only [enter, jsonConfig, Json.findKey, manual, findKey_ok hn.1 ha, memberAt_map]
      cases first es t <;> simp [got_json]
    | index i =>
      simp only [enter, jsonConfig, Json.findIndex, manual, Node.findIndex, List.getElem?_map]
      cases es[i]? <;> simp [got_json]
  · have hk : k = .array := by cases k <;> simp_all [Kind.assoc]
    subst hk
    simp only [Kind.assoc]
    cases s with
    | name t => simp [enter, jsonConfig, Json.findKey, manual, findKey_array]
    | index i =>
      simp only [enter, jsonConfig, manual, Node.findIndex]
      simp only [Bool.false_eq_true, if_false, Json.findIndex, List.getElem?_map]
      cases es[i]? <;> simp [got_json]

theorem see_exact {ord : Bool} {n : Node} (hn : Config.Ok (some n)) (h : n.kind = .array ∨ n.kind = objectKind ord) :
    see (jsonConfig ord) (.conf (nodeJson ord n)) = see manual (.conf n) := by
  rw [nodeJson_one hn.1 h]
  obtain ⟨k, es⟩ := n
  have hkey := hn.1
  have ho : k.keepsOrder = (ord || !k.assoc) ∧ k.multi = false := by
    rcases h with h | h <;> simp only at h <;> subst h
    · simp [Kind.keepsOrder, Kind.multi, Kind.assoc]
    · cases ord <;> simp [objectKind, Kind.keepsOrder, Kind.multi, Kind.assoc]
  by_cases ha : k.assoc = true
  · simp only [ha, if_true, see, jsonConfig, Json.isObj, Json.isArr, Json.size, Json.findIndex, manual, Node.size, Node.findIndex, List.length_map, List.getElem?_map, Option.map_map]
    rw [ho.1, ho.2, ha]
    rfl
  · have hk : k = .array := by cases k <;> simp_all [Kind.assoc]
    subst hk
    simp only [Node.Ok, KeysOk] at hkey
    simp only [see, jsonConfig, manual, Kind.assoc, Kind.multi, Kind.keepsOrder, Bool.false_eq_true, if_false, Json.isObj, Json.isArr, Json.size, Json.findIndex, Node.size, Node.findIndex,
      List.length_map, List.getElem?_map, Option.map_map, Bool.or_true, Seen.config.injEq, true_and]
    apply List.map_congr_left
    intro i _
    cases e : es[i]? with
    | none => rfl
    | some p =>
      have := hkey p.1 (by simp only [keysOf]; exact List.mem_map.2 ⟨p, List.mem_of_getElem? e, rfl⟩)
      simp [this]

theorem enter_up {ord : Bool} {n : Node} (hn : Config.Ok (some n)) (s : Step) :
    (enter (unordered (jsonConfig ord)) (nodeJson ord n) s).map (·.2) = (enter (unordered manual) n s).map (fun e => e.2.map (nodeJson ord)) := by
  have hassoc := nodeJson_assoc ord n
  cases s with
  | name t =>
    simp only [enter, unordered, jsonConfig, manual]
    obtain ⟨k, es⟩ := n
    by_cases ha : k.assoc = true
    · rw [findKey_ok hn.1 ha]
      simp only [nodeJson, valueJson, ha, if_true, Json.findKey]
      have := objectJson_find ord es [] (fun _ => by simp [MembersSorted, memberKeys]) t
      rw [← memberAt_snd] at this
      simp only [memberOf, Option.none_or] at this
      cases hf : first es t with
      | none =>
        rw [hf] at this
        cases hm : memberAt (objectJson ord es []) t with
        | none => simp
        | some p => rw [hm] at this; simp at this
      | some v =>
        rw [hf] at this
        cases hm : memberAt (objectJson ord es []) t with
        | none => rw [hm] at this; simp at this
        | some p => rw [hm] at this; simp at this; simp [this, got_json]
    · have hk : k = .array := by cases k <;> simp_all [Kind.assoc]
      subst hk
      simp [nodeJson, valueJson, Kind.assoc, Json.findKey, findKey_array]
  | index i =>
    simp only [enter, unordered]
    have h1 : (jsonConfig ord).assoc (nodeJson ord n) = n.kind.assoc := hassoc
    have h2 : manual.assoc n = n.kind.assoc := rfl
    rw [h1, h2]
    by_cases ha : n.kind.assoc = true
    · simp [ha]
    · obtain ⟨k, es⟩ := n
      have hk : k = .array := by cases k <;> simp_all [Kind.assoc]
      subst hk
      simp only [Kind.assoc, Bool.false_eq_true, if_false, jsonConfig, manual, nodeJson, valueJson, Json.findIndex, arrayJson_eq, Node.findIndex, List.getElem?_map]
      cases es[i]? <;> simp [got_json]

theorem basic_node (ord : Bool) (n : Node) : basic (jsonConfig ord) (.conf (nodeJson ord n)) = basic manual (.conf n) := by
  have h1 : (jsonConfig ord).assoc (nodeJson ord n) = n.kind.assoc := nodeJson_assoc ord n
  have h2 : manual.assoc n = n.kind.assoc := rfl
  simp only [basic, h1, h2]
  by_cases ha : n.kind.assoc = true
  · simp [ha]
  · simp only [ha]
    obtain ⟨k, es⟩ := n
    have hk : k = .array := by cases k <;> simp_all [Kind.assoc]
    subst hk
    simp [jsonConfig, nodeJson, valueJson, Kind.assoc, Json.size, arrayJson_eq, manual, Node.size]

/-! ## C60 -/

/-- A config whose objects are all unordered, written as unordered JSON and read back, and a config whose objects are all ordered, written and read as ordered JSON, cannot be told apart from the
original, provided that the library reads back the tree that it has printed. -/
theorem C60_round_trip (parse : Bool → Str → Option Json) (dump : Bool → Json → Str) (ord : Bool) (n : Node) (hn : Config.Ok (some n)) (hk : OneKind ord n)
    (hlib : parse ord (dump ord (toJson ord (some n))) = some (toJson ord (some n))) :
    ∃ j, readJson parse (writeJson dump (some n) (some ord)) ord = some j ∧ Alike (jsonConfig ord) j manual n := by
  refine ⟨nodeJson ord n, hlib, ?_, fun steps => ?_⟩
  · exact see_exact hn (by simp only [OneKind, Value.Only] at hk; exact hk.1)
  · have h := follow_hom manual (jsonConfig ord) (nodeJson ord) (fun m => Config.Ok (some m) ∧ OneKind ord m)
      (fun a s ha => enter_exact ha.1 (by have := ha.2; simp only [OneKind, Value.Only] at this; exact this.1) s)
      (fun a s i b ha he => by
        obtain ⟨h1, e, h2, h3⟩ := manual_enter_ok ha.1 he
        refine ⟨h1, ?_⟩
        have := ha.2
        simp only [OneKind, Value.Only, entriesOnly_iff] at this
        have := this.2 e h2
        rw [h3] at this
        exact this) n ⟨hn, hk⟩ steps
    rw [h.1]
    cases hf : follow manual n steps with
    | none => rfl
    | some x =>
      obtain ⟨i, g⟩ := x
      cases g with
      | empty => rfl
      | scalar s => rfl
      | conf b =>
        have hb := h.2 i b hf
        have := hb.2
        simp only [OneKind, Value.Only] at this
        simp only [Option.map_some, Got.map]
        rw [see_exact hb.1 this.1]

/-- The order is chosen by the root unless it is given: the round trip of a config whose root is an object. -/
theorem C60_round_trip_default (parse : Bool → Str → Option Json) (dump : Bool → Json → Str) (ord : Bool) (n : Node) (hn : Config.Ok (some n)) (hk : OneKind ord n) (ha : n.kind.assoc = true)
    (hlib : parse ord (dump ord (toJson ord (some n))) = some (toJson ord (some n))) :
    ∃ j, readJson parse (writeJson dump (some n) none) ord = some j ∧ Alike (jsonConfig ord) j manual n := by
  have hd : defaultOrder (some n) = ord := by
    simp only [OneKind, Value.Only] at hk
    rcases hk.1 with h | h
    · rw [h] at ha; simp [Kind.assoc] at ha
    · cases ord <;> simp [defaultOrder, h, objectKind, Kind.assoc, Kind.keepsOrder]
  have := C60_round_trip parse dump ord n hn hk hlib
  simpa only [writeJson, Option.getD_none, Option.getD_some, hd] using this

/-- Any well-formed config has the same value at every path after it is written and read in any order; of entries with equal keys this is the first. -/
theorem C60_values_partial (parse : Bool → Str → Option Json) (dump : Bool → Json → Str) (ordered : Option Bool) (n : Node) (hn : Config.Ok (some n))
    (hlib : ∀ ord, parse ord (dump ord (toJson ord (some n))) = some (toJson ord (some n))) :
    ∃ j, readJson parse (writeJson dump (some n) ordered) (ordered.getD (defaultOrder (some n))) = some j ∧ SameValues (jsonConfig (ordered.getD (defaultOrder (some n)))) j manual n := by
  generalize hord : ordered.getD (defaultOrder (some n)) = ord
  refine ⟨nodeJson ord n, ?_, basic_node ord n, fun steps => ?_⟩
  · simp only [readJson, writeJson, hord]; exact hlib ord
  · have h := follow_hom_up (unordered manual) (unordered (jsonConfig ord)) (nodeJson ord) (fun m => Config.Ok (some m)) (fun a s ha => enter_up ha s)
      (fun a s i b ha he => by
        have : enter manual a s = some (i, .conf b) := by
          cases s with
          | name t => exact he
          | index j =>
            simp only [enter, unordered] at he ⊢
            by_cases hc : manual.assoc a = true
            · simp [hc] at he
            · simpa [hc] using he
        exact (manual_enter_ok ha this).1) n hn steps
    have h1 := h.1
    cases hf : follow (unordered manual) n steps with
    | none =>
      rw [hf] at h1
      cases hg : follow (unordered (jsonConfig ord)) (nodeJson ord n) steps with
      | none => rfl
      | some y => rw [hg] at h1; simp at h1
    | some x =>
      obtain ⟨i, g⟩ := x
      rw [hf] at h1
      cases hg : follow (unordered (jsonConfig ord)) (nodeJson ord n) steps with
      | none => rw [hg] at h1; simp at h1
      | some y =>
        rw [hg] at h1
        simp only [Option.map_some, Option.some.injEq] at h1 ⊢
        rw [h1]
        cases g with
        | empty => rfl
        | scalar s => rfl
        | conf b => exact basic_node ord b

/-- non-vacuity: nested objects and arrays -/
def sampleJson : Node :=
  ⟨.map, [(['a'], .scalar (.int 1)), (['b'], .conf .array [([], .conf .map [(['x'], .scalar (.str ['s']))]), ([], .null)]), (['c'], .conf .map [(['y'], .scalar (.bool true))])]⟩

example : Config.Ok (some sampleJson) ∧ OneKind false sampleJson := by
  simp [Config.Ok, sampleJson, Node.Ok, KeysOk, keysOf, Value.Ok, entriesOk, OneKind, Value.Only, entriesOnly, objectKind, strLt]

/-- The values under equal keys are lost, except the first. -/
theorem C60_multimap_violated : ∃ n, Config.Ok (some n) ∧ ∀ ord, (manual.size n, (jsonConfig ord).size (toJson ord (some n))) = (2, 1) := by
  refine ⟨⟨.multimap, [(['a'], .scalar (.int 1)), (['a'], .scalar (.int 2))]⟩, ?_, ?_⟩
  · simp [Config.Ok, Node.Ok, KeysOk, keysOf, Value.Ok, strLt]
  · intro ord; cases ord <;> decide +kernel

/-- With the order chosen by the root, an ordered object in an array, or in an unordered object, loses its order. -/
theorem C60_order_violated : ∃ n : Node, Config.Ok (some n) ∧ defaultOrder (some n) = false ∧ OneKind true n ∧
    (follow manual n [.index 0, .index 0]).map (fun e => see manual e.2) = some (.scalar (.int 1)) ∧
    (follow (jsonConfig false) (toJson false (some n)) [.index 0, .index 0]).map (fun e => see (jsonConfig false) e.2) = some (.scalar (.int 2)) := by
  refine ⟨⟨.array, [([], .conf .ordered [(['b'], .scalar (.int 1)), (['a'], .scalar (.int 2))])]⟩, ?_, rfl, ?_, ?_, ?_⟩
  · simp [Config.Ok, Node.Ok, KeysOk, keysOf, Value.Ok, entriesOk]
  · simp [OneKind, Value.Only, entriesOnly, objectKind]
  · decide +kernel
  · decide +kernel

/-- A null config is read back as a config that is not null. -/
theorem C60_null_violated (parse : Bool → Str → Option Json) (dump : Bool → Json → Str) (hlib : parse false (dump false .null) = some .null) :
    (readJson parse (writeJson dump none none) false).isSome = true := by
  simp only [readJson, writeJson, Option.getD_none, defaultOrder, toJson, hlib, Option.isSome_some]

/-- A number above 2^63 - 1 in a document is read as a negative integer. -/
theorem C60_unsigned_violated : ∃ j : Json, (jsonConfig false).byKey j ['a'] = some (0, .scalar (.int (-1))) ∧ j = .obj [(['a'], .uint 18446744073709551615)] :=
  ⟨_, by rfl, rfl⟩

/-- Numbers of a document that fit are read as they are. -/
theorem C60_number (n : Nat) (h : n < 2 ^ 63) : (Json.uint n).got = .scalar (.int n) := by
  have h1 : n % 2 ^ 64 = n := Nat.mod_eq_of_lt (by omega)
  simp only [Json.got, wrapSigned, h1, if_pos h]

/-! ## Lookups in any JSON document, also one that is a single value or null -/

/-- A JSON config has an entry at exactly the indices below its size; the null value has none, a single value has itself. -/
theorem C60_indices (ord : Bool) (j : Json) (i : Nat) : ((jsonConfig ord).byIndex j i).isSome = true ↔ i < (jsonConfig ord).size j := by
  cases j <;> simp [jsonConfig, Json.findIndex, Json.size] <;> (try split) <;> simp <;> omega

/-- The numbers of entries of documents that are not objects or arrays. -/
theorem C60_scalar_document (ord : Bool) (j : Json) : ((jsonConfig ord).size j = 0 ∨ (jsonConfig ord).assoc j = true ∨ (jsonConfig ord).size j = 1 ∧
      (jsonConfig ord).byIndex j 0 = some ([], j.got) ∨ ∃ xs, j = .arr xs) ∧ (j = .null → (jsonConfig ord).size j = 0) := by
  cases j <;> simp [jsonConfig, Json.findIndex, Json.size, Json.isObj]

theorem memberAt_get {ms : Members} {key : Str} {i : Nat} {x : Json} (h : memberAt ms key = some (i, x)) : ms[i]? = some (key, x) := by
  induction ms generalizing i with
  | nil => simp [memberAt] at h
  | cons e r ih =>
    obtain ⟨k, y⟩ := e
    simp only [memberAt] at h
    split at h
    · rename_i hk
      simp at h; obtain ⟨rfl, rfl⟩ := h; simp [hk]
    · cases hm : memberAt r key with
      | none => rw [hm] at h; simp at h
      | some e =>
        rw [hm] at h; simp at h
        obtain ⟨rfl, rfl⟩ := h
        simpa using ih hm

/-- An entry found by its name is the entry at the index that is reported. -/
theorem C60_key_index (ord : Bool) (j : Json) (key : Str) (i : Nat) (g : Got Json) (h : (jsonConfig ord).byKey j key = some (i, g)) :
    (jsonConfig ord).byIndex j i = some (key, g) := by
  cases j with
  | obj ms =>
    simp only [jsonConfig, Json.findKey] at h ⊢
    cases hm : memberAt ms key with
    | none => rw [hm] at h; simp at h
    | some e =>
      rw [hm] at h; simp at h
      obtain ⟨rfl, rfl⟩ := h
      simp only [Json.findIndex]
      rw [memberAt_get (i := e.1) (x := e.2) hm]; rfl
  | _ => simp [jsonConfig, Json.findKey] at h

example : (jsonConfig false).size (.int 5) = 1 ∧ (jsonConfig false).byIndex (.int 5) 0 = some ([], .scalar (.int 5)) ∧ (jsonConfig false).size .null = 0 :=
  ⟨rfl, rfl, rfl⟩

end Verif.Config
