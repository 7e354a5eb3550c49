import Verif.Lemmas.Backend
import Verif.Model.ConfigYaml
import Verif.Props.C56_ScalarText

/-!
# C61: reading a config that was written as YAML
-/
set_option autoImplicit false

namespace Verif.Config

open ScalarText (Stored Int64)

/-! ## Specification -/

/-- the type a scalar was stored with -/
def tyOf : Scalar → ScalarText.Ty
  | .int _ => .integer
  | .real _ => .real
  | .bool _ => .boolean
  | .str _ => .string

/-- the value a user reads with that type -/
def storedOf : Scalar → Stored Nat
  | .int n => .integer n
  | .real r => .real r
  | .bool b => .boolean b
  | .str s => .string s

/-- Reading the text as the type of the scalar gives the scalar. -/
def ReadsAs (ops : ScalarText.Real Nat) (t : Str) (s : Scalar) : Prop := ScalarText.get ops (tyOf s) (.string t) = some (storedOf s)

/-- the keys of the entries in the order of their indices -/
def keysSeen {B : Type} (I : Iface B) (b : B) : List (Option Str) := (List.range (I.size b)).map (fun i => (I.byIndex b i).map (·.1))

/-- How a value of the original config corresponds to what is read back from a text format: a scalar is read back as its type; a config has as many entries and an object the same keys; what has no
value becomes a config without entries. `arrays` says that arrays are told from objects. -/
inductive Back {B : Type} (I : Iface B) (ops : ScalarText.Real Nat) (arrays : Bool) : Got Node → Got B → Prop
  | nothing (b : B) : I.size b = 0 → Back I ops arrays .empty (.conf b)
  | scalar (s : Scalar) (t : Str) : ReadsAs ops t s → Back I ops arrays (.scalar s) (.scalar (.str t))
  | config (n : Node) (b : B) : I.size b = n.entries.length → (n.kind.assoc = true → I.assoc b = true ∧ keysSeen I b = n.entries.map (fun e => some e.1)) →
      (arrays = true → I.assoc b = n.kind.assoc) → Back I ops arrays (.conf n) (.conf b)

mutual
/-- Every scalar and every config of the tree has these properties. -/
def Value.Each (p : Scalar → Prop) (q : Kind → List Str → Prop) : Value → Prop
  | .scalar s => p s
  | .conf k es => q k (es.map (fun e => e.1)) ∧ entriesEach p q es
  | _ => True
def entriesEach (p : Scalar → Prop) (q : Kind → List Str → Prop) : Entries → Prop
  | [] => True
  | (_, v) :: r => v.Each p q ∧ entriesEach p q r
end

/-- Numbers that the program can store: integers of 64 bits, and reals whose text is read as the same real. -/
def Storable (ops : ScalarText.Real Nat) (realText : Nat → Str) : Scalar → Prop
  | .int n => Int64 n
  | .real r => ops.parse (realText r) = .ok r
  | _ => True

/-- No object of the tree has two entries with the same key. -/
def DistinctKeys (k : Kind) (keys : List Str) : Prop := k.assoc = true → keys.Nodup

/-! ## Lemmas -/

theorem entriesEach_iff {p : Scalar → Prop} {q : Kind → List Str → Prop} {es : Entries} : entriesEach p q es ↔ ∀ e ∈ es, e.2.Each p q := by
  induction es with
  | nil => simp [entriesEach]
  | cons e es ih => obtain ⟨k, v⟩ := e; simp only [entriesEach, ih, List.forall_mem_cons]

def NodeEach (p : Scalar → Prop) (q : Kind → List Str → Prop) (n : Node) : Prop := Value.Each p q (.conf n.kind n.entries)

/-- The property goes over to the entries. -/
theorem each_enter {p : Scalar → Prop} {q : Kind → List Str → Prop} {n : Node} {s : Step} {i : Nat} {g : Got Node} (hn : NodeEach p q n) (h : enter manual n s = some (i, g)) :
    (∀ c, g = .scalar c → p c) ∧ ∀ m, g = .conf m → NodeEach p q m := by
  have key : ∀ e : Str × Value, e ∈ n.entries → e.2.got = g → (∀ c, g = .scalar c → p c) ∧ ∀ m, g = .conf m → NodeEach p q m := by
    intro e he hg
    have := entriesEach_iff.1 (by simp only [NodeEach, Value.Each] at hn; exact hn.2) e he
    obtain ⟨k, v⟩ := e
    cases v with
    | hole => simp only [Value.got] at hg; subst hg; simp
    | null => simp only [Value.got] at hg; subst hg; simp
    | scalar c => simp only [Value.got] at hg; subst hg; simpa [Value.Each] using this
    | conf kd es => simp only [Value.got] at hg; subst hg; simpa [NodeEach] using this
  cases s with
  | name t =>
    simp only [enter, manual] at h
    cases hf : n.findKey t with
    | none => rw [hf] at h; simp at h
    | some p =>
      rw [hf] at h
      simp at h
      have hm : (t, p.2) ∈ n.entries := by
        have : ∀ j, keyAt n.entries t j = some p → (t, p.2) ∈ n.entries := fun j hj => List.mem_of_getElem? (keyAt_fst hj).2
        obtain ⟨kd, es⟩ := n
        cases kd <;> simp only [Node.findKey] at hf
        · exact this _ hf
        · exact this _ hf
        · exact this _ hf
        · simp at hf
      exact key _ hm h.2
  | index j =>
    simp only [enter, manual, Node.findIndex] at h
    cases hf : n.entries[j]? with
    | none => rw [hf] at h; simp at h
    | some p =>
      rw [hf] at h
      simp at h
      exact key _ (List.mem_of_getElem? hf) h.2

theorem each_follow {p : Scalar → Prop} {q : Kind → List Str → Prop} {n : Node} {steps : List Step} {i : Nat} {g : Got Node} (hn : NodeEach p q n) (h : follow manual n steps = some (i, g)) :
    (∀ c, g = .scalar c → p c) ∧ ∀ m, g = .conf m → NodeEach p q m := by
  induction steps generalizing n with
  | nil => simp [follow] at h
  | cons s r ih =>
    cases r with
    | nil => exact each_enter hn h
    | cons s' r =>
      simp only [follow] at h
      cases e : enter manual n s with
      | none => rw [e] at h; simp at h
      | some x =>
        obtain ⟨j, g'⟩ := x
        rw [e] at h
        cases g' with
        | conf c => exact ih ((each_enter hn e).2 c rfl) h
        | _ => simp at h

theorem reads_int (ops : ScalarText.Real Nat) (n : Int) (h : Int64 n) : ReadsAs ops (ScalarText.encodeInt n) (.int n) := by
  simp [ReadsAs, ScalarText.get, tyOf, ScalarText.apply, ScalarText.C56_int_roundtrip n h, ScalarText.fromString, Stored.asType, storedOf]

theorem reads_bool (ops : ScalarText.Real Nat) (b : Bool) : ReadsAs ops (if b then ['t', 'r', 'u', 'e'] else ['f', 'a', 'l', 's', 'e']) (.bool b) := by
  have h : ScalarText.decodeBool (if b then ['t', 'r', 'u', 'e'] else ['f', 'a', 'l', 's', 'e']) = .ok b := by cases b <;> decide
  simp [ReadsAs, ScalarText.get, tyOf, ScalarText.apply, h, ScalarText.fromString, Stored.asType, storedOf]

theorem reads_real (ops : ScalarText.Real Nat) (t : Str) (r : Nat) (h : ops.parse t = .ok r) : ReadsAs ops t (.real r) := by
  simp [ReadsAs, ScalarText.get, tyOf, ScalarText.apply, h, ScalarText.fromString, Stored.asType, storedOf]

theorem reads_str (ops : ScalarText.Real Nat) (s : Str) : ReadsAs ops s (.str s) := by
  simp [ReadsAs, ScalarText.get, tyOf, ScalarText.apply, Stored.asType, storedOf]

def nodeYaml (rt : Nat → Str) (n : Node) : Yaml := valueYaml rt (.conf n.kind n.entries)

/-- what is read for a value -/
def yamlImage (rt : Nat → Str) : Got Node → Got Yaml
  | .empty => .conf (.map [])
  | .scalar s => .scalar (.str (scalarYaml rt s))
  | .conf n => .conf (nodeYaml rt n)

theorem got_yaml (rt : Nat → Str) (v : Value) : (valueYaml rt v).got = yamlImage rt v.got := by
  cases v with
  | hole => simp only [valueYaml, Yaml.got, Value.got, yamlImage]
  | null => simp only [valueYaml, Yaml.got, Value.got, yamlImage]
  | scalar s => simp only [valueYaml, Yaml.got, Value.got, yamlImage]
  | conf k es =>
    simp only [Value.got, yamlImage, nodeYaml, valueYaml]
    cases k <;> simp [Kind.assoc, Yaml.got]

theorem arrayYaml_eq (rt : Nat → Str) (es : Entries) : arrayYaml rt es = es.map (fun e => valueYaml rt e.2) := by
  induction es with
  | nil => simp [arrayYaml]
  | cons e es ih => obtain ⟨k, v⟩ := e; simp [arrayYaml, ih]

theorem yamlAssign_last {ms : List (Str × Yaml)} {key : Str} (v : Yaml) (h : key ∉ ms.map (fun e => e.1)) : yamlAssign ms key v = ms ++ [(key, v)] := by
  induction ms with
  | nil => rfl
  | cons e ms ih =>
    obtain ⟨k, x⟩ := e
    simp only [List.map_cons, List.mem_cons, not_or] at h
    have h' : ¬ k = key := fun e => h.1 e.symm
    simp only [yamlAssign, if_neg h', ih h.2, List.cons_append]

theorem objectYaml_eq (rt : Nat → Str) (es : Entries) (ms : List (Str × Yaml)) (h : (ms.map (fun e => e.1) ++ es.map (fun e => e.1)).Nodup) :
    objectYaml rt es ms = ms ++ es.map (fun e => (e.1, valueYaml rt e.2)) := by
  induction es generalizing ms with
  | nil => simp [objectYaml]
  | cons e es ih =>
    obtain ⟨k, v⟩ := e
    have step : yamlAssign ms k (valueYaml rt v) = ms ++ [(k, valueYaml rt v)] := by
      simp only [List.map_cons, List.nodup_append] at h
      exact yamlAssign_last _ (fun hk => h.2.2 k hk k (by simp) rfl)
    simp only [objectYaml, step]
    rw [ih]
    · simp
    · simpa using h

theorem pairAt_map (rt : Nat → Str) (es : Entries) (key : Str) :
    pairAt (es.map (fun e => (e.1, valueYaml rt e.2))) key = (first es key).map (fun v => (firstIndex es key, valueYaml rt v)) := by
  induction es with
  | nil => rfl
  | cons e es ih =>
    obtain ⟨k, v⟩ := e
    simp only [List.map_cons, pairAt, first, firstIndex]
    by_cases h : k = key
    · simp [h]
    · simp only [if_neg h, ih]
      cases first es key <;> simp

theorem nodeYaml_eq (rt : Nat → Str) {n : Node} (h : DistinctKeys n.kind (n.entries.map (fun e => e.1))) :
    nodeYaml rt n = if n.kind.assoc then .map (n.entries.map (fun e => (e.1, valueYaml rt e.2))) else .seq (n.entries.map (fun e => valueYaml rt e.2)) := by
  obtain ⟨k, es⟩ := n
  simp only [nodeYaml, valueYaml, arrayYaml_eq]
  by_cases ha : k.assoc = true
  · have : objectYaml rt es [] = es.map (fun e => (e.1, valueYaml rt e.2)) := objectYaml_eq rt es [] (by simpa using h ha)
    simp only [ha, if_true, this]
  · simp [ha]

theorem findKey_first {n : Node} (hn : n.Ok) (ha : n.kind.assoc = true) (key : Str) :
    n.findKey key = (first n.entries key).map (fun v => (firstIndex n.entries key, v)) := by
  rw [findKey_eq hn ha]
  cases first n.entries key <;> rfl

theorem enter_yaml (rt : Nat → Str) {n : Node} (hn : Config.Ok (some n)) (h : DistinctKeys n.kind (n.entries.map (fun e => e.1))) (s : Step) :
    enter yamlConfig (nodeYaml rt n) s = (enter manual n s).map (fun e => (e.1, yamlImage rt e.2)) := by
  rw [nodeYaml_eq rt h]
  obtain ⟨k, es⟩ := n
  by_cases ha : k.assoc = true
  · simp only [ha, if_true]
    cases s with
    | name t =>
      simp only [enter, yamlConfig, Yaml.findKey, manual, findKey_first hn.1 ha, pairAt_map]
      cases first es t <;> simp [got_yaml]
    | index i =>
      simp only [enter, yamlConfig, Yaml.findIndex, manual, Node.findIndex, List.getElem?_map]
      cases es[i]? <;> simp [got_yaml]
  · have hk : k = .array := by cases k <;> simp_all [Kind.assoc]
    subst hk
    simp only [Kind.assoc]
    cases s with
    | name t => simp [enter, yamlConfig, Yaml.findKey, manual, Node.findKey]
    | index i =>
      simp only [enter, yamlConfig, manual, Node.findIndex]
      simp only [Bool.false_eq_true, if_false, Yaml.findIndex, List.getElem?_map]
      cases es[i]? <;> simp [got_yaml]

theorem back_node (rt : Nat → Str) (ops : ScalarText.Real Nat) {n : Node} (h : DistinctKeys n.kind (n.entries.map (fun e => e.1))) :
    Back yamlConfig ops true (.conf n) (.conf (nodeYaml rt n)) := by
  rw [nodeYaml_eq rt h]
  obtain ⟨k, es⟩ := n
  by_cases ha : k.assoc = true
  · simp only [ha, if_true]
    refine .config _ _ (by simp [yamlConfig, Yaml.size]) (fun _ => ⟨by simp [yamlConfig], ?_⟩) (fun _ => by simp [yamlConfig, ha])
    simp only [keysSeen, yamlConfig, Yaml.size, Yaml.findIndex, List.length_map, List.getElem?_map, Option.map_map]
    apply List.ext_getElem?
    intro i
    by_cases hi : i < es.length
    · simp [hi]
    · have hi' : es.length ≤ i := by omega
      simp [hi']
  · simp only [ha]
    refine .config _ _ (by simp [yamlConfig, Yaml.size]) (fun h => absurd h ha) (fun _ => by simp [yamlConfig, ha])

theorem reads_yaml (rt : Nat → Str) (ops : ScalarText.Real Nat) (s : Scalar) (h : Storable ops rt s) : ReadsAs ops (scalarYaml rt s) s := by
  cases s with
  | int n => exact reads_int ops n h
  | real r => exact reads_real ops _ r h
  | bool b => exact reads_bool ops b
  | str s => exact reads_str ops s

/-! ## C61 -/

/-- A config without equal keys in one object, written as YAML and read back: every chain of names and indices leads to an entry exactly if it does so in the original, with the same index, and what is
read there as the original type is the original value; objects and arrays have the same entries. -/
theorem C61_round_trip_partial (ops : ScalarText.Real Nat) (realText : Nat → Str) (load : Str → Yaml) (emit : Yaml → Str) (n : Node) (hn : Config.Ok (some n))
    (he : Value.Each (Storable ops realText) DistinctKeys (.conf n.kind n.entries)) (hlib : load (emit (toYaml realText (some n))) = toYaml realText (some n)) :
    ∃ y, readYaml load (writeYaml realText emit (some n)) = some y ∧ Back yamlConfig ops true (.conf n) (.conf y) ∧
      ∀ steps, match follow manual n steps, follow yamlConfig y steps with
        | none, none => True
        | some (i, g), some (j, g') => i = j ∧ Back yamlConfig ops true g g'
        | _, _ => False := by
  have hd : ∀ m : Node, NodeEach (Storable ops realText) DistinctKeys m → DistinctKeys m.kind (m.entries.map (fun e => e.1)) := fun m hm => by
    simp only [NodeEach, Value.Each] at hm; exact hm.1
  have hroot := nodeYaml_eq realText (hd n he)
  refine ⟨nodeYaml realText n, ?_, back_node realText ops (hd n he), fun steps => ?_⟩
  · simp only [readYaml, writeYaml, hlib]
    show (match nodeYaml realText n with | Yaml.map ms => some (Yaml.map ms) | Yaml.seq xs => some (Yaml.seq xs) | _ => none) = _
    rw [hroot]
    by_cases ha : n.kind.assoc = true
    · simp [ha]
    · simp [ha]
  · have h := follow_hom_gen manual yamlConfig (nodeYaml realText) (fun m => Config.Ok (some m) ∧ NodeEach (Storable ops realText) DistinctKeys m) (yamlImage realText) (fun _ => rfl)
      (fun g b s hg hb => by
        cases g with
        | conf a => exact absurd rfl (hg a)
        | empty =>
          simp only [yamlImage, Got.conf.injEq] at hb
          subst hb
          cases s <;> simp [enter, yamlConfig, Yaml.findKey, Yaml.findIndex, pairAt]
        | scalar c => simp [yamlImage] at hb)
      (fun a s ha => enter_yaml realText ha.1 (hd a ha.2) s)
      (fun a s i b ha hb => ⟨(manual_enter_ok ha.1 hb).1, (each_enter ha.2 hb).2 b rfl⟩) n ⟨hn, he⟩ steps
    rw [h]
    cases hf : follow manual n steps with
    | none => trivial
    | some x =>
      obtain ⟨i, g⟩ := x
      obtain ⟨h1, h2⟩ := each_follow he hf
      refine ⟨rfl, ?_⟩
      cases g with
      | empty => exact .nothing _ rfl
      | scalar s => exact .scalar s _ (reads_yaml realText ops s (h1 s rfl))
      | conf m => exact back_node realText ops (hd m (h2 m rfl))

/-- non-vacuity -/
def sampleYaml : Node := ⟨.ordered, [(['b'], .scalar (.int (-5))), (['a'], .conf .array [([], .conf .map [(['x'], .scalar (.str ['s']))]), ([], .scalar (.bool true))])]⟩

example (ops : ScalarText.Real Nat) (rt : Nat → Str) : Config.Ok (some sampleYaml) ∧ Value.Each (Storable ops rt) DistinctKeys (.conf sampleYaml.kind sampleYaml.entries) := by
  simp [Config.Ok, sampleYaml, Node.Ok, KeysOk, keysOf, Value.Ok, entriesOk, Value.Each, entriesEach, DistinctKeys, Storable, ScalarText.Int64, Kind.assoc]

/-- Of values under equal keys the config gives the first, but the written YAML has the last. -/
theorem C61_multimap_violated : ∃ n, Config.Ok (some n) ∧ ∀ realText, (manual.byKey n ['a']).map (·.2) = some (.scalar (.int 1)) ∧
    (yamlConfig.byKey (toYaml realText (some n)) ['a']).map (·.2) = some (.scalar (.str ['2'])) := by
  refine ⟨⟨.multimap, [(['a'], .scalar (.int 1)), (['a'], .scalar (.int 2))]⟩, ?_, fun rt => ⟨rfl, ?_⟩⟩
  · simp [Config.Ok, Node.Ok, KeysOk, keysOf, Value.Ok, strLt]
  · have : ScalarText.encodeInt 2 = ['2'] := by decide +kernel
    simp [toYaml, valueYaml, Kind.assoc, objectYaml, yamlAssign, scalarYaml, yamlConfig, Yaml.findKey, pairAt, Yaml.got, this]

/-- An ordered object is read back as one that does not keep the order. -/
theorem C61_order_violated (realText : Nat → Str) : manual.order ⟨.ordered, [(['b'], .scalar (.bool true)), (['a'], .scalar (.bool true))]⟩ = true ∧
    yamlConfig.order (toYaml realText (some ⟨.ordered, [(['b'], .scalar (.bool true)), (['a'], .scalar (.bool true))]⟩)) = false := by
  refine ⟨rfl, ?_⟩
  simp [toYaml, valueYaml, Kind.assoc, yamlConfig]

/-- A value that cannot be read, here a null config, is read back as an empty object. -/
theorem C61_null_violated (realText : Nat → Str) : (manual.byKey ⟨.map, [(['a'], .null)]⟩ ['a']).map (·.2) = some .empty ∧
    (yamlConfig.byKey (toYaml realText (some ⟨.map, [(['a'], .null)]⟩)) ['a']).map (·.2) = some (.conf (.map [])) := by
  refine ⟨rfl, ?_⟩
  simp [toYaml, valueYaml, Kind.assoc, objectYaml, yamlAssign, yamlConfig, Yaml.findKey, pairAt, Yaml.got]

/-- A boolean is read back as a boolean, but no longer as an integer. -/
theorem C61_type_violated (ops : ScalarText.Real Nat) (realText : Nat → Str) : ScalarText.get ops .integer (storedOf (.bool true)) = some (.integer 1) ∧
    ScalarText.get ops .integer (.string (scalarYaml realText (.bool true))) = some .empty := by
  refine ⟨rfl, ?_⟩
  have h : ScalarText.decodeInt ['t', 'r', 'u', 'e'] = .fail := by decide
  simp [scalarYaml, ScalarText.get, ScalarText.apply, h, ScalarText.fromString, Stored.asType]

end Verif.Config
