import Verif.Props.C61_Yaml
import Verif.Model.ConfigXml

/-!
# C62: reading a config that was written as XML
-/
set_option autoImplicit false

namespace Verif.Config

/-! ## Specification -/

/-- A string without zero bytes. -/
def Clean (s : Str) : Prop := ∀ c ∈ s, c.toNat ≠ 0

/-- Scalars that the program can store, strings without zero bytes. -/
def XmlScalar (ops : ScalarText.Real Nat) (realText : Nat → Str) (s : Scalar) : Prop := Storable ops realText s ∧ ∀ t, s = .str t → Clean t

/-- The keys have no zero bytes. -/
def CleanKeys (_ : Kind) (keys : List Str) : Prop := ∀ k ∈ keys, Clean k

/-- There are no arrays. -/
def CleanObjects (kind : Kind) (keys : List Str) : Prop := kind.assoc = true ∧ ∀ k ∈ keys, Clean k

/-! ## Lemmas -/

theorem cstr_clean {s : Str} (h : Clean s) : cstr s = s := by
  induction s with
  | nil => rfl
  | cons c s ih =>
    have h1 : c.toNat ≠ 0 := h c (by simp)
    simp only [cstr, List.takeWhile_cons, h1, ne_eq, not_false_eq_true, decide_true, if_true, List.cons.injEq, true_and]
    exact ih (fun d hd => h d (by simp [hd]))

theorem entriesXml_eq (rt : Nat → Str) (tv assoc : Bool) (es : Entries) : entriesXml rt tv assoc es = es.map (fun e => valueXml rt tv (xmlKey assoc e.1) e.2) := by
  induction es with
  | nil => simp [entriesXml]
  | cons e es ih => obtain ⟨k, v⟩ := e; simp [entriesXml, ih]

theorem got_plain (name : Str) (ks : List Xml) : (Xml.elem name none none ks).got = .conf (.elem name none none ks) := by
  cases ks <;> rfl

section
variable (rt : Nat → Str) (tv : Bool) (ops : ScalarText.Real Nat) (q : Kind → List Str → Prop)

/-- the element `x` was written for the config `n` -/
def XmlRel (n : Node) (x : Xml) : Prop :=
  Config.Ok (some n) ∧ NodeEach (XmlScalar ops rt) q n ∧ x.kids = n.entries.map (fun e => valueXml rt tv (xmlKey n.kind.assoc e.1) e.2)

def XmlGot : Got Node → Got Xml → Prop
  | .empty, g => ∃ x : Xml, g = .conf x ∧ x.kids = []
  | .scalar s, g => g = .scalar (.str (scalarXml rt s)) ∧ XmlScalar ops rt s
  | .conf n, g => ∃ x, g = .conf x ∧ XmlRel rt tv ops q n x

theorem valueXml_name (name : Str) (v : Value) : (valueXml rt tv name v).name = name := by
  cases v <;> simp only [valueXml, Xml.name]
  by_cases h : tv = true <;> simp [h]

theorem got_xml (name : Str) (v : Value) (h1 : v.Ok) (h2 : v.Each (XmlScalar ops rt) q) : XmlGot rt tv ops q v.got (valueXml rt tv name v).got := by
  cases v with
  | hole => exact ⟨.elem name none none [], by simp [valueXml, Xml.got, Xml.kids, Xml.value, Xml.text], rfl⟩
  | null => exact ⟨.elem name none none [], by simp [valueXml, Xml.got, Xml.kids, Xml.value, Xml.text], rfl⟩
  | scalar s =>
    refine ⟨?_, by simpa [Value.Each] using h2⟩
    by_cases h : tv = true <;> simp [valueXml, h, Xml.got, Xml.kids, Xml.value, Xml.text]
  | conf k es =>
    refine ⟨.elem name none none (entriesXml rt tv k.assoc es), ?_, ?_, h2, ?_⟩
    · simp only [valueXml]; exact got_plain name _
    · simp only [Value.Ok, entriesOk_iff] at h1; exact h1
    · simp only [Xml.kids, entriesXml_eq]

theorem kidAt_map (es : Entries) (key : Str) (i : Nat) (hc : ∀ k ∈ es.map (fun e => e.1), Clean k) :
    kidAt (es.map (fun e => valueXml rt tv (xmlKey true e.1) e.2)) key i =
      (first es key).map (fun v => (i + firstIndex es key, (valueXml rt tv (xmlKey true key) v).got)) := by
  induction es generalizing i with
  | nil => rfl
  | cons e es ih =>
    obtain ⟨k, v⟩ := e
    have hk : xmlKey true k = k := by simp only [xmlKey, if_true]; exact cstr_clean (hc k (by simp))
    simp only [List.map_cons, kidAt, valueXml_name, hk, first, firstIndex]
    by_cases h : k = key
    · subst h; simp [hk]
    · simp only [if_neg h, ih (i + 1) (fun k hk => hc k (by simp [hk]))]
      cases first es key with
      | none => rfl
      | some w => simp; omega

variable (hq : ∀ k ks, q k ks → ∀ x ∈ ks, Clean x)
include hq

theorem enter_xml (n : Node) (x : Xml) (s : Step) (i : Nat) (g : Got Node) (hr : XmlRel rt tv ops q n x) (he : enter manual n s = some (i, g)) :
    ∃ g', enter xmlConfig x s = some (i, g') ∧ XmlGot rt tv ops q g g' := by
  obtain ⟨hok, heach, hkids⟩ := hr
  have hval : ∀ e ∈ n.entries, ∀ name, XmlGot rt tv ops q e.2.got (valueXml rt tv name e.2).got := fun e hm name => got_xml rt tv ops q name e.2 (hok.2 e hm)
    (entriesEach_iff.1 (by simp only [NodeEach, Value.Each] at heach; exact heach.2) e hm)
  have hclean : ∀ k ∈ n.entries.map (fun e => e.1), Clean k := hq _ _ (by simp only [NodeEach, Value.Each] at heach; exact heach.1)
  cases s with
  | name t =>
    by_cases ha : n.kind.assoc = true
    · simp only [enter, manual, findKey_first hok.1 ha] at he
      cases hf : first n.entries t with
      | none => rw [hf] at he; simp at he
      | some v =>
        rw [hf] at he
        simp only [Option.map_some, Option.some.injEq, Prod.mk.injEq] at he
        obtain ⟨rfl, rfl⟩ := he
        refine ⟨(valueXml rt tv (xmlKey true t) v).got, ?_, ?_⟩
        · simp only [enter, xmlConfig, hkids, ha, kidAt_map rt tv n.entries t 0 hclean, hf, Option.map_some, Nat.zero_add]
        · obtain ⟨a, b, hab, -⟩ := first_some_split hf
          exact hval (t, v) (by rw [hab]; simp) _
    · obtain ⟨k, es⟩ := n
      have hk : k = .array := by cases k <;> simp_all [Kind.assoc]
      subst hk
      simp [enter, manual, Node.findKey] at he
  | index j =>
    simp only [enter, manual, Node.findIndex] at he
    cases hf : n.entries[j]? with
    | none => rw [hf] at he; simp at he
    | some e =>
      rw [hf] at he
      simp only [Option.map_some, Option.some.injEq, Prod.mk.injEq] at he
      obtain ⟨rfl, rfl⟩ := he
      refine ⟨(valueXml rt tv (xmlKey n.kind.assoc e.1) e.2).got, ?_, hval e (List.mem_of_getElem? hf) _⟩
      simp only [enter, xmlConfig, hkids, List.getElem?_map, hf, Option.map_some]

theorem back_xml (n : Node) (x : Xml) (hr : XmlRel rt tv ops q n x) : Back xmlConfig ops false (.conf n) (.conf x) := by
  obtain ⟨hok, heach, hkids⟩ := hr
  have hclean : ∀ k ∈ n.entries.map (fun e => e.1), Clean k := hq _ _ (by simp only [NodeEach, Value.Each] at heach; exact heach.1)
  refine .config _ _ (by simp [xmlConfig, hkids]) (fun ha => ⟨rfl, ?_⟩) (fun h => by simp at h)
  simp only [keysSeen, xmlConfig, hkids, List.length_map, List.getElem?_map, Option.map_map, ha]
  apply List.ext_getElem?
  intro i
  by_cases hi : i < n.entries.length
  · have hc := hclean (n.entries[i]).1 (List.mem_map.2 ⟨_, List.getElem_mem hi, rfl⟩)
    simp [hi, valueXml_name, xmlKey, cstr_clean hc]
  · have hi' : n.entries.length ≤ i := by omega
    simp [hi']

theorem back_got (g : Got Node) (g' : Got Xml) (h : XmlGot rt tv ops q g g') : Back xmlConfig ops false g g' := by
  cases g with
  | empty =>
    obtain ⟨x, rfl, hx⟩ := h
    exact .nothing x (by simp [xmlConfig, hx])
  | scalar s =>
    obtain ⟨rfl, h1, h2⟩ := h
    refine .scalar s _ ?_
    cases s with
    | int n => exact reads_int ops n h1
    | real r => exact reads_real ops _ r h1
    | bool b => exact reads_bool ops b
    | str s => simp only [scalarXml, cstr_clean (h2 s rfl)]; exact reads_str ops s
  | conf n =>
    obtain ⟨x, rfl, hx⟩ := h
    exact back_xml rt tv ops q hq n x hx

end

theorem root_rel {rt : Nat → Str} {tv : Bool} {ops : ScalarText.Real Nat} {q : Kind → List Str → Prop} {root : Str} {n : Node} (hn : Config.Ok (some n)) (he : NodeEach (XmlScalar ops rt) q n) :
    XmlRel rt tv ops q n (toXml rt tv root (some n)) := by
  refine ⟨hn, he, ?_⟩
  simp only [toXml, valueXml, Xml.kids, entriesXml_eq]

/-! ## C62 -/

/-- A config written as XML and read back: every entry of the original that is reached by names and indices is found with the same index and the same value; objects have the same keys, also equal ones, in the
same order. -/
theorem C62_round_trip_partial (ops : ScalarText.Real Nat) (realText : Nat → Str) (parse : Str → XmlDoc) (print : Xml → Str) (textValue : Bool) (root : Str) (n : Node) (hn : Config.Ok (some n))
    (he : Value.Each (XmlScalar ops realText) CleanKeys (.conf n.kind n.entries))
    (hlib : parse (print (toXml realText textValue root (some n))) = .root (some (toXml realText textValue root (some n)))) :
    ∃ x, readXml parse (writeXml realText print textValue root (some n)) = some (some x) ∧ Back xmlConfig ops false (.conf n) (.conf x) ∧
      ∀ steps i g, follow manual n steps = some (i, g) → ∃ g', follow xmlConfig x steps = some (i, g') ∧ Back xmlConfig ops false g g' := by
  have hq : ∀ k ks, CleanKeys k ks → ∀ x ∈ ks, Clean x := fun k ks h => h
  refine ⟨toXml realText textValue root (some n), by simp only [readXml, writeXml, hlib], back_xml realText textValue ops CleanKeys hq n _ (root_rel hn he), fun steps i g hf => ?_⟩
  obtain ⟨g', h1, h2⟩ := follow_rel manual xmlConfig (XmlRel realText textValue ops CleanKeys) (XmlGot realText textValue ops CleanKeys) (fun a g h => h)
    (fun a b s i g hr he => enter_xml realText textValue ops CleanKeys hq a b s i g hr he) n _ (root_rel hn he) steps i g hf
  exact ⟨g', h1, back_got realText textValue ops CleanKeys hq g g' h2⟩

/-- Nothing else is found if there are no arrays. -/
theorem C62_objects (ops : ScalarText.Real Nat) (realText : Nat → Str) (parse : Str → XmlDoc) (print : Xml → Str) (textValue : Bool) (root : Str) (n : Node) (hn : Config.Ok (some n))
    (he : Value.Each (XmlScalar ops realText) CleanObjects (.conf n.kind n.entries))
    (hlib : parse (print (toXml realText textValue root (some n))) = .root (some (toXml realText textValue root (some n)))) :
    ∃ x, readXml parse (writeXml realText print textValue root (some n)) = some (some x) ∧
      ∀ steps, match follow manual n steps, follow xmlConfig x steps with
        | none, none => True
        | some (i, g), some (j, g') => i = j ∧ Back xmlConfig ops false g g'
        | _, _ => False := by
  have hq : ∀ k ks, CleanObjects k ks → ∀ x ∈ ks, Clean x := fun k ks h => h.2
  refine ⟨toXml realText textValue root (some n), by simp only [readXml, writeXml, hlib], fun steps => ?_⟩
  cases hf : follow manual n steps with
  | some x =>
    obtain ⟨i, g⟩ := x
    obtain ⟨g', h1, h2⟩ := follow_rel manual xmlConfig (XmlRel realText textValue ops CleanObjects) (XmlGot realText textValue ops CleanObjects) (fun a g h => h)
      (fun a b s i g hr he => enter_xml realText textValue ops CleanObjects hq a b s i g hr he) n _ (root_rel hn he) steps i g hf
    rw [h1]
    exact ⟨rfl, back_got realText textValue ops CleanObjects hq g g' h2⟩
  | none =>
    have := follow_rel_none manual xmlConfig (XmlRel realText textValue ops CleanObjects) (XmlGot realText textValue ops CleanObjects) (fun a g h => h)
      (fun g b s hg hb => by
        have hk : b.kids = [] := by
          cases g with
          | conf a => exact absurd rfl (hg a)
          | empty => obtain ⟨x, hx, h⟩ := hb; simp only [Got.conf.injEq] at hx; subst hx; exact h
          | scalar c => simp [XmlGot] at hb
        cases s <;> simp [enter, xmlConfig, hk, kidAt])
      (fun a b s i g hr he => enter_xml realText textValue ops CleanObjects hq a b s i g hr he)
      (fun a b s hr he => by
        obtain ⟨h1, h2, h3⟩ := hr
        simp only [NodeEach, Value.Each] at h2
        have ha : a.kind.assoc = true := h2.1.1
        cases s with
        | name t =>
          simp only [enter, manual, findKey_first h1.1 ha, Option.map_eq_none_iff] at he
          simp only [enter, xmlConfig, h3, ha, kidAt_map realText textValue a.entries t 0 h2.1.2, he, Option.map_none]
        | index j =>
          simp only [enter, manual, Node.findIndex, Option.map_eq_none_iff] at he
          simp only [enter, xmlConfig, h3, List.getElem?_map, he, Option.map_none]) n (toXml realText textValue root (some n)) (root_rel hn he) steps hf
    rw [this]
    trivial

/-- non-vacuity: equal keys -/
def sampleXml : Node := ⟨.multimap, [(['a'], .scalar (.int 1)), (['a'], .conf .ordered [(['x'], .scalar (.str ['s'])), (['e'], .conf .map [])])]⟩

example (ops : ScalarText.Real Nat) (rt : Nat → Str) : Config.Ok (some sampleXml) ∧ Value.Each (XmlScalar ops rt) CleanObjects (.conf sampleXml.kind sampleXml.entries) := by
  simp [Config.Ok, sampleXml, Node.Ok, KeysOk, keysOf, Value.Ok, entriesOk, Value.Each, entriesEach, CleanObjects, Clean, XmlScalar, Storable, ScalarText.Int64, Kind.assoc, strLt]

/-- An array is read back as an object with entries `i`. -/
theorem C62_array_violated (realText : Nat → Str) (textValue : Bool) : ∃ n, Config.Ok (some n) ∧ manual.assoc n = false ∧ xmlConfig.assoc (toXml realText textValue [] (some n)) = true ∧
    enter manual n (.name ['i']) = none ∧ (enter xmlConfig (toXml realText textValue [] (some n)) (.name ['i'])).isSome = true := by
  refine ⟨⟨.array, [([], .scalar (.bool true))]⟩, ?_, rfl, rfl, rfl, ?_⟩
  · simp [Config.Ok, Node.Ok, KeysOk, keysOf, Value.Ok]
  · cases textValue <;> simp [toXml, valueXml, entriesXml, xmlKey, Kind.assoc, enter, xmlConfig, Xml.kids, kidAt, Xml.name]

/-- A string with a zero byte is cut. -/
theorem C62_zero_violated (realText : Nat → Str) (textValue : Bool) : ∃ n, Config.Ok (some n) ∧ (manual.byKey n ['a']).map (·.2) = some (.scalar (.str ['x', Char.ofNat 0, 'y'])) ∧
    (xmlConfig.byKey (toXml realText textValue [] (some n)) ['a']).map (·.2) = some (.scalar (.str ['x'])) := by
  refine ⟨⟨.map, [(['a'], .scalar (.str ['x', Char.ofNat 0, 'y']))]⟩, ?_, rfl, ?_⟩
  · simp [Config.Ok, Node.Ok, KeysOk, keysOf, Value.Ok]
  · have h1 : cstr ['x', Char.ofNat 0, 'y'] = ['x'] := by decide
    have h2 : cstr ['a'] = ['a'] := by decide
    cases textValue <;> simp [toXml, valueXml, entriesXml, xmlKey, Kind.assoc, xmlConfig, Xml.kids, kidAt, Xml.name, Xml.got, Xml.value, Xml.text, scalarXml, h1, h2]

/-- A document without a root element gives a config that is not null, and looking up a name in it has undefined behaviour. -/
theorem C62_root_violated (parse : Str → XmlDoc) (text : Str) (h : parse text = .root none) : ∃ c, readXml parse text = some c ∧ ∀ key, xmlFind c key = .ub := by
  exact ⟨none, by simp only [readXml, h], fun _ => rfl⟩

/-- Otherwise it has none. -/
theorem C62_lookup_defined (x : Xml) (key : Str) : ∃ r, xmlFind (some x) key = .ok r ∧ ∀ i g, r = some (i, g) ↔ ∃ a k b, x.kids = a ++ k :: b ∧ a.length = i ∧ k.name = key ∧ k.got = g ∧ ∀ y ∈ a, y.name ≠ key := by
  refine ⟨_, rfl, fun i g => ?_⟩
  show kidAt x.kids key 0 = _ ↔ _
  have gen : ∀ (ks : List Xml) (n : Nat), kidAt ks key n = some (i, g) ↔ ∃ a k b, ks = a ++ k :: b ∧ n + a.length = i ∧ k.name = key ∧ k.got = g ∧ ∀ y ∈ a, y.name ≠ key := by
    intro ks
    induction ks with
    | nil => intro n; simp [kidAt]
    | cons z ks ih =>
      intro n
      simp only [kidAt]
      by_cases hz : z.name = key
      · rw [if_pos hz]
        constructor
        · intro h
          simp only [Option.some.injEq, Prod.mk.injEq] at h
          exact ⟨[], z, ks, rfl, by simpa using h.1, hz, h.2, by simp⟩
        · rintro ⟨a, k, b, h1, h2, h3, h4, h5⟩
          cases a with
          | nil =>
            simp only [List.nil_append, List.cons.injEq] at h1
            obtain ⟨rfl, rfl⟩ := h1
            simp only [List.length_nil, Nat.add_zero] at h2
            rw [h2, h4]
          | cons y a =>
            simp only [List.cons_append, List.cons.injEq] at h1
            exact absurd (h1.1 ▸ hz) (h5 y (by simp))
      · rw [if_neg hz, ih]
        constructor
        · rintro ⟨a, k, b, h1, h2, h3, h4, h5⟩
          refine ⟨z :: a, k, b, by simp [h1], by simp; omega, h3, h4, ?_⟩
          intro y hy
          rcases List.mem_cons.1 hy with rfl | hy
          · exact hz
          · exact h5 y hy
        · rintro ⟨a, k, b, h1, h2, h3, h4, h5⟩
          cases a with
          | nil =>
            simp only [List.nil_append, List.cons.injEq] at h1
            exact absurd (h1.1 ▸ h3) hz
          | cons y a =>
            simp only [List.cons_append, List.cons.injEq] at h1
            simp only [List.length_cons] at h2
            exact ⟨a, k, b, h1.2, by omega, h3, h4, fun w hw => h5 w (by simp [hw])⟩
  rw [gen x.kids 0]
  simp

end Verif.Config
