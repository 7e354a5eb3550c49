import Verif.Model.ConfigProps
import Verif.Lemmas.Config
import Verif.Props.C58_Ini
import Verif.Props.C72_Cmd

/-!
# C94: what a config says about itself is true of its entries
-/
set_option autoImplicit false

namespace Verif.Config

/-! ## Specification -/

/-- What `size`, `has_property`, access by index and access by name of one config say agrees: -/
structure Truthful {V : Type} (s : Shown V) : Prop where
  /-- the valid indices are those below the size; -/
  size : ∀ i, (s.byIndex i).isSome = true ↔ i < s.size
  /-- what is found under a name is the entry at the index that is told, it has this name, and no entry before has it; -/
  found : ∀ key i v, s.byKey key = some (i, v) → s.byIndex i = some (key, v) ∧ ∀ j, j < i → ∀ w, s.byIndex j ≠ some (key, w)
  /-- if the config is associative, every entry has a name that can be looked up; -/
  named : s.isAssociative = true → ∀ i key v, s.byIndex i = some (key, v) → (s.byKey key).isSome = true
  /-- if it is not, no name is found, and entries have no names; -/
  unnamed : s.isAssociative = false → (∀ key, s.byKey key = none) ∧ ∀ i key v, s.byIndex i = some (key, v) → key = []
  /-- if it is associative but not multi-associative, no two entries have the same name; -/
  single : s.isAssociative = true → s.isMulti = false → ∀ i j key v w, s.byIndex i = some (key, v) → s.byIndex j = some (key, w) → i = j
  /-- a multi-associative config is associative. -/
  multi : s.isMulti = true → s.isAssociative = true

/-! ## Configs as lists -/

/-- the first entry of a list with a name -/
def firstNamed {V : Type} : List (Str × V) → Str → Option (Nat × V)
  | [], _ => none
  | (k, x) :: r, key => if k = key then some (0, x) else (firstNamed r key).map (fun e => (e.1 + 1, e.2))

theorem firstNamed_some {V : Type} : ∀ {l : List (Str × V)} {key : Str} {i : Nat} {v : V}, firstNamed l key = some (i, v) →
    l[i]? = some (key, v) ∧ ∀ j, j < i → ∀ w, l[j]? ≠ some (key, w)
  | [], key, i, v, h => by simp [firstNamed] at h
  | (k, x) :: r, key, i, v, h => by
    simp only [firstNamed] at h
    by_cases hk : k = key
    · rw [if_pos hk] at h
      simp only [Option.some.injEq, Prod.mk.injEq] at h
      obtain ⟨rfl, rfl⟩ := h
      subst hk
      exact ⟨rfl, fun j hj => absurd hj (Nat.not_lt_zero j)⟩
    · rw [if_neg hk] at h
      cases e : firstNamed r key with
      | none => rw [e] at h; simp at h
      | some p =>
        obtain ⟨m, y⟩ := p
        rw [e] at h
        simp only [Option.map_some, Option.some.injEq, Prod.mk.injEq] at h
        obtain ⟨rfl, rfl⟩ := h
        obtain ⟨h1, h2⟩ := firstNamed_some e
        refine ⟨by simpa using h1, fun j hj w => ?_⟩
        cases j with
        | zero => simp [hk]
        | succ j => simpa using h2 j (by omega) w

theorem firstNamed_of {V : Type} : ∀ {l : List (Str × V)} {key : Str} {i : Nat} {v : V}, l[i]? = some (key, v) → (firstNamed l key).isSome = true
  | [], key, i, v, h => by simp at h
  | (k, x) :: r, key, i, v, h => by
    simp only [firstNamed]
    by_cases hk : k = key
    · rw [if_pos hk]; rfl
    · rw [if_neg hk]
      cases i with
      | zero => simp at h; exact absurd h.1 hk
      | succ i => simpa using firstNamed_of (by simpa using h)

theorem firstNamed_map {V W : Type} (f : V → W) : ∀ (l : List (Str × V)) (key : Str), firstNamed (l.map (fun e => (e.1, f e.2))) key = (firstNamed l key).map (fun e => (e.1, f e.2))
  | [], _ => rfl
  | (k, x) :: r, key => by
    simp only [List.map_cons, firstNamed, firstNamed_map f r key]
    split
    · rfl
    · simp [Option.map_map, Function.comp_def]

theorem firstNamed_append {V : Type} : ∀ (l m : List (Str × V)) (key : Str), firstNamed (l ++ m) key =
    match firstNamed l key with | some e => some e | none => (firstNamed m key).map (fun e => (l.length + e.1, e.2))
  | [], m, key => by simp [firstNamed]
  | (k, x) :: r, m, key => by
    simp only [List.cons_append, firstNamed, firstNamed_append r m key]
    split
    · rfl
    · cases firstNamed r key with
      | some e => rfl
      | none =>
        simp only [Option.map_map, Function.comp_def, Option.map_none, List.length_cons]
        congr 1
        funext e
        congr 1
        omega

/-- an associative config whose entries are a list -/
theorem truthful_list {V : Type} {s : Shown V} (l : List (Str × V)) (hs : s.size = l.length) (hi : ∀ i, s.byIndex i = l[i]?) (hk : ∀ key, s.byKey key = firstNamed l key)
    (ha : s.isAssociative = true) (hm : s.isMulti = false → (l.map (·.1)).Nodup) : Truthful s where
  size i := by rw [hi, hs]; simp
  found key i v h := by
    rw [hk] at h
    simp only [hi]
    exact firstNamed_some h
  named _ i key v h := by
    rw [hi] at h
    rw [hk]
    exact firstNamed_of h
  unnamed h := by rw [ha] at h; cases h
  single _ h i j key v w h1 h2 := by
    rw [hi] at h1 h2
    have hn := hm h
    obtain ⟨hl1, e1⟩ := List.getElem?_eq_some_iff.1 h1
    obtain ⟨hl2, e2⟩ := List.getElem?_eq_some_iff.1 h2
    have hp := List.pairwise_iff_getElem.1 hn
    rcases Nat.lt_trichotomy i j with h | h | h
    · exact (hp i j (by simpa using hl1) (by simpa using hl2) h (by rw [List.getElem_map, List.getElem_map, e1, e2])).elim
    · exact h
    · exact (hp j i (by simpa using hl2) (by simpa using hl1) h (by rw [List.getElem_map, List.getElem_map, e1, e2])).elim
  multi _ := ha

/-- a config without names whose entries are a list -/
theorem truthful_array {V : Type} {s : Shown V} (l : List V) (hs : s.size = l.length) (hi : ∀ i, s.byIndex i = (l[i]?).map (fun v => ([], v))) (hk : ∀ key, s.byKey key = none)
    (ha : s.isAssociative = false) (hm : s.isMulti = false) : Truthful s where
  size i := by rw [hi, hs]; simp
  found key i v h := by rw [hk] at h; cases h
  named h := by rw [ha] at h; cases h
  unnamed _ := ⟨hk, fun i key v h => by
    rw [hi] at h
    cases e : l[i]? with
    | none => rw [e] at h; cases h
    | some x => rw [e] at h; simp only [Option.map_some, Option.some.injEq, Prod.mk.injEq] at h; exact h.1.symm⟩
  single h := by rw [ha] at h; cases h
  multi h := by rw [hm] at h; cases h

/-! ## The backends -/

/-- **C94**, a null config has no property and no entry. -/
theorem C94_null (V : Type) : Truthful (Shown.config (none : Option (Shown V))) :=
  truthful_array [] rfl (fun _ => rfl) (fun _ => rfl) rfl rfl

theorem firstNamed_first : ∀ (es : Entries) (key : Str), firstNamed es key = (first es key).map (fun v => (firstIndex es key, v))
  | [], _ => rfl
  | (k, v) :: r, key => by
    simp only [firstNamed, first, firstIndex, firstNamed_first r key]
    split
    · rfl
    · simp [Option.map_map, Function.comp_def]

theorem nodup_of_sorted {ks : List Str} (h : ks.Pairwise (fun a b => strLt a b = true)) : ks.Nodup := List.Pairwise.imp (fun h => strLt_ne h) h

/-- **C94** for configs made in the program: every node of a config that builders can make (`Node.Ok`, kept by every operation: `C51_ok`). -/
theorem C94_manual (n : Node) (h : n.Ok) : Truthful n.shown := by
  obtain ⟨k, es⟩ := n
  have key : k.assoc = true → ∀ key, (Node.shown ⟨k, es⟩).byKey key = firstNamed (es.map (fun e => (e.1, e.2.got))) key := by
    intro ha key
    rw [firstNamed_map, firstNamed_first]
    show (Node.findKey ⟨k, es⟩ key).map _ = _
    rw [findKey_eq h ha]
    simp only
    cases first es key <;> rfl
  have idx : ∀ i, (Node.shown ⟨k, es⟩).byIndex i = (es.map (fun e => (e.1, e.2.got)))[i]? := by
    intro i
    show (es[i]?).map _ = _
    rw [List.getElem?_map]
  have names : (es.map (fun e => (e.1, e.2.got))).map (·.1) = keysOf es := by simp [keysOf, Function.comp_def]
  cases k with
  | map => exact truthful_list _ (by simp [Node.shown, manual, Node.size]) idx (key rfl) rfl (fun _ => by rw [names]; exact nodup_of_sorted h)
  | multimap => exact truthful_list _ (by simp [Node.shown, manual, Node.size]) idx (key rfl) rfl (fun h => by cases h)
  | ordered => exact truthful_list _ (by simp [Node.shown, manual, Node.size]) idx (key rfl) rfl (fun _ => by rw [names]; exact h)
  | array =>
    refine truthful_array (es.map (fun e => e.2.got)) (by simp [Node.shown, manual, Node.size]) (fun i => ?_) (fun _ => rfl) rfl rfl
    rw [idx, List.getElem?_map, List.getElem?_map]
    cases e : es[i]? with
    | none => rfl
    | some p =>
      have : p.1 = [] := h p.1 (List.mem_map.2 ⟨p, List.mem_of_getElem? e, rfl⟩)
      simp [this]

theorem memberAt_eq : ∀ (ms : Members) (key : Str), memberAt ms key = firstNamed ms key
  | [], _ => rfl
  | (k, x) :: r, key => by simp only [memberAt, firstNamed, memberAt_eq r key]

/-- **C94** for json: objects of the library have no two members with the same name. -/
theorem C94_json (ord : Bool) (j : Json) (h : ∀ ms, j = .obj ms → (ms.map (·.1)).Nodup) : Truthful (j.shown ord) := by
  have prim : ∀ j : Json, j.size = 1 → j.isObj = false → (∀ i, j.findIndex i = if i < 1 then some ([], j.got) else none) → (∀ key, j.findKey key = none) → Truthful (j.shown ord) := by
    intro j h1 h2 h3 h4
    refine truthful_array [j.got] h1 (fun i => ?_) h4 h2 rfl
    show j.findIndex i = _
    rw [h3]
    cases i with
    | zero => rfl
    | succ i => simp
  cases j with
  | null => exact truthful_array [] rfl (fun _ => rfl) (fun _ => rfl) rfl rfl
  | bool b => exact prim _ rfl rfl (fun _ => rfl) (fun _ => rfl)
  | int n => exact prim _ rfl rfl (fun _ => rfl) (fun _ => rfl)
  | uint n => exact prim _ rfl rfl (fun _ => rfl) (fun _ => rfl)
  | real r => exact prim _ rfl rfl (fun _ => rfl) (fun _ => rfl)
  | str s => exact prim _ rfl rfl (fun _ => rfl) (fun _ => rfl)
  | arr xs =>
    refine truthful_array (xs.map Json.got) (by simp [Json.shown, jsonConfig, Json.size]) (fun i => ?_) (fun _ => rfl) rfl rfl
    rw [List.getElem?_map, Option.map_map]; rfl
  | obj ms =>
    refine truthful_list (ms.map (fun e => (e.1, e.2.got))) (by simp [Json.shown, jsonConfig, Json.size]) (fun i => ?_) (fun key => ?_) rfl (fun _ => ?_)
    · rw [List.getElem?_map]; rfl
    · rw [firstNamed_map, ← memberAt_eq]; rfl
    · rw [List.map_map]; exact h ms rfl

theorem pairAt_eq : ∀ (ms : List (Str × Yaml)) (key : Str), pairAt ms key = firstNamed ms key
  | [], _ => rfl
  | (k, x) :: r, key => by simp only [pairAt, firstNamed, pairAt_eq r key]

/-- **C94** for yaml, if no two pairs of the map have the same key. -/
theorem C94_yaml_partial (y : Yaml) (h : ∀ ms, y = .map ms → (ms.map (·.1)).Nodup) : Truthful y.shown := by
  cases y with
  | null => exact truthful_array [] rfl (fun _ => rfl) (fun _ => rfl) rfl rfl
  | scalar s => exact truthful_array [] rfl (fun _ => rfl) (fun _ => rfl) rfl rfl
  | seq xs =>
    refine truthful_array (xs.map Yaml.got) (by simp [Yaml.shown, yamlConfig, Yaml.size]) (fun i => ?_) (fun _ => rfl) rfl rfl
    rw [List.getElem?_map, Option.map_map]; rfl
  | map ms =>
    refine truthful_list (ms.map (fun e => (e.1, e.2.got))) (by simp [Yaml.shown, yamlConfig, Yaml.size]) (fun i => ?_) (fun key => ?_) rfl (fun _ => ?_)
    · rw [List.getElem?_map]; rfl
    · rw [firstNamed_map, ← pairAt_eq]; rfl
    · rw [List.map_map]; exact h ms rfl

/-- the full statement for yaml -/
def YamlTruthful : Prop := ∀ y : Yaml, Truthful y.shown

/-- yaml-cpp keeps all the pairs of a map in a document, also if keys are equal, and the config says that it is not multi-associative. -/
theorem C94_yaml_violated : ¬ YamlTruthful := fun h =>
  absurd ((h (.map [(['a'], .scalar ['1']), (['a'], .scalar ['2'])])).single rfl rfl 0 1 ['a'] (.scalar (.str ['1'])) (.scalar (.str ['2'])) rfl rfl) (by decide)

theorem kidAt_eq : ∀ (xs : List Xml) (key : Str) (i : Nat), kidAt xs key i = (firstNamed (xs.map (fun k => (k.name, k.got))) key).map (fun e => (i + e.1, e.2))
  | [], _, _ => rfl
  | x :: r, key, i => by
    simp only [kidAt, List.map_cons, firstNamed, kidAt_eq r key (i + 1)]
    split
    · rfl
    · rw [Option.map_map]
      congr 1
      funext e
      simp only [Function.comp_def]
      congr 1
      omega

/-- **C94** for xml. -/
theorem C94_xml (x : Xml) : Truthful x.shown := by
  refine truthful_list (x.kids.map (fun k => (k.name, k.got))) (by simp [Xml.shown, xmlConfig]) (fun i => ?_) (fun key => ?_) rfl (fun h => by cases h)
  · rw [List.getElem?_map]; rfl
  · show kidAt x.kids key 0 = _
    rw [kidAt_eq]
    simp

theorem position_eq {α : Type} (key : Str) : ∀ l : List (Str × α), Ini.position key l = firstNamed l key
  | [] => rfl
  | (k, x) :: r => by simp only [Ini.position, firstNamed, position_eq key r]

/-- **C94** for ini: the root config, and those of sections. -/
theorem C94_ini (c : Ini.Cfg) : Truthful (iniShown c) := by
  refine truthful_list c.items (by rw [← List.length_map (f := fun e : Str × Ini.Item => e.1), ← Ini.keys_eq, ← Ini.size_keys]; rfl) (fun i => Ini.findIndex_eq c i) (fun key => ?_) rfl (fun h => by cases h)
  obtain ⟨p, values, g⟩ := c
  show Ini.Cfg.findKey _ key = _
  unfold Ini.Cfg.findKey Ini.Cfg.items
  simp only [position_eq, firstNamed_append, firstNamed_map]
  cases g with
  | true =>
    simp only [if_true, firstNamed_map, List.length_map]
    cases firstNamed p.sections key with
    | some e => rfl
    | none => cases firstNamed values key <;> rfl
  | false =>
    simp only [Bool.false_eq_true, if_false, firstNamed, List.length_nil]
    cases firstNamed values key <;> rfl

theorem findKey_cmd {R : Type} : ∀ (c : Cmd.Cfg R) (key : Str), Cmd.findKey c key = firstNamed c key
  | [], _ => rfl
  | (k, x) :: r, key => by simp only [Cmd.findKey, firstNamed, findKey_cmd r key]

/-- **C94** for the command line: every config that `parse` gives. -/
theorem C94_cmd {R : Type} {T : Cmd.Tclap R} {specs : List (Cmd.Spec R)} {h h' : Cmd.Handle R} {words : List Str} {c : Cmd.Cfg R}
    (hb : Cmd.build .new specs = .ok h) (hp : h.parse T words = .ok (h', c)) : Truthful (cmdShown c) := by
  obtain ⟨b, vals, _, g, _, rfl, _⟩ := Cmd.parsed hb hp
  refine truthful_list _ rfl (fun i => ?_) (fun key => findKey_cmd _ key) rfl (fun _ => nodup_of_sorted (Cmd.sorted_prune g.sorted vals))
  show Cmd.findIndex _ i = _
  unfold Cmd.findIndex
  split
  · rfl
  · rename_i h
    exact (List.getElem?_eq_none (by omega)).symm

/-! ## Order -/

/-- `ms[key] = v` of the library: a new member if there is none with the name; its value is overwritten -/
def setMember (ord : Bool) (ms : Members) (key : Str) (v : Json) : Members := (emplace ord ms key .null).map (fun m => if m.1 = key then (key, v) else m)

/-- the members of an object that is read: the parser of the library sets the members of the document one by one -/
def readMembers (ord : Bool) (doc : Members) : Members := doc.foldl (fun ms e => setMember ord ms e.1 e.2) []

theorem setMember_names (ord : Bool) (ms : Members) (key : Str) (v : Json) : (setMember ord ms key v).map (·.1) = (emplace ord ms key .null).map (·.1) := by
  unfold setMember
  rw [List.map_map]
  apply List.map_congr_left
  intro m _
  simp only [Function.comp_def]
  split
  · rename_i h; exact h.symm
  · rfl

theorem vecEmplace_new : ∀ (ms : Members) (key : Str) (v : Json), key ∉ ms.map (·.1) → vecEmplace ms key v = ms ++ [(key, v)]
  | [], _, _, _ => rfl
  | (k, x) :: r, key, v, h => by
    simp only [List.map_cons, List.mem_cons, not_or] at h
    have : ¬ k = key := fun e => h.1 e.symm
    simp only [vecEmplace, if_neg this, List.cons_append, vecEmplace_new r key v h.2]

theorem vecEmplace_old : ∀ (ms : Members) (key : Str) (v : Json), key ∈ ms.map (·.1) → vecEmplace ms key v = ms
  | [], _, _, h => by simp at h
  | (k, x) :: r, key, v, h => by
    simp only [vecEmplace]
    split
    · rfl
    · rename_i hk
      rw [vecEmplace_old r key v]
      simp only [List.map_cons, List.mem_cons] at h
      exact h.resolve_left (fun e => hk e.symm)

theorem mem_mapEmplace : ∀ (ms : Members) (key : Str) (v : Json) (k : Str), k ∈ (mapEmplace ms key v).map (·.1) → k = key ∨ k ∈ ms.map (·.1)
  | [], _, _, _, h => by simpa [mapEmplace] using h
  | (a, x) :: r, key, v, k, h => by
    simp only [mapEmplace] at h
    split at h
    · simp only [List.map_cons, List.mem_cons] at h ⊢
      rcases h with h | h
      · exact Or.inr (Or.inl h)
      · rcases mem_mapEmplace r key v k h with h | h
        · exact Or.inl h
        · exact Or.inr (Or.inr h)
    · split at h
      · simp only [List.map_cons, List.mem_cons] at h ⊢
        exact h
      · exact Or.inr h

theorem mapEmplace_sorted : ∀ (ms : Members) (key : Str) (v : Json), (ms.map (·.1)).Pairwise (fun a b => strLt a b = true) →
    ((mapEmplace ms key v).map (·.1)).Pairwise (fun a b => strLt a b = true)
  | [], _, _, _ => by simp [mapEmplace]
  | (a, x) :: r, key, v, h => by
    rw [List.map_cons, List.pairwise_cons] at h
    simp only [mapEmplace]
    split
    · rename_i hl
      rw [List.map_cons, List.pairwise_cons]
      refine ⟨fun b hb => ?_, mapEmplace_sorted r key v h.2⟩
      rcases mem_mapEmplace r key v b hb with rfl | hb
      · exact hl
      · exact h.1 b hb
    · split
      · rename_i hl
        rw [List.map_cons, List.map_cons, List.pairwise_cons, List.pairwise_cons]
        refine ⟨fun b hb => ?_, h.1, h.2⟩
        rcases List.mem_cons.1 hb with rfl | hb
        · exact hl
        · exact strLt_trans hl (h.1 b hb)
      · rw [List.map_cons, List.pairwise_cons]
        exact h

/-- **C94** for json that was read: whatever members the document has, names are unique; so `C94_json` applies to it. -/
theorem C94_json_read (ord : Bool) (doc : Members) : ((readMembers ord doc).map (·.1)).Nodup := by
  cases ord with
  | false =>
    have : ∀ (doc ms : Members), (ms.map (·.1)).Pairwise (fun a b => strLt a b = true) → ((doc.foldl (fun ms e => setMember false ms e.1 e.2) ms).map (·.1)).Pairwise (fun a b => strLt a b = true) := by
      intro doc
      induction doc with
      | nil => exact fun _ h => h
      | cons e doc ih => exact fun ms h => ih _ (by rw [setMember_names]; exact mapEmplace_sorted ms e.1 .null h)
    exact nodup_of_sorted (this doc [] List.Pairwise.nil)
  | true =>
    have : ∀ (doc ms : Members), (ms.map (·.1)).Nodup → ((doc.foldl (fun ms e => setMember true ms e.1 e.2) ms).map (·.1)).Nodup := by
      intro doc
      induction doc with
      | nil => exact fun _ h => h
      | cons e doc ih =>
        refine fun ms h => ih _ ?_
        rw [setMember_names]
        show ((vecEmplace ms e.1 .null).map (·.1)).Nodup
        by_cases hm : e.1 ∈ ms.map (·.1)
        · rw [vecEmplace_old ms _ _ hm]; exact h
        · rw [vecEmplace_new ms _ _ hm, List.map_append, List.nodup_append]
          refine ⟨h, by simp, fun a ha b hb => ?_⟩
          simp only [List.map_cons, List.map_nil, List.mem_singleton] at hb
          subst hb
          exact fun e => hm (e ▸ ha)
    exact this doc [] List.nodup_nil

/-- **C94**, a json object that was read says that it keeps the order just if documents (without repeated names) are always listed in their order. -/
theorem C94_json_order (ord : Bool) (ms : Members) :
    ((Json.obj ms).shown ord).isOrdered = true ↔ ∀ doc : Members, (doc.map (·.1)).Nodup → readMembers ord doc = doc := by
  cases ord with
  | false =>
    refine ⟨fun h => by simp [Shown.isOrdered, Json.shown, Json.has, Json.isArr, Property.associative, Property.keepsOrder] at h, fun h => ?_⟩
    have := h [(['b'], .null), (['a'], .null)] (by decide)
    have h2 : readMembers false [(['b'], .null), (['a'], .null)] = [(['a'], .null), (['b'], .null)] := rfl
    rw [h2] at this
    simp only [List.cons.injEq, Prod.mk.injEq] at this
    exact absurd this.1.1 (by decide)
  | true =>
    refine ⟨fun _ => ?_, fun _ => rfl⟩
    have : ∀ (doc ms : Members), ((ms ++ doc).map (·.1)).Nodup → doc.foldl (fun ms e => setMember true ms e.1 e.2) ms = ms ++ doc := by
      intro doc
      induction doc with
      | nil => intro ms _; simp
      | cons e doc ih =>
        intro ms h
        have hn : e.1 ∉ ms.map (·.1) := by
          rw [List.map_append, List.map_cons, List.nodup_append] at h
          exact fun hm => h.2.2 e.1 hm e.1 (by simp) rfl
        rw [List.foldl_cons]
        have hs : setMember true ms e.1 e.2 = ms ++ [e] := by
          show (vecEmplace ms e.1 .null).map _ = _
          rw [vecEmplace_new ms _ _ hn, List.map_append]
          congr 1
          · refine (List.map_congr_left (g := id) fun m hm => ?_).trans (List.map_id ms)
            have : ¬ m.1 = e.1 := fun h => hn (h ▸ List.mem_map.2 ⟨m, hm, rfl⟩)
            simp [this]
          · simp
        rw [hs, ih (ms ++ [e]) (by simpa using h)]
        simp
    exact fun doc h => this doc [] (by simpa using h)

/-! ## Properties together -/

/-- the properties that have a name -/
def Named (p : Property) : Prop := p = .associative ∨ p = .multiAssociative ∨ p = .keepsOrder

/-- the answers that configs of the repository give -/
inductive Answers : (Property → Bool) → Prop
  | null : Answers (Shown.config (none : Option (Shown Unit))).has
  | manual (n : Node) : Answers n.shown.has
  | json (ord : Bool) (j : Json) : Answers (j.shown ord).has
  | yaml (y : Yaml) : Answers y.shown.has
  | xml (x : Xml) : Answers x.shown.has
  | ini (c : Ini.Cfg) : Answers (iniShown c).has
  | cmd (R : Type) (c : Cmd.Cfg R) : Answers (cmdShown c).has

theorem answers_shape {has : Property → Bool} (h : Answers has) : (has 3 = true → has 1 = true) ∧ has 5 = false ∧ has 7 = false := by
  cases h with
  | null => exact ⟨fun h => h, rfl, rfl⟩
  | manual n => obtain ⟨k, es⟩ := n; cases k <;> exact ⟨by intro h; first | rfl | (cases h; done), rfl, rfl⟩
  | json ord j => exact ⟨fun h => by simp [Json.shown, Json.has, Property.associative, Property.keepsOrder] at h, by simp [Json.shown, Json.has, Property.associative, Property.keepsOrder], by simp [Json.shown, Json.has, Property.associative, Property.keepsOrder]⟩
  | yaml y => exact ⟨fun h => by simp [Yaml.shown, Yaml.has, Property.associative, Property.keepsOrder] at h, by simp [Yaml.shown, Yaml.has, Property.associative, Property.keepsOrder], by simp [Yaml.shown, Yaml.has, Property.associative, Property.keepsOrder]⟩
  | xml x => exact ⟨fun _ => rfl, rfl, rfl⟩
  | ini c => exact ⟨fun _ => rfl, rfl, rfl⟩
  | cmd R c => exact ⟨fun _ => rfl, rfl, rfl⟩

/-- **C94**, for properties that are asked for together (`p | q`): a config that says yes has both of them; and if both are about names (or they are the same), a config that has both says yes.
What is missing: a config that has both says yes. -/
theorem C94_together_partial {has : Property → Bool} (h : Answers has) (p q : Property) (hp : Named p) (hq : Named q) :
    (has (Property.or p q) = true → has p = true ∧ has q = true) ∧
    (p ≠ .keepsOrder ∧ q ≠ .keepsOrder ∨ p = q → has p = true → has q = true → has (Property.or p q) = true) := by
  obtain ⟨h3, h5, h7⟩ := answers_shape h
  have ho : p ≠ .keepsOrder ∧ q ≠ .keepsOrder ∨ p = q → Property.or p q = p ∨ Property.or p q = q := by
    rcases hp with rfl | rfl | rfl <;> rcases hq with rfl | rfl | rfl <;> decide
  refine ⟨?_, fun hpq h1 h2 => by rcases ho hpq with ho | ho <;> rw [ho] <;> assumption⟩
  rcases hp with rfl | rfl | rfl <;> rcases hq with rfl | rfl | rfl <;> intro h
  · exact ⟨h, h⟩
  · exact ⟨h3 h, h⟩
  · exact absurd (h5.symm.trans h) (by decide)
  · exact ⟨h, h3 h⟩
  · exact ⟨h, h⟩
  · exact absurd (h7.symm.trans h) (by decide)
  · exact absurd (h5.symm.trans h) (by decide)
  · exact absurd (h7.symm.trans h) (by decide)
  · exact ⟨h, h⟩

/-- the full statement -/
def TogetherWorks : Prop := ∀ has, Answers has → ∀ p q, Named p → Named q → has p = true → has q = true → has (Property.or p q) = true

/-- An ordered object is associative and keeps the order, but says no to `associative | keeps_order`: every `do_has_property` is a `switch` over the single properties. -/
theorem C94_together_violated : ¬ TogetherWorks := fun h =>
  absurd (h _ (.manual ⟨.ordered, [(['a'], .null)]⟩) 1 4 (Or.inl rfl) (Or.inr (Or.inr rfl)) rfl rfl) (by decide)

/-- The same answers are used wherever the model looks at a property of a backend. -/
theorem C94_flags :
    (∀ n : Node, n.shown.isAssociative = manual.assoc n ∧ n.shown.isMulti = manual.multi n ∧ n.shown.isOrdered = manual.order n) ∧
    (∀ ord j, (Json.shown ord j).isAssociative = (jsonConfig ord).assoc j ∧ (Json.shown ord j).isMulti = (jsonConfig ord).multi j ∧ (Json.shown ord j).isOrdered = (jsonConfig ord).order j) ∧
    (∀ y : Yaml, y.shown.isAssociative = yamlConfig.assoc y ∧ y.shown.isMulti = yamlConfig.multi y ∧ y.shown.isOrdered = yamlConfig.order y) ∧
    (∀ x : Xml, x.shown.isAssociative = xmlConfig.assoc x ∧ x.shown.isMulti = xmlConfig.multi x ∧ x.shown.isOrdered = xmlConfig.order x) := by
  refine ⟨fun n => ?_, fun ord j => ⟨rfl, rfl, rfl⟩, fun y => ?_, fun x => ⟨rfl, rfl, rfl⟩⟩
  · obtain ⟨k, es⟩ := n; cases k <;> exact ⟨rfl, rfl, rfl⟩
  · cases y <;> exact ⟨rfl, rfl, rfl⟩

/-! ## Not vacuous -/

/-- a multimap with two entries of one name: the first is found, at its index -/
example : Truthful (Node.shown ⟨.multimap, [(['a'], .null), (['b'], .scalar (.int 1)), (['b'], .scalar (.int 2))]⟩) := C94_manual _ (by simp only [Node.Ok, KeysOk, keysOf]; decide)
example : (Node.shown ⟨.multimap, [(['a'], .null), (['b'], .scalar (.int 1)), (['b'], .scalar (.int 2))]⟩).byKey ['b'] = some (1, .scalar (.int 1)) := rfl
/-- a document with a repeated name: the last value, at the place of the first -/
example : Truthful (Json.shown true (.obj (readMembers true [(['b'], .int 1), (['a'], .int 2), (['b'], .int 3)]))) := C94_json _ _ (fun ms e => by cases e; exact C94_json_read true _)
example : readMembers true [(['b'], .int 1), (['a'], .int 2), (['b'], .int 3)] = [(['b'], .int 3), (['a'], .int 2)] := rfl
example : Truthful (Yaml.shown (.map [(['b'], .scalar ['1']), (['a'], .null)])) := C94_yaml_partial _ (fun ms e => by cases e; decide)
/-- a section and a value with the same name: the section is found -/
example : (iniShown (Ini.Parser.root ⟨[(['a'], ['1'])], [(['a'], [])]⟩)).byKey ['a'] = some (0, .section_ []) := rfl

end Verif.Config
