import Verif.Model.Cmd
import Verif.Lemmas.Config

/-!
# C72, C73: command line configs and the dispatcher

C72: the config of a parsed command line has exactly the arguments that were given or have a default, sorted by name, found by name and by index alike; each has the value given, or else its default. Arguments that are not
optional are always there. A wrong command line is reported by an exception, a value that cannot be read is an error, and a builder that has been used throws.

C73: the dispatcher calls the handler that was last registered for the first argument, once, with the config of the rest, and returns its result; if there is none it returns the error code, or throws if there is no stream.

* `C72_names`, `C72_index`, `C72_value`, `C72_required`, `C72_used_partial` are proved for all lists of arguments, all parsers and all command lines.
* `C72_used_violated`: `set_ostream` of a used builder dereferences null.
* `C72_unreadable_violated`: a value that cannot be read is silently no value, and the default is not used.
* `C72_exit_violated`: a wrong command line ends the program.
* `C73_dispatch_partial`, `C73_unknown`, `C73_state`: for every history of the dispatcher.
* `C73_again_violated`: dispatching an alternative a second time is undefined behaviour.
-/
set_option autoImplicit false

namespace Verif.Cmd

open Verif.Config (Str strLt strLt_irrefl strLt_trans strLt_total strLt_asymm strLt_ne)
open Verif.ScalarText (Ty Stored Real Out decodeInt)

variable {R : Type}

/-! ## Specification -/

/-- a builder after the calls of `integer`, `string`, … on it -/
def build : Handle R → List (Spec R) → Res (Handle R)
  | h, [] => .ok h
  | h, s :: ss =>
    match h.add s with
    | .ok h' => build h' ss
    | .throws => .throws
    | .ub => .ub
    | .exits c => .exits c

/-- the config of a command line in which `vals` were given -/
structure Describes (specs : List (Spec R)) (vals : Str → Option Str) (c : Cfg R) : Prop where
  /-- exactly the arguments given or with a default -/
  names : ∀ name, (findKey c name).isSome = true ↔ ∃ s ∈ specs, s.name = name ∧ (vals name ≠ none ∨ s.dflt.isSome = true)
  /-- each with its declaration and its text -/
  entry : ∀ name i e, findKey c name = some (i, e) → e.1 ∈ specs ∧ e.1.name = name ∧ e.2 = vals name

/-! ## Lemmas -/

def Sorted {α : Type} (m : List (Str × α)) : Prop := (m.map Prod.fst).Pairwise fun a b => strLt a b = true

theorem mem_assign {α : Type} {m : List (Str × α)} (hs : Sorted m) (key : Str) (v : α) (k : Str) (x : α) : (k, x) ∈ assign m key v ↔ (k = key ∧ x = v) ∨ (k ≠ key ∧ (k, x) ∈ m) := by
  induction m with
  | nil =>
    simp only [assign, List.mem_singleton, Prod.mk.injEq, List.not_mem_nil, and_false, or_false]
  | cons e m ih =>
    obtain ⟨k0, x0⟩ := e
    have hs' : (∀ a ∈ m.map Prod.fst, strLt k0 a = true) ∧ Sorted m := List.pairwise_cons.1 hs
    have ih := ih hs'.2
    simp only [assign]
    by_cases h1 : strLt k0 key = true
    · rw [if_pos h1, List.mem_cons, ih, List.mem_cons]
      have hne : k0 ≠ key := strLt_ne h1
      constructor
      · rintro (h | h | h)
        · cases h
          exact .inr ⟨hne, .inl rfl⟩
        · exact .inl h
        · exact .inr ⟨h.1, .inr h.2⟩
      · rintro (h | ⟨h, h' | h'⟩)
        · exact .inr (.inl h)
        · exact .inl h'
        · exact .inr (.inr ⟨h, h'⟩)
    · rw [if_neg h1]
      by_cases h2 : strLt key k0 = true
      · rw [if_pos h2, List.mem_cons]
        constructor
        · rintro (h | h)
          · cases h
            exact .inl ⟨rfl, rfl⟩
          · refine .inr ⟨?_, h⟩
            rintro rfl
            rcases List.mem_cons.1 h with h | h
            · cases h
              rw [strLt_irrefl] at h2
              cases h2
            · have := hs'.1 k (List.mem_map.2 ⟨_, h, rfl⟩)
              rw [strLt_asymm h2] at this
              cases this
        · rintro (⟨rfl, rfl⟩ | h)
          · exact .inl rfl
          · exact .inr h.2
      · rw [if_neg h2]
        have : k0 = key := strLt_total _ _ (by simpa using h1) (by simpa using h2)
        subst this
        rw [List.mem_cons, List.mem_cons]
        constructor
        · rintro (h | h)
          · cases h
            exact .inl ⟨rfl, rfl⟩
          · refine .inr ⟨?_, .inr h⟩
            rintro rfl
            have := hs'.1 k (List.mem_map.2 ⟨_, h, rfl⟩)
            rw [strLt_irrefl] at this
            cases this
        · rintro (⟨rfl, rfl⟩ | ⟨h, h' | h'⟩)
          · exact .inl rfl
          · cases h'
            exact absurd rfl h
          · exact .inr h'

theorem keys_assign {α : Type} {m : List (Str × α)} (hs : Sorted m) (key : Str) (v : α) (k : Str) (h : k ∈ (assign m key v).map Prod.fst) : k = key ∨ k ∈ m.map Prod.fst := by
  obtain ⟨⟨k', x⟩, hm, rfl⟩ := List.mem_map.1 h
  rcases (mem_assign hs key v k' x).1 hm with h | h
  · exact .inl h.1
  · exact .inr (List.mem_map.2 ⟨_, h.2, rfl⟩)

theorem sorted_assign {α : Type} {m : List (Str × α)} (hs : Sorted m) (key : Str) (v : α) : Sorted (assign m key v) := by
  induction m with
  | nil => exact List.pairwise_singleton _ _
  | cons e m ih =>
    obtain ⟨k0, x0⟩ := e
    have hs' : (∀ a ∈ m.map Prod.fst, strLt k0 a = true) ∧ Sorted m := List.pairwise_cons.1 hs
    simp only [assign]
    by_cases h1 : strLt k0 key = true
    · rw [if_pos h1]
      refine List.pairwise_cons.2 ⟨fun a ha => ?_, ih hs'.2⟩
      rcases keys_assign hs'.2 key v a ha with rfl | ha
      · exact h1
      · exact hs'.1 a ha
    · rw [if_neg h1]
      by_cases h2 : strLt key k0 = true
      · rw [if_pos h2]
        refine List.pairwise_cons.2 ⟨fun a ha => ?_, hs⟩
        rcases List.mem_cons.1 ha with rfl | ha
        · exact h2
        · exact strLt_trans h2 (hs'.1 a ha)
      · rw [if_neg h2]
        exact hs

theorem sorted_nodup {α : Type} {m : List (Str × α)} (hs : Sorted m) {k : Str} {x y : α} (h1 : (k, x) ∈ m) (h2 : (k, y) ∈ m) : x = y := by
  induction m with
  | nil => cases h1
  | cons e m ih =>
    have hs' : (∀ a ∈ m.map Prod.fst, strLt e.1 a = true) ∧ Sorted m := List.pairwise_cons.1 hs
    rcases List.mem_cons.1 h1 with h1 | h1 <;> rcases List.mem_cons.1 h2 with h2 | h2
    · rw [← h1] at h2
      cases h2
      rfl
    · have := hs'.1 k (List.mem_map.2 ⟨_, h2, rfl⟩)
      rw [← h1, strLt_irrefl] at this
      cases this
    · have := hs'.1 k (List.mem_map.2 ⟨_, h1, rfl⟩)
      rw [← h2, strLt_irrefl] at this
      cases this
    · exact ih hs'.2 h1 h2

/-- the two containers of a builder agree -/
structure Good (specs : List (Spec R)) (b : Builder R) : Prop where
  list : b.list = specs
  sorted : Sorted b.args
  mem : ∀ k s, (k, s) ∈ b.args ↔ s ∈ specs ∧ s.name = k
  nodup : specs.Pairwise fun s t => s.name ≠ t.name

theorem Good.new : Good (R := R) [] ⟨[], []⟩ := ⟨rfl, List.Pairwise.nil, by simp, List.Pairwise.nil⟩

theorem Good.add {specs : List (Spec R)} {b : Builder R} (g : Good specs b) {s : Spec R} {h : Handle R} (ha : Handle.add (some b) s = .ok h) : ∃ b', h = some b' ∧ Good (specs ++ [s]) b' := by
  simp only [Handle.add] at ha
  split at ha
  · cases ha
  · rename_i hc
    cases ha
    refine ⟨_, rfl, ?_⟩
    have hne : ∀ t ∈ specs, t.name ≠ s.name := by
      intro t ht he
      apply hc
      rw [Bool.or_eq_true, List.any_eq_true]
      exact .inl ⟨t, by rw [g.list]; exact ht, by simp [clash, he]⟩
    refine ⟨by rw [← g.list], sorted_assign g.sorted _ _, fun k t => ?_, ?_⟩
    · rw [mem_assign g.sorted, g.mem, List.mem_append, List.mem_singleton]
      constructor
      · rintro (⟨rfl, rfl⟩ | ⟨_, h⟩)
        · exact ⟨.inr rfl, rfl⟩
        · exact ⟨.inl h.1, h.2⟩
      · rintro ⟨h | rfl, rfl⟩
        · exact .inr ⟨hne t h, h, rfl⟩
        · exact .inl ⟨rfl, rfl⟩
    · rw [List.pairwise_append]
      exact ⟨g.nodup, List.pairwise_singleton _ _, fun a ha b hb => by rw [List.mem_singleton.1 hb]; exact hne a ha⟩

theorem build_good {specs : List (Spec R)} {b : Builder R} (g : Good specs b) : ∀ (ss : List (Spec R)) (h : Handle R), build (some b) ss = .ok h → ∃ b', h = some b' ∧ Good (specs ++ ss) b'
  | [], h, hb => by cases hb; exact ⟨b, rfl, by rw [List.append_nil]; exact g⟩
  | s :: ss, h, hb => by
    simp only [build] at hb
    split at hb
    · rename_i h' ha
      obtain ⟨b', rfl, g'⟩ := g.add ha
      obtain ⟨b'', rfl, g''⟩ := build_good g' ss h hb
      exact ⟨b'', rfl, by rw [List.append_assoc] at g''; exact g''⟩
    · cases hb
    · cases hb
    · cases hb

theorem sorted_prune {args : List (Str × Spec R)} (hs : Sorted args) (vals : Str → Option Str) : Sorted (prune args vals) := by
  unfold Sorted prune
  refine List.Pairwise.sublist (List.Sublist.map _ List.filter_sublist) ?_
  rw [List.map_map]
  exact hs

theorem mem_prune {args : List (Str × Spec R)} {vals : Str → Option Str} {k : Str} {e : Entry R} : (k, e) ∈ prune args vals ↔ (k, e.1) ∈ args ∧ e.2 = vals e.1.name ∧ valid e = true := by
  unfold prune
  rw [List.mem_filter, List.mem_map]
  constructor
  · rintro ⟨⟨⟨k', s⟩, hm, he⟩, hv⟩
    cases he
    exact ⟨hm, rfl, hv⟩
  · rintro ⟨hm, he, hv⟩
    refine ⟨⟨(k, e.1), hm, ?_⟩, hv⟩
    rw [← he]

theorem findKey_get {c : Cfg R} {name : Str} {i : Nat} {e : Entry R} (h : findKey c name = some (i, e)) : c[i]? = some (name, e) := by
  induction c generalizing i with
  | nil => cases h
  | cons a c ih =>
    obtain ⟨k, x⟩ := a
    simp only [findKey] at h
    split at h
    · rename_i hk
      cases h
      rw [hk]
      rfl
    · rw [Option.map_eq_some_iff] at h
      obtain ⟨⟨j, y⟩, h1, h2⟩ := h
      cases h2
      exact ih h1

theorem findKey_of_get {c : Cfg R} (hs : Sorted c) {name : Str} {i : Nat} {e : Entry R} (h : c[i]? = some (name, e)) : findKey c name = some (i, e) := by
  induction c generalizing i with
  | nil => simp at h
  | cons a c ih =>
    obtain ⟨k, x⟩ := a
    have hs' : (∀ a ∈ c.map Prod.fst, strLt k a = true) ∧ Sorted c := List.pairwise_cons.1 hs
    cases i with
    | zero =>
      cases h
      simp [findKey]
    | succ i =>
      have h : c[i]? = some (name, e) := h
      have hne : k ≠ name := strLt_ne (hs'.1 name (List.mem_map.2 ⟨_, List.mem_of_getElem? h, rfl⟩))
      simp only [findKey, if_neg hne, ih hs'.2 h]
      rfl

theorem findKey_mem {c : Cfg R} (hs : Sorted c) {name : Str} {e : Entry R} (h : (name, e) ∈ c) : ∃ i, findKey c name = some (i, e) := by
  obtain ⟨i, hi⟩ := List.getElem?_of_mem h
  exact ⟨i, findKey_of_get hs hi⟩

/-- the steps of building and parsing -/
theorem parsed {T : Tclap R} {specs : List (Spec R)} {h h' : Handle R} {words : List Str} {c : Cfg R} (hb : build .new specs = .ok h) (hp : h.parse T words = .ok (h', c)) :
    ∃ b vals, h = some b ∧ Good specs b ∧ T specs words = .parsed vals ∧ c = prune b.args vals ∧ h' = none := by
  obtain ⟨b, rfl, g⟩ := build_good Good.new specs h hb
  rw [List.nil_append] at g
  simp only [Handle.parse] at hp
  split at hp
  · cases hp
  · rename_i vals hv
    cases hp
    rw [g.list] at hv
    exact ⟨b, vals, rfl, g, hv, rfl, rfl⟩

/-! ## C72 -/

/-- The config has exactly the arguments that were given or have a default, each with its own text. -/
theorem C72_names {T : Tclap R} {specs : List (Spec R)} {h h' : Handle R} {words : List Str} {c : Cfg R} (hb : build .new specs = .ok h) (hp : h.parse T words = .ok (h', c)) :
    ∃ vals, T specs words = .parsed vals ∧ Describes specs vals c := by
  obtain ⟨b, vals, rfl, g, hT, rfl, rfl⟩ := parsed hb hp
  have hs := sorted_prune g.sorted vals
  refine ⟨vals, hT, fun name => ?_, fun name i e he => ?_⟩
  · constructor
    · intro h
      obtain ⟨⟨i, e⟩, hf⟩ := Option.isSome_iff_exists.1 h
      have hm := mem_prune.1 (List.mem_of_getElem? (findKey_get hf))
      have hg := (g.mem _ _).1 hm.1
      refine ⟨e.1, hg.1, hg.2, ?_⟩
      have hv := hm.2.2
      unfold valid at hv
      rw [Bool.or_eq_true] at hv
      rcases hv with hv | hv
      · left
        rw [← hg.2, ← hm.2.1]
        intro hn
        rw [hn] at hv
        cases hv
      · exact .inr hv
    · rintro ⟨s, hsm, rfl, hv⟩
      have : (s.name, (s, vals s.name)) ∈ prune b.args vals := by
        refine mem_prune.2 ⟨(g.mem _ _).2 ⟨hsm, rfl⟩, rfl, ?_⟩
        unfold valid
        rw [Bool.or_eq_true]
        exact hv.imp (fun h => Option.isSome_iff_ne_none.2 h) id
      obtain ⟨i, hi⟩ := findKey_mem hs this
      rw [hi]
      rfl
  · have hm := mem_prune.1 (List.mem_of_getElem? (findKey_get he))
    have hg := (g.mem _ _).1 hm.1
    exact ⟨hg.1, hg.2, by rw [hm.2.1, hg.2]⟩

/-- Names and indices agree, the names are sorted, and there are `size` many. -/
theorem C72_index {T : Tclap R} {specs : List (Spec R)} {h h' : Handle R} {words : List Str} {c : Cfg R} (hb : build .new specs = .ok h) (hp : h.parse T words = .ok (h', c)) :
    (∀ name i e, findKey c name = some (i, e) ↔ findIndex c i = some (name, e)) ∧ (∀ i, (findIndex c i).isSome = true ↔ i < size c) ∧
    (∀ i j a b, i < j → findIndex c i = some a → findIndex c j = some b → strLt a.1 b.1 = true) := by
  obtain ⟨b, vals, rfl, g, hT, rfl, rfl⟩ := parsed hb hp
  have hs := sorted_prune g.sorted vals
  generalize prune b.args vals = c at hs
  have hfi : ∀ i, findIndex c i = c[i]? := by
    intro i
    unfold findIndex
    split
    · rfl
    · rw [List.getElem?_eq_none (by omega)]
  refine ⟨fun name i e => ?_, fun i => ?_, fun i j a d hij ha hd => ?_⟩
  · rw [hfi]
    exact ⟨findKey_get, findKey_of_get hs⟩
  · rw [hfi, size]
    simp
  · rw [hfi] at ha hd
    obtain ⟨hi, rfl⟩ := List.getElem?_eq_some_iff.1 ha
    obtain ⟨hj, rfl⟩ := List.getElem?_eq_some_iff.1 hd
    have := List.pairwise_iff_getElem.1 hs i j (by simpa using hi) (by simpa using hj) hij
    simpa using this

/-- The value of an argument that was given is its text, read as the declared type; a switch is true. If it was not given, the value is the default, as declared: `mkSpec` takes it for optional arguments only, and false for
switches. -/
theorem C72_value (ops : Real R) (kind : Kind) (flag name : Str) (d : Option (Stored R)) (text : Str) :
    (∀ n, decodeInt text = .ok n → value ops (mkSpec kind .integer flag name d, some text) = some (.integer n)) ∧
    (∀ r, ops.parse text = .ok r → value ops (mkSpec kind .real flag name d, some text) = some (.real r)) ∧
    value ops (mkSpec kind .string flag name d, some text) = some (.string text) ∧
    value ops (mkSpec kind .boolean flag name d, some text) = some (.boolean true) ∧
    value ops (mkSpec kind .boolean flag name d, none) = some (.boolean false) ∧
    (∀ ty x, ty ≠ .boolean → d = some x → value ops (mkSpec .optional ty flag name d, none) = some x) ∧
    (∀ ty, ty ≠ .boolean → kind ≠ .optional → (mkSpec kind ty flag name d).dflt = none) := by
  refine ⟨fun n h => ?_, fun r h => ?_, ?_, ?_, ?_, fun ty x h1 h2 => ?_, fun ty h1 h2 => ?_⟩
  · cases kind <;> simp [value, mkSpec, h]
  · cases kind <;> simp [value, mkSpec, h]
  · cases kind <;> simp [value, mkSpec]
  · simp [value, mkSpec]
  · simp [value, mkSpec]
  · subst h2
    cases ty <;> first | exact absurd rfl h1 | simp [value, mkSpec]
  · cases ty <;> first | exact absurd rfl h1 | (cases kind <;> first | exact absurd rfl h2 | rfl)

/-- What is relied on: TCLAP does not return without an argument that is not optional. -/
def Complete (T : Tclap R) : Prop := ∀ specs words vals, T specs words = .parsed vals → ∀ s ∈ specs, s.kind ≠ .optional → vals s.name ≠ none

/-- Positional and required arguments are always in the config, with a text. -/
theorem C72_required {T : Tclap R} (hT : Complete T) {specs : List (Spec R)} {h h' : Handle R} {words : List Str} {c : Cfg R} (hb : build .new specs = .ok h) (hp : h.parse T words = .ok (h', c)) (s : Spec R)
    (hs : s ∈ specs) (hk : s.kind ≠ .optional) : ∃ i text, findKey c s.name = some (i, (s, some text)) := by
  obtain ⟨b, vals, rfl, g, hv, rfl, rfl⟩ := parsed hb hp
  have hne := hT _ _ _ hv s hs hk
  obtain ⟨text, ht⟩ := Option.ne_none_iff_exists'.1 hne
  obtain ⟨i, hi⟩ := findKey_mem (sorted_prune g.sorted vals) (e := (s, some text)) (mem_prune.2 ⟨(g.mem _ _).2 ⟨hs, rfl⟩, ht.symm, rfl⟩)
  exact ⟨i, text, hi⟩

/-- A builder that was used throws. Missing: `set_ostream`, see `C72_used_violated`. -/
theorem C72_used_partial {T : Tclap R} {specs : List (Spec R)} {h h' : Handle R} {words : List Str} {c : Cfg R} (hb : build .new specs = .ok h) (hp : h.parse T words = .ok (h', c)) :
    (∀ s, h'.add s = .throws) ∧ (∀ T' words', h'.parse T' words' = (.throws : Res (Handle R × Cfg R))) := by
  obtain ⟨b, vals, rfl, g, hv, rfl, rfl⟩ := parsed hb hp
  exact ⟨fun s => rfl, fun T' w => rfl⟩

/-- A second argument with the same name or flag is refused, as are the names of TCLAP. -/
theorem C72_duplicate {specs : List (Spec R)} {h : Handle R} (hb : build .new specs = .ok h) (s : Spec R)
    (hd : (∃ t ∈ specs, t.name = s.name ∨ (s.flag ≠ [] ∧ t.flag = s.flag)) ∨ s.name = "help".toList ∨ s.name = "version".toList) : h.add s = .throws := by
  obtain ⟨b, rfl, g⟩ := build_good Good.new specs h hb
  rw [List.nil_append] at g
  simp only [Handle.add]
  rw [if_pos]
  rw [Bool.or_eq_true]
  rcases hd with ⟨t, ht, hd⟩ | hd | hd
  · left
    rw [List.any_eq_true]
    refine ⟨t, by rw [g.list]; exact ht, ?_⟩
    unfold clash
    rcases hd with hd | ⟨h1, h2⟩
    · simp [hd]
    · simp [h1, h2]
  · right
    simp [builtin, clash, hd]
  · right
    simp [builtin, clash, hd]

/-! ## Violations of C72 -/

/-- an environment for the witnesses: every argument that is not optional must be given as `name value`, in any order; no `double`s -/
def toy : Tclap Unit := fun specs words =>
  let vals := fun n => if n ∈ words then words[words.idxOf n + 1]? else none
  if specs.all fun s => s.kind == .optional || (vals s.name).isSome then .parsed vals else .exit 1

def noReal : Real Unit := ⟨fun _ => none, fun _ => (), fun _ _ => false, fun _ => [], fun _ => .fail⟩

def num : Spec Unit := mkSpec .optional .integer [] "num".toList (some (.integer 7))
def need : Spec Unit := mkSpec .required .string [] "need".toList none

/-- The full property: no operation on a used builder is undefined. -/
def UsedThrows : Prop := ∀ (T : Tclap Unit) (specs : List (Spec Unit)) (h h' : Handle Unit) (words : List Str) (c : Cfg Unit), build .new specs = .ok h → h.parse T words = .ok (h', c) → h'.setOstream ≠ .ub

/-- `set_ostream` dereferences the null pointer. -/
theorem C72_used_violated : ¬ UsedThrows := by
  intro H
  exact H (fun _ _ => .parsed fun _ => none) [] .new none [] [] rfl rfl rfl

/-- The full property: an argument of the config has a value of its type. -/
def Readable : Prop := ∀ (T : Tclap Unit) (specs : List (Spec Unit)) (h h' : Handle Unit) (words : List Str) (c : Cfg Unit), build .new specs = .ok h → h.parse T words = .ok (h', c) →
  ∀ i name e, findIndex c i = some (name, e) → value noReal e ≠ some .empty

/-- `--num abc`, for an integer with the default 7: parsing succeeds, and the argument is there, but has neither a value nor its default. -/
theorem C72_unreadable_violated : ¬ Readable := by
  intro H
  exact H (fun _ _ => .parsed fun _ => some "abc".toList) [num] (some ⟨[num], [("num".toList, num)]⟩) none [] [("num".toList, (num, some "abc".toList))] rfl rfl 0 "num".toList (num, some "abc".toList) rfl rfl

/-- The full property (cmd.h l.36-38): a required argument that is missing is reported by an exception. -/
def MissingThrows : Prop := ∀ (T : Tclap Unit), Complete T → ∀ (specs : List (Spec Unit)) (h : Handle Unit) (words : List Str), build .new specs = .ok h → ∀ code, h.parse T words ≠ .exits code

theorem toy_complete : Complete toy := by
  intro specs words vals h s hs hk
  simp only [toy] at h
  split at h
  · rename_i ha
    cases h
    have := List.all_eq_true.1 ha s hs
    rw [Bool.or_eq_true] at this
    rcases this with h | h
    · exact absurd (by simpa using h) hk
    · exact Option.isSome_iff_ne_none.1 h
  · cases h

/-- A required argument is missing: TCLAP ends the program. -/
theorem C72_exit_violated : ¬ MissingThrows := by
  intro H
  refine H toy toy_complete [need] (some ⟨[need], [("need".toList, need)]⟩) [] rfl 1 ?_
  rfl

/-! ## C73 -/

/-- operations on a dispatcher -/
inductive Op (R : Type)
  | add (key : Str) (handler : Nat) (cmd : Handle R)
  | stream (some_ : Bool)
  | code (n : Int)
  | parse (words : List Str)

/-- a history, as long as the program runs and its behaviour is defined: the final state and the calls of handlers -/
def exec (T : Tclap R) (H : Nat → Cfg R → Int) : Disp R → List (Op R) → Option (Disp R × List (Nat × Cfg R))
  | d, [] => some (d, [])
  | d, .add k h c :: ops => exec T H (d.add k h c) ops
  | d, .stream b :: ops => exec T H { d with stream := b } ops
  | d, .code n :: ops => exec T H { d with code := n } ops
  | d, .parse w :: ops =>
    match d.parse T H w with
    | (.ok _, calls, d') => (exec T H d' ops).map fun r => (r.1, calls ++ r.2)
    | (.throws, calls, d') => (exec T H d' ops).map fun r => (r.1, calls ++ r.2)
    | (.ub, _, _) => none
    | (.exits _, _, _) => none

/-- who is registered for a key, after a history: the last one added; `none` instead of the builder once it was used -/
def registered (key : Str) : Option (Nat × Handle R) → List (Op R) → Option (Nat × Handle R)
  | cur, [] => cur
  | cur, .add k h c :: ops => registered key (if k = key then some (h, c) else cur) ops
  | cur, .parse w :: ops => registered key (if w[1]? = some key then cur.map fun r => (r.1, none) else cur) ops
  | cur, _ :: ops => registered key cur ops

/-- the last stream that was set -/
def lastStream : Bool → List (Op R) → Bool
  | cur, [] => cur
  | _, .stream b :: ops => lastStream b ops
  | cur, _ :: ops => lastStream cur ops

/-- the last error code that was set -/
def lastCode : Int → List (Op R) → Int
  | cur, [] => cur
  | _, .code n :: ops => lastCode n ops
  | cur, _ :: ops => lastCode cur ops

theorem find_iff {d : Disp R} (hs : Sorted d.alts) (key : Str) (x : Nat × Handle R) : d.find key = some x ↔ (key, x) ∈ d.alts := by
  unfold Disp.find
  rw [Option.map_eq_some_iff]
  constructor
  · rintro ⟨⟨k, y⟩, h1, rfl⟩
    have hk : k = key := by simpa using List.find?_some h1
    rw [← hk]
    exact List.mem_of_find?_eq_some h1
  · intro hm
    cases hf : d.alts.find? fun a => a.1 == key with
    | none =>
      have := List.find?_eq_none.1 hf _ hm
      simp at this
    | some y =>
      obtain ⟨k, y⟩ := y
      have hk : k = key := by simpa using List.find?_some hf
      subst hk
      exact ⟨_, rfl, sorted_nodup hs (List.mem_of_find?_eq_some hf) hm⟩

theorem find_assign {d : Disp R} (hs : Sorted d.alts) (key k : Str) (x : Nat × Handle R) : Disp.find { d with alts := assign d.alts k x } key = if k = key then some x else d.find key := by
  have hs' := sorted_assign hs k x
  have H : ∀ y, Disp.find { d with alts := assign d.alts k x } key = some y ↔ (if k = key then some x else d.find key) = some y := by
    intro y
    rw [find_iff (d := { d with alts := assign d.alts k x }) hs']
    rw [mem_assign hs]
    by_cases h : k = key
    · subst h
      simp [eq_comm]
    · rw [if_neg h, find_iff hs]
      have h' : key ≠ k := fun e => h e.symm
      simp [h']
  exact Option.ext H

/-- one step of `parse` when the program goes on -/
theorem parse_state {T : Tclap R} {H : Nat → Cfg R → Int} {d d' : Disp R} {w : List Str} {r : Res Int} {calls : List (Nat × Cfg R)} (hs : Sorted d.alts) (hp : d.parse T H w = (r, calls, d')) (hr : r ≠ .ub)
    (he : ∀ c, r ≠ .exits c) :
    Sorted d'.alts ∧ d'.stream = d.stream ∧ d'.code = d.code ∧ ∀ key, d'.find key = if w[1]? = some key then (d.find key).map fun r => (r.1, none) else d.find key := by
  unfold Disp.parse at hp
  cases hw : w[1]? with
  | none =>
    simp only [hw] at hp
    cases hp
    exact ⟨hs, rfl, rfl, fun key => by rw [if_neg (by simp)]⟩
  | some k =>
    simp only [hw] at hp
    cases hf : d.find k with
    | none =>
      simp only [hf] at hp
      cases hp
      refine ⟨hs, rfl, rfl, fun key => ?_⟩
      by_cases h : k = key
      · subst h
        rw [hf, if_pos rfl]
        rfl
      · rw [if_neg (by simp [h])]
    | some x =>
      obtain ⟨h, cmd⟩ := x
      simp only [hf] at hp
      cases cmd with
      | none =>
        simp only [Handle.setOstream] at hp
        cases hp
        exact absurd rfl hr
      | some b =>
        simp only [Handle.setOstream, Handle.parse] at hp
        cases hT : T b.list (rest w) with
        | exit c =>
          simp only [hT] at hp
          cases hp
          exact absurd rfl (he c)
        | parsed vals =>
          simp only [hT] at hp
          cases hp
          refine ⟨sorted_assign hs _ _, rfl, rfl, fun key => ?_⟩
          rw [find_assign hs]
          by_cases hk : k = key
          · subst hk
            rw [if_pos rfl, if_pos rfl, hf]
            rfl
          · rw [if_neg hk, if_neg (by simp [hk])]

/-- After every history that is defined: for each key the alternative registered last, with its builder if it was not used since; and the stream and the error code that were set last. -/
theorem C73_state {T : Tclap R} {H : Nat → Cfg R → Int} (ops : List (Op R)) {d : Disp R} {calls : List (Nat × Cfg R)} (he : exec T H .new ops = some (d, calls)) :
    (∀ key, d.find key = registered key none ops) ∧ d.stream = lastStream true ops ∧ d.code = lastCode 1 ops := by
  suffices G : ∀ (ops : List (Op R)) (d0 : Disp R) (d : Disp R) (calls : List (Nat × Cfg R)), Sorted d0.alts → exec T H d0 ops = some (d, calls) →
      (∀ key, d.find key = registered key (d0.find key) ops) ∧ d.stream = lastStream d0.stream ops ∧ d.code = lastCode d0.code ops from
    G ops .new d calls List.Pairwise.nil he
  intro ops
  induction ops with
  | nil => intro d0 d calls hs he; cases he; exact ⟨fun _ => rfl, rfl, rfl⟩
  | cons op ops ih =>
    intro d0 d calls hs he
    cases op with
    | add k h c =>
      have := ih (d0.add k h c) d calls (sorted_assign hs _ _) he
      refine ⟨fun key => ?_, this.2⟩
      rw [this.1 key]
      unfold Disp.add
      rw [find_assign hs]
      rfl
    | stream b => exact ih { d0 with stream := b } d calls hs he
    | code n => exact ih { d0 with code := n } d calls hs he
    | parse w =>
      simp only [exec] at he
      rcases hp : d0.parse T H w with ⟨r, calls1, d1⟩
      rw [hp] at he
      have go : ∀ (_ : r ≠ .ub) (_ : ∀ c, r ≠ .exits c), (exec T H d1 ops).map (fun r => (r.1, calls1 ++ r.2)) = some (d, calls) →
          (∀ key, d.find key = registered key (d0.find key) (.parse w :: ops)) ∧ d.stream = lastStream d0.stream (.parse w :: ops) ∧ d.code = lastCode d0.code (.parse w :: ops) := by
        intro h1 h2 h3
        obtain ⟨⟨d2, calls2⟩, h4, h5⟩ := Option.map_eq_some_iff.1 h3
        cases h5
        obtain ⟨s1, s2, s3, s4⟩ := parse_state hs hp h1 h2
        obtain ⟨i1, i2, i3⟩ := ih d1 d2 calls2 s1 h4
        refine ⟨fun key => ?_, by rw [i2, s2]; rfl, by rw [i3, s3]; rfl⟩
        rw [i1 key, s4 key]
        rfl
      cases r with
      | ok n => exact go (by simp) (by simp) he
      | throws => exact go (by simp) (by simp) he
      | ub => cases he
      | exits c => cases he

/-- If the first argument is registered, and its builder was not used since, its handler is called, once, with the config of the rest of the command line, and its result is returned; unless TCLAP ends the program. Missing:
the second time, see `C73_again_violated`. -/
theorem C73_dispatch_partial {T : Tclap R} {H : Nat → Cfg R → Int} (ops : List (Op R)) {d : Disp R} {calls : List (Nat × Cfg R)} (he : exec T H .new ops = some (d, calls)) (prog key : Str) (args : List Str) (h : Nat)
    (b : Builder R) (hr : registered key none ops = some (h, some b)) :
    (∀ vals, T b.list (prog :: args) = .parsed vals → ∃ d', d.parse T H (prog :: key :: args) = (.ok (H h (prune b.args vals)), [(h, prune b.args vals)], d')) ∧
    (∀ c, T b.list (prog :: args) = .exit c → d.parse T H (prog :: key :: args) = (.exits c, [], d)) := by
  have hf := (C73_state ops he).1 key
  rw [hr] at hf
  have hrest : rest (prog :: key :: args) = prog :: args := rfl
  have hk : (prog :: key :: args)[1]? = some key := rfl
  constructor
  · intro vals hT
    refine ⟨{ d with alts := assign d.alts key (h, none) }, ?_⟩
    unfold Disp.parse
    simp only [hk, hf, Handle.setOstream, Handle.parse, hrest, hT]
  · intro c hT
    unfold Disp.parse
    simp only [hk, hf, Handle.setOstream, Handle.parse, hrest, hT]

/-- If there is no first argument, or nothing is registered for it, no handler is called and nothing changes: the error code set last is returned, or an exception is thrown if the stream was set to null. -/
theorem C73_unknown {T : Tclap R} {H : Nat → Cfg R → Int} (ops : List (Op R)) {d : Disp R} {calls : List (Nat × Cfg R)} (he : exec T H .new ops = some (d, calls)) (words : List Str)
    (hk : words.length ≤ 1 ∨ ∃ prog key args, words = prog :: key :: args ∧ registered key none ops = none) :
    d.parse T H words = (if lastStream true ops then .ok (lastCode 1 ops) else .throws, [], d) := by
  obtain ⟨hf, h2, h3⟩ := C73_state ops he
  have herr : d.error = if lastStream true ops then .ok (lastCode 1 ops) else .throws := by rw [Disp.error, h2, h3]
  rcases hk with hk | ⟨prog, key, args, rfl, hk⟩
  · have : words[1]? = none := List.getElem?_eq_none (by omega)
    unfold Disp.parse
    simp only [this, herr]
  · have hf := hf key
    rw [hk] at hf
    unfold Disp.parse
    simp only [show (prog :: key :: args)[1]? = some key from rfl, hf, herr]

/-- The full property: parsing is never undefined, whatever was parsed before. -/
def NeverUb : Prop := ∀ (T : Tclap Unit) (H : Nat → Cfg Unit → Int) (ops : List (Op Unit)) (d : Disp Unit) (calls : List (Nat × Cfg Unit)), exec T H .new ops = some (d, calls) →
  (∀ k h c, Op.add k h c ∈ ops → c ≠ none) → ∀ words, (d.parse T H words).1 ≠ .ub

/-- Two command lines with the same first argument: the builder was used, and `set_ostream` dereferences null. -/
theorem C73_again_violated : ¬ NeverUb := by
  intro N
  refine N (fun _ _ => .parsed fun _ => none) (fun _ _ => 0) [.add ['a'] 1 .new, .parse [['p'], ['a']]] ⟨[(['a'], (1, none))], true, 1⟩ [(1, [])] rfl ?_ [['p'], ['a']] rfl
  intro k h c hm
  simp at hm
  rw [hm.2.2]
  simp [Handle.new]

/-! ## The hypotheses can be met -/

/-- a config with a given argument, one with its default, and one left out -/
example : ∃ h h' c, build .new [need, num, mkSpec .optional .string [] "other".toList none] = .ok h ∧ h.parse toy ["prog".toList, "need".toList, "x".toList] = .ok (h', c) ∧
    c.map (fun e => (e.1, e.2.2)) = [("need".toList, some "x".toList), ("num".toList, none)] ∧ (findKey c "num".toList).map (fun p => p.1) = some 1 :=
  ⟨_, _, _, rfl, rfl, by decide, by decide⟩

example : Complete toy := toy_complete

/-- two alternatives, one replaced, one used -/
example : ∃ r, exec toy (fun h _ => h) .new [.add "a".toList 1 .new, .add "b".toList 2 .new, .add "a".toList 3 .new, .parse ["p".toList, "b".toList], .code 5, .parse ["p".toList, "c".toList]] = some r ∧
    r.2.map (fun c => c.1) = [2] ∧ r.1.code = 5 := ⟨_, rfl, rfl, rfl⟩

example : (registered "a".toList none [.add "a".toList 1 (some (⟨[num], []⟩ : Builder Unit)), .add "b".toList 2 .new, .parse ["p".toList, "b".toList]]).map (fun r => (r.1, r.2.isSome)) = some (1, true) := by decide
example : (registered "b".toList none [.add "a".toList 1 (.new : Handle Unit), .add "b".toList 2 .new, .parse ["p".toList, "b".toList]]).map (fun r => (r.1, r.2.isSome)) = some (2, false) := by decide

end Verif.Cmd
