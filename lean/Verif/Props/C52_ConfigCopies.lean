import Verif.Lemmas.ConfigCopy
import Verif.Props.C50_ConfigLookup
import Verif.Props.C51_ConfigBuilder

/-!
# C52, C53 and C55: copies of configs with changes

All functions give new configs and leave their arguments as they are, which in this model is so by construction.
-/
set_option autoImplicit false

namespace Verif.Config

open Tokens (nonEmptyPieces)

/-! ## Specification -/

/-- Neither path leads through the other. -/
def Apart (p q : List Str) : Prop := ¬ p <+: q ∧ ¬ q <+: p

/-- The names of a path. -/
abbrev namesOf (path : Str) : List Str := nonEmptyPieces dot path

/-- The value at a path. -/
def valueAt (c : Config) (path : Str) : Option Value := (at_ c path).map (·.2)

/-- The value is a config that is not null. -/
def IsConfig (v : Option Value) : Prop := ∃ k es, v = some (.conf k es)

theorem valueAt_eq (c : Config) (path : Str) : valueAt c path = get c (namesOf path) := by rw [valueAt, at_eq, get]

/-! ## with_value -/

theorem node_noHole {n : Node} (hc : Config.Ok (some n)) : ∀ e ∈ n.entries, e.2 ≠ .hole := Config.noHole hc

theorem node_keys {n : Node} (hc : Config.Ok (some n)) : KeysOk n.kind (keysOf [] ++ keysOf n.entries) := hc.1

theorem first_some_of_get {c : Config} (hc : c.nullOrAssoc = true) (t : Str) : (∃ n, c = some n ∧ n.kind.assoc = true ∧ c.entries = n.entries) ∨ (c = none ∧ first c.entries t = none) := by
  cases c with
  | none => exact Or.inr ⟨rfl, rfl⟩
  | some n => exact Or.inl ⟨n, rfl, hc, rfl⟩

theorem get_one_c {c : Config} (hc : c.Ok) (hna : c.nullOrAssoc = true) (t : Str) : get c [t] = first c.entries t := by
  cases c with
  | none => rfl
  | some n => exact get_one hc hna t

theorem get_cons_c {c : Config} (hc : c.Ok) (hna : c.nullOrAssoc = true) (t t' : Str) (ts : List Str) :
    get c (t :: t' :: ts) = below (first c.entries t) (t' :: ts) := by
  cases c with
  | none => rfl
  | some n => exact get_cons hc hna t t' ts

theorem apart_cons {t : Str} {a b : List Str} : Apart (t :: a) (t :: b) ↔ Apart a b := by simp [Apart, List.cons_prefix_cons]

theorem withNames_spec (ts : List Str) (t : Str) (c : Config) (v : Value) (n : Node) (hc : c.Ok) (hv : v ≠ .hole) (h : withNames t ts c v = some n) :
    n.Ok ∧ n.kind.assoc = true ∧ get (some n) (t :: ts) = some v ∧ (∀ r, r ≠ [] → get (some n) (t :: ts ++ r) = get v.asConfig r) ∧ (∀ q, Apart (t :: ts) q → get (some n) q = get c q) ∧
    (∀ r, r ≠ [] → r <+: t :: ts → r ≠ t :: ts → IsConfig (get (some n) r)) := by
  induction ts generalizing t c n with
  | nil =>
    simp only [withNames] at h
    obtain ⟨h1, h2, h3, h4, y, h5, h6⟩ := withStep_spec hc h
    simp only [Option.some.injEq] at h6
    subst h6
    have ha : n.kind.assoc = true := by rw [h2]; exact c.kind_assoc h1
    refine ⟨h3, ha, ?_, fun r hr => ?_, fun q hq => ?_, fun r hr hp hne => ?_⟩
    · rw [get_one' h3 ha, h5]
      cases v <;> simp_all [notHole]
    · cases r with
      | nil => exact absurd rfl hr
      | cons a r => simp only [List.cons_append, List.nil_append]; rw [get_cons' h3 ha, h5]; rfl
    · cases q with
      | nil => exact absurd List.nil_prefix hq.2
      | cons k q =>
        have hk : k ≠ t := by
          rintro rfl
          exact hq.1 (by simp)
        cases q with
        | nil =>
          rw [get_one' h3 ha, h4 k hk, get_one_c hc h1]
          cases e : first c.entries k with
          | none => rfl
          | some x => exact ok_notHole (c.entryOk hc _ (first_mem e))
        | cons k' q => rw [get_cons' h3 ha, h4 k hk, get_cons_c hc h1]
    · obtain ⟨s, hs⟩ := hp
      cases r with
      | nil => exact absurd rfl hr
      | cons a r =>
        simp only [List.cons_append, List.cons.injEq, List.append_eq_nil_iff] at hs
        exact absurd (by rw [hs.1, hs.2.1]) hne
  | cons t' ts ih =>
    simp only [withNames] at h
    obtain ⟨h1, h2, h3, h4, y, h5, h6⟩ := withStep_spec hc h
    have ha : n.kind.assoc = true := by rw [h2]; exact c.kind_assoc h1
    have hold : Config.Ok (Value.asConfig (orNull (first c.entries t))) := by
      cases e : first c.entries t with
      | none => trivial
      | some x => exact asConfig_ok (c.entryOk hc _ (first_mem e))
    cases hm : withNames t' ts (Value.asConfig (orNull (first c.entries t))) v with
    | none => rw [hm] at h6; simp at h6
    | some m =>
      rw [hm] at h6
      simp only [Option.map_some, Option.some.injEq] at h6
      subst h6
      obtain ⟨i1, i2, i3, i4, i5, i6⟩ := ih t' _ m hold hm
      have hnest : ∀ b q, get (some n) (t :: b :: q) = get (some m) (b :: q) := by
        intro b q
        rw [get_cons' h3 ha, h5]
        rfl
      refine ⟨h3, ha, ?_, fun r hr => ?_, fun q hq => ?_, fun r hr hp hne => ?_⟩
      · rw [hnest]; exact i3
      · simp only [List.cons_append]; rw [hnest]; exact i4 r hr
      · cases q with
        | nil => exact absurd List.nil_prefix hq.2
        | cons k q =>
          by_cases hk : k = t
          · subst hk
            rw [apart_cons] at hq
            cases q with
            | nil => exact absurd List.nil_prefix hq.2
            | cons k' q =>
              rw [hnest, i5 _ hq, get_cons_c hc h1]
              cases e : first c.entries k with
              | none => exact get_null _
              | some x => rfl
          · cases q with
            | nil =>
              rw [get_one' h3 ha, h4 k hk, get_one_c hc h1]
              cases e : first c.entries k with
              | none => rfl
              | some x => exact ok_notHole (c.entryOk hc _ (first_mem e))
            | cons k' q => rw [get_cons' h3 ha, h4 k hk, get_cons_c hc h1]
      · cases r with
        | nil => exact absurd rfl hr
        | cons a r =>
          rw [List.cons_prefix_cons] at hp
          obtain ⟨rfl, hp⟩ := hp
          cases r with
          | nil => rw [get_one' h3 ha, h5]; exact ⟨_, _, rfl⟩
          | cons b r =>
            rw [hnest]
            exact i6 (b :: r) (by simp) hp (fun e => hne (by rw [e]))

/-- `with_value`: the result has the value at the path (and the value's own entries below it), configs above it, and the same as before at every path apart from it. -/
theorem C52_partial (c c' : Config) (path : Str) (v : Value) (hc : c.Ok) (hv : v ≠ .hole) (hp : namesOf path ≠ []) (h : withValue c path v = some c') :
    valueAt c' path = some v ∧
    (∀ q, Apart (namesOf path) (namesOf q) → valueAt c' q = valueAt c q) ∧
    (∀ q r, r ≠ [] → namesOf q = namesOf path ++ r → valueAt c' q = get v.asConfig r) ∧
    (∀ q, namesOf q ≠ [] → namesOf q <+: namesOf path → namesOf q ≠ namesOf path → IsConfig (valueAt c' q)) := by
  unfold withValue at h
  rw [names_eq] at h
  simp only [valueAt_eq]
  cases hn : namesOf path with
  | nil => exact absurd hn hp
  | cons t ts =>
    rw [show nonEmptyPieces dot path = t :: ts from hn] at h
    simp only [nextName] at h
    cases hm : withNames t ts c v with
    | none => rw [hm] at h; simp at h
    | some n =>
      rw [hm] at h
      simp only [Option.map_some, Option.some.injEq] at h
      subst h
      obtain ⟨-, -, h3, h4, h5, h6⟩ := withNames_spec ts t c v n hc hv hm
      exact ⟨h3, fun q hq => h5 _ hq, fun q r hr e => by rw [e]; exact h4 r hr, fun q hq1 hq2 hq3 => h6 _ hq1 hq2 hq3⟩

/-! ### When it throws -/

/-- no config in the tree is a multimap -/
inductive Plain : Value → Prop
  | hole : Plain .hole
  | scalar (s : Scalar) : Plain (.scalar s)
  | null : Plain .null
  | conf (k : Kind) (es : Entries) : k ≠ .multimap → (∀ e ∈ es, Plain e.2) → Plain (.conf k es)

def Config.Plain (c : Config) : Prop :=
  match c with
  | none => True
  | some n => n.kind ≠ .multimap ∧ ∀ e ∈ n.entries, Verif.Config.Plain e.2

theorem plain_asConfig {v : Value} (h : Plain v) : v.asConfig.Plain := by
  cases h with
  | conf k es h1 h2 => exact ⟨h1, h2⟩
  | _ => trivial

/-- A config met on the way to the path's last name, the config itself included, is an array. -/
def ArrayOnPath (c : Config) (p : List Str) : Prop :=
  (∃ n, c = some n ∧ n.kind = .array) ∨ ∃ r es, r ≠ [] ∧ r <+: p ∧ r ≠ p ∧ get c r = some (.conf .array es)

theorem nodup_of_keysOk {k : Kind} (ha : k.assoc = true) (hm : k ≠ .multimap) {ks : List Str} (h : KeysOk k ks) : ks.Nodup := by
  cases k with
  | map => exact List.Pairwise.imp (fun h => strLt_ne h) h
  | multimap => exact absurd rfl hm
  | ordered => exact h
  | array => simp [Kind.assoc] at ha

theorem replace_uniq {t : Str} {f : Value → Value → Option Value} {es : Entries} (hn : (keysOf es).Nodup) (v : Value) (x : Value) (hx : first es t = some x) :
    replaceEntries t f es v = (f x v).map (fun y => es.map (fun e => if e.1 = t then (t, y) else e)) := by
  induction es with
  | nil => simp [first] at hx
  | cons e es ih =>
    obtain ⟨k, z⟩ := e
    simp only [keysOf_cons, List.nodup_cons] at hn
    simp only [first] at hx
    by_cases hk : k = t
    · subst hk
      simp only [if_true, Option.some.injEq] at hx
      subst hx
      simp only [replaceEntries, if_true, replace_absent hn.1, Option.map_some, List.map_cons]
      cases f z v with
      | none => rfl
      | some y =>
        simp only [Option.bind_some, Option.map_some, Option.some.injEq, List.cons.injEq, true_and]
        symm
        rw [List.map_congr_left (g := id), List.map_id]
        intro e he
        have : e.1 ≠ k := fun hc => hn.1 (hc ▸ List.mem_map_of_mem he)
        simp [this]
    · simp only [hk, if_false] at hx
      simp only [replaceEntries, hk, if_false, ih hn.2 hx, List.map_cons]
      cases f x v <;> rfl

theorem withStep_some {t : Str} {f : Value → Value → Option Value} {c : Config} {v : Value} (hc : c.Ok) (hp : c.Plain) :
    (withStep t f c v).isSome = (c.nullOrAssoc && (f (orNull (first c.entries t)) v).isSome) := by
  unfold withStep
  cases hna : c.nullOrAssoc with
  | false => simp
  | true =>
    have ha := c.kind_assoc hna
    have hk := c.keysOk hc
    have hnd : (keysOf c.entries).Nodup := by
      refine nodup_of_keysOk ha ?_ hk
      cases c with
      | none => simp [Config.kind]
      | some n => exact hp.1
    rw [emptyCopy_eq, withLoop_eq ha (c.noHole hc) [] v false (by simpa using hk)]
    simp only [if_true, Bool.true_and]
    cases e : first c.entries t with
    | none =>
      have ht := first_none.1 e
      rw [replace_absent ht]
      simp only [ht, decide_false, Bool.or_false, Option.map_some, List.nil_append, if_false, orNull]
      cases f .null v with
      | none => rfl
      | some y =>
        obtain ⟨n', hn'⟩ := put_some (n := ⟨c.kind, c.entries⟩) ha t y
        simp [hn']
    | some x =>
      have ht : t ∈ keysOf c.entries := List.mem_map_of_mem (f := fun e => e.1) (first_mem e)
      rw [replace_uniq hnd v x e]
      simp only [orNull]
      cases f x v with
      | none => rfl
      | some y => simp [ht]

theorem withNames_isSome (ts : List Str) (t : Str) (c : Config) (v : Value) (hc : c.Ok) (hp : c.Plain) : (withNames t ts c v).isSome = true ↔ ¬ ArrayOnPath c (t :: ts) := by
  have hroot : ∀ c : Config, c.nullOrAssoc = true ↔ ¬ ∃ n, c = some n ∧ n.kind = .array := by
    intro c
    cases c with
    | none => simp [Config.nullOrAssoc]
    | some n =>
      obtain ⟨kind, es⟩ := n
      cases kind <;> simp [Config.nullOrAssoc, Kind.assoc]
  induction ts generalizing t c with
  | nil =>
    simp only [withNames]
    rw [withStep_some hc hp]
    simp only [Option.isSome_some, Bool.and_true]
    rw [hroot c]
    constructor
    · rintro h (h' | ⟨r, es, h1, h2, h3, -⟩)
      · exact h h'
      · obtain ⟨s, hs⟩ := h2
        cases r with
        | nil => exact h1 rfl
        | cons a r =>
          simp only [List.cons_append, List.cons.injEq, List.append_eq_nil_iff] at hs
          exact h3 (by rw [hs.1, hs.2.1])
    · intro h h'
      exact h (Or.inl h')
  | cons t' ts ih =>
    simp only [withNames]
    rw [withStep_some hc hp]
    have hold : Config.Ok (Value.asConfig (orNull (first c.entries t))) := by
      cases e : first c.entries t with
      | none => trivial
      | some x => exact asConfig_ok (c.entryOk hc _ (first_mem e))
    have hplain : Config.Plain (Value.asConfig (orNull (first c.entries t))) := by
      cases e : first c.entries t with
      | none => trivial
      | some x =>
        cases c with
        | none => simp [Config.entries, first] at e
        | some n => exact plain_asConfig (hp.2 _ (first_mem e))
    have hi := ih t' _ hold hplain
    rw [Option.isSome_map, Bool.and_eq_true]
    have hi' := hi
    refine Iff.trans (and_congr (hroot c) hi') ?_
    constructor
    · rintro ⟨h1, h2⟩ (h' | ⟨r, es, r1, r2, r3, r4⟩)
      · exact h1 h'
      · apply h2
        have hna := (hroot c).2 h1
        cases r with
        | nil => exact absurd rfl r1
        | cons a r =>
          rw [List.cons_prefix_cons] at r2
          obtain ⟨rfl, r2⟩ := r2
          cases r with
          | nil =>
            rw [get_one_c hc hna] at r4
            rw [r4]
            exact Or.inl ⟨_, rfl, rfl⟩
          | cons b r =>
            rw [get_cons_c hc hna] at r4
            cases e : first c.entries a with
            | none => rw [e] at r4; simp [below] at r4
            | some x => rw [e] at r4; exact Or.inr ⟨b :: r, es, by simp, r2, fun h => r3 (by rw [h]), r4⟩
    · intro h
      refine ⟨fun h' => h (Or.inl h'), ?_⟩
      have hna : c.nullOrAssoc = true := (hroot c).2 (fun h' => h (Or.inl h'))
      rintro (⟨n, hn, hk⟩ | ⟨r, es, r1, r2, r3, r4⟩)
      · refine h (Or.inr ⟨[t], n.entries, by simp, by simp, by simp, ?_⟩)
        rw [get_one_c hc hna]
        cases e : first c.entries t with
        | none => rw [e] at hn; simp [orNull, Value.asConfig] at hn
        | some x =>
          rw [e] at hn
          cases x <;> simp only [orNull, Value.asConfig, Option.some.injEq, reduceCtorEq] at hn
          subst hn
          simp only at hk
          rw [hk]
      · cases r with
        | nil => exact absurd rfl r1
        | cons b r =>
          refine h (Or.inr ⟨t :: b :: r, es, by simp, List.cons_prefix_cons.2 ⟨rfl, r2⟩, fun e => r3 (List.cons.inj e).2, ?_⟩)
          rw [get_cons_c hc hna]
          cases e : first c.entries t with
          | none => rw [e] at r4; simp only [orNull, Value.asConfig, get_null] at r4; simp at r4
          | some x => rw [e] at r4; exact r4

/-- `with_value` throws if and only if the path leads through an array (trees without multimaps). -/
theorem C52_throws (c : Config) (path : Str) (v : Value) (hc : c.Ok) (hpl : c.Plain) (hp : namesOf path ≠ []) : withValue c path v = none ↔ ArrayOnPath c (namesOf path) := by
  unfold withValue
  rw [names_eq]
  cases hn : namesOf path with
  | nil => exact absurd hn hp
  | cons t ts =>
    rw [show nonEmptyPieces dot path = t :: ts from hn]
    simp only [nextName, Option.map_eq_none_iff]
    have := withNames_isSome ts t c v hc hpl
    cases e : withNames t ts c v with
    | none => rw [e] at this; simp at this; simpa using this
    | some n => rw [e] at this; simp at this; simpa using this

/-- The full property fails for a path without names: the value is stored under the empty name, which no path reaches. -/
theorem C52_root_violated : ∃ c path v c', c.Ok ∧ withValue c path v = some c' ∧ v ≠ .hole ∧ valueAt c' path = none ∧ keys c' = [[]] :=
  ⟨none, [], .scalar (.int 1), some ⟨.map, [([], .scalar (.int 1))]⟩, trivial, by rw [withValue, names_eq]; rfl, by simp, by rw [valueAt_eq]; rfl, rfl⟩

def dup : Node := ⟨.multimap, [(['a'], .scalar (.int 1)), (['a'], .scalar (.int 2))]⟩

/-- In a multimap the second entry of the name becomes null, though only the first one is reached by the path. -/
theorem C52_multimap_violated : ∃ c path v c', c.Ok ∧ withValue c path v = some c' ∧ deref c' 1 = some (['a'], .hole) ∧ deref c 1 = some (['a'], .scalar (.int 2)) :=
  ⟨some dup, ['a'], .scalar (.int 3), some ⟨.multimap, [(['a'], .scalar (.int 3)), (['a'], .hole)]⟩, by simp [Config.Ok, dup, Node.Ok, KeysOk, Value.Ok, strLt],
    by rw [withValue, names_eq]; rfl, rfl, rfl⟩

/-! ### The result is well-formed again -/

theorem mem_replace_uniq {t : Str} {y : Value} {es : Entries} {e : Str × Value} (h : e ∈ es.map (fun e => if e.1 = t then (t, y) else e)) : e ∈ es ∨ e.2 = y := by
  obtain ⟨x, hx, rfl⟩ := List.mem_map.1 h
  split
  · exact Or.inr rfl
  · exact Or.inl hx

theorem withStep_entries {t : Str} {f : Value → Value → Option Value} {c : Config} {v : Value} {n : Node} (hc : c.Ok) (hp : c.Plain) (h : withStep t f c v = some n) :
    n.kind ≠ .multimap ∧ ∃ y, f (orNull (first c.entries t)) v = some y ∧ ∀ e ∈ n.entries, e ∈ c.entries ∨ e.2 = y := by
  have hspec := withStep_spec hc h
  obtain ⟨hna, hkind, -, -, y, -, hy⟩ := hspec
  have hkm : c.kind ≠ .multimap := by
    cases c with
    | none => simp [Config.kind]
    | some n => exact hp.1
  refine ⟨by rw [hkind]; exact hkm, y, hy, ?_⟩
  have ha := c.kind_assoc hna
  have hk := c.keysOk hc
  have hnd : (keysOf c.entries).Nodup := nodup_of_keysOk ha hkm hk
  unfold withStep at h
  rw [if_pos hna, emptyCopy_eq, withLoop_eq ha (c.noHole hc) [] v false (by simpa using hk)] at h
  cases e : first c.entries t with
  | none =>
    have ht := first_none.1 e
    rw [e] at hy
    simp only [orNull] at hy
    rw [replace_absent ht] at h
    simp only [ht, decide_false, Bool.or_false, Option.map_some, List.nil_append, if_false, hy] at h
    intro x hx
    rcases put_mem h hx with h' | h'
    · exact Or.inr h'
    · exact Or.inl h'
  | some x =>
    have ht : t ∈ keysOf c.entries := List.mem_map_of_mem (f := fun e => e.1) (first_mem e)
    rw [e] at hy
    simp only [orNull] at hy
    rw [replace_uniq hnd v x e, hy] at h
    simp only [ht, decide_true, Bool.or_true, Option.map_some, List.nil_append, Option.some.injEq] at h
    subst h
    intro z hz
    exact mem_replace_uniq hz

theorem withNames_ok (ts : List Str) (t : Str) (c : Config) (v : Value) (n : Node) (hc : c.Ok) (hp : c.Plain) (hv : v.Ok) (hvp : Plain v) (h : withNames t ts c v = some n) :
    Config.Ok (some n) ∧ Config.Plain (some n) := by
  have hentries : ∀ (c : Config), c.Plain → ∀ e ∈ c.entries, Plain e.2 := by
    intro c hp
    cases c with
    | none => simp [Config.entries]
    | some n => exact hp.2
  induction ts generalizing t c n with
  | nil =>
    simp only [withNames] at h
    have h3 := (withStep_spec hc h).2.2.1
    obtain ⟨h1, y, hy, h2⟩ := withStep_entries hc hp h
    simp only [Option.some.injEq] at hy
    subst hy
    refine ⟨⟨h3, fun e he => ?_⟩, h1, fun e he => ?_⟩
    · rcases h2 e he with h' | h'
      · exact c.entryOk hc e h'
      · rw [h']; exact hv
    · rcases h2 e he with h' | h'
      · exact hentries c hp e h'
      · rw [h']; exact hvp
  | cons t' ts ih =>
    simp only [withNames] at h
    have h3 := (withStep_spec hc h).2.2.1
    obtain ⟨h1, y, hy, h2⟩ := withStep_entries hc hp h
    have hold : Config.Ok (Value.asConfig (orNull (first c.entries t))) := by
      cases e : first c.entries t with
      | none => trivial
      | some x => exact asConfig_ok (c.entryOk hc _ (first_mem e))
    have hplain : Config.Plain (Value.asConfig (orNull (first c.entries t))) := by
      cases e : first c.entries t with
      | none => trivial
      | some x => exact plain_asConfig (hentries c hp _ (first_mem e))
    cases hm : withNames t' ts (Value.asConfig (orNull (first c.entries t))) v with
    | none => rw [hm] at hy; simp at hy
    | some m =>
      rw [hm] at hy
      simp only [Option.map_some, Option.some.injEq] at hy
      subst hy
      obtain ⟨i1, i2⟩ := ih t' _ m hold hplain hm
      refine ⟨⟨h3, fun e he => ?_⟩, h1, fun e he => ?_⟩
      · rcases h2 e he with h' | h'
        · exact c.entryOk hc e h'
        · rw [h']
          simp only [ofConfig, Value.Ok, entriesOk_iff]
          exact i1
      · rcases h2 e he with h' | h'
        · exact hentries c hp e h'
        · rw [h']
          exact .conf _ _ i2.1 i2.2

/-- Without multimaps, setting well-formed values gives well-formed configs, so that the theorems apply to the result again. -/
theorem C52_ok (c c' : Config) (path : Str) (v : Value) (hc : c.Ok) (hp : c.Plain) (hv : v.Ok) (hvp : Plain v) (h : withValue c path v = some c') : c'.Ok ∧ c'.Plain := by
  unfold withValue at h
  cases hm : withNames (nextName (names path)).1 (nextName (names path)).2 c v with
  | none => rw [hm] at h; simp at h
  | some n =>
    rw [hm] at h
    simp only [Option.map_some, Option.some.injEq] at h
    subst h
    exact withNames_ok _ _ c v n hc hp hv hvp hm

example : ∃ c', withValue (some nested) ['b', '.', 'y'] (.scalar (.int 5)) = some c' ∧ valueAt c' ['b', '.', 'x'] = some (.scalar (.int 2)) ∧ valueAt c' ['b', '.', 'y'] = some (.scalar (.int 5)) :=
  ⟨_, by rw [withValue, names_eq]; rfl, by rw [valueAt_eq]; rfl, by rw [valueAt_eq]; rfl⟩

/-! ## without_path -/

theorem withoutNames_spec (ts : List Str) (t : Str) (c c' : Config) (hc : c.Ok) (h : withoutNames t ts c = some c') :
    c'.Ok ∧ (c' = none ↔ c = none) ∧ get c' (t :: ts) = none ∧ (∀ q, Apart (t :: ts) q → get c' q = get c q) ∧
    (∀ r k es, r ≠ [] → r <+: t :: ts → r ≠ t :: ts → get c r = some (.conf k es) → ∃ es', get c' r = some (.conf k es')) ∧
    (∀ r, r ≠ [] → r <+: t :: ts → get c r = none → get c' r = none) := by
  induction ts generalizing t c c' with
  | nil =>
    cases c with
    | none =>
      simp only [withoutNames, Option.some.injEq] at h
      subst h
      exact ⟨trivial, by simp, get_null _, fun q _ => rfl, fun r k es _ _ _ h => by rw [get_null] at h; simp at h, fun r _ _ h => h⟩
    | some n =>
      simp only [withoutNames] at h
      split at h
      · rename_i ha
        rw [emptyCopy_some, withoutLoop_eq ha (node_noHole hc) [] (node_keys hc)] at h
        cases hr : withoutEntries t (fun _ => some none) n.entries with
        | none => rw [hr] at h; simp at h
        | some es' =>
          rw [hr] at h
          simp only [Option.map_some, List.nil_append, Option.some.injEq] at h
          subst h
          have hok : Config.Ok (some ⟨n.kind, es'⟩) := by
            refine ⟨hc.1.sublist (without_sublist hr), fun e he => ?_⟩
            rcases without_mem hr e he with h' | ⟨x, -, h'⟩
            · exact hc.2 e h'
            · simp at h'
          have hd := without_drop hr
          have hf := without_first hr
          have hq : ∀ q, Apart [t] q → get (some ⟨n.kind, es'⟩) q = get (some n) q := by
            intro q hq
            cases q with
            | nil => exact absurd List.nil_prefix hq.2
            | cons k q =>
              have hk : k ≠ t := by rintro rfl; exact hq.1 (by simp)
              cases q with
              | nil => rw [get_one hok ha, get_one hc ha]; exact hf k hk
              | cons k' q => rw [get_cons hok ha, get_cons hc ha]; simp only [hf k hk]
          have hnone : get (some ⟨n.kind, es'⟩) [t] = none := by rw [get_one hok ha]; exact hd
          have hpre : ∀ r : List Str, r ≠ [] → r <+: [t] → r = [t] := by
            intro r hr ⟨s, hs⟩
            cases r with
            | nil => exact absurd rfl hr
            | cons a r =>
              simp only [List.cons_append, List.cons.injEq, List.append_eq_nil_iff] at hs
              rw [hs.1, hs.2.1]
          refine ⟨hok, by simp, hnone, hq, fun r k es r1 r2 r3 _ => absurd (hpre r r1 r2) r3, fun r r1 r2 _ => by rw [hpre r r1 r2]; exact hnone⟩
      · simp at h
  | cons t' ts ih =>
    cases c with
    | none =>
      simp only [withoutNames, Option.some.injEq] at h
      subst h
      exact ⟨trivial, by simp, get_null _, fun q _ => rfl, fun r k es _ _ _ h => by rw [get_null] at h; simp at h, fun r _ _ h => h⟩
    | some n =>
      simp only [withoutNames] at h
      split at h
      · rename_i ha
        rw [emptyCopy_some, withoutLoop_eq ha (node_noHole hc) [] (node_keys hc)] at h
        cases hr : withoutEntries t (fun x => (withoutNames t' ts x.asConfig).map (fun m => some (ofConfig m))) n.entries with
        | none => rw [hr] at h; simp at h
        | some es' =>
          rw [hr] at h
          simp only [Option.map_some, List.nil_append, Option.some.injEq] at h
          subst h
          have hr' : withoutEntries t (fun x => ((withoutNames t' ts x.asConfig).map ofConfig).map some) n.entries = some es' := by
            rw [← hr]; congr 1; funext x; cases withoutNames t' ts x.asConfig <;> rfl
          have hok : Config.Ok (some ⟨n.kind, es'⟩) := by
            refine ⟨hc.1.sublist (without_sublist hr), fun e he => ?_⟩
            rcases without_mem hr' e he with h' | ⟨x, hx, h'⟩
            · exact hc.2 e h'
            · cases hm : withoutNames t' ts x.asConfig with
              | none => rw [hm] at h'; simp at h'
              | some m =>
                rw [hm] at h'
                simp only [Option.map_some, Option.some.injEq] at h'
                have := (ih t' x.asConfig m (asConfig_ok (hc.2 _ hx)) hm).1
                rw [← h']
                cases m with
                | none => simp [ofConfig, Value.Ok]
                | some m => simp only [ofConfig, Value.Ok, entriesOk_iff]; exact this
          have hf := without_first hr
          have hch := without_change hr'
          -- the nested config
          have hcase : (first n.entries t = none ∧ first es' t = none) ∨
              ∃ x m, first n.entries t = some x ∧ first es' t = some (ofConfig m) ∧ withoutNames t' ts x.asConfig = some m ∧ x.asConfig.Ok := by
            cases e : first n.entries t with
            | none => rw [e] at hch; exact Or.inl ⟨rfl, hch⟩
            | some x =>
              rw [e] at hch
              obtain ⟨y, h1, h2⟩ := hch
              cases hm : withoutNames t' ts x.asConfig with
              | none => rw [hm] at h1; simp at h1
              | some m =>
                rw [hm] at h1
                simp only [Option.map_some, Option.some.injEq] at h1
                exact Or.inr ⟨x, m, rfl, by rw [h2, h1], hm, asConfig_ok (hc.2 _ (first_mem e))⟩
          have hback : ∀ m : Config, (ofConfig m).asConfig = m := by
            intro m
            cases m <;> rfl
          have hget : ∀ b q, get (some ⟨n.kind, es'⟩) (t :: b :: q) = below (first es' t) (b :: q) := fun b q => get_cons hok ha t b q
          have hget0 : ∀ b q, get (some n) (t :: b :: q) = below (first n.entries t) (b :: q) := fun b q => get_cons hc ha t b q
          refine ⟨hok, by simp, ?_, fun q hq => ?_, fun r k es r1 r2 r3 r4 => ?_, fun r r1 r2 r4 => ?_⟩
          · rw [hget]
            rcases hcase with ⟨-, e⟩ | ⟨x, m, -, e, hm, hxo⟩
            · rw [e]; rfl
            · rw [e]; simp only [below, hback]
              exact (ih t' _ m hxo hm).2.2.1
          · cases q with
            | nil => exact absurd List.nil_prefix hq.2
            | cons k q =>
              by_cases hk : k = t
              · subst hk
                rw [apart_cons] at hq
                cases q with
                | nil => exact absurd List.nil_prefix hq.2
                | cons b q =>
                  rw [hget, hget0]
                  rcases hcase with ⟨e1, e2⟩ | ⟨x, m, e1, e2, hm, hxo⟩
                  · rw [e1, e2]
                  · rw [e1, e2]; simp only [below, hback]
                    exact (ih t' _ m hxo hm).2.2.2.1 _ hq
              · cases q with
                | nil => rw [get_one hok ha, get_one hc ha]; exact hf k hk
                | cons k' q => rw [get_cons hok ha, get_cons hc ha]; simp only [hf k hk]
          · cases r with
            | nil => exact absurd rfl r1
            | cons a r =>
              rw [List.cons_prefix_cons] at r2
              obtain ⟨rfl, r2⟩ := r2
              cases r with
              | nil =>
                rw [get_one hc ha] at r4
                rw [get_one hok ha]
                rcases hcase with ⟨e1, e2⟩ | ⟨x, m, e1, e2, hm, hxo⟩
                · rw [e1] at r4; simp at r4
                · rw [e1] at r4
                  simp only [Option.some.injEq] at r4
                  subst r4
                  show ∃ es'', first es' a = _
                  rw [e2]
                  simp only [Value.asConfig] at hm
                  have hkind : ∀ (p : List Str) (s : Str) (k : Kind) (es : Entries) (m : Config), withoutNames s p (some ⟨k, es⟩) = some m → ∃ es'', m = some ⟨k, es''⟩ := by
                    intro p s k es m hm
                    have hl : ∀ (g : Value → Option (Option Value)) (es : Entries) (acc acc' : Node), withoutLoop s g es acc = some acc' → acc'.kind = acc.kind := by
                      intro g es
                      induction es with
                      | nil => intro acc acc' h; simp only [withoutLoop, Option.some.injEq] at h; rw [h]
                      | cons e es ihl =>
                        intro acc acc' h
                        obtain ⟨k0, x⟩ := e
                        have hputk : ∀ (m m' : Node) (key : Str) (w : Value), m.put key w = some m' → m'.kind = m.kind := by
                          intro m m' key w h
                          obtain ⟨kd, es⟩ := m
                          cases kd <;> simp only [Node.put, Option.some.injEq, reduceCtorEq] at h <;> subst h <;> rfl
                        cases x with
                        | hole => exact ihl acc acc' h
                        | _ =>
                          simp only [withoutLoop] at h
                          split at h
                          · split at h
                            · simp at h
                            · exact ihl _ _ h
                            · split at h
                              · simp at h
                              · rename_i hput
                                rw [ihl _ _ h, hputk _ _ _ _ hput]
                          · split at h
                            · simp at h
                            · rename_i hput
                              rw [ihl _ _ h, hputk _ _ _ _ hput]
                    cases p with
                    | nil =>
                      simp only [withoutNames] at hm
                      split at hm
                      · rw [emptyCopy_some] at hm
                        cases hw : withoutLoop s (fun _ => some none) es ⟨k, []⟩ with
                        | none => rw [hw] at hm; simp at hm
                        | some w =>
                          rw [hw] at hm
                          simp only [Option.map_some, Option.some.injEq] at hm
                          subst hm
                          have := hl _ _ _ _ hw
                          obtain ⟨wk, we⟩ := w
                          simp only at this
                          subst this
                          exact ⟨we, rfl⟩
                      · simp at hm
                    | cons s' p =>
                      simp only [withoutNames] at hm
                      split at hm
                      · rw [emptyCopy_some] at hm
                        cases hw : withoutLoop s (fun x => (withoutNames s' p x.asConfig).map (fun m => some (ofConfig m))) es ⟨k, []⟩ with
                        | none => rw [hw] at hm; simp at hm
                        | some w =>
                          rw [hw] at hm
                          simp only [Option.map_some, Option.some.injEq] at hm
                          subst hm
                          have := hl _ _ _ _ hw
                          obtain ⟨wk, we⟩ := w
                          simp only at this
                          subst this
                          exact ⟨we, rfl⟩
                      · simp at hm
                  obtain ⟨es'', rfl⟩ := hkind _ _ _ _ _ hm
                  exact ⟨es'', rfl⟩
              | cons b r =>
                rw [hget0] at r4
                rw [hget]
                rcases hcase with ⟨e1, e2⟩ | ⟨x, m, e1, e2, hm, hxo⟩
                · rw [e1] at r4; simp [below] at r4
                · rw [e1] at r4
                  rw [e2]
                  simp only [below, hback]
                  exact (ih t' _ m hxo hm).2.2.2.2.1 (b :: r) k es (by simp) r2 (fun e => r3 (by rw [e])) r4
          · cases r with
            | nil => exact absurd rfl r1
            | cons a r =>
              rw [List.cons_prefix_cons] at r2
              obtain ⟨rfl, r2⟩ := r2
              cases r with
              | nil =>
                rw [get_one hc ha] at r4
                rw [get_one hok ha]
                rcases hcase with ⟨e1, e2⟩ | ⟨x, m, e1, e2, hm, hxo⟩
                · exact e2
                · rw [e1] at r4; simp at r4
              | cons b r =>
                rw [hget0] at r4
                rw [hget]
                rcases hcase with ⟨e1, e2⟩ | ⟨x, m, e1, e2, hm, hxo⟩
                · rw [e2]; rfl
                · rw [e1] at r4
                  rw [e2]
                  simp only [below, hback]
                  exact (ih t' _ m hxo hm).2.2.2.2.2 (b :: r) (by simp) r2 r4
      · simp at h

/-- `without_path`: nothing is left at the path, every path apart from it has the same value, configs above it stay configs of their class, and what had no value still has none. -/
theorem C53_partial (c c' : Config) (path : Str) (hc : c.Ok) (hp : namesOf path ≠ []) (h : withoutPath c path = some c') :
    c'.Ok ∧ valueAt c' path = none ∧
    (∀ q, Apart (namesOf path) (namesOf q) → valueAt c' q = valueAt c q) ∧
    (∀ q, namesOf q ≠ [] → namesOf q <+: namesOf path → namesOf q ≠ namesOf path → ∀ k es, valueAt c q = some (.conf k es) → ∃ es', valueAt c' q = some (.conf k es')) ∧
    (∀ q, namesOf q ≠ [] → namesOf q <+: namesOf path → valueAt c q = none → valueAt c' q = none) := by
  unfold withoutPath at h
  rw [names_eq] at h
  simp only [valueAt_eq]
  cases hn : namesOf path with
  | nil => exact absurd hn hp
  | cons t ts =>
    rw [show nonEmptyPieces dot path = t :: ts from hn] at h
    simp only [nextName] at h
    obtain ⟨h1, -, h2, h3, h4, h5⟩ := withoutNames_spec ts t c c' hc h
    exact ⟨h1, h2, fun q hq => h3 _ hq, fun q q1 q2 q3 k es q4 => h4 _ k es q1 q2 q3 q4, fun q q1 q2 q3 => h5 _ q1 q2 q3⟩

/-- The full property fails above the path: a value that is not a config is replaced by a null config. -/
theorem C53_scalar_violated : ∃ c path q c', c.Ok ∧ withoutPath c path = some c' ∧ ¬ namesOf path <+: namesOf q ∧ valueAt c q = some (.scalar (.int 1)) ∧ valueAt c' q = some .null :=
  ⟨some nested, ['a', '.', 'x'], ['a'], some ⟨.map, [(['a'], .null), (['b'], .conf .map [(['x'], .scalar (.int 2))])]⟩, nested_ok, by rw [withoutPath, names_eq]; rfl, by decide,
    by rw [valueAt_eq]; rfl, by rw [valueAt_eq]; rfl⟩

def withArray : Node := ⟨.map, [(['a'], .conf .array [([], .scalar (.int 1))])]⟩

/-- A path through an array, where there is nothing to remove, throws. -/
theorem C53_array_violated : ∃ c path, c.Ok ∧ valueAt c path = none ∧ withoutPath c path = none :=
  ⟨some withArray, ['a', '.', 'x'], by simp [Config.Ok, withArray, Node.Ok, KeysOk, Value.Ok, entriesOk], by rw [valueAt_eq]; rfl, by rw [withoutPath, names_eq]; rfl⟩

example : ∃ c', withoutPath (some nested) ['b', '.', 'x'] = some c' ∧ valueAt c' ['a'] = some (.scalar (.int 1)) ∧ valueAt c' ['b'] = some (.conf .map []) :=
  ⟨_, by rw [withoutPath, names_eq]; rfl, by rw [valueAt_eq]; rfl, by rw [valueAt_eq]; rfl⟩

/-! ## clone -/

/-- A clone is equal in every respect: the same kinds of configs with the same entries in the same order. -/
theorem C55_clone (c : Config) (hc : c.Ok) : clone c = some c := by
  cases c with
  | none => rfl
  | some n =>
    simp only [clone, copyConfig, if_true, emptyCopy_some]
    rw [copyEntries_eq n.entries n.kind [] (entriesOk_keyOk _ (entriesOk_iff.2 hc.2)) (node_keys hc)]
    simp

theorem C55_clone_path (c : Config) (hc : c.Ok) : ∃ c', clone c = some c' ∧ ∀ path, valueAt c' path = valueAt c path := ⟨c, C55_clone c hc, fun _ => rfl⟩

/-! ## filters -/

/-- Filters keep exactly the named (or not named) entries, in their order, and throw for arrays. -/
theorem C55_filter (c : Config) (hc : c.Ok) (list : List Str) (whitelist : Bool) :
    match withFilter c list whitelist with
    | none => ∃ n, c = some n ∧ n.kind = .array
    | some c' => (∀ t ts, get c' (t :: ts) = if (t ∈ list) ↔ (whitelist = true) then get c (t :: ts) else none) ∧
        keys c' = (keys c).filter (fun k => decide ((k ∈ list) ↔ (whitelist = true))) ∧ (c' = none ↔ c = none) := by
  cases c with
  | none =>
    simp only [withFilter]
    refine ⟨fun t ts => by simp [get_null], rfl, by simp⟩
  | some n =>
    have hp : ∀ k : Str, decide (whitelist = list.contains k) = decide ((k ∈ list) ↔ (whitelist = true)) := by
      intro k
      apply decide_eq_decide.2
      by_cases h : k ∈ list <;> cases whitelist <;> simp [h]
    cases ha : n.kind.assoc with
    | false =>
      simp only [withFilter, ha]
      refine ⟨n, rfl, ?_⟩
      obtain ⟨kind, es⟩ := n
      cases kind <;> simp [Kind.assoc] at ha ⊢
    | true =>
      simp only [withFilter, ha, if_true, emptyCopy_some]
      rw [filterLoop_eq ha (node_noHole hc) [] (node_keys hc)]
      simp only [Option.map_some, List.nil_append]
      have hok : Config.Ok (some ⟨n.kind, n.entries.filter (fun e => decide (whitelist = list.contains e.1))⟩) :=
        ⟨hc.1.sublist (List.Sublist.map _ List.filter_sublist), fun e he => hc.2 e (List.mem_filter.1 he).1⟩
      have hfirst : ∀ t, first (n.entries.filter (fun e => decide (whitelist = list.contains e.1))) t = if (t ∈ list) ↔ (whitelist = true) then first n.entries t else none := by
        intro t
        rw [first_filter_key n.entries (fun k => decide (whitelist = list.contains k))]
        rw [hp t]
        by_cases h : (t ∈ list) ↔ (whitelist = true) <;> simp [h]
      refine ⟨fun t ts => ?_, ?_, by simp⟩
      · cases ts with
        | nil => rw [get_one hok ha, get_one hc ha]; exact hfirst t
        | cons t' ts =>
          rw [get_cons hok ha, get_cons hc ha]
          simp only [hfirst t]
          split <;> rfl
      · simp only [keys, ha, if_true]
        rw [List.filter_map]
        congr 1
        apply List.filter_congr
        intro e _
        exact hp e.1

/-! ## with_only_path -/

theorem onlyLoop_eq {t : Str} {empty : Node} {f : Value → Option (Option Value)} {es : Entries} (hh : ∀ e ∈ es, e.2 ≠ .hole) :
    onlyLoop t empty f es = match first es t with
      | none => some none
      | some x => match f x with
        | none => none
        | some none => some none
        | some (some y) => (empty.put t y).map some := by
  induction es with
  | nil => rfl
  | cons e es ih =>
    obtain ⟨k, x⟩ := e
    simp only [List.forall_mem_cons] at hh
    have hx : onlyLoop t empty f ((k, x) :: es) = if k = t then match f x with
        | none => none
        | some none => some none
        | some (some y) => (empty.put t y).map some else onlyLoop t empty f es := by
      cases x with
      | hole => exact absurd rfl hh.1
      | _ => rfl
    rw [hx, ih hh.2]
    by_cases hk : k = t <;> simp [first, hk]

theorem put_single {k : Kind} (ha : k.assoc = true) (t : Str) (y : Value) : Node.put ⟨k, []⟩ t y = some ⟨k, [(t, y)]⟩ := by
  cases k <;> simp [Kind.assoc] at ha <;> rfl

theorem keysOk_single (k : Kind) (ha : k.assoc = true) (t : Str) : KeysOk k [t] := by
  cases k <;> simp [Kind.assoc] at ha <;> simp [KeysOk]

theorem onlyNames_spec (ts : List Str) (t : Str) (c c' : Config) (hc : c.Ok) (h : onlyNames t ts c = some c') :
    c'.Ok ∧ (c' = none ↔ get c (t :: ts) = none) ∧ (∀ r, get c' (t :: ts ++ r) = get c (t :: ts ++ r)) ∧ (∀ q, Apart (t :: ts) q → get c' q = none) ∧
    (∀ r, r ≠ [] → r <+: t :: ts → r ≠ t :: ts → get c (t :: ts) ≠ none → IsConfig (get c' r)) := by
  have hnull : ∀ (c : Config), get c (t :: ts) = none → ∀ r, get c (t :: ts ++ r) = none := by
    intro c
    have : ∀ (p : List Str) (c : Config), p ≠ [] → get c p = none → ∀ r, get c (p ++ r) = none := by
      intro p
      induction p with
      | nil => intro c hp; exact absurd rfl hp
      | cons a p ihp =>
        intro c _ hg r
        cases c with
        | none => exact get_null _
        | some n =>
          cases p with
          | nil =>
            cases r with
            | nil => exact hg
            | cons b r =>
              simp only [get, resolve] at hg
              simp only [List.cons_append, List.nil_append, get, resolve]
              cases e : n.find a with
              | none => rfl
              | some p => rw [e] at hg; simp at hg
          | cons b p =>
            simp only [get, resolve] at hg
            simp only [List.cons_append, get, resolve]
            cases e : n.find a with
            | none => rfl
            | some x => rw [e] at hg; exact ihp x.2.asConfig (by simp) hg r
    exact fun h r => this (t :: ts) c (by simp) h r
  have hnone : c' = none → get c (t :: ts) = none → c'.Ok ∧ (c' = none ↔ get c (t :: ts) = none) ∧ (∀ r, get c' (t :: ts ++ r) = get c (t :: ts ++ r)) ∧ (∀ q, Apart (t :: ts) q → get c' q = none) ∧
      (∀ r, r ≠ [] → r <+: t :: ts → r ≠ t :: ts → get c (t :: ts) ≠ none → IsConfig (get c' r)) := by
    intro h1 h2
    subst h1
    exact ⟨trivial, by simp [h2], fun r => by rw [get_null, hnull c h2 r], fun q _ => get_null _, fun r _ _ _ h => absurd h2 h⟩
  induction ts generalizing t c c' with
  | nil =>
    cases c with
    | none =>
      simp only [onlyNames, Option.some.injEq] at h
      exact hnone h.symm (get_null _)
    | some n =>
      simp only [onlyNames] at h
      split at h
      · rename_i ha
        rw [onlyLoop_eq (node_noHole hc), emptyCopy_some] at h
        cases e : first n.entries t with
        | none =>
          rw [e] at h
          simp only [Option.some.injEq] at h
          exact hnone h.symm (by rw [get_one hc ha, e])
        | some x =>
          rw [e] at h
          simp only [put_single ha, Option.map_some, Option.some.injEq] at h
          subst h
          have hxo : x.Ok := hc.2 _ (first_mem e)
          have hok : Config.Ok (some ⟨n.kind, [(t, x)]⟩) := ⟨keysOk_single _ ha t, by simpa using hxo⟩
          refine ⟨hok, by simp [get_one hc ha, e], fun r => ?_, fun q hq => ?_, fun r r1 r2 r3 => ?_⟩
          · cases r with
            | nil => simp only [List.append_nil]; rw [get_one hok ha, get_one hc ha, e]; simp [first]
            | cons b r => simp only [List.cons_append, List.nil_append]; rw [get_cons hok ha, get_cons hc ha, e]; simp [first]
          · cases q with
            | nil => exact absurd List.nil_prefix hq.2
            | cons k q =>
              have hk : ¬ t = k := by rintro rfl; exact hq.1 (by simp)
              cases q with
              | nil => rw [get_one hok ha]; simp [first, hk]
              | cons k' q => rw [get_cons hok ha]; simp [first, hk, below]
          · obtain ⟨s, hs⟩ := r2
            cases r with
            | nil => exact absurd rfl r1
            | cons a r =>
              simp only [List.cons_append, List.cons.injEq, List.append_eq_nil_iff] at hs
              exact absurd (by rw [hs.1, hs.2.1]) r3
      · simp at h
  | cons t' ts ih =>
    cases c with
    | none =>
      simp only [onlyNames, Option.some.injEq] at h
      exact hnone h.symm (get_null _)
    | some n =>
      simp only [onlyNames] at h
      split at h
      · rename_i ha
        rw [onlyLoop_eq (node_noHole hc), emptyCopy_some] at h
        cases e : first n.entries t with
        | none =>
          rw [e] at h
          simp only [Option.some.injEq] at h
          exact hnone h.symm (by rw [get_cons hc ha, e]; rfl)
        | some x =>
          rw [e] at h
          simp only at h
          have hxo : x.asConfig.Ok := asConfig_ok (hc.2 _ (first_mem e))
          cases hm : onlyNames t' ts x.asConfig with
          | none => rw [hm] at h; simp at h
          | some m =>
            have hnull' : ∀ (c : Config), get c (t' :: ts) = none → ∀ r, get c (t' :: ts ++ r) = none := by
              intro c hg r
              have h1 := hnull (some ⟨.map, [(t, ofConfig c)]⟩)
              have hb : (ofConfig c).asConfig = c := by cases c <;> rfl
              have h2 : ∀ b q, get (some ⟨.map, [(t, ofConfig c)]⟩) (t :: b :: q) = get c (b :: q) := by
                intro b q
                rw [get_cons' (n := ⟨.map, [(t, ofConfig c)]⟩) (List.pairwise_singleton ..) rfl]
                simp [first, hb, below]
              have h3 := h1 (by rw [h2]; exact hg) r
              simp only [List.cons_append] at h3 ⊢
              rwa [h2] at h3
            have hnone' : m = none → get x.asConfig (t' :: ts) = none → m.Ok ∧ (m = none ↔ get x.asConfig (t' :: ts) = none) ∧ (∀ r, get m (t' :: ts ++ r) = get x.asConfig (t' :: ts ++ r)) ∧
                (∀ q, Apart (t' :: ts) q → get m q = none) ∧ (∀ r, r ≠ [] → r <+: t' :: ts → r ≠ t' :: ts → get x.asConfig (t' :: ts) ≠ none → IsConfig (get m r)) := by
              intro h1 h2
              subst h1
              exact ⟨trivial, by simp [h2], fun r => by rw [get_null, hnull' _ h2 r], fun q _ => get_null _, fun r _ _ _ h => absurd h2 h⟩
            obtain ⟨i1, i2, i3, i4, i5⟩ := ih t' x.asConfig m hxo hm hnull' hnone'
            have hgc : ∀ b q, get (some n) (t :: b :: q) = get x.asConfig (b :: q) := by
              intro b q
              rw [get_cons hc ha, e]
              rfl
            rw [hm] at h
            cases m with
            | none =>
              simp only [Option.some.injEq] at h
              exact hnone h.symm (by rw [hgc]; exact i2.1 rfl)
            | some m =>
              simp only [put_single ha, Option.map_some, Option.some.injEq] at h
              subst h
              have hmo : (ofConfig (some m)).Ok := by simp only [ofConfig, Value.Ok, entriesOk_iff]; exact i1
              have hok : Config.Ok (some ⟨n.kind, [(t, ofConfig (some m))]⟩) := ⟨keysOk_single _ ha t, by simpa using hmo⟩
              have hgm : ∀ b q, get (some ⟨n.kind, [(t, ofConfig (some m))]⟩) (t :: b :: q) = get (some m) (b :: q) := by
                intro b q
                rw [get_cons hok ha]
                simp only [first, if_true]
                rfl
              refine ⟨hok, ?_, fun r => ?_, fun q hq => ?_, fun r r1 r2 r3 r4 => ?_⟩
              · simp only [reduceCtorEq, false_iff]
                rw [hgc]
                intro hg
                exact absurd (i2.2 hg) (by simp)
              · simp only [List.cons_append]
                rw [hgm, hgc]
                exact i3 r
              · cases q with
                | nil => exact absurd List.nil_prefix hq.2
                | cons k q =>
                  by_cases hk : t = k
                  · subst hk
                    rw [apart_cons] at hq
                    cases q with
                    | nil => exact absurd List.nil_prefix hq.2
                    | cons b q => rw [hgm]; exact i4 _ hq
                  · cases q with
                    | nil => rw [get_one hok ha]; simp [first, hk]
                    | cons k' q => rw [get_cons hok ha]; simp [first, hk, below]
              · cases r with
                | nil => exact absurd rfl r1
                | cons a r =>
                  rw [List.cons_prefix_cons] at r2
                  obtain ⟨rfl, r2⟩ := r2
                  cases r with
                  | nil => rw [get_one hok ha]; simp only [first, if_true]; exact ⟨_, _, rfl⟩
                  | cons b r =>
                    rw [hgm]
                    exact i5 (b :: r) (by simp) r2 (fun e => r3 (by rw [e])) (by rw [hgc] at r4; exact r4)
      · simp at h

/-- `with_only_path`: the same values at the path and below it, nothing at paths apart from it, configs above it; a null config if there is nothing at the path. -/
theorem C55_only_path (c c' : Config) (path : Str) (hc : c.Ok) (hp : namesOf path ≠ []) (h : withOnlyPath c path = some c') :
    (∀ q, namesOf path <+: namesOf q → valueAt c' q = valueAt c q) ∧ (∀ q, Apart (namesOf path) (namesOf q) → valueAt c' q = none) ∧
    (c' = none ↔ valueAt c path = none) ∧
    (∀ q, namesOf q ≠ [] → namesOf q <+: namesOf path → namesOf q ≠ namesOf path → valueAt c path ≠ none → IsConfig (valueAt c' q)) := by
  unfold withOnlyPath at h
  rw [names_eq] at h
  simp only [valueAt_eq]
  cases hn : namesOf path with
  | nil => exact absurd hn hp
  | cons t ts =>
    rw [show nonEmptyPieces dot path = t :: ts from hn] at h
    simp only [nextName] at h
    obtain ⟨-, h2, h3, h4, h5⟩ := onlyNames_spec ts t c c' hc h
    refine ⟨fun q hq => ?_, fun q hq => h4 _ hq, h2, fun q q1 q2 q3 q4 => h5 _ q1 q2 q3 q4⟩
    obtain ⟨r, hr⟩ := hq
    rw [← hr]
    exact h3 r

theorem onlyNames_throws (ts : List Str) (t : Str) (c : Config) (hc : c.Ok) (h : onlyNames t ts c = none) : get c (t :: ts) = none := by
  induction ts generalizing t c with
  | nil =>
    cases c with
    | none => exact get_null _
    | some n =>
      simp only [onlyNames] at h
      split at h
      · rename_i ha
        rw [onlyLoop_eq (node_noHole hc), emptyCopy_some] at h
        cases e : first n.entries t with
        | none => rw [e] at h; simp at h
        | some x => rw [e] at h; cases hk : n.kind <;> rw [hk] at h ha <;> simp [Kind.assoc, Node.put] at h ha
      · rename_i ha
        exact get_array (by simpa using ha) _
  | cons t' ts ih =>
    cases c with
    | none => exact get_null _
    | some n =>
      simp only [onlyNames] at h
      split at h
      · rename_i ha
        rw [onlyLoop_eq (node_noHole hc), emptyCopy_some] at h
        rw [get_cons_c hc ha]
        cases e : first n.entries t with
        | none => simp [Config.entries, e, below]
        | some x =>
          rw [e] at h
          have hx := asConfig_ok (Config.entryOk hc _ (first_mem e))
          simp only [Config.entries, e, below]
          simp only at h
          cases e2 : onlyNames t' ts x.asConfig with
          | none => exact ih t' x.asConfig hx e2
          | some o =>
            rw [e2] at h
            cases o with
            | none => simp at h
            | some m => cases hk : n.kind <;> rw [hk] at h ha <;> simp [Kind.assoc, Node.put] at h ha
      · rename_i ha
        exact get_array (by simpa using ha) _

/-- It throws only if there is nothing at the path. -/
theorem C55_only_path_throws (c : Config) (path : Str) (hc : c.Ok) (hp : namesOf path ≠ []) (h : withOnlyPath c path = none) : valueAt c path = none := by
  unfold withOnlyPath at h
  rw [names_eq] at h
  rw [valueAt_eq]
  cases hn : namesOf path with
  | nil => exact absurd hn hp
  | cons t ts =>
    rw [show nonEmptyPieces dot path = t :: ts from hn] at h
    exact onlyNames_throws ts t c hc h

example : ∃ c', withOnlyPath (some nested) ['b', '.', 'x'] = some c' ∧ valueAt c' ['b', '.', 'x'] = some (.scalar (.int 2)) ∧ valueAt c' ['a'] = none :=
  ⟨_, by rw [withOnlyPath, names_eq]; rfl, by rw [valueAt_eq]; rfl, by rw [valueAt_eq]; rfl⟩

example : ∃ c', withFilter (some nested) [['b']] true = some c' ∧ valueAt c' ['b', '.', 'x'] = some (.scalar (.int 2)) ∧ valueAt c' ['a'] = none :=
  ⟨_, rfl, by rw [valueAt_eq]; rfl, by rw [valueAt_eq]; rfl⟩

end Verif.Config
