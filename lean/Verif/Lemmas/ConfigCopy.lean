import Verif.Lemmas.Config

/-!
# Lemmas about copies of configs with changes
-/
set_option autoImplicit false

namespace Verif.Config

/-! ## with_value -/

/-- The entries after setting a value: the value is used by the first entry of the name, the others get null. -/
def replaceEntries (t : Str) (f : Value → Value → Option Value) : Entries → Value → Option Entries
  | [], _ => some []
  | (k, x) :: r, v =>
    if k = t then (f x v).bind (fun y => (replaceEntries t f r .hole).map (fun r' => (k, y) :: r'))
    else (replaceEntries t f r v).map (fun r' => (k, x) :: r')

theorem replace_keys {t : Str} {f : Value → Value → Option Value} {es es' : Entries} {v : Value} (h : replaceEntries t f es v = some es') : keysOf es' = keysOf es := by
  induction es generalizing v es' with
  | nil => simp only [replaceEntries, Option.some.injEq] at h; subst h; rfl
  | cons e es ih =>
    obtain ⟨k, x⟩ := e
    simp only [replaceEntries] at h
    split at h
    · cases hy : f x v with
      | none => rw [hy] at h; simp at h
      | some y =>
        rw [hy, Option.bind_some] at h
        cases hr : replaceEntries t f es .hole with
        | none => rw [hr] at h; simp at h
        | some r' => rw [hr] at h; simp only [Option.map_some, Option.some.injEq] at h; subst h; simp [ih hr]
    · cases hr : replaceEntries t f es v with
      | none => rw [hr] at h; simp at h
      | some r' => rw [hr] at h; simp only [Option.map_some, Option.some.injEq] at h; subst h; simp [ih hr]

theorem replace_absent {t : Str} {f : Value → Value → Option Value} {es : Entries} {v : Value} (h : t ∉ keysOf es) : replaceEntries t f es v = some es := by
  induction es with
  | nil => rfl
  | cons e es ih =>
    obtain ⟨k, x⟩ := e
    simp only [keysOf_cons, List.mem_cons, not_or] at h
    have h' : ¬ k = t := fun e => h.1 e.symm
    simp [replaceEntries, h', ih h.2]

theorem replace_first {t : Str} {f : Value → Value → Option Value} {es es' : Entries} {v : Value} (h : replaceEntries t f es v = some es') :
    (∀ k, k ≠ t → first es' k = first es k) ∧ ∀ x, first es t = some x → ∃ y, f x v = some y ∧ first es' t = some y := by
  induction es generalizing v es' with
  | nil => simp only [replaceEntries, Option.some.injEq] at h; subst h; exact ⟨fun _ _ => rfl, by simp [first]⟩
  | cons e es ih =>
    obtain ⟨k, x⟩ := e
    simp only [replaceEntries] at h
    split at h
    · rename_i hk
      cases hy : f x v with
      | none => rw [hy] at h; simp at h
      | some y =>
        rw [hy, Option.bind_some] at h
        cases hr : replaceEntries t f es .hole with
        | none => rw [hr] at h; simp at h
        | some r' =>
          rw [hr] at h; simp only [Option.map_some, Option.some.injEq] at h; subst h
          have hi := ih hr
          subst hk
          refine ⟨fun k' hk' => ?_, fun x' hx' => ?_⟩
          · have : ¬ k = k' := fun e => hk' e.symm
            simp [first, this, hi.1 k' hk']
          · simp only [first, if_true, Option.some.injEq] at hx' ⊢
            subst hx'
            exact ⟨y, hy, rfl⟩
    · rename_i hk
      cases hr : replaceEntries t f es v with
      | none => rw [hr] at h; simp at h
      | some r' =>
        rw [hr] at h; simp only [Option.map_some, Option.some.injEq] at h; subst h
        have hi := ih hr
        refine ⟨fun k' hk' => ?_, fun x' hx' => ?_⟩
        · simp only [first]; rw [hi.1 k' hk']
        · simp only [first, hk, if_false] at hx' ⊢
          exact hi.2 x' hx'

theorem withLoop_eq {t : Str} {f : Value → Value → Option Value} {kind : Kind} (ha : kind.assoc = true) {es : Entries} (hh : ∀ e ∈ es, e.2 ≠ .hole) (a : Entries) (v : Value) (r : Bool)
    (hk : KeysOk kind (keysOf a ++ keysOf es)) :
    withLoop t f es ⟨kind, a⟩ v r = (replaceEntries t f es v).map (fun es' => (⟨kind, a ++ es'⟩, if t ∈ keysOf es then .hole else v, r || decide (t ∈ keysOf es))) := by
  induction es generalizing a v r with
  | nil => simp [withLoop, replaceEntries]
  | cons e es ih =>
    obtain ⟨k, x⟩ := e
    simp only [List.forall_mem_cons] at hh
    have hput : ∀ y, Node.put ⟨kind, a⟩ k y = some ⟨kind, a ++ [(k, y)]⟩ := fun y => put_snoc y ha (KeysOk.snoc hk)
    have hk' : ∀ y, KeysOk kind (keysOf (a ++ [(k, y)]) ++ keysOf es) := fun y => by simpa using hk
    have hx : withLoop t f ((k, x) :: es) ⟨kind, a⟩ v r =
        if k = t then
          match f x v with
          | none => none
          | some y => match Node.put ⟨kind, a⟩ t y with | none => none | some acc' => withLoop t f es acc' .hole true
        else match Node.put ⟨kind, a⟩ k x with | none => none | some acc' => withLoop t f es acc' v r := by
      cases x with
      | hole => exact absurd rfl hh.1
      | _ => rfl
    rw [hx]
    by_cases hkt : k = t
    · subst hkt
      simp only [if_true, replaceEntries, keysOf_cons, List.mem_cons, true_or, decide_true, Bool.or_true]
      cases hy : f x v with
      | none => rfl
      | some y =>
        simp only [hput, Option.bind_some]
        rw [ih hh.2 (a ++ [(k, y)]) .hole true (hk' y)]
        cases replaceEntries k f es .hole with
        | none => rfl
        | some r' => simp
    · have hkt' : ¬ t = k := fun e => hkt e.symm
      simp only [hkt, if_false, replaceEntries, keysOf_cons, List.mem_cons, hkt', false_or, hput]
      rw [ih hh.2 (a ++ [(k, x)]) v r (hk' x)]
      cases replaceEntries t f es v with
      | none => rfl
      | some r' => simp

/-- a config's class, or a map for a null config -/
def Config.kind (c : Config) : Kind :=
  match c with
  | none => .map
  | some n => n.kind

theorem emptyCopy_eq (c : Config) : emptyCopy c = ⟨c.kind, []⟩ := by
  cases c with
  | none => rfl
  | some n => exact emptyCopy_some n

theorem Config.keysOk {c : Config} (h : c.Ok) : KeysOk c.kind (keysOf c.entries) := by
  cases c with
  | none => exact List.Pairwise.nil
  | some n => exact h.1

theorem Config.kind_assoc {c : Config} (h : c.nullOrAssoc = true) : c.kind.assoc = true := by
  cases c with
  | none => rfl
  | some n => exact h

theorem Value.Ok.notHole {v : Value} (h : v.Ok) : v ≠ .hole := by rintro rfl; simp [Value.Ok] at h

theorem Config.entryOk {c : Config} (h : c.Ok) : ∀ e ∈ c.entries, e.2.Ok := by
  cases c with
  | none => simp [Config.entries]
  | some n => exact h.2

theorem Config.noHole {c : Config} (h : c.Ok) : ∀ e ∈ c.entries, e.2 ≠ .hole := fun e he => (c.entryOk h e he).notHole

def orNull (o : Option Value) : Value :=
  match o with
  | some x => x
  | none => .null

/-- The step of `with_value`, in terms of the first entry of each key. -/
theorem withStep_spec {t : Str} {f : Value → Value → Option Value} {c : Config} {v : Value} {n : Node} (hc : c.Ok) (h : withStep t f c v = some n) :
    c.nullOrAssoc = true ∧ n.kind = c.kind ∧ n.Ok ∧ (∀ k, k ≠ t → first n.entries k = first c.entries k) ∧
    ∃ y, first n.entries t = some y ∧ f (orNull (first c.entries t)) v = some y := by
  unfold withStep at h
  split at h
  · rename_i hna
    have ha := c.kind_assoc hna
    have hk := c.keysOk hc
    rw [emptyCopy_eq, withLoop_eq ha (c.noHole hc) [] v false (by simpa using hk)] at h
    refine ⟨hna, ?_⟩
    cases hr : replaceEntries t f c.entries v with
    | none => rw [hr] at h; simp at h
    | some es' =>
      rw [hr] at h
      have hkeys := replace_keys hr
      have hf := replace_first hr
      by_cases ht : t ∈ keysOf c.entries
      · simp only [ht, decide_true, Bool.or_true, Option.map_some, List.nil_append, Option.some.injEq] at h
        subst h
        refine ⟨rfl, by simp only [Node.Ok]; rw [hkeys]; exact hk, hf.1, ?_⟩
        cases e : first c.entries t with
        | none => exact absurd ht (first_none.1 e)
        | some x => obtain ⟨y, h1, h2⟩ := hf.2 x e; exact ⟨y, h2, h1⟩
      · have he : es' = c.entries := by rw [replace_absent ht] at hr; exact (Option.some.inj hr).symm
        simp only [ht, decide_false, Bool.or_false, Option.map_some, List.nil_append, if_false] at h
        have e : first c.entries t = none := first_none.2 ht
        rw [e]
        cases hy : f .null v with
        | none => rw [hy] at h; simp at h
        | some y =>
          rw [hy] at h
          simp only at h
          rw [he] at h
          have hok : Node.Ok ⟨c.kind, c.entries⟩ := hk
          have := put_ok hok h
          have hfp := first_put_absent hok h ht
          refine ⟨this.2, this.1, fun k hk => by rw [hfp k]; simp [hk], y, by rw [hfp t]; simp, hy⟩
  · simp at h

/-! ## without_path -/

/-- the entries left without a path -/
def withoutEntries (t : Str) (f : Value → Option (Option Value)) : Entries → Option Entries
  | [] => some []
  | (k, x) :: r =>
    if k = t then
      (f x).bind (fun y => (withoutEntries t f r).map (fun r' => match y with | none => r' | some y => (k, y) :: r'))
    else (withoutEntries t f r).map (fun r' => (k, x) :: r')

theorem without_sublist {t : Str} {f : Value → Option (Option Value)} {es es' : Entries} (h : withoutEntries t f es = some es') : (keysOf es').Sublist (keysOf es) := by
  induction es generalizing es' with
  | nil => simp only [withoutEntries, Option.some.injEq] at h; subst h; exact List.Sublist.refl _
  | cons e es ih =>
    obtain ⟨k, x⟩ := e
    simp only [withoutEntries] at h
    split at h
    · cases hy : f x with
      | none => rw [hy] at h; simp at h
      | some y =>
        rw [hy, Option.bind_some] at h
        cases hr : withoutEntries t f es with
        | none => rw [hr] at h; simp at h
        | some r' =>
          rw [hr] at h; simp only [Option.map_some, Option.some.injEq] at h; subst h
          cases y with
          | none => exact (ih hr).cons _
          | some y => exact (ih hr).cons_cons _
    · cases hr : withoutEntries t f es with
      | none => rw [hr] at h; simp at h
      | some r' => rw [hr] at h; simp only [Option.map_some, Option.some.injEq] at h; subst h; exact (ih hr).cons_cons _

theorem without_first {t : Str} {f : Value → Option (Option Value)} {es es' : Entries} (h : withoutEntries t f es = some es') (k : Str) (hk : k ≠ t) : first es' k = first es k := by
  induction es generalizing es' with
  | nil => simp only [withoutEntries, Option.some.injEq] at h; subst h; rfl
  | cons e es ih =>
    obtain ⟨a, x⟩ := e
    simp only [withoutEntries] at h
    split at h
    · rename_i ha
      have hka : ¬ a = k := fun e => hk (by rw [← e, ha])
      cases hy : f x with
      | none => rw [hy] at h; simp at h
      | some y =>
        rw [hy, Option.bind_some] at h
        cases hr : withoutEntries t f es with
        | none => rw [hr] at h; simp at h
        | some r' =>
          rw [hr] at h; simp only [Option.map_some, Option.some.injEq] at h; subst h
          cases y <;> simp [first, hka, ih hr]
    · cases hr : withoutEntries t f es with
      | none => rw [hr] at h; simp at h
      | some r' => rw [hr] at h; simp only [Option.map_some, Option.some.injEq] at h; subst h; simp only [first, ih hr]

/-- removing the entries -/
theorem without_drop {t : Str} {es es' : Entries} (h : withoutEntries t (fun _ => some none) es = some es') : first es' t = none := by
  induction es generalizing es' with
  | nil => simp only [withoutEntries, Option.some.injEq] at h; subst h; rfl
  | cons e es ih =>
    obtain ⟨a, x⟩ := e
    simp only [withoutEntries, Option.bind_some] at h
    split at h
    · cases hr : withoutEntries t (fun _ => some none) es with
      | none => rw [hr] at h; simp at h
      | some r' => rw [hr] at h; simp only [Option.map_some, Option.some.injEq] at h; subst h; exact ih hr
    · rename_i ha
      cases hr : withoutEntries t (fun _ => some none) es with
      | none => rw [hr] at h; simp at h
      | some r' => rw [hr] at h; simp only [Option.map_some, Option.some.injEq] at h; subst h; simp [first, ha, ih hr]

/-- changing the entries -/
theorem without_change {t : Str} {g : Value → Option Value} {es es' : Entries} (h : withoutEntries t (fun x => (g x).map some) es = some es') :
    match first es t with
    | none => first es' t = none
    | some x => ∃ y, g x = some y ∧ first es' t = some y := by
  induction es generalizing es' with
  | nil => simp only [withoutEntries, Option.some.injEq] at h; subst h; rfl
  | cons e es ih =>
    obtain ⟨a, x⟩ := e
    simp only [withoutEntries] at h
    split at h
    · rename_i ha
      cases hy : g x with
      | none => rw [hy] at h; simp at h
      | some y =>
        rw [hy, Option.map_some, Option.bind_some] at h
        cases hr : withoutEntries t (fun x => (g x).map some) es with
        | none => rw [hr] at h; simp at h
        | some r' =>
          rw [hr] at h; simp only [Option.map_some, Option.some.injEq] at h; subst h
          simp only [first, ha, if_true]
          exact ⟨y, hy, rfl⟩
    · rename_i ha
      cases hr : withoutEntries t (fun x => (g x).map some) es with
      | none => rw [hr] at h; simp at h
      | some r' =>
        rw [hr] at h; simp only [Option.map_some, Option.some.injEq] at h; subst h
        have := ih hr
        simp only [first, ha, if_false]
        exact this

theorem without_mem {t : Str} {f : Value → Option (Option Value)} {es es' : Entries} (h : withoutEntries t f es = some es') (e : Str × Value) (he : e ∈ es') :
    e ∈ es ∨ ∃ x, (t, x) ∈ es ∧ f x = some (some e.2) := by
  induction es generalizing es' with
  | nil => simp only [withoutEntries, Option.some.injEq] at h; subst h; simp at he
  | cons c es ih =>
    obtain ⟨a, x⟩ := c
    have lift : (e ∈ es ∨ ∃ x, (t, x) ∈ es ∧ f x = some (some e.2)) → e ∈ (a, x) :: es ∨ ∃ x', (t, x') ∈ (a, x) :: es ∧ f x' = some (some e.2) := by
      rintro (h | ⟨x', h1, h2⟩)
      · exact Or.inl (List.mem_cons_of_mem _ h)
      · exact Or.inr ⟨x', List.mem_cons_of_mem _ h1, h2⟩
    simp only [withoutEntries] at h
    split at h
    · rename_i ha
      cases hy : f x with
      | none => rw [hy] at h; simp at h
      | some y =>
        rw [hy, Option.bind_some] at h
        cases hr : withoutEntries t f es with
        | none => rw [hr] at h; simp at h
        | some r' =>
          rw [hr] at h; simp only [Option.map_some, Option.some.injEq] at h; subst h
          cases y with
          | none => exact lift (ih hr he)
          | some y =>
            rcases List.mem_cons.1 he with rfl | he
            · exact Or.inr ⟨x, by simp [ha], hy⟩
            · exact lift (ih hr he)
    · cases hr : withoutEntries t f es with
      | none => rw [hr] at h; simp at h
      | some r' =>
        rw [hr] at h; simp only [Option.map_some, Option.some.injEq] at h; subst h
        rcases List.mem_cons.1 he with rfl | he
        · exact Or.inl (by simp)
        · exact lift (ih hr he)

theorem withoutLoop_eq {t : Str} {f : Value → Option (Option Value)} {kind : Kind} (ha : kind.assoc = true) {es : Entries} (hh : ∀ e ∈ es, e.2 ≠ .hole) (a : Entries)
    (hk : KeysOk kind (keysOf a ++ keysOf es)) : withoutLoop t f es ⟨kind, a⟩ = (withoutEntries t f es).map (fun es' => ⟨kind, a ++ es'⟩) := by
  induction es generalizing a with
  | nil => simp [withoutLoop, withoutEntries]
  | cons e es ih =>
    obtain ⟨k, x⟩ := e
    simp only [List.forall_mem_cons] at hh
    have hput : ∀ y, Node.put ⟨kind, a⟩ k y = some ⟨kind, a ++ [(k, y)]⟩ := fun y => put_snoc y ha (KeysOk.snoc hk)
    have hk' : ∀ y, KeysOk kind (keysOf (a ++ [(k, y)]) ++ keysOf es) := fun y => by simpa using hk
    have hk'' : KeysOk kind (keysOf a ++ keysOf es) := hk.sublist ((List.Sublist.refl _).append ((List.Sublist.refl _).cons _))
    have hx : withoutLoop t f ((k, x) :: es) ⟨kind, a⟩ =
        if k = t then
          match f x with
          | none => none
          | some none => withoutLoop t f es ⟨kind, a⟩
          | some (some y) => match Node.put ⟨kind, a⟩ t y with | none => none | some acc' => withoutLoop t f es acc'
        else match Node.put ⟨kind, a⟩ k x with | none => none | some acc' => withoutLoop t f es acc' := by
      cases x with
      | hole => exact absurd rfl hh.1
      | _ => rfl
    rw [hx]
    by_cases hkt : k = t
    · subst hkt
      simp only [if_true, withoutEntries]
      cases hy : f x with
      | none => rfl
      | some y =>
        cases y with
        | none =>
          simp only [Option.bind_some]
          rw [ih hh.2 a hk'']
          cases withoutEntries k f es <;> rfl
        | some y =>
          simp only [hput, Option.bind_some]
          rw [ih hh.2 (a ++ [(k, y)]) (hk' y)]
          cases withoutEntries k f es with
          | none => rfl
          | some r' => simp
    · simp only [hkt, if_false, withoutEntries, hput]
      rw [ih hh.2 (a ++ [(k, x)]) (hk' x)]
      cases withoutEntries t f es with
      | none => rfl
      | some r' => simp

/-! ## filters -/

theorem filterLoop_eq {names : List Str} {wl : Bool} {kind : Kind} (ha : kind.assoc = true) {es : Entries} (hh : ∀ e ∈ es, e.2 ≠ .hole) (a : Entries)
    (hk : KeysOk kind (keysOf a ++ keysOf es)) : filterLoop names wl es ⟨kind, a⟩ = some ⟨kind, a ++ es.filter (fun e => decide (wl = names.contains e.1))⟩ := by
  induction es generalizing a with
  | nil => simp [filterLoop]
  | cons e es ih =>
    obtain ⟨k, x⟩ := e
    simp only [List.forall_mem_cons] at hh
    have hput : ∀ y, Node.put ⟨kind, a⟩ k y = some ⟨kind, a ++ [(k, y)]⟩ := fun y => put_snoc y ha (KeysOk.snoc hk)
    have hk' : ∀ y, KeysOk kind (keysOf (a ++ [(k, y)]) ++ keysOf es) := fun y => by simpa using hk
    have hk'' : KeysOk kind (keysOf a ++ keysOf es) := hk.sublist ((List.Sublist.refl _).append ((List.Sublist.refl _).cons _))
    have hx : filterLoop names wl ((k, x) :: es) ⟨kind, a⟩ =
        if wl = names.contains k then match Node.put ⟨kind, a⟩ k x with | none => none | some acc' => filterLoop names wl es acc'
        else filterLoop names wl es ⟨kind, a⟩ := by
      cases x with
      | hole => exact absurd rfl hh.1
      | _ => rfl
    rw [hx, List.filter_cons]
    by_cases hw : wl = names.contains k
    · rw [if_pos hw]
      simp only [hput]
      rw [ih hh.2 _ (hk' x)]
      simp only [hw, decide_true, if_true, List.append_assoc, List.singleton_append]
    · rw [if_neg hw, ih hh.2 a hk'']
      simp only [hw, decide_false, Bool.false_eq_true, if_false]

theorem first_filter_key (es : Entries) (p : Str → Bool) (k : Str) : first (es.filter (fun e => p e.1)) k = if p k = true then first es k else none := by
  induction es with
  | nil => simp [first]
  | cons e es ih =>
    obtain ⟨a, x⟩ := e
    rw [List.filter_cons]
    by_cases hk : a = k
    · subst hk
      by_cases hp : p a = true
      · simp [hp, first]
      · simp only [hp, Bool.false_eq_true, if_false] at ih ⊢
        exact ih
    · by_cases hp : p a = true
      · simp only [hp, if_true, first, hk, if_false, ih]
      · simp only [hp, Bool.false_eq_true, if_false, first, hk, ih]

/-! ## clone -/

mutual
/-- The keys of every config are as its class keeps them. -/
def Value.KeyOk : Value → Prop
  | .hole => True
  | .scalar _ => True
  | .null => True
  | .conf k es => KeysOk k (keysOf es) ∧ entriesKeyOk es
def entriesKeyOk : Entries → Prop
  | [] => True
  | (_, v) :: r => v.KeyOk ∧ entriesKeyOk r
end

mutual
theorem copyValue_eq : ∀ (v : Value), v.KeyOk → copyValue v = some v
  | .hole, _ => rfl
  | .scalar _, _ => rfl
  | .null, _ => rfl
  | .conf k es, h => by
    simp only [Value.KeyOk] at h
    simp only [copyValue, emptyCopy_some]
    rw [copyEntries_eq es k [] h.2 (by simpa using h.1)]
    simp
theorem copyEntries_eq : ∀ (es : Entries) (k : Kind) (a : Entries), entriesKeyOk es → KeysOk k (keysOf a ++ keysOf es) → copyEntries k.assoc es ⟨k, a⟩ = some ⟨k, a ++ es⟩
  | [], k, a, _, _ => by simp [copyEntries]
  | (key, v) :: r, k, a, h, hk => by
    simp only [entriesKeyOk] at h
    have hk' : KeysOk k (keysOf (a ++ [(key, v)]) ++ keysOf r) := by simpa using hk
    have hstore : storeCopy k.assoc ⟨k, a⟩ key v = some ⟨k, a ++ [(key, v)]⟩ := by
      cases ha : k.assoc with
      | true => exact put_snoc v ha (KeysOk.snoc hk)
      | false =>
        have : k = .array := by cases k <;> simp [Kind.assoc] at ha ⊢
        subst this
        have : key = [] := hk key (by simp)
        subst this
        rfl
    simp only [copyEntries, copyValue_eq v h.1, hstore]
    rw [copyEntries_eq r k _ h.2 hk']
    simp
end

theorem shallow_eq {es : Entries} {k : Kind} (a : Entries) (hk : KeysOk k (keysOf a ++ keysOf es)) : shallowEntries k.assoc es ⟨k, a⟩ = some ⟨k, a ++ es⟩ := by
  induction es generalizing a with
  | nil => simp [shallowEntries]
  | cons e r ih =>
    obtain ⟨key, v⟩ := e
    have hk' : KeysOk k (keysOf (a ++ [(key, v)]) ++ keysOf r) := by simpa using hk
    have hstore : storeCopy k.assoc ⟨k, a⟩ key v = some ⟨k, a ++ [(key, v)]⟩ := by
      cases ha : k.assoc with
      | true => exact put_snoc v ha (KeysOk.snoc hk)
      | false =>
        have : k = .array := by cases k <;> simp [Kind.assoc] at ha ⊢
        subst this
        have : key = [] := hk key (by simp)
        subst this
        rfl
    simp only [shallowEntries, hstore]
    rw [ih _ hk']
    simp

mutual
theorem ok_keyOk : ∀ (v : Value), v.Ok → v.KeyOk
  | .hole, h => by simp [Value.Ok] at h
  | .scalar _, _ => by simp [Value.KeyOk]
  | .null, _ => by simp [Value.KeyOk]
  | .conf k es, h => by
    simp only [Value.Ok] at h
    simp only [Value.KeyOk]
    exact ⟨h.1, entriesOk_keyOk es h.2⟩
theorem entriesOk_keyOk : ∀ (es : Entries), entriesOk es → entriesKeyOk es
  | [], _ => by simp [entriesKeyOk]
  | (_, v) :: r, h => by
    simp only [entriesOk] at h
    simp only [entriesKeyOk]
    exact ⟨ok_keyOk v h.1, entriesOk_keyOk r h.2⟩
end

end Verif.Config
