import Verif.Lemmas.Lifetimes

/-!
# C82: what a config, an entry or an iterator refers to stays alive as long as it does, and no longer

The specification has no objects and no owners: a variable holds the entries of a config, or the index, key and value of an entry, and
keeps them until the variable is dropped or assigned.  Every program over configs and entries that only uses variables that exist
returns what the specification says, without undefined behaviour (no value or document is used after it is freed or freed twice), in
whatever order the configs they came from end; and an object is alive exactly if a variable leads to it, so nothing is left when all
variables have ended.

The move assignment of an entry to itself is not covered: it loses the value (`C82_self_move_violated`).
-/
set_option autoImplicit false

namespace Verif.Lifetimes

/-! ## Specification -/

abbrev Kids := List (String × Tree)

/-- An entry: its index, key and value. -/
abbrev Found := Nat × String × Tree

/-- A variable. -/
inductive SSlot where
  | gone
  | conf (c : Option Kids)
  | entry (e : Option Found)

/-- The first entry with the name, the entries being numbered from `n`; elements of arrays have no name. -/
def firstNamed (s : String) : Kids → Nat → Option Found
  | [], _ => none
  | (k, t) :: r, n => if k = s ∧ s ≠ "" then some (n, k, t) else firstNamed s r (n + 1)

/-- Going down a path of names. -/
def descend (kids : Kids) : List String → Option Found
  | [] => none
  | [s] => firstNamed s kids 0
  | s :: s' :: ss =>
    match firstNamed s kids 0 with
    | some (_, _, .node sub) => descend sub (s' :: ss)
    | _ => none

/-- The entries a builder makes: null configs are left out. -/
def built (S : List SSlot) : List (String × Arg) → Option Kids
  | [] => some []
  | (k, .scalar n) :: r => (built S r).map fun r => (k, .leaf n) :: r
  | (k, .conf c) :: r =>
    match S[c]? with
    | some (.conf (some kids)) => (built S r).map fun r => (k, .node kids) :: r
    | some (.conf none) => built S r
    | _ => none

/-- What `object()` of an entry gives. -/
def nested : Option Found → Option Kids
  | some (_, _, .node kids) => some kids
  | _ => none

/-- What is seen of an entry. -/
def shown : Option Found → Res
  | none => .null
  | some (k, s, .leaf n) => .entry k s (some n)
  | some (k, s, _) => .entry k s none

/-- One statement; `none` if it names a variable that does not exist, has ended or is of another type, or assigns an entry to itself. -/
def spec (S : List SSlot) : Op → Option (List SSlot × Res)
  | .read _ kids => some (S ++ [.conf (some kids)], .unit)
  | .build items => (built S items).map fun kids => (S ++ [.conf (some kids)], .unit)
  | .copy c =>
    match S[c]? with
    | some (.conf k) => some (S ++ [.conf k], .unit)
    | _ => none
  | .assign c c' =>
    match S[c]?, S[c']? with
    | some (.conf _), some (.conf k) => some (S.set c (.conf k), .unit)
    | _, _ => none
  | .drop v =>
    match S[v]? with
    | some (.conf _) => some (S.set v .gone, .unit)
    | some (.entry _) => some (S.set v .gone, .unit)
    | _ => none
  | .size c =>
    match S[c]? with
    | some (.conf none) => some (S, .size 0)
    | some (.conf (some kids)) => some (S, .size kids.length)
    | _ => none
  | .at_ c k =>
    match S[c]? with
    | some (.conf none) => some (S ++ [.entry none], .unit)
    | some (.conf (some kids)) => some (S ++ [.entry (kids[k]?.map fun e => (k, e.1, e.2))], .unit)
    | _ => none
  | .path c ss =>
    match S[c]? with
    | some (.conf none) => some (S ++ [.entry none], .unit)
    | some (.conf (some kids)) => some (S ++ [.entry (descend kids ss)], .unit)
    | _ => none
  | .move e =>
    match S[e]? with
    | some (.entry x) => some (S.set e (.entry none) ++ [.entry x], .unit)
    | _ => none
  | .moveAssign e e' =>
    match S[e]?, S[e']? with
    | some (.entry _), some (.entry y) =>
      if e = e' then none else some ((S.set e (.entry y)).set e' (.entry none), .unit)
    | _, _ => none
  | .look e =>
    match S[e]? with
    | some (.entry x) => some (S, shown x)
    | _ => none
  | .object e =>
    match S[e]? with
    | some (.entry x) => some (S ++ [.conf (nested x)], .unit)
    | _ => none

def specRun (S : List SSlot) : List Op → Option (List SSlot × List Res)
  | [] => some (S, [])
  | op :: ops => (spec S op).bind fun r => (specRun r.1 ops).map fun q => (q.1, r.2 :: q.2)

/-! ## What the objects stand for -/

def lookup (kids : Kids) : Key → Option Found
  | .index k => kids[k]?.map fun e => (k, e.1, e.2)
  | .name s => firstNamed s kids 0

theorem firstNamed_eq (s : String) (kids : Kids) (n : Nat) :
    firstNamed s kids n = (if s = "" then none else kids.findIdx? fun e => e.1 == s).bind fun k => kids[k]?.map fun e => (n + k, e.1, e.2) := by
  by_cases hs : s = ""
  · subst hs
    simp only [if_true, Option.bind_none]
    induction kids generalizing n with
    | nil => rfl
    | cons e r ih => simp only [firstNamed, ne_eq, not_true_eq_false, and_false, if_false]; exact ih _
  · simp only [if_neg hs]
    induction kids generalizing n with
    | nil => rfl
    | cons e r ih =>
      obtain ⟨k, t⟩ := e
      simp only [firstNamed, List.findIdx?_cons]
      by_cases hk : k = s
      · simp [hk, hs]
      · have hk' : (k == s) = false := by simpa using hk
        simp only [hk, false_and, if_false, hk', Bool.false_eq_true, if_false]
        rw [ih]
        cases (r.findIdx? fun e => e.1 == s) with
        | none => rfl
        | some j =>
          simp only [Option.map_some, Option.bind_some, List.getElem?_cons_succ]
          have : n + 1 + j = n + (j + 1) := by omega
          rw [this]

theorem lookup_place (kids : Kids) (key : Key) :
    lookup kids key = (place kids key).bind fun k => kids[k]?.map fun e => (k, e.1, e.2) := by
  cases key with
  | index k =>
    simp only [lookup, place]
    split
    · rfl
    · rename_i h
      rw [List.getElem?_eq_none (by omega)]; rfl
  | name s =>
    simp only [lookup, place, firstNamed_eq, Nat.zero_add]

theorem place_keys {β γ : Type} (a : List (String × β)) (b : List (String × γ)) (h : a.map Prod.fst = b.map Prod.fst) (key : Key) :
    place a key = place b key := by
  have hl : a.length = b.length := by have := congrArg List.length h; simpa using this
  cases key with
  | index k => simp only [place, hl]
  | name s =>
    simp only [place]
    have e : ∀ (δ : Type) (l : List (String × δ)), (l.findIdx? fun e => e.1 == s) = (l.map Prod.fst).findIdx? fun k => k == s := by
      intro δ l
      rw [List.findIdx?_map]; rfl
    rw [e, e, h]

inductive Conf (bs : List Body) : Nat → Kids → Prop where
  | doc {b d : Nat} {pos : List Nat} {eager : Bool} {t : Tree} {kids : Kids} : bs[b]? = some (.back d pos) → bs[d]? = some (.doc eager t) →
      sub t pos = some (.node kids) → Conf bs b kids
  | resident {b : Nat} {items : List (String × Item)} {kids : Kids} (f : Nat → Kids) : bs[b]? = some (.resident items) →
      items.map Prod.fst = kids.map Prod.fst →
      (∀ (k : Nat) (s : String) (n : Int), items[k]? = some (s, Item.scalar n) → kids[k]? = some (s, Tree.leaf n)) →
      (∀ (k : Nat) (s : String) (c : Nat), items[k]? = some (s, Item.conf c) → kids[k]? = some (s, Tree.node (f k))) →
      (∀ (k : Nat) (s : String) (c : Nat), items[k]? = some (s, Item.conf c) → Conf bs c (f k)) → Conf bs b kids

/-- What the value of an entry of the config `b` stands for. -/
inductive Val (bs : List Body) (b : Nat) : Handle → Tree → Prop where
  | doc {i d : Nat} {pos : List Nat} {eager : Bool} {t u : Tree} : bs[i]? = some (.value d pos) → bs[d]? = some (.doc eager t) →
      sub t pos = some u → Val bs b (.heap i) u
  | leaf {i : Nat} {n : Int} : bs[i]? = some (.copied (.leaf n)) → Val bs b (.heap i) (.leaf n)
  | nil {i : Nat} : bs[i]? = some (.copied .nil) → Val bs b (.heap i) .nil
  | sec {i c : Nat} {kids : Kids} : bs[i]? = some (.section c) → Conf bs c kids → Val bs b (.heap i) (.node kids)
  | scalar {k : Nat} {items : List (String × Item)} {s : String} {n : Int} : bs[b]? = some (.resident items) →
      items[k]? = some (s, .scalar n) → Val bs b (.inside k) (.leaf n)
  | conf {k c : Nat} {items : List (String × Item)} {s : String} {kids : Kids} : bs[b]? = some (.resident items) →
      items[k]? = some (s, .conf c) → Conf bs c kids → Val bs b (.inside k) (.node kids)

theorem get_append {bs : List Body} {i : Nat} {b : Body} (h : bs[i]? = some b) (more : List Body) : (bs ++ more)[i]? = some b := by
  have hl : i < bs.length := by
    rcases Nat.lt_or_ge i bs.length with hl | hl
    · exact hl
    · rw [List.getElem?_eq_none hl] at h; cases h
  rw [List.getElem?_append_left hl]; exact h

theorem Conf.mono {bs : List Body} {b : Nat} {kids : Kids} (h : Conf bs b kids) (more : List Body) : Conf (bs ++ more) b kids := by
  induction h with
  | doc e1 e2 e3 => exact .doc (get_append e1 _) (get_append e2 _) e3
  | resident f e1 e2 e3 e4 _ ih => exact .resident f (get_append e1 _) e2 e3 e4 ih

theorem Val.mono {bs : List Body} {b : Nat} {v : Handle} {t : Tree} (h : Val bs b v t) (more : List Body) : Val (bs ++ more) b v t := by
  cases h with
  | doc e1 e2 e3 => exact .doc (get_append e1 _) (get_append e2 _) e3
  | leaf e => exact .leaf (get_append e _)
  | nil e => exact .nil (get_append e _)
  | sec e c => exact .sec (get_append e _) (c.mono _)
  | scalar e1 e2 => exact .scalar (get_append e1 _) e2
  | conf e1 e2 c => exact .conf (get_append e1 _) e2 (c.mono _)

/-- Objects are only added. -/
def Ext (h h' : Heap) : Prop := ∃ more, bodies h' = bodies h ++ more

theorem Ext.refl (h : Heap) : Ext h h := ⟨[], by simp⟩

theorem Ext.of_eq {h h' : Heap} (e : bodies h' = bodies h) : Ext h h' := ⟨[], by simp [e]⟩

theorem Ext.trans {a b c : Heap} (x : Ext a b) (y : Ext b c) : Ext a c := by
  obtain ⟨m, x⟩ := x
  obtain ⟨n, y⟩ := y
  exact ⟨m ++ n, by rw [y, x, List.append_assoc]⟩

theorem Ext.conf {h h' : Heap} (x : Ext h h') {b : Nat} {kids : Kids} (c : Conf (bodies h) b kids) : Conf (bodies h') b kids := by
  obtain ⟨m, x⟩ := x
  rw [x]; exact c.mono m

theorem Ext.val {h h' : Heap} (x : Ext h h') {b : Nat} {v : Handle} {t : Tree} (c : Val (bodies h) b v t) : Val (bodies h') b v t := by
  obtain ⟨m, x⟩ := x
  rw [x]; exact c.mono m

theorem Ext.get {h h' : Heap} (x : Ext h h') {i : Nat} {b : Body} (e : (bodies h)[i]? = some b) : (bodies h')[i]? = some b := by
  obtain ⟨m, x⟩ := x
  rw [x]; exact get_append e m

theorem get_new {h h' : Heap} {b : Body} (e : bodies h' = bodies h ++ [b]) : (bodies h')[h.length]? = some b := by
  rw [e, ← bodies_length]; simp

/-- The pointers a value handle stands for. -/
def href : Handle → List Nat
  | .heap i => [i]
  | .inside _ => []

def eref (e : Entry) : List Nat := (match e.val with | some v => href v | none => []) ++ e.parent.toList

def sref : Slot → List Nat
  | .dead => []
  | .conf b => b.toList
  | .entry e => eref e

def roots (l : List Slot) : List Nat := l.flatMap sref

theorem alive_doc {h : Heap} {R : List Nat} (v : Inv h R) {i d : Nat} {b : Body} (a : Alive h i) (e : (bodies h)[i]? = some b)
    (m : d ∈ b.outs) : Alive h d := by
  obtain ⟨o, eo, c⟩ := a
  rw [bodies_get eo] at e
  cases e
  exact v.alive_out eo c m

theorem alive_of_inv {h h' : Heap} {R : List Nat} {i : Nat} (v : Inv h R) (v' : Inv h' R) (x : Ext h h') (a : Alive h i) : Alive h' i := by
  rw [v.alive_iff] at a
  rw [v'.alive_iff]
  induction a with
  | root m => exact .root m
  | out _ e m ih => exact .out ih (x.get e) m

theorem reach_mono {h : Heap} {R R' : List Nat} (s : ∀ i, i ∈ R → i ∈ R') {i : Nat} (r : Reach h R i) : Reach h R' i := by
  induction r with
  | root m => exact .root (s _ m)
  | out _ e m ih => exact .out ih e m

theorem alive_of_inv' {h h' : Heap} {R R' : List Nat} {i : Nat} (v : Inv h R) (v' : Inv h' R') (s : ∀ i, i ∈ R → i ∈ R')
    (x : Ext h h') (a : Alive h i) : Alive h' i := by
  rw [v.alive_iff] at a
  rw [v'.alive_iff]
  apply reach_mono s
  induction a with
  | root m => exact .root m
  | out _ e m ih => exact .out ih (x.get e) m

theorem sub_snoc {t : Tree} {pos : List Nat} {kids : Kids} (h : sub t pos = some (.node kids)) {k : Nat} {e : String × Tree}
    (g : kids[k]? = some e) : sub t (pos ++ [k]) = some e.2 := by
  induction pos generalizing t with
  | nil =>
    simp only [sub, Option.some.injEq] at h
    subst h
    simp only [List.nil_append, sub, g]
  | cons p ps ih =>
    cases t with
    | leaf n => simp [sub] at h
    | nil => simp [sub] at h
    | node ks =>
      simp only [sub] at h
      simp only [List.cons_append, sub]
      cases hk : ks[p]? with
      | none => simp [hk] at h
      | some e' =>
        simp only [hk] at h ⊢
        exact ih h

theorem eagerValue_ok {h : Heap} {R : List Nat} (v : Inv h R) {b d : Nat} {pos : List Nat} {eager : Bool} {t u : Tree} (a : Alive h d)
    (ed : (bodies h)[d]? = some (.doc eager t)) (es : sub t pos = some u) :
    ∃ h' i, eagerValue d pos u h = .ok (h', i) ∧ Ext h h' ∧ Inv h' (i :: R) ∧ Val (bodies h') b (.heap i) u := by
  cases u with
  | leaf n =>
    obtain ⟨h1, e1, v1, b1⟩ := alloc_ok v (.copied (.leaf n)) (by simp [Body.outs])
    exact ⟨h1, _, e1, ⟨_, b1⟩, v1, .leaf (get_new b1)⟩
  | nil =>
    obtain ⟨h1, e1, v1, b1⟩ := alloc_ok v (.copied .nil) (by simp [Body.outs])
    exact ⟨h1, _, e1, ⟨_, b1⟩, v1, .nil (get_new b1)⟩
  | node kids =>
    obtain ⟨h1, e1, v1, b1⟩ := alloc_ok v (.back d pos) (by simpa [Body.outs] using a)
    obtain ⟨h2, e2, v2, b2⟩ := alloc_ok v1 (.section h.length) (by
      intro i m
      have : i = h.length := by simpa [Body.outs] using m
      subst this
      exact v1.alive List.mem_cons_self)
    obtain ⟨h3, e3, v3, b3⟩ := drop1_ok h.length (v2.perm (List.Perm.swap _ _ _))
    have x1 : Ext h h1 := ⟨_, b1⟩
    have x2 : Ext h1 h2 := ⟨_, b2⟩
    have x3 : Ext h2 h3 := .of_eq b3
    refine ⟨h3, h1.length, ?_, x1.trans (x2.trans x3), v3, ?_⟩
    · simp only [eagerValue, e1, bind_ok, e2, e3]
    · refine .sec (c := h.length) (x3.get (get_new b2)) ?_
      refine .doc (d := d) (pos := pos) (t := t) (eager := eager) ((x2.trans x3).get (get_new b1)) ((x1.trans (x2.trans x3)).get ed) es

theorem find_ok {h : Heap} {R : List Nat} (v : Inv h R) {b : Nat} (m : b ∈ R) {kids : Kids} (c : Conf (bodies h) b kids) (key : Key) :
    (lookup kids key = none ∧ find b key h = .ok (h, none)) ∨
    ∃ k s t h' w, lookup kids key = some (k, s, t) ∧ find b key h = .ok (h', some (k, s, w)) ∧ Ext h h' ∧ Inv h' (href w ++ R) ∧
      Val (bodies h') b w t := by
  have ab := v.alive m
  rw [lookup_place]
  cases c with
  | doc e1 e2 e3 =>
    rename_i d pos eager t
    have ad : Alive h d := alive_doc v ab e1 (by simp [Body.outs])
    simp only [find, obj_alive ab e1, bind_ok, obj_alive ad e2, e3, kidsOf]
    cases hp : place kids key with
    | none => exact .inl ⟨rfl, rfl⟩
    | some k =>
      cases hk : kids[k]? with
      | none => exact .inl ⟨by simp [hk], by simp only [hk]⟩
      | some e =>
        refine .inr ?_
        simp only [hk, Option.bind_some, Option.map_some]
        have es : sub t (pos ++ [k]) = some e.2 := sub_snoc e3 hk
        cases eager with
        | true =>
          obtain ⟨h1, i, q, x, v1, w⟩ := eagerValue_ok (b := b) v ad e2 es
          exact ⟨k, e.1, e.2, h1, .heap i, rfl, by simp only [if_true, q, bind_ok], x, v1, w⟩
        | false =>
          obtain ⟨h1, q, v1, b1⟩ := alloc_ok v (.value d (pos ++ [k])) (by simpa [Body.outs] using ad)
          refine ⟨k, e.1, e.2, h1, .heap h.length, rfl, by simp only [Bool.false_eq_true, if_false, q, bind_ok], ⟨_, b1⟩, v1, ?_⟩
          have x : Ext h h1 := ⟨_, b1⟩
          exact .doc (d := d) (pos := pos ++ [k]) (t := t) (get_new b1) (x.get e2) es
  | resident f e1 e2 e3 e4 e5 =>
    rename_i items
    simp only [find, obj_alive ab e1, bind_ok, place_keys items kids e2]
    cases hp : place kids key with
    | none => exact .inl ⟨rfl, rfl⟩
    | some k =>
      cases hk : items[k]? with
      | none =>
        have : kids[k]? = none := by
          have hl : items.length = kids.length := by have := congrArg List.length e2; simpa using this
          apply List.getElem?_eq_none
          have := List.getElem?_eq_none_iff.1 hk
          omega
        exact .inl ⟨by simp [this], by simp only [hk]⟩
      | some e =>
        obtain ⟨s, it⟩ := e
        refine .inr ?_
        cases it with
        | scalar n =>
          have := e3 k s n hk
          exact ⟨k, s, .leaf n, h, .inside k, by simp [this], by simp only [hk], .refl h, v, .scalar e1 hk⟩
        | conf c =>
          have := e4 k s c hk
          exact ⟨k, s, .node (f k), h, .inside k, by simp [this], by simp only [hk], .refl h, v, .conf e1 hk (e5 k s c hk)⟩

theorem getValue_ok {h : Heap} {R : List Nat} (v : Inv h R) {b : Nat} (m : b ∈ R) {w : Handle} (mw : ∀ i, i ∈ href w → i ∈ R) {t : Tree}
    (c : Val (bodies h) b w t) :
    (∃ n, t = .leaf n ∧ getValue b w h = .ok (h, .scalar n)) ∨ (t = .nil ∧ getValue b w h = .ok (h, .empty)) ∨
    ∃ kids h' i, t = .node kids ∧ getValue b w h = .ok (h', .conf i) ∧ Ext h h' ∧ Inv h' (i :: R) ∧ Conf (bodies h') i kids := by
  have ab := v.alive m
  cases c with
  | doc e1 e2 e3 =>
    rename_i i d pos eager t0
    have ai : Alive h i := v.alive (mw i (by simp [href]))
    have ad : Alive h d := alive_doc v ai e1 (by simp [Body.outs])
    cases t with
    | leaf n => exact .inl ⟨n, rfl, by simp only [getValue, obj_alive ai e1, bind_ok, obj_alive ad e2, e3]⟩
    | nil => exact .inr (.inl ⟨rfl, by simp only [getValue, obj_alive ai e1, bind_ok, obj_alive ad e2, e3]⟩)
    | node kids =>
      obtain ⟨h1, q, v1, b1⟩ := alloc_ok v (.back d pos) (by simpa [Body.outs] using ad)
      have x : Ext h h1 := ⟨_, b1⟩
      refine .inr (.inr ⟨kids, h1, h.length, rfl, by simp only [getValue, obj_alive ai e1, bind_ok, obj_alive ad e2, e3, q], x, v1, ?_⟩)
      exact .doc (get_new b1) (x.get e2) e3
  | leaf e =>
    rename_i i n
    have ai : Alive h i := v.alive (mw i (by simp [href]))
    exact .inl ⟨n, rfl, by simp only [getValue, obj_alive ai e, bind_ok]⟩
  | nil e =>
    rename_i i
    have ai : Alive h i := v.alive (mw i (by simp [href]))
    exact .inr (.inl ⟨rfl, by simp only [getValue, obj_alive ai e, bind_ok]⟩)
  | sec e c =>
    rename_i i k kids
    have ai : Alive h i := v.alive (mw i (by simp [href]))
    obtain ⟨h1, q, v1, b1⟩ := inc_ok v (alive_doc v ai e (d := k) (by simp [Body.outs]))
    exact .inr (.inr ⟨kids, h1, k, rfl, by simp only [getValue, obj_alive ai e, bind_ok, q], .of_eq b1, v1, (Ext.of_eq b1).conf c⟩)
  | scalar e1 e2 =>
    rename_i k items s n
    exact .inl ⟨n, rfl, by simp only [getValue, obj_alive ab e1, bind_ok, e2]⟩
  | conf e1 e2 c =>
    rename_i k j items s kids
    have hm : j ∈ (Body.resident items).outs := List.mem_flatMap.2 ⟨_, List.mem_of_getElem? e2, by simp [Item.outs]⟩
    obtain ⟨h1, q, v1, b1⟩ := inc_ok v (alive_doc v ab e1 hm)
    exact .inr (.inr ⟨kids, h1, j, rfl, by simp only [getValue, obj_alive ab e1, bind_ok, e2, q], .of_eq b1, v1, (Ext.of_eq b1).conf c⟩)

/-- What an entry stands for. -/
def ER (bs : List Body) (e : Entry) : Option Found → Prop
  | none => e.val = none
  | some (k, s, t) => ∃ b w, e.parent = some b ∧ e.val = some w ∧ e.idx = k ∧ e.key = s ∧ Val bs b w t

theorem Ext.er {h h' : Heap} (x : Ext h h') {e : Entry} {f : Option Found} (c : ER (bodies h) e f) : ER (bodies h') e f := by
  cases f with
  | none => exact c
  | some q =>
    obtain ⟨k, s, t⟩ := q
    obtain ⟨b, w, a1, a2, a3, a4, a5⟩ := c
    exact ⟨b, w, a1, a2, a3, a4, x.val a5⟩

theorem obj_of_alive {h : Heap} {i : Nat} (a : Alive h i) : ∃ b, obj h i = .ok b := by
  obtain ⟨o, e, c⟩ := a
  exact ⟨o.body, by simp only [obj, e, if_neg c]⟩

theorem release_ok {h : Heap} {R : List Nat} {b : Nat} {w : Handle} (v : Inv h (href w ++ R)) (m : b ∈ R) :
    ∃ h', release b w h = .ok h' ∧ Inv h' R ∧ bodies h' = bodies h := by
  obtain ⟨x, e⟩ := obj_of_alive (v.alive (i := b) (List.mem_append_right _ m))
  cases w with
  | heap i =>
    obtain ⟨h1, q, v1, b1⟩ := drop1_ok i v
    exact ⟨h1, by simp only [release, e, bind_ok, q], v1, b1⟩
  | inside k => exact ⟨h, by simp only [release, e, bind_ok], v, rfl⟩

theorem dropEntry_ok {h : Heap} {R : List Nat} {e : Entry} {f : Option Found} {bs : List Body} (c : ER bs e f) (v : Inv h (eref e ++ R)) :
    ∃ h', dropEntry e h = .ok h' ∧ giveUp e h = .ok h' ∧ Inv h' R ∧ bodies h' = bodies h := by
  obtain ⟨p, idx, key, val⟩ := e
  cases val with
  | none =>
    cases p with
    | none => exact ⟨h, rfl, rfl, v, rfl⟩
    | some b =>
      obtain ⟨h1, q, v1, b1⟩ := drop1_ok b v
      exact ⟨h1, by simp only [dropEntry, q], by simp only [giveUp, bind_ok, q], v1, b1⟩
  | some w =>
    cases p with
    | none =>
      cases f with
      | none => cases c
      | some q =>
        obtain ⟨_, _, a1, _⟩ := c
        cases a1
    | some b =>
      have v' : Inv h (href w ++ (b :: R)) := by simpa [eref] using v
      obtain ⟨h1, q1, v1, b1⟩ := release_ok v' (b := b) List.mem_cons_self
      obtain ⟨h2, q2, v2, b2⟩ := drop1_ok b v1
      exact ⟨h2, by simp only [dropEntry, q1, bind_ok, q2], by simp only [giveUp, q1, bind_ok, q2], v2, b2.trans b1⟩

theorem makeEntry_ok {h : Heap} {R : List Nat} {b : Nat} (v : Inv h (b :: R)) {kids : Kids} (c : Conf (bodies h) b kids) (key : Key) :
    ∃ h' e, makeEntry b key h = .ok (h', e) ∧ Ext h h' ∧ ER (bodies h') e (lookup kids key) ∧ Inv h' (eref e ++ R) ∧ e.parent = some b := by
  rcases find_ok v List.mem_cons_self c key with ⟨a1, a2⟩ | ⟨k, s, t, h', w, a1, a2, a3, a4, a5⟩
  · refine ⟨h, ⟨some b, 0, "", none⟩, by simp only [makeEntry, a2, bind_ok], .refl h, ?_, v, rfl⟩
    rw [a1]; rfl
  · refine ⟨h', ⟨some b, k, s, some w⟩, by simp only [makeEntry, a2, bind_ok], a3, ?_, by simpa [eref] using a4, rfl⟩
    rw [a1]
    exact ⟨b, w, rfl, rfl, rfl, rfl, a5⟩

theorem valueAs_ok {h : Heap} {R : List Nat} {b : Nat} (v : Inv h R) (m : b ∈ R) {kids : Kids} (c : Conf (bodies h) b kids) (s : String) :
    (nested (firstNamed s kids 0) = none ∧ ∃ h', valueAs b s h = .ok (h', none) ∧ Ext h h' ∧ Inv h' R) ∨
    ∃ sub h' i, nested (firstNamed s kids 0) = some sub ∧ valueAs b s h = .ok (h', some i) ∧ Ext h h' ∧ Inv h' (i :: R) ∧ Conf (bodies h') i sub := by
  obtain ⟨h1, q1, v1, b1⟩ := inc_ok v (v.alive m)
  obtain ⟨h2, e, q2, x2, c2, v2, p2⟩ := makeEntry_ok v1 ((Ext.of_eq b1).conf c) (.name s)
  have hl : lookup kids (.name s) = firstNamed s kids 0 := rfl
  rw [hl] at c2
  cases hf : firstNamed s kids 0 with
  | none =>
    rw [hf] at c2
    obtain ⟨h3, q3, _, v3, b3⟩ := dropEntry_ok c2 v2
    have ev : e.val = none := c2
    exact .inl ⟨rfl, h3, by simp only [valueAs, q1, bind_ok, q2, ev, q3], (Ext.of_eq b1).trans (x2.trans (.of_eq b3)), v3⟩
  | some f =>
    obtain ⟨k, s', t⟩ := f
    rw [hf] at c2
    have cc := c2
    obtain ⟨b', w, a1, a2, a3, a4, a5⟩ := cc
    rw [p2] at a1
    cases a1
    have mw : ∀ i, i ∈ href w → i ∈ eref e ++ R := fun i hi => by simp [eref, a2, hi]
    have mb : b ∈ eref e ++ R := by simp [eref, p2]
    rcases getValue_ok v2 mb mw a5 with ⟨n, rfl, g⟩ | ⟨rfl, g⟩ | ⟨kids', h3, i, rfl, g, x3, v3, c3⟩
    · obtain ⟨h3, q3, _, v3, b3⟩ := dropEntry_ok c2 v2
      exact .inl ⟨rfl, h3, by simp only [valueAs, q1, bind_ok, q2, a2, g, q3], (Ext.of_eq b1).trans (x2.trans (.of_eq b3)), v3⟩
    · obtain ⟨h3, q3, _, v3, b3⟩ := dropEntry_ok c2 v2
      exact .inl ⟨rfl, h3, by simp only [valueAs, q1, bind_ok, q2, a2, g, q3], (Ext.of_eq b1).trans (x2.trans (.of_eq b3)), v3⟩
    · have v3' : Inv h3 (eref e ++ (i :: R)) := v3.perm List.perm_middle.symm
      obtain ⟨h4, q4, _, v4, b4⟩ := dropEntry_ok (x3.er c2) v3'
      exact .inr ⟨kids', h4, i, rfl, by simp only [valueAs, q1, bind_ok, q2, a2, g, q4],
        (Ext.of_eq b1).trans (x2.trans (x3.trans (.of_eq b4))), v4, (Ext.of_eq b4).conf c3⟩

theorem descend_cons (kids : Kids) (s s' : String) (ss : List String) :
    descend kids (s :: s' :: ss) = match nested (firstNamed s kids 0) with | some sub => descend sub (s' :: ss) | none => none := by
  simp only [descend]
  split
  · rename_i q
    rw [q]; rfl
  · rename_i hne
    cases hf : firstNamed s kids 0 with
    | none => rfl
    | some f =>
      obtain ⟨k, t, u⟩ := f
      cases u with
      | leaf n => rfl
      | nil => rfl
      | node sub => exact (hne _ _ _ hf).elim

theorem resolve_none (ss : List String) (h : Heap) : resolve ss none h = .ok (h, .null) := by
  cases ss with
  | nil => rfl
  | cons s ss => cases ss <;> rfl

theorem resolve_ok (ss : List String) {h : Heap} {R : List Nat} {b : Nat} (v : Inv h (b :: R)) {kids : Kids} (c : Conf (bodies h) b kids) :
    ∃ h' e, resolve ss (some b) h = .ok (h', e) ∧ Ext h h' ∧ ER (bodies h') e (descend kids ss) ∧ Inv h' (eref e ++ R) := by
  induction ss generalizing h b kids with
  | nil =>
    obtain ⟨h1, q1, v1, b1⟩ := drop1_ok b v
    exact ⟨h1, .null, by simp only [resolve, q1, bind_ok], .of_eq b1, rfl, v1⟩
  | cons s ss ih =>
    cases ss with
    | nil =>
      obtain ⟨h1, q1, v1, b1⟩ := inc_ok v (v.alive (i := b) List.mem_cons_self)
      obtain ⟨h2, e, q2, x2, c2, v2, _⟩ := makeEntry_ok v1 ((Ext.of_eq b1).conf c) (.name s)
      obtain ⟨h3, q3, v3, b3⟩ := drop1_ok b (v2.perm List.perm_middle)
      exact ⟨h3, e, by simp only [resolve, q1, bind_ok, q2, q3], (Ext.of_eq b1).trans (x2.trans (.of_eq b3)), (Ext.of_eq b3).er c2, v3⟩
    | cons s' ss =>
      rw [descend_cons]
      rcases valueAs_ok v (b := b) List.mem_cons_self c s with ⟨a1, h1, q1, x1, v1⟩ | ⟨sub, h1, i, a1, q1, x1, v1, c1⟩
      · obtain ⟨h2, q2, v2, b2⟩ := drop1_ok b v1
        rw [a1]
        exact ⟨h2, .null, by simp only [resolve, q1, bind_ok, q2, resolve_none], x1.trans (.of_eq b2), rfl, v2⟩
      · obtain ⟨h2, q2, v2, b2⟩ := drop1_ok b (v1.perm (List.Perm.swap _ _ _))
        obtain ⟨h3, e, q3, x3, c3, v3⟩ := ih v2 ((Ext.of_eq b2).conf c1)
        rw [a1]
        exact ⟨h3, e, by simp only [resolve, q1, bind_ok, q2]; exact q3, x1.trans ((Ext.of_eq b2).trans x3), c3, v3⟩

/-! ## The simulation -/

/-- What a variable stands for. -/
def SR (bs : List Body) : Slot → SSlot → Prop
  | .dead, .gone => True
  | .conf none, .conf none => True
  | .conf (some b), .conf (some kids) => Conf bs b kids
  | .entry e, .entry f => ER bs e f
  | _, _ => False

theorem Ext.sr {h h' : Heap} (x : Ext h h') {a : Slot} {X : SSlot} (c : SR (bodies h) a X) : SR (bodies h') a X := by
  cases a with
  | dead => cases X <;> exact c
  | conf b =>
    cases b with
    | none => cases X with
      | gone => exact c
      | conf k => cases k <;> exact c
      | entry e => exact c
    | some b => cases X with
      | gone => exact c
      | conf k => cases k with
        | none => exact c
        | some k => exact x.conf c
      | entry e => exact c
  | entry e => cases X with
    | gone => exact c
    | conf k => exact c
    | entry f => exact x.er c

structure Rel (s : St) (S : List SSlot) : Prop where
  inv : Inv s.heap (roots s.slots)
  len : s.slots.length = S.length
  slots : ∀ (i : Nat) x X, s.slots[i]? = some x → S[i]? = some X → SR (bodies s.heap) x X

theorem Rel.get {s : St} {S : List SSlot} (r : Rel s S) {i : Nat} {X : SSlot} (e : S[i]? = some X) :
    ∃ x, s.slots[i]? = some x ∧ SR (bodies s.heap) x X := by
  have hl : i < s.slots.length := by
    rw [r.len]
    rcases Nat.lt_or_ge i S.length with hl | hl
    · exact hl
    · rw [List.getElem?_eq_none hl] at e; cases e
  exact ⟨s.slots[i], List.getElem?_eq_getElem hl, r.slots i _ _ (List.getElem?_eq_getElem hl) e⟩

theorem Rel.conf_none {s : St} {S : List SSlot} (r : Rel s S) {i : Nat} (e : S[i]? = some (.conf none)) : s.slots[i]? = some (.conf none) := by
  obtain ⟨x, hx, c⟩ := r.get e
  cases x with
  | dead => cases c
  | conf b => cases b with
    | none => exact hx
    | some b => cases c
  | entry e => cases c

theorem Rel.conf_some {s : St} {S : List SSlot} (r : Rel s S) {i : Nat} {kids : Kids} (e : S[i]? = some (.conf (some kids))) :
    ∃ b, s.slots[i]? = some (.conf (some b)) ∧ Conf (bodies s.heap) b kids := by
  obtain ⟨x, hx, c⟩ := r.get e
  cases x with
  | dead => cases c
  | conf b => cases b with
    | none => cases c
    | some b => exact ⟨b, hx, c⟩
  | entry e => cases c

theorem Rel.entry {s : St} {S : List SSlot} (r : Rel s S) {i : Nat} {f : Option Found} (e : S[i]? = some (.entry f)) :
    ∃ x, s.slots[i]? = some (.entry x) ∧ ER (bodies s.heap) x f := by
  obtain ⟨x, hx, c⟩ := r.get e
  cases x with
  | dead => cases c
  | conf b => cases b <;> cases c
  | entry x => exact ⟨x, hx, c⟩

theorem mem_roots {l : List Slot} {i j : Nat} {x : Slot} (e : l[i]? = some x) (m : j ∈ sref x) : j ∈ roots l :=
  List.mem_flatMap.2 ⟨x, List.mem_of_getElem? e, m⟩

theorem roots_set (l : List Slot) (i : Nat) (x : Slot) (e : l[i]? = some x) :
    ∃ Q, (roots l).Perm (sref x ++ Q) ∧ ∀ y, (roots (l.set i y)).Perm (sref y ++ Q) := by
  induction l generalizing i with
  | nil => simp at e
  | cons a t ih =>
    cases i with
    | zero =>
      simp only [List.getElem?_cons_zero, Option.some.injEq] at e
      subst e
      exact ⟨roots t, by simp [roots], fun y => by simp [roots]⟩
    | succ i =>
      simp only [List.getElem?_cons_succ] at e
      obtain ⟨Q, p, q⟩ := ih i e
      have key : ∀ (L M : List Nat), L.Perm (M ++ Q) → (sref a ++ L).Perm (M ++ (sref a ++ Q)) := by
        intro L M pm
        refine (List.Perm.append_left _ pm).trans ?_
        rw [← List.append_assoc, ← List.append_assoc]
        exact List.Perm.append_right _ List.perm_append_comm
      refine ⟨sref a ++ Q, ?_, fun y => ?_⟩
      · have := key _ _ p
        simpa [roots] using this
      · have := key _ _ (q y)
        simpa [roots] using this

theorem Rel.add {s : St} {S : List SSlot} (r : Rel s S) {h' : Heap} {x : Slot} {X : SSlot} (v : Inv h' (sref x ++ roots s.slots))
    (e : Ext s.heap h') (c : SR (bodies h') x X) : Rel ⟨h', s.slots ++ [x]⟩ (S ++ [X]) where
  inv := by
    apply v.perm
    have : roots (s.slots ++ [x]) = roots s.slots ++ sref x := by simp [roots]
    rw [this]
    exact List.perm_append_comm
  len := by simp [r.len]
  slots i y Y hy hY := by
    dsimp only at hy ⊢
    rcases Nat.lt_or_ge i s.slots.length with hi | hi
    · rw [List.getElem?_append_left hi] at hy
      rw [List.getElem?_append_left (by rw [← r.len]; exact hi)] at hY
      exact e.sr (r.slots i y Y hy hY)
    · rw [List.getElem?_append_right hi] at hy
      rw [List.getElem?_append_right (by rw [← r.len]; exact hi)] at hY
      have a : y = x := by simpa using List.mem_of_getElem? hy
      have b : Y = X := by simpa using List.mem_of_getElem? hY
      subst a; subst b
      exact c

theorem Rel.set {s : St} {S : List SSlot} (r : Rel s S) {h' : Heap} {i : Nat} {x : Slot} {X : SSlot} (v : Inv h' (roots (s.slots.set i x)))
    (e : Ext s.heap h') (c : SR (bodies h') x X) : Rel ⟨h', s.slots.set i x⟩ (S.set i X) where
  inv := v
  len := by simp [r.len]
  slots j y Y hy hY := by
    dsimp only at hy ⊢
    by_cases hij : i = j
    · subst hij
      have hl : i < s.slots.length := by
        rcases Nat.lt_or_ge i s.slots.length with hl | hl
        · exact hl
        · rw [List.getElem?_eq_none (by simpa using hl)] at hy; cases hy
      rw [List.getElem?_set_self hl] at hy
      rw [List.getElem?_set_self (by rw [← r.len]; exact hl)] at hY
      cases hy; cases hY
      exact c
    · rw [List.getElem?_set_ne hij] at hy hY
      exact e.sr (r.slots j y Y hy hY)

theorem Rel.heap {s : St} {S : List SSlot} (r : Rel s S) {h' : Heap} (v : Inv h' (roots s.slots)) (e : Ext s.heap h') : Rel ⟨h', s.slots⟩ S where
  inv := v
  len := r.len
  slots i x X hx hX := e.sr (r.slots i x X hx hX)

/-- The values of a builder and what they stand for. -/
def Items (bs : List Body) : List (String × Item) → Kids → Prop
  | [], [] => True
  | (s, .scalar n) :: r, (s', t) :: r' => s = s' ∧ t = .leaf n ∧ Items bs r r'
  | (s, .conf c) :: r, (s', t) :: r' => s = s' ∧ (∃ kids, t = .node kids ∧ Conf bs c kids) ∧ Items bs r r'
  | _, _ => False

theorem Items.keys {bs : List Body} {is : List (String × Item)} {kids : Kids} (h : Items bs is kids) : is.map Prod.fst = kids.map Prod.fst := by
  induction is generalizing kids with
  | nil => cases kids with
    | nil => rfl
    | cons e r => cases h
  | cons a is ih =>
    obtain ⟨s, it⟩ := a
    cases kids with
    | nil => cases it <;> cases h
    | cons e r =>
      cases it with
      | scalar n => obtain ⟨h1, _, h3⟩ := h; simp [h1, ih h3]
      | conf c => obtain ⟨h1, _, h3⟩ := h; simp [h1, ih h3]

theorem Items.get {bs : List Body} {is : List (String × Item)} {kids : Kids} (h : Items bs is kids) (k : Nat) :
    (∀ s n, is[k]? = some (s, Item.scalar n) → kids[k]? = some (s, .leaf n)) ∧
    (∀ s c, is[k]? = some (s, Item.conf c) → ∃ sub, kids[k]? = some (s, .node sub) ∧ Conf bs c sub) := by
  induction is generalizing kids k with
  | nil => exact ⟨fun s n e => by simp at e, fun s n e => by simp at e⟩
  | cons a is ih =>
    obtain ⟨s0, it⟩ := a
    cases kids with
    | nil => cases it <;> cases h
    | cons e r =>
      obtain ⟨s1, t⟩ := e
      cases k with
      | succ k =>
        simp only [List.getElem?_cons_succ]
        cases it with
        | scalar n => exact ih h.2.2 k
        | conf c => exact ih h.2.2 k
      | zero =>
        simp only [List.getElem?_cons_zero, Option.some.injEq, Prod.mk.injEq]
        cases it with
        | scalar n =>
          obtain ⟨h1, h2, _⟩ := h
          refine ⟨fun s n' e => ?_, fun s c e => by cases e.2⟩
          cases e.2
          exact ⟨by rw [← h1]; exact e.1, h2⟩
        | conf c =>
          obtain ⟨h1, ⟨sub, h2, h4⟩, _⟩ := h
          refine ⟨fun s n' e => by (cases e.2), fun s c' e => ?_⟩
          cases e.2
          exact ⟨sub, ⟨by rw [← h1]; exact e.1, h2⟩, h4⟩

def subAt (kids : Kids) (k : Nat) : Kids :=
  match kids[k]? with
  | some (_, .node sub) => sub
  | _ => []

theorem subAt_eq {kids : Kids} {k : Nat} {s : String} {sub : Kids} (h : kids[k]? = some (s, .node sub)) : subAt kids k = sub := by
  simp only [subAt, h]

theorem Items.conf {bs : List Body} {b : Nat} {is : List (String × Item)} {kids : Kids} (h : Items bs is kids) (e : bs[b]? = some (.resident is)) :
    Conf bs b kids := by
  refine .resident (subAt kids) e h.keys (fun k s n => (h.get k).1 s n) ?_ ?_
  · intro k s c q
    obtain ⟨sub, g, _⟩ := (h.get k).2 s c q
    rw [subAt_eq g]; exact g
  · intro k s c q
    obtain ⟨sub, g, cf⟩ := (h.get k).2 s c q
    rw [subAt_eq g]; exact cf

theorem Items.mono {bs : List Body} {is : List (String × Item)} {kids : Kids} (h : Items bs is kids) (more : List Body) :
    Items (bs ++ more) is kids := by
  induction is generalizing kids with
  | nil => cases kids with
    | nil => trivial
    | cons e r => cases h
  | cons a is ih =>
    obtain ⟨s, it⟩ := a
    cases kids with
    | nil => cases it <;> cases h
    | cons e r =>
      cases it with
      | scalar n => exact ⟨h.1, h.2.1, ih h.2.2⟩
      | conf c =>
        obtain ⟨h1, ⟨sub, h2, h4⟩, h3⟩ := h
        exact ⟨h1, ⟨sub, h2, h4.mono _⟩, ih h3⟩

theorem toItems_ok {s : St} {S : List SSlot} (r : Rel s S) (args : List (String × Arg)) {kids : Kids} (e : built S args = some kids) :
    ∃ is, toItems s args = .ok is ∧ Items (bodies s.heap) is kids ∧ ∀ i, i ∈ (Body.resident is).outs → i ∈ roots s.slots := by
  induction args generalizing kids with
  | nil =>
    simp only [built, Option.some.injEq] at e
    subst e
    exact ⟨[], rfl, trivial, by simp [Body.outs]⟩
  | cons a args ih =>
    obtain ⟨k, a⟩ := a
    cases a with
    | scalar n =>
      simp only [built, Option.map_eq_some_iff] at e
      obtain ⟨ks, e, rfl⟩ := e
      obtain ⟨is, q, i, o⟩ := ih e
      exact ⟨(k, .scalar n) :: is, by simp only [toItems, q, bind_ok], ⟨rfl, rfl, i⟩, by simpa [Body.outs, Item.outs] using o⟩
    | conf c =>
      simp only [built] at e
      split at e
      · rename_i sub hc
        simp only [Option.map_eq_some_iff] at e
        obtain ⟨ks, e, rfl⟩ := e
        obtain ⟨is, q, i, o⟩ := ih e
        obtain ⟨b, hb, cb⟩ := r.conf_some hc
        refine ⟨(k, .conf b) :: is, by simp only [toItems, Lifetimes.conf, hb, bind_ok, q], ⟨rfl, ⟨_, rfl, cb⟩, i⟩, ?_⟩
        intro j m
        have m' : j = b ∨ j ∈ (Body.resident is).outs := by simpa [Body.outs, Item.outs] using m
        rcases m' with rfl | m'
        · exact mem_roots hb (by simp [sref])
        · exact o j m'
      · rename_i hc
        obtain ⟨is, q, i, o⟩ := ih e
        exact ⟨is, by simp only [toItems, Lifetimes.conf, r.conf_none hc, bind_ok, q], i, o⟩
      · cases e

theorem sizeOf_ok {h : Heap} {R : List Nat} (v : Inv h R) {b : Nat} (m : b ∈ R) {kids : Kids} (c : Conf (bodies h) b kids) :
    sizeOf b h = .ok kids.length := by
  have ab := v.alive m
  cases c with
  | doc e1 e2 e3 => simp only [sizeOf, obj_alive ab e1, bind_ok, obj_alive (alive_doc v ab e1 (by simp [Body.outs])) e2, e3, kidsOf]
  | resident f e1 e2 =>
    have hl := congrArg List.length e2
    simp only [List.length_map] at hl
    simp only [sizeOf, obj_alive ab e1, bind_ok, hl]

theorem step_ok {s : St} {S S' : List SSlot} {op : Op} {res : Res} (r : Rel s S) (e : spec S op = some (S', res)) :
    ∃ s', step s op = .ok (s', res) ∧ Rel s' S' := by
  have v := r.inv
  cases op with
  | read eager kids =>
    cases e
    obtain ⟨h1, q1, v1, b1⟩ := alloc_ok v (.doc eager (.node kids)) (by simp [Body.outs])
    obtain ⟨h2, q2, v2, b2⟩ := alloc_ok v1 (.back s.heap.length []) (by
      intro i m
      have : i = s.heap.length := by simpa [Body.outs] using m
      subst this
      exact v1.alive List.mem_cons_self)
    obtain ⟨h3, q3, v3, b3⟩ := drop1_ok s.heap.length (v2.perm (List.Perm.swap _ _ _))
    have x1 : Ext s.heap h1 := ⟨_, b1⟩
    have x2 : Ext h1 h2 := ⟨_, b2⟩
    have x3 : Ext h2 h3 := .of_eq b3
    refine ⟨⟨h3, s.slots ++ [.conf (some h1.length)]⟩, by simp only [Lifetimes.step, q1, bind_ok, q2, q3]; rfl, r.add (x := .conf (some h1.length)) v3 (x1.trans (x2.trans x3)) ?_⟩
    refine Conf.doc (d := s.heap.length) (pos := []) (eager := eager) (t := .node kids) (x3.get (get_new b2)) ((x2.trans x3).get (get_new b1)) rfl
  | build items =>
    simp only [spec, Option.map_eq_some_iff, Prod.mk.injEq] at e
    obtain ⟨kids, e, rfl, rfl⟩ := e
    obtain ⟨is, q, i, o⟩ := toItems_ok r items e
    obtain ⟨h1, q1, v1, b1⟩ := alloc_ok v (.resident is) (fun j m => v.alive (o j m))
    refine ⟨⟨h1, s.slots ++ [.conf (some s.heap.length)]⟩, by simp only [Lifetimes.step, q, q1, bind_ok]; rfl, r.add (x := .conf (some s.heap.length)) v1 ⟨_, b1⟩ ?_⟩
    refine Items.conf (is := is) (by rw [b1]; exact i.mono _) (get_new b1)
  | copy c =>
    simp only [spec] at e
    split at e
    · rename_i k hc
      cases e
      cases k with
      | none =>
        refine ⟨⟨s.heap, s.slots ++ [.conf none]⟩, by simp only [Lifetimes.step, Lifetimes.conf, r.conf_none hc, bind_ok, incOpt]; rfl, r.add (x := .conf none) v (.refl _) (by exact trivial)⟩
      | some kids =>
        obtain ⟨b, hb, cb⟩ := r.conf_some hc
        obtain ⟨h1, q1, v1, b1⟩ := inc_ok v (v.alive (mem_roots hb (j := b) (by simp [sref])))
        exact ⟨⟨h1, s.slots ++ [.conf (some b)]⟩, by simp only [Lifetimes.step, Lifetimes.conf, hb, bind_ok, incOpt, q1]; rfl, r.add (x := .conf (some b)) v1 (.of_eq b1) (by exact ((Ext.of_eq b1).conf cb))⟩
    · cases e
  | assign c c' =>
    simp only [spec] at e
    split at e
    · rename_i k0 k hc hc'
      cases e
      -- the variable assigned to
      have old : ∃ b, s.slots[c]? = some (.conf b) := by
        cases k0 with
        | none => exact ⟨none, r.conf_none hc⟩
        | some k0 => obtain ⟨b, hb, _⟩ := r.conf_some hc; exact ⟨some b, hb⟩
      obtain ⟨b, hb⟩ := old
      obtain ⟨Q, p, q⟩ := roots_set s.slots c _ hb
      have new : ∃ b' h1, s.slots[c']? = some (.conf b') ∧ incOpt b' s.heap = .ok h1 ∧ Inv h1 (b'.toList ++ roots s.slots) ∧ bodies h1 = bodies s.heap ∧ SR (bodies s.heap) (.conf b') (.conf k) := by
        cases k with
        | none => exact ⟨none, s.heap, r.conf_none hc', rfl, v, rfl, trivial⟩
        | some k =>
          obtain ⟨b', hb', cb'⟩ := r.conf_some hc'
          obtain ⟨h1, q1, v1, b1⟩ := inc_ok v (v.alive (mem_roots hb' (j := b') (by simp [sref])))
          exact ⟨some b', h1, hb', q1, v1, b1, cb'⟩
      obtain ⟨b', h1, hb', q1, v1, b1, sr⟩ := new
      have v2 : Inv h1 (b.toList ++ (b'.toList ++ Q)) := by
        apply v1.perm
        refine (List.Perm.append_left _ p).trans ?_
        show (b'.toList ++ (b.toList ++ Q)).Perm _
        rw [← List.append_assoc, ← List.append_assoc]
        exact List.Perm.append_right _ List.perm_append_comm
      have dr : ∃ h2, dropOpt b h1 = .ok h2 ∧ Inv h2 (b'.toList ++ Q) ∧ bodies h2 = bodies h1 := by
        cases b with
        | none => exact ⟨h1, rfl, v2, rfl⟩
        | some b => exact drop1_ok b v2
      obtain ⟨h2, q2, v3, b2⟩ := dr
      refine ⟨⟨h2, s.slots.set c (.conf b')⟩, by simp only [Lifetimes.step, Lifetimes.conf, hb, hb', bind_ok, q1, q2], r.set ?_ (.of_eq (b2.trans b1)) ((Ext.of_eq (b2.trans b1)).sr sr)⟩
      exact v3.perm (q (.conf b')).symm
    · cases e
  | drop x =>
    simp only [spec] at e
    split at e
    · rename_i k hc
      cases e
      cases k with
      | none =>
        have hb := r.conf_none hc
        obtain ⟨Q, p, q⟩ := roots_set s.slots x _ hb
        refine ⟨⟨s.heap, s.slots.set x .dead⟩, by simp only [Lifetimes.step, hb, dropOpt, bind_ok], r.set ?_ (.refl _) trivial⟩
        exact (v.perm p).perm (q .dead).symm
      | some kids =>
        obtain ⟨b, hb, cb⟩ := r.conf_some hc
        obtain ⟨Q, p, q⟩ := roots_set s.slots x _ hb
        obtain ⟨h1, q1, v1, b1⟩ := drop1_ok b (v.perm p)
        exact ⟨⟨h1, s.slots.set x .dead⟩, by simp only [Lifetimes.step, hb, dropOpt, q1, bind_ok], r.set (v1.perm (q .dead).symm) (.of_eq b1) trivial⟩
    · rename_i f hc
      cases e
      obtain ⟨en, hb, ce⟩ := r.entry hc
      obtain ⟨Q, p, q⟩ := roots_set s.slots x _ hb
      obtain ⟨h1, q1, _, v1, b1⟩ := dropEntry_ok ce (v.perm p)
      exact ⟨⟨h1, s.slots.set x .dead⟩, by simp only [Lifetimes.step, hb, q1, bind_ok], r.set (v1.perm (q .dead).symm) (.of_eq b1) trivial⟩
    · cases e
  | size c =>
    simp only [spec] at e
    split at e
    · rename_i hc
      cases e
      exact ⟨s, by simp only [Lifetimes.step, Lifetimes.conf, r.conf_none hc, bind_ok], r⟩
    · rename_i kids hc
      cases e
      obtain ⟨b, hb, cb⟩ := r.conf_some hc
      exact ⟨s, by simp only [Lifetimes.step, Lifetimes.conf, hb, bind_ok, sizeOf_ok v (mem_roots hb (by simp [sref])) cb], r⟩
    · cases e
  | at_ c k =>
    simp only [spec] at e
    split at e
    · rename_i hc
      cases e
      exact ⟨⟨s.heap, s.slots ++ [.entry .null]⟩, by simp only [Lifetimes.step, Lifetimes.conf, r.conf_none hc, bind_ok]; rfl, r.add (x := .entry .null) v (.refl _) (by exact rfl)⟩
    · rename_i kids hc
      cases e
      obtain ⟨b, hb, cb⟩ := r.conf_some hc
      obtain ⟨h1, q1, v1, b1⟩ := inc_ok v (v.alive (mem_roots hb (j := b) (by simp [sref])))
      obtain ⟨h2, en, q2, x2, c2, v2, _⟩ := makeEntry_ok v1 ((Ext.of_eq b1).conf cb) (.index k)
      exact ⟨⟨h2, s.slots ++ [.entry en]⟩, by simp only [Lifetimes.step, Lifetimes.conf, hb, bind_ok, q1, q2]; rfl, r.add (x := .entry en) v2 ((Ext.of_eq b1).trans x2) (by exact c2)⟩
    · cases e
  | path c ss =>
    simp only [spec] at e
    split at e
    · rename_i hc
      cases e
      exact ⟨⟨s.heap, s.slots ++ [.entry .null]⟩, by simp only [Lifetimes.step, Lifetimes.conf, r.conf_none hc, bind_ok, incOpt, resolve_none]; rfl, r.add (x := .entry .null) v (.refl _) (by exact rfl)⟩
    · rename_i kids hc
      cases e
      obtain ⟨b, hb, cb⟩ := r.conf_some hc
      obtain ⟨h1, q1, v1, b1⟩ := inc_ok v (v.alive (mem_roots hb (j := b) (by simp [sref])))
      obtain ⟨h2, en, q2, x2, c2, v2⟩ := resolve_ok ss v1 ((Ext.of_eq b1).conf cb)
      exact ⟨⟨h2, s.slots ++ [.entry en]⟩, by simp only [Lifetimes.step, Lifetimes.conf, hb, bind_ok, incOpt, q1, q2]; rfl, r.add (x := .entry en) v2 ((Ext.of_eq b1).trans x2) (by exact c2)⟩
    · cases e
  | move x =>
    simp only [spec] at e
    split at e
    · rename_i f hc
      cases e
      obtain ⟨en, hb, ce⟩ := r.entry hc
      obtain ⟨Q, p, q⟩ := roots_set s.slots x _ hb
      have v0 : Inv s.heap (sref (.entry en) ++ roots (s.slots.set x (.entry en.moved))) := by
        apply v.perm
        exact p.trans (List.Perm.append_left _ (q (.entry en.moved)).symm)
      have key : Rel ⟨s.heap, s.slots.set x (.entry en.moved) ++ [.entry en]⟩ (S.set x (.entry none) ++ [.entry f]) := by
        constructor
        · apply v0.perm
          have : roots (s.slots.set x (.entry en.moved) ++ [.entry en]) = roots (s.slots.set x (.entry en.moved)) ++ sref (.entry en) := by simp [roots]
          rw [this]
          exact List.perm_append_comm
        · simp [r.len]
        · intro i y Y hy hY
          dsimp only at hy ⊢
          rcases Nat.lt_or_ge i s.slots.length with hi | hi
          · rw [List.getElem?_append_left (by simpa using hi)] at hy
            rw [List.getElem?_append_left (by rw [List.length_set, ← r.len]; exact hi)] at hY
            by_cases hxi : x = i
            · subst hxi
              rw [List.getElem?_set_self hi] at hy
              rw [List.getElem?_set_self (by rw [← r.len]; exact hi)] at hY
              cases hy; cases hY
              exact (rfl : en.moved.val = none)
            · rw [List.getElem?_set_ne hxi] at hy hY
              exact r.slots i y Y hy hY
          · rw [List.getElem?_append_right (by simpa using hi)] at hy
            rw [List.getElem?_append_right (by rw [List.length_set, ← r.len]; exact hi)] at hY
            have a : y = .entry en := by simpa using List.mem_of_getElem? hy
            have b : Y = .entry f := by simpa using List.mem_of_getElem? hY
            subst a; subst b
            exact ce
      exact ⟨_, by simp only [Lifetimes.step, Lifetimes.entry, hb, bind_ok], key⟩
    · cases e
  | moveAssign x y =>
    simp only [spec] at e
    split at e
    · rename_i f g hx hy
      split at e
      · cases e
      · rename_i hne
        cases e
        obtain ⟨ex, bx, cx⟩ := r.entry hx
        obtain ⟨ey, by', cy⟩ := r.entry hy
        obtain ⟨Q, p, q⟩ := roots_set s.slots x _ bx
        obtain ⟨h1, _, q1, v1, b1⟩ := dropEntry_ok cx (v.perm p)
        have gy : (s.slots.set x (.entry ey))[y]? = some (.entry ey) := by rw [List.getElem?_set_ne hne]; exact by'
        obtain ⟨Q', p', q'⟩ := roots_set _ y _ gy
        have pq : Q.Perm Q' := (List.perm_append_left_iff _).1 ((q (.entry ey)).symm.trans p')
        have v2 : Inv h1 (roots ((s.slots.set x (.entry ey)).set y (.entry ey.moved))) := (v1.perm pq).perm (q' (.entry ey.moved)).symm
        refine ⟨⟨h1, (s.slots.set x (.entry ey)).set y (.entry ey.moved)⟩, by simp only [Lifetimes.step, Lifetimes.entry, bx, by', bind_ok, if_neg hne, q1], v2, by simp [r.len], ?_⟩
        intro i z Z hz hZ
        dsimp only at hz ⊢
        have hl : i < s.slots.length := by
          rcases Nat.lt_or_ge i s.slots.length with hl | hl
          · exact hl
          · rw [List.getElem?_eq_none (by simpa using hl)] at hz; cases hz
        have hL : i < S.length := by rw [← r.len]; exact hl
        by_cases hyi : y = i
        · subst hyi
          rw [List.getElem?_set_self (by simpa using hl)] at hz
          rw [List.getElem?_set_self (by simpa using hL)] at hZ
          cases hz; cases hZ
          exact (rfl : ey.moved.val = none)
        · rw [List.getElem?_set_ne hyi] at hz hZ
          by_cases hxi : x = i
          · subst hxi
            rw [List.getElem?_set_self hl] at hz
            rw [List.getElem?_set_self hL] at hZ
            cases hz; cases hZ
            exact (Ext.of_eq b1).er cy
          · rw [List.getElem?_set_ne hxi] at hz hZ
            exact (Ext.of_eq b1).sr (r.slots i z Z hz hZ)
    · cases e
  | look x =>
    simp only [spec] at e
    split at e
    · rename_i f hx
      cases e
      obtain ⟨en, hb, ce⟩ := r.entry hx
      cases f with
      | none =>
        have hv : en.val = none := ce
        exact ⟨s, by simp only [Lifetimes.step, Lifetimes.entry, hb, bind_ok, hv]; rfl, r⟩
      | some f =>
        obtain ⟨k, st, t⟩ := f
        obtain ⟨b, w, a1, a2, a3, a4, a5⟩ := ce
        have mb : b ∈ roots s.slots := mem_roots hb (by simp [sref, eref, a1])
        have mw : ∀ i, i ∈ href w → i ∈ roots s.slots := fun i hi => mem_roots hb (by simp [sref, eref, a2, hi])
        rcases getValue_ok v mb mw a5 with ⟨n, rfl, g⟩ | ⟨rfl, g⟩ | ⟨kids, h1, i, rfl, g, x1, v1, c1⟩
        · exact ⟨s, by simp only [Lifetimes.step, Lifetimes.entry, hb, bind_ok, a2, a1, Option.getD_some, g, a3, a4]; rfl, r⟩
        · exact ⟨s, by simp only [Lifetimes.step, Lifetimes.entry, hb, bind_ok, a2, a1, Option.getD_some, g, a3, a4]; rfl, r⟩
        · obtain ⟨h2, q2, v2, b2⟩ := drop1_ok i v1
          exact ⟨⟨h2, s.slots⟩, by simp only [Lifetimes.step, Lifetimes.entry, hb, bind_ok, a2, a1, Option.getD_some, g, q2, a3, a4]; rfl, r.heap v2 (x1.trans (.of_eq b2))⟩
    · cases e
  | object x =>
    simp only [spec] at e
    split at e
    · rename_i f hx
      cases e
      obtain ⟨en, hb, ce⟩ := r.entry hx
      cases f with
      | none =>
        have hv : en.val = none := ce
        exact ⟨⟨s.heap, s.slots ++ [.conf none]⟩, by simp only [Lifetimes.step, Lifetimes.entry, hb, bind_ok, hv]; rfl, r.add (x := .conf none) v (.refl _) (by exact trivial)⟩
      | some f =>
        obtain ⟨k, st, t⟩ := f
        obtain ⟨b, w, a1, a2, a3, a4, a5⟩ := ce
        have mb : b ∈ roots s.slots := mem_roots hb (by simp [sref, eref, a1])
        have mw : ∀ i, i ∈ href w → i ∈ roots s.slots := fun i hi => mem_roots hb (by simp [sref, eref, a2, hi])
        rcases getValue_ok v mb mw a5 with ⟨n, rfl, g⟩ | ⟨rfl, g⟩ | ⟨kids, h1, i, rfl, g, x1, v1, c1⟩
        · exact ⟨⟨s.heap, s.slots ++ [.conf none]⟩, by simp only [Lifetimes.step, Lifetimes.entry, hb, bind_ok, a2, a1, Option.getD_some, g]; rfl, r.add (x := .conf none) v (.refl _) (by exact trivial)⟩
        · exact ⟨⟨s.heap, s.slots ++ [.conf none]⟩, by simp only [Lifetimes.step, Lifetimes.entry, hb, bind_ok, a2, a1, Option.getD_some, g]; rfl, r.add (x := .conf none) v (.refl _) (by exact trivial)⟩
        · exact ⟨⟨h1, s.slots ++ [.conf (some i)]⟩, by simp only [Lifetimes.step, Lifetimes.entry, hb, bind_ok, a2, a1, Option.getD_some, g]; rfl, r.add (x := .conf (some i)) v1 x1 (by exact c1)⟩
    · cases e

theorem run_ok {s : St} {S S' : List SSlot} {ops : List Op} {res : List Res} (r : Rel s S) (e : specRun S ops = some (S', res)) :
    ∃ s', run s ops = .ok (s', res) ∧ Rel s' S' := by
  induction ops generalizing s S res with
  | nil =>
    cases e
    exact ⟨s, rfl, r⟩
  | cons op ops ih =>
    simp only [specRun, Option.bind_eq_some_iff, Option.map_eq_some_iff] at e
    obtain ⟨⟨S1, r1⟩, e1, ⟨S2, r2⟩, e2, e3⟩ := e
    cases e3
    obtain ⟨s1, q1, rel1⟩ := step_ok r e1
    obtain ⟨s2, q2, rel2⟩ := ih rel1 e2
    exact ⟨s2, by simp only [Lifetimes.run, q1, bind_ok, q2], rel2⟩

/-- The start: no variables, no objects. -/
def St.init : St := ⟨[], []⟩

theorem rel_init : Rel St.init [] := ⟨inv_nil, rfl, by simp [St.init]⟩

/-! ## Theorems -/

/-- Every program that only uses variables that exist, and moves no entry onto itself, runs without undefined behaviour and returns what the specification says. -/
theorem C82_programs_partial (ops : List Op) (S : List SSlot) (res : List Res) (e : specRun [] ops = some (S, res)) :
    ∃ s, run .init ops = .ok (s, res) := by
  obtain ⟨s, q, _⟩ := run_ok rel_init e
  exact ⟨s, q⟩

/-- After any such program an object is alive exactly if a variable leads to it. -/
theorem C82_alive_iff_reachable (ops : List Op) (S : List SSlot) (res : List Res) (e : specRun [] ops = some (S, res)) (s : St)
    (q : run .init ops = .ok (s, res)) (i : Nat) : Alive s.heap i ↔ Reach s.heap (roots s.slots) i := by
  obtain ⟨s', q', r⟩ := run_ok rel_init e
  rw [q'] at q
  cases q
  exact r.inv.alive_iff i

/-- When all variables have ended every object has been freed. -/
theorem C82_no_leak (ops : List Op) (S : List SSlot) (res : List Res) (e : specRun [] ops = some (S, res)) (g : ∀ X, X ∈ S → X = .gone)
    (s : St) (q : run .init ops = .ok (s, res)) : ∀ o, o ∈ s.heap → o.cnt = 0 := by
  obtain ⟨s', q', r⟩ := run_ok rel_init e
  rw [q'] at q
  cases q
  have hr : roots s.slots = [] := by
    apply List.flatMap_eq_nil_iff.2
    intro x m
    obtain ⟨i, hi⟩ := List.mem_iff_getElem?.1 m
    have hl : i < S.length := by
      rw [← r.len]
      rcases Nat.lt_or_ge i s.slots.length with hl | hl
      · exact hl
      · rw [List.getElem?_eq_none hl] at hi; cases hi
    have := r.slots i x _ hi (List.getElem?_eq_getElem hl)
    rw [g _ (List.getElem_mem hl)] at this
    cases x with
    | dead => rfl
    | conf b => cases b <;> cases this
    | entry e => cases this
  have v := r.inv
  rw [hr] at v
  intro o m
  obtain ⟨i, hi⟩ := List.mem_iff_getElem?.1 m
  rcases Nat.eq_zero_or_pos o.cnt with z | z
  · exact z
  · exact (v.none i ⟨o, hi, by omega⟩).elim

/-- Moving an entry onto itself: all variables exist, and the value is lost. -/
theorem C82_self_move_violated :
    (∃ s, run .init [.read false [("a", .leaf 1)], .at_ 0 0, .look 1] = .ok (s, [.unit, .unit, .entry 0 "a" (some 1)])) ∧
    ∃ s, run .init [.read false [("a", .leaf 1)], .at_ 0 0, .moveAssign 1 1, .look 1] = .ok (s, [.unit, .unit, .unit, .null]) :=
  ⟨⟨_, rfl⟩, ⟨_, rfl⟩⟩

/-! ## Examples -/

/-- A document with a nested config; the config ends before the entry taken from it, the entry before the nested config; a builder
shares that one, and it ends before the config that was built. -/
def exampleOps (eager : Bool) : List Op :=
  [.read eager [("n", .leaf 7), ("o", .node [("x", .leaf 1), ("y", .node [("z", .leaf 5)])])],
    .path 0 ["o"], .drop 0, .object 1, .drop 1, .size 2, .build [("k", .conf 2), ("l", .scalar 3)], .drop 2,
    .path 3 ["k", "y", "z"], .at_ 3 1, .drop 3, .look 4, .look 5, .moveAssign 4 5, .look 4, .look 5]

def exampleResults : List Res :=
  [.unit, .unit, .unit, .unit, .unit, .size 2, .unit, .unit, .unit, .unit, .unit, .entry 0 "z" (some 5), .entry 1 "l" (some 3), .unit,
    .entry 1 "l" (some 3), .null]

theorem example_spec (eager : Bool) : (specRun [] (exampleOps eager)).map (·.2) = some exampleResults := by cases eager <;> rfl

/-- It meets the hypothesis of `C82_programs_partial`. -/
example (eager : Bool) : ∃ s, run .init (exampleOps eager) = .ok (s, exampleResults) := by
  have h := example_spec eager
  rw [Option.map_eq_some_iff] at h
  obtain ⟨⟨S, r⟩, e, q⟩ := h
  cases q
  exact C82_programs_partial _ _ _ e

def counts (s : Out (St × List Res)) : Option (List Nat) :=
  match s with
  | .ok (s, _) => some (s.heap.map Obj.cnt)
  | _ => none

/-- Alive at the end: the config that was built, kept by its entry, and the nested config and the document, kept by it. -/
example : counts (run .init (exampleOps false)) = some [1, 0, 0, 1, 1, 0, 0, 0] := by rfl

/-- With the last variables gone nothing is alive: the hypotheses of `C82_no_leak`. -/
example : (specRun [] (exampleOps true ++ [.drop 4, .drop 5])).map (fun q => q.1.map fun | .gone => true | _ => false) =
    some [true, true, true, true, true, true] := by rfl

example : counts (run .init (exampleOps true ++ [.drop 4, .drop 5])) = some [0, 0, 0, 0, 0, 0, 0, 0] := by rfl

end Verif.Lifetimes
