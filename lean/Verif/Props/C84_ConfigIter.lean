import Verif.Model.ConfigIter
/-!
C84: an iterator over a config is a position in the list of its entries. Arithmetic, comparisons and distances are those of the positions, dereferencing gives
the entry at the position, and the usual loops read every entry once, in order.
-/
set_option autoImplicit false
set_option linter.unusedSectionVars false

namespace Verif.ConfigIter

variable {α : Type} {env : Nat → List (Str × α)}

/-! ## Specification: positions in lists -/

structure Pos where
  conf : Option Nat
  pos : Int
deriving DecidableEq, Repr

/-- the entries of a config; a null config has none -/
def entries (env : Nat → List (Str × α)) : Option Nat → List (Str × α)
  | some b => env b
  | none => []

/-- the entry at a position, with its index -/
def Pos.entry (env : Nat → List (Str × α)) (p : Pos) : Option (Nat × Str × α) :=
  if 0 ≤ p.pos then ((entries env p.conf)[p.pos.toNat]?).map (fun e => (p.pos.toNat, e)) else none

def Pos.move (p : Pos) (d : Int) : Pos := { p with pos := p.pos + d }

def Cmp.holds : Cmp → Int → Int → Bool
  | .eq, a, b => decide (a = b)
  | .ne, a, b => decide (a ≠ b)
  | .lt, a, b => decide (a < b)
  | .gt, a, b => decide (b < a)
  | .le, a, b => decide (a ≤ b)
  | .ge, a, b => decide (b ≤ a)

/-- what a statement does -/
def spec (env : Nat → List (Str × α)) (s : List Pos) : Op → Option (List Pos × Res α)
  | .begin c => some (s ++ [⟨c, 0⟩], .unit)
  | .end_ c => some (s ++ [⟨c, (entries env c).length⟩], .unit)
  | .findAt c i => some (s ++ [⟨c, i⟩], .unit)
  -- the first entry of that name, otherwise the end
  | .find c name => some (s ++ [⟨c, (entries env c).findIdx (fun e => decide (e.1 = name))⟩], .unit)
  | .copy v => (s[v]?).map fun p => (s ++ [p], .unit)
  | .assign v w => (s[w]?).map fun p => (s.set v p, .unit)
  | .inc v => (s[v]?).map fun p => (s.set v (p.move 1), .unit)
  | .dec v => (s[v]?).map fun p => (s.set v (p.move (-1)), .unit)
  | .postInc v => (s[v]?).map fun p => (s.set v (p.move 1) ++ [p], .unit)
  | .postDec v => (s[v]?).map fun p => (s.set v (p.move (-1)) ++ [p], .unit)
  | .addAssign v d => (s[v]?).map fun p => (s.set v (p.move d), .unit)
  | .subAssign v d => (s[v]?).map fun p => (s.set v (p.move (-d)), .unit)
  | .plus v d => (s[v]?).map fun p => (s ++ [p.move d], .unit)
  | .minus v d => (s[v]?).map fun p => (s ++ [p.move (-d)], .unit)
  | .minusLeft _ _ => none
  | .diff v w => (s[v]?).bind fun p => (s[w]?).map fun q => (s, .int (p.pos - q.pos))
  | .compare k v w => (s[v]?).bind fun p => (s[w]?).map fun q => (s, .bool (k.holds p.pos q.pos))
  | .deref v => (s[v]?).map fun p => (s, .entry (p.entry env))
  | .hasNext v => (s[v]?).map fun p => (s, .bool (p.entry env).isSome)
  | .next v => (s[v]?).map fun p => (s.set v (p.move 1), .entry (p.entry env))

/-- a value of `std::ptrdiff_t` -/
def InRange (x : Int) : Prop := -2 ^ 63 ≤ x ∧ x < 2 ^ 63

instance (x : Int) : Decidable (InRange x) := inferInstanceAs (Decidable (_ ∧ _))

/-- What a program may do: positions, distances and sizes fit `std::ptrdiff_t`; `find(i)` is not behind the end; compared iterators are of one config; `has_next` and
`next` are not used before the beginning, `next` not behind the end. In debug builds offsets are not negative and only entries are dereferenced. -/
def allowed (dbg : Bool) (env : Nat → List (Str × α)) (s : List Pos) : Op → Prop
  | .begin c => (entries env c).length < 2 ^ 63
  | .end_ c => (entries env c).length < 2 ^ 63
  | .findAt c i => (entries env c).length < 2 ^ 63 ∧ i ≤ (entries env c).length
  | .find c _ => (entries env c).length < 2 ^ 63
  | .copy v => v < s.length
  | .assign v w => v < s.length ∧ w < s.length
  | .inc v | .postInc v => ∃ p, s[v]? = some p ∧ InRange (p.pos + 1)
  | .dec v | .postDec v => ∃ p, s[v]? = some p ∧ InRange (p.pos - 1)
  | .addAssign v d | .plus v d => ∃ p, s[v]? = some p ∧ InRange d ∧ InRange (p.pos + d) ∧ (dbg = true → 0 ≤ d)
  | .subAssign v d | .minus v d => ∃ p, s[v]? = some p ∧ InRange d ∧ InRange (p.pos - d) ∧ (dbg = true → 0 ≤ d)
  | .minusLeft _ _ => False
  | .diff v w => ∃ p q, s[v]? = some p ∧ s[w]? = some q ∧ p.conf = q.conf ∧ InRange (p.pos - q.pos)
  | .compare _ v w => ∃ p q, s[v]? = some p ∧ s[w]? = some q ∧ p.conf = q.conf
  | .deref v => ∃ p, s[v]? = some p ∧ (dbg = true → (p.entry env).isSome = true)
  | .hasNext v => ∃ p, s[v]? = some p ∧ 0 ≤ p.pos
  | .next v => ∃ p, s[v]? = some p ∧ (p.entry env).isSome = true

/-- the results of a program, if all its statements are allowed -/
inductive Runs (dbg : Bool) (env : Nat → List (Str × α)) : List Pos → List Op → List Pos → List (Res α) → Prop
  | nil (s : List Pos) : Runs dbg env s [] s []
  | cons (s s' s'' : List Pos) (o : Op) (os : List Op) (r : Res α) (rs : List (Res α)) :
      allowed dbg env s o → spec env s o = some (s', r) → Runs dbg env s' os s'' rs → Runs dbg env s (o :: os) s'' (r :: rs)

/-! ## Lemmas -/

def It.abs (it : It) : Pos := ⟨it.back, it.idx⟩

structure Good (env : Nat → List (Str × α)) (it : It) : Prop where
  size : it.size = (entries env it.back).length
  small : (entries env it.back).length < 2 ^ 63
  range : InRange it.idx

theorem sizeOf_eq (c : Option Nat) : sizeOf env c = (entries env c).length := by cases c <;> rfl

theorem lo_i64 : Numeric.i64.lo = -2 ^ 63 := by decide
theorem hi_i64 : Numeric.i64.hi = 2 ^ 63 := by decide
theorem lo_u64 : Numeric.u64.lo = 0 := by decide
theorem max_eq : maxIdx = 2 ^ 63 - 1 := rfl
theorem min_eq : minIdx = -2 ^ 63 := rfl

theorem arith_ok {x : Int} (h : InRange x) : arith x = .ok x := by
  unfold arith Numeric.IntTy.arith
  unfold InRange at h
  rw [if_pos (by decide), if_pos (by rw [lo_i64, hi_i64]; omega)]

theorem arith_ub {x : Int} (h : ¬ InRange x) : arith x = .ub := by
  unfold arith Numeric.IntTy.arith
  unfold InRange at h
  rw [if_pos (by decide), if_neg (by rw [lo_i64, hi_i64]; exact h)]

theorem i64_conv {x : Int} (h : InRange x) : Numeric.i64.conv x = x := by
  unfold InRange at h
  unfold Numeric.IntTy.conv
  rw [lo_i64, show Numeric.i64.bits = 64 from rfl]
  omega

theorem u64_conv_pos {x : Int} (h : InRange x) (h0 : 0 ≤ x) : Numeric.u64.conv x = x := by
  unfold InRange at h
  unfold Numeric.IntTy.conv
  rw [lo_u64, show Numeric.u64.bits = 64 from rfl]
  omega

theorem u64_conv_neg {x : Int} (h : InRange x) (h0 : x < 0) : Numeric.u64.conv x = x + 2 ^ 64 := by
  unfold InRange at h
  unfold Numeric.IntTy.conv
  rw [lo_u64, show Numeric.u64.bits = 64 from rfl]
  omega

theorem inRange_nat {n : Nat} (h : n < 2 ^ 63) : InRange n := ⟨by omega, by omega⟩

theorem narrow_ok (dbg : Bool) {n : Nat} (h : n < 2 ^ 63) : narrow dbg n = .ok (n : Int) := by
  unfold narrow
  cases dbg with
  | false => simp only [Bool.false_eq_true, if_false, i64_conv (inRange_nat h)]
  | true =>
    have : Numeric.narrowCast Numeric.u64 Numeric.i64 n = some (n : Int) := by
      unfold Numeric.narrowCast Numeric.narrowOk
      rw [i64_conv (inRange_nat h), u64_conv_pos (inRange_nat h) (by omega)]
      simp
    rw [this]; rfl

theorem require_ok (dbg : Bool) {c : Out Bool} (h : dbg = true → c = .ok true) : require dbg c = .ok () := by
  unfold require
  cases dbg with
  | false => rfl
  | true => rw [h rfl]; rfl

theorem require_ub {β γ : Type} (f : β → Out Bool) {g : Unit → Out γ} : (require true (Out.ub.bind f)).bind g = .ub := rfl

theorem make_ok (dbg : Bool) (c : Option Nat) {p : Nat} (hs : (entries env c).length < 2 ^ 63) (hp : p ≤ (entries env c).length) :
    make dbg c p (sizeOf env c) = .ok ⟨c, p, (entries env c).length⟩ := by
  unfold make
  rw [sizeOf_eq, narrow_ok dbg (by omega), narrow_ok dbg hs]; rfl

theorem indexOf_eq (es : List (Str × α)) (name : Str) :
    indexOf es name = if es.findIdx (fun e => decide (e.1 = name)) < es.length then some (es.findIdx (fun e => decide (e.1 = name))) else none := by
  induction es with
  | nil => rfl
  | cons e r ih =>
    obtain ⟨k, x⟩ := e
    unfold indexOf
    rw [List.findIdx_cons]
    by_cases hk : k = name
    · simp [hk]
    · simp only [hk, if_false, decide_false, cond_false, ih, List.length_cons]
      split
      · rw [if_pos (by omega)]; rfl
      · rw [if_neg (by omega)]; rfl

theorem makeFind_ok (dbg : Bool) (c : Option Nat) (name : Str) (hs : (entries env c).length < 2 ^ 63) :
    makeFind env dbg c name = .ok ⟨c, ((entries env c).findIdx (fun e => decide (e.1 = name)) : Nat), (entries env c).length⟩ := by
  unfold makeFind
  rw [sizeOf_eq, narrow_ok dbg hs]
  cases c with
  | none => rfl
  | some b =>
    have hl := List.findIdx_le_length (p := fun e : Str × α => decide (e.1 = name)) (xs := env b)
    dsimp only [Out.bind, entries] at hs ⊢
    rw [indexOf_eq]
    split
    · rename_i h
      split at h
      · cases h
      · have : (env b).findIdx (fun e => decide (e.1 = name)) = (env b).length := by omega
        rw [this]
    · rename_i k h
      split at h
      · cases h
        rw [narrow_ok dbg (by omega)]
      · cases h

theorem entryAt_eq {it : It} (h : Good env it) : entryAt env it.back (Numeric.u64.conv it.idx).toNat = it.abs.entry env := by
  have hs := h.small
  unfold Pos.entry It.abs
  dsimp only
  by_cases h0 : 0 ≤ it.idx
  · rw [if_pos h0, u64_conv_pos h.range h0]
    unfold entryAt
    cases it.back with
    | none => rfl
    | some b =>
      dsimp only [entries]
      cases (env b)[it.idx.toNat]? <;> rfl
  · rw [if_neg h0, u64_conv_neg h.range (by omega)]
    have hr := h.range.1
    unfold entryAt
    cases hb : it.back with
    | none => rfl
    | some b =>
      dsimp only
      rw [hb] at hs
      dsimp only [entries] at hs
      rw [List.getElem?_eq_none (by omega)]

theorem entry_isSome (p : Pos) : (p.entry env).isSome = true ↔ 0 ≤ p.pos ∧ p.pos < (entries env p.conf).length := by
  unfold Pos.entry
  split
  · rename_i h
    rw [Option.isSome_map, Option.isSome_iff_exists]
    constructor
    · rintro ⟨a, ha⟩
      have := (List.getElem?_eq_some_iff.1 ha).1
      omega
    · intro hh
      exact ⟨_, List.getElem?_eq_getElem (by omega)⟩
  · rename_i h
    constructor
    · intro q; cases q
    · intro q; omega

theorem inc_ok (dbg : Bool) {it : It} (h : InRange (it.idx + 1)) : inc dbg it = .ok { it with idx := it.idx + 1 } := by
  unfold inc
  rw [require_ok dbg, arith_ok h]; rfl
  intro _
  unfold InRange at h
  rw [decide_eq_true (by rw [max_eq]; omega)]

theorem dec_ok (dbg : Bool) {it : It} (h : InRange (it.idx - 1)) : dec dbg it = .ok { it with idx := it.idx - 1 } := by
  unfold dec
  rw [require_ok dbg, arith_ok h]; rfl
  intro _
  unfold InRange at h
  rw [decide_eq_true (by rw [min_eq]; omega)]

theorem add_ok (dbg : Bool) {it : It} {d : Int} (hd : InRange d) (h : InRange (it.idx + d)) (h0 : dbg = true → 0 ≤ d) :
    addAssign dbg it d = .ok { it with idx := it.idx + d } := by
  unfold addAssign
  rw [require_ok dbg, arith_ok h]; rfl
  intro e
  have := h0 e
  unfold InRange at h hd
  rw [arith_ok (by unfold InRange; rw [max_eq]; omega)]
  dsimp only [Out.bind]
  rw [decide_eq_true (by rw [max_eq]; omega)]

theorem sub_ok (dbg : Bool) {it : It} {d : Int} (hd : InRange d) (h : InRange (it.idx - d)) (h0 : dbg = true → 0 ≤ d) :
    subAssign dbg it d = .ok { it with idx := it.idx - d } := by
  unfold subAssign
  rw [require_ok dbg, arith_ok h]; rfl
  intro e
  have := h0 e
  unfold InRange at h hd
  rw [arith_ok (by unfold InRange; rw [min_eq]; omega)]
  dsimp only [Out.bind]
  rw [decide_eq_true (by rw [min_eq]; omega)]

theorem compare_ok (dbg : Bool) (k : Cmp) {a b : It} (h : a.back = b.back) : compare dbg k a b = .ok (k.holds a.idx b.idx) := by
  unfold compare
  rw [require_ok dbg (fun _ => by rw [h]; simp)]
  cases k <;> rfl

theorem diff_ok (dbg : Bool) {a b : It} (h : a.back = b.back) (hr : InRange (a.idx - b.idx)) : diff dbg a b = .ok (a.idx - b.idx) := by
  unfold diff
  rw [require_ok dbg (fun _ => by rw [h]; simp), arith_ok hr]; rfl

theorem deref_ok (dbg : Bool) {it : It} (h : Good env it) (hd : dbg = true → (it.abs.entry env).isSome = true) : deref env dbg it = .ok (it.abs.entry env) := by
  unfold deref
  rw [entryAt_eq h, require_ok dbg]; rfl
  intro e
  have he := (entry_isSome _).1 (hd e)
  have hz := h.size
  have hb : it.back.isSome = true := by
    cases hb : it.back with
    | none =>
      have := he.2
      simp only [It.abs, hb, entries, List.length_nil] at this
      have := he.1
      simp only [It.abs] at this
      omega
    | some b => rfl
  dsimp only [It.abs] at he
  rw [hb]
  simp only [Bool.true_and, Out.ok.injEq, Bool.and_eq_true, decide_eq_true_eq]
  omega

theorem next_ok (dbg : Bool) {it : It} (h : Good env it) (he : (it.abs.entry env).isSome = true) :
    next env dbg it = .ok ({ it with idx := it.idx + 1 }, it.abs.entry env) := by
  have hp := (entry_isSome _).1 he
  dsimp only [It.abs] at hp
  have hz := h.size
  have hs := h.small
  unfold next
  rw [entryAt_eq h, require_ok dbg (fun _ => by unfold hasNext; simp only [Out.ok.injEq, decide_eq_true_eq]; omega), arith_ok (by unfold InRange; omega)]
  rfl

theorem Good.move {it : It} (h : Good env it) {i : Int} (hi : InRange i) : Good env { it with idx := i } := ⟨h.size, h.small, hi⟩

def AllGood (env : Nat → List (Str × α)) (s : List It) : Prop := ∀ it ∈ s, Good env it

theorem AllGood.push {s : List It} (h : AllGood env s) {it : It} (hi : Good env it) : AllGood env (s ++ [it]) := by
  intro x hx
  rcases List.mem_append.1 hx with q | q
  · exact h x q
  · rw [List.mem_singleton.1 q]; exact hi

theorem AllGood.set {s : List It} (h : AllGood env s) (v : Nat) {it : It} (hi : Good env it) : AllGood env (s.set v it) := by
  intro x hx
  rcases List.mem_or_eq_of_mem_set hx with q | q
  · exact h x q
  · rw [q]; exact hi

theorem var {s : List It} {v : Nat} {p : Pos} (h : (s.map It.abs)[v]? = some p) : ∃ it, s[v]? = some it ∧ it.abs = p := by
  rw [List.getElem?_map] at h
  exact Option.map_eq_some_iff.1 h

theorem get_ok {s : List It} {v : Nat} {it : It} (h : s[v]? = some it) : get s v = .ok it := by unfold get; rw [h]

/-- A statement fits: it does what the specification says. -/
def Fits (dbg : Bool) (env : Nat → List (Str × α)) (s : List It) (o : Op) : Prop :=
  ∃ s' r, step env dbg s o = .ok (s', r) ∧ AllGood env s' ∧ spec env (s.map It.abs) o = some (s'.map It.abs, r)

theorem good_make {c : Option Nat} {p : Nat} (hs : (entries env c).length < 2 ^ 63) (hp : p ≤ (entries env c).length) : Good env ⟨c, p, (entries env c).length⟩ :=
  ⟨rfl, hs, inRange_nat (by omega)⟩

theorem step_ok (dbg : Bool) {s : List It} (h : AllGood env s) {o : Op} (ha : allowed dbg env (s.map It.abs) o) : Fits dbg env s o := by
  have gv : ∀ {v : Nat} {it : It}, s[v]? = some it → Good env it := fun hv => h _ (List.mem_of_getElem? hv)
  have av : ∀ {v : Nat} {it : It}, s[v]? = some it → (s.map It.abs)[v]? = some it.abs := fun hv => by rw [List.getElem?_map, hv]; rfl
  cases o with
  | begin c =>
    refine ⟨s ++ [⟨c, (0 : Nat), (entries env c).length⟩], .unit, ?_, h.push (good_make ha (by omega)), ?_⟩
    · dsimp only [step, push]; rw [make_ok dbg c ha (by omega)]; rfl
    · simp [spec, It.abs]
  | end_ c =>
    refine ⟨s ++ [⟨c, (entries env c).length, (entries env c).length⟩], .unit, ?_, h.push (good_make ha (by omega)), ?_⟩
    · dsimp only [step, push]; rw [sizeOf_eq, ← sizeOf_eq, make_ok dbg c ha (by rw [sizeOf_eq]; omega), sizeOf_eq]; rfl
    · simp [spec, It.abs]
  | findAt c i =>
    refine ⟨s ++ [⟨c, i, (entries env c).length⟩], .unit, ?_, h.push (good_make ha.1 ha.2), ?_⟩
    · dsimp only [step, push]; rw [make_ok dbg c ha.1 ha.2]; rfl
    · simp [spec, It.abs]
  | find c name =>
    refine ⟨_, .unit, ?_, h.push (good_make ha (List.findIdx_le_length (p := fun e => decide (e.1 = name)))), ?_⟩
    · dsimp only [step, push]; rw [makeFind_ok dbg c name ha]; rfl
    · simp [spec, It.abs]
  | copy v =>
    have hv : v < s.length := by simpa [allowed] using ha
    have e := List.getElem?_eq_getElem hv
    refine ⟨s ++ [s[v]], .unit, ?_, h.push (gv e), ?_⟩
    · dsimp only [step, push]; rw [get_ok e]; rfl
    · dsimp only [spec]; rw [av e]; simp
  | assign v w =>
    have hv : v < s.length ∧ w < s.length := by simpa [allowed] using ha
    have e := List.getElem?_eq_getElem hv.1
    have e' := List.getElem?_eq_getElem hv.2
    refine ⟨s.set v s[w], .unit, ?_, h.set v (gv e'), ?_⟩
    · dsimp only [step, put]; rw [get_ok e, get_ok e']; rfl
    · dsimp only [spec]; rw [av e']; simp
  | inc v =>
    obtain ⟨p, hp, hr⟩ := ha
    obtain ⟨it, e, rfl⟩ := var hp
    refine ⟨s.set v { it with idx := it.idx + 1 }, .unit, ?_, h.set v ((gv e).move hr), ?_⟩
    · dsimp only [step, put]; rw [get_ok e]; dsimp only [Out.bind]; rw [inc_ok dbg hr]
    · dsimp only [spec]; rw [av e]; simp [It.abs, Pos.move]
  | dec v =>
    obtain ⟨p, hp, hr⟩ := ha
    obtain ⟨it, e, rfl⟩ := var hp
    refine ⟨s.set v { it with idx := it.idx - 1 }, .unit, ?_, h.set v ((gv e).move hr), ?_⟩
    · dsimp only [step, put]; rw [get_ok e]; dsimp only [Out.bind]; rw [dec_ok dbg hr]
    · dsimp only [spec]; rw [av e]; simp [It.abs, Pos.move, Int.sub_eq_add_neg]
  | postInc v =>
    obtain ⟨p, hp, hr⟩ := ha
    obtain ⟨it, e, rfl⟩ := var hp
    refine ⟨s.set v { it with idx := it.idx + 1 } ++ [it], .unit, ?_, (h.set v ((gv e).move hr)).push (gv e), ?_⟩
    · dsimp only [step]; rw [get_ok e]; dsimp only [Out.bind]; rw [inc_ok dbg hr]
    · dsimp only [spec]; rw [av e]; simp [It.abs, Pos.move]
  | postDec v =>
    obtain ⟨p, hp, hr⟩ := ha
    obtain ⟨it, e, rfl⟩ := var hp
    refine ⟨s.set v { it with idx := it.idx - 1 } ++ [it], .unit, ?_, (h.set v ((gv e).move hr)).push (gv e), ?_⟩
    · dsimp only [step]; rw [get_ok e]; dsimp only [Out.bind]; rw [dec_ok dbg hr]
    · dsimp only [spec]; rw [av e]; simp [It.abs, Pos.move, Int.sub_eq_add_neg]
  | addAssign v d =>
    obtain ⟨p, hp, hd, hr, h0⟩ := ha
    obtain ⟨it, e, rfl⟩ := var hp
    refine ⟨s.set v { it with idx := it.idx + d }, .unit, ?_, h.set v ((gv e).move hr), ?_⟩
    · dsimp only [step, put]; rw [get_ok e]; dsimp only [Out.bind]; rw [add_ok dbg hd hr h0]
    · dsimp only [spec]; rw [av e]; simp [It.abs, Pos.move]
  | subAssign v d =>
    obtain ⟨p, hp, hd, hr, h0⟩ := ha
    obtain ⟨it, e, rfl⟩ := var hp
    refine ⟨s.set v { it with idx := it.idx - d }, .unit, ?_, h.set v ((gv e).move hr), ?_⟩
    · dsimp only [step, put]; rw [get_ok e]; dsimp only [Out.bind]; rw [sub_ok dbg hd hr h0]
    · dsimp only [spec]; rw [av e]; simp [It.abs, Pos.move, Int.sub_eq_add_neg]
  | plus v d =>
    obtain ⟨p, hp, hd, hr, h0⟩ := ha
    obtain ⟨it, e, rfl⟩ := var hp
    refine ⟨s ++ [{ it with idx := it.idx + d }], .unit, ?_, h.push ((gv e).move hr), ?_⟩
    · dsimp only [step, push]; rw [get_ok e]; dsimp only [Out.bind]; rw [add_ok dbg hd hr h0]
    · dsimp only [spec]; rw [av e]; simp [It.abs, Pos.move]
  | minus v d =>
    obtain ⟨p, hp, hd, hr, h0⟩ := ha
    obtain ⟨it, e, rfl⟩ := var hp
    refine ⟨s ++ [{ it with idx := it.idx - d }], .unit, ?_, h.push ((gv e).move hr), ?_⟩
    · dsimp only [step, push]; rw [get_ok e]; dsimp only [Out.bind]; rw [sub_ok dbg hd hr h0]
    · dsimp only [spec]; rw [av e]; simp [It.abs, Pos.move, Int.sub_eq_add_neg]
  | minusLeft d v => exact absurd ha id
  | diff v w =>
    obtain ⟨p, q, hp, hq, hc, hr⟩ := ha
    obtain ⟨a, ea, rfl⟩ := var hp
    obtain ⟨b, eb, rfl⟩ := var hq
    refine ⟨s, .int (a.idx - b.idx), ?_, h, ?_⟩
    · dsimp only [step]; rw [get_ok ea, get_ok eb]; dsimp only [Out.bind]; rw [diff_ok dbg hc hr]
    · dsimp only [spec]; rw [av ea, av eb]; rfl
  | compare k v w =>
    obtain ⟨p, q, hp, hq, hc⟩ := ha
    obtain ⟨a, ea, rfl⟩ := var hp
    obtain ⟨b, eb, rfl⟩ := var hq
    refine ⟨s, .bool (k.holds a.idx b.idx), ?_, h, ?_⟩
    · dsimp only [step]; rw [get_ok ea, get_ok eb]; dsimp only [Out.bind]; rw [compare_ok dbg k hc]
    · dsimp only [spec]; rw [av ea, av eb]; rfl
  | deref v =>
    obtain ⟨p, hp, hd⟩ := ha
    obtain ⟨it, e, rfl⟩ := var hp
    refine ⟨s, .entry (it.abs.entry env), ?_, h, ?_⟩
    · dsimp only [step]; rw [get_ok e]; dsimp only [Out.bind]; rw [deref_ok dbg (gv e) hd]
    · dsimp only [spec]; rw [av e]; rfl
  | hasNext v =>
    obtain ⟨p, hp, h0⟩ := ha
    obtain ⟨it, e, rfl⟩ := var hp
    refine ⟨s, .bool (hasNext it), ?_, h, ?_⟩
    · dsimp only [step]; rw [get_ok e]; rfl
    · dsimp only [spec]
      rw [av e]
      have : (it.abs.entry env).isSome = hasNext it := by
        unfold hasNext
        rw [Bool.eq_iff_iff, entry_isSome, (gv e).size, decide_eq_true_eq]
        exact ⟨fun q => q.2, fun q => ⟨h0, q⟩⟩
      dsimp only [Option.map]
      rw [this]
  | next v =>
    obtain ⟨p, hp, hd⟩ := ha
    obtain ⟨it, e, rfl⟩ := var hp
    have hp := (entry_isSome _).1 hd
    dsimp only [It.abs] at hp
    have hs := (gv e).small
    refine ⟨s.set v { it with idx := it.idx + 1 }, .entry (it.abs.entry env), ?_, h.set v ((gv e).move (by unfold InRange; omega)), ?_⟩
    · dsimp only [step]; rw [get_ok e]; dsimp only [Out.bind]; rw [next_ok dbg (gv e) hd]
    · dsimp only [spec]; rw [av e]; simp [It.abs, Pos.move]

theorem run_ok (dbg : Bool) {s' : List Pos} {p : List Pos} {os : List Op} {rs : List (Res α)} (hr : Runs dbg env p os s' rs) :
    ∀ {s : List It}, AllGood env s → s.map It.abs = p → ∃ t, run env dbg s os = .ok (t, rs) ∧ AllGood env t ∧ t.map It.abs = s' := by
  induction hr with
  | nil q => intro s h e; exact ⟨s, rfl, h, e⟩
  | cons q q' q'' o os r rs ha hs _ ih =>
    intro s h e
    subst e
    obtain ⟨s1, r1, e1, g1, w1⟩ := step_ok dbg h ha
    rw [hs] at w1
    obtain ⟨rfl, rfl⟩ : q' = s1.map It.abs ∧ r = r1 := by simpa using w1
    obtain ⟨t, e2, g2, w2⟩ := ih g1 rfl
    refine ⟨t, ?_, g2, w2⟩
    dsimp only [run]
    rw [e1]
    dsimp only [Out.bind]
    rw [e2]

/-! ## Property -/

/-- Every program over iterators, all of whose statements are allowed, gives the results of the same program over positions in the lists of entries, in debug and in
release builds. The full property is false of the code, see below. -/
theorem C84_programs_partial (dbg : Bool) (env : Nat → List (Str × α)) (os : List Op) (ps : List Pos) (rs : List (Res α)) (h : Runs dbg env [] os ps rs) :
    ∃ t, run env dbg [] os = .ok (t, rs) ∧ t.map It.abs = ps := by
  obtain ⟨t, h1, -, h2⟩ := run_ok dbg h (s := []) (fun _ q => by cases q) rfl
  exact ⟨t, h1, h2⟩

/-- the entries from the position `i` on, as a loop reads them: each with its index -/
def readFrom (env : Nat → List (Str × α)) (c : Option Nat) (i : Nat) : List (Option (Nat × Str × α)) :=
  ((entries env c).drop i).zipIdx i |>.map (fun e => some (e.2, e.1))

theorem readFrom_end {c : Option Nat} {i : Nat} (h : (entries env c).length ≤ i) : readFrom env c i = [] := by
  unfold readFrom; rw [List.drop_eq_nil_of_le h]; rfl

theorem readFrom_cons {c : Option Nat} {i : Nat} (h : i < (entries env c).length) :
    readFrom env c i = (⟨c, i⟩ : Pos).entry env :: readFrom env c (i + 1) := by
  unfold readFrom Pos.entry
  rw [List.drop_eq_getElem_cons h, List.zipIdx_cons, List.map_cons]
  rw [if_pos (by show (0 : Int) ≤ (i : Int); omega)]
  dsimp only
  rw [Int.toNat_natCast, List.getElem?_eq_getElem h]; rfl

theorem entry_some {c : Option Nat} {i : Nat} (h : i < (entries env c).length) : ((⟨c, i⟩ : Pos).entry env).isSome = true :=
  (entry_isSome _).2 ⟨by show (0 : Int) ≤ (i : Int); omega, by show (i : Int) < ((entries env c).length : Int); omega⟩

theorem forLoop_ok (dbg : Bool) (c : Option Nat) (hs : (entries env c).length < 2 ^ 63) : ∀ (n i : Nat), i ≤ (entries env c).length → (entries env c).length - i < n →
    forLoop env dbg ⟨c, (entries env c).length, (entries env c).length⟩ n ⟨c, i, (entries env c).length⟩ = .ok (some (readFrom env c i)) := by
  intro n
  induction n with
  | zero => intro i _ h; omega
  | succ n ih =>
    intro i hi hn
    unfold forLoop
    rw [compare_ok dbg .ne (by rfl)]
    dsimp only [Out.bind, Cmp.holds]
    by_cases e : i = (entries env c).length
    · rw [if_neg (by simp [e]), readFrom_end (by omega)]
    · have hl : i < (entries env c).length := by omega
      rw [if_pos (by simp only [decide_eq_true_eq]; omega), deref_ok dbg (good_make hs hi) (fun _ => entry_some hl)]
      dsimp only
      rw [inc_ok dbg (by unfold InRange; dsimp only; omega)]
      dsimp only
      have := ih (i + 1) (by omega) (by omega)
      rw [show ((i : Int) + 1) = ((i + 1 : Nat) : Int) by omega, this, readFrom_cons hl]
      rfl

/-- A loop over a config reads every entry once, in the order of the indices. -/
theorem C84_loop (dbg : Bool) (env : Nat → List (Str × α)) (c : Option Nat) (hs : (entries env c).length < 2 ^ 63) (n : Nat) (hn : (entries env c).length < n) :
    (make dbg c 0 (sizeOf env c)).bind (fun first => (make dbg c (sizeOf env c) (sizeOf env c)).bind fun last => forLoop env dbg last n first) =
      .ok (some (readFrom env c 0)) := by
  rw [make_ok dbg c hs (by omega), make_ok dbg c hs (by rw [sizeOf_eq]; omega), sizeOf_eq]
  exact forLoop_ok dbg c hs n 0 (by omega) (by omega)

theorem nextLoop_ok (dbg : Bool) (c : Option Nat) (hs : (entries env c).length < 2 ^ 63) : ∀ (n i : Nat), i ≤ (entries env c).length → (entries env c).length - i < n →
    nextLoop env dbg n ⟨c, i, (entries env c).length⟩ = .ok (some (readFrom env c i)) := by
  intro n
  induction n with
  | zero => intro i _ h; omega
  | succ n ih =>
    intro i hi hn
    unfold nextLoop
    by_cases e : i = (entries env c).length
    · rw [if_neg (by simp [hasNext, e]), readFrom_end (by omega)]
    · have hl : i < (entries env c).length := by omega
      rw [if_pos (by simp only [hasNext, decide_eq_true_eq]; omega), next_ok dbg (good_make hs hi) (entry_some hl)]
      dsimp only [Out.bind]
      have := ih (i + 1) (by omega) (by omega)
      rw [show ((i : Int) + 1) = ((i + 1 : Nat) : Int) by omega, this, readFrom_cons hl]
      rfl

/-- `while (it.has_next()) it.next()` from the iterator `find(i)` reads the entries from the index `i` on. -/
theorem C84_next_loop (dbg : Bool) (env : Nat → List (Str × α)) (c : Option Nat) (hs : (entries env c).length < 2 ^ 63) (i n : Nat) (hi : i ≤ (entries env c).length)
    (hn : (entries env c).length - i < n) : (make dbg c i (sizeOf env c)).bind (nextLoop env dbg n) = .ok (some (readFrom env c i)) := by
  rw [make_ok dbg c hs hi]
  exact nextLoop_ok dbg c hs n i hi hn

theorem backLoop_ok (dbg : Bool) (c : Option Nat) (hs : (entries env c).length < 2 ^ 63) : ∀ (i n : Nat), i ≤ (entries env c).length → i < n →
    backLoop env dbg ⟨c, (0 : Nat), (entries env c).length⟩ n ⟨c, i, (entries env c).length⟩ = .ok (some ((readFrom env c 0).take i).reverse) := by
  intro i
  induction i with
  | zero =>
    intro n _ hn
    cases n with
    | zero => omega
    | succ n =>
      unfold backLoop
      rw [compare_ok dbg .ne (by rfl)]
      rfl
  | succ i ih =>
    intro n hi hn
    cases n with
    | zero => omega
    | succ n =>
      unfold backLoop
      rw [compare_ok dbg .ne (by rfl)]
      dsimp only [Out.bind, Cmp.holds]
      rw [if_pos (by simp only [decide_eq_true_eq]; omega), dec_ok dbg (by unfold InRange; dsimp only; omega)]
      dsimp only
      rw [show ((i + 1 : Nat) : Int) - 1 = (i : Int) by omega, deref_ok dbg (good_make hs (by omega)) (fun _ => entry_some (show i < (entries env c).length by omega))]
      dsimp only
      rw [ih n (by omega) (by omega)]
      dsimp only [Option.map]
      have hg : (readFrom env c 0)[i]? = some ((⟨c, i⟩ : Pos).entry env) := by
        unfold readFrom Pos.entry
        rw [if_pos (by show (0 : Int) ≤ (i : Int); omega)]
        dsimp only
        rw [Int.toNat_natCast, List.drop_zero, List.getElem?_map, List.getElem?_zipIdx, List.getElem?_eq_getElem (show i < (entries env c).length by omega)]
        simp
      rw [List.take_add_one, hg]
      simp [It.abs]

/-- `while (it != begin) *--it` from the end reads every entry once, in the reverse order. -/
theorem C84_back_loop (dbg : Bool) (env : Nat → List (Str × α)) (c : Option Nat) (hs : (entries env c).length < 2 ^ 63) (n : Nat) (hn : (entries env c).length < n) :
    (make dbg c 0 (sizeOf env c)).bind (fun first => (make dbg c (sizeOf env c) (sizeOf env c)).bind fun last => backLoop env dbg first n last) =
      .ok (some (readFrom env c 0).reverse) := by
  rw [make_ok dbg c hs (by omega), make_ok dbg c hs (by rw [sizeOf_eq]; omega), sizeOf_eq]
  dsimp only [Out.bind]
  rw [backLoop_ok dbg c hs _ n (by omega) hn, List.take_of_length_le (by simp [readFrom])]

/-! ## Examples -/

/-- two configs: an object with three entries, two of one name, and an array -/
def demoEnv : Nat → List (Str × Nat)
  | 0 => [(['a'], 1), (['b'], 2), (['a'], 3)]
  | 1 => [([], 7), ([], 8)]
  | _ => []

theorem small (c : Option Nat) : (entries demoEnv c).length < 2 ^ 63 := by
  cases c with
  | none => decide
  | some b =>
    match b with
    | 0 => decide
    | 1 => decide
    | n + 2 => show 0 < 2 ^ 63; decide

/-- In a debug build: from the beginning of the first config forward, compare with the end, find by name, walk back. -/
example : ∃ ps, Runs true demoEnv [] [.begin (some 0), .end_ (some 0), .plus 0 2, .deref 2, .diff 1 2, .postInc 0, .deref 0, .compare .lt 0 1, .find (some 0) ['a'],
    .compare .eq 3 4, .find (some 0) ['c'], .compare .eq 5 1, .findAt (some 1) 1, .hasNext 6, .next 6, .hasNext 6, .minus 1 3, .deref 7] ps
    [.unit, .unit, .unit, .entry (some (2, ['a'], 3)), .int 1, .unit, .entry (some (1, ['b'], 2)), .bool true, .unit, .bool true, .unit, .bool true, .unit, .bool true,
     .entry (some (1, [], 8)), .bool false, .unit, .entry (some (0, ['a'], 1))] := by
  refine ⟨_, .cons _ _ _ _ _ _ _ (small _) rfl (.cons _ _ _ _ _ _ _ (small _) rfl (.cons _ _ _ _ _ _ _ ⟨_, rfl, by decide, by decide, by decide⟩ rfl
    (.cons _ _ _ _ _ _ _ ⟨_, rfl, by decide⟩ rfl (.cons _ _ _ _ _ _ _ ⟨_, _, rfl, rfl, rfl, by decide⟩ rfl (.cons _ _ _ _ _ _ _ ⟨_, rfl, by decide⟩ rfl
    (.cons _ _ _ _ _ _ _ ⟨_, rfl, by decide⟩ rfl (.cons _ _ _ _ _ _ _ ⟨_, _, rfl, rfl, rfl⟩ rfl (.cons _ _ _ _ _ _ _ (small _) rfl
    (.cons _ _ _ _ _ _ _ ⟨_, _, rfl, rfl, rfl⟩ rfl (.cons _ _ _ _ _ _ _ (small _) rfl (.cons _ _ _ _ _ _ _ ⟨_, _, rfl, rfl, rfl⟩ rfl
    (.cons _ _ _ _ _ _ _ ⟨small _, by decide⟩ rfl (.cons _ _ _ _ _ _ _ ⟨_, rfl, by decide⟩ rfl (.cons _ _ _ _ _ _ _ ⟨_, rfl, by decide⟩ rfl
    (.cons _ _ _ _ _ _ _ ⟨_, rfl, by decide⟩ rfl (.cons _ _ _ _ _ _ _ ⟨_, rfl, by decide, by decide, by decide⟩ rfl
    (.cons _ _ _ _ _ _ _ ⟨_, rfl, by decide⟩ rfl (.nil _))))))))))))))))))⟩

example : readFrom demoEnv (some 0) 0 = [some (0, ['a'], 1), some (1, ['b'], 2), some (2, ['a'], 3)] := by decide
example : readFrom demoEnv (some 0) 1 = [some (1, ['b'], 2), some (2, ['a'], 3)] := by decide
example : readFrom demoEnv none 0 = [] := by decide

/-- In debug builds `++` and `--` at the limits of the positions are refused by an assertion; elsewhere they go to the next and
to the previous position. In release builds they overflow there. -/
theorem C84_limits (it : It) (h : InRange it.idx) :
    (inc true it = if it.idx = 2 ^ 63 - 1 then .assert else .ok { it with idx := it.idx + 1 }) ∧
    (dec true it = if it.idx = -2 ^ 63 then .assert else .ok { it with idx := it.idx - 1 }) ∧
    (it.idx = 2 ^ 63 - 1 → inc false it = .ub) ∧ (it.idx = -2 ^ 63 → dec false it = .ub) := by
  have e1 := max_eq
  have e2 := min_eq
  obtain ⟨h1, h2⟩ := h
  refine ⟨?_, ?_, fun e => ?_, fun e => ?_⟩
  · split
    · rename_i e
      simp [inc, require, Out.bind, e, e1]
    · exact inc_ok true (by unfold InRange; omega)
  · split
    · rename_i e
      simp [dec, require, Out.bind, e, e2]
    · exact dec_ok true (by unfold InRange; omega)
  · have : arith (it.idx + 1) = .ub := arith_ub (by intro h; have := h.2; omega)
    unfold inc
    rw [this]; rfl
  · have : arith (it.idx - 1) = .ub := arith_ub (by intro h; have := h.1; omega)
    unfold dec
    rw [this]; rfl

example : InRange (⟨some 0, -2 ^ 63, 3⟩ : It).idx := by unfold InRange; dsimp only; omega

/-! ## Where the property is false of the code -/

/-- In debug builds `it += d` with a negative offset overflows in the computation of the assertion, although the new position is that of an entry. -/
theorem C84_negative_offset_violated (it : It) (d : Int) (hd : d < 0) : addAssign true it d = .ub ∧ subAssign true it d = .ub := by
  constructor
  · have h1 : arith (maxIdx - d) = .ub := arith_ub (by intro h; have := h.2; have e := max_eq; omega)
    unfold addAssign
    generalize maxIdx - d = x at *
    rw [h1]; rfl
  · have h1 : arith (minIdx + d) = .ub := arith_ub (by intro h; have := h.1; have e := min_eq; omega)
    unfold subAssign
    generalize minIdx + d = x at *
    rw [h1]; rfl

theorem forLoop_behind (dbg : Bool) (hd : dbg = false) (c : Option Nat) (hs : (entries env c).length < 2 ^ 63) : ∀ (n i : Nat), (entries env c).length < i → i + n < 2 ^ 63 →
    forLoop env dbg ⟨c, (entries env c).length, (entries env c).length⟩ n ⟨c, i, (entries env c).length⟩ = .ok none := by
  intro n
  induction n with
  | zero => intro i _ _; unfold forLoop; exact Eq.refl _
  | succ n ih =>
    intro i hi hn
    have hi' : i + 1 < 2 ^ 63 := by omega
    have g : Good env ⟨c, i, (entries env c).length⟩ := ⟨Eq.refl _, hs, inRange_nat (Nat.lt_of_succ_lt hi')⟩
    unfold forLoop
    rw [compare_ok dbg .ne (by rfl)]
    dsimp only [Out.bind, Cmp.holds]
    rw [if_pos (by simp only [decide_eq_true_eq]; omega), deref_ok dbg g (fun q => by rw [hd] at q; cases q)]
    dsimp only
    rw [inc_ok dbg (by have := inRange_nat hi'; unfold InRange at this ⊢; dsimp only; omega)]
    dsimp only
    rw [show ((i : Int) + 1) = ((i + 1 : Nat) : Int) by omega, ih (i + 1) (by omega) (by omega)]
    dsimp only [Option.map]

/-- `find(i)` behind the end is not the end: the loop from it to the end does not stop, however many rounds it makes (until the position overflows). -/
theorem C84_find_behind_violated (env : Nat → List (Str × α)) (c : Option Nat) (hs : (entries env c).length < 2 ^ 63) (n i : Nat) (hi : (entries env c).length < i)
    (hn : i + n < 2 ^ 63) :
    (make false c i (sizeOf env c)).bind (fun first => (make false c (sizeOf env c) (sizeOf env c)).bind fun last => forLoop env false last n first) = .ok none := by
  have h : make false c i (sizeOf env c) = .ok ⟨c, i, (entries env c).length⟩ := by
    unfold make
    rw [sizeOf_eq, narrow_ok false (Nat.lt_of_le_of_lt (Nat.le_add_right i n) hn), narrow_ok false hs]
    dsimp only [Out.bind]
  rw [h, make_ok false c hs (by rw [sizeOf_eq]; omega), sizeOf_eq]
  dsimp only [Out.bind]
  exact forLoop_behind false (Eq.refl _) c hs n i hi hn

/-- Before the beginning `has_next` is true, but `next` gives no entry. -/
theorem C84_has_next_violated : ∃ t, run demoEnv false [] [.begin (some 0), .dec 0, .hasNext 0, .next 0] = .ok (t, [.unit, .unit, .bool true, .entry none]) :=
  ⟨[⟨some 0, 0, 3⟩], by decide⟩

/-- `d - it` compiles, and gives `it - d`: from the end of three entries, `1 - it` is the last entry. -/
theorem C84_minus_left_violated : ∃ t, run demoEnv false [] [.end_ (some 0), .minusLeft 1 0, .deref 1] = .ok (t, [.unit, .unit, .entry (some (2, ['a'], 3))]) :=
  ⟨[⟨some 0, 3, 3⟩, ⟨some 0, 2, 3⟩], by decide +kernel⟩

end Verif.ConfigIter
