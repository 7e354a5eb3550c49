import Verif.Model.Adaptors
/-!
# C98: iterator adaptors are random access iterators of the range they show

A mapped, zipped or reversed range (nested in any way) shows a list of elements. Its iterators are positions in this list: every expression that compiles answers as the position arithmetic says, over any history of moves,
and moving out of the list is the only undefined behaviour.
-/
set_option autoImplicit false

namespace Verif.Adapt

/-! ## Specification -/

/-- The elements the range shows. -/
def shows : Ty → List Val
  | .base _ l => l
  | .map f t => (shows t).map f
  | .zip a b => (shows a).zipWith Val.tup (shows b)
  | .rev t => (shows t).reverse

/-- All zipped ranges are of the same length, `n` in the end. -/
def Sized : Ty → Nat → Prop
  | .base _ l, n => l.length = n
  | .map _ t, n => Sized t n
  | .zip a b, n => Sized a n ∧ Sized b n
  | .rev t, n => Sized t n

/-- By how much the position changes. -/
def Move.by : Move → Int
  | .inc => 1
  | .dec => -1
  | .addEq n => n
  | .subEq n => -n
  | .plus n => n
  | .plusL n => n
  | .minus n => -n

/-- A position moved by `d` in a list of `n` elements. -/
def moved (n : Nat) (p : Nat) (d : Int) : Option Nat :=
  if 0 ≤ (p : Int) + d ∧ (p : Int) + d ≤ n then some ((p : Int) + d).toNat else none

/-- The position after several moves, none of which may leave the list. -/
def moves (n : Nat) : List Move → Nat → Option Nat
  | [], p => some p
  | m :: ms, p =>
    match moved n p m.by with
    | some p' => moves n ms p'
    | none => none

/-- `it` is the iterator of position `p`: what `p` increments make of `begin()`. -/
def IsAt (t : Ty) (p : Nat) (it : It) : Prop := walk t (List.replicate p .inc) (ends t).1 = .ok (.iter it)

/-- What an expression must answer: `p` and `q` are the positions of the operands, `xs` are the elements. `none`: the expression has undefined behaviour for every random access iterator. -/
inductive Ans where
  | at (p : Nat)
  | post (p q : Nat)
  | val (v : Val)
  | num (n : Int)
  | bool (b : Bool)

/-- the element at a position given as an integer -/
def elemAt (xs : List Val) (i : Int) : Option Val := if 0 ≤ i then xs[i.toNat]? else none

/-- The answers of the positions. -/
def answer (xs : List Val) (e : Expr) (p q : Nat) : Option Ans :=
  match e with
  | .deref => (elemAt xs p).map .val
  | .move m => (moved xs.length p m.by).map .at
  | .postInc => (moved xs.length p 1).map (.post p)
  | .postDec => (moved xs.length p (-1)).map (.post p)
  | .sub n => (elemAt xs (p + n)).map .val
  | .dist => some (.num ((p : Int) - q))
  | .cmp .eq => some (.bool (decide (p = q)))
  | .cmp .ne => some (.bool (decide (p ≠ q)))
  | .cmp .lt => some (.bool (decide (p < q)))
  | .cmp .gt => some (.bool (decide (q < p)))
  | .cmp .le => some (.bool (decide (p ≤ q)))
  | .cmp .ge => some (.bool (decide (q ≤ p)))

/-- The outcome of the expression is the expected one: iterators are at the expected positions, anything else is equal. -/
def Agrees (t : Ty) : Option Ans → Res → Prop
  | none, r => r = .ub
  | some (.at p), r => ∃ it, r = .ok (.iter it) ∧ IsAt t p it
  | some (.post p q), r => ∃ it jt, r = .ok (.post it jt) ∧ IsAt t p it ∧ IsAt t q jt
  | some (.val v), r => r = .ok (.val v)
  | some (.num n), r => r = .ok (.num n)
  | some (.bool b), r => r = .ok (.bool b)

/-- The adaptor below the reversals at the top, and whether the number of these is odd. -/
def below : Ty → Bool × Ty
  | .rev t => (!(below t).1, (below t).2)
  | t => (false, t)

/-- an iterator of a sequence -/
def Ty.isBase : Ty → Bool
  | .base _ _ => true
  | _ => false

/-- a zip iterator -/
def Ty.isZip : Ty → Bool
  | .zip _ _ => true
  | _ => false

/-- a reverse iterator -/
def Ty.isRev : Ty → Bool
  | .rev _ => true
  | _ => false

/-- Which expressions compile, by the adaptor below the reversals. -/
def Compiles (t : Ty) : Expr → Bool
  | .sub _ => (below t).2.isBase
  | .move (.plus _) => (below t).2.isBase || !(below t).1
  | .move (.plusL _) => (below t).2.isBase || (t.isRev && !(below t).1)
  | .move (.minus _) => (below t).2.isBase || (below t).1
  | .cmp .le => !(below t).2.isZip || (below t).1
  | .cmp .ge => !(below t).2.isZip || !(below t).1
  | _ => true


/-! ## Lemmas -/

/-- the iterator at position `p` of a range of `n` elements -/
def place (n : Nat) : Ty → Nat → It
  | .base _ _, p => .pos p
  | .map _ t, p => place n t p
  | .zip a b, p => .pair (place n a p) (place n b p)
  | .rev t, p => place n t (n - p)

/-- the moved place -/
def goTo (n : Nat) (t : Ty) (p : Nat) (d : Int) : Option It := (moved n p d).map (place n t)

theorem both_goTo (n : Nat) (a b : Ty) (p : Nat) (d : Int) : both (goTo n a p d) (goTo n b p d) = goTo n (.zip a b) p d := by
  unfold goTo moved; split <;> rfl

theorem goTo_rev (n : Nat) (t : Ty) (p : Nat) (d : Int) (hp : p ≤ n) : goTo n t (n - p) (-d) = goTo n (.rev t) p d := by
  unfold goTo moved
  by_cases h : 0 ≤ (p : Int) + d ∧ (p : Int) + d ≤ n
  · rw [if_pos h, if_pos (by omega)]
    simp only [Option.map_some, place]
    congr 2; omega
  · rw [if_neg h, if_neg (by omega)]; rfl

theorem shiftPos_goTo (c : Cat) (l : List Val) (p : Nat) (d : Int) : shiftPos l.length p d = goTo l.length (.base c l) p d := by
  unfold shiftPos goTo moved; split <;> rfl

theorem moveIt_place (n : Nat) (t : Ty) (hs : Sized t n) (m : Move) (p : Nat) (hp : p ≤ n) (hc : has t (.move m) = true) :
    moveIt t m (place n t p) = goTo n t p m.by := by
  induction t generalizing m p with
  | base c l => cases hs; cases m <;> exact shiftPos_goTo c l p _
  | map f t ih =>
    cases m <;> simp only [has, Bool.and_eq_true, Bool.false_eq_true] at hc <;> simp only [moveIt, place]
    case inc => rw [ih hs _ p hp hc]; rfl
    all_goals rw [ih hs _ p hp hc.2]; rfl
  | zip a b iha ihb =>
    cases m <;> simp only [has, Bool.and_eq_true, Bool.false_eq_true] at hc <;> simp only [moveIt, place]
    case inc => rw [iha hs.1 _ p hp hc.1, ihb hs.2 _ p hp hc.2]; exact both_goTo n a b p _
    all_goals rw [iha hs.1 _ p hp hc.2.1, ihb hs.2 _ p hp hc.2.2]; exact both_goTo n a b p _
  | rev t ih =>
    cases m <;> simp only [has] at hc <;> simp only [moveIt, place] <;> rw [ih hs _ (n - p) (by omega) hc]
    · exact goTo_rev n t p 1 hp
    · exact goTo_rev n t p (-1) hp
    · exact goTo_rev n t p _ hp
    · rename_i k; have := goTo_rev n t p (-k) hp; rw [Int.neg_neg] at this; exact this
    · exact goTo_rev n t p _ hp
    · exact goTo_rev n t p _ hp
    · rename_i k; have := goTo_rev n t p (-k) hp; rw [Int.neg_neg] at this; exact this

theorem shows_length (n : Nat) (t : Ty) (hs : Sized t n) : (shows t).length = n := by
  induction t with
  | base c l => exact hs
  | map f t ih => simp only [shows, List.length_map]; exact ih hs
  | zip a b iha ihb => simp only [shows, List.length_zipWith, iha hs.1, ihb hs.2, Nat.min_self]
  | rev t ih => simp only [shows, List.length_reverse]; exact ih hs

theorem derefIt_place (n : Nat) (t : Ty) (hs : Sized t n) (p : Nat) (hp : p ≤ n) (hc : has t .deref = true) : derefIt t (place n t p) = (shows t)[p]? := by
  induction t generalizing p with
  | base c l => rfl
  | map f t ih => simp only [derefIt, place, shows, List.getElem?_map]; rw [ih hs p hp hc]
  | zip a b iha ihb =>
    simp only [has, Bool.and_eq_true] at hc
    simp only [derefIt, place, shows, List.getElem?_zipWith]
    rw [iha hs.1 p hp hc.1, ihb hs.2 p hp hc.2]
    cases (shows a)[p]? <;> cases (shows b)[p]? <;> rfl
  | rev t ih =>
    simp only [has, Bool.and_eq_true] at hc
    simp only [derefIt, place, shows]
    rw [moveIt_place n t hs .dec (n - p) (by omega) hc.1]
    have hl := shows_length n t hs
    by_cases h : p < n
    · have : goTo n t (n - p) (Move.by .dec) = some (place n t (n - 1 - p)) := by
        unfold goTo moved
        rw [if_pos (by simp only [Move.by]; omega)]
        simp only [Option.map_some, Move.by]; congr 2; omega
      rw [this]; dsimp only
      rw [ih hs _ (by omega) hc.2, List.getElem?_reverse (by omega), hl]
    · have : goTo n t (n - p) (Move.by .dec) = none := by
        unfold goTo moved
        rw [if_neg (by simp only [Move.by]; omega)]; rfl
      rw [this]; dsimp only
      rw [List.getElem?_eq_none (by rw [List.length_reverse]; omega)]

theorem elemAt_reverse (xs : List Val) (i : Int) : elemAt xs.reverse i = elemAt xs (xs.length - 1 - i) := by
  unfold elemAt
  by_cases h : 0 ≤ i
  · rw [if_pos h]
    by_cases h2 : i < xs.length
    · rw [if_pos (by omega), List.getElem?_reverse (by omega)]; congr 1; omega
    · rw [if_neg (by omega), List.getElem?_eq_none (by rw [List.length_reverse]; omega)]
  · rw [if_neg h]
    split
    · rw [List.getElem?_eq_none (by omega)]
    · rfl

theorem subIt_place (n : Nat) (t : Ty) (hs : Sized t n) (k : Int) (p : Nat) (hp : p ≤ n) (hc : has t (.sub k) = true) :
    subIt t k (place n t p) = elemAt (shows t) (p + k) := by
  induction t generalizing k p with
  | base c l => rfl
  | map f t ih => cases hc
  | zip a b iha ihb => cases hc
  | rev t ih =>
    simp only [subIt, place, shows]
    rw [ih hs _ (n - p) (by omega) hc, elemAt_reverse, shows_length n t hs]
    congr 1; omega

theorem distIt_place (n : Nat) (t : Ty) (p q : Nat) (hp : p ≤ n) (hq : q ≤ n) : distIt t (place n t p) (place n t q) = some ((p : Int) - q) := by
  induction t generalizing p q with
  | base c l => rfl
  | map f t ih => exact ih p q hp hq
  | zip a b iha ihb => exact iha p q hp hq
  | rev t ih => simp only [distIt, place]; rw [ih _ _ (by omega) (by omega)]; congr 1; omega

/-- the comparison of positions, in terms of the order of numbers -/
def cmpNat (c : Cmp) (p q : Nat) : Bool :=
  match c with
  | .eq => decide (p = q)
  | .ne => decide (p ≠ q)
  | .lt => decide (p < q)
  | .gt => decide (q < p)
  | .le => decide (p ≤ q)
  | .ge => decide (q ≤ p)

theorem not_decide (P Q : Prop) [Decidable P] [Decidable Q] (h : ¬P ↔ Q) : (!decide P) = decide Q := by
  by_cases hP : P <;> by_cases hQ : Q <;> simp_all

theorem cmpIt_place (n : Nat) (t : Ty) (c : Cmp) (p q : Nat) (hp : p ≤ n) (hq : q ≤ n) (hc : has t (.cmp c) = true) :
    cmpIt t c (place n t p) (place n t q) = some (cmpNat c p q) := by
  induction t generalizing c p q with
  | base _ l => cases c <;> rfl
  | map f t ih =>
    cases c <;> simp only [has, Bool.and_eq_true] at hc <;> simp only [cmpIt, place]
    case eq => exact ih _ p q hp hq hc
    case ne => rw [ih _ p q hp hq hc]; simp [cmpNat]
    case lt => exact ih _ p q hp hq hc.2
    case gt => exact ih _ p q hp hq hc.2
    case le => rw [ih _ p q hp hq hc.2]; exact congrArg some (not_decide _ _ (by omega))
    case ge => rw [ih _ p q hp hq hc.2]; exact congrArg some (not_decide _ _ (by omega))
  | zip a b iha ihb =>
    cases c <;> simp only [has, Bool.and_eq_true, Bool.false_eq_true] at hc <;> simp only [cmpIt, place]
    case eq => rw [iha _ p q hp hq hc.1, ihb _ p q hp hq hc.2]; simp [cmpNat, anyOf]
    case ne => rw [iha _ p q hp hq hc.1, ihb _ p q hp hq hc.2]; simp [cmpNat, anyOf]
    case lt => rw [iha _ p q hp hq hc.2.1, ihb _ p q hp hq hc.2.2]; simp [cmpNat, allOf]
    case gt => rw [iha _ q p hq hp hc.2.1, ihb _ q p hq hp hc.2.2]; simp [cmpNat, allOf]
    case ge => rw [iha _ p q hp hq hc.2.1, ihb _ p q hp hq hc.2.2]; simp only [cmpNat, allOf, Bool.and_self, Option.map_some]; exact congrArg some (not_decide _ _ (by omega))
  | rev t ih =>
    cases c <;> simp only [has] at hc <;> simp only [cmpIt, place] <;> rw [ih _ _ _ (by omega) (by omega) hc] <;>
      simp only [cmpNat, Option.some.injEq, decide_eq_decide] <;> omega

theorem ends_place (n : Nat) (t : Ty) (hs : Sized t n) : ends t = (place n t 0, place n t n) := by
  induction t with
  | base c l => cases hs; rfl
  | map f t ih => exact ih hs
  | zip a b iha ihb => simp only [ends, place]; rw [iha hs.1, ihb hs.2]
  | rev t ih => simp only [ends, place]; rw [ih hs]; simp

theorem common_bidir (a b : Cat) (h : (a.common b).isBidir = true) : a.isBidir = true ∧ b.isBidir = true := by
  cases a <;> cases b <;> simp_all [Cat.common, Cat.isBidir]

theorem common_random (a b : Cat) (h : (a.common b).isRandom = true) : a.isRandom = true ∧ b.isRandom = true := by
  cases a <;> cases b <;> simp_all [Cat.common, Cat.isRandom]

theorem random_bidir (c : Cat) (h : c.isRandom = true) : c.isBidir = true := by cases c <;> simp_all [Cat.isRandom, Cat.isBidir]

theorem has_steps (t : Ty) (hb : (cat t).isBidir = true) : has t (.move .inc) = true ∧ has t (.move .dec) = true := by
  induction t with
  | base c l => exact ⟨rfl, hb⟩
  | map f t ih => simp only [has, cat] at hb ⊢; rw [(ih hb).1, (ih hb).2, hb]; exact ⟨rfl, rfl⟩
  | zip a b iha ihb =>
    simp only [cat] at hb
    have h := common_bidir _ _ hb
    simp only [has]
    rw [(iha h.1).1, (iha h.1).2, (ihb h.2).1, (ihb h.2).2, hb]; exact ⟨rfl, rfl⟩
  | rev t ih => exact ⟨(ih hb).2, (ih hb).1⟩

theorem moved_le (n p : Nat) (d : Int) (r : Nat) (h : moved n p d = some r) : r ≤ n := by
  unfold moved at h; split at h
  · cases h; omega
  · cases h

theorem walk_place (n : Nat) (t : Ty) (hs : Sized t n) (ms : List Move) (p : Nat) (hp : p ≤ n) (hc : ∀ m ∈ ms, has t (.move m) = true) :
    walk t ms (place n t p) = Res.of ((moves n ms p).map fun q => .iter (place n t q)) := by
  induction ms generalizing p with
  | nil => rfl
  | cons m ms ih =>
    have h1 := hc m (List.mem_cons_self ..)
    have h2 : (ms.all fun m' => has t (.move m')) = true := List.all_eq_true.mpr fun m' hm => hc m' (List.mem_cons_of_mem _ hm)
    simp only [walk, h1, h2, Bool.and_self, if_true]
    rw [moveIt_place n t hs m p hp h1]
    unfold goTo
    simp only [moves]
    cases hm : moved n p m.by with
    | none => rfl
    | some r => exact ih r (moved_le _ _ _ _ hm) fun m' hm' => hc m' (List.mem_cons_of_mem _ hm')

theorem moved_inc (n p : Nat) : moved n p (Move.by .inc) = if p + 1 ≤ n then some (p + 1) else none := by
  show moved n p 1 = _
  unfold moved
  by_cases h : p + 1 ≤ n
  · rw [if_pos h, if_pos (by omega)]; congr 1
  · rw [if_neg h, if_neg (by omega)]

theorem moves_incs (n k p : Nat) : moves n (List.replicate k .inc) p = if p + k ≤ n ∨ k = 0 then some (p + k) else none := by
  induction k generalizing p with
  | zero => simp [moves]
  | succ k ih =>
    simp only [List.replicate_succ, moves]
    rw [moved_inc]
    by_cases h : p + 1 ≤ n
    · rw [if_pos h]; dsimp only
      rw [ih]
      by_cases h2 : p + (k + 1) ≤ n
      · rw [if_pos (by omega), if_pos (by omega)]; congr 1; omega
      · rw [if_neg (by omega), if_neg (by omega)]
    · rw [if_neg h]; dsimp only; rw [if_neg (by omega)]

theorem isAt_iff (n : Nat) (t : Ty) (hs : Sized t n) (hb : (cat t).isBidir = true) (p : Nat) (it : It) : IsAt t p it ↔ p ≤ n ∧ it = place n t p := by
  unfold IsAt
  rw [ends_place n t hs]; dsimp only
  rw [walk_place n t hs _ 0 (Nat.zero_le _) (fun m hm => by rw [List.eq_of_mem_replicate hm]; exact (has_steps t hb).1), moves_incs]
  by_cases h : p ≤ n
  · rw [if_pos (by omega)]
    simp only [Option.map_some, Res.of, Res.ok.injEq, Out.iter.injEq, Nat.zero_add]
    exact ⟨fun e => ⟨h, e.symm⟩, fun e => e.2.symm⟩
  · rw [if_neg (by omega)]
    simp only [Option.map_none, Res.of, reduceCtorEq, false_iff]
    exact fun e => h e.1

/-! ## The property -/

/-- **C98** (partial: the expressions `has` admits). Over any range made by mapping, zipping (ranges of one length) and reversing, nested in any way, every expression that compiles answers as the positions in the list of
elements say: also which moves and dereferences are undefined. The full property would admit every expression a random access iterator must support (see `C98_minus_violated` …). -/
theorem C98_positions_partial (t : Ty) (n : Nat) (hs : Sized t n) (hb : (cat t).isBidir = true) (p q : Nat) (it jt : It) (hi : IsAt t p it) (hj : IsAt t q jt) (e : Expr) (hc : run t e it jt ≠ .refused) :
    Agrees t (answer (shows t) e p q) (run t e it jt) := by
  rw [isAt_iff n t hs hb] at hi hj
  obtain ⟨hp, rfl⟩ := hi
  obtain ⟨hq, rfl⟩ := hj
  have hh : has t e = true := by
    cases h : has t e with
    | true => rfl
    | false => exact absurd (by simp [run, h]) hc
  have hl := shows_length n t hs
  have hat : ∀ r, r ≤ n → IsAt t r (place n t r) := fun r hr => (isAt_iff n t hs hb r _).mpr ⟨hr, rfl⟩
  unfold run
  rw [if_pos hh]
  cases e with
  | deref =>
    dsimp only [answer]
    rw [derefIt_place n t hs p hp hh]
    have : elemAt (shows t) (p : Int) = (shows t)[p]? := by unfold elemAt; rw [if_pos (by omega), Int.toNat_natCast]
    rw [this]
    cases (shows t)[p]? <;> rfl
  | move m =>
    dsimp only [answer]
    rw [moveIt_place n t hs m p hp hh, hl, goTo]
    cases hm : moved n p m.by with
    | none => rfl
    | some r => exact ⟨_, rfl, hat r (moved_le _ _ _ _ hm)⟩
  | postInc =>
    dsimp only [answer]
    rw [moveIt_place n t hs .inc p hp (has_steps t hb).1, hl, goTo]
    cases hm : moved n p (Move.by .inc) with
    | none => rw [show moved n p 1 = none from hm]; rfl
    | some r => rw [show moved n p 1 = some r from hm]; exact ⟨_, _, rfl, hat p hp, hat r (moved_le _ _ _ _ hm)⟩
  | postDec =>
    dsimp only [answer]
    rw [moveIt_place n t hs .dec p hp (has_steps t hb).2, hl, goTo]
    cases hm : moved n p (Move.by .dec) with
    | none => rw [show moved n p (-1) = none from hm]; rfl
    | some r => rw [show moved n p (-1) = some r from hm]; exact ⟨_, _, rfl, hat p hp, hat r (moved_le _ _ _ _ hm)⟩
  | sub k =>
    dsimp only [answer]
    rw [subIt_place n t hs k p hp hh]
    cases elemAt (shows t) (p + k) <;> rfl
  | dist => dsimp only [answer]; rw [distIt_place n t p q hp hq]; rfl
  | cmp c => dsimp only [answer]; rw [cmpIt_place n t c p q hp hq hh]; cases c <;> rfl

/-- Every position from the first to past the last has exactly one iterator, no other number has one; `begin()` is at the first and `end()` past the last element shown. -/
theorem C98_iterators (t : Ty) (n : Nat) (hs : Sized t n) (hb : (cat t).isBidir = true) :
    IsAt t 0 (ends t).1 ∧ IsAt t (shows t).length (ends t).2 ∧ (∀ p, p ≤ (shows t).length → ∃ it, IsAt t p it ∧ ∀ jt, IsAt t p jt → jt = it) ∧ ∀ p it, IsAt t p it → p ≤ (shows t).length := by
  rw [shows_length n t hs]
  refine ⟨?_, ?_, fun p hp => ⟨place n t p, (isAt_iff n t hs hb p _).mpr ⟨hp, rfl⟩, fun jt h => ((isAt_iff n t hs hb p jt).mp h).2⟩, fun p it h => ((isAt_iff n t hs hb p it).mp h).1⟩
  · rw [isAt_iff n t hs hb, ends_place n t hs]; exact ⟨Nat.zero_le _, rfl⟩
  · rw [isAt_iff n t hs hb, ends_place n t hs]; exact ⟨Nat.le_refl _, rfl⟩

/-- Any history of moves that compile, starting at `begin()`: undefined exactly if the position leaves the list, otherwise the iterator is at the position the moves add up to. -/
theorem C98_histories (t : Ty) (n : Nat) (hs : Sized t n) (hb : (cat t).isBidir = true) (ms : List Move) (hc : ∀ m ∈ ms, has t (.move m) = true) :
    match moves (shows t).length ms 0 with
    | none => walk t ms (ends t).1 = .ub
    | some p => ∃ it, walk t ms (ends t).1 = .ok (.iter it) ∧ IsAt t p it ∧ (p : Int) = (ms.map Move.by).sum := by
  rw [shows_length n t hs, ends_place n t hs]; dsimp only
  rw [walk_place n t hs ms 0 (Nat.zero_le _) hc]
  have key : ∀ (ms : List Move) (p r : Nat), p ≤ n → moves n ms p = some r → r ≤ n ∧ (r : Int) = p + (ms.map Move.by).sum := by
    intro ms
    induction ms with
    | nil => intro p r hp h; cases h; exact ⟨hp, by simp⟩
    | cons m ms ih =>
      intro p r hp h
      simp only [moves] at h
      cases hm : moved n p m.by with
      | none => rw [hm] at h; cases h
      | some p' =>
        rw [hm] at h
        obtain ⟨h1, h2⟩ := ih p' r (moved_le _ _ _ _ hm) h
        refine ⟨h1, ?_⟩
        have : (p' : Int) = p + m.by := by
          unfold moved at hm; split at hm
          · cases hm; omega
          · cases hm
        simp only [List.map_cons, List.sum_cons]; omega
  cases hm : moves n ms 0 with
  | none => rfl
  | some p =>
    obtain ⟨h1, h2⟩ := key ms 0 p (Nat.zero_le _) hm
    exact ⟨_, rfl, (isAt_iff n t hs hb p _).mpr ⟨h1, rfl⟩, by omega⟩

/-- The `distance()` of a range is the number of its elements. -/
theorem C98_distance (t : Ty) (n : Nat) (hs : Sized t n) (hr : (cat t).isRandom = true) : run t .dist (ends t).2 (ends t).1 = .ok (.num (shows t).length) := by
  have hh : has t .dist = true := by
    clear hs
    induction t with
    | base c l => exact hr
    | map f t ih => simp only [has, Bool.and_eq_true]; exact ⟨hr, ih hr⟩
    | zip a b iha ihb => simp only [has, Bool.and_eq_true]; exact ⟨hr, iha (common_random _ _ hr).1⟩
    | rev t ih => exact ih hr
  unfold run
  rw [if_pos hh, ends_place n t hs, shows_length n t hs]; dsimp only
  rw [distIt_place n t n 0 (Nat.le_refl _) (Nat.zero_le _)]
  simp [Res.of]

/-- Which expressions compile for a random access iterator: all of `*`, `++`, `--` (both forms), `+=`, `-=`, the difference, `==`, `!=`, `<` and `>`; the others depend on the adaptor below the reversals. -/
theorem C98_compiles (t : Ty) (hr : (cat t).isRandom = true) (e : Expr) : has t e = Compiles t e := by
  induction t generalizing e with
  | base c l => cases c <;> simp [cat, Cat.isRandom] at hr; cases e <;> try rfl
                · rename_i m; cases m <;> rfl
                · rename_i c; cases c <;> rfl
  | map f t ih =>
    have ih := fun e => ih hr e
    have hr' : (cat t).isRandom = true := hr
    cases e with
    | move m => cases m <;> simp [has, ih, hr', random_bidir _ hr', Compiles, below, Ty.isBase, Ty.isRev]
    | cmp c => cases c <;> simp [has, ih, hr', Compiles, below, Ty.isZip]
    | _ => simp [has, ih, hr', random_bidir _ hr', Compiles, below, Ty.isBase]
  | zip a b iha ihb =>
    have h := common_random _ _ (show ((cat a).common (cat b)).isRandom = true from hr)
    have iha := fun e => iha h.1 e
    have ihb := fun e => ihb h.2 e
    have hr' : ((cat a).common (cat b)).isRandom = true := hr
    cases e with
    | move m => cases m <;> simp [has, iha, ihb, hr', random_bidir _ hr', Compiles, below, Ty.isBase, Ty.isRev]
    | cmp c => cases c <;> simp [has, iha, ihb, hr', Compiles, below, Ty.isZip]
    | _ => simp [has, iha, ihb, hr', random_bidir _ hr', Compiles, below, Ty.isBase]
  | rev t ih =>
    have ih := fun e => ih hr e
    cases e with
    | move m => cases m <;> simp [has, ih, Compiles, below, Ty.isRev]
    | cmp c => cases c <;> simp [has, ih, Compiles, below]
    | _ => simp [has, ih, Compiles, below]

/-- An adaptor has no more than its category allows: over forward iterators there is no `--`, and over iterators without random access no jumps, distances and orderings. -/
theorem C98_category (t : Ty) (h : t.isRev = false) :
    (cat t = .forward → has t (.move .dec) = false ∧ has t .postDec = false) ∧
    (cat t ≠ .random → has t .dist = false ∧ (∀ n, has t (.sub n) = false ∧ has t (.move (.addEq n)) = false ∧ has t (.move (.subEq n)) = false ∧ has t (.move (.plus n)) = false ∧
      has t (.move (.plusL n)) = false ∧ has t (.move (.minus n)) = false) ∧ ∀ c, c = .lt ∨ c = .gt ∨ c = .le ∨ c = .ge → has t (.cmp c) = false) := by
  have fw : ∀ c : Cat, c = .forward → c.isBidir = false := by intro c h; subst h; rfl
  have nr : ∀ c : Cat, c ≠ .random → c.isRandom = false := by intro c h; cases c <;> first | rfl | exact absurd rfl h
  cases t with
  | base c l =>
    refine ⟨fun hc => ?_, fun hc => ?_⟩
    · have := fw c hc
      simp [has, baseHas, this]
    · have := nr c hc
      refine ⟨by simp [has, baseHas, this], fun n => by simp [has, baseHas, this], ?_⟩
      rintro c (rfl | rfl | rfl | rfl) <;> simp [has, baseHas, this]
  | map f t =>
    refine ⟨fun hc => ?_, fun hc => ?_⟩
    · have := fw (cat t) hc
      simp [has, this]
    · have := nr (cat t) hc
      refine ⟨by simp [has, this], fun n => by simp [has, this], ?_⟩
      rintro c (rfl | rfl | rfl | rfl) <;> simp [has, this]
  | zip a b =>
    refine ⟨fun hc => ?_, fun hc => ?_⟩
    · have := fw ((cat a).common (cat b)) hc
      simp [has, this]
    · have := nr ((cat a).common (cat b)) hc
      refine ⟨by simp [has, this], fun n => by simp [has, this], ?_⟩
      rintro c (rfl | rfl | rfl | rfl) <;> simp [has, this]
  | rev t => cases h

example : cat (.zip (.base .random []) (.base .forward [])) = .forward := rfl

/-- Whatever compiles for one iterator of a type compiles for all of them and never otherwise: `refused` is decided by the type. -/
theorem C98_refused (t : Ty) (hr : (cat t).isRandom = true) (e : Expr) (it jt : It) : run t e it jt = .refused ↔ Compiles t e = false := by
  rw [← C98_compiles t hr e]
  unfold run
  cases h : has t e with
  | false => simp
  | true =>
    simp only [if_true, Bool.true_eq_false, iff_false]
    have : ∀ o : Option Out, Res.of o ≠ .refused := fun o => by cases o <;> simp [Res.of]
    cases e <;> exact this _

/-- A sequence of moves is refused exactly if one of them does not compile. -/
theorem C98_walk_refused (t : Ty) (hr : (cat t).isRandom = true) (ms : List Move) (it : It) :
    walk t ms it = .refused ↔ ∃ m ∈ ms, Compiles t (.move m) = false := by
  have hall : ∀ ms : List Move, (∃ m ∈ ms, Compiles t (.move m) = false) ↔ ms.all (fun m => has t (.move m)) = false := by
    intro ms
    rw [← Bool.not_eq_true, List.all_eq_true]
    constructor
    · rintro ⟨m, hm, hc⟩ h
      rw [← C98_compiles t hr, h m hm] at hc
      cases hc
    · intro h
      apply Classical.byContradiction
      intro hn
      apply h
      intro m hm
      rw [C98_compiles t hr]
      cases hc : Compiles t (.move m) with
      | true => rfl
      | false => exact absurd ⟨m, hm, hc⟩ hn
  induction ms generalizing it with
  | nil => simp [walk]
  | cons m ms ih =>
    rw [hall]
    simp only [walk, List.all_cons]
    cases h : has t (.move m) && ms.all (fun m' => has t (.move m')) with
    | false => simp
    | true =>
      simp only [if_true, Bool.true_eq_false, iff_false]
      simp only [Bool.and_eq_true] at h
      cases moveIt t m it with
      | none => simp
      | some it' =>
        intro hw
        have := (hall ms).1 ((ih it').1 hw)
        rw [h.2] at this
        cases this

/-! ## Non-vacuity -/

/-- a mapped zip of a reversed and a plain sequence -/
def sample : Ty := .map (fun v => .tup v (.num 0)) (.zip (.rev (.base .random [.num 1, .num 2, .num 3])) (.base .random [.num 4, .num 5, .num 6]))

example : Sized sample 3 ∧ (cat sample).isRandom = true := ⟨⟨rfl, rfl⟩, rfl⟩
example : shows sample = [.tup (.tup (.num 3) (.num 4)) (.num 0), .tup (.tup (.num 2) (.num 5)) (.num 0), .tup (.tup (.num 1) (.num 6)) (.num 0)] := rfl
example : IsAt sample 2 (.pair (.pos 1) (.pos 2)) ∧ IsAt sample 1 (.pair (.pos 2) (.pos 1)) := ⟨rfl, rfl⟩
example : run sample .deref (.pair (.pos 2) (.pos 1)) (.pos 0) = .ok (.val (.tup (.tup (.num 2) (.num 5)) (.num 0))) := rfl
example : run sample .dist (.pair (.pos 1) (.pos 2)) (.pair (.pos 2) (.pos 1)) = .ok (.num 1) := rfl
example : run sample (.cmp .le) (.pair (.pos 1) (.pos 2)) (.pair (.pos 2) (.pos 1)) = .ok (.bool false) := rfl
example : run (.rev sample) (.move (.addEq 1)) (.pair (.pos 1) (.pos 2)) (.pos 0) = .ok (.iter (.pair (.pos 2) (.pos 1))) := rfl
example : run sample (.move (.addEq 2)) (.pair (.pos 1) (.pos 2)) (.pos 0) = .ub := rfl
example : walk sample [.addEq 3, .dec, .subEq 1] (ends sample).1 = .ok (.iter (.pair (.pos 2) (.pos 1))) := rfl
example : moves 3 [.addEq 3, .dec, .subEq 1] 0 = some 1 := rfl
example : moves 3 [.inc, .subEq 2, .addEq 2] 0 = none := rfl

/-! ## Where the code falls short -/

/-- The random access category promises `it - n`, `it[n]` and `n + it`: they compile for no mapped and no zipped range. -/
theorem C98_minus_violated (t : Ty) (h : (∃ f u, t = .map f u) ∨ ∃ a b, t = .zip a b) (k : Int) (it jt : It) :
    run t (.move (.minus k)) it jt = .refused ∧ run t (.sub k) it jt = .refused ∧ run t (.move (.plusL k)) it jt = .refused := by
  rcases h with ⟨f, u, rfl⟩ | ⟨a, b, rfl⟩ <;> exact ⟨rfl, rfl, rfl⟩

/-- For the same reason `it + n` compiles for no reversed mapped or zipped range, since `std::reverse_iterator` subtracts; there `it - n` does. -/
theorem C98_reverse_plus_violated (t : Ty) (hr : (cat t).isRandom = true) (h : (∃ f u, t = .map f u) ∨ ∃ a b, t = .zip a b) (k : Int) (it jt : It) :
    run (.rev t) (.move (.plus k)) it jt = .refused ∧ run (.rev t) (.move (.minus k)) it jt ≠ .refused := by
  rw [Ne, C98_refused (.rev t) hr, C98_refused (.rev t) hr]
  rcases h with ⟨f, u, rfl⟩ | ⟨a, b, rfl⟩ <;> exact ⟨rfl, by simp [Compiles, below]⟩

/-- `a <= b` compiles for no zip iterators (a forgotten `_t` in the return type), nor `a >= b` for reversed ones. -/
theorem C98_le_violated (a b : Ty) (it jt : It) : run (.zip a b) (.cmp .le) it jt = .refused ∧ run (.rev (.zip a b)) (.cmp .ge) it jt = .refused := ⟨rfl, rfl⟩

/-- If the first of the zipped ranges is the longer one, `distance()` counts more elements than there are tuples. -/
theorem C98_zip_distance_violated (l m : List Val) (h : m.length < l.length) :
    ∃ d : Int, run (.zip (.base .random l) (.base .random m)) .dist (ends (.zip (.base .random l) (.base .random m))).2 (ends (.zip (.base .random l) (.base .random m))).1 = .ok (.num d) ∧
      ((shows (.zip (.base .random l) (.base .random m))).length : Int) < d := by
  refine ⟨(l.length : Int) - 0, rfl, ?_⟩
  simp only [shows, List.length_zipWith]; omega

/-- Zip iterators whose components are at different distances are neither equal nor ordered, yet `>=` holds both ways. -/
theorem C98_ge_violated (l m : List Val) : let t := Ty.zip (.base .random l) (.base .random m)
    run t (.cmp .ge) (.pair (.pos 0) (.pos 1)) (.pair (.pos 1) (.pos 0)) = .ok (.bool true) ∧ run t (.cmp .ge) (.pair (.pos 1) (.pos 0)) (.pair (.pos 0) (.pos 1)) = .ok (.bool true) ∧
      run t (.cmp .eq) (.pair (.pos 0) (.pos 1)) (.pair (.pos 1) (.pos 0)) = .ok (.bool false) ∧ run t (.cmp .gt) (.pair (.pos 0) (.pos 1)) (.pair (.pos 1) (.pos 0)) = .ok (.bool false) :=
  ⟨rfl, rfl, rfl, rfl⟩

end Verif.Adapt
