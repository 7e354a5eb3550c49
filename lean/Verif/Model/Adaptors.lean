/-!
# Model of the operators of iterator adaptors

`/repo/include/yato/transform_iterator.h`, `/repo/include/yato/zip_iterator.h`, and `std::reverse_iterator` as made by `reverse()` of a range. An iterator type is a tree of adaptors over iterators of
a sequence. For each expression a random access iterator must support (`*it`, `++it`, `it++`, `--it`, `it--`, `it += n`, `it -= n`, `it + n`, `n + it`, `it - n`, `it[n]`, `it - jt`, and six comparisons) the model says
whether the expression compiles (`has`) and what it does (`run`).

Simplifications. A zip has two components: a zip of more behaves as nested zips do, since every operator is "all", "any" or "the first" of the components. Iterators of a sequence are positions; moving one out of
`[0, length]` or dereferencing one at the end is undefined behaviour. Offsets are integers without bounds (`-offset` of the least `ptrdiff_t` is no offset of a sequence). The functor of a transforming iterator is a pure
function. A filtered range is an underlying sequence with the bidirectional category here (property C08 is about what it shows). `std::reverse_iterator` is as the standard describes it (C++14, 24.5.1).
-/
set_option autoImplicit false

namespace Verif.Adapt

/-- Elements: numbers, or tuples of references to elements (`zip_iterator.h` l.33). -/
inductive Val where
  | num (n : Int)
  | tup (a b : Val)
  deriving DecidableEq, Repr

/-- Iterator categories, from the weakest to the strongest. -/
inductive Cat where
  | forward
  | bidir
  | random
  deriving DecidableEq, Repr

/-- `std::common_type` of two category tags: the tags are classes derived from one another, so it is the weaker one (`zip_iterator.h` l.49). -/
def Cat.common : Cat → Cat → Cat
  | .forward, _ => .forward
  | _, .forward => .forward
  | .bidir, _ => .bidir
  | _, .bidir => .bidir
  | .random, .random => .random

/-- `std::is_base_of<std::bidirectional_iterator_tag, Category>` (`transform_iterator.h` l.228, `zip_iterator.h` l.256). -/
def Cat.isBidir : Cat → Bool
  | .forward => false
  | _ => true

/-- `std::is_base_of<std::random_access_iterator_tag, Category>` (`transform_iterator.h` l.251, `zip_iterator.h` l.279). -/
def Cat.isRandom : Cat → Bool
  | .random => true
  | _ => false

/-- Types of iterators: of a sequence; `transform_iterator` (`transform_iterator.h` l.21-29); `zip_iterator` (`zip_iterator.h` l.19-25); `std::reverse_iterator`. The contents of the sequences and the functor are kept in the type. -/
inductive Ty where
  | base (c : Cat) (l : List Val)
  | map (f : Val → Val) (t : Ty)
  | zip (a b : Ty)
  | rev (t : Ty)

/-- `iterator_category`: that of the underlying iterator (`transform_iterator.h` l.36); the common one (`zip_iterator.h` l.49). -/
def cat : Ty → Cat
  | .base c _ => c
  | .map _ t => cat t
  | .zip a b => (cat a).common (cat b)
  | .rev t => cat t

/-- Iterators: a position in a sequence, or the tuple of a zip iterator (`zip_iterator.h` l.113). Transforming and reverse iterators hold one iterator (`transform_iterator.h` l.60). -/
inductive It where
  | pos (i : Nat)
  | pair (a b : It)
  deriving DecidableEq, Repr

/-- Expressions that move an iterator or make a moved one. -/
inductive Move where
  | inc
  | dec
  | addEq (n : Int)
  | subEq (n : Int)
  | plus (n : Int)
  | plusL (n : Int)
  | minus (n : Int)
  deriving DecidableEq, Repr

/-- Comparisons. -/
inductive Cmp where
  | eq
  | ne
  | lt
  | gt
  | le
  | ge
  deriving DecidableEq, Repr

/-- The expressions. `postInc` and `postDec` are `it++` and `it--`; `sub n` is `it[n]`; `dist` is `it - jt`. -/
inductive Expr where
  | deref
  | move (m : Move)
  | postInc
  | postDec
  | sub (n : Int)
  | dist
  | cmp (c : Cmp)
  deriving DecidableEq, Repr

/-- What iterators of a sequence support, by their category. -/
def baseHas (c : Cat) : Expr → Bool
  | .deref => true
  | .move .inc => true
  | .postInc => true
  | .move .dec => c.isBidir
  | .postDec => c.isBidir
  | .cmp .eq => true
  | .cmp .ne => true
  | _ => c.isRandom

/-- Does the expression compile for an iterator of the type? `transform_iterator.h` l.190-348: no `it - n`, `n + it` and `it[n]`; `!=` by `==`, `<=` by `>`, `>=` by `<`, `-=` and `+` by `+=`. `zip_iterator.h` l.227-375: the
same are missing; `==` by the components' `!=`, `>` and `>=` by their `<`; the return type of `<=` is `std::enable_if<…>` itself (l.361), to which the result does not convert. `std::reverse_iterator`:
`++` by `--`, `+=` by `-=`, `+` by `- n`, `it[n]` by `current[-n - 1]`, the comparisons by the opposite ones. -/
def has : Ty → Expr → Bool
  | .base c _, e => baseHas c e
  | .map _ t, e =>
    match e with
    | .deref => has t .deref
    | .move .inc => has t (.move .inc)
    | .postInc => has t (.move .inc)
    | .move .dec => (cat t).isBidir && has t (.move .dec)
    | .postDec => (cat t).isBidir && has t (.move .dec)
    | .move (.addEq n) => (cat t).isRandom && has t (.move (.addEq n))
    | .move (.subEq n) => (cat t).isRandom && has t (.move (.addEq (-n)))
    | .move (.plus n) => (cat t).isRandom && has t (.move (.addEq n))
    | .move (.plusL _) => false
    | .move (.minus _) => false
    | .sub _ => false
    | .dist => (cat t).isRandom && has t .dist
    | .cmp .eq => has t (.cmp .eq)
    | .cmp .ne => has t (.cmp .eq)
    | .cmp .lt => (cat t).isRandom && has t (.cmp .lt)
    | .cmp .gt => (cat t).isRandom && has t (.cmp .gt)
    | .cmp .le => (cat t).isRandom && has t (.cmp .gt)
    | .cmp .ge => (cat t).isRandom && has t (.cmp .lt)
  | .zip a b, e =>
    let c := (cat a).common (cat b)
    match e with
    | .deref => has a .deref && has b .deref
    | .move .inc => has a (.move .inc) && has b (.move .inc)
    | .postInc => has a (.move .inc) && has b (.move .inc)
    | .move .dec => c.isBidir && (has a (.move .dec) && has b (.move .dec))
    | .postDec => c.isBidir && (has a (.move .dec) && has b (.move .dec))
    | .move (.addEq n) => c.isRandom && (has a (.move (.addEq n)) && has b (.move (.addEq n)))
    | .move (.subEq n) => c.isRandom && (has a (.move (.addEq (-n))) && has b (.move (.addEq (-n))))
    | .move (.plus n) => c.isRandom && (has a (.move (.addEq n)) && has b (.move (.addEq n)))
    | .move (.plusL _) => false
    | .move (.minus _) => false
    | .sub _ => false
    | .dist => c.isRandom && has a .dist
    | .cmp .eq => has a (.cmp .ne) && has b (.cmp .ne)
    | .cmp .ne => has a (.cmp .ne) && has b (.cmp .ne)
    | .cmp .lt => c.isRandom && (has a (.cmp .lt) && has b (.cmp .lt))
    | .cmp .gt => c.isRandom && (has a (.cmp .lt) && has b (.cmp .lt))
    | .cmp .le => false
    | .cmp .ge => c.isRandom && (has a (.cmp .lt) && has b (.cmp .lt))
  | .rev t, e =>
    match e with
    | .deref => has t (.move .dec) && has t .deref
    | .move .inc => has t (.move .dec)
    | .postInc => has t (.move .dec)
    | .move .dec => has t (.move .inc)
    | .postDec => has t (.move .inc)
    | .move (.addEq n) => has t (.move (.subEq n))
    | .move (.subEq n) => has t (.move (.addEq n))
    | .move (.plus n) => has t (.move (.minus n))
    | .move (.plusL n) => has t (.move (.minus n))
    | .move (.minus n) => has t (.move (.plus n))
    | .sub n => has t (.sub (-n - 1))
    | .dist => has t .dist
    | .cmp .eq => has t (.cmp .eq)
    | .cmp .ne => has t (.cmp .ne)
    | .cmp .lt => has t (.cmp .gt)
    | .cmp .gt => has t (.cmp .lt)
    | .cmp .le => has t (.cmp .ge)
    | .cmp .ge => has t (.cmp .le)

/-- a position of a sequence of `len` elements, moved by `d` -/
def shiftPos (len : Nat) (i : Nat) (d : Int) : Option It :=
  if 0 ≤ (i : Int) + d ∧ (i : Int) + d ≤ len then some (.pos ((i : Int) + d).toNat) else none

/-- the components moved one after the other (`tuple_for_each`, `zip_iterator.h` l.237, 258, 281, 292) -/
def both (x y : Option It) : Option It :=
  match x, y with
  | some a, some b => some (.pair a b)
  | _, _ => none

/-- What the moving expressions make of an iterator; `none` is undefined behaviour. `transform_iterator.h` l.207-276, `zip_iterator.h` l.235-305. (Where an expression does not compile the result is of no meaning.) -/
def moveIt : Ty → Move → It → Option It
  | .base _ l, m, it =>
    match it with
    | .pos i =>
      match m with
      | .inc => shiftPos l.length i 1
      | .dec => shiftPos l.length i (-1)
      | .addEq n => shiftPos l.length i n
      | .subEq n => shiftPos l.length i (-n)
      | .plus n => shiftPos l.length i n
      | .plusL n => shiftPos l.length i n
      | .minus n => shiftPos l.length i (-n)
    | .pair _ _ => none
  | .map _ t, m, it =>
    match m with
    | .inc => moveIt t .inc it
    | .dec => moveIt t .dec it
    | .addEq n => moveIt t (.addEq n) it
    | .subEq n => moveIt t (.addEq (-n)) it
    | .plus n => moveIt t (.addEq n) it
    | .plusL _ => none
    | .minus _ => none
  | .zip a b, m, it =>
    match it with
    | .pos _ => none
    | .pair x y =>
      match m with
      | .inc => both (moveIt a .inc x) (moveIt b .inc y)
      | .dec => both (moveIt a .dec x) (moveIt b .dec y)
      | .addEq n => both (moveIt a (.addEq n) x) (moveIt b (.addEq n) y)
      | .subEq n => both (moveIt a (.addEq (-n)) x) (moveIt b (.addEq (-n)) y)
      | .plus n => both (moveIt a (.addEq n) x) (moveIt b (.addEq n) y)
      | .plusL _ => none
      | .minus _ => none
  | .rev t, m, it =>
    match m with
    | .inc => moveIt t .dec it
    | .dec => moveIt t .inc it
    | .addEq n => moveIt t (.subEq n) it
    | .subEq n => moveIt t (.addEq n) it
    | .plus n => moveIt t (.minus n) it
    | .plusL n => moveIt t (.minus n) it
    | .minus n => moveIt t (.plus n) it

/-- `*it`: `transform_iterator.h` l.190-202; `zip_iterator.h` l.227-230; `std::reverse_iterator` decrements a copy and dereferences it. -/
def derefIt : Ty → It → Option Val
  | .base _ l, it =>
    match it with
    | .pos i => l[i]?
    | .pair _ _ => none
  | .map f t, it => (derefIt t it).map f
  | .zip a b, it =>
    match it with
    | .pos _ => none
    | .pair x y =>
      match derefIt a x, derefIt b y with
      | some u, some v => some (.tup u v)
      | _, _ => none
  | .rev t, it =>
    match moveIt t .dec it with
    | some jt => derefIt t jt
    | none => none

/-- the element `n` places away from position `i` -/
def nthFrom (l : List Val) (i : Nat) (n : Int) : Option Val :=
  if 0 ≤ (i : Int) + n then l[((i : Int) + n).toNat]? else none

/-- `it[n]`: only iterators of sequences and reverse iterators over them have it. -/
def subIt : Ty → Int → It → Option Val
  | .base _ l, n, it =>
    match it with
    | .pos i => nthFrom l i n
    | .pair _ _ => none
  | .map _ _, _, _ => none
  | .zip _ _, _, _ => none
  | .rev t, n, it => subIt t (-n - 1) it

/-- `it - jt`: `transform_iterator.h` l.281-286; of the first components (`zip_iterator.h` l.311-316); `jt.base() - it.base()` for reverse iterators. -/
def distIt : Ty → It → It → Option Int
  | .base _ _, it, jt =>
    match it, jt with
    | .pos i, .pos j => some ((i : Int) - (j : Int))
    | _, _ => none
  | .map _ t, it, jt => distIt t it jt
  | .zip a _, it, jt =>
    match it, jt with
    | .pair x _, .pair x' _ => distIt a x x'
    | _, _ => none
  | .rev t, it, jt => distIt t jt it

/-- comparison of positions -/
def cmpPos (c : Cmp) (i j : Nat) : Bool :=
  match c with
  | .eq => decide (i = j)
  | .ne => decide (i ≠ j)
  | .lt => decide (i < j)
  | .gt => decide (i > j)
  | .le => decide (i ≤ j)
  | .ge => decide (i ≥ j)

/-- `tuple_all_of` of two components (`/repo/include/yato/tuple.h` l.175-213) -/
def allOf (x y : Option Bool) : Option Bool :=
  match x, y with
  | some p, some q => some (p && q)
  | _, _ => none

/-- `tuple_any_of` of two components (`/repo/include/yato/tuple.h` l.253-291) -/
def anyOf (x y : Option Bool) : Option Bool :=
  match x, y with
  | some p, some q => some (p || q)
  | _, _ => none

/-- Comparisons. `transform_iterator.h` l.291-348; `zip_iterator.h` l.322-375 (`==` is "no components differ", `<` is "all components are less", `>` the same with the operands swapped, `>=` is "not all components are
less"; `<=` does not compile). -/
def cmpIt : Ty → Cmp → It → It → Option Bool
  | .base _ _, c, it, jt =>
    match it, jt with
    | .pos i, .pos j => some (cmpPos c i j)
    | _, _ => none
  | .map _ t, c, it, jt =>
    match c with
    | .eq => cmpIt t .eq it jt
    | .ne => (cmpIt t .eq it jt).map (!·)
    | .lt => cmpIt t .lt it jt
    | .gt => cmpIt t .gt it jt
    | .le => (cmpIt t .gt it jt).map (!·)
    | .ge => (cmpIt t .lt it jt).map (!·)
  | .zip a b, c, it, jt =>
    match it, jt with
    | .pair x y, .pair x' y' =>
      match c with
      | .eq => (anyOf (cmpIt a .ne x x') (cmpIt b .ne y y')).map (!·)
      | .ne => anyOf (cmpIt a .ne x x') (cmpIt b .ne y y')
      | .lt => allOf (cmpIt a .lt x x') (cmpIt b .lt y y')
      | .gt => allOf (cmpIt a .lt x' x) (cmpIt b .lt y' y)
      | .le => none
      | .ge => (allOf (cmpIt a .lt x x') (cmpIt b .lt y y')).map (!·)
    | _, _ => none
  | .rev t, c, it, jt =>
    match c with
    | .eq => cmpIt t .eq it jt
    | .ne => cmpIt t .ne it jt
    | .lt => cmpIt t .gt it jt
    | .gt => cmpIt t .lt it jt
    | .le => cmpIt t .ge it jt
    | .ge => cmpIt t .le it jt

/-- Values of expressions. For `++it`, `it += n` … the moved iterator; for `it++` and `it--` the value of the expression and the iterator afterwards. -/
inductive Out where
  | iter (it : It)
  | post (value it : It)
  | val (v : Val)
  | num (n : Int)
  | bool (b : Bool)
  deriving DecidableEq, Repr

/-- Outcome of an expression. -/
inductive Res where
  | ok (o : Out)
  | refused
  | ub
  deriving DecidableEq, Repr

/-- a result, or undefined behaviour -/
def Res.of : Option Out → Res
  | some o => .ok o
  | none => .ub

/-- The expression on `it` (and `jt` for the binary ones). `it++` copies the iterator, moves it and returns the copy (`transform_iterator.h` l.216-221, 237-244, `zip_iterator.h` l.244-249, 265-272). -/
def run (t : Ty) (e : Expr) (it jt : It) : Res :=
  if has t e then
    match e with
    | .deref => .of ((derefIt t it).map .val)
    | .move m => .of ((moveIt t m it).map .iter)
    | .postInc => .of ((moveIt t .inc it).map (.post it))
    | .postDec => .of ((moveIt t .dec it).map (.post it))
    | .sub n => .of ((subIt t n it).map .val)
    | .dist => .of ((distIt t it jt).map .num)
    | .cmp c => .of ((cmpIt t c it jt).map .bool)
  else .refused

/-- `begin()` and `end()` of a range with such iterators: the range of a container; mapped, zipped and reversed ones (`/repo/include/yato/range.h` l.75-97, 126-133, 150-157, 223-228). -/
def ends : Ty → It × It
  | .base _ l => (.pos 0, .pos l.length)
  | .map _ t => ends t
  | .zip a b => (.pair (ends a).1 (ends b).1, .pair (ends a).2 (ends b).2)
  | .rev t => ((ends t).2, (ends t).1)

/-- A sequence of moves of one iterator variable: `it = it + n` for the expressions that make a new one. `refused` if one of the moves does not compile, `ub` at the first one that leaves the sequence. -/
def walk (t : Ty) : List Move → It → Res
  | [], it => .ok (.iter it)
  | m :: ms, it =>
    if has t (.move m) && ms.all (fun m' => has t (.move m')) then
      match moveIt t m it with
      | some it' => walk t ms it'
      | none => .ub
    else .refused

end Verif.Adapt
