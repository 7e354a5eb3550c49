/-!
Model of what the accessors of the containers give: `array_nd`, its rows `sub_array` (`/repo/include/yato/array_nd.h`), `vector_nd`
(`/repo/include/yato/vector_nd.h`), its rows `proxy_nd` (`/repo/include/yato/array_proxy.h`), `array_view_nd`
(`/repo/include/yato/array_view.h`), and the iterators `iterator_nd` (`/repo/include/yato/iterator_nd.h`) and ranges
(`/repo/include/yato/range.h`) over them.

An expression has a type and may be `const`; each call gives another expression, does not compile, or is undefined behaviour.

Simplifications: only types are followed, so indices and sizes are taken to be right; the access policy is that of lvalue references; an
accessor of the end is of the same type as that of the beginning and is not listed; `n` stands for `n + 1` dimensions, so that there is
always one; elements are not `volatile`.
-/
set_option autoImplicit false

namespace Verif.Accessors

/-- The classes: `array_nd_impl` (array_nd.h l.546, 899), `sub_array` (array_nd.h l.96, 324), `vector_nd`, `proxy_nd` (array_proxy.h l.46, 423)
and `array_view_nd` (array_view.h l.361). -/
inductive Cls where
  | array
  | sub
  | vector
  | proxy
  | view
deriving DecidableEq, Repr

/-- Types. The flag says that the elements are not `const`. -/
inductive Ty where
  /-- a container with `n + 1` dimensions -/
  | obj (k : Cls) (n : Nat) (w : Bool)
  /-- `iterator_nd` over such containers -/
  | iter (k : Cls) (n : Nat) (w : Bool)
  /-- a pointer to an element -/
  | ptr (w : Bool)
  /-- a reference to an element -/
  | ref (w : Bool)
  /-- `range<iterator>` -/
  | range (t : Ty)
deriving DecidableEq, Repr

/-- An expression: its type, and whether it is `const`. -/
structure Expr where
  ty : Ty
  const : Bool
deriving DecidableEq, Repr

inductive Res where
  /-- it does not compile -/
  | refused
  | ub
  | ok (e : Expr)
deriving DecidableEq, Repr

inductive Call where
  /-- `e[i]` -/
  | sub
  /-- `e.at(i, …)` with an index for each dimension -/
  | at
  | front
  | begin
  | cbegin
  | plainBegin
  | plainCbegin
  | range
  | crange
  | plainRange
  | plainCrange
  | data
  | cdata
  | view
  | cview
  | proxy
  | cproxy
  /-- `e.reshape(extents)` to `m + 1` dimensions -/
  | reshape (m : Nat)
  /-- `e.erase(range)` -/
  | eraseRange
  /-- `*e` -/
  | deref
  /-- conversion to a view, to a proxy, and to the same with `const` elements -/
  | toView
  | toProxy
  | toConst
  /-- a `const` reference to it -/
  | asConst
  /-- a copy of it -/
  | copy
deriving DecidableEq, Repr

/-- What a function gives is not `const`. -/
def val (t : Ty) : Res := .ok ⟨t, false⟩

/-- `sub_proxy`, `sub_view` (array_nd.h l.111-112, 562-563, vector_nd.h l.588-589, array_proxy.h l.60-61, array_view.h l.43) -/
def Cls.inner : Cls → Cls
  | .array => .sub
  | .sub => .sub
  | .vector => .proxy
  | .proxy => .proxy
  | .view => .proxy

/-- `reference` (array_nd.h l.117, 342, 565, 917, vector_nd.h l.595, 2001, array_proxy.h l.68, 441, array_view.h l.50, 228) -/
def row (k : Cls) (n : Nat) (w : Bool) : Ty :=
  match n with
  | 0 => .ref w
  | n + 1 => .obj k.inner n w

/-- `iterator` (array_nd.h l.114, 345, 568, 920, vector_nd.h l.592, 1996, array_proxy.h l.63, 438, array_view.h l.45, 223) -/
def iterTy (k : Cls) (n : Nat) (w : Bool) : Ty :=
  match n with
  | 0 => .ptr w
  | n + 1 => .iter k.inner n w

/-- A method that is not for `const` containers. -/
def notConst (c : Bool) (t : Ty) : Res := if c then .refused else val t

/-- Members of `array_nd_impl`: array_nd.h l.621-723, 725-754, 858-883, with one dimension l.962-1061, 1064-1092, 1198-1223. -/
def arrayCall (n : Nat) (w c : Bool) : Call → Res
  | .sub => val (row .array n (w && !c))
  | .at => val (.ref (w && !c))
  | .begin => val (iterTy .array n (w && !c))
  | .cbegin => val (iterTy .array n false)
  | .plainBegin => notConst c (.ptr w)
  | .plainCbegin => val (.ptr false)
  | .range => notConst c (.range (iterTy .array n w))
  | .crange => val (.range (iterTy .array n false))
  | .plainRange => notConst c (.range (.ptr w))
  | .plainCrange => val (.range (.ptr false))
  | .data => val (.ptr (w && !c))
  | .cdata => val (.ptr false)
  | _ => .refused

/-- Members of `sub_array`: array_nd.h l.151-165, 204-307, with one dimension l.366-379, 424-528. With several dimensions `at`, `range` and
`plain_range` are not for `const` ones. -/
def subCall (n : Nat) (w c : Bool) : Call → Res
  | .sub => val (row .sub n w)
  | .at => notConst (c && n != 0) (.ref w)
  | .begin => val (iterTy .sub n (w && !c))
  | .cbegin => val (iterTy .sub n false)
  | .plainBegin => val (.ptr w)
  | .plainCbegin => val (.ptr false)
  | .range => notConst (c && n != 0) (.range (iterTy .sub n w))
  | .crange => val (.range (iterTy .sub n false))
  | .plainRange => notConst (c && n != 0) (.range (.ptr w))
  | .plainCrange => val (.range (.ptr false))
  | .data => val (.ptr (w && !c))
  | .cdata => val (.ptr false)
  | _ => .refused

/-- Returning a range of iterators of type `t` as a `range` of iterators of type `t'`: there is no conversion (range.h l.49-59). -/
def asRange (t t' : Ty) : Res := if t = t' then val (.range t') else .refused

/-- `view()` and `proxy()` of a vector, and the conversions to them: vector_nd.h l.1387-1449, with one dimension l.2630-2692. -/
def vectorCall (n : Nat) (w c : Bool) : Call → Res
  | .sub => val (row .vector n (w && !c))                                -- l.1216-1230, 2461-2476
  | .at => val (.ref (w && !c))                                          -- l.1234-1249, 2481-2492
  | .front => val (row .vector n (w && !c))                              -- l.1631-1678, 2863-2902
  | .begin => val (iterTy .vector n (w && !c))                           -- l.1262-1297, 2505-2540
  | .cbegin => val (iterTy .vector n false)                              -- l.1254-1281, 2497-2524
  | .plainBegin => notConst c (.ptr w)                                        -- l.1310-1329, 2553-2572
  | .plainCbegin => val (.ptr false)                                     -- l.1302-1321, 2545-2564
  | .range => if c then .refused else asRange (iterTy .vector n w) (.ptr w)    -- l.1342-1345, 2585-2588: a range of plain iterators
  | .crange => asRange (iterTy .vector n false) (.ptr false)             -- l.1334-1337, 2577-2580
  | .plainRange => notConst c (.range (.ptr w))                               -- l.1358-1361, 2601-2604
  | .plainCrange => val (.range (.ptr false))                            -- l.1350-1353, 2593-2596
  | .data => val (.ptr (w && !c))                                        -- l.1366-1377, 2609-2620
  | .cdata => val (.ptr false)                                           -- l.1382-1385, 2625-2628
  | .view => notConst c (.obj .view n w)                                      -- l.1398-1401, 2641-2644
  | .cview => val (.obj .view n false)                                   -- l.1390-1393, 2633-2636
  | .proxy => notConst c (.obj .proxy n w)                                    -- l.1430-1433, 2673-2676
  | .cproxy => val (.obj .proxy n false)                                 -- l.1422-1425, 2665-2668
  | .toView => val (.obj .view n (w && !c))                              -- l.1406-1417, 2649-2660
  | .toProxy => val (.obj .proxy n (w && !c))                            -- l.1438-1449, 2681-2692
  | .eraseRange => .refused                                              -- l.1956-1959, 3138-3141: `range` has no `last()`
  | _ => .refused

/-- Members of `proxy_nd`: array_proxy.h l.157-169, 286-410, with one dimension l.526-536, 632-756, and the conversions l.124-127, 491-494 and
to a view (array_view.h l.438-442). All are `const`. -/
def proxyCall (n : Nat) (w : Bool) : Call → Res
  | .sub => val (row .proxy n w)
  | .at => if n = 0 then val (.ref w) else .ub                           -- l.164-169: there is no return statement
  | .begin => val (iterTy .proxy n w)
  | .cbegin => val (iterTy .proxy n false)
  | .plainBegin => val (.ptr w)
  | .plainCbegin => val (.ptr false)
  | .range => val (.range (iterTy .proxy n w))
  | .crange => asRange (iterTy .proxy n w) (iterTy .proxy n false)       -- l.373-376, 719-722: `make_range(begin(), end())`
  | .plainRange => val (.range (.ptr w))
  | .plainCrange => asRange (.ptr w) (.ptr false)                        -- l.381-384, 727-730
  | .data => val (.ptr w)
  | .cdata => val (.ptr w)                                               -- l.74, 407-410, 447, 753-756: a constant pointer
  | .toView => val (.obj .view n w)
  | .toConst => val (.obj .proxy n false)
  | _ => .refused

/-- Members of `array_view_nd`: array_view.h l.415-488, 582-646, 667-681. All are `const`. -/
def viewCall (n : Nat) (w : Bool) : Call → Res
  | .sub => val (row .view n w)
  | .at => val (.ref w)
  | .begin => val (iterTy .view n w)
  | .cbegin => val (iterTy .view n (if n = 0 then false else w))         -- l.46: `const_iterator` is `iterator`, l.224: it is not
  | .plainBegin => val (.ptr w)
  | .plainCbegin => val (.ptr false)
  | .range => val (.range (iterTy .view n w))
  | .crange => val (.range (iterTy .view n (if n = 0 then false else w)))
  | .plainRange => val (.range (.ptr w))
  | .plainCrange => val (.range (.ptr false))
  | .data => val (.ptr w)
  | .cdata => val (.ptr w)                                               -- l.370, 678-681: a constant pointer
  | .reshape m => val (.obj .view m w)                                   -- l.460-467
  | .toProxy => if n = 0 then .refused else if w then .refused else val (.obj .proxy n false)
      -- l.472-475: `to_view_()` of a `const` view gives `const` elements (l.128-131), with one dimension it does not compile (l.275-278)
  | .toConst => val (.obj .view n false)
  | _ => .refused

/-- `iterator_nd<proxy>`: iterator_nd.h l.48-63, 77-81. `operator*` gives the proxy itself, not `const`. The conversion (l.52-55) is that of the
proxy, which `sub_array` does not have (array_nd.h l.137-149). -/
def iterCall (k : Cls) (n : Nat) (w : Bool) : Call → Res
  | .deref => val (.obj k n w)
  | .toConst => match k with
    | .sub => if w then .refused else val (.iter k n w)
    | _ => val (.iter k n false)
  | _ => .refused

/-- Pointers. -/
def ptrCall (w : Bool) : Call → Res
  | .deref => val (.ref w)
  | .sub => val (.ref w)
  | .toConst => val (.ptr false)
  | _ => .refused

/-- `range`: range.h l.63-67 `begin()` gives a `const` reference to the iterator. -/
def rangeCall (t : Ty) : Call → Res
  | .begin => .ok ⟨t, true⟩
  | _ => .refused

/-- A copy, or nothing if it has elements of its own. -/
def copyOf (t : Ty) : Res :=
  match t with
  | .obj .array _ _ => .refused
  | .obj .vector _ _ => .refused
  | .ref _ => .refused
  | t => val t

/-- A call. -/
def Expr.call (e : Expr) (a : Call) : Res :=
  match a with
  | .asConst => match e.ty with
    | .ref _ => val (.ref false)
    | t => .ok ⟨t, true⟩
  | .copy => copyOf e.ty
  | a => match e.ty with
    | .obj .array n w => arrayCall n w e.const a
    | .obj .sub n w => subCall n w e.const a
    | .obj .vector n w => vectorCall n w e.const a
    | .obj .proxy n w => proxyCall n w a
    | .obj .view n w => viewCall n w a
    | .iter k n w => iterCall k n w a
    | .ptr w => ptrCall w a
    | .ref _ => if a = .toConst then val (.ref false) else .refused
    | .range t => rangeCall t a

/-- Calls one after the other. -/
def Expr.run (e : Expr) : List Call → Res
  | [] => .ok e
  | a :: l => match e.call a with
    | .ok e' => e'.run l
    | r => r

end Verif.Accessors
