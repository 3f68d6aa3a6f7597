import Verif.Model.Algorithm
import Verif.Model.Writing
/-!
# Algorithms whose functors modify the elements

`for_each`, `for_each_n` and `move` (`algorithm.hpp` 92-154, 803-813) may be given functors or output
iterators that change the elements they are handed; the functors of the other algorithms must not
(they are predicates and the like).  Here these three run on the collection itself: each step of the
loops looks at the collection as the calls so far have left it.

Simplifications:
* A functor changes the element it is given and nothing else of the collection.
* A functor given a `callable_wrapper` (`function_collection` without type restitution) may call it
  but does not assign to it (for this, see `Coll.rebind`).
-/

namespace PolyColl

/-- A functor with state `F`: what it makes of an element if it returns, and its own state then; what it
leaves of the element if it throws; and whether it cannot throw. -/
structure Mutator (V F : Type) where
  run : F → Passed V → V × F
  fail : F → Passed V → V
  nothrow : Bool

namespace Algo
open Coll
variable {V F : Type} (E : Env V)

/-- The call of a functor for the element at an address, passed as a `T&` for its own type (`typed`) or
as a `value_type&`. -/
def visitOne (f : Mutator V F) (ty : Ty) (typed : Bool) (p : Ptr) (s : F) : Prog (Coll V) F := do
  let v ← Coll.apply E (if typed then .terminal else .base) p
    ⟨fun v => (f.run s ⟨ty, v, typed⟩).1, fun v => f.fail s ⟨ty, v, typed⟩, f.nothrow⟩
  return (f.run s ⟨ty, v, typed⟩).2

/-- The loops `for(;first!=last;++first)f(*first)` of `for_each_alg` (98), `for(;n>0;++first,(void)--n)f(*first)`
of `for_each_n_alg` (120) and of `std::move`. -/
def visit (f : Mutator V F) (ty : Ty) (typed : Bool) : Ptr → Nat → F → Prog (Coll V) F
  | _, 0, s => pure s
  | p, n + 1, s => do
    let s ← visitOne E f ty typed p s
    visit f ty typed ⟨p.blk, p.off + 1⟩ n s

/-- The loop over one piece, restituted (`detail/type_restitution.hpp` 47-59, 67-72). -/
def visitPiece (Ts : List Ty) (f : Mutator V F) (i : SegInfo) (s : F) : Prog (Coll V) F := do
  let c ← Prog.get
  let r ← Prog.ofOption (range E c Ts i)
  visit E f (E.tiTy i.info) r.typed r.first r.vals.length s

/-- The inner loop of `for_each_segment` (`detail/segment_split.hpp` 127-132). -/
def eachFromM (body : SegInfo → F → Prog (Coll V) F) (slast : MapIt) : MapIt → LIter → Nat → F → Prog (Coll V) (MapIt × F)
  | _, _, 0, _ => Prog.undef
  | sfirst, lbfirst, fuel + 1, s => do
    let c ← Prog.get
    let i ← Prog.ofOption (c.segInfo E sfirst)
    let s ← body ⟨i.info, lbfirst, i.last⟩ s
    let c ← Prog.get
    let sfirst ← Prog.ofOption (c.map.itNext E sfirst)
    if ← Prog.ofOption (c.map.itEq E sfirst slast) then return (sfirst, s)
    else
      let i ← Prog.ofOption (c.segInfo E sfirst)
      eachFromM body slast sfirst i.first fuel s

/-- `for_each_segment` (101-127). -/
def eachSegmentM (body : SegInfo → F → Prog (Coll V) F) (first last : GIter) (s : F) : Prog (Coll V) F := do
  let c ← Prog.get
  if ← Prog.ofOption (c.map.itEq E first.mapit last.mapit) then
    if ← Prog.ofOption (c.map.itEq E first.mapit last.mapend) then return s
    else
      let i ← Prog.ofOption (c.segInfo E first.mapit)
      body ⟨i.info, localBase first, localBase last⟩ s
  else
    let r ← eachFromM E body last.mapit first.mapit (localBase first) (c.map.nodes.length + 1) s
    let c ← Prog.get
    if ← Prog.ofOption (c.map.itEq E r.1 last.mapend) then return r.2
    else
      let i ← Prog.ofOption (c.segInfo E r.1)
      body ⟨i.info, i.first, localBase last⟩ r.2

/-- `for_each` (102-110). -/
def forEachM (Ts : List Ty) (first last : GIter) (f : Mutator V F) (s : F) : Prog (Coll V) F :=
  eachSegmentM E (visitPiece E Ts f) first last s

/-- The loop over a `segment_splitter` (`detail/segment_split.hpp` 76-77, 88-95). -/
def splitFromM (body : SegInfo → F → Prog (Coll V) F) (first last : GIter) (stop : MapIt) : MapIt → Nat → F → Prog (Coll V) F
  | _, 0, _ => Prog.undef
  | it, fuel + 1, s => do
    let c ← Prog.get
    if ← Prog.ofOption (c.map.itEq E it stop) then return s
    else
      let i ← Prog.ofOption (splitDeref E c first last it)
      let s ← body i s
      let c ← Prog.get
      let it ← Prog.ofOption (c.map.itNext E it)
      splitFromM body first last stop it fuel s

/-- `move` (805-813) by `generic_copy` (738-752).  The functor is `*res++=std::move(*first)`, and its state
the output iterator. -/
def moveM (Ts : List Ty) (first last : GIter) (f : Mutator V F) (s : F) : Prog (Coll V) F := do
  let c ← Prog.get
  let stop ← Prog.ofOption (splitEnd E c last)
  splitFromM E (visitPiece E Ts f) first last stop first.mapit (c.map.nodes.length + 1) s

/-- The call of `for_each_n_alg` for `n` elements from an iterator on, restituted
(`detail/type_restitution.hpp` 101-117, 125-133), with its result cast to a base iterator
(`detail/functional.hpp` 123-141). -/
def visitN (Ts : List Ty) (f : Mutator V F) (info : TI) (l : LIter) (n : Nat) (s : F) : Prog (Coll V) (LIter × F) := do
  let c ← Prog.get
  let r ← Prog.ofOption (rangeN E c Ts (some info) l n)
  let s ← visit E f (E.tiTy info) r.typed r.first n s
  let c ← Prog.get
  return (← Prog.ofOption (r.at E c n), s)

/-- The loop of `for_each_n` (139-152). -/
def forEachNFromM (Ts : List Ty) (mapend : MapIt) (f : Mutator V F) : MapIt → LIter → Nat → F → Nat → Prog (Coll V) (GIter × F)
  | _, _, _, _, 0 => Prog.undef
  | sit, lbit, n, s, fuel + 1 => do
    let c ← Prog.get
    let i ← Prog.ofOption (c.segInfo E sit)
    let k ← Prog.ofOption (span lbit.pos i.last.pos)
    if n ≤ k then
      let r ← visitN E Ts f i.info lbit n s
      let c ← Prog.get
      return (← Prog.ofOption (c.map.iteratorFrom E r.1 mapend), r.2)
    else
      let r ← visitN E Ts f i.info lbit k s
      let c ← Prog.get
      let sit ← Prog.ofOption (c.map.itNext E sit)
      let i ← Prog.ofOption (c.segInfo E sit)
      forEachNFromM Ts mapend f sit i.first (n - k) r.2 fuel

/-- `for_each_n` (125-154). -/
def forEachNM (Ts : List Ty) (first : GIter) (n : Int) (f : Mutator V F) (s : F) : Prog (Coll V) (GIter × F) := do
  if n ≤ 0 then return (first, s)
  else
    let c ← Prog.get
    forEachNFromM E Ts first.mapend f first.mapit (localBase first) n.toNat s (c.map.nodes.length + 1)

end Algo
end PolyColl
