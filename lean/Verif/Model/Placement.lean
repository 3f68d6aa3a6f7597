import Verif.Model.Algorithm
/-!
# Addresses

Everywhere else a pointer is a buffer with a place in it, so that pointers into different buffers
are never equal.  In memory a pointer is an address.  Here is where iterators of different segments
may be compared, with the comparison made on addresses: `generic_find` and `search_n` of
`algorithm.hpp`.
-/

namespace PolyColl

/-- Where buffers are in memory: the address of a buffer, the size of its elements and the offset
within each element of what base iterators point to (`detail/stride_iterator.hpp` 116-150: the
`Base` subobject of an element of a packed segment; for the index of a split segment the offset is 0). -/
structure Placement where
  buf : Nat → Nat
  stride : Nat → Nat
  off : Nat → Nat

/-- The address an iterator holds (`detail/stride_iterator.hpp` 136-141). -/
def Placement.addr (P : Placement) (p : Ptr) : Nat := P.buf p.blk + p.off * P.stride p.blk + P.off p.blk

namespace Algo
variable {V : Type} (E : Env V) (P : Placement) {m : Type → Type} [Monad m] {σ B : Type}

/-- The loop of `generic_find` (`algorithm.hpp` 170-176) with `it!=i.end()` decided by the addresses:
`local_iterator_impl` (`detail/iterator_impl.hpp` 138-) is an adaptor and compares what it adapts, a
`stride_iterator` (`detail/stride_iterator.hpp` 136) or a pointer to an entry of the index. -/
def findInAt (c : Coll V) (last : GIter) (alg : Coll.SegInfo → σ → OptionT m (LIter × σ)) :
    List Coll.SegInfo → σ → OptionT m (GIter × σ)
  | [], s => pure (last, s)
  | i :: is, s => do
    let r ← alg i s
    if P.addr r.1.pos ≠ P.addr i.last.pos then return (← defd (c.map.iteratorFrom E r.1 last.mapend), r.2)
    else findInAt c last alg is r.2

/-- `generic_find` (156-177). -/
def genericFindAt (c : Coll V) (first last : GIter) (alg : Coll.SegInfo → σ → OptionT m (LIter × σ)) (s : σ) : OptionT m (GIter × σ) := do
  findInAt E P c last alg (← defd (segmentSplit E c first last)) s

/-- `find_if` (192-197), and `find` (181-186). -/
def findIfAt (c : Coll V) (Ts : List Ty) (first last : GIter) (p : Passed V → m Bool) : OptionT m GIter := do
  return (← genericFindAt E P c first last (lift E c Ts (StdAlg.findIf p)) ()).1

/-- `find_if_not` (203-210). -/
def findIfNotAt (c : Coll V) (Ts : List Ty) (first last : GIter) (p : Passed V → m Bool) : OptionT m GIter := do
  return (← genericFindAt E P c first last (lift E c Ts (StdAlg.findIfNot p)) ()).1

/-- `find_first_of` (214-237). -/
def findFirstOfAt (c : Coll V) (Ts : List Ty) (first last : GIter) (bs : List B) (p : Passed V → B → m Bool) : OptionT m GIter := do
  return (← genericFindAt E P c first last (lift E c Ts (StdAlg.findFirstOf p bs)) ()).1

/-- `adjacent_find` (268-282). -/
def adjacentFindAt (c : Coll V) (Ts : List Ty) (first last : GIter) (p : Passed V → Passed V → m Bool) : OptionT m GIter := do
  return (← genericFindAt E P c first last (adjacentFindAlg E c Ts p none) (false, none)).1

/-- `mismatch` with three iterators (364-375). -/
def mismatch3At (c : Coll V) (Ts : List Ty) (first last : GIter) (bs : List B) (p : Passed V → B → m Bool) : OptionT m (GIter × List B) :=
  genericFindAt E P c first last (mismatchLift E c Ts (mismatch3Alg p)) bs

/-- `mismatch` with four iterators (388-399). -/
def mismatch4At (c : Coll V) (Ts : List Ty) (first last : GIter) (bs : List B) (p : Passed V → B → m Bool) : OptionT m (GIter × List B) :=
  genericFindAt E P c first last (mismatchLift E c Ts (mismatch4Alg p)) bs

/-- The loop of `search_n` (712-721). -/
def searchNInAt (c : Coll V) (Ts : List Ty) (last : GIter) (count : Nat) (p : Passed V → m Bool) :
    List Coll.SegInfo → Bool → Nat → Option LIter → OptionT m GIter
  | [], _, _, _ => pure last
  | i :: is, carry, remain, prev => do
    let r ← defd (range E c Ts i)
    let k ← call (searchNAlg p count r.vals 0 none carry remain)
    let it ← defd (r.at E c k.1)
    if P.addr it.pos ≠ P.addr i.last.pos then
      if k.2.2 = 0 then
        let res ← defd (if k.2.1 then prev else some it)
        defd (c.map.iteratorFrom E res last.mapend)
      else if k.2.1 = false then searchNInAt c Ts last count p is true k.2.2 (some it)
      else searchNInAt c Ts last count p is k.2.1 k.2.2 prev
    else searchNInAt c Ts last count p is k.2.1 k.2.2 prev

/-- `search_n` (692-724). -/
def searchNAt (c : Coll V) (Ts : List Ty) (first last : GIter) (count : Int) (p : Passed V → m Bool) : OptionT m GIter :=
  if count ≤ 0 then pure first
  else do searchNInAt E P c Ts last count.toNat p (← defd (segmentSplit E c first last)) false count.toNat none

end Algo
end PolyColl
