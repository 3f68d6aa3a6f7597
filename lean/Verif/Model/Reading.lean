import Verif.Model.Traversal
import Verif.Model.Writing
/-!
# Local iterators as random access iterators, and operations of a const collection

Positions of local iterators are pointers: to elements (`local_iterator<T>`, and
`local_base_iterator` of a `base_collection`) or to entries of the index (`local_base_iterator` of the
other collections).  That the iterators of a `base_collection` move by whole elements although
they hold the address of a subobject is the matter of `Model/Stride`.
-/

namespace PolyColl
namespace Coll
variable {V : Type} (E : Env V)

/-- The buffer in which the local iterators of a segment move. -/
def Sort'.buffer : Sort' → Seg V → Nat
  | .base, s => s.begin.blk
  | .terminal, s => s.be.store.blk

/-- `p` points into the buffer of the segment, one past its last element at most. -/
def Sort'.within (o : Sort') (s : Seg V) (p : Ptr) : Bool := p.blk = o.buffer s && p.off ≤ s.size

/-- `it+=n` for a local iterator: `boost::iterator_adaptor` over the wrapped iterator
(`detail/iterator_impl.hpp` 133-138), which is a pointer, a `stride_iterator`
(`detail/stride_iterator.hpp` 139-144), or a wrapper of a pointer into the index
(`detail/any_iterator.hpp` 31-36, `detail/callable_wrapper_iterator.hpp` 27-35).  Undefined if that leaves the
segment's buffer. -/
def advance (c : Coll V) (o : Sort') (l : LIter) (n : Int) : Option LIter :=
  let q : Int := l.pos.off + n
  if 0 ≤ q ∧ c.map.nodes.any (fun x => o.within x.seg l.pos && o.within x.seg ⟨l.pos.blk, q.toNat⟩) then
    some ⟨l.mapit, ⟨l.pos.blk, q.toNat⟩⟩
  else none

/-- `b-a` for local iterators (as above; `distance_to`).  Undefined if they are not iterators into one buffer. -/
def difference (c : Coll V) (o : Sort') (a b : LIter) : Option Int :=
  if c.map.nodes.any (fun x => o.within x.seg a.pos && o.within x.seg b.pos) then some (b.pos.off - a.pos.off) else none

/-- `a<b`: `b-a>0`, as `boost::iterator_facade` defines it. -/
def less (c : Coll V) (o : Sort') (a b : LIter) : Option Bool :=
  (c.difference o a b).map fun d => decide (0 < d)

/-- `*it` for the two sorts of local iterators. -/
def derefAt (c : Coll V) : Sort' → LIter → Option V
  | .base, l => c.map.deref l.pos
  | .terminal, l => c.derefLocal l.pos

/-- `it[n]` (`detail/iterator_impl.hpp` 210-212). -/
def subscript (c : Coll V) (o : Sort') (l : LIter) (n : Int) : Option V :=
  (c.advance o l n).bind (c.derefAt o)

/-- Operations on a `const` collection, and on its iterators, with the type of their result.  The
non-const overloads of `begin`, `end` and `segment` look types up through the const ones
(`detail/poly_collection.hpp` 1035-1039), so that they are the same. -/
inductive ReadOp (V : Type) : Type → Type where
  | isRegistered (t : TI) : ReadOp V Bool
  | empty : ReadOp V Bool
  | size : ReadOp V Nat
  | emptyOf (t : TI) : ReadOp V Bool
  | sizeOf (t : TI) : ReadOp V Nat
  | maxSizeOf (t : TI) : ReadOp V Nat
  | capacityOf (t : TI) : ReadOp V Nat
  | allocator : ReadOp V Alloc
  | begin : ReadOp V GIter
  | «end» : ReadOp V GIter
  | beginOf (t : TI) : ReadOp V LIter
  | endOf (t : TI) : ReadOp V LIter
  | segments : ReadOp V (List SegInfo)
  | next (it : GIter) : ReadOp V GIter
  | deref (it : GIter) : ReadOp V V
  | derefAt (o : Sort') (l : LIter) : ReadOp V V
  | toLocal (l : LIter) : ReadOp V LIter
  | toBase (l : LIter) : ReadOp V LIter
  | advance (o : Sort') (l : LIter) (n : Int) : ReadOp V LIter
  | difference (o : Sort') (a b : LIter) : ReadOp V Int
  | less (o : Sort') (a b : LIter) : ReadOp V Bool
  | equal (d : Coll V) : ReadOp V Bool
  | notEqual (d : Coll V) : ReadOp V Bool

/-- What the operations do (`detail/poly_collection.hpp` 404, 424-583, 1137-1159;
`detail/iterator_impl.hpp` 97-117, 182-227). -/
def ReadOp.run : {α : Type} → ReadOp V α → Prog (Coll V) α
  | _, .isRegistered t => do return (← Prog.get).isRegistered E t
  | _, .empty => do return (← Prog.get).empty
  | _, .size => do return (← Prog.get).size
  | _, .emptyOf t => query E Seg.empty t
  | _, .sizeOf t => query E Seg.size t
  | _, .maxSizeOf t => query E (Seg.maxSize E) t
  | _, .capacityOf t => query E Seg.capacity t
  | _, .allocator => do return (← Prog.get).map.al
  | _, .begin => do Prog.ofOption ((← Prog.get).begin E)
  | _, .end => do return (← Prog.get).end
  | _, .beginOf t => beginInfo E t
  | _, .endOf t => endInfo E t
  | _, .segments => do Prog.ofOption ((← Prog.get).segTraversal E)
  | _, .next it => do Prog.ofOption ((← Prog.get).map.increment E it)
  | _, .deref it => do Prog.ofOption ((← Prog.get).map.deref it.segpos)
  | _, .derefAt o l => do Prog.ofOption ((← Prog.get).derefAt o l)
  | _, .toLocal l => do Prog.ofOption ((← Prog.get).toLocal E l)
  | _, .toBase l => do Prog.ofOption ((← Prog.get).toBase E l)
  | _, .advance o l n => do Prog.ofOption ((← Prog.get).advance o l n)
  | _, .difference o a b => do Prog.ofOption ((← Prog.get).difference o a b)
  | _, .less o a b => do Prog.ofOption ((← Prog.get).less o a b)
  | _, .equal d => do Coll.equal E (← Prog.get) d
  | _, .notEqual d => do Coll.notEqual E (← Prog.get) d

end Coll
end PolyColl
