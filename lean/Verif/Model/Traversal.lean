import Verif.Model.Collection
/-!
# Loops over a collection written by its users

Loops of the form `for(auto it=first;it!=last;++it)` with global, local and segment iterators.
`fuel` bounds the number of rounds; `none` stands for undefined behaviour or for running out of
fuel, so a result different from `none` says that the loop ended in fewer rounds without
undefined behaviour.
-/

namespace PolyColl
namespace Coll
variable {V : Type} (E : Env V)

/-- The elements met going from `it` to `last`: comparison (`detail/iterator_impl.hpp` 99-100),
dereference (97-98), increment (101-107). -/
def walk (c : Coll V) (last : GIter) : GIter → Nat → Option (List V)
  | _, 0 => none
  | it, fuel + 1 =>
    if it.segpos = last.segpos then some []
    else
      match c.map.deref it.segpos, c.map.increment E it with
      | some v, some it' => (walk c last it' fuel).map (v :: ·)
      | _, _ => none

/-- What `insert(first,last)` reads of the elements of another collection's range
(`detail/poly_collection.hpp` 744-751): `subtypeid(*first)`, `first.segment()`, `*first`.  The
dynamic type of an element is the type of its segment; `sub` gives the `std::type_info` object
that `typeid` yields for it. -/
def collect (sub : Ty → TI) (c : Coll V) (last : GIter) : GIter → Nat → Option (List (Item V))
  | _, 0 => none
  | it, fuel + 1 =>
    if it.segpos = last.segpos then some []
    else
      match c.map.node? E it.mapit, c.map.deref it.segpos, c.map.increment E it with
      | some n, some v, some it' => (collect sub c last it' fuel).map (⟨sub n.seg.ty, n.seg, v⟩ :: ·)
      | _, _, _ => none

/-- `insert(first,last)` from another collection `src` (744-751). -/
def insertColl (sub : Ty → TI) (src : Coll V) (first last : GIter) : Prog (Coll V) Unit := do
  let items ← Prog.ofOption (src.collect E sub last first (src.size + 1))
  insertFrom E items

/-- `insert(hint,first,last)` from another collection `src` (800-812). -/
def insertHintColl (sub : Ty → TI) (hint : GIter) (src : Coll V) (first last : GIter) : Prog (Coll V) GIter := do
  let items ← Prog.ofOption (src.collect E sub last first (src.size + 1))
  insertHintFrom E hint items

/-- The elements between two local base iterators of a segment: comparison, dereference and
increment of the underlying base iterator. -/
def localWalk (s : Seg V) (last : Ptr) : Ptr → Nat → Option (List V)
  | _, 0 => none
  | p, fuel + 1 =>
    if p = last then some []
    else
      match s.be.derefBase p with
      | some v => (localWalk s last ⟨p.blk, p.off + 1⟩ fuel).map (v :: ·)
      | none => none

/-- The values of a range of local iterators of another collection, with the segment they are in. -/
def collectLocal (c : Coll V) (first last : LIter) : Option (Seg V × List V) :=
  match c.map.node? E first.mapit with
  | none => none
  | some n => (localWalk n.seg last.pos first.pos (n.seg.size + 1)).map fun vs => (n.seg, vs)

/-- `insert(first,last)` with local base iterators of another collection (753-764). -/
def insertLocalColl (sub : Ty → TI) (src : Coll V) (first last : LIter) : Prog (Coll V) Unit := do
  let r ← Prog.ofOption (src.collectLocal E first last)
  insertFromLocal E (sub r.1.ty) r.1 r.2

/-- `insert(hint,first,last)` with local base iterators of another collection (814-835). -/
def insertHintLocalColl (sub : Ty → TI) (hint : GIter) (src : Coll V) (first last : LIter) : Prog (Coll V) GIter := do
  let r ← Prog.ofOption (src.collectLocal E first last)
  insertHintFromLocal E hint (sub r.1.ty) r.1 r.2

/-- `poly_collection(first,last,al)` (390-397) with global iterators of another collection. -/
def fromColl {X : Type} (sub : Ty → TI) (k : Kind) (al : Alloc) (src : Coll V) (first last : GIter) : Prog X (Coll V) :=
  Prog.locally (empty' k al) (insertColl E sub src first last) fun _ c => c

/-- `poly_collection(first,last,al)` (390-397) with local base iterators of another collection. -/
def fromLocalColl {X : Type} (sub : Ty → TI) (k : Kind) (al : Alloc) (src : Coll V) (first last : LIter) : Prog X (Coll V) :=
  Prog.locally (empty' k al) (insertLocalColl E sub src first last) fun _ c => c

/-- Access to the element a `local_iterator` points to: the iterator wraps a `T*`
(`detail/iterator_impl.hpp` 130-140), so only the address is used. -/
def derefLocal (c : Coll V) (p : Ptr) : Option V := c.map.nodes.findSome? (fun n => n.seg.be.derefLocal p)

/-- A `base_segment_info` (162-219): what `type_info`, `begin` and `end` return. -/
structure SegInfo where
  info : TI
  first : LIter
  last : LIter
  deriving DecidableEq, Repr

/-- The segment info for a map iterator. -/
def segInfo (c : Coll V) (it : MapIt) : Option SegInfo :=
  (c.map.node? E it).map fun n => ⟨n.key, ⟨it, n.seg.begin⟩, ⟨it, n.seg.end⟩⟩

/-- `for(auto info:c.segment_traversal())` (337-376, 523-524) from a map iterator on. -/
def segWalk (c : Coll V) : MapIt → Nat → Option (List SegInfo)
  | _, 0 => none
  | it, fuel + 1 =>
    match c.map.itEq E it c.map.end with
    | none => none
    | some true => some []
    | some false =>
      match c.segInfo E it, c.map.itNext E it with
      | some i, some it' => (segWalk c it' fuel).map (i :: ·)
      | _, _ => none

/-- `segment_traversal()`, all of it. -/
def segTraversal (c : Coll V) : Option (List SegInfo) := c.segWalk E c.map.begin (c.map.nodes.length + 1)

end Coll
end PolyColl
