import Verif.Model.Collection
/-!
# Ranges given by iterators (`detail/poly_collection.hpp` 70-92, 390-397, 719-742, 766-798)

Which of the two versions of `insert(first,last)` is used, and as what its block version treats the segment, is decided by
`std::iterator_traits<InputIterator>::value_type`; which segment it is, is decided by the type of `*first`.  In
`Model/Collection.lean` the two types are the same one, as they are for most iterators.  Here they are separate: iterators over
`std::vector<bool>`, views that make their elements on the fly and the like refer to objects that are only converted to the value
type.
-/

namespace PolyColl

/-- An iterator type: `std::iterator_traits<I>::value_type`, whether that is terminal for the model (83-86), and whether the
iterators are forward iterators.  What `*i` is, is told by the arguments of the operations. -/
structure IterTy where
  value : TI
  term : Bool
  fwd : Bool
  deriving DecidableEq, Repr

namespace Coll
variable {V : Type} (E : Env V)

/-- `insert(first,last)`, value type terminal (729-742): `get_map_iterator_for(*first)` for the object `*first`, then
`segment::insert(first,last)` (`detail/segment.hpp` 201-207), which downcasts the segment to the implementation for the value type.
The objects are to be of the type of the first. -/
def insertRangeAs (I : IterTy) : List (Arg V) → Prog (Coll V) Unit
  | [] => return ()
  | a :: as => do
    let it ← forArg E a
    let _ ← onMap (TMap.onSeg E it (downcast (E.tiTy I.value) (Seg.insertRangeEnd E I.fwd ((a :: as).map (·.src)))))
    return ()

/-- `insert(first,last)`: 719-727 or 729-742. -/
def insertIter (I : IterTy) (as : List (Arg V)) : Prog (Coll V) Unit :=
  if I.term then insertRangeAs E I as else insertRange E as

/-- `insert(hint,first,last)`, value type terminal (783-798); `segment::insert(hint,first,last)` (`detail/segment.hpp` 209-224)
downcasts in the same way. -/
def insertHintRangeAs (hint : GIter) (I : IterTy) : List (Arg V) → Prog (Coll V) Unit
  | [] => return ()
  | a :: as => do
    let it ← forArg E a
    let c ← Prog.get
    let same ← Prog.ofOption (c.map.itEq E hint.mapit it)
    if same then
      let _ ← onMap (TMap.onSeg E it (downcast (E.tiTy I.value) (Seg.insertRangeBase E I.fwd hint.segpos ((a :: as).map (·.src)))))
      return ()
    else
      let _ ← onMap (TMap.onSeg E it (downcast (E.tiTy I.value) (Seg.insertRangeEnd E I.fwd ((a :: as).map (·.src)))))
      return ()

/-- `insert(hint,first,last)`: 766-781 or 783-798. -/
def insertHintIter (hint : GIter) (I : IterTy) (as : List (Arg V)) : Prog (Coll V) Unit :=
  if I.term then insertHintRangeAs E hint I as
  else do
    let _ ← insertHintRange E hint as
    return ()

/-- `poly_collection(first,last,al)` (390-397). -/
def fromIter {X : Type} (k : Kind) (al : Alloc) (I : IterTy) (as : List (Arg V)) : Prog X (Coll V) :=
  Prog.locally (empty' k al) (insertIter E I as) fun _ c => c

end Coll
end PolyColl
