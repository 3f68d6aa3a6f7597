import Verif.Model.Traversal
/-!
# Objects describing a segment (`detail/poly_collection.hpp` 162-336, 507-521)

`segment(info)`, `segment<T>()` and the iterators of `segment_traversal()` hand out objects describing a segment.  Such an object
has one member, an iterator of the map; what it tells about the segment is looked up when it is asked.  A program may keep it.
-/

namespace PolyColl

/-- `const_base_segment_info` (162-194), `base_segment_info` (196-219), `const_segment_info<T>` (222-241) and `segment_info<T>`
(244-262), and the iterators over such objects (265-316): they hold an iterator of the map (193, 240, 269).  Whether it is const,
and T, are not modelled: they decide which programs compile. -/
structure SegRef where
  it : MapIt
  deriving DecidableEq, Repr

namespace Coll
variable {V : Type} (E : Env V)

/-- `segment(info)` (507-515), and `segment<T>()` (517-521) with the `std::type_info` object of T. -/
def segment (t : TI) : Prog (Coll V) SegRef := do
  let it ← forInfo E t
  return ⟨it⟩

/-- The objects met by `for(auto info:c.segment_traversal())` (337-376, 523-524) from a map iterator on; 315 makes the object
from the iterator. -/
def refWalk (c : Coll V) : MapIt → Nat → Option (List SegRef)
  | _, 0 => none
  | it, fuel + 1 =>
    match c.map.itEq E it c.map.end with
    | none => none
    | some true => some []
    | some false =>
      match c.map.itNext E it with
      | some it' => (refWalk c it' fuel).map (⟨it⟩ :: ·)
      | none => none

/-- All objects met by `for(auto info:c.segment_traversal())`. -/
def segRefs (c : Coll V) : Option (List SegRef) := c.refWalk E c.map.begin (c.map.nodes.length + 1)

end Coll

namespace SegRef
variable {V : Type} (E : Env V)

/-- `type_info()` (186), `c` being the collection the segment is in.  Undefined if the iterator held was invalidated. -/
def typeInfo (d : SegRef) (c : Coll V) : Option TI := (c.map.node? E d.it).map fun n => n.key

/-- `begin()` (168-169, 205-206). -/
def begin (d : SegRef) (c : Coll V) : Option LIter := (c.map.node? E d.it).map fun n => ⟨d.it, n.seg.begin⟩

/-- `end()` (170-171, 207-208). -/
def «end» (d : SegRef) (c : Coll V) : Option LIter := (c.map.node? E d.it).map fun n => ⟨d.it, n.seg.end⟩

/-- `begin<T>()` (175-177, 210-211), and `begin()` of `segment_info<T>` (228-229, 253-254), which converts too
(`detail/iterator_impl.hpp` 155-161, 182-192). -/
def beginT (d : SegRef) (c : Coll V) : Option LIter := (d.begin E c).bind (c.toLocal E)

/-- `end<T>()` (178-180, 212-213), and `end()` of `segment_info<T>` (230-231, 255-256). -/
def endT (d : SegRef) (c : Coll V) : Option LIter := (d.end E c).bind (c.toLocal E)

end SegRef
end PolyColl
