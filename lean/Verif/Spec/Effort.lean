import Verif.Model.Effort
import Verif.Lemmas.CollErase
/-!
# What traversing and erasing may cost

`reference.qbk` 98 ("The complexity of `empty()` and `size()` is linear on the number of segments of the collection"), 624
("Linear on the number of elements erased plus the distance from the last one to the end of its segment"), 633 (`clear()`:
"Linear").  Of `begin()` and `++` nothing is said apart from the requirements of containers and iterators, by which they take
(amortised) constant time.
-/

/-- The index entries for `n` elements: split segments have one for each element, packed ones have none. -/
def PolyColl.Kind.entries : PolyColl.Kind → Nat → Nat
  | .packed, _ => 0
  | .split, n => n

namespace PolyColl.Spec.State
variable {V : Type}

/-- The number of segments after the one a position is in. -/
def ahead (s : State V) : Pos → Nat
  | none => 0
  | some (t, _) => (s.after t).length

/-- The number of empty segments at the beginning, and one for the segment after them if there is one. -/
def toFirst : State V → Nat
  | [] => 0
  | (_, l) :: s => if l = [] then toFirst s + 1 else 1

/-- The number of elements that follow the element before the place with number `b`, in its segment. -/
def distance (s : State V) (b : Nat) : Nat :=
  match s.typedFlat[b - 1]? with
  | some (t, _) => ((s.typedFlat.drop b).filter fun x => x.1 == t).length
  | none => 0

/-- What is documented for the erasure of the elements with numbers from `a` to `b - 1`. -/
def eraseAllowance (s : State V) (a b : Nat) : Nat := if a < b then (b - a) + s.distance b else 0

end PolyColl.Spec.State

namespace PolyColl.Spec
variable {V : Type}

/-- Going through a collection: elements are passed over (`++it`), erased (`it=c.erase(it)`) or erased up to a later place
(`it=c.erase(it,last)`), and the number of segments looked at is added up.  Other things may happen to other
collections in between. -/
inductive Sweep (E : Env V) (c : Coll V) (w : World) (it : GIter) : Nat → Coll V → World → GIter → Prop
  | start : Sweep E c w it 0 c w it
  | pass {n m : Nat} {c1 : Coll V} {w1 : World} {it1 it2 : GIter} : Sweep E c w it n c1 w1 it1 → it1.segpos ≠ c1.end.segpos →
      c1.map.incrementE E it1 = some (it2, m) → Sweep E c w it (n + m) c1 w1 it2
  | erase {n : Nat} {c1 c2 : Coll V} {w1 w1' w2 : World} {it1 it2 : GIter} {e : Effort} : Sweep E c w it n c1 w1 it1 →
      w1.next ≤ w1'.next → it1.segpos ≠ c1.end.segpos → Coll.eraseE E it1 c1 w1' = .ok (it2, e) c2 w2 →
      Sweep E c w it (n + e.segs) c2 w2 it2
  | eraseTo {n : Nat} {c1 c2 : Coll V} {w1 w1' w2 : World} {it1 it2 last : GIter} {p q : State.Pos} {e : Effort} :
      Sweep E c w it n c1 w1 it1 → w1.next ≤ w1'.next → c1.At E it1 p → c1.At E last q → c1.abs.rank p ≤ c1.abs.rank q →
      Coll.eraseRangeE E it1 last c1 w1' = .ok (it2, e) c2 w2 → Sweep E c w it (n + e.segs) c2 w2 it2

end PolyColl.Spec
