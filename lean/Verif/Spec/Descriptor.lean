import Verif.Model.Descriptor
import Verif.Lemmas.Stays
/-! # What is expected of objects describing a segment -/

namespace PolyColl

/-- C++ equality of local iterators (they are adapted addresses), and the segment they are in. -/
def LIter.Same (l l' : LIter) : Prop := l.pos = l'.pos ∧ l.mapit.node = l'.mapit.node

/-- `d` describes the segment of `c` for type `u` (`reference.qbk` 215-272): it tells that type, and the same positions as `c`
when asked for the begin and the end of that segment. -/
structure SegRef.InStep {V : Type} (E : Env V) (c : Coll V) (d : SegRef) (u : Ty) : Prop where
  info : ∃ t, d.typeInfo E c = some t ∧ E.tiTy t = u
  first : ∀ t, E.tiTy t = u → ∀ w, ∃ l l', d.begin E c = some l ∧ Coll.beginInfo E t c w = .ok l' c w ∧ l.Same l' ∧
    (d.beginT E c).map (·.pos) = (c.toLocal E l').map (·.pos)
  last : ∀ t, E.tiTy t = u → ∀ w, ∃ l l', d.end E c = some l ∧ Coll.endInfo E t c w = .ok l' c w ∧ l.Same l' ∧
    (d.endT E c).map (·.pos) = (c.toLocal E l').map (·.pos)

/-- Nothing may be asked of `d` when the segments are those of `c`. -/
def SegRef.Dead {V : Type} (E : Env V) (c : Coll V) (d : SegRef) : Prop :=
  d.typeInfo E c = none ∧ d.begin E c = none ∧ d.end E c = none ∧ d.beginT E c = none ∧ d.endT E c = none

/-- Where the segments of collection `x` are after an operation: there, if it is not constructed, assigned, moved from or
swapped, and else in the collection they are handed over to, which the operation may do or not. -/
inductive Op.Carries {V : Type} (E : Env V) (s : Sys V) : Op V → Nat → Nat → Prop
  | stay {op x} : ¬ op.Replaces x → Carries E s op x x
  | swap {i j} : Carries E s (.swap i j) i j
  | swap' {i j} : Carries E s (.swap i j) j i
  | move {i j} : Carries E s (.move i j) j i
  | moveAl {i j} : Carries E s (.moveAl i j (s j).map.al) j i
  | moveAssign {i j} : E.pocma = true ∨ (s i).map.al = (s j).map.al → Carries E s (.moveAssign i j) j i

/-- What a program does from one state to another, every operation returning or throwing, with collection `x` at first and
`y` at the end the one that has the segments of interest. -/
inductive Path {V : Type} (E : Env V) (k : Kind) (sub : Ty → TI) : Sys V → World → Nat → Sys V → World → Nat → Prop
  | nil {s w x} : Path E k sub s w x s w x
  | ok {s w x s1 w1 y s2 w2 z} (op : Op V) : Path E k sub s w x s1 w1 y → (∀ a ∈ op.args, Coll.Arg.OK E a) →
      op.run E k sub s1 w1 = .ok () s2 w2 → op.Carries E s1 y z → Path E k sub s w x s2 w2 z
  | exc {s w x s1 w1 y s2 w2 z e} (op : Op V) : Path E k sub s w x s1 w1 y → (∀ a ∈ op.args, Coll.Arg.OK E a) →
      op.run E k sub s1 w1 = .exc e s2 w2 → op.Carries E s1 y z → Path E k sub s w x s2 w2 z

end PolyColl
