import Verif.Model.Work
import Verif.Lemmas.Segment
/-!
# What the operations on segments may cost

`reference.qbk` 469 ("Linear in the size of the segment if reallocation happens, constant otherwise"), 508, 524, 544, 557
("Amortized constant time plus linear in the distance from the insertion position to the end of the segment"), 624
("Linear on the number of elements erased plus the distance from the last one to the end of its segment"), 639 ("Linear in
the size of the segment").  For `shrink_to_fit` and insertions of ranges nothing is documented.
-/

namespace PolyColl.Spec
open PolyColl.Work

variable {V : Type}

/-- Use as documented: positions are positions of the segment, and what is inserted is not to be found in a vector that is
given up in between. -/
def WorkPre (x : Seg V) : SegOp V → Prop
  | .pushBack src => src.ext = true
  | .emplace n src => n ≤ x.size ∧ src.ext = true
  | .insertBase n src => n ≤ x.size ∧ src.ext = true
  | .insertLocal n src => n ≤ x.size ∧ src.ext = true
  | .insertRangeBase _ n srcs => n ≤ x.size ∧ ∀ src ∈ srcs, src.ext = true
  | .insertRangeLocal _ n srcs => n ≤ x.size ∧ ∀ src ∈ srcs, src.ext = true
  | .insertRangeEnd _ srcs => ∀ src ∈ srcs, src.ext = true
  | .eraseBase n => n < x.size
  | .eraseLocal n => n < x.size
  | .eraseRangeBase a b => a ≤ b ∧ b ≤ x.size
  | .eraseRangeLocal a b => a ≤ b ∧ b ≤ x.size
  | .eraseTillEnd a => a ≤ x.size
  | .eraseFromBegin b => b ≤ x.size
  | .clear => True
  | .reserve _ => True
  | .shrinkToFit => True

/-- The number of elements inserted. -/
def inserted : SegOp V → Nat
  | .pushBack _ => 1
  | .emplace _ _ => 1
  | .insertBase _ _ => 1
  | .insertLocal _ _ => 1
  | .insertRangeBase _ _ srcs => srcs.length
  | .insertRangeLocal _ _ srcs => srcs.length
  | .insertRangeEnd _ srcs => srcs.length
  | _ => 0

/-- The operations that insert something. -/
def Inserts : SegOp V → Bool
  | .pushBack _ | .emplace _ _ | .insertBase _ _ | .insertLocal _ _ => true
  | .insertRangeBase _ _ _ | .insertRangeLocal _ _ _ | .insertRangeEnd _ _ => true
  | _ => false

/-- Insertion of a single-pass range. -/
def SinglePass : SegOp V → Bool
  | .insertRangeBase fwd _ _ | .insertRangeLocal fwd _ _ | .insertRangeEnd fwd _ => !fwd
  | _ => false

/-- The segment, with what is to be inserted and one more, does not exceed a third of `max_size()` of its vectors. -/
def Far (E : Env V) (x : Seg V) (op : SegOp V) : Prop :=
  3 * (x.size + inserted op + 1) ≤ E.maxSize x.ty ∧ (x.kind = .split → 3 * (x.size + inserted op + 1) ≤ E.idxMaxSize)

/-- Vectors grow by half at least, as long as a third of `max_size()` is not exceeded (they double in libstdc++ and libc++,
and grow by half in Microsoft's library). -/
def Geometric (L : StdLib) : Prop := ∀ m s n, 3 * s ≤ m → 3 * s ≤ 2 * L.growCap m s n + 1

/-- Reserving room for `n` elements does not need new memory. -/
def Holds (x : Seg V) (n : Nat) : Bool :=
  match x.be with
  | .packed y => n ≤ y.s.cap
  | .split y => n ≤ y.s.cap && n + 1 ≤ y.i.cap

/-- Allowance for the insertion of `k` elements before position `n`.  In a split segment a single-pass range is inserted
element by element, and a forward range costs the whole segment if there is no room for it. -/
def rangeAllowance (x : Seg V) (fwd : Bool) (n k : Nat) : Nat :=
  match x.kind, fwd with
  | .packed, _ => k + (x.size - n)
  | .split, false => k * (1 + (x.size - n))
  | .split, true => if x.capacity < x.size + k then x.size + k else k + (x.size - n)

/-- What each operation is allowed, up to a constant factor, on average. -/
def allowance (x : Seg V) : SegOp V → Nat
  | .pushBack _ => 1
  | .emplace n _ => 1 + (x.size - n)
  | .insertBase n _ => 1 + (x.size - n)
  | .insertLocal n _ => 1 + (x.size - n)
  | .insertRangeBase fwd n srcs => rangeAllowance x fwd n srcs.length
  | .insertRangeLocal fwd n srcs => rangeAllowance x fwd n srcs.length
  | .insertRangeEnd fwd srcs => rangeAllowance x fwd x.size srcs.length
  | .eraseBase n => 1 + (x.size - (n + 1))
  | .eraseLocal n => 1 + (x.size - (n + 1))
  | .eraseRangeBase a b => (b - a) + (x.size - b)
  | .eraseRangeLocal a b => (b - a) + (x.size - b)
  | .eraseTillEnd a => x.size - a
  | .eraseFromBegin b => b + (x.size - b)
  | .clear => x.size
  | .reserve n => if Holds x n then 0 else x.size + 1
  | .shrinkToFit => x.size + 1

/-- Operations on a segment, used as documented and successful, one after the other.  Other things may happen in
between.  The numbers are the work done and the sum of the allowances. -/
inductive Session (E : Env V) (x : Seg V) (w : World) : List (SegOp V) → Nat → Nat → Seg V → World → Prop
  | nil : Session E x w [] 0 0 x w
  | snoc {ops c a y w1 w2 op u z w3} : Session E x w ops c a y w1 → w1.next ≤ w2.next → WorkPre y op → Far E y op →
      op.run E y w2 = .ok u z w3 → Session E x w (ops ++ [op]) (c + work E op y) (a + allowance y op) z w3

end PolyColl.Spec
