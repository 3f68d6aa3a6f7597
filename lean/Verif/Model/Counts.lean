import Verif.Model.Algorithm
/-!
# Numbers of any integer type given to algorithms

`for_each_n`, `search_n`, `copy_n` and `sample` take a number of any integer type.  In
`Model/Algorithm.lean` such a number is an integer; here are the same functions with the conversions that the
types bring about.

An integer type is given by its conversion rank and whether it is signed.  `bool` and the character types with names of
their own are left out.  Conversion to a signed type is modulo a power of two, as it is with all compilers and
by the standard since C++20; overflow in arithmetic of signed types is undefined.
-/

namespace PolyColl

/-- A standard or extended integer type. -/
structure IntTy where
  rank : Nat
  signed : Bool
  deriving DecidableEq, Repr

/-- What depends on the platform: the widths of the integer types by rank (0 for `char`, 1 for `short`, 2 for `int`,
3 for `long`, 4 for `long long`), and the rank of `std::ptrdiff_t`. -/
structure Abi where
  width : Nat → Nat
  mono : ∀ {r s}, r ≤ s → width r ≤ width s
  pos : 0 < width 0
  wide : 16 ≤ width 2
  diff : Nat

namespace Abi
variable (A : Abi)

/-- `int`. -/
def int : IntTy := ⟨2, true⟩

/-- `std::ptrdiff_t`. -/
def ptrdiff : IntTy := ⟨A.diff, true⟩

/-- The smallest value of a type. -/
def lo (t : IntTy) : Int := if t.signed then -2 ^ (A.width t.rank - 1) else 0

/-- The largest value of a type. -/
def hi (t : IntTy) : Int := if t.signed then 2 ^ (A.width t.rank - 1) - 1 else 2 ^ A.width t.rank - 1

/-- The values of a type. -/
def Is (t : IntTy) (z : Int) : Prop := A.lo t ≤ z ∧ z ≤ A.hi t

instance (t : IntTy) (z : Int) : Decidable (A.Is t z) := by unfold Is; infer_instance

/-- Conversion to a type. -/
def conv (t : IntTy) (z : Int) : Int :=
  if t.signed then (z + 2 ^ (A.width t.rank - 1)) % 2 ^ A.width t.rank - 2 ^ (A.width t.rank - 1) else z % 2 ^ A.width t.rank

/-- Integral promotion: to `int` if that has all values, otherwise to `unsigned int`. -/
def promote (t : IntTy) : IntTy :=
  if t.rank < 2 then ⟨2, t.signed || decide (A.width t.rank < A.width 2)⟩ else t

/-- The usual arithmetic conversions for a signed and an unsigned type. -/
def mixed (s u : Nat) : IntTy :=
  if s ≤ u then ⟨u, false⟩ else if A.width u < A.width s then ⟨s, true⟩ else ⟨s, false⟩

/-- The usual arithmetic conversions: the type in which numbers of two types are added or compared. -/
def common (t u : IntTy) : IntTy :=
  match A.promote t, A.promote u with
  | ⟨r, true⟩, ⟨s, true⟩ => ⟨max r s, true⟩
  | ⟨r, false⟩, ⟨s, false⟩ => ⟨max r s, false⟩
  | ⟨r, true⟩, ⟨s, false⟩ => A.mixed r s
  | ⟨r, false⟩, ⟨s, true⟩ => A.mixed s r

/-- `a<=b` for numbers of types `t` and `u`. -/
def le (t u : IntTy) (a b : Int) : Bool := decide (A.conv (A.common t u) a ≤ A.conv (A.common t u) b)

/-- `a==b`. -/
def eq (t u : IntTy) (a b : Int) : Bool := decide (A.conv (A.common t u) a = A.conv (A.common t u) b)

/-- A value computed in a type: undefined if a signed type does not have it. -/
def fit (t : IntTy) (z : Int) : Option Int := if t.signed then if A.Is t z then some z else none else some (A.conv t z)

/-- `a-=b`: the difference is computed in the common type and converted back. -/
def subFrom (t u : IntTy) (a b : Int) : Option Int :=
  (A.fit (A.common t u) (A.conv (A.common t u) a - A.conv (A.common t u) b)).map (A.conv t)

/-- `--a`. -/
def dec (t : IntTy) (a : Int) : Option Int := A.subFrom t int a 1

/-- The difference of iterators: undefined if it is not a value of `std::ptrdiff_t`. -/
def difference (d : Option Nat) : Option Nat := d.bind fun d => if A.Is A.ptrdiff d then some d else none

end Abi

namespace Algo
variable {V : Type} (A : Abi) (t : IntTy) (E : Env V) {m : Type → Type} [Monad m] {O : Type}
open Abi (int)

/-- The loop of `for_each_n` (139-152 of algorithm.hpp) with `n` of type `t`. -/
def forEachNFromT {F : Type} (c : Coll V) (Ts : List Ty) (mapend : MapIt) (f : F → Passed V → m F) :
    MapIt → LIter → Int → F → Nat → OptionT m (GIter × F)
  | _, _, _, _, 0 => failure
  | sit, lbit, n, s, fuel + 1 => do
    let i ← defd (c.segInfo E sit)
    let k ← defd (A.difference (span lbit.pos i.last.pos))
    if A.le t A.ptrdiff n k then
      let r ← defd (rangeN E c Ts (some i.info) lbit n.toNat)
      let s ← call (StdAlg.forEach f r.vals s)
      let it ← defd (r.at E c n.toNat)
      return (← defd (c.map.iteratorFrom E it mapend), s)
    else
      let r ← defd (rangeN E c Ts (some i.info) lbit k)
      let s ← call (StdAlg.forEach f r.vals s)
      let n ← defd (A.subFrom t A.ptrdiff n k)
      let sit ← defd (c.map.itNext E sit)
      let i' ← defd (c.segInfo E sit)
      forEachNFromT c Ts mapend f sit i'.first n s fuel

/-- `for_each_n` (125-154). -/
def forEachNT {F : Type} (c : Coll V) (Ts : List Ty) (first : GIter) (n : Int) (f : F → Passed V → m F) (s : F) : OptionT m (GIter × F) :=
  if A.le t int n 0 then pure (first, s)
  else forEachNFromT A t E c Ts first.mapend f first.mapit (localBase first) n s (c.map.nodes.length + 1)

/-- `search_n_alg` (670-690) on the elements of one piece, with `count` and `remain` of type `t`. -/
def searchNAlgT (p : Passed V → m Bool) (count : Int) : List (Passed V) → Nat → Option Nat → Bool → Int → OptionT m (Nat × Bool × Int)
  | [], n, none, carry, remain => pure (n, carry, remain)
  | [], _, some res, carry, remain => pure (res, carry, remain)
  | a :: l, n, res, carry, remain => do
    if ← call (p a) then
      let res := res.getD n
      let remain ← defd (A.dec t remain)
      if A.eq t int remain 0 then pure (res, carry, remain)
      else searchNAlgT p count l (n + 1) (some res) carry remain
    else searchNAlgT p count l (n + 1) none false count

/-- The loop of `search_n` (712-721). -/
def searchNInT (c : Coll V) (Ts : List Ty) (last : GIter) (count : Int) (p : Passed V → m Bool) :
    List Coll.SegInfo → Bool → Int → Option LIter → OptionT m GIter
  | [], _, _, _ => pure last
  | i :: is, carry, remain, prev => do
    let r ← defd (range E c Ts i)
    let k ← searchNAlgT A t p count r.vals 0 none carry remain
    let it ← defd (r.at E c k.1)
    if it.pos ≠ i.last.pos then
      if A.eq t int k.2.2 0 then
        let res ← defd (if k.2.1 then prev else some it)
        defd (c.map.iteratorFrom E res last.mapend)
      else if k.2.1 = false then searchNInT c Ts last count p is true k.2.2 (some it)
      else searchNInT c Ts last count p is k.2.1 k.2.2 prev
    else searchNInT c Ts last count p is k.2.1 k.2.2 prev

/-- `search_n` (692-724). -/
def searchNT (c : Coll V) (Ts : List Ty) (first last : GIter) (count : Int) (p : Passed V → m Bool) : OptionT m GIter :=
  if A.le t int count 0 then pure first
  else do searchNInT A t E c Ts last count p (← defd (segmentSplit E c first last)) false count none

/-- The loop of `copy_n` (780-787). -/
def copyNFromT (c : Coll V) (Ts : List Ty) (out : O → Passed V → m O) : MapIt → LIter → Int → O → Nat → OptionT m O
  | _, _, _, _, 0 => failure
  | sit, lbit, count, o, fuel + 1 => do
    let i ← defd (c.segInfo E sit)
    let k ← defd (A.difference (span lbit.pos i.last.pos))
    let n := min count k
    let r ← defd (rangeN E c Ts (some i.info) lbit n.toNat)
    let o ← call (StdAlg.copy out r.vals o)
    let count ← defd (A.subFrom t t count n)
    if A.eq t int count 0 then pure o
    else
      let sit ← defd (c.map.itNext E sit)
      let i' ← defd (c.segInfo E sit)
      copyNFromT c Ts out sit i'.first count o fuel

/-- `copy_n` (768-789) as far as it can be instantiated: `(std::min)(count,sit->end()-lbit)` (781) has one template
parameter for the types of both arguments, and deduction fails if they are not the same. -/
def copyNT (c : Coll V) (Ts : List Ty) (first : GIter) (n : Int) (out : O → Passed V → m O) (o : O) : Option (OptionT m O) :=
  if t = A.ptrdiff then
    some (if A.le t int n 0 then pure o
      else copyNFromT A t E c Ts out first.mapit (localBase first) n o (c.map.nodes.length + 1))
  else none

/-- `sample_alg` (1016-1033) on the elements of one piece, with `n` and `m` (`k` here) of type `t`.  A
`std::uniform_int_distribution<Distance>(0,k)` must not be constructed if `k` is negative. -/
def sampleAlgT (out : O → Passed V → m O) (rnd : (j : Nat) → m (Fin (j + 1))) : List (Passed V) → O → Int → Int → OptionT m (O × Int × Int)
  | [], o, n, k => pure (o, n, k)
  | a :: l, o, n, k =>
    if A.eq t int n 0 then pure (o, n, k)
    else do
      let k ← defd (A.dec t k)
      if k < 0 then failure
      else
        let r ← call (rnd k.toNat)
        if (r.val : Int) < n then
          let o ← call (out o a)
          let n ← defd (A.dec t n)
          sampleAlgT out rnd l o n k
        else sampleAlgT out rnd l o n k

/-- The loop of `sample` (1050-1054). -/
def sampleInT (c : Coll V) (Ts : List Ty) (out : O → Passed V → m O) (rnd : (j : Nat) → m (Fin (j + 1))) :
    List Coll.SegInfo → O → Int → Int → OptionT m O
  | [], o, _, _ => pure o
  | i :: is, o, n, k => do
    let r ← defd (range E c Ts i)
    let x ← sampleAlgT A t out rnd r.vals o n k
    if A.eq t int x.2.1 0 then pure x.1 else sampleInT c Ts out rnd is x.1 x.2.1 x.2.2

/-- `sample` (1035-1056): the distance is converted to the type of `n`. -/
def sampleT (c : Coll V) (Ts : List Ty) (first last : GIter) (out : O → Passed V → m O) (o : O) (n : Int)
    (rnd : (j : Nat) → m (Fin (j + 1))) : OptionT m O := do
  let d ← defd (A.difference (fastDistance E c first last))
  let k := A.conv t d
  sampleInT A t E c Ts out rnd (← defd (segmentSplit E c first last)) o (min n k) k

end Algo
end PolyColl
