import Verif.Model.Traversal
import Verif.Spec.Std
/-!
# The algorithms (`algorithm.hpp`, `detail/segment_split.hpp`, `detail/type_restitution.hpp`)

An algorithm is a computation in `OptionT m`: functors, output iterators and random number
generators live in any monad `m`, and `none` stands for undefined behaviour (dereferencing or
converting an iterator that may not be, or using an invalidated map iterator).

Simplifications:
* Functors do not change the structure of the collection.  They may change the elements; what
  they are given is then to be read as the identity of the element and not as its value.
* Functors are called through one and the same object: a state they have is in `m`.  (The code
  copies them for each segment, as the standard library is free to do.)  For `for_each` and
  `for_each_n`, where the copies are avoided ("note the &"), the state of the function object is
  passed on explicitly.
* An iterator into a second range is given by the list of the elements from there on.
* Algorithms called for one segment only and not defined in `algorithm.hpp` are those of
  `Spec/Std.lean`.
* Overloads without a predicate call the ones with `transparent_equal_to`; only the latter are
  modelled.  Likewise `find`, `count`, `replace_copy` and `remove_copy` are `find_if`, … with the
  comparison as predicate.
-/

namespace PolyColl

/-- What a functor is given for an element: the element, of type `ty`, as a `T&` for the type
itself (`typed`) or as a `value_type&`. -/
structure Passed (V : Type) where
  ty : Ty
  val : V
  typed : Bool
  deriving DecidableEq, Repr

namespace Algo
variable {V : Type} (E : Env V) {m : Type → Type} [Monad m] {σ B O W : Type}

/-- A step that may be undefined. -/
def defd {α : Type} (o : Option α) : OptionT m α := OptionT.mk (pure o)

/-- A call of a functor. -/
def call {α : Type} (x : m α) : OptionT m α := OptionT.mk (some <$> x)

/-! ### Ranges cut into segments (`detail/segment_split.hpp`) -/

/-- `local_base_iterator_from` (`detail/iterator_traits.hpp` 93-100). -/
def localBase (it : GIter) : LIter := ⟨it.mapit, it.segpos⟩

/-- `segment_splitter::end` (`detail/segment_split.hpp` 90-95). -/
def splitEnd (c : Coll V) (last : GIter) : Option MapIt :=
  match c.map.itEq E last.mapit last.mapend with
  | none => none
  | some true => some last.mapit
  | some false => c.map.itNext E last.mapit

/-- `segment_splitter::iterator::dereference` (65-74). -/
def splitDeref (c : Coll V) (first last : GIter) (it : MapIt) : Option Coll.SegInfo :=
  match c.segInfo E it, c.map.itEq E it first.mapit, c.map.itEq E it last.mapit with
  | some i, some a, some b => some ⟨i.info, if a then localBase first else i.first, if b then localBase last else i.last⟩
  | _, _, _ => none

/-- The loop over a `segment_splitter`: comparison and increment (76-77) up to `stop`. -/
def splitFrom (c : Coll V) (first last : GIter) (stop : MapIt) : MapIt → Nat → Option (List Coll.SegInfo)
  | _, 0 => none
  | it, fuel + 1 =>
    match c.map.itEq E it stop with
    | none => none
    | some true => some []
    | some false =>
      match splitDeref E c first last it, c.map.itNext E it with
      | some i, some it' => (splitFrom c first last stop it' fuel).map (i :: ·)
      | _, _ => none

/-- `for(auto i:segment_split(first,last))` (88-95, 102-108): the pieces met. -/
def segmentSplit (c : Coll V) (first last : GIter) : Option (List Coll.SegInfo) :=
  match splitEnd E c last with
  | none => none
  | some stop => splitFrom E c first last stop first.mapit (c.map.nodes.length + 1)

/-- The inner loop of `for_each_segment` (127-132): the pieces up to the segment of `last`, with
the map iterator reached. -/
def eachFrom (c : Coll V) (slast : MapIt) : MapIt → LIter → Nat → Option (List Coll.SegInfo × MapIt)
  | _, _, 0 => none
  | sfirst, lbfirst, fuel + 1 =>
    match c.segInfo E sfirst, c.map.itNext E sfirst with
    | some i, some sfirst' =>
      match c.map.itEq E sfirst' slast with
      | none => none
      | some true => some ([⟨i.info, lbfirst, i.last⟩], sfirst')
      | some false =>
        match c.segInfo E sfirst' with
        | none => none
        | some i' => (eachFrom c slast sfirst' i'.first fuel).map fun r => (⟨i.info, lbfirst, i.last⟩ :: r.1, r.2)
    | _, _ => none

/-- `for_each_segment` (113-138): the pieces the function is called with. -/
def eachSegment (c : Coll V) (first last : GIter) : Option (List Coll.SegInfo) :=
  match c.map.itEq E first.mapit last.mapit with
  | none => none
  | some false =>
    match eachFrom E c last.mapit first.mapit (localBase first) (c.map.nodes.length + 1) with
    | none => none
    | some (l, sfirst) =>
      match c.map.itEq E sfirst last.mapend with
      | none => none
      | some true => some l
      | some false =>
        match c.segInfo E sfirst with
        | none => none
        | some i => some (l ++ [⟨i.info, i.first, localBase last⟩])
  | some true =>
    match c.map.itEq E first.mapit last.mapend with
    | none => none
    | some true => some []
    | some false =>
      match c.segInfo E first.mapit with
      | none => none
      | some i => some [⟨i.info, localBase first, localBase last⟩]

/-! ### Type restitution (`detail/type_restitution.hpp`) -/

/-- The type a piece with the given `type_info` is restituted to: the first of the list that
compares equal (47-59, 67-72 for ranges; 101-117, 125-133 for iterators).  `none` as `type_info`
stands for `typeid(void)`, of which there are no elements. -/
def restitute : List Ty → Option TI → Option Ty
  | [], _ => none
  | _ :: Ts, none => restitute Ts none
  | T :: Ts, some i => if E.tiTy i = T then some T else restitute Ts (some i)

/-- The distance from one iterator into a buffer to another; undefined if that is not reached by
increments. -/
def span (a b : Ptr) : Option Nat := if a.blk = b.blk ∧ a.off ≤ b.off then some (b.off - a.off) else none

/-- The elements met in `n` steps. -/
def walkN (deref : Ptr → Option V) : Ptr → Nat → Option (List V)
  | _, 0 => some []
  | p, n + 1 =>
    match deref p with
    | none => none
    | some v => (walkN deref ⟨p.blk, p.off + 1⟩ n).map (v :: ·)

/-- The range of local iterators given to an algorithm for one piece: base iterators, or local
iterators to elements of their type (`typed`); and what the functors get for the elements. -/
structure LRange (V : Type) where
  mapit : MapIt
  typed : Bool
  first : Ptr
  vals : List (Passed V)

/-- The range for `n` elements from an iterator on, restituted (101-117, 125-133).  A local
iterator of another type than the elements have is not to be dereferenced. -/
def rangeN (c : Coll V) (Ts : List Ty) (info : Option TI) (l : LIter) (n : Nat) : Option (LRange V) :=
  match c.map.node? E l.mapit with
  | none => none
  | some s =>
    match restitute E Ts info with
    | none => (walkN s.seg.be.derefBase l.pos n).map fun vs => ⟨l.mapit, false, l.pos, vs.map fun v => ⟨s.seg.ty, v, false⟩⟩
    | some T =>
      match c.toLocal E l with
      | none => none
      | some a =>
        if T = s.seg.ty then
          (walkN s.seg.be.derefLocal a.pos n).map fun vs => ⟨l.mapit, true, a.pos, vs.map fun v => ⟨s.seg.ty, v, true⟩⟩
        else none

/-- The range for a piece, restituted (47-59, 67-72): both of its ends are converted. -/
def range (c : Coll V) (Ts : List Ty) (i : Coll.SegInfo) : Option (LRange V) :=
  match restitute E Ts (some i.info) with
  | none =>
    match span i.first.pos i.last.pos with
    | none => none
    | some n => rangeN E c Ts (some i.info) i.first n
  | some _ =>
    match c.toLocal E i.first, c.toLocal E i.last with
    | some a, some b =>
      match span a.pos b.pos with
      | none => none
      | some n => rangeN E c Ts (some i.info) i.first n
    | _, _ => none

/-- `cast_return<local_base_iterator>` (`detail/functional.hpp` 123-141) of the iterator to place
`n` of a range. -/
def LRange.at (c : Coll V) (r : LRange V) (n : Nat) : Option LIter :=
  if r.typed then c.toBase E ⟨r.mapit, ⟨r.first.blk, r.first.off + n⟩⟩
  else some ⟨r.mapit, ⟨r.first.blk, r.first.off + n⟩⟩

/-- What a functor gets for the element at an iterator (`deref_to` and `deref_1st_to`,
`detail/functional.hpp` 143-182, with `restitute_iterator`). -/
def derefAs (c : Coll V) (Ts : List Ty) (info : Option TI) (l : LIter) : Option (Passed V) :=
  match rangeN E c Ts info l 1 with
  | none => none
  | some r => r.vals.head?

/-- The iterators of a loop `for(auto it=i.begin();it!=i.end();++it)`. -/
def places (i : Coll.SegInfo) : Option (List LIter) :=
  (span i.first.pos i.last.pos).map fun n => (List.range n).map fun j => ⟨i.first.mapit, ⟨i.first.pos.blk, i.first.pos.off + j⟩⟩

/-! ### all_of, any_of, none_of (`algorithm.hpp` 55-90) -/

/-- The loop of `all_of` (62). -/
def allOfIn (c : Coll V) (Ts : List Ty) (p : Passed V → m Bool) : List Coll.SegInfo → OptionT m Bool
  | [] => pure true
  | i :: is => do
    let r ← defd (range E c Ts i)
    if ← call (StdAlg.allOf p r.vals) then allOfIn c Ts p is else pure false

/-- `all_of` (55-64). -/
def allOf (c : Coll V) (Ts : List Ty) (first last : GIter) (p : Passed V → m Bool) : OptionT m Bool := do
  allOfIn E c Ts p (← defd (segmentSplit E c first last))

/-- The loop of `any_of` (75). -/
def anyOfIn (c : Coll V) (Ts : List Ty) (p : Passed V → m Bool) : List Coll.SegInfo → OptionT m Bool
  | [] => pure false
  | i :: is => do
    let r ← defd (range E c Ts i)
    if ← call (StdAlg.anyOf p r.vals) then pure true else anyOfIn c Ts p is

/-- `any_of` (68-77). -/
def anyOf (c : Coll V) (Ts : List Ty) (first last : GIter) (p : Passed V → m Bool) : OptionT m Bool := do
  anyOfIn E c Ts p (← defd (segmentSplit E c first last))

/-- The loop of `none_of` (88). -/
def noneOfIn (c : Coll V) (Ts : List Ty) (p : Passed V → m Bool) : List Coll.SegInfo → OptionT m Bool
  | [] => pure true
  | i :: is => do
    let r ← defd (range E c Ts i)
    if ← call (StdAlg.noneOf p r.vals) then noneOfIn c Ts p is else pure false

/-- `none_of` (81-90). -/
def noneOf (c : Coll V) (Ts : List Ty) (first last : GIter) (p : Passed V → m Bool) : OptionT m Bool := do
  noneOfIn E c Ts p (← defd (segmentSplit E c first last))

/-! ### for_each, for_each_n (92-154) -/

/-- The calls of `for_each_alg` (92-100) for one piece after the other; the function object is
passed by reference. -/
def forEachIn {F : Type} (c : Coll V) (Ts : List Ty) (f : F → Passed V → m F) : List Coll.SegInfo → F → OptionT m F
  | [], s => pure s
  | i :: is, s => do
    let r ← defd (range E c Ts i)
    let s ← call (StdAlg.forEach f r.vals s)
    forEachIn c Ts f is s

/-- `for_each` (102-110). -/
def forEach {F : Type} (c : Coll V) (Ts : List Ty) (first last : GIter) (f : F → Passed V → m F) (s : F) : OptionT m F := do
  forEachIn E c Ts f (← defd (eachSegment E c first last)) s

/-- The loop of `for_each_n` (139-152). -/
def forEachNFrom {F : Type} (c : Coll V) (Ts : List Ty) (mapend : MapIt) (f : F → Passed V → m F) :
    MapIt → LIter → Nat → F → Nat → OptionT m (GIter × F)
  | _, _, _, _, 0 => failure
  | sit, lbit, n, s, fuel + 1 => do
    let i ← defd (c.segInfo E sit)
    let k ← defd (span lbit.pos i.last.pos)
    if n ≤ k then
      let r ← defd (rangeN E c Ts (some i.info) lbit n)
      let s ← call (StdAlg.forEach f r.vals s)
      let it ← defd (r.at E c n)
      return (← defd (c.map.iteratorFrom E it mapend), s)
    else
      let r ← defd (rangeN E c Ts (some i.info) lbit k)
      let s ← call (StdAlg.forEach f r.vals s)
      let sit ← defd (c.map.itNext E sit)
      let i' ← defd (c.segInfo E sit)
      forEachNFrom c Ts mapend f sit i'.first (n - k) s fuel

/-- `for_each_n` (125-154). -/
def forEachN {F : Type} (c : Coll V) (Ts : List Ty) (first : GIter) (n : Int) (f : F → Passed V → m F) (s : F) : OptionT m (GIter × F) :=
  if n ≤ 0 then pure (first, s)
  else forEachNFrom E c Ts first.mapend f first.mapit (localBase first) n.toNat s (c.map.nodes.length + 1)

/-! ### find and its relatives (156-291) -/

/-- The loop of `generic_find` (170-176).  Iterators are compared by their positions. -/
def findIn (c : Coll V) (last : GIter) (alg : Coll.SegInfo → σ → OptionT m (LIter × σ)) :
    List Coll.SegInfo → σ → OptionT m (GIter × σ)
  | [], s => pure (last, s)
  | i :: is, s => do
    let r ← alg i s
    if r.1.pos ≠ i.last.pos then return (← defd (c.map.iteratorFrom E r.1 last.mapend), r.2)
    else findIn c last alg is r.2

/-- `generic_find` (156-177); `σ` is for the arguments passed by reference. -/
def genericFind (c : Coll V) (first last : GIter) (alg : Coll.SegInfo → σ → OptionT m (LIter × σ)) (s : σ) : OptionT m (GIter × σ) := do
  findIn E c last alg (← defd (segmentSplit E c first last)) s

/-- An algorithm of the standard library for one piece, that returns an iterator
(`restitute_range` of `cast_return`). -/
def lift (c : Coll V) (Ts : List Ty) (alg : List (Passed V) → m Nat) (i : Coll.SegInfo) (s : σ) : OptionT m (LIter × σ) := do
  let r ← defd (range E c Ts i)
  let n ← call (alg r.vals)
  return (← defd (r.at E c n), s)

/-- `find_if` (192-197), and `find` (181-186). -/
def findIf (c : Coll V) (Ts : List Ty) (first last : GIter) (p : Passed V → m Bool) : OptionT m GIter := do
  return (← genericFind E c first last (lift E c Ts (StdAlg.findIf p)) ()).1

/-- `find_if_not` (203-210). -/
def findIfNot (c : Coll V) (Ts : List Ty) (first last : GIter) (p : Passed V → m Bool) : OptionT m GIter := do
  return (← genericFind E c first last (lift E c Ts (StdAlg.findIfNot p)) ()).1

/-- `find_first_of` (214-237). -/
def findFirstOf (c : Coll V) (Ts : List Ty) (first last : GIter) (bs : List B) (p : Passed V → B → m Bool) : OptionT m GIter := do
  return (← genericFind E c first last (lift E c Ts (StdAlg.findFirstOf p bs)) ()).1

/-- `adjacent_find_alg` (239-266).  `carry` and `prev` are references.  `prevInfo` is a pointer
passed by value: it is set to the type of the elements of the segment, but only in the copy the
function has. -/
def adjacentFindAlg (c : Coll V) (Ts : List Ty) (p : Passed V → Passed V → m Bool) (prevInfo : Option TI)
    (i : Coll.SegInfo) (s : Bool × Option LIter) : OptionT m (LIter × Bool × Option LIter) := do
  let r ← defd (range E c Ts i)
  match r.vals with
  | [] => return (← defd (r.at E c 0), s)
  | a :: l =>
    let carried ← (if s.1 then do
        let prev ← defd s.2
        let x ← defd (derefAs E c Ts prevInfo prev)
        if ← call (p x a) then return some prev else return none
      else pure none : OptionT m (Option LIter))
    match carried with
    | some prev => return (prev, s)
    | none =>
      let n ← call (StdAlg.adjacentFind p (a :: l))
      let res ← defd (r.at E c n)
      if n = (a :: l).length then
        let prev ← defd (r.at E c l.length)
        return (res, true, some prev)
      else return (res, false, s.2)

/-- `adjacent_find` (268-282). -/
def adjacentFind (c : Coll V) (Ts : List Ty) (first last : GIter) (p : Passed V → Passed V → m Bool) : OptionT m GIter := do
  return (← genericFind E c first last (adjacentFindAlg E c Ts p none) (false, none)).1

/-! ### count, mismatch, equal (293-493) -/

/-- The loop of `generic_count` (303). -/
def countIn (c : Coll V) (Ts : List Ty) (p : Passed V → m Bool) : List Coll.SegInfo → Nat → OptionT m Nat
  | [], res => pure res
  | i :: is, res => do
    let r ← defd (range E c Ts i)
    let k ← call (StdAlg.countIf p r.vals)
    countIn c Ts p is (res + k)

/-- `count_if` (321-328), and `count` (310-315). -/
def countIf (c : Coll V) (Ts : List Ty) (first last : GIter) (p : Passed V → m Bool) : OptionT m Nat := do
  countIn E c Ts p (← defd (segmentSplit E c first last)) 0

/-- `mismatch_alg` with three iterators (332-345). -/
def mismatch3Alg (p : Passed V → B → m Bool) : List (Passed V) → List B → OptionT m (Nat × List B)
  | [], bs => pure (0, bs)
  | _ :: _, [] => failure
  | a :: l, b :: bs => do
    if ← call (p a b) then
      let r ← mismatch3Alg p l bs
      return (r.1 + 1, r.2)
    else return (0, b :: bs)

/-- `mismatch_alg` with four iterators (347-361). -/
def mismatch4Alg (p : Passed V → B → m Bool) : List (Passed V) → List B → OptionT m (Nat × List B)
  | [], bs => pure (0, bs)
  | _ :: _, [] => pure (0, [])
  | a :: l, b :: bs => do
    if ← call (p a b) then
      let r ← mismatch4Alg p l bs
      return (r.1 + 1, r.2)
    else return (0, b :: bs)

/-- One of them for a piece. -/
def mismatchLift (c : Coll V) (Ts : List Ty) (alg : List (Passed V) → List B → OptionT m (Nat × List B))
    (i : Coll.SegInfo) (bs : List B) : OptionT m (LIter × List B) := do
  let r ← defd (range E c Ts i)
  let k ← alg r.vals bs
  return (← defd (r.at E c k.1), k.2)

/-- `mismatch` with three iterators (364-375). -/
def mismatch3 (c : Coll V) (Ts : List Ty) (first last : GIter) (bs : List B) (p : Passed V → B → m Bool) : OptionT m (GIter × List B) :=
  genericFind E c first last (mismatchLift E c Ts (mismatch3Alg p)) bs

/-- `mismatch` with four iterators (388-399). -/
def mismatch4 (c : Coll V) (Ts : List Ty) (first last : GIter) (bs : List B) (p : Passed V → B → m Bool) : OptionT m (GIter × List B) :=
  genericFind E c first last (mismatchLift E c Ts (mismatch4Alg p)) bs

/-- `equal_alg` with three iterators (413-427). -/
def equal3Alg (p : Passed V → B → m Bool) : List (Passed V) → List B → OptionT m (Bool × List B)
  | [], bs => pure (true, bs)
  | _ :: _, [] => failure
  | a :: l, b :: bs => do if ← call (p a b) then equal3Alg p l bs else pure (false, b :: bs)

/-- `equal_alg` with four iterators (429-443). -/
def equal4Alg (p : Passed V → B → m Bool) : List (Passed V) → List B → OptionT m (Bool × List B)
  | [], bs => pure (true, bs)
  | _ :: _, [] => pure (false, [])
  | a :: l, b :: bs => do if ← call (p a b) then equal4Alg p l bs else pure (false, b :: bs)

/-- The loop of `equal` (455-456, 479-480). -/
def equalIn (c : Coll V) (Ts : List Ty) (alg : List (Passed V) → List B → OptionT m (Bool × List B))
    (fin : List B → Bool) : List Coll.SegInfo → List B → OptionT m Bool
  | [], bs => pure (fin bs)
  | i :: is, bs => do
    let r ← defd (range E c Ts i)
    let k ← alg r.vals bs
    if k.1 then equalIn c Ts alg fin is k.2 else pure false

/-- `equal` with three iterators (446-457). -/
def equal3 (c : Coll V) (Ts : List Ty) (first last : GIter) (bs : List B) (p : Passed V → B → m Bool) : OptionT m Bool := do
  equalIn E c Ts (equal3Alg p) (fun _ => true) (← defd (segmentSplit E c first last)) bs

/-- `equal` with four iterators (470-481). -/
def equal4 (c : Coll V) (Ts : List Ty) (first last : GIter) (bs : List B) (p : Passed V → B → m Bool) : OptionT m Bool := do
  equalIn E c Ts (equal4Alg p) (fun bs => bs.isEmpty) (← defd (segmentSplit E c first last)) bs

/-! ### is_permutation (495-601) -/

/-- The loop of `fast_distance` (515) from the segment after the first on. -/
def distanceFrom (c : Coll V) (slast : MapIt) : MapIt → Nat → Nat → Option Nat
  | _, _, 0 => none
  | sfirst, d, fuel + 1 =>
    match c.map.itNext E sfirst with
    | none => none
    | some sfirst =>
      match c.map.itEq E sfirst slast with
      | none => none
      | some true => some d
      | some false =>
        match c.segInfo E sfirst with
        | none => none
        | some i =>
          match span i.first.pos i.last.pos with
          | none => none
          | some k => distanceFrom c slast sfirst (d + k) fuel

/-- `fast_distance` (495-522). -/
def fastDistance (c : Coll V) (first last : GIter) : Option Nat :=
  if first.segpos = last.segpos then some 0
  else
    match c.map.itEq E first.mapit last.mapit with
    | none => none
    | some true => span first.segpos last.segpos
    | some false =>
      match c.segInfo E first.mapit with
      | none => none
      | some i =>
        match span first.segpos i.last.pos with
        | none => none
        | some d =>
          match distanceFrom E c last.mapit first.mapit d (c.map.nodes.length + 1) with
          | none => none
          | some d =>
            match c.map.itEq E last.mapit last.mapend with
            | none => none
            | some true => some d
            | some false =>
              match c.segInfo E last.mapit with
              | none => none
              | some i => (span i.first.pos last.segpos).map (d + ·)

/-- The inner loop of `is_permutation_suffix` (537-547); `none` says that it is left normally.
`lbscan` is dereferenced once and not for every call of the predicate. -/
def permInner (c : Coll V) (Ts : List Ty) (first1 last1 : GIter) (bs : List B) (p : Passed V → Passed V → m Bool)
    (q : Passed V → B → m Bool) (info : TI) : List LIter → OptionT m Bool
  | [] => pure true
  | l :: ls => do
    let a ← defd (derefAs E c Ts (some info) l)
    let scan ← defd (c.map.iteratorFrom E l last1.mapend)
    let f ← findIf E c Ts first1 scan (p a)
    if f.segpos ≠ scan.segpos then permInner c Ts first1 last1 bs p q info ls
    else
      let k ← call (StdAlg.countIf (q a) bs)
      if k = 0 then pure false
      else if k ≠ (← countIf E c Ts scan last1 (p a)) then pure false
      else permInner c Ts first1 last1 bs p q info ls

/-- The outer loop (536). -/
def permOuter (c : Coll V) (Ts : List Ty) (first1 last1 : GIter) (bs : List B) (p : Passed V → Passed V → m Bool)
    (q : Passed V → B → m Bool) : List Coll.SegInfo → OptionT m Bool
  | [] => pure true
  | i :: is => do
    if ← permInner E c Ts first1 last1 bs p q i.info (← defd (places i)) then permOuter c Ts first1 last1 bs p q is
    else pure false

/-- `is_permutation_suffix` (524-549); the predicate is given for two elements of the collection
(`p`) and for an element of the collection and one of the other range (`q`). -/
def permSuffix (c : Coll V) (Ts : List Ty) (first1 last1 : GIter) (bs : List B) (p : Passed V → Passed V → m Bool)
    (q : Passed V → B → m Bool) : OptionT m Bool := do
  permOuter E c Ts first1 last1 bs p q (← defd (segmentSplit E c first1 last1))

/-- `is_permutation` with three iterators (551-562). -/
def isPermutation3 (c : Coll V) (Ts : List Ty) (first1 last1 : GIter) (bs : List B) (p : Passed V → Passed V → m Bool)
    (q : Passed V → B → m Bool) : OptionT m Bool := do
  let r ← mismatch3 E c Ts first1 last1 bs q
  let d ← defd (fastDistance E c r.1 last1)
  let bs' ← defd (if d ≤ r.2.length then some (r.2.take d) else none)
  permSuffix E c Ts r.1 last1 bs' p q

/-- `is_permutation` with four iterators (574-588). -/
def isPermutation4 (c : Coll V) (Ts : List Ty) (first1 last1 : GIter) (bs : List B) (p : Passed V → Passed V → m Bool)
    (q : Passed V → B → m Bool) : OptionT m Bool := do
  let r ← mismatch4 E c Ts first1 last1 bs q
  let d ← defd (fastDistance E c r.1 last1)
  if d ≠ r.2.length then pure false else permSuffix E c Ts r.1 last1 r.2 p q

/-! ### search, find_end, search_n (603-736) -/

/-- The inner loop of `search` (616-620). -/
def searchInner (c : Coll V) (Ts : List Ty) (last1 : GIter) (bs : List B) (p : Passed V → B → m Bool) : List LIter → OptionT m (Option GIter)
  | [] => pure none
  | l :: ls => do
    let it ← defd (c.map.iteratorFrom E l last1.mapend)
    let r ← mismatch4 E c Ts it last1 bs p
    if r.2.isEmpty then return some it else searchInner c Ts last1 bs p ls

/-- The outer loop (615). -/
def searchOuter (c : Coll V) (Ts : List Ty) (last1 : GIter) (bs : List B) (p : Passed V → B → m Bool) : List Coll.SegInfo → OptionT m GIter
  | [] => pure last1
  | i :: is => do
    match ← searchInner E c Ts last1 bs p (← defd (places i)) with
    | some it => pure it
    | none => searchOuter c Ts last1 bs p is

/-- `search` (603-624). -/
def search (c : Coll V) (Ts : List Ty) (first1 last1 : GIter) (bs : List B) (p : Passed V → B → m Bool) : OptionT m GIter := do
  searchOuter E c Ts last1 bs p (← defd (segmentSplit E c first1 last1))

/-- The loop of `find_end` (648-656). -/
def findEndFrom (c : Coll V) (Ts : List Ty) (last1 : GIter) (bs : List B) (p : Passed V → B → m Bool) : GIter → GIter → Nat → OptionT m GIter
  | _, _, 0 => failure
  | first1, res, fuel + 1 => do
    let res1 ← search E c Ts first1 last1 bs p
    if res1.segpos = last1.segpos then pure res
    else
      let first1 ← defd (c.map.increment E res1)
      findEndFrom c Ts last1 bs p first1 res1 fuel

/-- `find_end` (637-657). -/
def findEnd (c : Coll V) (Ts : List Ty) (first1 last1 : GIter) (bs : List B) (p : Passed V → B → m Bool) : OptionT m GIter :=
  if bs.isEmpty then pure last1
  else findEndFrom E c Ts last1 bs p first1 last1 (c.size + 2)

/-- `search_n_alg` (670-690) on the elements of one piece: `n` is the place reached, `res` the place
where the current run started if the inner loop has been entered, then `carry` and `remain`.  The
two loops are made one. -/
def searchNAlg (p : Passed V → m Bool) (count : Nat) : List (Passed V) → Nat → Option Nat → Bool → Nat → m (Nat × Bool × Nat)
  | [], n, none, carry, remain => pure (n, carry, remain)
  | [], _, some res, carry, remain => pure (res, carry, remain)
  | a :: l, n, res, carry, remain => do
    if ← p a then
      let res := res.getD n
      if remain - 1 = 0 then pure (res, carry, remain - 1)
      else searchNAlg p count l (n + 1) (some res) carry (remain - 1)
    else searchNAlg p count l (n + 1) none false count

/-- The loop of `search_n` (712-721). -/
def searchNIn (c : Coll V) (Ts : List Ty) (last : GIter) (count : Nat) (p : Passed V → m Bool) :
    List Coll.SegInfo → Bool → Nat → Option LIter → OptionT m GIter
  | [], _, _, _ => pure last
  | i :: is, carry, remain, prev => do
    let r ← defd (range E c Ts i)
    let k ← call (searchNAlg p count r.vals 0 none carry remain)
    let it ← defd (r.at E c k.1)
    if it.pos ≠ i.last.pos then
      if k.2.2 = 0 then
        let res ← defd (if k.2.1 then prev else some it)
        defd (c.map.iteratorFrom E res last.mapend)
      else if k.2.1 = false then searchNIn c Ts last count p is true k.2.2 (some it)
      else searchNIn c Ts last count p is k.2.1 k.2.2 prev
    else searchNIn c Ts last count p is k.2.1 k.2.2 prev

/-- `search_n` (692-724). -/
def searchN (c : Coll V) (Ts : List Ty) (first last : GIter) (count : Int) (p : Passed V → m Bool) : OptionT m GIter :=
  if count ≤ 0 then pure first
  else do searchNIn E c Ts last count.toNat p (← defd (segmentSplit E c first last)) false count.toNat none

/-! ### The copy family (738-1086) -/

/-- The loop of `generic_copy` (746-750). -/
def copyIn (c : Coll V) (Ts : List Ty) (alg : List (Passed V) → O → σ → OptionT m (O × σ)) : List Coll.SegInfo → O → σ → OptionT m O
  | [], o, _ => pure o
  | i :: is, o, s => do
    let r ← defd (range E c Ts i)
    let k ← alg r.vals o s
    copyIn c Ts alg is k.1 k.2

/-- `generic_copy` (738-752); `σ` is for the arguments passed by reference. -/
def genericCopy (c : Coll V) (Ts : List Ty) (first last : GIter) (alg : List (Passed V) → O → σ → OptionT m (O × σ)) (o : O) (s : σ) : OptionT m O := do
  copyIn E c Ts alg (← defd (segmentSplit E c first last)) o s

/-- An algorithm of the standard library without arguments by reference. -/
def plain (alg : List (Passed V) → O → m O) (l : List (Passed V)) (o : O) (_ : Unit) : OptionT m (O × Unit) := do
  return (← call (alg l o), ())

/-- `copy` (756-764), and `move` (805-813), for which `out` is assignment of `std::move(*first)`. -/
def copy (c : Coll V) (Ts : List Ty) (first last : GIter) (out : O → Passed V → m O) (o : O) : OptionT m O :=
  genericCopy E c Ts first last (plain (StdAlg.copy out)) o ()

/-- The loop of `copy_n` (780-787). -/
def copyNFrom (c : Coll V) (Ts : List Ty) (out : O → Passed V → m O) : MapIt → LIter → Nat → O → Nat → OptionT m O
  | _, _, _, _, 0 => failure
  | sit, lbit, count, o, fuel + 1 => do
    let i ← defd (c.segInfo E sit)
    let k ← defd (span lbit.pos i.last.pos)
    let n := min count k
    let r ← defd (rangeN E c Ts (some i.info) lbit n)
    let o ← call (StdAlg.copy out r.vals o)
    if count - n = 0 then pure o
    else
      let sit ← defd (c.map.itNext E sit)
      let i' ← defd (c.segInfo E sit)
      copyNFrom c Ts out sit i'.first (count - n) o fuel

/-- `copy_n` (768-789). -/
def copyN (c : Coll V) (Ts : List Ty) (first : GIter) (n : Int) (out : O → Passed V → m O) (o : O) : OptionT m O :=
  if n ≤ 0 then pure o
  else copyNFrom E c Ts out first.mapit (localBase first) n.toNat o (c.map.nodes.length + 1)

/-- `copy_if` (793-801). -/
def copyIf (c : Coll V) (Ts : List Ty) (first last : GIter) (out : O → Passed V → m O) (o : O) (p : Passed V → m Bool) : OptionT m O :=
  genericCopy E c Ts first last (plain (StdAlg.copyIf out p)) o ()

/-- `transform` of one range (817-827). -/
def transform (c : Coll V) (Ts : List Ty) (first last : GIter) (out : O → W → m O) (o : O) (op : Passed V → m W) : OptionT m O :=
  genericCopy E c Ts first last (plain (StdAlg.transform out op)) o ()

/-- `transform2_alg` (829-843). -/
def transform2Alg (out : O → W → m O) (op : Passed V → B → m W) : List (Passed V) → O → List B → OptionT m (O × List B)
  | [], o, bs => pure (o, bs)
  | _ :: _, _, [] => failure
  | a :: l, o, b :: bs => do
    let x ← call (op a b)
    let o ← call (out o x)
    transform2Alg out op l o bs

/-- `transform` of two ranges (845-855). -/
def transform2 (c : Coll V) (Ts : List Ty) (first last : GIter) (bs : List B) (out : O → W → m O) (o : O) (op : Passed V → B → m W) : OptionT m O :=
  genericCopy E c Ts first last (transform2Alg out op) o bs

/-- `replace_copy_if` (888-921), and `replace_copy` (857-886). -/
def replaceCopyIf (c : Coll V) (Ts : List Ty) (first last : GIter) (out : O → Passed V → m O) (outNew : O → m O) (o : O)
    (p : Passed V → m Bool) : OptionT m O :=
  genericCopy E c Ts first last (plain (StdAlg.replaceCopyIf out outNew p)) o ()

/-- `remove_copy_if` (938-946), and `remove_copy` (925-933). -/
def removeCopyIf (c : Coll V) (Ts : List Ty) (first last : GIter) (out : O → Passed V → m O) (o : O) (p : Passed V → m Bool) : OptionT m O :=
  genericCopy E c Ts first last (plain (StdAlg.removeCopyIf out p)) o ()

/-- The loop `for(;first!=last;++first)if(!p(*prev_info,prev,first))break;` of `unique_copy_alg`
(961-964): the elements left. -/
def skipEqual (p : Passed V → m Bool) : List (Passed V) → m (List (Passed V))
  | [] => pure []
  | a :: l => do if ← p a then skipEqual p l else pure (a :: l)

/-- `unique_copy_alg` (948-974); see `adjacentFindAlg` for `prevInfo`. -/
def uniqueCopyAlg (c : Coll V) (Ts : List Ty) (out : O → Passed V → m O) (p : Passed V → Passed V → m Bool) (prevInfo : Option TI)
    (r : LRange V) (o : O) (s : Bool × Option LIter) : OptionT m (O × Bool × Option LIter) := do
  let l ← (if s.1 then
      match r.vals with
      | [] => pure []
      | a :: l => do
        let prev ← defd s.2
        let x ← defd (derefAs E c Ts prevInfo prev)
        call (skipEqual (p x) (a :: l))
    else pure r.vals : OptionT m (List (Passed V)))
  match l with
  | [] => return (o, s)
  | a :: l =>
    let o ← call (StdAlg.uniqueCopy out p (a :: l) o)
    let prev ← defd (r.at E c (r.vals.length - 1))
    return (o, true, some prev)

/-- The loop of `generic_copy` (746-750) for `unique_copy`. -/
def uniqueCopyIn (c : Coll V) (Ts : List Ty) (out : O → Passed V → m O) (p : Passed V → Passed V → m Bool) :
    List Coll.SegInfo → O → Bool × Option LIter → OptionT m O
  | [], o, _ => pure o
  | i :: is, o, s => do
    let r ← defd (range E c Ts i)
    let k ← uniqueCopyAlg E c Ts out p none r o s
    uniqueCopyIn c Ts out p is k.1 k.2

/-- `unique_copy` (976-992). -/
def uniqueCopy (c : Coll V) (Ts : List Ty) (first last : GIter) (out : O → Passed V → m O) (o : O) (p : Passed V → Passed V → m Bool) :
    OptionT m O := do
  uniqueCopyIn E c Ts out p (← defd (segmentSplit E c first last)) o (false, none)

/-- `rotate_copy` (1004-1014). -/
def rotateCopy (c : Coll V) (Ts : List Ty) (first middle last : GIter) (out : O → Passed V → m O) (o : O) : OptionT m O := do
  let o ← copy E c Ts middle last out o
  copy E c Ts first middle out o

/-- `sample_alg` (1016-1033) on the elements of one piece: `n` elements still to be taken out of
`k`.  `rnd j` draws a number from `0,…,j`. -/
def sampleAlg (out : O → Passed V → m O) (rnd : (j : Nat) → m (Fin (j + 1))) : List (Passed V) → O → Nat → Nat → m (O × Nat × Nat)
  | [], o, n, k => pure (o, n, k)
  | a :: l, o, n, k =>
    if n = 0 then pure (o, n, k)
    else do
      let r ← rnd (k - 1)
      if r.val < n then sampleAlg out rnd l (← out o a) (n - 1) (k - 1)
      else sampleAlg out rnd l o n (k - 1)

/-- The loop of `sample` (1050-1054). -/
def sampleIn (c : Coll V) (Ts : List Ty) (out : O → Passed V → m O) (rnd : (j : Nat) → m (Fin (j + 1))) :
    List Coll.SegInfo → O → Nat → Nat → OptionT m O
  | [], o, _, _ => pure o
  | i :: is, o, n, k => do
    let r ← defd (range E c Ts i)
    let x ← call (sampleAlg out rnd r.vals o n k)
    if x.2.1 = 0 then pure x.1 else sampleIn c Ts out rnd is x.1 x.2.1 x.2.2

/-- `sample` (1035-1056). -/
def sample (c : Coll V) (Ts : List Ty) (first last : GIter) (out : O → Passed V → m O) (o : O) (n : Nat)
    (rnd : (j : Nat) → m (Fin (j + 1))) : OptionT m O := do
  let k ← defd (fastDistance E c first last)
  sampleIn E c Ts out rnd (← defd (segmentSplit E c first last)) o (min n k) k

/-! ### Partitions (1058-1116) -/

/-- `is_partitioned` (1058-1067). -/
def isPartitioned (c : Coll V) (Ts : List Ty) (first last : GIter) (p : Passed V → m Bool) : OptionT m Bool := do
  let it ← findIfNot E c Ts first last p
  if it.segpos = last.segpos then pure true
  else noneOf E c Ts (← defd (c.map.increment E it)) last p

/-- The loop of `partition_copy` (1081-1084). -/
def partitionCopyIn {O' : Type} (c : Coll V) (Ts : List Ty) (out : O → Passed V → m O) (out' : O' → Passed V → m O') (p : Passed V → m Bool) :
    List Coll.SegInfo → O → O' → OptionT m (O × O')
  | [], o, o' => pure (o, o')
  | i :: is, o, o' => do
    let r ← defd (range E c Ts i)
    let k ← call (StdAlg.partitionCopy out out' p r.vals o o')
    partitionCopyIn c Ts out out' p is k.1 k.2

/-- `partition_copy` (1072-1086). -/
def partitionCopy {O' : Type} (c : Coll V) (Ts : List Ty) (first last : GIter) (out : O → Passed V → m O) (out' : O' → Passed V → m O')
    (o : O) (o' : O') (p : Passed V → m Bool) : OptionT m (O × O') := do
  partitionCopyIn E c Ts out out' p (← defd (segmentSplit E c first last)) o o'

/-- `std::distance` of collection iterators: the increments needed. -/
def distance (c : Coll V) (last : GIter) : GIter → Nat → Option Nat
  | _, 0 => none
  | it, fuel + 1 =>
    if it.segpos = last.segpos then some 0
    else
      match c.map.increment E it with
      | none => none
      | some it' => (distance c last it' fuel).map (· + 1)

/-- `std::next`. -/
def next (c : Coll V) : GIter → Nat → Option GIter
  | it, 0 => some it
  | it, n + 1 =>
    match c.map.increment E it with
    | none => none
    | some it' => next c it' n

/-- `partition_point_pred` (1088-1104). -/
def partitionPointPred (c : Coll V) (Ts : List Ty) (p : Passed V → m Bool) (it : GIter) : OptionT m Bool := do
  let i ← defd (c.segInfo E it.mapit)
  let a ← defd (derefAs E c Ts (some i.info) (localBase it))
  call (p a)

/-- `std::partition_point`, which `partition_point` calls for `auto_iterator`s, that is, with the
predicate applied to iterators: bisection. -/
def bisect (c : Coll V) (pred : GIter → OptionT m Bool) : GIter → Nat → Nat → OptionT m GIter
  | _, _, 0 => failure
  | first, len, fuel + 1 =>
    if len = 0 then pure first
    else do
      let half := len / 2
      let middle ← defd (next E c first half)
      if ← pred middle then
        let first ← defd (c.map.increment E middle)
        bisect c pred first (len - half - 1) fuel
      else bisect c pred first half fuel

/-- `partition_point` (1106-1116). -/
def partitionPoint (c : Coll V) (Ts : List Ty) (first last : GIter) (p : Passed V → m Bool) : OptionT m GIter := do
  let len ← defd (distance E c last first (c.size + 1))
  bisect E c (partitionPointPred E c Ts p) first len (len + 1)

end Algo
end PolyColl
