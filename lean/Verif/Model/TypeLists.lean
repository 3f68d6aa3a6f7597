import Verif.Model.Interface
/-!
# What the algorithms instantiate for a list of types

(`algorithm.hpp`, `detail/type_restitution.hpp`, `detail/functional.hpp`, `detail/iterator_traits.hpp`.)

The run-time side is in `Algorithm.lean`; this is about whether calls compile.  Of the functors and standard algorithms
called only this is kept: whether they compile for iterators of a given type.
-/

namespace PolyColl.Interface

variable (R : Traits)

/-- `iterator_traits<Iterator>::local_base_iterator` (`iterator_traits.hpp` 71-75) for iterators of the collection that are
const or not. -/
def baseFor (k : Bool) : Ty := if k then Ty.constLocalBase else Ty.localBase

/-- `iterator_traits<Iterator>::local_iterator<T>` (76-81); `const const T` is `const T`. -/
def localFor (k : Bool) (t : Ty) : Ty := if k then Ty.constLocal t.core else Ty.local' t

/-- A functor called with restituted iterators: whether it compiles with iterators of a type; and whether it returns
such an iterator and is wrapped by `cast_return<local_base_iterator>`. -/
structure Functor where
  compiles : Ty → Bool
  cast : Bool

/-- The call of a functor: `cast_return` (`functional.hpp` 123-134) uses `static_cast`. -/
def Functor.call (f : Functor) (k : Bool) (i : Ty) : Bool :=
  f.compiles i && (!f.cast || R.explicit i (baseFor k))

/-- `operator()` of `restitute_range_class` and `restitute_iterator_class` (`type_restitution.hpp` 47-59, 67-72 and 101-117,
125-133): the call for each type of the list is compiled, whether it is made or not; `local_iterator{it}`
is a conversion that may be explicit. -/
def restitutes (k : Bool) (f : Functor) : List Ty → Bool
  | [] => f.call R k (baseFor k)
  | t :: ts => R.explicit (baseFor k) (localFor k t) && f.call R k (localFor k t) && restitutes k f ts

/-- The algorithms. -/
inductive Alg
  | allOf | anyOf | noneOf | forEach | forEachN | find | findIf | findIfNot | findEnd | findFirstOf | adjacentFind | count | countIf
  | mismatch | equal | isPermutation | search | searchN | copy | copyN | copyIf | move | transform | transform2 | replaceCopy
  | replaceCopyIf | removeCopy | removeCopyIf | uniqueCopy | rotateCopy | sample | isPartitioned | partitionCopy | partitionPoint
  deriving DecidableEq, Repr

/-- The uses of restitution in an algorithm, by whether iterators are returned (`algorithm.hpp`): 61, 74, 87, 108; 136-137; 167-169
for `generic_find`, 252 for `adjacent_find`; 301 for `generic_count`; 373, 397; 454, 478; 540-545 and `mismatch` for `is_permutation`;
617 and 651 for `search` and `find_end`, which use `mismatch`; 709-710; 747-748 for `generic_copy`, 782, 962, 1012-1013; 1051; 1063-1065
for `is_partitioned`, which uses `find_if_not` and `none_of`; 1082; 1097. -/
def Alg.casts : Alg → List Bool
  | .allOf | .anyOf | .noneOf | .forEach | .count | .countIf | .equal => [false]
  | .forEachN | .find | .findIf | .findIfNot | .findFirstOf | .mismatch | .search | .findEnd | .searchN => [true]
  | .adjacentFind => [true, false]
  | .isPermutation => [true, false, true, false]
  | .copy | .copyN | .copyIf | .move | .transform | .transform2 | .replaceCopy | .replaceCopyIf | .removeCopy | .removeCopyIf
  | .rotateCopy | .sample | .partitionCopy | .partitionPoint => [false]
  | .uniqueCopy => [false, false]
  | .isPartitioned => [true, false]

/-- The algorithm with a list of types compiles, for what it is given: `ok` says whether the functors and the algorithms of the
standard library compile for iterators of a type. -/
def Alg.compiles (a : Alg) (k : Bool) (ok : Ty → Bool) (ts : List Ty) : Bool :=
  a.casts.all fun b => restitutes R k ⟨ok, b⟩ ts

/-- `enable_if_poly_collection_iterator` (`algorithm.hpp` 48-51): `poly_collection_of` is specialised for global and for local
iterators (`iterator_impl.hpp` 129-133, 239-243). -/
def ofCollection : Ty → Bool
  | .iter _ => true
  | .loc _ => true
  | _ => false

/-- The overloads of `mismatch` (364-411), `equal` (445-492) and `is_permutation` (551-601): the second range given by its beginning or
by both ends, with a predicate or without.  The types of the list are given explicitly or there are none; they are in no
parameter. -/
def twoRanges : List Cand :=
  [{ fn := .algFromPred, params := [.var 0, .var 0, .var 1, .var 2], guard := fun _ s => ofCollection (s.at 0) },
   { fn := .algFrom, params := [.var 0, .var 0, .var 1], guard := fun _ s => ofCollection (s.at 0) },
   { fn := .algRangePred, params := [.var 0, .var 0, .var 1, .var 1, .var 2], guard := fun _ s => ofCollection (s.at 0) },
   { fn := .algRange, params := [.var 0, .var 0, .var 1, .var 1], guard := fun _ s => ofCollection (s.at 0) }]

/-- Whether `iterator_traits<Iterator>` is about const iterators (`iterator_traits.hpp` 56-60): constness of what iterators of the
type refer to.  `none`: not an iterator of a collection, `poly_collection_of` is `void`. -/
def constOf : Ty → Option Bool
  | .iter (.konst k) => some k
  | .loc (.base k) => some k
  | .loc (.ptr t) => some t.isConst
  | _ => none

/-- Functions of `iterator_traits` that the algorithms call with iterators given to them. -/
inductive TraitFn
  /-- `base_segment_info_iterator_from` -/
  | segment
  /-- `end_base_segment_info_iterator_from` -/
  | segmentEnd
  /-- `local_base_iterator_from` -/
  | localBase
  deriving DecidableEq, Repr

/-- Their overloads, by the type of the parameter (83-84, 86-88; 90-91; 93-94). -/
def TraitFn.params (k : Bool) : TraitFn → List Ty
  | .segment => [.iter (.konst k), baseFor k]
  | .segmentEnd => [.iter (.konst k)]
  | .localBase => [.iter (.konst k)]

/-- The call with an iterator of type `t` compiles: one of the overloads takes it, exactly or by a conversion.  (With two of them
for which it has to be converted the call were ambiguous; no type in question converts to both.) -/
def TraitFn.takes (k : Bool) (t : Ty) (f : TraitFn) : Bool :=
  (f.params k).any fun p => t == p || R.implicit t p

/-- What the bodies of the algorithms call with iterators given: `segment_splitter` and `for_each_segment` (`segment_split.hpp` 58-74,
90-95, 120-124) all three, and every algorithm is made with one of these but for `for_each_n` (`algorithm.hpp` 138-145), `copy_n`
(778-779) and `partition_point` (1097-1100). -/
def Alg.needs : Alg → List TraitFn
  | .copyN | .partitionPoint => [.segment, .localBase]
  | .forEachN => [.localBase, .segment, .segmentEnd]
  | _ => [.segment, .localBase, .segmentEnd]

/-- A call of an algorithm with iterators of type `t` compiles: there is an overload, and its body compiles.  Errors in the body
are not substitution failures, but errors all the same. -/
def Alg.called (a : Alg) (t : Ty) (ok : Ty → Bool) (ts : List Ty) : Bool :=
  ofCollection t && match constOf t with
  | some k => a.needs.all (TraitFn.takes R k t) && a.compiles R k ok ts
  | none => false

end PolyColl.Interface
