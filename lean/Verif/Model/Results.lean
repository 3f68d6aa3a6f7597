import Verif.Model.Algorithm
/-!
# The types of the answers of predicates

(`detail/type_restitution.hpp`, `detail/functional.hpp`, `algorithm.hpp`.)

In `Algorithm.lean` predicates return `bool`.  They may return anything that can be converted to `bool`, of types that depend on
whether they are given a `value_type&` or a `T&`.  Where `restitute_iterator` stands between a predicate and the place where its
answer is tested, the answer passes through functions that return what the predicate returns for a `value_type&`.  This is
the case in `partition_point` and in the second part of `is_permutation`.  In `adjacent_find` and `unique_copy`, too, but there
the predicate is always given a `value_type&` (see `Algorithm.lean`).  All other algorithms leave it to the standard library to call
the predicate.

Answers are values of a type `W`, whatever their C++ type.  The C++ types are numbered.
-/

namespace PolyColl.Algo

/-- A type that predicates return: a type of values or `const` references to such. -/
structure AnswerTy where
  num : Nat
  ref : Bool
  deriving DecidableEq, Repr

/-- The answers of a predicate: their types, when its first argument is a `value_type&` (`none`) or a `T&` and for the
other arguments given; the conversion of a value of one type to another; the conversion to `bool`. -/
structure Answers (Y W : Type) where
  type : Option Ty → Y → AnswerTy
  conv : Nat → Nat → W → W
  truth : Nat → W → Bool

variable {V : Type} (E : Env V) {m : Type → Type} [Monad m] {Y W B : Type}

/-- `return e;`, for an expression of type `src` in a function that returns `dst`.  A reference returned is bound to
the same object only if `e` is one, to the same type; it is bound to a temporary otherwise, which is gone when the reference is used
(undefined). -/
def Answers.returned (A : Answers Y W) (dst src : AnswerTy) (a : W) : Option W :=
  if dst.ref then (if src.ref ∧ src.num = dst.num then some a else none)
  else some (if src.num = dst.num then a else A.conv src.num dst.num a)

/-- `operator()` of `restitute_iterator_class` (`type_restitution.hpp` 101-117, 125-133) for `deref_to(pred)` or
`deref_1st_to(pred)` (`functional.hpp` 143-182) and an iterator to an element `x` of type `x.ty`. -/
def Answers.restituted (A : Answers Y W) (ask : Passed V → Y → m W) (x : Passed V) (y : Y) : List Ty → OptionT m W
  | [] => call (ask ⟨x.ty, x.val, false⟩ y)
  | t :: ts =>
    if x.ty = t then do defd (A.returned (A.type none y) (A.type (some t) y) (← call (ask ⟨x.ty, x.val, true⟩ y)))
    else Answers.restituted A ask x y ts

/-- The result tested. -/
def Answers.test (A : Answers Y W) (ask : Passed V → Y → m W) (Ts : List Ty) (x : Passed V) (y : Y) : OptionT m Bool := do
  return A.truth (A.type none y).num (← A.restituted ask x y Ts)

/-- The predicate called and its answer tested by the standard library. -/
def Answers.plain (A : Answers Y W) (ask : Passed V → Y → m W) (x : Passed V) (y : Y) : m Bool := do
  return A.truth (A.type (if x.typed then some x.ty else none) y).num (← ask x y)

/-- `partition_point_pred::operator()` (1094-1101). -/
def partitionPointPredBy (A : Answers Unit W) (c : Coll V) (Ts : List Ty) (ask : Passed V → Unit → m W) (it : GIter) : OptionT m Bool := do
  let i ← defd (c.segInfo E it.mapit)
  let a ← defd (derefAs E c Ts (some i.info) (localBase it))
  A.test ask Ts a ()

/-- `partition_point` (1106-1116). -/
def partitionPointBy (A : Answers Unit W) (c : Coll V) (Ts : List Ty) (first last : GIter) (ask : Passed V → Unit → m W) : OptionT m GIter := do
  let len ← defd (distance E c last first (c.size + 1))
  bisect E c (partitionPointPredBy E A c Ts ask) first len (len + 1)

/-- `is_permutation` with four iterators (574-588): `mismatch` leaves it to the standard library to call the predicate,
`is_permutation_suffix` calls `restitute_iterator` (539-540).  `A` and `ask` are for two elements of the collection, `A'` and `ask'` for an
element and one of the other range. -/
def isPermutation4By (A : Answers (Passed V) W) (A' : Answers B W) (c : Coll V) (Ts : List Ty) (first1 last1 : GIter) (bs : List B)
    (ask : Passed V → Passed V → m W) (ask' : Passed V → B → m W) : OptionT (OptionT m) Bool := do
  let r ← mismatch4 E c Ts first1 last1 bs (m := OptionT m) fun x y => call (A'.plain ask' x y)
  let d ← defd (fastDistance E c r.1 last1)
  if d ≠ r.2.length then pure false else permSuffix E c Ts r.1 last1 r.2 (A.test ask Ts) (A'.test ask' Ts)

/-- `is_permutation` with three iterators (551-562). -/
def isPermutation3By (A : Answers (Passed V) W) (A' : Answers B W) (c : Coll V) (Ts : List Ty) (first1 last1 : GIter) (bs : List B)
    (ask : Passed V → Passed V → m W) (ask' : Passed V → B → m W) : OptionT (OptionT m) Bool := do
  let r ← mismatch3 E c Ts first1 last1 bs (m := OptionT m) fun x y => call (A'.plain ask' x y)
  let d ← defd (fastDistance E c r.1 last1)
  let bs' ← defd (if d ≤ r.2.length then some (r.2.take d) else none)
  permSuffix E c Ts r.1 last1 bs' (A.test ask Ts) (A'.test ask' Ts)

end PolyColl.Algo
