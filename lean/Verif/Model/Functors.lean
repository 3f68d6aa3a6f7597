import Verif.Model.Accept
/-!
# Predicates called through `deref_to` and `deref_1st_to`

(`detail/functional.hpp`, `detail/type_restitution.hpp`, `algorithm.hpp`.)

`partition_point`, `adjacent_find`, `unique_copy` and `is_permutation` call predicates through function objects that state their
return type: the type of a call of the predicate as an rvalue.  What is modelled here is whether this compiles, with overload
resolution as in `Accept.lean`.  What becomes of the answers is in `Results.lean`; which iterators convert is in `TypeLists.lean`.
-/

namespace PolyColl.Functors

open PolyColl.Accept

/-- A predicate.  `A` are argument types: elements as `value_type&` or as a `T&`, or what the second range refers to. -/
structure Pred (A : Type) where
  /-- the overloads of `operator()`, with `ranks` for arguments of given types; results by name of the overload -/
  ops : List A → List Fun

/-- Types of results: which overload returns which type, which types convert implicitly to which, and to `bool`. -/
structure Types where
  result : Nat → Nat
  conv : Nat → Nat → Bool
  bool : Nat → Bool

variable {A : Type} (R : Types)

/-- Type of the call expression on an object of category `e`, if it is well-formed. -/
def Pred.type (p : Pred A) (e : Cat) (as : List A) : Option Nat :=
  match Accept.resolve (p.ops as) [e] with
  | some f => if f.deleted then none else some (R.result f.name)
  | none => none

/-- `deref_to_class::operator()` and `deref_1st_to_class::operator()` (`functional.hpp` 148-152, 168-173): the type returned, if it
compiles.  `std::declval<F>()(…)` in the return type is a call of an rvalue, `f(…)` in the body of an lvalue. -/
def Pred.deref (p : Pred A) (as : List A) : Option Nat :=
  match p.type R .rv as, p.type R .lv as with
  | some d, some b => if R.conv b d then some d else none
  | _, _ => none

/-- `return (this->f)(local_iterator{it},…);` (`type_restitution.hpp` 111-113) compiles in a function that returns `d`. -/
def Pred.fits (p : Pred A) (d : Nat) (as : List A) : Bool :=
  match p.deref R as with
  | some d' => R.conv d' d
  | none => false

/-- `restitute_iterator_class::operator()` (`type_restitution.hpp` 101-117, 125-133) of such a function object, with the argument
of base type and those for the types of the list; `tail_closure_class` (`functional.hpp` 57-82) returns what the function object does. -/
def Pred.restituted (p : Pred A) (base : List A) (ts : List (List A)) : Option Nat :=
  match p.deref R base with
  | some d => if ts.all (p.fits R d) then some d else none
  | none => none

/-- The result tested. -/
def Pred.tested (p : Pred A) (base : List A) (ts : List (List A)) : Bool :=
  match p.restituted R base ts with
  | some d => R.bool d
  | none => false

/-- The algorithms. -/
inductive Use
  | partitionPoint | adjacentFind | uniqueCopy | isPermutation
  deriving DecidableEq, Repr

/-- The calls of restituted predicates in the algorithms (`algorithm.hpp` 1097-1100; 252-253, 962-963 for each type of the iterator `first`; 539-545
for each type of element in the first range and what is in the second): arguments with the element as base, and as one of the types. -/
def Use.calls (base second : A) (ts : List A) : Use → List (List A × List (List A))
  | .partitionPoint => [([base], ts.map fun t => [t])]
  | .adjacentFind => (base :: ts).map fun u => ([base, u], ts.map fun t => [t, u])
  | .uniqueCopy => (base :: ts).map fun u => ([base, u], ts.map fun t => [t, u])
  | .isPermutation => (base :: second :: ts).map fun u => ([base, u], ts.map fun t => [t, u])

/-- The algorithm compiles as far as the restituted predicate is concerned. -/
def Use.compiles (base second : A) (ts : List A) (p : Pred A) (a : Use) : Bool :=
  (a.calls base second ts).all fun c => p.tested R c.1 c.2

end PolyColl.Functors
