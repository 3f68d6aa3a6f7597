/-!
# The compile-time interface: conversions of iterators and overloads of `insert`, `erase`, `emplace_pos`

(`detail/iterator_impl.hpp`, `detail/stride_iterator.hpp`, `detail/any_iterator.hpp`,
`detail/callable_wrapper_iterator.hpp`, `detail/poly_collection.hpp`.)

Types are first-order terms.  Overload resolution follows [over.match], template argument deduction
[temp.deduct] and partial ordering [temp.func.order] of the C++ standard, as far as these overloads
need them: deduction is matching of terms, an implicit conversion sequence is exact or
user-defined, two user-defined ones are never ordered.  Simplifications: arguments are taken by
their decayed types, as every parameter here is either passed by value or a forwarding reference,
both of which bind exactly to lvalues and rvalues, const or not; `enable_if` parameters are
predicates on the deduced types.
-/

namespace PolyColl.Interface

/-- C++ types, template arguments and patterns of both.  `var n` is the `n`-th template parameter of
an overload; closed types do not contain it. -/
inductive Ty
  /-- any type that is not built from the following ones -/
  | obj (n : Nat)
  /-- `const T`, as the type pointed to -/
  | cst (t : Ty)
  /-- `T*` -/
  | ptr (t : Ty)
  /-- a template argument of type `bool` -/
  | konst (b : Bool)
  /-- `segment_base_iterator` (`false`) and `const_segment_base_iterator` (`true`):
  `stride_iterator`, `any_iterator` or `callable_wrapper_iterator` of `value_type` or
  `const value_type` -/
  | base (k : Bool)
  /-- `iterator_impl<poly_collection,k>` -/
  | iter (k : Ty)
  /-- `local_iterator_impl<poly_collection,b>` -/
  | loc (b : Ty)
  | var (n : Nat)
  deriving DecidableEq, Repr

namespace Ty

/-- `iterator` (`poly_collection.hpp` 152). -/
def iterator : Ty := .iter (.konst false)
/-- `const_iterator` (153). -/
def constIterator : Ty := .iter (.konst true)
/-- `local_base_iterator` (154). -/
def localBase : Ty := .loc (.base false)
/-- `const_local_base_iterator` (155-156). -/
def constLocalBase : Ty := .loc (.base true)
/-- `local_iterator<T>` (157-158): `iterator<T>` of the three models is `T*`
(`base_model.hpp` 80, `any_model.hpp` 151, `function_model.hpp` 91). -/
def local' (t : Ty) : Ty := .loc (.ptr t)
/-- `const_local_iterator<T>` (159-160): `const T*` (`base_model.hpp` 82, `any_model.hpp` 153,
`function_model.hpp` 93). -/
def constLocal (t : Ty) : Ty := .loc (.ptr (.cst t))

/-- Is it `const T`? -/
def isConst : Ty → Bool
  | .cst _ => true
  | _ => false

/-- `std::remove_const`. -/
def core : Ty → Ty
  | .cst t => t
  | t => t

/-- No template parameters occur. -/
def closed : Ty → Bool
  | .obj _ => true
  | .cst t => t.closed
  | .ptr t => t.closed
  | .konst _ => true
  | .base _ => true
  | .iter k => k.closed
  | .loc b => b.closed
  | .var _ => false

end Ty

/-- What the overloads ask about types: the traits of the model and of user types. -/
structure Traits where
  /-- `value_type` -/
  value : Ty
  /-- `Model::is_implementation` -/
  impl : Ty → Bool
  /-- `Model::is_terminal` -/
  terminal : Ty → Bool
  /-- `detail::is_acceptable` -/
  acceptable : Ty → Bool
  /-- `iterator_traits<T>::value_type` of types other than the iterators of the collection; `none`
  if there is none -/
  points : Nat → Option Ty
  /-- implicit conversions from types other than the iterators of the collection -/
  converts : Nat → Ty → Bool
  /-- `T*` converts implicitly to `U*`: `T` is `U` or derived from it -/
  up : Ty → Ty → Bool
  /-- a base iterator converts explicitly to `T*`: `std::is_base_of<Value,T>` for
  `stride_iterator` (`stride_iterator.hpp` 93-104), `is_constructible<CWrapper,T&>` for
  `callable_wrapper_iterator` (69-82; taken to be the same for const and other `T`, types for which
  it is not cannot be stored, see `Accept.lean`), always for `any_iterator` (67-79) -/
  casts : Ty → Bool
  /-- a base iterator can be constructed from `T*`: `std::is_base_of<Value,T>` for
  `stride_iterator` (66-74); for the others (`any_iterator.hpp` 36, `callable_wrapper_iterator.hpp`
  34) only if `T*` converts to a pointer to `value_type` -/
  wraps : Ty → Bool

namespace Traits
variable (R : Traits)

/-- `std::is_convertible<b2,b>` for the base iterators of local iterators.  Base iterators convert to
their const versions (`stride_iterator.hpp` 42-48, `any_iterator.hpp` 40-46) and to pointers to
`value_type` (`stride_iterator.hpp` 64, `any_iterator.hpp` 63, `callable_wrapper_iterator.hpp` 65),
followed by a conversion of pointers; the constructors from pointers are explicit. -/
def convBase (b2 b : Ty) : Bool :=
  match b2, b with
  | .base k, .base k' => !k || k'
  | .base k, .ptr u => R.up R.value u.core && (!k || u.isConst)
  | .ptr t, .ptr u => R.up t.core u.core && (!t.isConst || u.isConst)
  | _, _ => false

/-- `is_constructible<b,b2>` for the base iterators of local iterators. -/
def constrBase (b b2 : Ty) : Bool :=
  R.convBase b2 b ||
  match b, b2 with
  | .base k, .ptr t => R.wraps t.core && (k || !t.isConst)
  | .ptr t, .base k => R.casts t.core && (!k || t.isConst)
  | _, _ => false

/-- First converting constructor of `local_iterator_impl` (`iterator_impl.hpp` 171-180), implicit. -/
def ctorImplicit (b b2 : Ty) : Bool := R.convBase b2 b

/-- Second one (182-192), explicit. -/
def ctorExplicit (b b2 : Ty) : Bool := !R.convBase b2 b && R.constrBase b b2

/-- Third one (194-206), explicit: by position in the segment. -/
def ctorPosition (b b2 : Ty) : Bool :=
  !R.constrBase b b2 && R.constrBase b (.base false) && R.constrBase b2 (.base false)

/-- Implicit conversion from an argument type to a parameter type different from it.
`iterator_impl<P,true>` from `iterator_impl<P,false>`: `iterator_impl.hpp` 85-87. -/
def implicit (a p : Ty) : Bool :=
  match a, p with
  | .iter (.konst false), .iter (.konst true) => true
  | .loc b2, .loc b => R.ctorImplicit b b2
  | .obj n, p => R.converts n p
  | _, _ => false

/-- Conversion of iterators with `static_cast` or functional notation. -/
def explicit (a p : Ty) : Bool :=
  a == p || R.implicit a p ||
  match a, p with
  | .loc b2, .loc b => R.ctorExplicit b b2 || R.ctorPosition b b2
  | _, _ => false

/-- `std::iterator_traits<T>::value_type`; `const` is dropped, since all uses decay
(`poly_collection.hpp` 52-92). -/
def deref : Ty → Option Ty
  | .iter _ => some R.value
  | .loc (.base _) => some R.value
  | .loc (.ptr t) => some t.core
  | .obj n => R.points n
  | _ => none

/-- `enable_if_derefs_to_implementation` (70-73). -/
def derefsImpl (t : Ty) : Bool := match R.deref t with | some v => R.impl v | none => false
/-- `derefs_to_terminal` (83-86). -/
def derefsTerminal (t : Ty) : Bool := match R.deref t with | some v => R.terminal v | none => false
/-- `enable_if_derefs_to_not_terminal` (90-92): a substitution failure as well if there is no value
type. -/
def derefsNotTerminal (t : Ty) : Bool :=
  match R.deref t with | some v => !R.terminal v | none => false

end Traits

/-! ## Deduction -/

abbrev Sub := List (Nat × Ty)

/-- The argument deduced for a template parameter. -/
def Sub.at (s : Sub) (n : Nat) : Ty := (s.lookup n).getD (.var n)

/-- Deduction of the template parameters in `p` from `a`, consistent with what was deduced before. -/
def Ty.deduce : Ty → Ty → Sub → Option Sub
  | .var n, a, s => match s.lookup n with
    | none => some ((n, a) :: s)
    | some b => if b = a then some s else none
  | .obj n, a, s => if a = .obj n then some s else none
  | .konst b, a, s => if a = .konst b then some s else none
  | .base k, a, s => if a = .base k then some s else none
  | .cst t, .cst a, s => t.deduce a s
  | .ptr t, .ptr a, s => t.deduce a s
  | .iter t, .iter a, s => t.deduce a s
  | .loc t, .loc a, s => t.deduce a s
  | _, _, _ => none

/-- Replacing a template parameter by an explicitly given argument. -/
def Ty.inst (t : Ty) (n : Nat) (u : Ty) : Ty :=
  match t with
  | .var m => if m = n then u else .var m
  | .cst t => .cst (t.inst n u)
  | .ptr t => .ptr (t.inst n u)
  | .iter t => .iter (t.inst n u)
  | .loc t => .loc (t.inst n u)
  | t => t

/-- Rank of an implicit conversion sequence: `false` exact, `true` user-defined. -/
abbrev Rank := Bool

/-- Matching of the arguments with the parameters of an overload: closed parameters admit
conversions, others have to be deduced.  The overloads and calls have the same number of
parameters, function parameter packs aside. -/
def matchArgs (R : Traits) : List Ty → List Ty → Sub → Option (List Rank × Sub)
  | [], [], s => some ([], s)
  | p :: ps, a :: as, s =>
    if p.closed then
      if p = a then (matchArgs R ps as s).map fun r => (false :: r.1, r.2)
      else if R.implicit a p then (matchArgs R ps as s).map fun r => (true :: r.1, r.2)
      else none
    else match p.deduce a s with
      | some s' => (matchArgs R ps as s').map fun r => (false :: r.1, r.2)
      | none => none
  | _, _, _ => none

/-- Deduction of the parameters of one overload from those of another, for partial ordering. -/
def deduceAll : List Ty → List Ty → Sub → Option Sub
  | [], [], s => some s
  | p :: ps, a :: as, s => match p.deduce a s with
    | some s' => deduceAll ps as s'
    | none => none
  | _, _, _ => none

/-! ## Overloads -/

/-- The member functions; and the forms of algorithms with two ranges. -/
inductive Fn
  | insertVal | hintVal | posVal
  | rangeMixed | rangeTerminal | rangeIter | rangeLocal
  | hintRangeMixed | hintRangeTerminal | hintRangeIter | hintRangeLocal
  | posRange | localRangeConst | localRange
  | emplacePosBase | emplacePosConstBase | emplacePosLocal | emplacePosConstLocal
  | eraseOne | eraseLocal | eraseRange | eraseLocalRange
  | algFrom | algFromPred | algRange | algRangePred
  deriving DecidableEq, Repr

/-- An overload: parameters without reference, constraints, and whether it is a template; `order`
are the parameters as declared, which count for partial ordering also if template arguments are
given explicitly. -/
structure Cand where
  fn : Fn
  params : List Ty
  guard : Traits → Sub → Bool := fun _ _ => true
  template : Bool := true
  order : List Ty := params

/-- Viable, and the conversions needed for the arguments. -/
def Cand.viable (R : Traits) (args : List Ty) (f : Cand) : Option (List Rank) :=
  match matchArgs R f.params args [] with
  | some (rs, s) => if f.guard R s then some rs else none
  | none => none

/-- `f` is at least as specialised as `g`: the parameters of `g` can be deduced from those of `f`. -/
def Cand.specialised (f g : Cand) : Bool := (deduceAll g.order f.order []).isSome

/-- [over.match.best]: `f`, needing conversions `rf`, is better than `g`, needing `rg`. -/
def Cand.better (f : Cand) (rf : List Rank) (g : Cand) (rg : List Rank) : Bool :=
  (rf.zip rg).all (fun p => !p.1 || p.2) &&
  ((rf.zip rg).any (fun p => !p.1 && p.2) || (!f.template && g.template) ||
   (f.template && g.template && f.specialised g && !g.specialised f))

/-- Result of overload resolution. -/
inductive Chosen
  | none | one (f : Fn) | ambiguous
  deriving DecidableEq, Repr

/-- The viable overload that is better than all others. -/
def pick (l : List (Cand × Option (List Rank))) : Chosen :=
  let vs := l.filterMap fun p => p.2.map fun rs => (p.1, rs)
  match vs with
  | [] => .none
  | _ => match vs.find? fun p => vs.all fun q => q.1.fn == p.1.fn || p.1.better p.2 q.1 q.2 with
    | some p => .one p.1.fn
    | none => .ambiguous

/-- Overload resolution. -/
def resolve (R : Traits) (cands : List Cand) (args : List Ty) : Chosen :=
  pick (cands.map fun f => (f, f.viable R args))

open Ty

/-- `insert(x)` (681-682). -/
def insertVal : Cand :=
  { fn := .insertVal, params := [.var 0], guard := fun R s => R.impl (s.at 0) }

/-- `insert(const_iterator,T&&)` (688-693). -/
def hintVal : Cand :=
  { fn := .hintVal, params := [constIterator, .var 0]
    guard := fun R s => s.at 0 != constIterator && R.impl (s.at 0) }

/-- `insert(local_iterator_impl<BaseIterator>,T&&)` (704-710). -/
def posVal : Cand :=
  { fn := .posVal, params := [.loc (.var 0), .var 1]
    guard := fun R s => s.at 1 != .loc (s.at 0) && R.impl (s.at 1) }

/-- `insert(InputIterator,InputIterator)`, not terminal (719-724). -/
def rangeMixed : Cand :=
  { fn := .rangeMixed, params := [.var 0, .var 0]
    guard := fun R s => R.derefsImpl (s.at 0) && R.derefsNotTerminal (s.at 0) }

/-- `insert(InputIterator,InputIterator)`, terminal (729-734). -/
def rangeTerminal : Cand :=
  { fn := .rangeTerminal, params := [.var 0, .var 0]
    guard := fun R s => R.derefsImpl (s.at 0) && R.derefsTerminal (s.at 0) }

/-- `insert(iterator_impl<Const>,iterator_impl<Const>)` (744-745). -/
def rangeIter : Cand :=
  { fn := .rangeIter, params := [.iter (.var 0), .iter (.var 0)] }

/-- `insert(local_iterator_impl<BaseIterator>,local_iterator_impl<BaseIterator>)` (753-756). -/
def rangeLocal : Cand :=
  { fn := .rangeLocal, params := [.loc (.var 0), .loc (.var 0)] }

/-- `insert(const_iterator,InputIterator,InputIterator)`, not terminal (766-771). -/
def hintRangeMixed : Cand :=
  { fn := .hintRangeMixed, params := [constIterator, .var 0, .var 0]
    guard := fun R s => R.derefsImpl (s.at 0) && R.derefsNotTerminal (s.at 0) }

/-- `insert(const_iterator,InputIterator,InputIterator)`, terminal (783-788). -/
def hintRangeTerminal : Cand :=
  { fn := .hintRangeTerminal, params := [constIterator, .var 0, .var 0]
    guard := fun R s => R.derefsImpl (s.at 0) && R.derefsTerminal (s.at 0) }

/-- `insert(const_iterator,iterator_impl<Const>,iterator_impl<Const>)` (800-802). -/
def hintRangeIter : Cand :=
  { fn := .hintRangeIter, params := [constIterator, .iter (.var 0), .iter (.var 0)] }

/-- `insert(const_iterator,local_iterator_impl<BaseIterator>,local_iterator_impl<BaseIterator>)`
(814-818). -/
def hintRangeLocal : Cand :=
  { fn := .hintRangeLocal, params := [constIterator, .loc (.var 0), .loc (.var 0)] }

/-- `insert(const_local_base_iterator,InputIterator,InputIterator)` (837-842). -/
def posRange : Cand :=
  { fn := .posRange, params := [constLocalBase, .var 0, .var 0]
    guard := fun R s => R.derefsImpl (s.at 0) }

/-- `insert(const_local_iterator<T>,InputIterator,InputIterator)` (856-858). -/
def localRangeConst : Cand :=
  { fn := .localRangeConst, params := [constLocal (.var 0), .var 1, .var 1] }

/-- `insert(local_iterator<T>,InputIterator,InputIterator)` (872-874). -/
def localRange : Cand :=
  { fn := .localRange, params := [local' (.var 0), .var 1, .var 1] }

/-- The overloads of `insert`. -/
def insertOverloads : List Cand :=
  [insertVal, hintVal, posVal, rangeMixed, rangeTerminal, rangeIter, rangeLocal, hintRangeMixed,
   hintRangeTerminal, hintRangeIter, hintRangeLocal, posRange, localRangeConst, localRange]

/-- `emplace_pos(pos,args...)` without explicit template argument (663-673): the other overloads
(644-654) cannot be chosen, since their first template parameter is in no parameter.  Here and in
`emplacePosAs` the function parameter pack is left out: it matches anything exactly in all
overloads. -/
def emplacePos : List Cand :=
  [{ fn := .emplacePosLocal, params := [local' (.var 0)] },
   { fn := .emplacePosConstLocal, params := [constLocal (.var 0)] }]

/-- `emplace_pos<U>(pos,args...)` (644-673). -/
def emplacePosAs (u : Ty) : List Cand :=
  [{ fn := .emplacePosBase, params := [localBase], guard := fun R _ => R.acceptable u },
   { fn := .emplacePosConstBase, params := [constLocalBase], guard := fun R _ => R.acceptable u },
   { fn := .emplacePosLocal, params := [(local' (.var 0)).inst 0 u], order := [local' (.var 0)] },
   { fn := .emplacePosConstLocal, params := [(constLocal (.var 0)).inst 0 u]
     order := [constLocal (.var 0)] }]

/-- `erase` (879-886, 891, 925-929). -/
def eraseOverloads : List Cand :=
  [{ fn := .eraseOne, params := [constIterator], template := false },
   { fn := .eraseLocal, params := [.loc (.var 0)] },
   { fn := .eraseRange, params := [constIterator, constIterator], template := false },
   { fn := .eraseLocalRange, params := [.loc (.var 0), .loc (.var 0)] }]

/-! ## Internal overloads, chosen by the static type of the argument -/

/-- The overloads of `get_map_iterator_for(x)` (961-1013) that are viable for static type `t`:
registers and checks the type of the subobject; registers `t`; looks up the type of the subobject;
does not compile. -/
inductive Lookup | checked | exact | only | rejected
  deriving DecidableEq, Repr

def lookups (R : Traits) (t : Ty) : List Lookup :=
  (if R.acceptable t && !R.terminal t then [.checked] else []) ++
  (if R.acceptable t && R.terminal t then [.exact] else []) ++
  (if !R.acceptable t && !R.terminal t then [.only] else []) ++
  (if !R.acceptable t && R.terminal t then [.rejected] else [])

/-- The overloads of `push_back(seg,x)` (1054-1083). -/
inductive Push | virtual | checked | exact
  deriving DecidableEq, Repr

def pushes (R : Traits) (t : Ty) : List Push :=
  (if !R.acceptable t then [.virtual] else []) ++
  (if R.acceptable t && !R.terminal t then [.checked] else []) ++
  (if R.acceptable t && R.terminal t then [.exact] else [])

/-- The overloads of `local_insert<T>(seg,pos,x)` (1085-1133), with `constr` for
`is_constructible<T,U&&>`: insert; insert or construct; construct; does not compile. -/
inductive LocalInsert | insert | either | construct | rejected
  deriving DecidableEq, Repr

def localInserts (R : Traits) (constr : Bool) (u : Ty) : List LocalInsert :=
  (if R.impl u && !constr then [.insert] else []) ++
  (if R.impl u && constr then [.either] else []) ++
  (if !R.impl u && constr then [.construct] else []) ++
  (if !R.impl u && !constr then [.rejected] else [])

end PolyColl.Interface
