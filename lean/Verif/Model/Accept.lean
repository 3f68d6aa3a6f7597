/-!
# Which types can be stored: traits and what is instantiated

(`detail/is_acceptable.hpp`, `detail/is_invocable.hpp`, `detail/is_equality_comparable.hpp`,
`detail/is_nothrow_eq_comparable.hpp`, `detail/base_model.hpp`, `detail/function_model.hpp`,
`detail/any_model.hpp`, `detail/callable_wrapper.hpp`, `detail/callable_wrapper_iterator.hpp`,
`detail/stride_iterator.hpp`, and the members of `packed_segment`, `split_segment` and `value_holder`
that are instantiated with the segment for a type: the virtual ones, since constructing an object of
the class uses them.)

A type is described by its member functions and operators, a class hierarchy by its bases.  What the
traits say of a type, and which of the expressions in the instantiated functions are well-formed, is
computed from these descriptions.
-/

namespace PolyColl.Accept

/-! ## Overload resolution on objects of one class -/

/-- Value category and constness of an expression of class type. -/
structure Cat where
  rvalue : Bool
  const : Bool
  deriving DecidableEq, Repr

/-- An lvalue of type `T`. -/
def Cat.lv : Cat := ⟨false, false⟩
/-- An lvalue of type `const T`. -/
def Cat.clv : Cat := ⟨false, true⟩
/-- An rvalue of type `T`, as `std::declval<T>()`. -/
def Cat.rv : Cat := ⟨true, false⟩
/-- An rvalue of type `const T`, as `std::declval<const T>()`. -/
def Cat.crv : Cat := ⟨true, true⟩

/-- Parameters that take an object of the class. -/
inductive Par
  /-- implicit object parameter of a member function without ref-qualifier, `const` or not -/
  | obj (const : Bool)
  /-- `T` -/
  | byValue
  /-- `T&` or `const T&`; implicit object parameter of a member function with ref-qualifier `&` -/
  | lref (const : Bool)
  /-- `T&&` or `const T&&`; implicit object parameter with ref-qualifier `&&` -/
  | rref (const : Bool)
  deriving DecidableEq, Repr

/-- The parameter can be bound to the argument ([dcl.init.ref]; [over.match.funcs] for implicit object
parameters: without ref-qualifier rvalues can be bound, too).  Copying into parameters by value is
taken to be possible. -/
def Par.binds : Par → Cat → Bool
  | .obj k, e => k || !e.const
  | .byValue, _ => true
  | .lref k, e => if k then true else !e.rvalue && !e.const
  | .rref k, e => e.rvalue && (k || !e.const)

/-- What a reference parameter refers to is const; `none` for parameters by value. -/
def Par.refConst : Par → Option Bool
  | .obj k => some k
  | .byValue => none
  | .lref k => some k
  | .rref k => some k

/-- Binding `p` to `e` is better than binding `q` to it ([over.ics.rank] 3.2.3 and 3.2.6): an rvalue
reference rather than an lvalue reference to an rvalue, member functions without ref-qualifier left
out; or a reference to non-const rather than to const.  By value is neither better nor worse. -/
def Par.better (e : Cat) (p q : Par) : Bool :=
  (match p, q with
   | .rref _, .lref _ => e.rvalue
   | _, _ => false) ||
  (match p.refConst, q.refConst with
   | some false, some true => true
   | _, _ => false)

/-- A function among several with the same name. -/
structure Fun where
  /-- what tells it from the others, and its result -/
  name : Nat
  /-- parameters that take objects of the class: the implicit object parameter of `operator()`, both
  operands of `operator==` -/
  pars : List Par
  /-- how well the other arguments of the call convert to the other parameters, `0` being exact;
  `none` if they do not -/
  ranks : Option (List Nat) := some []
  deleted : Bool := false
  noexcept : Bool := false
  deriving DecidableEq, Repr

/-- Argument by argument. -/
def bindsAll : List Par → List Cat → Bool
  | [], [] => true
  | p :: ps, e :: es => p.binds e && bindsAll ps es
  | _, _ => false

/-- [over.match.viable]. -/
def Fun.viable (f : Fun) (es : List Cat) : Bool := bindsAll f.pars es && f.ranks.isSome

/-- No argument of class type is bound worse. -/
def noWorse : List Cat → List Par → List Par → Bool
  | e :: es, p :: ps, q :: qs => !Par.better e q p && noWorse es ps qs
  | _, _, _ => true

/-- Some argument of class type is bound better. -/
def someBetter : List Cat → List Par → List Par → Bool
  | e :: es, p :: ps, q :: qs => Par.better e p q || someBetter es ps qs
  | _, _, _ => false

/-- [over.match.best] for functions that are not templates. -/
def Fun.better (es : List Cat) (f g : Fun) : Bool :=
  let r := (f.ranks.getD []).zip (g.ranks.getD [])
  noWorse es f.pars g.pars && r.all (fun p => p.1 ≤ p.2) &&
  (someBetter es f.pars g.pars || r.any (fun p => p.1 < p.2))

/-- Overload resolution: the viable function that is better than all other viable ones. -/
def resolve (fs : List Fun) (es : List Cat) : Option Fun :=
  let vs := fs.filter (·.viable es)
  vs.find? fun f => vs.all fun g => g == f || f.better es g

/-- The call is well-formed and its result is as wanted. -/
def wellFormed (good : Nat → Bool) (fs : List Fun) (es : List Cat) : Bool :=
  match resolve fs es with
  | some f => !f.deleted && good f.name
  | none => false

/-! ## Types as far as all collections look at them -/

/-- Special member functions of a type, as the traits of the standard library see them. -/
structure Special where
  /-- `std::is_move_constructible` -/
  moveCtor : Bool
  /-- `std::is_nothrow_move_constructible` -/
  nothrowMoveCtor : Bool
  /-- `std::is_move_assignable` -/
  moveAssign : Bool
  /-- the body of the move assignment compiles, where there is one; it need not if it is a member of
  a class template -/
  assignBody : Bool := true
  deriving DecidableEq, Repr

/-- `is_acceptable.hpp` 29-36. -/
def acceptable (impl : Bool) (s : Special) : Bool :=
  impl && s.moveCtor && (s.moveAssign || s.nothrowMoveCtor)

/-- What `value_holder` needs to move elements: its constructors (`value_holder.hpp` 98-104, 117-123) move
construct; `move_assign` (194-212) assigns if the type is move assignable, and else has a
`static_assert` that it is nothrow move constructible. -/
def holderMoves (s : Special) : Bool :=
  s.moveCtor && (if s.moveAssign then s.assignBody else s.nothrowMoveCtor)

/-! ## `function_collection` -/

/-- `is_invocable_r<R,F,Args...>` (`is_invocable.hpp`), `F` being the type of the expression `e`.  With
a standard library that has it (`std17`), it is `std::is_invocable_r`: `std::declval<F>()` is called.
Otherwise (36-42) `std::function<R(Args...)>` has to be constructible from a
`std::reference_wrapper`, which calls an lvalue.  `conv` says which results convert to `R`. -/
def isInvocableR (std17 : Bool) (conv : Nat → Bool) (fs : List Fun) (e : Cat) : Bool :=
  if std17 then wellFormed conv fs [e] else wellFormed conv fs [{ e with rvalue := false }]

/-- `function_model<R(Args...)>::is_implementation<Callable>` (`function_model.hpp` 52-53): for
`Callable&`. -/
def functionImpl (std17 : Bool) (conv : Nat → Bool) (fs : List Fun) : Bool :=
  isInvocableR std17 conv fs .lv

/-- `std::is_constructible<callable_wrapper<R(Args...)>,Callable&>` for `T` or `const T`
(`callable_wrapper.hpp` 37-44): `is_invocable_r` is asked about `Callable`, not `Callable&`.
`Callable` is taken not to be a `callable_wrapper`. -/
def wrapperFrom (std17 : Bool) (conv : Nat → Bool) (fs : List Fun) (const : Bool) : Bool :=
  isInvocableR std17 conv fs ⟨true, const⟩

/-- `callable_wrapper_iterator` (const or not) converts explicitly to `T*` or `const T*`
(`callable_wrapper_iterator.hpp` 69-82).  The template argument is deduced from the type converted
to, constness included ([temp.deduct.conv]). -/
def iteratorTo (std17 : Bool) (conv : Nat → Bool) (fs : List Fun) (itConst const : Bool) : Bool :=
  wrapperFrom std17 conv fs const && (!itConst || const)

/-- `callable_wrapper::info` (`callable_wrapper.hpp` 77-92): the callable is called by way of
`std::ref`, and a `std::function` is made of this. -/
def tableCalls (conv : Nat → Bool) (fs : List Fun) : Bool := wellFormed conv fs [.lv]

/-- `split_segment<function_model,T,Allocator>` can be instantiated: `make_value_type`
(`function_model.hpp` 116-117, used in `split_segment.hpp` 380-385), and `const_iterator(p)` for
const base iterators `p` in the virtual `insert`, `insert_move` and `erase` (206-207, 217-218, 243-244,
252-253). -/
def functionSegment (std17 : Bool) (conv : Nat → Bool) (fs : List Fun) (s : Special) : Bool :=
  holderMoves s && wrapperFrom std17 conv fs false && tableCalls conv fs &&
  iteratorTo std17 conv fs true true

/-! ## `base_collection` -/

/-- A direct base class. -/
structure BaseSpec where
  cls : Nat
  virt : Bool := false
  pub : Bool := true
  deriving DecidableEq, Repr

/-- The direct bases of each class.  Classes are numbered in the order of definition. -/
abbrev Hier := Nat → List BaseSpec

/-- Bases come before derived classes. -/
def Hier.Ordered (h : Hier) : Prop := ∀ c, ∀ b ∈ h c, b.cls < c

/-- One way from a class up to one of its bases. -/
structure Way where
  /-- where it ends -/
  last : Nat
  /-- the subobject it ends in: the classes passed since the last virtual base, which is named first
  ([class.mi]: subobjects for a virtual base are one and the same), and whether there is one -/
  sub : Bool × List Nat
  /-- all bases passed are public -/
  pub : Bool
  /-- some base passed is virtual -/
  virt : Bool
  deriving DecidableEq, Repr

/-- Going on to a direct base. -/
def Way.step (w : Way) (b : BaseSpec) : Way :=
  { last := b.cls
    sub := if b.virt then (true, [b.cls]) else (w.sub.1, w.sub.2 ++ [b.cls])
    pub := w.pub && b.pub
    virt := w.virt || b.virt }

/-- All ways that go on from a way, this one included, of at most `n` steps more. -/
def waysFrom (h : Hier) : Nat → Way → List Way
  | 0, w => [w]
  | n + 1, w => w :: (h w.last).flatMap fun b => waysFrom h n (w.step b)

/-- All ways up from a class: there are no more steps than classes before it. -/
def ways (h : Hier) (d : Nat) : List Way := waysFrom h d ⟨d, (false, [d]), true, false⟩

/-- Those that end in `b`. -/
def waysTo (h : Hier) (d b : Nat) : List Way := (ways h d).filter (·.last == b)

/-- `std::is_base_of<B,D>`, `base_model::is_implementation` (`base_model.hpp` 37-38): whether public,
ambiguous or virtual, or the class itself. -/
def isBaseOf (h : Hier) (b d : Nat) : Bool := !(waysTo h d b).isEmpty

/-- `D*` converts to `B*` ([conv.ptr]) in code that is not of these classes: `B` is a base of `D`,
unambiguous, and accessible ([class.access.base], [class.paths]: on some way). -/
def upcast (h : Hier) (d b : Nat) : Bool :=
  match waysTo h d b with
  | [] => false
  | w :: ws => ws.all (fun w' => w'.sub == w.sub) && (w :: ws).any (·.pub)

/-- `static_cast<D*>` of a `B*` ([expr.static.cast]): if `D*` converts to `B*`, and `B` is neither a
virtual base of `D` nor a base of one. -/
def downcast (h : Hier) (b d : Nat) : Bool :=
  upcast h d b && (waysTo h d b).all (!·.virt)

/-- `packed_segment<base_model,D,Allocator>` can be instantiated: `value_ptr` (`base_model.hpp`
107-111, used in `packed_segment.hpp` 102-112, 277-280, 305-328) converts `const D*` to
`const B*`; `const_iterator(p)` for base iterators `p`, in the virtual `insert`, `insert_move`,
`erase`, `erase_till_end` and `erase_from_begin` (163-164, 171-172, 200-201, 208-209, 216-224, 295-298),
converts back (`stride_iterator.hpp` 93-104). -/
def baseSegment (h : Hier) (b d : Nat) (s : Special) : Bool :=
  holderMoves s && upcast h d b && downcast h b d

/-! ## `any_collection` -/

/-- What is said of types that may be instantiations of `type_erasure::any`. -/
structure AnyTy where
  /-- it is a `type_erasure::any<Concept2,T>` -/
  isAny : Bool
  /-- `is_relaxed<Concept2>` -/
  relaxed : Bool := false
  /-- `assignable<>` is a subconcept of `Concept2` -/
  assignable : Bool := false
  /-- `assignable<_self,_self&&>` is a subconcept of `Concept2` -/
  assignableRv : Bool := false
  deriving DecidableEq, Repr

/-- `is_acceptable` for `any_model`: the specialisation in `any_model.hpp` 53-63, otherwise the general
case with `is_implementation` (103-105), which is always true. -/
def anyAcceptable (t : AnyTy) (s : Special) : Bool :=
  if t.isAny && !t.relaxed && !t.assignable && !t.assignableRv then false
  else acceptable true s

/-! ## Comparison of elements -/

/-- `is_equality_comparable` (`is_equality_comparable.hpp` 25-29): `boost::has_equal_to<T,T,bool>`, which
compares lvalues of type `T`.  `conv` says which results convert to `bool`. -/
def isEqComparable (conv : Nat → Bool) (fs : List Fun) : Bool := wellFormed conv fs [.lv, .lv]

/-- `is_nothrow_equality_comparable` (`is_nothrow_eq_comparable.hpp` 26-38); it compares
`std::declval<T>()`, rvalues.  `none`: the expression in `noexcept` is ill-formed. -/
def isNothrowEqComparable (conv : Nat → Bool) (fs : List Fun) : Option Bool :=
  if isEqComparable conv fs then
    match resolve fs [.rv, .rv] with
    | some f => if f.deleted then none else some f.noexcept
    | none => none
  else some false

/-- What comes of `operator==` of `value_holder<T>` (`value_holder.hpp` 160-164, 214-224). -/
inductive HolderEq
  /-- it does not compile -/
  | illFormed
  /-- it throws `not_equality_comparable` -/
  | throws
  /-- it throws although it is declared `noexcept` -/
  | terminates
  /-- it calls the function `f`; it is declared `noexcept` or not -/
  | calls (f : Fun) (noexcept : Bool)
  deriving DecidableEq, Repr

/-- Both operands are const lvalues: `value()` of a const holder and `const T& x` (218). -/
def holderEq (conv : Nat → Bool) (fs : List Fun) : HolderEq :=
  match isNothrowEqComparable conv fs with
  | none => .illFormed
  | some n =>
    if isEqComparable conv fs then
      match resolve fs [.clv, .clv] with
      | some f => if !f.deleted && conv f.name then .calls f n else .illFormed
      | none => .illFormed
    else if n then .terminates else .throws

end PolyColl.Accept
