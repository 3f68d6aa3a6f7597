import Verif.Model.Segment
/-!
# Overloads of `construct` (`detail/allocator_adaptor.hpp`)

Standard containers inside the library create their elements by `construct(p,args...)` of an
`allocator_adaptor`.  Modelled is which overload is chosen, which constructors are called by it, and
with which arguments.
-/

namespace PolyColl.Construct

/-- The types `construct` distinguishes. -/
inductive Typ where
  /-- `value_holder<T>` -/
  | holder (i : Nat)
  | pair (a b : Typ)
  /-- any other type -/
  | other (i : Nat)
  deriving DecidableEq, Repr

/-- How an argument is passed: `T&`, `const T&`, `T&&`. -/
inductive Cat where
  | lvalue
  | constLvalue
  | rvalue
  deriving DecidableEq, Repr

/-- An object: a variable, or a member of a pair. -/
inductive Ref where
  | var (n : Nat)
  | first (r : Ref)
  | second (r : Ref)
  deriving DecidableEq, Repr

/-- Arguments of constructors. -/
inductive CArg where
  | obj (r : Ref) (t : Typ) (c : Cat)
  /-- `std::allocator_arg` -/
  | allocArg
  /-- the allocator_adaptor, `*this` -/
  | adaptor
  deriving DecidableEq, Repr

/-- Arguments of `construct` after the pointer: as they are, or `std::piecewise_construct` and two tuples (a tuple of `T&`, `const T&`,
`T&&` being what `std::get` on the moved tuple gives). -/
inductive Args where
  | plain (xs : List CArg)
  | piecewise (xs ys : List CArg)
  deriving DecidableEq, Repr

/-- What is known of types at compile time. -/
structure Types where
  /-- `std::uses_allocator<T,allocator_adaptor>` -/
  usesAllocator : Typ → Bool
  /-- `is_constructible<T,Args...>` -/
  constructible : Typ → List CArg → Bool
  /-- the primary template looks for a member `allocator_type` -/
  pair_uses : ∀ a b, usesAllocator (.pair a b) = false

/-- What is created at `p`. -/
inductive Made where
  /-- `::new (p) T(args...)` -/
  | object (t : Typ) (args : List CArg)
  /-- `::new (p) value_holder<T>(allocator(),args...)`: with the user's allocator, not the adaptor -/
  | holder (i : Nat) (args : List CArg)
  /-- `::new (p) std::pair<T1,T2>(std::piecewise_construct,x,y)`: the members are created from the elements of `x` and of `y` -/
  | pieces (a b : Typ) (xs ys : List CArg)
  /-- not considered -/
  | bad
  deriving DecidableEq, Repr

variable (S : Types)

/-- `uses_alloc_ctor<T,allocator_adaptor&,Args...>` (59-75). -/
def usesAllocCtor (t : Typ) (args : List CArg) : Nat :=
  let ic := if S.constructible t (.allocArg :: .adaptor :: args) then 1 else 0
  if S.usesAllocator t then 2 - ic else 0

/-- `construct_` (224-246). -/
def construct_ (n : Nat) (t : Typ) (args : List CArg) : Made :=
  match n with
  | 0 => .object t args
  | 1 => .object t (.allocArg :: .adaptor :: args)
  | _ => .object t (args ++ [.adaptor])

/-- `transform_tuple` (248-275). -/
def transformTuple (n : Nat) (xs : List CArg) : List CArg :=
  match n with
  | 0 => xs
  | 1 => .allocArg :: .adaptor :: xs
  | _ => xs ++ [.adaptor]

/-- `construct(std::pair<T1,T2>*,std::piecewise_construct_t,std::tuple<Args1...>,std::tuple<Args2...>)` (153-169). -/
def constructPiecewise (a b : Typ) (xs ys : List CArg) : Made :=
  .pieces a b (transformTuple (usesAllocCtor S a xs) xs) (transformTuple (usesAllocCtor S b ys) ys)

/-- Overload resolution for `construct(p,args...)`: for holders 147-151; for pairs 153-169 (piecewise), 171-175 (no arguments), 177-184 (two
arguments), 186-192 (const pair), 194-201 (pair rvalue), these being more specialized than the general one; 139-145 in all other cases, among
them a pair that is a non-const lvalue, which binds better to `Args&&...`. -/
def construct : Typ → Args → Made
  | .holder i, .plain xs => .holder i xs
  | .pair a b, .piecewise xs ys => constructPiecewise S a b xs ys
  | .pair a b, .plain [] => constructPiecewise S a b [] []
  | .pair a b, .plain [x, y] => constructPiecewise S a b [x] [y]
  | .pair a b, .plain [.obj r (.pair u v) .constLvalue] =>
    constructPiecewise S a b [.obj (.first r) u .constLvalue] [.obj (.second r) v .constLvalue]
  | .pair a b, .plain [.obj r (.pair u v) .rvalue] =>
    constructPiecewise S a b [.obj (.first r) u .rvalue] [.obj (.second r) v .rvalue]
  | t, .plain xs => construct_ (usesAllocCtor S t xs) t xs
  | _, .piecewise _ _ => .bad

/-! ### The map of segments -/

/-- `segment`, the type of the values in the map. -/
def segment : Typ := .other 0

/-- `const std::type_info*`, the type of the keys. -/
def key : Typ := .other 1

/-- Is it a segment? -/
def isSegment : CArg → Bool
  | .obj _ t _ => t == segment
  | _ => false

/-- The public constructors of `segment` (`detail/segment.hpp` 66-74); it has a member `allocator_type` (43).  Keys are copied. -/
def mapTypes : Types where
  usesAllocator t := t == segment
  constructible t args :=
    if t = segment then
      match args with
      | [x] => isSegment x
      | [x, .adaptor] => isSegment x
      | _ => false
    else args.length == 1
  pair_uses _ _ := rfl

variable {V : Type} (E : Env V)

/-- The constructor of `segment` chosen by the arguments, run on the segment that is copied or moved from; `al` is the allocator of the map. -/
def segmentCtor (al : Alloc) : List CArg → Prog (Seg V) (Seg V)
  | [.obj _ t c] =>
    if t = segment then
      match c with
      -- `segment(segment&&)`: the source has no implementation any more, which is not represented here
      | .rvalue => Prog.undef
      | _ => do
        let x ← Prog.get
        Seg.copy E x
    else Prog.undef
  | [.obj _ t c, .adaptor] =>
    if t = segment then
      match c with
      | .rvalue => Seg.moveAl E al
      | _ => do
        let x ← Prog.get
        Seg.copyAl E x al
    else Prog.undef
  | _ => Prog.undef

/-- What happens to the segment when the map creates an element: the constructor of the second member of the pair.  A pair that is constructed
from a pair without the adaptor passes the members on. -/
def nodeSegment (al : Alloc) : Made → Prog (Seg V) (Seg V)
  | .pieces _ _ _ ys => segmentCtor E al ys
  | .object _ [.obj r (.pair _ v) c] => segmentCtor E al [.obj (.second r) v c]
  | _ => Prog.undef

end PolyColl.Construct
