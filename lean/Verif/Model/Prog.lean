/-!
# Outcomes of running C++ code

A C++ operation on an object of type `X` either returns normally, throws
(leaving the object in some state) or has undefined behaviour.  This file
defines the corresponding monad `Prog`, and the predicate `Runs` used to state
what an operation guarantees.

There is no file of /repo behind this module; it is the language the other
model files are written in.
-/

namespace PolyColl

/-- C++ types, identified as `std::type_info::operator==` does. -/
abbrev Ty := Nat

/-- Addresses of `std::type_info` objects.  Several of them may describe one type
(`detail/type_info_map.hpp` 25-37). -/
abbrev TI := Nat

/-- Allocator values up to `operator==`. -/
abbrev Alloc := Nat

/-- Exceptions.  The first three are those of `exception.hpp` 23-51, with the type they carry
in `pinfo`; the others stand for `std::length_error`, `std::bad_alloc` and anything thrown
by user code. -/
inductive Exc
  | unregistered (t : Ty)
  | notCopyConstructible (t : Ty)
  | notEqualityComparable (t : Ty)
  | lengthError
  | badAlloc
  | user
  deriving DecidableEq, Repr

/-- Global state: `next` is the next never used address block, `tick` counts the operations
that may throw and is the index into the fault schedule. -/
structure World where
  next : Nat
  tick : Nat
  deriving DecidableEq, Repr

/-- Result of an operation on an object of type `X`.  `exc` carries the object as the
exception leaves it. -/
inductive Out (X α : Type) where
  | ok (a : α) (x : X) (w : World)
  | exc (e : Exc) (x : X) (w : World)
  | ub
  deriving Repr

/-- An operation on an object of type `X` returning an `α`. -/
def Prog (X α : Type) := X → World → Out X α

namespace Prog

variable {X Y α β : Type}

protected def pure (a : α) : Prog X α := fun x w => .ok a x w

protected def bind (p : Prog X α) (f : α → Prog X β) : Prog X β := fun x w =>
  match p x w with
  | .ok a x' w' => f a x' w'
  | .exc e x' w' => .exc e x' w'
  | .ub => .ub

instance : Monad (Prog X) where
  pure := Prog.pure
  bind := Prog.bind

/-- Undefined behaviour. -/
def undef : Prog X α := fun _ _ => .ub

/-- `throw e;` -/
def raise (e : Exc) : Prog X α := fun x w => .exc e x w

/-- Read the object. -/
def get : Prog X X := fun x w => .ok x x w

/-- Overwrite the object. -/
def set (x : X) : Prog X Unit := fun _ w => .ok () x w

/-- Read the global state (used only where fresh identities are handed out). -/
def world : Prog X World := fun x w => .ok w x w

/-- `try{p}catch(...){h;throw;}` -/
def onExc (p : Prog X α) (h : Prog X Unit) : Prog X α := fun x w =>
  match p x w with
  | .ok a x' w' => .ok a x' w'
  | .exc e x' w' =>
    match h x' w' with
    | .ok _ x'' w'' => .exc e x'' w''
    | .exc e' x'' w'' => .exc e' x'' w''
    | .ub => .ub
  | .ub => .ub

/-- Run an operation on a part of the object. -/
def zoom (gt : X → Y) (st : X → Y → X) (p : Prog Y α) : Prog X α := fun x w =>
  match p (gt x) w with
  | .ok a y w' => .ok a (st x y) w'
  | .exc e y w' => .exc e (st x y) w'
  | .ub => .ub

/-- Run an operation on a local object `y` and return a function of its result and of the final
`y`.  If it throws, the local object is gone. -/
def locally (y : Y) (p : Prog Y β) (f : β → Y → α) : Prog X α := fun x w =>
  match p y w with
  | .ok b y' w' => .ok (f b y') x w'
  | .exc e _ w' => .exc e x w'
  | .ub => .ub

/-- Use a value if there is one, undefined behaviour otherwise. -/
def ofOption : Option α → Prog X α
  | some a => Prog.pure a
  | none => undef

/-- Run `f` on each element of a list in turn. -/
def each (f : β → Prog X Unit) : List β → Prog X Unit
  | [] => Prog.pure ()
  | b :: bs => Prog.bind (f b) fun _ => each f bs

/-- Run `f` on each element of a list in turn and collect the results. -/
def mapAll (f : β → Prog X α) : List β → Prog X (List α)
  | [] => Prog.pure []
  | b :: bs => Prog.bind (f b) fun a => Prog.bind (mapAll f bs) fun as => Prog.pure (a :: as)

/-- `Runs p x w Q R`: started on object `x` in world `w`, `p` has no undefined behaviour;
if it returns normally the result and new state satisfy `Q`; if it throws, the exception and
the state left behind satisfy `R`. -/
def Runs (p : Prog X α) (x : X) (w : World)
    (Q : α → X → World → Prop) (R : Exc → X → World → Prop) : Prop :=
  match p x w with
  | .ok a x' w' => Q a x' w'
  | .exc e x' w' => R e x' w'
  | .ub => False

end Prog

end PolyColl
