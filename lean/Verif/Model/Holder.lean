import Verif.Model.Vec
/-!
# value_holder and allocator_adaptor

The other files take the elements of segments to be values.  Here is what is below: vectors contain
`value_holder<T>`s, in whose storage objects of type T are created and destroyed
(`detail/value_holder.hpp`, `detail/allocator_adaptor.hpp`).
-/

namespace PolyColl.Holder
open PolyColl Prog

/-- Creation or destruction of an object of type T in the holder at an address; by way of the
`construct` or `destroy` of an allocator, or directly (`none`: placement new, `~T()`). -/
inductive Event where
  | construct (via : Option Alloc) (a : Nat)
  | destroy (via : Option Alloc) (a : Nat)
  deriving DecidableEq, Repr

/-- The address an event is about. -/
def Event.addr : Event → Nat
  | .construct _ a => a
  | .destroy _ a => a

/-- How an event is brought about. -/
def Event.via : Event → Option Alloc
  | .construct v _ => v
  | .destroy v _ => v

/-- The storage of the holders of a type: the object of type T, if there is one, for each address;
and the events so far, latest first. -/
structure Store (V : Type) where
  obj : Nat → Option V
  log : List Event

/-- What is given of a type: its traits, and the value of an object after it is moved from, and after
it is move assigned to itself.  `construct` of the user's allocator need not call the copy and move
constructors: with `std::scoped_allocator_adaptor` it calls constructors that take an allocator. -/
structure Elem (V : Type) where
  ty : Ty
  moved : V → V
  selfMoved : V → V
  /-- `construct(p,x)` of the allocator does not throw, `x` being a `const T&` -/
  consCopy : Bool
  /-- the same for `x` a `T&&` -/
  consMove : Bool

variable {V : Type} (E : Env V) (T : Elem V)

/-- The object of type T at an address: undefined if there is none. -/
def value (a : Nat) : Prog (Store V) V := do
  let s ← Prog.get
  Prog.ofOption (s.obj a)

/-- Change of the value of an object. -/
def put (a : Nat) (v : V) : Prog (Store V) Unit := do
  let s ← Prog.get
  Prog.set { s with obj := fun b => if b = a then some v else s.obj b }

/-- Creation of an object: if there is one already (which would never be destroyed) the outcome is
`ub`. -/
def create (via : Option Alloc) (a : Nat) (v : V) : Prog (Store V) Unit := do
  let s ← Prog.get
  if s.obj a = none then
    Prog.set ⟨fun b => if b = a then some v else s.obj b, .construct via a :: s.log⟩
  else Prog.undef

/-- `~T()`, or an allocator's `destroy`: undefined if there is no object. -/
def destroy (via : Option Alloc) (a : Nat) : Prog (Store V) Unit := do
  let s ← Prog.get
  if s.obj a = none then Prog.undef
  else Prog.set ⟨fun b => if b = a then none else s.obj b, .destroy via a :: s.log⟩

/-- Does construction from a `const T&` not throw? -/
def quietCopy (via : Option Alloc) : Bool := if via.isSome then T.consCopy else (E.traits T.ty).nothrowCopy

/-- Does construction from a `T&&` not throw? -/
def quietMove (via : Option Alloc) : Bool := if via.isSome then T.consMove else (E.traits T.ty).nothrowMove

/-- Construction of a T from a copied value: by `construct` (`via` an allocator) or placement new. -/
def newCopy (via : Option Alloc) (a : Nat) (v : V) : Prog (Store V) Unit := do
  E.userOp (quietCopy E T via)
  create via a v

/-- The same for a value moved from. -/
def newMove (via : Option Alloc) (a : Nat) (v : V) : Prog (Store V) Unit := do
  E.userOp (quietMove E T via)
  create via a v

/-- The same for arguments of another constructor. -/
def newEmplace (via : Option Alloc) (a : Nat) (v : V) : Prog (Store V) Unit := do
  E.userOp false
  create via a v

/-- `copy(al,x)` (167-180), `copy(x)` (182-192). -/
def copy (via : Option Alloc) (a : Nat) (v : V) : Prog (Store V) Unit :=
  if (E.traits T.ty).copyable then newCopy E T via a v
  else Prog.raise (.notCopyConstructible T.ty)

/-- `value_holder(al,const T&)` (91-97), `value_holder(const T&)` (133-135). -/
def ctorCopy (via : Option Alloc) (a : Nat) (v : V) : Prog (Store V) Unit := copy E T via a v

/-- `value_holder(al,T&&)` (98-104), `value_holder(T&&)` (136-138). -/
def ctorMove (via : Option Alloc) (a : Nat) (v : V) : Prog (Store V) Unit := newMove E T via a v

/-- `value_holder(al,value_holder_emplacing_ctor_t,args...)` (105-111) and 139-141. -/
def ctorEmplace (via : Option Alloc) (a : Nat) (v : V) : Prog (Store V) Unit := newEmplace E via a v

/-- `value_holder(al,const value_holder&)` (112-118), `value_holder(const value_holder&)` (142-144). -/
def ctorCopyHolder (via : Option Alloc) (a b : Nat) : Prog (Store V) Unit := do
  let v ← value b
  copy E T via a v

/-- `value_holder(al,value_holder&&)` (119-126), `value_holder(value_holder&&)` (145-147).  The source
keeps its value if the constructor throws (a simplification). -/
def ctorMoveHolder (via : Option Alloc) (a b : Nat) : Prog (Store V) Unit := do
  let v ← value b
  newMove E T via a v
  put b (T.moved v)

/-- `move_assign(x)` for the object `x` in holder `b` (194-212). -/
def moveAssign (a b : Nat) : Prog (Store V) Unit := do
  if (E.traits T.ty).moveAssignable then
    -- 196-199
    let _ ← value a
    let v ← value b
    E.userOp (E.traits T.ty).nothrowMoveAssign
    if a = b then put a (T.selfMoved v)
    else
      put a v
      put b (T.moved v)
  else
    -- 201-212: emulated assignment
    let v ← value b
    if a ≠ b then
      let _ ← value a
      destroy none a
      newMove E T none a v
      put b (T.moved v)
    else return ()

/-- `operator=(value_holder&&)` (150-156). -/
def assign (a b : Nat) : Prog (Store V) Unit := moveAssign E T a b

/-- `~value_holder()` (158). -/
def dtor (a : Nat) : Prog (Store V) Unit := do
  let _ ← value a
  destroy none a

/-- `operator==` (160-164, 214-224). -/
def equal (a b : Nat) : Prog (Store V) Bool := do
  let x ← value a
  let y ← value b
  if (E.traits T.ty).eqComparable then
    E.userOp (E.traits T.ty).nothrowEq
    return E.eqv x y
  else Prog.raise (.notEqualityComparable T.ty)

/-- What a holder can be constructed from: a T, arguments for a T, another holder. -/
inductive Source (V : Type) where
  | copy (v : V)
  | move (v : V)
  | emplace (v : V)
  | copyHolder (b : Nat)
  | moveHolder (b : Nat)

/-- The constructors of `value_holder`, with or without an allocator. -/
def ctor (via : Option Alloc) (a : Nat) : Source V → Prog (Store V) Unit
  | .copy v => ctorCopy E T via a v
  | .move v => ctorMove E T via a v
  | .emplace v => ctorEmplace E via a v
  | .copyHolder b => ctorCopyHolder E T via a b
  | .moveHolder b => ctorMoveHolder E T via a b

/-- Operations of a client of `value_holder`, like `std::vector`, with an allocator_adaptor. -/
inductive HOp (V : Type) where
  /-- `allocator_adaptor::construct(value_holder<T>*,args...)` (`detail/allocator_adaptor.hpp` 147-151) -/
  | construct (al : Alloc) (a : Nat) (src : Source V)
  /-- `allocator_adaptor::destroy(value_holder<T>*)` (`detail/allocator_adaptor.hpp` 209-215), which
  destroys the T and does not call `~value_holder` -/
  | destroy (al : Alloc) (a : Nat)
  /-- construction without the adaptor (see the comment in `detail/value_holder.hpp` 128-131) -/
  | make (a : Nat) (src : Source V)
  /-- `~value_holder()` -/
  | drop (a : Nat)
  /-- `x=std::move(y)` -/
  | assign (a b : Nat)
  /-- `x==y` -/
  | equal (a b : Nat)

/-- Their execution. -/
def HOp.run : HOp V → Prog (Store V) Unit
  | .construct al a src => ctor E T (some al) a src
  | .destroy al a => Holder.destroy (some al) a
  | .make a src => ctor E T none a src
  | .drop a => dtor a
  | .assign a b => Holder.assign E T a b
  | .equal a b => do
    let _ ← Holder.equal E T a b
    return ()

/-! ### Exception specifications -/

/-- `noexcept` of the constructors from a T or a holder (91-147). -/
def Source.noexcept (t : Traits) : Source V → Bool
  | .copy _ | .copyHolder _ => t.copyable && t.nothrowCopy
  | .move _ | .moveHolder _ => t.nothrowMove
  | .emplace _ => false

/-- `noexcept` of the operations: move assignment (150-152), the destructor (158), `operator==` (160-161,
`detail/is_nothrow_eq_comparable.hpp` 27-41). -/
def HOp.noexcept (t : Traits) : HOp V → Bool
  | .construct _ _ src => src.noexcept t
  | .make _ src => src.noexcept t
  | .destroy _ _ => true
  | .drop _ => true
  | .assign _ _ => t.moveAssignable && t.nothrowMoveAssign || !t.moveAssignable
  | .equal _ _ => t.eqComparable && t.nothrowEq

end PolyColl.Holder
