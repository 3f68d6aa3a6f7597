import Verif.Model.Prog
/-!
# std::vector, value_holder and the environment

`Env` collects everything the library does not decide: element traits, which operation
throws when, the growth policy of `std::vector`, the behaviour of `std::unordered_map`.
All theorems quantify over it.
-/

namespace PolyColl

/-- Traits of an element type that the library's behaviour depends on
(`detail/value_holder.hpp` 74-81, 90-164, `detail/is_acceptable.hpp` 29-36).  Every type is taken to
be move constructible (`is_acceptable`). -/
structure Traits where
  copyable : Bool
  nothrowCopy : Bool
  nothrowMove : Bool
  moveAssignable : Bool
  nothrowMoveAssign : Bool
  eqComparable : Bool
  /-- `operator==` does not throw.  The library looks at rvalues (`detail/is_nothrow_eq_comparable.hpp` 37-41) but
  compares const lvalues (`detail/value_holder.hpp` 216-219); the difference is not modelled. -/
  nothrowEq : Bool
  deriving DecidableEq, Repr

/-- `value_holder<T>`'s move assignment does not throw: either T's does not, or T is not move
assignable and the assignment is emulated with a nothrow move construction
(`detail/value_holder.hpp` 150-156, 194-212). -/
def Traits.nothrowAssign (t : Traits) : Bool :=
  if t.moveAssignable then t.nothrowMoveAssign else true

/-- `is_acceptable` (`detail/is_acceptable.hpp` 29-36), minus `is_implementation`. -/
def Traits.acceptable (t : Traits) : Bool := t.moveAssignable || t.nothrowMove

/-- What the standard leaves to implementations of `std::vector`. -/
structure StdLib where
  /-- capacity after `reserve(n)` when `n` exceeds the capacity -/
  reserveCap : Nat → Nat
  reserveCap_ge : ∀ n, n ≤ reserveCap n
  /-- capacity after an insertion at size `s` that needs room for `n` elements, `m` being `max_size()` -/
  growCap : Nat → Nat → Nat → Nat
  growCap_ge : ∀ m s n, n ≤ growCap m s n
  /-- capacity after `shrink_to_fit` at size `s` and capacity `c` -/
  shrinkCap : Nat → Nat → Nat
  shrinkCap_ge : ∀ s c, s ≤ c → s ≤ shrinkCap s c
  shrinkCap_le : ∀ s c, s ≤ c → shrinkCap s c ≤ c
  /-- `insert` of a single-pass range elsewhere than at the end builds a temporary vector first (as in
  libstdc++), instead of appending and rotating (as in libc++ and Microsoft's library) -/
  inputTemp : Bool

/-- What the library does not control. -/
structure Env (V : Type) where
  /-- fault schedule: does the throwing operation number `n` throw? -/
  fault : Nat → Bool
  /-- unspecified contents after an exception with only the basic guarantee -/
  junk : Nat → Nat → V
  /-- unspecified size after an exception with only the basic guarantee -/
  junkLen : Nat → Nat
  traits : Ty → Traits
  lib : StdLib
  /-- `max_size()` of the element vector of a type -/
  maxSize : Ty → Nat
  /-- `max_size()` of index vectors -/
  idxMaxSize : Nat
  /-- `operator==` of elements -/
  eqv : V → V → Bool
  /-- the type a type_info object describes -/
  tiTy : TI → Ty
  /-- order of the nodes of an unordered_map after inserting a new one -/
  shuffle : ∀ {β : Type}, Nat → List β → List β
  shuffle_perm : ∀ {β : Type} (n : Nat) (l : List β), (shuffle n l).Perm l
  /-- bucket count of an unordered_map after an insertion (given tick, old bucket count) -/
  newBuckets : Nat → Nat → Nat
  /-- iterators of an unordered_map become invalid on rehash (as the standard says) -/
  strictRehash : Bool
  /-- `select_on_container_copy_construction` -/
  soccc : Alloc → Alloc
  /-- `propagate_on_container_{copy_assignment,move_assignment,swap}` -/
  pocca : Bool
  pocma : Bool
  pocs : Bool

/-- A pointer to an element: buffer and offset.  Buffer 0 is the null pointer. -/
structure Ptr where
  blk : Nat
  off : Nat
  deriving DecidableEq, Repr

/-- The null pointer. -/
def Ptr.null : Ptr := ⟨0, 0⟩

/-- `std::vector`: buffer (0 if nothing is allocated), capacity, elements. -/
structure Vec (α : Type) where
  blk : Nat
  cap : Nat
  elems : List α
  deriving Repr

namespace Vec
variable {α : Type}

/-- A default constructed vector. -/
def nil : Vec α := ⟨0, 0, []⟩

def size (v : Vec α) : Nat := v.elems.length

/-- `v.data()+n` -/
def ptr (v : Vec α) (n : Nat) : Ptr := ⟨v.blk, n⟩

/-- `p-v.data()`, undefined unless `p` points into (or one past) the vector's elements. -/
def posOf (v : Vec α) (p : Ptr) : Option Nat :=
  if p.blk = v.blk ∧ p.off ≤ v.size then some p.off else none

/-- `*p` for a pointer into the vector. -/
def deref (v : Vec α) (p : Ptr) : Option α :=
  if p.blk = v.blk then v.elems[p.off]? else none

end Vec

/-- Where the value of a new element comes from: a copy of an object outside the segment, a
copy of an element stored in the segment itself (given by its address), an object outside
that is moved from, or construction from arguments. -/
inductive Src (V : Type) where
  | copyExt (v : V)
  | copyAlias (p : Ptr)
  | moveExt (v : V)
  | emplaced (v : V)
  deriving Repr

namespace Env
variable {V : Type} (E : Env V) {X : Type}

/-- Allocation of a fresh block. -/
def alloc : Prog X Nat := fun x w =>
  if E.fault w.tick then .exc .badAlloc x ⟨w.next, w.tick + 1⟩
  else .ok w.next x ⟨w.next + 1, w.tick + 1⟩

/-- A user operation (constructor, assignment, comparison) that may throw unless `nothrow`. -/
def userOp (nothrow : Bool) : Prog X Unit := fun x w =>
  if nothrow then .ok () x w
  else if E.fault w.tick then .exc .user x ⟨w.next, w.tick + 1⟩
  else .ok () x ⟨w.next, w.tick + 1⟩

/-- Copy construction of a `value_holder<T>` (`detail/value_holder.hpp` 166-192): throws
`not_copy_constructible` if T is not copy constructible. -/
def copyVH (t : Ty) : Prog X Unit :=
  if (E.traits t).copyable then E.userOp (E.traits t).nothrowCopy
  else Prog.raise (.notCopyConstructible t)

/-- Move construction of a `value_holder<T>` (`detail/value_holder.hpp` 119-126, 145-147). -/
def moveVH (t : Ty) : Prog X Unit := E.userOp (E.traits t).nothrowMove

/-- Relocation of the elements of a `vector<value_holder<T>>` to a new buffer.  The standard
prescribes `move_if_noexcept`; since `value_holder<T>` always has a copy constructor
(`detail/value_holder.hpp` 112-118, 142-144) elements are *copied* when T's move constructor may throw. -/
def relocate (t : Ty) (l : List V) : Prog X Unit :=
  if (E.traits t).nothrowMove then Prog.pure ()
  else Prog.each (fun _ => E.copyVH t) l

/-- Construction of a new element in (a place not yet part of) vector `s`. -/
def construct (t : Ty) (src : Src V) : Prog (Vec V) V := do
  match src with
  | .copyExt v => E.copyVH t; return v
  | .copyAlias p =>
    let s ← Prog.get
    let v ← Prog.ofOption (s.deref p)
    E.copyVH t
    return v
  | .moveExt v => E.moveVH t; return v
  | .emplaced v => E.userOp false; return v

/-- `n` unspecified values. -/
def junkList (seed n : Nat) : List V := (List.range n).map (E.junk seed)

/-- An exception leaving vector contents unspecified, with size between `lo` and `hi`. -/
def spoil (lo hi : Nat) : Prog (Vec V) Unit := fun s w =>
  .ok () { s with elems := E.junkList w.tick (lo + E.junkLen w.tick % (hi - lo + 1)) } w

/-- Shifting elements inside the buffer: throws, with unspecified contents, if element moves
or assignments can throw and the schedule says so. -/
def shift (nothrow : Bool) (lo hi : Nat) : Prog (Vec V) Unit :=
  Prog.onExc (E.userOp nothrow) (E.spoil lo hi)

/-- `vector<value_holder<T>>::reserve(n)`: strong guarantee. -/
def reserve (t : Ty) (n : Nat) : Prog (Vec V) Unit := do
  let s ← Prog.get
  if E.maxSize t < n then Prog.raise .lengthError
  else if n ≤ s.cap then return ()
  else
    let b ← E.alloc
    E.relocate t s.elems
    Prog.set ⟨b, E.lib.reserveCap n, s.elems⟩

/-- `emplace_back`/`push_back`: strong guarantee (`value_holder` is copy insertable). -/
def emplaceBack (t : Ty) (src : Src V) : Prog (Vec V) Unit := do
  let s ← Prog.get
  if s.size < s.cap then
    let v ← E.construct t src
    Prog.set { s with elems := s.elems ++ [v] }
  else if E.maxSize t ≤ s.size then Prog.raise .lengthError
  else
    let b ← E.alloc
    let v ← E.construct t src
    E.relocate t s.elems
    Prog.set ⟨b, E.lib.growCap (E.maxSize t) s.size (s.size + 1), s.elems ++ [v]⟩

/-- `emplace(begin()+n,...)`, `insert(begin()+n,x)`.  The new value is built before any
element moves (so it may alias an element), and elements are then shifted. -/
def emplaceAt (t : Ty) (n : Nat) (src : Src V) : Prog (Vec V) Unit := do
  let s ← Prog.get
  if s.size < n then Prog.undef
  else if n = s.size then E.emplaceBack t src
  else if s.size < s.cap then
    let v ← E.construct t src
    E.shift ((E.traits t).nothrowMove && (E.traits t).nothrowAssign) s.size (s.size + 1)
    Prog.set { s with elems := s.elems.insertIdx n v }
  else if E.maxSize t ≤ s.size then Prog.raise .lengthError
  else
    let b ← E.alloc
    let v ← E.construct t src
    E.relocate t s.elems
    Prog.set ⟨b, E.lib.growCap (E.maxSize t) s.size (s.size + 1), s.elems.insertIdx n v⟩

/-- `insert(begin()+n,first,last)` with forward iterators.  Without reallocation, at the end:
no effect if an exception is thrown; elsewhere: unspecified contents. -/
def insertRange (t : Ty) (n : Nat) (srcs : List (Src V)) : Prog (Vec V) Unit := do
  let s ← Prog.get
  if s.size < n then Prog.undef
  else if srcs = [] then return ()
  else if s.size + srcs.length ≤ s.cap then
    if n = s.size then
      let vs ← Prog.mapAll (E.construct t) srcs
      Prog.set { s with elems := s.elems ++ vs }
    else
      let vs ← Prog.onExc (do
          E.userOp ((E.traits t).nothrowMove && (E.traits t).nothrowAssign)
          Prog.mapAll (E.construct t) srcs)
        (E.spoil s.size (s.size + srcs.length))
      Prog.set { s with elems := s.elems.take n ++ vs ++ s.elems.drop n }
  else if E.maxSize t < s.size + srcs.length then Prog.raise .lengthError
  else
    let b ← E.alloc
    let vs ← Prog.mapAll (E.construct t) srcs
    E.relocate t s.elems
    Prog.set ⟨b, E.lib.growCap (E.maxSize t) s.size (s.size + srcs.length),
      s.elems.take n ++ vs ++ s.elems.drop n⟩

/-- `insert(begin()+n,first,last)` with single-pass iterators: the number of elements is not
known in advance.  The standard leaves open how this is done.  At the end, elements are appended one by
one.  Elsewhere they are either collected in a temporary vector, out of which they are then moved to
where they belong; or they are appended one by one and rotated into place.  On an exception the elements
appended so far stay. -/
def insertInput (t : Ty) (n : Nat) (srcs : List (Src V)) : Prog (Vec V) Unit := do
  let s ← Prog.get
  if s.size < n then Prog.undef
  else if E.lib.inputTemp = true ∧ n ≠ s.size ∧ srcs ≠ [] then
    let vs ← Prog.locally Vec.nil (Prog.each (E.emplaceBack t) srcs) fun _ tmp => tmp.elems
    E.insertRange t n (vs.map .moveExt)
  else
    Prog.each (E.emplaceBack t) srcs
    let s' ← Prog.get
    E.shift ((E.traits t).nothrowMove && (E.traits t).nothrowAssign || decide (n = s.size) ||
        srcs.isEmpty) s'.size s'.size
    Prog.set { s' with elems := s.elems.take n ++ s'.elems.drop s.size ++ s.elems.drop n }

/-- `erase(begin()+a,begin()+b)`: the tail is move-assigned down; if that throws the size is
unchanged and the contents are unspecified. -/
def eraseRange (t : Ty) (a b : Nat) : Prog (Vec V) Unit := do
  let s ← Prog.get
  if a ≤ b ∧ b ≤ s.size then
    E.shift ((E.traits t).nothrowAssign || decide (a = b) || decide (b = s.size)) s.size s.size
    Prog.set { s with elems := s.elems.take a ++ s.elems.drop b }
  else Prog.undef

/-- `erase(begin()+n)`. -/
def eraseAt (t : Ty) (n : Nat) : Prog (Vec V) Unit := do
  let s ← Prog.get
  if n < s.size then E.eraseRange t n (n + 1) else Prog.undef

/-- `clear()`. -/
def clearVec : Prog (Vec V) Unit := do
  let s ← Prog.get
  Prog.set { s with elems := [] }

/-- `shrink_to_fit()`: a non-binding request, no effect if it throws. -/
def shrinkToFit (t : Ty) : Prog (Vec V) Unit := do
  let s ← Prog.get
  let c := E.lib.shrinkCap s.size s.cap
  if c = s.cap then return ()
  else if c = 0 then Prog.set ⟨0, 0, s.elems⟩
  else
    let b ← E.alloc
    E.relocate t s.elems
    Prog.set ⟨b, c, s.elems⟩

/-- Copy construction of a vector. -/
def copyVec (t : Ty) (s : Vec V) : Prog X (Vec V) := do
  if s.elems = [] then return Vec.nil
  else
    let b ← E.alloc
    Prog.each (fun _ => E.copyVH t) s.elems
    return ⟨b, s.size, s.elems⟩

/-- Allocator-extended move construction of a vector out of `s`: the buffer is taken over if
the allocators are equal, otherwise elements are moved one by one.  The source is left empty
(as all implementations do); if a move throws its elements have unspecified values. -/
def moveVec (t : Ty) (sameAl : Bool) : Prog (Vec V) (Vec V) := do
  let s ← Prog.get
  if sameAl then
    Prog.set Vec.nil
    return s
  else if s.elems = [] then return Vec.nil
  else
    let b ← E.alloc
    Prog.onExc (Prog.each (fun _ => E.moveVH t) s.elems) (E.spoil s.size s.size)
    Prog.set { s with elems := [] }
    return ⟨b, s.size, s.elems⟩

/-- Element comparison `x==y` through `value_holder` (`detail/value_holder.hpp` 160-164,
214-224). -/
def eqVH (t : Ty) (x y : V) : Prog X Bool :=
  if (E.traits t).eqComparable then do
    E.userOp (E.traits t).nothrowEq
    return E.eqv x y
  else Prog.raise (.notEqualityComparable t)

/-- The element-wise part of `operator==` of vectors. -/
def eqElems (t : Ty) : List V → List V → Prog X Bool
  | x :: xs, y :: ys => do
    let b ← E.eqVH t x y
    if b then eqElems t xs ys else return false
  | _, _ => Prog.pure true

/-- `operator==` of vectors: sizes first, then elements. -/
def eqVec (t : Ty) (s s' : Vec V) : Prog X Bool :=
  if s.size = s'.size then E.eqElems t s.elems s'.elems else Prog.pure false

/-! Index vectors hold `value_type`s, which are copied without exceptions. -/

/-- `index::reserve(n)`. -/
def idxReserve (n : Nat) : Prog (Vec Ptr) Unit := do
  let i ← Prog.get
  if E.idxMaxSize < n then Prog.raise .lengthError
  else if n ≤ i.cap then return ()
  else
    let b ← E.alloc
    Prog.set ⟨b, E.lib.reserveCap n, i.elems⟩

/-- `index::push_back(p)`. -/
def idxPushBack (p : Ptr) : Prog (Vec Ptr) Unit := do
  let i ← Prog.get
  if i.size < i.cap then Prog.set { i with elems := i.elems ++ [p] }
  else if E.idxMaxSize ≤ i.size then Prog.raise .lengthError
  else
    let b ← E.alloc
    Prog.set ⟨b, E.lib.growCap E.idxMaxSize i.size (i.size + 1), i.elems ++ [p]⟩

end Env

/-- `index::pop_back()`, undefined on an empty vector. -/
def idxPopBack : Prog (Vec Ptr) Unit := do
  let i ← Prog.get
  if i.elems = [] then Prog.undef
  else Prog.set { i with elems := i.elems.dropLast }

/-- `index::clear()`. -/
def idxClear : Prog (Vec Ptr) Unit := do
  let i ← Prog.get
  Prog.set { i with elems := [] }

end PolyColl
