import Verif.Model.Packed
import Verif.Model.Split
/-!
# segment (`detail/segment.hpp`)

A segment owns a backend (packed or split) and caches the backend's end position in `snt`;
every mutating member passes the backend's result through `filter`, which refreshes the cache.
If the backend throws, `filter` is not reached.
-/

namespace PolyColl

/-- The two implementations of `segment_backend` (`detail/segment_backend.hpp` 34-77), chosen
by the model: `base_model.hpp` 86-112 → packed, `any_model.hpp` / `function_model.hpp` → split. -/
inductive Backend (V : Type) where
  | packed (x : Packed V)
  | split (x : Split V)
  deriving Repr

/-- Which layout a collection uses. -/
inductive Kind where
  | packed
  | split
  deriving DecidableEq, Repr

namespace Backend
variable {V α : Type}

/-- A virtual call. -/
def run (f : Prog (Packed V) α) (g : Prog (Split V) α) : Prog (Backend V) α := fun b w =>
  match b with
  | .packed x =>
    match f x w with
    | .ok a x' w' => .ok a (.packed x') w'
    | .exc e x' w' => .exc e (.packed x') w'
    | .ub => .ub
  | .split x =>
    match g x w with
    | .ok a x' w' => .ok a (.split x') w'
    | .exc e x' w' => .exc e (.split x') w'
    | .ub => .ub

def kind : Backend V → Kind
  | .packed _ => .packed
  | .split _ => .split

def ty : Backend V → Ty
  | .packed x => x.ty
  | .split x => x.ty

/-- `get_allocator`. -/
def al : Backend V → Alloc
  | .packed x => x.al
  | .split x => x.al

/-- The element vector. -/
def store : Backend V → Vec V
  | .packed x => x.s
  | .split x => x.s

def begin : Backend V → Ptr
  | .packed x => x.begin
  | .split x => x.begin

def «end» : Backend V → Ptr
  | .packed x => x.end
  | .split x => x.end

/-- Conversion of a base iterator to a local iterator: a cast in the packed layout, a read of
the index entry in the split layout. -/
def toLocal : Backend V → Ptr → Option Ptr
  | .packed _, p => some p
  | .split x, p => x.toLocal p

/-- Access to the element a base iterator refers to. -/
def derefBase : Backend V → Ptr → Option V
  | .packed x, p => x.deref p
  | .split x, p => x.derefBase p

/-- Access to the element a local iterator points to. -/
def derefLocal (b : Backend V) (p : Ptr) : Option V := b.store.deref p

end Backend

/-- `segment` (306-307): `pimpl` and `snt`. -/
structure Seg (V : Type) where
  be : Backend V
  snt : Ptr
  deriving Repr

/-- The pointer in a position argument. -/
def PosArg.ptr : PosArg → Ptr
  | .base p => p
  | .loc p => p

namespace Seg
variable {V : Type} (E : Env V)

def ty (x : Seg V) : Ty := x.be.ty
def al (x : Seg V) : Alloc := x.be.al
def kind (x : Seg V) : Kind := x.be.kind

/-- The elements, in order (not a function of the library: what an observer sees). -/
def elems (x : Seg V) : List V := x.be.store.elems

/-- `begin` (101). -/
def begin (x : Seg V) : Ptr := x.be.begin
/-- `end` (104). -/
def «end» (x : Seg V) : Ptr := x.be.end
/-- `sentinel` (107): the cached value. -/
def sentinel (x : Seg V) : Ptr := x.snt
/-- `empty` (108). -/
def empty (x : Seg V) : Bool := x.be.store.elems.isEmpty
/-- `size` (111). -/
def size (x : Seg V) : Nat := x.be.store.size
/-- `capacity` (121). -/
def capacity (x : Seg V) : Nat := x.be.store.cap

/-- `max_size` (114), `packed_segment.hpp` 118-119, `split_segment.hpp` 122-123. -/
def maxSize (x : Seg V) : Nat :=
  match x.be with
  | .packed y => E.maxSize y.ty
  | .split y => E.maxSize y.ty - 1

/-- `filter(range)` (304) around a backend call. -/
def filterRange (p : Prog (Backend V) (Ptr × Ptr)) : Prog (Seg V) Ptr := fun x w =>
  match p x.be w with
  | .ok r be w' => .ok r.1 ⟨be, r.2⟩ w'
  | .exc e be w' => .exc e { x with be := be } w'
  | .ub => .ub

/-- `filter(sentinel)` (303) around a backend call. -/
def filterSentinel (p : Prog (Backend V) Ptr) : Prog (Seg V) Unit := fun x w =>
  match p x.be w with
  | .ok r be w' => .ok () ⟨be, r⟩ w'
  | .exc e be w' => .exc e { x with be := be } w'
  | .ub => .ub

/-- `reserve` (118-120). -/
def reserve (n : Nat) : Prog (Seg V) Unit :=
  filterSentinel (Backend.run (Packed.reserve E n) (Split.reserve E n))

/-- `shrink_to_fit` (125-127). -/
def shrinkToFit : Prog (Seg V) Unit :=
  filterSentinel (Backend.run (Packed.shrinkToFit E) (Split.shrinkToFit E))

/-- `emplace` (129-133), with a base or a local iterator. -/
def emplace (p : PosArg) (src : Src V) : Prog (Seg V) Ptr :=
  filterRange (Backend.run (Packed.emplaceAt E p.ptr src) (Split.emplaceAt E p src))

/-- `emplace_back` (135-139), `push_back` (141-156), `push_back_terminal` (158-163). -/
def pushBack (src : Src V) : Prog (Seg V) Ptr :=
  filterRange (Backend.run (Packed.pushBack E src) (Split.pushBack E src))

/-- `insert(const_base_iterator,x)` (165-169, 178-187); backends convert to a local iterator
first (`packed_segment.hpp` 163-164, `split_segment.hpp` 206-207). -/
def insertBase (p : Ptr) (src : Src V) : Prog (Seg V) Ptr :=
  filterRange (Backend.run (Packed.emplaceAt E p src) (do
    let x ← Prog.get
    let q ← Prog.ofOption (x.toLocal p)
    Split.emplaceAt E (.loc q) src))

/-- `insert(const_iterator<U>,x)` (171-176, 189-199). -/
def insertLocal (p : Ptr) (src : Src V) : Prog (Seg V) Ptr :=
  filterRange (Backend.run (Packed.emplaceAt E p src) (Split.emplaceAt E (.loc p) src))

/-- `insert(const_iterator<U>,first,last)` (219-224).  `fwd` tells whether the iterators are
forward iterators (they are single pass otherwise). -/
def insertRangeLocal (fwd : Bool) (p : Ptr) (srcs : List (Src V)) : Prog (Seg V) Ptr :=
  filterRange (Backend.run (Packed.insertRange E fwd p srcs)
    (if fwd then Split.insertForward E p srcs else Split.insertInput E p srcs))

/-- `insert(first,last)` (201-207). -/
def insertRangeEnd (fwd : Bool) (srcs : List (Src V)) : Prog (Seg V) Ptr :=
  filterRange (Backend.run (Packed.insertRangeEnd E fwd srcs) (do
    let x ← Prog.get
    let p := x.s.ptr x.s.size
    if fwd then Split.insertForward E p srcs else Split.insertInput E p srcs))

/-- `insert(const_base_iterator,first,last)` (209-217): converts the position and calls the
overload for local iterators. -/
def insertRangeBase (fwd : Bool) (p : Ptr) (srcs : List (Src V)) : Prog (Seg V) Ptr := do
  let x ← Prog.get
  let q ← Prog.ofOption (x.be.toLocal p)
  insertRangeLocal E fwd q srcs

/-- `erase(const_base_iterator)` (226-229), `packed_segment.hpp` 200-201, `split_segment.hpp`
243-244. -/
def eraseBase (p : Ptr) : Prog (Seg V) Ptr :=
  filterRange (Backend.run (Packed.erase E p) (do
    let x ← Prog.get
    let q ← Prog.ofOption (x.toLocal p)
    Split.erase E q))

/-- `erase(const_iterator<U>)` (231-235). -/
def eraseLocal (p : Ptr) : Prog (Seg V) Ptr :=
  filterRange (Backend.run (Packed.erase E p) (Split.erase E p))

/-- `erase(const_base_iterator,const_base_iterator)` (237-240), `packed_segment.hpp` 208-209,
`split_segment.hpp` 252-253. -/
def eraseRangeBase (p q : Ptr) : Prog (Seg V) Ptr :=
  filterRange (Backend.run (Packed.eraseRange E p q) (do
    let x ← Prog.get
    let p' ← Prog.ofOption (x.toLocal p)
    let q' ← Prog.ofOption (x.toLocal q)
    Split.eraseRange E p' q'))

/-- `erase(const_iterator<U>,const_iterator<U>)` (242-246). -/
def eraseRangeLocal (p q : Ptr) : Prog (Seg V) Ptr :=
  filterRange (Backend.run (Packed.eraseRange E p q) (Split.eraseRange E p q))

/-- `erase_till_end` (248-252). -/
def eraseTillEnd (p : Ptr) : Prog (Seg V) Ptr :=
  filterRange (Backend.run (Packed.eraseTillEnd E p) (Split.eraseTillEnd E p))

/-- `erase_from_begin` (254-258). -/
def eraseFromBegin (q : Ptr) : Prog (Seg V) Ptr :=
  filterRange (Backend.run (Packed.eraseFromBegin E q) (Split.eraseFromBegin E q))

/-- `clear` (260-262). -/
def clear : Prog (Seg V) Unit :=
  filterSentinel (Backend.run Packed.clear Split.clear)

/-- `set_sentinel` (302) on a freshly made backend. -/
def ofBackend (b : Backend V) : Seg V := ⟨b, b.end⟩

/-- `make<T>` (53-57). -/
def make {X : Type} (k : Kind) (t : Ty) (al : Alloc) : Prog X (Seg V) :=
  match k with
  | .packed => do
    let b ← Packed.make E t al
    return ofBackend (.packed b)
  | .split => do
    let b ← Split.make E t al
    return ofBackend (.split b)

/-- `make_from_prototype` (59-64, 278-279). -/
def makeFromPrototype {X : Type} (x : Seg V) (al : Alloc) : Prog X (Seg V) :=
  make E x.kind x.ty al

/-- `segment(const segment&)` (66-67). -/
def copy {X : Type} (x : Seg V) : Prog X (Seg V) :=
  match x.be with
  | .packed y => do
    let b ← Packed.copy E y
    return ofBackend (.packed b)
  | .split y => do
    let b ← Split.copy E y
    return ofBackend (.split b)

/-- `segment(const segment&,al)` (69-70). -/
def copyAl {X : Type} (x : Seg V) (al : Alloc) : Prog X (Seg V) :=
  match x.be with
  | .packed y => do
    let b ← Packed.copyAl E y al
    return ofBackend (.packed b)
  | .split y => do
    let b ← Split.copyAl E y al
    return ofBackend (.split b)

/-- `segment(segment&&,al)` (72-74).  Runs on the source segment, whose cached sentinel is not
refreshed. -/
def moveAl (al : Alloc) : Prog (Seg V) (Seg V) :=
  Prog.zoom (fun x => x.be) (fun x be => { x with be := be })
    (Backend.run
      (do let b ← Packed.move E al; return ofBackend (.packed b))
      (do let b ← Split.move E al; return ofBackend (.split b)))

/-- `operator==` (93-97): different backends (layout or element type) are different. -/
def equal {X : Type} (x y : Seg V) : Prog X Bool :=
  match x.be, y.be with
  | .packed a, .packed b => if a.ty = b.ty then Packed.equal E a b else Prog.pure false
  | .split a, .split b => if a.ty = b.ty then Split.equal E a b else Prog.pure false
  | _, _ => Prog.pure false

/-- The allocator with which the segment object's storage is returned (`delete_`), and the one
it was obtained from. -/
def deleteAl (x : Seg V) : Alloc :=
  match x.be with
  | .packed y => y.deleteAl
  | .split y => y.deleteAl

def objAl (x : Seg V) : Alloc :=
  match x.be with
  | .packed y => y.objAl
  | .split y => y.objAl

end Seg
end PolyColl
