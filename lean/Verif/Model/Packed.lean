import Verif.Model.Vec
/-!
# packed_segment (`detail/packed_segment.hpp`)

Segment layout of `base_collection`: one vector of elements; a base iterator is the address
of an element.  Base iterators and local iterators are both modelled as element pointers
`Ptr` (the byte-level view of the stride iterator is `Verif.Model.Stride`).
-/

namespace PolyColl

/-- Members of `packed_segment` (329) plus the type it is instantiated for and the allocator
of `s`.  `objAl` is the allocator the segment object itself was allocated with (230-243). -/
structure Packed (V : Type) where
  ty : Ty
  al : Alloc
  objAl : Alloc
  s : Vec V
  deriving Repr

namespace Packed
variable {V : Type} (E : Env V) {α : Type}

/-- Run an operation on the vector `s`. -/
def onS (p : Prog (Vec V) α) : Prog (Packed V) α :=
  Prog.zoom (fun x => x.s) (fun x s => { x with s := s }) p

/-- `begin`/`nv_begin` (100-105). -/
def begin (x : Packed V) : Ptr := x.s.ptr 0

/-- `end`/`nv_end` (107-112). -/
def «end» (x : Packed V) : Ptr := x.s.ptr x.s.size

/-- `sentinel` (305-311). -/
def sentinel (x : Packed V) : Ptr := x.s.ptr x.s.size

/-- `range_from(n)` (321-327); `range_from(it)` (313-319) with `it=s.begin()+n`. -/
def rangeFrom (x : Packed V) (n : Nat) : Ptr × Ptr := (x.s.ptr n, x.sentinel)

/-- `iterator_from` (295-303): position of a local or base iterator in `s`. -/
def iteratorFrom (x : Packed V) (p : Ptr) : Option Nat := x.s.posOf p

/-- Return `range_from(n)` of the current state. -/
def retRange (n : Nat) : Prog (Packed V) (Ptr × Ptr) := do
  let x ← Prog.get
  return x.rangeFrom n

/-- Return `sentinel()` of the current state. -/
def retSentinel : Prog (Packed V) Ptr := do
  let x ← Prog.get
  return x.sentinel

/-- `nv_reserve` (122-124). -/
def reserve (n : Nat) : Prog (Packed V) Ptr := do
  let x ← Prog.get
  onS (E.reserve x.ty n)
  retSentinel

/-- `nv_shrink_to_fit` (125-127). -/
def shrinkToFit : Prog (Packed V) Ptr := do
  let x ← Prog.get
  onS (E.shrinkToFit x.ty)
  retSentinel

/-- `nv_emplace` (129-136), `nv_insert(p,x)` for copy and move (163-177): all are
`s.emplace(iterator_from(p),...)`. -/
def emplaceAt (p : Ptr) (src : Src V) : Prog (Packed V) (Ptr × Ptr) := do
  let x ← Prog.get
  let n ← Prog.ofOption (x.iteratorFrom p)
  onS (E.emplaceAt x.ty n src)
  retRange n

/-- `nv_emplace_back` (138-143), `nv_push_back` for copy and move (145-161). -/
def pushBack (src : Src V) : Prog (Packed V) (Ptr × Ptr) := do
  let x ← Prog.get
  onS (E.emplaceBack x.ty src)
  let x ← Prog.get
  retRange (x.s.size - 1)

/-- `nv_insert(p,first,last)` (186-198).  `fwd` tells whether the iterators are forward
iterators; the code leaves the distinction to `std::vector::insert`. -/
def insertRange (fwd : Bool) (p : Ptr) (srcs : List (Src V)) : Prog (Packed V) (Ptr × Ptr) := do
  let x ← Prog.get
  let n ← Prog.ofOption (x.iteratorFrom p)
  onS (if fwd then E.insertRange x.ty n srcs else E.insertInput x.ty n srcs)
  retRange n

/-- `nv_insert(first,last)` (179-184). -/
def insertRangeEnd (fwd : Bool) (srcs : List (Src V)) : Prog (Packed V) (Ptr × Ptr) := do
  let x ← Prog.get
  insertRange E fwd (x.s.ptr x.s.size) srcs

/-- `erase(p)`/`nv_erase(p)` (200-206). -/
def erase (p : Ptr) : Prog (Packed V) (Ptr × Ptr) := do
  let x ← Prog.get
  let n ← Prog.ofOption (x.iteratorFrom p)
  onS (E.eraseAt x.ty n)
  retRange n

/-- `erase(first,last)`/`nv_erase(first,last)` (208-214). -/
def eraseRange (p q : Ptr) : Prog (Packed V) (Ptr × Ptr) := do
  let x ← Prog.get
  let a ← Prog.ofOption (x.iteratorFrom p)
  let b ← Prog.ofOption (x.iteratorFrom q)
  onS (E.eraseRange x.ty a b)
  retRange a

/-- `erase_till_end` (216-219). -/
def eraseTillEnd (p : Ptr) : Prog (Packed V) (Ptr × Ptr) := do
  let x ← Prog.get
  let a ← Prog.ofOption (x.iteratorFrom p)
  onS (E.eraseRange x.ty a x.s.size)
  retRange a

/-- `erase_from_begin` (221-224). -/
def eraseFromBegin (q : Ptr) : Prog (Packed V) (Ptr × Ptr) := do
  let x ← Prog.get
  let b ← Prog.ofOption (x.iteratorFrom q)
  onS (E.eraseRange x.ty 0 b)
  retRange 0

/-- `clear`/`nv_clear` (226-227). -/
def clear : Prog (Packed V) Ptr := do
  onS Env.clearVec
  retSentinel

/-- `new_(al,...)` (230-243) followed by the constructor from an allocator (253): used by
`make` (68-71) and `empty_copy` (83-86).  The object's own storage is one allocation. -/
def make {X : Type} (t : Ty) (al : Alloc) : Prog X (Packed V) := do
  let _ ← E.alloc
  return ⟨t, al, al, Vec.nil⟩

/-- `copy()` (73-76): `new_(s.get_allocator(),store{s})`; the copied vector's allocator is
obtained with `select_on_container_copy_construction`. -/
def copy {X : Type} (x : Packed V) : Prog X (Packed V) := do
  let s ← E.copyVec x.ty x.s
  let _ ← E.alloc
  return ⟨x.ty, E.soccc x.al, x.al, s⟩

/-- `copy(al)` (78-81): `new_(al,store{s,al})`. -/
def copyAl {X : Type} (x : Packed V) (al : Alloc) : Prog X (Packed V) := do
  let s ← E.copyVec x.ty x.s
  let _ ← E.alloc
  return ⟨x.ty, al, al, s⟩

/-- `move(al)` (88-91): `new_(al,store{std::move(s),al})`. -/
def move (al : Alloc) : Prog (Packed V) (Packed V) := do
  let x ← Prog.get
  let s ← onS (E.moveVec x.ty (decide (x.al = al)))
  let _ ← E.alloc
  return ⟨x.ty, al, al, s⟩

/-- `equal` (93-96). -/
def equal {X : Type} (x y : Packed V) : Prog X Bool := E.eqVec x.ty x.s y.s

/-- The allocator used by `delete_` (245-251). -/
def deleteAl (x : Packed V) : Alloc := x.al

/-- Dereference of a base or local iterator. -/
def deref (x : Packed V) (p : Ptr) : Option V := x.s.deref p

end Packed
end PolyColl
