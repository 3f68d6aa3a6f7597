import Verif.Model.Segment
import Verif.Model.History
/-!
# Segment objects on the heap (`detail/packed_segment.hpp`, `detail/split_segment.hpp`, `detail/segment.hpp`)

The other model files treat a segment as a value.  In the library it is a `unique_ptr` to an object
that `new_` creates in storage obtained from an allocator and that `delete_` destroys.  Here the
storage is explicit: `Heap` lists what has been obtained from allocators and not been returned, and the
segment objects that exist.  Returning storage that was not obtained, or was obtained from another
allocator, is undefined.

What `std::vector` does with its buffer is taken for granted: `settle` returns the buffers that a vector
gave up and records those it obtained; `releaseAll` is its destructor.
-/

namespace PolyColl

variable {V : Type}

/-- The buffers of the vectors of a segment object. -/
def Backend.buffers : Backend V → List Nat
  | .packed x => [x.s.blk].filter (· ≠ 0)
  | .split x => [x.s.blk, x.i.blk].filter (· ≠ 0)

/-- The buffer of a vector. -/
def Vec.buffers {α : Type} (v : Vec α) : List Nat := [v.blk].filter (· ≠ 0)

/-- `segment_backend_unique_ptr` (`detail/segment_backend.hpp` 37-38), not null: an address and a deleter.  The
deleter is the `delete_` of an instantiation of `packed_segment` or `split_segment`. -/
structure Owner where
  addr : Nat
  kind : Kind
  ty : Ty
  deriving DecidableEq, Repr

/-- `segment` (`detail/segment.hpp` 306-307): `pimpl`, null in a segment that was moved from, and `snt`. -/
structure Handle where
  ptr : Option Owner
  snt : Ptr
  deriving DecidableEq, Repr

/-- The memory of a program that uses segments. -/
structure Heap (V : Type) where
  /-- storage obtained and not returned, with the allocator -/
  blocks : List (Nat × Alloc)
  /-- the segment objects that exist, with their addresses -/
  objs : List (Nat × Backend V)
  /-- the temporary `store` of an expression `new_(al,store{...})`, and its allocator -/
  tmp : Vec V × Alloc
  /-- the variables of type `segment` -/
  segs : Nat → Option Handle

namespace Heap
variable (E : Env V)

/-- No segments. -/
def start : Heap V := ⟨[], [], (Vec.nil, 0), fun _ => none⟩

/-- `allocator_traits::allocate(al,1)`. -/
def obtain (al : Alloc) : Prog (Heap V) Nat := do
  let b ← E.alloc
  let h ← Prog.get
  Prog.set { h with blocks := (b, al) :: h.blocks }
  return b

/-- `allocator_traits::deallocate(al,p,n)`. -/
def giveBack (al : Alloc) (b : Nat) : Prog (Heap V) Unit := do
  let h ← Prog.get
  if (b, al) ∈ h.blocks then Prog.set { h with blocks := h.blocks.erase (b, al) } else Prog.undef

/-- A vector obtained a buffer. -/
def record (al : Alloc) (b : Nat) : Prog (Heap V) Unit := do
  let h ← Prog.get
  Prog.set { h with blocks := (b, al) :: h.blocks }

/-- Vectors had the buffers `old` and now have the buffers `new`. -/
def settle (al : Alloc) (old new : List Nat) : Prog (Heap V) Unit := do
  Prog.each (giveBack al) (old.filter fun b => b ∉ new)
  Prog.each (record al) (new.filter fun b => b ∉ old)

/-- Destruction of vectors. -/
def releaseAll (al : Alloc) (l : List Nat) : Prog (Heap V) Unit := Prog.each (giveBack al) l

/-- Access to the segment object at an address. -/
def object (a : Nat) : Prog (Heap V) (Backend V) := do
  let h ← Prog.get
  Prog.ofOption (h.objs.lookup a)

/-- Change of the segment object at an address. -/
def setObject (a : Nat) (b : Backend V) : Prog (Heap V) Unit := do
  let h ← Prog.get
  Prog.set { h with objs := h.objs.map fun p => if p.1 = a then (a, b) else p }

/-- The temporary is created. -/
def setTmp (v : Vec V) (al : Alloc) : Prog (Heap V) Unit := do
  let h ← Prog.get
  Prog.set { h with tmp := (v, al) }

/-- The temporary is destroyed. -/
def dropTmp : Prog (Heap V) Unit := do
  let h ← Prog.get
  releaseAll h.tmp.2 h.tmp.1.buffers
  setTmp Vec.nil 0

/-- An expression in which a temporary `store` lives. -/
def withTmp {α : Type} (v : Vec V) (al : Alloc) (p : Prog (Heap V) α) : Prog (Heap V) α := do
  setTmp v al
  let r ← Prog.onExc p dropTmp
  dropTmp
  return r

/-- The members of a segment object, the vector `s` being given, and then the constructor body
(`packed_segment.hpp` 253-254: nothing; `split_segment.hpp` 312-325).  If it throws the members are destroyed. -/
def body (k : Kind) (t : Ty) (al objAl : Alloc) (s : Vec V) : Prog (Heap V) (Backend V) :=
  match k with
  | .packed => Prog.pure (.packed ⟨t, al, objAl, s⟩)
  | .split => fun h w =>
    match (do Split.onS (E.reserve t 1); Split.buildIndex E 0 : Prog (Split V) Unit) ⟨t, al, objAl, s, Vec.nil⟩ w with
    | .ok _ y w' => (do settle al s.buffers (Backend.split y).buffers; return .split y : Prog (Heap V) (Backend V)) h w'
    | .exc e y w' =>
      (do settle al s.buffers (Backend.split y).buffers; releaseAll al (Backend.split y).buffers; Prog.raise e : Prog (Heap V) (Backend V)) h w'
    | .ub => .ub

/-- Constructor from an allocator (`packed_segment.hpp` 253, `split_segment.hpp` 312-318). -/
def ctorAl (k : Kind) (t : Ty) (al : Alloc) : Prog (Heap V) (Backend V) := body E k t al al Vec.nil

/-- Constructor from a `store` (`packed_segment.hpp` 254, `split_segment.hpp` 320-325): takes the buffer of the
temporary. -/
def ctorStore (k : Kind) (t : Ty) (objAl : Alloc) : Prog (Heap V) (Backend V) := do
  let h ← Prog.get
  setTmp Vec.nil h.tmp.2
  body E k t h.tmp.2 objAl h.tmp.1

/-- `new_` (`packed_segment.hpp` 230-243, `split_segment.hpp` 289-302). -/
def new_ (k : Kind) (t : Ty) (al : Alloc) (ctor : Prog (Heap V) (Backend V)) : Prog (Heap V) Owner := do
  let p ← obtain E al
  let b ← Prog.onExc ctor (giveBack al p)
  let h ← Prog.get
  Prog.set { h with objs := (p, b) :: h.objs }
  return ⟨p, k, t⟩

/-- `delete_` (`packed_segment.hpp` 245-251, `split_segment.hpp` 304-310).  The downcast is undefined if the
object is of another class. -/
def delete_ (o : Owner) : Prog (Heap V) Unit := do
  let b ← object o.addr
  if b.kind = o.kind ∧ b.ty = o.ty then
    releaseAll b.al b.buffers
    let h ← Prog.get
    Prog.set { h with objs := h.objs.filter fun p => p.1 ≠ o.addr }
    giveBack b.al o.addr
  else Prog.undef

/-- What a `unique_ptr` does with its pointer when it is destroyed or reset. -/
def deletePtr : Option Owner → Prog (Heap V) Unit
  | some o => delete_ o
  | none => Prog.pure ()

/-- `make` (`packed_segment.hpp` 68-71, `split_segment.hpp` 80-83). -/
def make (k : Kind) (t : Ty) (al : Alloc) : Prog (Heap V) Owner := new_ E k t al (ctorAl E k t al)

/-- `empty_copy` (`packed_segment.hpp` 83-86, `split_segment.hpp` 95-98). -/
def emptyCopy (a : Nat) (al : Alloc) : Prog (Heap V) Owner := do
  let x ← object a
  new_ E x.kind x.ty al (ctorAl E x.kind x.ty al)

/-- The temporary `store{s}` or `store{s,al}`. -/
def copyStore (x : Backend V) (al : Alloc) : Prog (Heap V) (Vec V) := do
  let v ← Prog.locally () (E.copyVec x.ty x.store) fun v _ => v
  settle al [] v.buffers
  return v

/-- `copy()` (`packed_segment.hpp` 73-76, `split_segment.hpp` 85-88). -/
def copy (a : Nat) : Prog (Heap V) Owner := do
  let x ← object a
  let v ← copyStore E x (E.soccc x.al)
  withTmp v (E.soccc x.al) (new_ E x.kind x.ty x.al (ctorStore E x.kind x.ty x.al))

/-- `copy(al)` (`packed_segment.hpp` 78-81, `split_segment.hpp` 90-93). -/
def copyAl (a : Nat) (al : Alloc) : Prog (Heap V) Owner := do
  let x ← object a
  let v ← copyStore E x al
  withTmp v al (new_ E x.kind x.ty al (ctorStore E x.kind x.ty al))

/-- `std::move(s)` given to a vector constructor with an allocator, on the members of a segment object. -/
def takeStore (x : Backend V) (al : Alloc) : Prog (Backend V) (Vec V) :=
  Backend.run (Packed.onS (E.moveVec x.ty (decide (x.al = al)))) (Split.onS (E.moveVec x.ty (decide (x.al = al))))

/-- The temporary `store{std::move(s),al}`: the buffer of `s` changes hands, or the elements are moved to a new one. -/
def moveStore (a : Nat) (al : Alloc) : Prog (Heap V) (Vec V) := do
  let x ← object a
  fun h w =>
    match takeStore E x al x w with
    | .ok v y w' =>
      (do
        settle x.al (x.buffers.filter fun b => b ∉ v.buffers) y.buffers
        settle al (v.buffers.filter fun b => b ∈ x.buffers) v.buffers
        setObject a y
        return v : Prog (Heap V) (Vec V)) h w'
    | .exc e y w' => (do settle x.al x.buffers y.buffers; setObject a y; Prog.raise e : Prog (Heap V) (Vec V)) h w'
    | .ub => .ub

/-- `move(al)` (`packed_segment.hpp` 88-91, `split_segment.hpp` 100-103). -/
def move (a : Nat) (al : Alloc) : Prog (Heap V) Owner := do
  let x ← object a
  let v ← moveStore E a al
  withTmp v al (new_ E x.kind x.ty al (ctorStore E x.kind x.ty al))

/-! ## `segment` -/

/-- The segment variable `i`. -/
def handle (i : Nat) : Prog (Heap V) Handle := do
  let h ← Prog.get
  Prog.ofOption (h.segs i)

/-- There is no segment in variable `i`. -/
def vacant (i : Nat) : Prog (Heap V) Unit := do
  let h ← Prog.get
  if h.segs i = none then return () else Prog.undef

def setHandle (i : Nat) (s : Option Handle) : Prog (Heap V) Unit := do
  let h ← Prog.get
  Prog.set { h with segs := fun j => if j = i then s else h.segs j }

/-- `impl()` (281-282): undefined if `pimpl` is null. -/
def impl (i : Nat) : Prog (Heap V) Nat := do
  let s ← handle i
  let o ← Prog.ofOption s.ptr
  return o.addr

/-- `segment(segment_backend_unique_ptr&&)` (276-277) and the other constructors: `pimpl` is initialised and `set_sentinel` (302) called. -/
def construct (i : Nat) (o : Owner) : Prog (Heap V) Unit := do
  let b ← object o.addr
  setHandle i (some ⟨some o, b.end⟩)

/-- `pimpl=...` with a temporary on the right: `unique_ptr`'s move assignment, `reset(u.release())`.  The old object is deleted with the old deleter. -/
def reset (i : Nat) (o : Owner) : Prog (Heap V) Unit := do
  let s ← handle i
  setHandle i (some ⟨some o, s.snt⟩)
  deletePtr s.ptr

/-- `set_sentinel` (302). -/
def setSentinel (i : Nat) : Prog (Heap V) Unit := do
  let s ← handle i
  let a ← impl i
  let b ← object a
  setHandle i (some ⟨s.ptr, b.end⟩)

/-- A member function of `segment` that works on the object. -/
def member {α : Type} (i : Nat) (p : Prog (Seg V) α) : Prog (Heap V) α := do
  let s ← handle i
  let a ← impl i
  let x ← object a
  fun h w =>
    match p ⟨x, s.snt⟩ w with
    | .ok r y w' =>
      (do
        settle x.al x.buffers y.be.buffers
        setObject a y.be
        setHandle i (some ⟨s.ptr, y.snt⟩)
        return r : Prog (Heap V) α) h w'
    | .exc e y w' =>
      (do
        settle x.al x.buffers y.be.buffers
        setObject a y.be
        setHandle i (some ⟨s.ptr, y.snt⟩)
        Prog.raise e : Prog (Heap V) α) h w'
    | .ub => .ub

end Heap

/-- Member functions of `segment` that change its contents. -/
inductive Seg.Call (V : Type) where
  | reserve (n : Nat)
  | shrinkToFit
  | emplace (p : PosArg) (src : Src V)
  | pushBack (src : Src V)
  | insertBase (p : Ptr) (src : Src V)
  | insertLocal (p : Ptr) (src : Src V)
  | insertRangeLocal (fwd : Bool) (p : Ptr) (srcs : List (Src V))
  | insertRangeEnd (fwd : Bool) (srcs : List (Src V))
  | insertRangeBase (fwd : Bool) (p : Ptr) (srcs : List (Src V))
  | eraseBase (p : Ptr)
  | eraseLocal (p : Ptr)
  | eraseRangeBase (p q : Ptr)
  | eraseRangeLocal (p q : Ptr)
  | eraseTillEnd (p : Ptr)
  | eraseFromBegin (q : Ptr)
  | clear

/-- Run a member function. -/
def Seg.Call.run (E : Env V) : Seg.Call V → Prog (Seg V) Unit
  | reserve n => Seg.reserve E n
  | shrinkToFit => Seg.shrinkToFit E
  | emplace p src => (Seg.emplace E p src).drop
  | pushBack src => (Seg.pushBack E src).drop
  | insertBase p src => (Seg.insertBase E p src).drop
  | insertLocal p src => (Seg.insertLocal E p src).drop
  | insertRangeLocal fwd p srcs => (Seg.insertRangeLocal E fwd p srcs).drop
  | insertRangeEnd fwd srcs => (Seg.insertRangeEnd E fwd srcs).drop
  | insertRangeBase fwd p srcs => (Seg.insertRangeBase E fwd p srcs).drop
  | eraseBase p => (Seg.eraseBase E p).drop
  | eraseLocal p => (Seg.eraseLocal E p).drop
  | eraseRangeBase p q => (Seg.eraseRangeBase E p q).drop
  | eraseRangeLocal p q => (Seg.eraseRangeLocal E p q).drop
  | eraseTillEnd p => (Seg.eraseTillEnd E p).drop
  | eraseFromBegin q => (Seg.eraseFromBegin E q).drop
  | clear => Seg.clear

/-- What a program, for instance the map of a collection, can do with segments in variables `i`, `j`. -/
inductive HOp (V : Type) where
  | make (i : Nat) (k : Kind) (t : Ty) (al : Alloc)
  | prototype (i j : Nat) (al : Alloc)
  | copy (i j : Nat)
  | move (i j : Nat)
  | copyAl (i j : Nat) (al : Alloc)
  | moveAl (i j : Nat) (al : Alloc)
  | assign (i j : Nat)
  | moveAssign (i j : Nat)
  | call (i : Nat) (c : Seg.Call V)
  | destroy (i : Nat)

namespace HOp
variable (E : Env V)
open Heap

/-- `x.impl().copy()` or `x.impl().copy(impl().get_allocator())` in the copy assignment (78-79). -/
def assigned (i a : Nat) : Prog (Heap V) Owner :=
  if E.pocca then Heap.copy E a else do
    let y ← impl i
    let b ← object y
    Heap.copyAl E a b.al

/-- `x.impl().get_allocator()` or `impl().get_allocator()` in the move assignment (86-88). -/
def movedAl (i a : Nat) : Prog (Heap V) Alloc :=
  if E.pocma then do
    let x ← object a
    return x.al
  else do
    let y ← impl i
    let b ← object y
    return b.al

/-- With pointers, as in `detail/segment.hpp`: `make` (53-57), `make_from_prototype` (59-64, 278-279), copy constructor (66-67), move
constructor (68, defaulted: `pimpl` becomes null in the source), constructors with an allocator (69-74), assignments (76-91), member functions,
destructor. -/
def run : HOp V → Prog (Heap V) Unit
  | make i k t al => do
    vacant i
    let o ← Heap.make E k t al
    construct i o
  | prototype i j al => do
    vacant i
    let a ← impl j
    let o ← emptyCopy E a al
    construct i o
  | copy i j => do
    vacant i
    let a ← impl j
    let o ← Heap.copy E a
    construct i o
  | move i j => do
    vacant i
    let s ← handle j
    setHandle i (some s)
    setHandle j (some ⟨none, s.snt⟩)
  | copyAl i j al => do
    vacant i
    let a ← impl j
    let o ← Heap.copyAl E a al
    construct i o
  | moveAl i j al => do
    vacant i
    let a ← impl j
    let o ← Heap.move E a al
    construct i o
  | assign i j => do
    let _ ← handle i
    let a ← impl j
    let o ← assigned E i a
    reset i o
    setSentinel i
  | moveAssign i j => do
    let _ ← handle i
    let a ← impl j
    let al ← movedAl E i a
    let o ← Heap.move E a al
    reset i o
    setSentinel i
  | call i c => member i (c.run E)
  | destroy i => do
    let s ← handle i
    deletePtr s.ptr
    setHandle i none

end HOp

/-- Segments as values: the variables of a program, each vacant, holding a segment that was moved from, or holding a segment. -/
abbrev Vars (V : Type) := Nat → Option (Option (Seg V))

namespace Vars

def get (i : Nat) : Prog (Vars V) (Option (Seg V)) := do
  let s ← Prog.get
  Prog.ofOption (s i)

/-- Use of a segment that was not moved from. -/
def seg (i : Nat) : Prog (Vars V) (Seg V) := do
  let x ← get i
  Prog.ofOption x

def vacant (i : Nat) : Prog (Vars V) Unit := do
  let s ← Prog.get
  if (s i).isNone then return () else Prog.undef

def put (i : Nat) (x : Option (Option (Seg V))) : Prog (Vars V) Unit := do
  let s ← Prog.get
  Prog.set fun j => if j = i then x else s j

/-- An operation on the segment in variable `i`. -/
def on {α : Type} (i : Nat) (p : Prog (Seg V) α) : Prog (Vars V) α := do
  let x ← seg i
  fun s w =>
    match p x w with
    | .ok r y w' => .ok r (fun j => if j = i then some (some y) else s j) w'
    | .exc e y w' => .exc e (fun j => if j = i then some (some y) else s j) w'
    | .ub => .ub

/-- An operation that makes a segment out of nothing else than its arguments. -/
def new (p : Prog Unit (Seg V)) : Prog (Vars V) (Seg V) := Prog.locally () p fun y _ => y

end Vars

namespace HOp
variable (E : Env V)
open Vars

/-- The copy that is assigned, `segment.hpp` 78-79. -/
def valueCopy (i : Nat) (x : Seg V) : Prog (Vars V) (Seg V) :=
  if E.pocca then Vars.new (Seg.copy E x) else do
    let y ← seg i
    Vars.new (Seg.copyAl E x y.al)

/-- The allocator of the segment that is moved in, `segment.hpp` 86-88. -/
def valueMoveAl (i j : Nat) : Prog (Vars V) Alloc :=
  if E.pocma then do
    let x ← seg j
    return x.al
  else do
    let y ← seg i
    return y.al

/-- The operations with segments as values, made of the functions of `Verif.Model.Segment`. -/
def value : HOp V → Prog (Vars V) Unit
  | make i k t al => do
    vacant i
    let y ← Vars.new (Seg.make E k t al)
    put i (some (some y))
  | prototype i j al => do
    vacant i
    let x ← seg j
    let y ← Vars.new (Seg.makeFromPrototype E x al)
    put i (some (some y))
  | copy i j => do
    vacant i
    let x ← seg j
    let y ← Vars.new (Seg.copy E x)
    put i (some (some y))
  | move i j => do
    vacant i
    let x ← get j
    put i (some x)
    put j (some none)
  | copyAl i j al => do
    vacant i
    let x ← seg j
    let y ← Vars.new (Seg.copyAl E x al)
    put i (some (some y))
  | moveAl i j al => do
    vacant i
    let y ← Vars.on j (Seg.moveAl E al)
    put i (some (some y))
  | assign i j => do
    let _ ← get i
    let x ← seg j
    let y ← valueCopy E i x
    put i (some (some y))
  | moveAssign i j => do
    let _ ← get i
    let _ ← seg j
    let al ← valueMoveAl E i j
    let y ← Vars.on j (Seg.moveAl E al)
    put i (some (some y))
  | call i c => Vars.on i (c.run E)
  | destroy i => do
    let _ ← get i
    put i none

/-- A program runs operations one after the other and goes on after an exception, which it records. -/
def all {X : Type} (f : HOp V → Prog X Unit) : List (HOp V) → Prog X (List (Option Exc))
  | [] => Prog.pure []
  | op :: ops => do
    let r ← fun x w => match f op x w with
      | .ok _ x' w' => .ok none x' w'
      | .exc e x' w' => .ok (some e) x' w'
      | .ub => .ub
    let rs ← all f ops
    return r :: rs

/-- Copies must not change the allocator (see `C40`). -/
def Fine (E : Env V) : HOp V → Prop
  | copy _ _ => ∀ al, E.soccc al = al
  | assign _ _ => E.pocca = true → ∀ al, E.soccc al = al
  | _ => True

/-- Operations that leave everything as it was if they throw. -/
def Strong : HOp V → Prop
  | make .. | prototype .. | copy .. | copyAl .. | assign .. => True
  | _ => False

end HOp
end PolyColl
