import Verif.Model.Collection
/-!
# Modifying elements through iterators

A program may modify elements in place: assign to `*it`, call a member function of the element, call
the element itself (`function_collection`), hand it to an algorithm.  The library's part in this is to
deliver a reference to the right element (`detail/iterator_impl.hpp` 97-98 for `iterator`, 135-237 for
local ones; `detail/callable_wrapper.hpp` 50-51, 77-84 for calls).
-/

namespace PolyColl

/-- What a program does to an element it has a reference to: the new value if this returns, the
value left if it throws, and whether it cannot throw. -/
structure Act (V : Type) where
  run : V → V
  fail : V → V
  nothrow : Bool

/-- Change the element at `p`, undefined unless there is one. -/
def Vec.modify {α : Type} (v : Vec α) (p : Ptr) (f : α → α) : Option (Vec α) :=
  if p.blk = v.blk ∧ p.off < v.size then some ⟨v.blk, v.cap, v.elems.modify p.off f⟩ else none

/-- The two sorts of positions: pointers to `value_type` (into the elements of a packed segment, into
the index of a split one), as held by `iterator` and `local_base_iterator`, and pointers to `T`, as
held by `local_iterator<T>`. -/
inductive Coll.Sort' where
  | base
  | terminal
  deriving DecidableEq, Repr

namespace Backend
variable {V : Type}

/-- Replace the element vector. -/
def withStore : Backend V → Vec V → Backend V
  | .packed x, v => .packed { x with s := v }
  | .split x, v => .split { x with s := v }

/-- The address of the element at a position. -/
def address (b : Backend V) : Coll.Sort' → Ptr → Option Ptr
  | .base, p => b.toLocal p
  | .terminal, p => some p

/-- Change the element at a position.  In the split layout this goes through the index. -/
def modify (b : Backend V) (o : Coll.Sort') (p : Ptr) (f : V → V) : Option (Backend V) :=
  (b.address o p).bind fun q => (b.store.modify q f).map b.withStore

/-- The `value_type` object at position `p`, if it is an object of its own and not part of the element. -/
def entry : Backend V → Ptr → Option Ptr
  | .packed _, _ => none
  | .split x, p => x.i.deref p

/-- Overwrite the `value_type` object at position `p`. -/
def setEntry (b : Backend V) (p r : Ptr) : Option (Backend V) :=
  match b with
  | .packed _ => none
  | .split x => (x.i.modify p fun _ => r).map fun i => .split { x with i := i }

end Backend

/-- Act on the element of the segment at a position; returns the value the program found there. -/
def Seg.apply {V : Type} (E : Env V) (o : Coll.Sort') (p : Ptr) (a : Act V) : Prog (Seg V) V := do
  let s ← Prog.get
  let q ← Prog.ofOption (s.be.address o p)
  let v ← Prog.ofOption (s.be.derefLocal q)
  let ok ← Prog.ofOption (s.be.modify o p a.run)
  let bad ← Prog.ofOption (s.be.modify o p a.fail)
  Prog.onExc (do E.userOp a.nothrow; Prog.set ⟨ok, s.snt⟩) (Prog.set ⟨bad, s.snt⟩)
  return v

/-- Act on the element at a position, wherever it is: only the address counts, as in `TMap.deref`. -/
def Coll.apply {V : Type} (E : Env V) (o : Coll.Sort') (p : Ptr) (a : Act V) : Prog (Coll V) V := do
  let c ← Prog.get
  let n ← Prog.ofOption (c.map.nodes.find? fun n => (n.seg.be.modify o p a.run).isSome)
  Coll.onMap (TMap.onSeg E (c.map.itTo n) (Seg.apply E o p a))

/-- Overwrite an entry of the index of a segment. -/
def Seg.rebind {V : Type} (p r : Ptr) : Prog (Seg V) Unit := do
  let s ← Prog.get
  let b ← Prog.ofOption (s.be.setEntry p r)
  Prog.set ⟨b, s.snt⟩

/-- `*it=*jt` for iterators of a `function_collection` at positions `p` and `q`: the copy assignment of
`callable_wrapper` (`detail/callable_wrapper.hpp` 36, 46), an entry of the index, copies the address of
the element.  The elements are not touched. -/
def Coll.rebind {V : Type} (E : Env V) (p q : Ptr) : Prog (Coll V) Unit := do
  let c ← Prog.get
  let r ← Prog.ofOption (c.map.nodes.findSome? fun n => n.seg.be.entry q)
  let n ← Prog.ofOption (c.map.nodes.find? fun n => (n.seg.be.entry p).isSome)
  Coll.onMap (TMap.onSeg E (c.map.itTo n) (Seg.rebind p r))

end PolyColl
