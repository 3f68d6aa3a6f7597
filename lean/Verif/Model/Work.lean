import Verif.Model.Segment
/-!
# The work done by the operations on segments

How many operations on elements and index entries (constructions, copies, moves, assignments,
destructions) and allocations the functions of `detail/packed_segment.hpp` and
`detail/split_segment.hpp` take.  This depends only on sizes and capacities.  A `Meter` gives, for
the sizes and capacities before a function is called, those after it has returned, and the number of
operations.  The functions are those of `Packed.lean` and `Split.lean`, in the same order; those of
`std::vector` take the number of operations the standard prescribes ([vector.capacity],
[vector.modifiers]).  Lookup in the map, arithmetic and virtual calls are constant and not counted.
Lemmas/Work.lean shows that the sizes and capacities are those of the model and that no step that
may fail is left out.
-/

namespace PolyColl.Work

/-- Sizes and capacities after, and number of operations. -/
abbrev Meter (σ : Type) := σ → σ × Nat

namespace Meter
variable {σ : Type}

/-- Nothing. -/
def skip : Meter σ := fun s => (s, 0)

/-- One after the other. -/
def andThen (f g : Meter σ) : Meter σ := fun s => ((g (f s).1).1, (f s).2 + (g (f s).1).2)

/-- `n` times. -/
def times (f : Meter σ) : Nat → Meter σ
  | 0 => skip
  | n + 1 => f.andThen (times f n)

end Meter

/-- Size and capacity of a vector. -/
structure VShape where
  size : Nat
  cap : Nat
  deriving DecidableEq, Repr

namespace VShape
variable (L : StdLib)

/-- `reserve(n)`: an allocation, and all elements are moved, if the capacity is less. -/
def reserve (n : Nat) : Meter VShape := fun v =>
  if n ≤ v.cap then (v, 0) else (⟨v.size, L.reserveCap n⟩, v.size + 1)

/-- `emplace_back`, `push_back`, for a vector with `max_size()` `m`. -/
def emplaceBack (m : Nat) : Meter VShape := fun v =>
  if v.size < v.cap then (⟨v.size + 1, v.cap⟩, 1)
  else (⟨v.size + 1, L.growCap m v.size (v.size + 1)⟩, v.size + 2)

/-- `emplace(begin()+n,...)`, `insert(begin()+n,x)`: without reallocation the new element is
constructed, the elements after it are moved, and it is moved to its place. -/
def emplaceAt (m n : Nat) : Meter VShape := fun v =>
  if n = v.size then emplaceBack L m v
  else if v.size < v.cap then (⟨v.size + 1, v.cap⟩, 2 + (v.size - n))
  else (⟨v.size + 1, L.growCap m v.size (v.size + 1)⟩, v.size + 2)

/-- `insert(begin()+n,first,last)` for `k` elements, forward iterators. -/
def insertRange (m n k : Nat) : Meter VShape := fun v =>
  if k = 0 then (v, 0)
  else if v.size + k ≤ v.cap then (⟨v.size + k, v.cap⟩, k + (v.size - n))
  else (⟨v.size + k, L.growCap m v.size (v.size + k)⟩, v.size + k + 1)

/-- The same for single-pass iterators: by means of a temporary vector, or by appending and
rotating. -/
def insertInput (m n k : Nat) : Meter VShape := fun v =>
  if L.inputTemp = true ∧ n ≠ v.size ∧ k ≠ 0 then
    ((insertRange L m n k v).1,
      (Meter.times (emplaceBack L m) k ⟨0, 0⟩).2 + (insertRange L m n k v).2)
  else
    let r := Meter.times (emplaceBack L m) k v
    (r.1, r.2 + if n = v.size ∨ k = 0 then 0 else r.1.size - n)

/-- `erase(begin()+a,begin()+b)`: the elements after are moved down, as many as are erased are
destroyed. -/
def eraseRange (a b : Nat) : Meter VShape := fun v =>
  (⟨v.size - (b - a), v.cap⟩, (b - a) + if a = b then 0 else v.size - b)

/-- `clear()`. -/
def clear : Meter VShape := fun v => (⟨0, v.cap⟩, v.size)

/-- `pop_back()`. -/
def popBack : Meter VShape := fun v => (⟨v.size - 1, v.cap⟩, 1)

/-- `shrink_to_fit()`. -/
def shrinkToFit : Meter VShape := fun v =>
  let c := L.shrinkCap v.size v.cap
  if c = v.cap then (v, 0) else if c = 0 then (⟨v.size, 0⟩, 0) else (⟨v.size, c⟩, v.size + 1)

end VShape

/-- Sizes and capacities of store and index of a split segment, `max_size()` of both. -/
structure SShape where
  m : Nat
  im : Nat
  s : VShape
  i : VShape
  deriving DecidableEq, Repr

namespace SShape
variable (L : StdLib)

/-- An operation on the store. -/
def onS (f : Meter VShape) : Meter SShape := fun x => ({ x with s := (f x.s).1 }, (f x.s).2)

/-- An operation on the index. -/
def onI (f : Meter VShape) : Meter SShape := fun x => ({ x with i := (f x.i).1 }, (f x.i).2)

/-- `build_index(start)` (`split_segment.hpp` 380-385). -/
def buildIndex (start : Nat) : Meter SShape := fun x =>
  onI (Meter.times (VShape.emplaceBack L x.im) (x.s.size + 1 - start)) x

/-- `rebuild_index` (387-391). -/
def rebuildIndex : Meter SShape := (onI VShape.clear).andThen (buildIndex L 0)

/-- `push_index_entry` (393-396). -/
def pushIndexEntry : Meter SShape := fun x => buildIndex L x.s.size x

/-- `pop_index_entry(n)` (398-401). -/
def popIndexEntry (n : Nat) : Meter SShape := onI (Meter.times VShape.popBack n)

/-- `expand()` (362-371). -/
def expand : Meter SShape := fun x =>
  ((onI (VShape.reserve L (Split.growth x.s.size x.m + 1))).andThen
    ((onS (VShape.reserve L (Split.growth x.s.size x.m))).andThen (rebuildIndex L))) x

/-- `expand(m)` (373-378). -/
def expandBy (k : Nat) : Meter SShape := fun x =>
  ((onI (VShape.reserve L (x.s.size + k + 1))).andThen
    ((onS (VShape.reserve L (x.s.size + k))).andThen (rebuildIndex L))) x

/-- `prereserve()`, `prereserve(p)` (327-350). -/
def prereserve : Meter SShape := fun x => if x.s.size = x.s.cap then expand L x else (x, 0)

/-- `prereserve(p,m)` (352-360). -/
def prereserveBy (k : Nat) : Meter SShape := fun x =>
  if x.s.cap < x.s.size + k then expandBy L k x else (x, 0)

/-- `nv_reserve` (129-136). -/
def reserve (n : Nat) : Meter SShape := fun x =>
  ((onI (VShape.reserve L (n + 1))).andThen
    ((onS (VShape.reserve L n)).andThen (if x.s.cap < n then rebuildIndex L else Meter.skip))) x

/-- `nv_shrink_to_fit` (140-162). -/
def shrinkToFit : Meter SShape := fun x =>
  if x.s.size = 0 then
    let y : SShape := { x with s := ⟨0, L.reserveCap 1⟩, i := ⟨0, L.reserveCap (L.reserveCap 1 + 1)⟩ }
    ((buildIndex L 0 y).1, x.i.size + 2 + (buildIndex L 0 y).2)
  else
    let z := VShape.shrinkToFit L x.s
    if L.shrinkCap x.s.size x.s.cap = x.s.cap then (x, 0)
    else
      let y : SShape := { x with s := z.1, i := ⟨0, L.reserveCap (z.1.cap + 1)⟩ }
      ((buildIndex L 0 y).1, z.2 + x.i.size + 1 + (buildIndex L 0 y).2)

/-- `nv_emplace` (164-173), `nv_insert(p,x)` (206-226), at position `n`. -/
def emplaceAt (n : Nat) : Meter SShape := fun x =>
  ((prereserve L).andThen ((onS (VShape.emplaceAt L x.m n)).andThen (pushIndexEntry L))) x

/-- `nv_emplace_back` (175-182), `nv_push_back` (184-204). -/
def pushBack : Meter SShape := fun x =>
  ((prereserve L).andThen ((onS (VShape.emplaceBack L x.m)).andThen (pushIndexEntry L))) x

/-- `insert(p,first,last,input_iterator_tag)` (465-477) for `k` elements at position `n`: each
element in turn. -/
def insertInput (n : Nat) : Nat → Meter SShape
  | 0 => Meter.skip
  | k + 1 => (emplaceAt L n).andThen (insertInput (n + 1) k)

/-- `insert(p,first,last,forward_iterator_tag)` (479-498). -/
def insertForward (n k : Nat) : Meter SShape := fun x =>
  if k = 0 then (x, 0)
  else ((prereserveBy L k).andThen ((onS (VShape.insertRange L x.m n k)).andThen
    (buildIndex L (x.s.size + 1)))) x

/-- `nv_erase(p)` (243-250). -/
def erase (n : Nat) : Meter SShape :=
  (popIndexEntry 1).andThen (onS (VShape.eraseRange n (n + 1)))

/-- `nv_erase(first,last)` (252-261), `erase_till_end` (263-269), `erase_from_begin` (271-277). -/
def eraseRange (a b : Nat) : Meter SShape := fun x =>
  ((onS (VShape.eraseRange a b)).andThen
    (popIndexEntry (x.s.size - (VShape.eraseRange a b x.s).1.size))) x

/-- `nv_clear` (279-286). -/
def clear : Meter SShape := fun x =>
  ((onS VShape.clear).andThen (popIndexEntry (x.i.size - 1))) x

end SShape

/-- Sizes and capacities of a segment; for packed segments with `max_size()`. -/
inductive Shape
  | packed (m : Nat) (s : VShape)
  | split (x : SShape)
  deriving DecidableEq, Repr

/-- Dispatch on the layout. -/
def Shape.run (f : Nat → Meter VShape) (g : Meter SShape) : Meter Shape
  | .packed m s => (.packed m (f m s).1, (f m s).2)
  | .split x => (.split (g x).1, (g x).2)

/-- The operations of `detail/segment.hpp` on an existing segment, with positions as numbers.
Those of base and local iterators take the same work; reading an index entry is not counted. -/
inductive SegOp (V : Type) where
  | pushBack (src : Src V)
  | emplace (n : Nat) (src : Src V)
  | insertBase (n : Nat) (src : Src V)
  | insertLocal (n : Nat) (src : Src V)
  | insertRangeBase (fwd : Bool) (n : Nat) (srcs : List (Src V))
  | insertRangeLocal (fwd : Bool) (n : Nat) (srcs : List (Src V))
  | insertRangeEnd (fwd : Bool) (srcs : List (Src V))
  | eraseBase (n : Nat)
  | eraseLocal (n : Nat)
  | eraseRangeBase (a b : Nat)
  | eraseRangeLocal (a b : Nat)
  | eraseTillEnd (a : Nat)
  | eraseFromBegin (b : Nat)
  | clear
  | reserve (n : Nat)
  | shrinkToFit

namespace SegOp
variable {V : Type} (E : Env V)

/-- Run an operation, positions being turned into iterators of the segment. -/
def run (op : SegOp V) : Prog (Seg V) Unit := do
  let x ← Prog.get
  let base := fun n => (⟨x.begin.blk, n⟩ : Ptr)
  let loc := fun n => x.be.store.ptr n
  let ign := fun (p : Prog (Seg V) Ptr) => Prog.bind p fun _ => Prog.pure ()
  match op with
  | .pushBack src => ign (Seg.pushBack E src)
  | .emplace n src => ign (Seg.emplace E (.base (base n)) src)
  | .insertBase n src => ign (Seg.insertBase E (base n) src)
  | .insertLocal n src => ign (Seg.insertLocal E (loc n) src)
  | .insertRangeBase fwd n srcs => ign (Seg.insertRangeBase E fwd (base n) srcs)
  | .insertRangeLocal fwd n srcs => ign (Seg.insertRangeLocal E fwd (loc n) srcs)
  | .insertRangeEnd fwd srcs => ign (Seg.insertRangeEnd E fwd srcs)
  | .eraseBase n => ign (Seg.eraseBase E (base n))
  | .eraseLocal n => ign (Seg.eraseLocal E (loc n))
  | .eraseRangeBase a b => ign (Seg.eraseRangeBase E (base a) (base b))
  | .eraseRangeLocal a b => ign (Seg.eraseRangeLocal E (loc a) (loc b))
  | .eraseTillEnd a => ign (Seg.eraseTillEnd E (base a))
  | .eraseFromBegin b => ign (Seg.eraseFromBegin E (base b))
  | .clear => Seg.clear
  | .reserve n => Seg.reserve E n
  | .shrinkToFit => Seg.shrinkToFit E

/-- Meter of a range insertion of `k` elements at position `n`. -/
def rangeMeter (L : StdLib) (fwd : Bool) (n k : Nat) : Meter Shape :=
  Shape.run (fun m => if fwd then VShape.insertRange L m n k else VShape.insertInput L m n k)
    (if fwd then SShape.insertForward L n k else SShape.insertInput L n k)

/-- Number of elements of a segment. -/
def _root_.PolyColl.Work.Shape.size : Shape → Nat
  | .packed _ s => s.size
  | .split x => x.s.size

/-- The work of an operation. -/
def meter (L : StdLib) : SegOp V → Meter Shape
  | .pushBack _ => Shape.run (VShape.emplaceBack L) (SShape.pushBack L)
  | .emplace n _ => Shape.run (fun m => VShape.emplaceAt L m n) (SShape.emplaceAt L n)
  | .insertBase n _ => Shape.run (fun m => VShape.emplaceAt L m n) (SShape.emplaceAt L n)
  | .insertLocal n _ => Shape.run (fun m => VShape.emplaceAt L m n) (SShape.emplaceAt L n)
  | .insertRangeBase fwd n srcs => rangeMeter L fwd n srcs.length
  | .insertRangeLocal fwd n srcs => rangeMeter L fwd n srcs.length
  | .insertRangeEnd fwd srcs => fun x => rangeMeter L fwd x.size srcs.length x
  | .eraseBase n => Shape.run (fun _ => VShape.eraseRange n (n + 1)) (SShape.erase n)
  | .eraseLocal n => Shape.run (fun _ => VShape.eraseRange n (n + 1)) (SShape.erase n)
  | .eraseRangeBase a b => Shape.run (fun _ => VShape.eraseRange a b) (SShape.eraseRange a b)
  | .eraseRangeLocal a b => Shape.run (fun _ => VShape.eraseRange a b) (SShape.eraseRange a b)
  | .eraseTillEnd a => fun x =>
    Shape.run (fun _ => VShape.eraseRange a x.size) (SShape.eraseRange a x.size) x
  | .eraseFromBegin b => Shape.run (fun _ => VShape.eraseRange 0 b) (SShape.eraseRange 0 b)
  | .clear => Shape.run (fun _ => VShape.clear) SShape.clear
  | .reserve n => Shape.run (fun _ => VShape.reserve L n) (SShape.reserve L n)
  | .shrinkToFit => Shape.run (fun _ => VShape.shrinkToFit L) (SShape.shrinkToFit L)

end SegOp

/-- Size and capacity. -/
def vsh {α : Type} (v : Vec α) : VShape := ⟨v.size, v.cap⟩

section
variable {V : Type} (E : Env V)

/-- Sizes and capacities of a split segment. -/
def ssh (x : Split V) : SShape := ⟨E.maxSize x.ty, E.idxMaxSize, vsh x.s, vsh x.i⟩

/-- Sizes and capacities of a packed segment. -/
def psh (x : Packed V) : Shape := .packed (E.maxSize x.ty) (vsh x.s)

/-- Sizes and capacities of a segment. -/
def shape (x : Seg V) : Shape :=
  match x.be with
  | .packed b => psh E b
  | .split b => .split (ssh E b)

/-- The work an operation takes on a segment. -/
def work (op : SegOp V) (x : Seg V) : Nat := (op.meter E.lib (shape E x)).2

end
end PolyColl.Work
