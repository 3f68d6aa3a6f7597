import Verif.Model.Work
import Verif.Model.Traversal
/-!
# The work of traversing and erasing

The functions of `Collection.lean` that go from segment to segment, once more, with the number of
segments they look at and the operations on elements and index entries they take (`Work.lean`).  A
segment is looked at when a loop arrives at it: that of `next_segment_position`
(`detail/iterator_impl.hpp` 109-116), that of `erase(first,last)` (`detail/poly_collection.hpp`
904-913), and those of `clear()`, `empty()` and `size()`.  Lemmas/Effort.lean shows that apart from the
numbers the functions are the same.

Not counted: the lookup of a segment in the map, comparisons, and what an operation that throws has
done.
-/

namespace PolyColl

/-- Operations on elements and index entries, and segments looked at. -/
structure Effort where
  els : Nat
  segs : Nat
  deriving DecidableEq, Repr

namespace TMap
variable {V : Type} (E : Env V)

/-- The loop of `next_segment_position` (109-116) over the remaining nodes. -/
def nextPosInE (m : TMap V) : List (Node V) → GIter × Nat
  | [] => (⟨m.end, m.end, Ptr.null⟩, 0)
  | n :: ns =>
    if n.seg.begin ≠ n.seg.sentinel then (⟨m.itTo n, m.end, n.seg.begin⟩, 1)
    else ((nextPosInE m ns).1, (nextPosInE m ns).2 + 1)

/-- `iterator_impl(mapit,mapend)` (61-67). -/
def iter2E (m : TMap V) (it : MapIt) : Option (GIter × Nat) :=
  match it.node with
  | none => some (⟨m.end, m.end, Ptr.null⟩, 0)
  | some _ =>
    match m.node? E it with
    | none => none
    | some n => some (m.nextPosInE (m.nodesFrom n.id))

/-- `iterator_impl(mapit,mapend,segpos)` (69-78). -/
def iter3E (m : TMap V) (it : MapIt) (p : Ptr) : Option (GIter × Nat) :=
  match it.node with
  | none => some (⟨it, m.end, p⟩, 0)
  | some _ =>
    match m.node? E it with
    | none => none
    | some n =>
      if p = n.seg.sentinel then
        match m.itNext E it with
        | none => none
        | some it' => m.iter2E E it'
      else some (⟨it, m.end, p⟩, 0)

/-- `iterator_impl(mapit,mapend,segpos)` with the map end of another iterator. -/
def iteratorFromE (m : TMap V) (l : LIter) (mapend : MapIt) : Option (GIter × Nat) :=
  if m.usable E mapend ∧ mapend.node = none then
    (m.iter3E E l.mapit l.pos).map fun r => ({ r.1 with mapend := mapend }, r.2)
  else none

/-- `increment` (101-107). -/
def incrementE (m : TMap V) (it : GIter) : Option (GIter × Nat) :=
  match m.node? E it.mapit with
  | none => none
  | some n =>
    if it.segpos.blk = n.seg.begin.blk ∧ it.segpos.off < n.seg.end.off then
      let p : Ptr := ⟨it.segpos.blk, it.segpos.off + 1⟩
      if p = n.seg.sentinel then
        if m.usable E it.mapend ∧ it.mapend.node = none then
          match m.itNext E it.mapit with
          | none => none
          | some it' => m.iter2E E it'
        else none
      else some ({ it with segpos := p }, 0)
    else none

end TMap

namespace Coll
open Work
variable {V : Type} (E : Env V)

/-- `begin()` (`detail/poly_collection.hpp` 437). -/
def beginE (c : Coll V) : Option (GIter × Nat) := c.map.iter2E E c.map.begin

/-- The loop `for(auto it=c.begin();it!=last;++it)*it` from `it` on: elements met and segments looked
at. -/
def walkE (c : Coll V) (last : GIter) : GIter → Nat → Option (List V × Nat)
  | _, 0 => none
  | it, fuel + 1 =>
    if it.segpos = last.segpos then some ([], 0)
    else
      match c.map.deref it.segpos, c.map.incrementE E it with
      | some v, some (it', n) => (walkE c last it' fuel).map fun r => (v :: r.1, n + r.2)
      | _, _ => none

/-- Build the returned iterator. -/
def retIterE (it mapend : MapIt) (p : Ptr) : Prog (Coll V) (GIter × Nat) := do
  let c ← Prog.get
  Prog.ofOption (c.map.iteratorFromE E ⟨it, p⟩ mapend)

/-- Run an operation on the segment a map iterator refers to; `op` says what it is. -/
def onSegE {α : Type} (it : MapIt) (op : SegOp V) (p : Prog (Seg V) α) : Prog (Coll V) (α × Nat) := do
  let c ← Prog.get
  let n ← Prog.ofOption (c.map.node? E it)
  let a ← onMap (TMap.onSeg E it p)
  return (a, work E op n.seg)

/-- `erase(pos)` (879-882). -/
def eraseE (pos : GIter) : Prog (Coll V) (GIter × Effort) := do
  let (p, k) ← onSegE E pos.mapit (.eraseBase pos.segpos.off) (Seg.eraseBase E pos.segpos)
  let (g, n) ← retIterE E pos.mapit pos.mapend p
  return (g, ⟨k, n⟩)

/-- The loop over the segments between and the last one (904-913); every `++fseg` arrives at a segment
unless it arrives at the end. -/
def eraseSpanE (fseg lseg mapend : MapIt) (lastPos : Ptr) : Nat → Prog (Coll V) (GIter × Effort)
  | 0 => Prog.undef
  | fuel + 1 => do
    let c ← Prog.get
    let f ← Prog.ofOption (c.map.itNext E fseg)
    let same ← Prog.ofOption (c.map.itEq E f lseg)
    if same then
      if ← Prog.ofOption (c.map.itEq E f mapend) then return (⟨mapend, mapend, Ptr.null⟩, ⟨0, 0⟩)
      else
        let (p, k) ← onSegE E f (.eraseFromBegin lastPos.off) (Seg.eraseFromBegin E lastPos)
        let (g, n) ← retIterE E f mapend p
        return (g, ⟨k, n + 1⟩)
    else
      let (_, k) ← onSegE E f .clear Seg.clear
      let (g, e) ← eraseSpanE f lseg mapend lastPos fuel
      return (g, ⟨k + e.els, e.segs + 1⟩)

/-- `erase(first,last)` (891-923). -/
def eraseRangeE (first last : GIter) : Prog (Coll V) (GIter × Effort) := do
  let c ← Prog.get
  let same ← Prog.ofOption (c.map.itEq E first.mapit last.mapit)
  if same then
    if first.segpos = last.segpos then
      let (g, n) ← retIterE E first.mapit first.mapend first.segpos
      return (g, ⟨0, n⟩)
    else
      let (p, k) ← onSegE E first.mapit (.eraseRangeBase first.segpos.off last.segpos.off)
        (Seg.eraseRangeBase E first.segpos last.segpos)
      let (g, n) ← retIterE E first.mapit first.mapend p
      return (g, ⟨k, n⟩)
  else
    let (_, k) ← onSegE E first.mapit (.eraseTillEnd first.segpos.off) (Seg.eraseTillEnd E first.segpos)
    let (g, e) ← eraseSpanE E first.mapit last.mapit first.mapend last.segpos (c.map.nodes.length + 1)
    return (g, ⟨k + e.els, e.segs⟩)

/-- The loop of `clear()` (938-941). -/
def clearE : Prog (List (Node V)) Effort := fun l w =>
  match l with
  | [] => .ok ⟨0, 0⟩ [] w
  | n :: ns =>
    match Seg.clear n.seg w with
    | .ok _ s w' =>
      match clearE ns w' with
      | .ok e ns' w'' => .ok ⟨work E .clear n.seg + e.els, e.segs + 1⟩ ({ n with seg := s } :: ns') w''
      | .exc e ns' w'' => .exc e ({ n with seg := s } :: ns') w''
      | .ub => .ub
    | .exc e s w' => .exc e ({ n with seg := s } :: ns) w'
    | .ub => .ub

/-- `clear()` (938-941). -/
def clearAllE : Prog (Coll V) Effort :=
  onMap (Prog.zoom (fun m => m.nodes) (fun m ns => { m with nodes := ns }) (clearE E))

/-- The loop of `empty()` (528-532): it stops at a segment with elements. -/
def emptyE : List (Node V) → Bool × Nat
  | [] => (true, 0)
  | n :: ns => if !n.seg.empty then (false, 1) else ((emptyE ns).1, (emptyE ns).2 + 1)

/-- The loop of `size()` (545-550). -/
def sizeE : List (Node V) → Nat × Nat
  | [] => (0, 0)
  | n :: ns => (n.seg.size + (sizeE ns).1, (sizeE ns).2 + 1)

end Coll
end PolyColl
