import Verif.Model.Collection
/-!
# Assignment of hash maps that keep their nodes (`detail/type_info_map.hpp`, `detail/segment.hpp`)

The standard lets `map=x.map` and, if elements have to be moved one by one, `map=std::move(x.map)` either
destroy the elements of the left map or assign to them.  `TMap.assign` and `TMap.moveAssign` do the former, as
libstdc++ does with values of this kind; libc++ assigns the new keys and values to the nodes that are there
(`__hash_table::__assign_multi`), which calls the assignment operators of `segment`.  These are the same
functions with this choice.
-/

namespace PolyColl

variable {V : Type} (E : Env V)

namespace Seg

/-- `segment::operator=(const segment&)` (`segment.hpp` 76-82): what `*this` becomes; the old object is deleted. -/
def assigned {X : Type} (o x : Seg V) : Prog X (Seg V) :=
  if E.pocca then copy E x else copyAl E x o.al

/-- The allocator in `segment::operator=(segment&&)` (`segment.hpp` 86-88). -/
def movedAl (o x : Seg V) : Alloc := if E.pocma then x.al else o.al

end Seg

namespace TMap

/-- Copies of nodes: first by assigning to the nodes `old`, then in new nodes.  (Nodes of `old` that are not needed are destroyed.) -/
def assignNodes {X : Type} (al : Alloc) : List (Node V) → List (Node V) → Prog X (List (Node V))
  | o :: os, n :: ns => do
    let s ← Seg.assigned E o.seg n.seg
    let rest ← assignNodes al os ns
    return ⟨o.id, n.key, s⟩ :: rest
  | [], n :: ns => copyNodes E al (n :: ns)
  | _, [] => Prog.pure []

/-- Nodes that can be assigned to: none if the allocator is to be replaced by another one. -/
def kept (m x : TMap V) : List (Node V) := if E.pocca ∧ m.al ≠ x.al then [] else m.nodes

/-- Memory for the bucket array, if the number of buckets changes. -/
def newArray {X : Type} (b c : Nat) : Prog X Unit :=
  if c = b then Prog.pure () else do
    let _ ← E.alloc
    return ()

/-- The part of copy assignment inside `try` (`type_info_map.hpp` 101-105).  The left map keeps its buckets, or gets new ones. -/
def assignKeepBody (x : TMap V) : Prog (TMap V) Unit := do
  let m ← Prog.get
  let al := if E.pocca then x.al else m.al
  Prog.set { m with nodes := [], al := al }
  let ns ← assignNodes E al (kept E m x) x.nodes
  let w ← Prog.world
  let c := E.newBuckets w.tick m.buckets
  newArray E m.buckets c
  Prog.set ⟨E.shuffle w.tick ns, c, m.gen + 1, al, []⟩
  buildCache E x.cache

/-- Copy assignment from another object (99-112). -/
def assignKeep (x : TMap V) : Prog (TMap V) Unit :=
  Prog.onExc (assignKeepBody E x) clearAll

/-- The segments of the source nodes moved to the nodes `old`, then to new nodes; runs on the source nodes. -/
def moveToNodes (al : Alloc) : List (Node V) → Prog (List (Node V)) (List (Node V))
  | [] => moveNodes E al
  | o :: os => fun l w =>
    match l with
    | [] => .ok [] [] w
    | n :: ns =>
      match Seg.moveAl E (Seg.movedAl E o.seg n.seg) n.seg w with
      | .ok s src w' =>
        match moveToNodes al os ns w' with
        | .ok rest ns' w'' => .ok (⟨o.id, n.key, s⟩ :: rest) ({ n with seg := src } :: ns') w''
        | .exc e ns' w'' => .exc e ({ n with seg := src } :: ns') w''
        | .ub => .ub
      | .exc e src w' => .exc e ({ n with seg := src } :: ns) w'
      | .ub => .ub

/-- Move assignment from another object (114-135); runs on the pair (`*this`,`x`). -/
def moveAssignKeep : Prog (TMap V × TMap V) Unit :=
  Prog.onExc (do
    let (m, x) ← Prog.get
    if E.pocma ∨ m.al = x.al then
      Prog.set ({ x with al := if E.pocma then x.al else m.al }, { x with nodes := [], cache := [] })
    else
      Prog.set ({ m with nodes := [], cache := [] }, x)
      let ns ← Prog.zoom (fun p : TMap V × TMap V => p.2.nodes) (fun p ns => (p.1, { p.2 with nodes := ns }))
        (moveToNodes E m.al m.nodes)
      let w ← Prog.world
      let c := E.newBuckets w.tick m.buckets
      newArray E m.buckets c
      let y ← Prog.get
      Prog.set (⟨E.shuffle w.tick ns, c, m.gen + 1, m.al, []⟩, { y.2 with nodes := [] })
      Prog.zoom (fun p : TMap V × TMap V => p.1) (fun p m => (m, p.2)) (buildCache E x.cache)
      let y ← Prog.get
      Prog.set (y.1, { y.2 with cache := [] }))
  (do
    Prog.zoom (fun p : TMap V × TMap V => p.1) (fun p m => (m, p.2)) clearAll
    Prog.zoom (fun p : TMap V × TMap V => p.2) (fun p m => (p.1, m)) clearAll)

end TMap

namespace Coll

/-- Copy assignment (`poly_collection.hpp` 401) from another collection of the same kind. -/
def assignKeep (x : Coll V) : Prog (Coll V) Unit := onMap (TMap.assignKeep E x.map)

/-- Move assignment (402) from another collection; runs on the pair (`*this`,`x`). -/
def moveAssignKeep : Prog (Coll V × Coll V) Unit := onMaps (TMap.moveAssignKeep E)

end Coll
end PolyColl
