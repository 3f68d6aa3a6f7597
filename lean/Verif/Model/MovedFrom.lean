import Verif.Model.Collection
/-!
# Move assignment and what the standard library leaves of a moved-from map (`detail/type_info_map.hpp`)

If elements have to be moved one by one, `map=std::move(x.map)` leaves `x.map` "in a valid but unspecified state"; so does the move of the
vector in a segment.  `TMap.moveAssign` has an empty map there.  This is the same function with the choice: `operator=(type_info_map&&)`
clears `x.cache` but not `x.map` (114-135), unlike the constructor with an allocator (94-95).
-/

namespace PolyColl

variable {V : Type} (E : Env V)

/-- What is left of a map whose elements have been moved one by one. -/
inductive Leftover where
  /-- nothing -/
  | none
  /-- its segments, their vectors empty -/
  | emptied
  /-- its segments, their vectors with all the elements, moved from (values of moved-from elements are not distinguished) -/
  | full
  deriving DecidableEq, Repr

/-- The nodes left, out of those there were, `before`, and those whose segments have been moved from and whose vectors are empty, `after`. -/
def Leftover.nodes (l : Leftover) (before after : List (Node V)) : List (Node V) :=
  match l with
  | .none => []
  | .emptied => after
  | .full => before

namespace TMap

/-- Move assignment from another object (114-135); runs on the pair (`*this`,`x`). -/
def moveAssignLeft (l : Leftover) : Prog (TMap V × TMap V) Unit :=
  Prog.onExc (do
    let (m, x) ← Prog.get
    if E.pocma ∨ m.al = x.al then
      Prog.set ({ x with al := if E.pocma then x.al else m.al }, { x with nodes := [], cache := [] })
    else
      Prog.set ({ m with nodes := [], cache := [] }, x)
      let ns ← Prog.zoom (fun p : TMap V × TMap V => p.2.nodes) (fun p ns => (p.1, { p.2 with nodes := ns }))
        (moveNodes E m.al)
      let w ← Prog.world
      let y ← Prog.get
      Prog.set (⟨E.shuffle w.tick ns, x.buckets, m.gen + 1, m.al, []⟩, { y.2 with nodes := l.nodes x.nodes y.2.nodes })
      Prog.zoom (fun p : TMap V × TMap V => p.1) (fun p m => (m, p.2)) (buildCache E x.cache)
      let y ← Prog.get
      Prog.set (y.1, { y.2 with cache := [] }))
  (do
    Prog.zoom (fun p : TMap V × TMap V => p.1) (fun p m => (m, p.2)) clearAll
    Prog.zoom (fun p : TMap V × TMap V => p.2) (fun p m => (p.1, m)) clearAll)

end TMap

namespace Coll

/-- Move assignment (`poly_collection.hpp` 402) from another collection; runs on the pair (`*this`,`x`). -/
def moveAssignLeft (l : Leftover) : Prog (Coll V × Coll V) Unit := onMaps (TMap.moveAssignLeft E l)

end Coll
end PolyColl
