import Verif.Model.Traversal
import Verif.Model.Writing
/-!
# Programs using several collections

The operations a program can apply to a family of collections (numbered by natural numbers, all
with the same layout), with arbitrary arguments.  Iterator arguments are arbitrary values: an
operation given an unusable one is undefined.  There is no file of /repo behind this module beyond
the operations themselves.
-/

namespace PolyColl

/-- Operations on one collection. -/
inductive COp (V : Type) where
  | registerTypes (ts : List TI)
  | lookup (t : TI)
  | reserveAll (n : Nat)
  | reserveInfo (t : TI) (n : Nat)
  | reserveT (t : TI) (n : Nat)
  | shrinkAll
  | shrinkInfo (t : TI)
  | emplace (t : TI) (src : Src V)
  | emplaceHint (hint : GIter) (t : TI) (src : Src V)
  | emplacePosBase (pos : LIter) (t : TI) (src : Src V)
  | emplacePosLocal (pos : LIter) (t : TI) (src : Src V)
  | insert (a : Arg V)
  | insertHint (hint : GIter) (a : Arg V)
  | insertPosBase (pos : LIter) (a : Arg V)
  | insertPosLocal (pos : LIter) (a : Arg V)
  | insertRange (as : List (Arg V))
  | insertRangeTerminal (fwd : Bool) (t : TI) (srcs : List (Src V))
  | insertHintRange (hint : GIter) (as : List (Arg V))
  | insertHintRangeTerminal (hint : GIter) (fwd : Bool) (t : TI) (srcs : List (Src V))
  | insertPosRangeBase (pos : LIter) (as : List (Arg V))
  | insertPosRangeLocal (pos : LIter) (t : TI) (srcs : List (Src V))
  | erase (pos : GIter)
  | eraseLocalBase (pos : LIter)
  | eraseLocal (pos : LIter)
  | eraseRange (first last : GIter)
  | eraseLocalRangeBase (first last : LIter)
  | eraseLocalRange (first last : LIter)
  | clearAll
  | clearInfo (t : TI)
  | apply (o : Coll.Sort') (pos : Ptr) (a : Act V)
  | rebind (pos src : Ptr)

/-- Drop the result. -/
def Prog.drop {X α : Type} (p : Prog X α) : Prog X Unit := do
  let _ ← p
  return ()

namespace COp
variable {V : Type} (E : Env V)

/-- Apply an operation. -/
def run : COp V → Prog (Coll V) Unit
  | registerTypes ts => Coll.registerTypes E ts
  | lookup t => (Coll.forInfo E t).drop
  | reserveAll n => Coll.reserveAll E n
  | reserveInfo t n => Coll.reserveInfo E t n
  | reserveT t n => Coll.reserveT E t n
  | shrinkAll => Coll.shrinkAll E
  | shrinkInfo t => Coll.shrinkInfo E t
  | emplace t src => (Coll.emplace E t src).drop
  | emplaceHint h t src => (Coll.emplaceHint E h t src).drop
  | emplacePosBase p t src => (Coll.emplacePosBase E p t src).drop
  | emplacePosLocal p t src => (Coll.emplacePosLocal E p t src).drop
  | insert a => (Coll.insert E a).drop
  | insertHint h a => (Coll.insertHint E h a).drop
  | insertPosBase p a => (Coll.insertPosBase E p a).drop
  | insertPosLocal p a => (Coll.insertPosLocal E p a).drop
  | insertRange as => Coll.insertRange E as
  | insertRangeTerminal fwd t srcs => Coll.insertRangeTerminal E fwd t srcs
  | insertHintRange h as => (Coll.insertHintRange E h as).drop
  | insertHintRangeTerminal h fwd t srcs => Coll.insertHintRangeTerminal E h fwd t srcs
  | insertPosRangeBase p as => (Coll.insertPosRangeBase E p as).drop
  | insertPosRangeLocal p t srcs => (Coll.insertPosRangeLocal E p t srcs).drop
  | erase p => (Coll.erase E p).drop
  | eraseLocalBase p => (Coll.eraseLocalBase E p).drop
  | eraseLocal p => (Coll.eraseLocal E p).drop
  | eraseRange p q => (Coll.eraseRange E p q).drop
  | eraseLocalRangeBase p q => (Coll.eraseLocalRangeBase E p q).drop
  | eraseLocalRange p q => (Coll.eraseLocalRange E p q).drop
  | clearAll => Coll.clearAll
  | clearInfo t => Coll.clearInfo E t
  | apply o p a => (Coll.apply E o p a).drop
  | rebind p q => Coll.rebind E p q

/-- The arguments of `insert` in an operation. -/
def args : COp V → List (Arg V)
  | insert a | insertHint _ a | insertPosBase _ a | insertPosLocal _ a => [a]
  | insertRange as | insertHintRange _ as | insertPosRangeBase _ as => as
  | _ => []

end COp

/-- The collections of a program. -/
abbrev Sys (V : Type) := Nat → Coll V

/-- Operations on the collections of a program: on one of them, construction (which replaces
collection `i`), and operations on two. -/
inductive Op (V : Type) where
  | on (i : Nat) (op : COp V)
  | create (i : Nat) (al : Alloc)
  | fromRange (i : Nat) (al : Alloc) (as : List (Arg V))
  | fromTerminal (i : Nat) (al : Alloc) (fwd : Bool) (t : TI) (srcs : List (Src V))
  | fromColl (i j : Nat) (al : Alloc) (first last : GIter)
  | fromLocalColl (i j : Nat) (al : Alloc) (first last : LIter)
  | copy (i j : Nat)
  | copyAl (i j : Nat) (al : Alloc)
  | move (i j : Nat)
  | moveAl (i j : Nat) (al : Alloc)
  | assign (i j : Nat)
  | moveAssign (i j : Nat)
  | swap (i j : Nat)
  | insertColl (i j : Nat) (first last : GIter)
  | insertLocalColl (i j : Nat) (first last : LIter)
  | insertHintColl (i j : Nat) (hint first last : GIter)
  | insertHintLocalColl (i j : Nat) (hint : GIter) (first last : LIter)

namespace Sys
variable {V : Type}

/-- Replace collection `i`. -/
def put (s : Sys V) (i : Nat) (c : Coll V) : Sys V := fun j => if j = i then c else s j

/-- Run an operation on collection `i`. -/
def on {α : Type} (i : Nat) (p : Prog (Coll V) α) : Prog (Sys V) α := Prog.zoom (fun s => s i) (fun s c => s.put i c) p

/-- Run an operation on the pair of collections `i` and `j` (distinct). -/
def on2 {α : Type} (i j : Nat) (p : Prog (Coll V × Coll V) α) : Prog (Sys V) α :=
  Prog.zoom (fun s => (s i, s j)) (fun s c => (s.put i c.1).put j c.2) p

/-- Build a collection and put it in place of collection `i`. -/
def construct (i : Nat) (p : Prog (Sys V) (Coll V)) : Prog (Sys V) Unit := do
  let c ← p
  let s ← Prog.get
  Prog.set (s.put i c)

end Sys

namespace Op
variable {V : Type} (E : Env V) (k : Kind) (sub : Ty → TI)

/-- Apply an operation, for collections of kind `k`.  An operation constructing a collection from
itself or inserting a collection into itself is not considered; assignment to itself does nothing
(`detail/type_info_map.hpp` 101, 116). -/
def run : Op V → Prog (Sys V) Unit
  | on i op => Sys.on i (op.run E)
  | create i al => Sys.construct i (Prog.pure (Coll.empty' k al))
  | fromRange i al as => Sys.construct i (Coll.fromRange E k al as)
  | fromTerminal i al fwd t srcs => Sys.construct i (Coll.fromTerminal E k al fwd t srcs)
  | fromColl i j al f l => do
    let s ← Prog.get
    if i = j then Prog.undef else Sys.construct i (Coll.fromColl E sub k al (s j) f l)
  | fromLocalColl i j al f l => do
    let s ← Prog.get
    if i = j then Prog.undef else Sys.construct i (Coll.fromLocalColl E sub k al (s j) f l)
  | copy i j => do
    let s ← Prog.get
    if i = j then Prog.undef else Sys.construct i (Coll.copy E (s j))
  | copyAl i j al => do
    let s ← Prog.get
    if i = j then Prog.undef else Sys.construct i (Coll.copyAl E (s j) al)
  | move i j => if i = j then Prog.undef else Sys.construct i (Sys.on j Coll.move)
  | moveAl i j al => if i = j then Prog.undef else Sys.construct i (Sys.on j (Coll.moveAl E al))
  | assign i j => do
    let s ← Prog.get
    if i = j then Prog.pure () else Sys.on i (Coll.assign E (s j))
  | moveAssign i j => if i = j then Prog.pure () else Sys.on2 i j (Coll.moveAssign E)
  | swap i j => if i = j then Prog.pure () else Sys.on2 i j (Coll.swap E)
  | insertColl i j f l => do
    let s ← Prog.get
    if i = j then Prog.undef else Sys.on i (Coll.insertColl E sub (s j) f l)
  | insertLocalColl i j f l => do
    let s ← Prog.get
    if i = j then Prog.undef else Sys.on i (Coll.insertLocalColl E sub (s j) f l)
  | insertHintColl i j h f l => do
    let s ← Prog.get
    if i = j then Prog.undef else Sys.on i (Coll.insertHintColl E sub h (s j) f l).drop
  | insertHintLocalColl i j h f l => do
    let s ← Prog.get
    if i = j then Prog.undef else Sys.on i (Coll.insertHintLocalColl E sub h (s j) f l).drop

/-- The arguments of `insert` in an operation. -/
def args : Op V → List (Arg V)
  | on _ op => op.args
  | fromRange _ _ as => as
  | _ => []

end Op

/-- A state a program can reach: it starts without collections having anything registered, and
every operation returns or throws. -/
inductive Reach {V : Type} (E : Env V) (k : Kind) (sub : Ty → TI) (ok : Arg V → Prop) : Sys V → World → Prop where
  | start (al : Nat → Alloc) (w : World) (hw : 0 < w.next) : Reach E k sub ok (fun i => Coll.empty' k (al i)) w
  | ok {s s' : Sys V} {w w' : World} (h : Reach E k sub ok s w) (op : Op V) (ha : ∀ a ∈ op.args, ok a)
      (hr : op.run E k sub s w = .ok () s' w') : Reach E k sub ok s' w'
  | exc {s s' : Sys V} {w w' : World} {e : Exc} (h : Reach E k sub ok s w) (op : Op V) (ha : ∀ a ∈ op.args, ok a)
      (hr : op.run E k sub s w = .exc e s' w') : Reach E k sub ok s' w'

end PolyColl
