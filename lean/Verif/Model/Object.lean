import Verif.Model.Collection
/-!
# Arguments of `insert`: objects seen through references

How `insert` gets from its argument to the object to be copied: `detail/base_model.hpp`,
`detail/function_model.hpp`, `detail/any_model.hpp`, and the overloads of `detail/segment.hpp` and
`detail/poly_collection.hpp` that pass the argument on.  `Collection.lean` starts from the result
(`Arg`).
-/

namespace PolyColl
open Prog

/-- The three polymorphism models: `base_model`, `function_model`, `any_model`. -/
inductive PModel where
  | base | function | any
  deriving DecidableEq, Repr

/-- The address of an object: outside the collection, or `off` chars into the element at `p`. -/
inductive Addr where
  | ext (a : Nat)
  | elem (p : Ptr) (off : Nat)
  deriving DecidableEq, Repr

/-- Objects outside the collection.  Objects of different types may share an address (an object and
its first base), hence an address and a type. -/
abbrev Mem (V : Type) := Nat → Ty → Option V

/-- An argument `x` of static type `T`. -/
structure Expr where
  /-- `typeid(T)` -/
  stat : TI
  /-- `is_final<T>` -/
  final : Bool
  /-- T is a `callable_wrapper`, or a `type_erasure::any` whose concept includes `typeid_` -/
  erased : Bool
  /-- `is_acceptable<T>` -/
  acc : Bool
  /-- `boost::addressof(x)` -/
  addr : Addr
  /-- base_model: `typeid(x)`; function_model: `x.target_type()`; any_model: `typeid_of(x)` -/
  dyn : TI
  /-- base_model: `dynamic_cast<void*>(&x)`; function_model: `x.data()`; any_model:
  `any_cast<void*>(&x)` -/
  whole : Addr
  /-- x is a non-const rvalue -/
  rvalue : Bool
  deriving Repr

namespace Expr

/-- `is_terminal<T>` (`detail/base_model.hpp` 39-40; `detail/function_model.hpp` 38-45, 55-56;
`detail/any_model.hpp` 65-82, 106-107). -/
def isTerminal (m : PModel) (x : Expr) : Bool :=
  match m with
  | .base => x.final
  | .function | .any => !x.erased

/-- `subtypeid(x)` (`detail/base_model.hpp` 51-55; `detail/function_model.hpp` 58-66;
`detail/any_model.hpp` 109-120). -/
def subtypeid (m : PModel) (x : Expr) : TI :=
  match m with
  | .base => if x.final then x.stat else x.dyn
  | .function | .any => if x.erased then x.dyn else x.stat

/-- `subaddress(x)` (`detail/base_model.hpp` 57-73; `detail/function_model.hpp` 68-85;
`detail/any_model.hpp` 122-145). -/
def subaddress (m : PModel) (x : Expr) : Addr :=
  match m with
  | .base => if x.final then x.addr else x.whole
  | .function | .any => if x.erased then x.whole else x.addr

variable {V : Type} (E : Env V)

/-- The part of `Arg` that `get_map_iterator_for(x)` looks at, with the source left open. -/
def arg (m : PModel) (x : Expr) (src : Src V) : Arg V := ⟨x.stat, x.subtypeid m, x.acc, x.isTerminal m, src⟩

end Expr

variable {V : Type} (E : Env V)

/-- `*static_cast<const U*>(a)` (`detail/packed_segment.hpp` 256-264, `detail/split_segment.hpp`
403-416, `detail/segment.hpp` 175, 198) for the type `t` of U, about to be copied, or moved if `mv`.
Undefined (`none`) unless there is an object of that type at that address.  Elements are not moved
from within the same collection (not modelled). -/
def fetch (mem : Mem V) (t : Ty) (a : Addr) (mv : Bool) : Option (Src V) :=
  match a with
  | .ext a => (mem a t).map fun v => if mv then .moveExt v else .copyExt v
  | .elem p off => if off = 0 ∧ mv = false then some (.copyAlias p) else none

namespace Coll

/-- `segment::push_back(x)` (`detail/segment.hpp` 141-156) and what it calls
(`detail/packed_segment.hpp` 145-155, `detail/split_segment.hpp` 184-196): the address passes
through the virtual interface, the segment assumes an object of its own type there. -/
def pushBackVirtual (m : PModel) (mem : Mem V) (it : MapIt) (x : Expr) : Prog (Coll V) Ptr :=
  onMap (TMap.onSeg E it (do
    let s ← Prog.get
    let src ← Prog.ofOption (fetch mem s.ty (x.subaddress m) x.rvalue)
    Seg.pushBack E src))

/-- `segment::push_back_terminal(x)` (`detail/segment.hpp` 158-163). -/
def pushBackTerminal (mem : Mem V) (it : MapIt) (x : Expr) : Prog (Coll V) Ptr :=
  onMap (TMap.onSeg E it (downcast (E.tiTy x.stat) (do
    let src ← Prog.ofOption (fetch mem (E.tiTy x.stat) x.addr x.rvalue)
    Seg.pushBack E src)))

/-- `push_back(seg,x)` (1054-1083). -/
def pushBackExpr (m : PModel) (mem : Mem V) (it : MapIt) (x : Expr) : Prog (Coll V) Ptr :=
  if x.acc then
    if x.isTerminal m then pushBackTerminal E mem it x
    else if E.tiTy (x.subtypeid m) = E.tiTy x.stat then pushBackTerminal E mem it x
    else pushBackVirtual E m mem it x
  else pushBackVirtual E m mem it x

/-- `get_map_iterator_for(x)` (961-1000). -/
def forExpr (m : PModel) (x : Expr) : Prog (Coll V) MapIt := forArg E (x.arg m (.copyAlias Ptr.null))

/-- `insert(x)` (681-686). -/
def insertExpr (m : PModel) (mem : Mem V) (x : Expr) : Prog (Coll V) GIter := do
  let it ← forExpr E m x
  let p ← pushBackExpr E m mem it x
  retIter E it p

/-- `segment::insert(const_base_iterator,x)` (`detail/segment.hpp` 165-169, 178-187)
and what it calls (`detail/packed_segment.hpp` 163-172, `detail/split_segment.hpp` 206-218). -/
def insertBaseVirtual (m : PModel) (mem : Mem V) (it : MapIt) (p : Ptr) (x : Expr) : Prog (Coll V) Ptr :=
  onMap (TMap.onSeg E it (do
    let s ← Prog.get
    let src ← Prog.ofOption (fetch mem s.ty (x.subaddress m) x.rvalue)
    Seg.insertBase E p src))

/-- `insert(hint,x)` (688-702). -/
def insertHintExpr (m : PModel) (mem : Mem V) (hint : GIter) (x : Expr) : Prog (Coll V) GIter := do
  let it ← forExpr E m x
  let c ← Prog.get
  let same ← Prog.ofOption (c.map.itEq E hint.mapit it)
  let p ←
    if same then insertBaseVirtual E m mem it hint.segpos x
    else pushBackExpr E m mem it x
  retIter E it p

/-- `insert(local_base_iterator,x)` (704-717). -/
def insertPosBaseExpr (m : PModel) (mem : Mem V) (pos : LIter) (x : Expr) : Prog (Coll V) LIter := do
  let p ← insertBaseVirtual E m mem pos.mapit pos.pos x
  return ⟨pos.mapit, p⟩

/-- `insert(local_iterator<U>,x)` (704-717), which calls `segment::insert(const_iterator<U>,x)`
(`detail/segment.hpp` 171-176, 189-199). -/
def insertPosLocalExpr (m : PModel) (mem : Mem V) (pos : LIter) (u : TI) (x : Expr) : Prog (Coll V) LIter := do
  let p ← onMap (TMap.onSeg E pos.mapit (downcast (E.tiTy u) (do
    let src ← Prog.ofOption (fetch mem (E.tiTy u) (x.subaddress m) x.rvalue)
    Seg.insertLocal E pos.pos src)))
  let c ← Prog.get
  Prog.ofOption (c.toLocal E ⟨pos.mapit, p⟩)

/-- `insert(first,last)`, elements of a non terminal type (719-727). -/
def insertRangeExpr (m : PModel) (mem : Mem V) : List Expr → Prog (Coll V) Unit
  | [] => Prog.pure ()
  | x :: xs => do
    let _ ← insertExpr E m mem x
    insertRangeExpr m mem xs

/-- One round of `insert(hint,first,last)` (774-779), after `get_map_iterator_for`. -/
def hintStepExpr (m : PModel) (mem : Mem V) (hint : GIter) (it : MapIt) (x : Expr) : Prog (Coll V) GIter := do
  let c ← Prog.get
  let same ← Prog.ofOption (c.map.itEq E hint.mapit it)
  if same then
    let p ← insertBaseVirtual E m mem it hint.segpos x
    let h ← retIter E it p
    let c ← Prog.get
    Prog.ofOption (c.map.increment E h)
  else
    let _ ← pushBackExpr E m mem it x
    return hint

/-- `insert(hint,first,last)`, elements of a non terminal type (766-781).  Returns the final
hint, which the library discards. -/
def insertHintRangeExpr (m : PModel) (mem : Mem V) (hint : GIter) : List Expr → Prog (Coll V) GIter
  | [] => Prog.pure hint
  | x :: xs => do
    let it ← forExpr E m x
    let h ← hintStepExpr E m mem hint it x
    insertHintRangeExpr m mem h xs

/-- The loop of `insert(local_base_iterator,first,last)` (848-852). -/
def posLoopBaseExpr (m : PModel) (mem : Mem V) (mapit : MapIt) (p : Ptr) : List Expr → Prog (Coll V) Ptr
  | [] => Prog.pure p
  | x :: xs => do
    let q ← insertBaseVirtual E m mem mapit p x
    posLoopBaseExpr m mem mapit ⟨q.blk, q.off + 1⟩ xs

/-- `insert(local_base_iterator,first,last)` (837-854): returns `it-n`. -/
def insertPosRangeBaseExpr (m : PModel) (mem : Mem V) (pos : LIter) (xs : List Expr) : Prog (Coll V) LIter := do
  let q ← posLoopBaseExpr E m mem pos.mapit pos.pos xs
  if q.off < xs.length then Prog.undef
  else return ⟨pos.mapit, ⟨q.blk, q.off - xs.length⟩⟩

/-- What the ranges of `insert(local_iterator<T>,first,last)` consist of. -/
inductive LocalArg (V : Type) where
  /-- `x` of a type that implements the interface; `cons` is the value that `T(x)` has, if `T` is constructible
  from `x` -/
  | impl (x : Expr) (cons : Option V)
  /-- of another type, `T` being constructible from it, with value `v` -/
  | other (v : V)

/-- `local_insert<T>(seg,pos,x)` (1085-1118) for a local iterator: three overloads. -/
def localInsert (m : PModel) (mem : Mem V) (u : TI) (p : Ptr) : LocalArg V → Prog (Seg V) Ptr
  | .impl x cons =>
    let ins : Prog (Seg V) Ptr := do
      let src ← Prog.ofOption (fetch mem (E.tiTy u) (x.subaddress m) x.rvalue)
      Seg.insertLocal E p src
    match cons with
    | none => ins
    | some v => if E.tiTy (x.subtypeid m) = E.tiTy u then ins else Seg.emplace E (.loc p) (.emplaced v)
  | .other v => Seg.emplace E (.loc p) (.emplaced v)

/-- The loop of `insert(local_iterator<T>,first,last)` (864-868). -/
def posLoopLocalExpr (m : PModel) (mem : Mem V) (u : TI) (mapit : MapIt) (p : Ptr) : List (LocalArg V) → Prog (Coll V) Ptr
  | [] => Prog.pure p
  | x :: xs => do
    let q ← onMap (TMap.onSeg E mapit (downcast (E.tiTy u) (localInsert E m mem u p x)))
    let c ← Prog.get
    let l ← Prog.ofOption (c.toLocal E ⟨mapit, q⟩)
    posLoopLocalExpr m mem u mapit ⟨l.pos.blk, l.pos.off + 1⟩ xs

/-- `insert(local_iterator<T>,first,last)` (856-877): returns `it-n`. -/
def insertPosRangeLocalExpr (m : PModel) (mem : Mem V) (pos : LIter) (u : TI) (xs : List (LocalArg V)) : Prog (Coll V) LIter := do
  let q ← posLoopLocalExpr E m mem u pos.mapit pos.pos xs
  if q.off < xs.length then Prog.undef
  else return ⟨pos.mapit, ⟨q.blk, q.off - xs.length⟩⟩

end Coll
end PolyColl
