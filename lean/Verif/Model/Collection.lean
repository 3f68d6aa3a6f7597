import Verif.Model.TypeInfoMap
/-!
# poly_collection and its iterators (`detail/poly_collection.hpp`, `detail/iterator_impl.hpp`)

Iterators of the model carry exactly the members of their C++ counterparts.
-/

namespace PolyColl

/-- A collection: the map, and which segment layout its model uses. -/
structure Coll (V : Type) where
  kind : Kind
  map : TMap V
  deriving Repr

/-- `iterator_impl` (`detail/iterator_impl.hpp` 125-126). -/
structure GIter where
  mapit : MapIt
  mapend : MapIt
  segpos : Ptr
  deriving DecidableEq, Repr

/-- `local_iterator_impl` (`detail/iterator_impl.hpp` 135-237): a segment and a base or local
iterator into it (which of the two is given by the functions it is passed to). -/
structure LIter where
  mapit : MapIt
  pos : Ptr
  deriving DecidableEq, Repr

/-- An argument of `insert`: static type `T`, dynamic type (`subtypeid(x)`), whether T is
acceptable and terminal, and the value with the way it is passed. -/
structure Arg (V : Type) where
  stat : TI
  dyn : TI
  acc : Bool
  term : Bool
  src : Src V
  deriving Repr

namespace TMap
variable {V : Type} (E : Env V)

/-- The nodes from the one with identity `i` on. -/
def nodesFrom (m : TMap V) (i : Nat) : List (Node V) := m.nodes.dropWhile (fun n => n.id != i)

/-- `++it` for a map iterator. -/
def itNext (m : TMap V) (it : MapIt) : Option MapIt :=
  match m.node? E it with
  | none => none
  | some n =>
    match m.nodesFrom n.id with
    | _ :: n' :: _ => some (m.itTo n')
    | _ => some m.end

/-- The loop of `next_segment_position` (109-116) over the remaining nodes: the first node
whose `begin()` differs from its sentinel. -/
def nextPosIn (m : TMap V) : List (Node V) → GIter
  | [] => ⟨m.end, m.end, Ptr.null⟩
  | n :: ns =>
    if n.seg.begin ≠ n.seg.sentinel then ⟨m.itTo n, m.end, n.seg.begin⟩
    else nextPosIn m ns

/-- `iterator_impl(mapit,mapend)` (61-67), with `mapend` the end of the map. -/
def iter2 (m : TMap V) (it : MapIt) : Option GIter :=
  match it.node with
  | none => some ⟨m.end, m.end, Ptr.null⟩
  | some _ =>
    match m.node? E it with
    | none => none
    | some n => some (m.nextPosIn (m.nodesFrom n.id))

/-- `iterator_impl(mapit,mapend,segpos)` (69-78). -/
def iter3 (m : TMap V) (it : MapIt) (p : Ptr) : Option GIter :=
  match it.node with
  | none => some ⟨it, m.end, p⟩
  | some _ =>
    match m.node? E it with
    | none => none
    | some n =>
      if p = n.seg.sentinel then
        match m.itNext E it with
        | none => none
        | some it' => m.iter2 E it'
      else some ⟨it, m.end, p⟩

/-- `iterator_impl(mapit,mapend,segpos)` (69-78) with the map end of another iterator; also
`iterator_from` (`detail/iterator_traits.hpp` 102-107).  The constructor compares with `mapend`, which
is undefined if that was invalidated or is not the map's end. -/
def iteratorFrom (m : TMap V) (l : LIter) (mapend : MapIt) : Option GIter :=
  if m.usable E mapend ∧ mapend.node = none then
    (m.iter3 E l.mapit l.pos).map fun it => { it with mapend := mapend }
  else none

/-- `increment` (101-107).  Undefined unless the position is that of an element.  When the end of
the segment is reached, the iterator's own `mapend` is compared with (110), which is undefined if
that was invalidated or is not the map's end. -/
def increment (m : TMap V) (it : GIter) : Option GIter :=
  match m.node? E it.mapit with
  | none => none
  | some n =>
    if it.segpos.blk = n.seg.begin.blk ∧ it.segpos.off < n.seg.end.off then
      let p : Ptr := ⟨it.segpos.blk, it.segpos.off + 1⟩
      if p = n.seg.sentinel then
        if m.usable E it.mapend ∧ it.mapend.node = none then
          match m.itNext E it.mapit with
          | none => none
          | some it' => m.iter2 E it'
        else none
      else some { it with segpos := p }
    else none

/-- `dereference` (97-98): only the address is used. -/
def deref (m : TMap V) (p : Ptr) : Option V := m.nodes.findSome? (fun n => n.seg.be.derefBase p)

/-- Run an operation on the segment a map iterator refers to
(`segment(pos)`, `detail/poly_collection.hpp` 1049-1052). -/
def onSeg {α : Type} (it : MapIt) (p : Prog (Seg V) α) : Prog (TMap V) α := fun m w =>
  match m.node? E it with
  | none => .ub
  | some n =>
    match p n.seg w with
    | .ok a s w' =>
      .ok a { m with nodes := m.nodes.map fun k => if k.id = n.id then { k with seg := s } else k } w'
    | .exc e s w' =>
      .exc e { m with nodes := m.nodes.map fun k => if k.id = n.id then { k with seg := s } else k } w'
    | .ub => .ub

/-- Run an operation on every segment in turn (`for(auto& x:map)x.second...`). -/
def onAll (p : Prog (Seg V) Unit) : Prog (TMap V) Unit :=
  Prog.zoom (fun m => m.nodes) (fun m ns => { m with nodes := ns }) (go p)
where
  go (p : Prog (Seg V) Unit) : Prog (List (Node V)) Unit := fun l w =>
    match l with
    | [] => .ok () [] w
    | n :: ns =>
      match p n.seg w with
      | .ok _ s w' =>
        match go p ns w' with
        | .ok _ ns' w'' => .ok () ({ n with seg := s } :: ns') w''
        | .exc e ns' w'' => .exc e ({ n with seg := s } :: ns') w''
        | .ub => .ub
      | .exc e s w' => .exc e ({ n with seg := s } :: ns) w'
      | .ub => .ub

end TMap

namespace Coll
variable {V : Type} (E : Env V)

/-- Run an operation on the map. -/
def onMap {α : Type} (p : Prog (TMap V) α) : Prog (Coll V) α :=
  Prog.zoom (fun c => c.map) (fun c m => { c with map := m }) p

/-- `poly_collection(al)` (383-384) and the default constructor (380). -/
def empty' (k : Kind) (al : Alloc) : Coll V := ⟨k, TMap.mk' al⟩

/-! ### Registration and lookup -/

/-- `map.insert(typeid(T),segment_type::make<T>(get_allocator()))`. -/
def insertNew (t : TI) : Prog (Coll V) MapIt := do
  let c ← Prog.get
  let s ← Seg.make E c.kind (E.tiTy t) c.map.al
  onMap (TMap.insert E t s)

/-- `register_types<T...>()` (408-422). -/
def registerTypes : List TI → Prog (Coll V) Unit
  | [] => Prog.pure ()
  | t :: ts => do
    let _ ← insertNew E t
    registerTypes ts

/-- `is_registered(info)` (424-433). -/
def isRegistered (c : Coll V) (t : TI) : Bool := (c.map.findConst E t).node != none

/-- `get_map_iterator_for(info)` (1035-1047). -/
def forInfo (t : TI) : Prog (Coll V) MapIt := do
  let c ← Prog.get
  let it := c.map.findConst E t
  if it.node = none then Prog.raise (.unregistered (E.tiTy t)) else return it

/-- `get_map_iterator_for<T>()` (1026-1033). -/
def forT (t : TI) : Prog (Coll V) MapIt := do
  let it ← onMap (TMap.find E t)
  if it.node ≠ none then return it else insertNew E t

/-- `get_map_iterator_for(x,seg)` (1015-1024), `id` being `subtypeid(x)`. -/
def forProto (id : TI) (seg : Seg V) : Prog (Coll V) MapIt := do
  let it ← onMap (TMap.find E id)
  if it.node ≠ none then return it
  else
    let c ← Prog.get
    let s ← Seg.makeFromPrototype E seg c.map.al
    onMap (TMap.insert E id s)

/-- `get_map_iterator_for(const T& x)`: the three overloads that compile (961-1000). -/
def forArg (a : Arg V) : Prog (Coll V) MapIt := do
  if a.acc then
    if a.term then
      -- 976-987
      forT E a.stat
    else
      -- 961-974
      let it ← onMap (TMap.find E a.dyn)
      if it.node ≠ none then return it
      else if E.tiTy a.dyn ≠ E.tiTy a.stat then Prog.raise (.unregistered (E.tiTy a.dyn))
      else insertNew E a.stat
  else
    -- 989-1000
    let c ← Prog.get
    let it := c.map.findConst E a.dyn
    if it.node = none then Prog.raise (.unregistered (E.tiTy a.dyn)) else return it

/-! ### Iterators -/

/-- `begin()` (437). -/
def begin (c : Coll V) : Option GIter := c.map.iter2 E c.map.begin

/-- `end()` (438). -/
def «end» (c : Coll V) : GIter := ⟨c.map.end, c.map.end, Ptr.null⟩

/-- `begin(info)` (444-448), and `begin<T>()` (473-478) before conversion. -/
def beginInfo (t : TI) : Prog (Coll V) LIter := do
  let it ← forInfo E t
  let c ← Prog.get
  let n ← Prog.ofOption (c.map.node? E it)
  return ⟨it, n.seg.begin⟩

/-- `end(info)` (450-454). -/
def endInfo (t : TI) : Prog (Coll V) LIter := do
  let it ← forInfo E t
  let c ← Prog.get
  let n ← Prog.ofOption (c.map.node? E it)
  return ⟨it, n.seg.end⟩

/-- The conversion of a `local_base_iterator` to a `local_iterator<T>`
(`detail/iterator_impl.hpp` 182-192). -/
def toLocal (c : Coll V) (l : LIter) : Option LIter :=
  match c.map.node? E l.mapit with
  | none => none
  | some n =>
    match n.seg.be.toLocal l.pos with
    | none => none
    | some q => some ⟨l.mapit, q⟩

/-- The conversion of a `local_iterator<T>` to a `local_base_iterator`
(`detail/iterator_impl.hpp` 194-206, 221-227): `bit+(it-static_cast<T*>(bit))`. -/
def toBase (c : Coll V) (l : LIter) : Option LIter :=
  match c.map.node? E l.mapit with
  | none => none
  | some n =>
    match n.seg.be.toLocal n.seg.begin with
    | none => none
    | some q =>
      if l.pos.blk = q.blk ∧ q.off ≤ l.pos.off then
        some ⟨l.mapit, ⟨n.seg.begin.blk, n.seg.begin.off + (l.pos.off - q.off)⟩⟩
      else none

/-! ### Capacity -/

/-- `empty()` (528-532). -/
def empty (c : Coll V) : Bool := c.map.nodes.all fun n => n.seg.empty

/-- `size()` (545-550). -/
def size (c : Coll V) : Nat := (c.map.nodes.map fun n => n.seg.size).sum

/-- A query on the segment of a type: `empty(info)` (534-543), `size(info)` (552-561),
`max_size(info)` (563-572), `capacity(info)` (574-583), `segment(info)` (507-521). -/
def query {α : Type} (f : Seg V → α) (t : TI) : Prog (Coll V) α := do
  let it ← forInfo E t
  let c ← Prog.get
  let n ← Prog.ofOption (c.map.node? E it)
  return f n.seg

/-- `reserve(n)` (585-588). -/
def reserveAll (n : Nat) : Prog (Coll V) Unit := onMap (TMap.onAll (Seg.reserve E n))

/-- `reserve(info,n)` (590-593). -/
def reserveInfo (t : TI) (n : Nat) : Prog (Coll V) Unit := do
  let it ← forInfo E t
  onMap (TMap.onSeg E it (Seg.reserve E n))

/-- Downcast of a segment's backend to the implementation for a type
(`detail/segment.hpp` 284-295): undefined if the segment is of another type. -/
def downcast {α : Type} (t : Ty) (p : Prog (Seg V) α) : Prog (Seg V) α := do
  let s ← Prog.get
  if s.ty = t then p else Prog.undef

/-- `reserve<T>(n)` (595-601): creates the segment if needed. -/
def reserveT (t : TI) (n : Nat) : Prog (Coll V) Unit := do
  let it ← forT E t
  onMap (TMap.onSeg E it (downcast (E.tiTy t) (Seg.reserve E n)))

/-- `shrink_to_fit()` (603-606). -/
def shrinkAll : Prog (Coll V) Unit := onMap (TMap.onAll (Seg.shrinkToFit E))

/-- `shrink_to_fit(info)`, `shrink_to_fit<T>()` (608-617). -/
def shrinkInfo (t : TI) : Prog (Coll V) Unit := do
  let it ← forInfo E t
  onMap (TMap.onSeg E it (Seg.shrinkToFit E))

/-! ### Insertion -/

/-- Build the returned iterator `{it,map.end(),segpos}`. -/
def retIter (it : MapIt) (p : Ptr) : Prog (Coll V) GIter := do
  let c ← Prog.get
  Prog.ofOption (c.map.iter3 E it p)

/-- `emplace<T>(args...)` (621-629). -/
def emplace (t : TI) (src : Src V) : Prog (Coll V) GIter := do
  let it ← forT E t
  let p ← onMap (TMap.onSeg E it (downcast (E.tiTy t) (Seg.pushBack E src)))
  retIter E it p

/-- `emplace_hint<T>(hint,args...)` (631-642). -/
def emplaceHint (hint : GIter) (t : TI) (src : Src V) : Prog (Coll V) GIter := do
  let it ← forT E t
  let c ← Prog.get
  let same ← Prog.ofOption (c.map.itEq E hint.mapit it)
  let p ←
    if same then onMap (TMap.onSeg E it (downcast (E.tiTy t) (Seg.emplace E (.base hint.segpos) src)))
    else onMap (TMap.onSeg E it (downcast (E.tiTy t) (Seg.pushBack E src)))
  retIter E it p

/-- `emplace_pos<T>(local_base_iterator,args...)` (644-661). -/
def emplacePosBase (pos : LIter) (t : TI) (src : Src V) : Prog (Coll V) LIter := do
  let p ← onMap (TMap.onSeg E pos.mapit (downcast (E.tiTy t) (Seg.emplace E (.base pos.pos) src)))
  return ⟨pos.mapit, p⟩

/-- `emplace_pos(local_iterator<T>,args...)` (663-679); the result is converted to a local
iterator. -/
def emplacePosLocal (pos : LIter) (t : TI) (src : Src V) : Prog (Coll V) LIter := do
  let p ← onMap (TMap.onSeg E pos.mapit (downcast (E.tiTy t) (Seg.emplace E (.loc pos.pos) src)))
  let c ← Prog.get
  Prog.ofOption (c.toLocal E ⟨pos.mapit, p⟩)

/-- `push_back(seg,x)` (1054-1083): through the virtual interface, which reinterprets the
object as one of the segment's type, or through a downcast to T's implementation; both need
the segment to be that of the object's dynamic type. -/
def pushBackArg (it : MapIt) (a : Arg V) : Prog (Coll V) Ptr :=
  onMap (TMap.onSeg E it (downcast (E.tiTy a.dyn) (Seg.pushBack E a.src)))

/-- `insert(x)` (681-686). -/
def insert (a : Arg V) : Prog (Coll V) GIter := do
  let it ← forArg E a
  let p ← pushBackArg E it a
  retIter E it p

/-- `insert(hint,x)` (688-702). -/
def insertHint (hint : GIter) (a : Arg V) : Prog (Coll V) GIter := do
  let it ← forArg E a
  let c ← Prog.get
  let same ← Prog.ofOption (c.map.itEq E hint.mapit it)
  let p ←
    if same then onMap (TMap.onSeg E it (downcast (E.tiTy a.dyn) (Seg.insertBase E hint.segpos a.src)))
    else pushBackArg E it a
  retIter E it p

/-- `insert(local_base_iterator,x)` (704-717). -/
def insertPosBase (pos : LIter) (a : Arg V) : Prog (Coll V) LIter := do
  let p ← onMap (TMap.onSeg E pos.mapit (downcast (E.tiTy a.dyn) (Seg.insertBase E pos.pos a.src)))
  return ⟨pos.mapit, p⟩

/-- `insert(local_iterator<T>,x)` (704-717); the result is converted to a local iterator. -/
def insertPosLocal (pos : LIter) (a : Arg V) : Prog (Coll V) LIter := do
  let p ← onMap (TMap.onSeg E pos.mapit (downcast (E.tiTy a.dyn) (Seg.insertLocal E pos.pos a.src)))
  let c ← Prog.get
  Prog.ofOption (c.toLocal E ⟨pos.mapit, p⟩)

/-- `insert(first,last)`, elements of a non terminal type (719-727). -/
def insertRange : List (Arg V) → Prog (Coll V) Unit
  | [] => Prog.pure ()
  | a :: as => do
    let _ ← insert E a
    insertRange as

/-- `insert(first,last)`, elements of a terminal type T=`t` (729-742). -/
def insertRangeTerminal (fwd : Bool) (t : TI) (srcs : List (Src V)) : Prog (Coll V) Unit := do
  if srcs = [] then return ()
  else
    let it ← forT E t
    let _ ← onMap (TMap.onSeg E it (downcast (E.tiTy t) (Seg.insertRangeEnd E fwd srcs)))
    return ()

/-- An element met while traversing another collection: `subtypeid(*first)`, `first.segment()`
and the element. -/
structure Item (V : Type) where
  id : TI
  proto : Seg V
  val : V

/-- `insert(first,last)` with global iterators of another collection (744-751), given the
elements of the range. -/
def insertFrom : List (Item V) → Prog (Coll V) Unit
  | [] => Prog.pure ()
  | x :: xs => do
    let it ← forProto E x.id x.proto
    let _ ← onMap (TMap.onSeg E it (downcast (E.tiTy x.id) (Seg.pushBack E (.copyExt x.val))))
    insertFrom xs

/-- `insert(first,last)` with local iterators of another collection (753-764). -/
def insertFromLocal (id : TI) (proto : Seg V) (vals : List V) : Prog (Coll V) Unit := do
  if vals = [] then return ()
  else
    let it ← forProto E id proto
    Prog.each (fun v => do
      let _ ← onMap (TMap.onSeg E it (downcast (E.tiTy id) (Seg.pushBack E (.copyExt v))))) vals

/-- One round of the hinted insertion loops (774-779, 805-810): insert before the hint if it is
in segment `it`, moving the hint past the new element; else append. -/
def hintStep (hint : GIter) (it : MapIt) (t : Ty) (src : Src V) : Prog (Coll V) GIter := do
  let c ← Prog.get
  let same ← Prog.ofOption (c.map.itEq E hint.mapit it)
  if same then
    let p ← onMap (TMap.onSeg E it (downcast t (Seg.insertBase E hint.segpos src)))
    let h ← retIter E it p
    let c ← Prog.get
    Prog.ofOption (c.map.increment E h)
  else
    let _ ← onMap (TMap.onSeg E it (downcast t (Seg.pushBack E src)))
    return hint

/-- `insert(hint,first,last)`, elements of a non terminal type (766-781).  Returns the final
hint, which the library discards. -/
def insertHintRange (hint : GIter) : List (Arg V) → Prog (Coll V) GIter
  | [] => Prog.pure hint
  | a :: as => do
    let it ← forArg E a
    let h ← hintStep E hint it (E.tiTy a.dyn) a.src
    insertHintRange h as

/-- `insert(hint,first,last)`, elements of a terminal type (783-798). -/
def insertHintRangeTerminal (hint : GIter) (fwd : Bool) (t : TI) (srcs : List (Src V)) :
    Prog (Coll V) Unit := do
  if srcs = [] then return ()
  else
    let it ← forT E t
    let c ← Prog.get
    let same ← Prog.ofOption (c.map.itEq E hint.mapit it)
    if same then
      let _ ← onMap (TMap.onSeg E it (downcast (E.tiTy t) (Seg.insertRangeBase E fwd hint.segpos srcs)))
      return ()
    else
      let _ ← onMap (TMap.onSeg E it (downcast (E.tiTy t) (Seg.insertRangeEnd E fwd srcs)))
      return ()

/-- `insert(hint,first,last)` with global iterators of another collection (800-812). -/
def insertHintFrom (hint : GIter) : List (Item V) → Prog (Coll V) GIter
  | [] => Prog.pure hint
  | x :: xs => do
    let it ← forProto E x.id x.proto
    let h ← hintStep E hint it (E.tiTy x.id) (.copyExt x.val)
    insertHintFrom h xs

/-- The loops of 826-834, over the values of a local range. -/
def hintLoop (hint : GIter) (it : MapIt) (t : Ty) : List V → Prog (Coll V) GIter
  | [] => Prog.pure hint
  | v :: vs => do
    let h ← hintStep E hint it t (.copyExt v)
    hintLoop h it t vs

/-- `insert(hint,first,last)` with local iterators of another collection (814-835).  The test
`hint.mapit==it` is made once (826); as the loop keeps it true, making it again in each round
is the same. -/
def insertHintFromLocal (hint : GIter) (id : TI) (proto : Seg V) (vals : List V) :
    Prog (Coll V) GIter := do
  if vals = [] then return hint
  else
    let it ← forProto E id proto
    hintLoop E hint it (E.tiTy id) vals

/-- The loop of `insert(local_base_iterator,first,last)` (848-852); `it` is the running
position and the result is the final one. -/
def posLoopBase (mapit : MapIt) (p : Ptr) : List (Arg V) → Prog (Coll V) Ptr
  | [] => Prog.pure p
  | a :: as => do
    let q ← onMap (TMap.onSeg E mapit (downcast (E.tiTy a.dyn) (Seg.insertBase E p a.src)))
    posLoopBase mapit ⟨q.blk, q.off + 1⟩ as

/-- `insert(local_base_iterator,first,last)` (837-854): returns `it-n`. -/
def insertPosRangeBase (pos : LIter) (as : List (Arg V)) : Prog (Coll V) LIter := do
  let q ← posLoopBase E pos.mapit pos.pos as
  if q.off < as.length then Prog.undef
  else return ⟨pos.mapit, ⟨q.blk, q.off - as.length⟩⟩

/-- The loop of `insert(local_iterator<T>,first,last)` (864-868): each round inserts (or
emplaces) before a local position and converts the result to a local iterator
(`local_insert`, 1085-1118; `emplaced` sources stand for the elements of other types T is
constructed from). -/
def posLoopLocal (mapit : MapIt) (t : Ty) (p : Ptr) : List (Src V) → Prog (Coll V) Ptr
  | [] => Prog.pure p
  | src :: srcs => do
    let q ← onMap (TMap.onSeg E mapit (downcast t (Seg.insertLocal E p src)))
    let c ← Prog.get
    let l ← Prog.ofOption (c.toLocal E ⟨mapit, q⟩)
    posLoopLocal mapit t ⟨l.pos.blk, l.pos.off + 1⟩ srcs

/-- `insert(local_iterator<T>,first,last)` (856-877): returns `it-n`. -/
def insertPosRangeLocal (pos : LIter) (t : TI) (srcs : List (Src V)) : Prog (Coll V) LIter := do
  let q ← posLoopLocal E pos.mapit (E.tiTy t) pos.pos srcs
  if q.off < srcs.length then Prog.undef
  else return ⟨pos.mapit, ⟨q.blk, q.off - srcs.length⟩⟩

/-! ### Erasure -/

/-- Build the returned iterator `{it,mapend,segpos}` with the map end of the iterator given. -/
def retIterEnd (it mapend : MapIt) (p : Ptr) : Prog (Coll V) GIter := do
  let c ← Prog.get
  Prog.ofOption (c.map.iteratorFrom E ⟨it, p⟩ mapend)

/-- `erase(pos)` (879-882). -/
def erase (pos : GIter) : Prog (Coll V) GIter := do
  let p ← onMap (TMap.onSeg E pos.mapit (Seg.eraseBase E pos.segpos))
  retIterEnd E pos.mapit pos.mapend p

/-- `erase(local_base_iterator)` (884-889). -/
def eraseLocalBase (pos : LIter) : Prog (Coll V) LIter := do
  let p ← onMap (TMap.onSeg E pos.mapit (Seg.eraseBase E pos.pos))
  return ⟨pos.mapit, p⟩

/-- `erase(local_iterator<T>)` (884-889). -/
def eraseLocal (pos : LIter) : Prog (Coll V) LIter := do
  let p ← onMap (TMap.onSeg E pos.mapit (Seg.eraseLocal E pos.pos))
  let c ← Prog.get
  Prog.ofOption (c.toLocal E ⟨pos.mapit, p⟩)

/-- The loop `while(++fseg!=lseg)segment(fseg).clear();` (904) and the rest of the multi-segment
case (908-913); `mapend` is `first.mapend` (895).  `fuel` bounds the number of map increments; running out of it is undefined
(it stands for running past the end of the map). -/
def eraseSpan (fseg lseg mapend : MapIt) (lastPos : Ptr) : Nat → Prog (Coll V) GIter
  | 0 => Prog.undef
  | fuel + 1 => do
    let c ← Prog.get
    let f ← Prog.ofOption (c.map.itNext E fseg)
    let same ← Prog.ofOption (c.map.itEq E f lseg)
    if same then
      if ← Prog.ofOption (c.map.itEq E f mapend) then return ⟨mapend, mapend, Ptr.null⟩
      else
        let p ← onMap (TMap.onSeg E f (Seg.eraseFromBegin E lastPos))
        retIterEnd E f mapend p
    else
      onMap (TMap.onSeg E f Seg.clear)
      eraseSpan f lseg mapend lastPos fuel

/-- `erase(first,last)` (891-923). -/
def eraseRange (first last : GIter) : Prog (Coll V) GIter := do
  let c ← Prog.get
  let same ← Prog.ofOption (c.map.itEq E first.mapit last.mapit)
  if same then
    if first.segpos = last.segpos then retIterEnd E first.mapit first.mapend first.segpos
    else
      let p ← onMap (TMap.onSeg E first.mapit (Seg.eraseRangeBase E first.segpos last.segpos))
      retIterEnd E first.mapit first.mapend p
  else
    let _ ← onMap (TMap.onSeg E first.mapit (Seg.eraseTillEnd E first.segpos))
    eraseSpan E first.mapit last.mapit first.mapend last.segpos (c.map.nodes.length + 1)

/-- `erase(first,last)` with local base iterators (925-936). -/
def eraseLocalRangeBase (first last : LIter) : Prog (Coll V) LIter := do
  let p ← onMap (TMap.onSeg E first.mapit (Seg.eraseRangeBase E first.pos last.pos))
  return ⟨first.mapit, p⟩

/-- `erase(first,last)` with local iterators (925-936). -/
def eraseLocalRange (first last : LIter) : Prog (Coll V) LIter := do
  let p ← onMap (TMap.onSeg E first.mapit (Seg.eraseRangeLocal E first.pos last.pos))
  let c ← Prog.get
  Prog.ofOption (c.toLocal E ⟨first.mapit, p⟩)

/-- `clear()` (938-941). -/
def clearAll : Prog (Coll V) Unit := onMap (TMap.onAll Seg.clear)

/-- `clear(info)`, `clear<T>()` (943-952). -/
def clearInfo (t : TI) : Prog (Coll V) Unit := do
  let it ← forInfo E t
  onMap (TMap.onSeg E it Seg.clear)

/-! ### Comparison -/

/-- The loop of `operator==` (1144-1149) over the nodes of x; returns `none` for `return false`
and the accumulated size otherwise. -/
def eqLoop {X : Type} (y : TMap V) : List (Node V) → Nat → Prog X (Option Nat)
  | [], s => Prog.pure (some s)
  | p :: ps, s => do
    let ss := p.seg.size
    let it := y.findConst E p.key
    if it.node = none then
      if ss ≠ 0 then return none else eqLoop y ps (s + ss)
    else
      let n ← Prog.ofOption (y.node? E it)
      let b ← Seg.equal E p.seg n.seg
      if b then eqLoop y ps (s + ss) else return none

/-- `operator==` (1137-1151). -/
def equal {X : Type} (x y : Coll V) : Prog X Bool := do
  let r ← eqLoop E y.map x.map.nodes 0
  match r with
  | none => return false
  | some s => return decide (s = y.size)

/-! ### Whole collections -/

/-- Copy constructor (381, `type_info_map.hpp` 73-77). -/
def copy {X : Type} (x : Coll V) : Prog X (Coll V) := do
  let m ← TMap.copy E x.map
  return ⟨x.kind, m⟩

/-- `poly_collection(x,al)` (385-386). -/
def copyAl {X : Type} (x : Coll V) (al : Alloc) : Prog X (Coll V) := do
  let m ← TMap.copyAl E x.map al
  return ⟨x.kind, m⟩

/-- Move constructor (382); runs on the source. -/
def move : Prog (Coll V) (Coll V) := do
  let m ← onMap TMap.move
  let x ← Prog.get
  return ⟨x.kind, m⟩

/-- `poly_collection(std::move(x),al)` (387-388); runs on the source. -/
def moveAl (al : Alloc) : Prog (Coll V) (Coll V) := do
  let m ← onMap (TMap.moveAl E al)
  let x ← Prog.get
  return ⟨x.kind, m⟩

/-- Copy assignment (401) from another collection of the same kind. -/
def assign (x : Coll V) : Prog (Coll V) Unit := onMap (TMap.assign E x.map)

/-- Run an operation on the maps of two collections. -/
def onMaps {α : Type} (p : Prog (TMap V × TMap V) α) : Prog (Coll V × Coll V) α :=
  Prog.zoom (fun c => (c.1.map, c.2.map)) (fun c m => ({ c.1 with map := m.1 }, { c.2 with map := m.2 })) p

/-- Move assignment (402) from another collection; runs on the pair (`*this`,`x`). -/
def moveAssign : Prog (Coll V × Coll V) Unit := onMaps (TMap.moveAssign E)

/-- `swap` (954) with another collection; runs on the pair. -/
def swap : Prog (Coll V × Coll V) Unit := onMaps (TMap.swap E)

/-- `poly_collection(first,last,al)` (390-397), elements of a non terminal type: the collection
under construction is gone if an insertion throws. -/
def fromRange {X : Type} (k : Kind) (al : Alloc) (as : List (Arg V)) : Prog X (Coll V) :=
  Prog.locally (empty' k al) (insertRange E as) fun _ c => c

/-- `poly_collection(first,last,al)` (390-397), elements of a terminal type T=`t`. -/
def fromTerminal {X : Type} (k : Kind) (al : Alloc) (fwd : Bool) (t : TI) (srcs : List (Src V)) : Prog X (Coll V) :=
  Prog.locally (empty' k al) (insertRangeTerminal E fwd t srcs) fun _ c => c

/-- `operator!=` (1153-1159). -/
def notEqual {X : Type} (x y : Coll V) : Prog X Bool := do
  let b ← equal E x y
  return !b

end Coll
end PolyColl
