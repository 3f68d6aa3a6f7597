import Verif.Model.Vec
/-!
# split_segment (`detail/split_segment.hpp`)

Segment layout of `any_collection` and `function_collection`: a store `s` with the elements
and an index `i` whose entry `n` refers to slot `n` of the store, with one more entry than
there are elements (30-44).  A base iterator is the address of an index entry, a local
iterator the address of an element of the store.  An index entry is modelled as the pointer
it wraps.
-/

namespace PolyColl

/-- Members of `split_segment` (500-501), its type, the allocator of `s` and the allocator the
segment object was allocated with. -/
structure Split (V : Type) where
  ty : Ty
  al : Alloc
  objAl : Alloc
  s : Vec V
  i : Vec Ptr
  deriving Repr

/-- A position argument: base iterator or local iterator (template parameter `Iterator` of
`nv_emplace`, 164-165). -/
inductive PosArg where
  | base (p : Ptr)
  | loc (p : Ptr)
  deriving DecidableEq, Repr

namespace Split
variable {V : Type} (E : Env V) {α : Type}

/-- Run an operation on the store. -/
def onS (p : Prog (Vec V) α) : Prog (Split V) α :=
  Prog.zoom (fun x => x.s) (fun x s => { x with s := s }) p

/-- Run an operation on the index. -/
def onI (p : Prog (Vec Ptr) α) : Prog (Split V) α :=
  Prog.zoom (fun x => x.i) (fun x i => { x with i := i }) p

/-- `begin` (112-114). -/
def begin (x : Split V) : Ptr := x.i.ptr 0

/-- `end` (115-117). -/
def «end» (x : Split V) : Ptr := x.i.ptr x.s.size

/-- `sentinel` (450-453). -/
def sentinel (x : Split V) : Ptr := x.i.ptr x.s.size

/-- `range_from` (455-463). -/
def rangeFrom (x : Split V) (n : Nat) : Ptr × Ptr := (x.i.ptr n, x.sentinel)

def retRange (n : Nat) : Prog (Split V) (Ptr × Ptr) := do
  let x ← Prog.get
  return x.rangeFrom n

def retSentinel : Prog (Split V) Ptr := do
  let x ← Prog.get
  return x.sentinel

/-- `iterator_from` (440-448): position in the store of a base or local iterator.  A base
iterator must point into the index and the result must be a position of the store. -/
def iteratorFrom (x : Split V) : PosArg → Option Nat
  | .base p => if p.blk = x.i.blk ∧ p.off ≤ x.s.size then some p.off else none
  | .loc p => x.s.posOf p

/-- Conversion of a base iterator to a local iterator (`any_iterator.hpp` and
`callable_wrapper_iterator.hpp`: explicit conversion to `Concrete*`): reads the index entry
pointed to. -/
def toLocal (x : Split V) (p : Ptr) : Option Ptr := x.i.deref p

/-- Dereference of a base iterator followed by access to the element it refers to. -/
def derefBase (x : Split V) (p : Ptr) : Option V :=
  match x.i.deref p with
  | some q => x.s.deref q
  | none => none

/-- One iteration of the loop of `build_index` (382-384): `s.data()[n]` must not start from a
null pointer. -/
def pushIndex (n : Nat) : Prog (Split V) Unit := do
  let x ← Prog.get
  if x.s.blk = 0 then Prog.undef
  else onI (E.idxPushBack (x.s.ptr n))

/-- `build_index(start)` (380-385). -/
def buildIndex (start : Nat) : Prog (Split V) Unit := do
  let x ← Prog.get
  Prog.each (pushIndex E) (List.range' start (x.s.size + 1 - start))

/-- `rebuild_index` (387-391). -/
def rebuildIndex : Prog (Split V) Unit := do
  onI idxClear
  buildIndex E 0

/-- `push_index_entry` (393-396). -/
def pushIndexEntry : Prog (Split V) Unit := do
  let x ← Prog.get
  buildIndex E x.s.size

/-- `pop_index_entry(n)` (398-401). -/
def popIndexEntry : Nat → Prog (Split V) Unit
  | 0 => Prog.pure ()
  | n + 1 => do
    onI idxPopBack
    popIndexEntry n

/-- The new capacity computed by `expand()` (364-367), for a size and the store's `max_size()`.
The code computes with `std::size_t`: at `size() == max_size()` the subtraction wraps around to
the largest number, half of which is not less than the size.  `growth_machine` in Lemmas/Growth
relates this definition to arithmetic modulo a power of two. -/
def growth (size maxSize : Nat) : Nat :=
  if size ≤ 1 ∨ size < maxSize ∧ (maxSize - 1 - size) / 2 < size then size + 1 else size + size / 2

/-- `expand()` (362-371). -/
def expand : Prog (Split V) Unit := do
  let x ← Prog.get
  let c := growth x.s.size (E.maxSize x.ty)
  onI (E.idxReserve (c + 1))
  onS (E.reserve x.ty c)
  rebuildIndex E

/-- `expand(m)` (373-378). -/
def expandBy (m : Nat) : Prog (Split V) Unit := do
  let x ← Prog.get
  onI (E.idxReserve (x.s.size + m + 1))
  onS (E.reserve x.ty (x.s.size + m))
  rebuildIndex E

/-- `prereserve()` (327-330). -/
def prereserve : Prog (Split V) Unit := do
  let x ← Prog.get
  if x.s.size = x.s.cap then expand E else return ()

/-- `prereserve(p)` for base and local iterators (332-350). -/
def prereserveAt (p : PosArg) : Prog (Split V) PosArg := do
  let x ← Prog.get
  if x.s.size = x.s.cap then
    let n ← Prog.ofOption (x.iteratorFrom p)
    expand E
    let x ← Prog.get
    match p with
    | .base _ => return .base (x.i.ptr n)
    | .loc _ => return .loc (x.s.ptr n)
  else return p

/-- `prereserve(p,m)` (352-360). -/
def prereserveBy (p : Ptr) (m : Nat) : Prog (Split V) Ptr := do
  let x ← Prog.get
  if x.s.cap < x.s.size + m then
    let n ← Prog.ofOption (x.s.posOf p)
    expandBy E m
    let x ← Prog.get
    return x.s.ptr n
  else return p

/-- `nv_reserve` (129-136). -/
def reserve (n : Nat) : Prog (Split V) Ptr := do
  let x ← Prog.get
  let rebuild := decide (x.s.cap < n)
  onI (E.idxReserve (n + 1))
  onS (E.reserve x.ty n)
  if rebuild then rebuildIndex E
  retSentinel

/-- `nv_shrink_to_fit` (140-162), body of the `try`. -/
def shrinkBody : Prog (Split V) Unit := do
  let x ← Prog.get
  if x.s.elems ≠ [] then onS (E.shrinkToFit x.ty)
  else
    -- store ss{s.get_allocator()};ss.reserve(1);s.swap(ss);
    let b ← E.alloc
    Prog.set { x with s := ⟨b, E.lib.reserveCap 1, []⟩ }
  let y ← Prog.get
  if x.s.blk ≠ y.s.blk then
    -- index ii{{},i.get_allocator()};ii.reserve(s.capacity()+1);i.swap(ii);
    if E.idxMaxSize < y.s.cap + 1 then Prog.raise .lengthError
    else
      let b ← E.alloc
      Prog.set { y with i := ⟨b, E.lib.reserveCap (y.s.cap + 1), []⟩ }
      buildIndex E 0
  else return ()

/-- `nv_shrink_to_fit` (140-162). -/
def shrinkToFit : Prog (Split V) Ptr := do
  Prog.onExc (shrinkBody E) (rebuildIndex E)
  retSentinel

/-- `nv_emplace` (164-173), `nv_insert(p,x)` for copy and move (206-226). -/
def emplaceAt (p : PosArg) (src : Src V) : Prog (Split V) (Ptr × Ptr) := do
  let q ← prereserveAt E p
  let x ← Prog.get
  let n ← Prog.ofOption (x.iteratorFrom q)
  onS (E.emplaceAt x.ty n src)
  pushIndexEntry E
  retRange n

/-- `nv_emplace_back` (175-182), `nv_push_back` for copy and move (184-204). -/
def pushBack (src : Src V) : Prog (Split V) (Ptr × Ptr) := do
  prereserve E
  let x ← Prog.get
  onS (E.emplaceBack x.ty src)
  pushIndexEntry E
  let x ← Prog.get
  retRange (x.s.size - 1)

/-- Loop of `insert(p,first,last,input_iterator_tag)` (471-475); returns the final `p`. -/
def insertLoop (p : Ptr) : List (Src V) → Prog (Split V) Ptr
  | [] => Prog.pure p
  | src :: srcs => do
    let q ← prereserveAt E (.loc p)
    let x ← Prog.get
    let n ← Prog.ofOption (x.iteratorFrom q)
    onS (E.emplaceAt x.ty n src)
    pushIndexEntry E
    match q with
    | .loc q => insertLoop ⟨q.blk, q.off + 1⟩ srcs
    | .base _ => Prog.undef

/-- `insert(p,first,last,input_iterator_tag)` (465-477). -/
def insertInput (p : Ptr) (srcs : List (Src V)) : Prog (Split V) (Ptr × Ptr) := do
  let q ← insertLoop E p srcs
  let x ← Prog.get
  if q.off < srcs.length then Prog.undef
  else
    let n ← Prog.ofOption (x.s.posOf ⟨q.blk, q.off - srcs.length⟩)
    retRange n

/-- `insert(p,first,last,forward_iterator_tag)` (479-498). -/
def insertForward (p : Ptr) (srcs : List (Src V)) : Prog (Split V) (Ptr × Ptr) := do
  let x ← Prog.get
  let n := x.s.size
  let m := srcs.length
  if m ≠ 0 then
    let p ← prereserveBy E p m
    let x ← Prog.get
    let k ← Prog.ofOption (x.s.posOf p)
    Prog.onExc (onS (E.insertRange x.ty k srcs)) (buildIndex E (n + 1))
    buildIndex E (n + 1)
    let x ← Prog.get
    let k ← Prog.ofOption (x.s.posOf p)
    retRange k
  else
    let k ← Prog.ofOption (x.s.posOf p)
    retRange k

/-- `erase(p)`/`nv_erase(p)` (243-250); the position has already been converted to a local
iterator.  The index entry is popped *before* the element is erased. -/
def erase (p : Ptr) : Prog (Split V) (Ptr × Ptr) := do
  popIndexEntry 1
  let x ← Prog.get
  let n ← Prog.ofOption (x.s.posOf p)
  onS (E.eraseAt x.ty n)
  retRange n

/-- `erase(first,last)`/`nv_erase(first,last)` (252-261). -/
def eraseRange (p q : Ptr) : Prog (Split V) (Ptr × Ptr) := do
  let x ← Prog.get
  let n := x.s.size
  let a ← Prog.ofOption (x.s.posOf p)
  let b ← Prog.ofOption (x.s.posOf q)
  onS (E.eraseRange x.ty a b)
  let x ← Prog.get
  popIndexEntry (n - x.s.size)
  retRange a

/-- `erase_till_end` (263-269); takes a base iterator. -/
def eraseTillEnd (p : Ptr) : Prog (Split V) (Ptr × Ptr) := do
  let x ← Prog.get
  let n := x.s.size
  let a ← Prog.ofOption (x.iteratorFrom (.base p))
  onS (E.eraseRange x.ty a x.s.size)
  let x ← Prog.get
  popIndexEntry (n - x.s.size)
  retRange a

/-- `erase_from_begin` (271-277); takes a base iterator. -/
def eraseFromBegin (q : Ptr) : Prog (Split V) (Ptr × Ptr) := do
  let x ← Prog.get
  let n := x.s.size
  let b ← Prog.ofOption (x.iteratorFrom (.base q))
  onS (E.eraseRange x.ty 0 b)
  let x ← Prog.get
  popIndexEntry (n - x.s.size)
  retRange 0

/-- `clear`/`nv_clear` (279-286): `for(n=i.size()-1;n--;)i.pop_back();`.  With an empty index
the loop counter would wrap around: undefined. -/
def clear : Prog (Split V) Ptr := do
  onS Env.clearVec
  let x ← Prog.get
  if x.i.elems = [] then Prog.undef
  else
    popIndexEntry (x.i.size - 1)
    retSentinel

/-- The constructors (312-325): `s.reserve(1)` and `build_index()` on a given store. -/
def init {X : Type} (t : Ty) (al objAl : Alloc) (s : Vec V) : Prog X (Split V) :=
  Prog.locally ⟨t, al, objAl, s, Vec.nil⟩ (do
    onS (E.reserve t 1)
    buildIndex E 0) fun _ y => y

/-- `make` (80-83) and `empty_copy` (95-98). -/
def make {X : Type} (t : Ty) (al : Alloc) : Prog X (Split V) := do
  let _ ← E.alloc
  init E t al al Vec.nil

/-- `copy()` (85-88). -/
def copy {X : Type} (x : Split V) : Prog X (Split V) := do
  let s ← E.copyVec x.ty x.s
  let _ ← E.alloc
  init E x.ty (E.soccc x.al) x.al s

/-- `copy(al)` (90-93). -/
def copyAl {X : Type} (x : Split V) (al : Alloc) : Prog X (Split V) := do
  let s ← E.copyVec x.ty x.s
  let _ ← E.alloc
  init E x.ty al al s

/-- `move(al)` (100-103).  The source keeps its index. -/
def move (al : Alloc) : Prog (Split V) (Split V) := do
  let x ← Prog.get
  let s ← onS (E.moveVec x.ty (decide (x.al = al)))
  let _ ← E.alloc
  init E x.ty al al s

/-- `equal` (105-108). -/
def equal {X : Type} (x y : Split V) : Prog X Bool := E.eqVec x.ty x.s y.s

/-- The allocator used by `delete_` (304-310). -/
def deleteAl (x : Split V) : Alloc := x.al

end Split
end PolyColl
