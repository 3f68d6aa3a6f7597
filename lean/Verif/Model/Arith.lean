import Verif.Model.Collection
/-!
# Computing with `std::size_t`

The other files of the model count with natural numbers.  Here are the functions of the library that
compute with sizes once more, with numbers of the machine: unsigned numbers less than `W`, with addition and
subtraction modulo `W`.  Counters of loops are such numbers, too; a loop that did not end would be
undefined.  The functions of the standard library get and give numbers less than `W`, and what they do
with them is theirs.
-/

namespace PolyColl
namespace Split
variable {V : Type} (W : Nat) (E : Env V)

/-- Addition of unsigned numbers modulo `W`. -/
def wadd (a b : Nat) : Nat := (a + b) % W

/-- Subtraction of unsigned numbers modulo `W`. -/
def wsub (a b : Nat) : Nat := (a + (W - b % W)) % W

/-- Lines 364-367 of detail/split_segment.hpp in arithmetic modulo `W`. -/
def growthW (size maxSize : Nat) : Nat :=
  if size ≤ 1 ∨ wsub W (wsub W maxSize 1) size / 2 < size then (size + 1) % W else (size + size / 2) % W

/-- `max_size` (122-123). -/
def maxSizeW (x : Split V) : Nat := wsub W (E.maxSize x.ty) 1

/-- The loop of `build_index` (382-384), with `m` the size read at the beginning. -/
def buildLoopW (m : Nat) : Nat → Nat → Prog (Split V) Unit
  | 0, _ => Prog.undef
  | fuel + 1, n =>
    if n ≤ m then do
      pushIndex E n
      buildLoopW m fuel (wadd W n 1)
    else Prog.pure ()

/-- `build_index(start)` (380-385).  If the loop ends it does so before it has counted through all numbers. -/
def buildIndexW (start : Nat) : Prog (Split V) Unit := do
  let x ← Prog.get
  buildLoopW W E x.s.size (W + 1) start

/-- `rebuild_index` (387-391). -/
def rebuildIndexW : Prog (Split V) Unit := do
  onI idxClear
  buildIndexW W E 0

/-- `push_index_entry` (393-396). -/
def pushIndexEntryW : Prog (Split V) Unit := do
  let x ← Prog.get
  buildIndexW W E x.s.size

/-- `while(n--)i.pop_back();`: the number is compared with zero before it is decremented. -/
def popLoopW : Nat → Nat → Prog (Split V) Unit
  | 0, _ => Prog.undef
  | fuel + 1, n =>
    if n = 0 then Prog.pure ()
    else do
      onI idxPopBack
      popLoopW fuel (wsub W n 1)

/-- `pop_index_entry(n)` (398-401). -/
def popIndexEntryW (n : Nat) : Prog (Split V) Unit := popLoopW W (W + 1) n

/-- `expand()` (362-371). -/
def expandW : Prog (Split V) Unit := do
  let x ← Prog.get
  let c := growthW W x.s.size (E.maxSize x.ty)
  onI (E.idxReserve (wadd W c 1))
  onS (E.reserve x.ty c)
  rebuildIndexW W E

/-- `expand(m)` (373-378). -/
def expandByW (m : Nat) : Prog (Split V) Unit := do
  let x ← Prog.get
  onI (E.idxReserve (wadd W (wadd W x.s.size m) 1))
  onS (E.reserve x.ty (wadd W x.s.size m))
  rebuildIndexW W E

/-- `prereserve()` (327-330). -/
def prereserveW : Prog (Split V) Unit := do
  let x ← Prog.get
  if x.s.size = x.s.cap then expandW W E else return ()

/-- `prereserve(p)` (332-350). -/
def prereserveAtW (p : PosArg) : Prog (Split V) PosArg := do
  let x ← Prog.get
  if x.s.size = x.s.cap then
    let n ← Prog.ofOption (x.iteratorFrom p)
    expandW W E
    let x ← Prog.get
    match p with
    | .base _ => return .base (x.i.ptr n)
    | .loc _ => return .loc (x.s.ptr n)
  else return p

/-- `prereserve(p,m)` (352-360). -/
def prereserveByW (p : Ptr) (m : Nat) : Prog (Split V) Ptr := do
  let x ← Prog.get
  if x.s.cap < wadd W x.s.size m then
    let n ← Prog.ofOption (x.s.posOf p)
    expandByW W E m
    let x ← Prog.get
    return x.s.ptr n
  else return p

/-- `nv_reserve` (129-136). -/
def reserveW (n : Nat) : Prog (Split V) Ptr := do
  let x ← Prog.get
  let rebuild := decide (x.s.cap < n)
  onI (E.idxReserve (wadd W n 1))
  onS (E.reserve x.ty n)
  if rebuild then rebuildIndexW W E
  retSentinel

/-- `nv_shrink_to_fit` (140-162), body of the `try`. -/
def shrinkBodyW : Prog (Split V) Unit := do
  let x ← Prog.get
  if x.s.elems ≠ [] then onS (E.shrinkToFit x.ty)
  else
    let b ← E.alloc
    Prog.set { x with s := ⟨b, E.lib.reserveCap 1, []⟩ }
  let y ← Prog.get
  if x.s.blk ≠ y.s.blk then
    if E.idxMaxSize < wadd W y.s.cap 1 then Prog.raise .lengthError
    else
      let b ← E.alloc
      Prog.set { y with i := ⟨b, E.lib.reserveCap (wadd W y.s.cap 1), []⟩ }
      buildIndexW W E 0
  else return ()

/-- `nv_shrink_to_fit` (140-162). -/
def shrinkToFitW : Prog (Split V) Ptr := do
  Prog.onExc (shrinkBodyW W E) (rebuildIndexW W E)
  retSentinel

/-- `nv_emplace` (164-173), `nv_insert(p,x)` (206-226). -/
def emplaceAtW (p : PosArg) (src : Src V) : Prog (Split V) (Ptr × Ptr) := do
  let q ← prereserveAtW W E p
  let x ← Prog.get
  let n ← Prog.ofOption (x.iteratorFrom q)
  onS (E.emplaceAt x.ty n src)
  pushIndexEntryW W E
  retRange n

/-- `nv_emplace_back` (175-182), `nv_push_back` (184-204). -/
def pushBackW (src : Src V) : Prog (Split V) (Ptr × Ptr) := do
  prereserveW W E
  let x ← Prog.get
  onS (E.emplaceBack x.ty src)
  pushIndexEntryW W E
  let x ← Prog.get
  retRange (wsub W x.s.size 1)

/-- Loop of `insert(p,first,last,input_iterator_tag)` (471-475); `n` counts the rounds. -/
def insertLoopW (p : Ptr) (n : Nat) : List (Src V) → Prog (Split V) (Ptr × Nat)
  | [] => Prog.pure (p, n)
  | src :: srcs => do
    let q ← prereserveAtW W E (.loc p)
    let x ← Prog.get
    let k ← Prog.ofOption (x.iteratorFrom q)
    onS (E.emplaceAt x.ty k src)
    pushIndexEntryW W E
    match q with
    | .loc q => insertLoopW ⟨q.blk, q.off + 1⟩ (wadd W n 1) srcs
    | .base _ => Prog.undef

/-- `insert(p,first,last,input_iterator_tag)` (465-477): `p-n` must point into the store. -/
def insertInputW (p : Ptr) (srcs : List (Src V)) : Prog (Split V) (Ptr × Ptr) := do
  let q ← insertLoopW W E p 0 srcs
  let x ← Prog.get
  if q.1.off < q.2 then Prog.undef
  else
    let n ← Prog.ofOption (x.s.posOf ⟨q.1.blk, q.1.off - q.2⟩)
    retRange n

/-- `insert(p,first,last,forward_iterator_tag)` (479-498); the distance is cast to `std::size_t`. -/
def insertForwardW (p : Ptr) (srcs : List (Src V)) : Prog (Split V) (Ptr × Ptr) := do
  let x ← Prog.get
  let n := x.s.size
  let m := srcs.length % W
  if m ≠ 0 then
    let p ← prereserveByW W E p m
    let x ← Prog.get
    let k ← Prog.ofOption (x.s.posOf p)
    Prog.onExc (onS (E.insertRange x.ty k srcs)) (buildIndexW W E (wadd W n 1))
    buildIndexW W E (wadd W n 1)
    let x ← Prog.get
    let k ← Prog.ofOption (x.s.posOf p)
    retRange k
  else
    let k ← Prog.ofOption (x.s.posOf p)
    retRange k

/-- `nv_erase(p)` (246-250). -/
def eraseW (p : Ptr) : Prog (Split V) (Ptr × Ptr) := do
  popIndexEntryW W 1
  let x ← Prog.get
  let n ← Prog.ofOption (x.s.posOf p)
  onS (E.eraseAt x.ty n)
  retRange n

/-- `nv_erase(first,last)` (255-261). -/
def eraseRangeW (p q : Ptr) : Prog (Split V) (Ptr × Ptr) := do
  let x ← Prog.get
  let n := x.s.size
  let a ← Prog.ofOption (x.s.posOf p)
  let b ← Prog.ofOption (x.s.posOf q)
  onS (E.eraseRange x.ty a b)
  let x ← Prog.get
  popIndexEntryW W (wsub W n x.s.size)
  retRange a

/-- `erase_till_end` (263-269). -/
def eraseTillEndW (p : Ptr) : Prog (Split V) (Ptr × Ptr) := do
  let x ← Prog.get
  let n := x.s.size
  let a ← Prog.ofOption (x.iteratorFrom (.base p))
  onS (E.eraseRange x.ty a x.s.size)
  let x ← Prog.get
  popIndexEntryW W (wsub W n x.s.size)
  retRange a

/-- `erase_from_begin` (271-277). -/
def eraseFromBeginW (q : Ptr) : Prog (Split V) (Ptr × Ptr) := do
  let x ← Prog.get
  let n := x.s.size
  let b ← Prog.ofOption (x.iteratorFrom (.base q))
  onS (E.eraseRange x.ty 0 b)
  let x ← Prog.get
  popIndexEntryW W (wsub W n x.s.size)
  retRange 0

/-- `nv_clear` (281-286): `for(n=i.size()-1;n--;)i.pop_back();`. -/
def clearW : Prog (Split V) Ptr := do
  onS Env.clearVec
  let x ← Prog.get
  popIndexEntryW W (wsub W x.i.size 1)
  retSentinel

/-- The constructors (312-325). -/
def initW {X : Type} (t : Ty) (al objAl : Alloc) (s : Vec V) : Prog X (Split V) :=
  Prog.locally ⟨t, al, objAl, s, Vec.nil⟩ (do
    onS (E.reserve t 1)
    buildIndexW W E 0) fun _ y => y

/-- `make` (80-83) and `empty_copy` (95-98). -/
def makeW {X : Type} (t : Ty) (al : Alloc) : Prog X (Split V) := do
  let _ ← E.alloc
  initW W E t al al Vec.nil

/-- `copy()` (85-88). -/
def copyW {X : Type} (x : Split V) : Prog X (Split V) := do
  let s ← E.copyVec x.ty x.s
  let _ ← E.alloc
  initW W E x.ty (E.soccc x.al) x.al s

/-- `copy(al)` (90-93). -/
def copyAlW {X : Type} (x : Split V) (al : Alloc) : Prog X (Split V) := do
  let s ← E.copyVec x.ty x.s
  let _ ← E.alloc
  initW W E x.ty al al s

/-- `move(al)` (100-103). -/
def moveW (al : Alloc) : Prog (Split V) (Split V) := do
  let x ← Prog.get
  let s ← onS (E.moveVec x.ty (decide (x.al = al)))
  let _ ← E.alloc
  initW W E x.ty al al s

end Split

namespace Coll
variable {V : Type} (W : Nat) (E : Env V)
open Split (wadd)

/-- `size` (545-550 of detail/poly_collection.hpp). -/
def sizeW (c : Coll V) : Nat := (c.map.nodes.map fun n => n.seg.size).foldl (wadd W) 0

/-- The loop of `operator==` (1144-1149). -/
def eqLoopW {X : Type} (y : TMap V) : List (Node V) → Nat → Prog X (Option Nat)
  | [], s => Prog.pure (some s)
  | p :: ps, s => do
    let ss := p.seg.size
    let it := y.findConst E p.key
    if it.node = none then
      if ss ≠ 0 then return none else eqLoopW y ps (wadd W s ss)
    else
      let n ← Prog.ofOption (y.node? E it)
      let b ← Seg.equal E p.seg n.seg
      if b then eqLoopW y ps (wadd W s ss) else return none

/-- `operator==` (1137-1151). -/
def equalW {X : Type} (x y : Coll V) : Prog X Bool := do
  let r ← eqLoopW W E y.map x.map.nodes 0
  match r with
  | none => return false
  | some s => return decide (s = y.sizeW W)

/-- The loop of `insert(local_base_iterator,first,last)` (848-852); `n` counts the rounds. -/
def posLoopBaseW (mapit : MapIt) (p : Ptr) (n : Nat) : List (Arg V) → Prog (Coll V) (Ptr × Nat)
  | [] => Prog.pure (p, n)
  | a :: as => do
    let q ← onMap (TMap.onSeg E mapit (downcast (E.tiTy a.dyn) (Seg.insertBase E p a.src)))
    posLoopBaseW mapit ⟨q.blk, q.off + 1⟩ (wadd W n 1) as

/-- `insert(local_base_iterator,first,last)` (837-854): returns `it-n`. -/
def insertPosRangeBaseW (pos : LIter) (as : List (Arg V)) : Prog (Coll V) LIter := do
  let q ← posLoopBaseW W E pos.mapit pos.pos 0 as
  if q.1.off < q.2 then Prog.undef
  else return ⟨pos.mapit, ⟨q.1.blk, q.1.off - q.2⟩⟩

/-- The loop of `insert(local_iterator<T>,first,last)` (864-868). -/
def posLoopLocalW (mapit : MapIt) (t : Ty) (p : Ptr) (n : Nat) : List (Src V) → Prog (Coll V) (Ptr × Nat)
  | [] => Prog.pure (p, n)
  | src :: srcs => do
    let q ← onMap (TMap.onSeg E mapit (downcast t (Seg.insertLocal E p src)))
    let c ← Prog.get
    let l ← Prog.ofOption (c.toLocal E ⟨mapit, q⟩)
    posLoopLocalW mapit t ⟨l.pos.blk, l.pos.off + 1⟩ (wadd W n 1) srcs

/-- `insert(local_iterator<T>,first,last)` (856-877): returns `it-n`. -/
def insertPosRangeLocalW (pos : LIter) (t : TI) (srcs : List (Src V)) : Prog (Coll V) LIter := do
  let q ← posLoopLocalW W E pos.mapit (E.tiTy t) pos.pos 0 srcs
  if q.1.off < q.2 then Prog.undef
  else return ⟨pos.mapit, ⟨q.1.blk, q.1.off - q.2⟩⟩

end Coll
end PolyColl
