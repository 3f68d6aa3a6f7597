import Verif.Model.Segment
/-!
# type_info_map (`detail/type_info_map.hpp`)

A `std::unordered_map` from types to segments plus a cache from `std::type_info` addresses to
map iterators.

`std::unordered_map` is modelled as a list of nodes in iteration order.  Nodes have an
identity that never changes; inserting a node may permute the list arbitrarily and change the
bucket count arbitrarily; a change of bucket count (rehash) starts a new *generation*.  Map
iterators remember the generation they were made in: if `strictRehash` is set, iterators of
older generations must not be used.
-/

namespace PolyColl

/-- A node of the map: identity, key (a type_info address), segment. -/
structure Node (V : Type) where
  id : Nat
  key : TI
  seg : Seg V
  deriving Repr

/-- An iterator of the map: a node (or `none` for end) and the generation. -/
structure MapIt where
  node : Option Nat
  gen : Nat
  deriving DecidableEq, Repr

/-- `type_info_map` (54-244): `map` (nodes, bucket count, generation, allocator) and
`cache`. -/
structure TMap (V : Type) where
  nodes : List (Node V)
  buckets : Nat
  gen : Nat
  al : Alloc
  cache : List (TI × MapIt)
  deriving Repr

namespace TMap
variable {V : Type} (E : Env V)

/-- A default constructed map with a given allocator (72, 79-80). -/
def mk' (al : Alloc) : TMap V := ⟨[], 0, 0, al, []⟩

/-- `end()` (140, 142). -/
def «end» (m : TMap V) : MapIt := ⟨none, m.gen⟩

/-- An iterator to a node. -/
def itTo (m : TMap V) (n : Node V) : MapIt := ⟨some n.id, m.gen⟩

/-- `begin()` (139, 141). -/
def begin (m : TMap V) : MapIt :=
  match m.nodes with
  | [] => m.end
  | n :: _ => m.itTo n

/-- `map.find(&key)` of the underlying unordered_map, with keys compared by type
(`type_info_ptr_equal_to`, 47-52). -/
def mapFind (m : TMap V) (key : TI) : MapIt :=
  match m.nodes.find? (fun n => E.tiTy n.key == E.tiTy key) with
  | some n => m.itTo n
  | none => m.end

/-- May the iterator be used (dereferenced, incremented, compared)? -/
def usable (m : TMap V) (it : MapIt) : Bool := !E.strictRehash || it.gen == m.gen

/-- The node an iterator refers to; `none` (undefined behaviour) if it is the end iterator, was
invalidated, or refers to a node that is not in the map. -/
def node? (m : TMap V) (it : MapIt) : Option (Node V) :=
  if m.usable E it then
    match it.node with
    | some i => m.nodes.find? (fun n => n.id == i)
    | none => none
  else none

/-- Comparison of two iterators of the map, undefined if one was invalidated. -/
def itEq (m : TMap V) (a b : MapIt) : Option Bool :=
  if m.usable E a && m.usable E b then some (decide (a.node = b.node)) else none

/-- `find(key)const` (155-160). -/
def findConst (m : TMap V) (key : TI) : MapIt :=
  match m.cache.lookup key with
  | some it => it
  | none => m.mapFind E key

/-- `cache.insert({key,it})`: one allocation; no effect if the key is there already. -/
def cacheInsert (key : TI) (it : MapIt) : Prog (TMap V) Unit := do
  let m ← Prog.get
  match m.cache.lookup key with
  | some _ => return ()
  | none =>
    let _ ← E.alloc
    Prog.set { m with cache := m.cache ++ [(key, it)] }

/-- `find(key)` (146-153). -/
def find (key : TI) : Prog (TMap V) MapIt := do
  let m ← Prog.get
  match m.cache.lookup key with
  | some it => return it
  | none =>
    let mit := m.mapFind E key
    if mit.node ≠ none then
      cacheInsert E key mit
      return mit
    else return mit

/-- `rebuild_cache()` (237-240). -/
def rebuildCache : Prog (TMap V) Unit := do
  let m ← Prog.get
  Prog.set { m with cache := m.cache.map fun p => (p.1, m.mapFind E p.1) }

/-- `map.emplace(&key,std::move(x))`: a node is allocated and the segment moved into it with
the map's allocator (`detail/allocator_adaptor.hpp`, segment.hpp 72-74); if the type is there
already the node is discarded.  A rehash needs memory for the new buckets; if that fails the
node is discarded too. -/
def mapEmplace (key : TI) (x : Seg V) : Prog (TMap V) MapIt := do
  let m ← Prog.get
  let (i, s) ← Prog.locally x (do
    let i ← E.alloc
    let s ← Seg.moveAl E m.al
    return (i, s)) fun r _ => r
  match m.nodes.find? (fun n => E.tiTy n.key == E.tiTy key) with
  | some n => return m.itTo n
  | none =>
    let w ← Prog.world
    let c := E.newBuckets w.tick m.buckets
    let g := if c = m.buckets then m.gen else m.gen + 1
    if c ≠ m.buckets then let _ ← E.alloc
    Prog.set { m with nodes := E.shuffle w.tick (m.nodes ++ [⟨i, key, s⟩]), buckets := c, gen := g }
    return ⟨some i, g⟩

/-- `insert(key,x)` (162-170). -/
def insert (key : TI) (x : Seg V) : Prog (TMap V) MapIt := do
  let m ← Prog.get
  let c := m.buckets
  let p ← mapEmplace E key x
  let m ← Prog.get
  if m.buckets ≠ c then rebuildCache E
  cacheInsert E key p
  return p

/-- `build_cache(x)` (232-235). -/
def buildCache (c : List (TI × MapIt)) : Prog (TMap V) Unit :=
  Prog.each (fun p => do
    let m ← Prog.get
    cacheInsert E p.1 (m.mapFind E p.1)) c

/-- Copies of nodes, with segments copied for allocator `al`. -/
def copyNodes {X : Type} (al : Alloc) : List (Node V) → Prog X (List (Node V))
  | [] => Prog.pure []
  | n :: ns => do
    let i ← E.alloc
    let s ← Seg.copyAl E n.seg al
    let rest ← copyNodes al ns
    return ⟨i, n.key, s⟩ :: rest

/-- Run a member function on a map under construction: if it throws, the map is gone. -/
def build {X : Type} (m : TMap V) (p : Prog (TMap V) Unit) : Prog X (TMap V) :=
  Prog.locally m p fun _ m => m

/-- Allocator-extended copy construction (81-83); the copy constructor (73-77) is the same with
`al` chosen by `select_on_container_copy_construction`. -/
def copyAl {X : Type} (x : TMap V) (al : Alloc) : Prog X (TMap V) := do
  let ns ← copyNodes E al x.nodes
  let w ← Prog.world
  build ⟨E.shuffle w.tick ns, x.buckets, 0, al, []⟩ (buildCache E x.cache)

/-- Copy constructor (73-77). -/
def copy {X : Type} (x : TMap V) : Prog X (TMap V) := copyAl E x (E.soccc x.al)

/-- Move constructor (78), defaulted: nodes and cache are taken over. -/
def move : Prog (TMap V) (TMap V) := do
  let x ← Prog.get
  Prog.set (mk' x.al)
  return x

/-- New nodes with the segments of the source nodes moved into them for allocator `al`; runs on
the source nodes. -/
def moveNodes (al : Alloc) : Prog (List (Node V)) (List (Node V)) := fun l w =>
  match l with
  | [] => .ok [] [] w
  | n :: ns =>
    match (do let i ← E.alloc; let s ← Seg.moveAl E al; return (i, s) : Prog (Seg V) (Nat × Seg V)) n.seg w with
    | .ok (i, s) src w' =>
      match moveNodes al ns w' with
      | .ok rest ns' w'' => .ok (⟨i, n.key, s⟩ :: rest) ({ n with seg := src } :: ns') w''
      | .exc e ns' w'' => .exc e ({ n with seg := src } :: ns') w''
      | .ub => .ub
    | .exc e src w' => .exc e ({ n with seg := src } :: ns) w'
    | .ub => .ub

/-- `map.clear();cache.clear();` -/
def clearAll : Prog (TMap V) Unit := do
  let m ← Prog.get
  Prog.set { m with nodes := [], cache := [] }

/-- Allocator-extended move construction (84-97).  Runs on the source. -/
def moveAl (al : Alloc) : Prog (TMap V) (TMap V) := do
  let x ← Prog.get
  if x.al = al then
    Prog.set { x with nodes := [], cache := [] }
    return x
  else
    let ns ← Prog.zoom (fun x => x.nodes) (fun x ns => { x with nodes := ns }) (moveNodes E al)
    let w ← Prog.world
    let m ← build ⟨E.shuffle w.tick ns, x.buckets, 0, al, []⟩ (buildCache E x.cache)
    clearAll
    return m

/-- The part of copy assignment inside `try` (101-105): the nodes of `*this` are replaced by
copies made for the resulting allocator. -/
def assignBody (x : TMap V) : Prog (TMap V) Unit := do
  let m ← Prog.get
  let al := if E.pocca then x.al else m.al
  -- map=x.map: old nodes are gone, whether or not copying succeeds
  Prog.set { m with nodes := [], al := al }
  let ns ← copyNodes E al x.nodes
  let w ← Prog.world
  -- cache=make<cache_type>(map.get_allocator())
  Prog.set ⟨E.shuffle w.tick ns, x.buckets, m.gen + 1, al, []⟩
  buildCache E x.cache

/-- Copy assignment from another object (99-112). -/
def assign (x : TMap V) : Prog (TMap V) Unit :=
  Prog.onExc (assignBody E x) clearAll

/-- Move assignment from another object (114-135); runs on the pair (`*this`,`x`). -/
def moveAssign : Prog (TMap V × TMap V) Unit :=
  Prog.onExc (do
    let (m, x) ← Prog.get
    if E.pocma ∨ m.al = x.al then
      -- map=std::move(x.map) takes the nodes over, then cache=std::move(x.cache)
      Prog.set ({ x with al := if E.pocma then x.al else m.al }, { x with nodes := [], cache := [] })
    else
      -- elements are moved one by one; the old nodes of *this are gone
      Prog.set ({ m with nodes := [], cache := [] }, x)
      let ns ← Prog.zoom (fun p : TMap V × TMap V => p.2.nodes) (fun p ns => (p.1, { p.2 with nodes := ns }))
        (moveNodes E m.al)
      let w ← Prog.world
      let y ← Prog.get
      Prog.set (⟨E.shuffle w.tick ns, x.buckets, m.gen + 1, m.al, []⟩, { y.2 with nodes := [] })
      Prog.zoom (fun p : TMap V × TMap V => p.1) (fun p m => (m, p.2)) (buildCache E x.cache)
      let y ← Prog.get
      Prog.set (y.1, { y.2 with cache := [] }))
  (do
    Prog.zoom (fun p : TMap V × TMap V => p.1) (fun p m => (m, p.2)) clearAll
    Prog.zoom (fun p : TMap V × TMap V => p.2) (fun p m => (p.1, m)) clearAll)

/-- `swap` (172); runs on the pair.  Swapping with unequal non-propagating allocators is
undefined by the standard. -/
def swap : Prog (TMap V × TMap V) Unit := do
  let (m, x) ← Prog.get
  if E.pocs ∨ m.al = x.al then
    Prog.set ({ x with al := if E.pocs then x.al else m.al }, { m with al := if E.pocs then m.al else x.al })
  else Prog.undef

end TMap
end PolyColl
