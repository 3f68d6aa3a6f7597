# Formal model of Boost.PolyCollection

Properties are listed in `properties.jsonl` (C01…). This file says what is
modelled, how each property is proved, what has to be trusted, and which defects
of the code the proofs brought to light.

## 1. Layers of the model (`lean/Verif/Model`)

| File | Code modelled |
|------|---------------|
| `Prog.lean` | outcome of running code: normal return, exception (with the state left behind), or undefined behaviour (`ub`); world = fresh-address counter + fault schedule position |
| `Vec.lean` | `std::vector` (contents, capacity, buffer identity), `value_holder` copy/move/equality, exception behaviour |
| `Packed.lean` | `detail/packed_segment.hpp` (base_collection) |
| `Split.lean` | `detail/split_segment.hpp` (any_collection, function_collection): store + index |
| `Segment.lean` | `detail/segment.hpp`, `detail/segment_backend.hpp`: virtual dispatch, cached sentinel |
| `TypeInfoMap.lean` | `detail/type_info_map.hpp`: unordered_map + address cache |
| `Collection.lean` | `detail/poly_collection.hpp`, `detail/iterator_impl.hpp` |
| `Traversal.lean` | loops over collections written by users, `segment_traversal()`, insertion from other collections |
| `History.lean` | programs: any sequence of operations on any number of collections |
| `Algorithm.lean` | `algorithm.hpp`, `detail/segment_split.hpp`, `detail/type_restitution.hpp`, parts of `detail/functional.hpp`, `detail/iterator_traits.hpp`, `detail/auto_iterator.hpp` |
| `Writing.lean` | modification of elements through iterators; assignment between the references of a `function_collection` (`detail/callable_wrapper.hpp`) |
| `ForEach.lean` | `for_each`, `for_each_n`, `move` and the loops over segments as programs that modify the collection |
| `Holder.lean` | `value_holder` and `allocator_adaptor::construct`/`destroy`: objects in the storage of holders, and whether allocators create and destroy them |
| `Object.lean` | arguments of `insert` as references: `is_terminal`, `subtypeid`, `subaddress` of the three models and the overloads that use them |
| `Placement.lean` | searches of `algorithm.hpp` with iterators compared by address (`detail/stride_iterator.hpp`, `detail/iterator_impl.hpp`), for any placement of buffers in memory |
| `Callable.lean` | `detail/callable_wrapper.hpp`: wrappers in the index of a split segment, calls, targets, conversion to `std::function` |
| `Reading.lean` | the operations available on a const collection; arithmetic of local iterators |
| `Heap.lean` | segments with pointers: the heap objects behind `segment_backend_unique_ptr`, `new_`/`delete_`, deleters, and the blocks obtained from allocators |
| `NodeReuse.lean` | assignment of collections (`detail/type_info_map.hpp`, `detail/segment.hpp`) when the hash map assigns to its elements |
| `MovedFrom.lean` | move assignment of collections (`detail/type_info_map.hpp`) with a choice of what the standard library leaves of a moved-from map |
| `Construct.lean` | overloads of `allocator_adaptor::construct`, `uses_alloc_ctor` (`detail/allocator_adaptor.hpp`): which constructor is called with which arguments |
| `Interface.lean` | compile time: overload resolution for `insert`, `emplace_pos`, `erase`, the constraints `enable_if_*`, and the converting constructors of the iterators (`detail/poly_collection.hpp`, `detail/iterator_impl.hpp`) |
| `TypeLists.lean` | what the algorithms instantiate for a list of types, overloads of algorithms with two ranges |
| `Results.lean` | `restitute_iterator_class` for predicates that do not return `bool`: `partition_point` and `is_permutation` with answers that are converted |
| `Functors.lean` | `deref_to`, `deref_1st_to`: which predicates compile in the algorithms that call them through these |
| `IterTypes.lean` | value, reference and pointer types and categories of the iterators, as `std::iterator_traits` gives them |
| `Accept.lean` | compile time: the traits that say which types may be stored (`is_acceptable.hpp`, `is_implementation` of the models, `is_equality_comparable`), and the conversions, calls and comparisons that the segments instantiate for a type |
| `Work.lean` | the work done by the functions of segments: operations on elements and index entries, and allocations, as a function of sizes and capacities |
| `Effort.lean` | `begin`, `++`, `erase`, `clear`, `empty`, `size` of a collection once more, counting segments looked at and work on elements |
| `Arith.lean` | the functions of split segments and of collections that compute with sizes, in arithmetic modulo the number of values of `std::size_t` |
| `Counts.lean` | `for_each_n`, `search_n`, `copy_n`, `sample` for numbers of any integer type: promotions, usual arithmetic conversions, comparisons, decrements and conversions |
| `Descriptor.lean` | objects describing a segment (`segment`, `segment_traversal` in `detail/poly_collection.hpp`) that a program may keep |
| `Ranges.lean` | range insertion with iterators whose value type need not be the type of the objects referred to (`detail/poly_collection.hpp`, `detail/segment.hpp`) |
| `Stride.lean` | `detail/stride_iterator.hpp` and the layout of packed segments in chars |

`Verif/Spec` holds the specifications, written without reference to the model:

| File | Contents |
|------|----------|
| `State.lean` | a collection seen from outside: list of (type, elements) in traversal order; positions, ranks, insertion, erasure |
| `Machine.lean` | an abstract machine: requests such as "insert these values at this position of this type", what each does and what is allowed if it fails |
| `Std.lean` | the algorithms of the standard library on lists, with functors in an arbitrary monad (so that the order and number of calls is part of the specification) |
| `Ranges.lean` | statements on lists used to say what the results of algorithms mean |
| `Visit.lean` | changing the elements of a range one after the other |
| `Calls.lean` | functors with state and exceptions whose calls are counted |
| `Work.lean` | what operations on segments may cost according to the documentation; sequences of operations |
| `Effort.lean` | what traversing and erasing may cost; going through a collection with passing and erasing mixed (this and `Work.lean` mention functions of the model in order to add up what they report) |
| `Arith.lean` | how large the numbers of a machine are |
| `Accept.lean` | overload resolution as a relation; types that may be stored according to the documentation; ways from a class up to its bases |
| `Descriptor.lean` | what objects describing a segment should tell; following the segments of a collection through a program |
| `Follow.lean` | operations that, according to the documentation, do not move an element, and programs made of them |
| `Overloads.lean` | overload resolution between member templates as a relation: replacement of template parameters, passing arguments, which overload is better |

`Verif/Lemmas` holds helper lemmas:

| Files | Contents |
|-------|----------|
| `Runs`, `Vec`, `Split`, `SplitOps`, `SplitMake`, `Segment`, `SegmentOps` | program logic; invariants and specifications bottom up to segments |
| `TMap`, `Coll`, `CollOps`, `CollPos`, `CollRange`, `CollErase`, `CollAll`, `CollMore`, `Iter`, `State`, `StatePos` | the map; refinement of every operation of a collection |
| `Traverse` | traversal loops |
| `Whole`, `WholeColl`, `CopyFail` | copies, moves, assignments, swap, equality |
| `Keeps`, `KeepsColl`, `History`, `Frame`, `GoodHistory`, `Stays` | invariants of all histories, whatever the outcome of the operations; histories of documented uses |
| `Never`, `Short` | when operations never succeed: dangling sources, elements that cannot be relocated; rehashing; an index that is one short |
| `CollFail`, `Unharmed`, `Stale`, `Spares`, `Survive`, `Room`, `Growth` | what is left after exceptions; which iterators survive; reallocation; growth |
| `Leaves`, `KeepsWriting`, `Writing` | modification of elements |
| `Refine`, `MachineDet` | every operation of a program refines a request to the abstract machine; what the machine determines |
| `Fair`, `Throws` | every exception has a cause: `Fair` follows every function of the model, without preconditions, and shows that no failure is swallowed; `Throws` lists what each documented use may throw |
| `Limits`, `LimitsColl` | sizes and capacities never exceed `max_size()` |
| `Own`, `OwnColl` | no operation creates a second owner of a block |
| `Heap`, `HeapHist` | programs on segments with pointers behave as those on segments as values, and account for all storage |
| `Descriptor` | nodes of the map along a program: they keep identity and key, and are lost to iterators only by rehashing |
| `Follow` | an element stays at its address: composition over operations |
| `Ranges` | range insertion with separate value type: right if the types agree, never returning otherwise |
| `Lax` | a run with `strictRehash` is undefined or equal to the run without |
| `Rehash` | hinted insertion followed through all three outcomes: undefined exactly if a rehash comes between |
| `RehashSpares` | what hinted insertions of any type leave alone whenever they are defined |
| `Cost` | the exact number of steps that may fail, for the operations that need no new memory |
| `Work`, `WorkBounds`, `WorkSession`, `Effort` | the meters agree with the model; potentials of vectors and split segments, amortised bounds; segments looked at |
| `Accept` | overload resolution and casts between classes computed by the model are those of the specification |
| `Arith` | machine arithmetic agrees with unbounded arithmetic within the limits that all states keep |
| `Counts` | conversions of numbers keep their values where they must; the typed algorithms equal the untyped ones; sampling with a distance that does not fit |
| `Sim`, `Pieces`, `StdAlg`, `StdPure`, `StdPerm`, `StdMap`, `Algo*` | algorithms: relation to the specification on the list of elements |
| `ForEach` | algorithms that modify elements leave the structure alone, so the pieces of the range stay those of C41 |
| `Calls`, `AlgoTally` | how often the standard algorithms on lists call their functors; the same for the algorithms that are not related to those for every functor |

`Verif/Props` holds the property theorems (named after the property, `C05_…`),
each followed by an `example` that shows a non-trivial case meeting its
hypotheses; `Sample*.lean` build the collections used in these examples by
running the model's own operations.

### Modelling decisions

* **Undefined behaviour is an outcome.** Dereferencing or subtracting a pointer
  that does not belong to the current buffer, popping an empty vector, indexing
  out of range, using a null data pointer, downcasting a segment to the wrong
  type, using an invalidated map iterator: all yield `ub` (`none` in the
  algorithms). Theorems state that `ub` does not happen.
* **Addresses.** A buffer is a number drawn from a counter that never repeats;
  a pointer is (buffer, offset in elements). So a pointer kept across a
  reallocation is always recognised as stale. Re-use of freed addresses is not
  modelled (it could only hide errors).
* **Exceptions.** Every allocation and every user operation that may throw asks
  a fault schedule `Nat → Bool`, universally quantified in the theorems. An
  exception carries the state as mutated so far.
* **std::vector** follows the standard's guarantees: strong guarantee for
  insertion at the end, no effect if the new element's construction or the
  allocation throws, otherwise unspecified contents (taken from a universally
  quantified oracle). Growth policy, `reserve` and `shrink_to_fit` capacities
  are parameters. Relocation copies if the element's move constructor may throw
  (`move_if_noexcept`).
* **std::unordered_map**: nodes in an arbitrary order that may be permuted
  arbitrarily by each insertion of a new node; bucket count changes arbitrarily;
  node identity is stable. Whether iterators survive a rehash is a parameter
  (`strictRehash`): the standard says they do not. A moved-from map or cache is
  taken to be empty; the standard leaves its state unspecified. C97 is about move assignment
  from maps that are not empty afterwards. Copy assignment of a map is modelled as
  clear + copies in all properties but C77, which is about maps that assign to the
  elements they have (libc++).
* **Types** are numbers; a `std::type_info` object is an address with a type,
  several addresses may have the same type.
* **Element values** are an arbitrary type `V`; moved-from values are not
  distinguished. `operator==` of elements may throw; whether it is declared `noexcept` is
  taken to be the same for rvalues (which `is_nothrow_equality_comparable` looks at) and const
  lvalues (which are compared). If it were not, `operator==` of `value_holder` could be left by an
  exception although it is declared `noexcept`, and the program would be terminated
  (`C88_equal_noexcept`).
* **Reachable states.** `Coll.Reachable E k w` is defined from programs
  (`History.lean`, `GoodReach` in `Lemmas/GoodHistory.lean`): sequences of
  operations with defined behaviour on any number of collections. Each
  collection has a health. It is *sound* as long as it is used as documented,
  operations that throw without breaking it included; hinted insertions of types not registered yet
  are documented use, and if they are defined the collection is sound. It is *hurt* after another
  operation on it threw, and sound again after `clear()`, an assignment, or a `reserve(n)`
  beyond the capacity of each segment that returns (a `reserve` that throws leaves it hurt), or a
  `shrink_to_fit()` that gives each segment a new buffer (any other leaves it hurt). It is
  *lost* after anything else, until it is assigned to or `reserve(n)` beyond the capacity of each
  segment returns. `Reachable` collections are
  the sound ones; the other collections of the program may be in any state.
  Theorems named `C03_…`, `C01_…` hold in all states.
* **Ranges to insert** are lists of values, with a flag for forward iterators.
  `vector::insert` of a single-pass range is modelled both ways in use, chosen
  by a parameter (`inputTemp`): insertions at the end one by one, rotated into
  place afterwards (libc++, Microsoft), or by way of a temporary vector, unless
  at the end (libstdc++).
* **Algorithms** run in `OptionT m` for an arbitrary lawful monad `m`, in which
  functors, output iterators and random generators live. A theorem of the form
  `(Algo.f …).run = some <$> StdAlg.f …` says that there is no undefined
  behaviour and that result, effects, order and number of calls are those of the
  algorithm on the list of the elements. Functors are called through one object;
  the code copies them per segment, so a functor with internal state must keep
  it by reference, as with std algorithms (`for_each` and `for_each_n` excepted,
  where the state is passed on and modelled as such).

### Not modelled

Compile-time machinery (overload resolution, SFINAE, static_asserts) except in
`Interface.lean`, `Construct.lean` and `Accept.lean`, elsewhere as explicit flags; the same for
`const`-ness of iterators; concurrency except as interleaved
const calls (C61);
object representation except `Stride.lean`; Boost.TypeErasure internals (a
`value_type` of an index is a pointer to the stored element); the C++ memory
model; deallocation and destructors of collections (which cannot throw or be observed
here; for segments see C74); performance except C32, C37, C68, C79, C84 and C87.

## 2. Trusted base

* Lean 4.33.0 kernel; axioms used by the theorems: at most `propext`,
  `Classical.choice`, `Quot.sound` (list at the end of this file).
* The reading of the C++ code recorded in the comments of `Verif/Model`.
* The behaviour of std::vector, std::unordered_map and the std algorithms on
  contiguous ranges as written in `Vec.lean`, `TypeInfoMap.lean`, `Spec/Std.lean`
  (for the latter, `Lemmas/StdPure.lean` and the theorems named after results,
  such as `C49_first_occurrence`, say independently what they compute).

## 3. Properties: how each is treated

* C01–C04 registration and lookup: invariant of `type_info_map` (every cache
  entry refers to the live node of its type) preserved by every operation,
  whatever its outcome; "types of nodes are distinct, node type = segment type".
* C05–C12 insertion: refinement. Each API function run on a state satisfying the
  invariant does not hit `ub`, re-establishes the invariant, and the abstraction
  (type ↦ list of elements) changes as a list-level specification says; the
  returned iterator denotes the specified position.
* C13 aliasing: proved for packed; refuted for split (witness: full segment),
  `_partial` theorem when the segment is not full.
* C14–C18 exceptions: fault schedules. C15 proved up to iterators invalidated by
  a rehash. C16, C17 refuted for split with concrete schedules, `_partial`
  theorems for what does hold. C18 refuted (element with throwing move
  constructor), `_partial` for the rest.
* C19–C21 erasure: refinement as above.
* C22–C26 traversal: induction over the segment list.
* C27–C29 iterator validity, conversions: pointer model.
* C30–C32 capacity: Vec/Split arithmetic; amortisation by potential argument.
* C33–C40 whole-collection operations and allocators.
* C41–C56 algorithms: `Sim R x y` relates an algorithm on iterators to the one on
  the list of elements, by induction on the pieces of the range; the iterators
  returned are related to the places in the list. C55 holds except for C56,
  refuted with witnesses, `_partial` theorems.
* C57 stride arithmetic: integers with overflow checks.
* C58: refuted under the letter of the standard (`strictRehash`), proved for
  node-stable iterators. `Verif/Props/Rehash.lean` says exactly which hinted insertions are
  undefined for this reason (C06, C11) and that nothing else depends on `strictRehash`.
  C15, C28 and C58 state the condition on iterators by `gen`, the number of rehashes so far:
  it is enough that no rehash happened, even if segments were created. C65 admits hinted
  insertions of unregistered types (`Op.Apt`) as documented uses.
* C59, C60 use after failures: `C59_usable_partial` from the operations that
  restore the invariant when they throw (`COp.Strong`); `C60_clear_partial` from
  `Coll.Weak`, what every failed operation leaves of the invariant. Both refuted
  in general. For `base_collection` what is left is enough in every state that
  programs with failures can reach: sizes are within capacities (C72), no block is
  held twice (C73), and only cached ends may be wrong (`reach_core`). So `clear()`
  and `reserve(0)` always mend it (`Mend`). In the other collections
  `reserve(n)` rebuilds the index from the stored elements if it has to allocate, so it mends
  them without loss in every state that programs can reach (`MendAny`, `C60_reserve_always`), but
  only then (`C60_reserve_small`); after one failed operation, a `reserve` that throws leaves them
  fit for `clear()` (`MendSplit`, `C60_reserve`). `shrink_to_fit()` does so for segments that get a new buffer
  (`MendShrink`, `C60_shrink_partial`, `C60_shrink_full`).
* C61 const operations: each is shown to return the state it was given; threads
  are lists of calls, executed in the order of an arbitrary interleaving.
* C62 arithmetic of local iterators: pointer model, positions.
* C63 modification through iterators: an operation of programs like any other
  (`COp.apply`), so all properties hold in collections whose elements have been
  modified, too. The action is an arbitrary function of the element, which may
  throw.
* C64 assignment between elements through iterators (`COp.rebind`): refuted for
  `function_collection` in general, not only for a witness (`C64_rebinds`).
* C65 refinement: forward simulation of whole programs by the abstract machine
  (`Coll.uses_trace`), from the specification of each operation; then the machine
  is shown to be deterministic up to the order of segments (`Spec.Trace.alike`).
* C66 exceptions: a compositional predicate over all functions (`Fair`), then case
  analysis of the operations (`Coll.run_throws`); success follows with C65.
* C67 no failure swallowed: the other half of `Fair`.
* C68 failure points: a table of the operations that need no new memory with the
  number of their steps that may fail (`COp.Costs`), proved function by function
  (`Takes`); with C66 and C67 this decides when they throw. Operations that
  allocate are not in the table.
* C69 queries: `Answers` states each answer in terms of the abstraction.
* C70 arguments: `Model/Object.lean` has references (`Expr`) and a typed memory;
  insertion through a reference is shown equal to insertion of the object
  designated (`Expr.object`), to which C06–C12 apply (hints: in `ObjectHint.lean`,
  exact about rehashing). Ranges for a `local_iterator<U>` are of references, with
  the value a `U` constructed from them would have if there is one, or of other
  things (`LocalArg`).
* C71 lifetimes: `Model/Holder.lean` is below the rest of the model. The client is
  any sequence of operations that respects the lifetimes of holders; invariant by
  induction. `C71_model` ties it to the element operations of `Vec.lean`. The part
  about allocators is refuted for types without move assignment, `_partial` for
  the others. The exception specifications are right if the allocator's
  `construct` throws only where copy and move constructors do (`TameCons`), refuted otherwise;
  the rest of the model (`Vec.lean`) assumes this (`C71_model`).
* C72 sizes: `Limits` follows every function of the model, without preconditions
  (`Gives`, `Hold`), and shows that no vector has more elements than its capacity,
  and none grows beyond `max_size()`. Assumed of the vectors for the latter (`Env.Fits`): a request for no more than `max_size()` elements gives a
  buffer of no more than that; `max_size()` is at least 1.
* C73 ownership: `Own` counts how often a block is held. It follows every function of
  the model, including values held in local variables, and shows that the count grows
  only for blocks allocated meanwhile, and then by at most one. The blocks are nodes of
  the map, buffers of elements and indexes. This backs the model's choice to store
  buffers by value: an operation on one collection cannot change another through shared
  memory. Buckets and the cache are not given identities.
* C74 storage: `Model/Heap.lean` adds to segments what the rest of the model leaves out:
  heap objects, `unique_ptr`s with deleters, and a list of the blocks obtained from
  allocators; returning a block that is not in use, or to the wrong allocator, and using a
  destroyed object are undefined. `Sim` relates a program on the heap to the program on
  values. Vectors are assumed to return a buffer when they replace it or are destroyed
  (`Heap.settle`); members of vectors are not modelled below that.
* C75 callables: `Model/Callable.lean` takes from the signature the result and the effect
  of calling an object of each type (`Signature`); the effect is an `Act` as for C63. A
  wrapper is the type and the address. `C75_index_partial` justifies that the rest of the model
  has addresses for index entries. A `std::function` made from a wrapper is the type and
  the address again. Callables that use the collection they are in are not modelled, nor
  are signatures that return references (they do not compile: the lambdas of the table have a
  return type that is deduced and therefore not a reference).
* C76 placement: everywhere else pointers into different buffers differ. Here a
  `Placement` gives each buffer an address, an element size and the offset of the
  base subobject; `Placement.Lays` says what memory guarantees. The searches with
  addresses are shown equal to those of `Model/Algorithm.lean`, by induction on the
  pieces. Comparisons within `std` algorithms on one segment and in `segment_split`
  (map iterators) are not affected.
* C77 kept nodes: the assignments of `Model/TypeInfoMap.lean` once more, with the first
  elements going to the nodes that the left map has (in any order, `shuffle`), by the
  assignment operators of `segment`. The programs of the other properties use the version
  that destroys nodes; `C77` shows that the result satisfies the same invariant.
* C97 moved-from maps: move assignment once more, with a parameter for what is left of the
  map of the source when elements are moved one by one: nothing, its segments with empty
  vectors that keep their buffers, or its segments with the vectors as they were. Which of these a given
  standard library does is not part of the model. The values of moved-from elements are not
  distinguished from those before. The constructor with an allocator is not affected: it ends with
  `x.map.clear()`.
* C78 construct: overload resolution is a function of the shape of the type and of the arguments,
  `std::uses_allocator` and `is_constructible` are arbitrary functions. The spec is
  the standard's definition of uses-allocator construction. `C78_mapEmplace`, `C78_moveNodes` and
  `C78_copyNodes` justify the constructors of `segment` used by the model of the map.
* C79 calls: functors with any state that may throw are wrapped to count their calls.
  The bounds are proved for the standard algorithms on lists and carried over by the
  relations of C42–C56; `unique_copy` and `is_permutation`, which have such a relation
  for some functors only, are followed directly. Counted are calls of functors (for
  the copying algorithms without one: assignments to the output iterator), as the
  standard does, not iterator increments.
* C80 modification: in C42–C56 functors get elements and the collection is constant. Here the
  three algorithms that may modify elements run on the collection, reading it anew in every step.
  A functor changes the element it is given only. The loops are shown to meet the pieces
  that C41 has for the unmodified collection.
* C81 construction: the four forms a range can have are four functions, each of which inserts
  into a local empty collection, dropped if an exception leaves it.
* C82 overloads: types are terms; a candidate has parameter types with variables, a constraint
  and the parameters it is ordered by. Deduction, ranking of conversions (identity or
  user-defined, no others occur), and partial ordering of templates follow the standard as far
  as these declarations need it; forwarding references are taken to bind any argument exactly.
  The documented forms are a relation that does not mention overloads. That the computation is overload
  resolution is stated separately, for any overloads, against a relation (`Spec/Overloads.lean`).
* C83 conversions: the three converting constructors of `local_iterator_impl` with their
  conditions, over arbitrary predicates for convertibility of pointers. Documented conversions
  are a relation; the rest of the claim is false (F28, F29), and what remains is proved.
* C84 work: the model counts only the steps that may fail. A meter for each function counts the
  others, too, following the text of the function and, for `std::vector`, the operations the
  standard prescribes. Sizes and capacities computed by the meter are proved to be those of the
  model, and its count to be at least the steps of the model; that it leaves out no operation that
  cannot fail is by inspection. The amortised bound is proved with a potential, for
  sequences of operations of all kinds. For forward ranges in split segments the allowance is the
  whole segment if there is no room; that nothing better holds is F30.
* C85 machine arithmetic: the rest of the model has unbounded numbers. The functions that add,
  subtract or count are written down a second time in arithmetic modulo W and shown equal to the
  first version, in every state that a history leads to. Needed is that sizes of vectors are at most the
  largest `std::ptrdiff_t` (`max_size()` of the standard libraries), that lengths of forward ranges
  are (otherwise `std::distance` is undefined), and that the total number of elements fits
  `std::size_t`. Pointer differences in these functions are within one buffer and hence bounded
  by sizes.
* C86 numbers of any integer type: the four algorithms that take a number are written a second time
  with the conversions that its type brings about, on a platform given by the widths of the integer types.
  Conversion to signed types is modulo a power of two, overflow of signed arithmetic and
  `uniform_int_distribution(0,k)` for negative `k` are undefined. `bool`, the named character types and
  user-defined integers are left out. The sums in `fast_distance` are bounded by the distance and not
  modelled separately. `copy_n` is refuted for all types but one, `sample` for types too small for the distance.
* C87 traversal and erasure: the functions of collections that go from segment to segment are written a second
  time with two numbers, segments at which a loop arrives and work on elements as in C84, and shown
  to be the same otherwise. That each loop adds one per turn is by inspection. Lookups in the hash map are
  not counted (C37 is about them). The work on elements of `erase` and `clear` is given
  exactly, from which the documented complexity follows; the search for the next element comes on top of it and has no such bound (F33), but
  over a whole pass through the collection, whatever is erased on the way, no segment is looked at twice.
* C88 acceptable types: what the traits say, what the documentation says, and what the member functions of
  segments need in order to compile are three different predicates of a type. A type is given by the
  overloads of its `operator()` or `operator==` (value category and constness they accept, ranks of the
  conversions of the other arguments, deleted, noexcept), by its moves, and by the classes it is
  derived from. Classes are given as a list of bases each; a virtual base reached in two ways counts as two ways, which
  makes no difference here since the downcast is ill-formed in either case. Protected is as private; templates and user-defined
  conversions of the object itself are left out. All virtual member functions of a segment are instantiated with
  its class, hence one ill-formed expression in them makes the type unusable.
* C89 objects describing a segment (`segment(info)`, `segment_traversal()`): an object holds an iterator of the map and
  is asked with the collection that has the segment at that time. `Path` (`Spec/Descriptor.lean`) follows the segments of a
  collection through a program: they stay where they are unless the collection is constructed, assigned, swapped or
  moved from, and swap, move construction and move assignment with equal or propagated allocators hand
  them over. After the collection has been replaced otherwise nothing is said about the objects from before.
* C90 ranges given by iterators: the value type of the iterators and the types of the objects they refer to are separate
  (`Model/Ranges.lean`). A value is the same whether stored as the type of the object or converted to the value type; the
  conversion matters only where the types differ, and there the outcome is undefined or an exception anyway. Ranges of objects
  of several types with a terminal value type are covered by their first object only.
* C91 iterators that a program keeps: `Op.Passes` (`Spec/Follow.lean`) lists, with the conditions the documentation gives, the
  operations that leave an element where it is, `Follow` is a program made of them. The theorems compose the guarantees of
  C27, C28, C35 and C89 over such programs; the value is followed, too. Operations that throw and leave a trace are not listed.
* C92 calls of algorithms: of the functors and standard algorithms only this is kept, whether they compile for iterators of a given
  type. Types of lists are object types; `void`, references and incomplete types are left out. The predicates of algorithms
  on pairs of elements are not looked at pair by pair.
* C94 iterators of other types: local iterators pass `enable_if_poly_collection_iterator`, too, and fail only inside the body, where
  functions of `iterator_traits` are called; a hard error, not a substitution failure, which the statement does not distinguish.
* C93 answers of predicates: C++ types are numbered, conversions between them given by a function. References are `const` references;
  a reference to another type than the one referred to is taken to be bound to a temporary object, as between arithmetic types.
* C95 calls of predicates (`Model/Functors.lean`): overload resolution for one object as in `Accept.lean`, with the conversions of the
  arguments given as ranks. Types of answers are numbered; that a type converts to itself, so that answers can be returned, is a
  hypothesis (before C++17 it means that they can be moved). What happens to answers at run time is C93.
* C96 types associated with iterators (`Model/IterTypes.lean`): the rules by which `boost::iterator_facade` and `boost::iterator_adaptor` derive value,
  reference and pointer types are stated as documented by Boost.Iterator, which is not in the repository. Difference types and the iterators of
  `segment_split.hpp` and `auto_iterator.hpp` are left out.

Not modelled because there is nothing to it but a choice by compiler: `detail/is_final.hpp` and `detail/is_constructible.hpp` (the
traits of the standard library or replacements for them). `any_collection.hpp`, `base_collection.hpp` and `function_collection.hpp`
inherit the members of `common_impl::poly_collection` and forward to its constructors, assignment and comparison;
`exception.hpp` holds the three exception classes, which are `Exc` constructors in the model.

## 4. Defects found in the code

Each with the theorem that proves it of the model. Witnesses are concrete
programs run in the kernel.

| | Defect | Theorem |
|-|--------|---------|
| F1 | `segment::filter` refreshes the cached end only if the backend returns. If an insertion into a full or fresh segment of any_collection/function_collection throws after the index was rebuilt, the cached end is stale, and traversal runs past the end (undefined). | `C16_traversal_after_insert`, `C16_traversal_after_throwing_constructor` |
| F2 | `adjacent_find` and `unique_copy` with type restitution pass the element carried over from an earlier segment as `value_type&` although its type is listed: `prev_info` is a pointer passed by value, so that its update is lost. | `C56_adjacent_find_false`, `C56_unique_copy_false`, `C56_consequence` |
| F3 | `split_segment::nv_erase(p)` pops the index entry before erasing the element. If the erasure throws (throwing move assignment) the index is one short until it is built anew; the next emplacement is lost exactly if the segment has room. | `C17_any_collection`, `C17_any_collection_always`, `C17_full_segment`, `C17_exactly` |
| F4 | An element type that is not copyable and whose move constructor may throw makes every reallocation throw `not_copy_constructible`: `value_holder` always has a copy constructor, so `move_if_noexcept` copies. | `C18_throwing_move`, `C18_full_segment` |
| F5 | Iterators hold map iterators `mapit`, `mapend`. Creating a segment may rehash the map, which by the standard invalidates them; hinted insertion and increments use them afterwards. | `C58_hint_after_rehash`, `C58_increment_after_rehash`, `C58_rehash`, `C06_emplace_hint` |
| F6 | `packed_segment::copy()`/`split_segment::copy()` allocate the segment object with `s.get_allocator()` but free it with the copied vector's allocator, which `select_on_container_copy_construction` may have changed. (Collections call them only in the case of F24.) In a program that copies segments this is undefined behaviour when the copy is destroyed. | `C40_copy`, `C40_copy_mismatch`, `C74_copy_undefined` |
| F7 | Emplacing in the middle of a split segment with throwing moves: the store may have grown when the exception leaves, the index has not. | case of `C16`; the element contents are unspecified there anyway |
| F8 | Inserting a copy of one of its own elements into a full segment of any_collection/function_collection reads the element after `prereserve` has freed the buffer it was in. | `C13_any_collection_full`, `C13_full_segment`, `C13_full_segment_undefined` |
| F9 | First insertion into a fresh split segment whose index cannot grow (`bad_alloc`): the element is in the store, the index is short. | case of `C16_traversal_after_throwing_constructor` |
| F10 | Allocator-extended move construction that throws midway leaves moved-from segments in the source with stale cached ends: the source can be traversed only if no element was lost. | `C34_move_allocator_throws`, `C34_source_exactly` |
| F11 | With a `vector::reserve` that allocates more than asked for, the index of a split segment may reallocate although capacity() suffices, invalidating iterators that the documentation says stay valid. | `C27_index_moves` |
| F12 | Range insertion into a packed segment that throws after some elements were added (single-pass ranges, or a hint before other elements) leaves the cached end stale: traversal is undefined or misses elements that `size()` counts. | `C59_single_pass`, `C59_hint` |
| F13 | `reserve` on a split segment that throws between the reallocation of the store and the rebuilding of the index, or with `length_error` on the store after the index moved, leaves cached end stale. | `C30_reserve_too_much`, `C16_traversal_after_reserve` |
| F14 | The growth policy of `split_segment::expand` adds one element at a time beyond a third of `max_size()`: quadratic cost. | `C32_quadratic` |
| F15 | In the letter of the standard the end iterator of a full packed segment of types whose base is at a nonzero offset points beyond one past the end of the buffer. | `C57_past_the_end` |
| F16 | Consequence of F3: each failed `erase` takes an entry off the index. When it is empty, `clear()` underflows its loop counter and is undefined. | `C60_repeated` |
| F17 | `split_segment::max_size()` is one less than what the segment takes: a segment can hold more elements than its `max_size()`. | `C30_max_size_exceeded` |
| F18 | References to elements of a `function_collection` are assignable (there is a TODO in `callable_wrapper.hpp`): `*it=*jt` compiles and makes `it` refer to the element of `jt`, possibly of another type; `swap`, `std::sort` and the like do this. Traversal is wrong from then on, even after `clear()`, and conversion to `local_iterator<T>` gives a pointer to an object of another type. | `C64_rebinds`, `C64_wrong_type`, `C64_traversal` |
| F19 | An `any` that wraps (by means of `static_binding`) an `any` of its own type is inserted itself instead of the object wrapped: `push_back` compares types only. Exotic. | `C70_own_wrapper` |
| F20 | The emulated move assignment of `value_holder` (lambdas and other types without assignment) destroys and constructs elements directly, not with the allocator's `destroy` and `construct`, against the documentation. | `C71_emulated_assignment` |
| F21 | `callable_wrapper(Callable& x)` stores `&x` where the rest of the library uses `boost::addressof`. For callables that overload unary `&` the wrapper refers to whatever this returns and calls are undefined; for the sentinel entry the overload is called on an object that does not exist. | `C75_ampersand` |
| F22 | `callable_wrapper<R(Args...)>` itself satisfies `is_acceptable` of a collection with that signature. `make_value_type` then copies elements instead of wrapping them, and the last index entry is copied from an object that does not exist: undefined as soon as the type is registered. | `C75_own_type`, `C75_own_type_register` |
| F23 | `generic_find` compares the iterator returned by `adjacent_find_alg`, which may be into an earlier segment, with the end of the present one, by address. In a `base_collection` the last element before a full segment can have the address of its end: if the buffers touch, or even if they do not but the base subobject has different offsets in the two types. Then `adjacent_find` misses a match. | `C76_adjacent_missed` |
| F24 | Where the assignment of `std::unordered_map` assigns to the elements it has (allowed by the standard, done by libc++), a collection with a propagating allocator calls `segment::operator=(const segment&)`, which uses `copy()`: if `select_on_container_copy_construction` returns another allocator the segment does not have the allocator of its collection, and F6 applies. | `C77_mismatch`, `C77_undefined` |
| F25 | `allocator_adaptor::construct(pair*,pair&)` with a non-const lvalue chooses the general overload, which copies the pair without the allocator, whereas const pairs and rvalues are constructed member by member with it. (The same holds for `std::scoped_allocator_adaptor` in C++11. The standard libraries' maps do not call it this way.) | `C78_lvalue_pair`, `C78_segment_lvalue` |
| F26 | `search` tries every start, also where fewer than `M` elements are left. The standard allows this for `search` (`N·M` calls), but `find_end` is built on it and is allowed only `M·(N-M+1)` calls. If everything matches it makes `M·(M-1)/2` more; for ranges of equal length, quadratically many instead of linearly many. | `C79_find_end_exceeds` |
| F27 | The constructors of `value_holder` that take an allocator are `noexcept` if T's copy or move constructor is, but they call the allocator's `construct`, which may throw all the same: `std::scoped_allocator_adaptor` calls constructors that take an allocator, and those of `std::pmr::string` and the like allocate if the allocators differ. A `bad_alloc` while a temporary is inserted then terminates the program. | `C71_terminates` |
| F28 | The third converting constructor of `local_iterator_impl` takes segment and index from any local iterator and ignores its constness and element type: `const_local_base_iterator` and `const_local_iterator<U>` convert explicitly to `local_base_iterator` and `local_iterator<U>`, so that elements of a const collection can be modified without `const_cast`. | `C83_const_lost`, `C83_everything` |
| F29 | `local_iterator<T>` converts implicitly to `local_iterator<U>` if T is derived from U, where the documentation has only explicit conversions, from and to base iterators. Its arithmetic uses `sizeof(U)`, and `emplace_pos<U>` accepts it although it does not belong to the segment for U. | `C83_retyped` |
| F30 | `split_segment::expand(m)` makes room for exactly the elements of a forward range, and not geometrically as `expand()` does: n ranges of one element inserted one after the other into a split segment take time quadratic in n, although the documentation says that inserting a range is equivalent to inserting its elements, each in amortised constant time. (`std::vector` grows geometrically in this case; packed segments do, too.) | `C84_range_quadratic` |
| F31 | `sample` stores the distance of the range in a variable of the type of `n`. If that type does not have the distance among its values, the sample is taken from a part of the range only, or is empty, or the behaviour is undefined. (`std::sample` of the standard libraries converts `n` to the type of the distance instead.) | `C86_sample_converted`, `C86_sample_lost`, `C86_sample_ub` |
| F32 | `copy_n` takes the minimum of `count` and a difference of iterators by `(std::min)(count,sit->end()-lbit)`, which compiles only if `count` is of type `std::ptrdiff_t`: `copy_n(first,5,out)` does not, while `std::copy_n` accepts any integer type. | `C86_copy_n_ill_formed` |
| F33 | `erase(pos)` and `erase(first,last)` return an iterator to the next element, for which they pass over any number of empty segments, although the documentation gives a complexity that depends on elements only ("linear on the number of elements erased plus the distance from the last one to the end of its segment"). The same holds for `begin()`, `++` and `empty()`, of which the first two are constant for standard containers and iterators. | `C87_erase_far`, `C87_begin_far` |
| F34 | Callables that cannot be called when const, such as `mutable` lambdas, are acceptable as documented and for `is_acceptable`, but cannot be stored in a `function_collection`: the conversion of a const base iterator to `const T*` is only there if a `callable_wrapper` can be constructed from a `const T&`, and the segment does not compile. | `C88_function_mutable` |
| F35 | `is_implementation` of `function_collection` asks whether `Callable&` can be called, the documentation and the constructor of `callable_wrapper` whether `Callable` can. With ref-qualified `operator()` the three differ: types callable as rvalues only are rejected against the documentation, types callable as lvalues only pass the check but do not compile. | `C88_function_rvalue`, `C88_function_lvalue` |
| F36 | Types derived from `Base` virtually, privately or more than once satisfy the documented condition `std::is_base_of_v<Base,Derived>` and `is_acceptable`, but the segments do not compile. | `C88_base_virtual`, `C88_base_private`, `C88_base_ambiguous` |
| F37 | An `any` whose concept has no assignment is declared assignable. `any_collection` has a specialisation of `is_acceptable` for it, the other collections do not, and fail to compile. | `C88_any_elsewhere` |
| F38 | `is_equality_comparable` looks at non-const lvalues and `is_nothrow_equality_comparable` at rvalues, but const lvalues are compared. Types with a non-const `operator==` are not EqualityComparable and should lead to `not_equality_comparable` when collections are compared, but do not compile; types with an overload for rvalues that is `noexcept` lead to `std::terminate` if the comparison throws. | `C88_equal_nonconst`, `C88_equal_noexcept` |
| F39 | Objects describing a segment hold an iterator of the map of segments, which rehashing invalidates. After a type has been registered, `begin()`, `end()` and `type_info()` of the objects obtained before are undefined although nothing was done to their segments; the documentation gives no such limit. | `C89_rehash`, `C89_rehash_witness` |
| F40 | `insert(first,last)`, `insert(hint,first,last)` and the constructor from a range look up the segment of the type of `*first` and downcast it to the implementation for `std::iterator_traits<I>::value_type`. For iterators whose value type is terminal and is not the type of `*first`, such as those of `std::vector<bool>` in an `any_collection`, every non-empty range is undefined; documented is the equivalence with inserting one by one. | `C90_never`, `C90_undefined`, `C90_witness` |
| F41 | The algorithms instantiate `local_iterator<T>{it}` for every type of the list they are given. In a `base_collection` or `function_collection` a single type that cannot be an element makes the call ill-formed, although the list is documented to be of arbitrary types; code that passes one list of types to algorithms on several collections does not compile. | `C92_arbitrary` |
| F42 | `restitute_iterator_class::operator()` returns what the functor returns for a `value_type&`. In `partition_point` and `is_permutation` the answer of a predicate for a `T&` is converted to that type before it is tested: it may become false, or the result is a reference to a temporary object (undefined). | `C93_partition_point_false`, `C93_dangling`, `C93_is_permutation_false` |
| F43 | `deref_to_class` and `deref_1st_to_class` declare to return `decltype(std::declval<F>()(…))`, a call of the predicate as an rvalue, but call it as an lvalue. `partition_point`, `adjacent_find`, `unique_copy` and `is_permutation` do not compile, with or without a list of types, for predicates with `operator()(…)&`, and for those with an overload for rvalues that returns something else. With a list of types they do not compile either if answers for a `T&` do not convert to the type of answers for a `value_type&` (such as `bool` and `std::true_type`). | `C95_lvalue`, `C95_rvalue_type`, `C95_answers` |
| F44 | `iterator_impl` declares a public `value_type` that is `const value_type` for `const_iterator` and hides the one of `iterator_facade`. `std::iterator_traits<const_iterator>::value_type` is therefore const, against the requirements of Container, and differs from that of `const_local_base_iterator`, documented to be the same. The collections themselves apply `std::decay` to it; generic code that declares variables or containers of the value type does not compile. | `C96_const_value_differs` |
| F45 | `type_info_map::operator=(type_info_map&&)` clears `x.cache` but not `x.map` when the allocators differ and are not propagated (the constructor with an allocator clears both). The standard does not say that a moved-from `unordered_map` is empty. If its elements stay, with their vectors emptied, the segments of the source have the ends cached before the move, and traversing the source is undefined; if the vectors keep their moved-from elements, so does the source. Adding `x.map.clear()` corrects it, and so does calling `clear()` on the source (`C97_clear`). | `C97_emptied`, `C97_full` |

Remarks that are not theorems:

* `clear()` and the swap of maps may by the letter of the standard invalidate
  end iterators; not pursued.
* A failing insertion may still register the type (documented as basic
  guarantee; see C15).
* The algorithms copy predicates per segment, so that a predicate with a state
  held by value is reset at each segment.
* Allocators whose `pointer` is a class do not compile although AllocatorAwareContainer allows them:
  `new_` and `delete_` in `packed_segment.hpp` and `split_segment.hpp` use raw pointers.
* In `any_collection`, iterators can be elements. `c.insert(d.cbegin(),d.end())`, with a
  `const_iterator` and an `iterator`, is not a range but a hint and an element (`Odd` in C82).

## 5. Mutation tests

`seeded/LOG.jsonl` has one line per wrong program tried in a scratch copy of the
project. The script replaces the proofs that fail by `sorry`, so that all the
rest still builds, and then asks for the axioms of each property theorem: the
ones that depend on `sorryAx` have lost their proof. `theorems_failed` lists the
lemmas or theorems whose own proof failed, `claims_lost` the theorems of the
property concerned that depend on them.

## Appendix: axioms of the property theorems

* **propext, Classical.choice, Quot.sound** (401): C01_lookup, C02_stays_registered, C02_register_again, C02_register, C03_one_segment_per_type, C04_unregistered, C05_emplace, C06_emplace_hint_partial, C06_insert_hint_partial, C06_emplace_hint, C06_insert_hint, C07_insert, C07_insert_unregistered, C08_emplace_pos_base, C08_emplace_pos_local, C08_insert_pos_base, C08_insert_pos_local, C09_insert_range, C09_insert_range_terminal, C10_insert_collection, C10_insert_local, C10_exactly, C11_insert_hint_range_partial, C11_insert_hint_range_terminal_partial, C11_insert_hint_collection_partial, C11_insert_hint_local_partial, C11_insert_hint_range, C11_insert_hint_range_terminal, C11_insert_hint_local, C11_insert_hint_collection, C12_insert_pos_range_base, C12_insert_pos_range_local, C13_base_collection, C13_partial, C13_full_segment, C13_full_segment_undefined, C14_not_copyable, C15_strong_guarantee_partial, C15_hints_partial, C16_not_full_partial, C16_elements_partial, C16_reserve_partial, C16_exactly, C16_reserve_exactly, C17_base_collection, C17_partial, C17_any_collection_always, C17_full_segment, C17_exactly, C18_partial, C18_full_segment, C19_erase, C20_erase_range, C21_erase_local_base, C21_erase_local, C21_erase_local_range_base, C21_erase_local_range, C21_clear, C21_clear_type, C22_traversal, C22_subrange, C23_size, C23_empty, C24_equal, C24_equal_local_base, C24_equal_local, C25_order, C26_segment_traversal, C27_insert_local_iterators, C27_insert_partial, C27_insert_range_partial, C27_insert_range_local_partial, C27_erase, C27_erase_range, C28_partial, C28_insert_collection_partial, C28_insert_local_partial, C28_insert_hint_collection_partial, C28_insert_hint_local_partial, C28_hints_partial, C29_base_local, C29_local_base, C30_capacity, C30_reserve_info_partial, C30_reserve_all_partial, C30_reserve_type_partial, C30_max_size_partial, C30_no_reallocation, C31_shrink_all, C31_shrink_info, C32_growth, C32_amortised_partial, C32_quadratic, C33_copy, C33_copy_allocator, C33_assign, C33_throws_exactly, C33_independent, C34_source_exactly, C34_move, C34_move_allocator_partial, C34_moveAssign, C35_swap, C35_iterators, C36_failed_assignment, C36_repairs, C37_equality, C37_reflexive, C37_symmetric, C37_transitive, C37_same_contents, C38_throws, C38_throws_ne, C39_segments_partial, C39_propagation, C40_collections_partial, C40_created_partial, C41_decomposition, C41_for_each_segment, C42_all_of, C42_any_of, C42_none_of, C42_values, C43_for_each, C43_for_each_n, C44_find_if, C44_find_if_not, C44_find_first_of, C44_first, C44_first_not, C44_first_of, C45_adjacent_find, C45_adjacent_find_std, C45_first, C46_count_if, C46_number, C46_distance, C47_mismatch4, C47_mismatch3, C47_first_difference, C47_first_difference3, C47_equal4, C47_equal3, C47_coincide, C48_is_permutation4, C48_is_permutation3, C49_search, C49_find_end, C49_first_occurrence, C49_last_occurrence, C50_search_n, C50_first_run, C51_copy, C51_copy_n, C51_copy_if, C51_transform, C51_transform2, C51_replace_copy_if, C51_remove_copy_if, C51_rotate_copy, C51_partition_copy, C51_written, C51_rotated, C52_unique_copy, C52_groups, C53_sample, C53_subsequence, C54_is_partitioned, C54_partitioned, C54_partition_point, C54_boundary, C55_static_type, C55_predicates, C55_for_each, C55_equal, C55_copies, C55_n, C55_rotate_copy, C55_unique_copy, C55_finds, C55_searches, C55_adjacent_find, C55_is_permutation, C56_adjacent_find_false, C56_consequence, C56_adjacent_find_partial, C56_unique_copy_partial, C57_advance, C57_back, C57_difference, C57_less, C57_equal, C57_position, C57_traversal, C57_segment, C58_rehash, C58_register_partial, C59_usable_partial, C59_hint, C59_prefixes, C60_clear_partial, C60_clear_base_collection, C60_reserve_base_collection, C60_reserve_partial, C60_reserve, C60_reserve_always, C60_shrink_partial, C60_clear, C60_copy_partial, C60_repeated, C61_defined, C62_advance, C62_advance_beyond, C62_difference, C62_less, C62_equal, C62_apart, C62_subscript, C62_ends, C62_convert, C63_local, C63_global, C63_readback, C64_self_partial, C64_rebinds, C64_wrong_type, C65_step, C65_step_hint, C65_program, C65_independent, C66_throws, C66_unregistered, C66_returns, C66_returns_hint, C66_never, C68_exact, C68_never, C69_answers, C70_object, C70_insert, C70_insert_unregistered, C70_insert_pos_base, C70_insert_pos_local, C70_insert_own, C70_insert_range, C70_insert_pos_range_base, C70_insert_pos_range_local, C70_insert_hint, C70_insert_hint_range, C71_lifetimes, C71_values, C71_noexcept_partial, C71_throwing, C71_terminates, C71_equal, C71_allocator_partial, C71_model, C72_contents, C72_full, C73_owner, C73_allocated, C73_segments, C73_apart, C73_element, C74_same_partial, C74_storage_partial, C74_deleter_partial, C74_nothing_left_partial, C74_destroy_partial, C74_failed_partial, C75_reference_partial, C75_reference_local_partial, C75_observers, C75_call, C75_stays, C75_call_all_partial, C75_insert, C75_ampersand, C76_iterators, C76_local, C76_find_if, C76_find_if_not, C76_find_first_of, C76_mismatch4, C76_mismatch3, C76_search_n, C76_adjacent_find_partial, C76_adjacent_find_split, C76_adjacent_find_apart_partial, C76_adjacent_missed, C77_assign_partial, C77_moveAssign, C79_tests, C79_for_each, C79_find, C79_search, C79_search_n, C79_mismatch, C79_is_permutation, C79_is_permutation_equal, C79_partition_point, C79_copy, C79_copy_functor, C79_unique_copy, C79_sample, C79_find_end_partial, C79_find_end_exceeds, C80_for_each, C80_for_each_n, C80_move, C80_reading, C81_objects, C81_terminal, C81_collection, C81_local, C81_exactly, C81_equal, C82_documented, C82_exactly, C82_closed, C82_unambiguous, C82_erase, C82_deduction, C82_viable, C82_not_viable, C82_resolution, C84_reserve, C84_amortised_partial, C84_range_quadratic, C85_insertion, C85_erasure, C85_capacity, C85_creation, C85_reserve_wraps, C85_positions, C86_for_each_n, C86_search_n, C86_copy_n_partial, C86_sample_converted, C86_sample_partial, C86_sample_nothing, C86_sample_lost, C86_sample_undefined, C86_sample_ub, C87_begin, C87_increment, C87_traversal, C87_walk, C87_sweep, C87_erase_partial, C87_erase_range_partial, C87_clear, C87_begin_far, C87_erase_far, C88_calls, C88_function_needs, C88_function_addresses, C88_function_partial, C88_function_mutable, C88_function_rvalue, C88_function_lvalue, C88_base_partial, C88_base_virtual, C88_base_private, C88_base_ambiguous, C88_equal_partial, C88_equal_nonconst, C88_equal_noexcept, C89_segment, C89_traversal, C89_kept_partial, C89_registered, C89_rehash, C89_rehash_witness, C89_elements, C90_partial, C90_hint_partial, C90_construct_partial, C90_never, C90_undefined, C90_witness, C91_kept_partial, C91_local_partial, C91_registered_partial, C91_rehash, C92_two_ranges, C93_partition_point_partial, C93_converted, C93_partition_point_false, C93_is_permutation4_partial, C93_is_permutation3_partial, C93_is_permutation_false, C95_unqualified_partial, C95_needed, C95_lvalue, C95_answers, C95_rvalue_type, C97_moveAssign_partial, C97_emptied, C97_full, C97_clear.
* **propext, Quot.sound** (66): C13_any_collection_full, C16_traversal_after_insert, C16_traversal_after_throwing_constructor, C16_traversal_after_reserve, C17_any_collection, C18_throwing_move, C27_index_moves, C30_max_size_exceeded, C30_reserve_too_much, C32_no_overflow, C32_wraps, C34_move_allocator_throws, C36_self, C40_copy, C40_copy_mismatch, C55_set, C57_disjoint, C57_increment, C57_decrement, C57_past_the_end, C57_inside, C58_hint_after_rehash, C58_increment_after_rehash, C58_only_definedness, C59_single_pass, C60_reserve_small, C60_shrink_full, C61_steady, C61_reads, C61_threads, C61_threads_steady, C61_thread_alone, C64_traversal, C65_requests, C66_cause, C66_cause_equal, C67_not_swallowed, C67_not_swallowed_equal, C67_program, C72_sizes, C74_copy_undefined, C75_own_type, C77_mismatch, C77_undefined, C78_copyNodes, C80_determined, C82_emplace_pos, C82_dispatch, C83_implicit_partial, C84_meter, C84_direct, C84_room, C84_shrink_idle, C84_reserve_needs_exact, C85_collections, C87_empty_size, C92_exactly, C92_storable_partial, C92_arbitrary, C93_dangling, C94_only, C96_local, C96_iterator, C96_same_partial, C96_const_value_differs, C96_info.
* **propext** (37): C34_self, C37_inequality, C37_segments, C56_unique_copy_false, C70_part_of_element, C70_own_wrapper, C71_emulated_assignment, C71_not_acceptable, C75_index_partial, C75_function, C75_dangling, C75_own_type_register, C78_object, C78_holder, C78_pair_partial, C78_lvalue_pair, C78_segment_partial, C78_constructors, C78_well_formed, C78_segment_copy, C78_segment_lvalue, C78_mapEmplace, C78_moveNodes, C83_everything, C83_documented, C83_unambiguous, C83_explicit, C83_unrelated, C83_how, C83_const_lost, C83_retyped, C86_copy_n_ill_formed, C87_same, C87_counted, C88_any_elsewhere, C90_same, C92_elements.
* **none** (4): C57_address, C88_moves, C88_any, C97_nothing.
