import Verif.Props.Traversal
import Verif.Lemmas.Descriptor
/-!
# Property C89: objects describing a segment stay in step with it

`SegRef.InStep E c d u` says that object `d` tells what collection `c` tells about its segment for type `u`: the type, and the
positions `begin(info)` and `end(info)` give, also when converted to local iterators.  A `Path` is what a program does from one
state to another, every operation returning or throwing.
-/

namespace PolyColl.Sample
open Coll

/-- The state after an operation. -/
def next (k : Kind) (p : Sys Nat × World) (op : Op Nat) : Sys Nat × World :=
  match op.run E0 k (fun t => 2 * t) p.1 p.2 with
  | .ok _ s' w' => (s', w')
  | .exc _ s' w' => (s', w')
  | .ub => p

/-- Two types are registered and an element of the first is created. -/
def d0 (k : Kind) : Sys Nat × World := (fun _ => Coll.empty' k 0, ⟨1, 1⟩)
def d1 (k : Kind) : Sys Nat × World := next k (d0 k) (.on 0 (.registerTypes [0, 2]))
def d2 (k : Kind) : Sys Nat × World := next k (d1 k) (.on 0 (.emplace 0 (.emplaced 5)))

/-- Another element is created, an insertion fails, the collection is swapped with another one, one more element is created
and the collection moved to a third one. -/
def d3 (k : Kind) : Sys Nat × World := next k (d2 k) (.on 0 (.emplace 0 (.emplaced 8)))
def d4 (k : Kind) : Sys Nat × World := next k (d3 k) (.on 0 (.insert ⟨2, 2, true, false, .copyExt 5⟩))
def d5 (k : Kind) : Sys Nat × World := next k (d4 k) (.swap 0 1)
def d6 (k : Kind) : Sys Nat × World := next k (d5 k) (.on 1 (.emplace 0 (.emplaced 9)))
def d7 (k : Kind) : Sys Nat × World := next k (d6 k) (.move 2 1)

/-- A third type is registered. -/
def d8 (k : Kind) : Sys Nat × World := next k (d7 k) (.on 2 (.registerTypes [6]))

/-- The object for the first type. -/
def ref (k : Kind) : SegRef := ⟨some (match k with | .packed => 2 | .split => 4), 2⟩

/-- 0 if an operation returned, 1 if it threw. -/
def how (k : Kind) (p : Sys Nat × World) (op : Op Nat) : Nat :=
  match op.run E0 k (fun t => 2 * t) p.1 p.2 with
  | .ok .. => 0
  | .exc .. => 1
  | .ub => 2

theorem next_ok {k : Kind} {p : Sys Nat × World} {op : Op Nat} (h : how k p op = 0) :
    op.run E0 k (fun t => 2 * t) p.1 p.2 = .ok () (next k p op).1 (next k p op).2 := by
  unfold how at h
  unfold next
  split at h <;> simp_all

theorem next_exc {k : Kind} {p : Sys Nat × World} {op : Op Nat} (h : how k p op = 1) :
    ∃ e, op.run E0 k (fun t => 2 * t) p.1 p.2 = .exc e (next k p op).1 (next k p op).2 := by
  unfold how at h
  unfold next
  split at h <;> simp_all

theorem d2_reach (k : Kind) : Reach E0 k (fun t => 2 * t) (Coll.Arg.OK E0) (d2 k).1 (d2 k).2 :=
  .ok (.ok (.start (fun _ => 0) ⟨1, 1⟩ (by decide)) (.on 0 (.registerTypes [0, 2])) (by simp [Op.args, COp.args])
    (next_ok (p := d0 k) (by cases k <;> decide +kernel))) (.on 0 (.emplace 0 (.emplaced 5))) (by simp [Op.args, COp.args])
    (next_ok (p := d1 k) (by cases k <;> decide +kernel))

theorem d_path (k : Kind) : Path E0 k (fun t => 2 * t) (d2 k).1 (d2 k).2 0 (d7 k).1 (d7 k).2 2 := by
  obtain ⟨e, he⟩ := next_exc (k := k) (p := d3 k) (op := .on 0 (.insert ⟨2, 2, true, false, .copyExt 5⟩)) (by cases k <;> decide +kernel)
  have h3 : Path E0 k (fun t => 2 * t) (d2 k).1 (d2 k).2 0 (d3 k).1 (d3 k).2 0 :=
    .ok (.on 0 (.emplace 0 (.emplaced 8))) .nil (by simp [Op.args, COp.args]) (next_ok (p := d2 k) (by cases k <;> decide +kernel)) (.stay id)
  have h4 : Path E0 k (fun t => 2 * t) (d2 k).1 (d2 k).2 0 (d4 k).1 (d4 k).2 0 :=
    .exc (.on 0 (.insert ⟨2, 2, true, false, .copyExt 5⟩)) h3 (by simp [Op.args, COp.args, Coll.Arg.OK]) he (.stay id)
  have h5 : Path E0 k (fun t => 2 * t) (d2 k).1 (d2 k).2 0 (d5 k).1 (d5 k).2 1 :=
    .ok (.swap 0 1) h4 (by simp [Op.args]) (next_ok (p := d4 k) (by cases k <;> decide +kernel)) .swap
  have h6 : Path E0 k (fun t => 2 * t) (d2 k).1 (d2 k).2 0 (d6 k).1 (d6 k).2 1 :=
    .ok (.on 1 (.emplace 0 (.emplaced 9))) h5 (by simp [Op.args, COp.args]) (next_ok (p := d5 k) (by cases k <;> decide +kernel)) (.stay id)
  exact .ok (.move 2 1) h6 (by simp [Op.args]) (next_ok (p := d6 k) (by cases k <;> decide +kernel)) .move

theorem d_path' (k : Kind) : Path E0 k (fun t => 2 * t) (d7 k).1 (d7 k).2 2 (d8 k).1 (d8 k).2 2 :=
  .ok (.on 2 (.registerTypes [6])) .nil (by simp [Op.args, COp.args]) (next_ok (p := d7 k) (by cases k <;> decide +kernel)) (.stay id)

theorem d2_possible (k : Kind) : ((d2 k).1 0).Possible E0 k (d2 k).2 := ⟨_, _, 0, fun t => (Nat.mul_div_cancel_left t (by decide) : 2 * t / 2 = t), d2_reach k, rfl⟩

end PolyColl.Sample

namespace PolyColl.Props
open PolyColl Prog Coll

variable {V : Type} {E : Env V} {k : Kind}

/-- **C89**, obtaining an object: `segment(info)` gives one that describes the segment for that type, or throws if there is
none.  The collection may be in whatever state failed operations left it. -/
theorem C89_segment {c : Coll V} {w : World} (h : c.Possible E k w) (t : TI) :
    Runs (segment E t) c w (fun d c' w' => c' = c ∧ w' = w ∧ d.InStep E c (E.tiTy t) ∧ E.tiTy t ∈ c.abs.types)
      (fun e c' w' => c' = c ∧ w' = w ∧ e = .unregistered (E.tiTy t) ∧ E.tiTy t ∉ c.abs.types) := by
  have hi := h.map
  unfold segment
  simp only [runs_bind, runs_pure]
  refine (forInfo_runs E t c w hi).mono ?_ ?_
  · rintro it c' w' ⟨rfl, rfl, n, hr, ht⟩
    exact ⟨rfl, rfl, (SegRef.inStep_iff E hi).2 ⟨n, hr.use E, ht⟩, ht ▸ mem_types hr.mem⟩
  · rintro e c' w' ⟨rfl, rfl, he, hn⟩
    exact ⟨rfl, rfl, he, types_of_nodes hn⟩

/-- There is a segment for type 0, and an object with an iterator to it; no segment for type 3. -/
example (k : Kind) : ((Sample.d2 k).1 0).Possible Sample.E0 k (Sample.d2 k).2 ∧
    (match segment Sample.E0 0 ((Sample.d2 k).1 0) (Sample.d2 k).2 with | .ok d _ _ => d == Sample.ref k | _ => false) = true ∧
    (match segment Sample.E0 6 ((Sample.d2 k).1 0) (Sample.d2 k).2 with | .exc e _ _ => e == .unregistered 3 | _ => false) = true :=
  ⟨Sample.d2_possible k, by cases k <;> decide +kernel, by cases k <;> decide +kernel⟩

/-- **C89**, the objects met by `segment_traversal()`: one for each registered type, in the order of the types. -/
theorem C89_traversal {c : Coll V} {w : World} (h : c.Possible E k w) :
    ∃ l, c.segRefs E = some l ∧ l.length = c.abs.types.length ∧
      ∀ (i : Nat) (d : SegRef) (u : Ty), l[i]? = some d → c.abs.types[i]? = some u → d.InStep E c u := by
  have hi := h.map
  refine ⟨_, SegRef.segRefs_eq E hi, by simp [Coll.abs, TMap.abs_types], ?_⟩
  intro i d u hd hu
  simp only [Coll.abs, TMap.abs_types, List.getElem?_map] at hd hu
  obtain ⟨n, h1, rfl⟩ := Option.map_eq_some_iff.1 hd
  obtain ⟨n', h2, rfl⟩ := Option.map_eq_some_iff.1 hu
  cases h1.symm.trans h2
  exact (SegRef.inStep_iff E hi).2 ⟨n, (TMap.ref_itTo (List.mem_of_getElem? h1)).use E, rfl⟩

example (k : Kind) : ((Sample.d2 k).1 0).Possible Sample.E0 k (Sample.d2 k).2 ∧ (((Sample.d2 k).1 0).segRefs Sample.E0).map (·[1]?) = some (some (Sample.ref k)) ∧
    ((Sample.d2 k).1 0).abs.types = [1, 0] :=
  ⟨Sample.d2_possible k, by cases k <;> decide +kernel, by cases k <;> decide +kernel⟩

/-- The object of the examples. -/
theorem ref_inStep (k : Kind) : (Sample.ref k).InStep Sample.E0 ((Sample.d2 k).1 0) 0 := by
  refine (SegRef.inStep_iff _ (Sample.d2_possible k).map).2 ?_
  have h : ((((Sample.d2 k).1 0).map.node? Sample.E0 (Sample.ref k).it).map (·.seg.ty)) = some 0 := by cases k <;> decide +kernel
  obtain ⟨n, h1, h2⟩ := Option.map_eq_some_iff.1 h
  exact ⟨n, SegRef.use_of_node? _ h1, h2⟩

/-- **C89.**  An object describing a segment of a collection that has been kept describes the segment as it is at any later time:
whatever the program did in between, and whatever failed, and in the collection that has the segment then.  Missing: rehashing
must not have invalidated the iterators of the map. -/
theorem C89_kept_partial {sub : Ty → TI} (hsub : ∀ t, E.tiTy (sub t) = t) {s s' : Sys V} {w w' : World} {x y : Nat}
    (h : Reach E k sub (Coll.Arg.OK E) s w) {d : SegRef} {u : Ty} (hd : d.InStep E (s x) u) (hp : Path E k sub s w x s' w' y)
    (hr : E.strictRehash = false ∨ (s' y).map.gen = (s x).map.gen) : d.InStep E (s' y) u ∧ d.typeInfo E (s' y) = d.typeInfo E (s x) := by
  have hs := reach_inv E hsub h
  obtain ⟨hs', hc⟩ := SegRef.path_carried E hsub hs hp
  have hi := (hs.1 x).2
  have hi' := (hs'.1 y).2
  rw [← (hs.1 x).1] at hi
  rw [← (hs'.1 y).1] at hi'
  obtain ⟨n, hu, rfl⟩ := (SegRef.inStep_iff E hi).1 hd
  obtain ⟨n', hn', h1, h2⟩ := hc.nodes n hu.mem
  have hu' : (s' y).map.Use E d.it n' := by
    refine ⟨hn', by rw [h1]; exact hu.node, ?_⟩
    rcases hr with hr | hr
    · simp [TMap.usable, hr]
    · have := hu.usable
      simpa only [TMap.usable, hr] using this
  refine ⟨(SegRef.inStep_iff E hi').2 ⟨n', hu', by rw [hi'.ty n' hn', hi.ty n hu.mem, h2]⟩, ?_⟩
  simp only [SegRef.typeInfo, hu.node? E hi.ids, hu'.node? E hi'.ids, Option.map_some, h2]

/-- Elements are created, an insertion fails, the collection is swapped and moved: the object then tells the positions of three
elements in another collection. -/
example (k : Kind) : Reach Sample.E0 k (fun t => 2 * t) (Coll.Arg.OK Sample.E0) (Sample.d2 k).1 (Sample.d2 k).2 ∧
    (Sample.ref k).InStep Sample.E0 ((Sample.d2 k).1 0) 0 ∧
    Path Sample.E0 k (fun t => 2 * t) (Sample.d2 k).1 (Sample.d2 k).2 0 (Sample.d7 k).1 (Sample.d7 k).2 2 ∧
    ((Sample.d7 k).1 2).map.gen = ((Sample.d2 k).1 0).map.gen ∧
    ((Sample.d2 k).1 0).abs = [⟨1, []⟩, ⟨0, [5]⟩] ∧ ((Sample.d7 k).1 2).abs = [⟨1, []⟩, ⟨0, [5, 8, 9]⟩] :=
  ⟨Sample.d2_reach k, ref_inStep k, Sample.d_path k, by cases k <;> decide +kernel, by cases k <;> decide +kernel, by cases k <;> decide +kernel⟩

/-- **C89**, if no type was registered in between. -/
theorem C89_registered {sub : Ty → TI} (hsub : ∀ t, E.tiTy (sub t) = t) {s s' : Sys V} {w w' : World} {x y : Nat}
    (h : Reach E k sub (Coll.Arg.OK E) s w) {d : SegRef} {u : Ty} (hd : d.InStep E (s x) u) (hp : Path E k sub s w x s' w' y)
    (hr : ∀ t ∈ (s' y).abs.types, t ∈ (s x).abs.types) : d.InStep E (s' y) u ∧ d.typeInfo E (s' y) = d.typeInfo E (s x) := by
  refine C89_kept_partial hsub h hd hp (.inr ?_)
  rcases (SegRef.path_carried E hsub (reach_inv E hsub h) hp).2.gen with e | ⟨t, h1, h2⟩
  · exact e
  · exact absurd (hr t h1) h2

example (k : Kind) : Path Sample.E0 k (fun t => 2 * t) (Sample.d2 k).1 (Sample.d2 k).2 0 (Sample.d7 k).1 (Sample.d7 k).2 2 ∧
    ∀ t ∈ ((Sample.d7 k).1 2).abs.types, t ∈ ((Sample.d2 k).1 0).abs.types :=
  ⟨Sample.d_path k, by cases k <;> decide +kernel⟩

/-- **C89 fails** if the map has been rehashed and this invalidates its iterators, as the standard has it: nothing may be asked of
the objects from before, from then on. -/
theorem C89_rehash {sub : Ty → TI} (hsub : ∀ t, E.tiTy (sub t) = t) {s s' s'' : Sys V} {w w' w'' : World} {x y z : Nat}
    (h : Reach E k sub (Coll.Arg.OK E) s w) {d : SegRef} {u : Ty} (hd : d.InStep E (s x) u) (hp : Path E k sub s w x s' w' y)
    (hs : E.strictRehash = true) (hr : (s' y).map.gen ≠ (s x).map.gen) (hp' : Path E k sub s' w' y s'' w'' z) : d.Dead E (s'' z) := by
  have hi := reach_inv E hsub h
  obtain ⟨hi', hc⟩ := SegRef.path_carried E hsub hi hp
  obtain ⟨-, hc'⟩ := SegRef.path_carried E hsub hi' hp'
  have hm := (hi.1 x).2
  rw [← (hi.1 x).1] at hm
  obtain ⟨n, hu, -⟩ := (SegRef.inStep_iff E hm).1 hd
  have h1 := hu.usable
  have h2 := hc.next
  have h3 := hc'.next
  refine SegRef.dead_of_none E ?_
  simp only [TMap.usable, hs, Bool.not_true, Bool.false_or, beq_iff_eq] at h1
  have : ¬ d.it.gen = (s'' z).map.gen := by omega
  simp [TMap.node?, TMap.usable, hs, this]

/-- Registering a third type: the object from before may not be asked for the type of the segment, nor for its ends. -/
theorem C89_rehash_witness (k : Kind) : ∃ (s s' : Sys Nat) (w w' : World) (x : Nat) (d : SegRef),
    Reach Sample.E0 k (fun t => 2 * t) (Coll.Arg.OK Sample.E0) s w ∧ d.InStep Sample.E0 (s x) 0 ∧
    (Op.on x (.registerTypes [6])).run Sample.E0 k (fun t => 2 * t) s w = .ok () s' w' ∧ 0 ∈ (s' x).abs.types ∧ d.Dead Sample.E0 (s' x) := by
  have h : ((Sample.next k (Sample.d2 k) (.on 0 (.registerTypes [6]))).1 0).map.node? Sample.E0 (Sample.ref k).it = none := by
    have : (((Sample.next k (Sample.d2 k) (.on 0 (.registerTypes [6]))).1 0).map.node? Sample.E0 (Sample.ref k).it).isNone = true := by
      cases k <;> decide +kernel
    simpa using this
  exact ⟨_, _, _, _, 0, Sample.ref k, Sample.d2_reach k, ref_inStep k, Sample.next_ok (p := Sample.d2 k) (by cases k <;> decide +kernel),
    by cases k <;> decide +kernel, SegRef.dead_of_none _ h⟩

example (k : Kind) : Path Sample.E0 k (fun t => 2 * t) (Sample.d2 k).1 (Sample.d2 k).2 0 (Sample.d8 k).1 (Sample.d8 k).2 2 ∧
    Sample.E0.strictRehash = true ∧ ((Sample.d8 k).1 2).map.gen ≠ ((Sample.d2 k).1 0).map.gen :=
  ⟨.ok (.on 2 (.registerTypes [6])) (Sample.d_path k) (by simp [Op.args, COp.args])
    (Sample.next_ok (p := Sample.d7 k) (by cases k <;> decide +kernel)) (.stay id), rfl, by cases k <;> decide +kernel⟩

/-- **C89**, what the object is good for: in a sound collection, the loop from `begin()` to `end()` of the object meets the
elements of that type, as they are now, and `begin<T>()` and `end<T>()` are the ends of the segment. -/
theorem C89_elements {c : Coll V} {w : World} (h : c.Reachable E k w) {d : SegRef} {u : Ty} (hd : d.InStep E c u) :
    ∃ first last, d.begin E c = some first ∧ d.end E c = some last ∧ c.LAtB E first u 0 ∧ c.LAtB E last u (c.abs.elemsOf u).length ∧
      (∃ s, c.collectLocal E first last = some (s, c.abs.elemsOf u)) ∧
      ∃ first' last', d.beginT E c = some first' ∧ d.endT E c = some last' ∧ c.LAtL E first' u 0 ∧ c.LAtL E last' u (c.abs.elemsOf u).length := by
  have hm := h.map
  obtain ⟨n, hu, rfl⟩ := (SegRef.inStep_iff E hm).1 hd
  have hn := hu.node? E hm.ids
  have hel := (Ens.refl E hm hu.mem).elems E hm
  have hsz : n.seg.size = n.seg.elems.length := rfl
  have hb : d.begin E c = some ⟨d.it, n.seg.begin⟩ := by simp only [SegRef.begin, hn, Option.map_some]
  have he : d.end E c = some ⟨d.it, n.seg.end⟩ := by simp only [SegRef.end, hn, Option.map_some]
  have hl : c.LAtB E ⟨d.it, n.seg.begin⟩ n.seg.ty 0 := ⟨n, hu, rfl, Nat.zero_le _, (Seg.base_zero _).symm⟩
  have hl' : c.LAtB E ⟨d.it, n.seg.end⟩ n.seg.ty n.seg.elems.length := ⟨n, hu, rfl, Nat.le_of_eq hsz.symm, Seg.end_eq _⟩
  obtain ⟨f', h1, h2⟩ := toLocal_at E (h.inv.core E) hl
  obtain ⟨l', h3, h4⟩ := toLocal_at E (h.inv.core E) hl'
  rw [← hel]
  refine ⟨_, _, hb, he, hl, hl', ⟨n.seg, ?_⟩, f', l', ?_, ?_, h2, h4⟩
  · unfold collectLocal
    simp only [hn]
    rw [← Seg.base_zero, Seg.end_eq, localWalk_base E ((h.inv.core E).mem.segs n hu.mem) n.seg.size 0 _ _ (by simp) (Nat.le_refl _) (by omega)]
    simp [hsz]
  · simp only [SegRef.beginT, hb, Option.bind_some, h1]
  · simp only [SegRef.endT, he, Option.bind_some, h3]

/-- The segment for type 0 of `c0`. -/
example (k : Kind) : ∃ d : SegRef, d.InStep Sample.E0 (Sample.c0 k) 0 ∧ (Sample.c0 k).Reachable Sample.E0 k (Sample.w0 k) ∧
    (Sample.c0 k).abs.elemsOf 0 = [1, 2, 3] := by
  obtain ⟨l, -, hl, h⟩ := C89_traversal (Sample.reach0 k).possible
  have hlen : (Sample.c0 k).abs.types.length = 4 := by cases k <;> decide +kernel
  obtain ⟨d, hd⟩ : ∃ d, l[1]? = some d := ⟨l[1], List.getElem?_eq_getElem (by omega)⟩
  exact ⟨d, h 1 d 0 hd (by cases k <;> decide +kernel), Sample.reach0 k, by cases k <;> decide +kernel⟩

end PolyColl.Props
