import Verif.Props.SampleRange
import Verif.Lemmas.Survive
import Verif.Props.Registration
/-!
# Properties C22 to C26 and C29: traversal
-/

namespace PolyColl.Props
open PolyColl Prog Coll

variable {V : Type} {E : Env V} {k : Kind}

/-! ### C22 -/

/-- **C22.**  Going from `begin()` to `end()` by `++` and looking at the element at each step meets the
elements of all segments in segment order, each segment's in its order, and ends after `size()`
steps; nothing undefined happens.  (`walk` gives `none` for undefined behaviour and for loops of
`fuel` rounds or more.) -/
theorem C22_traversal {c : Coll V} {w : World} (h : c.Reachable E k w) :
    ∃ it, c.begin E = some it ∧ (∀ fuel, c.size < fuel → c.walk E c.end it fuel = some (c.abs.flatMap Prod.snd)) ∧
      (c.abs.flatMap Prod.snd).length = c.size := by
  obtain ⟨it, h1, h2⟩ := traversed h.inv
  exact ⟨it, h1, fun fuel hf => h2 fuel (by rw [← size_abs]; exact hf), (size_abs c).symm⟩

/-- The same between any two positions, `p` not after `q`. -/
theorem C22_subrange {c : Coll V} {w : World} (h : c.Reachable E k w) {first last : GIter} {p q : Spec.State.Pos} (hf : c.At E first p)
    (hl : c.At E last q) (hpq : c.abs.rank p ≤ c.abs.rank q) (fuel : Nat) (hfuel : c.size < fuel) :
    c.walk E last first fuel = some ((c.abs.flat.drop (c.abs.rank p)).take (c.abs.rank q - c.abs.rank p)) := by
  have hq := Spec.State.rank_le (hl.valid E h.map)
  rw [size_abs] at hfuel
  exact walk_at E h.inv hl (c.abs.rank q - c.abs.rank p) first p fuel hf (by omega) (by omega)

/-- Four segments, one of them empty and not the last. -/
example (k : Kind) : (Sample.c0 k).Reachable Sample.E0 k (Sample.w0 k) ∧ (Sample.c0 k).abs.flatMap Prod.snd = [9, 1, 2, 3, 7] ∧
    (Sample.c0 k).size = 5 ∧ ∃ it, (Sample.c0 k).begin Sample.E0 = some it ∧ (Sample.c0 k).walk Sample.E0 (Sample.c0 k).end it 6 = some [9, 1, 2, 3, 7] := by
  have h := C22_traversal (Sample.reach0 k)
  have hs : (Sample.c0 k).size = 5 := by cases k <;> rfl
  refine ⟨Sample.reach0 k, by rw [Sample.abs0]; rfl, hs, ?_⟩
  obtain ⟨it, h1, h2, -⟩ := h
  exact ⟨it, h1, by rw [h2 6 (by rw [hs]; decide), Sample.abs0]; rfl⟩

/-! ### C23 -/

/-- **C23.**  `size()` is the number of elements, which is the sum of the sizes of the segments;
`size(info)` is the number of elements of that type. -/
theorem C23_size {c : Coll V} {w : World} (h : c.Reachable E k w) :
    c.size = c.abs.flat.length ∧ c.size = (c.abs.map fun p => p.2.length).sum ∧
    ∀ t, Runs (query E Seg.size t) c w
      (fun n c' w' => c' = c ∧ w' = w ∧ E.tiTy t ∈ c.abs.types ∧ n = (c.abs.elemsOf (E.tiTy t)).length)
      (fun e c' w' => c' = c ∧ w' = w ∧ E.tiTy t ∉ c.abs.types ∧ e = .unregistered (E.tiTy t)) := by
  refine ⟨size_abs c, by rw [size_abs]; simp [Spec.State.flat, List.length_flatMap], fun t => ?_⟩
  refine (query_runs E Seg.size t c w h.map).mono ?_ ?_
  · rintro n c' w' ⟨rfl, rfl, m, hm, ht, rfl⟩
    refine ⟨rfl, rfl, ht ▸ mem_types hm, ?_⟩
    rw [← ht, ← (Ens.refl E h.map hm).elems E h.map]
    rfl
  · rintro e c' w' ⟨rfl, rfl, he, ht⟩
    exact ⟨rfl, rfl, ht, he⟩

example (k : Kind) := C23_size (Sample.reach0 k)

/-- **C23**, second part.  `empty()`, `size()==0` and `begin()==end()` are the same; `empty(info)`
tells whether there is no element of that type. -/
theorem C23_empty {c : Coll V} {w : World} (h : c.Reachable E k w) :
    (c.empty = true ↔ c.size = 0) ∧ (∀ it, c.begin E = some it → (c.empty = true ↔ it.segpos = c.end.segpos)) ∧
    ∀ t, Runs (query E Seg.empty t) c w
      (fun b c' w' => c' = c ∧ w' = w ∧ E.tiTy t ∈ c.abs.types ∧ (b = true ↔ c.abs.elemsOf (E.tiTy t) = []))
      (fun e c' w' => c' = c ∧ w' = w ∧ E.tiTy t ∉ c.abs.types ∧ e = .unregistered (E.tiTy t)) := by
  have hfl : c.empty = true ↔ c.abs.flat = [] := by rw [empty_abs, decide_eq_true_iff]
  have hsz : c.empty = true ↔ c.size = 0 := by rw [hfl, size_abs, List.length_eq_zero_iff]
  refine ⟨hsz, fun it hit => ?_, fun t => ?_⟩
  · obtain ⟨it', h1, h2⟩ := begin_at E h.inv
    cases hit.symm.trans h1
    rw [at_eq E (h.inv.core E) h2 (at_end E c), hfl]
    have hr := Spec.State.rank_first h.nodup
    have hv := h2.valid E h.map
    constructor
    · intro he
      cases hf : c.abs.first with
      | none => rfl
      | some q =>
        rw [hf] at hv
        have := Spec.State.at_rank hv
        obtain ⟨t, n⟩ := q
        obtain ⟨l, g1, g2⟩ := hv
        rw [he] at this
        simp [Spec.State.at?, g1, g2] at this
    · intro he
      rw [he] at hr
      simpa [Spec.State.rank] using hr
  · refine (query_runs E Seg.empty t c w h.map).mono ?_ ?_
    · rintro n c' w' ⟨rfl, rfl, m, hm, ht, rfl⟩
      refine ⟨rfl, rfl, ht ▸ mem_types hm, ?_⟩
      rw [← ht, ← (Ens.refl E h.map hm).elems E h.map]
      exact List.isEmpty_iff
    · rintro e c' w' ⟨rfl, rfl, he, ht⟩
      exact ⟨rfl, rfl, ht, he⟩

/-- A collection with an empty segment and others, and one with no segments. -/
example (k : Kind) : (Sample.c0 k).Reachable Sample.E0 k (Sample.w0 k) ∧ (Sample.c0 k).empty = false ∧
    (Sample.c0 k).abs.map (fun p => p.2.length) = [1, 3, 0, 1] ∧ (Sample.c0 k).size = 5 ∧ (Coll.empty' k 0 : Coll Nat).empty = true :=
  ⟨Sample.reach0 k, by cases k <;> rfl, by rw [Sample.abs0]; rfl, by cases k <;> rfl, rfl⟩

/-! ### C24 -/

/-- **C24.**  Iterators are equal, that is, hold the same address, exactly if they denote the same
position: the same element, or both the end. -/
theorem C24_equal {c : Coll V} {w : World} (h : c.Reachable E k w) {a b : GIter} {p q : Spec.State.Pos} (ha : c.At E a p) (hb : c.At E b q) :
    a.segpos = b.segpos ↔ p = q := at_eq E (h.inv.core E) ha hb

/-- **C24**, for local base iterators of one segment, its end included. -/
theorem C24_equal_local_base {c : Coll V} {w : World} (h : c.Reachable E k w) {a b : LIter} {t : Ty} {m n : Nat} (ha : c.LAtB E a t m)
    (hb : c.LAtB E b t n) : a.pos = b.pos ↔ m = n := by
  obtain ⟨x, hx, h1, -, h2⟩ := ha
  obtain ⟨y, hy, h3, -, h4⟩ := hb
  have : x = y := PolyColl.eq_of_nodup (h.map.nodup_ty E) hx.mem hy.mem (h1.trans h3.symm)
  subst this
  rw [h2, h4, Seg.base_inj]

example (k : Kind) := C24_equal_local_base (Sample.reach0 k) (Sample.lbase_at k (n := 1) (by decide)) (Sample.lbase_at k (n := 3) (by decide))

/-- **C24**, for local iterators of one segment, its end included. -/
theorem C24_equal_local {c : Coll V} {w : World} (h : c.Reachable E k w) {a b : LIter} {t : Ty} {m n : Nat} (ha : c.LAtL E a t m)
    (hb : c.LAtL E b t n) : a.pos = b.pos ↔ m = n := by
  obtain ⟨x, hx, h1, -, h2⟩ := ha
  obtain ⟨y, hy, h3, -, h4⟩ := hb
  have : x = y := PolyColl.eq_of_nodup (h.map.nodup_ty E) hx.mem hy.mem (h1.trans h3.symm)
  subst this
  rw [h2, h4]
  simp [Seg.loc, Vec.ptr]

/-- The last element of type 1 and the first of type 0. -/
example (k : Kind) : ∃ a b, (Sample.c0 k).Reachable Sample.E0 k (Sample.w0 k) ∧ (Sample.c0 k).At Sample.E0 a (some (1, 0)) ∧
    (Sample.c0 k).At Sample.E0 b (some (0, 0)) ∧ a.segpos ≠ b.segpos ∧ (Sample.c0 k).At Sample.E0 (Sample.c0 k).end none := by
  obtain ⟨a, ha⟩ := exists_at (Sample.reach0 k).inv (p := some (1, 0)) (by rw [Sample.abs0]; exact ⟨_, rfl, by decide⟩)
  obtain ⟨b, hb⟩ := exists_at (Sample.reach0 k).inv (p := some (0, 0)) (by rw [Sample.abs0]; exact ⟨_, rfl, by decide⟩)
  refine ⟨a, b, Sample.reach0 k, ha, hb, ?_, at_end _ _⟩
  intro he
  exact absurd ((C24_equal (Sample.reach0 k) ha hb).1 he) (by decide)

/-- Two ends of local ranges. -/
example (k : Kind) : ∃ a b a' b', (Sample.c0 k).LAtB Sample.E0 a 0 1 ∧ (Sample.c0 k).LAtB Sample.E0 b 0 3 ∧ (Sample.c0 k).LAtL Sample.E0 a' 0 1 ∧
    (Sample.c0 k).LAtL Sample.E0 b' 0 3 := by
  have ht : (0 : Ty) ∈ (Sample.c0 k).abs.types := by rw [Sample.abs0]; decide
  have hl : ((Sample.c0 k).abs.elemsOf 0).length = 3 := by rw [Sample.abs0]; rfl
  obtain ⟨a, ha⟩ := exists_latB (Sample.reach0 k).inv (n := 1) ht (by omega)
  obtain ⟨b, hb⟩ := exists_latB (Sample.reach0 k).inv (n := 3) ht (by omega)
  obtain ⟨a', ha'⟩ := exists_latL (Sample.reach0 k).inv (n := 1) ht (by omega)
  obtain ⟨b', hb'⟩ := exists_latL (Sample.reach0 k).inv (n := 3) ht (by omega)
  exact ⟨a, b, a', b', ha, hb, ha', hb'⟩

/-! ### C25 -/

/-- **C25.**  Whatever a program does, and whether it throws or not, the segments of a collection that
is not the target of a construction, an assignment or a swap and is not moved from stay in the same
order unless a segment was added. -/
theorem C25_order {sub : Ty → TI} (hsub : ∀ t, E.tiTy (sub t) = t) {s : Sys V} {w : World}
    (h : Reach E k sub (Coll.Arg.OK E) s w) (op : Op V) (ha : ∀ a ∈ op.args, Coll.Arg.OK E a) (i : Nat) (hi : ¬ op.Replaces i) :
    (∀ s' w', op.run E k sub s w = .ok () s' w' → (∀ t ∈ (s' i).abs.types, t ∈ (s i).abs.types) → (s' i).abs.types = (s i).abs.types) ∧
    (∀ e s' w', op.run E k sub s w = .exc e s' w' → (∀ t ∈ (s' i).abs.types, t ∈ (s i).abs.types) → (s' i).abs.types = (s i).abs.types) := by
  have hs := reach_inv E hsub h
  have hst := run_stays E hsub op ha s w hs
  unfold Leaves at hst
  constructor
  · intro s' w' hr hn
    rw [hr] at hst
    rcases (hst i hi).order with he | ⟨t, h1, h2⟩
    · exact he
    · exact absurd (hn t h1) h2
  · intro e s' w' hr hn
    rw [hr] at hst
    rcases (hst i hi).order with he | ⟨t, h1, h2⟩
    · exact he
    · exact absurd (hn t h1) h2

/-- Emplacing an element of type 5 in `c0` adds no segment; emplacing one of type 3 does, and the
map reorders its segments then. -/
example (k : Kind) : ∃ (sub : Ty → TI) (s : Sys Nat) (i : Nat), (∀ t, Sample.E0.tiTy (sub t) = t) ∧
    Reach Sample.E0 k sub (Coll.Arg.OK Sample.E0) s (Sample.w0 k) ∧ s i = Sample.c0 k ∧ (Sample.c0 k).abs.types = [1, 0, 5, 2] ∧
    (∀ t src, ¬ (Op.on i (.emplace t src) : Op Nat).Replaces i) ∧
    (∃ c' w', COp.run Sample.E0 (.emplace 10 (.emplaced 4)) (Sample.c0 k) (Sample.w0 k) = .ok () c' w' ∧ c'.abs.types = [1, 0, 5, 2]) ∧
    ∃ c' w', COp.run Sample.E0 (.emplace 6 (.emplaced 4)) (Sample.c0 k) (Sample.w0 k) = .ok () c' w' ∧ c'.abs.types = [3, 2, 5, 0, 1] := by
  obtain ⟨s, i, j, hij, h1, h2, sub, hsub, hr⟩ := sampleSys k
  refine ⟨sub, s, i, hsub, hr, h1, by rw [Sample.abs0]; rfl, fun _ _ => id, ?_, ?_⟩
  · cases k <;> exact ⟨_, _, rfl, rfl⟩
  · cases k <;> exact ⟨_, _, rfl, rfl⟩

/-! ### C26 -/

/-- **C26.**  `segment_traversal()` visits the registered types, each once, in the order of global
traversal; `begin` and `end` of each segment info are the first position of the segment and the one
past its last element, and going from one to the other meets the elements of the segment. -/
theorem C26_segment_traversal {c : Coll V} {w : World} (h : c.Reachable E k w) :
    ∃ l, c.segTraversal E = some l ∧ (l.map fun i => E.tiTy i.info) = c.abs.types ∧ c.abs.types.Nodup ∧
      ∀ i ∈ l, c.LAtB E i.first (E.tiTy i.info) 0 ∧ c.LAtB E i.last (E.tiTy i.info) (c.abs.elemsOf (E.tiTy i.info)).length ∧
        ∃ s, c.collectLocal E i.first i.last = some (s, c.abs.elemsOf (E.tiTy i.info)) := by
  refine ⟨_, segTraversal_eq E h.map, ?_, h.nodup, ?_⟩
  · rw [List.map_map]
    show c.map.nodes.map _ = _
    simp only [abs_eq, absNodes, Spec.State.types, List.map_map]
    exact List.map_congr_left fun n hn => (h.map.ty n hn).symm
  · intro i hi
    obtain ⟨n, hn, rfl⟩ := List.mem_map.1 hi
    have hel := (Ens.refl E h.map hn).elems E h.map
    have hu : c.map.Use E (c.map.itTo n) n := ⟨hn, rfl, usable_itTo E c.map n⟩
    have hsz : n.seg.size = n.seg.elems.length := rfl
    simp only
    rw [← h.map.ty n hn, ← hel]
    refine ⟨⟨n, hu, rfl, Nat.zero_le _, (Seg.base_zero _).symm⟩, ⟨n, hu, rfl, Nat.le_of_eq hsz.symm, Seg.end_eq _⟩, n.seg, ?_⟩
    unfold collectLocal
    simp only [hu.node? E h.map.ids]
    rw [← Seg.base_zero, Seg.end_eq, localWalk_base E ((h.inv.core E).mem.segs n hn) n.seg.size 0 _ _ (by simp) (Nat.le_refl _) (by omega)]
    simp [hsz]

/-- Four segments, one of them empty. -/
example (k : Kind) : (Sample.c0 k).Reachable Sample.E0 k (Sample.w0 k) ∧
    ((Sample.c0 k).segTraversal Sample.E0).map (·.map fun i => Sample.E0.tiTy i.info) = some [1, 0, 5, 2] :=
  ⟨Sample.reach0 k, by cases k <;> rfl⟩

/-! ### C29 -/

/-- **C29.**  The local base iterator to position `n` of a segment, its end included, converts to the
local iterator to position `n`, and that one back to the local base iterator.  If there is an
element at the position, both give it. -/
theorem C29_base_local {c : Coll V} {w : World} (h : c.Reachable E k w) {t : Ty} {n : Nat} {l : LIter} (hl : c.LAtB E l t n) :
    ∃ l', c.toLocal E l = some l' ∧ c.LAtL E l' t n ∧ c.toBase E l' = some l ∧
      ∀ v, (c.abs.elemsOf t)[n]? = some v → c.map.deref l.pos = some v ∧ c.derefLocal l'.pos = some v := by
  obtain ⟨l', h1, h2⟩ := toLocal_at E (h.inv.core E) hl
  obtain ⟨l2, h3, h4, h5⟩ := toBase_at E (h.inv.core E) h2
  refine ⟨l', h1, h2, ?_, fun v hv => ?_⟩
  · rw [h3]
    obtain ⟨x, hx, g1, -, g2⟩ := hl
    obtain ⟨y, hy, g3, -, g4⟩ := h4
    have : x = y := PolyColl.eq_of_nodup (h.map.nodup_ty E) hx.mem hy.mem (g1.trans g3.symm)
    subst this
    have g5 : l2.mapit = l.mapit := by
      unfold toBase at h3
      unfold toLocal at h1
      rw [hx.node? E h.map.ids] at h1
      simp only at h1
      split at h1
      · cases h1
      · cases h1
        simp only [hx.node? E h.map.ids] at h3
        split at h3
        · cases h3
        · split at h3
          · cases h3; rfl
          · cases h3
    cases l2
    cases l
    simp only at g2 g4 g5
    rw [g2, g4, g5]
  · have hlt : n < (c.abs.elemsOf t).length := by
      obtain ⟨hlt, -⟩ := List.getElem?_eq_some_iff.1 hv
      exact hlt
    exact ⟨by rw [deref_latB (h.inv.core E) hl hlt, hv], by rw [deref_latL (h.inv.core E) h2 hlt, hv]⟩

example (k : Kind) := C29_base_local (Sample.reach0 k) (Sample.lbase_at k (n := 1) (by decide))

/-- **C29**, starting from a local iterator. -/
theorem C29_local_base {c : Coll V} {w : World} (h : c.Reachable E k w) {t : Ty} {n : Nat} {l : LIter} (hl : c.LAtL E l t n) :
    ∃ l', c.toBase E l = some l' ∧ c.LAtB E l' t n ∧ c.toLocal E l' = some l ∧
      ∀ v, (c.abs.elemsOf t)[n]? = some v → c.map.deref l'.pos = some v ∧ c.derefLocal l.pos = some v := by
  obtain ⟨l', h1, h2, h3⟩ := toBase_at E (h.inv.core E) hl
  refine ⟨l', h1, h2, h3, fun v hv => ?_⟩
  have hlt : n < (c.abs.elemsOf t).length := by
    obtain ⟨hlt, -⟩ := List.getElem?_eq_some_iff.1 hv
    exact hlt
  exact ⟨by rw [deref_latB (h.inv.core E) h2 hlt, hv], by rw [deref_latL (h.inv.core E) hl hlt, hv]⟩

/-- The end of the segment of type 0 and its second element. -/
example (k : Kind) : ∃ a b, (Sample.c0 k).Reachable Sample.E0 k (Sample.w0 k) ∧ (Sample.c0 k).LAtB Sample.E0 a 0 3 ∧
    (Sample.c0 k).LAtL Sample.E0 b 0 1 ∧ ((Sample.c0 k).abs.elemsOf 0)[1]? = some 2 := by
  have ht : (0 : Ty) ∈ (Sample.c0 k).abs.types := by rw [Sample.abs0]; decide
  have hl : ((Sample.c0 k).abs.elemsOf 0).length = 3 := by rw [Sample.abs0]; rfl
  obtain ⟨a, ha⟩ := exists_latB (Sample.reach0 k).inv (n := 3) ht (by omega)
  obtain ⟨b, hb⟩ := exists_latL (Sample.reach0 k).inv (n := 1) ht (by omega)
  exact ⟨a, b, Sample.reach0 k, ha, hb, by rw [Sample.abs0]; rfl⟩

end PolyColl.Props
