import Verif.Props.SampleRange
import Verif.Lemmas.Room
import Verif.Props.SampleData
import Verif.Props.SampleFail
/-!
# Properties C30 to C32: capacity

`SameBuffer c t m c'`: the elements of segment `t` are in the buffer they were in, whose capacity is
what it was, and there are `m` more of them.
-/

namespace PolyColl.Props
open PolyColl Prog Coll

variable {V : Type} {E : Env V} {k : Kind}

/-- `capacity(t)` is at least `n`. -/
def CapacityAtLeast (c : Coll V) (t : Ty) (n : Nat) : Prop := ∀ x ∈ c.map.nodes, x.seg.ty = t → n ≤ x.seg.capacity

/-- `capacity(t)` is `n`. -/
def CapacityIs (c : Coll V) (t : Ty) (n : Nat) : Prop := t ∈ c.abs.types ∧ ∀ x ∈ c.map.nodes, x.seg.ty = t → x.seg.capacity = n

/-! ### C30 -/

theorem seg_unique {c : Coll V} {w : World} (h : c.map.Inv E c.kind w) {a b : Node V} (ha : a ∈ c.map.nodes) (hb : b ∈ c.map.nodes)
    (hab : a.seg.ty = b.seg.ty) : a = b := PolyColl.eq_of_nodup (f := fun n : Node V => n.seg.ty) (TMap.Inv.nodup_ty E h) ha hb hab

/-- `capacity(info)` reports the capacity and changes nothing. -/
theorem C30_capacity {c : Coll V} {w : World} (h : c.Reachable E k w) (t : TI) :
    Runs (query E Seg.capacity t) c w
      (fun n c' w' => c' = c ∧ w' = w ∧ CapacityIs c (E.tiTy t) n)
      (fun e c' _ => c' = c ∧ e = .unregistered (E.tiTy t) ∧ E.tiTy t ∉ c.abs.types) := by
  refine (query_runs E Seg.capacity t c w h.map).mono ?_ ?_
  · rintro _ c' w' ⟨rfl, rfl, n, hn, ht, rfl⟩
    exact ⟨rfl, rfl, ht ▸ mem_types hn, fun x hx hxt => by rw [seg_unique h.map hx hn (hxt.trans ht.symm)]⟩
  · rintro e c' w' ⟨rfl, rfl, rfl, ht⟩
    exact ⟨rfl, rfl, ht⟩

example (k : Kind) := C30_capacity (Sample.reach0 k) 1

/-- **C30**, `reserve(info,n)`.  On success the capacity is at least `n` and no smaller than it was, and no
element has changed; the request was not for more than `max_size()`.  On failure nothing has
changed in a `base_collection`; in the other collections all elements are where they were.

Missing: in `any_collection` and `function_collection` a failed request may leave the collection
unusable all the same, see `C30_reserve_too_much` and `C16_traversal_after_reserve`. -/
theorem C30_reserve_info_partial {c : Coll V} {w : World} (h : c.Reachable E k w) (t : TI) (n : Nat) :
    Runs (reserveInfo E t n) c w
      (fun _ c' w' => c'.Reachable E k w' ∧ c'.abs = c.abs ∧ CapacityAtLeast c' (E.tiTy t) n ∧
        (∀ m, CapacityIs c (E.tiTy t) m → CapacityAtLeast c' (E.tiTy t) m) ∧ n ≤ E.maxSize (E.tiTy t) ∧
        (CapacityAtLeast c (E.tiTy t) n → SameBuffer c (E.tiTy t) 0 c'))
      (fun e c' _ => c'.abs = c.abs ∧ (∀ u, SameBuffer c u 0 c') ∧ (k = .packed → c' = c) ∧
        (e = .unregistered (E.tiTy t) ∧ E.tiTy t ∉ c.abs.types ∨
          ExcFrom E (E.tiTy t) False (E.maxSize (E.tiTy t) < n ∨ k = .split ∧ E.idxMaxSize < n + 1) e)) := by
  refine (h.runsU (.reserveInfo t n) trivial rfl (reserveInfo_runs E t n c w h.inv)).mono ?_ ?_
  · rintro _ c' w' ⟨hr, -, -, habs, -, m, hm, hmt, s, rfl, hs⟩
    have key : ∀ x ∈ (c.put m s).map.nodes, x.seg.ty = E.tiTy t → x.seg = s := by
      intro x hx hxt
      rw [seg_unique hr.map hx (TMap.put_mem hm) (hxt.trans (hmt.symm.trans hs.ty.symm))]
    refine ⟨hr, habs, fun x hx hxt => ?_, fun j hj x hx hxt => ?_, hmt ▸ hs.max, fun hcap x hx hxt => ?_⟩
    · rw [key x hx hxt]; exact hs.cap
    · rw [key x hx hxt, ← hj.2 m hm hmt]; exact hs.mono
    · have : x = m := seg_unique h.map hx hm (hxt.trans hmt.symm)
      subst this
      have hsm := hs.same (hcap x hx hxt)
      exact ⟨_, TMap.put_mem hx, hs.ty.trans hxt, hsm.1, hsm.2, congrArg List.length hs.elems⟩
  · rintro e c' w' (⟨rfl, rfl, rfl, ht⟩ | ⟨-, -, habs, hp, m, hm, hmt, s, rfl, hs⟩)
    · exact ⟨rfl, fun u => SameBuffer.refl _ u, fun _ => rfl, Or.inl ⟨rfl, ht⟩⟩
    · refine ⟨habs, fun u => put_store h.map hm hs.ty hs.store u, fun hk => hp (h.kind.trans hk), Or.inr ?_⟩
      have := hs.exc
      rw [hmt, h.map.kind m hm, h.kind] at this
      exact this

example (k : Kind) := C30_reserve_info_partial (Sample.reach0 k) 1 20

/-- **C30**, `reserve(n)`: the same for all segments.  Missing: as above. -/
theorem C30_reserve_all_partial {c : Coll V} {w : World} (h : c.Reachable E k w) (n : Nat) :
    Runs (reserveAll E n) c w
      (fun _ c' w' => c'.Reachable E k w' ∧ c'.abs = c.abs ∧ ∀ t ∈ c.abs.types, CapacityAtLeast c' t n ∧
        (∀ m, CapacityIs c t m → CapacityAtLeast c' t m) ∧ n ≤ E.maxSize t ∧ (CapacityAtLeast c t n → SameBuffer c t 0 c'))
      (fun e c' w' => c'.abs = c.abs ∧ (k = .packed → c'.Reachable E k w') ∧
        ∃ t ∈ c.abs.types, ExcFrom E t False (E.maxSize t < n ∨ k = .split ∧ E.idxMaxSize < n + 1) e) := by
  refine ((h.runsU (.reserveAll n) trivial rfl (reserveAll_runs E n c w h.inv)).withEq).mono ?_ ?_
  · rintro _ c' w' ⟨⟨hr, -, -, hu, habs⟩, -⟩
    refine ⟨hr, habs, fun t ht => ⟨fun x hx hxt => ?_, fun j hj x hx hxt => ?_, ?_, fun hcap x hx hxt => ?_⟩⟩
    · obtain ⟨y, hy, -, -, hs⟩ := hu.nodes.mem hx
      exact hs.cap
    · obtain ⟨y, hy, -, -, hs⟩ := hu.nodes.mem hx
      rw [← hj.2 y hy (hs.ty.symm.trans hxt)]
      exact hs.mono
    · obtain ⟨y, hy, rfl⟩ := types_mem ht
      obtain ⟨x, hx, -, -, hs⟩ := hu.nodes.mem' hy
      exact hs.max
    · obtain ⟨y, hy, -, -, hs⟩ := hu.nodes.mem' hx
      have hsm := hs.same (hcap x hx hxt)
      exact ⟨y, hy, hs.ty.trans hxt, hsm.1, hsm.2, congrArg List.length hs.elems⟩
  · rintro e c' w' ⟨⟨-, -, -, -, ⟨a, m, b, a', s, h1, h2, -, hs⟩, habs, hp⟩, heq⟩
    have hm : m ∈ c.map.nodes := by rw [h1]; simp
    refine ⟨habs, fun hk => h.stepExc (.reserveAll n) trivial (h.kind.trans hk) heq, m.seg.ty, mem_types hm, ?_⟩
    have := hs.exc
    rw [h.map.kind m hm, h.kind] at this
    exact this

example (k : Kind) := C30_reserve_all_partial (Sample.reach0 k) 20

/-- **C30**, `reserve<T>(n)`: creates the segment if there is none.  Missing: as above. -/
theorem C30_reserve_type_partial {c : Coll V} {w : World} (h : c.Reachable E k w) (t : TI) (n : Nat) :
    Runs (reserveT E t n) c w
      (fun _ c' w' => c'.Reachable E k w' ∧ Spec.State.Ensure (E.tiTy t) c.abs c'.abs ∧ CapacityAtLeast c' (E.tiTy t) n ∧
        n ≤ E.maxSize (E.tiTy t))
      (fun e c' w' => (c'.abs = c.abs ∨ Spec.State.Ensure (E.tiTy t) c.abs c'.abs) ∧ (k = .packed → c'.Reachable E k w') ∧
        ExcFrom E (E.tiTy t) False (E.TooMany (E.tiTy t) 1 ∨ E.maxSize (E.tiTy t) < n ∨ k = .split ∧ E.idxMaxSize < n + 1) e) := by
  refine ((h.runsU (.reserveT t n) trivial rfl (reserveT_runs E t n c w h.inv)).withEq).mono ?_ ?_
  · rintro _ c' w' ⟨⟨hr, m, d, w1, s, hens, rfl, -, -, habs, hs⟩, -⟩
    refine ⟨hr, habs ▸ hens.abs E h.map, fun x hx hxt => ?_, hens.ty ▸ hs.max⟩
    rw [seg_unique hr.map hx (TMap.put_mem (hens.mem E)) (hxt.trans (hens.ty.symm.trans hs.ty.symm))]
    exact hs.cap
  · rintro e c' w' ⟨hf | ⟨m, d, w1, s, hens, rfl, -, -, habs, hs, hp⟩, heq⟩
    · refine ⟨?_, fun hk => h.stepExc (.reserveT t n) trivial (h.kind.trans hk) heq, hf.exc.mono id Or.inl⟩
      rcases hf.nodes with hn | ⟨m, hn⟩
      · exact Or.inl (by simp [Coll.abs, TMap.abs, hn.nodes])
      · exact Or.inr (hn.abs E h.map)
    · refine ⟨Or.inr (habs ▸ hens.abs E h.map), fun hk => h.stepExc (.reserveT t n) trivial (h.kind.trans hk) heq, ?_⟩
      have := hs.exc.mono (c' := False) id (Or.inr (a := E.TooMany m.seg.ty 1))
      rw [hens.ty, hens.inv.kind m (hens.mem E), hens.kind, h.kind] at this
      exact this

example (k : Kind) := C30_reserve_type_partial (Sample.reach0 k) 7 20

/-- **C30**, `max_size(info)`: a request for more elements than that is refused, and a request for no more is
not refused as being for too many (in the segments with an index: if the index could be that large).

Missing: in `any_collection` and `function_collection` a request for one more element than
`max_size(info)` is also granted, see `C30_max_size_exceeded`. -/
theorem C30_max_size_partial {c : Coll V} {w : World} (h : c.Reachable E k w) (t : TI) :
    Runs (query E (Seg.maxSize E) t) c w
      (fun n c' w' => c' = c ∧ w' = w ∧ E.tiTy t ∈ c.abs.types ∧ ∀ m,
        (n + (if k = .split then 1 else 0) < m → Runs (reserveInfo E t m) c w (fun _ _ _ => False) fun _ _ _ => True) ∧
        (m ≤ n → (k = .split → m < E.idxMaxSize) → Runs (reserveInfo E t m) c w (fun _ _ _ => True) fun e _ _ => e ≠ .lengthError))
      (fun e c' _ => c' = c ∧ e = .unregistered (E.tiTy t) ∧ E.tiTy t ∉ c.abs.types) := by
  refine (query_runs E (Seg.maxSize E) t c w h.map).mono ?_ ?_
  · rintro _ c' w' ⟨rfl, rfl, n, hn, ht, rfl⟩
    refine ⟨rfl, rfl, ht ▸ mem_types hn, fun m => ?_⟩
    have hk : n.seg.kind = k := (h.map.kind n hn).trans h.kind
    have hle : Seg.maxSize E n.seg ≤ E.maxSize (E.tiTy t) ∧
        E.maxSize (E.tiTy t) ≤ Seg.maxSize E n.seg + (if k = .split then 1 else 0) := by
      rw [← ht]
      subst hk
      cases hb : n.seg.be <;> simp only [Seg.maxSize, Seg.kind, Seg.ty, Backend.kind, Backend.ty, hb] <;> simp <;> omega
    refine ⟨fun hm => (C30_reserve_info_partial h t m).mono (fun _ _ _ hr => ?_) fun _ _ _ _ => trivial,
      fun hm hi => (C30_reserve_info_partial h t m).mono (fun _ _ _ _ => trivial) fun e c' _ hr he => ?_⟩
    · have := hr.2.2.2.2.1; omega
    · subst he
      rcases hr.2.2.2 with hr | hr
      · exact absurd hr.1 (by simp)
      · simp only [ExcFrom, reduceCtorEq, false_and, true_and, false_or, or_false] at hr
        rcases hr with hr | ⟨hs, hr⟩
        · omega
        · have := hi hs; omega
  · rintro e c' w' ⟨rfl, rfl, rfl, ht⟩
    exact ⟨rfl, rfl, ht⟩

example (k : Kind) := C30_max_size_partial (Sample.reach0 k) 1

/-- **C30 fails** for `any_collection` and `function_collection`: a segment can have more elements than
`max_size()`. -/
theorem C30_max_size_exceeded :
    ∃ (E : Env Nat) (c : Coll Nat) (w : World), c.Reachable E .split w ∧ c.abs = [(0, [5, 6])] ∧
      query E (Seg.maxSize E) 0 c w = .ok 1 c w :=
  ⟨Sample.E4, Sample.wmxc2, _, Sample.wmxreach.left, rfl, rfl⟩

/-- Room for a hundred elements in a segment of an `any_collection` with two; a new segment. -/
example (k : Kind) : (Sample.c2 k).Reachable Sample.E0 k (Sample.w2 k) ∧ (Sample.c2 k).abs = [(0, [5, 6])] ∧
    Sample.E0.tiTy 0 = 0 ∧ Sample.E0.tiTy 6 = 3 := ⟨Sample.reach2 k, Sample.abs2 k, rfl, rfl⟩

/-- **C30 fails** for `any_collection` and `function_collection`: `reserve` of more elements than `max_size()`
throws `length_error`, but only after the index has been moved.  After that, `it!=c.end()` never
becomes false and a loop over the only element runs past it. -/
theorem C30_reserve_too_much :
    ∃ (E : Env Nat) (c c' : Coll Nat) (w w' : World) (it : GIter), (∀ n, E.fault n = false) ∧ c.Reachable E .split w ∧
      E.maxSize 0 < 2000 ∧ reserveT E 0 2000 c w = .exc .lengthError c' w' ∧ c'.abs = [(0, [5])] ∧ c'.begin E = some it ∧
      ∀ fuel, c'.walk E c'.end it fuel = none := by
  refine ⟨Sample.E3, Sample.w30c1, Sample.w30x, _, _, _, fun _ => rfl, Sample.w30reach.left, by decide, Sample.w30exc, rfl, rfl, ?_⟩
  intro fuel
  rcases fuel with _ | _ | fuel <;> rfl

/-- A program that adds `m` elements to segment `t`, one at a time, and may do anything else in between
that does not concern segment `t`. -/
inductive Fill (E : Env V) (t : Ty) (c : Coll V) (w : World) : Nat → Coll V → World → Prop where
  | nil : Fill E t c w 0 c w
  | insert {m : Nat} {d c' : Coll V} {w1 w' : World} (h : Fill E t c w m d w1) {op : COp V} {n : Nat} {src : Src V} {v : V}
      (hop : op.Inserts E d t n src) (hs : d.SrcFor t src v) (hr : op.run E d w1 = .ok () c' w') : Fill E t c w (m + 1) c' w'
  | other {m : Nat} {d c' : Coll V} {w1 w' : World} (h : Fill E t c w m d w1) {op : COp V}
      (hp : op.Pre E d) (ht : ¬ op.Touches E d t) (hr : op.run E d w1 = .ok () c' w') : Fill E t c w m c' w'

/-- **C30**, after `reserve`: as long as the number of elements does not exceed the capacity, adding
elements does not move the segment's elements. -/
theorem C30_no_reallocation {c c' : Coll V} {w w' : World} (h : c.Reachable E k w) {t : Ty} (ht : t ∈ c.abs.types) {m : Nat}
    (hroom : CapacityAtLeast c t ((c.abs.elemsOf t).length + m)) (hf : Fill E t c w m c' w') :
    c'.Reachable E k w' ∧ SameBuffer c t m c' := by
  suffices c'.Reachable E k w' ∧ t ∈ c'.abs.types ∧ SameBuffer c t m c' from ⟨this.1, this.2.2⟩
  obtain ⟨a, ha, hat⟩ := types_mem ht
  have hla : a.seg.size = (c.abs.elemsOf t).length := by
    rw [Seg.size_eq, (Ens.refl E h.map ha).elems E h.map, hat]
  induction hf with
  | nil => exact ⟨h, ht, SameBuffer.refl _ _⟩
  | @insert m d c' w1 w' hf op n src v hop hs hr ih =>
    obtain ⟨hd, htd, hb⟩ := ih (fun x hx hxt => by have := hroom x hx hxt; omega)
    have hi := (runs_ok (inserts_runs hd.inv hop hs) hr).1
    obtain ⟨b, hb1, hb2, hb3, hb4, hb5⟩ := hb a ha hat
    have := hroom a ha hat
    refine ⟨hd.step op (inserts_pre hop hs) hr, ((hi.put E hd.map).types t).2 (Or.inl htd), hb.trans (hi.sameBuffer hd.map htd ?_)⟩
    intro x hx hxt
    rw [seg_unique hd.map hx hb1 (hxt.trans hb2.symm)]
    simp only [List.length_singleton]
    omega
  | @other m d c' w1 w' hf op hp hnt hr ih =>
    obtain ⟨hd, htd, hb⟩ := ih hroom
    have hsp := runs_ok (op_spares op d w1 hd.inv hp t hnt) hr
    exact ⟨hd.step op hp hr, hsp.types t htd, hb.trans hsp.sameBuffer⟩

/-- Room for four elements, two of which are there; two are added with a registration in between. -/
example (k : Kind) : ∃ c' w', CapacityAtLeast (Sample.c2 k) 0 (((Sample.c2 k).abs.elemsOf 0).length + 2) ∧
    Fill Sample.E0 0 (Sample.c2 k) (Sample.w2 k) 2 c' w' := by
  have hc : CapacityAtLeast (Sample.c2 k) 0 (((Sample.c2 k).abs.elemsOf 0).length + 2) := fun x hx _ => by
    rw [Sample.abs2]
    exact Nat.le_of_eq (Sample.room2 k x hx).2.symm
  cases k
  · exact ⟨Sample.prc6, _, hc, .insert (.other (.insert .nil (op := .emplace 0 (.emplaced 7)) ⟨rfl, rfl, rfl⟩ (Or.inl ⟨rfl, rfl⟩) Sample.prstep4)
      (op := .registerTypes [4]) trivial id Sample.prstep5) (op := .emplace 0 (.emplaced 8)) ⟨rfl, rfl, rfl⟩ (Or.inl ⟨rfl, rfl⟩) Sample.prstep6⟩
  · exact ⟨Sample.src6, _, hc, .insert (.other (.insert .nil (op := .emplace 0 (.emplaced 7)) ⟨rfl, rfl, rfl⟩ (Or.inl ⟨rfl, rfl⟩) Sample.srstep4)
      (op := .registerTypes [4]) trivial id Sample.srstep5) (op := .emplace 0 (.emplaced 8)) ⟨rfl, rfl, rfl⟩ (Or.inl ⟨rfl, rfl⟩) Sample.srstep6⟩

/-! ### C31 -/

/-- How the capacity of segment `t` has changed: it is at least the number of elements, and not larger
than before, except that an empty segment of an `any_collection` or `function_collection` may have
room for one element. -/
def ShrunkTo (E : Env V) (k : Kind) (c : Coll V) (t : Ty) (c' : Coll V) : Prop :=
  CapacityAtLeast c' t (c'.abs.elemsOf t).length ∧
  ∀ m m', CapacityIs c t m → CapacityIs c' t m' → m' ≤ m ∨ k = .split ∧ c.abs.elemsOf t = [] ∧ m' = E.lib.reserveCap 1

theorem capacity_ge {c : Coll V} {w : World} (h : c.Reachable E k w) (t : Ty) : CapacityAtLeast c t (c.abs.elemsOf t).length := by
  intro x hx hxt
  have h1 := (Ens.refl E h.map hx).elems E h.map
  rw [← hxt, ← h1, ← Seg.size_eq]
  exact ((h.inv.mem.segs x hx).core).le E

theorem shrunkTo {c c' : Coll V} {w w' : World} (h : c.Reachable E k w) (h' : c'.Reachable E k w') {t : Ty}
    (hs : ∀ x ∈ c'.map.nodes, x.seg.ty = t → ∃ y ∈ c.map.nodes, y.seg.ty = t ∧ (x = y ∨ Shrunk E y.seg x.seg)) : ShrunkTo E k c t c' := by
  refine ⟨capacity_ge h' t, fun m m' hm hm' => ?_⟩
  obtain ⟨x, hx, hxt⟩ := types_mem hm'.1
  obtain ⟨y, hy, hyt, hxy⟩ := hs x hx hxt
  have e1 := hm.2 y hy hyt
  have e2 := hm'.2 x hx hxt
  rcases hxy with rfl | hxy
  · exact Or.inl (by omega)
  · rcases hxy.cap with h1 | ⟨h1, h2, h3⟩
    · exact Or.inl (by omega)
    · refine Or.inr ⟨?_, ?_, e2.symm.trans h3⟩
      · rw [← h1, h.map.kind y hy, h.kind]
      · rw [← hyt, ← (Ens.refl E h.map hy).elems E h.map, h2]

/-- **C31**, `shrink_to_fit()`: no element changes and the capacities shrink as they should, whether the
function succeeds or not; the collection stays usable. -/
theorem C31_shrink_all {c : Coll V} {w : World} (h : c.Reachable E k w) :
    Runs (shrinkAll E) c w
      (fun _ c' w' => c'.Reachable E k w' ∧ c'.abs = c.abs ∧ ∀ t ∈ c.abs.types, ShrunkTo E k c t c')
      (fun e c' w' => c'.Reachable E k w' ∧ c'.abs = c.abs ∧ (∀ t ∈ c.abs.types, ShrunkTo E k c t c') ∧
        ∃ t ∈ c.abs.types, ExcFrom E t False (ShrinkLong E c t) e) := by
  have key : ∀ {c' : Coll V} {w' : World}, c'.Reachable E k w' → Upd (Shrunk E) c c' → ∀ t ∈ c.abs.types, ShrunkTo E k c t c' := by
    intro c' w' hr hu t _
    refine shrunkTo h hr fun x hx hxt => ?_
    obtain ⟨y, hy, -, -, hs⟩ := hu.nodes.mem hx
    exact ⟨y, hy, hs.ty.symm.trans hxt, Or.inr hs⟩
  refine ((h.runsU .shrinkAll trivial rfl (shrinkAll_runs E c w h.inv)).withEq).mono ?_ ?_
  · rintro _ c' w' ⟨⟨hr, -, -, hu, habs⟩, -⟩
    exact ⟨hr, habs, key hr hu⟩
  · rintro e c' w' ⟨⟨-, -, habs, he, hu⟩, heq⟩
    have hr := h.stepExc .shrinkAll trivial trivial heq
    exact ⟨hr, habs, key hr hu, he⟩

example (k : Kind) := C31_shrink_all (Sample.reach0 k)

/-- **C31**, `shrink_to_fit(info)` and `shrink_to_fit<T>()`. -/
theorem C31_shrink_info {c : Coll V} {w : World} (h : c.Reachable E k w) (t : TI) :
    Runs (shrinkInfo E t) c w
      (fun _ c' w' => c'.Reachable E k w' ∧ c'.abs = c.abs ∧ E.tiTy t ∈ c.abs.types ∧ ShrunkTo E k c (E.tiTy t) c')
      (fun e c' w' => c'.Reachable E k w' ∧ c'.abs = c.abs ∧ ShrunkTo E k c (E.tiTy t) c' ∧
        (e = .unregistered (E.tiTy t) ∧ E.tiTy t ∉ c.abs.types ∨ ExcFrom E (E.tiTy t) False (ShrinkLong E c (E.tiTy t)) e)) := by
  have key : ∀ {c' : Coll V} {w' : World} {m : Node V} {s : Seg V}, c'.Reachable E k w' → m ∈ c.map.nodes → m.seg.ty = E.tiTy t → c' = c.put m s → Shrunk E m.seg s →
      ShrunkTo E k c (E.tiTy t) c' := by
    rintro c' w' m s hr hm hmt rfl hs
    refine shrunkTo h hr fun x hx hxt => ⟨m, hm, hmt, Or.inr ?_⟩
    rw [seg_unique hr.map hx (TMap.put_mem hm) (hxt.trans (hmt.symm.trans hs.ty.symm))]
    exact hs
  refine ((h.runsU (.shrinkInfo t) trivial rfl (shrinkInfo_runs E t c w h.inv)).withEq).mono ?_ ?_
  · rintro _ c' w' ⟨⟨hr, -, -, habs, ht, m, hm, hmt, s, hp, hs⟩, -⟩
    exact ⟨hr, habs, ht, key hr hm hmt hp hs⟩
  · rintro e c' w' ⟨⟨rfl, rfl, rfl, ht⟩ | ⟨-, -, habs, he, m, hm, hmt, s, hp, hs⟩, heq⟩
    · exact ⟨h, rfl, shrunkTo h h fun x hx hxt => ⟨x, hx, hxt, Or.inl rfl⟩, Or.inl ⟨rfl, ht⟩⟩
    · have hr := h.stepExc (.shrinkInfo t) trivial trivial heq
      exact ⟨hr, habs, key hr hm hmt hp hs, Or.inr he⟩

/-- Two elements and room for four. -/
example (k : Kind) : (Sample.c2 k).Reachable Sample.E0 k (Sample.w2 k) ∧ CapacityIs (Sample.c2 k) 0 4 ∧ ((Sample.c2 k).abs.elemsOf 0).length = 2 :=
  ⟨Sample.reach2 k, ⟨by rw [Sample.abs2]; decide, fun x hx _ => (Sample.room2 k x hx).2⟩, by rw [Sample.abs2]; rfl⟩

/-! ### C32 -/

/-- **C32**, the new capacity computed when a segment of an `any_collection` or `function_collection` is
full: it is larger than the size, and not larger than `max_size()` unless the segment has that many
elements already. -/
theorem C32_growth (size maxSize : Nat) :
    size < Split.growth size maxSize ∧ (size < maxSize → Split.growth size maxSize ≤ maxSize) :=
  ⟨Split.growth_gt size maxSize, Split.growth_le⟩

/-- **C32**, arithmetic: computed with unsigned numbers modulo `W` (`growthW`) the new capacity, and the
number of index entries, which is larger by one, are what they should be. -/
theorem C32_no_overflow {W size maxSize : Nat} (hm : 2 * maxSize + 2 ≤ W) (h1 : 1 ≤ maxSize) (hs : size ≤ maxSize) :
    Split.growthW W size maxSize = Split.growth size maxSize ∧ (Split.growth size maxSize + 1) % W = Split.growth size maxSize + 1 :=
  ⟨(Split.growth_machine hm h1 hs).1, Nat.mod_eq_of_lt (Split.growth_machine hm h1 hs).2⟩

example : Split.growthW (2 ^ 64) 1000 (2 ^ 62) = 1500 ∧ Split.growthW (2 ^ 64) (2 ^ 62 - 1) (2 ^ 62) = 2 ^ 62 := by decide

/-- One part of **C32** does not hold: an intermediate result wraps around if the segment has `max_size()`
elements.  That is harmless, see `C32_no_overflow`. -/
theorem C32_wraps {W maxSize : Nat} (hm : 2 * maxSize + 2 ≤ W) (h1 : 1 ≤ maxSize) :
    Split.wsub W (Split.wsub W maxSize 1) maxSize = W - 1 := by
  rw [Split.wsub_le h1 (by omega), Split.wsub_lt (by omega) (by omega)]
  omega

example := C32_wraps (W := 65536) (maxSize := 32767) (by decide) (by decide)

/-- `n` elements are appended to the segment `x` one by one; `cost` elements are moved to a new buffer in
the course of it. -/
inductive Appends (E : Env V) (x : Split V) (w : World) : Nat → Nat → Split V → World → Prop where
  | nil : Appends E x w 0 0 x w
  | snoc {n cost : Nat} {y z : Split V} {w1 w2 : World} (h : Appends E x w n cost y w1) {src : Src V} {v : V} {r : Ptr × Ptr}
      (hv : src.val y.s = some v) (he : src.ext = true) (hr : Split.pushBack E src y w1 = .ok r z w2) :
      Appends E x w (n + 1) (cost + if z.s.blk = y.s.blk then 0 else y.s.size) z w2

theorem Appends.inv {x : Split V} {w : World} (hx : x.Inv E w) (h0 : x.s.elems = []) {n cost : Nat} {y : Split V} {w' : World}
    (h : Appends E x w n cost y w') : y.Inv E w' ∧ y.ty = x.ty ∧ y.s.size = n := by
  induction h with
  | nil => exact ⟨hx, rfl, by simp [Vec.size, h0]⟩
  | @snoc n cost y z w1 w2 h src v r hv he hr ih =>
    obtain ⟨h1, h2, h3⟩ := ih
    have hi := (runs_ok (Split.pushBack_runs E src v y w1 h1 hv (Or.inl he)) hr).1
    refine ⟨hi.inv, hi.frame.1.trans h2, ?_⟩
    have : y.s.size = y.s.elems.length := rfl
    simp only [Vec.size, hi.elems]
    rw [List.length_insertIdx, if_pos (by omega)]
    omega

/-- **C32**, amortised cost: appending `n` elements one by one to an empty segment moves at most `4 * n`
elements, as long as `n` is not more than a third of `max_size()`.

Missing: beyond that the claim is false, see `C32_quadratic`. -/
theorem C32_amortised_partial {x y : Split V} {w w' : World} (hx : x.Inv E w) (h0 : x.s.elems = []) {n cost : Nat}
    (h : Appends E x w n cost y w') (hn : 3 * n ≤ E.maxSize x.ty) : cost ≤ 4 * n := by
  suffices cost = 0 ∨ ∃ m, m ≤ n ∧ cost ≤ 4 * m ∧ Split.growth m (E.maxSize x.ty) ≤ y.s.cap ∧ 3 * m ≤ E.maxSize x.ty ∧ 1 ≤ m by
    rcases this with h | ⟨m, h1, h2, -⟩ <;> omega
  induction h with
  | nil => exact Or.inl rfl
  | @snoc n cost y z w1 w2 h src v r hv he hr ih =>
    obtain ⟨h1, h2, h3⟩ := h.inv hx h0
    have hcap := runs_ok (Split.pushBack_cap E src v y w1 h1 hv (Or.inl he)) hr
    have ih := ih (by omega)
    have hle := h1.swf.le
    by_cases hf : y.s.size = y.s.cap
    · obtain ⟨e1, e2⟩ := hcap.2 hf
      have hge := E.lib.reserveCap_ge (Split.growth y.s.size (E.maxSize y.ty))
      rw [if_neg e2]
      rw [h2] at e1 hge
      have hn0 : 1 ≤ n := by
        have hnz := h1.snz
        have := h1.swf.nul
        omega
      refine Or.inr ⟨n, by omega, ?_, by rw [e1, ← h3]; exact hge, by omega, hn0⟩
      rcases ih with ih | ⟨m, i1, i2, i3, i4, i5⟩
      · omega
      · have : m + (if m ≤ 1 then 1 else m / 2) ≤ n := by
          unfold Split.growth at i3
          split at i3 <;> split <;> omega
        split at this <;> omega
    · obtain ⟨e1, e2⟩ := hcap.1 (by omega)
      rw [if_pos e2]
      rcases ih with ih | ⟨m, i1, i2, i3, i4, i5⟩
      · exact Or.inl (by omega)
      · exact Or.inr ⟨m, by omega, by omega, by rw [e1]; exact i3, i4, i5⟩

/-- An environment in which nothing fails and vectors have at most `M` elements. -/
def bounded (M : Nat) : Env Nat := { Sample.E0 with maxSize := fun _ => M, idxMaxSize := M + 1 }

theorem bounded_exc {M : Nat} {copies len : Prop} {e : Exc} (hl : ¬ len) : ¬ ExcFrom (bounded M) 0 copies len e := by
  rintro (⟨-, n, h⟩ | ⟨-, n, h⟩ | ⟨-, h⟩ | ⟨-, h, -⟩)
  · exact Bool.noConfusion (h : false = true)
  · exact Bool.noConfusion (h : false = true)
  · exact hl h
  · exact Bool.noConfusion (h : true = false)

theorem bounded_make {M : Nat} (hM : 1 ≤ M) : ∃ (x : Split Nat) (w : World), Split.make (bounded M) 0 0 () ⟨1, 0⟩ = .ok x () w ∧
    x.Inv (bounded M) w ∧ x.ty = 0 ∧ x.s.elems = [] ∧ x.s.cap = 1 := by
  have h := Split.make_runs (bounded M) 0 0 () ⟨1, 0⟩
  cases hr : Split.make (bounded M) 0 0 () ⟨1, 0⟩ with
  | ub => exact absurd hr (runs_not_ub h)
  | exc e u w => exact absurd (runs_exc h hr).2.2 (bounded_exc (by unfold Env.TooMany; simp only [bounded]; omega))
  | ok x u w =>
    obtain ⟨rfl, h1, h2, -, -, h3, -, -, -, h4⟩ := runs_ok h hr
    exact ⟨x, w, rfl, h1, h2, h3, h4⟩

/-- Appending `n` elements succeeds; once half of the elements are there, every append moves them. -/
theorem bounded_appends {M : Nat} (hM : 4 ≤ M) {x : Split Nat} {w : World} (hx : x.Inv (bounded M) w) (ht : x.ty = 0) (h0 : x.s.elems = [])
    (hc : x.s.cap = 1) : ∀ n, n ≤ M → ∃ cost y w', Appends (bounded M) x w n cost y w' ∧ (y.s.cap ≤ M / 2 + 1 ∨ y.s.cap = n) ∧
      (n - (M / 2 + 1)) * (M / 2 + 1) ≤ cost := by
  intro n
  induction n with
  | zero => exact fun _ => ⟨0, x, w, .nil, Or.inl (by omega), by simp⟩
  | succ n ih =>
    intro hn
    obtain ⟨cost, y, w1, ha, hcap, hcost⟩ := ih (by omega)
    obtain ⟨h1, h2, h3⟩ := ha.inv hx h0
    have hle := h1.swf.le
    have hruns := Split.pushBack_runs (bounded M) (.emplaced 0) 0 y w1 h1 rfl (Or.inl rfl)
    cases hr : Split.pushBack (bounded M) (.emplaced 0) y w1 with
    | ub => exact absurd hr (runs_not_ub hruns)
    | exc e u w2 =>
      have := (runs_exc hruns hr).exc
      rw [h2, ht] at this
      exact absurd this (bounded_exc (by unfold Env.TooMany; simp only [bounded]; omega))
    | ok r z w2 =>
      have hk := runs_ok (Split.pushBack_cap (bounded M) (.emplaced 0) 0 y w1 h1 rfl (Or.inl rfl)) hr
      refine ⟨_, z, w2, .snoc ha (v := 0) rfl rfl hr, ?_⟩
      by_cases hf : y.s.size = y.s.cap
      · obtain ⟨e1, e2⟩ := hk.2 hf
        have e1 : z.s.cap = Split.growth n M := by rw [e1, h3]; rfl
        rw [if_neg e2]
        constructor
        · rw [e1]
          unfold Split.growth
          split <;> omega
        · by_cases hh : n < M / 2 + 1
          · rw [show n + 1 - (M / 2 + 1) = 0 by omega]; omega
          · rw [show n + 1 - (M / 2 + 1) = (n - (M / 2 + 1)) + 1 by omega, Nat.succ_mul]
            omega
      · obtain ⟨e1, e2⟩ := hk.1 (by omega)
        rw [if_pos e2]
        refine ⟨Or.inl (by omega), ?_⟩
        rw [show n + 1 - (M / 2 + 1) = 0 by omega]; omega

/-- **C32 fails** beyond a third of `max_size()`: from there on the new capacity is the size plus one, so
every append moves all elements, and the total cost is quadratic. -/
theorem C32_quadratic (K : Nat) : ∃ (E : Env Nat) (x y : Split Nat) (w w' : World) (n cost : Nat), (∀ i, E.fault i = false) ∧
    Split.make E 0 0 () ⟨1, 0⟩ = .ok x () w ∧ n ≤ E.maxSize 0 ∧ Appends E x w n cost y w' ∧ K * n < cost := by
  obtain ⟨x, w, hx, h1, h2, h3, h4⟩ := bounded_make (M := 4 * K + 8) (by omega)
  obtain ⟨cost, y, w', ha, -, hc⟩ := bounded_appends (by omega) h1 h2 h3 h4 (4 * K + 8) (Nat.le_refl _)
  refine ⟨bounded (4 * K + 8), x, y, w, w', 4 * K + 8, cost, fun _ => rfl, hx, Nat.le_refl _, ha, Nat.lt_of_lt_of_le ?_ hc⟩
  rw [show 4 * K + 8 - ((4 * K + 8) / 2 + 1) = 2 * K + 3 by omega, show (4 * K + 8) / 2 + 1 = 2 * K + 5 by omega]
  have : (2 * K + 3) * (2 * K + 5) = K * (4 * K + 8) + 8 * K + 15 := by
    simp only [Nat.add_mul, Nat.mul_add]
    rw [show 2 * K * (2 * K) = K * (4 * K) by rw [Nat.mul_assoc, Nat.mul_left_comm K 2 K, ← Nat.mul_assoc 2 2, Nat.mul_left_comm]]
    omega
  omega

/-- The hypotheses of `C32_amortised_partial` can be met: ten elements and room for forty. -/
example : ∃ (x y : Split Nat) (w w' : World) (cost : Nat), x.Inv (bounded 40) w ∧ x.s.elems = [] ∧ Appends (bounded 40) x w 10 cost y w' ∧
    3 * 10 ≤ (bounded 40).maxSize x.ty := by
  obtain ⟨x, w, -, h1, h2, h3, h4⟩ := bounded_make (M := 40) (by omega)
  obtain ⟨cost, y, w', ha, -⟩ := bounded_appends (by omega) h1 h2 h3 h4 10 (by omega)
  exact ⟨x, y, w, w', cost, h1, h3, ha, by show 30 ≤ 40; decide⟩

end PolyColl.Props
