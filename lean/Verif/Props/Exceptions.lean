import Verif.Props.SampleRange
import Verif.Lemmas.Stale
import Verif.Lemmas.Short
import Verif.Lemmas.FullShort
import Verif.Lemmas.GoodHistory
import Verif.Props.SampleData
import Verif.Props.SampleFail
/-!
# Properties C13 to C18: aliasing and exceptions

`op.Inserts E c t n src`: `op` is one of the eight operations that insert one element (`emplace`,
`emplace_hint`, `emplace_pos` and `insert` with and without position), its iterators being valid
for `c`; it is to insert an element of type `t` at position `n` of its segment from `src`.
-/

namespace PolyColl.Props
open PolyColl Prog Coll

variable {V : Type} {E : Env V} {k : Kind}

/-- `src` is a reference to the element of value `v` at position `m` of segment `t`, to be copied. -/
def Own (c : Coll V) (t : Ty) (src : Src V) (m : Nat) (v : V) : Prop :=
  ∃ n ∈ c.map.nodes, n.seg.ty = t ∧ src = .copyAlias (n.seg.loc m) ∧ n.seg.elems[m]? = some v

/-! ### C13 -/

theorem Own.srcFor {c : Coll V} {w : World} (hc : c.Inv E w) {t : Ty} {src : Src V} {m : Nat} {v : V} (h : Own c t src m v)
    (hr : c.kind = .packed ∨ ∃ n ∈ c.map.nodes, n.seg.ty = t ∧ n.seg.size < n.seg.capacity) : c.SrcFor t src v := by
  obtain ⟨n, hn, rfl, rfl, hv⟩ := h
  refine Or.inr ⟨n, hn, rfl, ?_, Or.inr ?_⟩
  · exact Vec.deref_ptr.trans hv
  · rcases hr with hr | ⟨a, ha, ht, hs⟩
    · exact Or.inl ((hc.map.kind n hn).trans hr)
    · have : a = n := PolyColl.eq_of_nodup (f := fun a : Node V => a.seg.ty) (TMap.Inv.nodup_ty E hc.map) ha hn ht
      exact Or.inr (this ▸ hs)

/-- **C13** for `base_collection`: inserting a copy of an element of the collection itself has the
effect of inserting an independent copy, whether or not there is room for it. -/
theorem C13_base_collection {c : Coll V} {w : World} (h : c.Reachable E .packed w) {op : COp V} {t : Ty} {n m : Nat} {src : Src V} {v : V}
    (hop : op.Inserts E c t n src) (hst : op.Storable E c) (hv : Own c t src m v) :
    Runs (op.run E) c w
      (fun _ c' w' => c'.Reachable E .packed w' ∧ c.abs.Put t n [v] c'.abs)
      (fun e _ _ => ExcFrom E t True (E.TooMany t ((c.abs.elemsOf t).length + 1)) e) := by
  have hs := hv.srcFor h.inv (Or.inl h.kind)
  refine (h.runsU op (inserts_pre hop hs) rfl (inserts_runs h.inv hop hs)).mono ?_ ?_
  · rintro _ c' w' ⟨hr, hi, -⟩
    exact ⟨hr, hi.put E h.map⟩
  · rintro e c' w' (h' | ⟨h', -⟩)
    · exact (h'.exc E h.map).mono (fun _ => trivial) id
    · exact absurd hst h'

/-- **C13** for all collections, if the segment has room for one more element.

Missing: `any_collection` and `function_collection` when the segment is full, see
`C13_any_collection_full`. -/
theorem C13_partial {c : Coll V} {w : World} (h : c.Reachable E k w) {op : COp V} {t : Ty} {n m : Nat} {src : Src V} {v : V}
    (hop : op.Inserts E c t n src) (hst : op.Storable E c) (hv : Own c t src m v)
    (hroom : ∃ n ∈ c.map.nodes, n.seg.ty = t ∧ n.seg.size < n.seg.capacity) :
    Runs (op.run E) c w
      (fun _ c' w' => c'.Reachable E k w' ∧ c.abs.Put t n [v] c'.abs)
      (fun e _ _ => ExcFrom E t True (E.TooMany t ((c.abs.elemsOf t).length + 1)) e) := by
  have hs := hv.srcFor h.inv (Or.inr hroom)
  refine (h.runsU op (inserts_pre hop hs) rfl (inserts_runs h.inv hop hs)).mono ?_ ?_
  · rintro _ c' w' ⟨hr, hi, -⟩
    exact ⟨hr, hi.put E h.map⟩
  · rintro e c' w' (h' | ⟨h', -⟩)
    · exact (h'.exc E h.map).mono (fun _ => trivial) id
    · exact absurd hst h'

/-- **C13 fails** for an `any_collection` whose segment is full: `c.insert(*c.begin())` reads the
element after its buffer was given back. -/
theorem C13_any_collection_full :
    ∃ (c : Coll Nat) (w : World) (op : COp Nat) (src : Src Nat), c.Reachable Sample.E0 .split w ∧ op.Inserts Sample.E0 c 0 1 src ∧
      op.Storable Sample.E0 c ∧ Own c 0 src 0 5 ∧ c.abs = [(0, [5])] ∧ op.run Sample.E0 c w = .ub :=
  ⟨Sample.w13c1, ⟨10, 10⟩, .insert ⟨0, 0, true, false, .copyAlias ⟨2, 0⟩⟩, .copyAlias ⟨2, 0⟩, Sample.w13reach.left,
    ⟨fun _ => rfl, rfl, rfl, rfl⟩, Or.inr ⟨rfl, rfl⟩, ⟨_, .head _, rfl, rfl, rfl⟩, rfl, Sample.w13ub⟩

/-- There is no room for one more element in segment `t`. -/
def Full (c : Coll V) (t : Ty) : Prop := ∃ n ∈ c.map.nodes, n.seg.ty = t ∧ n.seg.size = n.seg.capacity

theorem Full.get {c : Coll V} {w : World} (hc : c.Inv E w) {t : Ty} (h : Full c t) {n : Node V} (hn : n ∈ c.map.nodes) (ht : n.seg.ty = t) :
    n.seg.size = n.seg.capacity ∧ n.seg.size = (c.abs.elemsOf t).length := by
  obtain ⟨a, ha, hta, hs⟩ := h
  have : a = n := PolyColl.eq_of_nodup (f := fun a : Node V => a.seg.ty) (TMap.Inv.nodup_ty E hc.map) ha hn (hta.trans ht.symm)
  subst this
  refine ⟨hs, ?_⟩
  rw [Seg.size_eq, (Ens.refl E hc.map hn).elems E hc.map, ht]

/-- **C13 fails whenever** the segment of an `any_collection` or a `function_collection` is full:
inserting a copy of an element of the segment never succeeds.  Either something else throws before,
or the behaviour is undefined. -/
theorem C13_full_segment {c : Coll V} {w : World} (h : c.Reachable E .split w) {op : COp V} {t : Ty} {n m : Nat} {src : Src V} {v : V}
    (hop : op.Inserts E c t n src) (hv : Own c t src m v) (hf : Full c t) :
    op.run E c w = .ub ∨ ∃ e c' w', op.run E c w = .exc e c' w' ∧ ExcFrom E t False (E.TooMany t ((c.abs.elemsOf t).length + 1)) e := by
  obtain ⟨a, ha, hta, rfl, -⟩ := hv
  obtain ⟨h1, h2⟩ := hf.get h.inv ha hta
  rw [← h2]
  exact leaves_false (inserts_dangling h.inv h.kind hop ha hta h1 (Backend.Inv.store E (h.inv.mem.segs a ha).core).lt)

example := C13_full_segment Sample.w13reach.left (op := .insert ⟨0, 0, true, false, .copyAlias ⟨2, 0⟩⟩) (t := 0) (n := 1) (m := 0) (v := 5)
  ⟨fun _ => rfl, rfl, rfl, rfl⟩ ⟨_, .head _, rfl, rfl, rfl⟩ ⟨_, .head _, rfl, rfl⟩

/-- **C13 fails whenever** the segment is full and nothing else throws: the behaviour is undefined. -/
theorem C13_full_segment_undefined {c : Coll V} {w : World} (h : c.Reachable E .split w) {op : COp V} {t : Ty} {n m : Nat} {src : Src V} {v : V}
    (hop : op.Inserts E c t n src) (hv : Own c t src m v) (hf : Full c t) (hn : ∀ i, E.fault i = false)
    (hl : ¬ E.TooMany t ((c.abs.elemsOf t).length + 1)) (ht : (E.traits t).copyable = true ∨ (E.traits t).nothrowMove = true) :
    op.run E c w = .ub := by
  rcases C13_full_segment h hop hv hf with h | ⟨e, c', w', -, ⟨-, i, h⟩ | ⟨-, i, h⟩ | ⟨-, h⟩ | ⟨-, h1, h2⟩⟩
  · exact h
  · rw [hn] at h; cases h
  · rw [hn] at h; cases h
  · exact absurd h hl
  · rcases h2 with h2 | h2
    · exact h2.elim
    · rw [h1, h2] at ht; simp at ht

/-- The collection of `C13_any_collection_full`. -/
example : ∃ (op : COp Nat) (src : Src Nat), Sample.w13c1.Reachable Sample.E0 .split ⟨10, 10⟩ ∧ op.Inserts Sample.E0 Sample.w13c1 0 1 src ∧
    Own Sample.w13c1 0 src 0 5 ∧ Full Sample.w13c1 0 ∧ (∀ i, Sample.E0.fault i = false) ∧
    ¬ Sample.E0.TooMany 0 ((Sample.w13c1.abs.elemsOf 0).length + 1) ∧ (Sample.E0.traits 0).copyable = true :=
  ⟨.insert ⟨0, 0, true, false, .copyAlias ⟨2, 0⟩⟩, .copyAlias ⟨2, 0⟩, Sample.w13reach.left,
    ⟨fun _ => rfl, rfl, rfl, rfl⟩, ⟨_, .head _, rfl, rfl, rfl⟩, ⟨_, .head _, rfl, rfl⟩, fun _ => rfl, fun h => h.elim (absurd · (by decide)) (absurd · (by decide)), rfl⟩

/-- Element 2 of type 0 is appended to its own segment. -/
example (k : Kind) : ∃ src, (Sample.c0 k).Reachable Sample.E0 k (Sample.w0 k) ∧ Own (Sample.c0 k) 0 src 1 2 ∧
    COp.Inserts Sample.E0 (Sample.c0 k) (.insert ⟨0, 0, true, false, src⟩) 0 3 src ∧
    (COp.insert ⟨0, 0, true, false, src⟩).Storable Sample.E0 (Sample.c0 k) := by
  have ht : (0 : Ty) ∈ (Sample.c0 k).abs.types := by rw [Sample.abs0]; decide
  obtain ⟨n, hn, h0⟩ := types_mem ht
  have hel : n.seg.elems = [1, 2, 3] := by
    have := (Ens.refl Sample.E0 (Sample.reach0 k).map hn).elems Sample.E0 (Sample.reach0 k).map
    rw [this, h0, Sample.abs0]; rfl
  refine ⟨_, Sample.reach0 k, ⟨n, hn, h0, rfl, by rw [hel]; rfl⟩, ⟨fun _ => rfl, (by decide : (0 : Nat) = 0 / 2), ?_, rfl⟩, Or.inr ⟨rfl, rfl⟩⟩
  rw [Sample.abs0]; rfl

/-- A segment with room. -/
example : Sample.w17c4.Reachable (Sample.env fun t => t == 13) .split ⟨11, 13⟩ ∧
    ∃ n ∈ Sample.w17c4.map.nodes, n.seg.ty = 2 ∧ n.seg.size < n.seg.capacity := ⟨Sample.w17reach.left, by decide⟩

/-! ### C14 -/

/-- **C14.**  Inserting a copy of an object of a type that is not copyable does not succeed.  If
nothing else fails before, `not_copy_constructible` is thrown with the type, and then all elements
are as before; at most an empty segment was added. -/
theorem C14_not_copyable {c : Coll V} {w : World} (h : c.Reachable E k w) {op : COp V} {t : Ty} {n : Nat} {src : Src V} {v : V}
    (hop : op.Inserts E c t n src) (hst : op.Storable E c) (hs : c.SrcFor t src v) (hc : src.copies = true) (ht : (E.traits t).copyable = false) :
    Runs (op.run E) c w (fun _ _ _ => False)
      (fun e c' _ =>
        (e = .notCopyConstructible t ∧ (c'.abs = c.abs ∨ c.abs.Ensure t c'.abs) ∧ ∀ u, c'.abs.elemsOf u = c.abs.elemsOf u) ∨
        ((e = .badAlloc ∨ e = .user) ∧ ∃ i, E.fault i = true) ∨
        (e = .lengthError ∧ E.TooMany t ((c.abs.elemsOf t).length + 1))) := by
  refine (inserts_runs h.inv hop hs).mono ?_ ?_
  · rintro _ c' w' ⟨-, h'⟩
    have := h' hc
    rw [ht] at this
    cases this
  · rintro e c' w' (h' | ⟨h', -⟩)
    · rcases h'.exc E h.map with ⟨rfl, hf⟩ | ⟨rfl, hf⟩ | hl | ⟨rfl, -⟩
      · exact Or.inr (Or.inl ⟨Or.inl rfl, hf⟩)
      · exact Or.inr (Or.inl ⟨Or.inr rfl, hf⟩)
      · exact Or.inr (Or.inr hl)
      · obtain ⟨-, ha⟩ := h'.ncc h.inv
        refine Or.inl ⟨rfl, ha, fun u => ?_⟩
        rcases ha with ha | ha
        · rw [ha]
        · exact ha.elemsOf h.nodup u
    · exact absurd hst h'

/-- An object of type 1, which has elements in `c0`, and of type 4, which is not registered. -/
example (k : Kind) : (Sample.c0 k).Reachable Sample.E0 k (Sample.w0 k) ∧
    COp.Inserts Sample.E0 (Sample.c0 k) (.insert ⟨2, 3, true, false, .copyExt 5⟩) 1 1 (.copyExt 5) ∧
    (COp.insert ⟨2, 3, true, false, .copyExt 5⟩).Storable Sample.E0 (Sample.c0 k) ∧ (Sample.E0.traits 1).copyable = false ∧
    COp.Inserts Sample.E0 (Sample.c0 k) (.insert ⟨8, 9, true, false, .copyExt 5⟩) 4 0 (.copyExt 5) ∧
    (COp.insert ⟨8, 9, true, false, .copyExt 5⟩).Storable Sample.E0 (Sample.c0 k) ∧ (Sample.E0.traits 4).copyable = false ∧
    (Sample.c0 k).SrcFor 1 (.copyExt 5) 5 ∧ (Sample.c0 k).SrcFor 4 (.copyExt 5) 5 := by
  refine ⟨Sample.reach0 k, ⟨fun h => by simp at h, rfl, ?_, rfl⟩, Or.inr ⟨rfl, rfl⟩, rfl, ⟨fun h => by simp at h, rfl, ?_, rfl⟩, Or.inr ⟨rfl, rfl⟩, rfl,
    Or.inl ⟨rfl, rfl⟩, Or.inl ⟨rfl, rfl⟩⟩ <;> rw [Sample.abs0] <;> rfl

/-! ### C15 -/

/-- Nothing happened to `c`, except that an empty segment for `t` may have been created: same
elements, same storage, and same iterators (unless a segment was created, the map was rehashed, and this invalidates its
iterators; `gen` counts how often it was rehashed). -/
structure Intact (E : Env V) (c : Coll V) (t : Ty) (c' : Coll V) : Prop where
  state : c'.abs = c.abs ∨ c.abs.Ensure t c'.abs
  elems : ∀ u, c'.abs.elemsOf u = c.abs.elemsOf u
  storage : ∀ n ∈ c.map.nodes, n ∈ c'.map.nodes
  rehash : t ∈ c.abs.types → c'.map.gen = c.map.gen
  iters : E.strictRehash = false ∨ c'.map.gen = c.map.gen → ∀ it p, c.At E it p → c'.At E it p
  baseIters : E.strictRehash = false ∨ c'.map.gen = c.map.gen → ∀ l u n, c.LAtB E l u n → c'.LAtB E l u n
  localIters : E.strictRehash = false ∨ c'.map.gen = c.map.gen → ∀ l u n, c.LAtL E l u n → c'.LAtL E l u n

theorem intact {c c' : Coll V} {w : World} {t : Ty} (h : Unharmed E c t c') (hc : c.map.Inv E c.kind w) : Intact E c t c' :=
  ⟨h.abs, h.elemsOf hc, h.nodes, h.gen, fun hr _ _ => h.at hr, fun hr _ _ _ => h.latB hr, fun hr _ _ _ => h.latL hr⟩

theorem inserts_strong {c : Coll V} {op : COp V} {t : Ty} {n : Nat} {src : Src V} (hop : op.Inserts E c t n src) (hk : c.NoTrace t) (hs : ¬ E.shiftThrows t) :
    op.Strong E c := by
  have hf : COp.Fits c t 1 := hk
  cases op <;> simp only [COp.Inserts] at hop <;> simp only [COp.Strong]
  · obtain ⟨rfl, -⟩ := hop; exact hf
  · obtain ⟨rfl, -⟩ := hop; exact ⟨hf, hs⟩
  · obtain ⟨rfl, -⟩ := hop; exact ⟨hf, hs⟩
  · obtain ⟨rfl, -⟩ := hop; exact ⟨hf, hs⟩
  · obtain ⟨-, rfl, -⟩ := hop; exact hf
  · obtain ⟨-, rfl, -⟩ := hop; exact ⟨hf, hs⟩
  · obtain ⟨-, rfl, -⟩ := hop; exact ⟨hf, hs⟩
  · obtain ⟨-, rfl, -⟩ := hop; exact ⟨hf, hs⟩

/-- **C15.**  If an insertion of one element into a `base_collection` throws, at whatever point, the
collection is as before.

Missing: iterators when an empty segment was added and this rehashes the map (`Intact.iters`), see
`C58_hint_after_rehash`.  They still refer to their elements, but cannot be advanced. -/
theorem C15_strong_guarantee_partial {c : Coll V} {w : World} (h : c.Reachable E .packed w) {op : COp V} {t : Ty} {n : Nat} {src : Src V} {v : V}
    (hop : op.Inserts E c t n src) (hs : c.SrcFor t src v) (hm : (E.traits t).nothrowMove = true) (ha : (E.traits t).nothrowAssign = true) :
    Runs (op.run E) c w (fun _ _ _ => True) (fun _ c' w' => c'.Reachable E .packed w' ∧ Intact E c t c') := by
  have hsh : ¬ E.shiftThrows t := fun h => h ⟨hm, ha⟩
  refine (inserts_runs h.inv hop hs).withEq.mono (fun _ _ _ _ => trivial) ?_
  rintro e c' w' ⟨h', he⟩
  exact ⟨h.stepExc op (inserts_pre hop hs) (inserts_strong hop (Or.inl h.kind) hsh) he, intact (h'.unharmed h.inv (Or.inl h.kind) (Or.inl hsh)).1 h.map⟩

/-- Inserting a copy of an object that is not copyable throws. -/
example : ∃ (op : COp Nat) (src : Src Nat) (e : Exc) (c' : Coll Nat) (w' : World), (Sample.c0 .packed).Reachable Sample.E0 .packed (Sample.w0 .packed) ∧
    op.Inserts Sample.E0 (Sample.c0 .packed) 1 1 src ∧ (Sample.c0 .packed).SrcFor 1 src 5 ∧
    (Sample.E0.traits 1).nothrowMove = true ∧ (Sample.E0.traits 1).nothrowAssign = true ∧
    op.run Sample.E0 (Sample.c0 .packed) (Sample.w0 .packed) = .exc e c' w' :=
  ⟨.insert ⟨2, 2, true, false, .copyExt 5⟩, .copyExt 5, .notCopyConstructible 1, _, _, Sample.reach0 _, ⟨fun _ => rfl, rfl, rfl, rfl⟩,
    Or.inl ⟨rfl, rfl⟩, rfl, rfl, rfl⟩

/-! ### C16 -/

/-- **C16** for segments that are not full: the collection is as before and can be traversed.
The segment must hold an element or have had `reserve` called, so that its index has the size it
needs (`Roomy`), which it then has if `vector::reserve` reserves exactly.

Missing: segments that are full, or fresh: see `C16_traversal_after_insert` and `C16_traversal_after_reserve`. -/
theorem C16_not_full_partial {c : Coll V} {w : World} (h : c.Reachable E .split w) {op : COp V} {t : Ty} {n : Nat} {src : Src V} {v : V}
    (hop : op.Inserts E c t n src) (hs : c.SrcFor t src v) (hsh : (E.traits t).nothrowMove = true ∧ (E.traits t).nothrowAssign = true ∨
      (c.abs.elemsOf t).length ≤ n) (hx : ExactReserve E) (hne : c.abs.elemsOf t ≠ [])
    (hroom : ∃ n ∈ c.map.nodes, n.seg.ty = t ∧ n.seg.size < n.seg.capacity) :
    Runs (op.run E) c w (fun _ _ _ => True)
      (fun _ c' w' => c'.abs = c.abs ∧ Intact E c t c' ∧ Traversed E c' c.abs.flat ∧
        ((E.traits t).nothrowMove = true ∧ (E.traits t).nothrowAssign = true → c'.Reachable E .split w')) := by
  obtain ⟨m, hm, rfl, hlt⟩ := hroom
  have hel := (Ens.refl E h.map hm).elems E h.map
  have hpos : 0 < m.seg.size := by
    show 0 < m.seg.elems.length
    rw [hel]
    exact List.length_pos_iff.2 hne
  have hr := Seg.Room.of_exact E (h.inv.mem.segs m hm).core hx hpos
  refine (inserts_runs h.inv hop hs).withEq.mono (fun _ _ _ _ => trivial) ?_
  rintro e c' w' ⟨h', he⟩
  obtain ⟨hu, hk⟩ := h'.unharmed h.inv (Or.inr ⟨m, hm, rfl, hr, hlt⟩) (hsh.imp (fun h h' => h' h) id)
  have hab : c'.abs = c.abs := by
    rcases hu.abs with h | ⟨-, h⟩ | ⟨h, -⟩
    · exact h
    · exact h
    · exact absurd (mem_types hm) h
  exact ⟨hab, intact hu h.map, hab ▸ traversed hk.1,
    fun hsafe => h.stepExc op (inserts_pre hop hs) (inserts_strong hop (Or.inr ⟨m, hm, rfl, hr, hlt⟩) fun h => h hsafe) he⟩

example := C16_not_full_partial Sample.w17reach.left (op := .emplace 4 (.emplaced 8)) (t := 2) (n := 3) (v := 8) ⟨rfl, rfl, rfl⟩
  (Or.inl ⟨rfl, rfl⟩) (.inr (by decide)) (fun _ => rfl) (by decide) (by decide)

/-- Every loop over one segment with local iterators meets its elements and ends. -/
def LocallyTraversed (c : Coll V) : Prop :=
  ∀ n ∈ c.map.nodes, ∀ fuel, n.seg.size < fuel → localWalk n.seg n.seg.end n.seg.begin fuel = some n.seg.elems

theorem locallyTraversed {c : Coll V} {w : World} (h : c.Core E w) : LocallyTraversed c := by
  intro n hn fuel hf
  have := localWalk_base E (h.mem.segs n hn) n.seg.size 0 n.seg.size fuel (by omega) (Nat.le_refl _) hf
  rw [Seg.end_eq, ← Seg.base_zero, this]
  simp [Seg.size_eq]

/-- **C16**, full segments included: the elements are still there, in their order, and each segment
can be traversed with local iterators.

Missing: traversal with `begin()` and `end()`, see `C16_traversal_after_insert`, and fresh segments. -/
theorem C16_elements_partial {c : Coll V} {w : World} (h : c.Reachable E .split w) {op : COp V} {t : Ty} {n : Nat} {src : Src V} {v : V}
    (hop : op.Inserts E c t n src) (hst : op.Storable E c) (hs : c.SrcFor t src v)
    (hsh : (E.traits t).nothrowMove = true ∧ (E.traits t).nothrowAssign = true ∨ (c.abs.elemsOf t).length ≤ n)
    (hx : ExactReserve E) (hne : c.abs.elemsOf t ≠ []) :
    Runs (op.run E) c w (fun _ _ _ => True) (fun _ c' _ => c'.abs = c.abs ∧ LocallyTraversed c') := by
  have hmem : t ∈ c.abs.types := by
    refine Classical.byContradiction fun hn => hne ?_
    unfold Spec.State.elemsOf
    rw [Spec.State.get_none.2 hn]
  refine (inserts_runs h.inv hop hs).mono (fun _ _ _ _ => trivial) ?_
  rintro e c' w' (h' | ⟨h', -⟩)
  · obtain ⟨h1, h2⟩ := h'.core h.inv (fun m hm ht => by
      refine Seg.Room.of_exact E (h.inv.mem.segs m hm).core hx ?_
      show 0 < m.seg.elems.length
      rw [(Ens.refl E h.map hm).elems E h.map, ht]
      exact List.length_pos_iff.2 hne) hmem (hsh.imp (fun h h' => h' h) id)
    exact ⟨h2, locallyTraversed h1⟩
  · exact absurd hst h'

example := C16_elements_partial Sample.w16reach.left (op := .insert ⟨2, 2, true, false, .copyExt 7⟩) (t := 1) (n := 2) (v := 7)
  ⟨fun _ => rfl, rfl, rfl, rfl⟩ (Or.inr ⟨rfl, rfl⟩) (Or.inl ⟨rfl, rfl⟩) (.inr (by decide)) (fun _ => rfl) (by decide)

/-- **C16** for `reserve`: the elements are still there.  Missing: as above, see
`C16_traversal_after_reserve`. -/
theorem C16_reserve_partial {c : Coll V} {w : World} (h : c.Reachable E k w) (t : TI) (n : Nat) :
    Runs (reserveT E t n) c w (fun _ _ _ => True)
      (fun _ c' _ => (c'.abs = c.abs ∨ c.abs.Ensure (E.tiTy t) c'.abs) ∧ LocallyTraversed c') ∧
    Runs (reserveAll E n) c w (fun _ _ _ => True) (fun _ c' _ => c'.abs = c.abs ∧ LocallyTraversed c') := by
  constructor
  · refine (reserveT_runs E t n c w h.inv).mono (fun _ _ _ _ => trivial) ?_
    rintro e c' w' (h' | ⟨m, d, w1, s, h1, rfl, h2, -, h3, -⟩)
    · exact ⟨(h'.unharmed h.map).abs, locallyTraversed (h'.good E (stable_core E) (h.inv.core E))⟩
    · exact ⟨Or.inr (h3 ▸ h1.abs E h.map), locallyTraversed h2⟩
  · refine (reserveAll_runs E n c w h.inv).mono (fun _ _ _ _ => trivial) ?_
    rintro e c' w' ⟨h1, -, -, -, -, h2, -⟩
    exact ⟨h2, locallyTraversed h1⟩

example (k : Kind) := C16_reserve_partial (Sample.reach0 k) 1 20

/-- `begin(typeid(T))` is not what it was. -/
def Moved (c : Coll V) (t : Ty) (c' : Coll V) : Prop :=
  ∃ m ∈ c.map.nodes, ∃ m' ∈ c'.map.nodes, m.seg.ty = t ∧ m'.seg.ty = t ∧ m'.seg.begin ≠ m.seg.begin

/-- `for(auto it=c.begin();it!=c.end();++it)` is undefined: it goes past the elements of a segment. -/
def RunsPast (E : Env V) (c : Coll V) : Prop := ∃ it, c.begin E = some it ∧ ∀ fuel, c.walk E c.end it fuel = none

theorem exact_put {c d : Coll V} {w w' : World} (hd : d.Inv E w) (hn : d.map.nodes = c.map.nodes) {m : Node V} (hm : m ∈ d.map.nodes) {s : Seg V}
    (h' : (d.put m s).Core E w') (hw : w.next ≤ w'.next) (ht : s.ty = m.seg.ty) (hk : s.kind = .split) (he : s.elems = m.seg.elems) (hs : s.snt = m.seg.snt)
    (ha : (d.put m s).abs = c.abs) : (Moved c m.seg.ty (d.put m s) → RunsPast E (d.put m s)) ∧
      (¬ Moved c m.seg.ty (d.put m s) → Traversed E (d.put m s) c.abs.flat) := by
  obtain ⟨h1, h2⟩ := stale_put hd hm h' hw hk he hs
  constructor
  · rintro ⟨a, haa, b, hb, hat, hbt, hne⟩
    have e1 : a = m := PolyColl.eq_of_nodup (f := fun n : Node V => n.seg.ty) (TMap.Inv.nodup_ty E hd.map) (hn ▸ haa) hm hat
    have e2 : b = { m with seg := s } := PolyColl.eq_of_nodup (f := fun n : Node V => n.seg.ty) (TMap.Inv.nodup_ty E h'.map) hb (TMap.put_mem hm) (hbt.trans ht.symm)
    subst e1 e2
    exact h2 hne
  · intro hno
    rw [← ha]
    exact traversed (h1 (Classical.byContradiction fun hne => hno ⟨m, hn ▸ hm, _, TMap.put_mem hm, rfl, ht, hne⟩))

theorem exact_same {c c' : Coll V} {w w' : World} (hc : c.Inv E w) (hn : c'.map.nodes = c.map.nodes) (h' : c'.Inv E w') (t : Ty) :
    (Moved c t c' → RunsPast E c') ∧ (¬ Moved c t c' → Traversed E c' c.abs.flat) := by
  constructor
  · rintro ⟨a, haa, b, hb, hat, hbt, hne⟩
    have e1 : a = b := PolyColl.eq_of_nodup (f := fun n : Node V => n.seg.ty) (TMap.Inv.nodup_ty E hc.map) haa (hn ▸ hb) (hat.trans hbt.symm)
    exact absurd (congrArg (fun n : Node V => n.seg.begin) e1.symm) hne
  · intro _
    have : c'.abs = c.abs := by simp [Coll.abs, TMap.abs, hn]
    exact this ▸ traversed h'

/-- **C16**, what exactly can go wrong: when an insertion into a segment that holds an element has thrown, the collection can be traversed
if and only if the index of the segment is where it was. -/
theorem C16_exactly {c : Coll V} {w : World} (h : c.Reachable E .split w) {op : COp V} {t : Ty} {n : Nat} {src : Src V} {v : V}
    (hop : op.Inserts E c t n src) (hst : op.Storable E c) (hs : c.SrcFor t src v)
    (hsh : (E.traits t).nothrowMove = true ∧ (E.traits t).nothrowAssign = true ∨ (c.abs.elemsOf t).length ≤ n)
    (hx : ExactReserve E) (hne : c.abs.elemsOf t ≠ []) :
    Runs (op.run E) c w (fun _ _ _ => True) (fun _ c' _ => (Moved c t c' → RunsPast E c') ∧ (¬ Moved c t c' → Traversed E c' c.abs.flat)) := by
  have hmem : t ∈ c.abs.types := by
    refine Classical.byContradiction fun hn => hne ?_
    unfold Spec.State.elemsOf
    rw [Spec.State.get_none.2 hn]
  have hroom : ∀ m ∈ c.map.nodes, m.seg.ty = t → m.seg.Roomy := fun m hm ht => by
    refine Seg.Room.of_exact E (h.inv.mem.segs m hm).core hx ?_
    show 0 < m.seg.elems.length
    rw [(Ens.refl E h.map hm).elems E h.map, ht]
    exact List.length_pos_iff.2 hne
  refine (inserts_runs h.inv hop hs).mono (fun _ _ _ _ => trivial) ?_
  rintro e c' w' (h' | ⟨h', -⟩)
  · have hcore := h'.core h.inv hroom hmem (hsh.imp (fun h h' => h' h) id)
    cases h' with
    | reg h' =>
      rcases h'.nodes with h1 | ⟨m, h1⟩
      · exact exact_same h.inv h1.nodes (h'.good E (stable_inv E) h.inv) t
      · exact exact_same h.inv (h1.old E h.map hmem).1.nodes (h'.good E (stable_inv E) h.inv) t
    | @seg c1 w1 m s w' ens hf hk =>
      have g := ens.good E (stable_inv E) h.inv
      obtain ⟨h1, h2, h3⟩ := hf.core (hroom m (ens.old E h.map hmem).2 ens.ty) (not_basic h.map ens (hsh.imp (fun h h' => h' h) id))
      have hkind : s.kind = .split := by
        rw [hf.step.kind, ens.inv.kind m (ens.mem E), ens.kind]
        exact h.kind
      have := exact_put g (ens.old E h.map hmem).1.nodes (ens.mem E) hcore.1 hf.next hf.step.ty hkind h2 h3 hcore.2
      rwa [ens.ty] at this
  · exact absurd hst h'

example := C16_exactly Sample.w16reach.left (op := .insert ⟨2, 2, true, false, .copyExt 7⟩) (t := 1) (n := 2) (v := 7)
  ⟨fun _ => rfl, rfl, rfl, rfl⟩ (Or.inr ⟨rfl, rfl⟩) (Or.inl ⟨rfl, rfl⟩) (.inr (by decide)) (fun _ => rfl) (by decide)

/-- The same for `reserve`. -/
theorem C16_reserve_exactly {c : Coll V} {w : World} (h : c.Reachable E .split w) (t : TI) (n : Nat) :
    Runs (reserveInfo E t n) c w (fun _ _ _ => True)
      (fun _ c' _ => (Moved c (E.tiTy t) c' → RunsPast E c') ∧ (¬ Moved c (E.tiTy t) c' → Traversed E c' c.abs.flat)) ∧
    (E.tiTy t ∈ c.abs.types → Runs (reserveT E t n) c w (fun _ _ _ => True)
      (fun _ c' _ => (Moved c (E.tiTy t) c' → RunsPast E c') ∧ (¬ Moved c (E.tiTy t) c' → Traversed E c' c.abs.flat))) := by
  constructor
  · refine (reserveInfo_runs E t n c w h.inv).mono (fun _ _ _ _ => trivial) ?_
    rintro e c' w' (h' | ⟨h1, h2, h3, -, m, hm, ht, s, rfl, hf⟩)
    · obtain ⟨rfl, rfl, -⟩ := h'
      exact exact_same h.inv rfl h.inv _
    · have hkind : s.kind = .split := by
        rw [hf.kind, h.map.kind m hm]
        exact h.kind
      have := exact_put h.inv rfl hm h1 h2 hf.ty hkind (by simp [Seg.elems, hf.store]) hf.snt h3
      rwa [ht] at this
  · intro hmem
    refine (reserveT_runs E t n c w h.inv).mono (fun _ _ _ _ => trivial) ?_
    rintro e c' w' (h' | ⟨m, d, w1, s, ens, rfl, h2, h3, h4, hf, -⟩)
    · rcases h'.nodes with h1 | ⟨m, h1⟩
      · exact exact_same h.inv h1.nodes (h'.good E (stable_inv E) h.inv) _
      · exact exact_same h.inv (h1.old E h.map hmem).1.nodes (h'.good E (stable_inv E) h.inv) _
    · have hkind : s.kind = .split := by
        rw [hf.kind, ens.inv.kind m (ens.mem E), ens.kind]
        exact h.kind
      have hn := (ens.old E h.map hmem).1.nodes
      have := exact_put (c := c) (ens.good E (stable_inv E) h.inv) hn (ens.mem E) h2 h3 hf.ty hkind (by simp [Seg.elems, hf.store]) hf.snt
        (h4.trans (by simp [Coll.abs, TMap.abs, hn]))
      rwa [ens.ty] at this

example := C16_reserve_exactly (Sample.reach0 .split) 1 20

/-- **C16 fails**: an insertion of a non-copyable object into a full segment throws, and then the loop
`for(auto it=c.begin();it!=c.end();++it)` runs past the elements.  No allocation fails here. -/
theorem C16_traversal_after_insert :
    ∃ (c c' : Coll Nat) (w w' : World) (op : COp Nat) (src : Src Nat) (it : GIter), c.Reachable Sample.E0 .split w ∧ op.Inserts Sample.E0 c 1 2 src ∧
      op.run Sample.E0 c w = .exc (.notCopyConstructible 1) c' w' ∧ c'.abs = [(1, [5, 6])] ∧
      c'.begin Sample.E0 = some it ∧ ∀ fuel, c'.walk Sample.E0 c'.end it fuel = none := by
  refine ⟨Sample.w16c2, Sample.w16x, _, _, .insert ⟨2, 2, true, false, .copyExt 7⟩, .copyExt 7, _, Sample.w16reach.left, ⟨fun _ => rfl, rfl, rfl, rfl⟩, Sample.w16exc, rfl, rfl, ?_⟩
  intro fuel
  rcases fuel with _ | _ | _ | fuel <;> rfl

/-- The same with an exception thrown by the constructor of the new element. -/
theorem C16_traversal_after_throwing_constructor :
    ∃ (E : Env Nat) (c c' : Coll Nat) (w w' : World) (op : COp Nat) (src : Src Nat) (it : GIter), c.Reachable E .split w ∧ op.Inserts E c 0 2 src ∧
      op.run E c w = .exc .user c' w' ∧ c'.abs = [(0, [5, 6])] ∧ c'.begin E = some it ∧ ∀ fuel, c'.walk E c'.end it fuel = none := by
  refine ⟨_, Sample.w16uc2, Sample.w16ux, _, _, .emplace 0 (.emplaced 7), .emplaced 7, _, Sample.w16ureach.left, ⟨rfl, rfl, rfl⟩, Sample.w16uexc, rfl, rfl, ?_⟩
  intro fuel
  rcases fuel with _ | _ | _ | fuel <;> rfl

/-- **C16 fails** for `reserve` too: if the second of its allocations fails, `it!=c.end()` never becomes
false and the loop runs past the elements. -/
theorem C16_traversal_after_reserve :
    ∃ (E : Env Nat) (c c' : Coll Nat) (w w' : World) (it : GIter), c.Reachable E .split w ∧
      reserveT E 0 10 c w = .exc .badAlloc c' w' ∧ c'.abs = [(0, [5])] ∧ c'.begin E = some it ∧
      ∀ fuel, c'.walk E c'.end it fuel = none := by
  refine ⟨_, Sample.w16rc1, Sample.w16rx, _, _, _, Sample.w16rreach.left, Sample.w16rexc, rfl, rfl, ?_⟩
  intro fuel
  rcases fuel with _ | _ | fuel <;> rfl

/-- A segment with three elements and room for a fourth; a full one. -/
example : Sample.w17c4.Reachable (Sample.env fun t => t == 13) .split ⟨11, 13⟩ ∧
    COp.Inserts (Sample.env fun t => t == 13) Sample.w17c4 (.emplace 4 (.emplaced 8)) 2 3 (.emplaced 8) ∧
    Sample.w17c4.SrcFor 2 (.emplaced 8) 8 ∧ (Sample.w17c4.abs.elemsOf 2).length ≤ 3 ∧ ExactReserve (Sample.env fun t => t == 13) ∧
    Sample.w17c4.abs.elemsOf 2 ≠ [] ∧ (∃ n ∈ Sample.w17c4.map.nodes, n.seg.ty = 2 ∧ n.seg.size < n.seg.capacity) :=
  ⟨Sample.w17reach.left, ⟨rfl, rfl, rfl⟩, Or.inl ⟨rfl, rfl⟩, by decide, fun _ => rfl, by decide, by decide⟩

example : Sample.w16c2.Reachable Sample.E0 .split ⟨12, 13⟩ ∧
    COp.Inserts Sample.E0 Sample.w16c2 (.insert ⟨2, 2, true, false, .copyExt 7⟩) 1 2 (.copyExt 7) ∧
    (COp.insert ⟨2, 2, true, false, .copyExt 7⟩).Storable Sample.E0 Sample.w16c2 ∧
    Sample.w16c2.SrcFor 1 (.copyExt 7) 7 ∧ (Sample.w16c2.abs.elemsOf 1).length ≤ 2 ∧ ExactReserve Sample.E0 ∧ Sample.w16c2.abs.elemsOf 1 ≠ [] :=
  ⟨Sample.w16reach.left, ⟨fun _ => rfl, rfl, rfl, rfl⟩, Or.inr ⟨rfl, rfl⟩, Or.inl ⟨rfl, rfl⟩, by decide, fun _ => rfl, by decide⟩

/-- The index of the full segment has moved when `C16_traversal_after_insert` throws. -/
example : Moved Sample.w16c2 1 Sample.w16x := by
  unfold Moved
  decide

/-! ### C17 -/

/-- Nothing but elements of segment `t` changed, and their number is as before. -/
structure SameShape (c : Coll V) (t : Ty) (c' : Coll V) : Prop where
  types : c'.abs.types = c.abs.types
  others : ∀ u, u ≠ t → c'.abs.elemsOf u = c.abs.elemsOf u
  length : (c'.abs.elemsOf t).length = (c.abs.elemsOf t).length

theorem sameShape {c : Coll V} {w w' : World} (hc : c.Inv E w) {n : Node V} (hn : n ∈ c.map.nodes) {s : Seg V} {e : Exc}
    (h : Seg.RemFail E n.seg w e s w') : SameShape c n.seg.ty (c.put n s) := by
  have hu := put_abs E hc.map hn h.step.ty
  refine ⟨by rw [hu, Spec.State.update_types], fun u hne => ?_, ?_⟩
  · rw [hu, Spec.State.update_elemsOf (mem_types hn), if_neg hne]
  · rw [hu, Spec.State.update_elemsOf (mem_types hn), if_pos rfl, ← (Ens.refl E hc.map hn).elems E hc.map]
    exact h.size

/-- **C17** for `base_collection`: if move assignment throws during `erase(pos)`, the collection can be
used on; the other segments are untouched and the segment has as many elements as before.  Move
assignment is what throws. -/
theorem C17_base_collection {c : Coll V} {w : World} (h : c.Reachable E .packed w) {pos : GIter} {t : Ty} {n : Nat} (hp : c.At E pos (some (t, n))) :
    Runs (erase E pos) c w (fun _ _ _ => True)
      (fun e c' w' => c'.Reachable E .packed w' ∧ SameShape c t c' ∧ Traversed E c' c'.abs.flat ∧
        e = .user ∧ (E.traits t).nothrowAssign = false ∧ ∃ i, E.fault i = true) := by
  refine (erase_runs E pos t n c w h.inv hp).withEq.mono (fun _ _ _ _ => trivial) ?_
  rintro e c' w' ⟨⟨m, hm, rfl, -, s, rfl, hf, -⟩, he⟩
  have hr : (c.put m s).Reachable E .packed w' := by
    refine h.stepExc (.erase pos) ⟨_, _, hp⟩ h.kind (e := e) ?_
    show Prog.bind (erase E pos) _ c w = _
    unfold Prog.bind
    rw [he]
  exact ⟨hr, sameShape h.inv hm hf, traversed hr.inv, hf.exc, hf.throws, hf.fault⟩

example := C17_base_collection (Sample.reach0 .packed) (Sample.iter_two .packed)

/-- **C17** for all collections: `erase` does not throw if move assignment does not, or if the
element is the last of its segment; and if it throws, what `SameShape` says holds.

Missing: `any_collection` and `function_collection` otherwise, see `C17_any_collection`. -/
theorem C17_partial {c : Coll V} {w : World} (h : c.Reachable E k w) {pos : GIter} {t : Ty} {n : Nat} (hp : c.At E pos (some (t, n))) :
    Runs (erase E pos) c w (fun _ _ _ => True)
      (fun e c' _ => (E.traits t).nothrowAssign = false ∧ n + 1 < (c.abs.elemsOf t).length ∧ SameShape c t c' ∧ e = .user ∧ ∃ i, E.fault i = true) := by
  refine (erase_runs E pos t n c w h.inv hp).mono (fun _ _ _ _ => trivial) ?_
  rintro e c' w' ⟨m, hm, rfl, hn, s, rfl, hf, -⟩
  exact ⟨hf.throws, (Ens.refl E h.map hm).elems E h.map ▸ hn, sameShape h.inv hm hf, hf.exc, hf.fault⟩

example (k : Kind) := C17_partial (Sample.reach0 k) (Sample.iter_two k)

/-- **C17 fails** for `any_collection`: move assignment throws during `c.erase(c.begin())`; then one more
element is emplaced, and the iterator returned does not refer to any element. -/
theorem C17_any_collection :
    ∃ (E : Env Nat) (c c1 c2 : Coll Nat) (w w1 w2 : World) (it r : GIter), c.Reachable E .split w ∧ c.At E it (some (2, 0)) ∧
      (COp.erase it).run E c w = .exc .user c1 w1 ∧ (c1.abs.elemsOf 2).length = 3 ∧
      emplace E 4 (.emplaced 9) c1 w1 = .ok r c2 w2 ∧ (c2.abs.elemsOf 2).length = 4 ∧ (c2.abs.elemsOf 2)[3]? = some 9 ∧
      c2.map.deref r.segpos = none := by
  refine ⟨_, Sample.w17c4, Sample.w17x, _, _, _, _, _, _, Sample.w17reach.left, ?_, Sample.w17exc, rfl, rfl, rfl, rfl, rfl⟩
  exact ⟨rfl, rfl, rfl, _, .head _, rfl, rfl, by decide, rfl⟩

/-- **C17 fails whenever** `erase` throws in an `any_collection` or a `function_collection` whose segment
is not full: if one more element is emplaced in the segment, the iterator returned does not refer to any
element. -/
theorem C17_any_collection_always {c c1 c2 : Coll V} {w w1 w2 : World} (h : c.Reachable E .split w) {pos r : GIter} {t : Ty} {n : Nat}
    (hp : c.At E pos (some (t, n))) {e : Exc} (he : erase E pos c w = .exc e c1 w1) (hf : ¬ Full c t) {u : TI} (hu : E.tiTy u = t) {src : Src V}
    (hi : emplace E u src c1 w1 = .ok r c2 w2) :
    (c2.abs.elemsOf t).length = (c.abs.elemsOf t).length + 1 ∧ c2.map.deref r.segpos = none := by
  have h1 := erase_short h.inv h.kind hp
  unfold Leaves at h1
  rw [he] at h1
  obtain ⟨m, hm, rfl, s, rfl, hfail, hs⟩ := h1
  have hw := (h.inv.core E).weak E
  have hput := Good.put E (stable_weak E) hw hm hfail.step (by rw [hfail.next]; exact Nat.le_refl _) hfail.weak
  have hle : m.seg.size ≤ m.seg.capacity := (h.inv.mem.segs m hm).core.le
  have hcap : s.capacity = m.seg.capacity := hfail.store.2
  have h2 := emplace_short (E := E) hput (TMap.put_mem hm) hs (u := u)
    (by
      show s.size < s.capacity
      rw [hfail.size, hcap]
      exact Nat.lt_of_le_of_ne hle fun h => hf ⟨m, hm, rfl, h⟩) (hu.trans hfail.step.ty.symm) src
  unfold Leaves at h2
  rw [hi] at h2
  obtain ⟨h3, h4⟩ := h2
  refine ⟨?_, h3⟩
  rw [← (Ens.refl E h.map hm).elems E h.map, ← Seg.size_eq, ← hfail.size]
  exact hfail.step.ty ▸ h4

/-- The segment of `C17_any_collection` is not full; `erase` throws and `emplace` succeeds. -/
example : ∃ it r c2 w2, Sample.w17c4.Reachable (Sample.env fun t => t == 13) .split ⟨11, 13⟩ ∧
    Sample.w17c4.At (Sample.env fun t => t == 13) it (some (2, 0)) ∧
    erase (Sample.env fun t => t == 13) it Sample.w17c4 ⟨11, 13⟩ = .exc .user Sample.w17x ⟨11, 14⟩ ∧ ¬ Full Sample.w17c4 2 ∧
    emplace (Sample.env fun t => t == 13) 4 (.emplaced 9) Sample.w17x ⟨11, 14⟩ = .ok r c2 w2 :=
  ⟨⟨⟨some 4, 1⟩, ⟨none, 1⟩, ⟨9, 0⟩⟩, _, _, _, Sample.w17reach.left, ⟨rfl, rfl, rfl, _, .head _, rfl, rfl, by decide, rfl⟩, rfl,
    (by rintro ⟨n, hn, ht, hs⟩; revert n; decide), rfl⟩

/-- **C17 holds in a full segment**: if `erase` throws in an `any_collection` or a `function_collection`
whose segment is full, then the next element emplaced in the segment has it enlarged, which mends the
collection. It satisfies all its invariants, the element is the last of the segment, the other elements are as
`erase` left them, and the iterator returned refers to the element. -/
theorem C17_full_segment {c c1 c2 : Coll V} {w w1 w2 : World} (h : c.Reachable E .split w) {pos r : GIter} {t : Ty} {n : Nat}
    (hp : c.At E pos (some (t, n))) {e : Exc} (he : erase E pos c w = .exc e c1 w1) (hf : Full c t) {u : TI} (hu : E.tiTy u = t) {src : Src V}
    {v : V} (hv : src = .emplaced v ∨ src = .copyExt v ∨ src = .moveExt v) (hi : emplace E u src c1 w1 = .ok r c2 w2) :
    c2.Inv E w2 ∧ c2.abs = c1.abs.update t (fun _ => c1.abs.elemsOf t ++ [v]) ∧ (c1.abs.elemsOf t).length = (c.abs.elemsOf t).length ∧
      c2.At E r (some (t, (c.abs.elemsOf t).length)) ∧ c2.map.deref r.segpos = some v := by
  have h1 := erase_short h.inv h.kind hp
  unfold Leaves at h1
  rw [he] at h1
  obtain ⟨m, hm, rfl, s, rfl, hfail, hs⟩ := h1
  have hw := (h.inv.core E).weak E
  have hput := Good.put E (stable_weak E) hw hm hfail.step (by rw [hfail.next]; exact Nat.le_refl _) hfail.weak
  have hcap : s.capacity = m.seg.capacity := hfail.store.2
  have hst : s.ty = m.seg.ty := hfail.step.ty
  have hx : src.ext = true ∧ src.val Vec.nil = some v := by
    rcases hv with rfl | rfl | rfl <;> exact ⟨rfl, rfl⟩
  obtain ⟨hfull, hlen⟩ := hf.get h.inv hm rfl
  have h2 := emplace_full E hput (TMap.put_mem hm) (n := { m with seg := s })
    (fun a ha hne => by
      rcases (TMap.mem_put_iff hw.map.ids hm).1 ha with ⟨ha, hne⟩ | rfl
      · exact (h.inv.mem.segs a ha).weaken E (by rw [hfail.next]; exact Nat.le_refl _)
      · exact absurd rfl hne)
    (by rw [show s.kind = m.seg.kind from hfail.step.kind, ← h.kind]; exact h.inv.map.kind m hm)
    (by show s.size = s.capacity; rw [hfail.size, hcap, hfull]) (u := u) (hu.trans hst.symm) hx.1 hx.2
  unfold Runs at h2
  rw [hi] at h2
  obtain ⟨b1, -, b3, b4⟩ := h2
  simp only [hst, hfail.size, hlen] at b3 b4
  have he1 : (c.put m s).abs.elemsOf m.seg.ty = s.elems := by
    rw [put_abs E hw.map hm hst, Spec.State.update_elemsOf (mem_types hm), if_pos rfl]
  have hmt : m.seg.ty ∈ (c.put m s).abs.types := by
    rw [put_abs E hw.map hm hst, Spec.State.update_types]
    exact mem_types hm
  refine ⟨b1, by rw [he1]; exact b4, by rw [he1, ← hlen, ← hfail.size, Seg.size_eq], b3, ?_⟩
  obtain ⟨x, hx1, hx2⟩ := deref_at E (Inv.core E b1) b3
  have hget : c2.abs.elemsOf m.seg.ty = s.elems ++ [v] := by
    rw [b4, Spec.State.update_elemsOf hmt, if_pos rfl]
  have hx3 : (c2.abs.elemsOf m.seg.ty)[(c.abs.elemsOf m.seg.ty).length]? = some x := by
    rw [← hx2]
    simp only [Spec.State.at?, Spec.State.elemsOf]
    cases c2.abs.get m.seg.ty <;> rfl
  rw [hget, ← hlen, ← hfail.size, Seg.size_eq] at hx3
  rw [hx1, ← hx3]
  simp

/-- Four elements in a segment with room for four. -/
example : ∃ it r c2 w2, Sample.w17d4.Reachable (Sample.env fun t => t == 14) .split ⟨11, 14⟩ ∧
    Sample.w17d4.At (Sample.env fun t => t == 14) it (some (2, 0)) ∧
    erase (Sample.env fun t => t == 14) it Sample.w17d4 ⟨11, 14⟩ = .exc .user Sample.w17dx ⟨11, 15⟩ ∧ Full Sample.w17d4 2 ∧
    emplace (Sample.env fun t => t == 14) 4 (.emplaced 9) Sample.w17dx ⟨11, 15⟩ = .ok r c2 w2 := by
  have h := Sample.w17dok
  cases hr : emplace (Sample.env fun t => t == 14) 4 (.emplaced 9) Sample.w17dx ⟨11, 15⟩ with
  | ok r c2 w2 =>
    exact ⟨⟨⟨some 4, 1⟩, ⟨none, 1⟩, ⟨9, 0⟩⟩, r, c2, w2, Sample.w17dreach.left, ⟨rfl, rfl, rfl, _, .head _, rfl, rfl, by decide, rfl⟩,
      Sample.w17dexc, ⟨_, .head _, rfl, rfl⟩, rfl⟩
  | exc e c2 w2 => rw [hr] at h; cases h
  | ub => rw [hr] at h; cases h

/-- So, after a throwing `erase` in an `any_collection` or a `function_collection`, an element emplaced in the
segment can be reached with the iterator returned **exactly if** the segment was full. -/
theorem C17_exactly {c c1 c2 : Coll V} {w w1 w2 : World} (h : c.Reachable E .split w) {pos r : GIter} {t : Ty} {n : Nat}
    (hp : c.At E pos (some (t, n))) {e : Exc} (he : erase E pos c w = .exc e c1 w1) {u : TI} (hu : E.tiTy u = t) {src : Src V} {v : V}
    (hv : src = .emplaced v ∨ src = .copyExt v ∨ src = .moveExt v) (hi : emplace E u src c1 w1 = .ok r c2 w2) :
    c2.map.deref r.segpos = some v ↔ Full c t := by
  constructor
  · intro hd
    refine Classical.byContradiction fun hf => ?_
    rw [(C17_any_collection_always h hp he hf hu hi).2] at hd
    cases hd
  · intro hf
    exact (C17_full_segment h hp he hf hu hv hi).2.2.2.2

/-- Both cases occur. -/
example : ∃ it, Sample.w17d4.At (Sample.env fun t => t == 14) it (some (2, 0)) ∧ Full Sample.w17d4 2 ∧
    Sample.w17c4.At (Sample.env fun t => t == 13) it (some (2, 0)) ∧ ¬ Full Sample.w17c4 2 :=
  ⟨⟨⟨some 4, 1⟩, ⟨none, 1⟩, ⟨9, 0⟩⟩, ⟨rfl, rfl, rfl, _, .head _, rfl, rfl, by decide, rfl⟩, ⟨_, .head _, rfl, rfl⟩,
    ⟨rfl, rfl, rfl, _, .head _, rfl, rfl, by decide, rfl⟩, by rintro ⟨n, hn, ht, hs⟩; revert n; decide⟩

/-- The first of three elements whose move assignment may throw. -/
example : ∃ it, Sample.w17c4.Reachable (Sample.env fun t => t == 13) .split ⟨11, 13⟩ ∧
    Sample.w17c4.At (Sample.env fun t => t == 13) it (some (2, 0)) :=
  ⟨⟨⟨some 4, 1⟩, ⟨none, 1⟩, ⟨9, 0⟩⟩, Sample.w17reach.left, rfl, rfl, rfl, _, .head _, rfl, rfl, by decide, rfl⟩

example (k : Kind) : ∃ it, (Sample.c0 k).Reachable Sample.E0 k (Sample.w0 k) ∧ (Sample.c0 k).At Sample.E0 it (some (2, 0)) := by
  obtain ⟨it, hit⟩ := exists_at (Sample.reach0 k).inv (p := some (2, 0)) (by rw [Sample.abs0]; exact ⟨_, rfl, by decide⟩)
  exact ⟨it, Sample.reach0 k, hit⟩

/-! ### C18 -/

/-- **C18** for types that are copyable or have a move constructor that does not throw.

Missing: types that are neither, see `C18_throwing_move`. -/
theorem C18_partial {c : Coll V} {w : World} (h : c.Reachable E k w) {op : COp V} {t : Ty} {n : Nat} {src : Src V} {v : V}
    (hop : op.Inserts E c t n src) (hs : c.SrcFor t src v) (hc : src.copies = false)
    (ht : (E.traits t).copyable = true ∨ (E.traits t).nothrowMove = true) :
    Runs (op.run E) c w (fun _ _ _ => True) (fun e _ _ => ∀ u, e ≠ .notCopyConstructible u) := by
  refine (inserts_runs h.inv hop hs).mono (fun _ _ _ _ => trivial) ?_
  rintro e c' w' (h' | ⟨-, h', -⟩) u rfl
  · rcases h'.exc E h.map with ⟨h1, -⟩ | ⟨h1, -⟩ | ⟨h1, -⟩ | ⟨-, h1, h2⟩
    · cases h1
    · cases h1
    · cases h1
    · rw [h1] at ht
      rw [hc] at h2
      simp_all
  · cases h'

/-- **C18 fails**: emplacing a second element of a type that is neither copyable nor nothrow-movable
throws `not_copy_constructible`, in all collections. -/
theorem C18_throwing_move :
    (∃ (c c' : Coll Nat) (w w' : World), c.Reachable Sample.E0 .packed w ∧ (Sample.E0.traits 4).moveAssignable = true ∧
      (COp.emplace 8 (.emplaced 6)).run Sample.E0 c w = .exc (.notCopyConstructible 4) c' w') ∧
    (∃ (c c' : Coll Nat) (w w' : World), c.Reachable Sample.E0 .split w ∧
      (COp.emplace 8 (.emplaced 6)).run Sample.E0 c w = .exc (.notCopyConstructible 4) c' w') :=
  ⟨⟨_, _, _, _, Sample.w18reach.left, rfl, Sample.w18exc⟩, ⟨_, _, _, _, Sample.w18sreach.left, Sample.w18sexc⟩⟩

/-- **C18 fails whenever** elements are neither copyable nor nothrow-movable and their segment is full,
but not empty: no insertion into the segment succeeds. -/
theorem C18_full_segment {c : Coll V} {w : World} (h : c.Reachable E k w) {op : COp V} {t : Ty} {n : Nat} {src : Src V} {v : V}
    (hop : op.Inserts E c t n src) (hs : c.SrcFor t src v) (hc : (E.traits t).copyable = false) (hm : (E.traits t).nothrowMove = false)
    (hf : Full c t) (hne : c.abs.elemsOf t ≠ []) :
    Runs (op.run E) c w (fun _ _ _ => False)
      (fun e _ _ => e = .notCopyConstructible t ∨ ((e = .badAlloc ∨ e = .user) ∧ ∃ i, E.fault i = true) ∨
        (e = .lengthError ∧ E.TooMany t ((c.abs.elemsOf t).length + 1))) := by
  have hf' := hf
  obtain ⟨a, ha, hta, hsz⟩ := hf'
  have hel : a.seg.elems = c.abs.elemsOf t := hta ▸ (Ens.refl E h.map ha).elems E h.map
  refine ((inserts_runs h.inv hop hs).withLeaves (inserts_stuck h.inv hop ha hta hsz (hel ▸ hne) ⟨hc, hm⟩)).mono (fun _ _ _ h => h.2) ?_
  rintro e c' w' ⟨h' | ⟨h', -⟩, -⟩
  · rcases h'.exc E h.map with ⟨rfl, hf⟩ | ⟨rfl, hf⟩ | hl | ⟨rfl, -⟩
    · exact Or.inr (Or.inl ⟨Or.inl rfl, hf⟩)
    · exact Or.inr (Or.inl ⟨Or.inr rfl, hf⟩)
    · exact Or.inr (Or.inr hl)
    · exact Or.inl rfl
  · refine absurd ?_ h'
    have ht : t ∈ c.abs.types := hta ▸ mem_types ha
    cases op <;> simp only [COp.Inserts] at hop <;> simp only [COp.Storable]
    · obtain ⟨-, rfl, -⟩ := hop; exact Or.inl ht
    · obtain ⟨-, rfl, -⟩ := hop; exact Or.inl ht

/-- The collections of `C18_throwing_move`. -/
example : (∃ w, Sample.w18c1.Reachable Sample.E0 .packed w) ∧ COp.Inserts Sample.E0 Sample.w18c1 (.emplace 8 (.emplaced 6)) 4 1 (.emplaced 6) ∧
    Sample.w18c1.SrcFor 4 (.emplaced 6) 6 ∧ (Sample.E0.traits 4).copyable = false ∧ (Sample.E0.traits 4).nothrowMove = false ∧
    Full Sample.w18c1 4 ∧ Sample.w18c1.abs.elemsOf 4 ≠ [] :=
  ⟨⟨_, Sample.w18reach.left⟩, ⟨rfl, rfl, rfl⟩, Or.inl ⟨rfl, rfl⟩, rfl, rfl, ⟨_, .head _, rfl, rfl⟩, by decide⟩

/-- A second element of type 1, which is movable only. -/
example (k : Kind) : (Sample.c0 k).Reachable Sample.E0 k (Sample.w0 k) ∧
    COp.Inserts Sample.E0 (Sample.c0 k) (.insert ⟨2, 2, true, false, .moveExt 5⟩) 1 1 (.moveExt 5) ∧
    (Sample.c0 k).SrcFor 1 (.moveExt 5) 5 ∧ (Sample.E0.traits 1).copyable = false ∧ (Sample.E0.traits 1).nothrowMove = true := by
  refine ⟨Sample.reach0 k, ⟨fun h => by simp at h, rfl, ?_, rfl⟩, Or.inl ⟨rfl, rfl⟩, rfl, rfl⟩
  rw [Sample.abs0]; rfl

end PolyColl.Props
