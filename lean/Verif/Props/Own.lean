import Verif.Props.SampleRange
import Verif.Lemmas.OwnColl
import Verif.Props.Basic
import Verif.Props.SampleData
import Verif.Model.Reading

/-!
# C73: every buffer has one owner

Statements list the blocks of memory that collections hold: the nodes of the map, the buffers of
the vectors of elements and of the indexes.  Block 0 stands for "no buffer".
-/

namespace PolyColl.Props
open PolyColl Prog Coll

variable {V : Type} {E : Env V} {k : Kind}

/-- The buffers of a segment. -/
def storage (s : Seg V) : List Nat :=
  match s.be with
  | .packed x => [x.s.blk]
  | .split x => [x.s.blk, x.i.blk]

/-- All blocks of memory of a collection. -/
def memory (c : Coll V) : List Nat := c.map.nodes.flatMap fun n => n.id :: storage n.seg

theorem count_storage (b : Nat) (s : Seg V) : (storage s).count b = s.own b := by
  unfold storage Seg.own Backend.own
  cases s.be <;> simp [Packed.own, Split.own, Vec.own, one, List.count_cons]
  omega

theorem count_memory (b : Nat) (c : Coll V) : (memory c).count b = own b c := by
  unfold memory own TMap.own TMap.nown
  rw [List.count_flatMap]
  congr 1
  refine List.map_congr_left fun n _ => ?_
  simp only [Function.comp, List.count_cons, count_storage, Node.own, one, beq_iff_eq]
  omega

theorem count_all (b N : Nat) (s : Sys V) : ((List.range N).flatMap fun i => memory (s i)).count b = sown b N s := by
  unfold sown
  rw [List.count_flatMap]
  congr 1
  exact List.map_congr_left fun i _ => count_memory b (s i)

/-- **C73.**  In a program with any number of collections, whatever has been done with them and whatever
was thrown: no block of memory belongs to two collections, to two segments, or to a segment in two
roles. -/
theorem C73_owner {sub : Ty → TI} (hsub : ∀ t, E.tiTy (sub t) = t) {s : Sys V} {w : World} (h : Reach E k sub (Arg.OK E) s w) (N : Nat) :
    (((List.range N).flatMap fun i => memory (s i)).filter (· ≠ 0)).Nodup := by
  refine List.nodup_iff_count.2 fun b => ?_
  by_cases hb : b = 0
  · rw [List.count_eq_zero.2 (by simp [hb])]; exact Nat.zero_le _
  · rw [List.count_filter (by simpa using hb), count_all]
    refine Nat.le_trans (reach_own hb hsub h N) ?_
    unfold fresh; split <;> omega

/-- **C73**, time: all that memory has been allocated already. -/
theorem C73_allocated {c : Coll V} {w : World} (h : c.Possible E k w) : ∀ b ∈ memory c, b < w.next := by
  obtain ⟨sub, s, i, hsub, hr, rfl⟩ := h
  intro b hb
  by_cases h0 : b = 0
  · have := (reach_inv E hsub hr).2; omega
  have h1 := List.count_pos_iff.2 hb
  rw [count_memory] at h1
  have h2 := reach_own h0 hsub hr (i + 1)
  rw [sown_succ] at h2
  unfold fresh at h2
  split at h2 <;> omega

example (k : Kind) := C73_allocated (Sample.reach0 k).possible

theorem flat_eq {α : Type} {f : α → List Nat} {l : List α} (h : (l.flatMap f).Nodup) {x y : α} {b : Nat} (hx : x ∈ l) (hy : y ∈ l) (bx : b ∈ f x) (by' : b ∈ f y) : x = y := by
  induction l with
  | nil => simp at hx
  | cons a l ih =>
    rw [List.flatMap_cons, List.nodup_append] at h
    rcases List.mem_cons.1 hx with rfl | hx' <;> rcases List.mem_cons.1 hy with rfl | hy'
    · rfl
    · exact absurd rfl (h.2.2 b bx b (List.mem_flatMap.2 ⟨y, hy', by'⟩))
    · exact absurd rfl (h.2.2 b by' b (List.mem_flatMap.2 ⟨x, hx', bx⟩))
    · exact ih h.2.1 hx' hy'

/-- **C73**, segments: of one collection or of two, segments that are not the same have no buffer in common. -/
theorem C73_segments {sub : Ty → TI} (hsub : ∀ t, E.tiTy (sub t) = t) {s : Sys V} {w : World} (h : Reach E k sub (Arg.OK E) s w) {i j : Nat} {n m : Node V}
    (hn : n ∈ (s i).map.nodes) (hm : m ∈ (s j).map.nodes) {b : Nat} (hb : b ≠ 0) (bn : b ∈ storage n.seg) (bm : b ∈ storage m.seg) : i = j ∧ n = m := by
  have h0 := C73_owner hsub h (i + j + 1)
  rw [List.filter_flatMap] at h0
  have hi : i = j := flat_eq h0 (List.mem_range.2 (by omega)) (List.mem_range.2 (by omega))
    (b := b) (List.mem_filter.2 ⟨List.mem_flatMap.2 ⟨n, hn, List.mem_cons_of_mem _ bn⟩, by simpa using hb⟩)
    (List.mem_filter.2 ⟨List.mem_flatMap.2 ⟨m, hm, List.mem_cons_of_mem _ bm⟩, by simpa using hb⟩)
  subst hi
  refine ⟨rfl, ?_⟩
  have h1 : ((memory (s i)).filter (· ≠ 0)).Nodup := by
    refine List.Nodup.sublist ?_ h0
    rw [List.flatMap_def]
    exact List.sublist_flatten_of_mem (List.mem_map.2 ⟨i, List.mem_range.2 (by omega), rfl⟩)
  unfold memory at h1
  rw [List.filter_flatMap] at h1
  exact flat_eq h1 hn hm (b := b) (List.mem_filter.2 ⟨List.mem_cons_of_mem _ bn, by simpa using hb⟩) (List.mem_filter.2 ⟨List.mem_cons_of_mem _ bm, by simpa using hb⟩)

theorem deref_blk {s : Vec V} {w : World} (h : s.WF w) {p : Ptr} {v : V} (hd : s.deref p = some v) : s.blk = p.blk ∧ p.blk ≠ 0 := by
  unfold Vec.deref at hd
  split at hd
  · next e =>
    obtain ⟨h1, -⟩ := List.getElem?_eq_some_iff.1 hd
    have h2 := h.le
    have h3 := h.nul
    unfold Vec.size at h2
    exact ⟨e.symm, by omega⟩
  · cases hd

/-- An iterator or a pointer to an element of a sound segment points into one of its buffers. -/
theorem points_into {x : Seg V} {w : World} (h : x.Core E w) {p : Ptr} {v : V} (hd : x.be.derefBase p = some v ∨ x.be.derefLocal p = some v) :
    p.blk ∈ storage x ∧ p.blk ≠ 0 := by
  unfold Seg.Core Backend.Inv at h
  unfold storage
  unfold Backend.derefBase Backend.derefLocal Backend.store at hd
  cases hb : x.be with
  | packed y =>
    simp only [hb] at h hd ⊢
    have := deref_blk h (hd.elim id id)
    exact ⟨by simp [this.1], this.2⟩
  | split y =>
    simp only [hb] at h hd ⊢
    rcases hd with hd | hd
    · unfold Split.derefBase at hd
      split at hd
      · next q hq => have := deref_blk h.iwf hq; exact ⟨by simp [this.1], this.2⟩
      · cases hd
    · have := deref_blk h.swf hd; exact ⟨by simp [this.1], this.2⟩

/-- **C73**, consequence for two collections: nothing that points to an element of one points to an element of
the other. -/
theorem C73_apart {c d : Coll V} {w : World} (h : Reachable2 E k c d w) {o o' : Sort'} {a b : LIter} (hp : a.pos = b.pos) {v : V} (hv : c.derefAt o a = some v) :
    d.derefAt o' b = none := by
  have key : ∀ {c : Coll V} (h : c.Reachable E k w) {o : Sort'} {l : LIter} {v : V}, c.derefAt o l = some v → ∃ n ∈ c.map.nodes, l.pos.blk ∈ storage n.seg ∧ l.pos.blk ≠ 0 := by
    intro c h o l v hv
    have : ∃ n ∈ c.map.nodes, n.seg.be.derefBase l.pos = some v ∨ n.seg.be.derefLocal l.pos = some v := by
      cases o with
      | base => obtain ⟨n, h1, h2⟩ := List.exists_of_findSome?_eq_some hv; exact ⟨n, h1, .inl h2⟩
      | terminal => obtain ⟨n, h1, h2⟩ := List.exists_of_findSome?_eq_some hv; exact ⟨n, h1, .inr h2⟩
    obtain ⟨n, h1, h2⟩ := this
    exact ⟨n, h1, points_into (h.inv.mem.segs n h1).core h2⟩
  obtain ⟨n, hn, n1, n2⟩ := key h.left hv
  cases hd : d.derefAt o' b with
  | none => rfl
  | some v' =>
    obtain ⟨m, hm, m1, -⟩ := key h.right hd
    obtain ⟨sub, H, s, i, j, hsub, hr, hij, -, -, rfl, rfl⟩ := h
    rw [← hp] at m1
    exact absurd (C73_segments hsub (GoodReach.reach E hr) hn hm n2 n1 m1).1 hij

example (k : Kind) {b : LIter} (hb : (Sample.lbase k 1).pos = b.pos) : (Sample.c1 k).derefAt .terminal b = none :=
  C73_apart (Sample.reach01 k) (o := .base) hb (v := 2) (by cases k <;> rfl)

/-- **C73**, consequence for one collection: an iterator or pointer refers to an element of one segment only. -/
theorem C73_element {c : Coll V} {w : World} (h : c.Reachable E k w) {n m : Node V} (hn : n ∈ c.map.nodes) (hm : m ∈ c.map.nodes) {p : Ptr} {v v' : V}
    (h1 : n.seg.be.derefBase p = some v ∨ n.seg.be.derefLocal p = some v) (h2 : m.seg.be.derefBase p = some v' ∨ m.seg.be.derefLocal p = some v') : n = m := by
  have a1 := points_into (h.inv.mem.segs n hn).core h1
  have a2 := points_into (h.inv.mem.segs m hm).core h2
  obtain ⟨sub, H, s, i, hsub, hr, -, rfl⟩ := h
  exact (C73_segments hsub (GoodReach.reach E hr) hn hm a1.2 a1.1 a2.1).2

/-- The sample program's two collections and the memory they hold: nodes, elements and, for `any_collection`,
indexes. -/
example : ∃ (sub : Ty → TI) (s : Sys Nat) (i j : Nat), (∀ t, Sample.E0.tiTy (sub t) = t) ∧ Reach Sample.E0 .packed sub (Arg.OK Sample.E0) s (Sample.w0 .packed) ∧ i ≠ j ∧
    memory (s i) = [21, 25, 7, 26, 2, 0, 15, 19] ∧ memory (s j) = [34, 38, 28, 39] := by
  obtain ⟨sub, H, s, i, j, hsub, hr, hij, -, -, h1, h2⟩ := Sample.reach01 .packed
  exact ⟨sub, s, i, j, hsub, GoodReach.reach _ hr, hij, by rw [h1]; rfl, by rw [h2]; rfl⟩
example : ∃ (sub : Ty → TI) (s : Sys Nat) (i j : Nat), (∀ t, Sample.E0.tiTy (sub t) = t) ∧ Reach Sample.E0 .split sub (Arg.OK Sample.E0) s (Sample.w0 .split) ∧ i ≠ j ∧
    memory (s i) = [33, 31, 38, 12, 40, 39, 4, 2, 6, 24, 22, 29] ∧ memory (s j) = [53, 51, 58, 44, 60, 59] := by
  obtain ⟨sub, H, s, i, j, hsub, hr, hij, -, -, h1, h2⟩ := Sample.reach01 .split
  exact ⟨sub, s, i, j, hsub, GoodReach.reach _ hr, hij, by rw [h1]; rfl, by rw [h2]; rfl⟩

/-- An element of the first, reached by a `local_base_iterator` and by a `local_iterator`. -/
example : Reachable2 Sample.E0 .split (Sample.c0 .split) (Sample.c1 .split) (Sample.w0 .split) ∧ (Sample.c0 .split).derefAt .base ⟨MapIt.mk none 0, ⟨39, 1⟩⟩ = some 2 ∧
    (Sample.c0 .split).derefAt .terminal ⟨MapIt.mk none 0, ⟨40, 1⟩⟩ = some 2 ∧ (Sample.c0 .split).map.nodes ≠ [] := ⟨Sample.reach01 _, rfl, rfl, by decide⟩

end PolyColl.Props
