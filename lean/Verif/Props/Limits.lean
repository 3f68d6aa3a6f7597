import Verif.Lemmas.LimitsColl
import Verif.Props.Exceptions
import Verif.Props.SampleData
import Verif.Props.SampleFail

/-!
# C72: sizes stay within the limits of the vectors

Statements speak of segments' `size()` and `capacity()` and of what `max_size()` of the vectors is.
-/

namespace PolyColl.Props
open PolyColl Prog Coll

variable {V : Type} {E : Env V} {k : Kind}

/-- The index of a segment, if it has one. -/
def indexOf (s : Seg V) : Option (Vec Ptr) :=
  match s.be with
  | .packed _ => none
  | .split x => some x.i

/-- **C72.**  At any time, also after any exceptions, in every segment: there are no more elements
than the capacity, and the capacity does not exceed `max_size()` of the vector (if the vectors of the library
see to that); and the same holds of the index. -/
theorem C72_sizes {c : Coll V} {w : World} (h : c.Possible E k w) :
    ∀ n ∈ c.map.nodes, n.seg.size ≤ n.seg.capacity ∧ (E.Fits → n.seg.capacity ≤ E.maxSize n.seg.ty) ∧
      ∀ i, indexOf n.seg = some i → i.size ≤ i.cap ∧ (E.Fits → i.cap ≤ E.idxMaxSize) := by
  obtain ⟨sub, s, i, -, hr, rfl⟩ := h
  intro n hn
  have := (reach_lim hr).2 i n hn
  unfold SegLim SLim at this
  unfold Seg.size Seg.capacity indexOf Seg.ty at *
  cases hb : n.seg.be with
  | packed x =>
    rw [hb] at this
    exact ⟨this.2.size, this.2.max, by simp⟩
  | split x =>
    rw [hb] at this
    exact ⟨this.2.1.size, this.2.1.max, by simp only [Option.some.injEq]; rintro _ rfl; exact ⟨this.2.2.size, this.2.2.max⟩⟩

/-- **C72**, contents: a segment never has more elements than `max_size()` of its vector, and those with an
index have fewer than `max_size()` of the index. -/
theorem C72_contents (hf : E.Fits) {c : Coll V} {w : World} (h : c.Reachable E k w) (t : Ty) (ht : t ∈ c.abs.types) :
    (c.abs.elemsOf t).length ≤ E.maxSize t ∧ (k = .split → (c.abs.elemsOf t).length < E.idxMaxSize) := by
  obtain ⟨n, hn, rfl⟩ := types_mem ht
  have hl : n.seg.size = (c.abs.elemsOf n.seg.ty).length := by
    rw [Seg.size_eq, (Ens.refl E h.map hn).elems E h.map]
  have h1 := C72_sizes h.possible n hn
  refine ⟨by have := h1.2.1 hf; omega, fun hk => ?_⟩
  have hkk := (h.map.kind n hn).trans (h.kind.trans hk)
  have hi := h.inv.mem.segs n hn
  rw [← hl]
  cases hb : n.seg.be with
  | packed x => simp [Seg.kind, hb, Backend.kind] at hkk
  | split x =>
    have h2 := h1.2.2 x.i (by simp [indexOf, hb])
    have := h2.2 hf
    have h3 : x.i.size = x.s.size + 1 := by
      have := (hi : n.seg.Inv E w).core
      unfold Seg.Core Backend.Inv at this
      rw [hb] at this
      exact this.isize E
    have h4 : n.seg.size = x.s.size := by simp [Seg.size, hb, Backend.store]
    omega

/-- **C72**, full segments: if a segment has as many elements as fit, nothing can be added to it: insertion
of one more does not return.  If nothing else goes wrong, it throws `length_error`. -/
theorem C72_full (hf : E.Fits) {c : Coll V} {w : World} (h : c.Reachable E k w) {op : COp V} {t : Ty} {n : Nat} {src : Src V} {v : V}
    (hop : op.Inserts E c t n src) (hs : c.SrcFor t src v)
    (hfull : (c.abs.elemsOf t).length = E.maxSize t ∨ k = .split ∧ (c.abs.elemsOf t).length + 1 = E.idxMaxSize) :
    Runs (op.run E) c w (fun _ _ _ => False)
      (fun e _ _ => (∀ i, E.fault i = false) → op.Storable E c → (E.traits t).copyable = true → e = .lengthError) := by
  refine (inserts_runs h.inv hop hs).withEq.mono ?_ ?_
  case refine_2 =>
    rintro e c' w' ⟨h' | ⟨h', -⟩, -⟩ hnf hst hcp
    · rcases h'.exc E h.map with ⟨-, i, hi⟩ | ⟨-, i, hi⟩ | ⟨rfl, -⟩ | ⟨-, h1, -⟩
      · exact absurd hi (by simp [hnf i])
      · exact absurd hi (by simp [hnf i])
      · rfl
      · exact absurd hcp (by simp [h1])
    · exact absurd hst h'
  rintro _ c' w' ⟨⟨hi, -⟩, hr⟩
  have hp := hi.put E h.map
  have h' := h.step op (inserts_pre hop hs) hr
  have := C72_contents hf h' t ((hp.types t).2 (Or.inr rfl))
  rw [hp.elemsOf h.nodup, if_pos rfl] at this
  have hle := hi.le E h.map
  simp only [List.length_append, List.length_take, List.length_drop, List.length_cons, List.length_nil] at this
  rcases hfull with hfull | ⟨hk, hfull⟩
  · have := this.1; omega
  · have := this.2 hk; omega

/-- The sample's vectors comply: they double their capacity, up to `max_size()`. -/
theorem sample_fits : Sample.E0.Fits :=
  ⟨fun m s n h => by show max (min (2 * s) m) n ≤ m; omega, fun _ _ h => h, fun _ h => h, fun _ => Nat.succ_le_succ (Nat.zero_le _)⟩

theorem sample_fits4 : Sample.E4.Fits :=
  ⟨fun m s n h => by show max (min (2 * s) m) n ≤ m; omega, fun _ _ h => h, fun _ h => h, fun _ => Nat.succ_le_succ (Nat.zero_le _)⟩

example (k : Kind) := C72_sizes (Sample.reach0 k).possible

example (k : Kind) := C72_contents sample_fits (Sample.reach0 k) 0 (by rw [Sample.abs0]; decide)

/-- A collection with elements of several types. -/
example (k : Kind) : (Sample.c0 k).Reachable Sample.E0 k (Sample.w0 k) ∧ (0 : Ty) ∈ (Sample.c0 k).abs.types :=
  ⟨Sample.reach0 k, by rw [Sample.abs0]; decide⟩

/-- Two elements in a segment for no more than two, and an attempt to add a third. -/
example : Sample.wmxc2.Reachable Sample.E4 .split ⟨12, 13⟩ ∧ (Sample.wmxc2.abs.elemsOf 0).length = Sample.E4.maxSize 0 ∧
    COp.Inserts Sample.E4 Sample.wmxc2 (.emplace 0 (.emplaced 7)) 0 2 (.emplaced 7) ∧
    (∀ n, Sample.E4.fault n = false) ∧
    ∃ c' w', emplace Sample.E4 0 (.emplaced 7) Sample.wmxc2 ⟨12, 13⟩ = .exc .lengthError c' w' ∧ c'.abs = [(0, [5, 6])] :=
  ⟨Sample.wmxreach.left, rfl, ⟨rfl, rfl, rfl⟩, fun _ => rfl, _, _, rfl, rfl⟩

end PolyColl.Props
