import Verif.Model.Split
import Verif.Lemmas.Vec
/-! # Invariant of split segments and what their operations guarantee -/

namespace PolyColl
open Prog

namespace Vec
variable {α : Type}

/-- Same buffer or a new one (never none). -/
def Grown (w : World) (s s' : Vec α) : Prop := s'.blk = s.blk ∨ w.next ≤ s'.blk

theorem Grown.refl (w : World) (s : Vec α) : Grown w s s := Or.inl rfl

theorem Grown.trans {w w' : World} {a b c : Vec α} (h1 : Grown w a b) (h2 : Grown w' b c)
    (hw : w.next ≤ w'.next) : Grown w a c := by
  unfold Grown at *; omega

theorem Same.grown {w : World} {s s' : Vec α} (h : Same s s') : Grown w s s' := Or.inl h.1

end Vec

/-- `std::vector::reserve(n)` gives exactly capacity `n` when it reallocates (as the three major
implementations do). -/
def ExactReserve {V : Type} (E : Env V) : Prop := ∀ n, E.lib.reserveCap n = n

namespace Split
variable {V : Type} (E : Env V)

/-- The index entries that go with a store. -/
def goodIndex (s : Vec V) : List Ptr := (List.range (s.size + 1)).map s.ptr

/-- The invariant of split segments (`detail/split_segment.hpp` 30-44): the index has one entry
per element plus one, entry `n` referring to slot `n` of the store; the store is allocated. -/
structure Inv (x : Split V) (w : World) : Prop where
  swf : x.s.WF w
  iwf : x.i.WF w
  snz : x.s.blk ≠ 0
  ne : x.i.blk ≠ x.s.blk
  idx : x.i.elems = goodIndex x.s
  cap : ExactReserve E → x.s.cap + 1 ≤ x.i.cap ∨ (x.s.size = 0 ∧ x.s.cap ≤ 1)

/-- Room in the index for as many elements as the store has room for. -/
def Room (x : Split V) : Prop := x.s.cap + 1 ≤ x.i.cap

theorem Inv.isize {x : Split V} {w : World} (h : x.Inv E w) : x.i.size = x.s.size + 1 := by
  have := h.idx
  simp [Vec.size, goodIndex, this]

theorem Inv.inz {x : Split V} {w : World} (h : x.Inv E w) : x.i.blk ≠ 0 := by
  intro h0
  have h1 := h.iwf.nul.1 h0
  have h2 := h.iwf.le
  have h3 := h.isize
  omega

theorem Inv.weaken {x : Split V} {w w' : World} (h : x.Inv E w) (hw : w.next ≤ w'.next) : x.Inv E w' :=
  ⟨h.swf.weaken hw, h.iwf.weaken hw, h.snz, h.ne, h.idx, h.cap⟩

theorem goodIndex_get {s : Vec V} {n : Nat} (h : n ≤ s.size) : (goodIndex s)[n]? = some (s.ptr n) := by
  simp [goodIndex, List.getElem?_map, List.getElem?_range (show n < s.size + 1 by omega)]

theorem goodIndex_congr {s s' : Vec V} (h : s'.blk = s.blk) (hs : s'.size = s.size) :
    goodIndex s' = goodIndex s := by
  unfold goodIndex Vec.ptr; rw [h, hs]

/-- Pushing a list of entries. -/
theorem pushes_runs (l : List Nat) (x : Split V) (w : World) (hi : x.i.WF w) (hs : x.s.blk ≠ 0) :
    Runs (each (pushIndex E) l) x w
      (fun _ x' w' => x' = { x with i := x'.i } ∧ x'.i.elems = x.i.elems ++ l.map x.s.ptr ∧
        x'.i.WF w' ∧ w.next ≤ w'.next ∧ Vec.Grown w x.i x'.i ∧
        (x.i.size + l.length ≤ x.i.cap → Vec.Same x.i x'.i))
      (fun e x' w' => x' = { x with i := x'.i } ∧ (∃ k, x'.i.elems = x.i.elems ++ (l.take k).map x.s.ptr) ∧
        x'.i.WF w' ∧ w.next ≤ w'.next ∧ Vec.Grown w x.i x'.i ∧
        ¬ (x.i.size + l.length ≤ x.i.cap) ∧ Env.IdxExc E (E.idxMaxSize < x.i.size + l.length) e) := by
  induction l generalizing x w with
  | nil => simp [hi, Vec.Grown, Vec.Same]
  | cons n l ih =>
    rw [runs_each_cons]
    unfold pushIndex
    simp only [runs_bind, runs_get, runs_ite, runs_undef]
    refine ⟨fun h => absurd h hs, fun _ => ?_⟩
    simp only [onI, runs_zoom]
    refine (E.idxPushBack_runs (x.s.ptr n) x.i w hi).mono ?_ ?_
    · rintro _ i' w' ⟨h1, h2, h3, h4, h5⟩
      have hg : Vec.Grown w x.i i' := by
        unfold Vec.Grown
        by_cases hc : x.i.size < x.i.cap
        · exact Or.inl (h4 hc).1
        · exact Or.inr (h5 hc)
      have hsz : i'.size = x.i.size + 1 := by simp [Vec.size, h1]
      refine (ih { x with i := i' } w' h2 hs).mono ?_ ?_
      · rintro _ x'' w'' ⟨e1, e2, e3, e4, e5, e6⟩
        refine ⟨e1, ?_, e3, by omega, hg.trans e5 h3, ?_⟩
        · simp only [] at e2
          rw [e2]; simp [h1]
        · intro hc
          simp only [List.length_cons] at hc
          have h6 := h4 (by omega)
          have h7 := e6 (by simp only [hsz, h6.2]; omega)
          exact ⟨h7.1.trans h6.1, h7.2.trans h6.2⟩
      · rintro e x'' w'' ⟨e1, ⟨k, e2⟩, e3, e4, e5, e6, e7⟩
        refine ⟨e1, ⟨k + 1, ?_⟩, e3, by omega, hg.trans e5 h3, ?_, e7.mono (by simp only [hsz, List.length_cons]; omega)⟩
        · simp only [] at e2
          rw [e2]; simp [h1]
        · intro hc
          apply e6
          simp only [List.length_cons] at hc
          have h6 := h4 (by omega)
          simp only [hsz, h6.2]; omega
    · rintro e i' w' ⟨rfl, h2, h3, h4⟩
      refine ⟨by trivial, ⟨0, by simp⟩, hi.weaken h2, h2, Vec.Grown.refl _ _, ?_, ?_⟩
      · simp only [List.length_cons]; omega
      · exact h4.mono (by simp only [List.length_cons]; omega)

theorem buildIndex_runs (start : Nat) (x : Split V) (w : World) (hi : x.i.WF w) (hs : x.s.blk ≠ 0) :
    Runs (buildIndex E start) x w
      (fun _ x' w' => x' = { x with i := x'.i } ∧
        x'.i.elems = x.i.elems ++ (List.range' start (x.s.size + 1 - start)).map x.s.ptr ∧
        x'.i.WF w' ∧ w.next ≤ w'.next ∧ Vec.Grown w x.i x'.i ∧
        (x.i.size + (x.s.size + 1 - start) ≤ x.i.cap → Vec.Same x.i x'.i))
      (fun e x' w' => x' = { x with i := x'.i } ∧
        x'.i.WF w' ∧ w.next ≤ w'.next ∧ Vec.Grown w x.i x'.i ∧
        ¬ (x.i.size + (x.s.size + 1 - start) ≤ x.i.cap) ∧ Env.IdxExc E (E.idxMaxSize < x.i.size + (x.s.size + 1 - start)) e ∧
        ∃ l, x'.i.elems = x.i.elems ++ l) := by
  unfold buildIndex
  simp only [runs_bind, runs_get]
  refine (pushes_runs E _ x w hi hs).mono ?_ ?_
  · simp only [List.length_range']; exact fun _ _ _ h => h
  · simp only [List.length_range']
    rintro e x' w' ⟨h1, ⟨k, h2⟩, h3, h4, h5, h6, h7⟩
    exact ⟨h1, h3, h4, h5, h6, h7, _, h2⟩

/-- Extending a good index after elements were added at any place of the store. -/
theorem goodIndex_extend {s s' : Vec V} (hb : s'.blk = s.blk) (h : s.size ≤ s'.size) :
    goodIndex s ++ (List.range' (s.size + 1) (s'.size + 1 - (s.size + 1))).map s'.ptr = goodIndex s' := by
  unfold goodIndex
  have : s.ptr = s'.ptr := by funext n; simp [Vec.ptr, hb]
  rw [this, ← List.map_append, List.range_eq_range', List.range_eq_range']
  congr 1
  have := @List.range'_append_1 0 (s.size + 1) (s'.size - s.size)
  simp only [Nat.zero_add] at this
  rw [show s'.size + 1 - (s.size + 1) = s'.size - s.size by omega, this]
  congr 1; omega

theorem rebuildIndex_runs (x : Split V) (w : World) (hi : x.i.WF w) (hs : x.s.blk ≠ 0) :
    Runs (rebuildIndex E) x w
      (fun _ x' w' => x' = { x with i := x'.i } ∧ x'.i.elems = goodIndex x.s ∧
        x'.i.WF w' ∧ w.next ≤ w'.next ∧ Vec.Grown w x.i x'.i ∧
        (x.s.size + 1 ≤ x.i.cap → Vec.Same x.i x'.i))
      (fun e x' w' => x' = { x with i := x'.i } ∧
        x'.i.WF w' ∧ w.next ≤ w'.next ∧ Vec.Grown w x.i x'.i ∧
        ¬ (x.s.size + 1 ≤ x.i.cap) ∧ Env.IdxExc E (E.idxMaxSize < x.s.size + 1) e) := by
  unfold rebuildIndex
  simp only [runs_bind, onI, runs_zoom, idxClear, runs_get, runs_set]
  refine (buildIndex_runs E 0 { x with i := { x.i with elems := [] } } w ⟨hi.lt, by simp [Vec.size], hi.nul⟩ hs).mono ?_ ?_
  · rintro _ x' w' ⟨h1, h2, h3, h4, h5, h6⟩
    refine ⟨h1, ?_, h3, h4, h5, ?_⟩
    · rw [h2]; simp [goodIndex, List.range_eq_range']
    · intro hc; exact h6 (by simpa [Vec.size] using hc)
  · rintro e x' w' ⟨h1, h3, h4, h5, h6, h7, -⟩
    refine ⟨h1, h3, h4, h5, ?_, h7.mono (by simp [Vec.size])⟩
    intro hc; exact h6 (by simpa [Vec.size] using hc)

theorem popIndexEntry_runs (n : Nat) (x : Split V) (w : World) (h : n ≤ x.i.size) {R} :
    Runs (popIndexEntry n) x w
      (fun _ x' w' => x' = { x with i := { x.i with elems := x.i.elems.take (x.i.size - n) } } ∧ w' = w) R := by
  induction n generalizing x with
  | zero => simp [popIndexEntry, Vec.size]
  | succ n ih =>
    simp only [popIndexEntry, runs_bind, onI, runs_zoom, idxPopBack, runs_get, runs_ite, runs_undef, runs_set]
    refine ⟨fun h0 => by simp [Vec.size, h0] at h, fun h0 => ?_⟩
    refine (ih { x with i := { x.i with elems := x.i.elems.dropLast } } ?_).mono ?_ ?_
    · simp only [Vec.size, List.length_dropLast] at *; omega
    · rintro _ x' w' ⟨rfl, rfl⟩
      refine ⟨?_, rfl⟩
      simp only [Vec.size, List.length_dropLast]
      congr 2
      rw [List.dropLast_eq_take, List.take_take]
      congr 1
      simp only [Vec.size] at h
      omega
    · exact fun _ _ _ h => h

end Split
end PolyColl
