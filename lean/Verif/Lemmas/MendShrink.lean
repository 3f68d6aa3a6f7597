import Verif.Lemmas.MendSplit
/-!
# Mending a collection with `shrink_to_fit()`

`shrink_to_fit()` builds the index of a split segment anew if the store gets a new buffer.
-/

namespace PolyColl
open Prog

namespace Split
variable {V : Type} (E : Env V)

/-- `shrink_to_fit` gives the store a new buffer. -/
def Slack (x : Split V) : Prop := x.s.size = 0 ∨ E.lib.shrinkCap x.s.size x.s.cap ≠ x.s.cap

theorem rebuildIndex_head (x : Split V) (w : World) (hi : x.i.WF w) (hs : x.s.blk ≠ 0) (hc : 0 < x.i.cap) :
    Runs (rebuildIndex E) x w (fun _ _ _ => True) (fun _ x' _ => ∃ l, x'.i.elems = x.s.ptr 0 :: l) := by
  unfold rebuildIndex buildIndex
  simp only [runs_bind, onI, runs_zoom, idxClear, runs_get, runs_set]
  rw [show x.s.size + 1 - 0 = x.s.size + 1 by omega, List.range'_succ, runs_each_cons]
  unfold pushIndex
  simp only [runs_bind, runs_get, runs_ite, runs_undef]
  refine ⟨fun h => absurd h hs, fun _ => ?_⟩
  simp only [onI, runs_zoom]
  refine (E.idxPushBack_runs (x.s.ptr 0) { x.i with elems := [] } w ⟨hi.lt, by simp [Vec.size], hi.nul⟩).mono ?_ ?_
  · rintro _ i' w' ⟨h1, h2, h3, h4, h5⟩
    refine (pushes_runs E _ { x with i := i' } w' h2 hs).mono (fun _ _ _ _ => trivial) ?_
    rintro e x' w'' ⟨-, ⟨k, h6⟩, -⟩
    simp only [] at h6
    exact ⟨_, by rw [h6, h1]; rfl⟩
  · rintro e i' w' ⟨-, -, h3, -⟩
    exact absurd (by simpa [Vec.size] using hc) h3

theorem shrinkBody_weak (x : Split V) (w : World) (h : x.Weak E w) :
    Runs (shrinkBody E) x w
      (fun _ x' w' => x'.Weak E w' ∧ Frame x x' ∧ x'.s.elems = x.s.elems ∧ w.next ≤ w'.next ∧
        Vec.Grown w x.s x'.s ∧ Vec.Grown w x.i x'.i ∧ (x.Slack E → x'.Inv E w'))
      (fun _ x' w' => (∃ s', x' = { x with s := s' } ∧ s'.WF w' ∧ s'.blk ≠ 0 ∧ s'.elems = x.s.elems ∧
        (s'.cap ≤ x.s.cap ∨ (x.s.elems = [] ∧ s'.cap = E.lib.reserveCap 1)) ∧ Vec.Grown w x.s s') ∧ w.next ≤ w'.next) := by
  have hs0 := h.swf
  have hnz := h.snz
  have hlt := hs0.lt
  have fin := fun (s' : Vec V) (w' : World) (a2 : s'.WF w') (a3 : s'.blk ≠ 0) (a4 : w.next ≤ s'.blk)
      (a5 : s'.elems = x.s.elems) (a6 : w.next ≤ w'.next)
      (a7 : s'.cap ≤ x.s.cap ∨ (x.s.elems = [] ∧ s'.cap = E.lib.reserveCap 1)) =>
    (newIndex_runs E x w' s' a2 a3 a5).mono
      (Q' := (fun _ x' w' => x'.Weak E w' ∧ Frame x x' ∧ x'.s.elems = x.s.elems ∧ w.next ≤ w'.next ∧
        Vec.Grown w x.s x'.s ∧ Vec.Grown w x.i x'.i ∧ (x.Slack E → x'.Inv E w')))
      (R' := (fun _ x' w' => (∃ s', x' = { x with s := s' } ∧ s'.WF w' ∧ s'.blk ≠ 0 ∧ s'.elems = x.s.elems ∧
        (s'.cap ≤ x.s.cap ∨ (x.s.elems = [] ∧ s'.cap = E.lib.reserveCap 1)) ∧ Vec.Grown w x.s s') ∧ w.next ≤ w'.next))
      (by
        rintro _ x' w'' ⟨b1, b2, b3, b4, b5⟩
        exact ⟨b1.weak E, b2, by rw [b3, a5], by omega, by rw [b3]; exact Or.inr a4, b5.imp id (by omega), fun _ => b1⟩)
      (by
        rintro e x' w'' ⟨b1, b2, b3⟩
        exact ⟨⟨s', b1, a2.weaken b2, a3, a5, a7, Or.inr a4⟩, by omega⟩)
  simp only [runs_bind, runs_ite] at fin
  unfold shrinkBody
  simp only [runs_bind, runs_get, runs_ite, onS, runs_zoom]
  refine ⟨fun he => ?_, fun he => ?_⟩
  · refine (E.shrinkToFit_runs x.ty x.s w hs0).mono ?_ ?_
    · rintro _ s' w' ⟨a1, a2, a3, a4, a5, a6⟩
      have hsz : s'.size = x.s.size := by simp [Vec.size, a1]
      have hpos : 0 < x.s.size := List.length_pos_iff.2 he
      have hle := a2.le
      refine ⟨fun hb => ?_, fun hb => ?_⟩
      · have hnew : w.next ≤ s'.blk := by
          rcases a5 with a5 | a5 | a5
          · exact absurd a5.1.symm hb
          · omega
          · exact a5
        exact fin s' w' a2 (by omega) hnew a1 a3 (Or.inl a4)
      · have hsame : s'.blk = x.s.blk := by simpa using Eq.symm (Decidable.not_not.1 hb)
        have : s' = x.s := by
          rcases a5 with a5 | a5 | a5
          · cases s'; cases hx : x.s
            simp only [Vec.Same, hx] at a5 a1
            simp [a5, a1]
          · omega
          · omega
        subst this
        exact ⟨h.weaken E a3, Frame.refl _, by trivial, a3, Vec.Grown.refl _ _, Vec.Grown.refl _ _,
          fun hk => hk.elim (fun h => absurd h (by omega)) (fun h => absurd a6.symm h)⟩
    · rintro e s' w' ⟨rfl, a2, a3⟩
      exact ⟨⟨x.s, by trivial, hs0.weaken a2, hnz, by trivial, Or.inl (Nat.le_refl _), Vec.Grown.refl _ _⟩, a2⟩
  · have he : x.s.elems = [] := by simpa using he
    simp only [E.runs_alloc, runs_set]
    refine ⟨fun hf => ⟨⟨x.s, by trivial, hs0.weaken (by simp), hnz, by trivial, Or.inl (Nat.le_refl _), Vec.Grown.refl _ _⟩, by simp⟩, fun hf => ⟨fun hb => ?_, fun hb => ?_⟩⟩
    · have := E.lib.reserveCap_ge 1
      simpa only [E.runs_alloc, runs_set] using fin ⟨w.next, E.lib.reserveCap 1, []⟩ ⟨w.next + 1, w.tick + 1⟩ ⟨by simp, by simp [Vec.size], by simp; omega⟩ (by simp; omega) (by simp) he.symm (by simp) (Or.inr ⟨he, rfl⟩)
    · simp at hb; omega

theorem shrinkToFit_weak (x : Split V) (w : World) (h : x.Weak E w) :
    Runs (shrinkToFit E) x w
      (fun r x' w' => x'.Weak E w' ∧ Frame x x' ∧ x'.s.elems = x.s.elems ∧ w.next ≤ w'.next ∧
        Vec.Grown w x.s x'.s ∧ Vec.Grown w x.i x'.i ∧ r = x'.sentinel ∧ (x.Slack E → x'.Inv E w'))
      (fun _ x' w' => x'.Weak E w' ∧ Frame x x' ∧ x'.s.elems = x.s.elems ∧ w.next ≤ w'.next ∧
        Vec.Grown w x.s x'.s ∧ Vec.Grown w x.i x'.i) := by
  have hil := h.iwf.le
  have hilt := h.iwf.lt
  have hne := h.ne
  have hsle := h.swf.le
  have hcap := h.cap
  have hpos : 0 < x.i.cap := by
    obtain ⟨l, hl⟩ := h.head
    simp only [Vec.size, hl, List.length_cons] at hil
    omega
  unfold shrinkToFit
  simp only [runs_bind, runs_onExc]
  refine (shrinkBody_weak E x w h).mono ?_ ?_
  · rintro _ x' w' ⟨a1, a2, a3, a4, a5, a6, a7⟩
    simp only [retSentinel, runs_bind, runs_get, runs_pure]
    exact ⟨a1, a2, a3, a4, a5, a6, by trivial, a7⟩
  · rintro e x1 w1 ⟨⟨s', rfl, b1, b2, b3, b4, b5⟩, b6⟩
    have hsz : s'.size = x.s.size := by simp [Vec.size, b3]
    have hslt := b1.lt
    have hne' : ∀ i' : Vec Ptr, Vec.Grown w1 x.i i' → i'.blk ≠ s'.blk := by
      intro i' hi'
      simp only [Vec.Grown] at hi' b5
      omega
    have hs1 : ExactReserve E → x.s.cap ≤ 1 → s'.cap ≤ 1 := by
      intro hx hle
      have := hx 1
      omega
    have hc1 : ExactReserve E → x.s.cap + 1 ≤ x.i.cap → s'.cap + 1 ≤ x.i.cap ∨ s'.cap ≤ 1 := by
      intro hx hle
      have := hx 1
      omega
    refine ((rebuildIndex_runs E { x with s := s' } w1 (h.iwf.weaken b6) b2).and
      (rebuildIndex_head E { x with s := s' } w1 (h.iwf.weaken b6) b2 hpos)).mono ?_ ?_
    · rintro _ x' w' ⟨⟨c1, c2, c3, c4, c5, c6⟩, -⟩
      have e1 : x'.s = s' := by rw [c1]
      refine ⟨⟨by rw [e1]; exact b1.weaken c4, c3, by rw [e1]; exact b2, by rw [e1]; exact hne' _ c5, ?_, ?_⟩,
        ⟨by rw [c1], by rw [c1], by rw [c1]⟩, by rw [e1, b3], by omega, by rw [e1]; exact b5, c5.imp id (by omega)⟩
      · rw [e1, c2]; unfold goodIndex; rw [List.range_succ_eq_map]; exact ⟨_, rfl⟩
      · intro hx
        rw [e1]
        rcases hcap hx with hh | hh
        · have c6 := (c6 (by simp only; omega)).2
          simp only [] at c6
          rw [c6]
          exact hc1 hx hh
        · exact Or.inr (hs1 hx hh)
    · rintro e x' w' ⟨⟨c1, c2, c3, c4, c5, c6⟩, c7⟩
      have e1 : x'.s = s' := by rw [c1]
      refine ⟨⟨by rw [e1]; exact b1.weaken c3, c2, by rw [e1]; exact b2, by rw [e1]; exact hne' _ c4, by rw [e1]; exact c7, ?_⟩,
        ⟨by rw [c1], by rw [c1], by rw [c1]⟩, by rw [e1, b3], by omega, by rw [e1]; exact b5, c4.imp id (by omega)⟩
      intro hx
      rw [e1]
      rcases hcap hx with hh | hh
      · exact absurd (by simp only; omega) c5
      · exact Or.inr (hs1 hx hh)

end Split

namespace Seg
variable {V : Type} (E : Env V)

/-- `shrink_to_fit` puts the segment in order: always, unless it is a split one that keeps its buffer. -/
def Slack (s : Seg V) : Prop := s.kind = .packed ∨ s.size = 0 ∨ E.lib.shrinkCap s.size s.capacity ≠ s.capacity

theorem shrinkToFit_weak (x : Seg V) (w : World) (h : x.Weak E w) :
    Runs (shrinkToFit E) x w
      (fun _ x' w' => x'.Weak E w' ∧ Step w x x' ∧ x'.elems = x.elems ∧ w.next ≤ w'.next ∧ x'.snt = x'.end ∧
        (x.Slack E → x'.Whole E))
      (fun _ x' w' => x'.Weak E w' ∧ Step w x x' ∧ x'.elems = x.elems ∧ w.next ≤ w'.next) := by
  obtain ⟨be, snt⟩ := x
  cases be with
  | packed y =>
    unfold shrinkToFit
    rw [runs_filterSentinel]
    have h : y.s.WF w := h
    refine Backend.run_packed.2 ?_
    unfold Packed.shrinkToFit
    simp only [runs_bind, runs_get, Packed.onS, runs_zoom, Packed.retSentinel, runs_pure]
    refine (E.shrinkToFit_runs y.ty y.s w h).mono ?_ ?_
    · rintro _ s' w' ⟨a1, a2, a3, a4, a5, a6⟩
      have hi : Seg.Core E ⟨.packed { y with s := s' }, Packed.sentinel { y with s := s' }⟩ w' := a2
      refine ⟨a2, stepPacked ?_, a1, a3, rfl, fun _ => hi.whole E⟩
      rcases a5 with a5 | a5 | a5
      · exact Or.inl a5.1
      · exact Or.inr (Or.inl a5.1)
      · exact Or.inr (Or.inr a5)
    · rintro e s' w' ⟨rfl, a2, a3⟩
      exact ⟨h.weaken a2, Step.refl _ _, rfl, a2⟩
  | split y =>
    unfold shrinkToFit
    rw [runs_filterSentinel]
    refine Backend.run_split.2 ((Split.shrinkToFit_weak E y w h).mono ?_ ?_)
    · rintro r y' w' ⟨a1, a2, a3, a4, a5, a6, rfl, a8⟩
      refine ⟨a1, stepSplit a2 a5 a6, a3, a4, rfl, fun hc => ?_⟩
      have hi : Seg.Core E ⟨.split y', y'.sentinel⟩ w' := a8 (hc.resolve_left (by intro h; cases h))
      exact hi.whole E
    · rintro e y' w' ⟨a1, a2, a3, a4, a5, a6⟩
      exact ⟨a1, stepSplit a2 a5 a6, a3, a4⟩

end Seg

namespace Coll
variable {V : Type} (E : Env V)

/-- `shrink_to_fit` puts all segments in order. -/
def Slack (c : Coll V) : Prop := ∀ m ∈ c.map.nodes, m.seg.Slack E

/-- `shrink_to_fit()` after a failure. -/
theorem shrinkAll_weak (c : Coll V) (w : World) (hc : c.Weak E w) :
    Runs (shrinkAll E) c w
      (fun _ c' w' => c'.Weak E w' ∧ (c.Slack E → c'.Inv E w') ∧ w.next ≤ w'.next ∧ c'.kind = c.kind ∧ c'.abs = c.abs)
      (fun _ c' w' => c'.Weak E w' ∧ w.next ≤ w'.next ∧ c'.kind = c.kind ∧ c'.abs = c.abs) := by
  unfold shrinkAll
  refine (onAll_runs E (stable_weak E) (Seg.shrinkToFit E)
    (fun s s' => s'.ty = s.ty ∧ s'.elems = s.elems ∧ s'.snt = s'.end ∧ (s.Slack E → s'.Whole E))
    (fun _ s s' => s'.ty = s.ty ∧ s'.elems = s.elems) ?_ c w hc).mono ?_ ?_
  · intro s w hs
    refine (Seg.shrinkToFit_weak E s w hs).mono ?_ ?_
    · rintro _ s' w' ⟨a1, a2, a3, a4, a5, a6⟩
      exact ⟨a1, a2, a4, a2.ty, a3, a5, a6⟩
    · rintro _ s' w' ⟨a1, a2, a3, a4⟩
      exact ⟨a1, a2, a4, a2.ty, a3⟩
  · rintro _ c' w' ⟨h1, h2, h3⟩
    refine ⟨h1, fun hn => ⟨h1.map, ⟨fun b hb => ?_, h1.mem.disj, h1.mem.lt⟩, h1.pos⟩, h2, h3.kind, abs_id h3 (fun _ _ h => ⟨h.1, h.2.1⟩)⟩
    obtain ⟨a, ha, h⟩ := All2.mem h3.nodes hb
    exact ⟨(h1.mem.segs b hb).core E (h.2.2.2.2.2 (hn a ha)), h.2.2.2.2.1⟩
  · rintro e c' w' ⟨h1, h2, h3, h4, h5⟩
    exact ⟨h1, h2, h3, h5.abs (fun _ _ h => ⟨h.1, h.2.1⟩) (fun _ _ h => h)⟩

end Coll
end PolyColl
