import Verif.Lemmas.MendSplit
import Verif.Lemmas.AnyPacked
/-!
# Mending a collection in any state

Whatever a program has done with a collection, its segments hold proper vectors (`Held`).  That is enough for
`reserve(n)` with more than there is room for: the index of a split segment is then built from nothing.
-/

namespace PolyColl
open Prog

/-- Store and index are proper vectors in different buffers. -/
structure Split.Held {V : Type} (x : Split V) (w : World) : Prop where
  swf : x.s.WF w
  iwf : x.i.WF w
  ne : x.i.blk = x.s.blk → x.s.blk = 0

def Backend.Held {V : Type} (b : Backend V) (w : World) : Prop :=
  match b with
  | .packed x => x.s.WF w
  | .split x => x.Held w

def Seg.Held {V : Type} (x : Seg V) (w : World) : Prop := x.be.Held w

namespace Split
variable {V : Type} (E : Env V)

theorem Weak.held {x : Split V} {w : World} (h : x.Weak E w) : x.Held w := ⟨h.swf, h.iwf, fun e => absurd e h.ne⟩

theorem reserve_held (n : Nat) (x : Split V) (w : World) (h : x.Held w) :
    Runs (reserve E n) x w
      (fun r x' w' => x'.Held w' ∧ Frame x x' ∧ x'.s.elems = x.s.elems ∧ w.next ≤ w'.next ∧
        Vec.Grown w x.s x'.s ∧ Vec.Grown w x.i x'.i ∧ r = x'.sentinel ∧ (x.s.cap < n → x'.Inv E w'))
      (fun _ x' w' => x'.Held w' ∧ Frame x x' ∧ x'.s = x.s ∧ w.next ≤ w'.next ∧ Vec.Grown w x.i x'.i) := by
  unfold reserve
  have hle := h.swf.le
  have hilt := h.iwf.lt
  have hslt := h.swf.lt
  have hne := h.ne
  simp only [runs_bind, runs_get, onI, onS, runs_zoom, decide_eq_true_eq]
  refine (E.idxReserve_runs (n + 1) x.i w h.iwf).mono ?_ ?_
  · rintro _ i' w' ⟨a1, a2, a3, a4, a5, a6, a7⟩
    have hg : Vec.Grown w x.i i' := by
      by_cases h' : n + 1 ≤ x.i.cap
      · rw [a6 h']; exact Vec.Grown.refl _ _
      · exact Or.inr (a7 (by omega))
    have hw : ∀ w'', w'.next ≤ w''.next → Split.Held { x with i := i' } w'' := by
      intro w'' hw
      refine ⟨h.swf.weaken (by omega), a2.weaken hw, ?_⟩
      intro e
      simp only [Vec.Grown] at hg e ⊢
      omega
    refine (E.reserve_runs x.ty n x.s w' (h.swf.weaken a3)).mono ?_ ?_
    · rintro _ s' w'' ⟨b1, b2, b3, b4, b5, b6, b7, b8⟩
      have hss : s'.size = x.s.size := by simp [Vec.size, b1]
      simp only [runs_ite]
      refine ⟨fun hc => ?_, fun hc => ?_⟩
      · obtain ⟨b8, b9⟩ := b8 hc
        rw [runs_bind]
        refine (rebuildIndex_runs E { x with i := i', s := s' } w'' (a2.weaken b3) (by simp; omega)).mono ?_ ?_
        · rintro _ x' w''' ⟨c1, c2, c3, c4, c5, c6⟩
          have c6 := c6 (by simp [hss]; omega)
          have e1 : x'.s = s' := by rw [c1]
          simp only [retSentinel, runs_bind, runs_get, runs_pure]
          simp only [Vec.Same] at c6
          have hi : x'.Inv E w''' := by
            refine ⟨?_, c3, ?_, ?_, ?_, ?_⟩
            · rw [e1]; exact b2.weaken c4
            · rw [e1]; omega
            · rw [e1, c6.1]; have := a2.lt; omega
            · rw [e1, c2]
            · intro hx
              left
              rw [e1, b9, hx, c6.2]
              omega
          refine ⟨(hi.weak E).held E, ⟨by rw [c1], by rw [c1], by rw [c1]⟩, by rw [e1, b1], by omega, ?_, ?_, by trivial, fun _ => hi⟩
          · rw [e1]; exact Or.inr (by omega)
          · unfold Vec.Grown at *; omega
        · rintro e x' w''' ⟨c1, c2, c3, c4, c5, c6⟩
          exact absurd (by simp [hss]; omega) c5
      · obtain rfl := b7 (by omega)
        simp only [retSentinel, runs_bind, runs_get, runs_pure]
        exact ⟨hw w'' b3, ⟨rfl, rfl, rfl⟩, by trivial, by omega, Vec.Grown.refl _ _, hg, by trivial, fun h => absurd h hc⟩
    · rintro e s' w'' ⟨rfl, b2, b3⟩
      exact ⟨hw w'' b2, ⟨rfl, rfl, rfl⟩, by trivial, by omega, hg⟩
  · rintro e i' w' ⟨rfl, a2, a3⟩
    exact ⟨⟨h.swf.weaken a2, h.iwf.weaken a2, h.ne⟩, ⟨rfl, rfl, rfl⟩, by trivial, a2, Vec.Grown.refl _ _⟩

end Split

namespace Seg
variable {V : Type} (E : Env V)

theorem Weak.held {x : Seg V} {w : World} (h : x.Weak E w) : x.Held w := by
  obtain ⟨be, snt⟩ := x
  cases be with
  | packed y => exact h
  | split y => exact Split.Weak.held E h

theorem Held.weaken {x : Seg V} {w w' : World} (h : x.Held w) (hw : w.next ≤ w'.next) : x.Held w' := by
  obtain ⟨be, snt⟩ := x
  cases be with
  | packed y => exact Vec.WF.weaken h hw
  | split y => exact ⟨(Split.Held.swf h).weaken hw, (Split.Held.iwf h).weaken hw, Split.Held.ne h⟩

theorem Held.lt {x : Seg V} {w : World} (h : x.Held w) : ∀ b ∈ x.blocks, b < w.next := by
  obtain ⟨be, snt⟩ := x
  intro b hb
  cases be with
  | packed y =>
    simp only [blocks, Backend.blocks, List.mem_singleton] at hb
    subst hb
    exact Vec.WF.lt h
  | split y =>
    have h1 := (Split.Held.swf h).lt
    have h2 := (Split.Held.iwf h).lt
    simp only [blocks, Backend.blocks, List.mem_cons, List.not_mem_nil, or_false] at hb
    rcases hb with rfl | rfl <;> assumption

theorem reserve_held (n : Nat) (x : Seg V) (w : World) (h : x.Held w) :
    Runs (reserve E n) x w
      (fun _ x' w' => x'.Held w' ∧ Step w x x' ∧ x'.elems = x.elems ∧ w.next ≤ w'.next ∧ (x.capacity < n → x'.Inv E w'))
      (fun _ x' w' => x'.Held w' ∧ Step w x x' ∧ x'.elems = x.elems ∧ w.next ≤ w'.next) := by
  obtain ⟨be, snt⟩ := x
  cases be with
  | packed y =>
    refine (reserve_weak E n ⟨.packed y, snt⟩ w h).mono ?_ ?_
    · rintro _ x' w' ⟨a1, a2, a3, a4, a5, a6⟩
      exact ⟨a1.held E, a2, a3, a4, fun hc => ⟨a1.core E (a6 hc), a5⟩⟩
    · rintro _ x' w' ⟨a1, a2, a3, a4⟩
      exact ⟨a1.held E, a2, a3, a4⟩
  | split y =>
    unfold reserve
    rw [runs_filterSentinel]
    refine Backend.run_split.2 ((Split.reserve_held E n y w h).mono ?_ ?_)
    · rintro r y' w' ⟨a1, a2, a3, a4, a5, a6, rfl, a8⟩
      exact ⟨a1, stepSplit a2 a5 a6, a3, a4, fun hc => ⟨a8 hc, rfl⟩⟩
    · rintro e y' w' ⟨a1, a2, a3, a4, a5⟩
      exact ⟨a1, stepSplit a2 (by rw [a3]; exact Vec.Grown.refl _ _) a5, by show y'.s.elems = y.s.elems; rw [a3], a4⟩

end Seg

namespace Coll
variable {V : Type} (E : Env V) {k : Kind}

theorem stable_held : Stable E (Seg.Held (V := V)) :=
  ⟨fun _ _ h => (h.core.weak E).held E, fun _ _ _ h hw => h.weaken hw, fun _ _ h => h.lt⟩

/-- `reserve(n)` with more than there is room for puts all segments in order, whatever happened. -/
theorem reserveAll_held (n : Nat) (c : Coll V) (w : World) (hc : c.Good E Seg.Held w) (hn : c.Exceeded n) :
    Runs (reserveAll E n) c w
      (fun _ c' w' => c'.Inv E w' ∧ w.next ≤ w'.next ∧ c'.kind = c.kind ∧ c'.abs = c.abs)
      (fun _ c' w' => w.next ≤ w'.next ∧ c'.kind = c.kind ∧ c'.abs = c.abs) := by
  unfold reserveAll
  refine (onAll_runs E (stable_held E) (Seg.reserve E n)
    (fun s s' => s'.ty = s.ty ∧ s'.elems = s.elems ∧ (s.capacity < n → s'.snt = s'.end ∧ s'.Whole E ∧ ∀ w, s'.Held w → s'.Weak E w))
    (fun _ s s' => s'.ty = s.ty ∧ s'.elems = s.elems) ?_ c w hc).mono ?_ ?_
  · intro s w hs
    refine (Seg.reserve_held E n s w hs).mono ?_ ?_
    · rintro _ s' w' ⟨a1, a2, a3, a4, a5⟩
      refine ⟨a1, a2, a4, a2.ty, a3, fun hc => ⟨(a5 hc).snt, (a5 hc).core.whole E, ?_⟩⟩
      have h1 := (a5 hc).core.weak E
      intro v hv
      obtain ⟨be, snt⟩ := s'
      cases be with
      | packed y => exact hv
      | split y => exact ⟨Split.Held.swf hv, Split.Held.iwf hv, Split.Weak.snz h1, Split.Weak.ne h1, Split.Weak.head h1, Split.Weak.cap h1⟩
    · rintro _ s' w' ⟨a1, a2, a3, a4⟩
      exact ⟨a1, a2, a4, a2.ty, a3⟩
  · rintro _ c' w' ⟨h1, h2, h3⟩
    refine ⟨⟨h1.map, ⟨fun b hb => ?_, h1.mem.disj, h1.mem.lt⟩, h1.pos⟩, h2, h3.kind, abs_id h3 (fun _ _ h => ⟨h.1, h.2.1⟩)⟩
    obtain ⟨a, ha, h⟩ := All2.mem h3.nodes hb
    obtain ⟨i1, i2, i3⟩ := h.2.2.2.2 (hn a ha)
    exact ⟨(i3 _ (h1.mem.segs b hb)).core E i2, i1⟩
  · rintro e c' w' ⟨h1, h2, h3, h4, h5⟩
    exact ⟨h2, h3, h5.abs (fun _ _ h => ⟨h.1, h.2.1⟩) (fun _ _ h => h)⟩

variable {E}

/-- The segments of a collection hold proper vectors, whatever happened. -/
theorem reach_held {sub : Ty → TI} (hsub : ∀ t, E.tiTy (sub t) = t) {s : Sys V} {w : World} (h : Reach E k sub (Arg.OK E) s w) (i : Nat) :
    (s i).Good E Seg.Held w := by
  obtain ⟨hinv, hpos⟩ := reach_inv E hsub h
  obtain ⟨hk, hm⟩ := hinv i
  have hl := (reach_lim h).2 i
  have hlt : ∀ n ∈ (s i).map.nodes, ∀ x ∈ n.seg.blocks, x < w.next := by
    intro n hn x hx
    by_cases h0 : x = 0
    · omega
    · have := nown_mem hn hx
      exact (reach_own_one hsub h i h0).2 (by omega)
  refine ⟨by rw [hk]; exact hm, ⟨fun n hn => ?_, nown_disj fun b hb => (reach_own_one hsub h i hb).1, hlt⟩, hpos⟩
  have h2 := hl n hn
  have h3 := hlt n hn
  have h4 : ∀ b, b ≠ 0 → n.seg.own b ≤ 1 := by
    intro b hb
    have h5 := (reach_own_one hsub h i hb).1
    obtain ⟨l1, l2, hl⟩ := List.append_of_mem hn
    rw [hl] at h5
    simp only [TMap.nown, List.map_append, List.map_cons, List.sum_append, List.sum_cons, Node.own] at h5
    omega
  obtain ⟨id, key, ⟨be, snt⟩⟩ := n
  cases be with
  | packed x => exact ⟨h3 _ (by simp [Seg.blocks, Backend.blocks]), h2.2.size, h2.2.nul⟩
  | split x =>
    refine ⟨⟨h3 _ (by simp [Seg.blocks, Backend.blocks]), h2.2.1.size, h2.2.1.nul⟩, ⟨h3 _ (by simp [Seg.blocks, Backend.blocks]), h2.2.2.size, h2.2.2.nul⟩, fun e => ?_⟩
    refine Decidable.byContradiction fun hne => ?_
    have h5 := h4 _ hne
    simp only [Seg.own, Backend.own, Split.own, Vec.own, e, one_self] at h5
    omega

end Coll
end PolyColl
