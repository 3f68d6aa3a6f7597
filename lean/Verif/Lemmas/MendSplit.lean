import Verif.Lemmas.CollAll
/-!
# `reserve(n)` after failures

If it allocates, a segment of an `any_collection` or `function_collection` gets a new index: whatever the old one was like.
-/

namespace PolyColl
open Prog

namespace Split
variable {V : Type} (E : Env V)

theorem reserve_weak (n : Nat) (x : Split V) (w : World) (h : x.Weak E w) :
    Runs (reserve E n) x w
      (fun r x' w' => x'.Weak E w' ∧ Frame x x' ∧ x'.s.elems = x.s.elems ∧ w.next ≤ w'.next ∧
        Vec.Grown w x.s x'.s ∧ Vec.Grown w x.i x'.i ∧ r = x'.sentinel ∧ (x.s.cap < n → x'.Inv E w' ∧ n ≤ x'.s.cap))
      (fun _ x' w' => x'.Weak E w' ∧ Frame x x' ∧ x'.s = x.s ∧ w.next ≤ w'.next ∧ Vec.Grown w x.i x'.i) := by
  unfold reserve
  have hle := h.swf.le
  have hile := h.iwf.le
  have hilt := h.iwf.lt
  have hslt := h.swf.lt
  have hne := h.ne
  have hcap := h.cap
  have hsz : x.i.elems ≠ [] := by obtain ⟨l, hl⟩ := h.head; simp [hl]
  simp only [runs_bind, runs_get, onI, onS, runs_zoom, decide_eq_true_eq]
  refine (E.idxReserve_runs (n + 1) x.i w h.iwf).mono ?_ ?_
  · rintro _ i' w' ⟨a1, a2, a3, a4, a5, a6, a7⟩
    have hg : Vec.Grown w x.i i' := by
      by_cases h' : n + 1 ≤ x.i.cap
      · rw [a6 h']; exact Vec.Grown.refl _ _
      · exact Or.inr (a7 (by omega))
    have hw : ∀ w'', w'.next ≤ w''.next → Split.Weak E { x with i := i' } w'' := by
      intro w'' hw
      refine h.of E (w := w) (Nat.le_refl _) (h.swf.weaken (by omega)) ⟨rfl, rfl⟩ (a2.weaken hw) hg (Or.inl ⟨[], by simp [a1]⟩) fun _ _ => a5
    refine (E.reserve_runs x.ty n x.s w' (h.swf.weaken a3)).mono ?_ ?_
    · rintro _ s' w'' ⟨b1, b2, b3, b4, b5, b6, b7, b8⟩
      have hss : s'.size = x.s.size := by simp [Vec.size, b1]
      simp only [runs_ite]
      refine ⟨fun hc => ?_, fun hc => ?_⟩
      · obtain ⟨b8, b9⟩ := b8 hc
        rw [runs_bind]
        refine (rebuildIndex_runs E { x with i := i', s := s' } w'' (a2.weaken b3) (by simp; omega)).mono ?_ ?_
        · rintro _ x' w''' ⟨c1, c2, c3, c4, c5, c6⟩
          have c6 := c6 (by simp [hss]; omega)
          have e1 : x'.s = s' := by rw [c1]
          simp only [retSentinel, runs_bind, runs_get, runs_pure]
          simp only [Vec.Same] at c6
          have hi : x'.Inv E w''' := by
            refine ⟨?_, c3, ?_, ?_, ?_, ?_⟩
            · rw [e1]; exact b2.weaken c4
            · rw [e1]; omega
            · rw [e1, c6.1]; have := a2.lt; omega
            · rw [e1, c2]
            · intro hx
              left
              rw [e1, b9, hx, c6.2]
              omega
          refine ⟨hi.weak E, ⟨by rw [c1], by rw [c1], by rw [c1]⟩, by rw [e1, b1], by omega, ?_, ?_, by trivial, fun _ => ⟨hi, by rw [e1]; omega⟩⟩
          · rw [e1]; exact Or.inr (by omega)
          · unfold Vec.Grown at *; omega
        · rintro e x' w''' ⟨c1, c2, c3, c4, c5, c6⟩
          exact absurd (by simp [hss]; omega) c5
      · obtain rfl := b7 (by omega)
        simp only [retSentinel, runs_bind, runs_get, runs_pure]
        exact ⟨hw w'' b3, ⟨rfl, rfl, rfl⟩, by trivial, by omega, Vec.Grown.refl _ _, hg, by trivial, fun h => absurd h hc⟩
    · rintro e s' w'' ⟨rfl, b2, b3⟩
      exact ⟨hw w'' b2, ⟨rfl, rfl, rfl⟩, by trivial, by omega, hg⟩
  · rintro e i' w' ⟨rfl, a2, a3⟩
    exact ⟨h.weaken E a2, ⟨rfl, rfl, rfl⟩, by trivial, a2, Vec.Grown.refl _ _⟩

end Split

namespace Seg
variable {V : Type} (E : Env V)

theorem reserve_weak (n : Nat) (x : Seg V) (w : World) (h : x.Weak E w) :
    Runs (reserve E n) x w
      (fun _ x' w' => x'.Weak E w' ∧ Step w x x' ∧ x'.elems = x.elems ∧ w.next ≤ w'.next ∧ x'.snt = x'.end ∧
        (x.capacity < n → x'.Whole E))
      (fun _ x' w' => x'.Weak E w' ∧ Step w x x' ∧ x'.elems = x.elems ∧ w.next ≤ w'.next) := by
  obtain ⟨be, snt⟩ := x
  cases be with
  | packed y =>
    refine (reserve_runs E n ⟨.packed y, snt⟩ w h).mono ?_ ?_
    · rintro _ x' w' ⟨a1, a2, a3, a4, -⟩
      exact ⟨a1.core.weak E, a2, a3, a4, a1.snt, fun _ => a1.core.whole E⟩
    · rintro _ x' w' ⟨a1, a2, a3, a4, -⟩
      exact ⟨a1.weak E, a2, by simp [Seg.elems, a3], a4⟩
  | split y =>
    unfold reserve
    rw [runs_filterSentinel]
    refine Backend.run_split.2 ((Split.reserve_weak E n y w h).mono ?_ ?_)
    · rintro r y' w' ⟨a1, a2, a3, a4, a5, a6, rfl, a8⟩
      refine ⟨a1, stepSplit a2 a5 a6, a3, a4, rfl, fun hc => ?_⟩
      have hi : Seg.Core E ⟨.split y', y'.sentinel⟩ w' := (a8 hc).1
      exact hi.whole E
    · rintro e y' w' ⟨a1, a2, a3, a4, a5⟩
      exact ⟨a1, stepSplit a2 (by rw [a3]; exact Vec.Grown.refl _ _) a5, by show y'.s.elems = y.s.elems; rw [a3], a4⟩

end Seg

namespace Coll
variable {V : Type} (E : Env V)

/-- `n` is more than any segment has room for. -/
def Exceeded (c : Coll V) (n : Nat) : Prop := ∀ m ∈ c.map.nodes, m.seg.capacity < n

/-- `reserve(n)` after a failure; with more than there is room for, it puts all segments in order. -/
theorem reserveAll_weak (n : Nat) (c : Coll V) (w : World) (hc : c.Weak E w) :
    Runs (reserveAll E n) c w
      (fun _ c' w' => c'.Weak E w' ∧ (c.Exceeded n → c'.Inv E w') ∧ w.next ≤ w'.next ∧ c'.kind = c.kind ∧ c'.abs = c.abs)
      (fun _ c' w' => c'.Weak E w' ∧ w.next ≤ w'.next ∧ c'.kind = c.kind ∧ c'.abs = c.abs) := by
  unfold reserveAll
  refine (onAll_runs E (stable_weak E) (Seg.reserve E n)
    (fun s s' => s'.ty = s.ty ∧ s'.elems = s.elems ∧ s'.snt = s'.end ∧ (s.capacity < n → s'.Whole E))
    (fun _ s s' => s'.ty = s.ty ∧ s'.elems = s.elems) ?_ c w hc).mono ?_ ?_
  · intro s w hs
    refine (Seg.reserve_weak E n s w hs).mono ?_ ?_
    · rintro _ s' w' ⟨a1, a2, a3, a4, a5, a6⟩
      exact ⟨a1, a2, a4, a2.ty, a3, a5, a6⟩
    · rintro _ s' w' ⟨a1, a2, a3, a4⟩
      exact ⟨a1, a2, a4, a2.ty, a3⟩
  · rintro _ c' w' ⟨h1, h2, h3⟩
    refine ⟨h1, fun hn => ⟨h1.map, ⟨fun b hb => ?_, h1.mem.disj, h1.mem.lt⟩, h1.pos⟩, h2, h3.kind, abs_id h3 (fun _ _ h => ⟨h.1, h.2.1⟩)⟩
    obtain ⟨a, ha, h⟩ := All2.mem h3.nodes hb
    exact ⟨(h1.mem.segs b hb).core E (h.2.2.2.2.2 (hn a ha)), h.2.2.2.2.1⟩
  · rintro e c' w' ⟨h1, h2, h3, h4, h5⟩
    exact ⟨h1, h2, h3, h5.abs (fun _ _ h => ⟨h.1, h.2.1⟩) (fun _ _ h => h)⟩

end Coll
end PolyColl
