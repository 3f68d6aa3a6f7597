import Verif.Lemmas.Left
import Verif.Lemmas.Stale
/-!
# The source of an allocator-extended move construction that threw: when it can be traversed
-/

namespace PolyColl
open Prog
variable {V : Type} {E : Env V}

namespace Seg

theorem Left.stale {a b : Seg V} {w : World} (h : a.Left b) (ha : a.Inv E w) (hs : b.size ≠ a.size) : b.Stale := by
  have h0 := h.size.resolve_left hs
  refine ⟨fun k hk => ?_, ?_⟩
  · rw [h.snt, ha.snt, Seg.end_eq, Seg.base, Seg.base, h.begin]
    intro e
    have := congrArg Ptr.off e
    simp only at this
    omega
  · rw [h.begin]
    exact Seg.begin_blk_ne E ha.core (by omega)

end Seg

namespace Coll
open TMap

/-- Whether the source can be traversed depends on whether elements have gone. -/
theorem moveAl_exactly (al : Alloc) (x : Coll V) (w : World) (h : x.Inv E w) :
    Runs (moveAl E al) x w (fun _ _ _ => True)
      (fun _ x' w' => x'.size ≤ x.size ∧ (x'.size = x.size → x'.Inv E w' ∧ x'.abs.map (fun p => (p.1, p.2.length)) = x.abs.map (fun p => (p.1, p.2.length))) ∧
        (x'.size ≠ x.size → ∃ it, x'.begin E = some it ∧ ∀ fuel, x'.walk E x'.end it fuel = none)) := by
  have h1 : Runs (moveAl E al) x w (fun _ _ _ => True) (fun _ x' _ => All2 NodeLeft x.map.nodes x'.map.nodes) := by
    unfold moveAl onMap
    simp only [runs_bind, runs_zoom, runs_get, runs_pure]
    exact (TMap.moveAl_left x.kind al x.map w h.map h.mem).mono (fun _ _ _ _ => trivial) (fun _ _ _ h => h)
  refine (h1.and (moveAl_runs E al x w h)).mono (fun _ _ _ _ => trivial) ?_
  rintro e x' w' ⟨hl, hw, -, -, hk, hh⟩
  obtain ⟨s1, s2, s3⟩ := left_sum hl
  refine ⟨s1, fun he => ?_, fun hne => ?_⟩
  · have hl := s2 he
    refine ⟨⟨hk ▸ hh.inv, ⟨fun n hn => ?_, ?_, fun n hn b hb => ?_⟩, Nat.lt_of_lt_of_le h.pos hw⟩, ?_⟩
    · obtain ⟨a, ha, h2, h3⟩ := hl.mem hn
      exact h2.seg.inv (h.mem.segs a ha) h3 hw
    · have hd := h.mem.disj
      have hb := All2.map_eq (f := fun n : Node V => n.seg.blocks) (fun a b h => h.1.seg.blocks) hl
      rw [← List.pairwise_map (f := fun n : Node V => n.seg.blocks) (R := fun a b : List Nat => ∀ x ∈ a, x ∈ b → x = 0)] at hd ⊢
      rw [hb]
      exact hd
    · obtain ⟨a, ha, h2, h3⟩ := hl.mem hn
      rw [h2.seg.blocks] at hb
      exact Nat.lt_of_lt_of_le (h.mem.lt a ha b hb) hw
    · rw [abs_eq, abs_eq, absNodes, absNodes, List.map_map, List.map_map]
      refine All2.map_eq (f := fun n : Node V => (n.seg.ty, n.seg.elems.length)) (fun a b h => ?_) hl
      show (b.seg.ty, b.seg.elems.length) = (a.seg.ty, a.seg.elems.length)
      rw [h.1.seg.frame.ty]
      congr 1
      exact h.2
  · obtain ⟨a, ha, b, hb, h2, h3⟩ := s3 hne
    refine walk_stale (w := w') hh.inv.ids (fun n hn => ?_) ⟨b, hb, h2.seg.stale (h.mem.segs a ha) h3⟩
    obtain ⟨a', ha', h4⟩ := hl.mem hn
    by_cases h5 : n.seg.size = a'.seg.size
    · exact Or.inl (h4.seg.inv (h.mem.segs a' ha') h5 hw)
    · exact Or.inr (h4.seg.stale (h.mem.segs a' ha') h5)

end Coll
end PolyColl
