import Verif.Lemmas.LimitsColl
import Verif.Lemmas.OwnColl
import Verif.Lemmas.CollAll
/-!
# Packed segments after any failures

Whatever a program has done with a `base_collection`, only the cached ends of its segments can be wrong.
-/

namespace PolyColl
open Prog

namespace Coll
variable {V : Type} {E : Env V} {k : Kind}

theorem one_self (b : Nat) : one b b = 1 := if_pos rfl

theorem own_blocks {s : Seg V} {b : Nat} (h : b ∈ s.blocks) : 1 ≤ s.own b := by
  unfold Seg.blocks Backend.blocks at h
  unfold Seg.own Backend.own
  cases hb : s.be with
  | packed x =>
    simp only [hb, List.mem_singleton] at h
    subst h
    exact Nat.le_of_eq (one_self _).symm
  | split x =>
    simp only [hb, List.mem_cons, List.not_mem_nil, or_false] at h
    simp only [Split.own, Vec.own]
    rcases h with rfl | rfl <;> rw [one_self] <;> omega

theorem nown_mem {l : List (Node V)} {n : Node V} {b : Nat} (hn : n ∈ l) (h : b ∈ n.seg.blocks) : 1 ≤ TMap.nown b l := by
  induction l with
  | nil => simp at hn
  | cons m l ih =>
    rw [TMap.nown_cons]
    rcases List.mem_cons.1 hn with rfl | hn
    · have := own_blocks h; unfold Node.own; omega
    · have := ih hn; omega

theorem nown_disj {l : List (Node V)} (h : ∀ b, b ≠ 0 → TMap.nown b l ≤ 1) : l.Pairwise (fun a b => ∀ x ∈ a.seg.blocks, x ∈ b.seg.blocks → x = 0) := by
  induction l with
  | nil => exact .nil
  | cons n l ih =>
    refine .cons (fun m hm x hx hx' => ?_) (ih fun b hb => ?_)
    · refine Decidable.byContradiction fun hne => ?_
      have h1 := h x hne
      rw [TMap.nown_cons] at h1
      have h2 := own_blocks hx
      have h3 := nown_mem hm hx'
      unfold Node.own at h1
      omega
    · have := h b hb
      rw [TMap.nown_cons] at this
      omega

/-- Blocks of memory have one owner each and were allocated, whatever happened. -/
theorem reach_own_one {sub : Ty → TI} (hsub : ∀ t, E.tiTy (sub t) = t) {s : Sys V} {w : World} (h : Reach E k sub (Arg.OK E) s w) (i : Nat) {b : Nat}
    (hb : b ≠ 0) : TMap.nown b (s i).map.nodes ≤ 1 ∧ (TMap.nown b (s i).map.nodes ≠ 0 → b < w.next) := by
  have h1 := reach_own hb hsub h (i + 1)
  rw [sown_succ] at h1
  have h2 : TMap.nown b (s i).map.nodes = own b (s i) := rfl
  unfold fresh at h1
  split at h1 <;> omega

/-- The segments of a `base_collection` are fine apart from their cached ends. -/
theorem reach_core {sub : Ty → TI} (hsub : ∀ t, E.tiTy (sub t) = t) {s : Sys V} {w : World} (h : Reach E .packed sub (Arg.OK E) s w) (i : Nat) :
    (s i).Core E w := by
  obtain ⟨hinv, hpos⟩ := reach_inv E hsub h
  obtain ⟨hk, hm⟩ := hinv i
  have hl := (reach_lim h).2 i
  have hlt : ∀ n ∈ (s i).map.nodes, ∀ x ∈ n.seg.blocks, x < w.next := by
    intro n hn x hx
    by_cases h0 : x = 0
    · omega
    · have := nown_mem hn hx
      exact (reach_own_one hsub h i h0).2 (by omega)
  refine ⟨by rw [hk]; exact hm, ⟨fun n hn => ?_, nown_disj fun b hb => (reach_own_one hsub h i hb).1, hlt⟩, hpos⟩
  have h1 := hm.kind n hn
  have h2 := hl n hn
  have h3 := hlt n hn
  obtain ⟨id, key, ⟨be, snt⟩⟩ := n
  cases be with
  | packed x => exact ⟨h3 _ (by simp [Seg.blocks, Backend.blocks]), h2.2.size, h2.2.nul⟩
  | split x => simp [Seg.kind, Backend.kind] at h1

end Coll
end PolyColl
