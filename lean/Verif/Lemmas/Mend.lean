import Verif.Lemmas.Stale
/-!
# Collections whose cached ends may be wrong

What the loop over all elements meets, and that `reserve(0)` corrects them for packed segments.
-/

namespace PolyColl
open Prog

namespace Coll
variable {V : Type} {E : Env V}

/-- From the `k`-th element of a segment on: if the loop ends, it has met some of the following elements of the
segment, and then some of the first elements of each of the following segments. -/
theorem walk_prefix_seg {c : Coll V} {w : World} (h : c.Core E w) : ∀ (fuel : Nat),
    (∀ (pre post : List (Node V)) (l : List V), c.map.nodes = pre ++ post → c.walk E c.end (c.map.nextPosIn post) fuel = some l →
      ∃ qs, All2 (fun (n : Node V) q => q <+: n.seg.elems) post qs ∧ l = qs.flatten) ∧
    (∀ (pre post : List (Node V)) (n : Node V) (k : Nat) (l : List V), c.map.nodes = pre ++ n :: post →
      c.walk E c.end ⟨c.map.itTo n, c.map.end, n.seg.base k⟩ fuel = some l →
      ∃ q qs, q <+: n.seg.elems.drop k ∧ All2 (fun (n : Node V) q => q <+: n.seg.elems) post qs ∧ l = q ++ qs.flatten) := by
  have hi := h.map.ids
  have nils : ∀ l : List (Node V), ∃ qs : List (List V), All2 (fun (n : Node V) q => q <+: n.seg.elems) l qs ∧ [] = qs.flatten := by
    intro l
    induction l with
    | nil => exact ⟨[], .nil, rfl⟩
    | cons n l ih =>
      obtain ⟨qs, h1, h2⟩ := ih
      exact ⟨[] :: qs, .cons (List.nil_prefix) h1, by simpa using h2⟩
  intro fuel
  induction fuel with
  | zero => exact ⟨fun _ _ _ _ h => by simp [walk] at h, fun _ _ _ _ _ _ h => by simp [walk] at h⟩
  | succ fuel ih =>
    have hseg : ∀ (pre post : List (Node V)) (n : Node V) (k : Nat) (l : List V), c.map.nodes = pre ++ n :: post →
        c.walk E c.end ⟨c.map.itTo n, c.map.end, n.seg.base k⟩ (fuel + 1) = some l →
        ∃ q qs, q <+: n.seg.elems.drop k ∧ All2 (fun (n : Node V) q => q <+: n.seg.elems) post qs ∧ l = q ++ qs.flatten := by
      intro pre post n k l hp hw
      have hn : n ∈ c.map.nodes := by rw [hp]; simp
      have hu := TMap.ref_itTo (m := c.map) hn
      have hr := hu.node? E hi
      simp only [walk] at hw
      split at hw
      · injection hw with hw
        subst hw
        obtain ⟨qs, h1, h2⟩ := nils post
        exact ⟨[], qs, List.nil_prefix, h1, h2⟩
      · by_cases hk : k < n.seg.size
        · have hd := deref_node E h hn hk
          have hk' : k < n.seg.elems.length := by rw [← Seg.size_eq]; exact hk
          rw [hd, List.getElem?_eq_getElem hk'] at hw
          have hb : (n.seg.base k).blk = n.seg.begin.blk ∧ (n.seg.base k).off < n.seg.end.off := by
            rw [Seg.end_eq]
            exact ⟨rfl, hk⟩
          by_cases hx : (⟨(n.seg.base k).blk, (n.seg.base k).off + 1⟩ : Ptr) = n.seg.sentinel
          · have h1 : c.map.increment E ⟨c.map.itTo n, c.map.end, n.seg.base k⟩ = some (c.map.nextPosIn post) := by
              unfold TMap.increment
              rw [hr]
              simp only [if_pos hb, if_pos hx]
              rw [if_pos ⟨usable_end E _, rfl⟩, TMap.itNext_split E hi hp (hu.use E)]
              cases post with
              | nil => rfl
              | cons b post =>
                have hb : b ∈ c.map.nodes := by rw [hp]; simp
                have hrb := (TMap.ref_itTo (m := c.map) hb).node? E hi
                show c.map.iter2 E (c.map.itTo b) = _
                unfold TMap.iter2
                simp only [hrb]
                rw [TMap.nodesFrom_split hi (pre := pre ++ [n]) (post := post) (n := b) (by simp [hp])]
                rfl
            rw [h1] at hw
            simp only [Option.map_eq_some_iff] at hw
            obtain ⟨l', hw, rfl⟩ := hw
            obtain ⟨qs, h2, rfl⟩ := ih.1 (pre ++ [n]) post l' (by simp [hp]) hw
            refine ⟨[n.seg.elems[k]], qs, ?_, h2, rfl⟩
            rw [List.drop_eq_getElem_cons hk']
            exact List.cons_prefix_cons.2 ⟨rfl, List.nil_prefix⟩
          · have h1 : c.map.increment E ⟨c.map.itTo n, c.map.end, n.seg.base k⟩ = some ⟨c.map.itTo n, c.map.end, n.seg.base (k + 1)⟩ := by
              unfold TMap.increment
              rw [hr]
              simp only [if_pos hb, if_neg hx]
              rfl
            rw [h1] at hw
            simp only [Option.map_eq_some_iff] at hw
            obtain ⟨l', hw, rfl⟩ := hw
            obtain ⟨q, qs, h2, h3, rfl⟩ := ih.2 pre post n (k + 1) l' hp hw
            refine ⟨n.seg.elems[k] :: q, qs, ?_, h3, rfl⟩
            rw [List.drop_eq_getElem_cons hk']
            exact List.cons_prefix_cons.2 ⟨rfl, h2⟩
        · have h1 : c.map.increment E ⟨c.map.itTo n, c.map.end, n.seg.base k⟩ = none := by
            unfold TMap.increment
            rw [hr]
            have : ¬ ((n.seg.base k).blk = n.seg.begin.blk ∧ (n.seg.base k).off < n.seg.end.off) := by
              rw [Seg.end_eq]
              exact fun e => hk e.2
            simp only [if_neg this]
          rw [h1] at hw
          revert hw
          cases c.map.deref (n.seg.base k) <;> simp
    refine ⟨?_, hseg⟩
    intro pre post
    induction post generalizing pre with
    | nil =>
      intro l hp hw
      have : c.walk E c.end (c.map.nextPosIn []) (fuel + 1) = some [] := by
        simp only [walk, TMap.nextPosIn]
        exact if_pos rfl
      rw [this] at hw
      injection hw with hw
      exact ⟨[], .nil, hw.symm⟩
    | cons n post ih' =>
      intro l hp hw
      simp only [TMap.nextPosIn] at hw
      split at hw
      · rw [← Seg.base_zero] at hw
        obtain ⟨q, qs, h1, h2, rfl⟩ := hseg pre post n 0 l hp hw
        exact ⟨q :: qs, .cons (by simpa using h1) h2, rfl⟩
      · obtain ⟨qs, h1, rfl⟩ := ih' (pre ++ [n]) l (by simp [hp]) hw
        exact ⟨[] :: qs, .cons List.nil_prefix h1, rfl⟩

/-- The loop over all elements meets, if it ends, some of the first elements of each segment. -/
theorem walk_prefix {c : Coll V} {w : World} (h : c.Core E w) :
    ∃ it, c.begin E = some it ∧ ∀ fuel l, c.walk E c.end it fuel = some l → ∃ qs, All2 (fun (p : Ty × List V) q => q <+: p.2) c.abs qs ∧ l = qs.flatten := by
  have hi := h.map.ids
  refine ⟨c.map.nextPosIn c.map.nodes, ?_, fun fuel l hw => ?_⟩
  · unfold begin TMap.begin TMap.iter2
    cases hn : c.map.nodes with
    | nil => rfl
    | cons n l =>
      have hr := (TMap.ref_itTo (m := c.map) (n := n) (by simp [hn])).node? E hi
      have h1 : c.map.node? E ⟨some n.id, c.map.gen⟩ = some n := hr
      simp only [TMap.itTo, h1]
      rw [TMap.nodesFrom_split hi (pre := []) (post := l) (n := n) (by simp [hn])]
  · obtain ⟨qs, h1, h2⟩ := (walk_prefix_seg h fuel).1 [] c.map.nodes l rfl hw
    refine ⟨qs, ?_, h2⟩
    rw [abs_eq]
    unfold absNodes
    clear h2 hw
    generalize c.map.nodes = ns at h1
    induction h1 with
    | nil => exact .nil
    | cons h _ ih => exact .cons h ih

/-- `reserve(0)` on packed segments only corrects cached ends. -/
theorem reserve_zero {c : Coll V} {w : World} (hk : ∀ n ∈ c.map.nodes, n.seg.kind = .packed) : ∃ c', reserveAll E 0 c w = .ok () c' w := by
  have hg : ∀ l : List (Node V), (∀ n ∈ l, n.seg.kind = .packed) → ∃ l', TMap.onAll.go (Seg.reserve E 0) l w = .ok () l' w := by
    intro l
    induction l with
    | nil => exact fun _ => ⟨_, rfl⟩
    | cons n l ih =>
      intro h
      obtain ⟨l', hl⟩ := ih fun m hm => h m (by simp [hm])
      have hn := h n (by simp)
      obtain ⟨i, key, ⟨be, snt⟩⟩ := n
      cases be with
      | split x => cases hn
      | packed x =>
        have h1 : Seg.reserve E 0 ⟨.packed x, snt⟩ w = .ok () ⟨.packed x, x.sentinel⟩ w := by
          simp [Seg.reserve, Seg.filterSentinel, Backend.run, Packed.reserve, Packed.onS, Packed.retSentinel, Env.reserve, zoom, bind, Prog.get, Pure.pure, Prog.bind, Prog.pure]
        exact ⟨_, by unfold TMap.onAll.go; simp only [h1, hl]; rfl⟩
  obtain ⟨l', hl⟩ := hg _ hk
  exact ⟨_, by simp only [reserveAll, onMap, TMap.onAll, zoom, hl]; rfl⟩

end Coll
end PolyColl
