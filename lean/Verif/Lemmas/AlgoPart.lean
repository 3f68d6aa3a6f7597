import Verif.Lemmas.AlgoUnique
import Verif.Lemmas.AlgoCount
import Verif.Lemmas.AlgoSearch
/-!
# is_partitioned and partition_point
-/

namespace PolyColl
namespace StdAlg
variable {m : Type → Type} [Monad m] [LawfulMonad m] {A : Type}

theorem isPartitioned_eq (p : A → m Bool) (l : List A) :
    isPartitioned p l = findIfNot p l >>= fun n => if n = l.length then pure true else noneOf p (l.drop (n + 1)) := by
  induction l with
  | nil => simp [isPartitioned, findIfNot]
  | cons a l ih =>
    simp only [isPartitioned, findIfNot, bind_assoc, ih]
    refine bind_congr fun b => ?_
    cases b
    · simp
    · simp

end StdAlg

open Prog
namespace Algo
variable {V : Type} (E : Env V) {m : Type → Type} [Monad m] [LawfulMonad m]
open Coll

theorem isPartitioned_sim {c : Coll V} {w : World} (h : c.Inv E w) (Ts : List Ty) (p : Passed V → m Bool) {it last : GIter} {r : Nat}
    {q : Spec.State.Pos} (hi : AtRank E c it r) (hl : c.At E last q) (hr : r ≤ c.abs.rank q) :
    Sim Eq (isPartitioned E c Ts it last p) (StdAlg.isPartitioned p (passed Ts ((before c q).drop r))) := by
  obtain ⟨ps, h1, h2, h3⟩ := cut_from E h hi hl hr
  have hlen := before_length E h.map hl
  have hq : c.abs.rank q ≤ c.abs.flat.length := by
    rw [← hlen, List.length_take, Spec.State.typedFlat_length]; omega
  rw [StdAlg.isPartitioned_eq]
  refine Sim.bind (R := fun x n => AtRank E c x (r + n) ∧ n ≤ ((before c q).drop r).length) ?_ fun x n hx => ?_
  · unfold findIfNot genericFind
    refine Sim.congr (y := StdAlg.findIfNot p (passed Ts ((before c q).drop r)) >>= pure) ?_ (by simp)
    exact Sim.bind (Sim.defd h1 (genericFind_sim E h Ts (search_findIfNot p) h2 h3)) fun x k hx => Sim.pure hx
  · obtain ⟨g1, g2⟩ := hx
    rw [passed_length]
    rw [List.length_drop, hlen] at g2 ⊢
    have hiff := g1.eq E (Inv.core E h) ⟨q, hl, rfl⟩
    by_cases hn : n = c.abs.rank q - r
    · rw [if_pos hn, if_pos (hiff.2 (by omega))]
      exact Sim.pure rfl
    · rw [if_neg hn, if_neg (fun e => hn (by have := hiff.1 e; omega))]
      obtain ⟨it', k1, k2⟩ := g1.increment E h (by omega)
      obtain ⟨ps', q1, q2, -⟩ := cut_from E h k2 hl (by omega)
      refine Sim.defd k1 (Sim.defd q1 ?_)
      have := noneOfIn_sim E (Inv.core E h) Ts p q2
      rw [show passed Ts ((before c q).drop (r + n + 1)) = (passed Ts ((before c q).drop r)).drop (n + 1) by
        simp [passed, List.map_drop, List.drop_drop, Nat.add_assoc]] at this
      exact this

/-- The element at a place of a segment. -/
theorem typedFlat_at {c : Coll V} {w : World} (h : c.map.Inv E c.kind w) {n : Node V} (hn : n ∈ c.map.nodes) {k : Nat} {v : V}
    (hv : n.seg.elems[k]? = some v) : c.abs.typedFlat[c.abs.rank (some (n.seg.ty, k))]? = some (n.seg.ty, v) := by
  obtain ⟨pre, l, hs⟩ := List.append_of_mem hn
  have hk := (List.getElem?_eq_some_iff.1 hv).1
  have hd := onFrom_eq E h hs (a := k) (Nat.le_of_lt hk)
  have h0 := congrArg (fun l => l[0]?) hd
  simp only [List.getElem?_drop, Nat.add_zero] at h0
  rw [h0, onFrom, List.getElem?_append_left]
  · simp only [sliceOf, List.getElem?_map]
    rw [List.getElem?_take_of_lt (show 0 < n.seg.size - k from by have : n.seg.size = n.seg.elems.length := rfl; omega), List.getElem?_drop]
    simp [hv]
  · rw [sliceOf_length (by have : n.seg.size = n.seg.elems.length := rfl; omega)]
    have : n.seg.size = n.seg.elems.length := rfl
    omega

theorem partitionPointPred_sim {c : Coll V} {w : World} (h : c.Inv E w) (Ts : List Ty) (p : Passed V → m Bool) {it : GIter} {r : Nat}
    (hi : AtRank E c it r) {x : Ty × V} (hx : c.abs.typedFlat[r]? = some x) : Sim Eq (partitionPointPred E c Ts p it) (p (Passed.of Ts x)) := by
  obtain ⟨pos, h1, h2⟩ := hi
  have hr := (List.getElem?_eq_some_iff.1 hx).1
  rw [Spec.State.typedFlat_length] at hr
  cases pos with
  | none => rw [rank_none] at h2; omega
  | some pk =>
    obtain ⟨t, k⟩ := pk
    obtain ⟨n, hu, rfl, hk, hp⟩ := h1.use
    have hv : n.seg.elems[k]? = some (n.seg.elems[k]'hk) := List.getElem?_eq_getElem hk
    have := typedFlat_at E h.map hu.mem hv
    rw [h2, hx] at this
    cases this
    refine Sim.defd (segInfo_eq E h.map hu) (Sim.defd (derefAs_eq E (Inv.core E h) Ts (h.map.ty n hu.mem).symm hu hp hv) (Sim.call _))

theorem bisect_sim {c : Coll V} {w : World} (h : c.Inv E w) (Ts : List Ty) (p : Passed V → m Bool) :
    ∀ (fuel len : Nat) (it : GIter) (r : Nat), AtRank E c it r → r + len ≤ c.abs.flat.length → len < fuel →
      Sim (fun x n => AtRank E c x (r + n)) (bisect E c (partitionPointPred E c Ts p) it len fuel)
        (StdAlg.partitionPoint p (passed Ts ((c.abs.typedFlat.drop r).take len))) := by
  intro fuel
  induction fuel with
  | zero => intro len it r _ _ hf; omega
  | succ fuel ih =>
    intro len it r hi hr hf
    have hlen : ((c.abs.typedFlat.drop r).take len).length = len := by
      rw [List.length_take, List.length_drop, Spec.State.typedFlat_length]; omega
    rw [StdAlg.partitionPoint, bisect]
    by_cases h0 : len = 0
    · subst h0
      simp only [if_true]
      exact Sim.pure hi
    · rw [if_neg h0]
      have hlt : r + len / 2 < c.abs.typedFlat.length := by rw [Spec.State.typedFlat_length]; omega
      obtain ⟨it', k1, k2⟩ := next_eq E h (len / 2) it r hi (by omega)
      have hx : c.abs.typedFlat[r + len / 2]? = some (c.abs.typedFlat[r + len / 2]'hlt) := List.getElem?_eq_getElem hlt
      have hget : (passed Ts ((c.abs.typedFlat.drop r).take len))[(passed Ts ((c.abs.typedFlat.drop r).take len)).length / 2]? =
          some (Passed.of Ts (c.abs.typedFlat[r + len / 2]'hlt)) := by
        rw [passed_length, hlen, passed, List.getElem?_map, List.getElem?_take_of_lt (by omega), List.getElem?_drop, hx]
        rfl
      split
      · rename_i hn
        rw [hget] at hn; cases hn
      · rename_i a hn
        rw [hget] at hn
        cases hn
        refine Sim.defd k1 ?_
        refine (partitionPointPred_sim E h Ts p k2 hx).bind fun b b' hb => ?_
        subst hb
        rw [passed_length, hlen]
        refine Sim.ite (fun _ => ?_) (fun _ => ?_)
        · obtain ⟨it'', j1, j2⟩ := k2.increment E h (by rw [← Spec.State.typedFlat_length]; exact hlt)
          refine Sim.defd j1 ?_
          have := ih (len - len / 2 - 1) it'' (r + len / 2 + 1) j2 (by omega) (by omega)
          have hdrop : (passed Ts ((c.abs.typedFlat.drop r).take len)).drop (len / 2 + 1) =
              passed Ts ((c.abs.typedFlat.drop (r + len / 2 + 1)).take (len - len / 2 - 1)) := by
            rw [passed, ← List.map_drop, List.drop_take, List.drop_drop, show r + (len / 2 + 1) = r + len / 2 + 1 by omega,
              show len - (len / 2 + 1) = len - len / 2 - 1 by omega]
            rfl
          rw [hdrop]
          obtain ⟨z, hz1, hz2⟩ := this
          refine ⟨(fun q => ⟨(q.1.1, len / 2 + 1 + q.1.2), ?_⟩) <$> z, ?_, ?_⟩
          · have : r + (len / 2 + 1 + q.1.2) = r + len / 2 + 1 + q.1.2 := by omega
            simp only [this]
            exact q.2
          · rw [hz1, Functor.map_map]
          · rw [hz2, Functor.map_map, bind_map_left, map_eq_pure_bind]
        · have := ih (len / 2) it r hi (by omega) (by omega)
          have htake : (passed Ts ((c.abs.typedFlat.drop r).take len)).take (len / 2) = passed Ts ((c.abs.typedFlat.drop r).take (len / 2)) := by
            rw [passed, ← List.map_take, List.take_take, Nat.min_eq_left (by omega)]
            rfl
          rw [htake]
          exact this

theorem partitionPoint_sim {c : Coll V} {w : World} (h : c.Inv E w) (Ts : List Ty) (p : Passed V → m Bool) {it last : GIter} {r : Nat}
    {q : Spec.State.Pos} (hi : AtRank E c it r) (hl : c.At E last q) (hr : r ≤ c.abs.rank q) :
    Sim (fun x n => AtRank E c x (r + n)) (partitionPoint E c Ts it last p) (StdAlg.partitionPoint p (passed Ts ((before c q).drop r))) := by
  have hlen := before_length E h.map hl
  have hq : c.abs.rank q ≤ c.abs.flat.length := by
    rw [← hlen, List.length_take, Spec.State.typedFlat_length]; omega
  refine Sim.defd (distance_eq E h ⟨q, hl, rfl⟩ hq (c.size + 1) it r hi hr (by rw [size_abs]; omega)) ?_
  have := bisect_sim E h Ts p (c.abs.rank q - r + 1) (c.abs.rank q - r) it r hi (by omega) (by omega)
  rw [before, List.drop_take]
  exact this

end Algo
end PolyColl
