import Verif.Lemmas.Descriptor
import Verif.Lemmas.Survive
import Verif.Lemmas.Writing
/-! # Elements that stay where they are -/

namespace PolyColl
open Prog

variable {V : Type} {E : Env V} {k : Kind}

namespace Coll

/-- Element `m` of segment `t` of `c` is element `m` of segment `t` of `c'`, at the same address, and its value was changed by
`f`; `same` tells when base iterators still point to it. -/
def Anchored (E : Env V) (same : Prop) (c : Coll V) (t : Ty) (m : Nat) (f : V → V) (c' : Coll V) : Prop :=
  ∀ n ∈ c.map.nodes, n.seg.ty = t → m < n.seg.size → ∃ n' ∈ c'.map.nodes, n'.id = n.id ∧ n'.seg.ty = t ∧ m < n'.seg.size ∧
    (same → n'.seg.base m = n.seg.base m) ∧ n'.seg.loc m = n.seg.loc m ∧ n'.seg.elems[m]? = n.seg.elems[m]?.map f ∧ (n.seg.Whole E → n'.seg.Whole E)

theorem Anchored.of_nodes {same : Prop} {c c' : Coll V} (h : c'.map.nodes = c.map.nodes) (t : Ty) (m : Nat) : Anchored E same c t m id c' :=
  fun n hn ht hm => ⟨n, h ▸ hn, rfl, ht, hm, fun _ => rfl, rfl, by simp, id⟩

theorem Anchored.refl {same : Prop} (c : Coll V) (t : Ty) (m : Nat) : Anchored E same c t m id c := .of_nodes rfl t m

theorem Anchored.trans {same : Prop} {a b c : Coll V} {t : Ty} {m : Nat} {f g : V → V} (h : Anchored E same a t m f b) (h' : Anchored E same b t m g c) :
    Anchored E same a t m (g ∘ f) c := by
  intro n hn ht hm
  obtain ⟨n1, h1, h2, h3, h4, h5, h6, h7, h8⟩ := h n hn ht hm
  obtain ⟨n2, g1, g2, g3, g4, g5, g6, g7, g8⟩ := h' n1 h1 h3 h4
  exact ⟨n2, g1, g2.trans h2, g3, g4, fun e => (g5 e).trans (h5 e), g6.trans h6, by rw [g7, h7, Option.map_map], fun e => g8 (h8 e)⟩

theorem Spares.anchored {same : Prop} {c c' : Coll V} {t : Ty} (h : Spares E c t c') (m : Nat) : Anchored E same c t m id c' := by
  intro n hn ht hm
  obtain ⟨n', h1, h2, h3⟩ := h.node n hn ht
  exact ⟨n', h1, h2, h3.ty.trans ht, by rw [h3.size]; exact hm, fun _ => h3.base m, h3.loc m, by rw [h3.elems]; simp, h3.whole⟩

theorem Prefix.anchored {same : Prop} {c c' : Coll V} {w' : World} {t : Ty} {j m : Nat} (h : Prefix E c t j same c') (hc' : c'.Inv E w') (hm : m < j) :
    Anchored E same c t m id c' := by
  intro n hn ht hlt
  obtain ⟨n', g1, g2, g3, g4, g5, g6⟩ := h.node n hn ht
  refine ⟨n', g1, g2, g3, lt_of_take g4 hm hlt, fun e => ?_, ?_, ?_, fun _ => (hc'.mem.segs n' g1).core.whole E⟩
  · unfold Seg.base; rw [g6 e (by omega)]
  · unfold Seg.loc Vec.ptr; rw [g5.1]
  · have := congrArg (fun l : List V => l[m]?) g4
    simpa [List.getElem?_take, hm] using this

theorem Edited.anchored {same : Prop} {c c' : Coll V} {w w' : World} {t : Ty} {j : Nat} {f : V → V} (h : Edited c w t j f c' w') (hc : c.Inv E w) (m : Nat) :
    Anchored E same c t m (if j = m then f else id) c' := by
  have hc' := h.inv hc
  obtain ⟨a, ha, rfl, hk, rfl, h1⟩ := h
  intro n hn ht hlt
  have : n = a := PolyColl.eq_of_nodup (hc.map.nodup_ty E) hn ha ht
  subst this
  refine ⟨{ n with seg := n.seg.edit j f }, TMap.put_mem hn, rfl, Seg.edit_ty _ _ _, ?_, fun _ => ?_, ?_, ?_, fun _ => ?_⟩
  · show m < (n.seg.edit j f).size
    rw [Seg.size_eq, Seg.edit_elems, List.length_modify, ← Seg.size_eq]
    exact hlt
  · exact Seg.edit_base _ _ _ _
  · exact Seg.edit_loc _ _ _ _
  · show (n.seg.edit j f).elems[m]? = _
    rw [Seg.edit_elems, List.getElem?_modify]
    split <;> simp_all
  · exact (hc'.mem.segs _ (TMap.put_mem hn)).core.whole E

end Coll
end PolyColl
