import Verif.Lemmas.Survive
import Verif.Lemmas.Growth
/-!
# Operations that do not move the elements of a segment
-/

namespace PolyColl.Coll
open PolyColl Prog
variable {V : Type} {E : Env V}

/-- The elements of segment `t` are in the same buffer as before, there are `m` more of them. -/
def SameBuffer (c : Coll V) (t : Ty) (m : Nat) (c' : Coll V) : Prop :=
  ∀ x ∈ c.map.nodes, x.seg.ty = t → ∃ y ∈ c'.map.nodes, y.seg.ty = t ∧ y.seg.be.store.blk = x.seg.be.store.blk ∧
    y.seg.capacity = x.seg.capacity ∧ y.seg.size = x.seg.size + m

theorem SameBuffer.refl (c : Coll V) (t : Ty) : SameBuffer c t 0 c := fun x hx ht => ⟨x, hx, ht, rfl, rfl, rfl⟩

theorem SameBuffer.trans {a b c : Coll V} {t : Ty} {m n : Nat} (h : SameBuffer a t m b) (h' : SameBuffer b t n c) : SameBuffer a t (m + n) c := by
  intro x hx ht
  obtain ⟨y, hy, a1, a2, a3, a4⟩ := h x hx ht
  obtain ⟨z, hz, b1, b2, b3, b4⟩ := h' y hy a1
  exact ⟨z, hz, b1, b2.trans a2, b3.trans a3, by omega⟩

theorem Inserted.sameBuffer {c c' : Coll V} {w w' : World} {t : Ty} {k : Nat} {vs : List V} (h : Inserted E c w t k vs c' w') (hc : c.map.Inv E c.kind w)
    (ht : t ∈ c.abs.types) (hroom : ∀ n ∈ c.map.nodes, n.seg.ty = t → n.seg.size + vs.length ≤ n.seg.capacity) : SameBuffer c t vs.length c' := by
  cases h with
  | @mk c1 w1 n s w' ens ins hk =>
    obtain ⟨h1, h2⟩ := ens.old E hc ht
    intro a ha hat
    have : a = n := PolyColl.eq_of_nodup (hc.nodup_ty E) ha h2 (hat.trans ens.ty.symm)
    subst this
    have hs := ins.store (hroom a ha hat)
    refine ⟨{ a with seg := s }, TMap.put_mem (ens.mem E), by rw [← hat]; exact ins.step.ty, hs.1, hs.2, ?_⟩
    show s.size = _
    have e1 := Seg.size_eq a.seg
    rw [Seg.size_eq s, ins.elems]
    simp only [List.length_append, List.length_take, List.length_drop]
    omega

theorem Spares.sameBuffer {c c' : Coll V} {t : Ty} (h : Spares E c t c') : SameBuffer c t 0 c' := by
  intro x hx ht
  obtain ⟨y, hy, -, hs⟩ := h.node x hx ht
  exact ⟨y, hy, hs.ty.trans ht, hs.store.1, hs.store.2, hs.size⟩

theorem put_store {c : Coll V} {w : World} (hc : c.map.Inv E c.kind w) {n : Node V} {s : Seg V} (hn : n ∈ c.map.nodes)
    (ht : s.ty = n.seg.ty) (hs : s.be.store = n.seg.be.store) (t : Ty) : SameBuffer c t 0 (c.put n s) := by
  intro x hx hxt
  by_cases he : x.id = n.id
  · have : x = n := PolyColl.eq_of_nodup hc.ids hx hn he
    subst this
    refine ⟨{ x with seg := s }, TMap.put_mem hx, ht.trans hxt, by rw [hs], by show s.be.store.cap = _; rw [hs]; rfl, ?_⟩
    show s.be.store.size = _
    rw [hs]
    rfl
  · exact ⟨x, TMap.put_mem_ne hx he, hxt, rfl, rfl, rfl⟩

end PolyColl.Coll
