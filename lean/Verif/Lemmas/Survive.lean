import Verif.Lemmas.Spares
import Verif.Lemmas.Traverse
/-! # Iterators to elements that are not shifted, and access through local iterators -/

namespace PolyColl
open Prog

variable {V : Type} {E : Env V}

namespace Seg

/-- In the packed layout base iterators point into the store. -/
theorem packed_begin {x : Seg V} (h : x.kind = .packed) : x.begin = x.be.store.ptr 0 := by
  obtain ⟨be, snt⟩ := x
  cases be with
  | packed y => rfl
  | split y => cases h

end Seg

namespace Coll

theorem derefLocal_mem {P : Seg V → World → Prop} {c : Coll V} {w : World} (h : c.map.Mem P w) {n : Node V} (hn : n ∈ c.map.nodes) (hs : n.seg.Core E w) {k : Nat}
    (hk : k < n.seg.size) : c.derefLocal (n.seg.loc k) = n.seg.elems[k]? := by
  have hd : n.seg.be.derefLocal (n.seg.loc k) = n.seg.elems[k]? := Vec.deref_ptr
  have hne := Seg.store_blk_ne hs (by omega)
  have hsome : n.seg.elems[k]? = some (n.seg.elems[k]'(by rw [← Seg.size_eq]; exact hk)) := List.getElem?_eq_getElem _
  unfold derefLocal
  have hmem : ∀ a ∈ c.map.nodes, a ≠ n → a.seg.be.derefLocal (n.seg.loc k) = none := by
    intro a ha hna
    unfold Backend.derefLocal Vec.deref
    rw [if_neg]
    intro hb
    have hb : n.seg.be.store.blk = a.seg.be.store.blk := hb
    exact hne (disj_mem h ha hn hna _ (hb ▸ Seg.store_blk_mem a.seg) (Seg.store_blk_mem n.seg))
  generalize c.map.nodes = l at *
  clear h hs
  induction l with
  | nil => simp at hn
  | cons a l ih =>
    by_cases e : a = n
    · subst e
      rw [List.findSome?_cons, hd, hsome]
    · rw [List.findSome?_cons, hmem a (by simp) e]
      refine ih ?_ (fun b hb => hmem b (by simp [hb]))
      rcases List.mem_cons.1 hn with rfl | h
      · exact absurd rfl e
      · exact h

theorem derefLocal_node {c : Coll V} {w : World} (h : c.Core E w) {n : Node V} (hn : n ∈ c.map.nodes) {k : Nat}
    (hk : k < n.seg.size) : c.derefLocal (n.seg.loc k) = n.seg.elems[k]? := derefLocal_mem h.mem hn (h.mem.segs n hn) hk

/-- Access through a local base iterator. -/
theorem deref_latB {c : Coll V} {w : World} (h : c.Core E w) {l : LIter} {t : Ty} {k : Nat} (ha : c.LAtB E l t k)
    (hk : k < (c.abs.elemsOf t).length) : c.map.deref l.pos = (c.abs.elemsOf t)[k]? := by
  obtain ⟨n, hu, rfl, -, hp⟩ := ha
  have he := (Ens.refl E h.map hu.mem).elems E h.map
  rw [hp, deref_node E h hu.mem (by rw [Seg.size_eq, he]; exact hk), he]

/-- Access through a local iterator. -/
theorem deref_latL {c : Coll V} {w : World} (h : c.Core E w) {l : LIter} {t : Ty} {k : Nat} (ha : c.LAtL E l t k)
    (hk : k < (c.abs.elemsOf t).length) : c.derefLocal l.pos = (c.abs.elemsOf t)[k]? := by
  obtain ⟨n, hu, rfl, -, hp⟩ := ha
  have he := (Ens.refl E h.map hu.mem).elems E h.map
  rw [hp, derefLocal_node h hu.mem (by rw [Seg.size_eq, he]; exact hk), he]

/-- The elements of segment `t` before position `k` were left alone in going from `c` to `c'`; `same`
tells when base iterators still point to them. -/
structure Prefix (E : Env V) (c : Coll V) (t : Ty) (k : Nat) (same : Prop) (c' : Coll V) : Prop where
  usable : ∀ it, c.map.usable E it = true → c'.map.usable E it = true
  node : ∀ n ∈ c.map.nodes, n.seg.ty = t → ∃ n' ∈ c'.map.nodes, n'.id = n.id ∧ n'.seg.ty = t ∧ n'.seg.elems.take k = n.seg.elems.take k ∧
    Vec.Same n.seg.be.store n'.seg.be.store ∧ (same → 0 < n.seg.size → n'.seg.begin = n.seg.begin)

theorem lt_of_take {l l' : List V} {k m : Nat} (h : l'.take k = l.take k) (hm : m < k) (hl : m < l.length) : m < l'.length := by
  have := congrArg List.length h
  simp only [List.length_take] at this
  omega

theorem Prefix.at {c c' : Coll V} {t : Ty} {k m : Nat} {same : Prop} (h : Prefix E c t k same c') (hs : same) (hm : m < k) {it : GIter}
    (ha : c.At E it (some (t, m))) : c'.At E it (some (t, m)) := by
  obtain ⟨n, hn, h1, h2, h3, h4⟩ := ha.pos
  obtain ⟨n', hn', g1, g2, g3, -, g4⟩ := h.node n hn h2
  refine ⟨h.usable _ ha.usable, h.usable _ ha.endUsable, ha.endNode, n', hn', by rw [h1, g1], g2, lt_of_take g3 hm h3, ?_⟩
  rw [h4]
  unfold Seg.base
  rw [g4 hs (by omega)]

theorem Prefix.latB {c c' : Coll V} {t : Ty} {k m : Nat} {same : Prop} (h : Prefix E c t k same c') (hs : same) (hm : m < k) {l : LIter}
    (ha : c.LAtB E l t m) (hlt : ∀ n ∈ c.map.nodes, n.seg.ty = t → m < n.seg.size) : c'.LAtB E l t m := by
  obtain ⟨n, hu, h2, h3, h4⟩ := ha
  obtain ⟨n', hn', g1, g2, g3, -, g4⟩ := h.node n hu.mem h2
  have hlt := hlt n hu.mem h2
  refine ⟨n', ⟨hn', by rw [hu.node, g1], h.usable _ hu.usable⟩, g2, Nat.le_of_lt (lt_of_take g3 hm hlt), ?_⟩
  rw [h4]
  unfold Seg.base
  rw [g4 hs (by omega)]

theorem Prefix.latL {c c' : Coll V} {t : Ty} {k m : Nat} {same : Prop} (h : Prefix E c t k same c') (hm : m < k) {l : LIter}
    (ha : c.LAtL E l t m) (hlt : ∀ n ∈ c.map.nodes, n.seg.ty = t → m < n.seg.size) : c'.LAtL E l t m := by
  obtain ⟨n, hu, h2, h3, h4⟩ := ha
  obtain ⟨n', hn', g1, g2, g3, g5, -⟩ := h.node n hu.mem h2
  have hlt := hlt n hu.mem h2
  refine ⟨n', ⟨hn', by rw [hu.node, g1], h.usable _ hu.usable⟩, g2, Nat.le_of_lt (lt_of_take g3 hm hlt), ?_⟩
  rw [h4]
  unfold Seg.loc Vec.ptr
  rw [g5.1]

theorem Prefix.elem {c c' : Coll V} {w w' : World} {t : Ty} {k m : Nat} {same : Prop} (h : Prefix E c t k same c') (hc : c.map.Inv E c.kind w)
    (hc' : c'.map.Inv E c'.kind w') (ht : t ∈ c.abs.types) (hm : m < k) : (c'.abs.elemsOf t)[m]? = (c.abs.elemsOf t)[m]? := by
  obtain ⟨n, hn, rfl⟩ := types_mem ht
  obtain ⟨n', hn', g1, g2, g3, -⟩ := h.node n hn rfl
  have h1 := (Ens.refl E hc hn).elems E hc
  have h2 := (Ens.refl E hc' hn').elems E hc'
  rw [← h1, ← g2, ← h2]
  have := congrArg (fun l : List V => l[m]?) g3
  simpa [List.getElem?_take, hm] using this

theorem usable_same {c c' : Coll V} (h : TMap.SameNodes c.map c'.map) {it : MapIt} (hu : c.map.usable E it = true) : c'.map.usable E it = true := by
  unfold TMap.usable at *
  rw [h.gen]
  exact hu

theorem Inserted.prefix {c c' : Coll V} {w w' : World} {t : Ty} {k : Nat} {vs : List V} (h : Inserted E c w t k vs c' w') (hc : c.Inv E w)
    (ht : t ∈ c.abs.types) (hroom : ∀ n ∈ c.map.nodes, n.seg.ty = t → n.seg.size + vs.length ≤ n.seg.capacity) :
    Prefix E c t k (c.kind = .packed ∨ ExactReserve E) c' := by
  cases h with
  | @mk c1 w1 n s w' ens ins hk =>
    obtain ⟨h1, h2⟩ := ens.old E hc.map ht
    refine ⟨fun it hu => usable_same h1 hu, ?_⟩
    intro a ha hat
    have : a = n := PolyColl.eq_of_nodup (hc.map.nodup_ty E) ha h2 (hat.trans ens.ty.symm)
    subst this
    have hr := hroom a ha hat
    refine ⟨{ a with seg := s }, TMap.put_mem (ens.mem E), rfl, by rw [← hat]; exact ins.step.ty, ?_, ins.store hr, ?_⟩
    · show s.elems.take k = _
      rw [ins.elems, List.append_assoc, List.take_append_of_le_length (by simp only [List.length_take]; have := Seg.size_eq a.seg; omega), List.take_take, Nat.min_self]
    · rintro (hp | hx) hs
      · have hk1 : a.seg.kind = .packed := (hc.map.kind a ha).trans hp
        show s.begin = _
        rw [Seg.packed_begin hk1, Seg.packed_begin (ins.step.kind.trans hk1)]
        unfold Vec.ptr
        rw [(ins.store hr).1]
      · exact ins.begin hx hs hr

theorem Removed.prefix {c c' : Coll V} {w w' : World} {s : Spec.State V} (h : Removed E c w s c' w') (hc : c.map.Inv E c.kind w) {t : Ty} {k : Nat}
    (hs : (s.elemsOf t).take k = (c.abs.elemsOf t).take k) : Prefix E c t k True c' := by
  refine ⟨fun it hu => by rw [h.upd.usable]; exact hu, fun n hn hnt => ?_⟩
  obtain ⟨n', h1, h2, -, h3⟩ := h.upd.nodes.mem' hn
  refine ⟨n', h1, h2, h3.1.trans hnt, ?_, h3.2.2.1, fun _ _ => h3.2.2.2⟩
  rw [(Ens.refl E h.inv.map h1).elems E h.inv.map, (Ens.refl E hc hn).elems E hc, h3.1, h.abs, hnt, hs]

/-- Elements before the range are not removed. -/
theorem removeRange_before {s : Spec.State V} (hs : s.types.Nodup) {t : Ty} {m : Nat} {l : List V} (hg : s.get t = some l) (hm : m < l.length) :
    ∀ {a b : Nat}, s.rank (some (t, m)) < a → a ≤ b → ((s.removeRange a b).elemsOf t).take (m + 1) = l.take (m + 1) := by
  induction s with
  | nil => simp [Spec.State.get] at hg
  | cons p s ih =>
    obtain ⟨u, r⟩ := p
    intro a b h hab
    simp only [Spec.State.types, List.map_cons, List.nodup_cons] at hs
    simp only [Spec.State.rank] at h
    unfold Spec.State.elemsOf
    simp only [Spec.State.get, List.lookup_cons] at hg
    simp only [Spec.State.removeRange, Spec.State.get, List.lookup_cons]
    by_cases he : u = t
    · subst he
      simp only [beq_self_eq_true, Option.some.injEq, if_true] at hg h ⊢
      subst hg
      rw [List.take_append_of_le_length (by simp; omega), List.take_take]
      congr 1
      omega
    · have he' : (t == u) = false := by simp [Ne.symm he]
      simp only [he', if_neg he] at hg h ⊢
      exact ih hs.2 hg (a := a - r.length) (b := b - r.length) (by omega) (by omega)

end Coll
end PolyColl
