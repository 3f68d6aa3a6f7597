import Verif.Lemmas.Never
import Verif.Lemmas.CollErase
/-!
# Segments of an `any_collection` after an erasure that threw

Their index has lost its last entry (`Short`); unless the segment is full, the next insertion then
puts the wrong entry in its place.
-/

namespace PolyColl
open Prog

namespace Split
variable {V : Type} {E : Env V}

/-- The index has an entry for every element but not the one for the end. -/
def Short (x : Split V) : Prop := x.i.elems = (List.range x.s.size).map x.s.ptr

theorem erase_short (p : Ptr) (x : Split V) (w : World) :
    Leaves (erase E p) x w (fun _ _ _ => True) (fun _ y _ => y.i.elems = x.i.elems.dropLast) := by
  unfold erase popIndexEntry popIndexEntry onI
  simp only [leaves_bind, leaves_zoom]
  unfold idxPopBack
  rw [leaves_bind, leaves_get, leaves_ite]
  refine ⟨fun _ => trivial, fun _ => ?_⟩
  rw [leaves_set]
  refine leaves_pure.2 ?_
  rw [leaves_get, leaves_ofOption]
  intro n _
  unfold onS
  rw [leaves_zoom]
  exact Leaves.trivial.mono (fun _ _ _ _ => trivial) (fun _ _ _ _ => rfl)

theorem emplaceBack_room (t : Ty) (src : Src V) (s : Vec V) (w : World) (hr : s.size < s.cap) :
    Leaves (E.emplaceBack t src) s w (fun _ s' w' => s'.blk = s.blk ∧ s'.size = s.size + 1 ∧ w.next ≤ w'.next) (fun _ _ _ => True) := by
  unfold Env.emplaceBack
  rw [leaves_bind, leaves_get, if_pos hr]
  have h := (E.construct_keeps (C := sameCtx (fun _ : Vec V => ())) t src).leaves (x := s) (w := w) trivial
  refine Leaves.bind h (fun v s' w' h => ?_) (fun _ _ _ _ => trivial)
  rw [leaves_set]
  exact ⟨rfl, by simp [Vec.size], h.2.2⟩

theorem pushBack_short (src : Src V) (x : Split V) (w : World) (h : x.Short) (hr : x.s.size < x.s.cap) :
    Leaves (pushBack E src) x w
      (fun r y _ => y.derefBase r.1 = none ∧ r.1.blk = y.i.blk ∧ (y.i.blk = x.i.blk ∧ x.i.size < x.i.cap ∨ w.next ≤ y.i.blk) ∧ y.s.size = x.s.size + 1 ∧ y.ty = x.ty ∧ r.1 ≠ r.2)
      (fun _ _ _ => True) := by
  unfold pushBack prereserve
  rw [leaves_bind, leaves_bind, leaves_get, if_neg (by omega)]
  refine leaves_pure.2 ?_
  rw [leaves_bind, leaves_get, leaves_bind]
  unfold onS
  rw [leaves_zoom]
  refine (emplaceBack_room x.ty src x.s w hr).mono ?_ (fun _ _ _ _ => trivial)
  rintro _ s1 w1 ⟨h1, h2, h3⟩
  unfold pushIndexEntry buildIndex
  rw [leaves_bind, leaves_bind, leaves_get, leaves_bind, leaves_get]
  simp only [Nat.add_sub_cancel_left]
  unfold List.range' List.range' Prog.each Prog.each pushIndex onI
  refine leaves_bind.2 ?_
  rw [leaves_bind, leaves_get, leaves_ite]
  refine ⟨fun _ => trivial, fun _ => ?_⟩
  rw [leaves_zoom]
  have hlen : x.i.elems.length = x.s.size := by rw [h]; simp
  have fin : ∀ i1 : Vec Ptr, i1.elems = x.i.elems ++ [s1.ptr s1.size] → (i1.blk = x.i.blk ∧ x.i.size < x.i.cap ∨ w.next ≤ i1.blk) →
      (fun (r : Ptr × Ptr) (y : Split V) (_ : World) => y.derefBase r.1 = none ∧ r.1.blk = y.i.blk ∧ (y.i.blk = x.i.blk ∧ x.i.size < x.i.cap ∨ w.next ≤ y.i.blk) ∧
        y.s.size = x.s.size + 1 ∧ y.ty = x.ty ∧ r.1 ≠ r.2) (rangeFrom { x with s := s1, i := i1 } (s1.size - 1)) { x with s := s1, i := i1 } w1 := by
    intro i1 hi hb
    refine ⟨?_, rfl, hb, h2, rfl, fun h => ?_⟩
    rotate_left
    · simp only [rangeFrom, sentinel, Vec.ptr, Ptr.mk.injEq, true_and] at h
      omega
    unfold derefBase rangeFrom Vec.deref Vec.ptr
    simp only [if_true, hi, h2, Nat.add_sub_cancel]
    rw [List.getElem?_append_right (by omega), hlen]
    simp [Vec.ptr, Vec.size] at *
    omega
  unfold Env.idxPushBack
  rw [leaves_bind, leaves_get, leaves_ite]
  refine ⟨fun hi => ?_, fun hi => ?_⟩
  · exact fin _ rfl (Or.inl ⟨rfl, hi⟩)
  · rw [leaves_ite]
    refine ⟨fun _ => trivial, fun _ => ?_⟩
    rw [leaves_bind]
    unfold Env.alloc
    unfold Leaves
    by_cases hf : E.fault w1.tick = true
    · simp only [hf, if_true]
    · simp only [hf]
      exact fin _ rfl (Or.inr h3)

end Split

namespace Seg
variable {V : Type} {E : Env V}

/-- `Split.Short` for a segment of an `any_collection`. -/
def Short (x : Seg V) : Prop := ∃ y, x.be = .split y ∧ y.Short

theorem eraseBase_drop (p : Ptr) (x : Seg V) (w : World) {y : Split V} (hy : x.be = .split y) :
    Leaves (eraseBase E p) x w (fun _ _ _ => True) (fun _ x' _ => ∃ y', x'.be = .split y' ∧ y'.i.elems = y.i.elems.dropLast) := by
  obtain ⟨be, snt⟩ := x
  subst hy
  have h : Leaves (do
      let x ← Prog.get
      let q ← Prog.ofOption (x.toLocal p)
      Split.erase E q : Prog (Split V) (Ptr × Ptr)) y w (fun _ _ _ => True) (fun _ y' _ => y'.i.elems = y.i.elems.dropLast) := by
    rw [leaves_bind, leaves_get, leaves_bind, leaves_ofOption]
    exact fun q _ => Split.erase_short q y w
  unfold Leaves at h ⊢
  unfold eraseBase filterRange Backend.run
  dsimp only
  split at h <;> simp_all

theorem pushBack_short (src : Src V) (x : Seg V) (w : World) (hw : x.Weak E w) (h : x.Short) (hr : x.size < x.capacity) :
    Leaves (pushBack E src) x w
      (fun p x' _ => x'.be.derefBase p = none ∧ p ≠ x'.snt ∧ (p.blk ∈ x.blocks ∧ p.blk ≠ 0 ∨ w.next ≤ p.blk) ∧ x'.size = x.size + 1 ∧ x'.ty = x.ty)
      (fun _ _ _ => True) := by
  obtain ⟨be, snt⟩ := x
  obtain ⟨y, rfl, hy⟩ := h
  have hi : y.i.WF w := Split.Weak.iwf hw
  have h := Split.pushBack_short (E := E) src y w hy hr
  unfold Leaves at h ⊢
  unfold pushBack filterRange Backend.run
  dsimp only
  split at h
  · next hp =>
    obtain ⟨h1, h2, h3, h4, h5, h6⟩ := h
    simp only [hp]
    refine ⟨h1, h6, ?_, h4, h5⟩
    rw [h2]
    refine h3.imp (fun ⟨h, h'⟩ => ?_) id
    rw [h]
    refine ⟨by simp [blocks, Backend.blocks], fun h0 => ?_⟩
    rw [hi.nul] at h0
    omega
  · next hp => simp only [hp]
  · next hp => simp only [hp]

end Seg

namespace Coll
variable {V : Type} {E : Env V}

theorem leaves_onSegU {α : Type} {it : MapIt} {p : Prog (Seg V) α} {c : Coll V} {w : World} {n : Node V}
    {Q : α → Coll V → World → Prop} {R : Exc → Coll V → World → Prop}
    (hi : (c.map.nodes.map (·.id)).Nodup) (h : c.map.Use E it n) :
    Leaves (onMap (TMap.onSeg E it p)) c w Q R ↔
      Leaves p n.seg w (fun a s w' => Q a (c.put n s) w') (fun e s w' => R e (c.put n s) w') := by
  unfold onMap
  rw [leaves_zoom]
  unfold Leaves TMap.onSeg
  rw [h.node? E hi]
  simp only
  cases p n.seg w <;> simp [put, TMap.put]

theorem retIter_safe {it : MapIt} {p : Ptr} {c : Coll V} {w : World} {R : Exc → Coll V → World → Prop} :
    Leaves (retIter E it p) c w (fun g c' w' => c' = c ∧ w' = w ∧ c.map.iter3 E it p = some g) R := by
  unfold retIter
  rw [leaves_bind, leaves_get, leaves_ofOption]
  exact fun g h => ⟨rfl, rfl, h⟩

theorem retIterEnd_safe {it e : MapIt} {p : Ptr} {c : Coll V} {w : World} {R : Exc → Coll V → World → Prop} :
    Leaves (retIterEnd E it e p) c w (fun _ c' w' => c' = c ∧ w' = w) R := by
  unfold retIterEnd
  rw [leaves_bind, leaves_get, leaves_ofOption]
  exact fun g h => ⟨rfl, rfl⟩

theorem erase_short {c : Coll V} {w : World} (hc : c.Inv E w) (hk : c.kind = .split) {pos : GIter} {t : Ty} {k : Nat} (hp : c.At E pos (some (t, k))) :
    Leaves (erase E pos) c w (fun _ _ _ => True)
      (fun e c' w' => ∃ n ∈ c.map.nodes, n.seg.ty = t ∧ ∃ s, c' = c.put n s ∧ Seg.RemFail E n.seg w e s w' ∧ s.Short) := by
  obtain ⟨n, hu, rfl, hk', hp⟩ := hp.use
  unfold erase
  rw [leaves_bind, leaves_onSegU hc.map.ids hu, hp]
  have hcore := (hc.mem.segs n hu.mem).core
  obtain ⟨y, hy⟩ : ∃ y, n.seg.be = .split y := by
    have := (hc.map.kind n hu.mem).trans hk
    unfold Seg.kind at this
    cases hb : n.seg.be with
    | packed x => rw [hb] at this; cases this
    | split y => exact ⟨y, rfl⟩
  refine ((Seg.eraseBase_runs E n.seg w hcore k hk').withLeaves (Seg.eraseBase_drop _ n.seg w hy)).leaves.mono ?_ ?_
  · intro _ _ _ _
    exact (retIterEnd_safe (R := fun _ _ _ => False)).mono (fun _ _ _ _ => trivial) (fun _ _ _ h => h.elim)
  · rintro e s w' ⟨⟨h1, -, -⟩, z, hz, hd⟩
    refine ⟨n, hu.mem, rfl, s, rfl, h1, z, hz, ?_⟩
    have hidx : y.i.elems = Split.goodIndex y.s := by
      have : y.Inv E w := by unfold Seg.Core at hcore; rw [hy] at hcore; exact hcore
      exact this.idx
    have hsz := h1.size
    have hst := h1.store
    unfold Seg.size at hsz
    rw [hz, hy] at hsz hst
    have hb : z.s.blk = y.s.blk := hst.1
    have hs : z.s.size = y.s.size := hsz
    unfold Split.Short
    rw [hd, hidx]
    unfold Split.goodIndex
    rw [← List.map_dropLast, List.range_succ, List.dropLast_concat, hs]
    unfold Vec.ptr
    rw [hb]

theorem emplace_short {c : Coll V} {w : World} (hc : c.Weak E w) {n : Node V} (hn : n ∈ c.map.nodes) (hs : n.seg.Short)
    (hr : n.seg.size < n.seg.capacity) {u : TI} (hu : E.tiTy u = n.seg.ty) (src : Src V) :
    Leaves (emplace E u src) c w
      (fun r c' _ => c'.map.deref r.segpos = none ∧ (c'.abs.elemsOf n.seg.ty).length = n.seg.size + 1) (fun _ _ _ => True) := by
  unfold emplace
  rw [leaves_bind]
  refine (forT_runs E u c w hc.map).leaves.mono ?_ (fun _ _ _ _ => trivial)
  rintro it c1 w1 ⟨m, ens, href⟩
  have hm : m = n := by
    cases ens.added with
    | old h hm => exact eq_of_nodup (hc.map.nodup_ty E) hm hn (ens.ty.trans hu)
    | new h => exact absurd (by rw [← hc.map.ty n hn, hu]) (h n hn)
  subst hm
  have hg := ens.good E (stable_weak E) hc
  have huse := href.use E
  rw [leaves_bind, leaves_onSegU hg.map.ids huse]
  unfold downcast
  rw [leaves_bind, leaves_get, if_pos hu.symm]
  refine (Seg.pushBack_short src m.seg w1 (hg.mem.segs m ens.mem) hs hr).mono ?_ (fun _ _ _ _ => trivial)
  rintro p s w2 ⟨h1, h2, h3, h4, h5⟩
  refine retIter_safe.mono ?_ (fun _ _ _ h => h)
  rintro g _ _ ⟨rfl, rfl, h6⟩
  have huse' := put_use_self E (s := s) huse
  have hids : ((c1.put m s).map.nodes.map (·.id)).Nodup := by
    rw [show (c1.put m s).map.nodes.map (·.id) = c1.map.nodes.map (·.id) from TMap.put_ids _ _ _]
    exact hg.map.ids
  constructor
  · unfold TMap.iter3 at h6
    rw [huse'.node, huse'.node? E hids] at h6
    simp only [Seg.sentinel, h2, if_false, Option.some.injEq] at h6
    subst h6
    show (c1.put m s).map.nodes.findSome? (fun a => a.seg.be.derefBase p) = none
    rw [List.findSome?_eq_none_iff]
    intro a ha
    rcases (TMap.mem_put_iff hg.map.ids ens.mem).1 ha with ⟨ha, hne⟩ | rfl
    · refine Seg.derefBase_other fun hb => ?_
      rcases h3 with ⟨h3, h0⟩ | h3
      · exact h0 (disj_mem hg.mem ha ens.mem (fun e => hne (e ▸ rfl)) _ hb h3)
      · have := hg.mem.lt a ha _ hb
        omega
    · exact h1
  · rw [put_abs E hg.map ens.mem h5, Spec.State.update_elemsOf (mem_types ens.mem), if_pos rfl]
    exact h4

end Coll
end PolyColl
