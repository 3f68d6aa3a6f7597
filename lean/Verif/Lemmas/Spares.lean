import Verif.Lemmas.Unharmed
/-! # Which iterators survive an operation -/

namespace PolyColl
open Prog

variable {V : Type} {E : Env V}

/-- The same elements in the same place. -/
structure SegSame (E : Env V) (s s' : Seg V) : Prop where
  ty : s'.ty = s.ty
  elems : s'.elems = s.elems
  begin : s'.begin = s.begin
  store : Vec.Same s.be.store s'.be.store
  whole : s.Whole E → s'.Whole E

theorem SegSame.refl (s : Seg V) : SegSame E s s := ⟨rfl, rfl, rfl, ⟨rfl, rfl⟩, id⟩

theorem SegSame.trans {a b c : Seg V} (h : SegSame E a b) (h' : SegSame E b c) : SegSame E a c :=
  ⟨h'.ty.trans h.ty, h'.elems.trans h.elems, h'.begin.trans h.begin, ⟨h'.store.1.trans h.store.1, h'.store.2.trans h.store.2⟩, fun hw => h'.whole (h.whole hw)⟩

theorem SegSame.size {s s' : Seg V} (h : SegSame E s s') : s'.size = s.size := congrArg List.length h.elems

theorem SegSame.base {s s' : Seg V} (h : SegSame E s s') (k : Nat) : s'.base k = s.base k := by
  unfold Seg.base
  rw [h.begin]

theorem SegSame.loc {s s' : Seg V} (h : SegSame E s s') (k : Nat) : s'.loc k = s.loc k := by
  unfold Seg.loc Vec.ptr
  rw [h.store.1]

namespace Coll

/-- Segment `u` was left alone in going from `c` to `c'`. -/
structure Spares (E : Env V) (c : Coll V) (u : Ty) (c' : Coll V) : Prop where
  types : ∀ t ∈ c.abs.types, t ∈ c'.abs.types
  node : ∀ n ∈ c.map.nodes, n.seg.ty = u → ∃ n' ∈ c'.map.nodes, n'.id = n.id ∧ SegSame E n.seg n'.seg
  gen : (∀ t ∈ c'.abs.types, t ∈ c.abs.types) → c'.map.gen = c.map.gen

theorem Spares.refl (c : Coll V) (u : Ty) : Spares E c u c := ⟨fun _ h => h, fun n hn _ => ⟨n, hn, rfl, .refl _⟩, fun _ => rfl⟩

theorem Spares.trans {a b c : Coll V} {u : Ty} (h : Spares E a u b) (h' : Spares E b u c) : Spares E a u c := by
  refine ⟨fun t ht => h'.types t (h.types t ht), ?_, ?_⟩
  · intro n hn hu
    obtain ⟨n1, h1, h2, h3⟩ := h.node n hn hu
    obtain ⟨n2, h4, h5, h6⟩ := h'.node n1 h1 (h3.ty.trans hu)
    exact ⟨n2, h4, h5.trans h2, h3.trans h6⟩
  · intro hr
    exact (h'.gen fun t ht => h.types t (hr t ht)).trans (h.gen fun t ht => hr t (h'.types t ht))

theorem Spares.at {c c' : Coll V} {u : Ty} (h : Spares E c u c') (hr : E.strictRehash = false ∨ c'.map.gen = c.map.gen)
    {it : GIter} {n : Nat} (ha : c.At E it (some (u, n))) : c'.At E it (some (u, n)) := by
  obtain ⟨m, hm, h1, h2, h3, h4⟩ := ha.pos
  obtain ⟨m', hm', h5, h6⟩ := h.node m hm h2
  exact ⟨TMap.usable_of_gen hr ha.usable, TMap.usable_of_gen hr ha.endUsable, ha.endNode, m', hm', by rw [h1, h5], h6.ty.trans h2, by rw [h6.size]; exact h3,
    by rw [h6.base]; exact h4⟩

theorem Spares.atEnd {c c' : Coll V} (hr : E.strictRehash = false ∨ c'.map.gen = c.map.gen)
    {it : GIter} (ha : c.At E it none) : c'.At E it none :=
  ⟨TMap.usable_of_gen hr ha.usable, TMap.usable_of_gen hr ha.endUsable, ha.endNode, ha.pos⟩

theorem Spares.latB {c c' : Coll V} {u : Ty} (h : Spares E c u c') (hr : E.strictRehash = false ∨ c'.map.gen = c.map.gen)
    {l : LIter} {n : Nat} (ha : c.LAtB E l u n) : c'.LAtB E l u n := by
  obtain ⟨m, hm, h2, h3, h4⟩ := ha
  obtain ⟨m', hm', h5, h6⟩ := h.node m hm.mem h2
  exact ⟨m', ⟨hm', by rw [hm.node, h5], TMap.usable_of_gen hr hm.usable⟩, h6.ty.trans h2, by rw [h6.size]; exact h3, by rw [h6.base]; exact h4⟩

theorem Spares.latL {c c' : Coll V} {u : Ty} (h : Spares E c u c') (hr : E.strictRehash = false ∨ c'.map.gen = c.map.gen)
    {l : LIter} {n : Nat} (ha : c.LAtL E l u n) : c'.LAtL E l u n := by
  obtain ⟨m, hm, h2, h3, h4⟩ := ha
  obtain ⟨m', hm', h5, h6⟩ := h.node m hm.mem h2
  exact ⟨m', ⟨hm', by rw [hm.node, h5], TMap.usable_of_gen hr hm.usable⟩, h6.ty.trans h2, by rw [h6.size]; exact h3, by rw [h6.loc]; exact h4⟩

theorem Spares.elemsOf {c c' : Coll V} {w w' : World} {u : Ty} (h : Spares E c u c') (hc : c.map.Inv E c.kind w) (hc' : c'.map.Inv E c'.kind w')
    (hu : u ∈ c.abs.types) : c'.abs.elemsOf u = c.abs.elemsOf u := by
  obtain ⟨m, hm, rfl⟩ := types_mem hu
  obtain ⟨m', hm', -, h6⟩ := h.node m hm rfl
  rw [← (Ens.refl E hc hm).elems E hc, ← h6.elems, (Ens.refl E hc' hm').elems E hc', h6.ty]

/-! ### Outcomes -/

theorem SameNodes.spares {c c' : Coll V} (h : TMap.SameNodes c.map c'.map) (u : Ty) : Spares E c u c' := by
  have hab : c'.abs = c.abs := by unfold abs TMap.abs; rw [h.nodes]
  refine ⟨fun t ht => hab ▸ ht, fun n hn _ => ⟨n, h.nodes ▸ hn, rfl, .refl _⟩, fun _ => h.gen⟩

theorem Ens.spares {c c' : Coll V} {w w' : World} {t : Ty} {n : Node V} (h : Ens E c w t n c' w') (hc : c.map.Inv E c.kind w) (u : Ty) : Spares E c u c' := by
  by_cases ht : t ∈ c.abs.types
  · exact SameNodes.spares (h.old E hc ht).1 u
  · have hm : ∀ t ∈ c.abs.types, t ∈ c'.abs.types := by
      intro t ht
      obtain ⟨m, hm, rfl⟩ := types_mem ht
      exact mem_types (h.mem_old E hm)
    refine ⟨hm, fun m hm _ => ⟨m, h.mem_old E hm, rfl, .refl _⟩, fun hr => ?_⟩
    exact absurd (hr t (h.ty ▸ mem_types (h.mem E))) ht

theorem EnsFail.spares {c c' : Coll V} {w w' : World} {t : Ty} {e : Exc} (h : EnsFail E c w t e c' w') (hc : c.map.Inv E c.kind w) (u : Ty) : Spares E c u c' := by
  rcases h.nodes with h | ⟨n, h⟩
  · exact SameNodes.spares h u
  · exact h.spares hc u

theorem put_spares {c : Coll V} {w : World} (hc : c.map.Inv E c.kind w) {n : Node V} {s : Seg V} (hn : n ∈ c.map.nodes) (hs : s.ty = n.seg.ty) {u : Ty} (hu : u ≠ n.seg.ty) :
    Spares E c u (c.put n s) := by
  have hty : (c.put n s).abs.types = c.abs.types := by rw [put_abs E hc hn hs, Spec.State.update_types]
  refine ⟨fun t ht => hty ▸ ht, ?_, fun _ => rfl⟩
  intro m hm hmu
  refine ⟨m, TMap.put_mem_ne hm ?_, rfl, .refl _⟩
  intro he
  have : m = n := PolyColl.eq_of_nodup (f := fun a : Node V => a.id) hc.ids hm hn he
  exact hu (this ▸ hmu).symm

theorem Inserted.spares {c c' : Coll V} {w w' : World} {t : Ty} {k : Nat} {vs : List V} (h : Inserted E c w t k vs c' w') (hc : c.map.Inv E c.kind w)
    {u : Ty} (hu : u ≠ t) : Spares E c u c' := by
  cases h with
  | @mk c1 w1 n s w' ens ins hk => exact (ens.spares hc u).trans (put_spares ens.inv (ens.mem E) ins.step.ty (ens.ty ▸ hu))

theorem InsFail.spares {c c' : Coll V} {w w' : World} {t : Ty} {k : Nat} {copies : Prop} {e : Exc} (h : InsFail E c w t k copies e c' w')
    (hc : c.map.Inv E c.kind w) {u : Ty} (hu : u ≠ t) : Spares E c u c' := by
  cases h with
  | reg h => exact h.spares hc u
  | @seg c1 w1 n s w' ens ins hk => exact (ens.spares hc u).trans (put_spares ens.inv (ens.mem E) ins.step.ty (ens.ty ▸ hu))

theorem ArgFail.spares {c c' : Coll V} {w w' : World} {a : Arg V} {k : Nat} {e : Exc} (h : ArgFail E c w a k e c' w')
    (hc : c.map.Inv E c.kind w) {u : Ty} (hu : u ≠ E.tiTy a.dyn) : Spares E c u c' := by
  rcases h with h | ⟨-, -, h, -⟩
  · exact h.spares hc hu
  · exact SameNodes.spares h u

theorem TermFail.spares {c c' : Coll V} {w w' : World} {t : Ty} {fwd copies : Prop} {m : Nat} {e : Exc} (h : TermFail E c w t fwd copies m e c' w')
    (hc : c.map.Inv E c.kind w) {u : Ty} (hu : u ≠ t) : Spares E c u c' := by
  cases h with
  | reg h => exact h.spares hc u
  | @seg c1 w1 n s w' ens ins => exact (ens.spares hc u).trans (put_spares ens.inv (ens.mem E) ins.step.ty (ens.ty ▸ hu))

theorem Adds.spares {c c' : Coll V} {w w' : World} {p p' : Spec.State.Pos} {l : List (Ty × V)} (h : Adds E c w p l c' w' p') (hc : c.Inv E w)
    {u : Ty} (hu : u ∉ l.map Prod.fst) : Spares E c u c' := by
  induction h with
  | nil => exact .refl _ _
  | cons h rest ih =>
    simp only [List.map_cons, List.mem_cons, not_or] at hu
    exact (h.spares hc.map hu.1).trans (ih (h.inv E hc) hu.2)

theorem take_fst {l : List (Ty × V)} {j : Nat} {u : Ty} (h : u ∉ l.map Prod.fst) : u ∉ (l.take j).map Prod.fst := by
  intro hm
  rw [List.map_take] at hm
  exact h (List.mem_of_mem_take hm)

theorem FromFail.spares {c c' : Coll V} {w w' : World} {p : Spec.State.Pos} {l : List (Ty × V)} {e : Exc} (h : FromFail E c w p l e c' w') (hc : c.Inv E w)
    {u : Ty} (hu : u ∉ l.map Prod.fst) : Spares E c u c' := by
  obtain ⟨j, c1, w1, p1, t, v, h1, h2, h3⟩ := h
  refine (h2.spares hc (take_fst hu)).trans (h3.spares (h2.inv E hc).map fun he => hu ?_)
  exact he ▸ List.mem_map_of_mem (f := Prod.fst) (List.mem_of_getElem? h1)

theorem typed_fst {as : List (Arg V)} {vs : List V} {u : Ty} (h : ∀ a ∈ as, u ≠ E.tiTy a.dyn) : u ∉ (typed E as vs).map Prod.fst := by
  simp only [typed, List.map_map, List.mem_map, not_exists, not_and, Function.comp]
  intro p hp he
  exact h p.1 (List.of_mem_zip hp).1 he.symm

theorem SeqFail.spares {c c' : Coll V} {w w' : World} {p : Spec.State.Pos} {as : List (Arg V)} {vs : List V} {e : Exc} (h : SeqFail E c w p as vs e c' w') (hc : c.Inv E w)
    {u : Ty} (hu : ∀ a ∈ as, u ≠ E.tiTy a.dyn) : Spares E c u c' := by
  obtain ⟨j, c1, w1, p1, a, h1, h2, h3⟩ := h
  exact (h2.spares hc (take_fst (typed_fst hu))).trans (h3.spares (h2.inv E hc).map (hu a (List.mem_of_getElem? h1)))

theorem RangeFail.spares {c c' : Coll V} {w w' : World} {t : Ty} {k : Nat} {vs : List V} {copies : Prop} {e : Exc}
    (h : RangeFail E c w t k vs copies e c' w') (hc : c.Inv E w) {u : Ty} (hu : u ≠ t) : Spares E c u c' := by
  obtain ⟨j, c1, w1, h1, h2, h3⟩ := h
  exact (h2.spares hc.map hu).trans (h3.spares (h2.inv E hc).map hu)

theorem Removed.spares {c c' : Coll V} {w w' : World} {s : Spec.State V} (h : Removed E c w s c' w') (hc : c.map.Inv E c.kind w) {u : Ty}
    (hu : s.elemsOf u = c.abs.elemsOf u) : Spares E c u c' := by
  have key : ∀ n ∈ c.map.nodes, ∃ n' ∈ c'.map.nodes, n'.id = n.id ∧ Trim n.seg n'.seg := fun n hn => by
    obtain ⟨n', h1, h2, -, h3⟩ := h.upd.nodes.mem' hn
    exact ⟨n', h1, h2, h3⟩
  refine ⟨?_, ?_, fun _ => by rw [h.upd.map]⟩
  · intro t ht
    obtain ⟨n, hn, rfl⟩ := types_mem ht
    obtain ⟨n', h1, -, h3⟩ := key n hn
    exact h3.1 ▸ mem_types h1
  · intro n hn hnu
    obtain ⟨n', h1, h2, h3⟩ := key n hn
    refine ⟨n', h1, h2, h3.1, ?_, h3.2.2.2, h3.2.2.1, fun _ => (h.inv.mem.segs n' h1).core.whole E⟩
    rw [(Ens.refl E h.inv.map h1).elems E h.inv.map, (Ens.refl E hc hn).elems E hc, h3.1, h.abs, hnu, hu]

theorem RangeErFail.spares {c c' : Coll V} {w w' : World} {t : Ty} {e : Exc} (h : RangeErFail E c w t e c' w') (hc : c.map.Inv E c.kind w) {u : Ty}
    (hu : u ≠ t) : Spares E c u c' := by
  obtain ⟨n, hn, rfl, s, rfl, h1, -⟩ := h
  exact put_spares hc hn h1.step.ty hu

theorem EraseFail.spares {c c' : Coll V} {w w' : World} {keep : Ty → Prop} {e : Exc} (h : EraseFail E c w keep e c' w') (hc : c.map.Inv E c.kind w)
    {u : Ty} (hu : keep u) : Spares E c u c' := by
  cases h with
  | mk h f hk => exact (h.spares hc (hk u hu).1).trans (f.spares h.inv.map (hk u hu).2)

theorem registerTypes_spares (ts : List TI) (u : Ty) : ∀ (c : Coll V) (w : World), c.Inv E w →
    Runs (registerTypes E ts) c w (fun _ c' _ => Spares E c u c') (fun _ c' _ => Spares E c u c') := by
  induction ts with
  | nil => intro c w hc; exact .refl _ _
  | cons t ts ih =>
    intro c w hc
    unfold registerTypes
    rw [runs_bind]
    refine (insertNew_runs E t c w hc.map).mono ?_ (fun _ _ _ h => h.spares hc.map u)
    rintro _ c1 w1 ⟨n, h1, -⟩
    have := h1.spares hc.map u
    exact (ih c1 w1 (h1.good E (stable_inv E) hc)).mono (fun _ _ _ h => this.trans h) (fun _ _ _ h => this.trans h)

end Coll

namespace COp

/-- The segments an operation adds elements to or removes elements from, or whose capacity it
changes: those of the types of its arguments, or those its iterators point into. -/
def Touches (E : Env V) (c : Coll V) : COp V → Ty → Prop
  | registerTypes _, _ | lookup _, _ => False
  | reserveAll _, _ | shrinkAll, _ | clearAll, _ => True
  | reserveInfo t _, u | reserveT t _, u | shrinkInfo t, u | clearInfo t, u | emplace t _, u | emplaceHint _ t _, u | emplacePosBase _ t _, u
  | emplacePosLocal _ t _, u | insertRangeTerminal _ t _, u | insertHintRangeTerminal _ _ t _, u | insertPosRangeLocal _ t _, u => u = E.tiTy t
  | insert a, u | insertHint _ a, u | insertPosBase _ a, u | insertPosLocal _ a, u => u = E.tiTy a.dyn
  | insertRange as, u | insertHintRange _ as, u => ∃ a ∈ as, u = E.tiTy a.dyn
  | insertPosRangeBase pos _, u | eraseLocalBase pos, u | eraseLocalRangeBase pos _, u => ∃ n, c.LAtB E pos u n
  | eraseLocal pos, u | eraseLocalRange pos _, u => ∃ n, c.LAtL E pos u n
  | erase pos, u => ∃ n, c.At E pos (some (u, n))
  | apply o p _, u => ∃ n, c.Points o p u n
  | rebind _ _, _ => False
  | eraseRange f l, u => ∃ p q, c.At E f p ∧ c.At E l q ∧ (c.abs.removeRange (c.abs.rank p) (c.abs.rank q)).elemsOf u ≠ c.abs.elemsOf u

end COp

namespace Coll

theorem elemsOf_update_ne {s : Spec.State V} {t u : Ty} (f : List V → List V) (hu : u ≠ t) : (s.update t f).elemsOf u = s.elemsOf u := by
  by_cases ht : t ∈ s.types
  · rw [Spec.State.update_elemsOf ht, if_neg hu]
  · unfold Spec.State.elemsOf
    rw [Spec.State.update_get, if_neg hu]

theorem eraseOne_spares {c c' : Coll V} {w w' : World} (hc : c.map.Inv E c.kind w) {t u : Ty} {k : Nat} {e : Exc} (hu : u ≠ t)
    (h : ∃ n ∈ c.map.nodes, n.seg.ty = t ∧ k + 1 < n.seg.size ∧
        ∃ s, c' = c.put n s ∧ Seg.RemFail E n.seg w e s w' ∧ (n.seg.kind = .packed → s.Core E w')) : Spares E c u c' := by
  obtain ⟨n, hn, rfl, -, s, rfl, h1, -⟩ := h
  exact put_spares hc hn h1.step.ty hu

/-- Every documented use of an operation leaves the segments alone that are not concerned. -/
theorem op_spares (op : COp V) (c : Coll V) (w : World) (hc : c.Inv E w) (hp : op.Pre E c) (u : Ty) (hu : ¬ op.Touches E c u) :
    Runs (op.run E) c w (fun _ c' _ => Spares E c u c') (fun _ c' _ => Spares E c u c') := by
  have hm := hc.map
  cases op with
  | registerTypes ts => exact registerTypes_spares ts u c w hc
  | lookup t =>
    simp only [COp.run, runs_drop]
    refine (forInfo_runs E t c w hm).mono ?_ ?_
    · rintro _ c' w' ⟨rfl, rfl, -⟩; exact .refl _ _
    · rintro _ c' w' ⟨rfl, rfl, -⟩; exact .refl _ _
  | reserveAll n => exact absurd trivial hu
  | shrinkAll => exact absurd trivial hu
  | clearAll => exact absurd trivial hu
  | reserveInfo t n =>
    refine (reserveInfo_runs E t n c w hc).mono ?_ ?_
    · rintro _ c' w' ⟨-, -, -, -, m, hm', h1, s, rfl, h2⟩; exact put_spares hm hm' h2.ty (h1 ▸ hu)
    · rintro _ c' w' (⟨rfl, rfl, -⟩ | ⟨-, -, -, -, m, hm', h1, s, rfl, h2⟩)
      · exact .refl _ _
      · exact put_spares hm hm' h2.ty (h1 ▸ hu)
  | reserveT t n =>
    refine (reserveT_runs E t n c w hc).mono ?_ ?_
    · rintro _ c' w' ⟨m, d, w1, s, h1, rfl, -, -, -, h2⟩
      exact (h1.spares hm u).trans (put_spares h1.inv (h1.mem E) h2.ty (h1.ty ▸ hu))
    · rintro _ c' w' (h | ⟨m, d, w1, s, h1, rfl, -, -, -, h2, -⟩)
      · exact h.spares hm u
      · exact (h1.spares hm u).trans (put_spares h1.inv (h1.mem E) h2.ty (h1.ty ▸ hu))
  | shrinkInfo t =>
    refine (shrinkInfo_runs E t c w hc).mono ?_ ?_
    · rintro _ c' w' ⟨-, -, -, -, m, hm', h1, s, rfl, h2⟩; exact put_spares hm hm' h2.ty (h1 ▸ hu)
    · rintro _ c' w' (⟨rfl, rfl, -⟩ | ⟨-, -, -, -, m, hm', h1, s, rfl, h2⟩)
      · exact .refl _ _
      · exact put_spares hm hm' h2.ty (h1 ▸ hu)
  | apply o p a =>
    obtain ⟨t, k, hpt⟩ := hp
    have hne : u ≠ t := by rintro rfl; exact hu ⟨k, hpt⟩
    simp only [COp.run, runs_drop]
    have ed : ∀ {f : V → V} {c' : Coll V} {w' : World}, Edited c w t k f c' w' → Spares E c u c' := by
      rintro f c' w' ⟨n, hn, h1, -, rfl, -⟩
      exact put_spares hm hn (Seg.edit_ty _ _ _) (h1 ▸ hne)
    exact (apply_runs o p a c w (hc.core E) hpt).mono (fun _ _ _ h => ed h.2) (fun _ _ _ h => ed h.2.2)
  | rebind p q =>
    obtain ⟨rfl, hk, t, k, hp⟩ := hp
    refine (rebind_self_runs _ c w hc hk hp).mono ?_ (fun _ _ _ h => h.elim)
    rintro _ c' w' ⟨rfl, rfl⟩
    exact .refl _ _
  | clearInfo t =>
    refine (clearInfo_runs E t c w hc).mono ?_ ?_
    · rintro _ c' w' ⟨h, -⟩; exact h.spares hm (elemsOf_update_ne _ hu)
    · rintro _ c' w' ⟨rfl, -⟩; exact .refl _ _
  | emplace t src =>
    obtain ⟨v, hv⟩ := hp
    simp only [COp.run, runs_drop]
    exact (emplace_runs E t src v c w hc hv).mono (fun _ _ _ h => h.1.spares hm hu) (fun _ _ _ h => h.spares hm hu)
  | emplaceHint hint t src =>
    obtain ⟨⟨v, hv⟩, ⟨p, hh⟩, hok⟩ := hp
    simp only [COp.run, runs_drop]
    exact (emplaceHint_runs E hint p t src v c w hc hv hh (hok.head E)).mono (fun _ _ _ h => h.1.spares hm hu) (fun _ _ _ h => h.spares hm hu)
  | emplacePosBase pos t src =>
    obtain ⟨⟨v, hv⟩, k, hl⟩ := hp
    simp only [COp.run, runs_drop]
    exact (emplacePosBase_runs E pos t k src v c w hc hl hv).mono (fun _ _ _ h => h.1.spares hm hu) (fun _ _ _ h => h.spares hm hu)
  | emplacePosLocal pos t src =>
    obtain ⟨⟨v, hv⟩, k, hl⟩ := hp
    simp only [COp.run, runs_drop]
    exact (emplacePosLocal_runs E pos t k src v c w hc hl hv).mono (fun _ _ _ h => h.1.spares hm hu) (fun _ _ _ h => h.spares hm hu)
  | insert a =>
    obtain ⟨ha, v, hv⟩ := hp
    simp only [COp.run, runs_drop]
    exact (insert_runs E a v ha c w hc hv).mono (fun _ _ _ h => h.1.spares hm hu) (fun _ _ _ h => h.spares hm hu)
  | insertHint hint a =>
    obtain ⟨ha, ⟨v, hv⟩, ⟨p, hh⟩, hok⟩ := hp
    simp only [COp.run, runs_drop]
    exact (insertHint_runs E hint p a v ha c w hc hv hh (hok.head E)).mono (fun _ _ _ h => h.1.spares hm hu) (fun _ _ _ h => h.spares hm hu)
  | insertPosBase pos a =>
    obtain ⟨-, ⟨v, hv⟩, k, hl⟩ := hp
    simp only [COp.run, runs_drop]
    exact (insertPosBase_runs E pos a k v c w hc hl hv).mono (fun _ _ _ h => h.1.spares hm hu) (fun _ _ _ h => h.spares hm hu)
  | insertPosLocal pos a =>
    obtain ⟨-, ⟨v, hv⟩, k, hl⟩ := hp
    simp only [COp.run, runs_drop]
    exact (insertPosLocal_runs E pos a k v c w hc hl hv).mono (fun _ _ _ h => h.1.spares hm hu) (fun _ _ _ h => h.spares hm hu)
  | insertRange as =>
    have hu : ∀ a ∈ as, u ≠ E.tiTy a.dyn := fun a ha he => hu ⟨a, ha, he⟩
    obtain ⟨vs, hv⟩ := mapVals (f := fun a : Arg V => a.src.val Vec.nil) (fun a ha => ext_val (hp a ha).2)
    exact (insertRange_runs E as vs c w hc hp hv).mono (fun _ _ _ ⟨_, h⟩ => h.spares hc (typed_fst hu)) (fun _ _ _ h => h.spares hc hu)
  | insertRangeTerminal f t srcs =>
    obtain ⟨vs, hv⟩ := mapVals (f := Src.val Vec.nil) (fun a ha => ext_val (hp a ha))
    refine (insertRangeTerminal_runs E f t srcs vs c w hc hp hv).mono ?_ (fun _ _ _ h => h.spares hm hu)
    rintro _ c' w' (⟨-, rfl, rfl⟩ | ⟨-, h⟩)
    · exact .refl _ _
    · exact h.spares hm hu
  | insertHintRange hint as =>
    have hu : ∀ a ∈ as, u ≠ E.tiTy a.dyn := fun a ha he => hu ⟨a, ha, he⟩
    obtain ⟨⟨p, hh⟩, hok, ha⟩ := hp
    obtain ⟨vs, hv⟩ := mapVals (f := fun a : Arg V => a.src.val Vec.nil) (fun a h => ext_val (ha a h).2)
    simp only [COp.run, runs_drop]
    exact (insertHintRange_runs E as hint p vs c w hc hh hok ha hv).mono (fun _ _ _ ⟨_, h, _⟩ => h.spares hc (typed_fst hu)) (fun _ _ _ h => h.spares hc hu)
  | insertHintRangeTerminal hint f t srcs =>
    obtain ⟨⟨p, hh⟩, hok, ha⟩ := hp
    obtain ⟨vs, hv⟩ := mapVals (f := Src.val Vec.nil) (fun a h => ext_val (ha a h))
    refine (insertHintRangeTerminal_runs E hint p f t srcs vs c w hc hh hok ha hv).mono ?_ (fun _ _ _ h => h.spares hm hu)
    rintro _ c' w' (⟨-, rfl, rfl⟩ | ⟨-, h⟩)
    · exact .refl _ _
    · exact h.spares hm hu
  | insertPosRangeBase pos as =>
    obtain ⟨t, k, hl, ha⟩ := hp
    have hu : u ≠ t := fun he => hu ⟨k, he ▸ hl⟩
    obtain ⟨vs, hv⟩ := mapVals (f := fun a : Arg V => a.src.val Vec.nil) (fun a h => ext_val (ha a h).2.2)
    simp only [COp.run, runs_drop]
    exact (insertPosRangeBase_runs E pos t k as vs True c w hc hl (fun a h => ⟨(ha a h).2.1, (ha a h).2.2, fun _ => trivial⟩) hv).mono
      (fun _ _ _ h => h.1.spares hm hu) (fun _ _ _ h => h.spares hc hu)
  | insertPosRangeLocal pos t srcs =>
    obtain ⟨k, hl, ha⟩ := hp
    obtain ⟨vs, hv⟩ := mapVals (f := Src.val Vec.nil) (fun a h => ext_val (ha a h))
    simp only [COp.run, runs_drop]
    exact (insertPosRangeLocal_runs E pos t k srcs vs True c w hc hl (fun a h => ⟨ha a h, fun _ => trivial⟩) hv).mono
      (fun _ _ _ h => h.1.spares hm hu) (fun _ _ _ h => h.spares hc hu)
  | erase pos =>
    obtain ⟨t, k, hl⟩ := hp
    have hu : u ≠ t := fun he => hu ⟨k, he ▸ hl⟩
    simp only [COp.run, runs_drop]
    exact (erase_runs E pos t k c w hc hl).mono (fun _ _ _ h => h.1.spares hm (elemsOf_update_ne _ hu)) (fun _ _ _ h => eraseOne_spares hm hu h)
  | eraseLocalBase pos =>
    obtain ⟨t, k, hl, hk⟩ := hp
    have hu : u ≠ t := fun he => hu ⟨k, he ▸ hl⟩
    simp only [COp.run, runs_drop]
    exact (eraseLocalBase_runs E pos t k c w hc hl hk).mono (fun _ _ _ h => h.1.spares hm (elemsOf_update_ne _ hu)) (fun _ _ _ h => eraseOne_spares hm hu h)
  | eraseLocal pos =>
    obtain ⟨t, k, hl, hk⟩ := hp
    have hu : u ≠ t := fun he => hu ⟨k, he ▸ hl⟩
    simp only [COp.run, runs_drop]
    exact (eraseLocal_runs E pos t k c w hc hl hk).mono (fun _ _ _ h => h.1.spares hm (elemsOf_update_ne _ hu)) (fun _ _ _ h => eraseOne_spares hm hu h)
  | eraseRange f l =>
    obtain ⟨p, q, hf, hl, hpq⟩ := hp
    have hu : (c.abs.removeRange (c.abs.rank p) (c.abs.rank q)).elemsOf u = c.abs.elemsOf u :=
      Classical.byContradiction fun he => hu ⟨p, q, hf, hl, he⟩
    simp only [COp.run, runs_drop]
    exact (eraseRange_runs E f l p q c w hc hf hl hpq).mono (fun _ _ _ h => h.1.spares hm hu) (fun _ _ _ h => h.spares hm hu)
  | eraseLocalRangeBase f l =>
    obtain ⟨t, a, b, hf, hl, hab⟩ := hp
    have hu : u ≠ t := fun he => hu ⟨a, he ▸ hf⟩
    simp only [COp.run, runs_drop]
    exact (eraseLocalRangeBase_runs E f l t a b c w hc hf hl hab).mono (fun _ _ _ h => h.1.spares hm (elemsOf_update_ne _ hu))
      (fun _ _ _ h => h.spares hm hu)
  | eraseLocalRange f l =>
    obtain ⟨t, a, b, hf, hl, hab⟩ := hp
    have hu : u ≠ t := fun he => hu ⟨a, he ▸ hf⟩
    simp only [COp.run, runs_drop]
    exact (eraseLocalRange_runs E f l t a b c w hc hf hl hab).mono (fun _ _ _ h => h.1.spares hm (elemsOf_update_ne _ hu))
      (fun _ _ _ h => h.spares hm hu)

end Coll
end PolyColl
