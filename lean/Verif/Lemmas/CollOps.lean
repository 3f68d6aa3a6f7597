import Verif.Lemmas.Iter
/-! # Insertion of one element into a collection -/

namespace PolyColl
open Prog

namespace Coll
variable {V : Type} (E : Env V)

/-! ### Iterators across registration and segment updates -/

theorem mem_types {c : Coll V} {n : Node V} (hn : n ∈ c.map.nodes) : n.seg.ty ∈ c.abs.types := by
  simp only [Coll.abs, TMap.abs_types]; exact List.mem_map_of_mem (f := fun n : Node V => n.seg.ty) hn

theorem types_mem {c : Coll V} {t : Ty} (h : t ∈ c.abs.types) : ∃ n ∈ c.map.nodes, n.seg.ty = t := by
  simp only [Coll.abs, TMap.abs_types, List.mem_map] at h
  exact h

/-- A node of a registered type is the old one. -/
theorem Ens.old {c c' : Coll V} {w w' : World} {t : Ty} {n : Node V} (hi : c.map.Inv E c.kind w) (h : Ens E c w t n c' w')
    (ht : t ∈ c.abs.types) : TMap.SameNodes c.map c'.map ∧ n ∈ c.map.nodes := by
  cases h.added with
  | old h1 h2 => exact ⟨h1, h2⟩
  | new h1 =>
    obtain ⟨a, ha, rfl⟩ := types_mem ht
    exact absurd (hi.ty a ha).symm (h1 a ha)

theorem Ens.mem_old {c c' : Coll V} {w w' : World} {t : Ty} {n a : Node V} (h : Ens E c w t n c' w') (ha : a ∈ c.map.nodes) :
    a ∈ c'.map.nodes := by
  cases h.added with
  | old h1 => rw [h1.nodes]; exact ha
  | new _ h2 => exact h2.mem_iff.2 (by simp [ha])

theorem Ens.usable {c c' : Coll V} {w w' : World} {t : Ty} {n : Node V} (hi : c.map.Inv E c.kind w) (h : Ens E c w t n c' w')
    (hr : E.strictRehash = false ∨ t ∈ c.abs.types) {it : MapIt} (hu : c.map.usable E it = true) : c'.map.usable E it = true := by
  rcases hr with hr | hr
  · simp [TMap.usable, hr]
  · have := (h.old E hi hr).1
    simpa [TMap.usable, this.gen] using hu

/-- Iterators survive registration of a type, if no segment is created or rehashing is harmless. -/
theorem Ens.at {c c' : Coll V} {w w' : World} {t : Ty} {n : Node V} (hi : c.map.Inv E c.kind w) (h : Ens E c w t n c' w')
    (hr : E.strictRehash = false ∨ t ∈ c.abs.types) {it : GIter} {p : Spec.State.Pos} (ha : c.At E it p) : c'.At E it p := by
  refine ⟨h.usable E hi hr ha.usable, h.usable E hi hr ha.endUsable, ha.endNode, ?_⟩
  have hp := ha.pos
  cases p with
  | none => exact hp
  | some q =>
    obtain ⟨a, h1, h2⟩ := hp
    exact ⟨a, h.mem_old E h1, h2⟩

theorem Ens.elems {c c' : Coll V} {w w' : World} {t : Ty} {n : Node V} (hi : c.map.Inv E c.kind w) (h : Ens E c w t n c' w') :
    n.seg.elems = c.abs.elemsOf t := by
  unfold Spec.State.elemsOf
  cases h.added with
  | old h1 h2 => rw [← h.ty, show c.abs.get n.seg.ty = _ from TMap.abs_get E hi h2]
  | new h1 h2 h3 h4 =>
    rw [show c.abs.get t = none from TMap.abs_get_none (fun a ha => by rw [hi.ty a ha]; exact h1 a ha)]
    exact h4

theorem put_use {c : Coll V} {n a : Node V} {s : Seg V} {it : MapIt} (h : c.map.Use E it a) :
    (c.put n s).map.Use E it (if a.id = n.id then { a with seg := s } else a) := by
  refine ⟨?_, ?_, h.usable⟩
  · simp only [put, TMap.put, List.mem_map]; exact ⟨a, h.mem, rfl⟩
  · split <;> exact h.node

theorem put_use_self {c : Coll V} {n : Node V} {s : Seg V} {it : MapIt} (h : c.map.Use E it n) :
    (c.put n s).map.Use E it { n with seg := s } := by
  have := put_use E (s := s) (n := n) h
  simpa using this

/-- Iterators into other segments survive any operation on a segment; iterators into the segment
itself survive if the buffer stays and the position still exists. -/
theorem put_at {c : Coll V} {w : World} {n : Node V} {s : Seg V} (hi : c.map.Inv E c.kind w) (hn : n ∈ c.map.nodes)
    (hty : s.ty = n.seg.ty) {it : GIter} {p : Spec.State.Pos} (h : c.At E it p)
    (hk : ∀ k, p = some (n.seg.ty, k) → k < s.size ∧ s.begin = n.seg.begin) : (c.put n s).At E it p := by
  refine ⟨h.usable, h.endUsable, h.endNode, ?_⟩
  have hp := h.pos
  cases p with
  | none => exact hp
  | some q =>
    obtain ⟨t, k⟩ := q
    obtain ⟨a, h1, h2, h3, h4, h5⟩ := hp
    by_cases e : a.id = n.id
    · have := eq_of_nodup hi.ids h1 hn e
      subst this
      obtain ⟨g1, g2⟩ := hk k (by rw [h3])
      refine ⟨{ a with seg := s }, TMap.put_mem hn, h2, hty.trans h3, g1, ?_⟩
      rw [h5]; simp [Seg.base, g2]
    · exact ⟨a, TMap.put_mem_ne h1 e, h2, h3, h4, h5⟩

/-! ### Insertion -/

/-- `vs` was inserted at position `k` of the segment of type `t`, which was created if needed. -/
inductive Inserted (c : Coll V) (w : World) (t : Ty) (k : Nat) (vs : List V) : Coll V → World → Prop where
  | mk {c1 : Coll V} {w1 : World} {n : Node V} {s : Seg V} {w' : World} (ens : Ens E c w t n c1 w1)
      (ins : Seg.Ins E n.seg w1 k vs s w') (hk : k ≤ n.seg.size) : Inserted c w t k vs (c1.put n s) w'

theorem Inserted.inv {c c' : Coll V} {w w' : World} {t : Ty} {k : Nat} {vs : List V} (h : Inserted E c w t k vs c' w')
    (hc : c.Inv E w) : c'.Inv E w' := by
  obtain ⟨ens, ins, hk⟩ := h
  have := ens.good E (stable_inv E) hc
  exact this.put E (stable_inv E) ens.mem ins.step ins.next ins.inv

theorem Inserted.next {c c' : Coll V} {w w' : World} {t : Ty} {k : Nat} {vs : List V} (h : Inserted E c w t k vs c' w') :
    w.next ≤ w'.next := by
  obtain ⟨ens, ins, hk⟩ := h
  exact Nat.le_trans ens.next ins.next

theorem Inserted.kind {c c' : Coll V} {w w' : World} {t : Ty} {k : Nat} {vs : List V} (h : Inserted E c w t k vs c' w') :
    c'.kind = c.kind := by
  obtain ⟨ens, ins, hk⟩ := h
  exact ens.kind

theorem update_congr {V : Type} {s : Spec.State V} {t : Ty} {f g : List V → List V}
    (h : ∀ l, (t, l) ∈ s → f l = g l) : s.update t f = s.update t g := by
  unfold Spec.State.update
  apply List.map_congr_left
  rintro ⟨u, l⟩ hp
  split
  · rename_i e
    simp only at e
    subst e
    rw [h l hp]
  · rfl

theorem mem_abs {c : Coll V} {w : World} (hi : c.map.Inv E c.kind w) {n : Node V} (hn : n ∈ c.map.nodes) {l : List V}
    (h : (n.seg.ty, l) ∈ c.abs) : l = n.seg.elems := by
  simp only [Coll.abs, TMap.abs, List.mem_map, Prod.mk.injEq] at h
  obtain ⟨a, ha, h1, h2⟩ := h
  rw [← h2, eq_of_nodup (hi.nodup_ty E) ha hn h1]

/-- Effect of an insertion on the observable state. -/
theorem Inserted.abs {c c' : Coll V} {w w' : World} {t : Ty} {k : Nat} {vs : List V} (h : Inserted E c w t k vs c' w')
    (hc : c.map.Inv E c.kind w) : ∃ s, Spec.State.Ensure t c.abs s ∧ c'.abs = s.insertAt t k vs := by
  obtain @⟨c1, w1, n, s, w', ens, ins, hk⟩ := h
  refine ⟨c1.abs, ens.abs E hc, ?_⟩
  rw [put_abs E ens.inv ens.mem ins.step.ty, ens.ty]
  refine update_congr ?_
  intro l hl
  rw [← ens.ty] at hl
  rw [mem_abs E ens.inv ens.mem hl, ins.elems]

theorem Inserted.le {c c' : Coll V} {w w' : World} {t : Ty} {k : Nat} {vs : List V} (h : Inserted E c w t k vs c' w')
    (hc : c.map.Inv E c.kind w) : k ≤ (c.abs.elemsOf t).length := by
  obtain ⟨ens, ins, hk⟩ := h
  rw [← ens.elems E hc]; exact hk

/-- What a failed insertion of one element leaves: either the type could not be registered, or it is
registered and the insertion into its segment failed. -/
inductive InsFail (c : Coll V) (w : World) (t : Ty) (k : Nat) (copies : Prop) (e : Exc) : Coll V → World → Prop where
  | reg {c' : Coll V} {w' : World} (h : EnsFail E c w t e c' w') : InsFail c w t k copies e c' w'
  | seg {c1 : Coll V} {w1 : World} {n : Node V} {s : Seg V} {w' : World} (ens : Ens E c w t n c1 w1)
      (h : Seg.Fail E n.seg w1 copies (E.shiftThrows t ∧ k < n.seg.size) e s w') (hk : k ≤ n.seg.size) :
      InsFail c w t k copies e (c1.put n s) w'

/-- The source of a new element of type `t`: outside the collection, or an element of type `t` of the
collection (in the split layout only if no reallocation is due, see C13). -/
def SrcFor (c : Coll V) (t : Ty) (src : Src V) (v : V) : Prop :=
  (src.ext = true ∧ src.val Vec.nil = some v) ∨ ∃ n ∈ c.map.nodes, n.seg.ty = t ∧ n.seg.SrcOK src v

theorem val_ext {src : Src V} (h : src.ext = true) (s s' : Vec V) : src.val s = src.val s' := by
  cases src <;> first | rfl | simp [Src.ext] at h

theorem SrcFor.ok {c c' : Coll V} {w w' : World} {t : Ty} {n : Node V} {src : Src V} {v : V} (h : c.SrcFor t src v)
    (hi : c.map.Inv E c.kind w) (he : Ens E c w t n c' w') : n.seg.SrcOK src v := by
  rcases h with ⟨h1, h2⟩ | ⟨a, ha, ht, hs⟩
  · exact ⟨by rw [val_ext h1]; exact h2, Or.inl h1⟩
  · have := (he.old E hi (ht ▸ mem_types ha)).2
    rw [← eq_of_nodup (hi.nodup_ty E) ha this (ht.trans he.ty.symm)]
    exact hs

/-- The iterator built after an insertion. -/
theorem retIns_runs {c c1 : Coll V} {w w1 w' : World} {t : Ty} {k : Nat} {v : V} {n : Node V} {s : Seg V} {it : MapIt}
    (hc : c.Inv E w) (ens : Ens E c w t n c1 w1) (hu : c1.map.Use E it n) (ins : Seg.Ins E n.seg w1 k [v] s w')
    (hk : k ≤ n.seg.size) {R : Exc → Coll V → World → Prop} :
    Runs (retIter E it (s.base k)) (c1.put n s) w'
      (fun g c' w' => Inserted E c w t k [v] c' w' ∧ c'.At E g (some (t, k))) R := by
  have hins : Inserted E c w t k [v] (c1.put n s) w' := ⟨ens, ins, hk⟩
  have hi := hins.inv E hc
  have hu' := put_use_self E (s := s) hu
  have hsz : k < s.size := by
    rw [Seg.size_eq, ins.elems]
    have : k ≤ n.seg.elems.length := hk
    simp
    omega
  refine (retIter_runs E hi hu' (k := k) (Nat.le_of_lt hsz)).mono ?_ (fun _ _ _ h => h)
  rintro g c' w'' ⟨rfl, rfl, hat⟩
  refine ⟨hins, ?_⟩
  rw [norm_node E hi hu'.mem, if_pos hsz] at hat
  have : s.ty = t := ins.step.ty.trans ens.ty
  rw [← this]
  exact hat

/-- Append one element and build the iterator. -/
theorem append_runs {c c1 : Coll V} {w w1 : World} {t : Ty} {n : Node V} {it : MapIt} (src : Src V) (v : V)
    (hc : c.Inv E w) (hs : c.SrcFor t src v) (ens : Ens E c w t n c1 w1) (hr : c1.map.Ref it n) :
    Runs (onMap (TMap.onSeg E it (downcast t (Seg.pushBack E src)))) c1 w1
      (fun p c' w' => ∃ s, c' = c1.put n s ∧ Seg.Ins E n.seg w1 n.seg.size [v] s w' ∧ p = s.base n.seg.size ∧
        (src.copies → (E.traits t).copyable = true))
      (InsFail E c w t (c.abs.elemsOf t).length src.copies) := by
  have hg := ens.good E (stable_inv E) hc
  rw [runs_onSeg E ens.inv.ids hr, runs_downcast ens.ty]
  refine (Seg.pushBack_runs E n.seg w1 (hg.mem.segs n ens.mem).core src v (hs.ok E hc.map ens)).mono ?_ ?_
  · rintro p s w' ⟨h1, h2, h3⟩
    exact ⟨s, rfl, h1, h2, fun h => ens.ty ▸ h3 h⟩
  · rintro e s w' h
    refine .seg ens ⟨h.step, h.next, h.exc, fun a _ => h.core a id, fun a _ => h.same a id, h.ncc, h.weak⟩ ?_
    rw [← ens.elems E hc.map]; exact Nat.le_refl _

theorem emplace_runs (t : TI) (src : Src V) (v : V) (c : Coll V) (w : World) (hc : c.Inv E w)
    (hs : c.SrcFor (E.tiTy t) src v) :
    Runs (emplace E t src) c w
      (fun it c' w' => Inserted E c w (E.tiTy t) (c.abs.elemsOf (E.tiTy t)).length [v] c' w' ∧
        c'.At E it (some (E.tiTy t, (c.abs.elemsOf (E.tiTy t)).length)) ∧ (src.copies → (E.traits (E.tiTy t)).copyable = true))
      (InsFail E c w (E.tiTy t) (c.abs.elemsOf (E.tiTy t)).length src.copies) := by
  unfold emplace
  simp only [runs_bind]
  refine (forT_runs E t c w hc.map).mono ?_ (fun _ _ _ h => .reg h)
  rintro it c1 w1 ⟨n, ens, hr⟩
  refine (append_runs E src v hc hs ens hr).mono ?_ (fun _ _ _ h => h)
  rintro p c' w' ⟨s, rfl, h1, rfl, h2⟩
  have := retIns_runs E hc ens (hr.use E) h1 (Nat.le_refl _) (R := InsFail E c w (E.tiTy t) (c.abs.elemsOf (E.tiTy t)).length src.copies)
  rw [show n.seg.size = (c.abs.elemsOf (E.tiTy t)).length by rw [← ens.elems E hc.map]; rfl] at this
  rw [show n.seg.size = (c.abs.elemsOf (E.tiTy t)).length by rw [← ens.elems E hc.map]; rfl]
  exact this.mono (fun _ _ _ h => ⟨h.1, h.2, h2⟩) (fun _ _ _ h => h)

/-! ### Hints -/

theorem hint_same {c1 : Coll V} {w1 : World} {n : Node V} {it : MapIt} {hint : GIter} {p : Spec.State.Pos}
    (hi : c1.map.Inv E c1.kind w1) (hr : c1.map.Ref it n) (hh : c1.At E hint p) :
    c1.map.itEq E hint.mapit it = some (decide (hint.mapit.node = it.node)) ∧
    ((hint.mapit.node = it.node) ↔ ∃ k, p = some (n.seg.ty, k)) ∧
    (hint.mapit.node = it.node → ∃ k, p = some (n.seg.ty, k) ∧ k < n.seg.size ∧ hint.segpos = n.seg.base k) := by
  refine ⟨by simp [TMap.itEq, hh.usable, hr.usable E], ?_, ?_⟩
  · have hp := hh.pos
    cases p with
    | none =>
      simp only [hr.node, reduceCtorEq, exists_false, iff_false]
      rw [hp.1]; simp
    | some q =>
      obtain ⟨t, k⟩ := q
      obtain ⟨a, h1, h2, h3, h4, h5⟩ := hp
      rw [h2, hr.node]
      simp only [Option.some.injEq, Prod.mk.injEq, exists_and_left, exists_eq', and_true]
      constructor
      · intro e
        rw [← h3, eq_of_nodup hi.ids h1 hr.mem e]
      · intro e
        rw [eq_of_nodup (hi.nodup_ty E) h1 hr.mem (h3.trans e)]
  · intro e
    have hp := hh.pos
    cases p with
    | none => rw [hr.node, hp.1] at e; simp at e
    | some q =>
      obtain ⟨t, k⟩ := q
      obtain ⟨a, h1, h2, h3, h4, h5⟩ := hp
      rw [h2, hr.node] at e
      have := eq_of_nodup hi.ids h1 hr.mem (Option.some.inj e)
      subst this
      exact ⟨k, by rw [h3], h4, h5⟩

/-- The common part of hinted insertions: insert before the hint if it is in the segment, else
append. -/
theorem hinted_runs {c c1 : Coll V} {w w1 : World} {t : Ty} {n : Node V} {it : MapIt} (hint : GIter) (p : Spec.State.Pos)
    (src : Src V) (v : V) (hc : c.Inv E w) (hs : c.SrcFor t src v) (ens : Ens E c w t n c1 w1) (hr : c1.map.Ref it n)
    (hh : c1.At E hint p) {op : Ptr → Prog (Seg V) Ptr}
    (hop : ∀ k, k ≤ n.seg.size → Runs (op (n.seg.base k)) n.seg w1
      (fun r x' w' => Seg.Ins E n.seg w1 k [v] x' w' ∧ r = x'.base k ∧ (src.copies → (E.traits n.seg.ty).copyable = true))
      (Seg.Fail E n.seg w1 src.copies (E.shiftThrows n.seg.ty ∧ k < n.seg.size))) :
    Runs (do
        let same ← Prog.ofOption (c1.map.itEq E hint.mapit it)
        let p ← if same then onMap (TMap.onSeg E it (downcast t (op hint.segpos)))
          else onMap (TMap.onSeg E it (downcast t (Seg.pushBack E src)))
        retIter E it p) c1 w1
      (fun g c' w' => Inserted E c w t (c.abs.hintPos t p) [v] c' w' ∧ c'.At E g (some (t, c.abs.hintPos t p)) ∧
        (src.copies → (E.traits t).copyable = true))
      (InsFail E c w t (c.abs.hintPos t p) src.copies) := by
  have hg := ens.good E (stable_inv E) hc
  obtain ⟨h1, h2, h3⟩ := hint_same E ens.inv hr hh
  have hlen : n.seg.size = (c.abs.elemsOf t).length := by rw [← ens.elems E hc.map]; rfl
  simp only [runs_bind, h1, runs_some, decide_eq_true_eq]
  rw [runs_ite]
  refine ⟨fun hd => ?_, fun hd => ?_⟩
  · obtain ⟨k, rfl, hk, hp⟩ := h3 hd
    have hpos : c.abs.hintPos t (some (n.seg.ty, k)) = k := by simp [Spec.State.hintPos, ens.ty]
    rw [hpos, runs_bind, runs_onSeg E ens.inv.ids hr, runs_downcast ens.ty, hp]
    refine (hop k (Nat.le_of_lt hk)).mono ?_ ?_
    · rintro r s w' ⟨a1, rfl, a3⟩
      exact (retIns_runs E hc ens (hr.use E) a1 (Nat.le_of_lt hk)).mono (fun _ _ _ h => ⟨h.1, h.2, ens.ty ▸ a3⟩) (fun _ _ _ h => h)
    · rintro e s w' h
      exact .seg ens (by rw [← ens.ty]; exact h) (Nat.le_of_lt hk)
  · have hpos : c.abs.hintPos t p = (c.abs.elemsOf t).length := by
      unfold Spec.State.hintPos
      cases p with
      | none => rfl
      | some q =>
        simp only
        split
        · rename_i e
          exact absurd (h2.2 ⟨q.2, by rw [ens.ty, ← e]⟩) hd
        · rfl
    rw [hpos, runs_bind]
    refine (append_runs E src v hc hs ens hr).mono ?_ (fun _ _ _ h => h)
    rintro r c' w' ⟨s, rfl, a1, rfl, a3⟩
    rw [hlen] at a1 ⊢
    exact (retIns_runs E hc ens (hr.use E) a1 (Nat.le_of_eq hlen.symm)).mono (fun _ _ _ h => ⟨h.1, h.2, a3⟩) (fun _ _ _ h => h)

theorem emplaceHint_runs (hint : GIter) (p : Spec.State.Pos) (t : TI) (src : Src V) (v : V) (c : Coll V) (w : World) (hc : c.Inv E w)
    (hs : c.SrcFor (E.tiTy t) src v) (hh : c.At E hint p) (hr : E.strictRehash = false ∨ E.tiTy t ∈ c.abs.types) :
    Runs (emplaceHint E hint t src) c w
      (fun it c' w' => Inserted E c w (E.tiTy t) (c.abs.hintPos (E.tiTy t) p) [v] c' w' ∧
        c'.At E it (some (E.tiTy t, c.abs.hintPos (E.tiTy t) p)) ∧ (src.copies → (E.traits (E.tiTy t)).copyable = true))
      (InsFail E c w (E.tiTy t) (c.abs.hintPos (E.tiTy t) p) src.copies) := by
  unfold emplaceHint
  rw [runs_bind]
  refine (forT_runs E t c w hc.map).mono ?_ (fun _ _ _ h => .reg h)
  rintro it c1 w1 ⟨n, ens, href⟩
  rw [runs_bind, runs_get]
  have hg := ens.good E (stable_inv E) hc
  exact hinted_runs E hint p src v hc hs ens href (ens.at E hc.map hr hh)
    (op := fun p => Seg.emplace E (.base p) src)
    (fun k hk => Seg.emplace_runs E n.seg w1 (hg.mem.segs n ens.mem).core (.base (n.seg.base k)) k ⟨hk, rfl⟩ src v (hs.ok E hc.map ens))

/-! ### insert -/

/-- What a failed `insert(x)` leaves. -/
def ArgFail (c : Coll V) (w : World) (a : Arg V) (k : Nat) (e : Exc) (c' : Coll V) (w' : World) : Prop :=
  InsFail E c w (E.tiTy a.dyn) k a.src.copies e c' w' ∨
    (e = .unregistered (E.tiTy a.dyn) ∧ c'.map.Inv E c'.kind w' ∧ TMap.SameNodes c.map c'.map ∧ c'.kind = c.kind ∧ w.next ≤ w'.next ∧
      (∀ n ∈ c.map.nodes, n.seg.ty ≠ E.tiTy a.dyn) ∧ ¬ (a.acc = true ∧ E.tiTy a.dyn = E.tiTy a.stat))

theorem insert_runs (a : Arg V) (v : V) (ha : Arg.OK E a) (c : Coll V) (w : World) (hc : c.Inv E w)
    (hs : c.SrcFor (E.tiTy a.dyn) a.src v) :
    Runs (insert E a) c w
      (fun it c' w' => Inserted E c w (E.tiTy a.dyn) (c.abs.elemsOf (E.tiTy a.dyn)).length [v] c' w' ∧
        c'.At E it (some (E.tiTy a.dyn, (c.abs.elemsOf (E.tiTy a.dyn)).length)) ∧
        (E.tiTy a.dyn ∈ c.abs.types ∨ a.acc = true ∧ E.tiTy a.dyn = E.tiTy a.stat) ∧
        (a.src.copies → (E.traits (E.tiTy a.dyn)).copyable = true))
      (ArgFail E c w a (c.abs.elemsOf (E.tiTy a.dyn)).length) := by
  unfold insert pushBackArg
  simp only [runs_bind]
  refine (forArg_runs E a ha c w hc.map).mono ?_ (fun _ _ _ h => h.imp .reg id)
  rintro it c1 w1 ⟨n, ens, hr, hreg⟩
  have hreg' : E.tiTy a.dyn ∈ c.abs.types ∨ a.acc = true ∧ E.tiTy a.dyn = E.tiTy a.stat :=
    hreg.imp (fun h => ens.ty ▸ mem_types h) id
  refine (append_runs E a.src v hc hs ens hr).mono ?_ (fun _ _ _ h => Or.inl h)
  rintro p c' w' ⟨s, rfl, h1, rfl, h2⟩
  have hl : n.seg.size = (c.abs.elemsOf (E.tiTy a.dyn)).length := by rw [← ens.elems E hc.map]; rfl
  have hle := Nat.le_of_eq hl.symm
  rw [hl] at h1 ⊢
  refine (retIns_runs E hc ens (hr.use E) h1 hle (R := fun _ _ _ => False)).mono ?_ (fun _ _ _ h => h.elim)
  rintro g c' w' ⟨b1, b2⟩
  exact ⟨b1, b2, hreg', h2⟩

theorem insertHint_runs (hint : GIter) (p : Spec.State.Pos) (a : Arg V) (v : V) (ha : Arg.OK E a) (c : Coll V) (w : World) (hc : c.Inv E w)
    (hs : c.SrcFor (E.tiTy a.dyn) a.src v) (hh : c.At E hint p) (hr : E.strictRehash = false ∨ E.tiTy a.dyn ∈ c.abs.types) :
    Runs (insertHint E hint a) c w
      (fun it c' w' => Inserted E c w (E.tiTy a.dyn) (c.abs.hintPos (E.tiTy a.dyn) p) [v] c' w' ∧
        c'.At E it (some (E.tiTy a.dyn, c.abs.hintPos (E.tiTy a.dyn) p)) ∧
        (E.tiTy a.dyn ∈ c.abs.types ∨ a.acc = true ∧ E.tiTy a.dyn = E.tiTy a.stat) ∧
        (a.src.copies → (E.traits (E.tiTy a.dyn)).copyable = true))
      (ArgFail E c w a (c.abs.hintPos (E.tiTy a.dyn) p)) := by
  unfold insertHint pushBackArg
  rw [runs_bind]
  refine (forArg_runs E a ha c w hc.map).mono ?_ (fun _ _ _ h => h.imp .reg id)
  rintro it c1 w1 ⟨n, ens, href, hreg⟩
  have hreg' : E.tiTy a.dyn ∈ c.abs.types ∨ a.acc = true ∧ E.tiTy a.dyn = E.tiTy a.stat :=
    hreg.imp (fun h => ens.ty ▸ mem_types h) id
  rw [runs_bind, runs_get]
  have hg := ens.good E (stable_inv E) hc
  refine (hinted_runs E hint p a.src v hc hs ens href (ens.at E hc.map hr hh) (op := fun p => Seg.insertBase E p a.src)
    (fun k hk => Seg.insertBase_runs E n.seg w1 (hg.mem.segs n ens.mem).core k hk a.src v (hs.ok E hc.map ens))).mono ?_ ?_
  · rintro g c' w' ⟨b1, b2, b3⟩
    exact ⟨b1, b2, hreg', b3⟩
  · intro e c' w' h
    exact Or.inl h

end Coll
end PolyColl
