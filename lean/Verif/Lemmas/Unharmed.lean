import Verif.Lemmas.CollFail
/-!
# Failed insertions that do no harm

A common view of the operations that insert one element (`COp.Inserts`), and what is left after
they throw.
-/

namespace PolyColl
open Prog

namespace COp
variable {V : Type} (E : Env V)

/-- Operation `op`, its iterators being valid for `c`, is to insert one element of type `t` at
position `n` of its segment, its value given by `src`. -/
def Inserts (c : Coll V) (op : COp V) (t : Ty) (n : Nat) (src : Src V) : Prop :=
  match op with
  | .emplace u s => t = E.tiTy u ∧ n = (c.abs.elemsOf t).length ∧ src = s
  | .emplaceHint h u s => t = E.tiTy u ∧ src = s ∧ (∃ p, c.At E h p ∧ n = c.abs.hintPos t p) ∧ (E.strictRehash = false ∨ t ∈ c.abs.types)
  | .emplacePosBase pos u s => t = E.tiTy u ∧ src = s ∧ c.LAtB E pos t n
  | .emplacePosLocal pos u s => t = E.tiTy u ∧ src = s ∧ c.LAtL E pos t n
  | .insert a => Coll.Arg.OK E a ∧ t = E.tiTy a.dyn ∧ n = (c.abs.elemsOf t).length ∧ src = a.src
  | .insertHint h a => Coll.Arg.OK E a ∧ t = E.tiTy a.dyn ∧ src = a.src ∧ (∃ p, c.At E h p ∧ n = c.abs.hintPos t p) ∧
      (E.strictRehash = false ∨ t ∈ c.abs.types)
  | .insertPosBase pos a => Coll.Arg.OK E a ∧ t = E.tiTy a.dyn ∧ src = a.src ∧ c.LAtB E pos t n
  | .insertPosLocal pos a => Coll.Arg.OK E a ∧ t = E.tiTy a.dyn ∧ src = a.src ∧ c.LAtL E pos t n
  | _ => False

/-- The static and the dynamic type are such that the segment is there or can be created. -/
def Storable (c : Coll V) : COp V → Prop
  | .insert a | .insertHint _ a => E.tiTy a.dyn ∈ c.abs.types ∨ a.acc = true ∧ E.tiTy a.dyn = E.tiTy a.stat
  | _ => True

end COp

namespace Coll
variable {V : Type} {E : Env V}

theorem inserts_pre {c : Coll V} {op : COp V} {t : Ty} {n : Nat} {src : Src V} {v : V} (h : op.Inserts E c t n src) (hs : c.SrcFor t src v) :
    op.Pre E c := by
  cases op <;> simp only [COp.Inserts] at h
  · obtain ⟨rfl, -, rfl⟩ := h; exact ⟨v, hs⟩
  · obtain ⟨rfl, rfl, ⟨p, hp, -⟩, hr⟩ := h; exact ⟨⟨v, hs⟩, ⟨p, hp⟩, hr.imp id (by simpa using ·)⟩
  · obtain ⟨rfl, rfl, hp⟩ := h; exact ⟨⟨v, hs⟩, n, hp⟩
  · obtain ⟨rfl, rfl, hp⟩ := h; exact ⟨⟨v, hs⟩, n, hp⟩
  · obtain ⟨ha, rfl, -, rfl⟩ := h; exact ⟨ha, v, hs⟩
  · obtain ⟨ha, rfl, rfl, ⟨p, hp, -⟩, hr⟩ := h; exact ⟨ha, ⟨v, hs⟩, ⟨p, hp⟩, hr.imp id (by simpa using ·)⟩
  · obtain ⟨ha, rfl, rfl, hp⟩ := h; exact ⟨ha, ⟨v, hs⟩, n, hp⟩
  · obtain ⟨ha, rfl, rfl, hp⟩ := h; exact ⟨ha, ⟨v, hs⟩, n, hp⟩

theorem update_same {s : Spec.State V} {t : Ty} {l : List V} (h : ∀ l', (t, l') ∈ s → l' = l) : s.update t (fun _ => l) = s := by
  rw [update_congr (g := fun l => l) (fun l' hl => (h l' hl).symm)]
  unfold Spec.State.update
  simp

/-- What a failed insertion of one element has in common, whatever the operation. -/
def OneFail (E : Env V) (c : Coll V) (w : World) (t : Ty) (n : Nat) (copies storable : Prop) (e : Exc) (c' : Coll V) (w' : World) : Prop :=
  InsFail E c w t n copies e c' w' ∨
    (¬ storable ∧ e = .unregistered t ∧ c'.map.Inv E c'.kind w' ∧ TMap.SameNodes c.map c'.map ∧ c'.kind = c.kind ∧ w.next ≤ w'.next)

theorem ArgFail.one {c c' : Coll V} {w w' : World} {a : Arg V} {n : Nat} {e : Exc} (h : ArgFail E c w a n e c' w') :
    OneFail E c w (E.tiTy a.dyn) n a.src.copies (E.tiTy a.dyn ∈ c.abs.types ∨ a.acc = true ∧ E.tiTy a.dyn = E.tiTy a.stat) e c' w' := by
  rcases h with h | ⟨h1, h2, h3, h4, h5, h6, h7⟩
  · exact Or.inl h
  · refine Or.inr ⟨fun h => h.elim (fun h => ?_) h7, h1, h2, h3, h4, h5⟩
    obtain ⟨n, hn, e⟩ := types_mem h
    exact h6 n hn e

theorem inserts_runs {c : Coll V} {w : World} (hc : c.Inv E w) {op : COp V} {t : Ty} {n : Nat} {src : Src V} {v : V} (h : op.Inserts E c t n src)
    (hs : c.SrcFor t src v) :
    Runs (op.run E) c w
      (fun _ c' w' => Inserted E c w t n [v] c' w' ∧ (src.copies → (E.traits t).copyable = true))
      (OneFail E c w t n src.copies (op.Storable E c)) := by
  cases op <;> simp only [COp.Inserts] at h
  · obtain ⟨rfl, rfl, rfl⟩ := h
    exact runs_drop.2 ((emplace_runs E _ _ v c w hc hs).mono (fun _ _ _ h => ⟨h.1, h.2.2⟩) (fun _ _ _ h => Or.inl h))
  · obtain ⟨rfl, rfl, ⟨p, hp, rfl⟩, hr⟩ := h
    exact runs_drop.2 ((emplaceHint_runs E _ p _ _ v c w hc hs hp hr).mono (fun _ _ _ h => ⟨h.1, h.2.2⟩) (fun _ _ _ h => Or.inl h))
  · obtain ⟨rfl, rfl, hp⟩ := h
    exact runs_drop.2 ((emplacePosBase_runs E _ _ n _ v c w hc hp hs).mono (fun _ _ _ h => ⟨h.1, h.2.2⟩) (fun _ _ _ h => Or.inl h))
  · obtain ⟨rfl, rfl, hp⟩ := h
    exact runs_drop.2 ((emplacePosLocal_runs E _ _ n _ v c w hc hp hs).mono (fun _ _ _ h => ⟨h.1, h.2.2⟩) (fun _ _ _ h => Or.inl h))
  · obtain ⟨ha, rfl, rfl, rfl⟩ := h
    exact runs_drop.2 ((insert_runs E _ v ha c w hc hs).mono (fun _ _ _ h => ⟨h.1, h.2.2.2⟩) (fun _ _ _ h => h.one))
  · obtain ⟨ha, rfl, rfl, ⟨p, hp, rfl⟩, hr⟩ := h
    exact runs_drop.2 ((insertHint_runs E _ p _ v ha c w hc hs hp hr).mono (fun _ _ _ h => ⟨h.1, h.2.2.2⟩) (fun _ _ _ h => h.one))
  · obtain ⟨ha, rfl, rfl, hp⟩ := h
    exact runs_drop.2 ((insertPosBase_runs E _ _ n v c w hc hp hs).mono (fun _ _ _ h => ⟨h.1, h.2.2⟩) (fun _ _ _ h => Or.inl h))
  · obtain ⟨ha, rfl, rfl, hp⟩ := h
    exact runs_drop.2 ((insertPosLocal_runs E _ _ n v c w hc hp hs).mono (fun _ _ _ h => ⟨h.1, h.2.2⟩) (fun _ _ _ h => Or.inl h))

/-- Nothing happened to a collection, except that a segment for `t` may have been created. -/
structure Unharmed (E : Env V) (c : Coll V) (t : Ty) (c' : Coll V) : Prop where
  abs : c'.abs = c.abs ∨ Spec.State.Ensure t c.abs c'.abs
  nodes : ∀ n ∈ c.map.nodes, n ∈ c'.map.nodes
  gen : t ∈ c.abs.types → c'.map.gen = c.map.gen

theorem _root_.PolyColl.TMap.usable_of_gen {m m' : TMap V} (h : E.strictRehash = false ∨ m'.gen = m.gen) {it : MapIt} (hu : m.usable E it = true) :
    m'.usable E it = true := by
  rcases h with h | h
  · simp [TMap.usable, h]
  · unfold TMap.usable at *
    rw [h]
    exact hu

theorem _root_.PolyColl.TMap.increment_stale {m m' : TMap V} (hs : E.strictRehash = true) (hg : m'.gen ≠ m.gen) {it : GIter}
    (hu : m.usable E it.mapit = true) : m'.increment E it = none := by
  unfold TMap.usable at hu
  rw [hs] at hu
  have hst : m'.usable E it.mapit = false := by
    unfold TMap.usable
    rw [hs]
    simp at hu ⊢
    rw [hu]
    exact fun h => hg h.symm
  unfold TMap.increment TMap.node?
  simp [hst]

theorem Unharmed.same {c c' : Coll V} {t : Ty} (h : TMap.SameNodes c.map c'.map) : Unharmed E c t c' :=
  ⟨Or.inl (by show c'.map.abs = c.map.abs; unfold TMap.abs; rw [h.nodes]), by rw [h.nodes]; exact fun _ h => h,
    fun _ => h.gen⟩

theorem Ens.unharmed {c c' : Coll V} {w w' : World} {t : Ty} {n : Node V} (h : Ens E c w t n c' w') (hc : c.map.Inv E c.kind w) : Unharmed E c t c' :=
  ⟨Or.inr (h.abs E hc), fun _ ha => h.mem_old E ha, fun ht => (h.old E hc ht).1.gen⟩

theorem EnsFail.unharmed {c c' : Coll V} {w w' : World} {t : Ty} {e : Exc} (h : EnsFail E c w t e c' w') (hc : c.map.Inv E c.kind w) :
    Unharmed E c t c' := by
  rcases h.nodes with h | ⟨n, h⟩
  · exact .same h
  · exact h.unharmed hc

theorem Unharmed.at {c c' : Coll V} {t : Ty} (h : Unharmed E c t c') (hr : E.strictRehash = false ∨ c'.map.gen = c.map.gen) {it : GIter}
    {p : Spec.State.Pos} (ha : c.At E it p) : c'.At E it p := by
  refine ⟨TMap.usable_of_gen hr ha.usable, TMap.usable_of_gen hr ha.endUsable, ha.endNode, ?_⟩
  have hp := ha.pos
  cases p with
  | none => exact hp
  | some q =>
    obtain ⟨a, h1, h2⟩ := hp
    exact ⟨a, h.nodes a h1, h2⟩

theorem Unharmed.latB {c c' : Coll V} {t : Ty} (h : Unharmed E c t c') (hr : E.strictRehash = false ∨ c'.map.gen = c.map.gen) {l : LIter}
    {u : Ty} {n : Nat} (ha : c.LAtB E l u n) : c'.LAtB E l u n := by
  obtain ⟨m, hu, h2⟩ := ha
  exact ⟨m, ⟨h.nodes m hu.mem, hu.node, TMap.usable_of_gen hr hu.usable⟩, h2⟩

theorem Unharmed.latL {c c' : Coll V} {t : Ty} (h : Unharmed E c t c') (hr : E.strictRehash = false ∨ c'.map.gen = c.map.gen) {l : LIter}
    {u : Ty} {n : Nat} (ha : c.LAtL E l u n) : c'.LAtL E l u n := by
  obtain ⟨m, hu, h2⟩ := ha
  exact ⟨m, ⟨h.nodes m hu.mem, hu.node, TMap.usable_of_gen hr hu.usable⟩, h2⟩

theorem Unharmed.elemsOf {c c' : Coll V} {w : World} {t : Ty} (h : Unharmed E c t c') (hc : c.map.Inv E c.kind w) (u : Ty) :
    c'.abs.elemsOf u = c.abs.elemsOf u := by
  rcases h.abs with h | h
  · rw [h]
  · exact h.elemsOf (abs_nodup E hc) u

/-- The segment the insertion is about is roomy enough for it to fail without a trace. -/
def NoTrace (c : Coll V) (t : Ty) : Prop :=
  c.kind = .packed ∨ ∃ m ∈ c.map.nodes, m.seg.ty = t ∧ m.seg.Roomy ∧ m.seg.size < m.seg.capacity

theorem ens_node {c c1 : Coll V} {w w1 : World} {t : Ty} {n : Node V} (hc : c.map.Inv E c.kind w) (ens : Ens E c w t n c1 w1) {m : Node V}
    (hm : m ∈ c.map.nodes) (ht : m.seg.ty = t) : n = m := by
  have hn := (ens.old E hc (ht ▸ mem_types hm)).2
  have := PolyColl.eq_of_nodup (f := fun a : Node V => a.seg.ty) (TMap.Inv.nodup_ty E hc) hn hm (ens.ty.trans ht.symm)
  exact this

theorem packed_roomy {s : Seg V} (h : s.kind = .packed) : s.Roomy := by
  revert h
  cases hbe : s.be <;> simp [Seg.Roomy, Backend.Roomy, Seg.kind, Backend.kind, hbe]

theorem not_basic {c c1 : Coll V} {w w1 : World} {t : Ty} {n : Node V} (hc : c.map.Inv E c.kind w) (ens : Ens E c w t n c1 w1) {k : Nat}
    (hs : ¬ E.shiftThrows t ∨ (c.abs.elemsOf t).length ≤ k) : ¬ (E.shiftThrows t ∧ k < n.seg.size) := by
  rintro ⟨h1, h2⟩
  rcases hs with hs | hs
  · exact hs h1
  · have e1 := ens.elems E hc
    have e2 : n.seg.size = n.seg.elems.length := rfl
    rw [e1] at e2
    omega

theorem InsFail.unharmed {c c' : Coll V} {w w' : World} {t : Ty} {k : Nat} {copies : Prop} {e : Exc} (h : InsFail E c w t k copies e c' w')
    (hc : c.Inv E w) (hk : c.NoTrace t) (hs : ¬ E.shiftThrows t ∨ (c.abs.elemsOf t).length ≤ k) : Unharmed E c t c' ∧ c.Kept E w c' w' := by
  cases h with
  | reg h => exact ⟨h.unharmed hc.map, h.kept E hc⟩
  | @seg c1 w1 n s w' ens h hk' =>
    have g := ens.good E (stable_inv E) hc
    have hb := not_basic hc.map ens hs
    have hr : n.seg.Roomy ∧ (n.seg.kind = .packed ∨ n.seg.size < n.seg.capacity) := by
      rcases hk with hk | ⟨m, hm, ht, h1, h2⟩
      · have : n.seg.kind = .packed := (g.map.kind n (ens.mem E)).trans (ens.kind.trans hk)
        exact ⟨packed_roomy this, Or.inl this⟩
      · rw [ens_node hc.map ens hm ht]
        exact ⟨h1, Or.inr h2⟩
    have hsame := h.same hr.1 hb hr.2
    subst hsame
    have hi : (c1.put n n.seg).Inv E w' := g.put E (stable_inv E) (ens.mem E) h.step h.next ((g.mem.segs n (ens.mem E)).weaken E h.next)
    refine ⟨?_, hi, ens.kind, Nat.le_trans ens.next h.next⟩
    rw [put_self E g (ens.mem E)]
    exact ens.unharmed hc.map

theorem OneFail.unharmed {c c' : Coll V} {w w' : World} {t : Ty} {k : Nat} {copies st : Prop} {e : Exc} (h : OneFail E c w t k copies st e c' w')
    (hc : c.Inv E w) (hk : c.NoTrace t) (hs : ¬ E.shiftThrows t ∨ (c.abs.elemsOf t).length ≤ k) : Unharmed E c t c' ∧ c.Kept E w c' w' := by
  rcases h with h | ⟨-, -, h1, h2, h3, h4⟩
  · exact h.unharmed hc hk hs
  · exact ⟨.same h2, ⟨h1, (hc.mem.congr h2).mono (fun _ _ h' => h'.weaken E h4) h4, Nat.lt_of_lt_of_le hc.pos h4⟩, h3, h4⟩

/-- A failed insertion into a segment that is not fresh leaves all elements in place, although
iterators and the end of the segment may be out of date. -/
theorem InsFail.core {c c' : Coll V} {w w' : World} {t : Ty} {k : Nat} {copies : Prop} {e : Exc} (h : InsFail E c w t k copies e c' w')
    (hc : c.Inv E w) (hk : ∀ n ∈ c.map.nodes, n.seg.ty = t → n.seg.Roomy) (ht : t ∈ c.abs.types)
    (hs : ¬ E.shiftThrows t ∨ (c.abs.elemsOf t).length ≤ k) : c'.Core E w' ∧ c'.abs = c.abs := by
  cases h with
  | reg h =>
    refine ⟨(h.good E (stable_core E) (hc.core E)), ?_⟩
    rcases (h.unharmed hc.map).abs with h | ⟨-, h⟩ | ⟨h, -⟩
    · exact h
    · exact h
    · exact absurd ht h
  | @seg c1 w1 n s w' ens h hk' =>
    have g := ens.good E (stable_inv E) hc
    obtain ⟨h1, h2, -⟩ := h.core (hk n (ens.old E hc.map ht).2 ens.ty) (not_basic hc.map ens hs)
    refine ⟨(Inv.core E g).put E (stable_core E) (ens.mem E) h.step h.next h1, ?_⟩
    rw [put_abs E ens.inv (ens.mem E) h.step.ty, h2]
    have : c1.abs = c.abs := by
      have := (ens.old E hc.map ht).1
      show c1.map.abs = c.map.abs
      unfold TMap.abs
      rw [this.nodes]
    rw [← this]
    have hu : c1.abs.update n.seg.ty (fun _ => n.seg.elems) = c1.abs := update_same (fun l hl => mem_abs E ens.inv (ens.mem E) hl)
    exact hu

/-- If the exception is `not_copy_constructible`, no element is touched. -/
theorem InsFail.ncc {c c' : Coll V} {w w' : World} {t u : Ty} {k : Nat} {copies : Prop} (h : InsFail E c w t k copies (.notCopyConstructible u) c' w')
    (hc : c.Inv E w) : c'.Core E w' ∧ (c'.abs = c.abs ∨ Spec.State.Ensure t c.abs c'.abs) := by
  cases h with
  | reg h => exact ⟨(h.good E (stable_core E) (hc.core E)), (h.unharmed hc.map).abs⟩
  | @seg c1 w1 n s w' ens h hk' =>
    have g := ens.good E (stable_inv E) hc
    obtain ⟨h1, h2⟩ := h.ncc u rfl
    refine ⟨(Inv.core E g).put E (stable_core E) (ens.mem E) h.step h.next h1, Or.inr ?_⟩
    rw [put_abs E ens.inv (ens.mem E) h.step.ty, h2]
    have hu : c1.abs.update n.seg.ty (fun _ => n.seg.elems) = c1.abs := update_same (fun l hl => mem_abs E ens.inv (ens.mem E) hl)
    rw [hu]
    exact ens.abs E hc.map

end Coll
end PolyColl
