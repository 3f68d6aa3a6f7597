import Verif.Spec.Machine
import Verif.Lemmas.Unharmed
/-!
# Programs refine the abstract machine

`COp.Means`, `Op.Means`: what an operation asks for, given what its iterators denote.  `op_refines`,
`run_refines`: what it does.
-/

namespace PolyColl
open Prog Spec

namespace COp
variable {V : Type} (E : Env V)

/-- What an operation on `c` asks for: iterators are replaced by the positions they denote,
sources by the values they provide. -/
def Means (c : Coll V) : COp V → Change V → Prop
  | registerTypes ts, ch => ch = .register (ts.map E.tiTy)
  | lookup _, ch | reserveAll _, ch | reserveInfo _ _, ch | shrinkAll, ch | shrinkInfo _, ch => ch = .keep
  | reserveT t _, ch => ch = .register [E.tiTy t]
  | emplace t src, ch => ∃ v, c.SrcFor (E.tiTy t) src v ∧ ch = .insert (E.tiTy t) (c.abs.elemsOf (E.tiTy t)).length [v]
  | emplaceHint h t src, ch => ∃ v p, c.SrcFor (E.tiTy t) src v ∧ c.At E h p ∧ ch = .insert (E.tiTy t) (c.abs.hintPos (E.tiTy t) p) [v]
  | emplacePosBase pos t src, ch => ∃ v k, c.SrcFor (E.tiTy t) src v ∧ c.LAtB E pos (E.tiTy t) k ∧ ch = .insert (E.tiTy t) k [v]
  | emplacePosLocal pos t src, ch => ∃ v k, c.SrcFor (E.tiTy t) src v ∧ c.LAtL E pos (E.tiTy t) k ∧ ch = .insert (E.tiTy t) k [v]
  | insert a, ch => ∃ v, c.SrcFor (E.tiTy a.dyn) a.src v ∧ ch = .insert (E.tiTy a.dyn) (c.abs.elemsOf (E.tiTy a.dyn)).length [v]
  | insertHint h a, ch => ∃ v p, c.SrcFor (E.tiTy a.dyn) a.src v ∧ c.At E h p ∧ ch = .insert (E.tiTy a.dyn) (c.abs.hintPos (E.tiTy a.dyn) p) [v]
  | insertPosBase pos a, ch => ∃ v k, c.SrcFor (E.tiTy a.dyn) a.src v ∧ c.LAtB E pos (E.tiTy a.dyn) k ∧ ch = .insert (E.tiTy a.dyn) k [v]
  | insertPosLocal pos a, ch => ∃ v k, c.SrcFor (E.tiTy a.dyn) a.src v ∧ c.LAtL E pos (E.tiTy a.dyn) k ∧ ch = .insert (E.tiTy a.dyn) k [v]
  | insertRange as, ch => ∃ vs, as.map (fun a => a.src.val Vec.nil) = vs.map some ∧
      ch = .insertEach none ((as.zip vs).map fun x => (E.tiTy x.1.dyn, x.2))
  | insertRangeTerminal _ t srcs, ch => ∃ vs, srcs.map (Src.val Vec.nil) = vs.map some ∧
      ch = if vs = [] then .keep else .insert (E.tiTy t) (c.abs.elemsOf (E.tiTy t)).length vs
  | insertHintRange h as, ch => ∃ vs p, as.map (fun a => a.src.val Vec.nil) = vs.map some ∧ c.At E h p ∧
      ch = .insertEach p ((as.zip vs).map fun x => (E.tiTy x.1.dyn, x.2))
  | insertHintRangeTerminal h _ t srcs, ch => ∃ vs p, srcs.map (Src.val Vec.nil) = vs.map some ∧ c.At E h p ∧
      ch = if vs = [] then .keep else .insert (E.tiTy t) (c.abs.hintPos (E.tiTy t) p) vs
  | insertPosRangeBase pos as, ch => ∃ vs t k, as.map (fun a => a.src.val Vec.nil) = vs.map some ∧ (∀ a ∈ as, E.tiTy a.dyn = t) ∧
      c.LAtB E pos t k ∧ ch = .insert t k vs
  | insertPosRangeLocal pos t srcs, ch => ∃ vs k, srcs.map (Src.val Vec.nil) = vs.map some ∧ c.LAtL E pos (E.tiTy t) k ∧
      ch = .insert (E.tiTy t) k vs
  | erase pos, ch => ∃ t k, c.At E pos (some (t, k)) ∧ ch = .erase t k (k + 1)
  | eraseLocalBase pos, ch => ∃ t k, c.LAtB E pos t k ∧ k < (c.abs.elemsOf t).length ∧ ch = .erase t k (k + 1)
  | eraseLocal pos, ch => ∃ t k, c.LAtL E pos t k ∧ k < (c.abs.elemsOf t).length ∧ ch = .erase t k (k + 1)
  | eraseRange f l, ch => ∃ p q, c.At E f p ∧ c.At E l q ∧ c.abs.rank p ≤ c.abs.rank q ∧ ch = .eraseSpan p q
  | eraseLocalRangeBase f l, ch => ∃ t a b, c.LAtB E f t a ∧ c.LAtB E l t b ∧ a ≤ b ∧ ch = .erase t a b
  | eraseLocalRange f l, ch => ∃ t a b, c.LAtL E f t a ∧ c.LAtL E l t b ∧ a ≤ b ∧ ch = .erase t a b
  | clearAll, ch => ch = .clear
  | clearInfo t, ch => ch = .clearOf (E.tiTy t)
  | apply o p a, ch => ∃ t k, c.Points o p t k ∧ ch = .modify t k a.run a.fail
  | rebind _ _, ch => ch = .keep

end COp

namespace Coll
variable {V : Type} {E : Env V}

theorem types_val (as : List (Arg V)) (h : ∀ a ∈ as, a.src.ext = true) : ∃ vs : List V, as.map (fun a => a.src.val Vec.nil) = vs.map some :=
  mapVals fun a ha => ext_val (h a ha)

/-- Documented uses ask for something. -/
theorem apt_means {c : Coll V} {op : COp V} (h : op.Apt E c) : ∃ ch, op.Means E c ch := by
  cases op with
  | registerTypes | lookup | reserveAll | reserveInfo | reserveT | shrinkAll | shrinkInfo | clearAll | clearInfo | rebind => exact ⟨_, rfl⟩
  | emplace t src => obtain ⟨v, hv⟩ := h; exact ⟨_, v, hv, rfl⟩
  | emplaceHint h' t src => obtain ⟨⟨v, hv⟩, p, hp⟩ := h; exact ⟨_, v, p, hv, hp, rfl⟩
  | emplacePosBase pos t src => obtain ⟨⟨v, hv⟩, k, hk⟩ := h; exact ⟨_, v, k, hv, hk, rfl⟩
  | emplacePosLocal pos t src => obtain ⟨⟨v, hv⟩, k, hk⟩ := h; exact ⟨_, v, k, hv, hk, rfl⟩
  | insert a => obtain ⟨-, v, hv⟩ := h; exact ⟨_, v, hv, rfl⟩
  | insertHint h' a => obtain ⟨-, ⟨v, hv⟩, p, hp⟩ := h; exact ⟨_, v, p, hv, hp, rfl⟩
  | insertPosBase pos a => obtain ⟨-, ⟨v, hv⟩, k, hk⟩ := h; exact ⟨_, v, k, hv, hk, rfl⟩
  | insertPosLocal pos a => obtain ⟨-, ⟨v, hv⟩, k, hk⟩ := h; exact ⟨_, v, k, hv, hk, rfl⟩
  | insertRange as => obtain ⟨vs, hv⟩ := types_val as (fun a ha => (h a ha).2); exact ⟨_, vs, hv, rfl⟩
  | insertRangeTerminal f t srcs =>
    obtain ⟨vs, hv⟩ := mapVals (f := Src.val Vec.nil) (fun a ha => ext_val (h a ha)); exact ⟨_, vs, hv, rfl⟩
  | insertHintRange h' as =>
    obtain ⟨⟨p, hp⟩, ha⟩ := h
    obtain ⟨vs, hv⟩ := types_val as (fun a h => (ha a h).2); exact ⟨_, vs, p, hv, hp, rfl⟩
  | insertHintRangeTerminal h' f t srcs =>
    obtain ⟨⟨p, hp⟩, ha⟩ := h
    obtain ⟨vs, hv⟩ := mapVals (f := Src.val Vec.nil) (fun a h => ext_val (ha a h)); exact ⟨_, vs, p, hv, hp, rfl⟩
  | insertPosRangeBase pos as =>
    obtain ⟨t, k, hl, ha⟩ := h
    obtain ⟨vs, hv⟩ := types_val as (fun a h => (ha a h).2.2); exact ⟨_, vs, t, k, hv, fun a h => (ha a h).2.1, hl, rfl⟩
  | insertPosRangeLocal pos t srcs =>
    obtain ⟨k, hl, ha⟩ := h
    obtain ⟨vs, hv⟩ := mapVals (f := Src.val Vec.nil) (fun a h => ext_val (ha a h)); exact ⟨_, vs, k, hv, hl, rfl⟩
  | erase pos => obtain ⟨t, k, h⟩ := h; exact ⟨_, t, k, h, rfl⟩
  | eraseLocalBase pos => obtain ⟨t, k, h, h'⟩ := h; exact ⟨_, t, k, h, h', rfl⟩
  | eraseLocal pos => obtain ⟨t, k, h, h'⟩ := h; exact ⟨_, t, k, h, h', rfl⟩
  | eraseRange f l => obtain ⟨p, q, h1, h2, h3⟩ := h; exact ⟨_, p, q, h1, h2, h3, rfl⟩
  | eraseLocalRangeBase f l => obtain ⟨t, a, b, h1, h2, h3⟩ := h; exact ⟨_, t, a, b, h1, h2, h3, rfl⟩
  | eraseLocalRange f l => obtain ⟨t, a, b, h1, h2, h3⟩ := h; exact ⟨_, t, a, b, h1, h2, h3, rfl⟩
  | apply o p a => obtain ⟨t, k, h⟩ := h; exact ⟨_, t, k, h, rfl⟩

/-- An insertion that did harm to nobody. -/
theorem InsFail.left {c c' : Coll V} {w w' : World} {t : Ty} {k : Nat} {copies : Prop} {e : Exc} (h : InsFail E c w t k copies e c' w')
    (hc : c.Inv E w) (hk : COp.Fits c t 1) (hs : ¬ E.shiftThrows t ∨ (c.abs.elemsOf t).length ≤ k) :
    c'.abs = c.abs ∨ c.abs.Ensure t c'.abs := by
  cases h with
  | reg h =>
    rcases h.nodes with h1 | ⟨n, h1⟩
    · exact .inl (by unfold Coll.abs TMap.abs; rw [h1.nodes])
    · exact .inr (h1.abs E hc.map)
  | @seg c1 w1 n s w' ens h hk' =>
    have g := ens.good E (stable_inv E) hc
    have hb : ¬ (E.shiftThrows t ∧ k < n.seg.size) := by
      rintro ⟨h1, h2⟩
      rcases hs with hs | hs
      · exact hs h1
      · have e1 := ens.elems E hc.map
        have e2 := n.seg.size_eq
        rw [e1] at e2
        omega
    have hr := ens.fits E hc.map hk
    have hsame := h.same hr.1 hb hr.2
    subst hsame
    rw [put_self E g (ens.mem E)]
    exact .inr (ens.abs E hc.map)

theorem insertAt_nil (s : State V) (t : Ty) (k : Nat) : s.insertAt t k [] = s := by
  unfold State.insertAt State.update
  conv => rhs; rw [← List.map_id s]
  apply List.map_congr_left
  rintro ⟨u, l⟩ _
  simp

/-- Nothing but a type may have been added. -/
theorem left_fails {s s' : State V} {t : Ty} {k : Nat} {vs : List V} (h : s' = s ∨ s.Ensure t s') (hv : vs ≠ []) :
    (Change.insert t k vs).Fails s s' := by
  rcases h with h | h
  · exact .inl h
  · exact .inr ⟨0, List.length_pos_iff.2 hv, s', h, by rw [List.take_zero, insertAt_nil]⟩

theorem ensure_same {s s' : State V} {t : Ty} (h : s' = s ∨ s.Ensure t s') (ht : t ∈ s.types) : s' = s := by
  rcases h with h | ⟨-, h⟩ | h
  · exact h
  · exact h
  · exact absurd ht h.1

theorem InsFail.fails {c c' : Coll V} {w w' : World} {t : Ty} {k : Nat} {copies : Prop} {e : Exc} {v : V} (h : InsFail E c w t k copies e c' w')
    (hc : c.Inv E w) (hk : COp.Fits c t 1) (hs : ¬ E.shiftThrows t ∨ (c.abs.elemsOf t).length ≤ k) :
    (Change.insert t k [v]).Fails c.abs c'.abs := left_fails (h.left hc hk hs) (by simp)

theorem ArgFail.left {c c' : Coll V} {w w' : World} {a : Arg V} {k : Nat} {e : Exc} (h : ArgFail E c w a k e c' w')
    (hc : c.Inv E w) (hk : COp.Fits c (E.tiTy a.dyn) 1) (hs : ¬ E.shiftThrows (E.tiTy a.dyn) ∨ (c.abs.elemsOf (E.tiTy a.dyn)).length ≤ k) :
    c'.abs = c.abs ∨ c.abs.Ensure (E.tiTy a.dyn) c'.abs := by
  rcases h with h | ⟨-, h1, h2, h3, h4, -⟩
  · exact h.left hc hk hs
  · exact .inl (by unfold Coll.abs TMap.abs; rw [h2.nodes])

theorem TermFail.left {c c' : Coll V} {w w' : World} {t : Ty} {f copies : Prop} {m : Nat} {e : Exc} (h : TermFail E c w t f copies m e c' w')
    (hc : c.Inv E w) (hf : f) (hk : COp.Fits c t m) : c'.abs = c.abs ∨ c.abs.Ensure t c'.abs := by
  cases h with
  | reg h =>
    rcases h.nodes with h1 | ⟨n, h1⟩
    · exact .inl (by unfold Coll.abs TMap.abs; rw [h1.nodes])
    · exact .inr (h1.abs E hc.map)
  | @seg c1 w1 n s w' ens h =>
    have g := ens.good E (stable_inv E) hc
    have hr := ens.fits E hc.map hk
    have hsame := h.same hf (hr.2.imp id fun h => ⟨hr.1, h⟩)
    subst hsame
    rw [put_self E g (ens.mem E)]
    exact .inr (ens.abs E hc.map)

theorem RangeFail.fails {c c' : Coll V} {w w' : World} {t : Ty} {k : Nat} {vs : List V} {copies : Prop} {e : Exc} (h : RangeFail E c w t k vs copies e c' w')
    (hc : c.Inv E w) (hk : c.kind = .packed) (hs : ¬ E.shiftThrows t) : (Change.insert t k vs).Fails c.abs c'.abs := by
  obtain ⟨j, c1, w1, hj, h1, h2⟩ := h
  have k1 := h1.kept E hc
  have hl := h2.left k1.1 (Or.inl (k1.2.1.trans hk)) (Or.inl hs)
  have ht : t ∈ c1.abs.types := (h1.types E hc.map t).2 (.inr rfl)
  refine .inr ⟨j, hj, ?_⟩
  rw [ensure_same hl ht]
  exact h1.put E hc.map

theorem SeqFail.fails {c c' : Coll V} {w w' : World} {p : State.Pos} {as : List (Arg V)} {vs : List V} {e : Exc} (h : SeqFail E c w p as vs e c' w')
    (hc : c.Inv E w) (hl : as.length = vs.length) (hk : c.kind = .packed) (hs : (∀ a ∈ as, ¬ E.shiftThrows (E.tiTy a.dyn)) ∨ p = none) :
    (Change.insertEach p (typed E as vs)).Fails c.abs c'.abs := by
  obtain ⟨j, c1, w1, p1, a, ha, h1, h2⟩ := h
  have k1 := h1.kept E hc
  have hj : j < as.length := (List.getElem?_eq_some_iff.1 ha).1
  have hl' : c'.abs = c1.abs ∨ c1.abs.Ensure (E.tiTy a.dyn) c'.abs := by
    refine h2.left k1.1 (Or.inl (k1.2.1.trans hk)) ?_
    rcases hs with hs | hs
    · exact Or.inl (hs a (List.mem_of_getElem? ha))
    · right
      rw [h1.none E hs]
      exact Nat.le_refl _
  refine ⟨j, c1.abs, by simp [typed]; omega, h1.grown E hc, hl'.imp id fun h => ⟨E.tiTy a.dyn, vs[j]'(hl ▸ hj), ?_, h⟩⟩
  have := List.getElem?_eq_some_iff.1 ha
  simp [typed, List.getElem?_zip_eq_some, ha]

theorem FromFail.fails {c c' : Coll V} {w w' : World} {p : State.Pos} {l : List (Ty × V)} {e : Exc} (h : FromFail E c w p l e c' w')
    (hc : c.Inv E w) (hk : c.kind = .packed) (hs : (∀ t ∈ l.map Prod.fst, ¬ E.shiftThrows t) ∨ p = none) :
    (Change.insertEach p l).Fails c.abs c'.abs := by
  obtain ⟨j, c1, w1, p1, t, v, ha, h1, h2⟩ := h
  have k1 := h1.kept E hc
  have hj : j < l.length := (List.getElem?_eq_some_iff.1 ha).1
  refine ⟨j, c1.abs, hj, h1.grown E hc, (h2.left k1.1 (Or.inl (k1.2.1.trans hk)) ?_).imp id fun h => ⟨t, v, ha, h⟩⟩
  rcases hs with hs | hs
  · exact Or.inl (hs t (List.mem_map.2 ⟨_, List.mem_of_getElem? ha, rfl⟩))
  · right
    rw [h1.none E hs]
    exact Nat.le_refl _

/-- A segment has been spoiled. -/
theorem remFail_fails {c : Coll V} {w w' : World} {n : Node V} {s : Seg V} {e : Exc} (hc : c.map.Inv E c.kind w) (hn : n ∈ c.map.nodes)
    (h : Seg.RemFail E n.seg w e s w') :
    (c.put n s).abs.types = c.abs.types ∧ (∀ u, u ≠ n.seg.ty → (c.put n s).abs.elemsOf u = c.abs.elemsOf u) ∧
      ((c.put n s).abs.elemsOf n.seg.ty).length = (c.abs.elemsOf n.seg.ty).length := by
  have ht := mem_types hn
  rw [put_abs E hc hn h.step.ty]
  refine ⟨State.update_types _ _ _, fun u hu => ?_, ?_⟩
  · rw [State.update_elemsOf ht, if_neg hu]
  · rw [State.update_elemsOf ht, if_pos rfl]
    have h1 : c.abs.elemsOf n.seg.ty = n.seg.elems :=
      State.elemsOf_mem (abs_nodup E hc) (List.mem_map.2 ⟨n, hn, rfl⟩)
    rw [h1]
    exact h.size

theorem RangeErFail.fails {c c' : Coll V} {w w' : World} {t : Ty} {a b : Nat} {e : Exc} (h : RangeErFail E c w t e c' w') (hc : c.Inv E w) :
    (Change.erase (V := V) t a b).Fails c.abs c'.abs := by
  obtain ⟨n, hn, rfl, s, rfl, h1, h2⟩ := h
  exact remFail_fails hc.map hn h1

theorem eraseOne_fails {c c' : Coll V} {w w' : World} {t : Ty} {k a b : Nat} {e : Exc} (hc : c.Inv E w)
    (h : ∃ n ∈ c.map.nodes, n.seg.ty = t ∧ k + 1 < n.seg.size ∧
        ∃ s, c' = c.put n s ∧ Seg.RemFail E n.seg w e s w' ∧ (n.seg.kind = .packed → s.Core E w')) :
    (Change.erase (V := V) t a b).Fails c.abs c'.abs := by
  obtain ⟨n, hn, rfl, -, s, rfl, h1, h2⟩ := h
  exact remFail_fails hc.map hn h1

theorem Removed.types {c c' : Coll V} {w w' : World} {s : State V} (h : Removed E c w s c' w') : c'.abs.types = c.abs.types := by
  have := h.upd.nodes
  unfold Coll.abs
  rw [TMap.abs_types, TMap.abs_types]
  generalize c.map.nodes = l at this
  generalize c'.map.nodes = l' at this
  induction this with
  | nil => rfl
  | cons h _ ih => rw [List.map_cons, List.map_cons, ih, h.2.2.1]

theorem EraseFail.fails {c c' : Coll V} {w w' : World} {p q : State.Pos} {e : Exc}
    (h : EraseFail E c w (fun u => (c.abs.removeRange (c.abs.rank p) (c.abs.rank q)).elemsOf u = c.abs.elemsOf u) e c' w') :
    (Change.eraseSpan (V := V) p q).Fails c.abs c'.abs := by
  cases h with
  | @mk s d _ w1 _ t h f hk =>
    obtain ⟨n, hn, rfl, x, rfl, h1, h2⟩ := f
    obtain ⟨a1, a2, a3⟩ := remFail_fails h.inv.map hn h1
    refine ⟨a1.trans h.types, fun u hu => ?_⟩
    obtain ⟨b1, b2⟩ := hk u hu
    rw [a2 u b2, h.abs, b1]

theorem eraseIdx_eq {s : State V} {t : Ty} {k : Nat} :
    s.update t (·.eraseIdx k) = s.update t fun l => l.take k ++ l.drop (k + 1) := by
  unfold State.update
  simp only [List.eraseIdx_eq_take_drop_succ]

theorem Ens.registered {c c' : Coll V} {w w' : World} {t : Ty} {n : Node V} (h : Ens E c w t n c' w') (hc : c.map.Inv E c.kind w) :
    State.Registered [t] c.abs c'.abs := by
  have ha := h.abs E hc
  refine ⟨fun u => ha.elemsOf (abs_nodup E hc) u, fun u => by simpa using ha.types u, fun hu => ?_, ha.nodup⟩
  rcases ha with ha | ha
  · exact ha.2
  · exact absurd (hu t (by simp)) ha.1

theorem Inserted.does {c c' : Coll V} {w w' : World} {t : Ty} {k : Nat} {vs : List V} (h : Inserted E c w t k vs c' w') (hc : c.Inv E w) :
    (Change.insert t k vs).Does c.abs c'.abs := ⟨h.le E hc.map, h.put E hc.map⟩

/-- An operation used as documented does what it means. -/
theorem op_refines (op : COp V) (c : Coll V) (w : World) (hc : c.Inv E w) (hp : op.Pre E c) (ch : Change V) (hm : op.Means E c ch) :
    Runs (op.run E) c w (fun _ c' _ => ch.Does c.abs c'.abs) (fun _ c' _ => op.Strong E c → ch.Fails c.abs c'.abs) := by
  cases op with
  | registerTypes ts =>
    cases hm
    exact (registerTypes_runs E ts c w hc).mono (fun _ _ _ h => h.2.2.2.1) (fun _ _ _ h _ => h.2.2.2.2.1)
  | lookup t =>
    cases hm
    simp only [COp.run, runs_drop]
    refine (forInfo_runs E t c w hc.map).mono ?_ ?_
    · rintro _ c' w' ⟨rfl, rfl, -⟩; rfl
    · rintro _ c' w' ⟨rfl, rfl, -⟩ _; rfl
  | reserveAll n =>
    cases hm
    exact (reserveAll_runs E n c w hc).mono (fun _ _ _ h => h.2.2.2) (fun _ _ _ h _ => h.2.2.2.2.2.1)
  | reserveInfo t n =>
    cases hm
    refine (reserveInfo_runs E t n c w hc).mono (fun _ _ _ h => h.2.2.1) ?_
    rintro _ c' w' (⟨rfl, rfl, -⟩ | h) _
    · rfl
    · exact h.2.2.1
  | reserveT t n =>
    cases hm
    refine (reserveT_runs E t n c w hc).mono ?_ ?_
    · rintro _ c' w' ⟨m, d, w1, s, h1, -, -, -, h2, -⟩
      show State.Registered _ _ _
      rw [h2]
      exact h1.registered hc.map
    · rintro _ c' w' (h | ⟨m, d, w1, s, h1, -, -, -, h2, -⟩) _
      · rcases h.nodes with h1 | ⟨n, h1⟩
        · refine ⟨[], List.nil_prefix, ?_⟩
          have : c'.abs = c.abs := by unfold Coll.abs TMap.abs; rw [h1.nodes]
          rw [this]
          exact ⟨fun _ => rfl, by simp, fun _ => rfl, id⟩
        · exact ⟨_, List.prefix_refl _, h1.registered hc.map⟩
      · refine ⟨_, List.prefix_refl _, ?_⟩
        rw [h2]
        exact h1.registered hc.map
  | shrinkAll =>
    cases hm
    exact (shrinkAll_runs E c w hc).mono (fun _ _ _ h => h.2.2.2) (fun _ _ _ h _ => h.2.2.1)
  | shrinkInfo t =>
    cases hm
    refine (shrinkInfo_runs E t c w hc).mono (fun _ _ _ h => h.2.2.1) ?_
    rintro _ c' w' (⟨rfl, rfl, -⟩ | h) _
    · rfl
    · exact h.2.2.1
  | emplace t src =>
    obtain ⟨v, hv, rfl⟩ := hm
    simp only [COp.run, runs_drop]
    exact (emplace_runs E t src v c w hc hv).mono (fun _ _ _ h => h.1.does hc) (fun _ _ _ h hk => h.fails hc hk (Or.inr (Nat.le_refl _)))
  | emplaceHint hint t src =>
    obtain ⟨-, -, hok⟩ := hp
    obtain ⟨v, p, hv, hh, rfl⟩ := hm
    simp only [COp.run, runs_drop]
    exact (emplaceHint_runs E hint p t src v c w hc hv hh (hok.head E)).mono (fun _ _ _ h => h.1.does hc) (fun _ _ _ h hk => h.fails hc hk.1 (Or.inl hk.2))
  | emplacePosBase pos t src =>
    obtain ⟨v, k, hv, hl, rfl⟩ := hm
    simp only [COp.run, runs_drop]
    exact (emplacePosBase_runs E pos t k src v c w hc hl hv).mono (fun _ _ _ h => h.1.does hc) (fun _ _ _ h hk => h.fails hc hk.1 (Or.inl hk.2))
  | emplacePosLocal pos t src =>
    obtain ⟨v, k, hv, hl, rfl⟩ := hm
    simp only [COp.run, runs_drop]
    exact (emplacePosLocal_runs E pos t k src v c w hc hl hv).mono (fun _ _ _ h => h.1.does hc) (fun _ _ _ h hk => h.fails hc hk.1 (Or.inl hk.2))
  | insert a =>
    obtain ⟨ha, -⟩ := hp
    obtain ⟨v, hv, rfl⟩ := hm
    simp only [COp.run, runs_drop]
    exact (insert_runs E a v ha c w hc hv).mono (fun _ _ _ h => h.1.does hc)
      (fun _ _ _ h hk => left_fails (h.left hc hk (Or.inr (Nat.le_refl _))) (by simp))
  | insertHint hint a =>
    obtain ⟨ha, -, -, hok⟩ := hp
    obtain ⟨v, p, hv, hh, rfl⟩ := hm
    simp only [COp.run, runs_drop]
    exact (insertHint_runs E hint p a v ha c w hc hv hh (hok.head E)).mono (fun _ _ _ h => h.1.does hc)
      (fun _ _ _ h hk => left_fails (h.left hc hk.1 (Or.inl hk.2)) (by simp))
  | insertPosBase pos a =>
    obtain ⟨v, k, hv, hl, rfl⟩ := hm
    simp only [COp.run, runs_drop]
    exact (insertPosBase_runs E pos a k v c w hc hl hv).mono (fun _ _ _ h => h.1.does hc) (fun _ _ _ h hk => h.fails hc hk.1 (Or.inl hk.2))
  | insertPosLocal pos a =>
    obtain ⟨v, k, hv, hl, rfl⟩ := hm
    simp only [COp.run, runs_drop]
    exact (insertPosLocal_runs E pos a k v c w hc hl hv).mono (fun _ _ _ h => h.1.does hc) (fun _ _ _ h hk => h.fails hc hk.1 (Or.inl hk.2))
  | insertRange as =>
    obtain ⟨vs, hv, rfl⟩ := hm
    have hlen : as.length = vs.length := by have := congrArg List.length hv; simpa using this
    exact (insertRange_runs E as vs c w hc hp hv).mono (fun _ _ _ ⟨_, h⟩ => h.grown E hc) (fun _ _ _ h hk => h.fails hc hlen hk (Or.inr rfl))
  | insertRangeTerminal f t srcs =>
    obtain ⟨vs, hv, rfl⟩ := hm
    have hlen : srcs.length = vs.length := by have := congrArg List.length hv; simpa using this
    by_cases hn : vs = []
    · subst hn
      have : srcs = [] := List.length_eq_zero_iff.1 hlen
      subst this
      exact (rfl : c.abs = c.abs)
    rw [if_neg hn]
    refine (insertRangeTerminal_runs E f t srcs vs c w hc hp hv).mono ?_ (fun _ _ _ h hk => left_fails (h.left hc hk.1 (hlen ▸ hk.2)) hn)
    rintro _ c' w' (⟨h, -⟩ | ⟨-, h⟩)
    · exact absurd h hn
    · exact h.does hc
  | insertHintRange hint as =>
    obtain ⟨-, hok, ha⟩ := hp
    obtain ⟨vs, p, hv, hh, rfl⟩ := hm
    have hlen : as.length = vs.length := by have := congrArg List.length hv; simpa using this
    simp only [COp.run, runs_drop]
    exact (insertHintRange_runs E as hint p vs c w hc hh hok ha hv).mono (fun _ _ _ ⟨_, h, _⟩ => h.grown E hc)
      (fun _ _ _ h hk => h.fails hc hlen hk.1 (Or.inl hk.2))
  | insertHintRangeTerminal hint f t srcs =>
    obtain ⟨-, hok, ha⟩ := hp
    obtain ⟨vs, p, hv, hh, rfl⟩ := hm
    have hlen : srcs.length = vs.length := by have := congrArg List.length hv; simpa using this
    by_cases hn : vs = []
    · subst hn
      have : srcs = [] := List.length_eq_zero_iff.1 hlen
      subst this
      exact (rfl : c.abs = c.abs)
    rw [if_neg hn]
    refine (insertHintRangeTerminal_runs E hint p f t srcs vs c w hc hh hok ha hv).mono ?_
      (fun _ _ _ h hk => left_fails (h.left hc ⟨hk.1, ?_⟩ (hlen ▸ hk.2.1)) hn)
    rotate_left
    · unfold State.hintPos
      cases p with
      | none => rfl
      | some q =>
        simp only
        split
        · rename_i e; exact absurd (e ▸ hh) (hk.2.2 q.2)
        · rfl
    rintro _ c' w' (⟨h, -⟩ | ⟨-, h⟩)
    · exact absurd h hn
    · exact h.does hc
  | insertPosRangeBase pos as =>
    obtain ⟨t0, k0, hl0, ha⟩ := hp
    obtain ⟨vs, t, k, hv, ht, hl, rfl⟩ := hm
    simp only [COp.run, runs_drop]
    refine (insertPosRangeBase_runs E pos t k as vs True c w hc hl (fun a h => ⟨ht a h, (ha a h).2.2, fun _ => trivial⟩) hv).mono
      (fun _ _ _ h => h.1.does hc) (fun _ _ _ h hk => ?_)
    cases as with
    | nil =>
      obtain ⟨j, _, _, hj, _⟩ := h
      cases vs <;> simp at hv hj
    | cons a as => exact h.fails hc hk.1 (by rw [← ht a (by simp)]; exact hk.2 a (by simp))
  | insertPosRangeLocal pos t srcs =>
    obtain ⟨-, -, ha⟩ := hp
    obtain ⟨vs, k, hv, hl, rfl⟩ := hm
    simp only [COp.run, runs_drop]
    exact (insertPosRangeLocal_runs E pos t k srcs vs True c w hc hl (fun a h => ⟨ha a h, fun _ => trivial⟩) hv).mono
      (fun _ _ _ h => h.1.does hc) (fun _ _ _ h hk => h.fails hc hk.1 hk.2)
  | erase pos =>
    obtain ⟨t, k, h, rfl⟩ := hm
    simp only [COp.run, runs_drop]
    exact (erase_runs E pos t k c w hc h).mono (fun _ _ _ h => h.1.abs.trans eraseIdx_eq) (fun _ _ _ h _ => eraseOne_fails hc h)
  | eraseLocalBase pos =>
    obtain ⟨t, k, h, hk, rfl⟩ := hm
    simp only [COp.run, runs_drop]
    exact (eraseLocalBase_runs E pos t k c w hc h hk).mono (fun _ _ _ h => h.1.abs.trans eraseIdx_eq) (fun _ _ _ h _ => eraseOne_fails hc h)
  | eraseLocal pos =>
    obtain ⟨t, k, h, hk, rfl⟩ := hm
    simp only [COp.run, runs_drop]
    exact (eraseLocal_runs E pos t k c w hc h hk).mono (fun _ _ _ h => h.1.abs.trans eraseIdx_eq) (fun _ _ _ h _ => eraseOne_fails hc h)
  | eraseRange f l =>
    obtain ⟨p, q, h1, h2, h3, rfl⟩ := hm
    simp only [COp.run, runs_drop]
    exact (eraseRange_runs E f l p q c w hc h1 h2 h3).mono (fun _ _ _ h => h.1.abs) (fun _ _ _ h _ => h.fails)
  | eraseLocalRangeBase f l =>
    obtain ⟨t, a, b, h1, h2, h3, rfl⟩ := hm
    simp only [COp.run, runs_drop]
    exact (eraseLocalRangeBase_runs E f l t a b c w hc h1 h2 h3).mono (fun _ _ _ h => h.1.abs) (fun _ _ _ h _ => h.fails hc)
  | eraseLocalRange f l =>
    obtain ⟨t, a, b, h1, h2, h3, rfl⟩ := hm
    simp only [COp.run, runs_drop]
    exact (eraseLocalRange_runs E f l t a b c w hc h1 h2 h3).mono (fun _ _ _ h => h.1.abs) (fun _ _ _ h _ => h.fails hc)
  | clearAll =>
    cases hm
    exact (clearAll_runs E c w (hc.core E)).mono (fun _ _ _ h => h.abs) (fun _ _ _ h => h.elim)
  | clearInfo t =>
    cases hm
    refine (clearInfo_runs E t c w hc).mono (fun _ _ _ h => h.1.abs) ?_
    rintro _ c' w' ⟨rfl, rfl, -⟩ _
    rfl
  | apply o p a =>
    obtain ⟨t, k, hp, rfl⟩ := hm
    simp only [COp.run, runs_drop]
    exact (apply_runs o p a c w (hc.core E) hp).mono (fun _ _ _ h => h.2.abs hc.map) (fun _ _ _ h _ => h.2.2.abs hc.map)
  | rebind p q =>
    cases hm
    obtain ⟨rfl, hk, t, k, hp⟩ := hp
    refine (rebind_self_runs _ c w hc hk hp).mono ?_ (fun _ _ _ h => h.elim)
    rintro _ c' w' ⟨rfl, rfl⟩
    rfl

end Coll

namespace Op
variable {V : Type} (E : Env V)

/-- What an operation on the collections `s` asks for. -/
def Means (s : Sys V) : Op V → Request V → Prop
  | on i op, r => ∃ ch, op.Means E (s i) ch ∧ r = .on i ch
  | create i _, r => r = .make i []
  | fromRange i _ as, r => ∃ vs, as.map (fun a => a.src.val Vec.nil) = vs.map some ∧
      r = .make i ((as.zip vs).map fun x => (E.tiTy x.1.dyn, x.2))
  | fromTerminal i _ _ t srcs, r => ∃ vs : List V, srcs.map (Src.val Vec.nil) = vs.map some ∧ r = .make i (vs.map fun v => (E.tiTy t, v))
  | fromColl i j _ f l, r => ∃ p q, (s j).At E f p ∧ (s j).At E l q ∧ (s j).abs.rank p ≤ (s j).abs.rank q ∧
      r = .make i ((s j).abs.between p q)
  | fromLocalColl i j _ f l, r => ∃ t a b, (s j).LAtB E f t a ∧ (s j).LAtB E l t b ∧ a ≤ b ∧
      r = .make i ((((s j).abs.elemsOf t).drop a |>.take (b - a)).map fun v => (t, v))
  | copy i j, r | copyAl i j _, r => r = .copy i j
  | move i j, r | moveAl i j _, r => r = .move i j
  | assign i j, r => r = .assign i j
  | moveAssign i j, r => r = .moveAssign i j
  | swap i j, r => r = .swap i j
  | insertColl i j f l, r => ∃ p q, (s j).At E f p ∧ (s j).At E l q ∧ (s j).abs.rank p ≤ (s j).abs.rank q ∧
      r = .on i (.insertEach none ((s j).abs.between p q))
  | insertLocalColl i j f l, r => ∃ t a b, (s j).LAtB E f t a ∧ (s j).LAtB E l t b ∧ a ≤ b ∧
      r = .on i (.insertEach none ((((s j).abs.elemsOf t).drop a |>.take (b - a)).map fun v => (t, v)))
  | insertHintColl i j h f l, r => ∃ x p q, (s i).At E h x ∧ (s j).At E f p ∧ (s j).At E l q ∧ (s j).abs.rank p ≤ (s j).abs.rank q ∧
      r = .on i (.insertEach x ((s j).abs.between p q))
  | insertHintLocalColl i j h f l, r => ∃ x t a b, (s i).At E h x ∧ (s j).LAtB E f t a ∧ (s j).LAtB E l t b ∧ a ≤ b ∧
      r = .on i (.insertEach x ((((s j).abs.elemsOf t).drop a |>.take (b - a)).map fun v => (t, v)))

theorem Means.concerns {s : Sys V} {op : Op V} {r : Request V} (h : op.Means E s r) : r.concerns = op.writes := by
  cases op with
  | on | fromRange | fromTerminal => obtain ⟨_, -, rfl⟩ := h; rfl
  | create | copy | copyAl | move | moveAl | assign | moveAssign | swap => cases h; rfl
  | insertColl | fromColl => obtain ⟨_, _, -, -, -, rfl⟩ := h; rfl
  | insertLocalColl | fromLocalColl => obtain ⟨_, _, _, -, -, -, rfl⟩ := h; rfl
  | insertHintColl => obtain ⟨_, _, _, -, -, -, -, rfl⟩ := h; rfl
  | insertHintLocalColl => obtain ⟨_, _, _, _, -, -, -, -, rfl⟩ := h; rfl

end Op

namespace Coll
variable {V : Type} {E : Env V} {k : Kind}

/-- The contents of the collections of a program. -/
def contents (s : Sys V) : Nat → State V := fun i => (s i).abs

theorem run_means {s : Sys V} {op : Op V} (h : op.Apt E s) : ∃ r, op.Means E s r := by
  cases op with
  | on i op => obtain ⟨ch, h⟩ := apt_means h; exact ⟨_, ch, h, rfl⟩
  | create | copy | copyAl | move | moveAl | assign | moveAssign | swap => exact ⟨_, rfl⟩
  | fromRange i al as => obtain ⟨vs, hv⟩ := types_val as (fun a ha => (h a ha).2); exact ⟨_, vs, hv, rfl⟩
  | fromTerminal i al fwd t srcs => obtain ⟨vs, hv⟩ := mapVals (f := Src.val Vec.nil) (fun a ha => ext_val (h a ha)); exact ⟨_, vs, hv, rfl⟩
  | fromColl i j al f l => obtain ⟨-, p, q, h1, h2, h3⟩ := h; exact ⟨_, p, q, h1, h2, h3, rfl⟩
  | fromLocalColl i j al f l => obtain ⟨-, t, a, b, h1, h2, h3⟩ := h; exact ⟨_, t, a, b, h1, h2, h3, rfl⟩
  | insertColl i j f l => obtain ⟨-, p, q, h1, h2, h3⟩ := h; exact ⟨_, p, q, h1, h2, h3, rfl⟩
  | insertLocalColl i j f l => obtain ⟨-, t, a, b, h1, h2, h3⟩ := h; exact ⟨_, t, a, b, h1, h2, h3, rfl⟩
  | insertHintColl i j h' f l => obtain ⟨-, ⟨p, q, h1, h2, h3⟩, x, hx⟩ := h; exact ⟨_, x, p, q, hx, h1, h2, h3, rfl⟩
  | insertHintLocalColl i j h' f l => obtain ⟨-, ⟨t, a, b, h1, h2, h3⟩, x, hx⟩ := h; exact ⟨_, x, t, a, b, hx, h1, h2, h3, rfl⟩

theorem on_refines {α : Type} {i : Nat} {p : Prog (Coll V) α} {s : Sys V} {w : World} {ch : Change V} {S : Prop}
    (hp : Runs p (s i) w (fun _ c' _ => ch.Does (s i).abs c'.abs) (fun _ c' _ => S → ch.Fails (s i).abs c'.abs)) :
    Runs (Sys.on i p) s w (fun _ s' _ => ch.Does (contents s i) (contents s' i)) (fun _ s' _ => S → ch.Fails (contents s i) (contents s' i)) := by
  unfold Sys.on
  rw [runs_zoom]
  have e : ∀ c : Coll V, contents (s.put i c) i = c.abs := fun c => by simp [contents, Sys.put]
  exact hp.mono (fun _ c w' h => by rw [e]; exact h) (fun _ c w' h => by rw [e]; exact h)

/-- What an operation does to the collections it changes. -/
theorem run_refines_at {sub : Ty → TI} (hsub : ∀ t, E.tiTy (sub t) = t) (op : Op V) (s : Sys V) (w : World) (hs : SysHolds E k (fun _ => .sound) s w)
    (hp : op.Pre E s) (r : Request V) (hm : op.Means E s r) :
    Runs (op.run E k sub) s w
      (fun _ s' _ => (∀ x, x ∉ r.concerns → contents s' x = contents s x) → r.Does (contents s) (contents s'))
      (fun _ s' _ => (∀ x, x ∉ r.concerns → contents s' x = contents s x) → op.Strong E k s → r.Fails (contents s) (contents s')) := by
  have hk : ∀ i, (s i).kind = k := fun i => (hs.1 i).kind E
  have hkk : ∀ i j, (s i).kind = (s j).kind := fun i j => (hk i).trans (hk j).symm
  have hi : ∀ i, (s i).Inv E w := fun i => (hs.sound E rfl).1
  have put : ∀ (s : Sys V) i (c : Coll V), contents (s.put i c) i = c.abs := fun s i c => by simp [contents, Sys.put]
  have other : ∀ (s : Sys V) i j (c : Coll V), j ≠ i → contents (s.put i c) j = contents s j := fun s i j c h => by simp [contents, Sys.put, h]
  have on_r : ∀ {i : Nat} {ch : Change V} {p : Prog (Sys V) Unit} {S : Prop},
      Runs p s w (fun _ s' _ => ch.Does (contents s i) (contents s' i)) (fun _ s' _ => S → ch.Fails (contents s i) (contents s' i)) →
      Runs p s w (fun _ s' _ => (∀ x, x ∉ (Request.on i ch).concerns → contents s' x = contents s x) → (Request.on i ch).Does (contents s) (contents s'))
        (fun _ s' _ => (∀ x, x ∉ (Request.on i ch).concerns → contents s' x = contents s x) → S → (Request.on i ch).Fails (contents s) (contents s')) :=
    fun h => h.mono (fun _ _ _ h hx => ⟨hx, h⟩) (fun _ _ _ h hx hS => ⟨hx, h hS⟩)
  cases op with
  | on i op =>
    obtain ⟨ch, hm, rfl⟩ := hm
    exact on_r (on_refines (op_refines op (s i) w (hi i) hp ch hm))
  | create i al =>
    cases hm
    refine fun hx => ⟨hx, ?_⟩
    show State.Appended _ _ (contents (s.put i _) i)
    rw [put]
    exact .nil _
  | fromRange i al as =>
    obtain ⟨vs, hv, rfl⟩ := hm
    simp only [Op.run, Sys.construct, runs_bind, runs_get, runs_set]
    refine (fromRange_runs E k al as vs s w hs.2 hp hv).mono ?_ ?_
    · rintro c s' w' ⟨rfl, p', h⟩ hx
      refine ⟨hx, ?_⟩
      show State.Appended _ _ (contents (s'.put i _) i)
      rw [put]
      exact h.appended E (empty_good E k al hs.2)
    · rintro _ s' w' ⟨rfl, -⟩ hx _
      exact ⟨hx, rfl⟩
  | fromTerminal i al fwd t srcs =>
    obtain ⟨vs, hv, rfl⟩ := hm
    simp only [Op.run, Sys.construct, runs_bind, runs_get, runs_set]
    refine (fromTerminal_runs E k al fwd t srcs vs s w hs.2 hp hv).mono ?_ ?_
    · rintro c s' w' ⟨rfl, -, h⟩ hx
      refine ⟨hx, ?_⟩
      show State.Appended _ _ (contents (s'.put i _) i)
      rw [put]
      exact h
    · rintro _ s' w' ⟨rfl, -⟩ hx _
      exact ⟨hx, rfl⟩
  | fromColl i j al f l =>
    obtain ⟨p, q, h1, h2, h3, rfl⟩ := hm
    simp only [Op.run, runs_bind, runs_get, runs_ite]
    refine ⟨fun e => absurd e hp.1, fun _ => ?_⟩
    simp only [Sys.construct, runs_bind, runs_get, runs_set]
    rw [← hk j]
    refine (fromColl_runs E hsub (s j) w (hi j) h1 h2 h3 al s w hs.2).mono ?_ ?_
    · rintro c s' w' ⟨rfl, p', h⟩ hx
      refine ⟨hx, ?_⟩
      show State.Appended _ _ (contents (s'.put i _) i)
      rw [put]
      exact h.appended E (empty_good E _ al hs.2)
    · rintro _ s' w' ⟨rfl, -⟩ hx _
      exact ⟨hx, rfl⟩
  | fromLocalColl i j al f l =>
    obtain ⟨t, a, b, h1, h2, h3, rfl⟩ := hm
    simp only [Op.run, runs_bind, runs_get, runs_ite]
    refine ⟨fun e => absurd e hp.1, fun _ => ?_⟩
    simp only [Sys.construct, runs_bind, runs_get, runs_set]
    rw [← hk j]
    refine (fromLocalColl_runs E hsub (s j) w (hi j) h1 h2 h3 al s w hs.2).mono ?_ ?_
    · rintro c s' w' ⟨rfl, p', h⟩ hx
      refine ⟨hx, ?_⟩
      show State.Appended _ _ (contents (s'.put i _) i)
      rw [put]
      exact h.appended E (empty_good E _ al hs.2)
    · rintro _ s' w' ⟨rfl, -⟩ hx _
      exact ⟨hx, rfl⟩
  | copy i j =>
    cases hm
    simp only [Op.run, runs_bind, runs_get, runs_ite]
    refine ⟨fun e => absurd e hp, fun _ => ?_⟩
    simp only [Sys.construct, runs_bind, runs_get, runs_set]
    refine (copyAl_runs E (s j) _ s w (hi j).map hs.2).mono ?_ ?_
    · rintro c s' w' ⟨rfl, -, -, -, -, h, -⟩ hx
      refine ⟨hx, ?_⟩
      show (contents (s'.put i _) i).Perm _
      rw [put]
      exact h
    · rintro _ s' w' ⟨rfl, -⟩ hx _
      exact ⟨hx, rfl⟩
  | copyAl i j al =>
    cases hm
    simp only [Op.run, runs_bind, runs_get, runs_ite]
    refine ⟨fun e => absurd e hp, fun _ => ?_⟩
    simp only [Sys.construct, runs_bind, runs_get, runs_set]
    refine (copyAl_runs E (s j) _ s w (hi j).map hs.2).mono ?_ ?_
    · rintro c s' w' ⟨rfl, -, -, -, -, h, -⟩ hx
      refine ⟨hx, ?_⟩
      show (contents (s'.put i _) i).Perm _
      rw [put]
      exact h
    · rintro _ s' w' ⟨rfl, -⟩ hx _
      exact ⟨hx, rfl⟩
  | move i j =>
    cases hm
    have hp : i ≠ j := hp
    simp only [Op.run, runs_ite]
    refine ⟨fun e => absurd e hp, fun _ => ?_⟩
    simp only [Sys.construct, Sys.on, runs_bind, runs_get, runs_set]
    rw [runs_zoom]
    refine (move_runs E (s j) w (hi j)).mono ?_ (fun _ _ _ h => h.elim)
    rintro c x w' ⟨rfl, rfl, e, -⟩ hx
    refine ⟨hx, ?_, ?_⟩
    · show (contents (Sys.put _ i _) i).Perm _
      rw [put]
      exact .refl _
    · show contents (Sys.put _ i _) j = []
      rw [other _ _ _ _ hp.symm]
      show contents (s.put j x) j = []
      rw [put, e]
      rfl
  | moveAl i j al =>
    cases hm
    have hp : i ≠ j := hp
    simp only [Op.run, runs_ite]
    refine ⟨fun e => absurd e hp, fun _ => ?_⟩
    simp only [Sys.construct, Sys.on, runs_bind, runs_get, runs_set]
    rw [runs_zoom]
    refine (moveAl_runs E al (s j) w (hi j)).mono ?_ (fun _ _ _ _ _ h => h.elim)
    rintro c x w' ⟨-, -, -, -, h1, -, -, -, h2, -⟩ hx
    refine ⟨hx, ?_, ?_⟩
    · show (contents (Sys.put _ i _) i).Perm _
      rw [put]
      exact h1
    · show contents (Sys.put _ i _) j = []
      rw [other _ _ _ _ hp.symm]
      show contents (s.put j x) j = []
      rw [put, h2]
  | assign i j =>
    cases hm
    simp only [Op.run, runs_bind, runs_get, runs_ite]
    refine ⟨fun e hx => ⟨hx, by cases e; exact .refl _⟩, fun _ => ?_⟩
    unfold Sys.on
    rw [runs_zoom]
    refine (assign_runs E (s j) (s i) w (hi j).map (hkk i j) hs.2).mono ?_ ?_
    · rintro _ c w' ⟨-, -, -, -, h, -⟩ hx
      refine ⟨hx, ?_⟩
      show (contents (s.put i _) i).Perm _
      rw [put]
      exact h
    · rintro _ c w' ⟨-, -, -, -, h, -⟩ hx _
      refine ⟨hx, ?_⟩
      show contents (s.put i _) i = []
      rw [put]
      exact h
  | moveAssign i j =>
    cases hm
    simp only [Op.run, runs_ite]
    refine ⟨fun e hx => ⟨hx, by cases e; exact .refl _, fun h => absurd e h⟩, fun hij => ?_⟩
    unfold Sys.on2
    rw [runs_zoom]
    refine (moveAssign_runs E (s i) (s j) w (hi j) (hkk i j)).mono ?_ ?_
    · rintro _ p w' ⟨-, -, -, -, h1, -, -, -, h2, -⟩ hx
      refine ⟨hx, ?_, fun _ => ?_⟩
      · show (contents (Sys.put (s.put i _) j _) i).Perm _
        rw [other _ _ _ _ hij, put]
        exact h1
      · show contents (Sys.put (s.put i _) j _) j = []
        rw [put]
        exact h2
    · rintro _ p w' ⟨-, -, -, -, h1, -, -, -, h2, -⟩ hx _
      refine ⟨hx, ?_, ?_⟩
      · show contents (Sys.put (s.put i _) j _) i = []
        rw [other _ _ _ _ hij, put]
        exact h1
      · show contents (Sys.put (s.put i _) j _) j = []
        rw [put]
        exact h2
  | swap i j =>
    cases hm
    simp only [Op.run, runs_ite]
    refine ⟨fun e hx => ⟨hx, by cases e; exact ⟨rfl, rfl⟩⟩, fun hij => ?_⟩
    unfold Sys.on2
    rw [runs_zoom]
    refine (swap_runs E (s i) (s j) w (hkk i j) (hp.resolve_left hij)).mono ?_ (fun _ _ _ h => h.elim)
    rintro _ p w' ⟨rfl, rfl⟩ hx
    refine ⟨hx, ?_, ?_⟩
    · show contents (Sys.put (s.put i _) j _) i = _
      rw [other _ _ _ _ hij, put]
      rfl
    · show contents (Sys.put (s.put i _) j _) j = _
      rw [put]
      rfl
  | insertColl i j f l =>
    obtain ⟨p, q, h1, h2, h3, rfl⟩ := hm
    simp only [Op.run, runs_bind, runs_get, runs_ite]
    refine ⟨fun e => absurd e hp.1, fun _ => on_r (on_refines ?_)⟩
    exact (insertColl_runs E hsub (s j) w (hi j) h1 h2 h3 (s i) w (hi i) (hkk j i)).mono (fun _ _ _ ⟨_, h⟩ => h.grown E (hi i))
      (fun _ _ _ h hp' => h.fails (hi i) ((hk i).trans hp') (Or.inr rfl))
  | insertLocalColl i j f l =>
    obtain ⟨t, a, b, h1, h2, h3, rfl⟩ := hm
    simp only [Op.run, runs_bind, runs_get, runs_ite]
    refine ⟨fun e => absurd e hp.1, fun _ => on_r (on_refines ?_)⟩
    exact (insertLocalColl_runs E hsub (s j) w (hi j) h1 h2 h3 (s i) w (hi i) (hkk j i)).mono (fun _ _ _ ⟨_, h⟩ => h.grown E (hi i))
      (fun _ _ _ h hp' => h.fails (hi i) ((hk i).trans hp') (Or.inr rfl))
  | insertHintColl i j h f l =>
    obtain ⟨x, p, q, hr, h1, h2, h3, rfl⟩ := hm
    obtain ⟨hij, -, -, hok⟩ := hp
    simp only [Op.run, runs_bind, runs_get, runs_ite]
    refine ⟨fun e => absurd e hij, fun _ => on_r (on_refines ?_)⟩
    rw [runs_drop]
    exact (insertHintColl_runs E hsub (s j) w (hi j) h1 h2 h3 h x (s i) w (hi i) (hkk j i) hr (hok.sub E between_types)).mono
      (fun _ _ _ ⟨_, h, _⟩ => h.grown E (hi i))
      (fun _ _ _ h hp' => h.fails (hi i) ((hk i).trans hp'.1) (Or.inl fun t ht => hp'.2 t (between_types t ht)))
  | insertHintLocalColl i j h f l =>
    obtain ⟨x, t, a, b, hr, h1, h2, h3, rfl⟩ := hm
    obtain ⟨hij, -, -, hok⟩ := hp
    have ht := latB_types E h1
    simp only [Op.run, runs_bind, runs_get, runs_ite]
    refine ⟨fun e => absurd e hij, fun _ => on_r (on_refines ?_)⟩
    rw [runs_drop]
    refine (insertHintLocalColl_runs E hsub (s j) w (hi j) h1 h2 h3 h x (s i) w (hi i) (hkk j i) hr (hok.sub E (by simpa using ht))).mono
      (fun _ _ _ ⟨_, h, _⟩ => h.grown E (hi i))
      (fun _ _ _ h hp' => h.fails (hi i) ((hk i).trans hp'.1) (Or.inl fun u hu => ?_))
    simp only [List.map_map, List.mem_map, Function.comp] at hu
    obtain ⟨_, -, rfl⟩ := hu
    exact hp'.2 _ ht

/-- A documented use of the collections of a program does what it means. -/
theorem run_refines {sub : Ty → TI} (hsub : ∀ t, E.tiTy (sub t) = t) (op : Op V) (s : Sys V) (w : World) (hs : SysHolds E k (fun _ => .sound) s w)
    (hp : op.Pre E s) (r : Request V) (hm : op.Means E s r) :
    Runs (op.run E k sub) s w (fun _ s' _ => r.Does (contents s) (contents s'))
      (fun _ s' _ => op.Strong E k s → r.Fails (contents s) (contents s')) := by
  have h1 := run_refines_at hsub op s w hs hp r hm
  have h2 := run_changes E sub op s w (hs.inv E)
  refine (h1.withLeaves h2).mono ?_ ?_
  · rintro _ s' w' ⟨h, hx⟩
    exact h fun x hx' => by unfold contents; rw [hx x (hm.concerns E ▸ hx')]
  · rintro _ s' w' ⟨h, hx⟩
    exact h fun x hx' => by unfold contents; rw [hx x (hm.concerns E ▸ hx')]

/-! ### The same for operations with hints that are not known to be defined -/

theorem op_refines_apt (op : COp V) (c : Coll V) (w : World) (hc : c.Inv E w) (hp : op.Apt E c) (ch : Change V) (hm : op.Means E c ch) :
    Leaves (op.run E) c w (fun _ c' _ => ch.Does c.abs c'.abs) (fun _ c' _ => op.Strong E c → ch.Fails c.abs c'.abs) := by
  by_cases hpre : op.Pre E c
  · exact (op_refines op c w hc hpre ch hm).leaves
  cases op with
  | emplaceHint hint t src =>
    obtain ⟨v, p, hv, hh, rfl⟩ := hm
    exact ((emplaceHint_ends E hint p t src v c w hc hv hh).drop.mono (fun _ _ _ ⟨_, h⟩ => h.1.does hc)
      (fun _ _ _ h hk => h.fails hc hk.1 (Or.inl hk.2)) id).leaves
  | insertHint hint a =>
    obtain ⟨v, p, hv, hh, rfl⟩ := hm
    exact ((insertHint_ends E hint p a v hp.1 c w hc hv hh).drop.mono (fun _ _ _ ⟨_, h⟩ => h.1.does hc)
      (fun _ _ _ h hk => left_fails (h.left hc hk.1 (Or.inl hk.2)) (by simp)) id).leaves
  | insertHintRange hint as =>
    obtain ⟨vs, p, hv, hh, rfl⟩ := hm
    have hlen : as.length = vs.length := by have := congrArg List.length hv; simpa using this
    exact ((insertHintRange_ends E as hint p vs c w hc hh hp.2 hv).drop.mono (fun _ _ _ ⟨_, ⟨_, h, _⟩, _⟩ => h.grown E hc)
      (fun _ _ _ h hk => h.fails hc hlen hk.1 (Or.inl hk.2)) id).leaves
  | insertHintRangeTerminal hint f t srcs =>
    obtain ⟨vs, p, hv, hh, rfl⟩ := hm
    have hlen : srcs.length = vs.length := by have := congrArg List.length hv; simpa using this
    by_cases hn : vs = []
    · subst hn
      have : srcs = [] := List.length_eq_zero_iff.1 hlen
      subst this
      exact (rfl : c.abs = c.abs)
    rw [if_neg hn]
    refine ((insertHintRangeTerminal_ends E hint p f t srcs vs c w hc hh hp.2 hv).mono ?_
      (fun _ _ _ h hk => left_fails (h.left hc ⟨hk.1, ?_⟩ (hlen ▸ hk.2.1)) hn) id).leaves
    rotate_left
    · unfold State.hintPos
      cases p with
      | none => rfl
      | some q =>
        simp only
        split
        · rename_i e; exact absurd (e ▸ hh) (hk.2.2 q.2)
        · rfl
    rintro _ c' w' (⟨h, -⟩ | ⟨-, h⟩)
    · exact absurd h hn
    · exact h.does hc
  | _ => exact absurd hp hpre

theorem on_refines_apt {α : Type} {i : Nat} {p : Prog (Coll V) α} {s : Sys V} {w : World} {ch : Change V} {S : Prop}
    (hp : Leaves p (s i) w (fun _ c' _ => ch.Does (s i).abs c'.abs) (fun _ c' _ => S → ch.Fails (s i).abs c'.abs)) :
    Leaves (Sys.on i p) s w (fun _ s' _ => ch.Does (contents s i) (contents s' i)) (fun _ s' _ => S → ch.Fails (contents s i) (contents s' i)) := by
  by_cases hu : p (s i) w = .ub
  · unfold Leaves Sys.on zoom
    rw [hu]
    trivial
  · refine (on_refines ?_).leaves
    unfold Leaves at hp
    unfold Runs
    split <;> simp_all

/-- Whatever use of the collections is defined, apart from hints, does what it means. -/
theorem run_refines_apt {sub : Ty → TI} (hsub : ∀ t, E.tiTy (sub t) = t) (op : Op V) (s : Sys V) (w : World) (hs : SysHolds E k (fun _ => .sound) s w)
    (hp : op.Apt E s) (r : Request V) (hm : op.Means E s r) :
    Leaves (op.run E k sub) s w (fun _ s' _ => r.Does (contents s) (contents s'))
      (fun _ s' _ => op.Strong E k s → r.Fails (contents s) (contents s')) := by
  by_cases hpre : op.Pre E s
  · exact (run_refines hsub op s w hs hpre r hm).leaves
  have hk : ∀ i, (s i).kind = k := fun i => (hs.1 i).kind E
  have hkk : ∀ i j, (s i).kind = (s j).kind := fun i j => (hk i).trans (hk j).symm
  have hi : ∀ i, (s i).Inv E w := fun i => (hs.sound E rfl).1
  have h2 := run_changes E sub op s w (hs.inv E)
  have on_r : ∀ {i : Nat} {ch : Change V} {S : Prop}, op.writes = [i] →
      Leaves (op.run E k sub) s w (fun _ s' _ => ch.Does (contents s i) (contents s' i)) (fun _ s' _ => S → ch.Fails (contents s i) (contents s' i)) →
      Leaves (op.run E k sub) s w (fun _ s' _ => (Request.on i ch).Does (contents s) (contents s'))
        (fun _ s' _ => S → (Request.on i ch).Fails (contents s) (contents s')) := by
    intro i ch S hw h
    refine (Leaves.both h h2).mono ?_ ?_
    · rintro _ s' w' ⟨h, hx⟩
      exact ⟨fun x hx' => by unfold contents; rw [hx x (hw ▸ hx')], h⟩
    · rintro _ s' w' ⟨h, hx⟩ hS
      exact ⟨fun x hx' => by unfold contents; rw [hx x (hw ▸ hx')], h hS⟩
  cases op with
  | on i op =>
    obtain ⟨ch, hm, rfl⟩ := hm
    exact on_r rfl (on_refines_apt (op_refines_apt op (s i) w (hi i) hp ch hm))
  | insertHintColl i j h f l =>
    obtain ⟨x, p, q, hr, h1, h2, h3, rfl⟩ := hm
    refine on_r rfl ?_
    simp only [Op.run, leaves_bind, leaves_get, leaves_ite]
    refine ⟨fun e => absurd e hp.1, fun _ => on_refines_apt ?_⟩
    obtain ⟨items, -, -, he⟩ := insertHintColl_ends E hsub (s j) w (hi j) h1 h2 h3 h x (s i) w (hi i) (hkk j i) hr
    exact (he.drop.mono (fun _ _ _ ⟨_, ⟨_, h, _⟩, _⟩ => h.grown E (hi i))
      (fun _ _ _ h hp' => h.fails (hi i) ((hk i).trans hp'.1) (Or.inl fun t ht => hp'.2 t (between_types t ht))) id).leaves
  | insertHintLocalColl i j h f l =>
    obtain ⟨x, t, a, b, hr, h1, h2, h3, rfl⟩ := hm
    have ht := latB_types E h1
    refine on_r rfl ?_
    simp only [Op.run, leaves_bind, leaves_get, leaves_ite]
    refine ⟨fun e => absurd e hp.1, fun _ => on_refines_apt ?_⟩
    refine ((insertHintLocalColl_ends E hsub (s j) w (hi j) h1 h2 h3 h x (s i) w (hi i) (hkk j i) hr).drop.mono
      (fun _ _ _ ⟨_, _, h, _⟩ => h.grown E (hi i))
      (fun _ _ _ h hp' => h.fails (hi i) ((hk i).trans hp'.1) (Or.inl fun u hu => ?_)) id).leaves
    simp only [List.map_map, List.mem_map, Function.comp] at hu
    obtain ⟨_, -, rfl⟩ := hu
    exact hp'.2 _ ht
  | _ => exact absurd hp hpre

variable (E k) in
/-- A program that uses its collections as documented, and the requests it made with their outcomes
(`true`: carried out; `false`: an exception was thrown, by an operation that is `Strong`). -/
inductive Uses (sub : Ty → TI) : List (Request V × Bool) → Sys V → World → Prop where
  | start (al : Nat → Alloc) (w : World) (hw : 0 < w.next) : Uses sub [] (fun i => Coll.empty' k (al i)) w
  | ok {l : List (Request V × Bool)} {s s' : Sys V} {w w' : World} (h : Uses sub l s w) (op : Op V) (r : Request V) (hp : op.Apt E s)
      (hm : op.Means E s r) (hr : op.run E k sub s w = .ok () s' w') : Uses sub (l ++ [(r, true)]) s' w'
  | exc {l : List (Request V × Bool)} {s s' : Sys V} {w w' : World} {e : Exc} (h : Uses sub l s w) (op : Op V) (r : Request V) (hp : op.Apt E s)
      (hs : op.Strong E k s) (hm : op.Means E s r) (hr : op.run E k sub s w = .exc e s' w') : Uses sub (l ++ [(r, false)]) s' w'

theorem mark_all (l : List Nat) : Health.mark (fun _ => Health.sound) l .sound = fun _ => .sound := by
  funext x; unfold Health.mark; split <;> rfl

theorem uses_good {sub : Ty → TI} {l : List (Request V × Bool)} {s : Sys V} {w : World} (h : Uses E k sub l s w) :
    GoodReach E k sub (fun _ => .sound) s w := by
  induction h with
  | start al w hw => exact .start al w hw
  | ok h op r hp hm hr ih => have := GoodReach.ok ih op (fun _ _ => rfl) hp hr; rw [mark_all] at this; exact this
  | exc h op r hp hs hm hr ih => have := GoodReach.exc ih op (fun _ _ => rfl) hp hs hr; rw [mark_all] at this; exact this

/-- A program behaves like the abstract machine. -/
theorem uses_trace {sub : Ty → TI} (hsub : ∀ t, E.tiTy (sub t) = t) {l : List (Request V × Bool)} {s : Sys V} {w : World} (h : Uses E k sub l s w) :
    Trace l (contents s) := by
  induction h with
  | start al w hw => exact .start
  | ok h op r hp hm hr ih => exact .ok ih r (leaves_ok (run_refines_apt hsub op _ _ (goodReach_inv E hsub (uses_good h)) hp r hm) hr)
  | exc h op r hp hs hm hr ih => exact .exc ih r (leaves_exc (run_refines_apt hsub op _ _ (goodReach_inv E hsub (uses_good h)) hp r hm) hr hs)

end Coll
end PolyColl
