import Verif.Lemmas.CollPos
/-! # Insertion of ranges -/

namespace PolyColl
open Prog

namespace Coll
variable {V : Type} (E : Env V)

theorem abs_nodup {c : Coll V} {w : World} (h : c.map.Inv E c.kind w) : c.abs.types.Nodup := by
  simp only [Coll.abs, TMap.abs_types]; exact h.nodup_ty E

theorem Inserted.grown {c c' : Coll V} {w w' : World} {t : Ty} {vs : List V} (pos : Ty → Nat) (h : Inserted E c w t (pos t) vs c' w')
    (hc : c.map.Inv E c.kind w) (hv : vs ≠ []) : Spec.State.Grown pos (vs.map fun v => (t, v)) c.abs c'.abs := by
  obtain ⟨s, h1, h2⟩ := h.abs E hc
  rw [h2]
  exact h1.grown (abs_nodup E hc) hv

/-- The elements of `l` are inserted one by one: before position `p` if it is in their segment
(the position moving along), at the end of their segment otherwise. -/
inductive Adds : Coll V → World → Spec.State.Pos → List (Ty × V) → Coll V → World → Spec.State.Pos → Prop where
  | nil (c w p) : Adds c w p [] c w p
  | cons {c w p t v l c1 w1 c' w' p'} (h : Inserted E c w t (c.abs.hintPos t p) [v] c1 w1)
      (rest : Adds c1 w1 (Spec.State.bump t p) l c' w' p') : Adds c w p ((t, v) :: l) c' w' p'

theorem Adds.inv {c c' : Coll V} {w w' : World} {p p' : Spec.State.Pos} {l : List (Ty × V)} (h : Adds E c w p l c' w' p')
    (hc : c.Inv E w) : c'.Inv E w' := by
  induction h with
  | nil => exact hc
  | cons h _ ih => exact ih (h.inv E hc)

theorem Adds.kind {c c' : Coll V} {w w' : World} {p p' : Spec.State.Pos} {l : List (Ty × V)} (h : Adds E c w p l c' w' p') :
    c'.kind = c.kind := by
  induction h with
  | nil => rfl
  | cons h _ ih => exact ih.trans (h.kind E)

theorem Adds.append {c c1 c' : Coll V} {w w1 w' : World} {p p1 p' : Spec.State.Pos} {l l' : List (Ty × V)}
    (h : Adds E c w p l c1 w1 p1) (h' : Adds E c1 w1 p1 l' c' w' p') : Adds E c w p (l ++ l') c' w' p' := by
  induction h with
  | nil => exact h'
  | cons h _ ih => exact .cons h (ih h')

theorem hintPos_bump {s s1 : Spec.State V} {t : Ty} {v : V} {p : Spec.State.Pos}
    (h : Spec.State.Grown (fun t => s.hintPos t p) [(t, v)] s s1) (hp : s.hintPos t p ≤ (s.elemsOf t).length) :
    s1.hintPos t (Spec.State.bump t p) = s.hintPos t p + 1 ∧ ∀ u, u ≠ t → s1.hintPos u (Spec.State.bump t p) = s.hintPos u p := by
  have hlen : ∀ u, (s1.elemsOf u).length = (s.elemsOf u).length + if u = t then 1 else 0 := by
    intro u
    rw [h.elems]
    by_cases e : u = t
    · subst e
      simp only [List.filter_cons, decide_true, if_true, List.filter_nil, List.map_cons, List.map_nil, List.length_append,
        List.length_take, List.length_drop, List.length_singleton]
      omega
    · have e' : ¬ t = u := fun h => e h.symm
      simp [e, e']
  unfold Spec.State.hintPos Spec.State.bump
  cases p with
  | none =>
    simp only
    exact ⟨by rw [hlen]; simp, fun u hu => by rw [hlen]; simp [hu]⟩
  | some q =>
    obtain ⟨u, k⟩ := q
    simp only
    refine ⟨?_, fun x hx => ?_⟩
    · by_cases e : u = t
      · simp [e]
      · simp [e, hlen]
    · by_cases e : u = x
      · subst e; simp [hx]
      · simp [e, hlen, hx]

theorem Adds.grown {c c' : Coll V} {w w' : World} {p p' : Spec.State.Pos} {l : List (Ty × V)} (h : Adds E c w p l c' w' p')
    (hc : c.Inv E w) : Spec.State.Grown (fun t => c.abs.hintPos t p) l c.abs c'.abs := by
  induction h with
  | nil => exact .nil _
  | @cons c w p t v l c1 w1 c' w' p' h _ ih =>
    have hg := h.grown E (fun t => c.abs.hintPos t p) hc.map (by simp)
    have hb := hintPos_bump hg (h.le E hc.map)
    exact .cons hg (ih (h.inv E hc)) (h.le E hc.map) hb.1 hb.2

theorem Adds.appended {c c' : Coll V} {w w' : World} {p' : Spec.State.Pos} {l : List (Ty × V)} (h : Adds E c w none l c' w' p')
    (hc : c.Inv E w) : Spec.State.Appended l c.abs c'.abs := h.grown E hc

theorem Inserted.types {c c' : Coll V} {w w' : World} {t : Ty} {k : Nat} {vs : List V} (h : Inserted E c w t k vs c' w')
    (hc : c.map.Inv E c.kind w) (u : Ty) : u ∈ c'.abs.types ↔ u ∈ c.abs.types ∨ u = t := by
  obtain ⟨s, h1, h2⟩ := h.abs E hc
  rw [h2]
  unfold Spec.State.insertAt
  rw [Spec.State.update_types, h1.types]

/-! ### Without hint -/

/-- The typed elements of a range. -/
def typed (E : Env V) (as : List (Arg V)) (vs : List V) : List (Ty × V) := (as.zip vs).map fun p => (E.tiTy p.1.dyn, p.2)

/-- What a failed range insertion leaves: a prefix is in, and the insertion of the next element failed. -/
def SeqFail (c : Coll V) (w : World) (p : Spec.State.Pos) (as : List (Arg V)) (vs : List V) (e : Exc) (c' : Coll V) (w' : World) : Prop :=
  ∃ j c1 w1 p1 a, as[j]? = some a ∧ Adds E c w p ((typed E as vs).take j) c1 w1 p1 ∧
    ArgFail E c1 w1 a (c1.abs.hintPos (E.tiTy a.dyn) p1) e c' w'

theorem SeqFail.cons {c c1 c' : Coll V} {w w1 w' : World} {p : Spec.State.Pos} {a : Arg V} {as : List (Arg V)} {v : V} {vs : List V} {e : Exc}
    (h : Inserted E c w (E.tiTy a.dyn) (c.abs.hintPos (E.tiTy a.dyn) p) [v] c1 w1)
    (hr : SeqFail E c1 w1 (Spec.State.bump (E.tiTy a.dyn) p) as vs e c' w') : SeqFail E c w p (a :: as) (v :: vs) e c' w' := by
  obtain ⟨j, c2, w2, p2, b, h1, h2, h3⟩ := hr
  exact ⟨j + 1, c2, w2, p2, b, h1, .cons h h2, h3⟩

theorem SeqFail.head {c c' : Coll V} {w w' : World} {p : Spec.State.Pos} {a : Arg V} {as : List (Arg V)} {vs : List V} {e : Exc}
    (h : ArgFail E c w a (c.abs.hintPos (E.tiTy a.dyn) p) e c' w') : SeqFail E c w p (a :: as) vs e c' w' :=
  ⟨0, c, w, p, a, rfl, .nil _ _ _, h⟩

theorem insertRange_runs (as : List (Arg V)) : ∀ (vs : List V) (c : Coll V) (w : World), c.Inv E w →
    (∀ a ∈ as, Arg.OK E a ∧ a.src.ext = true) → as.map (fun a => a.src.val Vec.nil) = vs.map some →
    Runs (insertRange E as) c w (fun _ c' w' => ∃ p', Adds E c w none (typed E as vs) c' w' p') (SeqFail E c w none as vs) := by
  induction as with
  | nil =>
    intro vs c w hc ha hv
    have : vs = [] := by simpa using hv.symm
    subst this
    exact ⟨none, .nil _ _ _⟩
  | cons a as ih =>
    intro vs c w hc ha hv
    cases vs with
    | nil => simp at hv
    | cons v vs =>
    simp only [List.map_cons, List.cons.injEq] at hv
    obtain ⟨h1, h2⟩ := ha a (by simp)
    unfold insertRange
    rw [runs_bind]
    refine (insert_runs E a v h1 c w hc (Or.inl ⟨h2, hv.1⟩)).mono ?_ ?_
    · rintro it c1 w1 ⟨b1, b2, b3⟩
      refine (ih vs c1 w1 (b1.inv E hc) (fun b hb => ha b (by simp [hb])) hv.2).mono ?_ ?_
      · rintro _ c' w' ⟨p', d⟩
        exact ⟨p', .cons b1 d⟩
      · intro e c' w' d
        exact d.cons E b1
    · intro e c' w' d
      exact SeqFail.head E d

/-- What a failed insertion of a range of elements of one type leaves. -/
inductive TermFail (c : Coll V) (w : World) (t : Ty) (fwd copies : Prop) (m : Nat) (e : Exc) : Coll V → World → Prop where
  | reg {c' : Coll V} {w' : World} (h : EnsFail E c w t e c' w') : TermFail c w t fwd copies m e c' w'
  | seg {c1 : Coll V} {w1 : World} {n : Node V} {s : Seg V} {w' : World} (ens : Ens E c w t n c1 w1)
      (h : Seg.FailRange E n.seg w1 fwd copies m e s w') : TermFail c w t fwd copies m e (c1.put n s) w'

theorem insertRangeTerminal_runs (fwd : Bool) (t : TI) (srcs : List (Src V)) (vs : List V) (c : Coll V) (w : World) (hc : c.Inv E w)
    (hext : ∀ src ∈ srcs, src.ext = true) (hv : srcs.map (Src.val Vec.nil) = vs.map some) :
    Runs (insertRangeTerminal E fwd t srcs) c w
      (fun _ c' w' => vs = [] ∧ c' = c ∧ w' = w ∨
        vs ≠ [] ∧ Inserted E c w (E.tiTy t) (c.abs.elemsOf (E.tiTy t)).length vs c' w')
      (TermFail E c w (E.tiTy t) (fwd = true) (∃ src ∈ srcs, src.copies) vs.length) := by
  have hlen : srcs.length = vs.length := by have := congrArg List.length hv; simpa using this
  unfold insertRangeTerminal
  rw [runs_ite]
  refine ⟨fun h0 => Or.inl ⟨?_, rfl, rfl⟩, fun h0 => ?_⟩
  · subst h0; exact List.length_eq_zero_iff.1 hlen.symm
  · rw [runs_bind]
    refine (forT_runs E t c w hc.map).mono ?_ (fun _ _ _ h => .reg h)
    rintro it c1 w1 ⟨n, ens, hr⟩
    have hg := ens.good E (stable_inv E) hc
    rw [runs_bind, runs_onSeg E ens.inv.ids hr, runs_downcast ens.ty]
    have hv' : srcs.map (Src.val n.seg.be.store) = vs.map some := by
      rw [← hv]; exact List.map_congr_left (fun a ha => val_ext (hext a ha) _ _)
    refine (Seg.insertRangeEnd_runs E fwd n.seg w1 (hg.mem.segs n ens.mem).core srcs vs hext hv').mono ?_ ?_
    · rintro _ s w' ⟨b1, -⟩
      refine Or.inr ⟨fun e => ?_, ?_⟩
      · rw [e] at hlen; exact h0 (List.length_eq_zero_iff.1 hlen)
      · rw [← ens.elems E hc.map]
        exact ⟨ens, b1, Nat.le_refl _⟩
    · rintro e s w' h
      exact .seg ens h

/-- The elements of items, with their types. -/
def typedItems (E : Env V) (xs : List (Item V)) : List (Ty × V) := xs.map fun x => (E.tiTy x.id, x.val)

/-- What a failed insertion from another collection leaves. -/
def FromFail (c : Coll V) (w : World) (p : Spec.State.Pos) (l : List (Ty × V)) (e : Exc) (c' : Coll V) (w' : World) : Prop :=
  ∃ j c1 w1 p1 t v, l[j]? = some (t, v) ∧ Adds E c w p (l.take j) c1 w1 p1 ∧ InsFail E c1 w1 t (c1.abs.hintPos t p1) True e c' w'

theorem FromFail.cons {c c1 c' : Coll V} {w w1 w' : World} {p : Spec.State.Pos} {t : Ty} {v : V} {l : List (Ty × V)} {e : Exc}
    (h : Inserted E c w t (c.abs.hintPos t p) [v] c1 w1)
    (hr : FromFail E c1 w1 (Spec.State.bump t p) l e c' w') : FromFail E c w p ((t, v) :: l) e c' w' := by
  obtain ⟨j, c2, w2, p2, u, x, h1, h2, h3⟩ := hr
  exact ⟨j + 1, c2, w2, p2, u, x, h1, .cons h h2, h3⟩

theorem FromFail.head {c c' : Coll V} {w w' : World} {p : Spec.State.Pos} {t : Ty} {v : V} {l : List (Ty × V)} {e : Exc}
    (h : InsFail E c w t (c.abs.hintPos t p) True e c' w') : FromFail E c w p ((t, v) :: l) e c' w' :=
  ⟨0, c, w, p, t, v, rfl, .nil _ _ _, h⟩

theorem InsFail.mono {c c' : Coll V} {w w' : World} {t : Ty} {k : Nat} {p q : Prop} {e : Exc} (h : InsFail E c w t k p e c' w') (hpq : p → q) :
    InsFail E c w t k q e c' w' := by
  cases h with
  | reg h => exact .reg h
  | seg ens h hk => exact .seg ens (Fail.mono E h hpq) hk

theorem insertFrom_runs (xs : List (Item V)) : ∀ (c : Coll V) (w : World), c.Inv E w →
    (∀ x ∈ xs, x.proto.kind = c.kind ∧ x.proto.ty = E.tiTy x.id) →
    Runs (insertFrom E xs) c w (fun _ c' w' => ∃ p', Adds E c w none (typedItems E xs) c' w' p')
      (FromFail E c w none (typedItems E xs)) := by
  induction xs with
  | nil => intro c w hc hx; exact ⟨none, .nil _ _ _⟩
  | cons x xs ih =>
    intro c w hc hx
    obtain ⟨h1, h2⟩ := hx x (by simp)
    unfold insertFrom
    rw [runs_bind]
    refine (forProto_runs E x.id x.proto c w hc.map h1 h2).mono ?_ (fun _ _ _ h => FromFail.head E (.reg h))
    rintro it c1 w1 ⟨n, ens, hr⟩
    rw [runs_bind]
    refine (append_runs E (.copyExt x.val) x.val hc (Or.inl ⟨rfl, rfl⟩) ens hr).mono ?_ ?_
    · rintro q c2 w2 ⟨s, rfl, b1, -⟩
      have hins : Inserted E c w (E.tiTy x.id) (c.abs.hintPos (E.tiTy x.id) none) [x.val] (c1.put n s) w2 := by
        show Inserted E c w (E.tiTy x.id) (c.abs.elemsOf (E.tiTy x.id)).length [x.val] (c1.put n s) w2
        rw [← ens.elems E hc.map]
        exact ⟨ens, b1, Nat.le_refl _⟩
      refine (ih _ _ (hins.inv E hc) (fun y hy => ?_)).mono ?_ ?_
      · rw [hins.kind E]; exact hx y (by simp [hy])
      · rintro _ c' w' ⟨p', d⟩
        exact ⟨p', .cons hins d⟩
      · intro e c' w' d
        exact d.cons E hins
    · intro e c' w' d
      exact FromFail.head E (d.mono E (fun _ => trivial))

/-- Append copies of values to a segment that exists. -/
theorem appendLoop_runs (it : MapIt) (t : Ty) (vs : List V) : ∀ (c : Coll V) (w : World) (n : Node V), c.Inv E w →
    c.map.Ref it n → n.seg.ty = t →
    Runs (Prog.each (fun v => do
      let _ ← onMap (TMap.onSeg E it (downcast t (Seg.pushBack E (.copyExt v))))) vs) c w
      (fun _ c' w' => ∃ p', Adds E c w none (vs.map fun v => (t, v)) c' w' p')
      (FromFail E c w none (vs.map fun v => (t, v))) := by
  induction vs with
  | nil => intro c w n hc hr ht; exact ⟨none, .nil _ _ _⟩
  | cons v vs ih =>
    intro c w n hc hr ht
    subst ht
    rw [runs_each_cons, runs_bind]
    have ens := Ens.refl E hc.map hr.mem
    refine (append_runs E (.copyExt v) v hc (Or.inl ⟨rfl, rfl⟩) ens hr).mono ?_ ?_
    · rintro q c2 w2 ⟨s, rfl, b1, -⟩
      have hins : Inserted E c w n.seg.ty (c.abs.hintPos n.seg.ty none) [v] (c.put n s) w2 := by
        show Inserted E c w n.seg.ty (c.abs.elemsOf n.seg.ty).length [v] (c.put n s) w2
        rw [← ens.elems E hc.map]
        exact ⟨ens, b1, Nat.le_refl _⟩
      refine (ih _ _ _ (hins.inv E hc) (TMap.put_ref_self hr) b1.step.ty).mono ?_ ?_
      · rintro _ c' w' ⟨p', d⟩
        exact ⟨p', .cons hins d⟩
      · intro e c' w' d
        exact d.cons E hins
    · intro e c' w' d
      exact FromFail.head E (d.mono E (fun _ => trivial))

theorem Ens.trans {c c1 c2 : Coll V} {w w1 w2 : World} {t : Ty} {n n2 : Node V} (ens : Ens E c w t n c1 w1)
    (ens2 : Ens E c1 w1 t n2 c2 w2) : n2 = n ∧ Ens E c w t n c2 w2 := by
  obtain ⟨hs, hn2⟩ := ens2.old E ens.inv (ens.ty ▸ mem_types ens.mem)
  have hn : n2 = n := eq_of_nodup (ens.inv.nodup_ty E) hn2 ens.mem (ens2.ty.trans ens.ty.symm)
  refine ⟨hn, ens2.inv, ens2.kind.trans ens.kind, ens.added.congr E hs, ?_, ens.ty, Nat.le_trans ens.next ens2.next⟩
  rcases ens.seg with h | h
  · exact Or.inl h
  · exact Or.inr (h.weaken E ens2.next)

/-- Insertion into a collection that differs by registration of the type only. -/
theorem Inserted.of_ens {c c1 c' : Coll V} {w w1 w' : World} {t : Ty} {n : Node V} {k : Nat} {vs : List V} (ens : Ens E c w t n c1 w1)
    (h : Inserted E c1 w1 t k vs c' w') : Inserted E c w t k vs c' w' := by
  obtain ⟨ens2, ins, hk⟩ := h
  obtain ⟨rfl, h2⟩ := ens.trans E ens2
  exact .mk h2 ins hk

theorem InsFail.of_ens {c c1 c' : Coll V} {w w1 w' : World} {t : Ty} {n : Node V} {k : Nat} {copies : Prop} {e : Exc} (ens : Ens E c w t n c1 w1)
    (h : InsFail E c1 w1 t k copies e c' w') : InsFail E c w t k copies e c' w' := by
  cases h with
  | reg h =>
    refine .reg ⟨h.exc, h.kind.trans ens.kind, h.inv, Nat.le_trans ens.next h.next, Or.inr ?_⟩
    rcases h.nodes with h1 | ⟨n2, h1⟩
    · refine ⟨n, h.inv, h.kind.trans ens.kind, ens.added.congr E h1, ?_, ens.ty, Nat.le_trans ens.next h.next⟩
      rcases ens.seg with h2 | h2
      · exact Or.inl h2
      · exact Or.inr (h2.weaken E h.next)
    · exact ⟨n, (ens.trans E h1).2⟩
  | seg ens2 h hk =>
    obtain ⟨rfl, h2⟩ := ens.trans E ens2
    exact .seg h2 h hk

theorem hintPos_ens {c c1 : Coll V} {w w1 : World} {t : Ty} {n : Node V} (hc : c.map.Inv E c.kind w) (ens : Ens E c w t n c1 w1)
    (u : Ty) (p : Spec.State.Pos) : c1.abs.hintPos u p = c.abs.hintPos u p := by
  have := (ens.abs E hc).elemsOf (abs_nodup E hc) u
  cases p <;> simp [Spec.State.hintPos, this]

theorem Adds.of_ens {c c1 c' : Coll V} {w w1 w' : World} {t : Ty} {n : Node V} {v : V} {l : List (Ty × V)} {p p' : Spec.State.Pos}
    (hc : c.map.Inv E c.kind w) (ens : Ens E c w t n c1 w1) (h : Adds E c1 w1 p ((t, v) :: l) c' w' p') : Adds E c w p ((t, v) :: l) c' w' p' := by
  cases h with
  | cons h rest =>
    rw [hintPos_ens E hc ens] at h
    exact .cons (h.of_ens E ens) rest

theorem FromFail.of_ens {c c1 c' : Coll V} {w w1 w' : World} {t : Ty} {n : Node V} {v : V} {l : List (Ty × V)} {p : Spec.State.Pos} {e : Exc}
    (hc : c.map.Inv E c.kind w) (ens : Ens E c w t n c1 w1) (h : FromFail E c1 w1 p ((t, v) :: l) e c' w') : FromFail E c w p ((t, v) :: l) e c' w' := by
  obtain ⟨j, c2, w2, p2, u, x, h1, h2, h3⟩ := h
  cases j with
  | zero =>
    simp only [List.take_zero] at h2
    cases h2
    simp only [List.getElem?_cons_zero, Option.some.injEq, Prod.mk.injEq] at h1
    obtain ⟨rfl, rfl⟩ := h1
    rw [hintPos_ens E hc ens] at h3
    exact ⟨0, c, w, p, t, v, rfl, .nil _ _ _, h3.of_ens E ens⟩
  | succ j => exact ⟨j + 1, c2, w2, p2, u, x, h1, Adds.of_ens E hc ens h2, h3⟩

theorem insertFromLocal_runs (id : TI) (proto : Seg V) (vals : List V) (c : Coll V) (w : World) (hc : c.Inv E w)
    (hk : proto.kind = c.kind) (ht : proto.ty = E.tiTy id) :
    Runs (insertFromLocal E id proto vals) c w
      (fun _ c' w' => ∃ p', Adds E c w none (vals.map fun v => (E.tiTy id, v)) c' w' p')
      (FromFail E c w none (vals.map fun v => (E.tiTy id, v))) := by
  unfold insertFromLocal
  cases vals with
  | nil => exact ⟨none, .nil _ _ _⟩
  | cons v vs =>
    rw [if_neg (by simp), runs_bind]
    refine (forProto_runs E id proto c w hc.map hk ht).mono ?_ (fun _ _ _ h => FromFail.head E (.reg h))
    rintro it c1 w1 ⟨n, ens, hr⟩
    refine (appendLoop_runs E it (E.tiTy id) (v :: vs) c1 w1 n (ens.good E (stable_inv E) hc) hr ens.ty).mono ?_ ?_
    · rintro _ c' w' ⟨p', d⟩
      exact ⟨p', Adds.of_ens E hc.map ens d⟩
    · intro e c' w' d
      exact FromFail.of_ens E hc.map ens d

/-! ### With hint -/

/-- One round of a hinted insertion loop. -/
theorem hintStep_runs {c c1 : Coll V} {w w1 : World} {t : Ty} {n : Node V} {it : MapIt} (hint : GIter) (p : Spec.State.Pos)
    (src : Src V) (v : V) (hc : c.Inv E w) (hs : c.SrcFor t src v) (ens : Ens E c w t n c1 w1) (hr : c1.map.Ref it n)
    (hh : c1.At E hint p) :
    Runs (hintStep E hint it t src) c1 w1
      (fun h c' w' => Inserted E c w t (c.abs.hintPos t p) [v] c' w' ∧ c'.At E h (Spec.State.bump t p) ∧
        ∃ n', c'.map.Ref it n' ∧ n'.seg.ty = t)
      (InsFail E c w t (c.abs.hintPos t p) src.copies) := by
  have hg := ens.good E (stable_inv E) hc
  obtain ⟨h1, h2, h3⟩ := hint_same E ens.inv hr hh
  have hlen : n.seg.size = (c.abs.elemsOf t).length := by rw [← ens.elems E hc.map]; rfl
  unfold hintStep
  simp only [runs_bind, runs_get, h1, runs_some, decide_eq_true_eq]
  rw [runs_ite]
  refine ⟨fun hd => ?_, fun hd => ?_⟩
  · obtain ⟨k, rfl, hk, hp⟩ := h3 hd
    have hpos : c.abs.hintPos t (some (n.seg.ty, k)) = k := by simp [Spec.State.hintPos, ens.ty]
    rw [hpos, runs_bind, runs_onSeg E ens.inv.ids hr, runs_downcast ens.ty, hp]
    refine (Seg.insertBase_runs E n.seg w1 (hg.mem.segs n ens.mem).core k (Nat.le_of_lt hk) src v (hs.ok E hc.map ens)).mono ?_ ?_
    · rintro r s w' ⟨a1, rfl, a3⟩
      have hins : Inserted E c w t k [v] (c1.put n s) w' := ⟨ens, a1, Nat.le_of_lt hk⟩
      have hi := hins.inv E hc
      have hu' := put_use_self E (s := s) (hr.use E)
      have hsz := a1.size E
      simp only [List.length_singleton] at hsz
      rw [runs_bind]
      refine (retIter_runs E hi hu' (k := k) (show k ≤ s.size by omega)).mono ?_ (fun _ _ _ h => h)
      rintro g c' w'' ⟨rfl, rfl, hat⟩
      rw [norm_node E hi hu'.mem, if_pos (show k < s.size by omega)] at hat
      obtain ⟨g', e1, e2⟩ := increment_at E hi hat
      rw [norm_node E hi hu'.mem, if_pos (show k + 1 < s.size by omega)] at e2
      simp only [runs_bind, runs_get, e1, runs_some]
      refine ⟨hins, ?_, _, TMap.put_ref_self hr, a1.step.ty.trans ens.ty⟩
      simp only [Spec.State.bump, ens.ty, if_true]
      have hst : s.ty = t := a1.step.ty.trans ens.ty
      rw [← hst]
      exact e2
    · rintro e s w' h
      exact .seg ens (by rw [← ens.ty]; exact h) (Nat.le_of_lt hk)
  · have hpos : c.abs.hintPos t p = (c.abs.elemsOf t).length := by
      unfold Spec.State.hintPos
      cases p with
      | none => rfl
      | some q =>
        simp only
        split
        · rename_i e
          exact absurd (h2.2 ⟨q.2, by rw [ens.ty, ← e]⟩) hd
        · rfl
    have hbump : Spec.State.bump t p = p := by
      unfold Spec.State.bump
      cases p with
      | none => rfl
      | some q =>
        simp only
        split
        · rename_i e
          exact absurd (h2.2 ⟨q.2, by rw [ens.ty, ← e]⟩) hd
        · rfl
    rw [hpos, hbump, runs_bind]
    refine (append_runs E src v hc hs ens hr).mono ?_ (fun _ _ _ h => h)
    rintro r c' w' ⟨s, rfl, a1, rfl, -⟩
    refine ⟨?_, ?_, _, TMap.put_ref_self hr, a1.step.ty.trans ens.ty⟩
    · rw [← ens.elems E hc.map]
      exact ⟨ens, a1, Nat.le_refl _⟩
    · refine put_at E ens.inv ens.mem a1.step.ty hh ?_
      intro k e
      exact absurd (h2.2 ⟨k, e⟩) hd

/-- Hints survive as long as no segment is created, or rehashing is harmless. -/
def HintOK (c : Coll V) (ts : List Ty) : Prop := E.strictRehash = false ∨ ∀ t ∈ ts, t ∈ c.abs.types

theorem HintOK.next {c c' : Coll V} {w w' : World} {t : Ty} {ts : List Ty} {k : Nat} {vs : List V} (h : HintOK E c (t :: ts))
    (hc : c.map.Inv E c.kind w) (hi : Inserted E c w t k vs c' w') : HintOK E c' ts :=
  h.imp id (fun h u hu => (hi.types E hc u).2 (Or.inl (h u (by simp [hu]))))

theorem HintOK.head {c : Coll V} {t : Ty} {ts : List Ty} (h : HintOK E c (t :: ts)) : E.strictRehash = false ∨ t ∈ c.abs.types :=
  h.imp id (fun h => h t (by simp))

theorem insertHintRange_runs (as : List (Arg V)) : ∀ (hint : GIter) (p : Spec.State.Pos) (vs : List V) (c : Coll V) (w : World), c.Inv E w →
    c.At E hint p → HintOK E c (as.map fun a => E.tiTy a.dyn) →
    (∀ a ∈ as, Arg.OK E a ∧ a.src.ext = true) → as.map (fun a => a.src.val Vec.nil) = vs.map some →
    Runs (insertHintRange E hint as) c w
      (fun h c' w' => ∃ p', Adds E c w p (typed E as vs) c' w' p' ∧ c'.At E h p') (SeqFail E c w p as vs) := by
  induction as with
  | nil =>
    intro hint p vs c w hc hh hok ha hv
    have : vs = [] := by simpa using hv.symm
    subst this
    exact ⟨p, .nil _ _ _, hh⟩
  | cons a as ih =>
    intro hint p vs c w hc hh hok ha hv
    cases vs with
    | nil => simp at hv
    | cons v vs =>
    simp only [List.map_cons, List.cons.injEq] at hv hok
    obtain ⟨h1, h2⟩ := ha a (by simp)
    unfold insertHintRange
    rw [runs_bind]
    refine (forArg_runs E a h1 c w hc.map).mono ?_ (fun _ _ _ h => SeqFail.head E (h.imp .reg id))
    rintro it c1 w1 ⟨n, ens, href, hreg⟩
    rw [runs_bind]
    refine (hintStep_runs E hint p a.src v hc (Or.inl ⟨h2, hv.1⟩) ens href (ens.at E hc.map (hok.head E) hh)).mono ?_ ?_
    · rintro h c2 w2 ⟨b1, b2, -⟩
      refine (ih h _ vs c2 w2 (b1.inv E hc) b2 (hok.next E hc.map b1) (fun b hb => ha b (by simp [hb])) hv.2).mono ?_ ?_
      · rintro h' c' w' ⟨p', d, d'⟩
        exact ⟨p', .cons b1 d, d'⟩
      · intro e c' w' d
        exact d.cons E b1
    · intro e c' w' d
      exact SeqFail.head E (Or.inl d)

theorem insertHintFrom_runs (xs : List (Item V)) : ∀ (hint : GIter) (p : Spec.State.Pos) (c : Coll V) (w : World), c.Inv E w →
    c.At E hint p → HintOK E c (xs.map fun x => E.tiTy x.id) →
    (∀ x ∈ xs, x.proto.kind = c.kind ∧ x.proto.ty = E.tiTy x.id) →
    Runs (insertHintFrom E hint xs) c w
      (fun h c' w' => ∃ p', Adds E c w p (typedItems E xs) c' w' p' ∧ c'.At E h p') (FromFail E c w p (typedItems E xs)) := by
  induction xs with
  | nil => intro hint p c w hc hh hok hx; exact ⟨p, .nil _ _ _, hh⟩
  | cons x xs ih =>
    intro hint p c w hc hh hok hx
    obtain ⟨h1, h2⟩ := hx x (by simp)
    simp only [List.map_cons] at hok
    unfold insertHintFrom
    rw [runs_bind]
    refine (forProto_runs E x.id x.proto c w hc.map h1 h2).mono ?_ (fun _ _ _ h => FromFail.head E (.reg h))
    rintro it c1 w1 ⟨n, ens, hr⟩
    rw [runs_bind]
    refine (hintStep_runs E hint p (.copyExt x.val) x.val hc (Or.inl ⟨rfl, rfl⟩) ens hr (ens.at E hc.map (hok.head E) hh)).mono ?_ ?_
    · rintro h c2 w2 ⟨b1, b2, -⟩
      refine (ih h _ c2 w2 (b1.inv E hc) b2 (hok.next E hc.map b1) (fun y hy => ?_)).mono ?_ ?_
      · rw [b1.kind E]; exact hx y (by simp [hy])
      · rintro h' c' w' ⟨p', d, d'⟩
        exact ⟨p', .cons b1 d, d'⟩
      · intro e c' w' d
        exact d.cons E b1
    · intro e c' w' d
      exact FromFail.head E (d.mono E (fun _ => trivial))

theorem hintLoop_runs (it : MapIt) (t : Ty) (vs : List V) : ∀ (hint : GIter) (p : Spec.State.Pos) (c : Coll V) (w : World) (n : Node V), c.Inv E w →
    c.At E hint p → c.map.Ref it n → n.seg.ty = t →
    Runs (hintLoop E hint it t vs) c w
      (fun h c' w' => ∃ p', Adds E c w p (vs.map fun v => (t, v)) c' w' p' ∧ c'.At E h p')
      (FromFail E c w p (vs.map fun v => (t, v))) := by
  induction vs with
  | nil => intro hint p c w n hc hh hr ht; exact ⟨p, .nil _ _ _, hh⟩
  | cons v vs ih =>
    intro hint p c w n hc hh hr ht
    unfold hintLoop
    rw [runs_bind]
    have ens := Ens.refl E hc.map hr.mem
    rw [ht] at ens
    refine (hintStep_runs E hint p (.copyExt v) v hc (Or.inl ⟨rfl, rfl⟩) ens hr hh).mono ?_ ?_
    · rintro h c2 w2 ⟨b1, b2, n', b3, b4⟩
      refine (ih h _ c2 w2 n' (b1.inv E hc) b2 b3 b4).mono ?_ ?_
      · rintro h' c' w' ⟨p', d, d'⟩
        exact ⟨p', .cons b1 d, d'⟩
      · intro e c' w' d
        exact d.cons E b1
    · intro e c' w' d
      exact FromFail.head E (d.mono E (fun _ => trivial))

theorem insertHintFromLocal_runs (hint : GIter) (p : Spec.State.Pos) (id : TI) (proto : Seg V) (vals : List V) (c : Coll V) (w : World) (hc : c.Inv E w)
    (hh : c.At E hint p) (hok : HintOK E c [E.tiTy id]) (hk : proto.kind = c.kind) (ht : proto.ty = E.tiTy id) :
    Runs (insertHintFromLocal E hint id proto vals) c w
      (fun h c' w' => ∃ p', Adds E c w p (vals.map fun v => (E.tiTy id, v)) c' w' p' ∧ c'.At E h p')
      (FromFail E c w p (vals.map fun v => (E.tiTy id, v))) := by
  unfold insertHintFromLocal
  cases vals with
  | nil => exact ⟨p, .nil _ _ _, hh⟩
  | cons v vs =>
    rw [if_neg (by simp), runs_bind]
    refine (forProto_runs E id proto c w hc.map hk ht).mono ?_ (fun _ _ _ h => FromFail.head E (.reg h))
    rintro it c1 w1 ⟨n, ens, hr⟩
    refine (hintLoop_runs E it (E.tiTy id) (v :: vs) hint p c1 w1 n (ens.good E (stable_inv E) hc)
      (ens.at E hc.map (hok.head E) hh) hr ens.ty).mono ?_ ?_
    · rintro h c' w' ⟨p', d, d'⟩
      exact ⟨p', Adds.of_ens E hc.map ens d, d'⟩
    · intro e c' w' d
      exact FromFail.of_ens E hc.map ens d

/-- The part after the type has been looked up. -/
theorem terminalHint_runs {c c1 : Coll V} {w w1 : World} {n : Node V} {it : MapIt} (hint : GIter) (p : Spec.State.Pos) (fwd : Bool) (t : TI)
    (srcs : List (Src V)) (vs : List V) (hc : c.Inv E w) (ens : Ens E c w (E.tiTy t) n c1 w1) (hr : c1.map.Ref it n) (hh1 : c1.At E hint p)
    (hext : ∀ src ∈ srcs, src.ext = true) (hv : srcs.map (Src.val Vec.nil) = vs.map some) (hne : vs ≠ []) :
    Runs (do
      let c ← Prog.get
      let same ← Prog.ofOption (c.map.itEq E hint.mapit it)
      if same then
        let _ ← onMap (TMap.onSeg E it (downcast (E.tiTy t) (Seg.insertRangeBase E fwd hint.segpos srcs)))
        return ()
      else
        let _ ← onMap (TMap.onSeg E it (downcast (E.tiTy t) (Seg.insertRangeEnd E fwd srcs)))
        return ()) c1 w1
      (fun _ c' w' => vs = [] ∧ c' = c ∧ w' = w ∨ vs ≠ [] ∧ Inserted E c w (E.tiTy t) (c.abs.hintPos (E.tiTy t) p) vs c' w')
      (TermFail E c w (E.tiTy t) (fwd = true ∧ c.abs.hintPos (E.tiTy t) p = (c.abs.elemsOf (E.tiTy t)).length) (∃ src ∈ srcs, src.copies) vs.length) := by
  have hg := ens.good E (stable_inv E) hc
  obtain ⟨h1, h2, h3⟩ := hint_same E ens.inv hr hh1
  have hv' : srcs.map (Src.val n.seg.be.store) = vs.map some := by
    rw [← hv]; exact List.map_congr_left (fun a ha => val_ext (hext a ha) _ _)
  simp only [runs_bind, runs_get, h1, runs_some, decide_eq_true_eq]
  rw [runs_ite]
  refine ⟨fun hd => ?_, fun hd => ?_⟩
  · obtain ⟨k, rfl, hk, hp⟩ := h3 hd
    have hpos : c.abs.hintPos (E.tiTy t) (some (n.seg.ty, k)) = k := by simp [Spec.State.hintPos, ens.ty]
    rw [hpos, runs_bind, runs_onSeg E ens.inv.ids hr, runs_downcast ens.ty, hp]
    refine (Seg.insertRangeBase_runs E fwd n.seg w1 (hg.mem.segs n ens.mem).core k (Nat.le_of_lt hk) srcs vs hext hv').mono ?_ ?_
    · rintro _ s w' ⟨b1, -⟩
      exact Or.inr ⟨hne, ens, b1, Nat.le_of_lt hk⟩
    · rintro e s w' h
      exact .seg ens (h.strong E (fun hf => ⟨hf.1, by
        have := n.seg.size_eq
        rw [ens.elems E hc.map] at this
        omega⟩))
  · have hpos : c.abs.hintPos (E.tiTy t) p = (c.abs.elemsOf (E.tiTy t)).length := by
      unfold Spec.State.hintPos
      cases p with
      | none => rfl
      | some q =>
        simp only
        split
        · rename_i e
          exact absurd (h2.2 ⟨q.2, by rw [ens.ty, ← e]⟩) hd
        · rfl
    rw [hpos, runs_bind, runs_onSeg E ens.inv.ids hr, runs_downcast ens.ty]
    refine (Seg.insertRangeEnd_runs E fwd n.seg w1 (hg.mem.segs n ens.mem).core srcs vs hext hv').mono ?_ ?_
    · rintro _ s w' ⟨b1, -⟩
      refine Or.inr ⟨hne, ?_⟩
      rw [← ens.elems E hc.map]
      exact ⟨ens, b1, Nat.le_refl _⟩
    · rintro e s w' h
      exact .seg ens (h.strong E (fun hf => hf.1))

theorem insertHintRangeTerminal_runs (hint : GIter) (p : Spec.State.Pos) (fwd : Bool) (t : TI) (srcs : List (Src V)) (vs : List V) (c : Coll V) (w : World)
    (hc : c.Inv E w) (hh : c.At E hint p) (hok : HintOK E c [E.tiTy t])
    (hext : ∀ src ∈ srcs, src.ext = true) (hv : srcs.map (Src.val Vec.nil) = vs.map some) :
    Runs (insertHintRangeTerminal E hint fwd t srcs) c w
      (fun _ c' w' => vs = [] ∧ c' = c ∧ w' = w ∨ vs ≠ [] ∧ Inserted E c w (E.tiTy t) (c.abs.hintPos (E.tiTy t) p) vs c' w')
      (TermFail E c w (E.tiTy t) (fwd = true ∧ c.abs.hintPos (E.tiTy t) p = (c.abs.elemsOf (E.tiTy t)).length) (∃ src ∈ srcs, src.copies) vs.length) := by
  have hlen : srcs.length = vs.length := by have := congrArg List.length hv; simpa using this
  unfold insertHintRangeTerminal
  rw [runs_ite]
  refine ⟨fun h0 => Or.inl ⟨?_, rfl, rfl⟩, fun h0 => ?_⟩
  · subst h0; exact List.length_eq_zero_iff.1 hlen.symm
  · have hne : vs ≠ [] := fun e => by rw [e] at hlen; exact h0 (List.length_eq_zero_iff.1 hlen)
    rw [runs_bind]
    refine (forT_runs E t c w hc.map).mono ?_ (fun _ _ _ h => .reg h)
    rintro it c1 w1 ⟨n, ens, hr⟩
    exact terminalHint_runs E hint p fwd t srcs vs hc ens hr (ens.at E hc.map (hok.head E) hh) hext hv hne

end Coll
end PolyColl
