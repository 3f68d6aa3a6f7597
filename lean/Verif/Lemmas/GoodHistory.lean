import Verif.Lemmas.Rehash
import Verif.Lemmas.Writing
import Verif.Lemmas.Frame
import Verif.Lemmas.AnyPacked
import Verif.Lemmas.Left
import Verif.Lemmas.MendShrink
import Verif.Lemmas.MendAny
/-!
# Programs that use collections as documented

`COp.Pre` says what an operation requires of its arguments: iterators are valid (`At`, `LAtB`,
`LAtL` name the position they denote), ranges to insert come from outside the collection, hints
survive the creation of segments (`COp.Apt` leaves the latter out).  `COp.Strong` tells which operations leave a
fully usable collection even if they throw.  After the others `clear()` helps (`Coll.Weak`).
-/

namespace PolyColl
open Prog

theorem Prog.runs_drop {X α : Type} {p : Prog X α} {x : X} {w : World} {Q : Unit → X → World → Prop} {R : Exc → X → World → Prop} :
    Runs p.drop x w Q R ↔ Runs p x w (fun _ => Q ()) R := by
  unfold Prog.drop
  simp only [runs_bind, runs_pure]

theorem Prog.Ends.drop {X α : Type} {p : Prog X α} {x : X} {w : World} {Q : α → X → World → Prop} {R : Exc → X → World → Prop} {U : Prop}
    (h : Ends p x w Q R U) : Ends p.drop x w (fun _ x' w' => ∃ a, Q a x' w') R U := by
  show Ends (Prog.bind p fun _ => Prog.pure ()) x w _ R U
  unfold Ends Prog.bind at *
  cases hp : p x w with
  | ok a x' w' => rw [hp] at h; exact ⟨a, h⟩
  | exc e x' w' => rw [hp] at h; exact h
  | ub => rw [hp] at h; exact h

theorem Prog.Runs.withLeaves {X α : Type} {p : Prog X α} {x : X} {w : World} {Q Q' : α → X → World → Prop} {R R' : Exc → X → World → Prop}
    (h : Runs p x w Q R) (h' : Leaves p x w Q' R') : Runs p x w (fun a y v => Q a y v ∧ Q' a y v) (fun e y v => R e y v ∧ R' e y v) := by
  unfold Runs at h ⊢
  unfold Leaves at h'
  revert h h'
  cases p x w <;> simp +contextual

theorem Prog.Leaves.both {X α : Type} {p : Prog X α} {x : X} {w : World} {Q Q' : α → X → World → Prop} {R R' : Exc → X → World → Prop}
    (h : Leaves p x w Q R) (h' : Leaves p x w Q' R') : Leaves p x w (fun a y v => Q a y v ∧ Q' a y v) (fun e y v => R e y v ∧ R' e y v) := by
  unfold Leaves at h h' ⊢
  revert h h'
  cases p x w <;> simp +contextual

theorem Prog.leaves_ok {X α : Type} {p : Prog X α} {x x' : X} {w w' : World} {a : α} {Q : α → X → World → Prop} {R : Exc → X → World → Prop}
    (h : Leaves p x w Q R) (e : p x w = .ok a x' w') : Q a x' w' := by
  unfold Leaves at h; rw [e] at h; exact h

theorem Prog.leaves_exc {X α : Type} {p : Prog X α} {x x' : X} {w w' : World} {a : Exc} {Q : α → X → World → Prop} {R : Exc → X → World → Prop}
    (h : Leaves p x w Q R) (e : p x w = .exc a x' w') : R a x' w' := by
  unfold Leaves at h; rw [e] at h; exact h

namespace COp
variable {V : Type} (E : Env V)

/-- What an operation on `c` requires. -/
def Pre (c : Coll V) : COp V → Prop
  | registerTypes _ | lookup _ | reserveAll _ | reserveInfo _ _ | reserveT _ _ | shrinkAll | shrinkInfo _ | clearAll | clearInfo _ => True
  | emplace t src => ∃ v, c.SrcFor (E.tiTy t) src v
  | emplaceHint h t src => (∃ v, c.SrcFor (E.tiTy t) src v) ∧ (∃ p, c.At E h p) ∧ c.HintOK E [E.tiTy t]
  | emplacePosBase pos t src => (∃ v, c.SrcFor (E.tiTy t) src v) ∧ ∃ k, c.LAtB E pos (E.tiTy t) k
  | emplacePosLocal pos t src => (∃ v, c.SrcFor (E.tiTy t) src v) ∧ ∃ k, c.LAtL E pos (E.tiTy t) k
  | insert a => Coll.Arg.OK E a ∧ ∃ v, c.SrcFor (E.tiTy a.dyn) a.src v
  | insertHint h a => Coll.Arg.OK E a ∧ (∃ v, c.SrcFor (E.tiTy a.dyn) a.src v) ∧ (∃ p, c.At E h p) ∧ c.HintOK E [E.tiTy a.dyn]
  | insertPosBase pos a => Coll.Arg.OK E a ∧ (∃ v, c.SrcFor (E.tiTy a.dyn) a.src v) ∧ ∃ k, c.LAtB E pos (E.tiTy a.dyn) k
  | insertPosLocal pos a => Coll.Arg.OK E a ∧ (∃ v, c.SrcFor (E.tiTy a.dyn) a.src v) ∧ ∃ k, c.LAtL E pos (E.tiTy a.dyn) k
  | insertRange as => ∀ a ∈ as, Coll.Arg.OK E a ∧ a.src.ext = true
  | insertRangeTerminal _ _ srcs => ∀ src ∈ srcs, src.ext = true
  | insertHintRange h as => (∃ p, c.At E h p) ∧ c.HintOK E (as.map fun a => E.tiTy a.dyn) ∧ ∀ a ∈ as, Coll.Arg.OK E a ∧ a.src.ext = true
  | insertHintRangeTerminal h _ t srcs => (∃ p, c.At E h p) ∧ c.HintOK E [E.tiTy t] ∧ ∀ src ∈ srcs, src.ext = true
  | insertPosRangeBase pos as => ∃ t k, c.LAtB E pos t k ∧ ∀ a ∈ as, Coll.Arg.OK E a ∧ E.tiTy a.dyn = t ∧ a.src.ext = true
  | insertPosRangeLocal pos t srcs => ∃ k, c.LAtL E pos (E.tiTy t) k ∧ ∀ src ∈ srcs, src.ext = true
  | erase pos => ∃ t k, c.At E pos (some (t, k))
  | eraseLocalBase pos => ∃ t k, c.LAtB E pos t k ∧ k < (c.abs.elemsOf t).length
  | eraseLocal pos => ∃ t k, c.LAtL E pos t k ∧ k < (c.abs.elemsOf t).length
  | eraseRange f l => ∃ p q, c.At E f p ∧ c.At E l q ∧ c.abs.rank p ≤ c.abs.rank q
  | eraseLocalRangeBase f l => ∃ t a b, c.LAtB E f t a ∧ c.LAtB E l t b ∧ a ≤ b
  | eraseLocalRange f l => ∃ t a b, c.LAtL E f t a ∧ c.LAtL E l t b ∧ a ≤ b
  | apply o p _ => ∃ t k, c.Points o p t k
  | rebind p q => q = p ∧ c.kind = .split ∧ ∃ t k, c.Points .base p t k

/-- The same, but hints need not survive the creation of segments: what a program may do if that happens to
leave its hint alone. -/
def Apt (c : Coll V) : COp V → Prop
  | emplaceHint h t src => (∃ v, c.SrcFor (E.tiTy t) src v) ∧ ∃ p, c.At E h p
  | insertHint h a => Coll.Arg.OK E a ∧ (∃ v, c.SrcFor (E.tiTy a.dyn) a.src v) ∧ ∃ p, c.At E h p
  | insertHintRange h as => (∃ p, c.At E h p) ∧ ∀ a ∈ as, Coll.Arg.OK E a ∧ a.src.ext = true
  | insertHintRangeTerminal h _ _ srcs => (∃ p, c.At E h p) ∧ ∀ src ∈ srcs, src.ext = true
  | op => op.Pre E c

theorem Pre.apt {E : Env V} {c : Coll V} {op : COp V} (h : op.Pre E c) : op.Apt E c := by
  cases op with
  | emplaceHint _ _ _ => exact ⟨h.1, h.2.1⟩
  | insertHint _ _ => exact ⟨h.1, h.2.1, h.2.2.1⟩
  | insertHintRange _ _ => exact ⟨h.1, h.2.2⟩
  | insertHintRangeTerminal _ _ _ _ => exact ⟨h.1, h.2.2⟩
  | _ => exact h

/-- A failed insertion of `m` elements of type `t` leaves no trace: the layout is packed, or the
segment has room for the elements and for their index entries. -/
def Fits (c : Coll V) (t : Ty) (m : Nat) : Prop :=
  c.kind = .packed ∨ ∃ n ∈ c.map.nodes, n.seg.ty = t ∧ n.seg.Roomy ∧ n.seg.size + m ≤ n.seg.capacity

/-- Operations that leave a usable collection even if they throw. -/
def Strong (c : Coll V) : COp V → Prop
  | registerTypes _ | lookup _ | shrinkAll | shrinkInfo _ | clearAll | clearInfo _ => True
  | eraseRange _ _ | eraseLocalRangeBase _ _ | eraseLocalRange _ _ | apply _ _ _ | rebind _ _ => True
  | reserveAll _ | reserveInfo _ _ | reserveT _ _ | erase _ | eraseLocalBase _ | eraseLocal _ => c.kind = .packed
  | emplace t _ => Fits c (E.tiTy t) 1
  | insert a => Fits c (E.tiTy a.dyn) 1
  | insertRange _ => c.kind = .packed
  | emplaceHint _ t _ | emplacePosBase _ t _ | emplacePosLocal _ t _ => Fits c (E.tiTy t) 1 ∧ ¬ E.shiftThrows (E.tiTy t)
  | insertPosRangeLocal _ t _ => c.kind = .packed ∧ ¬ E.shiftThrows (E.tiTy t)
  | insertHint _ a | insertPosBase _ a | insertPosLocal _ a => Fits c (E.tiTy a.dyn) 1 ∧ ¬ E.shiftThrows (E.tiTy a.dyn)
  | insertHintRange _ as | insertPosRangeBase _ as => c.kind = .packed ∧ ∀ a ∈ as, ¬ E.shiftThrows (E.tiTy a.dyn)
  | insertRangeTerminal f t srcs => f = true ∧ Fits c (E.tiTy t) srcs.length
  | insertHintRangeTerminal h f t srcs => f = true ∧ Fits c (E.tiTy t) srcs.length ∧ ∀ k, ¬ c.At E h (some (E.tiTy t, k))

end COp

namespace Coll
variable {V : Type} (E : Env V)

/-- What good operations keep. -/
def Kept (c : Coll V) (w : World) (c' : Coll V) (w' : World) : Prop := c'.Inv E w' ∧ c'.kind = c.kind ∧ w.next ≤ w'.next

theorem Kept.refl {c : Coll V} {w : World} (h : c.Inv E w) : c.Kept E w c w := ⟨h, rfl, Nat.le_refl _⟩

theorem Inserted.kept {c c' : Coll V} {w w' : World} {t : Ty} {k : Nat} {vs : List V} (h : Inserted E c w t k vs c' w')
    (hc : c.Inv E w) : c.Kept E w c' w' := ⟨h.inv E hc, h.kind E, h.next E⟩

theorem Kept.trans {c d e : Coll V} {w w1 w2 : World} (h : c.Kept E w d w1) (h' : d.Kept E w1 e w2) : c.Kept E w e w2 :=
  ⟨h'.1, h'.2.1.trans h.2.1, Nat.le_trans h.2.2 h'.2.2⟩

theorem Adds.kept {c c' : Coll V} {w w' : World} {p p' : Spec.State.Pos} {l : List (Ty × V)} (h : Adds E c w p l c' w' p')
    (hc : c.Inv E w) : c.Kept E w c' w' := by
  induction h with
  | nil => exact .refl E hc
  | cons h rest ih => exact (h.kept E hc).trans E (ih (h.inv E hc))

theorem Removed.kept {c c' : Coll V} {w w' : World} {s : Spec.State V} (h : Removed E c w s c' w') : c.Kept E w c' w' := ⟨h.inv, h.upd.kind, h.next⟩

theorem EnsFail.kept {c c' : Coll V} {w w' : World} {t : Ty} {e : Exc} (h : EnsFail E c w t e c' w') (hc : c.Inv E w) : c.Kept E w c' w' :=
  ⟨h.good E (stable_inv E) hc, h.kind, h.next⟩

theorem Ens.kept {c c' : Coll V} {w w' : World} {t : Ty} {n : Node V} (h : Ens E c w t n c' w') (hc : c.Inv E w) : c.Kept E w c' w' :=
  ⟨h.good E (stable_inv E) hc, h.kind, h.next⟩

theorem Ens.node {c c1 : Coll V} {w w1 : World} {t : Ty} {n : Node V} (ens : Ens E c w t n c1 w1) (hc : c.map.Inv E c.kind w) {m : Node V}
    (hm : m ∈ c.map.nodes) (ht : m.seg.ty = t) : n = m := by
  have hn := (ens.old E hc (ht ▸ mem_types hm)).2
  exact PolyColl.eq_of_nodup (f := fun a : Node V => a.seg.ty) (TMap.Inv.nodup_ty E hc) hn hm (ens.ty.trans ht.symm)

theorem roomy_packed {s : Seg V} (h : s.kind = .packed) : s.Roomy := by
  revert h
  cases hbe : s.be <;> simp [Seg.Roomy, Backend.Roomy, Seg.kind, Backend.kind, hbe]

theorem Ens.fits {c c1 : Coll V} {w w1 : World} {t : Ty} {n : Node V} (ens : Ens E c w t n c1 w1) (hc : c.map.Inv E c.kind w) {m : Nat}
    (hf : COp.Fits c t m) : n.seg.Roomy ∧ (n.seg.kind = .packed ∨ n.seg.size + m ≤ n.seg.capacity) := by
  rcases hf with hk | ⟨a, ha, ht, h1, h2⟩
  · have : n.seg.kind = .packed := (ens.inv.kind n (ens.mem E)).trans (ens.kind.trans hk)
    exact ⟨roomy_packed this, Or.inl this⟩
  · rw [ens.node E hc ha ht]
    exact ⟨h1, Or.inr h2⟩

/-- What is left after any failure. -/
def WKept (c : Coll V) (w : World) (c' : Coll V) (w' : World) : Prop := c'.Weak E w' ∧ c'.kind = c.kind ∧ w.next ≤ w'.next

theorem Kept.weak {c c' : Coll V} {w w' : World} (h : c.Kept E w c' w') : c.WKept E w c' w' := ⟨(h.1.core E).weak E, h.2⟩

theorem Kept.transW {c d e : Coll V} {w w1 w2 : World} (h : c.Kept E w d w1) (h' : d.WKept E w1 e w2) : c.WKept E w e w2 :=
  ⟨h'.1, h'.2.1.trans h.2.1, Nat.le_trans h.2.2 h'.2.2⟩

/-- A change of one segment, keeping what is left of the invariant. -/
theorem wkept_put {c c1 : Coll V} {w w1 w' : World} {t : Ty} {n : Node V} {s : Seg V} (ens : Ens E c w t n c1 w1) (hc : c.Inv E w)
    (h1 : Seg.Step w1 n.seg s) (h2 : w1.next ≤ w'.next) (h3 : s.Weak E w') : c.WKept E w (c1.put n s) w' :=
  ⟨((Inv.core E (ens.good E (stable_inv E) hc)).weak E).put E (stable_weak E) (ens.mem E) h1 h2 h3, ens.kind, Nat.le_trans ens.next h2⟩

/-- A failed insertion changes nothing where it fits, unless elements are shifted by throwing moves. -/
theorem InsFail.kept {c c' : Coll V} {w w' : World} {t : Ty} {k : Nat} {copies : Prop} {e : Exc} (h : InsFail E c w t k copies e c' w')
    (hc : c.Inv E w) (hk : COp.Fits c t 1) (hs : ¬ E.shiftThrows t ∨ (c.abs.elemsOf t).length ≤ k) : c.Kept E w c' w' := by
  cases h with
  | reg h => exact h.kept E hc
  | @seg c1 w1 n s w' ens h hk' =>
    have g := ens.good E (stable_inv E) hc
    have hb : ¬ (E.shiftThrows t ∧ k < n.seg.size) := by
      rintro ⟨h1, h2⟩
      rcases hs with hs | hs
      · exact hs h1
      · have e1 := ens.elems E hc.map
        have e2 := n.seg.size_eq
        rw [e1] at e2
        omega
    have hr := ens.fits E hc.map hk
    have hsame := h.same hr.1 hb hr.2
    subst hsame
    have hi : (c1.put n n.seg).Inv E w' := g.put E (stable_inv E) (ens.mem E) h.step h.next ((g.mem.segs n (ens.mem E)).weaken E h.next)
    exact ⟨hi, ens.kind, Nat.le_trans ens.next h.next⟩

theorem InsFail.wkept {c c' : Coll V} {w w' : World} {t : Ty} {k : Nat} {copies : Prop} {e : Exc} (h : InsFail E c w t k copies e c' w')
    (hc : c.Inv E w) : c.WKept E w c' w' := by
  cases h with
  | reg h => exact (h.kept E hc).weak E
  | seg ens h _ => exact wkept_put E ens hc h.step h.next h.weak

theorem TermFail.kept {c c' : Coll V} {w w' : World} {t : Ty} {f copies : Prop} {m : Nat} {e : Exc} (h : TermFail E c w t f copies m e c' w')
    (hc : c.Inv E w) (hf : f) (hk : COp.Fits c t m) : c.Kept E w c' w' := by
  cases h with
  | reg h => exact h.kept E hc
  | @seg c1 w1 n s w' ens h =>
    have g := ens.good E (stable_inv E) hc
    have hr := ens.fits E hc.map hk
    have hsame := h.same hf (hr.2.imp id fun h => ⟨hr.1, h⟩)
    subst hsame
    exact ⟨g.put E (stable_inv E) (ens.mem E) h.step h.next ((g.mem.segs n (ens.mem E)).weaken E h.next), ens.kind, Nat.le_trans ens.next h.next⟩

theorem TermFail.wkept {c c' : Coll V} {w w' : World} {t : Ty} {f copies : Prop} {m : Nat} {e : Exc} (h : TermFail E c w t f copies m e c' w')
    (hc : c.Inv E w) : c.WKept E w c' w' := by
  cases h with
  | reg h => exact (h.kept E hc).weak E
  | seg ens h => exact wkept_put E ens hc h.step h.next h.weak

theorem ArgFail.kept {c c' : Coll V} {w w' : World} {a : Arg V} {k : Nat} {e : Exc} (h : ArgFail E c w a k e c' w')
    (hc : c.Inv E w) (hk : COp.Fits c (E.tiTy a.dyn) 1) (hs : ¬ E.shiftThrows (E.tiTy a.dyn) ∨ (c.abs.elemsOf (E.tiTy a.dyn)).length ≤ k) : c.Kept E w c' w' := by
  rcases h with h | ⟨-, h1, h2, h3, h4, -⟩
  · exact h.kept E hc hk hs
  · exact ⟨⟨h1, (hc.mem.congr h2).mono (fun _ _ h' => h'.weaken E h4) h4, Nat.lt_of_lt_of_le hc.pos h4⟩, h3, h4⟩

theorem ArgFail.wkept {c c' : Coll V} {w w' : World} {a : Arg V} {k : Nat} {e : Exc} (h : ArgFail E c w a k e c' w')
    (hc : c.Inv E w) : c.WKept E w c' w' := by
  rcases h with h | ⟨-, h1, h2, h3, h4, -⟩
  · exact h.wkept E hc
  · exact Kept.weak E ⟨⟨h1, (hc.mem.congr h2).mono (fun _ _ h' => h'.weaken E h4) h4, Nat.lt_of_lt_of_le hc.pos h4⟩, h3, h4⟩

theorem RangeFail.wkept {c c' : Coll V} {w w' : World} {t : Ty} {k : Nat} {vs : List V} {copies : Prop} {e : Exc} (h : RangeFail E c w t k vs copies e c' w')
    (hc : c.Inv E w) : c.WKept E w c' w' := by
  obtain ⟨j, c1, w1, -, h1, h2⟩ := h
  have k1 := h1.kept E hc
  exact k1.transW E (h2.wkept E k1.1)

theorem SeqFail.wkept {c c' : Coll V} {w w' : World} {p : Spec.State.Pos} {as : List (Arg V)} {vs : List V} {e : Exc} (h : SeqFail E c w p as vs e c' w')
    (hc : c.Inv E w) : c.WKept E w c' w' := by
  obtain ⟨j, c1, w1, p1, a, ha, h1, h2⟩ := h
  have k1 := h1.kept E hc
  exact k1.transW E (h2.wkept E k1.1)

theorem FromFail.wkept {c c' : Coll V} {w w' : World} {p : Spec.State.Pos} {l : List (Ty × V)} {e : Exc} (h : FromFail E c w p l e c' w')
    (hc : c.Inv E w) : c.WKept E w c' w' := by
  obtain ⟨j, c1, w1, p1, t, v, ha, h1, h2⟩ := h
  have k1 := h1.kept E hc
  exact k1.transW E (h2.wkept E k1.1)

theorem eraseOne_wkept {c c' : Coll V} {w w' : World} {t : Ty} {k : Nat} {e : Exc} (hc : c.Inv E w)
    (h : ∃ n ∈ c.map.nodes, n.seg.ty = t ∧ k + 1 < n.seg.size ∧
        ∃ s, c' = c.put n s ∧ Seg.RemFail E n.seg w e s w' ∧ (n.seg.kind = .packed → s.Core E w')) : c.WKept E w c' w' := by
  obtain ⟨n, hn, -, -, s, rfl, h3, -⟩ := h
  have hw : w.next ≤ w'.next := by rw [h3.next]; exact Nat.le_refl _
  exact ⟨((hc.core E).weak E).put E (stable_weak E) hn h3.step hw h3.weak, rfl, hw⟩

theorem RangeFail.kept {c c' : Coll V} {w w' : World} {t : Ty} {k : Nat} {vs : List V} {copies : Prop} {e : Exc} (h : RangeFail E c w t k vs copies e c' w')
    (hc : c.Inv E w) (hk : c.kind = .packed) (hs : ¬ E.shiftThrows t) : c.Kept E w c' w' := by
  obtain ⟨j, c1, w1, -, h1, h2⟩ := h
  have k1 := h1.kept E hc
  exact k1.trans E (h2.kept E k1.1 (Or.inl (k1.2.1.trans hk)) (Or.inl hs))

theorem bump_none {t : Ty} : Spec.State.bump t none = none := rfl

theorem Adds.none {c c' : Coll V} {w w' : World} {p p' : Spec.State.Pos} {l : List (Ty × V)} (h : Adds E c w p l c' w' p') (hp : p = none) : p' = none := by
  induction h with
  | nil => exact hp
  | cons h rest ih => exact ih (by rw [hp]; rfl)

theorem SeqFail.kept {c c' : Coll V} {w w' : World} {p : Spec.State.Pos} {as : List (Arg V)} {vs : List V} {e : Exc} (h : SeqFail E c w p as vs e c' w')
    (hc : c.Inv E w) (hk : c.kind = .packed) (hs : (∀ a ∈ as, ¬ E.shiftThrows (E.tiTy a.dyn)) ∨ p = none) : c.Kept E w c' w' := by
  obtain ⟨j, c1, w1, p1, a, ha, h1, h2⟩ := h
  have k1 := h1.kept E hc
  refine k1.trans E (h2.kept E k1.1 (Or.inl (k1.2.1.trans hk)) ?_)
  rcases hs with hs | hs
  · exact Or.inl (hs a (List.mem_of_getElem? ha))
  · right
    rw [h1.none E hs]
    exact Nat.le_refl _

theorem FromFail.kept {c c' : Coll V} {w w' : World} {p : Spec.State.Pos} {l : List (Ty × V)} {e : Exc} (h : FromFail E c w p l e c' w')
    (hc : c.Inv E w) (hk : c.kind = .packed) (hs : (∀ t ∈ l.map Prod.fst, ¬ E.shiftThrows t) ∨ p = none) : c.Kept E w c' w' := by
  obtain ⟨j, c1, w1, p1, t, v, ha, h1, h2⟩ := h
  have k1 := h1.kept E hc
  refine k1.trans E (h2.kept E k1.1 (Or.inl (k1.2.1.trans hk)) ?_)
  rcases hs with hs | hs
  · exact Or.inl (hs t (List.mem_map.2 ⟨_, List.mem_of_getElem? ha, rfl⟩))
  · right
    rw [h1.none E hs]
    exact Nat.le_refl _

theorem remFail_inv {x x' : Seg V} {w w' : World} {e : Exc} (h : Seg.RemFail E x w e x' w') (hc : x'.Core E w') (hi : x.Inv E w) : x'.Inv E w' := by
  refine ⟨hc, ?_⟩
  rw [h.snt, hi.snt]
  have he : ∀ y : Seg V, y.end = y.base y.size := by rintro ⟨_ | _, _⟩ <;> rfl
  rw [he, he, h.size]
  simp only [Seg.base, h.begin]

theorem RangeErFail.kept {c c' : Coll V} {w w' : World} {t : Ty} {e : Exc} (h : RangeErFail E c w t e c' w') (hc : c.Inv E w) : c.Kept E w c' w' := by
  obtain ⟨n, hn, -, s, rfl, h1, h2⟩ := h
  have hw : w.next ≤ w'.next := by rw [h1.next]; exact Nat.le_refl _
  exact ⟨hc.put E (stable_inv E) hn h1.step hw (remFail_inv E h1 h2 (hc.mem.segs n hn)), rfl, hw⟩

theorem EraseFail.kept {c c' : Coll V} {w w' : World} {keep : Ty → Prop} {e : Exc} (h : EraseFail E c w keep e c' w') : c.Kept E w c' w' := by
  cases h with
  | mk h f _ => exact (h.kept E).trans E (f.kept E h.inv)

theorem eraseOne_kept {c c' : Coll V} {w w' : World} {t : Ty} {k : Nat} {e : Exc} (hc : c.Inv E w) (hk : c.kind = .packed)
    (h : ∃ n ∈ c.map.nodes, n.seg.ty = t ∧ k + 1 < n.seg.size ∧
        ∃ s, c' = c.put n s ∧ Seg.RemFail E n.seg w e s w' ∧ (n.seg.kind = .packed → s.Core E w')) : c.Kept E w c' w' := by
  obtain ⟨n, hn, h1, -, s, h2, h3, h4⟩ := h
  exact RangeErFail.kept E ⟨n, hn, h1, s, h2, h3, h4 ((hc.map.kind n hn).trans hk)⟩ hc

theorem mapVals {α : Type} {f : α → Option V} {l : List α} (h : ∀ a ∈ l, ∃ v, f a = some v) : ∃ vs : List V, l.map f = vs.map some := by
  induction l with
  | nil => exact ⟨[], rfl⟩
  | cons a l ih =>
    obtain ⟨v, hv⟩ := h a (by simp)
    obtain ⟨vs, hvs⟩ := ih (fun b hb => h b (by simp [hb]))
    exact ⟨v :: vs, by simp [hv, hvs]⟩

theorem ext_val {src : Src V} (h : src.ext = true) : ∃ v, src.val Vec.nil = some v := by
  cases src <;> simp_all [Src.ext, Src.val]

/-- Every operation used as documented is defined, and keeps the invariant if it returns, and also
if it throws provided it is one of the `Strong` ones. -/
theorem op_good (op : COp V) (c : Coll V) (w : World) (hc : c.Inv E w) (hp : op.Pre E c) :
    Runs (op.run E) c w (fun _ c' w' => c.Kept E w c' w') (fun _ c' w' => (op.Strong E c → c.Kept E w c' w') ∧ c.WKept E w c' w') := by
  have str : ∀ {S : Prop} {c' : Coll V} {w' : World}, c.Kept E w c' w' → (S → c.Kept E w c' w') ∧ c.WKept E w c' w' :=
    fun h => ⟨fun _ => h, h.weak E⟩
  cases op with
  | registerTypes ts =>
    exact (registerTypes_runs E ts c w hc).mono (fun _ _ _ h => ⟨h.1, h.2.2.1, h.2.1⟩) (fun _ _ _ h => str ⟨h.1, h.2.2.1, h.2.1⟩)
  | lookup t =>
    simp only [COp.run, runs_drop]
    refine (forInfo_runs E t c w hc.map).mono ?_ ?_
    · rintro _ c' w' ⟨rfl, rfl, -⟩; exact .refl E hc
    · rintro _ c' w' ⟨rfl, rfl, -⟩; exact str (.refl E hc)
  | reserveAll n =>
    refine (reserveAll_runs E n c w hc).mono ?_ ?_
    · rintro _ c' w' ⟨h1, h2, h3, -⟩; exact ⟨h1, h3.kind, h2⟩
    · rintro _ c' w' ⟨h4, h2, h3, -, -, -, h1⟩; exact ⟨fun hk => ⟨h1 hk, h3, h2⟩, h4.weak E, h3, h2⟩
  | reserveInfo t n =>
    refine (reserveInfo_runs E t n c w hc).mono ?_ ?_
    · rintro _ c' w' ⟨h1, h2, -, -, m, hm, -, s, rfl, -⟩; exact ⟨h1, rfl, h2⟩
    · rintro _ c' w' (⟨rfl, rfl, -⟩ | ⟨h4, h2, -, h3, m, -, -, s, hs, -⟩)
      · exact str (.refl E hc)
      · exact ⟨fun hk => by cases h3 hk; exact ⟨hc.weaken E (stable_inv E) h2, rfl, h2⟩, h4.weak E, by rw [hs]; rfl, h2⟩
  | reserveT t n =>
    refine (reserveT_runs E t n c w hc).mono ?_ ?_
    · rintro _ c' w' ⟨m, d, w1, s, h1, rfl, h2, h3, -⟩; exact ⟨h2, h1.kind, Nat.le_trans h1.next h3⟩
    · rintro _ c' w' (h | ⟨m, d, w1, s, h1, h5, h2, h3, -, -, h4⟩)
      · exact str (h.kept E hc)
      · refine ⟨fun hk => ?_, h2.weak E, by rw [h5]; exact h1.kind, Nat.le_trans h1.next h3⟩
        cases h4 hk
        exact (h1.kept E hc).trans E ⟨(h1.good E (stable_inv E) hc).weaken E (stable_inv E) h3, rfl, h3⟩
  | shrinkAll =>
    refine (shrinkAll_runs E c w hc).mono ?_ ?_
    · rintro _ c' w' ⟨h1, h2, h3, -⟩; exact ⟨h1, h3.kind, h2⟩
    · rintro _ c' w' ⟨h1, h2, -, -, h3⟩; exact str ⟨h1, h3.kind, h2⟩
  | shrinkInfo t =>
    refine (shrinkInfo_runs E t c w hc).mono ?_ ?_
    · rintro _ c' w' ⟨h1, h2, -, -, m, hm, -, s, rfl, -⟩; exact ⟨h1, rfl, h2⟩
    · rintro _ c' w' (⟨rfl, rfl, -⟩ | ⟨h1, h2, -, -, m, hm, -, s, rfl, -⟩)
      · exact str (.refl E hc)
      · exact str ⟨h1, rfl, h2⟩
  | emplace t src =>
    obtain ⟨v, hv⟩ := hp
    simp only [COp.run, runs_drop]
    exact (emplace_runs E t src v c w hc hv).mono (fun _ _ _ h => h.1.kept E hc) (fun _ _ _ h => ⟨fun hk => h.kept E hc hk (Or.inr (Nat.le_refl _)), h.wkept E hc⟩)
  | emplaceHint hint t src =>
    obtain ⟨⟨v, hv⟩, ⟨p, hh⟩, hok⟩ := hp
    simp only [COp.run, runs_drop]
    exact (emplaceHint_runs E hint p t src v c w hc hv hh (hok.head E)).mono (fun _ _ _ h => h.1.kept E hc)
      (fun _ _ _ h => ⟨fun hk => h.kept E hc hk.1 (Or.inl hk.2), h.wkept E hc⟩)
  | emplacePosBase pos t src =>
    obtain ⟨⟨v, hv⟩, k, hl⟩ := hp
    simp only [COp.run, runs_drop]
    exact (emplacePosBase_runs E pos t k src v c w hc hl hv).mono (fun _ _ _ h => h.1.kept E hc) (fun _ _ _ h => ⟨fun hk => h.kept E hc hk.1 (Or.inl hk.2), h.wkept E hc⟩)
  | emplacePosLocal pos t src =>
    obtain ⟨⟨v, hv⟩, k, hl⟩ := hp
    simp only [COp.run, runs_drop]
    exact (emplacePosLocal_runs E pos t k src v c w hc hl hv).mono (fun _ _ _ h => h.1.kept E hc) (fun _ _ _ h => ⟨fun hk => h.kept E hc hk.1 (Or.inl hk.2), h.wkept E hc⟩)
  | insert a =>
    obtain ⟨ha, v, hv⟩ := hp
    simp only [COp.run, runs_drop]
    exact (insert_runs E a v ha c w hc hv).mono (fun _ _ _ h => h.1.kept E hc) (fun _ _ _ h => ⟨fun hk => h.kept E hc hk (Or.inr (Nat.le_refl _)), h.wkept E hc⟩)
  | insertHint hint a =>
    obtain ⟨ha, ⟨v, hv⟩, ⟨p, hh⟩, hok⟩ := hp
    simp only [COp.run, runs_drop]
    exact (insertHint_runs E hint p a v ha c w hc hv hh (hok.head E)).mono (fun _ _ _ h => h.1.kept E hc)
      (fun _ _ _ h => ⟨fun hk => h.kept E hc hk.1 (Or.inl hk.2), h.wkept E hc⟩)
  | insertPosBase pos a =>
    obtain ⟨-, ⟨v, hv⟩, k, hl⟩ := hp
    simp only [COp.run, runs_drop]
    exact (insertPosBase_runs E pos a k v c w hc hl hv).mono (fun _ _ _ h => h.1.kept E hc) (fun _ _ _ h => ⟨fun hk => h.kept E hc hk.1 (Or.inl hk.2), h.wkept E hc⟩)
  | insertPosLocal pos a =>
    obtain ⟨-, ⟨v, hv⟩, k, hl⟩ := hp
    simp only [COp.run, runs_drop]
    exact (insertPosLocal_runs E pos a k v c w hc hl hv).mono (fun _ _ _ h => h.1.kept E hc) (fun _ _ _ h => ⟨fun hk => h.kept E hc hk.1 (Or.inl hk.2), h.wkept E hc⟩)
  | insertRange as =>
    obtain ⟨vs, hv⟩ := mapVals (f := fun a : Arg V => a.src.val Vec.nil) (fun a ha => ext_val (hp a ha).2)
    exact (insertRange_runs E as vs c w hc hp hv).mono (fun _ _ _ ⟨_, h⟩ => h.kept E hc) (fun _ _ _ h => ⟨fun hk => h.kept E hc hk (Or.inr rfl), h.wkept E hc⟩)
  | insertRangeTerminal f t srcs =>
    obtain ⟨vs, hv⟩ := mapVals (f := Src.val Vec.nil) (fun a ha => ext_val (hp a ha))
    have hlen : srcs.length = vs.length := by have := congrArg List.length hv; simpa using this
    refine (insertRangeTerminal_runs E f t srcs vs c w hc hp hv).mono ?_ (fun _ _ _ h => ⟨fun hk => h.kept E hc hk.1 (hlen ▸ hk.2), h.wkept E hc⟩)
    rintro _ c' w' (⟨-, rfl, rfl⟩ | ⟨-, h⟩)
    · exact .refl E hc
    · exact h.kept E hc
  | insertHintRange hint as =>
    obtain ⟨⟨p, hh⟩, hok, ha⟩ := hp
    obtain ⟨vs, hv⟩ := mapVals (f := fun a : Arg V => a.src.val Vec.nil) (fun a h => ext_val (ha a h).2)
    simp only [COp.run, runs_drop]
    exact (insertHintRange_runs E as hint p vs c w hc hh hok ha hv).mono (fun _ _ _ ⟨_, h, _⟩ => h.kept E hc)
      (fun _ _ _ h => ⟨fun hk => h.kept E hc hk.1 (Or.inl hk.2), h.wkept E hc⟩)
  | insertHintRangeTerminal hint f t srcs =>
    obtain ⟨⟨p, hh⟩, hok, ha⟩ := hp
    obtain ⟨vs, hv⟩ := mapVals (f := Src.val Vec.nil) (fun a h => ext_val (ha a h))
    have hlen : srcs.length = vs.length := by have := congrArg List.length hv; simpa using this
    refine (insertHintRangeTerminal_runs E hint p f t srcs vs c w hc hh hok ha hv).mono ?_
      (fun _ _ _ h => ⟨fun hk => h.kept E hc ⟨hk.1, ?_⟩ (hlen ▸ hk.2.1), h.wkept E hc⟩)
    rotate_left
    · unfold Spec.State.hintPos
      cases p with
      | none => rfl
      | some q =>
        simp only
        split
        · rename_i e; exact absurd (e ▸ hh) (hk.2.2 q.2)
        · rfl
    rintro _ c' w' (⟨-, rfl, rfl⟩ | ⟨-, h⟩)
    · exact .refl E hc
    · exact h.kept E hc
  | insertPosRangeBase pos as =>
    obtain ⟨t, k, hl, ha⟩ := hp
    obtain ⟨vs, hv⟩ := mapVals (f := fun a : Arg V => a.src.val Vec.nil) (fun a h => ext_val (ha a h).2.2)
    simp only [COp.run, runs_drop]
    refine (insertPosRangeBase_runs E pos t k as vs True c w hc hl (fun a h => ⟨(ha a h).2.1, (ha a h).2.2, fun _ => trivial⟩) hv).mono
      (fun _ _ _ h => h.1.kept E hc) (fun _ _ _ h => ⟨fun hk => ?_, h.wkept E hc⟩)
    cases as with
    | nil =>
      obtain ⟨j, _, _, hj, _⟩ := h
      cases vs <;> simp at hv hj
    | cons a as => exact h.kept E hc hk.1 (by rw [← (ha a (by simp)).2.1]; exact hk.2 a (by simp))
  | insertPosRangeLocal pos t srcs =>
    obtain ⟨k, hl, ha⟩ := hp
    obtain ⟨vs, hv⟩ := mapVals (f := Src.val Vec.nil) (fun a h => ext_val (ha a h))
    simp only [COp.run, runs_drop]
    exact (insertPosRangeLocal_runs E pos t k srcs vs True c w hc hl (fun a h => ⟨ha a h, fun _ => trivial⟩) hv).mono
      (fun _ _ _ h => h.1.kept E hc) (fun _ _ _ h => ⟨fun hk => h.kept E hc hk.1 hk.2, h.wkept E hc⟩)
  | erase pos =>
    obtain ⟨t, k, h⟩ := hp
    simp only [COp.run, runs_drop]
    exact (erase_runs E pos t k c w hc h).mono (fun _ _ _ h => h.1.kept E) (fun _ _ _ h => ⟨fun hk => eraseOne_kept E hc hk h, eraseOne_wkept E hc h⟩)
  | eraseLocalBase pos =>
    obtain ⟨t, k, h, hk⟩ := hp
    simp only [COp.run, runs_drop]
    exact (eraseLocalBase_runs E pos t k c w hc h hk).mono (fun _ _ _ h => h.1.kept E) (fun _ _ _ h => ⟨fun hk => eraseOne_kept E hc hk h, eraseOne_wkept E hc h⟩)
  | eraseLocal pos =>
    obtain ⟨t, k, h, hk⟩ := hp
    simp only [COp.run, runs_drop]
    exact (eraseLocal_runs E pos t k c w hc h hk).mono (fun _ _ _ h => h.1.kept E) (fun _ _ _ h => ⟨fun hk => eraseOne_kept E hc hk h, eraseOne_wkept E hc h⟩)
  | eraseRange f l =>
    obtain ⟨p, q, h1, h2, h3⟩ := hp
    simp only [COp.run, runs_drop]
    exact (eraseRange_runs E f l p q c w hc h1 h2 h3).mono (fun _ _ _ h => h.1.kept E) (fun _ _ _ h => str (h.kept E))
  | eraseLocalRangeBase f l =>
    obtain ⟨t, a, b, h1, h2, h3⟩ := hp
    simp only [COp.run, runs_drop]
    exact (eraseLocalRangeBase_runs E f l t a b c w hc h1 h2 h3).mono (fun _ _ _ h => h.1.kept E) (fun _ _ _ h => str (h.kept E hc))
  | eraseLocalRange f l =>
    obtain ⟨t, a, b, h1, h2, h3⟩ := hp
    simp only [COp.run, runs_drop]
    exact (eraseLocalRange_runs E f l t a b c w hc h1 h2 h3).mono (fun _ _ _ h => h.1.kept E) (fun _ _ _ h => str (h.kept E hc))
  | clearAll => exact (clearAll_runs E c w (hc.core E)).mono (fun _ _ _ h => h.kept E) (fun _ _ _ h => h.elim)
  | clearInfo t =>
    refine (clearInfo_runs E t c w hc).mono (fun _ _ _ h => h.1.kept E) ?_
    rintro _ c' w' ⟨rfl, rfl, -⟩
    exact str (.refl E hc)
  | apply o p a =>
    obtain ⟨t, k, hp⟩ := hp
    simp only [COp.run, runs_drop]
    have ed : ∀ {f : V → V} {c' : Coll V} {w' : World}, Edited c w t k f c' w' → c.Kept E w c' w' :=
      fun h => ⟨h.inv hc, h.kind, Nat.le_of_eq h.next.symm⟩
    exact (apply_runs o p a c w (hc.core E) hp).mono (fun _ _ _ h => ed h.2) (fun _ _ _ h => str (ed h.2.2))
  | rebind p q =>
    obtain ⟨rfl, hk, t, k, hp⟩ := hp
    refine (rebind_self_runs _ c w hc hk hp).mono ?_ (fun _ _ _ h => h.elim)
    rintro _ c' w' ⟨rfl, rfl⟩
    exact .refl E hc

/-- Documented use of an operation, hints for types that are not registered included: it keeps the
collection in order, if it is defined at all. -/
theorem op_apt (op : COp V) (c : Coll V) (w : World) (hc : c.Inv E w) (hp : op.Apt E c) :
    Leaves (op.run E) c w (fun _ c' w' => c.Kept E w c' w') (fun _ c' w' => (op.Strong E c → c.Kept E w c' w') ∧ c.WKept E w c' w') := by
  by_cases hpre : op.Pre E c
  · exact (op_good E op c w hc hpre).leaves
  cases op with
  | emplaceHint hint t src =>
    obtain ⟨⟨v, hv⟩, p, hh⟩ := hp
    exact ((emplaceHint_ends E hint p t src v c w hc hv hh).drop.mono (fun _ _ _ ⟨_, h⟩ => h.1.kept E hc)
      (fun _ _ _ h => ⟨fun hk => h.kept E hc hk.1 (Or.inl hk.2), h.wkept E hc⟩) id).leaves
  | insertHint hint a =>
    obtain ⟨ha, ⟨v, hv⟩, p, hh⟩ := hp
    exact ((insertHint_ends E hint p a v ha c w hc hv hh).drop.mono (fun _ _ _ ⟨_, h⟩ => h.1.kept E hc)
      (fun _ _ _ h => ⟨fun hk => h.kept E hc hk.1 (Or.inl hk.2), h.wkept E hc⟩) id).leaves
  | insertHintRange hint as =>
    obtain ⟨⟨p, hh⟩, ha⟩ := hp
    obtain ⟨vs, hv⟩ := mapVals (f := fun a : Arg V => a.src.val Vec.nil) (fun a h => ext_val (ha a h).2)
    exact ((insertHintRange_ends E as hint p vs c w hc hh ha hv).drop.mono (fun _ _ _ ⟨_, ⟨_, h, _⟩, _⟩ => h.kept E hc)
      (fun _ _ _ h => ⟨fun hk => h.kept E hc hk.1 (Or.inl hk.2), h.wkept E hc⟩) id).leaves
  | insertHintRangeTerminal hint f t srcs =>
    obtain ⟨⟨p, hh⟩, ha⟩ := hp
    obtain ⟨vs, hv⟩ := mapVals (f := Src.val Vec.nil) (fun a h => ext_val (ha a h))
    have hlen : srcs.length = vs.length := by have := congrArg List.length hv; simpa using this
    refine ((insertHintRangeTerminal_ends E hint p f t srcs vs c w hc hh ha hv).mono ?_
      (fun _ _ _ h => ⟨fun hk => h.kept E hc ⟨hk.1, ?_⟩ (hlen ▸ hk.2.1), h.wkept E hc⟩) id).leaves
    rotate_left
    · unfold Spec.State.hintPos
      cases p with
      | none => rfl
      | some q =>
        simp only
        split
        · rename_i e; exact absurd (e ▸ hh) (hk.2.2 q.2)
        · rfl
    rintro _ c' w' (⟨-, rfl, rfl⟩ | ⟨-, h⟩)
    · exact .refl E hc
    · exact h.kept E hc
  | _ => exact absurd hp hpre

end Coll

namespace Op
variable {V : Type} (E : Env V)

/-- What an operation on the collections `s` requires. -/
def Pre (s : Sys V) : Op V → Prop
  | on i op => op.Pre E (s i)
  | create _ _ => True
  | fromRange _ _ as => ∀ a ∈ as, Coll.Arg.OK E a ∧ a.src.ext = true
  | fromTerminal _ _ _ _ srcs => ∀ src ∈ srcs, src.ext = true
  | fromColl i j _ f l => i ≠ j ∧ ∃ p q, (s j).At E f p ∧ (s j).At E l q ∧ (s j).abs.rank p ≤ (s j).abs.rank q
  | fromLocalColl i j _ f l => i ≠ j ∧ ∃ t a b, (s j).LAtB E f t a ∧ (s j).LAtB E l t b ∧ a ≤ b
  | copy i j | copyAl i j _ | move i j | moveAl i j _ => i ≠ j
  | assign _ _ | moveAssign _ _ => True
  | swap i j => i = j ∨ E.pocs = true ∨ (s i).map.al = (s j).map.al
  | insertColl i j f l => i ≠ j ∧ ∃ p q, (s j).At E f p ∧ (s j).At E l q ∧ (s j).abs.rank p ≤ (s j).abs.rank q
  | insertLocalColl i j f l => i ≠ j ∧ ∃ t a b, (s j).LAtB E f t a ∧ (s j).LAtB E l t b ∧ a ≤ b
  | insertHintColl i j h f l => i ≠ j ∧ (∃ p q, (s j).At E f p ∧ (s j).At E l q ∧ (s j).abs.rank p ≤ (s j).abs.rank q) ∧
      (∃ r, (s i).At E h r) ∧ (s i).HintOK E (s j).abs.types
  | insertHintLocalColl i j h f l => i ≠ j ∧ (∃ t a b, (s j).LAtB E f t a ∧ (s j).LAtB E l t b ∧ a ≤ b) ∧
      (∃ r, (s i).At E h r) ∧ (s i).HintOK E (s j).abs.types

/-- The same, but hints need not survive the creation of segments. -/
def Apt (s : Sys V) : Op V → Prop
  | on i op => op.Apt E (s i)
  | insertHintColl i j h f l => i ≠ j ∧ (∃ p q, (s j).At E f p ∧ (s j).At E l q ∧ (s j).abs.rank p ≤ (s j).abs.rank q) ∧
      ∃ r, (s i).At E h r
  | insertHintLocalColl i j h f l => i ≠ j ∧ (∃ t a b, (s j).LAtB E f t a ∧ (s j).LAtB E l t b ∧ a ≤ b) ∧
      ∃ r, (s i).At E h r
  | op => op.Pre E s

theorem Pre.apt {E : Env V} {s : Sys V} {op : Op V} (h : op.Pre E s) : op.Apt E s := by
  cases op with
  | on i op => exact COp.Pre.apt h
  | insertHintColl _ _ _ _ _ => exact ⟨h.1, h.2.1, h.2.2.1⟩
  | insertHintLocalColl _ _ _ _ _ => exact ⟨h.1, h.2.1, h.2.2.1⟩
  | _ => exact h

/-- Operations that leave usable collections even if they throw. -/
def Strong (k : Kind) (s : Sys V) : Op V → Prop
  | on i op => op.Strong E (s i)
  | create _ _ | fromRange _ _ _ | fromTerminal _ _ _ _ _ | fromColl _ _ _ _ _ | fromLocalColl _ _ _ _ _ => True
  | copy _ _ | copyAl _ _ _ | move _ _ | assign _ _ | moveAssign _ _ | swap _ _ => True
  | moveAl _ _ _ => False
  | insertColl _ _ _ _ | insertLocalColl _ _ _ _ => k = .packed
  | insertHintColl _ j _ _ _ | insertHintLocalColl _ j _ _ _ => k = .packed ∧ ∀ t ∈ (s j).abs.types, ¬ E.shiftThrows t

/-- The collection that is damaged if the operation throws. -/
def hit : Op V → Option Nat
  | on i _ | insertColl i _ _ _ | insertLocalColl i _ _ _ | insertHintColl i _ _ _ _ | insertHintLocalColl i _ _ _ _ | moveAl _ i _ => some i
  | _ => none

/-- The collections that must be in order for the operation to be used.  (Copying needs none:
it does not look at what an exception may have spoiled.) -/
def needs : Op V → List Nat
  | on i _ => [i]
  | create _ _ | fromRange _ _ _ | fromTerminal _ _ _ _ _ | copy _ _ | copyAl _ _ _ => []
  | fromColl _ j _ _ _ | fromLocalColl _ j _ _ _ | move _ j | moveAl _ j _ | moveAssign _ j => [j]
  | assign i j => if i = j then [i] else []
  | swap i j | insertColl i j _ _ | insertLocalColl i j _ _ | insertHintColl i j _ _ _ | insertHintLocalColl i j _ _ _ => [i, j]

/-- The collections an operation empties when it throws. -/
def resets : Op V → List Nat
  | assign i _ => [i]
  | moveAssign i j => [i, j]
  | _ => []

end Op

/-- What a program knows of one of its collections. -/
inductive Health where
  /-- It was used as documented, or has been repaired since. -/
  | sound
  /-- One operation failed. -/
  | hurt
  /-- Anything happened. -/
  | lost
  deriving DecidableEq, Repr

/-- Collections `l` are now `h`. -/
def Health.mark (H : Nat → Health) (l : List Nat) (h : Health) : Nat → Health := fun i => if i ∈ l then h else H i

/-- A state reached by a program, with what it knows of its collections.  Collections used as
documented are `sound`, and stay so if an operation throws that is `Strong`; otherwise
the collection is `hurt`.  (Hints for types that are not registered are fine if they survive, `Apt`.)  `clear()` makes it sound again.
So does `reserve(n)` with more than its segments have room for (`mend`); otherwise `reserve(n)` helps or does no harm (`tried`).
`shrink_to_fit()` mends it if all its segments have memory to give back (`shrunk`), and does no harm (`shrank`).
Of a `base_collection` only cached ends can be wrong, so `clear()` and `reserve(n)` mend it whatever happened.  A program may do
anything else with its collections, as long as this is defined, and then knows nothing about them.
Whatever happened to a collection, it is sound when it has been constructed anew or assigned to. -/
inductive GoodReach {V : Type} (E : Env V) (k : Kind) (sub : Ty → TI) : (Nat → Health) → Sys V → World → Prop where
  | start (al : Nat → Alloc) (w : World) (hw : 0 < w.next) : GoodReach E k sub (fun _ => .sound) (fun i => Coll.empty' k (al i)) w
  | ok {H : Nat → Health} {s s' : Sys V} {w w' : World} (h : GoodReach E k sub H s w) (op : Op V) (hn : ∀ i ∈ op.needs, H i = .sound)
      (hp : op.Apt E s) (hr : op.run E k sub s w = .ok () s' w') : GoodReach E k sub (Health.mark H op.writes .sound) s' w'
  | exc {H : Nat → Health} {s s' : Sys V} {w w' : World} {e : Exc} (h : GoodReach E k sub H s w) (op : Op V) (hn : ∀ i ∈ op.needs, H i = .sound)
      (hp : op.Apt E s) (hs : op.Strong E k s) (hr : op.run E k sub s w = .exc e s' w') : GoodReach E k sub (Health.mark H op.resets .sound) s' w'
  | hurt {H : Nat → Health} {s s' : Sys V} {w w' : World} {e : Exc} (h : GoodReach E k sub H s w) (op : Op V) (hn : ∀ i ∈ op.needs, H i = .sound)
      (hp : op.Apt E s) (hr : op.run E k sub s w = .exc e s' w') (i : Nat) (hi : op.hit = some i) :
      GoodReach E k sub (Health.mark H [i] .hurt) s' w'
  | clear {H : Nat → Health} {s s' : Sys V} {w w' : World} (h : GoodReach E k sub H s w) (i : Nat) (hi : H i ≠ .lost ∨ k = .packed)
      (hr : (Op.on i .clearAll).run E k sub s w = .ok () s' w') : GoodReach E k sub (Health.mark H [i] .sound) s' w'
  | mend {H : Nat → Health} {s s' : Sys V} {w w' : World} (h : GoodReach E k sub H s w) (i n : Nat)
      (hi : k = .packed ∨ (s i).Exceeded n)
      (hr : (Op.on i (.reserveAll n)).run E k sub s w = .ok () s' w') : GoodReach E k sub (Health.mark H [i] .sound) s' w'
  | tried {H : Nat → Health} {s s' : Sys V} {w w' : World} (h : GoodReach E k sub H s w) (i n : Nat) (hi : H i ≠ .lost ∨ k = .packed)
      (hr : (Op.on i (.reserveAll n)).run E k sub s w = .ok () s' w' ∨ ∃ e, (Op.on i (.reserveAll n)).run E k sub s w = .exc e s' w') :
      GoodReach E k sub (Health.mark H [i] .hurt) s' w'
  | shrunk {H : Nat → Health} {s s' : Sys V} {w w' : World} (h : GoodReach E k sub H s w) (i : Nat) (hi : H i ≠ .lost ∨ k = .packed)
      (hx : (s i).Slack E) (hr : (Op.on i .shrinkAll).run E k sub s w = .ok () s' w') : GoodReach E k sub (Health.mark H [i] .sound) s' w'
  | shrank {H : Nat → Health} {s s' : Sys V} {w w' : World} (h : GoodReach E k sub H s w) (i : Nat) (hi : H i ≠ .lost ∨ k = .packed)
      (hr : (Op.on i .shrinkAll).run E k sub s w = .ok () s' w' ∨ ∃ e, (Op.on i .shrinkAll).run E k sub s w = .exc e s' w') :
      GoodReach E k sub (Health.mark H [i] .hurt) s' w'
  | lose {H : Nat → Health} {s s' : Sys V} {w w' : World} (h : GoodReach E k sub H s w) (op : Op V) (ha : ∀ a ∈ op.args, Coll.Arg.OK E a)
      (hr : op.run E k sub s w = .ok () s' w' ∨ ∃ e, op.run E k sub s w = .exc e s' w') :
      GoodReach E k sub (Health.mark H op.writes .lost) s' w'

namespace Coll
variable {V : Type} (E : Env V) {k : Kind}

variable (k) in
/-- What the health of a collection tells. -/
def Holds (h : Health) (c : Coll V) (w : World) : Prop :=
  match h with
  | .sound => c.Inv E w ∧ c.kind = k
  | .hurt => c.Weak E w ∧ c.kind = k
  | .lost => c.kind = k ∧ c.map.Inv E k w

theorem Holds.weaken {h : Health} {c : Coll V} {w w' : World} (hc : Holds E k h c w) (hw : w.next ≤ w'.next) : Holds E k h c w' := by
  cases h with
  | sound => exact ⟨hc.1.weaken E (stable_inv E) hw, hc.2⟩
  | hurt => exact ⟨Good.weaken E (stable_weak E) hc.1 hw, hc.2⟩
  | lost => exact (collCtx E k).weaken _ _ _ hc hw

theorem Holds.kind {h : Health} {c : Coll V} {w : World} (hc : Holds E k h c w) : c.kind = k := by
  cases h
  · exact hc.2
  · exact hc.2
  · exact hc.1

theorem Holds.lost {h : Health} {c : Coll V} {w : World} (hc : Holds E k h c w) : (collCtx E k).I c w := by
  refine ⟨hc.kind E, ?_⟩
  cases h
  · have := hc.1.map; rw [hc.2] at this; exact this
  · have := Good.map hc.1; rw [hc.2] at this; exact this
  · exact hc.2

theorem Holds.map {h : Health} {c : Coll V} {w : World} (hc : Holds E k h c w) : c.map.Inv E c.kind w := by
  rw [hc.kind E]; exact (hc.lost E).2

theorem Holds.weak {h : Health} {c : Coll V} {w : World} (hc : Holds E k h c w) (hh : h ≠ .lost) : c.Weak E w := by
  cases h
  · exact (hc.1.core E).weak E
  · exact hc.1
  · exact absurd rfl hh

variable (k) in
/-- All collections are as healthy as said. -/
def SysHolds (H : Nat → Health) (s : Sys V) (w : World) : Prop := (∀ i, Holds E k (H i) (s i) w) ∧ 0 < w.next

theorem SysHolds.inv {H : Nat → Health} {s : Sys V} {w : World} (h : SysHolds E k H s w) : SysInv E k s w :=
  ⟨fun i => (h.1 i).lost E, h.2⟩

theorem SysHolds.sound {H : Nat → Health} {s : Sys V} {w : World} (h : SysHolds E k H s w) {i : Nat} (hi : H i = .sound) :
    (s i).Inv E w ∧ (s i).kind = k := by
  have := h.1 i
  rw [hi] at this
  exact this

theorem SysHolds.weaken {H : Nat → Health} {s : Sys V} {w w' : World} (h : SysHolds E k H s w) (hw : w.next ≤ w'.next) : SysHolds E k H s w' :=
  ⟨fun i => (h.1 i).weaken E hw, Nat.lt_of_lt_of_le h.2 hw⟩

theorem SysHolds.put {H : Nat → Health} {s : Sys V} {w : World} (h : SysHolds E k H s w) {i : Nat} {g : Health} {c : Coll V} (hc : Holds E k g c w) :
    SysHolds E k (Health.mark H [i] g) (s.put i c) w := by
  refine ⟨fun j => ?_, h.2⟩
  unfold Sys.put Health.mark
  by_cases hj : j = i
  · rw [if_pos hj, if_pos (by simp [hj])]; exact hc
  · rw [if_neg hj, if_neg (by simp [hj])]; exact h.1 j

theorem mark_two (H : Nat → Health) (i j : Nat) (g : Health) : Health.mark (Health.mark H [i] g) [j] g = Health.mark H [i, j] g := by
  funext x
  unfold Health.mark
  by_cases h1 : x = i <;> by_cases h2 : x = j <;> simp [h1, h2]

theorem mark_two' (H : Nat → Health) (i j : Nat) (g : Health) : Health.mark (Health.mark H [j] g) [i] g = Health.mark H [i, j] g := by
  funext x
  unfold Health.mark
  by_cases h1 : x = i <;> by_cases h2 : x = j <;> simp [h1, h2]

theorem mark_nil (H : Nat → Health) (g : Health) : Health.mark H [] g = H := by
  funext x
  simp [Health.mark]

theorem mark_sound {H : Nat → Health} {l : List Nat} (h : ∀ i ∈ l, H i = .sound) : Health.mark H l .sound = H := by
  funext x
  unfold Health.mark
  split
  · rename_i hx; exact (h x hx).symm
  · rfl

variable (k) in
/-- All collections are as healthy as said, and nothing new has an old address. -/
def SysKept (H : Nat → Health) (w : World) (s' : Sys V) (w' : World) : Prop := SysHolds E k H s' w' ∧ w.next ≤ w'.next

theorem SysHolds.clear {H : Nat → Health} {s : Sys V} {w : World} {sub : Ty → TI} {i : Nat} (h : SysHolds E k H s w) (hi : (s i).Weak E w) :
    Runs ((Op.on i .clearAll).run E k sub) s w
      (fun _ s' w' => SysHolds E k (Health.mark H [i] .sound) s' w' ∧ (s' i).abs = (s i).abs.cleared ∧ ∀ j, j ≠ i → s' j = s j) (fun _ _ _ => False) := by
  show Runs (Sys.on i _) s w _ _
  unfold Sys.on
  rw [runs_zoom]
  refine (clearAll_weak E (s i) w hi).mono ?_ (fun _ _ _ h => h)
  intro _ c w' hr
  refine ⟨(h.weaken E hr.next).put E (g := .sound) ⟨hr.inv, hr.upd.kind.trans ((h.1 i).kind E)⟩, ?_, fun j hj => ?_⟩
  · simp [Sys.put, hr.abs]
  · simp [Sys.put, hj]

theorem SysHolds.mend {H : Nat → Health} {s : Sys V} {w : World} {sub : Ty → TI} {i n : Nat} (h : SysHolds E k H s w) (hi : (s i).Core E w) :
    Runs ((Op.on i (.reserveAll n)).run E k sub) s w
      (fun _ s' w' => SysHolds E k (Health.mark H [i] .sound) s' w' ∧ (s' i).abs = (s i).abs ∧ ∀ j, j ≠ i → s' j = s j)
      (fun _ s' _ => (s' i).abs = (s i).abs ∧ ∀ j, j ≠ i → s' j = s j) := by
  show Runs (Sys.on i _) s w _ _
  unfold Sys.on
  rw [runs_zoom]
  refine (reserveAll_core E n (s i) w hi).mono ?_ ?_
  · rintro _ c w' ⟨h1, h2, h3, h4⟩
    refine ⟨(h.weaken E h2).put E (g := .sound) ⟨h1, h3.kind.trans ((h.1 i).kind E)⟩, ?_, fun j hj => ?_⟩
    · simp [Sys.put, h4]
    · simp [Sys.put, hj]
  · rintro _ c w' ⟨-, -, -, -, -, h6⟩
    exact ⟨by simp [Sys.put, h6], fun j hj => by simp [Sys.put, hj]⟩

/-- `reserve(n)` after a failure. -/
theorem SysHolds.reserve {H : Nat → Health} {s : Sys V} {w : World} {sub : Ty → TI} {i n : Nat} (h : SysHolds E k H s w) (hi : (s i).Weak E w) :
    Runs ((Op.on i (.reserveAll n)).run E k sub) s w
      (fun _ s' w' => SysHolds E k (Health.mark H [i] .hurt) s' w' ∧ ((s i).Exceeded n → SysHolds E k (Health.mark H [i] .sound) s' w') ∧
        (s' i).abs = (s i).abs ∧ ∀ j, j ≠ i → s' j = s j)
      (fun _ s' w' => SysHolds E k (Health.mark H [i] .hurt) s' w' ∧ (s' i).abs = (s i).abs ∧ ∀ j, j ≠ i → s' j = s j) := by
  show Runs (Sys.on i _) s w _ _
  unfold Sys.on
  rw [runs_zoom]
  refine (reserveAll_weak E n (s i) w hi).mono ?_ ?_
  · rintro _ c w' ⟨h1, h2, h3, h4, h5⟩
    have hk := h4.trans ((h.1 i).kind E)
    refine ⟨(h.weaken E h3).put E (g := .hurt) ⟨h1, hk⟩, fun hn => (h.weaken E h3).put E (g := .sound) ⟨h2 hn, hk⟩, ?_, fun j hj => ?_⟩
    · simp [Sys.put, h5]
    · simp [Sys.put, hj]
  · rintro _ c w' ⟨h1, h3, h4, h5⟩
    refine ⟨(h.weaken E h3).put E (g := .hurt) ⟨h1, h4.trans ((h.1 i).kind E)⟩, ?_, fun j hj => ?_⟩
    · simp [Sys.put, h5]
    · simp [Sys.put, hj]

/-- `reserve(n)` after any failures. -/
theorem SysHolds.reserveAny {H : Nat → Health} {s : Sys V} {w : World} {sub : Ty → TI} {i n : Nat} (h : SysHolds E k H s w) (hi : (s i).Good E Seg.Held w)
    (hn : (s i).Exceeded n) :
    Runs ((Op.on i (.reserveAll n)).run E k sub) s w
      (fun _ s' w' => SysHolds E k (Health.mark H [i] .sound) s' w' ∧ (s' i).abs = (s i).abs ∧ ∀ j, j ≠ i → s' j = s j)
      (fun _ s' _ => (s' i).abs = (s i).abs ∧ ∀ j, j ≠ i → s' j = s j) := by
  show Runs (Sys.on i _) s w _ _
  unfold Sys.on
  rw [runs_zoom]
  refine (reserveAll_held E n (s i) w hi hn).mono ?_ ?_
  · rintro _ c w' ⟨h1, h3, h4, h5⟩
    refine ⟨(h.weaken E h3).put E (g := .sound) ⟨h1, h4.trans ((h.1 i).kind E)⟩, ?_, fun j hj => ?_⟩
    · simp [Sys.put, h5]
    · simp [Sys.put, hj]
  · rintro _ c w' ⟨h3, h4, h5⟩
    refine ⟨?_, fun j hj => ?_⟩
    · simp [Sys.put, h5]
    · simp [Sys.put, hj]

/-- `shrink_to_fit()` after a failure. -/
theorem SysHolds.shrink {H : Nat → Health} {s : Sys V} {w : World} {sub : Ty → TI} {i : Nat} (h : SysHolds E k H s w) (hi : (s i).Weak E w) :
    Runs ((Op.on i .shrinkAll).run E k sub) s w
      (fun _ s' w' => SysHolds E k (Health.mark H [i] .hurt) s' w' ∧ ((s i).Slack E → SysHolds E k (Health.mark H [i] .sound) s' w') ∧
        (s' i).abs = (s i).abs ∧ ∀ j, j ≠ i → s' j = s j)
      (fun _ s' w' => SysHolds E k (Health.mark H [i] .hurt) s' w' ∧ (s' i).abs = (s i).abs ∧ ∀ j, j ≠ i → s' j = s j) := by
  show Runs (Sys.on i _) s w _ _
  unfold Sys.on
  rw [runs_zoom]
  refine (shrinkAll_weak E (s i) w hi).mono ?_ ?_
  · rintro _ c w' ⟨h1, h2, h3, h4, h5⟩
    have hk := h4.trans ((h.1 i).kind E)
    refine ⟨(h.weaken E h3).put E (g := .hurt) ⟨h1, hk⟩, fun hn => (h.weaken E h3).put E (g := .sound) ⟨h2 hn, hk⟩, ?_, fun j hj => ?_⟩
    · simp [Sys.put, h5]
    · simp [Sys.put, hj]
  · rintro _ c w' ⟨h1, h3, h4, h5⟩
    refine ⟨(h.weaken E h3).put E (g := .hurt) ⟨h1, h4.trans ((h.1 i).kind E)⟩, ?_, fun j hj => ?_⟩
    · simp [Sys.put, h5]
    · simp [Sys.put, hj]

theorem good_on {α : Type} {i : Nat} {p : Prog (Coll V) α} {H : Nat → Health} {s : Sys V} {w : World} {S : Prop} (hs : SysHolds E k H s w)
    (hi : H i = .sound)
    (hp : Runs p (s i) w (fun _ c w' => (s i).Kept E w c w') (fun _ c w' => (S → (s i).Kept E w c w') ∧ (s i).WKept E w c w')) :
    Runs (Sys.on i p) s w (fun _ s' w' => SysKept E k (Health.mark H [i] .sound) w s' w')
      (fun _ s' w' => (S → SysKept E k (Health.mark H [] .sound) w s' w') ∧ ∀ j, some i = some j → SysKept E k (Health.mark H [j] .hurt) w s' w') := by
  unfold Sys.on
  rw [runs_zoom]
  have kept : ∀ c w', (s i).Kept E w c w' → SysKept E k (Health.mark H [i] .sound) w (s.put i c) w' := fun c w' h =>
    ⟨(hs.weaken E h.2.2).put E (g := .sound) ⟨h.1, h.2.1.trans ((hs.1 i).kind E)⟩, h.2.2⟩
  refine hp.mono (fun _ c w' h => kept c w' h) (fun _ c w' h => ⟨fun hS => ?_, ?_⟩)
  · rw [mark_nil]
    have := kept c w' (h.1 hS)
    rw [mark_sound (l := [i]) (by simpa using hi)] at this
    exact this
  · rintro _ ⟨⟩
    exact ⟨(hs.weaken E h.2.2.2).put E (g := .hurt) ⟨h.2.1, h.2.2.1.trans ((hs.1 i).kind E)⟩, h.2.2.2⟩

theorem good_construct {i : Nat} {l : List Nat} {p : Prog (Sys V) (Coll V)} {H : Nat → Health} {s : Sys V} {w : World} {S : Prop}
    (hp : Runs p s w (fun c s' w' => SysKept E k (Health.mark H l .sound) w s' w' ∧ c.Inv E w' ∧ c.kind = k) (fun _ s' w' => S → SysKept E k H w s' w')) :
    Runs (Sys.construct i p) s w (fun _ s' w' => SysKept E k (Health.mark H (i :: l) .sound) w s' w')
      (fun _ s' w' => (S → SysKept E k (Health.mark H [] .sound) w s' w') ∧ ∀ j, (none : Option Nat) = some j → SysKept E k (Health.mark H [j] .hurt) w s' w') := by
  unfold Sys.construct
  simp only [runs_bind, runs_get, runs_set]
  refine hp.mono (fun c s' w' h => ⟨?_, h.1.2⟩) (fun _ _ _ h => ⟨fun hS => by rw [mark_nil]; exact h hS, fun _ h => by cases h⟩)
  have := h.1.1.put E (i := i) (g := .sound) ⟨h.2.1, h.2.2⟩
  have e : Health.mark (Health.mark H l .sound) [i] .sound = Health.mark H (i :: l) .sound := by
    funext x
    unfold Health.mark
    by_cases h1 : x = i <;> by_cases h2 : x ∈ l <;> simp [h1, h2]
  rw [e] at this
  exact this

/-- A constructor that fills a new collection. -/
theorem good_build_leaves {i : Nat} {al : Alloc} {p : Prog (Coll V) Unit} {H : Nat → Health} {s : Sys V} {w : World} (hs : SysHolds E k H s w)
    (hl : Leaves p (empty' k al) w (fun _ c w' => (collCtx E k).I c w' ∧ w.next ≤ w'.next) (fun _ _ w' => w.next ≤ w'.next))
    (hp : Runs p (empty' k al) w (fun _ c w' => c.Inv E w') (fun _ _ _ => True)) :
    Runs (Sys.construct i (locally (empty' k al) p fun _ c => c)) s w (fun _ s' w' => SysKept E k (Health.mark H [i] .sound) w s' w')
      (fun _ s' w' => (True → SysKept E k (Health.mark H [] .sound) w s' w') ∧
        ∀ j, (none : Option Nat) = some j → SysKept E k (Health.mark H [j] .hurt) w s' w') := by
  refine good_construct E ?_
  rw [mark_nil, runs_locally]
  refine (hp.withLeaves hl).mono ?_ ?_
  · rintro _ c w' ⟨h, ⟨hk, -⟩, hw⟩
    exact ⟨⟨hs.weaken E hw, hw⟩, h, hk⟩
  · rintro _ c w' ⟨-, hw⟩ _
    exact ⟨hs.weaken E hw, hw⟩

theorem good_build {i : Nat} {al : Alloc} {p : Prog (Coll V) Unit} {H : Nat → Health} {s : Sys V} {w : World} (hs : SysHolds E k H s w)
    (hl : Keeps (collCtx E k) p) (hp : Runs p (empty' k al) w (fun _ c w' => c.Inv E w') (fun _ _ _ => True)) :
    Runs (Sys.construct i (locally (empty' k al) p fun _ c => c)) s w (fun _ s' w' => SysKept E k (Health.mark H [i] .sound) w s' w')
      (fun _ s' w' => (True → SysKept E k (Health.mark H [] .sound) w s' w') ∧
        ∀ j, (none : Option Nat) = some j → SysKept E k (Health.mark H [j] .hurt) w s' w') :=
  good_build_leaves E hs ((hl.leaves ⟨rfl, TMap.empty_inv E k _ _ rfl rfl⟩).mono (fun _ _ _ h => ⟨h.1, h.2.2⟩) (fun _ _ _ h => h.2.2)) hp

theorem good_copyAl {j : Nat} {al : Alloc} {H : Nat → Health} {s : Sys V} {w : World} (hs : SysHolds E k H s w) :
    Runs (copyAl E (s j) al : Prog (Sys V) (Coll V)) s w (fun c s' w' => SysKept E k (Health.mark H [] .sound) w s' w' ∧ c.Inv E w' ∧ c.kind = k)
      (fun _ s' w' => True → SysKept E k H w s' w') := by
  rw [mark_nil]
  refine (copyAl_runs E (s j) al s w ((hs.1 j).map E) hs.2).mono ?_ ?_
  · rintro c s' w' ⟨rfl, a1, a2, a3, -⟩
    exact ⟨⟨hs.weaken E a1, a1⟩, a2, a3.trans ((hs.1 j).kind E)⟩
  · rintro c s' w' ⟨rfl, a1, -⟩ _
    exact ⟨hs.weaken E a1, a1⟩

theorem between_types {s : Spec.State V} {p q : Spec.State.Pos} : ∀ t ∈ (between s p q).map Prod.fst, t ∈ s.types := by
  intro t ht
  obtain ⟨x, hx, rfl⟩ := List.mem_map.1 ht
  have := List.mem_of_mem_drop (List.mem_of_mem_take hx)
  simp only [Spec.State.typedFlat, List.mem_flatMap, List.mem_map] at this
  obtain ⟨a, ha, v, -, rfl⟩ := this
  exact List.mem_map.2 ⟨a, ha, rfl⟩

theorem latB_types {c : Coll V} {l : LIter} {t : Ty} {k : Nat} (h : c.LAtB E l t k) : t ∈ c.abs.types := by
  obtain ⟨n, h1, h2, -⟩ := h
  rw [← h2]
  exact mem_types h1.mem

theorem HintOK.sub {c : Coll V} {ts us : List Ty} (h : HintOK E c us) (hs : ∀ t ∈ ts, t ∈ us) : HintOK E c ts :=
  h.imp id (fun h t ht => h t (hs t ht))

/-- Every operation on several collections used as documented is defined, and keeps them in order. -/
theorem run_good {sub : Ty → TI} (hsub : ∀ t, E.tiTy (sub t) = t) (op : Op V) (s : Sys V) (w : World) {H : Nat → Health} (hs : SysHolds E k H s w)
    (hn : ∀ i ∈ op.needs, H i = .sound) (hp : op.Pre E s) :
    Runs (op.run E k sub) s w (fun _ s' w' => SysKept E k (Health.mark H op.writes .sound) w s' w')
      (fun _ s' w' => (op.Strong E k s → SysKept E k (Health.mark H op.resets .sound) w s' w') ∧
        ∀ j, op.hit = some j → SysKept E k (Health.mark H [j] .hurt) w s' w') := by
  have refl : SysKept E k H w s w := ⟨hs, Nat.le_refl _⟩
  have hk : ∀ i, (s i).kind = k := fun i => (hs.1 i).kind E
  have hkk : ∀ i j, (s i).kind = (s j).kind := fun i j => (hk i).trans (hk j).symm
  cases op with
  | on i op =>
    have hi := hn i (by simp [Op.needs])
    exact good_on E hs hi (op_good E op (s i) w (hs.sound E hi).1 hp)
  | create i al => exact good_construct E ⟨by rw [mark_nil]; exact refl, empty_good E k al hs.2, rfl⟩
  | fromRange i al as =>
    obtain ⟨vs, hv⟩ := mapVals (f := fun a : Arg V => a.src.val Vec.nil) (fun a ha => ext_val (hp a ha).2)
    have he := empty_good E k al hs.2
    exact good_build E hs (insertRange_keeps E as fun a ha => (hp a ha).1)
      ((insertRange_runs E as vs (empty' k al) w he hp hv).mono (fun _ _ _ ⟨_, h⟩ => h.inv E he) (fun _ _ _ _ => trivial))
  | fromTerminal i al fwd t srcs =>
    obtain ⟨vs, hv⟩ := mapVals (f := Src.val Vec.nil) (fun a ha => ext_val (hp a ha))
    have he := empty_good E k al hs.2
    refine good_build E hs (insertRangeTerminal_keeps E fwd t srcs)
      ((insertRangeTerminal_runs E fwd t srcs vs (empty' k al) w he hp hv).mono ?_ (fun _ _ _ _ => trivial))
    rintro _ c w' (⟨-, rfl, rfl⟩ | ⟨-, h⟩)
    · exact he
    · exact h.inv E he
  | fromColl i j al f l =>
    obtain ⟨hj, -⟩ := hs.sound E (hn j (by simp [Op.needs]))
    obtain ⟨hij, p, q, h1, h2, h3⟩ := hp
    have he := empty_good E k al hs.2
    simp only [Op.run, runs_bind, runs_get, runs_ite]
    refine ⟨fun e => absurd e hij, fun _ => good_build_leaves E hs ?_
      ((insertColl_runs E hsub (s j) w hj h1 h2 h3 (empty' k al) w he (hk j)).mono (fun _ _ _ ⟨_, h⟩ => h.inv E he) (fun _ _ _ _ => trivial))⟩
    unfold insertColl
    simp only [leaves_bind, leaves_ofOption]
    intro xs hx
    exact ((insertFrom_keeps E xs (collect_ok E hsub ((hk j) ▸ hj.map) hx)).leaves ⟨rfl, TMap.empty_inv E k _ _ rfl rfl⟩).mono
      (fun _ _ _ h => ⟨h.1, h.2.2⟩) (fun _ _ _ h => h.2.2)
  | fromLocalColl i j al f l =>
    obtain ⟨hj, -⟩ := hs.sound E (hn j (by simp [Op.needs]))
    obtain ⟨hij, t, a, b, h1, h2, h3⟩ := hp
    have he := empty_good E k al hs.2
    simp only [Op.run, runs_bind, runs_get, runs_ite]
    refine ⟨fun e => absurd e hij, fun _ => good_build_leaves E hs ?_
      ((insertLocalColl_runs E hsub (s j) w hj h1 h2 h3 (empty' k al) w he (hk j)).mono (fun _ _ _ ⟨_, h⟩ => h.inv E he) (fun _ _ _ _ => trivial))⟩
    unfold insertLocalColl
    simp only [leaves_bind, leaves_ofOption]
    intro r hr
    exact ((insertFromLocal_keeps E _ r.1 r.2 (collectLocal_ok E ((hk j) ▸ hj.map) hr) (by rw [hsub])).leaves
      ⟨rfl, TMap.empty_inv E k _ _ rfl rfl⟩).mono (fun _ _ _ h => ⟨h.1, h.2.2⟩) (fun _ _ _ h => h.2.2)
  | copy i j =>
    simp only [Op.run, runs_bind, runs_get, runs_ite]
    exact ⟨fun e => absurd e hp, fun _ => good_construct E (good_copyAl E hs)⟩
  | copyAl i j al =>
    simp only [Op.run, runs_bind, runs_get, runs_ite]
    exact ⟨fun e => absurd e hp, fun _ => good_construct E (good_copyAl E hs)⟩
  | move i j =>
    obtain ⟨hj, -⟩ := hs.sound E (hn j (by simp [Op.needs]))
    simp only [Op.run, runs_ite]
    refine ⟨fun e => absurd e hp, fun _ => good_construct E (l := [j]) ?_⟩
    unfold Sys.on
    rw [runs_zoom]
    refine (move_runs E (s j) w hj).mono ?_ (fun _ _ _ h => h.elim)
    rintro c x w' ⟨rfl, rfl, e, hx⟩
    exact ⟨⟨hs.put E (g := .sound) ⟨hx, by rw [e]; exact hk j⟩, Nat.le_refl _⟩, hj, hk j⟩
  | moveAl i j al =>
    obtain ⟨hj, -⟩ := hs.sound E (hn j (by simp [Op.needs]))
    simp only [Op.run, runs_ite]
    refine ⟨fun e => absurd e hp, fun _ => ?_⟩
    have hd : Runs (Sys.construct i (Sys.on j (moveAl E al))) s w (fun _ _ _ => True)
        (fun _ s' w' => SysKept E k (Health.mark H [j] .hurt) w s' w') := by
      unfold Sys.construct Sys.on
      simp only [runs_bind, runs_get, runs_set, runs_zoom]
      refine (moveAl_weak al (s j) w hj).mono (fun _ _ _ _ => trivial) ?_
      rintro e x w' ⟨a1, a2, a3⟩
      exact ⟨(hs.weaken E a3).put E (g := .hurt) ⟨a1, a2.trans (hk j)⟩, a3⟩
    refine (hd.and (good_construct E (l := [j]) (S := False) ?_)).mono (fun _ _ _ h => h.2) (fun _ _ _ h => ⟨fun hf => hf.elim, ?_⟩)
    rotate_left
    · rintro _ ⟨⟩
      exact h.1
    unfold Sys.on
    rw [runs_zoom]
    refine (moveAl_runs E al (s j) w hj).mono ?_ (fun _ _ _ _ h => h.elim)
    rintro c x w' ⟨a1, a2, a3, -, -, a4, a5, -⟩
    exact ⟨⟨(hs.weaken E a1).put E (g := .sound) ⟨a4, a5.trans (hk j)⟩, a1⟩, a2, a3.trans (hk j)⟩
  | assign i j =>
    simp only [Op.run, runs_bind, runs_get, runs_ite]
    refine ⟨fun e => ?_, fun _ => ?_⟩
    · have : SysKept E k (Health.mark H [i] .sound) w s w := by
        rw [mark_sound (by simpa [Op.needs, e] using hn)]; exact refl
      exact this
    unfold Sys.on
    rw [runs_zoom]
    have key : ∀ (c : Coll V) (w' : World), w.next ≤ w'.next → c.Inv E w' → c.kind = (s i).kind →
        SysKept E k (Health.mark H [i] .sound) w (s.put i c) w' := fun c w' h1 h2 h3 =>
      ⟨(hs.weaken E h1).put E (g := .sound) ⟨h2, h3.trans (hk i)⟩, h1⟩
    exact (assign_runs E (s j) (s i) w ((hs.1 j).map E) (hkk i j) hs.2).mono (fun _ c w' h => key c w' h.1 h.2.1 h.2.2.1)
      (fun _ c w' h => ⟨fun _ => key c w' h.1 h.2.1 h.2.2.1, fun _ h => by cases h⟩)
  | moveAssign i j =>
    have hj := hn j (by simp [Op.needs])
    simp only [Op.run, runs_ite]
    refine ⟨fun e => ?_, fun _ => ?_⟩
    · have : SysKept E k (Health.mark H [i, j] .sound) w s w := by
        rw [mark_sound (by simp [e, hj])]; exact refl
      exact this
    unfold Sys.on2
    rw [runs_zoom]
    have key : ∀ (c d : Coll V) (w' : World), w.next ≤ w'.next → c.Inv E w' → c.kind = (s i).kind → d.Inv E w' → d.kind = (s j).kind →
        SysKept E k (Health.mark H [i, j] .sound) w ((s.put i c).put j d) w' := by
      intro c d w' h1 h2 h3 h4 h5
      rw [← mark_two]
      exact ⟨((hs.weaken E h1).put E (g := .sound) ⟨h2, h3.trans (hk i)⟩).put E (g := .sound) ⟨h4, h5.trans (hk j)⟩, h1⟩
    refine (moveAssign_runs E (s i) (s j) w (hs.sound E hj).1 (hkk i j)).mono ?_ ?_
    · rintro _ p w' ⟨a1, a2, a3, -, -, a4, a5, -⟩
      exact key _ _ _ a1 a2 a3 a4 a5
    · rintro _ p w' ⟨a1, a2, a3, -, -, a4, a5, -⟩
      exact ⟨fun _ => key _ _ _ a1 a2 a3 a4 a5, fun _ h => by cases h⟩
  | swap i j =>
    have hi := hn i (by simp [Op.needs])
    have hj := hn j (by simp [Op.needs])
    simp only [Op.run, runs_ite]
    refine ⟨fun e => ?_, fun hij => ?_⟩
    · have : SysKept E k (Health.mark H [i, j] .sound) w s w := by
        rw [mark_sound (by simp [hi, hj])]; exact refl
      exact this
    unfold Sys.on2
    rw [runs_zoom]
    refine (swap_runs E (s i) (s j) w (hkk i j) (hp.resolve_left hij)).mono ?_ (fun _ _ _ h => h.elim)
    rintro _ p w' ⟨rfl, rfl⟩
    show SysKept E k (Health.mark H [i, j] .sound) _ ((s.put i (s j)).put j (s i)) _
    rw [← mark_two]
    exact ⟨(hs.put E (g := .sound) (hs.sound E hj)).put E (g := .sound) (hs.sound E hi), Nat.le_refl _⟩
  | insertColl i j f l =>
    have hi := hn i (by simp [Op.needs])
    obtain ⟨hj, -⟩ := hs.sound E (hn j (by simp [Op.needs]))
    obtain ⟨hc, -⟩ := hs.sound E hi
    obtain ⟨hij, p, q, h1, h2, h3⟩ := hp
    simp only [Op.run, runs_bind, runs_get, runs_ite]
    refine ⟨fun e => absurd e hij, fun _ => good_on E hs hi ?_⟩
    refine (insertColl_runs E hsub (s j) w hj h1 h2 h3 (s i) w hc (hkk j i)).mono (fun _ _ _ ⟨_, h⟩ => h.kept E hc) ?_
    exact fun _ _ _ h => ⟨fun hp' => h.kept E hc ((hk i).trans hp') (Or.inr rfl), h.wkept E hc⟩
  | insertLocalColl i j f l =>
    have hi := hn i (by simp [Op.needs])
    obtain ⟨hj, -⟩ := hs.sound E (hn j (by simp [Op.needs]))
    obtain ⟨hc, -⟩ := hs.sound E hi
    obtain ⟨hij, t, a, b, h1, h2, h3⟩ := hp
    simp only [Op.run, runs_bind, runs_get, runs_ite]
    refine ⟨fun e => absurd e hij, fun _ => good_on E hs hi ?_⟩
    refine (insertLocalColl_runs E hsub (s j) w hj h1 h2 h3 (s i) w hc (hkk j i)).mono (fun _ _ _ ⟨_, h⟩ => h.kept E hc) ?_
    exact fun _ _ _ h => ⟨fun hp' => h.kept E hc ((hk i).trans hp') (Or.inr rfl), h.wkept E hc⟩
  | insertHintColl i j h f l =>
    have hi := hn i (by simp [Op.needs])
    obtain ⟨hj, -⟩ := hs.sound E (hn j (by simp [Op.needs]))
    obtain ⟨hc, -⟩ := hs.sound E hi
    obtain ⟨hij, ⟨p, q, h1, h2, h3⟩, ⟨r, hr⟩, hok⟩ := hp
    simp only [Op.run, runs_bind, runs_get, runs_ite]
    refine ⟨fun e => absurd e hij, fun _ => good_on E hs hi ?_⟩
    rw [runs_drop]
    refine (insertHintColl_runs E hsub (s j) w hj h1 h2 h3 h r (s i) w hc (hkk j i) hr (hok.sub E between_types)).mono
      (fun _ _ _ ⟨_, h, _⟩ => h.kept E hc) ?_
    exact fun _ _ _ h => ⟨fun hp' => h.kept E hc ((hk i).trans hp'.1) (Or.inl fun t ht => hp'.2 t (between_types t ht)), h.wkept E hc⟩
  | insertHintLocalColl i j h f l =>
    have hi := hn i (by simp [Op.needs])
    obtain ⟨hj, -⟩ := hs.sound E (hn j (by simp [Op.needs]))
    obtain ⟨hc, -⟩ := hs.sound E hi
    obtain ⟨hij, ⟨t, a, b, h1, h2, h3⟩, ⟨r, hr⟩, hok⟩ := hp
    have ht := latB_types E h1
    simp only [Op.run, runs_bind, runs_get, runs_ite]
    refine ⟨fun e => absurd e hij, fun _ => good_on E hs hi ?_⟩
    rw [runs_drop]
    refine (insertHintLocalColl_runs E hsub (s j) w hj h1 h2 h3 h r (s i) w hc (hkk j i) hr (hok.sub E (by simpa using ht))).mono
      (fun _ _ _ ⟨_, h, _⟩ => h.kept E hc) ?_
    refine fun _ _ _ h => ⟨fun hp' => h.kept E hc ((hk i).trans hp'.1) (Or.inl fun u hu => ?_), h.wkept E hc⟩
    simp only [List.map_map, List.mem_map, Function.comp] at hu
    obtain ⟨_, -, rfl⟩ := hu
    exact hp'.2 _ ht

theorem good_on_leaves {α : Type} {i : Nat} {p : Prog (Coll V) α} {H : Nat → Health} {s : Sys V} {w : World} {S : Prop} (hs : SysHolds E k H s w)
    (hi : H i = .sound)
    (hp : Leaves p (s i) w (fun _ c w' => (s i).Kept E w c w') (fun _ c w' => (S → (s i).Kept E w c w') ∧ (s i).WKept E w c w')) :
    Leaves (Sys.on i p) s w (fun _ s' w' => SysKept E k (Health.mark H [i] .sound) w s' w')
      (fun _ s' w' => (S → SysKept E k (Health.mark H [] .sound) w s' w') ∧ ∀ j, some i = some j → SysKept E k (Health.mark H [j] .hurt) w s' w') := by
  by_cases hu : p (s i) w = .ub
  · unfold Leaves Sys.on zoom
    rw [hu]
    trivial
  · refine (good_on E hs hi ?_).leaves
    unfold Leaves at hp
    unfold Runs
    split <;> simp_all

theorem run_apt {sub : Ty → TI} (hsub : ∀ t, E.tiTy (sub t) = t) (op : Op V) (s : Sys V) (w : World) {H : Nat → Health} (hs : SysHolds E k H s w)
    (hn : ∀ i ∈ op.needs, H i = .sound) (hp : op.Apt E s) :
    Leaves (op.run E k sub) s w (fun _ s' w' => SysKept E k (Health.mark H op.writes .sound) w s' w')
      (fun _ s' w' => (op.Strong E k s → SysKept E k (Health.mark H op.resets .sound) w s' w') ∧
        ∀ j, op.hit = some j → SysKept E k (Health.mark H [j] .hurt) w s' w') := by
  by_cases hpre : op.Pre E s
  · exact (run_good E hsub op s w hs hn hpre).leaves
  have hk : ∀ i, (s i).kind = k := fun i => (hs.1 i).kind E
  have hkk : ∀ i j, (s i).kind = (s j).kind := fun i j => (hk i).trans (hk j).symm
  cases op with
  | on i op =>
    have hi := hn i (by simp [Op.needs])
    exact good_on_leaves E hs hi (op_apt E op (s i) w (hs.sound E hi).1 hp)
  | insertHintColl i j h f l =>
    have hi := hn i (by simp [Op.needs])
    obtain ⟨hj, -⟩ := hs.sound E (hn j (by simp [Op.needs]))
    obtain ⟨hc, -⟩ := hs.sound E hi
    obtain ⟨hij, ⟨p, q, h1, h2, h3⟩, r, hr⟩ := hp
    simp only [Op.run, leaves_bind, leaves_get, leaves_ite]
    refine ⟨fun e => absurd e hij, fun _ => good_on_leaves E hs hi ?_⟩
    obtain ⟨items, -, -, he⟩ := insertHintColl_ends E hsub (s j) w hj h1 h2 h3 h r (s i) w hc (hkk j i) hr
    refine (he.drop.mono (fun _ _ _ ⟨_, ⟨_, h, _⟩, _⟩ => h.kept E hc) ?_ id).leaves
    exact fun _ _ _ h => ⟨fun hp' => h.kept E hc ((hk i).trans hp'.1) (Or.inl fun t ht => hp'.2 t (between_types t ht)), h.wkept E hc⟩
  | insertHintLocalColl i j h f l =>
    have hi := hn i (by simp [Op.needs])
    obtain ⟨hj, -⟩ := hs.sound E (hn j (by simp [Op.needs]))
    obtain ⟨hc, -⟩ := hs.sound E hi
    obtain ⟨hij, ⟨t, a, b, h1, h2, h3⟩, r, hr⟩ := hp
    have ht := latB_types E h1
    simp only [Op.run, leaves_bind, leaves_get, leaves_ite]
    refine ⟨fun e => absurd e hij, fun _ => good_on_leaves E hs hi ?_⟩
    refine ((insertHintLocalColl_ends E hsub (s j) w hj h1 h2 h3 h r (s i) w hc (hkk j i) hr).drop.mono
      (fun _ _ _ ⟨_, _, h, _⟩ => h.kept E hc) ?_ id).leaves
    refine fun _ _ _ h => ⟨fun hp' => h.kept E hc ((hk i).trans hp'.1) (Or.inl fun u hu => ?_), h.wkept E hc⟩
    simp only [List.map_map, List.mem_map, Function.comp] at hu
    obtain ⟨_, -, rfl⟩ := hu
    exact hp'.2 _ ht
  | _ => exact absurd hp hpre

theorem apt_args {op : Op V} {s : Sys V} (h : op.Apt E s) : ∀ a ∈ op.args, Arg.OK E a := by
  cases op with
  | on i op =>
    cases op with
    | insert a | insertHint _ a | insertPosBase _ a | insertPosLocal _ a =>
      intro b hb
      simp only [Op.args, COp.args, List.mem_singleton] at hb
      subst hb
      exact h.1
    | insertRange as => exact fun a ha => (h a ha).1
    | insertHintRange _ as => exact fun a ha => (h.2 a ha).1
    | insertPosRangeBase _ as =>
      obtain ⟨t, k, -, h⟩ := h
      exact fun a ha => (h a ha).1
    | _ => simp [Op.args, COp.args]
  | fromRange i al as => exact fun a ha => (h a ha).1
  | _ => simp [Op.args]

/-- Documented use is use. -/
theorem GoodReach.reach {sub : Ty → TI} {H : Nat → Health} {s : Sys V} {w : World} (h : GoodReach E k sub H s w) : Reach E k sub (Arg.OK E) s w := by
  induction h with
  | start al w hw => exact .start al w hw
  | ok h op hn hp hr ih => exact .ok ih op (apt_args E hp) hr
  | exc h op hn hp hs hr ih => exact .exc ih op (apt_args E hp) hr
  | hurt h op hn hp hr i hi ih => exact .exc ih op (apt_args E hp) hr
  | clear h i hi hr ih => exact .ok ih _ (by simp [Op.args, COp.args]) hr
  | mend h i n hi hr ih => exact .ok ih _ (by simp [Op.args, COp.args]) hr
  | tried h i n hi hr ih =>
    rcases hr with hr | ⟨e, hr⟩
    · exact .ok ih _ (by simp [Op.args, COp.args]) hr
    · exact .exc ih _ (by simp [Op.args, COp.args]) hr
  | shrunk h i hi hx hr ih => exact .ok ih _ (by simp [Op.args, COp.args]) hr
  | shrank h i hi hr ih =>
    rcases hr with hr | ⟨e, hr⟩
    · exact .ok ih _ (by simp [Op.args, COp.args]) hr
    · exact .exc ih _ (by simp [Op.args, COp.args]) hr
  | lose h op ha hr ih =>
    rcases hr with hr | ⟨e, hr⟩
    · exact .ok ih op ha hr
    · exact .exc ih op ha hr

/-- What is needed for `clear()` to be defined. -/
theorem GoodReach.weak {sub : Ty → TI} (hsub : ∀ t, E.tiTy (sub t) = t) {H : Nat → Health} {s : Sys V} {w : World} (h : GoodReach E k sub H s w)
    (hs : SysHolds E k H s w) {i : Nat} (hi : H i ≠ .lost ∨ k = .packed) : (s i).Weak E w := by
  rcases hi with hi | rfl
  · exact (hs.1 i).weak E hi
  · exact (reach_core hsub (GoodReach.reach E h) i).weak E

/-- Every state reached by a program is as healthy as it knows. -/
theorem goodReach_inv {sub : Ty → TI} (hsub : ∀ t, E.tiTy (sub t) = t) {H : Nat → Health} {s : Sys V} {w : World} (h : GoodReach E k sub H s w) :
    SysHolds E k H s w := by
  induction h with
  | start al w hw => exact ⟨fun i => ⟨empty_good E k _ hw, rfl⟩, hw⟩
  | ok h op hn hp hr ih =>
    have h1 := run_apt E hsub op _ _ ih hn hp
    unfold Leaves at h1
    rw [hr] at h1
    exact h1.1
  | exc h op hn hp hs hr ih =>
    have h1 := run_apt E hsub op _ _ ih hn hp
    unfold Leaves at h1
    rw [hr] at h1
    exact (h1.1 hs).1
  | hurt h op hn hp hr i hi ih =>
    have h1 := run_apt E hsub op _ _ ih hn hp
    unfold Leaves at h1
    rw [hr] at h1
    exact (h1.2 i hi).1
  | clear h i hi hr ih => exact (runs_ok (ih.clear E (GoodReach.weak E hsub h ih hi)) hr).1
  | mend h i n hi hr ih =>
    rcases hi with rfl | h2
    · exact (runs_ok (ih.mend E (reach_core hsub (GoodReach.reach E h) i)) hr).1
    · exact (runs_ok (ih.reserveAny E (reach_held hsub (GoodReach.reach E h) i) h2) hr).1
  | tried h i n hi hr ih =>
    have h1 := ih.reserve E (n := n) (sub := sub) (GoodReach.weak E hsub h ih hi)
    unfold Runs at h1
    rcases hr with hr | ⟨e, hr⟩ <;> rw [hr] at h1 <;> exact h1.1
  | shrunk h i hi hx hr ih => exact (runs_ok (ih.shrink E (GoodReach.weak E hsub h ih hi)) hr).2.1 hx
  | shrank h i hi hr ih =>
    have h1 := ih.shrink E (sub := sub) (GoodReach.weak E hsub h ih hi)
    unfold Runs at h1
    rcases hr with hr | ⟨e, hr⟩ <;> rw [hr] at h1 <;> exact h1.1
  | @lose H s s' w w' h op ha hr ih =>
    have h1 := run_inv E hsub op ha s w (ih.inv E)
    have h2 := run_changes E sub op s w (ih.inv E)
    have key : SysInv E k s' w' → w.next ≤ w'.next → (∀ x, x ∉ op.writes → s' x = s x) → SysHolds E k (Health.mark H op.writes .lost) s' w' := by
      intro a b c
      refine ⟨fun x => ?_, a.2⟩
      unfold Health.mark
      split
      · exact a.1 x
      · rename_i hx
        rw [c x hx]
        exact (ih.1 x).weaken E b
    unfold Leaves at h1 h2
    rcases hr with hr | ⟨e, hr⟩ <;> rw [hr] at h1 h2 <;> exact key h1.1 h1.2 h2

/-- The next documented use is defined. -/
theorem goodReach_defined {sub : Ty → TI} (hsub : ∀ t, E.tiTy (sub t) = t) {H : Nat → Health} {s : Sys V} {w : World} (h : GoodReach E k sub H s w)
    (op : Op V) (hn : ∀ i ∈ op.needs, H i = .sound) (hp : op.Pre E s) :
    op.run E k sub s w ≠ .ub := runs_not_ub (run_good E hsub op s w (goodReach_inv E hsub h) hn hp)

end Coll
end PolyColl
