import Verif.Model.Ranges
import Verif.Lemmas.CollFail
import Verif.Lemmas.CollMore
import Verif.Lemmas.Never
/-! # Ranges given by iterators -/

namespace PolyColl
open Prog

namespace Coll
variable {V : Type} (E : Env V)

/-- What looking up the segment of an argument throws. -/
def ForExc (c : Coll V) (a : Arg V) (e : Exc) : Prop :=
  TMap.InsExc E (E.tiTy a.dyn) e ∨
  e = .unregistered (E.tiTy a.dyn) ∧ E.tiTy a.dyn ∉ c.abs.types ∧ ¬ (a.acc = true ∧ E.tiTy a.dyn = E.tiTy a.stat)

theorem forArg_exc (a : Arg V) (ha : Arg.OK E a) (c : Coll V) (w : World) (h : c.map.Inv E c.kind w) :
    Runs (forArg E a) c w (fun it c' w' => ∃ n, Ens E c w (E.tiTy a.dyn) n c' w' ∧ c'.map.Ref it n) (fun e _ _ => ForExc E c a e) := by
  refine (forArg_runs E a ha c w h).mono ?_ ?_
  · rintro it c' w' ⟨n, h1, h2, -⟩
    exact ⟨n, h1, h2⟩
  · rintro e c' w' (h | ⟨h1, -, -, -, -, h2, h3⟩)
    · exact Or.inl h.exc
    · refine Or.inr ⟨h1, fun hm => ?_, h3⟩
      obtain ⟨n, hn, e⟩ := types_mem hm
      exact h2 n hn e

theorem insertRangeAs_runs (I : IterTy) (as : List (Arg V)) (vs : List V) (c : Coll V) (w : World) (hc : c.Inv E w)
    (ha : ∀ a ∈ as, Arg.OK E a ∧ E.tiTy a.dyn = E.tiTy I.value) (hext : ∀ a ∈ as, a.src.ext = true)
    (hv : as.map (fun a => a.src.val Vec.nil) = vs.map some) :
    Runs (insertRangeAs E I as) c w
      (fun _ c' w' => vs = [] ∧ c' = c ∧ w' = w ∨
        vs ≠ [] ∧ Inserted E c w (E.tiTy I.value) (c.abs.elemsOf (E.tiTy I.value)).length vs c' w')
      (fun e _ _ => ∃ a ∈ as, ForExc E c a e ∨
        ExcFrom E (E.tiTy a.dyn) (∃ b ∈ as, b.src.copies) (E.TooMany (E.tiTy a.dyn) ((c.abs.elemsOf (E.tiTy a.dyn)).length + vs.length)) e) := by
  have hlen : as.length = vs.length := by have := congrArg List.length hv; simpa using this
  cases as with
  | nil => exact Or.inl ⟨List.length_eq_zero_iff.1 hlen.symm, rfl, rfl⟩
  | cons a as =>
    have hne : vs ≠ [] := fun e => by simp [e] at hlen
    have hpos : 1 ≤ vs.length := by rw [← hlen]; simp
    obtain ⟨h1, h2⟩ := ha a (by simp)
    unfold insertRangeAs
    rw [runs_bind]
    refine (forArg_exc E a h1 c w hc.map).mono ?_ (fun e _ _ h => ⟨a, by simp, Or.inl h⟩)
    rintro it c1 w1 ⟨n, ens, hr⟩
    have hg := ens.good E (stable_inv E) hc
    rw [runs_bind, runs_onSeg E ens.inv.ids hr, runs_downcast (ens.ty.trans h2)]
    have hext' : ∀ src ∈ (a :: as).map (·.src), src.ext = true := by
      intro src hs
      obtain ⟨b, hb, rfl⟩ := List.mem_map.1 hs
      exact hext b hb
    have hv' : ((a :: as).map (·.src)).map (Src.val n.seg.be.store) = vs.map some := by
      rw [← hv, List.map_map]
      exact List.map_congr_left (fun b hb => val_ext (hext b hb) _ _)
    refine (Seg.insertRangeEnd_runs E I.fwd n.seg w1 (hg.mem.segs n ens.mem).core _ vs hext' hv').mono ?_ ?_
    · rintro _ s w' ⟨b1, -⟩
      refine Or.inr ⟨hne, ?_⟩
      rw [← h2, ← ens.elems E hc.map]
      exact ⟨ens, b1, Nat.le_refl _⟩
    · rintro e s w' h
      refine ⟨a, by simp, Or.inr ?_⟩
      refine ((TermFail.seg (E := E) (t := E.tiTy a.dyn) ens h).exc E hc.map hpos).mono ?_ id
      rintro ⟨src, hs, h⟩
      obtain ⟨b, hb, rfl⟩ := List.mem_map.1 hs
      exact ⟨b, hb, h⟩

theorem insertHintRangeAs_runs (hint : GIter) (p : Spec.State.Pos) (I : IterTy) (as : List (Arg V)) (vs : List V) (c : Coll V) (w : World)
    (hc : c.Inv E w) (hh : c.At E hint p) (hok : HintOK E c (as.map fun a => E.tiTy a.dyn))
    (ha : ∀ a ∈ as, Arg.OK E a ∧ E.tiTy a.dyn = E.tiTy I.value) (hext : ∀ a ∈ as, a.src.ext = true)
    (hv : as.map (fun a => a.src.val Vec.nil) = vs.map some) :
    Runs (insertHintRangeAs E hint I as) c w
      (fun _ c' w' => vs = [] ∧ c' = c ∧ w' = w ∨ vs ≠ [] ∧ Inserted E c w (E.tiTy I.value) (c.abs.hintPos (E.tiTy I.value) p) vs c' w')
      (fun e _ _ => ∃ a ∈ as, ForExc E c a e ∨
        ExcFrom E (E.tiTy a.dyn) (∃ b ∈ as, b.src.copies) (E.TooMany (E.tiTy a.dyn) ((c.abs.elemsOf (E.tiTy a.dyn)).length + vs.length)) e) := by
  have hlen : as.length = vs.length := by have := congrArg List.length hv; simpa using this
  cases as with
  | nil => exact Or.inl ⟨List.length_eq_zero_iff.1 hlen.symm, rfl, rfl⟩
  | cons a as =>
    have hne : vs ≠ [] := fun e => by simp [e] at hlen
    have hpos : 1 ≤ vs.length := by rw [← hlen]; simp
    obtain ⟨h1, h2⟩ := ha a (by simp)
    have hext' : ∀ src ∈ (a :: as).map (·.src), src.ext = true := by
      intro src hs
      obtain ⟨b, hb, rfl⟩ := List.mem_map.1 hs
      exact hext b hb
    have hv' : ((a :: as).map (·.src)).map (Src.val Vec.nil) = vs.map some := by rw [← hv, List.map_map]; rfl
    unfold insertHintRangeAs
    rw [runs_bind]
    refine (forArg_exc E a h1 c w hc.map).mono ?_ (fun e _ _ h => ⟨a, by simp, Or.inl h⟩)
    rintro it c1 w1 ⟨n, ens, hr⟩
    have hat := ens.at E hc.map (hok.head E) hh
    rw [h2] at ens
    refine (terminalHint_runs E hint p I.fwd I.value _ vs hc ens hr hat hext' hv' hne).mono (fun _ _ _ h => h) ?_
    intro e c' w' h
    refine ⟨a, by simp, Or.inr ?_⟩
    rw [h2]
    refine (h.exc E hc.map hpos).mono ?_ id
    rintro ⟨src, hs, h⟩
    obtain ⟨b, hb, rfl⟩ := List.mem_map.1 hs
    exact ⟨b, hb, h⟩

/-- A segment accessed as one of another type. -/
theorem leaves_other {α β : Type} {it : MapIt} {t : Ty} {p : Prog (Seg V) α} {f : α → Prog (Coll V) β} {c : Coll V} {w : World} {n : Node V}
    {Q : β → Coll V → World → Prop} {R : Exc → Coll V → World → Prop}
    (hi : (c.map.nodes.map (·.id)).Nodup) (hr : c.map.Ref it n) (ht : n.seg.ty ≠ t) :
    Leaves (onMap (TMap.onSeg E it (downcast t p)) >>= f) c w Q R := by
  refine Leaves.stop ?_
  unfold Leaves onMap zoom TMap.onSeg
  simp only [hr.node? E hi]
  unfold downcast
  simp only [bind, Prog.bind, Prog.get, if_neg ht, undef]

theorem insertRangeAs_never (I : IterTy) (a : Arg V) (as : List (Arg V)) (c : Coll V) (w : World) (hc : c.Inv E w)
    (ha : Arg.OK E a) (ht : E.tiTy a.dyn ≠ E.tiTy I.value) :
    Leaves (insertRangeAs E I (a :: as)) c w (fun _ _ _ => False) (fun e _ _ => ForExc E c a e) := by
  unfold insertRangeAs
  rw [leaves_bind]
  refine (forArg_exc E a ha c w hc.map).leaves.mono ?_ (fun _ _ _ h => h)
  rintro it c1 w1 ⟨n, ens, hr⟩
  exact leaves_other E ens.inv.ids hr (by rw [ens.ty]; exact ht)

theorem insertHintRangeAs_never (hint : GIter) (I : IterTy) (a : Arg V) (as : List (Arg V)) (c : Coll V) (w : World) (hc : c.Inv E w)
    (ha : Arg.OK E a) (ht : E.tiTy a.dyn ≠ E.tiTy I.value) :
    Leaves (insertHintRangeAs E hint I (a :: as)) c w (fun _ _ _ => False) (fun e _ _ => ForExc E c a e) := by
  unfold insertHintRangeAs
  rw [leaves_bind]
  refine (forArg_exc E a ha c w hc.map).leaves.mono ?_ (fun _ _ _ h => h)
  rintro it c1 w1 ⟨n, ens, hr⟩
  simp only [leaves_bind, leaves_get, leaves_ofOption]
  intro b _
  rw [leaves_ite]
  have ht' : n.seg.ty ≠ E.tiTy I.value := by rw [ens.ty]; exact ht
  exact ⟨fun _ => leaves_other E ens.inv.ids hr ht', fun _ => leaves_other E ens.inv.ids hr ht'⟩

end Coll
end PolyColl
