import Verif.Lemmas.CollMore
/-!
# Range insertions copy only what can be copied
-/

namespace PolyColl
namespace Coll
open Prog Spec.State

variable {V : Type} (E : Env V)

theorem insertRange_copyable (as : List (Arg V)) : ∀ (vs : List V) (c : Coll V) (w : World), c.Inv E w →
    (∀ a ∈ as, Arg.OK E a ∧ a.src.ext = true) → as.map (fun a => a.src.val Vec.nil) = vs.map some →
    Runs (insertRange E as) c w (fun _ _ _ => ∀ a ∈ as, a.src.copies → (E.traits (E.tiTy a.dyn)).copyable = true) (fun _ _ _ => True) := by
  induction as with
  | nil => intro vs c w hc ha hv a hm; cases hm
  | cons a as ih =>
    intro vs c w hc ha hv
    cases vs with
    | nil => simp at hv
    | cons v vs =>
    simp only [List.map_cons, List.cons.injEq] at hv
    obtain ⟨h1, h2⟩ := ha a (by simp)
    unfold insertRange
    rw [runs_bind]
    refine (insert_runs E a v h1 c w hc (Or.inl ⟨h2, hv.1⟩)).mono ?_ (fun _ _ _ _ => trivial)
    rintro it c1 w1 ⟨b1, -, -, b4⟩
    refine (ih vs c1 w1 (b1.inv E hc) (fun b hb => ha b (by simp [hb])) hv.2).mono ?_ (fun _ _ _ h => h)
    intro _ c' w' h b hb
    rcases List.mem_cons.1 hb with rfl | hb
    · exact b4
    · exact h b hb

theorem insertRangeTerminal_copyable (fwd : Bool) (t : TI) (srcs : List (Src V)) (vs : List V) (c : Coll V) (w : World) (hc : c.Inv E w)
    (hext : ∀ src ∈ srcs, src.ext = true) (hv : srcs.map (Src.val Vec.nil) = vs.map some) :
    Runs (insertRangeTerminal E fwd t srcs) c w
      (fun _ _ _ => (∃ src ∈ srcs, src.copies) → (E.traits (E.tiTy t)).copyable = true) (fun _ _ _ => True) := by
  unfold insertRangeTerminal
  rw [runs_ite]
  refine ⟨fun h0 => ?_, fun h0 => ?_⟩
  · subst h0; rintro ⟨_, h, -⟩; cases h
  · rw [runs_bind]
    refine (forT_runs E t c w hc.map).mono ?_ (fun _ _ _ h => trivial)
    rintro it c1 w1 ⟨n, ens, hr⟩
    have hg := ens.good E (stable_inv E) hc
    rw [runs_bind, runs_onSeg E ens.inv.ids hr, runs_downcast ens.ty]
    have hv' : srcs.map (Src.val n.seg.be.store) = vs.map some := by
      rw [← hv]; exact List.map_congr_left (fun a ha => val_ext (hext a ha) _ _)
    refine (Seg.insertRangeEnd_runs E fwd n.seg w1 (hg.mem.segs n ens.mem).core srcs vs hext hv').mono ?_ (fun _ _ _ _ => trivial)
    rintro _ s w' ⟨-, -, b⟩
    exact ens.ty ▸ b

theorem insertFrom_copyable (xs : List (Item V)) : ∀ (c : Coll V) (w : World), c.Inv E w →
    (∀ x ∈ xs, x.proto.kind = c.kind ∧ x.proto.ty = E.tiTy x.id) →
    Runs (insertFrom E xs) c w (fun _ _ _ => ∀ p ∈ typedItems E xs, (E.traits p.1).copyable = true) (fun _ _ _ => True) := by
  induction xs with
  | nil => intro c w hc hx p hp; cases hp
  | cons x xs ih =>
    intro c w hc hx
    obtain ⟨h1, h2⟩ := hx x (by simp)
    unfold insertFrom
    rw [runs_bind]
    refine (forProto_runs E x.id x.proto c w hc.map h1 h2).mono ?_ (fun _ _ _ h => trivial)
    rintro it c1 w1 ⟨n, ens, hr⟩
    rw [runs_bind]
    refine (append_runs E (.copyExt x.val) x.val hc (Or.inl ⟨rfl, rfl⟩) ens hr).mono ?_ (fun _ _ _ _ => trivial)
    rintro q c2 w2 ⟨s, rfl, b1, -, b3⟩
    have hins : Inserted E c w (E.tiTy x.id) (c.abs.elemsOf (E.tiTy x.id)).length [x.val] (c1.put n s) w2 := by
      rw [← ens.elems E hc.map]
      exact ⟨ens, b1, Nat.le_refl _⟩
    refine (ih _ _ (hins.inv E hc) (fun y hy => ?_)).mono ?_ (fun _ _ _ h => h)
    · rw [hins.kind E]; exact hx y (by simp [hy])
    · intro _ c' w' h p hp
      rcases List.mem_cons.1 hp with rfl | hp
      · exact b3 rfl
      · exact h p hp

theorem insertColl_copyable {sub : Ty → TI} (hsub : ∀ t, E.tiTy (sub t) = t) (src : Coll V) (w0 : World) (hs : src.Inv E w0) {first last : GIter}
    {p q : Spec.State.Pos} (hf : src.At E first p) (hl : src.At E last q) (hpq : src.abs.rank p ≤ src.abs.rank q)
    (c : Coll V) (w : World) (hc : c.Inv E w) (hk : src.kind = c.kind) :
    Runs (insertColl E sub src first last) c w
      (fun _ _ _ => ∀ x ∈ between src.abs p q, (E.traits x.1).copyable = true) (fun _ _ _ => True) := by
  obtain ⟨items, h1, h2, h3⟩ := collect_between E hs hsub hf hl hpq
  unfold insertColl
  rw [runs_bind, runs_ofOption]
  refine ⟨items, h1, ?_⟩
  rw [← h2]
  exact insertFrom_copyable E items c w hc (fun i hi => ⟨(h3 i hi).1.trans hk, (h3 i hi).2⟩)

theorem insertLocalColl_copyable {sub : Ty → TI} (hsub : ∀ t, E.tiTy (sub t) = t) (src : Coll V) (w0 : World) (hs : src.Inv E w0)
    {first last : LIter} {t : Ty} {a b : Nat} (hf : src.LAtB E first t a) (hl : src.LAtB E last t b) (hab : a ≤ b)
    (c : Coll V) (w : World) (hc : c.Inv E w) (hk : src.kind = c.kind) :
    Runs (insertLocalColl E sub src first last) c w
      (fun _ _ _ => slice src.abs t a b ≠ [] → (E.traits t).copyable = true) (fun _ _ _ => True) := by
  obtain ⟨s, h1, h2, rfl⟩ := collectLocal_at E hs hf hl hab
  unfold insertLocalColl
  rw [runs_bind, runs_ofOption]
  refine ⟨_, h1, ?_⟩
  unfold insertFromLocal
  cases hs : slice src.abs s.ty a b with
  | nil => intro h; exact absurd rfl h
  | cons v vs =>
    rw [if_neg (by simp), runs_bind]
    refine (forProto_runs E (sub s.ty) s c w hc.map (h2.trans hk) (by rw [hsub])).mono ?_ (fun _ _ _ h => trivial)
    rintro it c1 w1 ⟨n, ens, hr⟩
    have hg := ens.good E (stable_inv E) hc
    have e2 := Ens.refl E hg.map hr.mem
    rw [runs_each_cons, runs_bind]
    rw [hsub] at ens
    rw [hsub, ← ens.ty]
    refine (append_runs E (.copyExt v) v hg (Or.inl ⟨rfl, rfl⟩) e2 hr).mono ?_ (fun _ _ _ _ => trivial)
    rintro q c2 w2 ⟨s', rfl, b1, -, b3⟩
    have hins : Inserted E c1 w1 n.seg.ty (c1.abs.elemsOf n.seg.ty).length [v] (c1.put n s') w2 := by
      rw [← e2.elems E hg.map]
      exact ⟨e2, b1, Nat.le_refl _⟩
    exact (appendLoop_runs E it n.seg.ty vs _ _ _ (hins.inv E hg) (TMap.put_ref_self hr) b1.step.ty).mono (fun _ _ _ _ _ => b3 rfl) (fun _ _ _ _ => trivial)

/-! ### Construction -/

theorem fromRange_copyable {X : Type} (k : Kind) (al : Alloc) (as : List (Arg V)) (vs : List V) (z : X) (w : World) (hw : 0 < w.next)
    (ha : ∀ a ∈ as, Arg.OK E a ∧ a.src.ext = true) (hv : as.map (fun a => a.src.val Vec.nil) = vs.map some) :
    Runs (fromRange E k al as : Prog X (Coll V)) z w
      (fun _ _ _ => ∀ a ∈ as, a.src.copies → (E.traits (E.tiTy a.dyn)).copyable = true) (fun _ _ _ => True) := by
  unfold fromRange
  rw [runs_locally]
  exact insertRange_copyable E as vs (empty' k al) w (empty_good E k al hw) ha hv

theorem fromTerminal_copyable {X : Type} (k : Kind) (al : Alloc) (fwd : Bool) (t : TI) (srcs : List (Src V)) (vs : List V) (z : X) (w : World)
    (hw : 0 < w.next) (hext : ∀ src ∈ srcs, src.ext = true) (hv : srcs.map (Src.val Vec.nil) = vs.map some) :
    Runs (fromTerminal E k al fwd t srcs : Prog X (Coll V)) z w
      (fun _ _ _ => (∃ src ∈ srcs, src.copies) → (E.traits (E.tiTy t)).copyable = true) (fun _ _ _ => True) := by
  unfold fromTerminal
  rw [runs_locally]
  exact insertRangeTerminal_copyable E fwd t srcs vs (empty' k al) w (empty_good E k al hw) hext hv

theorem fromColl_copyable {X : Type} {sub : Ty → TI} (hsub : ∀ t, E.tiTy (sub t) = t) (src : Coll V) (w0 : World) (hs : src.Inv E w0)
    {first last : GIter} {p q : Spec.State.Pos} (hf : src.At E first p) (hl : src.At E last q) (hpq : src.abs.rank p ≤ src.abs.rank q)
    (al : Alloc) (z : X) (w : World) (hw : 0 < w.next) :
    Runs (fromColl E sub src.kind al src first last : Prog X (Coll V)) z w
      (fun _ _ _ => ∀ x ∈ between src.abs p q, (E.traits x.1).copyable = true) (fun _ _ _ => True) := by
  unfold fromColl
  rw [runs_locally]
  exact insertColl_copyable E hsub src w0 hs hf hl hpq (empty' src.kind al) w (empty_good E _ al hw) rfl

theorem fromLocalColl_copyable {X : Type} {sub : Ty → TI} (hsub : ∀ t, E.tiTy (sub t) = t) (src : Coll V) (w0 : World) (hs : src.Inv E w0)
    {first last : LIter} {t : Ty} {a b : Nat} (hf : src.LAtB E first t a) (hl : src.LAtB E last t b) (hab : a ≤ b)
    (al : Alloc) (z : X) (w : World) (hw : 0 < w.next) :
    Runs (fromLocalColl E sub src.kind al src first last : Prog X (Coll V)) z w
      (fun _ _ _ => slice src.abs t a b ≠ [] → (E.traits t).copyable = true) (fun _ _ _ => True) := by
  unfold fromLocalColl
  rw [runs_locally]
  exact insertLocalColl_copyable E hsub src w0 hs hf hl hab (empty' src.kind al) w (empty_good E _ al hw) rfl

end Coll
end PolyColl
