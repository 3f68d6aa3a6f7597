import Verif.Lemmas.KeepsColl
import Verif.Lemmas.Leaves
import Verif.Model.Writing
/-! # Writing through iterators changes nothing look-up depends on -/

namespace PolyColl
open Prog

variable {V : Type} (E : Env V)

namespace Backend

theorem withStore_bfix (b : Backend V) (v : Vec V) : Seg.bfix (b.withStore v) = Seg.bfix b := by cases b <;> rfl

theorem modify_bfix {b b' : Backend V} {o : Coll.Sort'} {p : Ptr} {f : V → V} (h : b.modify o p f = some b') : Seg.bfix b' = Seg.bfix b := by
  unfold modify at h
  simp only [Option.bind_eq_some_iff, Option.map_eq_some_iff] at h
  obtain ⟨q, -, v, -, rfl⟩ := h
  exact withStore_bfix b v

theorem setEntry_bfix {b b' : Backend V} {p r : Ptr} (h : b.setEntry p r = some b') : Seg.bfix b' = Seg.bfix b := by
  cases b with
  | packed x => simp [setEntry] at h
  | split x =>
    simp only [setEntry, Option.map_eq_some_iff] at h
    obtain ⟨i, -, rfl⟩ := h
    rfl

end Backend

namespace Seg

theorem apply_keeps (o : Coll.Sort') (p : Ptr) (a : Act V) : Keeps (sameCtx fix) (Seg.apply E o p a) := by
  refine Keeps.of_leaves fun x w _ => ?_
  simp only [Seg.apply, leaves_bind, leaves_get, leaves_ofOption, leaves_pure, leaves_onExc, leaves_set]
  intro q _ v _ ok h1 bad h2
  have g1 : Seg.fix (⟨ok, x.snt⟩ : Seg V) = x.fix := by rw [fix_be, fix_be]; exact Backend.modify_bfix h1
  have g2 : Seg.fix (⟨bad, x.snt⟩ : Seg V) = x.fix := by rw [fix_be, fix_be]; exact Backend.modify_bfix h2
  refine ((Keeps.userOp (C := anyCtx (Seg V))).leaves trivial).mono ?_ ?_
  · rintro _ x' w' ⟨-, -, h⟩; exact ⟨trivial, g1, h⟩
  · rintro _ x' w' ⟨-, -, h⟩; exact ⟨trivial, g2, h⟩

theorem rebind_keeps (p r : Ptr) : Keeps (sameCtx fix) (Seg.rebind p r : Prog (Seg V) Unit) := by
  refine Keeps.of_leaves fun x w _ => ?_
  simp only [Seg.rebind, leaves_bind, leaves_get, leaves_ofOption, leaves_set]
  intro b h
  have g : Seg.fix (⟨b, x.snt⟩ : Seg V) = x.fix := by rw [fix_be, fix_be]; exact Backend.setEntry_bfix h
  exact ⟨trivial, g, Nat.le_refl _⟩

end Seg

namespace Coll
variable {k : Kind}

theorem apply_keeps (o : Sort') (p : Ptr) (a : Act V) : Keeps (collCtx E k) (Coll.apply E o p a) := by
  unfold Coll.apply
  refine Keeps.bind Keeps.get fun c => Keeps.bind Keeps.ofOption fun n => onSeg_keeps E _ (Seg.apply_keeps E o p a)

theorem rebind_keeps (p q : Ptr) : Keeps (collCtx E k) (Coll.rebind E p q) := by
  unfold Coll.rebind
  refine Keeps.bind Keeps.get fun c => Keeps.bind Keeps.ofOption fun r => Keeps.bind Keeps.ofOption fun n =>
    onSeg_keeps E _ (Seg.rebind_keeps p r)

end Coll
end PolyColl
