import Verif.Lemmas.Heap
import Verif.Lemmas.History
/-!
# Programs with segments

Each operation on the heap does to the segments what the operation on values does, and keeps the accounts.
-/

namespace PolyColl
open Prog
variable {V : Type} {E : Env V}

namespace Seg

theorem Call.run_keeps (c : Call V) : Keeps (sameCtx Seg.fix) (c.run E) := by
  cases c with
  | reserve n => exact reserve_keeps E n
  | shrinkToFit => exact shrinkToFit_keeps E
  | emplace p src => exact COp.drop_keeps (emplace_keeps E p src)
  | pushBack src => exact COp.drop_keeps (pushBack_keeps E src)
  | insertBase p src => exact COp.drop_keeps (insertBase_keeps E p src)
  | insertLocal p src => exact COp.drop_keeps (insertLocal_keeps E p src)
  | insertRangeLocal fwd p srcs => exact COp.drop_keeps (insertRangeLocal_keeps E fwd p srcs)
  | insertRangeEnd fwd srcs => exact COp.drop_keeps (insertRangeEnd_keeps E fwd srcs)
  | insertRangeBase fwd p srcs => exact COp.drop_keeps (insertRangeBase_keeps E fwd p srcs)
  | eraseBase p => exact COp.drop_keeps (eraseBase_keeps E p)
  | eraseLocal p => exact COp.drop_keeps (eraseLocal_keeps E p)
  | eraseRangeBase p q => exact COp.drop_keeps (eraseRangeBase_keeps E p q)
  | eraseRangeLocal p q => exact COp.drop_keeps (eraseRangeLocal_keeps E p q)
  | eraseTillEnd p => exact COp.drop_keeps (eraseTillEnd_keeps E p)
  | eraseFromBegin q => exact COp.drop_keeps (eraseFromBegin_keeps E q)
  | clear => exact clear_keeps

theorem Call.run_tidy (c : Call V) {b : Nat} (hb : b ≠ 0) : Tidy (anyCtx (Seg V)) b (Seg.own b) (c.run E) := by
  cases c with
  | reserve n => exact reserve_tidy n
  | shrinkToFit => exact shrinkToFit_tidy hb
  | emplace p src => exact Tidy.drop (emplace_tidy p src)
  | pushBack src => exact Tidy.drop (pushBack_tidy src)
  | insertBase p src => exact Tidy.drop (insertBase_tidy p src)
  | insertLocal p src => exact Tidy.drop (insertLocal_tidy p src)
  | insertRangeLocal fwd p srcs => exact Tidy.drop (insertRangeLocal_tidy fwd p srcs)
  | insertRangeEnd fwd srcs => exact Tidy.drop (insertRangeEnd_tidy fwd srcs)
  | insertRangeBase fwd p srcs => exact Tidy.drop (insertRangeBase_tidy fwd p srcs)
  | eraseBase p => exact Tidy.drop (eraseBase_tidy p)
  | eraseLocal p => exact Tidy.drop (eraseLocal_tidy p)
  | eraseRangeBase p q => exact Tidy.drop (eraseRangeBase_tidy p q)
  | eraseRangeLocal p q => exact Tidy.drop (eraseRangeLocal_tidy p q)
  | eraseTillEnd p => exact Tidy.drop (eraseTillEnd_tidy p)
  | eraseFromBegin q => exact Tidy.drop (eraseFromBegin_tidy q)
  | clear => exact clear_tidy

end Seg

namespace HOp
open Heap

theorem vacant_sim {α : Type} {i : Nat} {p : Prog (Heap V) α} {q : Prog (Vars V) α} {h : Heap V} {w : World} {Q : α → α → Heap V → Vars V → World → Prop} {R : Heap V → Vars V → World → Prop}
    (hs : h.segs i = none → Sim p q h (abs h) w Q R) : Sim (do Heap.vacant i; p) (do Vars.vacant i; q) h (abs h) w Q R := by
  cases hi : h.segs i with
  | none =>
    have ha : (abs h i).isNone = true := by simp [abs, hi]
    refine Sim.left (a := ()) (x' := h) ?_ (Sim.right (b := ()) (y' := abs h) ?_ (hs hi))
    · unfold Heap.vacant
      simp only [bind, Prog.bind, Prog.get, hi, if_true]; rfl
    · unfold Vars.vacant
      simp only [bind, Prog.bind, Prog.get, ha, if_true]; rfl
  | some s =>
    have ha : (abs h i).isNone = false := by simp [abs, hi]
    refine Sim.ub ?_ ?_
    · unfold Heap.vacant
      simp only [bind, Prog.bind, Prog.get, hi]; rfl
    · unfold Vars.vacant
      simp only [bind, Prog.bind, Prog.get, ha]; rfl

theorem get_sim {α : Type} {i : Nat} {p : Handle → Prog (Heap V) α} {q : Option (Seg V) → Prog (Vars V) α} {h : Heap V} {w : World} {Q : α → α → Heap V → Vars V → World → Prop} {R : Heap V → Vars V → World → Prop}
    (hs : ∀ s, h.segs i = some s → ∀ x, abs h i = some x → Sim (p s) (q x) h (abs h) w Q R) : Sim (do let s ← Heap.handle i; p s) (do let x ← Vars.get i; q x) h (abs h) w Q R := by
  cases hi : h.segs i with
  | none =>
    have ha : abs h i = none := by simp [abs, hi]
    refine Sim.ub ?_ ?_
    · unfold Heap.handle
      simp only [bind, Prog.bind, Prog.get, hi]; rfl
    · unfold Vars.get
      simp only [bind, Prog.bind, Prog.get, ha]; rfl
  | some s =>
    obtain ⟨x, ha⟩ : ∃ x, abs h i = some x := by simp [abs, hi]
    refine Sim.left (handle_ok hi) (Sim.right (b := x) (y' := abs h) ?_ (hs s hi x ha))
    unfold Vars.get
    simp only [bind, Prog.bind, Prog.get, ha]; rfl

theorem seg_sim {α : Type} {i : Nat} {p : Nat → Prog (Heap V) α} {q : Seg V → Prog (Vars V) α} {h : Heap V} {w : World} {Q : α → α → Heap V → Vars V → World → Prop} {R : Heap V → Vars V → World → Prop}
    (ho : Owned h) (hs : ∀ s o x, h.segs i = some s → s.ptr = some o → h.objs.lookup o.addr = some x → abs h i = some (some ⟨x, s.snt⟩) → Sim (p o.addr) (q ⟨x, s.snt⟩) h (abs h) w Q R) :
    Sim (do let a ← Heap.impl i; p a) (do let x ← Vars.seg i; q x) h (abs h) w Q R := by
  rcases seg_cases ho i w with ⟨s, o, x, h1, h2, h3, -, -, h4, h5⟩ | ⟨h1, h2⟩
  · exact Sim.left (impl_ok h1 h2) (Sim.right h5 (hs s o x h1 h2 h3 h4))
  · refine Sim.ub ?_ ?_
    · simp only [bind, Prog.bind, impl_ub h1]
    · simp only [bind, Prog.bind, h2]

theorem onSeg_ub {α : Type} {i : Nat} {p : Prog (Seg V) α} {s : Vars V} {w : World} (h : Vars.seg i s w = .ub) : Vars.on i p s w = .ub := by
  unfold Vars.on
  simp only [bind, Prog.bind, h]

/-- An operation on the heap and on values. -/
theorem sim {op : HOp V} {h : Heap V} {w : World} (hf : op.Fine E) (hi : Inv h w) :
    Sim (op.run E) (op.value E) h (abs h) w (fun _ _ h' s' w' => After h' s' w') (fun h' s' w' => After h' s' w' ∧ (op.Strong → Same h h')) := by
  have st : ∀ {h' : Heap V} {s' : Vars V} {w' : World} {P : Prop}, After h' s' w' ∧ Same h h' → After h' s' w' ∧ (P → Same h h') := fun g => ⟨g.1, fun _ => g.2⟩
  have wk : ∀ {h' : Heap V} {s' : Vars V} {w' : World}, After h' s' w' → After h' s' w' ∧ (False → Same h h') := fun g => ⟨g, False.elim⟩
  cases op with
  | make i k t al =>
    refine vacant_sim fun hv => ?_
    rw [new_make]
    exact (next_construct hv h w k t al Vec.nil _ hi.own rfl (make_new hi)).mono (fun _ _ _ _ _ g => g) (fun _ _ _ g => st g)
  | prototype i j al =>
    refine vacant_sim fun hv => seg_sim hi.own fun s o x h1 h2 h3 h4 => ?_
    unfold Seg.makeFromPrototype
    rw [new_make]
    unfold emptyCopy
    rw [Prog.assoc]
    exact Sim.left (object_ok h3) ((next_construct hv h w x.kind x.ty al Vec.nil _ hi.own rfl (make_new hi)).mono (fun _ _ _ _ _ g => g) (fun _ _ _ g => st g))
  | copy i j =>
    refine vacant_sim fun hv => seg_sim hi.own fun s o x h1 h2 h3 h4 => ?_
    rw [new_copy, Prog.assoc]
    have hx : E.soccc (⟨x, s.snt⟩ : Seg V).al = x.al := hf x.al
    rw [hx]
    refine Sim.congr_left ?_ ((copyFrom_sim (next_construct hv) hi h3 (al := x.al)).mono (fun _ _ _ _ _ g => g) (fun _ _ _ g => st g))
    simp only [bind, Prog.bind, copy_as h3 (hf x.al)]
  | move i j =>
    refine vacant_sim fun hv => get_sim fun s hs x hx => ?_
    obtain ⟨h', e, g1, g2⟩ := moveCtor_ok hi hv hs
    unfold Sim
    rw [e]
    simp only [bind, Prog.bind, put_eq]
    refine ⟨trivial, g1, ?_⟩
    rw [g2, hx]
  | copyAl i j al =>
    refine vacant_sim fun hv => seg_sim hi.own fun s o x h1 h2 h3 h4 => ?_
    rw [new_copyAl, Prog.assoc]
    exact (copyFrom_sim (next_construct hv) hi h3).mono (fun _ _ _ _ _ g => g) (fun _ _ _ g => st g)
  | moveAl i j al =>
    refine vacant_sim fun hv => ?_
    rcases seg_cases hi.own j w with ⟨s, o, x, h1, h2, h3, -, -, h4, h5⟩ | ⟨h1, h2⟩
    · exact Sim.left (impl_ok h1 h2) ((moveFrom_sim (next_construct hv) hi h1 h2 h3 h4).mono (fun _ _ _ _ _ g => g) (fun _ _ _ g => wk g))
    · refine Sim.ub ?_ ?_
      · simp only [bind, Prog.bind, impl_ub h1]
      · simp only [bind, Prog.bind, onSeg_ub h2]
  | assign i j =>
    refine get_sim fun s hs x hx => seg_sim hi.own fun s1 o1 x1 h1 h2 h3 h4 => ?_
    unfold assigned valueCopy
    by_cases hp : E.pocca = true
    · rw [if_pos hp, if_pos hp, new_copy, Prog.assoc]
      have hx : E.soccc (⟨x1, s1.snt⟩ : Seg V).al = x1.al := hf hp x1.al
      rw [hx]
      refine Sim.congr_left ?_ ((copyFrom_sim (next_reset hs) hi h3 (al := x1.al)).mono (fun _ _ _ _ _ g => g) (fun _ _ _ g => st g))
      simp only [bind, Prog.bind, copy_as h3 (hf hp x1.al)]
    · rw [if_neg hp, if_neg hp, Prog.assoc, Prog.assoc]
      refine seg_sim hi.own fun s2 o2 x2 g1 g2 g3 g4 => ?_
      rw [Prog.assoc]
      refine Sim.left (object_ok g3) ?_
      rw [new_copyAl, Prog.assoc]
      exact (copyFrom_sim (next_reset hs) hi h3).mono (fun _ _ _ _ _ g => g) (fun _ _ _ g => st g)
  | moveAssign i j =>
    refine get_sim fun s hs x hx => seg_sim hi.own fun s1 o1 x1 h1 h2 h3 h4 => ?_
    unfold movedAl valueMoveAl
    by_cases hp : E.pocma = true
    · rw [if_pos hp, if_pos hp, Prog.assoc, Prog.assoc]
      refine Sim.left (object_ok h3) ?_
      rcases seg_cases hi.own j w with ⟨s', o', x', h1', h2', h3', -, -, h4', h5'⟩ | ⟨h1', h2'⟩
      · obtain rfl : s1 = s' := Option.some.inj (h1.symm.trans h1')
        obtain rfl : o1 = o' := Option.some.inj (h2.symm.trans h2')
        obtain rfl : x1 = x' := Option.some.inj (h3.symm.trans h3')
        refine Sim.right h5' ?_
        exact (moveFrom_sim (next_reset hs) hi h1 h2 h3 h4).mono (fun _ _ _ _ _ g => g) (fun _ _ _ g => wk g)
      · rw [h1' _ h1] at h2; cases h2
    · rw [if_neg hp, if_neg hp, Prog.assoc, Prog.assoc]
      refine seg_sim hi.own fun s2 o2 x2 g1 g2 g3 g4 => ?_
      rw [Prog.assoc]
      refine Sim.left (object_ok g3) ?_
      exact (moveFrom_sim (next_reset hs) hi h1 h2 h3 h4).mono (fun _ _ _ _ _ g => g) (fun _ _ _ g => wk g)
  | call i c => exact (member_sim hi (Seg.Call.run_keeps c) fun b hb => Seg.Call.run_tidy c hb).mono (fun _ _ _ _ _ g => g.2) (fun _ _ _ g => wk g)
  | destroy i =>
    refine get_sim fun s hs x hx => ?_
    obtain ⟨h', e, g1, g2⟩ := destroy_ok hi hs
    unfold Sim
    rw [e, put_eq]
    exact ⟨rfl, g1, g2.symm⟩

theorem all_sim {ops : List (HOp V)} {h : Heap V} {w : World} (hf : ∀ op ∈ ops, op.Fine E) (hi : Inv h w) :
    Sim (all (run E) ops) (all (value E) ops) h (abs h) w (fun r r' h' s' w' => r' = r ∧ After h' s' w') (fun _ _ _ => False) := by
  induction ops generalizing h w with
  | nil => exact Sim.pure ⟨rfl, hi, rfl⟩
  | cons op ops ih =>
    unfold all
    have := sim (E := E) (hf op List.mem_cons_self) hi
    refine Sim.bind (Q := fun r r' h' s' w' => r' = r ∧ After h' s' w') ?_ ?_
    · unfold Sim at this ⊢
      cases h1 : op.run E h w <;> cases h2 : op.value E (abs h) w <;> simp only [h1, h2] at this ⊢
      · exact ⟨this.1, trivial, this.2⟩
      · exact ⟨this.2.1, by rw [this.1], this.2.2.1⟩
    · rintro r r' h' s' w' ⟨rfl, g1, rfl⟩
      refine Sim.bind (ih (fun o ho => hf o (List.mem_cons_of_mem _ ho)) g1) ?_
      rintro rs rs' h'' s'' w'' ⟨rfl, g⟩
      exact Sim.pure ⟨rfl, g⟩

theorem inv_start {w : World} (hw : 0 < w.next) : Inv (Heap.start : Heap V) w :=
  ⟨⟨List.Perm.refl _, List.nodup_nil, by simp [Heap.start, holds], hw⟩, ⟨by simp [Heap.start], by simp [Heap.start], by simp [Heap.start]⟩, rfl⟩

end HOp
end PolyColl
