import Verif.Lemmas.Work
import Verif.Lemmas.WorkBounds
import Verif.Lemmas.SegmentOps
import Verif.Spec.Work
/-! # Operations on segments one after the other, and what they cost on average -/

namespace PolyColl.Work
open Prog Spec

section
variable {V : Type} (E : Env V)

theorem src_ext {src : Src V} (h : src.ext = true) (x : Seg V) : ∃ v, x.SrcOK src v := by
  cases src with
  | copyExt v => exact ⟨v, rfl, Or.inl rfl⟩
  | copyAlias p => exact absurd h (by simp [Src.ext])
  | moveExt v => exact ⟨v, rfl, Or.inl rfl⟩
  | emplaced v => exact ⟨v, rfl, Or.inl rfl⟩

theorem srcs_ext (s : Vec V) : ∀ {srcs : List (Src V)}, (∀ src ∈ srcs, src.ext = true) →
    ∃ vs : List V, srcs.map (Src.val s) = vs.map some
  | [], _ => ⟨[], rfl⟩
  | src :: srcs, h => by
    obtain ⟨vs, hv⟩ := srcs_ext s fun a ha => h a (List.mem_cons_of_mem _ ha)
    have : ∃ v, src.val s = some v := by
      have := h src (List.mem_cons_self ..)
      cases src with
      | copyExt v => exact ⟨v, rfl⟩
      | copyAlias p => exact absurd this (by simp [Src.ext])
      | moveExt v => exact ⟨v, rfl⟩
      | emplaced v => exact ⟨v, rfl⟩
    obtain ⟨v, hs⟩ := this
    exact ⟨v :: vs, by simp [hs, hv]⟩

variable {E}

theorem ok_of {X α : Type} {p : Prog X α} {x y : X} {w w' : World} {a : α} {Q R} (h : Runs p x w Q R) (e : p x w = .ok a y w') :
    Q a y w' := by
  unfold Runs at h; rw [e] at h; exact h

/-- A segment in order stays so. -/
theorem run_inv {op : SegOp V} {x y : Seg V} {w w' : World} {a : Unit} (hx : x.Inv E w) (hp : WorkPre x op)
    (h : op.run E x w = .ok a y w') : y.Inv E w' ∧ w.next ≤ w'.next := by
  unfold SegOp.run at h
  obtain ⟨_, _, _, hg, h⟩ := bind_inv h
  cases hg
  have hc := hx.core
  cases op with
  | pushBack src =>
    obtain ⟨_, h⟩ := ign_inv h
    obtain ⟨v, hv⟩ := src_ext hp x
    have := (ok_of (Seg.pushBack_runs E x w hc src v hv) h).1
    exact ⟨this.inv, this.next⟩
  | emplace n src =>
    obtain ⟨_, h⟩ := ign_inv h
    obtain ⟨v, hv⟩ := src_ext hp.2 x
    have := (ok_of (Seg.emplace_runs E x w hc (.base (x.base n)) n ⟨hp.1, rfl⟩ src v hv) h).1
    exact ⟨this.inv, this.next⟩
  | insertBase n src =>
    obtain ⟨_, h⟩ := ign_inv h
    obtain ⟨v, hv⟩ := src_ext hp.2 x
    have := (ok_of (Seg.insertBase_runs E x w hc n hp.1 src v hv) h).1
    exact ⟨this.inv, this.next⟩
  | insertLocal n src =>
    obtain ⟨_, h⟩ := ign_inv h
    obtain ⟨v, hv⟩ := src_ext hp.2 x
    have := (ok_of (Seg.insertLocal_runs E x w hc n hp.1 src v hv) h).1
    exact ⟨this.inv, this.next⟩
  | insertRangeBase fwd n srcs =>
    obtain ⟨_, h⟩ := ign_inv h
    obtain ⟨vs, hv⟩ := srcs_ext x.be.store hp.2
    have := (ok_of (Seg.insertRangeBase_runs E fwd x w hc n hp.1 srcs vs hp.2 hv) h).1
    exact ⟨this.inv, this.next⟩
  | insertRangeLocal fwd n srcs =>
    obtain ⟨_, h⟩ := ign_inv h
    obtain ⟨vs, hv⟩ := srcs_ext x.be.store hp.2
    have := (ok_of (Seg.insertRangeLocal_runs E fwd x w hc n hp.1 srcs vs hp.2 hv) h).1
    exact ⟨this.inv, this.next⟩
  | insertRangeEnd fwd srcs =>
    obtain ⟨_, h⟩ := ign_inv h
    obtain ⟨vs, hv⟩ := srcs_ext x.be.store hp
    have := (ok_of (Seg.insertRangeEnd_runs E fwd x w hc srcs vs hp hv) h).1
    exact ⟨this.inv, this.next⟩
  | eraseBase n =>
    obtain ⟨_, h⟩ := ign_inv h
    have := (ok_of (Seg.eraseBase_runs E x w hc n hp) h).1
    exact ⟨this.inv, Nat.le_of_eq this.next.symm⟩
  | eraseLocal n =>
    obtain ⟨_, h⟩ := ign_inv h
    have := (ok_of (Seg.eraseLocal_runs E x w hc n hp) h).1
    exact ⟨this.inv, Nat.le_of_eq this.next.symm⟩
  | eraseRangeBase m n =>
    obtain ⟨_, h⟩ := ign_inv h
    have := (ok_of (Seg.eraseRangeBase_runs E x w hc m n hp.1 hp.2) h).1
    exact ⟨this.inv, Nat.le_of_eq this.next.symm⟩
  | eraseRangeLocal m n =>
    obtain ⟨_, h⟩ := ign_inv h
    have := (ok_of (Seg.eraseRangeLocal_runs E x w hc m n hp.1 hp.2) h).1
    exact ⟨this.inv, Nat.le_of_eq this.next.symm⟩
  | eraseTillEnd m =>
    obtain ⟨_, h⟩ := ign_inv h
    have := (ok_of (Seg.eraseTillEnd_runs E x w hc m hp) h).1
    exact ⟨this.inv, Nat.le_of_eq this.next.symm⟩
  | eraseFromBegin n =>
    obtain ⟨_, h⟩ := ign_inv h
    have := (ok_of (Seg.eraseFromBegin_runs E x w hc n hp) h).1
    exact ⟨this.inv, Nat.le_of_eq this.next.symm⟩
  | clear =>
    have := ok_of (Seg.clear_runs E x w hc) h
    exact ⟨this.inv, Nat.le_of_eq this.next.symm⟩
  | reserve n =>
    have := ok_of (Seg.reserve_runs E n x w hc) h
    exact ⟨this.1, this.2.2.2.1⟩
  | shrinkToFit =>
    have := ok_of (Seg.shrinkToFit_runs E x w hx) h
    exact ⟨this.1, this.2.2.2.1⟩

/-- Potential. -/
def Shape.pot : Shape → Nat
  | .packed _ s => s.pot
  | .split x => x.pot

theorem core_ok {x : Seg V} {w : World} (h : x.Core E w) :
    match shape E x with
    | .packed _ s => s.Ok
    | .split y => y.Ok := by
  unfold Seg.Core at h
  unfold shape
  cases hb : x.be with
  | packed b => rw [hb] at h; exact h.le
  | split b => rw [hb] at h; exact ⟨h.swf.le, h.iwf.le, h.isize⟩

theorem shape_packed {x : Seg V} {b : Packed V} (hb : x.be = .packed b) : shape E x = .packed (E.maxSize x.ty) ⟨x.size, x.capacity⟩ := by
  obtain ⟨be, s⟩ := x
  cases hb
  rfl

theorem shape_split {x : Seg V} {b : Split V} (hb : x.be = .split b) :
    shape E x = .split ⟨E.maxSize x.ty, E.idxMaxSize, ⟨x.size, x.capacity⟩, ⟨b.i.size, b.i.cap⟩⟩ := by
  obtain ⟨be, s⟩ := x
  cases hb
  rfl

/-- **What an operation costs on average.** -/
theorem step_packed (hL : Geometric E.lib) {op : SegOp V} {x : Seg V} {b : Packed V} (hb : x.be = .packed b)
    (hx : x.size ≤ x.capacity) (hp : WorkPre x op) (hf : Far E x op) :
    work E op x + (op.meter E.lib (shape E x)).1.pot ≤ 30 * allowance x op + (shape E x).pot := by
  have hk : x.kind = .packed := by unfold Seg.kind; rw [hb]; rfl
  unfold work
  rw [shape_packed hb]
  obtain ⟨hf, -⟩ := hf
  have emp : ∀ n, n ≤ x.size → 3 * x.size ≤ E.maxSize x.ty →
      (VShape.emplaceAt E.lib (E.maxSize x.ty) n ⟨x.size, x.capacity⟩).2 +
        (VShape.emplaceAt E.lib (E.maxSize x.ty) n ⟨x.size, x.capacity⟩).1.pot ≤ 30 * (1 + (x.size - n)) + (⟨x.size, x.capacity⟩ : VShape).pot := by
    intro n hn hm
    have := (v_emplaceAt_am hL (v := ⟨x.size, x.capacity⟩) hm hx hn).2
    dsimp only at this
    omega
  have ran : ∀ fwd n k, n ≤ x.size → 3 * (x.size + k) ≤ E.maxSize x.ty →
      (SegOp.rangeMeter E.lib fwd n k (.packed (E.maxSize x.ty) ⟨x.size, x.capacity⟩)).2 +
        (SegOp.rangeMeter E.lib fwd n k (.packed (E.maxSize x.ty) ⟨x.size, x.capacity⟩)).1.pot ≤
          30 * rangeAllowance x fwd n k + (⟨x.size, x.capacity⟩ : VShape).pot := by
    intro fwd n k hn hm
    unfold rangeAllowance SegOp.rangeMeter Shape.run
    rw [hk]
    dsimp only [Shape.pot]
    cases fwd
    · have := (v_insertInput_am hL (v := ⟨x.size, x.capacity⟩) (n := n) (k := k) hm hx hn).2
      dsimp only at this
      simp only [Bool.false_eq_true, if_false]
      omega
    · have := (v_insertRange_am hL (v := ⟨x.size, x.capacity⟩) (n := n) (k := k) (m := E.maxSize x.ty) (by dsimp only; omega) hx hn).2
      dsimp only at this
      simp only [if_true]
      omega
  have era : ∀ a b, a ≤ b → b ≤ x.size → (VShape.eraseRange a b ⟨x.size, x.capacity⟩).2 + (VShape.eraseRange a b ⟨x.size, x.capacity⟩).1.pot ≤
      30 * ((b - a) + (x.size - b)) + (⟨x.size, x.capacity⟩ : VShape).pot := by
    intro a b hab hb
    unfold VShape.eraseRange VShape.pot
    dsimp only
    split <;> omega
  cases op with
  | pushBack src =>
    have := (emplaceBack_am hL (m := E.maxSize x.ty) (v := ⟨x.size, x.capacity⟩) (by dsimp only [inserted] at hf ⊢; omega) hx).2.2.2
    dsimp only [SegOp.meter, Shape.run, Shape.pot, allowance]
    omega
  | emplace n src => exact emp n hp.1 (by dsimp only [inserted] at hf; omega)
  | insertBase n src => exact emp n hp.1 (by dsimp only [inserted] at hf; omega)
  | insertLocal n src => exact emp n hp.1 (by dsimp only [inserted] at hf; omega)
  | insertRangeBase fwd n srcs => exact ran fwd n _ hp.1 (by dsimp only [inserted] at hf; omega)
  | insertRangeLocal fwd n srcs => exact ran fwd n _ hp.1 (by dsimp only [inserted] at hf; omega)
  | insertRangeEnd fwd srcs => exact ran fwd x.size _ (Nat.le_refl _) (by dsimp only [inserted] at hf; omega)
  | eraseBase n =>
    have := era n (n + 1) (Nat.le_succ n) hp
    rw [Nat.add_sub_cancel_left] at this
    exact this
  | eraseLocal n =>
    have := era n (n + 1) (Nat.le_succ n) hp
    rw [Nat.add_sub_cancel_left] at this
    exact this
  | eraseRangeBase m n => exact era m n hp.1 hp.2
  | eraseRangeLocal m n => exact era m n hp.1 hp.2
  | eraseTillEnd m =>
    have := era m x.size hp (Nat.le_refl _)
    rw [Nat.sub_self, Nat.add_zero] at this
    exact this
  | eraseFromBegin n => exact era 0 n (Nat.zero_le n) hp
  | clear =>
    dsimp only [SegOp.meter, Shape.run, Shape.pot, allowance, VShape.clear, VShape.pot]
    omega
  | reserve n =>
    have hh : Holds x n = decide (n ≤ x.capacity) := by
      unfold Holds
      rw [hb]
      have : x.capacity = b.s.cap := by unfold Seg.capacity; rw [hb]; rfl
      rw [this]
    have := E.lib.reserveCap_ge n
    dsimp only [SegOp.meter, Shape.run, Shape.pot, allowance, VShape.reserve, VShape.pot]
    rw [hh]
    by_cases hn : n ≤ x.capacity
    · simp only [hn, decide_true, if_true]
      omega
    · simp only [hn, decide_false, if_false, Bool.false_eq_true]
      omega
  | shrinkToFit =>
    have h1 := E.lib.shrinkCap_ge x.size x.capacity hx
    dsimp only [SegOp.meter, Shape.run, Shape.pot, allowance, VShape.shrinkToFit, VShape.pot]
    split
    · dsimp only; omega
    · split <;> (dsimp only; omega)

theorem step_split (hL : Geometric E.lib) {op : SegOp V} {x : Seg V} {b : Split V} (hb : x.be = .split b)
    (hx : x.size ≤ x.capacity) (hi : b.i.size ≤ b.i.cap) (his : b.i.size = x.size + 1) (hp : WorkPre x op) (hf : Far E x op) :
    work E op x + (op.meter E.lib (shape E x)).1.pot ≤ 30 * allowance x op + (shape E x).pot := by
  have hk : x.kind = .split := by unfold Seg.kind; rw [hb]; rfl
  unfold work
  obtain ⟨hf1, hf2⟩ := hf
  have hf2 := hf2 hk
  rw [shape_split hb]
  generalize hq : (⟨E.maxSize x.ty, E.idxMaxSize, ⟨x.size, x.capacity⟩, ⟨b.i.size, b.i.cap⟩⟩ : SShape) = q
  have q1 : q.s.size = x.size := by rw [← hq]
  have q2 : q.s.cap = x.capacity := by rw [← hq]
  have q3 : q.i.size = b.i.size := by rw [← hq]
  have q4 : q.i.cap = b.i.cap := by rw [← hq]
  have q5 : q.m = E.maxSize x.ty := by rw [← hq]
  have q6 : q.im = E.idxMaxSize := by rw [← hq]
  have hok : q.Ok := ⟨by rw [q1, q2]; exact hx, by rw [q3, q4]; exact hi, by rw [q3, q1]; exact his⟩
  have emp : ∀ n, n ≤ x.size → 3 * (x.size + 1) ≤ E.maxSize x.ty → 3 * (x.size + 1) ≤ E.idxMaxSize →
      (SShape.emplaceAt E.lib n q).2 + (SShape.emplaceAt E.lib n q).1.pot ≤ 30 * (1 + (x.size - n)) + q.pot := by
    intro n hn hm1 hm2
    have := (emplaceAt_am hL hok (L := E.lib) ⟨by omega, by omega⟩ (n := n) (by omega)).1.2
    omega
  have ran : ∀ fwd n k, n ≤ x.size → 3 * (x.size + k) ≤ E.maxSize x.ty → 3 * (x.size + k) ≤ E.idxMaxSize →
      (SegOp.rangeMeter E.lib fwd n k (.split q)).2 + (SegOp.rangeMeter E.lib fwd n k (.split q)).1.pot ≤
          30 * rangeAllowance x fwd n k + q.pot := by
    intro fwd n k hn hm1 hm2
    unfold rangeAllowance SegOp.rangeMeter Shape.run
    rw [hk]
    dsimp only [Shape.pot]
    cases fwd
    · have := (insertInput_am hL k hok (L := E.lib) (n := n) (by omega) (by omega) (by omega)).2
      simp only [Bool.false_eq_true, if_false]
      rw [q1] at this
      omega
    · have := (insertForward_am hL hok (L := E.lib) (n := n) (k := k) (by omega) (by omega)).2
      simp only [if_true]
      rw [q1, q2] at this
      generalize (if x.capacity < x.size + k then x.size + k else k + (x.size - n)) = g at this ⊢
      omega
  have era : ∀ a b, a ≤ b → b ≤ x.size → (SShape.eraseRange a b q).2 + (SShape.eraseRange a b q).1.pot ≤
      30 * ((b - a) + (x.size - b)) + q.pot := by
    intro a b hab hb
    obtain ⟨e1, -, e2⟩ := eraseRange_cost hok hab (by omega)
    rw [e1]
    split <;> omega
  have er1 : ∀ n, n < x.size → (SShape.erase n q).2 + (SShape.erase n q).1.pot ≤ 30 * (1 + (x.size - (n + 1))) + q.pot := by
    intro n hn
    obtain ⟨e1, -, e2⟩ := erase_cost hok (n := n) (by omega)
    rw [e1]; omega
  cases op with
  | pushBack src =>
    have := (pushBack_am hL hok (L := E.lib) (by dsimp only [inserted] at hf1 hf2; exact ⟨by omega, by omega⟩)).2
    dsimp only [SegOp.meter, Shape.run, Shape.pot, allowance]
    omega
  | emplace n src => exact emp n hp.1 (by dsimp only [inserted] at hf1; omega) (by dsimp only [inserted] at hf2; omega)
  | insertBase n src => exact emp n hp.1 (by dsimp only [inserted] at hf1; omega) (by dsimp only [inserted] at hf2; omega)
  | insertLocal n src => exact emp n hp.1 (by dsimp only [inserted] at hf1; omega) (by dsimp only [inserted] at hf2; omega)
  | insertRangeBase fwd n srcs =>
    exact ran fwd n _ hp.1 (by dsimp only [inserted] at hf1; omega) (by dsimp only [inserted] at hf2; omega)
  | insertRangeLocal fwd n srcs =>
    exact ran fwd n _ hp.1 (by dsimp only [inserted] at hf1; omega) (by dsimp only [inserted] at hf2; omega)
  | insertRangeEnd fwd srcs =>
    have := ran fwd x.size srcs.length (Nat.le_refl _) (by dsimp only [inserted] at hf1; omega) (by dsimp only [inserted] at hf2; omega)
    rw [← q1] at this
    rw [show allowance x (.insertRangeEnd fwd srcs) = rangeAllowance x fwd x.size srcs.length from rfl, ← q1]
    exact this
  | eraseBase n => exact er1 n hp
  | eraseLocal n => exact er1 n hp
  | eraseRangeBase m n => exact era m n hp.1 hp.2
  | eraseRangeLocal m n => exact era m n hp.1 hp.2
  | eraseTillEnd m =>
    have := era m x.size hp (Nat.le_refl _)
    rw [Nat.sub_self, Nat.add_zero, ← q1] at this
    rw [show allowance x (.eraseTillEnd m) = x.size - m from rfl, ← q1]
    exact this
  | eraseFromBegin n => exact era 0 n (Nat.zero_le n) hp
  | clear =>
    obtain ⟨e1, -, e2⟩ := clear_cost hok
    dsimp only [SegOp.meter, Shape.run, Shape.pot, allowance]
    omega
  | reserve n =>
    have hh : Holds x n = (decide (n ≤ x.capacity) && decide (n + 1 ≤ b.i.cap)) := by
      unfold Holds
      rw [hb]
      have : x.capacity = b.s.cap := by unfold Seg.capacity; rw [hb]; rfl
      rw [this]
    obtain ⟨e1, -, e2⟩ := reserve_cost (L := E.lib) hok n
    dsimp only [SegOp.meter, Shape.run, Shape.pot, allowance]
    rw [hh]
    rw [q1, q2, q4] at e1
    by_cases hn : n ≤ x.capacity
    · rw [if_pos hn] at e1
      by_cases hn' : n + 1 ≤ b.i.cap
      · rw [if_pos hn'] at e1
        simp only [hn, hn', decide_true, Bool.and_self, if_true]
        omega
      · rw [if_neg hn'] at e1
        simp only [hn', decide_false, Bool.and_false, if_false, Bool.false_eq_true]
        omega
    · rw [if_neg hn] at e1
      simp only [hn, decide_false, Bool.false_and, if_false, Bool.false_eq_true]
      omega
  | shrinkToFit =>
    obtain ⟨e1, e2⟩ := (shrinkToFit_am (L := E.lib) hok).2
    dsimp only [SegOp.meter, Shape.run, Shape.pot, allowance]
    omega

theorem step (hL : Geometric E.lib) {op : SegOp V} {x y : Seg V} {w w' : World} {a : Unit} (hx : x.Core E w) (hp : WorkPre x op)
    (hf : Far E x op) (h : op.run E x w = .ok a y w') :
    work E op x + (shape E y).pot ≤ 30 * allowance x op + (shape E x).pot := by
  obtain ⟨e, -⟩ := run_op E op hx h
  rw [e]
  have hc := hx
  unfold Seg.Core at hc
  cases hb : x.be with
  | packed b => exact step_packed hL hb (hx.le E) hp hf
  | split b =>
    rw [hb] at hc
    have : x.size = b.s.size := by unfold Seg.size; rw [hb]; rfl
    exact step_split hL hb (hx.le E) (Split.Inv.iwf hc).le (by rw [this]; exact Split.Inv.isize E hc) hp hf

/-- The potential is not more than five times the size, and one. -/
theorem pot_le {x : Seg V} {w : World} (hx : x.Core E w) : (shape E x).pot ≤ 5 * x.size + 1 := by
  have hc := hx
  unfold Seg.Core at hc
  have hle := hx.le E
  cases hb : x.be with
  | packed b =>
    rw [shape_packed hb]
    dsimp only [Shape.pot, VShape.pot]
    omega
  | split b =>
    rw [hb] at hc
    have h1 : x.size = b.s.size := by unfold Seg.size; rw [hb]; rfl
    have h2 := (Split.Inv.iwf hc).le
    have h3 := Split.Inv.isize E hc
    rw [shape_split hb]
    dsimp only [Shape.pot, SShape.pot, VShape.pot]
    omega

/-! ### Operations by themselves -/

/-- The sizes in a split segment in order. -/
theorem split_sizes {x : Seg V} {b : Split V} {w : World} (hx : x.Core E w) (hb : x.be = .split b) :
    (⟨E.maxSize x.ty, E.idxMaxSize, ⟨x.size, x.capacity⟩, ⟨b.i.size, b.i.cap⟩⟩ : SShape).Ok := by
  have hc := hx
  unfold Seg.Core at hc
  rw [hb] at hc
  have h1 : x.size = b.s.size := by unfold Seg.size; rw [hb]; rfl
  exact ⟨hx.le E, (Split.Inv.iwf hc).le, by dsimp only; rw [h1]; exact Split.Inv.isize E hc⟩

theorem direct {op : SegOp V} {x : Seg V} {w : World} (hx : x.Core E w) (hp : WorkPre x op) (hi : Inserts op = false) :
    work E op x ≤ 5 * allowance x op := by
  unfold work
  cases hb : x.be with
  | packed b =>
    rw [shape_packed hb]
    have era : ∀ a b, a ≤ b → b ≤ x.size → (VShape.eraseRange a b ⟨x.size, x.capacity⟩).2 ≤ 5 * ((b - a) + (x.size - b)) := by
      intro a b hab hb
      unfold VShape.eraseRange
      dsimp only
      split <;> omega
    cases op with
    | eraseBase n =>
      have := era n (n + 1) (Nat.le_succ n) hp
      rw [Nat.add_sub_cancel_left] at this
      exact this
    | eraseLocal n =>
      have := era n (n + 1) (Nat.le_succ n) hp
      rw [Nat.add_sub_cancel_left] at this
      exact this
    | eraseRangeBase m n => exact era m n hp.1 hp.2
    | eraseRangeLocal m n => exact era m n hp.1 hp.2
    | eraseTillEnd m =>
      have := era m x.size hp (Nat.le_refl _)
      rw [Nat.sub_self, Nat.add_zero] at this
      exact this
    | eraseFromBegin n => exact era 0 n (Nat.zero_le n) hp
    | clear =>
      dsimp only [SegOp.meter, Shape.run, allowance, VShape.clear]
      omega
    | reserve n =>
      have hh : Holds x n = decide (n ≤ x.capacity) := by
        unfold Holds
        rw [hb]
        have : x.capacity = b.s.cap := by unfold Seg.capacity; rw [hb]; rfl
        rw [this]
      dsimp only [SegOp.meter, Shape.run, allowance, VShape.reserve]
      rw [hh]
      by_cases hn : n ≤ x.capacity
      · simp only [hn, decide_true, if_true]
        omega
      · simp only [hn, decide_false, if_false, Bool.false_eq_true]
        omega
    | shrinkToFit =>
      dsimp only [SegOp.meter, Shape.run, allowance, VShape.shrinkToFit]
      split
      · dsimp only; omega
      · split <;> (dsimp only; omega)
    | _ => exact absurd hi (by simp [Inserts])
  | split b =>
    have hok := split_sizes hx hb
    rw [shape_split hb]
    generalize hq : (⟨E.maxSize x.ty, E.idxMaxSize, ⟨x.size, x.capacity⟩, ⟨b.i.size, b.i.cap⟩⟩ : SShape) = q at hok ⊢
    have q1 : q.s.size = x.size := by rw [← hq]
    have q2 : q.s.cap = x.capacity := by rw [← hq]
    have q4 : q.i.cap = b.i.cap := by rw [← hq]
    have er1 : ∀ n, n < x.size → (SShape.erase n q).2 ≤ 5 * (1 + (x.size - (n + 1))) := by
      intro n hn
      obtain ⟨e1, -, -⟩ := erase_cost hok (n := n) (by omega)
      rw [e1]; omega
    have era : ∀ a b, a ≤ b → b ≤ x.size → (SShape.eraseRange a b q).2 ≤ 5 * ((b - a) + (x.size - b)) := by
      intro a b hab hb
      obtain ⟨e1, -, -⟩ := eraseRange_cost hok hab (by omega)
      rw [e1]
      split <;> omega
    cases op with
    | eraseBase n => exact er1 n hp
    | eraseLocal n => exact er1 n hp
    | eraseRangeBase m n => exact era m n hp.1 hp.2
    | eraseRangeLocal m n => exact era m n hp.1 hp.2
    | eraseTillEnd m =>
      have := era m x.size hp (Nat.le_refl _)
      rw [Nat.sub_self, Nat.add_zero, ← q1] at this
      rw [show allowance x (.eraseTillEnd m) = x.size - m from rfl, ← q1]
      exact this
    | eraseFromBegin n => exact era 0 n (Nat.zero_le n) hp
    | clear =>
      obtain ⟨e1, -, -⟩ := clear_cost hok
      dsimp only [SegOp.meter, Shape.run, allowance]
      omega
    | reserve n =>
      have hh : Holds x n = (decide (n ≤ x.capacity) && decide (n + 1 ≤ b.i.cap)) := by
        unfold Holds
        rw [hb]
        have : x.capacity = b.s.cap := by unfold Seg.capacity; rw [hb]; rfl
        rw [this]
      obtain ⟨e1, -, -⟩ := reserve_cost (L := E.lib) hok n
      dsimp only [SegOp.meter, Shape.run, allowance]
      rw [hh]
      rw [q1, q2, q4] at e1
      by_cases hn : n ≤ x.capacity
      · rw [if_pos hn] at e1
        by_cases hn' : n + 1 ≤ b.i.cap
        · rw [if_pos hn'] at e1
          simp only [hn, hn', decide_true, Bool.and_self, if_true]
          omega
        · rw [if_neg hn'] at e1
          simp only [hn', decide_false, Bool.and_false, if_false, Bool.false_eq_true]
          omega
      · rw [if_neg hn] at e1
        simp only [hn, decide_false, Bool.false_and, if_false, Bool.false_eq_true]
        omega
    | shrinkToFit =>
      have e1 := (shrinkToFit_am (L := E.lib) hok).1
      dsimp only [SegOp.meter, Shape.run, allowance]
      omega
    | _ => exact absurd hi (by simp [Inserts])

/-- If the capacity is enough and vectors reserve what they are asked for, the index is large enough, too, but for a segment
without elements. -/
theorem holds_of_exact (hE : ExactReserve E) {x : Seg V} {w : World} (hx : x.Core E w) {n : Nat} (hn : n ≤ x.capacity) :
    Holds x n = true ∨ (x.size = 0 ∧ x.capacity ≤ 1) := by
  have hc := hx
  unfold Seg.Core at hc
  unfold Holds
  cases hb : x.be with
  | packed b =>
    have : x.capacity = b.s.cap := by unfold Seg.capacity; rw [hb]; rfl
    rw [this] at hn
    exact Or.inl (by simpa using hn)
  | split b =>
    rw [hb] at hc
    have h1 : x.size = b.s.size := by unfold Seg.size; rw [hb]; rfl
    have h2 : x.capacity = b.s.cap := by unfold Seg.capacity; rw [hb]; rfl
    rw [h1, h2]
    rw [h2] at hn
    rcases Split.Inv.cap hc hE with h | h
    · left
      simp only [Bool.and_eq_true, decide_eq_true_eq]
      omega
    · exact Or.inr h

/-- One more index entry when there is room. -/
theorem pushIndexEntry_room {L : StdLib} {x : SShape} (hi : x.i.size < x.i.cap) :
    SShape.pushIndexEntry L x = ({ x with i := ⟨x.i.size + 1, x.i.cap⟩ }, 1) := by
  unfold SShape.pushIndexEntry SShape.buildIndex SShape.onI
  rw [show x.s.size + 1 - x.s.size = 1 by omega]
  unfold Meter.times Meter.andThen Meter.times VShape.emplaceBack Meter.skip
  rw [if_pos hi]
  rfl

theorem prereserve_room {L : StdLib} {x : SShape} (h : x.s.size < x.s.cap) : SShape.prereserve L x = (x, 0) := by
  unfold SShape.prereserve
  rw [if_neg (by omega)]

/-- Index entries when there is room for all of them. -/
theorem times_room {L : StdLib} {m : Nat} : ∀ (k : Nat) (v : VShape), v.size + k ≤ v.cap →
    Meter.times (VShape.emplaceBack L m) k v = (⟨v.size + k, v.cap⟩, k)
  | 0, v, _ => rfl
  | k + 1, v, h => by
    unfold Meter.times Meter.andThen
    have e : VShape.emplaceBack L m v = (⟨v.size + 1, v.cap⟩, 1) := by unfold VShape.emplaceBack; rw [if_pos (by omega)]
    rw [e]
    rw [times_room k ⟨v.size + 1, v.cap⟩ (by dsimp only; omega)]
    dsimp only
    rw [show v.size + 1 + k = v.size + (k + 1) by omega, Nat.add_comm 1 k]

theorem room {op : SegOp V} {x : Seg V} {w : World} (hx : x.Core E w) (hp : WorkPre x op) (hr : Holds x (x.size + inserted op) = true)
    (hs : SinglePass op = false) (hi : Inserts op = true) : work E op x ≤ 3 * allowance x op := by
  unfold work
  unfold Holds at hr
  cases hb : x.be with
  | packed b =>
    rw [hb] at hr
    have hk : x.kind = .packed := by unfold Seg.kind; rw [hb]; rfl
    have hcap : x.capacity = b.s.cap := by unfold Seg.capacity; rw [hb]; rfl
    have hr : x.size + inserted op ≤ b.s.cap := by simpa using hr
    rw [← hcap] at hr
    rw [shape_packed hb]
    have emp : ∀ n, x.size + 1 ≤ x.capacity → (VShape.emplaceAt E.lib (E.maxSize x.ty) n ⟨x.size, x.capacity⟩).2 ≤ 3 * (1 + (x.size - n)) := by
      intro n h
      unfold VShape.emplaceAt VShape.emplaceBack
      dsimp only
      split
      · rw [if_pos (by omega)]; dsimp only; omega
      · rw [if_pos (by omega)]; dsimp only; omega
    have ran : ∀ n k, x.size + k ≤ x.capacity →
        (SegOp.rangeMeter E.lib true n k (.packed (E.maxSize x.ty) ⟨x.size, x.capacity⟩)).2 ≤ 3 * rangeAllowance x true n k := by
      intro n k h
      unfold rangeAllowance SegOp.rangeMeter Shape.run
      rw [hk]
      simp only [if_true]
      unfold VShape.insertRange
      split
      · dsimp only; omega
      · dsimp only; omega
    cases op with
    | pushBack src =>
      have hr : x.size + 1 ≤ x.capacity := hr
      dsimp only [SegOp.meter, Shape.run, allowance, VShape.emplaceBack]
      rw [if_pos (by omega)]
      dsimp only; omega
    | emplace n src => exact emp n hr
    | insertBase n src => exact emp n hr
    | insertLocal n src => exact emp n hr
    | insertRangeBase fwd n srcs =>
      cases fwd
      · exact absurd hs (by simp [SinglePass])
      · exact ran n _ hr
    | insertRangeLocal fwd n srcs =>
      cases fwd
      · exact absurd hs (by simp [SinglePass])
      · exact ran n _ hr
    | insertRangeEnd fwd srcs =>
      cases fwd
      · exact absurd hs (by simp [SinglePass])
      · exact ran x.size _ hr
    | _ => exact absurd hi (by simp [Inserts])
  | split b =>
    rw [hb] at hr
    have hk : x.kind = .split := by unfold Seg.kind; rw [hb]; rfl
    have hcap : x.capacity = b.s.cap := by unfold Seg.capacity; rw [hb]; rfl
    have hr : x.size + inserted op ≤ b.s.cap ∧ x.size + inserted op + 1 ≤ b.i.cap := by simpa using hr
    rw [← hcap] at hr
    obtain ⟨hr1, hr2⟩ := hr
    obtain ⟨-, -, o3⟩ := split_sizes hx hb
    dsimp only at o3
    rw [shape_split hb]
    have emp : ∀ n, x.size + 1 ≤ x.capacity → x.size + 1 + 1 ≤ b.i.cap → (SShape.emplaceAt E.lib n
        ⟨E.maxSize x.ty, E.idxMaxSize, ⟨x.size, x.capacity⟩, ⟨b.i.size, b.i.cap⟩⟩).2 ≤ 3 * (1 + (x.size - n)) := by
      intro n h1 h2
      unfold SShape.emplaceAt Meter.andThen
      dsimp only
      rw [prereserve_room (by dsimp only; omega)]
      unfold SShape.onS
      dsimp only
      have hv : VShape.emplaceAt E.lib (E.maxSize x.ty) n ⟨x.size, x.capacity⟩ =
          (⟨x.size + 1, x.capacity⟩, if n = x.size then 1 else 2 + (x.size - n)) := by
        unfold VShape.emplaceAt VShape.emplaceBack
        dsimp only
        split
        · rw [if_pos (by omega)]
        · rw [if_pos (by omega)]
      rw [hv, pushIndexEntry_room (by dsimp only; omega)]
      dsimp only
      split <;> omega
    have ran : ∀ n k, x.size + k ≤ x.capacity → x.size + k + 1 ≤ b.i.cap →
        (SegOp.rangeMeter E.lib true n k (.split ⟨E.maxSize x.ty, E.idxMaxSize, ⟨x.size, x.capacity⟩, ⟨b.i.size, b.i.cap⟩⟩)).2 ≤
          3 * rangeAllowance x true n k := by
      intro n k h1 h2
      unfold rangeAllowance SegOp.rangeMeter Shape.run
      rw [hk]
      simp only [if_true]
      rw [if_neg (by omega)]
      unfold SShape.insertForward
      split
      · dsimp only; omega
      · unfold Meter.andThen
        dsimp only
        have e : SShape.prereserveBy E.lib k ⟨E.maxSize x.ty, E.idxMaxSize, ⟨x.size, x.capacity⟩, ⟨b.i.size, b.i.cap⟩⟩ =
            (⟨E.maxSize x.ty, E.idxMaxSize, ⟨x.size, x.capacity⟩, ⟨b.i.size, b.i.cap⟩⟩, 0) := by
          unfold SShape.prereserveBy
          rw [if_neg (by dsimp only; omega)]
        rw [e]
        have hv : VShape.insertRange E.lib (E.maxSize x.ty) n k ⟨x.size, x.capacity⟩ = (⟨x.size + k, x.capacity⟩, k + (x.size - n)) := by
          unfold VShape.insertRange
          rw [if_neg (by assumption), if_pos h1]
        unfold SShape.onS SShape.buildIndex SShape.onI
        dsimp only
        rw [hv]
        dsimp only
        rw [show x.size + k + 1 - (x.size + 1) = k by omega, times_room _ _ (by dsimp only; omega)]
        dsimp only
        omega
    cases op with
    | pushBack src =>
      have hr1 : x.size + 1 ≤ x.capacity := hr1
      have hr2 : x.size + 1 + 1 ≤ b.i.cap := hr2
      dsimp only [SegOp.meter, Shape.run, allowance]
      unfold SShape.pushBack Meter.andThen
      dsimp only
      rw [prereserve_room (by dsimp only; omega)]
      unfold SShape.onS
      dsimp only
      have hv : VShape.emplaceBack E.lib (E.maxSize x.ty) ⟨x.size, x.capacity⟩ = (⟨x.size + 1, x.capacity⟩, 1) := by
        unfold VShape.emplaceBack
        rw [if_pos (by dsimp only; omega)]
      rw [hv, pushIndexEntry_room (by dsimp only; omega)]
      dsimp only; omega
    | emplace n src => exact emp n hr1 hr2
    | insertBase n src => exact emp n hr1 hr2
    | insertLocal n src => exact emp n hr1 hr2
    | insertRangeBase fwd n srcs =>
      cases fwd
      · exact absurd hs (by simp [SinglePass])
      · exact ran n _ hr1 hr2
    | insertRangeLocal fwd n srcs =>
      cases fwd
      · exact absurd hs (by simp [SinglePass])
      · exact ran n _ hr1 hr2
    | insertRangeEnd fwd srcs =>
      cases fwd
      · exact absurd hs (by simp [SinglePass])
      · exact ran x.size _ hr1 hr2
    | _ => exact absurd hi (by simp [Inserts])

end
end PolyColl.Work
