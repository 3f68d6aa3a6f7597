import Verif.Spec.Follow
import Verif.Props.Descriptor
/-! # A program that keeps an iterator -/

namespace PolyColl.Sample
open PolyColl Coll

/-- Room for four elements each of two types; two elements of the first. -/
def f1 (k : Kind) : Sys Nat × World := next k (d0 k) (.on 0 (.reserveT 0 4))
def f2 (k : Kind) : Sys Nat × World := next k (f1 k) (.on 0 (.reserveT 2 4))
def f3 (k : Kind) : Sys Nat × World := next k (f2 k) (.on 0 (.emplace 0 (.emplaced 5)))
def f4 (k : Kind) : Sys Nat × World := next k (f3 k) (.on 0 (.emplace 0 (.emplaced 6)))

/-- Where the first one is. -/
def fptr (k : Kind) (n : Nat) : Ptr := match k with | .packed => ⟨6, n⟩ | .split => ⟨9, n⟩
def fptr' (k : Kind) (n : Nat) : Ptr := match k with | .packed => ⟨6, n⟩ | .split => ⟨10, n⟩
def fnode (k : Kind) : MapIt := ⟨some (match k with | .packed => 2 | .split => 4), 2⟩
def fmul : Act Nat := ⟨(· * 10), id, true⟩

/-- An element is created behind it, it is written to, an insertion fails, the collection is swapped with another one, the second element is erased
and the collection moved to a third one. -/
def f5 (k : Kind) : Sys Nat × World := next k (f4 k) (.on 0 (.emplace 0 (.emplaced 8)))
def f6 (k : Kind) : Sys Nat × World := next k (f5 k) (.on 0 (.apply .base (fptr k 0) fmul))
def f7 (k : Kind) : Sys Nat × World := next k (f6 k) (.on 0 (.insert ⟨2, 2, true, false, .copyExt 5⟩))
def f8 (k : Kind) : Sys Nat × World := next k (f7 k) (.swap 0 1)
def f9 (k : Kind) : Sys Nat × World := next k (f8 k) (.on 1 (.eraseLocal ⟨fnode k, fptr' k 1⟩))
def f10 (k : Kind) : Sys Nat × World := next k (f9 k) (.move 2 1)

/-- The iterators to the first one. -/
def fit (k : Kind) : GIter := ⟨fnode k, ⟨none, 2⟩, fptr k 0⟩
def fit' (k : Kind) : LIter := ⟨fnode k, fptr' k 0⟩

/-- Nothing fails that would spoil a collection. -/
def fine : Nat → Health := fun _ => .sound

theorem mark_fine (l : List Nat) : Health.mark fine l .sound = fine := mark_sound fun _ _ => rfl

theorem fine_ok {k : Kind} {p : Sys Nat × World} (h : p.1.Reached E0 k (fun t => 2 * t) fine p.2) {op : Op Nat} (hp : op.Pre E0 p.1) (ho : how k p op = 0) :
    (next k p op).1.Reached E0 k (fun t => 2 * t) fine (next k p op).2 :=
  ⟨h.ids, mark_fine op.writes ▸ .ok h.reach op (fun _ _ => rfl) hp.apt (next_ok ho)⟩

theorem fine_exc {k : Kind} {p : Sys Nat × World} (h : p.1.Reached E0 k (fun t => 2 * t) fine p.2) {op : Op Nat} (hp : op.Pre E0 p.1)
    (hs : op.Strong E0 k p.1) (ho : how k p op = 1) : (next k p op).1.Reached E0 k (fun t => 2 * t) fine (next k p op).2 := by
  obtain ⟨e, he⟩ := next_exc ho
  exact ⟨h.ids, mark_fine op.resets ▸ .exc h.reach op (fun _ _ => rfl) hp.apt hs he⟩

theorem f0_reached (k : Kind) : (d0 k).1.Reached E0 k (fun t => 2 * t) fine (d0 k).2 :=
  ⟨fun t => (Nat.mul_div_cancel_left t (by decide) : 2 * t / 2 = t), .start (fun _ => 0) ⟨1, 1⟩ (by decide)⟩

theorem f4_reached (k : Kind) : (f4 k).1.Reached E0 k (fun t => 2 * t) fine (f4 k).2 := by
  have h1 : (f1 k).1.Reached E0 k (fun t => 2 * t) fine (f1 k).2 := fine_ok (f0_reached k) (op := .on 0 (.reserveT 0 4)) trivial (by cases k <;> decide +kernel)
  have h2 : (f2 k).1.Reached E0 k (fun t => 2 * t) fine (f2 k).2 := fine_ok h1 (op := .on 0 (.reserveT 2 4)) trivial (by cases k <;> decide +kernel)
  have h3 : (f3 k).1.Reached E0 k (fun t => 2 * t) fine (f3 k).2 := fine_ok h2 (op := .on 0 (.emplace 0 (.emplaced 5))) ⟨5, .inl ⟨rfl, rfl⟩⟩ (by cases k <;> decide +kernel)
  exact fine_ok h3 (op := .on 0 (.emplace 0 (.emplaced 6))) ⟨6, .inl ⟨rfl, rfl⟩⟩ (by cases k <;> decide +kernel)

theorem f5_reached (k : Kind) : (f5 k).1.Reached E0 k (fun t => 2 * t) fine (f5 k).2 :=
  fine_ok (f4_reached k) (op := .on 0 (.emplace 0 (.emplaced 8))) ⟨8, .inl ⟨rfl, rfl⟩⟩ (by cases k <;> decide +kernel)

theorem f5_points (k : Kind) : ((f5 k).1 0).Points .base (fptr k 0) 0 0 := by
  unfold Coll.Points
  cases k <;> decide +kernel

theorem f6_reached (k : Kind) : (f6 k).1.Reached E0 k (fun t => 2 * t) fine (f6 k).2 :=
  fine_ok (f5_reached k) (op := .on 0 (.apply .base (fptr k 0) fmul)) ⟨0, 0, f5_points k⟩ (by cases k <;> decide +kernel)

theorem f7_reached (k : Kind) : (f7 k).1.Reached E0 k (fun t => 2 * t) fine (f7 k).2 := by
  refine fine_exc (f6_reached k) (op := .on 0 (.insert ⟨2, 2, true, false, .copyExt 5⟩)) ⟨fun _ => rfl, 5, .inl ⟨rfl, rfl⟩⟩ ?_ (by cases k <;> decide +kernel)
  cases k
  · exact .inl rfl
  · have h : ∃ n ∈ ((f6 .split).1 0).map.nodes, n.seg.ty = 1 ∧ (match n.seg.be with | .packed _ => true | .split x => decide (x.s.cap + 1 ≤ x.i.cap)) = true ∧
        n.seg.size + 1 ≤ n.seg.capacity := by decide +kernel
    obtain ⟨n, h1, h2, h3, h4⟩ := h
    refine .inr ⟨n, h1, h2, ?_, h4⟩
    unfold Seg.Roomy
    cases hb : n.seg.be with
    | packed _ => trivial
    | split x => rw [hb] at h3; have := of_decide_eq_true h3; exact this

theorem f8_reached (k : Kind) : (f8 k).1.Reached E0 k (fun t => 2 * t) fine (f8 k).2 :=
  fine_ok (f7_reached k) (op := .swap 0 1) (.inr (.inr (by cases k <;> decide +kernel))) (by cases k <;> decide +kernel)

theorem f8_at (k : Kind) : ((f8 k).1 1).LAtL E0 ⟨fnode k, fptr' k 1⟩ 0 1 := by
  have h : ((f8 k).1 1).map.usable E0 (fnode k) = true ∧ ∃ n ∈ ((f8 k).1 1).map.nodes, (fnode k).node = some n.id ∧ n.seg.ty = 0 ∧ 1 ≤ n.seg.size ∧
      fptr' k 1 = n.seg.loc 1 := by cases k <;> decide +kernel
  obtain ⟨hu, n, h1, h2, h3, h4, h5⟩ := h
  exact ⟨n, ⟨h1, h2, hu⟩, h3, h4, h5⟩

theorem f8_elems (k : Kind) : ((f8 k).1 1).abs.elemsOf 0 = [50, 6, 8] := by cases k <;> decide +kernel

theorem f9_reached (k : Kind) : (f9 k).1.Reached E0 k (fun t => 2 * t) fine (f9 k).2 :=
  fine_ok (f8_reached k) (op := .on 1 (.eraseLocal ⟨fnode k, fptr' k 1⟩)) ⟨0, 1, f8_at k, by rw [f8_elems]; decide⟩ (by cases k <;> decide +kernel)

theorem f10_reached (k : Kind) : (f10 k).1.Reached E0 k (fun t => 2 * t) fine (f10 k).2 :=
  fine_ok (f9_reached k) (op := .move 2 1) (by show (2 : Nat) ≠ 1; decide) (by cases k <;> decide +kernel)

theorem f4_elems (k : Kind) : ((f4 k).1 0).abs.elemsOf 0 = [5, 6] := by cases k <;> decide +kernel
theorem f10_elems (k : Kind) : ((f10 k).1 2).abs.elemsOf 0 = [50, 8] := by cases k <;> decide +kernel

theorem f4_at (k : Kind) : ((f4 k).1 0).At E0 (fit k) (some (0, 0)) := by
  have h : ((f4 k).1 0).map.usable E0 (fnode k) = true ∧ ((f4 k).1 0).map.usable E0 ⟨none, 2⟩ = true ∧
      ∃ n ∈ ((f4 k).1 0).map.nodes, (fnode k).node = some n.id ∧ n.seg.ty = 0 ∧ 0 < n.seg.size ∧ fptr k 0 = n.seg.base 0 := by
    cases k <;> decide +kernel
  exact ⟨h.1, h.2.1, rfl, h.2.2⟩

theorem f4_latL (k : Kind) : ((f4 k).1 0).LAtL E0 (fit' k) 0 0 := by
  have h : ((f4 k).1 0).map.usable E0 (fnode k) = true ∧ ∃ n ∈ ((f4 k).1 0).map.nodes, (fnode k).node = some n.id ∧ n.seg.ty = 0 ∧ 0 ≤ n.seg.size ∧
      fptr' k 0 = n.seg.loc 0 := by cases k <;> decide +kernel
  obtain ⟨hu, n, h1, h2, h3, h4, h5⟩ := h
  exact ⟨n, ⟨h1, h2, hu⟩, h3, h4, h5⟩

theorem f_follow (k : Kind) : Follow E0 k (fun t => 2 * t) 0 0 (f4 k).1 (f4 k).2 0 (f10 k).1 (f10 k).2 2 (id ∘ id ∘ id ∘ id ∘ fmul.run ∘ id ∘ id) := by
  obtain ⟨e, he⟩ := next_exc (k := k) (p := f6 k) (op := .on 0 (.insert ⟨2, 2, true, false, .copyExt 5⟩)) (by cases k <;> decide +kernel)
  have ok : ∀ (p : Sys Nat × World) (x : Nat), p.1.Reached E0 k (fun t => 2 * t) fine p.2 → (p.1 x).Reachable E0 k p.2 := fun p x h => h.coll (i := x) rfl
  have h5 : Follow E0 k (fun t => 2 * t) 0 0 (f4 k).1 (f4 k).2 0 (f5 k).1 (f5 k).2 0 (id ∘ id) :=
    .ok (.on 0 (.emplace 0 (.emplaced 8))) .nil (by simp [Op.args, COp.args]) (next_ok (p := f4 k) (by cases k <;> decide +kernel))
      (.insert (n := 2) (ok _ 0 (f4_reached k)) ⟨rfl, by rw [f4_elems]; rfl, rfl⟩ (.inl ⟨rfl, rfl⟩ : SrcFor _ _ _ 8) (by cases k <;> decide +kernel) (by decide))
  have h6 : Follow E0 k (fun t => 2 * t) 0 0 (f4 k).1 (f4 k).2 0 (f6 k).1 (f6 k).2 0 (fmul.run ∘ id ∘ id) :=
    .ok (.on 0 (.apply .base (fptr k 0) fmul)) h5 (by simp [Op.args, COp.args]) (next_ok (p := f5 k) (by cases k <;> decide +kernel))
      (.write (n := 0) (b := true) (ok _ 0 (f5_reached k)) (f5_points k))
  have h7 : Follow E0 k (fun t => 2 * t) 0 0 (f4 k).1 (f4 k).2 0 (f7 k).1 (f7 k).2 0 (id ∘ fmul.run ∘ id ∘ id) :=
    .exc (.on 0 (.insert ⟨2, 2, true, false, .copyExt 5⟩)) h6 (by simp [Op.args, COp.args, Coll.Arg.OK]) he
      (.other (ok _ 0 (f6_reached k)) ⟨fun _ => rfl, 5, .inl ⟨rfl, rfl⟩⟩ (by show ¬ ((0 : Nat) = 2 / 2); decide))
  have h8 : Follow E0 k (fun t => 2 * t) 0 0 (f4 k).1 (f4 k).2 0 (f8 k).1 (f8 k).2 1 (id ∘ id ∘ fmul.run ∘ id ∘ id) :=
    .ok (.swap 0 1) h7 (by simp [Op.args]) (next_ok (p := f7 k) (by cases k <;> decide +kernel)) .swap
  have h9 : Follow E0 k (fun t => 2 * t) 0 0 (f4 k).1 (f4 k).2 0 (f9 k).1 (f9 k).2 1 (id ∘ id ∘ id ∘ fmul.run ∘ id ∘ id) :=
    .ok (.on 1 (.eraseLocal ⟨fnode k, fptr' k 1⟩)) h8 (by simp [Op.args, COp.args]) (next_ok (p := f8 k) (by cases k <;> decide +kernel))
      (.eraseLocal (ok _ 1 (f8_reached k)) (f8_at k) (by rw [f8_elems]; decide) (by decide))
  exact .ok (.move 2 1) h9 (by simp [Op.args]) (next_ok (p := f9 k) (by cases k <;> decide +kernel)) .move

end PolyColl.Sample
