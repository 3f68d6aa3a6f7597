import Verif.Props.Object
import Verif.Props.Rehash
/-!
# Property C70: insertion with a hint takes the whole object

Hints survive as far as the map is not rehashed (see `Rehash.lean`).
-/

namespace PolyColl.Props
open PolyColl Prog Coll

variable {V : Type} {E : Env V} {k : Kind}

/-- Inserting `x` creates a segment and this rehashes the map. -/
def RehashesForObject (E : Env V) (c : Coll V) (w : World) (m : PModel) (x : Expr) : Prop :=
  x.acc = true ∧ E.tiTy (x.object m).1 = E.tiTy x.stat ∧ Rehashes E c w x.stat

/-- **C70** for `insert(hint,x)`, if the segment of the object's type exists or can be created: the whole object is
inserted before the hint, or appended if the hint is in another segment; undefined if hints do not survive. -/
theorem C70_insert_hint {c : Coll V} {w : World} (h : c.Reachable E k w) {m : PModel} {mem : Mem V} {x : Expr} {t : Ty} {v : V}
    (hx : Denotes E m mem x t v) (ht : t ∈ c.abs.types ∨ x.acc = true ∧ t = E.tiTy x.stat) {hint : GIter} {p : Spec.State.Pos} (hh : c.At E hint p) :
    (RehashesForObject E c w m x → insertHintExpr E m mem hint x c w = .ub) ∧
    (¬ RehashesForObject E c w m x → Runs (insertHintExpr E m mem hint x) c w
      (fun it c' w' => c'.Reachable E k w' ∧ c.abs.Put t (c.abs.hintPos t p) [v] c'.abs ∧
        c'.At E it (some (t, c.abs.hintPos t p)) ∧ c'.map.deref it.segpos = some v)
      (fun e _ _ => ExcFrom E t (x.rvalue = false) (E.TooMany t ((c.abs.elemsOf t).length + 1)) e)) := by
  obtain ⟨a, h1, h2, h3, h4, h5, -, h6⟩ := C70_object h.possible hx.1 hx.fetch
  have hi : RehashesFor E c w a ↔ RehashesForObject E c w m x := by
    unfold RehashesFor RehashesForObject
    rw [h2, h3, h5]
  rw [← hx.2.1] at h5
  have := C06_insert_hint h hh a h1 (v := v) (h4 ▸ passed_of _ _)
  rw [hi] at this
  refine ⟨fun r => (h6 hint).trans (this.1 r), fun r => ?_⟩
  have := this.2 r
  unfold Runs at this ⊢
  rw [h6]
  split
  · next h => rw [h] at this; rw [← h5]; exact this
  · next h =>
    rw [h] at this
    rcases this with h' | ⟨-, h', h''⟩
    · simpa only [h5, h4, passed_copies] using h'
    · rw [h5] at h' h''
      rw [h2, h3] at h''
      exact absurd ht (not_or.2 ⟨h', h''⟩)
  · next h => rw [h] at this; exact this

theorem all2_split_left {α β : Type} {R : α → β → Prop} {xs1 xs2 : List α} {x : α} {l : List β} (h : All2 R (xs1 ++ x :: xs2) l) :
    ∃ l1 y l2, l = l1 ++ y :: l2 ∧ All2 R xs1 l1 ∧ R x y := by
  induction xs1 generalizing l with
  | nil => cases h with | cons h _ => exact ⟨[], _, _, rfl, .nil, h⟩
  | cons a xs1 ih =>
    cases h with
    | cons h t =>
      obtain ⟨l1, y, l2, rfl, h1, h2⟩ := ih t
      exact ⟨_ :: l1, y, l2, rfl, .cons h h1, h2⟩

theorem all2_split_right {α β : Type} {R : α → β → Prop} {ys1 ys2 : List β} {y : β} {l : List α} (h : All2 R l (ys1 ++ y :: ys2)) :
    ∃ l1 x l2, l = l1 ++ x :: l2 ∧ All2 R l1 ys1 ∧ R x y := by
  induction ys1 generalizing l with
  | nil => cases h with | cons h _ => exact ⟨[], _, _, rfl, .nil, h⟩
  | cons a ys1 ih =>
    cases h with
    | cons h t =>
      obtain ⟨l1, x, l2, rfl, h1, h2⟩ := ih t
      exact ⟨_ :: l1, x, l2, rfl, .cons h h1, h2⟩

/-- **C70** for `insert(hint,first,last)`: the objects designated go before the hint, or to the end of their segments if the hint
is in another one, in the order of the range; undefined if the insertion of one of them, after those before it, rehashes the map. -/
theorem C70_insert_hint_range {c : Coll V} {w : World} (h : c.Reachable E k w) {m : PModel} {mem : Mem V} {xs : List Expr} {vs : List (Ty × V)}
    (hx : All2 (fun x v => Denotes E m mem x v.1 v.2) xs vs)
    (ht : ∀ x ∈ xs, E.tiTy (x.object m).1 ∈ c.abs.types ∨ x.acc = true ∧ E.tiTy (x.object m).1 = E.tiTy x.stat)
    {hint : GIter} {p : Spec.State.Pos} (hh : c.At E hint p) :
    let R := ∃ xs1 x xs2 g c1 w1, xs = xs1 ++ x :: xs2 ∧ insertHintRangeExpr E m mem hint xs1 c w = .ok g c1 w1 ∧ RehashesForObject E c1 w1 m x
    (R → insertHintRangeExpr E m mem hint xs c w = .ub) ∧
    (¬ R → Runs (insertHintRangeExpr E m mem hint xs) c w
      (fun g c' w' => c'.Reachable E k w' ∧ c.abs.Grown (fun t => c.abs.hintPos t p) vs c'.abs ∧ ∃ p', c'.At E g p')
      (fun e _ _ => ∃ x ∈ xs, ExcFrom E (E.tiTy (x.object m).1) (x.rvalue = false)
        (E.TooMany (E.tiTy (x.object m).1) ((c.abs.elemsOf (E.tiTy (x.object m).1)).length + xs.length)) e)) := by
  obtain ⟨h1, h2, h3, h4, h5⟩ := passedAll_spec hx
  have hc : (collCtx E k).I c w := ⟨h.kind, by rw [← h.kind]; exact h.map⟩
  have hi : ∀ {x a}, Stands E m mem x a → ∀ c w, (RehashesFor E c w a ↔ RehashesForObject E c w m x) := by
    rintro x a ⟨hw, src, -, rfl⟩ c w
    simp only [RehashesFor, RehashesForObject, Expr.arg, hw.ty]
  have := C11_insert_hint_range h hh _ _ h1 (fun a ha => by
    obtain ⟨x, hx, hw, v, rfl⟩ := h4 a ha
    refine ⟨hw.ok E _, ?_⟩
    simp only [Expr.arg, hw.ty]
    exact ht x hx)
  simp only at this ⊢
  rw [insertHintRangeExpr_eq E h5 hint hc]
  refine ⟨?_, fun hn => ?_⟩
  · rintro ⟨xs1, x, xs2, g, c1, w1, e, hr, hb⟩
    rw [e] at h5
    obtain ⟨l1, a, l2, e', s1, s2⟩ := all2_split_left h5
    rw [insertHintRangeExpr_eq E s1 hint hc] at hr
    exact this.1 ⟨l1, a, l2, g, c1, w1, by rw [← e', e], hr, (hi s2 _ _).2 hb⟩
  · have hr := this.2 (by
      rintro ⟨l1, a, l2, g, c1, w1, e, hr, hb⟩
      rw [e] at h5
      obtain ⟨xs1, x, xs2, e', s1, s2⟩ := all2_split_right h5
      rw [← insertHintRangeExpr_eq E s1 hint hc] at hr
      exact hn ⟨xs1, x, xs2, g, c1, w1, e', hr, (hi s2 _ _).1 hb⟩)
    rw [h2, h3] at hr
    unfold Runs at hr ⊢
    rw [insertHintRangeExpr_eq E h5 hint hc]
    split
    · next h => rw [h] at hr; exact hr
    · next h =>
      rw [h] at hr
      obtain ⟨a, ha, h'⟩ := hr
      obtain ⟨x, hx, hw, v, rfl⟩ := h4 a ha
      refine ⟨x, hx, ?_⟩
      simpa only [Expr.arg, hw.ty, passed_copies] using h'
    · next h => rw [h] at hr; exact hr

/-- An object of a new type: inserting it into the first collection rehashes the map; it does not in the second, where the
object is inserted twice, the hint being in another segment. -/
example : RehashesForObject Sample.E0 Sample.w13c1 ⟨10, 10⟩ .base finalRef ∧
    insertHintExpr Sample.E0 .base sampleMem ⟨⟨some 4, 1⟩, ⟨none, 1⟩, ⟨9, 0⟩⟩ finalRef Sample.w13c1 ⟨10, 10⟩ = .ub ∧
    ¬ RehashesForObject Sample.E5 Sample.w11c1 ⟨10, 10⟩ .base finalRef ∧
    ∃ it c' w', insertHintRangeExpr Sample.E5 .base sampleMem ⟨⟨some 4, 1⟩, ⟨none, 1⟩, ⟨9, 0⟩⟩ [finalRef, finalRef] Sample.w11c1 ⟨10, 10⟩ = .ok it c' w' ∧
      c'.abs = [(3, [8, 8]), (0, [5])] := by
  refine ⟨⟨rfl, by decide, rfl, by decide, _, _, rfl, by decide⟩, rfl, ?_, leaves_abs (by decide +kernel)⟩
  rintro ⟨-, -, -, -, c1, w1, h, hn⟩
  cases h
  exact hn rfl

/-- Objects of types that are registered, seen through references to a base: no rehash is possible. -/
example (k : Kind) : (Sample.c0 k).Reachable Sample.E0 k (Sample.w0 k) ∧ (∃ hint, (Sample.c0 k).At Sample.E0 hint (some (2, 0))) ∧
    All2 (fun x v => Denotes Sample.E0 .base sampleMem x v.1 v.2) [baseRef, baseRef] [(2, 7), (2, 7)] ∧
    (∀ x ∈ [baseRef, baseRef], Sample.E0.tiTy (x.object .base).1 ∈ (Sample.c0 k).abs.types) ∧
    ∀ c' w', ¬ RehashesForObject Sample.E0 c' w' .base baseRef := by
  obtain ⟨g, hg⟩ := exists_at (Sample.reach0 k).inv (p := some (2, 0)) (by rw [Sample.abs0]; exact ⟨_, rfl, by decide⟩)
  refine ⟨Sample.reach0 k, ⟨g, hg⟩, .cons baseRef_denotes (.cons baseRef_denotes .nil), ?_, fun _ _ h => absurd h.2.1 (by decide)⟩
  rw [Sample.abs0]
  decide

end PolyColl.Props
