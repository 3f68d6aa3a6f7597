import Verif.Lemmas.WorkSession
import Verif.Props.SampleData
/-!
# C84 Documented complexity of the operations on segments

`reference.qbk` 469, 508, 524, 544, 557, 624, 633, 639.
-/

namespace PolyColl.Props
open PolyColl Prog Spec PolyColl.Work

section
variable {V : Type} {E : Env V}

/-- **C84** The work counted for an operation is that of the model: sizes and capacities are as told by the meter, and every
step of the model that may fail is counted. -/
theorem C84_meter {op : SegOp V} {x y : Seg V} {w w' : World} {u : Unit} (hx : x.Inv E w) (h : op.run E x w = .ok u y w') :
    shape E y = (op.meter E.lib (shape E x)).1 ∧ w'.tick ≤ w.tick + work E op x :=
  run_op E op hx.core h

/-- **C84** An operation that does not insert takes no more than five times its allowance: erasure the number of elements
erased plus those after them, `clear` and `shrink_to_fit` the size, `reserve` the size or, without reallocation, nothing. -/
theorem C84_direct {op : SegOp V} {x : Seg V} {w : World} (hx : x.Inv E w) (hp : WorkPre x op) (hi : Inserts op = false) :
    work E op x ≤ 5 * allowance x op :=
  direct hx.core hp hi

/-- **C84** An insertion for which there is room takes no more than three times the number of elements inserted plus those
after them. -/
theorem C84_room {op : SegOp V} {x : Seg V} {w : World} (hx : x.Inv E w) (hp : WorkPre x op) (hi : Inserts op = true)
    (hs : SinglePass op = false) (hr : Holds x (x.size + inserted op) = true) : work E op x ≤ 3 * allowance x op :=
  room hx.core hp hr hs hi

/-- **C84** `reserve` with a number not above the capacity takes constant time, if vectors reserve what they are asked for. -/
theorem C84_reserve {x : Seg V} {w : World} (hE : ExactReserve E) (hx : x.Inv E w) {n : Nat} (hn : n ≤ x.capacity) :
    work E (.reserve n) x ≤ 5 := by
  have this : work E (.reserve n) x ≤ 5 * (if Holds x n then 0 else x.size + 1) := direct hx.core (op := .reserve n) trivial rfl
  rcases holds_of_exact hE hx.core hn with h | h
  · rw [h] at this
    simp only [if_true] at this
    omega
  · split at this <;> omega

/-- **C84** `shrink_to_fit` takes no time if there is nothing to give back, and in packed segments also if everything is given
back.  (In a split segment without elements it makes a new index in any case.) -/
theorem C84_shrink_idle {x : Seg V} :
    (x.capacity = x.size → (x.kind = .split → x.size ≠ 0) → work E .shrinkToFit x = 0) ∧
    (x.kind = .packed → x.size = 0 → E.lib.shrinkCap 0 x.capacity = 0 → work E .shrinkToFit x = 0) := by
  obtain ⟨b, snt⟩ := x
  cases b with
  | packed y =>
    constructor
    · intro (h : y.s.cap = y.s.elems.length) _
      have h1 := E.lib.shrinkCap_ge y.s.elems.length y.s.cap (by omega)
      have h2 := E.lib.shrinkCap_le y.s.elems.length y.s.cap (by omega)
      have e : E.lib.shrinkCap y.s.elems.length y.s.cap = y.s.cap := by omega
      simp [work, SegOp.meter, shape, psh, Shape.run, VShape.shrinkToFit, vsh, Vec.size, e]
    · intro _ (h : y.s.elems.length = 0) (e : E.lib.shrinkCap 0 y.s.cap = 0)
      simp only [work, SegOp.meter, shape, psh, Shape.run, VShape.shrinkToFit, vsh, Vec.size, h, e]
      split <;> rfl
  | split y =>
    refine ⟨?_, fun h => nomatch h⟩
    intro (h : y.s.cap = y.s.elems.length) h0
    have h0 : y.s.elems.length ≠ 0 := h0 rfl
    have h1 := E.lib.shrinkCap_ge y.s.elems.length y.s.cap (by omega)
    have h2 := E.lib.shrinkCap_le y.s.elems.length y.s.cap (by omega)
    have e : E.lib.shrinkCap y.s.elems.length y.s.cap = y.s.cap := by omega
    simp [work, SegOp.meter, shape, Shape.run, SShape.shrinkToFit, ssh, vsh, Vec.size, e, h0]

theorem session_inv {x : Seg V} {w : World} {ops c a y w'} (h : Session E x w ops c a y w') (hx : x.Inv E w) :
    y.Inv E w' ∧ w.next ≤ w'.next := by
  induction h with
  | nil => exact ⟨hx, Nat.le_refl _⟩
  | snoc _ hw hp _ hr ih =>
    obtain ⟨h1, h2⟩ := run_inv (ih.1.weaken E hw) hp hr
    exact ⟨h1, by omega⟩

theorem session_bound (hL : Geometric E.lib) {x : Seg V} {w : World} {ops c a y w'} (h : Session E x w ops c a y w') (hx : x.Inv E w) :
    c + (shape E y).pot ≤ 30 * a + (shape E x).pot := by
  induction h with
  | nil => omega
  | snoc hs hw hp hf hr ih =>
    have := step hL ((session_inv hs hx).1.weaken E hw).core hp hf hr
    omega

/-- **C84** Any sequence of operations on a segment takes on the whole no more than thirty times the sum of the allowances, and
five times the number of elements at the beginning: single insertions take constant time on average, plus the number of elements
behind.  This if vectors grow geometrically and sizes do not exceed a third of `max_size()`.
Missing: beyond that the claim is false, see `C32_quadratic`, and so it is for forward ranges in split segments, where the
allowance is the whole segment if there is no room, see `C84_range_quadratic`. -/
theorem C84_amortised_partial (hL : Geometric E.lib) {x y : Seg V} {w w' : World} {ops : List (SegOp V)} {c a : Nat} (hx : x.Inv E w)
    (h : Session E x w ops c a y w') : c ≤ 30 * a + 5 * x.size + 1 := by
  have h1 := session_bound hL h hx
  have h2 := pot_le hx.core
  omega

end

/-! ### Example segments -/

/-- A new split segment, and with one, two and three elements. -/
def m0 : Seg Nat := ⟨.split ⟨0, 0, 0, ⟨2, 1, []⟩, ⟨3, 1, [⟨2, 0⟩]⟩⟩, ⟨3, 0⟩⟩
def m1 : Seg Nat := ⟨.split ⟨0, 0, 0, ⟨2, 1, [4]⟩, ⟨4, 2, [⟨2, 0⟩, ⟨2, 1⟩]⟩⟩, ⟨4, 1⟩⟩
def m2 : Seg Nat := ⟨.split ⟨0, 0, 0, ⟨6, 2, [4, 5]⟩, ⟨5, 3, [⟨6, 0⟩, ⟨6, 1⟩, ⟨6, 2⟩]⟩⟩, ⟨5, 2⟩⟩
def m3 : Seg Nat := ⟨.split ⟨0, 0, 0, ⟨8, 3, [4, 6, 5]⟩, ⟨7, 4, [⟨8, 0⟩, ⟨8, 1⟩, ⟨8, 2⟩, ⟨8, 3⟩]⟩⟩, ⟨7, 3⟩⟩

theorem m0_make : Seg.make Sample.E0 .split 0 0 () ⟨1, 0⟩ = .ok m0 () ⟨4, 3⟩ := rfl
theorem m1_run : (SegOp.pushBack (.emplaced 4)).run Sample.E0 m0 ⟨4, 3⟩ = .ok () m1 ⟨5, 5⟩ := rfl
theorem m2_run : (SegOp.pushBack (.emplaced 5)).run Sample.E0 m1 ⟨5, 5⟩ = .ok () m2 ⟨7, 8⟩ := rfl
theorem m3_run : (SegOp.insertLocal 1 (.copyExt 6)).run Sample.E0 m2 ⟨7, 8⟩ = .ok () m3 ⟨9, 10⟩ := rfl

theorem m0_inv : m0.Inv Sample.E0 ⟨4, 3⟩ := (runs_ok (Seg.make_runs Sample.E0 .split 0 0 () ⟨1, 0⟩) m0_make).2.1

/-- The segment is filled with work 4, 11 and 17; the allowances are 1, 1 and 2. -/
theorem m3_session : Session Sample.E0 m0 ⟨4, 3⟩ [.pushBack (.emplaced 4), .pushBack (.emplaced 5), .insertLocal 1 (.copyExt 6)] 32 4 m3 ⟨9, 10⟩ := by
  have h1 : Session Sample.E0 m0 ⟨4, 3⟩ [.pushBack (.emplaced 4)] 4 1 m1 ⟨5, 5⟩ :=
    .snoc (op := .pushBack (.emplaced 4)) .nil (Nat.le_refl _) rfl ⟨by decide, fun _ => by decide⟩ m1_run
  have h2 : Session Sample.E0 m0 ⟨4, 3⟩ [.pushBack (.emplaced 4), .pushBack (.emplaced 5)] 15 2 m2 ⟨7, 8⟩ :=
    .snoc (op := .pushBack (.emplaced 5)) h1 (Nat.le_refl _) rfl ⟨by decide, fun _ => by decide⟩ m2_run
  exact .snoc (op := .insertLocal 1 (.copyExt 6)) h2 (Nat.le_refl _) ⟨by decide, rfl⟩ ⟨by decide, fun _ => by decide⟩ m3_run

theorem m3_inv : m3.Inv Sample.E0 ⟨9, 10⟩ := (session_inv m3_session m0_inv).1

/-- The hypotheses of `C84_meter` can be met; three steps may fail in it, four operations are counted. -/
example : m0.Inv Sample.E0 ⟨4, 3⟩ ∧ (SegOp.pushBack (.emplaced 4)).run Sample.E0 m0 ⟨4, 3⟩ = .ok () m1 ⟨5, 5⟩ ∧
    work Sample.E0 (.pushBack (.emplaced 4)) m0 = 4 :=
  ⟨m0_inv, m1_run, rfl⟩

/-- The hypotheses of `C84_direct` can be met: the first of three elements is erased, and the index loses an entry. -/
example : m3.Inv Sample.E0 ⟨9, 10⟩ ∧ WorkPre m3 (.eraseBase 0) ∧ Inserts (SegOp.eraseBase 0 : SegOp Nat) = false ∧
    work Sample.E0 (.eraseBase 0) m3 = 4 ∧ allowance m3 (.eraseBase 0) = 3 :=
  ⟨m3_inv, (by decide : 0 < m3.size), rfl, rfl, rfl⟩

/-- Room is made for ten elements: all are moved, and the index is built anew. -/
example : WorkPre m3 (.reserve 10) ∧ work Sample.E0 (.reserve 10) m3 = 17 ∧ allowance m3 (.reserve 10) = 4 :=
  ⟨trivial, rfl, rfl⟩

/-- The three elements after room has been made for ten. -/
def m4 : Seg Nat := ⟨.split ⟨0, 0, 0, ⟨10, 10, [4, 6, 5]⟩, ⟨9, 11, [⟨10, 0⟩, ⟨10, 1⟩, ⟨10, 2⟩, ⟨10, 3⟩]⟩⟩, ⟨9, 3⟩⟩
theorem m4_run : (SegOp.reserve 10).run Sample.E0 m3 ⟨9, 10⟩ = .ok () m4 ⟨11, 12⟩ := rfl
theorem m4_inv : m4.Inv Sample.E0 ⟨11, 12⟩ := (run_inv (op := .reserve 10) m3_inv trivial m4_run).1

/-- The hypotheses of `C84_room` can be met: two elements are inserted before the last. -/
example : m4.Inv Sample.E0 ⟨11, 12⟩ ∧ WorkPre m4 (.insertRangeLocal true 2 [.copyExt 1, .copyExt 2]) ∧ Inserts (SegOp.insertRangeLocal true 2 [.copyExt 1, .copyExt 2]) = true ∧
    SinglePass (SegOp.insertRangeLocal true 2 [.copyExt 1, .copyExt 2]) = false ∧
    Holds m4 (m4.size + inserted (SegOp.insertRangeLocal true 2 [.copyExt 1, .copyExt 2])) = true ∧
    work Sample.E0 (.insertRangeLocal true 2 [.copyExt 1, .copyExt 2]) m4 = 5 :=
  ⟨m4_inv, ⟨by decide, by intro s h; rcases List.mem_cons.1 h with rfl | h; rfl; cases List.mem_singleton.1 h; rfl⟩, rfl, rfl, rfl, rfl⟩

/-- A single element counts as one and not as a single-pass range, and erasure inserts nothing. -/
example : Inserts (SegOp.emplace 1 (.emplaced 4) : SegOp Nat) = true ∧ SinglePass (SegOp.emplace 1 (.emplaced 4) : SegOp Nat) = false ∧
    Holds m4 (m4.size + inserted (SegOp.emplace 1 (.emplaced 4) : SegOp Nat)) = true ∧ inserted (SegOp.emplace 1 (.emplaced 4) : SegOp Nat) = 1 ∧
    inserted (SegOp.eraseBase 0 : SegOp Nat) = 0 ∧ inserted (SegOp.shrinkToFit : SegOp Nat) = 0 := ⟨rfl, rfl, rfl, rfl, rfl, rfl⟩

/-- Both parts of `C84_shrink_idle` are about something: three elements without room for a fourth one, split and packed, and
an empty packed segment with room for four. -/
example : (⟨.split ⟨0, 0, 0, ⟨10, 3, [4, 6, 5]⟩, ⟨9, 4, [⟨10, 0⟩, ⟨10, 1⟩, ⟨10, 2⟩, ⟨10, 3⟩]⟩⟩, ⟨9, 3⟩⟩ : Seg Nat).capacity = 3 ∧
    work Sample.E0 .shrinkToFit (⟨.packed ⟨0, 0, 0, ⟨10, 3, [4, 6, 5]⟩⟩, ⟨10, 3⟩⟩ : Seg Nat) = 0 ∧
    Sample.E0.lib.shrinkCap 0 4 = 0 ∧ work Sample.E0 .shrinkToFit (⟨.packed ⟨0, 0, 0, ⟨10, 4, []⟩⟩, ⟨10, 0⟩⟩ : Seg Nat) = 0 :=
  ⟨rfl, rfl, rfl, rfl⟩

/-- The hypotheses of `C84_reserve` can be met. -/
example : ExactReserve Sample.E0 ∧ m4.Inv Sample.E0 ⟨11, 12⟩ ∧ 10 ≤ m4.capacity ∧ work Sample.E0 (.reserve 10) m4 = 0 :=
  ⟨fun _ => rfl, m4_inv, by decide, rfl⟩

theorem sample_geometric : Geometric Sample.E0.lib := by
  intro m s n h
  show 3 * s ≤ 2 * max (min (2 * s) m) n + 1
  omega

/-- The hypotheses of `C84_amortised_partial` can be met. -/
example : Geometric Sample.E0.lib ∧ m0.Inv Sample.E0 ⟨4, 3⟩ ∧ ∃ ops : List (SegOp Nat), ops.length = 4 ∧ Session Sample.E0 m0 ⟨4, 3⟩ ops 49 8 m4 ⟨11, 12⟩ :=
  ⟨sample_geometric, m0_inv, _, rfl, .snoc (op := .reserve 10) m3_session (Nat.le_refl _) trivial ⟨by decide, fun _ => by decide⟩ m4_run⟩

/-! ### Libraries that reserve more than they are asked for -/

/-- Capacities are multiples of four. -/
def lib4 : StdLib := { Sample.lib with reserveCap := fun n => (n + 3) / 4 * 4, reserveCap_ge := fun n => by omega }

/-- Nothing fails; capacities are multiples of four. -/
def E4 : Env Nat := { Sample.E0 with lib := lib4 }

def r0 : Seg Nat := ⟨.split ⟨0, 0, 0, ⟨2, 4, []⟩, ⟨3, 1, [⟨2, 0⟩]⟩⟩, ⟨3, 0⟩⟩
def r1 : Seg Nat := ⟨.split ⟨0, 0, 0, ⟨5, 8, []⟩, ⟨4, 8, [⟨5, 0⟩]⟩⟩, ⟨4, 0⟩⟩
def r2 : Seg Nat := ⟨.split ⟨0, 0, 0, ⟨5, 8, [1, 2, 3, 4, 5]⟩, ⟨4, 8, [⟨5, 0⟩, ⟨5, 1⟩, ⟨5, 2⟩, ⟨5, 3⟩, ⟨5, 4⟩, ⟨5, 5⟩]⟩⟩, ⟨4, 5⟩⟩
theorem r0_make : Seg.make E4 .split 0 0 () ⟨1, 0⟩ = .ok r0 () ⟨4, 3⟩ := rfl
theorem r1_run : (SegOp.reserve 7).run E4 r0 ⟨4, 3⟩ = .ok () r1 ⟨6, 5⟩ := rfl
theorem r2_run : (SegOp.insertRangeEnd true [.copyExt 1, .copyExt 2, .copyExt 3, .copyExt 4, .copyExt 5]).run E4 r1 ⟨6, 5⟩ = .ok () r2 ⟨6, 5⟩ := rfl

/-- `C84_reserve` needs its hypothesis: after `reserve(7)` the capacity is eight, but the index has room for seven entries and the
sentinel only, so `reserve(8)` allocates a new one and copies all entries. -/
theorem C84_reserve_needs_exact : ∃ (x0 x1 x2 : Seg Nat) (w0 w1 w2 : World) (srcs : List (Src Nat)),
    Seg.make E4 .split 0 0 () ⟨1, 0⟩ = .ok x0 () w0 ∧ (SegOp.reserve 7).run E4 x0 w0 = .ok () x1 w1 ∧
    (SegOp.insertRangeEnd true srcs).run E4 x1 w1 = .ok () x2 w2 ∧ 8 ≤ x2.capacity ∧ work E4 (.reserve 8) x2 = 7 :=
  ⟨r0, r1, r2, _, _, _, _, r0_make, r1_run, r2_run, by decide, rfl⟩

/-! ### Forward ranges in split segments -/

/-- An environment in which nothing fails and vectors have at most `M` elements. -/
def wide (M : Nat) : Env Nat := { Sample.E0 with maxSize := fun _ => M, idxMaxSize := M + 1 }

theorem wide_exc {M : Nat} {copies len : Prop} {e : Exc} (hl : ¬ len) : ¬ ExcFrom (wide M) 0 copies len e := by
  rintro (⟨-, n, h⟩ | ⟨-, n, h⟩ | ⟨-, h⟩ | ⟨-, h, -⟩)
  · exact Bool.noConfusion (h : false = true)
  · exact Bool.noConfusion (h : false = true)
  · exact hl h
  · exact Bool.noConfusion (h : true = false)

theorem wide_make {M : Nat} (hM : 1 ≤ M) (k : Kind) : ∃ (x : Seg Nat) (w : World), Seg.make (wide M) k 0 0 () ⟨1, 0⟩ = .ok x () w ∧
    x.Inv (wide M) w ∧ x.kind = k ∧ x.ty = 0 ∧ x.elems = [] ∧ x.capacity ≤ 1 := by
  have h := Seg.make_runs (wide M) k 0 0 () ⟨1, 0⟩
  cases hr : Seg.make (wide M) k 0 0 () ⟨1, 0⟩ with
  | ub => exact absurd hr (runs_not_ub h)
  | exc e u w => exact absurd (runs_exc h hr).2.2 (wide_exc (by unfold Env.TooMany; simp only [wide]; omega))
  | ok x u w =>
    obtain ⟨-, h1, h2, h3, -, -, h4, -⟩ := runs_ok h hr
    exact ⟨x, w, rfl, h1, h2, h3, h4.1, h4.2 fun _ => rfl⟩

/-- The meter of a range of one element at the end of a full split segment. -/
theorem forward_full {L : StdLib} (hE : ∀ n, L.reserveCap n = n) {x : SShape} (hc : x.s.size = x.s.cap) :
    (SShape.insertForward L x.s.size 1 x).1.s.cap = x.s.size + 1 ∧ x.s.size ≤ (SShape.insertForward L x.s.size 1 x).2 := by
  have e : ∀ z : SShape, (SShape.onI (VShape.reserve L (x.s.size + 1 + 1)) z).1.s = z.s := fun _ => rfl
  have r : ∀ z : SShape, (SShape.rebuildIndex L z).1.s = z.s := fun _ => rfl
  have b : ∀ (n : Nat) (z : SShape), (SShape.buildIndex L n z).1.s = z.s := fun _ _ => rfl
  have v : VShape.reserve L (x.s.size + 1) x.s = (⟨x.s.size, x.s.size + 1⟩, x.s.size + 1) := by
    unfold VShape.reserve
    rw [if_neg (by omega), hE]
  have p1 : (SShape.expandBy L 1 x).1.s = ⟨x.s.size, x.s.size + 1⟩ := by
    show (VShape.reserve L (x.s.size + 1) x.s).1 = _
    rw [v]
  have p2 : x.s.size ≤ (SShape.expandBy L 1 x).2 := by
    have : (VShape.reserve L (x.s.size + 1) x.s).2 ≤ (SShape.expandBy L 1 x).2 := by
      unfold SShape.expandBy Meter.andThen SShape.onS
      dsimp only
      rw [e]
      omega
    rw [v] at this
    dsimp only at this
    omega
  have q : SShape.prereserveBy L 1 x = SShape.expandBy L 1 x := by
    unfold SShape.prereserveBy
    rw [if_pos (by omega)]
  unfold SShape.insertForward Meter.andThen
  rw [if_neg (by decide)]
  dsimp only
  rw [q]
  constructor
  · rw [b]
    show (VShape.insertRange L x.m x.s.size 1 (SShape.expandBy L 1 x).1.s).1.cap = _
    rw [p1]
    unfold VShape.insertRange
    rw [if_neg (by decide), if_pos (Nat.le_refl _)]
  · omega

/-- Ranges of one element, appended one after the other to an empty split segment. -/
theorem wide_ranges {M : Nat} {x : Seg Nat} {w : World} (hx : x.Inv (wide M) w) (hk : x.kind = .split) (ht : x.ty = 0) (h0 : x.elems = [])
    (hc : x.capacity ≤ 1) : ∀ n, 3 * (n + 2) ≤ M → ∃ c a y w', Session (wide M) x w (List.replicate n (.insertRangeEnd true [.copyExt 7])) c a y w' ∧
      y.elems.length = n ∧ y.kind = .split ∧ y.ty = 0 ∧ y.capacity ≤ max 1 n ∧ n * (n - 1) ≤ 2 * c := by
  intro n
  induction n with
  | zero => exact fun _ => ⟨0, 0, x, w, .nil, by rw [h0]; rfl, hk, ht, by omega, by omega⟩
  | succ n ih =>
    intro hn
    obtain ⟨c, a, y, w1, hs, i1, i2, i3, i4, i5⟩ := ih (by omega)
    have hy := (session_inv hs hx).1
    have hsz : y.size = n := i1
    have hle := hy.core.le (wide M)
    have hr := Seg.insertRangeEnd_runs (wide M) true y w1 hy.core [.copyExt 7] [7] (by intro s h; cases List.mem_singleton.1 h; rfl) rfl
    cases he : Seg.insertRangeEnd (wide M) true [.copyExt 7] y w1 with
    | ub => exact absurd he (runs_not_ub hr)
    | exc e u w2 =>
      have := (runs_exc hr he).exc
      rw [i3] at this
      exact absurd this (wide_exc (by unfold Env.TooMany; simp only [wide, hsz, List.length_singleton]; omega))
    | ok r z w2 =>
      have hz := (runs_ok hr he).1
      have hrun : (SegOp.insertRangeEnd true [Src.copyExt 7]).run (wide M) y w1 = .ok () z w2 := by
        show Prog.bind (Seg.insertRangeEnd (wide M) true [.copyExt 7]) (fun _ => Prog.pure ()) y w1 = _
        unfold Prog.bind
        rw [he]
        rfl
      have hl : z.elems.length = n + 1 := by
        rw [hz.elems]
        simp only [List.length_append, List.length_take, List.length_drop, List.length_singleton]
        have : y.elems.length = y.size := rfl
        omega
      have hsh := (C84_meter hy hrun).1
      have key : z.capacity ≤ max 1 (n + 1) ∧ n ≤ work (wide M) (.insertRangeEnd true [.copyExt 7]) y := by
        by_cases hf : y.size = y.capacity
        · cases hb : y.be with
          | packed b => unfold Seg.kind at i2; rw [hb] at i2; exact absurd i2 (by simp [Backend.kind])
          | split b =>
            cases hb' : z.be with
            | packed b' =>
              have := hz.step.kind
              unfold Seg.kind at this
              rw [hb, hb'] at this
              exact absurd this (by simp [Backend.kind])
            | split b' =>
              have key := forward_full (L := (wide M).lib) (fun _ => rfl)
                (x := ⟨(wide M).maxSize y.ty, (wide M).idxMaxSize, ⟨y.size, y.capacity⟩, ⟨b.i.size, b.i.cap⟩⟩) hf
              rw [shape_split hb, shape_split hb'] at hsh
              have hcap : z.capacity = (SShape.insertForward (wide M).lib y.size 1
                  ⟨(wide M).maxSize y.ty, (wide M).idxMaxSize, ⟨y.size, y.capacity⟩, ⟨b.i.size, b.i.cap⟩⟩).1.s.cap :=
                congrArg (fun s : Shape => match s with | .packed _ v => v.cap | .split q => q.s.cap) hsh
              have hw : work (wide M) (.insertRangeEnd true [.copyExt 7]) y = (SShape.insertForward (wide M).lib y.size 1
                  ⟨(wide M).maxSize y.ty, (wide M).idxMaxSize, ⟨y.size, y.capacity⟩, ⟨b.i.size, b.i.cap⟩⟩).2 := by
                unfold work
                rw [shape_split hb]
                rfl
              obtain ⟨k1, k2⟩ := key
              dsimp only at k1 k2
              rw [hw, hcap, k1]
              omega
        · have : z.capacity = y.capacity := (hz.store (by show y.size + 1 ≤ y.capacity; omega)).2
          omega
      refine ⟨c + work (wide M) (.insertRangeEnd true [.copyExt 7]) y, a + allowance y (.insertRangeEnd true [.copyExt 7]), z, w2, ?_, hl, hz.step.kind.trans i2, hz.step.ty.trans i3, key.1, ?_⟩
      · rw [List.replicate_succ']
        exact .snoc hs (Nat.le_refl _) (fun s h => by cases List.mem_singleton.1 h; rfl)
          ⟨by rw [i3, hsz]; show 3 * (n + 1 + 1) ≤ M; omega, fun _ => by rw [hsz]; show 3 * (n + 1 + 1) ≤ M + 1; omega⟩ hrun
      · have e : (n + 1) * (n + 1 - 1) = n * (n - 1) + 2 * n := by
          rw [Nat.add_sub_cancel, Nat.succ_mul]
          cases n with
          | zero => rfl
          | succ m => rw [Nat.add_sub_cancel, Nat.mul_succ (m + 1) m]; omega
        have := key.2
        omega

/-- **C84 fails for forward ranges in split segments** (F30): `expand(m)` makes room for exactly the elements to be inserted, so
that ranges of one element appended one after the other take quadratic time, however much room the allocator has.  According to
`reference.qbk` 565 the insertion of a range is equivalent to insertions of its elements, which take constant time on average. -/
theorem C84_range_quadratic (K : Nat) : ∃ (E : Env Nat) (x y : Seg Nat) (w w' : World) (n c a : Nat), (∀ i, E.fault i = false) ∧
    Geometric E.lib ∧ ExactReserve E ∧ Seg.make E .split 0 0 () ⟨1, 0⟩ = .ok x () w ∧
    Session E x w (List.replicate n (.insertRangeEnd true [.copyExt 7])) c a y w' ∧ K * n < c := by
  obtain ⟨x, w, hx, h1, h2, h3, h4, h5⟩ := wide_make (M := 3 * (2 * K + 2 + 2)) (by omega) .split
  obtain ⟨c, a, y, w', hs, -, -, -, -, hc⟩ := wide_ranges h1 h2 h3 h4 h5 (2 * K + 2) (Nat.le_refl _)
  refine ⟨_, x, y, w, w', 2 * K + 2, c, a, fun _ => rfl, ?_, fun _ => rfl, hx, hs, ?_⟩
  · exact sample_geometric
  · rw [show 2 * K + 2 - 1 = 2 * K + 1 by omega] at hc
    have : (2 * K + 2) * (2 * K + 1) = 2 * (K * (2 * K + 2)) + (2 * K + 2) := by
      rw [Nat.mul_succ, Nat.mul_comm (2 * K + 2) (2 * K), Nat.mul_assoc]
    omega

end PolyColl.Props
