import Verif.Lemmas.Cost
import Verif.Props.Causes
/-!
# C67 and C68: failures are not swallowed, and what an operation may fail at

`World.tick` counts the steps of the program that may fail: allocations, and operations of elements not declared
`noexcept`.  `E.fault n` says that step `n` fails.  `COp.Costs` (`Lemmas/Cost.lean`) is a table of the operations that
need no new memory with the number of such steps.
-/

namespace PolyColl.Props
open PolyColl Prog Coll Spec

variable {V : Type} {E : Env V} {k : Kind}

/-! ### C67 -/

/-- **C67.**  Whatever the state of the collections, documented use or not: if an operation returns, none of the
allocations and operations of elements it made has failed; that is, no exception is swallowed. -/
theorem C67_not_swallowed (E : Env V) (k : Kind) (sub : Ty → TI) (op : Op V) (s : Sys V) (w : World) {s' : Sys V} {w' : World}
    (hr : op.run E k sub s w = .ok () s' w') : w.tick ≤ w'.tick ∧ ∀ n, w.tick ≤ n → n < w'.tick → E.fault n = false := by
  have := (Op.run_fair E k sub op).run s w
  unfold Leaves at this
  rw [hr] at this
  exact this

/-- The same for comparisons. -/
theorem C67_not_swallowed_equal (E : Env V) (x y : Coll V) (s : Sys V) (w : World) {b : Bool} {s' : Sys V} {w' : World}
    (hr : Coll.equal E x y s w = .ok b s' w' ∨ Coll.notEqual E x y s w = .ok b s' w') :
    w.tick ≤ w'.tick ∧ ∀ n, w.tick ≤ n → n < w'.tick → E.fault n = false := by
  have h1 := (Coll.equal_fair (X := Sys V) E x y).run s w
  have h2 := (Coll.notEqual_fair (X := Sys V) E x y).run s w
  unfold Leaves at h1 h2
  rcases hr with hr | hr
  · rw [hr] at h1; exact h1
  · rw [hr] at h2; exact h2

/-- **C67 (programs).**  If every operation of a program returned, nothing has failed since it started. -/
theorem C67_program (E : Env V) (k : Kind) (sub : Ty → TI) : ∀ (l : List (Op V)) (s : Sys V) (w : World) {s' : Sys V} {w' : World},
    Prog.each (fun op => op.run E k sub) l s w = .ok () s' w' → ∀ n, w.tick ≤ n → n < w'.tick → E.fault n = false
  | [], s, w, s', w', hr, n, h1, h2 => by
    cases hr
    omega
  | op :: l, s, w, s', w', hr, n, h1, h2 => by
    change Prog.bind (op.run E k sub) (fun _ => Prog.each (fun op => op.run E k sub) l) s w = _ at hr
    unfold Prog.bind at hr
    cases ho : op.run E k sub s w with
    | ub => rw [ho] at hr; cases hr
    | exc e s1 w1 => rw [ho] at hr; cases hr
    | ok a s1 w1 =>
      rw [ho] at hr
      rcases Nat.lt_or_ge n w1.tick with h | h
      · exact (C67_not_swallowed E k sub op s w ho).2 n h1 h
      · exact C67_program E k sub l s1 w1 hr n h h2

/-! ### C68 -/

/-- **C68.**  Where no new memory is needed, an operation takes exactly the steps of `COp.Costs`: it returns if and only
if none of these fails, and throws the exception of user code otherwise; nothing else decides whether it throws. -/
theorem C68_exact {c : Coll V} {w : World} (h : c.Reachable E k w) {op : COp V} (hp : op.Pre E c) {n : Nat} {C : Prop} (hc : op.Costs E c n C) (hC : ¬ C) :
    ((∀ j, j < n → E.fault (w.tick + j) = false) ∧ ∃ c' w', op.run E c w = .ok () c' w' ∧ w'.tick = w.tick + n) ∨
    ((∃ j, j < n ∧ E.fault (w.tick + j) = true) ∧ ∃ c' w', op.run E c w = .exc .user c' w' ∧ w'.tick ≤ w.tick + n) := by
  have h1 := op_cost h.inv hp hc
  have h2 := (COp.run_fair E op).run c w
  have h3 := op_throws op c w h.inv hp
  unfold Takes at h1
  unfold Leaves at h1 h2
  unfold Runs at h3
  cases hr : op.run E c w with
  | ub => rw [hr] at h3; exact h3.elim
  | ok a c' w' =>
    rw [hr] at h1 h2
    have h1 : w'.tick = w.tick + n := h1
    exact .inl ⟨fun j hj => h2.2 _ (by omega) (by omega), c', w', rfl, h1⟩
  | exc e c' w' =>
    rw [hr] at h1 h2
    obtain ⟨h1, he | he⟩ := h1
    · subst he
      obtain ⟨m, a, b, hf⟩ := h2.2
      exact .inr ⟨⟨m - w.tick, by omega, by rwa [show w.tick + (m - w.tick) = m by omega]⟩, c', w', rfl, h1⟩
    · exact absurd he hC

/-- **C68 (never).**  An operation of the table that takes no step that may fail returns.  For instance: erasing the last
element of a segment; inserting at the end of a segment with room an element that is moved without exceptions. -/
theorem C68_never {c : Coll V} {w : World} (h : c.Reachable E k w) {op : COp V} (hp : op.Pre E c) {C : Prop} (hc : op.Costs E c 0 C) (hC : ¬ C) :
    ∃ c' w', op.run E c w = .ok () c' w' ∧ w'.tick = w.tick := by
  rcases C68_exact h hp hc hC with ⟨-, c', w', h1, h2⟩ | ⟨⟨j, hj, -⟩, -⟩
  · exact ⟨c', w', h1, h2⟩
  · omega

/-! ### Examples -/

namespace Sample
open PolyColl.Sample

/-- Step 15 fails. -/
def E15 : Env Nat := env (· == 15)

def costc1 : Coll Nat :=
  ⟨.split, ⟨[⟨4, 4, ⟨.split ⟨2, 0, 0, ⟨2, 1, [7]⟩, ⟨9, 2, [⟨2, 0⟩, ⟨2, 1⟩]⟩⟩, ⟨9, 1⟩⟩⟩], 1, 1, 0, [(4, ⟨some 4, 1⟩)]⟩⟩
theorem coststep1 : COp.run E15 (.emplace 4 (.emplaced 7)) (Coll.empty' .split 0) ⟨1, 0⟩ = .ok () costc1 ⟨10, 10⟩ := rfl
def costc2 : Coll Nat :=
  ⟨.split, ⟨[⟨4, 4, ⟨.split ⟨2, 0, 0, ⟨11, 4, [7]⟩, ⟨10, 5, [⟨11, 0⟩, ⟨11, 1⟩]⟩⟩, ⟨10, 1⟩⟩⟩], 1, 1, 0, [(4, ⟨some 4, 1⟩)]⟩⟩
theorem coststep2 : COp.run E15 (.reserveInfo 4 4) costc1 ⟨10, 10⟩ = .ok () costc2 ⟨12, 13⟩ := rfl
def costc3 : Coll Nat :=
  ⟨.split, ⟨[⟨4, 4, ⟨.split ⟨2, 0, 0, ⟨11, 4, [7, 8]⟩, ⟨10, 5, [⟨11, 0⟩, ⟨11, 1⟩, ⟨11, 2⟩]⟩⟩, ⟨10, 2⟩⟩⟩], 1, 1, 0, [(4, ⟨some 4, 1⟩)]⟩⟩
theorem coststep3 : COp.run E15 (.emplace 4 (.emplaced 8)) costc2 ⟨12, 13⟩ = .ok () costc3 ⟨12, 14⟩ := rfl
theorem costreach : Coll.Reachable2 E15 .split costc3 (Coll.empty' .split 1) ⟨12, 14⟩ :=
  open Coll in
  Reachable2.start sub (sub_ty _) 0 1
    |>.stepL (.emplace 4 (.emplaced 7)) rfl coststep1
    |>.stepL (.reserveInfo 4 4) rfl coststep2
    |>.stepL (.emplace 4 (.emplaced 8)) rfl coststep3

/-- An element is copied to the end: one step, number 14, which does not fail. -/
example : costc3.Reachable E15 .split ⟨12, 14⟩ ∧ (COp.emplace 4 (.copyExt 5)).Pre E15 costc3 ∧
    (COp.emplace 4 (.copyExt 5)).Costs E15 costc3 1 (E15.BadCopy 2 (.copyExt 5)) ∧ ¬ E15.BadCopy 2 (.copyExt 5) ∧
    (∀ j, j < 1 → E15.fault (14 + j) = false) := by
  refine ⟨costreach.left, ⟨5, .inl ⟨rfl, rfl⟩⟩, .emplace (by unfold Known; decide) ⟨_, .head _, rfl, ?_, ?_⟩, fun h => absurd h.2 (by decide), by decide⟩
  · show Split.Room _
    unfold Split.Room
    decide
  · decide

/-- An element is copied to the front: two steps, of which number 15 fails. -/
example : costc3.Reachable E15 .split ⟨12, 14⟩ ∧ (COp.emplacePosBase ⟨⟨some 4, 1⟩, ⟨10, 0⟩⟩ 4 (.copyExt 5)).Pre E15 costc3 ∧
    (COp.emplacePosBase ⟨⟨some 4, 1⟩, ⟨10, 0⟩⟩ 4 (.copyExt 5)).Costs E15 costc3 2 (E15.BadCopy 2 (.copyExt 5)) ∧ ¬ E15.BadCopy 2 (.copyExt 5) ∧
    E15.fault (14 + 1) = true := by
  have hl : costc3.LAtB E15 ⟨⟨some 4, 1⟩, ⟨10, 0⟩⟩ 2 0 := ⟨_, ⟨.head _, rfl, rfl⟩, rfl, Nat.zero_le _, rfl⟩
  refine ⟨costreach.left, ⟨⟨5, .inl ⟨rfl, rfl⟩⟩, 0, hl⟩, .emplacePosBase (k := 0) ⟨_, .head _, rfl, ?_, ?_⟩ hl, fun h => absurd h.2 (by decide), by decide⟩
  · show Split.Room _
    unfold Split.Room
    decide
  · decide

/-- The last element is erased: no step. -/
example : costc3.Reachable E15 .split ⟨12, 14⟩ ∧ (COp.eraseLocalBase ⟨⟨some 4, 1⟩, ⟨10, 1⟩⟩).Pre E15 costc3 ∧
    (COp.eraseLocalBase ⟨⟨some 4, 1⟩, ⟨10, 1⟩⟩).Costs E15 costc3 0 False := by
  have hl : costc3.LAtB E15 ⟨⟨some 4, 1⟩, ⟨10, 1⟩⟩ 2 1 := ⟨_, ⟨.head _, rfl, rfl⟩, rfl, by decide, rfl⟩
  exact ⟨costreach.left, ⟨2, 1, hl, by decide⟩, .eraseLocalBase hl (by decide)⟩

/-- A collection with two elements whose `operator==` may throw is compared to itself: the second comparison is step 15 and fails; the next
time the collections are equal. -/
example (s : Sys Nat) : costc3.Possible E15 .split ⟨12, 14⟩ ∧ Coll.equal E15 costc3 costc3 s ⟨12, 14⟩ = .exc .user s ⟨12, 16⟩ ∧
    Coll.equal E15 costc3 costc3 s ⟨12, 16⟩ = .ok true s ⟨12, 18⟩ := ⟨costreach.left.possible, rfl, rfl⟩

/-- A program that returns after 14 steps. -/
example : ∃ s' : Sys Nat, Prog.each (fun op : Op Nat => op.run E15 .split sub) [.on 0 (.emplace 4 (.emplaced 7)), .on 0 (.reserveInfo 4 4), .on 0 (.emplace 4 (.emplaced 8))]
    (fun _ => Coll.empty' .split 0) ⟨1, 0⟩ = .ok () s' ⟨12, 14⟩ := by
  simp only [Prog.each, Op.run, Sys.on, zoom, Prog.bind, coststep1, coststep2, coststep3, Sys.put, if_true]
  exact ⟨_, rfl⟩

/-- An operation that returns after 10 steps, none of which fails. -/
example : (Op.on 0 (.emplace 4 (.emplaced 7))).run E15 .split sub (fun _ => Coll.empty' .split 0) ⟨1, 0⟩ = .ok ()
    (Sys.put (fun _ => Coll.empty' .split 0) 0 costc1) ⟨10, 10⟩ := rfl

end Sample
end PolyColl.Props
