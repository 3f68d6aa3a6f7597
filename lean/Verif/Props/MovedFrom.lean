import Verif.Props.NodeReuse
import Verif.Props.Exceptions
import Verif.Lemmas.MovedFrom
/-!
# Move assignment, whatever the standard library leaves of a moved-from map (C97)

`Coll.moveAssignLeft E l` is move assignment with a hash map that leaves `l` if its elements have to be moved one by one: nothing, segments with
empty vectors, or segments with vectors of moved-from elements.
-/

namespace PolyColl
open Prog Coll

variable {V : Type} {E : Env V} {k : Kind} {sub : Ty → TI} {H : Nat → Health} {s : Sys V} {w : World}

namespace Props

/-- The target is what `C34_moveAssign` says, whatever is left of the source, and so are both collections after an exception.  The source
is usable and has no segments if the allocator is propagated or the same, or if the map leaves nothing.

Missing: the source in the remaining case, see `C97_emptied` and `C97_full`. -/
theorem C97_moveAssign_partial (l : Leftover) (h : s.Reached E k sub H w) {i j : Nat} (hj : H j = .sound) :
    Runs (Coll.moveAssignLeft E l) (s i, s j) w
      (fun _ p w' => p.1.SameContents (s j) ∧ p.1.map.al = (if E.pocma then (s j).map.al else (s i).map.al) ∧ OneAllocator p.1 ∧ p.1.Inv E w' ∧
        p.2.map.al = (s j).map.al ∧ (E.pocma ∨ (s i).map.al = (s j).map.al ∨ l = .none → p.2.abs = [] ∧ p.2.Inv E w') ∧
        (E.pocma ∨ (s i).map.al = (s j).map.al → p.1.map.nodes = (s j).map.nodes))
      (fun e p w' => p.1.abs = [] ∧ p.2.abs = [] ∧ p.1.map.al = (s i).map.al ∧ p.2.map.al = (s j).map.al ∧ p.1.Inv E w' ∧ p.2.Inv E w' ∧
        ¬ E.pocma ∧ (s i).map.al ≠ (s j).map.al ∧ MoveExc E (s j).abs e) := by
  refine (moveAssignLeft_runs l (s i) (s j) w (h.inv hj) (h.kind i j)).mono ?_ ?_
  · rintro _ p w' ⟨a1, a2, a3, a4, a5, -, -, a8, -⟩
    exact ⟨sameContents a3 (h.nodup j), a2, oneAllocator a1, a1, a4, fun e => ⟨(a5 e).2, (a5 e).1⟩, a8⟩
  · rintro e p w' ⟨a1, a2, a3, a4, a5, a6, a7, a8, a9⟩
    exact ⟨a3, a6, a2, a5, a1, a4, a7, a8, a9⟩

/-- The maps that leave nothing are those of the other properties. -/
theorem C97_nothing : Coll.moveAssignLeft E .none = Coll.moveAssign E := rfl

/-- Negation for the remaining case: segments with empty vectors are left.  The source has the types it had and no elements, but the segments
have the cached ends of before: unless there were no elements at all, traversing the source is undefined. -/
theorem C97_emptied (h : s.Reached E k sub H w) {i j : Nat} (hj : H j = .sound) (hp : ¬ E.pocma) (hal : (s i).map.al ≠ (s j).map.al) :
    Runs (Coll.moveAssignLeft E .emptied) (s i, s j) w
      (fun _ p w' => p.2.abs = (s j).abs.map (fun q => (q.1, [])) ∧ p.2.size = 0 ∧ ((s j).size = 0 → p.2.Inv E w' ∧ Traversed E p.2 []) ∧
        ((s j).size ≠ 0 → RunsPast E p.2))
      (fun _ _ _ => True) := by
  refine (moveAssignLeft_runs .emptied (s i) (s j) w (h.inv hj) (h.kind i j)).mono ?_ (fun _ _ _ _ => trivial)
  rintro _ p w' ⟨-, -, -, -, -, a6, -⟩
  obtain ⟨b1, b2, b3, b4⟩ := a6 hp hal rfl
  refine ⟨b1, b2, fun e => ⟨b3 e, ?_⟩, b4⟩
  have := traversed (b3 e)
  have he : p.2.abs.flat = [] := by
    rw [b1]
    simp [Spec.State.flat]
  rwa [he] at this

/-- The other remaining case: vectors of moved-from elements are left.  The source is usable, but has as many elements as before. -/
theorem C97_full (h : s.Reached E k sub H w) {i j : Nat} (hj : H j = .sound) (hp : ¬ E.pocma) (hal : (s i).map.al ≠ (s j).map.al) :
    Runs (Coll.moveAssignLeft E .full) (s i, s j) w (fun _ p w' => p.2.abs = (s j).abs ∧ p.2.Inv E w' ∧ ((s j).abs.flat ≠ [] → p.2.size ≠ 0))
      (fun _ _ _ => True) := by
  refine (moveAssignLeft_runs .full (s i) (s j) w (h.inv hj) (h.kind i j)).mono ?_ (fun _ _ _ _ => trivial)
  rintro _ p w' ⟨-, -, -, -, -, -, a7, -⟩
  obtain ⟨b1, b2⟩ := a7 hp hal rfl
  refine ⟨b2, b1, fun hne e => hne ?_⟩
  rw [← b2]
  exact List.eq_nil_of_length_eq_zero ((size_abs p.2).symm.trans e)

/-- Calling `clear()` on the source helps in any case: it does not throw, and the source is then usable and has no elements.  It may have types of
before. -/
theorem C97_clear (l : Leftover) (h : s.Reached E k sub H w) {i j : Nat} (hj : H j = .sound) {p : Coll V × Coll V} {w' : World}
    (hr : Coll.moveAssignLeft E l (s i, s j) w = .ok () p w') :
    Runs Coll.clearAll p.2 w' (fun _ c w'' => c.Inv E w'' ∧ Traversed E c [] ∧ c.size = 0 ∧ (∀ t ∈ c.abs.types, t ∈ (s j).abs.types))
      (fun _ _ _ => False) := by
  obtain ⟨-, -, -, -, -, -, -, -, a9, a10⟩ := runs_ok (moveAssignLeft_runs l (s i) (s j) w (h.inv hj) (h.kind i j)) hr
  refine (clearAll_weak E p.2 w' a9).mono ?_ (fun _ _ _ h => h)
  rintro _ c w'' hc
  have hflat : c.abs.flat = [] := by
    rw [hc.abs]
    simp [Spec.State.cleared, Spec.State.flat, List.flatMap_map]
  refine ⟨hc.inv, hflat ▸ traversed hc.inv, by rw [size_abs, hflat]; rfl, fun t ht => a10 t ?_⟩
  rwa [hc.abs, Spec.State.cleared_types] at ht

/-- Does it return? -/
def returns {X : Type} : Out X Unit → Bool
  | .ok _ _ _ => true
  | _ => false

theorem returns_iff {X : Type} {o : Out X Unit} : returns o = true ↔ ∃ p w', o = .ok () p w' := by cases o <;> simp [returns]

/-- All three can happen to the collections of the example program, which have different allocators. -/
example (k : Kind) : ∃ (sub : Ty → TI) (H : Nat → Health) (s : Sys Nat) (i j : Nat) (w : World), s.Reached Sample.E0 k sub H w ∧
    H j = .sound ∧ ¬ Sample.E0.pocma ∧ (s i).map.al ≠ (s j).map.al ∧ (∀ l, ∃ p w', Coll.moveAssignLeft Sample.E0 l (s i, s j) w = .ok () p w' ∧
      p.1.abs.elemsOf 0 = [5, 4] ∧ (l = .none → p.2.abs = []) ∧ (l = .emptied → p.2.size = 0 ∧ RunsPast Sample.E0 p.2) ∧
      (l = .full → p.2.size = 3)) := by
  obtain ⟨sub, H, s, i, j, h, hij, hi, hj, h0, h1⟩ := Sample.sys k
  have hal : (s i).map.al ≠ (s j).map.al := by rw [h0, h1]; cases k <;> decide
  refine ⟨sub, H, s, i, j, _, h, hj, by decide, hal, fun l => ?_⟩
  have key : ∃ p w', Coll.moveAssignLeft Sample.E0 l (Sample.c0 k, Sample.c1 k) (Sample.w0 k) = .ok () p w' := by
    refine returns_iff.1 ?_
    cases k <;> cases l <;> decide +kernel
  obtain ⟨p, w', he⟩ := key
  rw [← h0, ← h1] at he
  have hm := runs_ok (C97_moveAssign_partial l h hj) he
  have h2 := hm.1.elems 0
  rw [h1, Sample.abs1] at h2
  refine ⟨p, w', he, h2, fun e => (hm.2.2.2.2.2.1 (Or.inr (Or.inr e))).1, fun e => ?_, fun e => ?_⟩
  · subst e
    have := runs_ok (C97_emptied h hj (by decide) hal) he
    exact ⟨this.2.1, this.2.2.2 (by rw [h1]; cases k <;> decide)⟩
  · subst e
    have := (runs_ok (C97_full h hj (by decide) hal) he).1
    rw [size_abs, this, h1, Sample.abs1]
    rfl

end Props
end PolyColl
