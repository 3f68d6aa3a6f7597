import Verif.Props.SampleData
import Verif.Lemmas.AlgoSearch
/-!
# Iterators into the first collection of the examples

The elements are 9 of type 1, then 1, 2, 3 of type 0, none of type 5, and 7 of type 2.
-/

namespace PolyColl.Sample
open PolyColl Prog Coll

/-- `begin()` incremented `n` times. -/
def iter (k : Kind) : Nat → GIter
  | 0 => ((c0 k).begin E0).getD (c0 k).end
  | n + 1 => ((c0 k).map.increment E0 (iter k n)).getD (c0 k).end

theorem iter_zero (k : Kind) : (c0 k).At E0 (iter k 0) (some (1, 0)) := by
  obtain ⟨it, h1, h2⟩ := begin_at E0 (reach0 k).inv
  rw [abs0] at h2
  rw [iter, h1]
  exact h2

theorem iter_succ {k : Kind} {n : Nat} {t : Ty} {j : Nat} (h : (c0 k).At E0 (iter k n) (some (t, j))) :
    (c0 k).At E0 (iter k (n + 1)) ((c0 k).abs.norm t (j + 1)) := by
  obtain ⟨it, h1, h2⟩ := increment_at E0 (reach0 k).inv h
  simpa [iter, h1] using h2

theorem iter_one (k : Kind) : (c0 k).At E0 (iter k 1) (some (0, 0)) := by
  have := iter_succ (iter_zero k); rwa [abs0] at this

theorem iter_two (k : Kind) : (c0 k).At E0 (iter k 2) (some (0, 1)) := by
  have := iter_succ (iter_one k); rwa [abs0] at this

theorem iter_three (k : Kind) : (c0 k).At E0 (iter k 3) (some (0, 2)) := by
  have := iter_succ (iter_two k); rwa [abs0] at this

theorem iter_four (k : Kind) : (c0 k).At E0 (iter k 4) (some (2, 0)) := by
  have := iter_succ (iter_three k); rwa [abs0] at this

theorem iter_end (k : Kind) : (c0 k).At E0 (c0 k).end none := at_end E0 _

/-- The `local_base_iterator` to position `n` of the segment of type 0. -/
def lbase (k : Kind) (n : Nat) : LIter :=
  ((c0 k).map.nodes[1]?).elim ⟨⟨none, 0⟩, ⟨0, 0⟩⟩ fun x => ⟨(c0 k).map.itTo x, x.seg.base n⟩

/-- The `local_iterator` to position `n` of the segment of type 0. -/
def llocal (k : Kind) (n : Nat) : LIter :=
  ((c0 k).map.nodes[1]?).elim ⟨⟨none, 0⟩, ⟨0, 0⟩⟩ fun x => ⟨(c0 k).map.itTo x, x.seg.loc n⟩

theorem lbase_at (k : Kind) {n : Nat} (hn : n ≤ 3) : (c0 k).LAtB E0 (lbase k n) 0 n := by
  cases k <;> exact ⟨_, use_itTo (.tail _ (.head _)), rfl, hn, rfl⟩

theorem llocal_at (k : Kind) {n : Nat} (hn : n ≤ 3) : (c0 k).LAtL E0 (llocal k n) 0 n := by
  cases k <;> exact ⟨_, use_itTo (.tail _ (.head _)), rfl, hn, rfl⟩

/-- `begin()` of the second collection, whose elements are 6 of type 3, then 5, 4 of type 0. -/
def first1 (k : Kind) : GIter := ((c1 k).begin E0).getD (c1 k).end

theorem first1_at (k : Kind) : (c1 k).At E0 (first1 k) (some (3, 0)) := by
  obtain ⟨it, h1, h2⟩ := begin_at E0 (reach1 k).inv
  rw [abs1] at h2
  rw [first1, h1]
  exact h2

/-- The iterator after it. -/
def second1 (k : Kind) : GIter := ((c1 k).map.increment E0 (first1 k)).getD (c1 k).end

theorem second1_at (k : Kind) : (c1 k).At E0 (second1 k) (some (0, 0)) := by
  obtain ⟨it, h1, h2⟩ := increment_at E0 (reach1 k).inv (first1_at k)
  rw [abs1] at h2
  rw [second1, h1]
  exact h2

theorem end1_at (k : Kind) : (c1 k).At E0 (c1 k).end none := at_end E0 _

/-- The `local_base_iterator` to position `n` of the segment of type 0 of the second collection. -/
def lbase1 (k : Kind) (n : Nat) : LIter :=
  ((c1 k).map.nodes[1]?).elim ⟨⟨none, 0⟩, ⟨0, 0⟩⟩ fun x => ⟨(c1 k).map.itTo x, x.seg.base n⟩

theorem lbase1_at (k : Kind) {n : Nat} (hn : n ≤ 2) : (c1 k).LAtB E0 (lbase1 k n) 0 n := by
  cases k <;> exact ⟨_, use_itTo (.tail _ (.head _)), rfl, hn, rfl⟩

end PolyColl.Sample
