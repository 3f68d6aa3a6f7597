import Verif.Props.Whole
import Verif.Props.Heap
import Verif.Lemmas.NodeReuse
/-!
# Assignment when the hash map keeps its nodes (C77)

`Coll.assignKeep` and `Coll.moveAssignKeep` are the assignment operators with a hash map that assigns to the elements it has instead of
destroying them, which the standard allows and libc++ does.
-/

namespace PolyColl
open Prog Coll

variable {V : Type} {E : Env V} {k : Kind} {sub : Ty → TI} {H : Nat → Health} {s : Sys V} {w : World}

/-! ### The program of the examples -/

namespace Sample

/-- Nothing fails; copy assignment propagates the allocator. -/
def EK : Env Nat := { E0 with pocca := true }

def keepc1 : Coll Nat :=
  ⟨.packed, ⟨[⟨2, 0, ⟨.packed ⟨0, 0, 0, ⟨6, 1, [5]⟩⟩, ⟨6, 1⟩⟩⟩], 1, 1, 0, [(0, ⟨some 2, 1⟩)]⟩⟩
theorem keepstep1 : COp.run EK (.emplace 0 (.emplaced 5)) (Coll.empty' .packed 0) ⟨1, 0⟩ = .ok () keepc1 ⟨7, 7⟩ := rfl
def keepd1 : Coll Nat :=
  ⟨.packed, ⟨[⟨8, 0, ⟨.packed ⟨0, 0, 0, ⟨12, 1, [8]⟩⟩, ⟨12, 1⟩⟩⟩], 1, 1, 0, [(0, ⟨some 8, 1⟩)]⟩⟩
theorem keepstep2 : COp.run EK (.emplace 0 (.emplaced 8)) (Coll.empty' .packed 0) ⟨7, 7⟩ = .ok () keepd1 ⟨13, 14⟩ := rfl
def keepd2 : Coll Nat :=
  ⟨.packed, ⟨[⟨14, 6, ⟨.packed ⟨3, 0, 0, ⟨18, 1, [9]⟩⟩, ⟨18, 1⟩⟩⟩, ⟨8, 0, ⟨.packed ⟨0, 0, 0, ⟨12, 1, [8]⟩⟩, ⟨12, 1⟩⟩⟩], 2, 2, 0, [(0, ⟨some 8, 2⟩), (6,
    ⟨some 14, 2⟩)]⟩⟩
theorem keepstep3 : COp.run EK (.emplace 6 (.emplaced 9)) keepd1 ⟨13, 14⟩ = .ok () keepd2 ⟨19, 21⟩ := rfl
theorem keepreach : Coll.Reachable2 EK .packed keepc1 keepd2 ⟨19, 21⟩ :=
  open Coll in
  Reachable2.start sub (fun t => Nat.mul_div_cancel_left t (by decide)) 0 0
    |>.stepL (.emplace 0 (.emplaced 5)) rfl keepstep1
    |>.stepR (.emplace 0 (.emplaced 8)) rfl keepstep2
    |>.stepR (.emplace 6 (.emplaced 9)) rfl keepstep3

end Sample

namespace Props

/-- All segments of `c` use its allocator, and their storage will be returned to the allocator it came from. -/
def OneAllocator (c : Coll V) : Prop := ∀ n ∈ c.map.nodes, n.seg.al = c.map.al ∧ n.seg.objAl = n.seg.deleteAl

theorem oneAllocator {c : Coll V} {w : World} (h : c.Inv E w) : OneAllocator c := by
  intro n hn
  refine ⟨h.map.al n hn, ?_⟩
  have : n.seg.deleteAl = n.seg.al := by unfold Seg.deleteAl Seg.al; cases n.seg.be <;> rfl
  rw [this, h.map.objAl n hn, h.map.al n hn]

/-- Copy assignment to another collection, keeping nodes, does what copy assignment does (`C33_assign`): the collection has the types and
elements of the other one, each segment in the same order, and the allocator that the propagation traits say; it is in order
(`Coll.Inv` is what the theorems on reachable collections rest on); nodes are kept only if they come from the allocator the collection then
has; its elements are in new memory.  If it throws the collection is empty and in order.

Partial: if `propagate_on_container_copy_assignment` holds it is assumed that `select_on_container_copy_construction` returns the same
allocator, see `C77_mismatch`. -/
theorem C77_assign_partial (h : s.Reached E k sub H w) {i j : Nat} (hs : E.pocca = true → E.soccc (s j).map.al = (s j).map.al) :
    Runs (Coll.assignKeep E (s j)) (s i) w
      (fun _ c w' => c.SameContents (s j) ∧ c.map.al = (if E.pocca then (s j).map.al else (s i).map.al) ∧ OneAllocator c ∧ c.Inv E w' ∧
        (∀ n ∈ c.map.nodes, (n.id ∈ (s i).map.nodes.map (·.id) ∧ c.map.al = (s i).map.al) ∨ w.next ≤ n.id) ∧ (∀ n ∈ c.map.nodes, ∀ b ∈ n.seg.blocks, b = 0 ∨ w.next ≤ b) ∧
        (∀ t, (s j).abs.elemsOf t ≠ [] → (E.traits t).copyable = true))
      (fun e c w' => c.abs = [] ∧ c.map.al = (if E.pocca then (s j).map.al else (s i).map.al) ∧ c.Inv E w' ∧ CopyExc E (s j).abs e) := by
  refine (assignKeep_runs E (s j) (s i) w (h.map j) (h.map i) (h.kind i j) h.pos hs).mono ?_ ?_
  · rintro _ c w' ⟨a1, a2, a3, a4, a5, a6, a7, a8⟩
    exact ⟨sameContents a5 (h.nodup j), a4, oneAllocator a2, a2, a7, a8, a6⟩
  · rintro e c w' ⟨a1, a2, a3, a4, a5, a6⟩
    exact ⟨a5, a4, a2, a6⟩

/-- The example program can assign its second collection to the first, which has segments whose nodes are used again. -/
example (k : Kind) : ∃ (sub : Ty → TI) (H : Nat → Health) (s : Sys Nat) (i j : Nat) (w w' : World) (c : Coll Nat), s.Reached Sample.E0 k sub H w ∧
    Coll.assignKeep Sample.E0 (s j) (s i) w = .ok () c w' ∧ c.abs.elemsOf 0 = [5, 4] ∧ c.abs.elemsOf 1 = [] ∧
    ∃ n ∈ c.map.nodes, n.id ∈ (s i).map.nodes.map (·.id) := by
  obtain ⟨sub, H, s, i, j, h, hij, hi, hj, h0, h1⟩ := Sample.sys k
  have key : ∃ c w', Coll.assignKeep Sample.E0 (Sample.c1 k) (Sample.c0 k) (Sample.w0 k) = .ok () c w' ∧
      ∃ n ∈ c.map.nodes, n.id ∈ (Sample.c0 k).map.nodes.map (·.id) := by
    cases k <;> exact ⟨_, _, rfl, _, .tail _ (.head _), by decide⟩
  obtain ⟨c, w', he, hn⟩ := key
  rw [← h0] at hn
  rw [← h0, ← h1] at he
  have := (runs_ok (C77_assign_partial h (fun e => absurd e (by decide))) he).1.elems
  rw [h1, Sample.abs1] at this
  exact ⟨sub, H, s, i, j, _, w', c, h, he, this 0, this 1, hn⟩

/-- Move assignment to another collection, keeping nodes, does what move assignment does (`C34_moveAssign`). -/
theorem C77_moveAssign (h : s.Reached E k sub H w) {i j : Nat} (hj : H j = .sound) :
    Runs (Coll.moveAssignKeep E) (s i, s j) w
      (fun _ p w' => p.1.SameContents (s j) ∧ p.2.abs = [] ∧ p.1.map.al = (if E.pocma then (s j).map.al else (s i).map.al) ∧
        p.2.map.al = (s j).map.al ∧ OneAllocator p.1 ∧ p.1.Inv E w' ∧ p.2.Inv E w')
      (fun e p w' => p.1.abs = [] ∧ p.2.abs = [] ∧ p.1.map.al = (s i).map.al ∧ p.2.map.al = (s j).map.al ∧ p.1.Inv E w' ∧ p.2.Inv E w' ∧
        ¬ E.pocma ∧ (s i).map.al ≠ (s j).map.al ∧ MoveExc E (s j).abs e) := by
  refine (moveAssignKeep_runs E (s i) (s j) w (h.inv hj) (h.map i) (h.kind i j)).mono ?_ ?_
  · rintro _ p w' ⟨a1, a2, a3, a4, a5, a6, a7, a8, a9⟩
    exact ⟨sameContents a5 (h.nodup j), a9, a4, a8, oneAllocator a2, a2, a6⟩
  · rintro e p w' ⟨a1, a2, a3, a4, a5, a6, a7, a8, a9, a10, a11, a12⟩
    exact ⟨a5, a9, a4, a8, a2, a6, a10, a11, a12⟩

/-- Elements are moved one by one to the nodes of the target. -/
example (k : Kind) : ∃ (sub : Ty → TI) (H : Nat → Health) (s : Sys Nat) (i j : Nat) (w w' : World) (p : Coll Nat × Coll Nat), s.Reached Sample.E0 k sub H w ∧
    H j = .sound ∧ (s i).map.al ≠ (s j).map.al ∧ Coll.moveAssignKeep Sample.E0 (s i, s j) w = .ok () p w' ∧ p.1.abs.elemsOf 0 = [5, 4] ∧ p.2.abs = [] := by
  obtain ⟨sub, H, s, i, j, h, hij, hi, hj, h0, h1⟩ := Sample.sys k
  have key : ∃ p w', Coll.moveAssignKeep Sample.E0 (Sample.c0 k, Sample.c1 k) (Sample.w0 k) = .ok () p w' := by cases k <;> exact ⟨_, _, rfl⟩
  obtain ⟨p, w', he⟩ := key
  rw [← h0, ← h1] at he
  have := runs_ok (C77_moveAssign h hj) he
  have h2 := this.1.elems 0
  rw [h1, Sample.abs1] at h2
  exact ⟨sub, H, s, i, j, _, w', p, h, hj, by rw [h0, h1]; cases k <;> decide, he, h2, this.2.1⟩

/-- Negation for the remaining case, of `C39` and `C40` too if nodes are kept: two collections with the same allocator, the left one not empty; copy
assignment propagates the allocator, which `select_on_container_copy_construction` replaces by another one.  The elements are right, but
the segment in the node that was kept has another allocator than the collection, and its storage will be returned to that allocator although
it came from the collection's. -/
theorem C77_mismatch : ∃ (E : Env Nat) (c x c' : Coll Nat) (w w' : World), c.Reachable E .packed w ∧ x.Reachable E .packed w ∧ c.map.al = x.map.al ∧
    c.map.nodes ≠ [] ∧ Coll.assignKeep E x c w = .ok () c' w' ∧ c'.abs.Perm x.abs ∧ c'.map.al = c.map.al ∧
    ∃ n ∈ c'.map.nodes, n.seg.al ≠ c'.map.al ∧ n.seg.objAl = c'.map.al ∧ n.seg.deleteAl ≠ n.seg.objAl :=
  ⟨Sample.EK, Sample.keepc1, Sample.keepd2, ⟨.packed, ⟨[⟨21, 0, ⟨.packed ⟨0, 0, 0, ⟨22, 1, [8]⟩⟩, ⟨22, 1⟩⟩⟩, ⟨2, 6, ⟨.packed ⟨3, 10, 0, ⟨19, 1, [9]⟩⟩, ⟨19, 1⟩⟩⟩], 2, 2, 0,
    [(0, ⟨some 21, 2⟩), (6, ⟨some 2, 2⟩)]⟩⟩, ⟨19, 21⟩, ⟨27, 29⟩, Sample.keepreach.left, Sample.keepreach.right, rfl, (by simp [Sample.keepc1]), rfl,
    List.Perm.swap _ _ _, rfl, ⟨2, 6, ⟨.packed ⟨3, 10, 0, ⟨19, 1, [9]⟩⟩, ⟨19, 1⟩⟩⟩, .tail _ (.head _), (by decide), rfl, by decide⟩

/-- Is the outcome undefined? -/
def isUb {X α : Type} : Out X α → Bool
  | .ub => true
  | _ => false

theorem isUb_iff {X α : Type} {o : Out X α} : isUb o = true ↔ o = .ub := by cases o <;> simp [isUb]

/-- Assigning to a segment and destroying it is then undefined behaviour. -/
theorem C77_undefined : ∃ (E : Env Nat) (ops : List (HOp Nat)), HOp.all (HOp.run E) ops Heap.start ⟨1, 0⟩ = .ub ∧
    (HOp.all (HOp.value E) ops (fun _ => none) ⟨1, 0⟩ ≠ .ub) ∧ E.pocca = true :=
  ⟨Sample.EK, [.make 0 .packed 0 0, .make 1 .packed 0 0, .assign 0 1, .destroy 0], isUb_iff.1 (by decide +kernel),
    (fun h => absurd (isUb_iff.2 h) (by decide +kernel)), rfl⟩

end Props
end PolyColl
