import Verif.Lemmas.HalfMoved
import Verif.Props.Exceptions
import Verif.Props.Whole
/-!
# Property C34: what an allocator-extended move construction that throws leaves of its source
-/

namespace PolyColl.Props
open PolyColl Prog Coll

variable {V : Type} {E : Env V} {k : Kind} {sub : Ty → TI} {H : Nat → Health} {s : Sys V} {w : World}

/-- **C34**, what exactly goes wrong: when move construction with an allocator has thrown, the source has lost
elements or it has not.  If it has not, it is in order: same segments, same numbers of elements, it can
be traversed.  If it has, traversing it is undefined. -/
theorem C34_source_exactly (h : s.Reached E k sub H w) {i j : Nat} (hij : i ≠ j) (hj : H j = .sound) (al : Alloc) :
    Runs (Op.run E k sub (.moveAl i j al)) s w (fun _ _ _ => True)
      (fun _ s' w' => (s' j).size ≤ (s j).size ∧
        ((s' j).size = (s j).size → (s' j).Inv E w' ∧ (s' j).abs.map (fun p => (p.1, p.2.length)) = (s j).abs.map (fun p => (p.1, p.2.length)) ∧
          Traversed E (s' j) (s' j).abs.flat) ∧
        ((s' j).size ≠ (s j).size → RunsPast E (s' j))) := by
  simp only [Op.run, if_neg hij, Sys.construct, Sys.on, runs_bind, runs_get, runs_set, runs_zoom]
  refine (moveAl_exactly al (s j) w (h.inv hj)).mono (fun _ _ _ _ => trivial) ?_
  rintro e x' w' ⟨h1, h2, h3⟩
  simp only [Sys.put_same]
  exact ⟨h1, fun he => ⟨(h2 he).1, (h2 he).2, traversed (h2 he).1⟩, h3⟩

/-- Elements are lost if the allocation for the second segment fails. -/
example : ∃ (E : Env Nat) (c c' : Coll Nat) (w w' : World), c.Reachable E .packed w ∧ c.size = 2 ∧ Coll.moveAl E 7 c w = .exc .badAlloc c' w' ∧ c'.size = 1 :=
  ⟨Sample.env fun t => t == 18, Sample.mvc2, _, _, _, Sample.mvreach.left, rfl, rfl, rfl⟩

/-- None are lost if the first allocation fails. -/
example : ∃ (E : Env Nat) (c c' : Coll Nat) (w w' : World), c.Reachable E .packed w ∧ c.size = 2 ∧ Coll.moveAl E 7 c w = .exc .badAlloc c' w' ∧ c'.size = 2 :=
  ⟨Sample.env fun t => t == 14, Sample.mvc2, _, ⟨13, 14⟩, _, Coll.Reachable2.left (open Coll in
    Reachable2.start Sample.sub (Sample.sub_ty _) 0 1
      |>.stepL (.emplace 0 (.emplaced 5)) rfl (c' := Sample.mvc1) (w' := ⟨7, 7⟩) rfl
      |>.stepL (.emplace 6 (.emplaced 6)) rfl (c' := Sample.mvc2) (w' := ⟨13, 14⟩) rfl), rfl, rfl, rfl⟩

end PolyColl.Props
