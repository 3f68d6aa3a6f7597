import Verif.Lemmas.AlgoSearch
import Verif.Spec.Ranges
/-!
# The pieces of a range and their elements
-/

namespace PolyColl
namespace StdAlg
variable {m : Type → Type} [Monad m] [LawfulMonad m] {A B : Type}

theorem equalPart_take (p : A → B → m Bool) (l : List A) : ∀ bs : List B, l.length ≤ bs.length →
    Prod.fst <$> equalPart p l bs = equal p l (bs.take l.length) := by
  induction l with
  | nil => intro bs _; simp [equalPart, equal]
  | cons a l ih =>
    intro bs hb
    cases bs with
    | nil => simp at hb
    | cons b bs =>
      simp only [equalPart, equal, List.length_cons, List.take_succ_cons, map_bind]
      refine bind_congr fun x => ?_
      cases x
      · simp
      · simp only [if_true]
        exact ih bs (by simpa using hb)

end StdAlg

namespace Algo
open Coll
variable {V : Type} (E : Env V)

theorem Cut.ranges {c : Coll V} {w : World} (h : c.Core E w) (Ts : List Ty) {f : Bool} {ps : List SegInfo} {r : Nat} {l : List (Ty × V)}
    (hc : Cut E c f ps r l) :
    ∃ vs : List (List (Passed V)), StdAlg.Both (fun i v => (Algo.range E c Ts i).map (·.vals) = some v ∧ ∀ x ∈ v, x.ty = E.tiTy i.info) ps vs ∧
      vs.flatten = passed Ts l := by
  induction hc with
  | nil => exact ⟨[], .nil, rfl⟩
  | @cons f i is n a b r l hp hr hz hc ih =>
    obtain ⟨vs, h1, h2⟩ := ih
    obtain ⟨rg, h3, -, h4, -⟩ := hp.rangeP E h Ts
    refine ⟨rg.vals :: vs, .cons ⟨by rw [h3]; rfl, ?_⟩ h1, ?_⟩
    · intro x hx
      rw [h4, passed, List.mem_map] at hx
      obtain ⟨y, hy, rfl⟩ := hx
      rw [hp.info, ← h.map.ty n hp.use.mem]
      simp only [sliceOf, List.mem_map] at hy
      obtain ⟨v, -, rfl⟩ := hy
      rfl
    · rw [List.flatten_cons, h2, h4, passed_append]

end Algo
end PolyColl
