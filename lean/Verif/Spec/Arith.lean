import Verif.Model.Arith
/-!
# How large the numbers of a machine are
-/

namespace PolyColl

/-- The numbers of the machine are large enough: `max_size()` of a vector is at most the largest
`std::ptrdiff_t`, which is half of the largest `std::size_t`. -/
structure Env.Machine {V : Type} (E : Env V) (W : Nat) : Prop where
  store : ∀ t, 2 * E.maxSize t + 2 ≤ W
  index : 2 * E.idxMaxSize + 2 ≤ W

/-- The length of a range of forward iterators is a number of type `std::ptrdiff_t`. -/
def Counts {α : Type} (W : Nat) (l : List α) : Prop := 2 * l.length + 2 ≤ W

end PolyColl
