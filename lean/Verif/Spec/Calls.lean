/-!
# Counting calls

Functors that may have state of type `S`, may throw exceptions of type `ε`, and whose calls are
counted.
-/

namespace PolyColl
namespace StdAlg

/-- What runs with a count of the calls so far, which survives exceptions. -/
abbrev Watched (S ε : Type) : Type → Type := ExceptT ε (StateM (S × Nat))

variable {S ε A B R α : Type}

/-- A functor, with its calls counted. -/
def counted (f : A → ExceptT ε (StateM S) R) (a : A) : Watched S ε R :=
  ExceptT.mk fun s => (((f a).run s.1).1, (((f a).run s.1).2, s.2 + 1))

/-- A functor with two arguments, with its calls counted. -/
def counted2 (f : A → B → ExceptT ε (StateM S) R) (a : A) (b : B) : Watched S ε R := counted (f a) b

/-- A functor with two arguments, with its calls not counted. -/
def silent2 (f : A → B → ExceptT ε (StateM S) R) (a : A) (b : B) : Watched S ε R :=
  ExceptT.mk fun s => (((f a b).run s.1).1, (((f a b).run s.1).2, s.2))

/-- There are at most `u` calls, whether it ends with an exception or not; if it returns `a` after
`k` calls then `Q a k`. -/
def Calls (u : Nat) (Q : α → Nat → Prop) (x : Watched S ε α) : Prop :=
  ∀ s n, ∃ k ≤ u, (x.run (s, n)).2.2 = n + k ∧ ∀ a, (x.run (s, n)).1 = .ok a → Q a k

end StdAlg
end PolyColl
