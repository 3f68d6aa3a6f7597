/-!
# Statements on ranges

What the results of some algorithms mean, in terms of lists only.
-/

namespace PolyColl
namespace StdAlg
variable {A B : Type}

/-- Lists of the same length with related elements. -/
inductive Both (R : A → B → Prop) : List A → List B → Prop
  | nil : Both R [] []
  | cons {a : A} {b : B} {l : List A} {bs : List B} (h : R a b) (t : Both R l bs) : Both R (a :: l) (b :: bs)

/-- The first range can be brought into an order in which it matches the second. -/
def Permuted (Q : A → B → Bool) (l : List A) (bs : List B) : Prop :=
  ∃ l', l'.Perm l ∧ Both (fun a b => Q a b = true) l' bs

/-- `P` is an equivalence, and `Q` compares an element of one range with one of the other in
accordance with it. -/
structure Matching (P : A → A → Bool) (Q : A → B → Bool) : Prop where
  refl : ∀ a, P a a = true
  symm : ∀ a b, P a b = true → P b a = true
  trans : ∀ a b c, P a b = true → P b c = true → P a c = true
  left : ∀ a a' b, P a a' = true → Q a b = true → Q a' b = true
  join : ∀ a a' b, Q a b = true → Q a' b = true → P a a' = true

/-- The second range occurs in the first one from position `k` on. -/
def Occurs (Q : A → B → Bool) (bs : List B) (l : List A) (k : Nat) : Prop :=
  k + bs.length ≤ l.length ∧ Both (fun a b => Q a b = true) ((l.drop k).take bs.length) bs

/-- The `count` elements from position `k` on exist and satisfy the predicate. -/
def RunAt (P : A → Bool) (count : Nat) (l : List A) (k : Nat) : Prop :=
  k + count ≤ l.length ∧ ∀ a ∈ (l.drop k).take count, P a = true

/-- All elements satisfying the predicate come before all others. -/
def Partitioned (P : A → Bool) (l : List A) : Prop :=
  ∃ u v, l = u ++ v ∧ (∀ a ∈ u, P a = true) ∧ ∀ a ∈ v, P a = false

/-- A symmetric and transitive predicate. -/
structure Sameness (P : A → A → Bool) : Prop where
  symm : ∀ a b, P a b = true → P b a = true
  trans : ∀ a b c, P a b = true → P b c = true → P a c = true

/-- The elements that do not match the one before them. -/
def headsFrom (P : A → A → Bool) : A → List A → List A
  | _, [] => []
  | a, b :: l => if P a b then headsFrom P b l else b :: headsFrom P b l

/-- The first elements of the groups of consecutive elements that match. -/
def heads (P : A → A → Bool) : List A → List A
  | [] => []
  | a :: l => a :: headsFrom P a l

end StdAlg
end PolyColl
