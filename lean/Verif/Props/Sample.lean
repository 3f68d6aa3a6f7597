import Verif.Props.Basic
/-!
# Environments of the examples

Values are natural numbers, there are infinitely many types, each with two `std::type_info`
objects: `2 * t` and `2 * t + 1` both stand for type `t`.
-/

namespace PolyColl.Sample
open PolyColl Prog

/-- Type 1 is not copyable, type 2 has throwing moves and a throwing `operator==`, type 3 has no `operator==`, type 4 is
like type 2 and not copyable, the others are as nice as can be. -/
def traits : Ty → Traits
  | 1 => ⟨false, false, true, true, true, true, true⟩
  | 2 => ⟨true, false, false, true, false, true, false⟩
  | 3 => ⟨true, true, true, true, true, false, false⟩
  | 4 => ⟨false, false, false, true, false, true, false⟩
  | _ => ⟨true, true, true, true, true, true, true⟩

/-- A vector that reserves what it is asked for, doubles when it grows (up to the limit) and shrinks completely. -/
def lib : StdLib where
  reserveCap n := n
  reserveCap_ge _ := Nat.le_refl _
  growCap m s n := max (min (2 * s) m) n
  growCap_ge _ _ _ := Nat.le_max_right _ _
  shrinkCap s _ := s
  shrinkCap_ge _ _ _ := Nat.le_refl _
  shrinkCap_le _ _ h := h
  inputTemp := false

/-- A vector that reserves more than it is asked for, and inserts single-pass ranges by way of a temporary. -/
def lib2 : StdLib := { lib with reserveCap := fun n => n + 2, reserveCap_ge := fun n => Nat.le_add_right n 2, inputTemp := true }

/-- The hash map rehashes at every insertion, and reverses the order of its nodes when it does. -/
def env (fault : Nat → Bool) : Env Nat where
  fault := fault
  junk _ i := 100 + i
  junkLen n := n
  traits := traits
  lib := lib
  maxSize _ := 1000
  idxMaxSize := 1001
  eqv a b := a == b
  tiTy i := i / 2
  shuffle _ l := l.reverse
  shuffle_perm _ l := List.reverse_perm l
  newBuckets _ b := b + 1
  strictRehash := true
  soccc a := a + 10
  pocca := false
  pocma := false
  pocs := true

/-- Nothing fails. -/
def E0 : Env Nat := env fun _ => false

/-- Nothing fails; vectors reserve more than they are asked for, and insert single-pass ranges by way of a temporary. -/
def E2 : Env Nat := { E0 with lib := lib2 }

/-- Nothing fails; rehashing leaves the iterators of the hash map alone. -/
def E1 : Env Nat := { E0 with strictRehash := false }

/-- Nothing fails; a vector of index entries can have more elements than a vector of objects, as is
the case if the objects are larger than the entries. -/
def E3 : Env Nat := { E0 with idxMaxSize := 5000 }

/-- Nothing fails; an allocator that gives room for two objects, or ten index entries. -/
def E4 : Env Nat := { E0 with maxSize := fun _ => 2, idxMaxSize := 10 }

/-- Nothing fails; the hash map gets eight buckets at first and keeps them. -/
def E5 : Env Nat := { E0 with newBuckets := fun _ b => if b = 0 then 8 else b }

/-- The type_info object `typeid` yields for a type. -/
def sub (t : Ty) : TI := 2 * t

theorem sub_ty1 (t : Ty) : E1.tiTy (sub t) = t :=
  Nat.mul_div_cancel_left t (by decide)

theorem sub_ty5 (t : Ty) : E5.tiTy (sub t) = t :=
  Nat.mul_div_cancel_left t (by decide)

theorem sub_ty2 (t : Ty) : E2.tiTy (sub t) = t :=
  Nat.mul_div_cancel_left t (by decide)

theorem sub_ty3 (t : Ty) : E3.tiTy (sub t) = t :=
  Nat.mul_div_cancel_left t (by decide)

theorem sub_ty4 (t : Ty) : E4.tiTy (sub t) = t :=
  Nat.mul_div_cancel_left t (by decide)

theorem sub_ty (f : Nat → Bool) (t : Ty) : (env f).tiTy (sub t) = t :=
  Nat.mul_div_cancel_left t (by decide)

end PolyColl.Sample
