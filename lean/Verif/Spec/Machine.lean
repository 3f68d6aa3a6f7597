import Verif.Spec.State
/-!
# Collections as an abstract machine

What a program asks of its collections, in terms of types, positions and values only, and what the
answer may be: `Request.Does` relates the contents of the collections before and after a request
that is carried out, `Request.Fails` those before and after one that throws.  The only freedom of an
implementation is where a new segment appears and how the segments of a copy are ordered.  This file
does not depend on the model of the code.
-/

namespace PolyColl
namespace Spec
open State

/-- What is to be done to the contents of one collection. -/
inductive Change (V : Type) where
  /-- Nothing. -/
  | keep
  /-- Register types. -/
  | register (ts : List Ty)
  /-- Insert elements before position `k` of the segment of `t`. -/
  | insert (t : Ty) (k : Nat) (vs : List V)
  /-- Insert elements one by one, before `p` those of the type of the segment of `p`, at the end of their
  segments the others. -/
  | insertEach (p : Pos) (l : List (Ty × V))
  /-- Remove elements `a` to `b` (exclusive) of the segment of `t`. -/
  | erase (t : Ty) (a b : Nat)
  /-- Remove everything from one position to another. -/
  | eraseSpan (p q : Pos)
  /-- Remove all elements. -/
  | clear
  /-- Remove all elements of type `t`. -/
  | clearOf (t : Ty)
  /-- Change an element; if this throws the element becomes something else. -/
  | modify (t : Ty) (k : Nat) (f g : V → V)

namespace Change
variable {V : Type}

/-- The change has been made. -/
def Does : Change V → State V → State V → Prop
  | keep, s, s' => s' = s
  | register ts, s, s' => s.Registered ts s'
  | insert t k vs, s, s' => k ≤ (s.elemsOf t).length ∧ s.Put t k vs s'
  | insertEach p l, s, s' => s.Grown (fun t => s.hintPos t p) l s'
  | erase t a b, s, s' => s' = s.update t fun l => l.take a ++ l.drop b
  | eraseSpan p q, s, s' => s' = s.removeRange (s.rank p) (s.rank q)
  | clear, s, s' => s' = s.cleared
  | clearOf t, s, s' => s' = s.update t fun _ => []
  | modify t k f _, s, s' => s' = s.update t fun l => l.modify k f

/-- What may be left if the change has been attempted in vain: types and elements registered and
inserted before the failure are there, nothing else has changed; elements of a segment from which
elements are being removed may have been moved. -/
def Fails : Change V → State V → State V → Prop
  | keep, s, s' => s' = s
  | register ts, s, s' => ∃ us, us <+: ts ∧ s.Registered us s'
  | insert t k vs, s, s' => s' = s ∨ ∃ j, j < vs.length ∧ s.Put t k (vs.take j) s'
  | insertEach p l, s, s' => ∃ j s1, j < l.length ∧ s.Grown (fun t => s.hintPos t p) (l.take j) s1 ∧
      (s' = s1 ∨ ∃ t v, l[j]? = some (t, v) ∧ s1.Ensure t s')
  | erase t _ _, s, s' => s'.types = s.types ∧ (∀ u, u ≠ t → s'.elemsOf u = s.elemsOf u) ∧
      (s'.elemsOf t).length = (s.elemsOf t).length
  | eraseSpan p q, s, s' => s'.types = s.types ∧
      ∀ u, (s.removeRange (s.rank p) (s.rank q)).elemsOf u = s.elemsOf u → s'.elemsOf u = s.elemsOf u
  | clear, _, _ => False
  | clearOf _, s, s' => s' = s
  | modify t k _ g, s, s' => s' = s.update t fun l => l.modify k g

end Change

/-- What is to be done to the collections of a program. -/
inductive Request (V : Type) where
  /-- Change collection `i`. -/
  | on (i : Nat) (ch : Change V)
  /-- Construct collection `i` with these elements. -/
  | make (i : Nat) (l : List (Ty × V))
  /-- Construct collection `i` as a copy of `j`. -/
  | copy (i j : Nat)
  /-- Construct collection `i` out of `j`, emptying `j`. -/
  | move (i j : Nat)
  /-- Assign `j` to `i`. -/
  | assign (i j : Nat)
  /-- Move `j` to `i`. -/
  | moveAssign (i j : Nat)
  | swap (i j : Nat)

namespace Request
variable {V : Type}

/-- The collections concerned. -/
def concerns : Request V → List Nat
  | on i _ | make i _ | copy i _ | assign i _ => [i]
  | move i j | moveAssign i j | swap i j => [i, j]

/-- The request has been carried out on the collections with contents `S`. -/
def Does (r : Request V) (S S' : Nat → State V) : Prop :=
  (∀ x, x ∉ r.concerns → S' x = S x) ∧
  match r with
  | on i ch => ch.Does (S i) (S' i)
  | make i l => Appended l [] (S' i)
  | copy i j => (S' i).Perm (S j)
  | move i j => (S' i).Perm (S j) ∧ S' j = []
  | assign i j => (S' i).Perm (S j)
  | moveAssign i j => (S' i).Perm (S j) ∧ (i ≠ j → S' j = [])
  | swap i j => S' i = S j ∧ S' j = S i

/-- The request has been attempted in vain. -/
def Fails (r : Request V) (S S' : Nat → State V) : Prop :=
  (∀ x, x ∉ r.concerns → S' x = S x) ∧
  match r with
  | on i ch => ch.Fails (S i) (S' i)
  | make i _ | copy i _ => S' i = S i
  | move _ _ => False
  | assign i _ => S' i = []
  | moveAssign i j => S' i = [] ∧ S' j = []
  | swap _ _ => False

end Request

/-- What the contents of the collections of a program can be after a list of requests, each of which
was carried out (`true`) or failed (`false`).  In the beginning all collections are empty. -/
inductive Trace {V : Type} : List (Request V × Bool) → (Nat → State V) → Prop where
  | start : Trace [] fun _ => []
  | ok {l : List (Request V × Bool)} {S S' : Nat → State V} (h : Trace l S) (r : Request V) (hd : r.Does S S') :
      Trace (l ++ [(r, true)]) S'
  | exc {l : List (Request V × Bool)} {S S' : Nat → State V} (h : Trace l S) (r : Request V) (hf : r.Fails S S') :
      Trace (l ++ [(r, false)]) S'

end Spec
end PolyColl
