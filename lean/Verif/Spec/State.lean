import Verif.Model.Prog
/-!
# What a collection is, seen from outside

The observable state of a collection is the list of its segments in traversal order, each with
its type and its elements.  This file does not depend on the model of the code; it only uses
the type `Ty` of type names.
-/

namespace PolyColl
namespace Spec

/-- Observable state of a collection. -/
abbrev State (V : Type) := List (Ty × List V)

namespace State
variable {V : Type}

/-- The registered types in traversal order. -/
def types (s : State V) : List Ty := s.map Prod.fst

/-- The elements in traversal order. -/
def flat (s : State V) : List V := s.flatMap Prod.snd

/-- The elements of type `t`; `none` if `t` is not registered. -/
def get (s : State V) (t : Ty) : Option (List V) := s.lookup t

/-- The elements of type `t`, none if `t` is not registered. -/
def elemsOf (s : State V) (t : Ty) : List V :=
  match s.get t with
  | some l => l
  | none => []

/-- Replace the elements of type `t`. -/
def update (t : Ty) (f : List V → List V) (s : State V) : State V :=
  s.map fun p => if p.1 = t then (p.1, f p.2) else p

/-- `s'` is `s` with type `t` registered: nothing changes if it was already; otherwise an empty
segment appears somewhere, and existing segments may be reordered. -/
def Ensure (t : Ty) (s s' : State V) : Prop :=
  (t ∈ s.types ∧ s' = s) ∨ (t ∉ s.types ∧ s'.Perm ((t, []) :: s))

/-- `s'` is `s` with the types `ts` registered: no element changes, and nothing at all if they all
were registered before. -/
structure Registered (ts : List Ty) (s s' : State V) : Prop where
  elems : ∀ t, s'.elemsOf t = s.elemsOf t
  types : ∀ t, t ∈ s'.types ↔ t ∈ s.types ∨ t ∈ ts
  same : (∀ t ∈ ts, t ∈ s.types) → s' = s
  nodup : s.types.Nodup → s'.types.Nodup

/-- A position: an element of a segment, or `none` for the end. -/
abbrev Pos := Option (Ty × Nat)

/-- The first element of the first non-empty segment. -/
def first : State V → Pos
  | [] => none
  | (t, l) :: s => if l = [] then first s else some (t, 0)

/-- The segments after that of type `t`. -/
def after (t : Ty) : State V → State V
  | [] => []
  | (u, _) :: s => if u = t then s else after t s

/-- The position of the element of index `k` in segment `t`, or if there is none the first
element after that segment. -/
def norm (s : State V) (t : Ty) (k : Nat) : Pos :=
  match s.get t with
  | some l => if k < l.length then some (t, k) else (s.after t).first
  | none => none

/-- Position `p` exists in `s`. -/
def Valid (s : State V) : Pos → Prop
  | none => True
  | some (t, k) => ∃ l, s.get t = some l ∧ k < l.length

/-- The element at a position. -/
def at? (s : State V) : Pos → Option V
  | none => none
  | some (t, k) => (s.get t).bind (·[k]?)

/-- The number of elements before a position. -/
def rank : State V → Pos → Nat
  | s, none => s.flat.length
  | [], some _ => 0
  | (u, l) :: s, some (t, k) => if u = t then k else l.length + rank s (some (t, k))

/-- The elements with their types, in traversal order. -/
def typedFlat (s : State V) : List (Ty × V) := s.flatMap fun p => p.2.map fun v => (p.1, v)

/-- The elements from one position up to another, with their types. -/
def between (s : State V) (p q : Pos) : List (Ty × V) := (s.typedFlat.drop (s.rank p)).take (s.rank q - s.rank p)

/-- Insert `vs` before position `k` of segment `t`. -/
def insertAt (t : Ty) (k : Nat) (vs : List V) (s : State V) : State V :=
  s.update t fun l => l.take k ++ vs ++ l.drop k

/-- `s'` is `s` with `vs` inserted before position `k` of segment `t`, which is created if need be. -/
def Put (t : Ty) (k : Nat) (vs : List V) (s s' : State V) : Prop := ∃ s1, Ensure t s s1 ∧ s' = s1.insertAt t k vs

/-- Where an element of type `t` goes, given a hint: before the hint if that is in segment `t`,
at the end of the segment otherwise. -/
def hintPos (s : State V) (t : Ty) : Pos → Nat
  | some (u, k) => if u = t then k else (s.elemsOf t).length
  | none => (s.elemsOf t).length

/-- The position of the same element (or end) after an element of type `t` was inserted right before
it (if it is in segment `t`) or at the end of segment `t`. -/
def bump (t : Ty) : Pos → Pos
  | some (u, k) => some (u, if u = t then k + 1 else k)
  | none => none

/-- `s'` is `s` with the elements of `l` inserted: those of type `t` together and in order, before
position `at t` of segment `t`.  The types of `l` are registered; if they were before, segments
stay in order. -/
structure Grown (pos : Ty → Nat) (l : List (Ty × V)) (s s' : State V) : Prop where
  elems : ∀ t, s'.elemsOf t =
    (s.elemsOf t).take (pos t) ++ (l.filter fun p => p.1 = t).map Prod.snd ++ (s.elemsOf t).drop (pos t)
  types : ∀ t, t ∈ s'.types ↔ t ∈ s.types ∨ t ∈ l.map Prod.fst
  order : (∀ p ∈ l, p.1 ∈ s.types) → s'.types = s.types
  nodup : s.types.Nodup → s'.types.Nodup

/-- `s'` is `s` with the elements of `l` appended to their segments. -/
def Appended (l : List (Ty × V)) (s s' : State V) : Prop := Grown (fun t => (s.elemsOf t).length) l s s'

/-- Remove the elements whose rank is at least `a` and less than `b` (`a ≤ b`). -/
def removeRange : Nat → Nat → State V → State V
  | _, _, [] => []
  | a, b, (t, l) :: s => (t, l.take a ++ l.drop b) :: removeRange (a - l.length) (b - l.length) s

/-- The same types with no elements. -/
def cleared (s : State V) : State V := s.map fun p => (p.1, [])

end State
end Spec
end PolyColl
