import Verif.Model.IterTypes

/-!
# C96: the types associated with the iterators

The documentation (`doc/reference.qbk` 177-215) gives them: local base iterators have the value type,
difference type, pointer and reference types of the global iterators of the same constness, local
iterators of `U` have value type `U`, reference type `U&` or `const U&` and pointer type `U*` or
`const U*`.  The global iterators are those of a _Container_: the value type of both `iterator` and
`const_iterator` is `value_type`.
-/

namespace PolyColl.Props.IterTypes

open PolyColl.Interface PolyColl.IterTypes

/-- Whether an iterator type is one of the constant ones. -/
def IsConstIt : It → Bool
  | .global k => k
  | .localBase k => k
  | .localOf k _ => k
  | .info _ => false

/-- The type of the elements an iterator is documented to give access to. -/
def Element (v : Ty) : It → Ty
  | .global _ => v
  | .localBase _ => v
  | .localOf _ u => u
  | .info s => s

/-- Element types are object types without `const`. -/
def PlainElement (v : Ty) (i : It) : Prop := ∀ t, Element v i ≠ .cst t

/-- What is documented about an iterator giving access to elements of type `e`. -/
structure Documented (c : Bool) (cat : Cat) (e : Ty) (a : Assoc) : Prop where
  value : a.value = e
  reference : a.reference = .ref (if c then .cst e else e)
  pointer : a.pointer = .ptr (if c then .cst e else e)
  category : a.category = cat

theorem core_plain {t : Ty} (h : ∀ u, t ≠ .cst u) : t.core = t ∧ t.isConst = false := by
  cases t <;> simp_all [Ty.core, Ty.isConst]

theorem core_cst (t : Ty) : (Ty.cst t).core = t := rfl

theorem isConst_cst (t : Ty) : (Ty.cst t).isConst = true := rfl

/-- **C96** (local iterators).  Local iterators, for elements of any type and of either constness,
and in each of the three models, are random access iterators with the value, reference and pointer
types documented. -/
theorem C96_local (m : Kind) (v : Ty) (i : It) (hp : PlainElement v i)
    (hi : (∃ k, i = .localBase k) ∨ ∃ k u, i = .localOf k u) :
    Documented (IsConstIt i) .randomAccess (Element v i) (assoc m v i) := by
  have hc := core_plain hp
  rcases hi with ⟨k, rfl⟩ | ⟨k, u, rfl⟩
  · obtain ⟨h1, h2⟩ := hc
    simp only [Element] at h1 h2
    cases m <;> cases k <;> constructor <;>
      simp [assoc, loc, segBase, stride, anyIter, callableIter, adaptor, facade, ofPointer, constIf,
        IsConstIt, Element, core_cst, isConst_cst, Ret.isConst, h1, h2]
  · obtain ⟨h1, h2⟩ := hc
    simp only [Element] at h1 h2
    cases k <;> constructor <;>
      simp [assoc, loc, adaptor, facade, ofPointer, constIf,
        IsConstIt, Element, core_cst, isConst_cst, Ret.isConst, h1, h2]

example : Documented true .randomAccess (.obj 7) (assoc .base (.obj 3) (.localOf true (.obj 7))) :=
  C96_local .base (.obj 3) (.localOf true (.obj 7)) (by intro t; simp [Element])
    (Or.inr ⟨true, .obj 7, rfl⟩)

example : (assoc .any (.obj 3) (.localBase true)).value = .obj 3 ∧
    (assoc .any (.obj 3) (.localBase true)).pointer = .ptr (.cst (.obj 3)) := by decide

/-- **C96** (`iterator`).  `iterator` is a forward iterator with the value, reference and pointer
types documented. -/
theorem C96_iterator (m : Kind) (v : Ty) (hp : ∀ t, v ≠ .cst t) :
    Documented false .forward v (assoc m v (.global false)) := by
  obtain ⟨h1, h2⟩ := core_plain hp
  constructor <;>
    simp [assoc, iter, implValue, facade, constIf, Ret.isConst, h1, h2]

example : Documented false .forward (.obj 3) (assoc .function (.obj 3) (.global false)) :=
  C96_iterator .function (.obj 3) (by simp)

/-- **C96** (sameness, partial).  `local_base_iterator` and `const_local_base_iterator` have the
reference and pointer types of `iterator` and `const_iterator`, and `local_base_iterator` the value
type of `iterator`.  Missing is the value type of `const_local_base_iterator`, which is not that of
`const_iterator`: `C96_const_value_differs`. -/
theorem C96_same_partial (m : Kind) (v : Ty) (k : Bool) (hp : ∀ t, v ≠ .cst t) :
    (assoc m v (.localBase k)).reference = (assoc m v (.global k)).reference ∧
      (assoc m v (.localBase k)).pointer = (assoc m v (.global k)).pointer ∧
      (k = false → (assoc m v (.localBase k)).value = (assoc m v (.global k)).value) := by
  obtain ⟨h1, h2⟩ := core_plain hp
  cases m <;> cases k <;>
    simp [assoc, iter, implValue, loc, segBase, stride, anyIter, callableIter, adaptor, facade,
      ofPointer, constIf, core_cst, isConst_cst, Ret.isConst, h1, h2]

example : (assoc .base (.obj 3) (.localBase true)).pointer = .ptr (.cst (.obj 3)) ∧
    (assoc .base (.obj 3) (.global true)).pointer = .ptr (.cst (.obj 3)) := by decide

/-- **C96** (refuted for `const_iterator`, F44).  The value type of `const_iterator` is
`const value_type` and not `value_type`, and differs from that of `const_local_base_iterator`, in
each of the models and whatever the value type; its reference type, pointer type and category are
as documented. -/
theorem C96_const_value_differs (m : Kind) (v : Ty) (hp : ∀ t, v ≠ .cst t) :
    (assoc m v (.global true)).value = .cst v ∧
      (assoc m v (.global true)).value ≠ (assoc m v (.localBase true)).value ∧
      ¬ Documented true .forward v (assoc m v (.global true)) ∧
      Documented true .forward v { assoc m v (.global true) with value := v } := by
  have hl := (C96_local m v (.localBase true) hp (Or.inl ⟨true, rfl⟩)).value
  have hv : (assoc m v (.global true)).value = .cst v := rfl
  refine ⟨hv, ?_, ?_, ?_⟩
  · rw [hl, hv]
    exact fun h => hp v h.symm
  · intro h
    exact hp v ((hv.symm.trans h.value).symm)
  · constructor <;> rfl

example : (assoc .any (.obj 3) (.global true)).value = .cst (.obj 3) ∧
    (assoc .any (.obj 3) (.localBase true)).value = .obj 3 := by decide

/-- **C96** (segment info).  The iterators of segment traversal are input iterators yielding
temporaries: their reference type is the segment info itself and no reference to one. -/
theorem C96_info (m : Kind) (v s : Ty) (hs : ∀ t, s ≠ .cst t) :
    (assoc m v (.info s)).value = s ∧ (assoc m v (.info s)).reference = .val s ∧
      (assoc m v (.info s)).category = .input ∧
      ∀ t, (assoc m v (.info s)).pointer ≠ .ptr t := by
  obtain ⟨h1, -⟩ := core_plain hs
  refine ⟨h1, rfl, rfl, ?_⟩
  intro t h
  cases h

example : (assoc .base (.obj 3) (.info (.obj 9))).reference = .val (.obj 9) := by decide

end PolyColl.Props.IterTypes
