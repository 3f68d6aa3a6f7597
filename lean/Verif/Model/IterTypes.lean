import Verif.Model.Interface

/-!
# Associated types of the iterators

(`detail/iterator_impl.hpp`, `detail/stride_iterator.hpp`, `detail/any_iterator.hpp`,
`detail/callable_wrapper_iterator.hpp`, `detail/poly_collection.hpp` 266-317.)

What `std::iterator_traits` says about the iterators of a collection: value type, reference type,
pointer type, category.  The rules by which `boost::iterator_facade` and `boost::iterator_adaptor`
compute them are not part of the repository; they are stated here as documented by Boost.Iterator.
Difference types are left out: they are `std::ptrdiff_t` throughout, the default of
`iterator_facade` and the difference type of pointers.
-/

namespace PolyColl.IterTypes

open PolyColl.Interface

/-- Iterator categories of the standard library, as far as they occur. -/
inductive Cat
  | input
  | forward
  | randomAccess
  deriving DecidableEq, Repr

/-- A type returned by `operator*`: `T&` or `T`. -/
inductive Ret
  | ref (t : Ty)
  | val (t : Ty)
  deriving DecidableEq, Repr

/-- `std::is_const` of the type without its reference. -/
def Ret.isConst : Ret → Bool
  | .ref t => t.isConst
  | .val t => t.isConst

/-- A pointer type: `T*`, or the proxy by which `operator->` of an iterator yielding temporaries
keeps one of type `T`. -/
inductive Arrow
  | ptr (t : Ty)
  | proxy (t : Ty)
  deriving DecidableEq, Repr

/-- What `std::iterator_traits` tells about an iterator. -/
structure Assoc where
  value : Ty
  reference : Ret
  pointer : Arrow
  category : Cat
  deriving DecidableEq, Repr

/-- `std::iterator_traits<T*>`. -/
def ofPointer (t : Ty) : Assoc :=
  { value := t.core, reference := .ref t, pointer := .ptr t, category := .randomAccess }

/-- The member types of `boost::iterator_facade<Derived,Value,Category,Reference>`: the value type
is `Value` without `const`; the pointer type is a pointer to it, to const if `Value` is const or
`Reference` refers to const, and a proxy if `Reference` is not a reference. -/
def facade (v : Ty) (c : Cat) (r : Ret) : Assoc :=
  { value := v.core
    reference := r
    pointer :=
      match r with
      | .ref _ => .ptr (if v.isConst || r.isConst then .cst v.core else v.core)
      | .val t => .proxy t
    category := c }

/-- The member types of `boost::iterator_adaptor<Derived,Base>`, all other arguments left at their
defaults: value type, category and reference type are those `std::iterator_traits<Base>` gives. -/
def adaptor (b : Assoc) : Assoc := facade b.value b.category b.reference

/-- `V` or `const V`. -/
def constIf (k : Bool) (v : Ty) : Ty := if k then .cst v else v

/-- The three polymorphism models, as they differ in `base_iterator`. -/
inductive Kind
  /-- `stride_iterator<[const] Base>` (`base_model.hpp` 75-76) -/
  | base
  /-- `any_iterator<[const] value_type>` (`any_model.hpp` 146-147) -/
  | any
  /-- `callable_wrapper_iterator<[const] value_type>` (`function_model.hpp` 86-87) -/
  | function
  deriving DecidableEq, Repr

/-- `stride_iterator<Value>` (`stride_iterator.hpp` 28-34): a facade over `Value` with random access
traversal; `Reference` is `Value&` by default. -/
def stride (v : Ty) : Assoc := facade v .randomAccess (.ref v)

/-- `any_iterator<Any>` (`any_iterator.hpp` 31-32): an adaptor of `Any*`. -/
def anyIter (v : Ty) : Assoc := adaptor (ofPointer v)

/-- `callable_wrapper_iterator<CWrapper>` (`callable_wrapper_iterator.hpp` 27-30): an adaptor of
`CWrapper*`. -/
def callableIter (v : Ty) : Assoc := adaptor (ofPointer v)

/-- `[const_]segment_base_iterator` (`poly_collection.hpp` 108-110). -/
def segBase (m : Kind) (v : Ty) (k : Bool) : Assoc :=
  match m with
  | .base => stride (constIf k v)
  | .any => anyIter (constIf k v)
  | .function => callableIter (constIf k v)

/-- `iterator_impl_value_type<PolyCollection,Const>` (`iterator_impl.hpp` 34-39). -/
def implValue (v : Ty) (k : Bool) : Ty := constIf k v

/-- `iterator_impl<PolyCollection,Const>` (`iterator_impl.hpp` 41-58): a facade over
`iterator_impl_value_type` with forward traversal, whose `value_type` is hidden by a public member
of that name (58). -/
def iter (v : Ty) (k : Bool) : Assoc :=
  { facade (implValue v k) .forward (.ref (implValue v k)) with value := implValue v k }

/-- `local_iterator_impl<PolyCollection,BaseIterator>` (`iterator_impl.hpp` 134-139): an adaptor of
`BaseIterator`. -/
def loc (b : Assoc) : Assoc := adaptor b

/-- `segment_info_iterator_impl<SegmentInfo>` (`poly_collection.hpp` 265-272): an adaptor of the map
iterator with `SegmentInfo` for value type and reference type and `std::input_iterator_tag` for
category. -/
def infoIter (s : Ty) : Assoc := facade s .input (.val s)

/-- The iterators of a collection (`poly_collection.hpp` 152-160, 319-322). -/
inductive It
  /-- `iterator`, `const_iterator` -/
  | global (k : Bool)
  /-- `local_base_iterator`, `const_local_base_iterator` -/
  | localBase (k : Bool)
  /-- `local_iterator<U>`, `const_local_iterator<U>` -/
  | localOf (k : Bool) (u : Ty)
  /-- `base_segment_info_iterator`, `const_base_segment_info_iterator`, by their segment info -/
  | info (s : Ty)
  deriving DecidableEq, Repr

/-- `std::iterator_traits` of the iterators of a collection with `value_type` `v`. -/
def assoc (m : Kind) (v : Ty) : It → Assoc
  | .global k => iter v k
  | .localBase k => loc (segBase m v k)
  | .localOf k u => loc (ofPointer (constIf k u))
  | .info s => infoIter s

end PolyColl.IterTypes
