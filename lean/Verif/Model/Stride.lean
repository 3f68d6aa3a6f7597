import Verif.Model.Packed
/-!
# stride_iterator (`detail/stride_iterator.hpp`) and the layout of packed segments in memory

Here pointers are addresses, counted in chars.  `none` stands for undefined behaviour.
-/

namespace PolyColl.Bytes

/-- A pointer: null or an address. -/
abbrev Addr := Option Int

/-- A computation in `std::ptrdiff_t` of 64 bits: overflow is undefined. -/
def ptrdiff (x : Int) : Option Int := if -2 ^ 63 ≤ x ∧ x < 2 ^ 63 then some x else none

/-- The addresses between which pointers may be formed: those of the buffer and one past its end
in the letter of the standard, the whole address space in practice. -/
structure Mem where
  lo : Int
  hi : Int

/-- `p+d` for a `char*`.  Zero may be added to null. -/
def addChars (M : Mem) (p : Addr) (d : Int) : Option Addr :=
  match p with
  | none => if d = 0 then some none else none
  | some a => if M.lo ≤ a + d ∧ a + d ≤ M.hi then some (some (a + d)) else none

/-- `p-q` for `char*`s. -/
def subChars (p q : Addr) : Option Int :=
  match p, q with
  | none, none => some 0
  | some a, some b => ptrdiff (a - b)
  | _, _ => none

/-- Members of `stride_iterator` (145-146). -/
structure Stride where
  p : Addr
  stride : Nat
  deriving DecidableEq, Repr

namespace Stride
variable (M : Mem)

/-- `equal` (136). -/
def equal (x y : Stride) : Bool := x.p == y.p

/-- `increment` (137). -/
def increment (x : Stride) : Option Stride := do
  let p ← addChars M x.p x.stride
  return { x with p := p }

/-- `decrement` (138). -/
def decrement (x : Stride) : Option Stride := do
  let p ← addChars M x.p (-x.stride)
  return { x with p := p }

/-- `advance` (139-141): `n*(std::ptrdiff_t)stride_`, with `n` a `difference_type`. -/
def advance (x : Stride) (n : Int) : Option Stride := do
  let s ← ptrdiff x.stride
  let d ← ptrdiff (n * s)
  let p ← addChars M x.p d
  return { x with p := p }

/-- `distance_to` (142-143). -/
def distanceTo (x y : Stride) : Option Int := do
  let d ← subChars y.p x.p
  let s ← ptrdiff x.stride
  if s = 0 then none else ptrdiff (d.tdiv s)

/-- `x - y`, from `boost::iterator_facade` (`iterator_core_access::distance_from`): `-x.distance_to(y)`. -/
def sub (x y : Stride) : Option Int := do
  let d ← x.distanceTo y
  ptrdiff (-d)

/-- `x < y`, from `boost::iterator_facade`: `0 > x - y`. -/
def less (x y : Stride) : Option Bool := do
  let d ← x.sub y
  return decide (0 > d)

/-- `x - n`, from `boost::iterator_facade`: `advance(-n)`. -/
def back (x : Stride) (n : Int) : Option Stride := do
  let d ← ptrdiff (-n)
  x.advance M d

end Stride

/-- How the elements of a packed segment are laid out: size of a `store_value_type`
(`value_holder<Concrete>`), which is at least one, and offset within it of the `Base` subobject the
iterators refer to. -/
structure Layout where
  size : Nat
  off : Nat
  pos : 0 < size
  inside : off < size

/-- `data()+n` for the elements, null if there is no buffer. -/
def Layout.elem (L : Layout) (data : Addr) (n : Nat) : Addr := data.map (· + n * L.size)

/-- `value_ptr` (`packed_segment.hpp` 277-280, with `base_model.hpp`'s `value_ptr`): conversion to the base, null is
converted to null. -/
def Layout.valuePtr (L : Layout) (p : Addr) : Addr := p.map (· + L.off)

/-- `static_cast<Concrete*>` from the base (`stride_iterator.hpp` 93-104), then
`const_store_value_type_ptr` (`packed_segment.hpp` 282-287). -/
def Layout.storePtr (L : Layout) (p : Addr) : Addr := p.map (· - L.off)

/-- Base iterator to position `n`: `nv_begin` (`packed_segment.hpp` 102-105), `nv_end` (109-112), `sentinel` (305-311),
`range_from` (313-327) are this with `n` 0, `s.size()`, `s.size()` and the position. -/
def Layout.iter (L : Layout) (data : Addr) (n : Nat) : Stride := ⟨L.valuePtr (L.elem data n), L.size⟩

/-- `const_store_value_type_ptr(p)-s.data()` in `iterator_from` (`packed_segment.hpp` 295-303): difference of pointers to
elements, which must be a multiple of the size. -/
def Layout.position (L : Layout) (data : Addr) (x : Stride) : Option Int :=
  match L.storePtr x.p, data with
  | none, none => some 0
  | some a, some b => if (L.size : Int) ∣ a - b then ptrdiff ((a - b) / L.size) else none
  | _, _ => none

end PolyColl.Bytes
