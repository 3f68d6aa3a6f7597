import Verif.Model.Accept
/-!
# Which types can be stored: what the language and the documentation say
-/

namespace PolyColl.Accept.Spec

/-! ## Calls -/

/-- The arguments a parameter can be bound to. -/
inductive Binds : Par → Cat → Prop
  /-- anything can be copied -/
  | value {e} : Binds .byValue e
  /-- const member functions can be called on anything -/
  | constMember {e} : Binds (.obj true) e
  /-- other member functions can be called on objects that are not const, also temporary ones -/
  | member {k r} : Binds (.obj k) ⟨r, false⟩
  /-- references to const can be bound to anything -/
  | constLref {e} : Binds (.lref true) e
  /-- other lvalue references are for lvalues that are not const -/
  | lref {k} : Binds (.lref k) .lv
  /-- rvalue references are for rvalues -/
  | rref {k} : Binds (.rref k) .rv
  /-- if they are const, only rvalue references to const -/
  | constRref : Binds (.rref true) .crv

/-- A parameter that is a reference to `T` (or to `const T`, if `k`), be it an implicit one. -/
def RefTo (k : Bool) (p : Par) : Prop := p = .obj k ∨ p = .lref k ∨ p = .rref k

/-- An argument is bound to `p` rather than to `q`: it is an rvalue and `p` is an rvalue reference while `q`
is an lvalue reference (implicit object parameters without ref-qualifier do not count as either); or
`q` is a reference to const while `p` is a reference to the same type without const. -/
def Closer (e : Cat) (p q : Par) : Prop :=
  (e.rvalue = true ∧ (∃ k, p = .rref k) ∧ ∃ k, q = .lref k) ∨ (RefTo false p ∧ RefTo true q)

/-- There are as many parameters as arguments and all can be bound; the other arguments can be converted. -/
def Viable (es : List Cat) (f : Fun) : Prop :=
  f.pars.length = es.length ∧
  (∀ i (hp : i < f.pars.length) (he : i < es.length), Binds f.pars[i] es[i]) ∧ f.ranks ≠ none

/-- `f` is a better choice than `g`: no argument is bound or converted worse, and one is bound or
converted better. -/
def Better (es : List Cat) (f g : Fun) : Prop :=
  (∀ (i : Nat) (e : Cat) (p q : Par), es[i]? = some e → f.pars[i]? = some p → g.pars[i]? = some q → ¬Closer e q p) ∧
  (∀ (i x y : Nat), (f.ranks.getD [])[i]? = some x → (g.ranks.getD [])[i]? = some y → x ≤ y) ∧
  ((∃ (i : Nat) (e : Cat) (p q : Par), es[i]? = some e ∧ f.pars[i]? = some p ∧ g.pars[i]? = some q ∧ Closer e p q) ∨
    ∃ i x y : Nat, (f.ranks.getD [])[i]? = some x ∧ (g.ranks.getD [])[i]? = some y ∧ x < y)

/-- The function selected by a call: it is viable and better than every other viable function
([over.match.best]). -/
def Selected (fs : List Fun) (es : List Cat) (f : Fun) : Prop :=
  f ∈ fs ∧ Viable es f ∧ ∀ g ∈ fs, Viable es g → g ≠ f → Better es f g

/-- The call is possible, and its result is as wanted. -/
def Calls (good : Nat → Bool) (fs : List Fun) (es : List Cat) : Prop :=
  ∃ f, Selected fs es f ∧ f.deleted = false ∧ good f.name = true

/-- Member functions without ref-qualifier, as nearly all are. -/
def Unqualified (fs : List Fun) : Prop := ∀ f ∈ fs, ∃ k, f.pars = [.obj k]

/-- Operators that take both operands by value or by reference to const, members being const, as
operators for comparison do. -/
def ByConst (fs : List Fun) : Prop :=
  ∀ f ∈ fs, ∃ p q, f.pars = [p, q] ∧
    p ∈ [Par.obj true, .byValue, .lref true] ∧ q ∈ [Par.obj true, .byValue, .lref true]

/-! ## Documentation -/

/-- `reference.qbk` 89-93, apart from implementing the interface. -/
def Movable (s : Special) : Prop :=
  s.moveCtor = true ∧ (s.moveAssign = true ∨ s.nothrowMoveCtor = true)

/-- `reference.qbk` 982: `std::is_invocable_r_v<R,Callable,Args...>`. -/
def DocCallable (conv : Nat → Bool) (fs : List Fun) : Prop := Calls conv fs [.rv]

/-! ## Class hierarchies -/

/-- The direct bases passed on the way from `d` up to `b`. -/
inductive Path (h : Hier) (b : Nat) : Nat → List BaseSpec → Prop
  | here : Path h b b []
  | up {d s p} : s ∈ h d → Path h b s.cls p → Path h b d (s :: p)

/-- `reference.qbk` 46: `std::is_base_of_v<Base,Derived>`. -/
def DocDerived (h : Hier) (b d : Nat) : Prop := ∃ p, Path h b d p

/-- Bases are defined before the classes derived from them, and a class has no direct base twice. -/
structure WellFormed (h : Hier) : Prop where
  ordered : h.Ordered
  once : ∀ c, ((h c).map (·.cls)).Nodup

/-- There is one way up, and it is by public bases that are not virtual. -/
def Plain (h : Hier) (b d : Nat) : Prop :=
  ∃ p, Path h b d p ∧ (∀ q, Path h b d q → q = p) ∧ ∀ s ∈ p, s.pub = true ∧ s.virt = false

end PolyColl.Accept.Spec
