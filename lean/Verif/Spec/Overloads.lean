import Verif.Model.Interface
/-!
# Overload resolution between member templates, as the language says it
-/

namespace PolyColl.Interface.Spec

/-- The pattern with its template parameters replaced. -/
def subst (σ : Nat → Ty) : Ty → Ty
  | .obj n => .obj n
  | .cst t => .cst (subst σ t)
  | .ptr t => .ptr (subst σ t)
  | .konst b => .konst b
  | .base k => .base k
  | .iter k => .iter (subst σ k)
  | .loc b => .loc (subst σ b)
  | .var n => σ n

/-- The template parameter occurs in the pattern. -/
def Occurs (n : Nat) : Ty → Prop
  | .cst t => Occurs n t
  | .ptr t => Occurs n t
  | .iter t => Occurs n t
  | .loc t => Occurs n t
  | .var m => m = n
  | _ => False

/-- An argument of type `a` can be passed to a parameter `p`, template parameters being replaced by
`σ`: with rank `false` if it has the type of the parameter, with rank `true` by a user-defined
conversion.  Conversions are possible only if there are no template parameters to be deduced. -/
inductive Passes (R : Traits) (σ : Nat → Ty) (p a : Ty) : Rank → Prop
  | exact : subst σ p = a → Passes R σ p a false
  | converted : (∀ n, ¬Occurs n p) → p ≠ a → R.implicit a p = true → Passes R σ p a true

/-- All arguments can be passed. -/
inductive PassesAll (R : Traits) (σ : Nat → Ty) : List Ty → List Ty → List Rank → Prop
  | nil : PassesAll R σ [] [] []
  | cons {p a r ps as rs} : Passes R σ p a r → PassesAll R σ ps as rs →
      PassesAll R σ (p :: ps) (a :: as) (r :: rs)

/-- [temp.func.order]: there are template arguments for `g` that give it the parameters of `f`. -/
def Covers (g f : Cand) : Prop := ∃ σ : Nat → Ty, g.order.map (subst σ) = f.order

/-- [over.match.best]: no argument is converted worse, and one is converted better; or else `f` is
no template while `g` is one; or else both are templates and `f` is more specialised. -/
def Better (f : Cand) (rf : List Rank) (g : Cand) (rg : List Rank) : Prop :=
  (∀ i : Nat, rf[i]? = some true → rg[i]? = some true) ∧
  ((∃ i : Nat, rf[i]? = some false ∧ rg[i]? = some true) ∨
    (f.template = false ∧ g.template = true) ∨
    (f.template = true ∧ g.template = true ∧ Covers g f ∧ ¬Covers f g))

/-- The overload selected: it can be called with the arguments, and it is better than all others
that can. -/
def Selected (R : Traits) (cands : List Cand) (args : List Ty) (f : Fn) : Prop :=
  ∃ c ∈ cands, c.fn = f ∧ ∃ rs, c.viable R args = some rs ∧
    ∀ d ∈ cands, d.fn ≠ f → ∀ rs', d.viable R args = some rs' → Better c rs d rs'

end PolyColl.Interface.Spec
