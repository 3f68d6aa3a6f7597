import Verif.Lemmas.Unharmed
import Verif.Lemmas.Spares
import Verif.Spec.Descriptor
import Verif.Props.Whole
/-! # Operations an element is not moved by, and programs made of them -/

namespace PolyColl
open Prog

variable {V : Type}

/-- With the operation returning (`b`) or throwing (`¬ b`), element `m` of type `t` of collection `x` stays where it is in memory,
is element `m` of type `t` of collection `y` then, and `f` is what is done to its value, according to the documentation
(`reference.qbk` 112-115, 134-139, and those for containers in the C++ standard): the collection is none of those changed;
another segment is; elements are inserted, there being room for them, or erased behind it; the insertion of an element fails
without a trace; an element is written to; the segments are handed over to another collection. -/
inductive Op.Passes (E : Env V) (k : Kind) (s : Sys V) (w : World) (t : Ty) (m : Nat) : Op V → Bool → Nat → Nat → (V → V) → Prop
  | aside {op b x} : ¬ op.Changes x → Passes E k s w t m op b x x id
  | other {cop b x} : (s x).Reachable E k w → cop.Pre E (s x) → ¬ cop.Touches E (s x) t → Passes E k s w t m (.on x cop) b x x id
  | coll {b x j f l p q} : Coll.Reachable2 E k (s x) (s j) w → (s j).At E f p → (s j).At E l q → (s j).abs.rank p ≤ (s j).abs.rank q →
      t ∉ (Coll.between (s j).abs p q).map Prod.fst → Passes E k s w t m (.insertColl x j f l) b x x id
  | localColl {b x j f l u a c} : Coll.Reachable2 E k (s x) (s j) w → (s j).LAtB E f u a → (s j).LAtB E l u c → a ≤ c → t ≠ u →
      Passes E k s w t m (.insertLocalColl x j f l) b x x id
  | hintColl {b x j h r f l p q} : Coll.Reachable2 E k (s x) (s j) w → (s x).At E h r → (s j).At E f p → (s j).At E l q → (s j).abs.rank p ≤ (s j).abs.rank q →
      (s x).HintOK E ((Coll.between (s j).abs p q).map Prod.fst) → t ∉ (Coll.between (s j).abs p q).map Prod.fst →
      Passes E k s w t m (.insertHintColl x j h f l) b x x id
  | hintLocalColl {b x j h r f l u a c} : Coll.Reachable2 E k (s x) (s j) w → (s x).At E h r → (s j).LAtB E f u a → (s j).LAtB E l u c → a ≤ c →
      (s x).HintOK E [u] → t ≠ u → Passes E k s w t m (.insertHintLocalColl x j h f l) b x x id
  | insert {cop x n src v} : (s x).Reachable E k w → cop.Inserts E (s x) t n src → (s x).SrcFor t src v →
      (∀ a ∈ (s x).map.nodes, a.seg.ty = t → a.seg.size + 1 ≤ a.seg.capacity) → m < n → Passes E k s w t m (.on x cop) true x x id
  | failed {cop x n src v} : (s x).Reachable E k w → cop.Inserts E (s x) t n src → (s x).SrcFor t src v → (s x).NoTrace t →
      ¬ E.shiftThrows t ∨ ((s x).abs.elemsOf t).length ≤ n → Passes E k s w t m (.on x cop) false x x id
  | insertRange {x pos as n} : (s x).Reachable E k w → (s x).LAtB E pos t n → (∀ a ∈ as, E.tiTy a.dyn = t ∧ a.src.ext = true ∧ Coll.Arg.OK E a) →
      (∀ a ∈ (s x).map.nodes, a.seg.ty = t → a.seg.size + as.length ≤ a.seg.capacity) → m < n →
      Passes E k s w t m (.on x (.insertPosRangeBase pos as)) true x x id
  | insertRangeLocal {x pos u srcs n} : (s x).Reachable E k w → E.tiTy u = t → (s x).LAtL E pos t n → (∀ a ∈ srcs, a.ext = true) →
      (∀ a ∈ (s x).map.nodes, a.seg.ty = t → a.seg.size + srcs.length ≤ a.seg.capacity) → m < n →
      Passes E k s w t m (.on x (.insertPosRangeLocal pos u srcs)) true x x id
  | erase {x pos n} : (s x).Reachable E k w → (s x).At E pos (some (t, n)) → m < n → Passes E k s w t m (.on x (.erase pos)) true x x id
  | eraseLocalBase {x pos n} : (s x).Reachable E k w → (s x).LAtB E pos t n → n < ((s x).abs.elemsOf t).length → m < n →
      Passes E k s w t m (.on x (.eraseLocalBase pos)) true x x id
  | eraseLocal {x pos n} : (s x).Reachable E k w → (s x).LAtL E pos t n → n < ((s x).abs.elemsOf t).length → m < n →
      Passes E k s w t m (.on x (.eraseLocal pos)) true x x id
  | eraseLocalRangeBase {x f l n c} : (s x).Reachable E k w → (s x).LAtB E f t n → (s x).LAtB E l t c → n ≤ c → m < n →
      Passes E k s w t m (.on x (.eraseLocalRangeBase f l)) true x x id
  | eraseLocalRange {x f l n c} : (s x).Reachable E k w → (s x).LAtL E f t n → (s x).LAtL E l t c → n ≤ c → m < n →
      Passes E k s w t m (.on x (.eraseLocalRange f l)) true x x id
  | eraseRange {x f l p q} : (s x).Reachable E k w → (s x).At E f p → (s x).At E l q → (s x).abs.rank p ≤ (s x).abs.rank q →
      (s x).abs.rank (some (t, m)) < (s x).abs.rank p → Passes E k s w t m (.on x (.eraseRange f l)) true x x id
  | write {b x o p n a} : (s x).Reachable E k w → (s x).Points o p t n →
      Passes E k s w t m (.on x (.apply o p a)) b x x (if n = m then (if b then a.run else a.fail) else id)
  | swap {b i j} : Passes E k s w t m (.swap i j) b i j id
  | swap' {b i j} : Passes E k s w t m (.swap i j) b j i id
  | move {b i j} : Passes E k s w t m (.move i j) b j i id
  | moveAl {b i j} : Passes E k s w t m (.moveAl i j (s j).map.al) b j i id
  | moveAssign {b i j} : E.pocma = true ∨ (s i).map.al = (s j).map.al → Passes E k s w t m (.moveAssign i j) b j i id

/-- A program, from one state to another, that does not move element `m` of type `t` of collection `x`, which is element `m` of
type `t` of collection `y` at the end; `f` is what is done to its value. -/
inductive Follow (E : Env V) (k : Kind) (sub : Ty → TI) (t : Ty) (m : Nat) : Sys V → World → Nat → Sys V → World → Nat → (V → V) → Prop
  | nil {s w x} : Follow E k sub t m s w x s w x id
  | ok {s w x s1 w1 y s2 w2 z f g} (op : Op V) : Follow E k sub t m s w x s1 w1 y f → (∀ a ∈ op.args, Coll.Arg.OK E a) →
      op.run E k sub s1 w1 = .ok () s2 w2 → op.Passes E k s1 w1 t m true y z g → Follow E k sub t m s w x s2 w2 z (g ∘ f)
  | exc {s w x s1 w1 y s2 w2 z f g e} (op : Op V) : Follow E k sub t m s w x s1 w1 y f → (∀ a ∈ op.args, Coll.Arg.OK E a) →
      op.run E k sub s1 w1 = .exc e s2 w2 → op.Passes E k s1 w1 t m false y z g → Follow E k sub t m s w x s2 w2 z (g ∘ f)

end PolyColl
