import Verif.Lemmas.Leaves
import Verif.Model.Writing
import Verif.Model.History
/-!
# Exceptions have causes

`Fair E p`: a `bad_alloc` or an exception of user code leaves `p` only if the environment made an operation fail while
`p` was running; `not_copy_constructible` and `not_equality_comparable` carry a type that is not.  Conversely, if `p`
returns then nothing failed while it was running: no exception is swallowed.
-/

namespace PolyColl
open Prog

/-- Something was made to fail between two moments. -/
def Env.FaultIn {V : Type} (E : Env V) (w w' : World) : Prop := ∃ n, w.tick ≤ n ∧ n < w'.tick ∧ E.fault n = true

/-- The cause of an exception that is thrown between `w` and `w'`, as far as it is outside the collection. -/
def Env.Cause {V : Type} (E : Env V) (w w' : World) : Exc → Prop
  | .badAlloc | .user => E.FaultIn w w'
  | .notCopyConstructible t => (E.traits t).copyable = false
  | .notEqualityComparable t => (E.traits t).eqComparable = false
  | .unregistered _ | .lengthError => True

theorem Env.Cause.mono {V : Type} {E : Env V} {w w1 w' w2 : World} {e : Exc} (h : E.Cause w w' e) (h1 : w1.tick ≤ w.tick) (h2 : w'.tick ≤ w2.tick) :
    E.Cause w1 w2 e := by
  cases e <;> first | exact h | (obtain ⟨n, a, b, c⟩ := h; exact ⟨n, by omega, by omega, c⟩)

/-- Nothing was made to fail between two moments. -/
def Env.Calm {V : Type} (E : Env V) (w w' : World) : Prop := w.tick ≤ w'.tick ∧ ∀ n, w.tick ≤ n → n < w'.tick → E.fault n = false

theorem Env.Calm.refl {V : Type} (E : Env V) (w : World) : E.Calm w w := ⟨Nat.le_refl _, fun n h h' => by omega⟩

theorem Env.Calm.of_eq {V : Type} {E : Env V} {w w' : World} (h : w'.tick = w.tick) : E.Calm w w' :=
  ⟨Nat.le_of_eq h.symm, fun n h1 h2 => by omega⟩

theorem Env.Calm.trans {V : Type} {E : Env V} {w w1 w2 : World} (h : E.Calm w w1) (h' : E.Calm w1 w2) : E.Calm w w2 :=
  ⟨Nat.le_trans h.1 h'.1, fun n a b => if hn : n < w1.tick then h.2 n a hn else h'.2 n (by omega) b⟩

/-- Exceptions of `p` have causes, and are not swallowed. -/
structure Fair {X α V : Type} (E : Env V) (p : Prog X α) : Prop where
  run : ∀ x w, Leaves p x w (fun _ _ w' => E.Calm w w') (fun e _ w' => w.tick ≤ w'.tick ∧ E.Cause w w' e)

namespace Fair
variable {X Y α β V : Type} {E : Env V}

theorem pure {a : α} : Fair E (Pure.pure a : Prog X α) := ⟨fun _ w => .refl E w⟩
theorem pure' {a : α} : Fair E (Prog.pure a : Prog X α) := pure
theorem undef : Fair E (Prog.undef : Prog X α) := ⟨fun _ _ => trivial⟩
theorem get : Fair E (Prog.get : Prog X X) := ⟨fun _ w => .refl E w⟩
theorem set {x : X} : Fair E (Prog.set x) := ⟨fun _ w => .refl E w⟩
theorem world : Fair E (Prog.world : Prog X World) := ⟨fun _ w => .refl E w⟩
theorem length : Fair E (Prog.raise .lengthError : Prog X α) := ⟨fun _ _ => ⟨Nat.le_refl _, trivial⟩⟩
theorem unregistered {t : Ty} : Fair E (Prog.raise (.unregistered t) : Prog X α) := ⟨fun _ _ => ⟨Nat.le_refl _, trivial⟩⟩
theorem ofOption {o : Option α} : Fair E (Prog.ofOption o : Prog X α) := by
  cases o
  · exact undef
  · exact pure

theorem bind {p : Prog X β} {f : β → Prog X α} (hp : Fair E p) (hf : ∀ b, Fair E (f b)) : Fair E (p >>= f) := by
  refine ⟨fun x w => leaves_bind.2 ((hp.run x w).mono ?_ fun _ _ _ h => h)⟩
  intro b x' w' h
  exact ((hf b).run x' w').mono (fun _ _ _ h' => h.trans h') (fun _ _ _ h' => ⟨Nat.le_trans h.1 h'.1, h'.2.mono h.1 (Nat.le_refl _)⟩)

theorem bind' {p : Prog X β} {f : β → Prog X α} (hp : Fair E p) (hf : ∀ b, Fair E (f b)) : Fair E (Prog.bind p f) := bind hp hf

theorem ite {c : Prop} [Decidable c] {p q : Prog X α} (hp : Fair E p) (hq : Fair E q) : Fair E (if c then p else q) := by
  split <;> assumption

theorem onExc {p : Prog X α} {h : Prog X Unit} (hp : Fair E p) (hh : Fair E h) : Fair E (Prog.onExc p h) := by
  refine ⟨fun x w => leaves_onExc.2 ((hp.run x w).mono (fun _ _ _ h => h) ?_)⟩
  intro e x' w' h1
  exact (hh.run x' w').mono (fun _ _ _ h' => ⟨Nat.le_trans h1.1 h'.1, h1.2.mono (Nat.le_refl _) h'.1⟩)
    (fun _ _ _ h' => ⟨Nat.le_trans h1.1 h'.1, h'.2.mono h1.1 (Nat.le_refl _)⟩)

theorem each {f : β → Prog X Unit} (hf : ∀ b, Fair E (f b)) : ∀ l, Fair E (Prog.each f l)
  | [] => pure
  | b :: l => bind (hf b) fun _ => each hf l

theorem mapAll {f : β → Prog X α} (hf : ∀ b, Fair E (f b)) : ∀ l, Fair E (Prog.mapAll f l)
  | [] => pure
  | b :: l => bind (hf b) fun _ => bind (mapAll hf l) fun _ => pure

theorem zoom {gt : X → Y} {st : X → Y → X} {p : Prog Y α} (hp : Fair E p) : Fair E (Prog.zoom gt st p) :=
  ⟨fun x w => leaves_zoom.2 (hp.run (gt x) w)⟩

theorem locally {y : Y} {p : Prog Y β} {f : β → Y → α} (hp : Fair E p) : Fair E (Prog.locally y p f : Prog X α) :=
  ⟨fun _ w => leaves_locally.2 (hp.run y w)⟩

theorem drop {p : Prog X α} (hp : Fair E p) : Fair E (Prog.drop p) := bind hp fun _ => pure

theorem alloc : Fair E (E.alloc : Prog X Nat) := by
  refine ⟨fun x w => ?_⟩
  unfold Leaves Env.alloc
  by_cases h : E.fault w.tick = true
  · simp only [h, if_true]
    exact ⟨Nat.le_succ _, w.tick, Nat.le_refl _, Nat.lt_succ_self _, h⟩
  · simp only [h]
    exact ⟨Nat.le_succ _, fun n h1 h2 => by rw [show n = w.tick from Nat.le_antisymm (Nat.le_of_lt_succ h2) h1]; simpa using h⟩

theorem userOp {b : Bool} : Fair E (E.userOp b : Prog X Unit) := by
  refine ⟨fun x w => ?_⟩
  unfold Leaves Env.userOp
  by_cases hb : b = true
  · simpa [hb] using Env.Calm.refl E w
  · by_cases h : E.fault w.tick = true
    · simp only [hb, h, if_true]
      exact ⟨Nat.le_succ _, w.tick, Nat.le_refl _, Nat.lt_succ_self _, h⟩
    · simp only [hb, h]
      exact ⟨Nat.le_succ _, fun n h1 h2 => by rw [show n = w.tick from Nat.le_antisymm (Nat.le_of_lt_succ h2) h1]; simpa using h⟩

/-- A computation that wraps another one. -/
theorem wrap {p : Prog X α} {q : Prog Y β} (hp : Fair E p) (f : Y → X) (g : α → X → β) (h : X → Y → α → Y) (k : X → Y → Y)
    (hq : ∀ y w, q y w = match p (f y) w with | .ok a x w' => .ok (g a x) (h x y a) w' | .exc e x w' => .exc e (k x y) w' | .ub => .ub) : Fair E q := by
  refine ⟨fun y w => ?_⟩
  have := hp.run (f y) w
  unfold Leaves at this ⊢
  rw [hq]
  cases hpx : p (f y) w <;> rw [hpx] at this <;> exact this

end Fair

/-- One step of `fair`. -/
syntax "fstep" : tactic
macro_rules | `(tactic| fstep) => `(tactic| with_reducible exact Fair.pure)
macro_rules | `(tactic| fstep) => `(tactic| with_reducible exact Fair.pure')
macro_rules | `(tactic| fstep) => `(tactic| with_reducible exact Fair.undef)
macro_rules | `(tactic| fstep) => `(tactic| with_reducible exact Fair.get)
macro_rules | `(tactic| fstep) => `(tactic| with_reducible exact Fair.set)
macro_rules | `(tactic| fstep) => `(tactic| with_reducible exact Fair.world)
macro_rules | `(tactic| fstep) => `(tactic| with_reducible exact Fair.length)
macro_rules | `(tactic| fstep) => `(tactic| with_reducible exact Fair.unregistered)
macro_rules | `(tactic| fstep) => `(tactic| with_reducible exact Fair.ofOption)
macro_rules | `(tactic| fstep) => `(tactic| with_reducible exact Fair.alloc)
macro_rules | `(tactic| fstep) => `(tactic| with_reducible exact Fair.userOp)
macro_rules | `(tactic| fstep) => `(tactic| with_reducible apply Fair.bind)
macro_rules | `(tactic| fstep) => `(tactic| with_reducible apply Fair.bind')
macro_rules | `(tactic| fstep) => `(tactic| with_reducible apply Fair.ite)
macro_rules | `(tactic| fstep) => `(tactic| with_reducible apply Fair.onExc)
macro_rules | `(tactic| fstep) => `(tactic| with_reducible apply Fair.each)
macro_rules | `(tactic| fstep) => `(tactic| with_reducible apply Fair.mapAll)
macro_rules | `(tactic| fstep) => `(tactic| with_reducible apply Fair.zoom)
macro_rules | `(tactic| fstep) => `(tactic| with_reducible apply Fair.locally)
macro_rules | `(tactic| fstep) => `(tactic| with_reducible apply Fair.drop)

/-- Prove `Fair` by following the structure of the program. -/
macro "fair" : tactic => `(tactic| repeat' (first | with_reducible assumption | fstep | intro _ | split))

namespace Env
variable {V : Type} (E : Env V)

theorem copyVH_fair {X : Type} (t : Ty) : Fair E (copyVH E t : Prog X Unit) := by
  unfold copyVH; split
  · fair
  · rename_i h; exact ⟨fun _ _ => ⟨Nat.le_refl _, by simpa [Env.Cause] using h⟩⟩
macro_rules | `(tactic| fstep) => `(tactic| with_reducible apply Env.copyVH_fair)
theorem moveVH_fair {X : Type} (t : Ty) : Fair E (moveVH E t : Prog X Unit) := by unfold moveVH; fair
macro_rules | `(tactic| fstep) => `(tactic| with_reducible apply Env.moveVH_fair)
theorem relocate_fair {X : Type} (t : Ty) (l : List V) : Fair E (relocate E t l : Prog X Unit) := by unfold relocate; fair
macro_rules | `(tactic| fstep) => `(tactic| with_reducible apply Env.relocate_fair)
theorem construct_fair (t : Ty) (src : Src V) : Fair E (construct E t src) := by unfold construct; fair
macro_rules | `(tactic| fstep) => `(tactic| with_reducible apply Env.construct_fair)
theorem spoil_fair (lo hi : Nat) : Fair E (spoil E lo hi) := ⟨fun _ w => .refl E w⟩
macro_rules | `(tactic| fstep) => `(tactic| with_reducible apply Env.spoil_fair)
theorem shift_fair (b : Bool) (lo hi : Nat) : Fair E (shift E b lo hi) := by unfold shift; fair
macro_rules | `(tactic| fstep) => `(tactic| with_reducible apply Env.shift_fair)
theorem reserve_fair (t : Ty) (n : Nat) : Fair E (reserve E t n) := by unfold reserve; fair
macro_rules | `(tactic| fstep) => `(tactic| with_reducible apply Env.reserve_fair)
theorem emplaceBack_fair (t : Ty) (src : Src V) : Fair E (emplaceBack E t src) := by unfold emplaceBack; fair
macro_rules | `(tactic| fstep) => `(tactic| with_reducible apply Env.emplaceBack_fair)
theorem emplaceAt_fair (t : Ty) (n : Nat) (src : Src V) : Fair E (emplaceAt E t n src) := by unfold emplaceAt; fair
macro_rules | `(tactic| fstep) => `(tactic| with_reducible apply Env.emplaceAt_fair)
theorem insertRange_fair (t : Ty) (n : Nat) (srcs : List (Src V)) : Fair E (insertRange E t n srcs) := by unfold insertRange; fair
macro_rules | `(tactic| fstep) => `(tactic| with_reducible apply Env.insertRange_fair)
theorem insertInput_fair (t : Ty) (n : Nat) (srcs : List (Src V)) : Fair E (insertInput E t n srcs) := by unfold insertInput; fair
macro_rules | `(tactic| fstep) => `(tactic| with_reducible apply Env.insertInput_fair)
theorem eraseRange_fair (t : Ty) (a b : Nat) : Fair E (eraseRange E t a b) := by unfold eraseRange; fair
macro_rules | `(tactic| fstep) => `(tactic| with_reducible apply Env.eraseRange_fair)
theorem eraseAt_fair (t : Ty) (n : Nat) : Fair E (eraseAt E t n) := by unfold eraseAt; fair
macro_rules | `(tactic| fstep) => `(tactic| with_reducible apply Env.eraseAt_fair)
theorem clearVec_fair : Fair E (clearVec : Prog (Vec V) Unit) := by unfold clearVec; fair
macro_rules | `(tactic| fstep) => `(tactic| with_reducible apply Env.clearVec_fair)
theorem shrinkToFit_fair (t : Ty) : Fair E (shrinkToFit E t) := by unfold shrinkToFit; fair
macro_rules | `(tactic| fstep) => `(tactic| with_reducible apply Env.shrinkToFit_fair)
theorem copyVec_fair {X : Type} (t : Ty) (s : Vec V) : Fair E (copyVec E t s : Prog X (Vec V)) := by unfold copyVec; fair
macro_rules | `(tactic| fstep) => `(tactic| with_reducible apply Env.copyVec_fair)
theorem moveVec_fair (t : Ty) (b : Bool) : Fair E (moveVec E t b) := by unfold moveVec; fair
macro_rules | `(tactic| fstep) => `(tactic| with_reducible apply Env.moveVec_fair)
theorem eqVH_fair {X : Type} (t : Ty) (x y : V) : Fair E (eqVH E t x y : Prog X Bool) := by
  unfold eqVH; split
  · fair
  · rename_i h; exact ⟨fun _ _ => ⟨Nat.le_refl _, by simpa [Env.Cause] using h⟩⟩
macro_rules | `(tactic| fstep) => `(tactic| with_reducible apply Env.eqVH_fair)
theorem idxReserve_fair (n : Nat) : Fair E (idxReserve E n) := by unfold idxReserve; fair
macro_rules | `(tactic| fstep) => `(tactic| with_reducible apply Env.idxReserve_fair)
theorem idxPushBack_fair (p : Ptr) : Fair E (idxPushBack E p) := by unfold idxPushBack; fair
macro_rules | `(tactic| fstep) => `(tactic| with_reducible apply Env.idxPushBack_fair)

end Env

theorem Env.eqElems_fair {X V : Type} (E : Env V) (t : Ty) : ∀ a b : List V, Fair E (E.eqElems t a b : Prog X Bool)
  | x :: xs, y :: ys => by
    unfold Env.eqElems
    have := Env.eqElems_fair (X := X) E t xs ys
    fair
  | [], _ => by unfold Env.eqElems; exact .pure'
  | _ :: _, [] => by unfold Env.eqElems; exact .pure'
macro_rules | `(tactic| fstep) => `(tactic| with_reducible apply Env.eqElems_fair)
theorem Env.eqVec_fair {X V : Type} (E : Env V) (t : Ty) (a b : Vec V) : Fair E (E.eqVec t a b : Prog X Bool) := by unfold Env.eqVec; fair
macro_rules | `(tactic| fstep) => `(tactic| with_reducible apply Env.eqVec_fair)
theorem idxPopBack_fair {V : Type} (E : Env V) : Fair E idxPopBack := by unfold idxPopBack; fair
macro_rules | `(tactic| fstep) => `(tactic| with_reducible apply idxPopBack_fair)
theorem idxClear_fair {V : Type} (E : Env V) : Fair E idxClear := by unfold idxClear; fair
macro_rules | `(tactic| fstep) => `(tactic| with_reducible apply idxClear_fair)

namespace Packed
variable {V : Type} (E : Env V)

theorem onS_fair {α : Type} {p : Prog (Vec V) α} (h : Fair E p) : Fair E (onS p) := by unfold onS; fair
macro_rules | `(tactic| fstep) => `(tactic| with_reducible apply Packed.onS_fair)
theorem retRange_fair (n : Nat) : Fair E (retRange n : Prog (Packed V) _) := by unfold retRange; fair
macro_rules | `(tactic| fstep) => `(tactic| with_reducible apply Packed.retRange_fair)
theorem retSentinel_fair : Fair E (retSentinel : Prog (Packed V) _) := by unfold retSentinel; fair
macro_rules | `(tactic| fstep) => `(tactic| with_reducible apply Packed.retSentinel_fair)
theorem reserve_fair (n : Nat) : Fair E (reserve E n) := by unfold reserve; fair
macro_rules | `(tactic| fstep) => `(tactic| with_reducible apply Packed.reserve_fair)
theorem shrinkToFit_fair : Fair E (shrinkToFit E) := by unfold shrinkToFit; fair
macro_rules | `(tactic| fstep) => `(tactic| with_reducible apply Packed.shrinkToFit_fair)
theorem emplaceAt_fair (p : Ptr) (src : Src V) : Fair E (emplaceAt E p src) := by unfold emplaceAt; fair
macro_rules | `(tactic| fstep) => `(tactic| with_reducible apply Packed.emplaceAt_fair)
theorem pushBack_fair (src : Src V) : Fair E (pushBack E src) := by unfold pushBack; fair
macro_rules | `(tactic| fstep) => `(tactic| with_reducible apply Packed.pushBack_fair)
theorem insertRange_fair (f : Bool) (p : Ptr) (srcs : List (Src V)) : Fair E (insertRange E f p srcs) := by unfold insertRange; fair
macro_rules | `(tactic| fstep) => `(tactic| with_reducible apply Packed.insertRange_fair)
theorem insertRangeEnd_fair (f : Bool) (srcs : List (Src V)) : Fair E (insertRangeEnd E f srcs) := by unfold insertRangeEnd; fair
macro_rules | `(tactic| fstep) => `(tactic| with_reducible apply Packed.insertRangeEnd_fair)
theorem erase_fair (p : Ptr) : Fair E (erase E p) := by unfold erase; fair
macro_rules | `(tactic| fstep) => `(tactic| with_reducible apply Packed.erase_fair)
theorem eraseRange_fair (p q : Ptr) : Fair E (eraseRange E p q) := by unfold eraseRange; fair
macro_rules | `(tactic| fstep) => `(tactic| with_reducible apply Packed.eraseRange_fair)
theorem eraseTillEnd_fair (p : Ptr) : Fair E (eraseTillEnd E p) := by unfold eraseTillEnd; fair
macro_rules | `(tactic| fstep) => `(tactic| with_reducible apply Packed.eraseTillEnd_fair)
theorem eraseFromBegin_fair (p : Ptr) : Fair E (eraseFromBegin E p) := by unfold eraseFromBegin; fair
macro_rules | `(tactic| fstep) => `(tactic| with_reducible apply Packed.eraseFromBegin_fair)
theorem clear_fair : Fair E (clear : Prog (Packed V) _) := by unfold clear; fair
macro_rules | `(tactic| fstep) => `(tactic| with_reducible apply Packed.clear_fair)
theorem make_fair {X : Type} (t : Ty) (al : Alloc) : Fair E (make E t al : Prog X (Packed V)) := by unfold make; fair
macro_rules | `(tactic| fstep) => `(tactic| with_reducible apply Packed.make_fair)
theorem copy_fair {X : Type} (x : Packed V) : Fair E (copy E x : Prog X (Packed V)) := by unfold copy; fair
macro_rules | `(tactic| fstep) => `(tactic| with_reducible apply Packed.copy_fair)
theorem copyAl_fair {X : Type} (x : Packed V) (al : Alloc) : Fair E (copyAl E x al : Prog X (Packed V)) := by unfold copyAl; fair
macro_rules | `(tactic| fstep) => `(tactic| with_reducible apply Packed.copyAl_fair)
theorem move_fair (al : Alloc) : Fair E (move E al) := by unfold move; fair
macro_rules | `(tactic| fstep) => `(tactic| with_reducible apply Packed.move_fair)
theorem equal_fair {X : Type} (x y : Packed V) : Fair E (equal E x y : Prog X Bool) := by unfold equal; fair
macro_rules | `(tactic| fstep) => `(tactic| with_reducible apply Packed.equal_fair)

end Packed

namespace Split
variable {V : Type} (E : Env V)

theorem onS_fair {α : Type} {p : Prog (Vec V) α} (h : Fair E p) : Fair E (onS p) := by unfold onS; fair
macro_rules | `(tactic| fstep) => `(tactic| with_reducible apply Split.onS_fair)
theorem onI_fair {α : Type} {p : Prog (Vec Ptr) α} (h : Fair E p) : Fair E (onI p : Prog (Split V) α) := by unfold onI; fair
macro_rules | `(tactic| fstep) => `(tactic| with_reducible apply Split.onI_fair)
theorem retRange_fair (n : Nat) : Fair E (retRange n : Prog (Split V) _) := by unfold retRange; fair
macro_rules | `(tactic| fstep) => `(tactic| with_reducible apply Split.retRange_fair)
theorem retSentinel_fair : Fair E (retSentinel : Prog (Split V) _) := by unfold retSentinel; fair
macro_rules | `(tactic| fstep) => `(tactic| with_reducible apply Split.retSentinel_fair)
theorem pushIndex_fair (n : Nat) : Fair E (pushIndex E n) := by unfold pushIndex; fair
macro_rules | `(tactic| fstep) => `(tactic| with_reducible apply Split.pushIndex_fair)
theorem buildIndex_fair (n : Nat) : Fair E (buildIndex E n) := by unfold buildIndex; fair
macro_rules | `(tactic| fstep) => `(tactic| with_reducible apply Split.buildIndex_fair)
theorem rebuildIndex_fair : Fair E (rebuildIndex E) := by unfold rebuildIndex; fair
macro_rules | `(tactic| fstep) => `(tactic| with_reducible apply Split.rebuildIndex_fair)
theorem pushIndexEntry_fair : Fair E (pushIndexEntry E) := by unfold pushIndexEntry; fair
macro_rules | `(tactic| fstep) => `(tactic| with_reducible apply Split.pushIndexEntry_fair)
theorem popIndexEntry_fair (n : Nat) : Fair E (popIndexEntry n : Prog (Split V) _) := by
  induction n with
  | zero => exact .pure'
  | succ n ih => unfold popIndexEntry; fair
macro_rules | `(tactic| fstep) => `(tactic| with_reducible apply Split.popIndexEntry_fair)
theorem expand_fair : Fair E (expand E) := by unfold expand; fair
macro_rules | `(tactic| fstep) => `(tactic| with_reducible apply Split.expand_fair)
theorem expandBy_fair (m : Nat) : Fair E (expandBy E m) := by unfold expandBy; fair
macro_rules | `(tactic| fstep) => `(tactic| with_reducible apply Split.expandBy_fair)
theorem prereserve_fair : Fair E (prereserve E) := by unfold prereserve; fair
macro_rules | `(tactic| fstep) => `(tactic| with_reducible apply Split.prereserve_fair)
theorem prereserveAt_fair (p : PosArg) : Fair E (prereserveAt E p) := by unfold prereserveAt; fair
macro_rules | `(tactic| fstep) => `(tactic| with_reducible apply Split.prereserveAt_fair)
theorem prereserveBy_fair (p : Ptr) (m : Nat) : Fair E (prereserveBy E p m) := by unfold prereserveBy; fair
macro_rules | `(tactic| fstep) => `(tactic| with_reducible apply Split.prereserveBy_fair)
theorem reserve_fair (n : Nat) : Fair E (reserve E n) := by unfold reserve; fair
macro_rules | `(tactic| fstep) => `(tactic| with_reducible apply Split.reserve_fair)
theorem shrinkBody_fair : Fair E (shrinkBody E) := by unfold shrinkBody; fair
macro_rules | `(tactic| fstep) => `(tactic| with_reducible apply Split.shrinkBody_fair)
theorem shrinkToFit_fair : Fair E (shrinkToFit E) := by unfold shrinkToFit; fair
macro_rules | `(tactic| fstep) => `(tactic| with_reducible apply Split.shrinkToFit_fair)
theorem emplaceAt_fair (p : PosArg) (src : Src V) : Fair E (emplaceAt E p src) := by unfold emplaceAt; fair
macro_rules | `(tactic| fstep) => `(tactic| with_reducible apply Split.emplaceAt_fair)
theorem pushBack_fair (src : Src V) : Fair E (pushBack E src) := by unfold pushBack; fair
macro_rules | `(tactic| fstep) => `(tactic| with_reducible apply Split.pushBack_fair)
theorem insertLoop_fair (p : Ptr) (srcs : List (Src V)) : Fair E (insertLoop E p srcs) := by
  induction srcs generalizing p with
  | nil => exact .pure'
  | cons s l ih => unfold insertLoop; fair; all_goals exact ih _
macro_rules | `(tactic| fstep) => `(tactic| with_reducible apply Split.insertLoop_fair)
theorem insertInput_fair (p : Ptr) (srcs : List (Src V)) : Fair E (insertInput E p srcs) := by unfold insertInput; fair
macro_rules | `(tactic| fstep) => `(tactic| with_reducible apply Split.insertInput_fair)
theorem insertForward_fair (p : Ptr) (srcs : List (Src V)) : Fair E (insertForward E p srcs) := by unfold insertForward; fair
macro_rules | `(tactic| fstep) => `(tactic| with_reducible apply Split.insertForward_fair)
theorem erase_fair (p : Ptr) : Fair E (erase E p) := by unfold erase; fair
macro_rules | `(tactic| fstep) => `(tactic| with_reducible apply Split.erase_fair)
theorem eraseRange_fair (p q : Ptr) : Fair E (eraseRange E p q) := by unfold eraseRange; fair
macro_rules | `(tactic| fstep) => `(tactic| with_reducible apply Split.eraseRange_fair)
theorem eraseTillEnd_fair (p : Ptr) : Fair E (eraseTillEnd E p) := by unfold eraseTillEnd; fair
macro_rules | `(tactic| fstep) => `(tactic| with_reducible apply Split.eraseTillEnd_fair)
theorem eraseFromBegin_fair (p : Ptr) : Fair E (eraseFromBegin E p) := by unfold eraseFromBegin; fair
macro_rules | `(tactic| fstep) => `(tactic| with_reducible apply Split.eraseFromBegin_fair)
theorem clear_fair : Fair E (clear : Prog (Split V) _) := by unfold clear; fair
macro_rules | `(tactic| fstep) => `(tactic| with_reducible apply Split.clear_fair)
theorem init_fair {X : Type} (t : Ty) (al o : Alloc) (s : Vec V) : Fair E (init E t al o s : Prog X (Split V)) := by unfold init; fair
macro_rules | `(tactic| fstep) => `(tactic| with_reducible apply Split.init_fair)
theorem make_fair {X : Type} (t : Ty) (al : Alloc) : Fair E (make E t al : Prog X (Split V)) := by unfold make; fair
macro_rules | `(tactic| fstep) => `(tactic| with_reducible apply Split.make_fair)
theorem copy_fair {X : Type} (x : Split V) : Fair E (copy E x : Prog X (Split V)) := by unfold copy; fair
macro_rules | `(tactic| fstep) => `(tactic| with_reducible apply Split.copy_fair)
theorem copyAl_fair {X : Type} (x : Split V) (al : Alloc) : Fair E (copyAl E x al : Prog X (Split V)) := by unfold copyAl; fair
macro_rules | `(tactic| fstep) => `(tactic| with_reducible apply Split.copyAl_fair)
theorem move_fair (al : Alloc) : Fair E (move E al) := by unfold move; fair
macro_rules | `(tactic| fstep) => `(tactic| with_reducible apply Split.move_fair)
theorem equal_fair {X : Type} (x y : Split V) : Fair E (equal E x y : Prog X Bool) := by unfold equal; fair
macro_rules | `(tactic| fstep) => `(tactic| with_reducible apply Split.equal_fair)

end Split

theorem Backend.run_fair {V : Type} (E : Env V) {α : Type} {f : Prog (Packed V) α} {g : Prog (Split V) α} (hf : Fair E f) (hg : Fair E g) : Fair E (Backend.run f g) := by
  refine ⟨fun b w => ?_⟩
  unfold Leaves Backend.run
  cases b with
  | packed x =>
    have := hf.run x w
    unfold Leaves at this
    cases h : f x w <;> rw [h] at this <;> simp only [h] <;> exact this
  | split x =>
    have := hg.run x w
    unfold Leaves at this
    cases h : g x w <;> rw [h] at this <;> simp only [h] <;> exact this
macro_rules | `(tactic| fstep) => `(tactic| with_reducible apply Backend.run_fair)

namespace Seg
variable {V : Type} (E : Env V)

theorem filterRange_fair {p : Prog (Backend V) (Ptr × Ptr)} (h : Fair E p) : Fair E (filterRange p) := Fair.wrap h (fun y => y.be) (fun r _ => r.1) (fun x _ r => ⟨x, r.2⟩) (fun x y => { y with be := x }) fun y w => by unfold filterRange; cases p y.be w <;> rfl
macro_rules | `(tactic| fstep) => `(tactic| with_reducible apply Seg.filterRange_fair)
theorem filterSentinel_fair {p : Prog (Backend V) Ptr} (h : Fair E p) : Fair E (filterSentinel p) := Fair.wrap h (fun y => y.be) (fun r _ => ()) (fun x _ r => ⟨x, r⟩) (fun x y => { y with be := x }) fun y w => by unfold filterSentinel; cases p y.be w <;> rfl
macro_rules | `(tactic| fstep) => `(tactic| with_reducible apply Seg.filterSentinel_fair)
theorem reserve_fair (n : Nat) : Fair E (reserve E n) := by unfold reserve; fair
macro_rules | `(tactic| fstep) => `(tactic| with_reducible apply Seg.reserve_fair)
theorem shrinkToFit_fair : Fair E (shrinkToFit E) := by unfold shrinkToFit; fair
macro_rules | `(tactic| fstep) => `(tactic| with_reducible apply Seg.shrinkToFit_fair)
theorem emplace_fair (p : PosArg) (src : Src V) : Fair E (emplace E p src) := by unfold emplace; fair
macro_rules | `(tactic| fstep) => `(tactic| with_reducible apply Seg.emplace_fair)
theorem pushBack_fair (src : Src V) : Fair E (pushBack E src) := by unfold pushBack; fair
macro_rules | `(tactic| fstep) => `(tactic| with_reducible apply Seg.pushBack_fair)
theorem insertBase_fair (p : Ptr) (src : Src V) : Fair E (insertBase E p src) := by unfold insertBase; fair
macro_rules | `(tactic| fstep) => `(tactic| with_reducible apply Seg.insertBase_fair)
theorem insertLocal_fair (p : Ptr) (src : Src V) : Fair E (insertLocal E p src) := by unfold insertLocal; fair
macro_rules | `(tactic| fstep) => `(tactic| with_reducible apply Seg.insertLocal_fair)
theorem insertRangeLocal_fair (f : Bool) (p : Ptr) (srcs : List (Src V)) : Fair E (insertRangeLocal E f p srcs) := by unfold insertRangeLocal; fair
macro_rules | `(tactic| fstep) => `(tactic| with_reducible apply Seg.insertRangeLocal_fair)
theorem insertRangeEnd_fair (f : Bool) (srcs : List (Src V)) : Fair E (insertRangeEnd E f srcs) := by unfold insertRangeEnd; fair
macro_rules | `(tactic| fstep) => `(tactic| with_reducible apply Seg.insertRangeEnd_fair)
theorem insertRangeBase_fair (f : Bool) (p : Ptr) (srcs : List (Src V)) : Fair E (insertRangeBase E f p srcs) := by unfold insertRangeBase; fair
macro_rules | `(tactic| fstep) => `(tactic| with_reducible apply Seg.insertRangeBase_fair)
theorem eraseBase_fair (p : Ptr) : Fair E (eraseBase E p) := by unfold eraseBase; fair
macro_rules | `(tactic| fstep) => `(tactic| with_reducible apply Seg.eraseBase_fair)
theorem eraseLocal_fair (p : Ptr) : Fair E (eraseLocal E p) := by unfold eraseLocal; fair
macro_rules | `(tactic| fstep) => `(tactic| with_reducible apply Seg.eraseLocal_fair)
theorem eraseRangeBase_fair (p q : Ptr) : Fair E (eraseRangeBase E p q) := by unfold eraseRangeBase; fair
macro_rules | `(tactic| fstep) => `(tactic| with_reducible apply Seg.eraseRangeBase_fair)
theorem eraseRangeLocal_fair (p q : Ptr) : Fair E (eraseRangeLocal E p q) := by unfold eraseRangeLocal; fair
macro_rules | `(tactic| fstep) => `(tactic| with_reducible apply Seg.eraseRangeLocal_fair)
theorem eraseTillEnd_fair (p : Ptr) : Fair E (eraseTillEnd E p) := by unfold eraseTillEnd; fair
macro_rules | `(tactic| fstep) => `(tactic| with_reducible apply Seg.eraseTillEnd_fair)
theorem eraseFromBegin_fair (p : Ptr) : Fair E (eraseFromBegin E p) := by unfold eraseFromBegin; fair
macro_rules | `(tactic| fstep) => `(tactic| with_reducible apply Seg.eraseFromBegin_fair)
theorem clear_fair : Fair E (clear : Prog (Seg V) Unit) := by unfold clear; fair
macro_rules | `(tactic| fstep) => `(tactic| with_reducible apply Seg.clear_fair)
theorem make_fair {X : Type} (k : Kind) (t : Ty) (al : Alloc) : Fair E (make E k t al : Prog X (Seg V)) := by unfold make; fair
macro_rules | `(tactic| fstep) => `(tactic| with_reducible apply Seg.make_fair)
theorem makeFromPrototype_fair {X : Type} (x : Seg V) (al : Alloc) : Fair E (makeFromPrototype E x al : Prog X (Seg V)) := by unfold makeFromPrototype; fair
macro_rules | `(tactic| fstep) => `(tactic| with_reducible apply Seg.makeFromPrototype_fair)
theorem copyAl_fair {X : Type} (x : Seg V) (al : Alloc) : Fair E (copyAl E x al : Prog X (Seg V)) := by unfold copyAl; fair
macro_rules | `(tactic| fstep) => `(tactic| with_reducible apply Seg.copyAl_fair)
theorem moveAl_fair (al : Alloc) : Fair E (moveAl E al) := by unfold moveAl; fair
macro_rules | `(tactic| fstep) => `(tactic| with_reducible apply Seg.moveAl_fair)
theorem equal_fair {X : Type} (x y : Seg V) : Fair E (equal E x y : Prog X Bool) := by unfold equal; fair
macro_rules | `(tactic| fstep) => `(tactic| with_reducible apply Seg.equal_fair)
theorem apply_fair (o : Coll.Sort') (p : Ptr) (a : Act V) : Fair E (apply E o p a) := by unfold apply; fair
macro_rules | `(tactic| fstep) => `(tactic| with_reducible apply Seg.apply_fair)
theorem rebind_fair (p r : Ptr) : Fair E (rebind p r : Prog (Seg V) Unit) := by unfold rebind; fair
macro_rules | `(tactic| fstep) => `(tactic| with_reducible apply Seg.rebind_fair)

end Seg

namespace TMap
variable {V : Type} (E : Env V)

theorem cacheInsert_fair (t : TI) (it : MapIt) : Fair E (cacheInsert E t it) := by unfold cacheInsert; fair
macro_rules | `(tactic| fstep) => `(tactic| with_reducible apply TMap.cacheInsert_fair)
theorem find_fair (t : TI) : Fair E (find E t) := by unfold find; fair
macro_rules | `(tactic| fstep) => `(tactic| with_reducible apply TMap.find_fair)
theorem rebuildCache_fair : Fair E (rebuildCache E) := by unfold rebuildCache; fair
macro_rules | `(tactic| fstep) => `(tactic| with_reducible apply TMap.rebuildCache_fair)
theorem mapEmplace_fair (t : TI) (x : Seg V) : Fair E (mapEmplace E t x) := by unfold mapEmplace; fair
macro_rules | `(tactic| fstep) => `(tactic| with_reducible apply TMap.mapEmplace_fair)
theorem insert_fair (t : TI) (x : Seg V) : Fair E (insert E t x) := by unfold insert; fair
macro_rules | `(tactic| fstep) => `(tactic| with_reducible apply TMap.insert_fair)
theorem buildCache_fair (l : List (TI × MapIt)) : Fair E (buildCache E l) := by unfold buildCache; fair
macro_rules | `(tactic| fstep) => `(tactic| with_reducible apply TMap.buildCache_fair)
theorem copyNodes_fair {X : Type} (al : Alloc) (l : List (Node V)) : Fair E (copyNodes E al l : Prog X (List (Node V))) := by
  induction l with
  | nil => exact .pure'
  | cons n l ih => unfold copyNodes; fair
macro_rules | `(tactic| fstep) => `(tactic| with_reducible apply TMap.copyNodes_fair)
theorem build_fair {X : Type} (m : TMap V) {p : Prog (TMap V) Unit} (h : Fair E p) : Fair E (build m p : Prog X (TMap V)) := by unfold build; fair
macro_rules | `(tactic| fstep) => `(tactic| with_reducible apply TMap.build_fair)
theorem copyAl_fair {X : Type} (x : TMap V) (al : Alloc) : Fair E (copyAl E x al : Prog X (TMap V)) := by unfold copyAl; fair
macro_rules | `(tactic| fstep) => `(tactic| with_reducible apply TMap.copyAl_fair)
theorem copy_fair {X : Type} (x : TMap V) : Fair E (copy E x : Prog X (TMap V)) := by unfold copy; fair
macro_rules | `(tactic| fstep) => `(tactic| with_reducible apply TMap.copy_fair)
theorem move_fair : Fair E (move : Prog (TMap V) (TMap V)) := by unfold move; fair
macro_rules | `(tactic| fstep) => `(tactic| with_reducible apply TMap.move_fair)
theorem moveNodes_fair (al : Alloc) : Fair E (moveNodes E al) := by
  refine ⟨fun l w => ?_⟩
  induction l generalizing w with
  | nil => exact .refl E w
  | cons n l ih =>
    have h1 : Fair E (do let i ← E.alloc; let s ← Seg.moveAl E al; return (i, s) : Prog (Seg V) (Nat × Seg V)) := by fair
    have h2 := h1.run n.seg w
    unfold Leaves at h2 ih ⊢
    unfold moveNodes
    cases h : (do let i ← E.alloc; let s ← Seg.moveAl E al; return (i, s) : Prog (Seg V) (Nat × Seg V)) n.seg w with
    | ub => trivial
    | exc e s w' => rw [h] at h2; exact h2
    | ok r s w' =>
      rw [h] at h2
      obtain ⟨i, s1⟩ := r
      have h3 := ih w'
      simp only
      cases h' : moveNodes E al l w' with
      | ub => trivial
      | ok r l' w'' => rw [h'] at h3; exact Env.Calm.trans h2 h3
      | exc e l' w'' => rw [h'] at h3; exact ⟨Nat.le_trans h2.1 h3.1, h3.2.mono h2.1 (Nat.le_refl _)⟩
macro_rules | `(tactic| fstep) => `(tactic| with_reducible apply TMap.moveNodes_fair)
theorem clearAll_fair : Fair E (clearAll : Prog (TMap V) Unit) := by unfold clearAll; fair
macro_rules | `(tactic| fstep) => `(tactic| with_reducible apply TMap.clearAll_fair)
theorem moveAl_fair (al : Alloc) : Fair E (moveAl E al) := by unfold moveAl; fair
macro_rules | `(tactic| fstep) => `(tactic| with_reducible apply TMap.moveAl_fair)
theorem assignBody_fair (x : TMap V) : Fair E (assignBody E x) := by unfold assignBody; fair
macro_rules | `(tactic| fstep) => `(tactic| with_reducible apply TMap.assignBody_fair)
theorem assign_fair (x : TMap V) : Fair E (assign E x) := by unfold assign; fair
macro_rules | `(tactic| fstep) => `(tactic| with_reducible apply TMap.assign_fair)
theorem moveAssign_fair : Fair E (moveAssign E) := by unfold moveAssign; fair
macro_rules | `(tactic| fstep) => `(tactic| with_reducible apply TMap.moveAssign_fair)
theorem swap_fair : Fair E (swap E) := by unfold swap; fair
macro_rules | `(tactic| fstep) => `(tactic| with_reducible apply TMap.swap_fair)
theorem onSeg_fair {α : Type} (it : MapIt) {p : Prog (Seg V) α} (h : Fair E p) : Fair E (onSeg E it p) := by
  refine ⟨fun m w => ?_⟩
  unfold Leaves onSeg
  cases hn : m.node? E it with
  | none => trivial
  | some n =>
    have := h.run n.seg w
    unfold Leaves at this
    simp only
    cases hp : p n.seg w <;> rw [hp] at this <;> simp only <;> exact this
macro_rules | `(tactic| fstep) => `(tactic| with_reducible apply TMap.onSeg_fair)
theorem onAll_fair {p : Prog (Seg V) Unit} (h : Fair E p) : Fair E (onAll p) := by
  refine Fair.zoom ⟨fun l w => ?_⟩
  induction l generalizing w with
  | nil => exact .refl E w
  | cons n l ih =>
    have h2 := h.run n.seg w
    unfold Leaves at h2 ih ⊢
    unfold onAll.go
    simp only
    cases hp : p n.seg w with
    | ub => trivial
    | exc e s w' => rw [hp] at h2; exact h2
    | ok r s w' =>
      rw [hp] at h2
      have h3 := ih w'
      simp only
      cases h' : onAll.go p l w' with
      | ub => trivial
      | ok r l' w'' => rw [h'] at h3; exact Env.Calm.trans h2 h3
      | exc e l' w'' => rw [h'] at h3; exact ⟨Nat.le_trans h2.1 h3.1, h3.2.mono h2.1 (Nat.le_refl _)⟩
macro_rules | `(tactic| fstep) => `(tactic| with_reducible apply TMap.onAll_fair)

end TMap

namespace Coll
variable {V : Type} (E : Env V)

theorem onMap_fair {α : Type} {p : Prog (TMap V) α} (h : Fair E p) : Fair E (onMap p) := by unfold onMap; fair
macro_rules | `(tactic| fstep) => `(tactic| with_reducible apply Coll.onMap_fair)
theorem onMaps_fair {α : Type} {p : Prog (TMap V × TMap V) α} (h : Fair E p) : Fair E (onMaps p) := by unfold onMaps; fair
macro_rules | `(tactic| fstep) => `(tactic| with_reducible apply Coll.onMaps_fair)
theorem insertNew_fair (t : TI) : Fair E (insertNew E t) := by unfold insertNew; fair
macro_rules | `(tactic| fstep) => `(tactic| with_reducible apply Coll.insertNew_fair)
theorem registerTypes_fair (l : List TI) : Fair E (registerTypes E l) := by
  induction l with
  | nil => exact .pure'
  | cons s l ih => unfold registerTypes; fair
macro_rules | `(tactic| fstep) => `(tactic| with_reducible apply Coll.registerTypes_fair)
theorem forInfo_fair (t : TI) : Fair E (forInfo E t) := by unfold forInfo; fair
macro_rules | `(tactic| fstep) => `(tactic| with_reducible apply Coll.forInfo_fair)
theorem forT_fair (t : TI) : Fair E (forT E t) := by unfold forT; fair
macro_rules | `(tactic| fstep) => `(tactic| with_reducible apply Coll.forT_fair)
theorem forProto_fair (t : TI) (s : Seg V) : Fair E (forProto E t s) := by unfold forProto; fair
macro_rules | `(tactic| fstep) => `(tactic| with_reducible apply Coll.forProto_fair)
theorem forArg_fair (a : Arg V) : Fair E (forArg E a) := by unfold forArg; fair
macro_rules | `(tactic| fstep) => `(tactic| with_reducible apply Coll.forArg_fair)
theorem beginInfo_fair (t : TI) : Fair E (beginInfo E t) := by unfold beginInfo; fair
macro_rules | `(tactic| fstep) => `(tactic| with_reducible apply Coll.beginInfo_fair)
theorem endInfo_fair (t : TI) : Fair E (endInfo E t) := by unfold endInfo; fair
macro_rules | `(tactic| fstep) => `(tactic| with_reducible apply Coll.endInfo_fair)
theorem query_fair {α : Type} (f : Seg V → α) (t : TI) : Fair E (query E f t) := by unfold query; fair
macro_rules | `(tactic| fstep) => `(tactic| with_reducible apply Coll.query_fair)
theorem reserveAll_fair (n : Nat) : Fair E (reserveAll E n) := by unfold reserveAll; fair
macro_rules | `(tactic| fstep) => `(tactic| with_reducible apply Coll.reserveAll_fair)
theorem reserveInfo_fair (t : TI) (n : Nat) : Fair E (reserveInfo E t n) := by unfold reserveInfo; fair
macro_rules | `(tactic| fstep) => `(tactic| with_reducible apply Coll.reserveInfo_fair)
theorem downcast_fair {α : Type} (t : Ty) {p : Prog (Seg V) α} (h : Fair E p) : Fair E (downcast t p) := by unfold downcast; fair
macro_rules | `(tactic| fstep) => `(tactic| with_reducible apply Coll.downcast_fair)
theorem reserveT_fair (t : TI) (n : Nat) : Fair E (reserveT E t n) := by unfold reserveT; fair
macro_rules | `(tactic| fstep) => `(tactic| with_reducible apply Coll.reserveT_fair)
theorem shrinkAll_fair : Fair E (shrinkAll E) := by unfold shrinkAll; fair
macro_rules | `(tactic| fstep) => `(tactic| with_reducible apply Coll.shrinkAll_fair)
theorem shrinkInfo_fair (t : TI) : Fair E (shrinkInfo E t) := by unfold shrinkInfo; fair
macro_rules | `(tactic| fstep) => `(tactic| with_reducible apply Coll.shrinkInfo_fair)
theorem retIter_fair (it : MapIt) (p : Ptr) : Fair E (retIter E it p) := by unfold retIter; fair
macro_rules | `(tactic| fstep) => `(tactic| with_reducible apply Coll.retIter_fair)
theorem retIterEnd_fair (it e : MapIt) (p : Ptr) : Fair E (retIterEnd E it e p) := by unfold retIterEnd; fair
macro_rules | `(tactic| fstep) => `(tactic| with_reducible apply Coll.retIterEnd_fair)
theorem emplace_fair (t : TI) (src : Src V) : Fair E (emplace E t src) := by unfold emplace; fair
macro_rules | `(tactic| fstep) => `(tactic| with_reducible apply Coll.emplace_fair)
theorem emplaceHint_fair (h : GIter) (t : TI) (src : Src V) : Fair E (emplaceHint E h t src) := by unfold emplaceHint; fair
macro_rules | `(tactic| fstep) => `(tactic| with_reducible apply Coll.emplaceHint_fair)
theorem emplacePosBase_fair (p : LIter) (t : TI) (src : Src V) : Fair E (emplacePosBase E p t src) := by unfold emplacePosBase; fair
macro_rules | `(tactic| fstep) => `(tactic| with_reducible apply Coll.emplacePosBase_fair)
theorem emplacePosLocal_fair (p : LIter) (t : TI) (src : Src V) : Fair E (emplacePosLocal E p t src) := by unfold emplacePosLocal; fair
macro_rules | `(tactic| fstep) => `(tactic| with_reducible apply Coll.emplacePosLocal_fair)
theorem pushBackArg_fair (it : MapIt) (a : Arg V) : Fair E (pushBackArg E it a) := by unfold pushBackArg; fair
macro_rules | `(tactic| fstep) => `(tactic| with_reducible apply Coll.pushBackArg_fair)
theorem insert_fair (a : Arg V) : Fair E (insert E a) := by unfold insert; fair
macro_rules | `(tactic| fstep) => `(tactic| with_reducible apply Coll.insert_fair)
theorem insertHint_fair (h : GIter) (a : Arg V) : Fair E (insertHint E h a) := by unfold insertHint; fair
macro_rules | `(tactic| fstep) => `(tactic| with_reducible apply Coll.insertHint_fair)
theorem insertPosBase_fair (p : LIter) (a : Arg V) : Fair E (insertPosBase E p a) := by unfold insertPosBase; fair
macro_rules | `(tactic| fstep) => `(tactic| with_reducible apply Coll.insertPosBase_fair)
theorem insertPosLocal_fair (p : LIter) (a : Arg V) : Fair E (insertPosLocal E p a) := by unfold insertPosLocal; fair
macro_rules | `(tactic| fstep) => `(tactic| with_reducible apply Coll.insertPosLocal_fair)
theorem insertRange_fair (l : List (Arg V)) : Fair E (insertRange E l) := by
  induction l with
  | nil => exact .pure'
  | cons s l ih => unfold insertRange; fair
macro_rules | `(tactic| fstep) => `(tactic| with_reducible apply Coll.insertRange_fair)
theorem insertRangeTerminal_fair (f : Bool) (t : TI) (srcs : List (Src V)) : Fair E (insertRangeTerminal E f t srcs) := by unfold insertRangeTerminal; fair
macro_rules | `(tactic| fstep) => `(tactic| with_reducible apply Coll.insertRangeTerminal_fair)
theorem insertFrom_fair (l : List (Item V)) : Fair E (insertFrom E l) := by
  induction l with
  | nil => exact .pure'
  | cons s l ih => unfold insertFrom; fair
macro_rules | `(tactic| fstep) => `(tactic| with_reducible apply Coll.insertFrom_fair)
theorem insertFromLocal_fair (t : TI) (s : Seg V) (vs : List V) : Fair E (insertFromLocal E t s vs) := by unfold insertFromLocal; fair
macro_rules | `(tactic| fstep) => `(tactic| with_reducible apply Coll.insertFromLocal_fair)
theorem hintStep_fair (h : GIter) (it : MapIt) (t : Ty) (src : Src V) : Fair E (hintStep E h it t src) := by unfold hintStep; fair
macro_rules | `(tactic| fstep) => `(tactic| with_reducible apply Coll.hintStep_fair)
theorem insertHintRange_fair (h : GIter) (l : List (Arg V)) : Fair E (insertHintRange E h l) := by
  induction l generalizing h with
  | nil => exact .pure'
  | cons s l ih => unfold insertHintRange; fair; all_goals exact ih _
macro_rules | `(tactic| fstep) => `(tactic| with_reducible apply Coll.insertHintRange_fair)
theorem insertHintRangeTerminal_fair (h : GIter) (f : Bool) (t : TI) (srcs : List (Src V)) : Fair E (insertHintRangeTerminal E h f t srcs) := by unfold insertHintRangeTerminal; fair
macro_rules | `(tactic| fstep) => `(tactic| with_reducible apply Coll.insertHintRangeTerminal_fair)
theorem insertHintFrom_fair (h : GIter) (l : List (Item V)) : Fair E (insertHintFrom E h l) := by
  induction l generalizing h with
  | nil => exact .pure'
  | cons s l ih => unfold insertHintFrom; fair; all_goals exact ih _
macro_rules | `(tactic| fstep) => `(tactic| with_reducible apply Coll.insertHintFrom_fair)
theorem hintLoop_fair (h : GIter) (it : MapIt) (t : Ty) (l : List V) : Fair E (hintLoop E h it t l) := by
  induction l generalizing h with
  | nil => exact .pure'
  | cons s l ih => unfold hintLoop; fair; all_goals exact ih _
macro_rules | `(tactic| fstep) => `(tactic| with_reducible apply Coll.hintLoop_fair)
theorem insertHintFromLocal_fair (h : GIter) (t : TI) (s : Seg V) (vs : List V) : Fair E (insertHintFromLocal E h t s vs) := by unfold insertHintFromLocal; fair
macro_rules | `(tactic| fstep) => `(tactic| with_reducible apply Coll.insertHintFromLocal_fair)
theorem posLoopBase_fair (it : MapIt) (p : Ptr) (l : List (Arg V)) : Fair E (posLoopBase E it p l) := by
  induction l generalizing p with
  | nil => exact .pure'
  | cons s l ih => unfold posLoopBase; fair; all_goals exact ih _
macro_rules | `(tactic| fstep) => `(tactic| with_reducible apply Coll.posLoopBase_fair)
theorem insertPosRangeBase_fair (p : LIter) (l : List (Arg V)) : Fair E (insertPosRangeBase E p l) := by unfold insertPosRangeBase; fair
macro_rules | `(tactic| fstep) => `(tactic| with_reducible apply Coll.insertPosRangeBase_fair)
theorem posLoopLocal_fair (it : MapIt) (t : Ty) (p : Ptr) (l : List (Src V)) : Fair E (posLoopLocal E it t p l) := by
  induction l generalizing p with
  | nil => exact .pure'
  | cons s l ih => unfold posLoopLocal; fair; all_goals exact ih _
macro_rules | `(tactic| fstep) => `(tactic| with_reducible apply Coll.posLoopLocal_fair)
theorem insertPosRangeLocal_fair (p : LIter) (t : TI) (l : List (Src V)) : Fair E (insertPosRangeLocal E p t l) := by unfold insertPosRangeLocal; fair
macro_rules | `(tactic| fstep) => `(tactic| with_reducible apply Coll.insertPosRangeLocal_fair)
theorem erase_fair (p : GIter) : Fair E (erase E p) := by unfold erase; fair
macro_rules | `(tactic| fstep) => `(tactic| with_reducible apply Coll.erase_fair)
theorem eraseLocalBase_fair (p : LIter) : Fair E (eraseLocalBase E p) := by unfold eraseLocalBase; fair
macro_rules | `(tactic| fstep) => `(tactic| with_reducible apply Coll.eraseLocalBase_fair)
theorem eraseLocal_fair (p : LIter) : Fair E (eraseLocal E p) := by unfold eraseLocal; fair
macro_rules | `(tactic| fstep) => `(tactic| with_reducible apply Coll.eraseLocal_fair)
theorem eraseSpan_fair (f l e : MapIt) (p : Ptr) (n : Nat) : Fair E (eraseSpan E f l e p n) := by
  induction n generalizing f with
  | zero => exact .undef
  | succ n ih => unfold eraseSpan; fair; all_goals exact ih _
macro_rules | `(tactic| fstep) => `(tactic| with_reducible apply Coll.eraseSpan_fair)
theorem eraseRange_fair (p q : GIter) : Fair E (eraseRange E p q) := by unfold eraseRange; fair
macro_rules | `(tactic| fstep) => `(tactic| with_reducible apply Coll.eraseRange_fair)
theorem eraseLocalRangeBase_fair (p q : LIter) : Fair E (eraseLocalRangeBase E p q) := by unfold eraseLocalRangeBase; fair
macro_rules | `(tactic| fstep) => `(tactic| with_reducible apply Coll.eraseLocalRangeBase_fair)
theorem eraseLocalRange_fair (p q : LIter) : Fair E (eraseLocalRange E p q) := by unfold eraseLocalRange; fair
macro_rules | `(tactic| fstep) => `(tactic| with_reducible apply Coll.eraseLocalRange_fair)
theorem clearAll_fair : Fair E (clearAll : Prog (Coll V) Unit) := by unfold clearAll; fair
macro_rules | `(tactic| fstep) => `(tactic| with_reducible apply Coll.clearAll_fair)
theorem clearInfo_fair (t : TI) : Fair E (clearInfo E t) := by unfold clearInfo; fair
macro_rules | `(tactic| fstep) => `(tactic| with_reducible apply Coll.clearInfo_fair)
theorem eqLoop_fair {X : Type} (y : TMap V) (l : List (Node V)) (s : Nat) : Fair E (eqLoop E y l s : Prog X _) := by
  induction l generalizing s with
  | nil => exact .pure'
  | cons s l ih => unfold eqLoop; fair; all_goals exact ih _
macro_rules | `(tactic| fstep) => `(tactic| with_reducible apply Coll.eqLoop_fair)
theorem equal_fair {X : Type} (x y : Coll V) : Fair E (equal E x y : Prog X Bool) := by unfold equal; fair
macro_rules | `(tactic| fstep) => `(tactic| with_reducible apply Coll.equal_fair)
theorem notEqual_fair {X : Type} (x y : Coll V) : Fair E (notEqual E x y : Prog X Bool) := by unfold notEqual; fair
macro_rules | `(tactic| fstep) => `(tactic| with_reducible apply Coll.notEqual_fair)
theorem copy_fair {X : Type} (x : Coll V) : Fair E (copy E x : Prog X (Coll V)) := by unfold copy; fair
macro_rules | `(tactic| fstep) => `(tactic| with_reducible apply Coll.copy_fair)
theorem copyAl_fair {X : Type} (x : Coll V) (al : Alloc) : Fair E (copyAl E x al : Prog X (Coll V)) := by unfold copyAl; fair
macro_rules | `(tactic| fstep) => `(tactic| with_reducible apply Coll.copyAl_fair)
theorem move_fair : Fair E (move : Prog (Coll V) (Coll V)) := by unfold move; fair
macro_rules | `(tactic| fstep) => `(tactic| with_reducible apply Coll.move_fair)
theorem moveAl_fair (al : Alloc) : Fair E (moveAl E al) := by unfold moveAl; fair
macro_rules | `(tactic| fstep) => `(tactic| with_reducible apply Coll.moveAl_fair)
theorem assign_fair (x : Coll V) : Fair E (assign E x) := by unfold assign; fair
macro_rules | `(tactic| fstep) => `(tactic| with_reducible apply Coll.assign_fair)
theorem moveAssign_fair : Fair E (moveAssign E) := by unfold moveAssign; fair
macro_rules | `(tactic| fstep) => `(tactic| with_reducible apply Coll.moveAssign_fair)
theorem swap_fair : Fair E (swap E) := by unfold swap; fair
macro_rules | `(tactic| fstep) => `(tactic| with_reducible apply Coll.swap_fair)
theorem fromRange_fair {X : Type} (k : Kind) (al : Alloc) (l : List (Arg V)) : Fair E (fromRange E k al l : Prog X (Coll V)) := by unfold fromRange; fair
macro_rules | `(tactic| fstep) => `(tactic| with_reducible apply Coll.fromRange_fair)
theorem fromTerminal_fair {X : Type} (k : Kind) (al : Alloc) (fwd : Bool) (t : TI) (l : List (Src V)) :
    Fair E (fromTerminal E k al fwd t l : Prog X (Coll V)) := by unfold fromTerminal; fair
macro_rules | `(tactic| fstep) => `(tactic| with_reducible apply Coll.fromTerminal_fair)
theorem insertColl_fair (sub : Ty → TI) (s : Coll V) (f l : GIter) : Fair E (insertColl E sub s f l) := by unfold insertColl; fair
macro_rules | `(tactic| fstep) => `(tactic| with_reducible apply Coll.insertColl_fair)
theorem fromColl_fair {X : Type} (sub : Ty → TI) (k : Kind) (al : Alloc) (s : Coll V) (f l : GIter) :
    Fair E (fromColl E sub k al s f l : Prog X (Coll V)) := by unfold fromColl; fair
macro_rules | `(tactic| fstep) => `(tactic| with_reducible apply Coll.fromColl_fair)
theorem insertHintColl_fair (sub : Ty → TI) (h : GIter) (s : Coll V) (f l : GIter) : Fair E (insertHintColl E sub h s f l) := by unfold insertHintColl; fair
macro_rules | `(tactic| fstep) => `(tactic| with_reducible apply Coll.insertHintColl_fair)
theorem insertLocalColl_fair (sub : Ty → TI) (s : Coll V) (f l : LIter) : Fair E (insertLocalColl E sub s f l) := by unfold insertLocalColl; fair
macro_rules | `(tactic| fstep) => `(tactic| with_reducible apply Coll.insertLocalColl_fair)
theorem fromLocalColl_fair {X : Type} (sub : Ty → TI) (k : Kind) (al : Alloc) (s : Coll V) (f l : LIter) :
    Fair E (fromLocalColl E sub k al s f l : Prog X (Coll V)) := by unfold fromLocalColl; fair
macro_rules | `(tactic| fstep) => `(tactic| with_reducible apply Coll.fromLocalColl_fair)
theorem insertHintLocalColl_fair (sub : Ty → TI) (h : GIter) (s : Coll V) (f l : LIter) : Fair E (insertHintLocalColl E sub h s f l) := by unfold insertHintLocalColl; fair
macro_rules | `(tactic| fstep) => `(tactic| with_reducible apply Coll.insertHintLocalColl_fair)
theorem apply_fair (o : Sort') (p : Ptr) (a : Act V) : Fair E (apply E o p a) := by unfold apply; fair
macro_rules | `(tactic| fstep) => `(tactic| with_reducible apply Coll.apply_fair)
theorem rebind_fair (p q : Ptr) : Fair E (rebind E p q) := by unfold rebind; fair
macro_rules | `(tactic| fstep) => `(tactic| with_reducible apply Coll.rebind_fair)

end Coll

theorem COp.run_fair {V : Type} (E : Env V) (op : COp V) : Fair E (op.run E) := by
  cases op <;> unfold COp.run <;> fair
macro_rules | `(tactic| fstep) => `(tactic| with_reducible apply COp.run_fair)

theorem Sys.on_fair {V : Type} (E : Env V) {α : Type} (i : Nat) {p : Prog (Coll V) α} (h : Fair E p) : Fair E (Sys.on i p) := Fair.zoom h
theorem Sys.on2_fair {V : Type} (E : Env V) {α : Type} (i j : Nat) {p : Prog (Coll V × Coll V) α} (h : Fair E p) : Fair E (Sys.on2 i j p) := Fair.zoom h
theorem Sys.construct_fair {V : Type} (E : Env V) (i : Nat) {p : Prog (Sys V) (Coll V)} (h : Fair E p) : Fair E (Sys.construct i p) := by
  unfold Sys.construct; fair
macro_rules | `(tactic| fstep) => `(tactic| with_reducible apply Sys.on_fair)
macro_rules | `(tactic| fstep) => `(tactic| with_reducible apply Sys.on2_fair)
macro_rules | `(tactic| fstep) => `(tactic| with_reducible apply Sys.construct_fair)

theorem Op.run_fair {V : Type} (E : Env V) (k : Kind) (sub : Ty → TI) (op : Op V) : Fair E (op.run E k sub) := by
  cases op <;> unfold Op.run <;> fair

end PolyColl
