import Verif.Lemmas.WholeColl
/-!
# What every operation keeps, whatever its outcome

Specifications in terms of `Runs` need a good state to start from.  Here are weaker statements that
need nearly nothing: whatever the state of the segments, whether the operation returns or throws,
types, allocators and kinds stay as they are.
-/

namespace PolyColl
open Prog

/-- An invariant and a relation between earlier and later states. -/
structure Ctx (X : Type) where
  I : X → World → Prop
  T : X → X → Prop
  refl : ∀ x, T x x
  trans : ∀ x y z, T x y → T y z → T x z
  weaken : ∀ x w w', I x w → w.next ≤ w'.next → I x w'

/-- `p` preserves the invariant and moves along the relation, if it returns or throws. -/
structure Keeps {X α : Type} (C : Ctx X) (p : Prog X α) : Prop where
  run : ∀ x w, C.I x w →
    match p x w with
    | .ok _ x' w' => C.I x' w' ∧ C.T x x' ∧ w.next ≤ w'.next
    | .exc _ x' w' => C.I x' w' ∧ C.T x x' ∧ w.next ≤ w'.next
    | .ub => True

namespace Keeps
variable {X Y α β : Type} {C : Ctx X} {D : Ctx Y}

theorem pure {a : α} : Keeps C (Pure.pure a : Prog X α) := ⟨fun x _ h => ⟨h, C.refl x, Nat.le_refl _⟩⟩
theorem pure' {a : α} : Keeps C (Prog.pure a : Prog X α) := pure
theorem raise {e : Exc} : Keeps C (Prog.raise e : Prog X α) := ⟨fun x _ h => ⟨h, C.refl x, Nat.le_refl _⟩⟩
theorem undef : Keeps C (Prog.undef : Prog X α) := ⟨fun _ _ _ => trivial⟩
theorem get : Keeps C (Prog.get : Prog X X) := ⟨fun x _ h => ⟨h, C.refl x, Nat.le_refl _⟩⟩
theorem world : Keeps C (Prog.world : Prog X World) := ⟨fun x _ h => ⟨h, C.refl x, Nat.le_refl _⟩⟩
theorem ofOption {o : Option α} : Keeps C (Prog.ofOption o : Prog X α) := by
  cases o
  · exact undef
  · exact pure

theorem bind {p : Prog X β} {f : β → Prog X α} (hp : Keeps C p) (hf : ∀ b, Keeps C (f b)) : Keeps C (p >>= f) := by
  refine ⟨fun x w h => ?_⟩
  have h1 := hp.run x w h
  show match Prog.bind p f x w with | .ok _ x' w' => _ | .exc _ x' w' => _ | .ub => _
  unfold Prog.bind
  cases hpx : p x w with
  | ub => trivial
  | exc e x' w' => rw [hpx] at h1; exact h1
  | ok b x' w' =>
    rw [hpx] at h1
    obtain ⟨a1, a2, a3⟩ := h1
    have h2 := (hf b).run x' w' a1
    simp only
    cases hfx : f b x' w' with
    | ub => trivial
    | exc e x'' w'' => rw [hfx] at h2; exact ⟨h2.1, C.trans _ _ _ a2 h2.2.1, by have := h2.2.2; omega⟩
    | ok c x'' w'' => rw [hfx] at h2; exact ⟨h2.1, C.trans _ _ _ a2 h2.2.1, by have := h2.2.2; omega⟩

theorem bind' {p : Prog X β} {f : β → Prog X α} (hp : Keeps C p) (hf : ∀ b, Keeps C (f b)) : Keeps C (Prog.bind p f) := bind hp hf

theorem ite {c : Prop} [Decidable c] {p q : Prog X α} (hp : Keeps C p) (hq : Keeps C q) : Keeps C (if c then p else q) := by
  split <;> assumption

theorem onExc {p : Prog X α} {h : Prog X Unit} (hp : Keeps C p) (hh : Keeps C h) : Keeps C (Prog.onExc p h) := by
  refine ⟨fun x w hi => ?_⟩
  have h1 := hp.run x w hi
  unfold Prog.onExc
  cases hpx : p x w with
  | ub => trivial
  | ok b x' w' => rw [hpx] at h1; exact h1
  | exc e x' w' =>
    rw [hpx] at h1
    obtain ⟨a1, a2, a3⟩ := h1
    have h2 := hh.run x' w' a1
    simp only
    cases hfx : h x' w' with
    | ub => trivial
    | exc e x'' w'' => rw [hfx] at h2; exact ⟨h2.1, C.trans _ _ _ a2 h2.2.1, by have := h2.2.2; omega⟩
    | ok c x'' w'' => rw [hfx] at h2; exact ⟨h2.1, C.trans _ _ _ a2 h2.2.1, by have := h2.2.2; omega⟩

theorem each {f : β → Prog X Unit} (hf : ∀ b, Keeps C (f b)) : ∀ l, Keeps C (Prog.each f l)
  | [] => pure
  | b :: l => bind (hf b) fun _ => each hf l

theorem mapAll {f : β → Prog X α} (hf : ∀ b, Keeps C (f b)) : ∀ l, Keeps C (Prog.mapAll f l)
  | [] => pure
  | b :: l => bind (hf b) fun _ => bind (mapAll hf l) fun _ => pure

theorem zoom {gt : X → Y} {st : X → Y → X} {p : Prog Y α} (D : Ctx Y) (hp : Keeps D p) (hi : ∀ x w, C.I x w → D.I (gt x) w)
    (hs : ∀ x w y w', C.I x w → D.I y w' → D.T (gt x) y → w.next ≤ w'.next → C.I (st x y) w' ∧ C.T x (st x y)) :
    Keeps C (Prog.zoom gt st p) := by
  refine ⟨fun x w h => ?_⟩
  have h1 := hp.run (gt x) w (hi x w h)
  unfold Prog.zoom
  cases hpx : p (gt x) w with
  | ub => trivial
  | ok b x' w' =>
    rw [hpx] at h1
    have := hs x w x' w' h h1.1 h1.2.1 h1.2.2
    exact ⟨this.1, this.2, h1.2.2⟩
  | exc b x' w' =>
    rw [hpx] at h1
    have := hs x w x' w' h h1.1 h1.2.1 h1.2.2
    exact ⟨this.1, this.2, h1.2.2⟩

theorem locally {y : Y} {p : Prog Y β} {f : β → Y → α} (D : Ctx Y) (hp : Keeps D p) (hy : ∀ w, D.I y w) :
    Keeps C (Prog.locally y p f) := by
  refine ⟨fun x w h => ?_⟩
  have h1 := hp.run y w (hy w)
  unfold Prog.locally
  cases hpx : p y w with
  | ub => trivial
  | ok b x' w' => rw [hpx] at h1; exact ⟨C.weaken _ _ _ h h1.2.2, C.refl x, h1.2.2⟩
  | exc b x' w' => rw [hpx] at h1; exact ⟨C.weaken _ _ _ h h1.2.2, C.refl x, h1.2.2⟩

/-- From a specification. -/
theorem of_runs {p : Prog X α} (h : ∀ x w, C.I x w → Runs p x w (fun _ x' w' => C.I x' w' ∧ C.T x x' ∧ w.next ≤ w'.next)
    (fun _ x' w' => C.I x' w' ∧ C.T x x' ∧ w.next ≤ w'.next)) : Keeps C p := by
  refine ⟨fun x w hi => ?_⟩
  have := h x w hi
  unfold Runs at this
  cases hp : p x w <;> rw [hp] at this <;> first | exact this | trivial

end Keeps

/-- No condition at all: only the world matters. -/
def anyCtx (X : Type) : Ctx X :=
  ⟨fun _ _ => True, fun _ _ => True, fun _ => trivial, fun _ _ _ _ _ => trivial, fun _ _ _ _ _ => trivial⟩

/-- Something about the object does not change. -/
def sameCtx {X Y : Type} (f : X → Y) : Ctx X :=
  ⟨fun _ _ => True, fun x x' => f x' = f x, fun _ => rfl, fun _ _ _ h h' => h'.trans h, fun _ _ _ _ _ => trivial⟩

namespace Keeps
variable {X Y α β : Type}

theorem set {x : X} : Keeps (anyCtx X) (Prog.set x) := ⟨fun _ _ _ => ⟨trivial, trivial, Nat.le_refl _⟩⟩

theorem alloc {V : Type} {E : Env V} {C : Ctx X} : Keeps C (E.alloc : Prog X Nat) := by
  refine of_runs fun x w h => ?_
  rw [E.runs_alloc]
  exact ⟨fun _ => ⟨C.weaken _ _ _ h (Nat.le_refl _), C.refl x, Nat.le_refl _⟩, fun _ => ⟨C.weaken _ _ _ h (Nat.le_succ _), C.refl x, Nat.le_succ _⟩⟩

theorem userOp {V : Type} {E : Env V} {C : Ctx X} {b : Bool} : Keeps C (E.userOp b : Prog X Unit) := by
  refine of_runs fun x w h => ?_
  rw [E.runs_userOp]
  have : C.I x ⟨w.next, w.tick + 1⟩ ∧ C.T x x ∧ w.next ≤ w.next := ⟨C.weaken _ _ _ h (Nat.le_refl _), C.refl x, Nat.le_refl _⟩
  exact ⟨fun _ => ⟨h, C.refl x, Nat.le_refl _⟩, fun _ => ⟨fun _ => this, fun _ => this⟩⟩

/-- Zoom on a part that does not matter. -/
theorem zoom_any {gt : X → Y} {st : X → Y → X} {p : Prog Y α} {Z : Type} {f : X → Z} (hp : Keeps (anyCtx Y) p)
    (hs : ∀ x y, f (st x y) = f x) : Keeps (sameCtx f) (Prog.zoom gt st p) :=
  zoom (anyCtx Y) hp (fun _ _ _ => trivial) (fun x _ y _ _ _ _ _ => ⟨trivial, hs x y⟩)

theorem locally_any {C : Ctx X} {y : Y} {p : Prog Y β} {f : β → Y → α} (hp : Keeps (anyCtx Y) p) :
    Keeps C (Prog.locally y p f) := locally (anyCtx Y) hp (fun _ => trivial)

theorem any {Z : Type} {f : X → Z} {p : Prog X α} (h : Keeps (sameCtx f) p) : Keeps (anyCtx X) p := by
  refine ⟨fun x w _ => ?_⟩
  have := h.run x w trivial
  cases hp : p x w <;> rw [hp] at this <;> first | exact ⟨trivial, trivial, this.2.2⟩ | trivial

end Keeps

/-- One step of `keeps`. -/
syntax "kstep" : tactic
macro_rules | `(tactic| kstep) => `(tactic| with_reducible exact Keeps.pure)
macro_rules | `(tactic| kstep) => `(tactic| with_reducible exact Keeps.pure')
macro_rules | `(tactic| kstep) => `(tactic| with_reducible exact Keeps.raise)
macro_rules | `(tactic| kstep) => `(tactic| with_reducible exact Keeps.undef)
macro_rules | `(tactic| kstep) => `(tactic| with_reducible exact Keeps.get)
macro_rules | `(tactic| kstep) => `(tactic| with_reducible exact Keeps.world)
macro_rules | `(tactic| kstep) => `(tactic| with_reducible exact Keeps.ofOption)
macro_rules | `(tactic| kstep) => `(tactic| with_reducible exact Keeps.alloc)
macro_rules | `(tactic| kstep) => `(tactic| with_reducible exact Keeps.userOp)
macro_rules | `(tactic| kstep) => `(tactic| with_reducible exact Keeps.set)
macro_rules | `(tactic| kstep) => `(tactic| with_reducible apply Keeps.bind)
macro_rules | `(tactic| kstep) => `(tactic| with_reducible apply Keeps.bind')
macro_rules | `(tactic| kstep) => `(tactic| with_reducible apply Keeps.ite)
macro_rules | `(tactic| kstep) => `(tactic| with_reducible apply Keeps.onExc)
macro_rules | `(tactic| kstep) => `(tactic| with_reducible apply Keeps.each)
macro_rules | `(tactic| kstep) => `(tactic| with_reducible apply Keeps.mapAll)
macro_rules | `(tactic| kstep) => `(tactic| with_reducible apply Keeps.locally_any)

/-- Prove `Keeps` by following the structure of the program. -/
macro "keeps" : tactic => `(tactic| repeat' (first | with_reducible assumption | kstep | intro _ | split))

/-! ### Vectors -/

namespace Env
variable {V : Type} (E : Env V)

theorem copyVH_keeps {X : Type} {C : Ctx X} (t : Ty) : Keeps C (E.copyVH t : Prog X Unit) := by unfold copyVH; keeps
macro_rules | `(tactic| kstep) => `(tactic| with_reducible exact Env.copyVH_keeps _ _)
theorem moveVH_keeps {X : Type} {C : Ctx X} (t : Ty) : Keeps C (E.moveVH t : Prog X Unit) := by unfold moveVH; keeps
macro_rules | `(tactic| kstep) => `(tactic| with_reducible exact Env.moveVH_keeps _ _)
theorem relocate_keeps {X : Type} {C : Ctx X} (t : Ty) (l : List V) : Keeps C (E.relocate t l : Prog X Unit) := by unfold relocate; keeps
macro_rules | `(tactic| kstep) => `(tactic| with_reducible exact Env.relocate_keeps _ _ _)
theorem construct_keeps {C : Ctx (Vec V)} (t : Ty) (src : Src V) : Keeps C (E.construct t src) := by unfold construct; keeps
macro_rules | `(tactic| kstep) => `(tactic| with_reducible exact Env.construct_keeps _ _ _)
theorem spoil_keeps (lo hi : Nat) : Keeps (anyCtx _) (E.spoil lo hi) := ⟨fun _ _ _ => ⟨trivial, trivial, Nat.le_refl _⟩⟩
macro_rules | `(tactic| kstep) => `(tactic| with_reducible exact Env.spoil_keeps _ _ _)
theorem shift_keeps (b : Bool) (lo hi : Nat) : Keeps (anyCtx _) (E.shift b lo hi) := by unfold shift; keeps
macro_rules | `(tactic| kstep) => `(tactic| with_reducible exact Env.shift_keeps _ _ _ _)
theorem reserve_keeps (t : Ty) (n : Nat) : Keeps (anyCtx _) (E.reserve t n) := by unfold reserve; keeps
macro_rules | `(tactic| kstep) => `(tactic| with_reducible exact Env.reserve_keeps _ _ _)
theorem emplaceBack_keeps (t : Ty) (src : Src V) : Keeps (anyCtx _) (E.emplaceBack t src) := by unfold emplaceBack; keeps
macro_rules | `(tactic| kstep) => `(tactic| with_reducible exact Env.emplaceBack_keeps _ _ _)
theorem emplaceAt_keeps (t : Ty) (n : Nat) (src : Src V) : Keeps (anyCtx _) (E.emplaceAt t n src) := by unfold emplaceAt; keeps
macro_rules | `(tactic| kstep) => `(tactic| with_reducible exact Env.emplaceAt_keeps _ _ _ _)
theorem insertRange_keeps (t : Ty) (n : Nat) (srcs : List (Src V)) : Keeps (anyCtx _) (E.insertRange t n srcs) := by unfold insertRange; keeps
macro_rules | `(tactic| kstep) => `(tactic| with_reducible exact Env.insertRange_keeps _ _ _ _)
theorem insertInput_keeps (t : Ty) (n : Nat) (srcs : List (Src V)) : Keeps (anyCtx _) (E.insertInput t n srcs) := by unfold insertInput; keeps
macro_rules | `(tactic| kstep) => `(tactic| with_reducible exact Env.insertInput_keeps _ _ _ _)
theorem eraseRange_keeps (t : Ty) (a b : Nat) : Keeps (anyCtx _) (E.eraseRange t a b) := by unfold eraseRange; keeps
macro_rules | `(tactic| kstep) => `(tactic| with_reducible exact Env.eraseRange_keeps _ _ _ _)
theorem eraseAt_keeps (t : Ty) (n : Nat) : Keeps (anyCtx _) (E.eraseAt t n) := by unfold eraseAt; keeps
macro_rules | `(tactic| kstep) => `(tactic| with_reducible exact Env.eraseAt_keeps _ _ _)
theorem clearVec_keeps : Keeps (anyCtx _) (Env.clearVec : Prog (Vec V) Unit) := by unfold clearVec; keeps
macro_rules | `(tactic| kstep) => `(tactic| with_reducible exact Env.clearVec_keeps)
theorem shrinkToFit_keeps (t : Ty) : Keeps (anyCtx _) (E.shrinkToFit t) := by unfold shrinkToFit; keeps
macro_rules | `(tactic| kstep) => `(tactic| with_reducible exact Env.shrinkToFit_keeps _ _)
theorem idxReserve_keeps (n : Nat) : Keeps (anyCtx _) (E.idxReserve n) := by unfold idxReserve; keeps
macro_rules | `(tactic| kstep) => `(tactic| with_reducible exact Env.idxReserve_keeps _ _)
theorem idxPushBack_keeps (p : Ptr) : Keeps (anyCtx _) (E.idxPushBack p) := by unfold idxPushBack; keeps
macro_rules | `(tactic| kstep) => `(tactic| with_reducible exact Env.idxPushBack_keeps _ _)
end Env

theorem idxPopBack_keeps : Keeps (anyCtx _) idxPopBack := by unfold idxPopBack; keeps
macro_rules | `(tactic| kstep) => `(tactic| with_reducible exact idxPopBack_keeps)
theorem idxClear_keeps : Keeps (anyCtx _) idxClear := by unfold idxClear; keeps
macro_rules | `(tactic| kstep) => `(tactic| with_reducible exact idxClear_keeps)

/-! ### Packed segments -/

namespace Packed
variable {V : Type} (E : Env V)

/-- What stays the same in a packed segment. -/
def fix (x : Packed V) : Ty × Alloc × Alloc := (x.ty, x.al, x.objAl)

theorem onS_keeps {α : Type} {p : Prog (Vec V) α} (h : Keeps (anyCtx _) p) : Keeps (sameCtx fix) (onS p) := by
  unfold onS; exact Keeps.zoom_any h (fun _ _ => rfl)
macro_rules | `(tactic| kstep) => `(tactic| with_reducible apply Packed.onS_keeps)
theorem retRange_keeps (n : Nat) : Keeps (sameCtx fix) (retRange n : Prog (Packed V) _) := by unfold retRange; keeps
macro_rules | `(tactic| kstep) => `(tactic| with_reducible exact Packed.retRange_keeps _)
theorem retSentinel_keeps : Keeps (sameCtx fix) (retSentinel : Prog (Packed V) _) := by unfold retSentinel; keeps
macro_rules | `(tactic| kstep) => `(tactic| with_reducible exact Packed.retSentinel_keeps)
theorem reserve_keeps (n : Nat) : Keeps (sameCtx fix) (reserve E n) := by unfold reserve; keeps
theorem shrinkToFit_keeps : Keeps (sameCtx fix) (shrinkToFit E) := by unfold shrinkToFit; keeps
theorem emplaceAt_keeps (p : Ptr) (src : Src V) : Keeps (sameCtx fix) (emplaceAt E p src) := by unfold emplaceAt; keeps
theorem pushBack_keeps (src : Src V) : Keeps (sameCtx fix) (pushBack E src) := by unfold pushBack; keeps
theorem insertRange_keeps (fwd : Bool) (p : Ptr) (srcs : List (Src V)) : Keeps (sameCtx fix) (insertRange E fwd p srcs) := by unfold insertRange; keeps
macro_rules | `(tactic| kstep) => `(tactic| with_reducible exact Packed.insertRange_keeps _ _ _ _)
theorem insertRangeEnd_keeps (fwd : Bool) (srcs : List (Src V)) : Keeps (sameCtx fix) (insertRangeEnd E fwd srcs) := by unfold insertRangeEnd; keeps
theorem erase_keeps (p : Ptr) : Keeps (sameCtx fix) (erase E p) := by unfold erase; keeps
theorem eraseRange_keeps (p q : Ptr) : Keeps (sameCtx fix) (eraseRange E p q) := by unfold eraseRange; keeps
theorem eraseTillEnd_keeps (p : Ptr) : Keeps (sameCtx fix) (eraseTillEnd E p) := by unfold eraseTillEnd; keeps
theorem eraseFromBegin_keeps (p : Ptr) : Keeps (sameCtx fix) (eraseFromBegin E p) := by unfold eraseFromBegin; keeps
theorem clear_keeps : Keeps (sameCtx fix) (clear : Prog (Packed V) _) := by unfold clear; keeps

end Packed

/-! ### Split segments -/

namespace Split
variable {V : Type} (E : Env V)

/-- What stays the same in a split segment. -/
def fix (x : Split V) : Ty × Alloc × Alloc := (x.ty, x.al, x.objAl)

theorem onS_keeps {α : Type} {p : Prog (Vec V) α} (h : Keeps (anyCtx _) p) : Keeps (sameCtx fix) (onS p) := by
  unfold onS; exact Keeps.zoom_any h (fun _ _ => rfl)
macro_rules | `(tactic| kstep) => `(tactic| with_reducible apply Split.onS_keeps)
theorem onI_keeps {α : Type} {p : Prog (Vec Ptr) α} (h : Keeps (anyCtx _) p) : Keeps (sameCtx fix) (onI p : Prog (Split V) α) := by
  unfold onI; exact Keeps.zoom_any h (fun _ _ => rfl)
macro_rules | `(tactic| kstep) => `(tactic| with_reducible apply Split.onI_keeps)
theorem retRange_keeps (n : Nat) : Keeps (sameCtx fix) (retRange n : Prog (Split V) _) := by unfold retRange; keeps
macro_rules | `(tactic| kstep) => `(tactic| with_reducible exact Split.retRange_keeps _)
theorem retSentinel_keeps : Keeps (sameCtx fix) (retSentinel : Prog (Split V) _) := by unfold retSentinel; keeps
macro_rules | `(tactic| kstep) => `(tactic| with_reducible exact Split.retSentinel_keeps)
theorem pushIndex_keeps (n : Nat) : Keeps (sameCtx fix) (pushIndex E n) := by unfold pushIndex; keeps
macro_rules | `(tactic| kstep) => `(tactic| with_reducible exact Split.pushIndex_keeps _ _)
theorem buildIndex_keeps (n : Nat) : Keeps (sameCtx fix) (buildIndex E n) := by unfold buildIndex; keeps
macro_rules | `(tactic| kstep) => `(tactic| with_reducible exact Split.buildIndex_keeps _ _)
theorem rebuildIndex_keeps : Keeps (sameCtx fix) (rebuildIndex E) := by unfold rebuildIndex; keeps
macro_rules | `(tactic| kstep) => `(tactic| with_reducible exact Split.rebuildIndex_keeps _)
theorem pushIndexEntry_keeps : Keeps (sameCtx fix) (pushIndexEntry E) := by unfold pushIndexEntry; keeps
macro_rules | `(tactic| kstep) => `(tactic| with_reducible exact Split.pushIndexEntry_keeps _)
theorem popIndexEntry_keeps (n : Nat) : Keeps (sameCtx fix) (popIndexEntry n : Prog (Split V) _) := by
  induction n with
  | zero => exact Keeps.pure
  | succ n ih => unfold popIndexEntry; keeps
macro_rules | `(tactic| kstep) => `(tactic| with_reducible exact Split.popIndexEntry_keeps _)
theorem expand_keeps : Keeps (sameCtx fix) (expand E) := by unfold expand; keeps
macro_rules | `(tactic| kstep) => `(tactic| with_reducible exact Split.expand_keeps _)
theorem expandBy_keeps (m : Nat) : Keeps (sameCtx fix) (expandBy E m) := by unfold expandBy; keeps
macro_rules | `(tactic| kstep) => `(tactic| with_reducible exact Split.expandBy_keeps _ _)
theorem prereserve_keeps : Keeps (sameCtx fix) (prereserve E) := by unfold prereserve; keeps
macro_rules | `(tactic| kstep) => `(tactic| with_reducible exact Split.prereserve_keeps _)
theorem prereserveAt_keeps (p : PosArg) : Keeps (sameCtx fix) (prereserveAt E p) := by unfold prereserveAt; keeps
macro_rules | `(tactic| kstep) => `(tactic| with_reducible exact Split.prereserveAt_keeps _ _)
theorem prereserveBy_keeps (p : Ptr) (m : Nat) : Keeps (sameCtx fix) (prereserveBy E p m) := by unfold prereserveBy; keeps
macro_rules | `(tactic| kstep) => `(tactic| with_reducible exact Split.prereserveBy_keeps _ _ _)
theorem reserve_keeps (n : Nat) : Keeps (sameCtx fix) (reserve E n) := by unfold reserve; keeps

/-- `set` to something with the same type and allocators as the state read before. -/
theorem shrinkBody_keeps : Keeps (sameCtx fix) (shrinkBody E) := by
  have a1 : Keeps (sameCtx fix) (do let x ← Prog.get; let b ← E.alloc; Prog.set { x with s := ⟨b, E.lib.reserveCap 1, []⟩ } : Prog (Split V) Unit) := by
    refine Keeps.of_runs fun x w _ => ?_
    simp only [runs_bind, runs_get, E.runs_alloc, runs_set]
    exact ⟨fun _ => ⟨trivial, rfl, Nat.le_refl _⟩, fun _ => ⟨trivial, rfl, Nat.le_succ _⟩⟩
  have a2 : Keeps (sameCtx fix) (do let y ← Prog.get; let b ← E.alloc; Prog.set { y with i := ⟨b, E.lib.reserveCap (y.s.cap + 1), []⟩ } : Prog (Split V) Unit) := by
    refine Keeps.of_runs fun x w _ => ?_
    simp only [runs_bind, runs_get, E.runs_alloc, runs_set]
    exact ⟨fun _ => ⟨trivial, rfl, Nat.le_refl _⟩, fun _ => ⟨trivial, rfl, Nat.le_succ _⟩⟩
  have e : shrinkBody E = (do
      let x ← Prog.get
      (if x.s.elems ≠ [] then onS (E.shrinkToFit x.ty)
       else (do let x ← Prog.get; let b ← E.alloc; Prog.set { x with s := ⟨b, E.lib.reserveCap 1, []⟩ } : Prog (Split V) Unit))
      let y ← Prog.get
      if x.s.blk ≠ y.s.blk then
        if E.idxMaxSize < y.s.cap + 1 then Prog.raise .lengthError
        else
          (do let y ← Prog.get; let b ← E.alloc; Prog.set { y with i := ⟨b, E.lib.reserveCap (y.s.cap + 1), []⟩ } : Prog (Split V) Unit)
          buildIndex E 0
      else return ()) := by
    funext x w
    unfold shrinkBody
    simp only [bind, Prog.bind, Prog.get]
    by_cases h : x.s.elems ≠ []
    · simp only [if_pos h, Prog.bind, Prog.get]
      cases hp : onS (E.shrinkToFit x.ty) x w with
      | ub => rfl
      | exc => rfl
      | ok a y w' =>
        simp only
        by_cases h' : x.s.blk ≠ y.s.blk
        · simp only [if_pos h']
          split
          · rfl
          · simp only [Prog.bind]
            cases h1 : E.alloc y w' with
            | ub => simp only [Prog.get, h1]
            | exc => simp only [Prog.get, h1]
            | ok b y' w'' => simp only [Prog.get, Prog.set, h1]
        · simp only [if_neg h']
    · simp only [if_neg h, Prog.bind, Prog.get]
      cases hp : E.alloc x w with
      | ub => rfl
      | exc => rfl
      | ok a y w' =>
        simp only [Prog.set]
        split
        · split
          · rfl
          · simp only [Prog.bind]
            simp only [Prog.get, Prog.set]
            cases E.alloc _ w' <;> rfl
        · rfl
  rw [e]
  keeps
macro_rules | `(tactic| kstep) => `(tactic| with_reducible exact Split.shrinkBody_keeps _)
theorem shrinkToFit_keeps : Keeps (sameCtx fix) (shrinkToFit E) := by unfold shrinkToFit; keeps
theorem emplaceAt_keeps (p : PosArg) (src : Src V) : Keeps (sameCtx fix) (emplaceAt E p src) := by unfold emplaceAt; keeps
macro_rules | `(tactic| kstep) => `(tactic| with_reducible exact Split.emplaceAt_keeps _ _ _)
theorem pushBack_keeps (src : Src V) : Keeps (sameCtx fix) (pushBack E src) := by unfold pushBack; keeps
theorem insertLoop_keeps (srcs : List (Src V)) : ∀ p, Keeps (sameCtx fix) (insertLoop E p srcs) := by
  induction srcs with
  | nil => intro p; exact Keeps.pure
  | cons src srcs ih =>
    intro p; unfold insertLoop
    repeat' (first | kstep | exact ih _ | intro _ | split)
macro_rules | `(tactic| kstep) => `(tactic| with_reducible exact Split.insertLoop_keeps _ _ _)
theorem insertInput_keeps (p : Ptr) (srcs : List (Src V)) : Keeps (sameCtx fix) (insertInput E p srcs) := by unfold insertInput; keeps
macro_rules | `(tactic| kstep) => `(tactic| with_reducible exact Split.insertInput_keeps _ _ _)
theorem insertForward_keeps (p : Ptr) (srcs : List (Src V)) : Keeps (sameCtx fix) (insertForward E p srcs) := by unfold insertForward; keeps
macro_rules | `(tactic| kstep) => `(tactic| with_reducible exact Split.insertForward_keeps _ _ _)
theorem erase_keeps (p : Ptr) : Keeps (sameCtx fix) (erase E p) := by unfold erase; keeps
macro_rules | `(tactic| kstep) => `(tactic| with_reducible exact Split.erase_keeps _ _)
theorem eraseRange_keeps (p q : Ptr) : Keeps (sameCtx fix) (eraseRange E p q) := by unfold eraseRange; keeps
macro_rules | `(tactic| kstep) => `(tactic| with_reducible exact Split.eraseRange_keeps _ _ _)
theorem eraseTillEnd_keeps (p : Ptr) : Keeps (sameCtx fix) (eraseTillEnd E p) := by unfold eraseTillEnd; keeps
theorem eraseFromBegin_keeps (p : Ptr) : Keeps (sameCtx fix) (eraseFromBegin E p) := by unfold eraseFromBegin; keeps
theorem clear_keeps : Keeps (sameCtx fix) (clear : Prog (Split V) _) := by unfold clear; keeps

end Split

/-! ### Segments -/

namespace Seg
variable {V : Type} (E : Env V)

/-- What stays the same in a segment. -/
def fix (x : Seg V) : Kind × Ty × Alloc × Alloc := (x.kind, x.ty, x.al, x.objAl)

theorem fix_frame {x y : Seg V} : y.fix = x.fix ↔ TMap.SegFrame x y := by
  unfold fix
  constructor
  · intro h
    simp only [Prod.mk.injEq] at h
    exact ⟨h.2.1, h.2.2.1, h.2.2.2, h.1⟩
  · intro h
    rw [h.kind, h.ty, h.al, h.objAl]

/-- Same for backends. -/
def bfix (b : Backend V) : Kind × Ty × Alloc × Alloc :=
  (b.kind, b.ty, b.al, match b with | .packed y => y.objAl | .split y => y.objAl)

theorem fix_be (x : Seg V) : x.fix = bfix x.be := by
  obtain ⟨be, snt⟩ := x
  cases be <;> rfl

theorem run_keeps {α : Type} {f : Prog (Packed V) α} {g : Prog (Split V) α} (hf : Keeps (sameCtx Packed.fix) f) (hg : Keeps (sameCtx Split.fix) g) :
    Keeps (sameCtx bfix) (Backend.run f g) := by
  refine ⟨fun b w _ => ?_⟩
  cases b with
  | packed x =>
    have := hf.run x w trivial
    simp only [Backend.run]
    cases hp : f x w with
    | ub => trivial
    | ok a y w' =>
      rw [hp] at this
      obtain ⟨-, h1, h2⟩ := this
      simp only [sameCtx, Packed.fix, Prod.mk.injEq] at h1
      refine ⟨trivial, ?_, h2⟩
      simp [sameCtx, bfix, Backend.kind, Backend.ty, Backend.al, h1]
    | exc a y w' =>
      rw [hp] at this
      obtain ⟨-, h1, h2⟩ := this
      simp only [sameCtx, Packed.fix, Prod.mk.injEq] at h1
      refine ⟨trivial, ?_, h2⟩
      simp [sameCtx, bfix, Backend.kind, Backend.ty, Backend.al, h1]
  | split x =>
    have := hg.run x w trivial
    simp only [Backend.run]
    cases hp : g x w with
    | ub => trivial
    | ok a y w' =>
      rw [hp] at this
      obtain ⟨-, h1, h2⟩ := this
      simp only [sameCtx, Split.fix, Prod.mk.injEq] at h1
      refine ⟨trivial, ?_, h2⟩
      simp [sameCtx, bfix, Backend.kind, Backend.ty, Backend.al, h1]
    | exc a y w' =>
      rw [hp] at this
      obtain ⟨-, h1, h2⟩ := this
      simp only [sameCtx, Split.fix, Prod.mk.injEq] at h1
      refine ⟨trivial, ?_, h2⟩
      simp [sameCtx, bfix, Backend.kind, Backend.ty, Backend.al, h1]

theorem filterRange_keeps {p : Prog (Backend V) (Ptr × Ptr)} (h : Keeps (sameCtx bfix) p) : Keeps (sameCtx fix) (filterRange p) := by
  refine ⟨fun x w _ => ?_⟩
  have := h.run x.be w trivial
  simp only [filterRange]
  cases hp : p x.be w <;> rw [hp] at this
  · obtain ⟨-, h1, h2⟩ := this
    exact ⟨trivial, by simp only [sameCtx] at h1 ⊢; rw [fix_be, fix_be]; exact h1, h2⟩
  · obtain ⟨-, h1, h2⟩ := this
    exact ⟨trivial, by simp only [sameCtx] at h1 ⊢; rw [fix_be, fix_be]; exact h1, h2⟩
  · trivial

theorem filterSentinel_keeps {p : Prog (Backend V) Ptr} (h : Keeps (sameCtx bfix) p) : Keeps (sameCtx fix) (filterSentinel p) := by
  refine ⟨fun x w _ => ?_⟩
  have := h.run x.be w trivial
  simp only [filterSentinel]
  cases hp : p x.be w <;> rw [hp] at this
  · obtain ⟨-, h1, h2⟩ := this
    exact ⟨trivial, by simp only [sameCtx] at h1 ⊢; rw [fix_be, fix_be]; exact h1, h2⟩
  · obtain ⟨-, h1, h2⟩ := this
    exact ⟨trivial, by simp only [sameCtx] at h1 ⊢; rw [fix_be, fix_be]; exact h1, h2⟩
  · trivial

theorem reserve_keeps (n : Nat) : Keeps (sameCtx fix) (reserve E n) :=
  filterSentinel_keeps (run_keeps (Packed.reserve_keeps E n) (Split.reserve_keeps E n))
theorem shrinkToFit_keeps : Keeps (sameCtx fix) (shrinkToFit E) :=
  filterSentinel_keeps (run_keeps (Packed.shrinkToFit_keeps E) (Split.shrinkToFit_keeps E))
theorem emplace_keeps (p : PosArg) (src : Src V) : Keeps (sameCtx fix) (emplace E p src) :=
  filterRange_keeps (run_keeps (Packed.emplaceAt_keeps E _ _) (Split.emplaceAt_keeps E _ _))
theorem pushBack_keeps (src : Src V) : Keeps (sameCtx fix) (pushBack E src) :=
  filterRange_keeps (run_keeps (Packed.pushBack_keeps E _) (Split.pushBack_keeps E _))
theorem insertBase_keeps (p : Ptr) (src : Src V) : Keeps (sameCtx fix) (insertBase E p src) :=
  filterRange_keeps (run_keeps (Packed.emplaceAt_keeps E _ _) (by keeps))
theorem insertLocal_keeps (p : Ptr) (src : Src V) : Keeps (sameCtx fix) (insertLocal E p src) :=
  filterRange_keeps (run_keeps (Packed.emplaceAt_keeps E _ _) (Split.emplaceAt_keeps E _ _))
theorem insertRangeLocal_keeps (fwd : Bool) (p : Ptr) (srcs : List (Src V)) : Keeps (sameCtx fix) (insertRangeLocal E fwd p srcs) :=
  filterRange_keeps (run_keeps (Packed.insertRange_keeps E _ _ _) (by keeps))
theorem insertRangeEnd_keeps (fwd : Bool) (srcs : List (Src V)) : Keeps (sameCtx fix) (insertRangeEnd E fwd srcs) :=
  filterRange_keeps (run_keeps (Packed.insertRangeEnd_keeps E _ _) (by keeps))
theorem insertRangeBase_keeps (fwd : Bool) (p : Ptr) (srcs : List (Src V)) : Keeps (sameCtx fix) (insertRangeBase E fwd p srcs) := by
  unfold insertRangeBase
  repeat' (first | kstep | exact insertRangeLocal_keeps _ _ _ _ | intro _)
theorem eraseBase_keeps (p : Ptr) : Keeps (sameCtx fix) (eraseBase E p) :=
  filterRange_keeps (run_keeps (Packed.erase_keeps E _) (by keeps))
theorem eraseLocal_keeps (p : Ptr) : Keeps (sameCtx fix) (eraseLocal E p) :=
  filterRange_keeps (run_keeps (Packed.erase_keeps E _) (Split.erase_keeps E _))
theorem eraseRangeBase_keeps (p q : Ptr) : Keeps (sameCtx fix) (eraseRangeBase E p q) :=
  filterRange_keeps (run_keeps (Packed.eraseRange_keeps E _ _) (by keeps))
theorem eraseRangeLocal_keeps (p q : Ptr) : Keeps (sameCtx fix) (eraseRangeLocal E p q) :=
  filterRange_keeps (run_keeps (Packed.eraseRange_keeps E _ _) (Split.eraseRange_keeps E _ _))
theorem eraseTillEnd_keeps (p : Ptr) : Keeps (sameCtx fix) (eraseTillEnd E p) :=
  filterRange_keeps (run_keeps (Packed.eraseTillEnd_keeps E _) (Split.eraseTillEnd_keeps E _))
theorem eraseFromBegin_keeps (p : Ptr) : Keeps (sameCtx fix) (eraseFromBegin E p) :=
  filterRange_keeps (run_keeps (Packed.eraseFromBegin_keeps E _) (Split.eraseFromBegin_keeps E _))
theorem clear_keeps : Keeps (sameCtx fix) (clear : Prog (Seg V) _) :=
  filterSentinel_keeps (run_keeps Packed.clear_keeps Split.clear_keeps)

end Seg
macro_rules | `(tactic| kstep) => `(tactic| with_reducible exact Seg.reserve_keeps _ _)
macro_rules | `(tactic| kstep) => `(tactic| with_reducible exact Seg.shrinkToFit_keeps _)
macro_rules | `(tactic| kstep) => `(tactic| with_reducible exact Seg.emplace_keeps _ _ _)
macro_rules | `(tactic| kstep) => `(tactic| with_reducible exact Seg.pushBack_keeps _ _)
macro_rules | `(tactic| kstep) => `(tactic| with_reducible exact Seg.insertBase_keeps _ _ _)
macro_rules | `(tactic| kstep) => `(tactic| with_reducible exact Seg.insertLocal_keeps _ _ _)
macro_rules | `(tactic| kstep) => `(tactic| with_reducible exact Seg.insertRangeLocal_keeps _ _ _ _)
macro_rules | `(tactic| kstep) => `(tactic| with_reducible exact Seg.insertRangeEnd_keeps _ _ _)
macro_rules | `(tactic| kstep) => `(tactic| with_reducible exact Seg.insertRangeBase_keeps _ _ _ _)
macro_rules | `(tactic| kstep) => `(tactic| with_reducible exact Seg.eraseBase_keeps _ _)
macro_rules | `(tactic| kstep) => `(tactic| with_reducible exact Seg.eraseLocal_keeps _ _)
macro_rules | `(tactic| kstep) => `(tactic| with_reducible exact Seg.eraseRangeBase_keeps _ _ _)
macro_rules | `(tactic| kstep) => `(tactic| with_reducible exact Seg.eraseRangeLocal_keeps _ _ _)
macro_rules | `(tactic| kstep) => `(tactic| with_reducible exact Seg.eraseTillEnd_keeps _ _)
macro_rules | `(tactic| kstep) => `(tactic| with_reducible exact Seg.eraseFromBegin_keeps _ _)
macro_rules | `(tactic| kstep) => `(tactic| with_reducible exact Seg.clear_keeps)

end PolyColl
