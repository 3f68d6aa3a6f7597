import Verif.Lemmas.Keeps
/-! # Outcomes other than undefined behaviour -/

namespace PolyColl
open Prog

namespace Prog
variable {X Y α β : Type} {x : X} {w : World}
variable {Q : α → X → World → Prop} {R : Exc → X → World → Prop}

/-- Like `Runs`, saying nothing of undefined behaviour. -/
def Leaves (p : Prog X α) (x : X) (w : World) (Q : α → X → World → Prop) (R : Exc → X → World → Prop) : Prop :=
  match p x w with
  | .ok a x' w' => Q a x' w'
  | .exc e x' w' => R e x' w'
  | .ub => True

theorem Leaves.mono {p : Prog X α} {Q' : α → X → World → Prop} {R' : Exc → X → World → Prop}
    (h : Leaves p x w Q R) (hq : ∀ a x' w', Q a x' w' → Q' a x' w')
    (hr : ∀ e x' w', R e x' w' → R' e x' w') : Leaves p x w Q' R' := by
  unfold Leaves at *
  split <;> simp_all

theorem Runs.leaves {p : Prog X α} (h : Runs p x w Q R) : Leaves p x w Q R := by
  unfold Runs at h; unfold Leaves
  split <;> simp_all

theorem leaves_bind {p : Prog X β} {f : β → Prog X α} :
    Leaves (p >>= f) x w Q R ↔ Leaves p x w (fun b x' w' => Leaves (f b) x' w' Q R) R := by
  show Leaves (Prog.bind p f) x w Q R ↔ _
  unfold Leaves Prog.bind
  cases p x w <;> simp

theorem leaves_pure {a : α} : Leaves (pure a : Prog X α) x w Q R ↔ Q a x w := Iff.rfl
theorem leaves_get {Q : X → X → World → Prop} : Leaves get x w Q R ↔ Q x x w := Iff.rfl
theorem leaves_world {Q : World → X → World → Prop} : Leaves world x w Q R ↔ Q w x w := Iff.rfl
theorem leaves_set {y : X} {Q : Unit → X → World → Prop} : Leaves (set y) x w Q R ↔ Q () y w := Iff.rfl
theorem leaves_undef : Leaves (undef : Prog X α) x w Q R ↔ True := Iff.rfl
theorem leaves_ite {c : Prop} [Decidable c] {p q : Prog X α} :
    Leaves (if c then p else q) x w Q R ↔ (c → Leaves p x w Q R) ∧ (¬c → Leaves q x w Q R) := by
  split <;> simp_all

theorem leaves_zoom {gt : X → Y} {st : X → Y → X} {p : Prog Y α} :
    Leaves (zoom gt st p) x w Q R ↔
      Leaves p (gt x) w (fun a y w' => Q a (st x y) w') (fun e y w' => R e (st x y) w') := by
  unfold Leaves zoom
  cases p (gt x) w <;> simp

theorem leaves_onExc {p : Prog X α} {h : Prog X Unit} :
    Leaves (onExc p h) x w Q R ↔
      Leaves p x w Q (fun e x' w' => Leaves h x' w' (fun _ x'' w'' => R e x'' w'') R) := by
  unfold Leaves onExc
  cases p x w with
  | ok => simp
  | ub => simp
  | exc e x' w' => simp only; cases h x' w' <;> simp

theorem leaves_locally {p : Prog Y β} {y : Y} {f : β → Y → α} :
    Leaves (locally y p f : Prog X α) x w Q R ↔
      Leaves p y w (fun a y' w' => Q (f a y') x w') (fun e _ w' => R e x w') := by
  unfold Leaves locally
  cases p y w <;> simp

theorem leaves_ofOption {o : Option α} : Leaves (ofOption o : Prog X α) x w Q R ↔ ∀ a, o = some a → Q a x w := by
  cases o with
  | none => exact ⟨fun _ => by simp, fun _ => trivial⟩
  | some a => exact ⟨fun h b e => by cases e; exact h, fun h => h a rfl⟩

end Prog

theorem Prog.Runs.withEq {X α : Type} {p : Prog X α} {x : X} {w : World} {Q : α → X → World → Prop} {R : Exc → X → World → Prop}
    (h : Runs p x w Q R) : Runs p x w (fun a y v => Q a y v ∧ p x w = .ok a y v) (fun e y v => R e y v ∧ p x w = .exc e y v) := by
  unfold Runs at *
  cases hp : p x w <;> simp_all

theorem Prog.Leaves.trivial {X α : Type} {p : Prog X α} {x : X} {w : World} : Leaves p x w (fun _ _ _ => True) (fun _ _ _ => True) := by
  unfold Leaves
  cases p x w <;> exact True.intro

theorem Keeps.leaves {X α : Type} {C : Ctx X} {p : Prog X α} (h : Keeps C p) {x : X} {w : World} (hi : C.I x w) :
    Leaves p x w (fun _ x' w' => C.I x' w' ∧ C.T x x' ∧ w.next ≤ w'.next) (fun _ x' w' => C.I x' w' ∧ C.T x x' ∧ w.next ≤ w'.next) := by
  have := h.run x w hi
  unfold Leaves
  exact this

theorem Keeps.of_leaves {X α : Type} {C : Ctx X} {p : Prog X α} (h : ∀ x w, C.I x w → Leaves p x w (fun _ x' w' => C.I x' w' ∧ C.T x x' ∧ w.next ≤ w'.next)
    (fun _ x' w' => C.I x' w' ∧ C.T x x' ∧ w.next ≤ w'.next)) : Keeps C p := ⟨fun x w hi => h x w hi⟩

end PolyColl
