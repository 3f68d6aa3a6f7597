import Verif.Model.Vec
/-! # Rules for `Runs` -/

namespace PolyColl
namespace Prog
variable {X Y α β : Type} {x : X} {w : World}
variable {Q : α → X → World → Prop} {R : Exc → X → World → Prop}

theorem Runs.mono {p : Prog X α} {Q' : α → X → World → Prop} {R' : Exc → X → World → Prop}
    (h : Runs p x w Q R) (hq : ∀ a x' w', Q a x' w' → Q' a x' w')
    (hr : ∀ e x' w', R e x' w' → R' e x' w') : Runs p x w Q' R' := by
  unfold Runs at *
  split <;> simp_all

theorem Runs.and {p : Prog X α} {Q' : α → X → World → Prop} {R' : Exc → X → World → Prop}
    (h : Runs p x w Q R) (h' : Runs p x w Q' R') :
    Runs p x w (fun a x w => Q a x w ∧ Q' a x w) (fun e x w => R e x w ∧ R' e x w) := by
  unfold Runs at *
  split <;> simp_all

@[simp] theorem runs_bind {p : Prog X β} {f : β → Prog X α} :
    Runs (p >>= f) x w Q R ↔ Runs p x w (fun b x' w' => Runs (f b) x' w' Q R) R := by
  show Runs (Prog.bind p f) x w Q R ↔ _
  unfold Runs Prog.bind
  cases p x w <;> simp

@[simp] theorem runs_bind' {p : Prog X β} {f : β → Prog X α} :
    Runs (Prog.bind p f) x w Q R ↔ Runs p x w (fun b x' w' => Runs (f b) x' w' Q R) R :=
  runs_bind

@[simp] theorem runs_pure {a : α} : Runs (pure a : Prog X α) x w Q R ↔ Q a x w := Iff.rfl
@[simp] theorem runs_pure' {a : α} : Runs (Prog.pure a : Prog X α) x w Q R ↔ Q a x w := Iff.rfl
@[simp] theorem runs_raise {e : Exc} : Runs (raise e : Prog X α) x w Q R ↔ R e x w := Iff.rfl
@[simp] theorem runs_undef : Runs (undef : Prog X α) x w Q R ↔ False := Iff.rfl
@[simp] theorem runs_get {Q : X → X → World → Prop} : Runs get x w Q R ↔ Q x x w := Iff.rfl
@[simp] theorem runs_set {y : X} {Q : Unit → X → World → Prop} :
    Runs (set y) x w Q R ↔ Q () y w := Iff.rfl
@[simp] theorem runs_world {Q : World → X → World → Prop} : Runs world x w Q R ↔ Q w x w := Iff.rfl

@[simp] theorem runs_some {a : α} : Runs (ofOption (some a) : Prog X α) x w Q R ↔ Q a x w := Iff.rfl
@[simp] theorem runs_none : Runs (ofOption none : Prog X α) x w Q R ↔ False := Iff.rfl

theorem runs_ofOption {o : Option α} : Runs (ofOption o : Prog X α) x w Q R ↔ ∃ a, o = some a ∧ Q a x w := by
  cases o <;> simp

theorem runs_ite {c : Prop} [Decidable c] {p q : Prog X α} :
    Runs (if c then p else q) x w Q R ↔ (c → Runs p x w Q R) ∧ (¬c → Runs q x w Q R) := by
  split <;> simp_all

@[simp] theorem runs_zoom {gt : X → Y} {st : X → Y → X} {p : Prog Y α} :
    Runs (zoom gt st p) x w Q R ↔
      Runs p (gt x) w (fun a y w' => Q a (st x y) w') (fun e y w' => R e (st x y) w') := by
  unfold Runs zoom
  cases p (gt x) w <;> simp

@[simp] theorem runs_onExc {p : Prog X α} {h : Prog X Unit} :
    Runs (onExc p h) x w Q R ↔
      Runs p x w Q (fun e x' w' => Runs h x' w' (fun _ x'' w'' => R e x'' w'') R) := by
  unfold Runs onExc
  cases p x w with
  | ok => simp
  | ub => simp
  | exc e x' w' => simp only; cases h x' w' <;> simp

@[simp] theorem runs_each_nil {f : β → Prog X Unit} {Q : Unit → X → World → Prop} :
    Runs (each f []) x w Q R ↔ Q () x w := Iff.rfl

@[simp] theorem runs_each_cons {f : β → Prog X Unit} {b : β} {bs : List β}
    {Q : Unit → X → World → Prop} :
    Runs (each f (b :: bs)) x w Q R ↔
      Runs (f b) x w (fun _ x' w' => Runs (each f bs) x' w' Q R) R := by
  simp [each]

@[simp] theorem runs_locally {p : Prog Y β} {y : Y} {f : β → Y → α} :
    Runs (locally y p f : Prog X α) x w Q R ↔
      Runs p y w (fun a y' w' => Q (f a y') x w') (fun e _ w' => R e x w') := by
  unfold Runs locally
  cases p y w <;> simp

/-- What `Runs` says about a particular outcome. -/
theorem runs_ok {p : Prog X α} {a : α} {x' : X} {w' : World} (h : Runs p x w Q R)
    (e : p x w = .ok a x' w') : Q a x' w' := by
  unfold Runs at h; rw [e] at h; exact h

theorem runs_exc {p : Prog X α} {e : Exc} {x' : X} {w' : World} (h : Runs p x w Q R)
    (he : p x w = .exc e x' w') : R e x' w' := by
  unfold Runs at h; rw [he] at h; exact h

theorem runs_not_ub {p : Prog X α} (h : Runs p x w Q R) : p x w ≠ .ub := by
  unfold Runs at h; intro e; rw [e] at h; exact h

/-- `Runs` from the three outcomes. -/
theorem Runs.intro {p : Prog X α} (h : p x w ≠ .ub) (hq : ∀ a x' w', p x w = .ok a x' w' → Q a x' w')
    (hr : ∀ e x' w', p x w = .exc e x' w' → R e x' w') : Runs p x w Q R := by
  unfold Runs
  cases hp : p x w <;> simp_all

end Prog

namespace Env
variable {V : Type} (E : Env V) {X : Type} {x : X} {w : World} {R : Exc → X → World → Prop}
open Prog

@[simp] theorem runs_alloc {Q : Nat → X → World → Prop} :
    Runs E.alloc x w Q R ↔
      (E.fault w.tick = true → R .badAlloc x ⟨w.next, w.tick + 1⟩) ∧
      (E.fault w.tick = false → Q w.next x ⟨w.next + 1, w.tick + 1⟩) := by
  unfold Runs alloc
  cases E.fault w.tick <;> simp

@[simp] theorem runs_userOp {b : Bool} {Q : Unit → X → World → Prop} :
    Runs (E.userOp b) x w Q R ↔
      (b = true → Q () x w) ∧
      (b = false → (E.fault w.tick = true → R .user x ⟨w.next, w.tick + 1⟩) ∧
        (E.fault w.tick = false → Q () x ⟨w.next, w.tick + 1⟩)) := by
  unfold Runs userOp
  cases b <;> cases E.fault w.tick <;> simp

end Env
end PolyColl
