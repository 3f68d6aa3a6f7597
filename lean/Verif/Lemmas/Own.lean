import Verif.Lemmas.Leaves
import Verif.Lemmas.KeepsColl
import Verif.Model.History
/-!
# Who owns a block

For a block `b`, functions `o` count how often an object owns it.  `Tidy C b o p` says that running
`p` does not increase the count, except that a block allocated meanwhile may be counted once more.
`Own` and `Made` do the book-keeping inside an operation: values held in variables own blocks too.
-/

namespace PolyColl
open Prog

/-- Was block `b` allocated between two moments? -/
def fresh (b : Nat) (w w' : World) : Nat := if w.next ≤ b ∧ b < w'.next then 1 else 0

theorem fresh_add {b : Nat} {w w' w'' : World} (h : w.next ≤ w'.next) (h' : w'.next ≤ w''.next) :
    fresh b w w' + fresh b w' w'' = fresh b w w'' := by
  unfold fresh
  repeat' split
  all_goals omega

theorem fresh_same {b : Nat} {w w' : World} (h : w'.next = w.next) : fresh b w w' = 0 := by
  unfold fresh; split <;> omega

/-- An identity owned by whoever holds it. -/
def one (b n : Nat) : Nat := if n = b then 1 else 0

/-- `p` may only add blocks allocated meanwhile to what the object owns. -/
structure Tidy {X α : Type} (C : Ctx X) (b : Nat) (o : X → Nat) (p : Prog X α) : Prop where
  run : ∀ x w, C.I x w → Leaves p x w
    (fun _ x' w' => C.I x' w' ∧ w.next ≤ w'.next ∧ o x' ≤ o x + fresh b w w')
    (fun _ x' w' => C.I x' w' ∧ w.next ≤ w'.next ∧ o x' ≤ o x + fresh b w w')

/-- From a state owning at most `c`, with values owning `d` at hand, `p` ends with no more than that
and what was allocated, divided between the state and the result. -/
structure Own {X α : Type} (b : Nat) (o : X → Nat) (oa : α → Nat) (c d : Nat) (p : Prog X α) : Prop where
  run : ∀ x w, o x ≤ c → Leaves p x w
    (fun a x' w' => w.next ≤ w'.next ∧ o x' + oa a ≤ c + d + fresh b w w')
    (fun _ x' w' => w.next ≤ w'.next ∧ o x' ≤ c + d + fresh b w w')

/-- `p` leaves the object alone and makes a value out of what it is given (`d`) and new blocks. -/
structure Made {X α : Type} (b : Nat) (oa : α → Nat) (d : Nat) (p : Prog X α) : Prop where
  run : ∀ x w, Leaves p x w
    (fun a x' w' => x' = x ∧ w.next ≤ w'.next ∧ oa a ≤ d + fresh b w w')
    (fun _ x' w' => x' = x ∧ w.next ≤ w'.next)

/-- `p` does not increase the count. -/
structure Still {X α : Type} (o : X → Nat) (p : Prog X α) : Prop where
  run : ∀ x w, Leaves p x w (fun _ x' w' => w.next ≤ w'.next ∧ o x' ≤ o x) (fun _ x' w' => w.next ≤ w'.next ∧ o x' ≤ o x)

/-- Results that own nothing. -/
def none' {α : Type} (_ : α) : Nat := 0

namespace Made
variable {X Y α β : Type} {b d e : Nat} {oa : α → Nat} {o1 : β → Nat}

theorem pure {a : α} (h : oa a ≤ d) : Made b oa d (Pure.pure a : Prog X α) := ⟨fun _ _ => ⟨rfl, Nat.le_refl _, by omega⟩⟩
theorem raise {e : Exc} : Made b oa d (Prog.raise e : Prog X α) := ⟨fun _ _ => ⟨rfl, Nat.le_refl _⟩⟩
theorem undef : Made b oa d (Prog.undef : Prog X α) := ⟨fun _ _ => trivial⟩

theorem of_same {p : Prog X α} (h : Keeps (sameCtx (fun x : X => x)) p) : Made b none' d p :=
  ⟨fun x _ => (h.leaves (x := x) trivial).mono (fun _ _ _ g => ⟨g.2.1, g.2.2, Nat.zero_le _⟩) (fun _ _ _ g => ⟨g.2.1, g.2.2⟩)⟩

theorem bind {p : Prog X β} {f : β → Prog X α} (hp : Made b o1 e p) (hf : ∀ a, Made b oa (d + o1 a) (f a)) : Made b oa (d + e) (p >>= f) := by
  refine ⟨fun x w => leaves_bind.2 ?_⟩
  refine (hp.run x w).mono ?_ (fun _ _ _ g => g)
  rintro a x' w' ⟨rfl, h2, h3⟩
  refine ((hf a).run x' w').mono ?_ ?_
  · rintro r x'' w'' ⟨rfl, g2, g3⟩
    have := fresh_add (b := b) h2 g2
    exact ⟨rfl, by omega, by omega⟩
  · rintro r x'' w'' ⟨rfl, g2⟩
    exact ⟨rfl, by omega⟩

/-- A value made of nothing. -/
theorem bind_new {p : Prog X β} {f : β → Prog X α} (hp : Made b o1 0 p) (hf : ∀ a, Made b oa (d + o1 a) (f a)) : Made b oa d (p >>= f) :=
  bind hp hf

/-- A step that makes nothing. -/
theorem seq {p : Prog X β} {f : β → Prog X α} (hp : Keeps (sameCtx (fun x : X => x)) p) (hf : ∀ a, Made b oa d (f a)) : Made b oa d (p >>= f) :=
  bind_new (of_same hp) fun a => by simpa [none'] using hf a

theorem alloc {V : Type} {E : Env V} : Made b (one b) 0 (E.alloc : Prog X Nat) := by
  refine ⟨fun x w => ?_⟩
  unfold Leaves Env.alloc
  by_cases h : E.fault w.tick = true
  · simp only [if_pos h]; exact ⟨trivial, Nat.le_refl _⟩
  · simp only [if_neg h]
    refine ⟨trivial, by omega, ?_⟩
    unfold one fresh
    split <;> split <;> simp_all <;> omega

theorem ite {c : Prop} [Decidable c] {p q : Prog X α} (hp : c → Made b oa d p) (hq : ¬c → Made b oa d q) : Made b oa d (if c then p else q) := by
  split
  · next h => exact hp h
  · next h => exact hq h

theorem locally {y : Y} {p : Prog Y β} {f : β → Y → α} {oy : Y → Nat} {c : Nat} (hp : Own b oy o1 c d p) (hy : oy y ≤ c)
    (hf : ∀ r y, oa (f r y) ≤ oy y + o1 r) : Made b oa (c + d) (Prog.locally y p f : Prog X α) := by
  refine ⟨fun x w => leaves_locally.2 ?_⟩
  exact (hp.run y w hy).mono (fun r y' w' g => ⟨rfl, g.1, Nat.le_trans (hf r y') g.2⟩) (fun _ _ _ g => ⟨rfl, g.1⟩)

theorem mono {p : Prog X α} (h : Made b oa d p) (hd : d ≤ e) : Made b oa e p :=
  ⟨fun x w => (h.run x w).mono (fun _ _ _ g => ⟨g.1, g.2.1, by have := g.2.2; omega⟩) (fun _ _ _ g => g)⟩

end Made

namespace Still
variable {X Y α β : Type} {o : X → Nat} {oy : Y → Nat}

theorem pure {a : α} : Still o (Pure.pure a : Prog X α) := ⟨fun _ _ => ⟨Nat.le_refl _, Nat.le_refl _⟩⟩
theorem undef : Still o (Prog.undef : Prog X α) := ⟨fun _ _ => trivial⟩
theorem of_same {p : Prog X α} (h : Keeps (sameCtx (fun x : X => x)) p) : Still o p :=
  ⟨fun x _ => (h.leaves (x := x) trivial).mono (fun _ y _ g => ⟨g.2.2, by rw [show y = x from g.2.1]; exact Nat.le_refl _⟩)
    (fun _ y _ g => ⟨g.2.2, by rw [show y = x from g.2.1]; exact Nat.le_refl _⟩)⟩
theorem bind {p : Prog X β} {f : β → Prog X α} (hp : Still o p) (hf : ∀ a, Still o (f a)) : Still o (p >>= f) := by
  refine ⟨fun x w => leaves_bind.2 ?_⟩
  refine (hp.run x w).mono ?_ (fun _ _ _ g => g)
  rintro a x' w' ⟨h1, h2⟩
  refine ((hf a).run x' w').mono ?_ ?_ <;>
  · rintro r x'' w'' ⟨g1, g2⟩
    exact ⟨by omega, by omega⟩
theorem onExc {p : Prog X α} {h : Prog X Unit} (hp : Still o p) (hh : Still o h) : Still o (Prog.onExc p h) := by
  refine ⟨fun x w => leaves_onExc.2 ?_⟩
  refine (hp.run x w).mono (fun _ _ _ g => g) ?_
  rintro e x' w' ⟨h1, h2⟩
  refine (hh.run x' w').mono ?_ ?_ <;>
  · rintro r x'' w'' ⟨g1, g2⟩
    exact ⟨by omega, by omega⟩
theorem ite {c : Prop} [Decidable c] {p q : Prog X α} (hp : Still o p) (hq : Still o q) : Still o (if c then p else q) := by
  split <;> assumption
theorem each {f : β → Prog X Unit} (hf : ∀ a, Still o (f a)) : ∀ l, Still o (Prog.each f l)
  | [] => pure
  | a :: l => bind (hf a) fun _ => each hf l
/-- Replacing the object just read by one owning no more. -/
theorem bind_get_set {f : X → Prog X β} {g : X → β → X} (hf : ∀ x, Keeps (sameCtx (fun x : X => x)) (f x)) (hg : ∀ x a, o (g x a) ≤ o x) :
    Still o (do let x ← Prog.get; let a ← f x; Prog.set (g x a) : Prog X Unit) := by
  refine ⟨fun x w => leaves_bind.2 (leaves_get.2 (leaves_bind.2 ?_))⟩
  refine ((hf x).leaves (x := x) trivial).mono ?_ ?_
  · rintro a x' w' ⟨-, h1, h2⟩
    exact ⟨h2, hg x a⟩
  · rintro a x' w' ⟨-, h1, h2⟩
    exact ⟨h2, by rw [show x' = x from h1]; exact Nat.le_refl _⟩
theorem zoom {gt : X → Y} {st : X → Y → X} {p : Prog Y α} (hp : Still oy p) (hs : ∀ x y, oy y ≤ oy (gt x) → o (st x y) ≤ o x) :
    Still o (Prog.zoom gt st p) := by
  refine ⟨fun x w => leaves_zoom.2 ?_⟩
  exact (hp.run (gt x) w).mono (fun _ y _ g => ⟨g.1, hs x y g.2⟩) (fun _ y _ g => ⟨g.1, hs x y g.2⟩)

end Still

namespace Own
variable {X Y α β : Type} {b c d e : Nat} {o : X → Nat} {oy : Y → Nat} {oa : α → Nat} {o1 : β → Nat}

theorem pure {a : α} (h : oa a ≤ d) : Own b o oa c d (Pure.pure a : Prog X α) := ⟨fun _ _ hx => ⟨Nat.le_refl _, by omega⟩⟩
theorem raise {x : Exc} : Own b o oa c d (Prog.raise x : Prog X α) := ⟨fun _ _ hx => ⟨Nat.le_refl _, by omega⟩⟩
theorem undef : Own b o oa c d (Prog.undef : Prog X α) := ⟨fun _ _ _ => trivial⟩
theorem set {y : X} (h : o y ≤ c + d) : Own b o none' c d (Prog.set y) := ⟨fun _ _ _ => ⟨Nat.le_refl _, by simp only [none']; omega⟩⟩

theorem mono {p : Prog X α} {c' d' : Nat} (h : Own b o oa c d p) (hc : c' ≤ c) (hd : c + d ≤ c' + d') : Own b o oa c' d' p :=
  ⟨fun x w hx => (h.run x w (by omega)).mono (fun _ _ _ g => ⟨g.1, by have := g.2; omega⟩) (fun _ _ _ g => ⟨g.1, by have := g.2; omega⟩)⟩

/-- What is not needed is still there afterwards. -/
theorem frame {p : Prog X α} (j : Nat) (h : Own b o oa c d p) : Own b o (fun a => oa a + j) c (d + j) p :=
  ⟨fun x w hx => (h.run x w hx).mono (fun _ _ _ g => ⟨g.1, by have := g.2; omega⟩) (fun _ _ _ g => ⟨g.1, by have := g.2; omega⟩)⟩

theorem bind {p : Prog X β} {f : β → Prog X α} (hp : Own b o o1 c d p)
    (hf : ∀ a c' d', c + d ≤ c' + d' → o1 a ≤ d' → Own b o oa c' d' (f a)) : Own b o oa c d (p >>= f) := by
  refine ⟨fun x w hx => leaves_bind.2 ?_⟩
  refine (hp.run x w hx).mono ?_ (fun _ _ _ g => g)
  rintro a x' w' ⟨h1, h2⟩
  have := (hf a (max (o x') (c + d - (c + d + fresh b w w' - o x'))) (c + d + fresh b w w' - o x') (by omega) (by omega)).run x' w' (by omega)
  refine this.mono ?_ ?_ <;>
  · rintro r x'' w'' ⟨g1, g2⟩
    have := fresh_add (b := b) h1 g1
    refine ⟨by omega, by omega⟩

theorem bind_made {p : Prog X β} {f : β → Prog X α} (hp : Made b o1 e p) (hf : ∀ a, Own b o oa c (d + o1 a) (f a)) : Own b o oa c (d + e) (p >>= f) := by
  refine ⟨fun x w hx => leaves_bind.2 ?_⟩
  refine (hp.run x w).mono ?_ (by rintro _ x' w' ⟨rfl, h2⟩; exact ⟨h2, by omega⟩)
  rintro a x' w' ⟨rfl, h2, h3⟩
  refine ((hf a).run x' w' hx).mono ?_ ?_ <;>
  · rintro r x'' w'' ⟨g1, g2⟩
    have := fresh_add (b := b) h2 g1
    refine ⟨by omega, by omega⟩

theorem bind_new {p : Prog X β} {f : β → Prog X α} (hp : Made b o1 0 p) (hf : ∀ a, Own b o oa c (d + o1 a) (f a)) : Own b o oa c d (p >>= f) :=
  bind_made hp hf

theorem seq {p : Prog X β} {f : β → Prog X α} (hp : Still o p) (hf : ∀ a, Own b o oa c d (f a)) : Own b o oa c d (p >>= f) := by
  refine ⟨fun x w hx => leaves_bind.2 ?_⟩
  refine (hp.run x w).mono ?_ (by rintro _ x' w' ⟨h1, h2⟩; exact ⟨h1, by omega⟩)
  rintro a x' w' ⟨h1, h2⟩
  refine ((hf a).run x' w' (by omega)).mono ?_ ?_ <;>
  · rintro r x'' w'' ⟨g1, g2⟩
    have := fresh_add (b := b) h1 g1
    refine ⟨by omega, by omega⟩

theorem bind_set {y : X} {f : Unit → Prog X α} (hy : o y + e ≤ c + d) (hf : Own b o oa (o y) e (f ())) : Own b o oa c d (Prog.set y >>= f) := by
  refine ⟨fun x w hx => leaves_bind.2 (leaves_set.2 ?_)⟩
  refine (hf.run y w (Nat.le_refl _)).mono ?_ ?_ <;>
  · rintro r x'' w'' ⟨g1, g2⟩
    exact ⟨g1, by omega⟩

theorem bind_get {f : X → Prog X α} (hf : ∀ x, o x ≤ c → Own b o oa c d (f x)) : Own b o oa c d (Prog.get >>= f) := by
  refine ⟨fun x w hx => leaves_bind.2 ?_⟩
  exact (hf x hx).run x w hx

theorem ite {q : Prop} [Decidable q] {p p' : Prog X α} (hp : q → Own b o oa c d p) (hq : ¬q → Own b o oa c d p') : Own b o oa c d (if q then p else p') := by
  split
  · next h => exact hp h
  · next h => exact hq h

theorem of_made {p : Prog X α} (h : Made b oa d p) : Own b o oa c d p :=
  ⟨fun x w hx => (h.run x w).mono (by rintro a x' w' ⟨rfl, h1, h2⟩; exact ⟨h1, by omega⟩) (by rintro a x' w' ⟨rfl, h1⟩; exact ⟨h1, by omega⟩)⟩

theorem of_still {p : Prog X α} (h : Still o p) : Own b o none' c d p :=
  ⟨fun x w hx => (h.run x w).mono (fun _ _ _ g => ⟨g.1, by have := g.2; simp only [none']; omega⟩) (fun _ _ _ g => ⟨g.1, by have := g.2; omega⟩)⟩

theorem of_tidy {p : Prog X α} (h : Tidy (anyCtx X) b o p) : Own b o none' c d p :=
  ⟨fun x w hx => (h.run x w trivial).mono (fun _ _ _ g => ⟨g.2.1, by have := g.2.2; simp only [none']; omega⟩) (fun _ _ _ g => ⟨g.2.1, by have := g.2.2; omega⟩)⟩

theorem seq_tidy {p : Prog X β} {f : β → Prog X α} (hp : Tidy (anyCtx X) b o p) (hf : ∀ a c' d', c + d ≤ c' + d' → Own b o oa c' d' (f a)) : Own b o oa c d (p >>= f) :=
  bind (of_tidy hp) fun a c' d' h _ => hf a c' d' h

theorem onExc {p : Prog X α} {h : Prog X Unit} (hp : Own b o oa c d p) (hh : Still o h) : Own b o oa c d (Prog.onExc p h) := by
  refine ⟨fun x w hx => leaves_onExc.2 ?_⟩
  refine (hp.run x w hx).mono (fun _ _ _ g => g) ?_
  rintro e x' w' ⟨h1, h2⟩
  refine (hh.run x' w').mono ?_ ?_ <;>
  · rintro r x'' w'' ⟨g1, g2⟩
    have := fresh_add (b := b) h1 g1
    exact ⟨by omega, by omega⟩

theorem zoom {gt : X → Y} {st : X → Y → X} {p : Prog Y α} (hp : ∀ c, Own b oy oa c d p) (hs : ∀ x y, o (st x y) + oy (gt x) ≤ o x + oy y) :
    Own b o oa c d (Prog.zoom gt st p) := by
  refine ⟨fun x w hx => leaves_zoom.2 ?_⟩
  refine ((hp _).run (gt x) w (Nat.le_refl _)).mono ?_ ?_ <;>
  · rintro r y w' ⟨g1, g2⟩
    have := hs x y
    exact ⟨g1, by omega⟩

end Own

namespace Tidy
variable {X Y α β : Type} {C : Ctx X} {D : Ctx Y} {b : Nat} {o : X → Nat} {oy : Y → Nat}

theorem pure {a : α} : Tidy C b o (Pure.pure a : Prog X α) := ⟨fun _ _ hx => ⟨hx, Nat.le_refl _, Nat.le_add_right _ _⟩⟩
theorem pure' {a : α} : Tidy C b o (Prog.pure a : Prog X α) := pure
theorem raise {e : Exc} : Tidy C b o (Prog.raise e : Prog X α) := ⟨fun _ _ hx => ⟨hx, Nat.le_refl _, Nat.le_add_right _ _⟩⟩
theorem undef : Tidy C b o (Prog.undef : Prog X α) := ⟨fun _ _ _ => trivial⟩

theorem bind {p : Prog X β} {f : β → Prog X α} (hp : Tidy C b o p) (hf : ∀ a, Tidy C b o (f a)) : Tidy C b o (p >>= f) := by
  refine ⟨fun x w hx => leaves_bind.2 ?_⟩
  refine (hp.run x w hx).mono ?_ (fun _ _ _ g => g)
  rintro a x' w' ⟨h0, h1, h2⟩
  refine ((hf a).run x' w' h0).mono ?_ ?_ <;>
  · rintro r x'' w'' ⟨g0, g1, g2⟩
    have := fresh_add (b := b) h1 g1
    exact ⟨g0, by omega, by omega⟩
theorem bind' {p : Prog X β} {f : β → Prog X α} (hp : Tidy C b o p) (hf : ∀ a, Tidy C b o (f a)) : Tidy C b o (Prog.bind p f) := bind hp hf

theorem bind_get {f : X → Prog X α} (hf : ∀ a, Tidy C b o (f a)) : Tidy C b o (Prog.get >>= f) :=
  ⟨fun x w hx => leaves_bind.2 ((hf x).run x w hx)⟩

theorem ite {c : Prop} [Decidable c] {p q : Prog X α} (hp : Tidy C b o p) (hq : Tidy C b o q) : Tidy C b o (if c then p else q) := by
  split <;> assumption

theorem onExc {p : Prog X α} {h : Prog X Unit} (hp : Tidy C b o p) (hh : Tidy C b o h) : Tidy C b o (Prog.onExc p h) := by
  refine ⟨fun x w hx => leaves_onExc.2 ?_⟩
  refine (hp.run x w hx).mono (fun _ _ _ g => g) ?_
  rintro e x' w' ⟨h0, h1, h2⟩
  refine (hh.run x' w' h0).mono ?_ ?_ <;>
  · rintro r x'' w'' ⟨g0, g1, g2⟩
    have := fresh_add (b := b) h1 g1
    exact ⟨g0, by omega, by omega⟩

theorem each {f : β → Prog X Unit} {l : List β} (hf : ∀ a, Tidy C b o (f a)) : Tidy C b o (Prog.each f l) := by
  induction l with
  | nil => exact pure
  | cons a l ih => exact bind (hf a) fun _ => ih

theorem drop {p : Prog X α} (hp : Tidy C b o p) : Tidy C b o p.drop := bind hp fun _ => pure

theorem of_still {p : Prog X α} (h : Still o p) : Tidy (anyCtx X) b o p :=
  ⟨fun x w _ => (h.run x w).mono (fun _ _ _ g => ⟨trivial, g.1, by have := g.2; omega⟩) (fun _ _ _ g => ⟨trivial, g.1, by have := g.2; omega⟩)⟩

theorem of_same {p : Prog X α} (h : Keeps (sameCtx (fun x : X => x)) p) : Tidy C b o p :=
  ⟨fun x w hx => (h.leaves (x := x) (w := w) trivial).mono
    (by rintro _ y w' ⟨-, h1, h2⟩; have : y = x := h1; subst this; exact ⟨C.weaken _ _ _ hx h2, h2, Nat.le_add_right _ _⟩)
    (by rintro _ y w' ⟨-, h1, h2⟩; have : y = x := h1; subst this; exact ⟨C.weaken _ _ _ hx h2, h2, Nat.le_add_right _ _⟩)⟩

theorem get : Tidy C b o (Prog.get : Prog X X) := of_same Keeps.get
theorem world : Tidy C b o (Prog.world : Prog X World) := of_same Keeps.world
theorem ofOption {x : Option α} : Tidy C b o (Prog.ofOption x : Prog X α) := of_same Keeps.ofOption
theorem userOp {V : Type} {E : Env V} {q : Bool} : Tidy C b o (E.userOp q : Prog X Unit) := of_same Keeps.userOp
theorem alloc {V : Type} {E : Env V} : Tidy C b o (E.alloc : Prog X Nat) := of_same Keeps.alloc

/-- An operation on the object as it is. -/
theorem of_own {p : Prog X α} {oa : α → Nat} (h : ∀ c, Own b o oa c 0 p) : Tidy (anyCtx X) b o p :=
  ⟨fun x w _ => ((h _).run x w (Nat.le_refl _)).mono (fun _ _ _ g => ⟨trivial, g.1, by have := g.2; omega⟩) (fun _ _ _ g => ⟨trivial, g.1, by have := g.2; omega⟩)⟩

theorem zoom {gt : X → Y} {st : X → Y → X} {p : Prog Y α} (hp : Tidy (anyCtx Y) b oy p) (hs : ∀ x y, o (st x y) + oy (gt x) ≤ o x + oy y) :
    Tidy (anyCtx X) b o (Prog.zoom gt st p) := by
  refine ⟨fun x w _ => leaves_zoom.2 ?_⟩
  refine (hp.run (gt x) w trivial).mono ?_ ?_ <;>
  · rintro r y w' ⟨-, g1, g2⟩
    have := hs x y
    exact ⟨trivial, g1, by omega⟩

/-- Add an invariant known to be kept. -/
theorem keeping {p : Prog X α} (hk : Keeps C p) (h : Tidy (anyCtx X) b o p) : Tidy C b o p := by
  refine ⟨fun x w hx => ?_⟩
  have h1 := hk.leaves (x := x) (w := w) hx
  have h2 := h.run x w trivial
  unfold Leaves at *
  cases hp : p x w <;> rw [hp] at h1 h2
  · exact ⟨h1.1, h2.2⟩
  · exact ⟨h1.1, h2.2⟩
  · trivial

/-- Add an invariant known to be kept, and use it. -/
theorem keeping' {p : Prog X α} (hk : Keeps C p) (h : ∀ x w, C.I x w → Leaves p x w
    (fun _ x' w' => w.next ≤ w'.next ∧ o x' ≤ o x + fresh b w w') (fun _ x' w' => w.next ≤ w'.next ∧ o x' ≤ o x + fresh b w w')) : Tidy C b o p := by
  refine ⟨fun x w hx => ?_⟩
  have h1 := hk.leaves (x := x) (w := w) hx
  have h2 := h x w hx
  unfold Leaves at *
  cases hp : p x w <;> rw [hp] at h1 h2
  · exact ⟨h1.1, h2⟩
  · exact ⟨h1.1, h2⟩
  · trivial

end Tidy

/-- One step of `tidy`. -/
syntax "tstep" : tactic
macro_rules | `(tactic| tstep) => `(tactic| with_reducible exact Tidy.pure)
macro_rules | `(tactic| tstep) => `(tactic| with_reducible exact Tidy.pure')
macro_rules | `(tactic| tstep) => `(tactic| with_reducible exact Tidy.raise)
macro_rules | `(tactic| tstep) => `(tactic| with_reducible exact Tidy.undef)
macro_rules | `(tactic| tstep) => `(tactic| with_reducible exact Tidy.get)
macro_rules | `(tactic| tstep) => `(tactic| with_reducible exact Tidy.world)
macro_rules | `(tactic| tstep) => `(tactic| with_reducible exact Tidy.ofOption)
macro_rules | `(tactic| tstep) => `(tactic| with_reducible exact Tidy.alloc)
macro_rules | `(tactic| tstep) => `(tactic| with_reducible exact Tidy.userOp)
macro_rules | `(tactic| tstep) => `(tactic| with_reducible apply Tidy.bind)
macro_rules | `(tactic| tstep) => `(tactic| with_reducible apply Tidy.bind')
macro_rules | `(tactic| tstep) => `(tactic| with_reducible apply Tidy.ite)
macro_rules | `(tactic| tstep) => `(tactic| with_reducible apply Tidy.onExc)
macro_rules | `(tactic| tstep) => `(tactic| with_reducible apply Tidy.each)
macro_rules | `(tactic| tstep) => `(tactic| with_reducible apply Tidy.drop)

/-- Prove `Tidy` by following the structure of the program. -/
macro "tidy" : tactic => `(tactic| repeat' (first | with_reducible assumption | tstep | intro _ | split))

/-! ### Vectors -/

/-- Does the vector own the block? -/
def Vec.own {α : Type} (b : Nat) (v : Vec α) : Nat := one b v.blk

namespace Env
variable {V : Type} {E : Env V} {t : Ty} {b : Nat}

theorem nil_own {α : Type} (hb : b ≠ 0) : (Vec.nil : Vec α).own b = 0 := if_neg (fun h => hb h.symm)

theorem spoil_still (lo hi : Nat) : Still (Vec.own b) (E.spoil lo hi) := ⟨fun _ _ => ⟨Nat.le_refl _, Nat.le_refl _⟩⟩

theorem shift_still {q : Bool} (lo hi : Nat) : Still (Vec.own b) (E.shift q lo hi) := Still.onExc (Still.of_same Keeps.userOp) (spoil_still lo hi)

theorem mapAll_same {X α β : Type} {f : β → Prog X α} (hf : ∀ a, Keeps (sameCtx (fun x : X => x)) (f a)) (l : List β) :
    Keeps (sameCtx (fun x : X => x)) (Prog.mapAll f l) := Keeps.mapAll hf l

theorem reserve_tidy (n : Nat) : Tidy (anyCtx _) b (Vec.own b) (E.reserve t n) :=
  Tidy.of_own fun _ => Own.bind_get fun _ _ => Own.ite (fun _ => Own.raise) fun _ => Own.ite (fun _ => Own.pure (Nat.zero_le _)) fun _ =>
    Own.bind_new Made.alloc fun i => Own.seq (Still.of_same (E.relocate_keeps t _)) fun _ => Own.set (by simp only [Vec.own]; omega)

theorem emplaceBack_tidy (src : Src V) : Tidy (anyCtx _) b (Vec.own b) (E.emplaceBack t src) :=
  Tidy.of_own fun _ => Own.bind_get fun _ hx => Own.ite
    (fun _ => Own.seq (Still.of_same (E.construct_keeps t src)) fun _ => Own.set (by simp only [Vec.own] at *; omega)) fun _ =>
    Own.ite (fun _ => Own.raise) fun _ => Own.bind_new Made.alloc fun i => Own.seq (Still.of_same (E.construct_keeps t src)) fun _ =>
    Own.seq (Still.of_same (E.relocate_keeps t _)) fun _ => Own.set (by simp only [Vec.own]; omega)

theorem emplaceAt_tidy (n : Nat) (src : Src V) : Tidy (anyCtx _) b (Vec.own b) (E.emplaceAt t n src) :=
  Tidy.of_own fun _ => Own.bind_get fun _ hx => Own.ite (fun _ => Own.undef) fun _ => Own.ite (fun _ => Own.of_tidy (emplaceBack_tidy src)) fun _ => Own.ite
    (fun _ => Own.seq (Still.of_same (E.construct_keeps t src)) fun _ => Own.seq (shift_still _ _) fun _ => Own.set (by simp only [Vec.own] at *; omega)) fun _ =>
    Own.ite (fun _ => Own.raise) fun _ => Own.bind_new Made.alloc fun i => Own.seq (Still.of_same (E.construct_keeps t src)) fun _ =>
    Own.seq (Still.of_same (E.relocate_keeps t _)) fun _ => Own.set (by simp only [Vec.own]; omega)

theorem insertRange_tidy (n : Nat) (srcs : List (Src V)) : Tidy (anyCtx _) b (Vec.own b) (E.insertRange t n srcs) :=
  have hc : Keeps (sameCtx (fun x : Vec V => x)) (Prog.mapAll (E.construct t) srcs) := Keeps.mapAll (fun a => E.construct_keeps t a) srcs
  Tidy.of_own fun _ => Own.bind_get fun _ hx => Own.ite (fun _ => Own.undef) fun _ => Own.ite (fun _ => Own.pure (Nat.zero_le _)) fun _ => Own.ite
    (fun _ => Own.ite (fun _ => Own.seq (Still.of_same hc) fun _ => Own.set (by simp only [Vec.own] at *; omega)) fun _ =>
      Own.seq (Still.onExc (Still.of_same (Keeps.bind Keeps.userOp fun _ => hc)) (spoil_still _ _)) fun _ => Own.set (by simp only [Vec.own] at *; omega)) fun _ =>
    Own.ite (fun _ => Own.raise) fun _ => Own.bind_new Made.alloc fun i => Own.seq (Still.of_same hc) fun _ =>
    Own.seq (Still.of_same (E.relocate_keeps t _)) fun _ => Own.set (by simp only [Vec.own]; omega)

theorem insertInput_tidy (n : Nat) (srcs : List (Src V)) : Tidy (anyCtx _) b (Vec.own b) (E.insertInput t n srcs) :=
  Tidy.of_own fun _ => Own.bind_get fun _ hx => Own.ite (fun _ => Own.undef) fun _ => Own.ite
    (fun _ => Own.seq (Still.of_same (Keeps.locally_any (Keeps.each (fun a => E.emplaceBack_keeps t a) srcs))) fun _ => Own.of_tidy (insertRange_tidy _ _)) fun _ =>
    Own.seq_tidy (Tidy.each fun a => emplaceBack_tidy a) fun _ c' d' h =>
    Own.bind_get fun _ hy => Own.seq (shift_still _ _) fun _ => Own.set (by simp only [Vec.own] at *; omega)

theorem eraseRange_tidy (m n : Nat) : Tidy (anyCtx _) b (Vec.own b) (E.eraseRange t m n) :=
  Tidy.of_own fun _ => Own.bind_get fun _ hx => Own.ite (fun _ => Own.seq (shift_still _ _) fun _ => Own.set (by simp only [Vec.own] at *; omega)) fun _ => Own.undef

theorem eraseAt_tidy (n : Nat) : Tidy (anyCtx _) b (Vec.own b) (E.eraseAt t n) :=
  Tidy.bind_get fun _ => Tidy.ite (eraseRange_tidy _ _) Tidy.undef

theorem clearVec_tidy : Tidy (anyCtx _) b (Vec.own b) (clearVec : Prog (Vec V) Unit) :=
  Tidy.of_own fun _ => Own.bind_get fun _ hx => Own.set (by simp only [Vec.own] at *; omega)

theorem shrinkToFit_tidy (hb : b ≠ 0) : Tidy (anyCtx _) b (Vec.own b) (E.shrinkToFit t) :=
  Tidy.of_own fun _ => Own.bind_get fun x hx => Own.ite (fun _ => Own.pure (Nat.zero_le _)) fun _ => Own.ite
    (fun _ => Own.set (by have : (⟨0, 0, x.elems⟩ : Vec V).own b = 0 := if_neg (fun h => hb h.symm); omega)) fun _ =>
    Own.bind_new Made.alloc fun i => Own.seq (Still.of_same (E.relocate_keeps t _)) fun _ => Own.set (by simp only [Vec.own]; omega)

theorem copyVec_made {X : Type} (hb : b ≠ 0) (s : Vec V) : Made b (Vec.own b) 0 (E.copyVec t s : Prog X (Vec V)) :=
  Made.ite (fun _ => Made.pure (by rw [nil_own hb]; omega)) fun _ => Made.bind_new Made.alloc fun i =>
    Made.seq (Keeps.each (fun _ => E.copyVH_keeps t) _) fun _ => Made.pure (by simp only [Vec.own]; omega)

theorem moveVec_own (hb : b ≠ 0) (q : Bool) {c : Nat} : Own b (Vec.own b) (Vec.own b) c 0 (E.moveVec t q) :=
  Own.bind_get fun x hx => Own.ite (fun _ => Own.bind_set (e := c) (by rw [nil_own hb]; omega) (Own.pure hx)) fun _ =>
    Own.ite (fun _ => Own.pure (by rw [nil_own hb]; omega)) fun _ => Own.bind_new Made.alloc fun i =>
    Own.seq (Still.onExc (Still.of_same (Keeps.each (fun _ => E.moveVH_keeps t) _)) (spoil_still _ _)) fun _ =>
    Own.bind_set (e := one b i) (by simp only [Vec.own] at *; omega) (Own.pure (Nat.le_refl _))

theorem idxReserve_tidy (n : Nat) : Tidy (anyCtx _) b (Vec.own b) (E.idxReserve n) :=
  Tidy.of_own fun _ => Own.bind_get fun _ _ => Own.ite (fun _ => Own.raise) fun _ => Own.ite (fun _ => Own.pure (Nat.zero_le _)) fun _ =>
    Own.bind_new Made.alloc fun i => Own.set (by simp only [Vec.own]; omega)

theorem idxPushBack_tidy (p : Ptr) : Tidy (anyCtx _) b (Vec.own b) (E.idxPushBack p) :=
  Tidy.of_own fun _ => Own.bind_get fun _ hx => Own.ite (fun _ => Own.set (by simp only [Vec.own] at *; omega)) fun _ =>
    Own.ite (fun _ => Own.raise) fun _ => Own.bind_new Made.alloc fun i => Own.set (by simp only [Vec.own]; omega)

end Env

variable {b : Nat}

theorem idxPopBack_tidy : Tidy (anyCtx _) b (Vec.own b) idxPopBack :=
  Tidy.of_own fun _ => Own.bind_get fun _ hx => Own.ite (fun _ => Own.undef) fun _ => Own.set (by simp only [Vec.own] at *; omega)

theorem idxClear_tidy : Tidy (anyCtx _) b (Vec.own b) idxClear :=
  Tidy.of_own fun _ => Own.bind_get fun _ hx => Own.set (by simp only [Vec.own] at *; omega)

end PolyColl
