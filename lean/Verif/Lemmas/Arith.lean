import Verif.Lemmas.Growth
import Verif.Lemmas.LimitsColl
import Verif.Spec.Arith
/-!
# Functions computing with machine numbers do what the model's functions do
-/

namespace PolyColl
open Prog

namespace Prog

theorem Leaves.any {X α : Type} {p : Prog X α} {x : X} {w : World} : Leaves p x w (fun _ _ _ => True) (fun _ _ _ => True) := by
  unfold Leaves; split <;> trivial

theorem Leaves.both {X α : Type} {p : Prog X α} {x : X} {w : World} {Q Q' : α → X → World → Prop} {R R' : Exc → X → World → Prop}
    (h : Leaves p x w Q R) (h' : Leaves p x w Q' R') : Leaves p x w (fun a y w => Q a y w ∧ Q' a y w) (fun a y w => R a y w ∧ R' a y w) := by
  unfold Leaves at *
  split <;> simp_all

end Prog

/-- The two programs do the same from every state in `I`. -/
structure Agree {X α : Type} (I : X → Prop) (p q : Prog X α) : Prop where
  run : ∀ x w, 0 < w.next → I x → p x w = q x w

namespace Agree
variable {X Y α β : Type} {I : X → Prop} {R : β → Prop}

theorem rfl' {p : Prog X α} : Agree I p p := ⟨fun _ _ _ _ => rfl⟩

theorem bind {p q : Prog X β} {f g : β → Prog X α} (h : Agree I p q) (hq : Gives I R q) (hf : ∀ b, R b → Agree I (f b) (g b)) :
    Agree I (p >>= f) (q >>= g) := by
  refine ⟨fun x w hw hx => ?_⟩
  have h1 := h.run x w hw hx
  have h2 := hq.run x w hw hx
  show Prog.bind p f x w = Prog.bind q g x w
  unfold Prog.bind Leaves at *
  rw [h1]
  cases hr : q x w with
  | ok b x' w' => rw [hr] at h2; exact (hf b h2.2.2).run x' w' h2.1 h2.2.1
  | exc e x' w' => rfl
  | ub => rfl

theorem seq {p q : Prog X β} {f g : β → Prog X α} (h : Agree I p q) (hq : Hold I q) (hf : ∀ b, Agree I (f b) (g b)) :
    Agree I (p >>= f) (q >>= g) := bind h hq fun b _ => hf b

/-- The same first step. -/
theorem same {p : Prog X β} {f g : β → Prog X α} (hq : Hold I p) (hf : ∀ b, Agree I (f b) (g b)) :
    Agree I (p >>= f) (p >>= g) := seq rfl' hq hf

theorem get {f g : X → Prog X α} (hf : ∀ x, I x → Agree I (f x) (g x)) : Agree I (Prog.get >>= f) (Prog.get >>= g) :=
  ⟨fun x w hw hx => (hf x hx).run x w hw hx⟩

/-- Remember something of the state that was read. -/
theorem get_at (J : X → X → Prop) {f g : X → Prog X α} (h : ∀ x, I x → J x x) (hf : ∀ x, I x → Agree (J x) (f x) (g x)) :
    Agree I (Prog.get >>= f) (Prog.get >>= g) :=
  ⟨fun x w hw hx => (hf x hx).run x w hw (h x hx)⟩

theorem weaken {J : X → Prop} {p q : Prog X α} (h : Agree J p q) (hj : ∀ x, I x → J x) : Agree I p q :=
  ⟨fun x w hw hx => h.run x w hw (hj x hx)⟩

theorem ite {c d : Prop} [Decidable c] [Decidable d] {p p' q q' : Prog X α} (hc : c ↔ d) (h1 : d → Agree I p p') (h2 : ¬d → Agree I q q') :
    Agree I (if c then p else q) (if d then p' else q') := by
  by_cases h : d
  · rw [if_pos h, if_pos (hc.2 h)]; exact h1 h
  · rw [if_neg h, if_neg (fun x => h (hc.1 x))]; exact h2 h

theorem onExc {p q : Prog X α} {h h' : Prog X Unit} (hp : Agree I p q) (hq : Hold I q) (hh : Agree I h h') : Agree I (Prog.onExc p h) (Prog.onExc q h') := by
  refine ⟨fun x w hw hx => ?_⟩
  have h1 := hp.run x w hw hx
  have h2 := hq.run x w hw hx
  unfold Prog.onExc Leaves at *
  rw [h1]
  cases hr : q x w with
  | ok b x' w' => rfl
  | exc e x' w' => rw [hr] at h2; simp only; rw [hh.run x' w' h2.1 h2.2]
  | ub => rfl

/-- What is known of the state after the first step may depend on its result. -/
theorem bindTo (J : β → X → Prop) {p q : Prog X β} {f g : β → Prog X α} (h : Agree I p q)
    (hq : ∀ x w, 0 < w.next → I x → Leaves q x w (fun b x' w' => 0 < w'.next ∧ J b x') (fun _ _ _ => True)) (hf : ∀ b, Agree (J b) (f b) (g b)) :
    Agree I (p >>= f) (q >>= g) := by
  refine ⟨fun x w hw hx => ?_⟩
  have h1 := h.run x w hw hx
  have h2 := hq x w hw hx
  show Prog.bind p f x w = Prog.bind q g x w
  unfold Prog.bind Leaves at *
  rw [h1]
  cases hr : q x w with
  | ok b x' w' => rw [hr] at h2; exact (hf b).run x' w' h2.1 h2.2
  | exc e x' w' => rfl
  | ub => rfl

theorem locally {y : Y} {J : Y → Prop} {p q : Prog Y β} {f : β → Y → α} (h : Agree J p q) (hy : J y) : Agree I (Prog.locally y p f) (Prog.locally y q f) := by
  refine ⟨fun x w hw hx => ?_⟩
  unfold Prog.locally
  rw [h.run y w hw hy]

end Agree

namespace Split
variable {V : Type} {W : Nat} {E : Env V} {t : Ty}

theorem wadd_lt {a b : Nat} (h : a + b < W) : wadd W a b = a + b := Nat.mod_eq_of_lt h

/-- The loop counts from `n` to `m`. -/
theorem buildLoopW_eq (m : Nat) (hm : m + 1 < W) : ∀ fuel n, n ≤ m + 1 → m + 1 - n < fuel →
    buildLoopW W E m fuel n = Prog.each (pushIndex E) (List.range' n (m + 1 - n)) := by
  intro fuel
  induction fuel with
  | zero => intro n _ h; omega
  | succ fuel ih =>
    intro n hn hf
    unfold buildLoopW
    by_cases h : n ≤ m
    · rw [if_pos h, wadd_lt (by omega), ih (n + 1) (by omega) (by omega)]
      rw [show m + 1 - n = (m + 1 - (n + 1)) + 1 by omega, List.range'_succ]
      rfl
    · rw [if_neg h, show m + 1 - n = 0 by omega]; rfl

theorem popLoopW_eq : ∀ fuel n, n < W → n < fuel → (popLoopW W fuel n : Prog (Split V) Unit) = popIndexEntry n := by
  intro fuel
  induction fuel with
  | zero => intro n _ h; omega
  | succ fuel ih =>
    intro n hw hf
    unfold popLoopW
    cases n with
    | zero => rfl
    | succ n =>
      rw [if_neg (by omega), wsub_le (by omega) hw, show n + 1 - 1 = n by omega, ih n (by omega) (by omega)]
      rfl

theorem popIndexEntryW_eq {n : Nat} (h : n < W) : (popIndexEntryW W n : Prog (Split V) Unit) = popIndexEntry n :=
  popLoopW_eq _ _ h (by omega)

section
variable (hf : E.Fits) (hW : E.Machine W)
include hf hW

theorem size_lt {x : Split V} (hx : SpLim E t x) : 2 * x.s.size + 2 ≤ W ∧ 2 * x.s.cap + 2 ≤ W ∧ 2 * x.i.size + 2 ≤ W := by
  have h1 := hx.2.1.size
  have h2 := hx.2.1.max hf
  have h3 := hx.2.2.size
  have h4 := hx.2.2.max hf
  have h5 := hW.store t
  have h6 := hW.index
  omega

theorem buildIndexW_agree {n : Nat} (hn : 2 * n ≤ W) : Agree (SpLim E t) (buildIndexW W E n) (buildIndex E n) := by
  refine Agree.get fun x hx => ?_
  obtain ⟨h1, -, -⟩ := size_lt hf hW hx
  refine ⟨fun y w _ _ => ?_⟩
  by_cases h : n ≤ x.s.size + 1
  · rw [buildLoopW_eq x.s.size (by omega) _ _ h (by omega)]
  · rw [show x.s.size + 1 - n = 0 by omega]
    unfold buildLoopW
    rw [if_neg (by omega)]; rfl

theorem rebuildIndexW_agree : Agree (SpLim E t) (rebuildIndexW W E) (rebuildIndex E) :=
  Agree.same (onI_holds idxClear_holds) fun _ => buildIndexW_agree hf hW (by omega)

theorem pushIndexEntryW_agree : Agree (SpLim E t) (pushIndexEntryW W E) (pushIndexEntry E) :=
  Agree.get fun x hx => buildIndexW_agree hf hW (by have := size_lt hf hW hx; omega)

theorem expandW_agree : Agree (SpLim E t) (expandW W E) (expand E) := by
  refine Agree.get fun x hx => ?_
  have h1 := hW.store t
  have e : x.ty = t := hx.1
  obtain ⟨h2, h3⟩ := growth_machine (size := x.s.size) (hW.store x.ty) (hf.one _) (by
    have h1 := hx.2.1.size
    have h2 := hx.2.1.max hf
    rw [e]; omega)
  simp only [h2, wadd_lt h3]
  exact Agree.same (onI_holds (Env.idxReserve_holds _)) fun _ =>
    Agree.same (onS_ty hx (p := fun t => E.reserve t _) (Env.reserve_holds _)) fun _ => rebuildIndexW_agree hf hW

theorem expandByW_agree {m : Nat} (hm : 2 * m + 2 ≤ W) : Agree (SpLim E t) (expandByW W E m) (expandBy E m) := by
  refine Agree.get fun x hx => ?_
  obtain ⟨h1, -, -⟩ := size_lt hf hW hx
  rw [wadd_lt (a := x.s.size) (b := m) (by omega), wadd_lt (by omega)]
  exact Agree.same (onI_holds (Env.idxReserve_holds _)) fun _ =>
    Agree.same (onS_ty hx (p := fun t => E.reserve t _) (Env.reserve_holds _)) fun _ => rebuildIndexW_agree hf hW

theorem prereserveW_agree : Agree (SpLim E t) (prereserveW W E) (prereserve E) :=
  Agree.get fun _ _ => Agree.ite Iff.rfl (fun _ => expandW_agree hf hW) fun _ => Agree.rfl'

theorem prereserveAtW_agree (p : PosArg) : Agree (SpLim E t) (prereserveAtW W E p) (prereserveAt E p) :=
  Agree.get fun _ _ => Agree.ite Iff.rfl (fun _ => Agree.same Hold.ofOption fun _ => Agree.seq (expandW_agree hf hW) expand_holds fun _ => Agree.rfl') fun _ => Agree.rfl'

theorem prereserveByW_agree (p : Ptr) {m : Nat} (hm : 2 * m + 2 ≤ W) : Agree (SpLim E t) (prereserveByW W E p m) (prereserveBy E p m) := by
  refine Agree.get fun x hx => ?_
  obtain ⟨h1, -, -⟩ := size_lt hf hW hx
  rw [wadd_lt (a := x.s.size) (b := m) (by omega)]
  exact Agree.ite Iff.rfl (fun _ => Agree.same Hold.ofOption fun _ => Agree.seq (expandByW_agree hf hW hm) (expandBy_holds m) fun _ => Agree.rfl') fun _ => Agree.rfl'

/-- For the largest number of all the sum with one is zero.  No store can have that many elements. -/
theorem reserveW_agree {n : Nat} (hn : n < W) : Agree (SpLim E t) (reserveW W E n) (reserve E n) := by
  refine Agree.get fun x hx => ?_
  by_cases h : n + 1 < W
  · rw [wadd_lt h]
    refine Agree.same (onI_holds (Env.idxReserve_holds _)) fun _ =>
      Agree.same (onS_ty hx (p := fun t => E.reserve t n) (Env.reserve_holds _)) fun _ => ?_
    exact Agree.ite Iff.rfl (fun _ => Agree.seq (rebuildIndexW_agree hf hW) rebuildIndex_holds fun _ => Agree.rfl') fun _ => Agree.rfl'
  · have e : wadd W n 1 = 0 := by unfold wadd; rw [show n + 1 = W by omega, Nat.mod_self]
    have h1 := hW.store x.ty
    have h2 := hW.index
    refine ⟨fun y w _ _ => ?_⟩
    rw [e]
    have a1 : (onI (E.idxReserve 0) : Prog (Split V) Unit) = Prog.pure () := by
      funext y w
      simp [onI, Env.idxReserve, Prog.zoom, Bind.bind, Prog.bind, Prog.get, Pure.pure, Prog.pure]
    have a2 : (onI (E.idxReserve (n + 1)) : Prog (Split V) Unit) = Prog.raise .lengthError := by
      funext y w
      simp only [onI, Env.idxReserve, Prog.zoom, Bind.bind, Prog.bind, Prog.get]
      rw [if_pos (by omega)]; rfl
    have a3 : (onS (E.reserve x.ty n) : Prog (Split V) Unit) = Prog.raise .lengthError := by
      funext y w
      simp only [onS, Env.reserve, Prog.zoom, Bind.bind, Prog.bind, Prog.get]
      rw [if_pos (by omega)]; rfl
    rw [a1, a2, a3]
    rfl

theorem shrinkBodyW_agree : Agree (SpLim E t) (shrinkBodyW W E) (shrinkBody E) := by
  have tail : ∀ x : Split V, Agree (SpLim E t) (do
      let y ← Prog.get
      if x.s.blk ≠ y.s.blk then
        if E.idxMaxSize < wadd W y.s.cap 1 then Prog.raise .lengthError
        else
          let b ← E.alloc
          Prog.set { y with i := ⟨b, E.lib.reserveCap (wadd W y.s.cap 1), []⟩ }
          buildIndexW W E 0
      else return () : Prog (Split V) Unit) (do
      let y ← Prog.get
      if x.s.blk ≠ y.s.blk then
        if E.idxMaxSize < y.s.cap + 1 then Prog.raise .lengthError
        else
          let b ← E.alloc
          Prog.set { y with i := ⟨b, E.lib.reserveCap (y.s.cap + 1), []⟩ }
          buildIndex E 0
      else return () : Prog (Split V) Unit) := fun x => by
    refine Agree.get fun y hy => ?_
    obtain ⟨-, h2, -⟩ := size_lt hf hW hy
    rw [wadd_lt (a := y.s.cap) (b := 1) (by omega)]
    refine Agree.ite Iff.rfl (fun _ => Agree.ite Iff.rfl (fun _ => Agree.rfl') fun h => ?_) fun _ => Agree.rfl'
    exact Agree.bind Agree.rfl' Hold.allocNew fun b hb => Agree.seq Agree.rfl' (Gives.set ⟨hy.1, hy.2.1, .fresh hb (Nat.lt_of_lt_of_le (Nat.succ_pos _) (E.lib.reserveCap_ge _)) (Nat.zero_le _) fun hf => hf.idxReserve _ (by omega)⟩)
      fun _ => buildIndexW_agree hf hW (by omega)
  refine Agree.get fun x hx => Agree.ite Iff.rfl (fun _ => Agree.same (onS_ty hx Env.shrinkToFit_holds) fun _ => tail x) fun _ =>
    Agree.bind Agree.rfl' Hold.allocNew fun b hb => Agree.seq Agree.rfl' (Gives.set ⟨hx.1, .fresh hb (Nat.lt_of_lt_of_le Nat.zero_lt_one (E.lib.reserveCap_ge _)) (Nat.zero_le _) fun hf => hf.reserve _ _ (hf.one _), hx.2.2⟩) fun _ => tail x

theorem shrinkToFitW_agree : Agree (SpLim E t) (shrinkToFitW W E) (shrinkToFit E) :=
  Agree.seq (Agree.onExc (shrinkBodyW_agree hf hW) shrinkBody_holds (rebuildIndexW_agree hf hW)) (Gives.onExc shrinkBody_holds rebuildIndex_holds) fun _ => Agree.rfl'

theorem emplaceAtW_agree (p : PosArg) (src : Src V) : Agree (SpLim E t) (emplaceAtW W E p src) (emplaceAt E p src) :=
  Agree.seq (prereserveAtW_agree hf hW p) (prereserveAt_holds p) fun _ => Agree.get fun _ hx => Agree.same Hold.ofOption fun n =>
    Agree.same (onS_ty hx (p := fun t => E.emplaceAt t n src) (Env.emplaceAt_holds _ _)) fun _ =>
    Agree.seq (pushIndexEntryW_agree hf hW) pushIndexEntry_holds fun _ => Agree.rfl'

end

/-- If the program returns, the store has at least `d` elements more. -/
def Grows {α : Type} (d : Nat) (p : Prog (Split V) α) : Prop :=
  ∀ x w, Leaves p x w (fun _ x' _ => x.s.size + d ≤ x'.s.size) (fun _ _ _ => True)

namespace Grows
variable {α β : Type} {d e : Nat}

theorem bind {p : Prog (Split V) β} {f : β → Prog (Split V) α} (hp : Grows d p) (hf : ∀ b, Grows e (f b)) : Grows (d + e) (p >>= f) := fun x w =>
  leaves_bind.2 ((hp x w).mono (fun b x' w' h => (hf b x' w').mono (fun _ _ _ h' => by omega) fun _ _ _ _ => trivial) fun _ _ _ _ => trivial)
theorem none {p : Prog (Split V) β} {f : β → Prog (Split V) α} (hp : Grows 0 p) (hf : ∀ b, Grows e (f b)) : Grows e (p >>= f) := by
  have := bind hp hf; rwa [Nat.zero_add] at this
theorem pure {a : α} : Grows 0 (Pure.pure a : Prog (Split V) α) := fun _ _ => Nat.le_refl _
theorem pure' {a : α} : Grows 0 (Prog.pure a : Prog (Split V) α) := fun _ _ => Nat.le_refl _
theorem get : Grows 0 (Prog.get : Prog (Split V) (Split V)) := fun _ _ => Nat.le_refl _
theorem undef : Grows d (Prog.undef : Prog (Split V) α) := fun _ _ => trivial
theorem ofOption {o : Option α} : Grows 0 (Prog.ofOption o : Prog (Split V) α) := fun _ _ => leaves_ofOption.2 fun _ _ => Nat.le_refl _
theorem ite {c : Prop} [Decidable c] {p q : Prog (Split V) α} (hp : Grows d p) (hq : Grows d q) : Grows d (if c then p else q) := by
  split <;> assumption
theorem onI {p : Prog (Vec Ptr) α} : Grows 0 (Split.onI p : Prog (Split V) α) := fun x w => by
  exact leaves_zoom.2 (Leaves.any.mono (fun _ _ _ _ => Nat.le_refl _) fun _ _ _ _ => trivial)
theorem onS {p : Prog (Vec V) α} (h : ∀ s w, Leaves p s w (fun _ s' _ => s.size + d ≤ s'.size) (fun _ _ _ => True)) : Grows d (Split.onS p) := fun x w =>
  leaves_zoom.2 ((h x.s w).mono (fun _ _ _ h => h) fun _ _ _ _ => trivial)
theorem each {f : β → Prog (Split V) Unit} (hf : ∀ b, Grows 0 (f b)) : ∀ l, Grows 0 (Prog.each f l)
  | [] => pure
  | b :: l => none (hf b) fun _ => each hf l

end Grows

theorem reserve_size (n : Nat) (s : Vec V) (w : World) : Leaves (E.reserve t n) s w (fun _ s' _ => s.size + 0 ≤ s'.size) (fun _ _ _ => True) := by
  unfold Env.reserve
  refine leaves_bind.2 (leaves_get.2 (leaves_ite.2 ⟨fun _ => trivial, fun _ => leaves_ite.2 ⟨fun _ => Nat.le_refl _, fun _ => ?_⟩⟩))
  exact leaves_bind.2 (Leaves.any.mono (fun _ _ _ _ => leaves_bind.2 (Leaves.any.mono (fun _ _ _ _ => Nat.le_refl _) fun _ _ _ _ => trivial)) fun _ _ _ _ => trivial)

theorem emplaceBack_size (src : Src V) (s : Vec V) (w : World) : Leaves (E.emplaceBack t src) s w (fun _ s' _ => s.size + 1 ≤ s'.size) (fun _ _ _ => True) := by
  unfold Env.emplaceBack
  have h : ∀ v : V, s.size + 1 ≤ (s.elems ++ [v]).length := fun v => by simp [Vec.size]
  refine leaves_bind.2 (leaves_get.2 (leaves_ite.2 ⟨fun _ => ?_, fun _ => leaves_ite.2 ⟨fun _ => trivial, fun _ => ?_⟩⟩))
  · exact leaves_bind.2 (Leaves.any.mono (fun v _ _ _ => h v) fun _ _ _ _ => trivial)
  · exact leaves_bind.2 (Leaves.any.mono (fun _ _ _ _ => leaves_bind.2 (Leaves.any.mono (fun v _ _ _ =>
      leaves_bind.2 (Leaves.any.mono (fun _ _ _ _ => h v) fun _ _ _ _ => trivial)) fun _ _ _ _ => trivial)) fun _ _ _ _ => trivial)

theorem emplaceAt_size (n : Nat) (src : Src V) (s : Vec V) (w : World) : Leaves (E.emplaceAt t n src) s w (fun _ s' _ => s.size + 1 ≤ s'.size) (fun _ _ _ => True) := by
  unfold Env.emplaceAt
  refine leaves_bind.2 (leaves_get.2 (leaves_ite.2 ⟨fun _ => trivial, fun h0 => leaves_ite.2 ⟨fun _ => emplaceBack_size src s w, fun _ => ?_⟩⟩))
  have h : ∀ v : V, s.size + 1 ≤ (s.elems.insertIdx n v).length := fun v => by
    rw [List.length_insertIdx, if_pos (by simp only [Vec.size] at h0; omega)]; exact Nat.le_refl _
  refine leaves_ite.2 ⟨fun _ => ?_, fun _ => leaves_ite.2 ⟨fun _ => trivial, fun _ => ?_⟩⟩
  · exact leaves_bind.2 (Leaves.any.mono (fun v _ _ _ => leaves_bind.2 (Leaves.any.mono (fun _ _ _ _ => h v) fun _ _ _ _ => trivial)) fun _ _ _ _ => trivial)
  · exact leaves_bind.2 (Leaves.any.mono (fun _ _ _ _ => leaves_bind.2 (Leaves.any.mono (fun v _ _ _ =>
      leaves_bind.2 (Leaves.any.mono (fun _ _ _ _ => h v) fun _ _ _ _ => trivial)) fun _ _ _ _ => trivial)) fun _ _ _ _ => trivial)

theorem eraseRange_size (a b : Nat) (s : Vec V) (w : World) : Leaves (E.eraseRange t a b) s w (fun _ s' _ => s'.size ≤ s.size) (fun _ _ _ => True) := by
  unfold Env.eraseRange
  refine leaves_bind.2 (leaves_get.2 (leaves_ite.2 ⟨fun h => ?_, fun _ => trivial⟩))
  refine leaves_bind.2 (Leaves.any.mono (fun _ _ _ _ => ?_) fun _ _ _ _ => trivial)
  show (s.elems.take a ++ s.elems.drop b).length ≤ s.elems.length
  simp only [List.length_append, List.length_take, List.length_drop, Vec.size] at *
  omega

theorem buildIndex_grows (n : Nat) : Grows 0 (buildIndex E n) := Grows.none Grows.get fun _ =>
  Grows.each (fun _ => Grows.none Grows.get fun _ => Grows.ite Grows.undef Grows.onI) _
theorem pushIndexEntry_grows : Grows 0 (pushIndexEntry E) := Grows.none Grows.get fun _ => buildIndex_grows _
theorem expand_grows : Grows 0 (expand E) := Grows.none Grows.get fun _ => Grows.none Grows.onI fun _ =>
  Grows.none (Grows.onS (reserve_size _)) fun _ => Grows.none Grows.onI fun _ => buildIndex_grows 0
theorem prereserveAt_grows (p : PosArg) : Grows 0 (prereserveAt E p) := Grows.none Grows.get fun _ => Grows.ite
  (Grows.none Grows.ofOption fun _ => Grows.none expand_grows fun _ => Grows.none Grows.get fun _ => by cases p <;> exact Grows.pure) Grows.pure

/-- The loop inserts all elements. -/
theorem insertLoop_grows (srcs : List (Src V)) : ∀ p, Grows srcs.length (insertLoop E p srcs) := by
  induction srcs with
  | nil => intro p; exact Grows.pure'
  | cons src srcs ih =>
    intro p
    refine Grows.none (prereserveAt_grows _) fun q => Grows.none Grows.get fun x => Grows.none Grows.ofOption fun k => ?_
    rw [List.length_cons, Nat.add_comm]
    refine Grows.bind (Grows.onS (emplaceAt_size _ _)) fun _ => Grows.none pushIndexEntry_grows fun _ => ?_
    cases q with
    | loc q => exact ih _
    | base q => exact Grows.undef

/-- What holds after an operation that keeps to the limits and makes the store grow. -/
theorem grown {α : Type} {d : Nat} {p : Prog (Split V) α} (hp : Hold (SpLim E t) p) (hg : Grows d p) (x : Split V) (w : World) (hw : 0 < w.next) (hx : SpLim E t x) :
    Leaves p x w (fun _ x' w' => 0 < w'.next ∧ SpLim E t x' ∧ d ≤ x'.s.size) (fun _ _ _ => True) :=
  ((hp.run x w hw hx).both (hg x w)).mono (fun _ _ _ h => ⟨h.1.1, h.1.2.1, by omega⟩) fun _ _ _ _ => trivial

section
variable (hf : E.Fits) (hW : E.Machine W)
include hf hW

theorem pushBackW_agree (src : Src V) : Agree (SpLim E t) (pushBackW W E src) (pushBack E src) := by
  refine Agree.seq (prereserveW_agree hf hW) prereserve_holds fun _ => Agree.get fun x hx => ?_
  refine Agree.bindTo (fun _ y => SpLim E t y ∧ 1 ≤ y.s.size) Agree.rfl'
    (fun x w hw hx' => grown (onS_ty hx (p := fun t => E.emplaceBack t src) (Env.emplaceBack_holds _)) (Grows.onS (emplaceBack_size _)) x w hw hx') fun _ => ?_
  refine Agree.bindTo (fun _ y => SpLim E t y ∧ 1 ≤ y.s.size) ((pushIndexEntryW_agree hf hW).weaken fun _ h => h.1) (fun x w hw hx' => ?_) fun _ => ?_
  · exact ((pushIndexEntry_holds.run x w hw hx'.1).both (pushIndexEntry_grows x w)).mono (fun _ _ _ h => ⟨h.1.1, h.1.2.1, by have := hx'.2; omega⟩) fun _ _ _ _ => trivial
  · refine Agree.get fun y hy => ?_
    have h := size_lt hf hW hy.1
    rw [wsub_le hy.2 (by omega)]
    exact Agree.rfl'

theorem insertLoopW_agree (srcs : List (Src V)) : ∀ p n, n < W →
    Agree (SpLim E t) (insertLoopW W E p n srcs) (insertLoop E p srcs >>= fun q => Prog.pure (q, (n + srcs.length) % W)) := by
  induction srcs with
  | nil =>
    intro p n hn
    refine ⟨fun x w _ _ => ?_⟩
    show _ = Out.ok (p, (n + 0) % W) x w
    rw [Nat.add_zero, Nat.mod_eq_of_lt hn]; rfl
  | cons src srcs ih =>
    intro p n hn
    have assoc : ∀ {X α β γ : Type} (p : Prog X α) (f : α → Prog X β) (g : β → Prog X γ), ((p >>= f) >>= g) = (p >>= fun a => f a >>= g) := by
      intro X α β γ p f g
      funext x w
      show Prog.bind (Prog.bind p f) g x w = Prog.bind p (fun a => Prog.bind (f a) g) x w
      unfold Prog.bind
      cases p x w <;> rfl
    unfold insertLoopW insertLoop
    rw [assoc]
    refine Agree.seq (prereserveAtW_agree hf hW _) (prereserveAt_holds _) fun q => ?_
    rw [assoc]
    refine Agree.get fun x hx => ?_
    rw [assoc]
    refine Agree.same Hold.ofOption fun k => ?_
    rw [assoc]
    refine Agree.same (onS_ty hx (p := fun t => E.emplaceAt t k src) (Env.emplaceAt_holds _ _)) fun _ => ?_
    rw [assoc]
    refine Agree.seq (pushIndexEntryW_agree hf hW) pushIndexEntry_holds fun _ => ?_
    cases q with
    | base q => exact Agree.rfl'
    | loc q =>
      have := ih ⟨q.blk, q.off + 1⟩ (wadd W n 1) (Nat.mod_lt _ (by omega))
      have e : (wadd W n 1 + srcs.length) % W = (n + (src :: srcs).length) % W := by
        unfold wadd
        rw [Nat.mod_add_mod, List.length_cons, Nat.add_assoc, Nat.add_comm 1]
      rw [e] at this
      exact this

theorem insertInputW_agree (p : Ptr) (srcs : List (Src V)) : Agree (SpLim E t) (insertInputW W E p srcs) (insertInput E p srcs) := by
  have h0 : 0 < W := by have := hW.index; omega
  have h1 := insertLoopW_agree (t := t) hf hW srcs p 0 h0
  have h2 : insertInput E p srcs = (insertLoop E p srcs >>= fun q => Prog.pure (q, srcs.length)) >>= fun q => (do
      let x ← Prog.get
      if q.1.off < q.2 then Prog.undef
      else
        let n ← Prog.ofOption (x.s.posOf ⟨q.1.blk, q.1.off - q.2⟩)
        retRange n) := by
    funext x w
    show Prog.bind _ _ x w = Prog.bind (Prog.bind _ _) _ x w
    unfold Prog.bind
    cases insertLoop E p srcs x w <;> rfl
  rw [h2]
  refine Agree.bindTo (fun _ _ => True) ⟨fun x w hw hx => ?_⟩ ?_ fun _ => Agree.rfl'
  · rw [h1.run x w hw hx]
    have h3 := grown (insertLoop_holds srcs p) (insertLoop_grows srcs p) x w hw hx
    show Prog.bind _ _ x w = Prog.bind _ _ x w
    unfold Prog.bind Leaves at *
    cases hr : insertLoop E p srcs x w with
    | ok q y w' =>
      rw [hr] at h3
      have := size_lt hf hW h3.2.1
      have := h3.2.2
      show Out.ok (q, (0 + srcs.length) % W) y w' = Out.ok (q, srcs.length) y w'
      rw [Nat.zero_add, Nat.mod_eq_of_lt (by omega)]
    | exc e y w' => rfl
    | ub => rfl
  · intro x w hw hx
    refine leaves_bind.2 (((insertLoop_holds srcs p).run x w hw hx).mono (fun _ _ _ h => ⟨h.1, trivial⟩) fun _ _ _ _ => trivial)

theorem insertForwardW_agree (p : Ptr) {srcs : List (Src V)} (hm : 2 * srcs.length + 2 ≤ W) : Agree (SpLim E t) (insertForwardW W E p srcs) (insertForward E p srcs) := by
  unfold insertForwardW insertForward
  rw [Nat.mod_eq_of_lt (show srcs.length < W by omega)]
  refine Agree.get fun x hx => Agree.ite Iff.rfl (fun _ => ?_) fun _ => Agree.rfl'
  have h1 := size_lt hf hW hx
  rw [wadd_lt (a := x.s.size) (b := 1) (by omega)]
  have hb : Agree (SpLim E t) (buildIndexW W E (x.s.size + 1)) (buildIndex E (x.s.size + 1)) := buildIndexW_agree hf hW (by omega)
  refine Agree.seq (prereserveByW_agree hf hW p hm) (prereserveBy_holds p _) fun p' => Agree.get fun y hy => Agree.same Hold.ofOption fun k => ?_
  have hs := onS_ty hy (p := fun t => E.insertRange t k srcs) (Env.insertRange_holds _ _)
  exact Agree.seq (Agree.onExc Agree.rfl' hs hb) (Gives.onExc hs (buildIndex_holds _)) fun _ => Agree.seq hb (buildIndex_holds _) fun _ => Agree.rfl'

omit hf in
theorem eraseW_agree (p : Ptr) : Agree (SpLim E t) (eraseW W E p) (erase E p) := by
  unfold eraseW erase
  rw [popIndexEntryW_eq (by have := hW.index; omega)]
  exact Agree.rfl'

/-- The last steps of the functions that erase several elements. -/
theorem erased_agree {f : Ty → Prog (Vec V) Unit} {x : Split V} (hx : SpLim E t x) (hh : Hold (VLim E (E.maxSize t)) (f t))
    (hs : ∀ s w, Leaves (f t) s w (fun _ s' _ => s'.size ≤ s.size) (fun _ _ _ => True)) (a : Nat) :
    Agree (fun y => y = x) (do
        onS (f x.ty)
        let y ← Prog.get
        popIndexEntryW W (wsub W x.s.size y.s.size)
        retRange a : Prog (Split V) (Ptr × Ptr))
      (do
        onS (f x.ty)
        let y ← Prog.get
        popIndexEntry (x.s.size - y.s.size)
        retRange a) := by
  refine Agree.bindTo (fun _ y => SpLim E t y ∧ y.s.size ≤ x.s.size) Agree.rfl' (fun y w hw hy => ?_) fun _ => Agree.get fun y hy => ?_
  · subst hy
    have e : y.ty = t := hx.1
    rw [e]
    exact (((onS_gives hh).run y w hw hx).both (leaves_zoom (R := fun _ _ _ => True).2 (hs y.s w))).mono (fun _ _ _ h => ⟨h.1.1, h.1.2.1, h.2⟩) fun _ _ _ _ => trivial
  · have h1 := size_lt hf hW hx
    rw [wsub_le hy.2 (by omega), popIndexEntryW_eq (by omega)]
    exact Agree.rfl'

theorem eraseRangeW_agree (p q : Ptr) : Agree (SpLim E t) (eraseRangeW W E p q) (eraseRange E p q) := by
  refine Agree.get_at (fun x y => y = x) (fun _ _ => rfl) fun x hx => Agree.same Hold.ofOption fun a => Agree.same Hold.ofOption fun b => ?_
  exact erased_agree hf hW (f := fun t => E.eraseRange t a b) hx (Env.eraseRange_holds _ _) (eraseRange_size _ _) a

theorem eraseTillEndW_agree (p : Ptr) : Agree (SpLim E t) (eraseTillEndW W E p) (eraseTillEnd E p) := by
  refine Agree.get_at (fun x y => y = x) (fun _ _ => rfl) fun x hx => Agree.same Hold.ofOption fun a => ?_
  exact erased_agree hf hW (f := fun t => E.eraseRange t a x.s.size) hx (Env.eraseRange_holds _ _) (eraseRange_size _ _) a

theorem eraseFromBeginW_agree (p : Ptr) : Agree (SpLim E t) (eraseFromBeginW W E p) (eraseFromBegin E p) := by
  refine Agree.get_at (fun x y => y = x) (fun _ _ => rfl) fun x hx => Agree.same Hold.ofOption fun b => ?_
  exact erased_agree hf hW (f := fun t => E.eraseRange t 0 b) hx (Env.eraseRange_holds _ _) (eraseRange_size _ _) 0

/-- If the index is empty the first round is undefined. -/
theorem clearW_agree : Agree (SpLim E t) (clearW W : Prog (Split V) Ptr) clear := by
  refine Agree.same (onS_gives Env.clearVec_holds) fun _ => Agree.get_at (fun x y => y = x) (fun _ _ => rfl) fun x hx => ?_
  have h1 := size_lt hf hW hx
  by_cases h : x.i.elems = []
  · rw [if_pos h]
    refine ⟨fun y w _ hy => ?_⟩
    subst hy
    have e : wsub W y.i.size 1 = W - 1 := by
      rw [show y.i.size = 0 by simp [Vec.size, h], wsub_lt (by omega) (by omega)]
    rw [e]
    unfold popIndexEntryW popLoopW
    rw [if_neg (by omega)]
    simp [onI, idxPopBack, Prog.zoom, Bind.bind, Prog.bind, Prog.get, h, Prog.undef]
  · rw [if_neg h]
    have h2 : 1 ≤ x.i.size := by
      simp only [Vec.size]
      rcases hl : x.i.elems with _ | ⟨a, l⟩
      · exact absurd hl h
      · simp
    rw [wsub_le h2 (by omega), popIndexEntryW_eq (by omega)]
    exact Agree.rfl'

theorem initW_eq {X : Type} (al objAl : Alloc) {s : Vec V} (hs : VLim E (E.maxSize t) s) {x : X} {w : World} (hw : 0 < w.next) :
    (initW W E t al objAl s : Prog X (Split V)) x w = init E t al objAl s x w := by
  refine (Agree.locally (I := fun _ => True) (J := SpLim E t) ?_ ⟨rfl, hs, Env.vlim_nil⟩).run x w hw trivial
  exact Agree.same (onS_gives (Env.reserve_holds 1)) fun _ => buildIndexW_agree hf hW (by omega)

theorem makeW_agree {X : Type} (al : Alloc) : Agree (fun _ => True) (makeW W E t al : Prog X (Split V)) (make E t al) :=
  Agree.same Hold.alloc fun _ => ⟨fun _ _ hw _ => initW_eq hf hW _ _ Env.vlim_nil hw⟩

theorem copyW_agree {X : Type} {x : Split V} (hx : SpLim E t x) : Agree (fun _ => True) (copyW W E x : Prog X (Split V)) (copy E x) := by
  obtain ⟨rfl, hx, -⟩ := hx
  exact Agree.bind Agree.rfl' (Env.copyVec_gives hx) fun _ hs => Agree.same Hold.alloc fun _ => ⟨fun _ _ hw _ => initW_eq hf hW _ _ hs hw⟩

theorem copyAlW_agree {X : Type} {x : Split V} (hx : SpLim E t x) (al : Alloc) : Agree (fun _ => True) (copyAlW W E x al : Prog X (Split V)) (copyAl E x al) := by
  obtain ⟨rfl, hx, -⟩ := hx
  exact Agree.bind Agree.rfl' (Env.copyVec_gives hx) fun _ hs => Agree.same Hold.alloc fun _ => ⟨fun _ _ hw _ => initW_eq hf hW _ _ hs hw⟩

theorem moveW_agree (al : Alloc) : Agree (SpLim E t) (moveW W E al) (move E al) := by
  refine Agree.get fun x hx => Agree.bind Agree.rfl' (onS_ty hx (p := fun t => E.moveVec t (decide (x.al = al))) (Env.moveVec_gives _)) fun s hs =>
    Agree.same Hold.alloc fun _ => ⟨fun _ _ hw _ => ?_⟩
  have e : x.ty = t := hx.1
  rw [e]; exact initW_eq hf hW _ _ hs hw

end

end Split
end PolyColl
