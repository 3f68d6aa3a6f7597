import Verif.Lemmas.Throws
/-!
# How many steps that may fail an operation takes

`World.tick` counts the steps the environment may make fail: allocations, and operations of elements that are not
declared not to throw.  Here are the exact numbers for operations that need no new memory.
-/

namespace PolyColl
open Prog

namespace Env
variable {V : Type} (E : Env V)

/-- Steps that may fail when an element is built from `src`. -/
def buildCost (t : Ty) : Src V → Nat
  | .copyExt _ | .copyAlias _ => if (E.traits t).nothrowCopy then 0 else 1
  | .moveExt _ => if (E.traits t).nothrowMove then 0 else 1
  | .emplaced _ => 1

/-- Steps that may fail when elements are built from `srcs`. -/
def buildCosts (t : Ty) : List (Src V) → Nat
  | [] => 0
  | src :: srcs => E.buildCost t src + buildCosts t srcs

/-- Steps that may fail when room is made between elements (counted as one). -/
def openCost (t : Ty) : Nat := if (E.traits t).nothrowMove && (E.traits t).nothrowAssign then 0 else 1

/-- Steps that may fail when a gap between elements is closed (counted as one). -/
def closeCost (t : Ty) : Nat := if (E.traits t).nothrowAssign then 0 else 1

/-- Steps that may fail when room is made for a range of `n` elements: split segments make room for each element if the
range is single pass, otherwise room is made once. -/
def openCosts (split fwd : Bool) (t : Ty) (n : Nat) : Nat := if split && !fwd then n * E.openCost t else E.openCost t

/-- The steps of an operation that takes at most `n` and throws only when one fails, or when asked to copy what cannot be
copied (`C`). -/
def Within (w : World) (n : Nat) (C : Prop) (e : Exc) (w' : World) : Prop := w'.tick ≤ w.tick + n ∧ (e = .user ∨ C)

variable {E}

theorem Within.mono {w w1 w2 : World} {n m : Nat} {C D : Prop} {e : Exc} (h : Within w1 n C e w2) (hw : w1.tick + n ≤ w.tick + m) (hc : C → D) :
    Within w m D e w2 := ⟨Nat.le_trans h.1 hw, h.2.imp id hc⟩

variable (E)

/-- What cannot be copied is copied. -/
def BadCopy (t : Ty) (src : Src V) : Prop := src.copies = true ∧ (E.traits t).copyable = false

theorem userOp_cost {X : Type} (b : Bool) (x : X) (w : World) : Leaves (E.userOp b : Prog X Unit) x w
    (fun _ x' w' => x' = x ∧ w'.tick = w.tick + if b then 0 else 1)
    (fun e x' w' => x' = x ∧ Within w (if b then 0 else 1) False e w') := by
  unfold Leaves userOp Within
  cases b
  · by_cases h : E.fault w.tick = true
    · simp [h]
    · simp [h]
  · simp

theorem copyVH_cost {X : Type} (t : Ty) (x : X) (w : World) : Leaves (E.copyVH t : Prog X Unit) x w
    (fun _ x' w' => x' = x ∧ w'.tick = w.tick + if (E.traits t).nothrowCopy then 0 else 1)
    (fun e x' w' => x' = x ∧ Within w (if (E.traits t).nothrowCopy then 0 else 1) ((E.traits t).copyable = false) e w') := by
  unfold copyVH
  split
  · exact (E.userOp_cost _ x w).mono (fun _ _ _ h => h) (fun _ _ _ h => ⟨h.1, h.2.mono (Nat.le_refl _) False.elim⟩)
  · rename_i h
    exact ⟨rfl, Nat.le_add_right _ _, .inr (by simpa using h)⟩

theorem construct_cost (t : Ty) (src : Src V) (s : Vec V) (w : World) : Leaves (E.construct t src) s w
    (fun _ s' w' => s' = s ∧ w'.tick = w.tick + E.buildCost t src)
    (fun e s' w' => s' = s ∧ Within w (E.buildCost t src) (E.BadCopy t src) e w') := by
  unfold construct
  cases src with
  | copyExt v =>
    refine leaves_bind.2 ((E.copyVH_cost t s w).mono ?_ ?_)
    · rintro _ _ _ ⟨rfl, h⟩; exact ⟨rfl, h⟩
    · rintro _ _ _ ⟨rfl, h⟩; exact ⟨rfl, h.mono (Nat.le_refl _) fun h => ⟨rfl, h⟩⟩
  | copyAlias p =>
    refine leaves_bind.2 (leaves_get.2 (leaves_bind.2 (leaves_ofOption.2 fun v _ => leaves_bind.2 ((E.copyVH_cost t s w).mono ?_ ?_))))
    · rintro _ _ _ ⟨rfl, h⟩; exact ⟨rfl, h⟩
    · rintro _ _ _ ⟨rfl, h⟩; exact ⟨rfl, h.mono (Nat.le_refl _) fun h => ⟨rfl, h⟩⟩
  | moveExt v =>
    refine leaves_bind.2 ((E.userOp_cost _ s w).mono ?_ ?_)
    · rintro _ _ _ ⟨rfl, h⟩; exact ⟨rfl, h⟩
    · rintro _ _ _ ⟨rfl, h⟩; exact ⟨rfl, h.mono (Nat.le_refl _) False.elim⟩
  | emplaced v =>
    refine leaves_bind.2 ((E.userOp_cost _ s w).mono ?_ ?_)
    · rintro _ _ _ ⟨rfl, h⟩; exact ⟨rfl, h⟩
    · rintro _ _ _ ⟨rfl, h⟩; exact ⟨rfl, h.mono (Nat.le_refl _) False.elim⟩

theorem mapConstruct_cost (t : Ty) (srcs : List (Src V)) (s : Vec V) (w : World) : Leaves (Prog.mapAll (E.construct t) srcs) s w
    (fun vs s' w' => s' = s ∧ vs.length = srcs.length ∧ w'.tick = w.tick + E.buildCosts t srcs)
    (fun e s' w' => s' = s ∧ Within w (E.buildCosts t srcs) (∃ src ∈ srcs, E.BadCopy t src) e w') := by
  induction srcs generalizing w with
  | nil => exact ⟨rfl, rfl, rfl⟩
  | cons src srcs ih =>
    refine leaves_bind.2 ((E.construct_cost t src s w).mono ?_ ?_)
    · rintro v _ w1 ⟨rfl, h1⟩
      refine leaves_bind.2 ((ih w1).mono ?_ ?_)
      · rintro vs _ w2 ⟨rfl, hl, h2⟩
        exact ⟨rfl, by simp [hl], by simp only [buildCosts]; omega⟩
      · rintro e _ w2 ⟨rfl, h2⟩
        exact ⟨rfl, h2.mono (by simp only [buildCosts]; omega) fun ⟨a, ha, h⟩ => ⟨a, by simp [ha], h⟩⟩
    · rintro e _ w1 ⟨rfl, h1⟩
      exact ⟨rfl, h1.mono (by simp only [buildCosts]; omega) fun h => ⟨src, by simp, h⟩⟩

theorem spoil_len (lo hi : Nat) (h : lo ≤ hi) (s : Vec V) (w : World) : Leaves (E.spoil lo hi) s w
    (fun _ s' w' => w' = w ∧ Vec.Same s s' ∧ lo ≤ s'.size ∧ s'.size ≤ hi) (fun _ _ _ => False) := by
  refine ⟨rfl, ⟨rfl, rfl⟩, ?_⟩
  have := Nat.mod_lt (E.junkLen w.tick) (show 0 < hi - lo + 1 by omega)
  simp only [Vec.size, junkList, List.length_map, List.length_range]
  omega

theorem shift_cost (b : Bool) (lo hi : Nat) (h : lo ≤ hi) (s : Vec V) (w : World) : Leaves (E.shift b lo hi) s w
    (fun _ s' w' => s' = s ∧ w'.tick = w.tick + if b then 0 else 1)
    (fun e s' w' => (Vec.Same s s' ∧ lo ≤ s'.size ∧ s'.size ≤ hi) ∧ Within w (if b then 0 else 1) False e w') := by
  refine leaves_onExc.2 ((E.userOp_cost b s w).mono (fun _ _ _ h => h) ?_)
  rintro e _ w1 ⟨rfl, h1⟩
  refine (E.spoil_len lo hi h _ w1).mono ?_ (fun _ _ _ h => h.elim)
  rintro _ s' _ ⟨rfl, h2⟩
  exact ⟨h2, h1⟩

theorem emplaceBack_cost (t : Ty) (src : Src V) (s : Vec V) (w : World) (hr : s.size < s.cap) : Leaves (E.emplaceBack t src) s w
    (fun _ s' w' => (Vec.Same s s' ∧ s'.size = s.size + 1) ∧ w'.tick = w.tick + E.buildCost t src)
    (fun e s' w' => s' = s ∧ Within w (E.buildCost t src) (E.BadCopy t src) e w') := by
  unfold emplaceBack
  refine leaves_bind.2 (leaves_get.2 ?_)
  rw [if_pos hr]
  refine leaves_bind.2 ((E.construct_cost t src s w).mono ?_ fun _ _ _ h => h)
  rintro v _ w1 ⟨rfl, h⟩
  exact ⟨⟨⟨rfl, rfl⟩, by simp [Vec.size]⟩, h⟩

theorem emplaceAt_cost (t : Ty) (n : Nat) (src : Src V) (s : Vec V) (w : World) (hr : s.size < s.cap) : Leaves (E.emplaceAt t n src) s w
    (fun _ s' w' => (Vec.Same s s' ∧ s'.size = s.size + 1) ∧ w'.tick = w.tick + (E.buildCost t src + if n = s.size then 0 else E.openCost t))
    (fun e _ w' => Within w (E.buildCost t src + if n = s.size then 0 else E.openCost t) (E.BadCopy t src) e w') := by
  unfold emplaceAt
  refine leaves_bind.2 (leaves_get.2 (leaves_ite.2 ⟨fun _ => trivial, fun hn => leaves_ite.2 ⟨fun he => ?_, fun he => ?_⟩⟩))
  · rw [if_pos he]
    exact (E.emplaceBack_cost t src s w hr).mono (fun _ _ _ h => h) (fun _ _ _ h => h.2)
  · rw [if_neg he, if_pos hr]
    refine leaves_bind.2 ((E.construct_cost t src s w).mono ?_ ?_)
    · rintro v _ w1 ⟨rfl, h⟩
      refine leaves_bind.2 ((E.shift_cost _ _ _ (by omega) _ w1).mono ?_ ?_)
      · rintro _ _ w2 ⟨rfl, h2⟩
        refine ⟨⟨⟨rfl, rfl⟩, ?_⟩, ?_⟩
        · simp only [Vec.size] at *
          rw [List.length_insertIdx]
          split <;> omega
        · unfold openCost; omega
      · rintro e _ w2 ⟨-, h2⟩
        exact h2.mono (by unfold openCost; omega) False.elim
    · rintro e _ w1 ⟨rfl, h⟩
      exact h.mono (by omega) id

theorem insertRange_cost (t : Ty) (n : Nat) (srcs : List (Src V)) (s : Vec V) (w : World) (hs : srcs ≠ []) (hr : s.size + srcs.length ≤ s.cap) :
    Leaves (E.insertRange t n srcs) s w
    (fun _ s' w' => (Vec.Same s s' ∧ s'.size = s.size + srcs.length) ∧ w'.tick = w.tick + (E.buildCosts t srcs + if n = s.size then 0 else E.openCost t))
    (fun e s' w' => (Vec.Same s s' ∧ s'.size ≤ s.size + srcs.length) ∧
      Within w (E.buildCosts t srcs + if n = s.size then 0 else E.openCost t) (∃ src ∈ srcs, E.BadCopy t src) e w') := by
  unfold insertRange
  refine leaves_bind.2 (leaves_get.2 (leaves_ite.2 ⟨fun _ => trivial, fun hn => ?_⟩))
  rw [if_neg hs, if_pos hr]
  refine leaves_ite.2 ⟨fun he => ?_, fun he => ?_⟩
  · rw [if_pos he]
    refine leaves_bind.2 ((E.mapConstruct_cost t srcs s w).mono ?_ ?_)
    · rintro vs _ w1 ⟨rfl, hl, h⟩
      exact ⟨⟨⟨rfl, rfl⟩, by simp [Vec.size, hl]⟩, h⟩
    · rintro e _ w1 ⟨rfl, h⟩
      exact ⟨⟨⟨rfl, rfl⟩, by omega⟩, h⟩
  · rw [if_neg he]
    refine leaves_bind.2 (leaves_onExc.2 ?_)
    have hsp : ∀ (e : Exc) (w1 : World), Within w (E.buildCosts t srcs + E.openCost t) (∃ src ∈ srcs, E.BadCopy t src) e w1 →
        Leaves (E.spoil s.size (s.size + srcs.length)) s w1
          (fun _ s' w' => (Vec.Same s s' ∧ s'.size ≤ s.size + srcs.length) ∧ Within w (E.buildCosts t srcs + E.openCost t) (∃ src ∈ srcs, E.BadCopy t src) e w')
          (fun e s' w' => (Vec.Same s s' ∧ s'.size ≤ s.size + srcs.length) ∧ Within w (E.buildCosts t srcs + E.openCost t) (∃ src ∈ srcs, E.BadCopy t src) e w') := by
      intro e w1 h
      refine (E.spoil_len _ _ (by omega) s w1).mono ?_ (fun _ _ _ h => h.elim)
      rintro _ s' _ ⟨rfl, h1, -, h2⟩
      exact ⟨⟨h1, h2⟩, h⟩
    refine leaves_bind.2 ((E.userOp_cost _ s w).mono ?_ ?_)
    · rintro _ _ w1 ⟨rfl, h1⟩
      refine (E.mapConstruct_cost t srcs _ w1).mono ?_ ?_
      · rintro vs _ w2 ⟨rfl, hl, h2⟩
        refine ⟨⟨⟨rfl, rfl⟩, ?_⟩, ?_⟩
        · simp only [Vec.size, List.length_append, List.length_take, List.length_drop] at *
          omega
        · unfold openCost; omega
      · rintro e _ w2 ⟨rfl, h2⟩
        exact hsp e w2 (h2.mono (by unfold openCost; omega) id)
    · rintro e _ w1 ⟨rfl, h1⟩
      exact hsp e w1 (h1.mono (by unfold openCost; omega) False.elim)

theorem emplaceBacks_cost (t : Ty) (srcs : List (Src V)) (s : Vec V) (w : World) (hr : s.size + srcs.length ≤ s.cap) :
    Leaves (Prog.each (E.emplaceBack t) srcs) s w
    (fun _ s' w' => (Vec.Same s s' ∧ s'.size = s.size + srcs.length) ∧ w'.tick = w.tick + E.buildCosts t srcs)
    (fun e _ w' => Within w (E.buildCosts t srcs) (∃ src ∈ srcs, E.BadCopy t src) e w') := by
  induction srcs generalizing s w with
  | nil => exact ⟨⟨⟨rfl, rfl⟩, rfl⟩, rfl⟩
  | cons src srcs ih =>
    simp only [List.length_cons] at hr
    refine leaves_bind.2 ((E.emplaceBack_cost t src s w (by omega)).mono ?_ ?_)
    · rintro _ s1 w1 ⟨⟨⟨h1, h2⟩, h3⟩, h4⟩
      refine (ih s1 w1 (by omega)).mono ?_ ?_
      · rintro _ s2 w2 ⟨⟨⟨h5, h6⟩, h7⟩, h8⟩
        exact ⟨⟨⟨h5.trans h1, h6.trans h2⟩, by simp only [List.length_cons]; omega⟩, by simp only [buildCosts]; omega⟩
      · rintro e _ w2 h
        exact h.mono (by simp only [buildCosts]; omega) fun ⟨a, ha, h⟩ => ⟨a, by simp [ha], h⟩
    · rintro e _ w1 ⟨-, h⟩
      exact h.mono (by simp only [buildCosts]; omega) fun h => ⟨src, by simp, h⟩

theorem insertInput_cost (t : Ty) (n : Nat) (srcs : List (Src V)) (s : Vec V) (w : World) (hs : srcs ≠ []) (hr : s.size + srcs.length ≤ s.cap)
    (ht : E.lib.inputTemp = false ∨ n = s.size) :
    Leaves (E.insertInput t n srcs) s w
    (fun _ _ w' => w'.tick = w.tick + (E.buildCosts t srcs + if n = s.size then 0 else E.openCost t))
    (fun e _ w' => Within w (E.buildCosts t srcs + if n = s.size then 0 else E.openCost t) (∃ src ∈ srcs, E.BadCopy t src) e w') := by
  unfold insertInput
  refine leaves_bind.2 (leaves_get.2 (leaves_ite.2 ⟨fun _ => trivial, fun hn => leaves_ite.2
    ⟨fun h => absurd h (by rcases ht with ht | ht <;> simp [ht]), fun _ => leaves_bind.2 ((E.emplaceBacks_cost t srcs s w hr).mono ?_ ?_)⟩⟩))
  · rintro _ s1 w1 ⟨-, h1⟩
    have e : (if ((E.traits t).nothrowMove && (E.traits t).nothrowAssign || decide (n = s.size) || srcs.isEmpty) = true then 0 else 1) =
        if n = s.size then 0 else E.openCost t := by
      have : srcs.isEmpty = false := by simpa using hs
      unfold openCost
      by_cases h : n = s.size <;> simp [h, this]
    refine leaves_bind.2 (leaves_get.2 (leaves_bind.2 ((E.shift_cost _ _ _ (Nat.le_refl _) s1 w1).mono ?_ ?_)))
    · rintro _ _ w2 ⟨rfl, h2⟩
      rw [e] at h2
      refine leaves_set.2 ?_
      show w2.tick = _
      omega
    · rintro x _ w2 ⟨-, h2⟩
      rw [e] at h2
      exact h2.mono (by omega) False.elim
  · rintro e _ w1 h
    exact h.mono (by omega) id

theorem eraseRange_cost (t : Ty) (a b : Nat) (s : Vec V) (w : World) : Leaves (E.eraseRange t a b) s w
    (fun _ s' w' => s'.size = s.size - (b - a) ∧ w'.tick = w.tick + if a = b ∨ b = s.size then 0 else E.closeCost t)
    (fun e _ w' => Within w (if a = b ∨ b = s.size then 0 else E.closeCost t) False e w') := by
  unfold eraseRange
  refine leaves_bind.2 (leaves_get.2 (leaves_ite.2 ⟨fun hab => ?_, fun _ => trivial⟩))
  have e : (if ((E.traits t).nothrowAssign || decide (a = b) || decide (b = s.size)) = true then 0 else 1) =
      if a = b ∨ b = s.size then 0 else E.closeCost t := by
    unfold closeCost
    by_cases h1 : a = b <;> by_cases h2 : b = s.size <;> simp [h1, h2]
  refine leaves_bind.2 ((E.shift_cost _ _ _ (Nat.le_refl _) s w).mono ?_ ?_)
  · rintro _ _ w1 ⟨rfl, h⟩
    rw [e] at h
    refine ⟨?_, h⟩
    simp only [Vec.size, List.length_append, List.length_take, List.length_drop] at *
    omega
  · rintro x _ w1 ⟨-, h⟩
    rwa [e] at h

theorem eraseAt_cost (t : Ty) (n : Nat) (s : Vec V) (w : World) : Leaves (E.eraseAt t n) s w
    (fun _ s' w' => s'.size = s.size - 1 ∧ w'.tick = w.tick + if n + 1 = s.size then 0 else E.closeCost t)
    (fun e _ w' => Within w (if n + 1 = s.size then 0 else E.closeCost t) False e w') := by
  unfold eraseAt
  refine leaves_bind.2 (leaves_get.2 (leaves_ite.2 ⟨fun hn => ?_, fun _ => trivial⟩))
  have h := E.eraseRange_cost t n (n + 1) s w
  have e : (n = n + 1 ∨ n + 1 = s.size) = (n + 1 = s.size) := by simp
  simp only [e] at h
  refine h.mono ?_ fun _ _ _ h => h
  rintro _ s' w' ⟨h1, h2⟩
  exact ⟨by omega, h2⟩

end Env

/-- `n` steps, and exceptions only as in `Env.Within`. -/
def Takes {X α : Type} (p : Prog X α) (x : X) (w : World) (n : Nat) (C : Prop) : Prop :=
  Leaves p x w (fun _ _ w' => w'.tick = w.tick + n) (fun e _ w' => Env.Within w n C e w')

namespace Packed
variable {V : Type} (E : Env V)

theorem emplaceAt_cost (p : Ptr) (src : Src V) (x : Packed V) (w : World) (k : Nat) (hp : x.s.posOf p = some k) (hr : x.s.size < x.s.cap) :
    Takes (emplaceAt E p src) x w (E.buildCost x.ty src + if k = x.s.size then 0 else E.openCost x.ty) (E.BadCopy x.ty src) := by
  refine leaves_bind.2 (leaves_get.2 (leaves_bind.2 (leaves_ofOption.2 fun j hj => leaves_bind.2 (leaves_zoom.2 ?_))))
  cases hp.symm.trans hj
  exact (E.emplaceAt_cost x.ty k src x.s w hr).mono (fun _ _ _ h => h.2) (fun _ _ _ h => h)

theorem pushBack_cost (src : Src V) (x : Packed V) (w : World) (hr : x.s.size < x.s.cap) :
    Takes (pushBack E src) x w (E.buildCost x.ty src) (E.BadCopy x.ty src) := by
  refine leaves_bind.2 (leaves_get.2 (leaves_bind.2 (leaves_zoom.2 ?_)))
  exact (E.emplaceBack_cost x.ty src x.s w hr).mono (fun _ _ _ h => h.2) (fun _ _ _ h => h.2)

theorem insertRange_cost (fwd : Bool) (p : Ptr) (srcs : List (Src V)) (x : Packed V) (w : World) (k : Nat) (hp : x.s.posOf p = some k) (hs : srcs ≠ [])
    (hr : x.s.size + srcs.length ≤ x.s.cap) (ht : fwd = true ∨ E.lib.inputTemp = false ∨ k = x.s.size) :
    Takes (insertRange E fwd p srcs) x w (E.buildCosts x.ty srcs + if k = x.s.size then 0 else E.openCost x.ty) (∃ src ∈ srcs, E.BadCopy x.ty src) := by
  refine leaves_bind.2 (leaves_get.2 (leaves_bind.2 (leaves_ofOption.2 fun j hj => leaves_bind.2 (leaves_zoom.2 ?_))))
  cases hp.symm.trans hj
  cases fwd
  · exact (E.insertInput_cost x.ty k srcs x.s w hs hr (by simpa using ht)).mono (fun _ _ _ h => h) (fun _ _ _ h => h)
  exact (E.insertRange_cost x.ty k srcs x.s w hs hr).mono (fun _ _ _ h => h.2) (fun _ _ _ h => h.2)

theorem erase_cost (p : Ptr) (x : Packed V) (w : World) (k : Nat) (hp : x.s.posOf p = some k) :
    Takes (erase E p) x w (if k + 1 = x.s.size then 0 else E.closeCost x.ty) False := by
  refine leaves_bind.2 (leaves_get.2 (leaves_bind.2 (leaves_ofOption.2 fun j hj => leaves_bind.2 (leaves_zoom.2 ?_))))
  cases hp.symm.trans hj
  exact (E.eraseAt_cost x.ty k x.s w).mono (fun _ _ _ h => h.2) (fun _ _ _ h => h)

theorem eraseRange_cost (p q : Ptr) (x : Packed V) (w : World) (a b : Nat) (hp : x.s.posOf p = some a) (hq : x.s.posOf q = some b) :
    Takes (eraseRange E p q) x w (if a = b ∨ b = x.s.size then 0 else E.closeCost x.ty) False := by
  refine leaves_bind.2 (leaves_get.2 (leaves_bind.2 (leaves_ofOption.2 fun j hj => leaves_bind.2 (leaves_ofOption.2 fun i hi => leaves_bind.2 (leaves_zoom.2 ?_)))))
  cases hp.symm.trans hj
  cases hq.symm.trans hi
  exact (E.eraseRange_cost x.ty a b x.s w).mono (fun _ _ _ h => h.2) (fun _ _ _ h => h)

end Packed

namespace Split
variable {V : Type} (E : Env V)

theorem pushes_free (l : List Nat) (x : Split V) (w : World) (h : x.i.size + l.length ≤ x.i.cap) : Leaves (Prog.each (pushIndex E) l) x w
    (fun _ _ w' => w' = w) (fun _ _ _ => False) := by
  induction l generalizing x with
  | nil => exact rfl
  | cons j l ih =>
    refine leaves_bind.2 (leaves_bind.2 (leaves_get.2 (leaves_ite.2 ⟨fun _ => trivial, fun _ => leaves_zoom.2 ?_⟩)))
    have hr : x.i.size < x.i.cap := by simp at h; omega
    unfold Env.idxPushBack
    refine leaves_bind.2 (leaves_get.2 ?_)
    rw [if_pos hr]
    refine leaves_set.2 (ih _ ?_)
    simp only [Vec.size, List.length_append, List.length_cons, List.length_nil] at *
    omega

theorem buildIndex_free (n : Nat) (x : Split V) (w : World) (h : x.i.size + (x.s.size + 1 - n) ≤ x.i.cap) : Leaves (buildIndex E n) x w
    (fun _ _ w' => w' = w) (fun _ _ _ => False) :=
  leaves_bind.2 (leaves_get.2 (pushes_free E _ x w (by simpa using h)))

theorem pushIndexEntry_free (x : Split V) (w : World) (h : x.i.size + 1 ≤ x.i.cap) : Leaves (pushIndexEntry E) x w
    (fun _ x' w' => w' = w ∧ x'.s = x.s ∧ x'.ty = x.ty ∧ x'.i.size = x.i.size + 1 ∧ x'.i.cap = x.i.cap) (fun _ _ _ => False) := by
  refine leaves_bind.2 (leaves_get.2 (leaves_bind.2 (leaves_get.2 ?_)))
  rw [show x.s.size + 1 - x.s.size = 1 by omega]
  refine leaves_bind.2 (leaves_bind.2 (leaves_get.2 (leaves_ite.2 ⟨fun _ => trivial, fun _ => leaves_zoom.2 ?_⟩)))
  unfold Env.idxPushBack
  refine leaves_bind.2 (leaves_get.2 ?_)
  rw [if_pos (by omega)]
  refine leaves_set.2 ?_
  exact ⟨rfl, rfl, rfl, by simp [Vec.size], rfl⟩

theorem popIndexEntry_free (n : Nat) (x : Split V) (w : World) : Leaves (popIndexEntry n : Prog (Split V) Unit) x w
    (fun _ x' w' => w' = w ∧ x'.s = x.s ∧ x'.ty = x.ty) (fun _ _ _ => False) := by
  induction n generalizing x with
  | zero => exact ⟨rfl, rfl, rfl⟩
  | succ n ih =>
    refine leaves_bind.2 (leaves_zoom.2 (leaves_bind.2 (leaves_get.2 (leaves_ite.2 ⟨fun _ => trivial, fun _ => leaves_set.2 ?_⟩))))
    exact ih _

theorem emplaceAt_cost (p : PosArg) (src : Src V) (x : Split V) (w : World) (k : Nat) (hp : x.iteratorFrom p = some k) (hr : x.s.size < x.s.cap)
    (hi : x.i.size = x.s.size + 1) (hroom : x.Room) :
    Takes (emplaceAt E p src) x w (E.buildCost x.ty src + if k = x.s.size then 0 else E.openCost x.ty) (E.BadCopy x.ty src) := by
  refine leaves_bind.2 (leaves_bind.2 (leaves_get.2 ?_))
  rw [if_neg (by omega)]
  refine leaves_bind.2 (leaves_get.2 (leaves_bind.2 (leaves_ofOption.2 fun j hj => leaves_bind.2 (leaves_zoom.2 ?_))))
  cases hp.symm.trans hj
  refine (E.emplaceAt_cost x.ty k src x.s w hr).mono ?_ (fun _ _ _ h => h)
  rintro _ s' w1 ⟨⟨h1, h2⟩, h3⟩
  unfold Room at hroom
  refine leaves_bind.2 (leaves_bind.2 (leaves_get.2 ?_))
  refine (buildIndex_free E _ _ w1 (by show x.i.size + (s'.size + 1 - s'.size) ≤ x.i.cap; omega)).mono ?_ (fun _ _ _ h => h.elim)
  rintro _ _ _ rfl
  exact h3

theorem pushBack_cost (src : Src V) (x : Split V) (w : World) (hr : x.s.size < x.s.cap) (hi : x.i.size = x.s.size + 1) (hroom : x.Room) :
    Takes (pushBack E src) x w (E.buildCost x.ty src) (E.BadCopy x.ty src) := by
  refine leaves_bind.2 (leaves_bind.2 (leaves_get.2 ?_))
  rw [if_neg (by omega)]
  refine leaves_bind.2 (leaves_get.2 (leaves_bind.2 (leaves_zoom.2 ?_)))
  refine (E.emplaceBack_cost x.ty src x.s w hr).mono ?_ (fun _ _ _ h => h.2)
  rintro _ s' w1 ⟨⟨h1, h2⟩, h3⟩
  unfold Room at hroom
  refine leaves_bind.2 (leaves_bind.2 (leaves_get.2 ?_))
  refine (buildIndex_free E _ _ w1 (by show x.i.size + (s'.size + 1 - s'.size) ≤ x.i.cap; omega)).mono ?_ (fun _ _ _ h => h.elim)
  rintro _ _ _ rfl
  exact h3

theorem insertForward_cost (p : Ptr) (srcs : List (Src V)) (x : Split V) (w : World) (k : Nat) (hp : x.s.posOf p = some k) (hs : srcs ≠ [])
    (hr : x.s.size + srcs.length ≤ x.s.cap) (hi : x.i.size = x.s.size + 1) (hroom : x.Room) :
    Takes (insertForward E p srcs) x w (E.buildCosts x.ty srcs + if k = x.s.size then 0 else E.openCost x.ty) (∃ src ∈ srcs, E.BadCopy x.ty src) := by
  unfold Room at hroom
  refine leaves_bind.2 (leaves_get.2 ?_)
  dsimp only
  rw [if_pos (by simpa using hs)]
  refine leaves_bind.2 (leaves_bind.2 (leaves_get.2 ?_))
  rw [if_neg (by omega)]
  refine leaves_bind.2 (leaves_get.2 (leaves_bind.2 (leaves_ofOption.2 fun j hj => leaves_bind.2 (leaves_onExc.2 (leaves_zoom.2 ?_)))))
  cases hp.symm.trans hj
  refine (E.insertRange_cost x.ty k srcs x.s w hs hr).mono ?_ ?_
  · rintro _ s' w1 ⟨⟨h1, h2⟩, h3⟩
    refine leaves_bind.2 ((buildIndex_free E _ _ w1 (by show x.i.size + (s'.size + 1 - (x.s.size + 1)) ≤ x.i.cap; omega)).mono ?_ (fun _ _ _ h => h.elim))
    rintro _ y _ rfl
    exact leaves_bind.2 (leaves_get.2 (leaves_bind.2 (leaves_ofOption.2 fun _ _ => h3)))
  · rintro e s' w1 ⟨⟨h1, h2⟩, h3⟩
    refine (buildIndex_free E _ _ w1 (by show x.i.size + (s'.size + 1 - (x.s.size + 1)) ≤ x.i.cap; omega)).mono ?_ (fun _ _ _ h => h.elim)
    rintro _ y _ rfl
    exact h3

theorem insertLoop_cost (srcs : List (Src V)) : ∀ (p : Ptr) (x : Split V) (w : World) (k : Nat), x.s.posOf p = some k →
    x.s.size + srcs.length ≤ x.s.cap → x.i.size = x.s.size + 1 → x.Room →
    Takes (insertLoop E p srcs) x w (E.buildCosts x.ty srcs + if k = x.s.size then 0 else srcs.length * E.openCost x.ty) (∃ src ∈ srcs, E.BadCopy x.ty src) := by
  induction srcs with
  | nil =>
    intro p x w k _ _ _ _
    show w.tick = _
    simp [Env.buildCosts]
  | cons src srcs ih =>
    intro p x w k hp hr hi hroom
    have hroom' := hroom
    unfold Room at hroom
    simp only [List.length_cons] at hr
    refine leaves_bind.2 (leaves_bind.2 (leaves_get.2 ?_))
    rw [if_neg (by omega)]
    refine leaves_bind.2 (leaves_get.2 (leaves_bind.2 (leaves_ofOption.2 fun j hj => leaves_bind.2 (leaves_zoom.2 ?_))))
    cases hp.symm.trans hj
    refine (E.emplaceAt_cost x.ty k src x.s w (by omega)).mono ?_ ?_
    · rintro _ s' w1 ⟨⟨⟨h1, h2⟩, h3⟩, h4⟩
      refine leaves_bind.2 ((pushIndexEntry_free E _ w1 (by show x.i.size + 1 ≤ x.i.cap; omega)).mono ?_ (fun _ _ _ h => h.elim))
      rintro _ y w2 ⟨rfl, h5, h6, h7, h8⟩
      have h5 : y.s = s' := h5
      have h6 : y.ty = x.ty := h6
      have h7 : y.i.size = x.i.size + 1 := h7
      have h8 : y.i.cap = x.i.cap := h8
      have hk : p.blk = x.s.blk ∧ p.off = k ∧ k ≤ x.s.size := by
        unfold Vec.posOf at hp
        split at hp
        · rename_i h
          cases hp
          exact ⟨h.1, rfl, h.2⟩
        · cases hp
      have := ih ⟨p.blk, p.off + 1⟩ y w2 (k + 1) (by unfold Vec.posOf; rw [if_pos ⟨by rw [h5, h1]; exact hk.1, by rw [h5, h3]; show p.off + 1 ≤ _; omega⟩, hk.2.1])
        (by rw [h5, h3, h2]; omega) (by rw [h7, h5, h3, hi]) (by unfold Room; rw [h5, h2, h8]; exact hroom)
      rw [h6, h5, h3] at this
      refine this.mono ?_ ?_
      · intro _ _ w2 h
        have h : w2.tick = _ := h
        rw [h, h4]
        simp only [Env.buildCosts, List.length_cons, Nat.add_right_cancel_iff]
        split <;> simp [Nat.add_mul] <;> omega
      · intro e _ w2 h
        refine h.mono ?_ fun ⟨a, ha, h⟩ => ⟨a, by simp [ha], h⟩
        rw [h4]
        simp only [Env.buildCosts, List.length_cons, Nat.add_right_cancel_iff]
        split <;> simp [Nat.add_mul] <;> omega
    · rintro e _ w1 h
      refine h.mono ?_ fun h => ⟨src, by simp, h⟩
      simp only [Env.buildCosts, List.length_cons]
      split <;> simp [Nat.add_mul] <;> omega

theorem insertInput_cost (p : Ptr) (srcs : List (Src V)) (x : Split V) (w : World) (k : Nat) (hp : x.s.posOf p = some k)
    (hr : x.s.size + srcs.length ≤ x.s.cap) (hi : x.i.size = x.s.size + 1) (hroom : x.Room) :
    Takes (insertInput E p srcs) x w (E.buildCosts x.ty srcs + if k = x.s.size then 0 else srcs.length * E.openCost x.ty) (∃ src ∈ srcs, E.BadCopy x.ty src) := by
  refine leaves_bind.2 ((insertLoop_cost E srcs p x w k hp hr hi hroom).mono ?_ fun _ _ _ h => h)
  intro q y w1 h
  exact leaves_bind.2 (leaves_get.2 (leaves_ite.2 ⟨fun _ => trivial, fun _ => leaves_bind.2 (leaves_ofOption.2 fun _ _ => h)⟩))

theorem erase_cost (p : Ptr) (x : Split V) (w : World) (k : Nat) (hp : x.s.posOf p = some k) :
    Takes (erase E p) x w (if k + 1 = x.s.size then 0 else E.closeCost x.ty) False := by
  refine leaves_bind.2 ((popIndexEntry_free 1 x w).mono ?_ (fun _ _ _ h => h.elim))
  rintro _ y _ ⟨rfl, hs, ht⟩
  rw [← hs] at hp
  refine leaves_bind.2 (leaves_get.2 (leaves_bind.2 (leaves_ofOption.2 fun j hj => leaves_bind.2 (leaves_zoom.2 ?_))))
  cases hp.symm.trans hj
  rw [← hs, ← ht]
  exact (E.eraseAt_cost y.ty k y.s _).mono (fun _ _ _ h => h.2) (fun _ _ _ h => h)

theorem eraseRange_cost (p q : Ptr) (x : Split V) (w : World) (a b : Nat) (hp : x.s.posOf p = some a) (hq : x.s.posOf q = some b) :
    Takes (eraseRange E p q) x w (if a = b ∨ b = x.s.size then 0 else E.closeCost x.ty) False := by
  refine leaves_bind.2 (leaves_get.2 (leaves_bind.2 (leaves_ofOption.2 fun j hj => leaves_bind.2 (leaves_ofOption.2 fun i hi => leaves_bind.2 (leaves_zoom.2 ?_)))))
  cases hp.symm.trans hj
  cases hq.symm.trans hi
  refine (E.eraseRange_cost x.ty a b x.s w).mono ?_ (fun _ _ _ h => h)
  rintro _ s' w1 ⟨-, h⟩
  refine leaves_bind.2 (leaves_get.2 (leaves_bind.2 ((popIndexEntry_free _ _ _).mono ?_ (fun _ _ _ h => h.elim))))
  rintro _ _ _ ⟨rfl, -⟩
  exact h

theorem clear_cost (x : Split V) (w : World) : Takes (clear : Prog (Split V) Ptr) x w 0 False := by
  refine leaves_bind.2 (leaves_zoom.2 (leaves_bind.2 (leaves_get.2 (leaves_set.2 (leaves_bind.2 (leaves_get.2 (leaves_ite.2 ⟨fun _ => trivial, fun _ => leaves_bind.2
    ((popIndexEntry_free _ _ _).mono ?_ (fun _ _ _ h => h.elim))⟩)))))))
  rintro _ _ _ ⟨rfl, -⟩
  exact rfl

end Split

namespace Seg
variable {V : Type} (E : Env V)

theorem range_packed {p : Prog (Packed V) (Ptr × Ptr)} {q : Prog (Split V) (Ptr × Ptr)} {y : Packed V} {snt : Ptr} {w : World} {n : Nat} {C : Prop}
    (h : Takes p y w n C) : Takes (filterRange (Backend.run p q)) ⟨.packed y, snt⟩ w n C := by
  unfold Takes Leaves filterRange Backend.run at *
  simp only
  cases hp : p y w <;> rw [hp] at h <;> exact h

theorem range_split {p : Prog (Packed V) (Ptr × Ptr)} {q : Prog (Split V) (Ptr × Ptr)} {y : Split V} {snt : Ptr} {w : World} {n : Nat} {C : Prop}
    (h : Takes q y w n C) : Takes (filterRange (Backend.run p q)) ⟨.split y, snt⟩ w n C := by
  unfold Takes Leaves filterRange Backend.run at *
  simp only
  cases hp : q y w <;> rw [hp] at h <;> exact h

variable {x : Seg V} {w : World} (h : x.Core E w)
include h

theorem emplace_cost (hr : x.Roomy) (hc : x.size < x.capacity) {p : PosArg} {k : Nat} (hp : x.PosIs p k) (src : Src V) :
    Takes (emplace E p src) x w (E.buildCost x.ty src + if k = x.size then 0 else E.openCost x.ty) (E.BadCopy x.ty src) := by
  obtain ⟨be, snt⟩ := x
  cases be with
  | packed y => exact range_packed (Packed.emplaceAt_cost E _ src y w k (posOf_of_posIs hp) hc)
  | split y => exact range_split (Split.emplaceAt_cost E _ src y w k (iteratorFrom_of_posIs hp) hc (Split.Inv.isize E h) hr)

theorem pushBack_cost (hr : x.Roomy) (hc : x.size < x.capacity) (src : Src V) :
    Takes (pushBack E src) x w (E.buildCost x.ty src) (E.BadCopy x.ty src) := by
  obtain ⟨be, snt⟩ := x
  cases be with
  | packed y => exact range_packed (Packed.pushBack_cost E src y w hc)
  | split y => exact range_split (Split.pushBack_cost E src y w hc (Split.Inv.isize E h) hr)

theorem insertBase_cost (hr : x.Roomy) (hc : x.size < x.capacity) {k : Nat} (hk : k ≤ x.size) (src : Src V) :
    Takes (insertBase E (x.base k) src) x w (E.buildCost x.ty src + if k = x.size then 0 else E.openCost x.ty) (E.BadCopy x.ty src) := by
  have hl := toLocal E h hk
  obtain ⟨be, snt⟩ := x
  cases be with
  | packed y => exact range_packed (Packed.emplaceAt_cost E _ src y w k (posOf_of_posIs (p := .base _) ⟨hk, rfl⟩) hc)
  | split y =>
    refine range_split (leaves_bind.2 (leaves_get.2 (leaves_bind.2 (leaves_ofOption.2 fun q hq => ?_))))
    cases hl.symm.trans hq
    exact Split.emplaceAt_cost E _ src y w k (iteratorFrom_of_posIs (p := .loc _) ⟨hk, rfl⟩) hc (Split.Inv.isize E h) hr

theorem insertLocal_cost (hr : x.Roomy) (hc : x.size < x.capacity) {k : Nat} (hk : k ≤ x.size) (src : Src V) :
    Takes (insertLocal E (x.loc k) src) x w (E.buildCost x.ty src + if k = x.size then 0 else E.openCost x.ty) (E.BadCopy x.ty src) :=
  emplace_cost E h hr hc (p := .loc (x.loc k)) ⟨hk, rfl⟩ src

theorem insertRangeLocal_cost (hr : x.Roomy) (fwd : Bool) {srcs : List (Src V)} (hs : srcs ≠ []) (hc : x.size + srcs.length ≤ x.capacity) {k : Nat} (hk : k ≤ x.size)
    (ht : fwd = true ∨ E.lib.inputTemp = false ∨ x.kind = .split ∨ k = x.size) :
    Takes (insertRangeLocal E fwd (x.loc k) srcs) x w
      (E.buildCosts x.ty srcs + if k = x.size then 0 else E.openCosts (x.kind = .split) fwd x.ty srcs.length) (∃ src ∈ srcs, E.BadCopy x.ty src) := by
  obtain ⟨be, snt⟩ := x
  cases be with
  | packed y =>
    have e : E.openCosts (decide ((⟨.packed y, snt⟩ : Seg V).kind = .split)) fwd y.ty srcs.length = E.openCost y.ty := by
      simp [Env.openCosts, Seg.kind, Backend.kind]
    refine range_packed ?_
    have := Packed.insertRange_cost E fwd _ srcs y w k (posOf_of_posIs (y := y) (snt := snt) (p := .loc _) ⟨hk, rfl⟩) hs hc
      (by simpa [Seg.kind, Backend.kind] using (show fwd = true ∨ E.lib.inputTemp = false ∨ (⟨.packed y, snt⟩ : Seg V).kind = .split ∨ k = y.s.size from ht))
    rw [← e] at this
    exact this
  | split y =>
    refine range_split ?_
    cases fwd
    · have := Split.insertInput_cost E _ srcs y w k (iteratorFrom_of_posIs (y := y) (snt := snt) (p := .loc _) ⟨hk, rfl⟩) hc (Split.Inv.isize E h) hr
      have e : E.openCosts (decide ((⟨.split y, snt⟩ : Seg V).kind = .split)) false y.ty srcs.length = srcs.length * E.openCost y.ty := by
        simp [Env.openCosts, Seg.kind, Backend.kind]
      rw [← e] at this
      exact this
    · have := Split.insertForward_cost E _ srcs y w k (iteratorFrom_of_posIs (y := y) (snt := snt) (p := .loc _) ⟨hk, rfl⟩) hs hc (Split.Inv.isize E h) hr
      have e : E.openCosts (decide ((⟨.split y, snt⟩ : Seg V).kind = .split)) true y.ty srcs.length = E.openCost y.ty := by
        simp [Env.openCosts]
      rw [← e] at this
      exact this

theorem insertRangeBase_cost (hr : x.Roomy) (fwd : Bool) {srcs : List (Src V)} (hs : srcs ≠ []) (hc : x.size + srcs.length ≤ x.capacity) {k : Nat} (hk : k ≤ x.size)
    (ht : fwd = true ∨ E.lib.inputTemp = false ∨ x.kind = .split ∨ k = x.size) :
    Takes (insertRangeBase E fwd (x.base k) srcs) x w
      (E.buildCosts x.ty srcs + if k = x.size then 0 else E.openCosts (x.kind = .split) fwd x.ty srcs.length) (∃ src ∈ srcs, E.BadCopy x.ty src) := by
  refine leaves_bind.2 (leaves_get.2 (leaves_bind.2 (leaves_ofOption.2 fun q hq => ?_)))
  cases (toLocal E h hk).symm.trans hq
  exact insertRangeLocal_cost E h hr fwd hs hc hk ht

theorem insertRangeEnd_cost (hr : x.Roomy) (fwd : Bool) {srcs : List (Src V)} (hs : srcs ≠ []) (hc : x.size + srcs.length ≤ x.capacity) :
    Takes (insertRangeEnd E fwd srcs) x w (E.buildCosts x.ty srcs) (∃ src ∈ srcs, E.BadCopy x.ty src) := by
  have := insertRangeLocal_cost E h hr fwd hs hc (Nat.le_refl _) (.inr (.inr (.inr rfl)))
  rw [if_pos rfl, Nat.add_zero] at this
  obtain ⟨be, snt⟩ := x
  cases be with
  | packed y => exact this
  | split y => exact this

theorem eraseLocal_cost {k : Nat} (hk : k < x.size) :
    Takes (eraseLocal E (x.loc k)) x w (if k + 1 = x.size then 0 else E.closeCost x.ty) False := by
  obtain ⟨be, snt⟩ := x
  cases be with
  | packed y => exact range_packed (Packed.erase_cost E _ y w k (posOf_of_posIs (p := .loc _) ⟨Nat.le_of_lt hk, rfl⟩))
  | split y => exact range_split (Split.erase_cost E _ y w k (iteratorFrom_of_posIs (p := .loc _) ⟨Nat.le_of_lt hk, rfl⟩))

theorem eraseBase_cost {k : Nat} (hk : k < x.size) :
    Takes (eraseBase E (x.base k)) x w (if k + 1 = x.size then 0 else E.closeCost x.ty) False := by
  have hl := toLocal E h (Nat.le_of_lt hk)
  obtain ⟨be, snt⟩ := x
  cases be with
  | packed y => exact range_packed (Packed.erase_cost E _ y w k (posOf_of_posIs (p := .loc _) ⟨Nat.le_of_lt hk, rfl⟩))
  | split y =>
    refine range_split (leaves_bind.2 (leaves_get.2 (leaves_bind.2 (leaves_ofOption.2 fun q hq => ?_))))
    cases hl.symm.trans hq
    exact Split.erase_cost E _ y w k (iteratorFrom_of_posIs (p := .loc _) ⟨Nat.le_of_lt hk, rfl⟩)

theorem eraseRangeLocal_cost {a b : Nat} (ha : a ≤ x.size) (hb : b ≤ x.size) :
    Takes (eraseRangeLocal E (x.loc a) (x.loc b)) x w (if a = b ∨ b = x.size then 0 else E.closeCost x.ty) False := by
  obtain ⟨be, snt⟩ := x
  cases be with
  | packed y => exact range_packed (Packed.eraseRange_cost E _ _ y w a b (posOf_of_posIs (p := .loc _) ⟨ha, rfl⟩) (posOf_of_posIs (p := .loc _) ⟨hb, rfl⟩))
  | split y =>
    exact range_split (Split.eraseRange_cost E _ _ y w a b (iteratorFrom_of_posIs (p := .loc _) ⟨ha, rfl⟩) (iteratorFrom_of_posIs (p := .loc _) ⟨hb, rfl⟩))

theorem eraseRangeBase_cost {a b : Nat} (ha : a ≤ x.size) (hb : b ≤ x.size) :
    Takes (eraseRangeBase E (x.base a) (x.base b)) x w (if a = b ∨ b = x.size then 0 else E.closeCost x.ty) False := by
  have hl := toLocal E h ha
  have hl' := toLocal E h hb
  obtain ⟨be, snt⟩ := x
  cases be with
  | packed y => exact range_packed (Packed.eraseRange_cost E _ _ y w a b (posOf_of_posIs (p := .loc _) ⟨ha, rfl⟩) (posOf_of_posIs (p := .loc _) ⟨hb, rfl⟩))
  | split y =>
    refine range_split (leaves_bind.2 (leaves_get.2 (leaves_bind.2 (leaves_ofOption.2 fun q hq => leaves_bind.2 (leaves_ofOption.2 fun q' hq' => ?_)))))
    cases hl.symm.trans hq
    cases hl'.symm.trans hq'
    exact Split.eraseRange_cost E _ _ y w a b (iteratorFrom_of_posIs (p := .loc _) ⟨ha, rfl⟩) (iteratorFrom_of_posIs (p := .loc _) ⟨hb, rfl⟩)

omit h in
theorem clear_cost (x : Seg V) (w : World) : Takes (clear : Prog (Seg V) Unit) x w 0 False := by
  obtain ⟨be, snt⟩ := x
  cases be with
  | packed y => exact rfl
  | split y =>
    have := Split.clear_cost y w
    unfold Takes Leaves at *
    unfold clear filterSentinel Backend.run
    dsimp only
    cases hp : (Split.clear : Prog (Split V) Ptr) y w <;> rw [hp] at this <;> exact this

end Seg

namespace Coll
variable {V : Type} (E : Env V)

/-- There is room for `m` more elements of type `t`, and for their index entries. -/
def HasRoom (c : Coll V) (t : Ty) (m : Nat) : Prop :=
  ∃ n ∈ c.map.nodes, n.seg.ty = t ∧ n.seg.Roomy ∧ n.seg.size + m ≤ n.seg.capacity

/-- The type has been looked up before through this `type_info` object, and the result is in the cache. -/
def Known (c : Coll V) (t : TI) : Prop := c.map.cache.lookup t ≠ none

/-- The element to insert is found without touching the cache. -/
def KnownArg (c : Coll V) (a : Arg V) : Prop := a.acc = false ∨ c.Known (if a.term then a.stat else a.dyn)

variable {E}

theorem HasRoom.of {c : Coll V} {w : World} (hc : c.Inv E w) {t : Ty} {m : Nat} (h : c.HasRoom t m) {n : Node V} (hn : n ∈ c.map.nodes)
    (ht : n.seg.ty = t) : n.seg.Roomy ∧ n.seg.size + m ≤ n.seg.capacity := by
  obtain ⟨a, ha, hat, h1, h2⟩ := h
  cases PolyColl.eq_of_nodup (f := fun n : Node V => n.seg.ty) (TMap.Inv.nodup_ty E hc.map) ha hn (hat.trans ht.symm)
  exact ⟨h1, h2⟩

theorem size_elemsOf {c : Coll V} {w : World} (hc : c.Inv E w) {n : Node V} (hn : n ∈ c.map.nodes) : n.seg.size = (c.abs.elemsOf n.seg.ty).length := by
  rw [show c.abs.elemsOf n.seg.ty = n.seg.elems from Spec.State.elemsOf_mem (abs_nodup E hc.map) (List.mem_map_of_mem hn)]
  rfl

theorem takes_drop {X α : Type} {p : Prog X α} {x : X} {w : World} {n : Nat} {C : Prop} (h : Takes p x w n C) : Takes (Prog.drop p) x w n C :=
  leaves_bind.2 h

theorem onSeg_cost {α : Type} {c : Coll V} {w : World} (hc : c.Inv E w) {it : MapIt} {n : Node V} (hu : c.map.Use E it n) {p : Prog (Seg V) α} {m : Nat} {C : Prop}
    (h : Takes p n.seg w m C) : Takes (onMap (TMap.onSeg E it p)) c w m C := by
  refine leaves_zoom.2 ?_
  unfold Takes Leaves at *
  unfold TMap.onSeg
  rw [hu.node? E hc.map.ids]
  dsimp only
  cases hp : p n.seg w <;> rw [hp] at h <;> exact h

theorem downcast_cost {α : Type} {t : Ty} {s : Seg V} (ht : s.ty = t) {w : World} {p : Prog (Seg V) α} {m : Nat} {C : Prop} (h : Takes p s w m C) :
    Takes (downcast t p) s w m C := by
  refine leaves_bind.2 (leaves_get.2 ?_)
  rw [if_pos ht]
  exact h

theorem retIter_cost {p : Prog (Coll V) Ptr} {c : Coll V} {w : World} {m : Nat} {C : Prop} (h : Takes p c w m C) (it : MapIt) :
    Takes (do let q ← p; retIter E it q) c w m C :=
  leaves_bind.2 (h.mono (fun _ _ _ h => leaves_bind.2 (leaves_get.2 (leaves_ofOption.2 fun _ _ => h))) fun _ _ _ h => h)

theorem retIterEnd_cost {p : Prog (Coll V) Ptr} {c : Coll V} {w : World} {m : Nat} {C : Prop} (h : Takes p c w m C) (it e : MapIt) :
    Takes (do let q ← p; retIterEnd E it e q) c w m C :=
  leaves_bind.2 (h.mono (fun _ _ _ h => leaves_bind.2 (leaves_get.2 (leaves_ofOption.2 fun _ _ => h))) fun _ _ _ h => h)

theorem toLocal_cost {p : Prog (Coll V) Ptr} {c : Coll V} {w : World} {m : Nat} {C : Prop} (h : Takes p c w m C) (it : MapIt) :
    Takes (do let q ← p; let c ← Prog.get; Prog.ofOption (c.toLocal E ⟨it, q⟩)) c w m C :=
  leaves_bind.2 (h.mono (fun _ _ _ h => leaves_bind.2 (leaves_get.2 (leaves_ofOption.2 fun _ _ => h))) fun _ _ _ h => h)

theorem bind_ok {X α β : Type} {p : Prog X α} {f : α → Prog X β} {x y : X} {w v : World} {a : α} (h : p x w = .ok a y v) : (p >>= f) x w = f a y v := by
  show Prog.bind p f x w = _
  unfold Prog.bind
  rw [h]

theorem bind_get {X β : Type} {f : X → Prog X β} {x : X} {w : World} : ((Prog.get : Prog X X) >>= f) x w = f x x w := rfl

theorem find_known {c : Coll V} {w : World} (hc : c.Inv E w) {t : TI} (h : c.Known t) :
    ∃ it n, c.map.Ref it n ∧ n.seg.ty = E.tiTy t ∧ onMap (TMap.find E t) c w = .ok it c w := by
  unfold Known at h
  cases hl : c.map.cache.lookup t with
  | none => exact absurd hl h
  | some it =>
    obtain ⟨n, hr, hk⟩ := hc.map.cache _ (TMap.lookup_mem hl)
    refine ⟨it, n, hr, by rw [hc.map.ty n hr.mem, hk], ?_⟩
    have : TMap.find E t c.map w = .ok it c.map w := by
      unfold TMap.find
      rw [bind_get, hl]
      rfl
    unfold onMap Prog.zoom
    rw [this]

theorem forT_known {c : Coll V} {w : World} (hc : c.Inv E w) {t : TI} (h : c.Known t) :
    ∃ it n, c.map.Ref it n ∧ n.seg.ty = E.tiTy t ∧ forT E t c w = .ok it c w := by
  obtain ⟨it, n, h1, h2, h3⟩ := find_known hc h
  refine ⟨it, n, h1, h2, ?_⟩
  unfold forT
  rw [bind_ok h3, if_pos (by rw [h1.node]; simp)]
  rfl

theorem forArg_known {c : Coll V} {w : World} (hc : c.Inv E w) {a : Arg V} (ha : Arg.OK E a) (h : c.KnownArg a) (hr : E.tiTy a.dyn ∈ c.abs.types) :
    ∃ it n, c.map.Ref it n ∧ n.seg.ty = E.tiTy a.dyn ∧ forArg E a c w = .ok it c w := by
  unfold forArg
  cases hacc : a.acc with
  | false =>
    rcases TMap.findConst_found E hc.map a.dyn with ⟨n, h1, h2⟩ | ⟨-, h2⟩
    · refine ⟨_, n, h1, by rw [hc.map.ty n h1.mem, h2], ?_⟩
      rw [if_neg (by simp), bind_get, if_neg (by rw [h1.node]; simp)]
      rfl
    · obtain ⟨n, hn, ht⟩ := types_mem hr
      exact absurd (by rw [← hc.map.ty n hn, ht]) (h2 n hn)
  | true =>
    have h := h.resolve_left (by simp [hacc])
    cases hterm : a.term with
    | true =>
      rw [hterm, if_pos rfl] at h
      rw [if_pos rfl, if_pos rfl, ha hterm]
      exact forT_known hc h
    | false =>
      rw [hterm, if_neg (by simp)] at h
      obtain ⟨it, n, h1, h2, h3⟩ := find_known hc h
      refine ⟨it, n, h1, h2, ?_⟩
      rw [if_pos rfl, if_neg (by simp), bind_ok h3, if_pos (by rw [h1.node]; simp)]
      rfl

theorem HasRoom.types {c : Coll V} {t : Ty} {m : Nat} (h : c.HasRoom t m) : t ∈ c.abs.types := by
  obtain ⟨n, hn, rfl, -⟩ := h
  exact mem_types hn

theorem takes_bind {X α β : Type} {p : Prog X α} {f : α → Prog X β} {x y : X} {w v : World} {a : α} (h : p x w = .ok a y v) {n : Nat} {C : Prop}
    (hf : Takes (f a) y v n C) (hv : v = w) : Takes (p >>= f) x w n C := by
  subst hv
  unfold Takes Leaves
  rw [bind_ok h]
  exact hf

theorem hinted_cost {c : Coll V} {w : World} (hc : c.Inv E w) {hint : GIter} {p : Spec.State.Pos} (hp : c.At E hint p) {it : MapIt} {n : Node V}
    (hn : c.map.Ref it n) {α : Type} {f g : Prog (Coll V) α} {a b : Nat} {C : Prop}
    (hf : ∀ k, k < n.seg.size → hint.segpos = n.seg.base k → Takes f c w (a + b) C) (hg : Takes g c w a C) (same : Bool)
    (hsame : c.map.itEq E hint.mapit it = some same) :
    Takes (if same then f else g) c w (a + if c.abs.hintPos n.seg.ty p = (c.abs.elemsOf n.seg.ty).length then 0 else b) C := by
  have hs := size_elemsOf hc hn.mem
  obtain ⟨h1, h2, h3⟩ := hint_same E hc.map hn hp
  cases h1.symm.trans hsame
  simp only [decide_eq_true_eq]
  split
  · rename_i hd
    obtain ⟨k, rfl, hk, hp⟩ := h3 hd
    rw [if_neg (by simp [Spec.State.hintPos]; omega)]
    exact hf k hk hp
  · rename_i hd
    rw [if_pos]
    · exact hg
    unfold Spec.State.hintPos
    cases p with
    | none => rfl
    | some q =>
      simp only
      split
      · rename_i e
        exact absurd (h2.2 ⟨q.2, by rw [← e]⟩) hd
      · rfl

end Coll

/-- Operations that need no new memory, with the number of steps that may fail and the condition under which something
is copied that cannot be copied.  (A single-pass range that is put before other elements of a packed segment needs no
memory if `vector::insert` does not build a temporary vector.) -/
inductive COp.Costs {V : Type} (E : Env V) (c : Coll V) : COp V → Nat → Prop → Prop
  | emplace {t src} : c.Known t → c.HasRoom (E.tiTy t) 1 →
      Costs E c (.emplace t src) (E.buildCost (E.tiTy t) src) (E.BadCopy (E.tiTy t) src)
  | emplaceHint {h p t src} : c.Known t → c.HasRoom (E.tiTy t) 1 → c.At E h p →
      Costs E c (.emplaceHint h t src)
        (E.buildCost (E.tiTy t) src + if c.abs.hintPos (E.tiTy t) p = (c.abs.elemsOf (E.tiTy t)).length then 0 else E.openCost (E.tiTy t)) (E.BadCopy (E.tiTy t) src)
  | emplacePosBase {l k t src} : c.HasRoom (E.tiTy t) 1 → c.LAtB E l (E.tiTy t) k →
      Costs E c (.emplacePosBase l t src)
        (E.buildCost (E.tiTy t) src + if k = (c.abs.elemsOf (E.tiTy t)).length then 0 else E.openCost (E.tiTy t)) (E.BadCopy (E.tiTy t) src)
  | emplacePosLocal {l k t src} : c.HasRoom (E.tiTy t) 1 → c.LAtL E l (E.tiTy t) k →
      Costs E c (.emplacePosLocal l t src)
        (E.buildCost (E.tiTy t) src + if k = (c.abs.elemsOf (E.tiTy t)).length then 0 else E.openCost (E.tiTy t)) (E.BadCopy (E.tiTy t) src)
  | insert {a} : c.KnownArg a → c.HasRoom (E.tiTy a.dyn) 1 →
      Costs E c (.insert a) (E.buildCost (E.tiTy a.dyn) a.src) (E.BadCopy (E.tiTy a.dyn) a.src)
  | insertHint {h p a} : c.KnownArg a → c.HasRoom (E.tiTy a.dyn) 1 → c.At E h p →
      Costs E c (.insertHint h a)
        (E.buildCost (E.tiTy a.dyn) a.src + if c.abs.hintPos (E.tiTy a.dyn) p = (c.abs.elemsOf (E.tiTy a.dyn)).length then 0 else E.openCost (E.tiTy a.dyn))
        (E.BadCopy (E.tiTy a.dyn) a.src)
  | insertPosBase {l k a} : c.HasRoom (E.tiTy a.dyn) 1 → c.LAtB E l (E.tiTy a.dyn) k →
      Costs E c (.insertPosBase l a)
        (E.buildCost (E.tiTy a.dyn) a.src + if k = (c.abs.elemsOf (E.tiTy a.dyn)).length then 0 else E.openCost (E.tiTy a.dyn)) (E.BadCopy (E.tiTy a.dyn) a.src)
  | insertPosLocal {l k a} : c.HasRoom (E.tiTy a.dyn) 1 → c.LAtL E l (E.tiTy a.dyn) k →
      Costs E c (.insertPosLocal l a)
        (E.buildCost (E.tiTy a.dyn) a.src + if k = (c.abs.elemsOf (E.tiTy a.dyn)).length then 0 else E.openCost (E.tiTy a.dyn)) (E.BadCopy (E.tiTy a.dyn) a.src)
  | insertRangeTerminal {fwd t srcs} : c.Known t → srcs ≠ [] → c.HasRoom (E.tiTy t) srcs.length →
      Costs E c (.insertRangeTerminal fwd t srcs) (E.buildCosts (E.tiTy t) srcs) (∃ src ∈ srcs, E.BadCopy (E.tiTy t) src)
  | insertHintRangeTerminal {h p fwd t srcs} : c.Known t → srcs ≠ [] → c.HasRoom (E.tiTy t) srcs.length → c.At E h p →
      fwd = true ∨ E.lib.inputTemp = false ∨ c.kind = .split →
      Costs E c (.insertHintRangeTerminal h fwd t srcs)
        (E.buildCosts (E.tiTy t) srcs + if c.abs.hintPos (E.tiTy t) p = (c.abs.elemsOf (E.tiTy t)).length then 0
          else E.openCosts (c.kind = .split) fwd (E.tiTy t) srcs.length)
        (∃ src ∈ srcs, E.BadCopy (E.tiTy t) src)
  | erase {g t k} : c.At E g (some (t, k)) → Costs E c (.erase g) (if k + 1 = (c.abs.elemsOf t).length then 0 else E.closeCost t) False
  | eraseLocalBase {l t k} : c.LAtB E l t k → k < (c.abs.elemsOf t).length →
      Costs E c (.eraseLocalBase l) (if k + 1 = (c.abs.elemsOf t).length then 0 else E.closeCost t) False
  | eraseLocal {l t k} : c.LAtL E l t k → k < (c.abs.elemsOf t).length →
      Costs E c (.eraseLocal l) (if k + 1 = (c.abs.elemsOf t).length then 0 else E.closeCost t) False
  | eraseLocalRangeBase {l m t a b} : c.LAtB E l t a → c.LAtB E m t b →
      Costs E c (.eraseLocalRangeBase l m) (if a = b ∨ b = (c.abs.elemsOf t).length then 0 else E.closeCost t) False
  | eraseLocalRange {l m t a b} : c.LAtL E l t a → c.LAtL E m t b →
      Costs E c (.eraseLocalRange l m) (if a = b ∨ b = (c.abs.elemsOf t).length then 0 else E.closeCost t) False
  | clearAll : Costs E c .clearAll 0 False
  | clearInfo {t} : E.tiTy t ∈ c.abs.types → Costs E c (.clearInfo t) 0 False

namespace Coll
variable {V : Type} {E : Env V}

theorem go_cost (l : List (Node V)) (w : World) : Takes (TMap.onAll.go (Seg.clear : Prog (Seg V) Unit)) l w 0 False := by
  induction l generalizing w with
  | nil => exact rfl
  | cons n l ih =>
    have h2 := Seg.clear_cost n.seg w
    unfold Takes Leaves at h2 ih ⊢
    unfold TMap.onAll.go
    simp only
    cases hp : (Seg.clear : Prog (Seg V) Unit) n.seg w with
    | ub => trivial
    | exc e s w' => rw [hp] at h2; exact h2
    | ok r s w' =>
      rw [hp] at h2
      have h1 := ih w'
      simp only at h1 h2 ⊢
      have h2 : w'.tick = w.tick := h2
      cases hg : TMap.onAll.go (Seg.clear : Prog (Seg V) Unit) l w' with
      | ub => trivial
      | ok a l' w'' => rw [hg] at h1; have h1 : w''.tick = w'.tick := h1; exact h1.trans h2
      | exc e l' w'' => rw [hg] at h1; exact ⟨by have := h1.1; rw [h2] at this; exact this, h1.2⟩

theorem op_cost {c : Coll V} {w : World} (hc : c.Inv E w) {op : COp V} (hp : op.Pre E c) {n : Nat} {C : Prop} (h : op.Costs E c n C) :
    Takes (op.run E) c w n C := by
  have core : ∀ {n : Node V}, n ∈ c.map.nodes → n.seg.Core E w := fun hn => (hc.mem.segs _ hn).core
  cases h with
  | @emplace t src hk hr =>
    obtain ⟨it, n, hn, ht, hf⟩ := forT_known hc hk
    obtain ⟨h1, h2⟩ := hr.of hc hn.mem ht
    refine takes_drop (takes_bind hf (retIter_cost (onSeg_cost hc (hn.use E) (downcast_cost ht ?_)) it) rfl)
    rw [← ht]
    exact Seg.pushBack_cost E (core hn.mem) h1 h2 src
  | @emplaceHint h p t src hk hr hh =>
    obtain ⟨it, n, hn, ht, hf⟩ := forT_known hc hk
    obtain ⟨h1, h2⟩ := hr.of hc hn.mem ht
    refine takes_drop (takes_bind hf (leaves_bind.2 (leaves_get.2 (leaves_bind.2 (leaves_ofOption.2 fun same hs => ?_)))) rfl)
    rw [← ht]
    refine hinted_cost hc hh hn (fun k hk' hp' => retIter_cost ?_ it)
      (retIter_cost (onSeg_cost hc (hn.use E) (downcast_cost rfl (Seg.pushBack_cost E (core hn.mem) h1 h2 src))) it) same hs
    have := Seg.emplace_cost E (core hn.mem) h1 h2 (p := .base (n.seg.base k)) ⟨Nat.le_of_lt hk', rfl⟩ src
    rw [if_neg (by omega)] at this
    rw [hp']
    exact onSeg_cost hc (hn.use E) (downcast_cost rfl this)
  | @emplacePosBase l k t src hr hl =>
    obtain ⟨n, hu, ht, hk, hl⟩ := hl
    obtain ⟨h1, h2⟩ := hr.of hc hu.mem ht
    rw [← ht, ← size_elemsOf hc hu.mem]
    refine takes_drop (leaves_bind.2 ?_)
    rw [← ht, hl]
    exact onSeg_cost hc hu (downcast_cost rfl (Seg.emplace_cost E (core hu.mem) h1 h2 (p := .base (n.seg.base k)) ⟨hk, rfl⟩ src))
  | @emplacePosLocal l k t src hr hl =>
    obtain ⟨n, hu, ht, hk, hl⟩ := hl
    obtain ⟨h1, h2⟩ := hr.of hc hu.mem ht
    rw [← ht, ← size_elemsOf hc hu.mem]
    refine takes_drop (toLocal_cost ?_ l.mapit)
    rw [← ht, hl]
    exact onSeg_cost hc hu (downcast_cost rfl (Seg.emplace_cost E (core hu.mem) h1 h2 (p := .loc (n.seg.loc k)) ⟨hk, rfl⟩ src))
  | @insert a hk hr =>
    obtain ⟨it, n, hn, ht, hf⟩ := forArg_known hc hp.1 hk hr.types
    obtain ⟨h1, h2⟩ := hr.of hc hn.mem ht
    refine takes_drop (takes_bind hf (retIter_cost (onSeg_cost hc (hn.use E) (downcast_cost ht ?_)) it) rfl)
    rw [← ht]
    exact Seg.pushBack_cost E (core hn.mem) h1 h2 a.src
  | @insertHint h p a hk hr hh =>
    obtain ⟨it, n, hn, ht, hf⟩ := forArg_known hc hp.1 hk hr.types
    obtain ⟨h1, h2⟩ := hr.of hc hn.mem ht
    refine takes_drop (takes_bind hf (leaves_bind.2 (leaves_get.2 (leaves_bind.2 (leaves_ofOption.2 fun same hs => ?_)))) rfl)
    rw [← ht]
    refine hinted_cost hc hh hn (fun k hk' hp' => retIter_cost ?_ it) (retIter_cost (onSeg_cost hc (hn.use E) (downcast_cost ht ?_)) it) same hs
    · have := Seg.insertBase_cost E (core hn.mem) h1 h2 (Nat.le_of_lt hk') a.src
      rw [if_neg (by omega)] at this
      rw [hp']
      exact onSeg_cost hc (hn.use E) (downcast_cost rfl this)
    · exact Seg.pushBack_cost E (core hn.mem) h1 h2 a.src
  | @insertPosBase l k a hr hl =>
    obtain ⟨n, hu, ht, hk, hl⟩ := hl
    obtain ⟨h1, h2⟩ := hr.of hc hu.mem ht
    rw [← ht, ← size_elemsOf hc hu.mem]
    refine takes_drop (leaves_bind.2 ?_)
    rw [← ht, hl]
    exact onSeg_cost hc hu (downcast_cost rfl (Seg.insertBase_cost E (core hu.mem) h1 h2 hk a.src))
  | @insertPosLocal l k a hr hl =>
    obtain ⟨n, hu, ht, hk, hl⟩ := hl
    obtain ⟨h1, h2⟩ := hr.of hc hu.mem ht
    rw [← ht, ← size_elemsOf hc hu.mem]
    refine takes_drop (toLocal_cost ?_ l.mapit)
    rw [← ht, hl]
    exact onSeg_cost hc hu (downcast_cost rfl (Seg.insertLocal_cost E (core hu.mem) h1 h2 hk a.src))
  | @insertRangeTerminal fwd t srcs hk hs hr =>
    obtain ⟨it, n, hn, ht, hf⟩ := forT_known hc hk
    obtain ⟨h1, h2⟩ := hr.of hc hn.mem ht
    simp only [COp.run, Coll.insertRangeTerminal]
    rw [if_neg hs]
    refine takes_bind hf (leaves_bind.2 (onSeg_cost hc (hn.use E) (downcast_cost ht ?_))) rfl
    rw [← ht]
    exact Seg.insertRangeEnd_cost E (core hn.mem) h1 fwd hs h2
  | @insertHintRangeTerminal h p fwd t srcs hk hs hr hh ht' =>
    obtain ⟨it, n, hn, ht, hf⟩ := forT_known hc hk
    obtain ⟨h1, h2⟩ := hr.of hc hn.mem ht
    simp only [COp.run, Coll.insertHintRangeTerminal]
    rw [if_neg hs]
    refine takes_bind hf (leaves_bind.2 (leaves_get.2 (leaves_bind.2 (leaves_ofOption.2 fun same hs' => ?_)))) rfl
    rw [← ht]
    refine hinted_cost hc hh hn (fun k hk' hp' => leaves_bind.2 ?_) (leaves_bind.2 ?_) same hs'
    · have := Seg.insertRangeBase_cost E (core hn.mem) h1 fwd hs h2 (Nat.le_of_lt hk') (by rw [hc.map.kind _ hn.mem]; exact ht'.imp_right (Or.imp_right .inl))
      rw [if_neg (by omega), hc.map.kind _ hn.mem] at this
      rw [hp']
      exact onSeg_cost hc (hn.use E) (downcast_cost rfl this)
    · exact onSeg_cost hc (hn.use E) (downcast_cost rfl (Seg.insertRangeEnd_cost E (core hn.mem) h1 fwd hs h2))
  | @erase g t k hg =>
    obtain ⟨n, hu, ht, hk, hl⟩ := hg.use
    refine takes_drop (retIterEnd_cost ?_ g.mapit g.mapend)
    rw [← ht, ← size_elemsOf hc hu.mem, hl]
    exact onSeg_cost hc hu (Seg.eraseBase_cost E (core hu.mem) hk)
  | @eraseLocalBase l t k hl hk =>
    obtain ⟨n, hu, ht, -, hl⟩ := hl
    refine takes_drop (leaves_bind.2 ?_)
    rw [← ht, ← size_elemsOf hc hu.mem] at hk ⊢
    rw [hl]
    exact onSeg_cost hc hu (Seg.eraseBase_cost E (core hu.mem) hk)
  | @eraseLocal l t k hl hk =>
    obtain ⟨n, hu, ht, -, hl⟩ := hl
    refine takes_drop (toLocal_cost ?_ l.mapit)
    rw [← ht, ← size_elemsOf hc hu.mem] at hk ⊢
    rw [hl]
    exact onSeg_cost hc hu (Seg.eraseLocal_cost E (core hu.mem) hk)
  | @eraseLocalRangeBase l m t a b hl hm =>
    obtain ⟨n, hu, ht, ha, hl⟩ := hl
    obtain ⟨n', hu', ht', hb, hm⟩ := hm
    cases PolyColl.eq_of_nodup (f := fun n : Node V => n.seg.ty) (TMap.Inv.nodup_ty E hc.map) hu.mem hu'.mem (ht.trans ht'.symm)
    refine takes_drop (leaves_bind.2 ?_)
    rw [← ht, ← size_elemsOf hc hu.mem, hl, hm]
    exact onSeg_cost hc hu (Seg.eraseRangeBase_cost E (core hu.mem) ha hb)
  | @eraseLocalRange l m t a b hl hm =>
    obtain ⟨n, hu, ht, ha, hl⟩ := hl
    obtain ⟨n', hu', ht', hb, hm⟩ := hm
    cases PolyColl.eq_of_nodup (f := fun n : Node V => n.seg.ty) (TMap.Inv.nodup_ty E hc.map) hu.mem hu'.mem (ht.trans ht'.symm)
    refine takes_drop (toLocal_cost ?_ l.mapit)
    rw [← ht, ← size_elemsOf hc hu.mem, hl, hm]
    exact onSeg_cost hc hu (Seg.eraseRangeLocal_cost E (core hu.mem) ha hb)
  | clearAll =>
    refine leaves_zoom.2 (leaves_zoom.2 ?_)
    exact go_cost c.map.nodes w
  | @clearInfo t ht =>
    refine leaves_bind.2 (leaves_bind.2 (leaves_get.2 ?_))
    rcases TMap.findConst_found E hc.map t with ⟨n, h1, h2⟩ | ⟨-, h2⟩
    · rw [if_neg (by rw [h1.node]; simp)]
      exact onSeg_cost hc (h1.use E) (Seg.clear_cost n.seg w)
    · obtain ⟨n, hn, ht⟩ := types_mem ht
      exact absurd (by rw [← hc.map.ty n hn, ht]) (h2 n hn)

end Coll
end PolyColl
