import Verif.Model.Work
import Verif.Lemmas.Segment
/-! # The meters of `Model/Work.lean` describe the model -/

namespace PolyColl.Work
open Prog

/-- Inversion of a program that returned. -/
theorem bind_inv {X α β : Type} {p : Prog X α} {k : α → Prog X β} {x z : X} {w w2 : World} {b : β}
    (h : (p >>= k) x w = .ok b z w2) : ∃ a y w1, p x w = .ok a y w1 ∧ k a y w1 = .ok b z w2 := by
  change Prog.bind p k x w = _ at h
  unfold Prog.bind at h
  cases hp : p x w with
  | ok a y w1 => rw [hp] at h; exact ⟨a, y, w1, rfl, h⟩
  | exc e y w1 => rw [hp] at h; cases h
  | ub => rw [hp] at h; cases h

theorem onExc_inv {X α : Type} {p : Prog X α} {k : Prog X Unit} {x z : X} {w w2 : World} {b : α}
    (h : Prog.onExc p k x w = .ok b z w2) : p x w = .ok b z w2 := by
  unfold Prog.onExc at h
  cases he : p x w with
  | ok b z w1 => rw [he] at h; exact h
  | exc e y w1 => rw [he] at h; dsimp only at h; cases hh : k y w1 <;> rw [hh] at h <;> cases h
  | ub => rw [he] at h; cases h

theorem ofOption_inv {X α : Type} {o : Option α} {x z : X} {w w2 : World} {b : α}
    (h : Prog.ofOption o x w = .ok b z w2) : o = some b ∧ z = x ∧ w2 = w := by
  cases o with
  | none => cases h
  | some a => cases h; exact ⟨rfl, rfl, rfl⟩

theorem zoom_inv {X Y α : Type} {gt : X → Y} {st : X → Y → X} {p : Prog Y α} {x z : X} {w w2 : World} {b : α}
    (h : Prog.zoom gt st p x w = .ok b z w2) : ∃ y, p (gt x) w = .ok b y w2 ∧ z = st x y := by
  unfold Prog.zoom at h
  cases hp : p (gt x) w with
  | ok a y w1 => rw [hp] at h; cases h; exact ⟨y, rfl, rfl⟩
  | exc e y w1 => rw [hp] at h; cases h
  | ub => rw [hp] at h; cases h

/-- Whenever `p` returns, the sizes and capacities are `r.1`, and not more than `r.2` steps that may
fail have been taken. -/
def Metered {X σ α : Type} (sh : X → σ) (p : Prog X α) (x : X) (r : σ × Nat) : Prop :=
  ∀ w a y w', p x w = .ok a y w' → sh y = r.1 ∧ w'.tick ≤ w.tick + r.2

section
variable {X β α : Type}

/-- A program that leaves its object alone, with at most `n` steps. -/
def Steps (p : Prog X α) (n : Nat) : Prop := ∀ x w a y w', p x w = .ok a y w' → y = x ∧ w'.tick ≤ w.tick + n

theorem Steps.each {f : β → Prog X Unit} {n : Nat} (h : ∀ b, Steps (f b) n) :
    ∀ l : List β, Steps (Prog.each f l) (l.length * n)
  | [] => by intro x w a y w' hp; cases hp; exact ⟨rfl, by omega⟩
  | b :: l => by
    intro x w a y w' hp
    change Prog.bind (f b) (fun _ => Prog.each f l) x w = _ at hp
    unfold Prog.bind at hp
    cases h1 : f b x w with
    | ok u z w1 =>
      rw [h1] at hp
      obtain ⟨rfl, t1⟩ := h b _ _ _ _ _ h1
      obtain ⟨rfl, t2⟩ := Steps.each h l _ _ _ _ _ hp
      refine ⟨rfl, ?_⟩
      rw [List.length_cons, Nat.succ_mul]; omega
    | exc e z w1 => rw [h1] at hp; cases hp
    | ub => rw [h1] at hp; cases hp

end

section
variable {V X : Type} (E : Env V)

theorem alloc_steps : Steps (X := X) E.alloc 1 := by
  intro x w a y w' h
  unfold Env.alloc at h
  split at h <;> cases h
  exact ⟨rfl, Nat.le_refl _⟩

theorem userOp_steps (b : Bool) : Steps (X := X) (E.userOp b) 1 := by
  intro x w a y w' h
  unfold Env.userOp at h
  split at h
  · cases h; exact ⟨rfl, Nat.le_succ _⟩
  · split at h <;> cases h
    exact ⟨rfl, Nat.le_refl _⟩

theorem copyVH_steps (t : Ty) : Steps (X := X) (E.copyVH t) 1 := by
  unfold Env.copyVH
  split
  · exact userOp_steps E _
  · intro x w a y w' h; cases h

theorem relocate_steps (t : Ty) (l : List V) : Steps (X := X) (E.relocate t l) l.length := by
  unfold Env.relocate
  split
  · intro x w a y w' h; cases h; exact ⟨rfl, Nat.le_add_right _ _⟩
  · have := Steps.each (fun _ => copyVH_steps (X := X) E t) l
    rwa [Nat.mul_one] at this

theorem construct_steps (t : Ty) (src : Src V) : Steps (E.construct t src) 1 := by
  intro x w a y w' h
  unfold Env.construct at h
  have key : ∀ (q : Prog (Vec V) Unit) (v : V), Steps q 1 →
      (q >>= fun _ => (pure v : Prog (Vec V) V)) x w = .ok a y w' → y = x ∧ w'.tick ≤ w.tick + 1 := by
    intro q v hq h
    change Prog.bind q _ x w = _ at h
    unfold Prog.bind at h
    cases hr : q x w with
    | ok u z w1 => rw [hr] at h; cases h; exact hq _ _ _ _ _ hr
    | exc e z w1 => rw [hr] at h; cases h
    | ub => rw [hr] at h; cases h
  cases src with
  | copyExt v => exact key _ v (copyVH_steps E t) h
  | moveExt v => exact key _ v (userOp_steps E _) h
  | emplaced v => exact key _ v (userOp_steps E _) h
  | copyAlias p =>
    change Prog.bind Prog.get (fun s : Vec V => Prog.bind (Prog.ofOption (s.deref p)) fun v =>
      Prog.bind (E.copyVH t) fun _ => Prog.pure v) x w = _ at h
    unfold Prog.bind Prog.get at h
    dsimp only at h
    cases ho : x.deref p with
    | none => rw [ho] at h; cases h
    | some v => rw [ho] at h; exact key _ v (copyVH_steps E t) h

theorem mapAll_steps (t : Ty) : ∀ (srcs : List (Src V)) (x : Vec V) w vs y w',
    Prog.mapAll (E.construct t) srcs x w = .ok vs y w' →
      y = x ∧ w'.tick ≤ w.tick + srcs.length ∧ vs.length = srcs.length
  | [], x, w, vs, y, w', h => by cases h; exact ⟨rfl, Nat.le_add_right _ _, rfl⟩
  | s :: srcs, x, w, vs, y, w', h => by
    change Prog.bind (E.construct t s) (fun a => Prog.bind (Prog.mapAll (E.construct t) srcs)
      fun as => Prog.pure (a :: as)) x w = _ at h
    unfold Prog.bind at h
    cases h1 : E.construct t s x w with
    | exc e z w1 => rw [h1] at h; cases h
    | ub => rw [h1] at h; cases h
    | ok a z w1 =>
      rw [h1] at h
      obtain ⟨rfl, t1⟩ := construct_steps E t s _ _ _ _ _ h1
      dsimp only at h
      cases h2 : Prog.mapAll (E.construct t) srcs z w1 with
      | exc e z' w2 => rw [h2] at h; cases h
      | ub => rw [h2] at h; cases h
      | ok as z' w2 =>
        rw [h2] at h
        obtain ⟨rfl, t2, l2⟩ := mapAll_steps t srcs _ _ _ _ _ h2
        cases h
        refine ⟨rfl, ?_, by simp [l2]⟩
        rw [List.length_cons]; omega

end

section
variable {V : Type} (E : Env V)

theorem reserve_metered (t : Ty) (n : Nat) (s : Vec V) :
    Metered vsh (E.reserve t n) s (VShape.reserve E.lib n (vsh s)) := by
  intro w a y w' h
  unfold Env.reserve at h
  obtain ⟨_, _, _, hg, h⟩ := bind_inv h
  cases hg
  unfold VShape.reserve
  split at h
  · cases h
  · split at h
    · rename_i hc
      cases h
      rw [if_pos (show n ≤ (vsh _).cap from hc)]
      exact ⟨rfl, Nat.le_add_right _ _⟩
    · rename_i hc
      rw [if_neg (show ¬ n ≤ (vsh s).cap from hc)]
      obtain ⟨b, _, _, h1, h⟩ := bind_inv h
      obtain ⟨_, _, _, h2, h⟩ := bind_inv h
      obtain ⟨rfl, t1⟩ := alloc_steps E _ _ _ _ _ h1
      obtain ⟨rfl, t2⟩ := relocate_steps E _ _ _ _ _ _ _ h2
      cases h
      exact ⟨rfl, by simp only [vsh, Vec.size]; omega⟩

theorem emplaceBack_metered (t : Ty) (src : Src V) (s : Vec V) :
    Metered vsh (E.emplaceBack t src) s (VShape.emplaceBack E.lib (E.maxSize t) (vsh s)) := by
  intro w a y w' h
  unfold Env.emplaceBack at h
  obtain ⟨_, _, _, hg, h⟩ := bind_inv h
  cases hg
  unfold VShape.emplaceBack
  split at h
  · rename_i hc
    rw [if_pos (show (vsh s).size < (vsh s).cap from hc)]
    obtain ⟨v, _, _, h1, h⟩ := bind_inv h
    obtain ⟨rfl, t1⟩ := construct_steps E _ _ _ _ _ _ _ h1
    cases h
    exact ⟨by simp [vsh, Vec.size], t1⟩
  · rename_i hc
    rw [if_neg (show ¬ (vsh s).size < (vsh s).cap from hc)]
    split at h
    · cases h
    · obtain ⟨b, _, _, h1, h⟩ := bind_inv h
      obtain ⟨v, _, _, h2, h⟩ := bind_inv h
      obtain ⟨_, _, _, h3, h⟩ := bind_inv h
      obtain ⟨rfl, t1⟩ := alloc_steps E _ _ _ _ _ h1
      obtain ⟨rfl, t2⟩ := construct_steps E _ _ _ _ _ _ _ h2
      obtain ⟨rfl, t3⟩ := relocate_steps E _ _ _ _ _ _ _ h3
      cases h
      exact ⟨by simp [vsh, Vec.size], by simp only [vsh, Vec.size]; omega⟩

/-- What `shift` does if it returns. -/
theorem shift_inv {nothrow : Bool} {lo hi : Nat} {s y : Vec V} {w w' : World} {a : Unit}
    (h : E.shift nothrow lo hi s w = .ok a y w') :
    y = s ∧ w'.tick ≤ w.tick + 1 ∧ (nothrow = true → w' = w) := by
  have h := onExc_inv h
  obtain ⟨rfl, t⟩ := userOp_steps E _ _ _ _ _ _ h
  refine ⟨rfl, t, fun hn => ?_⟩
  unfold Env.userOp at h
  rw [if_pos hn] at h
  cases h; rfl

theorem emplaceAt_metered (t : Ty) (n : Nat) (src : Src V) (s : Vec V) :
    Metered vsh (E.emplaceAt t n src) s (VShape.emplaceAt E.lib (E.maxSize t) n (vsh s)) := by
  intro w a y w' h
  unfold Env.emplaceAt at h
  obtain ⟨_, _, _, hg, h⟩ := bind_inv h
  cases hg
  unfold VShape.emplaceAt
  split at h
  · cases h
  · rename_i hn
    by_cases he : n = s.size
    · rw [if_pos he] at h
      rw [if_pos (show n = (vsh s).size from he)]
      exact emplaceBack_metered E t src s _ _ _ _ h
    · rw [if_neg he] at h
      rw [if_neg (show ¬ n = (vsh s).size from he)]
      have hle : n ≤ s.elems.length := Nat.le_of_not_lt hn
      split at h
      · rename_i hc
        rw [if_pos (show (vsh s).size < (vsh s).cap from hc)]
        obtain ⟨v, _, _, h1, h⟩ := bind_inv h
        obtain ⟨rfl, t1⟩ := construct_steps E _ _ _ _ _ _ _ h1
        obtain ⟨_, _, _, h2, h⟩ := bind_inv h
        obtain ⟨rfl, t2, -⟩ := shift_inv E h2
        cases h
        exact ⟨by simp [vsh, Vec.size, List.length_insertIdx, hle], by simp only [vsh]; omega⟩
      · rename_i hc
        rw [if_neg (show ¬ (vsh s).size < (vsh s).cap from hc)]
        split at h
        · cases h
        · obtain ⟨b, _, _, h1, h⟩ := bind_inv h
          obtain ⟨v, _, _, h2, h⟩ := bind_inv h
          obtain ⟨_, _, _, h3, h⟩ := bind_inv h
          obtain ⟨rfl, t1⟩ := alloc_steps E _ _ _ _ _ h1
          obtain ⟨rfl, t2⟩ := construct_steps E _ _ _ _ _ _ _ h2
          obtain ⟨rfl, t3⟩ := relocate_steps E _ _ _ _ _ _ _ h3
          cases h
          exact ⟨by simp [vsh, Vec.size, List.length_insertIdx, hle], by simp only [vsh, Vec.size]; omega⟩

theorem insertRange_metered (t : Ty) (n : Nat) (srcs : List (Src V)) (s : Vec V) :
    Metered vsh (E.insertRange t n srcs) s (VShape.insertRange E.lib (E.maxSize t) n srcs.length (vsh s)) := by
  intro w a y w' h
  unfold Env.insertRange at h
  obtain ⟨_, _, _, hg, h⟩ := bind_inv h
  cases hg
  unfold VShape.insertRange
  split at h
  · cases h
  · rename_i hn
    have hle : n ≤ s.elems.length := Nat.le_of_not_lt hn
    by_cases hs : srcs = []
    · subst hs
      rw [if_pos rfl] at h
      cases h
      exact ⟨rfl, Nat.le_add_right _ _⟩
    · have hk : ¬ srcs.length = 0 := fun e => hs (List.length_eq_zero_iff.mp e)
      rw [if_neg hs] at h
      rw [if_neg hk]
      by_cases hc : s.size + srcs.length ≤ s.cap
      · rw [if_pos hc] at h
        rw [if_pos (show (vsh s).size + srcs.length ≤ (vsh s).cap from hc)]
        split at h
        · rename_i he
          obtain ⟨vs, _, _, h1, h⟩ := bind_inv h
          obtain ⟨rfl, t1, l1⟩ := mapAll_steps E _ _ _ _ _ _ _ h1
          cases h
          refine ⟨by simp [vsh, Vec.size, l1], ?_⟩
          dsimp only; omega
        · rename_i he
          obtain ⟨vs, _, _, h1, h⟩ := bind_inv h
          obtain ⟨_, _, _, h0, h2⟩ := bind_inv (onExc_inv h1)
          obtain ⟨rfl, t0⟩ := userOp_steps E _ _ _ _ _ _ h0
          obtain ⟨rfl, t1, l1⟩ := mapAll_steps E _ _ _ _ _ _ _ h2
          cases h
          have := Nat.lt_of_le_of_ne hle he
          refine ⟨by simp [vsh, Vec.size, l1]; omega, ?_⟩
          simp only [vsh]; omega
      · rw [if_neg hc] at h
        rw [if_neg (show ¬ (vsh s).size + srcs.length ≤ (vsh s).cap from hc)]
        split at h
        · cases h
        · obtain ⟨b, _, _, h1, h⟩ := bind_inv h
          obtain ⟨vs, _, _, h2, h⟩ := bind_inv h
          obtain ⟨_, _, _, h3, h⟩ := bind_inv h
          obtain ⟨rfl, t1⟩ := alloc_steps E _ _ _ _ _ h1
          obtain ⟨rfl, t2, l2⟩ := mapAll_steps E _ _ _ _ _ _ _ h2
          obtain ⟨rfl, t3⟩ := relocate_steps E _ _ _ _ _ _ _ h3
          cases h
          exact ⟨by simp [vsh, Vec.size, l2]; omega, by simp only [vsh, Vec.size]; omega⟩

/-- A loop. -/
theorem each_metered {X σ β : Type} {sh : X → σ} {g : β → Prog X Unit} {f : Meter σ}
    (hg : ∀ b x, Metered sh (g b) x (f (sh x))) :
    ∀ (l : List β) (x : X), Metered sh (Prog.each g l) x (Meter.times f l.length (sh x))
  | [], x => by intro w a y w' h; cases h; exact ⟨rfl, Nat.le_add_right _ _⟩
  | b :: l, x => by
    intro w a y w' h
    obtain ⟨_, z, w1, h1, h2⟩ := bind_inv (p := g b) (k := fun _ => Prog.each g l) h
    obtain ⟨e1, t1⟩ := hg b x _ _ _ _ h1
    obtain ⟨e2, t2⟩ := each_metered hg l z _ _ _ _ h2
    rw [e1] at e2 t2
    refine ⟨e2, ?_⟩
    show _ ≤ _ + ((f (sh x)).2 + _)
    omega

theorem insertInput_metered (t : Ty) (n : Nat) (srcs : List (Src V)) (s : Vec V) :
    Metered vsh (E.insertInput t n srcs) s (VShape.insertInput E.lib (E.maxSize t) n srcs.length (vsh s)) := by
  intro w a y w' h
  unfold Env.insertInput at h
  obtain ⟨_, _, _, hg, h⟩ := bind_inv h
  cases hg
  unfold VShape.insertInput
  have hnil : (srcs ≠ []) ↔ (srcs.length ≠ 0) := by simp
  split at h
  · cases h
  · rename_i hn
    have hle : n ≤ s.elems.length := Nat.le_of_not_lt hn
    by_cases hc : E.lib.inputTemp = true ∧ n ≠ s.size ∧ srcs ≠ []
    · rw [if_pos hc] at h
      rw [if_pos (show E.lib.inputTemp = true ∧ n ≠ (vsh s).size ∧ srcs.length ≠ 0 from
        ⟨hc.1, hc.2.1, hnil.mp hc.2.2⟩)]
      obtain ⟨vs, z, w1, h1, h2⟩ := bind_inv h
      have key : z = s ∧ vs.length = srcs.length ∧
          w1.tick ≤ w.tick + (Meter.times (VShape.emplaceBack E.lib (E.maxSize t)) srcs.length ⟨0, 0⟩).2 := by
        unfold Prog.locally at h1
        cases hl : Prog.each (E.emplaceBack t) srcs Vec.nil w with
        | exc e u w2 => rw [hl] at h1; cases h1
        | ub => rw [hl] at h1; cases h1
        | ok b tmp w2 =>
          rw [hl] at h1; cases h1
          obtain ⟨e, t2⟩ := each_metered (sh := vsh) (fun b x => emplaceBack_metered E t b x) srcs _ _ _ _ _ hl
          refine ⟨rfl, ?_, t2⟩
          have hsz : ∀ k (v : VShape), (Meter.times (VShape.emplaceBack E.lib (E.maxSize t)) k v).1.size = v.size + k := by
            intro k
            induction k with
            | zero => intro v; rfl
            | succ k ih =>
              intro v
              refine (ih _).trans ?_
              unfold VShape.emplaceBack
              split <;> (dsimp only; omega)
          have := congrArg VShape.size e
          rw [hsz] at this
          simpa [vsh, Vec.size, Vec.nil] using this
      obtain ⟨rfl, l1, t1⟩ := key
      obtain ⟨e2, t2⟩ := insertRange_metered E t n (vs.map .moveExt) z _ _ _ _ h2
      rw [List.length_map, l1] at e2 t2
      exact ⟨e2, by dsimp only; omega⟩
    · rw [if_neg hc] at h
      rw [if_neg (show ¬ (E.lib.inputTemp = true ∧ n ≠ (vsh s).size ∧ srcs.length ≠ 0) from
        fun h' => hc ⟨h'.1, h'.2.1, hnil.mpr h'.2.2⟩)]
      obtain ⟨_, z, w1, h1, h⟩ := bind_inv h
      obtain ⟨e1, t1⟩ := each_metered (sh := vsh) (fun b x => emplaceBack_metered E t b x) srcs _ _ _ _ _ h1
      obtain ⟨_, _, _, hg, h⟩ := bind_inv h
      cases hg
      obtain ⟨_, z', w2, h2, h⟩ := bind_inv h
      obtain ⟨rfl, t2, u2⟩ := shift_inv E h2
      cases h
      have hsz : z'.elems.length = s.elems.length + srcs.length := by
        have hsz : ∀ k (v : VShape), (Meter.times (VShape.emplaceBack E.lib (E.maxSize t)) k v).1.size = v.size + k := by
          intro k
          induction k with
          | zero => intro v; rfl
          | succ k ih =>
            intro v
            refine (ih _).trans ?_
            unfold VShape.emplaceBack
            split <;> (dsimp only; omega)
        have := congrArg VShape.size e1
        rw [hsz] at this
        simpa [vsh, Vec.size] using this
      dsimp only
      refine ⟨?_, ?_⟩
      · rw [← e1]
        simp only [vsh, Vec.size, List.length_append, List.length_take, List.length_drop, hsz]
        congr 1
        omega
      · by_cases hz : n = s.size ∨ srcs.length = 0
        · rw [if_pos (show n = (vsh s).size ∨ srcs.length = 0 from hz)]
          have := u2 (by rcases hz with hz | hz <;> simp_all)
          subst this; omega
        · rw [if_neg (show ¬ (n = (vsh s).size ∨ srcs.length = 0) from hz)]
          have hlt : n < s.size := by
            have : n ≤ s.size := hle
            omega
          have : (vsh z').size = z'.elems.length := rfl
          rw [← e1, this, hsz]
          have : s.size = s.elems.length := rfl
          omega

theorem eraseRange_metered (t : Ty) (a b : Nat) (s : Vec V) :
    Metered vsh (E.eraseRange t a b) s (VShape.eraseRange a b (vsh s)) := by
  intro w u y w' h
  unfold Env.eraseRange at h
  obtain ⟨_, _, _, hg, h⟩ := bind_inv h
  cases hg
  unfold VShape.eraseRange
  split at h
  · rename_i hab
    obtain ⟨_, _, _, h1, h⟩ := bind_inv h
    obtain ⟨rfl, t1, u1⟩ := shift_inv E h1
    cases h
    have hsz : ∀ z : Vec V, z.size = z.elems.length := fun _ => rfl
    refine ⟨?_, ?_⟩
    · rename_i z w1
      have := hsz z
      simp only [vsh, Vec.size, List.length_append, List.length_take, List.length_drop] at *
      congr 1
      omega
    · rename_i z w1
      by_cases he : a = b
      · have : w' = w := u1 (by simp [he])
        subst this; omega
      · by_cases hb : b = z.size
        · have : w' = w := u1 (by simp [hb])
          subst this; omega
        · dsimp only
          rw [if_neg he]
          have : (vsh z).size = z.size := rfl
          omega
  · cases h

theorem eraseAt_metered (t : Ty) (n : Nat) (s : Vec V) :
    Metered vsh (E.eraseAt t n) s (VShape.eraseRange n (n + 1) (vsh s)) := by
  intro w u y w' h
  unfold Env.eraseAt at h
  obtain ⟨_, _, _, hg, h⟩ := bind_inv h
  cases hg
  split at h
  · exact eraseRange_metered E t n (n + 1) s _ _ _ _ h
  · cases h

theorem clearVec_metered (s : Vec V) : Metered vsh (Env.clearVec) s (VShape.clear (vsh s)) := by
  intro w u y w' h
  cases h
  exact ⟨rfl, Nat.le_add_right _ _⟩

theorem shrinkToFit_metered (t : Ty) (s : Vec V) :
    Metered vsh (E.shrinkToFit t) s (VShape.shrinkToFit E.lib (vsh s)) := by
  intro w u y w' h
  unfold Env.shrinkToFit at h
  obtain ⟨_, _, _, hg, h⟩ := bind_inv h
  cases hg
  unfold VShape.shrinkToFit
  dsimp only at h ⊢
  by_cases h0 : E.lib.shrinkCap s.size s.cap = s.cap
  · rw [if_pos h0] at h
    rw [if_pos (show E.lib.shrinkCap (vsh s).size (vsh s).cap = (vsh s).cap from h0)]
    cases h
    exact ⟨rfl, Nat.le_add_right _ _⟩
  · rw [if_neg h0] at h
    rw [if_neg (show ¬ E.lib.shrinkCap (vsh s).size (vsh s).cap = (vsh s).cap from h0)]
    by_cases h1 : E.lib.shrinkCap s.size s.cap = 0
    · rw [if_pos h1] at h
      rw [if_pos (show E.lib.shrinkCap (vsh s).size (vsh s).cap = 0 from h1)]
      cases h
      exact ⟨rfl, Nat.le_add_right _ _⟩
    · rw [if_neg h1] at h
      rw [if_neg (show ¬ E.lib.shrinkCap (vsh s).size (vsh s).cap = 0 from h1)]
      obtain ⟨b, _, _, h1, h⟩ := bind_inv h
      obtain ⟨_, _, _, h2, h⟩ := bind_inv h
      obtain ⟨rfl, t1⟩ := alloc_steps E _ _ _ _ _ h1
      obtain ⟨rfl, t2⟩ := relocate_steps E _ _ _ _ _ _ _ h2
      cases h
      exact ⟨rfl, by simp only [vsh, Vec.size]; omega⟩

theorem idxReserve_metered (n : Nat) (i : Vec Ptr) :
    Metered vsh (E.idxReserve n) i (VShape.reserve E.lib n (vsh i)) := by
  intro w a y w' h
  unfold Env.idxReserve at h
  obtain ⟨_, _, _, hg, h⟩ := bind_inv h
  cases hg
  unfold VShape.reserve
  split at h
  · cases h
  · split at h
    · rename_i hc
      cases h
      rw [if_pos (show n ≤ (vsh _).cap from hc)]
      exact ⟨rfl, Nat.le_add_right _ _⟩
    · rename_i hc
      rw [if_neg (show ¬ n ≤ (vsh i).cap from hc)]
      obtain ⟨b, _, _, h1, h⟩ := bind_inv h
      obtain ⟨rfl, t1⟩ := alloc_steps E _ _ _ _ _ h1
      cases h
      exact ⟨rfl, by dsimp only; omega⟩

theorem idxPushBack_metered (p : Ptr) (i : Vec Ptr) :
    Metered vsh (E.idxPushBack p) i (VShape.emplaceBack E.lib E.idxMaxSize (vsh i)) := by
  intro w a y w' h
  unfold Env.idxPushBack at h
  obtain ⟨_, _, _, hg, h⟩ := bind_inv h
  cases hg
  unfold VShape.emplaceBack
  split at h
  · rename_i hc
    rw [if_pos (show (vsh i).size < (vsh i).cap from hc)]
    cases h
    exact ⟨by simp [vsh, Vec.size], Nat.le_succ _⟩
  · rename_i hc
    rw [if_neg (show ¬ (vsh i).size < (vsh i).cap from hc)]
    split at h
    · cases h
    · obtain ⟨b, _, _, h1, h⟩ := bind_inv h
      obtain ⟨rfl, t1⟩ := alloc_steps E _ _ _ _ _ h1
      cases h
      exact ⟨by simp [vsh, Vec.size], by dsimp only; omega⟩

theorem idxPopBack_metered (i : Vec Ptr) : Metered vsh idxPopBack i (VShape.popBack (vsh i)) := by
  intro w a y w' h
  unfold idxPopBack at h
  obtain ⟨_, _, _, hg, h⟩ := bind_inv h
  cases hg
  split at h
  · cases h
  · cases h
    exact ⟨by simp [vsh, Vec.size, VShape.popBack], Nat.le_succ _⟩

theorem idxClear_metered (i : Vec Ptr) : Metered vsh idxClear i (VShape.clear (vsh i)) := by
  intro w u y w' h
  cases h
  exact ⟨rfl, Nat.le_add_right _ _⟩

end

/-! ## Split segments -/

section
variable {V : Type} (E : Env V)

theorem onS_metered {α : Type} {p : Prog (Vec V) α} {f : Meter VShape} {x : Split V}
    (h : Metered vsh p x.s (f (vsh x.s))) : Metered (ssh E) (Split.onS p) x (SShape.onS f (ssh E x)) := by
  intro w a y w' hp
  obtain ⟨z, hz, rfl⟩ := zoom_inv hp
  obtain ⟨e, t⟩ := h _ _ _ _ hz
  exact ⟨by simp only [ssh, SShape.onS, e], t⟩

theorem onI_metered {α : Type} {p : Prog (Vec Ptr) α} {f : Meter VShape} {x : Split V}
    (h : Metered vsh p x.i (f (vsh x.i))) : Metered (ssh E) (Split.onI p) x (SShape.onI f (ssh E x)) := by
  intro w a y w' hp
  obtain ⟨z, hz, rfl⟩ := zoom_inv hp
  obtain ⟨e, t⟩ := h _ _ _ _ hz
  exact ⟨by simp only [ssh, SShape.onI, e], t⟩

/-- One after the other. -/
theorem Metered.seq {X σ α β : Type} {sh : X → σ} {p : Prog X α} {k : α → Prog X β} {f g : Meter σ} {x : X}
    (hp : Metered sh p x (f (sh x))) (hk : ∀ a y, sh y = (f (sh x)).1 → Metered sh (k a) y (g (sh y))) :
    Metered sh (p >>= k) x (f.andThen g (sh x)) := by
  intro w b z w2 h
  obtain ⟨a, y, w1, h1, h2⟩ := bind_inv h
  obtain ⟨e1, t1⟩ := hp _ _ _ _ h1
  obtain ⟨e2, t2⟩ := hk a y e1 _ _ _ _ h2
  rw [e1] at e2 t2
  exact ⟨e2, by show _ ≤ _ + (_ + _); omega⟩

/-- Reading the object. -/
theorem Metered.look {X σ β : Type} {sh : X → σ} {k : X → Prog X β} {r : σ × Nat} {x : X}
    (hk : Metered sh (k x) x r) : Metered sh (Prog.get >>= k) x r := by
  intro w b z w2 h
  obtain ⟨a, y, w1, h1, h2⟩ := bind_inv h
  cases h1
  exact hk _ _ _ _ h2

/-- A value computed from the object. -/
theorem Metered.opt {X σ α β : Type} {sh : X → σ} {o : Option α} {k : α → Prog X β} {r : σ × Nat} {x : X}
    (hk : ∀ a, o = some a → Metered sh (k a) x r) : Metered sh (Prog.ofOption o >>= k) x r := by
  intro w b z w2 h
  obtain ⟨a, y, w1, h1, h2⟩ := bind_inv h
  obtain ⟨e, rfl, rfl⟩ := ofOption_inv h1
  exact hk a e _ _ _ _ h2

/-- A result computed from the object. -/
theorem Metered.ret {X σ α β : Type} {sh : X → σ} {p : Prog X α} {k : α → Prog X β} {r : σ × Nat} {x : X}
    (hp : Metered sh p x r) (hk : ∀ a, Steps (k a) 0) : Metered sh (p >>= k) x r := by
  intro w b z w2 h
  obtain ⟨a, y, w1, h1, h2⟩ := bind_inv h
  obtain ⟨rfl, t2⟩ := hk a _ _ _ _ _ h2
  obtain ⟨e1, t1⟩ := hp _ _ _ _ h1
  exact ⟨e1, by omega⟩

theorem retRange_steps (n : Nat) : Steps (Split.retRange (V := V) n) 0 := by
  intro x w a y w' h
  cases h
  exact ⟨rfl, Nat.le_refl _⟩

theorem retSentinel_steps : Steps (Split.retSentinel (V := V)) 0 := by
  intro x w a y w' h
  cases h
  exact ⟨rfl, Nat.le_refl _⟩

theorem Metered.skip {X σ : Type} {sh : X → σ} (x : X) : Metered sh (Prog.pure ()) x (Meter.skip (sh x)) := by
  intro w a y w' h
  cases h
  exact ⟨rfl, Nat.le_refl _⟩

theorem times_onI (f : Meter VShape) : ∀ (n : Nat) (x : SShape),
    Meter.times (SShape.onI f) n x = SShape.onI (Meter.times f n) x
  | 0, x => rfl
  | n + 1, x => by
    show (Meter.times (SShape.onI f) n (SShape.onI f x).1 |>.1, _ + (Meter.times (SShape.onI f) n (SShape.onI f x).1).2) = _
    rw [times_onI f n]
    rfl

theorem buildIndex_metered (start : Nat) (x : Split V) :
    Metered (ssh E) (Split.buildIndex E start) x (SShape.buildIndex E.lib start (ssh E x)) := by
  refine Metered.look ?_
  have key := each_metered (sh := ssh E) (g := Split.pushIndex E)
    (f := SShape.onI (VShape.emplaceBack E.lib E.idxMaxSize)) (fun n y => Metered.look (by
      split
      · intro w a y w' h; cases h
      · exact onI_metered E (idxPushBack_metered E _ _))) (List.range' start (x.s.size + 1 - start)) x
  rw [times_onI, List.length_range'] at key
  exact key

theorem rebuildIndex_metered (x : Split V) :
    Metered (ssh E) (Split.rebuildIndex E) x (SShape.rebuildIndex E.lib (ssh E x)) :=
  Metered.seq (onI_metered E (idxClear_metered _)) fun _ y _ => buildIndex_metered E 0 y

theorem pushIndexEntry_metered (x : Split V) :
    Metered (ssh E) (Split.pushIndexEntry E) x (SShape.pushIndexEntry E.lib (ssh E x)) :=
  Metered.look (buildIndex_metered E _ _)

theorem popIndexEntry_metered : ∀ (n : Nat) (x : Split V),
    Metered (ssh E) (Split.popIndexEntry n) x (SShape.popIndexEntry n (ssh E x))
  | 0, x => by intro w a y w' h; cases h; exact ⟨rfl, Nat.le_refl _⟩
  | n + 1, x => by
    have key : Metered (ssh E) (Split.popIndexEntry (V := V) (n + 1)) x
        ((SShape.onI VShape.popBack).andThen (SShape.popIndexEntry n) (ssh E x)) :=
      Metered.seq (onI_metered E (idxPopBack_metered _)) fun _ y _ => popIndexEntry_metered n y
    exact key

theorem expand_metered (x : Split V) : Metered (ssh E) (Split.expand E) x (SShape.expand E.lib (ssh E x)) :=
  Metered.look (Metered.seq (onI_metered E (idxReserve_metered E _ _)) fun _ y _ =>
    Metered.seq (onS_metered E (reserve_metered E _ _ _)) fun _ z _ => rebuildIndex_metered E z)

theorem expandBy_metered (k : Nat) (x : Split V) :
    Metered (ssh E) (Split.expandBy E k) x (SShape.expandBy E.lib k (ssh E x)) :=
  Metered.look (Metered.seq (onI_metered E (idxReserve_metered E _ _)) fun _ y _ =>
    Metered.seq (onS_metered E (reserve_metered E _ _ _)) fun _ z _ => rebuildIndex_metered E z)

theorem prereserve_metered (x : Split V) :
    Metered (ssh E) (Split.prereserve E) x (SShape.prereserve E.lib (ssh E x)) := by
  refine Metered.look ?_
  unfold SShape.prereserve
  by_cases h : x.s.size = x.s.cap
  · rw [if_pos h, if_pos (show (ssh E x).s.size = (ssh E x).s.cap from h)]
    exact expand_metered E x
  · rw [if_neg h, if_neg (show ¬ (ssh E x).s.size = (ssh E x).s.cap from h)]
    exact Metered.skip x

theorem iteratorFrom_off {x : Split V} {p : PosArg} {n : Nat} (h : x.iteratorFrom p = some n) : n = p.ptr.off := by
  cases p with
  | base p => unfold Split.iteratorFrom at h; dsimp only at h; split at h <;> cases h; rfl
  | loc p =>
    change x.s.posOf p = some n at h
    unfold Vec.posOf at h; split at h <;> cases h; rfl

theorem posOf_off {α : Type} {x : Vec α} {p : Ptr} {n : Nat} (h : x.posOf p = some n) : n = p.off := by
  unfold Vec.posOf at h; split at h <;> cases h; rfl

theorem prereserveAt_metered (p : PosArg) (x : Split V) :
    Metered (ssh E) (Split.prereserveAt E p) x (SShape.prereserve E.lib (ssh E x)) ∧
      ∀ w a y w', Split.prereserveAt E p x w = .ok a y w' → a.ptr.off = p.ptr.off ∧
        ((∃ q, a = .loc q) ↔ ∃ q, p = .loc q) := by
  unfold Split.prereserveAt SShape.prereserve
  by_cases h : x.s.size = x.s.cap
  · rw [if_pos (show (ssh E x).s.size = (ssh E x).s.cap from h)]
    refine ⟨Metered.look ?_, fun w a y w' hr => ?_⟩
    · rw [if_pos h]
      refine Metered.opt fun n _ => Metered.ret (expand_metered E x) fun _ => ?_
      intro y w a z w' hr
      cases p <;> (cases hr; exact ⟨rfl, Nat.le_refl _⟩)
    · obtain ⟨_, _, _, hg, hr⟩ := bind_inv hr
      cases hg
      rw [if_pos h] at hr
      obtain ⟨n, _, _, ho, hr1⟩ := bind_inv hr
      obtain ⟨ho', rfl, rfl⟩ := ofOption_inv ho
      obtain ⟨_, _, _, _, hr2⟩ := bind_inv hr1
      obtain ⟨_, _, _, hg, hr3⟩ := bind_inv hr2
      cases hg
      have := iteratorFrom_off ho'
      cases p <;> (cases hr3; exact ⟨this, by simp⟩)
  · rw [if_neg (show ¬ (ssh E x).s.size = (ssh E x).s.cap from h)]
    refine ⟨Metered.look ?_, fun w a y w' hr => ?_⟩
    · rw [if_neg h]
      intro w a y w' hr; cases hr; exact ⟨rfl, Nat.le_refl _⟩
    · obtain ⟨_, _, _, hg, hr⟩ := bind_inv hr
      cases hg
      rw [if_neg h] at hr
      cases hr; exact ⟨rfl, Iff.rfl⟩

/-- With the value of the first program. -/
theorem Metered.seq' {X σ α β : Type} {sh : X → σ} {p : Prog X α} {k : α → Prog X β} {f g : Meter σ} {x : X}
    {Q : α → Prop} (hp : Metered sh p x (f (sh x))) (hq : ∀ w a y w', p x w = .ok a y w' → Q a)
    (hk : ∀ a y, Q a → sh y = (f (sh x)).1 → Metered sh (k a) y (g (sh y))) :
    Metered sh (p >>= k) x (f.andThen g (sh x)) := by
  intro w b z w2 h
  obtain ⟨a, y, w1, h1, h2⟩ := bind_inv h
  obtain ⟨e1, t1⟩ := hp _ _ _ _ h1
  obtain ⟨e2, t2⟩ := hk a y (hq _ _ _ _ h1) e1 _ _ _ _ h2
  rw [e1] at e2 t2
  exact ⟨e2, by show _ ≤ _ + (_ + _); omega⟩

theorem prereserve_m (x : SShape) : ((SShape.prereserve E.lib x).1).m = x.m := by
  unfold SShape.prereserve; split <;> rfl

theorem prereserveBy_m (k : Nat) (x : SShape) : ((SShape.prereserveBy E.lib k x).1).m = x.m := by
  unfold SShape.prereserveBy; split <;> rfl

theorem emplaceAt_smetered (p : PosArg) (src : Src V) (x : Split V) :
    Metered (ssh E) (Split.emplaceAt E p src) x (SShape.emplaceAt E.lib p.ptr.off (ssh E x)) := by
  obtain ⟨hm, hq⟩ := prereserveAt_metered E p x
  refine Metered.seq' (Q := fun a => a.ptr.off = p.ptr.off) hm (fun w a y w' h => (hq w a y w' h).1) fun a y ha ey => ?_
  refine Metered.look (Metered.opt fun n hn => ?_)
  have hn := (iteratorFrom_off hn).trans ha
  subst hn
  have em : (ssh E x).m = E.maxSize y.ty := by
    have := congrArg SShape.m ey
    rw [prereserve_m] at this
    exact this.symm
  refine Metered.seq (onS_metered E ?_) fun _ z _ => Metered.ret (pushIndexEntry_metered E z) fun _ => retRange_steps _
  rw [em]
  exact emplaceAt_metered E _ _ _ _

theorem pushBack_smetered (src : Src V) (x : Split V) :
    Metered (ssh E) (Split.pushBack E src) x (SShape.pushBack E.lib (ssh E x)) := by
  refine Metered.seq (prereserve_metered E x) fun _ y ey => ?_
  refine Metered.look ?_
  have em : (ssh E x).m = E.maxSize y.ty := by
    have := congrArg SShape.m ey
    rw [prereserve_m] at this
    exact this.symm
  refine Metered.seq (onS_metered E ?_) fun _ z _ => Metered.ret (pushIndexEntry_metered E z) fun _ => ?_
  · rw [em]
    exact emplaceBack_metered E _ _ _
  · intro z w a z' w' h
    cases h
    exact ⟨rfl, Nat.le_refl _⟩

theorem insertLoop_smetered : ∀ (srcs : List (Src V)) (p : Ptr) (x : Split V),
    Metered (ssh E) (Split.insertLoop E p srcs) x (SShape.insertInput E.lib p.off srcs.length (ssh E x))
  | [], p, x => by intro w a y w' h; cases h; exact ⟨rfl, Nat.le_refl _⟩
  | src :: srcs, p, x => by
    intro w a y w' h
    unfold Split.insertLoop at h
    obtain ⟨q, y1, w1, h1, h⟩ := bind_inv h
    obtain ⟨hm, hq⟩ := prereserveAt_metered E (.loc p) x
    obtain ⟨e1, t1⟩ := hm _ _ _ _ h1
    obtain ⟨ho, hl⟩ := hq _ _ _ _ h1
    obtain ⟨q, rfl⟩ := hl.mpr ⟨p, rfl⟩
    obtain ⟨_, _, _, hg, h⟩ := bind_inv h
    cases hg
    obtain ⟨n, y2, w2, hn, h⟩ := bind_inv h
    obtain ⟨hn', rfl, rfl⟩ := ofOption_inv hn
    have hn := (iteratorFrom_off hn').trans ho
    subst hn
    obtain ⟨_, y3, w3, h3, h⟩ := bind_inv h
    obtain ⟨_, y4, w4, h4, h⟩ := bind_inv h
    have em : (ssh E x).m = E.maxSize y2.ty := by
      have := congrArg SShape.m e1
      rw [prereserve_m] at this
      exact this.symm
    obtain ⟨e3, t3⟩ := onS_metered E (emplaceAt_metered E _ _ _ _) _ _ _ _ h3
    obtain ⟨e4, t4⟩ := pushIndexEntry_metered E _ _ _ _ _ h4
    obtain ⟨e5, t5⟩ := insertLoop_smetered srcs _ _ _ _ _ _ h
    have ho' : q.off = p.off := ho
    have hstep : SShape.emplaceAt E.lib p.off (ssh E x) = (ssh E y4, (SShape.prereserve E.lib (ssh E x)).2 +
        ((SShape.onS (VShape.emplaceAt E.lib (E.maxSize y2.ty) p.off) (ssh E y2)).2 +
          (SShape.pushIndexEntry E.lib (ssh E y3)).2)) := by
      unfold SShape.emplaceAt Meter.andThen
      rw [em, ← e1]
      dsimp only
      rw [show (PosArg.loc p).ptr.off = p.off from rfl] at e3
      rw [← e3, ← e4]
    show _ = ((SShape.emplaceAt E.lib p.off).andThen (SShape.insertInput E.lib (p.off + 1) srcs.length) (ssh E x)).1 ∧
      _ ≤ _ + ((SShape.emplaceAt E.lib p.off).andThen (SShape.insertInput E.lib (p.off + 1) srcs.length) (ssh E x)).2
    unfold Meter.andThen
    rw [hstep]
    dsimp only at e5 t5 ⊢
    rw [ho'] at e5 t5
    refine ⟨e5, ?_⟩
    have t3' : w3.tick ≤ _ := t3
    rw [show (PosArg.loc p).ptr.off = p.off from rfl] at t3'
    omega

theorem insertInput_smetered (srcs : List (Src V)) (p : Ptr) (x : Split V) :
    Metered (ssh E) (Split.insertInput E p srcs) x (SShape.insertInput E.lib p.off srcs.length (ssh E x)) := by
  refine Metered.ret (insertLoop_smetered E srcs p x) fun q => ?_
  intro y w a z w' h
  obtain ⟨_, _, _, hg, h⟩ := bind_inv h
  cases hg
  split at h
  · cases h
  · obtain ⟨_, _, _, ho, h'⟩ := bind_inv h
    obtain ⟨_, rfl, rfl⟩ := ofOption_inv ho
    exact retRange_steps _ _ _ _ _ _ h'

theorem prereserveBy_metered (p : Ptr) (k : Nat) (x : Split V) :
    Metered (ssh E) (Split.prereserveBy E p k) x (SShape.prereserveBy E.lib k (ssh E x)) ∧
      ∀ w a y w', Split.prereserveBy E p k x w = .ok a y w' → a.off = p.off := by
  unfold Split.prereserveBy SShape.prereserveBy
  by_cases h : x.s.cap < x.s.size + k
  · rw [if_pos (show (ssh E x).s.cap < (ssh E x).s.size + k from h)]
    refine ⟨Metered.look ?_, fun w a y w' hr => ?_⟩
    · rw [if_pos h]
      refine Metered.opt fun n _ => Metered.ret (expandBy_metered E k x) fun _ => ?_
      intro y w a z w' hr
      cases hr; exact ⟨rfl, Nat.le_refl _⟩
    · obtain ⟨_, _, _, hg, hr⟩ := bind_inv hr
      cases hg
      rw [if_pos h] at hr
      obtain ⟨n, _, _, ho, hr1⟩ := bind_inv hr
      obtain ⟨ho', rfl, rfl⟩ := ofOption_inv ho
      obtain ⟨_, _, _, _, hr2⟩ := bind_inv hr1
      obtain ⟨_, _, _, hg, hr3⟩ := bind_inv hr2
      cases hg
      cases hr3
      exact posOf_off ho'
  · rw [if_neg (show ¬ (ssh E x).s.cap < (ssh E x).s.size + k from h)]
    refine ⟨Metered.look ?_, fun w a y w' hr => ?_⟩
    · rw [if_neg h]
      intro w a y w' hr; cases hr; exact ⟨rfl, Nat.le_refl _⟩
    · obtain ⟨_, _, _, hg, hr⟩ := bind_inv hr
      cases hg
      rw [if_neg h] at hr
      cases hr; rfl

theorem insertForward_smetered (srcs : List (Src V)) (p : Ptr) (x : Split V) :
    Metered (ssh E) (Split.insertForward E p srcs) x (SShape.insertForward E.lib p.off srcs.length (ssh E x)) := by
  refine Metered.look ?_
  unfold SShape.insertForward
  by_cases h0 : srcs.length = 0
  · rw [if_neg (by simpa using h0), if_pos h0]
    exact Metered.opt fun n _ => (by
      intro w a y w' h
      obtain ⟨rfl, t⟩ := retRange_steps _ _ _ _ _ _ h
      exact ⟨rfl, t⟩)
  · rw [if_pos h0, if_neg h0]
    obtain ⟨hm, hq⟩ := prereserveBy_metered E p srcs.length x
    refine Metered.seq' (Q := fun a => a.off = p.off) hm hq fun q y hq' ey => ?_
    refine Metered.look (Metered.opt fun n hn => ?_)
    have hn := (posOf_off hn).trans hq'
    subst hn
    have em : (ssh E x).m = E.maxSize y.ty := by
      have := congrArg SShape.m ey
      rw [prereserveBy_m] at this
      exact this.symm
    refine Metered.seq ?_ fun _ z _ => Metered.ret (buildIndex_metered E _ z) fun _ => ?_
    · intro w a z w' h
      have h := onExc_inv h
      rw [em]
      exact onS_metered E (insertRange_metered E _ _ _ _) _ _ _ _ h
    · intro y w a z w' h
      obtain ⟨_, _, _, hg, h⟩ := bind_inv h
      cases hg
      obtain ⟨_, _, _, ho, h'⟩ := bind_inv h
      obtain ⟨_, rfl, rfl⟩ := ofOption_inv ho
      exact retRange_steps _ _ _ _ _ _ h'

theorem erase_smetered (p : Ptr) (x : Split V) :
    Metered (ssh E) (Split.erase E p) x (SShape.erase p.off (ssh E x)) :=
  Metered.seq (popIndexEntry_metered E 1 x) fun _ y _ => Metered.look (Metered.opt fun n hn =>
    Metered.ret (onS_metered E (by rw [posOf_off hn]; exact eraseAt_metered E _ _ _)) fun _ => retRange_steps _)

theorem eraseRange_core (a b n : Nat) (x : Split V) :
    Metered (ssh E) (do
      Split.onS (E.eraseRange x.ty a b)
      let y ← Prog.get
      Split.popIndexEntry (x.s.size - y.s.size)
      Split.retRange n) x (SShape.eraseRange a b (ssh E x)) := by
  refine Metered.seq (onS_metered E (eraseRange_metered E _ _ _ _)) fun _ y ey => ?_
  refine Metered.look (Metered.ret ?_ fun _ => retRange_steps _)
  have : (VShape.eraseRange a b (ssh E x).s).1.size = y.s.size := by
    have := congrArg (fun z => z.s.size) ey
    exact this.symm
  rw [this]
  exact popIndexEntry_metered E _ y

theorem eraseRange_smetered (p q : Ptr) (x : Split V) :
    Metered (ssh E) (Split.eraseRange E p q) x (SShape.eraseRange p.off q.off (ssh E x)) := by
  refine Metered.look (Metered.opt fun a ha => Metered.opt fun b hb => ?_)
  rw [← posOf_off ha, ← posOf_off hb]
  exact eraseRange_core E a b a x

theorem eraseTillEnd_smetered (p : Ptr) (x : Split V) :
    Metered (ssh E) (Split.eraseTillEnd E p) x (SShape.eraseRange p.off x.s.size (ssh E x)) := by
  refine Metered.look (Metered.opt fun a ha => ?_)
  have : a = p.off := iteratorFrom_off ha
  rw [← this]
  exact eraseRange_core E a _ a x

theorem eraseFromBegin_smetered (q : Ptr) (x : Split V) :
    Metered (ssh E) (Split.eraseFromBegin E q) x (SShape.eraseRange 0 q.off (ssh E x)) := by
  refine Metered.look (Metered.opt fun b hb => ?_)
  have : b = q.off := iteratorFrom_off hb
  rw [← this]
  exact eraseRange_core E 0 b 0 x

theorem clear_smetered (x : Split V) : Metered (ssh E) Split.clear x (SShape.clear (ssh E x)) := by
  refine Metered.seq (onS_metered E (clearVec_metered _)) fun _ y ey => Metered.look ?_
  split
  · intro w a z w' h; cases h
  · refine Metered.ret ?_ fun _ => retSentinel_steps
    have : (ssh E x).i.size = y.i.size := (congrArg (fun z => z.i.size) ey).symm
    rw [this]
    exact popIndexEntry_metered E _ y

theorem reserve_smetered (n : Nat) (x : Split V) :
    Metered (ssh E) (Split.reserve E n) x (SShape.reserve E.lib n (ssh E x)) := by
  refine Metered.look (Metered.seq (onI_metered E (idxReserve_metered E _ _)) fun _ y _ =>
    Metered.seq (onS_metered E (reserve_metered E _ _ _)) fun _ z _ => ?_)
  by_cases h : x.s.cap < n
  · simp only [decide_eq_true h, if_true]
    rw [if_pos (show (ssh E x).s.cap < n from h)]
    exact Metered.ret (rebuildIndex_metered E z) fun _ => retSentinel_steps
  · simp only [decide_eq_false h]
    rw [if_neg (show ¬ (ssh E x).s.cap < n from h)]
    intro w a y w' hr
    cases hr
    exact ⟨rfl, Nat.le_refl _⟩

/-- `shrink_to_fit` compares addresses of blocks, so the object must be in order. -/
theorem shrinkToFit_smetered {x : Split V} {w : World} (hx : x.s.WF w) (hz : x.s.blk ≠ 0) {a y w'}
    (h : Split.shrinkToFit E x w = .ok a y w') :
    ssh E y = (SShape.shrinkToFit E.lib (ssh E x)).1 ∧ w'.tick ≤ w.tick + (SShape.shrinkToFit E.lib (ssh E x)).2 := by
  unfold Split.shrinkToFit at h
  obtain ⟨_, z, w1, h1, h2⟩ := bind_inv h
  obtain ⟨rfl, t2⟩ := retSentinel_steps _ _ _ _ _ h2
  have h1 := onExc_inv h1
  unfold Split.shrinkBody at h1
  obtain ⟨_, _, _, hg, h3⟩ := bind_inv h1
  cases hg
  by_cases he : x.s.elems = []
  · have h0 : (ssh E x).s.size = 0 := by simp [ssh, vsh, Vec.size, he]
    unfold SShape.shrinkToFit
    rw [if_pos h0]
    rw [if_neg (by simpa using he)] at h3
    obtain ⟨b, x1, w2, ha, h3⟩ := bind_inv h3
    obtain ⟨rfl, ta⟩ := alloc_steps E _ _ _ _ _ ha
    obtain ⟨_, _, _, hs, h3⟩ := bind_inv h3
    cases hs
    obtain ⟨_, _, _, hg, h3⟩ := bind_inv h3
    cases hg
    have hb : b = w.next := by
      unfold Env.alloc at ha; split at ha <;> cases ha; rfl
    rw [if_pos (by subst hb; exact Nat.ne_of_lt hx.lt)] at h3
    split at h3
    · cases h3
    · obtain ⟨b', _, w3, ha', h3⟩ := bind_inv h3
      obtain ⟨rfl, ta'⟩ := alloc_steps E _ _ _ _ _ ha'
      obtain ⟨_, _, _, hs, h3⟩ := bind_inv h3
      cases hs
      obtain ⟨e, t⟩ := buildIndex_metered E _ _ _ _ _ _ h3
      refine ⟨e, ?_⟩
      have t' : w1.tick ≤ w3.tick + (SShape.buildIndex E.lib 0 ⟨(ssh E x1).m, (ssh E x1).im, ⟨0, E.lib.reserveCap 1⟩, ⟨0, E.lib.reserveCap (E.lib.reserveCap 1 + 1)⟩⟩).2 := t
      dsimp only
      omega
  · have h0 : ¬ (ssh E x).s.size = 0 := by simpa [ssh, vsh, Vec.size] using he
    unfold SShape.shrinkToFit
    rw [if_neg h0]
    rw [if_pos (by simpa using he)] at h3
    obtain ⟨_, x1, w2, hs, h4⟩ := bind_inv h3
    obtain ⟨es, ts⟩ := onS_metered E (shrinkToFit_metered E x.ty x.s) _ _ _ _ hs
    obtain ⟨_, _, _, hg, h5⟩ := bind_inv h4
    cases hg
    obtain ⟨s', hs', hx1⟩ := zoom_inv hs
    unfold Env.shrinkToFit at hs'
    obtain ⟨_, _, _, hg, hs'⟩ := bind_inv hs'
    cases hg
    dsimp only at hs'
    by_cases hc : E.lib.shrinkCap x.s.size x.s.cap = x.s.cap
    · rw [if_pos hc] at hs'
      cases hs'
      rw [if_neg (by rw [hx1]; simp)] at h5
      cases h5
      dsimp only
      rw [if_pos (show E.lib.shrinkCap (ssh E x).s.size (ssh E x).s.cap = (ssh E x).s.cap from hc)]
      exact ⟨by rw [hx1], by dsimp only; omega⟩
    · rw [if_neg hc] at hs'
      dsimp only
      rw [if_neg (show ¬ E.lib.shrinkCap (ssh E x).s.size (ssh E x).s.cap = (ssh E x).s.cap from hc)]
      have hblk : x.s.blk ≠ x1.s.blk := by
        rw [hx1]
        split at hs'
        · cases hs'; exact hz
        · obtain ⟨b, _, _, ha, hs1⟩ := bind_inv hs'
          obtain ⟨_, _, _, hr, hs2⟩ := bind_inv hs1
          cases hs2
          have hb : b = w.next := by
            unfold Env.alloc at ha; split at ha <;> cases ha; rfl
          show x.s.blk ≠ b
          subst hb; exact Nat.ne_of_lt hx.lt
      rw [if_pos hblk] at h5
      split at h5
      · cases h5
      · obtain ⟨b', x2, w3, ha', h6⟩ := bind_inv h5
        obtain ⟨ex, ta'⟩ := alloc_steps E _ _ _ _ _ ha'
        subst ex
        obtain ⟨_, _, _, hs7, h8⟩ := bind_inv h6
        cases hs7
        obtain ⟨e, t⟩ := buildIndex_metered E _ _ _ _ _ _ h8
        have hsh : ssh E { x2 with i := ⟨b', E.lib.reserveCap (x2.s.cap + 1), []⟩ } =
            { ssh E x with
              s := (VShape.shrinkToFit E.lib (ssh E x).s).1
              i := ⟨0, E.lib.reserveCap ((VShape.shrinkToFit E.lib (ssh E x).s).1.cap + 1)⟩ } := by
          have e1 : vsh x2.s = (VShape.shrinkToFit E.lib (ssh E x).s).1 := congrArg SShape.s es
          have e2 : E.maxSize x2.ty = E.maxSize x.ty := congrArg SShape.m es
          rw [← e1]
          unfold ssh
          rw [e2]
          rfl
        rw [hsh] at e t
        dsimp only at t
        refine ⟨e, ?_⟩
        have ts' : w2.tick ≤ w.tick + (VShape.shrinkToFit E.lib (ssh E x).s).2 := ts
        omega

end

/-! ## Packed segments -/

section
variable {V : Type} (E : Env V)

/-- The meter of a vector, for a packed segment. -/
def pmeter (x : Packed V) (f : Meter VShape) : Shape × Nat := (.packed (E.maxSize x.ty) (f (vsh x.s)).1, (f (vsh x.s)).2)

theorem pS_metered {α : Type} {p : Prog (Vec V) α} {f : Meter VShape} {x : Packed V}
    (h : Metered vsh p x.s (f (vsh x.s))) : Metered (psh E) (Packed.onS p) x (pmeter E x f) := by
  intro w a y w' hp
  obtain ⟨z, hz, rfl⟩ := zoom_inv hp
  obtain ⟨e, t⟩ := h _ _ _ _ hz
  exact ⟨by simp only [psh, pmeter, e], t⟩

theorem pretRange_steps (n : Nat) : Steps (Packed.retRange (V := V) n) 0 := by
  intro x w a y w' h
  cases h
  exact ⟨rfl, Nat.le_refl _⟩

theorem pretSentinel_steps : Steps (Packed.retSentinel (V := V)) 0 := by
  intro x w a y w' h
  cases h
  exact ⟨rfl, Nat.le_refl _⟩

theorem reserve_pmetered (n : Nat) (x : Packed V) :
    Metered (psh E) (Packed.reserve E n) x (pmeter E x (VShape.reserve E.lib n)) :=
  Metered.look (Metered.ret (pS_metered E (reserve_metered E _ _ _)) fun _ => pretSentinel_steps)

theorem shrinkToFit_pmetered (x : Packed V) :
    Metered (psh E) (Packed.shrinkToFit E) x (pmeter E x (VShape.shrinkToFit E.lib)) :=
  Metered.look (Metered.ret (pS_metered E (shrinkToFit_metered E _ _)) fun _ => pretSentinel_steps)

theorem emplaceAt_pmetered (p : Ptr) (src : Src V) (x : Packed V) :
    Metered (psh E) (Packed.emplaceAt E p src) x (pmeter E x (VShape.emplaceAt E.lib (E.maxSize x.ty) p.off)) :=
  Metered.look (Metered.opt fun n hn => Metered.ret (pS_metered E (by
    rw [posOf_off hn]; exact emplaceAt_metered E _ _ _ _)) fun _ => pretRange_steps _)

theorem pushBack_pmetered (src : Src V) (x : Packed V) :
    Metered (psh E) (Packed.pushBack E src) x (pmeter E x (VShape.emplaceBack E.lib (E.maxSize x.ty))) :=
  Metered.look (Metered.ret (pS_metered E (emplaceBack_metered E _ _ _)) fun _ => by
    intro z w a z' w' h
    cases h
    exact ⟨rfl, Nat.le_refl _⟩)

theorem insertRange_pmetered (fwd : Bool) (p : Ptr) (srcs : List (Src V)) (x : Packed V) :
    Metered (psh E) (Packed.insertRange E fwd p srcs) x (pmeter E x
      (if fwd then VShape.insertRange E.lib (E.maxSize x.ty) p.off srcs.length
        else VShape.insertInput E.lib (E.maxSize x.ty) p.off srcs.length)) :=
  Metered.look (Metered.opt fun n hn => Metered.ret (pS_metered E (by
    rw [posOf_off hn]
    cases fwd
    · exact insertInput_metered E _ _ _ _
    · exact insertRange_metered E _ _ _ _)) fun _ => pretRange_steps _)

theorem insertRangeEnd_pmetered (fwd : Bool) (srcs : List (Src V)) (x : Packed V) :
    Metered (psh E) (Packed.insertRangeEnd E fwd srcs) x (pmeter E x
      (if fwd then VShape.insertRange E.lib (E.maxSize x.ty) x.s.size srcs.length
        else VShape.insertInput E.lib (E.maxSize x.ty) x.s.size srcs.length)) :=
  Metered.look (insertRange_pmetered E fwd (x.s.ptr x.s.size) srcs x)

theorem erase_pmetered (p : Ptr) (x : Packed V) :
    Metered (psh E) (Packed.erase E p) x (pmeter E x (VShape.eraseRange p.off (p.off + 1))) :=
  Metered.look (Metered.opt fun n hn => Metered.ret (pS_metered E (by
    rw [posOf_off hn]; exact eraseAt_metered E _ _ _)) fun _ => pretRange_steps _)

theorem eraseRange_pmetered (p q : Ptr) (x : Packed V) :
    Metered (psh E) (Packed.eraseRange E p q) x (pmeter E x (VShape.eraseRange p.off q.off)) :=
  Metered.look (Metered.opt fun a ha => Metered.opt fun b hb => Metered.ret (pS_metered E (by
    rw [posOf_off ha, posOf_off hb]; exact eraseRange_metered E _ _ _ _)) fun _ => pretRange_steps _)

theorem eraseTillEnd_pmetered (p : Ptr) (x : Packed V) :
    Metered (psh E) (Packed.eraseTillEnd E p) x (pmeter E x (VShape.eraseRange p.off x.s.size)) :=
  Metered.look (Metered.opt fun a ha => Metered.ret (pS_metered E (by
    rw [posOf_off ha]; exact eraseRange_metered E _ _ _ _)) fun _ => pretRange_steps _)

theorem eraseFromBegin_pmetered (q : Ptr) (x : Packed V) :
    Metered (psh E) (Packed.eraseFromBegin E q) x (pmeter E x (VShape.eraseRange 0 q.off)) :=
  Metered.look (Metered.opt fun b hb => Metered.ret (pS_metered E (by
    rw [posOf_off hb]; exact eraseRange_metered E _ _ _ _)) fun _ => pretRange_steps _)

theorem clear_pmetered (x : Packed V) : Metered (psh E) Packed.clear x (pmeter E x VShape.clear) :=
  Metered.ret (pS_metered E (clearVec_metered _)) fun _ => pretSentinel_steps

end

/-! ## Segments -/

section
variable {V : Type} (E : Env V)

/-- What a backend function does to a segment. -/
def BeMetered {α : Type} (p : Prog (Backend V) α) (x : Seg V) (w : World) (r : Shape × Nat) : Prop :=
  ∀ a b w', p x.be w = .ok a b w' → (∀ s, shape E ⟨b, s⟩ = r.1) ∧ w'.tick ≤ w.tick + r.2

theorem run_metered {α : Type} {f : Prog (Packed V) α} {g : Prog (Split V) α} {F : Nat → Meter VShape} {G : Meter SShape}
    {x : Seg V} {w : World}
    (hf : ∀ b, x.be = .packed b → Metered (psh E) f b (pmeter E b (F (E.maxSize b.ty))))
    (hg : ∀ b, x.be = .split b → ∀ a y w', g b w = .ok a y w' →
      ssh E y = (G (ssh E b)).1 ∧ w'.tick ≤ w.tick + (G (ssh E b)).2) :
    BeMetered E (Backend.run f g) x w (Shape.run F G (shape E x)) := by
  intro a b w' h
  cases hb : x.be with
  | packed c =>
    rw [hb] at h
    dsimp only [Backend.run] at h
    cases hc : f c w with
    | exc e y w1 => rw [hc] at h; cases h
    | ub => rw [hc] at h; cases h
    | ok r y w1 =>
      rw [hc] at h; cases h
      obtain ⟨e, t⟩ := hf c hb _ _ _ _ hc
      unfold shape
      rw [hb]
      exact ⟨fun s => e, t⟩
  | split c =>
    rw [hb] at h
    dsimp only [Backend.run] at h
    cases hc : g c w with
    | exc e y w1 => rw [hc] at h; cases h
    | ub => rw [hc] at h; cases h
    | ok r y w1 =>
      rw [hc] at h; cases h
      obtain ⟨e, t⟩ := hg c hb _ _ _ hc
      unfold shape
      rw [hb]
      exact ⟨fun s => congrArg Shape.split e, t⟩

theorem filterRange_metered {p : Prog (Backend V) (Ptr × Ptr)} {x : Seg V} {w : World} {r : Shape × Nat}
    (hp : BeMetered E p x w r) {a y w'} (h : Seg.filterRange p x w = .ok a y w') :
    shape E y = r.1 ∧ w'.tick ≤ w.tick + r.2 := by
  unfold Seg.filterRange at h
  cases hb : p x.be w with
  | exc e z w1 => rw [hb] at h; cases h
  | ub => rw [hb] at h; cases h
  | ok q z w1 =>
    rw [hb] at h; cases h
    obtain ⟨e, t⟩ := hp _ _ _ hb
    exact ⟨e _, t⟩

theorem filterSentinel_metered {p : Prog (Backend V) Ptr} {x : Seg V} {w : World} {r : Shape × Nat}
    (hp : BeMetered E p x w r) {a y w'} (h : Seg.filterSentinel p x w = .ok a y w') :
    shape E y = r.1 ∧ w'.tick ≤ w.tick + r.2 := by
  unfold Seg.filterSentinel at h
  cases hb : p x.be w with
  | exc e z w1 => rw [hb] at h; cases h
  | ub => rw [hb] at h; cases h
  | ok q z w1 =>
    rw [hb] at h; cases h
    obtain ⟨e, t⟩ := hp _ _ _ hb
    exact ⟨e _, t⟩

/-- The index of a segment in order leads to the same position. -/
theorem toLocal_off {x : Split V} (hx : x.i.elems = Split.goodIndex x.s) {p q : Ptr} (h : x.toLocal p = some q) :
    q.off = p.off := by
  unfold Split.toLocal Vec.deref at h
  split at h
  · rw [hx] at h
    unfold Split.goodIndex at h
    rw [List.getElem?_map] at h
    cases hr : (List.range (x.s.size + 1))[p.off]? with
    | none => rw [hr] at h; cases h
    | some k =>
      rw [hr] at h
      have : k = p.off := by
        obtain ⟨hlt, hk⟩ := List.getElem?_eq_some_iff.mp hr
        rw [List.getElem_range] at hk
        exact hk.symm
      cases h
      exact this
  · cases h

theorem ign_inv {X : Type} {p : Prog X Ptr} {x y : X} {w w' : World} {a : Unit}
    (h : (Prog.bind p fun _ => Prog.pure ()) x w = .ok a y w') : ∃ b, p x w = .ok b y w' := by
  obtain ⟨b, z, w1, h1, h2⟩ := bind_inv (p := p) (k := fun _ => Prog.pure ()) h
  cases h2
  exact ⟨b, h1⟩

theorem toM {α : Type} {g : Prog (Split V) α} {b : Split V} {w : World} {r : SShape × Nat} (hm : Metered (ssh E) g b r) :
    ∀ a y w', g b w = .ok a y w' → ssh E y = r.1 ∧ w'.tick ≤ w.tick + r.2 := fun _ _ _ h => hm _ _ _ _ h

section
variable {x y : Seg V} {w w' : World} {a : Ptr} {u : Unit}

theorem Core.split (hx : x.Core E w) (b : Split V) (hb : x.be = .split b) : b.Inv E w := by
  unfold Seg.Core at hx
  rw [hb] at hx
  exact hx

theorem pushBack_g {src : Src V} (h : Seg.pushBack E src x w = .ok a y w') :
    shape E y = (Shape.run (VShape.emplaceBack E.lib) (SShape.pushBack E.lib) (shape E x)).1 ∧
      w'.tick ≤ w.tick + (Shape.run (VShape.emplaceBack E.lib) (SShape.pushBack E.lib) (shape E x)).2 :=
  filterRange_metered E (run_metered E (fun b _ => pushBack_pmetered E src b)
      (fun b _ => toM E (pushBack_smetered E src b))) h

theorem emplace_g {p : PosArg} {src : Src V} {n : Nat} (hn : p.ptr.off = n) (h : Seg.emplace E p src x w = .ok a y w') :
    shape E y = (Shape.run (fun m => VShape.emplaceAt E.lib m n) (SShape.emplaceAt E.lib n) (shape E x)).1 ∧
      w'.tick ≤ w.tick + (Shape.run (fun m => VShape.emplaceAt E.lib m n) (SShape.emplaceAt E.lib n) (shape E x)).2 := by
  subst hn
  exact filterRange_metered E (run_metered E (F := fun m => VShape.emplaceAt E.lib m p.ptr.off)
    (fun b _ => emplaceAt_pmetered E p.ptr src b) (fun b _ => toM E (emplaceAt_smetered E p src b))) h

theorem insertLocal_g {p : Ptr} {src : Src V} {n : Nat} (hn : p.off = n) (h : Seg.insertLocal E p src x w = .ok a y w') :
    shape E y = (Shape.run (fun m => VShape.emplaceAt E.lib m n) (SShape.emplaceAt E.lib n) (shape E x)).1 ∧
      w'.tick ≤ w.tick + (Shape.run (fun m => VShape.emplaceAt E.lib m n) (SShape.emplaceAt E.lib n) (shape E x)).2 := by
  subst hn
  exact filterRange_metered E (run_metered E (F := fun m => VShape.emplaceAt E.lib m p.off)
    (fun b _ => emplaceAt_pmetered E p src b) (fun b _ => toM E (emplaceAt_smetered E (.loc p) src b))) h

theorem insertBase_g (hx : x.Core E w) {p : Ptr} {src : Src V} {n : Nat} (hn : p.off = n)
    (h : Seg.insertBase E p src x w = .ok a y w') :
    shape E y = (Shape.run (fun m => VShape.emplaceAt E.lib m n) (SShape.emplaceAt E.lib n) (shape E x)).1 ∧
      w'.tick ≤ w.tick + (Shape.run (fun m => VShape.emplaceAt E.lib m n) (SShape.emplaceAt E.lib n) (shape E x)).2 := by
  subst hn
  refine filterRange_metered E (run_metered E (F := fun m => VShape.emplaceAt E.lib m p.off)
    (fun b _ => emplaceAt_pmetered E p src b)
    (fun b hb => toM E (Metered.look (Metered.opt fun q hq => ?_)))) h
  have := emplaceAt_smetered E (.loc q) src b
  rw [show (PosArg.loc q).ptr.off = p.off from toLocal_off (Core.split E hx b hb).idx hq] at this
  exact this

theorem insertRangeLocal_g {fwd : Bool} {p : Ptr} {srcs : List (Src V)} {n : Nat} (hn : p.off = n)
    (h : Seg.insertRangeLocal E fwd p srcs x w = .ok a y w') :
    shape E y = (SegOp.rangeMeter E.lib fwd n srcs.length (shape E x)).1 ∧
      w'.tick ≤ w.tick + (SegOp.rangeMeter E.lib fwd n srcs.length (shape E x)).2 := by
  subst hn
  refine filterRange_metered E (run_metered E
    (F := fun m => if fwd then VShape.insertRange E.lib m p.off srcs.length else VShape.insertInput E.lib m p.off srcs.length)
    (fun b _ => insertRange_pmetered E fwd p srcs b) (fun b _ => toM E ?_)) h
  cases fwd
  · exact insertInput_smetered E _ _ b
  · exact insertForward_smetered E _ _ b

theorem insertRangeBase_g (hx : x.Core E w) {fwd : Bool} {p : Ptr} {srcs : List (Src V)} {n : Nat} (hn : p.off = n)
    (h : Seg.insertRangeBase E fwd p srcs x w = .ok a y w') :
    shape E y = (SegOp.rangeMeter E.lib fwd n srcs.length (shape E x)).1 ∧
      w'.tick ≤ w.tick + (SegOp.rangeMeter E.lib fwd n srcs.length (shape E x)).2 := by
  unfold Seg.insertRangeBase at h
  obtain ⟨_, _, _, hg, h⟩ := bind_inv h
  cases hg
  obtain ⟨q, z, w1, ho, h'⟩ := bind_inv h
  obtain ⟨ho', rfl, rfl⟩ := ofOption_inv ho
  refine insertRangeLocal_g E ?_ h'
  rw [← hn]
  cases hb : z.be with
  | packed b =>
    rw [hb] at ho'
    cases ho'
    rfl
  | split b =>
    rw [hb] at ho'
    exact toLocal_off (Core.split E hx b hb).idx ho'

theorem shape_size (x : Seg V) : (shape E x).size = x.be.store.size := by
  unfold shape; cases x.be <;> rfl

theorem insertRangeEnd_g {fwd : Bool} {srcs : List (Src V)}
    (h : Seg.insertRangeEnd E fwd srcs x w = .ok a y w') :
    shape E y = (SegOp.rangeMeter E.lib fwd (shape E x).size srcs.length (shape E x)).1 ∧
      w'.tick ≤ w.tick + (SegOp.rangeMeter E.lib fwd (shape E x).size srcs.length (shape E x)).2 := by
  have hs := shape_size E x
  refine filterRange_metered E (run_metered E
    (F := fun m => if fwd then VShape.insertRange E.lib m (shape E x).size srcs.length
      else VShape.insertInput E.lib m (shape E x).size srcs.length)
    (fun b hb => ?_) (fun b hb => toM E (Metered.look ?_))) h
  · rw [hb] at hs
    rw [hs]
    exact insertRangeEnd_pmetered E fwd srcs b
  · rw [hb] at hs
    rw [hs]
    cases fwd
    · exact insertInput_smetered E _ (b.s.ptr b.s.size) b
    · exact insertForward_smetered E _ (b.s.ptr b.s.size) b

theorem eraseLocal_g {p : Ptr} {n : Nat} (hn : p.off = n) (h : Seg.eraseLocal E p x w = .ok a y w') :
    shape E y = (Shape.run (fun _ => VShape.eraseRange n (n + 1)) (SShape.erase n) (shape E x)).1 ∧
      w'.tick ≤ w.tick + (Shape.run (fun _ => VShape.eraseRange n (n + 1)) (SShape.erase n) (shape E x)).2 := by
  subst hn
  exact filterRange_metered E (run_metered E (F := fun _ => VShape.eraseRange p.off (p.off + 1))
    (fun b _ => erase_pmetered E p b) (fun b _ => toM E (erase_smetered E p b))) h

theorem eraseBase_g (hx : x.Core E w) {p : Ptr} {n : Nat} (hn : p.off = n) (h : Seg.eraseBase E p x w = .ok a y w') :
    shape E y = (Shape.run (fun _ => VShape.eraseRange n (n + 1)) (SShape.erase n) (shape E x)).1 ∧
      w'.tick ≤ w.tick + (Shape.run (fun _ => VShape.eraseRange n (n + 1)) (SShape.erase n) (shape E x)).2 := by
  subst hn
  refine filterRange_metered E (run_metered E (F := fun _ => VShape.eraseRange p.off (p.off + 1))
    (fun b _ => erase_pmetered E p b) (fun b hb => toM E (Metered.look (Metered.opt fun q hq => ?_)))) h
  have := erase_smetered E q b
  rw [toLocal_off (Core.split E hx b hb).idx hq] at this
  exact this

theorem eraseRangeLocal_g {p q : Ptr} {m n : Nat} (hm : p.off = m) (hn : q.off = n)
    (h : Seg.eraseRangeLocal E p q x w = .ok a y w') :
    shape E y = (Shape.run (fun _ => VShape.eraseRange m n) (SShape.eraseRange m n) (shape E x)).1 ∧
      w'.tick ≤ w.tick + (Shape.run (fun _ => VShape.eraseRange m n) (SShape.eraseRange m n) (shape E x)).2 := by
  subst hm hn
  exact filterRange_metered E (run_metered E (F := fun _ => VShape.eraseRange p.off q.off)
    (fun b _ => eraseRange_pmetered E p q b) (fun b _ => toM E (eraseRange_smetered E p q b))) h

theorem eraseRangeBase_g (hx : x.Core E w) {p q : Ptr} {m n : Nat} (hm : p.off = m) (hn : q.off = n)
    (h : Seg.eraseRangeBase E p q x w = .ok a y w') :
    shape E y = (Shape.run (fun _ => VShape.eraseRange m n) (SShape.eraseRange m n) (shape E x)).1 ∧
      w'.tick ≤ w.tick + (Shape.run (fun _ => VShape.eraseRange m n) (SShape.eraseRange m n) (shape E x)).2 := by
  subst hm hn
  refine filterRange_metered E (run_metered E (F := fun _ => VShape.eraseRange p.off q.off)
    (fun b _ => eraseRange_pmetered E p q b)
    (fun b hb => toM E (Metered.look (Metered.opt fun p' hp => Metered.opt fun q' hq => ?_)))) h
  have := eraseRange_smetered E p' q' b
  rw [toLocal_off (Core.split E hx b hb).idx hp, toLocal_off (Core.split E hx b hb).idx hq] at this
  exact this

theorem eraseTillEnd_g {p : Ptr} {m : Nat} (hm : p.off = m) (h : Seg.eraseTillEnd E p x w = .ok a y w') :
    shape E y = (Shape.run (fun _ => VShape.eraseRange m (shape E x).size) (SShape.eraseRange m (shape E x).size) (shape E x)).1 ∧
      w'.tick ≤ w.tick +
        (Shape.run (fun _ => VShape.eraseRange m (shape E x).size) (SShape.eraseRange m (shape E x).size) (shape E x)).2 := by
  subst hm
  have hs := shape_size E x
  refine filterRange_metered E (run_metered E (F := fun _ => VShape.eraseRange p.off (shape E x).size)
    (fun b hb => ?_) (fun b hb => toM E ?_)) h
  · rw [hb] at hs
    rw [hs]
    exact eraseTillEnd_pmetered E p b
  · rw [hb] at hs
    rw [hs]
    exact eraseTillEnd_smetered E p b

theorem eraseFromBegin_g {p : Ptr} {n : Nat} (hn : p.off = n) (h : Seg.eraseFromBegin E p x w = .ok a y w') :
    shape E y = (Shape.run (fun _ => VShape.eraseRange 0 n) (SShape.eraseRange 0 n) (shape E x)).1 ∧
      w'.tick ≤ w.tick + (Shape.run (fun _ => VShape.eraseRange 0 n) (SShape.eraseRange 0 n) (shape E x)).2 := by
  subst hn
  exact filterRange_metered E (run_metered E (F := fun _ => VShape.eraseRange 0 p.off)
    (fun b _ => eraseFromBegin_pmetered E p b) (fun b _ => toM E (eraseFromBegin_smetered E p b))) h

theorem clear_g (h : Seg.clear x w = .ok u y w') :
    shape E y = (Shape.run (fun _ => VShape.clear) SShape.clear (shape E x)).1 ∧
      w'.tick ≤ w.tick + (Shape.run (fun _ => VShape.clear) SShape.clear (shape E x)).2 :=
  filterSentinel_metered E (run_metered E (F := fun _ => VShape.clear) (fun b _ => clear_pmetered E b)
    (fun b _ => toM E (clear_smetered E b))) h

theorem reserve_g {n : Nat} (h : Seg.reserve E n x w = .ok u y w') :
    shape E y = (Shape.run (fun _ => VShape.reserve E.lib n) (SShape.reserve E.lib n) (shape E x)).1 ∧
      w'.tick ≤ w.tick + (Shape.run (fun _ => VShape.reserve E.lib n) (SShape.reserve E.lib n) (shape E x)).2 :=
  filterSentinel_metered E (run_metered E (F := fun _ => VShape.reserve E.lib n) (fun b _ => reserve_pmetered E n b)
    (fun b _ => toM E (reserve_smetered E n b))) h

theorem shrinkToFit_g (hx : x.Core E w) (h : Seg.shrinkToFit E x w = .ok u y w') :
    shape E y = (Shape.run (fun _ => VShape.shrinkToFit E.lib) (SShape.shrinkToFit E.lib) (shape E x)).1 ∧
      w'.tick ≤ w.tick + (Shape.run (fun _ => VShape.shrinkToFit E.lib) (SShape.shrinkToFit E.lib) (shape E x)).2 :=
  filterSentinel_metered E (run_metered E (F := fun _ => VShape.shrinkToFit E.lib)
    (fun b _ => shrinkToFit_pmetered E b)
    (fun b hb _ _ _ h => shrinkToFit_smetered E (Core.split E hx b hb).swf (Core.split E hx b hb).snz h)) h

end

/-- **The meters describe the model.** -/
theorem run_op (op : SegOp V) {x : Seg V} {w : World} (hx : x.Core E w) {a y w'}
    (h : op.run E x w = .ok a y w') :
    shape E y = (op.meter E.lib (shape E x)).1 ∧ w'.tick ≤ w.tick + (op.meter E.lib (shape E x)).2 := by
  unfold SegOp.run at h
  obtain ⟨_, _, _, hg, h⟩ := bind_inv h
  cases hg
  cases op with
  | pushBack src => obtain ⟨_, h⟩ := ign_inv h; exact pushBack_g E h
  | emplace n src => obtain ⟨_, h⟩ := ign_inv h; exact emplace_g E rfl h
  | insertBase n src => obtain ⟨_, h⟩ := ign_inv h; exact insertBase_g E hx rfl h
  | insertLocal n src => obtain ⟨_, h⟩ := ign_inv h; exact insertLocal_g E rfl h
  | insertRangeBase fwd n srcs => obtain ⟨_, h⟩ := ign_inv h; exact insertRangeBase_g E hx rfl h
  | insertRangeLocal fwd n srcs => obtain ⟨_, h⟩ := ign_inv h; exact insertRangeLocal_g E rfl h
  | insertRangeEnd fwd srcs => obtain ⟨_, h⟩ := ign_inv h; exact insertRangeEnd_g E h
  | eraseBase n => obtain ⟨_, h⟩ := ign_inv h; exact eraseBase_g E hx rfl h
  | eraseLocal n => obtain ⟨_, h⟩ := ign_inv h; exact eraseLocal_g E rfl h
  | eraseRangeBase m n => obtain ⟨_, h⟩ := ign_inv h; exact eraseRangeBase_g E hx rfl rfl h
  | eraseRangeLocal m n => obtain ⟨_, h⟩ := ign_inv h; exact eraseRangeLocal_g E rfl rfl h
  | eraseTillEnd m => obtain ⟨_, h⟩ := ign_inv h; exact eraseTillEnd_g E rfl h
  | eraseFromBegin n => obtain ⟨_, h⟩ := ign_inv h; exact eraseFromBegin_g E rfl h
  | clear => exact clear_g E h
  | reserve n => exact reserve_g E h
  | shrinkToFit => exact shrinkToFit_g E hx h

end
end PolyColl.Work
