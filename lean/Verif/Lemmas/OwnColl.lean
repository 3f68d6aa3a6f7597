import Verif.Lemmas.Own
import Verif.Lemmas.History
import Verif.Lemmas.Segment
/-!
# Operations create no second owner of a block

`Tidy` for every operation, from the segments to programs with several collections.
-/

namespace PolyColl
open Prog

variable {V : Type} {E : Env V} {b : Nat}

def Packed.own (b : Nat) (x : Packed V) : Nat := x.s.own b
def Split.own (b : Nat) (x : Split V) : Nat := x.s.own b + x.i.own b
def Backend.own (b : Nat) : Backend V → Nat
  | .packed x => x.own b
  | .split x => x.own b
def Seg.own (b : Nat) (x : Seg V) : Nat := x.be.own b
def Node.own (b : Nat) (n : Node V) : Nat := one b n.id + n.seg.own b

namespace Packed

theorem onS_tidy {α : Type} {p : Prog (Vec V) α} (h : Tidy (anyCtx _) b (Vec.own b) p) : Tidy (anyCtx _) b (own b) (onS p) :=
  Tidy.zoom h fun x y => by simp only [own]; omega

end Packed

namespace Split

theorem onS_tidy {α : Type} {p : Prog (Vec V) α} (h : Tidy (anyCtx _) b (Vec.own b) p) : Tidy (anyCtx _) b (own b) (onS p) :=
  Tidy.zoom h fun x y => by simp only [own]; omega
theorem onI_tidy {α : Type} {p : Prog (Vec Ptr) α} (h : Tidy (anyCtx _) b (Vec.own b) p) : Tidy (anyCtx _) b (own b) (onI p : Prog (Split V) α) :=
  Tidy.zoom h fun x y => by simp only [own]; omega

end Split

macro_rules | `(tactic| tstep) => `(tactic| with_reducible apply Packed.onS_tidy)
macro_rules | `(tactic| tstep) => `(tactic| with_reducible apply Split.onS_tidy)
macro_rules | `(tactic| tstep) => `(tactic| with_reducible apply Split.onI_tidy)
macro_rules | `(tactic| tstep) => `(tactic| with_reducible exact Env.reserve_tidy _)
macro_rules | `(tactic| tstep) => `(tactic| with_reducible exact Env.shrinkToFit_tidy (by assumption))
macro_rules | `(tactic| tstep) => `(tactic| with_reducible exact Env.emplaceAt_tidy _ _)
macro_rules | `(tactic| tstep) => `(tactic| with_reducible exact Env.emplaceBack_tidy _)
macro_rules | `(tactic| tstep) => `(tactic| with_reducible exact Env.insertRange_tidy _ _)
macro_rules | `(tactic| tstep) => `(tactic| with_reducible exact Env.insertInput_tidy _ _)
macro_rules | `(tactic| tstep) => `(tactic| with_reducible exact Env.eraseAt_tidy _)
macro_rules | `(tactic| tstep) => `(tactic| with_reducible exact Env.eraseRange_tidy _ _)
macro_rules | `(tactic| tstep) => `(tactic| with_reducible exact Env.clearVec_tidy)
macro_rules | `(tactic| tstep) => `(tactic| with_reducible exact Env.idxReserve_tidy _)
macro_rules | `(tactic| tstep) => `(tactic| with_reducible exact Env.idxPushBack_tidy _)
macro_rules | `(tactic| tstep) => `(tactic| with_reducible exact idxPopBack_tidy)
macro_rules | `(tactic| tstep) => `(tactic| with_reducible exact idxClear_tidy)

namespace Packed

abbrev T {α : Type} (b : Nat) (p : Prog (Packed V) α) : Prop := Tidy (anyCtx _) b (own b) p

theorem retRange_tidy (n : Nat) : T b (retRange n : Prog (Packed V) _) := by unfold retRange; tidy
theorem retSentinel_tidy : T b (retSentinel : Prog (Packed V) _) := by unfold retSentinel; tidy
macro_rules | `(tactic| tstep) => `(tactic| with_reducible exact Packed.retRange_tidy _)
macro_rules | `(tactic| tstep) => `(tactic| with_reducible exact Packed.retSentinel_tidy)

theorem reserve_tidy (n : Nat) : T b (reserve E n) := by unfold reserve; tidy
theorem shrinkToFit_tidy (hb : b ≠ 0) : T b (shrinkToFit E) := by unfold shrinkToFit; tidy
theorem emplaceAt_tidy (p : Ptr) (src : Src V) : T b (emplaceAt E p src) := by unfold emplaceAt; tidy
theorem pushBack_tidy (src : Src V) : T b (pushBack E src) := by unfold pushBack; tidy
theorem insertRange_tidy (fwd : Bool) (p : Ptr) (srcs : List (Src V)) : T b (insertRange E fwd p srcs) := by unfold insertRange; tidy
theorem insertRangeEnd_tidy (fwd : Bool) (srcs : List (Src V)) : T b (insertRangeEnd E fwd srcs) := Tidy.bind_get fun _ => insertRange_tidy _ _ _
theorem erase_tidy (p : Ptr) : T b (erase E p) := by unfold erase; tidy
theorem eraseRange_tidy (p q : Ptr) : T b (eraseRange E p q) := by unfold eraseRange; tidy
theorem eraseTillEnd_tidy (p : Ptr) : T b (eraseTillEnd E p) := by unfold eraseTillEnd; tidy
theorem eraseFromBegin_tidy (p : Ptr) : T b (eraseFromBegin E p) := by unfold eraseFromBegin; tidy
theorem clear_tidy : T b (clear : Prog (Packed V) _) := by unfold clear; tidy

theorem make_made {X : Type} (hb : b ≠ 0) (t : Ty) (al : Alloc) : Made b (own b) 0 (make E t al : Prog X _) :=
  Made.seq Keeps.alloc fun _ => Made.pure (by simp only [own]; rw [Env.nil_own hb]; omega)
theorem copyAl_made {X : Type} (hb : b ≠ 0) (x : Packed V) (al : Alloc) : Made b (own b) 0 (copyAl E x al : Prog X _) :=
  Made.bind_new (Env.copyVec_made hb x.s) fun _ => Made.seq Keeps.alloc fun _ => Made.pure (by simp only [own]; omega)
theorem move_own (hb : b ≠ 0) (al : Alloc) (c : Nat) : Own b (own b) (own b) c 0 (move E al) :=
  Own.bind_get fun x _ => Own.bind (o1 := Vec.own b) (Own.zoom (fun _ => Env.moveVec_own hb _) fun x y => by simp only [own]; omega) fun s c' d' h hs =>
    Own.seq (Still.of_same Keeps.alloc) fun _ => Own.pure hs

end Packed

namespace Split

abbrev T {α : Type} (b : Nat) (p : Prog (Split V) α) : Prop := Tidy (anyCtx _) b (own b) p

theorem retRange_tidy (n : Nat) : T b (retRange n : Prog (Split V) _) := by unfold retRange; tidy
theorem retSentinel_tidy : T b (retSentinel : Prog (Split V) _) := by unfold retSentinel; tidy
theorem pushIndex_tidy (n : Nat) : T b (pushIndex E n) := by unfold pushIndex; tidy
theorem buildIndex_tidy (n : Nat) : T b (buildIndex E n) := Tidy.bind_get fun _ => Tidy.each fun _ => pushIndex_tidy _
theorem popIndexEntry_tidy (n : Nat) : T b (popIndexEntry n : Prog (Split V) _) := by
  induction n with
  | zero => exact Tidy.pure'
  | succ n ih => exact Tidy.bind (onI_tidy idxPopBack_tidy) fun _ => ih
macro_rules | `(tactic| tstep) => `(tactic| with_reducible exact Split.retRange_tidy _)
macro_rules | `(tactic| tstep) => `(tactic| with_reducible exact Split.retSentinel_tidy)
macro_rules | `(tactic| tstep) => `(tactic| with_reducible exact Split.buildIndex_tidy _)
macro_rules | `(tactic| tstep) => `(tactic| with_reducible exact Split.popIndexEntry_tidy _)

theorem rebuildIndex_tidy : T b (rebuildIndex E) := by unfold rebuildIndex; tidy
theorem pushIndexEntry_tidy : T b (pushIndexEntry E) := by unfold pushIndexEntry; tidy
macro_rules | `(tactic| tstep) => `(tactic| with_reducible exact Split.rebuildIndex_tidy)
macro_rules | `(tactic| tstep) => `(tactic| with_reducible exact Split.pushIndexEntry_tidy)
theorem expand_tidy : T b (expand E) := by unfold expand; tidy
theorem expandBy_tidy (m : Nat) : T b (expandBy E m) := by unfold expandBy; tidy
macro_rules | `(tactic| tstep) => `(tactic| with_reducible exact Split.expand_tidy)
macro_rules | `(tactic| tstep) => `(tactic| with_reducible exact Split.expandBy_tidy _)
theorem prereserve_tidy : T b (prereserve E) := by unfold prereserve; tidy
theorem prereserveAt_tidy (p : PosArg) : T b (prereserveAt E p) := by unfold prereserveAt; tidy
theorem prereserveBy_tidy (p : Ptr) (m : Nat) : T b (prereserveBy E p m) := by unfold prereserveBy; tidy
macro_rules | `(tactic| tstep) => `(tactic| with_reducible exact Split.prereserve_tidy)
macro_rules | `(tactic| tstep) => `(tactic| with_reducible exact Split.prereserveAt_tidy _)
macro_rules | `(tactic| tstep) => `(tactic| with_reducible exact Split.prereserveBy_tidy _ _)
theorem reserve_tidy (n : Nat) : T b (reserve E n) := by unfold reserve; tidy

theorem shrinkBody_tidy (hb : b ≠ 0) : T b (shrinkBody E) := by
  have tail : ∀ x : Split V, T b (do
      let y ← Prog.get
      if x.s.blk ≠ y.s.blk then
        if E.idxMaxSize < y.s.cap + 1 then Prog.raise .lengthError
        else
          let b ← E.alloc
          Prog.set { y with i := ⟨b, E.lib.reserveCap (y.s.cap + 1), []⟩ }
          buildIndex E 0
      else return () : Prog (Split V) Unit) := fun x =>
    Tidy.of_own fun _ => Own.bind_get fun y hy => Own.ite (fun _ => Own.ite (fun _ => Own.raise) fun h =>
      Own.bind_new Made.alloc fun i => Own.bind_set (e := 0) (by simp only [own, Vec.own] at *; omega) (Own.of_tidy (buildIndex_tidy 0))) fun _ => Own.pure (Nat.zero_le _)
  unfold shrinkBody
  refine Tidy.of_own (oa := none') fun c => Own.bind_get fun x hx => Own.ite (fun _ => Own.of_tidy (Tidy.bind (onS_tidy (Env.shrinkToFit_tidy hb)) fun _ => tail x)) fun _ =>
    Own.bind_new Made.alloc fun i => Own.bind_set (e := 0) (by simp only [own, Vec.own] at *; omega) (Own.of_tidy (tail x))
theorem shrinkToFit_tidy (hb : b ≠ 0) : T b (shrinkToFit E) :=
  Tidy.bind (Tidy.onExc (shrinkBody_tidy hb) rebuildIndex_tidy) fun _ => retSentinel_tidy
theorem emplaceAt_tidy (p : PosArg) (src : Src V) : T b (emplaceAt E p src) := by unfold emplaceAt; tidy
theorem pushBack_tidy (src : Src V) : T b (pushBack E src) := by unfold pushBack; tidy
theorem insertLoop_tidy (srcs : List (Src V)) : ∀ p, T b (insertLoop E p srcs) := by
  induction srcs with
  | nil => intro p; exact Tidy.pure'
  | cons src srcs ih =>
    intro p
    unfold insertLoop
    repeat' (first | tstep | exact ih _ | intro _ | split)
macro_rules | `(tactic| tstep) => `(tactic| with_reducible exact Split.insertLoop_tidy _ _)
theorem insertInput_tidy (p : Ptr) (srcs : List (Src V)) : T b (insertInput E p srcs) := by unfold insertInput; tidy
theorem insertForward_tidy (p : Ptr) (srcs : List (Src V)) : T b (insertForward E p srcs) := by unfold insertForward; tidy
theorem erase_tidy (p : Ptr) : T b (erase E p) := by unfold erase; tidy
theorem eraseRange_tidy (p q : Ptr) : T b (eraseRange E p q) := by unfold eraseRange; tidy
theorem eraseTillEnd_tidy (p : Ptr) : T b (eraseTillEnd E p) := by unfold eraseTillEnd; tidy
theorem eraseFromBegin_tidy (p : Ptr) : T b (eraseFromBegin E p) := by unfold eraseFromBegin; tidy
theorem clear_tidy : T b (clear : Prog (Split V) _) := by unfold clear; tidy

theorem init_made {X : Type} (hb : b ≠ 0) (t : Ty) (al objAl : Alloc) (s : Vec V) : Made b (own b) (s.own b) (init E t al objAl s : Prog X _) :=
  Made.locally (oy := own b) (o1 := none') (d := 0) (c := s.own b) (Own.of_tidy (Tidy.bind (onS_tidy (Env.reserve_tidy 1)) fun _ => buildIndex_tidy 0))
    (by simp only [own]; rw [Env.nil_own hb]; omega) fun _ y => by omega
theorem make_made {X : Type} (hb : b ≠ 0) (t : Ty) (al : Alloc) : Made b (own b) 0 (make E t al : Prog X _) :=
  Made.seq Keeps.alloc fun _ => (init_made hb _ _ _ _).mono (by rw [Env.nil_own hb]; omega)
theorem copyAl_made {X : Type} (hb : b ≠ 0) (x : Split V) (al : Alloc) : Made b (own b) 0 (copyAl E x al : Prog X _) :=
  Made.bind_new (Env.copyVec_made hb x.s) fun _ => Made.seq Keeps.alloc fun _ => (init_made hb _ _ _ _).mono (by omega)
theorem move_own (hb : b ≠ 0) (al : Alloc) (c : Nat) : Own b (own b) (own b) c 0 (move E al) :=
  Own.bind_get fun x _ => Own.bind (o1 := Vec.own b) (Own.zoom (fun _ => Env.moveVec_own hb _) fun x y => by simp only [own]; omega) fun s c' d' h hs =>
    Own.seq (Still.of_same Keeps.alloc) fun _ => Own.of_made ((init_made hb _ _ _ s).mono hs)

end Split

namespace Seg

abbrev T {α : Type} (b : Nat) (p : Prog (Seg V) α) : Prop := Tidy (anyCtx _) b (own b) p

theorem run_own {α : Type} {oa : α → Nat} {f : Prog (Packed V) α} {g : Prog (Split V) α} (h1 : ∀ c, Own b (Packed.own b) oa c 0 f) (h2 : ∀ c, Own b (Split.own b) oa c 0 g) :
    ∀ c, Own b (Backend.own b) oa c 0 (Backend.run f g) := by
  refine fun c => ⟨fun x w hx => ?_⟩
  cases x with
  | packed x =>
    have := (h1 c).run x w hx
    unfold Leaves at this ⊢
    unfold Backend.run
    cases hp : f x w <;> rw [hp] at this <;> simp only [hp] <;> exact this
  | split x =>
    have := (h2 c).run x w hx
    unfold Leaves at this ⊢
    unfold Backend.run
    cases hp : g x w <;> rw [hp] at this <;> simp only [hp] <;> exact this

theorem run_tidy {α : Type} {f : Prog (Packed V) α} {g : Prog (Split V) α} (h1 : Packed.T b f) (h2 : Split.T b g) :
    Tidy (anyCtx _) b (Backend.own b) (Backend.run f g) :=
  Tidy.of_own (run_own (fun _ => Own.of_tidy h1) fun _ => Own.of_tidy h2)

theorem filterRange_tidy {f : Prog (Packed V) (Ptr × Ptr)} {g : Prog (Split V) (Ptr × Ptr)} (h1 : Packed.T b f) (h2 : Split.T b g) : T b (filterRange (Backend.run f g)) := by
  refine ⟨fun s w hs => ?_⟩
  have := (run_tidy h1 h2).run s.be w trivial
  unfold Leaves at this ⊢
  unfold filterRange
  cases hp : Backend.run f g s.be w <;> rw [hp] at this <;> exact this

theorem filterSentinel_tidy {f : Prog (Packed V) Ptr} {g : Prog (Split V) Ptr} (h1 : Packed.T b f) (h2 : Split.T b g) : T b (filterSentinel (Backend.run f g)) := by
  refine ⟨fun s w hs => ?_⟩
  have := (run_tidy h1 h2).run s.be w trivial
  unfold Leaves at this ⊢
  unfold filterSentinel
  cases hp : Backend.run f g s.be w <;> rw [hp] at this <;> exact this

theorem reserve_tidy (n : Nat) : T b (reserve E n) := filterSentinel_tidy (Packed.reserve_tidy n) (Split.reserve_tidy n)
theorem shrinkToFit_tidy (hb : b ≠ 0) : T b (shrinkToFit E) := filterSentinel_tidy (Packed.shrinkToFit_tidy hb) (Split.shrinkToFit_tidy hb)
theorem emplace_tidy (p : PosArg) (src : Src V) : T b (emplace E p src) := filterRange_tidy (Packed.emplaceAt_tidy _ _) (Split.emplaceAt_tidy _ _)
theorem pushBack_tidy (src : Src V) : T b (pushBack E src) := filterRange_tidy (Packed.pushBack_tidy _) (Split.pushBack_tidy _)
theorem insertBase_tidy (p : Ptr) (src : Src V) : T b (insertBase E p src) :=
  filterRange_tidy (Packed.emplaceAt_tidy _ _) (Tidy.bind_get fun _ => Tidy.bind Tidy.ofOption fun _ => Split.emplaceAt_tidy _ _)
theorem insertLocal_tidy (p : Ptr) (src : Src V) : T b (insertLocal E p src) :=
  filterRange_tidy (Packed.emplaceAt_tidy _ _) (Split.emplaceAt_tidy _ _)
theorem insertRangeLocal_tidy (fwd : Bool) (p : Ptr) (srcs : List (Src V)) : T b (insertRangeLocal E fwd p srcs) :=
  filterRange_tidy (Packed.insertRange_tidy _ _ _) (Tidy.ite (Split.insertForward_tidy _ _) (Split.insertInput_tidy _ _))
theorem insertRangeEnd_tidy (fwd : Bool) (srcs : List (Src V)) : T b (insertRangeEnd E fwd srcs) :=
  filterRange_tidy (Packed.insertRangeEnd_tidy _ _) (Tidy.bind_get fun _ => Tidy.ite (Split.insertForward_tidy _ _) (Split.insertInput_tidy _ _))
theorem insertRangeBase_tidy (fwd : Bool) (p : Ptr) (srcs : List (Src V)) : T b (insertRangeBase E fwd p srcs) :=
  Tidy.bind_get fun _ => Tidy.bind Tidy.ofOption fun _ => insertRangeLocal_tidy _ _ _
theorem eraseBase_tidy (p : Ptr) : T b (eraseBase E p) :=
  filterRange_tidy (Packed.erase_tidy _) (Tidy.bind_get fun _ => Tidy.bind Tidy.ofOption fun _ => Split.erase_tidy _)
theorem eraseLocal_tidy (p : Ptr) : T b (eraseLocal E p) := filterRange_tidy (Packed.erase_tidy _) (Split.erase_tidy _)
theorem eraseRangeBase_tidy (p q : Ptr) : T b (eraseRangeBase E p q) :=
  filterRange_tidy (Packed.eraseRange_tidy _ _) (Tidy.bind_get fun _ => Tidy.bind Tidy.ofOption fun _ => Tidy.bind Tidy.ofOption fun _ => Split.eraseRange_tidy _ _)
theorem eraseRangeLocal_tidy (p q : Ptr) : T b (eraseRangeLocal E p q) := filterRange_tidy (Packed.eraseRange_tidy _ _) (Split.eraseRange_tidy _ _)
theorem eraseTillEnd_tidy (p : Ptr) : T b (eraseTillEnd E p) := filterRange_tidy (Packed.eraseTillEnd_tidy _) (Split.eraseTillEnd_tidy _)
theorem eraseFromBegin_tidy (p : Ptr) : T b (eraseFromBegin E p) := filterRange_tidy (Packed.eraseFromBegin_tidy _) (Split.eraseFromBegin_tidy _)
theorem clear_tidy : T b (clear : Prog (Seg V) Unit) := filterSentinel_tidy Packed.clear_tidy Split.clear_tidy

theorem make_made {X : Type} (hb : b ≠ 0) (k : Kind) (t : Ty) (al : Alloc) : Made b (own b) 0 (make E k t al : Prog X _) := by
  cases k with
  | packed => exact Made.bind_new (Packed.make_made hb t al) fun _ => Made.pure (Nat.le_add_left _ _)
  | split => exact Made.bind_new (Split.make_made hb t al) fun _ => Made.pure (Nat.le_add_left _ _)
theorem copyAl_made {X : Type} (hb : b ≠ 0) (x : Seg V) (al : Alloc) : Made b (own b) 0 (copyAl E x al : Prog X _) := by
  obtain ⟨be, snt⟩ := x
  cases be with
  | packed x => exact Made.bind_new (Packed.copyAl_made hb x al) fun _ => Made.pure (Nat.le_add_left _ _)
  | split x => exact Made.bind_new (Split.copyAl_made hb x al) fun _ => Made.pure (Nat.le_add_left _ _)
theorem moveAl_own (hb : b ≠ 0) (al : Alloc) (c d : Nat) : Own b (own b) (fun s => own b s + d) c d (moveAl E al) := by
  have := Own.frame (c := c) d (Own.zoom (o := own b) (gt := fun x : Seg V => x.be) (st := fun x be => { x with be := be })
    (run_own (b := b) (oa := own b) (f := do let b ← Packed.move E al; return ofBackend (.packed b)) (g := do let b ← Split.move E al; return ofBackend (.split b))
      (fun c => Own.bind (Packed.move_own hb al c) fun _ _ _ _ h => Own.pure h) (fun c => Own.bind (Split.move_own hb al c) fun _ _ _ _ h => Own.pure h))
    fun x y => by simp only [own]; omega)
  rw [Nat.zero_add] at this
  exact this

theorem modify_own {x x' : Backend V} {o : Coll.Sort'} {p : Ptr} {f : V → V} (h : x.modify o p f = some x') : x'.own b = x.own b := by
  unfold Backend.modify at h
  simp only [Option.bind_eq_some_iff, Option.map_eq_some_iff] at h
  obtain ⟨q, -, v, hv, rfl⟩ := h
  unfold Vec.modify at hv
  split at hv
  · injection hv with hv
    subst hv
    cases x <;> rfl
  · cases hv

theorem apply_tidy (o : Coll.Sort') (p : Ptr) (a : Act V) : T b (Seg.apply E o p a) := by
  refine ⟨fun s w _ => ?_⟩
  unfold Seg.apply
  simp only [leaves_bind, leaves_get, leaves_ofOption, leaves_onExc, leaves_set, leaves_pure]
  intro q _ v _ y hy z hz
  have e1 : (⟨y, s.snt⟩ : Seg V).own b = s.own b := modify_own hy
  have e2 : (⟨z, s.snt⟩ : Seg V).own b = s.own b := modify_own hz
  refine ((Keeps.userOp (E := E) (b := a.nothrow) (C := sameCtx fun x : Seg V => x)).leaves (x := s) (w := w) trivial).mono ?_ ?_
  · rintro _ x' w' ⟨-, -, h⟩; exact ⟨trivial, h, by omega⟩
  · rintro _ x' w' ⟨-, -, h⟩; exact ⟨trivial, h, by omega⟩

theorem rebind_tidy (p r : Ptr) : T b (Seg.rebind p r : Prog (Seg V) Unit) := by
  refine ⟨fun s w _ => ?_⟩
  unfold Seg.rebind
  simp only [leaves_bind, leaves_get, leaves_ofOption, leaves_set]
  intro y hy
  obtain ⟨be, snt⟩ := s
  cases be with
  | packed x => simp [Backend.setEntry] at hy
  | split x =>
    simp only [Backend.setEntry, Option.map_eq_some_iff] at hy
    obtain ⟨i, hi, rfl⟩ := hy
    unfold Vec.modify at hi
    split at hi
    · injection hi with hi
      subst hi
      exact ⟨trivial, Nat.le_refl _, Nat.le_add_right _ _⟩
    · cases hi

end Seg

namespace TMap

/-- What the nodes own. -/
def nown (b : Nat) (l : List (Node V)) : Nat := (l.map (Node.own b)).sum
def own (b : Nat) (m : TMap V) : Nat := nown b m.nodes

abbrev T {α : Type} (b : Nat) (p : Prog (TMap V) α) : Prop := Tidy (anyCtx _) b (own b) p

theorem nown_cons (n : Node V) (l : List (Node V)) : nown b (n :: l) = n.own b + nown b l := by simp [nown]
theorem nown_nil : nown b ([] : List (Node V)) = 0 := rfl
theorem nown_perm {l l' : List (Node V)} (h : l'.Perm l) : nown b l' = nown b l := (h.map (Node.own b)).sum_nat
theorem nown_append (l l' : List (Node V)) : nown b (l ++ l') = nown b l + nown b l' := by simp [nown]

theorem nown_put {l : List (Node V)} {n : Node V} (s : Seg V) (hi : (l.map (·.id)).Nodup) (hn : n ∈ l) :
    nown b (l.map fun k => if k.id = n.id then { k with seg := s } else k) + n.seg.own b = nown b l + s.own b := by
  induction l with
  | nil => simp at hn
  | cons a l ih =>
    simp only [List.map_cons, List.nodup_cons] at hi
    simp only [List.map_cons, nown_cons]
    rcases List.mem_cons.1 hn with rfl | hn
    · rw [if_pos rfl]
      have : (l.map fun k => if k.id = n.id then { k with seg := s } else k) = l := by
        conv => rhs; rw [← List.map_id l]
        refine List.map_congr_left fun k hk => ?_
        rw [if_neg (fun e : k.id = n.id => hi.1 (e ▸ List.mem_map_of_mem hk))]; rfl
      rw [this]
      simp only [Node.own]; omega
    · rw [if_neg (fun e : a.id = n.id => hi.1 (e ▸ List.mem_map_of_mem hn))]
      have := ih hi.2 hn
      omega

theorem cacheInsert_tidy (key : TI) (it : MapIt) : Still (own b) (cacheInsert E key it) := by
  refine ⟨fun m w => ?_⟩
  unfold cacheInsert
  rw [leaves_bind, leaves_get]
  split
  · exact ⟨Nat.le_refl _, Nat.le_refl _⟩
  · rw [leaves_bind]
    refine ((Keeps.alloc (E := E) (C := sameCtx fun x : TMap V => x)).leaves (x := m) (w := w) trivial).mono ?_ ?_
    · rintro _ x' w' ⟨-, -, h⟩; exact ⟨h, Nat.le_refl _⟩
    · rintro _ x' w' ⟨-, e, h⟩; exact ⟨h, by rw [show x' = m from e]; exact Nat.le_refl _⟩

theorem find_tidy (key : TI) : T b (find E key) := by
  refine Tidy.bind_get fun m => ?_
  split
  · exact Tidy.pure
  · exact Tidy.ite (Tidy.bind (Tidy.of_still (cacheInsert_tidy _ _)) fun _ => Tidy.pure) Tidy.pure

theorem rebuildCache_still : Still (own b) (rebuildCache E) := ⟨fun _ _ => ⟨Nat.le_refl _, Nat.le_refl _⟩⟩

theorem node_made (hb : b ≠ 0) (al : Alloc) (c : Nat) :
    Own b (Seg.own b) (fun r : Nat × Seg V => one b r.1 + r.2.own b) c 0 (do let i ← E.alloc; let s ← Seg.moveAl E al; return (i, s) : Prog (Seg V) (Nat × Seg V)) :=
  Own.bind_new Made.alloc fun i => by
    rw [Nat.zero_add]
    exact Own.bind (Seg.moveAl_own hb al c (one b i)) fun s c' d' _ hs => Own.pure (by simp only; omega)

theorem mapEmplace_own (hb : b ≠ 0) (key : TI) (x : Seg V) (c : Nat) : Own b (own b) none' c (x.own b) (mapEmplace E key x) := by
  unfold mapEmplace
  refine Own.bind_get fun m hm => ?_
  have h1 : Made b (fun r : Nat × Seg V => one b r.1 + r.2.own b) (x.own b + 0)
      (Prog.locally x (do let i ← E.alloc; let s ← Seg.moveAl E m.al; return (i, s)) fun r _ => r : Prog (TMap V) (Nat × Seg V)) :=
    Made.locally (node_made hb m.al _) (Nat.le_refl _) fun r y => by omega
  refine (Own.bind_made (d := 0) h1 ?_).mono (Nat.le_refl _) (by omega)
  · rintro ⟨i, s⟩
    simp only
    split
    · exact Own.pure (Nat.zero_le _)
    · refine Own.seq (Still.of_same Keeps.world) fun w => ?_
      have key2 : ∀ (q g : Nat), Own b (own b) none' c (0 + (one b i + s.own b)) (do
          Prog.set { m with nodes := E.shuffle w.tick (m.nodes ++ [⟨i, key, s⟩]), buckets := q, gen := g }
          return ⟨some i, g⟩ : Prog (TMap V) MapIt) := by
        intro q g
        refine Own.bind_set (e := 0) ?_ (Own.pure (Nat.zero_le _))
        have : own b { m with nodes := E.shuffle w.tick (m.nodes ++ [⟨i, key, s⟩]), buckets := q, gen := g } = own b m + (one b i + s.own b) := by
          unfold own
          simp only
          rw [nown_perm (E.shuffle_perm _ _), nown_append, nown_cons, nown_nil]
          rfl
        omega
      exact Own.ite (fun _ => Own.seq (Still.of_same Keeps.alloc) fun _ => key2 _ _) fun _ => key2 _ _

theorem insert_own (hb : b ≠ 0) (key : TI) (x : Seg V) (c : Nat) : Own b (own b) none' c (x.own b) (insert E key x) := by
  unfold insert
  refine Own.bind_get fun m _ => Own.bind (mapEmplace_own hb key x c) fun p c' d' _ _ => Own.bind_get fun m' _ => ?_
  exact Own.ite (fun _ => Own.seq rebuildCache_still fun _ => Own.seq (cacheInsert_tidy _ _) fun _ => Own.pure (Nat.zero_le _)) fun _ =>
    Own.seq (cacheInsert_tidy _ _) fun _ => Own.pure (Nat.zero_le _)

theorem buildCache_still (l : List (TI × MapIt)) : Still (own b) (buildCache E l) :=
  Still.each (fun _ => Still.bind (Still.of_same Keeps.get) fun _ => cacheInsert_tidy _ _) l

theorem copyNodes_made {X : Type} (hb : b ≠ 0) (al : Alloc) : ∀ l : List (Node V), Made b (nown b) 0 (copyNodes E al l : Prog X _)
  | [] => Made.pure (Nat.le_refl _)
  | n :: ns => by
    refine Made.bind_new Made.alloc fun i => Made.bind_new (Seg.copyAl_made hb n.seg al) fun s => Made.bind_new (copyNodes_made hb al ns) fun r => Made.pure ?_
    rw [nown_cons]; simp only [Node.own]; omega

theorem build_made {X : Type} {m : TMap V} {p : Prog (TMap V) Unit} (hp : Still (own b) p) : Made b (own b) (own b m) (build m p : Prog X _) :=
  (Made.locally (oy := own b) (o1 := none') (c := own b m) (d := 0) (Own.of_still hp) (Nat.le_refl _) fun _ y => by omega).mono (by omega)

theorem copyAl_made {X : Type} (hb : b ≠ 0) (x : TMap V) (al : Alloc) : Made b (own b) 0 (copyAl E x al : Prog X _) :=
  Made.bind_new (copyNodes_made hb al x.nodes) fun ns => Made.seq Keeps.world fun w => (build_made (buildCache_still _)).mono (by
    have : own b (⟨E.shuffle w.tick ns, x.buckets, 0, al, []⟩ : TMap V) = nown b ns := nown_perm (E.shuffle_perm _ _)
    omega)

theorem move_own (c : Nat) : Own b (own b) (own b) c 0 (move : Prog (TMap V) (TMap V)) :=
  Own.bind_get fun x hx => Own.bind_set (e := c) (by have : own b (mk' x.al : TMap V) = 0 := rfl; omega) (Own.pure hx)

theorem moveNodes_own (hb : b ≠ 0) (al : Alloc) (c : Nat) : Own b (nown b) (nown b) c 0 (moveNodes E al) := by
  have : ∀ (l : List (Node V)) w, Leaves (moveNodes E al) l w
      (fun r l' w' => w.next ≤ w'.next ∧ nown b l' + nown b r ≤ nown b l + fresh b w w') (fun _ l' w' => w.next ≤ w'.next ∧ nown b l' ≤ nown b l + fresh b w w') := by
    intro l
    induction l with
    | nil => intro w; exact ⟨Nat.le_refl _, Nat.zero_le _⟩
    | cons n ns ih =>
      intro w
      have h1 := (node_made (E := E) hb al (n.seg.own b)).run n.seg w (Nat.le_refl _)
      unfold Leaves at h1 ⊢
      unfold moveNodes
      cases hps : (do let i ← E.alloc; let s ← Seg.moveAl E al; return (i, s) : Prog (Seg V) (Nat × Seg V)) n.seg w with
      | ub => trivial
      | exc a s w' =>
        rw [hps] at h1
        refine ⟨h1.1, ?_⟩
        have := h1.2
        simp only [nown_cons, Node.own]; omega
      | ok a s w' =>
        rw [hps] at h1
        have h2 := ih w'
        unfold Leaves at h2
        simp only at h1 ⊢
        cases hg : moveNodes E al ns w' with
        | ub => trivial
        | ok r l w'' =>
          rw [hg] at h2
          simp only at h2 ⊢
          have := fresh_add (b := b) h1.1 h2.1
          refine ⟨by omega, ?_⟩
          simp only [nown_cons, Node.own]; omega
        | exc r l w'' =>
          rw [hg] at h2
          simp only at h2 ⊢
          have := fresh_add (b := b) h1.1 h2.1
          refine ⟨by omega, ?_⟩
          simp only [nown_cons, Node.own]; omega
  exact ⟨fun l w h => (this l w).mono (fun _ _ _ g => ⟨g.1, by omega⟩) (fun _ _ _ g => ⟨g.1, by omega⟩)⟩

theorem clearAll_still : Still (own b) (clearAll : Prog (TMap V) Unit) := ⟨fun _ _ => ⟨Nat.le_refl _, Nat.zero_le _⟩⟩

theorem moveAl_own (hb : b ≠ 0) (al : Alloc) (c : Nat) : Own b (own b) (own b) c 0 (moveAl E al) := by
  unfold moveAl
  refine Own.bind_get fun x hx => Own.ite (fun _ => Own.bind_set (e := c) (by show nown b [] + c ≤ _; rw [nown_nil]; omega) (Own.pure hx)) fun _ => ?_
  refine Own.bind (o1 := nown b) (Own.zoom (fun c => moveNodes_own hb al c) fun x y => Nat.le_of_eq (by show nown b y + nown b x.nodes = nown b x.nodes + nown b y; omega)) fun ns c' d' h hn =>
    Own.seq (Still.of_same Keeps.world) fun w => ?_
  have e : own b (⟨E.shuffle w.tick ns, x.buckets, 0, al, []⟩ : TMap V) = nown b ns := nown_perm (E.shuffle_perm _ _)
  refine (Own.bind_made (d := 0) (build_made (buildCache_still _)) fun m => Own.seq clearAll_still fun _ => Own.pure (by omega)).mono (Nat.le_refl _) (by omega)

theorem assign_tidy (hb : b ≠ 0) (x : TMap V) : T b (assign E x) := by
  refine Tidy.onExc ?_ (Tidy.of_still clearAll_still)
  unfold assignBody
  refine Tidy.of_own (oa := none') fun c => Own.bind_get fun m _ => Own.bind_set (e := 0) (by show nown b [] + 0 ≤ _; rw [nown_nil]; omega)
    (Own.bind_new (copyNodes_made hb _ _) fun ns => Own.seq (Still.of_same Keeps.world) fun w => ?_)
  refine Own.bind_set (e := 0) ?_ (Own.of_still (buildCache_still _))
  have : ∀ q g a, own b (⟨E.shuffle w.tick ns, q, g, a, []⟩ : TMap V) = nown b ns := fun _ _ _ => nown_perm (E.shuffle_perm _ _)
  rw [this]; omega

/-- What two maps own. -/
def own2 (b : Nat) (p : TMap V × TMap V) : Nat := own b p.1 + own b p.2

theorem fst_still {p : Prog (TMap V) Unit} (h : Still (own b) p) : Still (own2 b) (Prog.zoom (fun p : TMap V × TMap V => p.1) (fun p m => (m, p.2)) p) :=
  Still.zoom h fun x y g => by simp only [own2]; omega
theorem snd_still {p : Prog (TMap V) Unit} (h : Still (own b) p) : Still (own2 b) (Prog.zoom (fun p : TMap V × TMap V => p.2) (fun p m => (p.1, m)) p) :=
  Still.zoom h fun x y g => by simp only [own2]; omega

theorem moveAssign_tidy (hb : b ≠ 0) : Tidy (anyCtx _) b (own2 b) (moveAssign E) := by
  unfold moveAssign
  refine Tidy.onExc (Tidy.of_own (oa := none') fun c => Own.bind_get fun p hp => ?_) (Tidy.of_still (Still.bind (fst_still clearAll_still) fun _ => snd_still clearAll_still))
  obtain ⟨m, x⟩ := p
  have hp' : own b m + own b x ≤ c := hp
  refine Own.ite (fun _ => Own.set ?_) fun _ => Own.bind_set (e := 0) ?_ ?_
  · show nown b x.nodes + nown b [] ≤ _
    rw [nown_nil]; unfold own at hp'; omega
  · show nown b [] + nown b x.nodes + 0 ≤ _
    rw [nown_nil]; unfold own at hp'; omega
  refine Own.bind (o1 := nown b) (Own.zoom (oy := nown b) (fun c => moveNodes_own hb m.al c) fun p y => Nat.le_of_eq ?_) fun ns c' d' h hn => Own.seq (Still.of_same Keeps.world) fun w =>
    Own.bind_get fun y hy => Own.bind_set (e := 0) ?_ ?_
  · show nown b p.1.nodes + nown b y + nown b p.2.nodes = nown b p.1.nodes + nown b p.2.nodes + nown b y; omega
  · show nown b (E.shuffle w.tick ns) + nown b [] + 0 ≤ _
    rw [nown_perm (E.shuffle_perm _ _), nown_nil]; omega
  · refine Own.seq (fst_still (buildCache_still _)) fun _ => Own.bind_get fun z hz => Own.set ?_
    have : own2 b (z.1, { z.2 with cache := [] }) = own2 b z := rfl
    omega

theorem swap_tidy : Tidy (anyCtx _) b (own2 b) (swap E) := by
  refine Tidy.of_own (oa := none') fun c => Own.bind_get fun p hp => ?_
  obtain ⟨m, x⟩ := p
  refine Own.ite (fun _ => Own.set ?_) fun _ => Own.undef
  have hp' : nown b m.nodes + nown b x.nodes ≤ c := hp
  show nown b x.nodes + nown b m.nodes ≤ _
  omega

theorem go_tidy {p : Prog (Seg V) Unit} (hp : Seg.T b p) : Tidy (anyCtx _) b (nown b) (onAll.go p) := by
  have : ∀ (l : List (Node V)) w, Leaves (onAll.go p) l w (fun _ l' w' => True ∧ w.next ≤ w'.next ∧ nown b l' ≤ nown b l + fresh b w w')
      (fun _ l' w' => True ∧ w.next ≤ w'.next ∧ nown b l' ≤ nown b l + fresh b w w') := by
    intro l
    induction l with
    | nil => intro w; exact ⟨trivial, Nat.le_refl _, Nat.le_add_right _ _⟩
    | cons n ns ih =>
      intro w
      have h1 := hp.run n.seg w trivial
      unfold Leaves at h1 ⊢
      unfold onAll.go
      cases hps : p n.seg w with
      | ub => trivial
      | exc a s w' =>
        rw [hps] at h1
        obtain ⟨-, h1, h1'⟩ := h1
        exact ⟨trivial, h1, by simp only [nown_cons, Node.own]; omega⟩
      | ok a s w' =>
        rw [hps] at h1
        obtain ⟨-, h1, h1'⟩ := h1
        have h2 := ih w'
        unfold Leaves at h2
        simp only
        cases hg : onAll.go p ns w' with
        | ub => trivial
        | ok a l w'' =>
          rw [hg] at h2
          obtain ⟨-, h2, h2'⟩ := h2
          have := fresh_add (b := b) h1 h2
          exact ⟨trivial, by omega, by simp only [nown_cons, Node.own]; omega⟩
        | exc a l w'' =>
          rw [hg] at h2
          obtain ⟨-, h2, h2'⟩ := h2
          have := fresh_add (b := b) h1 h2
          exact ⟨trivial, by omega, by simp only [nown_cons, Node.own]; omega⟩
  exact ⟨fun l w _ => this l w⟩

theorem onAll_tidy {p : Prog (Seg V) Unit} (hp : Seg.T b p) : T b (onAll p) :=
  Tidy.zoom (go_tidy hp) fun x y => Nat.le_of_eq (by show nown b y + nown b x.nodes = nown b x.nodes + nown b y; omega)

theorem onSeg_leaves {α : Type} (it : MapIt) {p : Prog (Seg V) α} (hp : Seg.T b p) {m : TMap V} (hi : (m.nodes.map (·.id)).Nodup) (w : World) :
    Leaves (onSeg E it p) m w (fun _ m' w' => w.next ≤ w'.next ∧ own b m' ≤ own b m + fresh b w w')
      (fun _ m' w' => w.next ≤ w'.next ∧ own b m' ≤ own b m + fresh b w w') := by
  unfold Leaves onSeg
  cases hn : m.node? E it with
  | none => trivial
  | some n =>
    have hmem : n ∈ m.nodes := by
      unfold TMap.node? at hn
      split at hn
      · split at hn
        · exact List.mem_of_find?_eq_some hn
        · simp at hn
      · simp at hn
    have h1 := hp.run n.seg w trivial
    unfold Leaves at h1
    simp only
    cases hps : p n.seg w with
    | ub => trivial
    | ok a s w' =>
      rw [hps] at h1
      obtain ⟨-, h1, h2⟩ := h1
      have := nown_put (b := b) s hi hmem
      refine ⟨h1, ?_⟩
      unfold own; simp only; omega
    | exc a s w' =>
      rw [hps] at h1
      obtain ⟨-, h1, h2⟩ := h1
      have := nown_put (b := b) s hi hmem
      refine ⟨h1, ?_⟩
      unfold own; simp only; omega

end TMap

namespace Coll
variable {k : Kind}

def own (b : Nat) (c : Coll V) : Nat := c.map.own b

abbrev T {α : Type} (E : Env V) (k : Kind) (b : Nat) (p : Prog (Coll V) α) : Prop := Tidy (collCtx E k) b (own b) p

theorem onMap_own {α : Type} {oa : α → Nat} {d : Nat} {p : Prog (TMap V) α} (h : ∀ c, Own b (TMap.own b) oa c d p) (c : Nat) : Own b (own b) oa c d (onMap p) :=
  Own.zoom h fun x y => Nat.le_of_eq (by show y.own b + x.map.own b = x.map.own b + y.own b; omega)
theorem onMap_tidy {α : Type} {p : Prog (TMap V) α} (h : TMap.T b p) : Tidy (anyCtx _) b (own b) (onMap p) :=
  Tidy.zoom h fun x y => Nat.le_of_eq (by show y.own b + x.map.own b = x.map.own b + y.own b; omega)

theorem onSeg_tidy {α : Type} (it : MapIt) {p : Prog (Seg V) α} (hk : Keeps (sameCtx Seg.fix) p) (hp : Seg.T b p) : T E k b (onMap (TMap.onSeg E it p)) :=
  Tidy.keeping' (onSeg_keeps E it hk) fun _ w hc => leaves_zoom.2 (TMap.onSeg_leaves it hp hc.2.ids w)

theorem onAll_tidy {p : Prog (Seg V) Unit} (hk : Keeps (sameCtx Seg.fix) p) (hp : Seg.T b p) : T E k b (onMap (TMap.onAll p)) :=
  Tidy.keeping (onAll_keeps E hk) (onMap_tidy (TMap.onAll_tidy hp))

theorem find_tidy (t : TI) : T E k b (onMap (TMap.find E t)) := by
  refine Tidy.keeping (Keeps.of_runs fun c w hc => (find_runs E t c w (by rw [hc.1]; exact hc.2)).mono ?_ ?_) (onMap_tidy (TMap.find_tidy t))
  · rintro it c' w' ⟨a1, a2, a3, a4, -⟩
    obtain ⟨rfl, hi⟩ := hc
    exact ⟨⟨a2, by rw [← a2]; exact a1⟩, SameNodes.stays a2 a3, a4⟩
  · rintro e c' w' ⟨-, rfl, a3⟩
    exact ⟨⟨hc.1, hc.2.weaken E a3⟩, Stays.refl _, a3⟩

theorem downcast_tidy {α : Type} (t : Ty) {p : Prog (Seg V) α} (hp : Seg.T b p) : Seg.T b (downcast t p) :=
  Tidy.bind_get fun _ => Tidy.ite hp Tidy.undef

theorem make_insert (hb : b ≠ 0) (t : TI) (y : Ty) (c : Nat) : Own b (own b) none' c 0 (do
    let c ← Prog.get
    let s ← Seg.make E c.kind y c.map.al
    onMap (TMap.insert E t s) : Prog (Coll V) MapIt) :=
  Own.bind_get fun x _ => Own.bind_new (Seg.make_made hb _ _ _) fun s => (onMap_own (fun c => TMap.insert_own hb t s c) c).mono (Nat.le_refl _) (by omega)

theorem insertNew_tidy (hb : b ≠ 0) (t : TI) : T E k b (insertNew E t) :=
  Tidy.keeping (insertNew_keeps E t) (Tidy.of_own fun c => make_insert hb t _ c)

end Coll

macro_rules | `(tactic| tstep) => `(tactic| (with_reducible apply Coll.onSeg_tidy; · keeps))
macro_rules | `(tactic| tstep) => `(tactic| (with_reducible apply Coll.onAll_tidy; · keeps))
macro_rules | `(tactic| tstep) => `(tactic| with_reducible exact Coll.find_tidy _)
macro_rules | `(tactic| tstep) => `(tactic| with_reducible apply Coll.downcast_tidy)
macro_rules | `(tactic| tstep) => `(tactic| with_reducible exact Coll.insertNew_tidy (by assumption) _)
macro_rules | `(tactic| tstep) => `(tactic| with_reducible exact Seg.reserve_tidy _)
macro_rules | `(tactic| tstep) => `(tactic| with_reducible exact Seg.shrinkToFit_tidy (by assumption))
macro_rules | `(tactic| tstep) => `(tactic| with_reducible exact Seg.emplace_tidy _ _)
macro_rules | `(tactic| tstep) => `(tactic| with_reducible exact Seg.pushBack_tidy _)
macro_rules | `(tactic| tstep) => `(tactic| with_reducible exact Seg.insertBase_tidy _ _)
macro_rules | `(tactic| tstep) => `(tactic| with_reducible exact Seg.insertLocal_tidy _ _)
macro_rules | `(tactic| tstep) => `(tactic| with_reducible exact Seg.insertRangeLocal_tidy _ _ _)
macro_rules | `(tactic| tstep) => `(tactic| with_reducible exact Seg.insertRangeEnd_tidy _ _)
macro_rules | `(tactic| tstep) => `(tactic| with_reducible exact Seg.insertRangeBase_tidy _ _ _)
macro_rules | `(tactic| tstep) => `(tactic| with_reducible exact Seg.eraseBase_tidy _)
macro_rules | `(tactic| tstep) => `(tactic| with_reducible exact Seg.eraseLocal_tidy _)
macro_rules | `(tactic| tstep) => `(tactic| with_reducible exact Seg.eraseRangeBase_tidy _ _)
macro_rules | `(tactic| tstep) => `(tactic| with_reducible exact Seg.eraseRangeLocal_tidy _ _)
macro_rules | `(tactic| tstep) => `(tactic| with_reducible exact Seg.eraseTillEnd_tidy _)
macro_rules | `(tactic| tstep) => `(tactic| with_reducible exact Seg.eraseFromBegin_tidy _)
macro_rules | `(tactic| tstep) => `(tactic| with_reducible exact Seg.clear_tidy)

namespace Coll
variable {k : Kind}

theorem forInfo_tidy (t : TI) : T E k b (forInfo E t) := by unfold forInfo; tidy
theorem retIter_tidy (it : MapIt) (p : Ptr) : T E k b (retIter E it p) := by unfold retIter; tidy
theorem retIterEnd_tidy (it e : MapIt) (p : Ptr) : T E k b (retIterEnd E it e p) := by unfold retIterEnd; tidy
theorem forT_tidy (hb : b ≠ 0) (t : TI) : T E k b (forT E t) := by unfold forT; tidy
theorem forProto_tidy (hb : b ≠ 0) (id : TI) (s : Seg V) (hk : s.kind = k) (ht : s.ty = E.tiTy id) : T E k b (forProto E id s) := by
  refine Tidy.keeping (forProto_keeps E id s hk ht) ?_
  refine Tidy.bind (onMap_tidy (TMap.find_tidy id)) fun _ => Tidy.ite Tidy.pure (Tidy.of_own (oa := none') fun c => ?_)
  exact Own.bind_get fun x _ => Own.bind_new (Seg.make_made hb _ _ _) fun s => (onMap_own (fun c => TMap.insert_own hb id s c) c).mono (Nat.le_refl _) (by omega)
theorem forArg_tidy (hb : b ≠ 0) (a : Arg V) : T E k b (forArg E a) := by
  unfold forArg
  refine Tidy.ite (Tidy.ite (forT_tidy hb _) ?_) (by tidy)
  exact Tidy.bind (find_tidy _) fun _ => Tidy.ite Tidy.pure (Tidy.ite Tidy.raise (insertNew_tidy hb _))
theorem registerTypes_tidy (hb : b ≠ 0) (ts : List TI) : T E k b (registerTypes E ts) := by
  induction ts with
  | nil => exact Tidy.pure'
  | cons t ts ih => exact Tidy.bind (insertNew_tidy hb t) fun _ => ih

end Coll

macro_rules | `(tactic| tstep) => `(tactic| with_reducible exact Coll.forInfo_tidy _)
macro_rules | `(tactic| tstep) => `(tactic| with_reducible exact Coll.retIter_tidy _ _)
macro_rules | `(tactic| tstep) => `(tactic| with_reducible exact Coll.retIterEnd_tidy _ _ _)
macro_rules | `(tactic| tstep) => `(tactic| with_reducible exact Coll.forT_tidy (by assumption) _)
macro_rules | `(tactic| tstep) => `(tactic| with_reducible exact Coll.forProto_tidy (by assumption) _ _ (by assumption) (by assumption))
macro_rules | `(tactic| tstep) => `(tactic| with_reducible exact Coll.forArg_tidy (by assumption) _)

namespace Coll
variable {k : Kind}

theorem insert_tidy (hb : b ≠ 0) (a : Arg V) : T E k b (insert E a) := by unfold insert pushBackArg; tidy
theorem insertRange_tidy (hb : b ≠ 0) (as : List (Arg V)) : T E k b (insertRange E as) := by
  induction as with
  | nil => exact Tidy.pure'
  | cons a as ih => exact Tidy.bind (insert_tidy hb a) fun _ => ih
theorem insertFrom_tidy (hb : b ≠ 0) (xs : List (Item V)) (hx : ∀ x ∈ xs, x.proto.kind = k ∧ x.proto.ty = E.tiTy x.id) : T E k b (insertFrom E xs) := by
  induction xs with
  | nil => exact Tidy.pure'
  | cons x xs ih =>
    have hx1 := hx x List.mem_cons_self
    exact Tidy.bind (forProto_tidy hb _ _ hx1.1 hx1.2) fun _ => Tidy.bind (by tidy) fun _ => ih fun y hy => hx y (List.mem_cons_of_mem _ hy)
theorem hintStep_tidy (h : GIter) (it : MapIt) (t : Ty) (src : Src V) : T E k b (hintStep E h it t src) := by unfold hintStep; tidy
theorem insertHintRange_tidy (hb : b ≠ 0) (as : List (Arg V)) : ∀ h, T E k b (insertHintRange E h as) := by
  induction as with
  | nil => intro h; exact Tidy.pure'
  | cons a as ih => intro h; exact Tidy.bind (forArg_tidy hb a) fun _ => Tidy.bind (hintStep_tidy _ _ _ _) fun _ => ih _
theorem insertHintFrom_tidy (hb : b ≠ 0) (xs : List (Item V)) (hx : ∀ x ∈ xs, x.proto.kind = k ∧ x.proto.ty = E.tiTy x.id) : ∀ h, T E k b (insertHintFrom E h xs) := by
  induction xs with
  | nil => intro h; exact Tidy.pure'
  | cons x xs ih =>
    intro h
    have hx1 := hx x List.mem_cons_self
    exact Tidy.bind (forProto_tidy hb _ _ hx1.1 hx1.2) fun _ => Tidy.bind (hintStep_tidy _ _ _ _) fun _ => ih (fun y hy => hx y (List.mem_cons_of_mem _ hy)) _
theorem hintLoop_tidy (it : MapIt) (t : Ty) (vs : List V) : ∀ h, T E k b (hintLoop E h it t vs) := by
  induction vs with
  | nil => intro h; exact Tidy.pure'
  | cons v vs ih => intro h; exact Tidy.bind (hintStep_tidy _ _ _ _) fun _ => ih _
theorem insertHintFromLocal_tidy (hb : b ≠ 0) (h : GIter) (id : TI) (s : Seg V) (vs : List V) (hk : s.kind = k) (ht : s.ty = E.tiTy id) : T E k b (insertHintFromLocal E h id s vs) := by
  unfold insertHintFromLocal
  exact Tidy.ite Tidy.pure (Tidy.bind (forProto_tidy hb _ _ hk ht) fun _ => hintLoop_tidy _ _ _ _)
theorem insertFromLocal_tidy (hb : b ≠ 0) (id : TI) (s : Seg V) (vs : List V) (hk : s.kind = k) (ht : s.ty = E.tiTy id) : T E k b (insertFromLocal E id s vs) := by
  unfold insertFromLocal; tidy
theorem posLoopBase_tidy (it : MapIt) (as : List (Arg V)) : ∀ p, T E k b (posLoopBase E it p as) := by
  induction as with
  | nil => intro p; exact Tidy.pure'
  | cons a as ih => intro p; exact Tidy.bind (by tidy) fun _ => ih _
theorem posLoopLocal_tidy (it : MapIt) (t : Ty) (srcs : List (Src V)) : ∀ p, T E k b (posLoopLocal E it t p srcs) := by
  induction srcs with
  | nil => intro p; exact Tidy.pure'
  | cons a as ih => intro p; exact Tidy.bind (by tidy) fun _ => Tidy.bind_get fun _ => Tidy.bind Tidy.ofOption fun _ => ih _
theorem eraseSpan_tidy (l e : MapIt) (p : Ptr) (n : Nat) : ∀ f, T E k b (eraseSpan E f l e p n) := by
  induction n with
  | zero => intro f; exact Tidy.undef
  | succ n ih =>
    intro f
    unfold eraseSpan
    repeat' (first | tstep | exact ih _ | intro _)

/-- No operation makes a second owner of a block. -/
theorem cop_tidy (hb : b ≠ 0) (op : COp V) : T E k b (op.run E) := by
  cases op <;> unfold COp.run <;> simp only
  case registerTypes ts => exact registerTypes_tidy hb ts
  case lookup t => tidy
  case reserveAll n => unfold reserveAll; tidy
  case reserveInfo t n => unfold reserveInfo; tidy
  case reserveT t n => unfold reserveT; tidy
  case shrinkAll => unfold shrinkAll; tidy
  case shrinkInfo t => unfold shrinkInfo; tidy
  case emplace t src => unfold emplace; tidy
  case emplaceHint h t src => unfold emplaceHint; tidy
  case emplacePosBase p t src => unfold emplacePosBase; tidy
  case emplacePosLocal p t src => unfold emplacePosLocal; tidy
  case insert a => exact Tidy.drop (insert_tidy hb a)
  case insertHint h a => unfold insertHint pushBackArg; tidy
  case insertPosBase p a => unfold insertPosBase; tidy
  case insertPosLocal p a => unfold insertPosLocal; tidy
  case insertRange as => exact insertRange_tidy hb as
  case insertRangeTerminal f t srcs => unfold insertRangeTerminal; tidy
  case insertHintRange h as => exact Tidy.drop (insertHintRange_tidy hb as h)
  case insertHintRangeTerminal h f t srcs => unfold insertHintRangeTerminal; tidy
  case insertPosRangeBase p as =>
    exact Tidy.drop (Tidy.bind (posLoopBase_tidy _ as _) fun _ => Tidy.ite Tidy.undef Tidy.pure)
  case insertPosRangeLocal p t srcs =>
    exact Tidy.drop (Tidy.bind (posLoopLocal_tidy _ _ srcs _) fun _ => Tidy.ite Tidy.undef Tidy.pure)
  case erase p => unfold erase; tidy
  case eraseLocalBase p => unfold eraseLocalBase; tidy
  case eraseLocal p => unfold eraseLocal; tidy
  case eraseRange p q =>
    unfold eraseRange
    repeat' (first | tstep | exact eraseSpan_tidy _ _ _ _ _ | intro _)
  case eraseLocalRangeBase p q => unfold eraseLocalRangeBase; tidy
  case eraseLocalRange p q => unfold eraseLocalRange; tidy
  case clearAll => unfold clearAll; tidy
  case clearInfo t => unfold clearInfo; tidy
  case apply o p a =>
    exact Tidy.drop (Tidy.bind_get fun _ => Tidy.bind Tidy.ofOption fun _ => onSeg_tidy _ (Seg.apply_keeps E o p a) (Seg.apply_tidy o p a))
  case rebind p q =>
    unfold Coll.rebind
    refine Tidy.bind_get fun _ => Tidy.bind Tidy.ofOption fun r => Tidy.bind Tidy.ofOption fun _ => onSeg_tidy _ (Seg.rebind_keeps p r) (Seg.rebind_tidy p r)

/-- What the first `N` collections own. -/
def sown (b N : Nat) (s : Sys V) : Nat := ((List.range N).map fun i => own b (s i)).sum

theorem sown_succ (N : Nat) (s : Sys V) : sown b (N + 1) s = sown b N s + own b (s N) := by
  simp [sown, List.range_succ]

theorem sown_put {s : Sys V} {i N : Nat} (h : i < N) (c : Coll V) : sown b N (s.put i c) + own b (s i) = sown b N s + own b c := by
  have same : ∀ {M}, M ≤ i → sown b M (s.put i c) = sown b M s := by
    intro M hM
    unfold sown
    congr 1
    refine List.map_congr_left fun j hj => ?_
    have := List.mem_range.1 hj
    rw [show s.put i c j = s j from if_neg (by omega)]
  induction N with
  | zero => omega
  | succ N ih =>
    rw [sown_succ, sown_succ]
    by_cases e : i = N
    · subst e
      rw [same (Nat.le_refl _), show s.put i c i = c from if_pos rfl]; omega
    · have := ih (by omega)
      rw [show s.put i c N = s N from if_neg (by omega)]; omega

theorem on_own {α : Type} {oa : α → Nat} {i N : Nat} (hi : i < N) {p : Prog (Coll V) α} (h : ∀ c, Own b (own b) oa c 0 p) (c : Nat) : Own b (sown b N) oa c 0 (Sys.on i p) :=
  Own.zoom h fun _ y => Nat.le_of_eq (sown_put hi y)

theorem construct_own {i N : Nat} (hi : i < N) {p : Prog (Sys V) (Coll V)} {c : Nat} (h : Own b (sown b N) (own b) c 0 p) : Own b (sown b N) none' c 0 (Sys.construct i p) :=
  Own.bind h fun x c' d' _ hx => Own.bind_get fun s hs => Own.set (by have := sown_put (b := b) (s := s) hi x; omega)

theorem on2_own {i j N : Nat} (hi : i < N) (hj : j < N) (hij : i ≠ j) {p : Prog (TMap V × TMap V) Unit} (h : Tidy (anyCtx _) b (TMap.own2 b) p) (c : Nat) :
    Own b (sown b N) none' c 0 (Sys.on2 i j (onMaps p)) := by
  refine Own.of_tidy (Tidy.zoom (oy := fun c : Coll V × Coll V => own b c.1 + own b c.2) (Tidy.zoom h fun x y => Nat.le_of_eq ?_) fun s y => ?_)
  · show y.1.own b + y.2.own b + (x.1.map.own b + x.2.map.own b) = x.1.map.own b + x.2.map.own b + (y.1.own b + y.2.own b); omega
  · have h1 := sown_put (b := b) (s := s) hi y.1
    have h2 := sown_put (b := b) (s := s.put i y.1) hj y.2
    have h3 : s.put i y.1 j = s j := if_neg (Ne.symm hij)
    rw [h3] at h2
    simp only; omega

/-- The bound for programs with collections. -/
def Bound (b N : Nat) (s : Sys V) (w : World) (s' : Sys V) (w' : World) : Prop := w.next ≤ w'.next ∧ sown b N s' ≤ sown b N s + fresh b w w'

theorem bound_own {oa : Unit → Nat} {N : Nat} {p : Prog (Sys V) Unit} (h : ∀ c, Own b (sown b N) oa c 0 p) (s : Sys V) (w : World) :
    Leaves p s w (fun _ s' w' => Bound b N s w s' w') (fun _ s' w' => Bound b N s w s' w') :=
  ((h _).run s w (Nat.le_refl _)).mono (fun _ _ _ g => ⟨g.1, by have := g.2; omega⟩) (fun _ _ _ g => ⟨g.1, by have := g.2; omega⟩)

theorem bound_on {i N : Nat} (hi : i < N) {p : Prog (Coll V) Unit} {s : Sys V} {w : World} (h : T E k b p) (hs : (collCtx E k).I (s i) w) :
    Leaves (Sys.on i p) s w (fun _ s' w' => Bound b N s w s' w') (fun _ s' w' => Bound b N s w s' w') := by
  refine leaves_zoom.2 ((h.run (s i) w hs).mono ?_ ?_) <;>
  · rintro _ c w' ⟨-, h1, h2⟩
    have := sown_put (b := b) (s := s) hi c
    exact ⟨h1, by omega⟩

theorem bound_build {i N : Nat} {al : Alloc} (hi : i < N) {p : Prog (Coll V) Unit} {s : Sys V} {w : World} (h : T E k b p) :
    Leaves (Sys.construct i (locally (empty' k al) p fun _ c => c)) s w (fun _ s' w' => Bound b N s w s' w') (fun _ s' w' => Bound b N s w s' w') := by
  have zero : own b (empty' k al : Coll V) = 0 := rfl
  unfold Sys.construct
  simp only [leaves_bind, leaves_locally, leaves_get, leaves_set]
  refine (h.run (empty' k al) w ⟨rfl, TMap.empty_inv E k _ _ rfl rfl⟩).mono ?_ ?_
  · rintro _ c w' ⟨-, h1, h2⟩
    have := sown_put (b := b) (s := s) hi c
    rw [zero] at h2
    exact ⟨h1, by omega⟩
  · rintro _ c w' ⟨-, h1, h2⟩
    exact ⟨h1, by omega⟩

/-- No operation of a program makes a second owner of a block. -/
theorem op_bound (hb : b ≠ 0) {sub : Ty → TI} (hsub : ∀ t, E.tiTy (sub t) = t) (op : Op V) (s : Sys V) (w : World) (hs : SysInv E k s w) :
    ∃ N0, ∀ N, N0 ≤ N → Leaves (op.run E k sub) s w (fun _ s' w' => Bound b N s w s' w') (fun _ s' w' => Bound b N s w s' w') := by
  have refl : ∀ N, Bound b N s w s w := fun N => ⟨Nat.le_refl _, Nat.le_add_right _ _⟩
  have zero : ∀ al, own b (empty' k al : Coll V) = 0 := fun al => rfl
  have copy : ∀ (x : Coll V) al N c, Own b (sown b N) (own b) c 0 (copyAl E x al : Prog (Sys V) (Coll V)) := fun x al N c =>
    Own.of_made (Made.bind_new (TMap.copyAl_made hb x.map al) fun m => Made.pure (by show m.own b ≤ _; omega))
  cases op with
  | on i op => exact ⟨i + 1, fun N hN => bound_on hN (cop_tidy hb op) (hs.1 i)⟩
  | create i al => exact ⟨i + 1, fun N hN => bound_own (fun c => construct_own hN (Own.pure (by rw [zero]; omega))) s w⟩
  | fromRange i al as =>
    exact ⟨i + 1, fun N hN => bound_build hN (insertRange_tidy (E := E) (k := k) hb as)⟩
  | fromTerminal i al fwd t srcs => exact ⟨i + 1, fun N hN => bound_build hN (cop_tidy (E := E) (k := k) hb (.insertRangeTerminal fwd t srcs))⟩
  | fromColl i j al f l =>
    refine ⟨i + 1, fun N hN => ?_⟩
    simp only [Op.run, leaves_bind, leaves_get, leaves_ite]
    refine ⟨fun _ => trivial, fun _ => ?_⟩
    unfold fromColl insertColl
    cases hl : (s j).collect E sub l f ((s j).size + 1) with
    | none => exact bound_build (E := E) (k := k) hN ⟨fun _ _ _ => trivial⟩
    | some xs => exact bound_build (E := E) (k := k) hN (insertFrom_tidy hb xs (collect_ok E hsub (hs.1 j).2 hl))
  | fromLocalColl i j al f l =>
    refine ⟨i + 1, fun N hN => ?_⟩
    simp only [Op.run, leaves_bind, leaves_get, leaves_ite]
    refine ⟨fun _ => trivial, fun _ => ?_⟩
    unfold fromLocalColl insertLocalColl
    cases hl : (s j).collectLocal E f l with
    | none => exact bound_build (E := E) (k := k) hN ⟨fun _ _ _ => trivial⟩
    | some r => exact bound_build (E := E) (k := k) hN (insertFromLocal_tidy hb _ r.1 r.2 (collectLocal_ok E (hs.1 j).2 hl) (by rw [hsub]))
  | copy i j =>
    refine ⟨i + 1, fun N hN => bound_own (oa := none') (fun c => Own.bind_get fun x _ => Own.ite (fun _ => Own.undef) fun _ => construct_own hN (copy _ _ _ _)) s w⟩
  | copyAl i j al =>
    refine ⟨i + 1, fun N hN => bound_own (oa := none') (fun c => Own.bind_get fun x _ => Own.ite (fun _ => Own.undef) fun _ => construct_own hN (copy _ _ _ _)) s w⟩
  | move i j =>
    refine ⟨i + j + 1, fun N hN => bound_own (oa := none') (fun c => Own.ite (fun _ => Own.undef) fun _ => construct_own (by omega) (on_own (by omega) (fun c => ?_) c)) s w⟩
    exact Own.bind (onMap_own TMap.move_own c) fun m c' d' _ h => Own.bind_get fun _ _ => Own.pure h
  | moveAl i j al =>
    refine ⟨i + j + 1, fun N hN => bound_own (oa := none') (fun c => Own.ite (fun _ => Own.undef) fun _ => construct_own (by omega) (on_own (by omega) (fun c => ?_) c)) s w⟩
    exact Own.bind (onMap_own (TMap.moveAl_own hb al) c) fun m c' d' _ h => Own.bind_get fun _ _ => Own.pure h
  | assign i j =>
    refine ⟨i + 1, fun N hN => bound_own (oa := none') (fun c => Own.bind_get fun x _ => Own.ite (fun _ => Own.pure (Nat.zero_le _)) fun _ => on_own hN (fun c => ?_) c) s w⟩
    exact Own.of_tidy (onMap_tidy (TMap.assign_tidy hb _))
  | moveAssign i j =>
    refine ⟨i + j + 1, fun N hN => bound_own (oa := none') (fun c => Own.ite (fun _ => Own.pure (Nat.zero_le _)) fun h => on2_own (by omega) (by omega) h (TMap.moveAssign_tidy hb) c) s w⟩
  | swap i j =>
    refine ⟨i + j + 1, fun N hN => bound_own (oa := none') (fun c => Own.ite (fun _ => Own.pure (Nat.zero_le _)) fun h => on2_own (by omega) (by omega) h TMap.swap_tidy c) s w⟩
  | insertColl i j f l =>
    refine ⟨i + 1, fun N hN => ?_⟩
    simp only [Op.run, leaves_bind, leaves_get, leaves_ite]
    refine ⟨fun _ => trivial, fun _ => ?_⟩
    unfold insertColl
    cases hl : (s j).collect E sub l f ((s j).size + 1) with
    | none => exact bound_on (E := E) (k := k) hN ⟨fun _ _ _ => trivial⟩ (hs.1 i)
    | some xs => exact bound_on (E := E) (k := k) hN (insertFrom_tidy hb xs (collect_ok E hsub (hs.1 j).2 hl)) (hs.1 i)
  | insertHintColl i j h f l =>
    refine ⟨i + 1, fun N hN => ?_⟩
    simp only [Op.run, leaves_bind, leaves_get, leaves_ite]
    refine ⟨fun _ => trivial, fun _ => ?_⟩
    unfold insertHintColl
    cases hl : (s j).collect E sub l f ((s j).size + 1) with
    | none => exact bound_on (E := E) (k := k) hN (Tidy.drop ⟨fun _ _ _ => trivial⟩) (hs.1 i)
    | some xs => exact bound_on (E := E) (k := k) hN (Tidy.drop (insertHintFrom_tidy hb xs (collect_ok E hsub (hs.1 j).2 hl) h)) (hs.1 i)
  | insertLocalColl i j f l =>
    refine ⟨i + 1, fun N hN => ?_⟩
    simp only [Op.run, leaves_bind, leaves_get, leaves_ite]
    refine ⟨fun _ => trivial, fun _ => ?_⟩
    unfold insertLocalColl
    cases hl : (s j).collectLocal E f l with
    | none => exact bound_on (E := E) (k := k) hN ⟨fun _ _ _ => trivial⟩ (hs.1 i)
    | some r => exact bound_on (E := E) (k := k) hN (insertFromLocal_tidy hb _ r.1 r.2 (collectLocal_ok E (hs.1 j).2 hl) (by rw [hsub])) (hs.1 i)
  | insertHintLocalColl i j h f l =>
    refine ⟨i + 1, fun N hN => ?_⟩
    simp only [Op.run, leaves_bind, leaves_get, leaves_ite]
    refine ⟨fun _ => trivial, fun _ => ?_⟩
    unfold insertHintLocalColl
    cases hl : (s j).collectLocal E f l with
    | none => exact bound_on (E := E) (k := k) hN (Tidy.drop ⟨fun _ _ _ => trivial⟩) (hs.1 i)
    | some r => exact bound_on (E := E) (k := k) hN (Tidy.drop (insertHintFromLocal_tidy hb h _ r.1 r.2 (collectLocal_ok E (hs.1 j).2 hl) (by rw [hsub]))) (hs.1 i)

/-- Adding collections does not lose owners. -/
theorem sown_mono {s : Sys V} {N M : Nat} (h : N ≤ M) : sown b N s ≤ sown b M s := by
  induction M with
  | zero => rw [Nat.le_zero.1 h]; exact Nat.le_refl _
  | succ M ih =>
    by_cases e : N = M + 1
    · rw [e]; exact Nat.le_refl _
    · have := ih (by omega)
      rw [sown_succ]; omega

/-- In a program every block has at most one owner, and blocks not yet allocated have none. -/
theorem reach_own (hb : b ≠ 0) {sub : Ty → TI} (hsub : ∀ t, E.tiTy (sub t) = t) {s : Sys V} {w : World} (h : Reach E k sub (Arg.OK E) s w) :
    ∀ N, sown b N s ≤ fresh b ⟨0, 0⟩ w := by
  have step : ∀ {s s' : Sys V} {w w' : World} (op : Op V), (∀ N, sown b N s ≤ fresh b ⟨0, 0⟩ w) →
      (∃ N0, ∀ N, N0 ≤ N → Bound b N s w s' w') → ∀ N, sown b N s' ≤ fresh b ⟨0, 0⟩ w' := by
    rintro s s' w w' op ih ⟨N0, hN⟩ N
    obtain ⟨h1, h2⟩ := hN (N + N0) (by omega)
    have h3 := sown_mono (b := b) (s := s') (N := N) (M := N + N0) (by omega)
    have h4 := ih (N + N0)
    have h5 := fresh_add (b := b) (w := ⟨0, 0⟩) (Nat.zero_le _) h1
    omega
  induction h with
  | start al w hw =>
    intro N
    have : ∀ N, sown b N (fun i => empty' k (al i) : Sys V) = 0 := by
      intro N
      induction N with
      | zero => rfl
      | succ N ih => rw [sown_succ, ih]; rfl
    rw [this]; exact Nat.zero_le _
  | @ok s s' w w' h op ha hr ih =>
    obtain ⟨N0, hN⟩ := op_bound (b := b) hb hsub op s w (reach_inv E hsub h)
    refine step op ih ⟨N0, fun N hN' => ?_⟩
    have := hN N hN'; unfold Leaves at this; rw [hr] at this; exact this
  | @exc s s' w w' e h op ha hr ih =>
    obtain ⟨N0, hN⟩ := op_bound (b := b) hb hsub op s w (reach_inv E hsub h)
    refine step op ih ⟨N0, fun N hN' => ?_⟩
    have := hN N hN'; unfold Leaves at this; rw [hr] at this; exact this

end Coll
end PolyColl
