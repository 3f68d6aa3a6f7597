import Verif.Lemmas.Limits
/-! # Collections stay within the limits of their vectors -/

namespace PolyColl
open Prog

/-- Things of type `t` whose vectors are within limits. -/
def PLim {V : Type} (E : Env V) (t : Ty) (x : Packed V) : Prop := x.ty = t ∧ VLim E (E.maxSize t) x.s
def SpLim {V : Type} (E : Env V) (t : Ty) (x : Split V) : Prop := x.ty = t ∧ VLim E (E.maxSize t) x.s ∧ VLim E E.idxMaxSize x.i
def BLim {V : Type} (E : Env V) (t : Ty) : Backend V → Prop
  | .packed x => PLim E t x
  | .split x => SpLim E t x
def SLim {V : Type} (E : Env V) (t : Ty) (s : Seg V) : Prop := BLim E t s.be

variable {V : Type} {E : Env V} {t : Ty}

namespace Packed

theorem onS_gives {α : Type} {Q : α → Prop} {p : Prog (Vec V) α} (h : Gives (VLim E (E.maxSize t)) Q p) : Gives (PLim E t) Q (onS p) :=
  Gives.zoom _ h (fun _ hx => hx.2) (fun _ _ hx hy => ⟨hx.1, hy⟩)

/-- An operation on the element vector of the segment just read. -/
theorem onS_ty {α : Type} {Q : α → Prop} {x : Packed V} (hx : PLim E t x) {p : Ty → Prog (Vec V) α} (h : Gives (VLim E (E.maxSize t)) Q (p t)) :
    Gives (PLim E t) Q (onS (p x.ty)) := by
  have e : x.ty = t := hx.1
  rw [e]; exact onS_gives h

theorem retRange_holds (n : Nat) : Hold (PLim E t) (retRange n : Prog (Packed V) _) := by unfold retRange; holds
theorem retSentinel_holds : Hold (PLim E t) (retSentinel : Prog (Packed V) _) := by unfold retSentinel; holds

theorem reserve_holds (n : Nat) : Hold (PLim E t) (reserve E n) :=
  Gives.bind_get fun _ hx => Gives.seq (onS_ty hx (p := fun t => E.reserve t n) (Env.reserve_holds n)) fun _ => retSentinel_holds
theorem shrinkToFit_holds : Hold (PLim E t) (shrinkToFit E) :=
  Gives.bind_get fun _ hx => Gives.seq (onS_ty hx Env.shrinkToFit_holds) fun _ => retSentinel_holds
theorem emplaceAt_holds (p : Ptr) (src : Src V) : Hold (PLim E t) (emplaceAt E p src) :=
  Gives.bind_get fun _ hx => Gives.seq Hold.ofOption fun _ =>
    Gives.seq (onS_ty hx (p := fun t => E.emplaceAt t _ src) (Env.emplaceAt_holds _ _)) fun _ => retRange_holds _
theorem pushBack_holds (src : Src V) : Hold (PLim E t) (pushBack E src) :=
  Gives.bind_get fun _ hx => Gives.seq (onS_ty hx (p := fun t => E.emplaceBack t src) (Env.emplaceBack_holds _)) fun _ =>
    Gives.bind_get fun _ _ => retRange_holds _
theorem insertRange_holds (fwd : Bool) (p : Ptr) (srcs : List (Src V)) : Hold (PLim E t) (insertRange E fwd p srcs) :=
  Gives.bind_get fun _ hx => Gives.seq Hold.ofOption fun n => Gives.seq
    (onS_ty hx (p := fun t => if fwd then E.insertRange t n srcs else E.insertInput t n srcs)
      (Gives.ite (fun _ => Env.insertRange_holds _ _) fun _ => Env.insertInput_holds _ _)) fun _ => retRange_holds _
theorem insertRangeEnd_holds (fwd : Bool) (srcs : List (Src V)) : Hold (PLim E t) (insertRangeEnd E fwd srcs) :=
  Gives.bind_get fun _ _ => insertRange_holds _ _ _
theorem erase_holds (p : Ptr) : Hold (PLim E t) (erase E p) :=
  Gives.bind_get fun _ hx => Gives.seq Hold.ofOption fun n => Gives.seq (onS_ty hx (p := fun t => E.eraseAt t n) (Env.eraseAt_holds _)) fun _ => retRange_holds _
theorem eraseRange_holds (p q : Ptr) : Hold (PLim E t) (eraseRange E p q) :=
  Gives.bind_get fun _ hx => Gives.seq Hold.ofOption fun a => Gives.seq Hold.ofOption fun b =>
    Gives.seq (onS_ty hx (p := fun t => E.eraseRange t a b) (Env.eraseRange_holds _ _)) fun _ => retRange_holds _
theorem eraseTillEnd_holds (p : Ptr) : Hold (PLim E t) (eraseTillEnd E p) :=
  Gives.bind_get fun x hx => Gives.seq Hold.ofOption fun a =>
    Gives.seq (onS_ty hx (p := fun t => E.eraseRange t a x.s.size) (Env.eraseRange_holds _ _)) fun _ => retRange_holds _
theorem eraseFromBegin_holds (p : Ptr) : Hold (PLim E t) (eraseFromBegin E p) :=
  Gives.bind_get fun _ hx => Gives.seq Hold.ofOption fun b =>
    Gives.seq (onS_ty hx (p := fun t => E.eraseRange t 0 b) (Env.eraseRange_holds _ _)) fun _ => retRange_holds _
theorem clear_holds : Hold (PLim E t) (clear : Prog (Packed V) _) :=
  Gives.seq (onS_gives Env.clearVec_holds) fun _ => retSentinel_holds

theorem make_gives {X : Type} {I : X → Prop} (al : Alloc) : Gives I (PLim E t) (make E t al) :=
  Gives.seq Hold.alloc fun _ => Gives.pure ⟨rfl, Env.vlim_nil⟩
theorem copy_gives {X : Type} {I : X → Prop} {x : Packed V} (hx : PLim E t x) : Gives I (PLim E t) (copy E x) := by
  obtain ⟨rfl, hx⟩ := hx
  exact Gives.bind (Env.copyVec_gives hx) fun _ hs => Gives.seq Hold.alloc fun _ => Gives.pure ⟨rfl, hs⟩
theorem copyAl_gives {X : Type} {I : X → Prop} {x : Packed V} (hx : PLim E t x) (al : Alloc) : Gives I (PLim E t) (copyAl E x al) := by
  obtain ⟨rfl, hx⟩ := hx
  exact Gives.bind (Env.copyVec_gives hx) fun _ hs => Gives.seq Hold.alloc fun _ => Gives.pure ⟨rfl, hs⟩
theorem move_gives (al : Alloc) : Gives (PLim E t) (PLim E t) (move E al) :=
  Gives.bind_get fun x hx => Gives.bind (onS_ty hx (p := fun t => E.moveVec t (decide (x.al = al))) (Env.moveVec_gives _)) fun _ hs =>
    Gives.seq Hold.alloc fun _ => Gives.pure ⟨hx.1, hs⟩

end Packed

namespace Split

theorem onS_gives {α : Type} {Q : α → Prop} {p : Prog (Vec V) α} (h : Gives (VLim E (E.maxSize t)) Q p) : Gives (SpLim E t) Q (onS p) :=
  Gives.zoom _ h (fun _ hx => hx.2.1) (fun _ _ hx hy => ⟨hx.1, hy, hx.2.2⟩)

theorem onI_holds {α : Type} {p : Prog (Vec Ptr) α} (h : Hold (VLim E E.idxMaxSize) p) : Hold (SpLim E t) (onI p : Prog (Split V) α) :=
  Gives.zoom _ h (fun _ hx => hx.2.2) (fun _ _ hx hy => ⟨hx.1, hx.2.1, hy⟩)

/-- An operation on the element vector of the segment just read. -/
theorem onS_ty {α : Type} {Q : α → Prop} {x : Split V} (hx : SpLim E t x) {p : Ty → Prog (Vec V) α} (h : Gives (VLim E (E.maxSize t)) Q (p t)) :
    Gives (SpLim E t) Q (onS (p x.ty)) := by
  have e : x.ty = t := hx.1
  rw [e]; exact onS_gives h

theorem retRange_holds (n : Nat) : Hold (SpLim E t) (retRange n : Prog (Split V) _) := by unfold retRange; holds
theorem retSentinel_holds : Hold (SpLim E t) (retSentinel : Prog (Split V) _) := by unfold retSentinel; holds

theorem pushIndex_holds (n : Nat) : Hold (SpLim E t) (pushIndex E n) :=
  Gives.bind_get fun _ _ => Gives.ite (fun _ => Gives.undef) fun _ => onI_holds (Env.idxPushBack_holds _)
theorem buildIndex_holds (n : Nat) : Hold (SpLim E t) (buildIndex E n) :=
  Gives.bind_get fun _ _ => Hold.each fun _ => pushIndex_holds _
theorem rebuildIndex_holds : Hold (SpLim E t) (rebuildIndex E) :=
  Gives.seq (onI_holds idxClear_holds) fun _ => buildIndex_holds 0
theorem pushIndexEntry_holds : Hold (SpLim E t) (pushIndexEntry E) :=
  Gives.bind_get fun _ _ => buildIndex_holds _
theorem popIndexEntry_holds (n : Nat) : Hold (SpLim E t) (popIndexEntry n : Prog (Split V) _) := by
  induction n with
  | zero => exact Hold.pure'
  | succ n ih => exact Gives.seq (onI_holds idxPopBack_holds) fun _ => ih
theorem expand_holds : Hold (SpLim E t) (expand E) :=
  Gives.bind_get fun _ hx => Gives.seq (onI_holds (Env.idxReserve_holds _)) fun _ =>
    Gives.seq (onS_ty hx (p := fun t => E.reserve t _) (Env.reserve_holds _)) fun _ => rebuildIndex_holds
theorem expandBy_holds (m : Nat) : Hold (SpLim E t) (expandBy E m) :=
  Gives.bind_get fun _ hx => Gives.seq (onI_holds (Env.idxReserve_holds _)) fun _ =>
    Gives.seq (onS_ty hx (p := fun t => E.reserve t _) (Env.reserve_holds _)) fun _ => rebuildIndex_holds
theorem prereserve_holds : Hold (SpLim E t) (prereserve E) :=
  Gives.bind_get fun _ _ => Gives.ite (fun _ => expand_holds) fun _ => Hold.pure
theorem prereserveAt_holds (p : PosArg) : Hold (SpLim E t) (prereserveAt E p) := by
  refine Gives.bind_get fun _ _ => Gives.ite (fun _ => Gives.seq Hold.ofOption fun n => Gives.seq expand_holds fun _ => Gives.bind_get fun x _ => ?_) fun _ => Hold.pure
  cases p <;> exact Hold.pure
theorem prereserveBy_holds (p : Ptr) (m : Nat) : Hold (SpLim E t) (prereserveBy E p m) :=
  Gives.bind_get fun _ _ => Gives.ite (fun _ => Gives.seq Hold.ofOption fun _ => Gives.seq (expandBy_holds m) fun _ => Gives.bind_get fun _ _ => Hold.pure) fun _ => Hold.pure
theorem reserve_holds (n : Nat) : Hold (SpLim E t) (reserve E n) := by
  unfold reserve
  refine Gives.bind_get fun x hx => Gives.seq (onI_holds (Env.idxReserve_holds _)) fun _ =>
    Gives.seq (onS_ty hx (p := fun t => E.reserve t n) (Env.reserve_holds _)) fun _ => ?_
  exact Gives.ite (fun _ => Gives.seq rebuildIndex_holds fun _ => retSentinel_holds) fun _ => retSentinel_holds
theorem shrinkBody_holds : Hold (SpLim E t) (shrinkBody E) := by
  have tail : ∀ x : Split V, Hold (SpLim E t) (do
      let y ← Prog.get
      if x.s.blk ≠ y.s.blk then
        if E.idxMaxSize < y.s.cap + 1 then Prog.raise .lengthError
        else
          let b ← E.alloc
          Prog.set { y with i := ⟨b, E.lib.reserveCap (y.s.cap + 1), []⟩ }
          buildIndex E 0
      else return () : Prog (Split V) Unit) := fun x =>
    Gives.bind_get fun y hy => Gives.ite (fun _ => Gives.ite (fun _ => Gives.raise) fun h =>
      Gives.bind Hold.allocNew fun b hb => Gives.seq (Gives.set ⟨hy.1, hy.2.1, .fresh hb (Nat.lt_of_lt_of_le (Nat.succ_pos _) (E.lib.reserveCap_ge _)) (Nat.zero_le _) fun hf => hf.idxReserve _ (by omega)⟩) fun _ => buildIndex_holds 0) fun _ => Hold.pure
  unfold shrinkBody
  refine Gives.bind_get fun x hx => Gives.ite (fun _ => Gives.seq (onS_ty hx Env.shrinkToFit_holds) fun _ => tail x) fun _ =>
    Gives.bind Hold.allocNew fun b hb => Gives.seq (Gives.set ⟨hx.1, .fresh hb (Nat.lt_of_lt_of_le Nat.zero_lt_one (E.lib.reserveCap_ge _)) (Nat.zero_le _) fun hf => hf.reserve _ _ (hf.one _), hx.2.2⟩) fun _ => tail x
theorem shrinkToFit_holds : Hold (SpLim E t) (shrinkToFit E) :=
  Gives.seq (Gives.onExc shrinkBody_holds rebuildIndex_holds) fun _ => retSentinel_holds
theorem emplaceAt_holds (p : PosArg) (src : Src V) : Hold (SpLim E t) (emplaceAt E p src) :=
  Gives.seq (prereserveAt_holds p) fun _ => Gives.bind_get fun _ hx => Gives.seq Hold.ofOption fun n =>
    Gives.seq (onS_ty hx (p := fun t => E.emplaceAt t n src) (Env.emplaceAt_holds _ _)) fun _ => Gives.seq pushIndexEntry_holds fun _ => retRange_holds _
theorem pushBack_holds (src : Src V) : Hold (SpLim E t) (pushBack E src) :=
  Gives.seq prereserve_holds fun _ => Gives.bind_get fun _ hx =>
    Gives.seq (onS_ty hx (p := fun t => E.emplaceBack t src) (Env.emplaceBack_holds _)) fun _ => Gives.seq pushIndexEntry_holds fun _ =>
    Gives.bind_get fun _ _ => retRange_holds _
theorem insertLoop_holds (srcs : List (Src V)) : ∀ p, Hold (SpLim E t) (insertLoop E p srcs) := by
  induction srcs with
  | nil => intro p; exact Hold.pure'
  | cons src srcs ih =>
    intro p
    refine Gives.seq (prereserveAt_holds _) fun q => Gives.bind_get fun x hx => Gives.seq Hold.ofOption fun n =>
      Gives.seq (onS_ty hx (p := fun t => E.emplaceAt t n src) (Env.emplaceAt_holds _ _)) fun _ => Gives.seq pushIndexEntry_holds fun _ => ?_
    cases q with
    | loc q => exact ih _
    | base q => exact Gives.undef
theorem insertInput_holds (p : Ptr) (srcs : List (Src V)) : Hold (SpLim E t) (insertInput E p srcs) :=
  Gives.seq (insertLoop_holds srcs p) fun _ => Gives.bind_get fun _ _ => Gives.ite (fun _ => Gives.undef) fun _ => Gives.seq Hold.ofOption fun _ => retRange_holds _
theorem insertForward_holds (p : Ptr) (srcs : List (Src V)) : Hold (SpLim E t) (insertForward E p srcs) := by
  unfold insertForward
  refine Gives.bind_get fun x hx => Gives.ite (fun _ => ?_) fun _ => Gives.seq Hold.ofOption fun _ => retRange_holds _
  refine Gives.seq (prereserveBy_holds p _) fun p' => Gives.bind_get fun y hy => Gives.seq Hold.ofOption fun k => ?_
  exact Gives.seq (Gives.onExc (onS_ty hy (p := fun t => E.insertRange t k srcs) (Env.insertRange_holds _ _)) (buildIndex_holds _)) fun _ =>
    Gives.seq (buildIndex_holds _) fun _ => Gives.bind_get fun _ _ => Gives.seq Hold.ofOption fun _ => retRange_holds _
theorem erase_holds (p : Ptr) : Hold (SpLim E t) (erase E p) :=
  Gives.seq (popIndexEntry_holds 1) fun _ => Gives.bind_get fun _ hx => Gives.seq Hold.ofOption fun n =>
    Gives.seq (onS_ty hx (p := fun t => E.eraseAt t n) (Env.eraseAt_holds _)) fun _ => retRange_holds _
theorem eraseRange_holds (p q : Ptr) : Hold (SpLim E t) (eraseRange E p q) :=
  Gives.bind_get fun _ hx => Gives.seq Hold.ofOption fun a => Gives.seq Hold.ofOption fun b =>
    Gives.seq (onS_ty hx (p := fun t => E.eraseRange t a b) (Env.eraseRange_holds _ _)) fun _ => Gives.bind_get fun _ _ =>
    Gives.seq (popIndexEntry_holds _) fun _ => retRange_holds _
theorem eraseTillEnd_holds (p : Ptr) : Hold (SpLim E t) (eraseTillEnd E p) :=
  Gives.bind_get fun x hx => Gives.seq Hold.ofOption fun a =>
    Gives.seq (onS_ty hx (p := fun t => E.eraseRange t a x.s.size) (Env.eraseRange_holds _ _)) fun _ => Gives.bind_get fun _ _ =>
    Gives.seq (popIndexEntry_holds _) fun _ => retRange_holds _
theorem eraseFromBegin_holds (p : Ptr) : Hold (SpLim E t) (eraseFromBegin E p) :=
  Gives.bind_get fun _ hx => Gives.seq Hold.ofOption fun b =>
    Gives.seq (onS_ty hx (p := fun t => E.eraseRange t 0 b) (Env.eraseRange_holds _ _)) fun _ => Gives.bind_get fun _ _ =>
    Gives.seq (popIndexEntry_holds _) fun _ => retRange_holds _
theorem clear_holds : Hold (SpLim E t) (clear : Prog (Split V) _) :=
  Gives.seq (onS_gives Env.clearVec_holds) fun _ => Gives.bind_get fun _ _ => Gives.ite (fun _ => Gives.undef) fun _ =>
    Gives.seq (popIndexEntry_holds _) fun _ => retSentinel_holds

theorem init_gives {X : Type} {I : X → Prop} (al objAl : Alloc) {s : Vec V} (hs : VLim E (E.maxSize t) s) : Gives I (SpLim E t) (init E t al objAl s) :=
  Gives.locally (SpLim E t) (R := fun _ => True) (Gives.seq (onS_gives (Env.reserve_holds 1)) fun _ => buildIndex_holds 0) ⟨rfl, hs, Env.vlim_nil⟩ fun _ _ _ h => h
theorem make_gives {X : Type} {I : X → Prop} (al : Alloc) : Gives I (SpLim E t) (make E t al) :=
  Gives.seq Hold.alloc fun _ => init_gives _ _ Env.vlim_nil
theorem copy_gives {X : Type} {I : X → Prop} {x : Split V} (hx : SpLim E t x) : Gives I (SpLim E t) (copy E x) := by
  obtain ⟨rfl, hx, -⟩ := hx
  exact Gives.bind (Env.copyVec_gives hx) fun _ hs => Gives.seq Hold.alloc fun _ => init_gives _ _ hs
theorem copyAl_gives {X : Type} {I : X → Prop} {x : Split V} (hx : SpLim E t x) (al : Alloc) : Gives I (SpLim E t) (copyAl E x al) := by
  obtain ⟨rfl, hx, -⟩ := hx
  exact Gives.bind (Env.copyVec_gives hx) fun _ hs => Gives.seq Hold.alloc fun _ => init_gives _ _ hs
theorem move_gives (al : Alloc) : Gives (SpLim E t) (SpLim E t) (move E al) := by
  refine Gives.bind_get fun x hx => Gives.bind (onS_ty hx (p := fun t => E.moveVec t (decide (x.al = al))) (Env.moveVec_gives _)) fun s hs =>
    Gives.seq Hold.alloc fun _ => ?_
  have e : x.ty = t := hx.1
  rw [e]; exact init_gives _ _ hs

end Split

namespace Seg

theorem run_gives {α : Type} {Q : α → Prop} {f : Prog (Packed V) α} {g : Prog (Split V) α} (h1 : Gives (PLim E t) Q f) (h2 : Gives (SpLim E t) Q g) :
    Gives (BLim E t) Q (Backend.run f g) := by
  refine ⟨fun b w hw hb => ?_⟩
  cases b with
  | packed x =>
    have := h1.run x w hw hb
    unfold Leaves at this ⊢
    unfold Backend.run
    cases hp : f x w <;> rw [hp] at this <;> simp only [hp] <;> exact this
  | split x =>
    have := h2.run x w hw hb
    unfold Leaves at this ⊢
    unfold Backend.run
    cases hp : g x w <;> rw [hp] at this <;> simp only [hp] <;> exact this

theorem filterRange_holds {f : Prog (Packed V) (Ptr × Ptr)} {g : Prog (Split V) (Ptr × Ptr)} (h1 : Hold (PLim E t) f) (h2 : Hold (SpLim E t) g) :
    Hold (SLim E t) (filterRange (Backend.run f g)) := by
  refine ⟨fun s w hw hs => ?_⟩
  have := (run_gives h1 h2).run s.be w hw hs
  unfold Leaves at this ⊢
  unfold filterRange
  cases hp : Backend.run f g s.be w <;> rw [hp] at this <;> exact this

theorem filterSentinel_holds {f : Prog (Packed V) Ptr} {g : Prog (Split V) Ptr} (h1 : Hold (PLim E t) f) (h2 : Hold (SpLim E t) g) :
    Hold (SLim E t) (filterSentinel (Backend.run f g)) := by
  refine ⟨fun s w hw hs => ?_⟩
  have := (run_gives h1 h2).run s.be w hw hs
  unfold Leaves at this ⊢
  unfold filterSentinel
  cases hp : Backend.run f g s.be w <;> rw [hp] at this <;> exact this

theorem reserve_holds (n : Nat) : Hold (SLim E t) (reserve E n) := filterSentinel_holds (Packed.reserve_holds n) (Split.reserve_holds n)
theorem shrinkToFit_holds : Hold (SLim E t) (shrinkToFit E) := filterSentinel_holds Packed.shrinkToFit_holds Split.shrinkToFit_holds
theorem emplace_holds (p : PosArg) (src : Src V) : Hold (SLim E t) (emplace E p src) := filterRange_holds (Packed.emplaceAt_holds _ _) (Split.emplaceAt_holds _ _)
theorem pushBack_holds (src : Src V) : Hold (SLim E t) (pushBack E src) := filterRange_holds (Packed.pushBack_holds _) (Split.pushBack_holds _)
theorem insertBase_holds (p : Ptr) (src : Src V) : Hold (SLim E t) (insertBase E p src) :=
  filterRange_holds (Packed.emplaceAt_holds _ _) (Gives.bind_get fun _ _ => Gives.seq Hold.ofOption fun _ => Split.emplaceAt_holds _ _)
theorem insertLocal_holds (p : Ptr) (src : Src V) : Hold (SLim E t) (insertLocal E p src) :=
  filterRange_holds (Packed.emplaceAt_holds _ _) (Split.emplaceAt_holds _ _)
theorem insertRangeLocal_holds (fwd : Bool) (p : Ptr) (srcs : List (Src V)) : Hold (SLim E t) (insertRangeLocal E fwd p srcs) :=
  filterRange_holds (Packed.insertRange_holds _ _ _) (Gives.ite (fun _ => Split.insertForward_holds _ _) fun _ => Split.insertInput_holds _ _)
theorem insertRangeEnd_holds (fwd : Bool) (srcs : List (Src V)) : Hold (SLim E t) (insertRangeEnd E fwd srcs) :=
  filterRange_holds (Packed.insertRangeEnd_holds _ _)
    (Gives.bind_get fun _ _ => Gives.ite (fun _ => Split.insertForward_holds _ _) fun _ => Split.insertInput_holds _ _)
theorem insertRangeBase_holds (fwd : Bool) (p : Ptr) (srcs : List (Src V)) : Hold (SLim E t) (insertRangeBase E fwd p srcs) :=
  Gives.bind_get fun _ _ => Gives.seq Hold.ofOption fun _ => insertRangeLocal_holds _ _ _
theorem eraseBase_holds (p : Ptr) : Hold (SLim E t) (eraseBase E p) :=
  filterRange_holds (Packed.erase_holds _) (Gives.bind_get fun _ _ => Gives.seq Hold.ofOption fun _ => Split.erase_holds _)
theorem eraseLocal_holds (p : Ptr) : Hold (SLim E t) (eraseLocal E p) := filterRange_holds (Packed.erase_holds _) (Split.erase_holds _)
theorem eraseRangeBase_holds (p q : Ptr) : Hold (SLim E t) (eraseRangeBase E p q) :=
  filterRange_holds (Packed.eraseRange_holds _ _)
    (Gives.bind_get fun _ _ => Gives.seq Hold.ofOption fun _ => Gives.seq Hold.ofOption fun _ => Split.eraseRange_holds _ _)
theorem eraseRangeLocal_holds (p q : Ptr) : Hold (SLim E t) (eraseRangeLocal E p q) := filterRange_holds (Packed.eraseRange_holds _ _) (Split.eraseRange_holds _ _)
theorem eraseTillEnd_holds (p : Ptr) : Hold (SLim E t) (eraseTillEnd E p) := filterRange_holds (Packed.eraseTillEnd_holds _) (Split.eraseTillEnd_holds _)
theorem eraseFromBegin_holds (p : Ptr) : Hold (SLim E t) (eraseFromBegin E p) := filterRange_holds (Packed.eraseFromBegin_holds _) (Split.eraseFromBegin_holds _)
theorem clear_holds : Hold (SLim E t) (clear : Prog (Seg V) Unit) := filterSentinel_holds Packed.clear_holds Split.clear_holds

theorem make_gives {X : Type} {I : X → Prop} (k : Kind) (al : Alloc) : Gives I (SLim E t) (make E k t al) := by
  cases k with
  | packed => exact Gives.bind (Packed.make_gives al) fun _ h => Gives.pure h
  | split => exact Gives.bind (Split.make_gives al) fun _ h => Gives.pure h
theorem copyAl_gives {X : Type} {I : X → Prop} {x : Seg V} (hx : SLim E t x) (al : Alloc) : Gives I (SLim E t) (copyAl E x al) := by
  obtain ⟨b, snt⟩ := x
  cases b with
  | packed x => exact Gives.bind (Packed.copyAl_gives hx al) fun _ h => Gives.pure h
  | split x => exact Gives.bind (Split.copyAl_gives hx al) fun _ h => Gives.pure h
theorem moveAl_gives (al : Alloc) : Gives (SLim E t) (SLim E t) (moveAl E al) :=
  Gives.zoom (BLim E t) (run_gives (Gives.bind (Packed.move_gives al) fun _ h => Gives.pure h) (Gives.bind (Split.move_gives al) fun _ h => Gives.pure h))
    (fun _ h => h) (fun _ _ _ h => h)

theorem modify_lim {b b' : Backend V} {o : Coll.Sort'} {p : Ptr} {f : V → V} (hb : BLim E t b) (h : b.modify o p f = some b') : BLim E t b' := by
  unfold Backend.modify at h
  simp only [Option.bind_eq_some_iff, Option.map_eq_some_iff] at h
  obtain ⟨q, -, v, hv, rfl⟩ := h
  unfold Vec.modify at hv
  split at hv
  · injection hv with hv
    subst hv
    cases b with
    | packed x => exact ⟨hb.1, hb.2.elems (by rw [List.length_modify]; exact hb.2.size)⟩
    | split x => exact ⟨hb.1, hb.2.1.elems (by rw [List.length_modify]; exact hb.2.1.size), hb.2.2⟩
  · cases hv

theorem apply_holds (o : Coll.Sort') (p : Ptr) (a : Act V) : Hold (SLim E t) (Seg.apply E o p a) := by
  unfold Seg.apply
  refine Gives.bind_get fun s hs => Gives.seq Hold.ofOption fun q => Gives.seq Hold.ofOption fun v => ?_
  refine Gives.bind (Hold.ofOptionGives (Q := BLim E t) fun b h => modify_lim hs h) fun ok h1 => ?_
  refine Gives.bind (Hold.ofOptionGives (Q := BLim E t) fun b h => modify_lim hs h) fun bad h2 => ?_
  exact Gives.seq (Gives.onExc (Gives.seq Hold.userOp fun _ => Gives.set h1) (Gives.set h2)) fun _ => Hold.pure

theorem rebind_holds (p r : Ptr) : Hold (SLim E t) (Seg.rebind p r : Prog (Seg V) Unit) := by
  unfold Seg.rebind
  refine Gives.bind_get fun s hs => ?_
  refine Gives.bind (Hold.ofOptionGives (Q := BLim E t) fun b h => ?_) fun b h1 => Gives.set h1
  obtain ⟨be, snt⟩ := s
  cases be with
  | packed x => simp [Backend.setEntry] at h
  | split x =>
    simp only [Backend.setEntry, Option.map_eq_some_iff] at h
    obtain ⟨i, hi, rfl⟩ := h
    unfold Vec.modify at hi
    split at hi
    · injection hi with hi
      subst hi
      obtain ⟨h1, h2, h3⟩ := hs
      exact ⟨h1, h2, h3.elems (by rw [List.length_modify]; exact h3.size)⟩
    · cases hi

end Seg

/-- A segment within limits. -/
def SegLim (E : Env V) (s : Seg V) : Prop := SLim E s.ty s

theorem SLim.ty {s : Seg V} (h : SLim E t s) : s.ty = t := by
  obtain ⟨b, snt⟩ := s
  cases b <;> exact h.1

theorem SLim.seg {s : Seg V} (h : SLim E t s) : SegLim E s := by unfold SegLim; rw [h.ty]; exact h

theorem Gives.seg {α : Type} {Q : α → Prop} {p : Prog (Seg V) α} (h : ∀ t, Gives (SLim E t) Q p) : Gives (SegLim E) Q p :=
  ⟨fun s w hw hs => ((h s.ty).run s w hw hs).mono (fun _ _ _ g => ⟨g.1, g.2.1.seg, g.2.2⟩) (fun _ _ _ g => ⟨g.1, g.2.seg⟩)⟩

namespace TMap

/-- All segments are within limits. -/
def NLim (E : Env V) (l : List (Node V)) : Prop := ∀ n ∈ l, SegLim E n.seg
def Lim (E : Env V) (m : TMap V) : Prop := NLim E m.nodes

theorem NLim.perm {l l' : List (Node V)} (h : NLim E l) (hp : l'.Perm l) : NLim E l' := fun n hn => h n (hp.mem_iff.1 hn)

theorem onSeg_holds {α : Type} (it : MapIt) {p : Prog (Seg V) α} (hp : ∀ t, Hold (SLim E t) p) : Hold (Lim E) (onSeg E it p) := by
  refine ⟨fun m w hw hm => ?_⟩
  unfold Leaves onSeg
  cases hn : m.node? E it with
  | none => trivial
  | some n =>
    have hmem : n ∈ m.nodes := by
      unfold TMap.node? at hn
      split at hn
      · split at hn
        · exact List.mem_of_find?_eq_some hn
        · simp at hn
      · simp at hn
    have h1 := (Gives.seg hp).run n.seg w hw (hm n hmem)
    unfold Leaves at h1
    have key : ∀ s : Seg V, SegLim E s → NLim E (m.nodes.map fun k => if k.id = n.id then { k with seg := s } else k) := by
      intro s hs k hk
      obtain ⟨k', hk', rfl⟩ := List.mem_map.1 hk
      split
      · exact hs
      · exact hm k' hk'
    simp only
    cases hps : p n.seg w with
    | ub => trivial
    | ok a s w' => rw [hps] at h1; exact ⟨h1.1, key s h1.2.1, trivial⟩
    | exc a s w' => rw [hps] at h1; exact ⟨h1.1, key s h1.2⟩

theorem go_holds {p : Prog (Seg V) Unit} (hp : ∀ t, Hold (SLim E t) p) : Hold (NLim E) (onAll.go p) := by
  have : ∀ (l : List (Node V)) w, 0 < w.next → NLim E l → Leaves (onAll.go p) l w (fun _ x' w' => 0 < w'.next ∧ NLim E x' ∧ True) (fun _ x' w' => 0 < w'.next ∧ NLim E x') := by
    intro l
    induction l with
    | nil => intro w hw h; exact ⟨hw, h, trivial⟩
    | cons n ns ih =>
      intro w hw h
      have h1 := (Gives.seg hp).run n.seg w hw (h n (by simp))
      have hns : NLim E ns := fun k hk => h k (by simp [hk])
      unfold Leaves at h1 ⊢
      unfold onAll.go
      have key : ∀ (s : Seg V) (l : List (Node V)), SegLim E s → NLim E l → NLim E ({ n with seg := s } :: l) := by
        intro s l hs hl k hk
        rcases List.mem_cons.1 hk with rfl | hk
        · exact hs
        · exact hl k hk
      cases hps : p n.seg w with
      | ub => trivial
      | exc a s w' => rw [hps] at h1; exact ⟨h1.1, key s ns h1.2 hns⟩
      | ok a s w' =>
        rw [hps] at h1
        have h2 := ih w' h1.1 hns
        unfold Leaves at h2
        simp only
        cases hg : onAll.go p ns w' with
        | ub => trivial
        | ok a l w'' => rw [hg] at h2; exact ⟨h2.1, key s l h1.2.1 h2.2.1, trivial⟩
        | exc a l w'' => rw [hg] at h2; exact ⟨h2.1, key s l h1.2.1 h2.2⟩
  exact ⟨this⟩

theorem onAll_holds {p : Prog (Seg V) Unit} (hp : ∀ t, Hold (SLim E t) p) : Hold (Lim E) (onAll p) :=
  Gives.zoom (NLim E) (go_holds hp) (fun _ h => h) (fun _ _ _ h => h)

theorem cacheInsert_holds (key : TI) (it : MapIt) : Hold (Lim E) (cacheInsert E key it) := by
  refine Gives.bind_get fun m hm => ?_
  split
  · exact Hold.pure
  · exact Gives.seq Hold.alloc fun _ => Gives.set hm

theorem find_holds (key : TI) : Hold (Lim E) (find E key) := by
  refine Gives.bind_get fun m hm => ?_
  split
  · exact Hold.pure
  · exact Gives.ite (fun _ => Gives.seq (cacheInsert_holds _ _) fun _ => Hold.pure) fun _ => Hold.pure

theorem rebuildCache_holds : Hold (Lim E) (rebuildCache E) := Gives.bind_get fun _ hm => Gives.set hm

theorem mapEmplace_holds (key : TI) {x : Seg V} (hx : SegLim E x) : Hold (Lim E) (mapEmplace E key x) := by
  unfold mapEmplace
  refine Gives.bind_get fun m hm => ?_
  refine Gives.bind (R := fun r : Nat × Seg V => SegLim E r.2) (Gives.locally (SegLim E) (R := fun r : Nat × Seg V => SegLim E r.2) ?_ hx (fun _ _ h _ => h)) fun r hr => ?_
  · refine Gives.seq Hold.alloc fun i => Gives.bind (R := SegLim E) ?_ fun s hs => Gives.pure hs
    exact Gives.seg fun t => (Seg.moveAl_gives _).mono fun _ h => h.seg
  · obtain ⟨i, s⟩ := r
    simp only
    split
    · exact Hold.pure
    · refine Gives.seq Hold.world fun w => ?_
      have key2 : ∀ (c g : Nat), Hold (Lim E) (do
          Prog.set { m with nodes := E.shuffle w.tick (m.nodes ++ [⟨i, key, s⟩]), buckets := c, gen := g }
          return ⟨some i, g⟩ : Prog (TMap V) MapIt) := by
        intro c g
        refine Gives.seq (Gives.set ?_) fun _ => Hold.pure
        refine NLim.perm (l := m.nodes ++ [⟨i, key, s⟩]) ?_ (E.shuffle_perm _ _)
        intro n hn
        rcases List.mem_append.1 hn with h | h
        · exact hm n h
        · rw [List.mem_singleton.1 h]; exact hr
      exact Gives.ite (fun _ => Gives.seq Hold.alloc fun _ => key2 _ _) fun _ => key2 _ _

theorem insert_holds (key : TI) {x : Seg V} (hx : SegLim E x) : Hold (Lim E) (insert E key x) := by
  unfold insert
  refine Gives.bind_get fun m _ => Gives.seq (mapEmplace_holds key hx) fun p => Gives.bind_get fun m' _ => ?_
  exact Gives.ite (fun _ => Gives.seq rebuildCache_holds fun _ => Gives.seq (cacheInsert_holds _ _) fun _ => Hold.pure) fun _ =>
    Gives.seq (cacheInsert_holds _ _) fun _ => Hold.pure

theorem buildCache_holds (c : List (TI × MapIt)) : Hold (Lim E) (buildCache E c) :=
  Hold.each fun _ => Gives.bind_get fun _ _ => cacheInsert_holds _ _

theorem copyNodes_gives {X : Type} {I : X → Prop} (al : Alloc) : ∀ {l : List (Node V)}, NLim E l → Gives I (NLim E) (copyNodes E al l)
  | [], _ => Gives.pure (fun _ h => by simp at h)
  | n :: ns, h => by
    refine Gives.seq Hold.alloc fun i => Gives.bind (Seg.copyAl_gives (h n (by simp)) al) fun s hs => ?_
    refine Gives.bind (copyNodes_gives al (l := ns) fun k hk => h k (by simp [hk])) fun r hr => Gives.pure ?_
    intro k hk
    rcases List.mem_cons.1 hk with rfl | hk
    · exact hs.seg
    · exact hr k hk

theorem build_gives {X : Type} {I : X → Prop} {m : TMap V} {p : Prog (TMap V) Unit} (hm : Lim E m) (hp : Hold (Lim E) p) : Gives I (Lim E) (build m p) :=
  Gives.locally (Lim E) hp hm fun _ _ _ h => h

theorem copyAl_gives {X : Type} {I : X → Prop} {x : TMap V} (hx : Lim E x) (al : Alloc) : Gives I (Lim E) (copyAl E x al) :=
  Gives.bind (copyNodes_gives al hx) fun ns hn => Gives.seq Hold.world fun w =>
    build_gives (show Lim E ⟨E.shuffle w.tick ns, x.buckets, 0, al, []⟩ from NLim.perm hn (E.shuffle_perm _ _)) (buildCache_holds _)

theorem move_gives : Gives (Lim E) (Lim E) (move : Prog (TMap V) (TMap V)) :=
  Gives.bind_get fun _ hx => Gives.seq (Gives.set (fun _ h => by simp [mk'] at h)) fun _ => Gives.pure hx

theorem moveNodes_gives (al : Alloc) : Gives (NLim E) (NLim E) (moveNodes E al) := by
  have step : Gives (SegLim E) (fun r : Nat × Seg V => SegLim E r.2) (do let i ← E.alloc; let s ← Seg.moveAl E al; return (i, s) : Prog (Seg V) (Nat × Seg V)) := by
    refine Gives.seq Hold.alloc fun i => Gives.bind (R := SegLim E) ?_ fun s hs => Gives.pure hs
    exact Gives.seg fun t => (Seg.moveAl_gives _).mono fun _ h => h.seg
  have : ∀ (l : List (Node V)) w, 0 < w.next → NLim E l → Leaves (moveNodes E al) l w (fun r x' w' => 0 < w'.next ∧ NLim E x' ∧ NLim E r) (fun _ x' w' => 0 < w'.next ∧ NLim E x') := by
    intro l
    induction l with
    | nil => intro w hw h; exact ⟨hw, h, h⟩
    | cons n ns ih =>
      intro w hw h
      have h1 := step.run n.seg w hw (h n (by simp))
      have hns : NLim E ns := fun k hk => h k (by simp [hk])
      have key : ∀ (a : Node V) (l : List (Node V)), SegLim E a.seg → NLim E l → NLim E (a :: l) := by
        intro a l hs hl k hk
        rcases List.mem_cons.1 hk with rfl | hk
        · exact hs
        · exact hl k hk
      unfold Leaves at h1 ⊢
      unfold moveNodes
      cases hps : (do let i ← E.alloc; let s ← Seg.moveAl E al; return (i, s) : Prog (Seg V) (Nat × Seg V)) n.seg w with
      | ub => trivial
      | exc a s w' => rw [hps] at h1; exact ⟨h1.1, key _ ns h1.2 hns⟩
      | ok a s w' =>
        rw [hps] at h1
        have h2 := ih w' h1.1 hns
        unfold Leaves at h2
        simp only
        cases hg : moveNodes E al ns w' with
        | ub => trivial
        | ok r l w'' => rw [hg] at h2; exact ⟨h2.1, key _ l h1.2.1 h2.2.1, key _ r h1.2.2 h2.2.2⟩
        | exc r l w'' => rw [hg] at h2; exact ⟨h2.1, key _ l h1.2.1 h2.2⟩
  exact ⟨this⟩

theorem clearAll_holds : Hold (Lim E) (clearAll : Prog (TMap V) Unit) := Gives.bind_get fun _ _ => Gives.set (fun _ h => by simp at h)

theorem lim_nil {l : List (Node V)} (h : l = []) : NLim E l := by subst h; intro _ h; simp at h

theorem moveAl_gives (al : Alloc) : Gives (Lim E) (Lim E) (moveAl E al) := by
  unfold moveAl
  refine Gives.bind_get fun x hx => Gives.ite (fun _ => Gives.seq (Gives.set (lim_nil rfl)) fun _ => Gives.pure hx) fun _ => ?_
  refine Gives.bind (Gives.zoom (NLim E) (moveNodes_gives al) (fun _ h => h) (fun _ _ _ h => h)) fun ns hn => Gives.seq Hold.world fun w => ?_
  exact Gives.bind (build_gives (show Lim E ⟨E.shuffle w.tick ns, x.buckets, 0, al, []⟩ from NLim.perm hn (E.shuffle_perm _ _)) (buildCache_holds _)) fun m hm =>
    Gives.seq clearAll_holds fun _ => Gives.pure hm

theorem assign_holds {x : TMap V} (hx : Lim E x) : Hold (Lim E) (assign E x) := by
  refine Gives.onExc ?_ clearAll_holds
  unfold assignBody
  refine Gives.bind_get fun m _ => Gives.seq (Gives.set (lim_nil rfl)) fun _ => Gives.bind (copyNodes_gives _ hx) fun ns hn => Gives.seq Hold.world fun w => ?_
  exact Gives.seq (Gives.set (show Lim E _ from NLim.perm hn (E.shuffle_perm _ _))) fun _ => buildCache_holds _

/-- Both maps are within limits. -/
def Lim2 (E : Env V) (p : TMap V × TMap V) : Prop := Lim E p.1 ∧ Lim E p.2

theorem moveAssign_holds : Hold (Lim2 E) (moveAssign E) := by
  unfold moveAssign
  refine Gives.onExc (Gives.bind_get fun p hp => ?_) (Gives.seq (Gives.zoom (Lim E) clearAll_holds (fun _ h => h.1) (fun _ _ h h' => ⟨h', h.2⟩)) fun _ =>
    Gives.zoom (Lim E) clearAll_holds (fun _ h => h.2) (fun _ _ h h' => ⟨h.1, h'⟩))
  obtain ⟨m, x⟩ := p
  refine Gives.ite (fun _ => Gives.set ⟨hp.2, lim_nil rfl⟩) fun _ => Gives.seq (Gives.set ⟨lim_nil rfl, hp.2⟩) fun _ => ?_
  refine Gives.bind (Gives.zoom (NLim E) (moveNodes_gives _) (fun _ h => h.2) (fun _ _ h h' => ⟨h.1, h'⟩)) fun ns hn => Gives.seq Hold.world fun w => ?_
  refine Gives.bind_get fun y hy => Gives.seq (Gives.set ⟨show NLim E _ from NLim.perm hn (E.shuffle_perm _ _), lim_nil rfl⟩) fun _ => ?_
  exact Gives.seq (Gives.zoom (Lim E) (buildCache_holds _) (fun _ h => h.1) (fun _ _ h h' => ⟨h', h.2⟩)) fun _ => Gives.bind_get fun z hz => Gives.set ⟨hz.1, hz.2⟩

theorem swap_holds : Hold (Lim2 E) (swap E) := by
  refine Gives.bind_get fun p hp => ?_
  obtain ⟨m, x⟩ := p
  exact Gives.ite (fun _ => Gives.set ⟨hp.2, hp.1⟩) fun _ => Gives.undef

end TMap
namespace Coll

/-- All vectors of the collection are within limits. -/
def Lim (E : Env V) (c : Coll V) : Prop := c.map.Lim E

theorem onMap_gives {α : Type} {Q : α → Prop} {p : Prog (TMap V) α} (h : Gives (TMap.Lim E) Q p) : Gives (Lim E) Q (onMap p) :=
  Gives.zoom (TMap.Lim E) h (fun _ h => h) (fun _ _ _ h => h)

theorem onSeg_holds {α : Type} (it : MapIt) {p : Prog (Seg V) α} (hp : ∀ t, Hold (SLim E t) p) : Hold (Lim E) (onMap (TMap.onSeg E it p)) :=
  onMap_gives (TMap.onSeg_holds it hp)

theorem onAll_holds {p : Prog (Seg V) Unit} (hp : ∀ t, Hold (SLim E t) p) : Hold (Lim E) (onMap (TMap.onAll p)) :=
  onMap_gives (TMap.onAll_holds hp)

theorem find_holds (t : TI) : Hold (Lim E) (onMap (TMap.find E t)) := onMap_gives (TMap.find_holds t)

theorem downcast_holds {α : Type} {u : Ty} (t : Ty) {p : Prog (Seg V) α} (hp : Hold (SLim E u) p) : Hold (SLim E u) (downcast t p) :=
  Gives.bind_get fun _ _ => Gives.ite (fun _ => hp) fun _ => Gives.undef

theorem insertNew_holds (t : TI) : Hold (Lim E) (insertNew E t) :=
  Gives.bind_get fun _ _ => Gives.bind (Seg.make_gives _ _) fun _ hs => onMap_gives (TMap.insert_holds t hs.seg)

end Coll

macro_rules | `(tactic| hstep) => `(tactic| with_reducible apply Coll.onSeg_holds)
macro_rules | `(tactic| hstep) => `(tactic| with_reducible apply Coll.onAll_holds)
macro_rules | `(tactic| hstep) => `(tactic| with_reducible exact Coll.find_holds _)
macro_rules | `(tactic| hstep) => `(tactic| with_reducible apply Coll.downcast_holds)
macro_rules | `(tactic| hstep) => `(tactic| with_reducible exact Coll.insertNew_holds _)
macro_rules | `(tactic| hstep) => `(tactic| with_reducible exact Seg.reserve_holds _)
macro_rules | `(tactic| hstep) => `(tactic| with_reducible exact Seg.shrinkToFit_holds)
macro_rules | `(tactic| hstep) => `(tactic| with_reducible exact Seg.emplace_holds _ _)
macro_rules | `(tactic| hstep) => `(tactic| with_reducible exact Seg.pushBack_holds _)
macro_rules | `(tactic| hstep) => `(tactic| with_reducible exact Seg.insertBase_holds _ _)
macro_rules | `(tactic| hstep) => `(tactic| with_reducible exact Seg.insertLocal_holds _ _)
macro_rules | `(tactic| hstep) => `(tactic| with_reducible exact Seg.insertRangeLocal_holds _ _ _)
macro_rules | `(tactic| hstep) => `(tactic| with_reducible exact Seg.insertRangeEnd_holds _ _)
macro_rules | `(tactic| hstep) => `(tactic| with_reducible exact Seg.insertRangeBase_holds _ _ _)
macro_rules | `(tactic| hstep) => `(tactic| with_reducible exact Seg.eraseBase_holds _)
macro_rules | `(tactic| hstep) => `(tactic| with_reducible exact Seg.eraseLocal_holds _)
macro_rules | `(tactic| hstep) => `(tactic| with_reducible exact Seg.eraseRangeBase_holds _ _)
macro_rules | `(tactic| hstep) => `(tactic| with_reducible exact Seg.eraseRangeLocal_holds _ _)
macro_rules | `(tactic| hstep) => `(tactic| with_reducible exact Seg.eraseTillEnd_holds _)
macro_rules | `(tactic| hstep) => `(tactic| with_reducible exact Seg.eraseFromBegin_holds _)
macro_rules | `(tactic| hstep) => `(tactic| with_reducible exact Seg.clear_holds)
macro_rules | `(tactic| hstep) => `(tactic| with_reducible exact Seg.apply_holds _ _ _)
macro_rules | `(tactic| hstep) => `(tactic| with_reducible exact Seg.rebind_holds _ _)

namespace Coll

theorem forInfo_holds (t : TI) : Hold (Lim E) (forInfo E t) := by unfold forInfo; holds
theorem retIter_holds (it : MapIt) (p : Ptr) : Hold (Lim E) (retIter E it p) := by unfold retIter; holds
theorem retIterEnd_holds (it e : MapIt) (p : Ptr) : Hold (Lim E) (retIterEnd E it e p) := by unfold retIterEnd; holds
theorem forT_holds (t : TI) : Hold (Lim E) (forT E t) := by unfold forT; holds
theorem forProto_holds (id : TI) (s : Seg V) : Hold (Lim E) (forProto E id s) :=
  Gives.seq (find_holds id) fun _ => Gives.ite (fun _ => Hold.pure) fun _ => Gives.bind_get fun _ _ => Gives.bind (Seg.make_gives _ _) fun _ hs =>
    onMap_gives (TMap.insert_holds id hs.seg)
theorem forArg_holds (a : Arg V) : Hold (Lim E) (forArg E a) := by
  unfold forArg
  refine Gives.ite (fun _ => Gives.ite (fun _ => forT_holds _) fun _ => ?_) fun _ => by holds
  exact Gives.seq (find_holds _) fun _ => Gives.ite (fun _ => Hold.pure) fun _ => Gives.ite (fun _ => Gives.raise) fun _ => insertNew_holds _
theorem registerTypes_holds (ts : List TI) : Hold (Lim E) (registerTypes E ts) := by
  induction ts with
  | nil => exact Hold.pure'
  | cons t ts ih => exact Gives.seq (insertNew_holds t) fun _ => ih

end Coll

macro_rules | `(tactic| hstep) => `(tactic| with_reducible exact Coll.forInfo_holds _)
macro_rules | `(tactic| hstep) => `(tactic| with_reducible exact Coll.retIter_holds _ _)
macro_rules | `(tactic| hstep) => `(tactic| with_reducible exact Coll.retIterEnd_holds _ _ _)
macro_rules | `(tactic| hstep) => `(tactic| with_reducible exact Coll.forT_holds _)
macro_rules | `(tactic| hstep) => `(tactic| with_reducible exact Coll.forProto_holds _ _)
macro_rules | `(tactic| hstep) => `(tactic| with_reducible exact Coll.forArg_holds _)

namespace Coll

theorem insert_holds (a : Arg V) : Hold (Lim E) (insert E a) := by unfold insert pushBackArg; holds
theorem insertRange_holds (as : List (Arg V)) : Hold (Lim E) (insertRange E as) := by
  induction as with
  | nil => exact Hold.pure'
  | cons a as ih => exact Gives.seq (insert_holds a) fun _ => ih
theorem insertFrom_holds (xs : List (Item V)) : Hold (Lim E) (insertFrom E xs) := by
  induction xs with
  | nil => exact Hold.pure'
  | cons x xs ih => exact Gives.seq (forProto_holds _ _) fun _ => Gives.seq (by holds) fun _ => ih
theorem hintStep_holds (h : GIter) (it : MapIt) (t : Ty) (src : Src V) : Hold (Lim E) (hintStep E h it t src) := by unfold hintStep; holds
theorem insertHintRange_holds (as : List (Arg V)) : ∀ h, Hold (Lim E) (insertHintRange E h as) := by
  induction as with
  | nil => intro h; exact Hold.pure'
  | cons a as ih => intro h; exact Gives.seq (forArg_holds a) fun _ => Gives.seq (hintStep_holds _ _ _ _) fun _ => ih _
theorem insertHintFrom_holds (xs : List (Item V)) : ∀ h, Hold (Lim E) (insertHintFrom E h xs) := by
  induction xs with
  | nil => intro h; exact Hold.pure'
  | cons x xs ih => intro h; exact Gives.seq (forProto_holds _ _) fun _ => Gives.seq (hintStep_holds _ _ _ _) fun _ => ih _
theorem hintLoop_holds (it : MapIt) (t : Ty) (vs : List V) : ∀ h, Hold (Lim E) (hintLoop E h it t vs) := by
  induction vs with
  | nil => intro h; exact Hold.pure'
  | cons v vs ih => intro h; exact Gives.seq (hintStep_holds _ _ _ _) fun _ => ih _
theorem insertHintFromLocal_holds (h : GIter) (id : TI) (s : Seg V) (vs : List V) : Hold (Lim E) (insertHintFromLocal E h id s vs) := by
  unfold insertHintFromLocal
  exact Gives.ite (fun _ => Hold.pure) fun _ => Gives.seq (forProto_holds _ _) fun _ => hintLoop_holds _ _ _ _
theorem posLoopBase_holds (it : MapIt) (as : List (Arg V)) : ∀ p, Hold (Lim E) (posLoopBase E it p as) := by
  induction as with
  | nil => intro p; exact Hold.pure'
  | cons a as ih => intro p; exact Gives.seq (by holds) fun _ => ih _
theorem posLoopLocal_holds (it : MapIt) (t : Ty) (srcs : List (Src V)) : ∀ p, Hold (Lim E) (posLoopLocal E it t p srcs) := by
  induction srcs with
  | nil => intro p; exact Hold.pure'
  | cons a as ih => intro p; exact Gives.seq (by holds) fun _ => Gives.bind_get fun _ _ => Gives.seq Hold.ofOption fun _ => ih _
theorem eraseSpan_holds (l e : MapIt) (p : Ptr) (n : Nat) : ∀ f, Hold (Lim E) (eraseSpan E f l e p n) := by
  induction n with
  | zero => intro f; exact Gives.undef
  | succ n ih =>
    intro f
    unfold eraseSpan
    repeat' (first | hstep | exact ih _ | intro _)

/-- Every operation keeps the vectors within limits. -/
theorem cop_holds (op : COp V) : Hold (Lim E) (op.run E) := by
  cases op <;> unfold COp.run <;> simp only
  case registerTypes ts => exact registerTypes_holds ts
  case lookup t => holds
  case reserveAll n => unfold reserveAll; holds
  case reserveInfo t n => unfold reserveInfo; holds
  case reserveT t n => unfold reserveT; holds
  case shrinkAll => unfold shrinkAll; holds
  case shrinkInfo t => unfold shrinkInfo; holds
  case emplace t src => unfold emplace; holds
  case emplaceHint h t src => unfold emplaceHint; holds
  case emplacePosBase p t src => unfold emplacePosBase; holds
  case emplacePosLocal p t src => unfold emplacePosLocal; holds
  case insert a => exact Gives.drop (insert_holds a)
  case insertHint h a => unfold insertHint pushBackArg; holds
  case insertPosBase p a => unfold insertPosBase; holds
  case insertPosLocal p a => unfold insertPosLocal; holds
  case insertRange as => exact insertRange_holds as
  case insertRangeTerminal f t srcs => unfold insertRangeTerminal; holds
  case insertHintRange h as => exact Gives.drop (insertHintRange_holds as h)
  case insertHintRangeTerminal h f t srcs => unfold insertHintRangeTerminal; holds
  case insertPosRangeBase p as =>
    exact Gives.drop (Gives.seq (posLoopBase_holds _ as _) fun _ => Gives.ite (fun _ => Gives.undef) fun _ => Hold.pure)
  case insertPosRangeLocal p t srcs =>
    exact Gives.drop (Gives.seq (posLoopLocal_holds _ _ srcs _) fun _ => Gives.ite (fun _ => Gives.undef) fun _ => Hold.pure)
  case erase p => unfold erase; holds
  case eraseLocalBase p => unfold eraseLocalBase; holds
  case eraseLocal p => unfold eraseLocal; holds
  case eraseRange p q =>
    unfold eraseRange
    repeat' (first | hstep | exact eraseSpan_holds _ _ _ _ _ | intro _)
  case eraseLocalRangeBase p q => unfold eraseLocalRangeBase; holds
  case eraseLocalRange p q => unfold eraseLocalRange; holds
  case clearAll => unfold clearAll; holds
  case clearInfo t => unfold clearInfo; holds
  case apply o p a => unfold Coll.apply; holds
  case rebind p q => unfold Coll.rebind; holds

/-- All collections of a program. -/
def SysLim (E : Env V) (s : Sys V) : Prop := ∀ i, Lim E (s i)

theorem SysLim.put {s : Sys V} (h : SysLim E s) (i : Nat) {c : Coll V} (hc : Lim E c) : SysLim E (s.put i c) := by
  intro j
  unfold Sys.put
  split
  · exact hc
  · exact h j

theorem on_gives {α : Type} {Q : α → Prop} (i : Nat) {p : Prog (Coll V) α} (h : Gives (Lim E) Q p) : Gives (SysLim E) Q (Sys.on i p) :=
  Gives.zoom (Lim E) h (fun _ h => h i) (fun _ _ h h' => h.put i h')

theorem construct_holds (i : Nat) {p : Prog (Sys V) (Coll V)} (h : Gives (SysLim E) (Lim E) p) : Hold (SysLim E) (Sys.construct i p) :=
  Gives.bind h fun _ hc => Gives.bind_get fun _ hs => Gives.set (hs.put i hc)

theorem on2_holds (i j : Nat) {p : Prog (TMap V × TMap V) Unit} (h : Hold (TMap.Lim2 E) p) : Hold (SysLim E) (Sys.on2 i j (onMaps p)) := by
  refine Gives.zoom (fun c : Coll V × Coll V => Lim E c.1 ∧ Lim E c.2) (Gives.zoom (TMap.Lim2 E) h (fun _ h => h) (fun _ _ _ h => h)) (fun _ h => ⟨h i, h j⟩) ?_
  exact fun _ _ h h' => (h.put i h'.1).put j h'.2

/-- Every operation of a program keeps the vectors within limits. -/
theorem op_holds (k : Kind) (sub : Ty → TI) (op : Op V) : Hold (SysLim E) (op.run E k sub) := by
  have empty : ∀ al, Lim E (empty' k al : Coll V) := fun al n h => by simp [empty', TMap.mk'] at h
  have items : ∀ (c : Coll V) (f l : GIter), Hold (Lim E) (insertColl E sub c f l) := fun c f l => Gives.seq Hold.ofOption fun _ => insertFrom_holds _
  have litems : ∀ (c : Coll V) (f l : LIter), Hold (Lim E) (insertLocalColl E sub c f l) := fun c f l => by
    refine Gives.seq Hold.ofOption fun _ => ?_
    unfold insertFromLocal
    holds
  cases op <;> unfold Op.run <;> simp only
  case on i op => exact on_gives i (cop_holds op)
  case create i al => exact construct_holds i (Gives.pure (empty al))
  case fromRange i al as => exact construct_holds i (Gives.locally (Lim E) (insertRange_holds as) (empty al) fun _ _ _ h => h)
  case fromTerminal i al fwd t srcs => exact construct_holds i (Gives.locally (Lim E) (cop_holds (.insertRangeTerminal fwd t srcs)) (empty al) fun _ _ _ h => h)
  case fromColl i j al f l =>
    exact Gives.bind_get fun s hs => Gives.ite (fun _ => Gives.undef) fun _ => construct_holds i (Gives.locally (Lim E) (items _ _ _) (empty al) fun _ _ _ h => h)
  case fromLocalColl i j al f l =>
    exact Gives.bind_get fun s hs => Gives.ite (fun _ => Gives.undef) fun _ => construct_holds i (Gives.locally (Lim E) (litems _ _ _) (empty al) fun _ _ _ h => h)
  case copy i j =>
    exact Gives.bind_get fun s hs => Gives.ite (fun _ => Gives.undef) fun _ => construct_holds i (Gives.bind (TMap.copyAl_gives (hs j) _) fun _ h => Gives.pure h)
  case copyAl i j al =>
    exact Gives.bind_get fun s hs => Gives.ite (fun _ => Gives.undef) fun _ => construct_holds i (Gives.bind (TMap.copyAl_gives (hs j) _) fun _ h => Gives.pure h)
  case move i j =>
    exact Gives.ite (fun _ => Gives.undef) fun _ => construct_holds i (on_gives j (Gives.bind (onMap_gives TMap.move_gives) fun _ h => Gives.bind_get fun _ _ => Gives.pure h))
  case moveAl i j al =>
    exact Gives.ite (fun _ => Gives.undef) fun _ => construct_holds i (on_gives j (Gives.bind (onMap_gives (TMap.moveAl_gives al)) fun _ h => Gives.bind_get fun _ _ => Gives.pure h))
  case assign i j => exact Gives.bind_get fun s hs => Gives.ite (fun _ => Hold.pure') fun _ => on_gives i (onMap_gives (TMap.assign_holds (hs j)))
  case moveAssign i j => exact Gives.ite (fun _ => Hold.pure') fun _ => on2_holds i j TMap.moveAssign_holds
  case swap i j => exact Gives.ite (fun _ => Hold.pure') fun _ => on2_holds i j TMap.swap_holds
  case insertColl i j f l => exact Gives.bind_get fun s hs => Gives.ite (fun _ => Gives.undef) fun _ => on_gives i (items _ _ _)
  case insertLocalColl i j f l => exact Gives.bind_get fun s hs => Gives.ite (fun _ => Gives.undef) fun _ => on_gives i (litems _ _ _)
  case insertHintColl i j h f l =>
    exact Gives.bind_get fun s hs => Gives.ite (fun _ => Gives.undef) fun _ => on_gives i (Gives.drop (Gives.seq Hold.ofOption fun _ => insertHintFrom_holds _ _))
  case insertHintLocalColl i j h f l =>
    exact Gives.bind_get fun s hs => Gives.ite (fun _ => Gives.undef) fun _ => on_gives i (Gives.drop (Gives.seq Hold.ofOption fun _ => insertHintFromLocal_holds _ _ _ _))

/-- Vectors are within limits at any time. -/
theorem reach_lim {k : Kind} {sub : Ty → TI} {ok : Arg V → Prop} {s : Sys V} {w : World} (h : Reach E k sub ok s w) : 0 < w.next ∧ SysLim E s := by
  induction h with
  | start al w hw => exact ⟨hw, by intro i n h; simp [empty', TMap.mk'] at h⟩
  | @ok s s' w w' h op ha hr ih => have := (op_holds k sub op).run s w ih.1 ih.2; unfold Leaves at this; rw [hr] at this; exact ⟨this.1, this.2.1⟩
  | @exc s s' w w' e h op ha hr ih => have := (op_holds k sub op).run s w ih.1 ih.2; unfold Leaves at this; rw [hr] at this; exact this

end Coll
end PolyColl
