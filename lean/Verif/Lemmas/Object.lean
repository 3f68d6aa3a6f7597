import Verif.Model.Object
import Verif.Lemmas.CollPos
import Verif.Lemmas.KeepsColl
/-!
# Inserting an object seen through a reference

The paths an argument takes are the ones of `Collection.lean`, for the object that the reference
designates.
-/

namespace PolyColl
open Prog

variable {V : Type} (E : Env V)

theorem Prog.bind_congr {X α β : Type} {p : Prog X α} {f g : α → Prog X β} {x : X} {w : World} {Q : α → X → World → Prop}
    {R : Exc → X → World → Prop} (h : Runs p x w Q R) (hfg : ∀ a x' w', Q a x' w' → f a x' w' = g a x' w') :
    (p >>= f) x w = (p >>= g) x w := by
  show Prog.bind p f x w = Prog.bind p g x w
  unfold Runs at h
  unfold Prog.bind
  cases hp : p x w with
  | ok a x' w' => rw [hp] at h; exact hfg a x' w' h
  | exc e x' w' => rfl
  | ub => rfl

theorem TMap.onSeg_congr {α : Type} {it : MapIt} {p q : Prog (Seg V) α} {m : TMap V} {w : World} {n : Node V}
    (hn : m.node? E it = some n) (h : p n.seg w = q n.seg w) : TMap.onSeg E it p m w = TMap.onSeg E it q m w := by
  simp only [TMap.onSeg, hn, h]

namespace Expr

/-- The object that an argument designates, by type and address: the complete object for
references to a base; the wrapped object for wrappers; else the argument itself. -/
def object (m : PModel) (x : Expr) : TI × Addr :=
  match m with
  | .base => (x.dyn, x.whole)
  | .function | .any => if x.erased then (x.dyn, x.whole) else (x.stat, x.addr)

/-- What the language says about an argument: a reference to a final class refers to a complete
object; a complete object of the type of the reference is at the address of the reference, and
wrappers do not wrap objects of their own type. -/
structure Wf (m : PModel) (x : Expr) : Prop where
  final : m = .base → x.final = true → E.tiTy x.dyn = E.tiTy x.stat
  whole : (m = .base ∨ x.erased = true) → E.tiTy x.dyn = E.tiTy x.stat → x.whole = x.addr

variable {m : PModel} {x : Expr}

theorem Wf.ty (h : x.Wf E m) : E.tiTy (x.subtypeid m) = E.tiTy (x.object m).1 := by
  cases m with
  | base =>
    simp only [subtypeid, object]
    split
    · exact (h.final rfl (by assumption)).symm
    · rfl
  | _ => simp only [subtypeid, object]; split <;> rfl

theorem Wf.addr (h : x.Wf E m) : x.subaddress m = (x.object m).2 := by
  cases m with
  | base =>
    simp only [subaddress, object]
    split
    · exact (h.whole (Or.inl rfl) (h.final rfl (by assumption))).symm
    · rfl
  | _ => simp only [subaddress, object]; split <;> rfl

theorem Wf.terminal (h : x.Wf E m) (ht : x.isTerminal m = true ∨ E.tiTy (x.subtypeid m) = E.tiTy x.stat) :
    E.tiTy (x.object m).1 = E.tiTy x.stat ∧ (x.object m).2 = x.addr := by
  cases m with
  | base =>
    have he : E.tiTy x.dyn = E.tiTy x.stat := by
      rcases ht with ht | ht
      · exact h.final rfl ht
      · rw [h.ty] at ht; exact ht
    exact ⟨he, h.whole (Or.inl rfl) he⟩
  | _ =>
    simp only [object, isTerminal, subtypeid] at ht ⊢
    cases he : x.erased with
    | false => simp
    | true =>
      simp only [he, if_true, Bool.not_true, Bool.false_eq_true, false_or] at ht ⊢
      exact ⟨ht, h.whole (Or.inr he) ht⟩

theorem Wf.ok (h : x.Wf E m) (src : Src V) : Coll.Arg.OK E (x.arg m src) := by
  intro ht
  exact (h.ty E).trans (h.terminal E (Or.inl ht)).1

end Expr

namespace Coll
variable {m : PModel} {mem : Mem V} {x : Expr} {src : Src V}

theorem pushBackVirtual_eq (hx : x.Wf E m) (hs : fetch mem (E.tiTy (x.object m).1) (x.object m).2 x.rvalue = some src)
    {it : MapIt} {c : Coll V} {n : Node V} (w : World) (hn : c.map.node? E it = some n) (ht : n.seg.ty = E.tiTy (x.subtypeid m)) :
    pushBackVirtual E m mem it x c w = pushBackArg E it (x.arg m src) c w := by
  unfold pushBackVirtual pushBackArg onMap Prog.zoom
  simp only
  rw [TMap.onSeg_congr E hn]
  show Prog.bind Prog.get _ n.seg w = downcast _ _ n.seg w
  simp only [downcast, Prog.bind, Prog.get, Expr.arg, ht, hx.addr, hx.ty, hs]
  simp [ht, hx.ty, Prog.ofOption, Bind.bind, Prog.bind, Prog.get, Prog.pure]

theorem pushBackTerminal_eq (hx : x.Wf E m) (hs : fetch mem (E.tiTy (x.object m).1) (x.object m).2 x.rvalue = some src)
    (hd : x.isTerminal m = true ∨ E.tiTy (x.subtypeid m) = E.tiTy x.stat) (it : MapIt) :
    pushBackTerminal E mem it x = pushBackArg E it (x.arg m src) := by
  obtain ⟨h1, h2⟩ := hx.terminal E hd
  unfold pushBackTerminal pushBackArg
  rw [← h1, ← h2, hs]
  simp only [Expr.arg, hx.ty]
  rfl

theorem pushBackExpr_eq (hx : x.Wf E m) (hs : fetch mem (E.tiTy (x.object m).1) (x.object m).2 x.rvalue = some src)
    {it : MapIt} {c : Coll V} {n : Node V} (w : World) (hn : c.map.node? E it = some n) (ht : n.seg.ty = E.tiTy (x.subtypeid m)) :
    pushBackExpr E m mem it x c w = pushBackArg E it (x.arg m src) c w := by
  unfold pushBackExpr
  split
  · split
    · rw [pushBackTerminal_eq E hx hs (Or.inl (by assumption))]
    · split
      · rw [pushBackTerminal_eq E hx hs (Or.inr (by assumption))]
      · exact pushBackVirtual_eq E hx hs w hn ht
  · exact pushBackVirtual_eq E hx hs w hn ht

theorem insertBaseVirtual_eq (hx : x.Wf E m) (hs : fetch mem (E.tiTy (x.object m).1) (x.object m).2 x.rvalue = some src)
    {it : MapIt} {c : Coll V} {n : Node V} (p : Ptr) (w : World) (hn : c.map.node? E it = some n)
    (ht : n.seg.ty = E.tiTy (x.subtypeid m)) :
    insertBaseVirtual E m mem it p x c w =
      onMap (TMap.onSeg E it (downcast (E.tiTy (x.arg m src).dyn) (Seg.insertBase E p (x.arg m src).src))) c w := by
  unfold insertBaseVirtual onMap Prog.zoom
  simp only
  rw [TMap.onSeg_congr E hn]
  show Prog.bind Prog.get _ n.seg w = downcast _ _ n.seg w
  simp only [downcast, Prog.bind, Prog.get, Expr.arg, ht, hx.addr, hx.ty, hs]
  simp [ht, hx.ty, Prog.ofOption, Bind.bind, Prog.bind, Prog.get, Prog.pure]

theorem insertExpr_eq (hx : x.Wf E m) (hs : fetch mem (E.tiTy (x.object m).1) (x.object m).2 x.rvalue = some src)
    {c : Coll V} {w : World} (hc : c.map.Inv E c.kind w) : insertExpr E m mem x c w = insert E (x.arg m src) c w := by
  unfold insertExpr insert
  refine Prog.bind_congr (forArg_runs E (x.arg m src) (hx.ok E src) c w hc) ?_
  rintro it c' w' ⟨n, h1, h2, -⟩
  have := pushBackExpr_eq E hx hs w' (h2.node? E h1.inv.ids) h1.ty
  show Prog.bind _ _ c' w' = Prog.bind _ _ c' w'
  simp only [Prog.bind, this]

theorem insertHintExpr_eq (hx : x.Wf E m) (hs : fetch mem (E.tiTy (x.object m).1) (x.object m).2 x.rvalue = some src)
    {c : Coll V} {w : World} (hint : GIter) (hc : c.map.Inv E c.kind w) :
    insertHintExpr E m mem hint x c w = insertHint E hint (x.arg m src) c w := by
  unfold insertHintExpr insertHint
  refine Prog.bind_congr (forArg_runs E (x.arg m src) (hx.ok E src) c w hc) ?_
  rintro it c' w' ⟨n, h1, h2, -⟩
  have e1 := pushBackExpr_eq E hx hs w' (h2.node? E h1.inv.ids) h1.ty
  have e2 := insertBaseVirtual_eq E hx hs hint.segpos w' (h2.node? E h1.inv.ids) h1.ty
  show Prog.bind _ _ c' w' = Prog.bind _ _ c' w'
  simp only [Prog.bind, Prog.get, Bind.bind]
  cases c'.map.itEq E hint.mapit it with
  | none => rfl
  | some b =>
    cases b
    · simp only [Prog.ofOption, Prog.pure, if_false, Bool.false_eq_true, Prog.bind, e1]
    · simp only [Prog.ofOption, Prog.pure, if_true, Prog.bind, e2]

theorem insertPosBaseExpr_eq (hx : x.Wf E m) (hs : fetch mem (E.tiTy (x.object m).1) (x.object m).2 x.rvalue = some src)
    {c : Coll V} {w : World} (hc : c.map.Inv E c.kind w) {pos : LIter} {i : Nat} (hp : c.LAtB E pos (E.tiTy (x.object m).1) i) :
    insertPosBaseExpr E m mem pos x c w = insertPosBase E pos (x.arg m src) c w := by
  obtain ⟨n, h1, h2, -⟩ := hp
  have := insertBaseVirtual_eq E hx hs pos.pos w (h1.node? E hc.ids) (h2.trans (hx.ty E).symm)
  unfold insertPosBaseExpr insertPosBase
  show Prog.bind _ _ c w = Prog.bind _ _ c w
  simp only [Prog.bind, this]

theorem insertPosLocalExpr_eq (hx : x.Wf E m) (hs : fetch mem (E.tiTy (x.object m).1) (x.object m).2 x.rvalue = some src)
    {u : TI} (hu : E.tiTy u = E.tiTy (x.object m).1) (pos : LIter) :
    insertPosLocalExpr E m mem pos u x = insertPosLocal E pos (x.arg m src) := by
  unfold insertPosLocalExpr insertPosLocal
  rw [hu, hx.addr, hs]
  simp only [Expr.arg, hx.ty]
  rfl

theorem hintStepExpr_eq (hx : x.Wf E m) (hs : fetch mem (E.tiTy (x.object m).1) (x.object m).2 x.rvalue = some src)
    {c : Coll V} {n : Node V} (hint : GIter) {it : MapIt} (w : World) (hn : c.map.node? E it = some n) (ht : n.seg.ty = E.tiTy (x.subtypeid m)) :
    hintStepExpr E m mem hint it x c w = hintStep E hint it (E.tiTy (x.arg m src).dyn) (x.arg m src).src c w := by
  have e1 := pushBackExpr_eq E hx hs w hn ht
  have e2 := insertBaseVirtual_eq E hx hs hint.segpos w hn ht
  unfold pushBackArg at e1
  unfold hintStepExpr hintStep
  simp only [Prog.bind, Prog.get, Bind.bind]
  cases c.map.itEq E hint.mapit it with
  | none => rfl
  | some b =>
    cases b
    · simp only [Prog.ofOption, Prog.pure, if_false, Bool.false_eq_true, Prog.bind, e1]
    · simp only [Prog.ofOption, Prog.pure, if_true, Prog.bind, e2]

/-- The argument `a` stands for what the reference `x` designates. -/
def Stands (m : PModel) (mem : Mem V) (x : Expr) (a : Arg V) : Prop :=
  x.Wf E m ∧ ∃ src, fetch mem (E.tiTy (x.object m).1) (x.object m).2 x.rvalue = some src ∧ a = x.arg m src

theorem insertHintRangeExpr_eq {xs : List Expr} {as : List (Arg V)} (h : All2 (Stands E m mem) xs as) {k : Kind} :
    ∀ (hint : GIter) {c : Coll V} {w : World}, (collCtx E k).I c w → insertHintRangeExpr E m mem hint xs c w = insertHintRange E hint as c w := by
  induction h with
  | nil => intro hint c w _; rfl
  | @cons x a xs as hx _ ih =>
    intro hint c w hc
    obtain ⟨hx, src, hs, rfl⟩ := hx
    unfold insertHintRangeExpr insertHintRange
    have hf := forArg_runs E (x.arg m src) (hx.ok E src) c w (by rw [hc.1]; exact hc.2)
    have hk := (forArg_keeps E (k := k) (x.arg m src) (hx.ok E src)).run c w hc
    show Prog.bind (forArg E (x.arg m src)) _ c w = Prog.bind (forArg E (x.arg m src)) _ c w
    unfold Runs at hf
    simp only [Prog.bind]
    cases hp : forArg E (x.arg m src) c w with
    | exc e c' w' => rfl
    | ub => rfl
    | ok it c' w' =>
      rw [hp] at hf hk
      obtain ⟨n, h1, h2, -⟩ := hf
      have e := hintStepExpr_eq E hx hs hint w' (h2.node? E h1.inv.ids) h1.ty
      show Prog.bind _ _ c' w' = Prog.bind _ _ c' w'
      simp only [Prog.bind, e]
      have hk' := (hintStep_keeps E (k := k) hint it (E.tiTy (x.arg m src).dyn) (x.arg m src).src).run c' w' hk.1
      cases hq : hintStep E hint it (E.tiTy (x.arg m src).dyn) (x.arg m src).src c' w' with
      | exc e c'' w'' => rfl
      | ub => rfl
      | ok h c'' w'' => rw [hq] at hk'; exact ih h hk'.1

theorem posLoopBaseExpr_eq {xs : List Expr} {as : List (Arg V)} (h : All2 (Stands E m mem) xs as) {k : Kind} {mapit : MapIt} {t : Ty}
    (hv : ∀ a ∈ as, E.tiTy a.dyn = t) :
    ∀ (p : Ptr) {c : Coll V} {w : World}, (collCtx E k).I c w → (∃ n, c.map.Use E mapit n ∧ n.seg.ty = t) →
      posLoopBaseExpr E m mem mapit p xs c w = posLoopBase E mapit p as c w := by
  induction h with
  | nil => intro p c w _ _; rfl
  | @cons x a xs as hx _ ih =>
    intro p c w hc hn
    obtain ⟨hx, src, hs, rfl⟩ := hx
    obtain ⟨n, hu, ht⟩ := hn
    have hd := hv (x.arg m src) (by simp)
    have e := insertBaseVirtual_eq E hx hs p w (hu.node? E hc.2.ids) (ht.trans hd.symm)
    have hq := (downcast_keeps (E.tiTy (x.arg m src).dyn) (Seg.insertBase_keeps E p (x.arg m src).src)).run n.seg w trivial
    have hk := (onSeg_keeps E (k := k) mapit (downcast_keeps (E.tiTy (x.arg m src).dyn) (Seg.insertBase_keeps E p (x.arg m src).src))).run c w hc
    unfold posLoopBaseExpr posLoopBase
    show Prog.bind _ _ c w = Prog.bind _ _ c w
    simp only [Prog.bind, e]
    revert hk
    simp only [onMap, Prog.zoom, TMap.onSeg, hu.node? E hc.2.ids]
    cases hp : downcast (E.tiTy (x.arg m src).dyn) (Seg.insertBase E p (x.arg m src).src) n.seg w with
    | exc e c' w' => intro _; rfl
    | ub => intro _; rfl
    | ok q s w' =>
      intro hk
      rw [hp] at hq
      refine ih (fun a ha => hv a (by simp [ha])) _ hk.1 ⟨_, put_use_self E (s := s) hu, ?_⟩
      exact (Seg.fix_frame.1 hq.2.1).ty.trans ht

theorem insertPosRangeBaseExpr_eq {xs : List Expr} {as : List (Arg V)} (h : All2 (Stands E m mem) xs as) {k : Kind} {pos : LIter} {t : Ty} {i : Nat}
    (hv : ∀ a ∈ as, E.tiTy a.dyn = t) {c : Coll V} {w : World} (hc : (collCtx E k).I c w) (hp : c.LAtB E pos t i) :
    insertPosRangeBaseExpr E m mem pos xs c w = insertPosRangeBase E pos as c w := by
  obtain ⟨n, h1, h2, -⟩ := hp
  have e := posLoopBaseExpr_eq E h hv pos.pos hc ⟨n, h1, h2⟩
  have hl : xs.length = as.length := by
    clear e hv
    induction h with
    | nil => rfl
    | cons _ _ ih => simp [ih]
  unfold insertPosRangeBaseExpr insertPosRangeBase
  show Prog.bind _ _ c w = Prog.bind _ _ c w
  simp only [Prog.bind, e, hl]

/-- The source `src` stands for what the element `x` of a range is inserted as into a segment of type `u`. -/
def StandsLocal (m : PModel) (mem : Mem V) (u : TI) : LocalArg V → Src V → Prop
  | .impl x cons, src =>
    x.Wf E m ∧ (E.tiTy (x.object m).1 = E.tiTy u ∧ fetch mem (E.tiTy u) (x.object m).2 x.rvalue = some src ∨
      E.tiTy (x.object m).1 ≠ E.tiTy u ∧ ∃ v, cons = some v ∧ src = .emplaced v)
  | .other v, src => src = .emplaced v

theorem localInsert_eq {u : TI} {x : LocalArg V} (h : StandsLocal E m mem u x src) (p : Ptr) : localInsert E m mem u p x = Seg.insertLocal E p src := by
  cases x with
  | other v => cases h; rfl
  | impl x cons =>
    obtain ⟨hx, ⟨h1, h2⟩ | ⟨h1, v, rfl, rfl⟩⟩ := h
    · cases cons <;> simp only [localInsert, hx.ty, h1, if_true, hx.addr, h2] <;> rfl
    · simp only [localInsert, hx.ty, h1, if_false]
      rfl

theorem insertPosRangeLocalExpr_eq {u : TI} {xs : List (LocalArg V)} {srcs : List (Src V)} (h : All2 (StandsLocal E m mem u) xs srcs) (pos : LIter) :
    insertPosRangeLocalExpr E m mem pos u xs = insertPosRangeLocal E pos u srcs := by
  have key : xs.length = srcs.length ∧ ∀ mapit p, posLoopLocalExpr E m mem u mapit p xs = posLoopLocal E mapit (E.tiTy u) p srcs := by
    induction h with
    | nil => exact ⟨rfl, fun _ _ => rfl⟩
    | cons hx _ ih =>
      refine ⟨by simp [ih.1], fun mapit p => ?_⟩
      unfold posLoopLocalExpr posLoopLocal
      rw [localInsert_eq E hx]
      simp only [ih.2]
  unfold insertPosRangeLocalExpr insertPosRangeLocal
  rw [key.2, key.1]

end Coll
end PolyColl
