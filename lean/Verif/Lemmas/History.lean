import Verif.Lemmas.KeepsColl
import Verif.Lemmas.KeepsWriting
import Verif.Model.History
/-!
# Invariants of all histories

Every state a program can reach, including through operations that throw, has consistent look-up
in all its collections.
-/

namespace PolyColl
open Prog

namespace Env
variable {V : Type} (E : Env V)

theorem moveVec_keeps (t : Ty) (b : Bool) : Keeps (anyCtx _) (E.moveVec t b) := by unfold moveVec; keeps

end Env

namespace Split
variable {V : Type} (E : Env V)

theorem init_leaves {X : Type} (t : Ty) (al objAl : Alloc) (s : Vec V) (x : X) (w : World) :
    Leaves (init E t al objAl s : Prog X (Split V)) x w (fun y x' w' => x' = x ∧ y.fix = (t, al, objAl) ∧ w.next ≤ w'.next)
      (fun _ x' w' => x' = x ∧ w.next ≤ w'.next) := by
  unfold init
  rw [leaves_locally]
  have : Keeps (sameCtx fix) (do onS (E.reserve t 1); buildIndex E 0 : Prog (Split V) Unit) := by keeps
  exact (this.leaves (x := ⟨t, al, objAl, s, Vec.nil⟩) (w := w) trivial).mono (fun _ y w' h => ⟨rfl, h.2.1, h.2.2⟩) (fun _ y w' h => ⟨rfl, h.2.2⟩)

end Split

namespace Seg
variable {V : Type} (E : Env V)

/-- Moving a segment: the new one has the same type and the given allocator, the old one keeps its
type and allocator. -/
theorem moveAl_leaves (al : Alloc) (x : Seg V) (w : World) :
    Leaves (moveAl E al) x w (fun y x' w' => y.fix = (x.kind, x.ty, al, al) ∧ x'.fix = x.fix ∧ w.next ≤ w'.next)
      (fun _ x' w' => x'.fix = x.fix ∧ w.next ≤ w'.next) := by
  have hp : ∀ z : Packed V, Leaves (do let b ← Packed.move E al; return ofBackend (.packed b) : Prog (Packed V) (Seg V)) z w
      (fun y z' w' => y.fix = (Kind.packed, z.ty, al, al) ∧ z'.fix = z.fix ∧ w.next ≤ w'.next) (fun _ z' w' => z'.fix = z.fix ∧ w.next ≤ w'.next) := by
    intro z
    unfold Packed.move
    simp only [leaves_bind, leaves_get, leaves_pure]
    refine ((Packed.onS_keeps (E.moveVec_keeps _ _)).leaves trivial).mono ?_ ?_
    · intro s z1 w1 ⟨_, h1, h2⟩
      refine ((Keeps.alloc (E := E) (C := sameCtx Packed.fix)).leaves trivial).mono ?_ ?_
      · intro _ z2 w2 ⟨_, h3, h4⟩
        exact ⟨rfl, h3.trans h1, by omega⟩
      · intro _ z2 w2 ⟨_, h3, h4⟩
        exact ⟨h3.trans h1, by omega⟩
    · intro s z1 w1 ⟨_, h1, h2⟩
      exact ⟨h1, h2⟩
  have hs : ∀ z : Split V, Leaves (do let b ← Split.move E al; return ofBackend (.split b) : Prog (Split V) (Seg V)) z w
      (fun y z' w' => y.fix = (Kind.split, z.ty, al, al) ∧ z'.fix = z.fix ∧ w.next ≤ w'.next) (fun _ z' w' => z'.fix = z.fix ∧ w.next ≤ w'.next) := by
    intro z
    unfold Split.move
    simp only [leaves_bind, leaves_get, leaves_pure]
    refine ((Split.onS_keeps (E.moveVec_keeps _ _)).leaves trivial).mono ?_ ?_
    · intro s z1 w1 ⟨_, h1, h2⟩
      refine ((Keeps.alloc (E := E) (C := sameCtx Split.fix)).leaves trivial).mono ?_ ?_
      · intro _ z2 w2 ⟨_, h3, h4⟩
        refine (Split.init_leaves E z.ty al al s z2 w2).mono ?_ ?_
        · rintro y z3 w3 ⟨rfl, h5, h6⟩
          refine ⟨?_, h3.trans h1, by omega⟩
          simp only [Split.fix, Prod.mk.injEq] at h5
          simp [fix_be, bfix, ofBackend, Backend.kind, Backend.ty, Backend.al, h5]
        · rintro y z3 w3 ⟨rfl, h6⟩
          exact ⟨h3.trans h1, by omega⟩
      · intro _ z2 w2 ⟨_, h3, h4⟩
        exact ⟨h3.trans h1, by omega⟩
    · intro s z1 w1 ⟨_, h1, h2⟩
      exact ⟨h1, h2⟩
  unfold moveAl
  rw [leaves_zoom]
  obtain ⟨be, snt⟩ := x
  cases be with
  | packed z =>
    have := hp z
    unfold Leaves at this ⊢
    simp only [Backend.run]
    cases h : (do let b ← Packed.move E al; return ofBackend (.packed b) : Prog (Packed V) (Seg V)) z w with
    | ub => trivial
    | ok a z' w' =>
      rw [h] at this
      obtain ⟨h1, h2, h3⟩ := this
      refine ⟨h1, ?_, h3⟩
      simp only [Packed.fix, Prod.mk.injEq] at h2
      simp [fix_be, bfix, Backend.kind, Backend.ty, Backend.al, h2]
    | exc a z' w' =>
      rw [h] at this
      obtain ⟨h2, h3⟩ := this
      refine ⟨?_, h3⟩
      simp only [Packed.fix, Prod.mk.injEq] at h2
      simp [fix_be, bfix, Backend.kind, Backend.ty, Backend.al, h2]
  | split z =>
    have := hs z
    unfold Leaves at this ⊢
    simp only [Backend.run]
    cases h : (do let b ← Split.move E al; return ofBackend (.split b) : Prog (Split V) (Seg V)) z w with
    | ub => trivial
    | ok a z' w' =>
      rw [h] at this
      obtain ⟨h1, h2, h3⟩ := this
      refine ⟨h1, ?_, h3⟩
      simp only [Split.fix, Prod.mk.injEq] at h2
      simp [fix_be, bfix, Backend.kind, Backend.ty, Backend.al, h2]
    | exc a z' w' =>
      rw [h] at this
      obtain ⟨h2, h3⟩ := this
      refine ⟨?_, h3⟩
      simp only [Split.fix, Prod.mk.injEq] at h2
      simp [fix_be, bfix, Backend.kind, Backend.ty, Backend.al, h2]

end Seg

namespace TMap
variable {V : Type} (E : Env V)

/-- Node `b` was made from `a` for allocator `al`. -/
def MovedTo (al : Alloc) (a b : Node V) : Prop := b.key = a.key ∧ b.seg.fix = (a.seg.kind, a.seg.ty, al, al)

theorem moveNodes_leaves (al : Alloc) : ∀ (l : List (Node V)) (w : World),
    Leaves (moveNodes E al) l w
      (fun ns l' w' => w.next ≤ w'.next ∧ All2 (MovedTo al) l ns ∧ All2 Coll.NodeFrame l l' ∧ (ns.map (·.id)).Nodup ∧
        ∀ n ∈ ns, w.next ≤ n.id ∧ n.id < w'.next)
      (fun _ l' w' => w.next ≤ w'.next ∧ All2 Coll.NodeFrame l l') := by
  intro l
  induction l with
  | nil => intro w; exact ⟨Nat.le_refl _, .nil, .nil, by simp, by simp⟩
  | cons n l ih =>
    intro w
    have h1 : Leaves (do let i ← E.alloc; let s ← Seg.moveAl E al; return (i, s) : Prog (Seg V) (Nat × Seg V)) n.seg w
        (fun r x' w' => r.2.fix = (n.seg.kind, n.seg.ty, al, al) ∧ x'.fix = n.seg.fix ∧ r.1 = w.next ∧ w.next < w'.next)
        (fun _ x' w' => x'.fix = n.seg.fix ∧ w.next ≤ w'.next) := by
      rw [leaves_bind]
      refine Runs.leaves ((E.runs_alloc).2 ⟨fun _ => ⟨rfl, Nat.le_refl _⟩, fun _ => ?_⟩)
      rw [leaves_bind]
      refine (Seg.moveAl_leaves E al n.seg _).mono ?_ ?_
      · intro y x' w' ⟨a1, a2, a3⟩
        exact ⟨a1, a2, rfl, by simp only at a3; omega⟩
      · intro y x' w' ⟨a2, a3⟩
        exact ⟨a2, by simp only at a3; omega⟩
    have refl : All2 Coll.NodeFrame l l := All2.refl l (fun a _ => ⟨rfl, rfl, rfl, rfl, rfl, rfl⟩)
    unfold Leaves at h1 ⊢
    rw [moveNodes]
    cases hp : (do let i ← E.alloc; let s ← Seg.moveAl E al; return (i, s) : Prog (Seg V) (Nat × Seg V)) n.seg w with
    | ub => trivial
    | exc e s w' =>
      rw [hp] at h1
      exact ⟨h1.2, .cons ⟨rfl, rfl, Seg.fix_frame.1 h1.1⟩ refl⟩
    | ok r s w' =>
      rw [hp] at h1
      obtain ⟨i, y⟩ := r
      obtain ⟨a1, a2, a3, a4⟩ := h1
      simp only at a1 a3
      have h2 := ih w'
      unfold Leaves at h2
      simp only
      cases hq : moveNodes E al l w' with
      | ub => trivial
      | exc e s w'' =>
        rw [hq] at h2
        exact ⟨by have := h2.1; omega, .cons ⟨rfl, rfl, Seg.fix_frame.1 a2⟩ h2.2⟩
      | ok ns l' w'' =>
        rw [hq] at h2
        obtain ⟨b1, b2, b3, b4, b5⟩ := h2
        refine ⟨by omega, .cons ⟨rfl, a1⟩ b2, .cons ⟨rfl, rfl, Seg.fix_frame.1 a2⟩ b3, ?_, ?_⟩
        · simp only [List.map_cons, List.nodup_cons]
          refine ⟨fun hm => ?_, b4⟩
          obtain ⟨a, ha, e⟩ := List.mem_map.1 hm
          have := (b5 a ha).1
          omega
        · intro a ha
          rcases List.mem_cons.1 ha with rfl | ha
          · simp only; omega
          · have := b5 a ha; omega

theorem movedTo_inv {k : Kind} {m : TMap V} {w0 w w' : World} {ns ns' : List (Node V)} {al : Alloc} {b g : Nat}
    (hm : m.Inv E k w0) (hc : All2 (MovedTo al) m.nodes ns) (hi : (ns.map (·.id)).Nodup) (hn : ∀ n ∈ ns, w.next ≤ n.id ∧ n.id < w'.next)
    (hp : ns'.Perm ns) :
    (⟨ns', b, g, al, []⟩ : TMap V).Inv E k w' ∧ ∀ p ∈ m.cache, ∃ n ∈ ns', E.tiTy n.key = E.tiTy p.1 := by
  have hk : ns.map (fun n => E.tiTy n.key) = m.nodes.map (fun n => E.tiTy n.key) :=
    All2.map_eq (fun a b h => by rw [h.1]) hc
  have key : ∀ n ∈ ns', n.seg.ty = E.tiTy n.key ∧ n.seg.al = al ∧ n.seg.objAl = al ∧ n.seg.kind = k := by
    intro n hn'
    obtain ⟨a, ha, h1, h2⟩ := hc.mem (hp.mem_iff.1 hn')
    simp only [Seg.fix, Prod.mk.injEq] at h2
    exact ⟨by rw [h2.2.1, h1]; exact hm.ty a ha, h2.2.2.1, h2.2.2.2, by rw [h2.1]; exact hm.kind a ha⟩
  refine ⟨⟨?_, ?_, ?_, ?_, ?_, ?_, ?_, ?_⟩, ?_⟩
  · exact ((hp.map (fun n : Node V => n.id)).nodup_iff).2 hi
  · intro n hn'; exact (hn n (hp.mem_iff.1 hn')).2
  · refine ((hp.map (fun n : Node V => E.tiTy n.key)).nodup_iff).2 ?_
    rw [hk]; exact hm.tys
  · intro n hn'; exact (key n hn').1
  · intro n hn'; exact (key n hn').2.1
  · intro n hn'; exact (key n hn').2.2.1
  · intro n hn'; exact (key n hn').2.2.2
  · simp
  · intro p hp'
    obtain ⟨n, hr, e⟩ := hm.cache p hp'
    have : E.tiTy n.key ∈ ns.map (fun n => E.tiTy n.key) := by rw [hk]; exact List.mem_map_of_mem hr.mem
    obtain ⟨a, ha, e'⟩ := List.mem_map.1 this
    exact ⟨a, hp.mem_iff.2 ha, by rw [e', e]⟩

theorem moveAl_leaves (k : Kind) (al : Alloc) (x : TMap V) (w : World) (h : x.Inv E k w) :
    Leaves (moveAl E al) x w
      (fun m x' w' => m.Inv E k w' ∧ m.al = al ∧ w.next ≤ w'.next ∧ x'.Inv E k w' ∧ x'.al = x.al)
      (fun _ x' w' => w.next ≤ w'.next ∧ x'.Inv E k w' ∧ x'.al = x.al) := by
  unfold moveAl
  simp only [leaves_bind, leaves_get, leaves_ite, leaves_set, leaves_pure, leaves_world]
  refine ⟨fun e => ⟨h, e, Nat.le_refl _, empty_inv E k _ _ rfl rfl, by trivial⟩, fun e => ?_⟩
  unfold build clearAll
  rw [leaves_zoom]
  refine (moveNodes_leaves E al x.nodes w).mono ?_ ?_
  · intro ns l' w' ⟨a1, a2, a3, a4, a5⟩
    obtain ⟨b1, b2⟩ := movedTo_inv E (b := x.buckets) (g := 0) h a2 a4 a5 (E.shuffle_perm w'.tick ns)
    simp only [leaves_bind, leaves_locally, leaves_get, leaves_set]
    refine (buildCache_runs E k x.cache ⟨E.shuffle w'.tick ns, x.buckets, 0, al, []⟩ w' b1 b2).leaves.mono ?_ ?_
    · intro _ m w'' hm
      exact ⟨hm.1, hm.2.1.al, by omega, empty_inv E k _ _ rfl rfl, by trivial⟩
    · intro _ m w'' hm
      refine ⟨by omega, ?_, by trivial⟩
      exact frame_inv E h (by omega) a3
  · intro ns l' w' ⟨a1, a2⟩
    exact ⟨a1, frame_inv E h a1 a2, rfl⟩

theorem moveAssign_leaves (k : Kind) (m x : TMap V) (w : World) (h : x.Inv E k w) :
    Leaves (moveAssign E) (m, x) w
      (fun _ p w' => p.1.Inv E k w' ∧ p.1.al = (if E.pocma then x.al else m.al) ∧ w.next ≤ w'.next ∧ p.2.Inv E k w' ∧ p.2.al = x.al)
      (fun _ p w' => p.1.Inv E k w' ∧ p.1.al = m.al ∧ w.next ≤ w'.next ∧ p.2.Inv E k w' ∧ p.2.al = x.al) := by
  unfold moveAssign clearAll
  simp only [leaves_bind, leaves_get, leaves_ite, leaves_set, leaves_world, leaves_onExc, leaves_zoom]
  refine ⟨fun e => ?_, fun e => ?_⟩
  · refine ⟨?_, by trivial, Nat.le_refl _, empty_inv E k _ _ rfl rfl, by trivial⟩
    have : (if E.pocma = true then x.al else m.al) = x.al := by
      rcases e with e | e
      · simp [e]
      · simp [e]
    rw [this]; exact h
  · refine (moveNodes_leaves E m.al x.nodes w).mono ?_ ?_
    · intro ns l' w' ⟨a1, a2, a3, a4, a5⟩
      obtain ⟨b1, b2⟩ := movedTo_inv E (b := x.buckets) (g := m.gen + 1) h a2 a4 a5 (E.shuffle_perm w'.tick ns)
      refine (buildCache_runs E k x.cache ⟨E.shuffle w'.tick ns, x.buckets, m.gen + 1, m.al, []⟩ w' b1 b2).leaves.mono ?_ ?_
      · intro _ m' w'' hm
        have : E.pocma = false := by
          cases hp : E.pocma
          · rfl
          · exact absurd (.inl hp) e
        exact ⟨hm.1, by rw [this]; exact hm.2.1.al, by omega, empty_inv E k _ _ rfl rfl, by trivial⟩
      · intro _ m' w'' hm
        refine ⟨empty_inv E k _ _ rfl rfl, hm.2.1.al, by omega, empty_inv E k _ _ rfl rfl, by trivial⟩
    · intro ns l' w' ⟨a1, a2⟩
      exact ⟨empty_inv E k _ _ rfl rfl, by trivial, a1, empty_inv E k _ _ rfl rfl, by trivial⟩

end TMap

namespace COp
variable {V : Type} (E : Env V) {k : Kind}

theorem drop_keeps {X α : Type} {C : Ctx X} {p : Prog X α} (h : Keeps C p) : Keeps C p.drop :=
  Keeps.bind h fun _ => Keeps.pure

/-- Every operation on one collection keeps look-up right and types registered. -/
theorem run_keeps (op : COp V) (ha : ∀ a ∈ op.args, Coll.Arg.OK E a) : Keeps (Coll.collCtx E k) (op.run E) := by
  cases op with
  | registerTypes ts => exact Coll.registerTypes_keeps E ts
  | lookup t => exact drop_keeps (Coll.forInfo_keeps E t)
  | reserveAll n => exact Coll.reserveAll_keeps E n
  | reserveInfo t n => exact Coll.reserveInfo_keeps E t n
  | reserveT t n => exact Coll.reserveT_keeps E t n
  | shrinkAll => exact Coll.shrinkAll_keeps E
  | shrinkInfo t => exact Coll.shrinkInfo_keeps E t
  | emplace t src => exact drop_keeps (Coll.emplace_keeps E t src)
  | emplaceHint h t src => exact drop_keeps (Coll.emplaceHint_keeps E h t src)
  | emplacePosBase p t src => exact drop_keeps (Coll.emplacePosBase_keeps E p t src)
  | emplacePosLocal p t src => exact drop_keeps (Coll.emplacePosLocal_keeps E p t src)
  | insert a => exact drop_keeps (Coll.insert_keeps E a (ha a (by simp [args])))
  | insertHint h a => exact drop_keeps (Coll.insertHint_keeps E h a (ha a (by simp [args])))
  | insertPosBase p a => exact drop_keeps (Coll.insertPosBase_keeps E p a)
  | insertPosLocal p a => exact drop_keeps (Coll.insertPosLocal_keeps E p a)
  | insertRange as => exact Coll.insertRange_keeps E as ha
  | insertRangeTerminal f t srcs => exact Coll.insertRangeTerminal_keeps E f t srcs
  | insertHintRange h as => exact drop_keeps (Coll.insertHintRange_keeps E as ha h)
  | insertHintRangeTerminal h f t srcs => exact Coll.insertHintRangeTerminal_keeps E h f t srcs
  | insertPosRangeBase p as => exact drop_keeps (Coll.insertPosRangeBase_keeps E p as)
  | insertPosRangeLocal p t srcs => exact drop_keeps (Coll.insertPosRangeLocal_keeps E p t srcs)
  | erase p => exact drop_keeps (Coll.erase_keeps E p)
  | eraseLocalBase p => exact drop_keeps (Coll.eraseLocalBase_keeps E p)
  | eraseLocal p => exact drop_keeps (Coll.eraseLocal_keeps E p)
  | eraseRange p q => exact drop_keeps (Coll.eraseRange_keeps E p q)
  | eraseLocalRangeBase p q => exact drop_keeps (Coll.eraseLocalRangeBase_keeps E p q)
  | eraseLocalRange p q => exact drop_keeps (Coll.eraseLocalRange_keeps E p q)
  | clearAll => exact Coll.clearAll_keeps E
  | clearInfo t => exact Coll.clearInfo_keeps E t
  | apply o p a => exact drop_keeps (Coll.apply_keeps E o p a)
  | rebind p q => exact Coll.rebind_keeps E p q

end COp

namespace Coll
variable {V : Type} (E : Env V) {k : Kind}

theorem node?_mem {m : TMap V} {it : MapIt} {n : Node V} (h : m.node? E it = some n) : n ∈ m.nodes := by
  unfold TMap.node? at h
  split at h
  · split at h
    · exact List.mem_of_find?_eq_some h
    · simp at h
  · simp at h

theorem collect_items (sub : Ty → TI) (c : Coll V) (last : GIter) (fuel : Nat) : ∀ (it : GIter) (l : List (Item V)),
    c.collect E sub last it fuel = some l → ∀ x ∈ l, x.proto ∈ c.map.nodes.map (·.seg) ∧ x.id = sub x.proto.ty := by
  induction fuel with
  | zero => intro it l h; simp [collect] at h
  | succ fuel ih =>
    intro it l h x hx
    unfold collect at h
    split at h
    · cases h; simp at hx
    · split at h
      · rename_i n v it' h1 h2 h3
        cases hc : c.collect E sub last it' fuel with
        | none => rw [hc] at h; simp at h
        | some l' =>
          rw [hc] at h
          simp only [Option.map_some, Option.some.injEq] at h
          subst h
          rcases List.mem_cons.1 hx with rfl | hx
          · exact ⟨List.mem_map_of_mem (node?_mem E h1), rfl⟩
          · exact ih it' l' hc x hx
      · simp at h

theorem collect_ok {sub : Ty → TI} (hsub : ∀ t, E.tiTy (sub t) = t) {c : Coll V} {w : World} (h : c.map.Inv E k w) {last it : GIter} {fuel : Nat}
    {l : List (Item V)} (hl : c.collect E sub last it fuel = some l) : ∀ x ∈ l, x.proto.kind = k ∧ x.proto.ty = E.tiTy x.id := by
  intro x hx
  obtain ⟨h1, h2⟩ := collect_items E sub c last fuel it l hl x hx
  obtain ⟨n, hn, e⟩ := List.mem_map.1 h1
  exact ⟨by rw [← e]; exact h.kind n hn, by rw [h2, hsub]⟩

theorem collectLocal_ok {c : Coll V} {w : World} (h : c.map.Inv E k w) {first last : LIter} {r : Seg V × List V}
    (hl : c.collectLocal E first last = some r) : r.1.kind = k := by
  unfold collectLocal at hl
  split at hl
  · simp at hl
  · rename_i n hn
    cases hw : localWalk n.seg last.pos first.pos (n.seg.size + 1) with
    | none => rw [hw] at hl; simp at hl
    | some vs =>
      rw [hw] at hl
      simp only [Option.map_some, Option.some.injEq] at hl
      subst hl
      exact h.kind n (node?_mem E hn)

variable (k) in
/-- The invariant of a whole program. -/
def SysInv (s : Sys V) (w : World) : Prop := (∀ i, (collCtx E k).I (s i) w) ∧ 0 < w.next

theorem SysInv.weaken {s : Sys V} {w w' : World} (h : SysInv E k s w) (hw : w.next ≤ w'.next) : SysInv E k s w' :=
  ⟨fun i => (collCtx E k).weaken _ _ _ (h.1 i) hw, Nat.lt_of_lt_of_le h.2 hw⟩

theorem SysInv.put {s : Sys V} {w : World} (h : SysInv E k s w) {i : Nat} {c : Coll V} (hc : (collCtx E k).I c w) : SysInv E k (s.put i c) w := by
  refine ⟨fun j => ?_, h.2⟩
  unfold Sys.put
  by_cases hj : j = i
  · rw [if_pos hj]; exact hc
  · rw [if_neg hj]; exact h.1 j

theorem sys_on_leaves {α : Type} {i : Nat} {p : Prog (Coll V) α} {s : Sys V} {w : World} (hs : SysInv E k s w)
    (hp : Leaves p (s i) w (fun _ c w' => (collCtx E k).I c w' ∧ w.next ≤ w'.next) (fun _ c w' => (collCtx E k).I c w' ∧ w.next ≤ w'.next)) :
    Leaves (Sys.on i p) s w (fun _ s' w' => SysInv E k s' w' ∧ w.next ≤ w'.next) (fun _ s' w' => SysInv E k s' w' ∧ w.next ≤ w'.next) := by
  unfold Sys.on
  rw [leaves_zoom]
  exact hp.mono (fun _ c w' h => ⟨(hs.weaken E h.2).put E h.1, h.2⟩) (fun _ c w' h => ⟨(hs.weaken E h.2).put E h.1, h.2⟩)

theorem sys_on_keeps {i : Nat} {p : Prog (Coll V) Unit} {s : Sys V} {w : World} (hs : SysInv E k s w) (hp : Keeps (collCtx E k) p) :
    Leaves (Sys.on i p) s w (fun _ s' w' => SysInv E k s' w' ∧ w.next ≤ w'.next) (fun _ s' w' => SysInv E k s' w' ∧ w.next ≤ w'.next) :=
  sys_on_leaves E hs ((hp.leaves (hs.1 i)).mono (fun _ _ _ h => ⟨h.1, h.2.2⟩) (fun _ _ _ h => ⟨h.1, h.2.2⟩))

theorem sys_construct {i : Nat} {p : Prog (Sys V) (Coll V)} {s : Sys V} {w : World}
    (hp : Leaves p s w (fun c s' w' => (SysInv E k s' w' ∧ w.next ≤ w'.next) ∧ (collCtx E k).I c w') (fun _ s' w' => SysInv E k s' w' ∧ w.next ≤ w'.next)) :
    Leaves (Sys.construct i p) s w (fun _ s' w' => SysInv E k s' w' ∧ w.next ≤ w'.next) (fun _ s' w' => SysInv E k s' w' ∧ w.next ≤ w'.next) := by
  unfold Sys.construct
  simp only [leaves_bind, leaves_get, leaves_set]
  exact hp.mono (fun c s' w' h => ⟨h.1.1.put E h.2, h.1.2⟩) (fun _ _ _ h => h)

/-- A constructor that fills a new collection. -/
theorem sys_build {i : Nat} {al : Alloc} {p : Prog (Coll V) Unit} {s : Sys V} {w : World} (hs : SysInv E k s w)
    (hp : Leaves p (empty' k al) w (fun _ c w' => (collCtx E k).I c w' ∧ w.next ≤ w'.next) (fun _ c w' => (collCtx E k).I c w' ∧ w.next ≤ w'.next)) :
    Leaves (Sys.construct i (locally (empty' k al) p fun _ c => c)) s w (fun _ s' w' => SysInv E k s' w' ∧ w.next ≤ w'.next)
      (fun _ s' w' => SysInv E k s' w' ∧ w.next ≤ w'.next) := by
  refine sys_construct E ?_
  rw [leaves_locally]
  exact hp.mono (fun _ c w' h => ⟨⟨hs.weaken E h.2, h.2⟩, h.1⟩) (fun _ c w' h => ⟨hs.weaken E h.2, h.2⟩)

theorem copyAl_sys {j : Nat} {al : Alloc} {s : Sys V} {w : World} (hs : SysInv E k s w) :
    Leaves (copyAl E (s j) al : Prog (Sys V) (Coll V)) s w (fun c s' w' => (SysInv E k s' w' ∧ w.next ≤ w'.next) ∧ (collCtx E k).I c w')
      (fun _ s' w' => SysInv E k s' w' ∧ w.next ≤ w'.next) := by
  obtain ⟨hk, hj⟩ := hs.1 j
  refine (copyAl_runs E (s j) al s w (by rw [hk]; exact hj) hs.2).leaves.mono ?_ ?_
  · rintro c s' w' ⟨rfl, a1, a2, a3, -⟩
    exact ⟨⟨hs.weaken E a1, a1⟩, by rw [a3, hk], by rw [← hk, ← a3]; exact a2.map⟩
  · rintro c s' w' ⟨rfl, a1, -⟩
    exact ⟨hs.weaken E a1, a1⟩

theorem on2_put {s : Sys V} {w : World} (hs : SysInv E k s w) {i j : Nat} {c d : Coll V} (h1 : (collCtx E k).I c w) (h2 : (collCtx E k).I d w) :
    SysInv E k ((s.put i c).put j d) w := (hs.put E h1).put E h2

theorem run_inv {sub : Ty → TI} (hsub : ∀ t, E.tiTy (sub t) = t) (op : Op V) (ha : ∀ a ∈ op.args, Coll.Arg.OK E a) (s : Sys V) (w : World)
    (hs : SysInv E k s w) :
    Leaves (op.run E k sub) s w (fun _ s' w' => SysInv E k s' w' ∧ w.next ≤ w'.next) (fun _ s' w' => SysInv E k s' w' ∧ w.next ≤ w'.next) := by
  have refl : SysInv E k s w ∧ w.next ≤ w.next := ⟨hs, Nat.le_refl _⟩
  cases op with
  | on i op => exact sys_on_keeps E hs (op.run_keeps E ha)
  | create i al => exact sys_construct E ⟨refl, rfl, TMap.empty_inv E k _ _ rfl rfl⟩
  | fromRange i al as =>
    exact sys_build E hs (((insertRange_keeps E as ha).leaves (x := empty' k al) ⟨rfl, TMap.empty_inv E k _ _ rfl rfl⟩).mono
      (fun _ _ _ h => ⟨h.1, h.2.2⟩) (fun _ _ _ h => ⟨h.1, h.2.2⟩))
  | fromTerminal i al fwd t srcs =>
    exact sys_build E hs (((insertRangeTerminal_keeps E fwd t srcs).leaves (x := empty' k al) ⟨rfl, TMap.empty_inv E k _ _ rfl rfl⟩).mono
      (fun _ _ _ h => ⟨h.1, h.2.2⟩) (fun _ _ _ h => ⟨h.1, h.2.2⟩))
  | fromColl i j al f l =>
    simp only [Op.run, leaves_bind, leaves_get, leaves_ite]
    refine ⟨fun _ => trivial, fun _ => sys_build E hs ?_⟩
    unfold insertColl
    simp only [leaves_bind, leaves_ofOption]
    intro l' hl
    exact ((insertFrom_keeps E l' (collect_ok E hsub (hs.1 j).2 hl)).leaves (x := empty' k al) ⟨rfl, TMap.empty_inv E k _ _ rfl rfl⟩).mono
      (fun _ _ _ h => ⟨h.1, h.2.2⟩) (fun _ _ _ h => ⟨h.1, h.2.2⟩)
  | fromLocalColl i j al f l =>
    simp only [Op.run, leaves_bind, leaves_get, leaves_ite]
    refine ⟨fun _ => trivial, fun _ => sys_build E hs ?_⟩
    unfold insertLocalColl
    simp only [leaves_bind, leaves_ofOption]
    intro r hl
    exact ((insertFromLocal_keeps E _ r.1 r.2 (collectLocal_ok E (hs.1 j).2 hl) (by rw [hsub])).leaves (x := empty' k al)
      ⟨rfl, TMap.empty_inv E k _ _ rfl rfl⟩).mono (fun _ _ _ h => ⟨h.1, h.2.2⟩) (fun _ _ _ h => ⟨h.1, h.2.2⟩)
  | copy i j =>
    simp only [Op.run, leaves_bind, leaves_get, leaves_ite]
    refine ⟨fun _ => trivial, fun _ => sys_construct E (copyAl_sys E hs)⟩
  | copyAl i j al =>
    simp only [Op.run, leaves_bind, leaves_get, leaves_ite]
    refine ⟨fun _ => trivial, fun _ => sys_construct E (copyAl_sys E hs)⟩
  | move i j =>
    simp only [Op.run, leaves_ite]
    refine ⟨fun _ => trivial, fun _ => sys_construct E ?_⟩
    unfold Sys.on move onMap TMap.move
    simp only [leaves_zoom, leaves_bind, leaves_get, leaves_set, leaves_pure]
    exact ⟨⟨hs.put E ⟨(hs.1 j).1, TMap.empty_inv E k _ _ rfl rfl⟩, Nat.le_refl _⟩, hs.1 j⟩
  | moveAl i j al =>
    simp only [Op.run, leaves_ite]
    refine ⟨fun _ => trivial, fun _ => sys_construct E ?_⟩
    unfold Sys.on moveAl onMap
    simp only [leaves_zoom, leaves_bind, leaves_get, leaves_pure]
    refine (TMap.moveAl_leaves E k al (s j).map w (hs.1 j).2).mono ?_ ?_
    · rintro m x w' ⟨a1, a2, a3, a4, a5⟩
      exact ⟨⟨(hs.weaken E a3).put E ⟨(hs.1 j).1, a4⟩, a3⟩, (hs.1 j).1, a1⟩
    · rintro m x w' ⟨a3, a4, a5⟩
      exact ⟨(hs.weaken E a3).put E ⟨(hs.1 j).1, a4⟩, a3⟩
  | assign i j =>
    simp only [Op.run, leaves_bind, leaves_get, leaves_ite]
    refine ⟨fun _ => refl, fun _ => sys_on_leaves E hs ?_⟩
    obtain ⟨hk, hj⟩ := hs.1 j
    have hi := (hs.1 i).1
    refine (assign_runs E (s j) (s i) w (by rw [hk]; exact hj) (by rw [hi, hk]) hs.2).leaves.mono ?_ ?_
    · rintro _ c w' ⟨a1, a2, a3, -⟩
      exact ⟨⟨by rw [a3, hi], by rw [← hi, ← a3]; exact a2.map⟩, a1⟩
    · rintro _ c w' ⟨a1, a2, a3, -⟩
      exact ⟨⟨by rw [a3, hi], by rw [← hi, ← a3]; exact a2.map⟩, a1⟩
  | moveAssign i j =>
    simp only [Op.run, leaves_ite]
    refine ⟨fun _ => refl, fun _ => ?_⟩
    unfold Sys.on2 moveAssign onMaps
    simp only [leaves_zoom]
    refine (TMap.moveAssign_leaves E k (s i).map (s j).map w (hs.1 j).2).mono ?_ ?_
    · rintro m x w' ⟨a1, a2, a3, a4, a5⟩
      exact ⟨on2_put E (hs.weaken E a3) ⟨(hs.1 i).1, a1⟩ ⟨(hs.1 j).1, a4⟩, a3⟩
    · rintro m x w' ⟨a1, a2, a3, a4, a5⟩
      exact ⟨on2_put E (hs.weaken E a3) ⟨(hs.1 i).1, a1⟩ ⟨(hs.1 j).1, a4⟩, a3⟩
  | swap i j =>
    simp only [Op.run, leaves_ite]
    refine ⟨fun _ => refl, fun _ => ?_⟩
    unfold Sys.on2 swap onMaps TMap.swap
    simp only [leaves_zoom, leaves_bind, leaves_get, leaves_ite, leaves_set, leaves_undef]
    refine ⟨fun e => ⟨on2_put E hs ⟨(hs.1 i).1, ?_⟩ ⟨(hs.1 j).1, ?_⟩, Nat.le_refl _⟩, fun _ => trivial⟩
    · have : (if E.pocs = true then (s j).map.al else (s i).map.al) = (s j).map.al := by
        rcases e with e | e <;> simp [e]
      simp only; rw [this]; exact (hs.1 j).2
    · have : (if E.pocs = true then (s i).map.al else (s j).map.al) = (s i).map.al := by
        rcases e with e | e <;> simp [e]
      simp only; rw [this]; exact (hs.1 i).2
  | insertColl i j f l =>
    simp only [Op.run, leaves_bind, leaves_get, leaves_ite]
    refine ⟨fun _ => trivial, fun _ => ?_⟩
    refine sys_on_leaves E hs ?_
    unfold insertColl
    simp only [leaves_bind, leaves_ofOption]
    intro l' hl
    exact ((insertFrom_keeps E l' (collect_ok E hsub (hs.1 j).2 hl)).leaves (hs.1 i)).mono (fun _ _ _ h => ⟨h.1, h.2.2⟩) (fun _ _ _ h => ⟨h.1, h.2.2⟩)
  | insertHintColl i j h f l =>
    simp only [Op.run, leaves_bind, leaves_get, leaves_ite]
    refine ⟨fun _ => trivial, fun _ => ?_⟩
    refine sys_on_leaves E hs ?_
    unfold insertHintColl Prog.drop
    simp only [leaves_bind, leaves_ofOption, leaves_pure]
    intro l' hl
    exact ((insertHintFrom_keeps E l' (collect_ok E hsub (hs.1 j).2 hl) h).leaves (hs.1 i)).mono (fun _ _ _ h => ⟨h.1, h.2.2⟩) (fun _ _ _ h => ⟨h.1, h.2.2⟩)
  | insertLocalColl i j f l =>
    simp only [Op.run, leaves_bind, leaves_get, leaves_ite]
    refine ⟨fun _ => trivial, fun _ => ?_⟩
    refine sys_on_leaves E hs ?_
    unfold insertLocalColl
    simp only [leaves_bind, leaves_ofOption]
    intro r hl
    exact ((insertFromLocal_keeps E _ r.1 r.2 (collectLocal_ok E (hs.1 j).2 hl) (by rw [hsub])).leaves (hs.1 i)).mono
      (fun _ _ _ h => ⟨h.1, h.2.2⟩) (fun _ _ _ h => ⟨h.1, h.2.2⟩)
  | insertHintLocalColl i j h f l =>
    simp only [Op.run, leaves_bind, leaves_get, leaves_ite]
    refine ⟨fun _ => trivial, fun _ => ?_⟩
    refine sys_on_leaves E hs ?_
    unfold insertHintLocalColl Prog.drop
    simp only [leaves_bind, leaves_ofOption, leaves_pure]
    intro r hl
    exact ((insertHintFromLocal_keeps E h _ r.1 r.2 (collectLocal_ok E (hs.1 j).2 hl) (by rw [hsub])).leaves (hs.1 i)).mono
      (fun _ _ _ h => ⟨h.1, h.2.2⟩) (fun _ _ _ h => ⟨h.1, h.2.2⟩)

/-- Every reachable state satisfies the invariant. -/
theorem reach_inv {sub : Ty → TI} (hsub : ∀ t, E.tiTy (sub t) = t) {s : Sys V} {w : World} (h : Reach E k sub (Arg.OK E) s w) : SysInv E k s w := by
  induction h with
  | start al w hw => exact ⟨fun i => ⟨rfl, TMap.empty_inv E k _ _ rfl rfl⟩, hw⟩
  | ok h op ha hr ih => have := run_inv E hsub op ha _ _ ih; unfold Leaves at this; rw [hr] at this; exact this.1
  | exc h op ha hr ih => have := run_inv E hsub op ha _ _ ih; unfold Leaves at this; rw [hr] at this; exact this.1

end Coll
end PolyColl
