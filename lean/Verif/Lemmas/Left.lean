import Verif.Lemmas.WholeColl
/-!
# The source of an allocator-extended move construction that threw

Each segment has its buffers and its cached end; its elements are where they were (though maybe moved
from), or gone.
-/

namespace PolyColl
open Prog
variable {V : Type} {E : Env V}

theorem Env.moveVec_left (t : Ty) (s : Vec V) (w : World) (h : s.WF w) :
    Runs (E.moveVec t false) s w (fun _ s' _ => Vec.Same s s' ∧ s'.size = 0) (fun _ s' _ => Vec.Same s s' ∧ s'.size = s.size) := by
  have h1 : Runs (E.moveVec t false) s w (fun _ s' _ => Vec.Same s s') (fun _ _ _ => True) := by
    unfold Env.moveVec
    simp only [Bool.false_eq_true, if_false, runs_ite, runs_pure, runs_bind, E.runs_alloc, runs_get, runs_set, runs_onExc]
    refine ⟨fun _ => ⟨rfl, rfl⟩, fun _ => ⟨fun _ => trivial, fun _ => ?_⟩⟩
    refine (Env.each_runs _ s.elems s _ (fun _ => True) True (fun b _ w => ?_)).mono ?_ ?_
    · exact (E.moveVH_runs t s w).mono (by rintro _ _ _ ⟨h1, h2⟩; exact ⟨h1, h2, trivial⟩) (by rintro _ _ _ h; exact ⟨h.1, h.2.1, trivial⟩)
    · rintro _ x' w' ⟨rfl, -⟩
      exact ⟨rfl, rfl⟩
    · rintro e x' w' ⟨rfl, -⟩
      exact E.spoil_runs _ _ _ _ (Nat.le_refl _) fun _ _ _ _ => trivial
  refine (h1.and (E.moveVec_runs t false s w h)).mono ?_ ?_
  · rintro a s' w' ⟨h1, -, h2, -⟩
    exact ⟨h1, by simp [Vec.size, h2]⟩
  · rintro e s' w' ⟨-, h1, h2, -⟩
    exact ⟨h1, h2⟩

namespace Seg

/-- `b` is left of `a`: the buffers and the cached end are the same, and so is the number of elements unless
there are none left. -/
structure Left (a b : Seg V) : Prop where
  frame : TMap.SegFrame a b
  snt : b.snt = a.snt
  store : Vec.Same a.be.store b.be.store
  size : b.size = a.size ∨ b.size = 0
  index : ∀ y y', a.be = .split y → b.be = .split y' → y'.i = y.i

theorem Left.refl (a : Seg V) : a.Left a := ⟨⟨rfl, rfl, rfl, rfl⟩, rfl, ⟨rfl, rfl⟩, Or.inl rfl, fun y y' h h' => by rw [h] at h'; injection h' with h'; rw [h']⟩

theorem moveAl_left (al : Alloc) (x : Seg V) (w : World) (h : x.Core E w) (hf : x.al ≠ al) :
    Runs (moveAl E al) x w (fun _ x' _ => x.Left x' ∧ x'.size = 0) (fun _ x' _ => x.Left x') := by
  obtain ⟨be, snt⟩ := x
  unfold moveAl
  rw [runs_zoom]
  cases be with
  | packed y =>
    have h : y.s.WF w := h
    have hf : decide (y.al = al) = false := decide_eq_false hf
    refine Backend.run_packed.2 ?_
    simp only [runs_bind, Packed.move, runs_pure, E.runs_alloc, runs_get, Packed.onS, runs_zoom, hf]
    refine (Env.moveVec_left y.ty y.s w h).mono ?_ ?_
    · rintro s s1 w1 ⟨h1, h2⟩
      have key : Left (⟨.packed y, snt⟩ : Seg V) ⟨.packed { y with s := s1 }, snt⟩ := ⟨⟨rfl, rfl, rfl, rfl⟩, rfl, h1, Or.inr h2, fun _ _ h => by cases h⟩
      exact ⟨fun _ => key, fun _ => ⟨key, h2⟩⟩
    · rintro e s1 w1 ⟨h1, h2⟩
      exact ⟨⟨rfl, rfl, rfl, rfl⟩, rfl, h1, Or.inl h2, fun _ _ h => by cases h⟩
  | split y =>
    have h : y.Inv E w := h
    have hf : decide (y.al = al) = false := decide_eq_false hf
    refine Backend.run_split.2 ?_
    simp only [runs_bind, Split.move, runs_pure, E.runs_alloc, runs_get, Split.onS, runs_zoom, hf]
    refine ((Env.moveVec_left y.ty y.s w h.swf).and (E.moveVec_runs y.ty false y.s w h.swf)).mono ?_ ?_
    · rintro s s1 w1 ⟨⟨h1, h2⟩, a1, a2, a3, a4, a5, -, a6⟩
      have key : Left (⟨.split y, snt⟩ : Seg V) ⟨.split { y with s := s1 }, snt⟩ := ⟨⟨rfl, rfl, rfl, rfl⟩, rfl, h1, Or.inr h2, fun _ _ h h' => by cases h; cases h'; rfl⟩
      refine ⟨fun _ => key, fun _ => ?_⟩
      refine (Split.init_runs E y.ty al al s _ _ (a3.weaken (by simp)) (fun _ => Or.inl ?_)).mono ?_ ?_
      · rw [(a6 rfl).2.2, Vec.size, Vec.size, a1]
      · rintro y' x' w' ⟨rfl, -⟩
        exact ⟨key, h2⟩
      · rintro e x' w' ⟨rfl, -⟩
        exact key
    · rintro e s1 w1 ⟨⟨h1, h2⟩, -⟩
      exact ⟨⟨rfl, rfl, rfl, rfl⟩, rfl, h1, Or.inl h2, fun _ _ h h' => by cases h; cases h'; rfl⟩

theorem Left.begin {a b : Seg V} (h : a.Left b) : b.begin = a.begin := by
  obtain ⟨ha, sa⟩ := a
  obtain ⟨hb, sb⟩ := b
  cases ha with
  | packed y =>
    cases hb with
    | packed y' =>
      show Vec.ptr y'.s 0 = Vec.ptr y.s 0
      have : y'.s.blk = y.s.blk := h.store.1
      rw [Vec.ptr, Vec.ptr, this]
    | split y' => cases h.frame.kind
  | split y =>
    cases hb with
    | packed y' => cases h.frame.kind
    | split y' =>
      show Vec.ptr y'.i 0 = Vec.ptr y.i 0
      rw [h.index y y' rfl rfl]

theorem Left.blocks {a b : Seg V} (h : a.Left b) : b.blocks = a.blocks := by
  obtain ⟨ha, sa⟩ := a
  obtain ⟨hb, sb⟩ := b
  cases ha with
  | packed y =>
    cases hb with
    | packed y' =>
      show [y'.s.blk] = [y.s.blk]
      have : y'.s.blk = y.s.blk := h.store.1
      rw [this]
    | split y' => cases h.frame.kind
  | split y =>
    cases hb with
    | packed y' => cases h.frame.kind
    | split y' =>
      show [y'.s.blk, y'.i.blk] = [y.s.blk, y.i.blk]
      have : y'.s.blk = y.s.blk := h.store.1
      rw [this, h.index y y' rfl rfl]

theorem _root_.PolyColl.Vec.WF.same {α : Type} {s s' : Vec α} {w w' : World} (h : s.WF w) (hs : Vec.Same s s') (hn : s'.size = s.size) (hw : w.next ≤ w'.next) : s'.WF w' :=
  ⟨by have := h.lt; rw [hs.1]; omega, by have := h.le; rw [hs.2]; omega, by rw [hs.1, hs.2]; exact h.nul⟩

theorem Left.core {a b : Seg V} {w w' : World} (h : a.Left b) (ha : a.Core E w) (hs : b.size = a.size) (hw : w.next ≤ w'.next) : b.Core E w' := by
  obtain ⟨ea, sa⟩ := a
  obtain ⟨eb, sb⟩ := b
  cases ea with
  | packed y =>
    cases eb with
    | packed y' => exact Vec.WF.same (s := y.s) (s' := y'.s) ha h.store hs hw
    | split y' => cases h.frame.kind
  | split y =>
    cases eb with
    | packed y' => cases h.frame.kind
    | split y' =>
      have ha : y.Inv E w := ha
      have hi := h.index y y' rfl rfl
      have h1 : y'.s.blk = y.s.blk := h.store.1
      have h2 : y'.s.cap = y.s.cap := h.store.2
      have hs : y'.s.size = y.s.size := hs
      refine (⟨ha.swf.same h.store hs hw, hi ▸ ha.iwf.weaken hw, h1 ▸ ha.snz, by rw [hi, h1]; exact ha.ne, ?_, ?_⟩ : y'.Inv E w')
      · rw [hi, ha.idx]
        unfold Split.goodIndex Vec.ptr
        rw [h1, hs]
      · rw [hi, h2, hs]
        exact ha.cap

theorem Left.inv {a b : Seg V} {w w' : World} (h : a.Left b) (ha : a.Inv E w) (hs : b.size = a.size) (hw : w.next ≤ w'.next) : b.Inv E w' :=
  ⟨h.core ha.core hs hw, by rw [h.snt, ha.snt, Seg.end_eq, Seg.end_eq, Seg.base, Seg.base, h.begin, hs]⟩

theorem Left.weak {a b : Seg V} {w w' : World} (h : a.Left b) (ha : a.Core E w) (hw : w.next ≤ w'.next) : b.Weak E w' := by
  have hsz := h.size
  obtain ⟨ea, sa⟩ := a
  obtain ⟨eb, sb⟩ := b
  have wf : ∀ {s s' : Vec V}, s.WF w → Vec.Same s s' → (s'.size = s.size ∨ s'.size = 0) → s'.WF w' := fun {s s'} h1 h2 h3 =>
    ⟨by have := h1.lt; rw [h2.1]; omega, by have := h1.le; rw [h2.2]; omega, by rw [h2.1, h2.2]; exact h1.nul⟩
  cases ea with
  | packed y =>
    cases eb with
    | packed y' => exact wf (s := y.s) (s' := y'.s) ha h.store hsz
    | split y' => cases h.frame.kind
  | split y =>
    cases eb with
    | packed y' => cases h.frame.kind
    | split y' =>
      have ha : y.Weak E w := Split.Inv.weak E ha
      have hi := h.index y y' rfl rfl
      have h1 : y'.s.blk = y.s.blk := h.store.1
      have h2 : y'.s.cap = y.s.cap := h.store.2
      refine (⟨wf (s := y.s) (s' := y'.s) ha.swf h.store hsz, hi ▸ ha.iwf.weaken hw, h1 ▸ ha.snz, by rw [hi, h1]; exact ha.ne, ?_, ?_⟩ : y'.Weak E w')
      · rw [hi, Vec.ptr, h1]
        exact ha.head
      · rw [hi, h2]
        exact ha.cap

end Seg

namespace TMap

/-- The same for nodes. -/
structure NodeLeft (a b : Node V) : Prop where
  id : b.id = a.id
  key : b.key = a.key
  seg : a.seg.Left b.seg

theorem moveNodes_left (al : Alloc) : ∀ (l : List (Node V)) (w : World), (∀ n ∈ l, n.seg.Core E w ∧ n.seg.al ≠ al) →
    Runs (moveNodes E al) l w (fun _ l' _ => All2 NodeLeft l l') (fun _ l' _ => All2 NodeLeft l l') := by
  intro l
  induction l with
  | nil => intro w hw; exact .nil
  | cons n l ih =>
    intro w hw
    have hn := hw n (by simp)
    have key : Runs (do let i ← E.alloc; let s ← Seg.moveAl E al; return (i, s) : Prog (Seg V) (Nat × Seg V)) n.seg w
        (fun _ s' w' => w.next ≤ w'.next ∧ n.seg.Left s') (fun _ s' _ => n.seg.Left s') := by
      simp only [runs_bind, E.runs_alloc, runs_pure]
      refine ⟨fun hf => Seg.Left.refl _, fun hf => ?_⟩
      have hc : n.seg.Core E ⟨w.next + 1, w.tick + 1⟩ := Backend.Inv.weaken E hn.1 (by simp)
      refine ((Seg.moveAl_left al n.seg _ hc hn.2).and (Seg.moveAl_runs E al n.seg _ hc (fun e => absurd e hn.2))).mono ?_ ?_
      · rintro s s' w' ⟨⟨h1, -⟩, -, -, -, -, -, -, h2, -⟩
        simp only at h2
        exact ⟨by omega, h1⟩
      · rintro e s' w' ⟨h1, -⟩
        exact h1
    unfold Runs at key
    unfold Runs moveNodes
    cases hp : (do let i ← E.alloc; let s ← Seg.moveAl E al; return (i, s) : Prog (Seg V) (Nat × Seg V)) n.seg w with
    | ub => rw [hp] at key; exact key.elim
    | exc e s' w' =>
      rw [hp] at key
      exact .cons ⟨rfl, rfl, key⟩ (All2.refl _ (fun a _ => ⟨rfl, rfl, Seg.Left.refl _⟩))
    | ok p s' w' =>
      rw [hp] at key
      obtain ⟨i, s⟩ := p
      obtain ⟨h1, h2⟩ := key
      have ih' := ih w' (fun a ha => ⟨Backend.Inv.weaken E (hw a (by simp [ha])).1 h1, (hw a (by simp [ha])).2⟩)
      unfold Runs at ih'
      simp only
      cases hq : moveNodes E al l w' with
      | ub => rw [hq] at ih'; exact ih'.elim
      | exc e l' w'' => rw [hq] at ih'; exact .cons ⟨rfl, rfl, h2⟩ ih'
      | ok ns l' w'' => rw [hq] at ih'; exact .cons ⟨rfl, rfl, h2⟩ ih'

theorem moveAl_left (k : Kind) (al : Alloc) (x : TMap V) (w : World) (h : x.Inv E k w) (hm : x.Mem (Seg.Inv E) w) :
    Runs (moveAl E al) x w (fun _ _ _ => True) (fun _ x' _ => All2 NodeLeft x.nodes x'.nodes) := by
  unfold moveAl
  simp only [runs_bind, runs_get, runs_ite, runs_set, runs_pure]
  refine ⟨fun e => trivial, fun hne => ?_⟩
  unfold build clearAll
  simp only [runs_bind, runs_get, runs_set, runs_world, runs_locally]
  refine (runs_zoom (p := moveNodes E al)).2 ?_
  have hpre : ∀ n ∈ x.nodes, n.seg.Core E w ∧ n.seg.al ≠ al := fun n hn => ⟨(hm.segs n hn).core, by rw [h.al n hn]; exact hne⟩
  refine ((moveNodes_left al x.nodes w hpre).and (moveNodes_runs E al x.nodes w hpre)).mono ?_ ?_
  · rintro ns l w' ⟨h1, a1, a2, a3, a4⟩
    obtain ⟨b1, b2, b3, b4⟩ := NewNodes.inv E (b := x.buckets) (g := 0) h a2 a3 (E.shuffle_perm w'.tick ns)
    exact (buildCache_runs E k x.cache _ w' b1 b4).mono (fun _ _ _ _ => trivial) (fun _ _ _ _ => h1)
  · rintro e l w' ⟨h1, -⟩
    exact h1

theorem left_sum {l l' : List (Node V)} (h : All2 NodeLeft l l') :
    (l'.map fun n => n.seg.size).sum ≤ (l.map fun n => n.seg.size).sum ∧
    ((l'.map fun n => n.seg.size).sum = (l.map fun n => n.seg.size).sum → All2 (fun a b => NodeLeft a b ∧ b.seg.size = a.seg.size) l l') ∧
    ((l'.map fun n => n.seg.size).sum ≠ (l.map fun n => n.seg.size).sum → ∃ a ∈ l, ∃ b ∈ l', NodeLeft a b ∧ b.seg.size ≠ a.seg.size) := by
  induction h with
  | nil => exact ⟨Nat.le_refl _, fun _ => .nil, fun h => absurd rfl h⟩
  | @cons a b l l' h t ih =>
    obtain ⟨h1, h2, h3⟩ := ih
    have := h.seg.size
    simp only [List.map_cons, List.sum_cons]
    refine ⟨by omega, fun he => .cons ⟨h, by omega⟩ (h2 (by omega)), fun hne => ?_⟩
    by_cases he : b.seg.size = a.seg.size
    · obtain ⟨a', ha, b', hb, h4⟩ := h3 (by omega)
      exact ⟨a', by simp [ha], b', by simp [hb], h4⟩
    · exact ⟨a, by simp, b, by simp, h, he⟩

end TMap

namespace Coll
open TMap

/-- `clear()` can be called on what is left. -/
theorem left_weak {x y : Coll V} {w w' : World} (h : x.Inv E w) (hl : All2 NodeLeft x.map.nodes y.map.nodes)
    (hm : y.map.Inv E y.kind w') (hw : w.next ≤ w'.next) : y.Weak E w' := by
  refine ⟨hm, ⟨fun n hn => ?_, ?_, fun n hn b hb => ?_⟩, Nat.lt_of_lt_of_le h.pos hw⟩
  · obtain ⟨a, ha, h2⟩ := hl.mem hn
    exact h2.seg.weak (h.mem.segs a ha).core hw
  · have hd := h.mem.disj
    have hb := All2.map_eq (f := fun n : Node V => n.seg.blocks) (fun a b h => h.seg.blocks) hl
    rw [← List.pairwise_map (f := fun n : Node V => n.seg.blocks) (R := fun a b : List Nat => ∀ x ∈ a, x ∈ b → x = 0)] at hd ⊢
    rw [hb]
    exact hd
  · obtain ⟨a, ha, h2⟩ := hl.mem hn
    rw [h2.seg.blocks] at hb
    exact Nat.lt_of_lt_of_le (h.mem.lt a ha b hb) hw

/-- So `clear()` can be called on the source. -/
theorem moveAl_weak (al : Alloc) (x : Coll V) (w : World) (h : x.Inv E w) :
    Runs (moveAl E al) x w (fun _ _ _ => True) (fun _ x' w' => x'.Weak E w' ∧ x'.kind = x.kind ∧ w.next ≤ w'.next) := by
  have h1 : Runs (moveAl E al) x w (fun _ _ _ => True) (fun _ x' _ => All2 NodeLeft x.map.nodes x'.map.nodes) := by
    unfold moveAl onMap
    simp only [runs_bind, runs_zoom, runs_get, runs_pure]
    exact (TMap.moveAl_left x.kind al x.map w h.map h.mem).mono (fun _ _ _ _ => trivial) (fun _ _ _ h => h)
  refine (h1.and (moveAl_runs E al x w h)).mono (fun _ _ _ _ => trivial) ?_
  rintro e x' w' ⟨hl, hw, -, -, hk, hh⟩
  exact ⟨left_weak h hl (hk ▸ hh.inv) hw, hk, hw⟩

end Coll
end PolyColl
