import Verif.Lemmas.CollErase
/-! # Operations on all segments, or on the segment of a given type -/

namespace PolyColl
open Prog

namespace Coll
variable {V : Type} (E : Env V)

/-- Two nodes with segments related by `T`. -/
def NodeRel (T : Seg V → Seg V → Prop) (a b : Node V) : Prop := b.id = a.id ∧ b.key = a.key ∧ T a.seg b.seg

/-- An operation on all segments failed: those before the failing one were treated, those after were
not. -/
def AllFail (T : Seg V → Seg V → Prop) (U : Seg V → Seg V → Prop) (l l' : List (Node V)) : Prop :=
  ∃ a n b a' s, l = a ++ n :: b ∧ l' = a' ++ { n with seg := s } :: b ∧ All2 (NodeRel T) a a' ∧ U n.seg s

theorem AllFail.mono {T T' U U' : Seg V → Seg V → Prop} (hT : ∀ a b, T a b → T' a b) (hU : ∀ a b, U a b → U' a b) {l l' : List (Node V)}
    (h : AllFail T U l l') : AllFail T' U' l l' := by
  obtain ⟨a, n, b, a', s, h1, h2, h3, h4⟩ := h
  refine ⟨a, n, b, a', s, h1, h2, ?_, hU _ _ h4⟩
  clear h1 h2
  induction h3 with
  | nil => exact .nil
  | cons h _ ih => exact .cons ⟨h.1, h.2.1, hT _ _ h.2.2⟩ ih

theorem AllFail.all {T U S : Seg V → Seg V → Prop} (hT : ∀ a b, T a b → S a b) (hU : ∀ a b, U a b → S a b) (hS : ∀ a, S a a)
    {l l' : List (Node V)} (h : AllFail T U l l') : All2 (NodeRel S) l l' := by
  obtain ⟨a, n, b, a', s, rfl, rfl, h3, h4⟩ := h
  refine All2.append ?_ (.cons ⟨rfl, rfl, hU _ _ h4⟩ (All2.refl _ (fun _ _ => ⟨rfl, rfl, hS _⟩)))
  induction h3 with
  | nil => exact .nil
  | cons h _ ih => exact .cons ⟨h.1, h.2.1, hT _ _ h.2.2⟩ ih

theorem go_runs {P : Seg V → World → Prop} (hP : Stable E P) (p : Prog (Seg V) Unit) (T : Seg V → Seg V → Prop)
    (U : Exc → Seg V → Seg V → Prop)
    (hp : ∀ s w, P s w → Runs p s w (fun _ s' w' => P s' w' ∧ Seg.Step w s s' ∧ w.next ≤ w'.next ∧ T s s')
      (fun e s' w' => P s' w' ∧ Seg.Step w s s' ∧ w.next ≤ w'.next ∧ U e s s')) :
    ∀ (l pre : List (Node V)) (c : Coll V) (w : World), c.Good E P w → c.map.nodes = pre ++ l →
      Runs (TMap.onAll.go p) l w
        (fun _ l' w' => Good E P { c with map := { c.map with nodes := pre ++ l' } } w' ∧ w.next ≤ w'.next ∧ All2 (NodeRel T) l l')
        (fun e l' w' => Good E P { c with map := { c.map with nodes := pre ++ l' } } w' ∧ w.next ≤ w'.next ∧ AllFail T (U e) l l') := by
  intro l
  induction l with
  | nil =>
    intro pre c w hc hn
    refine ⟨?_, Nat.le_refl _, .nil⟩
    rw [← hn]; exact hc
  | cons n l ih =>
    intro pre c w hc hn
    have hmem : n ∈ c.map.nodes := by rw [hn]; simp
    have h1 := hp n.seg w (hc.mem.segs n hmem)
    unfold Runs at h1 ⊢
    simp only [TMap.onAll.go]
    cases hps : p n.seg w with
    | ub => simp [hps] at h1
    | exc e s w' =>
      simp only [hps] at h1
      obtain ⟨g1, g2, g3, g4⟩ := h1
      have hg := hc.put E hP hmem g2 g3 g1
      refine ⟨?_, g3, [], n, l, [], s, rfl, rfl, .nil, g4⟩
      have := put_split (s := s) hc.map.ids hn
      rw [← this]
      exact hg
    | ok u s w' =>
      simp only [hps] at h1
      obtain ⟨g1, g2, g3, g4⟩ := h1
      have hg := hc.put E hP hmem g2 g3 g1
      have hput := put_split (s := s) hc.map.ids hn
      have := ih (pre ++ [{ n with seg := s }]) (c.put n s) w' hg (by rw [hput]; simp)
      unfold Runs at this
      simp only
      cases hgo : TMap.onAll.go p l w' with
      | ub => simp [hgo] at this
      | exc e l' w'' =>
        simp only [hgo] at this ⊢
        obtain ⟨k1, k2, a, m, b, a', s', rfl, rfl, k3, k4⟩ := this
        refine ⟨by simpa [put, TMap.put] using k1, Nat.le_trans g3 k2, n :: a, m, b, { n with seg := s } :: a', s', rfl, rfl, .cons ⟨rfl, rfl, g4⟩ k3, k4⟩
      | ok u l' w'' =>
        simp only [hgo] at this ⊢
        obtain ⟨k1, k2, k3⟩ := this
        exact ⟨by simpa [put, TMap.put] using k1, Nat.le_trans g3 k2, .cons ⟨rfl, rfl, g4⟩ k3⟩

theorem onAll_runs {P : Seg V → World → Prop} (hP : Stable E P) (p : Prog (Seg V) Unit) (T : Seg V → Seg V → Prop)
    (U : Exc → Seg V → Seg V → Prop)
    (hp : ∀ s w, P s w → Runs p s w (fun _ s' w' => P s' w' ∧ Seg.Step w s s' ∧ w.next ≤ w'.next ∧ T s s')
      (fun e s' w' => P s' w' ∧ Seg.Step w s s' ∧ w.next ≤ w'.next ∧ U e s s')) (c : Coll V) (w : World) (hc : c.Good E P w) :
    Runs (onMap (TMap.onAll p)) c w
      (fun _ c' w' => c'.Good E P w' ∧ w.next ≤ w'.next ∧ Upd T c c')
      (fun e c' w' => c'.Good E P w' ∧ w.next ≤ w'.next ∧ c'.kind = c.kind ∧ c'.map = { c.map with nodes := c'.map.nodes } ∧
        AllFail T (U e) c.map.nodes c'.map.nodes) := by
  unfold onMap TMap.onAll
  rw [runs_zoom]
  refine (runs_zoom (p := TMap.onAll.go p)).2 ?_
  refine (go_runs E hP p T U hp c.map.nodes [] c w hc (by simp)).mono ?_ ?_
  · rintro _ l' w' ⟨h1, h2, h3⟩
    exact ⟨h1, h2, rfl, rfl, h3⟩
  · rintro e l' w' ⟨h1, h2, h3⟩
    exact ⟨h1, h2, rfl, rfl, h3⟩

/-- From core invariant to invariant. -/
theorem Core.inv {c : Coll V} {w : World} (h : c.Core E w) (hs : ∀ n ∈ c.map.nodes, n.seg.snt = n.seg.end) : c.Inv E w :=
  ⟨h.map, ⟨fun n hn => ⟨h.mem.segs n hn, hs n hn⟩, h.mem.disj, h.mem.lt⟩, h.pos⟩

/-- The state after an operation on all segments. -/
theorem Upd.abs {T : Seg V → Seg V → Prop} {c c' : Coll V} (h : Upd T c c') (f : List V → List V)
    (hT : ∀ s s', T s s' → s'.ty = s.ty ∧ s'.elems = f s.elems) : c'.abs = c.abs.map fun p => (p.1, f p.2) := by
  have := h.nodes
  rw [abs_eq, abs_eq]
  generalize c.map.nodes = l at this
  generalize c'.map.nodes = l' at this
  induction this with
  | nil => rfl
  | cons h _ ih =>
    obtain ⟨h1, h2⟩ := hT _ _ h.2.2
    simp only [absNodes, List.map_cons] at ih ⊢
    rw [ih, h1, h2]

theorem Upd.mono {T T' : Seg V → Seg V → Prop} (hT : ∀ a b, T a b → T' a b) {c c' : Coll V} (h : Upd T c c') : Upd T' c c' := by
  refine ⟨h.kind, h.map, ?_⟩
  have := h.nodes
  generalize c.map.nodes = l at this
  generalize c'.map.nodes = l' at this
  induction this with
  | nil => exact .nil
  | cons h _ ih => exact .cons ⟨h.1, h.2.1, hT _ _ h.2.2⟩ ih

/-- `clear()` empties all segments. -/
theorem clearAll_weak (c : Coll V) (w : World) (hc : c.Weak E w) :
    Runs (clearAll (V := V)) c w (fun _ c' w' => Removed E c w c.abs.cleared c' w') (fun _ _ _ => False) := by
  unfold clearAll
  refine (onAll_runs E (stable_weak E) Seg.clear (fun s s' => s'.elems = [] ∧ s'.snt = s'.end ∧ Trim s s' ∧ s'.Whole E) (fun _ _ _ => False) ?_ c w hc).mono ?_ ?_
  · intro s w hs
    refine (Seg.clear_weak E s w hs).mono ?_ (fun _ _ _ h => h.elim)
    rintro _ s' w' h
    exact ⟨h.inv.core.weak E, h.step, Nat.le_of_eq h.next.symm, h.elems, h.inv.snt, Trim.of_rem E h (by simp), h.inv.core.whole E⟩
  · rintro _ c' w' ⟨h1, h2, h3⟩
    refine ⟨⟨h1.map, ⟨fun n hn => ?_, h1.mem.disj, h1.mem.lt⟩, h1.pos⟩, h3.mono (fun _ _ h => h.2.2.1), h2, ?_⟩
    · obtain ⟨a, _, h⟩ := All2.mem h3.nodes hn
      exact ⟨(h1.mem.segs n hn).core E h.2.2.2.2.2, h.2.2.2.1⟩
    · exact h3.abs (fun _ => []) (fun _ _ h => ⟨h.2.2.1.1, h.1⟩)
  · rintro _ _ _ ⟨_, _, _, _, _, _, _, _, _, _, _, _, h⟩
    exact h

theorem clearAll_runs (c : Coll V) (w : World) (hc : c.Core E w) :
    Runs (clearAll (V := V)) c w (fun _ c' w' => Removed E c w c.abs.cleared c' w') (fun _ _ _ => False) := clearAll_weak E c w (hc.weak E)

/-- What look-ups of unregistered types leave. -/
def Unreg (c : Coll V) (w : World) (t : Ty) (e : Exc) (c' : Coll V) (w' : World) : Prop :=
  c' = c ∧ w' = w ∧ e = .unregistered t ∧ t ∉ c.abs.types

theorem types_of_nodes {c : Coll V} {t : Ty} (h : ∀ n ∈ c.map.nodes, n.seg.ty ≠ t) : t ∉ c.abs.types := by
  simp only [Coll.abs, TMap.abs_types, List.mem_map, not_exists, not_and]
  exact fun n hn e => h n hn e

/-- Operations on the segment of a type. -/
theorem onInfo_runs {α : Type} (t : TI) (p : Prog (Seg V) α) (c : Coll V) (w : World) (h : c.map.Inv E c.kind w)
    {Q : α → Coll V → World → Prop} {R : Exc → Coll V → World → Prop}
    (hp : ∀ n ∈ c.map.nodes, n.seg.ty = E.tiTy t → Runs p n.seg w (fun a s w' => Q a (c.put n s) w') (fun e s w' => R e (c.put n s) w')) :
    Runs (do let it ← forInfo E t; onMap (TMap.onSeg E it p)) c w Q (fun e c' w' => Unreg c w (E.tiTy t) e c' w' ∨ R e c' w') := by
  rw [runs_bind]
  refine (forInfo_runs E t c w h).mono ?_ ?_
  · rintro it c' w' ⟨rfl, rfl, n, hr, ht⟩
    rw [runs_onSeg E h.ids hr]
    exact (hp n hr.mem ht).mono (fun _ _ _ h => h) (fun _ _ _ h => Or.inr h)
  · rintro e c' w' ⟨rfl, rfl, he, hn⟩
    exact Or.inl ⟨rfl, rfl, he, types_of_nodes hn⟩

/-- `clear(info)`. -/
theorem clearInfo_runs (t : TI) (c : Coll V) (w : World) (hc : c.Inv E w) :
    Runs (clearInfo E t) c w
      (fun _ c' w' => Removed E c w (c.abs.update (E.tiTy t) fun _ => []) c' w' ∧ E.tiTy t ∈ c.abs.types)
      (Unreg c w (E.tiTy t)) := by
  unfold clearInfo
  refine (onInfo_runs E t Seg.clear c w hc.map (R := fun _ _ _ => False) ?_).mono (fun _ _ _ h => h) (fun _ _ _ h => h.elim id False.elim)
  intro n hn ht
  refine (Seg.clear_runs E n.seg w (hc.mem.segs n hn).core).mono ?_ (fun _ _ _ h => h)
  rintro _ s w' h1
  rw [← ht]
  exact ⟨Removed.one E hc hn h1 (by simp), mem_types hn⟩

/-- Queries on the segment of a type. -/
theorem query_runs {α : Type} (f : Seg V → α) (t : TI) (c : Coll V) (w : World) (h : c.map.Inv E c.kind w) :
    Runs (query E f t) c w
      (fun a c' w' => c' = c ∧ w' = w ∧ ∃ n ∈ c.map.nodes, n.seg.ty = E.tiTy t ∧ a = f n.seg)
      (Unreg c w (E.tiTy t)) := by
  unfold query
  rw [runs_bind]
  refine (forInfo_runs E t c w h).mono ?_ ?_
  · rintro it c' w' ⟨rfl, rfl, n, hr, ht⟩
    simp only [runs_bind, runs_get, hr.node? E h.ids, runs_some, runs_pure]
    exact ⟨by trivial, by trivial, n, hr.mem, ht, by trivial⟩
  · rintro e c' w' ⟨rfl, rfl, he, hn⟩
    exact ⟨rfl, rfl, he, types_of_nodes hn⟩

theorem beginInfo_runs (t : TI) (c : Coll V) (w : World) (h : c.map.Inv E c.kind w) :
    Runs (beginInfo E t) c w
      (fun l c' w' => c' = c ∧ w' = w ∧ c.LAtB E l (E.tiTy t) 0 ∧ E.tiTy t ∈ c.abs.types)
      (Unreg c w (E.tiTy t)) := by
  unfold beginInfo
  rw [runs_bind]
  refine (forInfo_runs E t c w h).mono ?_ ?_
  · rintro it c' w' ⟨rfl, rfl, n, hr, ht⟩
    simp only [runs_bind, runs_get, hr.node? E h.ids, runs_some, runs_pure]
    exact ⟨by trivial, by trivial, ⟨n, hr.use E, ht, Nat.zero_le _, (Seg.base_zero _).symm⟩, ht ▸ mem_types hr.mem⟩
  · rintro e c' w' ⟨rfl, rfl, he, hn⟩
    exact ⟨rfl, rfl, he, types_of_nodes hn⟩

theorem endInfo_runs (t : TI) (c : Coll V) (w : World) (h : c.map.Inv E c.kind w) :
    Runs (endInfo E t) c w
      (fun l c' w' => c' = c ∧ w' = w ∧ c.LAtB E l (E.tiTy t) (c.abs.elemsOf (E.tiTy t)).length ∧ E.tiTy t ∈ c.abs.types)
      (Unreg c w (E.tiTy t)) := by
  unfold endInfo
  rw [runs_bind]
  refine (forInfo_runs E t c w h).mono ?_ ?_
  · rintro it c' w' ⟨rfl, rfl, n, hr, ht⟩
    simp only [runs_bind, runs_get, hr.node? E h.ids, runs_some, runs_pure]
    have hel : n.seg.elems = c'.abs.elemsOf n.seg.ty := (Ens.refl E h hr.mem).elems E h
    refine ⟨by trivial, by trivial, ⟨n, hr.use E, ht, ?_, ?_⟩, ht ▸ mem_types hr.mem⟩
    · rw [← ht, ← hel]; exact Nat.le_refl _
    · rw [← ht, ← hel]; exact Seg.end_eq _
  · rintro e c' w' ⟨rfl, rfl, he, hn⟩
    exact ⟨rfl, rfl, he, types_of_nodes hn⟩

/-! ### reserve -/

/-- What `reserve(n)` does to a segment. -/
structure Reserved (n : Nat) (s s' : Seg V) : Prop where
  ty : s'.ty = s.ty
  kind : s'.kind = s.kind
  elems : s'.elems = s.elems
  cap : n ≤ s'.capacity
  mono : s.capacity ≤ s'.capacity
  max : n ≤ E.maxSize s.ty
  same : n ≤ s.capacity → Vec.Same s.be.store s'.be.store
  roomy : ExactReserve E → 1 ≤ n → s'.Roomy
  snt : s'.snt = s'.end

/-- What a failed `reserve(n)` does to a segment. -/
structure ReserveFail (n : Nat) (e : Exc) (s s' : Seg V) : Prop where
  ty : s'.ty = s.ty
  kind : s'.kind = s.kind
  store : s'.be.store = s.be.store
  snt : s'.snt = s.snt
  exc : ExcFrom E s.ty False (E.maxSize s.ty < n ∨ s.kind = .split ∧ E.idxMaxSize < n + 1) e
  packed : s.kind = .packed → s' = s

theorem reserve_core (n : Nat) (s : Seg V) (w : World) (h : s.Core E w) :
    Runs (Seg.reserve E n) s w (fun _ s' w' => s'.Core E w' ∧ Seg.Step w s s' ∧ w.next ≤ w'.next ∧ Reserved E n s s')
      (fun e s' w' => s'.Core E w' ∧ Seg.Step w s s' ∧ w.next ≤ w'.next ∧ ReserveFail E n e s s') := by
  refine (Seg.reserve_runs E n s w h).mono ?_ ?_
  · rintro _ s' w' ⟨a1, a2, a3, a4, a5, a6, a7, a8, a9⟩
    exact ⟨a1.core, a2, a4, a2.ty, a2.kind, a3, a5, a6, a7, a8, a9, a1.snt⟩
  · rintro e s' w' ⟨a1, a2, a3, a4, a5, a6, a7⟩
    exact ⟨a1, a2, a4, a2.ty, a2.kind, a3, a5, a6, a7⟩

theorem AllFail.abs {T U : Seg V → Seg V → Prop} {c c' : Coll V} (h : AllFail T U c.map.nodes c'.map.nodes)
    (hT : ∀ s s', T s s' → s'.ty = s.ty ∧ s'.elems = s.elems) (hU : ∀ s s', U s s' → s'.ty = s.ty ∧ s'.elems = s.elems) : c'.abs = c.abs := by
  have := h.all (S := fun s s' => s'.ty = s.ty ∧ s'.elems = s.elems) hT hU (fun _ => ⟨rfl, rfl⟩)
  rw [abs_eq, abs_eq]
  generalize c.map.nodes = l at this
  generalize c'.map.nodes = l' at this
  induction this with
  | nil => rfl
  | cons h _ ih =>
    simp only [absNodes, List.map_cons] at ih ⊢
    rw [ih, h.2.2.1, h.2.2.2]

theorem abs_id {c c' : Coll V} {T : Seg V → Seg V → Prop} (h : Upd T c c') (hT : ∀ s s', T s s' → s'.ty = s.ty ∧ s'.elems = s.elems) : c'.abs = c.abs := by
  rw [h.abs id hT]; simp

/-- `reserve(n)`, also if cached ends are wrong. -/
theorem reserveAll_core (n : Nat) (c : Coll V) (w : World) (hc : c.Core E w) :
    Runs (reserveAll E n) c w
      (fun _ c' w' => c'.Inv E w' ∧ w.next ≤ w'.next ∧ Upd (Reserved E n) c c' ∧ c'.abs = c.abs)
      (fun e c' w' => c'.Core E w' ∧ w.next ≤ w'.next ∧ c'.kind = c.kind ∧ c'.map = { c.map with nodes := c'.map.nodes } ∧
        AllFail (Reserved E n) (ReserveFail E n e) c.map.nodes c'.map.nodes ∧ c'.abs = c.abs) := by
  unfold reserveAll
  refine (onAll_runs E (stable_core E) (Seg.reserve E n) (Reserved E n) (ReserveFail E n) (reserve_core E n) c w hc).mono ?_ ?_
  · rintro _ c' w' ⟨h1, h2, h3⟩
    refine ⟨Core.inv E h1 ?_, h2, h3, abs_id h3 (fun _ _ h => ⟨h.ty, h.elems⟩)⟩
    intro n hn
    obtain ⟨a, _, h⟩ := All2.mem h3.nodes hn
    exact h.2.2.snt
  · rintro e c' w' ⟨h1, h2, h3, h4, h5⟩
    exact ⟨h1, h2, h3, h4, h5, h5.abs (fun _ _ h => ⟨h.ty, h.elems⟩) (fun _ _ h => ⟨h.ty, by simp [Seg.elems, h.store]⟩)⟩

/-- `reserve(n)`. -/
theorem reserveAll_runs (n : Nat) (c : Coll V) (w : World) (hc : c.Inv E w) :
    Runs (reserveAll E n) c w
      (fun _ c' w' => c'.Inv E w' ∧ w.next ≤ w'.next ∧ Upd (Reserved E n) c c' ∧ c'.abs = c.abs)
      (fun e c' w' => c'.Core E w' ∧ w.next ≤ w'.next ∧ c'.kind = c.kind ∧ c'.map = { c.map with nodes := c'.map.nodes } ∧
        AllFail (Reserved E n) (ReserveFail E n e) c.map.nodes c'.map.nodes ∧ c'.abs = c.abs ∧ (c.kind = .packed → c'.Inv E w')) := by
  refine (reserveAll_core E n c w (Inv.core E hc)).mono (fun _ _ _ h => h) ?_
  rintro e c' w' ⟨h1, h2, h3, h4, h5, h6⟩
  refine ⟨h1, h2, h3, h4, h5, h6, fun hk => Core.inv E h1 ?_⟩
  intro n hn
  obtain ⟨a, ha, _, _, h⟩ := All2.mem (h5.all (S := fun s s' => (s.kind = .packed ∧ s.snt = s.end) → s'.snt = s'.end) (fun _ _ h _ => h.snt)
    (fun a b h hs => by rw [h.packed hs.1]; exact hs.2) (fun _ h => h.2)) hn
  exact h ⟨by rw [hc.map.kind a ha, hk], (hc.mem.segs a ha).snt⟩

/-- `reserve(info,n)`. -/
theorem reserveInfo_runs (t : TI) (n : Nat) (c : Coll V) (w : World) (hc : c.Inv E w) :
    Runs (reserveInfo E t n) c w
      (fun _ c' w' => c'.Inv E w' ∧ w.next ≤ w'.next ∧ c'.abs = c.abs ∧ E.tiTy t ∈ c.abs.types ∧
        ∃ m ∈ c.map.nodes, m.seg.ty = E.tiTy t ∧ ∃ s, c' = c.put m s ∧ Reserved E n m.seg s)
      (fun e c' w' => Unreg c w (E.tiTy t) e c' w' ∨
        (c'.Core E w' ∧ w.next ≤ w'.next ∧ c'.abs = c.abs ∧ (c.kind = .packed → c' = c) ∧
          ∃ m ∈ c.map.nodes, m.seg.ty = E.tiTy t ∧ ∃ s, c' = c.put m s ∧ ReserveFail E n e m.seg s)) := by
  unfold reserveInfo
  refine onInfo_runs E t (Seg.reserve E n) c w hc.map ?_
  intro m hm ht
  refine (Seg.reserve_runs E n m.seg w (hc.mem.segs m hm).core).mono ?_ ?_
  · rintro _ s w' ⟨a1, a2, a3, a4, a5, a6, a7, a8, a9⟩
    refine ⟨hc.put E (stable_inv E) hm a2 a4 a1, a4, ?_, ht ▸ mem_types hm, m, hm, ht, s, rfl, ⟨a2.ty, a2.kind, a3, a5, a6, a7, a8, a9, a1.snt⟩⟩
    exact abs_id (put_upd (T := fun s s' => s'.ty = s.ty ∧ s'.elems = s.elems) hc.map.ids hm (fun _ => ⟨rfl, rfl⟩) ⟨a2.ty, a3⟩) (fun _ _ h => h)
  · rintro e s w' ⟨a1, a2, a3, a4, a5, a6, a7⟩
    refine ⟨(Inv.core E hc).put E (stable_core E) hm a2 a4 a1, a4, ?_, ?_, m, hm, ht, s, rfl, ⟨a2.ty, a2.kind, a3, a5, a6, a7⟩⟩
    · exact abs_id (put_upd (T := fun s s' => s'.ty = s.ty ∧ s'.elems = s.elems) hc.map.ids hm (fun _ => ⟨rfl, rfl⟩) ⟨a2.ty, by simp [Seg.elems, a3]⟩) (fun _ _ h => h)
    · intro hk
      rw [a7 (by rw [hc.map.kind m hm, hk])]
      exact put_self E hc hm

/-- `reserve<T>(n)`. -/
theorem reserveT_runs (t : TI) (n : Nat) (c : Coll V) (w : World) (hc : c.Inv E w) :
    Runs (reserveT E t n) c w
      (fun _ c' w' => ∃ m d w1 s, Ens E c w (E.tiTy t) m d w1 ∧ c' = d.put m s ∧ c'.Inv E w' ∧ w1.next ≤ w'.next ∧
        c'.abs = d.abs ∧ Reserved E n m.seg s)
      (fun e c' w' => EnsFail E c w (E.tiTy t) e c' w' ∨
        ∃ m d w1 s, Ens E c w (E.tiTy t) m d w1 ∧ c' = d.put m s ∧ c'.Core E w' ∧ w1.next ≤ w'.next ∧
          c'.abs = d.abs ∧ ReserveFail E n e m.seg s ∧ (c.kind = .packed → c' = d)) := by
  unfold reserveT
  rw [runs_bind]
  refine (forT_runs E t c w hc.map).mono ?_ (fun _ _ _ h => Or.inl h)
  rintro it d w1 ⟨m, ens, hr⟩
  have hd := ens.good E (stable_inv E) hc
  rw [runs_onSeg E ens.inv.ids hr, runs_downcast ens.ty]
  refine (Seg.reserve_runs E n m.seg w1 (hd.mem.segs m hr.mem).core).mono ?_ ?_
  · rintro _ s w' ⟨a1, a2, a3, a4, a5, a6, a7, a8, a9⟩
    refine ⟨m, d, w1, s, ens, rfl, hd.put E (stable_inv E) hr.mem a2 a4 a1, a4, ?_, ⟨a2.ty, a2.kind, a3, a5, a6, a7, a8, a9, a1.snt⟩⟩
    exact abs_id (put_upd (T := fun s s' => s'.ty = s.ty ∧ s'.elems = s.elems) hd.map.ids hr.mem (fun _ => ⟨rfl, rfl⟩) ⟨a2.ty, a3⟩) (fun _ _ h => h)
  · rintro e s w' ⟨a1, a2, a3, a4, a5, a6, a7⟩
    refine Or.inr ⟨m, d, w1, s, ens, rfl, (Inv.core E hd).put E (stable_core E) hr.mem a2 a4 a1, a4, ?_, ⟨a2.ty, a2.kind, a3, a5, a6, a7⟩, ?_⟩
    · exact abs_id (put_upd (T := fun s s' => s'.ty = s.ty ∧ s'.elems = s.elems) hd.map.ids hr.mem (fun _ => ⟨rfl, rfl⟩) ⟨a2.ty, by simp [Seg.elems, a3]⟩) (fun _ _ h => h)
    · intro hk
      rw [a7 (by rw [hd.map.kind m hr.mem, ens.kind, hk])]
      exact put_self E hd hr.mem

/-! ### shrink_to_fit -/

/-- What `shrink_to_fit` does to a segment. -/
structure Shrunk (s s' : Seg V) : Prop where
  ty : s'.ty = s.ty
  kind : s'.kind = s.kind
  elems : s'.elems = s.elems
  cap : s'.capacity ≤ s.capacity ∨ s.kind = .split ∧ s.elems = [] ∧ s'.capacity = E.lib.reserveCap 1

theorem shrink_core (s : Seg V) (w : World) (h : s.Inv E w) :
    Runs (Seg.shrinkToFit E) s w (fun _ s' w' => s'.Inv E w' ∧ Seg.Step w s s' ∧ w.next ≤ w'.next ∧ Shrunk E s s')
      (fun e s' w' => s'.Inv E w' ∧ Seg.Step w s s' ∧ w.next ≤ w'.next ∧
        (Shrunk E s s' ∧ s'.begin = s.begin ∧ ExcFrom E s.ty False (s.kind = .split ∧ (E.idxMaxSize ≤ s.capacity ∨ E.idxMaxSize ≤ E.lib.reserveCap 1)) e ∧ (s.kind = .packed → s' = s))) := by
  refine (Seg.shrinkToFit_runs E s w h).mono ?_ ?_
  · rintro _ s' w' ⟨a1, a2, a3, a4, a5⟩
    exact ⟨a1, a2, a4, a2.ty, a2.kind, a3, a5⟩
  · rintro e s' w' ⟨a1, a2, a3, a4, a5, a6, a7, a8⟩
    exact ⟨a1, a2, a4, ⟨a2.ty, a2.kind, a3, a6⟩, a5, a7, a8⟩

/-- When `shrink_to_fit` may say `length_error`: the index of a split segment cannot hold as many entries as the
store may keep elements. -/
def ShrinkLong (c : Coll V) (t : Ty) : Prop :=
  c.kind = .split ∧ ∃ m ∈ c.map.nodes, m.seg.ty = t ∧ (E.idxMaxSize ≤ m.seg.capacity ∨ E.idxMaxSize ≤ E.lib.reserveCap 1)

/-- `shrink_to_fit()`. -/
theorem shrinkAll_runs (c : Coll V) (w : World) (hc : c.Inv E w) :
    Runs (shrinkAll E) c w
      (fun _ c' w' => c'.Inv E w' ∧ w.next ≤ w'.next ∧ Upd (Shrunk E) c c' ∧ c'.abs = c.abs)
      (fun e c' w' => c'.Inv E w' ∧ w.next ≤ w'.next ∧ c'.abs = c.abs ∧ (∃ t ∈ c.abs.types, ExcFrom E t False (ShrinkLong E c t) e) ∧
        Upd (fun s s' => Shrunk E s s') c c') := by
  unfold shrinkAll
  refine (onAll_runs E (stable_inv E) (Seg.shrinkToFit E) (Shrunk E) _ (shrink_core E) c w hc).mono ?_ ?_
  · rintro _ c' w' ⟨h1, h2, h3⟩
    exact ⟨h1, h2, h3, abs_id h3 (fun _ _ h => ⟨h.ty, h.elems⟩)⟩
  · rintro e c' w' ⟨h1, h2, h3, h4, h5⟩
    refine ⟨h1, h2, h5.abs (fun _ _ h => ⟨h.ty, h.elems⟩) (fun _ _ h => ⟨h.1.ty, h.1.elems⟩), ?_, h3, h4,
      h5.all (fun _ _ h => h) (fun _ _ h => h.1) (fun s => ⟨rfl, rfl, rfl, Or.inl (Nat.le_refl _)⟩)⟩
    obtain ⟨a, n, b, a', s, g1, g2, g3, g4⟩ := h5
    have hn : n ∈ c.map.nodes := by rw [g1]; simp
    exact ⟨n.seg.ty, mem_types hn, g4.2.2.1.mono id (fun h => ⟨(hc.map.kind n hn).symm.trans h.1, n, hn, rfl, h.2⟩)⟩

/-- `shrink_to_fit(info)`. -/
theorem shrinkInfo_runs (t : TI) (c : Coll V) (w : World) (hc : c.Inv E w) :
    Runs (shrinkInfo E t) c w
      (fun _ c' w' => c'.Inv E w' ∧ w.next ≤ w'.next ∧ c'.abs = c.abs ∧ E.tiTy t ∈ c.abs.types ∧
        ∃ m ∈ c.map.nodes, m.seg.ty = E.tiTy t ∧ ∃ s, c' = c.put m s ∧ Shrunk E m.seg s)
      (fun e c' w' => Unreg c w (E.tiTy t) e c' w' ∨
        (c'.Inv E w' ∧ w.next ≤ w'.next ∧ c'.abs = c.abs ∧ ExcFrom E (E.tiTy t) False (ShrinkLong E c (E.tiTy t)) e ∧
          ∃ m ∈ c.map.nodes, m.seg.ty = E.tiTy t ∧ ∃ s, c' = c.put m s ∧ Shrunk E m.seg s)) := by
  unfold shrinkInfo
  refine onInfo_runs E t (Seg.shrinkToFit E) c w hc.map ?_
  intro m hm ht
  refine (shrink_core E m.seg w (hc.mem.segs m hm)).mono ?_ ?_
  · rintro _ s w' ⟨a1, a2, a3, a4⟩
    refine ⟨hc.put E (stable_inv E) hm a2 a3 a1, a3, ?_, ht ▸ mem_types hm, m, hm, ht, s, rfl, a4⟩
    exact abs_id (put_upd (T := fun s s' => s'.ty = s.ty ∧ s'.elems = s.elems) hc.map.ids hm (fun _ => ⟨rfl, rfl⟩) ⟨a4.ty, a4.elems⟩) (fun _ _ h => h)
  · rintro e s w' ⟨a1, a2, a3, a4, a5, a6, a7⟩
    refine ⟨hc.put E (stable_inv E) hm a2 a3 a1, a3, ?_,
      ht ▸ a6.mono id (fun h => ⟨(hc.map.kind m hm).symm.trans h.1, m, hm, rfl, h.2⟩), m, hm, ht, s, rfl, a4⟩
    exact abs_id (put_upd (T := fun s s' => s'.ty = s.ty ∧ s'.elems = s.elems) hc.map.ids hm (fun _ => ⟨rfl, rfl⟩) ⟨a4.ty, a4.elems⟩) (fun _ _ h => h)

end Coll
end PolyColl
