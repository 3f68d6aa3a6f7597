import Verif.Props.SampleRange
import Verif.Props.Reading
/-!
# Properties C63 and C64: modifying elements through iterators
-/

namespace PolyColl.Props
open PolyColl Prog Coll

variable {V : Type} {E : Env V} {k : Kind}

/-! ### C63 -/

/-- Going from `c` to `c'`, one element was changed by `f` and nothing else: `n` is its position in
segment `t`.  All iterators stay valid and refer to where they referred to. -/
structure OneChanged (E : Env V) (k : Kind) (c : Coll V) (t : Ty) (n : Nat) (f : V → V) (c' : Coll V) (w' : World) : Prop where
  reach : c'.Reachable E k w'
  abs : c'.abs = c.abs.update t (fun l => l.modify n f)
  iter : ∀ it p, c.At E it p → c'.At E it p
  liter : ∀ o l u j, LAt E c o l u j → LAt E c' o l u j
  caps : c'.map.nodes.map (fun n => (n.id, n.key, n.seg.capacity)) = c.map.nodes.map (fun n => (n.id, n.key, n.seg.capacity))

theorem points_of_lat {c : Coll V} {w : World} (h : c.Reachable E k w) {o : Sort'} {l : LIter} {t : Ty} {n : Nat} (hl : LAt E c o l t n)
    (hn : n < (c.abs.elemsOf t).length) : c.Points o l.pos t n := by
  cases o <;> obtain ⟨x, hx, rfl, -, hp⟩ := hl
  all_goals exact ⟨x, hx.mem, rfl, by rw [Seg.size_eq, (Ens.refl E h.map hx.mem).elems E h.map]; exact hn, hp⟩

theorem apply_changed {c : Coll V} {w : World} (h : c.Reachable E k w) {o : Sort'} {p : Ptr} {t : Ty} {n : Nat} (hp : c.Points o p t n) (a : Act V) :
    Runs (Coll.apply E o p a) c w
      (fun v c' w' => (c.abs.elemsOf t)[n]? = some v ∧ OneChanged E k c t n a.run c' w')
      (fun e c' w' => e = .user ∧ a.nothrow = false ∧ OneChanged E k c t n a.fail c' w') := by
  have mk : ∀ {f : V → V} {c' : Coll V} {w' : World}, Edited c w t n f c' w' → c'.Reachable E k w' → OneChanged E k c t n f c' w' :=
    fun he hr => ⟨hr, he.abs h.map, fun _ _ => he.at h.map.ids,
      fun o l u j hl => by cases o with
        | base => exact he.latB h.map.ids hl
        | terminal => exact he.latL h.map.ids hl, he.capacities h.map.ids⟩
  have hpre : (COp.apply o p a).Pre E c := ⟨t, n, hp⟩
  have hrun : ∀ {r : Out (Coll V) V}, Coll.apply E o p a c w = r → (COp.apply o p a).run E c w =
      match r with | .ok _ c' w' => .ok () c' w' | .exc e c' w' => .exc e c' w' | .ub => .ub := by
    intro r hr
    show Prog.bind (Coll.apply E o p a) _ c w = _
    unfold Prog.bind
    rw [hr]
    cases r <;> rfl
  refine (Coll.apply_runs o p a c w (h.inv.core E) hp).withEq.mono ?_ ?_
  · rintro v c' w' ⟨⟨h1, h2⟩, he⟩
    exact ⟨h1, mk h2 (h.step _ hpre (hrun he))⟩
  · rintro e c' w' ⟨⟨h1, h2, h3⟩, he⟩
    exact ⟨h1, h2, mk h3 (h.stepExc _ hpre trivial (hrun he))⟩

/-- **C63**, through local iterators of both sorts: the program finds the element at the position of the
iterator; afterwards this element has the value the program gave it and nothing else has changed.  If
the action throws, the element has the value the action left, and again nothing else has changed. -/
theorem C63_local {c : Coll V} {w : World} (h : c.Reachable E k w) {o : Sort'} {l : LIter} {t : Ty} {n : Nat} (hl : LAt E c o l t n)
    (hn : n < (c.abs.elemsOf t).length) (a : Act V) :
    Runs (Coll.apply E o l.pos a) c w
      (fun v c' w' => (c.abs.elemsOf t)[n]? = some v ∧ OneChanged E k c t n a.run c' w')
      (fun e c' w' => e = .user ∧ a.nothrow = false ∧ OneChanged E k c t n a.fail c' w') :=
  apply_changed h (points_of_lat h hl hn) a

/-- **C63**, through iterators of the collection. -/
theorem C63_global {c : Coll V} {w : World} (h : c.Reachable E k w) {it : GIter} {t : Ty} {n : Nat} (hi : c.At E it (some (t, n))) (a : Act V) :
    Runs (Coll.apply E .base it.segpos a) c w
      (fun v c' w' => c.abs.at? (some (t, n)) = some v ∧ OneChanged E k c t n a.run c' w')
      (fun e c' w' => e = .user ∧ a.nothrow = false ∧ OneChanged E k c t n a.fail c' w') := by
  refine (apply_changed h hi.points a).mono ?_ (fun _ _ _ h => h)
  rintro v c' w' ⟨h1, h2⟩
  refine ⟨?_, h2⟩
  unfold Spec.State.elemsOf at h1
  show (c.abs.get t).bind (·[n]?) = some v
  cases hg : c.abs.get t with
  | none => rw [hg] at h1; simp at h1
  | some l => rw [hg] at h1; exact h1

example (k : Kind) := C63_global (Sample.reach0 k) (Sample.iter_two k) ⟨fun v => v + 1, fun v => v, false⟩

theorem elemsOf_modify {s : Spec.State V} (t u : Ty) (n : Nat) (f : V → V) :
    (s.update t (fun l => l.modify n f)).elemsOf u = if u = t then (s.elemsOf u).modify n f else s.elemsOf u := by
  unfold Spec.State.elemsOf
  rw [Spec.State.update_get]
  by_cases hu : u = t
  · rw [if_pos hu, if_pos hu]
    cases s.get u <;> simp
  · rw [if_neg hu, if_neg hu]

/-- **C63**, what is read afterwards, through any iterator that was valid before: the new value if it is
at the changed element, the value of before otherwise. -/
theorem C63_readback {c c' : Coll V} {w w' : World} {t : Ty} {n : Nat} {f : V → V} (h : c.Reachable E k w) (hc : OneChanged E k c t n f c' w') :
    (∀ it u j v, c.At E it (some (u, j)) → c.map.deref it.segpos = some v →
      c'.map.deref it.segpos = some (if u = t ∧ j = n then f v else v)) ∧
    (∀ l u j v, c.LAtB E l u j → j < (c.abs.elemsOf u).length → c.map.deref l.pos = some v →
      c'.map.deref l.pos = some (if u = t ∧ j = n then f v else v)) ∧
    ∀ l u j v, c.LAtL E l u j → j < (c.abs.elemsOf u).length → c.derefLocal l.pos = some v →
      c'.derefLocal l.pos = some (if u = t ∧ j = n then f v else v) := by
  have key : ∀ u j v, (c.abs.elemsOf u)[j]? = some v → (c'.abs.elemsOf u)[j]? = some (if u = t ∧ j = n then f v else v) := by
    intro u j v hv
    rw [hc.abs, elemsOf_modify]
    by_cases hu : u = t
    · subst hu
      rw [if_pos rfl, List.getElem?_modify, hv]
      by_cases hj : j = n
      · subst hj; simp
      · have : ¬ n = j := fun h => hj h.symm
        simp [hj, this]
    · simp [hu, hv]
  have len : ∀ u, (c'.abs.elemsOf u).length = (c.abs.elemsOf u).length := by
    intro u
    rw [hc.abs, elemsOf_modify]
    split <;> simp
  refine ⟨?_, ?_, ?_⟩
  · intro it u j v ha hd
    obtain ⟨v', h1, h2⟩ := deref_at E (h.inv.core E) ha
    have : v' = v := by rw [hd] at h1; exact (Option.some.inj h1).symm
    subst this
    refine deref_pos hc.reach.inv (hc.iter _ _ ha) (key u j v' ?_)
    have h2 : (c.abs.get u).bind (·[j]?) = some v' := h2
    unfold Spec.State.elemsOf
    cases hg : c.abs.get u with
    | none => rw [hg] at h2; cases h2
    | some l => rw [hg] at h2; exact h2
  · intro l u j v hl hj hd
    rw [deref_latB (h.inv.core E) hl hj] at hd
    rw [deref_latB (hc.reach.inv.core E) (hc.liter .base _ _ _ hl) (by rw [len]; exact hj)]
    exact key u j v hd
  · intro l u j v hl hj hd
    rw [deref_latL (h.inv.core E) hl hj] at hd
    rw [deref_latL (hc.reach.inv.core E) (hc.liter .terminal _ _ _ hl) (by rw [len]; exact hj)]
    exact key u j v hd

/-- The second element of type 0 becomes 20, through either sort of local iterator. -/
example (k : Kind) (o : Sort') : ∃ l, (Sample.c0 k).Reachable Sample.E0 k (Sample.w0 k) ∧ LAt Sample.E0 (Sample.c0 k) o l 0 1 ∧
    Runs (Coll.apply Sample.E0 o l.pos ⟨fun v => v * 10, id, true⟩) (Sample.c0 k) (Sample.w0 k)
      (fun v c' _ => v = 2 ∧ c'.abs = [(1, [9]), (0, [1, 20, 3]), (5, []), (2, [7])]) (fun _ _ _ => False) := by
  have ht : Sample.E0.tiTy 0 ∈ (Sample.c0 k).abs.types := by rw [Sample.abs0]; decide
  have hl : ((Sample.c0 k).abs.elemsOf (Sample.E0.tiTy 0)) = [1, 2, 3] := by rw [Sample.abs0]; rfl
  obtain ⟨a, b, a', b', -, -, -, -, h3, -, h5, -⟩ := C62_ends (Sample.reach0 k) ht
  have : ∃ l, LAt Sample.E0 (Sample.c0 k) o l 0 0 := by
    cases o
    · exact ⟨a, h3⟩
    · exact ⟨a', h5⟩
  obtain ⟨l0, hl0⟩ := this
  obtain ⟨l, -, hl1⟩ := C62_advance (Sample.reach0 k) hl0 (j := 1) (by show 1 ≤ ((Sample.c0 k).abs.elemsOf (Sample.E0.tiTy 0)).length; rw [hl]; decide)
  refine ⟨l, Sample.reach0 k, hl1, (C63_local (Sample.reach0 k) hl1 (by show 1 < ((Sample.c0 k).abs.elemsOf (Sample.E0.tiTy 0)).length; rw [hl]; decide) _).mono ?_ ?_⟩
  · rintro v c' w' ⟨g1, g2⟩
    have g1 : ((Sample.c0 k).abs.elemsOf (Sample.E0.tiTy 0))[1]? = some v := g1
    rw [hl] at g1
    refine ⟨(Option.some.inj g1).symm, ?_⟩
    rw [g2.abs, Sample.abs0]
    rfl
  · rintro e c' w' ⟨-, h, -⟩
    cases h

/-! ### C64 -/

/-- **C64**: assigning an element of a `function_collection` to itself through iterators has no effect.
Missing: any other assignment, see `C64_rebinds`. -/
theorem C64_self_partial {c : Coll V} {w : World} (h : c.Reachable E .split w) {it : GIter} {t : Ty} {n : Nat} (hi : c.At E it (some (t, n))) :
    Runs (Coll.rebind E it.segpos it.segpos) c w (fun _ c' w' => c' = c ∧ w' = w) (fun _ _ _ => False) :=
  rebind_self_runs _ c w h.inv h.kind hi.points

example := C64_self_partial (Sample.reach0 .split) (Sample.iter_two .split)

/-- **C64 fails** always: `*it=*jt`, whatever the positions and types, assigns no element (the contents of
the segments are the same) but makes `it` refer to the element `jt` refers to.  In particular converting
the local base iterator at the position of `it` to `local_iterator<T>` gives a pointer to the element at
the position of `jt`, though this may have another type. -/
theorem C64_rebinds {c : Coll V} {w : World} (h : c.Reachable E .split w) {it jt : GIter} {t u : Ty} {i j : Nat}
    (hi : c.At E it (some (t, i))) (hj : c.At E jt (some (u, j))) :
    Runs (Coll.rebind E it.segpos jt.segpos) c w
      (fun _ c' w' => w' = w ∧ c'.abs = c.abs ∧
        ∀ l l', c.LAtB E l t i → c.LAtL E l' u j → (c'.toLocal E l).map (·.pos) = some l'.pos)
      (fun _ _ _ => False) := by
  refine (rebind_runs _ _ c w (h.inv.core E) h.kind hi.points hj.points).mono ?_ (fun _ _ _ h => h)
  rintro _ c' w' ⟨rfl, n, hn, m, hm, rfl, rfl, h1, h2, rfl⟩
  refine ⟨rfl, ?_, ?_⟩
  · rw [put_abs E h.map hn (Seg.redirect_ty _ _ _), Seg.redirect_elems]
    unfold Spec.State.update
    conv => rhs; rw [← List.map_id c.abs]
    refine List.map_congr_left fun e he => ?_
    by_cases h2 : e.1 = n.seg.ty
    · have : e.2 = n.seg.elems := by
        simp only [Coll.abs, TMap.abs, List.mem_map] at he
        obtain ⟨m, hm, rfl⟩ := he
        exact congrArg (fun m : Node V => m.seg.elems) (PolyColl.eq_of_nodup (f := fun a : Node V => a.seg.ty) (TMap.Inv.nodup_ty E h.map) hm hn h2)
      obtain ⟨e1, e2⟩ := e
      simp only at h2 this
      simp [h2, this]
    · simp [h2]
  · rintro l l' ⟨x, hx, hxt, -, hxp⟩ ⟨y, hy, hyt, -, hyp⟩
    have e1 := PolyColl.eq_of_nodup (f := fun a : Node V => a.seg.ty) (TMap.Inv.nodup_ty E h.map) hx.mem hn hxt
    have e2 := PolyColl.eq_of_nodup (f := fun a : Node V => a.seg.ty) (TMap.Inv.nodup_ty E h.map) hy.mem hm hyt
    subst e1 e2
    have hu := put_use_self E (s := x.seg.redirect i (y.seg.loc j)) hx
    have hids : ((c.put x (x.seg.redirect i (y.seg.loc j))).map.nodes.map (·.id)).Nodup := by
      show ((c.map.put x _).nodes.map (·.id)).Nodup
      rw [TMap.put_ids]; exact h.map.ids
    unfold toLocal
    have hcore := (h.inv.mem.segs x hn).core
    simp only [hu.node? E hids, hxp, Seg.redirect_toLocal hcore ((h.map.kind x hn).trans h.kind) h1 _ (Nat.le_of_lt h1), if_true, Option.map_some, hyp]

example := C64_rebinds (Sample.reach0 .split) (Sample.iter_two .split) (Sample.iter_four .split)

/-- The hypotheses of `C64_rebinds` are met by elements of different types: after `*it=*jt` the conversion of
an iterator at an element of type 0 gives a pointer to the element of type 1. -/
theorem C64_wrong_type : ∃ (E : Env Nat) (c c' : Coll Nat) (w w' : World) (it jt : GIter) (l l' : LIter), c.Reachable E .split w ∧
    c.At E it (some (0, 0)) ∧ c.At E jt (some (1, 0)) ∧ c.LAtB E l 0 0 ∧ c.LAtL E l' 1 0 ∧
    Coll.rebind E it.segpos jt.segpos c w = .ok () c' w' ∧ (c'.toLocal E l).map (·.pos) = some l'.pos := by
  have h := Sample.reach0 .split
  have ht : ∀ t n, n < ((Sample.c0 .split).abs.elemsOf t).length → t ∈ (Sample.c0 .split).abs.types →
      ∃ x, x ∈ (Sample.c0 .split).map.nodes ∧ x.seg.ty = t ∧ n < x.seg.size := by
    intro t n hn ht
    obtain ⟨x, hx, rfl⟩ := types_mem ht
    exact ⟨x, hx, rfl, by rw [Seg.size_eq, (Ens.refl Sample.E0 h.map hx).elems Sample.E0 h.map]; exact hn⟩
  obtain ⟨x, hx, hxt, hxs⟩ := ht 0 0 (by rw [Sample.abs0]; decide) (by rw [Sample.abs0]; decide)
  obtain ⟨y, hy, hyt, hys⟩ := ht 1 0 (by rw [Sample.abs0]; decide) (by rw [Sample.abs0]; decide)
  have ux : (Sample.c0 .split).map.Use Sample.E0 ((Sample.c0 .split).map.itTo x) x := use_itTo hx
  have uy : (Sample.c0 .split).map.Use Sample.E0 ((Sample.c0 .split).map.itTo y) y := use_itTo hy
  have ue : (Sample.c0 .split).map.usable Sample.E0 (Sample.c0 .split).map.end = true := by simp [TMap.usable, TMap.end]
  have ax : (Sample.c0 .split).At Sample.E0 ⟨(Sample.c0 .split).map.itTo x, (Sample.c0 .split).map.end, x.seg.base 0⟩ (some (0, 0)) :=
    ⟨ux.usable, ue, rfl, x, hx, ux.node, hxt, hxs, rfl⟩
  have ay : (Sample.c0 .split).At Sample.E0 ⟨(Sample.c0 .split).map.itTo y, (Sample.c0 .split).map.end, y.seg.base 0⟩ (some (1, 0)) :=
    ⟨uy.usable, ue, rfl, y, hy, uy.node, hyt, hys, rfl⟩
  have lx : (Sample.c0 .split).LAtB Sample.E0 ⟨(Sample.c0 .split).map.itTo x, x.seg.base 0⟩ 0 0 := ⟨x, ux, hxt, Nat.zero_le _, rfl⟩
  have ly : (Sample.c0 .split).LAtL Sample.E0 ⟨(Sample.c0 .split).map.itTo y, y.seg.loc 0⟩ 1 0 := ⟨y, uy, hyt, Nat.zero_le _, rfl⟩
  have hr := C64_rebinds h ax ay
  unfold Runs at hr
  split at hr
  · rename_i u c' w' he
    exact ⟨_, _, c', _, w', _, _, _, _, h, ax, ay, lx, ly, he, hr.2.2 _ _ lx ly⟩
  · exact hr.elim
  · exact hr.elim

/-- **C64 fails**, consequences: after `*it=*jt` for the first two elements of a segment the loop from
`begin()` to `end()` meets the second one twice and the first one never.  Not even `clear()` helps:
traversing the collection after inserting one element is undefined (the first element met would be
one that was destroyed). -/
theorem C64_traversal : ∃ (E : Env Nat) (c c1 c2 c3 : Coll Nat) (w w' : World) (it jt b b3 : GIter), c.Reachable E .split w ∧
    c.abs = [(1, [9]), (0, [1, 2, 3]), (5, []), (2, [7])] ∧ c.begin E = some b ∧ c.map.increment E b = some it ∧ c.map.increment E it = some jt ∧
    Coll.rebind E it.segpos jt.segpos c w = .ok () c1 w ∧ c1.abs = c.abs ∧ c1.begin E = some b ∧ c1.walk E c1.end b 6 = some [9, 2, 2, 3, 7] ∧
    Coll.clearAll c1 w = .ok () c2 w ∧ COp.run E (.emplace 0 (.emplaced 8)) c2 w = .ok () c3 w' ∧ c3.size = 1 ∧
    c3.begin E = some b3 ∧ c3.map.deref b3.segpos = none :=
  ⟨Sample.E0, Sample.c0 .split,
    ⟨.split, ⟨[⟨33, 2, ⟨.split ⟨1, 0, 0, ⟨31, 1, [9]⟩, ⟨38, 2, [⟨31, 0⟩, ⟨31, 1⟩]⟩⟩, ⟨38, 1⟩⟩⟩,
      ⟨12, 0, ⟨.split ⟨0, 0, 0, ⟨40, 3, [1, 2, 3]⟩, ⟨39, 4, [⟨40, 1⟩, ⟨40, 1⟩, ⟨40, 2⟩, ⟨40, 3⟩]⟩⟩, ⟨39, 3⟩⟩⟩,
      ⟨4, 10, ⟨.split ⟨5, 0, 0, ⟨2, 1, []⟩, ⟨6, 1, [⟨2, 0⟩]⟩⟩, ⟨6, 0⟩⟩⟩, ⟨24, 4, ⟨.split ⟨2, 0, 0, ⟨22, 1, [7]⟩, ⟨29, 2, [⟨22, 0⟩, ⟨22, 1⟩]⟩⟩, ⟨29, 1⟩⟩⟩],
      4, 4, 0, [(10, ⟨some 4, 4⟩), (0, ⟨some 12, 4⟩), (1, ⟨some 12, 4⟩), (4, ⟨some 24, 4⟩), (2, ⟨some 33, 4⟩)]⟩⟩,
    ⟨.split, ⟨[⟨33, 2, ⟨.split ⟨1, 0, 0, ⟨31, 1, []⟩, ⟨38, 2, [⟨31, 0⟩]⟩⟩, ⟨38, 0⟩⟩⟩,
      ⟨12, 0, ⟨.split ⟨0, 0, 0, ⟨40, 3, []⟩, ⟨39, 4, [⟨40, 1⟩]⟩⟩, ⟨39, 0⟩⟩⟩,
      ⟨4, 10, ⟨.split ⟨5, 0, 0, ⟨2, 1, []⟩, ⟨6, 1, [⟨2, 0⟩]⟩⟩, ⟨6, 0⟩⟩⟩, ⟨24, 4, ⟨.split ⟨2, 0, 0, ⟨22, 1, []⟩, ⟨29, 2, [⟨22, 0⟩]⟩⟩, ⟨29, 0⟩⟩⟩],
      4, 4, 0, [(10, ⟨some 4, 4⟩), (0, ⟨some 12, 4⟩), (1, ⟨some 12, 4⟩), (4, ⟨some 24, 4⟩), (2, ⟨some 33, 4⟩)]⟩⟩,
    ⟨.split, ⟨[⟨33, 2, ⟨.split ⟨1, 0, 0, ⟨31, 1, []⟩, ⟨38, 2, [⟨31, 0⟩]⟩⟩, ⟨38, 0⟩⟩⟩,
      ⟨12, 0, ⟨.split ⟨0, 0, 0, ⟨40, 3, [8]⟩, ⟨39, 4, [⟨40, 1⟩, ⟨40, 1⟩]⟩⟩, ⟨39, 1⟩⟩⟩,
      ⟨4, 10, ⟨.split ⟨5, 0, 0, ⟨2, 1, []⟩, ⟨6, 1, [⟨2, 0⟩]⟩⟩, ⟨6, 0⟩⟩⟩, ⟨24, 4, ⟨.split ⟨2, 0, 0, ⟨22, 1, []⟩, ⟨29, 2, [⟨22, 0⟩]⟩⟩, ⟨29, 0⟩⟩⟩],
      4, 4, 0, [(10, ⟨some 4, 4⟩), (0, ⟨some 12, 4⟩), (1, ⟨some 12, 4⟩), (4, ⟨some 24, 4⟩), (2, ⟨some 33, 4⟩)]⟩⟩,
    ⟨61, 65⟩, ⟨61, 66⟩, ⟨⟨some 12, 4⟩, ⟨none, 4⟩, ⟨39, 0⟩⟩, ⟨⟨some 12, 4⟩, ⟨none, 4⟩, ⟨39, 1⟩⟩, ⟨⟨some 33, 4⟩, ⟨none, 4⟩, ⟨38, 0⟩⟩,
    ⟨⟨some 12, 4⟩, ⟨none, 4⟩, ⟨39, 0⟩⟩,
    Sample.reach0 .split, rfl, rfl, rfl, rfl, rfl, rfl, rfl, rfl, rfl, rfl, rfl, rfl, rfl⟩

/-- The hypotheses of `C64_self_partial` are met by every element. -/
example : ∃ it, (Sample.c0 .split).Reachable Sample.E0 .split (Sample.w0 .split) ∧ (Sample.c0 .split).At Sample.E0 it (some (0, 1)) ∧
    Coll.rebind Sample.E0 it.segpos it.segpos (Sample.c0 .split) (Sample.w0 .split) = .ok () (Sample.c0 .split) (Sample.w0 .split) :=
  ⟨⟨⟨some 12, 4⟩, ⟨none, 4⟩, ⟨39, 1⟩⟩, Sample.reach0 .split,
    ⟨rfl, rfl, rfl, ⟨12, 0, ⟨.split ⟨0, 0, 0, ⟨40, 3, [1, 2, 3]⟩, ⟨39, 4, [⟨40, 0⟩, ⟨40, 1⟩, ⟨40, 2⟩, ⟨40, 3⟩]⟩⟩, ⟨39, 3⟩⟩⟩,
      .tail _ (.head _), rfl, rfl, by decide, rfl⟩, rfl⟩

end PolyColl.Props
