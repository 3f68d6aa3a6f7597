import Verif.Lemmas.CollFail
/-!
# Vocabulary of the property theorems

* `Coll.Reachable E k c w`: `c` is one of the collections of a program that used collections of
  layout `k` (`.packed` for `base_collection`, `.split` for `any_collection` and
  `function_collection`), at a moment when the global state is `w`.  The program may have done anything
  defined with its collections (`GoodReach`), but `c` itself has been used as documented since it was
  constructed, last assigned to, or cleared after an operation on it threw.  That includes operations that
  threw and are among those that leave a usable collection.
* `Coll.Possible E k c w`: the same for a program that did anything with defined behaviour,
  including operations that threw and left the collection in whatever state.
* `Spec.State` (`Spec/State.lean`): what a collection holds, `c.abs` being that of `c`.
* `c.At E it p`: iterator `it` is valid and denotes position `p`; `c.LAtB`, `c.LAtL`: the same for
  `local_base_iterator` and `local_iterator`.
* `src.Of v`: the value of a new element is `v`, given from outside the collection.
-/

namespace PolyColl
open Prog

variable {V : Type} {E : Env V} {k : Kind}

/-- A collection that a program can have. -/
def Coll.Reachable (E : Env V) (k : Kind) (c : Coll V) (w : World) : Prop :=
  ∃ (sub : Ty → TI) (H : Nat → Health) (s : Sys V) (i : Nat), (∀ t, E.tiTy (sub t) = t) ∧ GoodReach E k sub H s w ∧ H i = .sound ∧ s i = c

/-- A collection that a program can have, after whatever failures. -/
def Coll.Possible (E : Env V) (k : Kind) (c : Coll V) (w : World) : Prop :=
  ∃ (sub : Ty → TI) (s : Sys V) (i : Nat), (∀ t, E.tiTy (sub t) = t) ∧ Reach E k sub (Coll.Arg.OK E) s w ∧ s i = c

/-- Two collections that a program can have at the same time. -/
def Coll.Reachable2 (E : Env V) (k : Kind) (c d : Coll V) (w : World) : Prop :=
  ∃ (sub : Ty → TI) (H : Nat → Health) (s : Sys V) (i j : Nat), (∀ t, E.tiTy (sub t) = t) ∧ GoodReach E k sub H s w ∧ i ≠ j ∧
    H i = .sound ∧ H j = .sound ∧ s i = c ∧ s j = d

/-- A value given from outside: copied, moved or constructed in place. -/
def Src.Of (src : Src V) (v : V) : Prop := src = .copyExt v ∨ src = .moveExt v ∨ src = .emplaced v

theorem Src.Of.ext {src : Src V} {v : V} (h : src.Of v) : src.ext = true := by
  rcases h with rfl | rfl | rfl <;> rfl

theorem Src.Of.val {src : Src V} {v : V} (h : src.Of v) : src.val Vec.nil = some v := by
  rcases h with rfl | rfl | rfl <;> rfl

namespace Coll

theorem Reachable.inv {c : Coll V} {w : World} (h : c.Reachable E k w) : c.Inv E w := by
  obtain ⟨sub, H, s, i, hsub, hr, hi, rfl⟩ := h
  exact ((goodReach_inv E hsub hr).sound E hi).1

theorem Reachable.kind {c : Coll V} {w : World} (h : c.Reachable E k w) : c.kind = k := by
  obtain ⟨sub, H, s, i, hsub, hr, hi, rfl⟩ := h
  exact ((goodReach_inv E hsub hr).sound E hi).2

theorem Reachable.map {c : Coll V} {w : World} (h : c.Reachable E k w) : c.map.Inv E c.kind w := h.inv.map

theorem Reachable.nodup {c : Coll V} {w : World} (h : c.Reachable E k w) : c.abs.types.Nodup := abs_nodup E h.map

theorem Reachable.possible {c : Coll V} {w : World} (h : c.Reachable E k w) : c.Possible E k w := by
  obtain ⟨sub, H, s, i, hsub, hr, -, rfl⟩ := h
  exact ⟨sub, s, i, hsub, GoodReach.reach E hr, rfl⟩

theorem Possible.map {c : Coll V} {w : World} (h : c.Possible E k w) : c.map.Inv E c.kind w := by
  obtain ⟨sub, s, i, hsub, hr, rfl⟩ := h
  obtain ⟨h1, h2⟩ := (reach_inv E hsub hr).1 i
  rw [h1]
  exact h2

theorem Possible.kind {c : Coll V} {w : World} (h : c.Possible E k w) : c.kind = k := by
  obtain ⟨sub, s, i, hsub, hr, rfl⟩ := h
  exact ((reach_inv E hsub hr).1 i).1

theorem Reachable2.left {c d : Coll V} {w : World} (h : Reachable2 E k c d w) : c.Reachable E k w := by
  obtain ⟨sub, H, s, i, j, hsub, hr, -, hi, hj, rfl, rfl⟩ := h
  exact ⟨sub, H, s, i, hsub, hr, hi, rfl⟩

theorem Reachable2.right {c d : Coll V} {w : World} (h : Reachable2 E k c d w) : d.Reachable E k w := by
  obtain ⟨sub, H, s, i, j, hsub, hr, -, hi, hj, rfl, rfl⟩ := h
  exact ⟨sub, H, s, j, hsub, hr, hj, rfl⟩

/-- Documented use of an operation leads from reachable collections to reachable collections. -/
theorem Reachable.stepApt {c c' : Coll V} {w w' : World} (h : c.Reachable E k w) (op : COp V) (hp : op.Apt E c)
    (hr : op.run E c w = .ok () c' w') : c'.Reachable E k w' := by
  obtain ⟨sub, H, s, i, hsub, hg, hi, rfl⟩ := h
  refine ⟨sub, _, s.put i c', i, hsub, .ok hg (.on i op) (by simpa [Op.needs] using hi) hp ?_, by simp [Health.mark, Op.writes], by simp [Sys.put]⟩
  simp [Op.run, Sys.on, zoom, hr]

theorem Reachable.step {c c' : Coll V} {w w' : World} (h : c.Reachable E k w) (op : COp V) (hp : op.Pre E c)
    (hr : op.run E c w = .ok () c' w') : c'.Reachable E k w' := h.stepApt op hp.apt hr

/-- Failures that leave a usable collection do so. -/
theorem Reachable.stepExcApt {c c' : Coll V} {w w' : World} {e : Exc} (h : c.Reachable E k w) (op : COp V) (hp : op.Apt E c) (hs : op.Strong E c)
    (hr : op.run E c w = .exc e c' w') : c'.Reachable E k w' := by
  obtain ⟨sub, H, s, i, hsub, hg, hi, rfl⟩ := h
  refine ⟨sub, _, s.put i c', i, hsub, .exc hg (.on i op) (by simpa [Op.needs] using hi) hp hs (e := e) ?_, by simp [Health.mark, Op.resets, hi],
    by simp [Sys.put]⟩
  simp [Op.run, Sys.on, zoom, hr]

theorem Reachable.stepExc {c c' : Coll V} {w w' : World} {e : Exc} (h : c.Reachable E k w) (op : COp V) (hp : op.Pre E c) (hs : op.Strong E c)
    (hr : op.run E c w = .exc e c' w') : c'.Reachable E k w' := h.stepExcApt op hp.apt hs hr

/-- A defined operation keeps the collection reachable. -/
theorem Reachable.runs {α : Type} {p : Prog (Coll V) α} {c : Coll V} {w : World} {Q : α → Coll V → World → Prop} {R : Exc → Coll V → World → Prop}
    (h : c.Reachable E k w) (op : COp V) (hp : op.Pre E c) (hop : op.run E = p.drop) (hr : Runs p c w Q R) :
    Runs p c w (fun a c' w' => c'.Reachable E k w' ∧ Q a c' w') R := by
  refine hr.withEq.mono ?_ (fun _ _ _ h => h.1)
  rintro a c' w' ⟨hq, he⟩
  refine ⟨h.step op hp ?_, hq⟩
  rw [hop]
  show Prog.bind p _ c w = _
  unfold Prog.bind
  rw [he]
  rfl

/-- The same for operations whose hints may have become stale. -/
theorem Reachable.ends {α : Type} {p : Prog (Coll V) α} {c : Coll V} {w : World} {Q : α → Coll V → World → Prop} {R : Exc → Coll V → World → Prop}
    {U : Prop} (h : c.Reachable E k w) (op : COp V) (hp : op.Apt E c) (hop : op.run E = p.drop) (hr : Ends p c w Q R U) (hu : ¬ U) :
    Runs p c w (fun a c' w' => c'.Reachable E k w' ∧ Q a c' w') R := by
  refine (hr.runs hu).withEq.mono ?_ (fun _ _ _ h => h.1)
  rintro a c' w' ⟨hq, he⟩
  refine ⟨h.stepApt op hp ?_, hq⟩
  rw [hop]
  show Prog.bind p _ c w = _
  unfold Prog.bind
  rw [he]
  rfl

theorem Reachable.runsU {p : Prog (Coll V) Unit} {c : Coll V} {w : World} {Q : Unit → Coll V → World → Prop} {R : Exc → Coll V → World → Prop}
    (h : c.Reachable E k w) (op : COp V) (hp : op.Pre E c) (hop : op.run E = p) (hr : Runs p c w Q R) :
    Runs p c w (fun a c' w' => c'.Reachable E k w' ∧ Q a c' w') R := by
  refine hr.withEq.mono ?_ (fun _ _ _ h => h.1)
  rintro a c' w' ⟨hq, he⟩
  exact ⟨h.step op hp (hop ▸ he), hq⟩

theorem srcFor {c : Coll V} {t : Ty} {src : Src V} {v : V} (h : src.Of v) : c.SrcFor t src v := Or.inl ⟨h.ext, h.val⟩

/-- A valid iterator can be dereferenced and gives the element at its position. -/
theorem deref_pos {c : Coll V} {w : World} (h : c.Inv E w) {it : GIter} {t : Ty} {n : Nat} (ha : c.At E it (some (t, n)))
    {v : V} (hv : (c.abs.elemsOf t)[n]? = some v) : c.map.deref it.segpos = some v := by
  obtain ⟨v', h1, h2⟩ := deref_at E h.core ha
  rw [h1, ← h2]
  unfold Spec.State.at? Spec.State.elemsOf at *
  cases hg : c.abs.get t <;> simp_all

/-- There is an iterator for every position. -/
theorem exists_at {c : Coll V} {w : World} (h : c.Inv E w) {p : Spec.State.Pos} (hp : c.abs.Valid p) : ∃ it, c.At E it p := by
  cases p with
  | none => exact ⟨_, at_end E c⟩
  | some q =>
    obtain ⟨t, n⟩ := q
    obtain ⟨l, hl, hn⟩ := hp
    obtain ⟨m, hm, rfl⟩ := types_mem (c := c) (t := t) (by
      refine Classical.byContradiction fun hc => ?_
      rw [Spec.State.get_none.2 hc] at hl; cases hl)
    have := TMap.abs_get E h.map hm
    rw [show c.abs.get m.seg.ty = some m.seg.elems from this] at hl
    cases hl
    exact ⟨⟨c.map.itTo m, c.map.end, m.seg.base n⟩, usable_itTo E c.map m, usable_end E c.map, rfl, m, hm, rfl, rfl, hn, rfl⟩

/-- There is a local base iterator for every position of a segment, its end included. -/
theorem exists_latB {c : Coll V} {w : World} (h : c.Inv E w) {t : Ty} {n : Nat} (ht : t ∈ c.abs.types) (hn : n ≤ (c.abs.elemsOf t).length) :
    ∃ l, c.LAtB E l t n := by
  obtain ⟨m, hm, rfl⟩ := types_mem ht
  have := TMap.abs_get E h.map hm
  refine ⟨⟨c.map.itTo m, m.seg.base n⟩, m, ⟨hm, rfl, usable_itTo E c.map m⟩, rfl, ?_, rfl⟩
  unfold Spec.State.elemsOf at hn
  rw [show c.abs.get m.seg.ty = some m.seg.elems from this] at hn
  exact hn

/-- There is a local iterator for every position of a segment, its end included. -/
theorem exists_latL {c : Coll V} {w : World} (h : c.Inv E w) {t : Ty} {n : Nat} (ht : t ∈ c.abs.types) (hn : n ≤ (c.abs.elemsOf t).length) :
    ∃ l, c.LAtL E l t n := by
  obtain ⟨l, hl⟩ := exists_latB h ht hn
  obtain ⟨l', -, h'⟩ := toLocal_at E h.core hl
  exact ⟨l', h'⟩

/-- `for(auto it=c.begin();it!=c.end();++it)` meets `l` and ends. -/
def Traversed (E : Env V) (c : Coll V) (l : List V) : Prop :=
  ∃ it, c.begin E = some it ∧ ∀ fuel, l.length < fuel → c.walk E c.end it fuel = some l

theorem traversed {c : Coll V} {w : World} (h : c.Inv E w) : Traversed E c c.abs.flat := by
  obtain ⟨it, h1, h2⟩ := begin_at E h
  refine ⟨it, h1, fun fuel hf => ?_⟩
  have h3 := Spec.State.rank_first (abs_nodup E h.map)
  rw [walk_at E h (at_end E c) c.abs.flat.length it _ fuel h2 (by rw [h3]; simp [Spec.State.rank]) hf, h3]
  simp

end Coll

/-! ### Building examples -/

/-- Operations whose use is always documented: their arguments come from outside. -/
def Op.Simple : Op V → Bool
  | .on _ (.registerTypes _) | .on _ (.lookup _) | .on _ (.reserveAll _) | .on _ (.reserveInfo _ _) | .on _ (.reserveT _ _)
  | .on _ .shrinkAll | .on _ (.shrinkInfo _) | .on _ .clearAll | .on _ (.clearInfo _) | .create _ _ => true
  | .on _ (.emplace _ src) => src.ext
  | .copy i j | .copyAl i j _ | .move i j | .moveAl i j _ => i != j
  | .assign _ _ | .moveAssign _ _ => true
  | _ => false

theorem Op.Simple.pre {op : Op V} (h : op.Simple = true) (s : Sys V) : op.Pre E s := by
  cases op with
  | on i op =>
    cases op <;> simp_all [Op.Simple, Op.Pre, COp.Pre]
    obtain ⟨v, hv⟩ := Coll.ext_val h
    exact ⟨v, Or.inl ⟨h, hv⟩⟩
  | _ => simp_all [Op.Simple, Op.Pre]

/-- The operations on one collection among them. -/
def COp.Simple (op : COp V) : Bool := Op.Simple (.on 0 op)

namespace Coll

theorem Reachable2.start (sub : Ty → TI) (hsub : ∀ t, E.tiTy (sub t) = t) (a b : Alloc) :
    Reachable2 E k (Coll.empty' k a) (Coll.empty' k b) ⟨1, 0⟩ :=
  ⟨sub, _, _, 0, 1, hsub, .start (fun i => if i = 0 then a else b) _ (by decide), by decide, rfl, rfl, rfl, rfl⟩

theorem Reachable2.swap {c d : Coll V} {w : World} (h : Reachable2 E k c d w) : Reachable2 E k d c w := by
  obtain ⟨sub, H, s, i, j, hsub, hg, hn, hi, hj, h1, h2⟩ := h
  exact ⟨sub, H, s, j, i, hsub, hg, Ne.symm hn, hj, hi, h2, h1⟩

theorem Reachable2.step {c c' d : Coll V} {w w' : World} (h : Reachable2 E k c d w) (op : COp V) (hp : op.Pre E c)
    (hr : op.run E c w = .ok () c' w') : Reachable2 E k c' d w' := by
  obtain ⟨sub, H, s, i, j, hsub, hg, hn, hi, hj, rfl, rfl⟩ := h
  refine ⟨sub, _, s.put i c', i, j, hsub, .ok hg (.on i op) (by simpa [Op.needs] using hi) hp.apt ?_, hn, by simp [Health.mark, Op.writes],
    by simp [Health.mark, Op.writes, hj], by simp [Sys.put], by simp [Sys.put, Ne.symm hn]⟩
  simp [Op.run, Sys.on, zoom, hr]

theorem Reachable2.stepL {c c' d : Coll V} {w w' : World} (h : Reachable2 E k c d w) (op : COp V) (hs : op.Simple = true)
    (hr : op.run E c w = .ok () c' w') : Reachable2 E k c' d w' :=
  h.step op (Op.Simple.pre (op := .on 0 op) hs fun _ => c) hr

theorem Reachable2.stepR {c d d' : Coll V} {w w' : World} (h : Reachable2 E k c d w) (op : COp V) (hs : op.Simple = true)
    (hr : op.run E d w = .ok () d' w') : Reachable2 E k c d' w' := (h.swap.stepL op hs hr).swap

end Coll
end PolyColl
