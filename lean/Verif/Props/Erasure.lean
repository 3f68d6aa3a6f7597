import Verif.Props.SampleRange
import Verif.Props.Basic
import Verif.Props.SampleData
/-!
# Properties C19 to C21: erasure
-/

namespace PolyColl.Props
open PolyColl Prog Coll

variable {V : Type} {E : Env V} {k : Kind}

/-- The only way in which erasure of elements of type `t` fails: move assignment of `t` throws. -/
def AssignThrew (E : Env V) (t : Ty) (e : Exc) : Prop := e = .user ∧ (E.traits t).nothrowAssign = false ∧ ∃ i, E.fault i = true

theorem rank_update (s : Spec.State V) (t : Ty) (n : Nat) (f : List V → List V) : (s.update t f).rank (some (t, n)) = s.rank (some (t, n)) := by
  induction s with
  | nil => rfl
  | cons p s ih =>
    obtain ⟨u, l⟩ := p
    simp only [Spec.State.update, List.map_cons]
    by_cases h : u = t
    · simp [h, Spec.State.rank]
    · simp only [if_neg h, Spec.State.rank]
      exact congrArg _ ih

theorem trim_types {c c' : Coll V} (h : Upd Trim c c') : c'.abs.types = c.abs.types := by
  have := h.nodes
  simp only [abs_eq, absNodes, Spec.State.types, List.map_map]
  revert this
  generalize c.map.nodes = l
  generalize c'.map.nodes = l'
  intro h
  induction h with
  | nil => rfl
  | cons h _ ih => simp only [List.map_cons, ih, Function.comp, h.2.2.1]

/-! ### C19 -/

/-- **C19.**  `erase(pos)` removes the element at `pos` and no other: the elements before and after it
in the traversal are as before, and so are the segments and the elements of other types.  The
iterator returned denotes the place where the element was, which is that of the element that
followed it, or the end. -/
theorem C19_erase {c : Coll V} {w : World} (h : c.Reachable E k w) {pos : GIter} {t : Ty} {n : Nat} (hp : c.At E pos (some (t, n))) :
    Runs (erase E pos) c w
      (fun it c' w' => c'.Reachable E k w' ∧ c'.abs = c.abs.update t (·.eraseIdx n) ∧
        c'.abs.flat = c.abs.flat.eraseIdx (c.abs.rank (some (t, n))) ∧
        ∃ q, c'.At E it q ∧ c'.abs.rank q = c.abs.rank (some (t, n)) ∧ c'.abs.at? q = c.abs.at? (c.abs.norm t (n + 1)))
      (fun e _ _ => AssignThrew E t e) := by
  refine (h.runs (.erase pos) ⟨t, n, hp⟩ rfl (erase_runs E pos t n c w h.inv hp)).mono ?_ ?_
  · rintro it c' w' ⟨hr, hrem, hat⟩
    have hval := hp.valid E h.map
    obtain ⟨l, hl, hn⟩ := hval
    have hab := hrem.abs
    have hone : c'.abs = c.abs.removeRange (c.abs.rank (some (t, n))) (c.abs.rank (some (t, n)) + 1) := by
      have h1 := Spec.State.removeRange_one h.nodup (a := n) (b := n + 1) hl (by omega) (by omega)
      have h2 : c.abs.rank (some (t, n + 1)) = c.abs.rank (some (t, n)) + 1 := by
        rw [← Spec.State.rank_next h.nodup ⟨l, hl, hn⟩, Spec.State.rank_norm h.nodup hl (by omega)]
      rw [h2] at h1
      rw [h1, hab]
      congr 1
      funext l
      exact List.eraseIdx_eq_take_drop_succ ..
    have hflat : c'.abs.flat = c.abs.flat.eraseIdx (c.abs.rank (some (t, n))) := by
      rw [hone, Spec.State.flat_removeRange _ (by omega), List.eraseIdx_eq_take_drop_succ]
    have hget : c'.abs.get t = some (l.eraseIdx n) := by
      rw [hab, Spec.State.update_get, hl, if_pos rfl]; rfl
    have hlen : (l.eraseIdx n).length = l.length - 1 := by rw [List.length_eraseIdx, if_pos hn]
    have hrank : c'.abs.rank (c'.abs.norm t n) = c.abs.rank (some (t, n)) := by
      rw [Spec.State.rank_norm hr.nodup hget (by omega), hab, rank_update]
    refine ⟨hr, hab, hflat, _, hat, hrank, ?_⟩
    rw [← Spec.State.at_rank (Spec.State.norm_valid hr.nodup), ← Spec.State.at_rank (Spec.State.norm_valid h.nodup), hrank,
      Spec.State.rank_next h.nodup ⟨l, hl, hn⟩, hflat, List.getElem?_eraseIdx]
    simp
  · rintro e c' w' ⟨m, hm, rfl, -, s, rfl, hf, -⟩
    exact ⟨hf.exc, hf.throws, hf.fault⟩

/-- The last element of type 0, followed by an empty segment and the last element. -/
example (k : Kind) : ∃ it, (Sample.c0 k).Reachable Sample.E0 k (Sample.w0 k) ∧ (Sample.c0 k).At Sample.E0 it (some (0, 2)) ∧
    (Sample.c0 k).abs.rank (some (0, 2)) = 3 ∧ (Sample.c0 k).abs.norm 0 3 = some (2, 0) := by
  obtain ⟨it, hit⟩ := exists_at (Sample.reach0 k).inv (p := some (0, 2)) (by rw [Sample.abs0]; exact ⟨_, rfl, by decide⟩)
  exact ⟨it, Sample.reach0 k, hit, by rw [Sample.abs0]; decide, by rw [Sample.abs0]; decide⟩

/-! ### C20 -/

/-- **C20.**  `erase(first,last)` removes exactly the elements from `first` to `last`, which may be in
different segments; the types stay registered and every segment keeps its other elements in order.
The iterator returned denotes the element `last` pointed to, or the end. -/
theorem C20_erase_range {c : Coll V} {w : World} (h : c.Reachable E k w) {first last : GIter} {p q : Spec.State.Pos}
    (hf : c.At E first p) (hl : c.At E last q) (hpq : c.abs.rank p ≤ c.abs.rank q) :
    Runs (eraseRange E first last) c w
      (fun it c' w' => c'.Reachable E k w' ∧ c'.abs = c.abs.removeRange (c.abs.rank p) (c.abs.rank q) ∧ c'.abs.types = c.abs.types ∧
        c'.abs.flat = c.abs.flat.take (c.abs.rank p) ++ c.abs.flat.drop (c.abs.rank q) ∧
        ∃ r, c'.At E it r ∧ c'.abs.rank r = c.abs.rank p ∧ c'.abs.at? r = c.abs.at? q)
      (fun e c' w' => c'.Reachable E k w' ∧ c'.abs.types = c.abs.types ∧ ∃ t, AssignThrew E t e) := by
  have hpre : (COp.eraseRange first last : COp V).Pre E c := ⟨p, q, hf, hl, hpq⟩
  refine (h.runs (.eraseRange first last) hpre rfl (eraseRange_runs E first last p q c w h.inv hf hl hpq)).withEq.mono ?_ ?_
  · rintro it c' w' ⟨⟨hr, hrem, r, hat, hrank⟩, -⟩
    have hab := hrem.abs
    have hflat : c'.abs.flat = c.abs.flat.take (c.abs.rank p) ++ c.abs.flat.drop (c.abs.rank q) := by
      rw [hab, Spec.State.flat_removeRange _ hpq]
    refine ⟨hr, hab, by rw [hab, Spec.State.removeRange_types], hflat, r, hat, hrank, ?_⟩
    have h1 := Spec.State.rank_le (hf.valid E h.map)
    rw [← Spec.State.at_rank (hat.valid E hr.map), ← Spec.State.at_rank (hl.valid E h.map), hrank, hflat,
      List.getElem?_append_right (by simp; omega), List.getElem?_drop]
    congr 1
    simp only [List.length_take]
    omega
  · rintro e c' w' ⟨hfail, he⟩
    have hr : c'.Reachable E k w' := by
      refine h.stepExc (.eraseRange first last) hpre trivial (e := e) ?_
      show Prog.bind (eraseRange E first last) _ c w = _
      unfold Prog.bind
      rw [he]
    cases hfail with
    | @mk s d c' w1 w' t hrem f =>
      obtain ⟨m, hm, rfl, s', rfl, hrf, -⟩ := f
      refine ⟨hr, ?_, _, hrf.exc, hrf.throws, hrf.fault⟩
      rw [put_abs E hrem.inv.map hm hrf.step.ty, Spec.State.update_types, trim_types hrem.upd]

/-- From the second element of type 0 to the element of type 2, over an empty segment. -/
example (k : Kind) : ∃ first last, (Sample.c0 k).Reachable Sample.E0 k (Sample.w0 k) ∧ (Sample.c0 k).At Sample.E0 first (some (1, 0)) ∧
    (Sample.c0 k).At Sample.E0 last (some (2, 0)) ∧ (Sample.c0 k).abs.rank (some (1, 0)) ≤ (Sample.c0 k).abs.rank (some (2, 0)) ∧
    (Sample.c0 k).abs.removeRange 0 4 = [(1, []), (0, []), (5, []), (2, [7])] := by
  obtain ⟨i, hi⟩ := exists_at (Sample.reach0 k).inv (p := some (1, 0)) (by rw [Sample.abs0]; exact ⟨_, rfl, by decide⟩)
  obtain ⟨j, hj⟩ := exists_at (Sample.reach0 k).inv (p := some (2, 0)) (by rw [Sample.abs0]; exact ⟨_, rfl, by decide⟩)
  exact ⟨i, j, Sample.reach0 k, hi, hj, by rw [Sample.abs0]; decide, by rw [Sample.abs0]; decide⟩

/-! ### C21 -/

/-- **C21**, `erase(pos)` with a `local_base_iterator`. -/
theorem C21_erase_local_base {c : Coll V} {w : World} (h : c.Reachable E k w) {pos : LIter} {t : Ty} {n : Nat} (hp : c.LAtB E pos t n)
    (hn : n < (c.abs.elemsOf t).length) :
    Runs (eraseLocalBase E pos) c w
      (fun l c' w' => c'.Reachable E k w' ∧ c'.abs = c.abs.update t (·.eraseIdx n) ∧ c'.LAtB E l t n)
      (fun e _ _ => AssignThrew E t e) := by
  refine (h.runs (.eraseLocalBase pos) ⟨t, n, hp, hn⟩ rfl (eraseLocalBase_runs E pos t n c w h.inv hp hn)).mono ?_ ?_
  · rintro it c' w' ⟨hr, hrem, hat⟩
    exact ⟨hr, hrem.abs, hat⟩
  · rintro e c' w' ⟨m, hm, rfl, -, s, rfl, hf, -⟩
    exact ⟨hf.exc, hf.throws, hf.fault⟩

example (k : Kind) := C21_erase_local_base (Sample.reach0 k) (Sample.lbase_at k (n := 1) (by decide)) (by rw [Sample.abs0]; decide)

/-- **C21**, `erase(pos)` with a `local_iterator`. -/
theorem C21_erase_local {c : Coll V} {w : World} (h : c.Reachable E k w) {pos : LIter} {t : Ty} {n : Nat} (hp : c.LAtL E pos t n)
    (hn : n < (c.abs.elemsOf t).length) :
    Runs (eraseLocal E pos) c w
      (fun l c' w' => c'.Reachable E k w' ∧ c'.abs = c.abs.update t (·.eraseIdx n) ∧ c'.LAtL E l t n)
      (fun e _ _ => AssignThrew E t e) := by
  refine (h.runs (.eraseLocal pos) ⟨t, n, hp, hn⟩ rfl (eraseLocal_runs E pos t n c w h.inv hp hn)).mono ?_ ?_
  · rintro it c' w' ⟨hr, hrem, hat⟩
    exact ⟨hr, hrem.abs, hat⟩
  · rintro e c' w' ⟨m, hm, rfl, -, s, rfl, hf, -⟩
    exact ⟨hf.exc, hf.throws, hf.fault⟩

/-- **C21**, `erase(first,last)` with `local_base_iterator`s. -/
theorem C21_erase_local_range_base {c : Coll V} {w : World} (h : c.Reachable E k w) {first last : LIter} {t : Ty} {a b : Nat}
    (hf : c.LAtB E first t a) (hl : c.LAtB E last t b) (hab : a ≤ b) :
    Runs (eraseLocalRangeBase E first last) c w
      (fun l c' w' => c'.Reachable E k w' ∧ c'.abs = c.abs.update t (fun l => l.take a ++ l.drop b) ∧ c'.LAtB E l t a)
      (fun e _ _ => AssignThrew E t e) := by
  refine (h.runs (.eraseLocalRangeBase first last) ⟨t, a, b, hf, hl, hab⟩ rfl (eraseLocalRangeBase_runs E first last t a b c w h.inv hf hl hab)).mono ?_ ?_
  · rintro it c' w' ⟨hr, hrem, hat⟩
    exact ⟨hr, hrem.abs, hat⟩
  · rintro e c' w' ⟨m, hm, rfl, s, rfl, hf, -⟩
    exact ⟨hf.exc, hf.throws, hf.fault⟩

example (k : Kind) := C21_erase_local_range_base (Sample.reach0 k) (Sample.lbase_at k (n := 1) (by decide)) (Sample.lbase_at k (n := 3) (by decide)) (by decide)

/-- **C21**, `erase(first,last)` with `local_iterator`s. -/
theorem C21_erase_local_range {c : Coll V} {w : World} (h : c.Reachable E k w) {first last : LIter} {t : Ty} {a b : Nat}
    (hf : c.LAtL E first t a) (hl : c.LAtL E last t b) (hab : a ≤ b) :
    Runs (eraseLocalRange E first last) c w
      (fun l c' w' => c'.Reachable E k w' ∧ c'.abs = c.abs.update t (fun l => l.take a ++ l.drop b) ∧ c'.LAtL E l t a)
      (fun e _ _ => AssignThrew E t e) := by
  refine (h.runs (.eraseLocalRange first last) ⟨t, a, b, hf, hl, hab⟩ rfl (eraseLocalRange_runs E first last t a b c w h.inv hf hl hab)).mono ?_ ?_
  · rintro it c' w' ⟨hr, hrem, hat⟩
    exact ⟨hr, hrem.abs, hat⟩
  · rintro e c' w' ⟨m, hm, rfl, s, rfl, hf, -⟩
    exact ⟨hf.exc, hf.throws, hf.fault⟩

/-- **C21**, `clear()`: no elements, same types in the same order.  It does not throw. -/
theorem C21_clear {c : Coll V} {w : World} (h : c.Reachable E k w) :
    Runs (clearAll (V := V)) c w
      (fun _ c' w' => c'.Reachable E k w' ∧ c'.abs = c.abs.map fun p => (p.1, []))
      (fun _ _ _ => False) :=
  (h.runsU .clearAll trivial rfl (clearAll_runs E c w (h.inv.core E))).mono (fun _ _ _ ⟨hr, hrem⟩ => ⟨hr, hrem.abs⟩) (fun _ _ _ => id)

example (k : Kind) := C21_clear (Sample.reach0 k)

/-- **C21**, `clear(info)`: only elements of that type are removed.  It throws only if the type is not
registered. -/
theorem C21_clear_type {c : Coll V} {w : World} (h : c.Reachable E k w) (t : TI) :
    Runs (clearInfo E t) c w
      (fun _ c' w' => c'.Reachable E k w' ∧ E.tiTy t ∈ c.abs.types ∧ c'.abs = c.abs.update (E.tiTy t) fun _ => [])
      (fun e c' _ => E.tiTy t ∉ c.abs.types ∧ e = .unregistered (E.tiTy t) ∧ c' = c) :=
  (h.runsU (.clearInfo t) trivial rfl (clearInfo_runs E t c w h.inv)).mono (fun _ _ _ ⟨hr, hrem, ht⟩ => ⟨hr, ht, hrem.abs⟩)
    (fun _ _ _ ⟨h1, _, h2, h3⟩ => ⟨h3, h2, h1⟩)

/-- The first two elements of type 0, and its end; clearing type 0. -/
example (k : Kind) : ∃ a b a' b', (Sample.c0 k).Reachable Sample.E0 k (Sample.w0 k) ∧ (Sample.c0 k).LAtB Sample.E0 a 0 0 ∧
    (Sample.c0 k).LAtB Sample.E0 b 0 3 ∧ (Sample.c0 k).LAtL Sample.E0 a' 0 1 ∧ (Sample.c0 k).LAtL Sample.E0 b' 0 2 ∧
    2 < ((Sample.c0 k).abs.elemsOf 0).length ∧ Sample.E0.tiTy 1 ∈ (Sample.c0 k).abs.types := by
  have ht : (0 : Ty) ∈ (Sample.c0 k).abs.types := by rw [Sample.abs0]; decide
  have hl : ((Sample.c0 k).abs.elemsOf 0).length = 3 := by rw [Sample.abs0]; rfl
  obtain ⟨a, ha⟩ := exists_latB (Sample.reach0 k).inv ht (n := 0) (by omega)
  obtain ⟨b, hb⟩ := exists_latB (Sample.reach0 k).inv ht (n := 3) (by omega)
  obtain ⟨a', ha'⟩ := exists_latL (Sample.reach0 k).inv ht (n := 1) (by omega)
  obtain ⟨b', hb'⟩ := exists_latL (Sample.reach0 k).inv ht (n := 2) (by omega)
  exact ⟨a, b, a', b', Sample.reach0 k, ha, hb, ha', hb', by omega, by rw [Sample.abs0]; decide⟩

end PolyColl.Props
