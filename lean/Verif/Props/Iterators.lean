import Verif.Props.SampleRange
import Verif.Lemmas.Survive
import Verif.Props.Insertion
import Verif.Props.SampleFail
import Verif.Lemmas.Never
/-!
# Properties C27, C28 and C58: which iterators stay valid
-/

namespace PolyColl.Props
open PolyColl Prog Coll

variable {V : Type} {E : Env V} {k : Kind}

/-! ### C27 -/

/-- Iterators of `c` to element `m` of segment `t` are iterators to element `m` of segment `t` of `c'`,
the same address is read through them and the element is the same. -/
structure Survives (E : Env V) (c : Coll V) (t : Ty) (m : Nat) (c' : Coll V) : Prop where
  iters : ∀ it, c.At E it (some (t, m)) → c'.At E it (some (t, m)) ∧ c'.map.deref it.segpos = c.map.deref it.segpos
  baseIters : ∀ l, c.LAtB E l t m → c'.LAtB E l t m ∧ c'.map.deref l.pos = c.map.deref l.pos

/-- The same for local iterators. -/
structure LocalSurvives (E : Env V) (c : Coll V) (t : Ty) (m : Nat) (c' : Coll V) : Prop where
  localIters : ∀ l, c.LAtL E l t m → c'.LAtL E l t m ∧ c'.derefLocal l.pos = c.derefLocal l.pos
  elem : (c'.abs.elemsOf t)[m]? = (c.abs.elemsOf t)[m]?

/-- There is an element `m` in segment `t`. -/
theorem elem_lt {c : Coll V} {w : World} (h : c.map.Inv E c.kind w) {t : Ty} {m : Nat} (hm : m < (c.abs.elemsOf t).length) :
    t ∈ c.abs.types ∧ ∀ n ∈ c.map.nodes, n.seg.ty = t → m < n.seg.size := by
  refine ⟨Classical.byContradiction fun ht => ?_, fun n hn ht => ?_⟩
  · unfold Spec.State.elemsOf at hm
    rw [Spec.State.get_none.2 ht] at hm
    simp at hm
  · rw [Seg.size_eq, (Ens.refl E h hn).elems E h, ht]
    exact hm

theorem elem_some {l : List V} {m : Nat} (h : m < l.length) : ∃ v, l[m]? = some v := ⟨l[m], List.getElem?_eq_getElem h⟩

theorem Prefix.survives {c c' : Coll V} {w w' : World} {t : Ty} {n m : Nat} {same : Prop} (h : Prefix E c t n same c') (hs : same) (hc : c.Inv E w)
    (hc' : c'.Inv E w') (hmn : m < n) (hm : m < (c.abs.elemsOf t).length) : Survives E c t m c' := by
  obtain ⟨ht, hlt⟩ := elem_lt hc.map hm
  have he := h.elem hc.map hc'.map ht hmn
  have hm' : m < (c'.abs.elemsOf t).length := by
    obtain ⟨v, hv⟩ := elem_some hm
    rw [hv] at he
    obtain ⟨hlt, -⟩ := List.getElem?_eq_some_iff.1 he
    exact hlt
  refine ⟨fun it ha => ?_, fun l hl => ?_⟩
  · have := h.at hs hmn ha
    obtain ⟨v, hv⟩ := elem_some hm
    exact ⟨this, by rw [deref_pos hc ha hv, deref_pos hc' this (he.trans hv)]⟩
  · have := h.latB hs hmn hl hlt
    exact ⟨this, by rw [deref_latB (hc'.core E) this hm', deref_latB (hc.core E) hl hm, he]⟩

theorem Prefix.localSurvives {c c' : Coll V} {w w' : World} {t : Ty} {n m : Nat} {same : Prop} (h : Prefix E c t n same c') (hc : c.Inv E w)
    (hc' : c'.Inv E w') (hmn : m < n) (hm : m < (c.abs.elemsOf t).length) : LocalSurvives E c t m c' := by
  obtain ⟨ht, hlt⟩ := elem_lt hc.map hm
  have he := h.elem hc.map hc'.map ht hmn
  have hm' : m < (c'.abs.elemsOf t).length := by
    obtain ⟨v, hv⟩ := elem_some hm
    rw [hv] at he
    obtain ⟨hlt, -⟩ := List.getElem?_eq_some_iff.1 he
    exact hlt
  refine ⟨fun l hl => ?_, he⟩
  have := h.latL hmn hl hlt
  exact ⟨this, by rw [deref_latL (hc'.core E) this hm', deref_latL (hc.core E) hl hm, he]⟩

/-- **C27**, insertion of one element and iterators to elements of a type `t` (`local_iterator`).  If the
segment has room for one more element, iterators to elements before the new one still point to
their elements, in all layouts and with all standard libraries. -/
theorem C27_insert_local_iterators {c : Coll V} {w : World} (h : c.Reachable E k w) {op : COp V} {t : Ty} {n : Nat} {src : Src V} {v : V}
    (hop : op.Inserts E c t n src) (hs : c.SrcFor t src v)
    (hroom : ∀ x ∈ c.map.nodes, x.seg.ty = t → x.seg.size + 1 ≤ x.seg.capacity) {m : Nat} (hmn : m < n) (hm : m < (c.abs.elemsOf t).length) :
    Runs (op.run E) c w (fun _ c' _ => LocalSurvives E c t m c') (fun _ _ _ => True) := by
  refine (inserts_runs h.inv hop hs).mono ?_ (fun _ _ _ _ => trivial)
  rintro _ c' w' ⟨h1, -⟩
  exact Prefix.localSurvives (h1.prefix h.inv (elem_lt h.map hm).1 hroom) h.inv (h1.inv E h.inv) hmn hm

/-- **C27**, insertion of one element and iterators `iterator` and `local_base_iterator`.  If the segment
has room for one more element, iterators to elements before the new one still point to their
elements.

Missing: `any_collection` and `function_collection` with a standard library whose `vector::reserve`
allocates more than it is asked for, see `C27_index_moves`. -/
theorem C27_insert_partial {c : Coll V} {w : World} (h : c.Reachable E k w) (hex : k = .packed ∨ ∀ n, E.lib.reserveCap n = n)
    {op : COp V} {t : Ty} {n : Nat} {src : Src V} {v : V} (hop : op.Inserts E c t n src) (hs : c.SrcFor t src v)
    (hroom : ∀ x ∈ c.map.nodes, x.seg.ty = t → x.seg.size + 1 ≤ x.seg.capacity) {m : Nat} (hmn : m < n) (hm : m < (c.abs.elemsOf t).length) :
    Runs (op.run E) c w (fun _ c' _ => Survives E c t m c') (fun _ _ _ => True) := by
  refine (inserts_runs h.inv hop hs).mono ?_ (fun _ _ _ _ => trivial)
  rintro _ c' w' ⟨h1, -⟩
  refine Prefix.survives (h1.prefix h.inv (elem_lt h.map hm).1 hroom) (hex.imp ?_ id) h.inv (h1.inv E h.inv) hmn hm
  rintro rfl
  exact h.kind

/-- Two elements and room for four; the new element goes between them. -/
example (k : Kind) : ∃ pos, (Sample.c2 k).Reachable Sample.E0 k (Sample.w2 k) ∧ (∀ n, Sample.E0.lib.reserveCap n = n) ∧
    COp.Inserts Sample.E0 (Sample.c2 k) (.emplacePosBase pos 0 (.emplaced 8)) 0 1 (.emplaced 8) ∧ (Sample.c2 k).SrcFor 0 (.emplaced 8) 8 ∧
    (∀ x ∈ (Sample.c2 k).map.nodes, x.seg.ty = 0 → x.seg.size + 1 ≤ x.seg.capacity) ∧ 0 < ((Sample.c2 k).abs.elemsOf 0).length := by
  have ht : (0 : Ty) ∈ (Sample.c2 k).abs.types := by rw [Sample.abs2]; decide
  have hl : ((Sample.c2 k).abs.elemsOf 0).length = 2 := by rw [Sample.abs2]; rfl
  obtain ⟨a, ha⟩ := exists_latB (Sample.reach2 k).inv (n := 1) ht (by omega)
  exact ⟨a, Sample.reach2 k, fun _ => rfl, ⟨rfl, rfl, ha⟩, Or.inl ⟨rfl, rfl⟩, fun x hx _ => by obtain ⟨h1, h2⟩ := Sample.room2 k x hx; omega, by omega⟩

/-- **C27** does not hold for `any_collection` and `function_collection` when `vector::reserve` allocates
more than it is asked for: the segment has capacity 3 and one element, adding a second one moves the
index, and the iterator to the first one dangles. -/
theorem C27_index_moves : ∃ (E : Env Nat) (c c' : Coll Nat) (w w' : World) (op : COp Nat) (src : Src Nat) (it : GIter),
    c.Reachable E .split w ∧ op.Inserts E c 0 1 src ∧ c.SrcFor 0 src 6 ∧ (∀ x ∈ c.map.nodes, x.seg.size + 2 ≤ x.seg.capacity) ∧
    c.At E it (some (0, 0)) ∧ c.map.deref it.segpos = some 5 ∧ op.run E c w = .ok () c' w' ∧ c'.map.deref it.segpos = none := by
  refine ⟨Sample.E2, Sample.w27c1, Sample.w27c2, _, _, .emplace 0 (.emplaced 6), .emplaced 6, ⟨⟨some 4, 1⟩, ⟨none, 1⟩, ⟨9, 0⟩⟩, Sample.w27reach.left, ⟨rfl, rfl, rfl⟩,
    Or.inl ⟨rfl, rfl⟩, by decide, ⟨rfl, rfl, rfl, _, .head _, rfl, rfl, by decide, rfl⟩, rfl, Sample.w27step2, rfl⟩

/-- **C27**, insertion of a range before a local base iterator: the same if there is room for all its
elements.  Missing: as above. -/
theorem C27_insert_range_partial {c : Coll V} {w : World} (h : c.Reachable E k w) (hex : k = .packed ∨ ∀ n, E.lib.reserveCap n = n)
    {pos : LIter} {t : Ty} {n : Nat} (hp : c.LAtB E pos t n) (as : List (Arg V)) (vs : List V) (hv : ArgsOf as vs) (ha : ∀ a ∈ as, E.tiTy a.dyn = t)
    (hroom : ∀ x ∈ c.map.nodes, x.seg.ty = t → x.seg.size + as.length ≤ x.seg.capacity) {m : Nat} (hmn : m < n) (hm : m < (c.abs.elemsOf t).length) :
    Runs (insertPosRangeBase E pos as) c w (fun _ c' _ => Survives E c t m c' ∧ LocalSurvives E c t m c') (fun _ _ _ => True) := by
  obtain ⟨h1, h2, h3⟩ := hv.spec
  refine (insertPosRangeBase_runs E pos t n as vs True c w h.inv hp (fun a hm => ⟨ha a hm, h1 a hm, fun _ => trivial⟩) h2).mono ?_ (fun _ _ _ _ => trivial)
  rintro _ c' w' ⟨hi, -⟩
  have hpre := hi.prefix h.inv (elem_lt h.map hm).1 (h3 ▸ hroom)
  refine ⟨Prefix.survives hpre (hex.imp ?_ id) h.inv (hi.inv E h.inv) hmn hm, Prefix.localSurvives hpre h.inv (hi.inv E h.inv) hmn hm⟩
  rintro rfl
  exact h.kind

/-- **C27**, insertion of a range before a local iterator.  Missing: as above. -/
theorem C27_insert_range_local_partial {c : Coll V} {w : World} (h : c.Reachable E k w) (hex : k = .packed ∨ ∀ n, E.lib.reserveCap n = n)
    {pos : LIter} {t : TI} {n : Nat} (hp : c.LAtL E pos (E.tiTy t) n) (srcs : List (Src V)) (vs : List V) (hv : SrcsOf srcs vs)
    (hroom : ∀ x ∈ c.map.nodes, x.seg.ty = E.tiTy t → x.seg.size + srcs.length ≤ x.seg.capacity) {m : Nat} (hmn : m < n)
    (hm : m < (c.abs.elemsOf (E.tiTy t)).length) :
    Runs (insertPosRangeLocal E pos t srcs) c w (fun _ c' _ => Survives E c (E.tiTy t) m c' ∧ LocalSurvives E c (E.tiTy t) m c') (fun _ _ _ => True) := by
  obtain ⟨h1, h2, h3⟩ := hv.spec
  refine (insertPosRangeLocal_runs E pos t n srcs vs True c w h.inv hp (fun a hm => ⟨h1 a hm, fun _ => trivial⟩) h2).mono ?_ (fun _ _ _ _ => trivial)
  rintro _ c' w' ⟨hi, -⟩
  have hpre := hi.prefix h.inv (elem_lt h.map hm).1 (h3 ▸ hroom)
  refine ⟨Prefix.survives hpre (hex.imp ?_ id) h.inv (hi.inv E h.inv) hmn hm, Prefix.localSurvives hpre h.inv (hi.inv E h.inv) hmn hm⟩
  rintro rfl
  exact h.kind

/-- Two elements before the second one. -/
example (k : Kind) : ∃ pos pos', (Sample.c2 k).Reachable Sample.E0 k (Sample.w2 k) ∧ (∀ n, Sample.E0.lib.reserveCap n = n) ∧
    (Sample.c2 k).LAtB Sample.E0 pos 0 1 ∧ (Sample.c2 k).LAtL Sample.E0 pos' 0 1 ∧
    ArgsOf [⟨4, 1, true, false, .copyExt 8⟩, ⟨0, 0, true, false, .moveExt 9⟩] [8, 9] ∧ SrcsOf [.moveExt 8, .copyExt 9] [8, 9] ∧ Sample.E0.tiTy 1 = 0 ∧
    (∀ x ∈ (Sample.c2 k).map.nodes, x.seg.ty = 0 → x.seg.size + 2 ≤ x.seg.capacity) ∧ 0 < ((Sample.c2 k).abs.elemsOf 0).length := by
  have ht : (0 : Ty) ∈ (Sample.c2 k).abs.types := by rw [Sample.abs2]; decide
  have hl : ((Sample.c2 k).abs.elemsOf 0).length = 2 := by rw [Sample.abs2]; rfl
  obtain ⟨a, ha⟩ := exists_latB (Sample.reach2 k).inv (n := 1) ht (by omega)
  obtain ⟨b, hb⟩ := exists_latL (Sample.reach2 k).inv (n := 1) ht (by omega)
  exact ⟨a, b, Sample.reach2 k, fun _ => rfl, ha, hb, .cons (Or.inl rfl) (.cons (Or.inr (Or.inl rfl)) .nil),
    .cons (Or.inr (Or.inl rfl)) (.cons (Or.inl rfl) .nil), rfl, fun x hx _ => by obtain ⟨h1, h2⟩ := Sample.room2 k x hx; omega, by omega⟩

/-- Operation `op`, its iterators being valid for `c`, is to erase elements of type `t` beginning with the
one at position `n`. -/
def Erases (E : Env V) (c : Coll V) (op : COp V) (t : Ty) (n : Nat) : Prop :=
  match op with
  | .erase pos => c.At E pos (some (t, n))
  | .eraseLocalBase pos => c.LAtB E pos t n ∧ n < (c.abs.elemsOf t).length
  | .eraseLocal pos => c.LAtL E pos t n ∧ n < (c.abs.elemsOf t).length
  | .eraseLocalRangeBase f l => c.LAtB E f t n ∧ ∃ b, c.LAtB E l t b ∧ n ≤ b
  | .eraseLocalRange f l => c.LAtL E f t n ∧ ∃ b, c.LAtL E l t b ∧ n ≤ b
  | _ => False

theorem erased_prefix {c c' : Coll V} {w w' : World} {t : Ty} {n : Nat} {f : List V → List V} (h : Removed E c w (c.abs.update t f) c' w')
    (hc : c.map.Inv E c.kind w) (ht : t ∈ c.abs.types) (hf : (f (c.abs.elemsOf t)).take n = (c.abs.elemsOf t).take n) : Prefix E c t n True c' := by
  refine h.prefix hc ?_
  rw [Spec.State.update_elemsOf ht, if_pos rfl, hf]

theorem take_eraseIdx (l : List V) (n : Nat) : (l.eraseIdx n).take n = l.take n := by
  rw [List.eraseIdx_eq_take_drop_succ, List.take_append, List.take_take, Nat.min_self]
  by_cases h : n ≤ l.length
  · simp [Nat.min_eq_left h]
  · rw [List.drop_of_length_le (by omega)]; simp

theorem take_cut (l : List V) {a b : Nat} (hab : a ≤ b) : (l.take a ++ l.drop b).take a = l.take a := by
  rw [List.take_append, List.take_take, Nat.min_self]
  by_cases h : a ≤ l.length
  · simp [Nat.min_eq_left h]
  · rw [List.drop_of_length_le (by omega)]; simp

theorem erases_runs {c : Coll V} {w : World} (h : c.Inv E w) {op : COp V} {t : Ty} {n : Nat} (hop : Erases E c op t n) (ht : t ∈ c.abs.types) :
    Runs (op.run E) c w (fun _ c' w' => c'.Inv E w' ∧ Prefix E c t n True c') (fun _ _ _ => True) := by
  cases op <;> simp only [Erases] at hop <;> simp only [COp.run, runs_drop]
  case erase pos =>
    exact (erase_runs E pos t n c w h hop).mono (fun _ _ _ h' => ⟨h'.1.inv, erased_prefix h'.1 h.map ht (take_eraseIdx _ _)⟩) (fun _ _ _ _ => trivial)
  case eraseLocalBase pos =>
    exact (eraseLocalBase_runs E pos t n c w h hop.1 hop.2).mono (fun _ _ _ h' => ⟨h'.1.inv, erased_prefix h'.1 h.map ht (take_eraseIdx _ _)⟩)
      (fun _ _ _ _ => trivial)
  case eraseLocal pos =>
    exact (eraseLocal_runs E pos t n c w h hop.1 hop.2).mono (fun _ _ _ h' => ⟨h'.1.inv, erased_prefix h'.1 h.map ht (take_eraseIdx _ _)⟩)
      (fun _ _ _ _ => trivial)
  case eraseLocalRangeBase f l =>
    obtain ⟨h1, b, h2, h3⟩ := hop
    exact (eraseLocalRangeBase_runs E f l t n b c w h h1 h2 h3).mono (fun _ _ _ h' => ⟨h'.1.inv, erased_prefix h'.1 h.map ht (take_cut _ h3)⟩)
      (fun _ _ _ _ => trivial)
  case eraseLocalRange f l =>
    obtain ⟨h1, b, h2, h3⟩ := hop
    exact (eraseLocalRange_runs E f l t n b c w h h1 h2 h3).mono (fun _ _ _ h' => ⟨h'.1.inv, erased_prefix h'.1 h.map ht (take_cut _ h3)⟩)
      (fun _ _ _ _ => trivial)

/-- **C27**, erasure within a segment.  Iterators to elements before the first one erased still point
to their elements. -/
theorem C27_erase {c : Coll V} {w : World} (h : c.Reachable E k w) {op : COp V} {t : Ty} {n : Nat} (hop : Erases E c op t n)
    {m : Nat} (hmn : m < n) (hm : m < (c.abs.elemsOf t).length) :
    Runs (op.run E) c w (fun _ c' _ => Survives E c t m c' ∧ LocalSurvives E c t m c') (fun _ _ _ => True) := by
  refine (erases_runs h.inv hop (elem_lt h.map hm).1).mono ?_ (fun _ _ _ _ => trivial)
  rintro _ c' w' ⟨h1, h2⟩
  exact ⟨Prefix.survives h2 trivial h.inv h1 hmn hm, Prefix.localSurvives h2 h.inv h1 hmn hm⟩

example (k : Kind) := C27_erase (Sample.reach0 k) (op := .erase (Sample.iter k 3)) (t := 0) (n := 2) (Sample.iter_three k) (m := 1) (by decide) (by rw [Sample.abs0]; decide)

/-- **C27**, `erase(first,last)`: iterators to elements that come before `first` in the traversal still
point to their elements, whatever their type. -/
theorem C27_erase_range {c : Coll V} {w : World} (h : c.Reachable E k w) {first last : GIter} {p q : Spec.State.Pos}
    (hf : c.At E first p) (hl : c.At E last q) (hpq : c.abs.rank p ≤ c.abs.rank q) {t : Ty} {m : Nat} (hm : m < (c.abs.elemsOf t).length)
    (hlt : c.abs.rank (some (t, m)) < c.abs.rank p) :
    Runs (eraseRange E first last) c w (fun _ c' _ => Survives E c t m c' ∧ LocalSurvives E c t m c') (fun _ _ _ => True) := by
  refine (eraseRange_runs E first last p q c w h.inv hf hl hpq).mono ?_ (fun _ _ _ _ => trivial)
  rintro _ c' w' ⟨hrem, -⟩
  have ht := (elem_lt h.map hm).1
  have hpre : Prefix E c t (m + 1) True c' := by
    refine hrem.prefix h.map ?_
    cases hg : c.abs.get t with
    | none => exact absurd ht (Spec.State.get_none.1 hg)
    | some l =>
      have he : c.abs.elemsOf t = l := by unfold Spec.State.elemsOf; rw [hg]
      rw [he, removeRange_before h.nodup hg (he ▸ hm) hlt hpq]
  exact ⟨Prefix.survives hpre trivial h.inv hrem.inv (Nat.lt_succ_self m) hm, Prefix.localSurvives hpre h.inv hrem.inv (Nat.lt_succ_self m) hm⟩

/-- Erasing the last element of type 0, and erasing from there to the end. -/
example (k : Kind) : ∃ pos, (Sample.c0 k).Reachable Sample.E0 k (Sample.w0 k) ∧ Erases Sample.E0 (Sample.c0 k) (.erase pos) 0 2 ∧
    (Sample.c0 k).At Sample.E0 pos (some (0, 2)) ∧ (Sample.c0 k).At Sample.E0 (Sample.c0 k).end none ∧
    (Sample.c0 k).abs.rank (some (0, 2)) ≤ (Sample.c0 k).abs.rank none ∧ 0 < ((Sample.c0 k).abs.elemsOf 1).length ∧
    (Sample.c0 k).abs.rank (some (1, 0)) < (Sample.c0 k).abs.rank (some (0, 2)) := by
  obtain ⟨it, hit⟩ := exists_at (Sample.reach0 k).inv (p := some (0, 2)) (by rw [Sample.abs0]; exact ⟨_, rfl, by decide⟩)
  exact ⟨it, Sample.reach0 k, hit, hit, at_end _ _, by rw [Sample.abs0]; decide, by rw [Sample.abs0]; decide, by rw [Sample.abs0]; decide⟩

/-! ### C28 -/

/-- Segment `u` of `c` was left alone in going to `c'`: its elements are the same, and iterators to them
can be used to read them.  If the hash map was not rehashed (`gen` counts how often it was), which requires creation of a
segment, or rehashing leaves its iterators alone, they can be used in every other way, too; otherwise they cannot be advanced. -/
structure LeftAlone (E : Env V) (c : Coll V) (u : Ty) (c' : Coll V) : Prop where
  elems : u ∈ c.abs.types → c'.abs.elemsOf u = c.abs.elemsOf u
  deref : ∀ it m, c.At E it (some (u, m)) → c'.map.deref it.segpos = c.map.deref it.segpos
  derefBase : ∀ l m, m < (c.abs.elemsOf u).length → c.LAtB E l u m → c'.map.deref l.pos = c.map.deref l.pos
  derefLocal : ∀ l m, m < (c.abs.elemsOf u).length → c.LAtL E l u m → c'.derefLocal l.pos = c.derefLocal l.pos
  rehash : (∀ t ∈ c'.abs.types, t ∈ c.abs.types) → c'.map.gen = c.map.gen
  lost : E.strictRehash = true → c'.map.gen ≠ c.map.gen → ∀ it m, c.At E it (some (u, m)) → c'.map.increment E it = none
  iters : (E.strictRehash = false ∨ c'.map.gen = c.map.gen) → ∀ it m, c.At E it (some (u, m)) → c'.At E it (some (u, m))
  baseIters : (E.strictRehash = false ∨ c'.map.gen = c.map.gen) → ∀ l m, c.LAtB E l u m → c'.LAtB E l u m
  localIters : (E.strictRehash = false ∨ c'.map.gen = c.map.gen) → ∀ l m, c.LAtL E l u m → c'.LAtL E l u m

theorem leftAlone {c c' : Coll V} {w w' : World} {u : Ty} (h : Spares E c u c') (hc : c.Inv E w) (hc' : c'.Weak E w') : LeftAlone E c u c' where
  elems := h.elemsOf hc.map hc'.map
  deref := by
    intro it m ha
    obtain ⟨n, hn, -, h2, h3, h4⟩ := ha.pos
    obtain ⟨n', hn', -, h6⟩ := h.node n hn h2
    have hco := (hc'.mem.segs n' hn').core E (h6.whole ((hc.mem.segs n hn).core.whole E))
    rw [h4, deref_node E (hc.core E) hn h3, ← h6.base, deref_mem E hc'.mem hn' hco (by rw [h6.size]; exact h3), h6.elems]
  derefBase := by
    rintro l m hm ⟨n, hu, h2, -, h4⟩
    obtain ⟨n', hn', -, h6⟩ := h.node n hu.mem h2
    have h3 := (elem_lt hc.map hm).2 n hu.mem h2
    have hco := (hc'.mem.segs n' hn').core E (h6.whole ((hc.mem.segs n hu.mem).core.whole E))
    rw [h4, deref_node E (hc.core E) hu.mem h3, ← h6.base, deref_mem E hc'.mem hn' hco (by rw [h6.size]; exact h3), h6.elems]
  derefLocal := by
    rintro l m hm ⟨n, hu, h2, -, h4⟩
    obtain ⟨n', hn', -, h6⟩ := h.node n hu.mem h2
    have h3 := (elem_lt hc.map hm).2 n hu.mem h2
    have hco := (hc'.mem.segs n' hn').core E (h6.whole ((hc.mem.segs n hu.mem).core.whole E))
    rw [h4, derefLocal_node (hc.core E) hu.mem h3, ← h6.loc, derefLocal_mem hc'.mem hn' hco (by rw [h6.size]; exact h3), h6.elems]
  rehash := h.gen
  lost := fun hs hg _ _ ha => TMap.increment_stale hs hg ha.usable
  iters := fun hr _ _ => h.at hr
  baseIters := fun hr _ _ => h.latB hr
  localIters := fun hr _ _ => h.latL hr

/-- **C28.**  Every operation on a collection, used as documented, leaves alone the segments it is not
concerned with, whether it returns or throws: the ones of types other than those inserted, erased, reserved or shrunk
(`COp.Touches` tells which types these are).

Missing: iterators cannot be advanced after an operation that created a segment if this rehashes the
map (`LeftAlone.lost`), see `C58_hint_after_rehash`. -/
theorem C28_partial {c : Coll V} {w : World} (h : c.Reachable E k w) (op : COp V) (hp : op.Pre E c) (u : Ty) (hu : ¬ op.Touches E c u) :
    Runs (op.run E) c w (fun _ c' _ => LeftAlone E c u c') (fun _ c' _ => LeftAlone E c u c') := by
  refine ((op_spares op c w h.inv hp u hu).and (op_good E op c w h.inv hp)).mono ?_ ?_
  · rintro _ c' w' ⟨h1, h2⟩
    exact leftAlone h1 h.inv (h2.weak E).1
  · rintro _ c' w' ⟨h1, -, h2⟩
    exact leftAlone h1 h.inv h2.1

example (k : Kind) := C28_partial (Sample.reach0 k) (.emplace 0 (.emplaced 8)) ⟨8, Or.inl ⟨rfl, rfl⟩⟩ 2 (by show ¬ ((2 : Nat) = 0 / 2); decide)

/-- **C28** for insertion of elements of another collection.  Missing: as above. -/
theorem C28_insert_collection_partial {c d : Coll V} {w : World} (h : Reachable2 E k c d w) {sub : Ty → TI} (hsub : ∀ t, E.tiTy (sub t) = t)
    {first last : GIter} {p q : Spec.State.Pos} (hf : d.At E first p) (hl : d.At E last q) (hpq : d.abs.rank p ≤ d.abs.rank q)
    (u : Ty) (hu : u ∉ (between d.abs p q).map Prod.fst) :
    Runs (insertColl E sub d first last) c w (fun _ c' _ => LeftAlone E c u c') (fun _ c' _ => LeftAlone E c u c') := by
  refine (insertColl_runs E hsub d w h.right.inv hf hl hpq c w h.left.inv (h.right.kind.trans h.left.kind.symm)).mono ?_ ?_
  · rintro _ c' w' ⟨p', hi⟩
    exact leftAlone (hi.spares h.left.inv hu) h.left.inv ((hi.kept E h.left.inv).weak E).1
  · rintro _ c' w' hi
    exact leftAlone (hi.spares h.left.inv hu) h.left.inv (hi.wkept E h.left.inv).1

example (k : Kind) := C28_insert_collection_partial (Sample.reach01 k) (Sample.sub_ty _) (Sample.first1_at k) (Sample.end1_at k) (by rw [Sample.abs1]; decide) 2 (by rw [Sample.abs1]; decide)

/-- **C28** for insertion of elements of one segment of another collection.  Missing: as above. -/
theorem C28_insert_local_partial {c d : Coll V} {w : World} (h : Reachable2 E k c d w) {sub : Ty → TI} (hsub : ∀ t, E.tiTy (sub t) = t)
    {first last : LIter} {t : Ty} {a b : Nat} (hf : d.LAtB E first t a) (hl : d.LAtB E last t b) (hab : a ≤ b) (u : Ty) (hu : u ≠ t) :
    Runs (insertLocalColl E sub d first last) c w (fun _ c' _ => LeftAlone E c u c') (fun _ c' _ => LeftAlone E c u c') := by
  have hu' : u ∉ ((slice d.abs t a b).map fun v => (t, v)).map Prod.fst := by
    simp only [List.map_map, List.mem_map, Function.comp, not_exists, not_and]
    exact fun _ _ he => hu he.symm
  refine (insertLocalColl_runs E hsub d w h.right.inv hf hl hab c w h.left.inv (h.right.kind.trans h.left.kind.symm)).mono ?_ ?_
  · rintro _ c' w' ⟨p', hi⟩
    exact leftAlone (hi.spares h.left.inv hu') h.left.inv ((hi.kept E h.left.inv).weak E).1
  · rintro _ c' w' hi
    exact leftAlone (hi.spares h.left.inv hu') h.left.inv (hi.wkept E h.left.inv).1

example (k : Kind) := C28_insert_local_partial (Sample.reach01 k) (Sample.sub_ty _) (Sample.lbase1_at k (n := 0) (by decide))
  (Sample.lbase1_at k (n := 2) (by decide)) (by decide) 2 (by decide)

/-- **C28** for insertion of elements of another collection with a hint.  Missing: as above. -/
theorem C28_insert_hint_collection_partial {c d : Coll V} {w : World} (h : Reachable2 E k c d w) {sub : Ty → TI} (hsub : ∀ t, E.tiTy (sub t) = t)
    {hint first last : GIter} {r p q : Spec.State.Pos} (hh : c.At E hint r) (hf : d.At E first p) (hl : d.At E last q) (hpq : d.abs.rank p ≤ d.abs.rank q)
    (hok : c.HintOK E ((between d.abs p q).map Prod.fst)) (u : Ty) (hu : u ∉ (between d.abs p q).map Prod.fst) :
    Runs (insertHintColl E sub hint d first last) c w (fun _ c' _ => LeftAlone E c u c') (fun _ c' _ => LeftAlone E c u c') := by
  refine (insertHintColl_runs E hsub d w h.right.inv hf hl hpq hint r c w h.left.inv (h.right.kind.trans h.left.kind.symm) hh hok).mono ?_ ?_
  · rintro _ c' w' ⟨p', hi, -⟩
    exact leftAlone (hi.spares h.left.inv hu) h.left.inv ((hi.kept E h.left.inv).weak E).1
  · rintro _ c' w' hi
    exact leftAlone (hi.spares h.left.inv hu) h.left.inv (hi.wkept E h.left.inv).1

example (k : Kind) := C28_insert_hint_collection_partial (Sample.reach01 k) (Sample.sub_ty _) (Sample.iter_two k) (Sample.second1_at k) (Sample.end1_at k)
  (by rw [Sample.abs1]; decide) (.inr (by rw [Sample.abs0, Sample.abs1]; decide)) 2 (by rw [Sample.abs1]; decide)

/-- **C28** for insertion of elements of one segment of another collection with a hint.  Missing: as above. -/
theorem C28_insert_hint_local_partial {c d : Coll V} {w : World} (h : Reachable2 E k c d w) {sub : Ty → TI} (hsub : ∀ t, E.tiTy (sub t) = t)
    {hint : GIter} {r : Spec.State.Pos} {first last : LIter} {t : Ty} {a b : Nat} (hh : c.At E hint r) (hf : d.LAtB E first t a) (hl : d.LAtB E last t b)
    (hab : a ≤ b) (hok : c.HintOK E [t]) (u : Ty) (hu : u ≠ t) :
    Runs (insertHintLocalColl E sub hint d first last) c w (fun _ c' _ => LeftAlone E c u c') (fun _ c' _ => LeftAlone E c u c') := by
  have hu' : u ∉ ((slice d.abs t a b).map fun v => (t, v)).map Prod.fst := by
    simp only [List.map_map, List.mem_map, Function.comp, not_exists, not_and]
    exact fun _ _ he => hu he.symm
  refine (insertHintLocalColl_runs E hsub d w h.right.inv hf hl hab hint r c w h.left.inv (h.right.kind.trans h.left.kind.symm) hh hok).mono ?_ ?_
  · rintro _ c' w' ⟨p', hi, -⟩
    exact leftAlone (hi.spares h.left.inv hu') h.left.inv ((hi.kept E h.left.inv).weak E).1
  · rintro _ c' w' hi
    exact leftAlone (hi.spares h.left.inv hu') h.left.inv (hi.wkept E h.left.inv).1

/-- Inserting an element of type 0, and elements of `c1`, which has none of type 2. -/
example (k : Kind) : ∃ first l1 l2, Reachable2 Sample.E0 k (Sample.c0 k) (Sample.c1 k) (Sample.w0 k) ∧ (∀ t, Sample.E0.tiTy (Sample.sub t) = t) ∧
    (COp.emplace 0 (.emplaced 8)).Pre Sample.E0 (Sample.c0 k) ∧ ¬ (COp.emplace 0 (.emplaced 8)).Touches Sample.E0 (Sample.c0 k) 2 ∧
    (Sample.c0 k).abs.elemsOf 2 = [7] ∧
    (Sample.c1 k).At Sample.E0 first (some (3, 0)) ∧ (Sample.c1 k).At Sample.E0 (Sample.c1 k).end none ∧
    (Sample.c1 k).abs.rank (some (3, 0)) ≤ (Sample.c1 k).abs.rank none ∧ (2 : Ty) ∉ (between (Sample.c1 k).abs (some (3, 0)) none).map Prod.fst ∧
    (Sample.c1 k).LAtB Sample.E0 l1 0 1 ∧ (Sample.c1 k).LAtB Sample.E0 l2 0 2 := by
  obtain ⟨first, hf⟩ := exists_at (Sample.reach1 k).inv (p := some (3, 0)) (by rw [Sample.abs1]; exact ⟨_, rfl, by decide⟩)
  obtain ⟨l1, h1⟩ := exists_latB (Sample.reach1 k).inv (t := 0) (n := 1) (by rw [Sample.abs1]; decide) (by rw [Sample.abs1]; decide)
  obtain ⟨l2, h2⟩ := exists_latB (Sample.reach1 k).inv (t := 0) (n := 2) (by rw [Sample.abs1]; decide) (by rw [Sample.abs1]; decide)
  exact ⟨first, l1, l2, Sample.reach01 k, Sample.sub_ty _, ⟨8, Or.inl ⟨rfl, rfl⟩⟩, by show ¬ ((2 : Nat) = 0 / 2); decide, by rw [Sample.abs0]; rfl, hf, at_end _ _,
    by rw [Sample.abs1]; decide, by rw [Sample.abs1]; decide, h1, h2⟩

/-- Hints for these: the type to insert is registered already. -/
example (k : Kind) : ∃ first, (Sample.c1 k).At Sample.E0 first (some (0, 0)) ∧ (Sample.c0 k).At Sample.E0 (Sample.c0 k).end none ∧
    (Sample.c0 k).HintOK Sample.E0 ((between (Sample.c1 k).abs (some (0, 0)) none).map Prod.fst) ∧
    (2 : Ty) ∉ (between (Sample.c1 k).abs (some (0, 0)) none).map Prod.fst ∧ (Sample.c0 k).HintOK Sample.E0 [0] := by
  obtain ⟨first, hf⟩ := exists_at (Sample.reach1 k).inv (p := some (0, 0)) (by rw [Sample.abs1]; exact ⟨_, rfl, by decide⟩)
  refine ⟨first, hf, at_end _ _, Or.inr ?_, by rw [Sample.abs1]; decide, Or.inr ?_⟩
  · rw [Sample.abs0, Sample.abs1]; decide
  · rw [Sample.abs0]; decide

/-- An insertion that throws: the element of type 1 is not copyable; type 2 is not concerned. -/
example (k : Kind) : ∃ e c' w', (COp.insert ⟨2, 2, true, false, .copyExt 5⟩).Pre Sample.E0 (Sample.c0 k) ∧
    ¬ (COp.insert ⟨2, 2, true, false, .copyExt 5⟩).Touches Sample.E0 (Sample.c0 k) 2 ∧
    COp.run Sample.E0 (.insert ⟨2, 2, true, false, .copyExt 5⟩) (Sample.c0 k) (Sample.w0 k) = .exc e c' w' := by
  have hp : (COp.insert ⟨2, 2, true, false, .copyExt 5⟩).Pre Sample.E0 (Sample.c0 k) := ⟨fun _ => rfl, 5, Or.inl ⟨rfl, rfl⟩⟩
  have hn : ¬ (COp.insert ⟨2, 2, true, false, .copyExt 5⟩).Touches Sample.E0 (Sample.c0 k) 2 := by show ¬ ((2 : Nat) = 2 / 2); decide
  cases k
  · exact ⟨_, _, _, hp, hn, rfl⟩
  · exact ⟨_, _, _, hp, hn, rfl⟩

/-! ### C58 -/

/-- **C58** does not hold.  According to the standard, inserting in a hash map may rehash it and
then invalidates its iterators.  `emplace_hint` first creates the segment for the new element, if
need be, and then looks at the hint, a part of which is an iterator of the map.  A valid hint leads to
undefined behaviour. -/
theorem C58_hint_after_rehash : ∃ (E : Env Nat) (c : Coll Nat) (w : World) (hint : GIter),
    c.Reachable E .split w ∧ c.At E hint (some (0, 0)) ∧ COp.run E (.emplaceHint hint 4 (.emplaced 7)) c w = .ub :=
  ⟨Sample.E0, Sample.w13c1, _, ⟨⟨some 4, 1⟩, ⟨none, 1⟩, ⟨9, 0⟩⟩, Sample.w13reach.left,
    ⟨rfl, rfl, rfl, _, .head _, rfl, rfl, by decide, rfl⟩, rfl⟩

/-- **C58** does not hold for iterators that a program has, either: after a type has been registered,
the iterator to the only element can be read but advancing it is undefined. -/
theorem C58_increment_after_rehash : ∃ (E : Env Nat) (c c' : Coll Nat) (w w' : World) (it : GIter),
    c.Reachable E .split w ∧ c.At E it (some (0, 0)) ∧ c.map.increment E it = some c.end ∧
    COp.run E (.registerTypes [4]) c w = .ok () c' w' ∧ c'.map.deref it.segpos = some 5 ∧ c'.map.increment E it = none :=
  ⟨Sample.E0, Sample.w13c1, _, _, _, ⟨⟨some 4, 1⟩, ⟨none, 1⟩, ⟨9, 0⟩⟩, Sample.w13reach.left,
    ⟨rfl, rfl, rfl, _, .head _, rfl, rfl, by decide, rfl⟩, rfl, rfl, rfl, rfl⟩

/-- **C58 fails whenever** creating the segment of a type changes the number of buckets of the map (and
this invalidates the iterators of the map, as the standard has it): iterators from before can neither be
advanced afterwards nor be used as hints for the insertion that creates the segment. -/
theorem C58_rehash {c c1 : Coll V} {w w1 : World} (h : c.Reachable E k w) (hs : E.strictRehash = true) {t : TI} (ht : E.tiTy t ∉ c.abs.types)
    (hr : registerTypes E [t] c w = .ok () c1 w1) (hb : c1.map.buckets ≠ c.map.buckets) {it : GIter} {p : Spec.State.Pos} (hp : c.At E it p) :
    c1.map.increment E it = none ∧ ∀ src, emplaceHint E it t src c w = .ub := by
  have hu : c.map.usable E it.mapit = true := hp.usable
  have hn : ∃ i, insertNew E t c w = .ok i c1 w1 := by
    have hr' : Prog.bind (insertNew E t) (fun _ => Prog.pure ()) c w = .ok () c1 w1 := hr
    unfold Prog.bind at hr'
    cases hi : insertNew E t c w with
    | ok i c' w' =>
      rw [hi] at hr'
      cases hr'
      exact ⟨i, rfl⟩
    | exc e c' w' => rw [hi] at hr'; cases hr'
    | ub => rw [hi] at hr'; cases hr'
  obtain ⟨i, hi⟩ := hn
  have hre := insertNew_rehash (E := E) t c w
  unfold Leaves at hre
  rw [hi] at hre
  have hst : c1.map.usable E it.mapit = false := TMap.stale hs hu hre hb
  refine ⟨?_, fun src => ?_⟩
  · unfold TMap.increment TMap.node?
    simp [hst]
  · unfold emplaceHint
    have hf := (forT_new h.map ht).trans hi
    simp only [bind, Prog.bind, hf, Prog.get, TMap.itEq, hst, Bool.false_and]
    rfl

/-- The collection of `C58_hint_after_rehash`. -/
example : ∃ c1 w1, Sample.w13c1.Reachable Sample.E0 .split ⟨10, 10⟩ ∧ Sample.E0.strictRehash = true ∧ Sample.E0.tiTy 4 ∉ Sample.w13c1.abs.types ∧
    registerTypes Sample.E0 [4] Sample.w13c1 ⟨10, 10⟩ = .ok () c1 w1 ∧ c1.map.buckets ≠ Sample.w13c1.map.buckets ∧
    Sample.w13c1.At Sample.E0 ⟨⟨some 4, 1⟩, ⟨none, 1⟩, ⟨9, 0⟩⟩ (some (0, 0)) :=
  ⟨_, _, Sample.w13reach.left, rfl, by decide, rfl, by decide, rfl, rfl, rfl, _, .head _, rfl, rfl, by decide, rfl⟩

/-- **C58**, what holds: registering types leaves all segments alone, so that all elements can be read
through iterators held before; if rehashing leaves iterators of the map alone, or the map is not rehashed, for example because
the types were registered already, all iterators stay valid, including those to the end.  The same goes for
insertions, see `C28_partial` (other segments) and `C06_emplace_hint_partial` (hints).

Missing: advancing iterators, and using them as hints, after a segment has been created if that rehashes
the map. -/
theorem C58_register_partial {c : Coll V} {w : World} (h : c.Reachable E k w) (ts : List TI) :
    Runs (registerTypes E ts) c w
      (fun _ c' _ => (∀ u, LeftAlone E c u c') ∧
        ((∀ t ∈ ts, E.tiTy t ∈ c.abs.types) → c'.map.gen = c.map.gen) ∧
        (E.strictRehash = false ∨ c'.map.gen = c.map.gen → ∀ it p, c.At E it p → c'.At E it p))
      (fun _ _ _ => True) := by
  have key : ∀ (u : Ty) {c' : Coll V} {w' : World}, registerTypes E ts c w = .ok () c' w' → Spares E c u c' := by
    intro u c' w' he
    have := registerTypes_spares (E := E) ts u c w h.inv
    unfold Runs at this
    rw [he] at this
    exact this
  refine (h.runsU (.registerTypes ts) trivial rfl (registerTypes_runs E ts c w h.inv)).withEq.mono ?_ (fun _ _ _ _ => trivial)
  rintro _ c' w' ⟨⟨hr, -, -, -, hreg, -⟩, he⟩
  refine ⟨fun u => leftAlone (key u he) h.inv ((hr.inv.core E).weak E), fun hh => (key 0 he).gen fun t ht => ?_, fun hh it p ha => ?_⟩
  · rw [hreg.same (by simpa using hh)] at ht
    exact ht
  cases p with
  | none => exact Spares.atEnd hh ha
  | some q => exact (key q.1 he).at hh ha

/-- A collection with one element in an environment where rehashing is harmless; type 2 is new. -/
example : Sample.w13c1.Reachable Sample.E1 .split ⟨10, 10⟩ ∧ Sample.E1.strictRehash = false ∧ Sample.E1.tiTy 4 ∉ Sample.w13c1.abs.types ∧
    Sample.w13c1.At Sample.E1 ⟨⟨some 4, 1⟩, ⟨none, 1⟩, ⟨9, 0⟩⟩ (some (0, 0)) ∧
    ∃ c' w', COp.run Sample.E1 (.registerTypes [4]) Sample.w13c1 ⟨10, 10⟩ = .ok () c' w' ∧ c'.abs.types = [2, 0] :=
  ⟨Sample.w58reach.left, rfl, by decide, ⟨rfl, rfl, rfl, _, .head _, rfl, rfl, by decide, rfl⟩, _, _, rfl, rfl⟩

end PolyColl.Props
