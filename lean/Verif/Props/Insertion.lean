import Verif.Props.SampleRange
import Verif.Props.SampleData
import Verif.Lemmas.RangeCopies
/-!
# Properties C05 to C12: insertion

All theorems give the outcome in both cases: what the collection is after success, and for which
reason an exception can have been thrown.  `ExcFrom E t copies len e` says that `e` is `bad_alloc`
or the exception of an element operation, and something was made to fail; or `length_error`, and
`len` holds; or `not_copy_constructible` for a type `t` that is not copyable, and the operation
copies (`copies`) or `t` has a move constructor that may throw.
-/

namespace PolyColl.Props
open PolyColl Prog Coll

variable {V : Type} {E : Env V} {k : Kind}

/-- The values of a list of arguments given from outside the collection. -/
def ArgsOf (as : List (Arg V)) (vs : List V) : Prop := All2 (fun a v => a.src.Of v) as vs

/-- The same for plain sources. -/
def SrcsOf (srcs : List (Src V)) (vs : List V) : Prop := All2 (fun src v => src.Of v) srcs vs

theorem ArgsOf.spec {as : List (Arg V)} {vs : List V} (h : ArgsOf as vs) :
    (∀ a ∈ as, a.src.ext = true) ∧ as.map (fun a => a.src.val Vec.nil) = vs.map some ∧ as.length = vs.length := by
  induction h with
  | nil => exact ⟨by simp, rfl, rfl⟩
  | cons h _ ih => exact ⟨by simpa using ⟨h.ext, ih.1⟩, by simpa using ⟨h.val, ih.2.1⟩, by simpa using ih.2.2⟩

theorem SrcsOf.spec {as : List (Src V)} {vs : List V} (h : SrcsOf as vs) :
    (∀ a ∈ as, a.ext = true) ∧ as.map (Src.val Vec.nil) = vs.map some ∧ as.length = vs.length := by
  induction h with
  | nil => exact ⟨by simp, rfl, rfl⟩
  | cons h _ ih => exact ⟨by simpa using ⟨h.ext, ih.1⟩, by simpa using ⟨h.val, ih.2.1⟩, by simpa using ih.2.2⟩

/-- The elements of a list of arguments with their dynamic types. -/
def tagged (E : Env V) (as : List (Arg V)) (vs : List V) : List (Ty × V) := List.zipWith (fun a v => (E.tiTy a.dyn, v)) as vs

theorem typed_eq (as : List (Arg V)) (vs : List V) : typed E as vs = tagged E as vs := by
  unfold typed tagged
  rw [List.zip, List.map_zipWith]

/-! ### C05 -/

/-- **C05.**  `emplace<U>(args)` appends the element constructed to the segment of `U`, which is
created if need be, and returns an iterator to the element. -/
theorem C05_emplace {c : Coll V} {w : World} (h : c.Reachable E k w) (t : TI) {src : Src V} {v : V} (hs : src.Of v) :
    Runs (emplace E t src) c w
      (fun it c' w' => c'.Reachable E k w' ∧
        c.abs.Put (E.tiTy t) (c.abs.elemsOf (E.tiTy t)).length [v] c'.abs ∧
        c'.At E it (some (E.tiTy t, (c.abs.elemsOf (E.tiTy t)).length)) ∧ c'.map.deref it.segpos = some v)
      (fun e _ _ => ExcFrom E (E.tiTy t) src.copies (E.TooMany (E.tiTy t) ((c.abs.elemsOf (E.tiTy t)).length + 1)) e) := by
  refine ((h.runs (.emplace t src) ⟨v, srcFor hs⟩ rfl (emplace_runs E t src v c w h.inv (srcFor hs)))).mono ?_ (fun e c' w' h' => h'.exc E h.map)
  rintro it c' w' ⟨hr, hi, ha, -⟩
  have hp := hi.put E h.map
  exact ⟨hr, hp, ha, deref_pos hr.inv ha (hp.at h.nodup (Nat.le_refl _))⟩

example (k : Kind) : (Sample.c0 k).Reachable Sample.E0 k (Sample.w0 k) ∧ (Src.moveExt 8).Of 8 ∧
    Sample.E0.tiTy 1 ∈ (Sample.c0 k).abs.types ∧ Sample.E0.tiTy 7 ∉ (Sample.c0 k).abs.types :=
  ⟨Sample.reach0 k, .inr (.inl rfl), by rw [Sample.abs0]; decide, by rw [Sample.abs0]; decide⟩

/-! ### C06 -/

/-- **C06** for `emplace_hint`.  The new element goes right before the hint if the hint is in the
segment of its type, at the end of that segment otherwise (`hintPos`); nothing else changes; the
iterator returned points to the element.

Missing: a hint together with a type that is not registered yet, in case rehashing a hash map
invalidates its iterators, which the standard allows; see `C58_hint_after_rehash`, and `C06_emplace_hint` for what happens
then. -/
theorem C06_emplace_hint_partial {c : Coll V} {w : World} (h : c.Reachable E k w) {hint : GIter} {p : Spec.State.Pos} (hh : c.At E hint p)
    (t : TI) {src : Src V} {v : V} (hs : src.Of v) (hr : E.strictRehash = false ∨ E.tiTy t ∈ c.abs.types) :
    Runs (emplaceHint E hint t src) c w
      (fun it c' w' => c'.Reachable E k w' ∧
        c.abs.Put (E.tiTy t) (c.abs.hintPos (E.tiTy t) p) [v] c'.abs ∧
        c'.At E it (some (E.tiTy t, c.abs.hintPos (E.tiTy t) p)) ∧ c'.map.deref it.segpos = some v)
      (fun e _ _ => ExcFrom E (E.tiTy t) src.copies (E.TooMany (E.tiTy t) ((c.abs.elemsOf (E.tiTy t)).length + 1)) e) := by
  refine ((h.runs (.emplaceHint hint t src) ⟨⟨v, srcFor hs⟩, ⟨p, hh⟩, hr.imp id (by simpa using ·)⟩ rfl
    (emplaceHint_runs E hint p t src v c w h.inv (srcFor hs) hh hr))).mono ?_ (fun e c' w' h' => h'.exc E h.map)
  rintro it c' w' ⟨hr, hi, ha, -⟩
  have hp := hi.put E h.map
  exact ⟨hr, hp, ha, deref_pos hr.inv ha (hp.at h.nodup (hi.le E h.map))⟩

example (k : Kind) := C06_emplace_hint_partial (Sample.reach0 k) (Sample.iter_two k) 1 (src := .moveExt 8) (.inr (.inl rfl)) (.inr (by rw [Sample.abs0]; decide))

/-- **C06** for `insert(hint,x)`.  Who gets registered and who throws is as for `insert(x)`, C07.
Missing: as in `C06_emplace_hint_partial`. -/
theorem C06_insert_hint_partial {c : Coll V} {w : World} (h : c.Reachable E k w) {hint : GIter} {p : Spec.State.Pos} (hh : c.At E hint p)
    (a : Arg V) (ha : Coll.Arg.OK E a) {v : V} (hs : a.src.Of v) (hr : E.strictRehash = false ∨ E.tiTy a.dyn ∈ c.abs.types) :
    Runs (insertHint E hint a) c w
      (fun it c' w' => c'.Reachable E k w' ∧
        c.abs.Put (E.tiTy a.dyn) (c.abs.hintPos (E.tiTy a.dyn) p) [v] c'.abs ∧
        c'.At E it (some (E.tiTy a.dyn, c.abs.hintPos (E.tiTy a.dyn) p)) ∧ c'.map.deref it.segpos = some v)
      (fun e _ _ => ArgExc E c a e) := by
  refine ((h.runs (.insertHint hint a) ⟨ha, ⟨v, srcFor hs⟩, ⟨p, hh⟩, hr.imp id (by simpa using ·)⟩ rfl
    (insertHint_runs E hint p a v ha c w h.inv (srcFor hs) hh hr))).mono ?_ (fun e c' w' h' => h'.exc E h.map)
  rintro it c' w' ⟨hr, hi, ha, -⟩
  have hp := hi.put E h.map
  exact ⟨hr, hp, ha, deref_pos hr.inv ha (hp.at h.nodup (hi.le E h.map))⟩

/-- A hint to the second element of type 0, for elements of types 0 and 1. -/
example (k : Kind) : ∃ hint, (Sample.c0 k).Reachable Sample.E0 k (Sample.w0 k) ∧ (Sample.c0 k).At Sample.E0 hint (some (0, 1)) ∧
    Sample.E0.tiTy 1 ∈ (Sample.c0 k).abs.types ∧ (Sample.c0 k).abs.hintPos (Sample.E0.tiTy 1) (some (0, 1)) = 1 ∧
    Sample.E0.tiTy 2 ∈ (Sample.c0 k).abs.types ∧ (Sample.c0 k).abs.hintPos (Sample.E0.tiTy 2) (some (0, 1)) = 1 ∧
    Coll.Arg.OK Sample.E0 (⟨0, 1, true, false, .copyExt 8⟩ : Arg Nat) := by
  obtain ⟨hint, hh⟩ := exists_at (Sample.reach0 k).inv (p := some (0, 1)) (by rw [Sample.abs0]; exact ⟨_, rfl, by decide⟩)
  refine ⟨hint, Sample.reach0 k, hh, ?_, ?_, ?_, ?_, fun h => by simp at h⟩ <;> rw [Sample.abs0] <;> decide

/-! ### C07 -/

/-- **C07**, registered dynamic type, or storable static type that is the dynamic type: the element goes
to the end of the segment of its dynamic type. -/
theorem C07_insert {c : Coll V} {w : World} (h : c.Reachable E k w) (a : Arg V) (ha : Coll.Arg.OK E a) {v : V} (hs : a.src.Of v)
    (ht : E.tiTy a.dyn ∈ c.abs.types ∨ a.acc = true ∧ E.tiTy a.dyn = E.tiTy a.stat) :
    Runs (insert E a) c w
      (fun it c' w' => c'.Reachable E k w' ∧
        c.abs.Put (E.tiTy a.dyn) (c.abs.elemsOf (E.tiTy a.dyn)).length [v] c'.abs ∧
        c'.At E it (some (E.tiTy a.dyn, (c.abs.elemsOf (E.tiTy a.dyn)).length)) ∧ c'.map.deref it.segpos = some v)
      (fun e _ _ => ExcFrom E (E.tiTy a.dyn) a.src.copies (E.TooMany (E.tiTy a.dyn) ((c.abs.elemsOf (E.tiTy a.dyn)).length + 1)) e) := by
  refine ((h.runs (.insert a) ⟨ha, ⟨v, srcFor hs⟩⟩ rfl (insert_runs E a v ha c w h.inv (srcFor hs)))).mono ?_ ?_
  · rintro it c' w' ⟨hr, hi, ha, -⟩
    have hp := hi.put E h.map
    exact ⟨hr, hp, ha, deref_pos hr.inv ha (hp.at h.nodup (Nat.le_refl _))⟩
  · intro e c' w' h'
    rcases h'.exc E h.map with h' | ⟨-, h1, h2⟩
    · exact h'
    · exact absurd ht (fun h => h.elim h1 h2)

example (k : Kind) := C07_insert (Sample.reach0 k) ⟨0, 5, true, false, .copyExt 8⟩ (by unfold Coll.Arg.OK; decide) (.inl rfl) (.inl (by rw [Sample.abs0]; decide))

/-- **C07**, any other object: `insert` (with or without a hint, valid or not) never succeeds; it
throws `unregistered_type` with the dynamic type (or `bad_alloc`, if an allocation was made to fail)
and the collection has the same segments with the same elements. -/
theorem C07_insert_unregistered {c : Coll V} {w : World} (h : c.Possible E k w) (a : Arg V) (ha : Coll.Arg.OK E a)
    (ht : E.tiTy a.dyn ∉ c.abs.types) (hn : ¬ (a.acc = true ∧ E.tiTy a.dyn = E.tiTy a.stat)) :
    Runs (insert E a) c w (fun _ _ _ => False)
      (fun e c' _ => c'.map.nodes = c.map.nodes ∧ (e = .unregistered (E.tiTy a.dyn) ∨ e = .badAlloc ∧ ∃ i, E.fault i = true)) ∧
    ∀ hint, Runs (insertHint E hint a) c w (fun _ _ _ => False)
      (fun e c' _ => c'.map.nodes = c.map.nodes ∧ (e = .unregistered (E.tiTy a.dyn) ∨ e = .badAlloc ∧ ∃ i, E.fault i = true)) :=
  ⟨(insert_none E a ha c w h.map ht hn).mono (fun _ _ _ h => h) (fun _ _ _ h => ⟨h.1, h.2.imp id (·.1)⟩),
   fun hint => (insertHint_none E hint a ha c w h.map ht hn).mono (fun _ _ _ h => h) (fun _ _ _ h => ⟨h.1, h.2.imp id (·.1)⟩)⟩

/-- An object of registered type 2 seen as a 0; an object of unregistered type 3 seen as a 3 and as a 0. -/
example (k : Kind) : (Sample.c0 k).Reachable Sample.E0 k (Sample.w0 k) ∧
    (let a : Arg Nat := ⟨0, 5, true, false, .copyExt 8⟩
     Coll.Arg.OK Sample.E0 a ∧ Sample.E0.tiTy a.dyn ∈ (Sample.c0 k).abs.types) ∧
    (let a : Arg Nat := ⟨6, 7, true, true, .copyExt 8⟩
     Coll.Arg.OK Sample.E0 a ∧ Sample.E0.tiTy a.dyn ∉ (Sample.c0 k).abs.types ∧ a.acc = true ∧ Sample.E0.tiTy a.dyn = Sample.E0.tiTy a.stat) ∧
    (let a : Arg Nat := ⟨0, 7, true, false, .copyExt 8⟩
     Coll.Arg.OK Sample.E0 a ∧ Sample.E0.tiTy a.dyn ∉ (Sample.c0 k).abs.types ∧
       ¬ (a.acc = true ∧ Sample.E0.tiTy a.dyn = Sample.E0.tiTy a.stat)) := by
  rw [Sample.abs0]
  refine ⟨Sample.reach0 k, ⟨?_, by decide⟩, ⟨?_, by decide, rfl, rfl⟩, ?_, by decide, by decide⟩ <;> unfold Coll.Arg.OK <;> decide

/-! ### C08 -/

/-- **C08** for `emplace_pos` at a `local_base_iterator`. -/
theorem C08_emplace_pos_base {c : Coll V} {w : World} (h : c.Reachable E k w) (t : TI) {pos : LIter} {n : Nat} (hp : c.LAtB E pos (E.tiTy t) n)
    {src : Src V} {v : V} (hs : src.Of v) :
    Runs (emplacePosBase E pos t src) c w
      (fun l c' w' => c'.Reachable E k w' ∧ c'.abs = c.abs.insertAt (E.tiTy t) n [v] ∧ c'.LAtB E l (E.tiTy t) n)
      (fun e _ _ => ExcFrom E (E.tiTy t) src.copies (E.TooMany (E.tiTy t) ((c.abs.elemsOf (E.tiTy t)).length + 1)) e) := by
  refine ((h.runs (.emplacePosBase pos t src) ⟨⟨v, srcFor hs⟩, n, hp⟩ rfl
    (emplacePosBase_runs E pos t n src v c w h.inv hp (srcFor hs)))).mono ?_ (fun e c' w' h' => h'.exc E h.map)
  rintro it c' w' ⟨hr, hi, ha, -⟩
  obtain ⟨s, ⟨-, rfl⟩ | ⟨hn, -⟩, hs⟩ := hi.put E h.map
  · exact ⟨hr, hs, ha⟩
  · exact absurd (latB_types E hp) hn

example (k : Kind) := C08_emplace_pos_base (Sample.reach0 k) 1 (Sample.lbase_at k (n := 1) (by decide)) (src := .moveExt 8) (.inr (.inl rfl))

theorem latL_types {c : Coll V} {l : LIter} {t : Ty} {n : Nat} (h : c.LAtL E l t n) : t ∈ c.abs.types := by
  obtain ⟨m, hu, rfl, -⟩ := h
  exact mem_types hu.mem

/-- **C08** for `emplace_pos` at a `local_iterator<T>`. -/
theorem C08_emplace_pos_local {c : Coll V} {w : World} (h : c.Reachable E k w) (t : TI) {pos : LIter} {n : Nat} (hp : c.LAtL E pos (E.tiTy t) n)
    {src : Src V} {v : V} (hs : src.Of v) :
    Runs (emplacePosLocal E pos t src) c w
      (fun l c' w' => c'.Reachable E k w' ∧ c'.abs = c.abs.insertAt (E.tiTy t) n [v] ∧ c'.LAtL E l (E.tiTy t) n)
      (fun e _ _ => ExcFrom E (E.tiTy t) src.copies (E.TooMany (E.tiTy t) ((c.abs.elemsOf (E.tiTy t)).length + 1)) e) := by
  refine ((h.runs (.emplacePosLocal pos t src) ⟨⟨v, srcFor hs⟩, n, hp⟩ rfl
    (emplacePosLocal_runs E pos t n src v c w h.inv hp (srcFor hs)))).mono ?_ (fun e c' w' h' => h'.exc E h.map)
  rintro it c' w' ⟨hr, hi, ha, -⟩
  obtain ⟨s, ⟨-, rfl⟩ | ⟨hn, -⟩, hs⟩ := hi.put E h.map
  · exact ⟨hr, hs, ha⟩
  · exact absurd (latL_types hp) hn

example (k : Kind) := C08_emplace_pos_local (Sample.reach0 k) 1 (Sample.llocal_at k (n := 1) (by decide)) (src := .moveExt 8) (.inr (.inl rfl))

/-- **C08** for `insert` at a `local_base_iterator`. -/
theorem C08_insert_pos_base {c : Coll V} {w : World} (h : c.Reachable E k w) (a : Arg V) (ha : Coll.Arg.OK E a) {pos : LIter} {n : Nat}
    (hp : c.LAtB E pos (E.tiTy a.dyn) n) {v : V} (hs : a.src.Of v) :
    Runs (insertPosBase E pos a) c w
      (fun l c' w' => c'.Reachable E k w' ∧ c'.abs = c.abs.insertAt (E.tiTy a.dyn) n [v] ∧ c'.LAtB E l (E.tiTy a.dyn) n)
      (fun e _ _ => ExcFrom E (E.tiTy a.dyn) a.src.copies (E.TooMany (E.tiTy a.dyn) ((c.abs.elemsOf (E.tiTy a.dyn)).length + 1)) e) := by
  refine ((h.runs (.insertPosBase pos a) ⟨ha, ⟨v, srcFor hs⟩, n, hp⟩ rfl
    (insertPosBase_runs E pos a n v c w h.inv hp (srcFor hs)))).mono ?_ (fun e c' w' h' => h'.exc E h.map)
  rintro it c' w' ⟨hr, hi, ha, -⟩
  obtain ⟨s, ⟨-, rfl⟩ | ⟨hn, -⟩, hs⟩ := hi.put E h.map
  · exact ⟨hr, hs, ha⟩
  · exact absurd (latB_types E hp) hn

example (k : Kind) := C08_insert_pos_base (Sample.reach0 k) ⟨4, 1, true, false, .moveExt 8⟩ (fun h => by simp at h) (Sample.lbase_at k (n := 1) (by decide)) (.inr (.inl rfl))

/-- **C08** for `insert` at a `local_iterator<T>`. -/
theorem C08_insert_pos_local {c : Coll V} {w : World} (h : c.Reachable E k w) (a : Arg V) (ha : Coll.Arg.OK E a) {pos : LIter} {n : Nat}
    (hp : c.LAtL E pos (E.tiTy a.dyn) n) {v : V} (hs : a.src.Of v) :
    Runs (insertPosLocal E pos a) c w
      (fun l c' w' => c'.Reachable E k w' ∧ c'.abs = c.abs.insertAt (E.tiTy a.dyn) n [v] ∧ c'.LAtL E l (E.tiTy a.dyn) n)
      (fun e _ _ => ExcFrom E (E.tiTy a.dyn) a.src.copies (E.TooMany (E.tiTy a.dyn) ((c.abs.elemsOf (E.tiTy a.dyn)).length + 1)) e) := by
  refine ((h.runs (.insertPosLocal pos a) ⟨ha, ⟨v, srcFor hs⟩, n, hp⟩ rfl
    (insertPosLocal_runs E pos a n v c w h.inv hp (srcFor hs)))).mono ?_ (fun e c' w' h' => h'.exc E h.map)
  rintro it c' w' ⟨hr, hi, ha, -⟩
  obtain ⟨s, ⟨-, rfl⟩ | ⟨hn, -⟩, hs⟩ := hi.put E h.map
  · exact ⟨hr, hs, ha⟩
  · exact absurd (latL_types hp) hn

/-- Before the second element of type 0, and at the end of its segment. -/
example (k : Kind) : ∃ p q, (Sample.c0 k).Reachable Sample.E0 k (Sample.w0 k) ∧ (Sample.c0 k).LAtB Sample.E0 p (Sample.E0.tiTy 1) 1 ∧
    (Sample.c0 k).LAtL Sample.E0 q (Sample.E0.tiTy 1) 3 ∧ Coll.Arg.OK Sample.E0 (⟨4, 1, true, false, .moveExt 8⟩ : Arg Nat) ∧
    (Sample.c0 k).abs.insertAt 0 1 [8] = [(1, [9]), (0, [1, 8, 2, 3]), (5, []), (2, [7])] := by
  obtain ⟨p, hp⟩ := exists_latB (Sample.reach0 k).inv (t := 0) (n := 1) (by rw [Sample.abs0]; decide) (by rw [Sample.abs0]; decide)
  obtain ⟨q, hq⟩ := exists_latL (Sample.reach0 k).inv (t := 0) (n := 3) (by rw [Sample.abs0]; decide) (by rw [Sample.abs0]; decide)
  exact ⟨p, q, Sample.reach0 k, hp, hq, fun h => by simp at h, by rw [Sample.abs0]; rfl⟩

/-! ### C09 -/

/-- **C09.**  `insert(first,last)` of objects whose types are registered or storable: every segment ends
up with its old elements followed by the inserted elements of its type, in the order of the range. -/
theorem C09_insert_range {c : Coll V} {w : World} (h : c.Reachable E k w) (as : List (Arg V)) (vs : List V) (hv : ArgsOf as vs)
    (ha : ∀ a ∈ as, Coll.Arg.OK E a ∧ (E.tiTy a.dyn ∈ c.abs.types ∨ a.acc = true ∧ E.tiTy a.dyn = E.tiTy a.stat)) :
    Runs (insertRange E as) c w
      (fun _ c' w' => c'.Reachable E k w' ∧ c.abs.Appended (tagged E as vs) c'.abs)
      (fun e _ _ => ∃ a ∈ as,
        ExcFrom E (E.tiTy a.dyn) a.src.copies (E.TooMany (E.tiTy a.dyn) ((c.abs.elemsOf (E.tiTy a.dyn)).length + as.length)) e) := by
  obtain ⟨h1, h2, -⟩ := hv.spec
  refine ((h.runsU (.insertRange as) (fun a hm => ⟨(ha a hm).1, h1 a hm⟩) rfl
    (insertRange_runs E as vs c w h.inv (fun a hm => ⟨(ha a hm).1, h1 a hm⟩) h2))).mono ?_ ?_
  · rintro _ c' w' ⟨hr, p', hi⟩
    exact ⟨hr, typed_eq as vs ▸ hi.appended E h.inv⟩
  · intro e c' w' h'
    obtain ⟨a, hm, h' | ⟨-, h1, h2⟩⟩ := h'.exc E h.inv
    · exact ⟨a, hm, h'⟩
    · exact absurd (ha a hm).2 (fun h => h.elim h1 h2)

/-- **C09** for elements of a type known exactly at compile time, which are inserted as a block, from
input or forward iterators. -/
theorem C09_insert_range_terminal {c : Coll V} {w : World} (h : c.Reachable E k w) (fwd : Bool) (t : TI) (srcs : List (Src V)) (vs : List V)
    (hv : SrcsOf srcs vs) :
    Runs (insertRangeTerminal E fwd t srcs) c w
      (fun _ c' w' => c'.Reachable E k w' ∧ (vs = [] ∧ c' = c ∨ vs ≠ [] ∧ c.abs.Put (E.tiTy t) (c.abs.elemsOf (E.tiTy t)).length vs c'.abs))
      (fun e _ _ => vs ≠ [] ∧ ExcFrom E (E.tiTy t) (∃ src ∈ srcs, src.copies) (E.TooMany (E.tiTy t) ((c.abs.elemsOf (E.tiTy t)).length + vs.length)) e) := by
  obtain ⟨h1, h2, h3⟩ := hv.spec
  cases srcs with
  | nil =>
    have : vs = [] := by simpa using h3.symm
    subst this
    exact ⟨h, Or.inl ⟨rfl, rfl⟩⟩
  | cons s srcs =>
    have hne : 1 ≤ vs.length := by rw [← h3]; simp
    refine ((h.runsU (.insertRangeTerminal fwd t (s :: srcs)) h1 rfl (insertRangeTerminal_runs E fwd t _ vs c w h.inv h1 h2))).mono ?_ ?_
    · rintro _ c' w' ⟨hr, ⟨a, b, -⟩ | ⟨a, b⟩⟩
      · exact ⟨hr, Or.inl ⟨a, b⟩⟩
      · exact ⟨hr, Or.inr ⟨a, b.put E h.map⟩⟩
    · intro e c' w' h'
      exact ⟨fun e => by simp [e] at hne, h'.exc E h.map hne⟩

/-- Three objects: a 0, a 3 (type not registered), another 0. -/
def sampleArgs : List (Arg Nat) := [⟨0, 0, true, false, .copyExt 10⟩, ⟨6, 6, true, false, .moveExt 11⟩, ⟨4, 1, true, false, .copyExt 12⟩]

theorem sampleArgs_of : ArgsOf sampleArgs [10, 11, 12] := .cons (.inl rfl) (.cons (.inr (.inl rfl)) (.cons (.inl rfl) .nil))

example (k : Kind) : (Sample.c0 k).Reachable Sample.E0 k (Sample.w0 k) ∧ ArgsOf sampleArgs [10, 11, 12] ∧
    (∀ a ∈ sampleArgs, Coll.Arg.OK Sample.E0 a ∧
      (Sample.E0.tiTy a.dyn ∈ (Sample.c0 k).abs.types ∨ a.acc = true ∧ Sample.E0.tiTy a.dyn = Sample.E0.tiTy a.stat)) ∧
    tagged Sample.E0 sampleArgs [10, 11, 12] = [(0, 10), (3, 11), (0, 12)] := by
  refine ⟨Sample.reach0 k, sampleArgs_of, ?_, rfl⟩
  rw [Sample.abs0]
  unfold Coll.Arg.OK
  decide

example (k : Kind) : (Sample.c0 k).Reachable Sample.E0 k (Sample.w0 k) ∧ SrcsOf [Src.copyExt 10, .moveExt 11] [10, 11] ∧
    Sample.E0.tiTy 7 ∉ (Sample.c0 k).abs.types := by
  refine ⟨Sample.reach0 k, .cons (.inl rfl) (.cons (.inr (.inl rfl)) .nil), ?_⟩
  rw [Sample.abs0]
  decide

/-! ### C10 -/

/-- **C10** for global iterators: `d` is another collection and the range `[first,last)` of `d` lies
between positions `p` and `q`.  The elements in between are appended in traversal order, their types
get registered, and `unregistered_type` is never thrown.  The source is an argument of the operation
which only returns the new target, so it cannot change. -/
theorem C10_insert_collection {c d : Coll V} {w : World} (h : Reachable2 E k c d w) {sub : Ty → TI} (hsub : ∀ t, E.tiTy (sub t) = t)
    {first last : GIter} {p q : Spec.State.Pos} (hf : d.At E first p) (hl : d.At E last q) (hpq : d.abs.rank p ≤ d.abs.rank q) :
    Runs (insertColl E sub d first last) c w
      (fun _ c' _ => c.abs.Appended (between d.abs p q) c'.abs)
      (fun e _ _ => ∃ t ∈ (between d.abs p q).map Prod.fst,
        ExcFrom E t True (E.TooMany t ((c.abs.elemsOf t).length + (between d.abs p q).length)) e) := by
  refine (insertColl_runs E hsub d w h.right.inv hf hl hpq c w h.left.inv (h.right.kind.trans h.left.kind.symm)).mono ?_ ?_
  · rintro _ c' w' ⟨p', hi⟩
    exact hi.appended E h.left.inv
  · intro e c' w' h'
    exact h'.exc E h.left.inv

example (k : Kind) := C10_insert_collection (Sample.reach01 k) (Sample.sub_ty _) (Sample.first1_at k) (Sample.end1_at k) (by rw [Sample.abs1]; decide)

/-- **C10** for local iterators. -/
theorem C10_insert_local {c d : Coll V} {w : World} (h : Reachable2 E k c d w) {sub : Ty → TI} (hsub : ∀ t, E.tiTy (sub t) = t)
    {first last : LIter} {t : Ty} {a b : Nat} (hf : d.LAtB E first t a) (hl : d.LAtB E last t b) (hab : a ≤ b) :
    Runs (insertLocalColl E sub d first last) c w
      (fun _ c' _ => c.abs.Appended ((slice d.abs t a b).map fun v => (t, v)) c'.abs)
      (fun e _ _ => ExcFrom E t True (E.TooMany t ((c.abs.elemsOf t).length + (slice d.abs t a b).length)) e) := by
  refine (insertLocalColl_runs E hsub d w h.right.inv hf hl hab c w h.left.inv (h.right.kind.trans h.left.kind.symm)).mono ?_ ?_
  · rintro _ c' w' ⟨p', hi⟩
    exact hi.appended E h.left.inv
  · intro e c' w' h'
    obtain ⟨u, hu, h'⟩ := h'.exc E h.left.inv
    simp only [List.map_map, List.mem_map, Function.comp] at hu
    obtain ⟨_, -, rfl⟩ := hu
    simpa using h'

/-- All of `c1` but its first element, whose type is not registered in `c0`; elements of type 0 of `c1`. -/
example (k : Kind) : ∃ first last l1 l2, Reachable2 Sample.E0 k (Sample.c0 k) (Sample.c1 k) (Sample.w0 k) ∧ (∀ t, Sample.E0.tiTy (Sample.sub t) = t) ∧
    (Sample.c1 k).At Sample.E0 first (some (3, 0)) ∧ (Sample.c1 k).At Sample.E0 last none ∧
    (Sample.c1 k).abs.rank (some (3, 0)) ≤ (Sample.c1 k).abs.rank none ∧
    between (Sample.c1 k).abs (some (3, 0)) none = [(3, 6), (0, 5), (0, 4)] ∧ 3 ∉ (Sample.c0 k).abs.types ∧
    (Sample.c1 k).LAtB Sample.E0 l1 0 1 ∧ (Sample.c1 k).LAtB Sample.E0 l2 0 2 ∧ slice (Sample.c1 k).abs 0 1 2 = [4] := by
  obtain ⟨first, hf⟩ := exists_at (Sample.reach1 k).inv (p := some (3, 0)) (by rw [Sample.abs1]; exact ⟨_, rfl, by decide⟩)
  obtain ⟨last, hl⟩ := exists_at (Sample.reach1 k).inv (p := none) (by rw [Sample.abs1]; trivial)
  obtain ⟨l1, h1⟩ := exists_latB (Sample.reach1 k).inv (t := 0) (n := 1) (by rw [Sample.abs1]; decide) (by rw [Sample.abs1]; decide)
  obtain ⟨l2, h2⟩ := exists_latB (Sample.reach1 k).inv (t := 0) (n := 2) (by rw [Sample.abs1]; decide) (by rw [Sample.abs1]; decide)
  refine ⟨first, last, l1, l2, Sample.reach01 k, Sample.sub_ty _, hf, hl, ?_, ?_, ?_, h1, h2, ?_⟩ <;>
    first | rw [Sample.abs1]; decide | rw [Sample.abs0]; decide

/-- **C10**: without faults, and if no segment becomes longer than allowed, the insertion succeeds if and only if
all types of the range can be copied. -/
theorem C10_exactly {c d : Coll V} {w : World} (h : Reachable2 E k c d w) {sub : Ty → TI} (hsub : ∀ t, E.tiTy (sub t) = t)
    {first last : GIter} {p q : Spec.State.Pos} (hf : d.At E first p) (hl : d.At E last q) (hpq : d.abs.rank p ≤ d.abs.rank q)
    (hn : ∀ n, E.fault n = false) (hm : ∀ t, ¬ E.TooMany t ((c.abs.elemsOf t).length + (between d.abs p q).length)) :
    (∃ c' w', insertColl E sub d first last c w = .ok () c' w') ↔ ∀ x ∈ between d.abs p q, (E.traits x.1).copyable = true := by
  have h1 := C10_insert_collection h hsub hf hl hpq
  have h2 := insertColl_copyable E hsub d w h.right.inv hf hl hpq c w h.left.inv (h.right.kind.trans h.left.kind.symm)
  unfold Runs at h1 h2
  revert h1 h2
  cases insertColl E sub d first last c w with
  | ok a c' w' => exact fun _ h2 => ⟨fun _ => h2, fun _ => ⟨c', w', rfl⟩⟩
  | exc e c' w' =>
    rintro ⟨t, ht, h1⟩ -
    refine ⟨fun ⟨_, _, h⟩ => (by cases h), fun h2 => ?_⟩
    obtain ⟨x, hx, rfl⟩ := List.mem_map.1 ht
    rcases h1 with ⟨-, n, h1⟩ | ⟨-, n, h1⟩ | ⟨-, h1⟩ | ⟨-, h1, -⟩
    · rw [hn] at h1; cases h1
    · rw [hn] at h1; cases h1
    · exact absurd h1 (hm _)
    · rw [h2 x hx] at h1; cases h1
  | ub => exact fun h1 => h1.elim

/-- All of `c1` is inserted into `c0`. -/
example (k : Kind) : ∃ c' w', insertColl Sample.E0 Sample.sub (Sample.c1 k) (Sample.first1 k) (Sample.c1 k).end (Sample.c0 k) (Sample.w0 k) = .ok () c' w' := by
  refine (C10_exactly (Sample.reach01 k) (Sample.sub_ty _) (Sample.first1_at k) (Sample.end1_at k) (by rw [Sample.abs1]; decide) (fun _ => rfl) ?_).2
    (by rw [Sample.abs1]; decide)
  rw [Sample.abs0, Sample.abs1]
  rintro t (h | h)
  · change 1000 < _ at h
    have : (Spec.State.elemsOf [(1, [9]), (0, [1, 2, 3]), (5, []), (2, [7])] t).length ≤ 3 := by
      unfold Spec.State.elemsOf Spec.State.get
      simp only [List.lookup_cons, List.lookup_nil]
      cases t == 1 <;> cases t == 0 <;> cases t == 5 <;> cases t == 2 <;> decide
    change 1000 < _ + 3 at h
    omega
  · change 1001 ≤ 1000 at h; omega

/-! ### C11 -/

/-- **C11.**  `insert(hint,first,last)`: elements of the type of the hint's segment go, in order,
right before the element the hint points to; the others are appended to their segments, in order.
The hint returned by the loop, which the library discards, still points to the element it pointed to.

Missing: as in `C06_emplace_hint_partial`, types not registered yet if rehashing invalidates
iterators. -/
theorem C11_insert_hint_range_partial {c : Coll V} {w : World} (h : c.Reachable E k w) {hint : GIter} {p : Spec.State.Pos} (hh : c.At E hint p)
    (as : List (Arg V)) (vs : List V) (hv : ArgsOf as vs)
    (ha : ∀ a ∈ as, Coll.Arg.OK E a ∧ (E.tiTy a.dyn ∈ c.abs.types ∨ a.acc = true ∧ E.tiTy a.dyn = E.tiTy a.stat))
    (hr : E.strictRehash = false ∨ ∀ a ∈ as, E.tiTy a.dyn ∈ c.abs.types) :
    Runs (insertHintRange E hint as) c w
      (fun g c' w' => c'.Reachable E k w' ∧ c.abs.Grown (fun t => c.abs.hintPos t p) (tagged E as vs) c'.abs ∧ ∃ p', c'.At E g p')
      (fun e _ _ => ∃ a ∈ as,
        ExcFrom E (E.tiTy a.dyn) a.src.copies (E.TooMany (E.tiTy a.dyn) ((c.abs.elemsOf (E.tiTy a.dyn)).length + as.length)) e) := by
  obtain ⟨h1, h2, -⟩ := hv.spec
  have hok : c.HintOK E (as.map fun a => E.tiTy a.dyn) := hr.imp id (fun h t ht => by obtain ⟨a, ha, rfl⟩ := List.mem_map.1 ht; exact h a ha)
  refine ((h.runs (.insertHintRange hint as) ⟨⟨p, hh⟩, hok, fun a hm => ⟨(ha a hm).1, h1 a hm⟩⟩ rfl
    (insertHintRange_runs E as hint p vs c w h.inv hh hok (fun a hm => ⟨(ha a hm).1, h1 a hm⟩) h2))).mono ?_ ?_
  · rintro g c' w' ⟨hr, p', hi, hat⟩
    exact ⟨hr, typed_eq as vs ▸ hi.grown E h.inv, p', hat⟩
  · intro e c' w' h'
    obtain ⟨a, hm, h' | ⟨-, h1, h2⟩⟩ := h'.exc E h.inv
    · exact ⟨a, hm, h'⟩
    · exact absurd (ha a hm).2 (fun h => h.elim h1 h2)

example (k : Kind) := C11_insert_hint_range_partial (Sample.reach0 k) (Sample.iter_two k)
  [⟨0, 0, true, false, .copyExt 10⟩, ⟨4, 4, true, false, .moveExt 11⟩, ⟨4, 1, true, false, .copyExt 12⟩] [10, 11, 12]
  (.cons (.inl rfl) (.cons (.inr (.inl rfl)) (.cons (.inl rfl) .nil))) (by rw [Sample.abs0]; unfold Coll.Arg.OK; decide) (.inr (by rw [Sample.abs0]; decide))

/-- **C11** for elements of a type known exactly at compile time.  Missing: as above. -/
theorem C11_insert_hint_range_terminal_partial {c : Coll V} {w : World} (h : c.Reachable E k w) {hint : GIter} {p : Spec.State.Pos} (hh : c.At E hint p)
    (fwd : Bool) (t : TI) (srcs : List (Src V)) (vs : List V) (hv : SrcsOf srcs vs) (hr : E.strictRehash = false ∨ E.tiTy t ∈ c.abs.types) :
    Runs (insertHintRangeTerminal E hint fwd t srcs) c w
      (fun _ c' w' => c'.Reachable E k w' ∧ (vs = [] ∧ c' = c ∨ vs ≠ [] ∧ c.abs.Put (E.tiTy t) (c.abs.hintPos (E.tiTy t) p) vs c'.abs))
      (fun e _ _ => vs ≠ [] ∧ ExcFrom E (E.tiTy t) (∃ src ∈ srcs, src.copies) (E.TooMany (E.tiTy t) ((c.abs.elemsOf (E.tiTy t)).length + vs.length)) e) := by
  obtain ⟨h1, h2, h3⟩ := hv.spec
  have hok : c.HintOK E [E.tiTy t] := hr.imp id (by simpa using ·)
  cases srcs with
  | nil =>
    have : vs = [] := by simpa using h3.symm
    subst this
    exact ⟨h, Or.inl ⟨rfl, rfl⟩⟩
  | cons s srcs =>
    have hne : 1 ≤ vs.length := by rw [← h3]; simp
    refine ((h.runsU (.insertHintRangeTerminal hint fwd t (s :: srcs)) ⟨⟨p, hh⟩, hok, h1⟩ rfl
      (insertHintRangeTerminal_runs E hint p fwd t _ vs c w h.inv hh hok h1 h2))).mono ?_ ?_
    · rintro _ c' w' ⟨hr, ⟨a, b, -⟩ | ⟨a, b⟩⟩
      · exact ⟨hr, Or.inl ⟨a, b⟩⟩
      · exact ⟨hr, Or.inr ⟨a, b.put E h.map⟩⟩
    · intro e c' w' h'
      exact ⟨fun e => by simp [e] at hne, h'.exc E h.map hne⟩

example (k : Kind) := C11_insert_hint_range_terminal_partial (Sample.reach0 k) (Sample.iter_two k) true 1 [.copyExt 10, .moveExt 11] [10, 11]
  (.cons (.inl rfl) (.cons (.inr (.inl rfl)) .nil)) (.inr (by rw [Sample.abs0]; decide))

/-- **C11** for elements of another collection.  Missing: as above. -/
theorem C11_insert_hint_collection_partial {c d : Coll V} {w : World} (h : Reachable2 E k c d w) {sub : Ty → TI} (hsub : ∀ t, E.tiTy (sub t) = t)
    {first last : GIter} {p q : Spec.State.Pos} (hf : d.At E first p) (hl : d.At E last q) (hpq : d.abs.rank p ≤ d.abs.rank q)
    {hint : GIter} {r : Spec.State.Pos} (hh : c.At E hint r)
    (hr : E.strictRehash = false ∨ ∀ t ∈ (between d.abs p q).map Prod.fst, t ∈ c.abs.types) :
    Runs (insertHintColl E sub hint d first last) c w
      (fun g c' _ => c.abs.Grown (fun t => c.abs.hintPos t r) (between d.abs p q) c'.abs ∧ ∃ r', c'.At E g r')
      (fun e _ _ => ∃ t ∈ (between d.abs p q).map Prod.fst,
        ExcFrom E t True (E.TooMany t ((c.abs.elemsOf t).length + (between d.abs p q).length)) e) := by
  refine (insertHintColl_runs E hsub d w h.right.inv hf hl hpq hint r c w h.left.inv (h.right.kind.trans h.left.kind.symm) hh hr).mono ?_ ?_
  · rintro g c' w' ⟨p', hi, hat⟩
    exact ⟨hi.grown E h.left.inv, p', hat⟩
  · intro e c' w' h'
    exact h'.exc E h.left.inv

example (k : Kind) := C11_insert_hint_collection_partial (Sample.reach01 k) (Sample.sub_ty _) (Sample.second1_at k) (Sample.end1_at k) (by rw [Sample.abs1]; decide)
  (Sample.iter_two k) (.inr (by rw [Sample.abs1, Sample.abs0]; decide))

/-- **C11** for elements of one segment of another collection.  Missing: as above. -/
theorem C11_insert_hint_local_partial {c d : Coll V} {w : World} (h : Reachable2 E k c d w) {sub : Ty → TI} (hsub : ∀ t, E.tiTy (sub t) = t)
    {first last : LIter} {t : Ty} {a b : Nat} (hf : d.LAtB E first t a) (hl : d.LAtB E last t b) (hab : a ≤ b)
    {hint : GIter} {r : Spec.State.Pos} (hh : c.At E hint r) (hr : E.strictRehash = false ∨ t ∈ c.abs.types) :
    Runs (insertHintLocalColl E sub hint d first last) c w
      (fun g c' _ => c.abs.Grown (fun t => c.abs.hintPos t r) ((slice d.abs t a b).map fun v => (t, v)) c'.abs ∧ ∃ r', c'.At E g r')
      (fun e _ _ => ExcFrom E t True (E.TooMany t ((c.abs.elemsOf t).length + (slice d.abs t a b).length)) e) := by
  refine (insertHintLocalColl_runs E hsub d w h.right.inv hf hl hab hint r c w h.left.inv (h.right.kind.trans h.left.kind.symm) hh
    (hr.imp id (by simpa using ·))).mono ?_ ?_
  · rintro g c' w' ⟨p', hi, hat⟩
    exact ⟨hi.grown E h.left.inv, p', hat⟩
  · intro e c' w' h'
    obtain ⟨u, hu, h'⟩ := h'.exc E h.left.inv
    simp only [List.map_map, List.mem_map, Function.comp] at hu
    obtain ⟨_, -, rfl⟩ := hu
    simpa using h'

/-- Objects of types 0 and 2, and elements of type 0 of `c1`, before the second element of type 0. -/
example (k : Kind) : ∃ hint first last l1 l2, (Sample.c0 k).At Sample.E0 hint (some (0, 1)) ∧
    Reachable2 Sample.E0 k (Sample.c0 k) (Sample.c1 k) (Sample.w0 k) ∧ (∀ t, Sample.E0.tiTy (Sample.sub t) = t) ∧
    (let as : List (Arg Nat) := [⟨0, 0, true, false, .copyExt 10⟩, ⟨4, 4, true, false, .moveExt 11⟩, ⟨4, 1, true, false, .copyExt 12⟩]
     ArgsOf as [10, 11, 12] ∧ (∀ a ∈ as, Coll.Arg.OK Sample.E0 a ∧ (Sample.E0.tiTy a.dyn ∈ (Sample.c0 k).abs.types ∨
        a.acc = true ∧ Sample.E0.tiTy a.dyn = Sample.E0.tiTy a.stat)) ∧
      ∀ a ∈ as, Sample.E0.tiTy a.dyn ∈ (Sample.c0 k).abs.types) ∧
    (Sample.c1 k).At Sample.E0 first (some (0, 0)) ∧ (Sample.c1 k).At Sample.E0 last none ∧
    (Sample.c1 k).abs.rank (some (0, 0)) ≤ (Sample.c1 k).abs.rank none ∧
    (∀ t ∈ (between (Sample.c1 k).abs (some (0, 0)) none).map Prod.fst, t ∈ (Sample.c0 k).abs.types) ∧
    between (Sample.c1 k).abs (some (0, 0)) none = [(0, 5), (0, 4)] ∧
    (Sample.c1 k).LAtB Sample.E0 l1 0 1 ∧ (Sample.c1 k).LAtB Sample.E0 l2 0 2 := by
  obtain ⟨hint, hh⟩ := exists_at (Sample.reach0 k).inv (p := some (0, 1)) (by rw [Sample.abs0]; exact ⟨_, rfl, by decide⟩)
  obtain ⟨first, hf⟩ := exists_at (Sample.reach1 k).inv (p := some (0, 0)) (by rw [Sample.abs1]; exact ⟨_, rfl, by decide⟩)
  obtain ⟨last, hl⟩ := exists_at (Sample.reach1 k).inv (p := none) (by rw [Sample.abs1]; trivial)
  obtain ⟨l1, h1⟩ := exists_latB (Sample.reach1 k).inv (t := 0) (n := 1) (by rw [Sample.abs1]; decide) (by rw [Sample.abs1]; decide)
  obtain ⟨l2, h2⟩ := exists_latB (Sample.reach1 k).inv (t := 0) (n := 2) (by rw [Sample.abs1]; decide) (by rw [Sample.abs1]; decide)
  refine ⟨hint, first, last, l1, l2, hh, Sample.reach01 k, Sample.sub_ty _, ⟨.cons (.inl rfl) (.cons (.inr (.inl rfl)) (.cons (.inl rfl) .nil)), ?_, ?_⟩,
    hf, hl, ?_, ?_, ?_, h1, h2⟩
  · rw [Sample.abs0]; unfold Coll.Arg.OK; decide
  · rw [Sample.abs0]; decide
  · rw [Sample.abs1]; decide
  · rw [Sample.abs1, Sample.abs0]; decide
  · rw [Sample.abs1]; decide

namespace Sample
open PolyColl.Sample

def tmpc1 : Coll Nat :=
  ⟨.packed, ⟨[⟨2, 4, ⟨.packed ⟨2, 0, 0, ⟨6, 1, [7]⟩⟩, ⟨6, 1⟩⟩⟩], 1, 1, 0, [(4, ⟨some 2, 1⟩)]⟩⟩
theorem tmpstep1 : COp.run E2 (.emplace 4 (.emplaced 7)) (Coll.empty' .packed 0) ⟨1, 0⟩ = .ok () tmpc1 ⟨7, 7⟩ := rfl
def tmpc2 : Coll Nat :=
  ⟨.packed, ⟨[⟨2, 4, ⟨.packed ⟨2, 0, 0, ⟨7, 2, [7, 8]⟩⟩, ⟨7, 2⟩⟩⟩], 1, 1, 0, [(4, ⟨some 2, 1⟩)]⟩⟩
theorem tmpstep2 : COp.run E2 (.emplace 4 (.emplaced 8)) tmpc1 ⟨7, 7⟩ = .ok () tmpc2 ⟨8, 10⟩ := rfl
def tmpc3 : Coll Nat :=
  ⟨.packed, ⟨[⟨2, 4, ⟨.packed ⟨2, 0, 0, ⟨11, 5, [7, 1, 2, 3, 8]⟩⟩, ⟨11, 5⟩⟩⟩], 1, 1, 0, [(4, ⟨some 2, 1⟩)]⟩⟩
theorem tmpstep3 : COp.run E2 (.insertHintRangeTerminal ⟨⟨some 2, 1⟩, ⟨none, 1⟩, ⟨7, 1⟩⟩ false 4 [.copyExt 1, .copyExt 2, .moveExt 3]) tmpc2 ⟨8, 10⟩ = .ok () tmpc3 ⟨12, 25⟩ := rfl
theorem tmpreach : Coll.Reachable2 E2 .packed tmpc2 (Coll.empty' .packed 1) ⟨8, 10⟩ :=
  open Coll in
  Reachable2.start sub sub_ty2 0 1
    |>.stepL (.emplace 4 (.emplaced 7)) rfl tmpstep1
    |>.stepL (.emplace 4 (.emplaced 8)) rfl tmpstep2

/-- A single-pass range, with a library that builds a temporary vector for it: three allocations for that, one for the segment. -/
example : tmpc2.Reachable E2 .packed ⟨8, 10⟩ ∧ E2.lib.inputTemp = true ∧ tmpc2.abs = [(2, [7, 8])] ∧ tmpc3.abs = [(2, [7, 1, 2, 3, 8])] ∧
    SrcsOf [Src.copyExt 1, .copyExt 2, .moveExt 3] [1, 2, 3] ∧
    COp.run E2 (.insertHintRangeTerminal ⟨⟨some 2, 1⟩, ⟨none, 1⟩, ⟨7, 1⟩⟩ false 4 [.copyExt 1, .copyExt 2, .moveExt 3]) tmpc2 ⟨8, 10⟩ = .ok () tmpc3 ⟨12, 25⟩ :=
  ⟨tmpreach.left, rfl, rfl, rfl, .cons (.inl rfl) (.cons (.inl rfl) (.cons (.inr (.inl rfl)) .nil)), tmpstep3⟩

end Sample

/-! ### C12 -/

theorem RangeFail.exc {c c' : Coll V} {w w' : World} {t : Ty} {n : Nat} {vs : List V} {copies : Prop} {e : Exc}
    (h : RangeFail E c w t n vs copies e c' w') (hc : c.Inv E w) : ExcFrom E t copies (E.TooMany t ((c.abs.elemsOf t).length + vs.length)) e := by
  obtain ⟨j, c1, w1, hj, hi, hf⟩ := h
  refine (hf.exc E (hi.inv E hc).map).mono id (fun h => h.mono E ?_)
  rw [(hi.put E hc.map).elemsOf (abs_nodup E hc.map), if_pos rfl]
  simp only [List.length_append, List.length_take, List.length_drop]
  omega

/-- **C12** at a `local_base_iterator`, for input iterators of any kind: the elements, all of the type
of the segment, go together and in order before the position, and the result points to the first of
them, or is the position if there are none. -/
theorem C12_insert_pos_range_base {c : Coll V} {w : World} (h : c.Reachable E k w) {pos : LIter} {t : Ty} {n : Nat} (hp : c.LAtB E pos t n)
    (as : List (Arg V)) (vs : List V) (hv : ArgsOf as vs) (ha : ∀ a ∈ as, Coll.Arg.OK E a ∧ E.tiTy a.dyn = t) :
    Runs (insertPosRangeBase E pos as) c w
      (fun l c' w' => c'.Reachable E k w' ∧ c'.abs = c.abs.insertAt t n vs ∧ c'.LAtB E l t n)
      (fun e _ _ => ExcFrom E t (∃ a ∈ as, a.src.copies) (E.TooMany t ((c.abs.elemsOf t).length + vs.length)) e) := by
  obtain ⟨h1, h2, -⟩ := hv.spec
  refine ((h.runs (.insertPosRangeBase pos as) ⟨t, n, hp, fun a hm => ⟨(ha a hm).1, (ha a hm).2, h1 a hm⟩⟩ rfl
    (insertPosRangeBase_runs E pos t n as vs (∃ a ∈ as, a.src.copies) c w h.inv hp (fun a hm => ⟨(ha a hm).2, h1 a hm, fun h => ⟨a, hm, h⟩⟩) h2))).mono ?_
    (fun e c' w' h' => RangeFail.exc h' h.inv)
  rintro it c' w' ⟨hr, hi, ha⟩
  obtain ⟨s, ⟨-, rfl⟩ | ⟨hn, -⟩, hs⟩ := hi.put E h.map
  · exact ⟨hr, hs, ha⟩
  · exact absurd (latB_types E hp) hn

example (k : Kind) := C12_insert_pos_range_base (Sample.reach0 k) (Sample.lbase_at k (n := 1) (by decide)) [⟨0, 0, true, false, .copyExt 10⟩, ⟨0, 1, true, true, .moveExt 11⟩] [10, 11]
  (.cons (.inl rfl) (.cons (.inr (.inl rfl)) .nil)) (by unfold Coll.Arg.OK; decide)

/-- **C12** at a `local_iterator<T>`. -/
theorem C12_insert_pos_range_local {c : Coll V} {w : World} (h : c.Reachable E k w) (t : TI) {pos : LIter} {n : Nat} (hp : c.LAtL E pos (E.tiTy t) n)
    (srcs : List (Src V)) (vs : List V) (hv : SrcsOf srcs vs) :
    Runs (insertPosRangeLocal E pos t srcs) c w
      (fun l c' w' => c'.Reachable E k w' ∧ c'.abs = c.abs.insertAt (E.tiTy t) n vs ∧ c'.LAtL E l (E.tiTy t) n)
      (fun e _ _ => ExcFrom E (E.tiTy t) (∃ src ∈ srcs, src.copies) (E.TooMany (E.tiTy t) ((c.abs.elemsOf (E.tiTy t)).length + vs.length)) e) := by
  obtain ⟨h1, h2, -⟩ := hv.spec
  refine ((h.runs (.insertPosRangeLocal pos t srcs) ⟨n, hp, h1⟩ rfl
    (insertPosRangeLocal_runs E pos t n srcs vs (∃ src ∈ srcs, src.copies) c w h.inv hp (fun a hm => ⟨h1 a hm, fun h => ⟨a, hm, h⟩⟩) h2))).mono ?_
    (fun e c' w' h' => RangeFail.exc h' h.inv)
  rintro it c' w' ⟨hr, hi, ha⟩
  obtain ⟨s, ⟨-, rfl⟩ | ⟨hn, -⟩, hs⟩ := hi.put E h.map
  · exact ⟨hr, hs, ha⟩
  · exact absurd (latL_types hp) hn

/-- Two objects before the second element of type 0, and an empty range. -/
example (k : Kind) : ∃ p q, (Sample.c0 k).Reachable Sample.E0 k (Sample.w0 k) ∧ (Sample.c0 k).LAtB Sample.E0 p 0 1 ∧
    (Sample.c0 k).LAtL Sample.E0 q (Sample.E0.tiTy 1) 1 ∧
    ArgsOf [(⟨0, 0, true, false, .copyExt 10⟩ : Arg Nat), ⟨0, 1, true, true, .moveExt 11⟩] [10, 11] ∧
    (∀ a ∈ [(⟨0, 0, true, false, .copyExt 10⟩ : Arg Nat), ⟨0, 1, true, true, .moveExt 11⟩], Coll.Arg.OK Sample.E0 a ∧ Sample.E0.tiTy a.dyn = 0) ∧
    SrcsOf [Src.copyExt 10, .emplaced 11] [10, 11] ∧ SrcsOf ([] : List (Src Nat)) [] ∧
    (Sample.c0 k).abs.insertAt 0 1 [10, 11] = [(1, [9]), (0, [1, 10, 11, 2, 3]), (5, []), (2, [7])] := by
  obtain ⟨p, hp⟩ := exists_latB (Sample.reach0 k).inv (t := 0) (n := 1) (by rw [Sample.abs0]; decide) (by rw [Sample.abs0]; decide)
  obtain ⟨q, hq⟩ := exists_latL (Sample.reach0 k).inv (t := 0) (n := 1) (by rw [Sample.abs0]; decide) (by rw [Sample.abs0]; decide)
  refine ⟨p, q, Sample.reach0 k, hp, hq, .cons (.inl rfl) (.cons (.inr (.inl rfl)) .nil), ?_, .cons (.inl rfl) (.cons (.inr (.inr rfl)) .nil), .nil, ?_⟩
  · unfold Coll.Arg.OK; decide
  · rw [Sample.abs0]; rfl

end PolyColl.Props
