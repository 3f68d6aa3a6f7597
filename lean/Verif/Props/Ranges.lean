import Verif.Lemmas.Ranges
import Verif.Props.FromRange
/-!
# Ranges given by iterators (C90)

"Effects: Equivalent to `while(i1!=i2)c.insert(*i1++)`" (doc/reference.qbk 565), for any iterators.  An iterator type has a value
type, which need not be the type of the objects its iterators refer to.
-/

namespace PolyColl
open Prog Coll

variable {V : Type} {E : Env V} {k : Kind}

namespace Props

theorem tagged_same {as : List (Arg V)} {vs : List V} (hv : ArgsOf as vs) {t : Ty} (ha : ∀ a ∈ as, E.tiTy a.dyn = t) :
    tagged E as vs = vs.map fun v => (t, v) := by
  induction hv with
  | nil => rfl
  | @cons a v as vs h _ ih =>
    have := ih fun b hb => ha b (by simp [hb])
    unfold tagged at this ⊢
    simp only [List.zipWith_cons_cons, List.map_cons, ha a (by simp), this]

/-- What the insertion of one of the objects of a range may throw: they can be stored, or their types are registered. -/
theorem for_exc {c : Coll V} {as : List (Arg V)} {a : Arg V} (hm : a ∈ as) {m n : Nat} (hn : n = as.length) {e : Exc}
    (ha : E.tiTy a.dyn ∈ c.abs.types ∨ a.acc = true ∧ E.tiTy a.dyn = E.tiTy a.stat)
    (h : ForExc E c a e ∨ ExcFrom E (E.tiTy a.dyn) (∃ b ∈ as, b.src.copies) (E.TooMany (E.tiTy a.dyn) (m + n)) e) :
    ExcFrom E (E.tiTy a.dyn) (∃ b ∈ as, b.src.copies) (E.TooMany (E.tiTy a.dyn) (m + as.length)) e := by
  have hpos : 1 ≤ as.length := by cases as with | nil => cases hm | cons _ _ => simp
  subst hn
  rcases h with (h | ⟨-, h1, h2⟩) | h
  · exact ExcFrom.mono h (fun h => h.elim) (fun h => h.mono E (by omega))
  · exact ha.elim (absurd · h1) (absurd · h2)
  · exact h

/-- **C90.**  `insert(first,last)` appends the objects the iterators refer to, in order, to the segments of their types.

Missing: iterators whose value type is terminal and is not the type of the objects (`C90_undefined`). -/
theorem C90_partial {c : Coll V} {w : World} (h : c.Reachable E k w) (I : IterTy) (as : List (Arg V)) (vs : List V) (hv : ArgsOf as vs)
    (ha : ∀ a ∈ as, Coll.Arg.OK E a ∧ (E.tiTy a.dyn ∈ c.abs.types ∨ a.acc = true ∧ E.tiTy a.dyn = E.tiTy a.stat))
    (hI : I.term = true → ∀ a ∈ as, E.tiTy a.dyn = E.tiTy I.value) :
    Runs (insertIter E I as) c w
      (fun _ c' _ => c.abs.Appended (tagged E as vs) c'.abs)
      (fun e _ _ => ∃ a ∈ as, ExcFrom E (E.tiTy a.dyn) (∃ b ∈ as, b.src.copies)
        (E.TooMany (E.tiTy a.dyn) ((c.abs.elemsOf (E.tiTy a.dyn)).length + as.length)) e) := by
  obtain ⟨h1, h2, h3⟩ := hv.spec
  unfold insertIter
  rw [runs_ite]
  refine ⟨fun ht => ?_, fun _ => ?_⟩
  · refine (insertRangeAs_runs E I as vs c w h.inv (fun a hm => ⟨(ha a hm).1, hI ht a hm⟩) h1 h2).mono ?_ ?_
    · rw [tagged_same hv (hI ht)]
      rintro _ c' w' (⟨h4, h5, -⟩ | ⟨h4, h5⟩)
      · rw [h4, h5]; exact .nil _
      · exact h5.grown E (fun t => (c.abs.elemsOf t).length) h.map h4
    · rintro e _ _ ⟨a, hm, h'⟩
      exact ⟨a, hm, for_exc hm h3.symm (ha a hm).2 h'⟩
  · refine (C09_insert_range h as vs hv ha).mono (fun _ _ _ h => h.2) ?_
    rintro e _ _ ⟨a, hm, h'⟩
    exact ⟨a, hm, h'.mono (fun h => ⟨a, hm, h⟩) id⟩

/-- Two objects of type 3, the value type of the iterators as well, which is terminal or not. -/
def sampleTwins (b : Bool) : List (Arg Nat) := [⟨6, 6, true, b, .copyExt 10⟩, ⟨7, 7, true, b, .moveExt 11⟩]

theorem sampleTwins_of (b : Bool) : ArgsOf (sampleTwins b) [10, 11] := .cons (.inl rfl) (.cons (.inr (.inl rfl)) .nil)

example (k : Kind) (b fwd : Bool) := C90_partial (Sample.reach0 k) ⟨7, b, fwd⟩ (sampleTwins b) [10, 11] (sampleTwins_of b)
  (by rw [Sample.abs0]; unfold Coll.Arg.OK; revert b; decide) (by revert b fwd; decide)

/-- Iterators over objects of types 0 and 3 that have a common value type, 5, which is not terminal. -/
example (k : Kind) := C90_partial (Sample.reach0 k) ⟨10, false, true⟩ sampleArgs [10, 11, 12] sampleArgs_of
  (by rw [Sample.abs0]; unfold Coll.Arg.OK; decide) (by decide)

/-- **C90** with a hint: the objects of the type of the hint's segment go before the element the hint points to, the others are
appended.  Missing: as above, and as in `C11_insert_hint_range_partial`. -/
theorem C90_hint_partial {c : Coll V} {w : World} (h : c.Reachable E k w) {hint : GIter} {p : Spec.State.Pos} (hh : c.At E hint p)
    (I : IterTy) (as : List (Arg V)) (vs : List V) (hv : ArgsOf as vs)
    (ha : ∀ a ∈ as, Coll.Arg.OK E a ∧ (E.tiTy a.dyn ∈ c.abs.types ∨ a.acc = true ∧ E.tiTy a.dyn = E.tiTy a.stat))
    (hI : I.term = true → ∀ a ∈ as, E.tiTy a.dyn = E.tiTy I.value)
    (hr : E.strictRehash = false ∨ ∀ a ∈ as, E.tiTy a.dyn ∈ c.abs.types) :
    Runs (insertHintIter E hint I as) c w
      (fun _ c' _ => c.abs.Grown (fun t => c.abs.hintPos t p) (tagged E as vs) c'.abs)
      (fun e _ _ => ∃ a ∈ as, ExcFrom E (E.tiTy a.dyn) (∃ b ∈ as, b.src.copies)
        (E.TooMany (E.tiTy a.dyn) ((c.abs.elemsOf (E.tiTy a.dyn)).length + as.length)) e) := by
  obtain ⟨h1, h2, h3⟩ := hv.spec
  have hok : c.HintOK E (as.map fun a => E.tiTy a.dyn) := hr.imp id (fun h t ht => by obtain ⟨a, ha, rfl⟩ := List.mem_map.1 ht; exact h a ha)
  unfold insertHintIter
  rw [runs_ite]
  refine ⟨fun ht => ?_, fun _ => ?_⟩
  · refine (insertHintRangeAs_runs E hint p I as vs c w h.inv hh hok (fun a hm => ⟨(ha a hm).1, hI ht a hm⟩) h1 h2).mono ?_ ?_
    · rw [tagged_same hv (hI ht)]
      rintro _ c' w' (⟨h4, h5, -⟩ | ⟨h4, h5⟩)
      · rw [h4, h5]; exact .nil _
      · exact h5.grown E (fun t => c.abs.hintPos t p) h.map h4
    · rintro e _ _ ⟨a, hm, h'⟩
      exact ⟨a, hm, for_exc hm h3.symm (ha a hm).2 h'⟩
  · rw [runs_bind]
    refine (C11_insert_hint_range_partial h hh as vs hv ha hr).mono (fun _ _ _ h => h.2.1) ?_
    rintro e _ _ ⟨a, hm, h'⟩
    exact ⟨a, hm, h'.mono (fun h => ⟨a, hm, h⟩) id⟩

/-- Before the second element of type 0. -/
example (k : Kind) (fwd : Bool) := C90_hint_partial (Sample.reach0 k) (Sample.iter_two k) ⟨0, true, fwd⟩
  [⟨0, 0, true, true, .copyExt 10⟩, ⟨1, 1, true, true, .copyExt 12⟩] [10, 12]
  (.cons (.inl rfl) (.cons (.inl rfl) .nil)) (by rw [Sample.abs0]; unfold Coll.Arg.OK; decide) (by revert fwd; decide) (.inr (by rw [Sample.abs0]; decide))

/-- **C90** for the constructor.  Missing: as above. -/
theorem C90_construct_partial {X : Type} (al : Alloc) (I : IterTy) (as : List (Arg V)) (vs : List V) (hv : ArgsOf as vs)
    (ha : ∀ a ∈ as, Coll.Arg.OK E a ∧ a.acc = true ∧ E.tiTy a.dyn = E.tiTy a.stat)
    (hI : I.term = true → ∀ a ∈ as, E.tiTy a.dyn = E.tiTy I.value) (z : X) (w : World) (hw : 0 < w.next) :
    Runs (fromIter E k al I as : Prog X (Coll V)) z w
      (fun c z' _ => z' = z ∧ c.Consists (tagged E as vs))
      (fun e z' _ => z' = z ∧ ∃ a ∈ as, ExcFrom E (E.tiTy a.dyn) (∃ b ∈ as, b.src.copies) (E.TooMany (E.tiTy a.dyn) as.length) e) := by
  obtain ⟨h1, h2, h3⟩ := hv.spec
  have hc := empty_good E k al hw
  unfold fromIter
  rw [runs_locally]
  unfold insertIter
  rw [runs_ite]
  refine ⟨fun ht => ?_, fun _ => ?_⟩
  · refine (insertRangeAs_runs E I as vs (empty' k al) w hc (fun a hm => ⟨(ha a hm).1, hI ht a hm⟩) h1 h2).mono ?_ ?_
    · rw [tagged_same hv (hI ht)]
      rintro _ c' w' (⟨h4, h5, -⟩ | ⟨h4, h5⟩)
      · rw [h4, h5]; exact ⟨rfl, .of_appended (.nil _)⟩
      · exact ⟨rfl, .of_appended (h5.grown E (fun t => ((empty' k al : Coll V).abs.elemsOf t).length) hc.map h4)⟩
    · rintro e _ _ ⟨a, hm, h'⟩
      have := for_exc hm h3.symm (Or.inr (ha a hm).2) h'
      exact ⟨rfl, a, hm, this.mono id fun h => by rwa [empty_length] at h⟩
  · refine (insertRange_runs E as vs (empty' k al) w hc (fun a hm => ⟨(ha a hm).1, h1 a hm⟩) h2).mono ?_ ?_
    · rintro _ c' w' ⟨p', hi⟩
      exact ⟨rfl, .of_appended (typed_eq as vs ▸ hi.appended E hc)⟩
    · intro e c' w' h'
      obtain ⟨a, hm, h' | ⟨-, -, h2⟩⟩ := h'.exc E hc
      · exact ⟨rfl, a, hm, h'.mono (fun h => ⟨a, hm, h⟩) fun h => by rwa [empty_length] at h⟩
      · exact absurd (ha a hm).2 h2

example (k : Kind) (b fwd : Bool) := C90_construct_partial (E := Sample.E0) (k := k) (X := Unit) 4 ⟨7, b, fwd⟩ (sampleTwins b) [10, 11] (sampleTwins_of b)
  (by unfold Coll.Arg.OK; revert b; decide) (by revert b fwd; decide) () (Sample.w0 k) (Sample.reach0 k).inv.pos

/-- The version for a terminal value type is the one modelled in `Model/Collection.lean` if the iterators refer to objects of
that type. -/
theorem C90_same (I : IterTy) (hint : GIter) (hI : I.term = true) (as : List (Arg V))
    (ha : ∀ a ∈ as, a.acc = true ∧ a.term = true ∧ a.stat = I.value) :
    insertIter E I as = insertRangeTerminal E I.fwd I.value (as.map (·.src)) ∧
    insertHintIter E hint I as = insertHintRangeTerminal E hint I.fwd I.value (as.map (·.src)) := by
  unfold insertIter insertHintIter
  rw [if_pos hI, if_pos hI]
  cases as with
  | nil => exact ⟨rfl, rfl⟩
  | cons a as =>
    obtain ⟨h1, h2, h3⟩ := ha a (by simp)
    have : forArg E a = forT E I.value := by
      unfold forArg
      rw [if_pos h1, if_pos h2, h3]
    unfold insertRangeAs insertHintRangeAs insertRangeTerminal insertHintRangeTerminal
    dsimp only
    rw [this]
    exact ⟨rfl, rfl⟩

example : ∀ a ∈ ([⟨7, 7, true, true, .copyExt 10⟩, ⟨7, 7, true, true, .moveExt 11⟩] : List (Arg Nat)),
    a.acc = true ∧ a.term = true ∧ a.stat = (⟨7, true, true⟩ : IterTy).value := by decide

/-- **C90** is false of the code: if the value type of the iterators is terminal and is not the type of the object the first
one refers to, no insertion returns.  It throws only if the segment for the object's type cannot be had. -/
theorem C90_never {c : Coll V} {w : World} (h : c.Reachable E k w) (I : IterTy) (hI : I.term = true) (a : Arg V) (as : List (Arg V))
    (ha : Coll.Arg.OK E a) (ht : E.tiTy a.dyn ≠ E.tiTy I.value) (hint : GIter) :
    let Denied := fun (e : Exc) (_ : Coll V) (_ : World) => ExcFrom E (E.tiTy a.dyn) False (E.TooMany (E.tiTy a.dyn) 1) e ∨
      e = .unregistered (E.tiTy a.dyn) ∧ E.tiTy a.dyn ∉ c.abs.types ∧ ¬ (a.acc = true ∧ E.tiTy a.dyn = E.tiTy a.stat)
    Leaves (insertIter E I (a :: as)) c w (fun _ _ _ => False) Denied ∧
    Leaves (insertHintIter E hint I (a :: as)) c w (fun _ _ _ => False) Denied := by
  unfold insertIter insertHintIter
  rw [if_pos hI, if_pos hI]
  exact ⟨insertRangeAs_never E I a as c w h.inv ha ht, insertHintRangeAs_never E hint I a as c w h.inv ha ht⟩

example (k : Kind) (hint : GIter) := C90_never (Sample.reach0 k) ⟨4, true, true⟩ rfl ⟨0, 0, true, true, .copyExt 10⟩ [] (by unfold Coll.Arg.OK; decide) (by decide) hint

/-- **C90** is false of the code: if nothing fails and the objects can be stored, so that inserting them one by one succeeds, the
insertion of the range is undefined. -/
theorem C90_undefined {c : Coll V} {w : World} (h : c.Reachable E k w) (I : IterTy) (hI : I.term = true) (a : Arg V) (as : List (Arg V))
    (ha : Coll.Arg.OK E a) (hs : E.tiTy a.dyn ∈ c.abs.types ∨ a.acc = true ∧ E.tiTy a.dyn = E.tiTy a.stat)
    (hn : ∀ n, E.fault n = false) (hm : ¬ E.TooMany (E.tiTy a.dyn) 1) (hcopy : (E.traits (E.tiTy a.dyn)).copyable = true)
    (ht : E.tiTy a.dyn ≠ E.tiTy I.value) (hint : GIter) :
    insertIter E I (a :: as) c w = .ub ∧ insertHintIter E hint I (a :: as) c w = .ub := by
  obtain ⟨h1, h2⟩ := C90_never h I hI a as ha ht hint
  have no : ∀ e, ¬ ForExc E c a e := by
    rintro e (h | ⟨-, h1, h2⟩)
    · rcases h with ⟨-, n, h⟩ | ⟨-, n, h⟩ | ⟨-, h⟩ | ⟨-, h, -⟩
      · rw [hn] at h; cases h
      · rw [hn] at h; cases h
      · exact hm h
      · rw [hcopy] at h; cases h
    · exact hs.elim (absurd · h1) (absurd · h2)
  unfold Leaves at h1 h2
  constructor
  · revert h1
    cases insertIter E I (a :: as) c w with
    | ok => exact fun h => h.elim
    | exc => exact fun h => absurd h (no _)
    | ub => exact fun _ => rfl
  · revert h2
    cases insertHintIter E hint I (a :: as) c w with
    | ok => exact fun h => h.elim
    | exc => exact fun h => absurd h (no _)
    | ub => exact fun _ => rfl

/-- Objects of type 3, which is not registered, referred to by iterators with value type 5. -/
example (k : Kind) (hint : GIter) := C90_undefined (Sample.reach0 k) ⟨10, true, false⟩ rfl ⟨6, 6, true, true, .moveExt 10⟩ [⟨6, 6, true, true, .moveExt 11⟩]
  (by unfold Coll.Arg.OK; decide) (.inr (by decide)) (fun _ => rfl) (by rintro (h | h) <;> revert h <;> decide) rfl (by decide) hint

/-- Iterators over `std::vector<bool>`, say: the value type, 2, and the type of the objects, 0, are both registered and
terminal. -/
theorem C90_witness (k : Kind) : ∃ (I : IterTy) (as : List (Arg Nat)) (vs : List Nat), ArgsOf as vs ∧ I.term = true ∧
    (∀ a ∈ as, Coll.Arg.OK Sample.E0 a ∧ a.acc = true ∧ a.term = true ∧ Sample.E0.tiTy a.dyn = 0) ∧ Sample.E0.tiTy I.value = 2 ∧
    insertIter Sample.E0 I as (Sample.c0 k) (Sample.w0 k) = .ub ∧
    ∃ c' w', insertRange Sample.E0 as (Sample.c0 k) (Sample.w0 k) = .ok () c' w' ∧ c'.abs = [(1, [9]), (0, [1, 2, 3, 10, 12]), (5, []), (2, [7])] := by
  refine ⟨⟨4, true, true⟩, [⟨0, 0, true, true, .copyExt 10⟩, ⟨1, 1, true, true, .copyExt 12⟩], [10, 12], .cons (.inl rfl) (.cons (.inl rfl) .nil), rfl,
    ?_, rfl, ?_, ?_⟩
  · unfold Coll.Arg.OK; decide
  · refine (C90_undefined (Sample.reach0 k) ⟨4, true, true⟩ rfl _ _ (by unfold Coll.Arg.OK; decide) (.inr (by decide)) (fun _ => rfl) ?_ rfl (by decide) ⟨⟨none, 0⟩, ⟨none, 0⟩, Ptr.null⟩).1
    rintro (h | h) <;> revert h <;> decide
  · have h : (match insertRange Sample.E0 [⟨0, 0, true, true, .copyExt 10⟩, ⟨1, 1, true, true, .copyExt 12⟩] (Sample.c0 k) (Sample.w0 k) with
        | .ok _ c' _ => c'.abs == [(1, [9]), (0, [1, 2, 3, 10, 12]), (5, []), (2, [7])]
        | _ => false) = true := by cases k <;> decide +kernel
    revert h
    cases insertRange Sample.E0 [⟨0, 0, true, true, .copyExt 10⟩, ⟨1, 1, true, true, .copyExt 12⟩] (Sample.c0 k) (Sample.w0 k) with
    | ok u c' w' => exact fun h => ⟨c', w', rfl, eq_of_beq h⟩
    | exc => exact fun h => by cases h
    | ub => exact fun h => by cases h

end Props
end PolyColl
