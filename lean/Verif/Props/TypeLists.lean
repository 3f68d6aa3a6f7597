import Verif.Model.TypeLists
import Verif.Props.Interface
import Verif.Props.Overloads
/-!
# Which calls of the algorithms compile (C92, C94)
-/

namespace PolyColl.Props.TypeLists

open PolyColl.Interface PolyColl.Interface.Spec PolyColl.Props.Interface

/-- What the documentation requires (`reference.qbk` 1501-1516): the call is well-formed with iterators that refer to the elements, as
`value_type` or as one of the types of the list (`ok`: the call is well-formed with iterators of a type). -/
def Required (k : Bool) (ok : Ty → Bool) (ts : List Ty) : Prop :=
  ok (if k then Ty.constLocalBase else Ty.localBase) = true ∧
  ∀ t ∈ ts, ok (if k then Ty.constLocal t.core else Ty.local' t) = true

/-- A base iterator can be turned into an iterator for elements of the type: the type is derived from the base class, can be wrapped,
or is any type, depending on the collection; or it is a base of `value_type`. -/
def Reachable (R : Traits) (t : Ty) : Prop := R.casts t.core = true ∨ R.up R.value t.core = true

theorem core_core_cst (t : Ty) : (Ty.cst t).core = t := rfl

theorem to_local (R : Traits) (k : Bool) (t : Ty) :
    R.explicit (baseFor k) (localFor k t) = true ↔ Reachable R t := by
  unfold Reachable
  cases k <;>
    simp [baseFor, localFor, Ty.localBase, Ty.constLocalBase, Ty.local', Ty.constLocal, Traits.explicit, Traits.implicit, Traits.ctorImplicit,
      Traits.ctorExplicit, Traits.ctorPosition, Traits.convBase, Traits.constrBase, Ty.isConst, core_core_cst]
  all_goals cases R.up R.value t.core <;> cases R.casts t.core <;> simp

theorem to_base (R : Traits) (k : Bool) (t : Ty) (h : Reachable R t) :
    R.explicit (localFor k t) (baseFor k) = true := by
  unfold Reachable at h
  cases k <;>
    simp [baseFor, localFor, Ty.localBase, Ty.constLocalBase, Ty.local', Ty.constLocal, Traits.explicit, Traits.implicit, Traits.ctorImplicit,
      Traits.ctorExplicit, Traits.ctorPosition, Traits.convBase, Traits.constrBase, Ty.isConst, core_core_cst] <;>
    rcases h with h | h <;> simp [h] <;> cases R.wraps t.core <;> simp
  all_goals cases t <;> simp

theorem base_base (R : Traits) (k : Bool) : R.explicit (baseFor k) (baseFor k) = true := by
  simp [Traits.explicit]

theorem restitutes_iff (R : Traits) (k : Bool) (f : Functor) (ts : List Ty) :
    restitutes R k f ts = true ↔ Required k f.compiles ts ∧ ∀ t ∈ ts, Reachable R t := by
  unfold Required
  induction ts with
  | nil =>
    simp only [restitutes, Functor.call, base_base, Bool.or_true, Bool.and_true]
    constructor
    · exact fun h => ⟨⟨h, fun _ h => by cases h⟩, fun _ h => by cases h⟩
    · exact fun h => h.1.1
  | cons t ts ih =>
    simp only [restitutes, Bool.and_eq_true, ih, to_local, Functor.call, List.forall_mem_cons]
    constructor
    · rintro ⟨⟨h1, h2, _⟩, ⟨h3, h4⟩, h5⟩
      exact ⟨⟨h3, h2, h4⟩, h1, h5⟩
    · rintro ⟨⟨h3, h2, h4⟩, h1, h5⟩
      exact ⟨⟨h1, h2, by rw [to_base R k t h1, Bool.or_true]⟩, ⟨h3, h4⟩, h5⟩

/-- **C92, exactly.** A call of an algorithm with a list of types compiles if and only if it satisfies what is documented and, in
addition, base iterators can be turned into iterators for each of the types. -/
theorem C92_exactly (R : Traits) (a : Alg) (k : Bool) (ok : Ty → Bool) (ts : List Ty) :
    a.compiles R k ok ts = true ↔ Required k ok ts ∧ ∀ t ∈ ts, Reachable R t := by
  unfold Alg.compiles
  rw [List.all_eq_true]
  constructor
  · intro h
    have : ∃ b, b ∈ a.casts := by cases a <;> exact ⟨_, List.mem_cons_self⟩
    obtain ⟨b, hb⟩ := this
    exact (restitutes_iff R k ⟨ok, b⟩ ts).1 (h b hb)
  · intro h b _
    exact (restitutes_iff R k ⟨ok, b⟩ ts).2 h

/-- A list with the base class and two classes derived from it, one of them const; for a functor that takes everything. -/
example : Alg.adjacentFind.compiles baseTraits false (fun _ => true) [.obj 0, .obj 1, .cst (.obj 2)] = true :=
  (C92_exactly baseTraits .adjacentFind false _ _).2 ⟨⟨rfl, fun _ _ => rfl⟩, fun t ht => by
    simp only [List.mem_cons, List.not_mem_nil, or_false] at ht
    rcases ht with rfl | rfl | rfl <;> exact Or.inl (by decide)⟩

/-- **C92** for types of which there can be elements, and for any types in an `any_collection`, where every base iterator
converts: what is documented suffices.  Missing: lists of arbitrary types, see `C92_arbitrary`. -/
theorem C92_storable_partial (R : Traits) (a : Alg) (k : Bool) (ok : Ty → Bool) (ts : List Ty) (hc : ∀ t ∈ ts, R.casts t.core = true) :
    a.compiles R k ok ts = true ↔ Required k ok ts := by
  rw [C92_exactly]
  exact ⟨And.left, fun h => ⟨h, fun t ht => Or.inl (hc t ht)⟩⟩

/-- An `any_collection`, with types that are not known to the collection. -/
example : Alg.isPermutation.compiles anyTraits true (fun _ => true) [.obj 7, .ptr (.obj 8)] = true :=
  (C92_storable_partial anyTraits _ _ _ _ fun _ _ => rfl).2 ⟨rfl, fun _ _ => rfl⟩

/-- **C92 fails** for other types: a single one of them in the list, whatever the algorithm and the functor, and the call does
not compile, although according to the documentation the list is of arbitrary types. -/
theorem C92_arbitrary (R : Traits) (a : Alg) (k : Bool) (ok : Ty → Bool) (ts : List Ty) {t : Ty} (ht : t ∈ ts)
    (hc : R.casts t.core = false) (hu : R.up R.value t.core = false) : a.compiles R k ok ts = false := by
  rw [← Bool.not_eq_true]
  intro h
  rcases ((C92_exactly R a k ok ts).1 h).2 t ht with h | h
  · rw [h] at hc; cases hc
  · rw [h] at hu; cases hu

/-- A class that is not derived from the base class: what is documented is satisfied, the call does not compile. -/
example : Required false (fun _ => true) [.obj 1, .obj 5] ∧
    Alg.forEach.compiles baseTraits false (fun _ => true) [.obj 1, .obj 5] = false :=
  ⟨⟨rfl, fun _ _ => rfl⟩, C92_arbitrary baseTraits _ _ _ _ (t := .obj 5) (by simp) rfl rfl⟩

/-- What functors get: elements of the types of the list, const if the iterators are. -/
theorem C92_elements (R : Traits) (k : Bool) (t : Ty) :
    R.deref (baseFor k) = some R.value ∧ R.deref (localFor k t) = some t.core ∧
    (k = true → ∃ u, localFor k t = .loc (.ptr (.cst u))) := by
  cases k with
  | false => exact ⟨rfl, rfl, fun h => by cases h⟩
  | true => exact ⟨rfl, rfl, fun _ => ⟨_, rfl⟩⟩

example : baseTraits.deref (localFor true (.obj 1)) = some (.obj 1) := (C92_elements baseTraits true (.obj 1)).2.1

/-- Algorithms with two ranges: the form is chosen as for the algorithms of the standard library.  Two arguments of the same type after
the first range are the second range, otherwise the last one is a predicate; iterators of which one is const and the other is
not are not a range. -/
theorem C92_two_ranges (R : Traits) (k : Bool) (a b p : Ty) (hab : a ≠ b) :
    resolve R twoRanges [(Arg.iter k).ty, (Arg.iter k).ty, a] = .one .algFrom ∧
    resolve R twoRanges [(Arg.iter k).ty, (Arg.iter k).ty, a, b] = .one .algFromPred ∧
    resolve R twoRanges [(Arg.iter k).ty, (Arg.iter k).ty, a, a] = .one .algRange ∧
    resolve R twoRanges [(Arg.iter k).ty, (Arg.iter k).ty, a, a, p] = .one .algRangePred ∧
    resolve R twoRanges [(Arg.iter k).ty, (Arg.iter k).ty, a, b, p] = .none ∧
    resolve R twoRanges [(Arg.iter k).ty, (Arg.iter !k).ty, a] = .none ∧
    resolve R twoRanges [(Arg.iter k).ty, (Arg.iter !k).ty, a, b] = .none := by
  have hk : Arg.ty (Arg.iter k) ≠ Arg.ty (Arg.iter !k) := by cases k <;> decide
  have ho : ofCollection (Arg.iter k).ty = true := rfl
  refine ⟨?_, ?_, ?_, ?_, ?_, ?_, ?_⟩ <;>
    simp [resolve, twoRanges, pick, Cand.viable, matchArgs, Ty.closed, Ty.deduce, Cand.better, Cand.specialised, deduceAll, hab, hk,
      Sub.at, List.lookup, ho]

/-- A range given by two pointers, and a pointer and a predicate. -/
example : resolve baseTraits twoRanges [(Arg.iter true).ty, (Arg.iter true).ty, .ptr (.obj 5), .ptr (.obj 5)] = .one .algRange ∧
    resolve baseTraits twoRanges [(Arg.iter true).ty, (Arg.iter true).ty, .ptr (.obj 5), .obj 6] = .one .algFromPred :=
  ⟨(C92_two_ranges baseTraits true (.ptr (.obj 5)) (.obj 6) (.obj 6) (by decide)).2.2.1,
    (C92_two_ranges baseTraits true (.ptr (.obj 5)) (.obj 6) (.obj 6) (by decide)).2.1⟩

/-- **C94.** The algorithms compile for global iterators of a collection and for no other type: not for local iterators, although the
overloads accept these, and not for types that convert to an iterator.  For global iterators they compile as said in `C92_exactly`. -/
theorem C94_only (R : Traits) (a : Alg) (t : Ty) (ok : Ty → Bool) (ts : List Ty) :
    a.called R t ok ts = true ↔
      ∃ k, t = .iter (.konst k) ∧ Required k ok ts ∧ ∀ u ∈ ts, Reachable R u := by
  constructor
  · intro h
    unfold Alg.called at h
    rw [Bool.and_eq_true] at h
    cases hk : constOf t with
    | none => rw [hk] at h; exact absurd h.2 (by simp)
    | some k =>
      rw [hk] at h
      have h2 := h.2
      simp only [Bool.and_eq_true] at h2
      obtain ⟨hn, hc⟩ := h2
      have hl : TraitFn.takes R k t .localBase = true := by
        rw [List.all_eq_true] at hn
        exact hn _ (by cases a <;> simp [Alg.needs])
      refine ⟨k, ?_, (C92_exactly R a k ok ts).1 hc⟩
      cases t with
      | iter x =>
        cases x <;> simp [constOf] at hk
        rw [hk]
      | loc b => simp [TraitFn.takes, TraitFn.params, Traits.implicit] at hl
      | _ => simp [constOf] at hk
  · rintro ⟨k, rfl, h⟩
    have := (C92_exactly R a k ok ts).2 h
    cases a <;> simp [Alg.called, ofCollection, constOf, Alg.needs, TraitFn.takes, TraitFn.params, this]

/-- The same call with global iterators, with local ones, and with an object that converts to anything. -/
example : Alg.forEach.called baseTraits (.iter (.konst true)) (fun _ => true) [.obj 1] = true ∧
    Alg.forEach.called baseTraits .localBase (fun _ => true) [.obj 1] = false ∧
    Alg.forEach.called { baseTraits with converts := fun _ _ => true } (.obj 9) (fun _ => true) [.obj 1] = false := by
  refine ⟨(C94_only _ _ _ _ _).2 ⟨true, rfl, ⟨rfl, fun _ _ => rfl⟩, fun t ht => ?_⟩, ?_, ?_⟩
  · rw [List.mem_singleton] at ht; subst ht; exact Or.inl (by decide)
  · rw [← Bool.not_eq_true, C94_only]
    rintro ⟨k, h, _⟩; cases h
  · rw [← Bool.not_eq_true, C94_only]
    rintro ⟨k, h, _⟩; cases h

end PolyColl.Props.TypeLists
