import Verif.Model.Functors
import Verif.Lemmas.Accept
/-!
# Predicates with overloaded or ref-qualified call operators (C95)
-/

namespace PolyColl.Props.Functors

open PolyColl.Functors PolyColl.Accept PolyColl.Accept.Spec

/-! ## Specification -/

/-- The predicate, an lvalue, can be called with these arguments, and the answer is of type `r`. -/
def Answer {A : Type} (R : Types) (p : Pred A) (as : List A) (r : Nat) : Prop :=
  ∃ f, Selected (p.ops as) [.lv] f ∧ f.deleted = false ∧ R.result f.name = r

/-- The arguments that the standard algorithm calls the predicate with, given iterators that refer to elements as `base` or one of the
types of the list: one element; two elements; two elements or one and one of the second range. -/
def Asked {A : Type} (base second : A) (ts : List A) : Use → List A → Prop
  | .partitionPoint, as => ∃ t ∈ base :: ts, as = [t]
  | .adjacentFind, as => ∃ t ∈ base :: ts, ∃ u ∈ base :: ts, as = [t, u]
  | .uniqueCopy, as => ∃ t ∈ base :: ts, ∃ u ∈ base :: ts, as = [t, u]
  | .isPermutation, as => ∃ t ∈ base :: ts, ∃ u, (u = second ∨ u ∈ base :: ts) ∧ as = [t, u]

/-- The call of the standard algorithm is well-formed, as documented (`reference.qbk` 1501-1516). -/
def Required {A : Type} (R : Types) (base second : A) (ts : List A) (p : Pred A) (a : Use) : Prop :=
  ∀ as, Asked base second ts a as → ∃ r, Answer R p as r ∧ R.bool r = true

/-- What is returned for an element as one of the types of the list can be returned for an element as base. -/
def Agree {A : Type} (R : Types) (base second : A) (ts : List A) (p : Pred A) (a : Use) : Prop :=
  ∀ t as r r', Asked base second ts a (t :: as) → t ∈ ts → Answer R p (t :: as) r → Answer R p (base :: as) r' → R.conv r r' = true

/-! ## Sample predicates -/

namespace Sample

/-- `bool` is type 0, `std::true_type` type 1, `void` type 2; overload `n` returns type `n`.  `std::true_type` converts to `bool`. -/
def types : Types where
  result := id
  conv := fun x y => x == y || (x == 1 && y == 0)
  bool := fun x => x == 0 || x == 1

theorem types_refl (r : Nat) : types.conv r r = true := by simp [types]

/-- Arguments: 0 is the base, 1 and 2 are types of elements, 9 is for the second range.  A lambda that returns `std::true_type` for
elements of type 1 and `bool` for all others. -/
def narrow : Pred Nat where
  ops
    | 1 :: _ => [{ name := 1, pars := [.obj true] }]
    | _ => [{ name := 0, pars := [.obj true] }]

/-- The same the other way round: `std::true_type` for the base, `bool` for type 1. -/
def wide : Pred Nat where
  ops
    | 1 :: _ => [{ name := 0, pars := [.obj true] }]
    | _ => [{ name := 1, pars := [.obj true] }]

/-- `bool operator()(…)&`. -/
def counter : Pred Nat where
  ops := fun _ => [{ name := 0, pars := [.lref false] }]

/-- `bool operator()(…)&` and `void operator()(…)&&`. -/
def once : Pred Nat where
  ops := fun _ => [{ name := 0, pars := [.lref false] }, { name := 2, pars := [.rref false] }]

theorem answer_of (R : Types) (p : Pred Nat) (as : List Nat) (f : Fun) (h : Accept.resolve (p.ops as) [.lv] = some f)
    (hd : f.deleted = false) : Answer R p as (R.result f.name) := ⟨f, resolve_sound h, hd, rfl⟩

theorem narrow_unqualified (as : List Nat) : Unqualified (narrow.ops as) := by
  intro f hf
  unfold narrow at hf
  dsimp only at hf
  split at hf <;> (rw [List.mem_singleton] at hf; subst hf; exact ⟨true, rfl⟩)

theorem wide_unqualified (as : List Nat) : Unqualified (wide.ops as) := by
  intro f hf
  unfold wide at hf
  dsimp only at hf
  split at hf <;> (rw [List.mem_singleton] at hf; subst hf; exact ⟨true, rfl⟩)

theorem narrow_answer (t : Nat) (as : List Nat) : Answer types narrow (t :: as) (if t = 1 then 1 else 0) := by
  by_cases h : t = 1
  · subst h
    exact answer_of types narrow _ { name := 1, pars := [.obj true] } (by rfl) rfl
  · rw [if_neg h]
    refine answer_of types narrow _ { name := 0, pars := [.obj true] } ?_ rfl
    have : narrow.ops (t :: as) = [{ name := 0, pars := [.obj true] }] := by
      unfold narrow; dsimp only
      split
      · rename_i he; cases he; exact absurd rfl h
      · rfl
    rw [this]; rfl

theorem answer_unique {R : Types} {p : Pred Nat} {as : List Nat} {r r' : Nat} (h : Answer R p as r) (h' : Answer R p as r') : r = r' := by
  obtain ⟨f, hf, _, rfl⟩ := h
  obtain ⟨g, hg, _, rfl⟩ := h'
  rw [selected_unique hf hg]

end Sample

/-! ## Theorems -/

variable {A : Type}

theorem type_iff (R : Types) (p : Pred A) (e : Cat) (as : List A) (r : Nat) :
    p.type R e as = some r ↔ ∃ f, Selected (p.ops as) [e] f ∧ f.deleted = false ∧ R.result f.name = r := by
  unfold Pred.type
  constructor
  · intro h
    cases hr : Accept.resolve (p.ops as) [e] with
    | none => rw [hr] at h; cases h
    | some f =>
      rw [hr] at h
      cases hd : f.deleted with
      | true => simp [hd] at h
      | false => exact ⟨f, resolve_sound hr, hd, by simpa [hd] using h⟩
  · rintro ⟨f, hs, hd, hr⟩
    rw [resolve_complete hs]
    simp [hd, hr]

theorem type_unqualified (R : Types) (p : Pred A) {as : List A} (hu : Unqualified (p.ops as)) :
    p.type R .rv as = p.type R .lv as := by
  apply Option.ext
  intro r
  rw [type_iff, type_iff]
  constructor
  · rintro ⟨f, hs, h⟩; exact ⟨f, (unqualified_selected hu).1 hs, h⟩
  · rintro ⟨f, hs, h⟩; exact ⟨f, (unqualified_selected hu).1 hs, h⟩

theorem deref_unqualified (R : Types) (hc : ∀ r, R.conv r r = true) (p : Pred A) {as : List A} (hu : Unqualified (p.ops as))
    (r : Nat) : p.deref R as = some r ↔ Answer R p as r := by
  have h := type_iff R p .lv as r
  unfold Pred.deref Answer
  rw [type_unqualified R p hu, ← h]
  cases p.type R .lv as with
  | none => simp
  | some b => simp [hc]

theorem fits_iff (R : Types) (p : Pred A) (d : Nat) (as : List A) :
    p.fits R d as = true ↔ ∃ d', p.deref R as = some d' ∧ R.conv d' d = true := by
  unfold Pred.fits
  cases p.deref R as <;> simp

theorem tested_iff (R : Types) (p : Pred A) (base : List A) (ts : List (List A)) :
    p.tested R base ts = true ↔
      ∃ d, p.deref R base = some d ∧ R.bool d = true ∧ ∀ as ∈ ts, ∃ d', p.deref R as = some d' ∧ R.conv d' d = true := by
  unfold Pred.tested Pred.restituted
  cases p.deref R base with
  | none => simp
  | some d =>
    simp only [Option.some.injEq, exists_eq_left', ← fits_iff, ← List.all_eq_true]
    cases ts.all (p.fits R d) <;> simp

/-- The rest of the arguments, for the calls of an algorithm. -/
theorem compiles_iff (R : Types) (base second : A) (ts : List A) (p : Pred A) (a : Use) :
    a.compiles R base second ts p = true ↔
      ∀ as, Asked base second ts a (base :: as) → p.tested R (base :: as) (ts.map fun t => t :: as) = true := by
  unfold Use.compiles
  rw [List.all_eq_true]
  cases a with
  | partitionPoint =>
    simp only [Use.calls, Asked, List.mem_singleton]
    constructor
    · rintro h as ⟨t, _, he⟩
      have := h _ rfl
      cases he; exact this
    · rintro h c rfl
      exact h [] ⟨base, List.mem_cons_self, rfl⟩
  | adjacentFind =>
    simp only [Use.calls, Asked, List.mem_map]
    constructor
    · rintro h as ⟨t, _, u, hu, he⟩
      have := h _ ⟨u, hu, rfl⟩
      cases he; exact this
    · rintro h c ⟨u, hu, rfl⟩
      exact h [u] ⟨base, List.mem_cons_self, u, hu, rfl⟩
  | uniqueCopy =>
    simp only [Use.calls, Asked, List.mem_map]
    constructor
    · rintro h as ⟨t, _, u, hu, he⟩
      have := h _ ⟨u, hu, rfl⟩
      cases he; exact this
    · rintro h c ⟨u, hu, rfl⟩
      exact h [u] ⟨base, List.mem_cons_self, u, hu, rfl⟩
  | isPermutation =>
    simp only [Use.calls, Asked, List.mem_map]
    have hm : ∀ u, u ∈ base :: second :: ts ↔ u = second ∨ u ∈ base :: ts := by
      intro u; simp only [List.mem_cons]; exact or_left_comm
    constructor
    · rintro h as ⟨t, _, u, hu, he⟩
      have := h _ ⟨u, (hm u).2 hu, rfl⟩
      cases he; exact this
    · rintro h c ⟨u, hu, rfl⟩
      exact h [u] ⟨base, List.mem_cons_self, u, (hm u).1 hu, rfl⟩

/-- Arguments asked for with the element as base are asked for with it as each of the types, and the other way round. -/
theorem asked_other {base second : A} {ts : List A} {a : Use} {t u : A} {as : List A} (hu : u ∈ base :: ts)
    (h : Asked base second ts a (t :: as)) : Asked base second ts a (u :: as) := by
  cases a with
  | partitionPoint => obtain ⟨_, _, he⟩ := h; cases he; exact ⟨u, hu, rfl⟩
  | adjacentFind => obtain ⟨_, _, v, hv, he⟩ := h; cases he; exact ⟨u, hu, v, hv, rfl⟩
  | uniqueCopy => obtain ⟨_, _, v, hv, he⟩ := h; cases he; exact ⟨u, hu, v, hv, rfl⟩
  | isPermutation => obtain ⟨_, _, v, hv, he⟩ := h; cases he; exact ⟨u, hu, v, hv, rfl⟩

/-- **C95** for predicates whose call operators have no ref-qualifiers: the algorithms compile whenever the standard
ones are well-formed, if answers for elements as `T&` convert to the type of the answers for elements as `value_type&`.
Missing: other predicates (`C95_lvalue`, `C95_rvalue_type`) and answers that do not convert (`C95_answers`). -/
theorem C95_unqualified_partial (R : Types) (hc : ∀ r, R.conv r r = true) (base second : A) (ts : List A) (p : Pred A) (a : Use)
    (hu : ∀ as, Unqualified (p.ops as)) (hr : Required R base second ts p a) (hg : Agree R base second ts p a) :
    a.compiles R base second ts p = true := by
  rw [compiles_iff]
  intro as has
  rw [tested_iff]
  obtain ⟨r, h1, h2⟩ := hr _ has
  refine ⟨r, (deref_unqualified R hc p (hu _) r).2 h1, h2, fun bs hbs => ?_⟩
  obtain ⟨t, ht, rfl⟩ := List.mem_map.1 hbs
  have hta := asked_other (List.mem_cons_of_mem base ht) has
  obtain ⟨r', h3, _⟩ := hr _ hta
  exact ⟨r', (deref_unqualified R hc p (hu _) r').2 h3, hg t as r' r hta ht h3 h1⟩

example : Use.isPermutation.compiles Sample.types 0 9 [1, 2] Sample.narrow = true := by
  refine C95_unqualified_partial Sample.types Sample.types_refl 0 9 [1, 2] Sample.narrow .isPermutation Sample.narrow_unqualified ?_ ?_
  · rintro as ⟨t, _, u, _, rfl⟩
    refine ⟨_, Sample.narrow_answer t [u], ?_⟩
    by_cases h : t = 1 <;> simp [h, Sample.types]
  · rintro t as r r' _ _ h1 h2
    rw [Sample.answer_unique h1 (Sample.narrow_answer t as), Sample.answer_unique h2 (Sample.narrow_answer 0 as)]
    by_cases h : t = 1 <;> simp [h, Sample.types]

/-- **C95, what is needed:** if the algorithm compiles, then the predicate can be called with all the arguments, both as an
rvalue and as an lvalue. -/
theorem C95_needed (R : Types) (base second : A) (ts : List A) (p : Pred A) (a : Use) (h : a.compiles R base second ts p = true)
    {as : List A} (ha : Asked base second ts a as) :
    (∃ r, Answer R p as r) ∧ ∃ f, Selected (p.ops as) [.rv] f ∧ f.deleted = false := by
  have key : ∀ as d, p.deref R as = some d → (∃ r, Answer R p as r) ∧ ∃ f, Selected (p.ops as) [.rv] f ∧ f.deleted = false := by
    intro as d hd
    unfold Pred.deref at hd
    cases h1 : p.type R .rv as with
    | none => rw [h1] at hd; cases hd
    | some x =>
      cases h2 : p.type R .lv as with
      | none => rw [h1, h2] at hd; cases hd
      | some y =>
        obtain ⟨f, hf, hfd, _⟩ := (type_iff R p .rv as x).1 h1
        exact ⟨⟨y, (type_iff R p .lv as y).1 h2⟩, f, hf, hfd⟩
  have hsome : ∃ t bs, as = t :: bs ∧ t ∈ base :: ts := by
    cases a with
    | partitionPoint => obtain ⟨t, ht, he⟩ := ha; exact ⟨t, _, he, ht⟩
    | adjacentFind => obtain ⟨t, ht, v, hv, he⟩ := ha; exact ⟨t, _, he, ht⟩
    | uniqueCopy => obtain ⟨t, ht, v, hv, he⟩ := ha; exact ⟨t, _, he, ht⟩
    | isPermutation => obtain ⟨t, ht, v, hv, he⟩ := ha; exact ⟨t, _, he, ht⟩
  obtain ⟨t, bs, rfl, ht⟩ := hsome
  have hb := asked_other (u := base) List.mem_cons_self ha
  have h1 := (compiles_iff R base second ts p a).1 h bs hb
  rw [tested_iff] at h1
  obtain ⟨d, hd, _, hall⟩ := h1
  rcases List.mem_cons.1 ht with rfl | ht
  · exact key _ d hd
  · obtain ⟨d', hd', _⟩ := hall (t :: bs) (List.mem_map.2 ⟨t, ht, rfl⟩)
    exact key _ d' hd'

example : ∃ f, Selected (Sample.narrow.ops [2, 1]) [.rv] f ∧ f.deleted = false :=
  (C95_needed Sample.types 0 9 [1, 2] Sample.narrow .adjacentFind (by decide) ⟨2, by simp, 1, by simp, rfl⟩).2

/-- **C95 fails** for call operators with the ref-qualifier `&` (and not const): a predicate all of whose operators for some
arguments have it does not compile, with or without a list of types, although the standard algorithms call lvalues. -/
theorem C95_lvalue (R : Types) (base second : A) (ts : List A) (p : Pred A) (a : Use) {as : List A} (ha : Asked base second ts a as)
    (hq : ∀ f ∈ p.ops as, f.pars = [.lref false]) : a.compiles R base second ts p = false := by
  rw [← Bool.not_eq_true]
  intro h
  obtain ⟨_, f, ⟨hf, ⟨_, hb, _⟩, _⟩, _⟩ := C95_needed R base second ts p a h ha
  have hp := hq f hf
  have := hb 0 (by rw [hp]; exact Nat.one_pos) (by exact Nat.one_pos)
  simp only [hp, List.getElem_cons_zero] at this
  cases this

/-- `bool operator()(…)&`, without a list of types: the call of the standard algorithm is well-formed. -/
example : Required Sample.types 0 9 [] Sample.counter .partitionPoint ∧
    Use.partitionPoint.compiles Sample.types 0 9 [] Sample.counter = false :=
  ⟨fun as _ => ⟨0, Sample.answer_of Sample.types Sample.counter as { name := 0, pars := [.lref false] } (by rfl) rfl, rfl⟩,
    C95_lvalue Sample.types 0 9 [] Sample.counter .partitionPoint (as := [0]) ⟨0, by simp, rfl⟩ (by simp [Sample.counter])⟩

/-- **C95 fails** for answers for elements as `T&` that do not convert to the type of answers for elements as
`value_type&`, although all of them convert to `bool`. -/
theorem C95_answers (R : Types) (hc : ∀ r, R.conv r r = true) (base second : A) (ts : List A) (p : Pred A) (a : Use)
    (hu : ∀ as, Unqualified (p.ops as)) {t : A} {as : List A} {r r' : Nat} (ha : Asked base second ts a (t :: as)) (ht : t ∈ ts)
    (h1 : Answer R p (t :: as) r) (h2 : Answer R p (base :: as) r') (hn : R.conv r r' = false) :
    a.compiles R base second ts p = false := by
  rw [← Bool.not_eq_true]
  intro h
  have h3 := (compiles_iff R base second ts p a).1 h as (asked_other List.mem_cons_self ha)
  rw [tested_iff] at h3
  obtain ⟨d, hd, _, hall⟩ := h3
  obtain ⟨d', hd', hcv⟩ := hall (t :: as) (List.mem_map.2 ⟨t, ht, rfl⟩)
  have e1 := (deref_unqualified R hc p (hu _) r').2 h2
  have e2 := (deref_unqualified R hc p (hu _) r).2 h1
  rw [hd] at e1; rw [hd'] at e2
  cases e1; cases e2
  rw [hcv] at hn; cases hn

/-- `std::true_type` for a `value_type&`, `bool` for a `T&`: both convert to `bool`. -/
example : Use.adjacentFind.compiles Sample.types 0 9 [1] Sample.wide = false :=
  C95_answers Sample.types Sample.types_refl 0 9 [1] Sample.wide .adjacentFind Sample.wide_unqualified (t := 1) (as := [0]) (r := 0) (r' := 1)
    ⟨1, by simp, 0, by simp, rfl⟩ (by simp)
    (Sample.answer_of Sample.types Sample.wide _ { name := 0, pars := [.obj true] } (by rfl) rfl)
    (Sample.answer_of Sample.types Sample.wide _ { name := 1, pars := [.obj true] } (by rfl) rfl) rfl

/-- **C95 fails** for predicates that have an overload for rvalues with answers of a type to which the answers for lvalues do
not convert, or that do not convert to `bool`. -/
theorem C95_rvalue_type (R : Types) (base second : A) (ts : List A) (p : Pred A) (a : Use) {as : List A}
    (ha : Asked base second ts a (base :: as)) {f : Fun} {r : Nat} (hf : Selected (p.ops (base :: as)) [.rv] f)
    (h1 : Answer R p (base :: as) r) (hn : R.conv r (R.result f.name) = false ∨ R.bool (R.result f.name) = false) :
    a.compiles R base second ts p = false := by
  rw [← Bool.not_eq_true]
  intro h
  have h3 := (compiles_iff R base second ts p a).1 h as ha
  rw [tested_iff] at h3
  obtain ⟨d, hd, hb, _⟩ := h3
  unfold Pred.deref at hd
  rw [(type_iff R p .lv _ r).2 h1] at hd
  cases ht : p.type R .rv (base :: as) with
  | none => rw [ht] at hd; cases hd
  | some x =>
    rw [ht] at hd
    obtain ⟨g, hg, _, rfl⟩ := (type_iff R p .rv _ x).1 ht
    have := selected_unique hf hg
    subst this
    by_cases hcv : R.conv r (R.result f.name) = true
    · simp only [hcv, if_true, Option.some.injEq] at hd
      subst hd
      rcases hn with hn | hn
      · rw [hcv] at hn; cases hn
      · rw [hb] at hn; cases hn
    · simp [hcv] at hd

/-- `void operator()(…)&&` besides `bool operator()(…)&`. -/
example : Use.uniqueCopy.compiles Sample.types 0 9 [] Sample.once = false :=
  C95_rvalue_type Sample.types 0 9 [] Sample.once .uniqueCopy (as := [0]) (f := { name := 2, pars := [.rref false] }) (r := 0)
    ⟨0, by simp, 0, by simp, rfl⟩ (resolve_sound (by rfl))
    (Sample.answer_of Sample.types Sample.once _ { name := 0, pars := [.lref false] } (by rfl) rfl) (Or.inl rfl)

end PolyColl.Props.Functors
