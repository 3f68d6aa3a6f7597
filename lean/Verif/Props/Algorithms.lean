import Verif.Lemmas.AlgoCut
import Verif.Lemmas.AlgoPart
import Verif.Lemmas.AlgoPerm
import Verif.Lemmas.StdPure
import Verif.Lemmas.StdPerm
import Verif.Props.SampleRange
/-!
# Properties C41 to C47: decomposition of ranges, searching, counting and comparing

`m` is the monad the functors live in: with `m = Id` they are functions, with a state monad they
may log their calls, and so on.  Equations between computations in `m` say that the functors are
called for the same elements in the same order, and that the results agree.
-/

namespace PolyColl.Props
open PolyColl Prog Coll Algo

variable {V : Type} {E : Env V} {k : Kind} {m : Type → Type} [Monad m] [LawfulMonad m]

/-- `[first,last)` is a range of `c`, from position `p` up to position `q`. -/
structure Range (E : Env V) (c : Coll V) (first last : GIter) (p q : Spec.State.Pos) : Prop where
  first : c.At E first p
  last : c.At E last q
  le : c.abs.rank p ≤ c.abs.rank q

/-- What a functor is given for the elements from `p` up to `q`: each of them once and in order of
traversal; as what it is, if its type is one of `Ts`. -/
def seen (Ts : List Ty) (s : Spec.State V) (p q : Spec.State.Pos) : List (Passed V) :=
  (s.between p q).map fun x => ⟨x.1, x.2, Ts.contains x.1⟩

/-- The computation `x` of an iterator is never undefined and has the effects of the computation
`y` of a number; and whatever effects those are, the iterator is the one that many places after
place `r`. -/
def Finds (E : Env V) (c : Coll V) (r : Nat) (x : OptionT m GIter) (y : m Nat) : Prop :=
  ∃ z : m {a : GIter × Nat // ∃ p, c.At E a.1 p ∧ c.abs.rank p = r + a.2},
    x.run = (fun a => some a.1.1) <$> z ∧ y = (fun a => a.1.2) <$> z

/-- The same for computations of an iterator or a number together with something else, where this
is to be the same. -/
def FindsBoth {β : Type} (E : Env V) (c : Coll V) (r : Nat) (x : OptionT m (GIter × β)) (y : m (Nat × β)) : Prop :=
  ∃ z : m {a : (GIter × β) × (Nat × β) // (∃ p, c.At E a.1.1 p ∧ c.abs.rank p = r + a.2.1) ∧ a.1.2 = a.2.2},
    x.run = (fun a => some a.1.1) <$> z ∧ y = (fun a => a.1.2) <$> z

omit [LawfulMonad m] in
theorem Finds.of {c : Coll V} {r : Nat} {x : OptionT m GIter} {y : m Nat} (h : Sim (fun it n => AtRank E c it (r + n)) x y) : Finds E c r x y := h

/-- The case without effects. -/
theorem Finds.id {c : Coll V} {r : Nat} {x : OptionT Id GIter} {n : Nat} (h : Finds (m := Id) E c r x n) :
    ∃ it p, x.run = some it ∧ c.At E it p ∧ c.abs.rank p = r + n := by
  obtain ⟨it, h1, p, h2, h3⟩ := Sim.id (R := fun it n => AtRank E c it (r + n)) h
  exact ⟨it, p, h1, h2, h3⟩

/-- The range of the examples: the last two elements of type 0, the empty segment of type 5 and the
element of type 2. -/
theorem range0 (k : Kind) : Range Sample.E0 (Sample.c0 k) (Sample.iter k 2) (Sample.c0 k).end (some (0, 1)) none :=
  ⟨Sample.iter_two k, Sample.iter_end k, by rw [Sample.abs0]; decide⟩

/-- The range of only 2, and that of 3 and 7. -/
theorem range1 (k : Kind) : Range Sample.E0 (Sample.c0 k) (Sample.iter k 2) (Sample.iter k 3) (some (0, 1)) (some (0, 2)) :=
  ⟨Sample.iter_two k, Sample.iter_three k, by rw [Sample.abs0]; decide⟩

theorem range2 (k : Kind) : Range Sample.E0 (Sample.c0 k) (Sample.iter k 3) (Sample.c0 k).end (some (0, 2)) none :=
  ⟨Sample.iter_three k, Sample.iter_end k, by rw [Sample.abs0]; decide⟩

theorem seen0 (k : Kind) (Ts : List Ty) : seen Ts (Sample.c0 k).abs (some (0, 1)) none =
    [⟨0, 2, Ts.contains 0⟩, ⟨0, 3, Ts.contains 0⟩, ⟨2, 7, Ts.contains 2⟩] := by
  rw [Sample.abs0]; rfl

theorem rank0 (k : Kind) : (Sample.c0 k).abs.rank (some (0, 1)) = 2 := by rw [Sample.abs0]; rfl

section
variable {c : Coll V} {w : World} {first last : GIter} {p q : Spec.State.Pos}

theorem Range.cut (hr : Range E c first last p q) (h : c.Reachable E k w) :
    ∃ ps, segmentSplit E c first last = some ps ∧ Cut E c false ps (c.abs.rank p) (c.abs.between p q) :=
  segmentSplit_cut E h.inv hr.first hr.last hr.le

theorem Range.at (hr : Range E c first last p q) : AtRank E c first (c.abs.rank p) := ⟨p, hr.first, rfl⟩

theorem Range.seen (Ts : List Ty) : passed Ts ((before c q).drop (c.abs.rank p)) = seen Ts c.abs p q := by
  unfold Props.seen
  rw [between_eq]
  rfl

theorem Range.length (hr : Range E c first last p q) (h : c.Reachable E k w) (Ts : List Ty) :
    (Props.seen Ts c.abs p q).length = c.abs.rank q - c.abs.rank p := by
  rw [← Range.seen, passed_length, List.length_drop, before_length E h.map hr.last]

/-! ### C41 -/

/-- **C41.**  A range is decomposed into pieces without undefined behaviour.  Each piece has a
range of local iterators, all its elements have the type it is labelled with, and the elements of
all pieces are those of the range in order. -/
theorem C41_decomposition (h : c.Reachable E k w) (hr : Range E c first last p q) (Ts : List Ty) :
    ∃ (ps : List SegInfo) (vs : List (List (Passed V))), segmentSplit E c first last = some ps ∧
      StdAlg.Both (fun i v => (Algo.range E c Ts i).map (·.vals) = some v ∧ ∀ x ∈ v, x.ty = E.tiTy i.info) ps vs ∧
      vs.flatten = seen Ts c.abs p q := by
  obtain ⟨ps, h1, h2⟩ := hr.cut h
  obtain ⟨vs, h3, h4⟩ := h2.ranges E (h.inv.core E) Ts
  exact ⟨ps, vs, h1, h3, h4⟩

/-- `for_each_segment`, which `for_each` uses, gives the same pieces. -/
theorem C41_for_each_segment (h : c.Reachable E k w) (hr : Range E c first last p q) :
    eachSegment E c first last = segmentSplit E c first last :=
  eachSegment_eq E h.inv hr.first hr.last hr.le

/-- Three pieces, the second of them empty. -/
example (k : Kind) : ∃ ps vs, segmentSplit Sample.E0 (Sample.c0 k) (Sample.iter k 2) (Sample.c0 k).end = some ps ∧
    ps.map (fun i => Sample.E0.tiTy i.info) = [0, 5, 2] ∧
    StdAlg.Both (fun i v => (Algo.range Sample.E0 (Sample.c0 k) [2, 1] i).map (·.vals) = some v ∧ ∀ x ∈ v, x.ty = Sample.E0.tiTy i.info) ps vs ∧
    vs.flatten = [⟨0, 2, false⟩, ⟨0, 3, false⟩, ⟨2, 7, true⟩] := by
  obtain ⟨ps, vs, h1, h2, h3⟩ := C41_decomposition (Sample.reach0 k) (range0 k) [2, 1]
  refine ⟨ps, vs, h1, ?_, h2, by rw [h3, seen0]; rfl⟩
  have : (segmentSplit Sample.E0 (Sample.c0 k) (Sample.iter k 2) (Sample.c0 k).end).map (·.map fun i => Sample.E0.tiTy i.info) = some [0, 5, 2] := by
    cases k <;> rfl
  rw [h1] at this
  exact Option.some.inj this

/-! ### C42 -/

/-- **C42.**  `all_of` is `std::all_of` on the elements of the range. -/
theorem C42_all_of (h : c.Reachable E k w) (hr : Range E c first last p q) (Ts : List Ty) (P : Passed V → m Bool) :
    (Algo.allOf E c Ts first last P).run = some <$> StdAlg.allOf P (seen Ts c.abs p q) := by
  obtain ⟨ps, h1, h2⟩ := hr.cut h
  exact (Sim.defd h1 (allOfIn_sim E (h.inv.core E) Ts P h2)).eq

/-- **C42** for `any_of`. -/
theorem C42_any_of (h : c.Reachable E k w) (hr : Range E c first last p q) (Ts : List Ty) (P : Passed V → m Bool) :
    (Algo.anyOf E c Ts first last P).run = some <$> StdAlg.anyOf P (seen Ts c.abs p q) := by
  obtain ⟨ps, h1, h2⟩ := hr.cut h
  exact (Sim.defd h1 (anyOfIn_sim E (h.inv.core E) Ts P h2)).eq

/-- **C42** for `none_of`. -/
theorem C42_none_of (h : c.Reachable E k w) (hr : Range E c first last p q) (Ts : List Ty) (P : Passed V → m Bool) :
    (Algo.noneOf E c Ts first last P).run = some <$> StdAlg.noneOf P (seen Ts c.abs p q) := by
  obtain ⟨ps, h1, h2⟩ := hr.cut h
  exact (Sim.defd h1 (noneOfIn_sim E (h.inv.core E) Ts P h2)).eq

/-- What that means for predicates without effects. -/
theorem C42_values (h : c.Reachable E k w) (hr : Range E c first last p q) (Ts : List Ty) (P : Passed V → Bool) :
    (∃ b, (Algo.allOf E c Ts first last fun x => (pure (P x) : m Bool)).run = pure (some b) ∧ (b = true ↔ ∀ x ∈ seen Ts c.abs p q, P x = true)) ∧
    (∃ b, (Algo.anyOf E c Ts first last fun x => (pure (P x) : m Bool)).run = pure (some b) ∧ (b = true ↔ ∃ x ∈ seen Ts c.abs p q, P x = true)) ∧
    (∃ b, (Algo.noneOf E c Ts first last fun x => (pure (P x) : m Bool)).run = pure (some b) ∧ (b = true ↔ ∀ x ∈ seen Ts c.abs p q, P x = false)) := by
  refine ⟨⟨_, ?_, List.all_eq_true⟩, ⟨_, ?_, List.any_eq_true⟩, ⟨!(seen Ts c.abs p q).any P, ?_, ?_⟩⟩
  · rw [C42_all_of h hr, StdAlg.allOf_pure, map_pure]
  · rw [C42_any_of h hr, StdAlg.anyOf_pure, map_pure]
  · rw [C42_none_of h hr, StdAlg.noneOf_pure, map_pure]
  · simp

/-- A predicate that logs the elements it is called with. -/
def logged (P : Passed V → Bool) (x : Passed V) : StateM (List (Passed V)) Bool := do
  modify fun log => log ++ [x]
  return P x

/-- The predicate is called for 2 and 3 only, as the latter is not even. -/
example (k : Kind) : (Algo.allOf Sample.E0 (Sample.c0 k) [2] (Sample.iter k 2) (Sample.c0 k).end (logged fun x => x.val % 2 == 0)).run [] =
    (some false, [⟨0, 2, false⟩, ⟨0, 3, false⟩]) := by
  rw [C42_all_of (Sample.reach0 k) (range0 k), seen0]; rfl

/-- The element 7 is the only one that fits. -/
example (k : Kind) : (Algo.anyOf Sample.E0 (Sample.c0 k) [2] (Sample.iter k 2) (Sample.c0 k).end (logged fun x => x.typed)).run [] =
    (some true, [⟨0, 2, false⟩, ⟨0, 3, false⟩, ⟨2, 7, true⟩]) ∧
    (Algo.noneOf Sample.E0 (Sample.c0 k) [] (Sample.iter k 2) (Sample.c0 k).end (logged fun x => x.val == 9)).run [] =
    (some true, [⟨0, 2, false⟩, ⟨0, 3, false⟩, ⟨2, 7, false⟩]) := by
  rw [C42_any_of (Sample.reach0 k) (range0 k), C42_none_of (Sample.reach0 k) (range0 k), seen0, seen0]
  exact ⟨rfl, rfl⟩

/-! ### C43 -/

/-- **C43.**  `for_each` calls the function for each element of the range in order, and returns it.
`F` is the state of the function object. -/
theorem C43_for_each {F : Type} (h : c.Reachable E k w) (hr : Range E c first last p q) (Ts : List Ty) (f : F → Passed V → m F) (s : F) :
    (Algo.forEach E c Ts first last f s).run = some <$> (seen Ts c.abs p q).foldlM f s := by
  obtain ⟨ps, h1, h2⟩ := hr.cut h
  rw [← eachSegment_eq E h.inv hr.first hr.last hr.le] at h1
  have he : ∀ (l : List (Passed V)) s, StdAlg.forEach f l s = l.foldlM f s := by
    intro l
    induction l with
    | nil => intro s; rfl
    | cons a l ih => intro s; simp only [StdAlg.forEach, List.foldlM_cons, ih]
  rw [← he]
  exact (Sim.defd h1 (forEachIn_sim E (h.inv.core E) Ts f h2 s)).eq

/-- **C43** for `for_each_n`, where there are at least `n` elements from `p` on: the function is
called for the first `n` of them, and the iterator returned is the one `n` places after `p`. -/
theorem C43_for_each_n {F : Type} (h : c.Reachable E k w) (hf : c.At E first p) (n : Int) (hn : c.abs.rank p + n.toNat ≤ c.size)
    (Ts : List Ty) (f : F → Passed V → m F) (s : F) :
    ∃ z : m {a : (GIter × F) × F // (∃ p', c.At E a.1.1 p' ∧ c.abs.rank p' = c.abs.rank p + n.toNat) ∧ a.1.2 = a.2},
      (Algo.forEachN E c Ts first n f s).run = (fun a => some a.1.1) <$> z ∧
      ((seen Ts c.abs p none).take n.toNat).foldlM f s = (fun a => a.1.2) <$> z := by
  rw [size_abs] at hn
  have he : ∀ (l : List (Passed V)) s, l.foldlM f s = StdAlg.forEach f l s := by
    intro l
    induction l with
    | nil => intro s; rfl
    | cons a l ih => intro s; simp only [StdAlg.forEach, List.foldlM_cons, ih]
  have ht : (seen Ts c.abs p none).take n.toNat = passed Ts ((c.abs.typedFlat.drop (c.abs.rank p)).take n.toNat) := by
    unfold seen Spec.State.between passed
    rw [← List.map_take, List.take_take]
    congr 2
    have : c.abs.rank none = c.abs.flat.length := by cases c.abs <;> rfl
    rw [this]; omega
  rw [ht, he]
  exact forEachN_sim E h.inv Ts hf n hn f s

/-- The sum of the elements from 2 on, or of the first two of them, and the calls. -/
example (k : Kind) (f : Nat → Passed Nat → StateM (List (Passed Nat)) Nat) (hf : f = fun s x => do modify (· ++ [x]); return s + x.val) :
    (Algo.forEach Sample.E0 (Sample.c0 k) [0] (Sample.iter k 2) (Sample.c0 k).end f 100).run [] =
      (some 112, [⟨0, 2, true⟩, ⟨0, 3, true⟩, ⟨2, 7, false⟩]) ∧
    (Prod.snd <$> Algo.forEachN Sample.E0 (Sample.c0 k) [0] (Sample.iter k 2) 2 f 100).run [] =
      (some 105, [⟨0, 2, true⟩, ⟨0, 3, true⟩]) := by
  subst hf
  constructor
  · rw [C43_for_each (Sample.reach0 k) (range0 k), seen0]; rfl
  · have hs : (Sample.c0 k).size = 5 := by cases k <;> rfl
    obtain ⟨z, h1, h2⟩ := C43_for_each_n (m := StateM (List (Passed Nat))) (Sample.reach0 k) (range0 k).first 2 (by rw [rank0, hs]; decide) [0]
      (fun s x => do modify (· ++ [x]); return s + x.val) 100
    have hz : (fun a => some a.1.1.2) <$> z = (fun a => some a.1.2) <$> z := by
      have : (fun a : {a : (GIter × Nat) × Nat // (∃ p', (Sample.c0 k).At Sample.E0 a.1.1 p' ∧
        (Sample.c0 k).abs.rank p' = (Sample.c0 k).abs.rank (some (0, 1)) + (2 : Int).toNat) ∧ a.1.2 = a.2} => some a.1.1.2) = fun a => some a.1.2 :=
        funext fun a => by rw [a.2.2]
      rw [this]
    rw [OptionT.run_map, h1, Functor.map_map]
    show ((fun a => some a.1.1.2) <$> z) [] = _
    rw [hz]
    have : (fun a => some a.1.2) <$> z = some <$> ((fun a => a.1.2) <$> z) := by rw [Functor.map_map]
    rw [this, ← h2, seen0]
    rfl

/-! ### C44 -/

theorem find_of (h : c.Reachable E k w) (hr : Range E c first last p q) (Ts : List Ty) {alg : List (Passed V) → m Nat} (ha : Search alg) :
    Finds E c (c.abs.rank p) (do return (← genericFind E c first last (lift E c Ts alg) ()).1) (alg (seen Ts c.abs p q)) := by
  obtain ⟨ps, h1, h2, h3⟩ := cut_from E h.inv hr.at hr.last hr.le
  rw [← Range.seen, ← bind_pure (alg _)]
  refine Finds.of ((Sim.defd h1 (genericFind_sim E h.inv Ts ha h2 h3)).bind fun x n hx => ?_)
  exact Sim.pure hx.1

/-- **C44.**  `find_if`, and `find`, find the place `std::find_if` finds in the elements of the
range, with the same calls of the predicate. -/
theorem C44_find_if (h : c.Reachable E k w) (hr : Range E c first last p q) (Ts : List Ty) (P : Passed V → m Bool) :
    Finds E c (c.abs.rank p) (Algo.findIf E c Ts first last P) (StdAlg.findIf P (seen Ts c.abs p q)) :=
  find_of h hr Ts (search_findIf P)

/-- **C44** for `find_if_not`. -/
theorem C44_find_if_not (h : c.Reachable E k w) (hr : Range E c first last p q) (Ts : List Ty) (P : Passed V → m Bool) :
    Finds E c (c.abs.rank p) (Algo.findIfNot E c Ts first last P) (StdAlg.findIfNot P (seen Ts c.abs p q)) :=
  find_of h hr Ts (search_findIfNot P)

example (k : Kind) := C44_find_if_not (m := Id) (Sample.reach0 k) (range0 k) [2] fun x => x.val != 7

/-- **C44** for `find_first_of`. -/
theorem C44_find_first_of {B : Type} (h : c.Reachable E k w) (hr : Range E c first last p q) (Ts : List Ty) (bs : List B)
    (P : Passed V → B → m Bool) :
    Finds E c (c.abs.rank p) (Algo.findFirstOf E c Ts first last bs P) (StdAlg.findFirstOf P bs (seen Ts c.abs p q)) :=
  find_of h hr Ts (search_findIf fun a => StdAlg.anyOf (P a) bs)

/-- An iterator `n` places after the first one of a range is equal to the last one if and only if
`n` is the length of the range. -/
theorem Range.isLast (hr : Range E c first last p q) (h : c.Reachable E k w) (Ts : List Ty) {it : GIter} {p' : Spec.State.Pos} {n : Nat}
    (ha : c.At E it p') (hn : c.abs.rank p' = c.abs.rank p + n) : it.segpos = last.segpos ↔ n = (Props.seen Ts c.abs p q).length := by
  rw [AtRank.eq E (h.inv.core E) ⟨p', ha, hn⟩ ⟨q, hr.last, rfl⟩, hr.length h]
  have := hr.le
  omega

theorem first_of (h : c.Reachable E k w) (hr : Range E c first last p q) (Ts : List Ty) (P : Passed V → Bool) {x : OptionT Id GIter}
    (hx : Finds (m := Id) E c (c.abs.rank p) x ((seen Ts c.abs p q).findIdx P)) :
    ∃ it p' n, x.run = some it ∧ c.At E it p' ∧ c.abs.rank p' = c.abs.rank p + n ∧
      (it.segpos ≠ last.segpos → ∃ a, (seen Ts c.abs p q)[n]? = some a ∧ P a = true) ∧
      (it.segpos = last.segpos ↔ n = (seen Ts c.abs p q).length) ∧ ∀ a ∈ (seen Ts c.abs p q).take n, P a = false := by
  obtain ⟨it, p', h1, h2, h3⟩ := hx.id
  have hl := hr.isLast h Ts h2 h3
  refine ⟨it, p', _, h1, h2, h3, fun hne => ?_, hl, ?_⟩
  · have hlt : (seen Ts c.abs p q).findIdx P < (seen Ts c.abs p q).length :=
      Nat.lt_of_le_of_ne List.findIdx_le_length fun e => hne (hl.2 e)
    exact ⟨_, List.getElem?_eq_getElem hlt, List.findIdx_getElem⟩
  · intro a ha
    obtain ⟨j, hj, rfl⟩ := List.mem_take_iff_getElem.1 ha
    exact List.not_of_lt_findIdx (Nat.lt_of_lt_of_le hj (Nat.min_le_left _ _))

/-- **C44** for predicates without effects: the iterator found is equal to `last`, or it is at an
element with the property looked for; none of the elements of the range before it has it. -/
theorem C44_first (h : c.Reachable E k w) (hr : Range E c first last p q) (Ts : List Ty) (P : Passed V → Bool) :
    ∃ it p' n, (Algo.findIf (m := Id) E c Ts first last P).run = some it ∧ c.At E it p' ∧ c.abs.rank p' = c.abs.rank p + n ∧
      (it.segpos ≠ last.segpos → ∃ a, (seen Ts c.abs p q)[n]? = some a ∧ P a = true) ∧
      (it.segpos = last.segpos ↔ n = (seen Ts c.abs p q).length) ∧ ∀ a ∈ (seen Ts c.abs p q).take n, P a = false := by
  refine first_of h hr Ts P ?_
  have := C44_find_if (m := Id) h hr Ts P
  rwa [show StdAlg.findIf (m := Id) P (seen Ts c.abs p q) = _ from StdAlg.findIf_pure (m := Id) P _] at this

example (k : Kind) := C44_first (Sample.reach0 k) (range0 k) [2] fun x => x.val == 7

/-- The same for `find_if_not`. -/
theorem C44_first_not (h : c.Reachable E k w) (hr : Range E c first last p q) (Ts : List Ty) (P : Passed V → Bool) :
    ∃ it p' n, (Algo.findIfNot (m := Id) E c Ts first last P).run = some it ∧ c.At E it p' ∧ c.abs.rank p' = c.abs.rank p + n ∧
      (it.segpos ≠ last.segpos → ∃ a, (seen Ts c.abs p q)[n]? = some a ∧ (!P a) = true) ∧
      (it.segpos = last.segpos ↔ n = (seen Ts c.abs p q).length) ∧ ∀ a ∈ (seen Ts c.abs p q).take n, (!P a) = false := by
  refine first_of h hr Ts (fun a => !P a) ?_
  have := C44_find_if_not (m := Id) h hr Ts P
  rwa [show StdAlg.findIfNot (m := Id) P (seen Ts c.abs p q) = _ from StdAlg.findIfNot_pure (m := Id) P _] at this

example (k : Kind) := C44_first_not (Sample.reach0 k) (range0 k) [2] fun x => x.val != 7

/-- The same for `find_first_of`. -/
theorem C44_first_of {B : Type} (h : c.Reachable E k w) (hr : Range E c first last p q) (Ts : List Ty) (bs : List B) (P : Passed V → B → Bool) :
    ∃ it p' n, (Algo.findFirstOf (m := Id) E c Ts first last bs P).run = some it ∧ c.At E it p' ∧ c.abs.rank p' = c.abs.rank p + n ∧
      (it.segpos ≠ last.segpos → ∃ a, (seen Ts c.abs p q)[n]? = some a ∧ bs.any (P a) = true) ∧
      (it.segpos = last.segpos ↔ n = (seen Ts c.abs p q).length) ∧ ∀ a ∈ (seen Ts c.abs p q).take n, bs.any (P a) = false := by
  refine first_of h hr Ts (fun a => bs.any (P a)) ?_
  have := C44_find_first_of (m := Id) h hr Ts bs P
  have hp : (fun a => StdAlg.anyOf (m := Id) (P a) bs) = fun a => (pure (bs.any (P a)) : Id Bool) :=
    funext fun a => StdAlg.anyOf_pure (m := Id) (P a) bs
  rw [show StdAlg.findFirstOf (m := Id) P bs (seen Ts c.abs p q) = StdAlg.findIf (m := Id) (fun a => StdAlg.anyOf (m := Id) (P a) bs) (seen Ts c.abs p q) from rfl,
    hp, StdAlg.findIf_pure] at this
  exact this

/-- The search for 7 stops at the element after the empty segment, that for 9 at the end. -/
example (k : Kind) : ∃ it it', (Algo.findIf (m := Id) Sample.E0 (Sample.c0 k) [2] (Sample.iter k 2) (Sample.c0 k).end fun x => x.val == 7).run = some it ∧
    it.segpos = (Sample.iter k 4).segpos ∧
    (Algo.findFirstOf (m := Id) Sample.E0 (Sample.c0 k) [2] (Sample.iter k 2) (Sample.c0 k).end [9, 1] fun x y => x.val == y).run = some it' ∧
    it'.segpos = (Sample.c0 k).end.segpos := by
  have hx := C44_find_if (m := Id) (Sample.reach0 k) (range0 k) [2] fun x => x.val == 7
  have hy := C44_find_first_of (m := Id) (Sample.reach0 k) (range0 k) [2] [9, 1] fun x y => x.val == y
  rw [seen0, rank0] at hx hy
  obtain ⟨it, p1, h1, h2, h3⟩ := hx.id
  obtain ⟨it', p2, h4, h5, h6⟩ := hy.id
  refine ⟨it, it', h1, (AtRank.eq Sample.E0 ((Sample.reach0 k).inv.core _) ⟨p1, h2, h3⟩ ⟨_, Sample.iter_four k, ?_⟩).2 rfl, h4,
    (AtRank.eq Sample.E0 ((Sample.reach0 k).inv.core _) ⟨p2, h5, h6⟩ ⟨_, Sample.iter_end k, ?_⟩).2 rfl⟩
  · rw [Sample.abs0]; rfl
  · rw [Sample.abs0]; rfl

/-! ### C46 -/

/-- **C46.**  `count_if`, and `count`, are `std::count_if` on the elements of the range. -/
theorem C46_count_if (h : c.Reachable E k w) (hr : Range E c first last p q) (Ts : List Ty) (P : Passed V → m Bool) :
    (Algo.countIf E c Ts first last P).run = some <$> StdAlg.countIf P (seen Ts c.abs p q) := by
  rw [← Range.seen]
  exact (countIf_from E h.inv Ts P hr.at hr.last hr.le).eq

/-- The result for predicates without effects. -/
theorem C46_number (h : c.Reachable E k w) (hr : Range E c first last p q) (Ts : List Ty) (P : Passed V → Bool) :
    (Algo.countIf E c Ts first last fun x => (pure (P x) : m Bool)).run = pure (some ((seen Ts c.abs p q).countP P)) := by
  rw [C46_count_if h hr, StdAlg.countIf_pure, map_pure]

example (k : Kind) := C46_number (m := Id) (Sample.reach0 k) (range0 k) [0] fun x => x.val ≥ 3

/-- The internal distance is the number of increments that lead from `first` to `last`, which is
the number of elements of the range. -/
theorem C46_distance (h : c.Reachable E k w) (hr : Range E c first last p q) :
    fastDistance E c first last = some (c.abs.rank q - c.abs.rank p) ∧ distance E c last first (c.size + 1) = some (c.abs.rank q - c.abs.rank p) ∧
      (c.abs.between p q).length = c.abs.rank q - c.abs.rank p := by
  have hq := Spec.State.rank_le (hr.last.valid E h.map)
  refine ⟨fastDistance_eq E h.inv hr.first hr.last hr.le,
    distance_eq E h.inv ⟨q, hr.last, rfl⟩ hq _ first _ hr.at hr.le (by rw [size_abs]; omega), ?_⟩
  have := hr.length h []
  unfold seen at this
  rwa [List.length_map] at this

example (k : Kind) : (Algo.countIf Sample.E0 (Sample.c0 k) [0] (Sample.iter k 2) (Sample.c0 k).end (logged fun x => x.val ≥ 3)).run [] =
    (some 2, [⟨0, 2, true⟩, ⟨0, 3, true⟩, ⟨2, 7, false⟩]) ∧
    fastDistance Sample.E0 (Sample.c0 k) (Sample.iter k 2) (Sample.c0 k).end = some 3 := by
  refine ⟨by rw [C46_count_if (Sample.reach0 k) (range0 k), seen0]; rfl, ?_⟩
  rw [(C46_distance (Sample.reach0 k) (range0 k)).1, Sample.abs0]; rfl

/-! ### C47 -/

/-- **C47.**  `mismatch` with four iterators finds the place `std::mismatch` finds, with the same
calls of the predicate, and returns the same iterator into the second range. -/
theorem C47_mismatch4 {B : Type} (h : c.Reachable E k w) (hr : Range E c first last p q) (Ts : List Ty) (bs : List B) (P : Passed V → B → m Bool) :
    FindsBoth E c (c.abs.rank p) (Algo.mismatch4 E c Ts first last bs P) (StdAlg.mismatch P (seen Ts c.abs p q) bs) := by
  have hs := mismatch4_from E h.inv Ts P hr.at hr.last hr.le bs
  rw [Range.seen] at hs
  exact hs.mono (S := fun x y => AtRank E c x.1 (c.abs.rank p + y.1) ∧ x.2 = y.2) fun x y hx => ⟨hx.1, hx.2.1⟩

example (k : Kind) := C47_mismatch4 (m := Id) (Sample.reach0 k) (range0 k) [0] [2, 3, 8, 1] fun x y => x.val == y

/-- **C47** for `mismatch` with three iterators, where the second range is long enough. -/
theorem C47_mismatch3 {B : Type} (h : c.Reachable E k w) (hr : Range E c first last p q) (Ts : List Ty) (bs : List B)
    (hb : (c.abs.between p q).length ≤ bs.length) (P : Passed V → B → m Bool) :
    FindsBoth E c (c.abs.rank p) (Algo.mismatch3 E c Ts first last bs P) (StdAlg.mismatch P (seen Ts c.abs p q) bs) := by
  rw [(C46_distance h hr).2.2] at hb
  have hs := mismatch3_from E h.inv Ts P hr.at hr.last hr.le bs hb
  rw [Range.seen] at hs
  exact hs.mono (S := fun x y => AtRank E c x.1 (c.abs.rank p + y.1) ∧ x.2 = y.2) fun x y hx => ⟨hx.1, hx.2.1⟩

example (k : Kind) := C47_mismatch3 (m := Id) (Sample.reach0 k) (range0 k) [0] [2, 3, 8, 1] (by rw [Sample.abs0]; decide) fun x y => x.val == y

theorem differ_of {B : Type} (h : c.Reachable E k w) (hr : Range E c first last p q) (Ts : List Ty) (bs : List B) (P : Passed V → B → Bool)
    {x : OptionT Id (GIter × List B)} {N : Nat}
    (hs : Sim (m := Id) (fun x y => AtRank E c x.1 (c.abs.rank p + y.1) ∧ x.2 = y.2 ∧ y.1 ≤ N) x (StdAlg.mismatch (m := Id) P (seen Ts c.abs p q) bs)) :
    ∃ it p' n, x.run = some (it, bs.drop n) ∧ c.At E it p' ∧ c.abs.rank p' = c.abs.rank p + n ∧
      (it.segpos = last.segpos ↔ n = (seen Ts c.abs p q).length) ∧
      StdAlg.Both (fun a b => P a b = true) ((seen Ts c.abs p q).take n) (bs.take n) ∧
      ∀ a b, (seen Ts c.abs p q)[n]? = some a → bs[n]? = some b → P a b = false := by
  obtain ⟨n, h1, h2, h3, h4, h5⟩ := StdAlg.mismatch_pure (m := Id) P (seen Ts c.abs p q) bs
  rw [show StdAlg.mismatch (m := Id) P (seen Ts c.abs p q) bs = _ from h1] at hs
  obtain ⟨⟨it, r⟩, h6, ⟨p', h7, h8⟩, h9, -⟩ := hs.id
  have h9 : r = bs.drop n := h9
  subst h9
  exact ⟨it, p', n, h6, h7, h8, hr.isLast h Ts h7 h8, h4, h5⟩

/-- **C47** for predicates without effects: the ranges match up to the places found, and the
elements there do not match. -/
theorem C47_first_difference {B : Type} (h : c.Reachable E k w) (hr : Range E c first last p q) (Ts : List Ty) (bs : List B) (P : Passed V → B → Bool) :
    ∃ it p' n, (Algo.mismatch4 (m := Id) E c Ts first last bs P).run = some (it, bs.drop n) ∧ c.At E it p' ∧ c.abs.rank p' = c.abs.rank p + n ∧
      (it.segpos = last.segpos ↔ n = (seen Ts c.abs p q).length) ∧
      StdAlg.Both (fun a b => P a b = true) ((seen Ts c.abs p q).take n) (bs.take n) ∧
      ∀ a b, (seen Ts c.abs p q)[n]? = some a → bs[n]? = some b → P a b = false := by
  have hs := mismatch4_from (m := Id) E h.inv Ts P hr.at hr.last hr.le bs
  rw [Range.seen] at hs
  exact differ_of h hr Ts bs P hs

example (k : Kind) := C47_first_difference (Sample.reach0 k) (range0 k) [0] [2, 3, 8, 1] fun x y => x.val == y

/-- The same with three iterators. -/
theorem C47_first_difference3 {B : Type} (h : c.Reachable E k w) (hr : Range E c first last p q) (Ts : List Ty) (bs : List B)
    (hb : (c.abs.between p q).length ≤ bs.length) (P : Passed V → B → Bool) :
    ∃ it p' n, (Algo.mismatch3 (m := Id) E c Ts first last bs P).run = some (it, bs.drop n) ∧ c.At E it p' ∧ c.abs.rank p' = c.abs.rank p + n ∧
      (it.segpos = last.segpos ↔ n = (seen Ts c.abs p q).length) ∧
      StdAlg.Both (fun a b => P a b = true) ((seen Ts c.abs p q).take n) (bs.take n) ∧
      ∀ a b, (seen Ts c.abs p q)[n]? = some a → bs[n]? = some b → P a b = false := by
  rw [(C46_distance h hr).2.2] at hb
  have hs := mismatch3_from (m := Id) E h.inv Ts P hr.at hr.last hr.le bs hb
  rw [Range.seen] at hs
  exact differ_of h hr Ts bs P hs

example (k : Kind) := C47_first_difference3 (Sample.reach0 k) (range0 k) [0] [2, 3, 8, 1] (by rw [Sample.abs0]; decide) fun x y => x.val == y

/-- **C47** for `equal` with four iterators. -/
theorem C47_equal4 {B : Type} (h : c.Reachable E k w) (hr : Range E c first last p q) (Ts : List Ty) (bs : List B) (P : Passed V → B → m Bool) :
    (Algo.equal4 E c Ts first last bs P).run = some <$> StdAlg.equal P (seen Ts c.abs p q) bs := by
  obtain ⟨ps, h1, h2⟩ := hr.cut h
  exact (Sim.defd h1 (equal4In_sim E (h.inv.core E) Ts P h2 bs)).eq

/-- **C47** for `equal` with three iterators, where the second range is long enough. -/
theorem C47_equal3 {B : Type} (h : c.Reachable E k w) (hr : Range E c first last p q) (Ts : List Ty) (bs : List B)
    (hb : (c.abs.between p q).length ≤ bs.length) (P : Passed V → B → m Bool) :
    (Algo.equal3 E c Ts first last bs P).run = some <$> StdAlg.equal P (seen Ts c.abs p q) (bs.take (c.abs.between p q).length) := by
  obtain ⟨ps, h1, h2⟩ := hr.cut h
  have : (Algo.equal3 E c Ts first last bs P).run = _ := (Sim.defd h1 (equal3In_sim E (h.inv.core E) Ts P h2 bs hb)).eq
  rw [StdAlg.equalPart_take _ _ _ (by rw [passed_length]; exact hb), passed_length] at this
  exact this

/-- What that means for predicates without effects. -/
theorem C47_coincide {B : Type} (h : c.Reachable E k w) (hr : Range E c first last p q) (Ts : List Ty) (bs : List B) (P : Passed V → B → Bool) :
    (∃ b, (Algo.equal4 E c Ts first last bs fun x y => (pure (P x y) : m Bool)).run = pure (some b) ∧
      (b = true ↔ StdAlg.Both (fun x y => P x y = true) (seen Ts c.abs p q) bs)) ∧
    ((c.abs.between p q).length ≤ bs.length → ∃ b, (Algo.equal3 E c Ts first last bs fun x y => (pure (P x y) : m Bool)).run = pure (some b) ∧
      (b = true ↔ StdAlg.Both (fun x y => P x y = true) (seen Ts c.abs p q) (bs.take (c.abs.between p q).length))) := by
  constructor
  · obtain ⟨b, h1, h2⟩ := StdAlg.equal_pure (m := m) P (seen Ts c.abs p q) bs
    exact ⟨b, by rw [C47_equal4 h hr, h1, map_pure], h2⟩
  · intro hb
    obtain ⟨b, h1, h2⟩ := StdAlg.equal_pure (m := m) P (seen Ts c.abs p q) (bs.take (c.abs.between p q).length)
    exact ⟨b, by rw [C47_equal3 h hr Ts bs hb, h1, map_pure], h2⟩

/-- The elements 2, 3, 7 against 2, 3, 8, 1: the difference is after the empty segment. -/
example (k : Kind) : ((Sample.c0 k).abs.between (some (0, 1)) none).length ≤ [2, 3, 8, 1].length ∧
    (∃ it, (Algo.mismatch3 (m := Id) Sample.E0 (Sample.c0 k) [0] (Sample.iter k 2) (Sample.c0 k).end [2, 3, 8, 1] fun x y => x.val == y).run = some (it, [8, 1]) ∧
      it.segpos = (Sample.iter k 4).segpos) ∧
    (Algo.equal3 (m := Id) Sample.E0 (Sample.c0 k) [0] (Sample.iter k 2) (Sample.c0 k).end [2, 3, 7, 1] fun x y => x.val == y).run = some true ∧
    (Algo.equal4 (m := Id) Sample.E0 (Sample.c0 k) [0] (Sample.iter k 2) (Sample.c0 k).end [2, 3, 7, 1] fun x y => x.val == y).run = some false := by
  have hb : ((Sample.c0 k).abs.between (some (0, 1)) none).length = 3 := by rw [Sample.abs0]; rfl
  refine ⟨by rw [hb]; decide, ?_, ?_, ?_⟩
  · have hs := mismatch3_from (m := Id) (B := Nat) Sample.E0 (Sample.reach0 k).inv [0] (fun x y => x.val == y) (range0 k).at (range0 k).last (range0 k).le
      [2, 3, 8, 1] (by rw [Sample.abs0]; decide)
    rw [Range.seen, seen0, rank0] at hs
    obtain ⟨⟨it, bs⟩, h1, h2, h3, -⟩ := hs.id
    have h3 : bs = [8, 1] := h3
    subst h3
    exact ⟨it, h1, (AtRank.eq Sample.E0 ((Sample.reach0 k).inv.core _) h2 ⟨_, Sample.iter_four k, by rw [Sample.abs0]; rfl⟩).2 rfl⟩
  · rw [C47_equal3 (Sample.reach0 k) (range0 k) _ _ (by rw [hb]; decide), seen0, hb]; rfl
  · rw [C47_equal4 (Sample.reach0 k) (range0 k), seen0]; rfl

end
end PolyColl.Props
