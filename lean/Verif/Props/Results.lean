import Verif.Lemmas.Results
import Verif.Props.AlgorithmsMore
/-!
# Property C93: predicates may answer with any type that can be converted to bool
-/

namespace PolyColl.Props
open PolyColl Prog Coll Algo

variable {V : Type} {E : Env V} {k : Kind} {m : Type → Type} [Monad m] [LawfulMonad m] {W Y B : Type}
variable {c : Coll V} {w : World} {first last : GIter} {p q : Spec.State.Pos}

/-- What the documentation has the algorithms do: the predicate is called, with the element as a `T&` or a `value_type&`, and
its answer converted to `bool`. -/
def tested (A : Answers Y W) (ask : Passed V → Y → m W) (x : Passed V) (y : Y) : m Bool :=
  A.truth (A.type (if x.typed = true then some x.ty else none) y).num <$> ask x y

omit [LawfulMonad m] in
theorem plain_eq [LawfulMonad m] (A : Answers Y W) (ask : Passed V → Y → m W) : A.plain ask = tested A ask := by
  funext x y
  rw [Answers.plain, tested, map_eq_pure_bind]

/-- For the types `Ts` it does no harm to convert answers to the type of those for a `value_type&`, nor to return references. -/
def Harmless (A : Answers Y W) (Ts : List Ty) : Prop :=
  ∀ y, ∀ t ∈ Ts,
    ((A.type none y).ref = true → A.type (some t) y = A.type none y) ∧
    ((A.type (some t) y).num ≠ (A.type none y).num →
      ∀ a, A.truth (A.type none y).num (A.conv (A.type (some t) y).num (A.type none y).num a) = A.truth (A.type (some t) y).num a)

/-- It does no harm if the type does not depend on the argument. -/
theorem harmless_of_same {A : Answers Y W} (Ts : List Ty) (h : ∀ t y, A.type (some t) y = A.type none y) : Harmless A Ts :=
  fun y t _ => ⟨fun _ => h t y, fun hn => absurd (by rw [h t y]) hn⟩

theorem Harmless.test {A : Answers Y W} {Ts : List Ty} (h : Harmless A Ts) (ask : Passed V → Y → m W) (x : Passed V) (y : Y) :
    A.test ask Ts x y = call (tested A ask (asListed Ts x) y) := by
  rw [← plain_eq]
  refine test_eq (fun t ht a => ?_) ask x
  obtain ⟨h1, h2⟩ := h y t ht
  unfold Answers.returned
  cases hd : (A.type none y).ref
  · by_cases hn : (A.type (some t) y).num = (A.type none y).num
    · exact ⟨a, by simp [hn], by rw [hn]⟩
    · exact ⟨_, by simp [hn], h2 hn a⟩
  · have := h1 hd
    exact ⟨a, by simp [this, hd], by rw [this]⟩

theorem asListed_seen {Ts : List Ty} {s : Spec.State V} {x : Passed V} (h : x ∈ seen Ts s p q) : asListed Ts x = x := by
  obtain ⟨y, _, rfl⟩ := List.mem_map.1 h
  rfl

/-- Bisection of a range of three. -/
theorem partitionPoint_three {X : Type} (P : X → Bool) (x y z : X) :
    StdAlg.partitionPoint (m := Id) P [x, y, z] = if P y then (if P z then 3 else 2) else (if P x then 1 else 0) := by
  have h0 : StdAlg.partitionPoint (m := Id) (fun x => pure (P x)) [] = pure 0 := StdAlg.partitionPoint_none rfl
  have h1 : ∀ u, StdAlg.partitionPoint (m := Id) (fun x => pure (P x)) [u] = pure (if P u then 1 else 0) := by
    intro u
    rw [StdAlg.partitionPoint_some (a := u) (by simp)]
    cases hu : P u <;> simp [h0]
  have : StdAlg.partitionPoint (m := Id) (fun x => pure (P x)) [x, y, z] = pure (if P y then (if P z then 3 else 2) else (if P x then 1 else 0)) := by
    rw [StdAlg.partitionPoint_some (a := y) (by simp)]
    cases hy : P y <;> cases hz : P z <;> simp [h1, hz]
  exact this

namespace Sample

/-- A predicate that answers an `int` (type 0) for a `T&` and an `unsigned char` (type 1) for a `value_type&`. -/
def intOrByte (Y : Type) : Answers Y Nat :=
  { type := fun t _ => ⟨if t.isSome then 0 else 1, false⟩, conv := fun s d n => if s = 0 ∧ d = 1 then n % 256 else n, truth := fun _ n => n ≠ 0 }

/-- A predicate that answers a `bool` (type 2) for a `T&` and a `const bool&` for a `value_type&`. -/
def boolOrRef (Y : Type) : Answers Y Nat :=
  { type := fun t _ => ⟨2, t.isNone⟩, conv := fun _ _ n => n, truth := fun _ n => n ≠ 0 }

/-- A predicate that answers an `int` for a `T&` and a `bool` for a `value_type&`: converted to `bool`, everything but zero is 1. -/
def intOrBool (Y : Type) : Answers Y Nat :=
  { type := fun t _ => ⟨if t.isSome then 0 else 2, false⟩, conv := fun s d n => if s ≠ d ∧ d = 2 then (if n = 0 then 0 else 1) else n, truth := fun _ n => n ≠ 0 }

/-- Answers yes, 256 for a `T&` and 1 for a `value_type&`. -/
def always (x : Passed Nat) (_ : Unit) : Nat := if x.typed then 256 else 1

/-- The answer, in the same way, whether the two are equal. -/
def same (x y : Passed Nat) : Nat := if x.val = y.val then (if x.typed then 256 else 1) else 0

def sameAs (x : Passed Nat) (y : Nat) : Nat := if x.val = y then (if x.typed then 256 else 1) else 0

theorem intOrBool_harmless (Y : Type) (Ts : List Ty) : Harmless (intOrBool Y) Ts := by
  intro y t _
  refine And.intro (fun h => by cases h) fun _ a => ?_
  by_cases ha : a = 0 <;> simp [intOrBool, ha]

theorem same_matching {A : Answers (Passed Nat) Nat} {A' : Answers Nat Nat} (h : ∀ n a, A.truth n a = decide (a ≠ 0)) (h' : ∀ n a, A'.truth n a = decide (a ≠ 0)) :
    StdAlg.Matching (tested (m := Id) A same) (tested (m := Id) A' sameAs) := by
  have e : tested (m := Id) A same = fun x y => decide (x.val = y.val) := by
    funext x y
    show A.truth _ (same x y) = _
    rw [h, same]
    by_cases hv : x.val = y.val <;> cases x.typed <;> simp [hv]
  have e' : tested (m := Id) A' sameAs = fun x y => decide (x.val = y) := by
    funext x y
    show A'.truth _ (sameAs x y) = _
    rw [h', sameAs]
    by_cases hv : x.val = y <;> cases x.typed <;> simp [hv]
  rw [e, e']
  constructor <;> simp <;> omega

end Sample

/-- **C93** for `partition_point`: it is `std::partition_point`, the predicate called and its answers tested as they are, if these
may be converted to the type of the answers for a `value_type&`. -/
theorem C93_partition_point_partial (h : c.Reachable E k w) (hr : Range E c first last p q) {Ts : List Ty} {A : Answers Unit W} (hA : Harmless A Ts)
    (ask : Passed V → Unit → m W) :
    Finds E c (c.abs.rank p) (partitionPointBy E A c Ts first last ask)
      (StdAlg.partitionPoint (fun x => tested A ask x ()) (seen Ts c.abs p q)) := by
  have he : partitionPointBy E A c Ts first last ask = Algo.partitionPoint E c Ts first last fun x => tested A ask (asListed Ts x) () := by
    unfold partitionPointBy Algo.partitionPoint
    have : partitionPointPredBy E A c Ts ask = partitionPointPred E c Ts fun x => tested A ask (asListed Ts x) () := by
      funext it
      unfold partitionPointPredBy partitionPointPred
      simp only [hA.test]
    rw [this]
  rw [he, StdAlg.partitionPoint_congr (p' := fun x => tested A ask (asListed Ts x) ()) _ _ rfl fun x hx => by rw [asListed_seen hx]]
  exact C54_partition_point h hr Ts _

example (k : Kind) := C93_partition_point_partial (m := Id) (Sample.reach0 k) (range0 k) (Sample.intOrBool_harmless Unit [0]) Sample.always

/-- Without references the result is, in any case, that for the answers converted. -/
theorem C93_converted (h : c.Reachable E k w) (hr : Range E c first last p q) (Ts : List Ty) {A : Answers Unit W} (hA : (A.type none ()).ref = false)
    (hc : ∀ n a, A.conv n n a = a) (ask : Passed V → Unit → m W) :
    Finds E c (c.abs.rank p) (partitionPointBy E A c Ts first last ask)
      (StdAlg.partitionPoint (fun x => (fun a => A.truth (A.type none ()).num
        (A.conv (A.type (if x.typed = true then some x.ty else none) ()).num (A.type none ()).num a)) <$> ask x ()) (seen Ts c.abs p q)) := by
  -- the predicate that converts its answers itself
  let A' : Answers Unit W := { type := fun _ _ => A.type none (), conv := A.conv, truth := A.truth }
  let ask' : Passed V → Unit → m W := fun x _ =>
    A.conv (A.type (if x.typed = true then some x.ty else none) ()).num (A.type none ()).num <$> ask x ()
  have ht : ∀ x, A.test ask Ts x () = A'.test ask' Ts x () := by
    intro x
    have : ∀ Us, A.restituted ask x () Us = A'.restituted ask' x () Us := by
      intro Us
      induction Us with
      | nil =>
        apply OptionT.ext
        simp only [Answers.restituted, call, OptionT.run_mk, ask', Bool.false_eq_true, if_false, Functor.map_map, hc]
      | cons t ts ih =>
        rw [Answers.restituted, Answers.restituted]
        by_cases hx : x.ty = t
        · rw [if_pos hx, if_pos hx]
          apply OptionT.ext
          subst hx
          simp only [call, defd, OptionT.run_bind, OptionT.run_mk, Option.elimM, bind_map_left, Option.elim_some, ask', A', if_true, Answers.returned, hA,
            Bool.false_eq_true, if_false]
          refine bind_congr fun a => ?_
          by_cases hn : (A.type (some x.ty) ()).num = (A.type none ()).num
          · simp only [hn, hc, if_true]
          · simp only [hn, if_false]
        · rw [if_neg hx, if_neg hx]; exact ih
    unfold Answers.test
    rw [this]
  have he : partitionPointBy E A c Ts first last ask = partitionPointBy E A' c Ts first last ask' := by
    unfold partitionPointBy
    have : partitionPointPredBy E A c Ts ask = partitionPointPredBy E A' c Ts ask' := by
      funext it
      unfold partitionPointPredBy
      simp only [ht]
    rw [this]
  rw [he]
  have := C93_partition_point_partial h hr (harmless_of_same (A := A') Ts fun _ _ => rfl) ask'
  simpa only [tested, ask', A', Functor.map_map] using this

example (k : Kind) := C93_converted (m := Id) (Sample.reach0 k) (range0 k) [0] (A := Sample.intOrByte Unit) rfl
  (fun n a => by simp only [Sample.intOrByte]; rw [if_neg (by omega)]) Sample.always

/-- Predicates whose answers are of any types convertible to `bool`: false.  All elements satisfy the predicate, but the answer 256 becomes
0 as an `unsigned char`, and the result is the beginning. -/
theorem C93_partition_point_false (k : Kind) :
    StdAlg.partitionPoint (m := Id) (fun x => tested (Sample.intOrByte Unit) Sample.always x ()) (seen [0] (Sample.c0 k).abs (some (0, 1)) none) = 3 ∧
    ∃ it, (partitionPointBy (m := Id) Sample.E0 (Sample.intOrByte Unit) (Sample.c0 k) [0] (Sample.iter k 2) (Sample.c0 k).end Sample.always).run = some it ∧
      it.segpos = (Sample.iter k 2).segpos := by
  refine ⟨by rw [seen0, partitionPoint_three]; rfl, ?_⟩
  have hs := C93_converted (m := Id) (Sample.reach0 k) (range0 k) [0] (A := Sample.intOrByte Unit) rfl
    (fun n a => by simp only [Sample.intOrByte]; rw [if_neg (by omega)]) Sample.always
  rw [seen0, rank0, partitionPoint_three] at hs
  obtain ⟨it, p', h1, h2, h3⟩ := hs.id
  exact ⟨it, h1, (AtRank.eq Sample.E0 ((Sample.reach0 k).inv.core _) ⟨p', h2, h3⟩ ⟨_, Sample.iter_two k, rank0 k⟩).2 rfl⟩

/-- A reference for a `value_type&`, a value for a `T&`: the reference to the answer refers to an object that is gone. -/
theorem C93_dangling (k : Kind) :
    StdAlg.partitionPoint (m := Id) (fun x => tested (Sample.boolOrRef Unit) Sample.always x ()) (seen [0] (Sample.c0 k).abs (some (0, 1)) none) = 3 ∧
    (partitionPointBy (m := Id) Sample.E0 (Sample.boolOrRef Unit) (Sample.c0 k) [0] (Sample.iter k 2) (Sample.c0 k).end Sample.always).run = none := by
  refine ⟨by rw [seen0, partitionPoint_three]; rfl, ?_⟩
  have : Option.isNone (partitionPointBy (m := Id) Sample.E0 (Sample.boolOrRef Unit) (Sample.c0 k) [0] (Sample.iter k 2) (Sample.c0 k).end Sample.always).run = true := by
    cases k <;> decide +kernel
  exact Option.isNone_iff_eq_none.1 this

/-- **C93** for `is_permutation` with four iterators. -/
theorem C93_is_permutation4_partial (h : c.Reachable E k w) (hr : Range E c first last p q) {Ts : List Ty} {A : Answers (Passed V) W} {A' : Answers B W}
    (hA : Harmless A Ts) (hA' : Harmless A' Ts) {ask : Passed V → Passed V → W} {ask' : Passed V → B → W}
    (hpq : StdAlg.Matching (tested (m := Id) A ask) (tested (m := Id) A' ask')) (bs : List B) :
    ∃ b, (isPermutation4By (m := Id) E A A' c Ts first last bs ask ask').run.run = some (some b) ∧
      (b = true ↔ StdAlg.Permuted (tested (m := Id) A' ask') (seen Ts c.abs p q) bs) := by
  rw [← Range.seen]
  have := isPermutation4By_option h.inv Ts hpq (p := A.test (m := Id) ask Ts) (p2 := A'.test (m := Id) ask' Ts)
    (fun x => by funext y; rw [hA.test (m := Id)]; rfl) (fun x => by funext y; rw [hA'.test (m := Id)]; rfl) hr.at hr.last hr.le bs
  have he : (fun x y => call (A'.plain (m := Id) ask' x y)) = fun x y => (pure (tested (m := Id) A' ask' x y) : OptionT Id Bool) := by
    rw [plain_eq]; rfl
  unfold isPermutation4By
  rw [he]
  exact this

/-- **C93** for `is_permutation` with three iterators. -/
theorem C93_is_permutation3_partial (h : c.Reachable E k w) (hr : Range E c first last p q) {Ts : List Ty} {A : Answers (Passed V) W} {A' : Answers B W}
    (hA : Harmless A Ts) (hA' : Harmless A' Ts) {ask : Passed V → Passed V → W} {ask' : Passed V → B → W}
    (hpq : StdAlg.Matching (tested (m := Id) A ask) (tested (m := Id) A' ask')) (bs : List B) (hb : (c.abs.between p q).length ≤ bs.length) :
    ∃ b, (isPermutation3By (m := Id) E A A' c Ts first last bs ask ask').run.run = some (some b) ∧
      (b = true ↔ StdAlg.Permuted (tested (m := Id) A' ask') (seen Ts c.abs p q) (bs.take (c.abs.between p q).length)) := by
  rw [(C46_distance h hr).2.2] at hb
  rw [← Range.seen, (C46_distance h hr).2.2]
  have := isPermutation3By_option h.inv Ts hpq (p := A.test (m := Id) ask Ts) (p2 := A'.test (m := Id) ask' Ts)
    (fun x => by funext y; rw [hA.test (m := Id)]; rfl) (fun x => by funext y; rw [hA'.test (m := Id)]; rfl) hr.at hr.last hr.le bs hb
  have he : (fun x y => call (A'.plain (m := Id) ask' x y)) = fun x y => (pure (tested (m := Id) A' ask' x y) : OptionT Id Bool) := by
    rw [plain_eq]; rfl
  unfold isPermutation3By
  rw [he]
  exact this

example (k : Kind) := C93_is_permutation4_partial (Sample.reach0 k) (range0 k) (Sample.intOrBool_harmless _ [0]) (Sample.intOrBool_harmless _ [0])
  (Sample.same_matching (fun _ _ => rfl) fun _ _ => rfl) [7, 2, 3]

example (k : Kind) := C93_is_permutation3_partial (Sample.reach0 k) (range0 k) (Sample.intOrBool_harmless _ [0]) (Sample.intOrBool_harmless _ [0])
  (Sample.same_matching (fun _ _ => rfl) fun _ _ => rfl) [7, 2, 3, 3] (by rw [Sample.abs0]; decide)

/-- The elements 2, 3, 7 are a permutation of 7, 2, 3.  With answers that are cut off, `is_permutation` says they are not; with references the
behaviour is undefined. -/
theorem C93_is_permutation_false (k : Kind) :
    StdAlg.Permuted (tested (m := Id) (Sample.intOrByte Nat) Sample.sameAs) (seen [0] (Sample.c0 k).abs (some (0, 1)) none) [7, 2, 3] ∧
    StdAlg.Permuted (tested (m := Id) (Sample.boolOrRef Nat) Sample.sameAs) (seen [0] (Sample.c0 k).abs (some (0, 1)) none) [7, 2, 3] ∧
    (isPermutation4By (m := Id) Sample.E0 (Sample.intOrByte _) (Sample.intOrByte _) (Sample.c0 k) [0] (Sample.iter k 2) (Sample.c0 k).end [7, 2, 3]
      Sample.same Sample.sameAs).run.run = some (some false) ∧
    (isPermutation4By (m := Id) Sample.E0 (Sample.boolOrRef _) (Sample.boolOrRef _) (Sample.c0 k) [0] (Sample.iter k 2) (Sample.c0 k).end [7, 2, 3]
      Sample.same Sample.sameAs).run.run = none := by
  rw [seen0]
  refine ⟨⟨[⟨2, 7, false⟩, ⟨0, 2, true⟩, ⟨0, 3, true⟩], by decide, .cons rfl (.cons rfl (.cons rfl .nil))⟩,
    ⟨[⟨2, 7, false⟩, ⟨0, 2, true⟩, ⟨0, 3, true⟩], by decide, .cons rfl (.cons rfl (.cons rfl .nil))⟩, ?_, ?_⟩
  · show (_ : Option (Option Bool)) = _
    cases k <;> decide +kernel
  · show (_ : Option (Option Bool)) = _
    cases k <;> decide +kernel

end PolyColl.Props
