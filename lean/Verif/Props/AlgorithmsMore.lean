import Verif.Lemmas.AlgoUnique
import Verif.Props.Algorithms
/-!
# Properties C45 and C48 to C54: more algorithms
-/

namespace PolyColl.Props
open PolyColl Prog Coll Algo

variable {V : Type} {E : Env V} {k : Kind} {m : Type → Type} [Monad m] [LawfulMonad m]
variable {c : Coll V} {w : World} {first last : GIter} {p q : Spec.State.Pos}

/-! ### C45 -/

/-- Two consecutive elements as `adjacent_find` gives them to the predicate: the second one as what
it is if its type is one of `Ts`, the first one too if both are in the same segment, but as a
`value_type&` if it is in another one. -/
def asNeighbours (Ts : List Ty) (P : Passed V → Passed V → m Bool) (x y : Ty × V) : m Bool :=
  P ⟨x.1, x.2, x.1 == y.1 && Ts.contains x.1⟩ ⟨y.1, y.2, Ts.contains y.1⟩

omit [Monad m] [LawfulMonad m] in
theorem nextTo_eq (Ts : List Ty) (P : Passed V → Passed V → m Bool) : nextTo Ts P = asNeighbours Ts P := by
  funext x y
  unfold nextTo asNeighbours Passed.of
  by_cases h : x.1 = y.1
  · rw [if_pos h]; simp [h]
  · rw [if_neg h]
    have : (x.1 == y.1) = false := by simpa using h
    rw [this, Bool.false_and]

/-- **C45**, for any predicate: `adjacent_find` finds what `std::adjacent_find` finds, with the same
calls, up to the way in which elements are given to the predicate (see `asNeighbours`). -/
theorem C45_adjacent_find (h : c.Reachable E k w) (hr : Range E c first last p q) (Ts : List Ty) (P : Passed V → Passed V → m Bool) :
    Finds E c (c.abs.rank p) (Algo.adjacentFind E c Ts first last P) (StdAlg.adjacentFind (asNeighbours Ts P) (c.abs.between p q)) := by
  rw [between_eq, ← nextTo_eq]
  exact adjacentFind_sim E h.inv Ts P hr.at hr.last hr.le

example (k : Kind) := C45_adjacent_find (m := Id) (Sample.reach0 k) (range0 k) [0] fun x y => x.val + 4 == y.val

/-- **C45.**  For a predicate that does not distinguish how its first argument is given to it (if it
is of a type to be restituted), `adjacent_find` is `std::adjacent_find` on the elements of the range. -/
theorem C45_adjacent_find_std (h : c.Reachable E k w) (hr : Range E c first last p q) (Ts : List Ty) (P : Passed V → Passed V → m Bool)
    (hP : ∀ t ∈ Ts, ∀ v y, P ⟨t, v, false⟩ y = P ⟨t, v, true⟩ y) :
    Finds E c (c.abs.rank p) (Algo.adjacentFind E c Ts first last P) (StdAlg.adjacentFind P (seen Ts c.abs p q)) := by
  have := C45_adjacent_find h hr Ts P
  unfold seen
  rw [StdAlg.adjacentFind_map]
  refine StdAlg.adjacentFind_congr _ (asNeighbours Ts P) _ (fun x _ y _ => ?_) ▸ this
  unfold asNeighbours
  by_cases hx : x.1 ∈ Ts
  · have hc : Ts.contains x.1 = true := by simpa using hx
    rw [hc]
    cases x.1 == y.1
    · exact (hP _ hx _ _).symm
    · rfl
  · have hc : Ts.contains x.1 = false := by simpa using hx
    rw [hc, Bool.and_false]

/-- **C45** for such predicates without effects: the first position at which the element and the
next one satisfy the predicate; `last` if there is none. -/
theorem C45_first (h : c.Reachable E k w) (hr : Range E c first last p q) (Ts : List Ty) (P : Passed V → Passed V → Bool)
    (hP : ∀ t ∈ Ts, ∀ v y, P ⟨t, v, false⟩ y = P ⟨t, v, true⟩ y) :
    ∃ it p' n, (Algo.adjacentFind (m := Id) E c Ts first last P).run = some it ∧ c.At E it p' ∧ c.abs.rank p' = c.abs.rank p + n ∧
      (it.segpos ≠ last.segpos → ∃ a b, (seen Ts c.abs p q)[n]? = some a ∧ (seen Ts c.abs p q)[n + 1]? = some b ∧ P a b = true) ∧
      (it.segpos = last.segpos ↔ n = (seen Ts c.abs p q).length) ∧
      ∀ (j : Nat) a b, j < n → (seen Ts c.abs p q)[j]? = some a → (seen Ts c.abs p q)[j + 1]? = some b → P a b = false := by
  have hs := C45_adjacent_find_std (m := Id) h hr Ts P hP
  obtain ⟨n, h1, h2, h3, h4⟩ := StdAlg.adjacentFind_pure (m := Id) P (seen Ts c.abs p q)
  rw [show StdAlg.adjacentFind (m := Id) P (seen Ts c.abs p q) = n from h1] at hs
  obtain ⟨it, p', h5, h6, h7⟩ := hs.id
  have hl := hr.isLast h Ts h6 h7
  exact ⟨it, p', n, h5, h6, h7, fun hne => h3 (Nat.lt_of_le_of_ne h2 fun e => hne (hl.2 e)), hl, fun j a b hj => h4 j hj a b⟩

/-- The elements 3 and 7 with an empty segment between them. -/
example (k : Kind) : ∃ it, (Algo.adjacentFind (m := Id) Sample.E0 (Sample.c0 k) [0, 2] (Sample.iter k 2) (Sample.c0 k).end
      fun x y => x.val + 4 == y.val).run = some it ∧ it.segpos = (Sample.iter k 3).segpos := by
  have hs := C45_adjacent_find_std (m := Id) (Sample.reach0 k) (range0 k) [0, 2] (fun x y => x.val + 4 == y.val) fun _ _ _ _ => rfl
  rw [seen0, rank0] at hs
  obtain ⟨it, p', h1, h2, h3⟩ := hs.id
  exact ⟨it, h1, (AtRank.eq Sample.E0 ((Sample.reach0 k).inv.core _) ⟨p', h2, h3⟩ ⟨_, Sample.iter_three k, by rw [Sample.abs0]; rfl⟩).2 rfl⟩

/-! ### C48 -/

/-- **C48.**  `is_permutation` with four iterators, for an equivalence that compares elements of the
collection with each other (`P`) and with those of the second range (`Q`): the result is true if and
only if the elements of the range can be reordered so that they match those of the second range. -/
theorem C48_is_permutation4 {B : Type} (h : c.Reachable E k w) (hr : Range E c first last p q) (Ts : List Ty) {P : Passed V → Passed V → Bool}
    {Q : Passed V → B → Bool} (hpq : StdAlg.Matching P Q) (bs : List B) :
    ∃ b, (Algo.isPermutation4 (m := Id) E c Ts first last bs P Q).run = some b ∧ (b = true ↔ StdAlg.Permuted Q (seen Ts c.abs p q) bs) := by
  rw [← Range.seen]
  exact isPermutation4_id E h.inv Ts hpq hr.at hr.last hr.le bs

/-- **C48** for three iterators, where the second range is long enough. -/
theorem C48_is_permutation3 {B : Type} (h : c.Reachable E k w) (hr : Range E c first last p q) (Ts : List Ty) {P : Passed V → Passed V → Bool}
    {Q : Passed V → B → Bool} (hpq : StdAlg.Matching P Q) (bs : List B) (hb : (c.abs.between p q).length ≤ bs.length) :
    ∃ b, (Algo.isPermutation3 (m := Id) E c Ts first last bs P Q).run = some b ∧
      (b = true ↔ StdAlg.Permuted Q (seen Ts c.abs p q) (bs.take (c.abs.between p q).length)) := by
  rw [(C46_distance h hr).2.2] at hb
  rw [← Range.seen, (C46_distance h hr).2.2]
  exact isPermutation3_id E h.inv Ts hpq hr.at hr.last hr.le bs hb

/-- The elements 2, 3, 7 are a permutation of 7, 2, 3, the first three elements of 7, 2, 3, 3. -/
example (k : Kind) : StdAlg.Matching (fun x y : Passed Nat => x.val == y.val) (fun x y => x.val == y) ∧
    (Algo.isPermutation4 (m := Id) Sample.E0 (Sample.c0 k) [0] (Sample.iter k 2) (Sample.c0 k).end [7, 2, 3] (fun x y => x.val == y.val)
      fun x y => x.val == y).run = some true ∧
    (Algo.isPermutation4 (m := Id) Sample.E0 (Sample.c0 k) [0] (Sample.iter k 2) (Sample.c0 k).end [7, 2, 2] (fun x y => x.val == y.val)
      fun x y => x.val == y).run = some false ∧
    (Algo.isPermutation3 (m := Id) Sample.E0 (Sample.c0 k) [0] (Sample.iter k 2) (Sample.c0 k).end [7, 2, 3, 3] (fun x y => x.val == y.val)
      fun x y => x.val == y).run = some true := by
  have hm : StdAlg.Matching (fun x y : Passed Nat => x.val == y.val) (fun x y => x.val == y) := by
    constructor <;> simp <;> omega
  have hb : ((Sample.c0 k).abs.between (some (0, 1)) none).length = 3 := by rw [Sample.abs0]; rfl
  have hp : StdAlg.Permuted (fun (x : Passed Nat) y => x.val == y) [⟨0, 2, true⟩, ⟨0, 3, true⟩, ⟨2, 7, false⟩] [7, 2, 3] :=
    ⟨[⟨2, 7, false⟩, ⟨0, 2, true⟩, ⟨0, 3, true⟩], by decide, .cons rfl (.cons rfl (.cons rfl .nil))⟩
  have hn : ¬ StdAlg.Permuted (fun (x : Passed Nat) y => x.val == y) [⟨0, 2, true⟩, ⟨0, 3, true⟩, ⟨2, 7, false⟩] [7, 2, 2] := by
    rw [StdAlg.permuted_count hm]
    intro h
    exact absurd (h.2 ⟨0, 2, true⟩ (by simp)) (by decide)
  refine ⟨hm, ?_, ?_, ?_⟩
  · obtain ⟨b, h1, h2⟩ := C48_is_permutation4 (Sample.reach0 k) (range0 k) [0] hm [7, 2, 3]
    rw [seen0] at h2
    rw [h1, h2.2 hp]
  · obtain ⟨b, h1, h2⟩ := C48_is_permutation4 (Sample.reach0 k) (range0 k) [0] hm [7, 2, 2]
    rw [seen0] at h2
    rw [h1, Bool.eq_false_iff.2 fun e => hn (h2.1 e)]
  · obtain ⟨b, h1, h2⟩ := C48_is_permutation3 (Sample.reach0 k) (range0 k) [0] hm [7, 2, 3, 3] (by rw [hb]; decide)
    rw [seen0, hb] at h2
    rw [h1, h2.2 hp]

/-! ### C49 -/

/-- **C49.**  `search` is `std::search` on the elements of the range. -/
theorem C49_search {B : Type} (h : c.Reachable E k w) (hr : Range E c first last p q) (Ts : List Ty) (bs : List B) (P : Passed V → B → m Bool) :
    Finds E c (c.abs.rank p) (Algo.search E c Ts first last bs P) (StdAlg.search P bs (seen Ts c.abs p q)) := by
  rw [← Range.seen]
  exact Finds.of ((search_from E h.inv Ts P hr.at hr.last hr.le bs).mono fun x n hx => hx.1)

/-- **C49** for `find_end`. -/
theorem C49_find_end {B : Type} (h : c.Reachable E k w) (hr : Range E c first last p q) (Ts : List Ty) (bs : List B) (P : Passed V → B → m Bool) :
    Finds E c (c.abs.rank p) (Algo.findEnd E c Ts first last bs P) (StdAlg.findEnd P bs (seen Ts c.abs p q)) := by
  rw [← Range.seen]
  exact Finds.of (findEnd_sim E h.inv Ts P hr.at hr.last hr.le bs)

/-- **C49** for predicates without effects: `search` gives the first place where the pattern occurs,
or `last`.  The empty pattern occurs everywhere, hence it is found at `first`. -/
theorem C49_first_occurrence {B : Type} (h : c.Reachable E k w) (hr : Range E c first last p q) (Ts : List Ty) (bs : List B) (P : Passed V → B → Bool) :
    ∃ it p' n, (Algo.search (m := Id) E c Ts first last bs P).run = some it ∧ c.At E it p' ∧ c.abs.rank p' = c.abs.rank p + n ∧
      (it.segpos ≠ last.segpos → StdAlg.Occurs P bs (seen Ts c.abs p q) n) ∧
      (it.segpos = last.segpos ↔ n = (seen Ts c.abs p q).length) ∧ ∀ j < n, ¬ StdAlg.Occurs P bs (seen Ts c.abs p q) j := by
  have hs := C49_search (m := Id) h hr Ts bs P
  obtain ⟨n, h1, h2, h3, h4⟩ := StdAlg.search_pure (m := Id) P bs (seen Ts c.abs p q)
  rw [show StdAlg.search (m := Id) P bs (seen Ts c.abs p q) = n from h1] at hs
  obtain ⟨it, p', h5, h6, h7⟩ := hs.id
  have hl := hr.isLast h Ts h6 h7
  exact ⟨it, p', n, h5, h6, h7, fun hne => h3 (Nat.lt_of_le_of_ne h2 fun e => hne (hl.2 e)), hl, h4⟩

example (k : Kind) := C49_first_occurrence (Sample.reach0 k) (range0 k) [0] [3, 7] fun x y => x.val == y

/-- **C49** for predicates without effects: `find_end` gives the last place where a pattern that is
not empty occurs, or `last`; and `last` for the empty pattern. -/
theorem C49_last_occurrence {B : Type} (h : c.Reachable E k w) (hr : Range E c first last p q) (Ts : List Ty) (bs : List B) (P : Passed V → B → Bool) :
    (bs = [] → (Algo.findEnd (m := Id) E c Ts first last bs P).run = some last) ∧
    (bs ≠ [] → ∃ it p' n, (Algo.findEnd (m := Id) E c Ts first last bs P).run = some it ∧ c.At E it p' ∧ c.abs.rank p' = c.abs.rank p + n ∧
      (it.segpos ≠ last.segpos → StdAlg.Occurs P bs (seen Ts c.abs p q) n ∧ ∀ j > n, ¬ StdAlg.Occurs P bs (seen Ts c.abs p q) j) ∧
      (it.segpos = last.segpos → ∀ j, ¬ StdAlg.Occurs P bs (seen Ts c.abs p q) j)) := by
  refine ⟨by rintro rfl; rfl, fun hb => ?_⟩
  have hs := C49_find_end (m := Id) h hr Ts bs P
  obtain ⟨n, h1, h2, h3, h4, h5⟩ := StdAlg.findEnd_pure (m := Id) P bs (seen Ts c.abs p q) hb
  rw [show StdAlg.findEnd (m := Id) P bs (seen Ts c.abs p q) = n from h1] at hs
  obtain ⟨it, p', h6, h7, h8⟩ := hs.id
  have hl := hr.isLast h Ts h7 h8
  exact ⟨it, p', n, h6, h7, h8, fun hne => ⟨h3 (Nat.lt_of_le_of_ne h2 fun e => hne (hl.2 e)), h4⟩, fun e => h5 (hl.1 e)⟩

/-- The pattern 3, 7 is found across the empty segment; the last odd element is 7. -/
example (k : Kind) : ∃ it it', (Algo.search (m := Id) Sample.E0 (Sample.c0 k) [0] (Sample.iter k 2) (Sample.c0 k).end [3, 7] fun x y => x.val == y).run = some it ∧
    it.segpos = (Sample.iter k 3).segpos ∧
    (Algo.findEnd (m := Id) Sample.E0 (Sample.c0 k) [0] (Sample.iter k 2) (Sample.c0 k).end [1] fun x y => x.val % 2 == y).run = some it' ∧
    it'.segpos = (Sample.iter k 4).segpos := by
  have hx := C49_search (m := Id) (B := Nat) (Sample.reach0 k) (range0 k) [0] [3, 7] fun x y => x.val == y
  have hy := C49_find_end (m := Id) (B := Nat) (Sample.reach0 k) (range0 k) [0] [1] fun x y => x.val % 2 == y
  rw [seen0, rank0] at hx hy
  obtain ⟨it, p1, h1, h2, h3⟩ := hx.id
  obtain ⟨it', p2, h4, h5, h6⟩ := hy.id
  have h6' : (Sample.c0 k).abs.rank p2 = 2 + 2 := by
    obtain ⟨n, g1, g2, g3, g4, g5⟩ := StdAlg.findEnd_pure (m := Id) (fun (x : Passed Nat) (y : Nat) => x.val % 2 == y) [1]
      [⟨0, 2, [0].contains 0⟩, ⟨0, 3, [0].contains 0⟩, ⟨2, 7, [0].contains 2⟩] (by simp)
    have g6 : StdAlg.Occurs (fun (x : Passed Nat) (y : Nat) => x.val % 2 == y) [1]
      [⟨0, 2, [0].contains 0⟩, ⟨0, 3, [0].contains 0⟩, ⟨2, 7, [0].contains 2⟩] 2 := ⟨by decide, .cons rfl .nil⟩
    have g7 : ¬ n < 2 := fun hn => g4 2 hn g6
    have g8 : n ≠ 3 := fun e => g5 e 2 g6
    have g2 : n ≤ 3 := g2
    have h6 := h6.trans (congrArg (2 + ·) g1)
    rw [h6]
    show 2 + n = 4
    omega
  exact ⟨it, it', h1, (AtRank.eq Sample.E0 ((Sample.reach0 k).inv.core _) ⟨p1, h2, h3⟩ ⟨_, Sample.iter_three k, by rw [Sample.abs0]; rfl⟩).2 rfl, h4,
    (AtRank.eq Sample.E0 ((Sample.reach0 k).inv.core _) ⟨p2, h5, h6'⟩ ⟨_, Sample.iter_four k, by rw [Sample.abs0]; rfl⟩).2 rfl⟩

/-! ### C50 -/

/-- **C50.**  `search_n` is `std::search_n` on the elements of the range. -/
theorem C50_search_n (h : c.Reachable E k w) (hr : Range E c first last p q) (Ts : List Ty) (count : Int) (P : Passed V → m Bool) :
    Finds E c (c.abs.rank p) (Algo.searchN E c Ts first last count P) (StdAlg.searchN P count (seen Ts c.abs p q)) := by
  rw [← Range.seen]
  exact Finds.of (searchN_sim E h.inv Ts P count hr.at hr.last hr.le)

/-- **C50** for predicates without effects: the first place where a run of `count` elements with the
property starts, or `last`; and `first` if `count` is not positive. -/
theorem C50_first_run (h : c.Reachable E k w) (hr : Range E c first last p q) (Ts : List Ty) (count : Int) (P : Passed V → Bool) :
    (count ≤ 0 → (Algo.searchN (m := Id) E c Ts first last count P).run = some first) ∧
    (0 < count → ∃ it p' n, (Algo.searchN (m := Id) E c Ts first last count P).run = some it ∧ c.At E it p' ∧ c.abs.rank p' = c.abs.rank p + n ∧
      (it.segpos ≠ last.segpos → StdAlg.RunAt P count.toNat (seen Ts c.abs p q) n) ∧
      (it.segpos = last.segpos ↔ n = (seen Ts c.abs p q).length) ∧ ∀ j < n, ¬ StdAlg.RunAt P count.toNat (seen Ts c.abs p q) j) := by
  refine ⟨fun hc => by unfold Algo.searchN; rw [if_pos hc]; rfl, fun hc => ?_⟩
  have hs := C50_search_n (m := Id) h hr Ts count P
  obtain ⟨n, h1, h2, h3, h4⟩ := StdAlg.searchN_pure (m := Id) P count (seen Ts c.abs p q) hc
  rw [show StdAlg.searchN (m := Id) P count (seen Ts c.abs p q) = n from h1] at hs
  obtain ⟨it, p', h5, h6, h7⟩ := hs.id
  have hl := hr.isLast h Ts h6 h7
  exact ⟨it, p', n, h5, h6, h7, fun hne => h3 (Nat.lt_of_le_of_ne h2 fun e => hne (hl.2 e)), hl, h4⟩

/-- Two odd elements in a row, in different segments. -/
example (k : Kind) : ∃ it, (Algo.searchN (m := Id) Sample.E0 (Sample.c0 k) [0] (Sample.iter k 2) (Sample.c0 k).end 2 fun x => x.val % 2 == 1).run = some it ∧
    it.segpos = (Sample.iter k 3).segpos := by
  have hx := C50_search_n (m := Id) (Sample.reach0 k) (range0 k) [0] 2 fun x => x.val % 2 == 1
  rw [seen0, rank0] at hx
  obtain ⟨it, p1, h1, h2, h3⟩ := hx.id
  exact ⟨it, h1, (AtRank.eq Sample.E0 ((Sample.reach0 k).inv.core _) ⟨p1, h2, h3⟩ ⟨_, Sample.iter_three k, by rw [Sample.abs0]; rfl⟩).2 rfl⟩

/-! ### C51 -/

/-- An output iterator that appends to a list. -/
def appendTo {A : Type} (o : List A) (a : A) : m (List A) := pure (o ++ [a])

omit [LawfulMonad m] in
theorem appendTo_eq {A : Type} : (appendTo : List A → A → m (List A)) = StdAlg.append := rfl

section copies
variable {O O' W B : Type}

theorem plain_of (h : c.Reachable E k w) (hr : Range E c first last p q) (Ts : List Ty) {alg : List (Passed V) → O → m O} (hnil : ∀ o, alg [] o = pure o)
    (happ : ∀ l l' o, alg (l ++ l') o = alg l o >>= alg l') (o : O) :
    (genericCopy E c Ts first last (plain alg) o ()).run = some <$> alg (seen Ts c.abs p q) o := by
  obtain ⟨ps, h1, h2⟩ := hr.cut h
  exact (Sim.defd h1 (plain_sim E (h.inv.core E) Ts hnil happ h2 o)).eq

/-- **C51.**  `copy`, and `move`, are what `std::copy` is on the elements of the range: the same
elements are written in the same order. -/
theorem C51_copy (h : c.Reachable E k w) (hr : Range E c first last p q) (Ts : List Ty) (out : O → Passed V → m O) (o : O) :
    (Algo.copy E c Ts first last out o).run = some <$> StdAlg.copy out (seen Ts c.abs p q) o :=
  plain_of h hr Ts (fun _ => rfl) (StdAlg.copy_append out) o

example (k : Kind) := C51_copy (m := Id) (Sample.reach0 k) (range0 k) [0] appendTo []

/-- **C51** for `copy_n`, where there are at least `n` elements from `p` on. -/
theorem C51_copy_n (h : c.Reachable E k w) (hf : c.At E first p) (n : Int) (hn : c.abs.rank p + n.toNat ≤ c.size) (Ts : List Ty)
    (out : O → Passed V → m O) (o : O) :
    (Algo.copyN E c Ts first n out o).run = some <$> StdAlg.copy out ((seen Ts c.abs p none).take n.toNat) o := by
  rw [size_abs] at hn
  have ht : (seen Ts c.abs p none).take n.toNat = passed Ts ((c.abs.typedFlat.drop (c.abs.rank p)).take n.toNat) := by
    unfold seen Spec.State.between passed
    rw [← List.map_take, List.take_take]
    congr 2
    rw [rank_none]; omega
  rw [ht]
  exact (copyN_sim E h.inv Ts hf n hn out o).eq

/-- **C51** for `copy_if`. -/
theorem C51_copy_if (h : c.Reachable E k w) (hr : Range E c first last p q) (Ts : List Ty) (out : O → Passed V → m O) (o : O) (P : Passed V → m Bool) :
    (Algo.copyIf E c Ts first last out o P).run = some <$> StdAlg.copyIf out P (seen Ts c.abs p q) o :=
  plain_of h hr Ts (fun _ => rfl) (StdAlg.copyIf_append out P) o

/-- **C51** for `transform` of one range. -/
theorem C51_transform (h : c.Reachable E k w) (hr : Range E c first last p q) (Ts : List Ty) (out : O → W → m O) (o : O) (op : Passed V → m W) :
    (Algo.transform E c Ts first last out o op).run = some <$> StdAlg.transform out op (seen Ts c.abs p q) o :=
  plain_of h hr Ts (fun _ => rfl) (StdAlg.transform_append out op) o

example (k : Kind) := C51_transform (m := Id) (Sample.reach0 k) (range0 k) [0] appendTo [] fun x => x.val * 2

/-- **C51** for `transform` of two ranges, the second one long enough. -/
theorem C51_transform2 (h : c.Reachable E k w) (hr : Range E c first last p q) (Ts : List Ty) (bs : List B)
    (hb : (c.abs.between p q).length ≤ bs.length) (out : O → W → m O) (o : O) (op : Passed V → B → m W) :
    (Algo.transform2 E c Ts first last bs out o op).run = some <$> StdAlg.transform2 out op (seen Ts c.abs p q) bs o := by
  obtain ⟨ps, h1, h2⟩ := hr.cut h
  exact (Sim.defd h1 (transform2In_sim E (h.inv.core E) Ts out op h2 o bs hb)).eq

/-- **C51** for `replace_copy_if` and `replace_copy`. -/
theorem C51_replace_copy_if (h : c.Reachable E k w) (hr : Range E c first last p q) (Ts : List Ty) (out : O → Passed V → m O) (outNew : O → m O)
    (o : O) (P : Passed V → m Bool) :
    (Algo.replaceCopyIf E c Ts first last out outNew o P).run = some <$> StdAlg.replaceCopyIf out outNew P (seen Ts c.abs p q) o :=
  plain_of h hr Ts (fun _ => rfl) (StdAlg.replaceCopyIf_append out outNew P) o

example (k : Kind) := C51_replace_copy_if (m := Id) (Sample.reach0 k) (range0 k) [0] appendTo (appendTo · ⟨0, 4, true⟩) [] fun x => x.val == 3

/-- **C51** for `remove_copy_if` and `remove_copy`. -/
theorem C51_remove_copy_if (h : c.Reachable E k w) (hr : Range E c first last p q) (Ts : List Ty) (out : O → Passed V → m O) (o : O)
    (P : Passed V → m Bool) :
    (Algo.removeCopyIf E c Ts first last out o P).run = some <$> StdAlg.removeCopyIf out P (seen Ts c.abs p q) o :=
  plain_of h hr Ts (fun _ => rfl) (StdAlg.removeCopyIf_append out P) o

example (k : Kind) := C51_remove_copy_if (m := Id) (Sample.reach0 k) (range0 k) [0] appendTo [] fun x => x.val == 3

/-- **C51** for `rotate_copy`. -/
theorem C51_rotate_copy {middle : GIter} {q' : Spec.State.Pos} (h : c.Reachable E k w) (hr : Range E c first middle p q') (hr' : Range E c middle last q' q)
    (Ts : List Ty) (out : O → Passed V → m O) (o : O) :
    (Algo.rotateCopy E c Ts first middle last out o).run =
      some <$> StdAlg.rotateCopy out (seen Ts c.abs p q') (seen Ts c.abs q' q) o := by
  unfold Algo.rotateCopy
  rw [OptionT.run_bind, C51_copy h hr']
  simp only [Option.elimM, bind_map_left, Option.elim_some, StdAlg.rotateCopy, map_bind]
  exact bind_congr fun o => C51_copy h hr Ts out o

example (k : Kind) := C51_rotate_copy (m := Id) (Sample.reach0 k) (range1 k) (range2 k) [0, 2] appendTo []

/-- **C51** for `partition_copy`. -/
theorem C51_partition_copy (h : c.Reachable E k w) (hr : Range E c first last p q) (Ts : List Ty) (out : O → Passed V → m O)
    (out' : O' → Passed V → m O') (o : O) (o' : O') (P : Passed V → m Bool) :
    (Algo.partitionCopy E c Ts first last out out' o o' P).run = some <$> StdAlg.partitionCopy out out' P (seen Ts c.abs p q) o o' := by
  obtain ⟨ps, h1, h2⟩ := hr.cut h
  exact (Sim.defd h1 (partitionCopyIn_sim E (h.inv.core E) Ts out out' P h2 o o')).eq

example (k : Kind) := C51_partition_copy (m := Id) (Sample.reach0 k) (range0 k) [0] appendTo appendTo [] [] fun x => x.val == 3

end copies

/-- **C51** for functors without effects and output iterators that append to a list. -/
theorem C51_written {W B : Type} (h : c.Reachable E k w) (hr : Range E c first last p q) (Ts : List Ty) (P : Passed V → Bool) (x : Passed V)
    (f : Passed V → W) (g : Passed V → B → W) (bs : List B) (hb : (c.abs.between p q).length ≤ bs.length) :
    (Algo.copy (m := m) E c Ts first last appendTo []).run = pure (some (seen Ts c.abs p q)) ∧
    (Algo.copyIf (m := m) E c Ts first last appendTo [] fun a => pure (P a)).run = pure (some ((seen Ts c.abs p q).filter P)) ∧
    (Algo.removeCopyIf (m := m) E c Ts first last appendTo [] fun a => pure (P a)).run = pure (some ((seen Ts c.abs p q).filter fun a => !P a)) ∧
    (Algo.replaceCopyIf (m := m) E c Ts first last appendTo (fun o => appendTo o x) [] fun a => pure (P a)).run =
      pure (some ((seen Ts c.abs p q).map fun a => if P a then x else a)) ∧
    (Algo.transform (m := m) E c Ts first last appendTo [] fun a => pure (f a)).run = pure (some ((seen Ts c.abs p q).map f)) ∧
    (Algo.transform2 (m := m) E c Ts first last bs appendTo [] fun a b => pure (g a b)).run = pure (some (List.zipWith g (seen Ts c.abs p q) bs)) ∧
    (Algo.partitionCopy (m := m) E c Ts first last appendTo appendTo [] [] fun a => pure (P a)).run =
      pure (some ((seen Ts c.abs p q).filter P, (seen Ts c.abs p q).filter fun a => !P a)) := by
  simp only [C51_copy h hr, C51_copy_if h hr, C51_remove_copy_if h hr, C51_replace_copy_if h hr, C51_transform h hr, C51_transform2 h hr Ts bs hb,
    C51_partition_copy h hr, appendTo_eq, StdAlg.copy_append_list, StdAlg.copyIf_pure, StdAlg.removeCopyIf_pure, StdAlg.replaceCopyIf_pure,
    StdAlg.transform_pure, StdAlg.transform2_pure, StdAlg.partitionCopy_pure, List.nil_append, map_pure, and_self]

example (k : Kind) := C51_written (m := Id) (Sample.reach0 k) (range0 k) [0] (fun x => x.val == 3) ⟨0, 4, true⟩ (fun x => x.val) (fun x y => x.val + y) [1, 2, 3] (by rw [Sample.abs0]; decide)

/-- **C51** likewise for `rotate_copy`. -/
theorem C51_rotated {middle : GIter} {q' : Spec.State.Pos} (h : c.Reachable E k w) (hr : Range E c first middle p q') (hr' : Range E c middle last q' q)
    (Ts : List Ty) :
    (Algo.rotateCopy (m := m) E c Ts first middle last appendTo []).run = pure (some (seen Ts c.abs q' q ++ seen Ts c.abs p q')) := by
  rw [C51_rotate_copy h hr hr', appendTo_eq, StdAlg.rotateCopy_pure, map_pure, List.nil_append]

/-- The range 2, 3, 7, and its rotation from 3 on; and the first four elements of all. -/
example (k : Kind) : ((Sample.c0 k).abs.between (some (0, 1)) none).length ≤ [1, 1, 2, 2].length ∧
    (Algo.copyIf (m := Id) Sample.E0 (Sample.c0 k) [2] (Sample.iter k 2) (Sample.c0 k).end appendTo [] fun x => x.val % 2 == 1).run =
      some [⟨0, 3, false⟩, ⟨2, 7, true⟩] ∧
    (Algo.transform2 (m := Id) Sample.E0 (Sample.c0 k) [2] (Sample.iter k 2) (Sample.c0 k).end [1, 1, 2, 2] appendTo [] fun x y => x.val + y).run =
      some [3, 4, 9] ∧
    (Algo.rotateCopy (m := Id) Sample.E0 (Sample.c0 k) [] (Sample.iter k 2) (Sample.iter k 3) (Sample.c0 k).end appendTo []).run =
      some [⟨0, 3, false⟩, ⟨2, 7, false⟩, ⟨0, 2, false⟩] ∧
    (Algo.copyN (m := Id) Sample.E0 (Sample.c0 k) [0] (Sample.iter k 0) 4 appendTo []).run =
      some [⟨1, 9, false⟩, ⟨0, 1, true⟩, ⟨0, 2, true⟩, ⟨0, 3, true⟩] := by
  have hb : ((Sample.c0 k).abs.between (some (0, 1)) none).length = 3 := by rw [Sample.abs0]; rfl
  have hs : (Sample.c0 k).size = 5 := by cases k <;> rfl
  have h1 : Range Sample.E0 (Sample.c0 k) (Sample.iter k 2) (Sample.iter k 3) (some (0, 1)) (some (0, 2)) :=
    ⟨Sample.iter_two k, Sample.iter_three k, by rw [Sample.abs0]; decide⟩
  have h2 : Range Sample.E0 (Sample.c0 k) (Sample.iter k 3) (Sample.c0 k).end (some (0, 2)) none :=
    ⟨Sample.iter_three k, Sample.iter_end k, by rw [Sample.abs0]; decide⟩
  refine ⟨by rw [hb]; decide, ?_, ?_, ?_, ?_⟩
  · rw [C51_copy_if (Sample.reach0 k) (range0 k), seen0]; rfl
  · rw [C51_transform2 (Sample.reach0 k) (range0 k) _ _ (by rw [hb]; decide), seen0]; rfl
  · rw [C51_rotated (Sample.reach0 k) h1 h2, Sample.abs0]; rfl
  · rw [C51_copy_n (Sample.reach0 k) (Sample.iter_zero k) 4 (by rw [hs, Sample.abs0]; decide), Sample.abs0]; rfl

/-! ### C52 -/

/-- **C52.**  For an equivalence that does not distinguish how its first argument is given to it (if it is
of a type to be restituted), `unique_copy` writes what `std::unique_copy` writes for the elements of the
range. -/
theorem C52_unique_copy {O : Type} (h : c.Reachable E k w) (hr : Range E c first last p q) (Ts : List Ty) (out : O → Passed V → m O) (o : O)
    {P : Passed V → Passed V → Bool} (hP : StdAlg.Sameness P) (hU : ∀ t ∈ Ts, ∀ v y, P ⟨t, v, false⟩ y = P ⟨t, v, true⟩ y) :
    (Algo.uniqueCopy E c Ts first last out o fun x y => pure (P x y)).run =
      some <$> StdAlg.uniqueCopy out (fun x y => pure (P x y)) (seen Ts c.abs p q) o := by
  obtain ⟨ps, h1, h2⟩ := hr.cut h
  refine (Sim.defd h1 ((uniqueCopyIn_sim E (h.inv.core E) Ts out hP (fun x y => ?_) h2).1 o none)).eq
  unfold Passed.of
  cases hx : Ts.contains x.1
  · rfl
  · exact hU _ (by simpa using hx) _ _

example (k : Kind) := C52_unique_copy (m := Id) (Sample.reach0 k) (range0 k) [2] appendTo [] (P := fun x y => x.val % 2 == y.val % 2) (by constructor <;> simp <;> omega) fun _ _ _ _ => rfl

/-- **C52**: these are the first elements of the groups of consecutive equivalent elements. -/
theorem C52_groups (h : c.Reachable E k w) (hr : Range E c first last p q) (Ts : List Ty) {P : Passed V → Passed V → Bool} (hP : StdAlg.Sameness P)
    (hU : ∀ t ∈ Ts, ∀ v y, P ⟨t, v, false⟩ y = P ⟨t, v, true⟩ y) :
    (Algo.uniqueCopy (m := m) E c Ts first last appendTo [] fun x y => pure (P x y)).run = pure (some (StdAlg.heads P (seen Ts c.abs p q))) := by
  rw [C52_unique_copy h hr Ts _ _ hP hU]
  have := StdAlg.uniqueCopy_heads (m := m) hP (seen Ts c.abs p q) []
  rw [List.nil_append] at this
  rw [← map_pure, ← this]
  rfl

/-- The odd elements 3 and 7 are one group, though in different segments. -/
example (k : Kind) : StdAlg.Sameness (fun x y : Passed Nat => x.val % 2 == y.val % 2) ∧
    (Algo.uniqueCopy (m := Id) Sample.E0 (Sample.c0 k) [2] (Sample.iter k 2) (Sample.c0 k).end appendTo [] fun x y => x.val % 2 == y.val % 2).run =
      some [⟨0, 2, false⟩, ⟨0, 3, false⟩] := by
  have hS : StdAlg.Sameness (fun x y : Passed Nat => x.val % 2 == y.val % 2) := by constructor <;> simp <;> omega
  refine ⟨hS, ?_⟩
  have := C52_groups (m := Id) (Sample.reach0 k) (range0 k) [2] hS fun _ _ _ _ => rfl
  rw [seen0] at this
  exact this

/-! ### C53 -/

/-- **C53.**  `sample` is selection sampling on the elements of the range, with the same draws. -/
theorem C53_sample {O : Type} (h : c.Reachable E k w) (hr : Range E c first last p q) (Ts : List Ty) (out : O → Passed V → m O) (o : O) (n : Nat)
    (rnd : (j : Nat) → m (Fin (j + 1))) :
    (Algo.sample E c Ts first last out o n rnd).run = some <$> StdAlg.sample out rnd (seen Ts c.abs p q) (min n (c.abs.between p q).length) o := by
  obtain ⟨ps, h1, h2⟩ := hr.cut h
  have hd := (C46_distance h hr).1
  rw [← (C46_distance h hr).2.2] at hd
  exact (Sim.defd hd (Sim.defd h1 (sampleIn_sim E (h.inv.core E) Ts out rnd h2 o _))).eq

/-- **C53**: whatever is drawn, the elements written are some of the range in their order, each at
most once, and `n` of them or all if there are less. -/
theorem C53_subsequence (h : c.Reachable E k w) (hr : Range E c first last p q) (Ts : List Ty) (n : Nat) (rnd : (j : Nat) → m (Fin (j + 1))) :
    ∃ z : m {s : List (Passed V) // s.Sublist (seen Ts c.abs p q) ∧ s.length = min n (c.abs.between p q).length},
      (Algo.sample E c Ts first last appendTo [] n rnd).run = (fun s => some s.1) <$> z := by
  rw [C53_sample h hr, appendTo_eq]
  have hl : (seen Ts c.abs p q).length = (c.abs.between p q).length := by unfold seen; rw [List.length_map]
  obtain ⟨z, hz⟩ := StdAlg.sample_results rnd (seen Ts c.abs p q) (min n (c.abs.between p q).length) []
  refine ⟨(fun s => ⟨s.1, ?_⟩) <$> z, by rw [hz, Functor.map_map, Functor.map_map]⟩
  obtain ⟨s, h1, h2, h3⟩ := s.2
  rw [List.nil_append] at h1
  rw [h1]
  refine ⟨h2, h3.trans ?_⟩
  rw [hl]; omega

/-- Draws of 0 take the first two elements, those of the highest number possible the last two. -/
example (k : Kind) :
    (Algo.sample (m := Id) Sample.E0 (Sample.c0 k) [2] (Sample.iter k 2) (Sample.c0 k).end appendTo [] 2 fun _ => 0).run =
      some [⟨0, 2, false⟩, ⟨0, 3, false⟩] ∧
    (Algo.sample (m := Id) Sample.E0 (Sample.c0 k) [2] (Sample.iter k 2) (Sample.c0 k).end appendTo [] 2 fun j => Fin.last j).run =
      some [⟨0, 3, false⟩, ⟨2, 7, true⟩] := by
  have hb : ((Sample.c0 k).abs.between (some (0, 1)) none).length = 3 := by rw [Sample.abs0]; rfl
  rw [C53_sample (Sample.reach0 k) (range0 k), C53_sample (Sample.reach0 k) (range0 k), seen0, hb]
  exact ⟨rfl, rfl⟩

/-! ### C54 -/

/-- **C54.**  `is_partitioned` is `std::is_partitioned` on the elements of the range. -/
theorem C54_is_partitioned (h : c.Reachable E k w) (hr : Range E c first last p q) (Ts : List Ty) (P : Passed V → m Bool) :
    (Algo.isPartitioned E c Ts first last P).run = some <$> StdAlg.isPartitioned P (seen Ts c.abs p q) := by
  rw [← Range.seen]
  exact (isPartitioned_sim E h.inv Ts P hr.at hr.last hr.le).eq

example (k : Kind) := C54_is_partitioned (m := Id) (Sample.reach0 k) (range0 k) [0] fun x => decide (x.val < 3)

/-- For predicates without effects it tells whether the elements satisfying it precede the others. -/
theorem C54_partitioned (h : c.Reachable E k w) (hr : Range E c first last p q) (Ts : List Ty) (P : Passed V → Bool) :
    ∃ b, (Algo.isPartitioned E c Ts first last fun x => (pure (P x) : m Bool)).run = pure (some b) ∧
      (b = true ↔ StdAlg.Partitioned P (seen Ts c.abs p q)) := by
  obtain ⟨b, h1, h2⟩ := StdAlg.isPartitioned_pure (m := m) P (seen Ts c.abs p q)
  exact ⟨b, by rw [C54_is_partitioned h hr, h1, map_pure], h2⟩

/-- **C54.**  `partition_point` is `std::partition_point`, done by bisection, on the elements of the range. -/
theorem C54_partition_point (h : c.Reachable E k w) (hr : Range E c first last p q) (Ts : List Ty) (P : Passed V → m Bool) :
    Finds E c (c.abs.rank p) (Algo.partitionPoint E c Ts first last P) (StdAlg.partitionPoint P (seen Ts c.abs p q)) := by
  rw [← Range.seen]
  exact Finds.of (partitionPoint_sim E h.inv Ts P hr.at hr.last hr.le)

example (k : Kind) := C54_partition_point (m := Id) (Sample.reach0 k) (range0 k) [0] fun x => decide (x.val < 3)

/-- For predicates without effects it gives the boundary of a range that is partitioned. -/
theorem C54_boundary (h : c.Reachable E k w) (hr : Range E c first last p q) (Ts : List Ty) (P : Passed V → Bool)
    (hp : StdAlg.Partitioned P (seen Ts c.abs p q)) :
    ∃ it p' n, (Algo.partitionPoint (m := Id) E c Ts first last P).run = some it ∧ c.At E it p' ∧ c.abs.rank p' = c.abs.rank p + n ∧
      n ≤ (seen Ts c.abs p q).length ∧ (∀ a ∈ (seen Ts c.abs p q).take n, P a = true) ∧ ∀ a ∈ (seen Ts c.abs p q).drop n, P a = false := by
  have hs := C54_partition_point (m := Id) h hr Ts P
  obtain ⟨n, h1, h2, h3, h4⟩ := StdAlg.partitionPoint_pure (m := Id) P _ (seen Ts c.abs p q) rfl hp
  rw [show StdAlg.partitionPoint (m := Id) P (seen Ts c.abs p q) = n from h1] at hs
  obtain ⟨it, p', h5, h6, h7⟩ := hs.id
  exact ⟨it, p', n, h5, h6, h7, h2, h3, h4⟩

/-- The elements up to 3 come first, the boundary is at 7. -/
example (k : Kind) : StdAlg.Partitioned (fun x : Passed Nat => x.val ≤ 3) (seen [0] (Sample.c0 k).abs (some (0, 1)) none) ∧
    ¬ StdAlg.Partitioned (fun x : Passed Nat => x.val == 3) (seen [0] (Sample.c0 k).abs (some (0, 1)) none) ∧
    (Algo.isPartitioned (m := Id) Sample.E0 (Sample.c0 k) [0] (Sample.iter k 2) (Sample.c0 k).end fun x => decide (x.val ≤ 3)).run = some true ∧
    ∃ it, (Algo.partitionPoint (m := Id) Sample.E0 (Sample.c0 k) [0] (Sample.iter k 2) (Sample.c0 k).end fun x => decide (x.val ≤ 3)).run = some it ∧
      it.segpos = (Sample.iter k 4).segpos := by
  have hp : StdAlg.Partitioned (fun x : Passed Nat => x.val ≤ 3) (seen [0] (Sample.c0 k).abs (some (0, 1)) none) := by
    rw [seen0]
    exact ⟨[⟨0, 2, true⟩, ⟨0, 3, true⟩], [⟨2, 7, false⟩], rfl, by decide, by decide⟩
  have hn : ¬ StdAlg.Partitioned (fun x : Passed Nat => x.val == 3) (seen [0] (Sample.c0 k).abs (some (0, 1)) none) := by
    obtain ⟨b, h1, h2⟩ := StdAlg.isPartitioned_pure (m := Id) (fun x : Passed Nat => x.val == 3) (seen [0] (Sample.c0 k).abs (some (0, 1)) none)
    rw [← h2]
    rw [seen0] at h1
    have h1 : false = b := h1
    rw [← h1]; decide
  refine ⟨hp, hn, ?_, ?_⟩
  · obtain ⟨b, h1, h2⟩ := C54_partitioned (m := Id) (Sample.reach0 k) (range0 k) [0] fun x => decide (x.val ≤ 3)
    rw [h2.2 hp] at h1
    exact h1
  · obtain ⟨it, p', n, h1, h2, h3, h4, h5, h6⟩ := C54_boundary (Sample.reach0 k) (range0 k) [0] _ hp
    rw [seen0] at h4 h5 h6
    have h4 : n ≤ 3 := h4
    have hn : n = 2 := by
      rcases n with _ | _ | _ | _ | n
      · exact absurd (h6 ⟨0, 2, true⟩ (by decide)) (by decide)
      · exact absurd (h6 ⟨0, 3, true⟩ (by decide)) (by decide)
      · rfl
      · exact absurd (h5 ⟨2, 7, false⟩ (by decide)) (by decide)
      · omega
    subst hn
    rw [rank0] at h3
    exact ⟨it, h1, (AtRank.eq Sample.E0 ((Sample.reach0 k).inv.core _) ⟨p', h2, h3⟩ ⟨_, Sample.iter_four k, by rw [Sample.abs0]; rfl⟩).2 rfl⟩

end PolyColl.Props
