import Verif.Lemmas.AlgoTally
import Verif.Props.AlgorithmsMore
/-!
# Property C79: how often algorithms call their functors

The documentation says that the complexity of an algorithm is that of the algorithm of the same
name of the standard library.  For the latter the standard gives numbers of calls of the functor.
Functors may have state and may throw; a call that throws is counted.
-/

namespace PolyColl.Props
open PolyColl Prog Coll Algo StdAlg

variable {V : Type} {E : Env V} {k : Kind} {S ε B O O' W α β : Type}
variable {c : Coll V} {w : World} {first last : GIter} {p q : Spec.State.Pos}

/-- There is no undefined behaviour and there are at most `u` calls, whether an exception is thrown or
not.  If the algorithm returns `a` after `n` calls then `Q a n`. -/
def Counts (u : Nat) (Q : α → Nat → Prop) (x : OptionT (Watched S ε) α) : Prop :=
  Calls u (fun r n => ∃ a, r = some a ∧ Q a n) x.run

/-- There are at most `u` calls. -/
def AtMost (u : Nat) (x : OptionT (Watched S ε) α) : Prop := Counts u (fun _ _ => True) x

/-- There are `u` calls, or fewer if an exception is thrown. -/
def Exactly (u : Nat) (x : OptionT (Watched S ε) α) : Prop := Counts u (fun _ n => n = u) x

/-- If the iterator returned is `i` places after `p`, there are `f i` calls. -/
def ByResult (E : Env V) (c : Coll V) (p : Spec.State.Pos) (u : Nat) (f : Nat → Nat) (x : OptionT (Watched S ε) GIter) : Prop :=
  Counts u (fun it n => ∃ p' i, c.At E it p' ∧ c.abs.rank p' = c.abs.rank p + i ∧ n = f i) x

/-- The length of a range. -/
def len (c : Coll V) (p q : Spec.State.Pos) : Nat := (c.abs.between p q).length

theorem seen_length (Ts : List Ty) : (seen Ts c.abs p q).length = len c p q := List.length_map _

theorem Counts.of {u : Nat} {Q : α → Nat → Prop} {x : OptionT (Watched S ε) α} {y : Watched S ε α} (h : x.run = some <$> y) (hy : Calls u Q y) :
    Counts u Q x := by
  unfold Counts
  rw [h]
  exact hy.map fun a _ _ hq => ⟨a, rfl, hq⟩

theorem AtMost.of {u : Nat} {Q : α → Nat → Prop} {x : OptionT (Watched S ε) α} {y : Watched S ε α} (h : x.run = some <$> y) (hy : Calls u Q y) :
    AtMost u x := Counts.of h (hy.mono (Nat.le_refl _) fun _ _ _ _ => trivial)

theorem AtMost.sim {R : α → β → Prop} {u : Nat} {Q : β → Nat → Prop} {x : OptionT (Watched S ε) α} {y : Watched S ε β} (h : Algo.Sim R x y)
    (hy : Calls u Q y) : AtMost u x := (Algo.Sim.tally h hy).mono (Nat.le_refl _) fun _ _ _ _ => trivial

theorem Finds.toSim {x : OptionT (Watched S ε) GIter} {y : Watched S ε Nat} {r : Nat} (h : Finds E c r x y) :
    Algo.Sim (fun it i => ∃ p, c.At E it p ∧ c.abs.rank p = r + i) x y := h

theorem FindsBoth.toSim {x : OptionT (Watched S ε) (GIter × β)} {y : Watched S ε (Nat × β)} {r : Nat} (h : FindsBoth E c r x y) :
    Algo.Sim (fun a b => (∃ p, c.At E a.1 p ∧ c.abs.rank p = r + b.1) ∧ a.2 = b.2) x y := h

theorem ByResult.of {u : Nat} {f : Nat → Nat} {x : OptionT (Watched S ε) GIter} {y : Watched S ε Nat} (h : Finds E c (c.abs.rank p) x y)
    (hy : Calls u (fun i n => n = f i) y) : ByResult E c p u f x :=
  (Algo.Sim.tally (R := fun it i => ∃ p', c.At E it p' ∧ c.abs.rank p' = c.abs.rank p + i) h hy).mono (Nat.le_refl _)
    fun _ _ _ ⟨i, ⟨p', h1, h2⟩, h3⟩ => ⟨p', i, h1, h2, h3⟩

/-- **C79** for `all_of`, `any_of`, `none_of`, `is_partitioned`: at most one call per element; for
`count_if` exactly one. -/
theorem C79_tests (h : c.Reachable E k w) (hr : Range E c first last p q) (Ts : List Ty) (P : Passed V → ExceptT ε (StateM S) Bool) :
    AtMost (len c p q) (Algo.allOf E c Ts first last (counted P)) ∧
    AtMost (len c p q) (Algo.anyOf E c Ts first last (counted P)) ∧
    AtMost (len c p q) (Algo.noneOf E c Ts first last (counted P)) ∧
    AtMost (len c p q) (Algo.isPartitioned E c Ts first last (counted P)) ∧
    Exactly (len c p q) (Algo.countIf E c Ts first last (counted P)) := by
  rw [← seen_length Ts]
  exact ⟨AtMost.of (C42_all_of h hr Ts _) (allOf_calls P _), AtMost.of (C42_any_of h hr Ts _) (anyOf_calls P _),
    AtMost.of (C42_none_of h hr Ts _) (noneOf_calls P _), AtMost.of (C54_is_partitioned h hr Ts _) (isPartitioned_calls P _),
    Counts.of (C46_count_if h hr Ts _) (countIf_calls P _)⟩

example (k : Kind) := C79_tests (ε := String) (S := Nat) (Sample.reach0 k) (range0 k) [0] fun x => pure (x.val == 3)

theorem seen_take (h : c.Reachable E k w) (hf : c.At E first p) {n : Int} (hn : c.abs.rank p + n.toNat ≤ c.size) {Ts : List Ty} :
    ((seen Ts c.abs p none).take n.toNat).length = n.toNat := by
  rw [size_abs] at hn
  have hrk : c.abs.rank none = c.abs.flat.length := by cases c.abs <;> rfl
  have hb : (c.abs.between p none).length = c.abs.rank none - c.abs.rank p :=
    (C46_distance h (⟨hf, at_end E c, by rw [hrk]; omega⟩ : Range E c first c.end p none)).2.2
  rw [List.length_take, seen_length, len, hb]
  omega

theorem foldlM_forEach {m : Type → Type} [Monad m] {A F : Type} (f : F → A → m F) (l : List A) (s : F) : l.foldlM f s = StdAlg.forEach f l s := by
  induction l generalizing s with
  | nil => rfl
  | cons a l ih => simp only [StdAlg.forEach, List.foldlM_cons, ih]

/-- **C79** for `for_each` and `for_each_n`: one call per element. -/
theorem C79_for_each {F : Type} (h : c.Reachable E k w) (Ts : List Ty) (f : F → Passed V → ExceptT ε (StateM S) F) (s : F) :
    (Range E c first last p q → Exactly (len c p q) (Algo.forEach E c Ts first last (counted2 f) s)) ∧
    (∀ n : Int, c.At E first p → c.abs.rank p + n.toNat ≤ c.size → Exactly n.toNat (Algo.forEachN E c Ts first n (counted2 f) s)) := by
  constructor
  · intro hr
    have := C43_for_each h hr Ts (counted2 f) s
    rw [foldlM_forEach] at this
    rw [← seen_length Ts]
    exact Counts.of this (forEach_calls f _ s)
  · intro n hf hn
    obtain ⟨z, h1, h2⟩ := C43_for_each_n h hf n hn Ts (counted2 f) s
    rw [foldlM_forEach] at h2
    have hc := forEach_calls f ((seen Ts c.abs p none).take n.toNat) s
    rw [seen_take h hf hn] at hc
    exact (Algo.Sim.tally (R := fun a b => (∃ p', c.At E a.1 p' ∧ c.abs.rank p' = c.abs.rank p + n.toNat) ∧ a.2 = b) ⟨z, h1, h2⟩ hc).mono
      (Nat.le_refl _) fun _ _ _ ⟨_, _, h⟩ => h

example (k : Kind) := (C79_for_each (ε := String) (S := Nat) (Sample.reach0 k) [0] (fun s x => pure (s + x.val)) 0).1 (range0 k)

/-- **C79** for `find_if` and `find_if_not`: one call for each element up to the one found; for
`adjacent_find` one for each pair up to the one found, that is `min(i+1,N-1)` if it is at place `i`
of `N`. -/
theorem C79_find (h : c.Reachable E k w) (hr : Range E c first last p q) (Ts : List Ty) (P : Passed V → ExceptT ε (StateM S) Bool)
    (P2 : Passed V → Passed V → ExceptT ε (StateM S) Bool) :
    ByResult E c p (len c p q) (fun i => min (i + 1) (len c p q)) (Algo.findIf E c Ts first last (counted P)) ∧
    ByResult E c p (len c p q) (fun i => min (i + 1) (len c p q)) (Algo.findIfNot E c Ts first last (counted P)) ∧
    ByResult E c p (len c p q - 1) (fun i => min (i + 1) (len c p q - 1)) (Algo.adjacentFind E c Ts first last (counted2 P2)) := by
  refine ⟨?_, ?_, ByResult.of (C45_adjacent_find h hr Ts _) (adjacentFind_calls (asNeighbours Ts P2) _)⟩
  · rw [← seen_length Ts]; exact ByResult.of (C44_find_if h hr Ts _) (findIf_calls P _)
  · rw [← seen_length Ts]; exact ByResult.of (C44_find_if_not h hr Ts _) (findIfNot_calls P _)

example (k : Kind) := C79_find (ε := String) (S := Nat) (Sample.reach0 k) (range0 k) [0] (fun x => pure (x.val == 3)) fun x y => pure (x.val == y.val)

/-- **C79** for `find_first_of` and `search`: at most `N·M` calls for ranges of `N` and `M` elements. -/
theorem C79_search (h : c.Reachable E k w) (hr : Range E c first last p q) (Ts : List Ty) (bs : List B) (P : Passed V → B → ExceptT ε (StateM S) Bool) :
    AtMost (len c p q * bs.length) (Algo.findFirstOf E c Ts first last bs (counted2 P)) ∧
    AtMost (len c p q * bs.length) (Algo.search E c Ts first last bs (counted2 P)) := by
  rw [← seen_length Ts]
  exact ⟨AtMost.sim (C44_find_first_of h hr Ts bs _).toSim (findFirstOf_calls P bs _), AtMost.sim (C49_search h hr Ts bs _).toSim (search_calls P bs _)⟩

example (k : Kind) := C79_search (ε := String) (S := Nat) (Sample.reach0 k) (range0 k) [0] [3, 7] fun x y => pure (x.val == y)

/-- **C79** for `search_n`: at most one call per element. -/
theorem C79_search_n (h : c.Reachable E k w) (hr : Range E c first last p q) (Ts : List Ty) (count : Int) (P : Passed V → ExceptT ε (StateM S) Bool) :
    AtMost (len c p q) (Algo.searchN E c Ts first last count (counted P)) := by
  rw [← seen_length Ts]
  exact AtMost.sim (C50_search_n h hr Ts count _).toSim (searchN_calls P count _)

example (k : Kind) := C79_search_n (ε := String) (S := Nat) (Sample.reach0 k) (range0 k) [0] 2 fun x => pure (x.val == 3)

/-- **C79** for `mismatch` and `equal`: at most as many calls as elements in the shorter range. -/
theorem C79_mismatch (h : c.Reachable E k w) (hr : Range E c first last p q) (Ts : List Ty) (bs : List B) (P : Passed V → B → ExceptT ε (StateM S) Bool) :
    AtMost (min (len c p q) bs.length) (Algo.mismatch4 E c Ts first last bs (counted2 P)) ∧
    AtMost (min (len c p q) bs.length) (Algo.equal4 E c Ts first last bs (counted2 P)) ∧
    (len c p q ≤ bs.length →
      AtMost (len c p q) (Algo.mismatch3 E c Ts first last bs (counted2 P)) ∧ AtMost (len c p q) (Algo.equal3 E c Ts first last bs (counted2 P))) := by
  have h1 := mismatch_calls P (seen Ts c.abs p q) bs
  have h2 := equal_calls P (seen Ts c.abs p q) bs
  have h3 := equal_calls P (seen Ts c.abs p q) (bs.take (len c p q))
  rw [seen_length] at h1 h2 h3
  rw [List.length_take] at h3
  refine ⟨AtMost.sim (C47_mismatch4 h hr Ts bs _).toSim h1, AtMost.of (C47_equal4 h hr Ts bs _) h2, fun hb => ⟨?_, ?_⟩⟩
  · rw [Nat.min_eq_left hb] at h1
    exact AtMost.sim (C47_mismatch3 h hr Ts bs hb _).toSim h1
  · exact AtMost.of (C47_equal3 h hr Ts bs hb _) (h3.mono (by omega) fun _ _ _ h => h)

example (k : Kind) := C79_mismatch (ε := String) (S := Nat) (Sample.reach0 k) (range0 k) [0] [2, 3, 8] fun x y => pure (x.val == y)

/-- **C79** for `is_permutation`: quadratic at worst; `N` calls if the ranges are equal. -/
theorem C79_is_permutation (h : c.Reachable E k w) (hr : Range E c first last p q) (Ts : List Ty) (bs : List B)
    (P : Passed V → Passed V → ExceptT ε (StateM S) Bool) (Q : Passed V → B → ExceptT ε (StateM S) Bool) :
    AtMost (len c p q + 2 * (len c p q * len c p q)) (Algo.isPermutation4 E c Ts first last bs (counted2 P) (counted2 Q)) ∧
    (len c p q ≤ bs.length →
      AtMost (len c p q + 2 * (len c p q * len c p q)) (Algo.isPermutation3 E c Ts first last bs (counted2 P) (counted2 Q))) :=
  have hN := (C46_distance h hr).2.2
  ⟨isPermutation4_tally E h.inv Ts P Q hr.at hr.last hr.le bs hN.symm, fun hb => isPermutation3_tally E h.inv Ts P Q hr.at hr.last hr.le bs hN.symm hb⟩

example (k : Kind) := C79_is_permutation (ε := String) (S := Nat) (Sample.reach0 k) (range0 k) [0] [7, 2, 3] (fun x y => pure (x.val == y.val)) fun x y => pure (x.val == y)

/-- **C79** for `is_permutation` of equal ranges: one call per element. -/
theorem C79_is_permutation_equal (h : c.Reachable E k w) (hr : Range E c first last p q) (Ts : List Ty) {bs : List B}
    (P : Passed V → Passed V → ExceptT ε (StateM S) Bool) {Q : Passed V → B → Bool} (hb : Both (fun a b => Q a b = true) (seen Ts c.abs p q) bs) :
    Counts (len c p q) (fun b n => b = true ∧ n = len c p q)
      (Algo.isPermutation4 E c Ts first last bs (counted2 P) (counted2 fun a b => pure (Q a b))) :=
  isPermutation4_equal E h.inv Ts P hr.at hr.last hr.le ((Range.seen (c := c) Ts).symm ▸ hb) (C46_distance h hr).2.2.symm

example (k : Kind) := C79_is_permutation_equal (ε := String) (S := Nat) (bs := [2, 3, 7]) (Sample.reach0 k) (range0 k) [2] (fun x y => pure (x.val == y.val)) (Q := fun x y => x.val == y)
  (by rw [seen0]; exact .cons rfl (.cons rfl (.cons rfl .nil)))

/-- **C79** for `partition_point`: at most `d` calls for fewer than `2^d` elements. -/
theorem C79_partition_point (h : c.Reachable E k w) (hr : Range E c first last p q) (Ts : List Ty) (P : Passed V → ExceptT ε (StateM S) Bool) (d : Nat)
    (hd : len c p q < 2 ^ d) : AtMost d (Algo.partitionPoint E c Ts first last (counted P)) :=
  AtMost.sim (C54_partition_point h hr Ts _).toSim (partitionPoint_calls P _ _ rfl d (by rwa [seen_length]))

example (k : Kind) := C79_partition_point (ε := String) (S := Nat) (Sample.reach0 k) (range0 k) [0] (fun x => pure (x.val == 3)) 2 (by rw [len, Sample.abs0]; decide)

/-- **C79** for `copy`, `copy_n` and `rotate_copy`: one assignment per element. -/
theorem C79_copy (h : c.Reachable E k w) (Ts : List Ty) (out : O → Passed V → ExceptT ε (StateM S) O) (o : O) :
    (Range E c first last p q → Exactly (len c p q) (Algo.copy E c Ts first last (counted2 out) o)) ∧
    (∀ n : Int, c.At E first p → c.abs.rank p + n.toNat ≤ c.size → Exactly n.toNat (Algo.copyN E c Ts first n (counted2 out) o)) ∧
    (∀ (middle : GIter) (q' : Spec.State.Pos), Range E c first middle p q' → Range E c middle last q' q →
      Exactly (len c p q) (Algo.rotateCopy E c Ts first middle last (counted2 out) o)) := by
  refine ⟨fun hr => ?_, fun n hf hn => ?_, fun middle q' hr hr' => ?_⟩
  · rw [← seen_length Ts]; exact Counts.of (C51_copy h hr Ts _ o) (copy_calls out _ o)
  · have hc := copy_calls out ((seen Ts c.abs p none).take n.toNat) o
    rw [seen_take h hf hn] at hc
    exact Counts.of (C51_copy_n h hf n hn Ts _ o) hc
  · have hc := rotateCopy_calls out (seen Ts c.abs p q') (seen Ts c.abs q' q) o
    have hl : (seen Ts c.abs p q').length + (seen Ts c.abs q' q).length = len c p q := by
      have := hr.le
      have := hr'.le
      rw [hr.length h, hr'.length h, len, (C46_distance h (⟨hr.first, hr'.last, by omega⟩ : Range E c first last p q)).2.2]
      omega
    rw [hl] at hc
    exact Counts.of (C51_rotate_copy h hr hr' Ts _ o) hc

example (k : Kind) := (C79_copy (ε := String) (S := Nat) (Sample.reach0 k) [0] (fun o x => pure (o ++ [x])) []).1 (range0 k)

/-- **C79** for the algorithms that copy with the help of a functor: one call of the functor per
element. -/
theorem C79_copy_functor (h : c.Reachable E k w) (hr : Range E c first last p q) (Ts : List Ty) (out : O → Passed V → ExceptT ε (StateM S) O)
    (out' : O' → Passed V → ExceptT ε (StateM S) O') (outW : O → W → ExceptT ε (StateM S) O) (o : O) (o' : O') (x : W)
    (P : Passed V → ExceptT ε (StateM S) Bool) (op : Passed V → ExceptT ε (StateM S) W) (op2 : Passed V → B → ExceptT ε (StateM S) W) (bs : List B) :
    Exactly (len c p q) (Algo.copyIf E c Ts first last (silent2 out) o (counted P)) ∧
    Exactly (len c p q) (Algo.removeCopyIf E c Ts first last (silent2 out) o (counted P)) ∧
    Exactly (len c p q) (Algo.replaceCopyIf E c Ts first last (silent2 out) (fun o => silent2 outW o x) o (counted P)) ∧
    Exactly (len c p q) (Algo.partitionCopy E c Ts first last (silent2 out) (silent2 out') o o' (counted P)) ∧
    Exactly (len c p q) (Algo.transform E c Ts first last (silent2 outW) o (counted op)) ∧
    (len c p q ≤ bs.length → Exactly (len c p q) (Algo.transform2 E c Ts first last bs (silent2 outW) o (counted2 op2))) := by
  rw [← seen_length Ts]
  exact ⟨Counts.of (C51_copy_if h hr Ts _ o _) (copyIf_calls P out _ o), Counts.of (C51_remove_copy_if h hr Ts _ o _) (removeCopyIf_calls P out _ o),
    Counts.of (C51_replace_copy_if h hr Ts _ _ o _) (replaceCopyIf_calls P out outW x _ o),
    Counts.of (C51_partition_copy h hr Ts _ _ o o' _) (partitionCopy_calls P out out' _ o o'),
    Counts.of (C51_transform h hr Ts _ o _) (transform_calls outW op _ o),
    fun hb => Counts.of (C51_transform2 h hr Ts bs (by rwa [seen_length] at hb) _ o _) (transform2_calls outW op2 _ bs o hb)⟩

example (k : Kind) := C79_copy_functor (ε := String) (S := Nat) (Sample.reach0 k) (range0 k) [0] (fun o x => pure (o ++ [x])) (fun o x => pure (o ++ [x])) (fun o _ => pure o) [] [] 4 (fun x => pure (x.val == 3)) (fun x => pure x.val) (fun x y => pure (x.val + y)) [1, 2, 3]

/-- **C79** for `unique_copy`, for any predicate: one call for each element but the first. -/
theorem C79_unique_copy (h : c.Reachable E k w) (hr : Range E c first last p q) (Ts : List Ty) (out : O → Passed V → ExceptT ε (StateM S) O) (o : O)
    (P : Passed V → Passed V → ExceptT ε (StateM S) Bool) :
    Exactly (len c p q - 1) (Algo.uniqueCopy E c Ts first last (silent2 out) o (counted2 P)) := by
  obtain ⟨ps, h1, h2⟩ := hr.cut h
  exact Tally.defd h1 ((uniqueCopyIn_tally E (h.inv.core E) Ts out P h2).1 o none)

example (k : Kind) := C79_unique_copy (ε := String) (S := Nat) (Sample.reach0 k) (range0 k) [0] (fun o x => pure (o ++ [x])) [] fun x y => pure (x.val == y.val)

/-- **C79** for `sample`: at most one number is drawn per element. -/
theorem C79_sample (h : c.Reachable E k w) (hr : Range E c first last p q) (Ts : List Ty) (out : O → Passed V → ExceptT ε (StateM S) O) (o : O) (n : Nat)
    (rnd : (j : Nat) → ExceptT ε (StateM S) (Fin (j + 1))) :
    AtMost (len c p q) (Algo.sample E c Ts first last (silent2 out) o n fun j => counted (fun _ : Unit => rnd j) ()) := by
  rw [← seen_length Ts]
  exact AtMost.of (C53_sample h hr Ts _ o n _) (sample_calls out rnd _ _ o)

example (k : Kind) := C79_sample (ε := String) (S := Nat) (Sample.reach0 k) (range0 k) [0] (fun o x => pure (o ++ [x])) [] 2 fun _ => pure 0

/-! ### find_end

For ranges of `N` and `M` elements the standard allows `M·(N-M+1)` calls. -/

/-- What holds of **C79** for `find_end`: at most `N·M` calls. -/
theorem C79_find_end_partial (h : c.Reachable E k w) (hr : Range E c first last p q) (Ts : List Ty) (bs : List B)
    (P : Passed V → B → ExceptT ε (StateM S) Bool) : AtMost (len c p q * bs.length) (Algo.findEnd E c Ts first last bs (counted2 P)) := by
  rw [← seen_length Ts]
  exact AtMost.sim (C49_find_end h hr Ts bs _).toSim (findEnd_calls P bs _)

example (k : Kind) := C79_find_end_partial (ε := String) (S := Nat) (Sample.reach0 k) (range0 k) [0] [3, 7] fun x y => pure (x.val == y)

/-- **C79 does not hold** for `find_end`: whenever the second range fits into the first one and the
predicate always holds, there are `M·(M-1)/2` calls more than allowed. -/
theorem C79_find_end_exceeds (h : c.Reachable E k w) (hr : Range E c first last p q) (Ts : List Ty) (bs : List B) (hb : bs ≠ [])
    (hl : bs.length ≤ len c p q) :
    Counts (len c p q * bs.length) (fun _ n => 2 * n = 2 * (bs.length * (len c p q - bs.length + 1)) + bs.length * (bs.length - 1))
      (Algo.findEnd E c Ts first last bs (counted2 fun _ _ => (pure true : ExceptT ε (StateM S) Bool))) := by
  rw [← seen_length Ts] at hl ⊢
  refine (Algo.Sim.tally (C49_find_end h hr Ts bs _).toSim (findEnd_always bs _ hb hl)).mono (Nat.le_refl _) fun _ n _ ⟨_, _, h⟩ => ?_
  rw [Nat.mul_comm bs.length (_ + 1)]
  exact h

/-! ### Examples -/

/-- What an algorithm counts to, with functors without state that do not throw. -/
def countOf (x : OptionT (Watched Unit Unit) α) : Nat := (x.run.run ((), 0)).2.2

/-- Calls for the elements 2, 3 and 7, the last one in a segment of its own. -/
example (k : Kind) : Range Sample.E0 (Sample.c0 k) (Sample.iter k 2) (Sample.c0 k).end (some (0, 1)) none ∧
    len (Sample.c0 k) (some (0, 1)) none = 3 ∧
    countOf (Algo.allOf Sample.E0 (Sample.c0 k) [0] (Sample.iter k 2) (Sample.c0 k).end (counted fun x => pure (x.val == 2))) = 2 ∧
    countOf (Algo.countIf Sample.E0 (Sample.c0 k) [0] (Sample.iter k 2) (Sample.c0 k).end (counted fun x => pure (x.val == 2))) = 3 ∧
    countOf (Algo.findIf Sample.E0 (Sample.c0 k) [0] (Sample.iter k 2) (Sample.c0 k).end (counted fun x => pure (x.val == 3))) = 2 ∧
    countOf (Algo.adjacentFind Sample.E0 (Sample.c0 k) [0] (Sample.iter k 2) (Sample.c0 k).end (counted2 fun x y => pure (x.val == y.val))) = 2 ∧
    countOf (Algo.search Sample.E0 (Sample.c0 k) [0] (Sample.iter k 2) (Sample.c0 k).end [3, 7] (counted2 fun x y => pure (x.val == y))) = 3 ∧
    countOf (Algo.searchN Sample.E0 (Sample.c0 k) [0] (Sample.iter k 2) (Sample.c0 k).end 2 (counted fun x => pure (x.val % 2 == 1))) = 3 ∧
    countOf (Algo.isPermutation4 Sample.E0 (Sample.c0 k) [0] (Sample.iter k 2) (Sample.c0 k).end [7, 2, 3]
      (counted2 fun x y => pure (x.val == y.val)) (counted2 fun x y => pure (x.val == y))) = 19 ∧
    countOf (Algo.uniqueCopy Sample.E0 (Sample.c0 k) [0] (Sample.iter k 2) (Sample.c0 k).end (silent2 fun o x => pure (o ++ [x])) []
      (counted2 fun x y => pure (x.val % 2 == y.val % 2))) = 2 ∧
    countOf (Algo.partitionPoint Sample.E0 (Sample.c0 k) [0] (Sample.iter k 2) (Sample.c0 k).end (counted fun x => pure (x.val == 2))) = 2 ∧
    countOf (Algo.countIf Sample.E0 (Sample.c0 k) [0] (Sample.iter k 1) (Sample.c0 k).end
      (counted fun x => if x.val == 3 then throw () else pure true)) = 3 := by
  refine ⟨range0 k, by rw [len, Sample.abs0]; rfl, ?_⟩
  cases k <;> decide +kernel

/-- If all elements match, `find_end` of three elements makes six calls; the standard allows three. -/
example (k : Kind) : len (Sample.c0 k) (some (0, 1)) none = 3 ∧
    countOf (Algo.findEnd Sample.E0 (Sample.c0 k) [0] (Sample.iter k 2) (Sample.c0 k).end [1, 1, 1] (counted2 fun _ _ => pure true)) = 6 := by
  refine ⟨by rw [len, Sample.abs0]; rfl, ?_⟩
  cases k <;> decide +kernel

end PolyColl.Props
