import Verif.Lemmas.StdMap
import Verif.Lemmas.AlgoCalls
import Verif.Props.AlgorithmsMore
/-!
# Properties C55 and C56: type restitution
-/

namespace PolyColl.Props
open PolyColl Prog Coll Algo

variable {V : Type} {E : Env V} {k : Kind} {m : Type → Type} [Monad m] [LawfulMonad m]
variable {c : Coll V} {w : World} {first last : GIter} {p q : Spec.State.Pos}

/-! ### C55 -/

/-- **C55.**  The function given to `for_each<Ts...>` gets an element as what it is if and only if its
type is one of `Ts`, whatever that list is, and as a `value_type&` otherwise.  The elements given to
it are those in `seen`; the theorems on the other algorithms say that these too give their functors
the elements in `seen` (but see C56 for the exceptions). -/
theorem C55_static_type (h : c.Reachable E k w) (hr : Range E c first last p q) (Ts : List Ty) :
    ∃ l, (Algo.forEach E c Ts first last (fun log x => (pure (log ++ [x]) : m (List (Passed V)))) []).run = pure (some l) ∧
      l.map (fun x => (x.ty, x.val)) = c.abs.between p q ∧ ∀ x ∈ l, x.typed = true ↔ x.ty ∈ Ts := by
  refine ⟨seen Ts c.abs p q, ?_, ?_, ?_⟩
  · rw [C43_for_each h hr]
    have key : ∀ (l o : List (Passed V)), l.foldlM (fun log x => (pure (log ++ [x]) : m (List (Passed V)))) o = pure (o ++ l) := by
      intro l
      induction l with
      | nil => intro o; simp
      | cons a l ih => intro o; rw [List.foldlM_cons, pure_bind, ih, List.append_assoc, List.singleton_append]
    rw [key, map_pure, List.nil_append]
  · unfold seen
    rw [List.map_map]
    exact List.map_id _
  · intro x hx
    obtain ⟨y, -, rfl⟩ := List.mem_map.1 hx
    exact List.contains_iff_mem

example (k : Kind) := C55_static_type (m := Id) (Sample.reach0 k) (range0 k) [2, 5]

/-- Only the set of the types listed matters, not their order nor repetitions. -/
theorem C55_set (Ts Ts' : List Ty) (hT : ∀ t, t ∈ Ts ↔ t ∈ Ts') (s : Spec.State V) (p q : Spec.State.Pos) : seen Ts s p q = seen Ts' s p q := by
  unfold seen
  refine List.map_congr_left fun x _ => ?_
  have : Ts.contains x.1 = Ts'.contains x.1 := Bool.eq_iff_iff.2 (by rw [List.contains_iff_mem, List.contains_iff_mem]; exact hT x.1)
  rw [this]

example := C55_set [0, 2, 2] [2, 0] (fun t => by simp [or_comm]) (V := Nat) [(0, [1, 2]), (2, [7])] (some (0, 0)) none

/-- The functor does not distinguish whether it gets an element as what it is or as a `value_type&`. -/
def Indifferent {α : Type} (f : Passed V → α) : Prop := ∀ t v, f ⟨t, v, true⟩ = f ⟨t, v, false⟩

/-- The element as a `value_type&`. -/
def plainly (x : Passed V) : Passed V := ⟨x.ty, x.val, false⟩

theorem Indifferent.plainly {α : Type} {f : Passed V → α} (h : Indifferent f) (x : Passed V) : f (plainly x) = f x := by
  obtain ⟨t, v, b⟩ := x
  cases b
  · rfl
  · exact (h t v).symm

theorem seen_plainly (Ts : List Ty) (s : Spec.State V) (p q : Spec.State.Pos) : seen [] s p q = (seen Ts s p q).map plainly := by
  unfold seen
  rw [List.map_map]
  rfl

/-- **C55.**  For predicates that do not distinguish, `all_of`, `any_of`, `none_of`, `count_if` and
`is_partitioned` give the same results, with the same effects, with `Ts` as without. -/
theorem C55_predicates (h : c.Reachable E k w) (hr : Range E c first last p q) (Ts : List Ty) {P : Passed V → m Bool} (hP : Indifferent P) :
    (Algo.allOf E c Ts first last P).run = (Algo.allOf E c [] first last P).run ∧
    (Algo.anyOf E c Ts first last P).run = (Algo.anyOf E c [] first last P).run ∧
    (Algo.noneOf E c Ts first last P).run = (Algo.noneOf E c [] first last P).run ∧
    (Algo.countIf E c Ts first last P).run = (Algo.countIf E c [] first last P).run ∧
    (Algo.isPartitioned E c Ts first last P).run = (Algo.isPartitioned E c [] first last P).run := by
  simp only [C42_all_of h hr, C42_any_of h hr, C42_none_of h hr, C46_count_if h hr, C54_is_partitioned h hr, seen_plainly Ts,
    StdAlg.allOf_same hP.plainly, StdAlg.anyOf_same hP.plainly, StdAlg.noneOf_same hP.plainly, StdAlg.countIf_same hP.plainly,
    StdAlg.isPartitioned_same hP.plainly, and_self]

/-- **C55** for `for_each`. -/
theorem C55_for_each {F : Type} (h : c.Reachable E k w) (hr : Range E c first last p q) (Ts : List Ty) {f : F → Passed V → m F}
    (hf : ∀ s, Indifferent (f s)) (s : F) : (Algo.forEach E c Ts first last f s).run = (Algo.forEach E c [] first last f s).run := by
  rw [C43_for_each h hr, C43_for_each h hr, seen_plainly Ts, StdAlg.foldlM_same fun s => (hf s).plainly]

example (k : Kind) := C55_for_each (m := Id) (Sample.reach0 k) (range0 k) [0, 2] (f := fun s x => s + x.val) (fun _ _ _ => rfl) 0

/-- **C55** for `equal`. -/
theorem C55_equal {B : Type} (h : c.Reachable E k w) (hr : Range E c first last p q) (Ts : List Ty) {P : Passed V → B → m Bool} (hP : Indifferent P)
    (bs : List B) :
    (Algo.equal4 E c Ts first last bs P).run = (Algo.equal4 E c [] first last bs P).run ∧
    ((c.abs.between p q).length ≤ bs.length → (Algo.equal3 E c Ts first last bs P).run = (Algo.equal3 E c [] first last bs P).run) := by
  constructor
  · rw [C47_equal4 h hr, C47_equal4 h hr, seen_plainly Ts, StdAlg.equal_same hP.plainly]
  · intro hb
    rw [C47_equal3 h hr _ _ hb, C47_equal3 h hr _ _ hb, seen_plainly Ts, StdAlg.equal_same hP.plainly]

example (k : Kind) := C55_equal (m := Id) (Sample.reach0 k) (range0 k) [0, 2] (P := fun x y => x.val == y) (fun _ _ => rfl) [2, 3, 7]

/-- **C55** for the copy family. -/
theorem C55_copies {O O' W B : Type} (h : c.Reachable E k w) (hr : Range E c first last p q) (Ts : List Ty) {out : O → Passed V → m O}
    (ho : ∀ o, Indifferent (out o)) {out' : O' → Passed V → m O'} (ho' : ∀ o, Indifferent (out' o)) {P : Passed V → m Bool} (hP : Indifferent P)
    (o : O) (o' : O') (outNew : O → m O) {outW : O → W → m O} {op : Passed V → m W} (hop : Indifferent op) {op2 : Passed V → B → m W}
    (hop2 : Indifferent op2) (bs : List B) (hb : (c.abs.between p q).length ≤ bs.length) (n : Nat) (rnd : (j : Nat) → m (Fin (j + 1))) :
    (Algo.copy E c Ts first last out o).run = (Algo.copy E c [] first last out o).run ∧
    (Algo.copyIf E c Ts first last out o P).run = (Algo.copyIf E c [] first last out o P).run ∧
    (Algo.removeCopyIf E c Ts first last out o P).run = (Algo.removeCopyIf E c [] first last out o P).run ∧
    (Algo.replaceCopyIf E c Ts first last out outNew o P).run = (Algo.replaceCopyIf E c [] first last out outNew o P).run ∧
    (Algo.transform E c Ts first last outW o op).run = (Algo.transform E c [] first last outW o op).run ∧
    (Algo.transform2 E c Ts first last bs outW o op2).run = (Algo.transform2 E c [] first last bs outW o op2).run ∧
    (Algo.partitionCopy E c Ts first last out out' o o' P).run = (Algo.partitionCopy E c [] first last out out' o o' P).run ∧
    (Algo.sample E c Ts first last out o n rnd).run = (Algo.sample E c [] first last out o n rnd).run := by
  simp only [C51_copy h hr, C51_copy_if h hr, C51_remove_copy_if h hr, C51_replace_copy_if h hr, C51_transform h hr, C51_transform2 h hr _ _ hb,
    C51_partition_copy h hr, C53_sample h hr, seen_plainly Ts, StdAlg.copy_same fun o => (ho o).plainly,
    StdAlg.copyIf_same (fun o => (ho o).plainly) hP.plainly, StdAlg.removeCopyIf_same (fun o => (ho o).plainly) hP.plainly,
    StdAlg.replaceCopyIf_same (fun o => (ho o).plainly) hP.plainly, StdAlg.transform_same hop.plainly, StdAlg.transform2_same hop2.plainly,
    StdAlg.partitionCopy_same (fun o => (ho o).plainly) (fun o => (ho' o).plainly) hP.plainly, StdAlg.sample_same fun o => (ho o).plainly, and_self]

example (k : Kind) := C55_copies (m := Id) (Sample.reach0 k) (range0 k) [0, 2] (out := fun o x => o ++ [x.val]) (fun _ _ _ => rfl) (out' := fun o x => o + x.val) (fun _ _ _ => rfl)
  (P := fun x => x.val == 3) (fun _ _ => rfl) [] 0 (fun o => o ++ [4]) (outW := fun o x => o ++ [x]) (op := fun x => x.val + 1) (fun _ _ => rfl)
  (op2 := fun x y => x.val * y) (fun _ _ => rfl) [1, 2, 3] (by rw [Sample.abs0]; decide)

/-- **C55** for `copy_n` and `for_each_n`, where there are at least `n` elements from `p` on. -/
theorem C55_n {F : Type} (h : c.Reachable E k w) (hf : c.At E first p) (n : Int) (hn : c.abs.rank p + n.toNat ≤ c.size) (Ts : List Ty)
    {f : F → Passed V → m F} (hi : ∀ s, Indifferent (f s)) (s : F) :
    (Algo.copyN E c Ts first n f s).run = (Algo.copyN E c [] first n f s).run ∧
    (Prod.snd <$> Algo.forEachN E c Ts first n f s).run = (Prod.snd <$> Algo.forEachN E c [] first n f s).run := by
  have key : ∀ Ts, (seen [] c.abs p none).take n.toNat = ((seen Ts c.abs p none).take n.toNat).map plainly := by
    intro Ts; rw [seen_plainly Ts, List.map_take]
  constructor
  · rw [C51_copy_n h hf n hn, C51_copy_n h hf n hn, key Ts, StdAlg.copy_same fun s => (hi s).plainly]
  · have hval : ∀ Ts, (Prod.snd <$> Algo.forEachN E c Ts first n f s).run = some <$> ((seen Ts c.abs p none).take n.toNat).foldlM f s := by
      intro Ts
      obtain ⟨z, h1, h2⟩ := C43_for_each_n h hf n hn Ts f s
      rw [OptionT.run_map, h1, h2, Functor.map_map, Functor.map_map]
      have he : (fun a : {a : (GIter × F) × F // (∃ p', c.At E a.1.1 p' ∧ c.abs.rank p' = c.abs.rank p + n.toNat) ∧ a.1.2 = a.2} =>
        Option.map Prod.snd (some a.1.1)) = fun a => some a.1.2 := funext fun a => by rw [← a.2.2]; rfl
      exact congrArg (· <$> z) he
    rw [hval, hval, key Ts, StdAlg.foldlM_same fun s => (hi s).plainly]

example (k : Kind) := C55_n (m := Id) (Sample.reach0 k) (Sample.iter_two k) 2 (by cases k <;> decide +kernel) [0, 2] (f := fun s x => s + x.val) (fun _ _ _ => rfl) 0

/-- **C55** for `rotate_copy`. -/
theorem C55_rotate_copy {O : Type} {middle : GIter} {q' : Spec.State.Pos} (h : c.Reachable E k w) (hr : Range E c first middle p q')
    (hr' : Range E c middle last q' q) (Ts : List Ty) {out : O → Passed V → m O} (ho : ∀ o, Indifferent (out o)) (o : O) :
    (Algo.rotateCopy E c Ts first middle last out o).run = (Algo.rotateCopy E c [] first middle last out o).run := by
  rw [C51_rotate_copy h hr hr', C51_rotate_copy h hr hr', seen_plainly Ts, seen_plainly Ts, StdAlg.rotateCopy_same fun o => (ho o).plainly]

example (k : Kind) := C55_rotate_copy (m := Id) (Sample.reach0 k) (range1 k) (range2 k) [0, 2] (out := fun o x => o ++ [x.val]) (fun _ _ _ => rfl) []

/-- **C55** for `unique_copy` with an equivalence. -/
theorem C55_unique_copy {O : Type} (h : c.Reachable E k w) (hr : Range E c first last p q) (Ts : List Ty) {out : O → Passed V → m O}
    (ho : ∀ o, Indifferent (out o)) (o : O) {P : Passed V → Passed V → Bool} (hP : StdAlg.Sameness P) (h1 : Indifferent P) (h2 : ∀ x, Indifferent (P x)) :
    (Algo.uniqueCopy E c Ts first last out o fun x y => (pure (P x y) : m Bool)).run =
      (Algo.uniqueCopy E c [] first last out o fun x y => (pure (P x y) : m Bool)).run := by
  have hU : ∀ (Ts : List Ty), ∀ t ∈ Ts, ∀ v y, P ⟨t, v, false⟩ y = P ⟨t, v, true⟩ y := fun _ t _ v y => by rw [h1 t v]
  rw [C52_unique_copy h hr Ts out o hP (hU Ts), C52_unique_copy h hr [] out o hP (hU []), seen_plainly Ts,
    StdAlg.uniqueCopy_same (fun o => (ho o).plainly) (fun a => by rw [h1.plainly]) fun a b => by rw [(h2 a).plainly]]

example (k : Kind) := C55_unique_copy (m := Id) (Sample.reach0 k) (range0 k) [0, 2] (out := fun o x => o ++ [x.val]) (fun _ _ _ => rfl) [] (P := fun x y => x.val % 2 == y.val % 2)
  (by constructor <;> simp <;> omega) (fun _ _ => rfl) fun _ _ _ => rfl

/-- Both computations of an iterator have the same effects, and give iterators to the same place
whatever these are. -/
def FindSame (E : Env V) (c : Coll V) (x x' : OptionT m GIter) : Prop := ∃ r y, Finds E c r x y ∧ Finds E c r x' y

/-- Without effects, the iterators are equal. -/
theorem FindSame.id {x x' : OptionT Id GIter} (hs : FindSame (m := Id) E c x x') (h : c.Reachable E k w) :
    ∃ it it', x.run = some it ∧ x'.run = some it' ∧ it.segpos = it'.segpos := by
  obtain ⟨r, y, h1, h2⟩ := hs
  obtain ⟨it, p1, h3, h4, h5⟩ := h1.id
  obtain ⟨it', p2, h6, h7, h8⟩ := h2.id
  exact ⟨it, it', h3, h6, (AtRank.eq E (h.inv.core E) ⟨p1, h4, h5⟩ ⟨p2, h7, h8⟩).2 rfl⟩

/-- **C55** for the algorithms that return an iterator and take a unary predicate. -/
theorem C55_finds (h : c.Reachable E k w) (hr : Range E c first last p q) (Ts : List Ty) {P : Passed V → m Bool} (hP : Indifferent P) (count : Int) :
    FindSame E c (Algo.findIf E c Ts first last P) (Algo.findIf E c [] first last P) ∧
    FindSame E c (Algo.findIfNot E c Ts first last P) (Algo.findIfNot E c [] first last P) ∧
    FindSame E c (Algo.searchN E c Ts first last count P) (Algo.searchN E c [] first last count P) ∧
    FindSame E c (Algo.partitionPoint E c Ts first last P) (Algo.partitionPoint E c [] first last P) := by
  refine ⟨⟨_, _, C44_find_if h hr Ts P, ?_⟩, ⟨_, _, C44_find_if_not h hr Ts P, ?_⟩, ⟨_, _, C50_search_n h hr Ts count P, ?_⟩,
    ⟨_, _, C54_partition_point h hr Ts P, ?_⟩⟩
  · rw [← StdAlg.findIf_same hP.plainly, ← seen_plainly]; exact C44_find_if h hr [] P
  · rw [← StdAlg.findIfNot_same hP.plainly, ← seen_plainly]; exact C44_find_if_not h hr [] P
  · rw [← StdAlg.searchN_same hP.plainly, ← seen_plainly]; exact C50_search_n h hr [] count P
  · rw [← StdAlg.partitionPoint_same hP.plainly _ _ rfl, ← seen_plainly]; exact C54_partition_point h hr [] P

example (k : Kind) := C55_finds (m := Id) (Sample.reach0 k) (range0 k) [0, 2] (P := fun x => x.val == 3) (fun _ _ => rfl) 1

/-- **C55** for the algorithms that return an iterator and compare with a second range. -/
theorem C55_searches {B : Type} (h : c.Reachable E k w) (hr : Range E c first last p q) (Ts : List Ty) {P : Passed V → B → m Bool} (hP : Indifferent P)
    (bs : List B) :
    FindSame E c (Algo.findFirstOf E c Ts first last bs P) (Algo.findFirstOf E c [] first last bs P) ∧
    FindSame E c (Algo.search E c Ts first last bs P) (Algo.search E c [] first last bs P) ∧
    FindSame E c (Algo.findEnd E c Ts first last bs P) (Algo.findEnd E c [] first last bs P) ∧
    (∃ y, FindsBoth E c (c.abs.rank p) (Algo.mismatch4 E c Ts first last bs P) y ∧ FindsBoth E c (c.abs.rank p) (Algo.mismatch4 E c [] first last bs P) y) ∧
    ((c.abs.between p q).length ≤ bs.length →
      ∃ y, FindsBoth E c (c.abs.rank p) (Algo.mismatch3 E c Ts first last bs P) y ∧ FindsBoth E c (c.abs.rank p) (Algo.mismatch3 E c [] first last bs P) y) := by
  refine ⟨⟨_, _, C44_find_first_of h hr Ts bs P, ?_⟩, ⟨_, _, C49_search h hr Ts bs P, ?_⟩, ⟨_, _, C49_find_end h hr Ts bs P, ?_⟩,
    ⟨_, C47_mismatch4 h hr Ts bs P, ?_⟩, fun hb => ⟨_, C47_mismatch3 h hr Ts bs hb P, ?_⟩⟩
  · rw [← StdAlg.findFirstOf_same hP.plainly, ← seen_plainly]; exact C44_find_first_of h hr [] bs P
  · rw [← StdAlg.search_same hP.plainly, ← seen_plainly]; exact C49_search h hr [] bs P
  · rw [← StdAlg.findEnd_same hP.plainly, ← seen_plainly]; exact C49_find_end h hr [] bs P
  · rw [← StdAlg.mismatch_same hP.plainly, ← seen_plainly]; exact C47_mismatch4 h hr [] bs P
  · rw [← StdAlg.mismatch_same hP.plainly, ← seen_plainly]; exact C47_mismatch3 h hr [] bs hb P

example (k : Kind) := C55_searches (m := Id) (Sample.reach0 k) (range0 k) [0, 2] (P := fun x y => x.val == y) (fun _ _ => rfl) [3, 7]

/-- **C55** for `adjacent_find`. -/
theorem C55_adjacent_find (h : c.Reachable E k w) (hr : Range E c first last p q) (Ts : List Ty) {P : Passed V → Passed V → m Bool}
    (h1 : Indifferent P) (h2 : ∀ x, Indifferent (P x)) :
    FindSame E c (Algo.adjacentFind E c Ts first last P) (Algo.adjacentFind E c [] first last P) := by
  have hU : ∀ (Ts : List Ty), ∀ t ∈ Ts, ∀ v y, P ⟨t, v, false⟩ y = P ⟨t, v, true⟩ y := fun _ t _ v y => by rw [h1 t v]
  refine ⟨_, _, C45_adjacent_find_std h hr Ts P (hU Ts), ?_⟩
  rw [← StdAlg.adjacentFind_same (fun a => h1.plainly a) (fun a b => (h2 a).plainly b), ← seen_plainly]
  exact C45_adjacent_find_std h hr [] P (hU [])

example (k : Kind) := C55_adjacent_find (m := Id) (Sample.reach0 k) (range0 k) [0, 2] (P := fun x y => x.val + 4 == y.val) (fun _ _ => rfl) fun _ _ _ => rfl

/-- **C55** for `is_permutation` with an equivalence. -/
theorem C55_is_permutation {B : Type} (h : c.Reachable E k w) (hr : Range E c first last p q) (Ts : List Ty) {P : Passed V → Passed V → Bool}
    {Q : Passed V → B → Bool} (hpq : StdAlg.Matching P Q) (h1 : Indifferent P) (h2 : ∀ x, Indifferent (P x)) (hQ : Indifferent Q) (bs : List B) :
    (Algo.isPermutation4 (m := Id) E c Ts first last bs P Q).run = (Algo.isPermutation4 (m := Id) E c [] first last bs P Q).run ∧
    ((c.abs.between p q).length ≤ bs.length →
      (Algo.isPermutation3 (m := Id) E c Ts first last bs P Q).run = (Algo.isPermutation3 (m := Id) E c [] first last bs P Q).run) := by
  have key : ∀ bs, StdAlg.Permuted Q (seen Ts c.abs p q) bs ↔ StdAlg.Permuted Q (seen [] c.abs p q) bs := by
    intro bs
    rw [seen_plainly Ts]
    exact (StdAlg.Permuted.same hpq hQ.plainly h1.plainly (fun a => (h2 a).plainly) _ _).symm
  constructor
  · obtain ⟨b, h3, h4⟩ := C48_is_permutation4 h hr Ts hpq bs
    obtain ⟨b', h5, h6⟩ := C48_is_permutation4 h hr [] hpq bs
    have : b = b' := Bool.eq_iff_iff.2 (h4.trans ((key bs).trans h6.symm))
    rw [h3, h5, this]
  · intro hb
    obtain ⟨b, h3, h4⟩ := C48_is_permutation3 h hr Ts hpq bs hb
    obtain ⟨b', h5, h6⟩ := C48_is_permutation3 h hr [] hpq bs hb
    have : b = b' := Bool.eq_iff_iff.2 (h4.trans ((key _).trans h6.symm))
    rw [h3, h5, this]

/-- With the list 2, 7, 2, the elements of type 2 only are passed as what they are; a predicate on
the values does not distinguish. -/
example (k : Kind) : (∃ l, (Algo.forEach Sample.E0 (Sample.c0 k) [2, 7, 2] (Sample.iter k 2) (Sample.c0 k).end
      (fun log x => (pure (log ++ [x]) : Id (List (Passed Nat)))) []).run = some l ∧ l = [⟨0, 2, false⟩, ⟨0, 3, false⟩, ⟨2, 7, true⟩]) ∧
    Indifferent (fun x : Passed Nat => x.val == 3) ∧ ¬ Indifferent (fun x : Passed Nat => x.typed) ∧
    (Algo.countIf (m := Id) Sample.E0 (Sample.c0 k) [2, 7, 2] (Sample.iter k 2) (Sample.c0 k).end fun x => x.val == 3).run =
      (Algo.countIf (m := Id) Sample.E0 (Sample.c0 k) [] (Sample.iter k 2) (Sample.c0 k).end fun x => x.val == 3).run ∧
    (Algo.countIf (m := Id) Sample.E0 (Sample.c0 k) [2, 7, 2] (Sample.iter k 2) (Sample.c0 k).end fun x => x.typed).run = some 1 ∧
    (Algo.countIf (m := Id) Sample.E0 (Sample.c0 k) [] (Sample.iter k 2) (Sample.c0 k).end fun x => x.typed).run = some 0 := by
  refine ⟨⟨_, ?_, rfl⟩, fun _ _ => rfl, fun h => absurd (h 0 0) (by decide), ?_, ?_, ?_⟩
  · rw [C43_for_each (Sample.reach0 k) (range0 k), seen0]; rfl
  · exact (C55_predicates (m := Id) (Sample.reach0 k) (range0 k) [2, 7, 2] (P := fun x => x.val == 3) fun _ _ => rfl).2.2.2.1
  · rw [C46_count_if (Sample.reach0 k) (range0 k), seen0]; rfl
  · rw [C46_count_if (Sample.reach0 k) (range0 k), seen0]; rfl

/-! ### C56 -/

/-- A binary predicate that logs its arguments. -/
def logged2 (P : Passed V → Passed V → Bool) (x y : Passed V) : StateM (List (Passed V × Passed V)) Bool := do
  modify fun log => log ++ [(x, y)]
  return P x y

/-- **C56 does not hold**: `adjacent_find<T0,T2>` calls the predicate with the element 3, of type 0,
as a `value_type&`, since the next element is in another segment; within the segment, the element
2 is passed as what it is. -/
theorem C56_adjacent_find_false (k : Kind) :
    ((Algo.adjacentFind Sample.E0 (Sample.c0 k) [0, 2] (Sample.iter k 2) (Sample.c0 k).end (logged2 fun _ _ => false)).run []).2 =
      [(⟨0, 2, true⟩, ⟨0, 3, true⟩), (⟨0, 3, false⟩, ⟨2, 7, true⟩)] := by
  obtain ⟨z, h1, h2⟩ := C45_adjacent_find (m := StateM (List (Passed Nat × Passed Nat))) (Sample.reach0 k) (range0 k) [0, 2] (logged2 fun _ _ => false)
  rw [h1]
  have h3 : ((fun a => some a.1.1) <$> z).run [] = (some (z.run []).1.1.1, (z.run []).2) := rfl
  have h4 : ((fun a => a.1.2) <$> z).run [] = ((z.run []).1.1.2, (z.run []).2) := rfl
  have h5 : (z.run []).2 = (((fun a => a.1.2) <$> z).run []).2 := by rw [h4]
  show (((fun a => some a.1.1) <$> z).run []).2 = _
  rw [h3, h5, ← h2, Sample.abs0]
  rfl

/-- **C56 does not hold** for `unique_copy<T0,T2>` either. -/
theorem C56_unique_copy_false (k : Kind) :
    ((Algo.uniqueCopy Sample.E0 (Sample.c0 k) [0, 2] (Sample.iter k 2) (Sample.c0 k).end appendTo [] (logged2 fun _ _ => false)).run []).2 =
      [(⟨0, 2, true⟩, ⟨0, 3, true⟩), (⟨0, 3, false⟩, ⟨2, 7, true⟩)] := by
  cases k <;> rfl

/-- Consequence: for a predicate that accepts elements only as what they are, as a functor without
an overload for `value_type&` would, `adjacent_find<T0,T2>` does not find what there is. -/
theorem C56_consequence (k : Kind) :
    (∃ it, (Algo.adjacentFind (m := Id) Sample.E0 (Sample.c0 k) [0, 2] (Sample.iter k 2) (Sample.c0 k).end
      fun x y => x.typed && y.typed && x.val + 4 == y.val).run = some it ∧ it.segpos = (Sample.c0 k).end.segpos) ∧
    ∃ it, (Algo.adjacentFind (m := Id) Sample.E0 (Sample.c0 k) [] (Sample.iter k 2) (Sample.c0 k).end
      fun x y => x.val + 4 == y.val).run = some it ∧ it.segpos = (Sample.iter k 3).segpos := by
  have hx := C45_adjacent_find (m := Id) (Sample.reach0 k) (range0 k) [0, 2] fun x y => x.typed && y.typed && x.val + 4 == y.val
  have hy := C45_adjacent_find (m := Id) (Sample.reach0 k) (range0 k) [] fun x y => x.val + 4 == y.val
  rw [Sample.abs0] at hx hy
  obtain ⟨it, p1, h1, h2, h3⟩ := hx.id
  obtain ⟨it', p2, h4, h5, h6⟩ := hy.id
  exact ⟨⟨it, h1, (AtRank.eq Sample.E0 ((Sample.reach0 k).inv.core _) ⟨p1, h2, h3⟩ ⟨_, Sample.iter_end k, by rw [Sample.abs0]; rfl⟩).2 rfl⟩,
    ⟨it', h4, (AtRank.eq Sample.E0 ((Sample.reach0 k).inv.core _) ⟨p2, h5, h6⟩ ⟨_, Sample.iter_three k, by rw [Sample.abs0]; rfl⟩).2 rfl⟩⟩

/-- What is missing to **C56** for `adjacent_find` is only the first argument of the calls across
segments: these are the calls made, in order. -/
theorem C56_adjacent_find_partial (h : c.Reachable E k w) (hr : Range E c first last p q) (Ts : List Ty) (P : Passed V → Passed V → m Bool) :
    Finds E c (c.abs.rank p) (Algo.adjacentFind E c Ts first last P)
      (StdAlg.adjacentFind (fun x y => P ⟨x.1, x.2, x.1 == y.1 && Ts.contains x.1⟩ ⟨y.1, y.2, Ts.contains y.1⟩) (c.abs.between p q)) :=
  C45_adjacent_find h hr Ts P

example (k : Kind) := C56_adjacent_find_partial (m := Id) (Sample.reach0 k) (range0 k) [0, 2] fun x y => x.typed && x.val + 4 == y.val

/-- Likewise for `unique_copy`, for any predicate: only calls with a second argument as it should be
and a first argument that is as it should be, too, or in another segment and passed as a `value_type&`
matter to it. -/
theorem C56_unique_copy_partial {O : Type} (h : c.Reachable E k w) (hr : Range E c first last p q) (Ts : List Ty) (out : O → Passed V → m O) (o : O)
    (P P' : Passed V → Passed V → m Bool)
    (hP : ∀ x y : Passed V, y.typed = Ts.contains y.ty → (x.typed = false ∨ (x.ty = y.ty ∧ x.typed = Ts.contains x.ty)) → P x y = P' x y) :
    Algo.uniqueCopy E c Ts first last out o P = Algo.uniqueCopy E c Ts first last out o P' := by
  obtain ⟨ps, h1, h2⟩ := hr.cut h
  unfold Algo.uniqueCopy
  rw [h1, defd_some, pure_bind, pure_bind]
  exact uniqueCopyIn_agree E (h.inv.core E) hP h2 o _

/-- The predicates are different, but not on such arguments. -/
example (k : Kind) : Range Sample.E0 (Sample.c0 k) (Sample.iter k 2) (Sample.c0 k).end (some (0, 1)) none ∧
    (fun x y : Passed Nat => x.val == y.val) ≠ (fun x y => (x.typed && x.ty != y.ty) || x.val == y.val) ∧
    ∀ x y : Passed Nat, y.typed = [0, 2].contains y.ty → (x.typed = false ∨ (x.ty = y.ty ∧ x.typed = [0, 2].contains x.ty)) →
      (x.val == y.val) = ((x.typed && x.ty != y.ty) || x.val == y.val) := by
  refine ⟨range0 k, fun he => ?_, ?_⟩
  · have := congrFun (congrFun he ⟨0, 1, true⟩) ⟨2, 7, true⟩
    exact absurd this (by decide)
  · rintro x y - (hx | ⟨hx, -⟩) <;> simp [hx]

end PolyColl.Props
