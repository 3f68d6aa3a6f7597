import Verif.Props.SampleRange
import Verif.Lemmas.Placement
import Verif.Props.AlgorithmsMore
/-!
# Property C76: results do not depend on where buffers are in memory

Pointers are addresses, and two iterators are compared by their addresses only.  `Placement` gives
buffers any place in memory that keeps them apart (`Placement.Lays`).
-/

namespace PolyColl.Props
open PolyColl Prog Coll Algo

variable {V : Type} {E : Env V} {k : Kind} {m : Type → Type} [Monad m] [LawfulMonad m]
variable {c : Coll V} {w : World} {first last : GIter} {p q : Spec.State.Pos} {M : Placement}

/-- The buffers of the sample collection: one with elements of 32 bytes, the base subobject at offset
24, and 8 bytes after its end one with elements of 8 bytes. -/
def place0 : Placement where
  buf b := if b = 19 then 104 else if b = 26 then 144 else if b = 25 then 200 else 0
  stride b := if b = 19 then 32 else if b = 26 ∨ b = 25 then 8 else 0
  off b := if b = 19 then 24 else 0

theorem lays0 : place0.Lays (Sample.c0 .packed) := by
  refine ⟨rfl, by decide, ?_⟩
  have : ∀ n ∈ (Sample.c0 .packed).map.nodes, ∀ n' ∈ (Sample.c0 .packed).map.nodes, n.id ≠ n'.id → 0 < n.seg.size → 0 < n'.seg.size →
    place0.buf n.seg.begin.blk + n.seg.be.room * place0.stride n.seg.begin.blk ≤ place0.buf n'.seg.begin.blk ∨
      place0.buf n'.seg.begin.blk + n'.seg.be.room * place0.stride n'.seg.begin.blk ≤ place0.buf n.seg.begin.blk := by decide
  exact fun n hn n' hn' hne => this n hn n' hn' fun e => hne (PolyColl.eq_of_nodup (Sample.reach0 .packed).map.ids hn hn' e)

/-- The same collections with their buffers far apart. -/
def place1 : Placement where
  buf b := 1000 * b
  stride _ := 16
  off b := if b = 0 then 0 else 8

theorem lays1 (k : Kind) : place1.Lays (Sample.c0 k) := by
  refine ⟨rfl, by cases k <;> decide, ?_⟩
  have : ∀ n ∈ (Sample.c0 k).map.nodes, ∀ n' ∈ (Sample.c0 k).map.nodes, n.id ≠ n'.id → 0 < n.seg.size → 0 < n'.seg.size →
    place1.buf n.seg.begin.blk + n.seg.be.room * place1.stride n.seg.begin.blk ≤ place1.buf n'.seg.begin.blk ∨
      place1.buf n'.seg.begin.blk + n'.seg.be.room * place1.stride n'.seg.begin.blk ≤ place1.buf n.seg.begin.blk := by cases k <;> decide
  exact fun n hn n' hn' hne => this n hn n' hn' fun e => hne (PolyColl.eq_of_nodup (Sample.reach0 k).map.ids hn hn' e)

/-- **C76.**  Iterators of a collection have the same address if and only if they are at the same
place, in whichever segments they are. -/
theorem C76_iterators (h : c.Reachable E k w) (hm : M.Lays c) {a b : GIter} (ha : c.At E a p) (hb : c.At E b q) :
    M.addr a.segpos = M.addr b.segpos ↔ p = q := by
  rw [← at_eq E (h.inv.core E) ha hb]
  constructor
  · intro e
    cases p with
    | none =>
      cases q with
      | none => rw [ha.pos.2, hb.pos.2]
      | some q =>
        obtain ⟨t', j⟩ := q
        obtain ⟨n, hn, -, -, hj, hp⟩ := hb.pos
        have := (hm.real n hn (by omega)).1
        have h2 := Placement.Lays.addr_ge (P := M) n j
        rw [ha.pos.2, hm.null, hp] at e
        omega
    | some p =>
      obtain ⟨t, i⟩ := p
      obtain ⟨n, hn, -, -, hi, hp⟩ := ha.pos
      cases q with
      | none =>
        have := (hm.real n hn (by omega)).1
        have h2 := Placement.Lays.addr_ge (P := M) n i
        rw [hb.pos.2, hm.null, hp] at e
        omega
      | some q =>
        obtain ⟨t', j⟩ := q
        obtain ⟨n', hn', -, -, hj, hq⟩ := hb.pos
        rw [hp, hq] at e ⊢
        by_cases hne : n = n'
        · subst hne
          rw [(hm.addr_inj hn (by omega) i j).1 e]
        · have := Backend.size_le_room E ((h.inv.core E).mem.segs n hn)
          exact absurd e (hm.addr_ne E (h.inv.core E) hn hn' hne (by omega) hj (by omega))
  · intro e; rw [e]

/-- **C76** for local base iterators of one segment, its end included. -/
theorem C76_local (h : c.Reachable E k w) (hm : M.Lays c) {a b : LIter} {t : Ty} {i j : Nat} (ha : c.LAtB E a t i) (hb : c.LAtB E b t j) :
    M.addr a.pos = M.addr b.pos ↔ i = j := by
  obtain ⟨n, hu, ht, hi, hp⟩ := ha
  obtain ⟨n', hu', ht', hj, hp'⟩ := hb
  have hn : n = n' := PolyColl.eq_of_nodup (h.map.nodup_ty E) hu.mem hu'.mem (ht.trans ht'.symm)
  subst hn
  rw [hp, hp']
  rcases Nat.eq_zero_or_pos n.seg.size with h0 | h0
  · have : i = j := by omega
    subst this
    simp
  · exact hm.addr_inj hu.mem h0 i j

example (k : Kind) := C76_local (Sample.reach0 k) (lays1 k) (Sample.lbase_at k (n := 1) (by decide)) (Sample.lbase_at k (n := 3) (by decide))

theorem findAt_of (h : c.Reachable E k w) (hr : Range E c first last p q) (hm : M.Lays c) (Ts : List Ty) {alg : List (Passed V) → m Nat}
    (ha : Search alg) : genericFindAt E M c first last (lift E c Ts alg) () = genericFind E c first last (lift E c Ts alg) () := by
  obtain ⟨ps, h1, h2, h3⟩ := cut_from E h.inv hr.at hr.last hr.le
  unfold genericFindAt genericFind
  rw [h1, defd_some, pure_bind, pure_bind]
  exact findInAt_eq E M hm (lift_lifts E (h.inv.core E) Ts ha) h2 () trivial

/-- **C76** for `find_if`, and `find`: wherever the buffers are, the place found is the one
`std::find_if` finds. -/
theorem C76_find_if (h : c.Reachable E k w) (hr : Range E c first last p q) (hm : M.Lays c) (Ts : List Ty) (P : Passed V → m Bool) :
    Finds E c (c.abs.rank p) (Algo.findIfAt E M c Ts first last P) (StdAlg.findIf P (seen Ts c.abs p q)) := by
  unfold Algo.findIfAt
  rw [findAt_of h hr hm Ts (search_findIf P)]
  exact C44_find_if h hr Ts P

/-- **C76** for `find_if_not`. -/
theorem C76_find_if_not (h : c.Reachable E k w) (hr : Range E c first last p q) (hm : M.Lays c) (Ts : List Ty) (P : Passed V → m Bool) :
    Finds E c (c.abs.rank p) (Algo.findIfNotAt E M c Ts first last P) (StdAlg.findIfNot P (seen Ts c.abs p q)) := by
  unfold Algo.findIfNotAt
  rw [findAt_of h hr hm Ts (search_findIfNot P)]
  exact C44_find_if_not h hr Ts P

example (k : Kind) := C76_find_if_not (m := Id) (Sample.reach0 k) (range0 k) (lays1 k) [2] fun x => x.val != 7

/-- **C76** for `find_first_of`. -/
theorem C76_find_first_of {B : Type} (h : c.Reachable E k w) (hr : Range E c first last p q) (hm : M.Lays c) (Ts : List Ty) (bs : List B)
    (P : Passed V → B → m Bool) :
    Finds E c (c.abs.rank p) (Algo.findFirstOfAt E M c Ts first last bs P) (StdAlg.findFirstOf P bs (seen Ts c.abs p q)) := by
  unfold Algo.findFirstOfAt
  rw [findAt_of h hr hm Ts (alg := StdAlg.findFirstOf P bs) (search_findIf fun a => StdAlg.anyOf (P a) bs)]
  exact C44_find_first_of h hr Ts bs P

example (k : Kind) := C76_find_first_of (m := Id) (Sample.reach0 k) (range0 k) (lays1 k) [2] [7, 3] fun x y => x.val == y

/-- **C76** for `mismatch` with four iterators. -/
theorem C76_mismatch4 {B : Type} (h : c.Reachable E k w) (hr : Range E c first last p q) (hm : M.Lays c) (Ts : List Ty) (bs : List B)
    (P : Passed V → B → m Bool) :
    FindsBoth E c (c.abs.rank p) (Algo.mismatch4At E M c Ts first last bs P) (StdAlg.mismatch P (seen Ts c.abs p q) bs) := by
  have : Algo.mismatch4At E M c Ts first last bs P = Algo.mismatch4 E c Ts first last bs P := by
    obtain ⟨ps, h1, h2, h3⟩ := cut_from E h.inv hr.at hr.last hr.le
    unfold Algo.mismatch4At Algo.mismatch4 genericFindAt genericFind
    rw [h1, defd_some, pure_bind, pure_bind]
    exact findInAt_eq E M hm (mismatch4_lifts E (h.inv.core E) Ts P) h2 bs trivial
  rw [this]
  exact C47_mismatch4 h hr Ts bs P

example (k : Kind) := C76_mismatch4 (m := Id) (Sample.reach0 k) (range0 k) (lays1 k) [0] [2, 3, 8, 1] fun x y => x.val == y

/-- **C76** for `mismatch` with three iterators, where the second range is long enough. -/
theorem C76_mismatch3 {B : Type} (h : c.Reachable E k w) (hr : Range E c first last p q) (hm : M.Lays c) (Ts : List Ty) (bs : List B)
    (hb : (c.abs.between p q).length ≤ bs.length) (P : Passed V → B → m Bool) :
    FindsBoth E c (c.abs.rank p) (Algo.mismatch3At E M c Ts first last bs P) (StdAlg.mismatch P (seen Ts c.abs p q) bs) := by
  have : Algo.mismatch3At E M c Ts first last bs P = Algo.mismatch3 E c Ts first last bs P := by
    obtain ⟨ps, h1, h2, h3⟩ := cut_from E h.inv hr.at hr.last hr.le
    unfold Algo.mismatch3At Algo.mismatch3 genericFindAt genericFind
    rw [h1, defd_some, pure_bind, pure_bind]
    refine findInAt_eq E M hm (mismatch3_lifts E (h.inv.core E) Ts P) h2 bs ?_
    rw [(C46_distance h hr).2.2] at hb
    rw [passed_length, List.length_drop, before_length E h.map hr.last]
    exact hb
  rw [this]
  exact C47_mismatch3 h hr Ts bs hb P

example (k : Kind) := C76_mismatch3 (m := Id) (Sample.reach0 k) (range0 k) (lays1 k) [0] [2, 3, 8, 1] (by rw [Sample.abs0]; decide) fun x y => x.val == y

/-- **C76** for `search_n`. -/
theorem C76_search_n (h : c.Reachable E k w) (hr : Range E c first last p q) (hm : M.Lays c) (Ts : List Ty) (count : Int) (P : Passed V → m Bool) :
    Finds E c (c.abs.rank p) (Algo.searchNAt E M c Ts first last count P) (StdAlg.searchN P count (seen Ts c.abs p q)) := by
  have : Algo.searchNAt E M c Ts first last count P = Algo.searchN E c Ts first last count P := by
    unfold Algo.searchNAt Algo.searchN
    by_cases h0 : count ≤ 0
    · rw [if_pos h0, if_pos h0]
    · rw [if_neg h0, if_neg h0]
      obtain ⟨ps, h1, h2, h3⟩ := cut_from E h.inv hr.at hr.last hr.le
      rw [h1, defd_some, pure_bind, pure_bind]
      exact searchNInAt_eq E M h.inv hm Ts P _ h2 false _ 0 none (by omega) rfl fun _ => rfl
  rw [this]
  exact C50_search_n h hr Ts count P

theorem adjacentAt_of (h : c.Reachable E k w) (hr : Range E c first last p q) (hm : M.Lays c) (hc : M.Clear c) (Ts : List Ty)
    (P : Passed V → Passed V → m Bool) : Algo.adjacentFindAt E M c Ts first last P = Algo.adjacentFind E c Ts first last P := by
  obtain ⟨ps, h1, h2, h3⟩ := cut_from E h.inv hr.at hr.last hr.le
  unfold Algo.adjacentFindAt Algo.adjacentFind genericFindAt genericFind
  rw [h1, defd_some, pure_bind, pure_bind, (adjacentInAt_eq E M h.inv hm hc Ts P h2).1 none]

/-- **C76** for `adjacent_find`, where the end of no segment without spare capacity has the address of
an element of another segment.  Missing: see `C76_adjacent_missed`. -/
theorem C76_adjacent_find_partial (h : c.Reachable E k w) (hr : Range E c first last p q) (hm : M.Lays c)
    (hf : ∀ n ∈ c.map.nodes, ∀ n' ∈ c.map.nodes, n ≠ n' → ∀ j, 0 < n.seg.size → n.seg.size = n.seg.be.room → j < n'.seg.size →
      M.addr (n.seg.base n.seg.size) ≠ M.addr (n'.seg.base j)) (Ts : List Ty) (P : Passed V → Passed V → m Bool) :
    Finds E c (c.abs.rank p) (Algo.adjacentFindAt E M c Ts first last P) (StdAlg.adjacentFind (asNeighbours Ts P) (c.abs.between p q)) := by
  rw [adjacentAt_of h hr hm (hm.clear E (h.inv.core E) hf)]
  exact C45_adjacent_find h hr Ts P

example (k : Kind) := C76_adjacent_find_partial (m := Id) (Sample.reach0 k) (range0 k) (lays1 k) (by
  have hf : ∀ n ∈ (Sample.c0 k).map.nodes, ∀ n' ∈ (Sample.c0 k).map.nodes, n.id ≠ n'.id → ∀ j, j < n'.seg.size →
      place1.addr (n.seg.base n.seg.size) ≠ place1.addr (n'.seg.base j) := by cases k <;> decide
  exact fun n hn n' hn' hne j _ _ hj => hf n hn n' hn' (fun e => hne (PolyColl.eq_of_nodup (Sample.reach0 k).map.ids hn hn' e)) j hj)
  [0] fun x y => x.val + 4 == y.val

/-- This is so wherever the buffers are if the layout is split: the index has an entry for the end. -/
theorem C76_adjacent_find_split (h : c.Reachable E .split w) (hr : Range E c first last p q) (hm : M.Lays c) (Ts : List Ty)
    (P : Passed V → Passed V → m Bool) :
    Finds E c (c.abs.rank p) (Algo.adjacentFindAt E M c Ts first last P) (StdAlg.adjacentFind (asNeighbours Ts P) (c.abs.between p q)) := by
  refine C76_adjacent_find_partial h hr hm (fun n hn n' _ _ j _ he _ => ?_) Ts P
  have := Backend.size_lt_room E ((h.inv.core E).mem.segs n hn) ((h.map.kind n hn).trans h.kind)
  omega

example := C76_adjacent_find_split (m := Id) (Sample.reach0 .split) (range0 .split) (lays1 .split) [0] fun x y => x.val + 4 == y.val

/-- It is so in the packed layout too if no two buffers touch and the base subobject has the same
offset in all types. -/
theorem C76_adjacent_find_apart_partial (h : c.Reachable E k w) (hr : Range E c first last p q) (hm : M.Lays c) {d : Nat}
    (hd : ∀ n ∈ c.map.nodes, 0 < n.seg.size → M.off n.seg.begin.blk = d)
    (hg : ∀ n ∈ c.map.nodes, ∀ n' ∈ c.map.nodes, 0 < n.seg.size → 0 < n'.seg.size →
      M.buf n.seg.begin.blk + n.seg.be.room * M.stride n.seg.begin.blk ≠ M.buf n'.seg.begin.blk) (Ts : List Ty) (P : Passed V → Passed V → m Bool) :
    Finds E c (c.abs.rank p) (Algo.adjacentFindAt E M c Ts first last P) (StdAlg.adjacentFind (asNeighbours Ts P) (c.abs.between p q)) := by
  rw [adjacentAt_of h hr hm (hm.clear_gap hd hg E (h.inv.core E))]
  exact C45_adjacent_find h hr Ts P

/-- **C76 fails** for `adjacent_find` of a `base_collection`.  The elements 3 and 7 are neighbours with
the property; but the address of 3 is that of the end of the segment of 7, and nothing is found. -/
theorem C76_adjacent_missed :
    (Sample.c0 .packed).Reachable Sample.E0 .packed (Sample.w0 .packed) ∧
    Range Sample.E0 (Sample.c0 .packed) (Sample.iter .packed 2) (Sample.c0 .packed).end (some (0, 1)) none ∧
    place0.Lays (Sample.c0 .packed) ∧
    StdAlg.adjacentFind (m := Id) (fun x y : Ty × Nat => x.2 + 4 == y.2) ((Sample.c0 .packed).abs.between (some (0, 1)) none) = 1 ∧
    (Algo.adjacentFindAt (m := Id) Sample.E0 place0 (Sample.c0 .packed) [] (Sample.iter .packed 2) (Sample.c0 .packed).end
      fun x y => x.val + 4 == y.val).run = some (Sample.c0 .packed).end := by
  exact ⟨Sample.reach0 _, range0 _, lays0, (by rw [Sample.abs0]; rfl), rfl⟩

/-- There the elements 3 and 7 are found, and so is 7; the iterators to them have different addresses. -/
example (k : Kind) : (∃ it, (Algo.adjacentFindAt (m := Id) Sample.E0 place1 (Sample.c0 k) [] (Sample.iter k 2) (Sample.c0 k).end
      fun x y => x.val + 4 == y.val).run = some it ∧ it.segpos = (Sample.iter k 3).segpos) ∧
    (∃ it, (Algo.findIfAt (m := Id) Sample.E0 place1 (Sample.c0 k) [2] (Sample.iter k 2) (Sample.c0 k).end
      fun x => x.typed).run = some it ∧ it.segpos = (Sample.iter k 4).segpos) ∧
    place1.addr (Sample.iter k 3).segpos ≠ place1.addr (Sample.iter k 4).segpos := by
  refine ⟨?_, ?_, fun e => absurd ((C76_iterators (Sample.reach0 k) (lays1 k) (Sample.iter_three k) (Sample.iter_four k)).1 e) (by decide)⟩
  · have hs := C76_adjacent_find_apart_partial (m := Id) (d := 8) (Sample.reach0 k) (range0 k) (lays1 k) (by cases k <;> decide) (by cases k <;> decide)
      [] fun x y => x.val + 4 == y.val
    rw [Sample.abs0] at hs
    obtain ⟨it, p', h1, h2, h3⟩ := hs.id
    exact ⟨it, h1, (AtRank.eq Sample.E0 ((Sample.reach0 k).inv.core _) ⟨p', h2, h3⟩ ⟨_, Sample.iter_three k, by rw [Sample.abs0]; rfl⟩).2 rfl⟩
  · have hs := C76_find_if (m := Id) (Sample.reach0 k) (range0 k) (lays1 k) [2] fun x => x.typed
    rw [seen0, rank0] at hs
    obtain ⟨it, p', h1, h2, h3⟩ := hs.id
    exact ⟨it, h1, (AtRank.eq Sample.E0 ((Sample.reach0 k).inv.core _) ⟨p', h2, h3⟩ ⟨_, Sample.iter_four k, by rw [Sample.abs0]; rfl⟩).2 rfl⟩

/-- With the buffers of `place0` other searches work: two odd elements in a row, 3 and 7. -/
example : ∃ it, (Algo.searchNAt (m := Id) Sample.E0 place0 (Sample.c0 .packed) [0] (Sample.iter .packed 2) (Sample.c0 .packed).end 2
      fun x => x.val % 2 == 1).run = some it ∧ it.segpos = (Sample.iter .packed 3).segpos := by
  have hs := C76_search_n (m := Id) (Sample.reach0 .packed) (range0 .packed) lays0 [0] 2 fun x => x.val % 2 == 1
  rw [seen0, rank0] at hs
  obtain ⟨it, p', h1, h2, h3⟩ := hs.id
  exact ⟨it, h1, (AtRank.eq Sample.E0 ((Sample.reach0 _).inv.core _) ⟨p', h2, h3⟩ ⟨_, Sample.iter_three _, by rw [Sample.abs0]; rfl⟩).2 rfl⟩

end PolyColl.Props
