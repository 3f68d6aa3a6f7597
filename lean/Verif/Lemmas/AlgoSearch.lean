import Verif.Lemmas.AlgoCount
/-! # Searching for subsequences -/

namespace PolyColl
namespace StdAlg
variable {m : Type → Type} [Monad m] [LawfulMonad m] {A B : Type}

/-- The first `k` steps of `search`. -/
def searchPart (p : A → B → m Bool) (bs : List B) : Nat → List A → m (Option Nat)
  | 0, _ => pure none
  | _ + 1, [] => pure none
  | k + 1, a :: l => do
    let r ← mismatch p (a :: l) bs
    if r.2.isEmpty then pure (some 0) else (fun o => o.map (· + 1)) <$> searchPart p bs k l

theorem search_split (p : A → B → m Bool) (bs : List B) : ∀ (k : Nat) (l : List A), k ≤ l.length →
    search p bs l = searchPart p bs k l >>= fun o => match o with
      | some n => pure n
      | none => (fun n => n + k) <$> search p bs (l.drop k)
  | 0, l, _ => by simp [searchPart]
  | k + 1, [], h => by simp at h
  | k + 1, a :: l, h => by
    have ih := search_split p bs k l (by simpa using h)
    simp only [search, searchPart, bind_assoc, ih]
    refine bind_congr fun r => ?_
    cases r.2.isEmpty
    · simp only [Bool.false_eq_true, if_false, bind_map_left, List.drop_succ_cons]
      refine bind_congr fun o => ?_
      cases o with
      | none => simp [Nat.add_assoc]
      | some n => simp
    · simp

end StdAlg

open Prog
namespace Algo
variable {V : Type} (E : Env V) {m : Type → Type} [Monad m] [LawfulMonad m] {σ B O W : Type}
open Coll

/-- The elements up to a position. -/
abbrev before (c : Coll V) (q : Spec.State.Pos) : List (Ty × V) := c.abs.typedFlat.take (c.abs.rank q)

theorem before_length {c : Coll V} {w : World} (h : c.map.Inv E c.kind w) {last : GIter} {q : Spec.State.Pos} (hl : c.At E last q) :
    (before c q).length = c.abs.rank q := by
  rw [before, List.length_take, Spec.State.typedFlat_length, Nat.min_eq_left (Spec.State.rank_le (hl.valid E h))]

/-- Cutting the range from an iterator known by its number. -/
theorem cut_from {c : Coll V} {w : World} (h : c.Inv E w) {it last : GIter} {r : Nat} {q : Spec.State.Pos} (hi : AtRank E c it r)
    (hl : c.At E last q) (hr : r ≤ c.abs.rank q) :
    ∃ ps, segmentSplit E c it last = some ps ∧ Cut E c false ps r ((before c q).drop r) ∧ EndAt E c last (r + ((before c q).drop r).length) := by
  obtain ⟨p, hp, rfl⟩ := hi
  obtain ⟨ps, h1, h2⟩ := segmentSplit_cut E h hp hl hr
  rw [between_eq] at h2
  refine ⟨ps, h1, h2, ?_⟩
  rw [List.length_drop, before_length E h.map hl, Nat.add_sub_cancel' hr]
  exact EndAt.of E hl

theorem mismatch4_from {c : Coll V} {w : World} (h : c.Inv E w) (Ts : List Ty) (p : Passed V → B → m Bool) {it last : GIter} {r : Nat}
    {q : Spec.State.Pos} (hi : AtRank E c it r) (hl : c.At E last q) (hr : r ≤ c.abs.rank q) (bs : List B) :
    Sim (fun x y => AtRank E c x.1 (r + y.1) ∧ x.2 = y.2 ∧ y.1 ≤ ((before c q).drop r).length) (mismatch4 E c Ts it last bs p)
      (StdAlg.mismatch p (passed Ts ((before c q).drop r)) bs) := by
  obtain ⟨ps, h1, h2, h3⟩ := cut_from E h hi hl hr
  exact Sim.defd h1 (mismatch4In_sim E h Ts p h2 h3 bs)

theorem mismatch3_from {c : Coll V} {w : World} (h : c.Inv E w) (Ts : List Ty) (p : Passed V → B → m Bool) {it last : GIter} {r : Nat}
    {q : Spec.State.Pos} (hi : AtRank E c it r) (hl : c.At E last q) (hr : r ≤ c.abs.rank q) (bs : List B) (hb : c.abs.rank q - r ≤ bs.length) :
    Sim (fun x y => AtRank E c x.1 (r + y.1) ∧ x.2 = y.2 ∧ y.1 ≤ ((before c q).drop r).length) (mismatch3 E c Ts it last bs p)
      (StdAlg.mismatch p (passed Ts ((before c q).drop r)) bs) := by
  obtain ⟨ps, h1, h2, h3⟩ := cut_from E h hi hl hr
  refine Sim.defd h1 (mismatch3In_sim E h Ts p h2 h3 bs ?_)
  rw [List.length_drop, before_length E h.map hl]
  exact hb

/-- The iterators to places of a segment. -/
def placesAt (it : MapIt) (s : Seg V) (a k : Nat) : List LIter := (List.range k).map fun j => ⟨it, s.base (a + j)⟩

theorem placesAt_succ (it : MapIt) (s : Seg V) (a k : Nat) : placesAt it s a (k + 1) = ⟨it, s.base a⟩ :: placesAt it s (a + 1) k := by
  simp only [placesAt, List.range_succ_eq_map, List.map_cons, List.map_map, Nat.add_zero]
  congr 1
  refine List.map_congr_left fun j _ => ?_
  simp only [Function.comp, Nat.add_assoc, Nat.succ_eq_add_one, Nat.add_comm 1]

theorem searchInner_sim {c : Coll V} {w : World} (h : c.Inv E w) (Ts : List Ty) (p : Passed V → B → m Bool) {last : GIter}
    {q : Spec.State.Pos} (hl : c.At E last q) (bs : List B) {it : MapIt} {n : Node V} (hu : c.map.Use E it n) :
    ∀ (k a r : Nat), a + k ≤ n.seg.size → c.abs.rank (some (n.seg.ty, a)) = r → r + k ≤ c.abs.rank q →
      Sim (fun x y => (x = none ∧ y = none) ∨ ∃ i j, x = some i ∧ y = some j ∧ AtRank E c i (r + j) ∧ j < k)
        (searchInner E c Ts last bs p (placesAt it n.seg a k)) (StdAlg.searchPart p bs k (passed Ts ((before c q).drop r))) := by
  intro k
  induction k with
  | zero => intro a r _ _ _; exact Sim.pure (.inl ⟨rfl, rfl⟩)
  | succ k ih =>
    intro a r ha hr hq
    rw [placesAt_succ, searchInner]
    obtain ⟨g, g1, g2⟩ := iteratorFrom_eq E h hu (k := a) (by omega) hl.endUsable hl.endNode
    rw [hr] at g2
    refine Sim.defd g1 ?_
    have hm := mismatch4_from E h Ts p g2 hl (by omega) bs
    have hlt : r < (before c q).length := by rw [before_length E h.map hl]; omega
    rw [List.drop_eq_getElem_cons hlt] at hm ⊢
    simp only [passed, List.map_cons, StdAlg.searchPart] at hm ⊢
    refine hm.bind fun x y hxy => ?_
    rw [hxy.2.1]
    refine Sim.ite (fun _ => Sim.pure (.inr ⟨g, 0, rfl, rfl, g2, Nat.succ_pos _⟩)) (fun _ => ?_)
    have := ih (a + 1) (r + 1) (by omega) (by rw [rank_add E h.map hu.mem, hr]) (by omega)
    obtain ⟨z, h1, h2⟩ := this
    refine ⟨(fun x => ⟨(x.1.1, x.1.2.map (· + 1)), ?_⟩) <$> z, ?_, ?_⟩
    · rcases x.2 with ⟨e1, e2⟩ | ⟨i, j, e1, e2, e3, e4⟩
      · exact .inl ⟨e1, by rw [e2]; rfl⟩
      · refine .inr ⟨i, j + 1, e1, by rw [e2]; rfl, ?_, Nat.succ_lt_succ e4⟩
        rw [show r + (j + 1) = r + 1 + j by omega]
        exact e3
    · rw [h1, Functor.map_map]
    · rw [show List.map (Passed.of Ts) (List.drop (r + 1) (before c q)) = passed Ts (List.drop (r + 1) (before c q)) from rfl, h2,
        Functor.map_map, Functor.map_map]

theorem searchOuter_sim {c : Coll V} {w : World} (h : c.Inv E w) (Ts : List Ty) (p : Passed V → B → m Bool) {last : GIter}
    {q : Spec.State.Pos} (hl : c.At E last q) (bs : List B) {f : Bool} {ps : List SegInfo} {r : Nat} {l : List (Ty × V)} (hc : Cut E c f ps r l) :
    l = (before c q).drop r → r ≤ c.abs.rank q →
    Sim (fun x n => AtRank E c x (r + n) ∧ n ≤ l.length) (searchOuter E c Ts last bs p ps) (StdAlg.search p bs (passed Ts l)) := by
  induction hc with
  | nil f r =>
    intro he hr
    have : r = c.abs.rank q := by
      have := congrArg List.length he
      rw [List.length_drop, before_length E h.map hl] at this
      simp only [List.length_nil] at this
      omega
    exact Sim.pure ⟨⟨q, hl, this.symm⟩, Nat.le_refl _⟩
  | @cons f i is n a b r l hp hr hz hc ih =>
    intro he hrq
    have hlen : (sliceOf n.seg a (b - a)).length = b - a := by
      have := hp.le
      have := hp.le'
      exact sliceOf_length (by omega)
    have hd : l = (before c q).drop (r + (b - a)) := by
      rw [← List.drop_drop, ← he, List.drop_append, List.drop_eq_nil_of_le (by omega), hlen, Nat.sub_self]
      simp
    have hle : r + (b - a) ≤ c.abs.rank q := by
      have := congrArg List.length he
      rw [List.length_append, List.length_drop, before_length E h.map hl, hlen] at this
      omega
    rw [StdAlg.search_split p bs (b - a) _ (by rw [passed_length, List.length_append]; omega), searchOuter]
    refine Sim.defd (hp.places E) ?_
    rw [show StdAlg.searchPart p bs (b - a) (passed Ts (sliceOf n.seg a (b - a) ++ l)) =
      StdAlg.searchPart p bs (b - a) (passed Ts ((before c q).drop r)) by rw [he]]
    refine (searchInner_sim E h Ts p hl bs hp.use (b - a) a r (by have := hp.le; have := hp.le'; omega) hr hle).bind fun x y hxy => ?_
    rcases hxy with ⟨rfl, rfl⟩ | ⟨it, j, rfl, rfl, hxy, hj⟩
    · have hdr : List.drop (b - a) (passed Ts (sliceOf n.seg a (b - a) ++ l)) = passed Ts l := by
        rw [passed, he, ← List.map_drop, List.drop_drop, ← hd]
        rfl
      simp only [hdr]
      obtain ⟨z, h1, h2⟩ := ih hd hle
      refine ⟨(fun x => ⟨(x.1.1, x.1.2 + (b - a)), ?_⟩) <$> z, ?_, ?_⟩
      · refine ⟨?_, by simp only [List.length_append]; have := x.2.2; omega⟩
        have : r + (x.1.2 + (b - a)) = r + (b - a) + x.1.2 := by omega
        simp only [this]
        exact x.2.1
      · rw [h1, Functor.map_map]
      · rw [h2, Functor.map_map, Functor.map_map]
    · exact Sim.pure ⟨hxy, by simp only [List.length_append]; omega⟩

/-- `search`. -/
theorem search_from {c : Coll V} {w : World} (h : c.Inv E w) (Ts : List Ty) (p : Passed V → B → m Bool) {it last : GIter} {r : Nat}
    {q : Spec.State.Pos} (hi : AtRank E c it r) (hl : c.At E last q) (hr : r ≤ c.abs.rank q) (bs : List B) :
    Sim (fun x n => AtRank E c x (r + n) ∧ n ≤ ((before c q).drop r).length) (search E c Ts it last bs p) (StdAlg.search p bs (passed Ts ((before c q).drop r))) := by
  obtain ⟨ps, h1, h2, h3⟩ := cut_from E h hi hl hr
  exact Sim.defd h1 (searchOuter_sim E h Ts p hl bs h2 rfl hr)

theorem findEndFrom_sim {c : Coll V} {w : World} (h : c.Inv E w) (Ts : List Ty) (p : Passed V → B → m Bool) {last : GIter}
    {q : Spec.State.Pos} (hl : c.At E last q) (bs : List B) (r0 : Nat) :
    ∀ (fuel : Nat) (it res : GIter) (r off k : Nat), AtRank E c it r → r ≤ c.abs.rank q → r = r0 + off → AtRank E c res (r0 + k) →
      c.abs.rank q - r < fuel →
      Sim (fun x n => AtRank E c x (r0 + n)) (findEndFrom E c Ts last bs p it res fuel)
        (StdAlg.findEndFrom p bs (passed Ts ((before c q).drop r)) off k) := by
  intro fuel
  induction fuel with
  | zero => intro it res r off k _ _ _ _ hfu; omega
  | succ fuel ih =>
    intro it res r off k hi hr hro hk hfu
    rw [findEndFrom, StdAlg.findEndFrom]
    refine (search_from E h Ts p hi hl hr bs).bind fun x n hxn => ?_
    obtain ⟨hx, hn⟩ := hxn
    have hlen : ((before c q).drop r).length = c.abs.rank q - r := by rw [List.length_drop, before_length E h.map hl]
    rw [hlen] at hn
    have heq := AtRank.eq E (Inv.core E h) hx ⟨q, hl, rfl⟩
    simp only [passed_length, hlen]
    by_cases hn' : n < c.abs.rank q - r
    · have hne : ¬ x.segpos = last.segpos := fun e => by have := heq.1 e; omega
      rw [if_neg hne, dif_pos hn']
      have hle := Spec.State.rank_le (hl.valid E h.map)
      obtain ⟨x', h1, h2⟩ := hx.increment E h (by omega)
      refine Sim.defd h1 ?_
      have := ih x' x (r + n + 1) (off + n + 1) (off + n) h2 (by omega) (by omega) (by rw [show r0 + (off + n) = r + n by omega]; exact hx) (by omega)
      rw [passed, ← List.map_drop, List.drop_drop, ← Nat.add_assoc]
      exact this
    · rw [if_pos (heq.2 (by omega)), dif_neg hn']
      exact Sim.pure hk

/-- `find_end`. -/
theorem findEnd_sim {c : Coll V} {w : World} (h : c.Inv E w) (Ts : List Ty) (p : Passed V → B → m Bool) {it last : GIter} {r : Nat}
    {q : Spec.State.Pos} (hi : AtRank E c it r) (hl : c.At E last q) (hr : r ≤ c.abs.rank q) (bs : List B) :
    Sim (fun x n => AtRank E c x (r + n)) (findEnd E c Ts it last bs p) (StdAlg.findEnd p bs (passed Ts ((before c q).drop r))) := by
  unfold findEnd StdAlg.findEnd
  have hlen : (passed Ts ((before c q).drop r)).length = c.abs.rank q - r := by rw [passed_length, List.length_drop, before_length E h.map hl]
  have hlast : AtRank E c last (r + (c.abs.rank q - r)) := ⟨q, hl, by omega⟩
  refine Sim.ite (fun _ => Sim.pure (by rw [hlen]; exact hlast)) (fun _ => ?_)
  refine findEndFrom_sim E h Ts p hl bs r _ it last r 0 _ hi hr rfl (by rw [hlen]; exact hlast) ?_
  have := Spec.State.rank_le (hl.valid E h.map)
  rw [size_abs c]
  omega

end Algo
end PolyColl
