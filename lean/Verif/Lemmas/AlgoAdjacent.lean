import Verif.Lemmas.AlgoCarry
/-! # Algorithms that compare neighbours -/

namespace PolyColl
namespace StdAlg
variable {m : Type → Type} [Monad m] [LawfulMonad m] {A B : Type}

theorem adjacentFind_append (p : A → A → m Bool) (k : List A) (z : A) (l : List A) :
    adjacentFind p (k ++ z :: l) = adjacentFind p (k ++ [z]) >>= fun n =>
      if n = k.length + 1 then (fun j => j + k.length) <$> adjacentFind p (z :: l) else pure n := by
  induction k with
  | nil => simp [adjacentFind]
  | cons a k ih =>
    cases k with
    | nil =>
      simp only [List.cons_append, List.nil_append, adjacentFind, bind_assoc]
      refine bind_congr fun b => ?_
      cases b <;> simp
    | cons b k =>
      simp only [List.cons_append, adjacentFind, bind_assoc] at ih ⊢
      refine bind_congr fun c => ?_
      cases c
      · simp only [Bool.false_eq_true, if_false, ih, bind_assoc, pure_bind, List.length_cons, Nat.add_right_cancel_iff]
        refine bind_congr fun n => ?_
        split
        · simp [Nat.add_assoc]
        · simp
      · simp

omit [LawfulMonad m] in
/-- The same for elements given in another form. -/
theorem adjacentFind_map (p : A → A → m Bool) (f : B → A) (l : List B) :
    adjacentFind p (l.map f) = adjacentFind (fun x y => p (f x) (f y)) l := by
  induction l with
  | nil => rfl
  | cons a l ih =>
    cases l with
    | nil => rfl
    | cons b l =>
      simp only [List.map_cons, adjacentFind] at ih ⊢
      rw [ih]

omit [LawfulMonad m] in
theorem adjacentFind_congr (p q : A → A → m Bool) (l : List A) (h : ∀ x ∈ l, ∀ y ∈ l, p x y = q x y) : adjacentFind p l = adjacentFind q l := by
  induction l with
  | nil => rfl
  | cons a l ih =>
    cases l with
    | nil => rfl
    | cons b l =>
      simp only [adjacentFind, h a (by simp) b (by simp)]
      rw [ih fun x hx y hy => h x (List.mem_cons_of_mem _ hx) y (List.mem_cons_of_mem _ hy)]

end StdAlg

open Prog
namespace Algo
variable {V : Type} (E : Env V) {m : Type → Type} [Monad m] [LawfulMonad m] {σ B O W : Type}
open Coll

/-- What a binary predicate is given for an element and the one before it: the latter is given as
`value_type&` if it is of another type, that is, lies in another segment. -/
def nextTo (Ts : List Ty) (p : Passed V → Passed V → m Bool) (x y : Ty × V) : m Bool :=
  p (if x.1 = y.1 then Passed.of Ts x else ⟨x.1, x.2, false⟩) (Passed.of Ts y)

theorem adjacent_bound (p : Passed V → Passed V → m Bool) (a : Passed V) (l : List (Passed V)) :
    Results (fun n => n ≤ l.length + 1) (StdAlg.adjacentFind p (a :: l)) := by
  induction l generalizing a with
  | nil => exact Results.pure (Nat.le_refl _)
  | cons b l ih =>
    refine Results.anyBind fun c => Results.ite (fun _ => Results.pure (Nat.zero_le _)) (fun _ => (ih b).bind fun n hn => Results.pure ?_)
    simp only [List.length_cons]
    omega

/-- The element before place `r`, the last one of another segment than the one that starts there. -/
structure Prev (c : Coll V) (lp : Option LIter) (z : Ty × V) (r : Nat) : Prop where
  prev : ∃ l n j, lp = some l ∧ c.map.Use E l.mapit n ∧ l.pos = n.seg.base j ∧ n.seg.elems[j]? = some z.2 ∧ n.seg.ty = z.1 ∧
    c.abs.rank (some (n.seg.ty, j)) + 1 = r

theorem sliceOf_ty {s : Seg V} {a n : Nat} {x : Ty × V} (h : x ∈ sliceOf s a n) : x.1 = s.ty := by
  simp only [sliceOf, List.mem_map] at h
  obtain ⟨v, -, rfl⟩ := h
  rfl

/-- The last element of a piece that is not empty. -/
theorem sliceOf_last {s : Seg V} {a b : Nat} (h : a < b) (hb : b ≤ s.size) :
    ∃ k v, sliceOf s a (b - a) = k ++ [(s.ty, v)] ∧ k.length = b - a - 1 ∧ s.elems[b - 1]? = some v := by
  have hlt : b - 1 < s.elems.length := by have : s.elems.length = s.size := rfl; omega
  refine ⟨sliceOf s a (b - a - 1), s.elems[b - 1], ?_, sliceOf_length (by omega), List.getElem?_eq_getElem hlt⟩
  have h1 : b - a = b - a - 1 + 1 := by omega
  rw [h1]
  simp only [sliceOf, Nat.add_sub_cancel]
  rw [List.take_add_one, List.map_append, List.getElem?_drop, show a + (b - a - 1) = b - 1 by omega, List.getElem?_eq_getElem hlt]
  rfl

theorem base_ne {c : Coll V} {w : World} (h : c.Inv E w) {n n' : Node V} (hn : n ∈ c.map.nodes) (hn' : n' ∈ c.map.nodes) (hne : n ≠ n')
    (h1 : 0 < n.seg.size) (a b : Nat) : n.seg.base a ≠ n'.seg.base b := by
  intro e
  have hb : (n.seg.base a).blk = (n'.seg.base b).blk := congrArg Ptr.blk e
  have hb : n.seg.begin.blk = n'.seg.begin.blk := hb
  have hz := disj_mem h.mem hn hn' hne _ (Seg.begin_blk_mem _) (hb ▸ Seg.begin_blk_mem n'.seg)
  exact Seg.begin_blk_ne E ((Inv.core E h).mem.segs n hn) h1 hz

/-- The part of `adjacent_find_alg` after the carried element. -/
def adjacentRest (c : Coll V) (p : Passed V → Passed V → m Bool) (r : LRange V) (s : Option LIter) (a : Passed V) (l : List (Passed V)) :
    OptionT m (LIter × Bool × Option LIter) := do
  let n ← call (StdAlg.adjacentFind p (a :: l))
  let res ← defd (r.at E c n)
  if n = (a :: l).length then
    let prev ← defd (r.at E c l.length)
    return (res, true, some prev)
  else return (res, false, s)

/-- Where a piece is left. -/
def AtPiece (i : SegInfo) (n : Node V) (a b : Nat) (x : LIter × Bool × Option LIter) (k : Nat) : Prop :=
  x.1 = ⟨i.first.mapit, n.seg.base (a + k)⟩ ∧ k ≤ b - a ∧ (k = b - a → x.2 = (true, some ⟨i.first.mapit, n.seg.base (b - 1)⟩))

theorem adjacentRest_sim {c : Coll V} {w : World} (h : c.Core E w) (p : Passed V → Passed V → m Bool) {i : SegInfo} {n : Node V}
    {a b : Nat} (hp : IsPiece E c i n a b) {rg : LRange V} (hr : IsRange E c rg n a) (hm : rg.mapit = i.first.mapit) (s : Option LIter)
    {x : Passed V} {xs : List (Passed V)} (hl : xs.length + 1 = b - a) :
    Sim (fun y k => AtPiece i n a b y k) (adjacentRest E c p rg s x xs) (StdAlg.adjacentFind p (x :: xs)) := by
  have hle := hp.le
  have hle' := hp.le'
  refine Sim.congr (y := StdAlg.adjacentFind p (x :: xs) >>= pure) ?_ (by simp)
  refine (adjacent_bound p x xs).sim.bind fun k k' hk => ?_
  obtain ⟨rfl, hk⟩ := hk
  refine Sim.defd (hr.at E h (k := k) (by omega)) ?_
  simp only [List.length_cons, hl]
  by_cases he : k = b - a
  · rw [if_pos he]
    refine Sim.defd (hr.at E h (k := xs.length) (by omega)) (Sim.pure ⟨by rw [hm], by omega, fun _ => ?_⟩)
    rw [hm, show a + xs.length = b - 1 by omega]
  · rw [if_neg he]
    exact Sim.pure ⟨by rw [hm], by omega, fun e => absurd e he⟩

theorem adjacentN_sim {c : Coll V} {w : World} (h : c.Core E w) (Ts : List Ty) (p : Passed V → Passed V → m Bool) {i : SegInfo} {n : Node V}
    {a b : Nat} (hp : IsPiece E c i n a b) (hab : a < b) (s : Option LIter) :
    Sim (fun y k => AtPiece i n a b y k) (adjacentFindAlg E c Ts p none i (false, s))
      (StdAlg.adjacentFind p (passed Ts (sliceOf n.seg a (b - a)))) := by
  obtain ⟨rg, h1, h2, h3, h4⟩ := hp.rangeP E h Ts
  have hlen := sliceP_length (Ts := Ts) E hp
  refine Sim.defd h1 ?_
  rw [← h3] at hlen ⊢
  cases hv : rg.vals with
  | nil => rw [hv] at hlen; simp only [List.length_nil] at hlen; omega
  | cons x xs =>
    rw [hv] at hlen
    simp only [Bool.false_eq_true, if_false, pure_bind]
    exact adjacentRest_sim E h p hp h2 h4 s hlen

theorem adjacentC_sim {c : Coll V} {w : World} (h : c.Core E w) (Ts : List Ty) (p : Passed V → Passed V → m Bool) {i : SegInfo} {n : Node V}
    {a b : Nat} (hp : IsPiece E c i n a b) {prev : Option LIter} {z y : Ty × V} {ys : List (Ty × V)} {r : Nat} (hz : Prev E c prev z r)
    (hs : sliceOf n.seg a (b - a) = y :: ys) (hty : z.1 ≠ n.seg.ty) :
    Sim (fun x k => match k with | none => prev = some x.1 | some k => AtPiece i n a b x k) (adjacentFindAlg E c Ts p none i (true, prev))
      (nextTo Ts p z y >>= fun b => if b then pure none else some <$> StdAlg.adjacentFind p (passed Ts (y :: ys))) := by
  obtain ⟨rg, h1, h2, h3, h4⟩ := hp.rangeP E h Ts
  have hlen := sliceP_length (Ts := Ts) E hp
  have hy : y.1 = n.seg.ty := sliceOf_ty (s := n.seg) (a := a) (n := b - a) (by rw [hs]; simp)
  rw [hs] at h3 hlen
  refine Sim.defd h1 ?_
  rw [← h3] at hlen ⊢
  have hv : rg.vals = Passed.of Ts y :: passed Ts ys := h3
  rw [hv] at hlen ⊢
  obtain ⟨l0, n0, j, e1, e2, e3, e4, e5, e6⟩ := hz
  subst e1
  have hz' : derefAs E c Ts none l0 = some ⟨z.1, z.2, false⟩ := by rw [derefAs_void E h Ts e2 e3 e4, e5]
  have hne : ¬ z.1 = y.1 := fun e => hty (e.trans hy)
  simp only [if_true, bind_assoc, nextTo, if_neg hne]
  refine Sim.defd rfl (Sim.defd hz' (Sim.callBind fun q => ?_))
  cases q
  · simp only [Bool.false_eq_true, if_false, pure_bind]
    obtain ⟨u, g1, g2⟩ := adjacentRest_sim E h p hp h2 h4 (some l0) (x := Passed.of Ts y) (xs := passed Ts ys) hlen
    refine ⟨(fun q => ⟨(q.1.1, some q.1.2), q.2⟩) <$> u, ?_, ?_⟩
    · rw [Functor.map_map, ← g1]
      rfl
    · rw [g2, Functor.map_map, Functor.map_map]
  · simp only [if_true, pure_bind]
    exact Sim.pure rfl

theorem adjacentIn_sim {c : Coll V} {w : World} (h : c.Inv E w) (Ts : List Ty) (p : Passed V → Passed V → m Bool) {last : GIter}
    {f : Bool} {ps : List SegInfo} {r : Nat} {l : List (Ty × V)} (hc : Cut E c f ps r l) : EndAt E c last (r + l.length) →
    (∀ s, Sim (fun x k => AtRank E c x.1 (r + k)) (findIn E c last (adjacentFindAlg E c Ts p none) ps (false, s))
      (StdAlg.adjacentFind (nextTo Ts p) l)) ∧
    (f = true → ∀ s z, Prev E c s z r → Sim (fun x k => AtRank E c x.1 (r - 1 + k)) (findIn E c last (adjacentFindAlg E c Ts p none) ps (true, s))
      (StdAlg.adjacentFind (nextTo Ts p) (z :: l))) := by
  induction hc with
  | nil f r =>
    intro he
    refine ⟨fun s => Sim.pure he.atRank, fun _ s z hz => Sim.pure ?_⟩
    obtain ⟨l0, n0, j, e1, e2, e3, e4, e5, e6⟩ := hz
    rw [show r - 1 + 1 = r by omega]
    exact he.atRank
  | @cons f i is n a b r l hp hrk hz hc ih =>
    intro he
    have hle := hp.le
    have hle' := hp.le'
    have hsl : (sliceOf n.seg a (b - a)).length = b - a := sliceOf_length (by omega)
    have he' : EndAt E c last (r + (b - a) + l.length) := by
      rw [List.length_append, ← Nat.add_assoc, hsl] at he
      exact he
    obtain ⟨ih1, ih2⟩ := ih he'
    have hpos : ∀ k, (n.seg.base (a + k) ≠ i.last.pos) ↔ k ≠ b - a := by
      intro k
      rw [hp.last, ne_eq, base_inj]
      omega
    by_cases hab : a < b
    · obtain ⟨k, v, hk1, hk2, hk3⟩ := sliceOf_last hab hle'
      have hprev : Prev E c (some ⟨i.first.mapit, n.seg.base (b - 1)⟩) (n.seg.ty, v) (r + (b - a)) := by
        refine ⟨_, n, b - 1, rfl, hp.use, rfl, hk3, rfl, ?_⟩
        have := rank_add E h.map hp.use.mem a (b - 1 - a)
        rw [show a + (b - 1 - a) = b - 1 by omega, hrk] at this
        omega
      have hrest := ih2 rfl _ _ hprev
      -- the search in this piece, and what comes after
      have hpart : StdAlg.adjacentFind (nextTo Ts p) (sliceOf n.seg a (b - a) ++ l) =
          StdAlg.adjacentFind p (passed Ts (sliceOf n.seg a (b - a))) >>= fun d =>
            if d = b - a then (fun j => j + (b - a - 1)) <$> StdAlg.adjacentFind (nextTo Ts p) ((n.seg.ty, v) :: l) else pure d := by
        have e1 : StdAlg.adjacentFind p (passed Ts (sliceOf n.seg a (b - a))) = StdAlg.adjacentFind (nextTo Ts p) (sliceOf n.seg a (b - a)) := by
          rw [passed, StdAlg.adjacentFind_map]
          refine StdAlg.adjacentFind_congr _ _ _ fun x hx y hy => ?_
          rw [nextTo, if_pos (by rw [sliceOf_ty hx, sliceOf_ty hy])]
        rw [e1, hk1, List.append_assoc, List.cons_append, List.nil_append, StdAlg.adjacentFind_append, hk2, show b - a - 1 + 1 = b - a by omega]
      have hcont : ∀ (x : LIter × Bool × Option LIter) (d : Nat), AtPiece i n a b x d →
          Sim (fun x k => AtRank E c x.1 (r + k))
            (if x.1.pos ≠ i.last.pos then do return (← defd (c.map.iteratorFrom E x.1 last.mapend), x.2)
              else findIn E c last (adjacentFindAlg E c Ts p none) is x.2)
            (if d = b - a then (fun j => j + (b - a - 1)) <$> StdAlg.adjacentFind (nextTo Ts p) ((n.seg.ty, v) :: l) else pure d) := by
        intro x d hx
        obtain ⟨x1, x2⟩ := x
        obtain ⟨g1, g2, g3⟩ := hx
        simp only at g1 g3
        subst g1
        simp only [hpos]
        by_cases hd : d = b - a
        · rw [if_pos hd, if_neg (by omega), g3 hd]
          obtain ⟨u, q1, q2⟩ := hrest
          refine ⟨(fun q => ⟨(q.1.1, q.1.2 + (b - a - 1)), ?_⟩) <$> u, ?_, ?_⟩
          · have : r + (q.1.2 + (b - a - 1)) = r + (b - a) - 1 + q.1.2 := by omega
            simp only [this]
            exact q.2
          · rw [q1, Functor.map_map]
          · rw [q2, Functor.map_map, Functor.map_map]
        · rw [if_neg hd, if_pos hd]
          obtain ⟨g, q1, q2⟩ := iteratorFrom_eq E h hp.use (k := a + d) (by omega) he.usable he.node
          refine Sim.defd q1 (Sim.pure ?_)
          rw [rank_add E h.map hp.use.mem, hrk] at q2
          exact q2
      refine ⟨fun s => ?_, fun hf s z hs => ?_⟩
      · rw [hpart, findIn]
        exact (adjacentN_sim E (Inv.core E h) Ts p hp hab s).bind fun x d hx => hcont x d hx
      · have h0 := hz hf
        have hne : z.1 ≠ n.seg.ty := by
          obtain ⟨l0, n0, j, e1, e2, e3, e4, e5, e6⟩ := hs
          intro e
          have hn : n0 = n := PolyColl.eq_of_nodup (h.map.nodup_ty E) e2.mem hp.use.mem (e5.trans e)
          subst hn
          have := rank_add E h.map e2.mem 0 j
          rw [Nat.zero_add] at this
          rw [h0] at hrk
          omega
        cases hv : sliceOf n.seg a (b - a) with
        | nil => rw [hv] at hsl; simp only [List.length_nil] at hsl; omega
        | cons y ys =>
          have : StdAlg.adjacentFind (nextTo Ts p) (z :: (y :: ys ++ l)) =
              (nextTo Ts p z y >>= fun q => if q then pure none else some <$> StdAlg.adjacentFind p (passed Ts (y :: ys))) >>= fun o =>
                match o with
                | none => pure 0
                | some d => (fun j => j + 1) <$> (if d = b - a then (fun j => j + (b - a - 1)) <$> StdAlg.adjacentFind (nextTo Ts p) ((n.seg.ty, v) :: l) else pure d) := by
            rw [hv] at hpart
            simp only [List.cons_append, StdAlg.adjacentFind, bind_assoc] at hpart ⊢
            refine bind_congr fun q => ?_
            cases q
            · simp only [Bool.false_eq_true, if_false, hpart, bind_assoc, map_eq_pure_bind, pure_bind]
            · simp
          rw [this, findIn]
          refine (adjacentC_sim E (Inv.core E h) Ts p hp hs hv hne).bind fun x o hx => ?_
          cases o with
          | none =>
            obtain ⟨l0, n0, j, e1, e2, e3, e4, e5, e6⟩ := hs
            have hx : s = some x.1 := hx
            rw [hx] at e1
            obtain ⟨x1, x2⟩ := x
            have e1 : x1 = l0 := Option.some.inj e1
            subst e1
            obtain ⟨it, ps⟩ := x1
            simp only at e3 e2
            subst e3
            have hj : j < n0.seg.size := by
              rcases Nat.lt_or_ge j n0.seg.elems.length with h | h
              · exact h
              · rw [List.getElem?_eq_none h] at e4; cases e4
            have hnn : n0 ≠ n := fun e => hne (by rw [← e5, e])
            have hb : n0.seg.base j ≠ i.last.pos := by
              rw [hp.last]
              exact base_ne E h e2.mem hp.use.mem hnn (by omega) _ _
            simp only
            rw [if_pos hb]
            obtain ⟨g, q1, q2⟩ := iteratorFrom_eq E h e2 (k := j) (Nat.le_of_lt hj) he.usable he.node
            refine Sim.defd q1 (Sim.pure ?_)
            rw [show r - 1 + 0 = c.abs.rank (some (n0.seg.ty, j)) by omega]
            exact q2
          | some d =>
            obtain ⟨u, q1, q2⟩ := hcont x d hx
            refine ⟨(fun q => ⟨(q.1.1, q.1.2 + 1), ?_⟩) <$> u, ?_, ?_⟩
            · obtain ⟨l0, n0, j, e1, e2, e3, e4, e5, e6⟩ := hs
              have : r - 1 + (q.1.2 + 1) = r + q.1.2 := by omega
              simp only [this]
              exact q.2
            · rw [q1, Functor.map_map]
            · simp only
              rw [q2, Functor.map_map, Functor.map_map]
    · have hab : b = a := by omega
      subst hab
      have hnil : sliceOf n.seg b (b - b) = [] := by simp [sliceOf]
      obtain ⟨rg, h1, h2, h3, h4⟩ := hp.rangeP E (Inv.core E h) Ts
      have hv : rg.vals = [] := by rw [h3, hnil]; rfl
      have hstep : ∀ (s : Bool × Option LIter), findIn E c last (adjacentFindAlg E c Ts p none) (i :: is) s =
          findIn E c last (adjacentFindAlg E c Ts p none) is s := by
        intro s
        rw [findIn, adjacentFindAlg]
        simp only [h1, hv, defd_some, pure_bind, h2.at E (Inv.core E h) (k := 0) (by omega)]
        rw [if_neg (by rw [hp.last]; simp)]
      rw [hnil, List.nil_append]
      simp only [hstep]
      rw [Nat.sub_self, Nat.add_zero] at ih1 ih2
      exact ⟨ih1, fun _ => ih2 rfl⟩

/-- `adjacent_find`. -/
theorem adjacentFind_sim {c : Coll V} {w : World} (h : c.Inv E w) (Ts : List Ty) (p : Passed V → Passed V → m Bool) {it last : GIter} {r : Nat}
    {q : Spec.State.Pos} (hi : AtRank E c it r) (hl : c.At E last q) (hr : r ≤ c.abs.rank q) :
    Sim (fun x n => AtRank E c x (r + n)) (adjacentFind E c Ts it last p) (StdAlg.adjacentFind (nextTo Ts p) ((before c q).drop r)) := by
  obtain ⟨ps, h1, h2, h3⟩ := cut_from E h hi hl hr
  unfold adjacentFind genericFind
  refine Sim.congr (y := StdAlg.adjacentFind (nextTo Ts p) ((before c q).drop r) >>= pure) ?_ (by simp)
  refine Sim.bind (R := fun x k => AtRank E c x.1 (r + k)) ?_ fun x k hx => Sim.pure hx
  exact Sim.defd h1 ((adjacentIn_sim E h Ts p h2 h3).1 none)

end Algo
end PolyColl
