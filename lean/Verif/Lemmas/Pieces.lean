import Verif.Lemmas.CollMore
import Verif.Lemmas.Sim
/-! # The pieces of a range -/

namespace PolyColl
open Prog

/-- What a functor is to be given for an element: typed exactly if the type is listed. -/
def Passed.of {V : Type} (Ts : List Ty) (x : Ty × V) : Passed V := ⟨x.1, x.2, Ts.contains x.1⟩

namespace Algo
variable {V : Type} (E : Env V)
open Coll

/-! ### Restitution -/

theorem restitute_eq (Ts : List Ty) (i : TI) : restitute E Ts (some i) = if Ts.contains (E.tiTy i) then some (E.tiTy i) else none := by
  induction Ts with
  | nil => rfl
  | cons T Ts ih =>
    simp only [restitute]
    by_cases h : E.tiTy i = T
    · subst h; simp
    · rw [if_neg h, ih]
      have h' : (E.tiTy i == T) = false := beq_false_of_ne h
      simp only [List.contains_cons, h', Bool.false_or]

theorem restitute_void (Ts : List Ty) : restitute E Ts none = none := by
  induction Ts with
  | nil => rfl
  | cons T Ts ih => exact ih

/-! ### Ranges in a segment -/

theorem span_base (s : Seg V) {a b : Nat} (h : a ≤ b) : span (s.base a) (s.base b) = some (b - a) := by
  simp [span, Seg.base, h]

theorem span_loc (s : Seg V) {a b : Nat} (h : a ≤ b) : span (s.loc a) (s.loc b) = some (b - a) := by
  simp [span, Seg.loc, Vec.ptr, h]

theorem walkN_eq {deref : Ptr → Option V} {l : List V} {p : Nat → Ptr} (hp : ∀ k, (⟨(p k).blk, (p k).off + 1⟩ : Ptr) = p (k + 1))
    (hd : ∀ k, k < l.length → deref (p k) = l[k]?) : ∀ n a : Nat, a + n ≤ l.length → walkN deref (p a) n = some ((l.drop a).take n) := by
  intro n
  induction n with
  | zero => intro a _; simp [walkN]
  | succ n ih =>
    intro a h
    have ha : a < l.length := by omega
    simp only [walkN, hd a ha, List.getElem?_eq_getElem ha, hp a, ih (a + 1) (by omega), Option.map_some]
    rw [List.drop_eq_getElem_cons ha, List.take_succ_cons]

theorem walkN_base {s : Seg V} {w : World} (h : s.Core E w) {n a : Nat} (hn : a + n ≤ s.size) :
    walkN s.be.derefBase (s.base a) n = some ((s.elems.drop a).take n) :=
  walkN_eq (p := s.base) (fun _ => rfl) (fun _ hk => Seg.derefBase E h hk) n a hn

theorem walkN_loc {s : Seg V} {n a : Nat} (hn : a + n ≤ s.size) :
    walkN s.be.derefLocal (s.loc a) n = some ((s.elems.drop a).take n) :=
  walkN_eq (p := s.loc) (fun _ => rfl) (fun _ _ => Seg.derefLocal s _) n a hn

/-- The elements of a segment from one place to another, with their type. -/
def sliceOf (s : Seg V) (a n : Nat) : List (Ty × V) := ((s.elems.drop a).take n).map fun v => (s.ty, v)

theorem sliceOf_length {s : Seg V} {a n : Nat} (h : a + n ≤ s.size) : (sliceOf s a n).length = n := by
  have : s.elems.length = s.size := rfl
  simp only [sliceOf, List.length_map, List.length_take, List.length_drop]
  omega

/-- A range of base or local iterators from place `a` of a segment on. -/
structure IsRange (c : Coll V) (r : LRange V) (n : Node V) (a : Nat) : Prop where
  use : c.map.Use E r.mapit n
  first : r.first = if r.typed then n.seg.loc a else n.seg.base a

theorem IsRange.at {c : Coll V} {w : World} (h : c.Core E w) {r : LRange V} {n : Node V} {a : Nat} (hr : IsRange E c r n a) {k : Nat}
    (hk : a + k ≤ n.seg.size) : r.at E c k = some ⟨r.mapit, n.seg.base (a + k)⟩ := by
  unfold LRange.at
  rw [hr.first]
  by_cases ht : r.typed = true
  · simp only [ht, if_true]
    obtain ⟨l, h1, h2, -⟩ := toBase_at E h (Use.latL E hr.use hk)
    have he : (⟨(n.seg.loc a).blk, (n.seg.loc a).off + k⟩ : Ptr) = n.seg.loc (a + k) := rfl
    rw [he, h1]
    obtain ⟨n', hu', hty, -, hp⟩ := h2
    have hn : n' = n := PolyColl.eq_of_nodup (h.map.nodup_ty E) hu'.mem hr.use.mem hty
    subst hn
    have hm : l.mapit = r.mapit := by
      unfold Coll.toBase at h1
      simp only [hr.use.node? E h.map.ids] at h1
      split at h1
      · cases h1
      · split at h1
        · cases h1; rfl
        · cases h1
    obtain ⟨m, p⟩ := l
    simp only at hp hm
    rw [hp, hm]
  · simp only [ht]
    rfl

theorem rangeN_eq {c : Coll V} {w : World} (h : c.Core E w) (Ts : List Ty) {l : LIter} {n : Node V} {a k : Nat} (hu : c.map.Use E l.mapit n)
    (hp : l.pos = n.seg.base a) (hk : a + k ≤ n.seg.size) {info : TI} (hi : E.tiTy info = n.seg.ty) :
    ∃ r, rangeN E c Ts (some info) l k = some r ∧ IsRange E c r n a ∧ r.vals = (sliceOf n.seg a k).map (Passed.of Ts) ∧ r.mapit = l.mapit := by
  obtain ⟨it, p⟩ := l
  simp only at hu hp
  subst hp
  unfold rangeN
  simp only [hu.node? E h.map.ids, restitute_eq, hi]
  by_cases ht : Ts.contains n.seg.ty = true
  · simp only [ht, if_true, toLocal_use E h hu (show a ≤ n.seg.size by omega), walkN_loc hk, Option.map_some]
    refine ⟨_, rfl, ⟨hu, by simp⟩, ?_, rfl⟩
    simp only [sliceOf, List.map_map]
    exact List.map_congr_left fun v _ => by simp only [Function.comp, Passed.of, ht]
  · simp only [ht, walkN_base E (h.mem.segs n hu.mem) hk, Option.map_some]
    refine ⟨_, rfl, ⟨hu, by simp⟩, ?_, rfl⟩
    simp only [sliceOf, List.map_map]
    exact List.map_congr_left fun v _ => by simp only [Function.comp, Passed.of, Bool.eq_false_iff.2 ht]

/-- Iterators carried from another segment are never restituted. -/
theorem derefAs_void {c : Coll V} {w : World} (h : c.Core E w) (Ts : List Ty) {l : LIter} {n : Node V} {a : Nat} {v : V}
    (hu : c.map.Use E l.mapit n) (hp : l.pos = n.seg.base a) (hv : n.seg.elems[a]? = some v) :
    derefAs E c Ts none l = some ⟨n.seg.ty, v, false⟩ := by
  obtain ⟨it, p⟩ := l
  simp only at hu hp
  subst hp
  have ha : a < n.seg.size := by
    rcases Nat.lt_or_ge a n.seg.elems.length with h | h
    · exact h
    · rw [List.getElem?_eq_none h] at hv; cases hv
  unfold derefAs rangeN
  simp only [hu.node? E h.map.ids, restitute_void, walkN_base E (h.mem.segs n hu.mem) (show a + 1 ≤ n.seg.size by omega), Option.map_some]
  have : (n.seg.elems.drop a).take 1 = [v] := by
    have h2 : a < n.seg.elems.length := ha
    rw [List.getElem?_eq_getElem h2] at hv
    rw [List.drop_eq_getElem_cons h2, List.take_succ_cons, List.take_zero, Option.some.inj hv]
  rw [this]
  rfl

theorem derefAs_eq {c : Coll V} {w : World} (h : c.Core E w) (Ts : List Ty) {l : LIter} {n : Node V} {a : Nat} {v : V} {info : TI}
    (hi : E.tiTy info = n.seg.ty) (hu : c.map.Use E l.mapit n) (hp : l.pos = n.seg.base a) (hv : n.seg.elems[a]? = some v) :
    derefAs E c Ts (some info) l = some (Passed.of Ts (n.seg.ty, v)) := by
  have ha : a < n.seg.elems.length := by
    rcases Nat.lt_or_ge a n.seg.elems.length with h | h
    · exact h
    · rw [List.getElem?_eq_none h] at hv; cases hv
  obtain ⟨r, h1, -, h3, -⟩ := rangeN_eq E h Ts hu hp (show a + 1 ≤ n.seg.size from ha) hi
  unfold derefAs
  rw [List.getElem?_eq_getElem ha] at hv
  simp only [h1, h3, sliceOf]
  rw [List.drop_eq_getElem_cons ha, List.take_succ_cons, List.take_zero, Option.some.inj hv]
  rfl

/-- A piece: places `a` to `b` of the segment of a node. -/
structure IsPiece (c : Coll V) (i : SegInfo) (n : Node V) (a b : Nat) : Prop where
  info : i.info = n.key
  use : c.map.Use E i.first.mapit n
  useL : c.map.Use E i.last.mapit n
  first : i.first.pos = n.seg.base a
  last : i.last.pos = n.seg.base b
  le : a ≤ b
  le' : b ≤ n.seg.size

theorem IsPiece.range {c : Coll V} {w : World} (h : c.Core E w) (Ts : List Ty) {i : SegInfo} {n : Node V} {a b : Nat} (hi : IsPiece E c i n a b) :
    ∃ r, range E c Ts i = some r ∧ IsRange E c r n a ∧ r.vals = (sliceOf n.seg a (b - a)).map (Passed.of Ts) ∧ r.mapit = i.first.mapit := by
  obtain ⟨info, ⟨it, p⟩, ⟨it', p'⟩⟩ := i
  obtain ⟨h1, h2, h3, h4, h5, h6, h7⟩ := hi
  simp only at h1 h2 h3 h4 h5
  subst h1 h4 h5
  have hr := rangeN_eq E h Ts (l := ⟨it, n.seg.base a⟩) h2 rfl (show a + (b - a) ≤ n.seg.size by omega) (h.map.ty n h2.mem).symm
  unfold Algo.range
  simp only [toLocal_use E h h2 (show a ≤ n.seg.size by omega), toLocal_use E h h3 h7, span_base n.seg h6, span_loc n.seg h6]
  cases restitute E Ts (some n.key) <;> exact hr

theorem IsPiece.places {c : Coll V} {i : SegInfo} {n : Node V} {a b : Nat} (hi : IsPiece E c i n a b) :
    places i = some ((List.range (b - a)).map fun j => ⟨i.first.mapit, n.seg.base (a + j)⟩) := by
  unfold Algo.places
  rw [hi.first, hi.last, span_base n.seg hi.le]
  rfl

/-! ### Iterators by their rank -/

/-- The iterator is at the place with the given number in the traversal of the collection. -/
def AtRank (c : Coll V) (it : GIter) (r : Nat) : Prop := ∃ p, c.At E it p ∧ c.abs.rank p = r

theorem AtRank.eq {c : Coll V} {w : World} (h : c.Core E w) {a b : GIter} {r s : Nat} (ha : AtRank E c a r) (hb : AtRank E c b s) :
    a.segpos = b.segpos ↔ r = s := by
  obtain ⟨p, hp, rfl⟩ := ha
  obtain ⟨q, hq, rfl⟩ := hb
  rw [at_eq E h hp hq]
  constructor
  · rintro rfl; rfl
  · exact Spec.State.rank_inj (hp.valid E h.map) (hq.valid E h.map)

theorem rank_none (s : Spec.State V) : s.rank none = s.flat.length := by cases s <;> rfl

theorem AtRank.increment {c : Coll V} {w : World} (h : c.Inv E w) {it : GIter} {r : Nat} (ha : AtRank E c it r) (hr : r < c.abs.flat.length) :
    ∃ it', c.map.increment E it = some it' ∧ AtRank E c it' (r + 1) := by
  obtain ⟨p, hp, rfl⟩ := ha
  cases p with
  | none => rw [rank_none] at hr; omega
  | some p =>
    obtain ⟨t, k⟩ := p
    obtain ⟨it', h1, h2⟩ := increment_at E h hp
    exact ⟨it', h1, _, h2, Spec.State.rank_next (abs_nodup E h.map) (hp.valid E h.map)⟩

theorem node_rank {c : Coll V} {w : World} (h : c.map.Inv E c.kind w) {pre post : List (Node V)} {n : Node V} (hn : c.map.nodes = pre ++ n :: post) (k : Nat) :
    c.abs.rank (some (n.seg.ty, k)) = (absNodes pre).flat.length + k := by
  rw [abs_eq, hn]
  simp only [absNodes, List.map_append, List.map_cons]
  refine Spec.State.rank_split ?_
  have := abs_nodup E h
  rw [abs_eq, hn] at this
  simp only [absNodes, List.map_append, List.map_cons] at this
  exact (Spec.State.split_nodup this).1

/-- `iterator_from` at any place of a segment, its end included. -/
theorem iteratorFrom_eq {c : Coll V} {w : World} (h : c.Inv E w) {it : MapIt} {n : Node V} (hu : c.map.Use E it n) {k : Nat}
    (hk : k ≤ n.seg.size) {e : MapIt} (he : c.map.usable E e = true) (hn : e.node = none) :
    ∃ g, c.map.iteratorFrom E ⟨it, n.seg.base k⟩ e = some g ∧ AtRank E c g (c.abs.rank (some (n.seg.ty, k))) := by
  obtain ⟨g, h1, h2⟩ := iter3_at E h hu hk
  refine ⟨{ g with mapend := e }, ?_, _, setEnd_at E h2 he hn, ?_⟩
  · unfold TMap.iteratorFrom
    simp only [he, hn, and_self, if_true, h1, Option.map_some]
  · have hg : c.abs.get n.seg.ty = some n.seg.elems :=
      (Spec.State.get_some (abs_nodup E h.map)).2 (List.mem_map.2 ⟨n, hu.mem, rfl⟩)
    exact Spec.State.rank_norm (abs_nodup E h.map) hg hk

/-! ### Cutting a range -/

/-- Pieces that follow each other from the place with number `r` on, and the elements in them.  All
but possibly the first one (if `f` is false) start at the beginning of their segment. -/
inductive Cut (c : Coll V) : Bool → List SegInfo → Nat → List (Ty × V) → Prop
  | nil (f : Bool) (r : Nat) : Cut c f [] r []
  | cons {f : Bool} {i : SegInfo} {is : List SegInfo} {n : Node V} {a b r : Nat} {l : List (Ty × V)} (hp : IsPiece E c i n a b)
      (hr : c.abs.rank (some (n.seg.ty, a)) = r) (hz : f = true → a = 0) (h : Cut c true is (r + (b - a)) l) :
      Cut c f (i :: is) r (sliceOf n.seg a (b - a) ++ l)

/-- The elements of some segments up to a position. -/
def upTo : List (Node V) → Spec.State.Pos → List (Ty × V)
  | [], _ => []
  | n :: l, none => sliceOf n.seg 0 n.seg.size ++ upTo l none
  | n :: l, some (t, k) => if n.seg.ty = t then sliceOf n.seg 0 k else sliceOf n.seg 0 n.seg.size ++ upTo l (some (t, k))

theorem sliceOf_all (s : Seg V) : sliceOf s 0 s.size = s.elems.map fun v => (s.ty, v) := by
  simp [sliceOf, Seg.size_eq]

theorem upTo_eq {l : List (Node V)} {q : Spec.State.Pos} (hq : ∀ n ∈ l, ∀ k, q = some (n.seg.ty, k) → k ≤ n.seg.size) :
    upTo l q = (Spec.State.typedFlat (absNodes l)).take ((absNodes l).rank q) := by
  induction l with
  | nil => simp [upTo, absNodes, Spec.State.typedFlat]
  | cons n l ih =>
    have ih := ih (fun a ha => hq a (by simp [ha]))
    have hc : Spec.State.typedFlat (absNodes (n :: l)) = n.seg.elems.map (fun v => (n.seg.ty, v)) ++ Spec.State.typedFlat (absNodes l) := by
      simp [absNodes, Spec.State.typedFlat]
    have ha : absNodes (n :: l) = (n.seg.ty, n.seg.elems) :: absNodes l := rfl
    have hl : (n.seg.elems.map fun v => (n.seg.ty, v)).length = n.seg.elems.length := List.length_map _
    rw [hc, List.take_append, ha, hl]
    cases q with
    | none =>
      rw [rank_none, Spec.State.flat_cons]
      rw [rank_none] at ih
      simp only [upTo, ih, List.length_append, sliceOf_all]
      rw [List.take_of_length_le (l := n.seg.elems.map fun v => (n.seg.ty, v)) (by rw [hl]; omega), Nat.add_sub_cancel_left]
    | some q =>
      obtain ⟨t, k⟩ := q
      simp only [upTo, Spec.State.rank]
      by_cases ht : n.seg.ty = t
      · have := hq n (by simp) k (by rw [ht])
        have hs : n.seg.size = n.seg.elems.length := rfl
        simp only [ht, if_true, sliceOf, List.drop_zero]
        rw [Nat.sub_eq_zero_of_le (by omega), List.take_zero, List.append_nil, List.map_take]
      · simp only [ht, if_false, ih, sliceOf_all]
        rw [List.take_of_length_le (l := n.seg.elems.map fun v => (n.seg.ty, v)) (by rw [hl]; omega), Nat.add_sub_cancel_left]

theorem upTo_append {pre l : List (Node V)} {q : Spec.State.Pos} (hq : ∀ n ∈ pre, ∀ k, q ≠ some (n.seg.ty, k)) :
    upTo (pre ++ l) q = Spec.State.typedFlat (absNodes pre) ++ upTo l q := by
  induction pre with
  | nil => rfl
  | cons n pre ih =>
    have ih := ih (fun a ha => hq a (by simp [ha]))
    have hc : Spec.State.typedFlat (absNodes (n :: pre)) = n.seg.elems.map (fun v => (n.seg.ty, v)) ++ Spec.State.typedFlat (absNodes pre) := by
      simp [absNodes, Spec.State.typedFlat]
    rw [hc]
    cases q with
    | none => simp only [List.cons_append, upTo, ih, sliceOf_all, List.append_assoc]
    | some q =>
      obtain ⟨t, k⟩ := q
      have : n.seg.ty ≠ t := fun e => hq n (by simp) k (by rw [e])
      simp only [List.cons_append, upTo, this, if_false, ih, sliceOf_all, List.append_assoc]

theorem typedFlat_pre (pre : List (Node V)) : (Spec.State.typedFlat (absNodes pre)).length = (absNodes pre).flat.length :=
  Spec.State.typedFlat_length _

/-- The map iterator after a node. -/
def headOf (m : TMap V) : List (Node V) → MapIt
  | [] => m.end
  | n :: _ => m.itTo n

theorem itNext_eq {c : Coll V} {w : World} (h : c.Inv E w) {pre post : List (Node V)} {n : Node V} (hn : c.map.nodes = pre ++ n :: post)
    {it : MapIt} (hu : c.map.Use E it n) : c.map.itNext E it = some (headOf c.map post) := by
  rw [TMap.itNext_split E h.map.ids hn hu]
  cases post <;> rfl

theorem headOf_usable (c : Coll V) (l : List (Node V)) : c.map.usable E (headOf c.map l) = true := by
  cases l
  · exact usable_end E _
  · exact usable_itTo E _ _

theorem itEq_eq {m : TMap V} {a b : MapIt} (ha : m.usable E a = true) (hb : m.usable E b = true) : m.itEq E a b = some (decide (a.node = b.node)) := by
  simp [TMap.itEq, ha, hb]

/-- Where the pieces of a range up to position `q` end. -/
def StopAt (c : Coll V) (last : GIter) (stop : MapIt) : Spec.State.Pos → Prop
  | none => stop.node = none ∧ c.map.usable E stop = true
  | some (t, j) => ∃ pre b post, c.map.nodes = pre ++ b :: post ∧ b.seg.ty = t ∧ j < b.seg.size ∧ c.map.Use E last.mapit b ∧
      last.segpos = b.seg.base j ∧ stop = headOf c.map post

theorem splitEnd_eq {c : Coll V} {w : World} (h : c.Inv E w) {last : GIter} {q : Spec.State.Pos} (hl : c.At E last q) :
    ∃ stop, splitEnd E c last = some stop ∧ StopAt E c last stop q := by
  unfold splitEnd
  rw [itEq_eq E hl.usable hl.endUsable, hl.endNode]
  cases q with
  | none =>
    obtain ⟨h1, h2⟩ := hl.pos
    simp only [h1, decide_true]
    exact ⟨_, rfl, h1, hl.usable⟩
  | some q =>
    obtain ⟨t, j⟩ := q
    obtain ⟨b, hu, h1, h2, h3⟩ := hl.use E
    obtain ⟨pre, post, hn⟩ := List.append_of_mem hu.mem
    simp only [hu.node, reduceCtorEq, decide_false, itNext_eq E h hn hu]
    exact ⟨_, rfl, pre, b, post, hn, h1, h2, hu, h3, rfl⟩

theorem split_unique {c : Coll V} {w : World} (h : c.map.Inv E c.kind w) {pre post pre' post' : List (Node V)} {n : Node V}
    (h1 : c.map.nodes = pre ++ n :: post) (h2 : c.map.nodes = pre' ++ n :: post') : pre = pre' ∧ post = post' := by
  have e1 := TMap.nodesFrom_split h.ids h1
  have e2 := TMap.nodesFrom_split h.ids h2
  have e : n :: post = n :: post' := e1.symm.trans e2
  have hp : post = post' := (List.cons.inj e).2
  subst hp
  exact ⟨List.append_cancel_right (h1.symm.trans h2), rfl⟩

/-- The stop is not among the nodes up to the last one. -/
theorem StopAt.ne {c : Coll V} {w : World} (h : c.map.Inv E c.kind w) {last : GIter} {stop : MapIt} {q : Spec.State.Pos} (hs : StopAt E c last stop q)
    {pre l : List (Node V)} {n : Node V} (hn : c.map.nodes = pre ++ n :: l) (hq : ∀ t j, q = some (t, j) → ∃ b ∈ n :: l, b.seg.ty = t) :
    stop.node ≠ some n.id := by
  cases q with
  | none => rw [hs.1]; simp
  | some q =>
    obtain ⟨t, j⟩ := q
    obtain ⟨pre', b, post, h1, h2, -, -, -, rfl⟩ := hs
    obtain ⟨b', hb', ht⟩ := hq t j rfl
    have hbn : b' ∈ c.map.nodes := by rw [hn]; exact List.mem_append_right _ hb'
    have : b' = b := PolyColl.eq_of_nodup (h.nodup_ty E) hbn (by rw [h1]; simp) (ht.trans h2.symm)
    subst this
    cases post with
    | nil => simp [headOf, TMap.end]
    | cons x post =>
      simp only [headOf, TMap.itTo, ne_eq, Option.some.injEq]
      intro e
      obtain ⟨l1, l2, hl⟩ := List.append_of_mem hb'
      have h3 : c.map.nodes = (pre ++ l1) ++ b' :: l2 := by rw [hn, hl, List.append_assoc]
      obtain ⟨-, h4⟩ := split_unique E h h3 h1
      subst h4
      have hid := h.ids
      rw [hn, hl] at hid
      rw [List.map_append] at hid
      have hid := (List.nodup_append.1 hid).2.1
      cases l1 with
      | nil =>
        simp only [List.nil_append, List.cons.injEq] at hl
        rw [← hl.1] at hid
        simp [e] at hid
      | cons y l1 =>
        simp only [List.cons_append, List.cons.injEq] at hl
        rw [← hl.1] at hid
        simp [e] at hid

theorem StopAt.usable {c : Coll V} {last : GIter} {stop : MapIt} {q : Spec.State.Pos} (hs : StopAt E c last stop q) : c.map.usable E stop = true := by
  cases q with
  | none => exact hs.2
  | some q =>
    obtain ⟨pre', b, post, h1, h2, -, -, -, rfl⟩ := hs
    exact headOf_usable E c post

theorem segInfo_eq {c : Coll V} {w : World} (h : c.map.Inv E c.kind w) {it : MapIt} {n : Node V} (hu : c.map.Use E it n) :
    c.segInfo E it = some ⟨n.key, ⟨it, n.seg.begin⟩, ⟨it, n.seg.end⟩⟩ := by
  simp [Coll.segInfo, hu.node? E h.ids]

theorem use_itTo {c : Coll V} {n : Node V} (hn : n ∈ c.map.nodes) : c.map.Use E (c.map.itTo n) n := ⟨hn, rfl, usable_itTo E _ _⟩

/-- One step of the loop over the pieces. -/
theorem splitFrom_step {c : Coll V} {w : World} (h : c.Inv E w) {first last : GIter} {stop : MapIt} {pre l : List (Node V)} {n : Node V}
    (hn : c.map.nodes = pre ++ n :: l) {it : MapIt} (hu : c.map.Use E it n) (hsu : c.map.usable E stop = true) (hne : stop.node ≠ some n.id)
    (hf : c.map.usable E first.mapit = true) (hl : c.map.usable E last.mapit = true) (fuel : Nat) :
    splitFrom E c first last stop it (fuel + 1) = (splitFrom E c first last stop (headOf c.map l) fuel).map
      (⟨n.key, if first.mapit.node = some n.id then localBase first else ⟨it, n.seg.begin⟩,
        if last.mapit.node = some n.id then localBase last else ⟨it, n.seg.end⟩⟩ :: ·) := by
  rw [splitFrom, itEq_eq E hu.usable hsu]
  have h1 : decide (some n.id = stop.node) = false := decide_eq_false fun e => hne e.symm
  simp only [hu.node, h1, splitDeref, segInfo_eq E h.map hu, itEq_eq E hu.usable hf, itEq_eq E hu.usable hl, itNext_eq E h hn hu]
  have ha : (decide (some n.id = first.mapit.node) = true) ↔ first.mapit.node = some n.id := by rw [decide_eq_true_iff]; exact eq_comm
  have hb : (decide (some n.id = last.mapit.node) = true) ↔ last.mapit.node = some n.id := by rw [decide_eq_true_iff]; exact eq_comm
  simp only [ha, hb]

theorem splitFrom_stop {c : Coll V} {first last : GIter} {stop : MapIt} {it : MapIt} (hu : c.map.usable E it = true)
    (hsu : c.map.usable E stop = true) (he : it.node = stop.node) (fuel : Nat) :
    splitFrom E c first last stop it (fuel + 1) = some [] := by
  rw [splitFrom, itEq_eq E hu hsu, he]
  simp

/-- The pieces from the beginning of a segment after the first one on. -/
theorem splitFrom_cut {c : Coll V} {w : World} (h : c.Inv E w) {first last : GIter} {q : Spec.State.Pos} (hl : c.At E last q) {stop : MapIt}
    (hs : StopAt E c last stop q) (hf : c.map.usable E first.mapit = true) : ∀ (l pre : List (Node V)) (fuel : Nat), c.map.nodes = pre ++ l →
      (∀ n ∈ l, first.mapit.node ≠ some n.id) → (∀ t j, q = some (t, j) → ∃ b ∈ l, b.seg.ty = t) → l.length < fuel →
      ∃ ps, splitFrom E c first last stop (headOf c.map l) fuel = some ps ∧ Cut E c true ps (absNodes pre).flat.length (upTo l q)
  | [], pre, 0, _, _, _, hfu => absurd hfu (by omega)
  | [], pre, fuel + 1, hn, _, hq, _ => by
    refine ⟨[], splitFrom_stop E (headOf_usable E c []) (hs.usable E) ?_ fuel, .nil _ _⟩
    cases q with
    | none => rw [hs.1]; rfl
    | some q => obtain ⟨b, hb, -⟩ := hq q.1 q.2 rfl; cases hb
  | n :: l, pre, 0, _, _, _, hfu => absurd hfu (by omega)
  | n :: l, pre, fuel + 1, hn, hff, hq, hfu => by
    have hmem : n ∈ c.map.nodes := by rw [hn]; simp
    have hu := use_itTo E hmem
    have hr := node_rank E h.map hn 0
    have hstep := splitFrom_step E h (first := first) (last := last) hn hu (hs.usable E) (hs.ne E h.map hn hq) hf hl.usable fuel
    rw [if_neg (hff n (by simp))] at hstep
    have hn' : c.map.nodes = (pre ++ [n]) ++ l := by rw [hn, List.append_assoc]; rfl
    have hpre : (absNodes (pre ++ [n])).flat.length = (absNodes pre).flat.length + n.seg.size := by
      simp [absNodes, Spec.State.flat_append, Spec.State.flat_cons, Seg.size_eq]
    have hhead : headOf c.map (n :: l) = c.map.itTo n := rfl
    rw [hhead, hstep]
    by_cases hb : last.mapit.node = some n.id
    · -- the last segment
      rw [if_pos hb]
      cases q with
      | none => rw [hl.pos.1] at hb; cases hb
      | some q =>
        obtain ⟨t, j⟩ := q
        obtain ⟨pre', b, post, h1, h2, h3, h4, h5, rfl⟩ := hs
        have : b = n := PolyColl.eq_of_nodup h.map.ids h4.mem hmem (Option.some.inj (h4.node.symm.trans hb))
        subst this
        obtain ⟨-, rfl⟩ := split_unique E h.map h1 hn
        have hfu' : ∃ f, fuel = f + 1 := ⟨fuel - 1, by simp only [List.length_cons] at hfu; omega⟩
        obtain ⟨f, rfl⟩ := hfu'
        rw [splitFrom_stop E (headOf_usable E c _) (headOf_usable E c _) rfl]
        refine ⟨_, rfl, ?_⟩
        simp only [upTo, h2, if_true]
        have hc := Cut.cons (E := E) (c := c) (i := ⟨b.key, ⟨c.map.itTo b, b.seg.begin⟩, localBase last⟩) (is := []) (n := b) (a := 0) (b := j) (f := true)
          ⟨rfl, hu, h4, (Seg.base_zero _).symm, h5, Nat.zero_le _, Nat.le_of_lt h3⟩ hr (fun _ => rfl) (.nil _ _)
        simpa using hc
    · -- a segment in between
      rw [if_neg hb]
      have hq' : ∀ t j, q = some (t, j) → n.seg.ty ≠ t ∧ ∃ b ∈ l, b.seg.ty = t := by
        intro t j e
        obtain ⟨b, hbm, hbt⟩ := hq t j e
        have hne : n.seg.ty ≠ t := by
          intro e'
          subst e
          obtain ⟨b', hu', h2, -, -⟩ := hl.use E
          have : b' = n := PolyColl.eq_of_nodup (h.map.nodup_ty E) hu'.mem hmem (h2.trans e'.symm)
          subst this
          exact hb hu'.node
        refine ⟨hne, b, ?_, hbt⟩
        rcases List.mem_cons.1 hbm with rfl | hbm
        · exact absurd hbt hne
        · exact hbm
      obtain ⟨ps, g1, g2⟩ := splitFrom_cut h hl hs hf l (pre ++ [n]) fuel hn' (fun a ha => hff a (by simp [ha]))
        (fun t j e => (hq' t j e).2) (by simp only [List.length_cons] at hfu; omega)
      rw [g1]
      refine ⟨_, rfl, ?_⟩
      rw [hpre] at g2
      have hup : upTo (n :: l) q = sliceOf n.seg 0 (n.seg.size - 0) ++ upTo l q := by
        cases q with
        | none => rfl
        | some q =>
          obtain ⟨t, j⟩ := q
          simp only [upTo, if_neg (hq' t j rfl).1, Nat.sub_zero]
      rw [hup]
      exact .cons ⟨rfl, hu, hu, (Seg.base_zero _).symm, Seg.end_eq _, Nat.zero_le _, Nat.le_refl _⟩ hr (fun _ => rfl) g2

theorem between_eq (s : Spec.State V) (p q : Spec.State.Pos) : between s p q = (s.typedFlat.take (s.rank q)).drop (s.rank p) := by
  rw [between, List.drop_take]

/-- **Cutting a range**: the pieces that the loops of the algorithms go through. -/
theorem segmentSplit_cut {c : Coll V} {w : World} (h : c.Inv E w) {first last : GIter} {p q : Spec.State.Pos} (hf : c.At E first p)
    (hl : c.At E last q) (hpq : c.abs.rank p ≤ c.abs.rank q) :
    ∃ ps, segmentSplit E c first last = some ps ∧ Cut E c false ps (c.abs.rank p) (between c.abs p q) := by
  obtain ⟨stop, h1, hs⟩ := splitEnd_eq E h hl
  unfold segmentSplit
  simp only [h1]
  have hqv : ∀ n ∈ c.map.nodes, ∀ k, q = some (n.seg.ty, k) → k ≤ n.seg.size := by
    intro n hn k e
    subst e
    obtain ⟨b, hu, h2, h3, -⟩ := hl.use E
    have : b = n := PolyColl.eq_of_nodup (h.map.nodup_ty E) hu.mem hn h2
    subst this
    exact Nat.le_of_lt h3
  cases p with
  | none =>
    have hq : q = none := by
      refine (Spec.State.rank_inj (hf.valid E h.map) (hl.valid E h.map) ?_).symm
      have := Spec.State.rank_le (hl.valid E h.map)
      rw [rank_none] at hpq ⊢
      omega
    subst hq
    refine ⟨[], splitFrom_stop E hf.usable (hs.usable E) (by rw [hf.pos.1, hs.1]) _, ?_⟩
    rw [between, Nat.sub_self, List.take_zero]
    exact .nil _ _
  | some p =>
    obtain ⟨t, k⟩ := p
    obtain ⟨a, hu, ha1, ha2, ha3⟩ := hf.use E
    obtain ⟨pre, l, hn⟩ := List.append_of_mem hu.mem
    have hnd := abs_nodup E h.map
    have hr := node_rank E h.map hn k
    have hrp : c.abs.rank (some (t, k)) = (absNodes pre).flat.length + k := ha1 ▸ hr
    have hall : c.abs.typedFlat.take (c.abs.rank q) = upTo c.map.nodes q := (upTo_eq hqv).symm
    -- the position `q` is not in the segments before
    have hqpre : ∀ n ∈ pre, ∀ j, q ≠ some (n.seg.ty, j) := by
      intro n hnp j e
      subst e
      obtain ⟨pre1, pre2, rfl⟩ := List.append_of_mem hnp
      have hn2 : c.map.nodes = pre1 ++ n :: (pre2 ++ a :: l) := by rw [hn, List.append_assoc]; rfl
      have hr2 := node_rank E h.map hn2 j
      have hj : j < n.seg.size := by
        obtain ⟨b, hub, h2, h3, -⟩ := hl.use E
        have : b = n := PolyColl.eq_of_nodup (h.map.nodup_ty E) hub.mem (by rw [hn2]; simp) h2
        subst this
        exact h3
      rw [hr2, hrp] at hpq
      have : (absNodes (pre1 ++ n :: pre2)).flat.length = (absNodes pre1).flat.length + n.seg.size + (absNodes pre2).flat.length := by
        simp [absNodes, Spec.State.flat_append, Spec.State.flat_cons, Seg.size_eq, Nat.add_assoc]
      omega
    have hupA : upTo c.map.nodes q = Spec.State.typedFlat (absNodes pre) ++ upTo (a :: l) q := by rw [hn, upTo_append hqpre]
    have hbt : between c.abs (some (t, k)) q = (upTo (a :: l) q).drop k := by
      rw [between_eq, hall, hupA, hrp, ← typedFlat_pre, List.drop_append,
        List.drop_eq_nil_of_le (by omega), Nat.add_sub_cancel_left, List.nil_append]
    have hql : ∀ u j, q = some (u, j) → ∃ b ∈ a :: l, b.seg.ty = u := by
      intro u j e
      subst e
      obtain ⟨b, hub, h2, -, -⟩ := hl.use E
      have hbm := hub.mem
      rw [hn] at hbm
      rcases List.mem_append.1 hbm with hbm | hbm
      · exact absurd (by rw [h2]) (hqpre b hbm j)
      · exact ⟨b, hbm, h2⟩
    have hstep := splitFrom_step E h (first := first) (last := last) hn hu (hs.usable E) (hs.ne E h.map hn hql) hf.usable hl.usable
      c.map.nodes.length
    rw [if_pos hu.node] at hstep
    rw [hstep]
    by_cases hb : last.mapit.node = some a.id
    · rw [if_pos hb]
      cases q with
      | none => rw [hl.pos.1] at hb; cases hb
      | some q =>
        obtain ⟨u, j⟩ := q
        obtain ⟨pre', b, post, g1, g2, g3, g4, g5, rfl⟩ := hs
        have : b = a := PolyColl.eq_of_nodup h.map.ids g4.mem hu.mem (Option.some.inj (g4.node.symm.trans hb))
        subst this
        obtain ⟨-, rfl⟩ := split_unique E h.map g1 hn
        have hfu' : ∃ f, c.map.nodes.length = f + 1 := ⟨c.map.nodes.length - 1, by rw [hn]; simp only [List.length_append, List.length_cons]; omega⟩
        obtain ⟨f, hf'⟩ := hfu'
        rw [hf', splitFrom_stop E (headOf_usable E c _) (headOf_usable E c _) rfl]
        refine ⟨_, rfl, ?_⟩
        have hkj : k ≤ j := by
          have := node_rank E h.map hn j
          rw [g2] at this
          rw [this, hrp] at hpq
          omega
        rw [hbt]
        simp only [upTo, g2, if_true]
        have hsl : (sliceOf b.seg 0 j).drop k = sliceOf b.seg k (j - k) := by
          simp only [sliceOf, List.drop_zero, ← List.map_drop, List.drop_take]
        rw [hsl]
        have hc := Cut.cons (E := E) (c := c) (i := ⟨b.key, localBase first, localBase last⟩) (is := []) (n := b) (a := k) (b := j)
          ⟨rfl, hu, g4, ha3, g5, hkj, Nat.le_of_lt g3⟩ rfl (f := false) (fun e => by cases e) (.nil _ _)
        rw [ha1] at hc
        simpa using hc
    · rw [if_neg hb]
      have hq' : ∀ u j, q = some (u, j) → a.seg.ty ≠ u ∧ ∃ b ∈ l, b.seg.ty = u := by
        intro u j e
        obtain ⟨b, hbm, hbu⟩ := hql u j e
        have hne : a.seg.ty ≠ u := by
          intro e'
          subst e
          obtain ⟨b', hu', h2, -, -⟩ := hl.use E
          have : b' = a := PolyColl.eq_of_nodup (h.map.nodup_ty E) hu'.mem hu.mem (h2.trans e'.symm)
          subst this
          exact hb hu'.node
        refine ⟨hne, b, ?_, hbu⟩
        rcases List.mem_cons.1 hbm with rfl | hbm
        · exact absurd hbu hne
        · exact hbm
      have hfn : ∀ n ∈ l, first.mapit.node ≠ some n.id := by
        intro n hnl e
        have hid := h.map.ids
        rw [hn, List.map_append] at hid
        have hid := (List.nodup_append.1 hid).2.1
        simp only [List.map_cons, List.nodup_cons, List.mem_map, not_exists, not_and] at hid
        exact hid.1 n hnl (Option.some.inj (e.symm.trans hu.node))
      have hn' : c.map.nodes = (pre ++ [a]) ++ l := by rw [hn, List.append_assoc]; rfl
      obtain ⟨ps, g1, g2⟩ := splitFrom_cut E h hl hs hf.usable l (pre ++ [a]) c.map.nodes.length hn' hfn (fun u j e => (hq' u j e).2)
        (by rw [hn]; simp only [List.length_append, List.length_cons]; omega)
      rw [g1]
      refine ⟨_, rfl, ?_⟩
      have hpre : (absNodes (pre ++ [a])).flat.length = (absNodes pre).flat.length + a.seg.size := by
        simp [absNodes, Spec.State.flat_append, Spec.State.flat_cons, Seg.size_eq]
      have hup : upTo (a :: l) q = sliceOf a.seg 0 a.seg.size ++ upTo l q := by
        cases q with
        | none => rfl
        | some q =>
          obtain ⟨u, j⟩ := q
          simp only [upTo, if_neg (hq' u j rfl).1]
      have hlen : (sliceOf a.seg 0 a.seg.size).length = a.seg.size := sliceOf_length (by omega)
      have hsl : (sliceOf a.seg 0 a.seg.size ++ upTo l q).drop k = sliceOf a.seg k (a.seg.size - k) ++ upTo l q := by
        rw [List.drop_append, hlen, Nat.sub_eq_zero_of_le (Nat.le_of_lt ha2), List.drop_zero]
        congr 1
        simp only [sliceOf, List.drop_zero, ← List.map_drop, List.drop_take]
      rw [hbt, hup, hsl]
      refine .cons ⟨rfl, hu, hu, ha3, Seg.end_eq _, Nat.le_of_lt ha2, Nat.le_refl _⟩ (by rw [ha1]) (fun e => by cases e) ?_
      rw [hrp]
      rw [hpre] at g2
      have : (absNodes pre).flat.length + k + (a.seg.size - k) = (absNodes pre).flat.length + a.seg.size := by omega
      rw [this]
      exact g2

/-- The last piece, if the range ends in a segment. -/
def lastPiece (c : Coll V) (last : GIter) : Spec.State.Pos → List SegInfo → Prop
  | none, l => l = []
  | some _, l => ∃ b, c.map.Use E last.mapit b ∧ l = [⟨b.key, ⟨c.map.itTo b, b.seg.begin⟩, localBase last⟩]

theorem eachFrom_eq {c : Coll V} {w : World} (h : c.Inv E w) {first last : GIter} {q : Spec.State.Pos} (hl : c.At E last q) {stop : MapIt}
    (hs : StopAt E c last stop q) (hf : c.map.usable E first.mapit = true) :
    ∀ (l pre : List (Node V)) (n : Node V) (it : MapIt) (fuel fuel' : Nat), c.map.nodes = pre ++ n :: l → c.map.Use E it n →
      (∀ a ∈ l, first.mapit.node ≠ some a.id) → last.mapit.node ≠ some n.id → (∀ t j, q = some (t, j) → ∃ b ∈ l, b.seg.ty = t) →
      l.length < fuel → l.length + 1 < fuel' →
      ∃ ps s' tail, eachFrom E c last.mapit it (if first.mapit.node = some n.id then localBase first else ⟨it, n.seg.begin⟩) fuel = some (ps, s') ∧
        c.map.usable E s' = true ∧ s'.node = last.mapit.node ∧ (∀ b, c.map.Use E last.mapit b → s' = c.map.itTo b) ∧
        lastPiece E c last q tail ∧ splitFrom E c first last stop it fuel' = some (ps ++ tail)
  | _, _, _, _, 0, _, _, _, _, _, _, hfu, _ => absurd hfu (by omega)
  | _, _, _, _, _, 0, _, _, _, _, _, _, hfu => absurd hfu (by omega)
  | [], pre, n, it, fuel + 1, fuel' + 1, hn, hu, hff, hne, hq, hfu, hfu' => by
    have hqn : q = none := by
      cases q with
      | none => rfl
      | some q => obtain ⟨b, hb, -⟩ := hq q.1 q.2 rfl; cases hb
    subst hqn
    have hstep := splitFrom_step E h (first := first) (last := last) hn hu (hs.usable E) (by rw [hs.1]; simp) hf hl.usable fuel'
    obtain ⟨f, rfl⟩ : ∃ f, fuel' = f + 1 := ⟨fuel' - 1, by simp only [List.length_nil] at hfu'; omega⟩
    rw [if_neg hne, splitFrom_stop E (headOf_usable E c []) (hs.usable E) (by rw [hs.1]; rfl)] at hstep
    refine ⟨[⟨n.key, (if first.mapit.node = some n.id then localBase first else ⟨it, n.seg.begin⟩), ⟨it, n.seg.end⟩⟩], headOf c.map [], [], ?_, headOf_usable E c [], by rw [hl.pos.1]; rfl, ?_, rfl, ?_⟩
    · rw [eachFrom]
      simp only [segInfo_eq E h.map hu, itNext_eq E h hn hu, itEq_eq E (headOf_usable E c []) hl.usable, hl.pos.1]
      rfl
    · intro b hb
      have := hb.node
      rw [hl.pos.1] at this
      cases this
    · rw [hstep]; rfl
  | x :: l, pre, n, it, fuel + 1, fuel' + 1, hn, hu, hff, hne, hq, hfu, hfu' => by
    have hmx : x ∈ c.map.nodes := by rw [hn]; simp
    have hux := use_itTo E hmx
    have hn' : c.map.nodes = (pre ++ [n]) ++ x :: l := by rw [hn, List.append_assoc]; rfl
    have hqn : ∀ t j, q = some (t, j) → ∃ b ∈ n :: x :: l, b.seg.ty = t := by
      intro t j e
      obtain ⟨b, hb, hbt⟩ := hq t j e
      exact ⟨b, by simp [List.mem_cons.1 hb], hbt⟩
    have hstep := splitFrom_step E h (first := first) (last := last) hn hu (hs.usable E) (hs.ne E h.map hn hqn) hf hl.usable fuel'
    rw [if_neg hne] at hstep
    have hfx : first.mapit.node ≠ some x.id := hff x (by simp)
    by_cases hx : last.mapit.node = some x.id
    · have hulx : c.map.Use E last.mapit x := ⟨hmx, hx, hl.usable⟩
      have hstep2 := splitFrom_step E h (first := first) (last := last) hn' hux (hs.usable E) (hs.ne E h.map hn' hq) hf hl.usable (fuel' - 1)
      have hfe : fuel' - 1 + 1 = fuel' := by simp only [List.length_cons] at hfu'; omega
      rw [hfe, if_neg hfx, if_pos hx] at hstep2
      cases q with
      | none => rw [hl.pos.1] at hx; cases hx
      | some q =>
        obtain ⟨t, j⟩ := q
        obtain ⟨pre', b, post, g1, g2, g3, g4, g5, rfl⟩ := hs
        have : b = x := PolyColl.eq_of_nodup h.map.ids g4.mem hmx (Option.some.inj (g4.node.symm.trans hx))
        subst this
        obtain ⟨-, rfl⟩ := split_unique E h.map g1 hn'
        obtain ⟨f, hf2⟩ : ∃ f, fuel' - 1 = f + 1 := ⟨fuel' - 2, by simp only [List.length_cons] at hfu'; omega⟩
        rw [hf2, splitFrom_stop E (headOf_usable E c _) (headOf_usable E c _) rfl] at hstep2
        refine ⟨[⟨n.key, (if first.mapit.node = some n.id then localBase first else ⟨it, n.seg.begin⟩), ⟨it, n.seg.end⟩⟩], c.map.itTo b, _, ?_, usable_itTo E _ _, hx.symm, ?_, ⟨b, hulx, rfl⟩, ?_⟩
        · rw [eachFrom]
          simp only [segInfo_eq E h.map hu, itNext_eq E h hn hu, itEq_eq E (headOf_usable E c (b :: post)) hl.usable]
          have : decide ((headOf c.map (b :: post)).node = last.mapit.node) = true := decide_eq_true hx.symm
          simp only [this]
          rfl
        · intro b' hb'
          have : b' = b := PolyColl.eq_of_nodup h.map.ids hb'.mem hmx (Option.some.inj (hb'.node.symm.trans hx))
          rw [this]
        · rw [hstep]
          show (splitFrom E c first last (headOf c.map post) (c.map.itTo b) fuel').map _ = _
          rw [hstep2]
          rfl
    · have hq' : ∀ t j, q = some (t, j) → ∃ b ∈ l, b.seg.ty = t := by
        intro t j e
        obtain ⟨b, hbm, hbt⟩ := hq t j e
        rcases List.mem_cons.1 hbm with rfl | hbm
        · exfalso
          subst e
          obtain ⟨b', hu', h2, -, -⟩ := hl.use E
          have : b' = b := PolyColl.eq_of_nodup (h.map.nodup_ty E) hu'.mem hmx (h2.trans hbt.symm)
          subst this
          exact hx hu'.node
        · exact ⟨b, hbm, hbt⟩
      obtain ⟨ps, s', tail, g1, g2, g3, g4, g5, g6⟩ := eachFrom_eq h hl hs hf l (pre ++ [n]) x (c.map.itTo x) fuel fuel' hn' hux
        (fun a ha => hff a (by simp [ha])) hx hq' (by simp only [List.length_cons] at hfu; omega) (by simp only [List.length_cons] at hfu'; omega)
      refine ⟨[⟨n.key, (if first.mapit.node = some n.id then localBase first else ⟨it, n.seg.begin⟩), ⟨it, n.seg.end⟩⟩] ++ ps, s', tail, ?_, g2, g3, g4, g5, ?_⟩
      · rw [eachFrom]
        have hd : decide ((headOf c.map (x :: l)).node = last.mapit.node) = false := decide_eq_false fun e => hx e.symm
        simp only [segInfo_eq E h.map hu, itNext_eq E h hn hu, itEq_eq E (headOf_usable E c (x :: l)) hl.usable, hd]
        have hh : headOf c.map (x :: l) = c.map.itTo x := rfl
        rw [if_neg hfx] at g1
        simp only [hh, segInfo_eq E h.map hux, g1]
        rfl
      · rw [hstep]
        show (splitFrom E c first last stop (c.map.itTo x) fuel').map _ = _
        rw [g6]
        rfl

/-- `for_each_segment` goes through the same pieces as the other loops. -/
theorem eachSegment_eq {c : Coll V} {w : World} (h : c.Inv E w) {first last : GIter} {p q : Spec.State.Pos} (hf : c.At E first p)
    (hl : c.At E last q) (hpq : c.abs.rank p ≤ c.abs.rank q) : eachSegment E c first last = segmentSplit E c first last := by
  obtain ⟨stop, h1, hs⟩ := splitEnd_eq E h hl
  unfold segmentSplit eachSegment
  simp only [h1, itEq_eq E hf.usable hl.usable, itEq_eq E hf.usable hl.endUsable, hl.endNode]
  cases p with
  | none =>
    have hq : q = none := by
      refine (Spec.State.rank_inj (hf.valid E h.map) (hl.valid E h.map) ?_).symm
      have := Spec.State.rank_le (hl.valid E h.map)
      rw [rank_none] at hpq ⊢
      omega
    subst hq
    rw [splitFrom_stop E hf.usable (hs.usable E) (by rw [hf.pos.1, hs.1]) _]
    simp only [hf.pos.1, hl.pos.1, decide_true]
  | some p =>
    obtain ⟨t, k⟩ := p
    obtain ⟨a, hu, ha1, ha2, ha3⟩ := hf.use E
    obtain ⟨pre, l, hn⟩ := List.append_of_mem hu.mem
    have hrp : c.abs.rank (some (t, k)) = (absNodes pre).flat.length + k := ha1 ▸ node_rank E h.map hn k
    have hql : ∀ u j, q = some (u, j) → ∃ b ∈ a :: l, b.seg.ty = u := by
      intro u j e
      subst e
      obtain ⟨b, hub, h2, h3, -⟩ := hl.use E
      have hbm := hub.mem
      rw [hn] at hbm
      rcases List.mem_append.1 hbm with hbm | hbm
      · exfalso
        obtain ⟨pre1, pre2, rfl⟩ := List.append_of_mem hbm
        have hn2 : c.map.nodes = pre1 ++ b :: (pre2 ++ a :: l) := by rw [hn, List.append_assoc]; rfl
        have hr2 := node_rank E h.map hn2 j
        rw [h2] at hr2
        rw [hr2, hrp] at hpq
        have : (absNodes (pre1 ++ b :: pre2)).flat.length = (absNodes pre1).flat.length + b.seg.size + (absNodes pre2).flat.length := by
          simp [absNodes, Spec.State.flat_append, Spec.State.flat_cons, Seg.size_eq, Nat.add_assoc]
        omega
      · exact ⟨b, hbm, h2⟩
    by_cases hb : last.mapit.node = some a.id
    · have hstep := splitFrom_step E h (first := first) (last := last) hn hu (hs.usable E) (hs.ne E h.map hn hql) hf.usable hl.usable
        c.map.nodes.length
      rw [if_pos hu.node, if_pos hb] at hstep
      cases q with
      | none => rw [hl.pos.1] at hb; cases hb
      | some q =>
        obtain ⟨u, j⟩ := q
        obtain ⟨pre', b, post, g1, g2, g3, g4, g5, rfl⟩ := hs
        have : b = a := PolyColl.eq_of_nodup h.map.ids g4.mem hu.mem (Option.some.inj (g4.node.symm.trans hb))
        subst this
        obtain ⟨-, rfl⟩ := split_unique E h.map g1 hn
        obtain ⟨f, hf'⟩ : ∃ f, c.map.nodes.length = f + 1 :=
          ⟨c.map.nodes.length - 1, by rw [hn]; simp only [List.length_append, List.length_cons]; omega⟩
        rw [hf', splitFrom_stop E (headOf_usable E c _) (headOf_usable E c _) rfl] at hstep
        rw [hf', hstep]
        simp only [hu.node, hb, decide_true, segInfo_eq E h.map hu, reduceCtorEq, decide_false]
        rfl
    · have hq' : ∀ u j, q = some (u, j) → ∃ b ∈ l, b.seg.ty = u := by
        intro u j e
        obtain ⟨b, hbm, hbu⟩ := hql u j e
        rcases List.mem_cons.1 hbm with rfl | hbm
        · exfalso
          subst e
          obtain ⟨b', hu', h2, -, -⟩ := hl.use E
          have : b' = b := PolyColl.eq_of_nodup (h.map.nodup_ty E) hu'.mem hu.mem (h2.trans hbu.symm)
          subst this
          exact hb hu'.node
        · exact ⟨b, hbm, hbu⟩
      have hfn : ∀ n ∈ l, first.mapit.node ≠ some n.id := by
        intro n hnl e
        have hid := h.map.ids
        rw [hn, List.map_append] at hid
        have hid := (List.nodup_append.1 hid).2.1
        simp only [List.map_cons, List.nodup_cons, List.mem_map, not_exists, not_and] at hid
        exact hid.1 n hnl (Option.some.inj (e.symm.trans hu.node))
      obtain ⟨ps, s', tail, g1, g2, g3, g4, g5, g6⟩ := eachFrom_eq E h hl hs hf.usable l pre a first.mapit (c.map.nodes.length + 1)
        (c.map.nodes.length + 1) hn hu hfn hb hq' (by rw [hn]; simp only [List.length_append, List.length_cons]; omega)
        (by rw [hn]; simp only [List.length_append, List.length_cons]; omega)
      rw [if_pos hu.node] at g1
      have hd : decide (first.mapit.node = last.mapit.node) = false := decide_eq_false fun e => hb (e ▸ hu.node)
      rw [g6]
      simp only [hd, g1, itEq_eq E g2 hl.endUsable, hl.endNode, g3]
      cases q with
      | none =>
        have : tail = [] := g5
        subst this
        simp only [hl.pos.1, decide_true, List.append_nil]
      | some q =>
        obtain ⟨b, hub, rfl⟩ := g5
        have hs' := g4 b hub
        subst hs'
        simp only [hub.node, reduceCtorEq, decide_false, segInfo_eq E h.map (use_itTo E hub.mem)]

end Algo
end PolyColl
