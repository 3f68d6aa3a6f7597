import Verif.Lemmas.AlgoFind
/-! # Algorithms with a count, and distances -/

namespace PolyColl
open Prog
namespace Algo
variable {V : Type} (E : Env V) {m : Type → Type} [Monad m] [LawfulMonad m] {σ B O W : Type}
open Coll

/-- The elements from a place of a segment on. -/
def onFrom (x : Node V) (a : Nat) (l : List (Node V)) : List (Ty × V) :=
  sliceOf x.seg a (x.seg.size - a) ++ Spec.State.typedFlat (absNodes l)

theorem onFrom_length {x : Node V} {a : Nat} {l : List (Node V)} (ha : a ≤ x.seg.size) :
    (onFrom x a l).length = (x.seg.size - a) + (absNodes l).flat.length := by
  rw [onFrom, List.length_append, sliceOf_length (by omega), typedFlat_pre]

theorem onFrom_short {x : Node V} {a n : Nat} {l : List (Node V)} (ha : a ≤ x.seg.size) (hn : n ≤ x.seg.size - a) :
    (onFrom x a l).take n = sliceOf x.seg a n := by
  rw [onFrom, List.take_append, sliceOf_length (by omega), Nat.sub_eq_zero_of_le hn, List.take_zero, List.append_nil]
  simp only [sliceOf, ← List.map_take, List.take_take]
  rw [Nat.min_eq_left hn]

theorem onFrom_long {x y : Node V} {a n : Nat} {l : List (Node V)} (ha : a ≤ x.seg.size) (hn : x.seg.size - a ≤ n) :
    (onFrom x a (y :: l)).take n = sliceOf x.seg a (x.seg.size - a) ++ (onFrom y 0 l).take (n - (x.seg.size - a)) := by
  rw [onFrom, List.take_append, sliceOf_length (by omega), List.take_of_length_le (l := sliceOf x.seg a (x.seg.size - a))
    (by rw [sliceOf_length (by omega)]; exact hn)]
  congr 2
  simp [onFrom, absNodes, Spec.State.typedFlat, sliceOf_all]

theorem onFrom_eq {c : Coll V} {w : World} (h : c.map.Inv E c.kind w) {pre l : List (Node V)} {x : Node V} (hn : c.map.nodes = pre ++ x :: l)
    {a : Nat} (ha : a ≤ x.seg.size) : c.abs.typedFlat.drop (c.abs.rank (some (x.seg.ty, a))) = onFrom x a l := by
  rw [node_rank E h hn, abs_eq, hn]
  have : Spec.State.typedFlat (absNodes (pre ++ x :: l)) = Spec.State.typedFlat (absNodes pre) ++ (sliceOf x.seg 0 x.seg.size ++ Spec.State.typedFlat (absNodes l)) := by
    simp [absNodes, Spec.State.typedFlat, sliceOf_all]
  rw [this, ← typedFlat_pre, List.drop_append, List.drop_eq_nil_of_le (by omega), Nat.add_sub_cancel_left, List.nil_append, List.drop_append,
    sliceOf_length (by omega), Nat.sub_eq_zero_of_le ha, List.drop_zero, onFrom]
  simp only [sliceOf, List.drop_zero, ← List.map_drop, List.drop_take]

theorem end_rank {c : Coll V} {w : World} (h : c.map.Inv E c.kind w) {pre l : List (Node V)} {x y : Node V} (hn : c.map.nodes = pre ++ x :: y :: l) :
    c.abs.rank (some (y.seg.ty, 0)) = c.abs.rank (some (x.seg.ty, x.seg.size)) := by
  have hn' : c.map.nodes = (pre ++ [x]) ++ y :: l := by rw [hn, List.append_assoc]; rfl
  rw [node_rank E h hn, node_rank E h hn']
  simp [absNodes, Spec.State.flat_append, Spec.State.flat_cons, Seg.size_eq]

theorem forEachNFrom_sim {F : Type} {c : Coll V} {w : World} (h : c.Inv E w) (Ts : List Ty) {e : MapIt} (heu : c.map.usable E e = true)
    (hen : e.node = none) (f : F → Passed V → m F) :
    ∀ (l pre : List (Node V)) (x : Node V) (sit : MapIt) (lb : LIter) (a n : Nat) (s : F) (fuel : Nat), c.map.nodes = pre ++ x :: l →
      c.map.Use E sit x → c.map.Use E lb.mapit x → lb.pos = x.seg.base a → a ≤ x.seg.size → n ≤ (onFrom x a l).length → l.length < fuel →
      Sim (fun y s' => AtRank E c y.1 (c.abs.rank (some (x.seg.ty, a)) + n) ∧ y.2 = s') (forEachNFrom E c Ts e f sit lb n s fuel)
        (StdAlg.forEach f (passed Ts ((onFrom x a l).take n)) s) := by
  intro l
  induction l with
  | nil =>
    intro pre x sit lb a n s fuel hn hu hul hp ha hlen hfu
    obtain ⟨fuel, rfl⟩ : ∃ k, fuel = k + 1 := ⟨fuel - 1, by simp only [List.length_nil] at hfu; omega⟩
    have hlen : n ≤ x.seg.size - a := by rw [onFrom_length ha] at hlen; simpa [absNodes, Spec.State.flat] using hlen
    obtain ⟨rg, h1, h2, h3, h4⟩ := rangeN_eq E (Inv.core E h) Ts hul hp (k := n) (by omega) (h.map.ty x hu.mem).symm
    rw [onFrom_short ha hlen, forEachNFrom]
    refine Sim.defd (segInfo_eq E h.map hu) (Sim.defd (c := x.seg.size - a) (by rw [hp]; exact Seg.end_eq x.seg ▸ span_base x.seg ha) ?_)
    rw [if_pos hlen]
    refine Sim.defd h1 ?_
    have : passed Ts (sliceOf x.seg a n) = rg.vals := h3.symm
    rw [this]
    refine Sim.congr (y := StdAlg.forEach f rg.vals s >>= pure) ?_ (by simp)
    refine Sim.callBind fun s' => Sim.defd (h2.at E (Inv.core E h) (k := n) (by omega)) ?_
    obtain ⟨g, g1, g2⟩ := iteratorFrom_eq E h (it := rg.mapit) (n := x) (by rw [h4]; exact hul) (k := a + n) (by omega) heu hen
    exact Sim.defd g1 (Sim.pure ⟨rank_add E h.map hu.mem a n ▸ g2, rfl⟩)
  | cons y l ih =>
    intro pre x sit lb a n s fuel hn hu hul hp ha hlen hfu
    obtain ⟨fuel, rfl⟩ : ∃ k, fuel = k + 1 := ⟨fuel - 1, by omega⟩
    rw [forEachNFrom]
    refine Sim.defd (segInfo_eq E h.map hu) (Sim.defd (c := x.seg.size - a) (by rw [hp]; exact Seg.end_eq x.seg ▸ span_base x.seg ha) ?_)
    by_cases hk : n ≤ x.seg.size - a
    · obtain ⟨rg, h1, h2, h3, h4⟩ := rangeN_eq E (Inv.core E h) Ts hul hp (k := n) (by omega) (h.map.ty x hu.mem).symm
      rw [if_pos hk, onFrom_short ha hk]
      refine Sim.defd h1 ?_
      have : passed Ts (sliceOf x.seg a n) = rg.vals := h3.symm
      rw [this]
      refine Sim.congr (y := StdAlg.forEach f rg.vals s >>= pure) ?_ (by simp)
      refine Sim.callBind fun s' => Sim.defd (h2.at E (Inv.core E h) (k := n) (by omega)) ?_
      obtain ⟨g, g1, g2⟩ := iteratorFrom_eq E h (it := rg.mapit) (n := x) (by rw [h4]; exact hul) (k := a + n) (by omega) heu hen
      exact Sim.defd g1 (Sim.pure ⟨rank_add E h.map hu.mem a n ▸ g2, rfl⟩)
    · obtain ⟨rg, h1, h2, h3, h4⟩ := rangeN_eq E (Inv.core E h) Ts hul hp (k := x.seg.size - a) (by omega) (h.map.ty x hu.mem).symm
      rw [if_neg hk, onFrom_long ha (by omega), passed_append, StdAlg.forEach_append]
      refine Sim.defd h1 ?_
      have : passed Ts (sliceOf x.seg a (x.seg.size - a)) = rg.vals := h3.symm
      rw [this]
      have hym : y ∈ c.map.nodes := by rw [hn]; simp
      have hn' : c.map.nodes = (pre ++ [x]) ++ y :: l := by rw [hn, List.append_assoc]; rfl
      refine Sim.callBind fun s' => Sim.defd (itNext_eq E h hn hu) (Sim.defd (segInfo_eq E h.map (use_itTo E hym)) ?_)
      have hlen' : n - (x.seg.size - a) ≤ (onFrom y 0 l).length := by
        rw [onFrom_length ha] at hlen
        rw [onFrom_length (Nat.zero_le _)]
        have : (absNodes (y :: l)).flat.length = y.seg.size + (absNodes l).flat.length := by
          simp [absNodes, Spec.State.flat_cons, Seg.size_eq]
        omega
      have := ih (pre ++ [x]) y (c.map.itTo y) ⟨c.map.itTo y, y.seg.begin⟩ 0 (n - (x.seg.size - a)) s' fuel hn' (use_itTo E hym) (use_itTo E hym)
        (Seg.base_zero _).symm (Nat.zero_le _) hlen' (by simp only [List.length_cons] at hfu; omega)
      have hr : c.abs.rank (some (y.seg.ty, 0)) + (n - (x.seg.size - a)) = c.abs.rank (some (x.seg.ty, a)) + n := by
        rw [end_rank E h.map hn]
        have := rank_add E h.map hu.mem a (x.seg.size - a)
        rw [Nat.add_sub_cancel' ha] at this
        omega
      rw [hr] at this
      exact this

/-- `for_each_n`. -/
theorem forEachN_sim {F : Type} {c : Coll V} {w : World} (h : c.Inv E w) (Ts : List Ty) {first : GIter} {p : Spec.State.Pos} (hf : c.At E first p)
    (n : Int) (hn : c.abs.rank p + n.toNat ≤ c.abs.flat.length) (f : F → Passed V → m F) (s : F) :
    Sim (fun y s' => AtRank E c y.1 (c.abs.rank p + n.toNat) ∧ y.2 = s') (forEachN E c Ts first n f s)
      (StdAlg.forEach f (passed Ts ((c.abs.typedFlat.drop (c.abs.rank p)).take n.toNat)) s) := by
  unfold forEachN
  by_cases h0 : n ≤ 0
  · have : n.toNat = 0 := by omega
    rw [if_pos h0, this]
    exact Sim.pure ⟨⟨p, hf, rfl⟩, rfl⟩
  · rw [if_neg h0]
    cases p with
    | none => rw [rank_none] at hn; omega
    | some p =>
      obtain ⟨t, k⟩ := p
      obtain ⟨a, hu, rfl, ha2, ha3⟩ := hf.use E
      obtain ⟨pre, l, hs⟩ := List.append_of_mem hu.mem
      have he := onFrom_eq E h.map hs (Nat.le_of_lt ha2)
      rw [he]
      refine forEachNFrom_sim E h Ts hf.endUsable hf.endNode f l pre a first.mapit (localBase first) k n.toNat s _ hs hu hu ha3 (Nat.le_of_lt ha2)
        ?_ (by rw [hs]; simp only [List.length_append, List.length_cons]; omega)
      rw [← he, List.length_drop, Spec.State.typedFlat_length]
      omega

theorem copyNFrom_sim {c : Coll V} {w : World} (h : c.Inv E w) (Ts : List Ty) (out : O → Passed V → m O) :
    ∀ (l pre : List (Node V)) (x : Node V) (sit : MapIt) (lb : LIter) (a n : Nat) (o : O) (fuel : Nat), c.map.nodes = pre ++ x :: l →
      c.map.Use E sit x → c.map.Use E lb.mapit x → lb.pos = x.seg.base a → a ≤ x.seg.size → n ≤ (onFrom x a l).length → l.length < fuel →
      Sim Eq (copyNFrom E c Ts out sit lb n o fuel) (StdAlg.copy out (passed Ts ((onFrom x a l).take n)) o) := by
  intro l
  induction l with
  | nil =>
    intro pre x sit lb a n o fuel hn hu hul hp ha hlen hfu
    obtain ⟨fuel, rfl⟩ : ∃ k, fuel = k + 1 := ⟨fuel - 1, by simp only [List.length_nil] at hfu; omega⟩
    have hlen : n ≤ x.seg.size - a := by rw [onFrom_length ha] at hlen; simpa [absNodes, Spec.State.flat] using hlen
    obtain ⟨rg, h1, h2, h3, h4⟩ := rangeN_eq E (Inv.core E h) Ts hul hp (k := n) (by omega) (h.map.ty x hu.mem).symm
    rw [onFrom_short ha hlen, copyNFrom]
    refine Sim.defd (segInfo_eq E h.map hu) (Sim.defd (c := x.seg.size - a) (by rw [hp]; exact Seg.end_eq x.seg ▸ span_base x.seg ha) ?_)
    simp only [Nat.min_eq_left hlen, Nat.sub_self, if_true]
    refine Sim.defd h1 ?_
    have : passed Ts (sliceOf x.seg a n) = rg.vals := h3.symm
    rw [this]
    refine Sim.congr (y := StdAlg.copy out rg.vals o >>= pure) ?_ (by simp)
    exact Sim.callBind fun s' => Sim.pure rfl
  | cons y l ih =>
    intro pre x sit lb a n o fuel hn hu hul hp ha hlen hfu
    obtain ⟨fuel, rfl⟩ : ∃ k, fuel = k + 1 := ⟨fuel - 1, by omega⟩
    rw [copyNFrom]
    refine Sim.defd (segInfo_eq E h.map hu) (Sim.defd (c := x.seg.size - a) (by rw [hp]; exact Seg.end_eq x.seg ▸ span_base x.seg ha) ?_)
    by_cases hk : n ≤ x.seg.size - a
    · obtain ⟨rg, h1, h2, h3, h4⟩ := rangeN_eq E (Inv.core E h) Ts hul hp (k := n) (by omega) (h.map.ty x hu.mem).symm
      rw [onFrom_short ha hk]
      simp only [Nat.min_eq_left hk, Nat.sub_self, if_true]
      refine Sim.defd h1 ?_
      have : passed Ts (sliceOf x.seg a n) = rg.vals := h3.symm
      rw [this]
      refine Sim.congr (y := StdAlg.copy out rg.vals o >>= pure) ?_ (by simp)
      exact Sim.callBind fun s' => Sim.pure rfl
    · obtain ⟨rg, h1, h2, h3, h4⟩ := rangeN_eq E (Inv.core E h) Ts hul hp (k := x.seg.size - a) (by omega) (h.map.ty x hu.mem).symm
      rw [onFrom_long ha (by omega), passed_append, StdAlg.copy_append]
      have hne : ¬ n - (x.seg.size - a) = 0 := by omega
      simp only [Nat.min_eq_right (show x.seg.size - a ≤ n by omega), hne, if_false]
      refine Sim.defd h1 ?_
      have : passed Ts (sliceOf x.seg a (x.seg.size - a)) = rg.vals := h3.symm
      rw [this]
      have hym : y ∈ c.map.nodes := by rw [hn]; simp
      have hn' : c.map.nodes = (pre ++ [x]) ++ y :: l := by rw [hn, List.append_assoc]; rfl
      refine Sim.callBind fun s' => Sim.defd (itNext_eq E h hn hu) (Sim.defd (segInfo_eq E h.map (use_itTo E hym)) ?_)
      have hlen' : n - (x.seg.size - a) ≤ (onFrom y 0 l).length := by
        rw [onFrom_length ha] at hlen
        rw [onFrom_length (Nat.zero_le _)]
        have : (absNodes (y :: l)).flat.length = y.seg.size + (absNodes l).flat.length := by
          simp [absNodes, Spec.State.flat_cons, Seg.size_eq]
        omega
      exact ih (pre ++ [x]) y (c.map.itTo y) ⟨c.map.itTo y, y.seg.begin⟩ 0 (n - (x.seg.size - a)) s' fuel hn' (use_itTo E hym) (use_itTo E hym)
        (Seg.base_zero _).symm (Nat.zero_le _) hlen' (by simp only [List.length_cons] at hfu; omega)

/-- `copy_n`. -/
theorem copyN_sim {c : Coll V} {w : World} (h : c.Inv E w) (Ts : List Ty) {first : GIter} {p : Spec.State.Pos} (hf : c.At E first p)
    (n : Int) (hn : c.abs.rank p + n.toNat ≤ c.abs.flat.length) (out : O → Passed V → m O) (o : O) :
    Sim Eq (copyN E c Ts first n out o) (StdAlg.copy out (passed Ts ((c.abs.typedFlat.drop (c.abs.rank p)).take n.toNat)) o) := by
  unfold copyN
  by_cases h0 : n ≤ 0
  · have : n.toNat = 0 := by omega
    rw [if_pos h0, this]
    exact Sim.pure rfl
  · rw [if_neg h0]
    cases p with
    | none => rw [rank_none] at hn; omega
    | some p =>
      obtain ⟨t, k⟩ := p
      obtain ⟨a, hu, rfl, ha2, ha3⟩ := hf.use E
      obtain ⟨pre, l, hs⟩ := List.append_of_mem hu.mem
      have he := onFrom_eq E h.map hs (Nat.le_of_lt ha2)
      rw [he]
      refine copyNFrom_sim E h Ts out l pre a first.mapit (localBase first) k n.toNat o _ hs hu hu ha3 (Nat.le_of_lt ha2)
        ?_ (by rw [hs]; simp only [List.length_append, List.length_cons]; omega)
      rw [← he, List.length_drop, Spec.State.typedFlat_length]
      omega

/-! ### Distances -/

/-- Where the segment of a position starts. -/
def segRank (s : Spec.State V) : Spec.State.Pos → Nat
  | none => s.flat.length
  | some (t, _) => s.rank (some (t, 0))

theorem distanceFrom_eq {c : Coll V} {w : World} (h : c.Inv E w) {last : GIter} {q : Spec.State.Pos} (hl : c.At E last q) :
    ∀ (l pre : List (Node V)) (x : Node V) (it : MapIt) (d fuel : Nat), c.map.nodes = pre ++ x :: l → c.map.Use E it x →
      (∀ t j, q = some (t, j) → ∃ b ∈ l, b.seg.ty = t) → l.length < fuel →
      c.abs.rank (some (x.seg.ty, x.seg.size)) ≤ segRank c.abs q ∧
      distanceFrom E c last.mapit it d fuel = some (d + (segRank c.abs q - c.abs.rank (some (x.seg.ty, x.seg.size)))) := by
  intro l
  induction l with
  | nil =>
    intro pre x it d fuel hn hu hq hfu
    obtain ⟨fuel, rfl⟩ : ∃ k, fuel = k + 1 := ⟨fuel - 1, by simp only [List.length_nil] at hfu; omega⟩
    cases q with
    | some q => obtain ⟨b, hb, -⟩ := hq q.1 q.2 rfl; cases hb
    | none =>
      have : c.abs.rank (some (x.seg.ty, x.seg.size)) = c.abs.flat.length := by
        rw [node_rank E h.map hn, abs_eq, hn]
        simp [absNodes, Seg.size_eq, Spec.State.flat]
      simp only [segRank, this, Nat.le_refl, Nat.sub_self, Nat.add_zero, true_and]
      rw [distanceFrom]
      simp only [itNext_eq E h hn hu, itEq_eq E (headOf_usable E c []) hl.usable, hl.pos.1]
      rfl
  | cons y l ih =>
    intro pre x it d fuel hn hu hq hfu
    obtain ⟨fuel, rfl⟩ : ∃ k, fuel = k + 1 := ⟨fuel - 1, by omega⟩
    have hym : y ∈ c.map.nodes := by rw [hn]; simp
    have hn' : c.map.nodes = (pre ++ [x]) ++ y :: l := by rw [hn, List.append_assoc]; rfl
    have hr := end_rank E h.map hn
    rw [distanceFrom]
    simp only [itNext_eq E h hn hu, itEq_eq E (headOf_usable E c (y :: l)) hl.usable]
    have hh : headOf c.map (y :: l) = c.map.itTo y := rfl
    by_cases hy : last.mapit.node = some y.id
    · have hd : decide ((headOf c.map (y :: l)).node = last.mapit.node) = true := decide_eq_true hy.symm
      cases q with
      | none => rw [hl.pos.1] at hy; cases hy
      | some q =>
        obtain ⟨t, j⟩ := q
        obtain ⟨b, hub, rfl, -, -⟩ := hl.use E
        have : b = y := PolyColl.eq_of_nodup h.map.ids hub.mem hym (Option.some.inj (hub.node.symm.trans hy))
        subst this
        simp only [hd, segRank, hr, Nat.le_refl, Nat.sub_self, Nat.add_zero, and_self]
    · have hd : decide ((headOf c.map (y :: l)).node = last.mapit.node) = false := decide_eq_false fun e => hy e.symm
      have hq' : ∀ t j, q = some (t, j) → ∃ b ∈ l, b.seg.ty = t := by
        intro t j e
        obtain ⟨b, hbm, hbt⟩ := hq t j e
        rcases List.mem_cons.1 hbm with rfl | hbm
        · exfalso
          subst e
          obtain ⟨b', hu', h2, -, -⟩ := hl.use E
          have : b' = b := PolyColl.eq_of_nodup (h.map.nodup_ty E) hu'.mem hym (h2.trans hbt.symm)
          subst this
          exact hy hu'.node
        · exact ⟨b, hbm, hbt⟩
      obtain ⟨g1, g2⟩ := ih (pre ++ [x]) y (c.map.itTo y) (d + y.seg.size) fuel hn' (use_itTo E hym) hq'
        (by simp only [List.length_cons] at hfu; omega)
      have hra := rank_add E h.map hym 0 y.seg.size
      rw [Nat.zero_add] at hra
      have hsp : span y.seg.begin y.seg.end = some y.seg.size := by
        rw [← Seg.base_zero, Seg.end_eq]
        exact span_base y.seg (Nat.zero_le _)
      simp only [hd]
      simp only [hh, segInfo_eq E h.map (use_itTo E hym), hsp, g2]
      constructor
      · omega
      · congr 1; omega

/-- `fast_distance`. -/
theorem fastDistance_eq {c : Coll V} {w : World} (h : c.Inv E w) {first last : GIter} {p q : Spec.State.Pos} (hf : c.At E first p)
    (hl : c.At E last q) (hpq : c.abs.rank p ≤ c.abs.rank q) :
    fastDistance E c first last = some (c.abs.rank q - c.abs.rank p) := by
  unfold fastDistance
  have heq := AtRank.eq E (Inv.core E h) ⟨p, hf, rfl⟩ ⟨q, hl, rfl⟩
  by_cases he : first.segpos = last.segpos
  · rw [if_pos he, heq.1 he, Nat.sub_self]
  · rw [if_neg he, itEq_eq E hf.usable hl.usable]
    have hne : c.abs.rank p ≠ c.abs.rank q := fun e => he (heq.2 e)
    cases p with
    | none =>
      have := Spec.State.rank_le (hl.valid E h.map)
      rw [rank_none] at hpq hne
      omega
    | some p =>
      obtain ⟨t, k⟩ := p
      obtain ⟨a, hu, rfl, ha2, ha3⟩ := hf.use E
      obtain ⟨pre, l, hn⟩ := List.append_of_mem hu.mem
      have hrp := node_rank E h.map hn k
      by_cases hs : first.mapit.node = last.mapit.node
      · simp only [hs, decide_true]
        cases q with
        | none => rw [hu.node, hl.pos.1] at hs; cases hs
        | some q =>
          obtain ⟨u, j⟩ := q
          obtain ⟨b, hub, rfl, hb2, hb3⟩ := hl.use E
          have : b = a := PolyColl.eq_of_nodup h.map.ids hub.mem hu.mem (Option.some.inj (hub.node.symm.trans (hs.symm.trans hu.node)))
          subst this
          have hrq := node_rank E h.map hn j
          rw [ha3, hb3, span_base b.seg (by omega)]
          congr 1
          omega
      · have hql : ∀ u j, q = some (u, j) → ∃ b ∈ l, b.seg.ty = u := by
          intro u j e
          subst e
          obtain ⟨b, hub, h2, h3, -⟩ := hl.use E
          have hbm := hub.mem
          rw [hn] at hbm
          rcases List.mem_append.1 hbm with hbm | hbm
          · exfalso
            obtain ⟨pre1, pre2, rfl⟩ := List.append_of_mem hbm
            have hn2 : c.map.nodes = pre1 ++ b :: (pre2 ++ a :: l) := by rw [hn, List.append_assoc]; rfl
            have hr2 := node_rank E h.map hn2 j
            rw [h2] at hr2
            rw [hr2, hrp] at hpq
            have : (absNodes (pre1 ++ b :: pre2)).flat.length = (absNodes pre1).flat.length + b.seg.size + (absNodes pre2).flat.length := by
              simp [absNodes, Spec.State.flat_append, Spec.State.flat_cons, Seg.size_eq, Nat.add_assoc]
            omega
          · rcases List.mem_cons.1 hbm with rfl | hbm
            · exact absurd (hu.node.trans hub.node.symm) hs
            · exact ⟨b, hbm, h2⟩
        obtain ⟨g1, g2⟩ := distanceFrom_eq E h hl l pre a first.mapit (a.seg.size - k) (c.map.nodes.length + 1) hn hu hql
          (by rw [hn]; simp only [List.length_append, List.length_cons]; omega)
        have hsp : span first.segpos a.seg.end = some (a.seg.size - k) := by
          rw [ha3, Seg.end_eq]
          exact span_base a.seg (Nat.le_of_lt ha2)
        have hrs := node_rank E h.map hn a.seg.size
        simp only [hs, decide_false, segInfo_eq E h.map hu, hsp, g2, itEq_eq E hl.usable hl.endUsable, hl.endNode]
        cases q with
        | none =>
          simp only [hl.pos.1, decide_true, segRank, rank_none] at g1 ⊢
          congr 1
          omega
        | some q =>
          obtain ⟨u, j⟩ := q
          obtain ⟨b, hub, rfl, hb2, hb3⟩ := hl.use E
          have hsp2 : span b.seg.begin last.segpos = some j := by
            rw [hb3, ← Seg.base_zero]
            exact span_base b.seg (Nat.zero_le _)
          have hra := rank_add E h.map hub.mem 0 j
          rw [Nat.zero_add] at hra
          simp only [segRank] at g1
          simp only [hub.node, reduceCtorEq, decide_false, segInfo_eq E h.map hub, hsp2, segRank, Option.map_some]
          congr 1
          omega

/-- `std::distance`. -/
theorem distance_eq {c : Coll V} {w : World} (h : c.Inv E w) {last : GIter} {r' : Nat} (hl : AtRank E c last r') (hr' : r' ≤ c.abs.flat.length) :
    ∀ (fuel : Nat) (it : GIter) (r : Nat), AtRank E c it r → r ≤ r' → r' - r < fuel → distance E c last it fuel = some (r' - r) := by
  intro fuel
  induction fuel with
  | zero => intro it r _ _ h; omega
  | succ fuel ih =>
    intro it r hi hr hfu
    rw [distance]
    have heq := AtRank.eq E (Inv.core E h) hi hl
    by_cases he : r = r'
    · rw [if_pos (heq.2 he), he, Nat.sub_self]
    · rw [if_neg (fun e => he (heq.1 e))]
      obtain ⟨it', h1, h2⟩ := hi.increment E h (by omega)
      simp only [h1, ih it' (r + 1) h2 (by omega) (by omega), Option.map_some]
      congr 1
      omega

/-- `std::next`. -/
theorem next_eq {c : Coll V} {w : World} (h : c.Inv E w) :
    ∀ (n : Nat) (it : GIter) (r : Nat), AtRank E c it r → r + n ≤ c.abs.flat.length → ∃ it', next E c it n = some it' ∧ AtRank E c it' (r + n) := by
  intro n
  induction n with
  | zero => intro it r hi _; exact ⟨it, rfl, hi⟩
  | succ n ih =>
    intro it r hi hr
    obtain ⟨it', h1, h2⟩ := hi.increment E h (by omega)
    obtain ⟨it'', h3, h4⟩ := ih it' (r + 1) h2 (by omega)
    refine ⟨it'', ?_, ?_⟩
    · rw [next, h1]; exact h3
    · rw [show r + (n + 1) = r + 1 + n by omega]; exact h4

end Algo
end PolyColl
