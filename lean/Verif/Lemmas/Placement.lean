import Verif.Lemmas.AlgoAdjacent
import Verif.Model.Placement
/-! # Comparing iterators by their addresses -/

namespace PolyColl
open Prog

/-- How many base iterators can point to different places in the buffer of a segment. -/
def Backend.room {V : Type} : Backend V → Nat
  | .packed x => x.s.cap
  | .split x => x.i.cap

/-- Buffers are laid out as memory allows: the null pointer has address 0 and no buffer has; the part
of an element that base iterators point to lies within the element; the buffers of different segments
do not overlap (they may touch).  Nothing is said about segments without elements. -/
structure Placement.Lays {V : Type} (P : Placement) (c : Coll V) : Prop where
  null : P.addr Ptr.null = 0
  real : ∀ n ∈ c.map.nodes, 0 < n.seg.size → 0 < P.buf n.seg.begin.blk ∧ P.off n.seg.begin.blk < P.stride n.seg.begin.blk
  disj : ∀ n ∈ c.map.nodes, ∀ n' ∈ c.map.nodes, n ≠ n' → 0 < n.seg.size → 0 < n'.seg.size →
    P.buf n.seg.begin.blk + n.seg.be.room * P.stride n.seg.begin.blk ≤ P.buf n'.seg.begin.blk ∨
      P.buf n'.seg.begin.blk + n'.seg.be.room * P.stride n'.seg.begin.blk ≤ P.buf n.seg.begin.blk

/-- The end of no segment has the address of an element of another one. -/
def Placement.Clear {V : Type} (P : Placement) (c : Coll V) : Prop :=
  ∀ n ∈ c.map.nodes, ∀ n' ∈ c.map.nodes, n ≠ n' → ∀ j, 0 < n.seg.size → j < n'.seg.size →
    P.addr (n.seg.base n.seg.size) ≠ P.addr (n'.seg.base j)

theorem Placement.addr_base {V : Type} (P : Placement) (s : Seg V) (j : Nat) :
    P.addr (s.base j) = P.buf s.begin.blk + j * P.stride s.begin.blk + P.off s.begin.blk := rfl

theorem Backend.size_le_room {V : Type} (E : Env V) {x : Seg V} {w : World} (h : x.Core E w) : x.size ≤ x.be.room := by
  obtain ⟨be, snt⟩ := x
  cases be with
  | packed y => have h : y.s.WF w := h; exact h.le
  | split y =>
    have h : y.Inv E w := h
    have := h.iwf.le
    rw [h.isize E] at this
    show y.s.size ≤ y.i.cap
    omega

/-- In the split layout the index has a place for the end. -/
theorem Backend.size_lt_room {V : Type} (E : Env V) {x : Seg V} {w : World} (h : x.Core E w) (hk : x.kind = .split) : x.size < x.be.room := by
  obtain ⟨be, snt⟩ := x
  cases be with
  | packed y => cases hk
  | split y =>
    have h : y.Inv E w := h
    have := h.iwf.le
    rw [h.isize E] at this
    show y.s.size < y.i.cap
    omega

namespace Placement
variable {V : Type} {P : Placement} {c : Coll V}

theorem Lays.addr_inj (h : P.Lays c) {n : Node V} (hn : n ∈ c.map.nodes) (hs : 0 < n.seg.size) (a b : Nat) :
    P.addr (n.seg.base a) = P.addr (n.seg.base b) ↔ a = b := by
  have := (h.real n hn hs).2
  rw [addr_base, addr_base]
  constructor
  · intro e
    have : a * P.stride n.seg.begin.blk = b * P.stride n.seg.begin.blk := by omega
    exact Nat.eq_of_mul_eq_mul_right (by omega) this
  · rintro rfl; rfl

/-- What lies in a buffer is before its end. -/
theorem Lays.addr_lt (h : P.Lays c) {n : Node V} (hn : n ∈ c.map.nodes) (hs : 0 < n.seg.size) {a k : Nat} (ha : a < k) :
    P.addr (n.seg.base a) < P.buf n.seg.begin.blk + k * P.stride n.seg.begin.blk := by
  have := (h.real n hn hs).2
  rw [addr_base]
  have hm : (a + 1) * P.stride n.seg.begin.blk ≤ k * P.stride n.seg.begin.blk := Nat.mul_le_mul_right _ ha
  rw [Nat.succ_mul] at hm
  omega

theorem Lays.addr_ge (n : Node V) (a : Nat) : P.buf n.seg.begin.blk ≤ P.addr (n.seg.base a) := by
  rw [addr_base]; omega

theorem Lays.addr_ne (E : Env V) {w : World} (hc : c.Core E w) (h : P.Lays c) {n n' : Node V} (hn : n ∈ c.map.nodes) (hn' : n' ∈ c.map.nodes)
    (hne : n ≠ n') {a b : Nat} (ha : a < n.seg.be.room) (hb : b < n'.seg.size) (hs : 0 < n.seg.size) :
    P.addr (n.seg.base a) ≠ P.addr (n'.seg.base b) := by
  have hb' := Backend.size_le_room E (hc.mem.segs n' hn')
  have h1 := h.addr_lt hn hs ha
  have h2 := h.addr_lt hn' (by omega) (show b < n'.seg.be.room by omega)
  have h3 := Lays.addr_ge (P := P) n a
  have h4 := Lays.addr_ge (P := P) n' b
  rcases h.disj n hn n' hn' hne hs (by omega) with h5 | h5 <;> omega

/-- No segment with spare room is in danger, in particular no segment of the split layout. -/
theorem Lays.clear (E : Env V) {w : World} (hc : c.Core E w) (h : P.Lays c)
    (hf : ∀ n ∈ c.map.nodes, ∀ n' ∈ c.map.nodes, n ≠ n' → ∀ j, 0 < n.seg.size → n.seg.size = n.seg.be.room → j < n'.seg.size →
      P.addr (n.seg.base n.seg.size) ≠ P.addr (n'.seg.base j)) : P.Clear c := by
  intro n hn n' hn' hne j hs hj
  have := Backend.size_le_room E (hc.mem.segs n hn)
  by_cases hr : n.seg.size = n.seg.be.room
  · exact hf n hn n' hn' hne j hs hr hj
  · exact h.addr_ne E hc hn hn' hne (by omega) hj hs

/-- Nor is one whose end lies before the next buffer or after the end of all elements at that place. -/
theorem Lays.clear_gap (h : P.Lays c) {d : Nat} (hd : ∀ n ∈ c.map.nodes, 0 < n.seg.size → P.off n.seg.begin.blk = d)
    (hg : ∀ n ∈ c.map.nodes, ∀ n' ∈ c.map.nodes, 0 < n.seg.size → 0 < n'.seg.size →
      P.buf n.seg.begin.blk + n.seg.be.room * P.stride n.seg.begin.blk ≠ P.buf n'.seg.begin.blk) (E : Env V) {w : World} (hc : c.Core E w) :
    P.Clear c := by
  refine h.clear E hc fun n hn n' hn' hne j hs hr hj e => ?_
  have h1 := h.addr_lt hn' (by omega) (show j < n'.seg.be.room by have := Backend.size_le_room E (hc.mem.segs n' hn'); omega)
  have h2 := hd n hn hs
  have h3 := hd n' hn' (by omega)
  have h4 := (h.real n hn hs).2
  have h5 := hg n hn n' hn' hs (by omega)
  rw [addr_base, addr_base, hr, h2, h3] at e
  rw [addr_base, h3] at h1
  rcases h.disj n hn n' hn' hne hs (by omega) with h6 | h6
  · rcases Nat.eq_zero_or_pos j with rfl | hj0
    · omega
    · have : P.stride n'.seg.begin.blk ≤ j * P.stride n'.seg.begin.blk := Nat.le_mul_of_pos_left _ hj0
      omega
  · have hsn : n.seg.be.room * P.stride n.seg.begin.blk ≥ P.stride n.seg.begin.blk := Nat.le_mul_of_pos_left _ (by omega)
    omega

end Placement

namespace Algo
variable {V : Type} (E : Env V) (P : Placement) {m : Type → Type} [Monad m] [LawfulMonad m] {σ B O W : Type}
open Coll

/-- Continuations need to agree only on the results there are. -/
theorem Sim.bind_congr {α β γ : Type} {R : α → β → Prop} {x : OptionT m α} {y : m β} {f g : α → OptionT m γ} (h : Sim R x y)
    (hf : ∀ a b, R a b → f a = g a) : x >>= f = x >>= g := by
  obtain ⟨z, h1, -⟩ := h
  refine OptionT.ext ?_
  rw [OptionT.run_bind, OptionT.run_bind, h1]
  simp only [Option.elimM, bind_map_left, Option.elim_some]
  exact _root_.bind_congr fun p => by rw [hf _ _ p.2]

theorem piece_addr {c : Coll V} {i : SegInfo} {n : Node V} {a b : Nat} (hl : P.Lays c) (hp : IsPiece E c i n a b) {k : Nat} (hk : k ≤ b - a) :
    (P.addr (n.seg.base (a + k)) ≠ P.addr i.last.pos) ↔ (n.seg.base (a + k) ≠ i.last.pos) := by
  have hle := hp.le
  have hle' := hp.le'
  rw [hp.last, ne_eq, ne_eq, base_inj]
  by_cases hab : a < b
  · rw [hl.addr_inj hp.use.mem (by omega)]
  · have : a + k = b := by omega
    rw [this]
    simp

/-- Searches that return iterators into the piece they are given. -/
theorem findInAt_eq {c : Coll V} (hl : P.Lays c) {Ts : List Ty}
    {alg : SegInfo → σ → OptionT m (LIter × σ)} {std : List (Passed V) → σ → m (Nat × σ)} {Ok : σ → List (Passed V) → Prop}
    (hlift : Lifts E c Ts alg std Ok) {last : GIter} {f : Bool} {ps : List SegInfo} {r : Nat} {l : List (Ty × V)} (hc : Cut E c f ps r l) :
    ∀ s, Ok s (passed Ts l) → findInAt E P c last alg ps s = findIn E c last alg ps s := by
  induction hc with
  | nil => intro s _; rfl
  | @cons f i is n a b r l hp hr hz hc ih =>
    intro s hok
    rw [passed_append] at hok
    rw [findInAt, findIn]
    refine (hlift i n a b s _ hp hok).bind_congr fun x y hxy => ?_
    obtain ⟨h1, h2, h3, h4⟩ := hxy
    have hle := hp.le
    have hle' := hp.le'
    rw [h1]
    simp only [piece_addr E P hl hp h2]
    by_cases hy : y.1 = b - a
    · have : ¬ n.seg.base (a + y.1) ≠ i.last.pos := by rw [hp.last, ne_eq, base_inj]; omega
      rw [if_neg this, if_neg this, h3, ih _ (h4 hy)]
    · have : n.seg.base (a + y.1) ≠ i.last.pos := by rw [hp.last, ne_eq, base_inj]; omega
      rw [if_pos this, if_pos this]

theorem adjacentInAt_eq {c : Coll V} {w : World} (h : c.Inv E w) (hl : P.Lays c) (hcl : P.Clear c) (Ts : List Ty) (p : Passed V → Passed V → m Bool)
    {last : GIter} {f : Bool} {ps : List SegInfo} {r : Nat} {l : List (Ty × V)} (hc : Cut E c f ps r l) :
    (∀ s, findInAt E P c last (adjacentFindAlg E c Ts p none) ps (false, s) = findIn E c last (adjacentFindAlg E c Ts p none) ps (false, s)) ∧
    (f = true → ∀ s z, Prev E c s z r →
      findInAt E P c last (adjacentFindAlg E c Ts p none) ps (true, s) = findIn E c last (adjacentFindAlg E c Ts p none) ps (true, s)) := by
  induction hc with
  | nil => exact ⟨fun _ => rfl, fun _ _ _ _ => rfl⟩
  | @cons f i is n a b r l hp hrk hz hc ih =>
    have hle := hp.le
    have hle' := hp.le'
    have hsl : (sliceOf n.seg a (b - a)).length = b - a := sliceOf_length (by omega)
    obtain ⟨ih1, ih2⟩ := ih
    by_cases hab : a < b
    · obtain ⟨k, v, hk1, hk2, hk3⟩ := sliceOf_last hab hle'
      have hprev : Prev E c (some ⟨i.first.mapit, n.seg.base (b - 1)⟩) (n.seg.ty, v) (r + (b - a)) := by
        refine ⟨_, n, b - 1, rfl, hp.use, rfl, hk3, rfl, ?_⟩
        have := rank_add E h.map hp.use.mem a (b - 1 - a)
        rw [show a + (b - 1 - a) = b - 1 by omega, hrk] at this
        omega
      have hcont : ∀ (x : LIter × Bool × Option LIter) (d : Nat), AtPiece i n a b x d →
          (if P.addr x.1.pos ≠ P.addr i.last.pos then do return (← defd (c.map.iteratorFrom E x.1 last.mapend), x.2)
              else findInAt E P c last (adjacentFindAlg E c Ts p none) is x.2) =
            (if x.1.pos ≠ i.last.pos then do return (← defd (c.map.iteratorFrom E x.1 last.mapend), x.2)
              else findIn E c last (adjacentFindAlg E c Ts p none) is x.2) := by
        intro x d hx
        obtain ⟨x1, x2⟩ := x
        obtain ⟨g1, g2, g3⟩ := hx
        simp only at g1 g3
        subst g1
        simp only [piece_addr E P hl hp g2]
        by_cases hd : d = b - a
        · rw [g3 hd, ih2 rfl _ _ hprev]
        · have : n.seg.base (a + d) ≠ i.last.pos := by rw [hp.last, ne_eq, base_inj]; omega
          rw [if_pos this, if_pos this]
      refine ⟨fun s => ?_, fun hf s z hs => ?_⟩
      · rw [findInAt, findIn]
        exact (adjacentN_sim E (Inv.core E h) Ts p hp hab s).bind_congr fun x d hx => hcont x d hx
      · have h0 := hz hf
        have hne : z.1 ≠ n.seg.ty := by
          obtain ⟨l0, n0, j, e1, e2, e3, e4, e5, e6⟩ := hs
          intro e
          have hn : n0 = n := PolyColl.eq_of_nodup (h.map.nodup_ty E) e2.mem hp.use.mem (e5.trans e)
          subst hn
          have := rank_add E h.map e2.mem 0 j
          rw [Nat.zero_add] at this
          rw [h0] at hrk
          omega
        cases hv : sliceOf n.seg a (b - a) with
        | nil => rw [hv] at hsl; simp only [List.length_nil] at hsl; omega
        | cons y ys =>
          rw [findInAt, findIn]
          refine (adjacentC_sim E (Inv.core E h) Ts p hp hs hv hne).bind_congr fun x o hx => ?_
          cases o with
          | some d => exact hcont x d hx
          | none =>
            obtain ⟨l0, n0, j, e1, e2, e3, e4, e5, e6⟩ := hs
            have hx : s = some x.1 := hx
            have hj : j < n0.seg.size := by
              rcases Nat.lt_or_ge j n0.seg.elems.length with h | h
              · exact h
              · rw [List.getElem?_eq_none h] at e4; cases e4
            have hnn : n ≠ n0 := by rintro rfl; exact hne e5.symm
            have hx1 : x.1.pos = n0.seg.base j := by
              rw [hx] at e1
              rw [Option.some.inj e1, e3]
            have ha : P.addr x.1.pos ≠ P.addr i.last.pos := by
              rw [hx1, hp.last]
              rcases Nat.lt_or_ge b n.seg.size with hb | hb
              · have := Backend.size_le_room E ((Inv.core E h).mem.segs n hp.use.mem)
                exact (hl.addr_ne E (Inv.core E h) hp.use.mem e2.mem hnn (by omega) hj (by omega)).symm
              · have : b = n.seg.size := by omega
                rw [this]
                exact (hcl n hp.use.mem n0 e2.mem hnn j (by omega) hj).symm
            have hb : x.1.pos ≠ i.last.pos := fun e => ha (by rw [e])
            rw [if_pos ha, if_pos hb]
    · have hab : b = a := by omega
      subst hab
      have hnil : sliceOf n.seg b (b - b) = [] := by simp [sliceOf]
      obtain ⟨rg, h1, h2, h3, h4⟩ := hp.rangeP E (Inv.core E h) Ts
      have hv : rg.vals = [] := by rw [h3, hnil]; rfl
      have hstep : ∀ (s : Bool × Option LIter), findIn E c last (adjacentFindAlg E c Ts p none) (i :: is) s =
          findIn E c last (adjacentFindAlg E c Ts p none) is s := by
        intro s
        rw [findIn, adjacentFindAlg]
        simp only [h1, hv, defd_some, pure_bind, h2.at E (Inv.core E h) (k := 0) (by omega)]
        rw [if_neg (by rw [hp.last]; simp)]
      have hstep' : ∀ (s : Bool × Option LIter), findInAt E P c last (adjacentFindAlg E c Ts p none) (i :: is) s =
          findInAt E P c last (adjacentFindAlg E c Ts p none) is s := by
        intro s
        rw [findInAt, adjacentFindAlg]
        simp only [h1, hv, defd_some, pure_bind, h2.at E (Inv.core E h) (k := 0) (by omega)]
        rw [if_neg (by rw [hp.last]; simp)]
      simp only [hstep, hstep']
      rw [Nat.sub_self, Nat.add_zero] at ih2
      exact ⟨ih1, fun _ => ih2 rfl⟩

theorem searchNInAt_eq {c : Coll V} {w : World} (h : c.Inv E w) (hl : P.Lays c) (Ts : List Ty) (p : Passed V → m Bool) (count : Nat) {last : GIter}
    {f : Bool} {ps : List SegInfo} {r : Nat} {l : List (Ty × V)} (hc : Cut E c f ps r l) :
    ∀ (carry : Bool) (remain run : Nat) (prev : Option LIter), run < count → remain = count - run → (carry = false → run = 0) →
      searchNInAt E P c Ts last count p ps carry remain prev = searchNIn E c Ts last count p ps carry remain prev := by
  induction hc with
  | nil => intros; rfl
  | @cons f i is n a b r l hp hrk hz hc ih =>
    intro carry remain run prev hrun hrem hs
    subst hrem
    obtain ⟨rg, h1, h2, h3, h4⟩ := hp.rangeP E (Inv.core E h) Ts
    have hle := hp.le
    have hle' := hp.le'
    have hlen := sliceP_length (Ts := Ts) E hp
    have hst : RunState count 0 none carry (count - run) run := by
      refine ⟨hrun, rfl, ?_⟩
      cases carry
      · exact .inr ⟨rfl, .inl ⟨rfl, hs rfl⟩⟩
      · exact .inl ⟨rfl, Nat.zero_le _, rfl⟩
    rw [searchNInAt, searchNIn, h1, defd_some, pure_bind, pure_bind, h3]
    have hres := searchNAlg_results p count (passed Ts (sliceOf n.seg a (b - a))) 0 none carry (count - run) run hst
    simp only [hlen, Nat.zero_add] at hres
    refine hres.sim.bind_congr fun x y hxy => ?_
    obtain ⟨rfl, g1, g2, g3⟩ := hxy
    rw [h2.at E (Inv.core E h) (k := x.1) (by omega), defd_some, pure_bind, pure_bind]
    simp only [piece_addr E P hl hp g1]
    rcases g3 with ⟨g3, g4⟩ | ⟨run', g3, g4, g5⟩
    · have : n.seg.base (a + x.1) ≠ i.last.pos := by rw [hp.last, ne_eq, base_inj]; omega
      rw [if_pos this, if_pos this, if_pos g3, if_pos g3]
    · have h0 : ¬ x.2.2 = 0 := by omega
      simp only [if_neg h0]
      have hcar : ∀ pr, searchNInAt E P c Ts last count p is true x.2.2 pr = searchNIn E c Ts last count p is true x.2.2 pr :=
        fun pr => ih true x.2.2 run' pr g3 g4 (fun e => by cases e)
      rcases g5 with ⟨hx, g5⟩ | ⟨hx, g5⟩
      · simp only [hx, hcar]
      · simp only [hx, hcar, if_true]
        by_cases hend : x.1 = b - a
        · have : ¬ n.seg.base (a + x.1) ≠ i.last.pos := by rw [hp.last, ne_eq, base_inj]; omega
          rw [if_neg this, if_neg this]
          exact ih false x.2.2 run' prev g3 g4 (fun _ => by omega)
        · have : n.seg.base (a + x.1) ≠ i.last.pos := by rw [hp.last, ne_eq, base_inj]; omega
          rw [if_pos this, if_pos this]

end Algo
end PolyColl
