import Verif.Lemmas.Arith
import Verif.Props.Limits
import Verif.Props.Insertion
/-!
# C85: computations with `std::size_t` do not go wrong

`W` is the number of values of `std::size_t`.  The functions whose names end in `W` compute with such numbers
(Model/Arith), those without count with natural numbers, and all other theorems are about the latter.
-/

namespace PolyColl.Props
open PolyColl Prog Coll

variable {V : Type} {E : Env V} {k : Kind} {W : Nat}

theorem possible_split {c : Coll V} {w : World} (h : c.Possible E k w) {n : Node V} (hn : n ∈ c.map.nodes) {x : Split V} (hx : n.seg.be = .split x) :
    0 < w.next ∧ SpLim E x.ty x := by
  obtain ⟨sub, s, i, -, hr, rfl⟩ := h
  have := (reach_lim hr).2 i n hn
  unfold SegLim SLim Seg.ty at this
  rw [hx] at this
  exact ⟨(reach_lim hr).1, this⟩

/-- Machines with 65536 or 22 numbers: the latter are just enough for the sample's vectors. -/
theorem sample_machine : Sample.E0.Machine 65536 := ⟨fun _ => show 2 * 1000 + 2 ≤ 65536 by decide, by decide⟩
theorem sample_machine4 : Sample.E4.Machine 22 := ⟨fun _ => show 2 * 2 + 2 ≤ 22 by decide, by decide⟩

/-- The segment of the sample's full collection. -/
def fullSeg : Split Nat := ⟨0, 0, 0, ⟨11, 2, [5, 6]⟩, ⟨10, 3, [⟨11, 0⟩, ⟨11, 1⟩, ⟨11, 2⟩]⟩⟩
theorem full_mem : (⟨4, 0, ⟨.split fullSeg, ⟨10, 2⟩⟩⟩ : Node Nat) ∈ Sample.wmxc2.map.nodes := List.mem_singleton.2 rfl
theorem full_possible : Sample.wmxc2.Possible Sample.E4 .split ⟨12, 13⟩ := Sample.wmxreach.left.possible

/-- **C85**, insertion: at any time, also after any exceptions, inserting elements into a split segment does the same
with machine numbers. -/
theorem C85_insertion (hf : E.Fits) (hW : E.Machine W) {c : Coll V} {w : World} (h : c.Possible E k w) {n : Node V} (hn : n ∈ c.map.nodes)
    {x : Split V} (hx : n.seg.be = .split x) :
    (∀ p src, Split.emplaceAtW W E p src x w = Split.emplaceAt E p src x w) ∧
    (∀ src, Split.pushBackW W E src x w = Split.pushBack E src x w) ∧
    (∀ p srcs, Split.insertInputW W E p srcs x w = Split.insertInput E p srcs x w) ∧
    (∀ p srcs, Counts W srcs → Split.insertForwardW W E p srcs x w = Split.insertForward E p srcs x w) := by
  obtain ⟨hw, hl⟩ := possible_split h hn hx
  exact ⟨fun p src => (Split.emplaceAtW_agree hf hW p src).run x w hw hl, fun src => (Split.pushBackW_agree hf hW src).run x w hw hl,
    fun p srcs => (Split.insertInputW_agree hf hW p srcs).run x w hw hl, fun p srcs hm => (Split.insertForwardW_agree hf hW p hm).run x w hw hl⟩

example := C85_insertion sample_fits4 sample_machine4 full_possible full_mem rfl

/-- A third element does not fit.  While that is being found out, 2-1-2 is computed: that is 21. -/
example : (∃ x, Split.pushBackW 22 Sample.E4 (.emplaced 7) fullSeg ⟨12, 13⟩ = .exc .lengthError x ⟨13, 14⟩ ∧ x.s = fullSeg.s ∧ x.i.cap = 4) ∧
    (∃ x, Split.insertInputW 22 Sample.E4 ⟨11, 1⟩ [.emplaced 7] fullSeg ⟨12, 13⟩ = .exc .lengthError x ⟨13, 14⟩ ∧ x.s = fullSeg.s ∧ x.i.cap = 4) ∧
    Split.insertForwardW 22 Sample.E4 ⟨11, 1⟩ [] fullSeg ⟨12, 13⟩ = .ok (⟨10, 1⟩, ⟨10, 2⟩) fullSeg ⟨12, 13⟩ ∧
    Counts 22 ([] : List (Src Nat)) := ⟨⟨_, rfl, rfl, rfl⟩, ⟨_, rfl, rfl, rfl⟩, rfl, show 2 * 0 + 2 ≤ 22 by decide⟩

/-- **C85**, erasure. -/
theorem C85_erasure (hf : E.Fits) (hW : E.Machine W) {c : Coll V} {w : World} (h : c.Possible E k w) {n : Node V} (hn : n ∈ c.map.nodes)
    {x : Split V} (hx : n.seg.be = .split x) :
    (∀ p, Split.eraseW W E p x w = Split.erase E p x w) ∧
    (∀ p q, Split.eraseRangeW W E p q x w = Split.eraseRange E p q x w) ∧
    (∀ p, Split.eraseTillEndW W E p x w = Split.eraseTillEnd E p x w) ∧
    (∀ p, Split.eraseFromBeginW W E p x w = Split.eraseFromBegin E p x w) ∧
    Split.clearW W x w = Split.clear x w := by
  obtain ⟨hw, hl⟩ := possible_split h hn hx
  exact ⟨fun p => (Split.eraseW_agree hW p).run x w hw hl, fun p q => (Split.eraseRangeW_agree hf hW p q).run x w hw hl,
    fun p => (Split.eraseTillEndW_agree hf hW p).run x w hw hl, fun p => (Split.eraseFromBeginW_agree hf hW p).run x w hw hl,
    (Split.clearW_agree hf hW).run x w hw hl⟩

example := C85_erasure sample_fits4 sample_machine4 full_possible full_mem rfl

/-- Both elements are erased in different ways. -/
example : (∃ x, Split.eraseRangeW 22 Sample.E4 ⟨11, 0⟩ ⟨11, 2⟩ fullSeg ⟨12, 13⟩ = .ok (⟨10, 0⟩, ⟨10, 0⟩) x ⟨12, 13⟩ ∧ x.s.elems = [] ∧ x.i.elems = [⟨11, 0⟩]) ∧
    (∃ x, Split.clearW 22 fullSeg ⟨12, 13⟩ = .ok ⟨10, 0⟩ x ⟨12, 13⟩ ∧ x.s.elems = [] ∧ x.i.elems = [⟨11, 0⟩]) := ⟨⟨_, rfl, rfl, rfl⟩, ⟨_, rfl, rfl, rfl⟩⟩

/-- **C85**, capacity: any number of the machine may be asked for. -/
theorem C85_capacity (hf : E.Fits) (hW : E.Machine W) {c : Coll V} {w : World} (h : c.Possible E k w) {n : Node V} (hn : n ∈ c.map.nodes)
    {x : Split V} (hx : n.seg.be = .split x) :
    (∀ m, m < W → Split.reserveW W E m x w = Split.reserve E m x w) ∧
    Split.shrinkToFitW W E x w = Split.shrinkToFit E x w ∧
    Split.maxSizeW W E x = n.seg.maxSize E := by
  obtain ⟨hw, hl⟩ := possible_split h hn hx
  refine ⟨fun m hm => (Split.reserveW_agree hf hW hm).run x w hw hl, (Split.shrinkToFitW_agree hf hW).run x w hw hl, ?_⟩
  unfold Split.maxSizeW Seg.maxSize
  rw [hx, Split.wsub_le (hf.one _) (by have := hW.store x.ty; omega)]

example := C85_capacity sample_fits4 sample_machine4 full_possible full_mem rfl

example : Split.reserveW 22 Sample.E4 2 fullSeg ⟨12, 13⟩ = .ok ⟨10, 2⟩ fullSeg ⟨12, 13⟩ ∧ Split.maxSizeW 22 Sample.E4 fullSeg = 1 := ⟨rfl, rfl⟩

/-- **C85**, creation of segments: new ones, copies and segments moved to another allocator. -/
theorem C85_creation (hf : E.Fits) (hW : E.Machine W) {c : Coll V} {w : World} (h : c.Possible E k w) :
    (∀ {X : Type} (y : X) t al, Split.makeW W E t al y w = Split.make E t al y w) ∧
    ∀ n ∈ c.map.nodes, ∀ x, n.seg.be = .split x →
      (∀ {X : Type} (y : X), Split.copyW W E x y w = Split.copy E x y w) ∧
      (∀ {X : Type} (y : X) al, Split.copyAlW W E x al y w = Split.copyAl E x al y w) ∧
      ∀ al, Split.moveW W E al x w = Split.move E al x w := by
  have hw : 0 < w.next := by
    obtain ⟨sub, s, i, -, hr, rfl⟩ := h
    exact (reach_lim hr).1
  refine ⟨fun y t al => (Split.makeW_agree hf hW al).run y w hw trivial, fun n hn x hx => ?_⟩
  obtain ⟨-, hl⟩ := possible_split h hn hx
  exact ⟨fun y => (Split.copyW_agree hf hW hl).run y w hw trivial, fun y al => (Split.copyAlW_agree hf hW hl al).run y w hw trivial,
    fun al => (Split.moveW_agree hf hW al).run x w hw hl⟩

example := C85_creation sample_fits4 sample_machine4 full_possible

example : ∃ y, Split.copyW 22 Sample.E4 fullSeg () ⟨12, 13⟩ = .ok y () ⟨17, 18⟩ ∧ y.s.elems = [5, 6] := ⟨_, rfl, rfl⟩

/-- One sum of **C85** does wrap around, to zero, if the largest number is passed to `reserve`.  That is harmless: `std::length_error` is thrown a little later, and nothing has changed. -/
theorem C85_reserve_wraps (hf : E.Fits) (hW : E.Machine W) {c : Coll V} {w : World} (h : c.Possible E k w) {n : Node V} (hn : n ∈ c.map.nodes)
    {x : Split V} (hx : n.seg.be = .split x) :
    Split.wadd W (W - 1) 1 = 0 ∧ Split.reserveW W E (W - 1) x w = .exc .lengthError x w := by
  have h0 := hW.index
  constructor
  · unfold Split.wadd
    rw [show W - 1 + 1 = W by omega, Nat.mod_self]
  · rw [(C85_capacity hf hW h hn hx).1 (W - 1) (by omega)]
    unfold Split.reserve Split.onI Env.idxReserve Prog.zoom
    simp only [Bind.bind, Prog.bind, Prog.get]
    rw [if_pos (by omega)]
    rfl

example := C85_reserve_wraps sample_fits4 sample_machine4 full_possible full_mem rfl

/-! ### Collections -/

theorem sizeW_mod (l : List Nat) : ∀ s, s < W → l.foldl (Split.wadd W) s = (s + l.sum) % W := by
  induction l with
  | nil => intro s hs; simp [Nat.mod_eq_of_lt hs]
  | cons a l ih =>
    intro s hs
    rw [List.foldl_cons, ih _ (show Split.wadd W s a < W from Nat.mod_lt _ (by omega)), List.sum_cons]
    unfold Split.wadd
    rw [Nat.mod_add_mod, Nat.add_assoc]

theorem eqLoopW_eq {X : Type} (y : TMap V) (l : List (Node V)) : ∀ s, s + (l.map fun n => n.seg.size).sum < W →
    (eqLoopW W E y l s : Prog X (Option Nat)) = eqLoop E y l s := by
  induction l with
  | nil => intro s _; rfl
  | cons p l ih =>
    intro s hs
    simp only [List.map_cons, List.sum_cons] at hs
    unfold eqLoopW eqLoop
    have e : Split.wadd W s p.seg.size = s + p.seg.size := Split.wadd_lt (by omega)
    simp only [e, ih (s + p.seg.size) (by omega)]

/-- **C85**, whole collections: `size` and `==` add up the sizes of segments; they do so correctly, provided that
memory cannot hold as many elements as there are numbers. -/
theorem C85_collections {X : Type} {x y : Coll V} (hx : x.size < W) (hy : y.size < W) :
    x.sizeW W = x.size ∧ (equalW W E x y : Prog X Bool) = equal E x y := by
  have h0 : 0 < W := by omega
  have hs : ∀ z : Coll V, z.size < W → z.sizeW W = z.size := fun z hz => by
    unfold sizeW
    rw [sizeW_mod _ 0 h0, Nat.zero_add]
    exact Nat.mod_eq_of_lt hz
  refine ⟨hs x hx, ?_⟩
  unfold equalW equal
  rw [eqLoopW_eq _ _ _ (by simpa [Coll.size] using hx)]
  funext s w
  show Prog.bind _ _ s w = Prog.bind _ _ s w
  congr 1
  funext r
  cases r with
  | none => rfl
  | some s => rw [hs y hy]

example (k : Kind) := C85_collections (X := Unit) (E := Sample.E0) (x := Sample.c0 k) (y := Sample.c1 k) (W := 65536) (by cases k <;> decide) (by cases k <;> decide)

/-- The proviso is needed: on a machine with five numbers, the sample's five elements would be counted as none. -/
example (k : Kind) : (Sample.c0 k).sizeW 5 = 0 ∧ (Sample.c0 k).sizeW 6 = 5 := by cases k <;> exact ⟨rfl, rfl⟩

theorem posLoopBaseW_eq (mapit : MapIt) (as : List (Arg V)) : ∀ p n, n < W →
    posLoopBaseW W E mapit p n as = Prog.bind (posLoopBase E mapit p as) fun q => Prog.pure (q, (n + as.length) % W) := by
  induction as with
  | nil =>
    intro p n hn
    unfold posLoopBaseW posLoopBase Prog.bind Prog.pure
    simp only [List.length_nil, Nat.add_zero, Nat.mod_eq_of_lt hn]
    rfl
  | cons a as ih =>
    intro p n hn
    unfold posLoopBaseW posLoopBase
    funext c w
    show Prog.bind _ _ c w = Prog.bind (Prog.bind _ _) _ c w
    have e : (Split.wadd W n 1 + as.length) % W = (n + (a :: as).length) % W := by
      unfold Split.wadd
      rw [Nat.mod_add_mod, List.length_cons, Nat.add_assoc, Nat.add_comm 1]
    simp only [Prog.bind, ih _ _ (show Split.wadd W n 1 < W from Nat.mod_lt _ (by omega)), e]
    cases onMap (TMap.onSeg E mapit (downcast (E.tiTy a.dyn) (Seg.insertBase E p a.src))) c w <;> rfl

theorem posLoopLocalW_eq (mapit : MapIt) (t : Ty) (srcs : List (Src V)) : ∀ p n, n < W →
    posLoopLocalW W E mapit t p n srcs = Prog.bind (posLoopLocal E mapit t p srcs) fun q => Prog.pure (q, (n + srcs.length) % W) := by
  induction srcs with
  | nil =>
    intro p n hn
    unfold posLoopLocalW posLoopLocal Prog.bind Prog.pure
    simp only [List.length_nil, Nat.add_zero, Nat.mod_eq_of_lt hn]
    rfl
  | cons a as ih =>
    intro p n hn
    unfold posLoopLocalW posLoopLocal
    funext c w
    show Prog.bind _ _ c w = Prog.bind (Prog.bind _ _) _ c w
    have e : (Split.wadd W n 1 + as.length) % W = (n + (a :: as).length) % W := by
      unfold Split.wadd
      rw [Nat.mod_add_mod, List.length_cons, Nat.add_assoc, Nat.add_comm 1]
    simp only [Bind.bind, Prog.bind, Prog.get, ih _ _ (show Split.wadd W n 1 < W from Nat.mod_lt _ (by omega)), e]
    cases onMap (TMap.onSeg E mapit (downcast t (Seg.insertLocal E p a))) c w with
    | ok q c' w' =>
      simp only
      cases c'.toLocal E ⟨mapit, q⟩ <;> rfl
    | exc e c' w' => rfl
    | ub => rfl

/-- As many elements as were inserted are in the collection. -/
theorem insertAt_few (hf : E.Fits) (hW : E.Machine W) {c c' : Coll V} {w : World} (h : c'.Reachable E k w) {t : Ty} (ht : t ∈ c.abs.types) {n : Nat} {vs : List V}
    (e : c'.abs = c.abs.insertAt t n vs) : vs.length < W := by
  have h1 := (C72_contents hf h t (by rw [e]; unfold Spec.State.insertAt; rw [Spec.State.update_types]; exact ht)).1
  have h2 := hW.store t
  rw [e] at h1
  unfold Spec.State.insertAt at h1
  rw [Spec.State.update_elemsOf ht, if_pos rfl] at h1
  simp only [List.length_append] at h1
  omega

/-- **C85**, ranges inserted before a local position: the elements are counted, and the result is that number of places
before the place reached. -/
theorem C85_positions (hf : E.Fits) (hW : E.Machine W) {c : Coll V} {w : World} (h : c.Reachable E k w) :
    (∀ {pos : LIter} {t : Ty} {n : Nat} (_ : c.LAtB E pos t n) (as : List (Arg V)) (vs : List V) (_ : ArgsOf as vs) (_ : ∀ a ∈ as, Coll.Arg.OK E a ∧ E.tiTy a.dyn = t),
      insertPosRangeBaseW W E pos as c w = insertPosRangeBase E pos as c w) ∧
    (∀ {pos : LIter} {t : TI} {n : Nat} (_ : c.LAtL E pos (E.tiTy t) n) (srcs : List (Src V)) (vs : List V) (_ : SrcsOf srcs vs),
      insertPosRangeLocalW W E pos t srcs c w = insertPosRangeLocal E pos t srcs c w) := by
  have h0 : 0 < W := by have := hW.index; omega
  constructor
  · intro pos t n hp as vs hv ha
    have h1 := C12_insert_pos_range_base h hp as vs hv ha
    have h2 := hv.spec.2.2
    unfold Runs at h1
    unfold insertPosRangeBaseW
    unfold insertPosRangeBase at h1 ⊢
    rw [posLoopBaseW_eq _ _ _ _ h0]
    simp only [Bind.bind, Prog.bind] at h1 ⊢
    cases hr : posLoopBase E pos.mapit pos.pos as c w with
    | ok q c' w' =>
      rw [hr] at h1
      simp only at h1 ⊢
      by_cases hq : q.off < as.length
      · rw [if_pos hq] at h1; exact h1.elim
      · rw [if_neg hq] at h1
        have := insertAt_few hf hW h1.1 (latB_types E hp) h1.2.1
        simp only [Prog.pure]
        rw [Nat.zero_add, Nat.mod_eq_of_lt (by omega)]
    | exc e c' w' => rfl
    | ub => rfl
  · intro pos t n hp srcs vs hv
    have h1 := C12_insert_pos_range_local h t hp srcs vs hv
    have h2 := hv.spec.2.2
    unfold Runs at h1
    unfold insertPosRangeLocalW
    unfold insertPosRangeLocal at h1 ⊢
    rw [posLoopLocalW_eq _ _ _ _ _ h0]
    simp only [Bind.bind, Prog.bind] at h1 ⊢
    cases hr : posLoopLocal E pos.mapit (E.tiTy t) pos.pos srcs c w with
    | ok q c' w' =>
      rw [hr] at h1
      simp only at h1 ⊢
      by_cases hq : q.off < srcs.length
      · rw [if_pos hq] at h1; exact h1.elim
      · rw [if_neg hq] at h1
        have := insertAt_few hf hW h1.1 (latL_types hp) h1.2.1
        simp only [Prog.pure]
        rw [Nat.zero_add, Nat.mod_eq_of_lt (by omega)]
    | exc e c' w' => rfl
    | ub => rfl

example (k : Kind) := (C85_positions sample_fits sample_machine (Sample.reach0 k)).1 (Sample.lbase_at k (n := 1) (by decide))
  [⟨0, 0, true, false, .copyExt 10⟩, ⟨0, 1, true, true, .moveExt 11⟩] [10, 11]

end PolyColl.Props
