import Verif.Model.Stride
import Verif.Spec.Ranges
/-!
# Property C57: iterators of packed segments in memory
-/

namespace PolyColl.Props
open PolyColl Bytes

/-- There is a buffer for `N` elements at `data` (none at all, null, if `N` is 0), of at most
`PTRDIFF_MAX` chars, and pointers to the base subobjects at all positions up to and including `N`
may be formed. -/
def Buffer (M : Mem) (L : Layout) (data : Addr) (N : Nat) : Prop :=
  N * L.size < 2 ^ 63 ∧ L.size < 2 ^ 63 ∧
  match data with
  | none => N = 0
  | some b => M.lo ≤ b + L.off ∧ b + N * L.size + L.off ≤ M.hi

variable {M : Mem} {L : Layout} {data : Addr} {N : Nat}

/-- Position `n` of a buffer at address `b` is at `b + n * size`, and its base `off` chars further on.
This is where the iterator points to. -/
theorem C57_address (b : Int) (L : Layout) (n : Nat) : (L.iter (some b) n).p = some (b + n * L.size + L.off) := rfl

/-- The chars of different elements are different, so that different iterators refer to different
objects. -/
theorem C57_disjoint (b : Int) (L : Layout) {i j : Nat} (hij : i ≠ j) (a : Int) :
    ¬ ((b + i * L.size ≤ a ∧ a < b + (i + 1) * L.size) ∧ (b + j * L.size ≤ a ∧ a < b + (j + 1) * L.size)) := by
  rintro ⟨⟨h1, h2⟩, h3, h4⟩
  rcases Nat.lt_or_gt_of_ne hij with h | h
  · have : ((i + 1 : Nat) : Int) * L.size ≤ j * L.size := Int.mul_le_mul_of_nonneg_right (by omega) (by omega)
    rw [Int.natCast_add] at this
    have h5 : ((1 : Nat) : Int) = 1 := rfl
    rw [h5] at this
    omega
  · have : ((j + 1 : Nat) : Int) * L.size ≤ i * L.size := Int.mul_le_mul_of_nonneg_right (by omega) (by omega)
    rw [Int.natCast_add] at this
    have h5 : ((1 : Nat) : Int) = 1 := rfl
    rw [h5] at this
    omega

example := C57_disjoint 4096 ⟨24, 8, by decide, by decide⟩ (i := 1) (j := 2) (by decide) 4125

theorem addChars_iter (hb : Buffer M L data N) {n n' : Nat} (hn : n ≤ N) (hn' : n' ≤ N) {d : Int} (hd : d = ((n' : Int) - n) * L.size) :
    addChars M (L.iter data n).p d = some (L.iter data n').p := by
  obtain ⟨-, -, h3⟩ := hb
  cases data with
  | none =>
    have h1 : n = 0 := by simp only at h3; omega
    have h2 : n' = 0 := by simp only at h3; omega
    subst h1; subst h2; subst hd
    simp [Layout.iter, Layout.elem, Layout.valuePtr, addChars]
  | some b =>
    simp only at h3
    have h1 : (n' : Int) * L.size ≤ N * L.size := Int.mul_le_mul_of_nonneg_right (by omega) (by omega)
    have h2 : 0 ≤ (n' : Int) * L.size := Int.mul_nonneg (by omega) (by omega)
    have h4 : (n' : Int) * L.size - n * L.size = d := by rw [hd, Int.sub_mul]
    simp only [Layout.iter, Layout.elem, Layout.valuePtr, addChars, Option.map_some]
    rw [if_pos ⟨by omega, by omega⟩]
    congr 2
    omega

/-- **C57.**  `++it` goes to the next position. -/
theorem C57_increment (hb : Buffer M L data N) {n : Nat} (hn : n < N) : (L.iter data n).increment M = some (L.iter data (n + 1)) := by
  have := addChars_iter hb (Nat.le_of_lt hn) hn (d := (L.size : Int)) (by
    have : ((n + 1 : Nat) : Int) - n = 1 := by omega
    rw [this, Int.one_mul])
  simp only [Stride.increment]
  rw [show (L.iter data n).stride = L.size from rfl, this]
  rfl

example := C57_increment (M := ⟨4096, 4192⟩) (L := ⟨24, 8, by decide, by decide⟩) (data := some 4096) (N := 3) (by simp [Buffer]) (n := 1) (by decide)

/-- **C57.**  `--it` goes to the position before. -/
theorem C57_decrement (hb : Buffer M L data N) {n : Nat} (hn : n < N) : (L.iter data (n + 1)).decrement M = some (L.iter data n) := by
  have := addChars_iter hb hn (Nat.le_of_lt hn) (d := -(L.size : Int)) (by
    have : (n : Int) - (n + 1 : Nat) = -1 := by omega
    rw [this, Int.neg_mul, Int.one_mul])
  simp only [Stride.decrement]
  rw [show (L.iter data (n + 1)).stride = L.size from rfl, this]
  rfl

example := C57_decrement (M := ⟨4096, 4192⟩) (L := ⟨24, 8, by decide, by decide⟩) (data := some 4096) (N := 3) (by simp [Buffer]) (n := 1) (by decide)

theorem ptrdiff_some {x : Int} (h : -2 ^ 63 ≤ x ∧ x < 2 ^ 63) : ptrdiff x = some x := if_pos h

theorem ptrdiff_size (hb : Buffer M L data N) : ptrdiff L.size = some (L.size : Int) := by
  refine ptrdiff_some ⟨by omega, ?_⟩
  have := hb.2.1
  omega

theorem span (hb : Buffer M L data N) {n n' : Nat} (hn : n ≤ N) (hn' : n' ≤ N) :
    -2 ^ 63 < ((n' : Int) - n) * L.size ∧ ((n' : Int) - n) * L.size < 2 ^ 63 := by
  have h0 := hb.1
  have h00 : (N : Int) * L.size < 2 ^ 63 := by exact_mod_cast h0
  have h1 : (n' : Int) * L.size ≤ N * L.size := Int.mul_le_mul_of_nonneg_right (by omega) (by omega)
  have h2 : 0 ≤ (n' : Int) * L.size := Int.mul_nonneg (by omega) (by omega)
  have h3 : (n : Int) * L.size ≤ N * L.size := Int.mul_le_mul_of_nonneg_right (by omega) (by omega)
  have h4 : 0 ≤ (n : Int) * L.size := Int.mul_nonneg (by omega) (by omega)
  rw [Int.sub_mul]
  omega

/-- **C57.**  `it+=i`, for positive and negative `i`, without overflow. -/
theorem C57_advance (hb : Buffer M L data N) {n n' : Nat} (hn : n ≤ N) (hn' : n' ≤ N) :
    (L.iter data n).advance M ((n' : Int) - n) = some (L.iter data n') := by
  have h := span hb hn hn'
  simp only [Stride.advance]
  rw [show (L.iter data n).stride = L.size from rfl, ptrdiff_size hb, Option.bind_eq_bind, Option.bind_some,
    ptrdiff_some ⟨Int.le_of_lt h.1, h.2⟩, Option.bind_eq_bind, Option.bind_some, addChars_iter hb hn hn' rfl]
  rfl

example := C57_advance (M := ⟨4096, 4192⟩) (L := ⟨24, 8, by decide, by decide⟩) (data := some 4096) (N := 3) (by simp [Buffer]) (n := 3) (n' := 1) (by decide) (by decide)

/-- **C57.**  `it-i`. -/
theorem C57_back (hb : Buffer M L data N) {n n' : Nat} (hn : n ≤ N) (hn' : n' ≤ N) :
    (L.iter data n).back M ((n : Int) - n') = some (L.iter data n') := by
  have h := span hb hn hn'
  have h1 : -((n : Int) - n') = (n' : Int) - n := by omega
  have h3 : (1 : Int) ≤ L.size := by have := L.pos; omega
  have h4 : -2 ^ 63 ≤ (n' : Int) - n ∧ (n' : Int) - n < 2 ^ 63 := by
    rcases Int.le_total 0 ((n' : Int) - n) with h5 | h5
    · have := Int.mul_le_mul_of_nonneg_left h3 h5
      omega
    · have := Int.mul_le_mul_of_nonpos_left h5 h3
      omega
  simp only [Stride.back]
  rw [h1, ptrdiff_some h4, Option.bind_eq_bind, Option.bind_some, C57_advance hb hn hn']

example := C57_back (M := ⟨4096, 4192⟩) (L := ⟨24, 8, by decide, by decide⟩) (data := some 4096) (N := 3) (by simp [Buffer]) (n := 3) (n' := 1) (by decide) (by decide)

theorem distanceTo_iter (hb : Buffer M L data N) {n n' : Nat} (hn : n ≤ N) (hn' : n' ≤ N) :
    (L.iter data n).distanceTo (L.iter data n') = some ((n' : Int) - n) := by
  have h := span hb hn hn'
  have h3 : (1 : Int) ≤ L.size := by have := L.pos; omega
  have h4 : -2 ^ 63 ≤ (n' : Int) - n ∧ (n' : Int) - n < 2 ^ 63 := by
    rcases Int.le_total 0 ((n' : Int) - n) with h5 | h5
    · have := Int.mul_le_mul_of_nonneg_left h3 h5
      omega
    · have := Int.mul_le_mul_of_nonpos_left h5 h3
      omega
  have hs : subChars (L.iter data n').p (L.iter data n).p = some (((n' : Int) - n) * L.size) := by
    cases data with
    | none =>
      have h5 : N = 0 := hb.2.2
      have h1 : n = 0 := by omega
      have h2 : n' = 0 := by omega
      subst h1; subst h2
      simp [Layout.iter, Layout.elem, Layout.valuePtr, subChars]
    | some b =>
      simp only [Layout.iter, Layout.elem, Layout.valuePtr, subChars, Option.map_some]
      have : b + (n' : Int) * L.size + L.off - (b + n * L.size + L.off) = ((n' : Int) - n) * L.size := by rw [Int.sub_mul]; omega
      rw [this, ptrdiff_some ⟨Int.le_of_lt h.1, h.2⟩]
  simp only [Stride.distanceTo]
  rw [hs, Option.bind_eq_bind, Option.bind_some, show (L.iter data n).stride = L.size from rfl, ptrdiff_size hb, Option.bind_some,
    if_neg (by omega), Int.mul_tdiv_cancel _ (by omega), ptrdiff_some h4]

/-- **C57.**  The difference of iterators is that of the positions. -/
theorem C57_difference (hb : Buffer M L data N) {n n' : Nat} (hn : n ≤ N) (hn' : n' ≤ N) :
    (L.iter data n').sub (L.iter data n) = some ((n' : Int) - n) := by
  have h := distanceTo_iter hb hn' hn
  have h0 := distanceTo_iter hb hn hn'
  have h3 : (1 : Int) ≤ L.size := by have := L.pos; omega
  have h4 : -2 ^ 63 ≤ (n' : Int) - n ∧ (n' : Int) - n < 2 ^ 63 := by
    have h := span hb hn hn'
    rcases Int.le_total 0 ((n' : Int) - n) with h5 | h5
    · have := Int.mul_le_mul_of_nonneg_left h3 h5
      omega
    · have := Int.mul_le_mul_of_nonpos_left h5 h3
      omega
  simp only [Stride.sub]
  rw [h, Option.bind_eq_bind, Option.bind_some, show -((n : Int) - n') = n' - n by omega, ptrdiff_some h4]

example := C57_difference (M := ⟨4096, 4192⟩) (L := ⟨24, 8, by decide, by decide⟩) (data := some 4096) (N := 3) (by simp [Buffer]) (n := 3) (n' := 1) (by decide) (by decide)

/-- **C57.**  Iterators are ordered as the positions. -/
theorem C57_less (hb : Buffer M L data N) {n n' : Nat} (hn : n ≤ N) (hn' : n' ≤ N) :
    (L.iter data n).less (L.iter data n') = some (decide (n < n')) := by
  simp only [Stride.less]
  rw [C57_difference hb hn' hn, Option.bind_eq_bind, Option.bind_some]
  congr 1
  exact decide_eq_decide.2 (by omega)

example := C57_less (M := ⟨4096, 4192⟩) (L := ⟨24, 8, by decide, by decide⟩) (data := some 4096) (N := 3) (by simp [Buffer]) (n := 3) (n' := 1) (by decide) (by decide)

/-- **C57.**  Iterators are equal iff the positions are; the sentinel of a segment is compared in the
same way. -/
theorem C57_equal (hb : Buffer M L data N) {n n' : Nat} (hn : n ≤ N) (hn' : n' ≤ N) :
    (L.iter data n).equal (L.iter data n') = true ↔ n = n' := by
  constructor
  · intro h
    have h1 : L.iter data n = L.iter data n' := by
      have : (L.iter data n).p = (L.iter data n').p := eq_of_beq h
      exact congrArg (Stride.mk · L.size) this
    have h2 := distanceTo_iter hb hn hn'
    have h3 := distanceTo_iter hb hn hn
    rw [← h1, h3] at h2
    have := Option.some.inj h2
    omega
  · rintro rfl
    exact beq_self_eq_true _

example := C57_equal (M := ⟨4096, 4192⟩) (L := ⟨24, 8, by decide, by decide⟩) (data := some 4096) (N := 3) (by simp [Buffer]) (n := 3) (n' := 1) (by decide) (by decide)

/-- **C57.**  From a base iterator the segment recovers the position of the element, whatever the
offset of the base. -/
theorem C57_position (hb : Buffer M L data N) {n : Nat} (hn : n ≤ N) : L.position data (L.iter data n) = some (n : Int) := by
  have h3 : (1 : Int) ≤ L.size := by have := L.pos; omega
  cases data with
  | none =>
    have h5 : N = 0 := hb.2.2
    have h1 : n = 0 := by omega
    subst h1
    rfl
  | some b =>
    simp only [Layout.position, Layout.iter, Layout.elem, Layout.valuePtr, Layout.storePtr, Option.map_some]
    have h1 : b + (n : Int) * L.size + L.off - L.off - b = n * L.size := by omega
    rw [h1, if_pos ⟨n, Int.mul_comm _ _⟩, Int.mul_ediv_cancel _ (by omega)]
    have h2 := span hb hn (Nat.zero_le N)
    have h4 : 0 ≤ (n : Int) := by omega
    have h5 := Int.mul_le_mul_of_nonneg_left h3 h4
    rw [Int.sub_mul] at h2
    exact ptrdiff_some ⟨by omega, by omega⟩

example := C57_position (M := ⟨4096, 4192⟩) (L := ⟨24, 8, by decide, by decide⟩) (data := some 4096) (N := 3) (by simp [Buffer]) (n := 3) (by decide)

/-- `++` applied `i` times. -/
def incrementTimes (M : Mem) : Nat → Stride → Option Stride
  | 0, x => some x
  | i + 1, x => x.increment M >>= incrementTimes M i

/-- **C57.**  From the beginning of a segment of `n` elements, `n` increments lead to its end, through
all the positions and nothing else. -/
theorem C57_traversal (hb : Buffer M L data N) {n : Nat} (hn : n ≤ N) : ∀ i, i ≤ n →
    incrementTimes M i (L.iter data 0) = some (L.iter data i) ∧ ((L.iter data i).equal (L.iter data n) = true ↔ i = n) := by
  have key : ∀ i j, j + i ≤ N → incrementTimes M i (L.iter data j) = some (L.iter data (j + i)) := by
    intro i
    induction i with
    | zero => intro j _; rfl
    | succ i ih =>
      intro j hj
      rw [incrementTimes, C57_increment hb (by omega), Option.bind_eq_bind, Option.bind_some, ih (j + 1) (by omega), Nat.add_right_comm, Nat.add_assoc]
  intro i hi
  refine ⟨?_, C57_equal hb (by omega) hn⟩
  have := key i 0 (by omega)
  rwa [Nat.zero_add] at this

example := C57_traversal (M := ⟨4096, 4192⟩) (L := ⟨24, 8, by decide, by decide⟩) (data := some 4096) (N := 3) (by simp [Buffer]) (n := 3) (by decide)

/-- A segment of the model, and its vector in memory. -/
def Holds (M : Mem) (L : Layout) (data : Addr) {V : Type} (x : Packed V) : Prop := Buffer M L data x.s.size

/-- **C57.**  The iterators that the rest of the model uses for `base_collection`, which are pointers
to elements, stand for those in memory: the beginning, the end, the sentinel, the ranges returned and the
conversion of an iterator back to a position correspond. -/
theorem C57_segment {V : Type} {x : Packed V} (hx : Holds M L data x) :
    (∀ p n, x.iteratorFrom p = some n → n ≤ x.s.size ∧ L.position data (L.iter data p.off) = some (n : Int)) ∧
    (∀ p p' n n', x.iteratorFrom p = some n → x.iteratorFrom p' = some n' →
      ((L.iter data p.off).equal (L.iter data p'.off) = true ↔ p = p') ∧
      (L.iter data p'.off).sub (L.iter data p.off) = some ((p'.off : Int) - p.off) ∧
      (L.iter data p.off).advance M ((n' : Int) - n) = some (L.iter data p'.off)) ∧
    L.iter data x.begin.off = L.iter data 0 ∧ L.iter data x.end.off = L.iter data x.s.elems.length ∧
    ∀ n, L.iter data (x.rangeFrom n).1.off = L.iter data n ∧ L.iter data (x.rangeFrom n).2.off = L.iter data x.s.elems.length := by
  have key : ∀ p n, x.iteratorFrom p = some n → p.blk = x.s.blk ∧ p.off = n ∧ n ≤ x.s.size := by
    intro p n h
    unfold Packed.iteratorFrom Vec.posOf at h
    split at h
    · rename_i h1
      have := Option.some.inj h
      exact ⟨h1.1, this, this ▸ h1.2⟩
    · cases h
  refine ⟨?_, ?_, rfl, rfl, fun n => ⟨rfl, rfl⟩⟩
  · intro p n h
    obtain ⟨-, h2, h3⟩ := key p n h
    rw [h2]
    exact ⟨h3, C57_position hx h3⟩
  · intro p p' n n' h h'
    obtain ⟨h1, h2, h3⟩ := key p n h
    obtain ⟨h1', h2', h3'⟩ := key p' n' h'
    rw [h2, h2']
    refine ⟨(C57_equal hx h3 h3').trans ⟨fun he => ?_, fun he => ?_⟩, C57_difference hx h3 h3', C57_advance hx h3 h3'⟩
    · cases p; cases p'; simp_all
    · rw [← h2, ← h2', he]

/-- In the letter of the standard only pointers into the buffer and one past its end may be formed.
If the base has a nonzero offset and the segment is full, its end is not among them, and decrementing or
comparing it is covered only by what compilers do in practice. -/
theorem C57_past_the_end (b : Int) (L : Layout) (N : Nat) (ho : 0 < L.off) :
    ¬ Buffer ⟨b, b + N * L.size⟩ L (some b) N ∧ ∀ a, (L.iter (some b) N).p = some a → b + N * L.size < a := by
  refine ⟨fun h => ?_, fun a ha => ?_⟩
  · have := h.2.2.2
    simp only at this
    omega
  · have : b + N * L.size + L.off = a := Option.some.inj ha
    omega

example := C57_past_the_end 4096 ⟨24, 8, by decide, by decide⟩ 3 (by decide)

/-- It is among them if the segment is not full, or if the base is at the beginning. -/
theorem C57_inside (b : Int) (L : Layout) (N cap : Nat) (hc : cap * L.size < 2 ^ 63) (hl : L.size < 2 ^ 63) (h : N < cap ∨ (N ≤ cap ∧ L.off = 0)) :
    Buffer ⟨b, b + cap * L.size⟩ L (some b) N := by
  have hN : N * L.size ≤ cap * L.size := Nat.mul_le_mul_right _ (by omega)
  refine ⟨by omega, hl, by simp only; omega, ?_⟩
  simp only
  have hi := L.inside
  rcases h with h | ⟨h, ho⟩
  · have h1 : (N + 1) * L.size ≤ cap * L.size := Nat.mul_le_mul_right _ h
    rw [Nat.add_mul, Nat.one_mul] at h1
    have h2 : (N : Int) * L.size + L.size ≤ cap * L.size := by exact_mod_cast h1
    omega
  · have h2 : (N : Int) * L.size ≤ cap * L.size := by exact_mod_cast hN
    omega

/-- Elements of 24 chars with the base at offset 8, three of them in a buffer for four at address
4096, in the letter of the standard; and an empty segment without a buffer. -/
example : Buffer ⟨4096, 4192⟩ ⟨24, 8, by decide, by decide⟩ (some 4096) 3 ∧
    (Layout.iter ⟨24, 8, by decide, by decide⟩ (some 4096) 3).advance ⟨4096, 4192⟩ (-2) = some ⟨some 4128, 24⟩ ∧
    (Stride.mk (some 4128) 24).sub ⟨some 4176, 24⟩ = some (-2) ∧
    (Stride.mk (some 4128) 24).advance ⟨4096, 4192⟩ 3 = none ∧
    Layout.position ⟨24, 8, by decide, by decide⟩ (some 4096) ⟨some 4128, 24⟩ = some 1 ∧
    Buffer ⟨0, 0⟩ ⟨24, 8, by decide, by decide⟩ none 0 ∧
    Holds ⟨4096, 4192⟩ ⟨24, 8, by decide, by decide⟩ (some 4096) (⟨0, 0, 0, ⟨5, 4, [1, 2, 3]⟩⟩ : Packed Nat) := by
  refine ⟨by simp [Buffer], by simp [Stride.advance, Layout.iter, Layout.elem, Layout.valuePtr, ptrdiff, addChars], by decide, by simp [Stride.advance, ptrdiff, addChars], by simp [Layout.position, Layout.storePtr, ptrdiff], by simp [Buffer], by simp [Holds, Buffer, Vec.size]⟩

end PolyColl.Props
