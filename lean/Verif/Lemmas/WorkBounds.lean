import Verif.Spec.Work
/-! # Bounds on the meters of `Model/Work.lean` -/

namespace PolyColl.Work
open Spec

/-- Potential of a vector: how far it is filled beyond two thirds. -/
def VShape.pot (v : VShape) : Nat := 3 * v.size - 2 * v.cap

/-- A vector in order. -/
def VShape.Ok (v : VShape) : Prop := v.size ≤ v.cap

/-- A split segment in order. -/
structure SShape.Ok (x : SShape) : Prop where
  s : x.s.size ≤ x.s.cap
  i : x.i.size ≤ x.i.cap
  is : x.i.size = x.s.size + 1

/-- Its potential. -/
def SShape.pot (x : SShape) : Nat := 4 * x.s.pot + x.i.pot

/-- Far from `max_size()`. -/
def SShape.Roomy (x : SShape) : Prop := 3 * (x.s.size + 1) ≤ x.m ∧ 3 * (x.s.size + 1) ≤ x.im

section
variable {L : StdLib}

theorem emplaceBack_am (hL : Geometric L) {m : Nat} {v : VShape} (hm : 3 * v.size ≤ m) (h : v.Ok) :
    (VShape.emplaceBack L m v).1.size = v.size + 1 ∧ (VShape.emplaceBack L m v).1.Ok ∧
      v.cap ≤ (VShape.emplaceBack L m v).1.cap ∧
      (VShape.emplaceBack L m v).2 + (VShape.emplaceBack L m v).1.pot ≤ 6 + v.pot := by
  have h1 := hL m v.size (v.size + 1) hm
  have h2 := L.growCap_ge m v.size (v.size + 1)
  unfold VShape.Ok at *
  unfold VShape.emplaceBack VShape.pot
  split <;> (dsimp only; omega)

theorem times_am (hL : Geometric L) {m : Nat} : ∀ (k : Nat) {v : VShape}, 3 * (v.size + k) ≤ m + 3 → v.Ok →
    (Meter.times (VShape.emplaceBack L m) k v).1.size = v.size + k ∧
      (Meter.times (VShape.emplaceBack L m) k v).1.Ok ∧
      (Meter.times (VShape.emplaceBack L m) k v).2 + (Meter.times (VShape.emplaceBack L m) k v).1.pot ≤ 6 * k + v.pot
  | 0, v, _, h => ⟨rfl, h, by show 0 + v.pot ≤ _; omega⟩
  | k + 1, v, hm, h => by
    obtain ⟨a1, a2, a3, a4⟩ := emplaceBack_am hL (m := m) (v := v) (by omega) h
    obtain ⟨b1, b2, b3⟩ := times_am hL (m := m) k (v := (VShape.emplaceBack L m v).1) (by omega) a2
    have e : Meter.times (VShape.emplaceBack L m) (k + 1) v =
      ((Meter.times (VShape.emplaceBack L m) k (VShape.emplaceBack L m v).1).1,
        (VShape.emplaceBack L m v).2 + (Meter.times (VShape.emplaceBack L m) k (VShape.emplaceBack L m v).1).2) := rfl
    rw [e]
    exact ⟨by dsimp only; omega, b2, by dsimp only; omega⟩

/-- With room enough nothing grows. -/
theorem times_eq (m : Nat) : ∀ (k : Nat) {v : VShape}, v.size + k ≤ v.cap →
    Meter.times (VShape.emplaceBack L m) k v = (⟨v.size + k, v.cap⟩, k)
  | 0, v, _ => rfl
  | k + 1, v, h => by
    have e : VShape.emplaceBack L m v = (⟨v.size + 1, v.cap⟩, 1) := by
      unfold VShape.emplaceBack; rw [if_pos (by omega)]
    show ((Meter.times _ k (VShape.emplaceBack L m v).1).1, (VShape.emplaceBack L m v).2 + (Meter.times _ k (VShape.emplaceBack L m v).1).2) = _
    rw [e, times_eq m k (v := ⟨v.size + 1, v.cap⟩) (by dsimp only; omega)]
    dsimp only
    rw [Nat.add_right_comm, Nat.add_assoc, Nat.add_comm 1 k]

theorem rebuildIndex_eq {x : SShape} (h : x.s.size + 1 ≤ x.i.cap) :
    SShape.rebuildIndex L x = ({ x with i := ⟨x.s.size + 1, x.i.cap⟩ }, x.i.size + (x.s.size + 1)) := by
  unfold SShape.rebuildIndex SShape.buildIndex SShape.onI Meter.andThen VShape.clear
  dsimp only
  rw [times_eq _ _ (by dsimp only; omega)]
  simp

theorem times_pop : ∀ (k : Nat) (v : VShape), Meter.times VShape.popBack k v = (⟨v.size - k, v.cap⟩, k)
  | 0, v => rfl
  | k + 1, v => by
    show ((Meter.times _ k (VShape.popBack v).1).1, (VShape.popBack v).2 + (Meter.times _ k (VShape.popBack v).1).2) = _
    rw [times_pop k]
    unfold VShape.popBack
    dsimp only
    rw [Nat.sub_sub, Nat.add_comm 1 k]

/-- Reservation of room `n` in store and `n+1` in the index followed by a rebuild of the index. -/
theorem regrow_bound {x : SShape} (hx : x.Ok) {n : Nat} (hn : x.s.size ≤ n) :
    ∃ c ci j, ((SShape.onI (VShape.reserve L (n + 1))).andThen
      ((SShape.onS (VShape.reserve L n)).andThen (SShape.rebuildIndex L))) x =
        ({ x with s := ⟨x.s.size, c⟩, i := ⟨x.s.size + 1, ci⟩ }, j) ∧ x.s.cap ≤ c ∧ n ≤ c ∧ x.i.cap ≤ ci ∧ n + 1 ≤ ci ∧
        j ≤ 4 * x.s.size + 5 := by
  have r1 := L.reserveCap_ge n
  have r2 := L.reserveCap_ge (n + 1)
  obtain ⟨h1, h2, h3⟩ := hx
  have e1 : ∃ ci j, SShape.onI (VShape.reserve L (n + 1)) x = ({ x with i := ⟨x.i.size, ci⟩ }, j) ∧ x.i.cap ≤ ci ∧ n + 1 ≤ ci ∧ j ≤ x.i.size + 1 := by
    unfold SShape.onI VShape.reserve
    split
    · exact ⟨x.i.cap, 0, rfl, Nat.le_refl _, by assumption, by omega⟩
    · exact ⟨_, _, rfl, by omega, r2, Nat.le_refl _⟩
  obtain ⟨ci, j1, e1, c1, c2, c3⟩ := e1
  have e2 : ∃ c j, SShape.onS (VShape.reserve L n) { x with i := ⟨x.i.size, ci⟩ } = ({ x with s := ⟨x.s.size, c⟩, i := ⟨x.i.size, ci⟩ }, j) ∧
      x.s.cap ≤ c ∧ n ≤ c ∧ j ≤ x.s.size + 1 := by
    unfold SShape.onS VShape.reserve
    dsimp only
    split
    · exact ⟨x.s.cap, 0, rfl, Nat.le_refl _, by assumption, by omega⟩
    · exact ⟨_, _, rfl, by omega, r1, Nat.le_refl _⟩
  obtain ⟨c, j2, e2, d1, d2, d3⟩ := e2
  refine ⟨c, ci, j1 + (j2 + (x.i.size + (x.s.size + 1))), ?_, d1, d2, c1, c2, by omega⟩
  unfold Meter.andThen
  rw [e1]
  dsimp only
  rw [e2]
  dsimp only
  rw [rebuildIndex_eq (by dsimp only; omega)]

theorem prereserve_am {x : SShape} (hx : x.Ok) (hr : x.Roomy) :
    ∃ c ci j, SShape.prereserve L x = ({ x with s := ⟨x.s.size, c⟩, i := ⟨x.s.size + 1, ci⟩ }, j) ∧
      x.s.size < c ∧ x.s.size + 1 ≤ ci ∧ j + 4 * (3 * x.s.size - 2 * c) + (3 * (x.s.size + 1) - 2 * ci) ≤ 9 + x.pot := by
  unfold SShape.prereserve
  obtain ⟨h1, h2, h3⟩ := hx
  obtain ⟨r1, r2⟩ := hr
  split
  · rename_i hf
    have hg : x.s.size < Split.growth x.s.size x.m ∧ 3 * x.s.size ≤ 2 * Split.growth x.s.size x.m + 1 := by
      unfold Split.growth
      split <;> omega
    obtain ⟨c, ci, j, e, a1, a2, a3, a4, a5⟩ := regrow_bound (L := L) ⟨h1, h2, h3⟩ (Nat.le_of_lt hg.1)
    refine ⟨c, ci, j, e, by omega, by omega, ?_⟩
    unfold SShape.pot VShape.pot
    omega
  · refine ⟨x.s.cap, x.i.cap, 0, ?_, by omega, by omega, ?_⟩
    · rw [← h3]
    · unfold SShape.pot VShape.pot
      omega

theorem SShape.pot_def (x : SShape) : x.pot = 4 * (3 * x.s.size - 2 * x.s.cap) + (3 * x.i.size - 2 * x.i.cap) := rfl

/-- Entries for `k` further elements. -/
theorem buildIndex_am (hL : Geometric L) {x : SShape} (hi : x.i.size ≤ x.i.cap) {start k : Nat} (hk : x.s.size + 1 - start = k)
    (hm : 3 * (x.i.size + k) ≤ x.im + 3) :
    ∃ ci j, SShape.buildIndex L start x = ({ x with i := ⟨x.i.size + k, ci⟩ }, j) ∧ x.i.size + k ≤ ci ∧
      j + (3 * (x.i.size + k) - 2 * ci) ≤ 6 * k + (3 * x.i.size - 2 * x.i.cap) := by
  obtain ⟨a1, a2, a3⟩ := times_am hL (m := x.im) k (v := x.i) hm hi
  subst hk
  refine ⟨(Meter.times (VShape.emplaceBack L x.im) (x.s.size + 1 - start) x.i).1.cap,
    (Meter.times (VShape.emplaceBack L x.im) (x.s.size + 1 - start) x.i).2, ?_, ?_, ?_⟩
  · unfold SShape.buildIndex SShape.onI
    rw [← a1]
  · rw [← a1]; exact a2
  · rw [← a1]; exact a3

/-- What is to be shown of each operation. -/
def SShape.Amortised (f : Meter SShape) (x : SShape) (b : Nat) : Prop :=
  (f x).1.Ok ∧ (f x).2 + (f x).1.pot ≤ b + x.pot

theorem emplaceAt_am (hL : Geometric L) {x : SShape} (hx : x.Ok) (hr : x.Roomy) {n : Nat} (hn : n ≤ x.s.size) :
    SShape.Amortised (SShape.emplaceAt L n) x (29 + (x.s.size - n)) ∧ (SShape.emplaceAt L n x).1.s.size = x.s.size + 1 ∧
      (SShape.emplaceAt L n x).1.m = x.m ∧ (SShape.emplaceAt L n x).1.im = x.im := by
  obtain ⟨c, ci, j, e, a1, a2, a3⟩ := prereserve_am (L := L) hx hr
  obtain ⟨r1, r2⟩ := hr
  have e2 : ∃ j2, SShape.onS (VShape.emplaceAt L x.m n) { x with s := ⟨x.s.size, c⟩, i := ⟨x.s.size + 1, ci⟩ } =
      ({ x with s := ⟨x.s.size + 1, c⟩, i := ⟨x.s.size + 1, ci⟩ }, j2) ∧ j2 ≤ 2 + (x.s.size - n) := by
    unfold SShape.onS VShape.emplaceAt VShape.emplaceBack
    simp only [a1, if_true]
    split
    · exact ⟨_, rfl, by dsimp only; omega⟩
    · exact ⟨_, rfl, Nat.le_refl _⟩
  obtain ⟨j2, e2, b1⟩ := e2
  obtain ⟨ci', j3, e3, c1, c2⟩ := buildIndex_am hL (x := { x with s := ⟨x.s.size + 1, c⟩, i := ⟨x.s.size + 1, ci⟩ })
    (start := x.s.size + 1) (k := 1) a2 (by dsimp only; omega) (by dsimp only; omega)
  have key : SShape.emplaceAt L n x = ({ x with s := ⟨x.s.size + 1, c⟩, i := ⟨x.s.size + 2, ci'⟩ }, j + (j2 + j3)) := by
    unfold SShape.emplaceAt Meter.andThen
    rw [e]
    dsimp only
    rw [e2]
    unfold SShape.pushIndexEntry
    dsimp only
    rw [e3]
  unfold SShape.Amortised
  rw [key]
  dsimp only at c1 c2
  refine ⟨⟨⟨by dsimp only; omega, by dsimp only; omega, rfl⟩, ?_⟩, rfl, rfl, rfl⟩
  rw [SShape.pot_def { x with s := ⟨x.s.size + 1, c⟩, i := ⟨x.s.size + 2, ci'⟩ }]
  dsimp only
  omega

theorem pushBack_am (hL : Geometric L) {x : SShape} (hx : x.Ok) (hr : x.Roomy) :
    SShape.Amortised (SShape.pushBack L) x 29 := by
  have e : SShape.pushBack L x = SShape.emplaceAt L x.s.size x := by
    obtain ⟨c, ci, j, e, a1, a2, a3⟩ := prereserve_am (L := L) hx hr
    unfold SShape.pushBack SShape.emplaceAt Meter.andThen SShape.onS VShape.emplaceAt
    rw [e]
    simp
  have := (emplaceAt_am hL hx hr (Nat.le_refl x.s.size)).1
  unfold SShape.Amortised at *
  rw [e]
  simpa using this

theorem insertInput_am (hL : Geometric L) : ∀ (k : Nat) {x : SShape} {n : Nat}, x.Ok → 3 * (x.s.size + k) ≤ x.m → 3 * (x.s.size + k) ≤ x.im →
    n ≤ x.s.size → SShape.Amortised (SShape.insertInput L n k) x (29 * (k * (1 + (x.s.size - n))))
  | 0, x, n, hx, _, _, _ => ⟨hx, by show 0 + x.pot ≤ _; omega⟩
  | k + 1, x, n, hx, h1, h2, hn => by
    obtain ⟨⟨a1, a2⟩, a3, a4, a5⟩ := emplaceAt_am hL hx ⟨by omega, by omega⟩ hn
    obtain ⟨b1, b2⟩ := insertInput_am hL k (x := (SShape.emplaceAt L n x).1) (n := n + 1) a1 (by omega) (by omega) (by omega)
    refine ⟨b1, ?_⟩
    show (_ + (SShape.insertInput L (n + 1) k (SShape.emplaceAt L n x).1).2) +
      ((SShape.insertInput L (n + 1) k (SShape.emplaceAt L n x).1).1).pot ≤ _
    rw [a3] at b2
    have e : x.s.size + 1 - (n + 1) = x.s.size - n := by omega
    rw [e] at b2
    have e' : (k + 1) * (1 + (x.s.size - n)) = k * (1 + (x.s.size - n)) + (1 + (x.s.size - n)) := Nat.succ_mul _ _
    rw [e']
    omega

theorem insertForward_am (hL : Geometric L) {k : Nat} {x : SShape} {n : Nat} (hx : x.Ok) (h2 : 3 * (x.s.size + k) ≤ x.im) (hn : n ≤ x.s.size) :
    SShape.Amortised (SShape.insertForward L n k) x
      (29 * if x.s.cap < x.s.size + k then x.s.size + k else k + (x.s.size - n)) := by
  unfold SShape.Amortised SShape.insertForward
  by_cases h0 : k = 0
  · rw [if_pos h0]; exact ⟨hx, by dsimp only; omega⟩
  rw [if_neg h0]
  have hpre : ∃ c ci j, SShape.prereserveBy L k x = ({ x with s := ⟨x.s.size, c⟩, i := ⟨x.s.size + 1, ci⟩ }, j) ∧
      x.s.size + k ≤ c ∧ x.s.size + 1 ≤ ci ∧ j + 4 * (3 * (x.s.size + k) - 2 * c) + (3 * (x.s.size + 1) - 2 * ci) ≤
        (if x.s.cap < x.s.size + k then 8 * x.s.size + 4 * k + 5 else 12 * k) + x.pot := by
    obtain ⟨g1, g2, g3⟩ := hx
    unfold SShape.prereserveBy
    split
    · rename_i hc
      obtain ⟨c, ci, j, e, a1, a2, a3, a4, a5⟩ := regrow_bound (L := L) ⟨g1, g2, g3⟩ (Nat.le_add_right x.s.size k)
      refine ⟨c, ci, j, e, by omega, by omega, ?_⟩
      rw [SShape.pot_def]; omega
    · rename_i hc
      refine ⟨x.s.cap, x.i.cap, 0, by rw [← g3], by omega, by omega, ?_⟩
      rw [SShape.pot_def]; omega
  obtain ⟨c, ci, j, e, a1, a2, a3⟩ := hpre
  have e2 : SShape.onS (VShape.insertRange L x.m n k) { x with s := ⟨x.s.size, c⟩, i := ⟨x.s.size + 1, ci⟩ } =
      ({ x with s := ⟨x.s.size + k, c⟩, i := ⟨x.s.size + 1, ci⟩ }, k + (x.s.size - n)) := by
    unfold SShape.onS VShape.insertRange
    dsimp only
    rw [if_neg h0, if_pos a1]
  obtain ⟨ci', j3, e3, c1, c2⟩ := buildIndex_am hL (x := { x with s := ⟨x.s.size + k, c⟩, i := ⟨x.s.size + 1, ci⟩ })
    (start := x.s.size + 1) (k := k) a2 (by dsimp only; omega) (by dsimp only; omega)
  have key : ((SShape.prereserveBy L k).andThen ((SShape.onS (VShape.insertRange L x.m n k)).andThen
      (SShape.buildIndex L (x.s.size + 1)))) x =
      ({ x with s := ⟨x.s.size + k, c⟩, i := ⟨x.s.size + 1 + k, ci'⟩ }, j + (k + (x.s.size - n) + j3)) := by
    unfold Meter.andThen
    rw [e]
    dsimp only
    rw [e2]
    dsimp only
    rw [e3]
  rw [key]
  dsimp only at c1 c2
  refine ⟨⟨by dsimp only; omega, by dsimp only; omega, by dsimp only; omega⟩, ?_⟩
  rw [SShape.pot_def { x with s := ⟨x.s.size + k, c⟩, i := ⟨x.s.size + 1 + k, ci'⟩ }]
  dsimp only
  split at a3
  · rw [if_pos (by assumption)]; omega
  · rw [if_neg (by assumption)]; omega

theorem erase_cost {x : SShape} (hx : x.Ok) {n : Nat} (hn : n < x.s.size) :
    (SShape.erase n x).2 = 2 + (x.s.size - (n + 1)) ∧ (SShape.erase n x).1.Ok ∧ (SShape.erase n x).1.pot ≤ x.pot := by
  have key : SShape.erase n x = ({ x with s := ⟨x.s.size - 1, x.s.cap⟩, i := ⟨x.i.size - 1, x.i.cap⟩ }, 2 + (x.s.size - (n + 1))) := by
    unfold SShape.erase Meter.andThen SShape.popIndexEntry SShape.onI SShape.onS
    rw [times_pop]
    unfold VShape.eraseRange
    dsimp only
    rw [if_neg (by omega)]
    simp only [Nat.add_sub_cancel_left]
    congr 1; omega
  obtain ⟨h1, h2, h3⟩ := hx
  rw [key]
  refine ⟨rfl, ⟨by dsimp only; omega, by dsimp only; omega, by dsimp only; omega⟩, ?_⟩
  rw [SShape.pot_def, SShape.pot_def]; dsimp only; omega

theorem eraseRange_cost {x : SShape} (hx : x.Ok) {a b : Nat} (hab : a ≤ b) (hb : b ≤ x.s.size) :
    (SShape.eraseRange a b x).2 = 2 * (b - a) + (if a = b then 0 else x.s.size - b) ∧ (SShape.eraseRange a b x).1.Ok ∧
      (SShape.eraseRange a b x).1.pot ≤ x.pot := by
  have key : SShape.eraseRange a b x = ({ x with s := ⟨x.s.size - (b - a), x.s.cap⟩, i := ⟨x.i.size - (b - a), x.i.cap⟩ },
      2 * (b - a) + (if a = b then 0 else x.s.size - b)) := by
    unfold SShape.eraseRange Meter.andThen SShape.popIndexEntry SShape.onI SShape.onS
    rw [times_pop]
    unfold VShape.eraseRange
    dsimp only
    rw [Nat.sub_sub_self (by omega)]
    congr 1; omega
  obtain ⟨h1, h2, h3⟩ := hx
  rw [key]
  refine ⟨rfl, ⟨by dsimp only; omega, by dsimp only; omega, by dsimp only; omega⟩, ?_⟩
  rw [SShape.pot_def, SShape.pot_def]; dsimp only; omega

theorem clear_cost {x : SShape} (hx : x.Ok) :
    (SShape.clear x).2 = 2 * x.s.size ∧ (SShape.clear x).1.Ok ∧ (SShape.clear x).1.pot ≤ x.pot := by
  obtain ⟨h1, h2, h3⟩ := hx
  have key : SShape.clear x = ({ x with s := ⟨0, x.s.cap⟩, i := ⟨1, x.i.cap⟩ }, 2 * x.s.size) := by
    unfold SShape.clear Meter.andThen SShape.popIndexEntry SShape.onI SShape.onS
    rw [times_pop]
    unfold VShape.clear
    dsimp only
    rw [h3]
    simp only [Nat.add_sub_cancel, Nat.add_sub_cancel_left]
    congr 1; omega
  rw [key]
  refine ⟨rfl, ⟨by dsimp only; omega, by dsimp only; omega, by dsimp only⟩, ?_⟩
  rw [SShape.pot_def, SShape.pot_def]; dsimp only; omega

theorem reserve_cost {x : SShape} (hx : x.Ok) (n : Nat) :
    (SShape.reserve L n x).2 ≤ (if n ≤ x.s.cap then if n + 1 ≤ x.i.cap then 0 else x.s.size + 2 else 4 * x.s.size + 5) ∧
      (SShape.reserve L n x).1.Ok ∧ (SShape.reserve L n x).1.pot ≤ x.pot := by
  unfold SShape.reserve
  by_cases hc : n ≤ x.s.cap
  · rw [if_neg (by omega), if_pos hc]
    have r2 := L.reserveCap_ge (n + 1)
    obtain ⟨h1, h2, h3⟩ := hx
    unfold Meter.andThen SShape.onI SShape.onS VShape.reserve Meter.skip
    dsimp only
    rw [if_pos hc]
    by_cases hi : n + 1 ≤ x.i.cap
    · rw [if_pos hi, if_pos hi]
      exact ⟨Nat.le_refl _, ⟨h1, h2, h3⟩, Nat.le_refl _⟩
    · rw [if_neg hi, if_neg hi]
      refine ⟨by dsimp only; omega, ⟨h1, by dsimp only; omega, h3⟩, ?_⟩
      rw [SShape.pot_def, SShape.pot_def]; dsimp only; omega
  · rw [if_pos (by omega), if_neg hc]
    obtain ⟨c, ci, j, e, a1, a2, a3, a4, a5⟩ := regrow_bound (L := L) hx (n := n) (by have := hx.s; omega)
    rw [e]
    obtain ⟨h1, h2, h3⟩ := hx
    refine ⟨a5, ⟨by dsimp only; omega, by dsimp only; omega, rfl⟩, ?_⟩
    rw [SShape.pot_def, SShape.pot_def]; dsimp only; omega

theorem shrinkToFit_am {x : SShape} (hx : x.Ok) :
    (SShape.shrinkToFit L x).2 ≤ 3 * x.s.size + 4 ∧ SShape.Amortised (SShape.shrinkToFit L) x (9 * (x.s.size + 1)) := by
  obtain ⟨h1, h2, h3⟩ := hx
  unfold SShape.Amortised SShape.shrinkToFit
  by_cases h0 : x.s.size = 0
  · rw [if_pos h0]
    dsimp only
    have r2 := L.reserveCap_ge (L.reserveCap 1 + 1)
    have key : SShape.buildIndex L 0 { x with s := ⟨0, L.reserveCap 1⟩, i := ⟨0, L.reserveCap (L.reserveCap 1 + 1)⟩ } =
        ({ x with s := ⟨0, L.reserveCap 1⟩, i := ⟨1, L.reserveCap (L.reserveCap 1 + 1)⟩ }, 1) := by
      unfold SShape.buildIndex SShape.onI
      dsimp only
      rw [times_eq _ _ (by dsimp only; omega)]
    rw [key]
    dsimp only
    refine ⟨by omega, ⟨by dsimp only; omega, by dsimp only; omega, rfl⟩, ?_⟩
    rw [SShape.pot_def, SShape.pot_def]; dsimp only; omega
  · rw [if_neg h0]
    dsimp only
    by_cases hc : L.shrinkCap x.s.size x.s.cap = x.s.cap
    · rw [if_pos hc]
      exact ⟨Nat.zero_le _, ⟨h1, h2, h3⟩, by dsimp only; omega⟩
    · rw [if_neg hc]
      have hge := L.shrinkCap_ge x.s.size x.s.cap h1
      have ev : VShape.shrinkToFit L x.s = (⟨x.s.size, L.shrinkCap x.s.size x.s.cap⟩, x.s.size + 1) := by
        unfold VShape.shrinkToFit
        dsimp only
        rw [if_neg hc, if_neg (by omega)]
      rw [ev]
      dsimp only
      have r2 := L.reserveCap_ge (L.shrinkCap x.s.size x.s.cap + 1)
      have key : SShape.buildIndex L 0 { x with s := ⟨x.s.size, L.shrinkCap x.s.size x.s.cap⟩, i := ⟨0, L.reserveCap (L.shrinkCap x.s.size x.s.cap + 1)⟩ } =
          ({ x with s := ⟨x.s.size, L.shrinkCap x.s.size x.s.cap⟩, i := ⟨x.s.size + 1, L.reserveCap (L.shrinkCap x.s.size x.s.cap + 1)⟩ }, x.s.size + 1) := by
        unfold SShape.buildIndex SShape.onI
        dsimp only
        rw [times_eq _ _ (by dsimp only; omega)]
        simp
      rw [key]
      dsimp only
      refine ⟨by omega, ⟨by dsimp only; omega, by dsimp only; omega, rfl⟩, ?_⟩
      rw [SShape.pot_def, SShape.pot_def]; dsimp only; omega

/-! ## Packed segments -/

/-- What is to be shown of each operation. -/
def VShape.Amortised (f : Meter VShape) (v : VShape) (b : Nat) : Prop := (f v).1.Ok ∧ (f v).2 + (f v).1.pot ≤ b + v.pot

theorem v_emplaceAt_am (hL : Geometric L) {m : Nat} {v : VShape} (hm : 3 * v.size ≤ m) (h : v.Ok) {n : Nat} (hn : n ≤ v.size) :
    VShape.Amortised (VShape.emplaceAt L m n) v (6 + (v.size - n)) := by
  have h1 := hL m v.size (v.size + 1) hm
  have h2 := L.growCap_ge m v.size (v.size + 1)
  unfold VShape.Amortised VShape.Ok at *
  unfold VShape.emplaceAt VShape.emplaceBack VShape.pot
  split
  · split <;> (dsimp only; omega)
  · split <;> (dsimp only; omega)

theorem v_insertRange_am (hL : Geometric L) {m : Nat} {v : VShape} (hm : 3 * v.size ≤ m) (h : v.Ok) {n k : Nat} (hn : n ≤ v.size) :
    VShape.Amortised (VShape.insertRange L m n k) v (8 * k + (v.size - n)) := by
  have h1 := hL m v.size (v.size + k) hm
  have h2 := L.growCap_ge m v.size (v.size + k)
  unfold VShape.Amortised VShape.Ok at *
  unfold VShape.insertRange VShape.pot
  split
  · dsimp only; omega
  · split <;> (dsimp only; omega)

theorem v_insertInput_am (hL : Geometric L) {m : Nat} {v : VShape} {n k : Nat} (hm : 3 * (v.size + k) ≤ m) (h : v.Ok) (hn : n ≤ v.size) :
    VShape.Amortised (VShape.insertInput L m n k) v (14 * k + (v.size - n)) := by
  have h1 := v_insertRange_am hL (v := v) (n := n) (k := k) (m := m) (by omega) h hn
  obtain ⟨a1, a2, a3⟩ := times_am hL (m := m) k (v := ⟨0, 0⟩) (by dsimp only; omega) (Nat.le_refl _)
  obtain ⟨b1, b2, b3⟩ := times_am hL (m := m) k (v := v) (by omega) h
  unfold VShape.Amortised at *
  unfold VShape.insertInput
  split
  · dsimp only
    refine ⟨h1.1, ?_⟩
    have : (⟨0, 0⟩ : VShape).pot = 0 := rfl
    omega
  · dsimp only
    refine ⟨b2, ?_⟩
    split <;> omega

end
end PolyColl.Work
