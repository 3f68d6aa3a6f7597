import Verif.Lemmas.SplitMake
import Verif.Model.Arith
/-!
# How the store of a split segment grows
-/

namespace PolyColl.Split
open PolyColl Prog
variable {V : Type} (E : Env V)

/-! ### The new capacity -/

theorem wsub_le {W a b : Nat} (hb : b ≤ a) (ha : a < W) : wsub W a b = a - b := by
  unfold wsub
  rw [Nat.mod_eq_of_lt (Nat.lt_of_le_of_lt hb ha), show a + (W - b) = (a - b) + W by omega, Nat.add_mod_right]
  exact Nat.mod_eq_of_lt (by omega)

theorem wsub_lt {W a b : Nat} (hb : a < b) (ha : b < W) : wsub W a b = W - (b - a) := by
  unfold wsub
  rw [Nat.mod_eq_of_lt ha, Nat.mod_eq_of_lt (by omega)]
  omega

/-- `growth` is what the code computes with numbers modulo `W`, if `max_size()` is less than half of `W`,
as it is if no object is larger than half of the address space. -/
theorem growth_machine {W size maxSize : Nat} (hm : 2 * maxSize + 2 ≤ W) (h1 : 1 ≤ maxSize) (hs : size ≤ maxSize) :
    growthW W size maxSize = growth size maxSize ∧ growth size maxSize + 1 < W := by
  unfold growthW growth
  rw [wsub_le h1 (by omega), Nat.mod_eq_of_lt (by omega), Nat.mod_eq_of_lt (by omega)]
  by_cases hlt : size < maxSize
  · rw [wsub_le (by omega) (by omega)]
    constructor
    · simp [hlt]
    · split <;> omega
  · rw [wsub_lt (by omega) (by omega)]
    by_cases h0 : size ≤ 1
    · simp [h0]; omega
    · simp [h0, hlt]
      constructor
      · intro h; omega
      · omega

theorem growth_le {size maxSize : Nat} (h : size < maxSize) : growth size maxSize ≤ maxSize := by
  unfold growth; split <;> omega

/-! ### Appending -/

theorem prereserve_cap (x : Split V) (w : World) (h : x.Inv E w) :
    Runs (prereserve E) x w
      (fun _ x' _ => x.s.size = x.s.cap → x'.s.cap = E.lib.reserveCap (growth x.s.size (E.maxSize x.ty)))
      (fun _ _ _ => True) := by
  unfold prereserve
  simp only [runs_bind, runs_get, runs_ite, runs_pure]
  refine ⟨fun hc => ?_, fun hc h' => absurd h' hc⟩
  unfold expand
  simp only [runs_bind, runs_get, onI, onS, runs_zoom]
  have hg := growth_gt x.s.size (E.maxSize x.ty)
  have hsz := h.isize
  refine (E.idxReserve_runs _ x.i w h.iwf).mono ?_ (fun _ _ _ _ => trivial)
  rintro _ i' w' ⟨a1, a2, a3, a4, a5, a6, a7⟩
  refine (E.reserve_runs x.ty _ x.s w' (h.swf.weaken a3)).mono ?_ (fun _ _ _ _ => trivial)
  rintro _ s' w'' ⟨b1, b2, b3, b4, b5, b6, b7, b8⟩
  obtain ⟨b8, b9⟩ := b8 (by omega)
  have hslt := h.swf.lt
  refine (rebuildIndex_runs E { x with i := i', s := s' } w'' (a2.weaken b3) (by have := h.snz; simp; omega)).mono ?_ (fun _ _ _ _ => trivial)
  rintro _ x' w''' ⟨c1, -⟩ -
  rw [c1]
  exact b9

/-- Appending moves the elements if and only if the store is full; then the new capacity is the one
the growth policy asks for. -/
theorem pushBack_cap (src : Src V) (v : V) (x : Split V) (w : World) (h : x.Inv E w)
    (hv : src.val x.s = some v) (hx : src.ext = true ∨ x.s.size < x.s.cap) :
    Runs (pushBack E src) x w
      (fun _ x' _ => (x.s.size < x.s.cap → x'.s.cap = x.s.cap ∧ x'.s.blk = x.s.blk) ∧
        (x.s.size = x.s.cap → x'.s.cap = E.lib.reserveCap (growth x.s.size (E.maxSize x.ty)) ∧ x'.s.blk ≠ x.s.blk))
      (fun _ _ _ => True) := by
  have h1 := pushBack_runs E src v x w h hv hx
  have h2 : Runs (pushBack E src) x w
      (fun _ x' _ => x.s.size = x.s.cap → x'.s.cap = E.lib.reserveCap (growth x.s.size (E.maxSize x.ty)) ∧ w.next ≤ x'.s.blk)
      (fun _ _ _ => True) := by
    unfold pushBack
    simp only [runs_bind]
    refine ((prereserve_runs E x w h).and (prereserve_cap E x w h)).mono ?_ (fun _ _ _ _ => trivial)
    rintro q x1 w1 ⟨⟨a2, a3, a4, a5, a6, a7, a8, a9, a10⟩, hcap⟩
    have hss : x1.s.size = x.s.size := by simp [Vec.size, a4]
    simp only [runs_get, onS, runs_zoom]
    have hv1 : src.val x1.s = some v := by
      rcases hx with hx | hx
      · rw [Src.val_ext hx x1.s x.s, hv]
      · rw [(a7 hx).1, hv]
    refine (E.emplaceBack_runs x1.ty src x1.s w1 a2.swf v hv1).mono ?_ (fun _ _ _ _ => trivial)
    rintro _ s2 w2 ⟨b1, b2, b3, b4, b5, b6⟩
    have b4 := b4 a6
    have hs2 : s2.size = x1.s.size + 1 := by simp [Vec.size, b1]
    refine (pushIndexEntry_runs E x1 w2 w1 s2 a2 b3 b2 b4 hs2).mono ?_ (fun _ _ _ _ => trivial)
    rintro _ x3 w3 ⟨c1, c2, c3, c4, c5, c6⟩
    simp only [retRange, runs_bind, runs_get, runs_pure]
    intro hf
    rw [c3, b4.1, b4.2]
    exact ⟨hcap hf, (a8 (by omega)).2⟩
  refine (h1.and h2).mono ?_ (fun _ _ _ _ => trivial)
  rintro _ x' w' ⟨⟨hi, -, -⟩, hcap⟩
  refine ⟨fun hc => ⟨(hi.sames hc).2, (hi.sames hc).1⟩, fun hf => ⟨(hcap hf).1, ?_⟩⟩
  have hlt := h.swf.lt
  have h' := (hcap hf).2
  omega

end PolyColl.Split
