import Verif.Lemmas.Split
/-! # Operations of split segments -/

namespace PolyColl
open Prog

theorem Src.val_ext {V : Type} {src : Src V} (h : src.ext = true) (s s' : Vec V) :
    src.val s = src.val s' := by
  cases src <;> simp_all [Src.ext, Src.val]

theorem Env.IdxExc.from {V : Type} {E : Env V} {t : Ty} {l l' c : Prop} {e : Exc} (h : Env.IdxExc E l e) (hl : l → l') :
    ExcFrom E t c l' e := by
  unfold Env.IdxExc at h; unfold ExcFrom; grind

theorem Env.tooMany_idx {V : Type} {E : Env V} {t : Ty} {n : Nat} (h : E.idxMaxSize < n + 1) : E.TooMany t n := by
  unfold Env.TooMany; omega

namespace Split
variable {V : Type} (E : Env V)

/-- The members that never change. -/
def Frame (x x' : Split V) : Prop := x'.ty = x.ty ∧ x'.al = x.al ∧ x'.objAl = x.objAl

theorem Frame.refl (x : Split V) : Frame x x := ⟨rfl, rfl, rfl⟩

theorem Frame.trans {x y z : Split V} (h1 : Frame x y) (h2 : Frame y z) : Frame x z :=
  ⟨h2.1.trans h1.1, h2.2.1.trans h1.2.1, h2.2.2.trans h1.2.2⟩

theorem growth_gt (n m : Nat) : n < growth n m := by
  unfold growth; split <;> omega

theorem expandTo_runs (c : Nat) (x : Split V) (w : World) (h : x.Inv E w) (hc : x.s.cap < c) :
    Runs (do onI (E.idxReserve (c + 1)); onS (E.reserve x.ty c); rebuildIndex E) x w
      (fun _ x' w' => x'.Inv E w' ∧ Frame x x' ∧ x'.s.elems = x.s.elems ∧ w.next ≤ w'.next ∧
        w.next ≤ x'.s.blk ∧ c ≤ x'.s.cap ∧ c + 1 ≤ x'.i.cap ∧ Vec.Grown w x.i x'.i)
      (fun e x' w' => x'.Inv E w' ∧ Frame x x' ∧ x'.s = x.s ∧ x'.i.elems = x.i.elems ∧
        x.i.cap ≤ x'.i.cap ∧ w.next ≤ w'.next ∧ Vec.Grown w x.i x'.i ∧ ExcFrom E x.ty False (E.maxSize x.ty < c ∨ E.idxMaxSize < c + 1) e) := by
  have hsz := h.isize
  have hle := h.swf.le
  have hilt := h.iwf.lt
  have hslt := h.swf.lt
  simp only [runs_bind, onI, onS, runs_zoom]
  refine (E.idxReserve_runs (c + 1) x.i w h.iwf).mono ?_ ?_
  · rintro _ i' w' ⟨a1, a2, a3, a4, a5, a6, a7⟩
    have hg : Vec.Grown w x.i i' := by
      by_cases h' : c + 1 ≤ x.i.cap
      · rw [a6 h']; exact Vec.Grown.refl _ _
      · exact Or.inr (a7 (by omega))
    refine (E.reserve_runs x.ty c x.s w' (h.swf.weaken a3)).mono ?_ ?_
    · rintro _ s' w'' ⟨b1, b2, b3, b4, b5, b6, b7, b8⟩
      obtain ⟨b8, b9⟩ := b8 hc
      have hss : s'.size = x.s.size := by simp [Vec.size, b1]
      refine (rebuildIndex_runs E { x with i := i', s := s' } w'' (a2.weaken b3) (by simp; omega)).mono ?_ ?_
      · rintro _ x' w''' ⟨c1, c2, c3, c4, c5, c6⟩
        have c6 := c6 (by simp [hss]; omega)
        have e1 : x'.s = s' := by rw [c1]
        simp only [Vec.Same] at c6
        refine ⟨⟨?_, c3, ?_, ?_, ?_, ?_⟩, ⟨by rw [c1], by rw [c1], by rw [c1]⟩, ?_, by omega, ?_, ?_, by omega, ?_⟩
        · rw [e1]; exact b2.weaken c4
        · rw [e1]; omega
        · rw [e1, c6.1]; have := a2.lt; omega
        · rw [e1, c2]
        · intro hx
          left
          rw [e1, b9, hx, c6.2]
          omega
        · rw [e1, b1]
        · rw [e1]; omega
        · rw [e1]; exact b4
        · unfold Vec.Grown at *; omega
      · rintro e x' w''' ⟨c1, c2, c3, c4, c5, c6⟩
        exact absurd (by simp [hss]; omega) c5
    · rintro e s' w'' ⟨rfl, b2, b3⟩
      refine ⟨⟨h.swf.weaken (by omega), a2.weaken b2, h.snz, ?_, by simp [a1, h.idx], ?_⟩, ⟨by trivial, by trivial, by trivial⟩, by trivial, a1, a5, by omega, hg, b3.mono id Or.inl⟩
      · have := h.ne
        simp only [Vec.Grown] at *
        omega
      · intro hx
        have := h.cap hx
        simp only; omega
  · rintro e i' w' ⟨rfl, a2, a3⟩
    exact ⟨h.weaken E a2, ⟨by trivial, by trivial, by trivial⟩, by trivial, by trivial, Nat.le_refl _, a2, Vec.Grown.refl _ _, a3.from Or.inr⟩

theorem growth_tooMany {t : Ty} {n : Nat} (h : E.maxSize t < growth n (E.maxSize t) ∨ E.idxMaxSize < growth n (E.maxSize t) + 1) :
    E.TooMany t (n + 1) := by
  unfold growth at h
  unfold Env.TooMany
  split at h <;> omega

/-- What `prereserve` in its various forms guarantees: room for one more element. -/
theorem prereserve_runs (x : Split V) (w : World) (h : x.Inv E w) :
    Runs (prereserve E) x w
      (fun _ x' w' => x'.Inv E w' ∧ Frame x x' ∧ x'.s.elems = x.s.elems ∧ w.next ≤ w'.next ∧
        x'.s.size < x'.s.cap ∧ (x.s.size < x.s.cap → x' = x ∧ w' = w) ∧
        (¬ x.s.size < x.s.cap → x'.s.size + 2 ≤ x'.i.cap ∧ w.next ≤ x'.s.blk) ∧
        Vec.Grown w x.s x'.s ∧ Vec.Grown w x.i x'.i)
      (fun e x' w' => x'.Inv E w' ∧ Frame x x' ∧ x'.s = x.s ∧ x'.i.elems = x.i.elems ∧
        x.i.cap ≤ x'.i.cap ∧ w.next ≤ w'.next ∧ Vec.Grown w x.i x'.i ∧ ExcFrom E x.ty False (E.TooMany x.ty (x.s.size + 1)) e ∧
        ¬ x.s.size < x.s.cap) := by
  unfold prereserve
  simp only [runs_bind, runs_get, runs_ite, runs_pure]
  have hle := h.swf.le
  refine ⟨fun hc => ?_, fun hc => ⟨h, Frame.refl _, by trivial, by omega, by omega, fun _ => ⟨by trivial, by trivial⟩, fun _ => by omega, Vec.Grown.refl _ _, Vec.Grown.refl _ _⟩⟩
  unfold expand
  have hg := growth_gt x.s.size (E.maxSize x.ty)
  rw [runs_bind, runs_get]
  refine (expandTo_runs E (growth x.s.size (E.maxSize x.ty)) x w h (by omega)).mono ?_ ?_
  · rintro _ x' w' ⟨a1, a2, a3, a4, a5, a6, a7, a8⟩
    have hss : x'.s.size = x.s.size := by simp [Vec.size, a3]
    exact ⟨a1, a2, a3, a4, by omega, fun h => by omega, fun _ => ⟨by omega, a5⟩, Or.inr a5, a8⟩
  · rintro e x' w' ⟨a1, a2, a3, a4, a5, a6, a7, a8⟩
    exact ⟨a1, a2, a3, a4, a5, a6, a7, a8.mono id (growth_tooMany E), by omega⟩

theorem iteratorFrom_lt {x : Split V} {p : PosArg} {n : Nat} (h : x.iteratorFrom p = some n) :
    n ≤ x.s.size := by
  cases p with
  | base p => simp only [iteratorFrom] at h; grind
  | loc p => exact (Vec.posOf_eq_some.1 h).2

theorem prereserveAt_runs (p : PosArg) (n : Nat) (x : Split V) (w : World) (h : x.Inv E w)
    (hp : x.iteratorFrom p = some n) :
    Runs (prereserveAt E p) x w
      (fun q x' w' => x'.iteratorFrom q = some n ∧ (∀ l, p = .loc l → q = .loc (x'.s.ptr n)) ∧
        x'.Inv E w' ∧ Frame x x' ∧ x'.s.elems = x.s.elems ∧ w.next ≤ w'.next ∧
        x'.s.size < x'.s.cap ∧ (x.s.size < x.s.cap → x' = x ∧ w' = w) ∧
        (¬ x.s.size < x.s.cap → x'.s.size + 2 ≤ x'.i.cap ∧ w.next ≤ x'.s.blk) ∧
        Vec.Grown w x.s x'.s ∧ Vec.Grown w x.i x'.i)
      (fun e x' w' => x'.Inv E w' ∧ Frame x x' ∧ x'.s = x.s ∧ x'.i.elems = x.i.elems ∧
        x.i.cap ≤ x'.i.cap ∧ w.next ≤ w'.next ∧ Vec.Grown w x.i x'.i ∧ ExcFrom E x.ty False (E.TooMany x.ty (x.s.size + 1)) e ∧
        ¬ x.s.size < x.s.cap) := by
  unfold prereserveAt
  simp only [runs_bind, runs_get, runs_ite, runs_pure, hp, runs_some]
  have hle := h.swf.le
  have hn := iteratorFrom_lt hp
  refine ⟨fun hc => ?_, fun hc => ⟨by trivial, ?_, h, Frame.refl _, by trivial, by omega, by omega, fun _ => ⟨by trivial, by trivial⟩, fun _ => by omega, Vec.Grown.refl _ _, Vec.Grown.refl _ _⟩⟩
  · unfold expand
    have hg := growth_gt x.s.size (E.maxSize x.ty)
    rw [runs_bind, runs_get]
    refine (expandTo_runs E (growth x.s.size (E.maxSize x.ty)) x w h (by omega)).mono ?_ ?_
    · rintro _ x' w' ⟨a1, a2, a3, a4, a5, a6, a7, a8⟩
      have hss : x'.s.size = x.s.size := by simp [Vec.size, a3]
      cases p with
      | base p =>
        simp only [runs_pure]
        exact ⟨by simp [iteratorFrom, Vec.ptr]; omega, by simp, a1, a2, a3, a4, by omega, fun h => by omega, fun _ => ⟨by omega, a5⟩, Or.inr a5, a8⟩
      | loc p =>
        simp only [runs_pure]
        exact ⟨by simp [iteratorFrom]; exact Vec.posOf_ptr (by omega), by simp, a1, a2, a3, a4, by omega, fun h => by omega, fun _ => ⟨by omega, a5⟩, Or.inr a5, a8⟩
    · rintro e x' w' ⟨a1, a2, a3, a4, a5, a6, a7, a8⟩
      exact ⟨a1, a2, a3, a4, a5, a6, a7, a8.mono id (growth_tooMany E), by omega⟩
  · rintro l rfl
    simp only [iteratorFrom] at hp
    rw [(Vec.posOf_eq_some.1 hp).1]

/-- What is left of the invariant after any failure: the first entry of the index is good. -/
structure Weak (x : Split V) (w : World) : Prop where
  swf : x.s.WF w
  iwf : x.i.WF w
  snz : x.s.blk ≠ 0
  ne : x.i.blk ≠ x.s.blk
  head : ∃ l, x.i.elems = x.s.ptr 0 :: l
  cap : ExactReserve E → x.s.cap + 1 ≤ x.i.cap ∨ x.s.cap ≤ 1

theorem Inv.weak {x : Split V} {w : World} (h : x.Inv E w) : x.Weak E w :=
  ⟨h.swf, h.iwf, h.snz, h.ne, by rw [h.idx]; unfold goodIndex; rw [List.range_succ_eq_map]; exact ⟨_, rfl⟩, fun hx => (h.cap hx).imp id And.right⟩

theorem Weak.weaken {x : Split V} {w w' : World} (h : x.Weak E w) (hw : w.next ≤ w'.next) : x.Weak E w' :=
  ⟨h.swf.weaken hw, h.iwf.weaken hw, h.snz, h.ne, h.head, h.cap⟩

/-- Store in the same buffer, index in the same buffer or a new one, with the same first entry. -/
theorem Weak.of {x x' : Split V} {w0 w w' : World} (h : x.Weak E w0) (hw : w0.next ≤ w.next) (hs : x'.s.WF w') (hb : Vec.Same x.s x'.s)
    (hi : x'.i.WF w') (hg : Vec.Grown w x.i x'.i) (hl : (∃ l, x'.i.elems = x.i.elems ++ l) ∨ ∃ n, 0 < n ∧ x'.i.elems = x.i.elems.take n)
    (hc : ExactReserve E → x.s.cap + 1 ≤ x.i.cap → x.i.cap ≤ x'.i.cap) : x'.Weak E w' := by
  refine ⟨hs, hi, by rw [hb.1]; exact h.snz, ?_, ?_, fun hx => ?_⟩
  · rw [hb.1]
    have := h.ne
    have := h.swf.lt
    simp only [Vec.Grown] at hg
    omega
  · obtain ⟨l, hh⟩ := h.head
    have hp : x'.s.ptr 0 = x.s.ptr 0 := by simp [Vec.ptr, hb.1]
    rw [hp]
    rcases hl with ⟨m, hm⟩ | ⟨n, hn, hm⟩
    · rw [hm, hh]; exact ⟨_, rfl⟩
    · rw [hm, hh]
      cases n with
      | zero => omega
      | succ n => exact ⟨_, rfl⟩
  · rw [hb.2]
    rcases h.cap hx with h1 | h1
    · have := hc hx h1
      omega
    · exact Or.inr h1

theorem Weak.setStore {x : Split V} {s' : Vec V} {w w' : World} (h : x.Weak E w) (hw : w.next ≤ w'.next) (hb : Vec.Same x.s s')
    (hz : s'.size ≤ x.s.cap) : Split.Weak E { x with s := s' } w' :=
  h.of E (Nat.le_refl _) ⟨by rw [hb.1]; exact Nat.lt_of_lt_of_le h.swf.lt hw, by rw [hb.2]; exact hz, by rw [hb.1, hb.2]; exact h.swf.nul⟩ hb (h.iwf.weaken hw)
    (Or.inl rfl) (Or.inl ⟨[], by simp⟩) (fun _ _ => Nat.le_refl _)

/-- `pushIndexEntry` after one element was added anywhere in the store. -/
theorem pushIndexEntry_runs (x : Split V) (w w0 : World) (s' : Vec V) (h : x.Inv E w0) (hw : w0.next ≤ w.next)
    (hs : s'.WF w) (hb : Vec.Same x.s s') (hsz : s'.size = x.s.size + 1) :
    Runs (pushIndexEntry E) { x with s := s' } w
      (fun _ x' w' => x'.Inv E w' ∧ Frame x x' ∧ x'.s = s' ∧ w.next ≤ w'.next ∧ Vec.Grown w x.i x'.i ∧
        (x.s.size + 2 ≤ x.i.cap → Vec.Same x.i x'.i))
      (fun e x' w' => Frame x x' ∧ x'.s = s' ∧ w.next ≤ w'.next ∧ Vec.Grown w x.i x'.i ∧
        ¬ (x.s.size + 2 ≤ x.i.cap) ∧ Env.IdxExc E (E.idxMaxSize < x.s.size + 2) e ∧ x'.Weak E w') := by
  unfold pushIndexEntry
  simp only [runs_bind, runs_get]
  have hisz := h.isize
  refine (buildIndex_runs E s'.size { x with s := s' } w (h.iwf.weaken hw) (by simp [hb.1]; exact h.snz)).mono ?_ ?_
  · rintro _ x' w' ⟨a1, a2, a3, a4, a5, a6⟩
    have e1 : x'.s = s' := by rw [a1]
    have hidx : x'.i.elems = goodIndex s' := by
      rw [a2, ← goodIndex_extend hb.1 (by omega), h.idx, hsz]
    have hsi : x'.i.size = s'.size + 1 := by simp [Vec.size, hidx, goodIndex]
    refine ⟨⟨?_, a3, ?_, ?_, ?_, ?_⟩, ⟨by rw [a1], by rw [a1], by rw [a1]⟩, e1, a4, a5, ?_⟩
    · rw [e1]; exact hs.weaken a4
    · rw [e1, hb.1]; exact h.snz
    · rw [e1, hb.1]
      have := h.ne
      have := h.swf.lt
      simp only [Vec.Grown] at a5
      omega
    · rw [e1, hidx]
    · intro hx
      left
      rw [e1, hb.2]
      have h1 := a3.le
      rcases h.cap hx with h2 | ⟨h2, h3⟩
      · by_cases h4 : x.i.size + (s'.size + 1 - s'.size) ≤ x.i.cap
        · have := a6 h4
          rw [this.2]; exact h2
        · have := hs.le; rw [hb.2] at this; omega
      · omega
    · intro hc; exact a6 (by simp; omega)
  · rintro e x' w' ⟨a1, a2, a3, a4, a5, a6, a7⟩
    have e1 : x'.s = s' := by rw [a1]
    refine ⟨⟨by rw [a1], by rw [a1], by rw [a1]⟩, e1, a3, a4, ?_, a6.mono (by simp only; omega), ?_⟩
    · intro hc; exact a5 (by simp; omega)
    · refine (h.weak E).of E hw (by rw [e1]; exact hs.weaken a3) (by rw [e1]; exact hb) a2 a4 (Or.inl a7) fun _ hc => ?_
      have := hs.le
      rw [hb.2] at this
      exact absurd (by simp only; omega) a5

/-- Result of inserting `v` at position `n` of a split segment. -/
structure Inserted (x : Split V) (w : World) (n : Nat) (v : V) (x' : Split V) (w' : World) : Prop where
  inv : x'.Inv E w'
  frame : Frame x x'
  elems : x'.s.elems = x.s.elems.insertIdx n v
  next : w.next ≤ w'.next
  gs : Vec.Grown w x.s x'.s
  gi : Vec.Grown w x.i x'.i
  sames : x.s.size < x.s.cap → Vec.Same x.s x'.s
  samei : x.s.size < x.s.cap → x.Room → Vec.Same x.i x'.i

/-- What a failed insertion at position `n` leaves behind. -/
structure Failed (x : Split V) (w : World) (copies shift : Prop) (e : Exc) (x' : Split V) (w' : World) : Prop where
  frame : Frame x x'
  next : w.next ≤ w'.next
  gs : Vec.Grown w x.s x'.s
  gi : Vec.Grown w x.i x'.i
  exc : ExcFrom E x.ty copies (E.TooMany x.ty (x.s.size + 1)) e
  inv : x.Room → ¬ shift → x'.Inv E w' ∧ x'.s.elems = x.s.elems
  same : x.Room → ¬ shift → x.s.size < x.s.cap → x' = x
  ncc : ∀ t, e = .notCopyConstructible t → x'.Inv E w' ∧ x'.s.elems = x.s.elems
  weak : x'.Weak E w'

theorem Env.IdxExc.ne {l : Prop} {e : Exc} (h : Env.IdxExc E l e) (t : Ty) : e ≠ .notCopyConstructible t := by
  rcases h with ⟨rfl, -⟩ | ⟨rfl, -⟩ <;> simp

theorem emplaceAt_runs (p : PosArg) (n : Nat) (src : Src V) (v : V) (x : Split V) (w : World) (h : x.Inv E w)
    (hp : x.iteratorFrom p = some n) (hv : src.val x.s = some v)
    (hx : src.ext = true ∨ x.s.size < x.s.cap) :
    Runs (emplaceAt E p src) x w
      (fun r x' w' => Inserted E x w n v x' w' ∧ r = (x'.i.ptr n, x'.sentinel) ∧
        (src.copies → (E.traits x.ty).copyable = true))
      (Failed E x w src.copies (E.shiftThrows x.ty ∧ n < x.s.size)) := by
  unfold emplaceAt
  simp only [runs_bind]
  refine (prereserveAt_runs E p n x w h hp).mono ?_ ?_
  · rintro q x1 w1 ⟨a1, -, a2, a3, a4, a5, a6, a7, a8, a9, a10⟩
    have hss : x1.s.size = x.s.size := by simp [Vec.size, a4]
    have hn := iteratorFrom_lt hp
    simp only [runs_get, a1, runs_some, onS, runs_zoom]
    have hv1 : src.val x1.s = some v := by
      rcases hx with hx | hx
      · rw [Src.val_ext hx x1.s x.s, hv]
      · rw [(a7 hx).1, hv]
    have ht : x1.ty = x.ty := a3.1
    refine (E.emplaceAt_runs x1.ty n src x1.s w1 a2.swf v (by omega) hv1).mono ?_ ?_
    · rintro _ s2 w2 ⟨b1, b2, b3, b4, b5, b6⟩
      have b4 := b4 a6
      have hs2 : s2.size = x1.s.size + 1 := by
        simp only [Vec.size, b1]; exact List.length_insertIdx_of_le_length (by simp only [Vec.size] at hss hn; omega) _
      refine (pushIndexEntry_runs E x1 w2 w1 s2 a2 b3 b2 b4 hs2).mono ?_ ?_
      · rintro _ x3 w3 ⟨c1, c2, c3, c4, c5, c6⟩
        simp only [retRange, runs_bind, runs_get, runs_pure]
        refine ⟨⟨c1, a3.trans c2, by rw [c3, b1, a4], by omega, ?_, ?_, ?_, ?_⟩, by trivial, by rw [← ht]; exact b6⟩
        · rw [c3]; exact a9.trans (b4.grown (w := w1)) a5
        · exact a10.trans c5 (by omega)
        · intro hc
          rw [c3]
          obtain ⟨rfl, rfl⟩ := a7 hc
          exact b4
        · intro hc hr
          obtain ⟨rfl, rfl⟩ := a7 hc
          exact c6 (by unfold Room at hr; omega)
      · rintro e x3 w3 ⟨c2, c3, c4, c5, c6, c7, c8⟩
        have key : x.Room → False := by
          intro hr
          by_cases hc : x.s.size < x.s.cap
          · obtain ⟨rfl, rfl⟩ := a7 hc
            unfold Room at hr; omega
          · have := a8 hc; omega
        exact ⟨a3.trans c2, by omega, by rw [c3]; exact a9.trans (b4.grown (w := w1)) a5, a10.trans c5 (by omega), c7.from (by rw [hss]; exact Env.tooMany_idx),
          fun hr => (key hr).elim, fun hr => (key hr).elim, fun t he => absurd he (Env.IdxExc.ne E c7 t), c8⟩
    · rintro e s2 w2 ⟨b1, b2, b3⟩
      refine ⟨a3, by omega, ?_, a10, by rw [← ht]; exact b3.mono id (by rw [hss]; exact fun h => Or.inl (by omega)), ?_, ?_, ?_, ?_⟩
      · rcases b1 with rfl | b1
        · exact a9
        · exact a9.trans (b1.2.2.2.2.1.grown (w := w1)) a5
      · rintro - hns
        rcases b1 with rfl | b1
        · exact ⟨a2.weaken E b2, a4⟩
        · exact absurd ⟨by rw [← ht]; exact b1.1, by omega⟩ hns
      · rintro - hns hc
        obtain ⟨rfl, rfl⟩ := a7 hc
        rcases b1 with rfl | b1
        · rfl
        · exact absurd ⟨b1.1, by omega⟩ hns
      · intro t he
        rcases b1 with rfl | b1
        · exact ⟨a2.weaken E b2, a4⟩
        · rw [b1.2.2.2.1] at he; cases he
      · rcases b1 with rfl | b1
        · exact (a2.weaken E b2).weak E
        · exact (a2.weak E).setStore E b2 b1.2.2.2.2.1 (by omega)
  · rintro e x1 w1 ⟨a1, a2, a3, a4, a5, a6, a7, a8, a9⟩
    exact ⟨a2, a6, by rw [a3]; exact Vec.Grown.refl _ _, a7, a8.mono False.elim id, fun _ _ => ⟨a1, by rw [a3]⟩, fun _ _ h => absurd h a9,
      fun _ _ => ⟨a1, by rw [a3]⟩, a1.weak E⟩

theorem pushBack_runs (src : Src V) (v : V) (x : Split V) (w : World) (h : x.Inv E w)
    (hv : src.val x.s = some v) (hx : src.ext = true ∨ x.s.size < x.s.cap) :
    Runs (pushBack E src) x w
      (fun r x' w' => Inserted E x w x.s.size v x' w' ∧ r = (x'.i.ptr x.s.size, x'.sentinel) ∧
        (src.copies → (E.traits x.ty).copyable = true))
      (Failed E x w src.copies False) := by
  unfold pushBack
  simp only [runs_bind]
  refine (prereserve_runs E x w h).mono ?_ ?_
  · rintro q x1 w1 ⟨a2, a3, a4, a5, a6, a7, a8, a9, a10⟩
    have hss : x1.s.size = x.s.size := by simp [Vec.size, a4]
    simp only [runs_get, onS, runs_zoom]
    have hv1 : src.val x1.s = some v := by
      rcases hx with hx | hx
      · rw [Src.val_ext hx x1.s x.s, hv]
      · rw [(a7 hx).1, hv]
    have ht : x1.ty = x.ty := a3.1
    refine (E.emplaceBack_runs x1.ty src x1.s w1 a2.swf v hv1).mono ?_ ?_
    · rintro _ s2 w2 ⟨b1, b2, b3, b4, b5, b6⟩
      have b4 := b4 a6
      have hs2 : s2.size = x1.s.size + 1 := by simp [Vec.size, b1]
      refine (pushIndexEntry_runs E x1 w2 w1 s2 a2 b3 b2 b4 hs2).mono ?_ ?_
      · rintro _ x3 w3 ⟨c1, c2, c3, c4, c5, c6⟩
        simp only [retRange, runs_bind, runs_get, runs_pure]
        refine ⟨⟨c1, a3.trans c2, ?_, by omega, ?_, ?_, ?_, ?_⟩, ?_, by rw [← ht]; exact b6⟩
        · rw [c3, b1, a4]; simp [Vec.size]
        · rw [c3]; exact a9.trans (b4.grown (w := w1)) a5
        · exact a10.trans c5 (by omega)
        · intro hc
          rw [c3]
          obtain ⟨rfl, rfl⟩ := a7 hc
          exact b4
        · intro hc hr
          obtain ⟨rfl, rfl⟩ := a7 hc
          exact c6 (by unfold Room at hr; omega)
        · rw [c3, hs2, hss]; rfl
      · rintro e x3 w3 ⟨c2, c3, c4, c5, c6, c7, c8⟩
        have key : x.Room → False := by
          intro hr
          by_cases hc : x.s.size < x.s.cap
          · obtain ⟨rfl, rfl⟩ := a7 hc
            unfold Room at hr; omega
          · have := a8 hc; omega
        exact ⟨a3.trans c2, by omega, by rw [c3]; exact a9.trans (b4.grown (w := w1)) a5, a10.trans c5 (by omega), c7.from (by rw [hss]; exact Env.tooMany_idx),
          fun hr => (key hr).elim, fun hr => (key hr).elim, fun t he => absurd he (Env.IdxExc.ne E c7 t), c8⟩
    · rintro e s2 w2 ⟨rfl, b2, b3⟩
      refine ⟨a3, by omega, a9, a10, by rw [← ht]; exact b3.mono id (by rw [hss]; exact fun h => Or.inl (by omega)), ?_, ?_, fun _ _ => ⟨a2.weaken E b2, a4⟩, (a2.weaken E b2).weak E⟩
      · exact fun _ _ => ⟨a2.weaken E b2, a4⟩
      · rintro - - hc
        obtain ⟨rfl, rfl⟩ := a7 hc
        rfl
  · rintro e x1 w1 ⟨a1, a2, a3, a4, a5, a6, a7, a8, a9⟩
    exact ⟨a2, a6, by rw [a3]; exact Vec.Grown.refl _ _, a7, a8.mono False.elim id, fun _ _ => ⟨a1, by rw [a3]⟩, fun _ _ h => absurd h a9,
      fun _ _ => ⟨a1, by rw [a3]⟩, a1.weak E⟩

/-- Result of inserting a list of values at position `n`. -/
structure InsertedList (x : Split V) (w : World) (n : Nat) (vs : List V) (x' : Split V) (w' : World) : Prop where
  inv : x'.Inv E w'
  frame : Frame x x'
  elems : x'.s.elems = x.s.elems.take n ++ vs ++ x.s.elems.drop n
  next : w.next ≤ w'.next
  gs : Vec.Grown w x.s x'.s
  gi : Vec.Grown w x.i x'.i
  sames : x.s.size + vs.length ≤ x.s.cap → Vec.Same x.s x'.s
  samei : x.s.size + vs.length ≤ x.s.cap → x.Room → Vec.Same x.i x'.i

theorem insertIdx_take_drop {α : Type} (l : List α) (n : Nat) (v : α) (h : n ≤ l.length) :
    l.insertIdx n v = l.take n ++ v :: l.drop n := by
  induction n generalizing l with
  | zero => simp
  | succ n ih =>
    cases l with
    | nil => simp at h
    | cons a l => simp only [List.insertIdx_succ_cons, List.take_succ_cons, List.drop_succ_cons, List.cons_append]; rw [ih l (by simpa using h)]

/-- The loop of input-iterator insertion.  `Exact` is needed only for what a failure leaves
behind: room in the index is kept from one round to the next. -/
theorem insertLoop_runs (srcs : List (Src V)) (vs : List V) (n : Nat) (x : Split V) (w : World)
    (h : x.Inv E w) (hn : n ≤ x.s.size) (hext : ∀ src ∈ srcs, src.ext = true)
    (hv : srcs.map (Src.val x.s) = vs.map some) :
    Runs (insertLoop E (x.s.ptr n) srcs) x w
      (fun q x' w' => InsertedList E x w n vs x' w' ∧ q = x'.s.ptr (n + vs.length) ∧
        ((∃ src ∈ srcs, src.copies) → (E.traits x.ty).copyable = true))
      (fun e x' w' => Frame x x' ∧ w.next ≤ w'.next ∧ Vec.Grown w x.s x'.s ∧ Vec.Grown w x.i x'.i ∧
        ExcFrom E x.ty (∃ src ∈ srcs, src.copies) (E.TooMany x.ty (x.s.size + vs.length)) e ∧
        (ExactReserve E → x.Room → ¬ (E.shiftThrows x.ty ∧ n < x.s.size) →
          x'.Inv E w' ∧ ∃ k, k < vs.length ∧ x'.s.elems = x.s.elems.take n ++ vs.take k ++ x.s.elems.drop n) ∧ x'.Weak E w') := by
  induction srcs generalizing vs n x w with
  | nil =>
    cases vs with
    | cons => simp at hv
    | nil =>
      simp only [insertLoop, runs_pure']
      exact ⟨⟨h, Frame.refl _, by simp, by omega, Vec.Grown.refl _ _, Vec.Grown.refl _ _, fun _ => Vec.Same.refl _, fun _ _ => Vec.Same.refl _⟩, by simp, by simp⟩
  | cons src srcs ih =>
    cases vs with
    | nil => simp at hv
    | cons v vs =>
      simp only [List.map_cons, List.cons.injEq] at hv
      have hx := hext src (by simp)
      simp only [insertLoop, runs_bind]
      have hp : x.iteratorFrom (.loc (x.s.ptr n)) = some n := Vec.posOf_ptr hn
      refine (prereserveAt_runs E (.loc (x.s.ptr n)) n x w h hp).mono ?_ ?_
      · rintro q x1 w1 ⟨a1, a1', a2, a3, a4, a5, a6, a7, a8, a9, a10⟩
        obtain rfl := a1' _ rfl
        have hss : x1.s.size = x.s.size := by simp [Vec.size, a4]
        simp only [runs_get, a1, runs_some, onS, runs_zoom]
        have hv1 : src.val x1.s = some v := by rw [Src.val_ext hx x1.s x.s, hv.1]
        have ht : x1.ty = x.ty := a3.1
        refine (E.emplaceAt_runs x1.ty n src x1.s w1 a2.swf v (by omega) hv1).mono ?_ ?_
        · rintro _ s2 w2 ⟨b1, b2, b3, b4, b5, b6⟩
          have b4 := b4 a6
          have hs2 : s2.size = x1.s.size + 1 := by
            simp only [Vec.size, b1]; exact List.length_insertIdx_of_le_length (by simp only [Vec.size] at hss hn; omega) _
          refine (pushIndexEntry_runs E x1 w2 w1 s2 a2 b3 b2 b4 hs2).mono ?_ ?_
          · rintro _ x3 w3 ⟨c1, c2, c3, c4, c5, c6⟩
            have hvs : srcs.map (Src.val x3.s) = vs.map some := by
              rw [← hv.2]
              apply List.map_congr_left
              intro s hs
              exact Src.val_ext (hext s (by simp [hs])) _ _
            have hptr : (⟨(x1.s.ptr n).blk, (x1.s.ptr n).off + 1⟩ : Ptr) = x3.s.ptr (n + 1) := by
              simp [Vec.ptr, c3, b4.1]
            have ht3 : x3.ty = x.ty := c2.1.trans ht
            have hgs : Vec.Grown w x.s x3.s := by rw [c3]; exact a9.trans (b4.grown (w := w1)) a5
            have hgi : Vec.Grown w x.i x3.i := a10.trans c5 (by omega)
            have he3 : x3.s.elems = x.s.elems.take n ++ v :: x.s.elems.drop n := by
              rw [c3, b1, a4]; exact insertIdx_take_drop _ _ _ hn
            have htk : (x3.s.elems).take (n + 1) = x.s.elems.take n ++ [v] := by
              rw [he3, List.take_append]
              simp only [Vec.size] at hn
              simp [List.take_take, Nat.min_eq_left hn]
            have hdr : (x3.s.elems).drop (n + 1) = x.s.elems.drop n := by
              rw [he3, List.drop_append]
              simp only [Vec.size] at hn
              simp [Nat.min_eq_left hn]
            simp only [hptr]
            refine (ih vs (n + 1) x3 w3 c1 (by rw [c3]; omega) (fun s hs => hext s (by simp [hs])) hvs).mono ?_ ?_
            · rintro q x4 w4 ⟨⟨d1, d2, d3, d4, d5, d6, d7, d8⟩, d9, d10⟩
              refine ⟨⟨d1, a3.trans (c2.trans d2), ?_, by omega, hgs.trans d5 (by omega), hgi.trans d6 (by omega), ?_, ?_⟩, ?_, ?_⟩
              · rw [d3, htk, hdr]; simp
              · intro hc
                simp only [List.length_cons] at hc
                obtain ⟨rfl, rfl⟩ := a7 (by omega)
                have := d7 (by rw [c3, b4.2]; omega)
                rw [c3] at this
                exact ⟨this.1.trans b4.1, this.2.trans b4.2⟩
              · intro hc hr
                simp only [List.length_cons] at hc
                obtain ⟨rfl, rfl⟩ := a7 (by omega)
                have h6 := c6 (by unfold Room at hr; omega)
                have := d8 (by rw [c3, b4.2]; omega) (by unfold Room at *; rw [c3, b4.2, h6.2]; exact hr)
                exact ⟨this.1.trans h6.1, this.2.trans h6.2⟩
              · rw [d9]; simp only [List.length_cons]; congr 1; omega
              · rintro ⟨s, hs, hsc⟩
                rcases List.mem_cons.1 hs with rfl | hs
                · rw [← ht]; exact b6 hsc
                · rw [← ht3]; exact d10 ⟨s, hs, hsc⟩
            · rintro e x4 w4 ⟨d1, d2, d3, d4, d5, d6, d7⟩
              refine ⟨a3.trans (c2.trans d1), by omega, hgs.trans d3 (by omega), hgi.trans d4 (by omega), ?_, ?_, d7⟩
              · rw [← ht3]; exact d5.mono (by rintro ⟨s, hs, hsc⟩; exact ⟨s, by simp [hs], hsc⟩) (fun h => h.mono E (by simp only [List.length_cons, c3]; omega))
              · intro hxr hr hns
                have hr3 : x3.Room := by
                  rcases c1.cap hxr with h1 | ⟨h1, -⟩
                  · exact h1
                  · rw [c3] at h1; omega
                obtain ⟨e1, k, e2, e3⟩ := d6 hxr hr3 (by rw [ht3, c3]; intro hh; exact hns ⟨hh.1, by omega⟩)
                refine ⟨e1, k + 1, by simpa using e2, ?_⟩
                rw [e3, htk, hdr]; simp
          · rintro e x3 w3 ⟨c2, c3, c4, c5, c6, c7, c8⟩
            have key : x.Room → False := by
              intro hr
              by_cases hc : x.s.size < x.s.cap
              · obtain ⟨rfl, rfl⟩ := a7 hc
                unfold Room at hr; omega
              · have := a8 hc; omega
            exact ⟨a3.trans c2, by omega, by rw [c3]; exact a9.trans (b4.grown (w := w1)) a5, a10.trans c5 (by omega), c7.from (fun h => (Env.tooMany_idx h).mono E (by simp only [List.length_cons]; omega)),
              fun _ hr => (key hr).elim, c8⟩
        · rintro e s2 w2 ⟨b1, b2, b3⟩
          refine ⟨a3, by omega, ?_, a10, by rw [← ht]; exact b3.mono (fun hc => ⟨src, by simp, hc⟩) (fun h => Or.inl (by simp only [List.length_cons]; omega)), ?_, ?_⟩
          · rcases b1 with rfl | b1
            · exact a9
            · exact a9.trans (b1.2.2.2.2.1.grown (w := w1)) a5
          · rintro - - hns
            rcases b1 with rfl | b1
            · exact ⟨a2.weaken E b2, 0, by simp, by simp [a4]⟩
            · exact absurd ⟨by rw [← ht]; exact b1.1, by omega⟩ hns
          · rcases b1 with rfl | b1
            · exact (a2.weaken E b2).weak E
            · exact (a2.weak E).setStore E b2 b1.2.2.2.2.1 (by omega)
      · rintro e x1 w1 ⟨a1, a2, a3, a4, a5, a6, a7, a8, a9⟩
        exact ⟨a2, a6, by rw [a3]; exact Vec.Grown.refl _ _, a7, a8.mono False.elim (fun h => h.mono E (by simp only [List.length_cons]; omega)), fun _ _ _ => ⟨a1, 0, by simp, by simp [a3]⟩, a1.weak E⟩

theorem insertInput_runs (srcs : List (Src V)) (vs : List V) (n : Nat) (x : Split V) (w : World)
    (h : x.Inv E w) (hn : n ≤ x.s.size) (hext : ∀ src ∈ srcs, src.ext = true)
    (hv : srcs.map (Src.val x.s) = vs.map some) :
    Runs (insertInput E (x.s.ptr n) srcs) x w
      (fun r x' w' => InsertedList E x w n vs x' w' ∧ r = (x'.i.ptr n, x'.sentinel) ∧
        ((∃ src ∈ srcs, src.copies) → (E.traits x.ty).copyable = true))
      (fun e x' w' => Frame x x' ∧ w.next ≤ w'.next ∧ Vec.Grown w x.s x'.s ∧ Vec.Grown w x.i x'.i ∧
        ExcFrom E x.ty (∃ src ∈ srcs, src.copies) (E.TooMany x.ty (x.s.size + vs.length)) e ∧
        (ExactReserve E → x.Room → ¬ (E.shiftThrows x.ty ∧ n < x.s.size) →
          x'.Inv E w' ∧ ∃ k, k < vs.length ∧ x'.s.elems = x.s.elems.take n ++ vs.take k ++ x.s.elems.drop n) ∧ x'.Weak E w') := by
  unfold insertInput
  have hlen : srcs.length = vs.length := by have := congrArg List.length hv; simpa using this
  simp only [runs_bind]
  refine (insertLoop_runs E srcs vs n x w h hn hext hv).mono ?_ (fun _ _ _ h => h)
  rintro q x' w' ⟨a1, rfl, a3⟩
  simp only [runs_get, runs_ite, runs_undef, runs_bind]
  refine ⟨fun hlt => by simp only [Vec.ptr] at hlt; omega, fun _ => ?_⟩
  have hsz : x'.s.size = x.s.size + vs.length := by
    simp only [Vec.size, a1.elems, List.length_append, List.length_take, List.length_drop] at *; omega
  have : x'.s.posOf ⟨(x'.s.ptr (n + vs.length)).blk, (x'.s.ptr (n + vs.length)).off - srcs.length⟩ = some n := by
    rw [Vec.posOf_eq_some]; simp only [Vec.ptr, hlen]; exact ⟨by congr 1; omega, by omega⟩
  rw [this]
  simp only [runs_some, retRange, runs_bind, runs_get, runs_pure]
  exact ⟨a1, by trivial, a3⟩

theorem prereserveBy_runs (m n : Nat) (x : Split V) (w : World) (h : x.Inv E w) (hn : n ≤ x.s.size) :
    Runs (prereserveBy E (x.s.ptr n) m) x w
      (fun q x' w' => q = x'.s.ptr n ∧
        x'.Inv E w' ∧ Frame x x' ∧ x'.s.elems = x.s.elems ∧ w.next ≤ w'.next ∧
        x'.s.size + m ≤ x'.s.cap ∧ (x.s.size + m ≤ x.s.cap → x' = x ∧ w' = w) ∧
        (¬ x.s.size + m ≤ x.s.cap → x'.s.size + m + 1 ≤ x'.i.cap ∧ w.next ≤ x'.s.blk) ∧
        Vec.Grown w x.s x'.s ∧ Vec.Grown w x.i x'.i)
      (fun e x' w' => x'.Inv E w' ∧ Frame x x' ∧ x'.s = x.s ∧ x'.i.elems = x.i.elems ∧
        x.i.cap ≤ x'.i.cap ∧ w.next ≤ w'.next ∧ Vec.Grown w x.i x'.i ∧ ExcFrom E x.ty False (E.TooMany x.ty (x.s.size + m)) e ∧
        ¬ x.s.size + m ≤ x.s.cap) := by
  unfold prereserveBy
  simp only [runs_bind, runs_get, runs_ite, runs_pure, Vec.posOf_ptr hn, runs_some]
  refine ⟨fun hc => ?_, fun hc => ⟨by trivial, h, Frame.refl _, by trivial, by omega, by omega, fun _ => ⟨by trivial, by trivial⟩, fun _ => by omega, Vec.Grown.refl _ _, Vec.Grown.refl _ _⟩⟩
  unfold expandBy
  rw [runs_bind, runs_get]
  refine (expandTo_runs E (x.s.size + m) x w h (by omega)).mono ?_ ?_
  · rintro _ x' w' ⟨a1, a2, a3, a4, a5, a6, a7, a8⟩
    have hss : x'.s.size = x.s.size := by simp [Vec.size, a3]
    exact ⟨by trivial, a1, a2, a3, a4, by omega, fun h => by omega, fun _ => ⟨by omega, a5⟩, Or.inr a5, a8⟩
  · rintro e x' w' ⟨a1, a2, a3, a4, a5, a6, a7, a8⟩
    exact ⟨a1, a2, a3, a4, a5, a6, a7, a8.mono id (fun h => h.elim Or.inl Env.tooMany_idx), by omega⟩

/-- `build_index(n+1)` after the store grew from `n` elements, keeping its buffer. -/
theorem buildTail_runs (x : Split V) (w w0 : World) (s' : Vec V) (h : x.Inv E w0) (hw : w0.next ≤ w.next)
    (hs : s'.WF w) (hb : Vec.Same x.s s') (hsz : x.s.size ≤ s'.size) :
    Runs (buildIndex E (x.s.size + 1)) { x with s := s' } w
      (fun _ x' w' => x'.Inv E w' ∧ Frame x x' ∧ x'.s = s' ∧ w.next ≤ w'.next ∧ Vec.Grown w x.i x'.i ∧
        (s'.size + 1 ≤ x.i.cap → Vec.Same x.i x'.i))
      (fun e x' w' => Frame x x' ∧ x'.s = s' ∧ w.next ≤ w'.next ∧ Vec.Grown w x.i x'.i ∧
        ¬ (s'.size + 1 ≤ x.i.cap) ∧ Env.IdxExc E (E.idxMaxSize < s'.size + 1) e ∧ x'.Weak E w') := by
  have hisz := h.isize
  refine (buildIndex_runs E (x.s.size + 1) { x with s := s' } w (h.iwf.weaken hw) (by simp [hb.1]; exact h.snz)).mono ?_ ?_
  · rintro _ x' w' ⟨a1, a2, a3, a4, a5, a6⟩
    have e1 : x'.s = s' := by rw [a1]
    have hidx : x'.i.elems = goodIndex s' := by
      rw [a2, ← goodIndex_extend hb.1 hsz, h.idx]
    have hsi : x'.i.size = s'.size + 1 := by simp [Vec.size, hidx, goodIndex]
    refine ⟨⟨?_, a3, ?_, ?_, ?_, ?_⟩, ⟨by rw [a1], by rw [a1], by rw [a1]⟩, e1, a4, a5, ?_⟩
    · rw [e1]; exact hs.weaken a4
    · rw [e1, hb.1]; exact h.snz
    · rw [e1, hb.1]
      have := h.ne
      have := h.swf.lt
      simp only [Vec.Grown] at a5
      omega
    · rw [e1, hidx]
    · intro hx
      rw [e1, hb.2]
      have h1 := a3.le
      have h5 := hs.le; rw [hb.2] at h5
      rcases h.cap hx with h2 | ⟨h2, h3⟩
      · left
        by_cases h4 : x.i.size + (s'.size + 1 - (x.s.size + 1)) ≤ x.i.cap
        · have := a6 h4
          rw [this.2]; exact h2
        · omega
      · omega
    · intro hc; exact a6 (by simp; omega)
  · rintro e x' w' ⟨a1, a2, a3, a4, a5, a6, a7⟩
    have e1 : x'.s = s' := by rw [a1]
    refine ⟨⟨by rw [a1], by rw [a1], by rw [a1]⟩, e1, a3, a4, ?_, a6.mono (by simp only; omega), ?_⟩
    · intro hc; exact a5 (by simp; omega)
    · refine (h.weak E).of E hw (by rw [e1]; exact hs.weaken a3) (by rw [e1]; exact hb) a2 a4 (Or.inl a7) fun _ hc => ?_
      have := hs.le
      rw [hb.2] at this
      exact absurd (by simp only; omega) a5

theorem insertForward_runs (srcs : List (Src V)) (vs : List V) (n : Nat) (x : Split V) (w : World)
    (h : x.Inv E w) (hn : n ≤ x.s.size) (hext : ∀ src ∈ srcs, src.ext = true)
    (hv : srcs.map (Src.val x.s) = vs.map some) :
    Runs (insertForward E (x.s.ptr n) srcs) x w
      (fun r x' w' => InsertedList E x w n vs x' w' ∧ r = (x'.i.ptr n, x'.sentinel) ∧
        ((∃ src ∈ srcs, src.copies) → (E.traits x.ty).copyable = true))
      (fun e x' w' => Frame x x' ∧ w.next ≤ w'.next ∧ Vec.Grown w x.s x'.s ∧ Vec.Grown w x.i x'.i ∧
        ExcFrom E x.ty (∃ src ∈ srcs, src.copies) (E.TooMany x.ty (x.s.size + vs.length)) e ∧
        (x.Room → x'.Inv E w' ∧ (n = x.s.size → x'.s.elems = x.s.elems) ∧
          (n = x.s.size → x.s.size + vs.length ≤ x.s.cap → x' = x)) ∧ x'.Weak E w') := by
  unfold insertForward
  have hlen : srcs.length = vs.length := by have := congrArg List.length hv; simpa using this
  simp only [runs_bind, runs_get, runs_ite, runs_onExc, onS, runs_zoom]
  refine ⟨fun hm => ?_, fun hm => ?_⟩
  · refine (prereserveBy_runs E srcs.length n x w h hn).mono ?_ ?_
    · rintro q x1 w1 ⟨rfl, a2, a3, a4, a5, a6, a7, a8, a9, a10⟩
      have hss : x1.s.size = x.s.size := by simp [Vec.size, a4]
      have hv1 : srcs.map (Src.val x1.s) = vs.map some := by
        rw [← hv]; apply List.map_congr_left
        intro s hs
        exact Src.val_ext (hext s hs) _ _
      have ht : x1.ty = x.ty := a3.1
      have hroom : x.Room → x1.s.size + srcs.length + 1 ≤ x1.i.cap := by
        intro hr
        by_cases hc : x.s.size + srcs.length ≤ x.s.cap
        · obtain ⟨rfl, rfl⟩ := a7 hc
          unfold Room at hr; omega
        · exact (a8 hc).1
      simp only [Vec.posOf_ptr (show n ≤ x1.s.size by omega), runs_some]
      refine (E.insertRange_runs x1.ty n srcs x1.s w1 a2.swf vs (by omega) hv1).mono ?_ ?_
      · rintro _ s2 w2 ⟨b1, b2, b3, b4, b5, b6⟩
        have b4 := b4 a6
        have hs2 : s2.size = x1.s.size + srcs.length := by
          simp only [Vec.size, b1, List.length_append, List.length_take, List.length_drop] at *; omega
        rw [← hss]
        refine (buildTail_runs E x1 w2 w1 s2 a2 b3 b2 b4 (by omega)).mono ?_ ?_
        · rintro _ x3 w3 ⟨c1, c2, c3, c4, c5, c6⟩
          have hpp : x3.s.posOf (x1.s.ptr n) = some n := by
            rw [Vec.posOf_eq_some, c3]; exact ⟨by simp [Vec.ptr, b4.1], by omega⟩
          simp only [hpp, runs_some, retRange, runs_bind, runs_get, runs_pure]
          refine ⟨⟨c1, a3.trans c2, by rw [c3, b1, a4], by omega, ?_, ?_, ?_, ?_⟩, by trivial, by rw [← ht]; exact b6⟩
          · rw [c3]; exact a9.trans (b4.grown (w := w1)) a5
          · exact a10.trans c5 (by omega)
          · intro hc
            rw [c3]
            obtain ⟨rfl, rfl⟩ := a7 (by omega)
            exact b4
          · intro hc hr
            have := hroom hr
            obtain ⟨rfl, rfl⟩ := a7 (by omega)
            exact c6 (by omega)
        · rintro e x3 w3 ⟨c2, c3, c4, c5, c6, c7, c8⟩
          refine ⟨a3.trans c2, by omega, by rw [c3]; exact a9.trans (b4.grown (w := w1)) a5, a10.trans c5 (by omega), c7.from (fun h => (Env.tooMany_idx h).mono E (by omega)), ?_, c8⟩
          intro hr
          have := hroom hr
          omega
      · rintro e s2 w2 ⟨b1, b2, b3⟩
        have hb : Vec.Same x1.s s2 ∧ x1.s.size ≤ s2.size ∧ s2.size ≤ x1.s.size + srcs.length := by
          rcases b1 with rfl | b1
          · exact ⟨⟨rfl, rfl⟩, by omega, by omega⟩
          · exact b1.2.2
        have hs2 : s2.WF w2 := ⟨by rw [hb.1.1]; have := a2.swf.lt; omega, by rw [hb.1.2]; omega, by rw [hb.1.1, hb.1.2]; exact a2.swf.nul⟩
        rw [← hss]
        refine (buildTail_runs E x1 w2 w1 s2 a2 b2 hs2 hb.1 hb.2.1).mono ?_ ?_
        · rintro _ x3 w3 ⟨c1, c2, c3, c4, c5, c6⟩
          refine ⟨a3.trans c2, by omega, by rw [c3]; exact a9.trans (hb.1.grown (w := w1)) a5, a10.trans c5 (by omega), by rw [← ht]; exact b3.mono id (fun h => Or.inl (by omega)), ?_, c1.weak E⟩
          intro hr
          have hr := hroom hr
          refine ⟨c1, fun hns => ?_, fun hns hc => ?_⟩
          · rcases b1 with rfl | b1
            · rw [c3, a4]
            · omega
          · obtain ⟨rfl, rfl⟩ := a7 (by omega)
            rcases b1 with rfl | b1
            · have c6 := c6 (by omega)
              have : x3.i = x1.i := by
                have e1 := c1.idx
                rw [c3, ← a2.idx] at e1
                cases h3 : x3.i; cases h1 : x1.i
                simp only [Vec.Same, h3, h1] at c6 e1 ⊢
                simp [c6, e1]
              cases x3; cases x1
              simp only [Frame] at c2
              simp_all
            · omega
        · rintro e x3 w3 ⟨c2, c3, c4, c5, c6, c7, c8⟩
          refine ⟨a3.trans c2, by omega, by rw [c3]; exact a9.trans (hb.1.grown (w := w1)) a5, a10.trans c5 (by omega), c7.from (fun h => (Env.tooMany_idx h).mono E (by omega)), ?_, c8⟩
          intro hr
          have := hroom hr
          omega
    · rintro e x1 w1 ⟨a1, a2, a3, a4, a5, a6, a7, a8, a9⟩
      exact ⟨a2, a6, by rw [a3]; exact Vec.Grown.refl _ _, a7, a8.mono False.elim (by rw [hlen]; exact id), fun _ => ⟨a1, fun _ => by rw [a3], fun _ h => absurd (by omega) a9⟩, a1.weak E⟩
  · have hs : srcs = [] := by simpa using hm
    subst hs
    have : vs = [] := by cases vs <;> simp_all
    subst this
    simp only [Vec.posOf_ptr hn, runs_some, retRange, runs_bind, runs_get, runs_pure]
    exact ⟨⟨h, Frame.refl _, by simp, by omega, Vec.Grown.refl _ _, Vec.Grown.refl _ _, fun _ => Vec.Same.refl _, fun _ _ => Vec.Same.refl _⟩, by trivial, by simp⟩

/-- Cutting a good index. -/
theorem goodIndex_take {s s' : Vec V} (hb : s'.blk = s.blk) (h : s'.size ≤ s.size) :
    (goodIndex s).take (s'.size + 1) = goodIndex s' := by
  unfold goodIndex
  have : s.ptr = s'.ptr := by funext n; simp [Vec.ptr, hb]
  rw [this, ← List.map_take, List.take_range]
  congr 2
  omega

/-- Result of removing elements: buffers stay. -/
structure Removed (x : Split V) (l : List V) (x' : Split V) (w' : World) : Prop where
  inv : x'.Inv E w'
  frame : Frame x x'
  elems : x'.s.elems = l
  sames : Vec.Same x.s x'.s
  samei : Vec.Same x.i x'.i

/-- The invariant after removing elements from the store and entries from the end of the index. -/
theorem removed_inv (x : Split V) (w w' : World) (s' : Vec V) (h : x.Inv E w) (hw : w'.next = w.next)
    (hb : Vec.Same x.s s') (hsz : s'.size ≤ x.s.size) :
    Removed E x s'.elems
      { x with s := s', i := { x.i with elems := x.i.elems.take (x.i.size - (x.s.size - s'.size)) } } w' := by
  have hisz := h.isize
  have h1 := h.swf.le
  have h2 := h.iwf.le
  have hwf := h.swf.weaken (w' := w') (by omega)
  have hwi := h.iwf.weaken (w' := w') (by omega)
  have hsw : s'.WF w' := ⟨by rw [hb.1]; exact hwf.lt, by rw [hb.2]; omega, by rw [hb.1, hb.2]; exact hwf.nul⟩
  refine ⟨⟨hsw, ⟨hwi.lt, ?_, hwi.nul⟩, ?_, ?_, ?_, ?_⟩, ⟨rfl, rfl, rfl⟩, rfl, hb, ⟨rfl, rfl⟩⟩
  · simp only [Vec.size, List.length_take] at *; omega
  · simp only [hb.1]; exact h.snz
  · simp only [hb.1]; exact h.ne
  · simp only [h.idx]
    rw [← goodIndex_take hb.1 hsz]
    congr 1; omega
  · intro hx
    have := h.cap hx
    simp only [hb.2]
    omega

theorem erase_runs (n : Nat) (x : Split V) (w : World) (h : x.Inv E w) (hn : n < x.s.size) :
    Runs (erase E (x.s.ptr n)) x w
      (fun r x' w' => Removed E x (x.s.elems.eraseIdx n) x' w' ∧ r = (x'.i.ptr n, x'.sentinel) ∧ w'.next = w.next)
      (fun e x' w' => (E.traits x.ty).nothrowAssign = false ∧ n + 1 < x.s.size ∧ e = .user ∧ (∃ n, E.fault n = true) ∧
        Frame x x' ∧ Vec.Same x.s x'.s ∧ x'.s.size = x.s.size ∧ Vec.Same x.i x'.i ∧ w'.next = w.next ∧ x'.Weak E w') := by
  unfold erase
  have hisz := h.isize
  simp only [runs_bind]
  refine (popIndexEntry_runs 1 x w (by omega)).mono ?_ (fun _ _ _ h => h)
  rintro _ x1 w1 ⟨rfl, rfl⟩
  simp only [runs_get, Vec.posOf_ptr (show n ≤ x.s.size by omega), runs_some, onS, runs_zoom]
  refine (E.eraseAt_runs x.ty n x.s w1 hn).mono ?_ ?_
  · rintro _ s' w' ⟨b1, b2, b3⟩
    have hs2 : s'.size = x.s.size - 1 := by
      simp only [Vec.size, b1] at *; rw [List.length_eraseIdx_of_lt hn]
    have := removed_inv E x w1 w' s' h b3 b2 (by omega)
    rw [show x.s.size - s'.size = 1 by omega, b1] at this
    simp only [retRange, runs_bind, runs_get, runs_pure]
    exact ⟨this, by trivial, b3⟩
  · rintro e s' w' ⟨b1, b2, b3, b4, b5, b6, b7⟩
    have hsl := h.swf.le
    have hil := h.iwf.le
    refine ⟨b1, b2, b3, b4, Frame.refl _, b5, b6, ⟨rfl, rfl⟩, b7, ?_⟩
    refine (h.weak E).of E (Nat.le_refl _) ⟨by rw [b5.1, b7]; exact h.swf.lt, by rw [b5.2]; exact Nat.le_trans (Nat.le_of_eq b6) hsl, by rw [b5.1, b5.2]; exact h.swf.nul⟩ b5
      ⟨by rw [b7]; exact h.iwf.lt, ?_, h.iwf.nul⟩ (Or.inl rfl) (Or.inr ⟨_, ?_, rfl⟩) (fun _ _ => Nat.le_refl _)
    · simp only [Vec.size, List.length_take] at *; omega
    · omega

/-- Common part of the range erasures. -/
theorem eraseTail_runs (a b k : Nat) (x : Split V) (w : World) (h : x.Inv E w) (hab : a ≤ b) (hb : b ≤ x.s.size) :
    Runs (do onS (E.eraseRange x.ty a b); let y ← Prog.get; popIndexEntry (x.s.size - y.s.size); retRange k) x w
      (fun r x' w' => Removed E x (x.s.elems.take a ++ x.s.elems.drop b) x' w' ∧ r = (x'.i.ptr k, x'.sentinel) ∧ w'.next = w.next)
      (fun e x' w' => (E.traits x.ty).nothrowAssign = false ∧ a < b ∧ b < x.s.size ∧ e = .user ∧ (∃ n, E.fault n = true) ∧
        (∃ l, l.length = x.s.size ∧ Removed E x l x' w' ∧ x'.i = x.i) ∧ w'.next = w.next) := by
  have hisz := h.isize
  simp only [runs_bind, onS, runs_zoom, runs_get]
  refine (E.eraseRange_runs x.ty a b x.s w hab hb).mono ?_ ?_
  · rintro _ s' w' ⟨b1, b2, b3⟩
    have hs2 : s'.size = x.s.size - (b - a) := by
      simp only [Vec.size, b1, List.length_append, List.length_take, List.length_drop] at *; omega
    have := removed_inv E x w w' s' h b3 b2 (by omega)
    refine (popIndexEntry_runs (x.s.size - s'.size) { x with s := s' } w' (by simp only; omega)).mono ?_ (fun _ _ _ h => h)
    rintro _ x1 w1 ⟨rfl, rfl⟩
    simp only [retRange, runs_bind, runs_get, runs_pure]
    exact ⟨by rw [← b1]; exact this, by trivial, b3⟩
  · rintro e s' w' ⟨b1, b2, b3, b4, b5, b6, b7, b8⟩
    have := removed_inv E x w w' s' h b8 b6 (by omega)
    have hh : ({ x with s := s' } : Split V) = { x with s := s', i := { x.i with elems := x.i.elems.take (x.i.size - (x.s.size - s'.size)) } } := by
      rw [b7, Nat.sub_self, Nat.sub_zero]
      simp [Vec.size]
    exact ⟨b1, b2, b3, b4, b5, ⟨s'.elems, b7, by rw [hh]; exact this, by trivial⟩, b8⟩

theorem eraseRange_runs (a b : Nat) (x : Split V) (w : World) (h : x.Inv E w) (hab : a ≤ b) (hb : b ≤ x.s.size) :
    Runs (eraseRange E (x.s.ptr a) (x.s.ptr b)) x w
      (fun r x' w' => Removed E x (x.s.elems.take a ++ x.s.elems.drop b) x' w' ∧ r = (x'.i.ptr a, x'.sentinel) ∧ w'.next = w.next)
      (fun e x' w' => (E.traits x.ty).nothrowAssign = false ∧ a < b ∧ b < x.s.size ∧ e = .user ∧ (∃ n, E.fault n = true) ∧
        (∃ l, l.length = x.s.size ∧ Removed E x l x' w' ∧ x'.i = x.i) ∧ w'.next = w.next) := by
  have := eraseTail_runs E a b a x w h hab hb
  unfold eraseRange
  rw [runs_bind, runs_get, Vec.posOf_ptr (by omega), Vec.posOf_ptr (by omega)]
  exact this

theorem eraseTillEnd_runs (a : Nat) (x : Split V) (w : World) (h : x.Inv E w) (ha : a ≤ x.s.size) :
    Runs (eraseTillEnd E (x.i.ptr a)) x w
      (fun r x' w' => Removed E x (x.s.elems.take a) x' w' ∧ r = (x'.i.ptr a, x'.sentinel) ∧ w'.next = w.next)
      (fun _ _ _ => False) := by
  have := eraseTail_runs E a x.s.size a x w h ha (Nat.le_refl _)
  unfold eraseTillEnd
  rw [runs_bind, runs_get, show x.iteratorFrom (.base (x.i.ptr a)) = some a by simp [iteratorFrom, Vec.ptr, ha]]
  refine Runs.mono this ?_ ?_
  · simp [Vec.size]
  · rintro e x' w' ⟨_, _, h, _⟩; omega

theorem eraseFromBegin_runs (b : Nat) (x : Split V) (w : World) (h : x.Inv E w) (hb : b ≤ x.s.size) :
    Runs (eraseFromBegin E (x.i.ptr b)) x w
      (fun r x' w' => Removed E x (x.s.elems.drop b) x' w' ∧ r = (x'.i.ptr 0, x'.sentinel) ∧ w'.next = w.next)
      (fun e x' w' => (E.traits x.ty).nothrowAssign = false ∧ 0 < b ∧ b < x.s.size ∧ e = .user ∧ (∃ n, E.fault n = true) ∧
        (∃ l, l.length = x.s.size ∧ Removed E x l x' w' ∧ x'.i = x.i) ∧ w'.next = w.next) := by
  have := eraseTail_runs E 0 b 0 x w h (by omega) hb
  unfold eraseFromBegin
  rw [runs_bind, runs_get, show x.iteratorFrom (.base (x.i.ptr b)) = some b by simp [iteratorFrom, Vec.ptr, hb]]
  refine Runs.mono this ?_ (fun _ _ _ h => h)
  simp

theorem clear_runs (x : Split V) (w : World) (h : x.Inv E w) :
    Runs clear x w
      (fun r x' w' => Removed E x [] x' w' ∧ r = x'.sentinel ∧ w' = w) (fun _ _ _ => False) := by
  unfold clear
  have hisz := h.isize
  simp only [runs_bind, onS, runs_zoom, Env.clearVec, runs_get, runs_set, runs_ite, runs_undef]
  refine ⟨fun h0 => by simp [Vec.size, h0] at hisz, fun _ => ?_⟩
  have := removed_inv E x w w { x.s with elems := [] } h rfl ⟨rfl, rfl⟩ (by simp [Vec.size])
  refine (popIndexEntry_runs (x.i.size - 1) { x with s := { x.s with elems := [] } } w (by simp only; omega)).mono ?_ (fun _ _ _ h => h)
  rintro _ x1 w1 ⟨rfl, rfl⟩
  simp only [retSentinel, runs_bind, runs_get, runs_pure]
  refine ⟨?_, by trivial, by trivial⟩
  rw [show x.i.size - 1 = x.s.size - Vec.size ({ x.s with elems := [] } : Vec V) by simp [Vec.size] at *; omega]
  exact this

/-- `clear()` puts a segment in order after any failure. -/
theorem clear_weak (x : Split V) (w : World) (h : x.Weak E w) :
    Runs clear x w
      (fun r x' w' => Removed E x [] x' w' ∧ r = x'.sentinel ∧ w' = w) (fun _ _ _ => False) := by
  unfold clear
  obtain ⟨l, hl⟩ := h.head
  have hz : x.i.size = l.length + 1 := by simp [Vec.size, hl]
  simp only [runs_bind, onS, runs_zoom, Env.clearVec, runs_get, runs_set, runs_ite, runs_undef]
  refine ⟨fun h0 => by simp [hl] at h0, fun _ => ?_⟩
  refine (popIndexEntry_runs (x.i.size - 1) { x with s := { x.s with elems := [] } } w (by simp only; omega)).mono ?_ (fun _ _ _ h => h)
  rintro _ x1 w1 ⟨rfl, rfl⟩
  simp only [retSentinel, runs_bind, runs_get, runs_pure]
  refine ⟨⟨⟨⟨h.swf.lt, Nat.zero_le _, h.swf.nul⟩, ⟨h.iwf.lt, ?_, h.iwf.nul⟩, h.snz, h.ne, ?_, ?_⟩, Frame.refl _, rfl, ⟨rfl, rfl⟩, ⟨rfl, rfl⟩⟩, by trivial, by trivial⟩
  · have := h.iwf.le
    simp only [Vec.size, List.length_take] at *
    omega
  · simp only [hz, hl, show l.length + 1 - (l.length + 1 - 1) = 1 by omega]
    rfl
  · intro hx
    exact (h.cap hx).imp id fun h => ⟨rfl, h⟩

theorem reserve_runs (n : Nat) (x : Split V) (w : World) (h : x.Inv E w) :
    Runs (reserve E n) x w
      (fun r x' w' => x'.Inv E w' ∧ Frame x x' ∧ x'.s.elems = x.s.elems ∧ w.next ≤ w'.next ∧ n ≤ x'.s.cap ∧
        x.s.cap ≤ x'.s.cap ∧ n ≤ E.maxSize x.ty ∧ n + 1 ≤ x'.i.cap ∧
        Vec.Grown w x.s x'.s ∧ Vec.Grown w x.i x'.i ∧ r = x'.sentinel ∧ (n ≤ x.s.cap → x'.s = x.s))
      (fun e x' w' => x'.Inv E w' ∧ Frame x x' ∧ x'.s = x.s ∧ x'.i.elems = x.i.elems ∧
        x.i.cap ≤ x'.i.cap ∧ w.next ≤ w'.next ∧ Vec.Grown w x.i x'.i ∧
        ExcFrom E x.ty False (E.maxSize x.ty < n ∨ E.idxMaxSize < n + 1) e ∧
        (n + 1 ≤ x.i.cap → x' = x)) := by
  unfold reserve
  have hsz := h.isize
  have hle := h.swf.le
  have hile := h.iwf.le
  have hilt := h.iwf.lt
  have hslt := h.swf.lt
  have hne := h.ne
  have hcap := h.cap
  simp only [runs_bind, runs_get, onI, onS, runs_zoom, decide_eq_true_eq]
  refine (E.idxReserve_runs (n + 1) x.i w h.iwf).mono ?_ ?_
  · rintro _ i' w' ⟨a1, a2, a3, a4, a5, a6, a7⟩
    have hg : Vec.Grown w x.i i' := by
      by_cases h' : n + 1 ≤ x.i.cap
      · rw [a6 h']; exact Vec.Grown.refl _ _
      · exact Or.inr (a7 (by omega))
    refine (E.reserve_runs x.ty n x.s w' (h.swf.weaken a3)).mono ?_ ?_
    · rintro _ s' w'' ⟨b1, b2, b3, b4, b5, b6, b7, b8⟩
      have hss : s'.size = x.s.size := by simp [Vec.size, b1]
      simp only [runs_ite]
      refine ⟨fun hc => ?_, fun hc => ?_⟩
      · obtain ⟨b8, b9⟩ := b8 hc
        rw [runs_bind]
        refine (rebuildIndex_runs E { x with i := i', s := s' } w'' (a2.weaken b3) (by simp; omega)).mono ?_ ?_
        · rintro _ x' w''' ⟨c1, c2, c3, c4, c5, c6⟩
          have c6 := c6 (by simp [hss]; omega)
          have e1 : x'.s = s' := by rw [c1]
          simp only [retSentinel, runs_bind, runs_get, runs_pure]
          simp only [Vec.Same] at c6
          refine ⟨⟨?_, c3, ?_, ?_, ?_, ?_⟩, ⟨by rw [c1], by rw [c1], by rw [c1]⟩, ?_, by omega, ?_, ?_, b6, by omega, ?_, ?_, by trivial, fun h => by omega⟩
          · rw [e1]; exact b2.weaken c4
          · rw [e1]; omega
          · rw [e1, c6.1]; have := a2.lt; omega
          · rw [e1, c2]
          · intro hx
            left
            rw [e1, b9, hx, c6.2]
            omega
          · rw [e1, b1]
          · rw [e1]; exact b4
          · rw [e1]; exact b5
          · rw [e1]; exact Or.inr (by omega)
          · unfold Vec.Grown at *; omega
        · rintro e x' w''' ⟨c1, c2, c3, c4, c5, c6⟩
          exact absurd (by simp [hss]; omega) c5
      · obtain rfl := b7 (by omega)
        simp only [retSentinel, runs_bind, runs_get, runs_pure]
        refine ⟨⟨b2, a2.weaken b3, h.snz, ?_, by simp [a1, h.idx], ?_⟩, ⟨by trivial, by trivial, by trivial⟩, by trivial, by omega, b4, by omega, b6, a4, Vec.Grown.refl _ _, hg, by trivial, fun _ => by trivial⟩
        · simp only [Vec.Grown] at *; omega
        · intro hx
          have := hcap hx
          simp only; omega
    · rintro e s' w'' ⟨rfl, b2, b3⟩
      refine ⟨⟨h.swf.weaken (by omega), a2.weaken b2, h.snz, ?_, by simp [a1, h.idx], ?_⟩, ⟨by trivial, by trivial, by trivial⟩, by trivial, a1, a5, by omega, hg, b3.mono id Or.inl, ?_⟩
      · simp only [Vec.Grown] at *
        omega
      · intro hx
        have := hcap hx
        simp only; omega
      · intro hc
        rw [a6 hc]
  · rintro e i' w' ⟨rfl, a2, a3⟩
    refine ⟨h.weaken E a2, ⟨by trivial, by trivial, by trivial⟩, by trivial, by trivial, Nat.le_refl _, a2, Vec.Grown.refl _ _, ?_, fun _ => by trivial⟩
    unfold Env.IdxExc at a3; unfold ExcFrom; grind

end Split
end PolyColl
