import Verif.Lemmas.SplitOps
/-! # Shrinking and creating split segments -/

namespace PolyColl
namespace Split
open Prog
variable {V : Type} (E : Env V)

theorem inv_of_rebuilt (x x' : Split V) (w w' w0 : World) (h : x.Inv E w0) (s' : Vec V)
    (hs : s'.WF w) (hnz : s'.blk ≠ 0) (hg : Vec.Grown w0 x.s s') (hsz : s'.size = x.s.size)
    (hcap : s'.cap ≤ x.s.cap ∨ (s'.size = 0 ∧ s'.cap = E.lib.reserveCap 1))
    (hx : x' = { x with s := s', i := x'.i }) (hi : x'.i.elems = goodIndex s') (hwi : x'.i.WF w')
    (hww : w.next ≤ w'.next) (hsame : Vec.Same x.i x'.i) : x'.Inv E w' := by
  have e1 : x'.s = s' := by rw [hx]
  have h1 := h.iwf.lt
  have h2 := h.ne
  have h3 := h.cap
  refine ⟨by rw [e1]; exact hs.weaken hww, hwi, by rw [e1]; exact hnz, ?_, by rw [e1, hi], ?_⟩
  · rw [e1, hsame.1]
    simp only [Vec.Grown] at hg; omega
  · intro hex
    rw [e1, hsame.2]
    have := h3 hex
    have := hex 1
    omega

/-- Replacing the index by a new one after the store got a new buffer. -/
theorem newIndex_runs (x : Split V) (w : World) (s' : Vec V)
    (hs : s'.WF w) (hnz : s'.blk ≠ 0) (he : s'.elems = x.s.elems) :
    Runs (do
      if E.idxMaxSize < s'.cap + 1 then Prog.raise .lengthError
      else
        let b ← E.alloc
        Prog.set { x with s := s', i := ⟨b, E.lib.reserveCap (s'.cap + 1), []⟩ }
        buildIndex E 0) { x with s := s' } w
      (fun _ x' w' => x'.Inv E w' ∧ Frame x x' ∧ x'.s = s' ∧ w.next ≤ w'.next ∧
        Vec.Grown w x.i x'.i)
      (fun e x' w' => x' = { x with s := s' } ∧ w.next ≤ w'.next ∧ ExcFrom E x.ty False (E.idxMaxSize < s'.cap + 1) e) := by
  have hsz : s'.size = x.s.size := by simp [Vec.size, he]
  simp only [runs_ite, runs_raise, runs_bind, E.runs_alloc, runs_set]
  refine ⟨fun hm => ⟨by trivial, by omega, ?_⟩, fun _ => ⟨fun hf => ⟨by trivial, by simp, ?_⟩, fun hf => ?_⟩⟩
  · simp [ExcFrom]; omega
  · unfold ExcFrom; exact Or.inl ⟨rfl, _, hf⟩
  · have hge := E.lib.reserveCap_ge (s'.cap + 1)
    have hsl := hs.le
    have hslt := hs.lt
    refine (buildIndex_runs E 0 { x with s := s', i := ⟨w.next, E.lib.reserveCap (s'.cap + 1), []⟩ } _ ?_ hnz).mono ?_ ?_
    · refine ⟨by simp, by simp [Vec.size], by simp; omega⟩
    · rintro _ x' w' ⟨a1, a2, a3, a4, a5, a6⟩
      have a6 := a6 (by simp [Vec.size] at *; omega)
      have e1 : x'.s = s' := by rw [a1]
      simp only [Vec.Same] at a6
      simp only at a4
      refine ⟨⟨by rw [e1]; exact hs.weaken (by omega), a3, by rw [e1]; exact hnz, by rw [e1]; omega, ?_, ?_⟩, ⟨by rw [a1], by rw [a1], by rw [a1]⟩, e1, by omega, Or.inr (by omega)⟩
      · rw [e1, a2]; simp [goodIndex, List.range_eq_range']
      · intro hx; rw [e1, a6.2]; left; exact hge
    · rintro e x' w' ⟨a1, a2, a3, a4, a5, a6⟩
      exact absurd (by simp [Vec.size] at *; omega) a5

theorem shrinkBody_runs (x : Split V) (w : World) (h : x.Inv E w) :
    Runs (shrinkBody E) x w
      (fun _ x' w' => x'.Inv E w' ∧ Frame x x' ∧ x'.s.elems = x.s.elems ∧ w.next ≤ w'.next ∧
        (x'.s.cap ≤ x.s.cap ∨ (x.s.elems = [] ∧ x'.s.cap = E.lib.reserveCap 1)) ∧
        Vec.Grown w x.s x'.s ∧ Vec.Grown w x.i x'.i)
      (fun e x' w' => (∃ s', x' = { x with s := s' } ∧ s'.WF w' ∧ s'.blk ≠ 0 ∧ s'.elems = x.s.elems ∧
        (s'.cap ≤ x.s.cap ∨ (x.s.elems = [] ∧ s'.cap = E.lib.reserveCap 1)) ∧ Vec.Grown w x.s s') ∧
        w.next ≤ w'.next ∧ ExcFrom E x.ty False (E.idxMaxSize ≤ x.s.cap ∨ E.idxMaxSize ≤ E.lib.reserveCap 1) e) := by
  have hs0 := h.swf
  have hnz := h.snz
  have hlt := hs0.lt
  have fin := fun (s' : Vec V) (w' : World) (a2 : s'.WF w') (a3 : s'.blk ≠ 0) (a4 : w.next ≤ s'.blk)
      (a5 : s'.elems = x.s.elems) (a6 : w.next ≤ w'.next)
      (a7 : s'.cap ≤ x.s.cap ∨ (x.s.elems = [] ∧ s'.cap = E.lib.reserveCap 1)) =>
    (newIndex_runs E x w' s' a2 a3 a5).mono
      (Q' := (fun _ x' w' => x'.Inv E w' ∧ Frame x x' ∧ x'.s.elems = x.s.elems ∧ w.next ≤ w'.next ∧
        (x'.s.cap ≤ x.s.cap ∨ (x.s.elems = [] ∧ x'.s.cap = E.lib.reserveCap 1)) ∧
        Vec.Grown w x.s x'.s ∧ Vec.Grown w x.i x'.i))
      (R' := (fun e x' w' => (∃ s', x' = { x with s := s' } ∧ s'.WF w' ∧ s'.blk ≠ 0 ∧ s'.elems = x.s.elems ∧
        (s'.cap ≤ x.s.cap ∨ (x.s.elems = [] ∧ s'.cap = E.lib.reserveCap 1)) ∧ Vec.Grown w x.s s') ∧
        w.next ≤ w'.next ∧ ExcFrom E x.ty False (E.idxMaxSize ≤ x.s.cap ∨ E.idxMaxSize ≤ E.lib.reserveCap 1) e))
      (by
        rintro _ x' w'' ⟨b1, b2, b3, b4, b5⟩
        exact ⟨b1, b2, by rw [b3, a5], by omega, by rw [b3]; exact a7, by rw [b3]; exact Or.inr a4, b5.imp id (by omega)⟩)
      (by
        rintro e x' w'' ⟨b1, b2, b3⟩
        exact ⟨⟨s', b1, a2.weaken b2, a3, a5, a7, Or.inr a4⟩, by omega, b3.mono id (by omega)⟩)
  simp only [runs_bind, runs_ite] at fin
  unfold shrinkBody
  simp only [runs_bind, runs_get, runs_ite, onS, runs_zoom]
  refine ⟨fun he => ?_, fun he => ?_⟩
  · refine (E.shrinkToFit_runs x.ty x.s w hs0).mono ?_ ?_
    · rintro _ s' w' ⟨a1, a2, a3, a4, a5, a6⟩
      have hsz : s'.size = x.s.size := by simp [Vec.size, a1]
      have hpos : 0 < x.s.size := List.length_pos_iff.2 he
      have hle := a2.le
      refine ⟨fun hb => ?_, fun hb => ?_⟩
      · have hnew : w.next ≤ s'.blk := by
          rcases a5 with a5 | a5 | a5
          · exact absurd a5.1.symm hb
          · omega
          · exact a5
        exact fin s' w' a2 (by omega) hnew a1 a3 (Or.inl a4)
      · have hsame : s'.blk = x.s.blk := by simpa using Eq.symm (Decidable.not_not.1 hb)
        have : s' = x.s := by
          rcases a5 with a5 | a5 | a5
          · cases s'; cases hx : x.s
            simp only [Vec.Same, hx] at a5 a1
            simp [a5, a1]
          · omega
          · omega
        subst this
        exact ⟨h.weaken E a3, Frame.refl _, by trivial, a3, Or.inl (Nat.le_refl _), Vec.Grown.refl _ _, Vec.Grown.refl _ _⟩
    · rintro e s' w' ⟨rfl, a2, a3⟩
      exact ⟨⟨x.s, by trivial, hs0.weaken a2, hnz, by trivial, Or.inl (Nat.le_refl _), Vec.Grown.refl _ _⟩, a2, a3.mono id False.elim⟩
  · have he : x.s.elems = [] := by simpa using he
    simp only [E.runs_alloc, runs_set]
    refine ⟨fun hf => ⟨⟨x.s, by trivial, hs0.weaken (by simp), hnz, by trivial, Or.inl (Nat.le_refl _), Vec.Grown.refl _ _⟩, by simp, Or.inl ⟨rfl, _, hf⟩⟩, fun hf => ⟨fun hb => ?_, fun hb => ?_⟩⟩
    · have := E.lib.reserveCap_ge 1
      simpa only [E.runs_alloc, runs_set] using fin ⟨w.next, E.lib.reserveCap 1, []⟩ ⟨w.next + 1, w.tick + 1⟩ ⟨by simp, by simp [Vec.size], by simp; omega⟩ (by simp; omega) (by simp) he.symm (by simp) (Or.inr ⟨he, rfl⟩)
    · simp at hb; omega

theorem shrinkToFit_runs (x : Split V) (w : World) (h : x.Inv E w) :
    Runs (shrinkToFit E) x w
      (fun r x' w' => x'.Inv E w' ∧ Frame x x' ∧ x'.s.elems = x.s.elems ∧ w.next ≤ w'.next ∧
        (x'.s.cap ≤ x.s.cap ∨ (x.s.elems = [] ∧ x'.s.cap = E.lib.reserveCap 1)) ∧
        Vec.Grown w x.s x'.s ∧ Vec.Grown w x.i x'.i ∧ r = x'.sentinel)
      (fun e x' w' => x'.Inv E w' ∧ Frame x x' ∧ x'.s.elems = x.s.elems ∧ w.next ≤ w'.next ∧
        (x'.s.cap ≤ x.s.cap ∨ (x.s.elems = [] ∧ x'.s.cap = E.lib.reserveCap 1)) ∧
        Vec.Grown w x.s x'.s ∧ Vec.Same x.i x'.i ∧ ExcFrom E x.ty False (E.idxMaxSize ≤ x.s.cap ∨ E.idxMaxSize ≤ E.lib.reserveCap 1) e) := by
  have hisz := h.isize
  have hil := h.iwf.le
  unfold shrinkToFit
  simp only [runs_bind, runs_onExc]
  refine (shrinkBody_runs E x w h).mono ?_ ?_
  · rintro _ x' w' ⟨a1, a2, a3, a4, a5, a6, a7⟩
    simp only [retSentinel, runs_bind, runs_get, runs_pure]
    exact ⟨a1, a2, a3, a4, a5, a6, a7, by trivial⟩
  · rintro e x1 w1 ⟨⟨s', rfl, b1, b2, b3, b4, b5⟩, b6, b7⟩
    have hsz : s'.size = x.s.size := by simp [Vec.size, b3]
    refine (rebuildIndex_runs E { x with s := s' } w1 (h.iwf.weaken b6) b2).mono ?_ ?_
    · rintro _ x' w' ⟨c1, c2, c3, c4, c5, c6⟩
      have c6 := c6 (by simp only; omega)
      have e1 : x'.s = s' := by rw [c1]
      refine ⟨inv_of_rebuilt E x x' w1 w' w h s' b1 b2 b5 hsz (b4.imp id (fun hh => ⟨by simp [Vec.size, b3, hh.1], hh.2⟩)) c1 c2 c3 c4 c6, ⟨by rw [c1], by rw [c1], by rw [c1]⟩, by rw [e1, b3], by omega, by rw [e1]; exact b4, by rw [e1]; exact b5, c6, b7⟩
    · rintro e x' w' ⟨c1, c2, c3, c4, c5, c6⟩
      exact absurd (by simp only; omega) c5

/-- Creation of a segment on a given store. -/
theorem init_runs {X : Type} (t : Ty) (al oal : Alloc) (s : Vec V) (x : X) (w : World) (hs : s.WF w)
    (hc : ExactReserve E → s.cap = s.size ∨ (s.size = 0 ∧ s.cap ≤ 1)) :
    Runs (init E t al oal s : Prog X (Split V)) x w
      (fun y x' w' => x' = x ∧ y.Inv E w' ∧ y.ty = t ∧ y.al = al ∧ y.objAl = oal ∧ y.s.elems = s.elems ∧
        w.next ≤ w'.next ∧ Vec.Grown w s y.s ∧ w.next ≤ y.i.blk ∧
        (1 ≤ s.cap → y.s = s) ∧ (s.cap = 0 → y.s.cap = E.lib.reserveCap 1))
      (fun e x' w' => x' = x ∧ w.next ≤ w'.next ∧ ExcFrom E t False (E.TooMany t (max 1 s.size)) e) := by
  have key : Runs (do onS (E.reserve t 1); buildIndex E 0 : Prog (Split V) Unit) ⟨t, al, oal, s, Vec.nil⟩ w
      (fun _ y w' => y.Inv E w' ∧ y.ty = t ∧ y.al = al ∧ y.objAl = oal ∧ y.s.elems = s.elems ∧
        w.next ≤ w'.next ∧ Vec.Grown w s y.s ∧ w.next ≤ y.i.blk ∧
        (1 ≤ s.cap → y.s = s) ∧ (s.cap = 0 → y.s.cap = E.lib.reserveCap 1))
      (fun e _ w' => w.next ≤ w'.next ∧ ExcFrom E t False (E.TooMany t (max 1 s.size)) e) := by
    simp only [runs_bind, onS, runs_zoom]
    refine (E.reserve_runs t 1 s w hs).mono ?_ ?_
    · rintro _ s' w' ⟨b1, b2, b3, b4, b5, b6, b7, b8⟩
      have hlt := b2.lt
      have hnz : s'.blk ≠ 0 := by rw [Ne, b2.nul]; omega
      have hss : s'.size = s.size := by simp [Vec.size, b1]
      refine (buildIndex_runs E 0 ⟨t, al, oal, s', Vec.nil⟩ w' (Vec.nil_WF (by omega)) hnz).mono ?_ ?_
      · rintro _ y w'' ⟨c1, c2, c3, c4, c5, c6⟩
        have e1 : y.s = s' := by rw [c1]
        have hidx : y.i.elems = goodIndex s' := by
          rw [c2]; simp [goodIndex, Vec.nil, List.range_eq_range']
        have hisz : y.i.size = s'.size + 1 := by simp [Vec.size, hidx, goodIndex]
        have hile := c3.le
        have hib : w'.next ≤ y.i.blk := by
          rcases c5 with c5 | c5
          · have := c3.nul.1 (by rw [c5]; rfl); omega
          · exact c5
        refine ⟨⟨by rw [e1]; exact b2.weaken c4, c3, by rw [e1]; exact hnz, by rw [e1]; omega, by rw [e1]; exact hidx, ?_⟩, by rw [c1], by rw [c1], by rw [c1], by rw [e1, b1], by omega, ?_, by omega, ?_, ?_⟩
        · intro hx
          rw [e1]
          have := hc hx
          have := hx 1
          by_cases h1 : 1 ≤ s.cap
          · obtain rfl := b7 h1
            omega
          · have := (b8 (by omega)).2
            have := hs.le
            omega
        · rw [e1]
          by_cases h1 : 1 ≤ s.cap
          · rw [b7 h1]; exact Vec.Grown.refl _ _
          · exact Or.inr (b8 (by omega)).1
        · rw [e1]; exact b7
        · intro h0; rw [e1]; exact (b8 (by omega)).2
      · rintro e y w'' ⟨c1, c2, c3, c4, c5, c6⟩
        exact ⟨by omega, c6.1.from (by simp only [Vec.size, Vec.nil, List.length_nil]; unfold Env.TooMany; simp only [Vec.size] at hss; omega)⟩
    · rintro e s' w' ⟨b1, b2, b3⟩
      exact ⟨b2, b3.mono id (fun h => Or.inl (by omega))⟩
  exact runs_locally.2 (Runs.mono key (fun _ _ _ h => ⟨rfl, h⟩) (fun _ _ _ h => ⟨rfl, h⟩))

theorem make_runs {X : Type} (t : Ty) (al : Alloc) (x : X) (w : World) :
    Runs (make E t al : Prog X (Split V)) x w
      (fun y x' w' => x' = x ∧ y.Inv E w' ∧ y.ty = t ∧ y.al = al ∧ y.objAl = al ∧ y.s.elems = [] ∧
        w.next ≤ w'.next ∧ w.next ≤ y.s.blk ∧ w.next ≤ y.i.blk ∧ y.s.cap = E.lib.reserveCap 1)
      (fun e x' w' => x' = x ∧ w.next ≤ w'.next ∧ ExcFrom E t False (E.TooMany t 1) e) := by
  unfold make
  simp only [runs_bind, E.runs_alloc]
  refine ⟨fun hf => ⟨by trivial, by simp, Or.inl ⟨rfl, _, hf⟩⟩, fun hf => ?_⟩
  refine (init_runs E t al al Vec.nil x _ (Vec.nil_WF (by simp)) (fun _ => Or.inl rfl)).mono ?_ ?_
  · rintro y x' w' ⟨a0, a1, a2, a3, a4, a5, a6, a7, a8, a9, a10⟩
    simp only at a6 a8
    refine ⟨a0, a1, a2, a3, a4, a5, by omega, ?_, by omega, a10 rfl⟩
    have := a1.snz
    simp only [Vec.Grown] at a7
    have e0 : (Vec.nil : Vec V).blk = 0 := rfl
    omega
  · rintro e x' w' ⟨a0, a1, a2⟩
    simp only at a1
    exact ⟨a0, by omega, a2⟩

theorem copyTo_runs {X : Type} (x : Split V) (al oal : Alloc) (z : X) (w : World) (hw : 0 < w.next) :
    Runs (do
      let s ← E.copyVec x.ty x.s
      let _ ← E.alloc
      init E x.ty al oal s : Prog X (Split V)) z w
      (fun y z' w' => z' = z ∧ y.Inv E w' ∧ y.ty = x.ty ∧ y.al = al ∧ y.objAl = oal ∧ y.s.elems = x.s.elems ∧
        w.next ≤ w'.next ∧ w.next ≤ y.s.blk ∧ w.next ≤ y.i.blk ∧
        (x.s.elems ≠ [] → (E.traits x.ty).copyable = true))
      (fun e z' w' => z' = z ∧ w.next ≤ w'.next ∧ ExcFrom E x.ty (x.s.elems ≠ []) (E.TooMany x.ty (max 1 x.s.size)) e) := by
  simp only [runs_bind, E.runs_alloc]
  refine (E.copyVec_runs x.ty x.s z w hw).mono ?_ ?_
  · rintro s z1 w1 ⟨rfl, a1, a2, a3, a4, a5, a6⟩
    refine ⟨fun hf => ⟨by trivial, a3, Or.inl ⟨rfl, _, hf⟩⟩, fun hf => ?_⟩
    refine (init_runs E x.ty al oal s z1 _ (a2.weaken (by simp)) (fun _ => Or.inl ?_)).mono ?_ ?_
    · simp only [Vec.size, a1] at *; exact a5
    · rintro y x' w' ⟨b0, b1, b2, b3, b4, b5, b6, b7, b8, b9, b10⟩
      simp only at b6 b8
      refine ⟨b0, b1, b2, b3, b4, by rw [b5, a1], by omega, ?_, by omega, a6⟩
      have := b1.snz
      simp only [Vec.Grown] at b7
      omega
    · rintro e x' w' ⟨b0, b1, b2⟩
      simp only at b1
      exact ⟨b0, by omega, b2.mono False.elim (by simp only [Vec.size, a1]; exact id)⟩
  · rintro e z1 w1 ⟨rfl, a1, a2, a3⟩
    exact ⟨by trivial, a1, a3.mono (fun _ => a2) False.elim⟩

theorem move_runs (al : Alloc) (x : Split V) (w : World) (hs : x.s.WF w)
    (hc : ExactReserve E → x.al = al → x.s.cap = x.s.size ∨ (x.s.size = 0 ∧ x.s.cap ≤ 1)) :
    Runs (move E al) x w
      (fun y x' w' => y.Inv E w' ∧ y.ty = x.ty ∧ y.al = al ∧ y.objAl = al ∧ y.s.elems = x.s.elems ∧
        w.next ≤ w'.next ∧ (w.next ≤ y.s.blk ∨ (x.al = al ∧ y.s = x.s)) ∧ w.next ≤ y.i.blk ∧
        (∃ s', x' = { x with s := s' } ∧ s'.elems = [] ∧ s'.WF w' ∧ (s'.blk = x.s.blk ∨ s'.blk = 0)))
      (fun e x' w' => w.next ≤ w'.next ∧ (∃ s', x' = { x with s := s' } ∧ s'.WF w' ∧
          (s'.size = x.s.size ∨ s'.size = 0) ∧ (s'.blk = x.s.blk ∨ s'.blk = 0)) ∧
        ExcFrom E x.ty False (E.TooMany x.ty (max 1 x.s.size)) e) := by
  unfold move
  simp only [runs_bind, runs_get, onS, runs_zoom, E.runs_alloc]
  refine (E.moveVec_runs x.ty _ x.s w hs).mono ?_ ?_
  · rintro s s1 w1 ⟨a1, a2, a3, a4, a5, a6, a7⟩
    have hb : s1.blk = x.s.blk ∨ s1.blk = 0 := by
      by_cases h : x.al = al
      · right; rw [(a6 (by simp [h])).2]; rfl
      · left; exact (a7 (by simp [h])).2.1
    refine ⟨fun hf => ⟨a5, ⟨s1, by trivial, a4.weaken (by simp), Or.inr (by simp [Vec.size, a2]), hb⟩, Or.inl ⟨rfl, _, hf⟩⟩, fun hf => ?_⟩
    refine (init_runs E x.ty al al s _ _ (a3.weaken (by simp)) ?_).mono ?_ ?_
    · intro hx
      by_cases h : x.al = al
      · rw [(a6 (by simp [h])).1]; exact hc hx h
      · have := (a7 (by simp [h])).2.2
        left; simp only [Vec.size, a1] at *; exact this
    · rintro y x' w' ⟨rfl, b1, b2, b3, b4, b5, b6, b7, b8, b9, b10⟩
      simp only at b6 b8
      refine ⟨b1, b2, b3, b4, by rw [b5, a1], by omega, ?_, by omega, s1, by trivial, a2, a4.weaken (by omega), hb⟩
      have hnz := b1.snz
      simp only [Vec.Grown] at b7
      by_cases h : x.al = al
      · have h1 := (a6 (by simp [h])).1
        by_cases h2 : 1 ≤ s.cap
        · right; exact ⟨h, by rw [b9 h2, h1]⟩
        · have : s.blk = 0 := by rw [a3.nul]; omega
          omega
      · have := (a7 (by simp [h])).1
        omega
    · rintro e x' w' ⟨rfl, b1, b2⟩
      simp only at b1
      exact ⟨by omega, ⟨s1, by trivial, a4.weaken (by omega), Or.inr (by simp [Vec.size, a2]), hb⟩, b2.mono id (by simp only [Vec.size, a1]; exact id)⟩
  · rintro e s1 w1 ⟨a1, a2, a3, a4, a5, a6, a7⟩
    refine ⟨a3, ⟨s1, by trivial, ⟨by have := hs.lt; rw [a1.1]; omega, by have := hs.le; rw [a1.2]; omega, by rw [a1.1, a1.2]; exact hs.nul⟩, Or.inl a2, Or.inl a1.1⟩, ?_⟩
    unfold ExcFrom; grind

end Split
end PolyColl
