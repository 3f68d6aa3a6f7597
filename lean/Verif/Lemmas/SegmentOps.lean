import Verif.Lemmas.Segment
/-! # Segment operations -/

namespace PolyColl
open Prog
namespace Seg
variable {V : Type} (E : Env V)

/-- `p` is the position argument for position `k`. -/
def PosIs (x : Seg V) (p : PosArg) (k : Nat) : Prop :=
  k ≤ x.size ∧ match p with
    | .base q => q = x.base k
    | .loc q => q = x.loc k

theorem insPacked {y : Packed V} {s' : Vec V} {w w' : World} {k : Nat} {vs : List V} {p : Ptr}
    (h1 : s'.elems = y.s.elems.take k ++ vs ++ y.s.elems.drop k) (h2 : s'.WF w') (h3 : w.next ≤ w'.next)
    (h4 : y.s.size + vs.length ≤ y.s.cap → Vec.Same y.s s')
    (h5 : ¬ y.s.size + vs.length ≤ y.s.cap → w.next ≤ s'.blk) :
    Ins E ⟨.packed y, p⟩ w k vs ⟨.packed { y with s := s' }, s'.ptr s'.size⟩ w' := by
  refine ⟨⟨h2, rfl⟩, stepPacked ?_, h3, h1, h4, fun _ _ hc => ?_⟩
  · by_cases hc : y.s.size + vs.length ≤ y.s.cap
    · exact Or.inl (h4 hc).1
    · exact Or.inr (Or.inr (h5 hc))
  · have := h4 hc
    simp [begin, Backend.begin, Packed.begin, Vec.ptr, this.1]

theorem packedEmplace_runs (y : Packed V) (p : Ptr) (k : Nat) (src : Src V) (v : V) (snt : Ptr) (w : World)
    (h : y.s.WF w) (hp : y.s.posOf p = some k) (hv : src.val y.s = some v) :
    Runs (Packed.emplaceAt E p src) y w
      (fun r y' w' => Ins E ⟨.packed y, snt⟩ w k [v] ⟨.packed y', r.2⟩ w' ∧ r.1 = Seg.base ⟨.packed y', r.2⟩ k ∧
        (src.copies → (E.traits y.ty).copyable = true))
      (fun e y' w' => Fail E ⟨.packed y, snt⟩ w src.copies (E.shiftThrows y.ty ∧ k < y.s.size) e ⟨.packed y', snt⟩ w') := by
  have hk := (Vec.posOf_eq_some.1 hp).2
  unfold Packed.emplaceAt
  simp only [runs_bind, runs_get, Packed.iteratorFrom, hp, runs_some, Packed.onS, runs_zoom, Packed.retRange, runs_pure]
  refine (E.emplaceAt_runs y.ty k src y.s w h v hk hv).mono ?_ ?_
  · rintro _ s' w' ⟨a1, a2, a3, a4, a5, a6⟩
    refine ⟨insPacked E ?_ a2 a3 (fun hc => a4 (by simp at hc; omega)) (fun hc => (a5 (by simp at hc; omega)).1), rfl, a6⟩
    rw [a1, Split.insertIdx_take_drop _ _ _ hk]; simp
  · rintro e s' w' ⟨a1, a2, a3⟩
    refine ⟨stepPacked ?_, a2, a3.mono id (fun h => Or.inl (Nat.lt_succ_of_le h)), fun _ hb => ?_, fun _ hb _ => ?_, fun t he => ?_, ?_⟩
    · rcases a1 with rfl | a1
      · exact Or.inl rfl
      · exact Or.inl a1.2.2.2.2.1.1
    · rcases a1 with rfl | a1
      · exact ⟨h.weaken a2, rfl, rfl⟩
      · exact absurd ⟨a1.1, a1.2.1⟩ hb
    · rcases a1 with rfl | a1
      · rfl
      · exact absurd ⟨a1.1, a1.2.1⟩ hb
    · rcases a1 with rfl | a1
      · exact ⟨h.weaken a2, rfl⟩
      · rw [a1.2.2.2.1] at he; cases he
    · rcases a1 with rfl | ⟨-, -, a4, -, a5, -, a6⟩
      · exact h.weaken a2
      · exact ⟨by rw [a5.1]; exact Nat.lt_of_lt_of_le h.lt a2, by rw [a5.2]; exact Nat.le_trans a6 a4, by rw [a5.1, a5.2]; exact h.nul⟩

theorem splitEmplace_runs (y : Split V) (p : PosArg) (k : Nat) (src : Src V) (v : V) (snt : Ptr) (w : World)
    (h : y.Inv E w) (hp : y.iteratorFrom p = some k) (hv : src.val y.s = some v)
    (hx : src.ext = true ∨ y.s.size < y.s.cap) :
    Runs (Split.emplaceAt E p src) y w
      (fun r y' w' => Ins E ⟨.split y, snt⟩ w k [v] ⟨.split y', r.2⟩ w' ∧ r.1 = Seg.base ⟨.split y', r.2⟩ k ∧
        (src.copies → (E.traits y.ty).copyable = true))
      (fun e y' w' => Fail E ⟨.split y, snt⟩ w src.copies (E.shiftThrows y.ty ∧ k < y.s.size) e ⟨.split y', snt⟩ w') := by
  refine (Split.emplaceAt_runs E p k src v y w h hp hv hx).mono ?_ ?_
  · rintro r y' w' ⟨a1, rfl, a3⟩
    exact ⟨insSplit E rfl h (inserted_list E (Split.iteratorFrom_lt hp) a1), rfl, a3⟩
  · intro e y' w' hf
    exact failSplit E hf

/-- The iterators of a segment and the backend's own position arithmetic. -/
theorem iteratorFrom_of_posIs {y : Split V} {snt : Ptr} {p : PosArg} {k : Nat}
    (hp : PosIs (⟨.split y, snt⟩ : Seg V) p k) : y.iteratorFrom p = some k := by
  obtain ⟨h1, h2⟩ := hp
  simp only [size, Backend.store] at h1
  cases p with
  | base q =>
    simp only at h2
    subst h2
    simp [Split.iteratorFrom, base, begin, Backend.begin, Split.begin, Vec.ptr, h1]
  | loc q =>
    simp only at h2
    subst h2
    exact Vec.posOf_ptr h1

theorem posOf_of_posIs {y : Packed V} {snt : Ptr} {p : PosArg} {k : Nat}
    (hp : PosIs (⟨.packed y, snt⟩ : Seg V) p k) : y.s.posOf p.ptr = some k := by
  obtain ⟨h1, h2⟩ := hp
  simp only [size, Backend.store] at h1
  cases p with
  | base q =>
    simp only at h2
    subst h2
    exact Vec.posOf_ptr h1
  | loc q =>
    simp only at h2
    subst h2
    exact Vec.posOf_ptr h1

/-- The source may refer to an element of the segment only if that is safe. -/
def SrcOK (x : Seg V) (src : Src V) (v : V) : Prop :=
  src.val x.be.store = some v ∧ (src.ext = true ∨ x.kind = .packed ∨ x.size < x.capacity)

theorem emplace_runs (x : Seg V) (w : World) (h : x.Core E w) (p : PosArg) (k : Nat) (hp : x.PosIs p k)
    (src : Src V) (v : V) (hs : x.SrcOK src v) :
    Runs (emplace E p src) x w
      (fun r x' w' => Ins E x w k [v] x' w' ∧ r = x'.base k ∧ (src.copies → (E.traits x.ty).copyable = true))
      (Fail E x w src.copies (E.shiftThrows x.ty ∧ k < x.size)) := by
  obtain ⟨be, snt⟩ := x
  unfold emplace
  rw [runs_filterRange]
  cases be with
  | packed y => exact Backend.run_packed.2 (packedEmplace_runs E y p.ptr k src v snt w h (posOf_of_posIs hp) hs.1)
  | split y =>
    refine Backend.run_split.2 (splitEmplace_runs E y p k src v snt w h (iteratorFrom_of_posIs hp) hs.1 ?_)
    rcases hs.2 with h | h | h
    · exact Or.inl h
    · simp [kind, Backend.kind] at h
    · exact Or.inr h

theorem insertLocal_runs (x : Seg V) (w : World) (h : x.Core E w) (k : Nat) (hk : k ≤ x.size)
    (src : Src V) (v : V) (hs : x.SrcOK src v) :
    Runs (insertLocal E (x.loc k) src) x w
      (fun r x' w' => Ins E x w k [v] x' w' ∧ r = x'.base k ∧ (src.copies → (E.traits x.ty).copyable = true))
      (Fail E x w src.copies (E.shiftThrows x.ty ∧ k < x.size)) :=
  emplace_runs E x w h (.loc (x.loc k)) k ⟨hk, rfl⟩ src v hs

theorem insertBase_runs (x : Seg V) (w : World) (h : x.Core E w) (k : Nat) (hk : k ≤ x.size)
    (src : Src V) (v : V) (hs : x.SrcOK src v) :
    Runs (insertBase E (x.base k) src) x w
      (fun r x' w' => Ins E x w k [v] x' w' ∧ r = x'.base k ∧ (src.copies → (E.traits x.ty).copyable = true))
      (Fail E x w src.copies (E.shiftThrows x.ty ∧ k < x.size)) := by
  have hl := toLocal E h hk
  have he := emplace_runs E x w h (.loc (x.loc k)) k ⟨hk, rfl⟩ src v hs
  have hb := emplace_runs E x w h (.base (x.base k)) k ⟨hk, rfl⟩ src v hs
  obtain ⟨be, snt⟩ := x
  unfold insertBase
  unfold emplace at he hb
  rw [runs_filterRange] at he hb ⊢
  cases be with
  | packed y =>
    have := Backend.run_packed.1 hb
    exact Backend.run_packed.2 this
  | split y =>
    have := Backend.run_split.1 he
    refine Backend.run_split.2 ?_
    simp only [Backend.toLocal] at hl
    simp only [runs_bind, runs_get]
    rw [hl]
    exact this

theorem pushBack_runs (x : Seg V) (w : World) (h : x.Core E w) (src : Src V) (v : V) (hs : x.SrcOK src v) :
    Runs (pushBack E src) x w
      (fun r x' w' => Ins E x w x.size [v] x' w' ∧ r = x'.base x.size ∧ (src.copies → (E.traits x.ty).copyable = true))
      (Fail E x w src.copies False) := by
  obtain ⟨be, snt⟩ := x
  unfold pushBack
  rw [runs_filterRange]
  cases be with
  | packed y =>
    refine Backend.run_packed.2 ?_
    unfold Packed.pushBack
    simp only [runs_bind, runs_get, Packed.onS, runs_zoom, Packed.retRange, runs_pure]
    refine (E.emplaceBack_runs y.ty src y.s w h v hs.1).mono ?_ ?_
    · rintro _ s' w' ⟨a1, a2, a3, a4, a5, a6⟩
      refine ⟨insPacked E ?_ a2 a3 (fun hc => a4 (by simp at hc; omega)) (fun hc => (a5 (by simp at hc; omega)).1), ?_, a6⟩
      · rw [a1]; simp [size, Backend.store, Vec.size]
      · have : s'.size - 1 = y.s.size := by simp [Vec.size, a1]
        simp [Packed.rangeFrom, this]
        rfl
    · rintro e s' w' ⟨rfl, a2, a3⟩
      exact ⟨Step.refl _ _, a2, a3.mono id (fun h => Or.inl (Nat.lt_succ_of_le h)), fun _ hb => ⟨Vec.WF.weaken h a2, rfl, rfl⟩, fun _ hb _ => rfl,
        fun _ _ => ⟨Vec.WF.weaken h a2, rfl⟩, Vec.WF.weaken h a2⟩
  | split y =>
    refine Backend.run_split.2 ?_
    refine (Split.pushBack_runs E src v y w h hs.1 ?_).mono ?_ ?_
    · rcases hs.2 with h | h | h
      · exact Or.inl h
      · simp [kind, Backend.kind] at h
      · exact Or.inr h
    · rintro r y' w' ⟨a1, rfl, a3⟩
      exact ⟨insSplit E rfl h (inserted_list E (Nat.le_refl _) a1), rfl, a3⟩
    · intro e y' w' hf
      exact failSplit E hf

/-! ### Ranges -/

theorem FailRange.strong {x x' : Seg V} {w w' : World} {f f' c : Prop} {m : Nat} {e : Exc} (h : FailRange E x w f c m e x' w')
    (hf : f' → f) : FailRange E x w f' c m e x' w' := ⟨h.step, h.next, h.exc, fun h' => h.same (hf h'), h.weak⟩

theorem splitRange_runs (fwd : Bool) (y : Split V) (snt : Ptr) (w : World) (h : y.Inv E w) (k : Nat) (hk : k ≤ y.s.size)
    (srcs : List (Src V)) (vs : List V) (hext : ∀ src ∈ srcs, src.ext = true)
    (hv : srcs.map (Src.val y.s) = vs.map some) :
    Runs (if fwd then Split.insertForward E (y.s.ptr k) srcs else Split.insertInput E (y.s.ptr k) srcs) y w
      (fun r y' w' => Ins E ⟨.split y, snt⟩ w k vs ⟨.split y', r.2⟩ w' ∧ r.1 = Seg.base ⟨.split y', r.2⟩ k ∧
        ((∃ src ∈ srcs, src.copies) → (E.traits y.ty).copyable = true))
      (fun e y' w' => FailRange E ⟨.split y, snt⟩ w (fwd = true ∧ k = y.s.size) (∃ src ∈ srcs, src.copies) vs.length e ⟨.split y', snt⟩ w') := by
  cases fwd with
  | true =>
    refine (Split.insertForward_runs E srcs vs k y w h hk hext hv).mono ?_ ?_
    · rintro r y' w' ⟨a1, rfl, a3⟩
      exact ⟨insSplit E rfl h a1, rfl, a3⟩
    · rintro e y' w' ⟨a1, a2, a3, a4, a5, a6, a7⟩
      refine ⟨stepSplit a1 a3 a4, a2, a5, fun hf hc => ?_, a7⟩
      rcases hc with hc | hc
      · simp [kind, Backend.kind] at hc
      · rw [(a6 hc.1).2.2 hf.2 hc.2]
  | false =>
    refine (Split.insertInput_runs E srcs vs k y w h hk hext hv).mono ?_ ?_
    · rintro r y' w' ⟨a1, rfl, a3⟩
      exact ⟨insSplit E rfl h a1, rfl, a3⟩
    · rintro e y' w' ⟨a1, a2, a3, a4, a5, a6, a7⟩
      exact ⟨stepSplit a1 a3 a4, a2, a5, fun hf => by simp at hf, a7⟩

theorem packedRange_runs (fwd : Bool) (y : Packed V) (snt : Ptr) (w : World) (h : y.s.WF w) (k : Nat) (hk : k ≤ y.s.size)
    (srcs : List (Src V)) (vs : List V) (hext : ∀ src ∈ srcs, src.ext = true) (hv : srcs.map (Src.val y.s) = vs.map some) :
    Runs (Packed.insertRange E fwd (y.s.ptr k) srcs) y w
      (fun r y' w' => Ins E ⟨.packed y, snt⟩ w k vs ⟨.packed y', r.2⟩ w' ∧ r.1 = Seg.base ⟨.packed y', r.2⟩ k ∧
        ((∃ src ∈ srcs, src.copies) → (E.traits y.ty).copyable = true))
      (fun e y' w' => FailRange E ⟨.packed y, snt⟩ w (fwd = true ∧ k = y.s.size) (∃ src ∈ srcs, src.copies) vs.length e ⟨.packed y', snt⟩ w') := by
  unfold Packed.insertRange
  simp only [runs_bind, runs_get, Packed.iteratorFrom, Vec.posOf_ptr hk, runs_some, Packed.onS, runs_zoom, Packed.retRange, runs_pure]
  have hlen : srcs.length = vs.length := by have := congrArg List.length hv; simpa using this
  cases fwd with
  | true =>
    refine (E.insertRange_runs y.ty k srcs y.s w h vs hk hv).mono ?_ ?_
    · rintro _ s' w' ⟨a1, a2, a3, a4, a5, a6⟩
      exact ⟨insPacked E a1 a2 a3 (fun hc => a4 (by omega)) (fun hc => (a5 (by omega)).1), rfl, a6⟩
    · rintro e s' w' ⟨a1, a2, a3⟩
      refine ⟨stepPacked ?_, a2, a3.mono id (by rw [hlen]; exact Or.inl), fun hh _ => ?_, ?_⟩
      · rcases a1 with rfl | a1
        · exact Or.inl rfl
        · exact Or.inl a1.2.2.1.1
      · rcases a1 with rfl | a1
        · rfl
        · omega
      · rcases a1 with rfl | ⟨-, a4, a5, -, a6⟩
        · exact h.weaken a2
        · exact ⟨by rw [a5.1]; exact Nat.lt_of_lt_of_le h.lt a2, by rw [a5.2]; exact Nat.le_trans a6 a4, by rw [a5.1, a5.2]; exact h.nul⟩
  | false =>
    refine (E.insertInput_runs y.ty k srcs y.s w h vs hk hext hv).mono ?_ ?_
    · rintro _ s' w' ⟨a1, a2, a3, a4, a5, a6⟩
      exact ⟨insPacked E a1 a2 a3 (fun hc => a4 (by omega)) (fun hc => a5 (by omega)), rfl, a6⟩
    · rintro e s' w' ⟨a1, a2, a3, a4, a5⟩
      exact ⟨stepPacked (a4.imp id Or.inr), a3, a5.mono id (by rw [hlen]; exact Or.inl), fun hf => by simp at hf, a1⟩

theorem insertRangeLocal_runs (fwd : Bool) (x : Seg V) (w : World) (h : x.Core E w) (k : Nat) (hk : k ≤ x.size)
    (srcs : List (Src V)) (vs : List V) (hext : ∀ src ∈ srcs, src.ext = true)
    (hv : srcs.map (Src.val x.be.store) = vs.map some) :
    Runs (insertRangeLocal E fwd (x.loc k) srcs) x w
      (fun r x' w' => Ins E x w k vs x' w' ∧ r = x'.base k ∧ ((∃ src ∈ srcs, src.copies) → (E.traits x.ty).copyable = true))
      (FailRange E x w (fwd = true ∧ k = x.size) (∃ src ∈ srcs, src.copies) vs.length) := by
  obtain ⟨be, snt⟩ := x
  unfold insertRangeLocal
  rw [runs_filterRange]
  cases be with
  | packed y => exact Backend.run_packed.2 (packedRange_runs E fwd y snt w h k hk srcs vs hext hv)
  | split y => exact Backend.run_split.2 (splitRange_runs E fwd y snt w h k hk srcs vs hext hv)

theorem insertRangeEnd_runs (fwd : Bool) (x : Seg V) (w : World) (h : x.Core E w)
    (srcs : List (Src V)) (vs : List V) (hext : ∀ src ∈ srcs, src.ext = true)
    (hv : srcs.map (Src.val x.be.store) = vs.map some) :
    Runs (insertRangeEnd E fwd srcs) x w
      (fun r x' w' => Ins E x w x.size vs x' w' ∧ r = x'.base x.size ∧ ((∃ src ∈ srcs, src.copies) → (E.traits x.ty).copyable = true))
      (FailRange E x w (fwd = true) (∃ src ∈ srcs, src.copies) vs.length) := by
  obtain ⟨be, snt⟩ := x
  unfold insertRangeEnd
  rw [runs_filterRange]
  cases be with
  | packed y => exact Backend.run_packed.2 ((packedRange_runs E fwd y snt w h y.s.size (Nat.le_refl _) srcs vs hext hv).mono (fun _ _ _ h => h) (fun _ _ _ h => h.strong E (fun hf => ⟨hf, rfl⟩)))
  | split y => exact Backend.run_split.2 ((splitRange_runs E fwd y snt w h y.s.size (Nat.le_refl _) srcs vs hext hv).mono (fun _ _ _ h => h) (fun _ _ _ h => h.strong E (fun hf => ⟨hf, rfl⟩)))

theorem insertRangeBase_runs (fwd : Bool) (x : Seg V) (w : World) (h : x.Core E w) (k : Nat) (hk : k ≤ x.size)
    (srcs : List (Src V)) (vs : List V) (hext : ∀ src ∈ srcs, src.ext = true)
    (hv : srcs.map (Src.val x.be.store) = vs.map some) :
    Runs (insertRangeBase E fwd (x.base k) srcs) x w
      (fun r x' w' => Ins E x w k vs x' w' ∧ r = x'.base k ∧ ((∃ src ∈ srcs, src.copies) → (E.traits x.ty).copyable = true))
      (FailRange E x w (fwd = true ∧ k = x.size) (∃ src ∈ srcs, src.copies) vs.length) := by
  unfold insertRangeBase
  simp only [runs_bind, runs_get, toLocal E h hk, runs_some]
  exact insertRangeLocal_runs E fwd x w h k hk srcs vs hext hv

/-! ### Erasure -/

theorem remSplit {y y' : Split V} {w w' : World} {l : List V} {p : Ptr} (hw : w'.next = w.next)
    (h : Split.Removed E y l y' w') : Rem E ⟨.split y, p⟩ w l ⟨.split y', y'.sentinel⟩ w' :=
  ⟨⟨h.inv, rfl⟩, stepSplit h.frame h.sames.grown h.samei.grown, hw, h.elems, h.sames, by
    simp [begin, Backend.begin, Split.begin, Vec.ptr, h.samei.1]⟩

theorem remPacked {y : Packed V} {s' : Vec V} {w w' : World} {l : List V} {p : Ptr} (h : y.s.WF w) (hw : w'.next = w.next)
    (hl : s'.elems = l) (hs : Vec.Same y.s s') (hle : l.length ≤ y.s.size) :
    Rem E ⟨.packed y, p⟩ w l ⟨.packed { y with s := s' }, s'.ptr s'.size⟩ w' := by
  refine ⟨⟨⟨by rw [hs.1, hw]; exact h.lt, ?_, by rw [hs.1, hs.2]; exact h.nul⟩, rfl⟩, stepPacked (Or.inl hs.1), hw, hl, hs, ?_⟩
  · have := h.le; rw [hs.2]; simp only [Vec.size, hl] at *; omega
  · simp [begin, Backend.begin, Packed.begin, Vec.ptr, hs.1]

theorem remFailPacked {y : Packed V} {s' : Vec V} {w w' : World} {e : Exc} {p : Ptr}
    (h1 : (E.traits y.ty).nothrowAssign = false) (h2 : e = .user) (h3 : ∃ n, E.fault n = true)
    (h : y.s.WF w) (hw : w'.next = w.next) (hs : Vec.Same y.s s') (hl : s'.size = y.s.size) :
    RemFail E ⟨.packed y, p⟩ w e ⟨.packed { y with s := s' }, p⟩ w' :=
  ⟨h1, h2, h3, stepPacked (Or.inl hs.1), hw, hl, hs, by simp [begin, Backend.begin, Packed.begin, Vec.ptr, hs.1], rfl,
    ⟨by rw [hs.1, hw]; exact h.lt, by rw [hs.2]; exact Nat.le_trans (Nat.le_of_eq hl) h.le, by rw [hs.1, hs.2]; exact h.nul⟩⟩

/-- After a failed erasure the segment keeps its invariant, except when a single element is erased
from a split segment (where the index is left one entry short). -/
theorem eraseLocal_runs (x : Seg V) (w : World) (h : x.Core E w) (k : Nat) (hk : k < x.size) :
    Runs (eraseLocal E (x.loc k)) x w
      (fun r x' w' => Rem E x w (x.elems.eraseIdx k) x' w' ∧ r = x'.base k)
      (fun e x' w' => RemFail E x w e x' w' ∧ k + 1 < x.size ∧ (x.kind = .packed → x'.Core E w')) := by
  obtain ⟨be, snt⟩ := x
  unfold eraseLocal
  rw [runs_filterRange]
  cases be with
  | packed y =>
    have h : y.s.WF w := h
    have hk : k < y.s.size := hk
    refine Backend.run_packed.2 ?_
    unfold Packed.erase
    have hpos : y.s.posOf (Seg.loc (⟨.packed y, snt⟩ : Seg V) k) = some k := Vec.posOf_ptr (by omega)
    simp only [runs_bind, runs_get, Packed.iteratorFrom, hpos, runs_some, Packed.onS, runs_zoom, Packed.retRange, runs_pure]
    refine (E.eraseAt_runs y.ty k y.s w hk).mono ?_ ?_
    · rintro _ s' w' ⟨a1, a2, a3⟩
      refine ⟨remPacked E h a3 a1 a2 ?_, rfl⟩
      show (y.s.elems.eraseIdx k).length ≤ _
      rw [List.length_eraseIdx]; simp only [Vec.size]; split <;> omega
    · rintro e s' w' ⟨a1, a2, a3, a4, a5, a6, a7⟩
      refine ⟨remFailPacked E a1 a3 a4 h a7 a5 a6, a2, fun _ => ⟨by rw [a5.1, a7]; exact h.lt, ?_, by rw [a5.1, a5.2]; exact h.nul⟩⟩
      have := h.le
      rw [a5.2]; simp only; omega
  | split y =>
    refine Backend.run_split.2 ((Split.erase_runs E k y w h hk).mono ?_ ?_)
    · rintro r y' w' ⟨a1, rfl, a3⟩
      exact ⟨remSplit E a3 a1, rfl⟩
    · rintro e y' w' ⟨a1, a2, a3, a4, a5, a6, a7, a8, a9, a10⟩
      refine ⟨⟨a1, a3, a4, stepSplit a5 a6.grown a8.grown, a9, a7, a6, ?_, rfl, a10⟩, a2, fun h => by simp [kind, Backend.kind] at h⟩
      simp [begin, Backend.begin, Split.begin, Vec.ptr, a8.1]

theorem eraseBase_runs (x : Seg V) (w : World) (h : x.Core E w) (k : Nat) (hk : k < x.size) :
    Runs (eraseBase E (x.base k)) x w
      (fun r x' w' => Rem E x w (x.elems.eraseIdx k) x' w' ∧ r = x'.base k)
      (fun e x' w' => RemFail E x w e x' w' ∧ k + 1 < x.size ∧ (x.kind = .packed → x'.Core E w')) := by
  have hl := toLocal E h (Nat.le_of_lt hk)
  have he := eraseLocal_runs E x w h k hk
  obtain ⟨be, snt⟩ := x
  unfold eraseBase
  unfold eraseLocal at he
  rw [runs_filterRange] at he ⊢
  cases be with
  | packed y => exact Backend.run_packed.2 (Backend.run_packed.1 he)
  | split y =>
    have := Backend.run_split.1 he
    refine Backend.run_split.2 ?_
    simp only [Backend.toLocal] at hl
    simp only [runs_bind, runs_get]
    rw [hl]
    exact this

theorem packedEraseRange_runs (y : Packed V) (snt : Ptr) (w : World) (h : y.s.WF w) (a b k : Nat) (hab : a ≤ b) (hb : b ≤ y.s.size) :
    Runs (do Packed.onS (E.eraseRange y.ty a b); Packed.retRange k) y w
      (fun r y' w' => Rem E ⟨.packed y, snt⟩ w (y.s.elems.take a ++ y.s.elems.drop b) ⟨.packed y', r.2⟩ w' ∧
        r.1 = Seg.base ⟨.packed y', r.2⟩ k)
      (fun e y' w' => RemFail E ⟨.packed y, snt⟩ w e ⟨.packed y', snt⟩ w' ∧ a < b ∧ b < y.s.size ∧ y'.s.WF w') := by
  simp only [runs_bind, Packed.onS, runs_zoom, Packed.retRange, runs_get, runs_pure]
  refine (E.eraseRange_runs y.ty a b y.s w hab hb).mono ?_ ?_
  · rintro _ s' w' ⟨a1, a2, a3⟩
    refine ⟨remPacked E h a3 a1 a2 ?_, rfl⟩
    simp only [List.length_append, List.length_take, List.length_drop, Vec.size] at *; omega
  · rintro e s' w' ⟨a1, a2, a3, a4, a5, a6, a7, a8⟩
    refine ⟨remFailPacked E a1 a4 a5 h a8 a6 a7, a2, a3, ⟨by rw [a6.1, a8]; exact h.lt, ?_, by rw [a6.1, a6.2]; exact h.nul⟩⟩
    have := h.le
    rw [a6.2]; omega

theorem remFailSplit {y y' : Split V} {w w' : World} {e : Exc} {p : Ptr}
    (h1 : (E.traits y.ty).nothrowAssign = false) (h2 : e = .user) (h3 : ∃ n, E.fault n = true)
    (hw : w'.next = w.next) (hs : ∃ l : List V, l.length = y.s.size ∧ Split.Removed E y l y' w' ∧ y'.i = y.i) :
    RemFail E ⟨.split y, p⟩ w e ⟨.split y', p⟩ w' ∧ y'.Inv E w' := by
  obtain ⟨l, hl, hr, hi⟩ := hs
  refine ⟨⟨h1, h2, h3, stepSplit hr.frame hr.sames.grown hr.samei.grown, hw, ?_, hr.sames, ?_, rfl, hr.inv.weak E⟩, hr.inv⟩
  · simp only [Seg.size, Backend.store, Vec.size, hr.elems] at *; exact hl
  · simp [begin, Backend.begin, Split.begin, Vec.ptr, hi]

theorem eraseRangeLocal_runs (x : Seg V) (w : World) (h : x.Core E w) (a b : Nat) (hab : a ≤ b) (hb : b ≤ x.size) :
    Runs (eraseRangeLocal E (x.loc a) (x.loc b)) x w
      (fun r x' w' => Rem E x w (x.elems.take a ++ x.elems.drop b) x' w' ∧ r = x'.base a)
      (fun e x' w' => RemFail E x w e x' w' ∧ a < b ∧ b < x.size ∧ x'.Core E w') := by
  obtain ⟨be, snt⟩ := x
  unfold eraseRangeLocal
  rw [runs_filterRange]
  cases be with
  | packed y =>
    have h : y.s.WF w := h
    have hb : b ≤ y.s.size := hb
    refine Backend.run_packed.2 ?_
    have := packedEraseRange_runs E y snt w h a b a hab hb
    unfold Packed.eraseRange
    rw [runs_bind, runs_get, show y.iteratorFrom (Seg.loc (⟨.packed y, snt⟩ : Seg V) a) = some a from Vec.posOf_ptr (by omega),
      show y.iteratorFrom (Seg.loc (⟨.packed y, snt⟩ : Seg V) b) = some b from Vec.posOf_ptr (by omega)]
    exact this
  | split y =>
    refine Backend.run_split.2 ((Split.eraseRange_runs E a b y w h hab hb).mono ?_ ?_)
    · rintro r y' w' ⟨a1, rfl, a3⟩
      exact ⟨remSplit E a3 a1, rfl⟩
    · rintro e y' w' ⟨a1, a2, a3, a4, a5, a6, a7⟩
      have := remFailSplit E (p := snt) a1 a4 a5 a7 a6
      exact ⟨this.1, a2, a3, this.2⟩

theorem eraseRangeBase_runs (x : Seg V) (w : World) (h : x.Core E w) (a b : Nat) (hab : a ≤ b) (hb : b ≤ x.size) :
    Runs (eraseRangeBase E (x.base a) (x.base b)) x w
      (fun r x' w' => Rem E x w (x.elems.take a ++ x.elems.drop b) x' w' ∧ r = x'.base a)
      (fun e x' w' => RemFail E x w e x' w' ∧ a < b ∧ b < x.size ∧ x'.Core E w') := by
  have hl := toLocal E h (show a ≤ x.size by omega)
  have hl' := toLocal E h hb
  have he := eraseRangeLocal_runs E x w h a b hab hb
  obtain ⟨be, snt⟩ := x
  unfold eraseRangeBase
  unfold eraseRangeLocal at he
  rw [runs_filterRange] at he ⊢
  cases be with
  | packed y => exact Backend.run_packed.2 (Backend.run_packed.1 he)
  | split y =>
    have := Backend.run_split.1 he
    refine Backend.run_split.2 ?_
    simp only [Backend.toLocal] at hl hl'
    simp only [runs_bind, runs_get]
    rw [hl, hl']
    exact this

theorem eraseTillEnd_runs (x : Seg V) (w : World) (h : x.Core E w) (a : Nat) (ha : a ≤ x.size) :
    Runs (eraseTillEnd E (x.base a)) x w
      (fun r x' w' => Rem E x w (x.elems.take a) x' w' ∧ r = x'.base a)
      (fun _ _ _ => False) := by
  obtain ⟨be, snt⟩ := x
  unfold eraseTillEnd
  rw [runs_filterRange]
  cases be with
  | packed y =>
    have h : y.s.WF w := h
    have ha : a ≤ y.s.size := ha
    refine Backend.run_packed.2 ?_
    have := packedEraseRange_runs E y snt w h a y.s.size a ha (Nat.le_refl _)
    unfold Packed.eraseTillEnd
    rw [runs_bind, runs_get, show y.iteratorFrom (Seg.base (⟨.packed y, snt⟩ : Seg V) a) = some a from Vec.posOf_ptr (by omega)]
    refine Runs.mono this ?_ ?_
    · rintro r y' w' ⟨h1, h2⟩
      refine ⟨?_, h2⟩
      simpa [Vec.size, elems, Backend.store] using h1
    · rintro e y' w' ⟨_, _, h, _⟩; omega
  | split y =>
    refine Backend.run_split.2 ((Split.eraseTillEnd_runs E a y w h ha).mono ?_ (fun _ _ _ h => h))
    rintro r y' w' ⟨a1, rfl, a3⟩
    exact ⟨remSplit E a3 a1, rfl⟩

theorem eraseFromBegin_runs (x : Seg V) (w : World) (h : x.Core E w) (b : Nat) (hb : b ≤ x.size) :
    Runs (eraseFromBegin E (x.base b)) x w
      (fun r x' w' => Rem E x w (x.elems.drop b) x' w' ∧ r = x'.base 0)
      (fun e x' w' => RemFail E x w e x' w' ∧ 0 < b ∧ b < x.size ∧ x'.Core E w') := by
  obtain ⟨be, snt⟩ := x
  unfold eraseFromBegin
  rw [runs_filterRange]
  cases be with
  | packed y =>
    have h : y.s.WF w := h
    have hb : b ≤ y.s.size := hb
    refine Backend.run_packed.2 ?_
    have := packedEraseRange_runs E y snt w h 0 b 0 (by omega) hb
    unfold Packed.eraseFromBegin
    rw [runs_bind, runs_get, show y.iteratorFrom (Seg.base (⟨.packed y, snt⟩ : Seg V) b) = some b from Vec.posOf_ptr (by omega)]
    refine Runs.mono this ?_ (fun _ _ _ h => h)
    rintro r y' w' ⟨h1, h2⟩
    exact ⟨by simpa [elems, Backend.store] using h1, h2⟩
  | split y =>
    refine Backend.run_split.2 ((Split.eraseFromBegin_runs E b y w h hb).mono ?_ ?_)
    · rintro r y' w' ⟨a1, rfl, a3⟩
      exact ⟨remSplit E a3 a1, rfl⟩
    · rintro e y' w' ⟨a1, a2, a3, a4, a5, a6, a7⟩
      have := remFailSplit E (p := snt) a1 a4 a5 a7 a6
      exact ⟨this.1, a2, a3, this.2⟩

/-- `clear()` puts a segment in order after any failure. -/
theorem clear_weak (x : Seg V) (w : World) (h : x.Weak E w) :
    Runs clear x w (fun _ x' w' => Rem E x w [] x' w') (fun _ _ _ => False) := by
  obtain ⟨be, snt⟩ := x
  unfold clear
  rw [runs_filterSentinel]
  cases be with
  | packed y =>
    refine Backend.run_packed.2 ?_
    unfold Packed.clear
    simp only [runs_bind, Packed.onS, runs_zoom, Env.clearVec, runs_get, runs_set, Packed.retSentinel, runs_pure]
    exact remPacked E h rfl rfl ⟨rfl, rfl⟩ (by simp)
  | split y =>
    refine Backend.run_split.2 ((Split.clear_weak E y w h).mono ?_ (fun _ _ _ h => h))
    rintro r y' w' ⟨a1, rfl, rfl⟩
    exact remSplit E rfl a1

theorem clear_runs (x : Seg V) (w : World) (h : x.Core E w) :
    Runs clear x w (fun _ x' w' => Rem E x w [] x' w') (fun _ _ _ => False) := clear_weak E x w (h.weak E)

/-! ### Capacity -/

theorem reserve_runs (n : Nat) (x : Seg V) (w : World) (h : x.Core E w) :
    Runs (reserve E n) x w
      (fun _ x' w' => x'.Inv E w' ∧ Step w x x' ∧ x'.elems = x.elems ∧ w.next ≤ w'.next ∧ n ≤ x'.capacity ∧
        x.capacity ≤ x'.capacity ∧ n ≤ E.maxSize x.ty ∧
        (n ≤ x.capacity → Vec.Same x.be.store x'.be.store) ∧ (ExactReserve E → 1 ≤ n → x'.Roomy))
      (fun e x' w' => x'.Core E w' ∧ Step w x x' ∧ x'.be.store = x.be.store ∧ w.next ≤ w'.next ∧ x'.snt = x.snt ∧
        ExcFrom E x.ty False (E.maxSize x.ty < n ∨ x.kind = .split ∧ E.idxMaxSize < n + 1) e ∧
        (x.kind = .packed → x' = x)) := by
  obtain ⟨be, snt⟩ := x
  unfold reserve
  rw [runs_filterSentinel]
  cases be with
  | packed y =>
    have h : y.s.WF w := h
    refine Backend.run_packed.2 ?_
    unfold Packed.reserve
    simp only [runs_bind, runs_get, Packed.onS, runs_zoom, Packed.retSentinel, runs_pure]
    refine (E.reserve_runs y.ty n y.s w h).mono ?_ ?_
    · rintro _ s' w' ⟨a1, a2, a3, a4, a5, a6, a7, a8⟩
      refine ⟨⟨a2, rfl⟩, stepPacked ?_, a1, a3, a4, a5, a6, fun hc => ?_, fun _ _ => trivial⟩
      · by_cases hc : n ≤ y.s.cap
        · rw [a7 hc]; exact Or.inl rfl
        · exact Or.inr (Or.inr (a8 (by omega)).1)
      · show Vec.Same y.s s'
        rw [a7 hc]; exact ⟨rfl, rfl⟩
    · rintro e s' w' ⟨rfl, a2, a3⟩
      exact ⟨h.weaken a2, Step.refl _ _, by trivial, a2, by trivial, a3.mono id Or.inl, fun _ => rfl⟩
  | split y =>
    refine Backend.run_split.2 ((Split.reserve_runs E n y w h).mono ?_ ?_)
    · rintro r y' w' ⟨a1, a2, a3, a4, a5, a6, a7, a8, a9, a10, rfl, a12⟩
      refine ⟨⟨a1, rfl⟩, stepSplit a2 a9 a10, a3, a4, a5, a6, a7, fun hc => ?_, fun hx hn => ?_⟩
      · show Vec.Same y.s y'.s
        rw [a12 hc]; exact ⟨rfl, rfl⟩
      · rcases a1.cap hx with h1 | h1
        · exact h1
        · show y'.s.cap + 1 ≤ _
          omega
    · rintro e y' w' ⟨a1, a2, a3, a4, a5, a6, a7, a8, a9⟩
      exact ⟨a1, stepSplit a2 (by rw [a3]; exact Vec.Grown.refl _ _) a7, a3, a6, rfl,
        a8.mono id (fun h => h.imp id (fun h => ⟨by trivial, h⟩)), fun h => by simp [kind, Backend.kind] at h⟩

theorem shrinkToFit_runs (x : Seg V) (w : World) (h : x.Inv E w) :
    Runs (shrinkToFit E) x w
      (fun _ x' w' => x'.Inv E w' ∧ Step w x x' ∧ x'.elems = x.elems ∧ w.next ≤ w'.next ∧
        (x'.capacity ≤ x.capacity ∨ (x.kind = .split ∧ x.elems = [] ∧ x'.capacity = E.lib.reserveCap 1)))
      (fun e x' w' => x'.Inv E w' ∧ Step w x x' ∧ x'.elems = x.elems ∧ w.next ≤ w'.next ∧ x'.begin = x.begin ∧
        (x'.capacity ≤ x.capacity ∨ (x.kind = .split ∧ x.elems = [] ∧ x'.capacity = E.lib.reserveCap 1)) ∧
        ExcFrom E x.ty False (x.kind = .split ∧ (E.idxMaxSize ≤ x.capacity ∨ E.idxMaxSize ≤ E.lib.reserveCap 1)) e ∧ (x.kind = .packed → x' = x)) := by
  obtain ⟨be, snt⟩ := x
  have hsnt := h.snt
  have h := h.core
  unfold shrinkToFit
  rw [runs_filterSentinel]
  cases be with
  | packed y =>
    have h : y.s.WF w := h
    refine Backend.run_packed.2 ?_
    unfold Packed.shrinkToFit
    simp only [runs_bind, runs_get, Packed.onS, runs_zoom, Packed.retSentinel, runs_pure]
    refine (E.shrinkToFit_runs y.ty y.s w h).mono ?_ ?_
    · rintro _ s' w' ⟨a1, a2, a3, a4, a5, a6⟩
      refine ⟨⟨a2, rfl⟩, stepPacked ?_, a1, a3, Or.inl a4⟩
      rcases a5 with a5 | a5 | a5
      · exact Or.inl a5.1
      · exact Or.inr (Or.inl a5.1)
      · exact Or.inr (Or.inr a5)
    · rintro e s' w' ⟨rfl, a2, a3⟩
      exact ⟨⟨h.weaken a2, hsnt⟩, Step.refl _ _, rfl, a2, rfl, Or.inl (Nat.le_refl _), a3.mono id False.elim, fun _ => rfl⟩
  | split y =>
    refine Backend.run_split.2 ((Split.shrinkToFit_runs E y w h).mono ?_ ?_)
    · rintro r y' w' ⟨a1, a2, a3, a4, a5, a6, a7, rfl⟩
      exact ⟨⟨a1, rfl⟩, stepSplit a2 a6 a7, a3, a4, a5.imp id (fun h => ⟨rfl, h⟩)⟩
    · rintro e y' w' ⟨a1, a2, a3, a4, a5, a6, a7, a8⟩
      refine ⟨⟨a1, ?_⟩, stepSplit a2 a6 a7.grown, a3, a4, ?_, a5.imp id (fun h => ⟨rfl, h⟩), a8.mono id (fun h => ⟨rfl, h⟩), fun h => by simp [kind, Backend.kind] at h⟩
      · show snt = y'.i.ptr y'.s.size
        have : snt = y.i.ptr y.s.size := hsnt
        rw [this]; simp [Vec.ptr, a7.1, Vec.size, a3]
      · simp [begin, Backend.begin, Split.begin, Vec.ptr, a7.1]

/-! ### Creation -/

/-- All buffers of a segment are new. -/
def New (w : World) (x : Seg V) : Prop := ∀ b ∈ x.blocks, b = 0 ∨ w.next ≤ b

/-- A segment as `make` leaves it. -/
def Fresh (x : Seg V) : Prop := x.elems = [] ∧ (ExactReserve E → x.capacity ≤ 1)

theorem make_runs {X : Type} (k : Kind) (t : Ty) (al : Alloc) (z : X) (w : World) :
    Runs (make E k t al : Prog X (Seg V)) z w
      (fun y z' w' => z' = z ∧ y.Inv E w' ∧ y.kind = k ∧ y.ty = t ∧ y.al = al ∧ y.objAl = al ∧ y.Fresh E ∧
        w.next ≤ w'.next ∧ y.New w)
      (fun e z' w' => z' = z ∧ w.next ≤ w'.next ∧ ExcFrom E t False (E.TooMany t 1) e) := by
  unfold make
  cases k with
  | packed =>
    simp only [runs_bind, Packed.make, E.runs_alloc, runs_pure]
    refine ⟨fun hf => ⟨by trivial, by simp, Or.inl ⟨rfl, _, hf⟩⟩, fun hf => ⟨by trivial, ⟨Vec.nil_WF (by simp), rfl⟩, rfl, rfl, rfl, rfl, ⟨rfl, fun _ => ?_⟩, by simp, ?_⟩⟩
    · simp [ofBackend, capacity, Backend.store, Vec.nil]
    · intro b hb
      simp [ofBackend, blocks, Backend.blocks, Vec.nil] at hb
      exact Or.inl hb
  | split =>
    simp only [runs_bind, runs_pure]
    refine (Split.make_runs E t al z w).mono ?_ (fun _ _ _ h => h)
    rintro y z' w' ⟨rfl, a1, a2, a3, a4, a5, a6, a7, a8, a9⟩
    refine ⟨by trivial, ⟨a1, rfl⟩, rfl, a2, a3, a4, ⟨a5, fun hx => ?_⟩, a6, ?_⟩
    · show y.s.cap ≤ 1
      rw [a9, hx]; exact Nat.le_refl _
    · intro b hb
      simp [ofBackend, blocks, Backend.blocks] at hb
      rcases hb with rfl | rfl
      · exact Or.inr a7
      · exact Or.inr a8

theorem copyAl_runs {X : Type} (x : Seg V) (al : Alloc) (z : X) (w : World) (hw : 0 < w.next) :
    Runs (copyAl E x al : Prog X (Seg V)) z w
      (fun y z' w' => z' = z ∧ y.Inv E w' ∧ y.kind = x.kind ∧ y.ty = x.ty ∧ y.al = al ∧ y.objAl = al ∧
        y.elems = x.elems ∧ w.next ≤ w'.next ∧ y.New w ∧ (x.elems ≠ [] → (E.traits x.ty).copyable = true))
      (fun e z' w' => z' = z ∧ w.next ≤ w'.next ∧ ExcFrom E x.ty (x.elems ≠ []) (E.TooMany x.ty (max 1 x.size)) e) := by
  obtain ⟨be, snt⟩ := x
  unfold copyAl
  cases be with
  | packed y =>
    simp only [runs_bind, Packed.copyAl, runs_pure, E.runs_alloc]
    refine (E.copyVec_runs y.ty y.s z w hw).mono ?_ ?_
    · rintro s z' w' ⟨rfl, a1, a2, a3, a4, a5, a6⟩
      refine ⟨fun hf => ⟨by trivial, a3, Or.inl ⟨rfl, _, hf⟩⟩, fun hf => ⟨by trivial, ⟨a2.weaken (by simp), rfl⟩, rfl, rfl, rfl, rfl, a1, ?_, ?_, a6⟩⟩
      · exact Nat.le_trans a3 (Nat.le_succ _)
      · intro b hb
        simp [ofBackend, blocks, Backend.blocks] at hb
        subst hb; exact a4
    · rintro e z' w' ⟨rfl, a1, a2, a3⟩
      exact ⟨by trivial, a1, a3.mono (fun _ => a2) False.elim⟩
  | split y =>
    simp only [runs_bind (p := Split.copyAl E y al), runs_pure]
    refine (Split.copyTo_runs E y al al z w hw).mono ?_ (fun _ _ _ h => h)
    rintro y' z' w' ⟨rfl, a1, a2, a3, a4, a5, a6, a7, a8, a9⟩
    refine ⟨by trivial, ⟨a1, rfl⟩, rfl, a2, a3, a4, a5, a6, ?_, a9⟩
    intro b hb
    simp [ofBackend, blocks, Backend.blocks] at hb
    rcases hb with rfl | rfl
    · exact Or.inr a7
    · exact Or.inr a8

/-- Moving a fresh segment (into a map node), or any segment to a different allocator. -/
theorem moveAl_runs (al : Alloc) (x : Seg V) (w : World) (h : x.Core E w) (hf : x.al = al → x.Fresh E) :
    Runs (moveAl E al) x w
      (fun y x' w' => y.Inv E w' ∧ y.kind = x.kind ∧ y.ty = x.ty ∧ y.al = al ∧ y.objAl = al ∧ y.elems = x.elems ∧
        w.next ≤ w'.next ∧ (∀ b ∈ y.blocks, b = 0 ∨ w.next ≤ b ∨ (x.al = al ∧ b ∈ x.blocks)) ∧
        x'.elems = [] ∧ Step w x x')
      (fun e x' w' => w.next ≤ w'.next ∧ Step w x x' ∧ ExcFrom E x.ty False (E.TooMany x.ty (max 1 x.size)) e ∧ (x'.size = x.size ∨ x'.size = 0)) := by
  obtain ⟨be, snt⟩ := x
  unfold moveAl
  rw [runs_zoom]
  cases be with
  | packed y =>
    have h : y.s.WF w := h
    refine Backend.run_packed.2 ?_
    simp only [runs_bind, Packed.move, runs_pure, E.runs_alloc, runs_get, Packed.onS, runs_zoom]
    refine (E.moveVec_runs y.ty _ y.s w h).mono ?_ ?_
    · rintro s s1 w1 ⟨a1, a2, a3, a4, a5, a6, a7⟩
      have hb : s1.blk = y.s.blk ∨ s1.blk = 0 := by
        by_cases h : y.al = al
        · right; rw [(a6 (by simp [h])).2]; rfl
        · left; exact (a7 (by simp [h])).2.1
      have hst : Step w ⟨.packed y, snt⟩ (⟨.packed { y with s := s1 }, snt⟩ : Seg V) := stepPacked (hb.imp id Or.inl)
      refine ⟨fun hf => ⟨a5, hst, Or.inl ⟨rfl, _, hf⟩, ?_⟩, fun hff => ⟨⟨a3.weaken (by simp), rfl⟩, rfl, rfl, rfl, rfl, a1, ?_, ?_, a2, hst⟩⟩
      · right; simp [size, Backend.store, Vec.size, a2]
      · exact Nat.le_trans a5 (Nat.le_succ _)
      · intro b hbm
        simp [ofBackend, blocks, Backend.blocks] at hbm
        subst hbm
        by_cases h : y.al = al
        · right; right; refine ⟨h, ?_⟩; rw [(a6 (by simp [h])).1]; simp [blocks, Backend.blocks]
        · rcases (a7 (by simp [h])).1 with h1 | h1
          · exact Or.inl h1
          · exact Or.inr (Or.inl h1)
    · rintro e s1 w1 ⟨a1, a2, a3, a4, a5, a6, a7⟩
      refine ⟨a3, stepPacked (Or.inl a1.1), ?_, Or.inl a2⟩
      unfold ExcFrom; grind
  | split y =>
    have h : y.Inv E w := h
    refine Backend.run_split.2 ?_
    simp only [runs_bind, runs_pure]
    have hfr : y.al = al → y.s.elems = [] ∧ (ExactReserve E → y.s.cap ≤ 1) := hf
    refine (Split.move_runs E al y w h.swf ?_).mono ?_ ?_
    · intro hx hal
      have := hfr hal
      right; exact ⟨by simp [Vec.size, this.1], this.2 hx⟩
    · rintro y' y1 w' ⟨a1, a2, a3, a4, a5, a6, a7, a8, s1, rfl, a9, a10, a11⟩
      refine ⟨⟨a1, rfl⟩, rfl, a2, a3, a4, a5, a6, ?_, a9, ⟨rfl, rfl, rfl, rfl, ?_⟩⟩
      · intro b hb
        simp [ofBackend, blocks, Backend.blocks] at hb
        rcases hb with rfl | rfl
        · rcases a7 with a7 | a7
          · exact Or.inr (Or.inl a7)
          · right; right; exact ⟨a7.1, by rw [a7.2]; simp [blocks, Backend.blocks]⟩
        · exact Or.inr (Or.inl a8)
      · intro b hb
        simp [blocks, Backend.blocks] at hb ⊢
        rcases hb with rfl | rfl
        · rcases a11 with h | h
          · exact Or.inl (Or.inl h)
          · exact Or.inr (Or.inl h)
        · exact Or.inl (Or.inr rfl)
    · rintro e y1 w' ⟨a1, ⟨s1, rfl, a2, a3, a4⟩, a5⟩
      refine ⟨a1, ⟨rfl, rfl, rfl, rfl, ?_⟩, a5, a3⟩
      intro b hb
      simp [blocks, Backend.blocks] at hb ⊢
      rcases hb with rfl | rfl
      · rcases a4 with h | h
        · exact Or.inl (Or.inl h)
        · exact Or.inr (Or.inl h)
      · exact Or.inl (Or.inr rfl)

end Seg
end PolyColl
