import Verif.Lemmas.CollOps
import Verif.Lemmas.State
/-! # Insertion at local positions and of ranges -/

namespace PolyColl
open Prog

namespace Seg
variable {V : Type} (E : Env V)

theorem Ins.nil {x : Seg V} {w : World} (h : x.Inv E w) (k : Nat) : Ins E x w k [] x w :=
  ⟨h, Step.refl _ _, Nat.le_refl _, by simp, fun _ => ⟨rfl, rfl⟩, fun _ _ _ => rfl⟩

theorem Ins.size {x x' : Seg V} {w w' : World} {k : Nat} {vs : List V} (h : Ins E x w k vs x' w') :
    x'.size = x.size + vs.length := by
  simp only [size_eq, h.elems, List.length_append, List.length_take, List.length_drop]; omega

theorem Ins.append {x y z : Seg V} {w w1 w2 : World} {k : Nat} {us vs : List V} (h : Ins E x w k us y w1)
    (h' : Ins E y w1 (k + us.length) vs z w2) (hk : k ≤ x.size) : Ins E x w k (us ++ vs) z w2 := by
  have hs := h.size E
  refine ⟨h'.inv, h.step.trans h'.step h.next, Nat.le_trans h.next h'.next, ?_, fun hc => ?_, fun hx hp hc => ?_⟩
  · rw [h'.elems, h.elems]
    have h1 : (x.elems.take k).length = k := by rw [List.length_take, ← size_eq]; omega
    rw [List.take_append_of_le_length (by simp [h1]), List.drop_append_of_le_length (by simp [h1])]
    rw [List.take_of_length_le (by simp [h1]), List.drop_of_length_le (by simp [h1])]
    simp
  · simp only [List.length_append] at hc
    have h1 := h.store (by omega)
    have hcap : y.capacity = x.capacity := h1.2
    have h2 := h'.store (by omega)
    exact ⟨h2.1.trans h1.1, h2.2.trans h1.2⟩
  · simp only [List.length_append] at hc
    have h1 := h.store (by omega)
    have hcap : y.capacity = x.capacity := h1.2
    rw [h'.begin hx (by omega) (by omega), h.begin hx hp (by omega)]

end Seg

namespace Coll
variable {V : Type} (E : Env V)

theorem runs_onSegU {α : Type} {it : MapIt} {p : Prog (Seg V) α} {c : Coll V} {w : World} {n : Node V}
    {Q : α → Coll V → World → Prop} {R : Exc → Coll V → World → Prop}
    (hi : (c.map.nodes.map (·.id)).Nodup) (h : c.map.Use E it n) :
    Runs (onMap (TMap.onSeg E it p)) c w Q R ↔
      Runs p n.seg w (fun a s w' => Q a (c.put n s) w') (fun e s w' => R e (c.put n s) w') := by
  simp only [onMap, runs_zoom]
  rw [TMap.runs_onSeg E (h.node? E hi)]
  rfl

theorem Ens.refl {c : Coll V} {w : World} {n : Node V} (hi : c.map.Inv E c.kind w) (hn : n ∈ c.map.nodes) :
    Ens E c w n.seg.ty n c w :=
  ⟨hi, rfl, .old (TMap.SameNodes.refl _) hn, Or.inl hn, rfl, Nat.le_refl _⟩

/-- `l` is the base iterator to position `k` of segment `t`. -/
def LAtB (c : Coll V) (l : LIter) (t : Ty) (k : Nat) : Prop :=
  ∃ n, c.map.Use E l.mapit n ∧ n.seg.ty = t ∧ k ≤ n.seg.size ∧ l.pos = n.seg.base k

/-- `l` is the local iterator to position `k` of segment `t`. -/
def LAtL (c : Coll V) (l : LIter) (t : Ty) (k : Nat) : Prop :=
  ∃ n, c.map.Use E l.mapit n ∧ n.seg.ty = t ∧ k ≤ n.seg.size ∧ l.pos = n.seg.loc k

theorem Use.latB {c : Coll V} {it : MapIt} {n : Node V} {k : Nat} (h : c.map.Use E it n) (hk : k ≤ n.seg.size) :
    c.LAtB E ⟨it, n.seg.base k⟩ n.seg.ty k := ⟨n, h, rfl, hk, rfl⟩

theorem Use.latL {c : Coll V} {it : MapIt} {n : Node V} {k : Nat} (h : c.map.Use E it n) (hk : k ≤ n.seg.size) :
    c.LAtL E ⟨it, n.seg.loc k⟩ n.seg.ty k := ⟨n, h, rfl, hk, rfl⟩

/-- Conversion of a base to a local iterator. -/
theorem toLocal_use {c : Coll V} {w : World} (h : c.Core E w) {it : MapIt} {n : Node V} {k : Nat} (hu : c.map.Use E it n)
    (hk : k ≤ n.seg.size) : c.toLocal E ⟨it, n.seg.base k⟩ = some ⟨it, n.seg.loc k⟩ := by
  unfold toLocal
  simp only [hu.node? E h.map.ids, Seg.toLocal E (h.mem.segs n hu.mem) hk]

theorem toLocal_at {c : Coll V} {w : World} (h : c.Core E w) {l : LIter} {t : Ty} {k : Nat} (hl : c.LAtB E l t k) :
    ∃ l', c.toLocal E l = some l' ∧ c.LAtL E l' t k := by
  obtain ⟨n, hu, rfl, hk, hp⟩ := hl
  obtain ⟨it, p⟩ := l
  simp only at hp
  subst hp
  exact ⟨_, toLocal_use E h hu hk, Use.latL E hu hk⟩

theorem toBase_at {c : Coll V} {w : World} (h : c.Core E w) {l : LIter} {t : Ty} {k : Nat} (hl : c.LAtL E l t k) :
    ∃ l', c.toBase E l = some l' ∧ c.LAtB E l' t k ∧ c.toLocal E l' = some l := by
  obtain ⟨n, hu, rfl, hk, hp⟩ := hl
  obtain ⟨it, p⟩ := l
  simp only at hp
  subst hp
  refine ⟨⟨it, n.seg.base k⟩, ?_, Use.latB E hu hk, toLocal_use E h hu hk⟩
  unfold toBase
  have := Seg.toLocal E (h.mem.segs n hu.mem) (Nat.zero_le _)
  rw [Seg.base_zero] at this
  simp only [hu.node? E h.map.ids, this]
  have hz : n.seg.begin.off = 0 := by rw [← Seg.base_zero]; rfl
  simp [Seg.loc, Vec.ptr, Seg.base, hz]

/-- One insertion through a position of segment `n`. -/
theorem pos_runs {c : Coll V} {w : World} {n : Node V} {it : MapIt} {t : Ty} {k : Nat} {v : V} {op : Prog (Seg V) Ptr} {copies : Prop}
    (hc : c.Inv E w) (hu : c.map.Use E it n) (ht : n.seg.ty = t) (hk : k ≤ n.seg.size)
    (hop : Runs op n.seg w
      (fun r x' w' => Seg.Ins E n.seg w k [v] x' w' ∧ r = x'.base k ∧ (copies → (E.traits n.seg.ty).copyable = true))
      (Seg.Fail E n.seg w copies (E.shiftThrows n.seg.ty ∧ k < n.seg.size))) :
    Runs (onMap (TMap.onSeg E it (downcast t op))) c w
      (fun p c' w' => Inserted E c w t k [v] c' w' ∧
        ∃ n', c'.map.Use E it n' ∧ n'.seg.ty = t ∧ k < n'.seg.size ∧ p = n'.seg.base k ∧
          (copies → (E.traits t).copyable = true))
      (InsFail E c w t k copies) := by
  subst ht
  rw [runs_onSegU E hc.map.ids hu, runs_downcast rfl]
  refine hop.mono ?_ ?_
  · rintro r s w' ⟨h1, rfl, h3⟩
    refine ⟨⟨.refl E hc.map hu.mem, h1, hk⟩, { n with seg := s }, put_use_self E hu, h1.step.ty, ?_, rfl, h3⟩
    have := h1.size E
    simp only [List.length_singleton] at this
    show k < s.size
    omega
  · rintro e s w' h
    exact .seg (.refl E hc.map hu.mem) h hk

/-- A source is good for the segment in question. -/
theorem SrcFor.use {c : Coll V} {w : World} {n : Node V} {src : Src V} {v : V} (h : c.SrcFor n.seg.ty src v)
    (hi : c.map.Inv E c.kind w) (hn : n ∈ c.map.nodes) : n.seg.SrcOK src v := h.ok E hi (.refl E hi hn)

theorem emplacePosBase_runs (pos : LIter) (t : TI) (k : Nat) (src : Src V) (v : V) (c : Coll V) (w : World) (hc : c.Inv E w)
    (hp : c.LAtB E pos (E.tiTy t) k) (hs : c.SrcFor (E.tiTy t) src v) :
    Runs (emplacePosBase E pos t src) c w
      (fun l c' w' => Inserted E c w (E.tiTy t) k [v] c' w' ∧ c'.LAtB E l (E.tiTy t) k ∧
        (src.copies → (E.traits (E.tiTy t)).copyable = true))
      (InsFail E c w (E.tiTy t) k src.copies) := by
  obtain ⟨n, hu, ht, hk, hp⟩ := hp
  unfold emplacePosBase
  rw [runs_bind, hp]
  refine (pos_runs E hc hu ht hk (copies := src.copies)
    (Seg.emplace_runs E n.seg w (hc.mem.segs n hu.mem).core (.base (n.seg.base k)) k ⟨hk, rfl⟩ src v
      (SrcFor.use E (ht ▸ hs) hc.map hu.mem))).mono ?_ (fun _ _ _ h => h)
  rintro p c' w' ⟨h1, n', hu', ht', hk', rfl, h2⟩
  exact ⟨h1, ⟨n', hu', ht', Nat.le_of_lt hk', rfl⟩, h2⟩

/-- Conversion of the result to a local iterator. -/
theorem ret_local {c c' : Coll V} {w w' : World} {t : Ty} {k : Nat} {vs : List V} {it : MapIt} {n : Node V}
    (hc : c.Inv E w) (h : Inserted E c w t k vs c' w') (hu : c'.map.Use E it n) (ht : n.seg.ty = t) (hk : k < n.seg.size)
    {R : Exc → Coll V → World → Prop} :
    Runs (do let c ← Prog.get; Prog.ofOption (c.toLocal E ⟨it, n.seg.base k⟩)) c' w'
      (fun l c' w' => Inserted E c w t k vs c' w' ∧ c'.LAtL E l t k) R := by
  simp only [runs_bind, runs_get, toLocal_use E (Inv.core E (h.inv E hc)) hu (Nat.le_of_lt hk), runs_some]
  exact ⟨h, n, hu, ht, Nat.le_of_lt hk, rfl⟩

theorem emplacePosLocal_runs (pos : LIter) (t : TI) (k : Nat) (src : Src V) (v : V) (c : Coll V) (w : World) (hc : c.Inv E w)
    (hp : c.LAtL E pos (E.tiTy t) k) (hs : c.SrcFor (E.tiTy t) src v) :
    Runs (emplacePosLocal E pos t src) c w
      (fun l c' w' => Inserted E c w (E.tiTy t) k [v] c' w' ∧ c'.LAtL E l (E.tiTy t) k ∧
        (src.copies → (E.traits (E.tiTy t)).copyable = true))
      (InsFail E c w (E.tiTy t) k src.copies) := by
  obtain ⟨n, hu, ht, hk, hp⟩ := hp
  unfold emplacePosLocal
  rw [runs_bind, hp]
  refine (pos_runs E hc hu ht hk (copies := src.copies)
    (Seg.emplace_runs E n.seg w (hc.mem.segs n hu.mem).core (.loc (n.seg.loc k)) k ⟨hk, rfl⟩ src v
      (SrcFor.use E (ht ▸ hs) hc.map hu.mem))).mono ?_ (fun _ _ _ h => h)
  rintro p c' w' ⟨h1, n', hu', ht', hk', rfl, h2⟩
  exact (ret_local E hc h1 hu' ht' hk').mono (fun _ _ _ h => ⟨h.1, h.2, h2⟩) (fun _ _ _ h => h)

theorem insertPosBase_runs (pos : LIter) (a : Arg V) (k : Nat) (v : V) (c : Coll V) (w : World) (hc : c.Inv E w)
    (hp : c.LAtB E pos (E.tiTy a.dyn) k) (hs : c.SrcFor (E.tiTy a.dyn) a.src v) :
    Runs (insertPosBase E pos a) c w
      (fun l c' w' => Inserted E c w (E.tiTy a.dyn) k [v] c' w' ∧ c'.LAtB E l (E.tiTy a.dyn) k ∧
        (a.src.copies → (E.traits (E.tiTy a.dyn)).copyable = true))
      (InsFail E c w (E.tiTy a.dyn) k a.src.copies) := by
  obtain ⟨n, hu, ht, hk, hp⟩ := hp
  unfold insertPosBase
  rw [runs_bind, hp]
  refine (pos_runs E hc hu ht hk (copies := a.src.copies)
    (Seg.insertBase_runs E n.seg w (hc.mem.segs n hu.mem).core k hk a.src v
      (SrcFor.use E (ht ▸ hs) hc.map hu.mem))).mono ?_ (fun _ _ _ h => h)
  rintro p c' w' ⟨h1, n', hu', ht', hk', rfl, h2⟩
  exact ⟨h1, ⟨n', hu', ht', Nat.le_of_lt hk', rfl⟩, h2⟩

theorem insertPosLocal_runs (pos : LIter) (a : Arg V) (k : Nat) (v : V) (c : Coll V) (w : World) (hc : c.Inv E w)
    (hp : c.LAtL E pos (E.tiTy a.dyn) k) (hs : c.SrcFor (E.tiTy a.dyn) a.src v) :
    Runs (insertPosLocal E pos a) c w
      (fun l c' w' => Inserted E c w (E.tiTy a.dyn) k [v] c' w' ∧ c'.LAtL E l (E.tiTy a.dyn) k ∧
        (a.src.copies → (E.traits (E.tiTy a.dyn)).copyable = true))
      (InsFail E c w (E.tiTy a.dyn) k a.src.copies) := by
  obtain ⟨n, hu, ht, hk, hp⟩ := hp
  unfold insertPosLocal
  rw [runs_bind, hp]
  refine (pos_runs E hc hu ht hk (copies := a.src.copies)
    (Seg.insertLocal_runs E n.seg w (hc.mem.segs n hu.mem).core k hk a.src v
      (SrcFor.use E (ht ▸ hs) hc.map hu.mem))).mono ?_ (fun _ _ _ h => h)
  rintro p c' w' ⟨h1, n', hu', ht', hk', rfl, h2⟩
  exact (ret_local E hc h1 hu' ht' hk').mono (fun _ _ _ h => ⟨h.1, h.2, h2⟩) (fun _ _ _ h => h)

/-! ### Ranges at a local position -/

theorem put_self {c : Coll V} {w : World} (hc : c.Inv E w) {n : Node V} (hn : n ∈ c.map.nodes) : c.put n n.seg = c := by
  simp only [put, TMap.put]
  congr 2
  conv => rhs; rw [← List.map_id c.map.nodes]
  apply List.map_congr_left
  intro a ha
  split
  · rename_i e; rw [← eq_of_nodup hc.map.ids ha hn e]; rfl
  · rfl

theorem Inserted.nil {c : Coll V} {w : World} (hc : c.Inv E w) {n : Node V} (hn : n ∈ c.map.nodes) {k : Nat} (hk : k ≤ n.seg.size) :
    Inserted E c w n.seg.ty k [] c w := by
  have h : Inserted E c w n.seg.ty k [] (c.put n n.seg) w := ⟨.refl E hc.map hn, .nil E (hc.mem.segs n hn) k, hk⟩
  rwa [put_self E hc hn] at h

theorem put_put {c : Coll V} {n : Node V} {s s' : Seg V} : (c.put n s).put { n with seg := s } s' = c.put n s' := by
  simp only [put, TMap.put]
  congr 2
  rw [List.map_map]
  apply List.map_congr_left
  intro a _
  simp only [Function.comp]
  by_cases h : a.id = n.id <;> simp [h]

/-- What a failed range insertion at position `k` of segment `t` leaves: some elements are in, and the
insertion of the next one failed. -/
def RangeFail (c : Coll V) (w : World) (t : Ty) (k : Nat) (vs : List V) (copies : Prop) (e : Exc) (c' : Coll V) (w' : World) : Prop :=
  ∃ j c1 w1, j < vs.length ∧ Inserted E c w t k (vs.take j) c1 w1 ∧ InsFail E c1 w1 t (k + j) copies e c' w'

theorem Fail.mono {x x' : Seg V} {w w' : World} {c c' b : Prop} {e : Exc} (h : Seg.Fail E x w c b e x' w') (hc : c → c') :
    Seg.Fail E x w c' b e x' w' := ⟨h.step, h.next, h.exc.mono hc id, h.core, h.same, h.ncc, h.weak⟩

theorem srcOK_ext {x : Seg V} {src : Src V} {v : V} (h : src.ext = true) (hv : src.val Vec.nil = some v) : x.SrcOK src v :=
  ⟨by rw [val_ext h]; exact hv, Or.inl h⟩

theorem rangeFail_mk {c : Coll V} {w w1 w' : World} {n : Node V} {k : Nat} {done : List V} {v : V} {vs : List V} {s s' : Seg V} {copies : Prop} {e : Exc}
    (hc : c.Inv E w) (hn : n ∈ c.map.nodes) (hk : k ≤ n.seg.size) (hi : Seg.Ins E n.seg w k done s w1)
    (hf : Seg.Fail E s w1 copies (E.shiftThrows s.ty ∧ k + done.length < s.size) e s' w') :
    RangeFail E c w n.seg.ty k (done ++ v :: vs) copies e (c.put n s') w' := by
  have hins : Inserted E c w n.seg.ty k done (c.put n s) w1 := ⟨.refl E hc.map hn, hi, hk⟩
  refine ⟨done.length, c.put n s, w1, by simp, by simpa using hins, ?_⟩
  have hm : { n with seg := s } ∈ (c.put n s).map.nodes := TMap.put_mem hn
  have hs := hi.size E
  have h := InsFail.seg (E := E) (.refl E (hins.inv E hc).map hm) (k := k + done.length) (copies := copies) (e := e) (s := s') (w' := w')
    hf (show k + done.length ≤ s.size by omega)
  rw [put_put] at h
  have ht : s.ty = n.seg.ty := hi.step.ty
  rw [← ht]
  exact h

theorem posLoopBase_runs (c : Coll V) (w : World) (hc : c.Inv E w) (n : Node V) (mapit : MapIt) (hu : c.map.Use E mapit n) (k : Nat) (hk : k ≤ n.seg.size)
    (copies : Prop) (as : List (Arg V)) : ∀ (vs done : List V) (s : Seg V) (w1 : World), Seg.Ins E n.seg w k done s w1 →
    (∀ a ∈ as, E.tiTy a.dyn = n.seg.ty ∧ a.src.ext = true ∧ (a.src.copies → copies)) →
    as.map (fun a => a.src.val Vec.nil) = vs.map some →
    Runs (posLoopBase E mapit (s.base (k + done.length)) as) (c.put n s) w1
      (fun p c' w' => ∃ s', c' = c.put n s' ∧ Seg.Ins E n.seg w k (done ++ vs) s' w' ∧ p = s'.base (k + (done ++ vs).length))
      (RangeFail E c w n.seg.ty k (done ++ vs) copies) := by
  induction as with
  | nil =>
    intro vs done s w1 hi ha hv
    have : vs = [] := by simpa using hv.symm
    subst this
    rw [List.append_nil]
    exact ⟨s, rfl, hi, rfl⟩
  | cons a as ih =>
    intro vs done s w1 hi ha hv
    cases vs with
    | nil => simp at hv
    | cons v vs =>
    simp only [List.map_cons, List.cons.injEq] at hv
    obtain ⟨h1, h2, h3⟩ := ha a (by simp)
    have hins : Inserted E c w n.seg.ty k done (c.put n s) w1 := ⟨.refl E hc.map hu.mem, hi, hk⟩
    have hsz := hi.size E
    unfold posLoopBase
    rw [runs_bind, runs_onSegU E (hins.inv E hc).map.ids (put_use_self E hu), runs_downcast (hi.step.ty.trans h1.symm)]
    refine (Seg.insertBase_runs E s w1 hi.inv.core (k + done.length) (by omega) a.src v (srcOK_ext h2 hv.1)).mono ?_ ?_
    · rintro r s' w' ⟨b1, rfl, b3⟩
      have hd := hi.append E b1 hk
      have := ih vs (done ++ [v]) s' w' hd (fun a ha' => ha a (by simp [ha'])) hv.2
      rw [put_put]
      simpa [Seg.base, Nat.add_assoc] using this
    · rintro e s' w' hf
      rw [put_put]
      exact rangeFail_mk E hc hu.mem hk hi (Fail.mono E hf h3)

/-- `insert(local_base_iterator,first,last)`. -/
theorem insertPosRangeBase_runs (pos : LIter) (t : Ty) (k : Nat) (as : List (Arg V)) (vs : List V) (copies : Prop) (c : Coll V) (w : World) (hc : c.Inv E w)
    (hp : c.LAtB E pos t k) (ha : ∀ a ∈ as, E.tiTy a.dyn = t ∧ a.src.ext = true ∧ (a.src.copies → copies))
    (hv : as.map (fun a => a.src.val Vec.nil) = vs.map some) :
    Runs (insertPosRangeBase E pos as) c w
      (fun l c' w' => Inserted E c w t k vs c' w' ∧ c'.LAtB E l t k) (RangeFail E c w t k vs copies) := by
  obtain ⟨n, hu, rfl, hk, hp⟩ := hp
  have hlen : as.length = vs.length := by have := congrArg List.length hv; simpa using this
  unfold insertPosRangeBase
  rw [runs_bind, hp]
  have := posLoopBase_runs E c w hc n pos.mapit hu k hk copies as vs [] n.seg w (.nil E (hc.mem.segs n hu.mem) k) ha hv
  simp only [put_self E hc hu.mem, List.nil_append, List.length_nil, Nat.add_zero] at this
  refine this.mono ?_ (fun _ _ _ h => h)
  rintro p c' w' ⟨s', rfl, h1, rfl⟩
  have hsz := h1.size E
  rw [if_neg (by simp only [Seg.base]; omega)]
  refine ⟨⟨.refl E hc.map hu.mem, h1, hk⟩, { n with seg := s' }, put_use_self E hu, h1.step.ty, ?_, ?_⟩
  · show k ≤ s'.size
    omega
  · simp [Seg.base, hlen]

theorem posLoopLocal_runs (c : Coll V) (w : World) (hc : c.Inv E w) (n : Node V) (mapit : MapIt) (hu : c.map.Use E mapit n) (k : Nat) (hk : k ≤ n.seg.size)
    (copies : Prop) (srcs : List (Src V)) : ∀ (vs done : List V) (s : Seg V) (w1 : World), Seg.Ins E n.seg w k done s w1 →
    (∀ a ∈ srcs, a.ext = true ∧ (a.copies → copies)) → srcs.map (Src.val Vec.nil) = vs.map some →
    Runs (posLoopLocal E mapit n.seg.ty (s.loc (k + done.length)) srcs) (c.put n s) w1
      (fun p c' w' => ∃ s', c' = c.put n s' ∧ Seg.Ins E n.seg w k (done ++ vs) s' w' ∧ p = s'.loc (k + (done ++ vs).length))
      (RangeFail E c w n.seg.ty k (done ++ vs) copies) := by
  induction srcs with
  | nil =>
    intro vs done s w1 hi ha hv
    have : vs = [] := by simpa using hv.symm
    subst this
    rw [List.append_nil]
    exact ⟨s, rfl, hi, rfl⟩
  | cons a as ih =>
    intro vs done s w1 hi ha hv
    cases vs with
    | nil => simp at hv
    | cons v vs =>
    simp only [List.map_cons, List.cons.injEq] at hv
    obtain ⟨h2, h3⟩ := ha a (by simp)
    have hins : Inserted E c w n.seg.ty k done (c.put n s) w1 := ⟨.refl E hc.map hu.mem, hi, hk⟩
    have hsz := hi.size E
    unfold posLoopLocal
    rw [runs_bind, runs_onSegU E (hins.inv E hc).map.ids (put_use_self E hu), runs_downcast hi.step.ty]
    refine (Seg.insertLocal_runs E s w1 hi.inv.core (k + done.length) (by omega) a v (srcOK_ext h2 hv.1)).mono ?_ ?_
    · rintro r s' w' ⟨b1, rfl, b3⟩
      have hd := hi.append E b1 hk
      have hsz' := hd.size E
      have hins' : Inserted E c w n.seg.ty k (done ++ [v]) (c.put n s') w' := ⟨.refl E hc.map hu.mem, hd, hk⟩
      have := ih vs (done ++ [v]) s' w' hd (fun a ha' => ha a (by simp [ha'])) hv.2
      rw [put_put, runs_bind, runs_get, runs_bind]
      simp only [List.length_append, List.length_singleton] at hsz'
      have hl := toLocal_use E (Inv.core E (hins'.inv E hc)) (put_use_self E (s := s') hu) (show k + done.length ≤ s'.size by omega)
      simp only at hl
      rw [hl, runs_some]
      simpa [Seg.loc, Vec.ptr, Nat.add_assoc] using this
    · rintro e s' w' hf
      rw [put_put]
      exact rangeFail_mk E hc hu.mem hk hi (Fail.mono E hf h3)

/-- `insert(local_iterator<T>,first,last)`. -/
theorem insertPosRangeLocal_runs (pos : LIter) (t : TI) (k : Nat) (srcs : List (Src V)) (vs : List V) (copies : Prop) (c : Coll V) (w : World) (hc : c.Inv E w)
    (hp : c.LAtL E pos (E.tiTy t) k) (ha : ∀ a ∈ srcs, a.ext = true ∧ (a.copies → copies))
    (hv : srcs.map (Src.val Vec.nil) = vs.map some) :
    Runs (insertPosRangeLocal E pos t srcs) c w
      (fun l c' w' => Inserted E c w (E.tiTy t) k vs c' w' ∧ c'.LAtL E l (E.tiTy t) k) (RangeFail E c w (E.tiTy t) k vs copies) := by
  obtain ⟨n, hu, ht, hk, hp⟩ := hp
  have hlen : srcs.length = vs.length := by have := congrArg List.length hv; simpa using this
  unfold insertPosRangeLocal
  rw [runs_bind, hp, ← ht]
  have := posLoopLocal_runs E c w hc n pos.mapit hu k hk copies srcs vs [] n.seg w (.nil E (hc.mem.segs n hu.mem) k) ha hv
  simp only [put_self E hc hu.mem, List.nil_append, List.length_nil, Nat.add_zero] at this
  refine this.mono ?_ (fun _ _ _ h => h)
  rintro p c' w' ⟨s', rfl, h1, rfl⟩
  have hsz := h1.size E
  rw [if_neg (by simp only [Seg.loc, Vec.ptr]; omega)]
  refine ⟨⟨.refl E hc.map hu.mem, h1, hk⟩, { n with seg := s' }, put_use_self E hu, h1.step.ty, ?_, ?_⟩
  · show k ≤ s'.size
    omega
  · simp [Seg.loc, Vec.ptr, hlen]

end Coll
end PolyColl
