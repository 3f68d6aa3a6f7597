import Verif.Lemmas.Effort
import Verif.Props.Counts
/-!
# C87 The cost of traversing and erasing

`reference.qbk` 98, 624, 633; `detail/iterator_impl.hpp` 101-116.
-/

namespace PolyColl.Sample
open PolyColl Prog Coll Spec PolyColl.Props

/-- A collection with `n` segments of which only the one with number `i` has an element. -/
theorem sparse (k : Kind) {n i : Nat} (hi : i < n) :
    ∃ c w, Coll.Reachable E0 k c w ∧ ∃ (A B : State Nat) (t : Ty), c.abs = A ++ (t, [7]) :: B ∧ A.length = i ∧ i + 1 + B.length = n ∧
      (∀ p ∈ A, p.2 = []) ∧ ∀ p ∈ B, p.2 = [] := by
  have hu : Uses E0 k sub [] (fun _ => Coll.empty' k 0) ⟨1, 0⟩ := .start (fun _ => 0) ⟨1, 0⟩ (by decide)
  have hsub : ∀ t, E0.tiTy (sub t) = t := fun t => Nat.mul_div_cancel_left t (by decide)
  have he : (Coll.empty' (V := Nat) k 0).abs = [] := by cases k <;> rfl
  have nice : ∀ t, 5 ≤ t → E0.traits t = ⟨true, true, true, true, true, true, true⟩ := by
    intro t ht
    obtain ⟨u, rfl⟩ : ∃ u : Nat, t = u + 5 := ⟨t - 5, (Nat.sub_add_cancel ht).symm⟩
    rfl
  let us : List Ty := (List.range n).map (· + 5)
  have hm1 : (Op.on 0 (.registerTypes (us.map sub))).Means E0 (fun _ => Coll.empty' k 0) (.on 0 (.register us)) := by
    refine ⟨_, rfl, ?_⟩
    rw [List.map_map]
    congr 2
    exact ((List.map_congr_left fun t _ => hsub t).trans (List.map_id us)).symm
  have hp1 : (Op.on 0 (.registerTypes (us.map sub))).Pre E0 (fun _ => Coll.empty' (V := Nat) k 0) := trivial
  obtain ⟨s1, w1, h1, h2⟩ := C66_returns hsub hu (fun _ _ => rfl) hp1 (by
    rintro e' ⟨t, ht, ⟨rfl, -⟩ | ⟨rfl, -⟩ | ⟨rfl, h⟩ | ⟨rfl, h, -⟩⟩
    · exact .inl rfl
    · exact .inr rfl
    · unfold Env.TooMany at h
      have : E0.maxSize (E0.tiTy t) = 1000 ∧ E0.idxMaxSize = 1001 := ⟨rfl, rfl⟩
      omega
    · obtain ⟨u, hu, rfl⟩ := List.mem_map.1 ht
      obtain ⟨j, -, rfl⟩ := List.mem_map.1 hu
      rw [hsub, nice _ (Nat.le_add_left 5 j)] at h
      exact absurd h (by decide)) hm1
  have hu1 := hu.ok _ _ hp1.apt hm1 h1
  obtain ⟨-, h3⟩ := h2
  have h3 : State.Registered us [] (s1 0).abs := he ▸ h3
  have hnd : (s1 0).abs.types.Nodup := h3.nodup List.nodup_nil
  have hty : ∀ t, t ∈ (s1 0).abs.types ↔ t ∈ us := fun t => by rw [h3.types]; simp [State.types]
  have hus : us.Nodup := by
    refine List.Pairwise.map _ ?_ List.nodup_range
    intro a b h e
    exact h (Nat.add_right_cancel e)
  have hlen : (s1 0).abs.length = n := by
    have hpm : (s1 0).abs.types.Perm us := (List.perm_ext_iff_of_nodup hnd hus).2 hty
    have := hpm.length_eq
    simpa [State.types, us] using this
  have hem : ∀ p ∈ (s1 0).abs, p.2 = [] := by
    intro p hp
    have := h3.elems p.1
    rw [State.elemsOf, (State.get_some hnd (t := p.1) (l := p.2)).2 hp] at this
    exact this
  obtain ⟨t, ht⟩ : ∃ t, (s1 0).abs[i]? = some (t, []) := by
    have hi' : i < (s1 0).abs.length := by omega
    refine ⟨((s1 0).abs[i]).1, ?_⟩
    rw [List.getElem?_eq_getElem hi']
    exact congrArg some (Prod.ext rfl (hem _ (List.getElem_mem hi')))
  obtain ⟨A, B, hAB, hA⟩ : ∃ A B, (s1 0).abs = A ++ (t, []) :: B ∧ A.length = i := by
    have hi' : i < (s1 0).abs.length := by omega
    refine ⟨(s1 0).abs.take i, (s1 0).abs.drop (i + 1), ?_, by simp; omega⟩
    rw [List.getElem?_eq_getElem hi'] at ht
    rw [← Option.some.inj ht, ← List.drop_eq_getElem_cons hi', List.take_append_drop]
  have htm : t ∈ (s1 0).abs.types := by rw [hAB]; simp [State.types]
  have ht5 : 5 ≤ t := by
    obtain ⟨j, -, rfl⟩ := List.mem_map.1 ((hty t).1 htm)
    exact Nat.le_add_left 5 j
  have hel : (s1 0).abs.elemsOf t = [] := h3.elems t
  have hp2 : (Op.on 0 (.emplace (sub t) (.emplaced 7))).Pre E0 s1 := ⟨7, .inl ⟨rfl, rfl⟩⟩
  have hm2 : (Op.on 0 (.emplace (sub t) (.emplaced 7))).Means E0 s1 (.on 0 (.insert t 0 [7])) := by
    refine ⟨_, ⟨7, .inl ⟨rfl, rfl⟩, ?_⟩, rfl⟩
    rw [hsub, hel]
    rfl
  obtain ⟨s2, w2, g1, g2⟩ := C66_returns hsub hu1 (fun _ _ => rfl) hp2 (by
    rintro e' h
    rcases (h : E0.AddExc (s1 0).abs (E0.tiTy (sub t)) _ 1 e') with ⟨rfl, -⟩ | ⟨rfl, -⟩ | ⟨rfl, h⟩ | ⟨rfl, h, -⟩
    · exact .inl rfl
    · exact .inr rfl
    · rw [hsub, hel] at h
      unfold Env.TooMany at h
      have : E0.maxSize t = 1000 ∧ E0.idxMaxSize = 1001 := ⟨rfl, rfl⟩
      have h0 : ([] : List Nat).length = 0 := rfl
      omega
    · rw [hsub, nice _ ht5] at h
      exact absurd h (by decide)) hm2
  refine ⟨s2 0, w2, ⟨sub, _, s2, 0, hsub, uses_good (hu1.ok _ _ hp2.apt hm2 g1), rfl, rfl⟩, A, B, t, ?_, hA, ?_, ?_, ?_⟩
  · obtain ⟨-, -, s3, hs, g3⟩ := g2
    rcases hs with ⟨-, rfl⟩ | ⟨h, -⟩
    · rw [show (s2 0).abs = State.insertAt t 0 [7] (s1 0).abs from g3, hAB]
      rw [hAB] at hnd
      have hs := State.split_nodup hnd
      rw [State.insertAt, State.update_split _ hs.1 hs.2]
      rfl
    · exact absurd htm h
  · have := hlen
    rw [hAB, List.length_append, List.length_cons] at this
    omega
  · exact fun p hp => hem p (by rw [hAB]; simp [hp])
  · exact fun p hp => hem p (by rw [hAB]; simp [hp])

theorem toFirst_empties {A : State Nat} (h : ∀ p ∈ A, p.2 = []) (s : State Nat) : State.toFirst (A ++ s) = A.length + s.toFirst := by
  induction A with
  | nil => simp
  | cons p A ih =>
    have h1 : p.2 = [] := h p (by simp)
    have h2 := ih fun q hq => h q (by simp [hq])
    simp only [List.cons_append, State.toFirst, h1, if_true, h2, List.length_cons]
    omega

end PolyColl.Sample

namespace PolyColl.Props
open PolyColl Prog Coll Spec PolyColl.Work

section
variable {V : Type} {E : Env V} {k : Kind}

/-- **C87** Apart from the numbers, the functions that count are those of the model. -/
theorem C87_same (c : Coll V) (w : World) :
    (c.beginE E).map (·.1) = c.begin E ∧
    (∀ it, (c.map.incrementE E it).map (·.1) = c.map.increment E it) ∧
    (∀ last it fuel, (c.walkE E last it fuel).map (·.1) = c.walk E last it fuel) ∧
    (∀ it, Prog.bind (eraseE E it) (fun r => Prog.pure r.1) c w = erase E it c w) ∧
    (∀ it last, Prog.bind (eraseRangeE E it last) (fun r => Prog.pure r.1) c w = eraseRange E it last c w) ∧
    Prog.bind (clearAllE E) (fun _ => Prog.pure ()) c w = clearAll c w ∧
    (emptyE c.map.nodes).1 = c.empty ∧ (sizeE c.map.nodes).1 = c.size :=
  ⟨TMap.iter2E_fst E _ _, TMap.incrementE_fst E _, fun _ _ _ => walkE_fst E _ _ _ _, fun it => eraseE_forgets E it c w,
    fun it last => eraseRangeE_forgets E it last c w, clearAllE_fst E c w, emptyE_fst _, by rw [sizeE_eq]; rfl⟩

example (k : Kind) : ∃ r c' w', eraseE Sample.E0 (Sample.iter k 3) (Sample.c0 k) (Sample.w0 k) = .ok r c' w' ∧ r.2.segs = 2 ∧
    c'.abs = [(1, [9]), (0, [1, 2]), (5, []), (2, [7])] := by
  cases k <;> exact ⟨_, _, _, rfl, rfl, rfl⟩

/-- **C87** What is counted on elements is the work (C84) of the operation on the segment that is run: positions in a segment
are its numbers. -/
theorem C87_counted (x : Seg V) (w : World) (a b : Nat) :
    SegOp.run E (.eraseBase a) x w = Prog.bind (Seg.eraseBase E (x.base a)) (fun _ => Prog.pure ()) x w ∧
    SegOp.run E (.eraseRangeBase a b) x w = Prog.bind (Seg.eraseRangeBase E (x.base a) (x.base b)) (fun _ => Prog.pure ()) x w ∧
    SegOp.run E (.eraseTillEnd a) x w = Prog.bind (Seg.eraseTillEnd E (x.base a)) (fun _ => Prog.pure ()) x w ∧
    SegOp.run E (.eraseFromBegin b) x w = Prog.bind (Seg.eraseFromBegin E (x.base b)) (fun _ => Prog.pure ()) x w ∧
    SegOp.run E .clear x w = Seg.clear x w ∧ (x.base a).off = a :=
  ⟨rfl, rfl, rfl, rfl, rfl, rfl⟩

example (k : Kind) : ∃ x ∈ (Sample.c0 k).map.nodes, x.seg.elems = [1, 2, 3] ∧ work Sample.E0 (.eraseBase 1) x.seg = (if k = .packed then 2 else 3) := by
  cases k
  · exact ⟨_, .tail _ (.head _), rfl, rfl⟩
  · exact ⟨_, .tail _ (.head _), rfl, rfl⟩

/-- **C87** `begin()` looks at the empty segments in front and, if there is one, the segment after them. -/
theorem C87_begin {c : Coll V} {w : World} (hc : Reachable E k c w) :
    ∃ it, c.beginE E = some (it, c.abs.toFirst) ∧ c.At E it c.abs.first :=
  beginE_eq E hc.inv

example (k : Kind) : Reachable Sample.E0 k (Sample.c0 k) (Sample.w0 k) ∧ (Sample.c0 k).beginE Sample.E0 = some (Sample.iter k 0, 1) := by
  refine ⟨Sample.reach0 k, ?_⟩
  cases k <;> rfl

/-- **C87** `++` looks at no segment within a segment, and after its last element at the empty segments that follow and the one
after them. -/
theorem C87_increment {c : Coll V} {w : World} (hc : Reachable E k c w) {it : GIter} {t : Ty} {j : Nat} (ha : c.At E it (some (t, j))) :
    ∃ it', c.map.incrementE E it = some (it', if j + 1 < (c.abs.elemsOf t).length then 0 else (c.abs.after t).toFirst) ∧
      c.At E it' (c.abs.norm t (j + 1)) :=
  incrementE_eq E hc.inv ha

/-- From the last element of type 0 over the empty segment of type 5. -/
example (k : Kind) : Reachable Sample.E0 k (Sample.c0 k) (Sample.w0 k) ∧ (Sample.c0 k).At Sample.E0 (Sample.iter k 3) (some (0, 2)) ∧
    (Sample.c0 k).map.incrementE Sample.E0 (Sample.iter k 3) = some (Sample.iter k 4, 2) ∧
    (Sample.c0 k).map.incrementE Sample.E0 (Sample.iter k 2) = some (Sample.iter k 3, 0) := by
  refine ⟨Sample.reach0 k, Sample.iter_three k, ?_⟩
  cases k <;> exact ⟨rfl, rfl⟩

/-- **C87** Going through a collection from `begin()` to `end()` meets every element and looks at every segment exactly once. -/
theorem C87_traversal {c : Coll V} {w : World} (hc : Reachable E k c w) :
    ∃ it n m, c.beginE E = some (it, n) ∧ c.walkE E c.end it (c.abs.flat.length + 1) = some (c.abs.flat, m) ∧ n + m = c.abs.length := by
  obtain ⟨it, h1, h2⟩ := beginE_eq E hc.inv
  have hr : c.abs.rank c.abs.first = 0 := Spec.State.rank_first (abs_nodup' E hc.inv.map)
  have hr' : c.abs.rank none = c.abs.flat.length := by simp [Spec.State.rank]
  obtain ⟨m, h3, h4⟩ := walkE_at E hc.inv (at_end E c) c.abs.flat.length it _ (c.abs.flat.length + 1) h2 (by omega) (by omega)
  refine ⟨it, _, m, h1, ?_, ?_⟩
  · rw [h3, hr, List.drop_zero, List.take_length]
  · have := Spec.State.toFirst_ahead c.abs [] (abs_nodup' E hc.inv.map)
    have h5 : c.abs.ahead none = 0 := rfl
    simp only [List.nil_append] at this
    omega

example (k : Kind) : Reachable Sample.E0 k (Sample.c0 k) (Sample.w0 k) ∧ (Sample.c0 k).abs.length = 4 ∧
    (Sample.c0 k).walkE Sample.E0 (Sample.c0 k).end (Sample.iter k 0) 6 = some ([9, 1, 2, 3, 7], 3) := by
  refine ⟨Sample.reach0 k, by rw [Sample.abs0]; rfl, ?_⟩
  cases k <;> rfl

/-- **C87** Between any two places a walk looks at the segments after that of the first up to that of the second. -/
theorem C87_walk {c : Coll V} {w : World} (hc : Reachable E k c w) {it last : GIter} {p q : State.Pos} (hp : c.At E it p) (hq : c.At E last q)
    (hpq : c.abs.rank p ≤ c.abs.rank q) :
    ∃ m, c.walkE E last it (c.abs.rank q - c.abs.rank p + 1) = some ((c.abs.between p q).map (·.2), m) ∧ m + c.abs.ahead q = c.abs.ahead p := by
  obtain ⟨m, h1, h2⟩ := walkE_at E hc.inv hq (c.abs.rank q - c.abs.rank p) it p (c.abs.rank q - c.abs.rank p + 1) hp (by omega) (by omega)
  refine ⟨m, ?_, h2⟩
  rw [h1, State.between, List.map_take, List.map_drop, State.typedFlat_snd]

example (k : Kind) : (Sample.c0 k).At Sample.E0 (Sample.iter k 2) (some (0, 1)) ∧ (Sample.c0 k).At Sample.E0 (Sample.c0 k).end none ∧
    (Sample.c0 k).abs.rank (some (0, 1)) ≤ (Sample.c0 k).abs.rank none ∧ (Sample.c0 k).abs.ahead (some (0, 1)) = 2 ∧
    (Sample.c0 k).walkE Sample.E0 (Sample.c0 k).end (Sample.iter k 2) 4 = some ([2, 3, 7], 2) := by
  refine ⟨Sample.iter_two k, Sample.iter_end k, by rw [Sample.abs0]; decide, by rw [Sample.abs0]; rfl, ?_⟩
  cases k <;> rfl

/-- **C87** Whatever mixture of `++it`, `it=c.erase(it)` and `it=c.erase(it,last)` is used to go through a collection, no segment is
looked at twice: the segments looked at and those still ahead are all the segments. -/
theorem C87_sweep {c c' : Coll V} {w w' : World} (hc : Reachable E k c w) {it it' : GIter} {n m : Nat} (hb : c.beginE E = some (it, n))
    (h : Sweep E c w it m c' w' it') :
    n + m ≤ c.abs.length ∧ (it'.segpos = c'.end.segpos → n + m = c.abs.length) ∧ c'.abs.length = c.abs.length ∧
      ∃ p, c'.At E it' p ∧ n + m + c'.abs.ahead p = c.abs.length := by
  obtain ⟨it0, h1, h2⟩ := beginE_eq E hc.inv
  rw [hb] at h1
  cases h1
  obtain ⟨g1, -, g3, p', g4, g5⟩ := sweep_inv E h hc.inv h2
  have := Spec.State.toFirst_ahead c.abs [] (abs_nodup' E hc.inv.map)
  simp only [List.nil_append] at this
  refine ⟨by omega, fun e => ?_, g3, p', g4, by omega⟩
  have : p' = none := (at_eq E (Inv.core E g1) g4 (at_end E _)).1 e
  subst this
  have h5 : c'.abs.ahead none = 0 := rfl
  omega

/-- Pass over the first two elements, erase the third and the fourth, pass over the last. -/
example (k : Kind) : ∃ c' w' it', Sweep Sample.E0 (Sample.c0 k) (Sample.w0 k) (Sample.iter k 0) 3 c' w' it' ∧
    (Sample.c0 k).beginE Sample.E0 = some (Sample.iter k 0, 1) ∧ it'.segpos = c'.end.segpos ∧
    c'.abs = [(1, [9]), (0, [1]), (5, []), (2, [7])] := by
  cases k
  · have h0 : Sweep Sample.E0 (Sample.c0 .packed) (Sample.w0 .packed) (Sample.iter .packed 0) 0 _ _ _ := .start
    have h1 := h0.pass (it2 := Sample.iter .packed 1) (m := 1) (by decide) rfl
    have h2 := h1.pass (it2 := Sample.iter .packed 2) (m := 0) (by decide) rfl
    have h3 := h2.erase (Nat.le_refl _) (by decide) rfl
    have h4 := h3.erase (Nat.le_refl _) (by decide) rfl
    have h5 := h4.pass (m := 0) (by decide) rfl
    exact ⟨_, _, _, h5, rfl, rfl, rfl⟩
  · have h0 : Sweep Sample.E0 (Sample.c0 .split) (Sample.w0 .split) (Sample.iter .split 0) 0 _ _ _ := .start
    have h1 := h0.pass (it2 := Sample.iter .split 1) (m := 1) (by decide) rfl
    have h2 := h1.pass (it2 := Sample.iter .split 2) (m := 0) (by decide) rfl
    have h3 := h2.erase (Nat.le_refl _) (by decide) rfl
    have h4 := h3.erase (Nat.le_refl _) (by decide) rfl
    have h5 := h4.pass (m := 0) (by decide) rfl
    exact ⟨_, _, _, h5, rfl, rfl, rfl⟩

/-- **C87** Erasing an element takes work for the element and those behind it in its segment, and for an index entry: linear in the number of elements behind it in its segment, and looks for the next
element as `++` does.  Missing: the number of segments looked at is not bounded by what is documented (`C87_erase_far`). -/
theorem C87_erase_partial {c : Coll V} {w : World} (hc : Reachable E k c w) {it : GIter} {t : Ty} {j : Nat} (ha : c.At E it (some (t, j))) :
    Runs (eraseE E it) c w
      (fun r c' _ => r.2.els = 1 + ((c.abs.elemsOf t).length - (j + 1)) + k.entries 1 ∧
        r.2.els ≤ 2 * (1 + ((c.abs.elemsOf t).length - (j + 1))) ∧
        r.2.segs = (if j + 1 < (c.abs.elemsOf t).length then 0 else (c.abs.after t).toFirst) ∧
        c'.abs = c.abs.update t (·.eraseIdx j) ∧ c'.At E r.1 (c'.abs.norm t j)) (fun _ _ _ => True) := by
  refine (runs_and (eraseE_runs E it t j c w hc.inv ha) (eraseE_all E it t j c w hc.inv ha)).mono ?_ (fun _ _ _ _ => trivial)
  rintro r c' w' ⟨⟨h1, h2⟩, h3, h4, -⟩
  rw [hc.kind] at h2
  have := entries_le k 1
  exact ⟨h2, by omega, h1, h3.abs, h4⟩

example (k : Kind) : (Sample.c0 k).At Sample.E0 (Sample.iter k 2) (some (0, 1)) ∧ ((Sample.c0 k).abs.elemsOf 0).length - (1 + 1) = 1 ∧
    ∃ r c' w', eraseE Sample.E0 (Sample.iter k 2) (Sample.c0 k) (Sample.w0 k) = .ok r c' w' ∧ r.2 = ⟨if k = .packed then 2 else 3, 0⟩ := by
  refine ⟨Sample.iter_two k, by rw [Sample.abs0]; rfl, ?_⟩
  cases k <;> exact ⟨_, _, _, rfl, rfl⟩

/-- **C87** Erasing a range takes work linear in the number of elements erased plus those behind the last one in its segment; no
segment up to the place returned is looked at twice.  Missing: the number of segments looked at is not bounded by what is
documented (`C87_erase_far`). -/
theorem C87_erase_range_partial {c : Coll V} {w : World} (hc : Reachable E k c w) {first last : GIter} {p q : State.Pos} (hp : c.At E first p)
    (hq : c.At E last q) (hpq : c.abs.rank p ≤ c.abs.rank q) :
    Runs (eraseRangeE E first last) c w
      (fun r c' _ => r.2.els = c.abs.eraseAllowance (c.abs.rank p) (c.abs.rank q) + k.entries (c.abs.rank q - c.abs.rank p) ∧
        r.2.els ≤ 2 * c.abs.eraseAllowance (c.abs.rank p) (c.abs.rank q) ∧
        c'.abs = c.abs.removeRange (c.abs.rank p) (c.abs.rank q) ∧
        ∃ p', c'.At E r.1 p' ∧ c'.abs.rank p' = c.abs.rank p ∧ r.2.segs + c'.abs.ahead p' = c.abs.ahead p) (fun _ _ _ => True) := by
  refine (runs_and ((eraseRangeE_forgets E first last).runs (eraseRange_runs E first last p q c w hc.inv hp hq hpq))
    (eraseRangeE_runs E first last p q c w hc.inv hp hq hpq)).mono ?_ (fun _ _ _ _ => trivial)
  rintro r c' w' ⟨⟨h1, p1, h2, h3⟩, h4, p2, h5, h6⟩
  have : p1 = p2 := (at_eq E (Inv.core E h1.inv) h2 h5).1 rfl
  subst this
  rw [hc.kind] at h4
  have hle := entries_le k (c.abs.rank q - c.abs.rank p)
  have hal : c.abs.rank q - c.abs.rank p ≤ c.abs.eraseAllowance (c.abs.rank p) (c.abs.rank q) := by
    unfold State.eraseAllowance
    split <;> omega
  exact ⟨h4, by omega, h1.abs, p1, h5, h3, h6⟩

/-- Three elements are erased, two segments looked at. -/
example (k : Kind) : Range Sample.E0 (Sample.c0 k) (Sample.iter k 2) (Sample.c0 k).end (some (0, 1)) none ∧
    (Sample.c0 k).abs.eraseAllowance 2 5 = 3 ∧ (Sample.c0 k).abs.eraseAllowance 0 2 = 4 ∧
    ∃ r c' w', eraseRangeE Sample.E0 (Sample.iter k 2) (Sample.c0 k).end (Sample.c0 k) (Sample.w0 k) = .ok r c' w' ∧
      r.2 = ⟨if k = .packed then 3 else 6, 2⟩ := by
  refine ⟨range0 k, by rw [Sample.abs0]; rfl, by rw [Sample.abs0]; rfl, ?_⟩
  cases k <;> exact ⟨_, _, _, rfl, rfl⟩

/-- **C87** `clear()` takes work linear in the number of elements and looks at every segment once. -/
theorem C87_clear {c : Coll V} {w : World} (hc : Reachable E k c w) :
    Runs (clearAllE E) c w (fun e c' _ => e.els = c.abs.flat.length + k.entries c.abs.flat.length ∧ e.els ≤ 2 * c.abs.flat.length ∧
        e.segs = c.abs.length ∧ c'.abs = c.abs.cleared) (fun _ _ _ => False) := by
  have h1 := clearAll_runs E c w hc.inv.core
  have h2 := clearAllE_runs E c w hc.inv
  have h3 := clearAllE_fst E c w
  unfold Runs at *
  rw [← h3] at h1
  unfold Prog.bind at h1
  cases hr : clearAllE E c w <;> rw [hr] at h1 h2
  · have hk := h2.1
    rw [hc.kind, size_abs] at hk
    have hle := entries_le k c.abs.flat.length
    refine ⟨hk, by omega, ?_, ?_⟩
    · rw [abs_eq, absNodes, List.length_map]; exact h2.2
    · exact (h1 : Removed ..).abs
  · exact h1
  · exact h1

example (k : Kind) : Reachable Sample.E0 k (Sample.c0 k) (Sample.w0 k) ∧
    ∃ c' w', clearAllE Sample.E0 (Sample.c0 k) (Sample.w0 k) = .ok ⟨if k = .packed then 5 else 10, 4⟩ c' w' := by
  refine ⟨Sample.reach0 k, ?_⟩
  cases k <;> exact ⟨_, _, rfl⟩

/-- **C87** `empty()` looks at as many segments as `begin()`, `size()` at every segment once. -/
theorem C87_empty_size (c : Coll V) :
    (emptyE c.map.nodes).2 = c.abs.toFirst ∧ c.abs.toFirst ≤ c.abs.length ∧ (sizeE c.map.nodes).2 = c.abs.length := by
  refine ⟨by rw [emptyE_snd, abs_eq], ?_, by rw [sizeE_eq, abs_eq, absNodes, List.length_map]⟩
  generalize c.abs = s
  induction s with
  | nil => exact Nat.le_refl _
  | cons p s ih =>
    simp only [State.toFirst, List.length_cons]
    split
    · omega
    · omega

example (k : Kind) : emptyE (Sample.c0 k).map.nodes = (false, 1) ∧ sizeE (Sample.c0 k).map.nodes = (5, 4) := by
  cases k <;> exact ⟨rfl, rfl⟩

end

/-! ### What is not so -/

/-- **C87** `begin()` and `empty()` are not constant: a collection with one element where they look at any number of segments. -/
theorem C87_begin_far (k : Kind) (K : Nat) : ∃ c w, Reachable Sample.E0 k c w ∧ c.abs.flat.length = 1 ∧
    ∃ it n, c.beginE Sample.E0 = some (it, n) ∧ K < n ∧ (emptyE c.map.nodes).2 = n := by
  obtain ⟨c, w, hc, A, B, t, habs, hA, hn, hA', hB'⟩ := Sample.sparse k (n := K + 1) (i := K) (by omega)
  obtain ⟨it, h1, -⟩ := beginE_eq Sample.E0 hc.inv
  have hfl : ∀ s : State Nat, (∀ p ∈ s, p.2 = []) → s.flat = [] := fun s h => List.flatMap_eq_nil_iff.2 h
  refine ⟨c, w, hc, ?_, it, _, h1, ?_, (C87_empty_size c).1⟩
  · rw [habs]
    have h1 := hfl _ hA'
    have h2 := hfl _ hB'
    simp only [State.flat] at h1 h2 ⊢
    simp [h1, h2]
  · rw [habs, Sample.toFirst_empties hA']
    simp only [State.toFirst, if_neg (List.cons_ne_nil _ _)]
    omega

/-- **C87** Erasing an element behind which there is none in its segment may look at any number of segments, against
`reference.qbk` 624; so may passing over it. -/
theorem C87_erase_far (k : Kind) (K : Nat) : ∃ c w it t, Reachable Sample.E0 k c w ∧ c.At Sample.E0 it (some (t, 0)) ∧
    c.abs.eraseAllowance (c.abs.rank (some (t, 0))) (c.abs.rank (some (t, 0)) + 1) = 1 ∧
    (∃ r c' w', eraseE Sample.E0 it c w = .ok r c' w' ∧ r.2.els ≤ 2 ∧ K < r.2.segs) ∧
    (∃ r c' w', eraseRangeE Sample.E0 it c.end c w = .ok r c' w' ∧ r.2.els ≤ 2 ∧ K < r.2.segs) ∧
    ∃ r, c.map.incrementE Sample.E0 it = some r ∧ K < r.2 := by
  obtain ⟨c, w, hc, A, B, t, habs, hA, hn, hA', hB'⟩ := Sample.sparse k (n := K + 2) (i := 0) (by omega)
  obtain rfl : A = [] := List.length_eq_zero_iff.1 hA
  rw [List.nil_append] at habs
  obtain ⟨it, -, h2⟩ := beginE_eq Sample.E0 hc.inv
  have hf : c.abs.first = some (t, 0) := by rw [habs]; simp [State.first]
  rw [hf] at h2
  have hel : c.abs.elemsOf t = [7] := by rw [habs]; simp [State.elemsOf, State.get]
  have haf : c.abs.after t = B := by rw [habs]; simp [State.after]
  have hB : B.toFirst = B.length := by
    have := Sample.toFirst_empties hB' []
    simpa [State.toFirst] using this
  have hseg : (if 0 + 1 < (c.abs.elemsOf t).length then 0 else (c.abs.after t).toFirst) = K + 1 := by
    rw [hel, haf, hB, if_neg (by decide)]
    omega
  have hfl : B.flat = [] := List.flatMap_eq_nil_iff.2 hB'
  have hrk : c.abs.rank (some (t, 0)) = 0 := by rw [← hf]; exact State.rank_first (abs_nodup' _ hc.inv.map)
  have hrn : c.abs.rank none = 1 := by
    rw [habs]
    simp only [State.flat] at hfl
    simp [State.rank, State.flat, hfl]
  have hal : c.abs.eraseAllowance 0 1 = 1 := by
    have hnd := abs_nodup' Sample.E0 hc.inv.map
    rw [habs] at hnd ⊢
    have := State.distance_split (A := []) (B := B) (t := t) (l := [7]) hnd (j := 1) (by decide) (by decide)
    have : State.distance ((t, [7]) :: B) 1 = 0 := this
    simp [State.eraseAllowance, this]
  refine ⟨c, w, it, t, hc, h2, by rw [hrk]; exact hal, ?_, ?_, ?_⟩
  · have h3 := C87_erase_partial hc h2
    have h4 := erase_runs Sample.E0 it t 0 c w hc.inv h2
    have h5 := (eraseE_forgets Sample.E0 it).runs h4
    unfold Runs at h3 h5
    cases hr : eraseE Sample.E0 it c w with
    | ub => rw [hr] at h3; exact h3.elim
    | exc e c' w' =>
      rw [hr] at h5
      obtain ⟨n, hn, rfl, hk, -⟩ := h5
      have : n.seg.elems = c.abs.elemsOf n.seg.ty := (Ens.refl _ hc.inv.map hn).elems _ hc.inv.map
      rw [Seg.size_eq, this, hel] at hk
      exact absurd hk (by decide)
    | ok r c' w' =>
      rw [hr] at h3
      obtain ⟨-, h6, h7, -⟩ := h3
      rw [hel] at h6
      exact ⟨r, c', w', rfl, h6, by rw [h7, hseg]; omega⟩
  · have h3 := C87_erase_range_partial hc h2 (at_end Sample.E0 c) (by omega)
    have h4 := (eraseRangeE_forgets Sample.E0 it c.end).runs (eraseRange_runs Sample.E0 it c.end _ none c w hc.inv h2 (at_end _ c) (by omega))
    unfold Runs at h3 h4
    cases hr : eraseRangeE Sample.E0 it c.end c w with
    | ub => rw [hr] at h3; exact h3.elim
    | exc e c' w' =>
      rw [hr] at h4
      obtain ⟨-, ⟨n, -, -, s, -, hf, -⟩, -⟩ := h4
      obtain ⟨m, hm⟩ := hf.fault
      cases hm
    | ok r c' w' =>
      rw [hr] at h3 h4
      obtain ⟨-, h6, h7, p', h8, h9, h10⟩ := h3
      rw [hrk, hrn, hal] at h6
      have hi' := h4.1.inv
      have hfl' : c'.abs.flat.length = 0 := by
        rw [h7, hrk, hrn, State.flat_removeRange _ (by decide), habs]
        simp only [State.flat] at hfl
        simp [State.flat, hfl]
      have hv := h8.valid _ hi'.map
      have hp' : p' = none := by
        cases p' with
        | none => rfl
        | some x =>
          have := State.rank_lt hv
          omega
      subst hp'
      refine ⟨r, c', w', rfl, h6, ?_⟩
      have h11 : c'.abs.ahead none = 0 := rfl
      have h12 : c.abs.ahead (some (t, 0)) = (c.abs.after t).length := rfl
      rw [haf] at h12
      omega
  · obtain ⟨it', h3, -⟩ := incrementE_eq _ hc.inv h2
    rw [hseg] at h3
    exact ⟨_, h3, by show K < K + 1; omega⟩

end PolyColl.Props
