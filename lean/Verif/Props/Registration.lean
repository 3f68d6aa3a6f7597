import Verif.Props.SampleData
/-!
# Properties C01 to C04: registration and look-up
-/

namespace PolyColl.Props
open PolyColl Prog Coll

variable {V : Type} {E : Env V} {k : Kind}

/-- **C01.**  In every collection a program can have, after whatever operations, look-up of a type
by `std::type_info` object `t` is right: if the type of `t` is registered, there is one segment
of that type and looking up any `std::type_info` object of the type yields that segment; if
it is not, nothing is found.  This goes for the three look-up functions: `is_registered`, the one
used by segment-specific operations (`forInfo`) and the one used by insertions (`find`, which may
update the look-up cache but nothing else). -/
theorem C01_lookup {c : Coll V} {w : World} (h : c.Possible E k w) (t : TI) :
    (E.tiTy t ∈ c.abs.types →
      ∃ n ∈ c.map.nodes, n.seg.ty = E.tiTy t ∧ (∀ m ∈ c.map.nodes, m.seg.ty = E.tiTy t → m = n) ∧
        ∀ u, E.tiTy u = E.tiTy t → c.isRegistered E u = true ∧ forInfo E u c w = .ok (c.map.itTo n) c w ∧
          Runs (onMap (TMap.find E u)) c w
            (fun it c' _ => it = c'.map.itTo n ∧ c'.map.nodes = c.map.nodes)
            (fun e c' _ => e = .badAlloc ∧ (∃ i, E.fault i = true) ∧ c' = c)) ∧
    (E.tiTy t ∉ c.abs.types →
      c.isRegistered E t = false ∧ forInfo E t c w = .exc (.unregistered (E.tiTy t)) c w ∧
        Runs (onMap (TMap.find E t)) c w
          (fun it c' _ => it.node = none ∧ c'.map.nodes = c.map.nodes)
          (fun e c' _ => e = .badAlloc ∧ (∃ i, E.fault i = true) ∧ c' = c)) := by
  have hi := h.map
  constructor
  · intro ht
    obtain ⟨n, hn, hnt⟩ := types_mem ht
    have uniq : ∀ m ∈ c.map.nodes, m.seg.ty = E.tiTy t → m = n := fun m hm hmt =>
      eq_of_nodup (hi.nodup_ty E) hm hn (hmt.trans hnt.symm)
    refine ⟨n, hn, hnt, uniq, fun u hu => ⟨(isRegistered_iff E hi u).2 (hu ▸ ht), ?_, ?_⟩⟩
    · have hr := forInfo_runs E u c w hi
      unfold Runs at hr
      split at hr
      · rename_i it c' w' he
        obtain ⟨rfl, rfl, m, hm, hmt⟩ := hr
        have := uniq m hm.mem (hmt.trans hu)
        subst this
        rw [he]
        congr
        obtain ⟨a, b⟩ := it
        have h1 := hm.node
        have h2 := hm.gen
        simp only at h1 h2
        subst h1 h2
        rfl
      · rename_i e c' w' he
        exact absurd (hnt.trans hu.symm) (hr.2.2.2 n hn)
      · exact hr.elim
    · refine (find_runs E u c w hi).mono ?_ (fun e c' w' ⟨h1, h2, _⟩ => ⟨h1.1, h1.2, h2⟩)
      rintro it c' w' ⟨a1, a2, a3, a4, a5⟩
      rcases a5 with ⟨⟨m, b1, b2⟩, -⟩ | ⟨-, b⟩
      · have hm : m ∈ c.map.nodes := a3.nodes ▸ b2.mem
        have := uniq m hm (b1.ty.trans hu)
        subst this
        refine ⟨?_, a3.nodes⟩
        obtain ⟨a, b⟩ := it
        have h1 := b2.node
        have h2 := b2.gen
        simp only at h1 h2
        subst h1 h2
        rfl
      · exact absurd (hnt.trans hu.symm) (b n hn)
  · intro ht
    have none : ∀ n ∈ c.map.nodes, n.seg.ty ≠ E.tiTy t := fun n hn e => ht (e ▸ mem_types hn)
    refine ⟨?_, ?_, ?_⟩
    · rw [← Bool.not_eq_true, isRegistered_iff E hi t]; exact ht
    · have hr := forInfo_runs E t c w hi
      unfold Runs at hr
      split at hr
      · obtain ⟨_, _, m, hm, hmt⟩ := hr
        exact absurd hmt (none m hm.mem)
      · rename_i e c' w' he
        obtain ⟨rfl, rfl, rfl, -⟩ := hr
        exact he
      · exact hr.elim
    · refine (find_runs E t c w hi).mono ?_ (fun e c' w' ⟨h1, h2, _⟩ => ⟨h1.1, h1.2, h2⟩)
      rintro it c' w' ⟨a1, a2, a3, a4, a5⟩
      rcases a5 with ⟨⟨m, b1, b2⟩, -⟩ | ⟨b, -⟩
      · exact absurd b1.ty (none m (a3.nodes ▸ b2.mem))
      · exact ⟨b, a3.nodes⟩

/-- Type 0 is registered under object 0 and looked up with object 1; type 3 is not registered. -/
example (k : Kind) : (Sample.c0 k).Possible Sample.E0 k (Sample.w0 k) ∧ Sample.E0.tiTy 0 ∈ (Sample.c0 k).abs.types ∧
    Sample.E0.tiTy 1 = Sample.E0.tiTy 0 ∧ Sample.E0.tiTy 6 ∉ (Sample.c0 k).abs.types := by
  refine ⟨(Sample.reach0 k).possible, ?_, rfl, ?_⟩ <;> rw [Sample.abs0] <;> decide

/-- **C02**, first part.  Whatever a program does, and whether it throws or not, collections that
are not the target of a construction, an assignment or a swap and are not moved from keep all their
registered types. -/
theorem C02_stays_registered {sub : Ty → TI} (hsub : ∀ t, E.tiTy (sub t) = t) {s : Sys V} {w : World}
    (h : Reach E k sub (Coll.Arg.OK E) s w) (op : Op V) (ha : ∀ a ∈ op.args, Coll.Arg.OK E a) (i : Nat) (hi : ¬ op.Replaces i)
    {t : TI} (ht : (s i).isRegistered E t = true) :
    (∀ s' w', op.run E k sub s w = .ok () s' w' → (s' i).isRegistered E t = true) ∧
    (∀ e s' w', op.run E k sub s w = .exc e s' w' → (s' i).isRegistered E t = true) := by
  have hs := reach_inv E hsub h
  have hst := run_stays E hsub op ha s w hs
  have pos : ∀ {s : Sys V} {w : World}, Reach E k sub (Coll.Arg.OK E) s w → (s i).map.Inv E (s i).kind w := by
    intro s w h
    exact Possible.map ⟨sub, s, i, hsub, h, rfl⟩
  rw [isRegistered_iff E (pos h)] at ht
  unfold Leaves at hst
  constructor
  · intro s' w' hr
    rw [hr] at hst
    rw [isRegistered_iff E (pos (.ok h op ha hr))]
    exact (hst i hi).types _ ht
  · intro e s' w' hr
    rw [hr] at hst
    rw [isRegistered_iff E (pos (.exc h op ha hr))]
    exact (hst i hi).types _ ht

/-- The collections of the examples as a program. -/
theorem sampleSys (k : Kind) : ∃ (s : Sys Nat) (i j : Nat), i ≠ j ∧ s i = Sample.c0 k ∧ s j = Sample.c1 k ∧
    ∃ sub : Ty → TI, (∀ t, Sample.E0.tiTy (sub t) = t) ∧ Reach Sample.E0 k sub (Coll.Arg.OK Sample.E0) s (Sample.w0 k) := by
  obtain ⟨sub, H, s, i, j, hsub, hr, hij, -, -, h1, h2⟩ := Sample.reach01 k
  exact ⟨s, i, j, hij, h1, h2, sub, hsub, GoodReach.reach _ hr⟩

/-- Clearing `c0`, which has elements of type 0, and then copy-assigning it to `c1`. -/
example (k : Kind) : ∃ (sub : Ty → TI) (s : Sys Nat) (i j : Nat), (∀ t, Sample.E0.tiTy (sub t) = t) ∧
    Reach Sample.E0 k sub (Coll.Arg.OK Sample.E0) s (Sample.w0 k) ∧ (s i).isRegistered Sample.E0 0 = true ∧
    ¬ (Op.on i .clearAll : Op Nat).Replaces i ∧ ¬ (Op.assign j i : Op Nat).Replaces i := by
  obtain ⟨s, i, j, hij, h1, h2, sub, hsub, hr⟩ := sampleSys k
  refine ⟨sub, s, i, j, hsub, hr, ?_, id, hij⟩
  rw [h1]; cases k <;> rfl

/-- **C02**, second part.  `register_types` of types that are registered already (via the same or other
`std::type_info` objects) changes nothing: every segment is still there with its elements at the
same addresses, and segments are in the same order.  It can only throw `bad_alloc`, when an
allocation fails. -/
theorem C02_register_again {c : Coll V} {w : World} (h : c.Reachable E k w) (ts : List TI) (ht : ∀ t ∈ ts, c.isRegistered E t = true) :
    Runs (registerTypes E ts) c w
      (fun _ c' _ => c'.abs = c.abs ∧ ∀ n ∈ c.map.nodes, n ∈ c'.map.nodes)
      (fun _ c' _ => c'.abs = c.abs ∧ ∀ n ∈ c.map.nodes, n ∈ c'.map.nodes) := by
  have ht' : ∀ t ∈ ts.map E.tiTy, t ∈ c.abs.types := by
    intro t hm
    obtain ⟨u, hu, rfl⟩ := List.mem_map.1 hm
    exact (isRegistered_iff E h.map u).1 (ht u hu)
  refine (registerTypes_runs E ts c w h.inv).mono ?_ ?_
  · rintro _ c' w' ⟨-, -, -, a, b⟩
    exact ⟨a.same ht', b⟩
  · rintro e c' w' ⟨-, -, -, -, ⟨us, hp, a⟩, b⟩
    exact ⟨a.same fun t h => ht' t (hp.subset h), b⟩

example (k : Kind) : (Sample.c0 k).Reachable Sample.E0 k (Sample.w0 k) ∧ ∀ t ∈ [1, 10, 4], (Sample.c0 k).isRegistered Sample.E0 t = true :=
  ⟨Sample.reach0 k, by cases k <;> decide⟩

/-- **C02**, third part.  `register_types` registers what it is told, keeps all elements and
addresses, and if it throws has registered some of the types first in the list. -/
theorem C02_register {c : Coll V} {w : World} (h : c.Reachable E k w) (ts : List TI) :
    Runs (registerTypes E ts) c w
      (fun _ c' w' => c'.Reachable E k w' ∧ (∀ t, c'.abs.elemsOf t = c.abs.elemsOf t) ∧ (∀ n ∈ c.map.nodes, n ∈ c'.map.nodes) ∧
        ∀ u, c'.isRegistered E u = true ↔ c.isRegistered E u = true ∨ E.tiTy u ∈ ts.map E.tiTy)
      (fun e c' w' => c'.Reachable E k w' ∧ (∀ t, c'.abs.elemsOf t = c.abs.elemsOf t) ∧ (∀ n ∈ c.map.nodes, n ∈ c'.map.nodes) ∧
        (∃ t ∈ ts, ExcFrom E (E.tiTy t) False (E.TooMany (E.tiTy t) 1) e) ∧
        ∃ us, us <+: ts.map E.tiTy ∧ ∀ u, c'.isRegistered E u = true ↔ c.isRegistered E u = true ∨ E.tiTy u ∈ us) := by
  have hr := (registerTypes_runs E ts c w h.inv)
  unfold Runs at hr ⊢
  cases hrun : registerTypes E ts c w with
  | ub => rw [hrun] at hr; exact hr
  | ok a c' w' =>
    rw [hrun] at hr
    obtain ⟨-, -, -, g, b⟩ := hr
    have h' : c'.Reachable E k w' := h.step (.registerTypes ts) trivial hrun
    exact ⟨h', g.elems, b, fun u => by rw [isRegistered_iff E h'.map, isRegistered_iff E h.map]; exact g.types _⟩
  | exc e c' w' =>
    rw [hrun] at hr
    obtain ⟨-, -, -, f, ⟨us, hp, g⟩, b⟩ := hr
    have h' : c'.Reachable E k w' := h.stepExc (.registerTypes ts) trivial trivial hrun
    exact ⟨h', g.elems, b, f, us, hp, fun u => by rw [isRegistered_iff E h'.map, isRegistered_iff E h.map]; exact g.types _⟩

/-- The collection has elements of several types; objects 6 and 7 denote a new type, object 0 one of
its types. -/
example (k : Kind) : (Sample.c0 k).Reachable Sample.E0 k (Sample.w0 k) ∧ (Sample.c0 k).abs.elemsOf 0 = [1, 2, 3] ∧
    (Sample.c0 k).isRegistered Sample.E0 7 = false ∧ (7 : TI) ∈ [6, 7, 0] :=
  ⟨Sample.reach0 k, by rw [Sample.abs0]; rfl, by cases k <;> rfl, by decide⟩

/-- **C03.**  In every collection a program can have there is at most one segment per type, the
type a segment is listed under (its key in the map, which is what `segment_info::type_info` reports)
is the type of the segment itself, and `is_registered` holds exactly when the segment exists. -/
theorem C03_one_segment_per_type {c : Coll V} {w : World} (h : c.Possible E k w) :
    c.abs.types.Nodup ∧ (∀ n ∈ c.map.nodes, E.tiTy n.key = n.seg.ty) ∧
    ∀ t, c.isRegistered E t = true ↔ ∃ n ∈ c.map.nodes, n.seg.ty = E.tiTy t := by
  refine ⟨abs_nodup E h.map, fun n hn => (h.map.ty n hn).symm, fun t => ?_⟩
  rw [isRegistered_iff E h.map]
  exact ⟨fun ht => types_mem ht, fun ⟨n, hn, e⟩ => e ▸ mem_types hn⟩

example (k : Kind) : (Sample.c0 k).Possible Sample.E0 k (Sample.w0 k) ∧ (Sample.c0 k).abs.types.length = 4 :=
  ⟨(Sample.reach0 k).possible, by cases k <;> rfl⟩

/-- **C04.**  Segment-specific operations on a type that is not registered throw
`unregistered_type` with that type and have no effect.  `query` is `empty`, `size`, `max_size`,
`capacity` or any other observation of one segment. -/
theorem C04_unregistered {c : Coll V} {w : World} (h : c.Possible E k w) {t : TI} (ht : E.tiTy t ∉ c.abs.types) :
    (∀ {α : Type} (f : Seg V → α), query E f t c w = .exc (.unregistered (E.tiTy t)) c w) ∧
    beginInfo E t c w = .exc (.unregistered (E.tiTy t)) c w ∧
    endInfo E t c w = .exc (.unregistered (E.tiTy t)) c w ∧
    (∀ n, reserveInfo E t n c w = .exc (.unregistered (E.tiTy t)) c w) ∧
    shrinkInfo E t c w = .exc (.unregistered (E.tiTy t)) c w ∧
    clearInfo E t c w = .exc (.unregistered (E.tiTy t)) c w := by
  have h1 := ((C01_lookup h t).2 ht).2.1
  have key : ∀ {α : Type} (f : MapIt → Prog (Coll V) α), (forInfo E t >>= f) c w = .exc (.unregistered (E.tiTy t)) c w := by
    intro α f
    show Prog.bind (forInfo E t) f c w = _
    unfold Prog.bind
    rw [h1]
  exact ⟨fun f => key _, key _, key _, fun n => key _, key _, key _⟩

example (k : Kind) : (Sample.c0 k).Possible Sample.E0 k (Sample.w0 k) ∧ Sample.E0.tiTy 7 ∉ (Sample.c0 k).abs.types :=
  ⟨(Sample.reach0 k).possible, by rw [Sample.abs0]; decide⟩

end PolyColl.Props
