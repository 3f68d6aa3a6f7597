import Verif.Spec.Descriptor
/-! # Objects describing a segment -/

namespace PolyColl
open Prog
namespace SegRef
variable {V : Type} (E : Env V) {k : Kind}

theorem use_of_node? {m : TMap V} {it : MapIt} {n : Node V} (h : m.node? E it = some n) : m.Use E it n := by
  unfold TMap.node? at h
  split at h
  · next hu =>
    split at h
    · next i hi =>
      have := List.find?_some h
      simp only [beq_iff_eq] at this
      exact ⟨List.mem_of_find?_eq_some h, by rw [hi, this], hu⟩
    · cases h
  · cases h

/-- What an object describes is the node its iterator refers to. -/
theorem inStep_iff {c : Coll V} {w : World} (h : c.map.Inv E c.kind w) {d : SegRef} {u : Ty} :
    d.InStep E c u ↔ ∃ n, c.map.Use E d.it n ∧ n.seg.ty = u := by
  constructor
  · rintro ⟨⟨t, h1, h2⟩, -, -⟩
    unfold typeInfo at h1
    obtain ⟨n, hn, rfl⟩ := Option.map_eq_some_iff.1 h1
    have hu := use_of_node? E hn
    exact ⟨n, hu, (h.ty n hu.mem).trans h2⟩
  · rintro ⟨n, hu, rfl⟩
    have hn := hu.node? E h.ids
    have key : ∀ t, E.tiTy t = n.seg.ty → ∃ it, c.map.Ref it n ∧ ∀ w, Coll.forInfo E t c w = .ok it c w := by
      intro t ht
      have hf := TMap.findConst_found E h t
      have hne : (c.map.findConst E t).node ≠ none := fun he => hf.notin E he n hu.mem (by rw [← h.ty n hu.mem, ht])
      obtain ⟨n', hr, hk⟩ := hf.ref E hne
      have : n' = n := eq_of_nodup (h.nodup_ty E) hr.mem hu.mem (by rw [h.ty n' hr.mem, hk, ht])
      subst this
      refine ⟨_, hr, fun w => ?_⟩
      show (if (c.map.findConst E t).node = none then raise (.unregistered (E.tiTy t)) else Prog.pure (c.map.findConst E t) : Prog (Coll V) MapIt) c w = _
      rw [if_neg hne]
      rfl
    have conv : ∀ it p, c.map.Ref it n → (c.toLocal E ⟨d.it, p⟩).map (·.pos) = (c.toLocal E ⟨it, p⟩).map (·.pos) := by
      intro it p hr
      unfold Coll.toLocal
      simp only [hn, hr.node? E h.ids]
      cases n.seg.be.toLocal p <;> rfl
    refine ⟨⟨n.key, by rw [typeInfo, hn]; rfl, (h.ty n hu.mem).symm⟩, fun t ht w => ?_, fun t ht w => ?_⟩
    · obtain ⟨it, hr, hk⟩ := key t ht
      refine ⟨⟨d.it, n.seg.begin⟩, ⟨it, n.seg.begin⟩, by rw [SegRef.begin, hn]; rfl, ?_, ⟨rfl, hu.node.trans hr.node.symm⟩, ?_⟩
      · show Prog.bind (Coll.forInfo E t) _ c w = _
        simp only [Prog.bind, hk, Bind.bind, Prog.get, hr.node? E h.ids, ofOption]
        rfl
      · rw [beginT, SegRef.begin, hn]
        exact conv it _ hr
    · obtain ⟨it, hr, hk⟩ := key t ht
      refine ⟨⟨d.it, n.seg.end⟩, ⟨it, n.seg.end⟩, by rw [SegRef.end, hn]; rfl, ?_, ⟨rfl, hu.node.trans hr.node.symm⟩, ?_⟩
      · show Prog.bind (Coll.forInfo E t) _ c w = _
        simp only [Prog.bind, hk, Bind.bind, Prog.get, hr.node? E h.ids, ofOption]
        rfl
      · rw [endT, SegRef.end, hn]
        exact conv it _ hr

theorem dead_of_none {c : Coll V} {d : SegRef} (h : c.map.node? E d.it = none) : d.Dead E c := by
  refine ⟨?_, ?_, ?_, ?_, ?_⟩ <;> simp [typeInfo, SegRef.begin, SegRef.end, beginT, endT, h]

theorem none_of_dead {c : Coll V} {d : SegRef} (h : d.Dead E c) : c.map.node? E d.it = none := by
  have := h.1
  unfold typeInfo at this
  exact Option.map_eq_none_iff.1 this

/-- The objects met by a traversal. -/
theorem refWalk_eq {c : Coll V} {w : World} (h : c.map.Inv E c.kind w) : ∀ (l pre : List (Node V)) (it : MapIt) (fuel : Nat),
    c.map.nodes = pre ++ l → (match l with | [] => it = c.map.end | n :: _ => it = c.map.itTo n) → l.length < fuel →
    c.refWalk E it fuel = some (l.map fun n => ⟨c.map.itTo n⟩) := by
  intro l
  induction l with
  | nil =>
    intro pre it fuel hn hit hf
    obtain ⟨fuel, rfl⟩ : ∃ k, fuel = k + 1 := ⟨fuel - 1, by omega⟩
    simp only at hit
    subst hit
    simp [Coll.refWalk, TMap.itEq, Coll.usable_end E c.map]
  | cons n l ih =>
    intro pre it fuel hn hit hf
    obtain ⟨fuel, rfl⟩ : ∃ k, fuel = k + 1 := ⟨fuel - 1, by omega⟩
    simp only at hit
    subst hit
    have hmem : n ∈ c.map.nodes := by rw [hn]; simp
    have hr := TMap.ref_itTo (m := c.map) hmem
    have he : c.map.itEq E (c.map.itTo n) c.map.end = some false := by
      simp only [TMap.itEq, Coll.usable_end E c.map, Coll.usable_itTo E c.map n, Bool.and_self, if_true]
      simp [TMap.itTo, TMap.end]
    simp only [Coll.refWalk, he, TMap.itNext_split E h.ids hn (hr.use E)]
    rw [ih (pre ++ [n]) _ fuel (by simp [hn]) (by cases l <;> rfl) (by simp at hf; omega)]
    rfl

theorem segRefs_eq {c : Coll V} {w : World} (h : c.map.Inv E c.kind w) : c.segRefs E = some (c.map.nodes.map fun n => ⟨c.map.itTo n⟩) := by
  unfold Coll.segRefs
  refine refWalk_eq E h c.map.nodes [] _ _ (by simp) ?_ (by omega)
  unfold TMap.begin
  cases c.map.nodes <;> rfl

/-- `c'` has the segments of `c`: the nodes of the map are there, and it is not rehashed unless a type was added. -/
structure Carried (c c' : Coll V) : Prop where
  types : ∀ t ∈ c.abs.types, t ∈ c'.abs.types
  nodes : ∀ n ∈ c.map.nodes, ∃ n' ∈ c'.map.nodes, n'.id = n.id ∧ n'.key = n.key
  gen : c'.map.gen = c.map.gen ∨ ∃ t ∈ c'.abs.types, t ∉ c.abs.types
  next : c.map.gen ≤ c'.map.gen

theorem Carried.of_stays {c c' : Coll V} (h : Coll.Stays c c') : Carried c c' := ⟨h.types, h.nodes, h.gen, h.next⟩

theorem Carried.of_eq {c c' : Coll V} (h : c'.map.nodes = c.map.nodes) (hg : c'.map.gen = c.map.gen) : Carried c c' :=
  ⟨fun t ht => by simpa only [Coll.abs, TMap.abs_types, h] using ht, fun n hn => ⟨n, h ▸ hn, rfl, rfl⟩, .inl hg, Nat.le_of_eq hg.symm⟩

theorem Carried.refl (c : Coll V) : Carried c c := .of_eq rfl rfl

theorem Carried.trans {a b c : Coll V} (h : Carried a b) (h' : Carried b c) : Carried a c := by
  refine ⟨fun t ht => h'.types t (h.types t ht), ?_, ?_, Nat.le_trans h.next h'.next⟩
  · intro n hn
    obtain ⟨n1, h1, h2, h3⟩ := h.nodes n hn
    obtain ⟨n2, h4, h5, h6⟩ := h'.nodes n1 h1
    exact ⟨n2, h4, h5.trans h2, h6.trans h3⟩
  · rcases h.gen with e | ⟨t, h1, h2⟩
    · rcases h'.gen with e' | ⟨t, h1, h2⟩
      · exact .inl (e'.trans e)
      · exact .inr ⟨t, h1, fun hm => h2 (h.types t hm)⟩
    · exact .inr ⟨t, h'.types t h1, h2⟩

/-- An operation carries the segments along. -/
theorem carries {sub : Ty → TI} (hsub : ∀ t, E.tiTy (sub t) = t) {op : Op V} (ha : ∀ a ∈ op.args, Coll.Arg.OK E a) {s : Sys V} {w : World}
    (hs : Coll.SysInv E k s w) {x y : Nat} (hc : op.Carries E s x y) :
    Leaves (op.run E k sub) s w (fun _ s' _ => Carried (s x) (s' y)) (fun _ s' _ => Carried (s x) (s' y)) := by
  cases hc with
  | stay hr => exact (Coll.run_stays E hsub op ha s w hs).mono (fun _ s' _ h => .of_stays (h x hr)) (fun _ s' _ h => .of_stays (h x hr))
  | swap =>
    simp only [Op.run, leaves_ite]
    refine ⟨fun h => ?_, fun h => ?_⟩
    · subst h; exact Carried.refl _
    · unfold Sys.on2 Coll.swap Coll.onMaps TMap.swap
      simp only [leaves_zoom, leaves_bind, leaves_get, leaves_ite, leaves_set, leaves_undef]
      exact ⟨fun _ => .of_eq (by simp [Sys.put]) (by simp [Sys.put]), fun _ => trivial⟩
  | swap' =>
    simp only [Op.run, leaves_ite]
    refine ⟨fun h => ?_, fun h => ?_⟩
    · subst h; exact Carried.refl _
    · unfold Sys.on2 Coll.swap Coll.onMaps TMap.swap
      simp only [leaves_zoom, leaves_bind, leaves_get, leaves_ite, leaves_set, leaves_undef]
      exact ⟨fun _ => .of_eq (by simp [Sys.put, h]) (by simp [Sys.put, h]), fun _ => trivial⟩
  | move =>
    simp only [Op.run, leaves_ite]
    refine ⟨fun h => trivial, fun h => ?_⟩
    unfold Sys.construct Sys.on Coll.move Coll.onMap TMap.move
    simp only [leaves_zoom, leaves_bind, leaves_get, leaves_set, leaves_pure]
    exact .of_eq (by simp [Sys.put]) (by simp [Sys.put])
  | moveAl =>
    simp only [Op.run, leaves_ite]
    refine ⟨fun h => trivial, fun h => ?_⟩
    unfold Sys.construct Sys.on Coll.moveAl Coll.onMap TMap.moveAl
    simp only [leaves_zoom, leaves_bind, leaves_get, leaves_ite, leaves_set, leaves_pure]
    exact ⟨fun _ => .of_eq (by simp [Sys.put]) (by simp [Sys.put]), fun h => absurd trivial h⟩
  | moveAssign he =>
    simp only [Op.run, leaves_ite]
    refine ⟨fun h => ?_, fun h => ?_⟩
    · subst h; exact Carried.refl _
    · unfold Sys.on2 Coll.moveAssign Coll.onMaps TMap.moveAssign
      simp only [leaves_zoom, leaves_onExc, leaves_bind, leaves_get, leaves_ite, leaves_set]
      exact ⟨fun _ => .of_eq (by simp [Sys.put, h]) (by simp [Sys.put, h]), fun h => absurd he h⟩

theorem path_carried {sub : Ty → TI} (hsub : ∀ t, E.tiTy (sub t) = t) {s s' : Sys V} {w w' : World} {x y : Nat} (hs : Coll.SysInv E k s w)
    (h : Path E k sub s w x s' w' y) : Coll.SysInv E k s' w' ∧ Carried (s x) (s' y) := by
  induction h with
  | nil => exact ⟨hs, Carried.refl _⟩
  | ok op _ ha hr hc ih =>
    obtain ⟨h1, h2⟩ := ih
    exact ⟨(leaves_ok (Coll.run_inv E hsub op ha _ _ h1) hr).1, h2.trans (leaves_ok (carries E hsub ha h1 hc) hr)⟩
  | exc op _ ha hr hc ih =>
    obtain ⟨h1, h2⟩ := ih
    exact ⟨(leaves_exc (Coll.run_inv E hsub op ha _ _ h1) hr).1, h2.trans (leaves_exc (carries E hsub ha h1 hc) hr)⟩

end SegRef
end PolyColl
