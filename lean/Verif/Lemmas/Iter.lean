import Verif.Lemmas.Coll
/-! # Global iterators -/

namespace PolyColl
open Prog

namespace Seg
variable {V : Type} (E : Env V)

theorem base_inj {x : Seg V} {a b : Nat} : x.base a = x.base b ↔ a = b := by
  simp [base]

theorem begin_blk_mem (x : Seg V) : x.begin.blk ∈ x.blocks := by
  obtain ⟨be, snt⟩ := x
  cases be <;> simp [begin, Backend.begin, blocks, Backend.blocks, Packed.begin, Split.begin, Vec.ptr]

theorem begin_blk_ne {x : Seg V} {w : World} (h : x.Core E w) (hs : 0 < x.size) : x.begin.blk ≠ 0 := by
  obtain ⟨be, snt⟩ := x
  cases be with
  | packed y =>
    have h : y.s.WF w := h
    have hs : 0 < y.s.size := hs
    simp only [begin, Backend.begin, Packed.begin, Vec.ptr]
    intro e
    have := h.nul.1 e
    have := h.le
    omega
  | split y =>
    have h : y.Inv E w := h
    simp only [begin, Backend.begin, Split.begin, Vec.ptr]
    intro e
    have h1 := h.iwf.nul.1 e
    have h2 := h.iwf.le
    have h3 := Split.Inv.isize E h
    omega

theorem derefBase_other {x : Seg V} {p : Ptr} (h : p.blk ∉ x.blocks) : x.be.derefBase p = none := by
  obtain ⟨be, snt⟩ := x
  cases be with
  | packed y =>
    simp [blocks, Backend.blocks] at h
    simp [Backend.derefBase, Packed.deref, Vec.deref, h]
  | split y =>
    simp [blocks, Backend.blocks] at h
    simp [Backend.derefBase, Split.derefBase, Vec.deref, h.2]

theorem size_eq (x : Seg V) : x.size = x.elems.length := rfl

end Seg

namespace TMap
variable {V : Type} (E : Env V)

/-- An iterator to node `n` that may be used. -/
structure Use (m : TMap V) (it : MapIt) (n : Node V) : Prop where
  mem : n ∈ m.nodes
  node : it.node = some n.id
  usable : m.usable E it = true

theorem Ref.use {m : TMap V} {it : MapIt} {n : Node V} (h : m.Ref it n) : m.Use E it n := ⟨h.mem, h.node, h.usable E⟩

theorem Use.node? {m : TMap V} {it : MapIt} {n : Node V} (h : m.Use E it n) (hi : (m.nodes.map (·.id)).Nodup) :
    m.node? E it = some n := by
  simp only [TMap.node?, h.usable, if_true, h.node]
  exact find?_nodup (f := fun n : Node V => n.id) hi h.mem

theorem nodesFrom_split {m : TMap V} (hi : (m.nodes.map (·.id)).Nodup) {pre post : List (Node V)} {n : Node V}
    (h : m.nodes = pre ++ n :: post) : m.nodesFrom n.id = n :: post := by
  unfold nodesFrom
  rw [h] at hi ⊢
  simp only [List.map_append, List.map_cons, List.nodup_append, List.nodup_cons] at hi
  have hpre : ∀ a ∈ pre, (a.id != n.id) = true := by
    intro a ha
    have := hi.2.2 a.id (List.mem_map_of_mem ha) n.id (by simp)
    simpa using this
  rw [List.dropWhile_append_of_pos hpre]
  simp

theorem itNext_split {m : TMap V} (hi : (m.nodes.map (·.id)).Nodup) {pre post : List (Node V)} {n : Node V}
    (h : m.nodes = pre ++ n :: post) {it : MapIt} (hu : m.Use E it n) :
    m.itNext E it = some (match post with | [] => m.end | b :: _ => m.itTo b) := by
  unfold itNext
  rw [hu.node? E hi]
  simp only [nodesFrom_split hi h]
  cases post <;> rfl

end TMap

namespace Coll
variable {V : Type} (E : Env V)

/-- Iterator `it` of collection `c` is at a position. -/
structure At (c : Coll V) (it : GIter) (p : Spec.State.Pos) : Prop where
  usable : c.map.usable E it.mapit = true
  endUsable : c.map.usable E it.mapend = true
  endNode : it.mapend.node = none
  pos : match p with
    | none => it.mapit.node = none ∧ it.segpos = Ptr.null
    | some (t, k) => ∃ n ∈ c.map.nodes, it.mapit.node = some n.id ∧ n.seg.ty = t ∧ k < n.seg.size ∧ it.segpos = n.seg.base k

/-- The state made of some of the nodes. -/
def absNodes (l : List (Node V)) : Spec.State V := l.map fun n => (n.seg.ty, n.seg.elems)

theorem abs_eq (c : Coll V) : c.abs = absNodes c.map.nodes := rfl

theorem after_split {t : Ty} {pre post : List (Node V)} {n : Node V} (h : ((pre ++ n :: post).map (·.seg.ty)).Nodup)
    (ht : n.seg.ty = t) : (absNodes (pre ++ n :: post)).after t = absNodes post := by
  subst ht
  induction pre with
  | nil => simp [absNodes, Spec.State.after]
  | cons a pre ih =>
    simp only [List.cons_append, List.map_cons, List.nodup_cons] at h
    have : a.seg.ty ≠ n.seg.ty := fun e => h.1 (by rw [e]; simp)
    simp only [List.cons_append, absNodes, List.map_cons, Spec.State.after, if_neg this]
    exact ih h.2

theorem usable_end (m : TMap V) : m.usable E m.end = true := by simp [TMap.usable, TMap.end]
theorem usable_itTo (m : TMap V) (n : Node V) : m.usable E (m.itTo n) = true := by simp [TMap.usable, TMap.itTo]

theorem at_end (c : Coll V) : c.At E c.end none :=
  ⟨usable_end E _, usable_end E _, rfl, rfl, rfl⟩

theorem snt_iff {s : Seg V} {w : World} (h : s.Inv E w) {k : Nat} : s.base k = s.sentinel ↔ k = s.size := by
  show s.base k = s.snt ↔ _
  rw [h.snt, Seg.end_eq, Seg.base_inj]

theorem nextPosIn_at {c : Coll V} {w : World} (h : c.Inv E w) (l : List (Node V)) (hl : ∀ n ∈ l, n ∈ c.map.nodes) :
    c.At E (c.map.nextPosIn l) (absNodes l).first := by
  induction l with
  | nil => exact ⟨usable_end E _, usable_end E _, rfl, rfl, rfl⟩
  | cons n l ih =>
    have hn := hl n (by simp)
    have hi := h.mem.segs n hn
    have hs := snt_iff E hi (k := 0)
    rw [Seg.base_zero] at hs
    simp only [TMap.nextPosIn, absNodes, List.map_cons, Spec.State.first]
    by_cases he : n.seg.elems = []
    · have hz : n.seg.begin = n.seg.sentinel := hs.2 (by simp [Seg.size_eq, he])
      simp only [hz, he, ne_eq, not_true, if_false, if_true]
      exact ih (fun a ha => hl a (by simp [ha]))
    · have hlen : 0 < n.seg.size := by rw [Seg.size_eq]; exact List.length_pos_iff.2 he
      have hz : n.seg.begin ≠ n.seg.sentinel := fun e => by have := hs.1 e; omega
      simp only [hz, he, ne_eq, not_false_eq_true, if_true, if_false]
      exact ⟨usable_itTo E _ _, usable_end E _, rfl, n, hn, rfl, rfl, hlen, (Seg.base_zero _).symm⟩

theorem begin_at {c : Coll V} {w : World} (h : c.Inv E w) : ∃ it, c.begin E = some it ∧ c.At E it c.abs.first := by
  unfold begin TMap.begin TMap.iter2
  rw [abs_eq]
  cases hn : c.map.nodes with
  | nil => exact ⟨_, rfl, usable_end E _, usable_end E _, rfl, rfl, rfl⟩
  | cons n l =>
    have hr := TMap.ref_itTo (m := c.map) (n := n) (by simp [hn])
    simp only [TMap.itTo]
    have h1 : c.map.node? E ⟨some n.id, c.map.gen⟩ = some n := hr.node? E h.map.ids
    simp only [h1]
    refine ⟨_, rfl, ?_⟩
    rw [TMap.nodesFrom_split h.map.ids (pre := []) (post := l) (n := n) (by simp [hn])]
    refine nextPosIn_at E h _ ?_
    intro a ha; rw [hn]; exact ha

/-- After the last element of a segment comes the first element after it. -/
theorem iter2_next {c : Coll V} {w : World} (h : c.Inv E w) {it : MapIt} {n : Node V} (hu : c.map.Use E it n) :
    ∃ it', c.map.itNext E it = some it' ∧ ∃ g, c.map.iter2 E it' = some g ∧ c.At E g (c.abs.after n.seg.ty).first := by
  obtain ⟨pre, post, hp⟩ := List.append_of_mem hu.mem
  have hnx := TMap.itNext_split E h.map.ids hp hu
  refine ⟨_, hnx, ?_⟩
  have hnd := h.map.nodup_ty E
  rw [abs_eq]
  have hafter : (absNodes c.map.nodes).after n.seg.ty = absNodes post := by
    rw [hp] at hnd ⊢
    exact after_split hnd rfl
  rw [hafter]
  cases post with
  | nil => exact ⟨_, rfl, usable_end E _, usable_end E _, rfl, rfl, rfl⟩
  | cons b post =>
    have hb : b ∈ c.map.nodes := by rw [hp]; simp
    have hr := TMap.ref_itTo (m := c.map) hb
    unfold TMap.iter2
    have h1 : c.map.node? E ⟨some b.id, c.map.gen⟩ = some b := hr.node? E h.map.ids
    simp only [TMap.itTo, h1]
    refine ⟨_, rfl, ?_⟩
    rw [TMap.nodesFrom_split h.map.ids (pre := pre ++ [n]) (post := post) (n := b) (by simp [hp])]
    refine nextPosIn_at E h _ ?_
    intro a ha; rw [hp]; simp only [List.mem_append, List.mem_cons] at ha ⊢; exact Or.inr (Or.inr ha)

theorem norm_node {c : Coll V} {w : World} (h : c.Inv E w) {n : Node V} (hn : n ∈ c.map.nodes) (k : Nat) :
    c.abs.norm n.seg.ty k = if k < n.seg.size then some (n.seg.ty, k) else (c.abs.after n.seg.ty).first := by
  unfold Spec.State.norm
  have : c.abs.get n.seg.ty = some n.seg.elems := TMap.abs_get E h.map hn
  rw [this]
  rfl

theorem iter3_at {c : Coll V} {w : World} (h : c.Inv E w) {it : MapIt} {n : Node V} (hu : c.map.Use E it n) {k : Nat}
    (hk : k ≤ n.seg.size) : ∃ g, c.map.iter3 E it (n.seg.base k) = some g ∧ c.At E g (c.abs.norm n.seg.ty k) := by
  unfold TMap.iter3
  rw [hu.node]
  simp only [hu.node? E h.map.ids]
  rw [norm_node E h hu.mem]
  have hs := snt_iff E (h.mem.segs n hu.mem) (k := k)
  by_cases he : k = n.seg.size
  · obtain ⟨it', h1, g, h2, h3⟩ := iter2_next E h hu
    rw [if_pos (hs.2 he)]
    simp only [h1]
    refine ⟨g, h2, ?_⟩
    rw [if_neg (by omega)]
    exact h3
  · rw [if_neg (fun e => he (hs.1 e)), if_pos (by omega)]
    exact ⟨_, rfl, hu.usable, usable_end E _, rfl, n, hu.mem, hu.node, rfl, by omega, rfl⟩

theorem retIter_runs {c : Coll V} {w : World} (h : c.Inv E w) {it : MapIt} {n : Node V} (hu : c.map.Use E it n) {k : Nat}
    (hk : k ≤ n.seg.size) {R : Exc → Coll V → World → Prop} :
    Runs (retIter E it (n.seg.base k)) c w (fun g c' w' => c' = c ∧ w' = w ∧ c.At E g (c.abs.norm n.seg.ty k)) R := by
  obtain ⟨g, h1, h2⟩ := iter3_at E h hu hk
  unfold retIter
  simp only [runs_bind, runs_get, h1, runs_some]
  exact ⟨by trivial, by trivial, h2⟩

theorem setEnd_at {c : Coll V} {it : GIter} {p : Spec.State.Pos} (h : c.At E it p) {e : MapIt} (hu : c.map.usable E e = true) (hn : e.node = none) :
    c.At E { it with mapend := e } p := ⟨h.usable, hu, hn, h.pos⟩

theorem retIterEnd_runs {c : Coll V} {w : World} (h : c.Inv E w) {it : MapIt} {n : Node V} (hu : c.map.Use E it n) {e : MapIt}
    (he : c.map.usable E e = true) (hn : e.node = none) {k : Nat} (hk : k ≤ n.seg.size) {R : Exc → Coll V → World → Prop} :
    Runs (retIterEnd E it e (n.seg.base k)) c w (fun g c' w' => c' = c ∧ w' = w ∧ c.At E g (c.abs.norm n.seg.ty k)) R := by
  obtain ⟨g, h1, h2⟩ := iter3_at E h hu hk
  unfold retIterEnd TMap.iteratorFrom
  simp only [runs_bind, runs_get, he, hn, and_self, if_true, h1, Option.map_some, runs_some]
  exact ⟨by trivial, by trivial, setEnd_at E h2 he hn⟩

theorem At.use {c : Coll V} {it : GIter} {t : Ty} {k : Nat} (h : c.At E it (some (t, k))) :
    ∃ n, c.map.Use E it.mapit n ∧ n.seg.ty = t ∧ k < n.seg.size ∧ it.segpos = n.seg.base k := by
  obtain ⟨n, h1, h2, h3, h4, h5⟩ := h.pos
  exact ⟨n, ⟨h1, h2, h.usable⟩, h3, h4, h5⟩

theorem increment_at {c : Coll V} {w : World} (h : c.Inv E w) {it : GIter} {t : Ty} {k : Nat} (ha : c.At E it (some (t, k))) :
    ∃ it', c.map.increment E it = some it' ∧ c.At E it' (c.abs.norm t (k + 1)) := by
  obtain ⟨n, hu, rfl, hk, hp⟩ := ha.use
  have hs := h.mem.segs n hu.mem
  have hnt := snt_iff E hs (k := k + 1)
  unfold TMap.increment
  rw [hu.node? E h.map.ids]
  have hb : it.segpos.blk = n.seg.begin.blk ∧ it.segpos.off < n.seg.end.off := by
    rw [hp, Seg.end_eq]; exact ⟨rfl, hk⟩
  have hp1 : (⟨it.segpos.blk, it.segpos.off + 1⟩ : Ptr) = n.seg.base (k + 1) := by rw [hp]; rfl
  simp only [if_pos hb, hp1]
  rw [norm_node E h hu.mem]
  by_cases he : k + 1 = n.seg.size
  · obtain ⟨it', h1, g, h2, h3⟩ := iter2_next E h hu
    rw [if_pos (hnt.2 he), if_pos ⟨ha.endUsable, ha.endNode⟩]
    simp only [h1]
    refine ⟨g, h2, ?_⟩
    rw [if_neg (by omega)]
    exact h3
  · rw [if_neg (fun e => he (hnt.1 e)), if_pos (by omega)]
    exact ⟨_, rfl, hu.usable, ha.endUsable, ha.endNode, n, hu.mem, hu.node, rfl, by omega, rfl⟩

/-- Buffers of different nodes differ. -/
theorem disj_mem {P : Seg V → World → Prop} {m : TMap V} {w : World} (h : m.Mem P w) {a b : Node V} (ha : a ∈ m.nodes)
    (hb : b ∈ m.nodes) (hne : a ≠ b) : ∀ x ∈ a.seg.blocks, x ∈ b.seg.blocks → x = 0 := by
  intro x hx hy
  have hd := h.disj
  generalize m.nodes = l at *
  induction l with
  | nil => simp at ha
  | cons c l ih =>
    rw [List.pairwise_cons] at hd
    rcases List.mem_cons.1 ha with rfl | ha' <;> rcases List.mem_cons.1 hb with rfl | hb'
    · exact absurd rfl hne
    · exact hd.1 b hb' x hx hy
    · exact hd.1 a ha' x hy hx
    · exact ih ha' hb' hd.2

theorem deref_mem {P : Seg V → World → Prop} {c : Coll V} {w : World} (h : c.map.Mem P w) {n : Node V} (hn : n ∈ c.map.nodes) (hs : n.seg.Core E w) {k : Nat}
    (hk : k < n.seg.size) : c.map.deref (n.seg.base k) = n.seg.elems[k]? := by
  have hd := Seg.derefBase E hs hk
  have hne := Seg.begin_blk_ne E hs (by omega)
  have hsome : n.seg.elems[k]? = some (n.seg.elems[k]'(by rw [← Seg.size_eq]; exact hk)) := List.getElem?_eq_getElem _
  unfold TMap.deref
  have hmem : ∀ a ∈ c.map.nodes, a ≠ n → a.seg.be.derefBase (n.seg.base k) = none := by
    intro a ha hna
    refine Seg.derefBase_other ?_
    intro hb
    exact hne (disj_mem h ha hn hna _ hb (Seg.begin_blk_mem n.seg))
  generalize c.map.nodes = l at *
  clear h hs
  induction l with
  | nil => simp at hn
  | cons a l ih =>
    by_cases e : a = n
    · subst e
      rw [List.findSome?_cons, hd, hsome]
    · rw [List.findSome?_cons, hmem a (by simp) e]
      refine ih ?_ (fun b hb => hmem b (by simp [hb]))
      rcases List.mem_cons.1 hn with rfl | h
      · exact absurd rfl e
      · exact h

theorem deref_node {c : Coll V} {w : World} (h : c.Core E w) {n : Node V} (hn : n ∈ c.map.nodes) {k : Nat}
    (hk : k < n.seg.size) : c.map.deref (n.seg.base k) = n.seg.elems[k]? := deref_mem E h.mem hn (h.mem.segs n hn) hk

theorem deref_at {c : Coll V} {w : World} (h : c.Core E w) {it : GIter} {t : Ty} {k : Nat} (ha : c.At E it (some (t, k))) :
    ∃ v, c.map.deref it.segpos = some v ∧ c.abs.at? (some (t, k)) = some v := by
  obtain ⟨n, hu, rfl, hk, hp⟩ := ha.use
  rw [hp, deref_node E h hu.mem hk]
  have hg : c.abs.get n.seg.ty = some n.seg.elems := TMap.abs_get E h.map hu.mem
  refine ⟨n.seg.elems[k]'(by rw [← Seg.size_eq]; exact hk), List.getElem?_eq_getElem _, ?_⟩
  simp only [Spec.State.at?, hg, Option.bind_some]
  exact List.getElem?_eq_getElem _

theorem at_eq {c : Coll V} {w : World} (h : c.Core E w) {a b : GIter} {p q : Spec.State.Pos} (ha : c.At E a p) (hb : c.At E b q) :
    a.segpos = b.segpos ↔ p = q := by
  have key : ∀ {a : GIter} {t k}, c.At E a (some (t, k)) → a.segpos.blk ≠ 0 := by
    intro a t k ha
    obtain ⟨n, hu, rfl, hk, hp⟩ := ha.use
    rw [hp]
    exact Seg.begin_blk_ne E (h.mem.segs n hu.mem) (by omega)
  cases p with
  | none =>
    have h1 : a.segpos = Ptr.null := ha.pos.2
    cases q with
    | none => have h2 : b.segpos = Ptr.null := hb.pos.2; simp [h1, h2]
    | some q =>
      have := key hb
      simp only [reduceCtorEq, iff_false]
      intro e; rw [← e, h1] at this; exact this rfl
  | some p =>
    cases q with
    | none =>
      have h2 : b.segpos = Ptr.null := hb.pos.2
      have := key ha
      simp only [reduceCtorEq, iff_false]
      intro e; rw [e, h2] at this; exact this rfl
    | some q =>
      obtain ⟨n, hu, h1, hk, hp⟩ := ha.use
      obtain ⟨n', hu', h1', hk', hp'⟩ := hb.use
      obtain ⟨t, k⟩ := p
      obtain ⟨t', k'⟩ := q
      simp only at h1 h1' hk hk'
      rw [hp, hp']
      by_cases hnn : n = n'
      · subst hnn
        rw [Seg.base_inj]
        subst h1 h1'
        simp
      · have hty : n.seg.ty ≠ n'.seg.ty := fun e => hnn (eq_of_nodup (h.map.nodup_ty E) hu.mem hu'.mem e)
        have hne : n.seg.base k ≠ n'.seg.base k' := by
          intro e
          have hb' : n.seg.begin.blk = n'.seg.begin.blk := by
            have e2 := congrArg Ptr.blk e
            exact e2
          have hz := disj_mem h.mem hu.mem hu'.mem hnn _ (Seg.begin_blk_mem _) (hb' ▸ Seg.begin_blk_mem n'.seg)
          exact Seg.begin_blk_ne E (h.mem.segs n hu.mem) (by omega) hz
        simp only [hne, false_iff]
        intro e
        simp only [Option.some.injEq, Prod.mk.injEq] at e
        exact hty (by rw [h1, h1', e.1])

end Coll
end PolyColl
