import Verif.Lemmas.CollMore
import Verif.Model.Writing
/-! # Writing through iterators -/

namespace PolyColl
open Prog

variable {V : Type} {E : Env V}

theorem Vec.modify_ptr {α : Type} {v : Vec α} {k : Nat} (hk : k < v.size) (f : α → α) :
    v.modify (v.ptr k) f = some ⟨v.blk, v.cap, v.elems.modify k f⟩ := by
  simp [Vec.modify, Vec.ptr, hk]

namespace Seg

theorem store_blk_ne {x : Seg V} {w : World} (h : x.Core E w) (hs : 0 < x.size) : x.be.store.blk ≠ 0 := by
  obtain ⟨be, snt⟩ := x
  cases be with
  | packed y =>
    intro e
    have h1 : y.s.cap = 0 := h.nul.1 e
    have h2 : y.s.size ≤ y.s.cap := h.le
    simp only [size, Backend.store] at *
    omega
  | split y =>
    intro e
    have h1 := h.swf.nul.1 e
    have h2 := h.swf.le
    simp only [size, Backend.store] at *
    omega

theorem store_blk_mem (x : Seg V) : x.be.store.blk ∈ x.blocks := by
  obtain ⟨be, snt⟩ := x
  cases be <;> simp [blocks, Backend.blocks, Backend.store]

/-- The address of position `k`, of either sort. -/
def addr (x : Seg V) : Coll.Sort' → Nat → Ptr
  | .base, k => x.base k
  | .terminal, k => x.loc k

/-- The segment with the element at `k` changed. -/
def edit (x : Seg V) (k : Nat) (f : V → V) : Seg V :=
  ⟨x.be.withStore ⟨x.be.store.blk, x.be.store.cap, x.be.store.elems.modify k f⟩, x.snt⟩

theorem edit_elems (x : Seg V) (k : Nat) (f : V → V) : (x.edit k f).elems = x.elems.modify k f := by
  obtain ⟨be, snt⟩ := x
  cases be <;> rfl

theorem edit_size (x : Seg V) (k : Nat) (f : V → V) : (x.edit k f).size = x.size := by
  rw [size_eq, size_eq, edit_elems, List.length_modify]

theorem edit_capacity (x : Seg V) (k : Nat) (f : V → V) : (x.edit k f).capacity = x.capacity := by
  obtain ⟨be, snt⟩ := x
  cases be <;> rfl

theorem edit_store (x : Seg V) (k : Nat) (f : V → V) : Vec.Same x.be.store (x.edit k f).be.store := by
  obtain ⟨be, snt⟩ := x
  cases be <;> exact ⟨rfl, rfl⟩

theorem edit_begin (x : Seg V) (k : Nat) (f : V → V) : (x.edit k f).begin = x.begin := by
  obtain ⟨be, snt⟩ := x
  cases be <;> rfl

theorem edit_ty (x : Seg V) (k : Nat) (f : V → V) : (x.edit k f).ty = x.ty := by
  obtain ⟨be, snt⟩ := x
  cases be <;> rfl

theorem edit_base (x : Seg V) (k : Nat) (f : V → V) (j : Nat) : (x.edit k f).base j = x.base j := by
  unfold base; rw [edit_begin]

theorem edit_loc (x : Seg V) (k : Nat) (f : V → V) (j : Nat) : (x.edit k f).loc j = x.loc j := by
  unfold loc Vec.ptr; rw [(edit_store x k f).1]

theorem edit_step (w : World) (x : Seg V) (k : Nat) (f : V → V) : Step w x (x.edit k f) := by
  obtain ⟨be, snt⟩ := x
  cases be with
  | packed y => exact ⟨rfl, rfl, rfl, rfl, fun b hb => Or.inl hb⟩
  | split y => exact ⟨rfl, rfl, rfl, rfl, fun b hb => Or.inl hb⟩

theorem edit_core {x : Seg V} {w w' : World} (h : x.Core E w) (hw : w.next ≤ w'.next) (k : Nat) (f : V → V) : (x.edit k f).Core E w' := by
  obtain ⟨be, snt⟩ := x
  cases be with
  | packed y =>
    have h : y.s.WF w := h
    have h' := h.weaken hw
    exact ⟨h'.lt, by have := h'.le; simp only [Vec.size, List.length_modify, Backend.store] at *; exact this, h'.nul⟩
  | split y =>
    have h : y.Inv E w := h
    have h' := h.weaken E hw
    have hl : (y.s.elems.modify k f).length = y.s.elems.length := List.length_modify ..
    refine ⟨⟨h'.swf.lt, ?_, h'.swf.nul⟩, h'.iwf, h'.snz, h'.ne, ?_, ?_⟩
    · have := h'.swf.le
      show (y.s.elems.modify k f).length ≤ y.s.cap
      rw [hl]; exact this
    · exact h'.idx.trans (Split.goodIndex_congr (s := y.s) (s' := ⟨y.s.blk, y.s.cap, y.s.elems.modify k f⟩) rfl hl).symm
    · intro he
      have := h'.cap he
      show y.s.cap + 1 ≤ y.i.cap ∨ ((y.s.elems.modify k f).length = 0 ∧ y.s.cap ≤ 1)
      rw [hl]; exact this

theorem edit_end (x : Seg V) (k : Nat) (f : V → V) : (x.edit k f).end = x.end := by
  rw [end_eq, end_eq, edit_base, edit_size]

theorem edit_inv {x : Seg V} {w w' : World} (h : x.Inv E w) (hw : w.next ≤ w'.next) (k : Nat) (f : V → V) : (x.edit k f).Inv E w' :=
  ⟨edit_core h.core hw k f, by rw [edit_end]; exact h.snt⟩

theorem address_addr {x : Seg V} {w : World} (h : x.Core E w) (o : Coll.Sort') {k : Nat} (hk : k < x.size) :
    x.be.address o (x.addr o k) = some (x.loc k) := by
  cases o with
  | base => exact toLocal E h (Nat.le_of_lt hk)
  | terminal => rfl

theorem modify_addr {x : Seg V} {w : World} (h : x.Core E w) (o : Coll.Sort') {k : Nat} (hk : k < x.size) (f : V → V) :
    x.be.modify o (x.addr o k) f = some (x.edit k f).be := by
  unfold Backend.modify
  rw [address_addr h o hk]
  simp only [Option.bind_some]
  rw [show x.loc k = x.be.store.ptr k from rfl, Vec.modify_ptr hk]
  rfl

theorem modify_other {x : Seg V} {o : Coll.Sort'} {p : Ptr} {f : V → V} (h : p.blk ∉ x.blocks) : x.be.modify o p f = none := by
  obtain ⟨be, snt⟩ := x
  cases be with
  | packed y =>
    simp [blocks, Backend.blocks] at h
    cases o <;> simp [Backend.modify, Backend.address, Backend.toLocal, Vec.modify, Backend.store, h]
  | split y =>
    simp [blocks, Backend.blocks] at h
    cases o <;> simp [Backend.modify, Backend.address, Backend.toLocal, Split.toLocal, Vec.modify, Vec.deref, Backend.store, h]

theorem addr_blk_mem (x : Seg V) (o : Coll.Sort') (k : Nat) : (x.addr o k).blk ∈ x.blocks := by
  cases o with
  | base => exact begin_blk_mem x
  | terminal => exact store_blk_mem x

theorem addr_blk_ne {x : Seg V} {w : World} (h : x.Core E w) (o : Coll.Sort') {k : Nat} (hk : k < x.size) : (x.addr o k).blk ≠ 0 := by
  cases o with
  | base => exact begin_blk_ne E h (by omega)
  | terminal => exact store_blk_ne h (by omega)

theorem apply_runs {x : Seg V} {w : World} (h : x.Core E w) (o : Coll.Sort') {k : Nat} (hk : k < x.size) (a : Act V) :
    Runs (Seg.apply E o (x.addr o k) a) x w
      (fun v x' w' => x.elems[k]? = some v ∧ x' = x.edit k a.run ∧ w'.next = w.next)
      (fun e x' w' => e = .user ∧ a.nothrow = false ∧ x' = x.edit k a.fail ∧ w'.next = w.next) := by
  have hsome : x.elems[k]? = some (x.elems[k]'(by rw [← size_eq]; exact hk)) := List.getElem?_eq_getElem _
  simp only [Seg.apply, runs_bind, runs_get, address_addr h o hk, runs_some, derefLocal, hsome, modify_addr h o hk, runs_onExc,
    Env.runs_userOp, runs_set, runs_pure]
  simp only [edit, and_self, implies_true, true_and, and_true]
  exact fun hn _ => hn

end Seg

namespace Coll

/-- `p` is the address of the element `k` of segment `t`, as held by iterators of sort `o`. -/
def Points (c : Coll V) (o : Sort') (p : Ptr) (t : Ty) (k : Nat) : Prop :=
  ∃ n ∈ c.map.nodes, n.seg.ty = t ∧ k < n.seg.size ∧ p = n.seg.addr o k

theorem At.points {c : Coll V} {it : GIter} {t : Ty} {k : Nat} (h : c.At E it (some (t, k))) : c.Points .base it.segpos t k := by
  obtain ⟨n, hn, h1, h2, h3, h4⟩ := h.pos
  exact ⟨n, hn, h2, h3, h4⟩

/-- `c'` is `c` with the element `k` of segment `t` changed. -/
def Edited (c : Coll V) (w : World) (t : Ty) (k : Nat) (f : V → V) (c' : Coll V) (w' : World) : Prop :=
  ∃ n ∈ c.map.nodes, n.seg.ty = t ∧ k < n.seg.size ∧ c' = c.put n (n.seg.edit k f) ∧ w'.next = w.next

theorem use_itTo {m : TMap V} {n : Node V} (h : n ∈ m.nodes) : m.Use E (m.itTo n) n := (TMap.ref_itTo h).use E

/-- The owner of an address is found. -/
theorem find_owner {c : Coll V} {w : World} (h : c.Core E w) {o : Sort'} {n : Node V} (hn : n ∈ c.map.nodes) {k : Nat}
    (hk : k < n.seg.size) (f : V → V) : c.map.nodes.find? (fun m => (m.seg.be.modify o (n.seg.addr o k) f).isSome) = some n := by
  have hs := h.mem.segs n hn
  have hd := Seg.modify_addr hs o hk f
  have hne := Seg.addr_blk_ne hs o hk
  have hmem : ∀ a ∈ c.map.nodes, a ≠ n → a.seg.be.modify o (n.seg.addr o k) f = none := by
    intro a ha hna
    refine Seg.modify_other fun hb => ?_
    exact hne (disj_mem h.mem ha hn hna _ hb (Seg.addr_blk_mem n.seg o k))
  generalize c.map.nodes = l at *
  clear h hs
  induction l with
  | nil => simp at hn
  | cons a l ih =>
    by_cases e : a = n
    · subst e
      rw [List.find?_cons, hd]; rfl
    · rw [List.find?_cons, hmem a (by simp) e]
      refine ih ?_ (fun b hb => hmem b (by simp [hb]))
      rcases List.mem_cons.1 hn with rfl | h
      · exact absurd rfl e
      · exact h

/-- Acting on an element. -/
theorem apply_runs (o : Sort') (p : Ptr) (a : Act V) (c : Coll V) (w : World) (h : c.Core E w) {t : Ty} {k : Nat} (hp : c.Points o p t k) :
    Runs (Coll.apply E o p a) c w
      (fun v c' w' => (c.abs.elemsOf t)[k]? = some v ∧ Edited c w t k a.run c' w')
      (fun e c' w' => e = .user ∧ a.nothrow = false ∧ Edited c w t k a.fail c' w') := by
  obtain ⟨n, hn, rfl, hk, rfl⟩ := hp
  have he := (Ens.refl E h.map hn).elems E h.map
  simp only [Coll.apply, runs_bind, runs_get, find_owner h hn hk, runs_some]
  rw [runs_onSegU E h.map.ids (use_itTo hn)]
  refine (Seg.apply_runs (h.mem.segs n hn) o hk a).mono ?_ ?_
  · rintro v s w' ⟨h1, rfl, h2⟩
    exact ⟨by rw [← he]; exact h1, n, hn, rfl, hk, rfl, h2⟩
  · rintro e s w' ⟨h1, h3, rfl, h2⟩
    exact ⟨h1, h3, n, hn, rfl, hk, rfl, h2⟩

namespace Edited
variable {c c' : Coll V} {w w' : World} {t : Ty} {k : Nat} {f : V → V}

theorem next (h : Edited c w t k f c' w') : w'.next = w.next := by
  obtain ⟨n, hn, rfl, hk, rfl, h1⟩ := h; exact h1

theorem inv (h : Edited c w t k f c' w') (hc : c.Inv E w) : c'.Inv E w' := by
  obtain ⟨n, hn, rfl, hk, rfl, h1⟩ := h
  have hw : w.next ≤ w'.next := by omega
  exact hc.put E (stable_inv E) hn (Seg.edit_step w _ _ _) hw (Seg.edit_inv (hc.mem.segs n hn) hw k f)

theorem kind (h : Edited c w t k f c' w') : c'.kind = c.kind := by
  obtain ⟨n, hn, rfl, hk, rfl, h1⟩ := h; rfl

theorem abs (h : Edited c w t k f c' w') (hc : c.map.Inv E c.kind w) : c'.abs = c.abs.update t (fun l => l.modify k f) := by
  obtain ⟨n, hn, rfl, hk, rfl, h1⟩ := h
  have hel := (Ens.refl E hc hn).elems E hc
  rw [put_abs E hc hn (Seg.edit_ty _ _ _), Seg.edit_elems]
  unfold Spec.State.update
  refine List.map_congr_left fun e he => ?_
  by_cases h2 : e.1 = n.seg.ty
  · have : e.2 = n.seg.elems := by
      simp only [Coll.abs, TMap.abs, List.mem_map] at he
      obtain ⟨m, hm, rfl⟩ := he
      exact congrArg (fun m : Node V => m.seg.elems) (PolyColl.eq_of_nodup (f := fun a : Node V => a.seg.ty) (TMap.Inv.nodup_ty E hc) hm hn h2)
    simp [h2, this]
  · simp [h2]

end Edited

/-- The iterators of an edited collection are those it had. -/
theorem Edited.use {c c' : Coll V} {w w' : World} {t : Ty} {k : Nat} {f : V → V} (h : Edited c w t k f c' w') (hi : (c.map.nodes.map (·.id)).Nodup) {it : MapIt} {a : Node V}
    (ha : c.map.Use E it a) : ∃ a', c'.map.Use E it a' ∧ a'.seg.ty = a.seg.ty ∧ a'.seg.size = a.seg.size ∧ a'.seg.capacity = a.seg.capacity ∧
      (∀ j, a'.seg.base j = a.seg.base j) ∧ ∀ j, a'.seg.loc j = a.seg.loc j := by
  obtain ⟨n, hn, rfl, hk, rfl, h1⟩ := h
  refine ⟨_, put_use E ha, ?_⟩
  split
  · rename_i e
    have := PolyColl.eq_of_nodup (f := fun a : Node V => a.id) hi ha.mem hn e
    subst this
    exact ⟨Seg.edit_ty _ _ _, Seg.edit_size _ _ _, Seg.edit_capacity _ _ _, Seg.edit_base _ _ _, Seg.edit_loc _ _ _⟩
  · exact ⟨rfl, rfl, rfl, fun _ => rfl, fun _ => rfl⟩

theorem Edited.latB {c c' : Coll V} {w w' : World} {t : Ty} {k : Nat} {f : V → V} (h : Edited c w t k f c' w') (hi : (c.map.nodes.map (·.id)).Nodup) {l : LIter} {u : Ty}
    {j : Nat} (hl : c.LAtB E l u j) : c'.LAtB E l u j := by
  obtain ⟨a, ha, rfl, h2, h3⟩ := hl
  obtain ⟨a', g1, g2, g3, g4, g5, g6⟩ := h.use hi ha
  exact ⟨a', g1, g2, by rw [g3]; exact h2, by rw [g5]; exact h3⟩

theorem Edited.latL {c c' : Coll V} {w w' : World} {t : Ty} {k : Nat} {f : V → V} (h : Edited c w t k f c' w') (hi : (c.map.nodes.map (·.id)).Nodup) {l : LIter} {u : Ty}
    {j : Nat} (hl : c.LAtL E l u j) : c'.LAtL E l u j := by
  obtain ⟨a, ha, rfl, h2, h3⟩ := hl
  obtain ⟨a', g1, g2, g3, g4, g5, g6⟩ := h.use hi ha
  exact ⟨a', g1, g2, by rw [g3]; exact h2, by rw [g6]; exact h3⟩

theorem Edited.at {c c' : Coll V} {w w' : World} {t : Ty} {k : Nat} {f : V → V} (h : Edited c w t k f c' w') (hi : (c.map.nodes.map (·.id)).Nodup) {it : GIter}
    {p : Spec.State.Pos} (ha : c.At E it p) : c'.At E it p := by
  have hus : ∀ i, c'.map.usable E i = c.map.usable E i := by
    obtain ⟨n, hn, rfl, hk, rfl, h1⟩ := h
    exact fun _ => rfl
  refine ⟨(hus _).trans ha.usable, (hus _).trans ha.endUsable, ha.endNode, ?_⟩
  cases p with
  | none => exact ha.pos
  | some p =>
    obtain ⟨u, j⟩ := p
    obtain ⟨a, hu, rfl, h2, h3⟩ := ha.use
    obtain ⟨a', g1, g2, g3, g4, g5, g6⟩ := h.use hi hu
    exact ⟨a', g1.mem, g1.node, g2, by rw [g3]; exact h2, by rw [g5]; exact h3⟩

/-- Capacities do not change. -/
theorem Edited.capacities {c c' : Coll V} {w w' : World} {t : Ty} {k : Nat} {f : V → V} (h : Edited c w t k f c' w') (hi : (c.map.nodes.map (·.id)).Nodup) :
    c'.map.nodes.map (fun n => (n.id, n.key, n.seg.capacity)) = c.map.nodes.map (fun n => (n.id, n.key, n.seg.capacity)) := by
  obtain ⟨n, hn, rfl, hk, rfl, h1⟩ := h
  simp only [put, TMap.put, List.map_map]
  refine List.map_congr_left fun a ha => ?_
  simp only [Function.comp]
  split
  · rename_i e
    have := PolyColl.eq_of_nodup (f := fun a : Node V => a.id) hi ha hn e
    subst this
    rw [Seg.edit_capacity]
  · rfl

end Coll

namespace Seg

/-- The segment with an index entry overwritten. -/
def redirect (x : Seg V) (k : Nat) (r : Ptr) : Seg V :=
  ⟨match x.be with
    | .packed y => .packed y
    | .split y => .split { y with i := ⟨y.i.blk, y.i.cap, y.i.elems.modify k fun _ => r⟩ }, x.snt⟩

theorem redirect_elems (x : Seg V) (k : Nat) (r : Ptr) : (x.redirect k r).elems = x.elems := by
  obtain ⟨be, snt⟩ := x
  cases be <;> rfl

theorem redirect_ty (x : Seg V) (k : Nat) (r : Ptr) : (x.redirect k r).ty = x.ty := by
  obtain ⟨be, snt⟩ := x
  cases be <;> rfl

theorem entry_base {x : Seg V} {w : World} (h : x.Core E w) (hk : x.kind = .split) {k : Nat} (hs : k < x.size) :
    x.be.entry (x.base k) = some (x.loc k) := by
  have h3 := Seg.toLocal E h (Nat.le_of_lt hs)
  obtain ⟨be, snt⟩ := x
  cases be with
  | packed y => cases hk
  | split y => exact h3

theorem entry_other {x : Seg V} {p : Ptr} (h : p.blk ∉ x.blocks) : x.be.entry p = none := by
  obtain ⟨be, snt⟩ := x
  cases be with
  | packed y => rfl
  | split y =>
    simp [blocks, Backend.blocks] at h
    simp [Backend.entry, Vec.deref, h.2]

theorem setEntry_base {x : Seg V} {w : World} (h : x.Core E w) (hk : x.kind = .split) {k : Nat} (hs : k < x.size) (r : Ptr) :
    x.be.setEntry (x.base k) r = some (x.redirect k r).be := by
  obtain ⟨be, snt⟩ := x
  cases be with
  | packed y => cases hk
  | split y =>
    have h : y.Inv E w := h
    have hi := h.isize
    simp only [size, Backend.store] at hs
    have : k < y.i.size := by omega
    simp [Backend.setEntry, base, begin, Backend.begin, Split.begin, Vec.ptr, Vec.modify, this, redirect]

/-- Afterwards the entry leads elsewhere, the others are as they were. -/
theorem redirect_toLocal {x : Seg V} {w : World} (h : x.Core E w) (hk : x.kind = .split) {k : Nat} (hs : k < x.size) (r : Ptr) {j : Nat} (hj : j ≤ x.size) :
    (x.redirect k r).be.toLocal (x.base j) = some (if j = k then r else x.loc j) := by
  have h3 := Seg.toLocal E h hj
  obtain ⟨be, snt⟩ := x
  cases be with
  | packed y => cases hk
  | split y =>
    have h : y.Inv E w := h
    have hi := h.isize
    simp only [size, Backend.store] at hs hj
    simp only [Backend.toLocal, Split.toLocal, base, begin, Backend.begin, Split.begin, Vec.ptr, Vec.deref, redirect, if_true] at h3 ⊢
    rw [List.getElem?_modify, h3]
    by_cases e : k = j
    · subst e; simp
    · have : ¬ j = k := fun h => e h.symm
      simp [e, this]

end Seg

namespace Coll

theorem findSome_entry {P : Seg V → World → Prop} {c : Coll V} {w : World} (h : c.map.Mem P w) {n : Node V} (hn : n ∈ c.map.nodes) (hs : n.seg.Core E w)
    (hk : n.seg.kind = .split) {k : Nat} (hsz : k < n.seg.size) :
    c.map.nodes.findSome? (fun m => m.seg.be.entry (n.seg.base k)) = some (n.seg.loc k) ∧
    c.map.nodes.find? (fun m => (m.seg.be.entry (n.seg.base k)).isSome) = some n := by
  have hd := Seg.entry_base hs hk hsz
  have hne := Seg.begin_blk_ne E hs (by omega)
  have hmem : ∀ a ∈ c.map.nodes, a ≠ n → a.seg.be.entry (n.seg.base k) = none := by
    intro a ha hna
    refine Seg.entry_other fun hb => ?_
    exact hne (disj_mem h ha hn hna _ hb (Seg.begin_blk_mem n.seg))
  generalize c.map.nodes = l at *
  clear h hs
  induction l with
  | nil => simp at hn
  | cons a l ih =>
    by_cases e : a = n
    · subst e
      rw [List.find?_cons, List.findSome?_cons, hd]; exact ⟨rfl, rfl⟩
    · rw [List.find?_cons, List.findSome?_cons, hmem a (by simp) e]
      refine ih ?_ (fun b hb => hmem b (by simp [hb]))
      rcases List.mem_cons.1 hn with rfl | h
      · exact absurd rfl e
      · exact h

/-- Assignment through iterators of a `function_collection`. -/
theorem rebind_runs (p q : Ptr) (c : Coll V) (w : World) (h : c.Core E w) (hk : c.kind = .split) {t u : Ty} {i j : Nat}
    (hp : c.Points .base p t i) (hq : c.Points .base q u j) :
    Runs (Coll.rebind E p q) c w
      (fun _ c' w' => w' = w ∧ ∃ n ∈ c.map.nodes, ∃ m ∈ c.map.nodes, n.seg.ty = t ∧ m.seg.ty = u ∧ i < n.seg.size ∧ j < m.seg.size ∧
        c' = c.put n (n.seg.redirect i (m.seg.loc j)))
      (fun _ _ _ => False) := by
  obtain ⟨n, hn, rfl, hi, rfl⟩ := hp
  obtain ⟨m, hm, rfl, hj, rfl⟩ := hq
  have kn : n.seg.kind = .split := (h.map.kind n hn).trans hk
  have km : m.seg.kind = .split := (h.map.kind m hm).trans hk
  have g1 := (findSome_entry h.mem hm (h.mem.segs m hm) km hj).1
  have g2 := (findSome_entry h.mem hn (h.mem.segs n hn) kn hi).2
  simp only [Coll.rebind, Seg.addr, runs_bind, runs_get, g1, g2, runs_some]
  rw [runs_onSegU E h.map.ids (use_itTo hn)]
  simp only [Seg.rebind, runs_bind, runs_get, Seg.setEntry_base (h.mem.segs n hn) kn hi, runs_some, runs_set]
  exact ⟨trivial, n, hn, m, hm, rfl, rfl, hi, hj, rfl⟩

theorem redirect_self {x : Seg V} {w : World} (h : x.Core E w) (hk : x.kind = .split) {k : Nat} (hs : k < x.size) : x.redirect k (x.loc k) = x := by
  have h3 := Seg.entry_base h hk hs
  obtain ⟨be, snt⟩ := x
  cases be with
  | packed y => cases hk
  | split y =>
    simp only [Backend.entry, Seg.base, Seg.begin, Backend.begin, Split.begin, Vec.ptr, Vec.deref, if_true] at h3
    have : y.i.elems.modify k (fun _ => (Seg.loc ⟨.split y, snt⟩ k)) = y.i.elems := by
      apply List.ext_getElem?
      intro j
      rw [List.getElem?_modify]
      split
      · rename_i e; subst e; simp [h3]
      · simp
    simp only [Seg.redirect, this]

/-- A self-assignment. -/
theorem rebind_self_runs (p : Ptr) (c : Coll V) (w : World) (h : c.Inv E w) (hk : c.kind = .split) {t : Ty} {k : Nat} (hp : c.Points .base p t k) :
    Runs (Coll.rebind E p p) c w (fun _ c' w' => c' = c ∧ w' = w) (fun _ _ _ => False) := by
  refine (rebind_runs p p c w (h.core E) hk hp hp).mono ?_ (fun _ _ _ h => h)
  rintro _ c' w' ⟨rfl, n, hn, m, hm, h1, h2, h3, -, rfl⟩
  have := PolyColl.eq_of_nodup (f := fun a : Node V => a.seg.ty) (TMap.Inv.nodup_ty E h.map) hn hm (h1.trans h2.symm)
  subst this
  rw [redirect_self (h.mem.segs n hn).core ((h.map.kind n hn).trans hk) h3, put_self E h hn]
  exact ⟨rfl, rfl⟩

end Coll
end PolyColl
