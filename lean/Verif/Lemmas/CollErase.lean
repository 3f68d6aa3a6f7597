import Verif.Lemmas.CollPos
import Verif.Lemmas.StatePos
/-! # Erasure from a collection -/

namespace PolyColl
open Prog

/-- Two lists are related element by element. -/
inductive All2 {α β : Type} (R : α → β → Prop) : List α → List β → Prop where
  | nil : All2 R [] []
  | cons {a : α} {b : β} {l : List α} {m : List β} (h : R a b) (t : All2 R l m) : All2 R (a :: l) (b :: m)

theorem All2.append {α β : Type} {R : α → β → Prop} {a c : List α} {b d : List β} (h : All2 R a b)
    (h' : All2 R c d) : All2 R (a ++ c) (b ++ d) := by
  induction h with
  | nil => exact h'
  | cons h _ ih => exact .cons h ih

theorem All2.refl {α : Type} {R : α → α → Prop} (l : List α) (h : ∀ a ∈ l, R a a) : All2 R l l := by
  induction l with
  | nil => exact .nil
  | cons a l ih => exact .cons (h a (by simp)) (ih (fun b hb => h b (by simp [hb])))

theorem All2.trans {α : Type} {R S T : α → α → Prop} (hT : ∀ a b c, R a b → S b c → T a c) {l m n : List α}
    (h : All2 R l m) (h' : All2 S m n) : All2 T l n := by
  induction h generalizing n with
  | nil => cases h'; exact .nil
  | cons h _ ih => cases h' with | cons g gs => exact .cons (hT _ _ _ h g) (ih gs)

theorem All2.mem {α β : Type} {R : α → β → Prop} {l : List α} {m : List β} (h : All2 R l m) {b : β} (hb : b ∈ m) :
    ∃ a ∈ l, R a b := by
  induction h with
  | nil => simp at hb
  | cons h _ ih =>
    rcases List.mem_cons.1 hb with rfl | hb
    · exact ⟨_, by simp, h⟩
    · obtain ⟨a, ha, hr⟩ := ih hb
      exact ⟨a, by simp [ha], hr⟩

theorem All2.mem' {α β : Type} {R : α → β → Prop} {l : List α} {m : List β} (h : All2 R l m) {a : α} (ha : a ∈ l) :
    ∃ b ∈ m, R a b := by
  induction h with
  | nil => simp at ha
  | cons h _ ih =>
    rcases List.mem_cons.1 ha with rfl | ha
    · exact ⟨_, by simp, h⟩
    · obtain ⟨b, hb, hr⟩ := ih ha
      exact ⟨b, by simp [hb], hr⟩

namespace Coll
variable {V : Type} (E : Env V)

/-- `c'` differs from `c` by its segments only, which are related by `T`. -/
structure Upd (T : Seg V → Seg V → Prop) (c c' : Coll V) : Prop where
  kind : c'.kind = c.kind
  map : c'.map = { c.map with nodes := c'.map.nodes }
  nodes : All2 (fun a b : Node V => b.id = a.id ∧ b.key = a.key ∧ T a.seg b.seg) c.map.nodes c'.map.nodes

theorem Upd.refl {T : Seg V → Seg V → Prop} (c : Coll V) (h : ∀ s, T s s) : Upd T c c :=
  ⟨rfl, rfl, All2.refl _ (fun _ _ => ⟨rfl, rfl, h _⟩)⟩

theorem Upd.trans {T S U : Seg V → Seg V → Prop} (hU : ∀ a b c, T a b → S b c → U a c) {c d e : Coll V} (h : Upd T c d) (h' : Upd S d e) :
    Upd U c e := by
  refine ⟨h'.kind.trans h.kind, ?_, All2.trans ?_ h.nodes h'.nodes⟩
  · have h1 := h.map
    have h2 := h'.map
    rw [h2, h1]
  · rintro a b c ⟨h1, h2, h3⟩ ⟨g1, g2, g3⟩
    exact ⟨g1.trans h1, g2.trans h2, hU _ _ _ h3 g3⟩

theorem Upd.usable {T : Seg V → Seg V → Prop} {c c' : Coll V} (h : Upd T c c') (it : MapIt) : c'.map.usable E it = c.map.usable E it := by
  have : c'.map.gen = c.map.gen := by rw [h.map]
  simp [TMap.usable, this]

/-- Replacing one segment. -/
theorem put_upd {T : Seg V → Seg V → Prop} {c : Coll V} {n : Node V} {s : Seg V} (hi : (c.map.nodes.map (·.id)).Nodup) (hn : n ∈ c.map.nodes)
    (hr : ∀ s, T s s) (h : T n.seg s) : Upd T c (c.put n s) := by
  refine ⟨rfl, rfl, ?_⟩
  simp only [put, TMap.put]
  have : ∀ a ∈ c.map.nodes, (if a.id = n.id then { a with seg := s } else a).id = a.id ∧
      (if a.id = n.id then { a with seg := s } else a).key = a.key ∧ T a.seg (if a.id = n.id then { a with seg := s } else a).seg := by
    intro a ha
    by_cases e : a.id = n.id
    · have := eq_of_nodup hi ha hn e
      subst this
      simp [h]
    · simp [e, hr]
  generalize c.map.nodes = l at this
  induction l with
  | nil => exact .nil
  | cons a l ih => exact .cons (this a (by simp)) (ih (fun b hb => this b (by simp [hb])))

theorem put_split {c : Coll V} {n : Node V} {s : Seg V} (hi : (c.map.nodes.map (·.id)).Nodup) {pre post : List (Node V)}
    (h : c.map.nodes = pre ++ n :: post) : (c.put n s).map.nodes = pre ++ { n with seg := s } :: post := by
  simp only [put, TMap.put, h]
  rw [h] at hi
  simp only [List.map_append, List.map_cons, List.nodup_append, List.nodup_cons] at hi
  have key : ∀ l : List (Node V), (∀ a ∈ l, a.id ≠ n.id) → l.map (fun k => if k.id = n.id then { k with seg := s } else k) = l := by
    intro l hl
    refine (List.map_congr_left (g := id) ?_).trans (List.map_id _)
    intro a ha
    simp [hl a ha]
  rw [List.map_append, List.map_cons, key pre, key post]
  · simp
  · intro a ha e
    exact hi.2.1.1 (e ▸ List.mem_map_of_mem (f := fun n : Node V => n.id) ha)
  · intro a ha e
    exact hi.2.2 a.id (List.mem_map_of_mem (f := fun n : Node V => n.id) ha) n.id (by simp) e

/-- What erasure does to a segment that it does not refuse to touch: buffers stay where they are. -/
def Trim (s s' : Seg V) : Prop :=
  s'.ty = s.ty ∧ s'.size ≤ s.size ∧ Vec.Same s.be.store s'.be.store ∧ s'.begin = s.begin

theorem Trim.refl (s : Seg V) : Trim s s := ⟨rfl, Nat.le_refl _, ⟨rfl, rfl⟩, rfl⟩

theorem Trim.trans {a b c : Seg V} (h : Trim a b) (h' : Trim b c) : Trim a c :=
  ⟨h'.1.trans h.1, Nat.le_trans h'.2.1 h.2.1, ⟨h'.2.2.1.1.trans h.2.2.1.1, h'.2.2.1.2.trans h.2.2.1.2⟩, h'.2.2.2.trans h.2.2.2⟩

theorem Trim.of_rem {s s' : Seg V} {w w' : World} {l : List V} (h : Seg.Rem E s w l s' w') (hl : l.length ≤ s.size) : Trim s s' :=
  ⟨h.step.ty, by rw [Seg.size_eq, h.elems]; exact hl, h.store, h.begin⟩

/-- An iterator to a position that still exists is as good as before. -/
theorem Upd.at {c c' : Coll V} (h : Upd Trim c c') {it : GIter} {t : Ty} {k : Nat} (ha : c.At E it (some (t, k)))
    (hk : ∃ n ∈ c'.map.nodes, n.seg.ty = t ∧ k < n.seg.size) (hu : (c.map.nodes.map (·.seg.ty)).Nodup) : c'.At E it (some (t, k)) := by
  refine ⟨by rw [h.usable]; exact ha.usable, by rw [h.usable]; exact ha.endUsable, ha.endNode, ?_⟩
  obtain ⟨n, h1, h2, h3, h4, h5⟩ := ha.pos
  obtain ⟨m, g1, g2, g3⟩ := hk
  obtain ⟨a, ha', b1, b2, b3⟩ := All2.mem h.nodes g1
  have : a = n := eq_of_nodup hu ha' h1 (by rw [← b3.1, g2, h3])
  subst this
  exact ⟨m, g1, by rw [b1]; exact h2, g2, g3, by rw [h5]; simp [Seg.base, b3.2.2.2]⟩

/-- The elements of some segments were removed; the new state is `s'`. -/
structure Removed (c : Coll V) (w : World) (s' : Spec.State V) (c' : Coll V) (w' : World) : Prop where
  inv : c'.Inv E w'
  upd : Upd Trim c c'
  next : w.next ≤ w'.next
  abs : c'.abs = s'

/-- Remove from one segment. -/
theorem Removed.one {c : Coll V} {w w' : World} {n : Node V} {s : Seg V} {l : List V} (hc : c.Inv E w) (hn : n ∈ c.map.nodes)
    (h : Seg.Rem E n.seg w l s w') (hl : l.length ≤ n.seg.size) : Removed E c w (c.abs.update n.seg.ty fun _ => l) (c.put n s) w' := by
  refine ⟨hc.put E (stable_inv E) hn h.step (Nat.le_of_eq h.next.symm) h.inv, ?_, Nat.le_of_eq h.next.symm, ?_⟩
  · exact put_upd hc.map.ids hn Trim.refl (Trim.of_rem E h hl)
  · rw [put_abs E hc.map hn h.step.ty, h.elems]

/-- What a failed erasure leaves: one segment is affected. -/
structure ErFail (c : Coll V) (w : World) (t : Ty) (e : Exc) (c' : Coll V) (w' : World) : Prop where
  fail : ∃ n ∈ c.map.nodes, n.seg.ty = t ∧ ∃ s, c' = c.put n s ∧ Seg.RemFail E n.seg w e s w'

theorem erase_runs (pos : GIter) (t : Ty) (k : Nat) (c : Coll V) (w : World) (hc : c.Inv E w) (hp : c.At E pos (some (t, k))) :
    Runs (erase E pos) c w
      (fun g c' w' => Removed E c w (c.abs.update t (·.eraseIdx k)) c' w' ∧ c'.At E g (c'.abs.norm t k))
      (fun e c' w' => ∃ n ∈ c.map.nodes, n.seg.ty = t ∧ k + 1 < n.seg.size ∧
        ∃ s, c' = c.put n s ∧ Seg.RemFail E n.seg w e s w' ∧ (n.seg.kind = .packed → s.Core E w')) := by
  have he := hp.endUsable
  have hen := hp.endNode
  obtain ⟨n, hu, rfl, hk, hp⟩ := hp.use
  unfold erase
  rw [runs_bind, runs_onSegU E hc.map.ids hu, hp]
  refine (Seg.eraseBase_runs E n.seg w (hc.mem.segs n hu.mem).core k hk).mono ?_ ?_
  · rintro r s w' ⟨h1, rfl⟩
    have hle : (n.seg.elems.eraseIdx k).length = n.seg.size - 1 := by
      rw [List.length_eraseIdx, if_pos (by rw [← Seg.size_eq]; exact hk), Seg.size_eq]
    have hr := Removed.one E hc hu.mem h1 (by omega)
    have hu' := put_use_self E (s := s) hu
    have hsz : s.size = n.seg.size - 1 := by rw [Seg.size_eq, h1.elems, hle]
    refine (retIterEnd_runs E hr.inv hu' (by rw [hr.upd.usable]; exact he) hen (k := k) (show k ≤ s.size by omega)).mono ?_ (fun _ _ _ h => h)
    rintro g c' w'' ⟨rfl, rfl, hat⟩
    have hty : ({ n with seg := s } : Node V).seg.ty = n.seg.ty := h1.step.ty
    rw [hty] at hat
    refine ⟨⟨hr.inv, hr.upd, hr.next, ?_⟩, hat⟩
    rw [hr.abs]
    refine update_congr ?_
    intro l hl
    rw [mem_abs E hc.map hu.mem hl]
  · rintro e s w' ⟨h1, h2, h3⟩
    exact ⟨n, hu.mem, rfl, h2, s, rfl, h1, h3⟩

theorem eraseLocalBase_runs (pos : LIter) (t : Ty) (k : Nat) (c : Coll V) (w : World) (hc : c.Inv E w) (hp : c.LAtB E pos t k)
    (hk : k < (c.abs.elemsOf t).length) :
    Runs (eraseLocalBase E pos) c w
      (fun l c' w' => Removed E c w (c.abs.update t (·.eraseIdx k)) c' w' ∧ c'.LAtB E l t k)
      (fun e c' w' => ∃ n ∈ c.map.nodes, n.seg.ty = t ∧ k + 1 < n.seg.size ∧
        ∃ s, c' = c.put n s ∧ Seg.RemFail E n.seg w e s w' ∧ (n.seg.kind = .packed → s.Core E w')) := by
  obtain ⟨n, hu, rfl, hk', hp⟩ := hp
  have hel : n.seg.elems = c.abs.elemsOf n.seg.ty := (Ens.refl E hc.map hu.mem).elems E hc.map
  rw [← hel, ← Seg.size_eq] at hk
  unfold eraseLocalBase
  rw [runs_bind, runs_onSegU E hc.map.ids hu, hp]
  refine (Seg.eraseBase_runs E n.seg w (hc.mem.segs n hu.mem).core k hk).mono ?_ ?_
  · rintro r s w' ⟨h1, rfl⟩
    have hle : (n.seg.elems.eraseIdx k).length = n.seg.size - 1 := by
      rw [List.length_eraseIdx, if_pos (by rw [← Seg.size_eq]; exact hk), Seg.size_eq]
    have hr := Removed.one E hc hu.mem h1 (by omega)
    have hu' := put_use_self E (s := s) hu
    have hsz : s.size = n.seg.size - 1 := by rw [Seg.size_eq, h1.elems, hle]
    refine ⟨⟨hr.inv, hr.upd, hr.next, ?_⟩, _, hu', h1.step.ty, show k ≤ s.size by omega, rfl⟩
    rw [hr.abs]
    refine update_congr ?_
    intro l hl
    rw [mem_abs E hc.map hu.mem hl]
  · rintro e s w' ⟨h1, h2, h3⟩
    exact ⟨n, hu.mem, rfl, h2, s, rfl, h1, h3⟩

theorem eraseLocal_runs (pos : LIter) (t : Ty) (k : Nat) (c : Coll V) (w : World) (hc : c.Inv E w) (hp : c.LAtL E pos t k)
    (hk : k < (c.abs.elemsOf t).length) :
    Runs (eraseLocal E pos) c w
      (fun l c' w' => Removed E c w (c.abs.update t (·.eraseIdx k)) c' w' ∧ c'.LAtL E l t k)
      (fun e c' w' => ∃ n ∈ c.map.nodes, n.seg.ty = t ∧ k + 1 < n.seg.size ∧
        ∃ s, c' = c.put n s ∧ Seg.RemFail E n.seg w e s w' ∧ (n.seg.kind = .packed → s.Core E w')) := by
  obtain ⟨n, hu, rfl, hk', hp⟩ := hp
  have hel : n.seg.elems = c.abs.elemsOf n.seg.ty := (Ens.refl E hc.map hu.mem).elems E hc.map
  rw [← hel, ← Seg.size_eq] at hk
  unfold eraseLocal
  rw [runs_bind, runs_onSegU E hc.map.ids hu, hp]
  refine (Seg.eraseLocal_runs E n.seg w (hc.mem.segs n hu.mem).core k hk).mono ?_ ?_
  · rintro r s w' ⟨h1, rfl⟩
    have hle : (n.seg.elems.eraseIdx k).length = n.seg.size - 1 := by
      rw [List.length_eraseIdx, if_pos (by rw [← Seg.size_eq]; exact hk), Seg.size_eq]
    have hr := Removed.one E hc hu.mem h1 (by omega)
    have hu' := put_use_self E (s := s) hu
    have hsz : s.size = n.seg.size - 1 := by rw [Seg.size_eq, h1.elems, hle]
    have htl := toLocal_use E (Inv.core E hr.inv) hu' (k := k) (show k ≤ s.size by omega)
    simp only [runs_bind, runs_get, htl, runs_some]
    refine ⟨⟨hr.inv, hr.upd, hr.next, ?_⟩, _, hu', h1.step.ty, show k ≤ s.size by omega, rfl⟩
    rw [hr.abs]
    refine update_congr ?_
    intro l hl
    rw [mem_abs E hc.map hu.mem hl]
  · rintro e s w' ⟨h1, h2, h3⟩
    exact ⟨n, hu.mem, rfl, h2, s, rfl, h1, h3⟩

/-! ### Local ranges -/

/-- The shape of a failed range erasure inside one segment. -/
def RangeErFail (c : Coll V) (w : World) (t : Ty) (e : Exc) (c' : Coll V) (w' : World) : Prop :=
  ∃ n ∈ c.map.nodes, n.seg.ty = t ∧ ∃ s, c' = c.put n s ∧ Seg.RemFail E n.seg w e s w' ∧ s.Core E w'

theorem take_drop_length {α : Type} (l : List α) {a b : Nat} (hab : a ≤ b) (hb : b ≤ l.length) :
    (l.take a ++ l.drop b).length = l.length - (b - a) := by
  simp; omega

theorem eraseLocalRangeBase_runs (first last : LIter) (t : Ty) (a b : Nat) (c : Coll V) (w : World) (hc : c.Inv E w)
    (hf : c.LAtB E first t a) (hl : c.LAtB E last t b) (hab : a ≤ b) :
    Runs (eraseLocalRangeBase E first last) c w
      (fun l c' w' => Removed E c w (c.abs.update t fun l => l.take a ++ l.drop b) c' w' ∧ c'.LAtB E l t a)
      (RangeErFail E c w t) := by
  obtain ⟨n, hu, rfl, ha, hp⟩ := hf
  obtain ⟨m, hm, ht, hb, hq⟩ := hl
  have := eq_of_nodup (hc.map.nodup_ty E) hm.mem hu.mem ht
  subst this
  unfold eraseLocalRangeBase
  rw [runs_bind, runs_onSegU E hc.map.ids hu, hp, hq]
  refine (Seg.eraseRangeBase_runs E m.seg w (hc.mem.segs m hu.mem).core a b hab hb).mono ?_ ?_
  · rintro r s w' ⟨h1, rfl⟩
    have hle := take_drop_length m.seg.elems hab hb
    rw [← Seg.size_eq] at hle
    have hr := Removed.one E hc hu.mem h1 (by omega)
    have hu' := put_use_self E (s := s) hu
    have hsz : s.size = m.seg.size - (b - a) := by rw [Seg.size_eq, h1.elems, hle]
    refine ⟨⟨hr.inv, hr.upd, hr.next, ?_⟩, _, hu', h1.step.ty, show a ≤ s.size by omega, rfl⟩
    rw [hr.abs]
    refine update_congr ?_
    intro l hl
    rw [mem_abs E hc.map hu.mem hl]
  · rintro e s w' ⟨h1, h2, h3, h4⟩
    exact ⟨m, hu.mem, rfl, s, rfl, h1, h4⟩

theorem eraseLocalRange_runs (first last : LIter) (t : Ty) (a b : Nat) (c : Coll V) (w : World) (hc : c.Inv E w)
    (hf : c.LAtL E first t a) (hl : c.LAtL E last t b) (hab : a ≤ b) :
    Runs (eraseLocalRange E first last) c w
      (fun l c' w' => Removed E c w (c.abs.update t fun l => l.take a ++ l.drop b) c' w' ∧ c'.LAtL E l t a)
      (RangeErFail E c w t) := by
  obtain ⟨n, hu, rfl, ha, hp⟩ := hf
  obtain ⟨m, hm, ht, hb, hq⟩ := hl
  have := eq_of_nodup (hc.map.nodup_ty E) hm.mem hu.mem ht
  subst this
  unfold eraseLocalRange
  rw [runs_bind, runs_onSegU E hc.map.ids hu, hp, hq]
  refine (Seg.eraseRangeLocal_runs E m.seg w (hc.mem.segs m hu.mem).core a b hab hb).mono ?_ ?_
  · rintro r s w' ⟨h1, rfl⟩
    have hle := take_drop_length m.seg.elems hab hb
    rw [← Seg.size_eq] at hle
    have hr := Removed.one E hc hu.mem h1 (by omega)
    have hu' := put_use_self E (s := s) hu
    have hsz : s.size = m.seg.size - (b - a) := by rw [Seg.size_eq, h1.elems, hle]
    have htl := toLocal_use E (Inv.core E hr.inv) hu' (k := a) (show a ≤ s.size by omega)
    simp only [runs_bind, runs_get, htl, runs_some]
    refine ⟨⟨hr.inv, hr.upd, hr.next, ?_⟩, _, hu', h1.step.ty, show a ≤ s.size by omega, rfl⟩
    rw [hr.abs]
    refine update_congr ?_
    intro l hl
    rw [mem_abs E hc.map hu.mem hl]
  · rintro e s w' ⟨h1, h2, h3, h4⟩
    exact ⟨m, hu.mem, rfl, s, rfl, h1, h4⟩

/-! ### Global ranges -/

theorem Removed.trans {c d e : Coll V} {w w1 w2 : World} {s s' : Spec.State V} (h : Removed E c w s d w1) (h' : Removed E d w1 s' e w2) :
    Removed E c w s' e w2 :=
  ⟨h'.inv, h.upd.trans (fun _ _ _ h h' => h.trans h') h'.upd, Nat.le_trans h.next h'.next, h'.abs⟩

theorem abs_nodup' {c : Coll V} {w : World} (hc : c.map.Inv E c.kind w) : c.abs.types.Nodup := by
  simp only [Coll.abs, TMap.abs_types]; exact hc.nodup_ty E

/-- What a failed range erasure leaves: some elements were removed, then one segment failed; the
segments satisfying `keep` were not concerned. -/
inductive EraseFail (c : Coll V) (w : World) (keep : Ty → Prop) (e : Exc) : Coll V → World → Prop where
  | mk {s : Spec.State V} {d c' : Coll V} {w1 w' : World} {t : Ty} (h : Removed E c w s d w1) (f : RangeErFail E d w1 t e c' w')
      (hk : ∀ u, keep u → s.elemsOf u = c.abs.elemsOf u ∧ u ≠ t) : EraseFail c w keep e c' w'

/-- The positions `lseg`/`lastPos` of the multi-segment loop refer to: the end, or an element of a
later segment. -/
def SpanEnd (c : Coll V) (lseg : MapIt) (lastPos : Ptr) (rest : List (Node V)) : Prop :=
  c.map.usable E lseg = true ∧
    ((rest = [] ∧ lseg.node = none) ∨
      ∃ n post k, rest = n :: post ∧ lseg.node = some n.id ∧ k < n.seg.size ∧ lastPos = n.seg.base k)

theorem absNodes_append (a b : List (Node V)) : absNodes (a ++ b) = absNodes a ++ absNodes b := by simp [absNodes]

theorem abs_split {c : Coll V} {l : List (Node V)} (h : c.map.nodes = l) : c.abs = absNodes l := by rw [abs_eq, h]

theorem norm_split {pre post : List (Node V)} {n : Node V} (h : ((pre ++ n :: post).map (·.seg.ty)).Nodup) {k : Nat} :
    (absNodes (pre ++ n :: post)).norm n.seg.ty k =
      if k < n.seg.size then some (n.seg.ty, k) else (absNodes post).first := by
  have h1 : n.seg.ty ∉ (absNodes pre).types := by
    simp only [List.map_append, List.map_cons, List.nodup_append] at h
    intro e
    simp only [Spec.State.types, absNodes, List.map_map, List.mem_map, Function.comp] at e
    obtain ⟨a, ha, he⟩ := e
    exact h.2.2 a.seg.ty (List.mem_map_of_mem (f := fun n : Node V => n.seg.ty) ha) n.seg.ty (by simp) he
  unfold Spec.State.norm
  have : absNodes (pre ++ n :: post) = absNodes pre ++ (n.seg.ty, n.seg.elems) :: absNodes post := by simp [absNodes]
  rw [this, Spec.State.get_split h1, Spec.State.after_split h1]
  rfl

/-- The loop over the segments strictly between first and last, and the last one.  `b` counts the
elements to be removed after the segment `f`. -/
theorem eraseSpan_runs (lseg mapend : MapIt) (hme : mapend.node = none) (lastPos : Ptr) (mid : List (Node V)) : ∀ (fuel : Nat) (fseg : MapIt) (c : Coll V) (w : World)
    (pre : List (Node V)) (f : Node V) (rest : List (Node V)), c.Inv E w → c.map.nodes = pre ++ f :: (mid ++ rest) → c.map.Use E fseg f →
    SpanEnd E c lseg lastPos rest → c.map.usable E mapend = true → mid.length < fuel →
    Runs (eraseSpan E fseg lseg mapend lastPos fuel) c w
      (fun g c' w' => ∃ p, c'.At E g p ∧
        ((rest = [] ∧ p = none ∧ Removed E c w (absNodes (pre ++ [f]) ++ (absNodes mid).cleared) c' w') ∨
          ∃ n post k, rest = n :: post ∧ k < n.seg.size ∧ lastPos = n.seg.base k ∧ p = some (n.seg.ty, 0) ∧
            Removed E c w (absNodes (pre ++ [f]) ++ (absNodes mid).cleared ++ (n.seg.ty, n.seg.elems.drop k) :: absNodes post) c' w'))
      (EraseFail E c w fun u => (∀ m ∈ mid, m.seg.ty = u → m.seg.elems = []) ∧
        ∀ n post, rest = n :: post → n.seg.ty = u → lastPos = n.seg.base 0) := by
  induction mid with
  | nil =>
    intro fuel fseg c w pre f rest hc hn hu hs hmu hfuel
    obtain ⟨fuel, rfl⟩ : ∃ k, fuel = k + 1 := ⟨fuel - 1, by omega⟩
    simp only [List.nil_append] at hn
    unfold eraseSpan
    have hnx := TMap.itNext_split E hc.map.ids hn hu
    simp only [runs_bind, runs_get, hnx, runs_some]
    obtain ⟨hus, hs | ⟨n, post, k, rfl, hl, hk, hp⟩⟩ := hs
    · obtain ⟨rfl, hl⟩ := hs
      have he : c.map.itEq E c.map.end lseg = some true := by
        simp only [TMap.itEq, usable_end E c.map, hus, hl, Bool.and_self, if_true]
        rfl
      simp only [he, runs_some, if_true]
      have he2 : c.map.itEq E c.map.end mapend = some true := by
        simp only [TMap.itEq, usable_end E c.map, hmu, hme, Bool.and_self, if_true]
        rfl
      simp only [runs_bind, he2, runs_some, if_true, runs_pure]
      refine ⟨none, ⟨hmu, hmu, hme, hme, rfl⟩, Or.inl ⟨by trivial, by trivial, hc, Upd.refl c Trim.refl, Nat.le_refl _, ?_⟩⟩
      rw [abs_split hn]
      simp [absNodes, Spec.State.cleared]
    · have hmem : n ∈ c.map.nodes := by rw [hn]; simp
      have he : c.map.itEq E (c.map.itTo n) lseg = some true := by
        simp only [TMap.itEq, usable_itTo E c.map n, hus, hl, Bool.and_self, if_true]
        simp [TMap.itTo]
      simp only [he, runs_some, if_true]
      have he2 : c.map.itEq E (c.map.itTo n) mapend = some false := by
        simp only [TMap.itEq, usable_itTo E c.map n, hmu, hme, Bool.and_self, if_true]
        simp [TMap.itTo]
      simp only [runs_bind, he2, runs_some]
      rw [if_neg (by simp), runs_bind, runs_onSeg E hc.map.ids (TMap.ref_itTo hmem), hp]
      refine (Seg.eraseFromBegin_runs E n.seg w (hc.mem.segs n hmem).core k (Nat.le_of_lt hk)).mono ?_ ?_
      · rintro r s w' ⟨h1, rfl⟩
        have hle : (n.seg.elems.drop k).length = n.seg.size - k := by simp [Seg.size_eq]
        have hr := Removed.one E hc hmem h1 (by omega)
        have hu' := put_use_self E (s := s) ((TMap.ref_itTo hmem).use E)
        have hsz : s.size = n.seg.size - k := by rw [Seg.size_eq, h1.elems, hle]
        refine (retIterEnd_runs E hr.inv hu' (by rw [hr.upd.usable]; exact hmu) hme (k := 0) (Nat.zero_le _)).mono ?_ (fun _ _ _ h => h)
        rintro g c' w'' ⟨rfl, rfl, hat⟩
        rw [norm_node E hr.inv hu'.mem, if_pos (show 0 < s.size by omega)] at hat
        have hty : s.ty = n.seg.ty := h1.step.ty
        refine ⟨_, hat, Or.inr ⟨n, post, k, rfl, hk, rfl, ?_, hr.inv, hr.upd, hr.next, ?_⟩⟩
        · simp [hty]
        · rw [abs_split (put_split hc.map.ids (pre := pre ++ [f]) (post := post) (n := n) (by simp [hn]))]
          simp [absNodes, Spec.State.cleared, hty, h1.elems]
      · rintro e s w' ⟨h1, h2, h3, h4⟩
        refine .mk ⟨hc, Upd.refl c Trim.refl, Nat.le_refl _, rfl⟩ ⟨n, hmem, rfl, s, rfl, h1, h4⟩ ?_
        rintro u ⟨-, hu⟩
        refine ⟨rfl, fun he => ?_⟩
        have := Seg.base_inj.1 (hu n post rfl he.symm)
        omega
  | cons m mid ih =>
    intro fuel fseg c w pre f rest hc hn hu hs hmu hfuel
    obtain ⟨fuel, rfl⟩ : ∃ k, fuel = k + 1 := ⟨fuel - 1, by omega⟩
    simp only [List.cons_append] at hn
    unfold eraseSpan
    have hnx := TMap.itNext_split E hc.map.ids hn hu
    have hmem : m ∈ c.map.nodes := by rw [hn]; simp
    have hids := hc.map.ids
    have he : c.map.itEq E (c.map.itTo m) lseg = some false := by
      have : (c.map.itTo m).node ≠ lseg.node := by
        obtain ⟨hus, ⟨rfl, hl⟩ | ⟨n, post, k, rfl, hl, hk, hp⟩⟩ := hs
        · rw [hl]; simp [TMap.itTo]
        · rw [hl]
          simp only [TMap.itTo, ne_eq, Option.some.injEq]
          intro e
          rw [hn] at hids
          simp only [List.map_append, List.map_cons, List.nodup_append, List.nodup_cons] at hids
          exact hids.2.1.2.1 (by rw [e]; simp)
      simp only [TMap.itEq, usable_itTo E c.map m, hs.1, Bool.and_self, if_true]
      simp [this]
    simp only [runs_bind, runs_get, hnx, runs_some, he]
    rw [if_neg (by simp), runs_bind, runs_onSeg E hids (TMap.ref_itTo hmem)]
    refine (Seg.clear_runs E m.seg w (hc.mem.segs m hmem).core).mono ?_ (fun _ _ _ h => h.elim)
    rintro _ s w' h1
    have hr := Removed.one E hc hmem h1 (by simp)
    have hu' := put_use_self E (s := s) ((TMap.ref_itTo hmem).use E)
    have hnodes : (c.put m s).map.nodes = (pre ++ [f]) ++ { m with seg := s } :: (mid ++ rest) :=
      put_split hids (pre := pre ++ [f]) (post := mid ++ rest) (n := m) (by simp [hn])
    have hty : s.ty = m.seg.ty := h1.step.ty
    refine (ih fuel (c.map.itTo m) (c.put m s) w' (pre ++ [f]) { m with seg := s } rest hr.inv hnodes hu' ?_ (by rw [hr.upd.usable]; exact hmu) (by simp at hfuel; omega)).mono ?_ ?_
    · exact ⟨by have := hs.1; exact this, hs.2⟩
    · rintro g c' w'' ⟨p, g1, g2⟩
      refine ⟨p, g1, ?_⟩
      rcases g2 with ⟨g3, g4, g5⟩ | ⟨n, post, k, g3, g4, g5, g6, g7⟩
      · left
        refine ⟨g3, g4, ?_⟩
        have := hr.trans E g5
        refine ⟨this.inv, this.upd, this.next, this.abs.trans ?_⟩
        simp [absNodes, Spec.State.cleared, hty, h1.elems]
      · right
        refine ⟨n, post, k, g3, g4, g5, g6, ?_⟩
        have := hr.trans E g7
        refine ⟨this.inv, this.upd, this.next, this.abs.trans ?_⟩
        simp [absNodes, Spec.State.cleared, hty, h1.elems]
    · rintro e c' w'' ⟨h2, h3, h4⟩
      refine .mk (hr.trans E h2) h3 ?_
      rintro u ⟨k1, k2⟩
      obtain ⟨k3, k4⟩ := h4 u ⟨fun a ha => k1 a (by simp [ha]), k2⟩
      refine ⟨k3.trans ?_, k4⟩
      rw [hr.abs, Spec.State.update_elemsOf (mem_types hmem)]
      split
      · rename_i hum
        rw [Spec.State.elemsOf_mem (abs_nodup' E hc.map) (l := []) ?_]
        rw [hum, ← k1 m (by simp) hum.symm]
        exact List.mem_map_of_mem hmem
      · rfl

/-- A valid global position splits the nodes. -/
theorem At.split {c : Coll V} {it : GIter} {t : Ty} {k : Nat} (h : c.At E it (some (t, k))) :
    ∃ pre n post, c.map.nodes = pre ++ n :: post ∧ c.map.Use E it.mapit n ∧ n.seg.ty = t ∧ k < n.seg.size ∧ it.segpos = n.seg.base k := by
  obtain ⟨n, hu, h1, h2, h3⟩ := h.use
  obtain ⟨pre, post, hp⟩ := List.append_of_mem hu.mem
  exact ⟨pre, n, post, hp, hu, h1, h2, h3⟩

theorem At.valid {c : Coll V} {w : World} (hc : c.map.Inv E c.kind w) {it : GIter} {p : Spec.State.Pos} (h : c.At E it p) : c.abs.Valid p := by
  cases p with
  | none => trivial
  | some q =>
    obtain ⟨t, k⟩ := q
    obtain ⟨n, hu, rfl, hk, hp⟩ := h.use
    exact ⟨_, TMap.abs_get E hc hu.mem, hk⟩

theorem rank_nodes {pre post : List (Node V)} {n : Node V} (h : ((pre ++ n :: post).map (·.seg.ty)).Nodup) {k : Nat} :
    (absNodes (pre ++ n :: post)).rank (some (n.seg.ty, k)) = (absNodes pre).flat.length + k := by
  have h1 : n.seg.ty ∉ (absNodes pre).types := by
    simp only [List.map_append, List.map_cons, List.nodup_append] at h
    intro e
    simp only [Spec.State.types, absNodes, List.map_map, List.mem_map, Function.comp] at e
    obtain ⟨a, ha, he⟩ := e
    exact h.2.2 a.seg.ty (List.mem_map_of_mem (f := fun n : Node V => n.seg.ty) ha) n.seg.ty (by simp) he
  have : absNodes (pre ++ n :: post) = absNodes pre ++ (n.seg.ty, n.seg.elems) :: absNodes post := by simp [absNodes]
  rw [this, Spec.State.rank_split h1]

/-- Of two different nodes in a list one comes first. -/
theorem split_two {α : Type} {a b : α} {pre post l : List α} (h : pre ++ a :: post = l) (hb : b ∈ l) (hne : b ≠ a) :
    (∃ p1 p2, pre = p1 ++ b :: p2) ∨ ∃ p1 p2, post = p1 ++ b :: p2 := by
  subst h
  simp only [List.mem_append, List.mem_cons] at hb
  rcases hb with hb | hb | hb
  · obtain ⟨p1, p2, h⟩ := List.append_of_mem hb; exact Or.inl ⟨p1, p2, h⟩
  · exact absurd hb hne
  · obtain ⟨p1, p2, h⟩ := List.append_of_mem hb; exact Or.inr ⟨p1, p2, h⟩

/-- The result of removing a range spanning several segments. -/
theorem removeRange_span (A : Spec.State V) (t : Ty) (l : List V) (M : Spec.State V) (R : Spec.State V) (k b : Nat) (hk : k ≤ l.length) :
    (A ++ (t, l) :: (M ++ R)).removeRange (A.flat.length + k) (A.flat.length + l.length + M.flat.length + b) =
      A ++ (t, l.take k) :: (M.cleared ++ R.removeRange 0 b) := by
  rw [Spec.State.removeRange_zero_left _ (by omega) (by omega)]
  congr 1
  simp only [Spec.State.removeRange]
  rw [show A.flat.length + k - A.flat.length = k by omega,
    show A.flat.length + l.length + M.flat.length + b - A.flat.length = l.length + M.flat.length + b by omega,
    List.drop_of_length_le (by omega), show k - l.length = 0 by omega,
    show l.length + M.flat.length + b - l.length = M.flat.length + b by omega,
    Spec.State.removeRange_mid _ (by omega), show M.flat.length + b - M.flat.length = b by omega]
  simp

theorem removeRange_drop (t : Ty) (l : List V) (R : Spec.State V) {b : Nat} (hb : b ≤ l.length) :
    Spec.State.removeRange 0 b ((t, l) :: R) = (t, l.drop b) :: R := by
  simp only [Spec.State.removeRange]
  rw [show 0 - l.length = 0 by omega, show b - l.length = 0 by omega, Spec.State.removeRange_self]
  simp

theorem eraseRange_runs (first last : GIter) (p q : Spec.State.Pos) (c : Coll V) (w : World) (hc : c.Inv E w) (hf : c.At E first p)
    (hl : c.At E last q) (hpq : c.abs.rank p ≤ c.abs.rank q) :
    Runs (eraseRange E first last) c w
      (fun g c' w' => Removed E c w (c.abs.removeRange (c.abs.rank p) (c.abs.rank q)) c' w' ∧
        ∃ r, c'.At E g r ∧ c'.abs.rank r = c.abs.rank p)
      (EraseFail E c w fun u => (c.abs.removeRange (c.abs.rank p) (c.abs.rank q)).elemsOf u = c.abs.elemsOf u) := by
  have hnd := hc.map.nodup_ty E
  have hndt := abs_nodup' E hc.map
  have heq : c.map.itEq E first.mapit last.mapit = some (decide (first.mapit.node = last.mapit.node)) := by
    simp [TMap.itEq, hf.usable, hl.usable]
  unfold eraseRange
  simp only [runs_bind, runs_get, heq, runs_some, decide_eq_true_eq]
  cases p with
  | none =>
    -- both at the end
    have hq : q = none := by
      cases q with
      | none => rfl
      | some q =>
        obtain ⟨u, b⟩ := q
        have := Spec.State.rank_lt (hl.valid E hc.map)
        have h0 : c.abs.rank none = c.abs.flat.length := by simp [Spec.State.rank]
        omega
    subst hq
    have h1 := hf.pos
    have h2 := hl.pos
    simp only at h1 h2
    rw [if_pos (by rw [h1.1, h2.1]), if_pos (by rw [h1.2, h2.2])]
    unfold retIterEnd TMap.iteratorFrom
    simp only [runs_bind, runs_get, hf.endUsable, hf.endNode, and_self, if_true, TMap.iter3, h1.1, Option.map_some, runs_some]
    refine ⟨⟨hc, Upd.refl c Trim.refl, Nat.le_refl _, ?_⟩, none, ⟨hf.usable, hf.endUsable, hf.endNode, h1⟩, rfl⟩
    rw [Spec.State.removeRange_self]
  | some p =>
    obtain ⟨t, k⟩ := p
    obtain ⟨pre, n, post, hn, hu, rfl, hk, hp⟩ := hf.split
    have hget : c.abs.get n.seg.ty = some n.seg.elems := TMap.abs_get E hc.map hu.mem
    by_cases hsame : first.mapit.node = last.mapit.node
    · rw [if_pos hsame]
      -- same segment
      obtain ⟨b, rfl, hb, hq⟩ : ∃ b, q = some (n.seg.ty, b) ∧ b < n.seg.size ∧ last.segpos = n.seg.base b := by
        cases q with
        | none => have := hl.pos.1; rw [hu.node, this] at hsame; simp at hsame
        | some q =>
          obtain ⟨u, b⟩ := q
          obtain ⟨m, hm, h1, h2, h3⟩ := hl.use
          have : m = n := eq_of_nodup hc.map.ids hm.mem hu.mem (by rw [hu.node, hm.node] at hsame; exact (Option.some.inj hsame).symm)
          subst this
          exact ⟨b, by rw [h1], h2, h3⟩
      have hab : k ≤ b := by
        have h1 := hnd
        rw [hn] at h1
        rw [abs_split hn, rank_nodes h1, rank_nodes h1] at hpq
        omega
      rw [Spec.State.removeRange_one hndt hget hab (Nat.le_of_lt hb)]
      simp only [hp, hq, Seg.base_inj]
      by_cases hkb : k = b
      · subst hkb
        rw [if_pos rfl]
        refine (retIterEnd_runs E hc hu hf.endUsable hf.endNode (Nat.le_of_lt hk)).mono ?_ (fun _ _ _ h => h)
        rintro g _ _ ⟨h3, h4, h2⟩
        rw [h3, h4]
        rw [norm_node E hc hu.mem, if_pos hk] at h2
        refine ⟨⟨hc, Upd.refl c Trim.refl, Nat.le_refl _, ?_⟩, _, h2, rfl⟩
        have : (fun l : List V => l.take k ++ l.drop k) = id := by funext l; simp
        rw [this]
        unfold Spec.State.update
        simp
      · rw [if_neg hkb, runs_bind, runs_onSegU E hc.map.ids hu]
        refine (Seg.eraseRangeBase_runs E n.seg w (hc.mem.segs n hu.mem).core k b hab (Nat.le_of_lt hb)).mono ?_ ?_
        · rintro r s w' ⟨h1, rfl⟩
          have hle := take_drop_length n.seg.elems hab (Nat.le_of_lt hb)
          rw [← Seg.size_eq] at hle
          have hr := Removed.one E hc hu.mem h1 (by omega)
          have hu' := put_use_self E (s := s) hu
          have hsz : s.size = n.seg.size - (b - k) := by rw [Seg.size_eq, h1.elems, hle]
          refine (retIterEnd_runs E hr.inv hu' (by rw [hr.upd.usable]; exact hf.endUsable) hf.endNode (k := k) (show k ≤ s.size by omega)).mono ?_ (fun _ _ _ h => h)
          rintro g c' w'' ⟨rfl, rfl, hat⟩
          have hty : ({ n with seg := s } : Node V).seg.ty = n.seg.ty := h1.step.ty
          rw [norm_node E hr.inv hu'.mem, if_pos (show k < s.size by omega), hty] at hat
          have habs : (c.put n s).abs = c.abs.update n.seg.ty (fun l => l.take k ++ l.drop b) := by
            rw [hr.abs]
            refine update_congr ?_
            intro l hl
            rw [mem_abs E hc.map hu.mem hl]
          refine ⟨⟨hr.inv, hr.upd, hr.next, habs⟩, _, hat, ?_⟩
          have hput := put_split (s := s) hc.map.ids hn
          have h2 := hr.inv.map.nodup_ty E
          rw [hput] at h2
          have h3 := hnd
          rw [hn] at h3
          have e1 := rank_nodes h2 (k := k)
          rw [hty] at e1
          rw [abs_split hput, e1, abs_split hn, rank_nodes h3]
        · rintro e s w' ⟨h1, h2, h3, h4⟩
          refine .mk ⟨hc, Upd.refl c Trim.refl, Nat.le_refl _, rfl⟩ ⟨n, hu.mem, rfl, s, rfl, h1, h4⟩ ?_
          intro u hu'
          refine ⟨rfl, ?_⟩
          rintro rfl
          rw [Spec.State.update_elemsOf (mem_types hu.mem), if_pos rfl] at hu'
          have hel : c.abs.elemsOf n.seg.ty = n.seg.elems := Spec.State.elemsOf_mem hndt (List.mem_map_of_mem hu.mem)
          rw [hel] at hu'
          have hle := take_drop_length n.seg.elems hab (Nat.le_of_lt hb)
          rw [hu', ← Seg.size_eq] at hle
          omega
    · rw [if_neg hsame, runs_bind, runs_onSegU E hc.map.ids hu, hp]
      refine (Seg.eraseTillEnd_runs E n.seg w (hc.mem.segs n hu.mem).core k (Nat.le_of_lt hk)).mono ?_ (fun _ _ _ h => h.elim)
      rintro r s w' ⟨h1, -⟩
      have hle : (n.seg.elems.take k).length = k := by simp [← Seg.size_eq]; omega
      have hr := Removed.one E hc hu.mem h1 (by omega)
      have hu' := put_use_self E (s := s) hu
      have hty : s.ty = n.seg.ty := h1.step.ty
      have hput := put_split (s := s) hc.map.ids hn
      have hnd1 := hnd
      rw [hn] at hnd1
      -- the segments between, and the last one
      obtain ⟨mid, rest, b, hpost, hspan, hrank, hrest⟩ : ∃ mid rest b, post = mid ++ rest ∧
          SpanEnd E (c.put n s) last.mapit last.segpos rest ∧
          c.abs.rank q = (absNodes pre).flat.length + n.seg.elems.length + (absNodes mid).flat.length + b ∧
          ((rest = [] ∧ b = 0) ∨ ∃ m rpost, rest = m :: rpost ∧ b < m.seg.size ∧ last.segpos = m.seg.base b) := by
        cases q with
        | none =>
          refine ⟨post, [], 0, by simp, ⟨hl.usable, Or.inl ⟨rfl, hl.pos.1⟩⟩, ?_, Or.inl ⟨rfl, rfl⟩⟩
          rw [abs_split hn]
          simp [Spec.State.rank, absNodes, Spec.State.flat]
          omega
        | some q =>
          obtain ⟨u, b⟩ := q
          obtain ⟨m, hm, h4, h2, h3⟩ := hl.use
          subst h4
          have hmn : m ≠ n := by
            rintro rfl
            exact hsame (by rw [hu.node, hm.node])
          rcases split_two hn.symm hm.mem hmn with ⟨p1, p2, he⟩ | ⟨p1, p2, he⟩
          · exfalso
            have h5 := hnd1
            rw [he] at h5
            have h6 := h5
            simp only [List.append_assoc, List.cons_append] at h6
            have e1 := rank_nodes h5 (k := k)
            have e2 := rank_nodes h6 (k := b)
            rw [abs_split hn, he, e1] at hpq
            simp only [List.append_assoc, List.cons_append] at hpq
            rw [e2] at hpq
            simp only [absNodes, Spec.State.flat, List.map_append, List.flatMap_append, List.map_cons, List.flatMap_cons,
              List.length_append, ← Seg.size_eq] at hpq
            omega
          · refine ⟨p1, m :: p2, b, he, ⟨hm.usable, Or.inr ⟨m, p2, b, rfl, hm.node, h2, h3⟩⟩, ?_, Or.inr ⟨m, p2, rfl, h2, h3⟩⟩
            have h5 := hnd1
            rw [he] at h5
            have h6 : ((pre ++ n :: p1) ++ m :: p2).map (·.seg.ty) |>.Nodup := by simpa using h5
            have e2 := rank_nodes h6 (k := b)
            have e3 : (pre ++ n :: p1) ++ m :: p2 = pre ++ n :: (p1 ++ m :: p2) := by simp
            rw [abs_split hn, he, ← e3, e2]
            simp [absNodes, Spec.State.flat]
            omega
      subst hpost
      have hrp : c.abs.rank (some (n.seg.ty, k)) = (absNodes pre).flat.length + k := by rw [abs_split hn, rank_nodes hnd1]
      have habs : c.abs = absNodes pre ++ (n.seg.ty, n.seg.elems) :: (absNodes mid ++ absNodes rest) := by
        rw [abs_split hn]; simp [absNodes]
      have hfin : c.abs.removeRange (c.abs.rank (some (n.seg.ty, k))) (c.abs.rank q) =
          absNodes pre ++ (n.seg.ty, n.seg.elems.take k) :: ((absNodes mid).cleared ++ (absNodes rest).removeRange 0 b) := by
        rw [hrp, hrank, habs]
        exact removeRange_span _ _ _ _ _ _ _ (by rw [← Seg.size_eq]; omega)
      have hlen : mid.length < c.map.nodes.length + 1 := by rw [hn]; simp; omega
      refine (eraseSpan_runs E last.mapit first.mapend hf.endNode last.segpos mid _ first.mapit (c.put n s) w' pre { n with seg := s } rest hr.inv hput hu' hspan
        (by rw [hr.upd.usable]; exact hf.endUsable) hlen).mono ?_ ?_
      · rintro g c' w'' ⟨r, g1, g2⟩
        rcases g2 with ⟨rfl, rfl, g3⟩ | ⟨m, rpost, b', rfl, g3, g4, rfl, g5⟩
        · have hb : b = 0 := by
            rcases hrest with h | ⟨m, rp, h, _⟩
            · exact h.2
            · simp at h
          have hR := hr.trans E g3
          have habs' : c'.abs = c.abs.removeRange (c.abs.rank (some (n.seg.ty, k))) (c.abs.rank q) := by
            rw [hR.abs, hfin]
            simp [absNodes, hty, h1.elems, Spec.State.removeRange]
          refine ⟨⟨hR.inv, hR.upd, hR.next, habs'⟩, none, g1, ?_⟩
          rw [habs', hrp]
          simp only [Spec.State.rank]
          rw [hrank, Spec.State.flat_removeRange _ (by omega), hb]
          have : c.abs.flat.length = (absNodes pre).flat.length + n.seg.elems.length + (absNodes mid).flat.length := by
            rw [habs]; simp [Spec.State.flat_append, Spec.State.flat_cons, absNodes]; omega
          have h9 : n.seg.size = n.seg.elems.length := rfl
          rw [List.drop_of_length_le (by omega)]
          simp
          omega
        · obtain ⟨m', rp, e1, e2, e3⟩ : ∃ m' rp, m :: rpost = m' :: rp ∧ b < m'.seg.size ∧ last.segpos = m'.seg.base b := by
            rcases hrest with h | h
            · simp at h
            · exact h
          simp only [List.cons.injEq] at e1
          obtain ⟨rfl, rfl⟩ := e1
          have : b' = b := by rw [g4] at e3; exact Seg.base_inj.1 e3
          subst this
          have hR := hr.trans E g5
          have hb9 : b' ≤ m.seg.elems.length := by rw [← Seg.size_eq]; omega
          have hrr : (absNodes (m :: rpost)).removeRange 0 b' = (m.seg.ty, m.seg.elems.drop b') :: absNodes rpost := by
            have e : absNodes (m :: rpost) = (m.seg.ty, m.seg.elems) :: absNodes rpost := rfl
            rw [e, removeRange_drop _ _ _ hb9]
          have habs' : c'.abs = c.abs.removeRange (c.abs.rank (some (n.seg.ty, k))) (c.abs.rank q) := by
            rw [hR.abs, hfin, hrr]
            simp [absNodes, hty, h1.elems]
          refine ⟨⟨hR.inv, hR.upd, hR.next, habs'⟩, _, g1, ?_⟩
          rw [habs', hfin, hrr, hrp]
          have hx : m.seg.ty ∉ Spec.State.types (absNodes pre ++ (n.seg.ty, n.seg.elems.take k) :: (absNodes mid).cleared) := by
            have h6 : ((pre ++ n :: mid) ++ m :: rpost).map (·.seg.ty) |>.Nodup := by simpa using hnd1
            simp only [List.map_append, List.map_cons, List.nodup_append] at h6
            intro hx
            refine h6.2.2 m.seg.ty ?_ m.seg.ty (by simp) rfl
            simp only [Spec.State.types, List.map_append, List.map_cons, Spec.State.cleared, absNodes, List.map_map] at hx ⊢
            exact hx
          have e5 : absNodes pre ++ (n.seg.ty, n.seg.elems.take k) :: ((absNodes mid).cleared ++ (m.seg.ty, m.seg.elems.drop b') :: absNodes rpost) =
              (absNodes pre ++ (n.seg.ty, n.seg.elems.take k) :: (absNodes mid).cleared) ++ (m.seg.ty, m.seg.elems.drop b') :: absNodes rpost := by simp
          rw [e5, Spec.State.rank_split hx, Spec.State.flat_append, Spec.State.flat_cons, Spec.State.cleared_flat]
          simp
          rw [← Seg.size_eq]; omega
      · rintro e c' w'' ⟨h2, h3, h4⟩
        refine .mk (hr.trans E h2) h3 ?_
        intro u hu'
        have hndf : (c.abs.removeRange (c.abs.rank (some (n.seg.ty, k))) (c.abs.rank q)).types.Nodup := by
          rw [Spec.State.removeRange_types]; exact hndt
        have key : ∀ {a b : List V}, (u, a) ∈ c.abs → (u, b) ∈ c.abs.removeRange (c.abs.rank (some (n.seg.ty, k))) (c.abs.rank q) → b = a := by
          intro a b ha hb
          rw [← Spec.State.elemsOf_mem hndt ha, ← Spec.State.elemsOf_mem hndf hb, hu']
        have hkn : k < n.seg.elems.length := hk
        have hun : u ≠ n.seg.ty := by
          rintro rfl
          have := key (a := n.seg.elems) (b := n.seg.elems.take k) (List.mem_map_of_mem hu.mem) (by rw [hfin]; simp)
          have := congrArg List.length this
          simp at this
          omega
        have hgo : (∀ m ∈ mid, m.seg.ty = u → m.seg.elems = []) ∧ ∀ m rpost, rest = m :: rpost → m.seg.ty = u → last.segpos = m.seg.base 0 := by
          refine ⟨?_, ?_⟩
          · rintro m hm rfl
            exact (key (a := m.seg.elems) (b := []) (by rw [habs]; simp [absNodes]; exact Or.inr (Or.inr (Or.inl ⟨m, hm, rfl, rfl⟩)))
              (by rw [hfin]; simp [absNodes, Spec.State.cleared]; exact Or.inr (Or.inr (Or.inl ⟨m, hm, rfl⟩)))).symm
          · rintro m rpost rfl rfl
            obtain ⟨m', rp, e1, e2, e3⟩ : ∃ m' rp, m :: rpost = m' :: rp ∧ b < m'.seg.size ∧ last.segpos = m'.seg.base b := by
              rcases hrest with h | h
              · simp at h
              · exact h
            simp only [List.cons.injEq] at e1
            obtain ⟨rfl, rfl⟩ := e1
            have hb9 : b ≤ m.seg.elems.length := by rw [← Seg.size_eq]; omega
            have hrr : (absNodes (m :: rpost)).removeRange 0 b = (m.seg.ty, m.seg.elems.drop b) :: absNodes rpost := by
              have e : absNodes (m :: rpost) = (m.seg.ty, m.seg.elems) :: absNodes rpost := rfl
              rw [e, removeRange_drop _ _ _ hb9]
            have := key (a := m.seg.elems) (b := m.seg.elems.drop b) (by rw [habs]; simp [absNodes]) (by rw [hfin, hrr]; simp)
            have := congrArg List.length this
            simp only [List.length_drop, ← Seg.size_eq] at this
            have hb0 : b = 0 := by omega
            rw [e3, hb0]
        obtain ⟨k3, k4⟩ := h4 u hgo
        refine ⟨k3.trans ?_, k4⟩
        rw [hr.abs, Spec.State.update_elemsOf (mem_types hu.mem), if_neg hun]

end Coll
end PolyColl
