import Verif.Model.Callable
import Verif.Lemmas.KeepsWriting
import Verif.Lemmas.Traverse
import Verif.Lemmas.Survive
import Verif.Lemmas.Pieces
/-!
# Wrappers of callables

The wrappers in the index of a segment, and calls through them.
-/

namespace PolyColl
open Prog

theorem findSome_only {α β : Type} {f : α → Option β} {a : α} {b : β} : ∀ {l : List α}, a ∈ l → f a = some b → (∀ x ∈ l, x ≠ a → f x = none) →
    l.findSome? f = some b
  | [], h, _, _ => by cases h
  | x :: l, h, hf, hn => by
    rw [List.findSome?_cons]
    by_cases e : x = a
    · rw [e, hf]
    · rw [hn x List.mem_cons_self e]
      refine findSome_only ?_ hf (fun y hy => hn y (List.mem_cons_of_mem _ hy))
      rcases List.mem_cons.1 h with rfl | h
      · exact absurd rfl e
      · exact h

theorem find_only {α : Type} {p : α → Bool} {a : α} : ∀ {l : List α}, a ∈ l → p a = true → (∀ x ∈ l, x ≠ a → p x = false) → l.find? p = some a
  | [], h, _, _ => by cases h
  | x :: l, h, hp, hn => by
    rw [List.find?_cons]
    by_cases e : x = a
    · rw [e, hp]
    · rw [hn x List.mem_cons_self e]
      refine find_only ?_ hp (fun y hy => hn y (List.mem_cons_of_mem _ hy))
      rcases List.mem_cons.1 h with rfl | h
      · exact absurd rfl e
      · exact h

namespace Spec.State
variable {V : Type}

theorem rank_none (s : State V) : s.rank none = s.flat.length := by cases s <;> rfl

/-- Changing an element, seen in the list of all elements. -/
theorem typedFlat_modify {s : State V} (hn : s.types.Nodup) {t : Ty} {k : Nat} {f : V → V} (h : s.Valid (some (t, k))) :
    (s.update t fun l => l.modify k f).typedFlat = s.typedFlat.modify (s.rank (some (t, k))) (fun p => (p.1, f p.2)) := by
  induction s with
  | nil => obtain ⟨l, hl, -⟩ := h; simp [get] at hl
  | cons p s ih =>
    obtain ⟨u, l⟩ := p
    obtain ⟨l', hl, hk⟩ := h
    simp only [types, List.map_cons, List.nodup_cons] at hn
    simp only [get, List.lookup_cons] at hl
    by_cases e : u = t
    · subst e
      simp only [beq_self_eq_true, Option.some.injEq] at hl
      subst hl
      have hs : (update u (fun l => l.modify k f) s) = s := by
        unfold update
        refine (List.map_congr_left (g := fun p => p) fun p hp => ?_).trans (List.map_id s)
        rw [if_neg]
        rintro rfl
        exact hn.1 (List.mem_map_of_mem hp)
      have h1 : update u (fun l => l.modify k f) ((u, l) :: s) = (u, l.modify k f) :: update u (fun l => l.modify k f) s := by
        simp [update]
      rw [h1, hs]
      simp only [rank, if_pos, typedFlat, List.flatMap_cons]
      apply List.ext_getElem?
      intro i
      by_cases hi : i < l.length
      · simp [List.getElem?_append, List.getElem?_modify, hi]
        by_cases e : k = i
        · simp [e]
        · simp [e]
      · have : k ≠ i := by omega
        rw [List.getElem?_modify_ne _ _ this, List.getElem?_append_right (by simpa using hi), List.getElem?_append_right (by simpa using hi)]
        simp
    · have hb : (t == u) = false := by simpa using fun h => e h.symm
      simp only [hb] at hl
      have h1 : update t (fun l => l.modify k f) ((u, l) :: s) = (u, l) :: update t (fun l => l.modify k f) s := by
        simp [update, e]
      have ih' := ih hn.2 ⟨l', hl, hk⟩
      rw [h1]
      simp only [rank, if_neg e]
      simp only [typedFlat, List.flatMap_cons] at ih' ⊢
      rw [ih']
      apply List.ext_getElem?
      intro i
      by_cases hi : i < l.length
      · have : ¬ l.length + rank s (some (t, k)) = i := by omega
        simp [List.getElem?_append, hi, this]
      · have : l.length + rank s (some (t, k)) = i ↔ rank s (some (t, k)) = i - l.length := by omega
        simp [List.getElem?_append, List.getElem?_modify, hi, this]

theorem rank_modify (t : Ty) (k : Nat) (f : V → V) (p : Pos) : ∀ s : State V, (s.update t fun l => l.modify k f).rank p = s.rank p := by
  intro s
  cases p with
  | none =>
    rw [rank_none, rank_none]
    induction s with
    | nil => rfl
    | cons q s ih =>
      obtain ⟨u, l⟩ := q
      simp only [update, flat, List.map_cons, List.flatMap_cons, List.length_append] at ih ⊢
      rw [ih]
      split <;> simp
  | some p =>
    obtain ⟨u, n⟩ := p
    induction s with
    | nil => rfl
    | cons q s ih =>
      obtain ⟨v, l⟩ := q
      simp only [update, List.map_cons] at ih ⊢
      by_cases e : v = t
      · simp only [e, if_true, rank, ih, List.length_modify]
      · simp only [e, if_false, rank, ih]

end Spec.State

/-! ### The index -/

namespace FSplit
variable {V A R : Type} (E : Env V) (S : Signature V A R)

/-- The wrappers are those made for the addresses. -/
def Made (f : FSplit V) : Prop := f.ws = f.x.i.elems.map fun q => ⟨S.info f.x.ty, S.amp f.x.ty q⟩

/-- A program on segments with complete wrappers and one on segments with addresses did the same. -/
def Alike (t : Ty) : Out (FSplit V) Unit → Out (Split V) Unit → Prop
  | .ok _ f w, .ok _ x w' => f.x = x ∧ w = w' ∧ f.Made S ∧ f.x.ty = t
  | .exc e f w, .exc e' x w' => e = e' ∧ f.x = x ∧ w = w' ∧ f.Made S ∧ f.x.ty = t
  | .ub, .ub => True
  | _, _ => False

variable {E S}

theorem pushIndex_alike {f : FSplit V} {t : Ty} (ht : f.x.ty = t) (ho : S.own t = false) (h : f.Made S) (n : Nat) (w : World) :
    Alike S t (pushIndex E S n f w) (Split.pushIndex E n f.x w) := by
  obtain ⟨x, ws⟩ := f
  dsimp only at ht
  subst ht
  have h : ws = x.i.elems.map fun q => ⟨S.info x.ty, S.amp x.ty q⟩ := h
  have h1 : pushIndex E S n ⟨x, ws⟩ w = match Split.pushIndex E n x w with
      | .ok _ x' w' => .ok () ⟨x', ws ++ [⟨S.info x.ty, S.amp x.ty (x.s.ptr n)⟩]⟩ w'
      | .exc e x' w' => .exc e ⟨x', ws⟩ w'
      | .ub => .ub := by
    have : S.make x.ty (x.s.ptr n) x.s.elems[n]? = some ⟨S.info x.ty, S.amp x.ty (x.s.ptr n)⟩ := by
      unfold Signature.make
      rw [ho]; rfl
    unfold pushIndex
    show Prog.bind (Prog.ofOption _) _ _ _ = _
    dsimp only
    rw [this]
    show Prog.bind (Prog.zoom _ _ _) _ _ _ = _
    simp only [Prog.bind, Prog.zoom]
    cases Split.pushIndex E n x w <;> rfl
  rw [h1]
  have h2 : Leaves (Split.pushIndex E n) x w (fun _ x' _ => x'.ty = x.ty ∧ x'.i.elems = x.i.elems ++ [x.s.ptr n])
      (fun _ x' _ => x'.ty = x.ty ∧ x'.i.elems = x.i.elems) := by
    unfold Split.pushIndex Env.idxPushBack
    refine leaves_bind.2 (leaves_get.2 (leaves_ite.2 ⟨fun _ => trivial, fun _ => leaves_zoom.2 ?_⟩))
    refine leaves_bind.2 (leaves_get.2 (leaves_ite.2 ⟨fun _ => leaves_set.2 ⟨rfl, rfl⟩, fun _ => leaves_ite.2 ⟨fun _ => ⟨rfl, rfl⟩, fun _ => leaves_bind.2 ?_⟩⟩))
    unfold Leaves Env.alloc
    by_cases e : E.fault w.tick
    · rw [if_pos e]; exact ⟨rfl, rfl⟩
    · rw [if_neg e]; exact ⟨rfl, rfl⟩
  cases hr : Split.pushIndex E n x w with
  | ok u x' w' =>
    have : x'.ty = x.ty ∧ x'.i.elems = x.i.elems ++ [x.s.ptr n] := by unfold Leaves at h2; rw [hr] at h2; exact h2
    exact ⟨rfl, rfl, by show _ ++ _ = _; rw [h, this.1, this.2, List.map_append]; rfl, this.1⟩
  | exc e x' w' =>
    have : x'.ty = x.ty ∧ x'.i.elems = x.i.elems := by unfold Leaves at h2; rw [hr] at h2; exact h2
    exact ⟨rfl, rfl, rfl, by show _ = _; rw [h, this.1, this.2], this.1⟩
  | ub => trivial

theorem each_alike {t : Ty} (ho : S.own t = false) : ∀ (l : List Nat) (f : FSplit V) (w : World), f.x.ty = t → f.Made S →
    Alike S t (Prog.each (pushIndex E S) l f w) (Prog.each (Split.pushIndex E) l f.x w)
  | [], f, w, ht, h => ⟨rfl, rfl, h, ht⟩
  | n :: l, f, w, ht, h => by
    have h1 := pushIndex_alike (E := E) ht ho h n w
    unfold Prog.each Prog.bind
    cases hf : pushIndex E S n f w with
    | ok u f' w' =>
      cases hx : Split.pushIndex E n f.x w with
      | ok u' x' w'' =>
        rw [hf, hx] at h1
        obtain ⟨rfl, rfl, h2, h3⟩ := h1
        exact each_alike ho l f' w' h3 h2
      | exc e x' w' => rw [hf, hx] at h1; exact h1.elim
      | ub => rw [hf, hx] at h1; exact h1.elim
    | exc e f' w' =>
      cases hx : Split.pushIndex E n f.x w with
      | ok u' x' w'' => rw [hf, hx] at h1; exact h1.elim
      | exc e x' w' => rw [hf, hx] at h1; exact h1
      | ub => rw [hf, hx] at h1; exact h1.elim
    | ub =>
      cases hx : Split.pushIndex E n f.x w with
      | ok u' x' w'' => rw [hf, hx] at h1; exact h1.elim
      | exc e x' w' => rw [hf, hx] at h1; exact h1.elim
      | ub => trivial

theorem pushIndex_own {f : FSplit V} {n : Nat} {w : World} (h : S.make f.x.ty (f.x.s.ptr n) f.x.s.elems[n]? = none) : pushIndex E S n f w = .ub := by
  unfold pushIndex
  show Prog.bind (Prog.ofOption _) _ _ _ = _
  rw [h]
  rfl

theorem pushIndex_store (n : Nat) (f : FSplit V) (w : World) :
    Leaves (pushIndex E S n) f w (fun _ f' _ => f'.x.s = f.x.s ∧ f'.x.ty = f.x.ty) (fun _ _ _ => True) := by
  unfold pushIndex
  refine leaves_bind.2 (leaves_get.2 (leaves_bind.2 ?_))
  cases S.make f.x.ty (f.x.s.ptr n) f.x.s.elems[n]? with
  | none => trivial
  | some e =>
    refine leaves_pure.2 (leaves_bind.2 (leaves_zoom.2 ?_))
    unfold Split.pushIndex
    refine leaves_bind.2 (leaves_get.2 (leaves_ite.2 ⟨fun _ => trivial, fun _ => leaves_zoom.2 ?_⟩))
    refine Leaves.mono (Q := fun _ _ _ => True) (R := fun _ _ _ => True) ?_ (fun _ _ _ _ => ⟨rfl, rfl⟩) (fun _ _ _ h => h)
    unfold Leaves
    split <;> trivial

theorem each_own : ∀ (l : List Nat) (f : FSplit V) (w : World), S.own f.x.ty = true → f.x.s.size ∈ l →
    Leaves (Prog.each (pushIndex E S) l) f w (fun _ _ _ => False) (fun _ _ _ => True)
  | [], _, _, _, h => by cases h
  | n :: l, f, w, ho, h => by
    by_cases e : f.x.s.size = n
    · have h2 : S.make f.x.ty (f.x.s.ptr n) f.x.s.elems[n]? = none := by
        have : f.x.s.elems[n]? = none := List.getElem?_eq_none (by rw [← e]; exact Nat.le_refl _)
        simp [Signature.make, ho, this]
      have h3 : Prog.each (pushIndex E S) (n :: l) f w = .ub := by
        show Prog.bind (pushIndex E S n) _ f w = _
        rw [Prog.bind, pushIndex_own h2]
      unfold Leaves
      rw [h3]
      trivial
    · refine leaves_bind.2 ((pushIndex_store n f w).mono ?_ (fun _ _ _ h => h))
      rintro _ f' w' ⟨h1, h2⟩
      refine each_own l f' w' (by rw [h2]; exact ho) ?_
      rw [h1]
      rcases List.mem_cons.1 h with h | h
      · exact absurd h e
      · exact h

end FSplit

/-! ### Calls -/

namespace Coll
variable {V A R : Type} {E : Env V} {S : Signature V A R}

theorem wrapper_at {c : Coll V} {w : World} (h : c.Core E w) (hk : c.kind = .split) {p : Ptr} {t : Ty} {i : Nat} (hp : c.Points .base p t i) :
    ∃ n ∈ c.map.nodes, n.seg.ty = t ∧ i < n.seg.size ∧ p = n.seg.base i ∧ c.wrapper S p = some ⟨S.info t, S.amp t (n.seg.loc i)⟩ := by
  obtain ⟨n, hn, rfl, hi, rfl⟩ := hp
  refine ⟨n, hn, rfl, hi, rfl, ?_⟩
  have hs := h.mem.segs n hn
  have kn : n.seg.kind = .split := (h.map.kind n hn).trans hk
  refine findSome_only hn ?_ fun a ha hna => ?_
  · rw [Seg.addr, Seg.entry_base hs kn hi]; rfl
  · rw [Seg.entry_other]
    · rfl
    · exact fun hb => Seg.begin_blk_ne E hs (by omega) (disj_mem h.mem ha hn hna _ hb (Seg.begin_blk_mem n.seg))

theorem find_local {c : Coll V} {w : World} (h : c.Core E w) {n : Node V} (hn : n ∈ c.map.nodes) {i : Nat} (hi : i < n.seg.size) :
    c.map.nodes.find? (fun m => (m.seg.be.derefLocal (n.seg.loc i)).isSome) = some n := by
  have hs := h.mem.segs n hn
  refine find_only hn ?_ fun a ha hna => ?_
  · have hd : n.seg.be.derefLocal (n.seg.loc i) = n.seg.elems[i]? := Vec.deref_ptr
    rw [hd, List.getElem?_eq_getElem (by rw [← Seg.size_eq]; exact hi)]; rfl
  · have : a.seg.be.derefLocal (n.seg.loc i) = none := by
      unfold Backend.derefLocal Vec.deref
      rw [if_neg]
      intro hb
      have hb : n.seg.be.store.blk = a.seg.be.store.blk := hb
      exact Seg.store_blk_ne hs (by omega) (disj_mem h.mem ha hn hna _ (hb ▸ Seg.store_blk_mem a.seg) (Seg.store_blk_mem n.seg))
    rw [this]; rfl

theorem invoke_runs {c : Coll V} {w : World} (h : c.Core E w) {p : Ptr} {t : Ty} {i : Nat} (hp : c.Points .terminal p t i) (a : A)
    {Q : R → Coll V → World → Prop} {X : Exc → Coll V → World → Prop} :
    Runs (Coll.invoke E S t p a) c w Q X ↔ Runs (Coll.apply E .terminal p (S.act t a)) c w (fun v => Q (S.ret t v a)) X := by
  obtain ⟨n, hn, rfl, hi, rfl⟩ := hp
  have := find_local h hn hi
  simp only [Coll.invoke, Seg.addr, runs_bind, runs_get, this, runs_some, if_true, runs_pure]

/-- Nothing can be called where there is no element of the type. -/
theorem invoke_ub {c : Coll V} {w : World} {p : Ptr} {t : Ty} (h : ∀ n ∈ c.map.nodes, n.seg.ty = t → n.seg.be.derefLocal p = none) (a : A) :
    Coll.invoke E S t p a c w = .ub := by
  unfold Coll.invoke
  show Prog.bind Prog.get _ _ _ = _
  simp only [Prog.bind, Prog.get]
  cases hf : c.map.nodes.find? fun n => (n.seg.be.derefLocal p).isSome with
  | none => rfl
  | some n =>
    have h1 := List.find?_some hf
    have h2 := List.mem_of_find?_eq_some hf
    by_cases e : n.seg.ty = t
    · rw [h n h2 e] at h1; cases h1
    · show (if n.seg.ty = t then _ else Prog.undef) c w = _
      rw [if_neg e]; rfl

end Coll
end PolyColl
