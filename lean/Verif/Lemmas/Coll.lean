import Verif.Lemmas.TMap
import Verif.Spec.State
/-! # Collections: invariant, registration, access to a segment -/

namespace PolyColl
open Prog

namespace TMap
variable {V : Type} (E : Env V)

/-- The map with the segment of a node replaced. -/
def put (m : TMap V) (n : Node V) (s : Seg V) : TMap V :=
  { m with nodes := m.nodes.map fun k => if k.id = n.id then { k with seg := s } else k }

theorem runs_onSeg {α : Type} {it : MapIt} {p : Prog (Seg V) α} {m : TMap V} {w : World} {n : Node V}
    {Q : α → TMap V → World → Prop} {R : Exc → TMap V → World → Prop} (h : m.node? E it = some n) :
    Runs (onSeg E it p) m w Q R ↔
      Runs p n.seg w (fun a s w' => Q a (m.put n s) w') (fun e s w' => R e (m.put n s) w') := by
  unfold Runs onSeg
  simp only [h]
  cases p n.seg w <;> simp [put]

/-- The observable state. -/
def abs (m : TMap V) : Spec.State V := m.nodes.map fun n => (n.seg.ty, n.seg.elems)

theorem put_ids (m : TMap V) (n : Node V) (s : Seg V) : (m.put n s).nodes.map (·.id) = m.nodes.map (·.id) := by
  simp only [put, List.map_map]
  congr 1
  funext k
  simp only [Function.comp]
  split <;> rfl

theorem put_keys {β : Type} (f : TI → β) (m : TMap V) (n : Node V) (s : Seg V) :
    (m.put n s).nodes.map (fun a => f a.key) = m.nodes.map (fun a => f a.key) := by
  simp only [put, List.map_map]
  congr 1
  funext k
  simp only [Function.comp]
  split <;> rfl

theorem mem_put {m : TMap V} {n : Node V} {s : Seg V} {a : Node V} (h : a ∈ (m.put n s).nodes) :
    (a ∈ m.nodes ∧ a.id ≠ n.id) ∨ (∃ b ∈ m.nodes, b.id = n.id ∧ a = { b with seg := s }) := by
  simp only [put, List.mem_map] at h
  obtain ⟨b, hb, rfl⟩ := h
  by_cases he : b.id = n.id
  · right; exact ⟨b, hb, he, by simp [he]⟩
  · left; simp [he, hb]

theorem put_mem {m : TMap V} {n : Node V} {s : Seg V} (h : n ∈ m.nodes) : { n with seg := s } ∈ (m.put n s).nodes := by
  simp only [put, List.mem_map]
  exact ⟨n, h, by simp⟩

theorem put_mem_ne {m : TMap V} {n : Node V} {s : Seg V} {a : Node V} (h : a ∈ m.nodes) (hne : a.id ≠ n.id) :
    a ∈ (m.put n s).nodes := by
  simp only [put, List.mem_map]
  exact ⟨a, h, by simp [hne]⟩

/-- Nodes after `put`, knowing identities are unique. -/
theorem mem_put_iff {m : TMap V} {n : Node V} {s : Seg V} (hi : (m.nodes.map (·.id)).Nodup) (hn : n ∈ m.nodes) {a : Node V} :
    a ∈ (m.put n s).nodes ↔ (a ∈ m.nodes ∧ a.id ≠ n.id) ∨ a = { n with seg := s } := by
  constructor
  · intro h
    rcases mem_put h with h | ⟨b, hb, he, rfl⟩
    · exact Or.inl h
    · right
      rw [eq_of_nodup hi hb hn he]
  · rintro (⟨h, hne⟩ | rfl)
    · exact put_mem_ne h hne
    · exact put_mem hn

theorem put_ref {m : TMap V} {n a : Node V} {s : Seg V} {it : MapIt} (h : m.Ref it a) :
    (m.put n s).Ref it (if a.id = n.id then { a with seg := s } else a) := by
  refine ⟨?_, ?_, h.gen⟩
  · simp only [put, List.mem_map]; exact ⟨a, h.mem, rfl⟩
  · split <;> exact h.node

theorem put_ref_self {m : TMap V} {n : Node V} {s : Seg V} {it : MapIt} (h : m.Ref it n) :
    (m.put n s).Ref it { n with seg := s } := by
  have := put_ref (s := s) (n := n) h
  simpa using this

/-- What a segment must not change for the map to stay all right. -/
structure SegFrame (s s' : Seg V) : Prop where
  ty : s'.ty = s.ty
  al : s'.al = s.al
  objAl : s'.objAl = s.objAl
  kind : s'.kind = s.kind

theorem put_inv {k : Kind} {m : TMap V} {w w' : World} {n : Node V} {s : Seg V} (h : m.Inv E k w) (hn : n ∈ m.nodes)
    (hf : SegFrame n.seg s) (hw : w.next ≤ w'.next) : (m.put n s).Inv E k w' := by
  have key : ∀ {a}, a ∈ (m.put n s).nodes → ∃ b ∈ m.nodes, a.id = b.id ∧ a.key = b.key ∧ SegFrame b.seg a.seg := by
    intro a ha
    rcases (mem_put_iff h.ids hn).1 ha with ⟨h1, _⟩ | rfl
    · exact ⟨a, h1, rfl, rfl, ⟨rfl, rfl, rfl, rfl⟩⟩
    · exact ⟨n, hn, rfl, rfl, hf⟩
  refine ⟨by rw [put_ids]; exact h.ids, ?_, by rw [put_keys]; exact h.tys, ?_, ?_, ?_, ?_, ?_⟩
  · intro a ha
    obtain ⟨b, hb, h1, h2, h3⟩ := key ha
    have := h.lt b hb; omega
  · intro a ha
    obtain ⟨b, hb, h1, h2, h3⟩ := key ha
    rw [h3.ty, h2]; exact h.ty b hb
  · intro a ha
    obtain ⟨b, hb, h1, h2, h3⟩ := key ha
    rw [h3.al]; exact h.al b hb
  · intro a ha
    obtain ⟨b, hb, h1, h2, h3⟩ := key ha
    rw [h3.objAl]; exact h.objAl b hb
  · intro a ha
    obtain ⟨b, hb, h1, h2, h3⟩ := key ha
    rw [h3.kind]; exact h.kind b hb
  · intro p hp
    obtain ⟨a, ha, hk⟩ := h.cache p hp
    refine ⟨_, put_ref ha, ?_⟩
    split <;> exact hk

theorem SegFrame.of_step {w : World} {s s' : Seg V} (h : Seg.Step w s s') : SegFrame s s' := ⟨h.ty, h.al, h.objAl, h.kind⟩

theorem put_mem_inv {P : Seg V → World → Prop} {m : TMap V} {w w' : World} {n : Node V} {s : Seg V}
    (hi : (m.nodes.map (·.id)).Nodup) (h : m.Mem P w) (hn : n ∈ m.nodes)
    (hs : Seg.Step w n.seg s) (hl : ∀ x ∈ s.blocks, x < w'.next) (hp : P s w') (hw : w.next ≤ w'.next)
    (hP : ∀ n ∈ m.nodes, P n.seg w → P n.seg w') : (m.put n s).Mem P w' := by
  refine ⟨?_, ?_, ?_⟩
  · intro a ha
    rcases (mem_put_iff hi hn).1 ha with ⟨h1, _⟩ | rfl
    · exact hP a h1 (h.segs a h1)
    · exact hp
  · have hd := h.disj
    have hlt := h.lt
    have hd' : m.nodes.Pairwise (fun a b => a.id ≠ b.id) := by
      have := List.pairwise_map.1 (List.nodup_iff_pairwise_ne.1 hi)
      exact this
    simp only [put]
    rw [List.pairwise_map]
    have hboth := hd.and hd'
    refine hboth.imp_of_mem ?_
    rintro a b ha hb ⟨hab, hne⟩ x hx hy
    by_cases ea : a.id = n.id
    · have eb : b.id ≠ n.id := fun e => hne (ea.trans e.symm)
      have ea' := eq_of_nodup hi ha hn ea
      subst ea'
      simp only [if_true] at hx
      simp only [if_neg eb] at hy
      rcases hs.blocks x hx with h | h | h
      · exact hab x h hy
      · exact h
      · have := hlt b hb x hy; omega
    · simp only [if_neg ea] at hx
      by_cases eb : b.id = n.id
      · have eb' := eq_of_nodup hi hb hn eb
        subst eb'
        simp only [if_true] at hy
        rcases hs.blocks x hy with h | h | h
        · exact hab x hx h
        · exact h
        · have := hlt a ha x hx; omega
      · simp only [if_neg eb] at hy
        exact hab x hx hy
  · intro a ha
    rcases (mem_put_iff hi hn).1 ha with ⟨h1, _⟩ | rfl
    · intro x hx; have := h.lt a h1 x hx; omega
    · exact hl

theorem Inv.nodup_ty {k : Kind} {m : TMap V} {w : World} (h : m.Inv E k w) : (m.nodes.map (·.seg.ty)).Nodup := by
  have := h.tys
  rwa [List.map_congr_left (fun n hn => (h.ty n hn).symm)] at this

theorem abs_types (m : TMap V) : m.abs.types = m.nodes.map (·.seg.ty) := by
  simp [abs, Spec.State.types]

theorem put_abs {k : Kind} {m : TMap V} {w : World} {n : Node V} {s : Seg V} (h : m.Inv E k w) (hn : n ∈ m.nodes)
    (ht : s.ty = n.seg.ty) : (m.put n s).abs = m.abs.update n.seg.ty (fun _ => s.elems) := by
  simp only [abs, put, Spec.State.update, List.map_map]
  apply List.map_congr_left
  intro a ha
  simp only [Function.comp]
  by_cases e : a.id = n.id
  · have := eq_of_nodup h.ids ha hn e
    subst this
    simp [ht]
  · have : a.seg.ty ≠ n.seg.ty := fun e' => e (by rw [eq_of_nodup (h.nodup_ty E) ha hn e'])
    simp [e, this]

theorem abs_get {k : Kind} {m : TMap V} {w : World} {n : Node V} (h : m.Inv E k w) (hn : n ∈ m.nodes) :
    m.abs.get n.seg.ty = some n.seg.elems := by
  have hd := h.nodup_ty E
  simp only [abs, Spec.State.get]
  generalize m.nodes = l at *
  clear h
  induction l with
  | nil => simp at hn
  | cons a l ih =>
    simp only [List.map_cons, List.nodup_cons] at hd
    simp only [List.map_cons, List.lookup_cons]
    rcases List.mem_cons.1 hn with rfl | hn
    · simp
    · have : n.seg.ty ≠ a.seg.ty := fun e => hd.1 (e ▸ List.mem_map_of_mem (f := fun n : Node V => n.seg.ty) hn)
      have hb : (n.seg.ty == a.seg.ty) = false := by simpa using this
      simp only [hb]
      exact ih hn hd.2

theorem abs_get_none {m : TMap V} {t : Ty} (h : ∀ n ∈ m.nodes, n.seg.ty ≠ t) : m.abs.get t = none := by
  simp only [abs, Spec.State.get]
  generalize m.nodes = l at *
  induction l with
  | nil => rfl
  | cons a l ih =>
    have : (t == a.seg.ty) = false := by
      have := h a (by simp)
      simpa using fun e => this e.symm
    simp only [List.map_cons, List.lookup_cons, this]
    exact ih (fun n hn => h n (by simp [hn]))

end TMap

namespace Coll
variable {V : Type} (E : Env V)

/-- Invariant of a collection, with a given requirement on the segments. -/
structure Good (P : Seg V → World → Prop) (c : Coll V) (w : World) : Prop where
  map : c.map.Inv E c.kind w
  mem : c.map.Mem P w
  pos : 0 < w.next

/-- Invariant of a collection. -/
def Inv (c : Coll V) (w : World) : Prop := c.Good E (Seg.Inv E) w

/-- Invariant of a collection apart from cached sentinels. -/
def Core (c : Coll V) (w : World) : Prop := c.Good E (Seg.Core E) w

theorem Inv.core {c : Coll V} {w : World} (h : c.Inv E w) : c.Core E w :=
  ⟨h.map, h.mem.mono (fun _ _ h => h.core) (Nat.le_refl _), h.pos⟩

/-- What is left of the invariant after any failure. -/
def Weak (c : Coll V) (w : World) : Prop := c.Good E (Seg.Weak E) w

theorem Core.weak {c : Coll V} {w : World} (h : c.Core E w) : c.Weak E w :=
  ⟨h.map, h.mem.mono (fun _ _ h => h.weak E) (Nat.le_refl _), h.pos⟩

/-- The observable state. -/
def abs (c : Coll V) : Spec.State V := c.map.abs

/-- A requirement on segments that is kept when time passes. -/
structure Stable (P : Seg V → World → Prop) : Prop where
  inv : ∀ s w, s.Inv E w → P s w
  weaken : ∀ s w w', P s w → w.next ≤ w'.next → P s w'
  lt : ∀ s w, P s w → ∀ x ∈ s.blocks, x < w.next

theorem stable_inv : Stable E (Seg.Inv E) :=
  ⟨fun _ _ h => h, fun _ _ _ h hw => h.weaken E hw, fun _ _ h => Seg.Core.lt E h.core⟩

theorem stable_core : Stable E (Seg.Core E) :=
  ⟨fun _ _ h => h.core, fun _ _ _ h hw => Backend.Inv.weaken E h hw, fun _ _ h => Seg.Core.lt E h⟩

theorem stable_weak : Stable E (Seg.Weak E) :=
  ⟨fun _ _ h => h.core.weak E, fun _ _ _ h hw => Backend.Weak.weaken E h hw, fun _ _ h => Seg.Weak.lt E h⟩

theorem Good.weaken {P : Seg V → World → Prop} (hP : Stable E P) {c : Coll V} {w w' : World} (h : c.Good E P w)
    (hw : w.next ≤ w'.next) : c.Good E P w' :=
  ⟨h.map.weaken E hw, h.mem.mono (fun _ _ h => hP.weaken _ _ _ h hw) hw, Nat.lt_of_lt_of_le h.pos hw⟩

/-- Type `t` is registered, in node `n`, and nothing else happened. -/
structure Ens (c : Coll V) (w : World) (t : Ty) (n : Node V) (c' : Coll V) (w' : World) : Prop where
  inv : c'.map.Inv E c'.kind w'
  kind : c'.kind = c.kind
  added : TMap.Added E c.map w t n c'.map
  seg : n ∈ c.map.nodes ∨ n.seg.Inv E w'
  ty : n.seg.ty = t
  next : w.next ≤ w'.next

theorem Ens.good {P : Seg V → World → Prop} (hP : Stable E P) {c c' : Coll V} {w w' : World} {t : Ty} {n : Node V}
    (h : Ens E c w t n c' w') (hg : c.Good E P w) : c'.Good E P w' := by
  have hn : P n.seg w' := by
    rcases h.seg with h1 | h1
    · exact hP.weaken _ _ _ (hg.mem.segs n h1) h.next
    · exact hP.inv _ _ h1
  exact ⟨h.inv, h.added.mem_inv E hg.mem (fun s hs => hP.weaken _ _ _ hs h.next) h.next hn (hP.lt _ _ hn),
    Nat.lt_of_lt_of_le hg.pos h.next⟩

theorem Ens.mem {c c' : Coll V} {w w' : World} {t : Ty} {n : Node V} (h : Ens E c w t n c' w') : n ∈ c'.map.nodes :=
  h.added.mem

theorem Ens.abs {c c' : Coll V} {w w' : World} {t : Ty} {n : Node V} (h : Ens E c w t n c' w') (hi : c.map.Inv E c.kind w) :
    Spec.State.Ensure t c.abs c'.abs := by
  cases h.added with
  | old hs hn =>
    left
    refine ⟨?_, ?_⟩
    · simp only [Coll.abs, TMap.abs_types]; rw [← h.ty]; exact List.mem_map_of_mem (f := fun n : Node V => n.seg.ty) hn
    · simp [Coll.abs, TMap.abs, hs.nodes]
  | new h1 h2 h3 h4 h5 h6 =>
    right
    refine ⟨?_, ?_⟩
    · simp only [Coll.abs, TMap.abs_types, List.mem_map, not_exists, not_and]
      intro a ha e
      exact h1 a ha (by rw [← hi.ty a ha]; exact e)
    · simp only [Coll.abs, TMap.abs]
      refine (h2.map _).trans ?_
      simp only [List.map_append, List.map_cons, List.map_nil, h4, h.ty]
      exact List.perm_append_comm

/-- What a failed registration leaves. -/
structure EnsFail (c : Coll V) (w : World) (t : Ty) (e : Exc) (c' : Coll V) (w' : World) : Prop where
  exc : TMap.InsExc E t e
  kind : c'.kind = c.kind
  inv : c'.map.Inv E c'.kind w'
  next : w.next ≤ w'.next
  nodes : TMap.SameNodes c.map c'.map ∨ ∃ n, Ens E c w t n c' w'

theorem EnsFail.good {P : Seg V → World → Prop} (hP : Stable E P) {c c' : Coll V} {w w' : World} {t : Ty} {e : Exc}
    (h : EnsFail E c w t e c' w') (hg : c.Good E P w) : c'.Good E P w' := by
  rcases h.nodes with h1 | ⟨n, h1⟩
  · exact ⟨h.inv, (hg.mem.congr h1).mono (fun _ _ h' => hP.weaken _ _ _ h' h.next) h.next, Nat.lt_of_lt_of_le hg.pos h.next⟩
  · exact h1.good E hP hg

theorem insertNew_runs (t : TI) (c : Coll V) (w : World) (h : c.map.Inv E c.kind w) :
    Runs (insertNew E t) c w
      (fun it c' w' => ∃ n, Ens E c w (E.tiTy t) n c' w' ∧ c'.map.Ref it n)
      (EnsFail E c w (E.tiTy t)) := by
  unfold insertNew
  simp only [runs_bind, runs_get, onMap, runs_zoom]
  refine (Seg.make_runs E c.kind (E.tiTy t) c.map.al c w).mono ?_ ?_
  · rintro s c' w1 ⟨rfl, a1, a2, a3, a4, a5, a6, a7, a8⟩
    refine (TMap.insert_runs E c'.kind t s w c'.map w1 (h.weaken E a7) a1.core a6 a3 a2 a8 a7).mono ?_ ?_
    · rintro it m' w' ⟨n, b1, b2, b3, b4, b5, b6⟩
      exact ⟨n, ⟨b1, rfl, b5, b4, by rw [b1.ty n b2.mem, b3], by omega⟩, b2⟩
    · rintro e m' w' ⟨b1, b2, b3, b4⟩
      refine ⟨b3, rfl, b1, by omega, ?_⟩
      rcases b4 with rfl | ⟨n, b4, b5⟩
      · exact Or.inl (TMap.SameNodes.refl _)
      · exact Or.inr ⟨n, b1, rfl, b5.1, b4, by rw [b1.ty n b5.1.mem, b5.2], by omega⟩
  · rintro e c' w1 ⟨rfl, a1, a2⟩
    exact ⟨a2, rfl, h.weaken E a1, a1, Or.inl (TMap.SameNodes.refl _)⟩

theorem Ens.of_same {c c1 c' : Coll V} {w w1 w' : World} {t : Ty} {n : Node V} (hs : TMap.SameNodes c.map c1.map)
    (hk : c1.kind = c.kind) (hw : w.next ≤ w1.next) (h : Ens E c1 w1 t n c' w') : Ens E c w t n c' w' :=
  ⟨h.inv, h.kind.trans hk, (h.added.congr_left E hs).weaken E hw, by rw [← hs.nodes]; exact h.seg, h.ty, Nat.le_trans hw h.next⟩

theorem EnsFail.of_same {c c1 c' : Coll V} {w w1 w' : World} {t : Ty} {e : Exc} (hs : TMap.SameNodes c.map c1.map)
    (hk : c1.kind = c.kind) (hw : w.next ≤ w1.next) (h : EnsFail E c1 w1 t e c' w') : EnsFail E c w t e c' w' :=
  ⟨h.exc, h.kind.trans hk, h.inv, Nat.le_trans hw h.next, h.nodes.imp (hs.trans ·) (fun ⟨n, hn⟩ => ⟨n, hn.of_same E hs hk hw⟩)⟩

/-- `map.find(key)` on a collection. -/
theorem find_runs (t : TI) (c : Coll V) (w : World) (h : c.map.Inv E c.kind w) :
    Runs (onMap (TMap.find E t)) c w
      (fun it c' w' => c'.map.Inv E c'.kind w' ∧ c'.kind = c.kind ∧ TMap.SameNodes c.map c'.map ∧ w.next ≤ w'.next ∧
        ((∃ n, Ens E c w (E.tiTy t) n c' w' ∧ c'.map.Ref it n) ∧ it.node ≠ none ∨
          it.node = none ∧ ∀ n ∈ c.map.nodes, n.seg.ty ≠ E.tiTy t))
      (fun e c' w' => TMap.BadAlloc E e ∧ c' = c ∧ w.next ≤ w'.next) := by
  simp only [onMap, runs_zoom]
  refine (TMap.find_runs E c.kind t c.map w h).mono ?_ ?_
  · rintro it m' w' ⟨a1, a2, a3, a4⟩
    refine ⟨a1, by trivial, a2, a3, ?_⟩
    rcases a4 with ⟨n, hr, hk⟩ | ⟨rfl, h2⟩
    · left
      have hr' := hr.congr a2
      exact ⟨⟨n, ⟨a1, rfl, .old a2 hr.mem, Or.inl hr.mem, by rw [h.ty n hr.mem, hk], a3⟩, hr'⟩, by simp [hr.node]⟩
    · right
      exact ⟨rfl, fun n hn => by rw [h.ty n hn]; exact h2 n hn⟩
  · rintro e m' w' ⟨rfl, a2, a3⟩
    exact ⟨a3, rfl, a2⟩

theorem EnsFail.of_badAlloc {c : Coll V} {w w' : World} {t : Ty} {e : Exc} (h : c.map.Inv E c.kind w)
    (he : TMap.BadAlloc E e) (hw : w.next ≤ w'.next) : EnsFail E c w t e c w' :=
  ⟨Or.inl he, rfl, h.weaken E hw, hw, Or.inl (TMap.SameNodes.refl _)⟩

theorem forT_runs (t : TI) (c : Coll V) (w : World) (h : c.map.Inv E c.kind w) :
    Runs (forT E t) c w
      (fun it c' w' => ∃ n, Ens E c w (E.tiTy t) n c' w' ∧ c'.map.Ref it n)
      (EnsFail E c w (E.tiTy t)) := by
  unfold forT
  simp only [runs_bind, runs_ite, runs_pure]
  refine (find_runs E t c w h).mono ?_ ?_
  · rintro it c1 w1 ⟨a1, a2, a3, a4, a5⟩
    rcases a5 with ⟨a5, a6⟩ | ⟨a5, a6⟩
    · exact ⟨fun _ => a5, fun h => absurd a6 h⟩
    · refine ⟨fun h => absurd a5 h, fun _ => ?_⟩
      refine (insertNew_runs E t c1 w1 a1).mono ?_ ?_
      · rintro it c' w' ⟨n, b1, b2⟩
        exact ⟨n, b1.of_same E a3 a2 a4, b2⟩
      · rintro e c' w' b
        exact b.of_same E a3 a2 a4
  · rintro e c1 w1 ⟨a1, rfl, a3⟩
    exact .of_badAlloc E h a1 a3

/-- Look-up without registration. -/
theorem forInfo_runs (t : TI) (c : Coll V) (w : World) (h : c.map.Inv E c.kind w) :
    Runs (forInfo E t) c w
      (fun it c' w' => c' = c ∧ w' = w ∧ ∃ n, c.map.Ref it n ∧ n.seg.ty = E.tiTy t)
      (fun e c' w' => c' = c ∧ w' = w ∧ e = .unregistered (E.tiTy t) ∧ ∀ n ∈ c.map.nodes, n.seg.ty ≠ E.tiTy t) := by
  unfold forInfo
  simp only [runs_bind, runs_get, runs_ite, runs_raise, runs_pure]
  have hf := TMap.findConst_found E h t
  refine ⟨fun hn => ⟨by trivial, by trivial, by trivial, fun n hm => ?_⟩, fun hn => ⟨by trivial, by trivial, ?_⟩⟩
  · rw [h.ty n hm]; exact hf.notin E hn n hm
  · obtain ⟨n, hr, hk⟩ := hf.ref E hn
    exact ⟨n, hr, by rw [h.ty n hr.mem, hk]⟩

/-- A segment of the right kind to create another one from. -/
theorem forProto_runs (id : TI) (s : Seg V) (c : Coll V) (w : World) (h : c.map.Inv E c.kind w)
    (hk : s.kind = c.kind) (ht : s.ty = E.tiTy id) :
    Runs (forProto E id s) c w
      (fun it c' w' => ∃ n, Ens E c w (E.tiTy id) n c' w' ∧ c'.map.Ref it n)
      (EnsFail E c w (E.tiTy id)) := by
  unfold forProto
  simp only [runs_bind, runs_ite, runs_pure, runs_get]
  refine (find_runs E id c w h).mono ?_ ?_
  · rintro it c1 w1 ⟨a1, a2, a3, a4, a5⟩
    rcases a5 with ⟨a5, a6⟩ | ⟨a5, a6⟩
    · exact ⟨fun _ => a5, fun h => absurd a6 h⟩
    · refine ⟨fun h => absurd a5 h, fun _ => ?_⟩
      have := insertNew_runs E id c1 w1 a1
      unfold insertNew at this
      simp only [runs_bind, runs_get] at this
      unfold Seg.makeFromPrototype
      rw [hk, ht, ← a2]
      refine this.mono ?_ ?_
      · rintro s c2 w2 hr
        refine hr.mono ?_ ?_
        · rintro it c' w' ⟨n, b1, b2⟩
          exact ⟨n, b1.of_same E a3 a2 a4, b2⟩
        · rintro e c' w' b
          exact b.of_same E a3 a2 a4
      · rintro e c' w' b
        exact b.of_same E a3 a2 a4
  · rintro e c1 w1 ⟨a1, rfl, a3⟩
    exact .of_badAlloc E h a1 a3

/-- Terminal types have no derived types: static and dynamic type agree. -/
def Arg.OK (a : Arg V) : Prop := a.term = true → E.tiTy a.dyn = E.tiTy a.stat

theorem forArg_runs (a : Arg V) (ha : Arg.OK E a) (c : Coll V) (w : World) (h : c.map.Inv E c.kind w) :
    Runs (forArg E a) c w
      (fun it c' w' => ∃ n, Ens E c w (E.tiTy a.dyn) n c' w' ∧ c'.map.Ref it n ∧
        (n ∈ c.map.nodes ∨ a.acc = true ∧ E.tiTy a.dyn = E.tiTy a.stat))
      (fun e c' w' => EnsFail E c w (E.tiTy a.dyn) e c' w' ∨
        (e = .unregistered (E.tiTy a.dyn) ∧ c'.map.Inv E c'.kind w' ∧ TMap.SameNodes c.map c'.map ∧ c'.kind = c.kind ∧ w.next ≤ w'.next ∧
          (∀ n ∈ c.map.nodes, n.seg.ty ≠ E.tiTy a.dyn) ∧ ¬ (a.acc = true ∧ E.tiTy a.dyn = E.tiTy a.stat))) := by
  unfold forArg
  rw [runs_ite]
  refine ⟨fun hacc => ?_, fun hacc => ?_⟩
  · rw [runs_ite]
    refine ⟨fun hterm => ?_, fun hterm => ?_⟩
    · rw [ha hterm]
      refine (forT_runs E a.stat c w h).mono ?_ (fun _ _ _ h => Or.inl h)
      rintro it c' w' ⟨n, b1, b2⟩
      exact ⟨n, b1, b2, Or.inr ⟨hacc, rfl⟩⟩
    · simp only [runs_bind, runs_ite, runs_pure, runs_raise]
      refine (find_runs E a.dyn c w h).mono ?_ ?_
      · rintro it c1 w1 ⟨a1, a2, a3, a4, a5⟩
        rcases a5 with ⟨⟨n, a5, a7⟩, a6⟩ | ⟨a5, a6⟩
        · refine ⟨fun _ => ⟨n, a5, a7, Or.inl ?_⟩, fun h => absurd a6 h⟩
          rw [← a3.nodes]; exact a7.mem
        · refine ⟨fun h => absurd a5 h, fun _ => ⟨fun hne => ?_, fun heq => ?_⟩⟩
          · exact Or.inr ⟨by trivial, a1, a3, a2, a4, a6, fun h => hne h.2⟩
          · have heq : E.tiTy a.dyn = E.tiTy a.stat := Classical.not_not.1 heq
            rw [heq]
            refine (insertNew_runs E a.stat c1 w1 a1).mono ?_ ?_
            · rintro it c' w' ⟨n, b1, b2⟩
              exact ⟨n, b1.of_same E a3 a2 a4, b2, Or.inr ⟨hacc, rfl⟩⟩
            · rintro e c' w' b
              exact Or.inl (b.of_same E a3 a2 a4)
      · rintro e c1 w1 ⟨a1, rfl, a3⟩
        exact Or.inl (.of_badAlloc E h a1 a3)
  · have := forInfo_runs E a.dyn c w h
    unfold forInfo at this
    simp only [runs_bind, runs_get] at this ⊢
    refine this.mono ?_ ?_
    · rintro it c' w' ⟨rfl, rfl, n, hr, ht⟩
      exact ⟨n, ⟨h, rfl, .old (TMap.SameNodes.refl _) hr.mem, Or.inl hr.mem, ht, Nat.le_refl _⟩, hr, Or.inl hr.mem⟩
    · rintro e c' w' ⟨rfl, rfl, he, hn⟩
      exact Or.inr ⟨he, h, TMap.SameNodes.refl _, rfl, Nat.le_refl _, hn, fun h => hacc h.1⟩

/-! ### Operations on one segment -/

/-- Replace the segment of a node. -/
def put (c : Coll V) (n : Node V) (s : Seg V) : Coll V := { c with map := c.map.put n s }

theorem runs_onSeg {α : Type} {it : MapIt} {p : Prog (Seg V) α} {c : Coll V} {w : World} {n : Node V}
    {Q : α → Coll V → World → Prop} {R : Exc → Coll V → World → Prop}
    (hi : (c.map.nodes.map (·.id)).Nodup) (h : c.map.Ref it n) :
    Runs (onMap (TMap.onSeg E it p)) c w Q R ↔
      Runs p n.seg w (fun a s w' => Q a (c.put n s) w') (fun e s w' => R e (c.put n s) w') := by
  simp only [onMap, runs_zoom]
  rw [TMap.runs_onSeg E (h.node? E hi)]
  rfl

theorem runs_downcast {α : Type} {t : Ty} {p : Prog (Seg V) α} {s : Seg V} {w : World}
    {Q : α → Seg V → World → Prop} {R : Exc → Seg V → World → Prop} (h : s.ty = t) :
    Runs (downcast t p) s w Q R ↔ Runs p s w Q R := by
  unfold downcast
  simp [h, runs_ite]

theorem Good.put {P : Seg V → World → Prop} (hP : Stable E P) {c : Coll V} {w w' : World} {n : Node V} {s : Seg V}
    (h : c.Good E P w) (hn : n ∈ c.map.nodes) (hs : Seg.Step w n.seg s) (hw : w.next ≤ w'.next) (hp : P s w') :
    (c.put n s).Good E P w' :=
  ⟨TMap.put_inv E h.map hn (.of_step hs) hw,
    TMap.put_mem_inv h.map.ids h.mem hn hs (hP.lt _ _ hp) hp hw (fun _ _ h => hP.weaken _ _ _ h hw),
    Nat.lt_of_lt_of_le h.pos hw⟩

theorem put_abs {c : Coll V} {w : World} {n : Node V} {s : Seg V} (h : c.map.Inv E c.kind w) (hn : n ∈ c.map.nodes)
    (hs : s.ty = n.seg.ty) : (c.put n s).abs = c.abs.update n.seg.ty (fun _ => s.elems) :=
  TMap.put_abs E h hn hs

end Coll
end PolyColl
