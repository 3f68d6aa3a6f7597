import Verif.Lemmas.CollAll
/-! # Copying, moving and swapping whole collections -/

namespace PolyColl
open Prog

namespace TMap
variable {V : Type} (E : Env V)

/-- Same key and contents. -/
structure CopyOf (a b : Node V) : Prop where
  key : b.key = a.key
  kind : b.seg.kind = a.seg.kind
  ty : b.seg.ty = a.seg.ty
  elems : b.seg.elems = a.seg.elems

/-- Nodes made between `w` and `w'` for allocator `al`. -/
structure NewNodes (al' : Alloc) (w w' : World) (l : List (Node V)) : Prop where
  ids : (l.map (·.id)).Nodup
  id : ∀ n ∈ l, w.next ≤ n.id ∧ n.id < w'.next
  al : ∀ n ∈ l, n.seg.al = al'
  objAl : ∀ n ∈ l, n.seg.objAl = al'
  segs : ∀ n ∈ l, n.seg.Inv E w'
  new : ∀ n ∈ l, n.seg.New w
  disj : l.Pairwise (fun a b => ∀ x ∈ a.seg.blocks, x ∈ b.seg.blocks → x = 0)

theorem NewNodes.nil (al : Alloc) (w w' : World) : NewNodes E al w w' ([] : List (Node V)) := by
  constructor <;> simp

theorem NewNodes.cons {al : Alloc} {w w1 w2 w3 : World} {l : List (Node V)} {n : Node V} (h : NewNodes E al w2 w3 l)
    (hw1 : w.next ≤ w1.next) (hw3 : w2.next ≤ w3.next) (hi : n.id = w.next) (hi' : w.next < w2.next)
    (ha : n.seg.al = al) (ho : n.seg.objAl = al) (hs : n.seg.Inv E w2) (hn : n.seg.New w1) : NewNodes E al w w3 (n :: l) := by
  refine ⟨?_, ?_, ?_, ?_, ?_, ?_, ?_⟩
  · simp only [List.map_cons, List.nodup_cons]
    refine ⟨?_, h.ids⟩
    intro hm
    obtain ⟨a, ha, e⟩ := List.mem_map.1 hm
    have := (h.id a ha).1
    omega
  · intro a ha
    rcases List.mem_cons.1 ha with rfl | ha
    · omega
    · have := h.id a ha; omega
  · intro a ha
    rcases List.mem_cons.1 ha with rfl | ha'
    · assumption
    · exact h.al a ha'
  · intro a ha
    rcases List.mem_cons.1 ha with rfl | ha'
    · assumption
    · exact h.objAl a ha'
  · intro a ha
    rcases List.mem_cons.1 ha with rfl | ha'
    · exact hs.weaken E hw3
    · exact h.segs a ha'
  · intro a ha b hb
    rcases List.mem_cons.1 ha with rfl | ha'
    · exact (hn b hb).imp_right (by omega)
    · exact (h.new a ha' b hb).imp_right (by omega)
  · refine List.pairwise_cons.2 ⟨?_, h.disj⟩
    intro a ha x hx hx'
    have h1 := Seg.Core.lt E hs.core x hx
    rcases h.new a ha x hx' with h2 | h2
    · exact h2
    · omega

theorem copyNodes_runs {X : Type} (al : Alloc) (z : X) : ∀ (l : List (Node V)) (w : World), 0 < w.next →
    Runs (copyNodes E al l : Prog X (List (Node V))) z w
      (fun ns z' w' => z' = z ∧ w.next ≤ w'.next ∧ All2 CopyOf l ns ∧ NewNodes E al w w' ns ∧
        ∀ n ∈ l, n.seg.elems ≠ [] → (E.traits n.seg.ty).copyable = true)
      (fun e z' w' => z' = z ∧ w.next ≤ w'.next ∧ ∃ n ∈ l, ExcFrom E n.seg.ty (n.seg.elems ≠ []) (E.TooMany n.seg.ty (max 1 n.seg.size)) e) := by
  intro l
  induction l with
  | nil => intro w hw; exact ⟨rfl, Nat.le_refl _, .nil, NewNodes.nil E _ _ _, by simp⟩
  | cons n l ih =>
    intro w hw
    simp only [copyNodes, runs_bind, E.runs_alloc, runs_pure]
    refine ⟨fun hf => ⟨by trivial, by simp, n, by simp, Or.inl ⟨rfl, _, hf⟩⟩, fun hf => ?_⟩
    refine (Seg.copyAl_runs E n.seg al z ⟨w.next + 1, w.tick + 1⟩ (by simp)).mono ?_ ?_
    · rintro s z' w' ⟨rfl, a1, a2, a3, a4, a5, a6, a7, a8, a9⟩
      simp only at a7
      refine (ih w' (by omega)).mono ?_ ?_
      · rintro ns z' w'' ⟨rfl, b1, b2, b3, b4⟩
        refine ⟨by trivial, by omega, .cons ⟨rfl, a2, a3, a6⟩ b2, ?_, ?_⟩
        · exact NewNodes.cons E (w1 := ⟨w.next + 1, w.tick + 1⟩) (w2 := w') b3 (by simp) b1 rfl (by omega) a4 a5 a1 a8
        · intro a ha
          rcases List.mem_cons.1 ha with rfl | ha
          · exact a9
          · exact b4 a ha
      · rintro e z' w'' ⟨rfl, b1, a, ha, b2⟩
        exact ⟨by trivial, by omega, a, by simp [ha], b2⟩
    · rintro e z' w' ⟨rfl, a1, a2⟩
      simp only at a1
      exact ⟨by trivial, by omega, n, by simp, a2⟩

theorem All2.map_eq {α β γ : Type} {R : α → β → Prop} {f : α → γ} {g : β → γ} (h : ∀ a b, R a b → g b = f a) {l : List α} {m : List β}
    (hl : All2 R l m) : m.map g = l.map f := by
  induction hl with
  | nil => rfl
  | cons h' _ ih => simp [h _ _ h', ih]

/-- A map made of copies. -/
theorem NewNodes.inv {k : Kind} {m : TMap V} {w0 w w' : World} {ns ns' : List (Node V)} {al : Alloc} {b g : Nat}
    (hm : m.Inv E k w0) (hc : All2 CopyOf m.nodes ns) (hn : NewNodes E al w w' ns) (hp : ns'.Perm ns) :
    (⟨ns', b, g, al, []⟩ : TMap V).Inv E k w' ∧ (⟨ns', b, g, al, []⟩ : TMap V).Mem (Seg.Inv E) w' ∧
      (⟨ns', b, g, al, []⟩ : TMap V).abs.Perm m.abs ∧
      ∀ p ∈ m.cache, ∃ n ∈ ns', E.tiTy n.key = E.tiTy p.1 := by
  have hk : ns.map (fun n => E.tiTy n.key) = m.nodes.map (fun n => E.tiTy n.key) :=
    All2.map_eq (fun a b h => by rw [h.key]) hc
  refine ⟨⟨?_, ?_, ?_, ?_, ?_, ?_, ?_, ?_⟩, ⟨?_, ?_, ?_⟩, ?_, ?_⟩
  · exact ((hp.map (·.id)).nodup_iff).2 hn.ids
  · intro n h; exact (hn.id n (hp.mem_iff.1 h)).2
  · exact ((hp.map _).nodup_iff).2 (hk ▸ hm.tys)
  · intro n h
    obtain ⟨a, ha, hr⟩ := hc.mem (hp.mem_iff.1 h)
    rw [hr.ty, hr.key]; exact hm.ty a ha
  · intro n h; exact hn.al n (hp.mem_iff.1 h)
  · intro n h; exact hn.objAl n (hp.mem_iff.1 h)
  · intro n h
    obtain ⟨a, ha, hr⟩ := hc.mem (hp.mem_iff.1 h)
    rw [hr.kind]; exact hm.kind a ha
  · simp
  · intro n h; exact hn.segs n (hp.mem_iff.1 h)
  · exact (hp.pairwise_iff (fun h x hx hx' => h x hx' hx)).2 hn.disj
  · intro n h; exact Seg.Core.lt E (hn.segs n (hp.mem_iff.1 h)).core
  · unfold TMap.abs
    rw [← All2.map_eq (R := CopyOf) (f := fun n : Node V => (n.seg.ty, n.seg.elems)) (g := fun n => (n.seg.ty, n.seg.elems)) (fun a b h => by rw [h.ty, h.elems]) hc]
    exact hp.map _
  · intro p hp'
    obtain ⟨n, hr, e⟩ := hm.cache p hp'
    obtain ⟨b, hb, hr'⟩ := hc.mem' hr.mem
    exact ⟨b, hp.mem_iff.2 hb, by rw [hr'.key]; exact e⟩

/-- Exceptions copying the segments of `m` may end in. -/
def CopyExc (m : TMap V) (e : Exc) : Prop := BadAlloc E e ∨ ∃ n ∈ m.nodes, ExcFrom E n.seg.ty (n.seg.elems ≠ []) (E.TooMany n.seg.ty (max 1 n.seg.size)) e

/-- What copying gives. -/
structure Copied (k : Kind) (x : TMap V) (al' : Alloc) (m : TMap V) (w w' : World) : Prop where
  inv : m.Inv E k w'
  mem : m.Mem (Seg.Inv E) w'
  al : m.al = al'
  abs : m.abs.Perm x.abs
  next : w.next ≤ w'.next
  id : ∀ n ∈ m.nodes, w.next ≤ n.id
  new : ∀ n ∈ m.nodes, n.seg.New w

theorem copyAl_runs {X : Type} (k : Kind) (x : TMap V) (al : Alloc) (z : X) (w : World) (h : x.Inv E k w) (hw : 0 < w.next) :
    Runs (copyAl E x al : Prog X (TMap V)) z w
      (fun m z' w' => z' = z ∧ Copied E k x al m w w' ∧ ∀ n ∈ x.nodes, n.seg.elems ≠ [] → (E.traits n.seg.ty).copyable = true)
      (fun e z' w' => z' = z ∧ w.next ≤ w'.next ∧ CopyExc E x e) := by
  unfold copyAl build
  simp only [runs_bind, runs_world, runs_locally]
  refine (copyNodes_runs E al z x.nodes w hw).mono ?_ ?_
  · rintro ns z' w' ⟨rfl, a1, a2, a3, a4⟩
    obtain ⟨b1, b2, b3, b4⟩ := NewNodes.inv E (b := x.buckets) (g := 0) h a2 a3 (E.shuffle_perm w'.tick ns)
    refine (buildCache_runs E k x.cache _ w' b1 b4).mono ?_ ?_
    · rintro _ m' w'' ⟨c1, c2, c3⟩
      refine ⟨by trivial, ⟨c1, (b2.mono (fun _ _ h => h.weaken E c3) c3).congr c2, c2.al, ?_, by omega, ?_, ?_⟩, a4⟩
      · unfold TMap.abs at b3 ⊢; rw [c2.nodes]; exact b3
      · intro n hn; rw [c2.nodes] at hn; exact (a3.id n ((E.shuffle_perm w'.tick ns).mem_iff.1 hn)).1
      · intro n hn; rw [c2.nodes] at hn; exact a3.new n ((E.shuffle_perm w'.tick ns).mem_iff.1 hn)
    · rintro e m' w'' ⟨c1, c2, c3, c4⟩
      exact ⟨by trivial, by omega, Or.inl c4⟩
  · rintro e z' w' ⟨rfl, a1, a2⟩
    exact ⟨by trivial, a1, Or.inr a2⟩

/-- A source node and what moving leaves of it. -/
structure Drained (a b : Node V) : Prop where
  id : b.id = a.id
  key : b.key = a.key
  frame : SegFrame a.seg b.seg
  elems : b.seg.elems = []

/-- A source node before or after moving or a failed attempt to move. -/
structure Tried (a b : Node V) : Prop where
  id : b.id = a.id
  key : b.key = a.key
  frame : SegFrame a.seg b.seg
  size : b.seg.size = a.seg.size ∨ b.seg.size = 0

theorem Tried.refl (a : Node V) : Tried a a := ⟨rfl, rfl, ⟨rfl, rfl, rfl, rfl⟩, Or.inl rfl⟩

theorem moveNodes_runs (al : Alloc) : ∀ (l : List (Node V)) (w : World), (∀ n ∈ l, n.seg.Core E w ∧ n.seg.al ≠ al) →
    Runs (moveNodes E al) l w
      (fun ns l' w' => w.next ≤ w'.next ∧ All2 CopyOf l ns ∧ NewNodes E al w w' ns ∧ All2 Drained l l')
      (fun e l' w' => w.next ≤ w'.next ∧ All2 Tried l l' ∧ ∃ n ∈ l, ExcFrom E n.seg.ty False (E.TooMany n.seg.ty (max 1 n.seg.size)) e) := by
  intro l
  induction l with
  | nil => intro w hw; exact ⟨Nat.le_refl _, .nil, NewNodes.nil E _ _ _, .nil⟩
  | cons n l ih =>
    intro w hw
    have hn := hw n (by simp)
    have key : Runs (do let i ← E.alloc; let s ← Seg.moveAl E al; return (i, s) : Prog (Seg V) (Nat × Seg V)) n.seg w
        (fun p s' w' => p.1 = w.next ∧ w.next < w'.next ∧ p.2.Inv E w' ∧ CopyOf n ⟨w.next, n.key, p.2⟩ ∧ p.2.al = al ∧ p.2.objAl = al ∧
          p.2.New ⟨w.next + 1, w.tick + 1⟩ ∧ s'.elems = [] ∧ SegFrame n.seg s')
        (fun e s' w' => w.next ≤ w'.next ∧ SegFrame n.seg s' ∧ (s'.size = n.seg.size ∨ s'.size = 0) ∧ ExcFrom E n.seg.ty False (E.TooMany n.seg.ty (max 1 n.seg.size)) e) := by
      simp only [runs_bind, E.runs_alloc, runs_pure]
      refine ⟨fun hf => ⟨by simp, ⟨rfl, rfl, rfl, rfl⟩, by simp, Or.inl ⟨rfl, _, hf⟩⟩, fun hf => ?_⟩
      refine (Seg.moveAl_runs E al n.seg ⟨w.next + 1, w.tick + 1⟩ (Backend.Inv.weaken E hn.1 (by simp)) (fun e => absurd e hn.2)).mono ?_ ?_
      · rintro s s' w' ⟨a1, a2, a3, a4, a5, a6, a7, a8, a9, a10⟩
        simp only at a7
        refine ⟨by trivial, by omega, a1, ⟨rfl, a2, a3, a6⟩, a4, a5, ?_, a9, SegFrame.of_step a10⟩
        intro b hb
        rcases a8 b hb with h | h | h
        · exact Or.inl h
        · exact Or.inr h
        · exact absurd h.1 hn.2
      · rintro e s' w' ⟨a1, a2, a3, a4⟩
        simp only at a1
        exact ⟨by omega, SegFrame.of_step a2, a4, a3⟩
    unfold Runs at key
    unfold Runs moveNodes
    cases hp : (do let i ← E.alloc; let s ← Seg.moveAl E al; return (i, s) : Prog (Seg V) (Nat × Seg V)) n.seg w with
    | ub => rw [hp] at key; exact key.elim
    | exc e s' w' =>
      rw [hp] at key
      obtain ⟨a1, a2, a3, a4⟩ := key
      exact ⟨a1, .cons ⟨rfl, rfl, a2, a3⟩ (All2.refl _ (fun a _ => Tried.refl a)), n, by simp, a4⟩
    | ok p s' w' =>
      rw [hp] at key
      obtain ⟨i, s⟩ := p
      obtain ⟨rfl, a1, a2, a3, a4, a5, a6, a7, a8⟩ := key
      have ih' := ih w' (fun a ha => ⟨Backend.Inv.weaken E (hw a (by simp [ha])).1 (by omega), (hw a (by simp [ha])).2⟩)
      unfold Runs at ih'
      simp only
      cases hq : moveNodes E al l w' with
      | ub => rw [hq] at ih'; exact ih'.elim
      | exc e l' w'' =>
        rw [hq] at ih'
        obtain ⟨b1, b2, a, ha, b3⟩ := ih'
        exact ⟨by omega, .cons ⟨rfl, rfl, a8, Or.inr (by rw [Seg.size_eq, a7]; rfl)⟩ b2, a, by simp [ha], b3⟩
      | ok ns l' w'' =>
        rw [hq] at ih'
        obtain ⟨b1, b2, b3, b4⟩ := ih'
        refine ⟨by omega, .cons a3 b2, ?_, .cons ⟨rfl, rfl, a8, a7⟩ b4⟩
        exact NewNodes.cons E (w1 := ⟨w.next + 1, w.tick + 1⟩) (w2 := w') b3 (by simp) b1 rfl a1 a4 a5 a2 a6

/-- Replacing segments by others with the same type etc. keeps the map in order. -/
theorem frame_inv {k : Kind} {m : TMap V} {w w' : World} {l : List (Node V)} (h : m.Inv E k w) (hw : w.next ≤ w'.next)
    (hl : All2 (fun a b : Node V => b.id = a.id ∧ b.key = a.key ∧ SegFrame a.seg b.seg) m.nodes l) : { m with nodes := l }.Inv E k w' := by
  refine ⟨?_, ?_, ?_, ?_, ?_, ?_, ?_, ?_⟩
  · show (l.map (·.id)).Nodup
    rw [All2.map_eq (f := fun n : Node V => n.id) (fun a b h => h.1) hl]; exact h.ids
  · intro n hn
    obtain ⟨a, ha, h1, h2, h3⟩ := hl.mem hn
    have := h.lt a ha; omega
  · show (l.map (fun n => E.tiTy n.key)).Nodup
    rw [All2.map_eq (f := fun n : Node V => E.tiTy n.key) (fun a b h => by rw [h.2.1]) hl]; exact h.tys
  · intro n hn
    obtain ⟨a, ha, h1, h2, h3⟩ := hl.mem hn
    rw [h3.ty, h2]; exact h.ty a ha
  · intro n hn
    obtain ⟨a, ha, h1, h2, h3⟩ := hl.mem hn
    rw [h3.al]; exact h.al a ha
  · intro n hn
    obtain ⟨a, ha, h1, h2, h3⟩ := hl.mem hn
    rw [h3.objAl]; exact h.objAl a ha
  · intro n hn
    obtain ⟨a, ha, h1, h2, h3⟩ := hl.mem hn
    rw [h3.kind]; exact h.kind a ha
  · intro p hp
    obtain ⟨n, hr, e⟩ := h.cache p hp
    obtain ⟨b, hb, h1, h2, h3⟩ := hl.mem' hr.mem
    exact ⟨b, ⟨hb, by rw [hr.node, h1], hr.gen⟩, by rw [h2]; exact e⟩

theorem empty_inv (k : Kind) (m : TMap V) (w : World) (h1 : m.nodes = []) (h2 : m.cache = []) : m.Inv E k w := by
  constructor <;> simp [h1, h2]

theorem empty_mem (P : Seg V → World → Prop) (m : TMap V) (w : World) (h1 : m.nodes = []) : m.Mem P w := by
  constructor <;> simp [h1]

/-- Exceptions moving the segments of `m` one by one may end in. -/
def MoveExc (m : TMap V) (e : Exc) : Prop := BadAlloc E e ∨ ∃ n ∈ m.nodes, ExcFrom E n.seg.ty False (E.TooMany n.seg.ty (max 1 n.seg.size)) e

/-- A source left by allocator-extended move construction that threw: each segment is as it was
or has been emptied (its end position is then out of date). -/
structure HalfMoved (k : Kind) (x x' : TMap V) (w' : World) : Prop where
  inv : x'.Inv E k w'
  map : x' = { x with nodes := x'.nodes }
  nodes : All2 Tried x.nodes x'.nodes

theorem moveAl_runs (k : Kind) (al : Alloc) (x : TMap V) (w : World) (h : x.Inv E k w) (hm : x.Mem (Seg.Inv E) w) :
    Runs (moveAl E al) x w
      (fun m x' w' => m.Inv E k w' ∧ m.Mem (Seg.Inv E) w' ∧ m.al = al ∧ m.abs.Perm x.abs ∧ w.next ≤ w'.next ∧
        x'.nodes = [] ∧ x'.cache = [] ∧ x'.al = x.al ∧ (x.al = al → m = x ∧ w' = w))
      (fun e x' w' => w.next ≤ w'.next ∧ x.al ≠ al ∧ MoveExc E x e ∧ HalfMoved E k x x' w') := by
  unfold moveAl
  simp only [runs_bind, runs_get, runs_ite, runs_set, runs_pure]
  refine ⟨fun e => ⟨h, hm, e, List.Perm.refl _, Nat.le_refl _, by trivial, by trivial, by trivial, fun _ => by trivial⟩, fun hne => ?_⟩
  unfold build clearAll
  simp only [runs_bind, runs_get, runs_set, runs_world, runs_locally]
  refine (runs_zoom (p := moveNodes E al)).2 ?_
  have hpre : ∀ n ∈ x.nodes, n.seg.Core E w ∧ n.seg.al ≠ al := fun n hn => ⟨(hm.segs n hn).core, by rw [h.al n hn]; exact hne⟩
  refine (moveNodes_runs E al x.nodes w hpre).mono ?_ ?_
  · rintro ns l w' ⟨a1, a2, a3, a4⟩
    obtain ⟨b1, b2, b3, b4⟩ := NewNodes.inv E (b := x.buckets) (g := 0) h a2 a3 (E.shuffle_perm w'.tick ns)
    refine (buildCache_runs E k x.cache _ w' b1 b4).mono ?_ ?_
    · rintro _ m' w'' ⟨c1, c2, c3⟩
      refine ⟨c1, (b2.mono (fun _ _ h => h.weaken E c3) c3).congr c2, c2.al, ?_, by omega, by trivial, by trivial, by trivial, fun e => absurd e hne⟩
      unfold TMap.abs at b3 ⊢; rw [c2.nodes]; exact b3
    · rintro e m' w'' ⟨c1, c2, c3, c4⟩
      refine ⟨by omega, hne, Or.inl c4, ?_, by trivial, ?_⟩
      · refine frame_inv E h (by omega) ?_
        clear a2 a3 b1 b2 b3 b4 c1 c2 hpre hm h
        generalize x.nodes = q at a4
        induction a4 with
        | nil => exact .nil
        | cons h _ ih => exact .cons ⟨h.id, h.key, h.frame⟩ ih
      · clear a2 a3 b1 b2 b3 b4 c1 c2 hpre hm h
        show All2 Tried x.nodes l
        generalize x.nodes = q at a4 ⊢
        induction a4 with
        | nil => exact .nil
        | cons h _ ih => exact .cons ⟨h.id, h.key, h.frame, Or.inr (by rw [Seg.size_eq, h.elems]; rfl)⟩ ih
  · rintro e l w' ⟨a1, a2, a3⟩
    refine ⟨a1, hne, Or.inr a3, ?_, by trivial, a2⟩
    refine frame_inv E h a1 ?_
    clear hpre hm h a3
    generalize x.nodes = q at a2
    induction a2 with
    | nil => exact .nil
    | cons h _ ih => exact .cons ⟨h.id, h.key, h.frame⟩ ih

/-- Copy assignment from another map. -/
theorem assign_runs (k : Kind) (x m : TMap V) (w : World) (h : x.Inv E k w) (hw : 0 < w.next) :
    Runs (assign E x) m w
      (fun _ m' w' => Copied E k x (if E.pocca then x.al else m.al) m' w w' ∧
        ∀ n ∈ x.nodes, n.seg.elems ≠ [] → (E.traits n.seg.ty).copyable = true)
      (fun e m' w' => m'.nodes = [] ∧ m'.cache = [] ∧ m'.al = (if E.pocca then x.al else m.al) ∧ w.next ≤ w'.next ∧ CopyExc E x e) := by
  unfold assign assignBody clearAll
  simp only [runs_onExc, runs_bind, runs_get, runs_set, runs_world]
  refine (copyNodes_runs E _ _ x.nodes w hw).mono ?_ ?_
  · rintro ns z' w' ⟨rfl, a1, a2, a3, a4⟩
    obtain ⟨b1, b2, b3, b4⟩ := NewNodes.inv E (b := x.buckets) (g := m.gen + 1) h a2 a3 (E.shuffle_perm w'.tick ns)
    refine (buildCache_runs E k x.cache _ w' b1 b4).mono ?_ ?_
    · rintro _ m' w'' ⟨c1, c2, c3⟩
      refine ⟨⟨c1, (b2.mono (fun _ _ h => h.weaken E c3) c3).congr c2, c2.al, ?_, by omega, ?_, ?_⟩, a4⟩
      · unfold TMap.abs at b3 ⊢; rw [c2.nodes]; exact b3
      · intro n hn; rw [c2.nodes] at hn; exact (a3.id n ((E.shuffle_perm w'.tick ns).mem_iff.1 hn)).1
      · intro n hn; rw [c2.nodes] at hn; exact a3.new n ((E.shuffle_perm w'.tick ns).mem_iff.1 hn)
    · rintro e m' w'' ⟨c1, c2, c3, c4⟩
      exact ⟨by trivial, by trivial, c2.al, by omega, Or.inl c4⟩
  · rintro e z' w' ⟨rfl, a1, a2⟩
    exact ⟨by trivial, by trivial, by trivial, a1, Or.inr a2⟩

/-- Move assignment from another map. -/
theorem moveAssign_runs (k : Kind) (m x : TMap V) (w : World) (h : x.Inv E k w) (hm : x.Mem (Seg.Inv E) w) :
    Runs (moveAssign E) (m, x) w
      (fun _ p w' => p.1.Inv E k w' ∧ p.1.Mem (Seg.Inv E) w' ∧ p.1.al = (if E.pocma then x.al else m.al) ∧ p.1.abs.Perm x.abs ∧
        w.next ≤ w'.next ∧ p.2.nodes = [] ∧ p.2.cache = [] ∧ p.2.al = x.al ∧
        (E.pocma ∨ m.al = x.al → p.1 = { x with al := p.1.al } ∧ w' = w))
      (fun e p w' => p.1.nodes = [] ∧ p.1.cache = [] ∧ p.1.al = m.al ∧ p.2.nodes = [] ∧ p.2.cache = [] ∧ p.2.al = x.al ∧
        w.next ≤ w'.next ∧ ¬E.pocma ∧ m.al ≠ x.al ∧ MoveExc E x e) := by
  unfold moveAssign clearAll
  simp only [runs_onExc, runs_bind, runs_get, runs_set, runs_ite]
  refine ⟨fun hs => ?_, fun hne => ?_⟩
  · have e : (if E.pocma = true then x.al else m.al) = x.al := by
      rcases hs with hs | hs
      · simp [hs]
      · rw [hs]; simp
    rw [e]
    exact ⟨h, hm, by trivial, List.Perm.refl _, Nat.le_refl _, by trivial, by trivial, by trivial, fun _ => by trivial⟩
  · have h1 : ¬E.pocma = true := fun e => hne (Or.inl e)
    have h2 : m.al ≠ x.al := fun e => hne (Or.inr e)
    simp only [h1]
    refine (runs_zoom (p := moveNodes E m.al)).2 ?_
    have hpre : ∀ n ∈ x.nodes, n.seg.Core E w ∧ n.seg.al ≠ m.al := fun n hn => ⟨(hm.segs n hn).core, by rw [h.al n hn]; exact Ne.symm h2⟩
    refine (moveNodes_runs E m.al x.nodes w hpre).mono ?_ ?_
    · rintro ns l w' ⟨a1, a2, a3, a4⟩
      simp only [runs_world, runs_bind, runs_get, runs_set, runs_zoom]
      obtain ⟨b1, b2, b3, b4⟩ := NewNodes.inv E (b := x.buckets) (g := m.gen + 1) h a2 a3 (E.shuffle_perm w'.tick ns)
      refine (buildCache_runs E k x.cache _ w' b1 b4).mono ?_ ?_
      · rintro _ m' w'' ⟨c1, c2, c3⟩
        refine ⟨c1, (b2.mono (fun _ _ h => h.weaken E c3) c3).congr c2, by simpa using c2.al, ?_, by omega, by trivial, by trivial, by trivial, fun e => absurd e (by simpa using h2)⟩
        unfold TMap.abs at b3 ⊢; rw [c2.nodes]; exact b3
      · rintro e m' w'' ⟨c1, c2, c3, c4⟩
        exact ⟨by trivial, by trivial, c2.al, by trivial, by trivial, by trivial, by omega, by simp, h2, Or.inl c4⟩
    · rintro e l w' ⟨a1, a2, a3⟩
      simp only [runs_bind, runs_get, runs_set, runs_zoom]
      exact ⟨by trivial, by trivial, by trivial, by trivial, by trivial, by trivial, a1, by simp, h2, Or.inr a3⟩

theorem swap_runs (m x : TMap V) (w : World) (h : E.pocs ∨ m.al = x.al) :
    Runs (swap E) (m, x) w (fun _ p w' => p = (x, m) ∧ w' = w) (fun _ _ _ => False) := by
  unfold swap
  simp only [runs_bind, runs_get, runs_ite, runs_set]
  refine ⟨fun _ => ⟨?_, by trivial⟩, fun hn => absurd h hn⟩
  rcases h with h | h
  · simp [h]
  · rw [h]; simp; rw [← h]

end TMap
end PolyColl
