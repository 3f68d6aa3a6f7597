import Verif.Model.NodeReuse
import Verif.Lemmas.WholeColl
/-! # Assignment of hash maps that keep their nodes -/

namespace PolyColl
open Prog

variable {V : Type} (E : Env V)

namespace Seg

theorem copy_copyAl {X : Type} (x : Seg V) (h : E.soccc x.al = x.al) : (copy E x : Prog X (Seg V)) = copyAl E x x.al := by
  obtain ⟨be, snt⟩ := x
  cases be with
  | packed y =>
    have h : E.soccc y.al = y.al := h
    show (do let b ← Packed.copy E y; return ofBackend (.packed b) : Prog X (Seg V)) = (do let b ← Packed.copyAl E y y.al; return ofBackend (.packed b))
    unfold Packed.copy Packed.copyAl
    rw [h]
  | split y =>
    have h : E.soccc y.al = y.al := h
    show (do let b ← Split.copy E y; return ofBackend (.split b) : Prog X (Seg V)) = (do let b ← Split.copyAl E y y.al; return ofBackend (.split b))
    unfold Split.copy Split.copyAl
    rw [h]

/-- The segment assigned to gets allocator `al`. -/
theorem assigned_copyAl {X : Type} {al : Alloc} (o x : Seg V) (h1 : E.pocca = true → x.al = al ∧ E.soccc x.al = x.al) (h2 : E.pocca = false → o.al = al) :
    (assigned E o x : Prog X (Seg V)) = copyAl E x al := by
  unfold assigned
  cases hp : E.pocca with
  | true => rw [if_pos rfl, copy_copyAl E x (h1 hp).2, (h1 hp).1]
  | false => rw [if_neg (by simp), h2 hp]

end Seg

namespace TMap

/-- Nodes for allocator `al` that are either among `old` or made between `w` and `w'`, with new segments. -/
structure ReNodes (al' : Alloc) (old : List (Node V)) (w w' : World) (l : List (Node V)) : Prop where
  ids : (l.map (·.id)).Nodup
  id : ∀ n ∈ l, n.id ∈ old.map (·.id) ∨ w.next ≤ n.id
  lt : ∀ n ∈ l, n.id < w'.next
  al : ∀ n ∈ l, n.seg.al = al'
  objAl : ∀ n ∈ l, n.seg.objAl = al'
  segs : ∀ n ∈ l, n.seg.Inv E w'
  new : ∀ n ∈ l, n.seg.New w
  disj : l.Pairwise (fun a b => ∀ x ∈ a.seg.blocks, x ∈ b.seg.blocks → x = 0)

theorem ReNodes.nil (al : Alloc) (old : List (Node V)) (w w' : World) : ReNodes E al old w w' ([] : List (Node V)) := by
  constructor <;> simp

theorem NewNodes.re {al : Alloc} {w w' : World} {l : List (Node V)} (h : NewNodes E al w w' l) : ReNodes E al [] w w' l :=
  ⟨h.ids, fun n hn => Or.inr (h.id n hn).1, fun n hn => (h.id n hn).2, h.al, h.objAl, h.segs, h.new, h.disj⟩

theorem ReNodes.cons {al : Alloc} {w w1 w2 : World} {old l : List (Node V)} {o n : Node V} (h : ReNodes E al old w1 w2 l)
    (ho : ((o :: old).map (·.id)).Nodup) (hlt : o.id < w.next) (h1 : w.next ≤ w1.next) (h2 : w1.next ≤ w2.next)
    (hi : n.id = o.id) (ha : n.seg.al = al) (hoa : n.seg.objAl = al) (hs : n.seg.Inv E w1) (hn : n.seg.New w) :
    ReNodes E al (o :: old) w w2 (n :: l) := by
  rw [List.map_cons, List.nodup_cons] at ho
  refine ⟨?_, ?_, ?_, ?_, ?_, ?_, ?_, ?_⟩
  · rw [List.map_cons, List.nodup_cons]
    refine ⟨fun hm => ?_, h.ids⟩
    obtain ⟨a, ha, e⟩ := List.mem_map.1 hm
    rcases h.id a ha with h' | h'
    · rw [e, hi] at h'; exact ho.1 h'
    · omega
  · intro a ha
    rcases List.mem_cons.1 ha with rfl | ha
    · left; rw [hi]; simp
    · rcases h.id a ha with h' | h'
      · left; rw [List.map_cons]; exact List.mem_cons_of_mem _ h'
      · right; omega
  · intro a ha
    rcases List.mem_cons.1 ha with rfl | ha
    · omega
    · exact h.lt a ha
  · intro a ha
    rcases List.mem_cons.1 ha with rfl | ha
    · assumption
    · exact h.al a ha
  · intro a ha
    rcases List.mem_cons.1 ha with rfl | ha
    · assumption
    · exact h.objAl a ha
  · intro a ha
    rcases List.mem_cons.1 ha with rfl | ha
    · exact hs.weaken E h2
    · exact h.segs a ha
  · intro a ha b hb
    rcases List.mem_cons.1 ha with rfl | ha
    · exact hn b hb
    · exact (h.new a ha b hb).imp_right (by omega)
  · refine List.pairwise_cons.2 ⟨?_, h.disj⟩
    intro a ha x hx hx'
    have h1 := Seg.Core.lt E hs.core x hx
    rcases h.new a ha x hx' with h2 | h2
    · exact h2
    · omega

theorem assignNodes_runs {X : Type} (al : Alloc) (z : X) : ∀ (old l : List (Node V)) (w : World), 0 < w.next → (old.map (·.id)).Nodup →
    (∀ o ∈ old, o.id < w.next ∧ (E.pocca = false → o.seg.al = al)) → (∀ n ∈ l, E.pocca = true → n.seg.al = al ∧ E.soccc n.seg.al = n.seg.al) →
    Runs (assignNodes E al old l : Prog X (List (Node V))) z w
      (fun ns z' w' => z' = z ∧ w.next ≤ w'.next ∧ All2 CopyOf l ns ∧ ReNodes E al old w w' ns ∧
        ∀ n ∈ l, n.seg.elems ≠ [] → (E.traits n.seg.ty).copyable = true)
      (fun e z' w' => z' = z ∧ w.next ≤ w'.next ∧ ∃ n ∈ l, ExcFrom E n.seg.ty (n.seg.elems ≠ []) (E.TooMany n.seg.ty (max 1 n.seg.size)) e) := by
  intro old
  induction old with
  | nil =>
    intro l w hw _ _ _
    have : (assignNodes E al [] l : Prog X (List (Node V))) = copyNodes E al l := by cases l <;> rfl
    rw [this]
    exact (copyNodes_runs E al z l w hw).mono (fun _ _ _ ⟨a, b, c, d, e⟩ => ⟨a, b, c, d.re E, e⟩) (fun _ _ _ h => h)
  | cons o old ih =>
    intro l w hw hn ho hl
    cases l with
    | nil => exact ⟨rfl, Nat.le_refl _, .nil, ReNodes.nil E _ _ _ _, by simp⟩
    | cons n l =>
      have hn' := hn
      rw [List.map_cons, List.nodup_cons] at hn'
      simp only [assignNodes, runs_bind, runs_pure]
      rw [Seg.assigned_copyAl E (al := al) o.seg n.seg (hl n (by simp)) (ho o (by simp)).2]
      refine (Seg.copyAl_runs E n.seg al z w hw).mono ?_ ?_
      · rintro s z' w' ⟨rfl, a1, a2, a3, a4, a5, a6, a7, a8, a9⟩
        refine (ih l w' (by omega) hn'.2 (fun p hp => ⟨by have := (ho p (by simp [hp])).1; omega, (ho p (by simp [hp])).2⟩) (fun p hp => hl p (by simp [hp]))).mono ?_ ?_
        · rintro ns z' w'' ⟨rfl, b1, b2, b3, b4⟩
          refine ⟨by trivial, by omega, .cons ⟨rfl, a2, a3, a6⟩ b2, ReNodes.cons E b3 hn (ho o (by simp)).1 a7 b1 rfl a4 a5 a1 a8, ?_⟩
          intro a ha
          rcases List.mem_cons.1 ha with rfl | ha
          · exact a9
          · exact b4 a ha
        · rintro e z' w'' ⟨rfl, b1, a, ha, b2⟩
          exact ⟨by trivial, by omega, a, by simp [ha], b2⟩
      · rintro e z' w' ⟨rfl, a1, a2⟩
        exact ⟨by trivial, by omega, n, by simp, a2⟩

/-- A map made of copies. -/
theorem ReNodes.inv {k : Kind} {m : TMap V} {w0 w w' : World} {old ns ns' : List (Node V)} {al : Alloc} {b g : Nat}
    (hm : m.Inv E k w0) (hc : All2 CopyOf m.nodes ns) (hn : ReNodes E al old w w' ns) (hp : ns'.Perm ns) :
    (⟨ns', b, g, al, []⟩ : TMap V).Inv E k w' ∧ (⟨ns', b, g, al, []⟩ : TMap V).Mem (Seg.Inv E) w' ∧
      (⟨ns', b, g, al, []⟩ : TMap V).abs.Perm m.abs ∧
      ∀ p ∈ m.cache, ∃ n ∈ ns', E.tiTy n.key = E.tiTy p.1 := by
  have hk : ns.map (fun n => E.tiTy n.key) = m.nodes.map (fun n => E.tiTy n.key) :=
    All2.map_eq (fun a b h => by rw [h.key]) hc
  refine ⟨⟨?_, ?_, ?_, ?_, ?_, ?_, ?_, ?_⟩, ⟨?_, ?_, ?_⟩, ?_, ?_⟩
  · exact ((hp.map (·.id)).nodup_iff).2 hn.ids
  · intro n h; exact hn.lt n (hp.mem_iff.1 h)
  · exact ((hp.map _).nodup_iff).2 (hk ▸ hm.tys)
  · intro n h
    obtain ⟨a, ha, hr⟩ := hc.mem (hp.mem_iff.1 h)
    rw [hr.ty, hr.key]; exact hm.ty a ha
  · intro n h; exact hn.al n (hp.mem_iff.1 h)
  · intro n h; exact hn.objAl n (hp.mem_iff.1 h)
  · intro n h
    obtain ⟨a, ha, hr⟩ := hc.mem (hp.mem_iff.1 h)
    rw [hr.kind]; exact hm.kind a ha
  · simp
  · intro n h; exact hn.segs n (hp.mem_iff.1 h)
  · exact (hp.pairwise_iff (fun h x hx hx' => h x hx' hx)).2 hn.disj
  · intro n h; exact Seg.Core.lt E (hn.segs n (hp.mem_iff.1 h)).core
  · unfold TMap.abs
    rw [← All2.map_eq (R := CopyOf) (f := fun n : Node V => (n.seg.ty, n.seg.elems)) (g := fun n => (n.seg.ty, n.seg.elems)) (fun a b h => by rw [h.ty, h.elems]) hc]
    exact hp.map _
  · intro p hp'
    obtain ⟨n, hr, e⟩ := hm.cache p hp'
    obtain ⟨b, hb, hr'⟩ := hc.mem' hr.mem
    exact ⟨b, hp.mem_iff.2 hb, by rw [hr'.key]; exact e⟩

/-- What assigning gives. -/
structure Assigned (k : Kind) (m x : TMap V) (al' : Alloc) (m' : TMap V) (w w' : World) : Prop where
  inv : m'.Inv E k w'
  mem : m'.Mem (Seg.Inv E) w'
  al : m'.al = al'
  abs : m'.abs.Perm x.abs
  next : w.next ≤ w'.next
  id : ∀ n ∈ m'.nodes, (n.id ∈ m.nodes.map (·.id) ∧ al' = m.al) ∨ w.next ≤ n.id
  new : ∀ n ∈ m'.nodes, n.seg.New w

/-- Rehashing. -/
theorem newArray_runs {X : Type} (b c : Nat) (z : X) (w : World) {Q : X → World → Prop} {R : Exc → X → World → Prop}
    (h1 : ∀ w' : World, w.next ≤ w'.next → Q z w') (h2 : ∀ w' : World, w.next ≤ w'.next → BadAlloc E .badAlloc → R .badAlloc z w') :
    Runs (newArray E b c : Prog X Unit) z w (fun _ => Q) R := by
  unfold newArray
  by_cases hc : c = b
  · rw [if_pos hc]; exact h1 w (Nat.le_refl _)
  · rw [if_neg hc]
    simp only [runs_bind, E.runs_alloc, runs_pure]
    exact ⟨fun hf => h2 _ (Nat.le_refl _) ⟨rfl, _, hf⟩, fun _ => h1 _ (Nat.le_succ _)⟩

theorem assignKeep_runs (k k' : Kind) (x m : TMap V) (w : World) (h : x.Inv E k w) (hm : m.Inv E k' w) (hw : 0 < w.next)
    (hs : E.pocca = true → E.soccc x.al = x.al) :
    Runs (assignKeep E x) m w
      (fun _ m' w' => Assigned E k m x (if E.pocca then x.al else m.al) m' w w' ∧
        ∀ n ∈ x.nodes, n.seg.elems ≠ [] → (E.traits n.seg.ty).copyable = true)
      (fun e m' w' => m'.nodes = [] ∧ m'.cache = [] ∧ m'.al = (if E.pocca then x.al else m.al) ∧ w.next ≤ w'.next ∧ CopyExc E x e) := by
  unfold assignKeep assignKeepBody clearAll
  simp only [runs_onExc, runs_bind, runs_get, runs_set, runs_world]
  have hk : ∀ o ∈ kept E m x, o ∈ m.nodes := by
    intro o ho
    unfold kept at ho
    split at ho
    · simp at ho
    · exact ho
  have hkn : ((kept E m x).map (·.id)).Nodup := by
    unfold kept
    split
    · exact List.nodup_nil
    · exact hm.ids
  refine (assignNodes_runs E _ _ (kept E m x) x.nodes w hw hkn (fun o ho => ⟨hm.lt o (hk o ho), fun hp => ?_⟩) (fun n hn hp => ?_)).mono ?_ ?_
  · rw [hp, if_neg (by simp)]; exact hm.al o (hk o ho)
  · rw [hp, if_pos rfl, h.al n hn]; exact ⟨rfl, hs hp⟩
  · rintro ns z' w' ⟨rfl, a1, a2, a3, a4⟩
    refine newArray_runs E _ _ _ w' (fun w1 hw1 => ?_) (fun w1 hw1 hf => ⟨by trivial, by trivial, rfl, by omega, Or.inl hf⟩)
    obtain ⟨b1, b2, b3, b4⟩ := ReNodes.inv E (b := E.newBuckets w'.tick m.buckets) (g := m.gen + 1) h a2 a3 (E.shuffle_perm w'.tick ns)
    refine (buildCache_runs E k x.cache _ w1 (b1.weaken E hw1) b4).mono ?_ ?_
    · rintro _ m' w'' ⟨c1, c2, c3⟩
      refine ⟨⟨c1, (b2.mono (fun _ _ h => h.weaken E (by omega)) (by omega)).congr c2, c2.al, ?_, by omega, ?_, ?_⟩, a4⟩
      · unfold TMap.abs at b3 ⊢; rw [c2.nodes]; exact b3
      · intro n hn; rw [c2.nodes] at hn
        rcases a3.id n ((E.shuffle_perm w'.tick ns).mem_iff.1 hn) with h' | h'
        · obtain ⟨o, ho, e⟩ := List.mem_map.1 h'
          refine Or.inl ⟨List.mem_map.2 ⟨o, hk o ho, e⟩, ?_⟩
          unfold kept at ho
          split at ho
          · simp at ho
          · rename_i hp
            by_cases hp' : E.pocca = true
            · rw [if_pos hp']
              exact (Classical.not_not.1 fun e => hp ⟨hp', e⟩ : m.al = x.al).symm
            · rw [if_neg hp']
        · exact Or.inr h'
      · intro n hn; rw [c2.nodes] at hn; exact a3.new n ((E.shuffle_perm w'.tick ns).mem_iff.1 hn)
    · rintro e m' w'' ⟨c1, c2, c3, c4⟩
      exact ⟨by trivial, by trivial, c2.al, by omega, Or.inl c4⟩
  · rintro e z' w' ⟨rfl, a1, a2⟩
    exact ⟨by trivial, by trivial, by trivial, a1, Or.inr a2⟩

theorem moveToNodes_runs (al : Alloc) (hp : E.pocma = false) : ∀ (old l : List (Node V)) (w : World), (old.map (·.id)).Nodup →
    (∀ o ∈ old, o.id < w.next ∧ o.seg.al = al) → (∀ n ∈ l, n.seg.Core E w ∧ n.seg.al ≠ al) →
    Runs (moveToNodes E al old) l w
      (fun ns l' w' => w.next ≤ w'.next ∧ All2 CopyOf l ns ∧ ReNodes E al old w w' ns ∧ All2 Drained l l')
      (fun e l' w' => w.next ≤ w'.next ∧ All2 Tried l l' ∧ ∃ n ∈ l, ExcFrom E n.seg.ty False (E.TooMany n.seg.ty (max 1 n.seg.size)) e) := by
  intro old
  induction old with
  | nil =>
    intro l w _ _ hl
    exact (moveNodes_runs E al l w hl).mono (fun _ _ _ ⟨a, b, c, d⟩ => ⟨a, b, c.re E, d⟩) (fun _ _ _ h => h)
  | cons o old ih =>
    intro l w hn ho hl
    cases l with
    | nil => exact ⟨Nat.le_refl _, .nil, ReNodes.nil E _ _ _ _, .nil⟩
    | cons n l =>
      have hn' := hn
      rw [List.map_cons, List.nodup_cons] at hn'
      have hnn := hl n (by simp)
      have e1 : Seg.movedAl E o.seg n.seg = al := by
        unfold Seg.movedAl
        rw [hp, if_neg (by simp)]
        exact (ho o (by simp)).2
      have key := Seg.moveAl_runs E al n.seg w hnn.1 (fun e => absurd e hnn.2)
      unfold Runs at key
      unfold Runs moveToNodes
      simp only [e1]
      cases hp : Seg.moveAl E al n.seg w with
      | ub => rw [hp] at key; exact key.elim
      | exc e s' w' =>
        rw [hp] at key
        obtain ⟨a1, a2, a3, a4⟩ := key
        exact ⟨a1, .cons ⟨rfl, rfl, SegFrame.of_step a2, a4⟩ (All2.refl _ (fun a _ => Tried.refl a)), n, by simp, a3⟩
      | ok s s' w' =>
        rw [hp] at key
        obtain ⟨a1, a2, a3, a4, a5, a6, a7, a8, a9, a10⟩ := key
        have ih' := ih l w' hn'.2 (fun p hp => ⟨by have := (ho p (by simp [hp])).1; omega, (ho p (by simp [hp])).2⟩)
          (fun a ha => ⟨Backend.Inv.weaken E (hl a (by simp [ha])).1 (by omega), (hl a (by simp [ha])).2⟩)
        unfold Runs at ih'
        simp only
        cases hq : moveToNodes E al old l w' with
        | ub => rw [hq] at ih'; exact ih'.elim
        | exc e l' w'' =>
          rw [hq] at ih'
          obtain ⟨b1, b2, a, ha, b3⟩ := ih'
          exact ⟨by omega, .cons ⟨rfl, rfl, SegFrame.of_step a10, Or.inr (by rw [Seg.size_eq, a9]; rfl)⟩ b2, a, by simp [ha], b3⟩
        | ok ns l' w'' =>
          rw [hq] at ih'
          obtain ⟨b1, b2, b3, b4⟩ := ih'
          refine ⟨by omega, .cons ⟨rfl, a2, a3, a6⟩ b2, ?_, .cons ⟨rfl, rfl, SegFrame.of_step a10, a9⟩ b4⟩
          refine ReNodes.cons E b3 hn (ho o (by simp)).1 a7 b1 rfl a4 a5 a1 ?_
          intro b hb
          rcases a8 b hb with h | h | h
          · exact Or.inl h
          · exact Or.inr h
          · exact absurd h.1 hnn.2

theorem moveAssignKeep_runs (k k' : Kind) (m x : TMap V) (w : World) (h : x.Inv E k w) (hm : x.Mem (Seg.Inv E) w) (hi : m.Inv E k' w) :
    Runs (moveAssignKeep E) (m, x) w
      (fun _ p w' => p.1.Inv E k w' ∧ p.1.Mem (Seg.Inv E) w' ∧ p.1.al = (if E.pocma then x.al else m.al) ∧ p.1.abs.Perm x.abs ∧
        w.next ≤ w'.next ∧ p.2.nodes = [] ∧ p.2.cache = [] ∧ p.2.al = x.al ∧
        (E.pocma ∨ m.al = x.al → p.1 = { x with al := p.1.al } ∧ w' = w))
      (fun e p w' => p.1.nodes = [] ∧ p.1.cache = [] ∧ p.1.al = m.al ∧ p.2.nodes = [] ∧ p.2.cache = [] ∧ p.2.al = x.al ∧
        w.next ≤ w'.next ∧ ¬E.pocma ∧ m.al ≠ x.al ∧ MoveExc E x e) := by
  unfold moveAssignKeep clearAll
  simp only [runs_onExc, runs_bind, runs_get, runs_set, runs_ite]
  refine ⟨fun hs => ?_, fun hne => ?_⟩
  · have e : (if E.pocma = true then x.al else m.al) = x.al := by
      rcases hs with hs | hs
      · simp [hs]
      · rw [hs]; simp
    rw [e]
    exact ⟨h, hm, by trivial, List.Perm.refl _, Nat.le_refl _, by trivial, by trivial, by trivial, fun _ => by trivial⟩
  · have h1 : ¬E.pocma = true := fun e => hne (Or.inl e)
    have h2 : m.al ≠ x.al := fun e => hne (Or.inr e)
    simp only [h1]
    refine (runs_zoom (p := moveToNodes E m.al m.nodes)).2 ?_
    have hpre : ∀ n ∈ x.nodes, n.seg.Core E w ∧ n.seg.al ≠ m.al := fun n hn => ⟨(hm.segs n hn).core, by rw [h.al n hn]; exact Ne.symm h2⟩
    refine (moveToNodes_runs E m.al (by simpa using h1) m.nodes x.nodes w hi.ids (fun o ho => ⟨hi.lt o ho, hi.al o ho⟩) hpre).mono ?_ ?_
    · rintro ns l w' ⟨a1, a2, a3, a4⟩
      simp only [runs_world, runs_bind, runs_get, runs_set, runs_zoom]
      refine newArray_runs E _ _ _ w' (fun w1 hw1 => ?_) (fun w1 hw1 hf => ?_)
      · obtain ⟨b1, b2, b3, b4⟩ := ReNodes.inv E (b := E.newBuckets w'.tick m.buckets) (g := m.gen + 1) h a2 a3 (E.shuffle_perm w'.tick ns)
        refine (buildCache_runs E k x.cache _ w1 (b1.weaken E hw1) b4).mono ?_ ?_
        · rintro _ m' w'' ⟨c1, c2, c3⟩
          refine ⟨c1, (b2.mono (fun _ _ h => h.weaken E (by omega)) (by omega)).congr c2, by simpa using c2.al, ?_, by omega, by trivial, by trivial, by trivial, fun e => absurd e (by simpa using h2)⟩
          unfold TMap.abs at b3 ⊢; rw [c2.nodes]; exact b3
        · rintro e m' w'' ⟨c1, c2, c3, c4⟩
          exact ⟨by trivial, by trivial, c2.al, by trivial, by trivial, by trivial, by omega, by simp, h2, Or.inl c4⟩
      · exact ⟨by trivial, by trivial, by trivial, by trivial, by trivial, by trivial, by omega, by simp, h2, Or.inl hf⟩
    · rintro e l w' ⟨a1, a2, a3⟩
      simp only [runs_bind, runs_get, runs_set, runs_zoom]
      exact ⟨by trivial, by trivial, by trivial, by trivial, by trivial, by trivial, a1, by simp, h2, Or.inr a3⟩

end TMap

namespace Coll

theorem assignKeep_runs (x c : Coll V) (w : World) (h : x.map.Inv E x.kind w) (hc : c.map.Inv E c.kind w) (hk : c.kind = x.kind) (hw : 0 < w.next)
    (hs : E.pocca = true → E.soccc x.map.al = x.map.al) :
    Runs (assignKeep E x) c w
      (fun _ c' w' => w.next ≤ w'.next ∧ c'.Inv E w' ∧ c'.kind = c.kind ∧ c'.map.al = (if E.pocca then x.map.al else c.map.al) ∧
        c'.abs.Perm x.abs ∧ (∀ t, x.abs.elemsOf t ≠ [] → (E.traits t).copyable = true) ∧
        (∀ n ∈ c'.map.nodes, (n.id ∈ c.map.nodes.map (·.id) ∧ c'.map.al = c.map.al) ∨ w.next ≤ n.id) ∧ ∀ n ∈ c'.map.nodes, n.seg.New w)
      (fun e c' w' => w.next ≤ w'.next ∧ c'.Inv E w' ∧ c'.kind = c.kind ∧ c'.map.al = (if E.pocca then x.map.al else c.map.al) ∧
        c'.abs = [] ∧ CopyExc E x.abs e) := by
  unfold assignKeep onMap
  rw [runs_zoom]
  refine (TMap.assignKeep_runs E x.kind c.kind x.map c.map w h hc hw hs).mono ?_ ?_
  · rintro _ m w' ⟨a, b⟩
    have := a.next
    exact ⟨a.next, ⟨hk ▸ a.inv, a.mem, by omega⟩, rfl, a.al, a.abs, copyable_abs E h b, fun n hn => a.al ▸ a.id n hn, a.new⟩
  · rintro e m w' ⟨a1, a2, a3, a4, a5⟩
    exact ⟨a4, none_inv E a1 a2 (by omega), rfl, a3, none_abs a1, copyExc E h a5⟩

theorem moveAssignKeep_runs (c x : Coll V) (w : World) (h : x.Inv E w) (hc : c.map.Inv E c.kind w) (hk : c.kind = x.kind) :
    Runs (moveAssignKeep E) (c, x) w
      (fun _ p w' => w.next ≤ w'.next ∧ p.1.Inv E w' ∧ p.1.kind = c.kind ∧ p.1.map.al = (if E.pocma then x.map.al else c.map.al) ∧
        p.1.abs.Perm x.abs ∧ p.2.Inv E w' ∧ p.2.kind = x.kind ∧ p.2.map.al = x.map.al ∧ p.2.abs = [])
      (fun e p w' => w.next ≤ w'.next ∧ p.1.Inv E w' ∧ p.1.kind = c.kind ∧ p.1.map.al = c.map.al ∧ p.1.abs = [] ∧
        p.2.Inv E w' ∧ p.2.kind = x.kind ∧ p.2.map.al = x.map.al ∧ p.2.abs = [] ∧ ¬E.pocma ∧ c.map.al ≠ x.map.al ∧ MoveExc E x.abs e) := by
  unfold moveAssignKeep onMaps
  rw [runs_zoom]
  have hp := h.pos
  refine (TMap.moveAssignKeep_runs E x.kind c.kind c.map x.map w h.map h.mem hc).mono ?_ ?_
  · rintro _ p w' ⟨a1, a2, a3, a4, a5, a6, a7, a8, a9⟩
    exact ⟨a5, ⟨hk ▸ a1, a2, by omega⟩, rfl, a3, a4, none_inv E a6 a7 (by omega), rfl, a8, none_abs a6⟩
  · rintro e p w' ⟨a1, a2, a3, a4, a5, a6, a7, a8, a9, a10⟩
    exact ⟨a7, none_inv E a1 a2 (by omega), rfl, a3, none_abs a1, none_inv E a4 a5 (by omega), rfl, a6, none_abs a4, a8, a9, moveExc E h.map a10⟩

end Coll
end PolyColl
