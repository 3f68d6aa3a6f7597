import Verif.Model.MovedFrom
import Verif.Lemmas.HalfMoved
/-!
# Move assignment, whatever is left of the source
-/

namespace PolyColl
open Prog
variable {V : Type} {E : Env V}

namespace TMap

theorem moveAssignLeft_none : moveAssignLeft E .none = moveAssign E := rfl

theorem moveAssignLeft_runs (l : Leftover) (k : Kind) (m x : TMap V) (w : World) (h : x.Inv E k w) (hm : x.Mem (Seg.Inv E) w) :
    Runs (moveAssignLeft E l) (m, x) w
      (fun _ p w' => p.1.Inv E k w' ∧ p.1.Mem (Seg.Inv E) w' ∧ p.1.al = (if E.pocma then x.al else m.al) ∧ p.1.abs.Perm x.abs ∧
        w.next ≤ w'.next ∧ p.2 = { x with nodes := p.2.nodes, cache := [] } ∧
        (E.pocma ∨ m.al = x.al → p.1 = { x with al := p.1.al } ∧ p.2.nodes = []) ∧
        (¬ E.pocma → m.al ≠ x.al → ∃ after, All2 NodeLeft x.nodes after ∧ All2 Drained x.nodes after ∧ p.2.nodes = l.nodes x.nodes after))
      (fun e p w' => p.1.nodes = [] ∧ p.1.cache = [] ∧ p.1.al = m.al ∧ p.2.nodes = [] ∧ p.2.cache = [] ∧ p.2.al = x.al ∧
        w.next ≤ w'.next ∧ ¬E.pocma ∧ m.al ≠ x.al ∧ MoveExc E x e) := by
  unfold moveAssignLeft clearAll
  simp only [runs_onExc, runs_bind, runs_get, runs_set, runs_ite]
  refine ⟨fun hs => ?_, fun hne => ?_⟩
  · have e : (if E.pocma = true then x.al else m.al) = x.al := by
      rcases hs with hs | hs
      · simp [hs]
      · rw [hs]; simp
    rw [e]
    exact ⟨h, hm, by trivial, List.Perm.refl _, Nat.le_refl _, by trivial, fun _ => ⟨by trivial, by trivial⟩,
      fun h1 h2 => absurd hs (by simp [h1, h2])⟩
  · have h1 : ¬E.pocma = true := fun e => hne (Or.inl e)
    have h2 : m.al ≠ x.al := fun e => hne (Or.inr e)
    simp only [h1]
    refine (runs_zoom (p := moveNodes E m.al)).2 ?_
    have hpre : ∀ n ∈ x.nodes, n.seg.Core E w ∧ n.seg.al ≠ m.al := fun n hn => ⟨(hm.segs n hn).core, by rw [h.al n hn]; exact Ne.symm h2⟩
    refine ((moveNodes_left m.al x.nodes w hpre).and (moveNodes_runs E m.al x.nodes w hpre)).mono ?_ ?_
    · rintro ns l' w' ⟨hl, a1, a2, a3, a4⟩
      simp only [runs_world, runs_bind, runs_get, runs_set, runs_zoom]
      obtain ⟨b1, b2, b3, b4⟩ := NewNodes.inv E (b := x.buckets) (g := m.gen + 1) h a2 a3 (E.shuffle_perm w'.tick ns)
      refine (buildCache_runs E k x.cache _ w' b1 b4).mono ?_ ?_
      · rintro _ m' w'' ⟨c1, c2, c3⟩
        refine ⟨c1, (b2.mono (fun _ _ h => h.weaken E c3) c3).congr c2, by simpa using c2.al, ?_, by omega, by trivial,
          fun e => absurd e (by simpa using h2), fun _ _ => ⟨l', hl, a4, by trivial⟩⟩
        unfold TMap.abs at b3 ⊢; rw [c2.nodes]; exact b3
      · rintro e m' w'' ⟨c1, c2, c3, c4⟩
        exact ⟨by trivial, by trivial, c2.al, by trivial, by trivial, by trivial, by omega, by simp, h2, Or.inl c4⟩
    · rintro e l w' ⟨-, a1, a2, a3⟩
      simp only [runs_bind, runs_get, runs_set, runs_zoom]
      exact ⟨by trivial, by trivial, by trivial, by trivial, by trivial, by trivial, a1, by simp, h2, Or.inr a3⟩

end TMap

namespace Coll
open TMap

theorem left_keeps {k : Kind} {m m' : TMap V} {w w' : World} (h : m.Inv E k w) (hl : All2 NodeLeft m.nodes m'.nodes) (hc : m'.cache = []) (hal : m'.al = m.al)
    (hw : w.next ≤ w'.next) : m'.Inv E k w' := by
  refine ⟨?_, fun n hn => ?_, ?_, fun n hn => ?_, fun n hn => ?_, fun n hn => ?_, fun n hn => ?_, fun p hp => ?_⟩
  · rw [All2.map_eq (f := fun n : Node V => n.id) (fun a b h => h.id) hl]; exact h.ids
  · obtain ⟨a, ha, h2⟩ := hl.mem hn
    rw [h2.id]; exact Nat.lt_of_lt_of_le (h.lt a ha) hw
  · rw [All2.map_eq (f := fun n : Node V => E.tiTy n.key) (fun a b h => by rw [h.key]) hl]; exact h.tys
  · obtain ⟨a, ha, h2⟩ := hl.mem hn
    rw [h2.seg.frame.ty, h2.key]; exact h.ty a ha
  · obtain ⟨a, ha, h2⟩ := hl.mem hn
    rw [h2.seg.frame.al, hal]; exact h.al a ha
  · obtain ⟨a, ha, h2⟩ := hl.mem hn
    rw [h2.seg.frame.objAl, hal]; exact h.objAl a ha
  · obtain ⟨a, ha, h2⟩ := hl.mem hn
    rw [h2.seg.frame.kind]; exact h.kind a ha
  · rw [hc] at hp; cases hp

/-- What is left of the segments if the map keeps them and their vectors are empty. -/
theorem left_emptied {x y : Coll V} {w w' : World} (h : x.Inv E w) (hl : All2 NodeLeft x.map.nodes y.map.nodes)
    (hd : All2 Drained x.map.nodes y.map.nodes) (hc : y.map.cache = []) (hal : y.map.al = x.map.al) (hk : y.kind = x.kind)
    (hw : w.next ≤ w'.next) :
    y.abs = x.abs.map (fun p => (p.1, [])) ∧ y.size = 0 ∧ (x.size = 0 → y.Inv E w') ∧
      (x.size ≠ 0 → ∃ it, y.begin E = some it ∧ ∀ fuel, y.walk E y.end it fuel = none) := by
  have hm : y.map.Inv E x.kind w' := left_keeps h.map hl hc hal hw
  have h0 : y.size = 0 := by
    unfold Coll.size
    rw [All2.map_eq (f := fun _ : Node V => 0) (g := fun n : Node V => n.seg.size) (fun a b h => by rw [Seg.size_eq, h.elems]; rfl) hd]
    generalize x.map.nodes = l
    induction l with
    | nil => rfl
    | cons n l ih => simpa using ih
  obtain ⟨s1, s2, s3⟩ := left_sum hl
  refine ⟨?_, h0, fun he => ?_, fun hne => ?_⟩
  · rw [abs_eq, abs_eq, absNodes, absNodes, List.map_map]
    exact All2.map_eq (f := fun n : Node V => (n.seg.ty, [])) (g := fun n : Node V => (n.seg.ty, n.seg.elems)) (fun a b h => by
      show (b.seg.ty, b.seg.elems) = (a.seg.ty, [])
      rw [h.frame.ty, h.elems]) hd
  · have hl := s2 (h0.trans he.symm)
    refine ⟨hk ▸ hm, ⟨fun n hn => ?_, ?_, fun n hn b hb => ?_⟩, Nat.lt_of_lt_of_le h.pos hw⟩
    · obtain ⟨a, ha, h2, h3⟩ := hl.mem hn
      exact h2.seg.inv (h.mem.segs a ha) h3 hw
    · have hd := h.mem.disj
      have hb := All2.map_eq (f := fun n : Node V => n.seg.blocks) (fun a b h => h.1.seg.blocks) hl
      rw [← List.pairwise_map (f := fun n : Node V => n.seg.blocks) (R := fun a b : List Nat => ∀ x ∈ a, x ∈ b → x = 0)] at hd ⊢
      rw [hb]
      exact hd
    · obtain ⟨a, ha, h2, h3⟩ := hl.mem hn
      rw [h2.seg.blocks] at hb
      exact Nat.lt_of_lt_of_le (h.mem.lt a ha b hb) hw
  · obtain ⟨a, ha, b, hb, h2, h3⟩ := s3 (fun e => hne ((show y.size = x.size from e).symm.trans h0))
    refine walk_stale (w := w') hm.ids (fun n hn => ?_) ⟨b, hb, h2.seg.stale (h.mem.segs a ha) h3⟩
    obtain ⟨a', ha', h4⟩ := hl.mem hn
    by_cases h5 : n.seg.size = a'.seg.size
    · exact Or.inl (h4.seg.inv (h.mem.segs a' ha') h5 hw)
    · exact Or.inr (h4.seg.stale (h.mem.segs a' ha') h5)

/-- What is left if the vectors keep their elements. -/
theorem left_full {x y : Coll V} {w w' : World} (h : x.Inv E w) (hn : y.map.nodes = x.map.nodes) (hc : y.map.cache = []) (hal : y.map.al = x.map.al)
    (hk : y.kind = x.kind) (hw : w.next ≤ w'.next) : y.Inv E w' ∧ y.abs = x.abs := by
  have hl : All2 NodeLeft x.map.nodes y.map.nodes := hn ▸ All2.refl _ (fun a _ => ⟨rfl, rfl, Seg.Left.refl _⟩)
  have hm := h.mem.mono (fun _ _ h => h.weaken E hw) hw
  exact ⟨⟨hk ▸ left_keeps h.map hl hc hal hw, ⟨hn ▸ hm.segs, hn ▸ hm.disj, hn ▸ hm.lt⟩, Nat.lt_of_lt_of_le h.pos hw⟩, by simp [Coll.abs, TMap.abs, hn]⟩

theorem moveAssignLeft_runs (l : Leftover) (c x : Coll V) (w : World) (h : x.Inv E w) (hk : c.kind = x.kind) :
    Runs (moveAssignLeft E l) (c, x) w
      (fun _ p w' => p.1.Inv E w' ∧ p.1.map.al = (if E.pocma then x.map.al else c.map.al) ∧ p.1.abs.Perm x.abs ∧ p.2.map.al = x.map.al ∧
        (E.pocma ∨ c.map.al = x.map.al ∨ l = .none → p.2.Inv E w' ∧ p.2.abs = []) ∧
        (¬E.pocma → c.map.al ≠ x.map.al → l = .emptied → p.2.abs = x.abs.map (fun p => (p.1, [])) ∧ p.2.size = 0 ∧ (x.size = 0 → p.2.Inv E w') ∧
          (x.size ≠ 0 → ∃ it, p.2.begin E = some it ∧ ∀ fuel, p.2.walk E p.2.end it fuel = none)) ∧
        (¬E.pocma → c.map.al ≠ x.map.al → l = .full → p.2.Inv E w' ∧ p.2.abs = x.abs) ∧
        (E.pocma ∨ c.map.al = x.map.al → p.1.map.nodes = x.map.nodes) ∧ p.2.Weak E w' ∧ (∀ t ∈ p.2.abs.types, t ∈ x.abs.types))
      (fun e p w' => p.1.Inv E w' ∧ p.1.map.al = c.map.al ∧ p.1.abs = [] ∧
        p.2.Inv E w' ∧ p.2.map.al = x.map.al ∧ p.2.abs = [] ∧ ¬E.pocma ∧ c.map.al ≠ x.map.al ∧ MoveExc E x.abs e) := by
  unfold moveAssignLeft onMaps
  rw [runs_zoom]
  have hp := h.pos
  refine (TMap.moveAssignLeft_runs l x.kind c.map x.map w h.map h.mem).mono ?_ ?_
  · rintro _ ⟨m, y⟩ w' ⟨a1, a2, a3, a4, a5, a6, a7, a8⟩
    simp only at a6 a7 a8
    have hy : y.cache = [] := by rw [a6]
    have ha : y.al = x.map.al := by rw [a6]
    refine ⟨⟨hk ▸ a1, a2, by omega⟩, a3, a4, ha, fun e => ?_, fun e1 e2 e3 => ?_, fun e1 e2 e3 => ?_, fun e => by rw [(a7 e).1], ?_⟩
    · have hn : y.nodes = [] := by
        by_cases hs : E.pocma ∨ c.map.al = x.map.al
        · exact (a7 hs).2
        · obtain ⟨after, -, -, h3⟩ := a8 (fun e => hs (Or.inl e)) (fun e => hs (Or.inr e))
          have : l = .none := (e.resolve_left (fun e => hs (Or.inl e))).resolve_left (fun e => hs (Or.inr e))
          rw [h3, this]; rfl
      exact ⟨none_inv E hn hy (by omega), none_abs hn⟩
    · obtain ⟨after, h1, h2, h3⟩ := a8 e1 e2
      rw [e3] at h3
      have h3 : y.nodes = after := h3
      subst h3
      exact left_emptied (y := { x with map := y }) h h1 h2 hy ha rfl a5
    · obtain ⟨after, h1, h2, h3⟩ := a8 e1 e2
      rw [e3] at h3
      exact left_full (y := { x with map := y }) h h3 hy ha rfl a5
    · have hnone : y.nodes = [] → (⟨x.kind, y⟩ : Coll V).Weak E w' ∧ ∀ t ∈ (⟨x.kind, y⟩ : Coll V).abs.types, t ∈ x.abs.types := fun hn =>
        ⟨Core.weak E ((none_inv E hn hy (by omega)).core E), fun t ht => by rw [none_abs hn] at ht; cases ht⟩
      by_cases hs : E.pocma ∨ c.map.al = x.map.al
      · exact hnone (a7 hs).2
      · obtain ⟨after, h1, h2, h3⟩ := a8 (fun e => hs (Or.inl e)) (fun e => hs (Or.inr e))
        have key : All2 NodeLeft x.map.nodes y.nodes → (⟨x.kind, y⟩ : Coll V).Weak E w' ∧ ∀ t ∈ (⟨x.kind, y⟩ : Coll V).abs.types, t ∈ x.abs.types := by
          intro hl
          refine ⟨left_weak (y := ⟨x.kind, y⟩) h hl (left_keeps h.map hl hy ha a5) a5, fun t ht => ?_⟩
          have : (⟨x.kind, y⟩ : Coll V).abs.types = x.abs.types := by
            show y.abs.types = x.map.abs.types
            rw [TMap.abs_types, TMap.abs_types]
            exact All2.map_eq (fun a b h => h.seg.frame.ty) hl
          exact this ▸ ht
        cases l with
        | none => exact hnone h3
        | emptied => exact key (by rw [h3]; exact h1)
        | full => exact key (by rw [h3]; exact All2.refl _ (fun a _ => ⟨rfl, rfl, Seg.Left.refl _⟩))
  · rintro e ⟨m, y⟩ w' ⟨a1, a2, a3, a4, a5, a6, a7, a8, a9, a10⟩
    exact ⟨none_inv E a1 a2 (by omega), a3, none_abs a1, none_inv E a4 a5 (by omega), a6, none_abs a4, a8, a9, moveExc E h.map a10⟩

end Coll
end PolyColl
