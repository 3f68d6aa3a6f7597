import Verif.Model.Traversal
import Verif.Lemmas.CollAll
/-! # Traversal -/

namespace PolyColl
open Prog

namespace Spec.State
variable {V : Type}

/-- The position after the one of rank `r` has rank `r + 1`. -/
theorem rank_next {s : State V} {t : Ty} {k : Nat} (hn : s.types.Nodup) (h : s.Valid (some (t, k))) :
    s.rank (s.norm t (k + 1)) = s.rank (some (t, k)) + 1 := by
  obtain ⟨l, h1, h2⟩ := h
  rw [rank_norm hn h1 (by omega)]
  clear hn
  induction s with
  | nil => simp [get] at h1
  | cons p s ih =>
    obtain ⟨u, l'⟩ := p
    simp only [rank]
    by_cases e : u = t
    · simp [e]
    · simp only [if_neg e]
      have : get s t = some l := by
        simp only [get, List.lookup_cons] at h1
        have : (t == u) = false := by simpa using fun h => e h.symm
        simpa [this, get] using h1
      rw [ih this]; omega

theorem typedFlat_snd (s : State V) : s.typedFlat.map Prod.snd = s.flat := by
  induction s with
  | nil => rfl
  | cons p s ih =>
    simp only [typedFlat, flat, List.flatMap_cons, List.map_append, List.map_map] at ih ⊢
    rw [ih]
    congr 1
    exact List.map_id _

theorem typedFlat_length (s : State V) : s.typedFlat.length = s.flat.length := by
  rw [← typedFlat_snd]; simp

theorem typedFlat_rank {s : State V} (hn : s.types.Nodup) {t : Ty} {k : Nat} {v : V} (h : s.at? (some (t, k)) = some v) :
    s.typedFlat[s.rank (some (t, k))]? = some (t, v) := by
  induction s with
  | nil => simp [at?, get] at h
  | cons p s ih =>
    obtain ⟨u, l⟩ := p
    simp only [types, List.map_cons, List.nodup_cons] at hn
    simp only [rank, typedFlat, List.flatMap_cons]
    simp only [at?, get, List.lookup_cons] at h
    by_cases e : u = t
    · subst e
      simp only [beq_self_eq_true, Option.bind_some] at h
      have hk : k < l.length := (List.getElem?_eq_some_iff.1 h).1
      rw [if_pos rfl, List.getElem?_append_left (by simpa using hk), List.getElem?_map, h]; rfl
    · have : (t == u) = false := by simpa using fun h => e h.symm
      simp only [this] at h
      rw [if_neg e, List.getElem?_append_right (by simp), List.length_map, Nat.add_sub_cancel_left]
      exact ih hn.2 h

theorem valid_at {s : State V} {p : Ty × Nat} (h : s.Valid (some p)) : ∃ v, s.at? (some p) = some v := by
  obtain ⟨l, h1, h2⟩ := h
  exact ⟨l[p.2], by simp [at?, h1, h2]⟩

end Spec.State

namespace Coll
variable {V : Type} (E : Env V)

theorem size_abs (c : Coll V) : c.size = c.abs.flat.length := by
  simp only [Coll.size, abs_eq, absNodes, Spec.State.flat, List.length_flatMap, List.map_map]
  rfl

theorem empty_abs (c : Coll V) : c.empty = decide (c.abs.flat = []) := by
  rw [Bool.eq_iff_iff, decide_eq_true_iff]
  simp only [Coll.empty, abs_eq, absNodes, Spec.State.flat]
  generalize c.map.nodes = l
  induction l with
  | nil => simp
  | cons n l ih =>
    simp only [List.all_cons, List.map_cons, List.flatMap_cons, List.append_eq_nil_iff, Seg.empty, Seg.elems, Bool.and_eq_true]
    cases n.seg.be.store.elems <;> simp

/-- Walking from a position to another one. -/
theorem walk_at {c : Coll V} {w : World} (h : c.Inv E w) {last : GIter} {q : Spec.State.Pos} (hl : c.At E last q) :
    ∀ (d : Nat) (it : GIter) (p : Spec.State.Pos) (fuel : Nat), c.At E it p → c.abs.rank q = c.abs.rank p + d → d < fuel →
      c.walk E last it fuel = some ((c.abs.flat.drop (c.abs.rank p)).take d) := by
  have hnd := abs_nodup' E h.map
  intro d
  induction d with
  | zero =>
    intro it p fuel hp hr hf
    obtain ⟨fuel, rfl⟩ : ∃ k, fuel = k + 1 := ⟨fuel - 1, by omega⟩
    have : p = q := Spec.State.rank_inj (hp.valid E h.map) (hl.valid E h.map) (by omega)
    subst this
    simp only [walk, (at_eq E (Inv.core E h) hp hl).2 rfl, if_true, List.take_zero]
  | succ d ih =>
    intro it p fuel hp hr hf
    obtain ⟨fuel, rfl⟩ : ∃ k, fuel = k + 1 := ⟨fuel - 1, by omega⟩
    have hne : p ≠ q := by rintro rfl; omega
    have hne' : it.segpos ≠ last.segpos := fun e => hne ((at_eq E (Inv.core E h) hp hl).1 e)
    cases p with
    | none =>
      have h1 := Spec.State.rank_le (hl.valid E h.map)
      have h2 : c.abs.rank none = c.abs.flat.length := by simp [Spec.State.rank]
      omega
    | some p =>
      obtain ⟨t, k⟩ := p
      obtain ⟨v, hv, hat⟩ := deref_at E (Inv.core E h) hp
      obtain ⟨it', hi, hp'⟩ := increment_at E h hp
      have hval := hp.valid E h.map
      have hrk := Spec.State.rank_next hnd hval
      have hlt := Spec.State.rank_lt hval
      have hget := Spec.State.at_rank hval
      rw [hat] at hget
      simp only [walk, if_neg hne', hv, hi]
      rw [ih it' _ fuel hp' (by omega) (by omega), hrk]
      simp only [Option.map_some]
      rw [List.drop_eq_getElem_cons hlt, List.take_succ_cons]
      have : c.abs.flat[c.abs.rank (some (t, k))] = v := by
        rw [List.getElem?_eq_getElem hlt] at hget; exact Option.some.inj hget
      rw [this]

theorem collect_at {c : Coll V} {w : World} (h : c.Inv E w) (sub : Ty → TI) {last : GIter} {q : Spec.State.Pos} (hl : c.At E last q) :
    ∀ (d : Nat) (it : GIter) (p : Spec.State.Pos) (fuel : Nat), c.At E it p → c.abs.rank q = c.abs.rank p + d → d < fuel →
      ∃ items, c.collect E sub last it fuel = some items ∧
        items.map (fun i => (i.id, i.val)) = ((c.abs.typedFlat.drop (c.abs.rank p)).take d).map (fun x => (sub x.1, x.2)) ∧
        ∀ i ∈ items, i.proto.kind = c.kind ∧ i.id = sub i.proto.ty := by
  have hnd := abs_nodup' E h.map
  intro d
  induction d with
  | zero =>
    intro it p fuel hp hr hf
    obtain ⟨fuel, rfl⟩ : ∃ k, fuel = k + 1 := ⟨fuel - 1, by omega⟩
    have : p = q := Spec.State.rank_inj (hp.valid E h.map) (hl.valid E h.map) (by omega)
    subst this
    exact ⟨[], by simp only [collect, (at_eq E (Inv.core E h) hp hl).2 rfl, if_true], by simp, by simp⟩
  | succ d ih =>
    intro it p fuel hp hr hf
    obtain ⟨fuel, rfl⟩ : ∃ k, fuel = k + 1 := ⟨fuel - 1, by omega⟩
    have hne : p ≠ q := by rintro rfl; omega
    have hne' : it.segpos ≠ last.segpos := fun e => hne ((at_eq E (Inv.core E h) hp hl).1 e)
    cases p with
    | none =>
      have h1 := Spec.State.rank_le (hl.valid E h.map)
      have h2 : c.abs.rank none = c.abs.flat.length := by simp [Spec.State.rank]
      omega
    | some p =>
      obtain ⟨t, k⟩ := p
      obtain ⟨v, hv, hat⟩ := deref_at E (Inv.core E h) hp
      obtain ⟨it', hi, hp'⟩ := increment_at E h hp
      obtain ⟨n, hu, rfl, hk, -⟩ := hp.use
      have hval := hp.valid E h.map
      have hrk := Spec.State.rank_next hnd hval
      have hlt := Spec.State.rank_lt hval
      rw [← Spec.State.typedFlat_length] at hlt
      have hget := Spec.State.typedFlat_rank hnd hat
      obtain ⟨items, g1, g2, g3⟩ := ih it' _ fuel hp' (by omega) (by omega)
      refine ⟨⟨sub n.seg.ty, n.seg, v⟩ :: items, ?_, ?_, ?_⟩
      · simp only [collect, if_neg hne', hv, hi, hu.node? E h.map.ids, g1, Option.map_some]
      · rw [List.drop_eq_getElem_cons hlt, List.take_succ_cons]
        have : c.abs.typedFlat[c.abs.rank (some (n.seg.ty, k))] = (n.seg.ty, v) := by
          rw [List.getElem?_eq_getElem hlt] at hget; exact Option.some.inj hget
        rw [this, List.map_cons, List.map_cons, g2, hrk]
      · intro i hi
        rcases List.mem_cons.1 hi with rfl | hi
        · exact ⟨h.map.kind n hu.mem, rfl⟩
        · exact g3 i hi

/-- Walking a segment. -/
theorem localWalk_base {s : Seg V} {w : World} (h : s.Core E w) : ∀ (d a b fuel : Nat), b = a + d → b ≤ s.size → d < fuel →
    localWalk s (s.base b) (s.base a) fuel = some ((s.elems.drop a).take d) := by
  intro d
  induction d with
  | zero =>
    intro a b fuel hb hs hf
    obtain ⟨fuel, rfl⟩ : ∃ k, fuel = k + 1 := ⟨fuel - 1, by omega⟩
    subst hb
    simp [localWalk]
  | succ d ih =>
    intro a b fuel hb hs hf
    obtain ⟨fuel, rfl⟩ : ∃ k, fuel = k + 1 := ⟨fuel - 1, by omega⟩
    have ha : a < s.elems.length := by rw [← Seg.size_eq]; omega
    have hd := Seg.derefBase E h (k := a) (by omega)
    have hne : s.base a ≠ s.base b := fun e => by have := Seg.base_inj.1 e; omega
    rw [List.getElem?_eq_getElem ha] at hd
    simp only [localWalk, if_neg hne, hd]
    have : (⟨(s.base a).blk, (s.base a).off + 1⟩ : Ptr) = s.base (a + 1) := rfl
    rw [this, ih (a + 1) b fuel (by omega) hs (by omega), List.drop_eq_getElem_cons ha, List.take_succ_cons]
    rfl

/-- Segment traversal from a node on. -/
theorem segWalk_runs {c : Coll V} {w : World} (h : c.map.Inv E c.kind w) : ∀ (l pre : List (Node V)) (it : MapIt) (fuel : Nat),
    c.map.nodes = pre ++ l → (match l with | [] => it = c.map.end | n :: _ => it = c.map.itTo n) → l.length < fuel →
    c.segWalk E it fuel = some (l.map fun n => ⟨n.key, ⟨c.map.itTo n, n.seg.begin⟩, ⟨c.map.itTo n, n.seg.end⟩⟩) := by
  intro l
  induction l with
  | nil =>
    intro pre it fuel hn hit hf
    obtain ⟨fuel, rfl⟩ : ∃ k, fuel = k + 1 := ⟨fuel - 1, by omega⟩
    simp only at hit
    subst hit
    simp [segWalk, TMap.itEq, usable_end E c.map]
  | cons n l ih =>
    intro pre it fuel hn hit hf
    obtain ⟨fuel, rfl⟩ : ∃ k, fuel = k + 1 := ⟨fuel - 1, by omega⟩
    simp only at hit
    subst hit
    have hmem : n ∈ c.map.nodes := by rw [hn]; simp
    have hr := TMap.ref_itTo (m := c.map) hmem
    have he : c.map.itEq E (c.map.itTo n) c.map.end = some false := by
      simp only [TMap.itEq, usable_end E c.map, usable_itTo E c.map n, Bool.and_self, if_true]
      simp [TMap.itTo, TMap.end]
    simp only [segWalk, he, segInfo, hr.node? E h.ids, Option.map_some, TMap.itNext_split E h.ids hn (hr.use E)]
    rw [ih (pre ++ [n]) _ fuel (by simp [hn]) (by cases l <;> rfl) (by simp at hf; omega)]
    rfl

theorem segTraversal_eq {c : Coll V} {w : World} (h : c.map.Inv E c.kind w) :
    c.segTraversal E = some (c.map.nodes.map fun n => ⟨n.key, ⟨c.map.itTo n, n.seg.begin⟩, ⟨c.map.itTo n, n.seg.end⟩⟩) := by
  unfold segTraversal
  refine segWalk_runs E h c.map.nodes [] _ _ (by simp) ?_ (by omega)
  unfold TMap.begin
  cases c.map.nodes <;> rfl

end Coll
end PolyColl
