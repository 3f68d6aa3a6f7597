import Verif.Lemmas.Traverse
import Verif.Lemmas.CollAll
import Verif.Lemmas.Unharmed
/-!
# Traversal of collections with stale ends of segments

If the index of a segment has moved but the cached end has not followed, loops over the collection run
past the elements of this segment.
-/

namespace PolyColl
namespace Coll
variable {V : Type} {E : Env V}

/-- The cached end is no position of the segment. -/
def _root_.PolyColl.Seg.Stale (s : Seg V) : Prop := (∀ k ≤ s.size, s.base k ≠ s.snt) ∧ s.begin.blk ≠ 0

theorem walk_stale_seg {c : Coll V} (hi : (c.map.nodes.map (·.id)).Nodup) {n : Node V} (hn : n ∈ c.map.nodes) (hs : n.seg.Stale) :
    ∀ (d k : Nat), n.seg.size = k + d → ∀ fuel, c.walk E c.end ⟨c.map.itTo n, c.map.end, n.seg.base k⟩ fuel = none := by
  have hr := (TMap.ref_itTo (m := c.map) hn).node? E hi
  intro d
  induction d with
  | zero =>
    intro k hk fuel
    cases fuel with
    | zero => rfl
    | succ fuel =>
      have h0 : ¬ n.seg.base k = c.end.segpos := fun e => hs.2 (congrArg Ptr.blk e)
      have h1 : c.map.increment E ⟨c.map.itTo n, c.map.end, n.seg.base k⟩ = none := by
        unfold TMap.increment
        rw [hr]
        have : ¬ ((n.seg.base k).blk = n.seg.begin.blk ∧ (n.seg.base k).off < n.seg.end.off) := by
          rw [Seg.end_eq]
          simp only [Seg.base]
          omega
        simp only [if_neg this]
      simp only [walk, if_neg h0, h1]
      cases c.map.deref (n.seg.base k) <;> rfl
  | succ d ih =>
    intro k hk fuel
    cases fuel with
    | zero => rfl
    | succ fuel =>
      have h0 : ¬ n.seg.base k = c.end.segpos := fun e => hs.2 (congrArg Ptr.blk e)
      have h1 : c.map.increment E ⟨c.map.itTo n, c.map.end, n.seg.base k⟩ = some ⟨c.map.itTo n, c.map.end, n.seg.base (k + 1)⟩ := by
        unfold TMap.increment
        rw [hr]
        have hb : (n.seg.base k).blk = n.seg.begin.blk ∧ (n.seg.base k).off < n.seg.end.off := by
          rw [Seg.end_eq]
          exact ⟨rfl, (by omega : k < n.seg.size)⟩
        have hx : ¬ (⟨(n.seg.base k).blk, (n.seg.base k).off + 1⟩ : Ptr) = n.seg.sentinel := hs.1 (k + 1) (by omega)
        simp only [if_pos hb, if_neg hx]
        rfl
      simp only [walk, if_neg h0, h1]
      cases c.map.deref (n.seg.base k) with
      | none => rfl
      | some v => simp only [ih (k + 1) (by omega), Option.map_none]

theorem walk_fresh_seg {c : Coll V} {w : World} (hi : (c.map.nodes.map (·.id)).Nodup) {n : Node V} {pre post : List (Node V)}
    (hp : c.map.nodes = pre ++ n :: post) (hc : n.seg.Inv E w) (hpost : ∀ fuel, c.walk E c.end (c.map.nextPosIn post) fuel = none) :
    ∀ (d k : Nat), n.seg.size = k + d + 1 → ∀ fuel, c.walk E c.end ⟨c.map.itTo n, c.map.end, n.seg.base k⟩ fuel = none := by
  have hn : n ∈ c.map.nodes := by rw [hp]; simp
  have hu := TMap.ref_itTo (m := c.map) hn
  have hr := hu.node? E hi
  intro d
  induction d with
  | zero =>
    intro k hk fuel
    cases fuel with
    | zero => rfl
    | succ fuel =>
      have hz := Seg.begin_blk_ne E hc.core (by omega)
      have h0 : ¬ n.seg.base k = c.end.segpos := fun e => hz (congrArg Ptr.blk e)
      have h1 : c.map.increment E ⟨c.map.itTo n, c.map.end, n.seg.base k⟩ = some (c.map.nextPosIn post) := by
        unfold TMap.increment
        rw [hr]
        have hb : (n.seg.base k).blk = n.seg.begin.blk ∧ (n.seg.base k).off < n.seg.end.off := by
          rw [Seg.end_eq]
          exact ⟨rfl, (by omega : k < n.seg.size)⟩
        have hx : (⟨(n.seg.base k).blk, (n.seg.base k).off + 1⟩ : Ptr) = n.seg.sentinel := (snt_iff E hc (k := k + 1)).2 (by omega)
        simp only [if_pos hb, if_pos hx]
        rw [if_pos ⟨usable_end E _, rfl⟩, TMap.itNext_split E hi hp (hu.use E)]
        cases post with
        | nil => rfl
        | cons b post =>
          have hb : b ∈ c.map.nodes := by rw [hp]; simp
          have hrb := (TMap.ref_itTo (m := c.map) hb).node? E hi
          show c.map.iter2 E (c.map.itTo b) = _
          unfold TMap.iter2
          simp only [hrb]
          rw [TMap.nodesFrom_split hi (pre := pre ++ [n]) (post := post) (n := b) (by simp [hp])]
          rfl
      simp only [walk, if_neg h0, h1]
      cases c.map.deref (n.seg.base k) with
      | none => rfl
      | some v => simp only [hpost, Option.map_none]
  | succ d ih =>
    intro k hk fuel
    cases fuel with
    | zero => rfl
    | succ fuel =>
      have hz := Seg.begin_blk_ne E hc.core (by omega)
      have h0 : ¬ n.seg.base k = c.end.segpos := fun e => hz (congrArg Ptr.blk e)
      have h1 : c.map.increment E ⟨c.map.itTo n, c.map.end, n.seg.base k⟩ = some ⟨c.map.itTo n, c.map.end, n.seg.base (k + 1)⟩ := by
        unfold TMap.increment
        rw [hr]
        have hb : (n.seg.base k).blk = n.seg.begin.blk ∧ (n.seg.base k).off < n.seg.end.off := by
          rw [Seg.end_eq]
          exact ⟨rfl, (by omega : k < n.seg.size)⟩
        have hx : ¬ (⟨(n.seg.base k).blk, (n.seg.base k).off + 1⟩ : Ptr) = n.seg.sentinel := fun e => by
          have := (snt_iff E hc (k := k + 1)).1 e
          omega
        simp only [if_pos hb, if_neg hx]
        rfl
      simp only [walk, if_neg h0, h1]
      cases c.map.deref (n.seg.base k) with
      | none => rfl
      | some v => simp only [ih (k + 1) (by omega), Option.map_none]

theorem walk_stale_in {c : Coll V} {w : World} (hi : (c.map.nodes.map (·.id)).Nodup) (hf : ∀ n ∈ c.map.nodes, n.seg.Inv E w ∨ n.seg.Stale) :
    ∀ (l pre : List (Node V)), c.map.nodes = pre ++ l → (∃ n ∈ l, n.seg.Stale) → ∀ fuel, c.walk E c.end (c.map.nextPosIn l) fuel = none := by
  intro l
  induction l with
  | nil =>
    rintro pre hp ⟨n, hn, -⟩
    simp at hn
  | cons n l ih =>
    intro pre hp hex fuel
    have hn : n ∈ c.map.nodes := by rw [hp]; simp
    by_cases hs : n.seg.Stale
    · have hne : n.seg.begin ≠ n.seg.sentinel := by rw [← Seg.base_zero]; exact hs.1 0 (Nat.zero_le _)
      simp only [TMap.nextPosIn, if_pos hne]
      rw [← Seg.base_zero]
      exact walk_stale_seg hi hn hs n.seg.size 0 (by omega) fuel
    · have hinv := (hf n hn).resolve_right hs
      have hl : ∃ n ∈ l, n.seg.Stale := by
        obtain ⟨m, hm, hms⟩ := hex
        rcases List.mem_cons.1 hm with rfl | hm
        · exact absurd hms hs
        · exact ⟨m, hm, hms⟩
      have hih := ih (pre ++ [n]) (by simp [hp]) hl
      have hsi := snt_iff E hinv (k := 0)
      rw [Seg.base_zero] at hsi
      by_cases he : n.seg.begin = n.seg.sentinel
      · simp only [TMap.nextPosIn, he, ne_eq, not_true, if_false]
        exact hih fuel
      · simp only [TMap.nextPosIn, if_pos (show n.seg.begin ≠ n.seg.sentinel from he)]
        have : n.seg.size ≠ 0 := fun e => he (hsi.2 e.symm)
        rw [← Seg.base_zero]
        exact walk_fresh_seg hi hp hinv hih (n.seg.size - 1) 0 (by omega) fuel

/-- With a stale segment, the loop `for(auto it=c.begin();it!=c.end();++it)` always runs past the elements. -/
theorem walk_stale {c : Coll V} {w : World} (hi : (c.map.nodes.map (·.id)).Nodup) (hf : ∀ n ∈ c.map.nodes, n.seg.Inv E w ∨ n.seg.Stale)
    (hs : ∃ n ∈ c.map.nodes, n.seg.Stale) : ∃ it, c.begin E = some it ∧ ∀ fuel, c.walk E c.end it fuel = none := by
  have h := walk_stale_in hi hf c.map.nodes [] rfl hs
  refine ⟨c.map.nextPosIn c.map.nodes, ?_, h⟩
  unfold begin TMap.begin TMap.iter2
  cases hn : c.map.nodes with
  | nil => rfl
  | cons n l =>
    have hr := (TMap.ref_itTo (m := c.map) (n := n) (by simp [hn])).node? E hi
    have h1 : c.map.node? E ⟨some n.id, c.map.gen⟩ = some n := hr
    simp only [TMap.itTo, h1]
    rw [TMap.nodesFrom_split hi (pre := []) (post := l) (n := n) (by simp [hn])]

theorem _root_.PolyColl.Seg.begin_eq (s : Seg V) : s.begin = ⟨s.begin.blk, 0⟩ := by
  obtain ⟨be, snt⟩ := s
  cases be <;> rfl

theorem _root_.PolyColl.Seg.Core.inz {s : Seg V} {w : World} (h : s.Core E w) (hk : s.kind = .split) : s.begin.blk ≠ 0 := by
  obtain ⟨be, snt⟩ := s
  cases be with
  | packed y => cases hk
  | split y => exact Split.Inv.inz E h

/-- A segment whose cached end is that of before. -/
theorem _root_.PolyColl.Seg.Inv.fresh {s s' : Seg V} {w w' : World} (h : s.Inv E w) (h' : s'.Core E w') (he : s'.elems = s.elems) (hs : s'.snt = s.snt) :
    s'.begin = s.begin → s'.Inv E w' := by
  intro hb
  refine ⟨h', ?_⟩
  rw [hs, h.snt, Seg.end_eq, Seg.end_eq, Seg.base, Seg.base, hb, Seg.size_eq, Seg.size_eq, he]

theorem _root_.PolyColl.Seg.Inv.stale {s s' : Seg V} {w w' : World} (h : s.Inv E w) (h' : s'.Core E w') (hk : s'.kind = .split) (hs : s'.snt = s.snt) :
    s'.begin ≠ s.begin → s'.Stale := by
  intro hb
  refine ⟨fun k _ e => hb ?_, h'.inz hk⟩
  have e : s'.begin.blk = s'.snt.blk := by rw [← e]; rfl
  rw [Seg.begin_eq s', e, hs, h.snt, Seg.end_eq, Seg.begin_eq s]
  rfl

/-- If the cached end of one segment only has not been refreshed, it matters whether the index has moved. -/
theorem stale_put {c : Coll V} {w w' : World} (hc : c.Inv E w) {m : Node V} (hm : m ∈ c.map.nodes) {s : Seg V} (h' : (c.put m s).Core E w')
    (hw : w.next ≤ w'.next) (hk : s.kind = .split) (he : s.elems = m.seg.elems) (hs : s.snt = m.seg.snt) :
    (s.begin = m.seg.begin → (c.put m s).Inv E w') ∧
    (s.begin ≠ m.seg.begin → ∃ it, (c.put m s).begin E = some it ∧ ∀ fuel, (c.put m s).walk E (c.put m s).end it fuel = none) := by
  have hmi := hc.mem.segs m hm
  have hi := hc.map.ids
  constructor
  · intro hb
    refine Core.inv E h' fun n hn => ?_
    rcases (TMap.mem_put_iff hi hm).1 hn with ⟨h1, -⟩ | rfl
    · exact (hc.mem.segs n h1).snt
    · exact (hmi.fresh (h'.mem.segs _ hn) he hs hb).snt
  · intro hb
    refine walk_stale (w := w') h'.map.ids (fun n hn => ?_) ⟨_, TMap.put_mem hm, hmi.stale (h'.mem.segs _ (TMap.put_mem hm)) hk hs hb⟩
    rcases (TMap.mem_put_iff hi hm).1 hn with ⟨h1, -⟩ | rfl
    · exact Or.inl ((hc.mem.segs n h1).weaken E hw)
    · exact Or.inr (hmi.stale (h'.mem.segs _ hn) hk hs hb)

end Coll
end PolyColl
