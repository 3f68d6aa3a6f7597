import Verif.Spec.Effort
import Verif.Lemmas.WorkSession
import Verif.Lemmas.Pieces
/-! # The work of traversing and erasing -/

namespace PolyColl
open Prog

namespace TMap
variable {V : Type} (E : Env V)

theorem nextPosInE_fst (m : TMap V) (l : List (Node V)) : (m.nextPosInE l).1 = m.nextPosIn l := by
  induction l with
  | nil => rfl
  | cons n l ih =>
    unfold nextPosInE nextPosIn
    split
    · rfl
    · exact ih

theorem iter2E_fst (m : TMap V) (it : MapIt) : (m.iter2E E it).map (·.1) = m.iter2 E it := by
  unfold iter2E iter2
  cases it.node with
  | none => rfl
  | some i =>
    cases m.node? E it with
    | none => rfl
    | some n => exact congrArg some (nextPosInE_fst m _)

theorem iter3E_fst (m : TMap V) (it : MapIt) (p : Ptr) : (m.iter3E E it p).map (·.1) = m.iter3 E it p := by
  unfold iter3E iter3
  cases it.node with
  | none => rfl
  | some i =>
    cases m.node? E it with
    | none => rfl
    | some n =>
      dsimp only
      by_cases hp : p = n.seg.sentinel
      · rw [if_pos hp, if_pos hp]
        cases m.itNext E it with
        | none => rfl
        | some it' => exact iter2E_fst E m it'
      · rw [if_neg hp, if_neg hp]; rfl

theorem iteratorFromE_fst (m : TMap V) (l : LIter) (e : MapIt) : (m.iteratorFromE E l e).map (·.1) = m.iteratorFrom E l e := by
  unfold iteratorFromE iteratorFrom
  by_cases h : m.usable E e = true ∧ e.node = none
  · rw [if_pos h, if_pos h, ← iter3E_fst E m l.mapit l.pos]
    cases m.iter3E E l.mapit l.pos <;> rfl
  · rw [if_neg h, if_neg h]; rfl

theorem incrementE_fst (m : TMap V) (it : GIter) : (m.incrementE E it).map (·.1) = m.increment E it := by
  unfold incrementE increment
  cases m.node? E it.mapit with
  | none => rfl
  | some n =>
    dsimp only
    by_cases h1 : it.segpos.blk = n.seg.begin.blk ∧ it.segpos.off < n.seg.end.off
    · rw [if_pos h1, if_pos h1]
      by_cases h2 : (⟨it.segpos.blk, it.segpos.off + 1⟩ : Ptr) = n.seg.sentinel
      · rw [if_pos h2, if_pos h2]
        by_cases h3 : m.usable E it.mapend = true ∧ it.mapend.node = none
        · rw [if_pos h3, if_pos h3]
          cases m.itNext E it.mapit with
          | none => rfl
          | some it' => exact iter2E_fst E m it'
        · rw [if_neg h3, if_neg h3]; rfl
      · rw [if_neg h2, if_neg h2]; rfl
    · rw [if_neg h1, if_neg h1]; rfl

end TMap

namespace Coll
open Work
variable {V : Type} (E : Env V)

/-- Leave out the numbers. -/
def Forgets {X α β : Type} (p : Prog X (α × β)) (q : Prog X α) : Prop := ∀ x w, Prog.bind p (fun r => Prog.pure r.1) x w = q x w

theorem Forgets.runs {X α β : Type} {p : Prog X (α × β)} {q : Prog X α} (h : Forgets p q) {x : X} {w : World} {Q R}
    (hq : Runs q x w Q R) : Runs p x w (fun r => Q r.1) R := by
  have := h x w
  unfold Runs at hq ⊢
  rw [← this] at hq
  unfold Prog.bind at hq
  cases hp : p x w with
  | ok r y w' => rw [hp] at hq; exact hq
  | exc e y w' => rw [hp] at hq; exact hq
  | ub => rw [hp] at hq; exact hq

theorem Forgets.bind {X α β γ δ : Type} {p : Prog X (α × β)} {q : Prog X α} (h : Forgets p q) {f : α × β → Prog X (γ × δ)} {g : α → Prog X γ}
    (hf : ∀ r, Forgets (f r) (g r.1)) : Forgets (p >>= f) (q >>= g) := by
  intro x w
  show Prog.bind (Prog.bind p f) _ x w = Prog.bind q g x w
  have h1 := h x w
  unfold Prog.bind at h1 ⊢
  cases hp : p x w with
  | ok r y w' =>
    rw [hp] at h1
    rw [← h1]
    exact hf r y w'
  | exc e y w' => rw [hp] at h1; rw [← h1]
  | ub => rw [hp] at h1; rw [← h1]

theorem Forgets.bind' {X α γ δ : Type} {p : Prog X α} {f : α → Prog X (γ × δ)} {g : α → Prog X γ}
    (hf : ∀ r, Forgets (f r) (g r)) : Forgets (p >>= f) (p >>= g) := by
  intro x w
  show Prog.bind (Prog.bind p f) _ x w = Prog.bind p g x w
  unfold Prog.bind
  cases hp : p x w with
  | ok r y w' => exact hf r y w'
  | exc e y w' => rfl
  | ub => rfl

theorem Forgets.pure {X α β : Type} (a : α) (b : β) : Forgets (Pure.pure (a, b) : Prog X (α × β)) (Pure.pure a) := fun _ _ => rfl

theorem Forgets.undef {X α β : Type} : Forgets (Prog.undef : Prog X (α × β)) Prog.undef := fun _ _ => rfl

theorem Forgets.ofOption {X α β : Type} {o : Option (α × β)} {o' : Option α} (h : o.map (·.1) = o') :
    Forgets (Prog.ofOption o : Prog X (α × β)) (Prog.ofOption o') := by
  subst h
  cases o <;> exact fun _ _ => rfl

theorem Forgets.tail {X α β δ : Type} {p : Prog X (α × β)} {q : Prog X α} (h : Forgets p q) (f : α × β → δ) :
    Forgets (p >>= fun r => Pure.pure (r.1, f r)) q := by
  intro x w
  show Prog.bind (Prog.bind p fun r => Prog.pure (r.1, f r)) _ x w = q x w
  have h1 := h x w
  unfold Prog.bind at h1 ⊢
  cases hp : p x w with
  | ok r y w' => rw [hp] at h1; exact h1
  | exc e y w' => rw [hp] at h1; exact h1
  | ub => rw [hp] at h1; exact h1

theorem retIterE_forgets (it e : MapIt) (p : Ptr) : Forgets (retIterE E it e p) (retIterEnd E it e p) := by
  unfold retIterE retIterEnd
  exact Forgets.bind' fun c => Forgets.ofOption (TMap.iteratorFromE_fst E (Coll.map c) ⟨it, p⟩ e)

theorem onSegE_forgets {α : Type} (it : MapIt) (op : SegOp V) (p : Prog (Seg V) α) : Forgets (onSegE E it op p) (onMap (TMap.onSeg E it p)) := by
  intro c w
  show _ = Prog.zoom _ _ _ c w
  unfold onSegE onMap
  simp only [Bind.bind, Prog.bind, Prog.get]
  cases hn : c.map.node? E it with
  | none =>
    simp only [Prog.ofOption, Prog.undef, Prog.zoom, TMap.onSeg, hn]
  | some n =>
    simp only [Prog.ofOption, Prog.pure]
    cases hz : Prog.zoom (fun c : Coll V => c.map) (fun c m => { c with map := m }) (TMap.onSeg E it p) c w <;> rfl

theorem eraseE_forgets (pos : GIter) : Forgets (eraseE E pos) (erase E pos) := by
  unfold eraseE erase
  exact Forgets.bind (onSegE_forgets E _ _ _) fun r => Forgets.tail (retIterE_forgets E pos.mapit pos.mapend r.1) _

theorem eraseSpanE_forgets (lseg mapend : MapIt) (lastPos : Ptr) : ∀ (fuel : Nat) (fseg : MapIt),
    Forgets (eraseSpanE E fseg lseg mapend lastPos fuel) (eraseSpan E fseg lseg mapend lastPos fuel)
  | 0, _ => Forgets.undef
  | fuel + 1, fseg => by
    unfold eraseSpanE eraseSpan
    refine Forgets.bind' fun c => Forgets.bind' fun f => Forgets.bind' fun same => ?_
    split
    · refine Forgets.bind' fun last => ?_
      split
      · exact Forgets.pure _ _
      · exact Forgets.bind (onSegE_forgets E _ _ _) fun r => Forgets.tail (retIterE_forgets E f mapend r.1) _
    · exact Forgets.bind (onSegE_forgets E _ _ _) fun r => Forgets.tail (eraseSpanE_forgets lseg mapend lastPos fuel f) _

theorem eraseRangeE_forgets (first last : GIter) : Forgets (eraseRangeE E first last) (eraseRange E first last) := by
  unfold eraseRangeE eraseRange
  refine Forgets.bind' fun c => Forgets.bind' fun same => ?_
  split
  · split
    · exact Forgets.tail (retIterE_forgets E _ _ _) _
    · exact Forgets.bind (onSegE_forgets E _ _ _) fun r => Forgets.tail (retIterE_forgets E _ _ r.1) _
  · exact Forgets.bind (onSegE_forgets E _ _ _) fun r => Forgets.tail (eraseSpanE_forgets E _ _ _ _ _) _

end Coll

/-! ### Segments looked at -/

namespace Spec.State
variable {V : Type}

theorem toFirst_ahead (s : State V) : ∀ A : State V, (A ++ s).types.Nodup → s.toFirst + (A ++ s).ahead s.first = s.length := by
  induction s with
  | nil => intro A _; rfl
  | cons p s ih =>
    obtain ⟨t, l⟩ := p
    intro A h
    unfold toFirst first
    by_cases hl : l = []
    · rw [if_pos hl, if_pos hl]
      have := ih (A ++ [(t, l)]) (by simpa using h)
      simp only [List.append_assoc, List.cons_append, List.nil_append] at this
      simp only [List.length_cons]
      omega
    · rw [if_neg hl, if_neg hl]
      have ht := (split_nodup h).1
      unfold ahead
      dsimp only
      rw [after_split ht]
      simp only [List.length_cons]
      omega

/-- Looking for the element that comes at or after a place. -/
theorem norm_ahead {s : State V} (hn : s.types.Nodup) {t : Ty} {l : List V} (hg : s.get t = some l) (k : Nat) :
    (if k < l.length then 0 else (s.after t).toFirst) + s.ahead (s.norm t k) = (s.after t).length := by
  obtain ⟨A, B, rfl⟩ := List.append_of_mem ((get_some hn).1 hg)
  have ht := (split_nodup hn).1
  unfold norm
  rw [hg]
  dsimp only
  by_cases hk : k < l.length
  · rw [if_pos hk, if_pos hk]
    unfold ahead
    dsimp only
    omega
  · rw [if_neg hk, if_neg hk, after_split ht]
    have := toFirst_ahead B (A ++ [(t, l)]) (by simpa using hn)
    simpa using this

end Spec.State

namespace Coll
open Work
variable {V : Type} (E : Env V)

theorem nextPosInE_snd {c : Coll V} {w : World} (h : c.Inv E w) (l : List (Node V)) (hl : ∀ n ∈ l, n ∈ c.map.nodes) :
    (c.map.nextPosInE l).2 = (absNodes l).toFirst := by
  induction l with
  | nil => rfl
  | cons n l ih =>
    have hn := hl n (by simp)
    have hs := snt_iff E (h.mem.segs n hn) (k := 0)
    rw [Seg.base_zero] at hs
    simp only [TMap.nextPosInE, absNodes, List.map_cons, Spec.State.toFirst]
    by_cases he : n.seg.elems = []
    · have hz : n.seg.begin = n.seg.sentinel := hs.2 (by simp [Seg.size_eq, he])
      simp only [hz, he, ne_eq, not_true, if_false, if_true]
      exact congrArg (· + 1) (ih (fun a ha => hl a (by simp [ha])))
    · have hlen : 0 < n.seg.size := by rw [Seg.size_eq]; exact List.length_pos_iff.2 he
      have hz : n.seg.begin ≠ n.seg.sentinel := fun e => by have := hs.1 e; omega
      simp only [hz, he, ne_eq, not_false_eq_true, if_true, if_false]

theorem beginE_eq {c : Coll V} {w : World} (h : c.Inv E w) : ∃ it, c.beginE E = some (it, c.abs.toFirst) ∧ c.At E it c.abs.first := by
  obtain ⟨it, h1, h2⟩ := begin_at E h
  have hf := TMap.iter2E_fst E c.map c.map.begin
  unfold begin at h1
  rw [h1] at hf
  refine ⟨it, ?_, h2⟩
  suffices hs : (c.beginE E).map (·.2) = some c.abs.toFirst by
    unfold beginE at hs ⊢
    cases hb : c.map.iter2E E c.map.begin with
    | none => rw [hb] at hf; cases hf
    | some r =>
      rw [hb] at hf hs
      simp only [Option.map_some, Option.some.injEq] at hf hs ⊢
      exact Prod.ext hf hs
  clear hf h1 h2 it
  unfold beginE TMap.begin TMap.iter2E
  rw [abs_eq]
  cases hn : c.map.nodes with
  | nil => rfl
  | cons n l =>
    have hr := TMap.ref_itTo (m := c.map) (n := n) (by simp [hn])
    simp only [TMap.itTo]
    have h1 : c.map.node? E ⟨some n.id, c.map.gen⟩ = some n := hr.node? E h.map.ids
    simp only [h1]
    rw [TMap.nodesFrom_split h.map.ids (pre := []) (post := l) (n := n) (by simp [hn]), Option.map_some,
      nextPosInE_snd E h _ (by intro a ha; rw [hn]; exact ha)]

theorem iter2E_next {c : Coll V} {w : World} (h : c.Inv E w) {it : MapIt} {n : Node V} (hu : c.map.Use E it n) :
    ∃ it', c.map.itNext E it = some it' ∧ (c.map.iter2E E it').map (·.2) = some (c.abs.after n.seg.ty).toFirst := by
  obtain ⟨pre, post, hp⟩ := List.append_of_mem hu.mem
  have hnx := TMap.itNext_split E h.map.ids hp hu
  refine ⟨_, hnx, ?_⟩
  have hnd := h.map.nodup_ty E
  rw [abs_eq]
  have hafter : (absNodes c.map.nodes).after n.seg.ty = absNodes post := by
    rw [hp] at hnd ⊢
    exact after_split hnd rfl
  rw [hafter]
  cases post with
  | nil => rfl
  | cons b post =>
    have hb : b ∈ c.map.nodes := by rw [hp]; simp
    have hr := TMap.ref_itTo (m := c.map) hb
    unfold TMap.iter2E
    have h1 : c.map.node? E ⟨some b.id, c.map.gen⟩ = some b := hr.node? E h.map.ids
    simp only [TMap.itTo, h1]
    rw [TMap.nodesFrom_split h.map.ids (pre := pre ++ [n]) (post := post) (n := b) (by simp [hp]), Option.map_some,
      nextPosInE_snd E h _ (by intro a ha; rw [hp]; simp only [List.mem_append, List.mem_cons] at ha ⊢; exact Or.inr (Or.inr ha))]

theorem pair_of {α β : Type} {o : Option (α × β)} {a : α} {b : β} (h1 : o.map (·.1) = some a) (h2 : o.map (·.2) = some b) : o = some (a, b) := by
  cases o with
  | none => cases h1
  | some r =>
    simp only [Option.map_some, Option.some.injEq] at h1 h2 ⊢
    exact Prod.ext h1 h2

theorem iter3E_eq {c : Coll V} {w : World} (h : c.Inv E w) {it : MapIt} {n : Node V} (hu : c.map.Use E it n) {k : Nat}
    (hk : k ≤ n.seg.size) : ∃ g, c.map.iter3E E it (n.seg.base k) = some (g, if k < n.seg.size then 0 else (c.abs.after n.seg.ty).toFirst) ∧
      c.At E g (c.abs.norm n.seg.ty k) := by
  obtain ⟨g, h1, h2⟩ := iter3_at E h hu hk
  refine ⟨g, pair_of ((TMap.iter3E_fst E c.map it _).trans h1) ?_, h2⟩
  unfold TMap.iter3E
  rw [hu.node]
  simp only [hu.node? E h.map.ids]
  have hs := snt_iff E (h.mem.segs n hu.mem) (k := k)
  by_cases he : k = n.seg.size
  · obtain ⟨it', h3, h4⟩ := iter2E_next E h hu
    rw [if_pos (hs.2 he), if_neg (by omega)]
    simp only [h3]
    exact h4
  · rw [if_neg (fun e => he (hs.1 e)), if_pos (by omega)]
    rfl

theorem incrementE_eq {c : Coll V} {w : World} (h : c.Inv E w) {it : GIter} {t : Ty} {k : Nat} (ha : c.At E it (some (t, k))) :
    ∃ it', c.map.incrementE E it = some (it', if k + 1 < (c.abs.elemsOf t).length then 0 else (c.abs.after t).toFirst) ∧
      c.At E it' (c.abs.norm t (k + 1)) := by
  obtain ⟨it', g1, g2⟩ := increment_at E h ha
  refine ⟨it', pair_of ((TMap.incrementE_fst E c.map it).trans g1) ?_, g2⟩
  obtain ⟨n, hu, rfl, hk, hp⟩ := ha.use
  have hel : n.seg.elems = c.abs.elemsOf n.seg.ty := (Ens.refl E h.map hu.mem).elems E h.map
  rw [← hel, ← Seg.size_eq]
  have hs := h.mem.segs n hu.mem
  have hnt := snt_iff E hs (k := k + 1)
  unfold TMap.incrementE
  rw [hu.node? E h.map.ids]
  have hb : it.segpos.blk = n.seg.begin.blk ∧ it.segpos.off < n.seg.end.off := by
    rw [hp, Seg.end_eq]; exact ⟨rfl, hk⟩
  have hp1 : (⟨it.segpos.blk, it.segpos.off + 1⟩ : Ptr) = n.seg.base (k + 1) := by rw [hp]; rfl
  simp only [if_pos hb, hp1]
  by_cases he : k + 1 = n.seg.size
  · obtain ⟨it', h1, h2⟩ := iter2E_next E h hu
    rw [if_pos (hnt.2 he), if_pos ⟨ha.endUsable, ha.endNode⟩, if_neg (by omega)]
    simp only [h1]
    exact h2
  · rw [if_neg (fun e => he (hnt.1 e)), if_pos (by omega)]
    rfl

/-! ### Work on elements -/

theorem eraseRun_eq {x : Seg V} {w : World} (hx : x.Core E w) {a b : Nat} (hab : a ≤ b) (hb : b ≤ x.size) :
    (Shape.run (fun _ => VShape.eraseRange a b) (SShape.eraseRange a b) (shape E x)).2 =
      ((b - a) + if a = b then 0 else x.size - b) + x.kind.entries (b - a) := by
  cases hbe : x.be with
  | packed y =>
    have hk : x.kind = .packed := by unfold Seg.kind; rw [hbe]; rfl
    rw [shape_packed hbe, hk]
    unfold Shape.run VShape.eraseRange Kind.entries
    dsimp only
    split <;> omega
  | split y =>
    have hk : x.kind = .split := by unfold Seg.kind; rw [hbe]; rfl
    have hok := split_sizes hx hbe
    rw [shape_split hbe, hk]
    have := (eraseRange_cost hok hab hb).1
    show (SShape.eraseRange a b _).2 = _
    rw [this]
    unfold Kind.entries
    dsimp only
    split <;> omega

theorem eraseBase_eq {x : Seg V} {w : World} (hx : x.Core E w) {n : Nat} (hn : n < x.size) :
    work E (.eraseBase n) x = 1 + (x.size - (n + 1)) + x.kind.entries 1 := by
  unfold work SegOp.meter
  cases hbe : x.be with
  | packed y =>
    have hk : x.kind = .packed := by unfold Seg.kind; rw [hbe]; rfl
    rw [shape_packed hbe, hk]
    unfold Shape.run VShape.eraseRange Kind.entries
    dsimp only
    split <;> omega
  | split y =>
    have hk : x.kind = .split := by unfold Seg.kind; rw [hbe]; rfl
    have hok := split_sizes hx hbe
    rw [shape_split hbe, hk]
    have := (erase_cost hok hn).1
    show (SShape.erase n _).2 = _
    rw [this]
    unfold Kind.entries
    dsimp only
    omega

theorem eraseRangeBase_eq {x : Seg V} {w : World} (hx : x.Core E w) {a b : Nat} (hab : a < b) (hb : b ≤ x.size) :
    work E (.eraseRangeBase a b) x = ((b - a) + (x.size - b)) + x.kind.entries (b - a) := by
  have := eraseRun_eq E hx (Nat.le_of_lt hab) hb
  rw [if_neg (by omega)] at this
  exact this

theorem eraseTillEnd_eq {x : Seg V} {w : World} (hx : x.Core E w) {a : Nat} (ha : a ≤ x.size) :
    work E (.eraseTillEnd a) x = (x.size - a) + x.kind.entries (x.size - a) := by
  have := eraseRun_eq E hx ha (Nat.le_refl _)
  have e : (if a = x.size then 0 else x.size - x.size) = 0 := by split <;> omega
  rw [e, Nat.add_zero] at this
  have hs : (shape E x).size = x.size := shape_size E x
  unfold work SegOp.meter
  dsimp only
  rw [hs]
  exact this

theorem eraseFromBegin_eq {x : Seg V} {w : World} (hx : x.Core E w) {b : Nat} (hb : b ≤ x.size) :
    work E (.eraseFromBegin b) x = (if b = 0 then 0 else x.size) + x.kind.entries b := by
  have := eraseRun_eq E hx (Nat.zero_le b) hb
  refine Eq.trans this ?_
  rw [Nat.sub_zero]
  split
  · rw [if_pos (by omega)]; omega
  · rw [if_neg (by omega)]; omega

theorem clear_eq {x : Seg V} {w : World} (hx : x.Core E w) : work E .clear x = x.size + x.kind.entries x.size := by
  unfold work SegOp.meter
  cases hbe : x.be with
  | packed y =>
    have hk : x.kind = .packed := by unfold Seg.kind; rw [hbe]; rfl
    rw [shape_packed hbe, hk]
    rfl
  | split y =>
    have hk : x.kind = .split := by unfold Seg.kind; rw [hbe]; rfl
    have hok := split_sizes hx hbe
    rw [shape_split hbe, hk]
    have := (clear_cost hok).1
    show (SShape.clear _).2 = _
    rw [this]
    show 2 * x.size = x.size + x.size
    omega

theorem entries_add (k : Kind) (a b : Nat) : k.entries (a + b) = k.entries a + k.entries b := by cases k <;> rfl

theorem entries_le (k : Kind) (a : Nat) : k.entries a ≤ a := by
  cases k
  · exact Nat.zero_le _
  · exact Nat.le_refl _

/-! ### Erasure -/

theorem runs_onSegE {α : Type} {it : MapIt} {op : SegOp V} {p : Prog (Seg V) α} {c : Coll V} {w : World} {n : Node V}
    {Q : α × Nat → Coll V → World → Prop} {R : Exc → Coll V → World → Prop}
    (hi : (c.map.nodes.map (·.id)).Nodup) (h : c.map.Use E it n)
    (hr : Runs p n.seg w (fun a s w' => Q (a, work E op n.seg) (c.put n s) w') (fun e s w' => R e (c.put n s) w')) :
    Runs (onSegE E it op p) c w Q R := by
  unfold onSegE
  simp only [runs_bind, runs_get, h.node? E hi, runs_some, runs_pure]
  exact (runs_onSegU E hi h).2 hr

theorem retIterE_runs {c : Coll V} {w : World} (h : c.Inv E w) {it : MapIt} {n : Node V} (hu : c.map.Use E it n) {e : MapIt}
    (he : c.map.usable E e = true) (hn : e.node = none) {k : Nat} (hk : k ≤ n.seg.size) {R : Exc → Coll V → World → Prop} :
    Runs (retIterE E it e (n.seg.base k)) c w
      (fun r c' w' => c' = c ∧ w' = w ∧ r.2 = (if k < n.seg.size then 0 else (c.abs.after n.seg.ty).toFirst) ∧ c.At E r.1 (c.abs.norm n.seg.ty k)) R := by
  obtain ⟨g, h1, h2⟩ := iter3E_eq E h hu hk
  unfold retIterE TMap.iteratorFromE
  simp only [runs_bind, runs_get, he, hn, and_self, if_true, h1, Option.map_some, runs_some]
  exact ⟨by trivial, by trivial, by trivial, setEnd_at E h2 he hn⟩

/-- Segments after one that was changed are as before. -/
theorem after_put {c : Coll V} {w : World} (hc : c.map.Inv E c.kind w) {n : Node V} (hn : n ∈ c.map.nodes) {s : Seg V} (hty : s.ty = n.seg.ty) :
    (c.put n s).abs.after n.seg.ty = c.abs.after n.seg.ty := by
  obtain ⟨pre, post, hp⟩ := List.append_of_mem hn
  have hnd := hc.nodup_ty E
  have hput := put_split (s := s) hc.ids hp
  rw [abs_split hput, abs_split hp]
  rw [hp] at hnd
  rw [after_split hnd rfl, after_split (n := { n with seg := s }) (by simpa [hty] using hnd) hty]

theorem eraseE_runs (pos : GIter) (t : Ty) (k : Nat) (c : Coll V) (w : World) (hc : c.Inv E w) (hp : c.At E pos (some (t, k))) :
    Runs (eraseE E pos) c w
      (fun r _ _ => r.2.segs = (if k + 1 < (c.abs.elemsOf t).length then 0 else (c.abs.after t).toFirst) ∧
        r.2.els = 1 + ((c.abs.elemsOf t).length - (k + 1)) + c.kind.entries 1) (fun _ _ _ => True) := by
  have heu := hp.endUsable
  have hen := hp.endNode
  obtain ⟨n, hu, rfl, hk, hp⟩ := hp.use
  have hel : n.seg.elems = c.abs.elemsOf n.seg.ty := (Ens.refl E hc.map hu.mem).elems E hc.map
  rw [← hel, ← Seg.size_eq]
  unfold eraseE
  rw [runs_bind]
  refine runs_onSegE E hc.map.ids hu ?_
  rw [hp]
  have hcore := (hc.mem.segs n hu.mem).core
  refine (Seg.eraseBase_runs E n.seg w hcore k hk).mono ?_ (fun _ _ _ _ => trivial)
  rintro r s w' ⟨h1, rfl⟩
  have hle : (n.seg.elems.eraseIdx k).length = n.seg.size - 1 := by
    rw [List.length_eraseIdx, if_pos (by rw [← Seg.size_eq]; exact hk), Seg.size_eq]
  have hr := Removed.one E hc hu.mem h1 (by omega)
  have hu' := put_use_self E (s := s) hu
  have hsz : s.size = n.seg.size - 1 := by rw [Seg.size_eq, h1.elems, hle]
  dsimp only
  rw [runs_bind]
  refine (retIterE_runs E hr.inv hu' (by rw [hr.upd.usable]; exact heu) hen (k := k) (show k ≤ s.size by omega)).mono ?_ (fun _ _ _ h => h)
  rintro r c' w'' ⟨rfl, rfl, h2, -⟩
  rw [runs_pure]
  have hty : ({ n with seg := s } : Node V).seg.ty = n.seg.ty := h1.step.ty
  rw [hty, after_put E hc.map hu.mem h1.step.ty] at h2
  refine ⟨?_, (hc.map.kind n hu.mem) ▸ eraseBase_eq E hcore hk⟩
  dsimp only
  rw [h2]
  dsimp only
  by_cases h : k + 1 < n.seg.size
  · rw [if_pos h, if_pos (by omega)]
  · rw [if_neg h, if_neg (by omega)]

/-- The loop over the segments strictly between first and last, and the last one. -/
theorem eraseSpanE_runs (lseg mapend : MapIt) (hme : mapend.node = none) (lastPos : Ptr) (b : Nat) (mid : List (Node V)) : ∀ (fuel : Nat) (fseg : MapIt) (c : Coll V) (w : World)
    (pre : List (Node V)) (f : Node V) (rest : List (Node V)), c.Inv E w → c.map.nodes = pre ++ f :: (mid ++ rest) → c.map.Use E fseg f →
    SpanEnd E c lseg lastPos rest → c.map.usable E mapend = true → mid.length < fuel → (∀ n post, rest = n :: post → lastPos = n.seg.base b) →
    (rest = [] → b = 0) →
    Runs (eraseSpanE E fseg lseg mapend lastPos fuel) c w
      (fun r _ _ => r.2.segs + (rest.length - 1) = mid.length + rest.length ∧
        r.2.els = ((absNodes mid).flat.length + if b = 0 then 0 else (rest.head?.map fun n => n.seg.size).getD 0) +
          c.kind.entries ((absNodes mid).flat.length + b))
      (fun _ _ _ => True) := by
  induction mid with
  | nil =>
    intro fuel fseg c w pre f rest hc hn hu hs hmu hfuel hb hb0
    obtain ⟨fuel, rfl⟩ : ∃ k, fuel = k + 1 := ⟨fuel - 1, by omega⟩
    simp only [List.nil_append] at hn
    unfold eraseSpanE
    have hnx := TMap.itNext_split E hc.map.ids hn hu
    simp only [runs_bind, runs_get, hnx, runs_some]
    obtain ⟨hus, hs | ⟨n, post, k, rfl, hl, hk, hp⟩⟩ := hs
    · obtain ⟨rfl, hl⟩ := hs
      have he : c.map.itEq E c.map.end lseg = some true := by
        simp only [TMap.itEq, usable_end E c.map, hus, hl, Bool.and_self, if_true]
        rfl
      simp only [he, runs_some, if_true]
      have he2 : c.map.itEq E c.map.end mapend = some true := by
        simp only [TMap.itEq, usable_end E c.map, hmu, hme, Bool.and_self, if_true]
        rfl
      simp only [runs_bind, he2, runs_some, if_true, runs_pure]
      cases hb0 rfl
      exact ⟨rfl, by cases c.kind <;> rfl⟩
    · have hmem : n ∈ c.map.nodes := by rw [hn]; simp
      have he : c.map.itEq E (c.map.itTo n) lseg = some true := by
        simp only [TMap.itEq, usable_itTo E c.map n, hus, hl, Bool.and_self, if_true]
        simp [TMap.itTo]
      simp only [he, runs_some, if_true]
      have he2 : c.map.itEq E (c.map.itTo n) mapend = some false := by
        simp only [TMap.itEq, usable_itTo E c.map n, hmu, hme, Bool.and_self, if_true]
        simp [TMap.itTo]
      simp only [runs_bind, he2, runs_some]
      rw [if_neg (by simp), runs_bind]
      refine runs_onSegE E hc.map.ids ((TMap.ref_itTo hmem).use E) ?_
      have hkb : k = b := Seg.base_inj.1 (hp.symm.trans (hb n post rfl))
      subst hkb
      rw [hp]
      have hcore := (hc.mem.segs n hmem).core
      refine (Seg.eraseFromBegin_runs E n.seg w hcore k (Nat.le_of_lt hk)).mono ?_ (fun _ _ _ _ => trivial)
      rintro r s w' ⟨h1, rfl⟩
      have hle : (n.seg.elems.drop k).length = n.seg.size - k := by simp [Seg.size_eq]
      have hr := Removed.one E hc hmem h1 (by omega)
      have hu' := put_use_self E (s := s) ((TMap.ref_itTo hmem).use E)
      have hsz : s.size = n.seg.size - k := by rw [Seg.size_eq, h1.elems, hle]
      dsimp only
      rw [runs_bind]
      refine (retIterE_runs E hr.inv hu' (by rw [hr.upd.usable]; exact hmu) hme (k := 0) (Nat.zero_le _)).mono ?_ (fun _ _ _ h => h)
      rintro r c' w'' ⟨rfl, rfl, h2, -⟩
      rw [runs_pure]
      rw [if_pos (show 0 < s.size by omega)] at h2
      refine ⟨?_, Eq.trans (eraseFromBegin_eq E hcore (Nat.le_of_lt hk)) ?_⟩
      · dsimp only
        rw [h2]
        simp only [List.length_cons, List.length_nil]
        omega
      · simp only [absNodes, Spec.State.flat, List.map_nil, List.flatMap_nil, List.length_nil, Nat.zero_add, List.head?_cons, Option.map_some,
          Option.getD_some, hc.map.kind n hmem]
        rfl
  | cons m mid ih =>
    intro fuel fseg c w pre f rest hc hn hu hs hmu hfuel hb hb0
    obtain ⟨fuel, rfl⟩ : ∃ k, fuel = k + 1 := ⟨fuel - 1, by omega⟩
    simp only [List.cons_append] at hn
    unfold eraseSpanE
    have hnx := TMap.itNext_split E hc.map.ids hn hu
    have hmem : m ∈ c.map.nodes := by rw [hn]; simp
    have hids := hc.map.ids
    have he : c.map.itEq E (c.map.itTo m) lseg = some false := by
      have : (c.map.itTo m).node ≠ lseg.node := by
        obtain ⟨hus, ⟨rfl, hl⟩ | ⟨n, post, k, rfl, hl, hk, hp⟩⟩ := hs
        · rw [hl]; simp [TMap.itTo]
        · rw [hl]
          simp only [TMap.itTo, ne_eq, Option.some.injEq]
          intro e
          rw [hn] at hids
          simp only [List.map_append, List.map_cons, List.nodup_append, List.nodup_cons] at hids
          exact hids.2.1.2.1 (by rw [e]; simp)
      simp only [TMap.itEq, usable_itTo E c.map m, hs.1, Bool.and_self, if_true]
      simp [this]
    simp only [runs_bind, runs_get, hnx, runs_some, he]
    rw [if_neg (by simp), runs_bind]
    refine runs_onSegE E hids ((TMap.ref_itTo hmem).use E) ?_
    have hcore := (hc.mem.segs m hmem).core
    refine (Seg.clear_runs E m.seg w hcore).mono ?_ (fun _ _ _ _ => trivial)
    rintro _ s w' h1
    have hr := Removed.one E hc hmem h1 (by simp)
    have hu' := put_use_self E (s := s) ((TMap.ref_itTo hmem).use E)
    have hnodes : (c.put m s).map.nodes = (pre ++ [f]) ++ { m with seg := s } :: (mid ++ rest) :=
      put_split hids (pre := pre ++ [f]) (post := mid ++ rest) (n := m) (by simp [hn])
    dsimp only
    rw [runs_bind]
    refine (ih fuel (c.map.itTo m) (c.put m s) w' (pre ++ [f]) { m with seg := s } rest hr.inv hnodes hu' ?_ (by rw [hr.upd.usable]; exact hmu) (by simp at hfuel; omega) hb hb0).mono ?_
      (fun _ _ _ _ => trivial)
    · exact ⟨by have := hs.1; exact this, hs.2⟩
    · rintro ⟨g, e⟩ c' w'' ⟨g1, g2⟩
      rw [runs_pure]
      dsimp only at g1 g2 ⊢
      have hcl := clear_eq E hcore
      rw [hc.map.kind m hmem] at hcl
      have hck : (c.put m s).kind = c.kind := rfl
      rw [hck] at g2
      have hfl : (absNodes (m :: mid)).flat.length = m.seg.size + (absNodes mid).flat.length := by
        simp [absNodes, Spec.State.flat, Seg.size_eq]
      rw [hfl]
      rw [show m.seg.size + (absNodes mid).flat.length + b = m.seg.size + ((absNodes mid).flat.length + b) by omega, entries_add c.kind m.seg.size]
      simp only [List.length_cons]
      generalize (if b = 0 then 0 else (rest.head?.map fun n => n.seg.size).getD 0) = z at *
      constructor <;> omega

theorem runs_and {X α : Type} {p : Prog X α} {x : X} {w : World} {Q Q' : α → X → World → Prop} {R R' : Exc → X → World → Prop}
    (h : Runs p x w Q R) (h' : Runs p x w Q' R') : Runs p x w (fun a y v => Q a y v ∧ Q' a y v) (fun e y v => R e y v ∧ R' e y v) := by
  unfold Runs at *
  cases hp : p x w <;> rw [hp] at h h'
  · exact ⟨h, h'⟩
  · exact ⟨h, h'⟩
  · exact h

end Coll

theorem Spec.State.distance_split {V : Type} {A B : State V} {t : Ty} {l : List V} (hn : (A ++ (t, l) :: B).types.Nodup) {j : Nat} (h0 : 0 < j)
    (hj : j ≤ l.length) : (A ++ (t, l) :: B).distance (A.flat.length + j) = l.length - j := by
  have hlen : A.typedFlat.length = A.flat.length := by simp [typedFlat, flat, List.length_flatMap]
  have hs : (A ++ (t, l) :: B).typedFlat = A.typedFlat ++ (l.map (fun v => (t, v)) ++ B.typedFlat) := by simp [typedFlat]
  obtain ⟨v, hv⟩ : ∃ v, l[j - 1]? = some v := ⟨_, List.getElem?_eq_getElem (by omega)⟩
  have hx : (A.typedFlat ++ (l.map (fun v => (t, v)) ++ B.typedFlat))[A.flat.length + j - 1]? = some (t, v) := by
    rw [List.getElem?_append_right (by omega), List.getElem?_append_left (by rw [List.length_map]; omega), List.getElem?_map,
      show A.flat.length + j - 1 - A.typedFlat.length = j - 1 by omega, hv]
    rfl
  unfold distance
  rw [hs, hx]
  dsimp only
  have hd : (A.typedFlat ++ (l.map (fun v => (t, v)) ++ B.typedFlat)).drop (A.flat.length + j) = (l.drop j).map (fun v => (t, v)) ++ B.typedFlat := by
    rw [← hlen, List.drop_append, List.drop_of_length_le (by omega), Nat.add_sub_cancel_left, List.nil_append, List.drop_append, ← List.map_drop,
      List.length_map, show j - l.length = 0 by omega, List.drop_zero]
  rw [hd, List.filter_append, List.length_append]
  have h1 : ((l.drop j).map (fun v => (t, v))).filter (fun x => x.1 == t) = (l.drop j).map (fun v => (t, v)) := by
    rw [List.filter_eq_self]
    intro x hx
    obtain ⟨v, -, rfl⟩ := List.mem_map.1 hx
    simp
  have h2 : B.typedFlat.filter (fun x => x.1 == t) = [] := by
    rw [List.filter_eq_nil_iff]
    intro x hx
    obtain ⟨p, hp, hv⟩ := List.mem_flatMap.1 hx
    obtain ⟨v, -, rfl⟩ := List.mem_map.1 hv
    have := (split_nodup hn).2
    simp only [beq_iff_eq]
    rintro rfl
    exact this (List.mem_map_of_mem (f := Prod.fst) hp)
  rw [h1, h2, List.length_map, List.length_drop, List.length_nil, Nat.add_zero]

theorem Spec.State.distance_boundary {V : Type} {A B : State V} (hn : (A ++ B).types.Nodup) (h0 : 0 < A.flat.length) :
    (A ++ B).distance A.flat.length = 0 := by
  have hlen : A.typedFlat.length = A.flat.length := by simp [typedFlat, flat, List.length_flatMap]
  have hs : (A ++ B).typedFlat = A.typedFlat ++ B.typedFlat := by simp [typedFlat]
  obtain ⟨⟨t, v⟩, hv⟩ : ∃ x, A.typedFlat[A.flat.length - 1]? = some x := ⟨_, List.getElem?_eq_getElem (by omega)⟩
  unfold distance
  rw [hs, List.getElem?_append_left (by omega), hv]
  dsimp only
  rw [← hlen, List.drop_left]
  have h2 : B.typedFlat.filter (fun x => x.1 == t) = [] := by
    rw [List.filter_eq_nil_iff]
    intro x hx
    obtain ⟨p, hp, hv'⟩ := List.mem_flatMap.1 hx
    obtain ⟨u, -, rfl⟩ := List.mem_map.1 hv'
    obtain ⟨p', hp', hv''⟩ := List.mem_flatMap.1 (List.mem_of_getElem? hv)
    obtain ⟨u', -, e⟩ := List.mem_map.1 hv''
    cases e
    simp only [beq_iff_eq]
    intro e
    have : (A ++ B).types = A.types ++ B.types := List.map_append
    rw [this, List.nodup_append] at hn
    exact hn.2.2 _ (List.mem_map_of_mem (f := Prod.fst) hp') _ (List.mem_map_of_mem (f := Prod.fst) hp) e.symm
  rw [h2]
  rfl

namespace Coll
open Work
variable {V : Type} (E : Env V)

/-- The segments between two iterators in different segments. -/
theorem span_split {c : Coll V} {w : World} (hc : c.Inv E w) {pre post : List (Node V)} {n : Node V} (hn : c.map.nodes = pre ++ n :: post) {k : Nat}
    (hk : k < n.seg.size) {last : GIter} {q : Spec.State.Pos} (hl : c.At E last q) (hne : last.mapit.node ≠ some n.id)
    (hpq : c.abs.rank (some (n.seg.ty, k)) ≤ c.abs.rank q) : ∃ mid rest b, post = mid ++ rest ∧ SpanEnd E c last.mapit last.segpos rest ∧
      c.abs.rank q = (absNodes pre).flat.length + n.seg.elems.length + (absNodes mid).flat.length + b ∧
      ((rest = [] ∧ b = 0) ∨ ∃ m rpost, rest = m :: rpost ∧ b < m.seg.size ∧ last.segpos = m.seg.base b) := by
  have hnd1 := hc.map.nodup_ty E
  rw [hn] at hnd1
  cases q with
  | none =>
    refine ⟨post, [], 0, by simp, ⟨hl.usable, Or.inl ⟨rfl, hl.pos.1⟩⟩, ?_, Or.inl ⟨rfl, rfl⟩⟩
    rw [abs_split hn]
    simp [Spec.State.rank, absNodes, Spec.State.flat]
    omega
  | some q =>
    obtain ⟨u, b⟩ := q
    obtain ⟨m, hm, h4, h2, h3⟩ := hl.use
    subst h4
    have hmn : m ≠ n := by
      rintro rfl
      exact hne hm.node
    rcases split_two hn.symm hm.mem hmn with ⟨p1, p2, he⟩ | ⟨p1, p2, he⟩
    · exfalso
      have h5 := hnd1
      rw [he] at h5
      have h6 := h5
      simp only [List.append_assoc, List.cons_append] at h6
      have e1 := rank_nodes h5 (k := k)
      have e2 := rank_nodes h6 (k := b)
      rw [abs_split hn, he, e1] at hpq
      simp only [List.append_assoc, List.cons_append] at hpq
      rw [e2] at hpq
      simp only [absNodes, Spec.State.flat, List.map_append, List.flatMap_append, List.map_cons, List.flatMap_cons,
        List.length_append, ← Seg.size_eq] at hpq
      omega
    · refine ⟨p1, m :: p2, b, he, ⟨hm.usable, Or.inr ⟨m, p2, b, rfl, hm.node, h2, h3⟩⟩, ?_, Or.inr ⟨m, p2, rfl, h2, h3⟩⟩
      have h5 := hnd1
      rw [he] at h5
      have h6 : ((pre ++ n :: p1) ++ m :: p2).map (·.seg.ty) |>.Nodup := by simpa using h5
      have e2 := rank_nodes h6 (k := b)
      have e3 : (pre ++ n :: p1) ++ m :: p2 = pre ++ n :: (p1 ++ m :: p2) := by simp
      rw [abs_split hn, he, ← e3, e2]
      simp [absNodes, Spec.State.flat]
      omega

theorem ahead_node {c : Coll V} {w : World} (hc : c.map.Inv E c.kind w) {pre post : List (Node V)} {n : Node V} (hn : c.map.nodes = pre ++ n :: post) (k : Nat) :
    c.abs.ahead (some (n.seg.ty, k)) = post.length := by
  have hnd := hc.nodup_ty E
  rw [hn] at hnd
  unfold Spec.State.ahead
  dsimp only
  rw [abs_split hn, after_split hnd rfl]
  simp [absNodes]

theorem eraseRangeE_runs (first last : GIter) (p q : Spec.State.Pos) (c : Coll V) (w : World) (hc : c.Inv E w) (hf : c.At E first p)
    (hl : c.At E last q) (hpq : c.abs.rank p ≤ c.abs.rank q) :
    Runs (eraseRangeE E first last) c w
      (fun r c' _ => r.2.els = c.abs.eraseAllowance (c.abs.rank p) (c.abs.rank q) + c.kind.entries (c.abs.rank q - c.abs.rank p) ∧
        ∃ p', c'.At E r.1 p' ∧ r.2.segs + c'.abs.ahead p' = c.abs.ahead p) (fun _ _ _ => True) := by
  have hnd := hc.map.nodup_ty E
  have hndt := abs_nodup' E hc.map
  have heq : c.map.itEq E first.mapit last.mapit = some (decide (first.mapit.node = last.mapit.node)) := by
    simp [TMap.itEq, hf.usable, hl.usable]
  unfold eraseRangeE
  simp only [runs_bind, runs_get, heq, runs_some, decide_eq_true_eq]
  cases p with
  | none =>
    have hq : q = none := by
      cases q with
      | none => rfl
      | some q =>
        obtain ⟨u, b⟩ := q
        have := Spec.State.rank_lt (hl.valid E hc.map)
        have h0 : c.abs.rank none = c.abs.flat.length := by simp [Spec.State.rank]
        omega
    subst hq
    have h1 := hf.pos
    have h2 := hl.pos
    simp only at h1 h2
    rw [if_pos (by rw [h1.1, h2.1]), if_pos (by rw [h1.2, h2.2])]
    unfold retIterE TMap.iteratorFromE
    simp only [runs_bind, runs_get, hf.endUsable, hf.endNode, and_self, if_true, TMap.iter3E, h1.1, Option.map_some, runs_some, runs_pure]
    refine ⟨?_, none, ⟨hf.usable, hf.endUsable, hf.endNode, h1⟩, rfl⟩
    unfold Spec.State.eraseAllowance
    rw [if_neg (Nat.lt_irrefl _), Nat.sub_self]
    cases c.kind <;> rfl
  | some p =>
    obtain ⟨t, k⟩ := p
    obtain ⟨pre, n, post, hn, hu, rfl, hk, hp⟩ := hf.split
    have hcore := (hc.mem.segs n hu.mem).core
    have habs : c.abs = absNodes pre ++ (n.seg.ty, n.seg.elems) :: absNodes post := by
      rw [abs_split hn]; simp [absNodes]
    have hnd1 := hnd
    rw [hn] at hnd1
    have hrp : ∀ j, c.abs.rank (some (n.seg.ty, j)) = (absNodes pre).flat.length + j := fun j => by rw [abs_split hn, rank_nodes hnd1]
    have hah := ahead_node E hc.map hn
    by_cases hsame : first.mapit.node = last.mapit.node
    · rw [if_pos hsame]
      obtain ⟨b, rfl, hb, hq⟩ : ∃ b, q = some (n.seg.ty, b) ∧ b < n.seg.size ∧ last.segpos = n.seg.base b := by
        cases q with
        | none => have := hl.pos.1; rw [hu.node, this] at hsame; simp at hsame
        | some q =>
          obtain ⟨u, b⟩ := q
          obtain ⟨m, hm, h1, h2, h3⟩ := hl.use
          have : m = n := eq_of_nodup hc.map.ids hm.mem hu.mem (by rw [hu.node, hm.node] at hsame; exact (Option.some.inj hsame).symm)
          subst this
          exact ⟨b, by rw [h1], h2, h3⟩
      have hab : k ≤ b := by
        rw [hrp, hrp] at hpq
        omega
      simp only [hp, hq, Seg.base_inj]
      by_cases hkb : k = b
      · subst hkb
        rw [if_pos rfl]
        rw [runs_bind]
        refine (retIterE_runs E hc hu hf.endUsable hf.endNode (Nat.le_of_lt hk)).mono ?_ (fun _ _ _ h => h)
        rintro r _ _ ⟨h3, h4, h1, h2⟩
        rw [norm_node E hc hu.mem, if_pos hk] at h2
        rw [runs_pure, h3]
        refine ⟨?_, _, h2, by dsimp only; rw [h1, if_pos hk, Nat.zero_add]⟩
        unfold Spec.State.eraseAllowance
        rw [if_neg (Nat.lt_irrefl _), Nat.sub_self]
        cases c.kind <;> rfl
      · rw [if_neg hkb, runs_bind]
        refine runs_onSegE E hc.map.ids hu ?_
        refine (Seg.eraseRangeBase_runs E n.seg w hcore k b hab (Nat.le_of_lt hb)).mono ?_ (fun _ _ _ _ => trivial)
        rintro r s w' ⟨h1, rfl⟩
        have hle := take_drop_length n.seg.elems hab (Nat.le_of_lt hb)
        rw [← Seg.size_eq] at hle
        have hr := Removed.one E hc hu.mem h1 (by omega)
        have hu' := put_use_self E (s := s) hu
        have hsz : s.size = n.seg.size - (b - k) := by rw [Seg.size_eq, h1.elems, hle]
        dsimp only
        rw [runs_bind]
        refine (retIterE_runs E hr.inv hu' (by rw [hr.upd.usable]; exact hf.endUsable) hf.endNode (k := k) (show k ≤ s.size by omega)).mono ?_ (fun _ _ _ h => h)
        rintro r c' w'' ⟨rfl, rfl, h2, hat⟩
        rw [runs_pure]
        have hty : ({ n with seg := s } : Node V).seg.ty = n.seg.ty := h1.step.ty
        rw [if_pos (show k < s.size by omega)] at h2
        rw [norm_node E hr.inv hu'.mem, if_pos (show k < s.size by omega)] at hat
        have hwk : work E (.eraseRangeBase (n.seg.base k).off (n.seg.base b).off) n.seg = _ :=
          eraseRangeBase_eq E hcore (a := k) (b := b) (by omega) (Nat.le_of_lt hb)
        refine ⟨Eq.trans hwk ?_, _, hat, ?_⟩
        · rw [hrp, hrp]
          unfold Spec.State.eraseAllowance
          have hd := Spec.State.distance_split (A := absNodes pre) (B := absNodes post) (t := n.seg.ty) (l := n.seg.elems) (by rw [← habs]; exact hndt)
            (j := b) (by omega) (by rw [← Seg.size_eq]; omega)
          rw [if_pos (by omega), habs, hd, ← Seg.size_eq, hc.map.kind n hu.mem, Nat.add_sub_add_left]
        · dsimp only
          rw [h2, ahead_node E hr.inv.map (put_split (s := s) hc.map.ids hn), hah, Nat.zero_add]
    · rw [if_neg hsame, runs_bind]
      refine runs_onSegE E hc.map.ids hu ?_
      rw [hp]
      refine (Seg.eraseTillEnd_runs E n.seg w hcore k (Nat.le_of_lt hk)).mono ?_ (fun _ _ _ h => h.elim)
      rintro r s w' ⟨h1, -⟩
      have hle : (n.seg.elems.take k).length = k := by simp [← Seg.size_eq]; omega
      have hr := Removed.one E hc hu.mem h1 (by omega)
      have hu' := put_use_self E (s := s) hu
      have hput := put_split (s := s) hc.map.ids hn
      obtain ⟨mid, rest, b, hpost, hspan, hrank, hrest⟩ := span_split E hc hn hk hl (fun e => hsame (by rw [hu.node, e])) hpq
      subst hpost
      have hlen : mid.length < c.map.nodes.length + 1 := by rw [hn]; simp; omega
      have hb : ∀ m rp, rest = m :: rp → last.segpos = m.seg.base b := by
        rintro m rp rfl
        rcases hrest with h | ⟨m', rp', e, -, h⟩
        · simp at h
        · simp only [List.cons.injEq] at e
          rw [e.1]; exact h
      have hb00 : rest = [] → b = 0 := by
        rintro rfl
        rcases hrest with h | ⟨m', rp', e, -, h⟩
        · exact h.2
        · simp at e
      have hmu : (c.put n s).map.usable E first.mapend = true := by rw [hr.upd.usable]; exact hf.endUsable
      have hspan' : SpanEnd E (c.put n s) last.mapit last.segpos rest := ⟨by have := hspan.1; exact this, hspan.2⟩
      dsimp only
      rw [runs_bind]
      refine (runs_and (eraseSpanE_runs E last.mapit first.mapend hf.endNode last.segpos b mid _ first.mapit (c.put n s) w' pre { n with seg := s } rest hr.inv hput hu' hspan' hmu hlen hb hb00)
        ((eraseSpanE_forgets E _ _ _ _ _).runs (eraseSpan_runs E last.mapit first.mapend hf.endNode last.segpos mid _ first.mapit (c.put n s) w' pre { n with seg := s } rest hr.inv
          hput hu' hspan' hmu hlen))).mono ?_ (fun _ _ _ _ => trivial)
      rintro ⟨g, e⟩ c' w'' ⟨⟨g1, g2⟩, p', g3, g4⟩
      rw [runs_pure]
      dsimp only at g1 g2 g3 g4 ⊢
      have h9 : n.seg.size = n.seg.elems.length := rfl
      refine ⟨?_, p', g3, ?_⟩
      · have ht := eraseTillEnd_eq E hcore (Nat.le_of_lt hk)
        have ht : work E (.eraseTillEnd (n.seg.base k).off) n.seg = (n.seg.size - k) + n.seg.kind.entries (n.seg.size - k) := ht
        rw [hc.map.kind n hu.mem] at ht
        have hck : (c.put n s).kind = c.kind := rfl
        rw [hck] at g2
        have hdist : (absNodes pre).flat.length + n.seg.elems.length + (absNodes mid).flat.length + b - ((absNodes pre).flat.length + k) =
          (n.seg.size - k) + ((absNodes mid).flat.length + b) := by omega
        unfold Spec.State.eraseAllowance
        rw [hrp, hrank, if_pos (by omega), hdist, entries_add]
        by_cases hb0 : b = 0
        · rw [if_pos hb0] at g2
          have habs' : c.abs = absNodes (pre ++ n :: mid) ++ absNodes rest := by
            rw [abs_split hn]; simp [absNodes]
          have hfl : (absNodes (pre ++ n :: mid)).flat.length = (absNodes pre).flat.length + n.seg.elems.length + (absNodes mid).flat.length := by
            simp [absNodes, Spec.State.flat]; omega
          have hd := Spec.State.distance_boundary (A := absNodes (pre ++ n :: mid)) (B := absNodes rest) (by rw [← habs']; exact hndt) (by omega)
          rw [← habs', hfl] at hd
          have hd' : c.abs.distance ((absNodes pre).flat.length + n.seg.elems.length + (absNodes mid).flat.length + b) = 0 := by rw [hb0]; exact hd
          rw [hd']
          omega
        · rw [if_neg hb0] at g2
          rcases hrest with h | ⟨m, rp, rfl, h3, -⟩
          · exact absurd h.2 hb0
          · simp only [List.head?_cons, Option.map_some, Option.getD_some] at g2
            have habs' : c.abs = absNodes (pre ++ n :: mid) ++ (m.seg.ty, m.seg.elems) :: absNodes rp := by
              rw [abs_split hn]; simp [absNodes]
            have hfl : (absNodes (pre ++ n :: mid)).flat.length = (absNodes pre).flat.length + n.seg.elems.length + (absNodes mid).flat.length := by
              simp [absNodes, Spec.State.flat]; omega
            have hd := Spec.State.distance_split (A := absNodes (pre ++ n :: mid)) (B := absNodes rp) (t := m.seg.ty) (l := m.seg.elems)
              (by rw [← habs']; exact hndt) (j := b) (by omega) (by rw [← Seg.size_eq]; omega)
            rw [← habs', hfl] at hd
            rw [hd]
            have h8 : m.seg.size = m.seg.elems.length := rfl
            omega
      · rw [hah]
        rcases g4 with ⟨rfl, rfl, g5⟩ | ⟨m, rp, b', rfl, g5, g6, rfl, g7⟩
        · simp only [List.length_nil] at g1
          simp only [Spec.State.ahead, List.append_nil]
          omega
        · have hab' := g7.abs
          have hn' := abs_nodup' E g7.inv.map
          rw [hab'] at hn'
          unfold Spec.State.ahead
          dsimp only
          rw [hab', Spec.State.after_split (Spec.State.split_nodup hn').1]
          simp only [List.length_cons, List.length_append, absNodes, List.length_map] at g1 ⊢
          omega


/-! ### Going through a collection -/

theorem walkE_fst (c : Coll V) (last : GIter) : ∀ (fuel : Nat) (it : GIter), (c.walkE E last it fuel).map (·.1) = c.walk E last it fuel := by
  intro fuel
  induction fuel with
  | zero => intro it; rfl
  | succ fuel ih =>
    intro it
    unfold walkE walk
    by_cases he : it.segpos = last.segpos
    · rw [if_pos he, if_pos he]; rfl
    rw [if_neg he, if_neg he]
    rw [← TMap.incrementE_fst]
    cases c.map.deref it.segpos with
    | none => rfl
    | some v =>
      cases c.map.incrementE E it with
      | none => rfl
      | some r =>
        obtain ⟨it', n⟩ := r
        simp only [Option.map_some]
        rw [← ih it']
        cases c.walkE E last it' fuel <;> rfl

/-- Walking from a position to another one. -/
theorem walkE_at {c : Coll V} {w : World} (h : c.Inv E w) {last : GIter} {q : Spec.State.Pos} (hl : c.At E last q) :
    ∀ (d : Nat) (it : GIter) (p : Spec.State.Pos) (fuel : Nat), c.At E it p → c.abs.rank q = c.abs.rank p + d → d < fuel →
      ∃ n, c.walkE E last it fuel = some ((c.abs.flat.drop (c.abs.rank p)).take d, n) ∧ n + c.abs.ahead q = c.abs.ahead p := by
  have hnd := abs_nodup' E h.map
  intro d
  induction d with
  | zero =>
    intro it p fuel hp hr hf
    obtain ⟨fuel, rfl⟩ : ∃ k, fuel = k + 1 := ⟨fuel - 1, by omega⟩
    have : p = q := Spec.State.rank_inj (hp.valid E h.map) (hl.valid E h.map) (by omega)
    subst this
    exact ⟨0, by simp only [walkE, (at_eq E (Inv.core E h) hp hl).2 rfl, if_true, List.take_zero], by omega⟩
  | succ d ih =>
    intro it p fuel hp hr hf
    have hw := walk_at E h hl (d + 1) it p fuel hp hr hf
    obtain ⟨fuel, rfl⟩ : ∃ k, fuel = k + 1 := ⟨fuel - 1, by omega⟩
    have hne : p ≠ q := by rintro rfl; omega
    have hne' : it.segpos ≠ last.segpos := fun e => hne ((at_eq E (Inv.core E h) hp hl).1 e)
    cases p with
    | none =>
      have h1 := Spec.State.rank_le (hl.valid E h.map)
      have h2 : c.abs.rank none = c.abs.flat.length := by simp [Spec.State.rank]
      omega
    | some p =>
      obtain ⟨t, k⟩ := p
      obtain ⟨v, hv, hat⟩ := deref_at E (Inv.core E h) hp
      obtain ⟨it', hi, hp'⟩ := incrementE_eq E h hp
      have hval := hp.valid E h.map
      have hrk := Spec.State.rank_next hnd hval
      obtain ⟨n, hn, ha⟩ := ih it' _ fuel hp' (by omega) (by omega)
      obtain ⟨l, hg, hk⟩ := hval
      have hel : c.abs.elemsOf t = l := by unfold Spec.State.elemsOf; rw [show c.abs.get t = _ from hg]
      have hno := Spec.State.norm_ahead hnd hg (k + 1)
      rw [hel] at hi
      rw [← walkE_fst] at hw
      have : c.walkE E last it (fuel + 1) = some (v :: ((c.abs.flat.drop (c.abs.rank (c.abs.norm t (k + 1)))).take d),
          (if k + 1 < l.length then 0 else (c.abs.after t).toFirst) + n) := by
        simp only [walkE, if_neg hne', hv, hi, hn, Option.map_some]
      rw [this] at hw ⊢
      have hw := Option.some.inj hw
      dsimp only at hw
      refine ⟨_, by rw [hw], ?_⟩
      show _ = (c.abs.after t).length
      omega

theorem update_after (t : Ty) (f : List V → List V) (s : Spec.State V) (hn : s.types.Nodup) : (s.update t f).after t = s.after t := by
  induction s with
  | nil => rfl
  | cons p s ih =>
    obtain ⟨u, l⟩ := p
    have hn' : u ∉ Spec.State.types s ∧ (Spec.State.types s).Nodup := List.nodup_cons.1 hn
    by_cases hu : u = t
    · subst hu
      have : Spec.State.update u f s = s := by
        unfold Spec.State.update
        conv => rhs; rw [← List.map_id s]
        refine List.map_congr_left fun p hp => ?_
        rw [if_neg]
        · rfl
        · intro e
          exact hn'.1 (e ▸ List.mem_map_of_mem hp)
      have h2 : Spec.State.update u f ((u, l) :: s) = (u, f l) :: Spec.State.update u f s := by simp [Spec.State.update]
      rw [h2, this]
      simp [Spec.State.after]
    · have h2 : Spec.State.update t f ((u, l) :: s) = (u, l) :: Spec.State.update t f s := by simp [Spec.State.update, hu]
      rw [h2]
      simp only [Spec.State.after, if_neg hu]
      exact ih hn'.2

/-- Erasing one element, all in all. -/
theorem eraseE_all (pos : GIter) (t : Ty) (k : Nat) (c : Coll V) (w : World) (hc : c.Inv E w) (hp : c.At E pos (some (t, k))) :
    Runs (eraseE E pos) c w
      (fun r c' w' => Removed E c w (c.abs.update t (·.eraseIdx k)) c' w' ∧ c'.At E r.1 (c'.abs.norm t k) ∧
        r.2.segs + c'.abs.ahead (c'.abs.norm t k) = (c.abs.after t).length) (fun _ _ _ => True) := by
  refine (runs_and ((eraseE_forgets E pos).runs (erase_runs E pos t k c w hc hp)) (eraseE_runs E pos t k c w hc hp)).mono ?_ (fun _ _ _ _ => trivial)
  rintro r c' w' ⟨⟨h1, h2⟩, h3, -⟩
  refine ⟨h1, h2, ?_⟩
  have hnd := abs_nodup' E hc.map
  have hnd' := abs_nodup' E h1.inv.map
  obtain ⟨l, hg, hk⟩ := hp.valid E hc.map
  have hel : c.abs.elemsOf t = l := by unfold Spec.State.elemsOf; rw [show c.abs.get t = _ from hg]
  have hg' : c'.abs.get t = some (l.eraseIdx k) := by
    rw [h1.abs, Spec.State.update_get, show c.abs.get t = _ from hg]; simp
  have hno := Spec.State.norm_ahead hnd' hg' k
  have haf : c'.abs.after t = c.abs.after t := by rw [h1.abs, update_after t _ _ hnd]
  rw [haf, List.length_eraseIdx, if_pos hk] at hno
  rw [hel] at h3
  rw [h3]
  have hk : k < l.length := hk
  rw [← hno]
  by_cases hk' : k + 1 < l.length
  · rw [if_pos hk', if_pos (by omega)]
  · rw [if_neg hk', if_neg (by omega)]

theorem runs_of_ok {X α : Type} {p : Prog X α} {x y : X} {w w' : World} {a : α} {Q : α → X → World → Prop} {R} (h : Runs p x w Q R) (e : p x w = .ok a y w') : Q a y w' := by
  unfold Runs at h
  rw [e] at h
  exact h

/-- Segments looked at so far and segments ahead. -/
theorem sweep_inv {c c' : Coll V} {w w' : World} {it it' : GIter} {n : Nat} {p : Spec.State.Pos} (h : Spec.Sweep E c w it n c' w' it')
    (hc : c.Inv E w) (hp : c.At E it p) :
    c'.Inv E w' ∧ w.next ≤ w'.next ∧ c'.abs.length = c.abs.length ∧ ∃ p', c'.At E it' p' ∧ n + c'.abs.ahead p' = c.abs.ahead p := by
  induction h with
  | start => exact ⟨hc, Nat.le_refl _, rfl, p, hp, by omega⟩
  | @pass n m c1 w1 it1 it2 _ hne hi ih =>
    obtain ⟨h1, h2, h3, p1, hp1, h4⟩ := ih
    refine ⟨h1, h2, h3, ?_⟩
    cases p1 with
    | none => exact absurd ((at_eq E (Inv.core E h1) hp1 (at_end E _)).2 rfl) hne
    | some x =>
      obtain ⟨t, k⟩ := x
      obtain ⟨it3, g1, g2⟩ := incrementE_eq E h1 hp1
      obtain ⟨l, hg, hk⟩ := hp1.valid E h1.map
      have hel : Spec.State.elemsOf c1.abs t = l := by unfold Spec.State.elemsOf; rw [show Spec.State.get _ t = _ from hg]
      have hno := Spec.State.norm_ahead (abs_nodup' E h1.map) hg (k + 1)
      rw [hi, hel] at g1
      cases g1
      refine ⟨_, g2, ?_⟩
      have h5 : ∀ s : Spec.State V, s.ahead (some (t, k)) = (s.after t).length := fun _ => rfl
      rw [h5] at h4
      omega
  | erase _ hw hne hr ih =>
    obtain ⟨h1, h2, h3, p1, hp1, h4⟩ := ih
    cases p1 with
    | none => exact absurd ((at_eq E (Inv.core E h1) hp1 (at_end E _)).2 rfl) hne
    | some x =>
      obtain ⟨t, k⟩ := x
      obtain ⟨g1, g2, g3⟩ := runs_of_ok (eraseE_all E _ t k _ _ (Good.weaken E (stable_inv E) h1 hw) hp1) hr
      refine ⟨g1.inv, Nat.le_trans h2 (Nat.le_trans hw g1.next), ?_, _, g2, ?_⟩
      · rw [g1.abs, ← h3]; simp [Spec.State.update]
      · have h5 : ∀ s : Spec.State V, s.ahead (some (t, k)) = (s.after t).length := fun _ => rfl
        rw [h5] at h4
        dsimp only at g3
        omega
  | @eraseTo n c1 c2 w1 w1' w2 it1 it2 last p2 q2 e _ hw ha hl hpq hr ih =>
    obtain ⟨h1, h2, h3, p1, hp1, h4⟩ := ih
    have hi1 := Good.weaken E (stable_inv E) h1 hw
    obtain ⟨⟨g1, -⟩, -, p', g2, g3⟩ := runs_of_ok (runs_and ((eraseRangeE_forgets E it1 last).runs (eraseRange_runs E it1 last p2 q2 c1 w1' hi1 ha hl hpq))
      (eraseRangeE_runs E it1 last p2 q2 c1 w1' hi1 ha hl hpq)) hr
    have : p1 = p2 := (at_eq E (Inv.core E h1) hp1 ha).1 rfl
    subst this
    refine ⟨g1.inv, Nat.le_trans h2 (Nat.le_trans hw g1.next), ?_, _, g2, by dsimp only at g3; omega⟩
    rw [← h3, abs_eq, abs_eq, absNodes, absNodes, List.length_map, List.length_map, ← g1.upd.nodes.length]

/-! ### All segments -/

theorem clearE_fst : ∀ (l : List (Node V)) (w : World), Prog.bind (clearE E) (fun _ => Prog.pure ()) l w = TMap.onAll.go (Seg.clear (V := V)) l w := by
  intro l
  induction l with
  | nil => intro w; rfl
  | cons n ns ih =>
    intro w
    unfold Prog.bind clearE TMap.onAll.go
    cases Seg.clear n.seg w with
    | ub => rfl
    | exc e s w' => rfl
    | ok _ s w' =>
      dsimp only
      have := ih w'
      unfold Prog.bind at this
      rw [← this]
      cases clearE E ns w' <;> rfl

theorem clearAllE_fst (c : Coll V) (w : World) : Prog.bind (clearAllE E) (fun _ => Prog.pure ()) c w = clearAll c w := by
  have := clearE_fst E c.map.nodes w
  unfold clearAllE clearAll onMap TMap.onAll
  unfold Prog.zoom Prog.bind at *
  rw [← this]
  dsimp only
  cases clearE E c.map.nodes w <;> rfl

theorem clearE_runs : ∀ (l : List (Node V)) (w : World), (∀ n ∈ l, n.seg.Core E w) →
    Runs (clearE E) l w (fun e _ _ => e.els = (l.map fun n => n.seg.size + n.seg.kind.entries n.seg.size).sum ∧ e.segs = l.length) (fun _ _ _ => True) := by
  intro l
  induction l with
  | nil => intro w _; exact ⟨by simp, rfl⟩
  | cons n ns ih =>
    intro w h
    have h1 := Seg.clear_weak E n.seg w ((h n (by simp)).weak E)
    have hle := clear_eq E (h n (by simp))
    unfold Runs at *
    unfold clearE
    cases hc : Seg.clear n.seg w with
    | ub => rw [hc] at h1; exact h1.elim
    | exc e s w' => exact True.intro
    | ok _ s w' =>
      rw [hc] at h1
      have h2 := ih w' (fun m hm => Backend.Inv.weaken E (h m (by simp [hm])) (Nat.le_of_eq h1.next.symm))
      dsimp only
      cases hr : clearE E ns w' with
      | ub => rw [hr] at h2; exact h2.elim
      | exc e s w' => exact True.intro
      | ok e ns' w'' =>
        rw [hr] at h2
        simp only [List.map_cons, List.sum_cons, List.length_cons]
        exact ⟨by have := h2.1; omega, by have := h2.2; omega⟩

theorem clearAllE_runs (c : Coll V) (w : World) (hc : c.Inv E w) :
    Runs (clearAllE E) c w (fun e _ _ => e.els = c.size + c.kind.entries c.size ∧ e.segs = c.map.nodes.length) (fun _ _ _ => True) := by
  have := clearE_runs E c.map.nodes w fun n hn => (hc.mem.segs n hn).core
  have hsum : ∀ l : List (Node V), (∀ n ∈ l, n.seg.kind = c.kind) → (l.map fun n => n.seg.size + n.seg.kind.entries n.seg.size).sum =
      (l.map fun n => n.seg.size).sum + c.kind.entries (l.map fun n => n.seg.size).sum := by
    intro l
    induction l with
    | nil => intro _; cases c.kind <;> rfl
    | cons n l ih =>
      intro h
      simp only [List.map_cons, List.sum_cons]
      rw [ih fun m hm => h m (List.mem_cons_of_mem _ hm), h n List.mem_cons_self, entries_add]
      omega
  rw [hsum _ hc.map.kind] at this
  unfold clearAllE onMap Prog.zoom
  unfold Runs at *
  dsimp only
  cases hr : clearE E c.map.nodes w <;> rw [hr] at this <;> exact this

theorem emptyE_fst (l : List (Node V)) : (emptyE l).1 = l.all fun n => n.seg.empty := by
  induction l with
  | nil => rfl
  | cons n l ih =>
    unfold emptyE
    cases he : n.seg.empty <;> simp [he, ih]

theorem emptyE_snd (l : List (Node V)) : (emptyE l).2 = (absNodes l).toFirst := by
  induction l with
  | nil => rfl
  | cons n l ih =>
    unfold emptyE
    have h : n.seg.empty = true ↔ n.seg.elems = [] := List.isEmpty_iff
    by_cases he : n.seg.elems = []
    · simp [absNodes, Spec.State.toFirst, h.2 he, he] at ih ⊢
      exact ih
    · have h' : n.seg.empty = false := by
        cases hb : n.seg.empty
        · rfl
        · exact absurd (h.1 hb) he
      simp [absNodes, Spec.State.toFirst, h', he]

theorem sizeE_eq (l : List (Node V)) : sizeE l = ((l.map fun n => n.seg.size).sum, l.length) := by
  induction l with
  | nil => rfl
  | cons n l ih => unfold sizeE; rw [ih]; rfl

end Coll
end PolyColl
