import Verif.Model.Heap
import Verif.Lemmas.OwnColl
/-!
# Segments on the heap and segments as values

`Accounts B L w`: the storage in use `B` is what the list `L` says, each block once.  `Sim` relates a program
that works on the heap to one that works on values.
-/

namespace PolyColl
open Prog

/-- The storage in use is that of the list. -/
structure Accounts (B L : List (Nat × Alloc)) (w : World) : Prop where
  perm : B.Perm L
  nodup : (L.map Prod.fst).Nodup
  lt : ∀ x ∈ L, 0 < x.1 ∧ x.1 < w.next
  pos : 0 < w.next

/-- Addresses with an allocator. -/
def pairs (al : Alloc) (l : List Nat) : List (Nat × Alloc) := l.map fun b => (b, al)

theorem pairs_fst (al : Alloc) (l : List Nat) : (pairs al l).map Prod.fst = l := by
  unfold pairs; rw [List.map_map]; exact List.map_id _

theorem mem_pairs {al : Alloc} {l : List Nat} {x : Nat × Alloc} : x ∈ pairs al l ↔ x.1 ∈ l ∧ x.2 = al := by
  unfold pairs
  constructor
  · intro h; obtain ⟨b, hb, rfl⟩ := List.mem_map.1 h; exact ⟨hb, rfl⟩
  · rintro ⟨h1, h2⟩; exact List.mem_map.2 ⟨x.1, h1, by rw [← h2]⟩

theorem pairs_append (al : Alloc) (l l' : List Nat) : pairs al (l ++ l') = pairs al l ++ pairs al l' := List.map_append ..

namespace Accounts
variable {B L L' : List (Nat × Alloc)} {w w' : World}

theorem of_perm (h : Accounts B L w) (hp : L.Perm L') : Accounts B L' w :=
  ⟨h.perm.trans hp, (hp.map _).nodup_iff.1 h.nodup, fun x hx => h.lt x (hp.mem_iff.2 hx), h.pos⟩

theorem mono (h : Accounts B L w) (hw : w.next ≤ w'.next) : Accounts B L w' :=
  ⟨h.perm, h.nodup, fun x hx => ⟨(h.lt x hx).1, Nat.lt_of_lt_of_le (h.lt x hx).2 hw⟩, Nat.lt_of_lt_of_le h.pos hw⟩

theorem take {x : Nat × Alloc} (h : Accounts B (x :: L) w) : x ∈ B ∧ Accounts (B.erase x) L w := by
  refine ⟨h.perm.mem_iff.2 List.mem_cons_self, ?_, ?_, fun y hy => h.lt y (List.mem_cons_of_mem _ hy), h.pos⟩
  · have := h.perm.erase x
    rwa [List.erase_cons_head] at this
  · have := h.nodup
    rw [List.map_cons, List.nodup_cons] at this
    exact this.2

theorem add {x : Nat × Alloc} (h : Accounts B L w) (hx : 0 < x.1 ∧ x.1 < w.next) (hn : x.1 ∉ L.map Prod.fst) : Accounts (x :: B) (x :: L) w := by
  refine ⟨h.perm.cons x, ?_, ?_, h.pos⟩
  · rw [List.map_cons, List.nodup_cons]; exact ⟨hn, h.nodup⟩
  · intro y hy
    rcases List.mem_cons.1 hy with rfl | hy
    · exact hx
    · exact h.lt y hy

end Accounts

namespace Heap
variable {V : Type} {E : Env V}

theorem giveBack_ok {h : Heap V} {al : Alloc} {b : Nat} {L : List (Nat × Alloc)} {w : World} (ha : Accounts h.blocks ((b, al) :: L) w) :
    ∃ B, giveBack al b h w = .ok () { h with blocks := B } w ∧ Accounts B L w := by
  refine ⟨h.blocks.erase (b, al), ?_, ha.take.2⟩
  unfold giveBack
  simp only [bind, Prog.bind, Prog.get, if_pos ha.take.1]
  rfl

theorem releaseAll_ok {al : Alloc} {L : List (Nat × Alloc)} {w : World} : ∀ (l : List Nat) {h : Heap V}, Accounts h.blocks (pairs al l ++ L) w →
    ∃ B, releaseAll al l h w = .ok () { h with blocks := B } w ∧ Accounts B L w
  | [], h, ha => ⟨h.blocks, rfl, ha⟩
  | b :: l, h, ha => by
    obtain ⟨B, e, hB⟩ := giveBack_ok (h := h) (b := b) (al := al) (L := pairs al l ++ L) ha
    obtain ⟨B', e', hB'⟩ := releaseAll_ok l (h := { h with blocks := B }) hB
    refine ⟨B', ?_, hB'⟩
    unfold releaseAll Prog.each
    simp only [Prog.bind, e]
    exact e'

theorem recordAll_ok {al : Alloc} {w : World} : ∀ (l : List Nat) {h : Heap V} {L : List (Nat × Alloc)}, Accounts h.blocks L w → l.Nodup → (∀ b ∈ l, 0 < b ∧ b < w.next ∧ b ∉ L.map Prod.fst) →
    ∃ B, Prog.each (record al) l h w = .ok () { h with blocks := B } w ∧ Accounts B (pairs al l ++ L) w
  | [], h, L, ha, _, _ => ⟨h.blocks, rfl, ha⟩
  | b :: l, h, L, ha, hn, hl => by
    have hb := hl b List.mem_cons_self
    have h1 := ha.add (x := (b, al)) ⟨hb.1, hb.2.1⟩ hb.2.2
    rw [List.nodup_cons] at hn
    obtain ⟨B', e', hB'⟩ := recordAll_ok l (h := { h with blocks := (b, al) :: h.blocks }) h1 hn.2 (by
      intro c hc
      have := hl c (List.mem_cons_of_mem _ hc)
      refine ⟨this.1, this.2.1, ?_⟩
      rw [List.map_cons, List.mem_cons]
      rintro (rfl | hx)
      · exact hn.1 hc
      · exact this.2.2 hx)
    refine ⟨B', ?_, hB'.of_perm (List.perm_middle)⟩
    unfold Prog.each
    simp only [Prog.bind]
    exact e'

theorem filter_split (l : List Nat) (p : Nat → Prop) [DecidablePred p] : l.Perm (l.filter (fun b => ¬p b) ++ l.filter (fun b => p b)) := by
  refine ((List.filter_append_perm (fun b => decide (¬p b)) l).symm).trans (List.Perm.append_left _ (List.Perm.of_eq ?_))
  refine List.filter_congr fun b _ => ?_
  simp

theorem common_perm {l l' : List Nat} (h : l.Nodup) (h' : l'.Nodup) : (l.filter (fun b => b ∈ l')).Perm (l'.filter (fun b => b ∈ l)) := by
  refine (List.perm_ext_iff_of_nodup (h.filter _) (h'.filter _)).2 fun b => ?_
  simp only [List.mem_filter, decide_eq_true_eq]
  exact And.comm

/-- What `settle` does with the accounts: buffers are kept, given up or new. -/
theorem settle_ok' {h : Heap V} {al : Alloc} {old new : List Nat} {L : List (Nat × Alloc)} {w : World} (ha : Accounts h.blocks (pairs al old ++ L) w) (hnn : new.Nodup)
    (hnew : ∀ b ∈ new, b ∉ old → 0 < b ∧ b < w.next ∧ b ∉ L.map Prod.fst) :
    ∃ B, settle al old new h w = .ok () { h with blocks := B } w ∧ Accounts B (pairs al new ++ L) w := by
  have hno : (old ++ L.map Prod.fst).Nodup := by
    have := ha.nodup
    rwa [List.map_append, pairs_fst] at this
  have ho := (List.nodup_append.1 hno).1
  have h1 : Accounts h.blocks (pairs al (old.filter (fun b => b ∉ new)) ++ (pairs al (old.filter (fun b => b ∈ new)) ++ L)) w := by
    refine ha.of_perm ?_
    rw [← List.append_assoc, ← pairs_append]
    exact ((filter_split old (· ∈ new)).map _).append_right _
  obtain ⟨B, e, hB⟩ := releaseAll_ok _ h1
  have h2 : Accounts B (pairs al (new.filter (fun b => b ∈ old)) ++ L) w := hB.of_perm (((common_perm ho hnn).map _).append_right _)
  obtain ⟨B', e', hB'⟩ := recordAll_ok (al := al) (new.filter (fun b => b ∉ old)) (h := { h with blocks := B }) h2 (hnn.filter _) (by
    intro b hb
    obtain ⟨hb1, hb2⟩ := List.mem_filter.1 hb
    have hb2 : b ∉ old := by simpa using hb2
    have := hnew b hb1 hb2
    refine ⟨this.1, this.2.1, ?_⟩
    rw [List.map_append, pairs_fst, List.mem_append]
    rintro (hx | hx)
    · exact hb2 (by simpa using (List.mem_filter.1 hx).2)
    · exact this.2.2 hx)
  refine ⟨B', ?_, hB'.of_perm ?_⟩
  · unfold settle
    unfold releaseAll at e
    simp only [bind, Prog.bind, e]
    exact e'
  · rw [← List.append_assoc, ← pairs_append]
    exact ((filter_split new (· ∈ old)).symm.map _).append_right _

theorem fresh_of_count {old new : List Nat} {w w' : World} {b : Nat} (hc : new.count b ≤ old.count b + fresh b w w') (hb : b ∈ new) (hbo : b ∉ old) : w.next ≤ b ∧ b < w'.next := by
  have h2 := List.count_pos_iff.2 hb
  rw [List.count_eq_zero.2 hbo] at hc
  unfold fresh at hc
  split at hc
  · assumption
  · omega

theorem nodup_of_count {old new : List Nat} {w w' : World} (ho : old.Nodup) (holt : ∀ b ∈ old, b < w.next) (hc : ∀ b, b ≠ 0 → new.count b ≤ old.count b + fresh b w w') (h0 : 0 ∉ new) : new.Nodup := by
  refine List.nodup_iff_count.2 fun b => ?_
  by_cases hb : b ∈ new
  · have h1 := hc b (fun e => h0 (e ▸ hb))
    have h2 := List.nodup_iff_count.1 ho b
    by_cases hbo : b ∈ old
    · have := holt b hbo
      have h3 : fresh b w w' = 0 := by unfold fresh; split <;> omega
      omega
    · rw [List.count_eq_zero.2 hbo] at h1
      have : fresh b w w' ≤ 1 := by unfold fresh; split <;> omega
      omega
  · rw [List.count_eq_zero.2 hb]; omega

theorem settle_ok {h : Heap V} {al : Alloc} {old new : List Nat} {L : List (Nat × Alloc)} {w w' : World} (ha : Accounts h.blocks (pairs al old ++ L) w) (hw : w.next ≤ w'.next)
    (hc : ∀ b, b ≠ 0 → new.count b ≤ old.count b + fresh b w w') (h0 : 0 ∉ new) :
    ∃ B, settle al old new h w' = .ok () { h with blocks := B } w' ∧ Accounts B (pairs al new ++ L) w' := by
  have hno : (old ++ L.map Prod.fst).Nodup := by
    have := ha.nodup
    rwa [List.map_append, pairs_fst] at this
  have holt : ∀ b ∈ old, b < w.next := fun b hb => (ha.lt (b, al) (List.mem_append_left _ (mem_pairs.2 ⟨hb, rfl⟩))).2
  have hn0 : ∀ b ∈ new, b ≠ 0 := fun b hb e => h0 (e ▸ hb)
  refine settle_ok' (ha.mono hw) (nodup_of_count (List.nodup_append.1 hno).1 holt hc h0) fun b hb hbo => ?_
  have := fresh_of_count (hc b (hn0 b hb)) hb hbo
  refine ⟨Nat.pos_of_ne_zero (hn0 b hb), this.2, fun hx => ?_⟩
  obtain ⟨y, hy, rfl⟩ := List.mem_map.1 hx
  have := (ha.lt y (List.mem_append_right _ hy)).2
  omega

end Heap

/-! ## Programs side by side -/

/-- Both programs end alike: with results related by `Q`, with the same exception and states related by `R`, or undefined. -/
def Sim {X Y α β : Type} (p : Prog X α) (q : Prog Y β) (x : X) (y : Y) (w : World) (Q : α → β → X → Y → World → Prop) (R : X → Y → World → Prop) : Prop :=
  match p x w, q y w with
  | .ok a x' w', .ok b y' w'' => w' = w'' ∧ Q a b x' y' w'
  | .exc e x' w', .exc e' y' w'' => e = e' ∧ w' = w'' ∧ R x' y' w'
  | .ub, .ub => True
  | _, _ => False

namespace Sim
variable {X Y α β γ δ : Type} {x x' : X} {y y' : Y} {w w' : World} {R : X → Y → World → Prop}

theorem bind {p : Prog X α} {q : Prog Y β} {f : α → Prog X γ} {g : β → Prog Y δ} {Q : α → β → X → Y → World → Prop} {Q' : γ → δ → X → Y → World → Prop}
    (h : Sim p q x y w Q R) (hf : ∀ a b x' y' w', Q a b x' y' w' → Sim (f a) (g b) x' y' w' Q' R) : Sim (p >>= f) (q >>= g) x y w Q' R := by
  unfold Sim at h ⊢
  simp only [Bind.bind, Prog.bind]
  cases hp : p x w <;> cases hq : q y w <;> simp only [hp, hq] at h ⊢
  · obtain ⟨rfl, h⟩ := h; exact hf _ _ _ _ _ h
  · exact h

theorem left {p : Prog X α} {f : α → Prog X γ} {q : Prog Y δ} {Q : γ → δ → X → Y → World → Prop} {a : α}
    (hp : p x w = .ok a x' w) (h : Sim (f a) q x' y w Q R) : Sim (p >>= f) q x y w Q R := by
  unfold Sim at h ⊢
  simp only [Bind.bind, Prog.bind, hp]
  exact h

theorem right {p : Prog X α} {q : Prog Y β} {g : β → Prog Y δ} {Q : α → δ → X → Y → World → Prop} {b : β}
    (hq : q y w = .ok b y' w) (h : Sim p (g b) x y' w Q R) : Sim p (q >>= g) x y w Q R := by
  unfold Sim at h ⊢
  simp only [Bind.bind, Prog.bind, hq]
  exact h

theorem pure {a : α} {b : β} {Q : α → β → X → Y → World → Prop} (h : Q a b x y w) : Sim (Pure.pure a) (Pure.pure b) x y w Q R := ⟨rfl, h⟩

theorem ub {p : Prog X α} {q : Prog Y β} {Q : α → β → X → Y → World → Prop} (hp : p x w = .ub) (hq : q y w = .ub) : Sim p q x y w Q R := by
  unfold Sim; rw [hp, hq]; trivial

theorem mono {p : Prog X α} {q : Prog Y β} {Q Q' : α → β → X → Y → World → Prop} {R' : X → Y → World → Prop} (h : Sim p q x y w Q R)
    (hQ : ∀ a b x' y' w', Q a b x' y' w' → Q' a b x' y' w') (hR : ∀ x' y' w', R x' y' w' → R' x' y' w') : Sim p q x y w Q' R' := by
  unfold Sim at h ⊢
  cases hp : p x w <;> cases hq : q y w <;> simp only [hp, hq] at h ⊢
  · exact ⟨h.1, hQ _ _ _ _ _ h.2⟩
  · exact ⟨h.1, h.2.1, hR _ _ _ h.2.2⟩

theorem onExc {p : Prog X α} {q : Prog Y β} {c : Prog X Unit} {Q : α → β → X → Y → World → Prop} {R' : X → Y → World → Prop} (h : Sim p q x y w Q R)
    (hc : ∀ x' y' w', R x' y' w' → ∃ x'', c x' w' = .ok () x'' w' ∧ R' x'' y' w') : Sim (Prog.onExc p c) q x y w Q R' := by
  unfold Sim at h ⊢
  unfold Prog.onExc
  cases hp : p x w <;> cases hq : q y w <;> simp only [hp, hq] at h ⊢
  · exact h
  · obtain ⟨x'', e, hx⟩ := hc _ _ _ h.2.2
    simp only [e]
    exact ⟨h.1, h.2.1, hx⟩

/-- Bookkeeping after both programs. -/
theorem bindL {p : Prog X α} {q : Prog Y β} {f : α → Prog X γ} {Q : α → β → X → Y → World → Prop} {Q' : γ → β → X → Y → World → Prop}
    (h : Sim p q x y w Q R) (hf : ∀ a b x' y' w', Q a b x' y' w' → ∃ r x'', f a x' w' = .ok r x'' w' ∧ Q' r b x'' y' w') : Sim (p >>= f) q x y w Q' R := by
  unfold Sim at h ⊢
  simp only [Bind.bind, Prog.bind]
  cases hp : p x w <;> cases hq : q y w <;> simp only [hp, hq] at h ⊢
  · obtain ⟨rfl, h⟩ := h
    obtain ⟨r, x'', e, hx⟩ := hf _ _ _ _ _ h
    simp only [e]
    exact ⟨trivial, hx⟩
  · exact h

end Sim

theorem Backend.count_buffers (x : Backend V) {b : Nat} (hb : b ≠ 0) : x.buffers.count b = x.own b := by
  cases x <;> simp [Backend.buffers, Backend.own, Packed.own, Split.own, Vec.own, one, List.count_filter, hb, List.count_cons, Nat.add_comm]

theorem Backend.zero_buffers (x : Backend V) : 0 ∉ x.buffers := by
  cases x <;> simp [Backend.buffers]

theorem Vec.count_buffers {α : Type} (x : Vec α) {b : Nat} (hb : b ≠ 0) : x.buffers.count b = x.own b := by
  simp [Vec.buffers, Vec.own, one, List.count_filter, hb, List.count_cons]

theorem Vec.zero_buffers {α : Type} (x : Vec α) : 0 ∉ x.buffers := by simp [Vec.buffers]

namespace Heap
variable {V : Type} {E : Env V} {S : Type}

/-- What the segment objects hold: their own storage and the buffers of their vectors, all from the allocator of the vector. -/
def holds (l : List (Nat × Backend V)) : List (Nat × Alloc) := l.flatMap fun p => (p.1, p.2.al) :: pairs p.2.al p.2.buffers

/-- The storage of the temporary. -/
def tmpHolds (h : Heap V) : List (Nat × Alloc) := pairs h.tmp.2 h.tmp.1.buffers

/-- The second program: what `Verif.Model.Segment` says about the constructors. -/
def initK {X : Type} (E : Env V) (k : Kind) (t : Ty) (al objAl : Alloc) (s : Vec V) : Prog X (Backend V) :=
  match k with
  | .packed => Prog.pure (.packed ⟨t, al, objAl, s⟩)
  | .split => do
    let y ← Split.init E t al objAl s
    return .split y

theorem body_sim {k : Kind} {t : Ty} {al objAl : Alloc} {s : Vec V} {h : Heap V} {L : List (Nat × Alloc)} {w : World} {z : S} (ha : Accounts h.blocks (pairs al s.buffers ++ L) w) :
    Sim (body E k t al objAl s) (initK E k t al objAl s) h z w
      (fun b b' h' z' w' => b' = b ∧ z' = z ∧ (∃ B, h' = { h with blocks := B }) ∧ Accounts h'.blocks (pairs al b.buffers ++ L) w' ∧ b.kind = k ∧ b.ty = t ∧ b.al = al)
      (fun h' z' w' => z' = z ∧ (∃ B, h' = { h with blocks := B }) ∧ Accounts h'.blocks L w') := by
  cases k with
  | packed => exact ⟨rfl, rfl, rfl, ⟨_, rfl⟩, ha, rfl, rfl, rfl⟩
  | split =>
    have hk : Keeps (sameCtx Split.fix) (do Split.onS (E.reserve t 1); Split.buildIndex E 0 : Prog (Split V) Unit) :=
      Keeps.bind (Split.onS_keeps (Env.reserve_keeps _ _ _)) fun _ => Split.buildIndex_keeps _ _
    have ht : ∀ b, Tidy (anyCtx _) b (Split.own b) (do Split.onS (E.reserve t 1); Split.buildIndex E 0 : Prog (Split V) Unit) :=
      fun b => Tidy.bind (Split.onS_tidy (Env.reserve_tidy 1)) fun _ => Split.buildIndex_tidy 0
    unfold Sim body initK Split.init
    generalize (do Split.onS (E.reserve t 1); Split.buildIndex E 0 : Prog (Split V) Unit) = p at hk ht ⊢
    have hk' := hk.leaves (x := ⟨t, al, objAl, s, Vec.nil⟩) (w := w) trivial
    have ht' := fun b => (ht b).run ⟨t, al, objAl, s, Vec.nil⟩ w trivial
    have hcount : ∀ {y : Split V} {w' : World}, (∀ b, y.own b ≤ (⟨t, al, objAl, s, Vec.nil⟩ : Split V).own b + fresh b w w') →
        ∀ b, b ≠ 0 → (Backend.split y).buffers.count b ≤ s.buffers.count b + fresh b w w' := by
      intro y w' hy b hb
      rw [Backend.count_buffers _ hb, Vec.count_buffers _ hb]
      have := hy b
      simp only [Split.own, Env.nil_own hb] at this
      simpa [Backend.own, Split.own] using this
    simp only [bind, Prog.bind, Prog.locally]
    unfold Leaves at hk' ht'
    cases hp : p ⟨t, al, objAl, s, Vec.nil⟩ w with
    | ok r y w' =>
      simp only [hp] at hk' ht' ⊢
      obtain ⟨B, e, hB⟩ := settle_ok (new := (Backend.split y).buffers) ha hk'.2.2 (hcount fun b => (ht' b).2.2) (Backend.zero_buffers _)
      have hf : y.fix = (t, al, objAl) := hk'.2.1
      simp only [Split.fix, Prod.mk.injEq] at hf
      simp only [e]
      exact ⟨rfl, rfl, rfl, ⟨B, rfl⟩, hB, rfl, hf.1, hf.2.1⟩
    | exc r y w' =>
      simp only [hp] at hk' ht' ⊢
      obtain ⟨B, e, hB⟩ := settle_ok (new := (Backend.split y).buffers) ha hk'.2.2 (hcount fun b => (ht' b).2.2) (Backend.zero_buffers _)
      obtain ⟨B', e', hB'⟩ := releaseAll_ok _ (h := { h with blocks := B }) hB
      simp only [e, e']
      exact ⟨rfl, rfl, rfl, ⟨B', rfl⟩, hB'⟩
    | ub => trivial

/-- `new_`, given a constructor. -/
theorem new_sim {k : Kind} {t : Ty} {al : Alloc} {h : Heap V} {L L' : List (Nat × Alloc)} {w : World} {z : S} {ctor : Prog (Heap V) (Backend V)} {init : Prog S (Backend V)}
    {Rx : Heap V → World → Prop} {F : Heap V → Prop}
    (ha : Accounts h.blocks L w)
    (hc : ∀ (h' : Heap V) w', h'.tmp = h.tmp → h'.segs = h.segs → h'.objs = h.objs → w'.next = w.next + 1 → Accounts h'.blocks ((w.next, al) :: L) w' →
      Sim ctor init h' z w' (fun b b' h' z' w'' => b' = b ∧ z' = z ∧ F h' ∧ h'.objs = h.objs ∧ w'.next ≤ w''.next ∧ Accounts h'.blocks ((w.next, al) :: (pairs al b.buffers ++ L')) w'' ∧ b.kind = k ∧ b.ty = t ∧ b.al = al)
        (fun h' z' w'' => z' = z ∧ ∃ L'', Accounts h'.blocks ((w.next, al) :: L'') w'' ∧ ∀ B, Accounts B L'' w'' → Rx { h' with blocks := B } w''))
    (hx : ∀ w', w'.next = w.next → Rx h w') (hF : ∀ h' o, F h' → F { h' with objs := o }) :
    Sim (new_ E k t al ctor) (do let _ ← E.alloc; init : Prog S (Backend V)) h z w
      (fun o b h' z' w' => z' = z ∧ o = ⟨w.next, k, t⟩ ∧ h'.objs = (w.next, b) :: h.objs ∧ F h' ∧ w.next < w'.next ∧ b.kind = k ∧ b.ty = t ∧ b.al = al ∧
        Accounts h'.blocks ((w.next, al) :: (pairs al b.buffers ++ L')) w')
      (fun h' z' w' => z' = z ∧ Rx h' w') := by
  unfold new_ obtain
  by_cases hf : E.fault w.tick = true
  · unfold Sim
    simp only [bind, Prog.bind, Env.alloc, if_pos hf]
    exact ⟨trivial, trivial, trivial, hx _ rfl⟩
  · have hcc := hc { h with blocks := (w.next, al) :: h.blocks } ⟨w.next + 1, w.tick + 1⟩ rfl rfl rfl rfl
      ((ha.mono (Nat.le_succ _)).add ⟨ha.pos, Nat.lt_succ_self _⟩ (by
        intro hm
        obtain ⟨x, hx, e⟩ := List.mem_map.1 hm
        have := (ha.lt x hx).2
        omega))
    have hc' := Sim.onExc hcc (c := giveBack al w.next) (R' := fun h' z' w' => z' = z ∧ Rx h' w') (by
      rintro h' z' w' ⟨hz, L'', hL, hB⟩
      obtain ⟨B, e, hB'⟩ := giveBack_ok hL
      exact ⟨_, e, hz, hB B hB'⟩)
    have hc2 := Sim.bindL hc' (f := fun b => do
        let h ← Prog.get
        Prog.set { h with objs := (w.next, b) :: h.objs }
        return (⟨w.next, k, t⟩ : Owner))
      (Q' := fun o b h' z' w' => z' = z ∧ o = ⟨w.next, k, t⟩ ∧ h'.objs = (w.next, b) :: h.objs ∧ F h' ∧ w.next < w'.next ∧ b.kind = k ∧ b.ty = t ∧ b.al = al ∧
        Accounts h'.blocks ((w.next, al) :: (pairs al b.buffers ++ L')) w') (by
      rintro b b' h' z' w' ⟨rfl, rfl, h1, h2, h3, h4, h5, h6, h7⟩
      refine ⟨_, _, rfl, rfl, rfl, ?_, hF _ _ h1, h3, h5, h6, h7, h4⟩
      rw [← h2])
    unfold Sim at hc2 ⊢
    simp only [bind, Prog.bind, Env.alloc, if_neg hf] at hc2 ⊢
    exact hc2

theorem holds_cons (a : Nat) (b : Backend V) (l : List (Nat × Backend V)) : holds ((a, b) :: l) = (a, b.al) :: (pairs b.al b.buffers ++ holds l) := by
  unfold holds; rw [List.flatMap_cons]; rfl

theorem nil_buffers {α : Type} : (Vec.nil : Vec α).buffers = [] := rfl

theorem newAl_sim {k : Kind} {t : Ty} {al : Alloc} {h : Heap V} {w : World} {z : S} (ha : Accounts h.blocks (holds h.objs) w) :
    Sim (new_ E k t al (ctorAl E k t al)) (do let _ ← E.alloc; initK E k t al al Vec.nil : Prog S (Backend V)) h z w
      (fun o b h' z' w' => z' = z ∧ o = ⟨w.next, k, t⟩ ∧ h'.objs = (w.next, b) :: h.objs ∧ (h'.segs = h.segs ∧ h'.tmp = h.tmp) ∧ w.next < w'.next ∧ b.kind = k ∧ b.ty = t ∧ b.al = al ∧
        Accounts h'.blocks (holds h'.objs) w')
      (fun h' z' w' => z' = z ∧ h'.objs = h.objs ∧ h'.segs = h.segs ∧ h'.tmp = h.tmp ∧ Accounts h'.blocks (holds h'.objs) w') := by
  refine (new_sim (L' := holds h.objs) (Rx := fun h' w' => h'.objs = h.objs ∧ h'.segs = h.segs ∧ h'.tmp = h.tmp ∧ Accounts h'.blocks (holds h'.objs) w')
    (F := fun h' => h'.segs = h.segs ∧ h'.tmp = h.tmp) ha ?_ ?_ ?_).mono ?_ (fun _ _ _ g => g)
  · intro h1 w1 h2 h3 h4 h5 h6
    refine (body_sim (L := (w.next, al) :: holds h.objs) (by rw [nil_buffers]; exact h6)).mono ?_ ?_
    · rintro b b' h' z' w' ⟨rfl, rfl, ⟨B, rfl⟩, g1, g2⟩
      have : w1.next ≤ w'.next := by
        by_cases hw : w1.next ≤ w'.next
        · exact hw
        · have := (g1.lt (w.next, al) (by simp)).2; omega
      exact ⟨rfl, rfl, ⟨h3, h2⟩, h4, this, g1.of_perm List.perm_middle, g2⟩
    · rintro h' z' w' ⟨rfl, ⟨B, rfl⟩, g1⟩
      exact ⟨rfl, _, g1, fun B' hB' => ⟨h4, h3, h2, by show Accounts B' (holds h1.objs) w'; rw [h4]; exact hB'⟩⟩
  · exact fun w' hw => ⟨rfl, rfl, rfl, ha.mono (Nat.le_of_eq hw.symm)⟩
  · exact fun h' o hF => hF
  · rintro o b h' z' w' ⟨h1, h2, h3, h4, h5, h6, h7, rfl, h9⟩
    refine ⟨h1, h2, h3, h4, h5, h6, h7, rfl, ?_⟩
    rw [h3, holds_cons]; exact h9

theorem newStore_sim {k : Kind} {t : Ty} {v : Vec V} {al : Alloc} {h : Heap V} {w : World} {z : S} (ht : h.tmp = (v, al)) (ha : Accounts h.blocks (pairs al v.buffers ++ holds h.objs) w) :
    Sim (new_ E k t al (ctorStore E k t al)) (do let _ ← E.alloc; initK E k t al al v : Prog S (Backend V)) h z w
      (fun o b h' z' w' => z' = z ∧ o = ⟨w.next, k, t⟩ ∧ h'.objs = (w.next, b) :: h.objs ∧ (h'.segs = h.segs ∧ h'.tmp = (Vec.nil, al)) ∧ w.next < w'.next ∧ b.kind = k ∧ b.ty = t ∧ b.al = al ∧
        Accounts h'.blocks (holds h'.objs) w')
      (fun h' z' w' => z' = z ∧ h'.objs = h.objs ∧ h'.segs = h.segs ∧ Accounts h'.blocks (tmpHolds h' ++ holds h'.objs) w') := by
  refine (new_sim (L' := holds h.objs) (Rx := fun h' w' => h'.objs = h.objs ∧ h'.segs = h.segs ∧ Accounts h'.blocks (tmpHolds h' ++ holds h'.objs) w')
    (F := fun h' => h'.segs = h.segs ∧ h'.tmp = (Vec.nil, al)) ha ?_ ?_ ?_).mono ?_ (fun _ _ _ g => g)
  · intro h1 w1 h2 h3 h4 h5 h6
    unfold ctorStore
    refine Sim.left (x' := h1) (a := h1) rfl ?_
    rw [h2, ht]
    refine Sim.left (x' := { h1 with tmp := (Vec.nil, al) }) (a := ()) rfl ?_
    refine (body_sim (h := { h1 with tmp := (Vec.nil, al) }) (L := (w.next, al) :: holds h.objs) (h6.of_perm List.perm_middle.symm)).mono ?_ ?_
    · rintro b b' h' z' w' ⟨rfl, rfl, ⟨B, rfl⟩, g1, g2⟩
      have : w1.next ≤ w'.next := by
        by_cases hw : w1.next ≤ w'.next
        · exact hw
        · have := (g1.lt (w.next, al) (by simp)).2; omega
      exact ⟨rfl, rfl, ⟨h3, rfl⟩, h4, this, g1.of_perm List.perm_middle, g2⟩
    · rintro h' z' w' ⟨rfl, ⟨B, rfl⟩, g1⟩
      exact ⟨rfl, _, g1, fun B' hB' => ⟨h4, h3, by show Accounts B' (holds h1.objs) w'; rw [h4]; exact hB'⟩⟩
  · exact fun w' hw => ⟨rfl, rfl, by rw [show tmpHolds h = pairs al v.buffers by unfold tmpHolds; rw [ht]]; exact ha.mono (Nat.le_of_eq hw.symm)⟩
  · exact fun h' o hF => hF
  · rintro o b h' z' w' ⟨h1, h2, h3, h4, h5, h6, h7, rfl, h9⟩
    refine ⟨h1, h2, h3, h4, h5, h6, h7, rfl, ?_⟩
    rw [h3, holds_cons]; exact h9

theorem dropTmp_ok {h : Heap V} {L : List (Nat × Alloc)} {w : World} (ha : Accounts h.blocks (tmpHolds h ++ L) w) :
    ∃ B, dropTmp h w = .ok () { h with blocks := B, tmp := (Vec.nil, 0) } w ∧ Accounts B L w := by
  obtain ⟨B, e, hB⟩ := releaseAll_ok _ ha
  refine ⟨B, ?_, hB⟩
  unfold dropTmp
  simp only [bind, Prog.bind, Prog.get, e]
  rfl

/-- `new_(al,store{...})`. -/
theorem newTmp_sim {k : Kind} {t : Ty} {v : Vec V} {al : Alloc} {h : Heap V} {w : World} {z : S} (ha : Accounts h.blocks (pairs al v.buffers ++ holds h.objs) w) :
    Sim (withTmp v al (new_ E k t al (ctorStore E k t al))) (do let _ ← E.alloc; initK E k t al al v : Prog S (Backend V)) h z w
      (fun o b h' z' w' => z' = z ∧ o = ⟨w.next, k, t⟩ ∧ h'.objs = (w.next, b) :: h.objs ∧ (h'.segs = h.segs ∧ h'.tmp = (Vec.nil, 0)) ∧ w.next < w'.next ∧ b.kind = k ∧ b.ty = t ∧ b.al = al ∧
        Accounts h'.blocks (holds h'.objs) w')
      (fun h' z' w' => z' = z ∧ h'.objs = h.objs ∧ h'.segs = h.segs ∧ h'.tmp = (Vec.nil, 0) ∧ Accounts h'.blocks (holds h'.objs) w') := by
  unfold withTmp
  refine Sim.left (x' := { h with tmp := (v, al) }) (a := ()) rfl ?_
  refine Sim.bindL (Sim.onExc (newStore_sim rfl ha) (R' := fun h' z' w' => z' = z ∧ h'.objs = h.objs ∧ h'.segs = h.segs ∧ h'.tmp = (Vec.nil, 0) ∧ Accounts h'.blocks (holds h'.objs) w') ?_) ?_
  · rintro h' z' w' ⟨h1, h2, h3, h4⟩
    obtain ⟨B, e, hB⟩ := dropTmp_ok h4
    exact ⟨_, e, h1, h2, h3, rfl, hB⟩
  · rintro o b h' z' w' ⟨h1, h2, h3, ⟨h4, h4'⟩, h5, h6, h7, h8, h9⟩
    obtain ⟨B, e, hB⟩ := dropTmp_ok (h := h') (L := holds h'.objs) (by unfold tmpHolds; rw [h4']; exact h9)
    refine ⟨o, { h' with blocks := B, tmp := (Vec.nil, 0) }, ?_, h1, h2, h3, ⟨h4, rfl⟩, h5, h6, h7, h8, hB⟩
    simp only [bind, Prog.bind, e]; rfl

/-! ## Objects in the list -/

/-- The list after `setObject`. -/
def upd (a : Nat) (b : Backend V) (l : List (Nat × Backend V)) : List (Nat × Backend V) := l.map fun p => if p.1 = a then (a, b) else p

/-- The list without an object. -/
def del (a : Nat) (l : List (Nat × Backend V)) : List (Nat × Backend V) := l.filter fun p => p.1 ≠ a

theorem lookup_upd {a : Nat} {x y : Backend V} (c : Nat) : ∀ {l : List (Nat × Backend V)}, l.lookup a = some x → (upd a y l).lookup c = if c = a then some y else l.lookup c := by
  have key : ∀ (l : List (Nat × Backend V)), (upd a y l).lookup c = if c = a then (l.lookup a).map (fun _ => y) else l.lookup c := by
    intro l
    induction l with
    | nil => simp [upd]
    | cons p l ih =>
      obtain ⟨q, z⟩ := p
      unfold upd at ih ⊢
      rw [List.map_cons]
      by_cases h1 : q = a
      · subst h1
        by_cases h2 : c = q
        · subst h2; simp
        · simp only [if_true, List.lookup_cons, beq_eq_false_iff_ne.2 h2, ih, if_neg h2]
      · simp only [if_neg h1, List.lookup_cons, ih]
        by_cases h2 : c = a
        · subst h2
          simp [beq_eq_false_iff_ne.2 (Ne.symm h1)]
        · simp only [if_neg h2]
  intro l hl
  rw [key l, hl]; rfl

theorem lookup_del {a : Nat} (c : Nat) : ∀ (l : List (Nat × Backend V)), (del a l).lookup c = if c = a then none else l.lookup c := by
  intro l
  induction l with
  | nil => simp [del]
  | cons p l ih =>
    obtain ⟨q, z⟩ := p
    unfold del at ih ⊢
    by_cases h1 : q = a
    · subst h1
      rw [List.filter_cons_of_neg (by simp), ih]
      by_cases h2 : c = q
      · subst h2; simp
      · simp only [if_neg h2, List.lookup_cons, beq_eq_false_iff_ne.2 h2]
    · rw [List.filter_cons_of_pos (by simpa using h1), List.lookup_cons, List.lookup_cons, ih]
      by_cases h2 : c = a
      · subst h2; simp [beq_eq_false_iff_ne.2 (Ne.symm h1)]
      · simp only [if_neg h2]

theorem mem_of_lookup {a : Nat} {x : Backend V} : ∀ {l : List (Nat × Backend V)}, l.lookup a = some x → (a, x) ∈ l
  | p :: l, h => by
    rw [List.lookup_cons] at h
    split at h
    · next e => obtain rfl : a = p.1 := by simpa using e
                cases h; exact List.mem_cons_self
    · exact List.mem_cons_of_mem _ (mem_of_lookup h)

theorem lookup_of_mem {p : Nat × Backend V} : ∀ {l : List (Nat × Backend V)}, (l.map Prod.fst).Nodup → p ∈ l → l.lookup p.1 = some p.2
  | q :: l, hn, h => by
    rw [List.map_cons, List.nodup_cons] at hn
    rw [List.lookup_cons]
    rcases List.mem_cons.1 h with rfl | h
    · simp
    · have : p.1 ≠ q.1 := fun e => hn.1 (e ▸ List.mem_map.2 ⟨p, h, rfl⟩)
      simp only [beq_eq_false_iff_ne.2 this]
      exact lookup_of_mem hn.2 h

theorem keys_sublist : ∀ (l : List (Nat × Backend V)), (l.map Prod.fst).Sublist ((holds l).map Prod.fst)
  | [] => List.Sublist.refl _
  | p :: l => by
    obtain ⟨a, b⟩ := p
    rw [holds_cons, List.map_cons, List.map_cons, List.map_append]
    exact ((keys_sublist l).trans (List.sublist_append_right _ _)).cons_cons a

theorem keys_nodup {l : List (Nat × Backend V)} {B : List (Nat × Alloc)} {w : World} (h : Accounts B (holds l) w) : (l.map Prod.fst).Nodup := h.nodup.sublist (keys_sublist l)

theorem keys_lt {l : List (Nat × Backend V)} {B : List (Nat × Alloc)} {w : World} (h : Accounts B (holds l) w) {p : Nat × Backend V} (hp : p ∈ l) : p.1 < w.next := by
  have : p.1 ∈ (holds l).map Prod.fst := (keys_sublist l).subset (List.mem_map.2 ⟨p, hp, rfl⟩)
  obtain ⟨x, hx, e⟩ := List.mem_map.1 this
  rw [← e]; exact (h.lt x hx).2

theorem lookup_lt {l : List (Nat × Backend V)} {B : List (Nat × Alloc)} {w : World} (h : Accounts B (holds l) w) {a : Nat} {x : Backend V} (hl : l.lookup a = some x) : a < w.next :=
  keys_lt h (mem_of_lookup hl)

theorem holds_del {a : Nat} {x : Backend V} : ∀ {l : List (Nat × Backend V)}, (l.map Prod.fst).Nodup → l.lookup a = some x →
    (holds l).Perm ((a, x.al) :: (pairs x.al x.buffers ++ holds (del a l)))
  | p :: l, hn, h => by
    obtain ⟨q, z⟩ := p
    rw [List.map_cons, List.nodup_cons] at hn
    rw [List.lookup_cons] at h
    rw [holds_cons]
    by_cases e : a = q
    · subst e
      simp only [beq_self_eq_true, Option.some.injEq] at h
      subst h
      have : del a ((a, z) :: l) = l := by
        unfold del
        rw [List.filter_cons_of_neg (by simp), List.filter_eq_self]
        intro r hr
        have : r.1 ≠ a := fun e => hn.1 (e ▸ List.mem_map.2 ⟨r, hr, rfl⟩)
        simpa using this
      rw [this]
    · simp only [beq_eq_false_iff_ne.2 e] at h
      have : del a ((q, z) :: l) = (q, z) :: del a l := by
        unfold del
        rw [List.filter_cons_of_pos (by simpa using Ne.symm e)]
      rw [this, holds_cons]
      refine ((((holds_del hn.2 h).append_left (pairs z.al z.buffers)).cons (q, z.al))).trans ?_
      refine (List.Perm.trans (List.perm_middle.cons _) (List.Perm.swap _ _ _)).trans (List.Perm.cons _ ?_)
      have hp : ((q, z.al) :: pairs z.al z.buffers ++ pairs x.al x.buffers ++ holds (del a l)).Perm (pairs x.al x.buffers ++ ((q, z.al) :: pairs z.al z.buffers) ++ holds (del a l)) :=
        List.perm_append_comm.append_right _
      simpa using hp

theorem holds_upd {a : Nat} {x y : Backend V} : ∀ {l : List (Nat × Backend V)}, (l.map Prod.fst).Nodup → l.lookup a = some x →
    (holds (upd a y l)).Perm ((a, y.al) :: (pairs y.al y.buffers ++ holds (del a l)))
  | p :: l, hn, h => by
    have h1 : ((upd a y (p :: l)).map Prod.fst) = (p :: l).map Prod.fst := by
      unfold upd
      rw [List.map_map]
      refine List.map_congr_left fun r _ => ?_
      simp only [Function.comp]
      split
      · next e => exact e.symm
      · rfl
    have h2 := holds_del (a := a) (x := y) (l := upd a y (p :: l)) (by rw [h1]; exact hn) (by rw [lookup_upd a h, if_pos rfl])
    have h3 : del a (upd a y (p :: l)) = del a (p :: l) := by
      unfold del upd
      rw [List.filter_map]
      generalize (p :: l) = m
      induction m with
      | nil => rfl
      | cons r m ih =>
        by_cases e : r.1 = a
        · rw [List.filter_cons_of_neg (by simp [e]), List.filter_cons_of_neg (by simp [e])]; exact ih
        · rw [List.filter_cons_of_pos (by simp [e]), List.filter_cons_of_pos (by simp [e]), List.map_cons, if_neg e]; rw [ih]
    rw [h3] at h2
    exact h2

/-! ## The invariant -/

/-- Every segment that was not moved from has its own object, of the type its deleter expects, and every object has a segment. -/
structure Owned (h : Heap V) : Prop where
  has : ∀ i s o, h.segs i = some s → s.ptr = some o → ∃ b, h.objs.lookup o.addr = some b ∧ b.kind = o.kind ∧ b.ty = o.ty
  inj : ∀ i j s s' o o', h.segs i = some s → h.segs j = some s' → s.ptr = some o → s'.ptr = some o' → o.addr = o'.addr → i = j
  all : ∀ p ∈ h.objs, ∃ i s o, h.segs i = some s ∧ s.ptr = some o ∧ o.addr = p.1

structure Inv (h : Heap V) (w : World) : Prop where
  acc : Accounts h.blocks (holds h.objs) w
  own : Owned h
  tmp : h.tmp = (Vec.nil, 0)

/-- The segments as values. -/
def abs (h : Heap V) : Vars V := fun i => (h.segs i).map fun s => s.ptr.bind fun o => (h.objs.lookup o.addr).map fun b => ⟨b, s.snt⟩

/-- Change of a variable. -/
def _root_.PolyColl.Vars.upd (s : Vars V) (i : Nat) (x : Option (Option (Seg V))) : Vars V := fun j => if j = i then x else s j

theorem delete_ok {h : Heap V} {o : Owner} {b : Backend V} {w : World} (ha : Accounts h.blocks (holds h.objs) w) (hl : h.objs.lookup o.addr = some b)
    (hk : b.kind = o.kind) (ht : b.ty = o.ty) : ∃ B, delete_ o h w = .ok () { h with blocks := B, objs := del o.addr h.objs } w ∧ Accounts B (holds (del o.addr h.objs)) w := by
  have h1 := ha.of_perm (holds_del (keys_nodup ha) hl)
  obtain ⟨B, e, hB⟩ := releaseAll_ok b.buffers (al := b.al) (h := h) (h1.of_perm List.perm_middle.symm)
  obtain ⟨B', e', hB'⟩ := giveBack_ok (h := { h with blocks := B, objs := del o.addr h.objs }) hB
  refine ⟨B', ?_, hB'⟩
  unfold delete_ object
  simp only [bind, Prog.bind, Prog.get, hl, Prog.ofOption, Prog.pure, if_pos (And.intro hk ht), e, Prog.set]
  exact e'

theorem lookup_key {l : List (Nat × Backend V)} {c : Nat} {x : Backend V} (h : l.lookup c = some x) : c ∈ l.map Prod.fst := List.mem_map.2 ⟨_, mem_of_lookup h, rfl⟩

/-- A new object becomes that of variable `i`, which had none. -/
theorem place {h h' : Heap V} {i : Nat} {o : Owner} {b : Backend V} {w : World} (ho : Owned h) (hi : ∀ s, h.segs i = some s → s.ptr = none) (h1 : h'.objs = (o.addr, b) :: h.objs)
    (h2 : ∀ j, j ≠ i → h'.segs j = h.segs j) (h2i : ∃ q, h'.segs i = some ⟨some o, q⟩)
    (h3 : h'.tmp = (Vec.nil, 0)) (h4 : Accounts h'.blocks (holds h'.objs) w) (hk : b.kind = o.kind) (ht : b.ty = o.ty) :
    Inv h' w ∧ ∀ q, h'.segs i = some ⟨some o, q⟩ → abs h' = (abs h).upd i (some (some ⟨b, q⟩)) := by
  have hl : h'.objs.lookup o.addr = some b := by rw [h1, List.lookup_cons]; simp
  have hnk : ∀ c x, h.objs.lookup c = some x → c ≠ o.addr := by
    intro c x hc e
    have := keys_nodup h4
    rw [h1, List.map_cons, List.nodup_cons] at this
    exact this.1 (e ▸ lookup_key hc)
  have hlo : ∀ c, c ≠ o.addr → h'.objs.lookup c = h.objs.lookup c := by
    intro c hc; rw [h1, List.lookup_cons, beq_eq_false_iff_ne.2 hc]
  obtain ⟨q0, h2i⟩ := h2i
  refine ⟨⟨h4, ⟨?_, ?_, ?_⟩, h3⟩, ?_⟩
  · intro j s q hs hq
    by_cases hj : j = i
    · subst hj
      rw [h2i] at hs
      cases hs; cases hq
      exact ⟨b, hl, hk, ht⟩
    · rw [h2 j hj] at hs
      obtain ⟨x, g1, g2⟩ := ho.has j s q hs hq
      exact ⟨x, by rw [hlo _ (hnk _ _ g1)]; exact g1, g2⟩
  · intro j j' s s' q q' hs hs' hq hq' e
    by_cases hj : j = i <;> by_cases hj' : j' = i
    · exact hj.trans hj'.symm
    · subst hj
      rw [h2i] at hs
      rw [h2 j' hj'] at hs'
      cases hs; cases hq
      obtain ⟨x, g1, g2⟩ := ho.has j' s' q' hs' hq'
      exact absurd e.symm (hnk _ _ g1)
    · subst hj'
      rw [h2i] at hs'
      rw [h2 j hj] at hs
      cases hs'; cases hq'
      obtain ⟨x, g1, g2⟩ := ho.has j s q hs hq
      exact absurd e (hnk _ _ g1)
    · rw [h2 j hj] at hs
      rw [h2 j' hj'] at hs'
      exact ho.inj j j' s s' q q' hs hs' hq hq' e
  · intro p hp
    have hp : p ∈ (o.addr, b) :: h.objs := h1 ▸ hp
    rcases List.mem_cons.1 hp with rfl | hp
    · exact ⟨i, ⟨some o, q0⟩, o, h2i, rfl, rfl⟩
    · obtain ⟨j, s, q, g1, g2, g3⟩ := ho.all p hp
      have : j ≠ i := fun e => by
        subst e
        rw [hi s g1] at g2; cases g2
      exact ⟨j, s, q, by rw [h2 j this]; exact g1, g2, g3⟩
  · intro q hq
    funext j
    unfold abs Vars.upd
    by_cases hj : j = i
    · subst hj
      simp only [if_true, hq, Option.map_some, Option.bind_some, hl]
    · simp only [if_neg hj, h2 j hj]
      cases hs : h.segs j with
      | none => rfl
      | some s =>
        cases hq : s.ptr with
        | none => simp [hq]
        | some q =>
          obtain ⟨x, g1, g2⟩ := ho.has j s q hs hq
          simp only [Option.map_some, hq, Option.bind_some, hlo _ (hnk _ _ g1)]

/-- The object of variable `i` goes away. -/
theorem unplace {h h' : Heap V} {i : Nat} {s : Handle} {p : Owner} (ho : Owned h) (hi : h.segs i = some s) (hp : s.ptr = some p) (h1 : h'.objs = del p.addr h.objs)
    (h2 : ∀ j, j ≠ i → h'.segs j = h.segs j) (h2i : ∀ t, h'.segs i = some t → t.ptr = none) :
    Owned h' ∧ abs h' = (abs h).upd i ((h'.segs i).map fun _ => none) := by
  have hne : ∀ j t o, j ≠ i → h.segs j = some t → t.ptr = some o → o.addr ≠ p.addr := fun j t o hj ht hto e => hj (ho.inj j i t s o p ht hi hto hp e)
  refine ⟨⟨?_, ?_, ?_⟩, ?_⟩
  · intro j t o hs ht
    have hj : j ≠ i := fun e => by
      subst e
      rw [h2i t hs] at ht; cases ht
    rw [h2 j hj] at hs
    obtain ⟨b, g1, g2⟩ := ho.has j t o hs ht
    exact ⟨b, by rw [h1, lookup_del, if_neg (hne j t o hj hs ht)]; exact g1, g2⟩
  · intro j j' t t' o o' hs hs' ht ht' e
    have hj : j ≠ i := fun e => by
      subst e
      rw [h2i t hs] at ht; cases ht
    have hj' : j' ≠ i := fun e => by
      subst e
      rw [h2i t' hs'] at ht'; cases ht'
    rw [h2 j hj] at hs
    rw [h2 j' hj'] at hs'
    exact ho.inj j j' t t' o o' hs hs' ht ht' e
  · intro q hq
    rw [h1] at hq
    obtain ⟨q1, q2⟩ := List.mem_filter.1 hq
    obtain ⟨j, t, o, g1, g2, g3⟩ := ho.all q q1
    have hj : j ≠ i := fun e => by
      subst e
      rw [hi] at g1
      cases g1
      rw [hp] at g2
      cases g2
      simp [g3] at q2
    exact ⟨j, t, o, by rw [h2 j hj]; exact g1, g2, g3⟩
  · funext j
    unfold abs Vars.upd
    by_cases hj : j = i
    · subst hj
      simp only [if_true]
      cases hs : h'.segs j with
      | none => rfl
      | some t => simp only [Option.map_some, h2i t hs, Option.bind_none]
    · simp only [if_neg hj, h2 j hj]
      cases hs : h.segs j with
      | none => rfl
      | some t =>
        cases hq : t.ptr with
        | none => simp [hq]
        | some o =>
          simp only [Option.map_some, hq, Option.bind_some, h1, lookup_del, if_neg (hne j t o hj hs hq)]

/-- The object of variable `i` changes. -/
theorem replace {h h' : Heap V} {i : Nat} {s : Handle} {p : Owner} {x y : Backend V} {q : Ptr} (ho : Owned h) (hi : h.segs i = some s) (hp : s.ptr = some p) (hx : h.objs.lookup p.addr = some x)
    (h1 : h'.objs = upd p.addr y h.objs) (hk : y.kind = x.kind) (ht : y.ty = x.ty)
    (h2 : ∀ j, j ≠ i → h'.segs j = h.segs j) (h2i : h'.segs i = some ⟨s.ptr, q⟩) : Owned h' ∧ abs h' = (abs h).upd i (some (some ⟨y, q⟩)) := by
  have hne : ∀ j t o, j ≠ i → h.segs j = some t → t.ptr = some o → o.addr ≠ p.addr := fun j t o hj ht hto e => hj (ho.inj j i t s o p ht hi hto hp e)
  have hl : ∀ c, h'.objs.lookup c = if c = p.addr then some y else h.objs.lookup c := fun c => by rw [h1, lookup_upd c hx]
  have back : ∀ j t o, h'.segs j = some t → t.ptr = some o → ∃ t', h.segs j = some t' ∧ t'.ptr = some o := by
    intro j t o hs hto
    by_cases hj : j = i
    · subst hj
      rw [h2i] at hs
      cases hs
      exact ⟨s, hi, hto⟩
    · rw [h2 j hj] at hs
      exact ⟨t, hs, hto⟩
  refine ⟨⟨?_, ?_, ?_⟩, ?_⟩
  · intro j t o hs hto
    obtain ⟨t', g1, g2⟩ := back j t o hs hto
    obtain ⟨b, g3, g4, g5⟩ := ho.has j t' o g1 g2
    by_cases e : o.addr = p.addr
    · rw [e, hx] at g3
      cases g3
      exact ⟨y, by rw [hl, if_pos e], hk.trans g4, ht.trans g5⟩
    · exact ⟨b, by rw [hl, if_neg e]; exact g3, g4, g5⟩
  · intro j j' t t' o o' hs hs' hto hto' e
    obtain ⟨u, g1, g2⟩ := back j t o hs hto
    obtain ⟨u', g3, g4⟩ := back j' t' o' hs' hto'
    exact ho.inj j j' u u' o o' g1 g3 g2 g4 e
  · intro r hr
    rw [h1] at hr
    obtain ⟨r', hr', e⟩ := List.mem_map.1 hr
    have e1 : r.1 = r'.1 := by
      rw [← e]; split
      · next e2 => exact e2.symm
      · rfl
    obtain ⟨j, t, o, g1, g2, g3⟩ := ho.all r' hr'
    by_cases hj : j = i
    · subst hj
      rw [hi] at g1
      cases g1
      exact ⟨j, _, o, h2i, g2, g3.trans e1.symm⟩
    · exact ⟨j, t, o, by rw [h2 j hj]; exact g1, g2, g3.trans e1.symm⟩
  · funext j
    unfold abs Vars.upd
    by_cases hj : j = i
    · subst hj
      simp only [if_true, h2i, Option.map_some, hp, Option.bind_some, hl]
    · simp only [if_neg hj, h2 j hj]
      cases hs : h.segs j with
      | none => rfl
      | some t =>
        cases hq : t.ptr with
        | none => simp [hq]
        | some o => simp only [Option.map_some, hq, Option.bind_some, hl, if_neg (hne j t o hj hs hq)]

theorem construct_ok {h h' : Heap V} {i : Nat} {o : Owner} {b : Backend V} {w : World} (ho : Owned h) (hi : h.segs i = none) (h1 : h'.objs = (o.addr, b) :: h.objs) (h2 : h'.segs = h.segs)
    (h3 : h'.tmp = (Vec.nil, 0)) (h4 : Accounts h'.blocks (holds h'.objs) w) (hk : b.kind = o.kind) (ht : b.ty = o.ty) :
    ∃ h'', construct i o h' w = .ok () h'' w ∧ Inv h'' w ∧ abs h'' = (abs h).upd i (some (some (Seg.ofBackend b))) := by
  have hl : h'.objs.lookup o.addr = some b := by rw [h1, List.lookup_cons]; simp
  have := place (h' := { h' with segs := fun j => if j = i then some ⟨some o, b.end⟩ else h'.segs j }) (i := i) ho (by rw [hi]; simp) h1 (fun j hj => by simp [hj, h2])
    ⟨b.end, by simp⟩ h3 h4 hk ht
  refine ⟨_, ?_, this.1, this.2 b.end (by simp)⟩
  unfold construct object
  simp only [bind, Prog.bind, Prog.get, hl, Prog.ofOption, Prog.pure]
  rfl

theorem upd_upd (s : Vars V) (i : Nat) (x y : Option (Option (Seg V))) : (s.upd i x).upd i y = s.upd i y := by
  funext j; unfold Vars.upd; split <;> rfl

/-- `pimpl=...;set_sentinel();` -/
theorem reset_ok {h h' : Heap V} {i : Nat} {o : Owner} {b : Backend V} {s : Handle} {w : World} (ho : Owned h) (hi : h.segs i = some s) (h1 : h'.objs = (o.addr, b) :: h.objs) (h2 : h'.segs = h.segs)
    (h3 : h'.tmp = (Vec.nil, 0)) (h4 : Accounts h'.blocks (holds h'.objs) w) (hk : b.kind = o.kind) (ht : b.ty = o.ty) :
    ∃ h'', (do reset i o; setSentinel i : Prog (Heap V) Unit) h' w = .ok () h'' w ∧ Inv h'' w ∧ abs h'' = (abs h).upd i (some (some (Seg.ofBackend b))) := by
  have hl : h'.objs.lookup o.addr = some b := by rw [h1, List.lookup_cons]; simp
  have hi' : h'.segs i = some s := by rw [h2]; exact hi
  cases hp : s.ptr with
  | none =>
    have := place (h' := { h' with segs := fun j => if j = i then some ⟨some o, b.end⟩ else h'.segs j }) (i := i) ho (by rw [hi]; rintro _ ⟨⟩; exact hp) h1 (fun j hj => by simp [hj, h2])
      ⟨b.end, by simp⟩ h3 h4 hk ht
    refine ⟨_, ?_, this.1, this.2 b.end (by simp)⟩
    unfold reset setSentinel handle impl handle object setHandle
    simp only [bind, Prog.bind, Prog.get, hi', Prog.ofOption, Prog.pure, hp, deletePtr, Prog.set, if_true, hl, pure]
    congr 2
    funext j
    split <;> rfl
  | some p =>
    obtain ⟨x, g1, g2, g3⟩ := ho.has i s p hi hp
    have hne : p.addr ≠ o.addr := fun e => by
      have := keys_nodup h4
      rw [h1, List.map_cons, List.nodup_cons] at this
      exact this.1 (e ▸ lookup_key g1)
    have hd : del p.addr h'.objs = (o.addr, b) :: del p.addr h.objs := by
      rw [h1]; unfold del
      rw [List.filter_cons_of_pos (by simpa using Ne.symm hne)]
    obtain ⟨B, e, hB⟩ := delete_ok (h := { h' with segs := fun j => if j = i then some ⟨some o, s.snt⟩ else h'.segs j }) (o := p) (b := x) h4
      (show h'.objs.lookup p.addr = some x by rw [h1, List.lookup_cons, beq_eq_false_iff_ne.2 hne]; exact g1) g2 g3
    have u := unplace (h' := { h with objs := del p.addr h.objs, segs := fun j => if j = i then some ⟨none, s.snt⟩ else h.segs j }) ho hi hp rfl (fun j hj => by simp [hj]) (by simp)
    have := place (h' := { h' with blocks := B, objs := del p.addr h'.objs, segs := fun j => if j = i then some ⟨some o, b.end⟩ else h'.segs j }) (i := i) u.1 (by simp) hd (fun j hj => by simp [hj, h2])
      ⟨b.end, by simp⟩ h3 hB hk ht
    refine ⟨_, ?_, this.1, ?_⟩
    · unfold reset setSentinel handle impl handle setHandle
      simp only [bind, Prog.bind, Prog.get, hi', Prog.ofOption, Prog.pure, hp, deletePtr, Prog.set, e, if_true, pure]
      unfold object
      have hl' : (del p.addr h'.objs).lookup o.addr = some b := by rw [lookup_del, if_neg (Ne.symm hne)]; exact hl
      simp only [bind, Prog.bind, Prog.get, hl', Prog.ofOption, Prog.pure]
      congr 2
      funext j
      split <;> rfl
    · rw [this.2 b.end (by simp), u.2, upd_upd]; rfl

/-! ## Moving the vector of a segment -/

theorem takeStore_keeps (x : Backend V) (al : Alloc) : Keeps (sameCtx Seg.bfix) (takeStore E x al) :=
  Seg.run_keeps (Packed.onS_keeps (E.moveVec_keeps _ _)) (Split.onS_keeps (E.moveVec_keeps _ _))

theorem takeStore_own {b : Nat} (hb : b ≠ 0) (x : Backend V) (al : Alloc) (c : Nat) : Own b (Backend.own b) (Vec.own b) c 0 (takeStore E x al) :=
  Seg.run_own (fun _ => Own.zoom (fun _ => Env.moveVec_own hb _) fun x y => by simp only [Packed.own]; omega)
    (fun _ => Own.zoom (fun _ => Env.moveVec_own hb _) fun x y => by simp only [Split.own]; omega) c

/-- With another allocator the new vector does not have the old buffer. -/
theorem moveVec_new (t : Ty) (s : Vec V) (w : World) : Leaves (E.moveVec t false) s w (fun v _ _ => v.blk = 0 ∨ w.next ≤ v.blk) (fun _ _ _ => True) := by
  unfold Env.moveVec
  refine leaves_bind.2 (leaves_get.2 ?_)
  rw [leaves_ite]
  refine ⟨fun h => absurd h (by simp), fun _ => ?_⟩
  rw [leaves_ite]
  refine ⟨fun _ => Or.inl rfl, fun _ => leaves_bind.2 ?_⟩
  unfold Leaves
  unfold Env.alloc
  by_cases hf : E.fault w.tick = true
  · simp only [if_pos hf]
  · simp only [if_neg hf, bind, Prog.bind]
    cases (Prog.onExc (Prog.each (fun _ => E.moveVH t) s.elems) (E.spoil s.size s.size)) s ⟨w.next + 1, w.tick + 1⟩ <;> first | exact Or.inr (Nat.le_refl _) | trivial

theorem takeStore_new {x : Backend V} {al : Alloc} (h : x.al ≠ al) (w : World) : Leaves (takeStore E x al) x w (fun v _ _ => v.blk = 0 ∨ w.next ≤ v.blk) (fun _ _ _ => True) := by
  have hd : decide (x.al = al) = false := decide_eq_false h
  unfold takeStore
  rw [hd]
  cases x with
  | packed y =>
    have := moveVec_new (E := E) y.ty y.s w
    unfold Leaves Backend.run Packed.onS Prog.zoom at *
    simp only [Backend.ty]
    cases hm : E.moveVec y.ty false y.s w <;> simp only [hm] at this ⊢
    exact this
  | split y =>
    have := moveVec_new (E := E) y.ty y.s w
    unfold Leaves Backend.run Split.onS Prog.zoom at *
    simp only [Backend.ty]
    cases hm : E.moveVec y.ty false y.s w <;> simp only [hm] at this ⊢
    exact this

theorem setObject_ok (a : Nat) (y : Backend V) (h : Heap V) (w : World) : setObject a y h w = .ok () { h with objs := upd a y h.objs } w := rfl

/-- The vector moved out of an object and its buffer are accounted for. -/
theorem moveStore_sim {a : Nat} {x : Backend V} {al : Alloc} {h : Heap V} {w : World} (ha : Accounts h.blocks (holds h.objs) w) (hl : h.objs.lookup a = some x) :
    Sim (moveStore E a al) (takeStore E x al) h x w
      (fun v v' h' y w' => v' = v ∧ (∃ B, h' = { h with blocks := B, objs := upd a y h.objs }) ∧ y.kind = x.kind ∧ y.ty = x.ty ∧ Accounts h'.blocks (pairs al v.buffers ++ holds h'.objs) w')
      (fun h' y w' => (∃ B, h' = { h with blocks := B, objs := upd a y h.objs }) ∧ y.kind = x.kind ∧ y.ty = x.ty ∧ Accounts h'.blocks (holds h'.objs) w') := by
  have hk := (takeStore_keeps (E := E) x al).leaves (x := x) (w := w) trivial
  have ho : ∀ b, b ≠ 0 → _ := fun b hb => (takeStore_own (E := E) hb x al (x.own b)).run x w (Nat.le_refl _)
  have hn : x.al ≠ al → _ := fun e => takeStore_new (E := E) e w
  have hkn := keys_nodup ha
  have h1 := ha.of_perm (holds_del hkn hl)
  have h2 : Accounts h.blocks (pairs x.al x.buffers ++ ((a, x.al) :: holds (del a h.objs))) w := h1.of_perm List.perm_middle.symm
  unfold Sim moveStore object
  unfold Leaves at hk ho hn
  simp only [bind, Prog.bind, Prog.get, hl, Prog.ofOption, Prog.pure]
  cases hp : takeStore E x al x w with
  | ub => trivial
  | exc e y w' =>
    simp only [hp] at hk ho ⊢
    have hf : y.kind = x.kind ∧ y.ty = x.ty ∧ y.al = x.al := by
      have := hk.2.1
      exact ⟨congrArg Prod.fst this, congrArg (fun p => p.2.1) this, congrArg (fun p => p.2.2.1) this⟩
    obtain ⟨B, e1, hB⟩ := settle_ok (new := y.buffers) h2 hk.2.2 (fun b hb => by rw [y.count_buffers hb, x.count_buffers hb]; have := ho b hb; omega) y.zero_buffers
    simp only [e1, setObject_ok, Prog.raise]
    refine ⟨trivial, trivial, ⟨B, rfl⟩, hf.1, hf.2.1, hB.of_perm ?_⟩
    refine List.perm_middle.trans (List.Perm.symm ?_)
    have := holds_upd (y := y) hkn hl
    rwa [hf.2.2] at this
  | ok v y w' =>
    simp only [hp] at hk ho hn ⊢
    have hf : y.kind = x.kind ∧ y.ty = x.ty ∧ y.al = x.al := by
      have := hk.2.1
      exact ⟨congrArg Prod.fst this, congrArg (fun p => p.2.1) this, congrArg (fun p => p.2.2.1) this⟩
    have hno : (x.buffers ++ ((a, x.al) :: holds (del a h.objs)).map Prod.fst).Nodup := by
      have := h2.nodup
      rwa [List.map_append, pairs_fst] at this
    have hxn := (List.nodup_append.1 hno).1
    have hxlt : ∀ b ∈ x.buffers, b < w.next := fun b hb => (h2.lt (b, x.al) (List.mem_append_left _ (mem_pairs.2 ⟨hb, rfl⟩))).2
    have hoth : ∀ b ∈ ((a, x.al) :: holds (del a h.objs)).map Prod.fst, b < w.next := fun b hb => by
      obtain ⟨q, hq, rfl⟩ := List.mem_map.1 hb
      exact (h2.lt q (List.mem_append_right _ hq)).2
    have hcnt : ∀ b, b ≠ 0 → y.buffers.count b + v.buffers.count b ≤ x.buffers.count b + fresh b w w' := fun b hb => by
      rw [y.count_buffers hb, x.count_buffers hb, v.count_buffers hb]; have := ho b hb; omega
    have hfr : ∀ b, fresh b w w' ≤ 1 := fun b => by unfold fresh; split <;> omega
    have hfr0 : ∀ b, b < w.next → fresh b w w' = 0 := fun b hb => by unfold fresh; split <;> omega
    have hx1 := fun b => List.nodup_iff_count.1 hxn b
    have hsum : ∀ b, b ≠ 0 → x.buffers.count b + fresh b w w' ≤ 1 := fun b hb => by
      by_cases hbx : b ∈ x.buffers
      · have := hfr0 b (hxlt b hbx); have := hx1 b; omega
      · rw [List.count_eq_zero.2 hbx]; have := hfr b; omega
    have hvn : v.buffers.Nodup := nodup_of_count (w' := w') hxn hxlt (fun b hb => by have := hcnt b hb; omega) v.zero_buffers
    -- the buffers that change hands
    have hcom : pairs x.al (x.buffers.filter (fun b => b ∈ v.buffers)) = pairs al (x.buffers.filter (fun b => b ∈ v.buffers)) := by
      by_cases e : x.al = al
      · rw [e]
      · have : x.buffers.filter (fun b => b ∈ v.buffers) = [] := by
          refine List.filter_eq_nil_iff.2 fun b hb hv => ?_
          have hv : b ∈ v.buffers := by simpa using hv
          have h3 := hxlt b hb
          simp only [Vec.buffers, List.mem_filter, List.mem_singleton] at hv
          obtain ⟨rfl, h4⟩ := hv
          have h4 : v.blk ≠ 0 := by simpa using h4
          rcases hn e with h5 | h5
          · exact h4 h5
          · omega
        rw [this]; rfl
    have h3 : Accounts h.blocks (pairs x.al (x.buffers.filter (fun b => b ∉ v.buffers)) ++ (pairs al (v.buffers.filter (fun b => b ∈ x.buffers)) ++ ((a, x.al) :: holds (del a h.objs)))) w := by
      refine h2.of_perm ?_
      rw [← List.append_assoc]
      refine List.Perm.append_right _ ?_
      refine ((filter_split x.buffers (· ∈ v.buffers)).map _).trans ?_
      rw [List.map_append]
      refine List.Perm.append_left _ ?_
      have := (common_perm hxn hvn).map fun b => (b, al)
      unfold pairs at hcom
      rw [hcom]
      exact this
    obtain ⟨B, e1, hB⟩ := settle_ok (new := y.buffers) h3 hk.2.2 (fun b hb => by
      have h4 := hcnt b hb
      by_cases hv : b ∈ v.buffers
      · have := List.count_pos_iff.2 hv
        have := hsum b hb
        omega
      · rw [List.count_filter (by simpa using hv)]
        omega) y.zero_buffers
    have hB2 : Accounts B (pairs al (v.buffers.filter (fun b => b ∈ x.buffers)) ++ (pairs x.al y.buffers ++ ((a, x.al) :: holds (del a h.objs)))) w' := by
      refine hB.of_perm ?_
      rw [← List.append_assoc, ← List.append_assoc]
      exact List.perm_append_comm.append_right _
    obtain ⟨B', e2, hB'⟩ := settle_ok' (h := { h with blocks := B }) (new := v.buffers) hB2 hvn (by
      intro b hb hb2
      have hb0 : b ≠ 0 := fun e => v.zero_buffers (e ▸ hb)
      have hbx : b ∉ x.buffers := fun hx => hb2 (List.mem_filter.2 ⟨hb, by simpa using hx⟩)
      have hv1 := List.count_pos_iff.2 hb
      have h4 := hcnt b hb0
      have h5 := fresh_of_count (old := x.buffers) (new := v.buffers) (w := w) (w' := w') (b := b) (by omega) hb hbx
      refine ⟨Nat.pos_of_ne_zero hb0, h5.2, ?_⟩
      rw [List.map_append, pairs_fst, List.mem_append]
      rintro (hy | hy)
      · have := List.count_pos_iff.2 hy
        have := hsum b hb0
        omega
      · have := hoth b hy
        omega)
    simp only [e1, e2, setObject_ok]
    refine ⟨rfl, rfl, ⟨B', rfl⟩, hf.1, hf.2.1, hB'.of_perm ?_⟩
    refine List.Perm.append_left _ (List.perm_middle.trans (List.Perm.symm ?_))
    have := holds_upd (y := y) hkn hl
    rwa [hf.2.2] at this

/-! ## Member functions -/

theorem handle_ok {h : Heap V} {i : Nat} {s : Handle} {w : World} (hi : h.segs i = some s) : handle i h w = .ok s h w := by
  unfold handle
  simp only [bind, Prog.bind, Prog.get, hi, Prog.ofOption, Prog.pure]

theorem impl_ok {h : Heap V} {i : Nat} {s : Handle} {o : Owner} {w : World} (hi : h.segs i = some s) (hp : s.ptr = some o) : impl i h w = .ok o.addr h w := by
  unfold impl handle
  simp only [bind, Prog.bind, Prog.get, hi, Prog.ofOption, Prog.pure, hp]
  rfl

theorem impl_ub {h : Heap V} {i : Nat} {w : World} (hi : ∀ s, h.segs i = some s → s.ptr = none) : impl i h w = .ub := by
  unfold impl handle
  cases hs : h.segs i with
  | none => simp only [bind, Prog.bind, Prog.get, hs, Prog.ofOption]; rfl
  | some s => simp only [bind, Prog.bind, Prog.get, hs, Prog.ofOption, Prog.pure, hi s hs]; rfl

theorem object_ok {h : Heap V} {a : Nat} {x : Backend V} {w : World} (hl : h.objs.lookup a = some x) : object a h w = .ok x h w := by
  unfold object
  simp only [bind, Prog.bind, Prog.get, hl]
  rfl

/-- A segment variable and its value. -/
theorem seg_cases (ho : Owned h) (i : Nat) (w : World) :
    (∃ s o x, h.segs i = some s ∧ s.ptr = some o ∧ h.objs.lookup o.addr = some x ∧ x.kind = o.kind ∧ x.ty = o.ty ∧ abs h i = some (some ⟨x, s.snt⟩) ∧
      Vars.seg i (abs h) w = .ok ⟨x, s.snt⟩ (abs h) w) ∨
    ((∀ s, h.segs i = some s → s.ptr = none) ∧ Vars.seg i (abs h) w = .ub) := by
  cases hs : h.segs i with
  | none =>
    refine Or.inr ⟨by simp, ?_⟩
    unfold Vars.seg Vars.get
    simp only [bind, Prog.bind, Prog.get, abs, hs, Option.map_none]
    rfl
  | some s =>
    cases hp : s.ptr with
    | none =>
      refine Or.inr ⟨by rintro _ ⟨⟩; exact hp, ?_⟩
      unfold Vars.seg Vars.get
      simp only [bind, Prog.bind, Prog.get, abs, hs, Option.map_some, hp, Option.bind_none]
      rfl
    | some o =>
      obtain ⟨x, g1, g2, g3⟩ := ho.has i s o hs hp
      have ha : abs h i = some (some ⟨x, s.snt⟩) := by simp only [abs, hs, Option.map_some, hp, Option.bind_some, g1]
      refine Or.inl ⟨s, o, x, rfl, hp, g1, g2, g3, ha, ?_⟩
      unfold Vars.seg Vars.get
      simp only [bind, Prog.bind, Prog.get, ha]
      rfl

theorem on_eq {α : Type} {s : Vars V} {i : Nat} {x : Seg V} {p : Prog (Seg V) α} {w : World} (hx : s i = some (some x)) : Vars.on i p s w =
    match p x w with
    | .ok r y w' => .ok r (s.upd i (some (some y))) w'
    | .exc e y w' => .exc e (s.upd i (some (some y))) w'
    | .ub => .ub := by
  unfold Vars.on Vars.seg Vars.get
  simp only [bind, Prog.bind, Prog.get, hx, Prog.ofOption, Prog.pure]
  rfl

/-- The invariant and the values after an operation. -/
def After (h : Heap V) (s : Vars V) (w : World) : Prop := Inv h w ∧ s = abs h

theorem member_sim {α : Type} {i : Nat} {p : Prog (Seg V) α} {h : Heap V} {w : World} (hi : Inv h w) (hk : Keeps (sameCtx Seg.fix) p) (ht : ∀ b, b ≠ 0 → Tidy (anyCtx (Seg V)) b (Seg.own b) p) :
    Sim (member i p) (Vars.on i p) h (abs h) w (fun r r' h' s' w' => r' = r ∧ After h' s' w') After := by
  rcases seg_cases hi.own i w with ⟨s, o, x, h1, h2, h3, -, -, h4, h5⟩ | ⟨h1, h2⟩
  · have hkl := hk.leaves (x := ⟨x, s.snt⟩) (w := w) trivial
    have htl : ∀ b, b ≠ 0 → _ := fun b hb => (ht b hb).run ⟨x, s.snt⟩ w trivial
    have hkn := keys_nodup hi.acc
    have h6 : Accounts h.blocks (pairs x.al x.buffers ++ ((o.addr, x.al) :: holds (del o.addr h.objs))) w := (hi.acc.of_perm (holds_del hkn h3)).of_perm List.perm_middle.symm
    unfold Sim
    rw [on_eq h4]
    unfold member handle
    unfold Leaves at hkl htl
    simp only [bind, Prog.bind, Prog.get, h1, Prog.ofOption, Prog.pure, impl_ok h1 h2, object_ok h3]
    have key : ∀ (y : Seg V) (w' : World), y.fix = (⟨x, s.snt⟩ : Seg V).fix → w.next ≤ w'.next → (∀ b, b ≠ 0 → y.own b ≤ (⟨x, s.snt⟩ : Seg V).own b + fresh b w w') →
        ∃ B, settle x.al x.buffers y.be.buffers h w' = .ok () { h with blocks := B } w' ∧
          After { h with blocks := B, objs := upd o.addr y.be h.objs, segs := fun j => if j = i then some ⟨s.ptr, y.snt⟩ else h.segs j } ((abs h).upd i (some (some y))) w' := by
      intro y w' hf hle hown
      obtain ⟨B, e, hB⟩ := settle_ok (new := y.be.buffers) h6 hle (fun b hb => by rw [y.be.count_buffers hb, x.count_buffers hb]; exact hown b hb) y.be.zero_buffers
      rw [Seg.fix_be, Seg.fix_be] at hf
      have hf1 : y.be.kind = x.kind := congrArg Prod.fst hf
      have hf2 : y.be.ty = x.ty := congrArg (fun p => p.2.1) hf
      have hf3 : y.be.al = x.al := congrArg (fun p => p.2.2.1) hf
      have := replace (h' := { h with blocks := B, objs := upd o.addr y.be h.objs, segs := fun j => if j = i then some ⟨s.ptr, y.snt⟩ else h.segs j }) (q := y.snt) hi.own h1 h2 h3 rfl hf1 hf2
        (fun j hj => by simp [hj]) (by simp)
      refine ⟨B, e, ⟨?_, this.1, hi.tmp⟩, this.2.symm⟩
      refine hB.of_perm (List.perm_middle.trans (List.Perm.symm ?_))
      have := holds_upd (y := y.be) hkn h3
      rwa [hf3] at this
    cases hp : p ⟨x, s.snt⟩ w with
    | ub => trivial
    | ok r y w' =>
      simp only [hp] at hkl htl ⊢
      obtain ⟨B, e, hA⟩ := key y w' hkl.2.1 hkl.2.2 (fun b hb => (htl b hb).2.2)
      simp only [e, setObject_ok]
      exact ⟨rfl, rfl, hA⟩
    | exc r y w' =>
      simp only [hp] at hkl htl ⊢
      obtain ⟨B, e, hA⟩ := key y w' hkl.2.1 hkl.2.2 (fun b hb => (htl b hb).2.2)
      simp only [e, setObject_ok]
      exact ⟨rfl, rfl, hA⟩
  · refine Sim.ub ?_ ?_
    · unfold member
      cases hs : h.segs i with
      | none =>
        unfold handle
        simp only [bind, Prog.bind, Prog.get, hs, Prog.ofOption]; rfl
      | some s => simp only [bind, Prog.bind, handle_ok hs, impl_ub h1]
    · unfold Vars.on
      simp only [bind, Prog.bind, h2]

theorem copyStore_sim {x : Backend V} {al : Alloc} {h : Heap V} {L : List (Nat × Alloc)} {w : World} {z : S} (ha : Accounts h.blocks L w) :
    Sim (copyStore E x al) (Prog.locally () (E.copyVec x.ty x.store) fun v _ => v) h z w
      (fun v v' h' z' w' => v' = v ∧ z' = z ∧ (∃ B, h' = { h with blocks := B }) ∧ Accounts h'.blocks (pairs al v.buffers ++ L) w')
      (fun h' z' w' => z' = z ∧ h' = h ∧ w.next ≤ w'.next) := by
  have ht : ∀ b, b ≠ 0 → _ := fun b hb => (Env.copyVec_made (E := E) (t := x.ty) (X := Unit) hb x.store).run () w
  have h0 := ht 1 (by decide)
  unfold Leaves at ht h0
  unfold Sim copyStore Prog.locally
  simp only [bind, Prog.bind]
  cases hp : E.copyVec x.ty x.store () w with
  | ub => trivial
  | exc e y w' => simp only [hp] at h0 ⊢; exact ⟨trivial, trivial, trivial, trivial, h0.2⟩
  | ok v y w' =>
    simp only [hp] at h0 ht ⊢
    obtain ⟨B, e, hB⟩ := settle_ok (al := al) (old := []) (new := v.buffers) (L := L) ha h0.2.1 (fun b hb => by
      rw [v.count_buffers hb, List.count_nil]; exact (ht b hb).2.2) v.zero_buffers
    simp only [e]
    exact ⟨rfl, rfl, rfl, ⟨B, rfl⟩, hB⟩

/-! ## The values -/

theorem _root_.PolyColl.Prog.assoc {X α β γ : Type} (p : Prog X α) (f : α → Prog X β) (g : β → Prog X γ) : ((p >>= f) >>= g) = (p >>= fun a => f a >>= g) := by
  funext x w
  simp only [bind, Prog.bind]
  cases p x w <;> rfl

theorem _root_.PolyColl.Prog.pure_then {X α β : Type} (a : α) (f : α → Prog X β) : (Pure.pure a >>= f) = f a := rfl

/-- The same outcome with another state. -/
def _root_.PolyColl.Out.at {X Y α : Type} (x : X) : Out Y α → Out X α
  | .ok a _ w => .ok a x w
  | .exc e _ w => .exc e x w
  | .ub => .ub

/-- A program that does not depend on the state and does not change it. -/
def Blind {α : Type} (p : ∀ X : Type, Prog X α) : Prop := ∀ (X Y : Type) (x : X) (y : Y) (w : World), p X x w = (p Y y w).at x

namespace Blind
variable {α β : Type}

theorem pure (a : α) : Blind fun X => (Pure.pure a : Prog X α) := fun _ _ _ _ _ => rfl
theorem raise (e : Exc) : Blind fun X => (Prog.raise e : Prog X α) := fun _ _ _ _ _ => rfl
theorem undef : Blind fun X => (Prog.undef : Prog X α) := fun _ _ _ _ _ => rfl

theorem bind {p : ∀ X : Type, Prog X α} {f : ∀ X : Type, α → Prog X β} (hp : Blind p) (hf : ∀ a, Blind fun X => f X a) : Blind fun X => (p X >>= f X) := by
  intro X Y x y w
  simp only [Bind.bind, Prog.bind]
  rw [hp X Y x y w]
  cases hq : p Y y w with
  | ok a y' w' =>
    have : y' = y := by
      have := hp Y Y y y w
      rw [hq] at this
      cases this; rfl
    subst this
    exact hf a X Y x y' w'
  | exc e y' w' => rfl
  | ub => rfl

theorem ite {c : Prop} [Decidable c] {p q : ∀ X : Type, Prog X α} (hp : Blind p) (hq : Blind q) : Blind fun X => if c then p X else q X := by
  intro X Y x y w
  dsimp only
  split
  · exact hp X Y x y w
  · exact hq X Y x y w

theorem alloc : Blind fun X => (E.alloc : Prog X Nat) := by
  intro X Y x y w
  dsimp only [Env.alloc]
  split <;> rfl

theorem userOp (b : Bool) : Blind fun X => (E.userOp b : Prog X Unit) := by
  intro X Y x y w
  dsimp only [Env.userOp]
  split
  · rfl
  · split <;> rfl

theorem each {f : ∀ X : Type, β → Prog X Unit} (hf : ∀ b, Blind fun X => f X b) : ∀ l : List β, Blind fun X => Prog.each (f X) l
  | [] => pure ()
  | b :: l => bind (f := fun X _ => Prog.each (f X) l) (hf b) fun _ => each hf l

theorem locally {Z : Type} (z : Z) (p : Prog Z β) (f : β → Z → α) : Blind fun X => (Prog.locally z p f : Prog X α) := by
  intro X Y x y w
  dsimp only [Prog.locally]
  cases p z w <;> rfl

theorem copyVH (t : Ty) : Blind fun X => (E.copyVH t : Prog X Unit) := ite (userOp _) (raise _)

theorem copyVec (t : Ty) (s : Vec V) : Blind fun X => (E.copyVec t s : Prog X (Vec V)) :=
  ite (pure _) (bind (f := fun X b => (do Prog.each (fun _ => E.copyVH t) s.elems; return ⟨b, s.size, s.elems⟩ : Prog X (Vec V))) alloc fun _ =>
    bind (f := fun X _ => (Pure.pure _ : Prog X (Vec V))) (each (fun _ => copyVH t) _) fun _ => pure _)

/-- It can be run on any state. -/
theorem local_eq {p : ∀ X : Type, Prog X α} (hp : Blind p) {X : Type} : (Prog.locally () (p Unit) fun v _ => v : Prog X α) = p X := by
  funext x w
  rw [hp X Unit x () w]
  unfold Prog.locally
  cases p Unit () w <;> rfl

end Blind

/-- `new_(al,store{...})` for values. -/
def fin {X : Type} (E : Env V) (k : Kind) (t : Ty) (al objAl : Alloc) (v : Vec V) : Prog X (Backend V) := do let _ ← E.alloc; initK E k t al objAl v

theorem fin_blind (k : Kind) (t : Ty) (al objAl : Alloc) (v : Vec V) : Blind fun X => (fin E k t al objAl v : Prog X (Backend V)) :=
  Blind.bind (f := fun _ _ => initK E k t al objAl v) Blind.alloc fun _ => by
    cases k with
    | packed => exact Blind.pure _
    | split => exact Blind.bind (f := fun X _ => (Pure.pure _ : Prog X (Backend V))) (Blind.locally _ _ _) fun _ => Blind.pure _

/-- A new segment for values. -/
def created {X : Type} (E : Env V) (k : Kind) (t : Ty) (al objAl : Alloc) (v : Vec V) : Prog X (Seg V) := do let b ← fin E k t al objAl v; return Seg.ofBackend b

theorem created_blind (k : Kind) (t : Ty) (al objAl : Alloc) (v : Vec V) : Blind fun X => (created E k t al objAl v : Prog X (Seg V)) :=
  Blind.bind (f := fun X _ => (Pure.pure _ : Prog X (Seg V))) (fin_blind k t al objAl v) fun _ => Blind.pure _

theorem make_eq (k : Kind) (t : Ty) (al : Alloc) {X : Type} : (Seg.make E k t al : Prog X (Seg V)) = created E k t al al Vec.nil := by
  cases k <;> simp only [Seg.make, Packed.make, Split.make, created, fin, initK, Prog.assoc] <;> rfl

theorem copyAl_eq (x : Seg V) (al : Alloc) {X : Type} : (Seg.copyAl E x al : Prog X (Seg V)) = (do let v ← E.copyVec x.ty x.be.store; created E x.kind x.ty al al v) := by
  obtain ⟨be, snt⟩ := x
  cases be <;> simp only [Seg.copyAl, Packed.copyAl, Split.copyAl, created, fin, initK, Prog.assoc, Seg.kind, Backend.kind] <;> rfl

theorem copy_eq (x : Seg V) {X : Type} : (Seg.copy E x : Prog X (Seg V)) = (do let v ← E.copyVec x.ty x.be.store; created E x.kind x.ty (E.soccc x.al) x.al v) := by
  obtain ⟨be, snt⟩ := x
  cases be <;> simp only [Seg.copy, Packed.copy, Split.copy, created, fin, initK, Prog.assoc, Seg.kind, Backend.kind] <;> rfl

theorem new_make (k : Kind) (t : Ty) (al : Alloc) : Vars.new (Seg.make E k t al) = created E k t al al Vec.nil := by
  unfold Vars.new
  rw [make_eq]
  exact Blind.local_eq (created_blind _ _ _ _ _)

theorem copied_blind (x : Seg V) (al objAl : Alloc) : Blind fun X => (do let v ← E.copyVec x.ty x.be.store; created E x.kind x.ty al objAl v : Prog X (Seg V)) :=
  Blind.bind (f := fun _ v => created E x.kind x.ty al objAl v) (Blind.copyVec _ _) fun _ => created_blind _ _ _ _ _

theorem new_copyAl (x : Seg V) (al : Alloc) : Vars.new (Seg.copyAl E x al) = (do let v ← E.copyVec x.ty x.be.store; created E x.kind x.ty al al v) := by
  unfold Vars.new
  rw [copyAl_eq]
  exact Blind.local_eq (copied_blind _ _ _)

theorem new_copy (x : Seg V) : Vars.new (Seg.copy E x) = (do let v ← E.copyVec x.ty x.be.store; created E x.kind x.ty (E.soccc x.al) x.al v) := by
  unfold Vars.new
  rw [copy_eq]
  exact Blind.local_eq (copied_blind _ _ _)

/-- Run on the members of a segment. -/
def onBe {α : Type} (p : Prog (Backend V) α) : Prog (Seg V) α := Prog.zoom (fun x => x.be) (fun x be => { x with be := be }) p

theorem takeStore_packed (y : Packed V) (al : Alloc) : takeStore E (.packed y) al = Backend.run (Packed.onS (E.moveVec y.ty (decide (y.al = al)))) (Split.onS (E.moveVec y.ty (decide (y.al = al)))) := rfl
theorem takeStore_split (y : Split V) (al : Alloc) : takeStore E (.split y) al = Backend.run (Packed.onS (E.moveVec y.ty (decide (y.al = al)))) (Split.onS (E.moveVec y.ty (decide (y.al = al)))) := rfl

theorem moveAl_eq (x : Backend V) (q : Ptr) (al : Alloc) (w : World) :
    Seg.moveAl E al ⟨x, q⟩ w = (do let v ← onBe (takeStore E x al); created E x.kind x.ty al al v : Prog (Seg V) (Seg V)) ⟨x, q⟩ w := by
  unfold onBe
  cases x with
  | packed y =>
    rw [takeStore_packed]
    simp only [Seg.moveAl, Packed.move, created, fin, initK, Backend.kind, Backend.run, Prog.zoom, bind, Prog.bind, Prog.get, Backend.ty]
    cases hm : Packed.onS (E.moveVec y.ty (decide (y.al = al))) y w with
    | ub => rfl
    | exc e z w' => rfl
    | ok v z w' =>
      dsimp only
      unfold Env.alloc
      by_cases e2 : E.fault w'.tick = true
      · simp only [if_pos e2]
      · simp only [if_neg e2]; rfl
  | split y =>
    rw [takeStore_split]
    simp only [Seg.moveAl, Split.move, created, fin, initK, Backend.kind, Backend.run, Prog.zoom, bind, Prog.bind, Prog.get, Backend.ty]
    cases hm : Split.onS (E.moveVec y.ty (decide (y.al = al))) y w with
    | ub => rfl
    | exc e z w' => rfl
    | ok v z w' =>
      dsimp only
      unfold Env.alloc
      by_cases e2 : E.fault w'.tick = true
      · simp only [if_pos e2]
      · simp only [if_neg e2, Split.init, Prog.locally]
        generalize (do Split.onS (E.reserve y.ty 1); Split.buildIndex E 0 : Prog (Split V) Unit) ⟨y.ty, al, al, v, Vec.nil⟩ _ = o
        cases o <;> rfl

/-- Moving out of a segment, for values. -/
theorem on_moveAl {s : Vars V} {j : Nat} {x : Backend V} {q : Ptr} {al : Alloc} {w : World} (hx : s j = some (some ⟨x, q⟩)) :
    Vars.on j (Seg.moveAl E al) s w = (do let v ← Vars.on j (onBe (takeStore E x al)); created E x.kind x.ty al al v : Prog (Vars V) (Seg V)) s w := by
  rw [on_eq hx, moveAl_eq]
  simp only [bind, Prog.bind]
  rw [on_eq hx]
  cases onBe (takeStore E x al) ⟨x, q⟩ w with
  | ub => rfl
  | exc e z w' => rfl
  | ok v z w' =>
    dsimp only
    have h1 := created_blind (E := E) x.kind x.ty al al v (Seg V) Unit z () w'
    have h2 := created_blind (E := E) x.kind x.ty al al v (Vars V) Unit (s.upd j (some (some z))) () w'
    dsimp only at h1 h2
    rw [h1, h2]
    cases (created E x.kind x.ty al al v : Prog Unit (Seg V)) () w' <;> rfl

theorem Owned.of_eq {h h' : Heap V} (ho : Owned h) (h1 : h'.objs = h.objs) (h2 : h'.segs = h.segs) : Owned h' := by
  refine ⟨?_, ?_, ?_⟩
  · intro i s o; rw [h1, h2]; exact ho.has i s o
  · intro i j s s' o o'; rw [h2]; exact ho.inj i j s s' o o'
  · intro p; rw [h1, h2]; exact ho.all p

theorem abs_of_eq {h h' : Heap V} (h1 : h'.objs = h.objs) (h2 : h'.segs = h.segs) : abs h' = abs h := by
  unfold abs; rw [h1, h2]

/-- The objects and the segments are those of `h`. -/
def Same (h h' : Heap V) : Prop := h'.objs = h.objs ∧ h'.segs = h.segs

/-- What creating an object leads to. -/
def NewOk (h : Heap V) (w : World) (z : Vars V) (k : Kind) (t : Ty) (o : Owner) (b : Backend V) (h' : Heap V) (z' : Vars V) (w' : World) : Prop :=
  z' = z ∧ o = ⟨w.next, k, t⟩ ∧ h'.objs = (w.next, b) :: h.objs ∧ (h'.segs = h.segs ∧ h'.tmp = (Vec.nil, 0)) ∧ b.kind = k ∧ b.ty = t ∧ Accounts h'.blocks (holds h'.objs) w'

def NewExc (h : Heap V) (z : Vars V) (h' : Heap V) (z' : Vars V) (w' : World) : Prop :=
  z' = z ∧ h'.objs = h.objs ∧ h'.segs = h.segs ∧ h'.tmp = (Vec.nil, 0) ∧ Accounts h'.blocks (holds h'.objs) w'

theorem NewExc.after {h h' : Heap V} {z' : Vars V} {w' : World} (ho : Owned h) (hx : NewExc h (abs h) h' z' w') : After h' z' w' := by
  obtain ⟨rfl, h1, h2, h3, h4⟩ := hx
  exact ⟨⟨h4, ho.of_eq h1 h2, h3⟩, (abs_of_eq h1 h2).symm⟩

theorem put_eq (i : Nat) (x : Option (Option (Seg V))) (s : Vars V) (w : World) : Vars.put i x s w = .ok () (s.upd i x) w := rfl

theorem created_sim {P : Prog (Heap V) Owner} {C : Owner → Prog (Heap V) Unit} {k : Kind} {t : Ty} {al : Alloc} {v : Vec V} {i : Nat} {h : Heap V} {w : World} (ho : Owned h)
    (hP : Sim P (fin E k t al al v : Prog (Vars V) (Backend V)) h (abs h) w (NewOk h w (abs h) k t) (NewExc h (abs h)))
    (hC : ∀ o b h' w', NewOk h w (abs h) k t o b h' (abs h) w' → ∃ h'', C o h' w' = .ok () h'' w' ∧ Inv h'' w' ∧ abs h'' = (abs h).upd i (some (some (Seg.ofBackend b)))) :
    Sim (P >>= C) (do let y ← created E k t al al v; Vars.put i (some (some y))) h (abs h) w (fun _ _ h' s' w' => After h' s' w') (fun h' s' w' => After h' s' w' ∧ Same h h') := by
  have : (do let y ← created E k t al al v; Vars.put i (some (some y)) : Prog (Vars V) Unit) = (do let b ← fin E k t al al v; Vars.put i (some (some (Seg.ofBackend b)))) := by
    unfold created
    rw [Prog.assoc]
    rfl
  rw [this]
  refine Sim.bind (hP.mono (fun _ _ _ _ _ g => g) (fun _ _ _ g => ⟨NewExc.after ho g, g.2.1, g.2.2.1⟩)) ?_
  intro o b h' z' w' g
  obtain rfl := g.1
  obtain ⟨h'', e, hi, ha⟩ := hC o b h' w' g
  unfold Sim
  rw [e, put_eq]
  exact ⟨rfl, hi, ha.symm⟩

theorem construct_sim {P : Prog (Heap V) Owner} {k : Kind} {t : Ty} {al : Alloc} {v : Vec V} {i : Nat} {h : Heap V} {w : World} (ho : Owned h) (hi : h.segs i = none)
    (hP : Sim P (fin E k t al al v : Prog (Vars V) (Backend V)) h (abs h) w (NewOk h w (abs h) k t) (NewExc h (abs h))) :
    Sim (do let o ← P; construct i o) (do let y ← created E k t al al v; Vars.put i (some (some y))) h (abs h) w (fun _ _ h' s' w' => After h' s' w') (fun h' s' w' => After h' s' w' ∧ Same h h') := by
  refine created_sim ho hP ?_
  rintro o b h' w' ⟨-, rfl, g2, ⟨g3, g4⟩, g5, g6, g7⟩
  exact construct_ok ho hi g2 g3 g4 g7 g5 g6

theorem reset_sim {P : Prog (Heap V) Owner} {k : Kind} {t : Ty} {al : Alloc} {v : Vec V} {i : Nat} {s : Handle} {h : Heap V} {w : World} (ho : Owned h) (hi : h.segs i = some s)
    (hP : Sim P (fin E k t al al v : Prog (Vars V) (Backend V)) h (abs h) w (NewOk h w (abs h) k t) (NewExc h (abs h))) :
    Sim (do let o ← P; reset i o; setSentinel i) (do let y ← created E k t al al v; Vars.put i (some (some y))) h (abs h) w (fun _ _ h' s' w' => After h' s' w') (fun h' s' w' => After h' s' w' ∧ Same h h') := by
  refine created_sim ho hP ?_
  rintro o b h' w' ⟨-, rfl, g2, ⟨g3, g4⟩, g5, g6, g7⟩
  exact reset_ok ho hi g2 g3 g4 g7 g5 g6

theorem make_new {k : Kind} {t : Ty} {al : Alloc} {h : Heap V} {w : World} (hi : Inv h w) :
    Sim (new_ E k t al (ctorAl E k t al)) (fin E k t al al Vec.nil : Prog (Vars V) (Backend V)) h (abs h) w (NewOk h w (abs h) k t) (NewExc h (abs h)) := by
  refine (newAl_sim hi.acc).mono ?_ ?_
  · rintro o b h' z' w' ⟨g1, g2, g3, ⟨g4, g5⟩, -, g6, g7, -, g8⟩
    exact ⟨g1, g2, g3, ⟨g4, g5.trans hi.tmp⟩, g6, g7, g8⟩
  · rintro h' z' w' ⟨g1, g2, g3, g4, g5⟩
    exact ⟨g1, g2, g3, g4.trans hi.tmp, g5⟩

theorem tmp_new {k : Kind} {t : Ty} {al : Alloc} {v : Vec V} {h : Heap V} {w : World} (ha : Accounts h.blocks (pairs al v.buffers ++ holds h.objs) w) :
    Sim (withTmp v al (new_ E k t al (ctorStore E k t al))) (fin E k t al al v : Prog (Vars V) (Backend V)) h (abs h) w (NewOk h w (abs h) k t) (NewExc h (abs h)) := by
  refine (newTmp_sim ha).mono ?_ (fun _ _ _ g => g)
  rintro o b h' z' w' ⟨g1, g2, g3, g4, -, g6, g7, -, g8⟩
  exact ⟨g1, g2, g3, g4, g6, g7, g8⟩

/-- What may follow the creation of an object for variable `i`. -/
def Next (E : Env V) (C : Owner → Prog (Heap V) Unit) (i : Nat) (h : Heap V) : Prop :=
  ∀ (h' : Heap V) (w : World) (k : Kind) (t : Ty) (al : Alloc) (v : Vec V) (P : Prog (Heap V) Owner), Owned h' → h'.segs = h.segs →
    Sim P (fin E k t al al v : Prog (Vars V) (Backend V)) h' (abs h') w (NewOk h' w (abs h') k t) (NewExc h' (abs h')) →
    Sim (P >>= C) (do let y ← created E k t al al v; Vars.put i (some (some y))) h' (abs h') w (fun _ _ h' s' w' => After h' s' w') (fun h'' s' w' => After h'' s' w' ∧ Same h' h'')

theorem next_construct {i : Nat} {h : Heap V} (hi : h.segs i = none) : Next E (construct i) i h :=
  fun h' _ _ _ _ _ _ ho hs hP => construct_sim (h := h') ho (by rw [hs]; exact hi) hP

theorem next_reset {i : Nat} {h : Heap V} {s : Handle} (hi : h.segs i = some s) : Next E (fun o => do reset i o; setSentinel i) i h :=
  fun h' _ _ _ _ _ _ ho hs hP => reset_sim (h := h') ho (by rw [hs]; exact hi) hP

theorem Sim.congr_left {X Y α β : Type} {p p' : Prog X α} {q : Prog Y β} {x : X} {y : Y} {w : World} {Q : α → β → X → Y → World → Prop} {R : X → Y → World → Prop}
    (e : p x w = p' x w) (h : Sim p' q x y w Q R) : Sim p q x y w Q R := by
  unfold Sim at h ⊢
  rw [e]; exact h

theorem Sim.congr_right {X Y α β : Type} {p : Prog X α} {q q' : Prog Y β} {x : X} {y : Y} {w : World} {Q : α → β → X → Y → World → Prop} {R : X → Y → World → Prop}
    (e : q y w = q' y w) (h : Sim p q' x y w Q R) : Sim p q x y w Q R := by
  unfold Sim at h ⊢
  rw [e]; exact h

theorem copyFrom_sim {C : Owner → Prog (Heap V) Unit} {i a : Nat} {al : Alloc} {x : Backend V} {h : Heap V} {w : World} (hC : Next E C i h) (hi : Inv h w) (hl : h.objs.lookup a = some x) :
    Sim (Heap.copyAl E a al >>= C) (do let v ← E.copyVec x.ty x.store; let y ← created E x.kind x.ty al al v; Vars.put i (some (some y))) h (abs h) w (fun _ _ h' s' w' => After h' s' w') (fun h' s' w' => After h' s' w' ∧ Same h h') := by
  unfold Heap.copyAl
  rw [Prog.assoc]
  refine Sim.left (object_ok hl) ?_
  rw [Prog.assoc, ← Blind.local_eq (Blind.copyVec (E := E) x.ty x.store)]
  refine Sim.bind ((copyStore_sim hi.acc).mono (fun _ _ _ _ _ g => g) ?_) ?_
  · rintro h' z' w' ⟨rfl, rfl, g⟩
    exact ⟨⟨⟨hi.acc.mono g, hi.own, hi.tmp⟩, rfl⟩, rfl, rfl⟩
  · rintro v v' h' z' w' ⟨rfl, rfl, ⟨B, rfl⟩, g⟩
    exact hC { h with blocks := B } w' _ _ _ _ _ (hi.own.of_eq rfl rfl) rfl (tmp_new (h := { h with blocks := B }) g)

theorem copy_as {a : Nat} {x : Backend V} {h : Heap V} {w : World} (hl : h.objs.lookup a = some x) (hs : E.soccc x.al = x.al) : Heap.copy E a h w = Heap.copyAl E a x.al h w := by
  unfold Heap.copy Heap.copyAl
  simp only [bind, Prog.bind, object_ok hl, hs]

theorem moveFrom_sim {C : Owner → Prog (Heap V) Unit} {i j : Nat} {al : Alloc} {s : Handle} {o : Owner} {x : Backend V} {h : Heap V} {w : World} (hC : Next E C i h) (hi : Inv h w)
    (hj : h.segs j = some s) (hp : s.ptr = some o) (hl : h.objs.lookup o.addr = some x) (ha : abs h j = some (some ⟨x, s.snt⟩)) :
    Sim (Heap.move E o.addr al >>= C) (do let y ← Vars.on j (Seg.moveAl E al); Vars.put i (some (some y))) h (abs h) w (fun _ _ h' s' w' => After h' s' w') After := by
  refine Sim.congr_right (q' := do let v ← Vars.on j (onBe (takeStore E x al)); let y ← created E x.kind x.ty al al v; Vars.put i (some (some y))) ?_ ?_
  · rw [← Prog.assoc]
    simp only [bind, Prog.bind]
    rw [on_moveAl ha]
    rfl
  unfold Heap.move
  rw [Prog.assoc]
  refine Sim.left (object_ok hl) ?_
  rw [Prog.assoc]
  refine Sim.bind (Q := fun v v' h' z' w' => v' = v ∧ h'.segs = h.segs ∧ Owned h' ∧ z' = abs h' ∧ Accounts h'.blocks (pairs al v.buffers ++ holds h'.objs) w') ?_ ?_
  · have hm := moveStore_sim (E := E) (al := al) hi.acc hl
    unfold Sim at hm ⊢
    rw [on_eq ha]
    unfold onBe Prog.zoom
    dsimp only
    cases h1 : moveStore E o.addr al h w with
    | ub => cases h2 : takeStore E x al x w <;> simp only [h1, h2] at hm ⊢
    | ok v h3 w3 =>
      cases h2 : takeStore E x al x w with
      | exc => simp only [h1, h2] at hm
      | ub => simp only [h1, h2] at hm
      | ok v' y w4 =>
      simp only [h1, h2] at hm ⊢
      obtain ⟨rfl, rfl, ⟨B, rfl⟩, g1, g2, g3⟩ := hm
      have := replace (h' := { h with blocks := B, objs := upd o.addr y h.objs }) (q := s.snt) hi.own hj hp hl rfl g1 g2 (fun _ _ => rfl) hj
      exact ⟨rfl, rfl, rfl, this.1, this.2.symm, g3⟩
    | exc v h3 w3 =>
      cases h2 : takeStore E x al x w with
      | ok => simp only [h1, h2] at hm
      | ub => simp only [h1, h2] at hm
      | exc v' y w4 =>
      simp only [h1, h2] at hm ⊢
      obtain ⟨rfl, rfl, ⟨B, rfl⟩, g1, g2, g3⟩ := hm
      have := replace (h' := { h with blocks := B, objs := upd o.addr y h.objs }) (q := s.snt) hi.own hj hp hl rfl g1 g2 (fun _ _ => rfl) hj
      exact ⟨rfl, rfl, ⟨g3, this.1, hi.tmp⟩, this.2.symm⟩
  · rintro v v' h' z' w' ⟨rfl, g1, g2, rfl, g3⟩
    exact (hC h' w' _ _ _ _ _ g2 g1 (tmp_new g3)).mono (fun _ _ _ _ _ g => g) (fun _ _ _ g => g.1)

/-- Destruction of a segment. -/
theorem destroy_ok {i : Nat} {s : Handle} {h : Heap V} {w : World} (hi : Inv h w) (hs : h.segs i = some s) :
    ∃ h', (do deletePtr s.ptr; setHandle i none : Prog (Heap V) Unit) h w = .ok () h' w ∧ Inv h' w ∧ abs h' = (abs h).upd i none := by
  cases hp : s.ptr with
  | none =>
    refine ⟨{ h with segs := fun j => if j = i then none else h.segs j }, rfl, ⟨hi.acc, ⟨?_, ?_, ?_⟩, hi.tmp⟩, ?_⟩
    · intro j t o ht
      dsimp only at ht
      split at ht
      · cases ht
      · exact hi.own.has j t o ht
    · intro j j' t t' o o' ht ht'
      dsimp only at ht ht'
      split at ht
      · cases ht
      · split at ht'
        · cases ht'
        · exact hi.own.inj j j' t t' o o' ht ht'
    · intro p hpm
      obtain ⟨j, t, o, g1, g2, g3⟩ := hi.own.all p hpm
      refine ⟨j, t, o, ?_, g2, g3⟩
      have : j ≠ i := fun e => by subst e; rw [hs] at g1; cases g1; rw [hp] at g2; cases g2
      simp [this, g1]
    · funext j
      unfold abs Vars.upd
      dsimp only
      split <;> rfl
  | some o =>
    obtain ⟨x, g1, g2, g3⟩ := hi.own.has i s o hs hp
    obtain ⟨B, e, hB⟩ := delete_ok (h := h) (o := o) (b := x) hi.acc g1 g2 g3
    have u := unplace (h' := { h with blocks := B, objs := del o.addr h.objs, segs := fun j => if j = i then none else h.segs j }) hi.own hs hp rfl (fun j hj => by simp [hj]) (by simp)
    refine ⟨_, ?_, ⟨hB, u.1, hi.tmp⟩, ?_⟩
    · unfold deletePtr
      simp only [bind, Prog.bind, e]
      rfl
    · rw [u.2]; simp

/-- The move constructor of `segment`. -/
theorem moveCtor_ok {i j : Nat} {s : Handle} {h : Heap V} {w : World} (hi : Inv h w) (hn : h.segs i = none) (hs : h.segs j = some s) :
    ∃ h', (do setHandle i (some s); setHandle j (some ⟨none, s.snt⟩) : Prog (Heap V) Unit) h w = .ok () h' w ∧ Inv h' w ∧ abs h' = ((abs h).upd i (abs h j)).upd j (some none) := by
  have hij : i ≠ j := fun e => by rw [e, hs] at hn; cases hn
  have back : ∀ m t o, (if m = j then some ⟨none, s.snt⟩ else if m = i then some s else h.segs m) = some t → t.ptr = some o → h.segs (if m = i then j else m) = some t ∧ m ≠ j := by
    intro m t o ht ho
    split at ht
    · cases ht; cases ho
    · split at ht
      · cases ht; next e1 e2 => rw [if_pos e2]; exact ⟨hs, e1⟩
      · next e1 e2 => rw [if_neg e2]; exact ⟨ht, e1⟩
  refine ⟨{ h with segs := fun m => if m = j then some ⟨none, s.snt⟩ else if m = i then some s else h.segs m }, rfl, ⟨hi.acc, ⟨?_, ?_, ?_⟩, hi.tmp⟩, ?_⟩
  · intro m t o ht ho
    exact hi.own.has _ t o (back m t o ht ho).1 ho
  · intro m m' t t' o o' ht ht' ho ho' e
    have b := back m t o ht ho
    have b' := back m' t' o' ht' ho'
    have := hi.own.inj _ _ t t' o o' b.1 b'.1 ho ho' e
    by_cases h1 : m = i <;> by_cases h2 : m' = i
    · rw [h1, h2]
    · rw [if_pos h1, if_neg h2] at this; exact absurd this.symm b'.2
    · rw [if_neg h1, if_pos h2] at this; exact absurd this b.2
    · rwa [if_neg h1, if_neg h2] at this
  · intro p hpm
    obtain ⟨m, t, o, g1, g2, g3⟩ := hi.own.all p hpm
    by_cases hm : m = j
    · refine ⟨i, t, o, ?_, g2, g3⟩
      subst hm
      rw [hs] at g1; cases g1
      simp [hij]
    · refine ⟨m, t, o, ?_, g2, g3⟩
      have : m ≠ i := fun e => by subst e; rw [hn] at g1; cases g1
      simp [hm, this, g1]
  · funext m
    unfold Vars.upd
    by_cases h1 : m = j
    · simp [abs, h1]
    · by_cases h2 : m = i
      · simp [abs, h2, hij, hs]
      · simp [abs, h1, h2]

end Heap
end PolyColl
