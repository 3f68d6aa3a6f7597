import Verif.Lemmas.Keeps
/-!
# What operations on collections keep, whatever their outcome

`Keeps (collCtx E k) p` says: if `p` returns or throws, look-up is still right and every segment
still has the right type and allocator (`TMap.Inv`), no registered type is lost, and the order of
segments changes only if a type was added.  Nothing is asked of the contents of the segments, so
these hold also after operations that threw and left segments in a bad state.
-/

namespace PolyColl
open Prog

namespace Coll
variable {V : Type} (E : Env V)

/-- `c'` came from `c`: same allocator, nothing unregistered, same order unless something was
registered; the nodes of the map are still there, and it is not rehashed unless something was registered. -/
structure Stays (c c' : Coll V) : Prop where
  kind : c'.kind = c.kind
  al : c'.map.al = c.map.al
  types : ∀ t ∈ c.abs.types, t ∈ c'.abs.types
  order : c'.abs.types = c.abs.types ∨ ∃ t ∈ c'.abs.types, t ∉ c.abs.types
  nodes : ∀ n ∈ c.map.nodes, ∃ n' ∈ c'.map.nodes, n'.id = n.id ∧ n'.key = n.key
  gen : c'.map.gen = c.map.gen ∨ ∃ t ∈ c'.abs.types, t ∉ c.abs.types
  next : c.map.gen ≤ c'.map.gen

theorem Stays.refl (c : Coll V) : Stays c c := ⟨rfl, rfl, fun _ h => h, .inl rfl, fun n h => ⟨n, h, rfl, rfl⟩, .inl rfl, Nat.le_refl _⟩

theorem Stays.trans {a b c : Coll V} (h : Stays a b) (h' : Stays b c) : Stays a c := by
  refine ⟨h'.kind.trans h.kind, h'.al.trans h.al, fun t ht => h'.types t (h.types t ht), ?_, ?_, ?_, Nat.le_trans h.next h'.next⟩
  · rcases h.order with e | ⟨t, h1, h2⟩
    · rw [← e]; exact h'.order
    · exact .inr ⟨t, h'.types t h1, h2⟩
  · intro n hn
    obtain ⟨n1, h1, h2, h3⟩ := h.nodes n hn
    obtain ⟨n2, h4, h5, h6⟩ := h'.nodes n1 h1
    exact ⟨n2, h4, h5.trans h2, h6.trans h3⟩
  · rcases h.gen with e | ⟨t, h1, h2⟩
    · rcases h'.gen with e' | ⟨t, h1, h2⟩
      · exact .inl (e'.trans e)
      · exact .inr ⟨t, h1, fun hm => h2 (h.types t hm)⟩
    · exact .inr ⟨t, h'.types t h1, h2⟩

/-- The invariant and the relation for collections of kind `k`. -/
def collCtx (k : Kind) : Ctx (Coll V) where
  I c w := c.kind = k ∧ c.map.Inv E k w
  T := Stays
  refl := Stays.refl
  trans _ _ _ h h' := h.trans h'
  weaken _ _ _ h hw := ⟨h.1, h.2.weaken E hw⟩

theorem Stays.of_types {c c' : Coll V} (hk : c'.kind = c.kind) (ha : c'.map.al = c.map.al) (ht : c'.abs.types = c.abs.types)
    (hn : ∀ n ∈ c.map.nodes, ∃ n' ∈ c'.map.nodes, n'.id = n.id ∧ n'.key = n.key) (hg : c'.map.gen = c.map.gen) : Stays c c' :=
  ⟨hk, ha, fun t h => by rw [ht]; exact h, .inl ht, hn, .inl hg, Nat.le_of_eq hg.symm⟩

theorem SameNodes.stays {c c' : Coll V} (hk : c'.kind = c.kind) (h : TMap.SameNodes c.map c'.map) : Stays c c' :=
  .of_types hk h.al (by simp only [Coll.abs, TMap.abs, h.nodes]) (fun n hn => ⟨n, h.nodes ▸ hn, rfl, rfl⟩) h.gen

theorem Ens.stays {c c' : Coll V} {w w' : World} {t : Ty} {n : Node V} (h : Ens E c w t n c' w') (hi : c.map.Inv E c.kind w) : Stays c c' := by
  refine ⟨h.kind, h.added.al E, fun u hu => ?_, ?_, ?_, ?_, ?_⟩
  · exact ((h.abs E hi).types u).2 (.inl hu)
  · rcases h.abs E hi with ⟨h1, h2⟩ | ⟨h1, h2⟩
    · exact .inl (by rw [h2])
    · exact .inr ⟨t, (h.abs E hi).mem, h1⟩
  · intro a ha
    cases h.added with
    | old h1 => exact ⟨a, h1.nodes ▸ ha, rfl, rfl⟩
    | new _ hp => exact ⟨a, hp.mem_iff.2 (List.mem_append_left _ ha), rfl, rfl⟩
  · cases h.added with
    | old h1 => exact .inl h1.gen
    | new h1 hp =>
      refine .inr ⟨t, (h.abs E hi).mem, fun hm => ?_⟩
      obtain ⟨a, ha, he⟩ := types_mem hm
      exact h1 a ha ((hi.ty a ha).symm.trans he)
  · cases h.added with
    | old h1 => exact Nat.le_of_eq h1.gen.symm
    | new _ _ _ _ _ _ hg => exact hg

theorem EnsFail.stays {c c' : Coll V} {w w' : World} {t : Ty} {e : Exc} (h : EnsFail E c w t e c' w') (hi : c.map.Inv E c.kind w) : Stays c c' := by
  rcases h.nodes with h1 | ⟨n, h1⟩
  · exact SameNodes.stays h.kind h1
  · exact h1.stays E hi

variable {k : Kind}

theorem ens_ctx {c c' : Coll V} {w w' : World} {t : Ty} {n : Node V} (hc : (collCtx E k).I c w) (h : Ens E c w t n c' w') :
    (collCtx E k).I c' w' ∧ (collCtx E k).T c c' ∧ w.next ≤ w'.next := by
  obtain ⟨rfl, hi⟩ := hc
  exact ⟨⟨h.kind, by rw [← h.kind]; exact h.inv⟩, h.stays E hi, h.next⟩

theorem ensFail_ctx {c c' : Coll V} {w w' : World} {t : Ty} {e : Exc} (hc : (collCtx E k).I c w) (h : EnsFail E c w t e c' w') :
    (collCtx E k).I c' w' ∧ (collCtx E k).T c c' ∧ w.next ≤ w'.next := by
  obtain ⟨rfl, hi⟩ := hc
  exact ⟨⟨h.kind, by rw [← h.kind]; exact h.inv⟩, h.stays E hi, h.next⟩

theorem insertNew_keeps (t : TI) : Keeps (collCtx E k) (insertNew E t) :=
  Keeps.of_runs fun c w hc => (insertNew_runs E t c w (by rw [hc.1]; exact hc.2)).mono
    (fun _ _ _ h => by obtain ⟨n, h, _⟩ := h; exact ens_ctx E hc h) (fun _ _ _ h => ensFail_ctx E hc h)

theorem registerTypes_keeps (ts : List TI) : Keeps (collCtx E k) (registerTypes E ts) := by
  induction ts with
  | nil => exact Keeps.pure'
  | cons t ts ih => exact Keeps.bind (insertNew_keeps E t) fun _ => ih

theorem forT_keeps (t : TI) : Keeps (collCtx E k) (forT E t) :=
  Keeps.of_runs fun c w hc => (forT_runs E t c w (by rw [hc.1]; exact hc.2)).mono
    (fun _ _ _ h => by obtain ⟨n, h, _⟩ := h; exact ens_ctx E hc h) (fun _ _ _ h => ensFail_ctx E hc h)

theorem forInfo_keeps (t : TI) : Keeps (collCtx E k) (forInfo E t) := by unfold forInfo; keeps

theorem forProto_keeps (id : TI) (s : Seg V) (hk : s.kind = k) (ht : s.ty = E.tiTy id) : Keeps (collCtx E k) (forProto E id s) :=
  Keeps.of_runs fun c w hc => (forProto_runs E id s c w (by rw [hc.1]; exact hc.2) (by rw [hk, hc.1]) ht).mono
    (fun _ _ _ h => by obtain ⟨n, h, _⟩ := h; exact ens_ctx E hc h) (fun _ _ _ h => ensFail_ctx E hc h)

theorem forArg_keeps (a : Arg V) (ha : Arg.OK E a) : Keeps (collCtx E k) (forArg E a) :=
  Keeps.of_runs fun c w hc => (forArg_runs E a ha c w (by rw [hc.1]; exact hc.2)).mono
    (fun _ _ _ h => by obtain ⟨n, h, _⟩ := h; exact ens_ctx E hc h)
    (fun e c' w' h => by
      rcases h with h | ⟨-, h1, h2, h3, h4, -⟩
      · exact ensFail_ctx E hc h
      · obtain ⟨rfl, hi⟩ := hc
        exact ⟨⟨h3, by rw [← h3]; exact h1⟩, SameNodes.stays h3 h2, h4⟩)

theorem onSeg_keeps {α : Type} (it : MapIt) {p : Prog (Seg V) α} (hp : Keeps (sameCtx Seg.fix) p) :
    Keeps (collCtx E k) (onMap (TMap.onSeg E it p)) := by
  refine ⟨fun c w hc => ?_⟩
  obtain ⟨hk, hi⟩ := hc
  unfold onMap Prog.zoom TMap.onSeg
  cases hn : c.map.node? E it with
  | none => trivial
  | some n =>
    have hm : n ∈ c.map.nodes := by
      unfold TMap.node? at hn
      split at hn
      · split at hn
        · exact List.mem_of_find?_eq_some hn
        · simp at hn
      · simp at hn
    have := hp.run n.seg w trivial
    have key : ∀ s : Seg V, s.fix = n.seg.fix → ∀ w' : World, w.next ≤ w'.next →
        (collCtx E k).I { c with map := c.map.put n s } w' ∧ (collCtx E k).T c { c with map := c.map.put n s } := by
      intro s hs w' hw
      have hf := Seg.fix_frame.1 hs
      refine ⟨⟨hk, TMap.put_inv E hi hm hf hw⟩, .of_types rfl rfl ?_ ?_ rfl⟩
      · simp only [Coll.abs]
        rw [TMap.put_abs E hi hm hf.ty, Spec.State.update_types]
      · intro x hx
        exact ⟨_, List.mem_map.2 ⟨x, hx, rfl⟩, by split <;> rfl, by split <;> rfl⟩
    simp only
    cases hps : p n.seg w with
    | ub => trivial
    | ok a s w' =>
      rw [hps] at this
      obtain ⟨-, h1, h2⟩ := this
      have := key s h1 w' h2
      exact ⟨this.1, this.2, h2⟩
    | exc a s w' =>
      rw [hps] at this
      obtain ⟨-, h1, h2⟩ := this
      have := key s h1 w' h2
      exact ⟨this.1, this.2, h2⟩

/-- Nodes with the same names and frames. -/
def NodeFrame (a b : Node V) : Prop := b.id = a.id ∧ b.key = a.key ∧ TMap.SegFrame a.seg b.seg

theorem go_keeps {p : Prog (Seg V) Unit} (hp : Keeps (sameCtx Seg.fix) p) : ∀ (l : List (Node V)) (w : World),
    match TMap.onAll.go p l w with
    | .ok _ l' w' => All2 NodeFrame l l' ∧ w.next ≤ w'.next
    | .exc _ l' w' => All2 NodeFrame l l' ∧ w.next ≤ w'.next
    | .ub => True
  | [], w => ⟨.nil, Nat.le_refl _⟩
  | n :: ns, w => by
    have h1 := hp.run n.seg w trivial
    have refl : All2 NodeFrame ns ns := All2.refl ns (fun a _ => ⟨rfl, rfl, rfl, rfl, rfl, rfl⟩)
    unfold TMap.onAll.go
    cases hps : p n.seg w with
    | ub => trivial
    | exc a s w' => rw [hps] at h1; exact ⟨.cons ⟨rfl, rfl, Seg.fix_frame.1 h1.2.1⟩ refl, h1.2.2⟩
    | ok a s w' =>
      rw [hps] at h1
      have h2 := go_keeps hp ns w'
      simp only
      cases hg : TMap.onAll.go p ns w' with
      | ub => trivial
      | ok a s w' => rw [hg] at h2; exact ⟨.cons ⟨rfl, rfl, Seg.fix_frame.1 h1.2.1⟩ h2.1, by have := h1.2.2; have := h2.2; omega⟩
      | exc a s w' => rw [hg] at h2; exact ⟨.cons ⟨rfl, rfl, Seg.fix_frame.1 h1.2.1⟩ h2.1, by have := h1.2.2; have := h2.2; omega⟩

theorem nodeFrame_types {l l' : List (Node V)} (h : All2 NodeFrame l l') : l'.map (fun n => n.seg.ty) = l.map fun n => n.seg.ty :=
  TMap.All2.map_eq (fun _ _ h => h.2.2.ty) h

theorem frame_ctx {c : Coll V} {w w' : World} {l : List (Node V)} (hc : (collCtx E k).I c w) (hl : All2 NodeFrame c.map.nodes l) (hw : w.next ≤ w'.next) :
    (collCtx E k).I { c with map := { c.map with nodes := l } } w' ∧ (collCtx E k).T c { c with map := { c.map with nodes := l } } := by
  obtain ⟨hk, hi⟩ := hc
  refine ⟨⟨hk, TMap.frame_inv E hi hw hl⟩, .of_types rfl rfl ?_ (fun n hn => ?_) rfl⟩
  · simp only [Coll.abs, TMap.abs_types]
    exact nodeFrame_types hl
  · obtain ⟨n', h1, h2, h3, -⟩ := hl.mem' hn
    exact ⟨n', h1, h2, h3⟩

theorem onAll_keeps {p : Prog (Seg V) Unit} (hp : Keeps (sameCtx Seg.fix) p) : Keeps (collCtx E k) (onMap (TMap.onAll p)) := by
  refine ⟨fun c w hc => ?_⟩
  have h1 := go_keeps hp c.map.nodes w
  unfold onMap Prog.zoom TMap.onAll Prog.zoom
  simp only
  cases hg : TMap.onAll.go p c.map.nodes w with
  | ub => trivial
  | ok a l w' => rw [hg] at h1; have := frame_ctx E hc h1.1 h1.2; exact ⟨this.1, this.2, h1.2⟩
  | exc a l w' => rw [hg] at h1; have := frame_ctx E hc h1.1 h1.2; exact ⟨this.1, this.2, h1.2⟩

end Coll

macro_rules | `(tactic| kstep) => `(tactic| with_reducible exact Coll.forT_keeps _ _)
macro_rules | `(tactic| kstep) => `(tactic| with_reducible exact Coll.forInfo_keeps _ _)
macro_rules | `(tactic| kstep) => `(tactic| with_reducible exact Coll.forArg_keeps _ _ (by assumption))
macro_rules | `(tactic| kstep) => `(tactic| with_reducible exact Coll.forProto_keeps _ _ _ (by assumption) (by assumption))
macro_rules | `(tactic| kstep) => `(tactic| with_reducible apply Coll.onSeg_keeps)
macro_rules | `(tactic| kstep) => `(tactic| with_reducible apply Coll.onAll_keeps)

namespace Coll
variable {V : Type} (E : Env V) {k : Kind}

theorem downcast_keeps {α : Type} (t : Ty) {p : Prog (Seg V) α} (hp : Keeps (sameCtx Seg.fix) p) : Keeps (sameCtx Seg.fix) (downcast t p) := by
  unfold downcast; keeps
macro_rules | `(tactic| kstep) => `(tactic| with_reducible apply Coll.downcast_keeps)

theorem retIter_keeps (it : MapIt) (p : Ptr) : Keeps (collCtx E k) (retIter E it p) := by unfold retIter; keeps
macro_rules | `(tactic| kstep) => `(tactic| with_reducible exact Coll.retIter_keeps _ _ _)
theorem retIterEnd_keeps (it e : MapIt) (p : Ptr) : Keeps (collCtx E k) (retIterEnd E it e p) := by unfold retIterEnd; keeps
macro_rules | `(tactic| kstep) => `(tactic| with_reducible exact Coll.retIterEnd_keeps _ _ _ _)

theorem beginInfo_keeps (t : TI) : Keeps (collCtx E k) (beginInfo E t) := by unfold beginInfo; keeps
theorem endInfo_keeps (t : TI) : Keeps (collCtx E k) (endInfo E t) := by unfold endInfo; keeps
theorem query_keeps {α : Type} (f : Seg V → α) (t : TI) : Keeps (collCtx E k) (query E f t) := by unfold query; keeps
theorem reserveAll_keeps (n : Nat) : Keeps (collCtx E k) (reserveAll E n) := by unfold reserveAll; keeps
theorem reserveInfo_keeps (t : TI) (n : Nat) : Keeps (collCtx E k) (reserveInfo E t n) := by unfold reserveInfo; keeps
theorem reserveT_keeps (t : TI) (n : Nat) : Keeps (collCtx E k) (reserveT E t n) := by unfold reserveT; keeps
theorem shrinkAll_keeps : Keeps (collCtx E k) (shrinkAll E) := by unfold shrinkAll; keeps
theorem shrinkInfo_keeps (t : TI) : Keeps (collCtx E k) (shrinkInfo E t) := by unfold shrinkInfo; keeps
theorem emplace_keeps (t : TI) (src : Src V) : Keeps (collCtx E k) (emplace E t src) := by unfold emplace; keeps
theorem emplaceHint_keeps (h : GIter) (t : TI) (src : Src V) : Keeps (collCtx E k) (emplaceHint E h t src) := by unfold emplaceHint; keeps
theorem emplacePosBase_keeps (p : LIter) (t : TI) (src : Src V) : Keeps (collCtx E k) (emplacePosBase E p t src) := by unfold emplacePosBase; keeps
theorem emplacePosLocal_keeps (p : LIter) (t : TI) (src : Src V) : Keeps (collCtx E k) (emplacePosLocal E p t src) := by unfold emplacePosLocal; keeps
theorem pushBackArg_keeps (it : MapIt) (a : Arg V) : Keeps (collCtx E k) (pushBackArg E it a) := by unfold pushBackArg; keeps
macro_rules | `(tactic| kstep) => `(tactic| with_reducible exact Coll.pushBackArg_keeps _ _ _)
theorem insert_keeps (a : Arg V) (ha : Arg.OK E a) : Keeps (collCtx E k) (insert E a) := by unfold insert; keeps
theorem insertHint_keeps (h : GIter) (a : Arg V) (ha : Arg.OK E a) : Keeps (collCtx E k) (insertHint E h a) := by unfold insertHint; keeps
theorem insertPosBase_keeps (p : LIter) (a : Arg V) : Keeps (collCtx E k) (insertPosBase E p a) := by unfold insertPosBase; keeps
theorem insertPosLocal_keeps (p : LIter) (a : Arg V) : Keeps (collCtx E k) (insertPosLocal E p a) := by unfold insertPosLocal; keeps
theorem insertRange_keeps (as : List (Arg V)) (ha : ∀ a ∈ as, Arg.OK E a) : Keeps (collCtx E k) (insertRange E as) := by
  induction as with
  | nil => exact Keeps.pure'
  | cons a as ih => exact Keeps.bind (insert_keeps E a (ha a (by simp))) fun _ => ih (fun b hb => ha b (by simp [hb]))
theorem insertRangeTerminal_keeps (fwd : Bool) (t : TI) (srcs : List (Src V)) : Keeps (collCtx E k) (insertRangeTerminal E fwd t srcs) := by
  unfold insertRangeTerminal; keeps
theorem insertFrom_keeps (xs : List (Item V)) (hx : ∀ x ∈ xs, x.proto.kind = k ∧ x.proto.ty = E.tiTy x.id) : Keeps (collCtx E k) (insertFrom E xs) := by
  induction xs with
  | nil => exact Keeps.pure'
  | cons x xs ih =>
    have h := hx x (by simp)
    exact Keeps.bind (forProto_keeps E _ _ h.1 h.2) fun _ => Keeps.bind (by keeps) fun _ => ih (fun b hb => hx b (by simp [hb]))
theorem insertFromLocal_keeps (id : TI) (s : Seg V) (vs : List V) (hk : s.kind = k) (ht : s.ty = E.tiTy id) :
    Keeps (collCtx E k) (insertFromLocal E id s vs) := by unfold insertFromLocal; keeps
theorem hintStep_keeps (h : GIter) (it : MapIt) (t : Ty) (src : Src V) : Keeps (collCtx E k) (hintStep E h it t src) := by unfold hintStep; keeps
macro_rules | `(tactic| kstep) => `(tactic| with_reducible exact Coll.hintStep_keeps _ _ _ _ _)
theorem insertHintRange_keeps (as : List (Arg V)) (ha : ∀ a ∈ as, Arg.OK E a) : ∀ h, Keeps (collCtx E k) (insertHintRange E h as) := by
  induction as with
  | nil => intro h; exact Keeps.pure'
  | cons a as ih =>
    intro h
    exact Keeps.bind (forArg_keeps E a (ha a (by simp))) fun _ => Keeps.bind (hintStep_keeps E _ _ _ _) fun _ => ih (fun b hb => ha b (by simp [hb])) _
theorem insertHintRangeTerminal_keeps (h : GIter) (fwd : Bool) (t : TI) (srcs : List (Src V)) :
    Keeps (collCtx E k) (insertHintRangeTerminal E h fwd t srcs) := by unfold insertHintRangeTerminal; keeps
theorem insertHintFrom_keeps (xs : List (Item V)) (hx : ∀ x ∈ xs, x.proto.kind = k ∧ x.proto.ty = E.tiTy x.id) :
    ∀ h, Keeps (collCtx E k) (insertHintFrom E h xs) := by
  induction xs with
  | nil => intro h; exact Keeps.pure'
  | cons x xs ih =>
    intro h
    have h' := hx x (by simp)
    exact Keeps.bind (forProto_keeps E _ _ h'.1 h'.2) fun _ => Keeps.bind (hintStep_keeps E _ _ _ _) fun _ => ih (fun b hb => hx b (by simp [hb])) _
theorem hintLoop_keeps (it : MapIt) (t : Ty) (vs : List V) : ∀ h, Keeps (collCtx E k) (hintLoop E h it t vs) := by
  induction vs with
  | nil => intro h; exact Keeps.pure'
  | cons v vs ih => intro h; exact Keeps.bind (hintStep_keeps E _ _ _ _) fun _ => ih _
macro_rules | `(tactic| kstep) => `(tactic| with_reducible exact Coll.hintLoop_keeps _ _ _ _ _)
theorem insertHintFromLocal_keeps (h : GIter) (id : TI) (s : Seg V) (vs : List V) (hk : s.kind = k) (ht : s.ty = E.tiTy id) :
    Keeps (collCtx E k) (insertHintFromLocal E h id s vs) := by unfold insertHintFromLocal; keeps
theorem posLoopBase_keeps (it : MapIt) (as : List (Arg V)) : ∀ p, Keeps (collCtx E k) (posLoopBase E it p as) := by
  induction as with
  | nil => intro p; exact Keeps.pure'
  | cons a as ih => intro p; exact Keeps.bind (by keeps) fun _ => ih _
macro_rules | `(tactic| kstep) => `(tactic| with_reducible exact Coll.posLoopBase_keeps _ _ _ _)
theorem insertPosRangeBase_keeps (p : LIter) (as : List (Arg V)) : Keeps (collCtx E k) (insertPosRangeBase E p as) := by unfold insertPosRangeBase; keeps
theorem posLoopLocal_keeps (it : MapIt) (t : Ty) (srcs : List (Src V)) : ∀ p, Keeps (collCtx E k) (posLoopLocal E it t p srcs) := by
  induction srcs with
  | nil => intro p; exact Keeps.pure'
  | cons a as ih => intro p; exact Keeps.bind (by keeps) fun _ => Keeps.bind (by keeps) fun _ => Keeps.bind (by keeps) fun _ => ih _
macro_rules | `(tactic| kstep) => `(tactic| with_reducible exact Coll.posLoopLocal_keeps _ _ _ _ _)
theorem insertPosRangeLocal_keeps (p : LIter) (t : TI) (srcs : List (Src V)) : Keeps (collCtx E k) (insertPosRangeLocal E p t srcs) := by
  unfold insertPosRangeLocal; keeps
theorem erase_keeps (p : GIter) : Keeps (collCtx E k) (erase E p) := by unfold erase; keeps
theorem eraseLocalBase_keeps (p : LIter) : Keeps (collCtx E k) (eraseLocalBase E p) := by unfold eraseLocalBase; keeps
theorem eraseLocal_keeps (p : LIter) : Keeps (collCtx E k) (eraseLocal E p) := by unfold eraseLocal; keeps
theorem eraseSpan_keeps (l e : MapIt) (p : Ptr) (n : Nat) : ∀ f, Keeps (collCtx E k) (eraseSpan E f l e p n) := by
  induction n with
  | zero => intro f; exact Keeps.undef
  | succ n ih =>
    intro f
    unfold eraseSpan
    repeat' (first | kstep | exact ih _ | intro _)
macro_rules | `(tactic| kstep) => `(tactic| with_reducible exact Coll.eraseSpan_keeps _ _ _ _ _ _)
theorem eraseRange_keeps (p q : GIter) : Keeps (collCtx E k) (eraseRange E p q) := by unfold eraseRange; keeps
theorem eraseLocalRangeBase_keeps (p q : LIter) : Keeps (collCtx E k) (eraseLocalRangeBase E p q) := by unfold eraseLocalRangeBase; keeps
theorem eraseLocalRange_keeps (p q : LIter) : Keeps (collCtx E k) (eraseLocalRange E p q) := by unfold eraseLocalRange; keeps
theorem clearAll_keeps : Keeps (collCtx E k) (clearAll : Prog (Coll V) Unit) := by unfold clearAll; keeps
theorem clearInfo_keeps (t : TI) : Keeps (collCtx E k) (clearInfo E t) := by unfold clearInfo; keeps

end Coll
end PolyColl
