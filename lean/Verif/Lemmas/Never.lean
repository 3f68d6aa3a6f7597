import Verif.Lemmas.Unharmed
import Verif.Lemmas.Leaves
import Verif.Lemmas.CopyFail
/-!
# Insertions that do not return

`Leaves p x w (fun _ _ _ => False) R`: `p` throws, leaving what `R` says, or its behaviour is
undefined.
-/

namespace PolyColl
open Prog

namespace Prog
variable {X α β : Type} {x : X} {w : World} {Q : α → X → World → Prop} {R : Exc → X → World → Prop}

theorem leaves_raise {e : Exc} : Leaves (raise e : Prog X α) x w Q R ↔ R e x w := Iff.rfl

theorem Leaves.bind {p : Prog X β} {f : β → Prog X α} {P : β → X → World → Prop} {S : Exc → X → World → Prop} (h : Leaves p x w P S)
    (hf : ∀ b x' w', P b x' w' → Leaves (f b) x' w' Q R) (hr : ∀ e x' w', S e x' w' → R e x' w') : Leaves (p >>= f) x w Q R :=
  leaves_bind.2 (h.mono hf hr)

/-- A program that starts by not returning. -/
theorem Leaves.stop {p : Prog X β} {f : β → Prog X α} (h : Leaves p x w (fun _ _ _ => False) R) : Leaves (p >>= f) x w Q R :=
  h.bind (fun _ _ _ h => h.elim) (fun _ _ _ h => h)

theorem leaves_false {p : Prog X α} (h : Leaves p x w (fun _ _ _ => False) R) :
    p x w = .ub ∨ ∃ e x' w', p x w = .exc e x' w' ∧ R e x' w' := by
  unfold Leaves at h
  split at h
  · exact h.elim
  · exact Or.inr ⟨_, _, _, by assumption, h⟩
  · exact Or.inl (by assumption)

end Prog

namespace Env
variable {V : Type} (E : Env V)

/-- Copying from an element that is not there. -/
theorem construct_dangling (t : Ty) (p : Ptr) (s : Vec V) (w : World) (h : s.deref p = none) {Q : V → Vec V → World → Prop} {R : Exc → Vec V → World → Prop} :
    Leaves (E.construct t (.copyAlias p)) s w Q R := by
  unfold construct
  simp only [leaves_bind, leaves_get, leaves_ofOption, h]
  exact fun _ h => nomatch h

theorem emplaceBack_dangling (t : Ty) (p : Ptr) (s : Vec V) (w : World) (h : s.deref p = none) (hs : s.size < s.cap) {R : Exc → Vec V → World → Prop} :
    Leaves (E.emplaceBack t (.copyAlias p)) s w (fun _ _ _ => False) R := by
  unfold emplaceBack
  rw [leaves_bind, leaves_get, if_pos hs]
  exact (E.construct_dangling t p s w h).stop

theorem emplaceAt_dangling (t : Ty) (n : Nat) (p : Ptr) (s : Vec V) (w : World) (h : s.deref p = none) (hs : s.size < s.cap) {R : Exc → Vec V → World → Prop} :
    Leaves (E.emplaceAt t n (.copyAlias p)) s w (fun _ _ _ => False) R := by
  unfold emplaceAt
  rw [leaves_bind, leaves_get, leaves_ite]
  refine ⟨fun _ => trivial, fun _ => ?_⟩
  rw [leaves_ite]
  refine ⟨fun _ => E.emplaceBack_dangling t p s w h hs, fun _ => ?_⟩
  rw [if_pos hs]
  exact (E.construct_dangling t p s w h).stop

/-- Elements that can be neither moved nor copied to another buffer. -/
def Stuck (t : Ty) : Prop := (E.traits t).copyable = false ∧ (E.traits t).nothrowMove = false

variable {E}

theorem relocate_stuck {X : Type} {t : Ty} (ht : E.Stuck t) {l : List V} (hl : l ≠ []) (x : X) (w : World) :
    Leaves (E.relocate t l : Prog X Unit) x w (fun _ _ _ => False) (fun _ _ _ => True) := by
  obtain ⟨a, l, rfl⟩ := List.exists_cons_of_ne_nil hl
  unfold relocate
  rw [ht.2, if_neg (by simp)]
  unfold Prog.each
  refine Leaves.stop ?_
  unfold copyVH
  rw [ht.1, if_neg (by simp)]
  trivial

theorem emplaceBack_stuck {t : Ty} (ht : E.Stuck t) (src : Src V) (s : Vec V) (w : World) (hs : s.cap ≤ s.size) (hne : s.elems ≠ []) :
    Leaves (E.emplaceBack t src) s w (fun _ _ _ => False) (fun _ _ _ => True) := by
  unfold emplaceBack
  rw [leaves_bind, leaves_get, if_neg (by omega), leaves_ite]
  refine ⟨fun _ => trivial, fun _ => ?_⟩
  refine Leaves.trivial.bind (fun _ _ _ _ => ?_) (fun _ _ _ h => h)
  refine Leaves.trivial.bind (fun _ _ _ _ => ?_) (fun _ _ _ h => h)
  exact (relocate_stuck ht hne _ _).stop

theorem emplaceAt_stuck {t : Ty} (ht : E.Stuck t) (n : Nat) (src : Src V) (s : Vec V) (w : World) (hs : s.cap ≤ s.size) (hne : s.elems ≠ []) :
    Leaves (E.emplaceAt t n src) s w (fun _ _ _ => False) (fun _ _ _ => True) := by
  unfold emplaceAt
  rw [leaves_bind, leaves_get, leaves_ite]
  refine ⟨fun _ => trivial, fun _ => ?_⟩
  rw [leaves_ite]
  refine ⟨fun _ => emplaceBack_stuck ht src s w hs hne, fun _ => ?_⟩
  rw [if_neg (by omega), leaves_ite]
  refine ⟨fun _ => trivial, fun _ => ?_⟩
  refine Leaves.trivial.bind (fun _ _ _ _ => ?_) (fun _ _ _ h => h)
  refine Leaves.trivial.bind (fun _ _ _ _ => ?_) (fun _ _ _ h => h)
  exact (relocate_stuck ht hne _ _).stop

theorem reserve_stuck {t : Ty} (ht : E.Stuck t) (n : Nat) (s : Vec V) (w : World) (hs : s.cap < n) (hne : s.elems ≠ []) :
    Leaves (E.reserve t n) s w (fun _ _ _ => False) (fun _ _ _ => True) := by
  unfold reserve
  rw [leaves_bind, leaves_get, leaves_ite]
  refine ⟨fun _ => trivial, fun _ => ?_⟩
  rw [if_neg (by omega)]
  refine Leaves.trivial.bind (fun _ _ _ _ => ?_) (fun _ _ _ h => h)
  exact (relocate_stuck ht hne _ _).stop

end Env

namespace Split
variable {V : Type} {E : Env V}

/-- What is thrown by an expansion. -/
def Throws (E : Env V) (x : Split V) (e : Exc) : Prop := ExcFrom E x.ty False (E.TooMany x.ty (x.s.size + 1)) e

theorem pushBack_dangling (p : Ptr) (x : Split V) (w : World) (h : x.Inv E w) (hf : x.s.size = x.s.cap) (hp : p.blk < w.next) :
    Leaves (pushBack E (.copyAlias p)) x w (fun _ _ _ => False) (fun e _ _ => Throws E x e) := by
  unfold pushBack
  refine (prereserve_runs E x w h).leaves.bind ?_ (fun _ _ _ h => h.2.2.2.2.2.2.2.1)
  rintro _ y w' ⟨-, hfr, -, -, hr, -, hb, -⟩
  have hb := (hb (by omega)).2
  rw [leaves_bind, leaves_get]
  refine Leaves.stop ?_
  unfold onS
  rw [leaves_zoom]
  exact E.emplaceBack_dangling _ p y.s w' (if_neg (fun h : p.blk = y.s.blk => by omega)) hr

theorem emplaceAt_dangling (q : PosArg) (p : Ptr) (x : Split V) (w : World) (h : x.Inv E w) (hf : x.s.size = x.s.cap) (hp : p.blk < w.next) :
    Leaves (emplaceAt E q (.copyAlias p)) x w (fun _ _ _ => False) (fun e _ _ => Throws E x e) := by
  unfold emplaceAt
  cases hq : x.iteratorFrom q with
  | none =>
    refine Leaves.stop ?_
    unfold prereserveAt
    rw [leaves_bind, leaves_get, if_pos hf, leaves_bind, leaves_ofOption]
    intro n hn
    rw [hq] at hn
    cases hn
  | some n =>
    refine (prereserveAt_runs E q n x w h hq).leaves.bind ?_ (fun _ _ _ h => h.2.2.2.2.2.2.2.1)
    rintro _ y w' ⟨-, -, -, -, -, -, hr, -, hb, -⟩
    have hb := (hb (by omega)).2
    rw [leaves_bind, leaves_get, leaves_bind, leaves_ofOption]
    intro m _
    refine Leaves.stop ?_
    unfold onS
    rw [leaves_zoom]
    exact E.emplaceAt_dangling _ m p y.s w' (if_neg (fun h : p.blk = y.s.blk => by omega)) hr

theorem expand_stuck (x : Split V) (w : World) (ht : E.Stuck x.ty) (hf : x.s.size = x.s.cap) (hne : x.s.elems ≠ []) :
    Leaves (expand E) x w (fun _ _ _ => False) (fun _ _ _ => True) := by
  unfold expand
  rw [leaves_bind, leaves_get]
  have hg := growth_gt x.s.size (E.maxSize x.ty)
  refine Leaves.bind (P := fun _ y _ => y.s = x.s) (S := fun _ _ _ => True) ?_ (fun _ y w' hy => ?_) (fun _ _ _ h => h)
  · unfold onI
    rw [leaves_zoom]
    exact Leaves.trivial.mono (fun _ _ _ _ => rfl) (fun _ _ _ h => h)
  · refine Leaves.stop ?_
    unfold onS
    rw [leaves_zoom]
    exact Env.reserve_stuck ht _ y.s w' (by rw [hy]; omega) (by rw [hy]; exact hne)

theorem pushBack_stuck (src : Src V) (x : Split V) (w : World) (ht : E.Stuck x.ty) (hf : x.s.size = x.s.cap) (hne : x.s.elems ≠ []) :
    Leaves (pushBack E src) x w (fun _ _ _ => False) (fun _ _ _ => True) := by
  unfold pushBack prereserve
  refine Leaves.stop ?_
  rw [leaves_bind, leaves_get, if_pos hf]
  exact expand_stuck x w ht hf hne

theorem emplaceAt_stuck (q : PosArg) (src : Src V) (x : Split V) (w : World) (ht : E.Stuck x.ty) (hf : x.s.size = x.s.cap) (hne : x.s.elems ≠ []) :
    Leaves (emplaceAt E q src) x w (fun _ _ _ => False) (fun _ _ _ => True) := by
  unfold emplaceAt prereserveAt
  refine Leaves.stop ?_
  rw [leaves_bind, leaves_get, if_pos hf, leaves_bind, leaves_ofOption]
  intro n _
  exact (expand_stuck x w ht hf hne).stop

end Split

namespace Packed
variable {V : Type} {E : Env V}

theorem pushBack_stuck (src : Src V) (x : Packed V) (w : World) (ht : E.Stuck x.ty) (hf : x.s.size = x.s.cap) (hne : x.s.elems ≠ []) :
    Leaves (pushBack E src) x w (fun _ _ _ => False) (fun _ _ _ => True) := by
  unfold pushBack
  rw [leaves_bind, leaves_get]
  refine Leaves.stop ?_
  unfold onS
  rw [leaves_zoom]
  exact Env.emplaceBack_stuck ht src x.s w (by omega) hne

theorem emplaceAt_stuck (p : Ptr) (src : Src V) (x : Packed V) (w : World) (ht : E.Stuck x.ty) (hf : x.s.size = x.s.cap) (hne : x.s.elems ≠ []) :
    Leaves (emplaceAt E p src) x w (fun _ _ _ => False) (fun _ _ _ => True) := by
  unfold emplaceAt
  rw [leaves_bind, leaves_get, leaves_bind, leaves_ofOption]
  intro n _
  refine Leaves.stop ?_
  unfold onS
  rw [leaves_zoom]
  exact Env.emplaceAt_stuck ht n src x.s w (by omega) hne

end Packed

namespace Seg
variable {V : Type} {E : Env V}

theorem filterRange_never {f : Prog (Packed V) (Ptr × Ptr)} {g : Prog (Split V) (Ptr × Ptr)} {s : Seg V} {w : World} {R : Exc → Prop}
    (h1 : ∀ x, s.be = .packed x → Leaves f x w (fun _ _ _ => False) (fun e _ _ => R e))
    (h2 : ∀ x, s.be = .split x → Leaves g x w (fun _ _ _ => False) (fun e _ _ => R e)) :
    Leaves (filterRange (Backend.run f g)) s w (fun _ _ _ => False) (fun e _ _ => R e) := by
  obtain ⟨be, snt⟩ := s
  cases be with
  | packed x =>
    have := h1 x rfl
    unfold Leaves at *
    unfold filterRange Backend.run
    dsimp only
    split at this <;> simp_all
  | split x =>
    have := h2 x rfl
    unfold Leaves at *
    unfold filterRange Backend.run
    dsimp only
    split at this <;> simp_all

end Seg

namespace Coll
variable {V : Type} {E : Env V}

theorem leaves_onSeg {α : Type} {it : MapIt} {t : Ty} {p : Prog (Seg V) α} {c : Coll V} {w : World} {R : Exc → Prop}
    (h : ∀ n ∈ c.map.nodes, n.seg.ty = t → Leaves p n.seg w (fun _ _ _ => False) (fun e _ _ => R e)) :
    Leaves (onMap (TMap.onSeg E it (downcast t p))) c w (fun _ _ _ => False) (fun e _ _ => R e) := by
  unfold onMap
  rw [leaves_zoom]
  unfold Leaves TMap.onSeg
  cases hn : c.map.node? E it with
  | none => trivial
  | some n =>
    have hm : n ∈ c.map.nodes := by
      unfold TMap.node? at hn
      split at hn
      · split at hn
        · exact List.mem_of_find?_eq_some hn
        · cases hn
      · cases hn
    simp only
    have : Leaves (downcast t p) n.seg w (fun _ _ _ => False) (fun e _ _ => R e) := by
      unfold downcast
      rw [leaves_bind, leaves_get, leaves_ite]
      exact ⟨fun ht => h n hm ht, fun _ => trivial⟩
    unfold Leaves at this
    split at this <;> simp_all

/-- If no way to insert into the segment of `t` returns, the operations that insert one element do not. -/
theorem inserts_never {c : Coll V} {w : World} (hc : c.Inv E w) {op : COp V} {t : Ty} {k : Nat} {src : Src V} (h : op.Inserts E c t k src)
    {n : Node V} (hn : n ∈ c.map.nodes) (ht : n.seg.ty = t) {R : Exc → Prop} (hR : ∀ e, TMap.InsExc E t e → R e)
    (h1 : ∀ w1 : World, w.next ≤ w1.next → Leaves (Seg.pushBack E src) n.seg w1 (fun _ _ _ => False) (fun e _ _ => R e))
    (h2 : ∀ (w1 : World) p, w.next ≤ w1.next → Leaves (Seg.emplace E p src) n.seg w1 (fun _ _ _ => False) (fun e _ _ => R e))
    (h3 : ∀ (w1 : World) p, w.next ≤ w1.next → Leaves (Seg.insertBase E p src) n.seg w1 (fun _ _ _ => False) (fun e _ _ => R e))
    (h4 : ∀ (w1 : World) p, w.next ≤ w1.next → Leaves (Seg.insertLocal E p src) n.seg w1 (fun _ _ _ => False) (fun e _ _ => R e)) :
    Leaves (op.run E) c w (fun _ _ _ => False) (fun e _ _ => R e) := by
  have one : ∀ {c1 : Coll V} {w1 : World} {m : Node V}, Ens E c w t m c1 w1 → ∀ a ∈ c1.map.nodes, a.seg.ty = t → a.seg = n.seg := by
    intro c1 w1 m ens a ha hat
    cases ens.added with
    | old hs hm =>
      rw [hs.nodes] at ha
      rw [eq_of_nodup (hc.map.nodup_ty E) ha hn (hat.trans ht.symm)]
    | new hnew =>
      exact absurd (by rw [← hc.map.ty n hn, ht]) (hnew n hn)
  have ref : ∀ {α : Type} {p : Prog (Seg V) α} {c1 : Coll V} {w1 : World} {m : Node V} {it : MapIt}, Ens E c w t m c1 w1 →
      Leaves p n.seg w1 (fun _ _ _ => False) (fun e _ _ => R e) →
      Leaves (onMap (TMap.onSeg E it (downcast t p))) c1 w1 (fun _ _ _ => False) (fun e _ _ => R e) := by
    intro α p c1 w1 m it ens hp
    exact leaves_onSeg fun a ha hat => one ens a ha hat ▸ hp
  have here := Ens.refl E hc.map hn
  rw [ht] at here
  cases op <;> simp only [COp.Inserts] at h <;> unfold COp.run <;> refine Leaves.stop ?_
  · obtain ⟨rfl, -, rfl⟩ := h
    unfold emplace
    refine (forT_runs E _ c w hc.map).leaves.bind ?_ (fun _ _ _ h => hR _ h.exc)
    rintro it c1 w1 ⟨m, ens, -⟩
    exact (ref ens (h1 w1 ens.next)).stop
  · obtain ⟨rfl, rfl, -⟩ := h
    unfold emplaceHint
    refine (forT_runs E _ c w hc.map).leaves.bind ?_ (fun _ _ _ h => hR _ h.exc)
    rintro it c1 w1 ⟨m, ens, -⟩
    rw [leaves_bind, leaves_get, leaves_bind, leaves_ofOption]
    intro same _
    dsimp only
    rw [leaves_ite]
    exact ⟨fun _ => (ref ens (h2 w1 _ ens.next)).stop, fun _ => (ref ens (h1 w1 ens.next)).stop⟩
  · obtain ⟨rfl, rfl, -⟩ := h
    exact (ref here (h2 w _ (Nat.le_refl _))).stop
  · obtain ⟨rfl, rfl, -⟩ := h
    exact (ref here (h2 w _ (Nat.le_refl _))).stop
  · obtain ⟨ha, rfl, -, rfl⟩ := h
    unfold insert pushBackArg
    refine (forArg_runs E _ ha c w hc.map).leaves.bind ?_ ?_
    · rintro it c1 w1 ⟨m, ens, -⟩
      exact (ref ens (h1 w1 ens.next)).stop
    · rintro e c1 w1 (h | ⟨-, -, -, -, -, h, -⟩)
      · exact hR _ h.exc
      · exact absurd ht (h n hn)
  · obtain ⟨ha, rfl, rfl, -⟩ := h
    unfold insertHint pushBackArg
    refine (forArg_runs E _ ha c w hc.map).leaves.bind ?_ ?_
    · rintro it c1 w1 ⟨m, ens, -⟩
      rw [leaves_bind, leaves_get, leaves_bind, leaves_ofOption]
      intro same _
      dsimp only
      rw [leaves_ite]
      exact ⟨fun _ => (ref ens (h3 w1 _ ens.next)).stop, fun _ => (ref ens (h1 w1 ens.next)).stop⟩
    · rintro e c1 w1 (h | ⟨-, -, -, -, -, h, -⟩)
      · exact hR _ h.exc
      · exact absurd ht (h n hn)
  · obtain ⟨ha, rfl, rfl, -⟩ := h
    exact (ref here (h3 w _ (Nat.le_refl _))).stop
  · obtain ⟨ha, rfl, rfl, -⟩ := h
    exact (ref here (h4 w _ (Nat.le_refl _))).stop

/-- Copying an element of a full segment of an `any_collection` into that segment. -/
theorem inserts_dangling {c : Coll V} {w : World} (hc : c.Inv E w) (hk : c.kind = .split) {op : COp V} {t : Ty} {k : Nat} {p : Ptr}
    (h : op.Inserts E c t k (.copyAlias p)) {n : Node V} (hn : n ∈ c.map.nodes) (ht : n.seg.ty = t) (hf : n.seg.size = n.seg.capacity)
    (hp : p.blk < w.next) :
    Leaves (op.run E) c w (fun _ _ _ => False) (fun e _ _ => ExcFrom E t False (E.TooMany t (n.seg.size + 1)) e) := by
  have hnk := (hc.map.kind n hn).trans hk
  have hi := fun w1 (h : w.next ≤ w1.next) => (Backend.Inv.weaken E (hc.mem.segs n hn).core h : n.seg.be.Inv E w1)
  obtain ⟨i, key, ⟨be, snt⟩⟩ := n
  cases be with
  | packed x => cases hnk
  | split x =>
    have hx : ∀ w1 : World, w.next ≤ w1.next → x.Inv E w1 := hi
    subst ht
    refine inserts_never hc h hn rfl (fun e he => ?_) (fun w1 hw => ?_) (fun w1 q hw => ?_) (fun w1 q hw => ?_) (fun w1 q hw => ?_)
    · exact ExcFrom.mono he id (fun h => h.mono E (by omega))
    all_goals
      refine Seg.filterRange_never (fun _ h => nomatch h) (fun y hy => ?_)
      cases hy
    · exact Split.pushBack_dangling p x w1 (hx w1 hw) hf (by omega)
    · exact Split.emplaceAt_dangling q p x w1 (hx w1 hw) hf (by omega)
    · rw [leaves_bind, leaves_get, leaves_bind, leaves_ofOption]
      intro r _
      exact Split.emplaceAt_dangling _ p x w1 (hx w1 hw) hf (by omega)
    · exact Split.emplaceAt_dangling _ p x w1 (hx w1 hw) hf (by omega)

/-- Inserting into a full segment whose elements can be neither moved nor copied. -/
theorem inserts_stuck {c : Coll V} {w : World} (hc : c.Inv E w) {op : COp V} {t : Ty} {k : Nat} {src : Src V}
    (h : op.Inserts E c t k src) {n : Node V} (hn : n ∈ c.map.nodes) (ht : n.seg.ty = t) (hf : n.seg.size = n.seg.capacity)
    (hne : n.seg.elems ≠ []) (hs : E.Stuck t) :
    Leaves (op.run E) c w (fun _ _ _ => False) (fun _ _ _ => True) := by
  obtain ⟨i, key, ⟨be, snt⟩⟩ := n
  subst ht
  cases be with
  | packed x =>
    refine inserts_never hc h hn rfl (R := fun _ => True) (fun e he => trivial) (fun w1 hw => ?_) (fun w1 q hw => ?_) (fun w1 q hw => ?_) (fun w1 q hw => ?_)
    all_goals
      refine Seg.filterRange_never (fun y hy => ?_) (fun _ h => nomatch h)
      cases hy
    · exact Packed.pushBack_stuck src x w1 hs hf hne
    · exact Packed.emplaceAt_stuck _ src x w1 hs hf hne
    · exact Packed.emplaceAt_stuck _ src x w1 hs hf hne
    · exact Packed.emplaceAt_stuck _ src x w1 hs hf hne
  | split x =>
    refine inserts_never hc h hn rfl (R := fun _ => True) (fun e he => trivial) (fun w1 hw => ?_) (fun w1 q hw => ?_) (fun w1 q hw => ?_) (fun w1 q hw => ?_)
    all_goals
      refine Seg.filterRange_never (fun _ h => nomatch h) (fun y hy => ?_)
      cases hy
    · exact Split.pushBack_stuck src x w1 hs hf hne
    · exact Split.emplaceAt_stuck q src x w1 hs hf hne
    · rw [leaves_bind, leaves_get, leaves_bind, leaves_ofOption]
      intro r _
      exact Split.emplaceAt_stuck _ src x w1 hs hf hne
    · exact Split.emplaceAt_stuck _ src x w1 hs hf hne

end Coll
end PolyColl
